import Verif.Props.FragmentSet
import Mathlib.Tactic.IntervalCases

/-!
C129: what `reverse_direction` and `scale_evs` do to exchange values and to traversals.
-/

namespace Frg

variable {F Q : Type} [DecidableEq F] [DecidableEq Q]

/-! ### specification -/

/-- the same flow with the other direction: its amount and node weight have the other sign -/
def FF.flip (f : FF F) : FF F := { f with dir := f.dir.comp, mag := -f.mag, nw := -f.nw }

/-- the amount that flows in is the same -/
theorem signed_flip (f : FF F) : signed f.flip.dir f.flip.mag = signed f.dir f.mag := by
  cases h : f.dir <;> simp [FF.flip, signed, Dir.comp, h]

/-- fragment i is not met when fragments in V are traversed: V is closed under child flows, and under the other fragments (and the reference
fragments of the fragments) that flows are terminated to -/
structure Apart (H : Heap F Q) (sc : Scen) (i : ℕ) (V : ℕ → Prop) : Prop where
  self : ¬V i
  kids : ∀ j, V j → ∀ c ∈ (H j).kids, V c
  target : ∀ j t k, V j → termOf (H j) sc = .ok t → t.target = .frag k → k ≠ j → V k ∧ ∀ n x, top H n k = .ok x → V x

/-! ### lemmas: fragments that do not meet i are traversed as before -/

theorem fgLoop_congr (visit visit' : ℕ → Res F) : ∀ (cs : List ℕ) (s : ℚ), (∀ c ∈ cs, visit' c = visit c) →
    fgLoop visit' cs s = fgLoop visit cs s := by
  intro cs
  induction cs with
  | nil => intros; rfl
  | cons c cs ih =>
    intro s h
    have ih' : ∀ s, fgLoop visit' cs s = fgLoop visit cs s := fun s => ih s fun d hd => h d (by simp [hd])
    simp only [fgLoop, h c (by simp), ih']

theorem fgLoop_mem (visit : ℕ → Res F) : ∀ (cs : List ℕ) (s : ℚ) l s' b, fgLoop visit cs s = .ok (l, s', some b) → b ∈ cs := by
  intro cs
  induction cs with
  | nil => intro s l s' b h; simp [fgLoop] at h
  | cons c cs ih =>
    intro s l s' b h
    rw [fgLoop] at h
    split at h
    · split at h
      · rename_i hh
        simp only [Except.ok.injEq, Prod.mk.injEq] at h
        obtain ⟨_, _, rfl⟩ := h
        exact List.mem_cons_of_mem _ (ih _ _ _ _ hh)
      · cases h
    · split at h
      · rename_i l' s'' b' hh
        simp only [Except.ok.injEq, Prod.mk.injEq, Option.some.injEq] at h
        obtain ⟨_, _, rfl⟩ := h
        cases b' with
        | none => simp
        | some b' => exact List.mem_cons_of_mem _ (ih _ _ _ _ hh)
      · cases h
    · cases h

theorem subLoop_congr (H H' : Heap F Q) (visit visit' : ℕ → ℚ → Res F) : ∀ (cs : List ℕ) (inv : List (FF F)),
    (∀ c ∈ cs, H' c = H c ∧ ∀ ev, visit' c ev = visit c ev) → subLoop H' visit' cs inv = subLoop H visit cs inv := by
  intro cs
  induction cs with
  | nil => intros; rfl
  | cons c cs ih =>
    intro inv h
    have ih' : ∀ inv, subLoop H' visit' cs inv = subLoop H visit cs inv := fun inv => ih inv fun d hd => h d (by simp [hd])
    simp only [subLoop, (h c (by simp)).1, (h c (by simp)).2, ih']

theorem fgNode_congr (E : Env F Q) (H H' : Heap F Q) (i : ℕ) (s s' : ℚ) (ff ff' : FF F) (visit visit' : ℕ → Option Q → Option ℚ → Res F)
    (hk : children (H' i) = children (H i)) (hc : (H' i).cons = (H i).cons) (hi : inbound E (H' i) s' = inbound E (H i) s)
    (hd : ∀ b ∈ children (H i), H' b = H b) (hv : ∀ c ∈ children (H i), ∀ cq b, visit' c cq b = visit c cq b) :
    fgNode E H' i s' ff' visit' = (fgNode E H i s ff visit).map fun l => ff' :: l.tail := by
  unfold fgNode
  simp only
  rw [hk, hc, hi, fgLoop_congr (fun c => visit c (H i).cons none) (fun c => visit' c (H i).cons none) _ _ (fun c hcm => hv c hcm _ _)]
  cases hl : fgLoop (fun c => visit c (H i).cons none) (children (H i)) (inbound E (H i) s) with
  | error e => rfl
  | ok r =>
    obtain ⟨l, s2, o⟩ := r
    cases o with
    | none => rfl
    | some b =>
      have hb := fgLoop_mem _ _ _ _ _ _ hl
      simp only [hd b hb, hv b hb]
      split <;> rfl

theorem fgLoop_stock (visit : ℕ → Res F) : ∀ (cs : List ℕ) (s s' : ℚ), (∀ c ∈ cs, visit c ≠ .error .foundBalance) →
    (∀ e, fgLoop visit cs s = .error e → fgLoop visit cs s' = .error e) ∧
    ∀ l x o, fgLoop visit cs s = .ok (l, x, o) → o = none ∧ ∃ x', fgLoop visit cs s' = .ok (l, x', none) := by
  intro cs
  induction cs with
  | nil =>
    intro s s' _
    refine ⟨fun e h => by simp [fgLoop] at h, fun l x o h => ?_⟩
    simp only [fgLoop, Except.ok.injEq, Prod.mk.injEq] at h
    obtain ⟨rfl, rfl, rfl⟩ := h
    exact ⟨rfl, _, rfl⟩
  | cons c cs ih =>
    intro s s' h
    have hc := h c (by simp)
    simp only [fgLoop]
    cases hv : visit c with
    | error e =>
      cases e <;> first | exact absurd hv hc | exact ⟨fun e h => h, by intros; contradiction⟩
    | ok r =>
      obtain ⟨l0, cons⟩ := r
      simp only
      obtain ⟨ih1, ih2⟩ := ih (s + cons.getD 0) (s' + cons.getD 0) (fun d hd => h d (by simp [hd]))
      cases hl : fgLoop visit cs (s + cons.getD 0) with
      | error e =>
        rw [ih1 e hl]
        exact ⟨fun e h => h, by intros; contradiction⟩
      | ok r =>
        obtain ⟨l1, x1, o1⟩ := r
        obtain ⟨rfl, x', hx'⟩ := ih2 l1 x1 o1 hl
        rw [hx']
        refine ⟨by intros; contradiction, fun l x o h => ?_⟩
        simp only [Except.ok.injEq, Prod.mk.injEq] at h
        obtain ⟨rfl, rfl, rfl⟩ := h
        exact ⟨rfl, x', rfl⟩

/-- the stock does not matter to a node that conserves nothing -/
theorem fgNode_stock (E : Env F Q) (H : Heap F Q) (i : ℕ) (s s' : ℚ) (ff : FF F) (visit : ℕ → Option Q → Option ℚ → Res F)
    (hc : (H i).cons = none) (hv : ∀ c b, visit c none b ≠ .error .foundBalance) :
    fgNode E H i s' ff visit = fgNode E H i s ff visit := by
  unfold fgNode inbound
  simp only [hc]
  obtain ⟨h1, h2⟩ := fgLoop_stock (fun c => visit c none none) (children (H i)) s s' (fun c _ => hv c none)
  cases hl : fgLoop (fun c => visit c none none) (children (H i)) s with
  | error e => rw [h1 e hl]
  | ok r =>
    obtain ⟨l, x, o⟩ := r
    obtain ⟨rfl, x', hx'⟩ := h2 l x o hl
    rw [hx']

theorem fgNode_cons (E : Env F Q) (H : Heap F Q) (i : ℕ) (s : ℚ) (ff : FF F) (visit : ℕ → Option Q → Option ℚ → Res F) :
    (fgNode E H i s ff visit).map (fun l => ff :: l.tail) = fgNode E H i s ff visit := by
  unfold fgNode
  simp only
  split
  · rfl
  · rfl
  · split <;> rfl

/-- what comes after the fragment's own flow -/
theorem subNode_congr (H H' : Heap F Q) (i : ℕ) (ff ff' : FF F) (inv internal : List (FF F)) (visit visit' : ℕ → ℚ → ℚ → Res F)
    (hk : children (H' i) = children (H i)) (ht : ff'.term = ff.term)
    (hdnw : ∀ m : FF F, ff'.nw / (if m.dir = (H' i).dir then -m.mag else m.mag) = ff.nw / (if m.dir = (H i).dir then -m.mag else m.mag))
    (hd : ∀ b ∈ children (H i), H' b = H b) (hv : ∀ c ∈ children (H i), ∀ w ev, visit' c w ev = visit c w ev) :
    subNode H' i ff' inv internal visit' = (subNode H i ff inv internal visit).map fun l =>
      match l with
      | [] => []
      | h :: r => (if ff.term.descend then ff' else { ff' with nw := h.nw, sub := h.sub }) :: r := by
  unfold subNode
  simp only
  rw [ht]
  cases inv.find? fun m => decide (m.flow = ff.term.flow) with
  | none => rfl
  | some m =>
    simp only
    by_cases hm : m.mag = 0
    · rw [if_pos hm, if_pos hm]; rfl
    · rw [if_neg hm, if_neg hm, hdnw m, hk]
      rw [subLoop_congr H H' (fun c ev => visit c (ff.nw / if m.dir = (H i).dir then -m.mag else m.mag) ev) _ _ _
        (fun c hc => ⟨hd c hc, fun ev => hv c hc _ ev⟩)]
      split
      · rfl
      · cases ff.term.descend <;> rfl

theorem subNode_cons (H : Heap F Q) (i : ℕ) (ff : FF F) (inv internal : List (FF F)) (visit : ℕ → ℚ → ℚ → Res F) :
    ((subNode H i ff inv internal visit).map fun l =>
      match l with
      | [] => []
      | h :: r => (if ff.term.descend then ff else { ff with nw := h.nw, sub := h.sub }) :: r) = subNode H i ff inv internal visit := by
  unfold subNode
  simp only
  cases inv.find? fun m => decide (m.flow = ff.term.flow) with
  | none => rfl
  | some m =>
    simp only
    by_cases hm : m.mag = 0
    · rw [if_pos hm]; rfl
    · rw [if_neg hm]
      cases subLoop H (fun c ev => visit c (ff.nw / if m.dir = (H i).dir then -m.mag else m.mag) ev) (children (H i))
          (inv.eraseP fun m => decide (m.flow = ff.term.flow)) with
      | error e => rfl
      | ok r => cases ff.term.descend <;> rfl

theorem top_parents {H H' : Heap F Q} (h : ∀ i, (H' i).parent = (H i).parent) : ∀ n i, top H' n i = top H n i := by
  intro n
  induction n with
  | zero => intros; rfl
  | succ n ih => intro i; simp only [top, h, ih]

/-- a heap that differs from H in the direction and exchange values of i only -/
structure But (H H' : Heap F Q) (i : ℕ) : Prop where
  other : ∀ j, j ≠ i → H' j = H j
  self : H' i = { H i with dir := (H' i).dir, evs := (H' i).evs }

theorem But.parent {H H' : Heap F Q} {i : ℕ} (h : But H H' i) (j : ℕ) : (H' j).parent = (H j).parent := by
  by_cases hj : j = i
  · subst hj; rw [h.self]
  · rw [h.other j hj]
theorem But.bal {H H' : Heap F Q} {i : ℕ} (h : But H H' i) (j : ℕ) : (H' j).bal = (H j).bal := by
  by_cases hj : j = i
  · subst hj; rw [h.self]
  · rw [h.other j hj]

theorem conserved_but {H H' : Heap F Q} {i : ℕ} (E : Env F Q) (h : But H H' i) (n : Node F Q) (ev : ℚ) (cq : Option Q) :
    conserved E H' n ev cq = conserved E H n ev cq := by
  unfold conserved
  simp only [h.bal]

/-- fragments apart from i are traversed as before -/
theorem travNode_apart (E : Env F Q) {H H' : Heap F Q} {sc : Scen} {i : ℕ} {V : ℕ → Prop} (hA : Apart H sc i V) (hB : But H H' i) (obs : Bool) :
    ∀ (fuel : ℕ) (seen : List ℕ) (j : ℕ) (up : ℚ) (cq : Option Q) (bal : Option ℚ), V j →
      travNode E H' sc obs fuel seen j up cq bal = travNode E H sc obs fuel seen j up cq bal := by
  have hV : ∀ j, V j → H' j = H j := fun j hj => hB.other j fun h => hA.self (h ▸ hj)
  intro fuel
  induction fuel with
  | zero => intros; rfl
  | succ fuel ih =>
    intro seen j up cq bal hj
    have henter : enter E H' sc obs seen j up cq bal = enter E H sc obs seen j up cq bal := by
      simp only [enter, hV j hj, conserved_but E hB]
    rw [travNode, travNode, henter, hV j hj]
    cases hen : enter E H sc obs seen j up cq bal with
    | error e => rfl
    | ok r =>
      obtain ⟨ff, cv⟩ := r
      simp only
      by_cases hleaf : ff.term.isNull = true ∨ (H j).bg = true ∨ ff.mag = 0
      · rw [if_pos hleaf, if_pos hleaf]
      · rw [if_neg hleaf, if_neg hleaf]
        have hterm : termOf (H j) sc = .ok ff.term := by
          unfold enter at hen
          split at hen
          · cases hen
          · split at hen
            · cases hen
            · split at hen
              · cases hen
              · rename_i t htt
                split at hen
                · cases hen
                · split at hen
                  · cases hen
                  · cases hen; exact htt
        have hch : ∀ c ∈ children (H j), V c := fun c hc => hA.kids j hj c ((mem_children _ _).1 hc)
        suffices hx : ∀ s, expand E H' sc obs (top H' fuel) (travNode E H' sc obs fuel) s j ff =
            expand E H sc obs (top H fuel) (travNode E H sc obs fuel) s j ff by rw [hx]
        intro s
        have hfg : ∀ b, fgFrom E H' sc obs (travNode E H' sc obs fuel) s j ff b = fgFrom E H sc obs (travNode E H sc obs fuel) s j ff b := by
          intro b
          unfold fgFrom
          rw [hV j hj]
          cases stock0 (H j) sc obs b with
          | error e => rfl
          | ok st =>
            simp only
            rw [fgNode_congr E H H' j st st ff ff (fun c cq bal => travNode E H sc obs fuel s c ff.nw cq bal) _ (by rw [hV j hj])
              (by rw [hV j hj]) (by rw [hV j hj]) (fun b hb => hV b (hch b hb)) (fun c hc cq b => ih s c ff.nw cq b (hch c hc)), fgNode_cons]
        unfold expand
        cases htt : ff.term.target with
        | null => rfl
        | process => exact hfg false
        | frag k =>
          simp only
          by_cases hkj : k = j
          · rw [if_pos hkj, if_pos hkj]; exact hfg true
          · rw [if_neg hkj, if_neg hkj]
            obtain ⟨hVk, hVt⟩ := hA.target j ff.term k hj hterm htt hkj
            rw [hV k hVk, top_parents hB.parent]
            by_cases hbg : (H k).bg = true
            · rw [if_pos hbg, if_pos hbg, ih [] k ff.nw none none hVk, hV j hj]
            · rw [if_neg hbg, if_neg hbg]
              cases htop : top H fuel k with
              | error e => rfl
              | ok x =>
                have hVx := hVt fuel x htop
                simp only
                rw [ih [] x 1 none none hVx, hV x hVx]
                cases travNode E H sc obs fuel [] x 1 none none with
                | error e => rfl
                | ok r =>
                  simp only
                  cases groupIos k (H x).flow (H x).dir r.1 true with
                  | error e => rfl
                  | ok g =>
                    simp only
                    rw [subNode_congr H H' j ff ff _ _ (fun c w ev => travNode E H sc obs fuel s c w none (some ev)) _ (by rw [hV j hj]) rfl
                      (by intro m; rw [hV j hj]) (fun b hb => hV b (hch b hb)) (fun c hc w ev => ih s c w none (some ev) (hch c hc)), subNode_cons]

/-! ### the reversed fragment -/

/-- all exchange values negated -/
def negEvs (evs : Dict Key (Option ℚ)) : Dict Key (Option ℚ) := evs.map fun kv => (kv.1, kv.2.map fun v => -1 * v)

theorem get?_negEvs (evs : Dict Key (Option ℚ)) (k : Key) : (negEvs evs).get? k = (evs.get? k).map (Option.map fun v => -1 * v) := by
  induction evs with
  | nil => rfl
  | cons a l ih =>
    obtain ⟨k', v⟩ := a
    unfold negEvs at ih ⊢
    rw [List.map_cons, Dict.get?, Dict.get?]
    by_cases h : k' = k
    · simp [h]
    · simp only [h, if_false]; exact ih

theorem has_negEvs (evs : Dict Key (Option ℚ)) (k : Key) : (negEvs evs).has k = evs.has k := by
  simp [Dict.has, get?_negEvs]

theorem matchEv_negEvs (evs : Dict Key (Option ℚ)) (sc : Scen) : matchEv (negEvs evs) sc = matchEv evs sc := by
  unfold matchEv
  have : (negEvs evs).has = evs.has := funext (has_negEvs evs)
  rw [this]

/-- the exchange value used is negated, if a nonzero value is cached -/
theorem exchangeValue_neg (n : Node F Q) (d : Dir) (sc : Scen) (obs : Bool) (hz : ∃ q, n.evs.get? .cached = some (some q) ∧ q ≠ 0) :
    exchangeValue { n with dir := d, evs := negEvs n.evs } sc obs = (exchangeValue n sc obs).map fun v => -v := by
  obtain ⟨q, hq, hq0⟩ := hz
  unfold exchangeValue
  simp only [matchEv_negEvs]
  cases matchEv n.evs sc with
  | error e => rfl
  | ok o =>
    cases o with
    | none =>
      cases obs with
      | false => simp [cachedEv, get?_negEvs, hq, hq0, Except.map]
      | true =>
        simp only [observedEv, get?_negEvs, hq, if_true, Except.map]
        cases hob : n.evs.get? .observed with
        | none => simp
        | some w =>
          cases w with
          | none => simp
          | some w =>
            by_cases hw : w = 0
            · simp [hw]; split <;> simp
            · simp [hw]
    | some k =>
      simp only [get?_negEvs, Except.map]
      cases n.evs.get? k with
      | none => simp
      | some w => cases w <;> simp

/-- what `reverse_direction` gives -/
theorem reverse_eq (H H' : Heap F Q) (i : ℕ) (h : reverseDirection H i = .ok () H') :
    H' = H.put i { H i with dir := (H i).dir.comp, evs := negEvs (H i).evs } := by
  unfold reverseDirection at h
  split at h
  · cases h
  · cases h; rfl

theorem But.of_reverse {H H' : Heap F Q} {i : ℕ} (h : reverseDirection H i = .ok () H') : But H H' i := by
  rw [reverse_eq H H' i h]
  exact ⟨fun j hj => put_ne _ _ hj, by rw [put_self]⟩

theorem neg_one_mul' (v : ℚ) : -1 * v = -v := by simp

theorem comp_output (d : Dir) : d.comp = .output ↔ ¬d = .output := by cases d <;> simp [Dir.comp]
theorem comp_input (d : Dir) : d.comp = .input ↔ ¬d = .input := by cases d <;> simp [Dir.comp]

/-- the conserved value reported is the same -/
theorem conserved_flip (E : Env F Q) (H : Heap F Q) (n : Node F Q) (evs : Dict Key (Option ℚ)) (ev : ℚ) (cq : Option Q) :
    conserved E H { n with dir := n.dir.comp, evs := evs } (-ev) cq = conserved E H n ev cq := by
  unfold conserved
  cases cq with
  | none => rfl
  | some q =>
    simp only
    cases n.bal with
    | true => rfl
    | false => cases n.dir <;> simp [Dir.comp]

variable {E : Env F Q} {H H' : Heap F Q} {sc : Scen} {i : ℕ} {V : ℕ → Prop} {obs : Bool}

/-- entering the reversed fragment -/
theorem enter_flip (hr : reverseDirection H i = .ok () H') (hp : (H i).parent ≠ none) (bal : Option ℚ)
    (hz : bal = none → ∃ q, (H i).evs.get? .cached = some (some q) ∧ q ≠ 0) (seen : List ℕ) (up : ℚ) (cq : Option Q) :
    enter E H' sc obs seen i up cq (bal.map fun v => -v) = (enter E H sc obs seen i up cq bal).map fun r => (r.1.flip, r.2) := by
  have hB := But.of_reverse hr
  have hself : H' i = { H i with dir := (H i).dir.comp, evs := negEvs (H i).evs } := by rw [reverse_eq H H' i hr, put_self]
  have hev : evOf (H' i) sc obs (bal.map fun v => -v) = (evOf (H i) sc obs bal).map fun v => -v := by
    cases bal with
    | some b => rfl
    | none => simp only [Option.map_none, evOf]; rw [hself]; exact exchangeValue_neg _ _ _ _ (hz rfl)
  have hterm : termOf (H' i) sc = termOf (H i) sc := termOf_congr _ _ (by rw [hself]) sc
  unfold enter
  rw [hB.parent i, if_neg (fun h => hp h.1), if_neg (fun h => hp h.1), hev, hterm]
  cases evOf (H i) sc obs bal with
  | error e => rfl
  | ok ev =>
    simp only [Except.map]
    cases termOf (H i) sc with
    | error e => rfl
    | ok t =>
      simp only [conserved_but E hB]
      have hnw : nodeWeight E (H' i) t up (up * -ev) = (nodeWeight E (H i) t up (up * ev)).map fun v => -v := by
        unfold nodeWeight
        rw [hB.parent i, if_neg hp, if_neg hp, hself]
        simp only
        split
        · simp [Except.map]
        · cases conversion E (H i).flow t.flow <;> simp [Except.map]
      have hcv : conserved E H (H' i) (-ev) cq = conserved E H (H i) ev cq := by rw [hself, conserved_flip]
      rw [hnw, hcv]
      cases nodeWeight E (H i) t up (up * ev) with
      | error e => rfl
      | ok nw =>
        simp only [Except.map]
        cases conserved E H (H i) ev cq with
        | error e => rfl
        | ok r => simp [FF.flip, hself]

theorem enter_term {ff : FF F} {cv : Option ℚ} {seen : List ℕ} {up : ℚ} {cq : Option Q} {bal : Option ℚ}
    (hen : enter E H sc obs seen i up cq bal = .ok (ff, cv)) : termOf (H i) sc = .ok ff.term := by
  unfold enter at hen
  split at hen
  · cases hen
  · split at hen
    · cases hen
    · split at hen
      · cases hen
      · rename_i t htt
        split at hen
        · cases hen
        · split at hen
          · cases hen
          · cases hen; exact htt

/-! ### C129 -/

/-- It raises exactly if some value is None, and then nothing changes. -/
theorem reverse_raises_iff (H : Heap F Q) (i : ℕ) :
    ((∃ k, (k, none) ∈ (H i).evs) → reverseDirection H i = .err .typeError H) ∧
    ((∀ k, (k, none) ∉ (H i).evs) → ∃ H', reverseDirection H i = .ok () H') := by
  unfold reverseDirection
  constructor
  · rintro ⟨k, hk⟩
    rw [if_pos]
    rw [List.any_eq_true]
    exact ⟨_, hk, rfl⟩
  · intro h
    rw [if_neg]
    · exact ⟨_, rfl⟩
    · rw [List.any_eq_true]
      rintro ⟨⟨k, v⟩, h1, h2⟩
      cases v with
      | none => exact h k h1
      | some v => cases h2

/-- Reversing twice gives the same fragment. -/
theorem reverse_twice (H H' : Heap F Q) (i : ℕ) (h : reverseDirection H i = .ok () H') : reverseDirection H' i = .ok () H := by
  have hno : ∀ kv ∈ (H i).evs, kv.2.isNone = false := by
    intro kv hkv
    unfold reverseDirection at h
    split at h
    · cases h
    · rename_i hn
      cases hh : kv.2.isNone with
      | false => rfl
      | true => exact absurd (List.any_eq_true.2 ⟨kv, hkv, hh⟩) hn
  rw [reverse_eq H H' i h]
  unfold reverseDirection
  rw [put_self]
  simp only
  rw [if_neg]
  · rw [put_put]
    congr 1
    have h1 : (H i).dir.comp.comp = (H i).dir := by cases (H i).dir <;> rfl
    have h2 : (negEvs (H i).evs).map (fun kv => (kv.1, kv.2.map fun v => -1 * v)) = (H i).evs := by
      unfold negEvs
      rw [List.map_map]
      conv_rhs => rw [← List.map_id (H i).evs]
      refine List.map_congr_left fun kv _ => ?_
      obtain ⟨k, v⟩ := kv
      cases v <;> simp
    rw [h1, h2]
    exact put_id H i
  · rw [List.any_eq_true]
    rintro ⟨kv, h1, h2⟩
    unfold negEvs at h1
    obtain ⟨kv', h3, rfl⟩ := List.mem_map.1 h1
    have := hno kv' h3
    simp at h2
    simp [h2] at this

/-- A flow that goes nowhere (a cutoff), or to the background: the traversal gives the same amount and the same conserved value, in the other
direction. `bal` is the value set by the parent, if any: the parent sets the other sign. -/
theorem reverse_cutoff_partial (hr : reverseDirection H i = .ok () H') (hp : (H i).parent ≠ none) (t : Term F) (ht : termOf (H i) sc = .ok t)
    (hleaf : t.target = .null ∨ (H i).bg = true) (bal : Option ℚ) (hz : bal = none → ∃ q, (H i).evs.get? .cached = some (some q) ∧ q ≠ 0)
    (fuel : ℕ) (seen : List ℕ) (up : ℚ) (cq : Option Q) :
    travNode E H' sc obs (fuel + 1) seen i up cq (bal.map fun v => -v) =
      (travNode E H sc obs (fuel + 1) seen i up cq bal).map fun r => (r.1.map FF.flip, r.2) := by
  have hself : H' i = { H i with dir := (H i).dir.comp, evs := negEvs (H i).evs } := by rw [reverse_eq H H' i hr, put_self]
  rw [travNode, travNode, enter_flip hr hp bal hz]
  cases hen : enter E H sc obs seen i up cq bal with
  | error e => rfl
  | ok r =>
    obtain ⟨ff, cv⟩ := r
    have hft := enter_term hen
    rw [ht] at hft
    cases hft
    have hl : ff.term.isNull = true ∨ (H i).bg = true ∨ ff.mag = 0 := by
      rcases hleaf with h | h
      · left; simp [Term.isNull, h]
      · exact .inr (.inl h)
    have hl' : ff.flip.term.isNull = true ∨ (H' i).bg = true ∨ ff.flip.mag = 0 := by
      rw [hself]
      rcases hl with h | h | h
      · exact .inl h
      · exact .inr (.inl h)
      · right; right; simp [FF.flip, h]
    simp only [Except.map]
    rw [if_pos hl, if_pos hl']
    rfl

/-- A flow terminated to a subfragment: the traversal gives the same flows, but for its own direction. -/
theorem reverse_subfragment_partial (hr : reverseDirection H i = .ok () H') (hp : (H i).parent ≠ none) (t : Term F) (ht : termOf (H i) sc = .ok t)
    (j : ℕ) (hj : t.target = .frag j) (hji : j ≠ i) (hbg : (H j).bg = false) (hA : Apart H sc i V) (hVk : ∀ c ∈ (H i).kids, V c)
    (hVj : V j ∧ ∀ n x, top H n j = .ok x → V x) (bal : Option ℚ)
    (hz : bal = none → ∃ q, (H i).evs.get? .cached = some (some q) ∧ q ≠ 0) (fuel : ℕ) (seen : List ℕ) (up : ℚ) (cq : Option Q)
    (l : List (FF F)) (cv : Option ℚ) (h : travNode E H sc obs (fuel + 1) seen i up cq bal = .ok (l, cv)) :
    ∃ f f' r, l = f :: r ∧ travNode E H' sc obs (fuel + 1) seen i up cq (bal.map fun v => -v) = .ok (f' :: r, cv) ∧
      f'.flow = f.flow ∧ f'.dir = f.dir.comp ∧ f'.mag = -f.mag ∧ f'.who = f.who ∧ f'.sub = f.sub ∧ f'.term = f.term := by
  have hself : H' i = { H i with dir := (H i).dir.comp, evs := negEvs (H i).evs } := by rw [reverse_eq H H' i hr, put_self]
  have hB := But.of_reverse hr
  have hV : ∀ j, V j → H' j = H j := fun j hj => hB.other j fun h => hA.self (h ▸ hj)
  have hch : ∀ c ∈ children (H i), V c := fun c hc => hVk c ((mem_children _ _).1 hc)
  rw [travNode] at h
  rw [travNode, enter_flip hr hp bal hz]
  cases hen : enter E H sc obs seen i up cq bal with
  | error e => rw [hen] at h; cases h
  | ok r =>
    obtain ⟨ff, cv'⟩ := r
    have hft := enter_term hen
    rw [ht] at hft
    cases hft
    rw [hen] at h
    simp only [Except.map] at h ⊢
    have hbgi : (H' i).bg = (H i).bg := by rw [hself]
    by_cases hl : ff.term.isNull = true ∨ (H i).bg = true ∨ ff.mag = 0
    · rw [if_pos hl] at h
      cases h
      have hl' : ff.flip.term.isNull = true ∨ (H' i).bg = true ∨ ff.flip.mag = 0 := by
        rw [hbgi]
        rcases hl with h | h | h
        · exact .inl h
        · exact .inr (.inl h)
        · right; right; simp [FF.flip, h]
      rw [if_pos hl']
      exact ⟨ff, ff.flip, [], rfl, rfl, rfl, rfl, rfl, rfl, rfl, rfl⟩
    · rw [if_neg hl] at h
      have hl' : ¬(ff.flip.term.isNull = true ∨ (H' i).bg = true ∨ ff.flip.mag = 0) := by
        rw [hbgi]
        simpa [FF.flip] using hl
      rw [if_neg hl', hB.parent i]
      generalize hs : (if (H i).parent = none then i :: seen else seen) = s at h ⊢
      unfold expand at h ⊢
      have hjf : ff.flip.term.target = .frag j := hj
      rw [hj] at h
      rw [hjf]
      simp only at h ⊢
      rw [if_neg hji, hbg] at h
      rw [if_neg hji, hV j hVj.1, hbg, top_parents hB.parent]
      simp only [Bool.false_eq_true, if_false] at h ⊢
      cases htop : top H fuel j with
      | error e => rw [htop] at h; cases h
      | ok x =>
        have hVx := hVj.2 fuel x htop
        rw [htop] at h
        simp only at h ⊢
        rw [travNode_apart E hA hB obs fuel [] x 1 none none hVx, hV x hVx]
        cases htr : travNode E H sc obs fuel [] x 1 none none with
        | error e => rw [htr] at h; cases h
        | ok r =>
          rw [htr] at h
          simp only at h ⊢
          cases hg : groupIos j (H x).flow (H x).dir r.1 true with
          | error e => rw [hg] at h; cases h
          | ok g =>
            rw [hg] at h
            simp only at h ⊢
            rw [subNode_congr H H' i ff ff.flip _ _ (fun c w ev => travNode E H sc obs fuel s c w none (some ev)) _ (by rw [hself]; rfl) rfl ?_
              (fun b hb => hV b (hch b hb)) (fun c hc w ev => travNode_apart E hA hB obs fuel s c w none (some ev) (hch c hc))]
            · cases hsub : subNode H i ff g.1 g.2 fun c w ev => travNode E H sc obs fuel s c w none (some ev) with
              | error e => rw [hsub] at h; cases h
              | ok l' =>
                rw [hsub] at h
                simp only [Except.ok.injEq, Prod.mk.injEq] at h
                obtain ⟨rfl, rfl⟩ := h
                simp only [Except.map]
                have hcons := subNode_cons H i ff g.1 g.2 fun c w ev => travNode E H sc obs fuel s c w none (some ev)
                rw [hsub] at hcons
                cases l' with
                | nil =>
                  exfalso
                  unfold subNode at hsub
                  simp only at hsub
                  split at hsub
                  · cases hsub
                  · split at hsub
                    · cases hsub
                    · split at hsub
                      · cases hsub
                      · cases hd : ff.term.descend <;> rw [hd] at hsub <;> simp at hsub
                | cons f r' =>
                  simp only [Except.map, Except.ok.injEq, List.cons.injEq, and_true] at hcons
                  refine ⟨f, _, r', rfl, rfl, ?_⟩
                  cases hd : ff.term.descend with
                  | true =>
                    rw [hd] at hcons
                    simp only [if_true] at hcons ⊢
                    subst hcons
                    exact ⟨rfl, rfl, rfl, rfl, rfl, rfl⟩
                  | false =>
                    rw [hd] at hcons
                    simp only [Bool.false_eq_true, if_false] at hcons ⊢
                    rw [← hcons]
                    refine ⟨?_, ?_, ?_, ?_, ?_, ?_⟩ <;> first | rfl | trivial
            · intro m
              rw [hself]
              simp only [FF.flip]
              by_cases hm : m.dir = (H i).dir
              · rw [if_pos hm, if_neg (by rw [hm]; cases (H i).dir <;> simp [Dir.comp])]
                rw [div_neg, neg_div]
              · have : m.dir = (H i).dir.comp := by
                  cases h1 : m.dir <;> cases h2 : (H i).dir <;> simp_all [Dir.comp]
                rw [if_neg hm, if_pos this, neg_div_neg_eq]

/-- A flow of an interior foreground node or process (that conserves nothing): the traversal gives the flows below it, all with the other sign:
the amounts and the node weights are those of a traversal with the opposite weight. -/
theorem reverse_foreground_negates (hr : reverseDirection H i = .ok () H') (hp : (H i).parent ≠ none) (t : Term F) (ht : termOf (H i) sc = .ok t)
    (hj : t.target = .process ∨ t.target = .frag i) (hbgi : (H i).bg = false) (hcons : (H i).cons = none) (hA : Apart H sc i V)
    (hVk : ∀ c ∈ (H i).kids, V c) (bal : Option ℚ) (hz : bal = none → ∃ q, (H i).evs.get? .cached = some (some q) ∧ q ≠ 0)
    (fuel : ℕ) (seen : List ℕ) (up : ℚ) (cq : Option Q) (l : List (FF F)) (cv : Option ℚ)
    (h : travNode E H sc obs (fuel + 1) seen i up cq bal = .ok (l, cv)) :
    ∃ f r, l = f :: r ∧
      travNode E H' sc obs (fuel + 1) seen i up cq (bal.map fun v => -v) = .ok (f.flip :: r.map (FF.scale (-1)), cv) := by
  have hself : H' i = { H i with dir := (H i).dir.comp, evs := negEvs (H i).evs } := by rw [reverse_eq H H' i hr, put_self]
  have hB := But.of_reverse hr
  have hV : ∀ j, V j → H' j = H j := fun j hj => hB.other j fun h => hA.self (h ▸ hj)
  have hch : ∀ c ∈ children (H i), V c := fun c hc => hVk c ((mem_children _ _).1 hc)
  rw [travNode] at h
  rw [travNode, enter_flip hr hp bal hz]
  cases hen : enter E H sc obs seen i up cq bal with
  | error e => rw [hen] at h; cases h
  | ok r =>
    obtain ⟨ff, cv'⟩ := r
    have hft := enter_term hen
    rw [ht] at hft
    cases hft
    rw [hen] at h
    simp only [Except.map] at h ⊢
    have hbg' : (H' i).bg = (H i).bg := by rw [hself]
    by_cases hl : ff.term.isNull = true ∨ (H i).bg = true ∨ ff.mag = 0
    · rw [if_pos hl] at h
      cases h
      have hl' : ff.flip.term.isNull = true ∨ (H' i).bg = true ∨ ff.flip.mag = 0 := by
        rw [hbg']
        rcases hl with h | h | h
        · exact .inl h
        · exact .inr (.inl h)
        · right; right; simp [FF.flip, h]
      rw [if_pos hl']
      exact ⟨ff, [], rfl, rfl⟩
    · rw [if_neg hl] at h
      have hl' : ¬(ff.flip.term.isNull = true ∨ (H' i).bg = true ∨ ff.flip.mag = 0) := by
        rw [hbg']
        simpa [FF.flip] using hl
      rw [if_neg hl', hB.parent i]
      generalize hs : (if (H i).parent = none then i :: seen else seen) = s at h ⊢
      have hfg : ∀ b, fgFrom E H' sc obs (travNode E H' sc obs fuel) s i ff.flip b =
          (fgFrom E H sc obs (travNode E H sc obs fuel) s i ff b).map fun l => ff.flip :: l.tail.map (FF.scale (-1)) := by
        intro b
        unfold fgFrom
        have h0 : stock0 (H' i) sc obs b = .ok 1 := by unfold stock0; rw [hB.parent i, if_neg (fun h => hp h.2)]
        have h1 : stock0 (H i) sc obs b = .ok 1 := by unfold stock0; rw [if_neg (fun h => hp h.2)]
        rw [h0, h1]
        simp only
        rw [fgNode_congr E H H' i 1 1 (FF.scale (-1) ff) ff.flip (fun c cq bal => travNode E H sc obs fuel s c (-1 * ff.nw) cq bal) _
          (by rw [hself]; rfl) (by rw [hself]) (by rw [hself]; simp only [inbound, hcons]) (fun b hb => hV b (hch b hb)) ?_,
          fgNode_scaled (-1) E H i 1 ff (fun c cq bal => travNode E H sc obs fuel s c ff.nw cq bal) _
            (fun c cq b => traversal_linear E H sc obs (-1) (by norm_num) fuel s c ff.nw cq b)]
        · cases fgNode E H i 1 ff fun c cq bal => travNode E H sc obs fuel s c ff.nw cq bal with
          | error e => rfl
          | ok l => cases l <;> rfl
        · intro c hc cq b
          rw [travNode_apart E hA hB obs fuel s c _ cq b (hch c hc)]
          simp [FF.flip]
      have hfin : ∀ b, (match fgFrom E H sc obs (travNode E H sc obs fuel) s i ff b with
          | .error e => (.error e : Res F)
          | .ok l => .ok (l, cv')) = .ok (l, cv) → ∃ f r, l = f :: r ∧
          (match fgFrom E H' sc obs (travNode E H' sc obs fuel) s i ff.flip b with
          | .error e => (.error e : Res F)
          | .ok l => .ok (l, cv')) = .ok (f.flip :: r.map (FF.scale (-1)), cv) := by
        intro b hb
        rw [hfg b]
        cases hfr : fgFrom E H sc obs (travNode E H sc obs fuel) s i ff b with
        | error e => rw [hfr] at hb; cases hb
        | ok l' =>
          rw [hfr] at hb
          simp only [Except.ok.injEq, Prod.mk.injEq] at hb
          obtain ⟨rfl, rfl⟩ := hb
          have hc : ∃ r, l' = ff :: r := by
            unfold fgFrom at hfr
            cases hst : stock0 (H i) sc obs b with
            | error e => rw [hst] at hfr; cases hfr
            | ok st =>
              rw [hst] at hfr
              simp only at hfr
              have := fgNode_cons E H i st ff fun c cq bal => travNode E H sc obs fuel s c ff.nw cq bal
              rw [hfr] at this
              simp only [Except.map, Except.ok.injEq] at this
              exact ⟨_, this.symm⟩
          obtain ⟨r, rfl⟩ := hc
          exact ⟨ff, r, rfl, rfl⟩
      unfold expand at h ⊢
      rcases hj with hj | hj
      · have hjf : ff.flip.term.target = .process := hj
        rw [hj] at h
        rw [hjf]
        exact hfin false h
      · have hjf : ff.flip.term.target = .frag i := hj
        rw [hj] at h
        rw [hjf]
        simp only [if_true] at h ⊢
        exact hfin true h

/-- A reference fragment that is a foreground node: the traversal gives the same flows but for the direction of its own. -/
theorem reverse_reference_partial (hr : reverseDirection H i = .ok () H') (hp : (H i).parent = none) (t : Term F) (ht : termOf (H i) sc = .ok t)
    (hj : t.target = .frag i) (hA : Apart H sc i V) (hVk : ∀ c ∈ (H i).kids, V c)
    (hz : ∃ q, (H i).evs.get? .cached = some (some q) ∧ q ≠ 0)
    (fuel : ℕ) (seen : List ℕ) (up : ℚ) (l : List (FF F)) (cv : Option ℚ)
    (h : travNode E H sc obs (fuel + 1) seen i up none none = .ok (l, cv)) :
    ∃ f r, l = f :: r ∧
      travNode E H' sc obs (fuel + 1) seen i up none none = .ok ({ f with dir := f.dir.comp, mag := -f.mag } :: r, cv) := by
  have hself : H' i = { H i with dir := (H i).dir.comp, evs := negEvs (H i).evs } := by rw [reverse_eq H H' i hr, put_self]
  have hB := But.of_reverse hr
  have hV : ∀ j, V j → H' j = H j := fun j hj => hB.other j fun h => hA.self (h ▸ hj)
  have hch : ∀ c ∈ children (H i), V c := fun c hc => hVk c ((mem_children _ _).1 hc)
  have hev : exchangeValue (H' i) sc obs = (exchangeValue (H i) sc obs).map fun v => -v := by
    rw [hself]; exact exchangeValue_neg _ _ _ _ hz
  have hterm : termOf (H' i) sc = termOf (H i) sc := termOf_congr _ _ (by rw [hself]) sc
  have henter : enter E H' sc obs seen i up none none =
      (enter E H sc obs seen i up none none).map fun r => ({ r.1 with dir := r.1.dir.comp, mag := -r.1.mag }, r.2) := by
    unfold enter
    rw [hB.parent i]
    by_cases hs : (H i).parent = none ∧ i ∈ seen
    · rw [if_pos hs, if_pos hs]; rfl
    · rw [if_neg hs, if_neg hs]
      simp only [evOf, hev, hterm]
      cases exchangeValue (H i) sc obs with
      | error e => rfl
      | ok ev =>
        simp only [Except.map]
        cases termOf (H i) sc with
        | error e => rfl
        | ok t =>
          simp only [conserved_but E hB]
          have hnw : nodeWeight E (H' i) t up (up * -ev) = nodeWeight E (H i) t up (up * ev) := by
            unfold nodeWeight
            rw [hB.parent i, if_pos hp, if_pos hp]
          have hcv : conserved E H (H' i) (-ev) none = conserved E H (H i) ev none := by rw [hself, conserved_flip]
          rw [hnw, hcv]
          cases nodeWeight E (H i) t up (up * ev) with
          | error e => rfl
          | ok nw =>
            simp only
            cases conserved E H (H i) ev none with
            | error e => rfl
            | ok r => simp [hself]
  rw [travNode] at h
  rw [travNode, henter]
  cases hen : enter E H sc obs seen i up none none with
  | error e => rw [hen] at h; cases h
  | ok r =>
    obtain ⟨ff, cv'⟩ := r
    have hft := enter_term hen
    rw [ht] at hft
    cases hft
    rw [hen] at h
    simp only [Except.map] at h ⊢
    have hbg' : (H' i).bg = (H i).bg := by rw [hself]
    rw [hbg', hB.parent i]
    by_cases hl : ff.term.isNull = true ∨ (H i).bg = true ∨ ff.mag = 0
    · rw [if_pos hl] at h
      cases h
      rw [if_pos (by simpa using hl)]
      exact ⟨ff, [], rfl, rfl⟩
    · rw [if_neg hl] at h
      rw [if_neg (by simpa using hl)]
      generalize hs : (if (H i).parent = none then i :: seen else seen) = s at h ⊢
      unfold expand at h ⊢
      rw [hj] at h ⊢
      simp only [if_true] at h ⊢
      unfold fgFrom at h ⊢
      have hfin : ∀ st, (match fgNode E H i st ff fun c cq bal => travNode E H sc obs fuel s c ff.nw cq bal with
          | .error e => (.error e : Res F)
          | .ok l => .ok (l, cv')) = .ok (l, cv) → ∃ f r, l = f :: r ∧
          (match (fgNode E H i st ff fun c cq bal => travNode E H sc obs fuel s c ff.nw cq bal).map fun l =>
              { ff with dir := ff.dir.comp, mag := -ff.mag } :: l.tail with
          | .error e => (.error e : Res F)
          | .ok l => .ok (l, cv')) = .ok ({ f with dir := f.dir.comp, mag := -f.mag } :: r, cv) := by
        intro st h
        have := fgNode_cons E H i st ff fun c cq bal => travNode E H sc obs fuel s c ff.nw cq bal
        cases hfn : fgNode E H i st ff fun c cq bal => travNode E H sc obs fuel s c ff.nw cq bal with
        | error e => rw [hfn] at h; cases h
        | ok l' =>
          rw [hfn] at h this
          simp only [Except.ok.injEq, Prod.mk.injEq] at h
          obtain ⟨rfl, rfl⟩ := h
          simp only [Except.map, Except.ok.injEq] at this
          exact ⟨ff, l'.tail, this.symm, rfl⟩
      have h1 : stock0 (H i) sc obs true = exchangeValue (H i) sc obs := by simp [stock0, hp]
      have h0 : stock0 (H' i) sc obs true = (exchangeValue (H i) sc obs).map fun v => -v := by
        rw [← hev]; simp [stock0, hB.parent i, hp]
      rw [h1] at h
      rw [h0]
      cases hx : exchangeValue (H i) sc obs with
      | error e => rw [hx] at h; cases h
      | ok st =>
        rw [hx] at h
        simp only [Except.map] at h ⊢
        by_cases hcons : (H i).cons = none
        · rw [fgNode_stock E H' i st (-st) _ _ (by rw [hself]; exact hcons) (fun c b hh => (trav_foundBalance hh).1 rfl)]
          rw [fgNode_congr E H H' i st st ff { ff with dir := ff.dir.comp, mag := -ff.mag }
            (fun c cq bal => travNode E H sc obs fuel s c ff.nw cq bal) _ (by rw [hself]; rfl) (by rw [hself]) (by rw [hself]; simp only [inbound, hcons])
            (fun b hb => hV b (hch b hb)) (fun c hc cq b => travNode_apart E hA hB obs fuel s c ff.nw cq b (hch c hc))]
          exact hfin st h
        rw [fgNode_congr E H H' i st (-st) ff { ff with dir := ff.dir.comp, mag := -ff.mag }
          (fun c cq bal => travNode E H sc obs fuel s c ff.nw cq bal) _ (by rw [hself]; rfl) (by rw [hself]) ?_ (fun b hb => hV b (hch b hb))
          (fun c hc cq b => travNode_apart E hA hB obs fuel s c ff.nw cq b (hch c hc))]
        · exact hfin st h
        · rw [hself]
          unfold inbound
          simp only
          cases hh : (H i).cons with
          | none => exact absurd hh hcons
          | some q => cases (H i).dir <;> simp [Dir.comp]

/-- Every stored value is multiplied, if none is None; then the value used is multiplied too, unless zero is cached. -/
theorem scaleLoop_spec (x : ℚ) (i : ℕ) : ∀ (l : List (Key × Option ℚ)) (H : Heap F Q), (l.map Prod.fst).Nodup → (∀ kv ∈ l, kv.2 ≠ none) →
    ∃ H', scaleLoop x i l H = .ok () H' ∧ EvOnly H H' ∧ (∀ j, j ≠ i → H' j = H j) ∧
      ∀ k, ((∃ v, (k, v) ∈ l) → (H' i).evs.get? k = (Dict.get? l k).map (Option.map (· * x))) ∧
        ((¬∃ v, (k, v) ∈ l) → (H' i).evs.get? k = (H i).evs.get? k) := by
  intro l
  induction l with
  | nil => intro H _ _; exact ⟨H, rfl, EvOnly.refl _, fun _ _ => rfl, fun k => by simp⟩
  | cons a l ih =>
    intro H hn hv
    obtain ⟨k0, v0⟩ := a
    cases v0 with
    | none => exact absurd rfl (hv (k0, none) (by simp))
    | some v =>
      rw [List.map_cons, List.nodup_cons] at hn
      obtain ⟨H', h1, h2, h3, h4⟩ := ih (putEv H i k0 (some (v * x))) hn.2 (fun kv h => hv kv (by simp [h]))
      have hput : (putEv H i k0 (some (v * x)) i).evs = (H i).evs.set k0 (some (v * x)) := by rw [putEv, put_self]
      refine ⟨H', h1, (EvOnly.put _ _ _ _).trans h2, fun j hj => by rw [h3 j hj, putEv, put_ne _ _ hj], fun k => ?_⟩
      by_cases hk : k0 = k
      · subst hk
        have hno : ¬∃ w, (k0, w) ∈ l := by
          rintro ⟨w, hw⟩
          exact hn.1 (List.mem_map.2 ⟨_, hw, rfl⟩)
        refine ⟨fun _ => ?_, fun h => absurd ⟨some v, by simp⟩ h⟩
        rw [(h4 k0).2 hno, hput, Dict.get?_set_self, Dict.get?]
        simp
      · have he : (∃ w, (k, w) ∈ (k0, some v) :: l) ↔ ∃ w, (k, w) ∈ l := by
          constructor
          · rintro ⟨w, hw⟩
            rcases List.mem_cons.1 hw with h | h
            · cases h; exact absurd rfl hk
            · exact ⟨w, h⟩
          · rintro ⟨w, hw⟩; exact ⟨w, by simp [hw]⟩
        rw [he]
        refine ⟨fun h => ?_, fun h => ?_⟩
        · rw [(h4 k).1 h, Dict.get?, if_neg hk]
        · rw [(h4 k).2 h, hput, Dict.get?_set_ne _ _ hk]

theorem scale_evs_scales (H : Heap F Q) (i : ℕ) (x : ℚ) (hn : (H i).evs.keys.Nodup) (hv : ∀ k, (H i).evs.get? k ≠ some none) :
    ∃ H', scaleEvs H i x = .ok () H' ∧ EvOnly H H' ∧ (∀ j, j ≠ i → H' j = H j) ∧
      (∀ k, (H' i).evs.get? k = ((H i).evs.get? k).map (Option.map (· * x))) := by
  have hv' : ∀ kv ∈ (H i).evs, kv.2 ≠ none := by
    rintro ⟨k, v⟩ hm h
    simp only at h
    subst h
    exact hv k (Dict.get?_eq_some_of_mem _ hn hm)
  obtain ⟨H', h1, h2, h3, h4⟩ := scaleLoop_spec x i (H i).evs H hn hv'
  refine ⟨H', h1, h2, h3, fun k => ?_⟩
  by_cases hno : ∃ v, (k, v) ∈ (H i).evs
  · exact (h4 k).1 hno
  · rw [(h4 k).2 hno]
    cases hg : (H i).evs.get? k with
    | none => rfl
    | some v => exact absurd ⟨v, Dict.mem_of_get?_eq_some _ hg⟩ hno

/-- then the exchange value is multiplied, in any scenario, unless the value one is read for a zero -/
theorem scale_evs_value (H : Heap F Q) (i : ℕ) (x : ℚ) (hn : (H i).evs.keys.Nodup) (hv : ∀ k, (H i).evs.get? k ≠ some none)
    (hz : ∃ q, (H i).evs.get? .cached = some (some q) ∧ q ≠ 0) (hx : x ≠ 0) (H' : Heap F Q) (h : scaleEvs H i x = .ok () H')
    (sc : Scen) (obs : Bool) : exchangeValue (H' i) sc obs = (exchangeValue (H i) sc obs).map (· * x) := by
  obtain ⟨H2, h1, h2, _, h4⟩ := scale_evs_scales H i x hn hv
  rw [h] at h1
  cases h1
  obtain ⟨q, hq, hq0⟩ := hz
  have hpar := h2.parent i
  have hhas : (H' i).evs.has = (H i).evs.has := funext fun k => by simp [Dict.has, h4]
  have hm : matchEv (H' i).evs sc = matchEv (H i).evs sc := by unfold matchEv; rw [hhas]
  unfold exchangeValue
  rw [hm]
  cases matchEv (H i).evs sc with
  | error e => rfl
  | ok o =>
    cases o with
    | none =>
      cases obs with
      | false => simp [cachedEv, h4, hq, hq0, hx, Except.map]
      | true =>
        simp only [observedEv, h4, hq, if_true, Except.map, hpar]
        cases hob : (H i).evs.get? .observed with
        | none => simp
        | some w =>
          cases w with
          | none => simp
          | some w =>
            by_cases hw : w = 0
            · simp [hw]; split <;> simp
            · simp [hw, hx]
    | some k =>
      simp only [h4, Except.map]
      cases (H i).evs.get? k with
      | none => simp
      | some w => cases w <;> simp

/-- If some value is None the call raises TypeError, having scaled the values before it and not those after it. -/
theorem scale_evs_none_raises (H : Heap F Q) (i : ℕ) (x : ℚ) (pre post : List (Key × Option ℚ)) (k0 : Key)
    (he : (H i).evs = pre ++ (k0, none) :: post) (hn : (H i).evs.keys.Nodup) (hpre : ∀ kv ∈ pre, kv.2 ≠ none) :
    ∃ H', scaleEvs H i x = .err .typeError H' ∧
      (∀ k v, (k, v) ∈ pre → (H' i).evs.get? k = some (v.map (· * x))) ∧ (∀ k v, (k, v) ∈ post → (H' i).evs.get? k = some v) := by
  have happ : ∀ (l r : List (Key × Option ℚ)) (G G' : Heap F Q), scaleLoop x i l G = .ok () G' → scaleLoop x i (l ++ r) G = scaleLoop x i r G' := by
    intro l r
    induction l with
    | nil => intro G G' h; cases h; rfl
    | cons a l ih =>
      intro G G' h
      obtain ⟨k, v⟩ := a
      cases v with
      | none => cases h
      | some v => exact ih _ _ h
  have hnd : (pre.map Prod.fst).Nodup := by
    have : ((pre ++ (k0, none) :: post).map Prod.fst).Nodup := by rw [← he]; exact hn
    rw [List.map_append] at this
    exact (List.nodup_append.1 this).1
  obtain ⟨H', h1, _, _, h4⟩ := scaleLoop_spec x i pre H hnd hpre
  refine ⟨H', ?_, fun k v hkv => ?_, fun k v hkv => ?_⟩
  · rw [scaleEvs, he, happ _ _ _ _ h1]; rfl
  · rw [(h4 k).1 ⟨v, hkv⟩, Dict.get?_eq_some_of_mem _ hnd hkv]; rfl
  · have hno : ¬∃ w, (k, w) ∈ pre := by
      rintro ⟨w, hw⟩
      have : ((pre ++ (k0, none) :: post).map Prod.fst).Nodup := by rw [← he]; exact hn
      rw [List.map_append, List.nodup_append] at this
      exact this.2.2 k (List.mem_map.2 ⟨_, hw, rfl⟩) k (List.mem_map.2 ⟨(k, v), by simp [hkv], rfl⟩) rfl
    rw [(h4 k).2 hno]
    exact Dict.get?_eq_some_of_mem _ hn (by rw [he]; simp [hkv])

/-! ### concrete cases -/

/-- fragments apart from 4 in `exH`: all others, in the default scenario -/
theorem exH_apart (i : ℕ) (hi : i = 1 ∨ i = 4) : Apart exH .none i (fun j => j ≠ i ∧ j ≠ 0 ∧ j < 9) where
  self := by simp
  kids := by
    rintro j ⟨h1, h2, h3⟩ c hc
    rcases hi with rfl | rfl <;> interval_cases j <;> simp_all [exH] <;> omega
  target := by
    rintro j t k ⟨h1, h2, h3⟩ ht hk hne
    have : k = 5 := by
      interval_cases j <;> simp_all [exH, termOf, Dict.get?, nullT] <;> subst ht <;> simp_all
    subst this
    refine ⟨⟨?_, by decide, by decide⟩, fun n x hx => ?_⟩
    · rcases hi with rfl | rfl <;> decide
    · cases n with
      | zero => simp [top] at hx
      | succ n =>
        have : x = 5 := by simpa [top, exH, eq_comm] using hx
        subst this
        refine ⟨?_, by decide, by decide⟩
        rcases hi with rfl | rfl <;> decide

/-- fragment 2 of `exH`, which is terminated to the subfragment 5: 2 is met by no other -/
theorem exH_apart2 : Apart exH .none 2 (fun j => j = 5 ∨ j = 6 ∨ j = 7 ∨ j = 8) where
  self := by simp
  kids := by
    rintro j (rfl | rfl | rfl | rfl) c hc <;> simp_all [exH]
    omega
  target := by
    rintro j t k hj ht hk hne
    have : k = 5 := by
      rcases hj with rfl | rfl | rfl | rfl <;> simp_all [exH, termOf, Dict.get?, nullT] <;> subst ht <;> simp_all
    subst this
    refine ⟨.inl rfl, fun n x hx => ?_⟩
    cases n with
    | zero => simp [top] at hx
    | succ n => exact .inl (by simpa [top, exH, eq_comm] using hx)

/-- `exH` with fragment i reversed -/
def rvH (i : ℕ) : Heap ℕ ℕ := (reverseDirection exH i).state

/-- 1 is a cutoff: it is reversed, the rest is as in the example above; all premises of `reverse_cutoff_partial` hold -/
example : reverseDirection exH 1 = .ok () (rvH 1) ∧ (exH 1).parent ≠ none ∧ termOf (exH 1) .none = .ok (nullT 2) ∧ (nullT 2).target = .null ∧
    (∃ q, (exH 1).evs.get? .cached = some (some q) ∧ q ≠ 0) ∧
    view (traverse exE (rvH 1) .none false 9 0) = .ok
      [(.frag 0, 10, 1), (.frag 1, -2, -2), (.frag 2, 4, 4), (.frag 5, 4, 2), (.frag 8, 14, 14), (.ghost 5, 6, 6),
       (.frag 4, 1, 3), (.frag 3, -5, -5)] :=
  ⟨isOk_state (by decide +kernel), by decide, rfl, rfl, ⟨2, rfl, by decide⟩, by decide +kernel⟩

/-- 2 is terminated to a subfragment -/
example : reverseDirection exH 2 = .ok () (rvH 2) ∧ (∀ c ∈ (exH 2).kids, c = 5 ∨ c = 6 ∨ c = 7 ∨ c = 8) ∧
    view (traverse exE (rvH 2) .none false 9 0) = .ok
      [(.frag 0, 10, 1), (.frag 1, 2, 2), (.frag 2, -4, -4), (.frag 5, 4, 2), (.frag 8, 14, 14), (.ghost 5, 6, 6),
       (.frag 4, 1, 3), (.frag 3, -5, -5)] :=
  ⟨isOk_state (by decide +kernel), by decide, by decide +kernel⟩

/-- a chain: reference 0, interior foreground node 1, cutoff 2 -/
def rvChain : Heap ℕ ℕ
  | 0 => { kids := [1], flow := 1, dir := .input, evs := [(.cached, some 1), (.observed, some 0)], terms := [(none, { target := .frag 0, flow := 1 })] }
  | 1 => { parent := some 0, kids := [2], flow := 2, dir := .input, evs := [(.cached, some 2), (.observed, some 0)],
           terms := [(none, { target := .frag 1, flow := 2 })] }
  | 2 => { parent := some 1, flow := 3, dir := .input, evs := [(.cached, some 3), (.observed, some 0)], terms := [(none, nullT 3)] }
  | _ => { flow := 0, dir := .input, evs := [], terms := [] }

theorem rvChain_apart (i : ℕ) (hi : i = 0 ∨ i = 1) : Apart rvChain .none i (fun j => i < j ∧ j < 3) where
  self := by simp
  kids := by
    rintro j ⟨h1, h2⟩ c hc
    rcases hi with rfl | rfl <;> interval_cases j <;> simp_all [rvChain]
  target := by
    rintro j t k ⟨h1, h2⟩ ht hk hne
    exfalso
    have h3 : j = 1 ∨ j = 2 := by omega
    rcases h3 with rfl | rfl
    · have ht' : t = { target := .frag 1, flow := 2 } := by simpa [rvChain, termOf, Dict.get?, eq_comm] using ht
      rw [ht'] at hk
      exact hne (by simpa [eq_comm] using hk)
    · have ht' : t = nullT 3 := by simpa [rvChain, termOf, Dict.get?, eq_comm] using ht
      rw [ht'] at hk; simp [nullT] at hk

/-- Reversing the interior node 1 turns 6 units of the flow below into -6, whose direction is as before: this does have an effect. The premises
of `reverse_foreground_negates` and of `reverse_reference_partial` hold; reversing the reference flow 0 changes no other. -/
theorem reverse_has_effect : ∃ H1 H0, reverseDirection rvChain 1 = .ok () H1 ∧ reverseDirection rvChain 0 = .ok () H0 ∧
    view (traverse exE rvChain .none false 9 0) = .ok [(.frag 0, 1, 1), (.frag 1, 2, 2), (.frag 2, 6, 6)] ∧
    view (traverse exE H1 .none false 9 0) = .ok [(.frag 0, 1, 1), (.frag 1, -2, -2), (.frag 2, -6, -6)] ∧
    view (traverse exE H0 .none false 9 0) = .ok [(.frag 0, -1, 1), (.frag 1, 2, 2), (.frag 2, 6, 6)] ∧
    (H1 2).dir = (rvChain 2).dir :=
  ⟨_, _, isOk_state (by decide +kernel), isOk_state (by decide +kernel), by decide +kernel, by decide +kernel, by decide +kernel, by decide +kernel⟩

example : (rvChain 1).parent ≠ none ∧ termOf (rvChain 1) .none = .ok { target := .frag 1, flow := 2 } ∧ (rvChain 1).bg = false ∧
    (rvChain 1).cons = none ∧ (∀ c ∈ (rvChain 1).kids, 1 < c ∧ c < 3) ∧ (rvChain 0).parent = none ∧
    termOf (rvChain 0) .none = .ok { target := .frag 0, flow := 1 } ∧ (∀ c ∈ (rvChain 0).kids, 0 < c ∧ c < 3) :=
  ⟨by decide, rfl, rfl, rfl, by decide, rfl, rfl, by decide⟩

/-- a cached zero is read as one, reversed or not: then the amount of the flow changes its sign -/
theorem reverse_zero_changes : ∃ H', reverseDirection (rvChain.put 2 { rvChain 2 with evs := [(.cached, some 0), (.observed, some 0)] }) 2 = .ok () H' ∧
    view (traverse exE (rvChain.put 2 { rvChain 2 with evs := [(.cached, some 0), (.observed, some 0)] }) .none false 9 0) =
      .ok [(.frag 0, 1, 1), (.frag 1, 2, 2), (.frag 2, 2, 2)] ∧
    view (traverse exE H' .none false 9 0) = .ok [(.frag 0, 1, 1), (.frag 1, 2, 2), (.frag 2, 2, 2)] ∧ (H' 2).dir ≠ (rvChain 2).dir :=
  ⟨_, isOk_state (by decide +kernel), by decide +kernel, by decide +kernel, by decide +kernel⟩

/-- the premises of the theorems on `scale_evs`, and of the one on None -/
example : (rvChain 1).evs.keys.Nodup ∧ (∀ k, (rvChain 1).evs.get? k ≠ some none) ∧
    ((scaleEvs rvChain 1 5).state 1).evs = [(.cached, some 10), (.observed, some 0)] ∧
    (scaleEvs (rvChain.put 1 { rvChain 1 with evs := [(.cached, some 2), (.observed, none), (.str "a", some 3)] }) 1 5).error? = some .typeError ∧
    ((scaleEvs (rvChain.put 1 { rvChain 1 with evs := [(.cached, some 2), (.observed, none), (.str "a", some 3)] }) 1 5).state 1).evs =
      [(.cached, some 10), (.observed, none), (.str "a", some 3)] := by
  refine ⟨by decide, ?_, by decide +kernel, by decide +kernel, by decide +kernel⟩
  intro k
  simp only [rvChain, Dict.get?]
  split
  · simp
  · split <;> simp

end Frg
