import Verif.Props.FragmentBalance
import Verif.Props.FragmentJson

/-!
Two fragment trees that look the same are traversed the same way (used for C126, C127).
-/

namespace Frg

variable {F Q : Type} [DecidableEq F] [DecidableEq Q]

/-- a number is kept, or replaced by its copy -/
def Moved (φ : ℕ → ℕ) (T : ℕ → Prop) (i j : ℕ) : Prop := j = i ∨ T i ∧ j = φ i

/-- the second fragment flow is that of the copy: everything but the identity of fragments is the same -/
structure Same (φ : ℕ → ℕ) (T : ℕ → Prop) (f f' : FF F) : Prop where
  flow : f'.flow = f.flow
  dir : f'.dir = f.dir
  mag : f'.mag = f.mag
  nw : f'.nw = f.nw
  conserved : f'.conserved = f.conserved
  sub : f'.sub = f.sub
  tflow : f'.term.flow = f.term.flow
  descend : f'.term.descend = f.term.descend
  target : f'.term.target = f.term.target ∨ ∃ i, T i ∧ f.term.target = .frag i ∧ f'.term.target = .frag (φ i)
  who : f'.who = f.who ∨ ∃ i, T i ∧ f.who = .frag i ∧ f'.who = .frag (φ i)

theorem Same.refl (φ : ℕ → ℕ) (T : ℕ → Prop) (f : FF F) : Same φ T f f :=
  ⟨rfl, rfl, rfl, rfl, rfl, rfl, rfl, rfl, .inl rfl, .inl rfl⟩

theorem Same.refls (φ : ℕ → ℕ) (T : ℕ → Prop) (l : List (FF F)) : List.Forall₂ (Same φ T) l l := by
  induction l with
  | nil => exact .nil
  | cons f l ih => exact .cons (Same.refl _ _ _) ih

/-- a termination to the fragment itself becomes one of the copy to itself -/
def Term.moved (t : Term F) (i j : ℕ) : Term F := if t.target = .frag i then { t with target := .frag j } else t

/-- what a traversal reads of the tree `T` in `H` it finds in the copies in `H'` -/
structure Sim (E : Env F Q) (H H' : Heap F Q) (sc : Scen) (obs obs' : Bool) (φ : ℕ → ℕ) (T Read : ℕ → Prop) : Prop where
  kidsT : ∀ i, T i → ∀ c ∈ children (H i), T c
  isRef : ∀ i, T i → ((H' (φ i)).parent = none ↔ (H i).parent = none)
  kidPar : ∀ i, T i → ∀ c ∈ children (H i), (H c).parent ≠ none
  kids : ∀ i, T i → children (H' (φ i)) = (children (H i)).map φ
  flow : ∀ i, T i → (H' (φ i)).flow = (H i).flow
  dir : ∀ i, T i → (H' (φ i)).dir = (H i).dir
  bg : ∀ i, T i → (H' (φ i)).bg = (H i).bg
  bal : ∀ i, T i → (H' (φ i)).bal = (H i).bal
  cons : ∀ i, T i → (H' (φ i)).cons = (H i).cons
  term : ∀ i, T i → ∀ t, termOf (H i) sc = .ok t → termOf (H' (φ i)) sc = .ok (t.moved i (φ i))
  ev : ∀ i, T i → Read i → ∀ v, exchangeValue (H i) sc obs = .ok v → ∃ v', exchangeValue (H' (φ i)) sc obs' = .ok v' ∧ ((H i).bal = false → v' = v)
  kidsRead : ∀ i, T i → ∀ t, termOf (H i) sc = .ok t → t.target = .process ∨ t.target = .frag i → ∀ c ∈ children (H i), Read c
  refRead : ∀ i, T i → (H i).parent = none → Read i ∧ (H i).bal = false
  balPar : ∀ i, T i → (H i).cons = none → ∀ c ∈ children (H i), (H c).bal = false

/-- what a traversal to depth `fuel` finds outside of the tree, in the fragments that its flows are terminated to, is the same too -/
def OutAt (E : Env F Q) (H H' : Heap F Q) (sc : Scen) (obs obs' : Bool) (φ : ℕ → ℕ) (T : ℕ → Prop) (fuel : ℕ) : Prop :=
  ∀ i, T i → ∀ t j, termOf (H i) sc = .ok t → t.target = .frag j → j ≠ i → j ≠ φ i ∧ (H' j).bg = (H j).bg ∧
    (∀ x, top H fuel j = .ok x → top H' fuel j = .ok x ∧ (H' x).flow = (H x).flow ∧ (H' x).dir = (H x).dir ∧
      ∀ r, travNode E H sc obs fuel [] x 1 none none = .ok r → travNode E H' sc obs' fuel [] x 1 none none = .ok r) ∧
    ((H j).bg = true → ∀ up r, travNode E H sc obs fuel [] j up none none = .ok r → travNode E H' sc obs' fuel [] j up none none = .ok r)

variable {E : Env F Q} {H H' : Heap F Q} {sc : Scen} {obs obs' : Bool} {φ : ℕ → ℕ} {T Read : ℕ → Prop}

theorem moved_flow (t : Term F) (i j : ℕ) : (t.moved i j).flow = t.flow := by unfold Term.moved; split <;> rfl
theorem moved_descend (t : Term F) (i j : ℕ) : (t.moved i j).descend = t.descend := by unfold Term.moved; split <;> rfl
theorem moved_isNull (t : Term F) (i j : ℕ) : (t.moved i j).isNull = t.isNull := by
  unfold Term.moved
  split
  · rename_i h; simp [Term.isNull, h]
  · rfl

theorem nodeWeight_sim (S : Sim E H H' sc obs obs' φ T Read) (i : ℕ) (hi : T i) (t : Term F) (up mag : ℚ) :
    nodeWeight E (H' (φ i)) (t.moved i (φ i)) up mag = nodeWeight E (H i) t up mag := by
  rw [nodeWeight, nodeWeight, moved_isNull, moved_flow, S.flow i hi]
  by_cases h : (H i).parent = none
  · rw [if_pos h, if_pos ((S.isRef i hi).2 h)]
  · rw [if_neg h, if_neg (fun h' => h ((S.isRef i hi).1 h'))]

theorem conserved_sim (S : Sim E H H' sc obs obs' φ T Read) (i : ℕ) (hi : T i) (ev : ℚ) (cq : Option Q) :
    conserved E H' (H' (φ i)) ev cq = conserved E H (H i) ev cq := by
  have hany : ((children (H' (φ i))).any fun c => (H' c).bal) = (children (H i)).any fun c => (H c).bal := by
    rw [S.kids i hi, List.any_map, Bool.eq_iff_iff, List.any_eq_true, List.any_eq_true]
    refine exists_congr fun c => and_congr_right fun hc => ?_
    simp only [Function.comp_apply]
    rw [S.bal c (S.kidsT i hi c hc)]
  simp only [conserved, S.bal i hi, S.cons i hi, S.flow i hi, S.dir i hi, hany]

/-- what entering the node gives -/
theorem enter_sim (S : Sim E H H' sc obs obs' φ T Read) (i : ℕ) (hi : T i) (seen seen' : List ℕ) (hseen : (H i).parent = none → seen' = [])
    (up : ℚ) (cq : Option Q) (bal : Option ℚ) (hread : bal = none → Read i) (hbal : bal = none → (H i).bal = true → cq ≠ none) :
    (∀ ff cv, enter E H sc obs seen i up cq bal = .ok (ff, cv) →
      ∃ ff', enter E H' sc obs' seen' (φ i) up cq bal = .ok (ff', cv) ∧ Same φ T ff ff' ∧ termOf (H i) sc = .ok ff.term ∧
        ff'.term = ff.term.moved i (φ i)) ∧
    (enter E H sc obs seen i up cq bal = .error .foundBalance → enter E H' sc obs' seen' (φ i) up cq bal = .error .foundBalance) := by
  have hs : ¬((H' (φ i)).parent = none ∧ φ i ∈ seen') := by
    rintro ⟨h1, h2⟩
    rw [hseen ((S.isRef i hi).1 h1)] at h2
    simp at h2
  rw [enter, enter, if_neg hs]
  by_cases h0 : (H i).parent = none ∧ i ∈ seen
  · rw [if_pos h0]; exact ⟨by intros; contradiction, by simp⟩
  rw [if_neg h0]
  have hev : ∀ v, evOf (H i) sc obs bal = .ok v → ∃ v', evOf (H' (φ i)) sc obs' bal = .ok v' ∧ ((H i).bal = false ∨ bal ≠ none → v' = v) := by
    intro v hv
    cases bal with
    | some b => exact ⟨b, rfl, fun _ => by simpa [evOf] using hv⟩
    | none =>
      obtain ⟨v', h1, h2⟩ := S.ev i hi (hread rfl) v hv
      exact ⟨v', h1, fun h => h2 (h.elim id (by simp))⟩
  cases he : evOf (H i) sc obs bal with
  | error e =>
    refine ⟨by intros; contradiction, ?_⟩
    intro h
    simp only [Except.error.injEq] at h
    subst h
    exact absurd he (evOf_error _ _ _ _)
  | ok ev =>
    obtain ⟨ev', hev', heq⟩ := hev ev he
    rw [hev']
    simp only
    cases ht : termOf (H i) sc with
    | error e =>
      refine ⟨by intros; contradiction, ?_⟩
      intro h
      simp only [Except.error.injEq] at h
      subst h
      exact absurd ht (termOf_error _ _)
    | ok t =>
      rw [S.term i hi t ht]
      simp only [nodeWeight_sim S i hi, conserved_sim S i hi]
      by_cases hb : (H i).bal = false ∨ bal ≠ none
      · rw [heq hb]
        cases hn : nodeWeight E (H i) t up (up * ev) with
        | error e => exact ⟨by intros; contradiction, fun h => h⟩
        | ok nw =>
          simp only
          cases hc : conserved E H (H i) ev cq with
          | error e => exact ⟨by intros; contradiction, fun h => h⟩
          | ok r =>
            obtain ⟨cv, cb⟩ := r
            refine ⟨?_, by simp⟩
            intro ff cv' h
            simp only [Except.ok.injEq, Prod.mk.injEq] at h
            obtain ⟨rfl, rfl⟩ := h
            refine ⟨_, rfl, ⟨S.flow i hi, S.dir i hi, rfl, rfl, rfl, rfl, moved_flow _ _ _, moved_descend _ _ _, ?_, .inr ⟨i, hi, rfl, rfl⟩⟩, rfl, rfl⟩
            simp only [Term.moved]
            split
            · rename_i h; exact .inr ⟨i, hi, h, rfl⟩
            · exact .inl rfl
      · -- a balance flow, met for the first time
        push Not at hb
        obtain ⟨hb1, hb2⟩ := hb
        have hb1' : (H i).bal = true := by simpa using hb1
        obtain ⟨q, hq⟩ : ∃ q, cq = some q := by
          cases cq with
          | none => exact absurd rfl (hbal hb2 hb1')
          | some q => exact ⟨q, rfl⟩
        have hcons : ∀ v, conserved E H (H i) v cq = .error .foundBalance := by intro v; simp [conserved, hq, hb1']
        simp only [hcons]
        have hnw : ∀ v e, nodeWeight E (H i) t up v = .error e → ∀ w, nodeWeight E (H i) t up w = .error e := by
          intro v e h w
          rw [nodeWeight] at h ⊢
          split at h
          · simp at h
          · split at h
            · simp at h
            · rename_i h1 h2
              rw [if_neg h1, if_neg h2]
              cases hcv : conversion E (H i).flow t.flow with
              | ok x => rw [hcv] at h; simp [Except.map] at h
              | error e' => rw [hcv] at h; simpa [Except.map] using h
        cases hn : nodeWeight E (H i) t up (up * ev) with
        | error e => rw [hnw _ _ hn]; exact ⟨by intros; contradiction, fun h => h⟩
        | ok nw =>
          cases hn' : nodeWeight E (H i) t up (up * ev') with
          | error e => rw [hnw _ _ hn'] at hn; simp at hn
          | ok nw' => exact ⟨by intros; contradiction, fun _ => rfl⟩

/-! ### the loops -/

theorem fgLoop_sim (visit visit' : ℕ → Res F) : ∀ (cs : List ℕ) (s : ℚ),
    (∀ c ∈ cs, (∀ l cv, visit c = .ok (l, cv) → ∃ l', visit' (φ c) = .ok (l', cv) ∧ List.Forall₂ (Same φ T) l l') ∧
      (visit c = .error .foundBalance → visit' (φ c) = .error .foundBalance)) →
    ∀ l s' b, fgLoop visit cs s = .ok (l, s', b) →
      ∃ l', fgLoop visit' (cs.map φ) s = .ok (l', s', b.map φ) ∧ List.Forall₂ (Same φ T) l l' := by
  intro cs
  induction cs with
  | nil =>
    intro s _ l s' b h
    simp only [fgLoop, Except.ok.injEq, Prod.mk.injEq] at h
    obtain ⟨rfl, rfl, rfl⟩ := h
    exact ⟨[], rfl, .nil⟩
  | cons c cs ih =>
    intro s hv l s' b h
    obtain ⟨h1, h2⟩ := hv c List.mem_cons_self
    have hv' := fun c hc => hv c (List.mem_cons_of_mem _ hc)
    rw [List.map_cons]
    rw [fgLoop] at h ⊢
    cases hc : visit c with
    | ok r =>
      obtain ⟨l1, cv⟩ := r
      rw [hc] at h
      simp only at h
      obtain ⟨l1', e1, f1⟩ := h1 _ _ hc
      rw [e1]
      simp only
      cases hr : fgLoop visit cs (s + cv.getD 0) with
      | error e => rw [hr] at h; simp at h
      | ok r =>
        obtain ⟨l2, s2, b2⟩ := r
        rw [hr] at h
        simp only [Except.ok.injEq, Prod.mk.injEq] at h
        obtain ⟨rfl, rfl, rfl⟩ := h
        obtain ⟨l2', e2, f2⟩ := ih _ hv' _ _ _ hr
        rw [e2]
        exact ⟨_, rfl, List.rel_append f1 f2⟩
    | error e =>
      rw [hc] at h
      by_cases hfb : e = .foundBalance
      · subst hfb
        rw [h2 hc]
        simp only at h ⊢
        cases hr : fgLoop visit cs s with
        | error e => rw [hr] at h; simp at h
        | ok r =>
          obtain ⟨l2, s2, b2⟩ := r
          rw [hr] at h
          simp only [Except.ok.injEq, Prod.mk.injEq] at h
          obtain ⟨rfl, rfl, rfl⟩ := h
          obtain ⟨l2', e2, f2⟩ := ih _ hv' _ _ _ hr
          rw [e2]
          refine ⟨_, ?_, f2⟩
          cases b2 <;> rfl
      · cases e <;> first | exact absurd rfl hfb | simp at h

theorem subLoop_sim (S : Sim E H H' sc obs obs' φ T Read) (visit visit' : ℕ → ℚ → Res F) : ∀ (cs : List ℕ) (inv : List (FF F)), (∀ c ∈ cs, T c) →
    (∀ c ∈ cs, ∀ ev l cv, visit c ev = .ok (l, cv) → ∃ l', visit' (φ c) ev = .ok (l', cv) ∧ List.Forall₂ (Same φ T) l l') →
    ∀ l r, subLoop H visit cs inv = .ok (l, r) →
      ∃ l', subLoop H' visit' (cs.map φ) inv = .ok (l', r) ∧ List.Forall₂ (Same φ T) l l' := by
  intro cs
  induction cs with
  | nil =>
    intro inv _ _ l r h
    simp only [subLoop, Except.ok.injEq, Prod.mk.injEq] at h
    obtain ⟨rfl, rfl⟩ := h
    exact ⟨[], rfl, .nil⟩
  | cons c cs ih =>
    intro inv hT hv l r h
    have hc := hT c List.mem_cons_self
    have hT' := fun c hc => hT c (List.mem_cons_of_mem _ hc)
    have hv' := fun c hc => hv c (List.mem_cons_of_mem _ hc)
    rw [List.map_cons]
    rw [subLoop] at h ⊢
    rw [S.flow c hc, S.dir c hc]
    cases hf : inv.find? fun m => decide (m.flow = (H c).flow) with
    | none => rw [hf] at h; exact ih _ hT' hv' _ _ h
    | some m =>
      rw [hf] at h
      simp only at h ⊢
      cases hc : visit c (if m.dir = (H c).dir then m.mag else -m.mag) with
      | error e => rw [hc] at h; simp at h
      | ok x =>
        obtain ⟨l1, cv⟩ := x
        rw [hc] at h
        obtain ⟨l1', e1, f1⟩ := hv c List.mem_cons_self _ _ _ hc
        rw [e1]
        simp only at h ⊢
        cases hr : subLoop H visit cs (inv.eraseP fun m => decide (m.flow = (H c).flow)) with
        | error e => rw [hr] at h; simp at h
        | ok x =>
          obtain ⟨l2, r2⟩ := x
          rw [hr] at h
          simp only [Except.ok.injEq, Prod.mk.injEq] at h
          obtain ⟨rfl, rfl⟩ := h
          obtain ⟨l2', e2, f2⟩ := ih _ hT' hv' _ _ hr
          rw [e2]
          exact ⟨_, rfl, List.rel_append f1 f2⟩

theorem fgNode_sim (S : Sim E H H' sc obs obs' φ T Read) (i : ℕ) (hi : T i) (s : ℚ) (ff ff' : FF F) (hff : Same φ T ff ff')
    (visit visit' : ℕ → Option Q → Option ℚ → Res F)
    (hv : ∀ c ∈ children (H i), (∀ l cv, visit c (H i).cons none = .ok (l, cv) → ∃ l', visit' (φ c) (H i).cons none = .ok (l', cv) ∧ List.Forall₂ (Same φ T) l l') ∧
      (visit c (H i).cons none = .error .foundBalance → visit' (φ c) (H i).cons none = .error .foundBalance) ∧
      ∀ x l cv, visit c none (some x) = .ok (l, cv) → ∃ l', visit' (φ c) none (some x) = .ok (l', cv) ∧ List.Forall₂ (Same φ T) l l')
    (l : List (FF F)) (h : fgNode E H i s ff visit = .ok l) :
    ∃ l', fgNode E H' (φ i) s ff' visit' = .ok l' ∧ List.Forall₂ (Same φ T) l l' := by
  rw [fgNode] at h ⊢
  have hin : inbound E (H' (φ i)) s = inbound E (H i) s := by simp only [inbound, S.cons i hi, S.dir i hi, S.flow i hi]
  simp only [S.kids i hi, S.cons i hi, hin]
  cases hl : fgLoop (fun c => visit c (H i).cons none) (children (H i)) (inbound E (H i) s) with
  | error e => rw [hl] at h; simp at h
  | ok r =>
    obtain ⟨l1, s1, b⟩ := r
    rw [hl] at h
    obtain ⟨l1', e1, f1⟩ := fgLoop_sim (fun c => visit c (H i).cons none) (fun c => visit' c (H i).cons none) _ _
      (fun c hc => ⟨(hv c hc).1, (hv c hc).2.1⟩) _ _ _ hl
    rw [e1]
    cases b with
    | none =>
      simp only [Option.map_none, Except.ok.injEq] at h ⊢
      subst h
      exact ⟨_, rfl, .cons hff f1⟩
    | some b =>
      have hb : b ∈ children (H i) := ((fgLoop_spec _ _ _ _ _ _ hl).2.2.1 b rfl).1
      simp only [Option.map_some] at h ⊢
      rw [S.dir b (S.kidsT i hi b hb)]
      cases hvb : visit b none (some (if (H b).dir = .input then -s1 else s1)) with
      | error e => rw [hvb] at h; simp at h
      | ok r =>
        obtain ⟨l2, cv2⟩ := r
        rw [hvb] at h
        simp only [Except.ok.injEq] at h
        subst h
        obtain ⟨l2', e2, f2⟩ := (hv b hb).2.2 _ _ _ hvb
        rw [e2]
        exact ⟨_, rfl, List.rel_append (.cons hff f1) f2⟩

theorem subNode_sim (S : Sim E H H' sc obs obs' φ T Read) (i : ℕ) (hi : T i) (ff ff' : FF F) (hff : Same φ T ff ff')
    (inv internal : List (FF F)) (visit visit' : ℕ → ℚ → ℚ → Res F)
    (hv : ∀ c ∈ children (H i), ∀ w ev l cv, visit c w ev = .ok (l, cv) → ∃ l', visit' (φ c) w ev = .ok (l', cv) ∧ List.Forall₂ (Same φ T) l l')
    (l : List (FF F)) (h : subNode H i ff inv internal visit = .ok l) :
    ∃ l', subNode H' (φ i) ff' inv internal visit' = .ok l' ∧ List.Forall₂ (Same φ T) l l' := by
  rw [subNode] at h ⊢
  rw [hff.tflow, hff.nw, hff.descend, S.dir i hi, S.kids i hi]
  simp only at h ⊢
  cases hf : inv.find? fun m => decide (m.flow = ff.term.flow) with
  | none => rw [hf] at h; simp at h
  | some m =>
    rw [hf] at h
    simp only at h ⊢
    split at h
    · simp at h
    · rename_i hm
      rw [if_neg hm]
      cases hr : subLoop H (fun c ev => visit c (ff.nw / (if m.dir = (H i).dir then -m.mag else m.mag)) ev) (children (H i))
          (inv.eraseP fun m => decide (m.flow = ff.term.flow)) with
      | error e => rw [hr] at h; simp at h
      | ok r =>
        obtain ⟨l1, rest⟩ := r
        rw [hr] at h
        simp only [Except.ok.injEq] at h
        subst h
        obtain ⟨l1', e1, f1⟩ := subLoop_sim S (fun c ev => visit c (ff.nw / (if m.dir = (H i).dir then -m.mag else m.mag)) ev)
          (fun c ev => visit' c (ff.nw / (if m.dir = (H i).dir then -m.mag else m.mag)) ev) _ _ (S.kidsT i hi)
          (fun c hc ev l cv => hv c hc _ ev l cv) _ _ hr
        rw [e1]
        refine ⟨_, rfl, List.rel_append (List.rel_append ?_ f1) (Same.refls _ _ _)⟩
        split
        · exact .cons hff (Same.refls _ _ _)
        · exact .cons ⟨hff.flow, hff.dir, hff.mag, rfl, hff.conserved, rfl, hff.tflow, hff.descend, hff.target, hff.who⟩ .nil

/-- the traversal of a copy finds the same fragment flows -/
theorem travNode_sim (S : Sim E H H' sc obs obs' φ T Read) : ∀ (fuel : ℕ), (∀ n < fuel, OutAt E H H' sc obs obs' φ T n) → ∀ (seen seen' : List ℕ) (i : ℕ), T i → ((H i).parent = none → seen' = []) →
    ∀ (up : ℚ) (cq : Option Q) (bal : Option ℚ), (bal = none → Read i) → (bal = none → (H i).bal = true → cq ≠ none) →
    (∀ l cv, travNode E H sc obs fuel seen i up cq bal = .ok (l, cv) →
      ∃ l', travNode E H' sc obs' fuel seen' (φ i) up cq bal = .ok (l', cv) ∧ List.Forall₂ (Same φ T) l l') ∧
    (travNode E H sc obs fuel seen i up cq bal = .error .foundBalance →
      travNode E H' sc obs' fuel seen' (φ i) up cq bal = .error .foundBalance) := by
  intro fuel
  induction fuel with
  | zero => intro _ seen seen' i _ _ up cq bal _ _; exact ⟨by intro l cv h; simp [travNode] at h, by intro h; simp [travNode] at h⟩
  | succ fuel ih =>
    intro hO seen seen' i hi hseen up cq bal hread hbal
    have ih := ih fun n hn => hO n (Nat.lt_succ_of_lt hn)
    obtain ⟨hok, hfb⟩ := enter_sim S i hi seen seen' hseen up cq bal hread hbal
    constructor
    · intro l cv h
      rw [travNode] at h ⊢
      cases he : enter E H sc obs seen i up cq bal with
      | error e => rw [he] at h; simp at h
      | ok r =>
        obtain ⟨ff, cv0⟩ := r
        rw [he] at h
        obtain ⟨ff', e1, hff, hterm, hterm'⟩ := hok ff cv0 he
        rw [e1]
        have hnull : ff'.term.isNull = ff.term.isNull := by rw [hterm', moved_isNull]
        simp only at h ⊢
        rw [hnull, S.bg i hi, hff.mag]
        by_cases hc : ff.term.isNull ∨ (H i).bg ∨ ff.mag = 0
        · rw [if_pos hc] at h ⊢
          simp only [Except.ok.injEq, Prod.mk.injEq] at h
          obtain ⟨rfl, rfl⟩ := h
          exact ⟨_, rfl, .cons hff .nil⟩
        · rw [if_neg hc] at h ⊢
          have key : ∀ (s1 s2 : List ℕ) (l : List (FF F)), expand E H sc obs (top H fuel) (travNode E H sc obs fuel) s1 i ff = .ok l →
              ∃ l', expand E H' sc obs' (top H' fuel) (travNode E H' sc obs' fuel) s2 (φ i) ff' = .ok l' ∧ List.Forall₂ (Same φ T) l l' := by
            intro s1 s2 l h
            have kid : ∀ c ∈ children (H i), ∀ (up : ℚ) (cq : Option Q) (bal : Option ℚ), (bal = none → Read c) →
                (bal = none → (H c).bal = true → cq ≠ none) → _ :=
              fun c hc => ih s1 s2 c (S.kidsT i hi c hc) (fun hp => absurd hp (S.kidPar i hi c hc))
            have fg : ∀ b, (ff.term.target = .process ∨ ff.term.target = .frag i) →
                fgFrom E H sc obs (travNode E H sc obs fuel) s1 i ff b = .ok l →
                ∃ l', fgFrom E H' sc obs' (travNode E H' sc obs' fuel) s2 (φ i) ff' b = .ok l' ∧ List.Forall₂ (Same φ T) l l' := by
              intro b hb h
              rw [fgFrom] at h ⊢
              cases hs : stock0 (H i) sc obs b with
              | error e => rw [hs] at h; simp at h
              | ok s =>
                rw [hs] at h
                have hs' : stock0 (H' (φ i)) sc obs' b = .ok s := by
                  rw [stock0] at hs ⊢
                  by_cases hcond : b = true ∧ (H i).parent = none
                  · rw [if_pos hcond] at hs
                    rw [if_pos ⟨hcond.1, (S.isRef i hi).2 hcond.2⟩]
                    obtain ⟨v', h1, h2⟩ := S.ev i hi (S.refRead i hi hcond.2).1 s hs
                    rw [h1, h2 (S.refRead i hi hcond.2).2]
                  · rw [if_neg hcond] at hs
                    rw [if_neg (fun h => hcond ⟨h.1, (S.isRef i hi).1 h.2⟩)]
                    exact hs
                rw [hs']
                simp only at h ⊢
                have hkr := S.kidsRead i hi _ hterm hb
                rw [hff.nw]
                refine fgNode_sim S i hi s ff ff' hff _ _ (fun c hc => ?_) l h
                refine ⟨(kid c hc _ _ _ (fun _ => hkr c hc) (fun _ hcb hcn => ?_)).1, (kid c hc _ _ _ (fun _ => hkr c hc) (fun _ hcb hcn => ?_)).2, ?_⟩
                · rw [S.balPar i hi hcn c hc] at hcb; cases hcb
                · rw [S.balPar i hi hcn c hc] at hcb; cases hcb
                · intro x l cv
                  exact (kid c hc _ _ _ (by simp) (by simp)).1 l cv
            rw [expand] at h ⊢
            cases htg : ff.term.target with
            | null => simp [Term.isNull, htg] at hc
            | process =>
              have : ff'.term.target = .process := by rw [hterm', Term.moved, htg]; simp [htg]
              rw [htg] at h
              rw [this]
              simp only at h ⊢
              exact fg false (.inl htg) h
            | frag j =>
              rw [htg] at h
              by_cases hji : j = i
              · subst hji
                have : ff'.term.target = .frag (φ j) := by rw [hterm', Term.moved, if_pos htg]
                rw [this]
                simp only [if_true] at h ⊢
                exact fg true (.inr htg) h
              · obtain ⟨hne, hbgj, hout, hbgout⟩ := hO fuel (Nat.lt_succ_self _) i hi _ j hterm htg hji
                have : ff'.term.target = .frag j := by rw [hterm', Term.moved, htg, if_neg (by simp [hji]), htg]
                rw [this]
                simp only [hji, hne, if_false, hbgj] at h ⊢
                by_cases hbg : (H j).bg = true
                · rw [if_pos hbg] at h ⊢
                  cases hv : travNode E H sc obs fuel [] j ff.nw none none with
                  | error e => rw [hv] at h; simp at h
                  | ok r =>
                    rw [hff.nw, hbgout hbg _ _ hv]
                    rw [hv] at h
                    obtain ⟨l1, cv1⟩ := r
                    match l1, h with
                    | [], h => simp at h
                    | [f], h =>
                      simp only [Except.ok.injEq] at h ⊢
                      subst h
                      exact ⟨_, rfl, .cons ⟨S.flow i hi, S.dir i hi, rfl, rfl, rfl, rfl, rfl, rfl, .inl rfl, .inr ⟨i, hi, rfl, rfl⟩⟩ .nil⟩
                    | a :: b :: l1, h => simp at h
                · rw [if_neg hbg] at h ⊢
                  cases hx : top H fuel j with
                  | error e => rw [hx] at h; simp at h
                  | ok x =>
                    obtain ⟨htop, hfl, hdr, htr⟩ := hout x hx
                    rw [htop]
                    rw [hx] at h
                    simp only at h ⊢
                    cases hv : travNode E H sc obs fuel [] x 1 none none with
                    | error e => rw [hv] at h; simp at h
                    | ok r =>
                      rw [htr _ hv]
                      rw [hv] at h
                      obtain ⟨ffs, cv1⟩ := r
                      simp only at h ⊢
                      rw [hfl, hdr]
                      cases hg : groupIos j (H x).flow (H x).dir ffs true with
                      | error e => rw [hg] at h; simp at h
                      | ok r =>
                        obtain ⟨inv, internal⟩ := r
                        rw [hg] at h
                        simp only at h ⊢
                        exact subNode_sim S i hi ff ff' hff inv internal _ _
                          (fun c hc w ev l cv => (kid c hc _ _ _ (by simp) (by simp)).1 l cv) l h
          cases hx : expand E H sc obs (top H fuel) (travNode E H sc obs fuel) (if (H i).parent = none then i :: seen else seen) i ff with
          | error e => rw [hx] at h; simp at h
          | ok l0 =>
            rw [hx] at h
            simp only [Except.ok.injEq, Prod.mk.injEq] at h
            obtain ⟨rfl, rfl⟩ := h
            obtain ⟨l', e2, f2⟩ := key _ (if (H' (φ i)).parent = none then φ i :: seen' else seen') _ hx
            rw [e2]
            exact ⟨l', rfl, f2⟩
    · intro h
      obtain ⟨hcq, hb⟩ := trav_foundBalance h
      have he : enter E H sc obs seen i up cq bal = .error .foundBalance := by
        rw [travNode] at h
        cases he : enter E H sc obs seen i up cq bal with
        | error e => rw [he] at h; simp at h; rw [h]
        | ok r =>
          exfalso
          obtain ⟨q, rfl⟩ := Option.ne_none_iff_exists'.1 hcq
          rw [enter] at he
          split at he
          · simp at he
          · split at he
            · simp at he
            · split at he
              · simp at he
              · split at he
                · simp at he
                · rw [conserved] at he
                  simp [hb] at he
      rw [travNode, hfb he]

end Frg
