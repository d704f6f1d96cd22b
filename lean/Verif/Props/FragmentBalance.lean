import Verif.Props.FragmentIos

/-!
C29: a balance flow closes the balance.
-/

namespace Frg
set_option linter.unusedSectionVars false
variable {F Q : Type} [DecidableEq F] [DecidableEq Q]

/-- the amount that a flow of direction d (as seen from a node) brings into the node -/
def into (d : Dir) (x : ℚ) : ℚ := if d = .input then x else -x

/-- the conserved value a visited child reports -/
def consOf (r : Res F) : ℚ :=
  match r with
  | .ok (_, v) => v.getD 0
  | .error _ => 0

/-! ### lemmas -/

theorem fgLoop_spec (visit : ℕ → Res F) (cs : List ℕ) (s : ℚ) (l : List (FF F)) (s' : ℚ) (bo : Option ℕ)
    (h : fgLoop visit cs s = .ok (l, s', bo)) :
    s' = s + (cs.map fun c => consOf (visit c)).sum ∧
    (∀ c ∈ cs, visit c = .error .foundBalance ∨ ∃ lc v, visit c = .ok (lc, v) ∧ ∀ x ∈ lc, x ∈ l) ∧
    (∀ b, bo = some b → b ∈ cs ∧ visit b = .error .foundBalance) ∧
    (bo = none → ∀ c ∈ cs, visit c ≠ .error .foundBalance) := by
  induction cs generalizing s l s' bo with
  | nil =>
    simp only [fgLoop, Except.ok.injEq, Prod.mk.injEq] at h
    obtain ⟨rfl, rfl, rfl⟩ := h
    simp
  | cons c cs ih =>
    simp only [fgLoop] at h
    cases hv : visit c with
    | ok r =>
      obtain ⟨lc, v⟩ := r
      simp only [hv] at h
      cases hr : fgLoop visit cs (s + v.getD 0) with
      | error e => simp [hr] at h
      | ok r =>
        obtain ⟨l', s1, b1⟩ := r
        simp only [hr, Except.ok.injEq, Prod.mk.injEq] at h
        obtain ⟨rfl, rfl, rfl⟩ := h
        obtain ⟨i1, i2, i3, i4⟩ := ih _ _ _ _ hr
        refine ⟨?_, ?_, ?_, ?_⟩
        · rw [i1]; simp only [List.map_cons, List.sum_cons, hv, consOf]; ring
        · intro d hd
          rcases List.mem_cons.1 hd with rfl | hd
          · right; exact ⟨lc, v, hv, fun x hx => by simp [hx]⟩
          · rcases i2 d hd with h | ⟨ld, w, h1, h2⟩
            · exact .inl h
            · exact .inr ⟨ld, w, h1, fun x hx => by simp [h2 x hx]⟩
        · intro b hb; obtain ⟨h1, h2⟩ := i3 b hb; exact ⟨by simp [h1], h2⟩
        · intro hb d hd
          rcases List.mem_cons.1 hd with rfl | hd
          · simp [hv]
          · exact i4 hb d hd
    | error e =>
      simp only [hv] at h
      by_cases he : e = .foundBalance
      · subst he
        simp only at h
        cases hr : fgLoop visit cs s with
        | error e => simp [hr] at h
        | ok r =>
          obtain ⟨l', s1, b1⟩ := r
          simp only [hr, Except.ok.injEq, Prod.mk.injEq] at h
          obtain ⟨rfl, rfl, rfl⟩ := h
          obtain ⟨i1, i2, i3, i4⟩ := ih _ _ _ _ hr
          refine ⟨?_, ?_, ?_, ?_⟩
          · rw [i1]; simp only [List.map_cons, List.sum_cons, hv, consOf]; ring
          · intro d hd
            rcases List.mem_cons.1 hd with rfl | hd
            · exact .inl hv
            · exact i2 d hd
          · intro b hb
            cases b1 with
            | none => simp at hb; subst hb; exact ⟨by simp, hv⟩
            | some b' => simp at hb; subst hb; obtain ⟨h1, h2⟩ := i3 b' rfl; exact ⟨by simp [h1], h2⟩
          · simp
      · exfalso
        cases e <;> simp at h he

theorem fgLoop_error (visit : ℕ → Res F) (cs : List ℕ) (s : ℚ) : fgLoop visit cs s ≠ .error .foundBalance := by
  induction cs generalizing s with
  | nil => simp [fgLoop]
  | cons c cs ih =>
    simp only [fgLoop]
    cases hv : visit c with
    | ok r =>
      simp only
      have := ih (s + r.2.getD 0)
      cases hr : fgLoop visit cs (s + r.2.getD 0) with
      | error e => simpa [hr] using this
      | ok r => simp
    | error e =>
      have := ih s
      cases e <;> simp
      cases hr : fgLoop visit cs s with
      | error e => simpa [hr] using this
      | ok r => simp

theorem subLoop_error (H : Heap F Q) (visit : ℕ → ℚ → Res F) (hv : ∀ c ev, visit c ev ≠ .error .foundBalance) (cs : List ℕ)
    (inv : List (FF F)) : subLoop H visit cs inv ≠ .error .foundBalance := by
  induction cs generalizing inv with
  | nil => simp [subLoop]
  | cons c cs ih =>
    simp only [subLoop]
    split
    · exact ih inv
    · rename_i m _
      have h1 := hv c (if m.dir = (H c).dir then m.mag else -m.mag)
      cases h : visit c (if m.dir = (H c).dir then m.mag else -m.mag) with
      | error e => simpa [h] using h1
      | ok r =>
        simp only
        have h2 := ih (inv.eraseP fun m => decide (m.flow = (H c).flow))
        cases hr : subLoop H visit cs (inv.eraseP fun m => decide (m.flow = (H c).flow)) with
        | error e => simpa [hr] using h2
        | ok r => simp

theorem matchEv_error (evs : Dict Key (Option ℚ)) (sc : Scen) : matchEv evs sc ≠ .error .foundBalance := by
  unfold matchEv
  repeat' split
  all_goals simp

theorem evOf_error (n : Node F Q) (sc : Scen) (obs : Bool) (bal : Option ℚ) : evOf n sc obs bal ≠ .error .foundBalance := by
  unfold evOf exchangeValue
  split
  · simp
  · have := matchEv_error n.evs sc
    split <;> simp_all

theorem termOf_error (n : Node F Q) (sc : Scen) : termOf n sc ≠ .error .foundBalance := by
  unfold termOf
  simp only
  repeat' split
  all_goals simp_all

theorem nodeWeight_error (E : Env F Q) (n : Node F Q) (t : Term F) (u m : ℚ) : nodeWeight E n t u m ≠ .error .foundBalance := by
  unfold nodeWeight conversion
  repeat' split
  all_goals simp_all [Except.map]

theorem conserved_error {E : Env F Q} {H : Heap F Q} {n : Node F Q} {ev : ℚ} {cq : Option Q}
    (h : conserved E H n ev cq = .error .foundBalance) : cq ≠ none ∧ n.bal = true := by
  unfold conserved at h
  cases cq with
  | some q =>
    by_cases hb : n.bal = true
    · exact ⟨by simp, hb⟩
    · simp [hb] at h
  | none =>
    exfalso
    simp only at h
    split at h
    · simp at h
    · split at h
      · simp at h
      · split at h <;> simp at h

theorem enter_foundBalance {E : Env F Q} {H : Heap F Q} {sc : Scen} {obs : Bool} {seen : List ℕ} {i : ℕ} {up : ℚ}
    {cq : Option Q} {bal : Option ℚ} (h : enter E H sc obs seen i up cq bal = .error .foundBalance) :
    cq ≠ none ∧ (H i).bal = true := by
  unfold enter at h
  split at h
  · simp at h
  have h1 := evOf_error (H i) sc obs bal
  cases hev : evOf (H i) sc obs bal with
  | error e => rw [hev] at h h1; simp at h; simp [h] at h1
  | ok ev =>
    simp only [hev] at h
    have h2 := termOf_error (H i) sc
    cases htm : termOf (H i) sc with
    | error e => rw [htm] at h h2; simp at h; simp [h] at h2
    | ok term =>
      simp only [htm] at h
      have h3 := nodeWeight_error E (H i) term up (up * ev)
      cases hnw : nodeWeight E (H i) term up (up * ev) with
      | error e => rw [hnw] at h h3; simp at h; simp [h] at h3
      | ok nw =>
        simp only [hnw] at h
        cases hc : conserved E H (H i) ev cq with
        | error e =>
          rw [hc] at h
          simp only [Except.error.injEq] at h
          exact conserved_error (h ▸ hc)
        | ok r => rw [hc] at h; simp at h

/-- what `enter` computes -/
theorem enter_ok {E : Env F Q} {H : Heap F Q} {sc : Scen} {obs : Bool} {seen : List ℕ} {i : ℕ} {up : ℚ}
    {cq : Option Q} {bal : Option ℚ} {ff : FF F} {cv : Option ℚ} (h : enter E H sc obs seen i up cq bal = .ok (ff, cv)) :
    ∃ ev, evOf (H i) sc obs bal = .ok ev ∧ ff.who = .frag i ∧ ff.mag = up * ev ∧ termOf (H i) sc = .ok ff.term ∧
      nodeWeight E (H i) ff.term up (up * ev) = .ok ff.nw ∧
      ∀ q, cq = some q → (H i).bal = false ∧ cv = some (into (H i).dir (ev * E.cf (H i).flow q)) := by
  unfold enter at h
  split at h
  · simp at h
  cases hev : evOf (H i) sc obs bal with
  | error e => rw [hev] at h; simp at h
  | ok ev =>
    simp only [hev] at h
    cases htm : termOf (H i) sc with
    | error e => rw [htm] at h; simp at h
    | ok term =>
      simp only [htm] at h
      cases hnw : nodeWeight E (H i) term up (up * ev) with
      | error e => rw [hnw] at h; simp at h
      | ok nw =>
        simp only [hnw] at h
        cases hc : conserved E H (H i) ev cq with
        | error e => rw [hc] at h; simp at h
        | ok r =>
          simp only [hc, Except.ok.injEq, Prod.mk.injEq] at h
          obtain ⟨rfl, rfl⟩ := h
          refine ⟨ev, rfl, rfl, rfl, rfl, hnw, ?_⟩
          rintro q rfl
          unfold conserved at hc
          by_cases hb : (H i).bal = true
          · simp [hb] at hc
          · simp only [hb, Bool.false_eq_true, ↓reduceIte, Except.ok.injEq] at hc
            refine ⟨by simpa using hb, ?_⟩
            rw [← hc]
            unfold into
            cases (H i).dir <;> simp

/-- FoundBalanceFlow only comes from a balance flow asked for a conserved value -/
theorem trav_foundBalance {E : Env F Q} {H : Heap F Q} {sc : Scen} {obs : Bool} {fuel : ℕ} {seen : List ℕ} {i : ℕ} {up : ℚ}
    {cq : Option Q} {bal : Option ℚ} (h : travNode E H sc obs fuel seen i up cq bal = .error .foundBalance) :
    cq ≠ none ∧ (H i).bal = true := by
  induction fuel generalizing seen i up cq bal with
  | zero => simp [travNode] at h
  | succ fuel ih =>
    have hv : ∀ seen c w b, travNode E H sc obs fuel seen c w none b ≠ .error .foundBalance :=
      fun seen c w b h' => (ih h').1 rfl
    unfold travNode at h
    cases he : enter E H sc obs seen i up cq bal with
    | error e => rw [he] at h; simp at h; subst h; exact enter_foundBalance he
    | ok r =>
      obtain ⟨ff, cv⟩ := r
      simp only [he] at h
      split at h
      · simp at h
      exfalso
      have hfg : ∀ (s : ℚ) (seen : List ℕ), (fgNode E H i s ff fun c cq bal => travNode E H sc obs fuel seen c ff.nw cq bal) ≠
          .error .foundBalance := by
        intro s seen
        unfold fgNode
        simp only
        generalize inbound E (H i) s = st
        have h1 := fgLoop_error (fun c => travNode E H sc obs fuel seen c ff.nw (H i).cons none) (children (H i)) st
        cases hl : fgLoop (fun c => travNode E H sc obs fuel seen c ff.nw (H i).cons none) (children (H i)) st with
        | error e => simpa [hl] using h1
        | ok r =>
          obtain ⟨l, s', b⟩ := r
          cases b with
          | none => simp
          | some b =>
            simp only
            have h2 := hv seen b ff.nw (some (if (H b).dir = .input then -s' else s'))
            cases hb : travNode E H sc obs fuel seen b ff.nw none (some (if (H b).dir = .input then -s' else s')) with
            | error e => simpa [hb] using h2
            | ok r => simp
      have hst : ∀ b, stock0 (H i) sc obs b ≠ .error .foundBalance := by
        intro b
        unfold stock0
        split
        · exact evOf_error (H i) sc obs none
        · simp
      generalize hs : (if (H i).parent = none then i :: seen else seen) = seen' at h
      have hexp : expand E H sc obs (top H fuel) (travNode E H sc obs fuel) seen' i ff ≠ .error .foundBalance := by
        have hisFg : ∀ b, fgFrom E H sc obs (travNode E H sc obs fuel) seen' i ff b ≠ .error .foundBalance := by
          intro b
          unfold fgFrom
          have h1 := hst b
          cases hs0 : stock0 (H i) sc obs b with
          | error e => simpa [hs0] using h1
          | ok s => exact hfg s seen'
        unfold expand
        cases ff.term.target with
        | null => simp
        | process => exact hisFg false
        | frag j =>
          simp only
          split
          · exact hisFg true
          · split
            · have h1 := hv [] j ff.nw none
              cases hj : travNode E H sc obs fuel [] j ff.nw none none with
              | error e => simpa [hj] using h1
              | ok r =>
                obtain ⟨l, c⟩ := r
                match l with
                | [] => simp
                | [f] => simp
                | f :: g :: l => simp
            · have htop : ∀ n j, top H n j ≠ .error .foundBalance := by
                intro n
                induction n with
                | zero => intro j; simp [top]
                | succ n ih' => intro j; unfold top; split <;> simp_all
              have h0 := htop fuel j
              cases ht : top H fuel j with
              | error e => simpa [ht] using h0
              | ok t =>
                simp only
                have h1 := hv [] t 1 none
                cases hj : travNode E H sc obs fuel [] t 1 none none with
                | error e => simpa [hj] using h1
                | ok r =>
                  simp only
                  have h2 : groupIos j (H t).flow (H t).dir r.1 true ≠ .error .foundBalance := by
                    unfold groupIos
                    simp only
                    repeat' split
                    all_goals simp
                  cases hg : groupIos j (H t).flow (H t).dir r.1 true with
                  | error e => simpa [hg] using h2
                  | ok g =>
                    simp only
                    unfold subNode
                    simp only
                    split
                    · simp
                    · split
                      · simp
                      · rename_i m _ _
                        have h3 := subLoop_error H (fun c ev => travNode E H sc obs fuel seen' c
                          (ff.nw / (if m.dir = (H i).dir then -m.mag else m.mag)) none (some ev)) (fun c ev => hv _ _ _ _)
                          (children (H i)) (g.1.eraseP fun m => decide (m.flow = ff.term.flow))
                        cases hsl : subLoop H (fun c ev => travNode E H sc obs fuel seen' c
                          (ff.nw / (if m.dir = (H i).dir then -m.mag else m.mag)) none (some ev))
                          (children (H i)) (g.1.eraseP fun m => decide (m.flow = ff.term.flow)) with
                        | error e => simpa [hsl] using h3
                        | ok r => simp
      cases he' : expand E H sc obs (top H fuel) (travNode E H sc obs fuel) seen' i ff with
      | error e => rw [he'] at h hexp; simp at h; simp [h] at hexp
      | ok l => rw [he'] at h; simp at h

/-- the fragment's own flow is in its traversal, unless it is terminated to a background fragment -/
theorem trav_own {E : Env F Q} {H : Heap F Q} {sc : Scen} {obs : Bool} {fuel : ℕ} {seen : List ℕ} {i : ℕ} {up : ℚ}
    {cq : Option Q} {bal : Option ℚ} {l : List (FF F)} {cv : Option ℚ}
    (h : travNode E H sc obs fuel seen i up cq bal = .ok (l, cv)) :
    ∃ ff, enter E H sc obs seen i up cq bal = .ok (ff, cv) ∧
      ((∀ j, ff.term.target = .frag j → j ≠ i → (H j).bg = false) →
        ∃ f ∈ l, f.who = .frag i ∧ f.mag = ff.mag ∧ f.term = ff.term) := by
  cases fuel with
  | zero => simp [travNode] at h
  | succ fuel =>
    unfold travNode at h
    cases he : enter E H sc obs seen i up cq bal with
    | error e => rw [he] at h; simp at h
    | ok r =>
      obtain ⟨ff, cv'⟩ := r
      simp only [he] at h
      have hwho : ff.who = .frag i := (enter_ok he).choose_spec.2.1
      split at h
      · simp only [Except.ok.injEq, Prod.mk.injEq] at h
        obtain ⟨rfl, rfl⟩ := h
        exact ⟨ff, rfl, fun _ => ⟨ff, by simp, hwho, rfl, rfl⟩⟩
      · generalize hs : (if (H i).parent = none then i :: seen else seen) = seen' at h
        cases he' : expand E H sc obs (top H fuel) (travNode E H sc obs fuel) seen' i ff with
        | error e => rw [he'] at h; simp at h
        | ok l' =>
          rw [he'] at h
          simp only [Except.ok.injEq, Prod.mk.injEq] at h
          obtain ⟨rfl, rfl⟩ := h
          refine ⟨ff, rfl, fun hbg => ?_⟩
          have hfg : ∀ b, fgFrom E H sc obs (travNode E H sc obs fuel) seen' i ff b = .ok l' → ff ∈ l' := by
            intro b hb
            unfold fgFrom at hb
            cases hs0 : stock0 (H i) sc obs b with
            | error e => rw [hs0] at hb; simp at hb
            | ok s =>
              rw [hs0] at hb
              simp only [fgNode] at hb
              split at hb
              · simp at hb
              · simp only [Except.ok.injEq] at hb; rw [← hb]; simp
              · split at hb
                · simp at hb
                · simp only [Except.ok.injEq] at hb; rw [← hb]; simp
          unfold expand at he'
          cases ht : ff.term.target with
          | null => rw [ht] at he'; simp at he'; exact ⟨ff, by simp [← he'], hwho, rfl, rfl⟩
          | process => rw [ht] at he'; exact ⟨ff, hfg false he', hwho, rfl, rfl⟩
          | frag j =>
            rw [ht] at he'
            simp only at he'
            by_cases hji : j = i
            · rw [if_pos hji] at he'; exact ⟨ff, hfg true he', hwho, rfl, rfl⟩
            · rw [if_neg hji, if_neg (by simp [hbg j ht hji])] at he'
              split at he'
              · simp at he'
              · split at he'
                · simp at he'
                · split at he'
                  · simp at he'
                  · unfold subNode at he'
                    simp only at he'
                    split at he'
                    · simp at he'
                    · split at he'
                      · simp at he'
                      · split at he'
                        · simp at he'
                        · simp only [Except.ok.injEq] at he'
                          rw [← he']
                          by_cases hd : ff.term.descend = true
                          · exact ⟨ff, by simp [hd], hwho, rfl, rfl⟩
                          · rw [if_neg hd]
                            exact ⟨_, List.mem_append_left _ (List.mem_append_left _ (List.mem_singleton.2 rfl)), hwho, rfl, rfl⟩

/-! ### C29 -/

/-- C29 at the level of exchange values, for every foreground node with a balance flow: `s` is the amount of the
reference flow per unit of the node. -/
theorem balance_sum {E : Env F Q} {H : Heap F Q} {sc : Scen} {obs : Bool} {fuel : ℕ} {seen : List ℕ} {i : ℕ} {up : ℚ}
    {cq : Option Q} {bal : Option ℚ} {l : List (FF F)} {cv : Option ℚ}
    (h : travNode E H sc obs fuel seen i up cq bal = .ok (l, cv))
    {t : Term F} (ht : termOf (H i) sc = .ok t) (htt : t.target = .process ∨ t.target = .frag i) (hbg : (H i).bg = false)
    {ev : ℚ} (hev : evOf (H i) sc obs bal = .ok ev) (hne : up * ev ≠ 0)
    {q : Q} (hq : (H i).cons = some q) {b : ℕ} (hb : b ∈ (H i).kids) (hbb : (H b).bal = true)
    (honly : ∀ c ∈ (H i).kids, (H c).bal = true → c = b) (hcf : E.cf (H b).flow q = 1)
    (hbt : ∀ tb j, termOf (H b) sc = .ok tb → tb.target = .frag j → j ≠ b → (H j).bg = false) :
    ∃ fi ∈ l, fi.who = .frag i ∧ fi.mag = up * ev ∧ nodeWeight E (H i) t up (up * ev) = .ok fi.nw ∧
    ∃ fb ∈ l, fb.who = .frag b ∧
    ∃ s, stock0 (H i) sc obs (decide (t.target = .frag i)) = .ok s ∧
    ∃ x : ℕ → ℚ, (∀ c ∈ (H i).kids, c ≠ b → exchangeValue (H c) sc obs = .ok (x c) ∧
        ((∀ tc j, termOf (H c) sc = .ok tc → tc.target = .frag j → j ≠ c → (H j).bg = false) →
          ∃ fc ∈ l, fc.who = .frag c ∧ fc.mag = fi.nw * x c)) ∧
      into (H i).dir.comp (fi.nw * s) * E.cf (H i).flow q +
        (((H i).kids.filter fun c => decide (c ≠ b)).map fun c => into (H c).dir (fi.nw * x c) * E.cf (H c).flow q).sum +
        into (H b).dir fb.mag * E.cf (H b).flow q = 0 := by
  cases fuel with
  | zero => simp [travNode] at h
  | succ fuel =>
  unfold travNode at h
  cases he : enter E H sc obs seen i up cq bal with
  | error e => rw [he] at h; simp at h
  | ok r =>
  obtain ⟨ff, cv'⟩ := r
  obtain ⟨ev', hev', hwho, hmag, htm, hnw, hcv⟩ := enter_ok he
  have : ev' = ev := by rw [hev] at hev'; simpa using hev'.symm
  subst this
  have htf : ff.term = t := by rw [ht] at htm; simpa using htm.symm
  simp only [he] at h
  have hnull : ff.term.isNull = false := by
    rw [htf]; unfold Term.isNull; rcases htt with h | h <;> rw [h]
  rw [if_neg (by simp [hnull, hbg, hmag, hne])] at h
  generalize hs : (if (H i).parent = none then i :: seen else seen) = seen' at h
  cases hx : expand E H sc obs (top H fuel) (travNode E H sc obs fuel) seen' i ff with
  | error e => rw [hx] at h; simp at h
  | ok l' =>
  rw [hx] at h
  simp only [Except.ok.injEq, Prod.mk.injEq] at h
  obtain ⟨rfl, rfl⟩ := h
  have hfg : fgFrom E H sc obs (travNode E H sc obs fuel) seen' i ff (decide (t.target = .frag i)) = .ok l' := by
    unfold expand at hx
    simp only [htf] at hx
    rcases htt with h | h
    · rw [h] at hx ⊢; simpa using hx
    · rw [h] at hx ⊢; simpa using hx
  unfold fgFrom at hfg
  cases hs0 : stock0 (H i) sc obs (decide (t.target = .frag i)) with
  | error e => rw [hs0] at hfg; simp at hfg
  | ok s =>
  rw [hs0] at hfg
  simp only [fgNode, hq] at hfg
  cases hl : fgLoop (fun c => travNode E H sc obs fuel seen' c ff.nw (some q) none) (children (H i)) (inbound E (H i) s) with
  | error e => rw [hl] at hfg; simp at hfg
  | ok r =>
  obtain ⟨lc, s', bo⟩ := r
  obtain ⟨k1, k2, k3, k4⟩ := fgLoop_spec _ _ _ _ _ _ hl
  have hperm : (children (H i)).Perm (H i).kids := List.perm_insertionSort _ _
  have hmem : ∀ c, c ∈ children (H i) ↔ c ∈ (H i).kids := fun c => hperm.mem_iff
  -- which children raise
  have hbraise : travNode E H sc obs fuel seen' b ff.nw (some q) none = .error .foundBalance := by
    rcases k2 b ((hmem b).2 hb) with h | ⟨lb, v, h, _⟩
    · exact h
    · exfalso
      obtain ⟨fb, hfb, _⟩ := trav_own h
      have := ((enter_ok hfb).choose_spec.2.2.2.2.2 q rfl).1
      rw [hbb] at this; simp at this
  have hother : ∀ c ∈ (H i).kids, c ≠ b → travNode E H sc obs fuel seen' c ff.nw (some q) none ≠ .error .foundBalance := by
    intro c hc hcb hf
    exact hcb (honly c hc (trav_foundBalance hf).2)
  cases bo with
  | none => exact absurd hbraise (k4 rfl b ((hmem b).2 hb))
  | some b' =>
  have hb' : b' = b := by
    obtain ⟨h1, h2⟩ := k3 b' rfl
    exact honly b' ((hmem b').1 h1) (trav_foundBalance h2).2
  subst hb'
  rw [hl] at hfg
  simp only at hfg
  cases hbv : travNode E H sc obs fuel seen' b' ff.nw none (some (if (H b').dir = .input then -s' else s')) with
  | error e => rw [hbv] at hfg; simp at hfg
  | ok r =>
  obtain ⟨lb, cvb⟩ := r
  rw [hbv] at hfg
  simp only [Except.ok.injEq] at hfg
  obtain ⟨fb0, hfb0, hfbown⟩ := trav_own hbv
  obtain ⟨evb, hevb, _, hmagb, htmb, _, _⟩ := enter_ok hfb0
  have hevb' : evb = if (H b').dir = .input then -s' else s' := by
    unfold evOf at hevb; simpa using hevb.symm
  obtain ⟨fb, hfbl, hfbw, hfbm, _⟩ := hfbown (fun j hj hjb => hbt _ j htmb hj hjb)
  -- the other children
  have hch : ∀ c, ∃ xc, c ∈ (H i).kids → c ≠ b' → (exchangeValue (H c) sc obs = .ok xc ∧
      consOf (travNode E H sc obs fuel seen' c ff.nw (some q) none) = into (H c).dir (xc * E.cf (H c).flow q) ∧
      ((∀ tc j, termOf (H c) sc = .ok tc → tc.target = .frag j → j ≠ c → (H j).bg = false) →
          ∃ fc ∈ l', fc.who = .frag c ∧ fc.mag = ff.nw * xc)) := by
    intro c
    by_cases hc : c ∈ (H i).kids ∧ c ≠ b'
    · rcases k2 c ((hmem c).2 hc.1) with h | ⟨l1, v, h, hsub⟩
      · exact absurd h (hother c hc.1 hc.2)
      · obtain ⟨fc0, hfc0, hown⟩ := trav_own h
        obtain ⟨evc, hevc, _, hmagc, htmc, _, hcvc⟩ := enter_ok hfc0
        refine ⟨evc, fun _ _ => ⟨hevc, ?_, ?_⟩⟩
        · rw [h]; simp only [consOf]; rw [(hcvc q rfl).2]; rfl
        · intro hbgc
          obtain ⟨fc, hfc, hw, hm, _⟩ := hown (fun j hj hjc => hbgc _ j htmc hj hjc)
          refine ⟨fc, ?_, hw, by rw [hm, hmagc]⟩
          rw [← hfg]
          exact List.mem_append_left _ (List.mem_cons_of_mem _ (hsub fc hfc))
    · exact ⟨0, fun h1 h2 => absurd ⟨h1, h2⟩ hc⟩
  choose x hx using hch
  refine ⟨ff, by rw [← hfg]; simp, hwho, hmag, by rw [← htf]; exact hnw, fb, ?_, hfbw, s, rfl, x, ?_, ?_⟩
  · rw [← hfg]; exact List.mem_append_right _ hfbl
  · intro c hc hcb
    obtain ⟨h1, _, h3⟩ := hx c hc hcb
    exact ⟨h1, h3⟩
  · have hsum : ((children (H i)).map fun c => consOf (travNode E H sc obs fuel seen' c ff.nw (some q) none)).sum =
        (((H i).kids.filter fun c => decide (c ≠ b')).map fun c => into (H c).dir (x c) * E.cf (H c).flow q).sum := by
      rw [(hperm.map _).sum_eq]
      clear k1 k2 k3 k4 hl hfg hperm hmem
      generalize hkids : (H i).kids = kids at hx hother honly hb
      have hx' : ∀ c ∈ kids, c ≠ b' → consOf (travNode E H sc obs fuel seen' c ff.nw (some q) none) =
          into (H c).dir (x c * E.cf (H c).flow q) := fun c hc hcb => (hx c hc hcb).2.1
      clear hx hother honly hb hkids
      induction kids with
      | nil => rfl
      | cons c cs ih =>
        have ih' := ih fun d hd => hx' d (by simp [hd])
        by_cases hcb : c = b'
        · subst hcb
          have hfil : (c :: cs).filter (fun d => decide (d ≠ c)) = cs.filter (fun d => decide (d ≠ c)) := by simp
          rw [hfil, ← ih']
          simp only [List.map_cons, List.sum_cons, hbraise, consOf, zero_add]
        · have e := hx' c (by simp) hcb
          have hfil : (c :: cs).filter (fun c => decide (c ≠ b')) = c :: cs.filter (fun c => decide (c ≠ b')) := by
            simp [hcb]
          rw [hfil]
          simp only [List.map_cons, List.sum_cons, e, ih']
          congr 1
          unfold into
          split <;> ring
    rw [hsum] at k1
    have hscale : (((H i).kids.filter fun c => decide (c ≠ b')).map fun c => into (H c).dir (ff.nw * x c) * E.cf (H c).flow q).sum =
        ff.nw * (((H i).kids.filter fun c => decide (c ≠ b')).map fun c => into (H c).dir (x c) * E.cf (H c).flow q).sum := by
      generalize ((H i).kids.filter fun c => decide (c ≠ b')) = m
      induction m with
      | nil => simp
      | cons c m ih =>
        simp only [List.map_cons, List.sum_cons, ih]
        unfold into
        split <;> ring
    rw [hscale, hfbm, hmagb, hevb', hcf]
    unfold inbound at k1
    rw [hq] at k1
    simp only at k1
    generalize (((H i).kids.filter fun c => decide (c ≠ b')).map fun c => into (H c).dir (x c) * E.cf (H c).flow q).sum = S at k1 ⊢
    subst k1
    unfold into Dir.comp
    cases (H i).dir <;> cases (H b').dir <;> simp <;> ring

/-- C29: at a foreground node with a balance flow, the amounts of the reference flow, of the child flows and of the
balance flow, multiplied by their factors of the conserved quantity and signed by direction, sum to zero. The node is
either the reference node of its fragment, terminated to foreground, or another one whose termination needs no unit
conversion (see `balance_conversion` and `balance_reference_process` for the others). A flow terminated to a
background fragment is reported with that fragment's amount, so its amount is here given by its exchange value. -/
theorem balance_closes_partial {E : Env F Q} {H : Heap F Q} {sc : Scen} {obs : Bool} {fuel : ℕ} {seen : List ℕ} {i : ℕ}
    {up : ℚ} {cq : Option Q} {bal : Option ℚ} {l : List (FF F)} {cv : Option ℚ}
    (h : travNode E H sc obs fuel seen i up cq bal = .ok (l, cv))
    {t : Term F} (ht : termOf (H i) sc = .ok t) (hbg : (H i).bg = false)
    (hnode : (H i).parent = none ∧ t.target = .frag i ∧ bal = none ∨
      (H i).parent ≠ none ∧ (t.target = .process ∨ t.target = .frag i) ∧ conversion E (H i).flow t.flow = .ok 1)
    {ev : ℚ} (hev : evOf (H i) sc obs bal = .ok ev) (hne : up * ev ≠ 0)
    {q : Q} (hq : (H i).cons = some q) {b : ℕ} (hb : b ∈ (H i).kids) (hbb : (H b).bal = true)
    (honly : ∀ c ∈ (H i).kids, (H c).bal = true → c = b) (hcf : E.cf (H b).flow q = 1)
    (hbt : ∀ tb j, termOf (H b) sc = .ok tb → tb.target = .frag j → j ≠ b → (H j).bg = false) :
    ∃ fi ∈ l, fi.who = .frag i ∧ fi.mag = up * ev ∧ ∃ fb ∈ l, fb.who = .frag b ∧ ∃ a : ℕ → ℚ,
      (∀ c ∈ (H i).kids, c ≠ b → (∃ x, exchangeValue (H c) sc obs = .ok x ∧ a c = fi.nw * x) ∧
        ((∀ tc j, termOf (H c) sc = .ok tc → tc.target = .frag j → j ≠ c → (H j).bg = false) →
          ∃ fc ∈ l, fc.who = .frag c ∧ fc.mag = a c)) ∧
      into (H i).dir.comp fi.mag * E.cf (H i).flow q +
        (((H i).kids.filter fun c => decide (c ≠ b)).map fun c => into (H c).dir (a c) * E.cf (H c).flow q).sum +
        into (H b).dir fb.mag * E.cf (H b).flow q = 0 := by
  have htt : t.target = .process ∨ t.target = .frag i := by
    rcases hnode with h | h
    · exact .inr h.2.1
    · exact h.2.1
  have hnn : t.isNull = false := by
    unfold Term.isNull; rcases htt with h | h <;> rw [h]
  obtain ⟨fi, hfi, hw, hm, hnw, fb, hfb, hbw, s, hs, x, hx, hsum⟩ :=
    balance_sum h ht htt hbg hev hne hq hb hbb honly hcf hbt
  have hms : fi.nw * s = fi.mag := by
    rcases hnode with ⟨hp, htg, rfl⟩ | ⟨hp, _, hc⟩
    · unfold nodeWeight at hnw
      rw [if_pos hp] at hnw
      unfold stock0 at hs
      rw [if_pos (by simp [htg, hp])] at hs
      unfold evOf at hev
      simp only at hev
      rw [hev] at hs
      simp only [Except.ok.injEq] at hs hnw
      rw [hm, ← hnw, hs]
    · unfold nodeWeight at hnw
      rw [if_neg hp, hnn] at hnw
      simp only [Bool.false_eq_true, ↓reduceIte, hc, Except.map, Except.ok.injEq, mul_one] at hnw
      unfold stock0 at hs
      rw [if_neg (by simp [hp])] at hs
      simp only [Except.ok.injEq] at hs
      rw [hm, ← hnw, ← hs, mul_one]
  rw [hms] at hsum
  exact ⟨fi, hfi, hw, hm, fb, hfb, hbw, fun c => fi.nw * x c,
    fun c hc hcb => ⟨⟨x c, (hx c hc hcb).1, rfl⟩, (hx c hc hcb).2⟩, hsum⟩

/-! the example of FragmentLinear meets the hypotheses at fragment 0 -/
example : ∃ l cv, travNode exE exH .none false 9 [] 0 1 none none = .ok (l, cv) ∧ (exH 0).cons = some 0 ∧
    (exH 3).bal = true ∧ 3 ∈ (exH 0).kids ∧ exE.cf (exH 3).flow 0 = 1 ∧ (exH 0).parent = none := by
  cases h : travNode exE exH .none false 9 [] 0 1 none none with
  | ok r => exact ⟨r.1, r.2, rfl, rfl, rfl, by decide, by decide +kernel, rfl⟩
  | error e =>
    exfalso
    have h1 : view (traverse exE exH .none false 9 0) = .error e := by unfold traverse; rw [h]; rfl
    have h2 : view (traverse exE exH .none false 9 0) = .ok
        [(.frag 0, 10, 1), (.frag 1, 2, 2), (.frag 2, 4, 4), (.frag 5, 4, 2), (.frag 8, 14, 14), (.ghost 5, 6, 6),
         (.frag 4, 1, 3), (.frag 3, -5, -5)] := by decide +kernel
    rw [h1] at h2; simp at h2

/-- a node with a balance flow: fragment 1 has 2 of flow 12, enters its node as flow 1 (1/2 unit of quantity 0 each),
and is balanced in quantity 1 by an input of flow 13 -/
def balH (flow : ℕ) (t : Target) (isRef : Bool) : Heap ℕ ℕ
  | 0 => { kids := [1], flow := 1, dir := .input, evs := [(.cached, some 1), (.observed, some 0)],
           terms := [(none, { target := .frag 0, flow := 1 })] }
  | 1 => { parent := if isRef then none else some 0, kids := [2], flow := 12, dir := .input,
           evs := [(.cached, some 2), (.observed, some 0)],
           terms := [(none, { target := t, flow := flow })], cons := some 1 }
  | 2 => { parent := some 1, flow := 13, dir := .input, evs := [(.cached, some 1), (.observed, some 0)],
           terms := [(none, nullT 13)], bal := true }
  | _ => { flow := 0, dir := .input, evs := [], terms := [] }

/-- C29 fails when the termination of the node converts units: 2 of flow 12 flow out of the node, but the balance flow
brings in only 1. -/
theorem balance_conversion : (balH 1 .process false 1).cons = some 1 ∧ exE.cf 12 1 = 1 ∧ exE.cf 13 1 = 1 ∧
    ((traverse exE (balH 1 .process false) .none false 9 0).map fun l => l.map fun f => (f.who, f.dir, f.mag)) =
      .ok [(.frag 0, .input, 1), (.frag 1, .input, 2), (.frag 2, .input, 1)] := by
  refine ⟨rfl, ?_, ?_, ?_⟩ <;> decide +kernel

/-- C29 fails at a reference fragment terminated to a process: the exchange value 2 is not taken into account. -/
theorem balance_reference_process : (balH 12 .process true 1).parent = none ∧ (balH 12 .process true 1).cons = some 1 ∧
    ((traverse exE (balH 12 .process true) .none false 9 1).map fun l => l.map fun f => (f.who, f.dir, f.mag)) =
      .ok [(.frag 1, .input, 2), (.frag 2, .input, 1)] := by
  refine ⟨rfl, rfl, ?_⟩; decide +kernel

end Frg
