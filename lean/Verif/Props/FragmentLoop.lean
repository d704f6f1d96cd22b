import Verif.Props.FragmentReverse

/-!
C131: traversals and loops. A traversal returns if no fragment depends on itself, whatever the recursion limit; it does not return if one does. `terminate` is
meant to prevent the latter.
-/

namespace Frg

variable {F Q : Type} [DecidableEq F] [DecidableEq Q] {E : Env F Q} {H H' : Heap F Q} {sc : Scen} {obs : Bool}

/-! ### models with a loop -/

/-- every fragment of S makes the traversal go on to a fragment of S: to a child flow, or to the reference fragment of the subfragment it is terminated to. The
amounts are not zero, and the fragments are neither background nor balance. -/
structure Stuck (H : Heap F Q) (sc : Scen) (obs : Bool) (S : ℕ → Prop) : Prop where
  ev : ∀ i, S i → exchangeValue (H i) sc obs ≠ .ok 0
  bg : ∀ i, S i → (H i).bg = false
  bal : ∀ i, S i → (H i).bal = false
  next : ∀ i, S i → ∀ tm, termOf (H i) sc = .ok tm →
    ((tm.target = .process ∨ tm.target = .frag i) ∧ ∃ c ∈ (H i).kids, S c) ∨
    ∃ j t n, tm.target = .frag j ∧ j ≠ i ∧ (H j).bg = false ∧ top H n j = .ok t ∧ S t

theorem conversion_ne_zero {f g : F} {x : ℚ} (h : conversion E f g = .ok x) : x ≠ 0 := by
  unfold conversion at h
  split at h
  · cases h; norm_num
  · split at h
    · cases h; norm_num
    · split at h
      · split at h
        · cases h
        · rename_i hne
          cases h
          exact one_div_ne_zero hne
      · rename_i hne
        cases h; exact hne

theorem nodeWeight_ne_zero {n : Node F Q} {tm : Term F} {up mag nw : ℚ} (h : nodeWeight E n tm up mag = .ok nw) (hu : up ≠ 0) (hm : mag ≠ 0) : nw ≠ 0 := by
  unfold nodeWeight at h
  split at h
  · cases h; exact hu
  · split at h
    · cases h; exact hm
    · cases hc : conversion E n.flow tm.flow with
      | error e => rw [hc] at h; cases h
      | ok x =>
        rw [hc] at h
        cases h
        exact mul_ne_zero hm (conversion_ne_zero hc)

theorem top_same {n m i t : ℕ} (h : top H n i = .ok t) : ∀ r, top H m i = r → r = .ok t ∨ ∃ e, r = .error e := by
  induction n generalizing m i with
  | zero => cases h
  | succ n ih =>
    intro r hr
    cases m with
    | zero => exact .inr ⟨_, hr.symm⟩
    | succ m =>
      rw [top] at h hr
      cases hp : (H i).parent with
      | none => rw [hp] at h hr; cases h; exact .inl hr.symm
      | some p => rw [hp] at h hr; exact ih h r hr

theorem fgLoop_fails {visit : ℕ → Res F} {c : ℕ} {e : Err} (hv : visit c = .error e) (he : e ≠ .foundBalance) : ∀ (cs : List ℕ) (s : ℚ), c ∈ cs →
    ∃ e', fgLoop visit cs s = .error e' := by
  intro cs
  induction cs with
  | nil => intro s hc; cases hc
  | cons d cs ih =>
    intro s hc
    rw [fgLoop]
    cases hd : visit d with
    | ok r =>
      obtain ⟨l, cons⟩ := r
      simp only
      have hdc : d ≠ c := by rintro rfl; rw [hd] at hv; cases hv
      have hcs : c ∈ cs := (List.mem_cons.1 hc).resolve_left (Ne.symm hdc)
      obtain ⟨e', h'⟩ := ih (s + cons.getD 0) hcs
      rw [h']
      exact ⟨_, rfl⟩
    | error e0 =>
      by_cases h0 : e0 = .foundBalance
      · subst h0
        simp only
        have hdc : d ≠ c := by rintro rfl; rw [hd] at hv; cases hv; exact he rfl
        have hcs : c ∈ cs := (List.mem_cons.1 hc).resolve_left (Ne.symm hdc)
        obtain ⟨e', h'⟩ := ih s hcs
        rw [h']
        exact ⟨_, rfl⟩
      · cases e0 <;> first | exact absurd rfl h0 | exact ⟨_, rfl⟩

theorem fgFrom_fails {visit : List ℕ → ℕ → ℚ → Option Q → Option ℚ → Res F} {seen : List ℕ} {i c : ℕ} {ff : FF F} {b : Bool} {e : Err} (hc : c ∈ (H i).kids)
    (hv : visit seen c ff.nw (H i).cons none = .error e) (he : e ≠ .foundBalance) : ∃ e', fgFrom E H sc obs visit seen i ff b = .error e' := by
  unfold fgFrom
  cases stock0 (H i) sc obs b with
  | error e => exact ⟨_, rfl⟩
  | ok s =>
    simp only
    unfold fgNode
    obtain ⟨e', h'⟩ := fgLoop_fails (visit := fun c => visit seen c ff.nw (H i).cons none) hv he (children (H i)) (inbound E (H i) s) ((mem_children _ _).2 hc)
    simp only [h']
    exact ⟨_, rfl⟩

theorem travNode_stuck (E : Env F Q) {S : ℕ → Prop} (hS : Stuck H sc obs S) : ∀ (fuel : ℕ) (seen : List ℕ) (i : ℕ) (up : ℚ) (cq : Option Q), S i → up ≠ 0 →
    ∃ e, travNode E H sc obs fuel seen i up cq none = .error e := by
  intro fuel
  induction fuel with
  | zero => intro seen i up cq _ _; exact ⟨_, rfl⟩
  | succ fuel ih =>
    intro seen i up cq hi hup
    rw [travNode]
    cases hen : enter E H sc obs seen i up cq none with
    | error e => exact ⟨_, rfl⟩
    | ok r =>
      obtain ⟨ff, cv⟩ := r
      obtain ⟨ev, h1, h2, h3, h4, h5, _⟩ := enter_ok hen
      have hev : ev ≠ 0 := by rintro rfl; exact hS.ev i hi h1
      have hmag : up * ev ≠ 0 := mul_ne_zero hup hev
      have hnw : ff.nw ≠ 0 := nodeWeight_ne_zero h5 hup hmag
      have hnext := hS.next i hi ff.term h4
      have hnull : ff.term.isNull = false := by
        unfold Term.isNull
        rcases hnext with ⟨h | h, _⟩ | ⟨j, t, n, h, _⟩ <;> rw [h]
      have hleaf : ¬(ff.term.isNull = true ∨ (H i).bg = true ∨ ff.mag = 0) := by
        rw [hnull, hS.bg i hi, h3]
        simp [hmag]
      simp only
      rw [if_neg hleaf]
      suffices hx : ∀ s, ∃ e, expand E H sc obs (top H fuel) (travNode E H sc obs fuel) s i ff = .error e by
        obtain ⟨e, he⟩ := hx (if (H i).parent = none then i :: seen else seen)
        rw [he]; exact ⟨_, rfl⟩
      intro s
      have hfg : ∀ b, (∃ c ∈ (H i).kids, S c) → ∃ e, fgFrom E H sc obs (travNode E H sc obs fuel) s i ff b = .error e := by
        rintro b ⟨c, hc, hSc⟩
        obtain ⟨e, he⟩ := ih s c ff.nw (H i).cons hSc hnw
        refine fgFrom_fails hc he ?_
        rintro rfl
        have := (trav_foundBalance he).2
        rw [hS.bal c hSc] at this; cases this
      unfold expand
      rcases hnext with ⟨h | h, hk⟩ | ⟨j, t, n, h, hji, hbg, ht, hSt⟩
      · simp only [h]; exact hfg false hk
      · simp only [h, if_true]; exact hfg true hk
      · simp only [h, if_neg hji, hbg, Bool.false_eq_true, if_false]
        rcases top_same (m := fuel) ht _ rfl with h' | ⟨e, h'⟩
        · rw [h']
          obtain ⟨e, he⟩ := ih [] t 1 none hSt one_ne_zero
          simp only [he]
          exact ⟨_, rfl⟩
        · rw [h']; exact ⟨_, rfl⟩

/-- **C131** a fragment that depends on itself cannot be traversed, whatever the recursion limit -/
theorem traverse_stuck (E : Env F Q) {S : ℕ → Prop} (hS : Stuck H sc obs S) (i : ℕ) (hi : S i) (fuel : ℕ) : ∃ e, traverse E H sc obs fuel i = .error e := by
  obtain ⟨e, he⟩ := travNode_stuck E hS fuel [] i 1 none hi one_ne_zero
  exact ⟨e, by rw [traverse, he]; rfl⟩

/-! ### models without a loop -/

/-- no fragment depends on itself: the rank falls from fragments to their child flows, and to the reference fragments of the subfragments they are terminated to. No
fragment is more than D child flows deep. -/
structure Ranked (H : Heap F Q) (sc : Scen) (D : ℕ) (rank : ℕ → ℕ) : Prop where
  kids : ∀ i c, c ∈ (H i).kids → rank c < rank i
  bg : ∀ i tm j, termOf (H i) sc = .ok tm → tm.target = .frag j → j ≠ i → (H j).bg = true → rank j < rank i
  sub : ∀ i tm j, termOf (H i) sc = .ok tm → tm.target = .frag j → j ≠ i → ∀ n t, top H n j = .ok t → rank t < rank i
  up : ∀ i, ∃ t, top H (D + 1) i = .ok t

theorem top_le {n m i t : ℕ} (hnm : n ≤ m) (h : top H n i = .ok t) : top H m i = .ok t := by
  induction n generalizing m i with
  | zero => cases h
  | succ n ih =>
    cases m with
    | zero => omega
    | succ m =>
      rw [top] at h ⊢
      cases hp : (H i).parent with
      | none => rw [hp] at h; exact h
      | some p => rw [hp] at h; exact ih (by omega) h

theorem enter_not_recursion {seen : List ℕ} {i : ℕ} {up : ℚ} {cq : Option Q} {bal : Option ℚ} : enter E H sc obs seen i up cq bal ≠ .error .recursion := by
  have hm : ∀ n : Node F Q, matchEv n.evs sc ≠ .error .recursion := by
    intro n h
    unfold matchEv at h
    cases sc with
    | none => cases h
    | one k => cases h
    | many l =>
      simp only at h
      split at h <;> cases h
  intro h
  unfold enter at h
  split at h
  · cases h
  · cases hev : evOf (H i) sc obs bal with
    | error e =>
      rw [hev] at h
      simp only [Except.error.injEq] at h
      subst h
      unfold evOf exchangeValue at hev
      cases bal with
      | some b => cases hev
      | none =>
        simp only at hev
        split at hev
        · rename_i hh
          cases hev
          exact hm _ hh
        · cases hev
        · cases hev
    | ok ev =>
      simp only [hev] at h
      cases htm : termOf (H i) sc with
      | error e =>
        rw [htm] at h
        simp only [Except.error.injEq] at h
        subst h
        unfold termOf at htm
        simp only at htm
        split at htm
        · split at htm <;> cases htm
        · split at htm
          · split at htm <;> cases htm
          · split at htm <;> cases htm
        · split at htm
          · split at htm <;> cases htm
          · split at htm <;> cases htm
          · cases htm
      | ok tm =>
        simp only [htm] at h
        cases hnw : nodeWeight E (H i) tm up (up * ev) with
        | error e =>
          rw [hnw] at h
          simp only [Except.error.injEq] at h
          subst h
          unfold nodeWeight at hnw
          split at hnw
          · cases hnw
          · split at hnw
            · cases hnw
            · unfold conversion at hnw
              split at hnw
              · cases hnw
              · split at hnw
                · cases hnw
                · split at hnw
                  · split at hnw <;> cases hnw
                  · cases hnw
        | ok nw =>
          simp only [hnw] at h
          cases hco : conserved E H (H i) ev cq with
          | error e =>
            rw [hco] at h
            simp only [Except.error.injEq] at h
            subst h
            unfold conserved at hco
            split at hco
            · split at hco <;> cases hco
            · split at hco
              · cases hco
              · split at hco
                · cases hco
                · split at hco <;> cases hco
          | ok r =>
            simp only [hco] at h
            cases h

theorem fgLoop_err_of {visit : ℕ → Res F} {e : Err} : ∀ (cs : List ℕ) (s : ℚ), fgLoop visit cs s = .error e → ∃ c ∈ cs, visit c = .error e := by
  intro cs
  induction cs with
  | nil => intro s h; cases h
  | cons c cs ih =>
    intro s h
    rw [fgLoop] at h
    cases hv : visit c with
    | ok r =>
      obtain ⟨l, cons⟩ := r
      rw [hv] at h
      simp only at h
      split at h
      · cases h
      · rename_i e' he
        cases h
        obtain ⟨d, hd, h'⟩ := ih _ he
        exact ⟨d, by simp [hd], h'⟩
    | error e0 =>
      rw [hv] at h
      by_cases h0 : e0 = .foundBalance
      · subst h0
        simp only at h
        split at h
        · cases h
        · rename_i e' he
          cases h
          obtain ⟨d, hd, h'⟩ := ih _ he
          exact ⟨d, by simp [hd], h'⟩
      · refine ⟨c, by simp, ?_⟩
        rw [hv]
        cases e0 <;> first | exact absurd rfl h0 | (simpa using h)

theorem subLoop_err_of {visit : ℕ → ℚ → Res F} {e : Err} : ∀ (cs : List ℕ) (inv : List (FF F)), subLoop H visit cs inv = .error e → ∃ c ∈ cs, ∃ v, visit c v = .error e := by
  intro cs
  induction cs with
  | nil => intro s h; cases h
  | cons c cs ih =>
    intro inv h
    rw [subLoop] at h
    split at h
    · obtain ⟨d, hd, h'⟩ := ih _ h
      exact ⟨d, by simp [hd], h'⟩
    · split at h
      · rename_i hv
        cases h
        exact ⟨c, by simp, _, hv⟩
      · split at h
        · cases h
        · rename_i he
          cases h
          obtain ⟨d, hd, h'⟩ := ih _ he
          exact ⟨d, by simp [hd], h'⟩

theorem groupIos_not_recursion {p : ℕ} {f : F} {d : Dir} {ffs : List (FF F)} {b : Bool} : groupIos p f d ffs b ≠ .error .recursion := by
  intro h
  unfold groupIos at h
  simp only at h
  split at h
  · cases h
  · split at h
    · cases h
    · split at h
      · split at h
        · split at h <;> cases h
        · cases h
      · cases h

theorem travNode_ranked (E : Env F Q) {D : ℕ} {rank : ℕ → ℕ} (hR : Ranked H sc D rank) : ∀ (fuel : ℕ) (seen : List ℕ) (i : ℕ) (up : ℚ) (cq : Option Q) (bal : Option ℚ),
    rank i + D + 1 < fuel → travNode E H sc obs fuel seen i up cq bal ≠ .error .recursion := by
  intro fuel
  induction fuel with
  | zero => intro seen i up cq bal h; omega
  | succ fuel ih =>
    intro seen i up cq bal hf h
    rw [travNode] at h
    cases hen : enter E H sc obs seen i up cq bal with
    | error e =>
      rw [hen] at h
      cases h
      exact enter_not_recursion hen
    | ok r =>
      obtain ⟨ff, cv⟩ := r
      rw [hen] at h
      simp only at h
      split at h
      · cases h
      · have hterm := enter_term hen
        split at h
        · rename_i e hex
          cases h
          generalize (if (H i).parent = none then i :: seen else seen) = s at hex
          have hkid : ∀ c ∈ children (H i), ∀ s up cq bal, travNode E H sc obs fuel s c up cq bal ≠ .error .recursion := by
            intro c hc s up cq bal
            have := hR.kids i c ((mem_children _ _).1 hc)
            exact ih s c up cq bal (by omega)
          have hfg : ∀ b, fgFrom E H sc obs (travNode E H sc obs fuel) s i ff b ≠ .error .recursion := by
            intro b hb
            unfold fgFrom at hb
            split at hb
            · rename_i hs
              cases hb
              unfold stock0 exchangeValue matchEv at hs
              split at hs
              · cases sc with
                | none => cases hs
                | one k =>
                  simp only at hs
                  split at hs <;> cases hs <;> (rename_i hh; split at hh <;> cases hh)
                | many l =>
                  simp only at hs
                  split at hs
                  · rename_i hh
                    cases hs
                    split at hh <;> cases hh
                  · cases hs
                  · cases hs
              · cases hs
            · unfold fgNode at hb
              simp only at hb
              split at hb
              · rename_i hl
                cases hb
                obtain ⟨c, hc, hv⟩ := fgLoop_err_of _ _ hl
                exact hkid c hc _ _ _ _ hv
              · cases hb
              · rename_i hl
                split at hb
                · rename_i hv
                  cases hb
                  exact hkid _ (fgLoop_mem _ _ _ _ _ _ hl) _ _ _ _ hv
                · cases hb
          unfold expand at hex
          cases ht : ff.term.target with
          | null => rw [ht] at hex; cases hex
          | process => rw [ht] at hex; exact hfg _ hex
          | frag j =>
            rw [ht] at hex
            simp only at hex
            split at hex
            · exact hfg _ hex
            · rename_i hji
              split at hex
              · rename_i hbg
                have := hR.bg i ff.term j hterm ht hji hbg
                split at hex
                · rename_i hv
                  cases hex
                  exact ih _ _ _ _ _ (by omega) hv
                · cases hex
                · cases hex
              · obtain ⟨t, htop⟩ := hR.up j
                have hlt := hR.sub i ff.term j hterm ht hji _ _ htop
                rw [top_le (by omega : D + 1 ≤ fuel) htop] at hex
                simp only at hex
                split at hex
                · rename_i hv
                  cases hex
                  exact ih _ _ _ _ _ (by omega) hv
                · split at hex
                  · rename_i hg
                    cases hex
                    exact groupIos_not_recursion hg
                  · unfold subNode at hex
                    simp only at hex
                    split at hex
                    · cases hex
                    · split at hex
                      · cases hex
                      · split at hex
                        · rename_i hl
                          cases hex
                          obtain ⟨c, hc, v, hv⟩ := subLoop_err_of _ _ hl
                          exact hkid c hc _ _ _ _ hv
                        · cases hex
        · cases h

/-- **C131** if no fragment depends on itself, a traversal does not hit the recursion limit, if that is large enough -/
theorem traverse_returns (E : Env F Q) {D : ℕ} {rank : ℕ → ℕ} (hR : Ranked H sc D rank) (i fuel : ℕ) (hf : rank i + D + 1 < fuel) :
    traverse E H sc obs fuel i ≠ .error .recursion := by
  intro h
  rw [traverse] at h
  cases ht : travNode E H sc obs fuel [] i 1 none none with
  | ok r => rw [ht] at h; cases h
  | error e =>
    rw [ht] at h
    cases h
    exact travNode_ranked E hR fuel [] i 1 none none hf ht

/-- a larger limit does not change what is found -/
theorem travNode_stable (E : Env F Q) {D : ℕ} {rank : ℕ → ℕ} (hR : Ranked H sc D rank) : ∀ (fuel : ℕ) (seen : List ℕ) (i : ℕ) (up : ℚ) (cq : Option Q) (bal : Option ℚ),
    rank i + D + 1 < fuel → travNode E H sc obs (fuel + 1) seen i up cq bal = travNode E H sc obs fuel seen i up cq bal := by
  intro fuel
  induction fuel with
  | zero => intro seen i up cq bal h; omega
  | succ fuel ih =>
    intro seen i up cq bal hf
    rw [travNode, travNode]
    cases hen : enter E H sc obs seen i up cq bal with
    | error e => rfl
    | ok r =>
      obtain ⟨ff, cv⟩ := r
      simp only
      by_cases hleaf : ff.term.isNull = true ∨ (H i).bg = true ∨ ff.mag = 0
      · rw [if_pos hleaf, if_pos hleaf]
      · rw [if_neg hleaf, if_neg hleaf]
        have hterm := enter_term hen
        suffices hx : ∀ s, expand E H sc obs (top H (fuel + 1)) (travNode E H sc obs (fuel + 1)) s i ff =
            expand E H sc obs (top H fuel) (travNode E H sc obs fuel) s i ff by rw [hx]
        intro s
        have hch : ∀ c ∈ children (H i), ∀ s up cq bal, travNode E H sc obs (fuel + 1) s c up cq bal = travNode E H sc obs fuel s c up cq bal := by
          intro c hc s up cq bal
          have := hR.kids i c ((mem_children _ _).1 hc)
          exact ih s c up cq bal (by omega)
        have hfg : ∀ b, fgFrom E H sc obs (travNode E H sc obs (fuel + 1)) s i ff b = fgFrom E H sc obs (travNode E H sc obs fuel) s i ff b := by
          intro b
          unfold fgFrom
          cases stock0 (H i) sc obs b with
          | error e => rfl
          | ok st =>
            simp only
            rw [fgNode_congr E H H i st st ff ff (fun c cq bal => travNode E H sc obs fuel s c ff.nw cq bal) _ rfl rfl rfl (fun _ _ => rfl)
              (fun c hc cq b => hch c hc s ff.nw cq b), fgNode_cons]
        unfold expand
        cases htt : ff.term.target with
        | null => rfl
        | process => exact hfg false
        | frag k =>
          simp only
          by_cases hkj : k = i
          · rw [if_pos hkj, if_pos hkj]; exact hfg true
          · rw [if_neg hkj, if_neg hkj]
            by_cases hbg : (H k).bg = true
            · have := hR.bg i ff.term k hterm htt hkj hbg
              rw [if_pos hbg, if_pos hbg, ih [] k ff.nw none none (by omega)]
            · rw [if_neg hbg, if_neg hbg]
              obtain ⟨t, htop⟩ := hR.up k
              have hlt := hR.sub i ff.term k hterm htt hkj _ _ htop
              rw [top_le (by omega : D + 1 ≤ fuel) htop, top_le (by omega : D + 1 ≤ fuel + 1) htop]
              simp only
              rw [ih [] t 1 none none (by omega)]
              cases travNode E H sc obs fuel [] t 1 none none with
              | error e => rfl
              | ok r =>
                simp only
                cases groupIos k (H t).flow (H t).dir r.1 true with
                | error e => rfl
                | ok g =>
                  simp only
                  rw [subNode_congr H H i ff ff _ _ (fun c w ev => travNode E H sc obs fuel s c w none (some ev)) _ rfl rfl
                    (fun _ => rfl) (fun _ _ => rfl) (fun c hc w ev => hch c hc s w none (some ev)), subNode_cons]

/-- **C131** … and what it finds does not depend on the limit -/
theorem traverse_limit_irrelevant (E : Env F Q) {D : ℕ} {rank : ℕ → ℕ} (hR : Ranked H sc D rank) (i m n : ℕ) (hm : rank i + D + 1 < m) (hn : rank i + D + 1 < n) :
    traverse E H sc obs m i = traverse E H sc obs n i := by
  have key : ∀ k, traverse E H sc obs (rank i + D + 2 + k) i = traverse E H sc obs (rank i + D + 2) i := by
    intro k
    induction k with
    | zero => rfl
    | succ k ih =>
      rw [← ih, traverse, traverse, ← Nat.add_assoc, travNode_stable E hR _ _ _ _ _ _ (by omega)]
  have h1 := key (m - (rank i + D + 2))
  have h2 := key (n - (rank i + D + 2))
  rw [show rank i + D + 2 + (m - (rank i + D + 2)) = m by omega] at h1
  rw [show rank i + D + 2 + (n - (rank i + D + 2)) = n by omega] at h2
  rw [h1, h2]

end Frg
