import Verif.Lemmas.Tstack

/-!
What a refused `add_ref_product` leaves behind (C49): lemmas about the clean-up
`_rm_product_flow_children` and about traversals that end with an exception.
-/

set_option linter.unusedSectionVars false
set_option linter.unusedSimpArgs false

namespace Engine
variable {F P : Type} [DecidableEq F] [DecidableEq P]
variable {db : DB F P} {strat : Strategy}

/-! ### the clean-up -/

theorem rmIndexUntil_spec (pf : F × P) (B : List (F × P)) :
    ∀ (A : List (F × P)) (n : ℕ) (s : State F P), s.pfIndex = A ++ pf :: B → pf ∉ B →
    B.length + 1 ≤ n →
    ∃ low' pfs', rmIndexUntil pf n s = some { s with pfIndex := A, low := low', pfs := pfs' } ∧
      (∀ u, low'.get? u = if u ∈ pf :: B then none else s.low.get? u) ∧
      (∀ u, pfs'.get? u = if u ∈ pf :: B then none else s.pfs.get? u) := by
  induction B using List.reverseRecOn with
  | nil =>
    intro A n s hs _ hn
    obtain ⟨n, rfl⟩ : ∃ m, n = m + 1 := ⟨n - 1, by simp at hn; omega⟩
    have h1 : s.pfIndex.getLast? = some pf := by rw [hs]; simp
    have h2 : s.pfIndex.dropLast = A := by rw [hs]; simp
    refine ⟨s.low.del pf, s.pfs.del pf, ?_, ?_, ?_⟩
    · simp [rmIndexUntil, h1, h2]
    · intro u; rw [Dict.get?_del']; simp [eq_comm]
    · intro u; rw [Dict.get?_del']; simp [eq_comm]
  | append_singleton B z ih =>
    intro A n s hs hz hn
    obtain ⟨n, rfl⟩ : ∃ m, n = m + 1 := ⟨n - 1, by simp at hn; omega⟩
    simp only [List.mem_append, List.mem_singleton, not_or] at hz
    have h1 : s.pfIndex.getLast? = some z := by
      rw [hs, ← List.cons_append, ← List.append_assoc, List.getLast?_concat]
    have h2 : s.pfIndex.dropLast = A ++ pf :: B := by
      rw [hs, ← List.cons_append, ← List.append_assoc, List.dropLast_concat]
    obtain ⟨low', pfs', h3, h4, h5⟩ := ih A n
      { s with pfIndex := s.pfIndex.dropLast, low := s.low.del z, pfs := s.pfs.del z } h2 hz.1
      (by simp at hn; omega)
    refine ⟨low', pfs', ?_, ?_, ?_⟩
    · simp only [rmIndexUntil, h1]
      rw [if_neg (fun e => hz.2 e.symm), h3]
    · intro u
      rw [h4]
      simp only [Dict.get?_del']
      by_cases hu : u ∈ pf :: B
      · have : u ∈ pf :: (B ++ [z]) := by
          rcases List.mem_cons.mp hu with e | e <;> simp [e]
        rw [if_pos hu, if_pos this]
      · by_cases huz : z = u
        · subst huz; simp [hu]
        · have : u ∉ pf :: (B ++ [z]) := by
            intro h
            simp at h hu
            rcases h with h | h | h
            · exact hu.1 h
            · exact hu.2 h
            · exact huz h.symm
          simp [hu, huz, this]
    · intro u
      rw [h5]
      simp only [Dict.get?_del']
      by_cases hu : u ∈ pf :: B
      · have : u ∈ pf :: (B ++ [z]) := by
          rcases List.mem_cons.mp hu with e | e <;> simp [e]
        rw [if_pos hu, if_pos this]
      · by_cases huz : z = u
        · subst huz; simp [hu]
        · have : u ∉ pf :: (B ++ [z]) := by
            intro h
            simp at h hu
            rcases h with h | h | h
            · exact hu.1 h
            · exact hu.2 h
            · exact huz h.symm
          simp [hu, huz, this]

theorem popWhileParent_some {A : Type} {pf : F × P} {xs ys : List ((F × P) × A)}
    (h : popWhileParent pf xs = some ys) (u : F × P) (hu : u ≠ pf) :
    ys.filter (fun e => decide (e.1 = u)) = xs.filter (fun e => decide (e.1 = u)) := by
  induction xs with
  | nil => simp [popWhileParent] at h
  | cons x xs ih =>
    unfold popWhileParent at h
    split at h
    · rename_i hx
      rw [ih h, List.filter_cons]
      have : ¬ x.1 = u := fun e => hu (by rw [← e, hx])
      simp [this]
    · simp at h; rw [← h]

theorem popWhileParent_none {A : Type} {pf : F × P} {xs : List ((F × P) × A)}
    (h : popWhileParent pf xs = none) : ∀ e ∈ xs, e.1 = pf := by
  induction xs with
  | nil => simp
  | cons x xs ih =>
    unfold popWhileParent at h
    split at h
    · rename_i hx
      intro e he
      rcases List.mem_cons.mp he with e' | he
      · rw [e']; exact hx
      · exact ih h e he
    · simp at h

/-- what the clean-up down to `bad` does: `A` are the product flows older than `bad`, `old` the stack
below it -/
structure Cleaned (A B old : List (F × P)) (s s' : State F P) : Prop where
  stack : s'.stack = old
  pfIndex : s'.pfIndex = A
  low : ∀ u, s'.low.get? u = if u ∈ B then none else s.low.get? u
  pfs : ∀ u, s'.pfs.get? u = if u ∈ B then none else s.pfs.get? u
  ev : s'.ev = s.ev
  sccs : s'.sccs = s.sccs
  sccOf : s'.sccOf = s.sccOf
  emissions : s'.emissions = s.emissions
  int : ∀ u ∈ A, s'.interior.filter (fun e => decide (e.1 = u)) =
    s.interior.filter (fun e => decide (e.1 = u))
  cut : ∀ u ∈ A, s'.cutoffs.filter (fun e => decide (e.1 = u)) =
    s.cutoffs.filter (fun e => decide (e.1 = u))

theorem filter_nonempty {A : Type} {u : F × P} {xs : List ((F × P) × A)}
    (h : xs.filter (fun e => decide (e.1 = u)) = []) : ∀ e ∈ xs, e.1 ≠ u := by
  intro e he
  have := List.filter_eq_nil_iff.mp h e he
  simpa using this

theorem rmChildren_spec (bad : F × P) (new : List (F × P)) :
    ∀ (A B old : List (F × P)) (n : ℕ) (s : State F P), s.stack = new ++ bad :: old →
    s.pfIndex = A ++ bad :: B → s.pfIndex.Nodup → s.stack.Sublist s.pfIndex.reverse →
    new.length + 1 ≤ n →
    (∃ s', rmChildren bad n s = .ok () s' ∧ Cleaned A (bad :: B) old s s') ∨
    (∃ s', rmChildren bad n s = .err .indexError s' ∧
      ((∀ e ∈ s.interior, e.1 ∉ A) ∨ (∀ e ∈ s.cutoffs, e.1 ∉ A))) := by
  induction new with
  | nil =>
    intro A B old n s hst hix hnd hsub hn
    obtain ⟨n, rfl⟩ : ∃ m, n = m + 1 := ⟨n - 1, by simp at hn; omega⟩
    simp only [List.nil_append] at hst
    have hnd' := hnd
    rw [hix, List.nodup_append, List.nodup_cons] at hnd'
    have hbA : bad ∉ A := fun h => hnd'.2.2 bad h bad (by simp) rfl
    obtain ⟨low', pfs', h1, h2, h3⟩ := rmIndexUntil_spec bad B A s.pfIndex.length
      { s with stack := old } hix hnd'.2.1.1 (by rw [hix]; simp)
    simp only [rmChildren, hst]
    rw [h1]
    simp only
    cases hi : popWhileParent bad s.interior with
    | none =>
      right
      exact ⟨_, rfl, Or.inl fun e he => by rw [popWhileParent_none hi e he]; exact hbA⟩
    | some ii =>
      simp only
      cases hc : popWhileParent bad s.cutoffs with
      | none =>
        right
        exact ⟨_, rfl, Or.inr fun e he => by rw [popWhileParent_none hc e he]; exact hbA⟩
      | some cc =>
        left
        simp only [if_true]
        refine ⟨_, rfl, rfl, rfl, h2, h3, rfl, rfl, rfl, rfl, ?_, ?_⟩
        · intro u hu
          exact popWhileParent_some hi u (fun e => hbA (e ▸ hu))
        · intro u hu
          exact popWhileParent_some hc u (fun e => hbA (e ▸ hu))
  | cons pf new ih =>
    intro A B old n s hst hix hnd hsub hn
    obtain ⟨n, rfl⟩ : ∃ m, n = m + 1 := ⟨n - 1, by simp at hn; omega⟩
    rw [List.cons_append] at hst
    have hpf : pf ∈ s.pfIndex := by
      have := hsub.subset (by rw [hst]; simp : pf ∈ s.stack)
      simpa using this
    obtain ⟨A', B', hix'⟩ := List.append_of_mem hpf
    have hnd' := hnd
    rw [hix', List.nodup_append, List.nodup_cons] at hnd'
    have hpfA' : pf ∉ A' := fun h => hnd'.2.2 pf h pf (by simp) rfl
    obtain ⟨low', pfs', h1, h2, h3⟩ := rmIndexUntil_spec pf B' A' s.pfIndex.length
      { s with stack := new ++ bad :: old } hix' hnd'.2.1.1 (by rw [hix']; simp)
    -- what is left on the stack is older than `pf`
    have hsub' : (new ++ bad :: old).Sublist A'.reverse := by
      have h := hsub
      rw [hst, hix'] at h
      simp only [List.reverse_append, List.reverse_cons, List.append_assoc, List.singleton_append] at h
      have hB : pf ∉ B'.reverse := by simpa using hnd'.2.1.1
      generalize B'.reverse = C at h hB
      induction C with
      | nil => simpa using h
      | cons c C ihC =>
        apply ihC
        · cases h with
          | cons _ h => exact h
          | cons_cons _ h => exact absurd (by simp) hB
        · exact fun h => hB (List.mem_cons_of_mem _ h)
    have hbad : bad ∈ A' := by
      have := hsub'.subset (by simp : bad ∈ new ++ bad :: old)
      simpa using this
    obtain ⟨A'', B'', hA'⟩ := List.append_of_mem hbad
    have hAB : A'' = A ∧ B = B'' ++ pf :: B' := by
      have e : A ++ bad :: B = A'' ++ bad :: (B'' ++ pf :: B') := by
        rw [← hix, hix', hA']; simp
      have hn1 := hnd
      rw [hix, List.nodup_append, List.nodup_cons] at hn1
      have hb1 : bad ∉ A := fun h => hn1.2.2 bad h bad (by simp) rfl
      have hn2 := hnd
      rw [hix, e, List.nodup_append, List.nodup_cons] at hn2
      have hb2 : bad ∉ A'' := fun h => hn2.2.2 bad h bad (by simp) rfl
      rcases List.append_eq_append_iff.mp e with ⟨c, hc1, hc2⟩ | ⟨c, hc1, hc2⟩
      · cases c with
        | nil => simp at hc1 hc2; exact ⟨hc1, hc2⟩
        | cons d c =>
          simp at hc2
          exact absurd (by rw [hc1]; simp [hc2.1]) hb2
      · cases c with
        | nil => simp at hc1 hc2; exact ⟨hc1.symm, hc2.symm⟩
        | cons d c =>
          simp at hc2
          exact absurd (by rw [hc1]; simp [hc2.1]) hb1
    obtain ⟨rfl, rfl⟩ := hAB
    have hpfne : pf ≠ bad := fun e => hpfA' (e ▸ hbad)
    have hpfA : pf ∉ A'' := fun h => hpfA' (by rw [hA']; simp [h])
    simp only [rmChildren, hst]
    rw [h1]
    simp only
    cases hi : popWhileParent pf s.interior with
    | none =>
      right
      exact ⟨_, rfl, Or.inl fun e he => by rw [popWhileParent_none hi e he]; exact hpfA⟩
    | some ii =>
      simp only
      cases hc : popWhileParent pf s.cutoffs with
      | none =>
        right
        exact ⟨_, rfl, Or.inr fun e he => by rw [popWhileParent_none hc e he]; exact hpfA⟩
      | some cc =>
        simp only
        rw [if_neg hpfne]
        have hkI : ∀ u ∈ A'', ii.filter (fun e => decide (e.1 = u)) =
            s.interior.filter (fun e => decide (e.1 = u)) :=
          fun u hu => popWhileParent_some hi u (fun e => hpfA (e ▸ hu))
        have hkC : ∀ u ∈ A'', cc.filter (fun e => decide (e.1 = u)) =
            s.cutoffs.filter (fun e => decide (e.1 = u)) :=
          fun u hu => popWhileParent_some hc u (fun e => hpfA (e ▸ hu))
        have hmem : ∀ {X : Type} {xs ys : List ((F × P) × X)} , (∀ u ∈ A'',
            ys.filter (fun e => decide (e.1 = u)) = xs.filter (fun e => decide (e.1 = u))) →
            (∀ e ∈ ys, e.1 ∉ A'') → ∀ e ∈ xs, e.1 ∉ A'' := by
          intro X xs ys hf hy e he hA
          have : e ∈ ys.filter (fun e' => decide (e'.1 = e.1)) := by
            rw [hf _ hA]; simp [he]
          exact hy e (List.mem_filter.mp this).1 hA
        rcases ih A'' B'' old n { s with stack := new ++ bad :: old, pfIndex := A', low := low',
                                         pfs := pfs', interior := ii, cutoffs := cc }
          rfl hA' (by simp only; exact hnd'.1) (by simpa using hsub') (by simp at hn; omega) with
          ⟨s', hs', hC⟩ | ⟨s', hs', hC⟩
        · left
          refine ⟨s', hs', hC.stack, hC.pfIndex, ?_, ?_, hC.ev, hC.sccs, hC.sccOf, hC.emissions,
            fun u hu => (hC.int u hu).trans (hkI u hu), fun u hu => (hC.cut u hu).trans (hkC u hu)⟩
          · intro u
            rw [hC.low]
            simp only [h2]
            by_cases h : u ∈ bad :: B''
            · have : u ∈ bad :: (B'' ++ pf :: B') := by
                rcases List.mem_cons.mp h with e | e <;> simp [e]
              rw [if_pos h, if_pos this]
            · rw [if_neg h]
              by_cases h' : u ∈ pf :: B'
              · have : u ∈ bad :: (B'' ++ pf :: B') := by
                  rcases List.mem_cons.mp h' with e | e <;> simp [e]
                rw [if_pos h', if_pos this]
              · have : u ∉ bad :: (B'' ++ pf :: B') := by
                  intro hm
                  simp at hm h h'
                  rcases hm with e | e | e | e
                  · exact h.1 e
                  · exact h.2 e
                  · exact h'.1 e
                  · exact h'.2 e
                rw [if_neg h', if_neg this]
          · intro u
            rw [hC.pfs]
            simp only [h3]
            by_cases h : u ∈ bad :: B''
            · have : u ∈ bad :: (B'' ++ pf :: B') := by
                rcases List.mem_cons.mp h with e | e <;> simp [e]
              rw [if_pos h, if_pos this]
            · rw [if_neg h]
              by_cases h' : u ∈ pf :: B'
              · have : u ∈ bad :: (B'' ++ pf :: B') := by
                  rcases List.mem_cons.mp h' with e | e <;> simp [e]
                rw [if_pos h', if_pos this]
              · have : u ∉ bad :: (B'' ++ pf :: B') := by
                  intro hm
                  simp at hm h h'
                  rcases hm with e | e | e | e
                  · exact h.1 e
                  · exact h.2 e
                  · exact h'.1 e
                  · exact h'.2 e
                rw [if_neg h', if_neg this]
        · right
          refine ⟨s', hs', ?_⟩
          rcases hC with h | h
          · exact Or.inl (hmem hkI h)
          · exact Or.inr (hmem hkC h)

/-! ### traversals that raise -/

/-- `s'` is what is left when a termination error has been raised at the loop state `s`: the same
product flows are known with the same records; only labels and records of others may differ. -/
structure Refused (db : DB F P) (strat : Strategy) (s s' : State F P) : Prop where
  stack : s'.stack = s.stack
  pfIndex : s'.pfIndex = s.pfIndex
  low : ∀ u, s'.low.get? u = s.low.get? u
  pfs : ∀ u, s'.pfs.get? u = s.pfs.get? u
  ev : ∀ u ∈ s.pfIndex, s'.ev.get? u = s.ev.get? u
  int : ∀ u ∈ s.pfIndex, s'.interior.filter (fun e => decide (e.1 = u)) =
    s.interior.filter (fun e => decide (e.1 = u))
  cut : ∀ u ∈ s.pfIndex, s'.cutoffs.filter (fun e => decide (e.1 = u)) =
    s.cutoffs.filter (fun e => decide (e.1 = u))
  scc : ∃ g t, Inv db strat g t ∧ s'.sccs = t.sccs ∧ s'.sccOf = t.sccOf ∧
    ∀ v n, s.sccOf.get? v = some n → t.sccOf.get? v = some n

theorem Refused.refl {g : List (F × P)} {s : State F P} (h : Inv db strat g s) : Refused db strat s s :=
  ⟨rfl, rfl, fun _ => rfl, fun _ => rfl, fun _ _ => rfl, fun _ _ => rfl, fun _ _ => rfl,
    g, s, h, rfl, rfl, fun _ _ h => h⟩

def ErrSpec (db : DB F P) (strat : Strategy) (rec : F × P → State F P → Res F P Unit) : Prop :=
  ∀ x g old k s e s', Inv db strat (x :: g) s → s.stack = x :: old → s.pfs.get? x = some k →
    s.low.get? x = some k → DInv db strat (x :: g) s → Done db strat x [] s →
    rec x s = .err e s' →
    e = .recursion ∨ strat = .mix ∨ strat = .other ∨
    (e = .indexError ∧ (s.interior = [] ∨ s.cutoffs = [])) ∨
    (e = .termination ∧ ∃ done s1, LoopInv db strat x g old k done s1 ∧ Ext x s s1 ∧
      DInv db strat (x :: g) s1 ∧ Frame x s s1 ∧ Refused db strat s1 s')

/-- records of others than `x` do not vanish -/
theorem Frame.nonempty {x : F × P} {s s1 : State F P} {g : List (F × P)}
    (hD : DInv db strat g s) (hX : Done db strat x [] s) (hF : Frame x s s1) :
    (s1.interior = [] → s.interior = []) ∧ (s1.cutoffs = [] → s.cutoffs = []) := by
  constructor
  · intro h
    cases hs : s.interior with
    | nil => rfl
    | cons e l =>
      exfalso
      have he : e ∈ s.interior := by rw [hs]; simp
      have hne : e.1 ≠ x := by
        have := hX.int
        simp [intOf] at this
        intro h'
        exact this _ _ _ _ _ he (by rw [← h'])
      have := hF.int e.1 (hD.newI e he) hne
      rw [h] at this
      have h2 : e ∈ s.interior.filter (fun e' => decide (e'.1 = e.1)) := by simp [he]
      rw [← this] at h2
      simp at h2
  · intro h
    cases hs : s.cutoffs with
    | nil => rfl
    | cons e l =>
      exfalso
      have he : e ∈ s.cutoffs := by rw [hs]; simp
      have hne : e.1 ≠ x := by
        have := hX.cut
        simp [extOf] at this
        intro h'
        exact this _ _ _ _ _ he (by rw [← h'])
      have := hF.cut e.1 (hD.newC e he) hne
      rw [h] at this
      have h2 : e ∈ s.cutoffs.filter (fun e' => decide (e'.1 = e.1)) := by simp [he]
      rw [← this] at h2
      simp at h2

theorem terminate_err {em : List (F × Dir)} {x : Exch F P} {e : Err}
    (h : terminate db strat em x = .error e) : e = .termination ∨ strat = .mix ∨ strat = .other := by
  unfold terminate at h
  split at h
  · simp at h
  · split at h
    · simp at h
    · split at h
      · simp at h
      · simp at h
      · cases strat <;> simp at h <;> simp [h]

/-- the handler around the traversal of a fresh product flow `i` -/
theorem onTermError_err {rec : F × P → State F P → Res F P Unit} (herr : ErrSpec db strat rec)
    {i : F × P} {g : List (F × P)} {s s1 s' : State F P} {e : Err}
    (hI : Inv db strat g s) (hD : DInv db strat g s) (hnew : i ∉ s.pfIndex)
    (hr : ∀ y ∈ s.stack, Reach db strat y i)
    (hc : createProductFlow db s i = .ok true s1)
    (h : onTermError i (rec i s1) = .err e s') :
    e = .recursion ∨ strat = .mix ∨ strat = .other ∨
    (e = .indexError ∧ (s.interior = [] ∨ s.cutoffs = [])) ∨
    (e = .termination ∧ Refused db strat s s') := by
  obtain ⟨hI1, hs1, hp1, hl1, hE1, _⟩ := inv_push hI hnew hr hc
  obtain ⟨hD1, hX1, _, hF1⟩ := create_data hI hD hnew hc
  have hsame : s1.pfIndex = s.pfIndex ++ [i] ∧ s1.interior = s.interior ∧ s1.cutoffs = s.cutoffs := by
    unfold createProductFlow at hc
    cases hd : db.refDir i with
    | none => rw [hd] at hc; simp at hc
    | some d =>
      rw [hd] at hc
      simp only at hc
      unfold addProductFlow at hc
      have hxs : i ∉ s.stack := fun h' => hnew (hI.stack_vis h')
      have hlow : s.low.get? i = none := hI.lowNew i hnew
      simp only [setLow, hlow] at hc
      rw [if_neg hxs] at hc
      simp only [Res.ok.injEq, true_and] at hc
      subst hc
      simp
  cases hrec : rec i s1 with
  | ok a t => rw [hrec] at h; simp [onTermError] at h
  | err e1 t =>
    rw [hrec] at h
    have hspec := herr i g s.stack s.pfIndex.length s1 e1 t hI1 hs1 hp1 hl1 hD1 hX1 hrec
    have hpass : e1 ≠ .termination → e = e1 ∧ s' = t := by
      intro hne
      unfold onTermError at h
      split at h
      · rename_i heq; simp at heq; exact absurd heq.1 hne
      · simp at h; exact ⟨h.1.symm, h.2.symm⟩
    rcases hspec with h1 | h1 | h1 | ⟨h1, h2⟩ | ⟨h1, done, t0, hl0, hE0, hD0, hF0, hR⟩
    · left; rw [(hpass (by rw [h1]; simp)).1]; exact h1
    · right; left; exact h1
    · right; right; left; exact h1
    · right; right; right; left
      refine ⟨by rw [(hpass (by rw [h1]; simp)).1]; exact h1, ?_⟩
      rw [hsame.2.1, hsame.2.2] at h2; exact h2
    · subst h1
      simp only [onTermError] at h
      obtain ⟨new, l, hstk, _⟩ := hl0.low
      have hI0 := hl0.inv
      obtain ⟨B, hB⟩ := hE0.pre
      rw [hsame.1] at hB
      have hix : t.pfIndex = s.pfIndex ++ i :: B := by rw [hR.pfIndex, ← hB]; simp
      have hst : t.stack = new ++ i :: s.stack := by rw [hR.stack, hstk]
      have hiB : i ∉ s.pfIndex ∧ ∀ u ∈ s.pfIndex, u ∉ i :: B := by
        have := hI0.nodup
        rw [← hB, List.append_assoc, List.nodup_append] at this
        exact ⟨hnew, fun u hu hu' => this.2.2 u hu u (by simpa using hu') rfl⟩
      have hkeep : ∀ u ∈ s.pfIndex, u ≠ i ∧ u ∈ s1.pfIndex := fun u hu =>
        ⟨fun e => hnew (e ▸ hu), by rw [hsame.1]; simp [hu]⟩
      have hkI : ∀ u ∈ s.pfIndex, t.interior.filter (fun e => decide (e.1 = u)) =
          s.interior.filter (fun e => decide (e.1 = u)) := by
        intro u hu
        rw [hR.int u (hE0.pre.subset (hkeep u hu).2), hF0.int u (hkeep u hu).2 (hkeep u hu).1, hsame.2.1]
      have hkC : ∀ u ∈ s.pfIndex, t.cutoffs.filter (fun e => decide (e.1 = u)) =
          s.cutoffs.filter (fun e => decide (e.1 = u)) := by
        intro u hu
        rw [hR.cut u (hE0.pre.subset (hkeep u hu).2), hF0.cut u (hkeep u hu).2 (hkeep u hu).1, hsame.2.2]
      rcases rmChildren_spec i new s.pfIndex B s.stack (t.stack.length + 1) t hst hix
        (by rw [hR.pfIndex]; exact hI0.nodup) (by rw [hR.stack, hR.pfIndex]; exact hI0.stk)
        (by rw [hst]; simp) with ⟨t', ht', hC⟩ | ⟨t', ht', hC⟩
      · rw [ht'] at h
        simp only [Res.err.injEq] at h
        obtain ⟨rfl, rfl⟩ := h
        right; right; right; right
        refine ⟨rfl, hC.stack, hC.pfIndex, ?_, ?_, ?_, ?_, ?_, ?_⟩
        · intro u
          rw [hC.low]
          by_cases hu : u ∈ s.pfIndex
          · rw [if_neg (hiB.2 u hu), hR.low, hE0.low u (hkeep u hu).2 (hkeep u hu).1,
              hE1.low u hu (hkeep u hu).1]
          · rw [hI.lowNew u hu]
            split
            · rfl
            · rename_i hn
              rw [hR.low]
              apply hI0.lowNew
              rw [← hR.pfIndex, hix]
              simp only [List.mem_append, not_or]
              exact ⟨hu, hn⟩
        · intro u
          rw [hC.pfs]
          by_cases hu : u ∈ s.pfIndex
          · rw [if_neg (hiB.2 u hu), hR.pfs]
            obtain ⟨n, hn⟩ := (hI.vis_iff u).mp hu
            rw [hn]
            exact hE0.pfs hI1 hI0 (hE1.pfs hI hI1 hn)
          · rw [(hI.none_iff u).mpr hu]
            split
            · rfl
            · rename_i hn
              rw [hR.pfs, hI0.none_iff, ← hR.pfIndex, hix]
              simp only [List.mem_append, not_or]
              exact ⟨hu, hn⟩
        · intro u hu
          rw [hC.ev, hR.ev u (hE0.pre.subset (hkeep u hu).2), hF0.ev u (hkeep u hu).2 (hkeep u hu).1,
            hF1.ev u hu (hkeep u hu).1]
        · intro u hu; rw [hC.int u hu, hkI u hu]
        · intro u hu; rw [hC.cut u hu, hkC u hu]
        · obtain ⟨g', t'', hI', e1, e2, e3⟩ := hR.scc
          refine ⟨g', t'', hI', by rw [hC.sccs, e1], by rw [hC.sccOf, e2], ?_⟩
          intro v n hv
          exact e3 v n (hE0.scc v n (hE1.scc v n hv))
      · rw [ht'] at h
        simp only [Res.err.injEq] at h
        obtain ⟨rfl, rfl⟩ := h
        right; right; right; left
        refine ⟨rfl, ?_⟩
        rcases hC with hC | hC
        · left
          cases hs : s.interior with
          | nil => rfl
          | cons e l =>
            exfalso
            have he : e ∈ s.interior := by rw [hs]; simp
            have hv := hD.newI e he
            have h2 : e ∈ s.interior.filter (fun e' => decide (e'.1 = e.1)) := by simp [he]
            rw [← hkI e.1 hv] at h2
            exact hC e (List.mem_filter.mp h2).1 hv
        · right
          cases hs : s.cutoffs with
          | nil => rfl
          | cons e l =>
            exfalso
            have he : e ∈ s.cutoffs := by rw [hs]; simp
            have hv := hD.newC e he
            have h2 : e ∈ s.cutoffs.filter (fun e' => decide (e'.1 = e.1)) := by simp [he]
            rw [← hkC e.1 hv] at h2
            exact hC e (List.mem_filter.mp h2).1 hv

theorem step_err (rec : F × P → State F P → Res F P Unit) (hrec : TravSpec db strat rec)
    (herr : ErrSpec db strat rec)
    {x : F × P} {g old : List (F × P)} {k : ℕ} {done : List (Exch F P)} {e : Exch F P}
    {s s' : State F P} {er : Err} (hl : LoopInv db strat x g old k done s) (he : e ∈ db.inv x)
    (hD : DInv db strat (x :: g) s)
    (hst : stepExch db strat rec x e s = .err er s') :
    er = .recursion ∨ strat = .mix ∨ strat = .other ∨
    (er = .indexError ∧ (s.interior = [] ∨ s.cutoffs = [])) ∨
    (er = .termination ∧ Refused db strat s s') := by
  have hI := hl.inv
  obtain ⟨new, l, hstk, _⟩ := hl.low
  unfold stepExch at hst
  split at hst
  · simp at hst
  rename_i href
  split at hst
  · simp at hst
  rename_i v hval
  split at hst
  · simp at hst
  rename_i hv0
  split at hst
  · rename_i e' hterm
    simp only [Res.err.injEq] at hst
    obtain ⟨rfl, rfl⟩ := hst
    rcases terminate_err hterm with h | h | h
    · right; right; right; right; exact ⟨h, Refused.refl hI⟩
    · right; left; exact h
    · right; right; left; exact h
  · simp at hst
  · rename_i t hterm
    have hT := terminate_some hI hterm
    simp only at hst
    split at hst
    · rename_i hnv
      have hnew : (e.flow, t) ∉ s.pfIndex := (hI.none_iff _).mp hnv
      rcases create_total hI hnew with ⟨_, hc⟩ | ⟨s1, hc⟩
      · rw [hc] at hst; simp at hst
      · rw [hc] at hst
        simp only at hst
        have hrd : db.refDir (e.flow, t) ≠ none := by
          intro hd; unfold createProductFlow at hc; rw [hd] at hc; simp at hc
        have hdep : Depends db strat x (e.flow, t) :=
          ⟨e, he, by simpa using href, ⟨v, hval, hv0⟩, hT, rfl, hrd⟩
        have hreach : ∀ y ∈ s.stack, Reach db strat y (e.flow, t) :=
          fun y hy => (hI.reach_top hstk hy).tail hdep
        split at hst
        · rename_i e2 s2 hr
          simp only [Res.err.injEq] at hst
          obtain ⟨rfl, rfl⟩ := hst
          exact onTermError_err herr hI hD hnew hreach hc hr
        · rename_i s2 hr
          exfalso
          have hr := onTermError_ok hr
          obtain ⟨hI1, hs1, hp1, hl1, hE1, _⟩ := inv_push hI hnew hreach hc
          have hpost := hrec _ _ _ _ _ _ hI1 hs1 hp1 hl1 hr
          obtain ⟨_, l', _, hlow', _⟩ := hpost.low
          rw [hlow'] at hst
          simp at hst
    · split at hst <;> simp at hst

theorem loop_err (rec : F × P → State F P → Res F P Unit) (hrec : TravSpec db strat rec)
    (hdat : TravData db strat rec) (herr : ErrSpec db strat rec)
    {x : F × P} {g old : List (F × P)} {k : ℕ} (todo done : List (Exch F P))
    {s s' : State F P} {er : Err} (hl : LoopInv db strat x g old k done s)
    (he : ∀ e ∈ todo, e ∈ db.inv x)
    (hD : DInv db strat (x :: g) s) (hX : Done db strat x done s)
    (hst : loopExch db strat rec x todo s = .err er s') :
    ∃ done' s1, LoopInv db strat x g old k done' s1 ∧ Ext x s s1 ∧ DInv db strat (x :: g) s1 ∧
      Frame x s s1 ∧
      (er = .recursion ∨ strat = .mix ∨ strat = .other ∨
      (er = .indexError ∧ (s1.interior = [] ∨ s1.cutoffs = [])) ∨
      (er = .termination ∧ Refused db strat s1 s')) := by
  induction todo generalizing done s with
  | nil => simp [loopExch] at hst
  | cons e todo ih =>
    unfold loopExch at hst
    split at hst
    · rename_i s1 h1
      obtain ⟨hl1, hE1⟩ := loop_step rec hrec hl (he e (by simp)) h1
      obtain ⟨hD1, hX1, hF1⟩ := step_data rec hrec hdat hl (he e (by simp)) h1 hD hX
      obtain ⟨done', s2, hl2, hE2, hD2, hF2, h2⟩ :=
        ih (done ++ [e]) hl1 (fun e' h' => he e' (List.mem_cons_of_mem _ h')) hD1 hX1 hst
      exact ⟨done', s2, hl2, hE1.trans hE2, hD2, hF1.trans hE1.pre hF2, h2⟩
    · rename_i e' s1 h1
      simp only [Res.err.injEq] at hst
      obtain ⟨rfl, rfl⟩ := hst
      exact ⟨done, s, hl, Ext.refl x s, hD, Frame.refl x s,
        step_err rec hrec herr hl (he e (by simp)) hD h1⟩

theorem traverse_err (fuel : ℕ) : ErrSpec db strat (traverse db strat fuel) := by
  induction fuel with
  | zero =>
    intro x g old k s e s' _ _ _ _ _ _ h
    simp [traverse] at h
    exact Or.inl h.1.symm
  | succ n ih =>
    intro x g old k s e s' hI hs hp hlw hD hX h
    have hl0 : LoopInv db strat x g old k [] s :=
      ⟨hI, hp, [], k, by simpa using hs, hlw, le_refl _,
        ⟨x, by rw [hs]; simp, hp, Relation.ReflTransGen.refl⟩, by simp, by simp⟩
    unfold traverse at h
    split at h
    · rename_i s1 h1
      exfalso
      obtain ⟨hl1, _⟩ := loop_spec _ (traverse_spec n) (db.inv x) [] hl0 (fun e h => h) h1
      obtain ⟨s2, h2⟩ := finish_total hl1
      rw [h2] at h
      simp at h
    · rename_i e' s1 h1
      simp only [Res.err.injEq] at h
      obtain ⟨rfl, rfl⟩ := h
      obtain ⟨done', s2, hl2, hE2, hD2, hF2, h2⟩ :=
        loop_err _ (traverse_spec n) (traverse_data n) ih (db.inv x) [] hl0 (fun _ h => h) hD hX h1
      have hne := hF2.nonempty hD hX
      rcases h2 with h2 | h2 | h2 | ⟨h2, h3⟩ | ⟨h2, h3⟩
      · exact Or.inl h2
      · exact Or.inr (Or.inl h2)
      · exact Or.inr (Or.inr (Or.inl h2))
      · refine Or.inr (Or.inr (Or.inr (Or.inl ⟨h2, ?_⟩)))
        rcases h3 with h3 | h3
        · exact Or.inl (hne.1 h3)
        · exact Or.inr (hne.2 h3)
      · exact Or.inr (Or.inr (Or.inr (Or.inr ⟨h2, done', s2, hl2, hE2, hD2, hF2, h3⟩)))

theorem addRef_err {fuel : ℕ} {v : F × P} {s s' : State F P} {e : Err} (h : Rest db strat s)
    (hr : addRef db strat fuel v s = .err e s') :
    (e = .attributeError ∧ s' = s ∧ db.refDir v = none) ∨
    e = .recursion ∨ strat = .mix ∨ strat = .other ∨
    (e = .indexError ∧ (s.interior = [] ∨ s.cutoffs = [])) ∨
    (e = .termination ∧ Refused db strat s s') := by
  unfold addRef at hr
  split at hr
  · simp at hr
  · rename_i hn
    have hnv := (h.inv.none_iff v).mp hn
    unfold addRefProductRaw at hr
    rcases create_total h.inv hnv with ⟨hd, hc⟩ | ⟨s1, hc⟩
    · rw [hc] at hr
      simp at hr
      exact Or.inl ⟨hr.1.symm, hr.2.symm, hd⟩
    · rw [hc] at hr
      simp only at hr
      exact Or.inr (onTermError_err (traverse_err fuel) h.inv h.data hnv
        (by rw [h.inv.stack_empty]; simp) hc hr)

end Engine
