import Verif.Props.FragmentLoop2
import Verif.Props.FragmentObserve2

/-!
C131: cases that meet the hypotheses of the theorems on loops.
-/

namespace Frg

/-! ### no loops -/

/-- children have a smaller rank than their parents, subfragments than what uses them -/
def exRank : ℕ → ℕ
  | 0 => 5
  | 2 => 4
  | 5 => 3
  | 1 => 1
  | 3 => 1
  | 4 => 1
  | 6 => 1
  | 7 => 1
  | 8 => 1
  | _ => 0

theorem exH_beyond (n : ℕ) : exH (n + 9) = { flow := 0, dir := .input, evs := [], terms := [] } := by
  rfl

/-- decides a property of the nine nodes and of the others -/
theorem exH_cases (P : ℕ → Prop) (h : ∀ i, i < 9 → P i) (hb : ∀ n, P (n + 9)) (i : ℕ) : P i := by
  by_cases hi : i < 9
  · exact h i hi
  · have := hb (i - 9)
    rwa [Nat.sub_add_cancel (by omega)] at this

theorem exH_ranked : Ranked exH .none 3 exRank := by
  have hk : ∀ i, ∀ c ∈ (exH i).kids, exRank c < exRank i := by
    refine exH_cases _ (by decide +kernel) ?_
    intro n; rw [exH_beyond]; intro c hc; cases hc
  have hup : ∀ i, ∃ t, top exH 4 i = .ok t := by
    refine exH_cases _ ?_ ?_
    · intro i hi
      have : ∀ i, i < 9 → (top exH 4 i).toOption.isSome = true := by decide +kernel
      have h := this i hi
      cases ht : top exH 4 i with
      | error e => rw [ht] at h; cases h
      | ok t => exact ⟨t, rfl⟩
    · intro n; rw [top, exH_beyond]; exact ⟨_, rfl⟩
  have hsub : ∀ i, ∀ tm, termOf (exH i) .none = .ok tm → ∀ j, tm.target = .frag j → j ≠ i → i = 2 ∧ j = 5 := by
    refine exH_cases _ ?_ ?_
    · intro i hi
      have : ∀ i, i < 9 → (match termOf (exH i) .none with
        | .ok tm => (match tm.target with
          | .frag j => decide (j = i) || (decide (i = 2) && decide (j = 5))
          | _ => true)
        | .error _ => true) = true := by decide +kernel
      intro tm htm j hj hji
      have h := this i hi
      rw [htm] at h
      simp only [hj, decide_eq_true_eq, Bool.or_eq_true, Bool.and_eq_true] at h
      exact h.resolve_left hji
    · intro n tm htm; rw [exH_beyond] at htm; cases htm
  refine ⟨fun i c hc => hk i c hc, ?_, ?_, hup⟩
  · intro i tm j h1 h2 h3 h4
    obtain ⟨rfl, rfl⟩ := hsub i tm h1 j h2 h3
    decide
  · intro i tm j h1 h2 h3 n t ht
    obtain ⟨rfl, rfl⟩ := hsub i tm h1 j h2 h3
    rcases top_same (show top exH 1 5 = .ok 5 from rfl) _ ht with h' | ⟨e, h'⟩
    · cases h'; decide
    · cases h'

/-- any recursion limit above 9 gives the same traversal, and that is the one computed with 20 -/
example (n : ℕ) (hn : 9 < n) : view (traverse exE exH .none false n 0) = .ok
    [(.frag 0, 10, 1), (.frag 1, 2, 2), (.frag 2, 4, 4), (.frag 5, 4, 2), (.frag 8, 14, 14), (.ghost 5, 6, 6),
     (.frag 4, 1, 3), (.frag 3, -5, -5)] := by
  rw [traverse_limit_irrelevant exE exH_ranked 0 n 20 (show 9 < n from hn) (by decide)]
  decide +kernel

/-! ### loops -/

/-- fragment 0 is not terminated, fragment 1 uses it -/
def lpH : Heap ℕ ℕ
  | 0 => { flow := 1, dir := .input, evs := [(.cached, some 1), (.observed, some 0)], terms := [(none, nullT 1)] }
  | 1 => { kids := [2], flow := 2, dir := .input, evs := [(.cached, some 1), (.observed, some 0)], terms := [(none, { target := .frag 1, flow := 2 })] }
  | 2 => { parent := some 1, flow := 1, dir := .input, evs := [(.cached, some 3), (.observed, some 0)], terms := [(none, { target := .frag 0, flow := 1 })] }
  | _ => { flow := 0, dir := .input, evs := [], terms := [] }

/-- before, fragment 1 is traversed -/
example : view (traverse exE lpH .none false 9 1) = .ok [(.frag 1, 1, 1), (.frag 2, 3, 3), (.ghost 0, 3, 3)] := by decide +kernel

/-- terminating fragment 0 to fragment 1 is accepted, and then neither is traversed -/
example : isOk (terminate exE 9 lpH 0 1) = true ∧ ∀ fuel, (∃ e, traverse exE (terminate exE 9 lpH 0 1).state .none false fuel 0 = .error e) ∧
    ∃ e, traverse exE (terminate exE 9 lpH 0 1).state .none false fuel 1 = .error e := by
  refine ⟨by decide +kernel, ?_⟩
  refine terminate_reference_loops exE (H := lpH) (fuel := 9) (t := 0) (j := 1) (b := 2) (tm := { target := .frag 0, flow := 1 })
    (isOk_state (by decide +kernel)) (by decide) rfl rfl rfl ⟨by decide +kernel, rfl, rfl⟩ (by decide) ?_ ⟨by decide +kernel, rfl, rfl⟩ (by decide +kernel) rfl
  exact .step 1 2 2 { target := .frag 1, flow := 2 } (by decide +kernel) (.inr rfl) (by decide) (by decide +kernel) rfl rfl (.refl 2)

/-- terminating the child flow 1 of fragment 0 to its sibling 2 is accepted, and then fragment 0 is not traversed -/
example : isOk (terminate exE 9 exH 1 2) = true ∧ ∀ fuel, ∃ e, traverse exE (terminate exE 9 exH 1 2).state .none false fuel 0 = .error e := by
  refine ⟨by decide +kernel, ?_⟩
  refine terminate_same_tree_loops exE (H := exH) (fuel := 9) (i := 1) (j := 2) (t := 0) (n := 4) (m := 4)
    (isOk_state (by decide +kernel)) (by decide) (by decide) (by decide +kernel) (by decide +kernel) rfl ?_ ⟨by decide +kernel, rfl, rfl⟩
  exact .step 0 1 1 { target := .frag 0, flow := 1 } (by decide +kernel) (.inr rfl) (by decide) (by decide +kernel) rfl rfl (.refl 1)

/-- `exH`, with the flows of fragment 5 hidden by the termination of 2 -/
def hidH : Heap ℕ ℕ := exH.put 2 { exH 2 with terms := [(none, { target := .frag 5, flow := 3, descend := false })] }

/-- with the flows of 5 shown, terminating its child flow 7 to fragment 0, which uses it, is refused -/
example : (terminate exE 9 exH 7 0).error? = some .invalidParentChild := by decide +kernel

/-- **C131** (a fault) if the flows are hidden, it is accepted, and fragment 0 is not traversed afterwards -/
theorem terminate_hidden_loops : isOk (terminate exE 9 hidH 7 0) = true ∧ ∀ fuel, ∃ e, traverse exE (terminate exE 9 hidH 7 0).state .none false fuel 0 = .error e := by
  refine ⟨by decide +kernel, fun fuel => ?_⟩
  refine traverse_stuck exE (S := fun i => i ∈ [0, 2, 5, 7]) ⟨?_, ?_, ?_, ?_⟩ 0 (by decide) fuel
  · decide +kernel
  · decide +kernel
  · decide +kernel
  · intro i hi tm htm
    simp only [List.mem_cons, List.not_mem_nil, or_false] at hi
    rcases hi with rfl | rfl | rfl | rfl
    · have : termOf ((terminate exE 9 hidH 7 0).state 0) .none = .ok { target := .frag 0, flow := 1 } := by decide +kernel
      rw [this] at htm; cases htm
      exact .inl ⟨.inr rfl, 2, by decide +kernel, by decide⟩
    · have : termOf ((terminate exE 9 hidH 7 0).state 2) .none = .ok { target := .frag 5, flow := 3, descend := false } := by decide +kernel
      rw [this] at htm; cases htm
      exact .inr ⟨5, 5, 1, rfl, by decide, by decide +kernel, by decide +kernel, by decide⟩
    · have : termOf ((terminate exE 9 hidH 7 0).state 5) .none = .ok { target := .frag 5, flow := 3 } := by decide +kernel
      rw [this] at htm; cases htm
      exact .inl ⟨.inr rfl, 7, by decide +kernel, by decide⟩
    · have : termOf ((terminate exE 9 hidH 7 0).state 7) .none = .ok { target := .frag 0, flow := 2 } := by decide +kernel
      rw [this] at htm; cases htm
      exact .inr ⟨0, 0, 1, rfl, by decide, by decide +kernel, by decide +kernel, by decide⟩

/-- the flow 8 inside fragment 0 is terminated to fragment 5, with the flows of all terminations shown: 5 is traversed as before -/
example : ∃ ffs, traverse exE exH .none false 9 5 = .ok ffs ∧ traverse exE (terminate exE 9 exH 8 5).state .none false 9 5 = .ok ffs := by
  refine terminate_keeps_traversal_partial exE (H := exH) (fuel := 9) (i := 8) (j := 5) (isOk_state (by decide +kernel)) (by decide) ?_ ?_ rfl (by decide) rfl (by decide +kernel)
  · intro x
    refine exH_cases (fun x => ∀ c, c ∈ (exH x).kids → (exH c).parent = some x) ?_ ?_ x
    · intro i hi c hc
      have : ∀ i, i < 9 → ∀ c ∈ (exH i).kids, (exH c).parent = some i := by decide +kernel
      exact this i hi c hc
    · intro n c hc; rw [exH_beyond] at hc; cases hc
  · intro x
    refine exH_cases (fun x => ∀ tm, termOf (exH x) .none = .ok tm → tm.descend = true) ?_ ?_ x
    · intro i hi tm htm
      have : ∀ i, i < 9 → (match termOf (exH i) .none with
        | .ok tm => tm.descend
        | .error _ => true) = true := by decide +kernel
      have h := this i hi
      rw [htm] at h; exact h
    · intro n tm htm; rw [exH_beyond] at htm; cases htm

end Frg
