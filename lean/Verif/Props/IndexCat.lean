import Verif.Model.IndexCat
import Verif.Props.ResolverHist
import Mathlib.Data.List.TakeWhile

/-!
Indexes in a catalog: C167 (references of indexes), C168 (indexing again).
-/

set_option linter.unusedSectionVars false

namespace Inx
open Rsv (Str Res St splitDots Refines Reg Hits Wf Listed)

variable {A E : Type} [DecidableEq A] [DecidableEq E]

/-! ### references -/

theorem split_append (a b : Str) : splitDots (a ++ '.' :: b) = splitDots a ++ splitDots b := by
  induction a with
  | nil => simp [Rsv.splitDots_dot, splitDots]
  | cons c a ih =>
    by_cases hc : c = '.'
    · subst hc; simp [Rsv.splitDots_dot, ih]
    · obtain ⟨w, l, h⟩ := List.exists_cons_of_ne_nil (Rsv.splitDots_ne a)
      rw [Rsv.splitDots_cons c hc a w l h, List.cons_append, Rsv.splitDots_cons c hc (a ++ '.' :: b) w (l ++ splitDots b) (by rw [ih, h]; rfl)]
      rfl

theorem split_plain {s : Str} (h : '.' ∉ s) : splitDots s = [s] := by
  induction s with
  | nil => rfl
  | cons c s ih =>
    simp only [List.mem_cons, not_or] at h
    exact Rsv.splitDots_cons c (Ne.symm h.1) s s [] (ih h.2)

theorem split_parts (s : Str) : ∀ w ∈ splitDots s, '.' ∉ w := by
  induction s with
  | nil => simp [splitDots]
  | cons c s ih =>
    by_cases hc : c = '.'
    · subst hc; rw [Rsv.splitDots_dot]; intro w hw
      rcases List.mem_cons.mp hw with rfl | hw
      · simp
      · exact ih w hw
    · obtain ⟨w, l, h⟩ := List.exists_cons_of_ne_nil (Rsv.splitDots_ne s)
      rw [Rsv.splitDots_cons c hc s w l h]
      rw [h] at ih
      intro x hx
      rcases List.mem_cons.mp hx with rfl | hx
      · simp only [List.mem_cons, not_or]
        exact ⟨Ne.symm hc, ih w (by simp)⟩
      · exact ih x (by simp [hx])

theorem join_cons {s : Str} {l : List Str} (h : l ≠ []) : joinDots (s :: l) = s ++ '.' :: joinDots l := by
  cases l with
  | nil => exact absurd rfl h
  | cons a l => rfl

theorem split_join {l : List Str} (h : l ≠ []) (hp : ∀ w ∈ l, '.' ∉ w) : splitDots (joinDots l) = l := by
  induction l with
  | nil => exact absurd rfl h
  | cons a l ih =>
    cases l with
    | nil => simp only [joinDots]; exact split_plain (hp a (by simp))
    | cons b l =>
      rw [join_cons (by simp), split_append, split_plain (hp a (by simp)), ih (by simp) (fun w hw => hp w (List.mem_cons_of_mem _ hw))]
      rfl

theorem join_split (s : Str) : joinDots (splitDots s) = s := by
  induction s with
  | nil => rfl
  | cons c s ih =>
    obtain ⟨w, l, h⟩ := List.exists_cons_of_ne_nil (Rsv.splitDots_ne s)
    by_cases hc : c = '.'
    · subst hc
      rw [Rsv.splitDots_dot, join_cons (Rsv.splitDots_ne s), ih]; rfl
    · rw [Rsv.splitDots_cons c hc s w l h]
      rw [h] at ih
      rw [← ih]
      cases l with
      | nil => rfl
      | cons a l => rfl

/-- the text ends in six or more digits and hyphens -/
def EndsDated (s : Str) : Prop := ∃ a b, s = a ++ b ∧ 6 ≤ b.length ∧ ∀ c ∈ b, c.isDigit = true ∨ c = '-'

theorem dated_iff (s : Str) : dated s = true ↔ EndsDated s := by
  unfold dated EndsDated
  simp only [decide_eq_true_eq]
  constructor
  · intro h
    refine ⟨(s.reverse.dropWhile fun c => c.isDigit || c == '-').reverse, (s.reverse.takeWhile fun c => c.isDigit || c == '-').reverse, ?_, by simpa using h, ?_⟩
    · rw [← List.reverse_append, List.takeWhile_append_dropWhile, List.reverse_reverse]
    · intro c hc
      have := List.mem_takeWhile_imp (List.mem_reverse.mp hc)
      simpa using this
  · rintro ⟨a, b, rfl, h1, h2⟩
    rw [List.reverse_append]
    have h3 : b.reverse <+: List.takeWhile (fun c => c.isDigit || c == '-') (b.reverse ++ a.reverse) := by
      rw [List.takeWhile_append_of_pos (by intro c hc; have := h2 c (List.mem_reverse.mp hc); simpa using this)]
      exact List.prefix_append _ _
    have := h3.length_le
    simp at this
    omega

theorem newRef_eq {date dt ref sig r : Str} (h : newRef date dt ref (some sig) = .ok r) :
    r = (if dated ((splitDots ref).getLastD []) then joinDots (splitDots ref).dropLast else ref) ++ '.' :: (sig ++ '.' :: date) ∧ r ≠ ref := by
  have hb : ∀ base : Str, joinDots [base, sig, date] = base ++ '.' :: (sig ++ '.' :: date) := fun _ => rfl
  simp only [newRef, hb] at h
  cases hs : signifierOk sig with
  | false => rw [hs] at h; simp at h
  | true =>
    rw [hs, if_pos rfl] at h
    by_cases hr : (if dated ((splitDots ref).getLastD []) then joinDots (splitDots ref).dropLast else ref) ++ '.' :: (sig ++ '.' :: date) = ref
    · rw [if_pos hr] at h; cases h
    · rw [if_neg hr] at h
      cases h
      exact ⟨rfl, hr⟩

/-- **C167** the reference of an index is another one than that of the archive; it belongs to the origin of the archive, so that queries of the origin
find the index, if and only if the last part of the origin does not end in six or more digits and hyphens -/
theorem index_found_iff {date dt ref sig r : Str} (hs : '.' ∉ sig) (hsd : ¬ EndsDated sig) (h : newRef date dt ref (some sig) = .ok r) :
    r ≠ ref ∧ (Hits ref r false ↔ ¬ ∃ a b, ref = a ++ b ∧ (a = [] ∨ ∃ a', a = a' ++ ['.']) ∧ '.' ∉ b ∧ EndsDated b) := by
  obtain ⟨h1, h2⟩ := newRef_eq h
  refine ⟨h2, ?_⟩
  have hlast : ∃ init, splitDots ref = init ++ [(splitDots ref).getLastD []] := by
    obtain ⟨w, l, hw⟩ := List.exists_cons_of_ne_nil (Rsv.splitDots_ne ref)
    refine ⟨(splitDots ref).dropLast, ?_⟩
    rw [hw, List.getLastD_cons]
    have := List.dropLast_append_getLast (l := w :: l) (by simp)
    rw [List.getLast_eq_getLastD] at this
    exact this.symm
  obtain ⟨init, hi⟩ := hlast
  generalize (splitDots ref).getLastD [] = tail at hi h1
  have htail : '.' ∉ tail := split_parts ref tail (by rw [hi]; simp)
  -- the last part of the origin
  have hspec : (∃ a b, ref = a ++ b ∧ (a = [] ∨ ∃ a', a = a' ++ ['.']) ∧ '.' ∉ b ∧ EndsDated b) ↔ EndsDated tail := by
    constructor
    · rintro ⟨a, b, rfl, ha, hb, hd⟩
      rcases ha with rfl | ⟨a', rfl⟩
      · rw [List.nil_append, split_plain hb] at hi
        have : tail = b := by
          have := congrArg List.getLast? hi
          simpa using this.symm
        rw [this]; exact hd
      · rw [List.append_assoc, List.singleton_append, split_append, split_plain hb] at hi
        have : tail = b := by
          have := congrArg List.getLast? hi
          simpa using this.symm
        rw [this]; exact hd
    · intro hd
      have hj := join_split ref
      rw [hi] at hj
      by_cases hin : init = []
      · subst hin
        exact ⟨[], tail, by simpa [joinDots] using hj.symm, Or.inl rfl, htail, hd⟩
      · have hja : ∀ l : List Str, l ≠ [] → joinDots (l ++ [tail]) = joinDots l ++ '.' :: tail := by
          intro l
          induction l with
          | nil => intro h; exact absurd rfl h
          | cons x l ih =>
            intro _
            cases l with
            | nil => rfl
            | cons y l =>
              rw [List.cons_append, join_cons (by simp), ih (by simp), join_cons (s := x) (by simp)]
              simp
        rw [hja init hin] at hj
        exact ⟨joinDots init ++ ['.'], tail, by rw [← hj]; simp, Or.inr ⟨_, rfl⟩, htail, hd⟩
  rw [hspec, ← dated_iff]
  cases hd : dated tail with
  | false =>
    rw [hd] at h1
    simp only [Bool.false_eq_true, if_false, not_false_eq_true, iff_true] at h1 ⊢
    exact Or.inr ⟨rfl, _, h1⟩
  | true =>
    rw [hd] at h1
    simp only [if_true, not_true_eq_false, iff_false] at h1 ⊢
    intro hH
    have hm := (Rsv.refMatches_iff ref r false).mpr hH
    simp only [Rsv.refMatches, Bool.false_and, Bool.not_false, Bool.true_and, decide_eq_true_eq] at hm
    have hne : tail ≠ sig := by
      rintro rfl
      exact hsd ((dated_iff tail).mp hd)
    by_cases hin : init = []
    · subst hin
      rw [hi] at hm
      rw [hi] at h1
      simp only [List.nil_append, List.dropLast_singleton, joinDots] at h1
      rw [h1] at hm
      simp only [List.nil_append, Rsv.splitDots_dot, List.length_singleton, List.take_succ_cons, List.take_zero, List.cons.injEq, and_true] at hm
      rw [← hm] at hd
      revert hd; decide
    · have hdl : (splitDots ref).dropLast = init := by rw [hi]; simp
      rw [hdl] at h1
      rw [hi, h1, split_append, split_join hin (fun w hw => split_parts ref w (by rw [hi]; simp [hw])), split_append, split_plain hs] at hm
      simp only [List.length_append, List.length_singleton, List.singleton_append, List.take_append, List.take_of_length_le (Nat.le_succ _),
        Nat.add_sub_cancel_left, List.take_succ_cons, List.take_zero] at hm
      have := List.append_cancel_left hm
      simp only [List.cons.injEq, and_true] at this
      exact hne this.symm

/-- two archives whose references differ in a date at the end only get the same reference for their indexes -/
theorem same_index_reference {date dt base d1 d2 sig r1 r2 : Str} (h1 : '.' ∉ d1) (h2 : '.' ∉ d2) (hd1 : EndsDated d1) (hd2 : EndsDated d2)
    (hr1 : newRef date dt (base ++ '.' :: d1) (some sig) = .ok r1) (hr2 : newRef date dt (base ++ '.' :: d2) (some sig) = .ok r2) : r1 = r2 := by
  have key : ∀ d r, '.' ∉ d → EndsDated d → newRef date dt (base ++ '.' :: d) (some sig) = .ok r → r = base ++ '.' :: (sig ++ '.' :: date) := by
    intro d r hd he hr
    have := (newRef_eq hr).1
    rw [split_append, split_plain hd] at this
    simp only [List.getLastD_concat, (dated_iff d).mpr he, if_true, List.dropLast_concat, join_split] at this
    exact this
  rw [key d1 r1 h1 hd1 hr1, key d2 r2 h2 hd2 hr2]

end Inx
