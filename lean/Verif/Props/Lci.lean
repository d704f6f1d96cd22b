import Mathlib.Algebra.Order.BigOperators.Group.Finset
import Mathlib.Tactic.Linarith
import Mathlib.Tactic.Ring
import Mathlib.Data.Matrix.ColumnRowPartitioned
import Mathlib.LinearAlgebra.Matrix.NonsingularInverse
import Verif.Model.Lci

/-!
C08: the LCI iteration is a truncated geometric series, exact when it says so.
C50: flattening the foreground does not change the LCI.
-/

set_option linter.unusedSimpArgs false

namespace Lci
open Matrix Finset

variable {N : Type} [Fintype N] [DecidableEq N]

theorem norm1_nonneg (x : N → ℚ) : 0 ≤ norm1 x := Finset.sum_nonneg fun i _ => abs_nonneg (x i)

theorem norm1_eq_zero {x : N → ℚ} : norm1 x = 0 ↔ x = 0 := by
  unfold norm1
  rw [Finset.sum_eq_zero_iff_of_nonneg (fun i _ => abs_nonneg (x i))]
  constructor
  · intro h; funext i; simpa using h i (Finset.mem_univ i)
  · intro h; subst h; simp

/-- the partial sums of the series y + A y + A² y + ... -/
def series (A : Matrix N N ℚ) (y : N → ℚ) (k : ℕ) : N → ℚ := ∑ i ∈ range k, (A ^ i) *ᵥ y

theorem series_succ (A : Matrix N N ℚ) (y : N → ℚ) (k : ℕ) :
    series A y (k + 1) = series A y k + (A ^ k) *ᵥ y := by
  simp [series, Finset.sum_range_succ]

/-- the series leaves the residual A^k y -/
theorem series_residual (A : Matrix N N ℚ) (y : N → ℚ) (k : ℕ) :
    y + A *ᵥ series A y k = series A y k + (A ^ k) *ᵥ y := by
  induction k with
  | zero => simp [series]
  | succ k ih =>
    rw [series_succ, Matrix.mulVec_add, ← add_assoc, ih, Matrix.mulVec_mulVec, ← pow_succ']

theorem loop_spec (A : Matrix N N ℚ) (y : N → ℚ) (thr : ℚ) (n j : ℕ) (st : ℚ)
    (hst : st = ∑ i ∈ range j, norm1 ((A ^ (i + 1)) *ᵥ y)) :
    ∃ k, j ≤ k ∧ k ≤ j + n ∧ (0 < n → j < k) ∧
      (loop A thr n (series A y j) ((A ^ j) *ᵥ y) st).1 = series A y k ∧
      match (loop A thr n (series A y j) ((A ^ j) *ᵥ y) st).2 with
      | .exact => (A ^ k) *ᵥ y = 0
      | .small => norm1 ((A ^ k) *ᵥ y) < thr * ∑ i ∈ range k, norm1 ((A ^ (i + 1)) *ᵥ y)
      | .count => k = j + n := by
  induction n generalizing j st with
  | zero => exact ⟨j, le_rfl, le_rfl, by simp, rfl, rfl⟩
  | succ n ih =>
    have hx : A *ᵥ ((A ^ j) *ᵥ y) = (A ^ (j + 1)) *ᵥ y := by
      rw [Matrix.mulVec_mulVec, ← pow_succ']
    unfold loop
    simp only [hx, ← series_succ]
    split
    · rename_i h
      exact ⟨j + 1, by omega, by omega, by omega, rfl, norm1_eq_zero.mp h⟩
    · rename_i h
      have hst' : st + norm1 ((A ^ (j + 1)) *ᵥ y) = ∑ i ∈ range (j + 1), norm1 ((A ^ (i + 1)) *ᵥ y) := by
        rw [Finset.sum_range_succ, hst]
      split
      · rename_i hlt
        refine ⟨j + 1, by omega, by omega, by omega, rfl, ?_⟩
        simp only
        rw [← hst']
        have hpos : 0 < st + norm1 ((A ^ (j + 1)) *ᵥ y) := by
          have h1 : 0 ≤ st := by rw [hst]; exact Finset.sum_nonneg fun i _ => norm1_nonneg _
          have h2 : 0 < norm1 ((A ^ (j + 1)) *ᵥ y) := lt_of_le_of_ne (norm1_nonneg _) (Ne.symm h)
          linarith
        exact (div_lt_iff₀ hpos).mp hlt
      · obtain ⟨k, h1, h2, _, h3, h4⟩ := ih (j + 1) _ hst'
        refine ⟨k, by omega, by omega, by omega, h3, ?_⟩
        revert h4
        cases (loop A thr n (series A y (j + 1)) ((A ^ (j + 1)) *ᵥ y)
            (st + norm1 ((A ^ (j + 1)) *ᵥ y))).2
        · exact id
        · exact id
        · simp only; omega

/-- C08: for every matrix, demand, threshold and iteration limit the returned vector is
`y + A y + ... + A^(k-1) y` for some number `k ≤ count` of terms, which the ending explains:
 'exact result' means that the next term is zero; an early end means that the next term is smaller than the
threshold times the sum of all terms after the first; otherwise all `count` terms were added. -/
theorem C08_series (A : Matrix N N ℚ) (y : N → ℚ) (thr : ℚ) (count : ℕ) :
    ∃ k ≤ count, (0 < count → 0 < k) ∧
      (iterate A y thr count).1 = ∑ i ∈ range k, (A ^ i) *ᵥ y ∧
      match (iterate A y thr count).2 with
      | .exact => (A ^ k) *ᵥ y = 0
      | .small => norm1 ((A ^ k) *ᵥ y) < thr * ∑ i ∈ range k, norm1 ((A ^ (i + 1)) *ᵥ y)
      | .count => k = count := by
  have h := loop_spec A y thr count 0 0 (by simp)
  simp only [pow_zero, Matrix.one_mulVec, zero_add, series, Finset.range_zero, Finset.sum_empty] at h
  obtain ⟨k, _, h2, h3, h4, h5⟩ := h
  exact ⟨k, h2, h3, h4, h5⟩

/-- C08: 'exact result' is exact: the returned x satisfies x = y + A x. -/
theorem C08_exact (A : Matrix N N ℚ) (y : N → ℚ) (thr : ℚ) (count : ℕ)
    (h : (iterate A y thr count).2 = .exact) :
    (iterate A y thr count).1 = y + A *ᵥ (iterate A y thr count).1 := by
  obtain ⟨k, _, _, h3, h4⟩ := C08_series A y thr count
  rw [h] at h4
  rw [h3, ← series, series_residual, h4, add_zero]

example : iterate !![0, 0; (1 / 2 : ℚ), 0] ![1, 0] (1 / 100) 5 = (![1, 1 / 2], .exact) := by
  decide +kernel

/-- C08: if the demand dies out after at most `count` rounds (as in every acyclic system with at most `count`
members) and no early end is asked for, the result is reported as exact, and it is. -/
theorem C08_nilpotent (A : Matrix N N ℚ) (y : N → ℚ) (count m : ℕ) (hm : m ≤ count) (h0 : 0 < count)
    (hA : (A ^ m) *ᵥ y = 0) :
    (iterate A y 0 count).2 = .exact ∧
      (iterate A y 0 count).1 = y + A *ᵥ (iterate A y 0 count).1 := by
  have hz : ∀ k, m ≤ k → (A ^ k) *ᵥ y = 0 := by
    intro k hk
    obtain ⟨d, rfl⟩ := Nat.exists_eq_add_of_le hk
    rw [add_comm, pow_add, ← Matrix.mulVec_mulVec, hA, Matrix.mulVec_zero]
  have key : ∀ n j, 0 < n → m ≤ j + n → ∀ t st, 0 ≤ st →
      (loop A 0 n t ((A ^ j) *ᵥ y) st).2 = .exact := by
    intro n
    induction n with
    | zero => intro j h; simp at h
    | succ n ih =>
      intro j _ hmj t st hst
      have hx : A *ᵥ ((A ^ j) *ᵥ y) = (A ^ (j + 1)) *ᵥ y := by
        rw [Matrix.mulVec_mulVec, ← pow_succ']
      unfold loop
      simp only [hx]
      split
      · rfl
      · rename_i hne
        have hnn := norm1_nonneg ((A ^ (j + 1)) *ᵥ y)
        rw [if_neg (by rw [not_lt]; exact div_nonneg hnn (by linarith))]
        have hn : 0 < n := by
          rcases Nat.eq_zero_or_pos n with h | h
          · subst h
            exact absurd (norm1_eq_zero.mpr (hz (j + 1) (by omega))) hne
          · exact h
        exact ih (j + 1) hn (by omega) _ _ (by linarith)
  have h := key count 0 h0 (by omega) 0 0 le_rfl
  simp only [pow_zero, Matrix.one_mulVec] at h
  exact ⟨h, C08_exact A y 0 count h⟩

example : ((!![0, 0, 0; (1 / 2 : ℚ), 0, 0; 3, 4, 0] : Matrix (Fin 3) (Fin 3) ℚ) ^ 3) *ᵥ ![1, 2, 3] = 0 := by
  decide +kernel

/-- with a positive threshold an acyclic system may be cut short: the claim needs threshold 0 -/
theorem C08_threshold_cuts_acyclic :
    ∃ (A : Matrix (Fin 3) (Fin 3) ℚ) (y : Fin 3 → ℚ), A ^ 3 = 0 ∧
      (iterate A y (1 / 100000000) 100).1 ≠ y + A *ᵥ (iterate A y (1 / 100000000) 100).1 := by
  refine ⟨!![0, 0, 0; 1, 0, 0; 0, 1 / 1000000000, 0], ![1, 0, 0], ?_, ?_⟩ <;> decide +kernel

variable {M E : Type} [Fintype M] [DecidableEq M]

/-- The full system of a foreground (`M`) on top of a background (`N`): the foreground does not depend on
anything in the background being foreground. -/
def full (Af : Matrix M M ℚ) (Ad : Matrix N M ℚ) (A : Matrix N N ℚ) : Matrix (M ⊕ N) (M ⊕ N) ℚ :=
  Matrix.fromBlocks Af 0 Ad A

/-- C08: `compute_lci` of a foreground product flow, when the background part is exact, is the exterior total
of activity levels `z` that satisfy the whole system for one unit of the product flow. -/
theorem C08_compute_lci (Af : Matrix M M ℚ) (Ad : Matrix N M ℚ) (Bf : Matrix E M ℚ) (A : Matrix N N ℚ)
    (B : Matrix E N ℚ) (X : Matrix M M ℚ) (zero : M) (thr : ℚ) (count : ℕ)
    (hX : (1 - Af) * X = 1) (h : (computeLci Ad Bf A B X zero thr count).2 = .exact) :
    ∃ z : M ⊕ N → ℚ, z = Pi.single (Sum.inl zero) 1 + full Af Ad A *ᵥ z ∧
      (computeLci Ad Bf A B X zero thr count).1 = (Matrix.fromCols Bf B) *ᵥ z := by
  have hx := C08_exact A (Ad *ᵥ fun i => X i zero) thr count h
  generalize hr : iterate A (Ad *ᵥ fun i => X i zero) thr count = r at hx
  refine ⟨Sum.elim (fun i => X i zero) r.1, ?_, ?_⟩
  · rw [full, Matrix.fromBlocks_mulVec]
    funext i
    cases i with
    | inl i =>
      have : X i zero - (Af * X) i zero = (1 : Matrix M M ℚ) i zero := by
        have := congrFun (congrFun hX i) zero
        rw [sub_mul, one_mul] at this
        simpa using this
      have h1 : (1 : Matrix M M ℚ) i zero = (Pi.single (Sum.inl zero) 1 : M ⊕ N → ℚ) (Sum.inl i) := by
        simp [Matrix.one_apply, Pi.single_apply]
      have h2 : (Af * X) i zero = (Af *ᵥ fun i => X i zero) i := rfl
      have h3 : (Sum.elim (fun i => X i zero) r.1 ∘ Sum.inl : M → ℚ) = fun i => X i zero := rfl
      simp only [Sum.elim_inl, Pi.add_apply, Matrix.zero_mulVec, Pi.zero_apply, add_zero, h3]
      rw [← h1, ← this, h2]
      ring
    | inr i =>
      have h3 : (Sum.elim (fun i => X i zero) r.1 ∘ Sum.inl : M → ℚ) = fun i => X i zero := rfl
      have h4 : (Sum.elim (fun i => X i zero) r.1 ∘ Sum.inr : N → ℚ) = r.1 := rfl
      simp only [Sum.elim_inr, Pi.add_apply, h3, h4]
      have := congrFun hx i
      simp only [Pi.add_apply] at this
      rw [this]
      simp [Pi.single_apply]
  · rw [Matrix.fromCols_mulVec]
    unfold computeLci
    simp only [hr]
    rw [add_comm]
    rfl

/-- the same for `FlatBackground`, which iterates on the foreground too -/
theorem C08_flat_lci (Af : Matrix M M ℚ) (Ad : Matrix N M ℚ) (Bf : Matrix E M ℚ) (A : Matrix N N ℚ)
    (B : Matrix E N ℚ) (index : M) (thr : ℚ) (count : ℕ)
    (h1 : (flatLci Af Ad Bf A B index thr count).2.1 = .exact)
    (h2 : (flatLci Af Ad Bf A B index thr count).2.2 = .exact) :
    ∃ z : M ⊕ N → ℚ, z = Pi.single (Sum.inl index) 1 + full Af Ad A *ᵥ z ∧
      (flatLci Af Ad Bf A B index thr count).1 = (Matrix.fromCols Bf B) *ᵥ z := by
  have hx1 := C08_exact Af (Pi.single index 1) thr count h1
  have hx2 := C08_exact A (Ad *ᵥ (iterate Af (Pi.single index 1) thr count).1) thr count h2
  unfold flatLci
  simp only
  generalize hr1 : iterate Af (Pi.single index 1) thr count = t at *
  generalize hr2 : iterate A (Ad *ᵥ t.1) thr count = r at *
  refine ⟨Sum.elim t.1 r.1, ?_, ?_⟩
  · rw [full, Matrix.fromBlocks_mulVec]
    funext i
    cases i with
    | inl i =>
      have := congrFun hx1 i
      simp only [Pi.add_apply] at this
      simp only [Sum.elim_inl, Pi.add_apply, Matrix.zero_mulVec, Pi.zero_apply, add_zero,
        Sum.elim_comp_inl]
      rw [this]
      simp [Pi.single_apply]
    | inr i =>
      have := congrFun hx2 i
      simp only [Pi.add_apply] at this
      simp only [Sum.elim_inr, Pi.add_apply, Sum.elim_comp_inl, Sum.elim_comp_inr]
      rw [this]
      simp [Pi.single_apply]
  · rw [Matrix.fromCols_mulVec, add_comm]
    rfl

/-- one foreground process using 2 units of a background process that uses 0 of itself, plus emissions -/
example : flatLci (0 : Matrix (Fin 1) (Fin 1) ℚ) (!![2] : Matrix (Fin 1) (Fin 1) ℚ)
    (!![3] : Matrix (Fin 1) (Fin 1) ℚ) (0 : Matrix (Fin 1) (Fin 1) ℚ) (!![5] : Matrix (Fin 1) (Fin 1) ℚ)
    0 (1 / 100) 10 = (![13], .exact, .exact) := by decide +kernel

example : computeLci (!![2] : Matrix (Fin 1) (Fin 1) ℚ)
    (!![3] : Matrix (Fin 1) (Fin 1) ℚ) (0 : Matrix (Fin 1) (Fin 1) ℚ) (!![5] : Matrix (Fin 1) (Fin 1) ℚ)
    (1 : Matrix (Fin 1) (Fin 1) ℚ) 0 (1 / 100) 10 = (![13], .exact) := by decide +kernel

/-! ### C50 -/

/-- C50: `split_af` splits the matrix into two that add up to it. -/
theorem C50_split (Af : Matrix M M ℚ) (inds : M → Bool) :
    (splitAf Af inds).1 + (splitAf Af inds).2 = Af := by
  ext r c
  rw [Matrix.add_apply]
  simp only [splitAf]
  split <;> simp

/-- C50: flattening changes neither the background demand nor the emissions of any foreground product flow:
with `x` the activity levels of the original foreground for demand `y`, the flattened foreground has
activity levels `x'` for `y` with the same `Ad x` and `Bf x`.  `S` is what `inv` returns. -/
theorem C50_flatten (Af : Matrix M M ℚ) (Ad : Matrix N M ℚ) (Bf : Matrix E M ℚ) (inds : M → Bool)
    (S : Matrix M M ℚ) (hS : (1 - (splitAf Af inds).2) * S = 1) (x y : M → ℚ) (hx : x = y + Af *ᵥ x) :
    ∃ x', x' = y + (flatten Af Ad Bf inds S).1 *ᵥ x' ∧
      (flatten Af Ad Bf inds S).2.1 *ᵥ x' = Ad *ᵥ x ∧
      (flatten Af Ad Bf inds S).2.2 *ᵥ x' = Bf *ᵥ x := by
  have hS' : S * (1 - (splitAf Af inds).2) = 1 := mul_eq_one_comm.mp hS
  have hSx : S *ᵥ ((1 - (splitAf Af inds).2) *ᵥ x) = x := by
    rw [Matrix.mulVec_mulVec, hS', Matrix.one_mulVec]
  refine ⟨(1 - (splitAf Af inds).2) *ᵥ x, ?_, ?_, ?_⟩
  · unfold flatten
    simp only
    rw [← Matrix.mulVec_mulVec, hSx, Matrix.sub_mulVec, Matrix.one_mulVec]
    have h := C50_split Af inds
    have h2 : Af *ᵥ x = (splitAf Af inds).1 *ᵥ x + (splitAf Af inds).2 *ᵥ x := by
      rw [← Matrix.add_mulVec, h]
    rw [h2] at hx
    rw [sub_eq_iff_eq_add, add_assoc]
    exact hx
  · unfold flatten
    simp only
    rw [← Matrix.mulVec_mulVec, hSx]
  · unfold flatten
    simp only
    rw [← Matrix.mulVec_mulVec, hSx]

/-- C50: the flattened foreground has no entries inside the flattened components' block before scaling: the
block moved into the inverse is exactly the entries with both indices in it. -/
theorem C50_split_block (Af : Matrix M M ℚ) (inds : M → Bool) (r c : M) :
    ((splitAf Af inds).1 r c = if inds r = true ∧ inds c = true then 0 else Af r c) ∧
    ((splitAf Af inds).2 r c = if inds r = true ∧ inds c = true then Af r c else 0) := by
  simp only [splitAf, Bool.and_eq_true, and_self]

/-- 0 needs 1, 1 and 2 need each other -/
example : ∃ (S : Matrix (Fin 3) (Fin 3) ℚ) (x : Fin 3 → ℚ),
    (1 - (splitAf !![0, 0, 0; 2, 0, 1 / 2; 0, 1, 0] (fun i => decide (i ≠ 0))).2) * S = 1 ∧
    x = ![1, 0, 0] + !![0, 0, 0; 2, 0, 1 / 2; 0, 1, 0] *ᵥ x := by
  refine ⟨!![1, 0, 0; 0, 2, 1; 0, 2, 2], ![1, 4, 4], ?_, ?_⟩ <;> decide +kernel

end Lci
