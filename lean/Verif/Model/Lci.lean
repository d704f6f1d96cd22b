import Mathlib.Data.Matrix.Mul
import Mathlib.Data.Matrix.Block
import Mathlib.Algebra.Field.Rat
import Mathlib.Algebra.Order.Ring.Unbundled.Rat
import Mathlib.Algebra.Order.Group.Unbundled.Abs
import Mathlib.Data.Fintype.BigOperators

/-!
Model of the LCI computation of `antelope_background/engine/background_engine.py` and
`antelope_background/background/flat_background.py`.

Simplifications: floats are rationals; a scipy sparse matrix is the matrix it denotes, a one-column sparse
matrix is a vector; printing is dropped; the solvers 'spsolve' and 'factorize' (library calls) are not modelled;
`np.linalg.inv` is any `X` with `(1 - Af) * X = 1`.
-/

namespace Lci
open Matrix

/-- why the loop of `compute_bg_lci` ended -/
inductive Stop | exact | small | count
  deriving DecidableEq, Repr

/-- `sum(abs(x).data)`, background_engine.py:361, flat_background.py:96. -/
def norm1 {N : Type} [Fintype N] (x : N → ℚ) : ℚ := ∑ i, |x i|

/-- the `while` loop of `compute_bg_lci`, background_engine.py:358-369, and of `_iterate_a_matrix`,
flat_background.py:91-103, with `count - mycount` rounds left. -/
def loop {N : Type} [Fintype N] (A : Matrix N N ℚ) (threshold : ℚ) :
    ℕ → (N → ℚ) → (N → ℚ) → ℚ → (N → ℚ) × Stop
  | 0, total, _, _ => (total, .count)
  | n + 1, total, x, sumtotal =>
    let total' := total + x
    let x' := A *ᵥ x
    let inc := norm1 x'
    if inc = 0 then (total', .exact)
    else
      let sumtotal' := sumtotal + inc
      if inc / sumtotal' < threshold then (total', .small)
      else loop A threshold n total' x' sumtotal'

/-- `_iterate_a_matrix`, flat_background.py:78-106 (solver None), and the first component of
`compute_bg_lci`, background_engine.py:341-371. -/
def iterate {N : Type} [Fintype N] (A : Matrix N N ℚ) (y : N → ℚ) (threshold : ℚ) (count : ℕ) :
    (N → ℚ) × Stop :=
  loop A threshold count 0 y 0

/-- `compute_lci` of a foreground product flow, background_engine.py:331-339, for a given inverse `X` of
`1 - Af`; column 0 is the product flow itself (`make_foreground` puts it first). -/
def computeLci {N M E : Type} [Fintype N] [Fintype M] (Ad : Matrix N M ℚ) (Bf : Matrix E M ℚ)
    (A : Matrix N N ℚ) (B : Matrix E N ℚ) (X : Matrix M M ℚ) (zero : M) (threshold : ℚ) (count : ℕ) :
    (E → ℚ) × Stop :=
  let xt := fun i => X i zero
  let r := iterate A (Ad *ᵥ xt) threshold count
  (B *ᵥ r.1 + Bf *ᵥ xt, r.2)

/-- `FlatBackground._compute_lci` of a foreground product flow with a complete background,
flat_background.py:485-495, 440-442. -/
def flatLci {N M E : Type} [Fintype N] [Fintype M] [DecidableEq M] (Af : Matrix M M ℚ)
    (Ad : Matrix N M ℚ) (Bf : Matrix E M ℚ)
    (A : Matrix N N ℚ) (B : Matrix E N ℚ) (index : M) (threshold : ℚ) (count : ℕ) :
    (E → ℚ) × Stop × Stop :=
  let xt := iterate Af (Pi.single index 1) threshold count
  let r := iterate A (Ad *ᵥ xt.1) threshold count
  (B *ᵥ r.1 + Bf *ᵥ xt.1, xt.2, r.2)

/-- `split_af`, flat_background.py:113-137: the entries with both indices in `inds` go to the second matrix. -/
def splitAf {M : Type} (Af : Matrix M M ℚ) (inds : M → Bool) : Matrix M M ℚ × Matrix M M ℚ :=
  (fun r c => if inds r && inds c then 0 else Af r c,
   fun r c => if inds r && inds c then Af r c else 0)

/-- `flatten`, flat_background.py:150-166, for a given inverse `S` of `1 - scc`. -/
def flatten {N M E : Type} [Fintype M] (Af : Matrix M M ℚ) (Ad : Matrix N M ℚ) (Bf : Matrix E M ℚ)
    (inds : M → Bool) (S : Matrix M M ℚ) : Matrix M M ℚ × Matrix N M ℚ × Matrix E M ℚ :=
  ((splitAf Af inds).1 * S, Ad * S, Bf * S)

end Lci
