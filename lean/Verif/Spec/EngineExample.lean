import Verif.Model.Tstack
import Verif.Spec.Engine

/-!
A small inventory database used by the examples beside the engine theorems.

Product flows are `(n, n)`: flow `n` made by process `n`.
* 0 needs 2 of 1 and emits 3 of flow 9;
* 1 needs 1/2 of 2 and 1/4 of itself; 2 needs 1/5 of 1 and 1 of 3 (so 1 and 2 form a cycle);
* 3 emits 7 of flow 9.
-/

namespace Engine.Ex
open Engine

def ref (n : ℕ) : Exch ℕ ℕ := ⟨n, .output, none, true, some 1⟩
def need (n : ℕ) (v : ℚ) : Exch ℕ ℕ := ⟨n, .input, none, false, some v⟩
def emit (n : ℕ) (v : ℚ) : Exch ℕ ℕ := ⟨n, .output, none, false, some v⟩

def inv : ℕ → List (Exch ℕ ℕ)
  | 0 => [ref 0, need 1 2, emit 9 3]
  | 1 => [ref 1, need 2 (1 / 2), need 1 (1 / 4)]
  | 2 => [ref 2, need 1 (1 / 5), need 3 1]
  | 3 => [ref 3, emit 9 7]
  | _ => []

/-- one process per flow `0..3`; flow 9 is made by nobody -/
def db : DB ℕ ℕ where
  inv := fun u => inv u.2
  terms := fun f d => if f ≤ 3 ∧ d = .input then [f] else []
  refDir := fun u => if u.1 = u.2 ∧ u.1 ≤ 3 then some .output else none

def roots : List (ℕ × ℕ) := [(0, 0), (1, 1), (2, 2), (3, 3)]

def ord : SetOrd ℕ ℕ := ⟨id, id, fun _ => .refl _, fun _ => .refl _⟩

end Engine.Ex
