import Mathlib.Data.Nat.Notation

/-!
Model of `lcatools/entities/lower_dict.py` (class LowerDict).

Strings are elements of a type `K` with a lower-casing function. The dict is the list of its (key, value)
pairs in insertion order. A `Key` hashes and compares by its lower-cased text (lower_dict.py:28-36).
Not modelled: hash collisions; `update`, `setdefault`, `del` and the positional constructor arguments, which
are inherited from dict and bypass `Key`.
-/

namespace LDict
variable {K V : Type} [DecidableEq K]

abbrev St (K V : Type) := List (K × V)

/-- `__setitem__`, lower_dict.py:48-50: an equal key keeps its place and its spelling. -/
def set (lower : K → K) (d : St K V) (k : K) (v : V) : St K V :=
  match d with
  | [] => [(k, v)]
  | (k', v') :: r => if lower k' = lower k then (k', v) :: r else (k', v') :: set lower r k v

/-- `__getitem__`, lower_dict.py:52-54. `none`: KeyError. -/
def getItem (lower : K → K) (d : St K V) (k : K) : Option V :=
  (d.find? fun p => decide (lower p.1 = lower k)).map (·.2)

/-- `__contains__`, lower_dict.py:44-46 -/
def contains (lower : K → K) (d : St K V) (k : K) : Bool := d.any fun p => decide (lower p.1 = lower k)

/-- `pop`, lower_dict.py:56-58: the value or the default (None). -/
def pop (lower : K → K) (d : St K V) (k : K) : Option V × St K V :=
  (getItem lower d k, d.eraseP fun p => decide (lower p.1 = lower k))

/-- `keys`, lower_dict.py:64-65: the stored spellings; `{str(k): 0 ..}` drops repetitions, later entries
overwriting earlier ones of the same spelling without changing the order. -/
def keys (d : St K V) : List K := (d.map (·.1)).foldl (fun l k => if k ∈ l then l else l ++ [k]) []

/-- `get`, inherited from dict: the argument is a plain string, hashed as it is written, and so found only
if its text is the lower-cased text of the stored key. -/
def get (lower : K → K) (d : St K V) (k : K) : Option V := (d.find? fun p => decide (lower p.1 = k)).map (·.2)

inductive Op (K V : Type)
  | set (k : K) (v : V)
  | pop (k : K)
  | look (k : K)

/-- one call -/
def step (lower : K → K) (d : St K V) : Op K V → St K V
  | .set k v => set lower d k v
  | .pop k => (pop lower d k).2
  | .look _ => d

end LDict
