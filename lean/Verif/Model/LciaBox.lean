import Verif.Base.Dict
import Mathlib.Data.Rat.Defs
import Mathlib.Data.Int.Notation

/-!
Model of the container `LciaResults`, lcatools/lcia_results.py:792-905 (without `apply_weighting`, see Model/Lcia).

Simplifications:
* results are numbers (identities); of a result only its scale is kept, in a table shared by all containers. `LciaResult(None)`, which is returned for a text that is
  the beginning of no key, is `none`;
* keys are texts, asked for by a text or by an integer. A text of digits fails as an index with TypeError and is looked up as a text.
-/

namespace Lbx

abbrev Txt := List Char

inductive Err
  | key | index
  deriving DecidableEq, Repr

structure Box where
  ents : Dict Txt ℕ
  idx : List Txt
  scale : ℚ
  scales : ℕ → ℚ         -- the scales of the results

/-- `__init__` without entries, lcia_results.py:801-805 -/
def new (scales : ℕ → ℚ) : Box := ⟨[], [], 1, scales⟩

def setScale (r : ℕ) (f : ℚ) (scales : ℕ → ℚ) : ℕ → ℚ := fun n => if n = r then f else scales n

/-- `__setitem__`, lcia_results.py:822-827, and `add`, 826-829 -/
def set (k : Txt) (r : ℕ) (b : Box) : Box :=
  ⟨b.ents.set k r, if k ∈ b.idx then b.idx else b.idx ++ [k], b.scale, setScale r b.scale b.scales⟩

/-- `__getitem__` of a text, lcia_results.py:811-817: the first key that begins with it -/
def getText (s : Txt) (b : Box) : Option ℕ := (b.ents.find? fun p => s.isPrefixOf p.1).map Prod.snd

/-- `__getitem__` of an integer, lcia_results.py:809-810 -/
def getNum (n : ℤ) (b : Box) : Except Err ℕ :=
  let i := if n < 0 then n + b.idx.length else n
  if i < 0 then .error .index
  else
    match b.idx[i.toNat]? with
    | none => .error .index
    | some k => match b.ents.get? k with
      | none => .error .key
      | some r => .ok r

/-- `to_list`, lcia_results.py:838-839 -/
def toList (b : Box) : List (Option ℕ) := b.idx.map fun k => getText k b

/-- the loop of `scale`: a key that is the beginning of no key changes nothing that is kept -/
def scaleAll (f : ℚ) : List Txt → Box → Box
  | [], b => b
  | k :: ks, b =>
    match getText k b with
    | none => scaleAll f ks b
    | some r => scaleAll f ks { b with scales := setScale r f b.scales }

/-- `scale`, lcia_results.py:841-846 -/
def scale (f : ℚ) (b : Box) : Box := if f = b.scale then b else scaleAll f b.idx { b with scale := f }

/-- `clear`, lcia_results.py:899-901 -/
def clear (b : Box) : Box := { b with ents := [], idx := [] }

/-- `update`, lcia_results.py:903-905: entries are stored by dict's method -/
def update (l : List (Txt × ℕ)) (b : Box) : Box :=
  let e := l.foldl (fun d p => d.set p.1 p.2) b.ents
  { b with ents := e, idx := e.keys }

/-- `del results[k]`, dict's method; none: KeyError -/
def delete (k : Txt) (b : Box) : Option Box := if b.ents.has k then some { b with ents := b.ents.del k } else none

end Lbx
