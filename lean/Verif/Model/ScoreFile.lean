import Mathlib.Algebra.Order.Field.Rat
import Verif.Base.Dict

/-!
Model of the unit scores of a termination on file: `FlowTermination._serialize_score_cache`, `_deserialize_score_cache`,
`add_lcia_score` (lcatools/terminations.py), over the container `LciaResults` (lcatools/lcia_results.py).

Simplifications: of a result, its quantity and its components (each a product of a weight and a score) are kept; the scale of results in
a cache is 1 (lcia_results.py:804, 824). Of a quantity its origin, its reference and its uuid. `cat` is `catalog_ref` of the
foreground for quantities; none: it raises. Numbers are rationals.
-/

namespace Scf

abbrev Txt := List Char

structure Qty where
  origin : Txt
  ref : Txt
  uuid : Txt
  deriving DecidableEq, Repr

/-- an LciaResult -/
structure Res where
  q : Qty
  parts : List (ℚ × ℚ)
  deriving DecidableEq, Repr

/-- `total`, lcia_results.py:606-607, with `cumulative_result`, 189-191 -/
def Res.total (r : Res) : ℚ := (r.parts.map fun p => p.1 * p.2).sum

/-- LciaResults: the dict, and the keys in sequence, lcia_results.py:801-805 -/
structure Cache where
  ents : Dict Txt Res := []
  idx : List Txt := []
  deriving DecidableEq, Repr

/-- `__setitem__`, lcia_results.py:822-827 -/
def Cache.set (k : Txt) (r : Res) (c : Cache) : Cache :=
  ⟨c.ents.set k r, if k ∈ c.idx then c.idx else c.idx ++ [k]⟩

/-- `__getitem__` of a text, lcia_results.py:816-820: the first key that begins with it; none: `LciaResult(None)` -/
def Cache.get (k : Txt) (c : Cache) : Option Res := (c.ents.find? fun p => k.isPrefixOf p.1).map Prod.snd

/-- `clear`, lcia_results.py:899-901 -/
def Cache.clear (_ : Cache) : Cache := {}

/-- one entry of the file -/
structure Rec where
  origin : Txt
  ref : Txt
  score : ℚ
  deriving DecidableEq, Repr

/-- `_serialize_score_cache`, terminations.py:475-487. none: AttributeError, the quantity of `LciaResult(None)` is None -/
def save (c : Cache) : Option (List Rec) :=
  c.idx.mapM fun k => (c.get k).map fun r => ⟨r.q.origin, r.q.ref, r.total⟩

/-- the score part of `serialize`, terminations.py:519-520: `none` if it raises, `some none` if there is no scoreCache in the file -/
def saveTerm (bg saveScores : Bool) (c : Cache) : Option (Option (List Rec)) :=
  if bg && saveScores && !c.ents.isEmpty then (save c).map some else some none

/-- `add_lcia_score`, terminations.py:489-492; `add`, lcia_results.py:829-832 -/
def addScore (q : Qty) (score : ℚ) (c : Cache) : Cache := c.set q.uuid ⟨q, [(1, score)]⟩

/-- `_deserialize_score_cache`, terminations.py:494-498 -/
def load (cat : Txt → Txt → Option Qty) : List Rec → Cache → Option Cache
  | [], c => some c
  | i :: is, c =>
    match cat i.origin i.ref with
    | none => none
    | some q => load cat is (addScore q i.score c)

/-- `from_json`, terminations.py:98-99, with `_deserialize_score_cache`, 494-495 -/
def loadTerm (cat : Txt → Txt → Option Qty) (j : Option (List Rec)) : Option Cache :=
  match j with
  | none => some {}
  | some l => load cat l {}

end Scf
