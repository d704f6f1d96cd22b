import Verif.Model.SynList

/-!
Model of the quantities of a Qdb: `_get_q_ind`, `_add_or_merge_quantity`, `_get_canonical`, `add_synonyms`
(`lcatools/qdb/qdb.py`), over the synonym list of Model/SynList, here with its list of entities.

Simplifications:
* a quantity is its uuid, link, name with unit, synonyms, and whether it is an LCIA method;
* adding the quantity to the archive, saving, and the synonyms written into the entity are left out.
-/

namespace Qdq

open Syn (Lex State)

/-- a quantity: the terms of `_q_terms`, qdb.py:526-542 -/
structure Qty (T : Type) where
  uuid : T
  link : T
  qname : T
  syns : List T := []
  method : Bool := false
  deriving DecidableEq

/-- `_q_terms`, qdb.py:526-542 -/
def Qty.terms {T : Type} (q : Qty T) : List T := q.uuid :: q.link :: q.qname :: q.syns

/-- the synonym list and `_entity`, synlist.py:59-74 -/
structure St (T : Type) where
  syn : State T := {}
  ents : Dict ℕ (Qty T) := []

variable {T : Type} [DecidableEq T]

/-- `self._q.add_set(…)` -/
def addSet (L : Lex T) (o : PyOrd T) (it : List T) (merge : Bool) (s : State T) : Except Syn.Err (Option ℕ × State T) :=
  match Syn.addSet L o (Syn.mergeSet (Syn.newTerm L)) it merge s with
  | .ok r s' => .ok (r, s')
  | .err e _ => .error e

/-- the entity is set if there is none, qdb.py:230-235 -/
def settle (q : Qty T) (i : ℕ) (s : St T) : St T := if s.ents.has i then s else { s with ents := s.ents.set i q }

/-- `_add_or_merge_quantity`, qdb.py:216-236, which is `_get_q_ind` of a quantity, qdb.py:256 -/
def register (L : Lex T) (o : PyOrd T) (q : Qty T) (s : St T) : Except Syn.Err (ℕ × St T) :=
  match addSet L o q.terms (!q.method) s.syn with
  | .error e => .error e
  | .ok (some i, syn) => .ok (i, settle q i { s with syn := syn })
  | .ok (none, syn) =>
    match Syn.getIndex L syn q.uuid with
    | none => .error .keyError
    | some i => .ok (i, settle q i { s with syn := syn })

/-- `_get_canonical` of a term, qdb.py:270-276; `none`: QuantityNotKnown -/
def canonical (L : Lex T) (s : St T) (t : T) : Option (Qty T) :=
  match Syn.getIndex L s.syn t with
  | none => none
  | some i => s.ents.get? i

/-- the part of `add_synonyms` for quantities, qdb.py:544-564 -/
def addSynonyms (L : Lex T) (o : PyOrd T) (main : T) (terms : List T) (s : St T) : Except Syn.Err (St T) :=
  match Syn.getIndex L s.syn main with
  | none => .error .keyError
  | some _ => match addSet L o (main :: terms) true s.syn with
    | .error e => .error e
    | .ok (_, syn) => .ok { s with syn := syn }

/-- quantities are registered one after the other -/
def registerAll (L : Lex T) (o : PyOrd T) : List (Qty T) → St T → Except Syn.Err (List ℕ × St T)
  | [], s => .ok ([], s)
  | q :: l, s => match register L o q s with
    | .error e => .error e
    | .ok (i, s) => match registerAll L o l s with
      | .error e => .error e
      | .ok (is, s) => .ok (i :: is, s)

end Qdq
