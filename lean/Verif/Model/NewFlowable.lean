import Verif.Model.Flowables

/-!
Model of the way a Qdb takes in the flowables of new flows, `lcatools/qdb/qdb.py`: `add_new_flowable`, `add_flowable_from_flow`
and `find_flowables`. The list of flowables is the model `Flw` of synlist/flowables.py.

Simplifications: as in Model/SynList and Model/Flowables; printing is left out. A set is met twice in one call (`unmatched`, then the
set `add_set` makes of it); both times the order of iteration is the same parameter.
-/

namespace NewF
open Syn Flw

/-- the terms `find_indices` puts under None, synlist.py:154-167, in the order the set is met in -/
def unmatchedOf (L : Lex Str) (o : PyOrd Str) (terms : List Str) (s : State Str) : List Str :=
  o.f (PySet.ofList (terms.filter fun t => (getIndex L s t).isNone))

/-- `sorted(k.keys())[-1]`, qdb.py:407, 413: the highest of the indices found -/
def highest (L : Lex Str) (terms : List Str) (s : State Str) : ℕ :=
  (terms.filterMap (getIndex L s)).foldl max 0

/-- `add_new_flowable`, qdb.py:395-416. `self._f.add_synonyms(ind, *unmatched)` (synlist.py:261-262) is `add_set` of a number and of
terms that are not known; `find_indices` of these is the number, and the terms under None, so the terms are merged with the number
(synlist.py:216-219). -/
def addNew (L : Lex Str) (o : PyOrd Str) (terms : List Str) (s : State Str) : Out (State Str) Err (Option ℕ) :=
  match addSet L o (mergeSetF L) terms true s with
  | .err .conflictingCas s' => addSet L o (mergeSetF L) terms false s'
  | .err .inconsistent s' =>
    let unmatched := unmatchedOf L o terms s'
    if unmatched.isEmpty then .ok none s'
    else
      let ind := highest L terms s'
      (mergeSetF L (o.f (PySet.ofList unmatched)) ind s').bind fun _ s2 => .ok (some ind) s2
  | r => r

/-- `_flow_terms`, qdb.py:519-523: the link, the name and, if it has at least five characters, the CAS number of a flow -/
def flowTerms (link name : Str) (cas : Option Str) : List Str :=
  match cas with
  | none => [link, name]
  | some c => if c.length < 5 then [link, name] else [link, name, c]

/-- `find_flowables`, qdb.py:418-419, 485-495: the flowables a list of terms leads to (as a set) -/
def findFlowables (L : Lex Str) (terms : List Str) (s : State Str) : List ℕ := PySet.ofList (terms.filterMap (getIndex L s))

end NewF
