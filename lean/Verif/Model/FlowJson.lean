import Verif.Model.Flow

/-!
Model of writing the characterisations of a flow to JSON and reading them again: `serialize` of `lcatools/characterizations.py`
and `lcatools/entities/flows.py`, `_flow_from_json` of `lcatools/archives/basic_archive.py`.

Simplifications: those of Model/Flow; a quantity is its uuid, and equality of quantities (`==`) is identity of uuids; the other
properties of the flow are in Model/EntityJson.
-/

namespace Flo
variable {Q : Type} [DecidableEq Q]

/-- a characterisation in JSON; `Arg.none` is a missing 'value' -/
structure JC (Q : Type) where
  quantity : Q
  isRef : Bool
  value : Arg
  deriving DecidableEq

/-- the property `value`, characterizations.py:64-73 -/
def Char.value (c : Char) : Arg :=
  match Dict.get? c .glo with
  | some v => .num v
  | none =>
    match c with
    | [] => .none
    | [(_, v)] => .num v
    | c => .dict c

/-- `serialize` of a characterisation, characterizations.py:155-166 -/
def serializeC (values : Bool) (ref : Option Q) (q : Q) (c : Char) : JC Q where
  quantity := q
  isRef := decide (ref = some q)
  value := if ref = some q then .none else if values then c.value else .none

/-- 'characterizations' of `serialize` of a flow, flows.py:272-282, before sorting -/
def serializeF (characterizations values : Bool) (st : State Q) : List (JC Q) :=
  (st.chars.filter fun qc => characterizations || decide (st.ref = some qc.1)).map fun qc => serializeC values st.ref qc.1 qc.2

/-- the loop of `_flow_from_json`, basic_archive.py:185-203; `has` are the quantities the archive finds -/
def loadChars (has : Q → Bool) : List (JC Q) → State Q → Out (State Q) Err Unit
  | [], st => .ok () st
  | j :: l, st =>
    if has j.quantity then (addChar j.quantity j.isRef j.value false none st).bind fun _ st => loadChars has l st
    else loadChars has l st

/-- `_flow_from_json`, basic_archive.py:184-208: the reference quantity is not given to the constructor -/
def loadFlow (has : Q → Bool) (hasComp : Bool) (l : List (JC Q)) : Out (State Q) Err Unit := loadChars has l (new none hasComp)

end Flo
