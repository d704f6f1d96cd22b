import Verif.Model.Flow

/-!
Model of the characterisations of a flow reference: `lcatools/entity_refs/flow_ref.py` (class FlowRef).

Simplifications: those of Model/Flow; one flow reference; the database behind the query is the flow itself (its answer to `cf` is
`LcFlow.cf`, implementations/quantity.py:140-149), or none of its resources has the quantity interface; the quantity is given as an
object; a factor asked for the location 'quantity' or 'flow' (which gives an entity) is not stored.
-/

namespace FlowRef
open Flo (Loc Err Val Arg)
variable {Q : Type} [DecidableEq Q]

/-- `_characterizations` and `_cfs_fetched`, flow_ref.py:21-22 -/
structure State (Q : Type) where
  chars : Dict Q Flo.Char := []
  fetched : Bool := false
  deriving DecidableEq

/-- `add_characterization`, flow_ref.py:57-72 -/
def add (q : Q) (value : Arg) (location : Option Loc) (st : State Q) : Out (State Q) Err Unit :=
  match st.chars.get? q, value with
  | some _, .none => .ok () st
  | none, .none => .ok () { st with chars := st.chars.set q [] }
  | c, .dict d => .ok () { st with chars := st.chars.set q (Flo.Char.update (c.getD []) d) }
  | c, .num v =>
    match Flo.Char.addValue (c.getD []) v location false with
    | .ok c' => .ok () { st with chars := st.chars.set q c' }
    | .error e => .err e { st with chars := st.chars.set q (c.getD []) }

/-- `FlowRef(...)` with reference quantity `q`, flow_ref.py:19-23 -/
def new (q : Q) : State Q := (add q (.num 1) none { chars := [] }).state

/-- `cf`, flow_ref.py:98-110. `db`: the flow the query finds; none: QuantityRequired -/
def cf (db : Option (Flo.State Q)) (q : Q) (locale : Loc) (st : State Q) : Out (State Q) Err Val :=
  match st.chars.get? q with
  | some c => .ok (c.getItem locale) st
  | none =>
    let val := match db with
      | some f => Flo.cf f q locale
      | none => .num 0
    match val with
    | .num v => (add q (.num v) (some locale) st).bind fun _ st => .ok val st
    | .none => (add q .none (some locale) st).bind fun _ st => .ok val st
    | .entity => .ok val st

/-- the loop of `profile`, flow_ref.py:133-141 -/
def fetch : List (Q × Flo.Char) → State Q → Out (State Q) Err (List (Q × Flo.Char))
  | [], st => .ok [] st
  | (q, c) :: l, st =>
    if st.chars.has q then fetch l st
    else (add q (.dict c) none st).bind fun _ st => (fetch l st).bind fun out st => .ok ((q, c) :: out) st

/-- `profile`, flow_ref.py:117-145: the characterisations, known ones first -/
def profile (db : Option (Flo.State Q)) (st : State Q) : Out (State Q) Err (List (Q × Flo.Char)) :=
  if st.fetched then .ok st.chars st
  else
    match db with
    | none => .ok st.chars st
    | some f => (fetch f.chars st).bind fun out st' => .ok (st.chars ++ out) { st' with fetched := true }

/-! ### calls as data -/

inductive Op (Q : Type)
  | cf (q : Q) (locale : Loc)
  | profile

/-- the state after a call -/
def step (db : Option (Flo.State Q)) (op : Op Q) (st : State Q) : State Q :=
  match op with
  | .cf q l => (cf db q l st).state
  | .profile => (profile db st).state

/-- the state after calls, in order -/
def run (db : Option (Flo.State Q)) (ops : List (Op Q)) (st : State Q) : State Q := ops.foldl (fun st op => step db op st) st

end FlowRef
