import Verif.Model.Process

/-!
Model of the ILCD provider, `antelope_catalog/providers/ilcd/ilcd.py`: loading processes, flows, flow properties and unit groups.

Simplifications:
* a data set is what is read from it; names, comments (apart from whether there is one), categories, locations and times are left out; directions are
  Input or Output;
* identifiers are texts that match the regular expression for UUIDs; `canon u` is `str(uuid.UUID(u))`. The archive has no upstream; it looks an identifier
  up as it is written (`to_uuid`, see Model/Uid) and stores entities under their canonical UUID;
* the UUIDs of processes, flows and flow properties differ; a reference to a flow leads to a flow, one to a flow property to a flow property;
* of a characterization only its value is kept.
-/

namespace Ilcd
open Proc (Dir Key)

/-- what reading a file gives: KeyError (zip) or FileNotFoundError (directory) if there is none, XMLSyntaxError or HTTPError, or the data set -/
inductive Read (D : Type)
  | missing | noFile | badXml | doc (d : D)

inductive Err
  | key | fileNotFound | badXml | index | value | zeroDivision | attribute | proc (e : Proc.Err)
  deriving DecidableEq, Repr

/-- a unit: `dataSetInternalID`, name, meanValue -/
structure UnitEl where
  id : ℕ
  name : String
  mean : ℚ
  deriving DecidableEq

structure UnitDoc where
  refUnit : ℕ                        -- referenceToReferenceUnit
  units : List UnitEl
  deriving DecidableEq

structure QtyDoc (U : Type) where
  uuid : U
  ug : U
  deriving DecidableEq

/-- a flow property of a flow: `dataSetInternalID`, meanValue, identifier and uri -/
structure PropEl (U P : Type) where
  id : ℕ
  mean : ℚ
  uid : U
  uri : P
  deriving DecidableEq

structure FlowDoc (U P : Type) where
  uuid : U
  refProp : ℕ
  props : List (PropEl U P)
  deriving DecidableEq

/-- an exchange of a process -/
structure ExEl (U P : Type) where
  id : ℕ
  uid : U
  uri : P
  dir : Dir
  value : Option ℚ                   -- resultingAmount; none if there is no number
  comment : Bool
  deriving DecidableEq

structure ProcDoc (U P : Type) where
  uuid : U
  refFlow : Option ℕ                 -- referenceToReferenceFlow
  exchs : List (ExEl U P)
  deriving DecidableEq

/-- what is given: the files, and the usual form of UUIDs -/
structure Env (U P : Type) where
  canon : U → U
  unitFile : U → Read UnitDoc
  qtyFile : P → Read (QtyDoc U)
  flowFile : P → Read (FlowDoc U P)

structure Qty where
  unit : String
  conv : Dict String ℚ
  deriving DecidableEq

structure Flow (U : Type) where
  ref : Option U
  cfs : Dict U ℚ
  deriving DecidableEq

/-- the archive -/
structure Ar (U Q T : Type) where
  qtys : Dict U Qty
  flows : Dict U (Flow U)
  procs : Dict U (Proc.State U Q T)

variable {U P Q T : Type} [DecidableEq U] [DecidableEq P] [DecidableEq T]

/-- the conversion table, ilcd.py:306-308 -/
def unitConv : List UnitEl → Dict String ℚ → Except Err (Dict String ℚ)
  | [], t => .ok t
  | u :: us, t => if u.mean = 0 then .error .zeroDivision else unitConv us (t.set u.name (1 / u.mean))

/-- `_create_unit`, ilcd.py:281-306: the unit group `u` -/
def createUnit (env : Env U P) (u : U) : Except Err Qty :=
  match env.unitFile u with
  | .missing => .error .key
  | .noFile => .error .fileNotFound
  | .badXml => .error .badXml
  | .doc d =>
    match d.units[d.refUnit]? with
    | none => .error .index
    | some r =>
      match unitConv d.units [] with
      | .error e => .error e
      | .ok t => .ok ⟨r.name, t⟩

/-- `_create_quantity`, ilcd.py:308-337, with `_fetch`, 478-510: the UUID of the flow property -/
def fetchQty (env : Env U P) (uri : P) (a : Ar U Q T) : Out (Ar U Q T) Err U :=
  match env.qtyFile uri with
  | .missing => .err .key a
  | .noFile => .err .fileNotFound a
  | .badXml => .err .badXml a
  | .doc d =>
    if a.qtys.has d.uuid then .ok d.uuid a
    else
      match createUnit env d.ug with
      | .error e => .err e a
      | .ok q => if a.qtys.has (env.canon d.uuid) then .err .key a else .ok (env.canon d.uuid) { a with qtys := a.qtys.set (env.canon d.uuid) q }

/-- `_check_or_retrieve_child`, ilcd.py:226-230, of a flow property -/
def childQty (env : Env U P) (uid : U) (uri : P) (a : Ar U Q T) : Out (Ar U Q T) Err U :=
  if a.qtys.has uid then .ok uid a else fetchQty env uri a

/-- `add_characterization`, flows.py:162-205, ilcd.py:397-401: a second value for a quantity is dropped -/
def addCf (q : U) (isRef : Bool) (val : ℚ) (f : Flow U) : Except Err (Flow U) :=
  if isRef && decide (val ≠ 1) then .error .value
  else .ok ⟨if isRef then some q else f.ref, if f.cfs.has q then f.cfs else f.cfs.set q val⟩

/-- the loop over flow properties, ilcd.py:379-401 -/
def flowProps (env : Env U P) (ref : ℕ) : List (PropEl U P) → Flow U → Ar U Q T → Out (Ar U Q T) Err (Flow U)
  | [], f, a => .ok f a
  | p :: ps, f, a =>
    match childQty env p.uid p.uri a with
    | .err .key a => flowProps env ref ps f a
    | .err .badXml a => flowProps env ref ps f a
    | .err e a => .err e a
    | .ok q a =>
      match addCf q (decide (p.id = ref)) p.mean f with
      | .error e => .err e a
      | .ok f => flowProps env ref ps f a

/-- `_create_flow`, ilcd.py:345-399: the UUID of the flow -/
def createFlow (env : Env U P) (d : FlowDoc U P) (a : Ar U Q T) : Out (Ar U Q T) Err U :=
  if a.flows.has d.uuid then .ok d.uuid a
  else
    match flowProps env d.refProp d.props ⟨none, []⟩ a with
    | .err e a => .err e a
    | .ok f a =>
      if a.flows.has (env.canon d.uuid) then .err .key a
      else .ok (env.canon d.uuid) { a with flows := a.flows.set (env.canon d.uuid) f }

/-- `_fetch` of a flow, ilcd.py:475-507: a KeyError of `_create_flow` is printed, and None returned -/
def fetchFlow (env : Env U P) (uri : P) (a : Ar U Q T) : Out (Ar U Q T) Err (Option U) :=
  match env.flowFile uri with
  | .missing => .err .key a
  | .noFile => .err .fileNotFound a
  | .badXml => .err .badXml a
  | .doc d =>
    match createFlow env d a with
    | .err .key a => .ok none a
    | .err e a => .err e a
    | .ok u a => .ok (some u) a

/-- `_check_or_retrieve_child`, ilcd.py:226-230, of a flow -/
def childFlow (env : Env U P) (uid : U) (uri : P) (a : Ar U Q T) : Out (Ar U Q T) Err (Option U) :=
  if a.flows.has uid then .ok (some uid) a else fetchFlow env uri a

/-- an exchange as it is read: the flow (None if it could not be made), direction, amount, whether there is a comment -/
structure X (U : Type) where
  flow : Option U
  dir : Dir
  value : Option ℚ
  comment : Bool
  deriving DecidableEq

/-- the loop over the exchanges, ilcd.py:449-461. A flow whose file is missing in a zip archive, or unreadable, is replaced by a dummy -/
def readExs (env : Env U P) : List (ExEl U P) → Ar U Q T → Out (Ar U Q T) Err (List (X U))
  | [], a => .ok [] a
  | x :: xs, a =>
    let dummy (a : Ar U Q T) : Out (Ar U Q T) Err (Option U) :=
      if a.flows.has (env.canon x.uid) then .err .key a
      else .ok (some (env.canon x.uid)) { a with flows := a.flows.set (env.canon x.uid) ⟨none, []⟩ }
    let r := match childFlow env x.uid x.uri a with
      | .err .key a => dummy a
      | .err .badXml a => dummy a
      | r => r
    match r with
    | .err e a => .err e a
    | .ok f a =>
      match readExs env xs a with
      | .err e a => .err e a
      | .ok l a => .ok (⟨f, x.dir, x.value, x.comment⟩ :: l) a

/-- `get_reference_flow`, ilcd.py:87-95: identifier and direction -/
def refFlow (d : ProcDoc U P) : Except Err (Option (U × Dir)) :=
  match d.refFlow with
  | none => .ok none
  | some n =>
    match d.exchs.find? fun x => decide (x.id = n) with
    | none => .error .index
    | some x => .ok (some (x.uid, x.dir))

/-- the loop over what was read, ilcd.py:465-471. `flow.external_ref` of None raises AttributeError, as does setting the comment of the None that
`add_exchange` returns for a repeated exchange without amount or of amount zero -/
def addXs (rf : Option (U × Dir)) : List (X U) → Proc.State U Q T → Out (Proc.State U Q T) Err Unit
  | [], p => .ok () p
  | x :: xs, p =>
    match x.flow with
    | none => .err .attribute p
    | some f =>
      match Proc.addExchange id f x.dir none x.value none true p with
      | .err e p => .err (.proc e) p
      | .ok _ p' =>
        if (p.exchs.has ⟨f, x.dir, none⟩ && (decide (x.value = none) || decide (x.value = some 0))) && x.comment then .err .attribute p'
        else if rf = some (f, x.dir) then
          match Proc.addReference (fun _ _ => none) f x.dir p' with
          | .err e p => .err (.proc e) p
          | .ok _ p => addXs rf xs p
        else addXs rf xs p'

/-- `_create_process`, ilcd.py:433-473, with `_create_process_entity`, 406-431: the UUID of the process, which is stored before it has exchanges -/
def createProcess (env : Env U P) (d : ProcDoc U P) (a : Ar U Q T) : Out (Ar U Q T) Err U :=
  match refFlow d with
  | .error e => .err e a
  | .ok rf =>
    match readExs env d.exchs a with
    | .err e a => .err e a
    | .ok xs a =>
      let fill (u : U) (p : Proc.State U Q T) : Out (Ar U Q T) Err U :=
        match addXs rf xs p with
        | .err e p => .err e { a with procs := a.procs.set u p }
        | .ok _ p => .ok u { a with procs := a.procs.set u p }
      match a.procs.get? d.uuid with
      | some p => fill d.uuid p
      | none => if a.procs.has (env.canon d.uuid) then .err .key a else fill (env.canon d.uuid) {}

/-- `retrieve_or_fetch_entity`, entity_store.py:513-531, of the process with the identifier `u`, whose file is `d` -/
def retrieve (env : Env U P) (u : U) (d : ProcDoc U P) (a : Ar U Q T) : Out (Ar U Q T) Err U :=
  if a.procs.has u then .ok u a else createProcess env d a

end Ilcd
