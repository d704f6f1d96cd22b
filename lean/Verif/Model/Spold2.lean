import Verif.Model.Process

/-!
Model of the EcoSpold v2 provider, `antelope_catalog/providers/ecospold2/ecospold2.py`: loading processes from datasets.

Simplifications:
* a dataset is the list of the children of its `flowData` element with what is read from them; XML parsing, names, comments (apart from whether there
  is one), classifications and geography of processes are left out;
* the id of the activity in a dataset is the one in the name of its file; every flow id is that of a flow;
* `amount` is present; units stand for quantities (unit id and name);
* flows of the archive are kept with their unit, processes with their exchanges (`Proc.State`).
-/

namespace Spold
open Proc (Dir Key)

/-- what the tag of an element contains -/
inductive Kind | param | impact | inter | elem | other
  deriving DecidableEq, Repr

/-- `outputGroup` with its number, `inputGroup`, or neither -/
inductive Grp | output (n : ℕ) | input | none
  deriving DecidableEq, Repr

/-- a child of `flowData` -/
structure El (F U T : Type) where
  kind : Kind
  flow : F
  unit : U
  grp : Grp
  alloc : Bool := false        -- by-product classification that starts with 'allocat'
  amount : ℚ
  link : Option T := none      -- activityLinkId
  comment : Bool := false
  deriving DecidableEq

/-- EcospoldExchange, ecospold2.py:35 -/
structure X (F T : Type) where
  flow : F
  dir : Dir
  value : ℚ
  term : Option T
  isRef : Bool
  comment : Bool
  deriving DecidableEq

inductive Err
  | notFound | key | attribute | directionless | multiple | proc (e : Proc.Err)
  deriving DecidableEq, Repr

/-- the archive -/
structure Ar (P F Q U T : Type) where
  procs : Dict P (Proc.State F Q T)
  units : Dict F U

variable {P F Q U T : Type} [DecidableEq P] [DecidableEq F] [DecidableEq T]

/-- what is given: the dataset of a process and a flow, if there is a file; whether the archive is linked; factors of flows -/
structure Env (P F Q U T : Type) where
  file : P → F → Option (List (El F U T))
  linked : Bool
  cf : F → Q → Option ℚ

/-- `_create_flow`, ecospold2.py:197-231: a flow that is already there keeps its unit -/
def createFlow (e : El F U T) (units : Dict F U) : Except Err (Dict F U) :=
  match e.kind with
  | .inter => .ok (if units.has e.flow then units else units.set e.flow e.unit)
  | .elem => .ok (if units.has e.flow then units else units.set e.flow e.unit)
  | _ => .error .attribute

/-- `_grab_reference_flow`, ecospold2.py:292-304 -/
def grab (r : F) (els : List (El F U T)) (units : Dict F U) : Except Err (Dict F U) :=
  match els.find? fun e => decide (e.kind = .inter ∧ e.flow = r) with
  | none => .error .key
  | some e => createFlow e units

/-- one step of `_collect_exchanges`, ecospold2.py:322-339 -/
def collectOne (e : El F U T) : Except Err (X F T) :=
  match e.grp with
  | .output n => .ok ⟨e.flow, .output, e.amount, e.link, decide (n = 0) || (decide (n = 2) && e.alloc), e.comment⟩
  | .input => .ok ⟨e.flow, .input, e.amount, e.link, false, e.comment⟩
  | .none => .error .directionless

/-- `_collect_exchanges`, ecospold2.py:305-348. Flows are made as the elements are read -/
def collect : List (El F U T) → Dict F U → Out (Dict F U) Err (List (X F T))
  | [], units => .ok [] units
  | e :: es, units =>
    if e.kind = .param ∨ e.kind = .impact then collect es units
    else
      match createFlow e units with
      | .error err => .err err units
      | .ok units =>
        match collectOne e with
        | .error err => .err err units
        | .ok x =>
          match collect es units with
          | .ok xs units => .ok (x :: xs) units
          | .err err units => .err err units

/-- the body of the loop over the exchanges, ecospold2.py:438-470. Setting the comment of the None that `add_exchange` returns for a repeated
exchange of value zero (processes.py:562-564) raises AttributeError -/
def addX (env : Env P F Q U T) (rx : Option (Key F T)) (x : X F T) (p : Proc.State F Q T) : Out (Proc.State F Q T) Err Unit :=
  if x.value = 0 ∧ env.linked = true then .ok () p
  else
    let term := if x.isRef && env.linked then none else x.term
    let isRef := x.isRef && (env.linked || x.term.isNone)
    match Proc.addExchange id x.flow x.dir rx (some x.value) term false p with
    | .err e p => .err (.proc e) p
    | .ok _ p' =>
      if (p.exchs.has ⟨x.flow, x.dir, term⟩ && decide (x.value = 0)) && x.comment then .err .attribute p'
      else if !env.linked && isRef then
        match Proc.addReference env.cf x.flow x.dir p' with
        | .err e p => .err (.proc e) p
        | .ok _ p => .ok () p
      else .ok () p'

/-- the loop over the exchanges -/
def addXs (env : Env P F Q U T) (rx : Option (Key F T)) : List (X F T) → Proc.State F Q T → Out (Proc.State F Q T) Err Unit
  | [], p => .ok () p
  | x :: xs, p =>
    match addX env rx x p with
    | .err e p => .err e p
    | .ok _ p => addXs env rx xs p

/-- `has_reference` of a flow id, processes.py:431-437: references have no termination -/
def hasReference (p : Proc.State F Q T) (r : F) : Except Err Bool :=
  match p.refs.filter fun k => decide (k.flow = r) with
  | [] => .ok false
  | [_] => .ok true
  | _ => .error .multiple

/-- the reference exchange of a linked dataset, ecospold2.py:425-430 -/
def setRx (env : Env P F Q U T) (r : F) (p : Proc.State F Q T) : Out (Proc.State F Q T) Err Unit :=
  match Proc.addExchange id r .output none none none false p with
  | .err e p => .err (.proc e) p
  | .ok _ p =>
    match Proc.addReference env.cf r .output p with
    | .err e p => .err (.proc e) p
    | .ok _ p => .ok () p

/-- the exchanges of a dataset, ecospold2.py:433-470, in the archive -/
def loadXs (env : Env P F Q U T) (p : P) (rx : Option (Key F T)) (els : List (El F U T)) (st : Proc.State F Q T) (units : Dict F U)
    (a : Ar P F Q U T) : Out (Ar P F Q U T) Err Unit :=
  match collect els units with
  | .err e units => .err e ⟨a.procs.set p st, units⟩
  | .ok xs units =>
    match addXs env rx xs st with
    | .err e st => .err e ⟨a.procs.set p st, units⟩
    | .ok _ st => .ok () ⟨a.procs.set p st, units⟩

/-- the rest of `_create_process_and_single_reference`, ecospold2.py:413-464, of the process `st` -/
def fill (env : Env P F Q U T) (exchanges : Bool) (p : P) (r : F) (els : List (El F U T)) (st : Proc.State F Q T) (a : Ar P F Q U T) :
    Out (Ar P F Q U T) Err Unit :=
  if env.linked then
    match grab r els a.units with
    | .error e => .err e { a with procs := a.procs.set p st }
    | .ok units =>
      match setRx env r st with
      | .err e st => .err e ⟨a.procs.set p st, units⟩
      | .ok _ st => if exchanges then loadXs env p (some ⟨r, .output, none⟩) els st units a else .ok () ⟨a.procs.set p st, units⟩
  else if exchanges then loadXs env p none els st a.units a
  else .ok () { a with procs := a.procs.set p st }

/-- `_create_process_and_single_reference`, ecospold2.py:387-464 -/
def loadOne (env : Env P F Q U T) (exchanges : Bool) (p : P) (r : F) (a : Ar P F Q U T) : Out (Ar P F Q U T) Err Unit :=
  match a.procs.get? p with
  | some st =>
    match hasReference st r with
    | .error e => .err e a
    | .ok true => .ok () a
    | .ok false =>
      match env.file p r with
      | none => .err .notFound a
      | some els => fill env exchanges p r els st a
  | none =>
    match env.file p r with
    | none => .err .notFound a
    | some els => fill env exchanges p r els {} a

/-- `_fetch`, ecospold2.py:486-502, with the flows the archive has files for, in any order -/
def fetch (env : Env P F Q U T) (exchanges : Bool) (p : P) : List F → Ar P F Q U T → Out (Ar P F Q U T) Err Unit
  | [], a => .ok () a
  | r :: rs, a =>
    match loadOne env exchanges p r a with
    | .err e a => .err e a
    | .ok _ a => fetch env exchanges p rs a

/-- `retrieve_or_fetch_entity`, entity_store.py:513-531, of a process: the process it returns -/
def retrieve (env : Env P F Q U T) (exchanges : Bool) (p : P) (rs : List F) (a : Ar P F Q U T) : Out (Ar P F Q U T) Err (Option (Proc.State F Q T)) :=
  match a.procs.get? p with
  | some st => .ok (some st) a
  | none =>
    match fetch env exchanges p rs a with
    | .err e a => .err e a
    | .ok _ a => .ok (a.procs.get? p) a

/-- `_load_all`, ecospold2.py:556-567, of the processes with their flows -/
def loadAll (env : Env P F Q U T) (exchanges : Bool) : List (P × List F) → Ar P F Q U T → Out (Ar P F Q U T) Err Unit
  | [], a => .ok () a
  | (p, rs) :: l, a =>
    match fetch env exchanges p rs a with
    | .err e a => .err e a
    | .ok _ a => loadAll env exchanges l a

end Spold
