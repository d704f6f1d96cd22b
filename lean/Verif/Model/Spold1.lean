import Verif.Model.Process
import Mathlib.Data.List.Dedup

/-!
Model of the EcoSpold v1 provider, `antelope_catalog/providers/ecospold.py`: loading processes from datasets.

Simplifications:
* a dataset is the name of its process and the list of the children of its `flowData` element with what is read from them; XML parsing, names of
  flows, comments (apart from whether there is one), categories, location and times are left out;
* flows are identified by their number, quantities by their unit, processes by their name; no flow number, unit and process name give the same UUID;
* the set of reference flows is iterated in order of first appearance;
* what the user answers to the question for a conversion factor is a parameter; `none` is end of input or no number.
-/

namespace Spold1
open Proc (Dir Key)

/-- `outputGroup` with its number, `inputGroup`, or neither (either capitalization), ecospold.py:180-192 -/
inductive Grp | output (n : ℕ) | input | none
  deriving DecidableEq, Repr

/-- a child of `flowData` -/
structure El (F U : Type) where
  flow : F
  unit : U
  grp : Grp
  amount : Option ℚ        -- meanValue
  comment : Bool := false
  deriving DecidableEq

/-- a flow: unit of its reference quantity, and amount of each quantity per unit -/
structure Flow (U : Type) where
  unit : U
  cfs : Dict U ℚ
  deriving DecidableEq

structure DS (F U : Type) where
  name : String
  els : List (El F U)

inductive Err
  | key | type | zeroDivision | eof | attribute | proc (e : Proc.Err)
  deriving DecidableEq, Repr

/-- the archive -/
structure Ar (F Q U T : Type) where
  procs : Dict String (Proc.State F Q T)
  flows : Dict F (Flow U)

/-- what is given: files, `conversion_dict`, and the answers of the user -/
structure Env (F U : Type) where
  files : Dict String (DS F U)
  conv : U → U → Option ℚ
  ask : F → U → U → Option ℚ

variable {F Q U T : Type} [DecidableEq F] [DecidableEq U] [DecidableEq T]

/-- `_fetch_filename`, ecospold.py:92-105 -/
def readFile (files : Dict String (DS F U)) (fn : String) : Option (DS F U) :=
  match files.get? fn with
  | some d => some d
  | none => files.get? (String.ofList (fn.toList.filter fun c => !(c == '<' || c == '>')))

/-- `conversion_dict`, ecospold.py:40-50 -/
def conversionDict : List ((String × String) × ℚ) :=
  [(("kBq", "Bq"), 1000), (("t", "kg"), 1000), (("kg*km", "t*km"), 1 / 1000), (("ha", "m2"), 10000), (("sh tn", "t"), 907185 / 1000000),
   (("sh tn", "kg"), 907185 / 1000), (("kWh", "MJ"), 36 / 10), (("MJ", "btu"), 947817 / 1000), (("m3", "l"), 1000)]

/-- the factor for a unit `lu` of a flow of unit `fu`, ecospold.py:163-169 -/
def convFactor (env : Env F U) (f : F) (fu lu : U) : Except Err ℚ :=
  match env.conv fu lu with
  | some c => .ok c
  | none =>
    match env.conv lu fu with
    | some c => if c = 0 then .error .zeroDivision else .ok (1 / c)
    | none =>
      match env.ask f fu lu with
      | some c => .ok c
      | none => .error .eof

/-- `_create_flow`, ecospold.py:134-171: the flow, which is also kept -/
def createFlow (env : Env F U) (e : El F U) (flows : Dict F (Flow U)) : Except Err (Flow U × Dict F (Flow U)) :=
  match flows.get? e.flow with
  | none =>
    let f : Flow U := ⟨e.unit, [(e.unit, 1)]⟩
    .ok (f, flows.set e.flow f)
  | some f =>
    if e.unit = f.unit ∨ f.cfs.has e.unit then .ok (f, flows)
    else
      match convFactor env e.flow f.unit e.unit with
      | .error err => .error err
      | .ok c =>
        let f : Flow U := ⟨f.unit, f.cfs.set e.unit c⟩
        .ok (f, flows.set e.flow f)

/-- the amount in units of the flow, ecospold.py:194-197; `cf` of a flow without the factor is zero, flows.py:236-249 -/
def amountOf (e : El F U) (f : Flow U) : Except Err ℚ :=
  match e.amount with
  | none => .error .type
  | some v =>
    if e.unit = f.unit then .ok v
    else
      let c := (f.cfs.get? e.unit).getD 0
      if c = 0 then .error .zeroDivision else .ok (v / c)

/-- an exchange as it is read: flow, direction, amount, whether there is a comment, and whether the flow is a reference -/
structure X (F : Type) where
  flow : F
  dir : Dir
  value : ℚ
  comment : Bool
  isRef : Bool
  deriving DecidableEq

/-- the body of the loop of `_extract_exchanges`, ecospold.py:178-199; `none`: no direction -/
def extractOne (e : El F U) (f : Flow U) : Except Err (Option (X F)) :=
  match e.grp with
  | .none => .ok none
  | .input =>
    match amountOf e f with
    | .error err => .error err
    | .ok v => .ok (some ⟨e.flow, .input, v, e.comment, false⟩)
  | .output n =>
    match amountOf e f with
    | .error err => .error err
    | .ok v => .ok (some ⟨e.flow, .output, v, e.comment, decide (n = 0 ∨ n = 2)⟩)

/-- `_extract_exchanges`, ecospold.py:173-200. Flows are made as the elements are read -/
def extract (env : Env F U) : List (El F U) → Dict F (Flow U) → Out (Dict F (Flow U)) Err (List (X F))
  | [], flows => .ok [] flows
  | e :: es, flows =>
    match createFlow env e flows with
    | .error err => .err err flows
    | .ok (f, flows) =>
      match extractOne e f with
      | .error err => .err err flows
      | .ok x =>
        match extract env es flows with
        | .err err flows => .err err flows
        | .ok xs flows => .ok (x.toList ++ xs) flows

/-- the loop over the exchanges, ecospold.py:230-234. Setting the comment of the None that `add_exchange` returns for a repeated exchange of value
zero (processes.py:561-562) raises AttributeError -/
def addXs : List (X F) → Proc.State F Q T → Except Err (Proc.State F Q T)
  | [], p => .ok p
  | x :: xs, p =>
    match Proc.addExchange id x.flow x.dir none (some x.value) none true p with
    | .err e _ => .error (.proc e)
    | .ok _ p' =>
      if (p.exchs.has ⟨x.flow, x.dir, none⟩ && decide (x.value = 0)) && x.comment then .error .attribute else addXs xs p'

/-- the references, ecospold.py:236-237 -/
def addRefs : List F → Proc.State F Q T → Except Err (Proc.State F Q T)
  | [], p => .ok p
  | f :: fs, p =>
    match Proc.addReference (fun _ _ => none) f .output p with
    | .err e _ => .error (.proc e)
    | .ok _ p => addRefs fs p

/-- `_create_process`, ecospold.py:202-241 -/
def createProcess (env : Env F U) (fn : String) (a : Ar F Q U T) : Out (Ar F Q U T) Err Unit :=
  match readFile env.files fn with
  | none => .err .key a
  | some ds =>
    match a.procs.get? ds.name with
    | some _ => .ok () a
    | none =>
      match extract env ds.els a.flows with
      | .err e flows => .err e { a with flows := flows }
      | .ok xs flows =>
        match addXs xs {} with
        | .error e => .err e { a with flows := flows }
        | .ok st =>
          match addRefs (((xs.filter fun x => x.isRef).map fun x => x.flow).dedup) st with
          | .error e => .err e { a with flows := flows }
          | .ok st => .ok () ⟨a.procs.set ds.name st, flows⟩

/-- `_fetch`, ecospold.py:248-259: the process of that name, if the file has it -/
def fetch (env : Env F U) (key : String) (a : Ar F Q U T) : Out (Ar F Q U T) Err (Option (Proc.State F Q T)) :=
  match createProcess env (key ++ ".xml") a with
  | .err e a => .err e a
  | .ok _ a => .ok (a.procs.get? key) a

/-- `retrieve_or_fetch_entity`, entity_store.py:513-531, of a process -/
def retrieve (env : Env F U) (key : String) (a : Ar F Q U T) : Out (Ar F Q U T) Err (Option (Proc.State F Q T)) :=
  match a.procs.get? key with
  | some st => .ok (some st) a
  | none => fetch env key a

/-- the second loop of `_load_all`, ecospold.py:266-267 -/
def loadAll (env : Env F U) : List String → Ar F Q U T → Out (Ar F Q U T) Err Unit
  | [], a => .ok () a
  | fn :: fns, a =>
    match createProcess env fn a with
    | .err e a => .err e a
    | .ok _ a => loadAll env fns a

end Spold1
