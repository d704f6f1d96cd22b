import Verif.Model.Process

/-!
Model of the OpenLCA JSON-LD provider, `antelope_catalog/providers/openlca_jsonld.py`: units, exchanges, references and allocation of the processes it loads.

Simplifications:
* files are given as what is read from them, by id; names, categories, locations, times and the file store are left out;
* a flow is what its file says, whenever it is loaded; its characterizations by flow properties that are not its reference are left out, those by the
  allocation quantities that are made on loading processes (at location 'GLO') are kept in the archive;
* exchanges of openLCA have no terminations here (default providers are not read by the code);
* the set of exchanges of a flow is iterated in any order: `first` says which of two directions comes first.
-/

namespace Olca
open Proc (Dir Key)

inductive Err
  | key | type | zeroDivision | assertion | olca | multiple | duplicateCf | proc (e : Proc.Err)
  deriving DecidableEq, Repr

/-- a unit of a unit group: name, conversionFactor, referenceUnit -/
structure Unit where
  name : String
  factor : ℚ
  isRef : Bool := false
  deriving DecidableEq

/-- a flow property of a flow: id, conversionFactor, referenceFlowProperty -/
structure FP (Q : Type) where
  qty : Q
  factor : ℚ
  isRef : Bool := false
  deriving DecidableEq

/-- an exchange of a process -/
structure Ex (F Q : Type) where
  flow : F
  input : Bool
  amount : ℚ
  fp : Q
  unit : Option String := none
  isRef : Bool := false       -- quantitativeReference
  deriving DecidableEq

/-- an allocation factor -/
structure AF (F : Type) where
  typ : String
  product : F
  value : ℚ
  deriving DecidableEq

structure PJ (F Q : Type) where
  name : String
  exchs : List (Ex F Q)
  factors : List (AF F) := []
  default : Option String := none    -- defaultAllocationMethod

/-- the files, and the order of directions -/
structure Env (P F Q : Type) where
  qty : Q → Option (List Unit)         -- units of the unit group of a flow property
  flow : F → Option (List (FP Q))
  proc : P → Option (PJ F Q)
  first : F → Dir

/-- the archive: processes, and factors of flows for allocation quantities -/
structure Ar (P F T : Type) where
  procs : Dict P (Proc.State F String T)
  cfs : Dict (F × String) ℚ

variable {P F Q T : Type} [DecidableEq P] [DecidableEq F] [DecidableEq Q] [DecidableEq T]

/-- the loop of `_create_unit`, openlca_jsonld.py:83-94 -/
def unitLoop : List Unit → Option String → Dict String ℚ → Except Err (Option String × Dict String ℚ)
  | [], u, t => .ok (u, t)
  | c :: cs, u, t =>
    if c.factor = 0 then .error .zeroDivision
    else
      let t := t.set c.name (1 / c.factor)
      if c.isRef then if c.factor = 1 then unitLoop cs (some c.name) t else .error .assertion
      else unitLoop cs u t

/-- `_create_unit`, openlca_jsonld.py:80-101, and `_create_quantity`, 101-113: reference unit and conversion table of a flow property -/
def getQty (env : Env P F Q) (q : Q) : Except Err (String × Dict String ℚ) :=
  match env.qty q with
  | none => .error .key
  | some us =>
    match unitLoop us none [] with
    | .error e => .error e
    | .ok (none, _) => .error .olca
    | .ok (some u, t) => .ok (u, t)

/-- `convert(from_unit=u)`, quantities.py:33-81 -/
def convert (q : String × Dict String ℚ) (u : String) : Option ℚ :=
  match q.2.get? u with
  | none => none
  | some inbound =>
    match q.2.get? q.1 with
    | none => none
    | some outbound => some (outbound / inbound)

/-- the loop of `_create_flow`, openlca_jsonld.py:143-153: the reference flow property -/
def flowLoop (env : Env P F Q) : List (FP Q) → Option Q → Except Err (Option Q)
  | [], r => .ok r
  | fp :: fps, r =>
    match getQty env fp.qty with
    | .error e => .error e
    | .ok _ =>
      if fp.isRef then if fp.factor = 1 then flowLoop env fps (some fp.qty) else .error .assertion
      else flowLoop env fps r

/-- `_create_flow`, openlca_jsonld.py:128-163 -/
def getFlow (env : Env P F Q) (f : F) : Except Err Q :=
  match env.flow f with
  | none => .error .key
  | some fps =>
    match flowLoop env fps none with
    | .error e => .error e
    | .ok none => .error .olca
    | .ok (some q) => .ok q

/-- the amount of an exchange in `_add_exchange`, openlca_jsonld.py:165-189: unknown units make `value *= None` raise TypeError; the message about
another flow property than that of the flow is formatted with too few arguments, which raises TypeError -/
def exValue (env : Env P F Q) (ex : Ex F Q) : Except Err ℚ :=
  match getFlow env ex.flow with
  | .error e => .error e
  | .ok rq =>
    match getQty env ex.fp with
    | .error e => .error e
    | .ok q =>
      let value : Except Err ℚ := match ex.unit with
        | none => .ok ex.amount
        | some u =>
          if u = q.1 then .ok ex.amount
          else match convert q u with
            | none => .error .type
            | some c => .ok (ex.amount * c)
      match value with
      | .error e => .error e
      | .ok v => if ex.fp = rq then .ok v else .error .type

/-- 'Input' or 'Output', openlca_jsonld.py:168 and 257 -/
def Ex.dir (ex : Ex F Q) : Dir := if ex.input then .input else .output

/-- the first loop over exchanges, openlca_jsonld.py:250-251 -/
def addExs (env : Env P F Q) : List (Ex F Q) → Proc.State F String T → Out (Proc.State F String T) Err _root_.Unit
  | [], st => .ok () st
  | ex :: exs, st =>
    match exValue env ex with
    | .error e => .err e st
    | .ok v =>
      match Proc.addExchange id ex.flow ex.dir none (some v) none true st with
      | .err e st => .err (.proc e) st
      | .ok _ st => addExs env exs st

/-- the second loop, openlca_jsonld.py:253-258 -/
def addRefs : List (Ex F Q) → Proc.State F String T → Out (Proc.State F String T) Err _root_.Unit
  | [], st => .ok () st
  | ex :: exs, st =>
    if ex.isRef then
      match Proc.addReference (fun _ _ => none) ex.flow ex.dir st with
      | .err e st => .err (.proc e) st
      | .ok _ st => addRefs exs st
    else addRefs exs st

/-- the directions in which the flow is an exchange that satisfies `c`, in the order of iteration -/
def dirs (env : Env P F Q) (f : F) (c : Dir → Bool) : List Dir :=
  (match env.first f with | .input => [Dir.input, Dir.output] | .output => [Dir.output, Dir.input]).filter c

/-- `_create_allocation_quantity`, openlca_jsonld.py:117-127: its key -/
def allocKey (name typ : String) : String := name ++ "_" ++ typ

/-- `v = af['value'] / x.value` and `f.add_characterization(q, value=v)`, openlca_jsonld.py:221-222, of the exchange in direction `d` -/
def characterize (name : String) (af : AF F) (d : Dir) (s : Proc.State F String T × Dict (F × String) ℚ) :
    Out (Proc.State F String T × Dict (F × String) ℚ) Err _root_.Unit :=
  match (s.1.exchs.get? ⟨af.product, d, none⟩).bind (·.val) with
  | none => .err .type s
  | some x =>
    if x = 0 then .err .zeroDivision s
    else if s.2.has (af.product, allocKey name af.typ) then .err .duplicateCf s
    else .ok () (s.1, s.2.set (af.product, allocKey name af.typ) (af.value / x))

/-- the body of the loop of `_apply_olca_allocation`, openlca_jsonld.py:200-222 -/
def applyOne (env : Env P F Q) (name : String) (af : AF F) (s : Proc.State F String T × Dict (F × String) ℚ) :
    Out (Proc.State F String T × Dict (F × String) ℚ) Err _root_.Unit :=
  if af.value = 0 then .ok () s
  else if af.typ = "CAUSAL_ALLOCATION" then .ok () s
  else
    match getFlow env af.product with
    | .error e => .err e s
    | .ok _ =>
      match dirs env af.product fun d => decide (⟨af.product, d, none⟩ ∈ s.1.refs) with
      | [d] => characterize name af d s
      | _ :: _ :: _ => .err .multiple s
      | [] =>
        match dirs env af.product fun d => s.1.exchs.has ⟨af.product, d, none⟩ with
        | [] => .ok () s
        | d :: _ =>
          match Proc.addReference (fun _ _ => none) af.product d s.1 with
          | .err e st => .err (.proc e) (st, s.2)
          | .ok _ st => characterize name af d (st, s.2)

def applyAll (env : Env P F Q) (name : String) : List (AF F) → Proc.State F String T × Dict (F × String) ℚ →
    Out (Proc.State F String T × Dict (F × String) ℚ) Err _root_.Unit
  | [], s => .ok () s
  | af :: afs, s =>
    match applyOne env name af s with
    | .err e s => .err e s
    | .ok _ s => applyAll env name afs s

/-- `cf` of a flow for a quantity, flows.py:236-249: zero if there is none -/
def cfOf (cfs : Dict (F × String) ℚ) (f : F) (q : String) : Option ℚ := some ((cfs.get? (f, q)).getD 0)

/-- `_apply_olca_allocation`, openlca_jsonld.py:193-226 -/
def applyAlloc (env : Env P F Q) (pj : PJ F Q) (s : Proc.State F String T × Dict (F × String) ℚ) :
    Out (Proc.State F String T × Dict (F × String) ℚ) Err _root_.Unit :=
  match applyAll env pj.name pj.factors s with
  | .err e s => .err e s
  | .ok _ s =>
    match pj.default with
    | none => .ok () s
    | some m =>
      match Proc.allocate (cfOf s.2) (some (allocKey pj.name m)) s.1 with
      | .err e st => .err (.proc e) (st, s.2)
      | .ok _ st => .ok () (st, s.2)

/-- what is done to the new process, openlca_jsonld.py:250-260 -/
def fill (env : Env P F Q) (pj : PJ F Q) (cfs : Dict (F × String) ℚ) : Out (Proc.State F String T × Dict (F × String) ℚ) Err _root_.Unit :=
  match addExs env pj.exchs {} with
  | .err e st => .err e (st, cfs)
  | .ok _ st =>
    match addRefs pj.exchs st with
    | .err e st => .err e (st, cfs)
    | .ok _ st => applyAlloc env pj (st, cfs)

/-- `_create_process`, openlca_jsonld.py:228-262. The process is in the archive before its exchanges are -/
def createProcess (env : Env P F Q) (p : P) (a : Ar P F T) : Out (Ar P F T) Err _root_.Unit :=
  match a.procs.get? p with
  | some _ => .ok () a
  | none =>
    match env.proc p with
    | none => .err .key a
    | some pj =>
      match fill env pj a.cfs with
      | .err e s => .err e ⟨a.procs.set p s.1, s.2⟩
      | .ok _ s => .ok () ⟨a.procs.set p s.1, s.2⟩

/-- `_fetch` of a process, openlca_jsonld.py:267-280, and `retrieve_or_fetch_entity`, entity_store.py:513-531 -/
def retrieve (env : Env P F Q) (p : P) (a : Ar P F T) : Out (Ar P F T) Err (Option (Proc.State F String T)) :=
  match createProcess env p a with
  | .err e a => .err e a
  | .ok _ a => .ok (a.procs.get? p) a

end Olca
