import Mathlib.Logic.Function.Basic
import Verif.Model.Process

/-!
Model of `lcatools/implementations/configure.py`, over the processes of `Verif.Model.Process` and the
characterizations of flows (`lcatools/entities/flows.py:162-249`, `lcatools/characterizations.py:80-113`).

Simplifications:
* references of entities in a configuration all resolve (`retrieve_or_fetch_entity` finds them), to distinct
  entities of the right type; `P`, `F`, `Q` are the processes, flows and quantities of the archive;
* the entries of each list are applied in the order of the list;
* values of characterizations are numbers;
* `is_allocated(rf)` looks the reference exchange `rf` up again by flow and direction (processes.py:504-508): it
  finds `rf` itself, since references have no termination;
* printing and the re-indexing at the end (index of terminations, see `Verif.Model.Index`) are left out.
-/

namespace Cfg
open Proc

variable {P F Q T : Type} [DecidableEq P] [DecidableEq F] [DecidableEq Q] [DecidableEq T]

/-- the archive -/
structure Arch (P F Q T : Type) where
  pids : List P                                    -- the processes in the order of entities_by_type
  proc : P → State F Q T
  refq : F → Q                                     -- the reference quantity of each flow
  chars : F → Q → Option (Dict String ℚ)           -- _characterizations: location -> value

inductive Err
  | proc (e : Proc.Err)
  | runtimeError
  | deleteReference
  deriving DecidableEq

/-- `flow.cf(quantity)`, flows.py:236-249, characterizations.py:80-91. `none`: a characterization without any
value gives None. -/
def cfOf (chars : F → Q → Option (Dict String ℚ)) (f : F) (q : Q) : Option ℚ :=
  match chars f q with
  | none => some 0
  | some d =>
    match d.get? "GLO" with
    | some v => some v
    | none => if d.isEmpty then none else some 0

/-- `_check_direction`, configure.py:80-88 -/
def checkDirection (p : State F Q T) (f : F) : Except Proc.Err Dir :=
  match p.exchs.keys.filter fun k => decide (k.flow = f) && decide (k.term = none) with
  | [_, _] => .error .valueError
  | [] => .error .keyError
  | k :: _ => .ok k.dir

/-- configure.py:102-103, 137-138 -/
def resolve (p : State F Q T) (f : F) (d : Option Dir) : Except Proc.Err Dir :=
  match d with
  | some d => .ok d
  | none => checkDirection p f

/-- a method of the process `p` of the archive -/
def onProc (p : P) (g : State F Q T → Out (State F Q T) Proc.Err Unit) (s : Arch P F Q T) :
    Out (Arch P F Q T) Err Unit :=
  match g (s.proc p) with
  | .ok _ x => .ok () { s with proc := Function.update s.proc p x }
  | .err e x => .err (.proc e) { s with proc := Function.update s.proc p x }

/-- the process's part of `set_reference`, configure.py:102-106 -/
def addRef (cf : F → Q → Option ℚ) (f : F) (d : Option Dir) (x : State F Q T) : Out (State F Q T) Proc.Err Unit :=
  match resolve x f d with
  | .error e => .err e x
  | .ok d => addReference cf f d x

/-- the process's part of `unset_reference` with a flow, configure.py:136-139 -/
def remRef (cf : F → Q → Option ℚ) (f : F) (d : Option Dir) (x : State F Q T) : Out (State F Q T) Proc.Err Unit :=
  match resolve x f d with
  | .error e => .err e x
  | .ok d => removeReference cf f d x

/-- configure.py:133-134 -/
def remList (cf : F → Q → Option ℚ) : List (F × Dir) → State F Q T → Out (State F Q T) Proc.Err Unit
  | [], x => .ok () x
  | fd :: fds, x => (removeReference cf fd.1 fd.2 x).bind fun _ x' => remList cf fds x'

/-- the process's part of `unset_reference` without a flow, configure.py:130-135 -/
def remEvery (cf : F → Q → Option ℚ) (d : Option Dir) (x : State F Q T) : Out (State F Q T) Proc.Err Unit :=
  let fds := x.refs.map fun k => (k.flow, k.dir)
  let fds := match d with
    | none => fds
    | some d => fds.filter fun fd => decide (fd.2 = d)
  remList cf fds x

/-- the arguments of `unset_reference` -/
inductive Unset (P F : Type)
  | one (p : P) (f : F) (d : Option Dir)       -- process and flow given
  | every (p : P) (d : Option Dir)             -- flow None
  | anywhere (f : F) (d : Option Dir)          -- process None

/-- configure.py:123-126: the loop over the references of one process. Removing a member of the set that is being
iterated makes the next step of the iteration raise RuntimeError; a direction None equals no direction. -/
def sweepProc (cf : F → Q → Option ℚ) (f : F) (d : Option Dir) (x : State F Q T) :
    Option (Out (State F Q T) Proc.Err Unit) :=
  match x.refs.find? fun k => decide (k.flow = f) && decide (some k.dir = d) with
  | none => none
  | some k => some (removeReference cf k.flow k.dir x)

/-- configure.py:122-126 -/
def sweep (f : F) (d : Option Dir) : List P → Arch P F Q T → Out (Arch P F Q T) Err Unit
  | [], s => .ok () s
  | p :: ps, s =>
    match sweepProc (cfOf s.chars) f d (s.proc p) with
    | none => sweep f d ps s
    | some r => (onProc p (fun _ => r) s).bind fun _ s' => .err .runtimeError s'

/-- `set_reference`, configure.py:90-106 -/
def setReference (k : P × F × Option Dir) (s : Arch P F Q T) : Out (Arch P F Q T) Err Unit :=
  onProc k.1 (addRef (cfOf s.chars) k.2.1 k.2.2) s

/-- `unset_reference`, configure.py:108-139 -/
def unsetReference (k : Unset P F) (s : Arch P F Q T) : Out (Arch P F Q T) Err Unit :=
  match k with
  | .one p f d => onProc p (remRef (cfOf s.chars) f d) s
  | .every p d => onProc p (remEvery (cfOf s.chars) d) s
  | .anywhere f d => sweep f d s.pids s

/-- set the characterization of a flow by a quantity -/
def setChars (s : Arch P F Q T) (f : F) (q : Q) (v : Option (Dict String ℚ)) : Arch P F Q T :=
  { s with chars := fun f' q' => if f' = f ∧ q' = q then v else s.chars f' q' }

/-- `characterize_flow`, configure.py:141-162; `has_characterization`, `del_characterization` and
`add_characterization` of the flow, flows.py:162-206 -/
def characterizeFlow (overwrite : Bool) (k : F × Q × ℚ) (s : Arch P F Q T) : Out (Arch P F Q T) Err Unit :=
  if (s.chars k.1 k.2.1).isSome then
    if overwrite then
      if k.2.1 = s.refq k.1 then .err .deleteReference s
      else .ok () (setChars s k.1 k.2.1 (some [("GLO", k.2.2)]))
    else .ok () s
  else .ok () (setChars s k.1 k.2.1 (some [("GLO", k.2.2)]))

/-- `is_allocated(rf)`, processes.py:497-533, for a reference exchange of the process -/
def isAllocated (cf : F → Q → Option ℚ) (x : State F Q T) (rf : Key F T) : Bool :=
  match x.allocQty with
  | some q => decide (cf rf.flow q ≠ some 0)
  | none => x.exchs.any fun kx => decide (kx.1 ∉ x.refs) && kx.2.vdict.has rf

/-- the process's part of `allocate_by_quantity`, configure.py:179-198 -/
def allocByQ (cf : F → Q → Option ℚ) (overwrite : Bool) (q : Q) (x : State F Q T) :
    Out (State F Q T) Proc.Err Unit :=
  if overwrite then allocate cf (some q) (x.refs.foldl (fun x rf => removeAllocation rf x) x)
  else if x.refs.any (isAllocated cf x) then .ok () x
  else allocate cf (some q) x

/-- `allocate_by_quantity`, configure.py:164-198 -/
def allocateByQuantity (overwrite : Bool) (k : P × Q) (s : Arch P F Q T) : Out (Arch P F Q T) Err Unit :=
  onProc k.1 (allocByQ (cfOf s.chars) overwrite k.2) s

/-- `for k in ...: method(*k)` -/
def each {K : Type} (m : K → Arch P F Q T → Out (Arch P F Q T) Err Unit) :
    List K → Arch P F Q T → Out (Arch P F Q T) Err Unit
  | [], s => .ok () s
  | k :: ks, s => (m k s).bind fun _ s' => each m ks s'

/-- a configuration, configure.py:9-14, 30 -/
structure Config (P F Q : Type) where
  set_reference : List (P × F × Option Dir) := []
  unset_reference : List (Unset P F) := []
  characterize_flow : List (F × Q × ℚ) := []
  allocate_by_quantity : List (P × Q) := []

/-- `apply_config`, configure.py:19-46 -/
def applyConfig (c : Config P F Q) (overwrite : Bool) (s : Arch P F Q T) : Out (Arch P F Q T) Err Unit :=
  (each setReference c.set_reference s).bind fun _ s =>
  (each unsetReference c.unset_reference s).bind fun _ s =>
  (each (characterizeFlow overwrite) c.characterize_flow s).bind fun _ s =>
  each (allocateByQuantity overwrite) c.allocate_by_quantity s

end Cfg
