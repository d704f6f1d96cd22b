import Verif.Base.Py

/-!
Model of the index of terminations: `lcatools/implementations/index.py`, with `check_direction` and `comp_dir` of
`lcatools/interfaces/iindex.py`.

Simplifications:
* a process is an identity (`P`, with Python equality) with its reference exchanges and its exchanges; a flow is known by its
  external reference (`F`), as in the index. Flows of different origin with one external reference are the same to the index;
* the archive has no `terminate` of its own (index.py:94-96);
* the generator is run to its end at once: nothing changes the index while its results are consumed.
-/

namespace Ix

inductive Dir | input | output
  deriving DecidableEq, Repr

inductive Err
  | keyError | indexError | invalidDirection | attributeError
  deriving DecidableEq, Repr

/-- a direction as a caller gives it: a number, or a string -/
inductive DArg
  | num (n : Int)
  | str (s : List Char)
  deriving DecidableEq

/-- the dictionary of `check_direction`, for a lower-case letter, iindex.py:14-17 -/
def letterDir (c : Char) : Except Err Dir :=
  if c = 'i' then .ok .input else if c = 'o' then .ok .output else .error .keyError

/-- the dictionary of `check_direction`, for a number, iindex.py:14-17 -/
def numDir (n : Int) : Except Err Dir :=
  if n = 0 then .ok .input else if n = 1 then .ok .output else .error .keyError

/-- `check_direction`, iindex.py:11-17 -/
def checkDirection : DArg → Except Err Dir
  | .num n => numDir n
  | .str [] => .error .indexError
  | .str (c :: _) => letterDir c.toLower

/-- `next(k for k in directions if k != _dirn)`, iindex.py:31 -/
def opposite (d : Dir) : Dir := if Dir.input ≠ d then .input else .output

/-- `comp_dir`, iindex.py:24-31 -/
def compDir : Option DArg → Except Err (Option Dir)
  | none => .ok none
  | some a =>
    match checkDirection a with
    | .ok d => .ok (some (opposite d))
    | .error .keyError => .error .invalidDirection
    | .error e => .error e

/-- an exchange: flow, direction, and whether its termination is None -/
structure Exch (F : Type) where
  flow : F
  dir : Dir
  cutoff : Bool
  deriving DecidableEq

structure Proc (P F : Type) where
  pid : P
  refs : List (F × Dir)
  exchs : List (Exch F) := []
  deriving DecidableEq

/-- the archive: its processes in the order of `entities_by_type`, and the index, if it has one -/
structure Arch (P F : Type) where
  procs : List (Proc P F)
  ti : Option (Dict F (List (Dir × P)))

variable {P F : Type} [DecidableEq P] [DecidableEq F]

/-- `self._terminations[flow].add((dir, p))` on a defaultdict of sets, index.py:49, 52 -/
def addTerm (p : P) (ti : Dict F (List (Dir × P))) (fd : F × Dir) : Dict F (List (Dir × P)) :=
  ti.set fd.1 (PySet.add ((ti.get? fd.1).getD []) (fd.2, p))

/-- the exchanges of a process that are indexed, index.py:46-52; `ctx`: whether CONTEXT_STATUS_ is 'new' -/
def Proc.indexed (ctx cutoffs : Bool) (p : Proc P F) : List (F × Dir) :=
  if cutoffs && ctx then (p.exchs.filter fun x => x.cutoff).map fun x => (x.flow, x.dir)
  else p.refs

/-- `_index_terminations`, index.py:36-52, on an index -/
def indexAll (ctx cutoffs : Bool) (procs : List (Proc P F)) (ti : Dict F (List (Dir × P))) : Dict F (List (Dir × P)) :=
  procs.foldl (fun ti p => (p.indexed ctx cutoffs).foldl (addTerm p.pid) ti) ti

/-- `re_index`, index.py:32-34 -/
def reIndex (ctx cutoffs : Bool) (a : Arch P F) : Arch P F :=
  { a with ti := some (indexAll ctx cutoffs a.procs []) }

/-- `IndexImplementation(archive, cutoffs)`, index.py:23-26 -/
def mkIndex (ctx cutoffs : Bool) (a : Arch P F) : Arch P F :=
  match a.ti with
  | some _ => a
  | none => reIndex ctx cutoffs a

/-- `terminate`, index.py:85-106: the processes yielded, and the index, to which a lookup adds the key -/
def terminate (o : PyOrd (Dir × P)) (a : Arch P F) (flow : F) (direction : Option DArg) : Out (Arch P F) Err (List P) :=
  match compDir direction with
  | .error e => .err e a
  | .ok cdir =>
    match a.ti with
    | none => .err .attributeError a
    | some ti =>
      let found := o.f ((ti.get? flow).getD [])
      let hits := match cdir with
        | none => found
        | some d => found.filter fun x => decide (d = x.1)
      .ok (hits.map Prod.snd) { a with ti := some (if ti.has flow then ti else ti.set flow []) }

/-! ### histories -/

inductive Op (P F : Type)
  | edit (procs : List (Proc P F))                 -- any change of the processes of the archive
  | make (cutoffs : Bool)                          -- a new IndexImplementation for the archive
  | reindex (cutoffs : Bool)
  | ask (o : PyOrd (Dir × P)) (flow : F) (direction : Option DArg)

def step (ctx : Bool) (a : Arch P F) : Op P F → Arch P F
  | .edit procs => { a with procs := procs }
  | .make c => mkIndex ctx c a
  | .reindex c => reIndex ctx c a
  | .ask o f d => (terminate o a f d).state

def run (ctx : Bool) (a : Arch P F) (ops : List (Op P F)) : Arch P F := ops.foldl (step ctx) a

end Ix
