import Verif.Model.Process

/-!
Model of the queries on the exchanges of a process: `_gen_exchanges`, `find_exchange`, `reference`, `has_reference`, `inventory` with its
search for the reference, `is_allocated` of `lcatools/entities/processes.py`, and `exchange_values`, `exchange_relation` of
`lcatools/implementations/inventory.py`, on the state of Model/Process.

Simplifications:
* those of Model/Process; terminations are strings (for others see C24), so that an exchange in `_exch_map` is the stored one and a set of
  exchanges can be modelled by their keys;
* a flow is given by its external reference (an entity or reference is converted to it, processes.py:290-293, 375-382); an exchange given as
  specification is its flow together with its direction (376-379);
* an exchange is reported as its key, together with its value where one is computed.
-/

namespace Ivt
open Proc

/-- LcProcess with `_exch_map`, processes.py:181-182 -/
structure Px (F Q T : Type) where
  p : State F Q T := {}
  map : Dict F (List (Key F T)) := []

inductive Err
  | noExchange | multiple | ambiguous | keyError | missingAllocation
  | proc (e : Proc.Err)                       -- raised while a value is computed
  deriving DecidableEq, Repr

variable {F Q T : Type} [DecidableEq F] [DecidableEq T]

/-- a call that changes the process (Model/Process); a new exchange is entered in `_exch_map`, processes.py:609-611 -/
def step (cf : F → Q → Option ℚ) (op : Op F Q T) (s : Px F Q T) : Option Proc.Err × Px F Q T :=
  let r := Proc.step id cf op s.p
  let map := match op with
    | .addExchange f d _ _ t _ =>
      let x : Key F T := ⟨f, d, t⟩
      if (s.p.exchs.get? x).isNone && r.1.isNone then s.map.set f (PySet.add ((s.map.get? f).getD []) x) else s.map
    | _ => s.map
  (r.1, { p := r.2, map := map })

/-- `_gen_exchanges`, processes.py:267-299, run to its end; `ro`, `mo`: the order of the sets -/
def gen (ro mo : PyOrd (Key F T)) (s : Px F Q T) (flow : Option F) (dir : Option Dir) (reference : Option Bool) : Except Err (List (Key F T)) :=
  let all : Except Err (List (Key F T)) := match flow with
    | none =>
      match reference with
      | some true => if s.p.refs.all fun r => s.p.exchs.has r then .ok (ro.f s.p.refs) else .error .keyError
      | some false => .ok ((s.p.exchs.filter fun kx => !kx.2.isRef).map Prod.fst)
      | none => .ok s.p.exchs.keys
    | some f =>
      let l := mo.f ((s.map.get? f).getD [])
      match reference with
      | some true => .ok (l.filter fun k => isRefOf s.p k)
      | some false => .ok (l.filter fun k => !isRefOf s.p k)
      | none => .ok l
  match all with
  | .error e => .error e
  | .ok l =>
    match dir with
    | none => .ok l
    | some d => .ok (l.filter fun k => decide (k.dir = d))

/-- `find_exchange`, processes.py:362-400 -/
def find (ro mo : PyOrd (Key F T)) (s : Px F Q T) (flow : Option F) (reference : Option Bool) (dir : Option Dir) : Except Err (Key F T) :=
  match gen ro mo s flow dir reference with
  | .error e => .error e
  | .ok [] => .error .noExchange
  | .ok [x] => .ok x
  | .ok cands =>
    match cands.filter fun x => decide (x.term = none) with
    | [] => .error .ambiguous
    | [x] => .ok x
    | _ => .error .multiple

/-- `reference`, processes.py:424-425 -/
def reference (ro mo : PyOrd (Key F T)) (s : Px F Q T) (flow : Option F) : Except Err (Key F T) := find ro mo s flow (some true) none

/-- `has_reference`, processes.py:432-437: only NoExchangeFound is caught -/
def hasReference (ro mo : PyOrd (Key F T)) (s : Px F Q T) (flow : Option F) : Except Err Bool :=
  match find ro mo s flow (some true) none with
  | .ok _ => .ok true
  | .error .noExchange => .ok false
  | .error e => .error e

/-- the search of `inventory` for the exchange, processes.py:339-345 -/
def resolve (ro mo : PyOrd (Key F T)) (s : Px F Q T) (flow : F) (dir : Option Dir) : Except Err (Key F T) :=
  match find ro mo s (some flow) none dir with
  | .error .multiple => find ro mo s (some flow) (some true) dir
  | r => r

/-- `inventory`, processes.py:326-360 -/
def inventory (ro mo : PyOrd (Key F T)) (cf : F → Q → Option ℚ) (s : Px F Q T) (flow : Option F) (dir : Option Dir) : Except Err (List (Key F T × Option ℚ)) :=
  let go (r : Option (Key F T)) : Except Err (List (Key F T × Option ℚ)) :=
    match Proc.inventory cf r s.p with
    | .ok l => .ok l
    | .error e => .error (.proc e)
  match flow with
  | none => go none
  | some f =>
    match resolve ro mo s f dir with
    | .error e => .error e
    | .ok r => go (some r)

/-- `exchange_values` of the interface, inventory.py:15-30 (with `references`, processes.py:416-422) -/
def exchangeValues (ro mo : PyOrd (Key F T)) (s : Px F Q T) (flow : F) (dir : Option Dir) (term : Option T) (reference : Option Bool) : Except Err (List (Key F T)) :=
  if reference = some true then
    if s.p.refs.all fun r => s.p.exchs.has r then .ok ((ro.f s.p.refs).filter fun x => decide (x.flow = flow)) else .error .keyError
  else
    match gen ro mo s (some flow) dir none with
    | .error e => .error e
    | .ok l => .ok (l.filter fun x => !(decide (reference = some false) && isRefOf s.p x) && (decide (term = none) || decide (x.term = term)))

/-- Python `sum` of numbers or None -/
def pySum : List (Option ℚ) → Except Proc.Err ℚ
  | [] => .ok 0
  | none :: _ => .error .typeError
  | some v :: l =>
    match pySum l with
    | .ok w => .ok (v + w)
    | .error e => .error e

/-- `exchange_relation` of the interface, inventory.py:44-66. With one exchange its value is divided, with none the answer is 0, else the sum
is divided. -/
def exchangeRelation (ro mo : PyOrd (Key F T)) (cf : F → Q → Option ℚ) (s : Px F Q T) (refFlow : Option F) (exchFlow : F) (dir : Dir) (term : Option T) : Except Err ℚ :=
  match inventory ro mo cf s refFlow none with
  | .error e => .error e
  | .ok inv =>
    let xs := inv.filter fun x => decide (x.1.flow = exchFlow) && decide (x.1.dir = dir)
    match reference ro mo s refFlow with
    | .error e => .error e
    | .ok norm =>
      let xs := xs.filter fun x => decide (term = none) || decide (x.1.term = term)
      if xs = [] then .ok 0
      else
        match pySum (xs.map Prod.snd) with
        | .error e => .error (.proc e)
        | .ok v =>
          match pyDiv (some v) ((s.p.exchs.get? norm).bind (·.val)) with
          | .error e => .error (.proc e)
          | .ok q => .ok q

/-- `is_allocated` of a process, processes.py:497-533, with that of an exchange, exchanges.py:339-347; `flow` as in `find_exchange` -/
def isAllocated (ro mo : PyOrd (Key F T)) (cf : F → Q → Option ℚ) (s : Px F Q T) (flow : Option F) (strict : Bool) : Except Err Bool :=
  match find ro mo s flow (some true) none with
  | .error .noExchange => .ok false
  | .error e => .error e
  | .ok r =>
    match s.p.allocQty with
    | some q => .ok (!decide (cf r.flow q = some 0))
    | none =>
      let others := s.p.exchs.filter fun kx => decide (kx.1 ∉ s.p.refs)
      let has := others.filter fun kx => kx.2.vdict.has r
      let missing := others.filter fun kx => !kx.2.vdict.has r
      if !strict && decide (has ≠ []) then .ok true
      else if has = [] then .ok false
      else if missing = [] then .ok true
      else .error .missingAllocation

end Ivt
