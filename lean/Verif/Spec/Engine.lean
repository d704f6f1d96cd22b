import Mathlib.Logic.Relation
import Verif.Model.Engine

/-!
Specification vocabulary for the background engine: the dependency graph between product flows, read
off the inventory data, with no reference to the engine's state.
-/

namespace Engine
variable {F P : Type}

/-- The process that terminates exchange `x` under the given strategy for ambiguous terminations:
an explicit termination, else the only candidate, else the first/last candidate if so requested. -/
def TermOf (db : DB F P) (strat : Strategy) (x : Exch F P) (t : P) : Prop :=
  x.term = some t ∨
  (x.term = none ∧
    (db.terms x.flow x.dir = [t] ∨
     (strat = .first ∧ (db.terms x.flow x.dir).head? = some t) ∨
     (strat = .last ∧ (db.terms x.flow x.dir).getLast? = some t)))

/-- Exchange `x` makes its process depend on product flow `w`: it is a non-reference exchange with a
non-zero value, terminated by a process for which the flow is a reference. -/
def EdgeOf (db : DB F P) (strat : Strategy) (x : Exch F P) (w : F × P) : Prop :=
  x.isRef = false ∧ (∃ v, x.val = some v ∧ v ≠ 0) ∧ TermOf db strat x w.2 ∧ w.1 = x.flow ∧
    db.refDir w ≠ none

/-- Product flow `u` directly depends on product flow `w`. -/
def Depends (db : DB F P) (strat : Strategy) (u w : F × P) : Prop :=
  ∃ x ∈ db.inv u, EdgeOf db strat x w

/-- `u` depends on `w` directly or indirectly (or `u = w`). -/
def Reach (db : DB F P) (strat : Strategy) : F × P → F × P → Prop :=
  Relation.ReflTransGen (Depends db strat)

/-- `u` and `w` depend on each other. -/
def Mutual (db : DB F P) (strat : Strategy) (u w : F × P) : Prop :=
  Reach db strat u w ∧ Reach db strat w u

end Engine

namespace Engine
variable {F P : Type} [DecidableEq F] [DecidableEq P]

/-- functional form of `TermOf` -/
def staticTerm (db : DB F P) (strat : Strategy) (x : Exch F P) : Option P :=
  match x.term with
  | some t => some t
  | none =>
    match db.terms x.flow x.dir, strat with
    | [t], _ => some t
    | ts, .first => ts.head?
    | ts, .last => ts.getLast?
    | _, _ => none

/-- the value of a non-reference exchange if it is not missing or zero -/
def nzVal (x : Exch F P) : Option ℚ :=
  if x.isRef then none
  else match x.val with
    | some v => if v = 0 then none else some v
    | none => none

/-- What an exchange of product flow `u` contributes to the technology side:
the product flow it depends on and the amount, inputs positive and outputs negative. -/
def depOf (db : DB F P) (strat : Strategy) (x : Exch F P) : Option ((F × P) × ℚ) :=
  match nzVal x, staticTerm db strat x with
  | some v, some t =>
    if db.refDir (x.flow, t) = none then none
    else some ((x.flow, t), if x.dir = .output then -v else v)
  | _, _ => none

/-- What an exchange contributes to the exterior side: flow, direction and amount. -/
def cutOf (db : DB F P) (strat : Strategy) (x : Exch F P) : Option ((F × Dir) × ℚ) :=
  match nzVal x, staticTerm db strat x with
  | some v, none => some ((x.flow, x.dir), v)
  | _, _ => none

/-- dependencies of `u` on other product flows, in inventory order -/
def intOf (db : DB F P) (strat : Strategy) (u : F × P) (xs : List (Exch F P)) :
    List ((F × P) × (F × P) × ℚ) :=
  xs.filterMap fun x =>
    match depOf db strat x with
    | some (w, v) => if w = u then none else some (u, w, v)
    | none => none

/-- amounts of its own reference product that `u` consumes, in inventory order -/
def selfOf (db : DB F P) (strat : Strategy) (u : F × P) (xs : List (Exch F P)) : List ℚ :=
  xs.filterMap fun x =>
    match depOf db strat x with
    | some (w, v) => if w = u then some v else none
    | none => none

/-- exterior exchanges of `u`, in inventory order -/
def extOf (db : DB F P) (strat : Strategy) (u : F × P) (xs : List (Exch F P)) :
    List ((F × P) × (F × Dir) × ℚ) :=
  xs.filterMap fun x => (cutOf db strat x).map fun c => (u, c.1, c.2)

end Engine

namespace Engine
variable {F P : Type} [DecidableEq F] [DecidableEq P]

/-- total net amount of product flow `w` that `u` uses per unit of its reference product: the sum over the
exchanges of `u` that depend on `w`, inputs positive, outputs negative -/
def useOf (db : DB F P) (strat : Strategy) (u w : F × P) : ℚ :=
  ((db.inv u).map fun x =>
    match depOf db strat x with
    | some (w', v) => if w' = w then v else 0
    | none => 0).sum

/-- total amount of the exterior flow `e` exchanged by `u` -/
def emitOf (db : DB F P) (strat : Strategy) (u : F × P) (e : F × Dir) : ℚ :=
  ((db.inv u).map fun x =>
    match cutOf db strat x with
    | some (e', v) => if e' = e then v else 0
    | none => 0).sum

/-- The product flows a set of reference products gives rise to. -/
def Known (db : DB F P) (strat : Strategy) (vs : List (F × P)) (u : F × P) : Prop :=
  ∃ v ∈ vs, Reach db strat v u

end Engine

namespace Engine
variable {F P : Type} [DecidableEq F] [DecidableEq P]

/-- An exchange whose termination is ambiguous: it counts (not a reference, value present and non-zero), names no
termination, and more than one process offers its flow. -/
def Ambiguous (db : DB F P) (x : Exch F P) : Prop :=
  x.isRef = false ∧ (∃ v, x.val = some v ∧ v ≠ 0) ∧ x.term = none ∧ 2 ≤ (db.terms x.flow x.dir).length

/-- Product flow `u` has an ambiguous exchange. -/
def HasAmbiguity (db : DB F P) (u : F × P) : Prop := ∃ x ∈ db.inv u, Ambiguous db x

/-- The engine answers the same about product flows and components in both states: the same product flows are
known, in the same order; lookups, low-links and the traversal stack agree; and for every known product flow
the component, the members of the component, the inbound exchange value and the recorded dependencies and
exterior exchanges agree. -/
structure SameAnswers (s s' : State F P) : Prop where
  known : s'.pfIndex = s.pfIndex
  lookup : ∀ u, s'.pfs.get? u = s.pfs.get? u
  lowlink : ∀ u, s'.low.get? u = s.low.get? u
  stack : s'.stack = s.stack
  component : ∀ u ∈ s.pfIndex, ∃ n, s.sccOf.get? u = some n ∧ s'.sccOf.get? u = some n ∧
    ∃ l l', s.sccs.get? n = some l ∧ s'.sccs.get? n = some l' ∧ ∀ w, w ∈ l' ↔ w ∈ l
  inbound : ∀ u ∈ s.pfIndex, s'.ev.get? u = s.ev.get? u
  depends : ∀ u ∈ s.pfIndex, s'.interior.filter (fun e => decide (e.1 = u)) =
    s.interior.filter (fun e => decide (e.1 = u))
  exterior : ∀ u ∈ s.pfIndex, s'.cutoffs.filter (fun e => decide (e.1 = u)) =
    s.cutoffs.filter (fun e => decide (e.1 = u))

end Engine
