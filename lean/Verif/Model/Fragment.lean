import Verif.Base.Py
import Mathlib.Algebra.Order.Field.Rat
import Mathlib.Data.List.Sort

/-!
Model of fragments: `lcatools/entities/fragments.py`, the traversal-related part of `lcatools/terminations.py`,
`group_ios` of `lcatools/fragment_flows.py`.

Simplifications:
* fragments are numbers, in the order of their uuids; flows `F` and quantities `Q` are values with equality;
* `Env` has what is read from flows: `flow.cf(quantity)` and `flow.reference_entity`;
* scenario names are strings; exchange values may also have the keys 0, 1 and tuples (from JSON). Other integers are left out;
* all fragments are of one origin (`is_local` holds for every fragment termination), and there are no terminations to contexts;
* printing, unit scores and stage names are left out. The depth of recursion is bounded by `fuel`, as Python bounds it.
-/

namespace Frg

inductive Dir | input | output
  deriving DecidableEq, Repr

/-- `comp_dir`, interfaces/iindex.py:24-30 -/
def Dir.comp : Dir → Dir
  | .input => .output
  | .output => .input

/-- keys of an exchange value table, fragments.py:51-55, 93-102, 652-657 -/
inductive Key
  | cached                       -- 0
  | observed                     -- 1
  | str (s : String)
  | tup (l : List String)
  deriving DecidableEq, Repr

/-- a scenario argument: None, one scenario, or a set of scenarios in the order of iteration -/
inductive Scen
  | none
  | one (k : Key)
  | many (l : List Key)
  deriving DecidableEq, Repr

inductive Err
  | scenarioConflict | flowConversion | missingFlow | cumulating | zeroDivision | foundBalance | keyError
  | assertion | recursion | invalidParentChild | dependentFragment | cacheAlreadySet | attributeError | balanceAlreadySet | typeError
  deriving DecidableEq, Repr

/-- what a flow is terminated to: nothing, a process, or a fragment (a foreground node if it is the fragment itself) -/
inductive Target
  | null
  | process
  | frag (i : ℕ)
  deriving DecidableEq, Repr

/-- FlowTermination, terminations.py:42-174 -/
structure Term (F : Type) where
  target : Target
  flow : F                    -- term_flow
  descend : Bool := true
  deriving DecidableEq

def Term.isNull {F : Type} (t : Term F) : Bool :=
  match t.target with
  | .null => true
  | _ => false

/-- what is read from flows -/
structure Env (F Q : Type) where
  cf : F → Q → ℚ
  refQ : F → Q

/-- LcFragment, fragments.py:133-188 -/
structure Node (F Q : Type) where
  parent : Option ℕ := none           -- reference_entity
  kids : List ℕ := []                 -- _child_flows, a set
  flow : F
  dir : Dir
  evs : Dict Key (Option ℚ)           -- _exchange_values
  terms : Dict (Option Key) (Term F)  -- _terminations
  bg : Bool := false                  -- is_background
  bal : Bool := false                 -- is_balance
  cons : Option Q := none             -- _conserved_quantity

/-- whose fragment flow: a fragment's, or a ghost's (fragment_flows.py:336-344) -/
inductive Who
  | frag (i : ℕ)
  | ghost (parent : ℕ)
  deriving DecidableEq, Repr

/-- FragmentFlow, fragment_flows.py:129-145. `flow` and `dir` are those of the fragment. `sub` are the aggregated
subfragment flows, if any. -/
structure FF (F : Type) where
  who : Who
  flow : F
  dir : Dir
  mag : ℚ
  nw : ℚ
  term : Term F
  conserved : Bool
  sub : Option (List (FF F)) := none

variable {F Q : Type} [DecidableEq F] [DecidableEq Q]

/-- `scale`, fragment_flows.py:161-163 -/
def FF.scale (x : ℚ) (f : FF F) : FF F := { f with mag := x * f.mag, nw := x * f.nw }

/-- `FragmentFlow.cutoff`, fragment_flows.py:124-128 -/
def FF.cutoff (parent : ℕ) (flow : F) (dir : Dir) (mag : ℚ) : FF F :=
  { who := .ghost parent, flow := flow, dir := dir, mag := mag, nw := mag, term := { target := .null, flow := flow },
    conserved := false }

/-! ### exchange values -/

/-- `_match_scenario_ev`, fragments.py:562-572 -/
def matchEv (evs : Dict Key (Option ℚ)) (sc : Scen) : Except Err (Option Key) :=
  match sc with
  | .none => .ok none
  | .one k => .ok (if evs.has k then some k else none)
  | .many l =>
    match l.filter evs.has with
    | [] => .ok none
    | [k] => .ok (some k)
    | _ => .error .scenarioConflict

/-- `cached_ev`, fragments.py:414-416: `self._exchange_values[0] or 1.0` -/
def cachedEv (evs : Dict Key (Option ℚ)) : ℚ :=
  match (evs.get? .cached).join with
  | none => 1
  | some v => if v = 0 then 1 else v

/-- `observed_ev`, fragments.py:445-450 -/
def observedEv (isRef : Bool) (evs : Dict Key (Option ℚ)) : Option ℚ :=
  let ev := (evs.get? .observed).join
  if isRef ∧ ev = some 0 then (evs.get? .cached).join else ev

/-- `exchange_value`, fragments.py:588-606 -/
def exchangeValue (n : Node F Q) (sc : Scen) (obs : Bool) : Except Err ℚ :=
  match matchEv n.evs sc with
  | .error e => .error e
  | .ok none => .ok (if obs then (observedEv n.parent.isNone n.evs).getD 0 else cachedEv n.evs)
  | .ok (some k) => .ok ((n.evs.get? k).join.getD 0)

/-! ### terminations -/

/-- `_match_scenario_term`, fragments.py:574-586, and the lookup `self._terminations[...]`, 1293-1294 -/
def termOf (n : Node F Q) (sc : Scen) : Except Err (Term F) :=
  let get (k : Option Key) : Except Err (Term F) :=
    match n.terms.get? k with
    | some t => .ok t
    | none => .error .keyError
  match sc with
  | .none => get none
  | .one k => if k = .cached ∨ k = .str "0" then get none else get (if n.terms.has (some k) then some k else none)
  | .many l =>
    match l.filter fun k => n.terms.has (some k) with
    | [] => get none
    | [k] => get (some k)
    | _ => .error .scenarioConflict

/-- `flow_conversion`, terminations.py:311-347, which is `node_weight_multiplier` (364-366), since the
inbound exchange value is 1 (356-358) -/
def conversion (E : Env F Q) (flow termFlow : F) : Except Err ℚ :=
  if flow = termFlow then .ok 1
  else if E.refQ flow = E.refQ termFlow then .ok 1
  else if E.cf flow (E.refQ termFlow) = 0 then
    if E.cf termFlow (E.refQ flow) = 0 then .error .flowConversion else .ok (1 / E.cf termFlow (E.refQ flow))
  else .ok (E.cf flow (E.refQ termFlow))

/-! ### group_ios -/

/-- the amount of a fragment flow, inflows positive, fragment_flows.py:241-246 -/
def signed (d : Dir) (x : ℚ) : ℚ :=
  match d with
  | .input => x
  | .output => -x

/-- the table `out`, fragment_flows.py:235-246 -/
def outTable (ffs : List (FF F)) : Dict F ℚ :=
  (ffs.filter fun f => f.term.isNull).foldl
    (fun d f => d.set f.flow ((d.get? f.flow).getD 0 + signed f.dir f.mag)) []

/-- `if value < 0: 'Output' else 'Input'` -/
def dirOf (x : ℚ) : Dir := if x < 0 then .output else .input

/-- `group_ios`, fragment_flows.py:225-295: `refFlow`, `refDir` are those of `parent.top()`; `ref`: `include_ref_flow` -/
def groupIos (parent : ℕ) (refFlow : F) (refDir : Dir) (ffs : List (FF F)) (ref : Bool) :
    Except Err (List (FF F) × List (FF F)) :=
  let out := outTable ffs
  let internal := ffs.filter fun f => !f.term.isNull
  let entries (out : Dict F ℚ) : List (FF F) := out.map fun kv => FF.cutoff parent kv.1 (dirOf kv.2) |kv.2|
  if !ref then .ok (entries out, internal)
  else
    match ffs with
    | [] => .error .attributeError     -- IndexError; a traversal is never empty
    | f0 :: _ =>
      match out.get? refFlow with
      | some val =>
        if dirOf val = refDir then
          if |val| < f0.mag then
            .ok (entries (out.set refFlow (if refDir = .output then val + f0.mag else val - f0.mag)), internal)
          else .ok (FF.cutoff parent refFlow (dirOf val).comp f0.mag :: entries out, internal)
        else .error .cumulating
      | none => .ok (FF.cutoff parent refFlow refDir.comp f0.mag :: entries out, internal)

/-! ### traversal -/

/-- all fragments -/
abbrev Heap (F Q : Type) := ℕ → Node F Q

/-- `child_flows`, fragments.py:255-258 -/
def children (n : Node F Q) : List ℕ := n.kids.insertionSort (· ≤ ·)

/-- `top`, fragments.py:202-205 -/
def top (H : Heap F Q) : ℕ → ℕ → Except Err ℕ
  | 0, _ => .error .recursion
  | fuel + 1, i =>
    match (H i).parent with
    | none => .ok i
    | some p => top H fuel p

/-- the flows of a traversed child, and its conserved value -/
abbrev Res (F : Type) := Except Err (List (FF F) × Option ℚ)

/-- the loop over child flows in `_traverse_fg_node`, fragments.py:1146-1161: flows, stock, balance flow found -/
def fgLoop (visit : ℕ → Res F) : List ℕ → ℚ → Except Err (List (FF F) × ℚ × Option ℕ)
  | [], stock => .ok ([], stock, none)
  | c :: cs, stock =>
    match visit c with
    | .ok (l, cons) =>
      match fgLoop visit cs (stock + cons.getD 0) with
      | .ok (l', s, b) => .ok (l ++ l', s, b)
      | .error e => .error e
    | .error .foundBalance =>
      match fgLoop visit cs stock with
      | .ok (l', s, b) => .ok (l', s, some (b.getD c))
      | .error e => .error e
    | .error e => .error e

/-- the loop over child flows in `_traverse_subfragment`, fragments.py:1220-1239: flows, rest of the inventory -/
def subLoop (H : Heap F Q) (visit : ℕ → ℚ → Res F) : List ℕ → List (FF F) → Except Err (List (FF F) × List (FF F))
  | [], inv => .ok ([], inv)
  | c :: cs, inv =>
    match inv.find? fun m => decide (m.flow = (H c).flow) with
    | none => subLoop H visit cs inv
    | some m =>
      match visit c (if m.dir = (H c).dir then m.mag else -m.mag) with
      | .error e => .error e
      | .ok (l, _) =>
        match subLoop H visit cs (inv.eraseP fun m => decide (m.flow = (H c).flow)) with
        | .ok (l', r) => .ok (l ++ l', r)
        | .error e => .error e

/-- the stock of the conserved quantity a node starts with, fragments.py:1139-1144: inputs to the node are positive -/
def inbound (E : Env F Q) (n : Node F Q) (stock0 : ℚ) : ℚ :=
  match n.cons with
  | none => stock0
  | some q => if n.dir = .input then -(stock0 * E.cf n.flow q) else stock0 * E.cf n.flow q

/-- `_traverse_fg_node`, fragments.py:1086-1177; `visit c cq bal` traverses child c with the node weight of `ff` -/
def fgNode (E : Env F Q) (H : Heap F Q) (i : ℕ) (stock0 : ℚ) (ff : FF F)
    (visit : ℕ → Option Q → Option ℚ → Res F) : Except Err (List (FF F)) :=
  let n := H i
  match fgLoop (fun c => visit c n.cons none) (children n) (inbound E n stock0) with
  | .error e => .error e
  | .ok (l, _, none) => .ok (ff :: l)
  | .ok (l, s, some b) =>
    match visit b none (some (if (H b).dir = .input then -s else s)) with
    | .error e => .error e
    | .ok (l', _) => .ok (ff :: l ++ l')

/-- `_do_subfragment_traversal` (fragments.py:1352-1433) and the rest of `_traverse_subfragment` (1216-1245), given the
unit inventory of the subfragment; `visit c nw bal` traverses child c -/
def subNode (H : Heap F Q) (i : ℕ) (ff : FF F) (inv internal : List (FF F)) (visit : ℕ → ℚ → ℚ → Res F) :
    Except Err (List (FF F)) :=
  let n := H i
  match inv.find? fun m => decide (m.flow = ff.term.flow) with
  | none => .error .missingFlow
  | some m =>
    if m.mag = 0 then .error .zeroDivision
    else
      let dnw := ff.nw / (if m.dir = n.dir then -m.mag else m.mag)
      let ffs := if ff.term.descend then ff :: internal.map (FF.scale dnw)
        else [{ ff with nw := dnw, sub := some internal }]
      match subLoop H (fun c ev => visit c dnw ev) (children n) (inv.eraseP fun m => decide (m.flow = ff.term.flow)) with
      | .error e => .error e
      | .ok (l, rest) => .ok (ffs ++ l ++ rest.map (FF.scale dnw))

/-- the conserved value a fragment reports, and whether its flow is conserved, fragments.py:1306-1328 -/
def conserved (E : Env F Q) (H : Heap F Q) (n : Node F Q) (ev : ℚ) (cq : Option Q) : Except Err (Option ℚ × Bool) :=
  match cq with
  | some q =>
    if n.bal then .error .foundBalance
    else
      let v := ev * E.cf n.flow q
      .ok (some (if n.dir = .output then -v else v), decide (v ≠ 0))
  | none =>
    if n.bal then .ok (none, true)
    else match n.cons with
      | none => .ok (none, false)
      | some q =>       -- the property balance_flow, 664-673
        if (children n).any fun c => (H c).bal then .ok (none, decide (E.cf n.flow q ≠ 0)) else .error .missingFlow

/-- the exchange value used: the one given by the parent, or the fragment's own, fragments.py:1280-1291 -/
def evOf (n : Node F Q) (sc : Scen) (obs : Bool) (bal : Option ℚ) : Except Err ℚ :=
  match bal with
  | some b => .ok b
  | none => exchangeValue n sc obs

/-- the node weight, fragments.py:1296-1302 -/
def nodeWeight (E : Env F Q) (n : Node F Q) (term : Term F) (up mag : ℚ) : Except Err ℚ :=
  if n.parent = none then .ok up
  else if term.isNull then .ok mag
  else (conversion E n.flow term.flow).map (mag * ·)

/-- `_traverse_node` up to the fragment flow it makes, fragments.py:1270-1332: the flow, and the conserved value -/
def enter (E : Env F Q) (H : Heap F Q) (sc : Scen) (obs : Bool) (seen : List ℕ) (i : ℕ) (up : ℚ) (cq : Option Q)
    (bal : Option ℚ) : Except Err (FF F × Option ℚ) :=
  if (H i).parent = none ∧ i ∈ seen then .error .invalidParentChild
  else
    match evOf (H i) sc obs bal with
    | .error e => .error e
    | .ok ev =>
      match termOf (H i) sc with
      | .error e => .error e
      | .ok term =>
        match nodeWeight E (H i) term up (up * ev) with
        | .error e => .error e
        | .ok nw =>
          match conserved E H (H i) ev cq with
          | .error e => .error e
          | .ok (cv, cons) =>
            .ok ({ who := .frag i, flow := (H i).flow, dir := (H i).dir, mag := up * ev, nw := nw, term := term,
                   conserved := cons }, cv)

/-- the stock of a foreground node at the start, fragments.py:1127-1135 -/
def stock0 (n : Node F Q) (sc : Scen) (obs : Bool) (fg : Bool) : Except Err ℚ :=
  if fg ∧ n.parent = none then exchangeValue n sc obs else .ok 1

/-- a foreground node or process -/
def fgFrom (E : Env F Q) (H : Heap F Q) (sc : Scen) (obs : Bool)
    (visit : List ℕ → ℕ → ℚ → Option Q → Option ℚ → Res F) (seen : List ℕ) (i : ℕ) (ff : FF F) (isFg : Bool) :
    Except Err (List (FF F)) :=
  match stock0 (H i) sc obs isFg with
  | .error e => .error e
  | .ok s => fgNode E H i s ff fun c cq bal => visit seen c ff.nw cq bal

/-- the flows below fragment i, given its own; `visit` traverses a fragment. fragments.py:1336-1349 -/
def expand (E : Env F Q) (H : Heap F Q) (sc : Scen) (obs : Bool) (topOf : ℕ → Except Err ℕ)
    (visit : List ℕ → ℕ → ℚ → Option Q → Option ℚ → Res F) (seen : List ℕ) (i : ℕ) (ff : FF F) :
    Except Err (List (FF F)) :=
  match ff.term.target with
  | .null => .ok [ff]
  | .process => fgFrom E H sc obs visit seen i ff false
  | .frag j =>
    if j = i then fgFrom E H sc obs visit seen i ff true
    else if (H j).bg then         -- collapse trivial bg terminations into the parent fragment flow, 1209-1214
      match visit [] j ff.nw none none with
      | .error e => .error e
      | .ok ([f], _) => .ok [{ f with who := .frag i, flow := (H i).flow, dir := (H i).dir }]
      | .ok _ => .error .assertion
    else
      match topOf j with
      | .error e => .error e
      | .ok t =>
        match visit [] t 1 none none with
        | .error e => .error e
        | .ok (ffs, _) =>
          match groupIos j (H t).flow (H t).dir ffs true with
          | .error e => .error e
          | .ok (inv, internal) => subNode H i ff inv internal fun c w ev => visit seen c w none (some ev)

/-- `_traverse_node`, fragments.py:1247-1349, with `unit_inventory` (1023-1045) and `traverse` (1080-1084) -/
def travNode (E : Env F Q) (H : Heap F Q) (sc : Scen) (obs : Bool) :
    ℕ → List ℕ → ℕ → ℚ → Option Q → Option ℚ → Res F
  | 0, _, _, _, _, _ => .error .recursion
  | fuel + 1, seen, i, up, cq, bal =>
    match enter E H sc obs seen i up cq bal with
    | .error e => .error e
    | .ok (ff, cv) =>
      if ff.term.isNull ∨ (H i).bg ∨ ff.mag = 0 then .ok ([ff], cv)
      else
        match expand E H sc obs (top H fuel) (travNode E H sc obs fuel) (if (H i).parent = none then i :: seen else seen)
            i ff with
        | .error e => .error e
        | .ok l => .ok (l, cv)

/-- `traverse`, fragments.py:1080-1084 -/
def traverse (E : Env F Q) (H : Heap F Q) (sc : Scen) (obs : Bool) (fuel i : ℕ) : Except Err (List (FF F)) :=
  (travNode E H sc obs fuel [] i 1 none none).map Prod.fst

/-- `unit_inventory`, fragments.py:1023-1045 -/
def unitInventory (E : Env F Q) (H : Heap F Q) (sc : Scen) (obs : Bool) (fuel i : ℕ) :
    Except Err (List (FF F) × List (FF F)) :=
  match top H fuel i with
  | .error e => .error e
  | .ok t =>
    match traverse E H sc obs fuel t with
    | .error e => .error e
    | .ok ffs => groupIos i (H t).flow (H t).dir ffs true

end Frg
