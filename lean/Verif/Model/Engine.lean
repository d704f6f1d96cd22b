import Mathlib.Algebra.Field.Rat
import Mathlib.Algebra.Order.Ring.Unbundled.Rat
import Verif.Base.Dict

/-!
Model of the Tarjan traversal of `antelope_background/engine/background_engine.py`,
`tarjan_stack.py`, `product_flow.py` and `emission.py`.

Simplifications that hold for the whole file:
* floats are rationals;
* entities are represented by their `external_ref` (the engine only compares keys built from them);
* `_stack_hash` is identified with the membership of `_stack` (both are written by the same three
  methods, tarjan_stack.py:34-45, 47-60);
* printing is dropped; `net_coproducts` only matters inside `if 0:` (background_engine.py:612), so the
  dead branch is dropped;
* Python's recursion limit (`sys.setrecursionlimit`, background_engine.py:579-580) is the fuel argument:
  running out of it is the exception `recursion`.
-/

namespace Engine

/-- Exchange directions, lcatools/interfaces/iindex.py (`directions`). -/
inductive Dir | input | output
  deriving DecidableEq, Repr

/-- `comp_dir`, lcatools/interfaces/iindex.py. -/
def Dir.comp : Dir → Dir
  | .input => .output
  | .output => .input

/-- The exceptions the modelled code can raise. -/
inductive Err
  | termination      -- TerminationError (background_engine.py:28)
  | notImplemented   -- strategy 'mix' (background_engine.py:300)
  | keyError         -- unknown strategy (background_engine.py:303); missing dict key
  | recursion        -- RecursionError
  | indexError       -- pop from empty list, list[-1] of an empty list
  | valueError       -- 'ProductFlow already in stack' (tarjan_stack.py:38)
  | attributeError   -- use of None as a product flow (background_engine.py:582-584)
  deriving DecidableEq, Repr

/-- `multi_term` strategies, background_engine.py:289-303. -/
inductive Strategy | abort | first | last | cutoff | mix | other
  deriving DecidableEq, Repr

variable (F P : Type)

/-- One exchange as `parent.process.inventory()` yields it (background_engine.py:620-638).
`val` is `exch[rx]`, the exchange relation with respect to the parent's reference exchange. -/
structure Exch where
  flow : F
  dir : Dir
  term : Option P
  isRef : Bool
  val : Option ℚ

/-- The index interface the engine is built on (`self.fg`, background_engine.py:116).
`inv (f, p)` : the inventory of process `p`, exchange values relative to its reference flow `f`;
`terms f d` : `[t for t in fg.terminate(f, direction=d)]` (background_engine.py:283);
`refDir f p` : direction of `p.reference(f)`, `none` when that raises StopIteration
(product_flow.py:40-44). `fg.get` is taken to succeed. -/
structure DB where
  inv : F × P → List (Exch F P)
  terms : F → Dir → List P
  refDir : F × P → Option Dir

/-- Engine state.  `stack`, `interior`, `cutoff` have the newest element first (Python appends and
pops at the end); `pfIndex` is in Python order.  background_engine.py:113-147, tarjan_stack.py:10-25. -/
structure State where
  low : Dict (F × P) ℕ := []            -- _lowlinks
  pfs : Dict (F × P) ℕ := []            -- _product_flows
  pfIndex : List (F × P) := []          -- _pf_index
  ev : Dict (F × P) ℚ := []             -- ProductFlow._inbound_ev by key
  stack : List (F × P) := []            -- tstack._stack
  sccs : Dict ℕ (List (F × P)) := []    -- tstack._sccs
  sccOf : Dict (F × P) ℕ := []          -- tstack._scc_of
  interior : List ((F × P) × (F × P) × ℚ) := []   -- _interior_incoming
  cutoffs : List ((F × P) × (F × Dir) × ℚ) := []  -- _cutoff_incoming
  emissions : List (F × Dir) := []      -- keys of _ef_index in order; _emissions is its inverse

variable {F P} [DecidableEq F] [DecidableEq P]

/-- A call either returns, or raises and leaves the state as it is at this moment. -/
inductive Res (F P : Type) (α : Type)
  | ok (a : α) (s : State F P)
  | err (e : Err) (s : State F P)

/-- `_set_lowlink`, background_engine.py:215-225. -/
def setLow (s : State F P) (v : F × P) (n : ℕ) : State F P :=
  match s.low.get? v with
  | some m => { s with low := s.low.set v (min m n) }
  | none => { s with low := s.low.set v n }

/-- `_add_product_flow` + the `ProductFlow` constructor, background_engine.py:186-190,
product_flow.py:10-49, tarjan_stack.py:34-40. `add_to_stack` raises after the other updates. -/
def addProductFlow (s : State F P) (v : F × P) (d : Dir) : Res F P Unit :=
  let ix := s.pfIndex.length
  let s1 := { s with pfs := s.pfs.set v ix,
                     ev := s.ev.set v (match d with | .input => -1 | .output => 1) }
  let s2 := setLow s1 v ix
  let s3 := { s2 with pfIndex := s2.pfIndex ++ [v] }
  if v ∈ s3.stack then .err .valueError s3
  else .ok () { s3 with stack := v :: s3.stack }

/-- `_create_product_flow`, background_engine.py:242-257: `ok false` is Python's `None`
(no matching reference, nothing changed). -/
def createProductFlow (db : DB F P) (s : State F P) (v : F × P) : Res F P Bool :=
  match db.refDir v with
  | none => .ok false s
  | some d =>
    match addProductFlow s v d with
    | .ok () s' => .ok true s'
    | .err e s' => .err e s'

/-- `_add_emission`, background_engine.py:259-268 (key only). -/
def addEmission (s : State F P) (k : F × Dir) : State F P :=
  if k ∈ s.emissions then s else { s with emissions := s.emissions ++ [k] }

/-- `terminate`, background_engine.py:270-304. -/
def terminate (db : DB F P) (strat : Strategy) (emissions : List (F × Dir)) (x : Exch F P) :
    Except Err (Option P) :=
  match x.term with
  | some t => .ok (some t)
  | none =>
    if (x.flow, x.dir) ∈ emissions then .ok none
    else
      match db.terms x.flow x.dir with
      | [] => .ok none
      | [t] => .ok (some t)
      | t :: ts =>
        match strat with
        | .abort => .error .termination
        | .first => .ok (some t)
        | .last => .ok (some ((t :: ts).getLast (by simp)))
        | .cutoff => .ok none
        | .mix => .error .notImplemented
        | .other => .error .keyError

/-- `ProductFlow.adjust_ev`, product_flow.py:79-93. -/
def adjustEv (cur value : ℚ) : ℚ :=
  if value = cur then cur
  else if cur < 0 then cur + value
  else cur - value

/-- `add_interior`, background_engine.py:711-725. -/
def addInterior (s : State F P) (parent term : F × P) (v : ℚ) : State F P :=
  if parent = term then
    { s with ev := s.ev.set parent (adjustEv ((s.ev.get? parent).getD 0) v) }
  else { s with interior := (parent, term, v) :: s.interior }

/-- `add_cutoff`, background_engine.py:702-709. -/
def addCutoff (s : State F P) (parent : F × P) (e : F × Dir) (v : ℚ) : State F P :=
  { s with cutoffs := (parent, e, v) :: s.cutoffs }

/-- the pops of `label_scc`, tarjan_stack.py:54-60: nodes popped (in pop order) and what is left;
`none` if the stack runs empty (IndexError). -/
def popUntil (key : F × P) : List (F × P) → Option (List (F × P) × List (F × P))
  | [] => none
  | v :: st =>
    if v = key then some ([v], st)
    else (popUntil key st).map fun r => (v :: r.1, r.2)

/-- `_sccs[index].add(node); _scc_of[node] = index`, tarjan_stack.py:57-58. -/
def labelNode (index : ℕ) (s : State F P) (v : F × P) : State F P :=
  let members := (s.sccs.get? index).getD []
  { s with sccs := s.sccs.set index (if v ∈ members then members else members ++ [v]),
           sccOf := s.sccOf.set v index }

/-- `label_scc`, tarjan_stack.py:47-60. -/
def labelScc (s : State F P) (index : ℕ) (key : F × P) : Res F P Unit :=
  match popUntil key s.stack with
  | none => .err .indexError s
  | some (popped, rest) => .ok () { popped.foldl (labelNode index) s with stack := rest }

/-- inner loop of `_rm_product_flow_children`, background_engine.py:201-207: pop `_pf_index` until `pf`. -/
def rmIndexUntil (pf : F × P) : ℕ → State F P → Option (State F P)
  | 0, _ => none
  | n + 1, s =>
    match s.pfIndex.getLast? with
    | none => none
    | some z =>
      let s' := { s with pfIndex := s.pfIndex.dropLast, low := s.low.del z, pfs := s.pfs.del z }
      if z = pf then some s' else rmIndexUntil pf n s'

/-- `while xs[-1].parent is pf: xs.pop()` (background_engine.py:208-211), newest first;
`none` when the list runs empty: `xs[-1]` raises IndexError. -/
def popWhileParent {A : Type} (pf : F × P) : List ((F × P) × A) → Option (List ((F × P) × A))
  | [] => none
  | x :: xs => if x.1 = pf then popWhileParent pf xs else some (x :: xs)

/-- `_rm_product_flow_children`, background_engine.py:192-213.
When an `IndexError` occurs in the middle the state keeps the updates made so far. -/
def rmChildren (bad : F × P) : ℕ → State F P → Res F P Unit
  | 0, s => .err .indexError s
  | n + 1, s =>
    match s.stack with
    | [] => .err .indexError s
    | pf :: st =>
      let s1 := { s with stack := st }
      match rmIndexUntil pf s1.pfIndex.length s1 with
      | none => .err .indexError s1
      | some s2 =>
        match popWhileParent pf s2.interior with
        | none => .err .indexError { s2 with interior := [] }
        | some ii =>
          let s3 := { s2 with interior := ii }
          match popWhileParent pf s3.cutoffs with
          | none => .err .indexError { s3 with cutoffs := [] }
          | some cc =>
            let s4 := { s3 with cutoffs := cc }
            if pf = bad then .ok () s4 else rmChildren bad n s4

/-- run the handler `except TerminationError: _rm_product_flow_children(v); raise`
(background_engine.py:583-589, 681-685). -/
def onTermError (v : F × P) (r : Res F P Unit) : Res F P Unit :=
  match r with
  | .err .termination s =>
    match rmChildren v (s.stack.length + 1) s with
    | .ok () s' => .err .termination s'
    | .err e s' => .err e s'
  | r => r

/-- sign convention of interior exchanges, background_engine.py:643-644. -/
def pval (x : Exch F P) (v : ℚ) : ℚ :=
  match x.dir with
  | .output => v * -1
  | .input => v

/-- the body of the exchange loop for one exchange, background_engine.py:622-696.
`rec` is the recursive call `_traverse_term_exchanges(i, ...)`. -/
def stepExch (db : DB F P) (strat : Strategy)
    (rec : F × P → State F P → Res F P Unit)
    (parent : F × P) (x : Exch F P) (s : State F P) : Res F P Unit :=
  if x.isRef then .ok () s          -- 623-625, 645-662
  else match x.val with
  | none => .ok () s                -- 639-641
  | some v =>
    if v = 0 then .ok () s          -- 639-641
    else match terminate db strat s.emissions x with   -- 664
    | .error e => .err e s
    | .ok none =>                                      -- 665-669
      let s1 := addEmission s (x.flow, x.dir)
      .ok () (addCutoff s1 parent (x.flow, x.dir) v)
    | .ok (some t) =>
      let i := (x.flow, t)
      match s.pfs.get? i with                          -- 672
      | none =>
        match createProductFlow db s i with            -- 675
        | .err e s' => .err e s'
        | .ok false s' => .ok () s'                    -- 676-678
        | .ok true s' =>
          match onTermError i (rec i s') with          -- 681-685
          | .err e s'' => .err e s''
          | .ok () s'' =>
            match s''.low.get? i with                  -- 688
            | none => .err .keyError s''
            | some n => .ok () (addInterior (setLow s'' parent n) parent i (pval x v))
      | some ix =>
        if i ∈ s.stack then                            -- 689-691
          .ok () (addInterior (setLow s parent ix) parent i (pval x v))
        else                                           -- 692-694
          .ok () (addInterior s parent i (pval x v))

/-- the exchange loop, background_engine.py:622. -/
def loopExch (db : DB F P) (strat : Strategy)
    (rec : F × P → State F P → Res F P Unit) (parent : F × P) :
    List (Exch F P) → State F P → Res F P Unit
  | [], s => .ok () s
  | x :: xs, s =>
    match stepExch db strat rec parent x s with
    | .ok () s' => loopExch db strat rec parent xs s'
    | .err e s' => .err e s'

/-- "name an SCC if we've found one", background_engine.py:698-700. -/
def finishNode (parent : F × P) (s : State F P) : Res F P Unit :=
  match s.low.get? parent, s.pfs.get? parent with
  | some l, some ix => if l = ix then labelScc s ix parent else .ok () s
  | _, _ => .err .keyError s

/-- `_traverse_term_exchanges`, background_engine.py:594-700, with `fuel` stack frames left. -/
def traverse (db : DB F P) (strat : Strategy) : ℕ → F × P → State F P → Res F P Unit
  | 0, _, s => .err .recursion s
  | fuel + 1, parent, s =>
    match loopExch db strat (traverse db strat fuel) parent (db.inv parent) s with
    | .ok () s' => finishNode parent s'
    | .err e s' => .err e s'

/-- `_add_ref_product`, background_engine.py:578-592. -/
def addRefProductRaw (db : DB F P) (strat : Strategy) (fuel : ℕ) (v : F × P) (s : State F P) :
    Res F P Unit :=
  match createProductFlow db s v with
  | .err e s' => .err e s'
  | .ok false s' => .err .attributeError s'
  | .ok true s' => onTermError v (traverse db strat fuel v s')

/-- `check_product_flow` + `_add_ref_product`: one round of the loop of `add_all_ref_products`
(background_engine.py:547-551) and the traversal part of `add_ref_product` (571-574). -/
def addRef (db : DB F P) (strat : Strategy) (fuel : ℕ) (v : F × P) (s : State F P) : Res F P Unit :=
  match s.pfs.get? v with
  | some _ => .ok () s
  | none => addRefProductRaw db strat fuel v s

/-- the loops of `add_all_ref_products`, background_engine.py:547-551, over the reference products in
the order in which `fg.processes()` and `p.references()` give them. -/
def addAll (db : DB F P) (strat : Strategy) (fuel : ℕ) : List (F × P) → State F P → Res F P Unit
  | [], s => .ok () s
  | v :: vs, s =>
    match addRef db strat fuel v s with
    | .ok () s' => addAll db strat fuel vs s'
    | .err e s' => .err e s'

end Engine
