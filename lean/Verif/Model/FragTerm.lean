import Verif.Model.FragmentClone

/-!
Model of `terminate_fragment`: antelope_catalog/implementations/foreground.py:165-215, with `find_or_create_term` (120-138) and
`FlowTermination.terminates` (lcatools/terminations.py:188-206), over the fragments of `Verif/Model/FragmentEdit.lean`.

Simplifications, besides those of `Verif/Model/FragmentClone.lean`:
* the inventory of the process for the flow of the termination, and whether a product flow is in the background, are given (`BackgroundRequired` counts as
  false, foreground.py:199-202);
* fragments made draw the numbers `nm 0`, `nm 1`, …;
* the process a fragment is terminated to by default is kept beside the heap (`pids`); flows match if they are equal; terminations have the default direction;
* the reference fragments of the archive are a list, in the order in which `fragments` gives them; comments and stage names are left out.
-/

namespace Fti

open Frg

/-- an exchange of an inventory -/
structure Ex (R F : Type) where
  flow : F
  dir : Dir
  value : Option ℚ
  term : Option R
  elem : Bool
  deriving DecidableEq

/-- all fragments, and the foreground archive -/
structure St (R F Q : Type) where
  heap : Heap F Q
  refs : List ℕ           -- reference fragments that were added to the archive
  pids : Dict ℕ R         -- external reference of the process a fragment is terminated to
  tags : Dict ℕ R         -- `fragment['termination']`
  made : ℕ                -- how many fragments were made

variable {R F Q : Type} [DecidableEq R] [DecidableEq F] [DecidableEq Q]

/-- a call that changes fragments only -/
def lift (s : St R F Q) : Out (Heap F Q) Err Unit → Out (St R F Q) Err Unit
  | .ok _ H => .ok () { s with heap := H }
  | .err e H => .err e { s with heap := H }

/-- `f.term.terminates(x)`, terminations.py:188-206, x having the termination t; the direction of a termination is the reverse of the fragment's (170-174) -/
def terminates (s : St R F Q) (x : Ex R F) (t : R) (i : ℕ) : Bool :=
  match (s.heap i).terms.get? none with
  | none => false
  | some tm =>
    decide (tm.flow = x.flow) && decide ((s.heap i).dir.comp = x.dir.comp) &&
      match tm.target with
      | .process => decide (s.pids.get? i = some t)
      | _ => false

/-- `create_fragment` with a parent, foreground.py:190-192, 196 -/
def newChild (E : Env F Q) (nm : ℕ → ℕ) (f : ℕ) (x : Ex R F) (s : St R F Q) : Out (St R F Q) Err ℕ :=
  (lift { s with made := s.made + 1 } (createFragment E s.heap (nm s.made) x.flow x.dir (some f) (some (x.value.getD 1)) false false)).bind fun _ s' =>
    .ok (nm s.made) s'

/-- `find_or_create_term` with `background=True`, foreground.py:120-138 -/
def findOrCreate (E : Env F Q) (fuel : ℕ) (nm : ℕ → ℕ) (x : Ex R F) (t : R) (s : St R F Q) : Out (St R F Q) Err ℕ :=
  match s.refs.find? fun i => (s.heap i).bg && terminates s x t i with
  | some i => .ok i s
  | none =>
    let k := nm s.made
    (lift { s with made := s.made + 1 } (createFragment E s.heap k x.flow x.dir.comp none (some 1) false true)).bind fun _ s =>
      (lift s (terminateTo E fuel s.heap k none { target := .process, flow := x.flow })).bind fun _ s =>
        .ok k { s with refs := s.refs ++ [k], pids := s.pids.set k t }

/-- termination of the child k for the product flow x, foreground.py:198-215 -/
def link (E : Env F Q) (fuel : ℕ) (nm : ℕ → ℕ) (inBg : R → F → Bool) (x : Ex R F) (k : ℕ) (s : St R F Q) : Out (St R F Q) Err Unit :=
  match x.term with
  | none => .ok () s
  | some t =>
    if inBg t x.flow then
      (findOrCreate E fuel nm x t s).bind fun j s =>
        lift s (terminateTo E fuel s.heap k none { target := .frag j, flow := (s.heap k).flow })
    else
      match s.refs.find? fun i => !(s.heap i).bg && terminates s x t i with
      | some j => lift s (terminateTo E fuel s.heap k none { target := .frag j, flow := (s.heap k).flow })
      | none => .ok () { s with tags := s.tags.set k t }

/-- one child flow, foreground.py:189-193 (elementary) or 195-215 -/
def child (E : Env F Q) (fuel : ℕ) (nm : ℕ → ℕ) (inBg : R → F → Bool) (f : ℕ) (x : Ex R F) (s : St R F Q) : Out (St R F Q) Err Unit :=
  (newChild E nm f x s).bind fun k s =>
    if x.elem then lift s (toForeground s.heap k) else link E fuel nm inBg x k s

/-- the two loops of `_child_fragments`, foreground.py:183-215 -/
def loop (E : Env F Q) (fuel : ℕ) (nm : ℕ → ℕ) (inBg : R → F → Bool) (f : ℕ) : List (Ex R F) → St R F Q → Out (St R F Q) Err Unit
  | [], s => .ok () s
  | x :: xs, s => (child E fuel nm inBg f x s).bind fun _ s => loop E fuel nm inBg f xs s

/-- the exchanges for which there is a child flow, in order, foreground.py:185, 188-189, 195 -/
def chosen (elementary : Bool) (l : List (Ex R F)) : List (Ex R F) :=
  (if elementary then l.filter fun x => x.elem else []) ++ l.filter fun x => !x.elem

/-- `terminate_fragment`, foreground.py:165-181, to a process p, with its inventory for a flow (none: raises) -/
def terminateProcess (E : Env F Q) (fuel : ℕ) (nm : ℕ → ℕ) (inBg : R → F → Bool) (inv : F → Option (List (Ex R F))) (f : ℕ) (p : R) (tflow : Option F)
    (k : Option Key) (elementary : Bool) (s : St R F Q) : Out (St R F Q) Err Unit :=
  let fl := tflow.getD (s.heap f).flow
  (lift s (terminateTo E fuel s.heap f k { target := .process, flow := fl })).bind fun _ s =>
    let s := if k = none then { s with pids := s.pids.set f p } else s
    match inv fl with
    | none => .err .attributeError s
    | some l =>
      (loop E fuel nm inBg f (chosen elementary l) s).bind fun _ s =>
        lift s (observe E (match k with | none => .none | some k => .one k) fuel f s.heap)

/-- `terminate_fragment`, foreground.py:165-181, to the fragment j: `inventory` of a fragment (fragments.py:1000) has no argument `ref_flow`; if the termination
was replaced by a cut-off (fragments.py:806-813) there is no node to ask -/
def terminateFrag (E : Env F Q) (fuel : ℕ) (f j : ℕ) (tflow : Option F) (k : Option Key) (s : St R F Q) : Out (St R F Q) Err Unit :=
  (lift s (terminateTo E fuel s.heap f k { target := .frag j, flow := tflow.getD (s.heap f).flow })).bind fun _ s =>
    match (s.heap f).terms.get? k with
    | some tm => if tm.isNull then .err .attributeError s else .err .typeError s
    | none => .err .keyError s

end Fti
