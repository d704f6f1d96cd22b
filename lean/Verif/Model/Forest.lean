import Verif.Model.Fragment
import Mathlib.Logic.Function.Basic

/-!
Model of `create_forest`: `antelope_catalog/implementations/foreground.py:217-370`, with `has_child` (fragments.py:220-233) and
`split_subfragment` (fragment_editor.py:202-217).

Simplifications:
* processes `P` are external references, flows `F` are values with equality; fragments are numbers in the order of creation;
* of a fragment: parent, flow, direction, cached exchange value, and what it is terminated to. `bg p` is a fragment terminated to the
  background fragment of process p (`find_or_create_term`);
* the dependencies of a process are given (`deps`), and so is whether `terminate` refuses a termination because of a loop (`refuse`);
* storing the new fragments in the archive and observing them are left out. What is only printed (the links given up) is returned.
-/

namespace Fst

open Frg (Dir)

/-- what a fragment is terminated to: a process, a fragment, a background fragment of a process, or something else -/
inductive Tm (P : Type)
  | proc (p : P)
  | sub (i : ℕ)
  | bg (p : P)
  | other
  deriving DecidableEq

structure Node (P F : Type) where
  parent : Option ℕ
  flow : F
  dir : Dir
  ev : ℚ
  term : Tm P

/-- an exchange of `foreground()`: `proc` has an exchange of `flow` with the process `term` -/
structure Link (P F : Type) where
  proc : P
  flow : F
  dir : Dir
  value : ℚ
  term : P

/-- the fragments `0, …, n-1`, the table `term_map` and the set `_new_frags` -/
structure St (P F : Type) where
  n : ℕ
  node : ℕ → Node P F
  map : Dict P ℕ := []
  new : List ℕ := []

variable {P F : Type} [DecidableEq P] [DecidableEq F]

/-- a new fragment -/
def St.add (st : St P F) (x : Node P F) : St P F := { st with n := st.n + 1, node := Function.update st.node st.n x }

/-- `cached_ev`, fragments.py:414-416 -/
def readEv (v : ℚ) : ℚ := if v = 0 then 1 else v

/-- does fragment c lead to process t? The test in `has_child`, fragments.py:223-232 -/
def leads (st : St P F) (c : ℕ) (t : P) : Bool :=
  match (st.node c).term with
  | .proc p => decide (p = t)
  | .sub j =>
    match (st.node j).term with
    | .proc p => decide (p = t)
    | _ => false
  | .bg p => decide (p = t)
  | .other => false

/-- `has_child`, fragments.py:220-233 -/
def hasChild (st : St P F) (i : ℕ) (f : F) (d : Dir) (t : P) : Bool :=
  (List.range st.n).any fun c => decide ((st.node c).parent = some i) && decide ((st.node c).flow = f) && decide ((st.node c).dir = d) && leads st c t

/-- the loop over dependencies in `_new_node`, foreground.py:366-369; i is the new fragment -/
def addDeps (i : ℕ) : List (Link P F) → St P F → St P F
  | [], st => st
  | d :: ds, st => addDeps i ds (st.add { parent := some i, flow := d.flow, dir := d.dir, ev := d.value, term := .bg d.term })

/-- `_new_node`, foreground.py:349-370: without a parent, the direction is reversed (fragment_editor.py:45-50) and the fragment is terminated to
the link's process; the new fragment has the number `st.n` -/
def newNode (deps : P → F → List (Link P F)) (st : St P F) (x : Link P F) (par : Option ℕ) : St P F :=
  let t := match par with
    | none => x.proc
    | some _ => x.term
  let d := match par with
    | none => x.dir.comp
    | some _ => x.dir
  addDeps st.n (deps t x.flow) (st.add { parent := par, flow := x.flow, dir := d, ev := x.value, term := .proc t })

/-- `split_subfragment`, fragment_editor.py:202-217, 167-187: the surrogate takes the place and the value of fragment i, and is terminated to it -/
def split (refuse : St P F → ℕ → Bool) (st : St P F) (i : ℕ) : Option (St P F) :=
  let m := st.node i
  let st := st.add { parent := m.parent, flow := m.flow, dir := m.dir, ev := readEv m.ev, term := .sub i }
  let st := { st with node := Function.update st.node i { m with parent := none, ev := 1 } }
  if refuse st i then none else some st

/-- `_create_child`, foreground.py:272-291; none: an exception -/
def createChild (deps : P → F → List (Link P F)) (refuse : St P F → ℕ → Bool) (st : St P F) (par : ℕ) (x : Link P F) : Option (St P F) :=
  match st.map.get? x.term with
  | some i =>
    let c : Node P F := { parent := some par, flow := x.flow, dir := x.dir, ev := x.value, term := .sub i }
    if (st.node i).parent = none then some (st.add c)
    else
      match split refuse st i with
      | none => none
      | some st => some ({ st with map := st.map.set x.term i }.add c)
  | none =>
    let st' := newNode deps st x (some par)
    some { st' with map := st'.map.set x.term st.n, new := st.n :: st'.new }

/-- `_try_exch`, foreground.py:293-301 -/
def tryExch (deps : P → F → List (Link P F)) (refuse : St P F → ℕ → Bool) (st : St P F) (par : ℕ) (x : Link P F) : Option (St P F) :=
  if par ∉ st.new then some st
  else if hasChild st par x.flow x.dir x.term then some st
  else createChild deps refuse st par x

/-- one pass over the links, foreground.py:315-322, 334-341: the links whose parent is not found are put off -/
def pass (deps : P → F → List (Link P F)) (refuse : St P F → ℕ → Bool) : List (Link P F) → St P F → Option (St P F × List (Link P F))
  | [], st => some (st, [])
  | x :: xs, st =>
    match st.map.get? x.proc with
    | none =>
      match pass deps refuse xs st with
      | none => none
      | some (st, px) => some (st, x :: px)
    | some par =>
      match tryExch deps refuse st par x with
      | none => none
      | some st => pass deps refuse xs st

/-- the passes over what was put off, foreground.py:324-341: at most `k` -/
def retry (deps : P → F → List (Link P F)) (refuse : St P F → ℕ → Bool) : ℕ → List (Link P F) → St P F → Option (St P F × List (Link P F))
  | _, [], st => some (st, [])
  | 0, px, st => some (st, px)
  | k + 1, px, st =>
    match pass deps refuse px st with
    | none => none
    | some (st, px) => retry deps refuse k px st

/-- `term_map`, foreground.py:261-262: a later fragment replaces an earlier one -/
def mapOf (n : ℕ) (node : ℕ → Node P F) : Dict P ℕ :=
  (List.range n).foldl (fun d i => match (node i).term with
    | .proc p => d.set p i
    | _ => d) []

/-- `create_forest`, foreground.py:217-347, of fragments `0, …, n-1`: the new state, the fragment returned, and the links given up -/
def createForest (deps : P → F → List (Link P F)) (refuse : St P F → ℕ → Bool) (n : ℕ) (node : ℕ → Node P F) (x0 : Link P F)
    (rest : List (Link P F)) : Option (St P F × ℕ × List (Link P F)) :=
  let st : St P F := { n := n, node := node, map := mapOf n node, new := [] }
  match st.map.get? x0.proc with
  | some i =>
    if (st.node i).parent = none then some (st, i, [])
    else
      match split refuse st i with
      | none => none
      | some st => some (st, i, [])
  | none =>
    let st' := newNode deps st x0 none
    let st' : St P F := { st' with map := st'.map.set x0.proc st.n, new := st.n :: st'.new }
    match pass deps refuse rest st' with
    | none => none
    | some (st2, px) =>
      match retry deps refuse 10 px st2 with
      | none => none
      | some (st3, px) => some (st3, st.n, px)

end Fst
