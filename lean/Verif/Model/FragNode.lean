import Verif.Model.Fragment
import Verif.Base.Py

/-!
Model of `create_fragment_from_node`: antelope_catalog/implementations/foreground.py:372-453, with `find_or_create_term` (120-138) and
`FlowTermination.terminates` (lcatools/terminations.py:188-206).

Simplifications:
* processes are given by origin and external reference; all those met come from one origin (`process.origin`). The inventory of a process, its reference
  exchange and whether a product flow is in the background are given, and may raise;
* fragments are the reference fragments of the archive in the order in which they were added, which is the order in which `fragments` lists those of either
  kind; a fragment is referred to by its place. Of a fragment: the process it is terminated to if it is one, flow and direction of the termination, whether it
  is a background fragment, and its child flows. A fragment that is being made is in no list;
* flows match if they are equal; the check for loops in `terminate` finds none, as the fragment is new; observing, comments and stage names are left out;
* Python's recursion limit is left out; `fuel` bounds the depth (it is enough: `fuel_enough`).
-/

namespace Fno

open Frg (Dir)

inductive Err
  | recursion | data | fuel
  deriving DecidableEq, Repr

/-- an exchange of an inventory -/
structure X (R F : Type) where
  flow : F
  dir : Dir
  value : Option ℚ
  term : Option R
  elem : Bool
  deriving DecidableEq

/-- what a child flow is terminated to: nothing, itself (an emission), or a fragment -/
inductive Tm
  | cutoff | emission | frag (i : ℕ)
  deriving DecidableEq

structure Kid (F : Type) where
  flow : F
  dir : Dir
  value : ℚ
  term : Tm
  deriving DecidableEq

structure Frag (O R F : Type) where
  term : Option (O × R)
  flow : F
  tdir : Dir
  bg : Bool
  kids : List (Kid F)
  deriving DecidableEq

/-- the database -/
structure World (R F : Type) where
  inv : R → Option F → Option (List (X R F))      -- none: raises
  ref : R → Option F → Option (F × Dir)
  inBg : R → F → Option Bool

/-- the archive and `_recursion_check` -/
structure St (O R F : Type) where
  frags : List (Frag O R F)
  seen : List R

variable {O R F : Type} [DecidableEq O] [DecidableEq R] [DecidableEq F]

/-- `terminates`, terminations.py:188-206, for an exchange with a termination: the origin is not compared -/
def terminates (f : Frag O R F) (x : X R F) (t : R) : Bool :=
  decide (f.flow = x.flow) && decide (f.tdir = x.dir.comp) &&
    match f.term with
    | none => false
    | some (_, r) => decide (t = r)

/-- the first fragment of the archive that terminates the exchange and is in the background or not, foreground.py:127-129, 437-438 -/
def find (fs : List (Frag O R F)) (bg : Bool) (x : X R F) (t : R) : Option ℕ := fs.findIdx? fun f => decide (f.bg = bg) && terminates f x t

/-- `find_or_create_term` with `background=True`, foreground.py:120-138; the direction is reversed twice, here and in `create_fragment` -/
def findOrCreate (o : O) (x : X R F) (t : R) (st : St O R F) : ℕ × St O R F :=
  match find st.frags true x t with
  | some i => (i, st)
  | none => (st.frags.length, { st with frags := st.frags ++ [⟨some (o, t), x.flow, x.dir.comp, true, []⟩] })

/-- the child flows for the elementary exchanges, foreground.py:415-420 -/
def emissions (l : List (X R F)) : List (Kid F) := (l.filter fun x => x.elem).map fun x => ⟨x.flow, x.dir, x.value.getD 1, .emission⟩

/-- the loop over the intermediate exchanges, foreground.py:422-449; `rec` makes a fragment from a process -/
def loop (w : World R F) (o : O) (rec : R → Option F → St O R F → Out (St O R F) Err ℕ) : List (X R F) → St O R F → Out (St O R F) Err (List (Kid F))
  | [], st => .ok [] st
  | x :: xs, st =>
    let r : Out (St O R F) Err Tm :=
      match x.term with
      | none => .ok .cutoff st
      | some t =>
        let back (st : St O R F) : Out (St O R F) Err Tm :=
          let c := findOrCreate o x t st
          .ok (.frag c.1) c.2
        match w.inBg t x.flow with
        | none => .err .data st
        | some true => back st
        | some false =>
          match find st.frags false x t with
          | some i => .ok (.frag i) st
          | none =>
            match rec t (some x.flow) st with
            | .ok i st => .ok (.frag i) st
            | .err .recursion st => back st
            | .err e st => .err e st
    match r with
    | .err e st => .err e st
    | .ok tm st =>
      match loop w o rec xs st with
      | .err e st => .err e st
      | .ok ks st => .ok (⟨x.flow, x.dir, x.value.getD 1, tm⟩ :: ks) st

/-- `_create_fragment_from_node`, foreground.py:393-453: the place of the new fragment -/
def make (w : World R F) (o : O) (elementary : Bool) : ℕ → R → Option F → St O R F → Out (St O R F) Err ℕ
  | 0, _, _, st => .err .fuel st
  | n + 1, p, rf, st =>
    if p ∈ st.seen then .err .recursion st
    else
      let st := { st with seen := p :: st.seen }
      match w.inv p rf with
      | none => .err .data st
      | some l =>
        match w.ref p rf with
        | none => .err .data st
        | some (f, d) =>
          match loop w o (make w o elementary n) (l.filter fun x => !x.elem) st with
          | .err e st => .err e st
          | .ok ks st =>
            .ok st.frags.length { st with frags := st.frags ++ [⟨some (o, p), f, d, false, (if elementary then emissions l else []) ++ ks⟩] }

/-- `create_fragment_from_node`, foreground.py:372-391: the set of processes met is empty at first, and forgotten at the end -/
def create (w : World R F) (o : O) (elementary : Bool) (fuel : ℕ) (p : R) (rf : Option F) (fs : List (Frag O R F)) : Out (List (Frag O R F)) Err ℕ :=
  match make w o elementary fuel p rf ⟨fs, []⟩ with
  | .ok i st => .ok i st.frags
  | .err e st => .err e st.frags

end Fno
