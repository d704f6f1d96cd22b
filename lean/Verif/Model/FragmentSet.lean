import Verif.Model.FragmentEdit

/-!
Model of setting, scaling and reversing the exchange values of fragments: `lcatools/entities/fragment_editor.py`
(`set_child_exchanges`), `lcatools/entities/fragments.py` (`scale_evs`, `reverse_direction`).

Simplifications, besides those of `Verif/Model/FragmentEdit.lean`: the inventory of the process is given as a list, `R` are
external references; `ref` gives the external reference of a flow, `pid` that of what a fragment's termination leads to.
-/

namespace Frg

variable {F Q : Type} [DecidableEq F] [DecidableEq Q]

/-! ### reversing and scaling -/

/-- `reverse_direction`, fragments.py:681-691; `-1 * None` raises TypeError before anything is assigned -/
def reverseDirection (H : Heap F Q) (i : ℕ) : Out (Heap F Q) Err Unit :=
  if (H i).evs.any fun kv => kv.2.isNone then .err .typeError H
  else .ok () (H.put i { H i with dir := (H i).dir.comp, evs := (H i).evs.map fun kv => (kv.1, kv.2.map fun v => -1 * v) })

/-- the loop of `scale_evs`, fragments.py:433-440; `None * factor` raises TypeError -/
def scaleLoop (x : ℚ) (i : ℕ) : List (Key × Option ℚ) → Heap F Q → Out (Heap F Q) Err Unit
  | [], H => .ok () H
  | (_, none) :: _, H => .err .typeError H
  | (k, some v) :: l, H => scaleLoop x i l (putEv H i k (some (v * x)))

/-- `scale_evs`, fragments.py:433-440 -/
def scaleEvs (H : Heap F Q) (i : ℕ) (x : ℚ) : Out (Heap F Q) Err Unit := scaleLoop x i (H i).evs H

/-! ### set_child_exchanges -/

/-- an exchange of an inventory -/
structure Exch (R : Type) where
  flow : R                 -- flow.external_ref
  dir : Dir
  value : Option ℚ
  term : Option R          -- termination

variable {R : Type} [DecidableEq R]

/-- `FlowTermination.id`, terminations.py:349-354 -/
def termId (pid : ℕ → Term F → R) (c : ℕ) (t : Term F) : Option R := if t.isNull then none else some (pid c t)

/-- `next(c for c in children[key] if c.termination(scenario).id == x.termination)`, fragment_editor.py:273 -/
def pickTerm (H : Heap F Q) (sc : Scen) (pid : ℕ → Term F → R) (x : Option R) : List ℕ → Except Err (Option ℕ)
  | [] => .ok none
  | c :: cs =>
    match termOf (H c) sc with
    | .error e => .error e
    | .ok t => if termId pid c t = x then .ok (some c) else pickTerm H sc pid x cs

/-- the child an exchange is for, fragment_editor.py:253-255, 269-277 -/
def pickChild (H : Heap F Q) (sc : Scen) (ref : F → R) (pid : ℕ → Term F → R) (kids : List ℕ) (x : Exch R) : Except Err (Option ℕ) :=
  let cs := kids.filter fun c => decide (ref (H c).flow = x.flow ∧ (H c).dir = x.dir)
  if 1 < cs.length then pickTerm H sc pid x.term cs else .ok cs.head?

/-- setting the value of one child, fragment_editor.py:280-288 -/
def setChild (H : Heap F Q) (sc : Scen) (reset : Bool) (c : ℕ) (v : ℚ) : Out (Heap F Q) Err Unit :=
  match sc with
  | .none => if reset then setCached (resetCache H c) c (some v) else setObserved H c (some v)
  | sc => setEv H c sc (some v)

/-- the loop over the inventory, fragment_editor.py:260-288 -/
def setLoop (sc : Scen) (reset : Bool) (ref : F → R) (pid : ℕ → Term F → R) (kids : List ℕ) : List (Exch R) → Heap F Q → Out (Heap F Q) Err Unit
  | [], H => .ok () H
  | x :: xs, H =>
    match x.value with
    | none => setLoop sc reset ref pid kids xs H
    | some v =>
      match pickChild H sc ref pid kids x with
      | .error e => .err e H
      | .ok none => setLoop sc reset ref pid kids xs H
      | .ok (some c) => (setChild H sc reset c v).bind fun _ H => setLoop sc reset ref pid kids xs H

/-- `set_child_exchanges`, fragment_editor.py:220-288; without children the loop does nothing. A fragment without default termination
(there is none) would raise ScenarioConflict, here KeyError. -/
def setChildExchanges (H : Heap F Q) (sc : Scen) (reset : Bool) (ref : F → R) (pid : ℕ → Term F → R) (inv : List (Exch R)) (f : ℕ) :
    Out (Heap F Q) Err Unit :=
  match termOf (H f) sc with
  | .error e => .err e H
  | .ok t =>
    match t.target with
    | .null => .err .attributeError H
    | .frag _ => .err .dependentFragment H
    | .process =>
      (if sc = .none ∧ (H f).parent = none ∧ observedEv true (H f).evs = some 0 then setObserved H f (some (cachedEv (H f).evs)) else .ok () H).bind
        fun _ H' => setLoop sc reset ref pid (children (H f)) inv H'

end Frg
