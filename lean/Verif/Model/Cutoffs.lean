import Verif.Model.Fragment
import Mathlib.Data.Prod.Lex

/-!
Model of `LcFragment.cutoffs` and `LcFragment.inventory`, lcatools/entities/fragments.py:1000-1021, 1047-1078, over the model of fragments (Model/Fragment, whose
simplifications hold here too).

Simplifications:
* the compartment and the name of a flow are one value of a linear order, `rank`;
* `cuts`: what `ref.intermediate(ref.lci(ref_flow))` gives for a termination to a process (flows, directions, values); it is assumed not to fail.
-/

namespace Frg

variable {F Q K : Type} [DecidableEq F] [DecidableEq Q] [LinearOrder K]

/-- an ExchangeValue of a fragment -/
structure Xv (F : Type) where
  who : Who
  flow : F
  dir : Dir
  value : ℚ

/-- fragments.py:1072-1073 -/
def FF.xv (f : FF F) : Xv F := ⟨f.who, f.flow, f.dir, f.mag⟩

/-- the sort key, fragments.py:1075-1076 -/
def Xv.key (rank : F → K) (x : Xv F) : Bool ×ₗ K ×ₗ ℚ := toLex (decide (x.dir = .input), toLex (rank x.flow, x.value))

/-- `sorted(..., reverse=True)`, stable -/
def sortDown {α β : Type} [LinearOrder β] (key : α → β) (l : List α) : List α := l.insertionSort fun a b => key b ≤ key a

/-- is the fragment of a fragment flow a background one; ghosts are not, fragment_flows.py:354-356 -/
def Who.isBg (H : Heap F Q) : Who → Bool
  | .frag i => (H i).bg
  | .ghost _ => false

/-- the number `FragmentFlow.cutoff` takes for the fragment -/
def Who.num : Who → ℕ
  | .frag i => i
  | .ghost p => p

/-- the cut-offs of one fragment flow, fragments.py:1058-1069 -/
def cutsOf (H : Heap F Q) (cuts : Term F → List (F × Dir × ℚ)) (ff : FF F) : List (FF F) :=
  if ff.term.isNull then [ff]
  else if ff.who.isBg H then (cuts ff.term).map fun x => FF.cutoff ff.who.num x.1 x.2.1 (x.2.2 * ff.nw)
  else []

/-- `cutoffs`, fragments.py:1047-1078 -/
def cutoffs (E : Env F Q) (H : Heap F Q) (rank : F → K) (cuts : Term F → List (F × Dir × ℚ)) (sc : Scen) (obs : Bool) (fuel i : ℕ) (aggregate : Bool) :
    Except Err (List (Xv F)) :=
  match traverse E H sc obs fuel i with
  | .error e => .error e
  | .ok ffs =>
    let cos := ffs.flatMap (cutsOf H cuts)
    match (if aggregate then (groupIos i (H i).flow (H i).dir cos false).map Prod.fst else .ok cos) with
    | .error e => .error e
    | .ok cos => .ok (sortDown (Xv.key rank) (cos.map FF.xv))

/-- the sort key of `inventory`, fragments.py:1012 -/
def Xv.key2 (x : Xv F) : Bool ×ₗ ℚ := toLex (decide (x.dir = .input), x.value)

/-- `inventory`, fragments.py:1000-1012 -/
def inventory (E : Env F Q) (H : Heap F Q) (sc : Scen) (obs : Bool) (fuel i : ℕ) (scale : ℚ) : Except Err (List (Xv F)) :=
  match unitInventory E H sc obs fuel i with
  | .error e => .error e
  | .ok (io, _) => .ok (sortDown Xv.key2 (io.map fun f => ⟨.frag i, f.flow, f.dir, f.mag * scale⟩))

end Frg
