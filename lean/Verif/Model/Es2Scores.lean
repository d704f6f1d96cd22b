import Verif.Model.Lcia

/-!
Model of the LCIA scores in an Ecospold2 dataset, `antelope_catalog/providers/ecospold2/ecospold2.py`.

Simplifications:
* the dataset has been read: it is the list of the children of its `flowData`; texts are present, a number that cannot be read is
  `none`; the process, its place and its reference flow are given;
* a quantity is its uuid, its name, and whether it has a `Method`; the quantities to look for are given.
-/

namespace Es2Score

/-- a child of `flowData`: an impact indicator with its texts and amount, or something else; ecospold2.py:538-543 -/
inductive Child
  | score (method category name : String) (amount : Option ℚ)
  | other
  deriving DecidableEq

/-- a quantity, as far as ecospold2.py:529-534 reads it -/
structure Qty where
  uuid : String
  name : String
  method : Bool
  deriving DecidableEq

/-- KeyError 'Name collision', ecospold2.py:533; ValueError of `float`, 543; anything from `add_score`, 549 -/
inductive Err | key | value | other
  deriving DecidableEq, Repr

/-- the process, its place and reference flow, ecospold2.py:524-527 -/
structure Ctx where
  proc : String
  place : String
  flow : String

/-- an `EcospoldLciaResult`, ecospold2.py:29-35 and 351-369 -/
structure Score where
  method : String
  category : String
  indicator : String
  score : ℚ
  deriving DecidableEq

/-- `_collect_impact_scores`, ecospold2.py:351-369 -/
def collect : List Child → Except Err (List Score)
  | [] => .ok []
  | .other :: l => collect l
  | .score _ _ _ none :: _ => .error .value
  | .score m c x (some v) :: l =>
    match collect l with
    | .ok r => .ok (⟨m, c, x, v⟩ :: r)
    | .error e => .error e

/-- `', '.join([m, c, i])`, ecospold2.py:544 -/
def tag (m c i : String) : String := m ++ ", " ++ c ++ ", " ++ i

/-- the quantities by name, ecospold2.py:529-534 -/
def mkTags : List Qty → Dict String Qty → Except Err (Dict String Qty)
  | [], d => .ok d
  | q :: qs, d =>
    if q.method then
      if d.has q.name then .error .key else mkTags qs (d.set q.name q)
    else mkTags qs d

/-- the result of one score, ecospold2.py:527, 547-549 -/
def resultOf (x : Ctx) (v : ℚ) : Except Lcia.Err (Lcia.Result String String String) :=
  Lcia.Result.addScore {} x.proc x.proc (Lcia.Detail.make x.flow (some 1) .output ⟨[(x.place, some v)], none⟩ x.place)

/-- the loop of `retrieve_lcia_scores`, ecospold2.py:538-550 -/
def loop (x : Ctx) (tags : Dict String Qty) :
    List Child → Dict String (Lcia.Result String String String) → Except Err (Dict String (Lcia.Result String String String))
  | [], d => .ok d
  | .other :: l, d => loop x tags l d
  | .score _ _ _ none :: _, _ => .error .value
  | .score m c i (some v) :: l, d =>
    match tags.get? (tag m c i) with
    | none => loop x tags l d
    | some q =>
      match resultOf x v with
      | .ok r => loop x tags l (d.set q.uuid r)
      | .error _ => .error .other

/-- `retrieve_lcia_scores`, ecospold2.py:504-554 -/
def retrieve (x : Ctx) (qs : List Qty) (file : List Child) : Except Err (Dict String (Lcia.Result String String String)) :=
  match mkTags qs [] with
  | .error e => .error e
  | .ok tags => loop x tags file []

end Es2Score
