import Verif.Model.Fragment
import Mathlib.Data.String.Basic
import Mathlib.Data.List.Lex
import Mathlib.Data.List.Dedup

/-!
Model of `LcFragment.scenarios`, lcatools/entities/fragments.py:539-560, over the model of fragments (Model/Fragment, whose simplifications hold here too).
-/

namespace Frg

variable {F Q : Type} [DecidableEq F] [DecidableEq Q]

/-- `is_subfrag`, terminations.py:271-281: a fragment, not itself, neither being background -/
def subfragOf (H : Heap F Q) (i : ℕ) (t : Term F) : Option ℕ :=
  match t.target with
  | .frag j => if j = i ∨ (H i).bg ∨ (H j).bg then none else some j
  | _ => none

/-- the keys of the two tables but None, fragments.py:546-548 -/
def ownKeys (n : Node F Q) : List Key := n.evs.keys ++ n.terms.keys.filterMap id

/-- fragments called upon, in order, fragments.py:547-556 -/
def subs (H : Heap F Q) (i : ℕ) : List ℕ := (H i).terms.filterMap (fun p => subfragOf H i p.2) ++ children (H i)

/-- the texts in a list of keys -/
def strs (l : List Key) : List String := l.filterMap fun | .str s => some s | _ => none

/-- the tuples in a list of keys -/
def tups (l : List Key) : List (List String) := l.filterMap fun | .tup s => some s | _ => none

/-- `sorted` of a set of texts and tuples, fragments.py:559: they cannot be compared with each other -/
def sortKeys (l : List Key) : Except Err (List Key) :=
  match strs l, tups l with
  | ss, [] => .ok ((ss.dedup.insertionSort (· ≤ ·)).map .str)
  | [], ts => .ok ((ts.dedup.insertionSort (· ≤ ·)).map .tup)
  | _, _ => .error .typeError

/-- results of several calls -/
def collect (v : ℕ → Except Err (List Key)) : List ℕ → Except Err (List Key)
  | [] => .ok []
  | j :: js =>
    match v j with
    | .error e => .error e
    | .ok l => match collect v js with
      | .error e => .error e
      | .ok l' => .ok (l ++ l')

/-- `scenarios`, fragments.py:539-560; the depth of recursion is bounded -/
def scenarios (H : Heap F Q) (recurse : Bool) : ℕ → ℕ → Except Err (List Key)
  | 0, _ => .error .recursion
  | fuel + 1, i =>
    match (if recurse then collect (scenarios H true fuel) (subs H i) else .ok []) with
    | .error e => .error e
    | .ok l => sortKeys (ownKeys (H i) ++ l)      -- `-= {0, 1, None}`: sortKeys takes texts and tuples only

end Frg
