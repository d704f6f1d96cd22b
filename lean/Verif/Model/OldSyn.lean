import Verif.Base.Py

/-!
Model of the older synonym lists, `lcatools/flowdb/synlist.py` (class SynList), and of `_add_set`,
`antelope_utilities/flowables/create_synonyms.py`, which fills one.

Simplifications:
* keys are elements of a type `K`; `strip` is a parameter; searching, printing, JSON text and `Flowables` (CAS numbers, lower case) are left out;
* sets are duplicate-free lists; the order in which `merge_indices` goes over a set of indices is a `PyOrd`.
-/

namespace OldSyn

inductive Err | key | index | attribute | type | value | inconsistent
  deriving DecidableEq, Repr

/-- synlist.py:37-40; a set that was merged into another is `none` -/
structure St (K : Type) where
  names : List (Option K) := []
  items : List (Option (List K)) := []
  dict : Dict K ℕ := []
  deriving DecidableEq

variable {K : Type} [DecidableEq K]

/-- `_new_key`, synlist.py:42-45 -/
def newKey (strip : K → K) (key : K) (i : ℕ) (s : St K) : Except Err (St K) :=
  match s.items[i]? with
  | none => .error .index
  | some none => .error .attribute
  | some (some l) =>
    .ok { s with items := s.items.set i (some (PySet.add l (strip key))), dict := s.dict.set (strip key) i }

/-- `_new_group`, synlist.py:47-51 -/
def newGroup (name : Option K) (s : St K) : ℕ × St K :=
  (s.items.length, { s with items := s.items ++ [some []], names := s.names ++ [name] })

/-- `index`, synlist.py:56-57; `none`: KeyError -/
def index (strip : K → K) (s : St K) (key : K) : Option ℕ := s.dict.get? (strip key)

/-- `add_key`, synlist.py:65-75 -/
def addKey (strip : K → K) (key : K) (s : St K) : Except Err (ℕ × St K) :=
  match s.dict.get? (strip key) with
  | some i => .ok (i, s)
  | none =>
    let g := newGroup none s
    match newKey strip (strip key) g.1 g.2 with
    | .error e => .error e
    | .ok s' =>
      match s'.dict.get? (strip key) with
      | some i => .ok (i, s')
      | none => .error .key

/-- `find_indices`, synlist.py:77-82 -/
def findIndices (strip : K → K) (it : List K) (s : St K) : List ℕ :=
  PySet.ofList (it.filterMap fun i => s.dict.get? (strip i))

/-- `merge_set_with_index`, synlist.py:84-86 -/
def mergeSet (strip : K → K) (i : ℕ) : List K → St K → Except Err (St K)
  | [], s => .ok s
  | k :: ks, s =>
    match newKey strip k i s with
    | .error e => .error e
    | .ok s' => mergeSet strip i ks s'

/-- the loop of `new_set`, synlist.py:92-102: keys in the list are left where they are; the key is looked for as it is -/
def newSetLoop (strip : K → K) (i : ℕ) : List K → St K → Except Err (St K)
  | [], s => .ok s
  | k :: ks, s =>
    if s.dict.has k then newSetLoop strip i ks s
    else
      match newKey strip k i s with
      | .error e => .error e
      | .ok s' => newSetLoop strip i ks s'

/-- `new_set`, synlist.py:88-103 -/
def newSet (strip : K → K) (it : List K) (name : Option K) (s : St K) : Except Err (ℕ × St K) :=
  let g := newGroup name s
  match newSetLoop strip g.1 it g.2 with
  | .error e => .error e
  | .ok s' => .ok (g.1, s')

/-- `add_set`, synlist.py:105-125 -/
def addSet (strip : K → K) (it : List K) (merge : Bool) (name : Option K) (s : St K) : Except Err (ℕ × St K) :=
  match findIndices strip it s, merge with
  | _ :: _ :: _, _ => .error .inconsistent
  | [i], true =>
    match mergeSet strip i it s with
    | .error e => .error e
    | .ok s' => .ok (i, s')
  | _, _ => newSet strip it name s

/-- `_merge`, synlist.py:127-132 -/
def mergeOne (m into : ℕ) (s : St K) : Except Err (St K) :=
  match s.items[m]?, s.items[into]? with
  | none, _ | _, none => .error .index
  | some _, some none => .error .attribute
  | some none, some (some _) => .error .type
  | some (some b), some (some a) =>
    let u := PySet.union a b
    .ok { s with items := (s.items.set into (some u)).set m none, dict := u.foldl (fun d k => d.set k into) s.dict }

/-- the loop of `merge_indices`, synlist.py:143-144: the state it ends in, and the exception that ends it -/
def mergeLoop (into : ℕ) : List ℕ → St K → St K × Option Err
  | [], s => (s, none)
  | m :: ms, s =>
    match mergeOne m into s with
    | .error e => (s, some e)
    | .ok s' => mergeLoop into ms s'

/-- `merge_indices`, synlist.py:134-144 -/
def mergeIndices (o : PyOrd ℕ) (ids : List ℕ) (s : St K) : St K × Option Err :=
  match ids.min? with
  | none => (s, some .value)
  | some into => mergeLoop into (o.f ((PySet.ofList ids).filter fun i => decide (i ≠ into))) s

/-- `add_synonym`, synlist.py:146-149: the state it ends in -/
def addSynonym (strip : K → K) (existing new : K) (s : St K) : St K × Except Err ℕ :=
  match addKey strip existing s with
  | .error e => (s, .error e)
  | .ok (i, s') =>
    match newKey strip new i s' with
    | .error e => (s', .error e)
    | .ok s'' => (s'', .ok i)

/-- `_add_set`, create_synonyms.py:96-118, on a list without CAS numbers: the state it ends in, and the index returned
(`merge_indices` returns None) -/
def addSetMerging (strip : K → K) (o : PyOrd ℕ) (name : K) (syns : List K) (s : St K) : St K × Except Err (Option ℕ) :=
  match addSet strip syns true (some name) s with
  | .ok (i, s') => (s', .ok (some i))
  | .error .inconsistent =>
    match mergeIndices o (findIndices strip syns s) s with
    | (s', none) => (s', .ok none)
    | (s', some e) => (s', .error e)
  | .error e => (s, .error e)

/-- `serialize`, synlist.py:167-175; the order in which the keys of a set are listed is `o` -/
def serialize (o : PyOrd K) (s : St K) : List (Option K × List K) :=
  (s.names.zip s.items).filterMap fun p => p.2.map fun l => (p.1, o.f l)

/-- the loop of `from_json`, synlist.py:33-34 -/
def loadSets (strip : K → K) : List (Option K × List K) → St K → Except Err (St K)
  | [], s => .ok s
  | e :: es, s =>
    match addSet strip e.2 false e.1 s with
    | .error er => .error er
    | .ok r => loadSets strip es r.2

/-- `from_json`, synlist.py:30-35 -/
def fromJson (strip : K → K) (es : List (Option K × List K)) : Except Err (St K) := loadSets strip es {}

end OldSyn
