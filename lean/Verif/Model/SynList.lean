import Verif.Base.Py

/-!
Model of `synlist/synlist.py` (class SynList).

Simplifications that hold for the whole file:
* terms are elements of a type `T` with an abstract `_sanitize` (strip, and lower when ignore_case) and a
  distinguished empty string; `None` is not used as a term;
* the parallel list `_entity` and `search` are left out;
* an item may be addressed by a term (all methods) or, in `add_synonym`, by its non-negative index;
* sets are duplicate-free lists, iterated over in an order given by a `PyOrd`.
-/

namespace Syn

/-- `_sanitize` (synlist.py:90-94) and the empty string. -/
structure Lex (T : Type) where
  san : T → T
  blank : T

inductive Err
  | keyError | indexError | attributeError | typeError
  | termFound | inconsistent | cannotSplit | conflictingCas | notACas
  deriving DecidableEq, Repr

/-- the attributes of a SynList, synlist.py:59-64; `cas` is used by Flowables only (flowables.py:55-56). -/
structure State (T : Type) where
  items : List (Option (List T)) := []   -- _list; None after a merge
  names : List (Option T) := []          -- _name
  dict : Dict T ℕ := []                  -- _dict
  cas : List (Option T) := []            -- _cas
  deriving DecidableEq

variable {T : Type} [DecidableEq T]

/-- `new_item`, synlist.py:76-81, flowables.py:69-72. -/
def newItem (s : State T) : ℕ × State T :=
  (s.items.length,
   { s with items := s.items ++ [some []], names := s.names ++ [none], cas := s.cas ++ [none] })

/-- `_get_index` of a string, synlist.py:109-116. `none`: KeyError. -/
def getIndex (L : Lex T) (s : State T) (term : T) : Option ℕ := s.dict.get? (L.san term)

/-- `_new_term`, synlist.py:96-107. -/
def newTerm (L : Lex T) (term : T) (index : ℕ) (s : State T) : Out (State T) Err Unit :=
  if term = L.blank then .ok () s
  else
    let key := L.san term
    match s.items[index]? with
    | none => .err .indexError s
    | some none => .err .attributeError s
    | some (some l) =>
      let s1 := { s with items := s.items.set index (some (PySet.add l term)) }
      match s1.dict.get? key with
      | some j => if j = index then .ok () s1 else .err .termFound s1
      | none =>
        let s2 := { s1 with dict := s1.dict.set key index }
        match s2.names[index]? with
        | some none => .ok () { s2 with names := s2.names.set index (some term) }
        | _ => .ok () s2

/-- `add_term`, synlist.py:141-152, for a given `_new_term`. -/
def addTerm (L : Lex T) (nt : T → ℕ → State T → Out (State T) Err Unit) (term : T) (s : State T) :
    Out (State T) Err ℕ :=
  match getIndex L s term with
  | some i => .ok i s
  | none =>
    let (k, s1) := newItem s
    (nt term k s1).bind fun _ s2 => .ok k s2

/-- `_merge_set_with_index`, synlist.py:169-171. -/
def mergeSet (nt : T → ℕ → State T → Out (State T) Err Unit) :
    List T → ℕ → State T → Out (State T) Err Unit
  | [], _, s => .ok () s
  | t :: ts, index, s => (nt t index s).bind fun _ s' => mergeSet nt ts index s'

/-- `_new_set`, synlist.py:173-189, for a given `_merge_set_with_index`. -/
def newSet (L : Lex T) (ms : List T → ℕ → State T → Out (State T) Err Unit) (it : List T) (s : State T) :
    Out (State T) Err (Option ℕ) :=
  let unmatched := it.filter fun t => (getIndex L s t).isNone
  if unmatched = [] then .ok none s
  else
    let (k, s1) := newItem s
    (ms unmatched k s1).bind fun _ s2 => .ok (some k) s2

/-- `add_set`, synlist.py:191-220 (`find_indices`, 154-167, inlined: `found` are its keys other than None,
`unmatched` its set under None). -/
def addSet (L : Lex T) (o : PyOrd T) (ms : List T → ℕ → State T → Out (State T) Err Unit)
    (it : List T) (merge : Bool) (s : State T) : Out (State T) Err (Option ℕ) :=
  let found := PySet.ofList (it.filterMap (getIndex L s))
  let unmatched := o.f (PySet.ofList (it.filter fun t => (getIndex L s t).isNone))
  match found, merge with
  | [], _ => newSet L ms unmatched s
  | _, false => newSet L ms unmatched s
  | [index], true => (ms unmatched index s).bind fun _ s' => .ok (some index) s'
  | _ :: _ :: _, true => .err .inconsistent s

/-- `set_name`, synlist.py:222-230. -/
def setName (L : Lex T) (name : T) (s : State T) : Out (State T) Err ℕ :=
  match getIndex L s name with
  | none => .err .keyError s
  | some index => .ok index { s with names := s.names.set index (some name) }

/-- `_merge`, synlist.py:232-238; flowables.py:114-116 also clears the CAS number. -/
def mergeOne (L : Lex T) (o : PyOrd T) (m into : ℕ) (s : State T) : Out (State T) Err Unit :=
  match s.items[into]?, s.items[m]? with
  | some (some li), some (some lm) =>
    let l := PySet.union li lm
    .ok () { s with
      items := (s.items.set into (some l)).set m none,
      dict := (o.f l).foldl (fun d t => d.set (L.san t) into) s.dict,
      names := s.names.set m none,
      cas := s.cas.set m none }
  | some none, _ => .err .attributeError s
  | _, some none => .err .typeError s
  | _, _ => .err .indexError s

/-- the loop of `merge`, synlist.py:249-250. -/
def mergeAll (L : Lex T) (o : PyOrd T) : List ℕ → ℕ → State T → Out (State T) Err Unit
  | [], _, s => .ok () s
  | i :: is, into, s => (mergeOne L o i into s).bind fun _ s' => mergeAll L o is into s'

/-- `merge`, synlist.py:240-250. -/
def merge (L : Lex T) (o : PyOrd T) (oN : PyOrd ℕ) (dominant : T) (terms : List T) (s : State T) :
    Out (State T) Err Unit :=
  match getIndex L s dominant, terms.mapM (getIndex L s) with
  | some into, some ixs => mergeAll L o (oN.f (PySet.ofList ixs)) into s
  | _, _ => .err .keyError s

/-- `add_synonym`, synlist.py:252-259. -/
def addSynonym (L : Lex T) (index : ℕ) (term : T) (s : State T) : Out (State T) Err Unit :=
  newTerm L term index s

/-- `_matches`, synlist.py:264-280. -/
def matchesOf (L : Lex T) (term : T) (s : State T) : Except Err (List T) :=
  match getIndex L s term with
  | none => .error .keyError
  | some ind =>
    match s.items[ind]? with
    | some (some l) =>
      let ms := l.filter fun k => decide (L.san k = L.san term)
      match s.names[ind]? with
      | some (some n) => if n ∈ ms then .error .cannotSplit else .ok ms
      | _ => .ok ms
    | some none => .error .typeError
    | none => .error .indexError

/-- `split_term`, synlist.py:282-299, for a given `_matches` and `_merge_set_with_index`.
The matches are members of the set, so `remove` does not raise. -/
def splitTerm (L : Lex T) (o : PyOrd T) (ma : T → State T → Except Err (List T))
    (ms : List T → ℕ → State T → Out (State T) Err Unit) (term : T) (s : State T) :
    Out (State T) Err (Option ℕ) :=
  match ma term s with
  | .error e => .err e s
  | .ok mts =>
    match getIndex L s term with
    | none => .err .keyError s
    | some old =>
      let s1 := { s with items := s.items.modify old fun x => x.map fun l => l.filter fun k => decide (k ∉ mts) }
      (newSet L ms (o.f mts) s1).bind fun r s2 =>
        (setName L term s2).bind fun _ s3 => .ok r s3

/-- `synonyms_for`, synlist.py:310-314: `none`: the Python method returns None. -/
def synonymsFor (L : Lex T) (s : State T) (term : T) : Option (List T) :=
  match getIndex L s term with
  | none => none
  | some i => (s.items[i]?).join

/-- `are_synonyms`, synlist.py:316-318. -/
def areSynonyms (L : Lex T) (s : State T) (a b : T) : Bool :=
  decide (getIndex L s a = getIndex L s b) && (getIndex L s a).isSome

/-- `name`, synlist.py:133-139. `none`: KeyError. -/
def nameOf (L : Lex T) (s : State T) (term : T) : Option (Option T) :=
  match getIndex L s term with
  | none => none
  | some i => s.names[i]?

/-- `serialize`, synlist.py:347-353: the (name, synonyms) records of the items that are not None. -/
def serialize (s : State T) : List (Option T × List T) :=
  (s.items.zip s.names).filterMap fun p => p.1.map fun l => (p.2, l)

/-- the loop of `from_json`, synlist.py:54-56, for a given `add_set`. A record without a name makes
`add_set` see None, which is unknown, and `set_name(None)` raise KeyError. -/
def fromRecords (L : Lex T) (addS : List T → State T → Out (State T) Err (Option ℕ)) :
    List (Option T × List T) → State T → Out (State T) Err Unit
  | [], s => .ok () s
  | (none, _) :: _, s => .err .keyError s
  | (some n, l) :: rest, s =>
    (addS (l ++ [n]) s).bind fun _ s1 =>
      (setName L n s1).bind fun _ s2 => fromRecords L addS rest s2

/-- `SynList.from_json`, synlist.py:46-57. -/
def fromJson (L : Lex T) (o : PyOrd T) (j : List (Option T × List T)) : Out (State T) Err Unit :=
  fromRecords L (fun it s => addSet L o (mergeSet (newTerm L)) it false s) j {}

/-! ### calls as data -/

/-- The mutating methods of a SynList. -/
inductive Op (T : Type)
  | addTerm (t : T)
  | addSet (l : List T) (merge : Bool)
  | addSynonym (i : ℕ) (t : T)
  | setName (t : T)
  | merge (d : T) (ts : List T)
  | splitTerm (t : T)

/-- One call on a SynList: the exception if it raises, and the state afterwards.
`add_synonyms(*terms)` (synlist.py:261-262) is `addSet terms true`. -/
def step (L : Lex T) (o : PyOrd T) (oN : PyOrd ℕ) (op : Op T) (s : State T) : Option Err × State T :=
  match op with
  | .addTerm t => let r := addTerm L (newTerm L) t s; (r.error?, r.state)
  | .addSet l m => let r := addSet L o (mergeSet (newTerm L)) l m s; (r.error?, r.state)
  | .addSynonym i t => let r := addSynonym L i t s; (r.error?, r.state)
  | .setName t => let r := setName L t s; (r.error?, r.state)
  | .merge d ts => let r := merge L o oN d ts s; (r.error?, r.state)
  | .splitTerm t => let r := splitTerm L o (matchesOf L) (mergeSet (newTerm L)) t s; (r.error?, r.state)

end Syn
