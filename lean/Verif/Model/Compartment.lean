import Verif.Base.Py

/-!
Model of compartment hierarchies, `lcatools/flowdb/compartments.py`.

Compartments are objects: numbers, with a heap. Simplifications:
* names are of any type `S`. `Names` says which names are `'unspecified'` when written in lower case, which match
  `'unspecified$'`, how names are sorted, and how a list of names is joined to a key of the cache;
* the `_subcompartments` of a compartment, a set, is a list without duplicates; the order in which Python iterates over a set is
  a parameter. Two siblings that compare as equal (`__eq__`) have a name in common; since `_merge_sub` compares the names of the
  candidate with all siblings before it adds it, the set never finds an equal member when it adds one;
* recursion takes fuel, `none` means that it did not suffice;
* the error that Python raises when a set grows while it is iterated over is left out (`_merge_sub` on a compartment that
  shares a name with its own parent);
* files, printing and the interactive merge are left out.
-/

namespace Cmp

/-- what the code asks about names -/
structure Names (S : Type) where
  unsp : S → Bool             -- name.lower() == 'unspecified'
  ends : S → Bool             -- re.search('unspecified$', name, flags=re.IGNORECASE)
  le : S → S → Bool           -- order of sorted()

/-- Compartment, compartments.py:320-329 -/
structure Node (S : Type) where
  name : S
  syns : List S := []
  elem : Bool := false
  subs : List ℕ := []
  parent : Option ℕ := none
  deriving DecidableEq

abbrev Heap (S : Type) := ℕ → Node S

/-- a heap with the number of the next object -/
structure St (S : Type) where
  H : Heap S
  next : ℕ

def put {S : Type} (H : Heap S) (k : ℕ) (n : Node S) : Heap S := fun x => if x = k then n else H x

variable {S : Type} [DecidableEq S]

/-- `synonyms`, compartments.py:342-344 -/
def Node.names (n : Node S) : List S := n.name :: n.syns

/-- `add_syn`, compartments.py:346-348 -/
def Node.addSyn (n : Node S) (s : S) : Node S := if s = n.name then n else { n with syns := PySet.add n.syns s }

/-- `add_syns`, compartments.py:350-352 -/
def Node.addSyns (n : Node S) (l : List S) : Node S := l.foldl Node.addSyn n

/-- the `name` setter, compartments.py:335-340 -/
def Node.rename (n : Node S) (v : S) : Node S :=
  { n with name := v, syns := (PySet.add n.syns n.name).filter fun s => decide (s ≠ v) }

/-- `__getitem__`, compartments.py:467-476 -/
def getSub (ord : PyOrd ℕ) (H : Heap S) (c : ℕ) (item : S) : Option ℕ :=
  (ord.f (H c).subs).find? fun x => decide (item ∈ (H x).names)

/-- the members of `self._subcompartments.union({self})` that share a name with `comp`: the first one, compartments.py:501-502 -/
def matching (ord : PyOrd ℕ) (H : Heap S) (self comp : ℕ) : Option ℕ :=
  (ord.f (PySet.add (H self).subs self)).find? fun i => (H i).names.any fun s => decide (s ∈ (H comp).names)

/-- `_merge_sub`, compartments.py:491-511 -/
def mergeSub (ord : PyOrd ℕ) : ℕ → Heap S → ℕ → ℕ → Option (Heap S)
  | 0, _, _, _ => none
  | f + 1, H, self, comp =>
    match matching ord H self comp with
    | some i => (ord.f (H comp).subs).foldlM (fun H j => mergeSub ord f H i j) (put H i ((H i).addSyns (H comp).names))
    | none =>
      let H := put H self { H self with subs := (H self).subs ++ [comp] }
      some (put H comp { H comp with parent := some self })

/-- `add_sub`, compartments.py:354-373 -/
def addSub (N : Names S) (ord : PyOrd ℕ) (f : ℕ) (s : St S) (c : ℕ) (name : S) (elementary : Option Bool := none) :
    Option (ℕ × St S) :=
  if N.unsp name then some (c, s)
  else
    match getSub ord s.H c name with
    | some sub => (mergeSub ord f s.H c sub).map fun H => (sub, { s with H := H })
    | none =>
      let e := if (s.H c).elem then true else elementary.getD (s.H c).elem
      (mergeSub ord f (put s.H s.next { name := name, elem := e, parent := some c }) c s.next).map fun H =>
        (s.next, { H := H, next := s.next + 1 })

/-- `add_subs`, compartments.py:375-387; an empty list raises -/
def addSubs (N : Names S) (ord : PyOrd ℕ) (f : ℕ) : St S → ℕ → List S → Option (ℕ × St S)
  | _, _, [] => none
  | s, c, [n] => addSub N ord f s c n
  | s, c, n :: p =>
    match addSub N ord f s c n with
    | none => none
    | some (d, s) => addSubs N ord f s d p

/-- `set_elementary`, compartments.py:434-437 -/
def setElementary (ord : PyOrd ℕ) : ℕ → Heap S → ℕ → Option (Heap S)
  | 0, _, _ => none
  | f + 1, H, c => (ord.f (H c).subs).foldlM (fun H i => setElementary ord f H i) (put H c { H c with elem := true })

/-- `unset_elementary`, compartments.py:439-444 -/
def unsetElementary (ord : PyOrd ℕ) (f : ℕ) (H : Heap S) (c : ℕ) (children : Bool) : Option (Heap S) :=
  if children then (ord.f (H c).subs).foldlM (fun H i => setElementary ord f H i) (put H c { H c with elem := false })
  else some (put H c { H c with elem := false })

/-- `is_subcompartment_of`, compartments.py:402-408 -/
def isSubOf : ℕ → Heap S → ℕ → ℕ → Option Bool
  | 0, _, _, _ => none
  | f + 1, H, k, c =>
    if k = c then some true
    else
      match (H k).parent with
      | none => some false
      | some p => isSubOf f H p c

/-- `uproot`, compartments.py:538-548, of the subcompartment `s1` -/
def uproot (ord : PyOrd ℕ) (f : ℕ) (H : Heap S) (c s1 s2 : ℕ) : Option (Heap S) :=
  (mergeSub ord f H s2 s1).map fun H => put H c { H c with subs := (H c).subs.filter fun x => decide (x ≠ s1) }

/-! ### crawling -/

/-- the first loop of `_crawl_compartments`, compartments.py:254-258: whether it returns early, and the rest of the list -/
def popNames (check : Bool) (n : Node S) : List (Option S) → Bool × List (Option S)
  | [] => (false, [])
  | x :: l =>
    match x with
    | none => (false, x :: l)
    | some s =>
      if s ∈ n.names then (if check && n.elem then (true, l) else popNames check n l) else (false, x :: l)

/-- the second loop, and the check for `unspecified`, compartments.py:259-263 -/
def popUnsp (N : Names S) (l : List (Option S)) : List (Option S) :=
  match l.dropWhile Option.isNone with
  | some s :: l => if N.ends s then l else some s :: l
  | l => l

/-- the loop over subcompartments, compartments.py:267-271: the list is shared, what one branch takes from it is missing in the
next -/
def crawlSubs (g : ℕ → List (Option S) → Option (Option ℕ × List (Option S))) :
    List ℕ → List (Option S) → Option (Option ℕ × List (Option S))
  | [], l => some (none, l)
  | s :: ss, l =>
    match g s l with
    | none => none
    | some (some n, l) => some (some n, l)
    | some (none, l) => crawlSubs g ss l

/-- `_crawl_compartments`, compartments.py:247-271: the match, and what is left of the list -/
def crawl (N : Names S) (ord : PyOrd ℕ) (check : Bool) (H : Heap S) : ℕ → ℕ → List (Option S) →
    Option (Option ℕ × List (Option S))
  | 0, _, _ => none
  | f + 1, c, l =>
    match popNames check (H c) l with
    | (true, l) => some (some c, l)
    | (false, l) =>
      match popUnsp N l with
      | [] => some (some c, [])
      | x :: l => crawlSubs (fun s l => crawl N ord check H f s l) (ord.f (H c).subs) (x :: l)

/-! ### the manager -/

/-- CompartmentManager, compartments.py:35-49: the hierarchy below `root`, and the cache by joined names -/
structure Mgr (S Key : Type) where
  st : St S
  root : ℕ
  cache : Dict Key ℕ := []

/-- what `find_matching` does: it returns a compartment or None, or raises MissingCompartment, or runs out of fuel -/
inductive Found
  | comp (c : ℕ)
  | none
  | missing
  | fuel
  deriving DecidableEq

/-- `find_matching` without interaction, compartments.py:147-184; `key` is `compartment_string`, compartments.py:26-32 -/
def findMatching {Key : Type} [DecidableEq Key] (N : Names S) (key : List (Option S) → Key) (ord : PyOrd ℕ) (f : ℕ)
    (m : Mgr S Key) (name : List (Option S)) (check : Bool) : Found × Mgr S Key :=
  match m.cache.get? (key name) with
  | some c => (.comp c, m)
  | none =>
    match crawl N ord check m.st.H f m.root name with
    | none => (.fuel, m)
    | some (none, _) => (if check then .none else .missing, m)
    | some (some c, _) => (.comp c, { m with cache := m.cache.set (key name) c })

/-! ### serialization -/

/-- the serialization of a compartment: names (at least one), the key `elementary` if it is there, subcompartments -/
inductive J (S : Type)
  | node (name : S) (syns : List S) (elem : Bool) (subs : List (J S))

/-- insertion into a sorted list -/
def insertBy {α : Type} (le : α → α → Bool) (a : α) : List α → List α
  | [] => [a]
  | b :: l => if le a b then a :: b :: l else b :: insertBy le a l

/-- `sorted` -/
def sortBy {α : Type} (le : α → α → Bool) : List α → List α
  | [] => []
  | a :: l => insertBy le a (sortBy le l)

def J.name : J S → S
  | .node n _ _ _ => n

/-- `serialize`, compartments.py:592-599 -/
def serialize (N : Names S) (ord : PyOrd ℕ) (H : Heap S) : ℕ → ℕ → Option (J S)
  | 0, _ => none
  | f + 1, c =>
    ((ord.f (H c).subs).mapM fun x => serialize N ord H f x).map fun l =>
      .node (H c).name (sortBy N.le (H c).syns) (H c).elem (sortBy (fun a b => N.le a.name b.name) l)

mutual
/-- the body of `_add_subs_from_json`, compartments.py:302-318, for a list of names (the variant with a single name, not written by `serialize`, is left out) -/
def addJ (N : Names S) (ord : PyOrd ℕ) (f : ℕ) (s : St S) (c : ℕ) (elementary : Bool) : J S → Option (St S)
  | .node name syns elem subs =>
    match addSub N ord f s c name (some (elementary || elem)) with
    | none => none
    | some (d, s) =>
      addJs N ord f { s with H := put s.H d ((s.H d).addSyns syns) } d (elementary || elem) subs
/-- `_add_subs_from_json`, compartments.py:301-318 -/
def addJs (N : Names S) (ord : PyOrd ℕ) (f : ℕ) (s : St S) (c : ℕ) (elementary : Bool) : List (J S) → Option (St S)
  | [] => some s
  | j :: js =>
    match addJ N ord f s c elementary j with
    | none => none
    | some s => addJs N ord f s c elementary js
end

/-- `from_json`, compartments.py:281-295: the root is not elementary -/
def fromJson (N : Names S) (ord : PyOrd ℕ) (f : ℕ) (s : St S) : J S → Option (ℕ × St S)
  | .node name syns _ subs =>
    (addJs N ord f { H := put s.H s.next (Node.addSyns { name := name } syns), next := s.next + 1 } s.next false subs).map
      fun t => (s.next, t)

end Cmp
