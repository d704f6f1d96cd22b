import Verif.Base.Py
import Mathlib.Data.List.Sort

/-!
Model of `lcatools/archives/entity_store.py`, `basic_archive.py` and `lc_archive.py`: storing and finding entities, and
the table of names of an archive.

Simplifications:
* entities are object identities `E`; their type and uuid are fixed, what else they hold is in a `Heap` that may be
  another one at each call;
* the semantic reference of an archive, which new entities get as their origin, is a constant here (the table of
  names is modelled apart, `ArcNames`);
* files and JSON are not modelled: loading is adding a list of entities; printing, `_counter`, `_loaded` and `_fetch`
  (provided by data-specific subclasses) are left out.
-/

namespace Arc

/-- entity types, entities.py:12 -/
inductive Kind | quantity | flow | process | fragment
  deriving DecidableEq, Repr

inductive Err | keyError | typeError | valueError | assertionError | entityExists | recursionError
  deriving DecidableEq, Repr

/-- what is read from entities: `entity_type`, `uuid`, `validate()`, `external_ref`; the flows of the exchanges of a
process; the quantities of the characterisations of a flow -/
structure Heap (U E K : Type) where
  kind : E → Kind
  uuid : E → U
  valid : E → Bool
  ext : E → K
  flows : E → List E
  quants : E → List E

/-- what is fixed in an archive: `_entity_types` (basic_archive.py:29,45; lc_archive.py:17,32), `_key_to_id`
(entity_store.py:76-89) and `ref` -/
structure Cfg (U K R : Type) where
  kinds : List Kind
  keyToId : K → Option U
  ref : R

/-- EntityStore, entity_store.py:176-190; `origin` are the origins of all entities (None if absent) -/
structure State (U E R : Type) where
  ents : Dict U E := []                 -- _entities
  byType : Dict Kind (List U) := []     -- _ents_by_type
  origin : Dict E R := []
  deriving DecidableEq

variable {U E K R : Type} [DecidableEq U] [DecidableEq E] [DecidableEq K] [DecidableEq R]

/-- `_add`, entity_store.py:458-476 -/
def addKey (c : Cfg U K R) (H : Heap U E K) (e : E) (u : U) (st : State U E R) : Out (State U E R) Err Unit :=
  if st.ents.has u then .err .keyError st
  else if H.kind e ∉ c.kinds then .err .typeError st
  else if H.valid e then
    let store (st : State U E R) : State U E R :=
      { st with ents := st.ents.set u e
                byType := st.byType.set (H.kind e) (PySet.add ((st.byType.get? (H.kind e)).getD []) u) }
    match st.origin.get? e with
    | some _ => .ok () (store st)
    | none =>
      if c.keyToId (H.ext e) = some u then .ok () (store { st with origin := st.origin.set e c.ref })
      else .err .assertionError st
  else .err .valueError st

/-- `add`, basic_archive.py:137-140 -/
def add (c : Cfg U K R) (H : Heap U E K) (e : E) (st : State U E R) : Out (State U E R) Err Unit :=
  if H.kind e ∉ c.kinds then .err .valueError st else addKey c H e (H.uuid e) st

/-- a for loop, ended by the first exception -/
def forEach {σ ε α : Type} (f : α → σ → Out σ ε Unit) : List α → σ → Out σ ε Unit
  | [], s => .ok () s
  | a :: l, s => (f a s).bind fun _ s => forEach f l s

/-- `add_entity_and_children`, basic_archive.py:152-157, for an entity with the given `_add_children` -/
def addWith (c : Cfg U K R) (H : Heap U E K) (children : State U E R → Out (State U E R) Err Unit) (e : E)
    (st : State U E R) : Out (State U E R) Err Unit :=
  match add c H e st with
  | .err .keyError st => .ok () st
  | .err err st => .err err st
  | .ok _ st => children st

/-- `_add_children` of a quantity stores nothing, basic_archive.py:143-146 -/
def addQuantity (c : Cfg U K R) (H : Heap U E K) (e : E) (st : State U E R) : Out (State U E R) Err Unit :=
  addWith c H (fun st => .ok () st) e st

/-- `_add_children` of a flow, basic_archive.py:147-150 -/
def addFlow (c : Cfg U K R) (H : Heap U E K) (e : E) (st : State U E R) : Out (State U E R) Err Unit :=
  addWith c H (forEach (addQuantity c H) (H.quants e)) e st

/-- `_add_children` of a process, lc_archive.py:56-62 -/
def addProcess (c : Cfg U K R) (H : Heap U E K) (e : E) (st : State U E R) : Out (State U E R) Err Unit :=
  addWith c H (forEach (addFlow c H) (H.flows e)) e st

/-- `add_entity_and_children` -/
def addTree (c : Cfg U K R) (H : Heap U E K) (e : E) (st : State U E R) : Out (State U E R) Err Unit :=
  match H.kind e with
  | .quantity => addQuantity c H e st
  | .flow => addFlow c H e st
  | .process => addProcess c H e st
  | .fragment => addWith c H (fun st => .ok () st) e st

/-- `_get_entity` (entity_store.py:418-431) and `__getitem__` (433-456) of an archive without upstream. A stored
entity has an origin (`stored_origin`), so that the lookup changes nothing. -/
def getItem (c : Cfg U K R) (st : State U E R) (key : K) : Option E := (c.keyToId key).bind st.ents.get?

/-- `count_by_type`, entity_store.py:583-584 -/
def countByType (st : State U E R) (k : Kind) : ℕ := ((st.byType.get? k).getD []).length

/-- `entities_by_type`, entity_store.py:579-581; an unknown key (KeyError) is `none` -/
def entitiesByType [LinearOrder U] (st : State U E R) (k : Kind) : List (Option E) :=
  (((st.byType.get? k).getD []).insertionSort (· ≤ ·)).map st.ents.get?

/-! ### calls as data -/

inductive Op (E : Type)
  | add (e : E)
  | addTree (e : E)
  | load (es : List E)        -- load_from_dict: entity_from_json adds each of the entities

def step (c : Cfg U K R) (H : Heap U E K) (op : Op E) (st : State U E R) : Option Err × State U E R :=
  match op with
  | .add e => let o := add c H e st; (o.error?, o.state)
  | .addTree e => let o := addTree c H e st; (o.error?, o.state)
  | .load es => let o := forEach (add c H) es st; (o.error?, o.state)

/-! ### upstream archives -/

/-- archives, numbered; each may have an upstream archive (entity_store.py:386-390) -/
structure World (U E K : Type) where
  ents : ℕ → Dict U E
  keyToId : ℕ → K → Option U
  up : ℕ → Option ℕ

/-- `__getitem__`, entity_store.py:433-456, with a bound on the depth of recursion as Python has it -/
def World.getItem (w : World U E K) (key : K) : ℕ → ℕ → Except Err (Option E)
  | 0, _ => .error .recursionError
  | fuel + 1, a =>
    let here : Option E := (w.keyToId a key).bind (w.ents a).get?
    match w.up a with
    | none => .ok here
    | some b =>
      match World.getItem w key fuel b with
      | .error e => .error e
      | .ok (some e) => .ok (some e)
      | .ok none => .ok here

end Arc

/-! ### the table of names -/

namespace ArcNames

inductive Err | invalidReference | sourceAlreadyKnown | attributeError
  deriving DecidableEq, Repr

/-- `_catalog_names` (a defaultdict of sets) and `_source`, entity_store.py:168, 201 -/
structure State (R S : Type) where
  names : Dict R (List (Option S)) := []
  source : Option S := none
  deriving DecidableEq

variable {R S : Type} [DecidableEq R] [DecidableEq S]

/-- `_catalog_names[k]` -/
def State.at (st : State R S) (k : R) : List (Option S) := (st.names.get? k).getD []

/-- the property `ref`, entity_store.py:262-267; `local_ref(None)` raises AttributeError -/
def refOf (localRef : S → R) (st : State R S) : Except Err R :=
  match st.names.keys.find? fun k => decide (st.source ∈ st.at k) with
  | some k => .ok k
  | none => match st.source with
    | some s => .ok (localRef s)
    | none => .error .attributeError

/-- the end of `_add_name`, entity_store.py:242-246 -/
def finish (localRef : S → R) (ref : R) (source : Option S) (rewrite : Bool) (st : State R S) :
    Out (State R S) Err Unit :=
  let st := { st with names := st.names.set ref (PySet.add (st.at ref) source) }
  match refOf localRef st with
  | .error e => .err e st
  | .ok r => .ok () (if ref = r ∧ st.source = none ∧ rewrite = true then { st with source := source } else st)

/-- the loop of `_add_name` over the table, entity_store.py:228-241, for a source that is not None -/
def scan (localRef : S → R) (ref : R) (s : S) (rewrite : Bool) : List R → State R S → Out (State R S) Err Unit
  | [], st => finish localRef ref (some s) rewrite st
  | k :: ks, st =>
    if some s ∈ st.at k then
      if st.source = some s ∧ k = localRef s then
        .ok () { st with names := (st.names.del k).set ref (st.at k) }
      else if k = ref then .ok () st
      else if rewrite then
        scan localRef ref s rewrite ks { st with names := st.names.set k ((st.at k).filter fun x => decide (x ≠ some s)) }
      else .err .sourceAlreadyKnown st
    else scan localRef ref s rewrite ks st

/-- `_add_name`, entity_store.py:215-246; `valid`: `ref_regex.match` -/
def addName (valid : R → Bool) (localRef : S → R) (ref : R) (source : Option S) (rewrite : Bool) (st : State R S) :
    Out (State R S) Err Unit :=
  if !valid ref then .err .invalidReference st
  else
    match source with
    | none => finish localRef ref none rewrite st
    | some s => scan localRef ref s rewrite st.names.keys st

/-- `_set_source`, entity_store.py:257-260 -/
def setSource (valid : R → Bool) (localRef : S → R) (ref : R) (s : S) (st : State R S) : Out (State R S) Err Unit :=
  addName valid localRef ref (some s) false { st with source := some s }

/-- `get_sources`, entity_store.py:295-302: looking a name up in the defaultdict makes an entry for it -/
def getSources (name : R) (st : State R S) : State R S :=
  if st.names.has name then st else { st with names := st.names.set name [] }

/-- `names`, entity_store.py:274-292, given those of the upstream archive: from source to reference -/
def namesMap (upstream : Dict (Option S) R) (st : State R S) : Dict (Option S) R :=
  st.names.foldl (fun d kv => kv.2.foldl (fun d v => Dict.set d v kv.1) d) upstream

/-! calls as data -/

inductive Op (R S : Type)
  | addName (ref : R) (source : Option S) (rewrite : Bool)
  | setSource (ref : R) (s : S)
  | getSources (name : R)

def step (valid : R → Bool) (localRef : S → R) (op : Op R S) (st : State R S) : Option Err × State R S :=
  match op with
  | .addName r s w => let o := addName valid localRef r s w st; (o.error?, o.state)
  | .setSource r s => let o := setSource valid localRef r s st; (o.error?, o.state)
  | .getSources n => (none, getSources n st)

end ArcNames
