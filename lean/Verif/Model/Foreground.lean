import Verif.Base.Py

/-!
Model of the storage of a foreground: `antelope_catalog/foreground/foreground.py` (`_key_to_id`, `add`, `name_fragment`), with
`__getitem__`, `_add`, `entities_by_type` of `lcatools/archives/entity_store.py`, `link`, `external_ref`, `merge` of
`lcatools/entities/entities.py` and of `lcatools/entity_refs/base.py`.

Simplifications:
* entities are objects on a heap, a list to which objects are only appended; their positions are the object identities;
* `to_uuid` is a parameter `tu`;
* the foreground has no upstream archive; entities are valid (`validate()`); printing and counters are left out;
* an entity of another origin is replaced by a reference (`make_ref`): a new object each time, the code keeps one per entity;
* merging a flow also merges characterizations, which is left out.
-/

namespace Fg

abbrev Str := List Char

inductive Err
  | valueError | keyError | attributeError | mergeError | typeError | fragmentNotFound | propertyExists
  deriving DecidableEq, Repr

/-- an entity (`isEnt`) or a reference to one; `ext` is `_external_ref`, entities.py:38-66, base.py:40-66 -/
structure Ent where
  isEnt : Bool := true
  etype : Str
  origin : Option Str
  uuid : Str
  ext : Option Str
  props : Dict Str Str := []
  deriving DecidableEq

/-- `external_ref`, entities.py:129-133, base.py:57-59 -/
def Ent.ref (e : Ent) : Str := e.ext.getD e.uuid

/-- `link`, entities.py:179-181, base.py:65-67 -/
def Ent.link (e : Ent) : Str := e.origin.getD "None".toList ++ '/' :: e.ref

/-- the dictionaries of the foreground, foreground.py:111-114, and the heap -/
structure St where
  heap : List Ent
  ents : Dict Str ℕ := []                     -- _entities: link to entity
  names : Dict Str Str := []                  -- _ext_ref_mapping: custom name to link
  uuids : Dict Str (List Str) := []           -- _uuid_map: uuid to a set of links
  byType : Dict Str (List Str) := []          -- _ents_by_type: type to a set of links
  deriving DecidableEq

/-- what does not change: the name of the foreground, and `to_uuid` -/
structure Env where
  ref : Str
  tu : Str → Option Str

def St.obj (st : St) (e : ℕ) : Option Ent := st.heap[e]?

/-- `_key_to_id`, foreground.py:58-91; the choice among several links is open -/
def keyToId (env : Env) (o : PyOrd Str) (st : St) (key : Str) : Option Str :=
  if st.ents.has key then some key
  else
    match st.names.get? key with
    | some l => some l
    | none =>
      match env.tu key with
      | none => none
      | some u =>
        match st.uuids.get? u with
        | none => none
        | some ls => (o.f ls).head?

/-- `self[key]`, entity_store.py:433-456 -/
def getitem (env : Env) (o : PyOrd Str) (st : St) (key : Str) : Option ℕ :=
  match keyToId env o st key with
  | none => none
  | some l => st.ents.get? l

/-- `entities_by_type`, entity_store.py:579-581, without the order -/
def entitiesOf (st : St) (t : Str) : List (Option ℕ) := ((st.byType.get? t).getD []).map fun l => st.ents.get? l

/-- `d[k].add(x)` on a defaultdict of sets -/
def addTo (d : Dict Str (List Str)) (k x : Str) : Dict Str (List Str) := d.set k (PySet.add ((d.get? k).getD []) x)

/-- `d[k].remove(x)` on a defaultdict of sets -/
def removeFrom (d : Dict Str (List Str)) (k x : Str) : Except Err (Dict Str (List Str)) :=
  if x ∈ (d.get? k).getD [] then .ok (d.set k (((d.get? k).getD []).erase x)) else .error .keyError

def setObj (st : St) (e : ℕ) (x : Ent) : St := { st with heap := st.heap.set e x }

/-! ### merging -/

/-- the keys of `other` that `self` lacks, entities.py:307-310 -/
def fillProps (mine other : Dict Str Str) : Dict Str Str :=
  other.foldl (fun d kv => if d.has kv.1 then d else d.set kv.1 kv.2) mine

/-- `self._d.update(other._d)`, base.py:156 -/
def updateProps (mine other : Dict Str Str) : Dict Str Str := other.foldl (fun d kv => d.set kv.1 kv.2) mine

/-- `current.merge(entity)`, entities.py:296-310, base.py:143-156, processes.py:632-633; references have no `get_external_ref` -/
def merge (cur x : Ent) : Except Err Ent :=
  if cur.isEnt then
    if cur.etype = "process".toList then .error .typeError
    else if cur.etype ≠ x.etype then .error .mergeError
    else if !x.isEnt then .error .attributeError
    else if cur.ref ≠ x.ref then .error .mergeError
    else .ok { cur with props := fillProps cur.props x.props }
  else if cur.etype ≠ x.etype then .error .mergeError
  else if cur.link ≠ x.link ∧ cur.ref ≠ x.ref then .error .mergeError
  else .ok { cur with props := updateProps cur.props x.props }

/-! ### adding -/

def entityTypes : List Str := ["process".toList, "flow".toList, "quantity".toList, "fragment".toList]

/-- `make_ref`, entities.py:68-79 -/
def Ent.makeRef (x : Ent) : Ent := { x with isEnt := false, ext := some x.ref }

/-- `_add`, entity_store.py:458-476, of an entity with an origin, and `_uuid_map`, foreground.py:191, 197 -/
def insert (st : St) (e : ℕ) (x : Ent) : St :=
  { st with
    ents := st.ents.set x.link e
    byType := addTo st.byType x.etype x.link
    uuids := addTo st.uuids x.uuid x.link }

/-- foreground.py:190-197: `_add`, or merge with what is found under the UUID -/
def addOrMerge (env : Env) (o : PyOrd Str) (st : St) (e : ℕ) (x : Ent) : Out St Err Unit :=
  if st.ents.has x.link then
    match getitem env o st x.uuid with
    | none => .err .attributeError st
    | some c =>
      match st.obj c with
      | none => .err .attributeError st
      | some cur =>
        match merge cur x with
        | .error er => .err er st
        | .ok y => .ok () { setObj st c y with uuids := addTo st.uuids x.uuid x.link }
  else .ok () (insert st e x)

/-- `add`, foreground.py:174-197 -/
def add (env : Env) (o : PyOrd Str) (st : St) (e : ℕ) : Out St Err Unit :=
  match st.obj e with
  | none => .err .attributeError st
  | some x =>
    if x.etype ∉ entityTypes then .err .valueError st
    else
      match x.origin with
      | none => addOrMerge env o (setObj st e { x with origin := some env.ref }) e { x with origin := some env.ref }
      | some orig =>
        if x.isEnt ∧ orig ≠ env.ref then
          addOrMerge env o { st with heap := st.heap ++ [x.makeRef] } st.heap.length x.makeRef
        else addOrMerge env o st e x

/-! ### naming -/

/-- the external_ref setter, entities.py:131-144 -/
def Ent.setExt (x : Ent) (name : Str) : Except Err Ent :=
  match x.ext with
  | some _ => .error .propertyExists
  | none => if name ≠ x.uuid then .ok { x with ext := some name } else .ok x

/-- the changes of the dictionaries, foreground.py:232-239; `y` is the fragment under its new name -/
def rename (st : St) (old : Str) (y : Ent) (name : Str) : Out St Err Unit :=
  let st := { st with names := st.names.set name y.link }
  match st.ents.get? old with
  | none => .err .keyError st
  | some v =>
    let st := { st with ents := (st.ents.del old).set y.link v }
    match removeFrom st.uuids y.uuid old with
    | .error er => .err er st
    | .ok us =>
      let st := { st with uuids := addTo us y.uuid y.link }
      match removeFrom st.byType "fragment".toList old with
      | .error er => .err er st
      | .ok bt => .ok () { st with byType := addTo bt "fragment".toList y.link }

/-- `name_fragment`, foreground.py:207-239 -/
def nameFragment (env : Env) (o : PyOrd Str) (st : St) (f : ℕ) (name : Str) : Out St Err Unit :=
  match st.obj f with
  | none => .err .attributeError st
  | some x =>
    if getitem env o st x.link ≠ some f then .err .fragmentNotFound st
    else if keyToId env o st name ≠ none then .err .valueError st
    else
      match x.setExt name with
      | .error er => .err er st
      | .ok y => rename (setObj st f y) x.link y name

/-! ### histories -/

inductive Op
  | create (x : Ent)
  | add (o : PyOrd Str) (e : ℕ)
  | name (o : PyOrd Str) (f : ℕ) (name : Str)

def step (env : Env) (st : St) : Op → St
  | .create x => { st with heap := st.heap ++ [x] }
  | .add o e => (add env o st e).state
  | .name o f n => (nameFragment env o st f n).state

def run (env : Env) (st : St) (ops : List Op) : St := ops.foldl (step env) st

end Fg
