import Mathlib.Data.List.Sort
import Mathlib.Data.String.Basic
import Verif.Model.FlowJson
import Verif.Model.LowerDict

/-!
Model of writing flows and quantities of an archive to JSON and reading them again: `lcatools/entities/entities.py` (`__init__`,
`__setitem__`, `serialize`, `external_ref`), `flows.py`, `quantities.py`, `lcatools/archives/basic_archive.py` (`entity_from_json`,
`_quantity_from_json`, `_flow_from_json`, `serialize`, `load_from_dict`).

Simplifications:
* processes are in Model/ProcessJson; the table of names of the archive is in Model/ArchiveNames;
* values of properties that JSON keeps as they are (numbers, booleans, lists, dicts) are elements of a type `J`;
* uuids are canonical strings; a quantity has its unit string only; no `drop_fields`; no upstream archive;
* the properties are those set by the constructor and by `entity[name] = value` (`update` writes unchecked names).
-/

namespace EJ
variable {J : Type}

inductive Kind | quantity | flow
  deriving DecidableEq, Repr

inductive Err | keyError | oldJson | typeError | attributeError | propertyExists
  deriving DecidableEq, Repr

/-- the value of a property -/
inductive PV (J : Type)
  | none
  | str (s : String)
  | json (v : J)                                                    -- number, bool, list or dict
  | list (l : List String)
  | set (l : List String)
  | entity (origin : Option String) (ext etype : String)
  | dict (origin : Option String) (ext etype : String)              -- a dict with the three entries
  | other (s : String)                                              -- any other object, with its `str`
  deriving DecidableEq

/-- a value in the file -/
inductive JV (J : Type)
  | str (s : String)
  | json (v : J)
  | list (l : List String)
  | dict (origin : Option String) (ext etype : String)
  deriving DecidableEq

/-- the cases of the loop in `serialize`, entities.py:244-275; None is left out -/
def toJV : PV J → Option (JV J)
  | .none => none
  | .str s => some (.str s)
  | .json v => some (.json v)
  | .list l => some (.list l)
  | .set l => some (.list (l.insertionSort (· ≤ ·)))
  | .entity o e t => some (.dict o e t)
  | .dict o e t => some (.dict o e t)
  | .other s => some (.str s)

/-- what the JSON parser makes of it -/
def ofJV : JV J → PV J
  | .str s => .str s
  | .json v => .json v
  | .list l => .list l
  | .dict o e t => .dict o e t

/-- an entity, entities.py:40-62, flows.py:35, quantities.py:22-23 -/
structure Ent (J : Type) where
  kind : Kind
  uuid : String
  origin : Option String := none
  extRef : Option String := none                     -- _external_ref
  props : LDict.St String (PV J) := []               -- _d
  unit : String := ""                                -- the unit of a quantity
  chars : Flo.State String := {}                     -- the characterisations of a flow
  deriving DecidableEq

/-- `external_ref`, entities.py:129-133 -/
def Ent.ext (e : Ent J) : String := e.extRef.getD e.uuid

/-- an entity in JSON -/
structure JE (J : Type) where
  entityId : String
  kind : Kind
  externalId : String
  origin : Option String
  unit : String                                      -- 'referenceUnit' of a quantity
  props : List (String × JV J)
  chars : List (Flo.JC String)                       -- 'characterizations' of a flow

/-- `serialize` of an entity, entities.py:244-275, and of a flow, flows.py:272-282 (which writes 'characterizations' last) -/
def serializeE (domesticate : Bool) (e : Ent J) : JE J where
  entityId := e.uuid
  kind := e.kind
  externalId := e.ext
  origin := if domesticate then none else e.origin
  unit := e.unit
  props := e.props.filterMap fun kv =>
    if e.kind = .flow ∧ kv.1 = "characterizations" then none else (toJV kv.2).map fun v => (kv.1, v)
  chars := if e.kind = .flow then Flo.serializeF true true e.chars else []

/-- names that `__setitem__` refuses or treats otherwise, entities.py:286-294 (in lower case) -/
def refused : Kind → List String
  | .quantity => ["entityid", "entitytype", "externalid", "origin", "referenceunit"]
  | .flow => ["entityid", "entitytype", "externalid", "origin", "referencequantity"]

/-- fields that every entity has: entities.py:52-53, flows.py:39-41 -/
def fields : Kind → List String
  | .quantity => ["Name", "Comment"]
  | .flow => ["Name", "Comment", "CasNumber", "Compartment"]

/-- `entity[name] = value` of a property, entities.py:281-292 -/
def setProp (lower : String → String) (e : Ent J) (name : String) (v : PV J) : Except Err (Ent J) :=
  if lower name ∈ refused e.kind then .error .keyError
  else .ok { e with props := LDict.set lower e.props name v }

/-- the loop of the constructor over the properties, entities.py:59-60 -/
def setProps (lower : String → String) : List (String × PV J) → Ent J → Except Err (Ent J)
  | [], e => .ok e
  | (k, v) :: l, e =>
    match setProp lower e k v with
    | .error err => .error err
    | .ok e => setProps lower l e

/-- the fields that are missing are set to '', flows.py:39-41 -/
def addFields (lower : String → String) (ks : List String) (e : Ent J) : Ent J :=
  { e with props := ks.foldl (fun d k => if LDict.contains lower d k then d else LDict.set lower d k (.str "")) e.props }

/-- `LcQuantity(uid, ...)` and `LcFlow(uid, ...)` with properties from a dict: names of the arguments of the constructors are not
properties. `external_ref` sets the external reference (`str` only here); `local_unit` of a flow without reference quantity raises,
flows.py:50-51, 103-106; the others are arguments given twice. -/
def make (lower : String → String) (kind : Kind) (uuid : String) (origin : Option String) (unit : String)
    (props : List (String × PV J)) : Except Err (Ent J) :=
  if props.any fun kv => kv.1 = "self" ∨ kv.1 = "entity_uuid" ∨ kv.1 = "entity_type" then .error .typeError
  else
    let ext := match props.find? (·.1 = "external_ref") with
      | some (_, .str s) => some s
      | some _ => some ""
      | none => none
    let e : Ent J := { kind := kind, uuid := uuid, origin := origin, extRef := ext, unit := unit,
                       props := [("Name", .str ""), ("Comment", .str "")] }
    match setProps lower (props.filter fun kv => kv.1 ≠ "external_ref" ∧ ¬(kind = .flow ∧ kv.1 = "local_unit")) e with
    | .error err => .error err
    | .ok e =>
      if kind = .flow ∧ props.any (·.1 = "local_unit") then .error .attributeError
      else .ok (addFields lower (fields kind) e)

/-- an archive of flows and quantities -/
structure Archive (J : Type) where
  ref : String
  ents : Dict String (Ent J) := []

/-- `entity_from_json`, basic_archive.py:219-244, with `_quantity_from_json` and `_flow_from_json`. `keyToId` is `_key_to_id`,
entity_store.py:76-89; the entity is in the archive when its external reference is looked up. -/
def entityFromJson (lower : String → String) (keyToId : String → String) (j : JE J) (a : Archive J) : Out (Archive J) Err Unit :=
  if j.props.any (·.1 = "tags") then .err .oldJson a
  else
    match make lower j.kind j.entityId (some (j.origin.getD a.ref)) j.unit (j.props.map fun kv => (kv.1, ofJV kv.2)) with
    | .error e => .err e a
    | .ok e =>
      let chars := if j.kind = .flow then Flo.loadFlow (fun q => a.ents.has (keyToId q)) true j.chars else .ok () {}
      match chars with
      | .err _ _ => .err .keyError a
      | .ok _ st =>
        let e := { e with chars := st }
        if a.ents.has j.entityId then .err .keyError a                       -- `add`, entity_store.py:458-460
        else
          let put (e : Ent J) : Archive J := { a with ents := a.ents.set j.entityId e }
          if keyToId j.externalId = j.entityId then                          -- `self[ext_ref] is entity`
            match e.extRef with                                              -- `set_external_ref`, entities.py:135-147
            | some _ => .err .propertyExists (put e)
            | none => .ok () (put (if j.externalId = j.entityId then e else { e with extRef := some j.externalId }))
          else .ok () (put e)

/-- the loops of `load_from_dict`, basic_archive.py:282-287 -/
def loadAll (lower : String → String) (keyToId : String → String) : List (JE J) → Archive J → Out (Archive J) Err Unit
  | [], a => .ok () a
  | j :: l, a => (entityFromJson lower keyToId j a).bind fun _ a => loadAll lower keyToId l a

/-- 'quantities' and 'flows' of `serialize`, basic_archive.py:336-353, before sorting by 'entityId' -/
def serializeA (domesticate : Bool) (a : Archive J) (k : Kind) : List (JE J) :=
  (a.ents.filter fun ue => decide (ue.2.kind = k)).map fun ue => serializeE domesticate ue.2

/-- `load_from_dict`: the quantities, then the flows -/
def loadArchive (lower : String → String) (keyToId : String → String) (ref : String) (quantities flows : List (JE J)) :
    Out (Archive J) Err Unit :=
  (loadAll lower keyToId quantities { ref := ref }).bind fun _ a => loadAll lower keyToId flows a

end EJ
