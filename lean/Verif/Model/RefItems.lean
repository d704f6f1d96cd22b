import Verif.Base.Py
import Verif.Model.LowerDict

/-!
Model of catalog references and entities as dictionaries, and of their identity: `lcatools/entity_refs/base.py` (BaseRef, EntityRef),
`lcatools/entity_refs/catalog_ref.py` (CatalogRef), `lcatools/entities/entities.py` (merge, origin, external_ref, make_ref),
`lcatools/entities/flows.py` (merge).

Simplifications: values of properties are None or strings; the query of a reference is its answer to `get_item` (which may differ from
call to call); queries are valid; the extra entries that FlowRef and QuantityRef write to JSON are left out.
-/

namespace RefI

inductive Err | keyError | typeError | entityMerge | refMerge | attributeError | propertyExists
  deriving DecidableEq, Repr

inductive Val
  | none
  | str (s : String)
  deriving DecidableEq, Repr

/-- `_d` of a reference, base.py:53 -/
abbrev D := Dict String Val

/-- 'local_%s' % item -/
def localName (item : String) : String := "local_" ++ item

/-- `_localitem`, base.py:79-84 -/
def localItem (d : D) (item : String) : Val :=
  match d.get? item with
  | some v => v
  | none => (d.get? (localName item)).getD .none

/-- `has_property`, base.py:94-95 -/
def hasProperty (d : D) (item : String) : Bool := decide (localItem d item ≠ .none)

/-- the name under which `ref[key] = value` stores, base.py:100-103 -/
def storedName (lower : String → String) (key : String) : String :=
  let key := lower key
  if "local_".toList.isPrefixOf key.toList then key else localName key

/-- `__setitem__`, base.py:97-101 -/
def setItem (lower : String → String) (d : D) (key : String) (v : Val) : D := d.set (storedName lower key) v

/-- `get_item`, base.py:294-320. `remote` is the answer of the query, none for KeyError -/
def getItem (force : Bool) (remote : Option Val) (d : D) (item : String) : Val × D :=
  if !force && decide (localItem d item ≠ .none) then (localItem d item, d)
  else
    match remote with
    | some (.str s) => if s ≠ "" then (.str s, d.set item (.str s)) else (.none, d)
    | _ => (.none, d)

/-- `ref[item]`, base.py:303-307 -/
def index (remote : Option Val) (d : D) (item : String) : Out D Err Val :=
  let x := getItem false remote d item
  if x.1 = .none then .err .keyError x.2 else .ok x.1 x.2

inductive Op
  | set (key : String) (v : Val)
  | get (item : String) (force : Bool) (remote : Option Val)

/-- the state after a call -/
def step (lower : String → String) (d : D) : Op → D
  | .set k v => setItem lower d k v
  | .get i f r => (getItem f r d i).2

def run (lower : String → String) (ops : List Op) (d : D) : D := ops.foldl (step lower) d

/-- the copying of local items in `lookup`, catalog_ref.py:84-86, from a reference with items `l` to the one found -/
def lookupItems (lower : String → String) (l : D) (found : D) : D :=
  l.foldl (fun d kv => if hasProperty d kv.1 then d else setItem lower d kv.1 kv.2) found

/-! ### references in JSON -/

/-- a reference; `etype` is the type of its class (none for CatalogRef), `asgn` the type given to a CatalogRef -/
structure Ref where
  etype : Option String := none
  asgn : Option String := none
  origin : String
  ext : String
  uuid : Option String := none
  d : D := []
  deriving DecidableEq

/-- `entity_type`, base.py:69-73, catalog_ref.py:111-115 -/
def Ref.entityType (r : Ref) : String := r.asgn.getD (r.etype.getD "unknown")

/-- `uuid`, base.py:61-63 -/
def Ref.getUuid (r : Ref) : String := r.uuid.getD r.ext

/-- `link`, base.py:65-67 -/
def Ref.link (r : Ref) : String := r.origin ++ "/" ++ r.ext

/-- a JSON object -/
abbrev J := Dict String Val

/-- `j.update(d)` -/
def update (j : J) (d : D) : J := d.foldl (fun j kv => j.set kv.1 kv.2) j

/-- `serialize`, base.py:181-193 and, for typed references (EntityRef), base.py:309-312 -/
def serialize (r : Ref) : J :=
  let j : J := [("origin", .str r.origin), ("externalId", .str r.ext)]
  match r.etype with
  | none => update j r.d
  | some t => (update (j.set "entityType" (.str t)) r.d).set "entityId" (.str r.getUuid)

/-- the text of a value; values that are no text do not occur where it is used -/
def Val.text : Val → String
  | .none => "None"
  | .str s => s

/-- `from_json` without a catalog, catalog_ref.py:40-58 -/
def fromJson (j : J) : Except Err Ref :=
  match j.get? "externalId" with
  | none => .error .keyError
  | some ext =>
    let j := j.del "externalId"
    let etype : Option String := match j.get? "entityType" with
      | some (.str t) => if t = "unknown" then none else some t
      | _ => none
    let j := j.del "entityType"
    let origin := match j.get? "origin" with
      | some o => o.text
      | none => match j.get? "source" with
        | some s => s.text
        | none => "foreground"
    let j := j.del "origin"
    if j.has "external_ref" || j.has "entity_type" || j.has "self" then .error .typeError
    else .ok { asgn := etype, origin := origin, ext := ext.text,
               uuid := match j.get? "uuid" with
                 | some (.str u) => some u
                 | _ => none,
               d := j.del "uuid" }

/-! ### merging -/

/-- `merge` of references, base.py:143-157 -/
def mergeRef (a b : Ref) : Out Ref Err Unit :=
  if a.entityType ≠ b.entityType then .err .refMerge a
  else if a.link ≠ b.link ∧ a.ext ≠ b.ext then .err .refMerge a
  else .ok () { a with d := update a.d b.d }

/-- an entity: properties with LowerDict, characterised quantities of a flow -/
structure Ent where
  etype : String
  ext : String
  props : LDict.St String Val := []
  quantities : List String := []
  deriving DecidableEq

/-- the loop of `merge`, entities.py:307-310: `keys()` gives plain strings -/
def mergeProps (lower : String → String) (other : LDict.St String Val) (self : LDict.St String Val) : LDict.St String Val :=
  other.foldl (fun s kv => if kv.1 ∈ LDict.keys s then s else LDict.set lower s kv.1 kv.2) self

/-- `merge` of entities, entities.py:296-310 -/
def mergeEnt (lower : String → String) (self other : Ent) : Out Ent Err Unit :=
  if self.etype ≠ other.etype then .err .entityMerge self
  else if self.ext ≠ other.ext then .err .entityMerge self
  else .ok () { self with props := mergeProps lower other.props self.props }

/-- `merge` of flows, flows.py:265-270: `add_characterization` is called with a characterisation, which has no `uuid` (line 193) -/
def mergeFlow (lower : String → String) (self other : Ent) : Out Ent Err Unit :=
  (mergeEnt lower self other).bind fun _ s =>
    if other.quantities.all fun q => decide (q ∈ s.quantities) then .ok () s else .err .attributeError s

/-! ### identity -/

/-- what identifies an entity, entities.py:43-57; `memo` is `_query_ref`, with the origin and the external reference it has -/
structure Ident where
  etype : String
  uuid : String
  origin : Option String := none
  extRef : Option String := none
  memo : Option (String × String) := none
  deriving DecidableEq

/-- `external_ref`, entities.py:129-133 -/
def Ident.ext (e : Ident) : String := e.extRef.getD e.uuid

/-- the setter of `origin`, entities.py:117-122 -/
def setOrigin (o : String) (e : Ident) : Out Ident Err Unit :=
  match e.origin with
  | none => .ok () { e with origin := some o }
  | some _ => .err .propertyExists e

/-- `map_origin`, entities.py:104-115 -/
def mapOrigin (omap : Dict String String) (fallback : Option String) (e : Ident) : Ident :=
  match e.origin.bind omap.get? with
  | some o => { e with origin := some o }
  | none =>
    match fallback with
    | some f => { e with origin := some f }
    | none => e

/-- the setter of `external_ref`, entities.py:135-147 -/
def setExt (ref : String) (e : Ident) : Out Ident Err Unit :=
  match e.extRef with
  | none => .ok () (if ref ≠ e.uuid then { e with extRef := some ref } else e)
  | some _ => .err .propertyExists e

/-- `make_ref`, entities.py:68-79, for a query with the given origin: origin and external reference of the result -/
def makeRef (queryOrigin : String) (e : Ident) : (String × String) × Ident :=
  match e.memo with
  | some r => (r, e)
  | none => ((queryOrigin, e.ext), { e with memo := some (queryOrigin, e.ext) })

inductive IOp
  | origin (o : String)
  | map (omap : Dict String String) (fallback : Option String)
  | ext (ref : String)
  | makeRef (queryOrigin : String)

def istep (e : Ident) : IOp → Ident
  | .origin o => (setOrigin o e).state
  | .map m f => mapOrigin m f e
  | .ext r => (setExt r e).state
  | .makeRef q => (makeRef q e).2

def irun (ops : List IOp) (e : Ident) : Ident := ops.foldl istep e

end RefI
