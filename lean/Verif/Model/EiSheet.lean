import Verif.Base.Py

/-!
Model of the loader of ecoinvent "activity overview" spreadsheets, `antelope_catalog/providers/ecoinvent_spreadsheet.py`: quantities,
flows and activities (`_load_all`).

Simplifications:
* the archive is empty at first and has no upstream archive;
* the key of an entity in the archive is a uuid: of a name (`_key_to_nsuuid`, taken to be different for different names), or of an
  activity. Names that contain a uuid are left out (entity_store.py:469);
* a row gives, besides name, compartments and unit, values for some fields (CasNumber, Comment, Formula, Synonyms: which ones differs
  between internal and public spreadsheets, and between the two sheets);
* `canon` is `str(uuid.UUID(u))`, none if it raises ValueError. Optional fields of activities are left out;
* printing and the quantity of units (`_create_unit`) are left out.
-/

namespace Eis

/-- keys of entities -/
inductive Key
  | ns (name : String)
  | uu (u : String)
  deriving DecidableEq, Repr

structure FlowE where
  ref : String
  name : String
  comp : List String
  unit : String                  -- the unit of its reference quantity
  props : Dict String String
  deriving DecidableEq, Repr

structure ProcE where
  uuid : String
  name : String
  geo : String
  exch : List String := []       -- external references of the flows of its exchanges, all outputs
  refs : List String := []       -- those of its references
  deriving DecidableEq, Repr

inductive Ent
  | qty (unit : String) (props : Dict String String)
  | flow (f : FlowE)
  | proc (p : ProcE)
  deriving DecidableEq, Repr

inductive Err
  | value | attribute
  deriving DecidableEq, Repr

abbrev Arch := Dict Key Ent

/-- a row of the sheets of exchanges -/
structure Row where
  name : String
  comp : List String
  unit : String
  props : Dict String String
  deriving DecidableEq, Repr

/-- `_elementary_key`, ecoinvent_spreadsheet.py:283-285 -/
def elementaryKey (name comp sub : String) : String := name ++ " [" ++ comp ++ ", " ++ sub ++ "]"

/-- a row of either sheet, with the name its key is made of: ecoinvent_spreadsheet.py:287-342 -/
structure FRow where
  key : String
  row : Row
  deriving DecidableEq, Repr

/-- a row of the sheet of elementary exchanges, ecoinvent_spreadsheet.py:306-312, 335-341 -/
def elementary (name comp sub unit : String) (props : Dict String String) : FRow :=
  ⟨elementaryKey name comp sub, ⟨name, [comp, sub], unit, props⟩⟩

/-- a row of the sheet of intermediate exchanges, ecoinvent_spreadsheet.py:293-298, 321-325 -/
def intermediate (name unit : String) (props : Dict String String) : FRow :=
  ⟨name, ⟨name, ["Intermediate flow"], unit, props⟩⟩

/-- `_create_quantity`, ecoinvent_spreadsheet.py:239-259 -/
def createQuantity (u : String) (a : Arch) : Arch :=
  if a.has (.ns u) then a else a.set (.ns u) (.qty u [])

/-- `_create_quantities`, ecoinvent_spreadsheet.py:274-281 -/
def createQuantities (o : PyOrd String) (rows : List FRow) (a : Arch) : Arch :=
  (o.f (PySet.ofList (rows.map fun r => r.row.unit))).foldl (fun a u => createQuantity u a) a

/-- `dict.update` -/
def upd (d e : Dict String String) : Dict String String := e.foldl (fun d p => d.set p.1 p.2) d

/-- `update` of an entity, entities.py:216-217 -/
def Ent.update (e : Ent) (props : Dict String String) : Ent :=
  match e with
  | .qty u d => .qty u (upd d props)
  | .flow f => .flow { f with props := upd f.props props }
  | .proc p => .proc p

/-- `_create_flow`, ecoinvent_spreadsheet.py:261-272 -/
def createFlow (r : FRow) (a : Arch) : Arch :=
  match a.get? (.ns r.key) with
  | some e => a.set (.ns r.key) (e.update r.row.props)
  | none =>
    let f : FlowE := ⟨r.key, r.row.name, r.row.comp, r.row.unit, upd [] r.row.props⟩
    (createQuantity r.row.unit a).set (.ns r.key) (Ent.update (.flow f) r.row.props)

/-- a row of the sheet of activities -/
structure ARow where
  uuid : String
  name : String
  geo : String
  product : String
  isRef : Bool
  deriving DecidableEq, Repr

/-- the external reference of an entity: of a quantity, its unit (ecoinvent_spreadsheet.py:254) -/
def Ent.ref : Ent → String
  | .qty u _ => u
  | .flow f => f.ref
  | .proc p => p.uuid

/-- `add_exchange` and, for a reference product, `add_reference`: processes.py:539-613, 402-405 -/
def ProcE.addProduct (p : ProcE) (f : String) (isRef : Bool) : ProcE :=
  { p with exch := PySet.add p.exch f, refs := if isRef then PySet.add p.refs f else p.refs }

/-- one round of the loop of `load_activities`, ecoinvent_spreadsheet.py:346-399 -/
def loadActivity (canon : String → Option String) (r : ARow) (a : Arch) : Out Arch Err Unit :=
  match canon r.uuid with
  | none => .err .value a
  | some u =>
    let a1 : Arch := match a.get? (.uu u) with
      | none => a.set (.uu u) (.proc { uuid := u, name := r.name, geo := r.geo })
      | some _ => a
    match a1.get? (.ns r.product) with
    | none => .err .attribute a1
    | some f =>
      match a1.get? (.uu u) with
      | some (.proc p) => .ok () (a1.set (.uu u) (.proc (p.addProduct f.ref r.isRef)))
      | _ => .err .attribute a1

/-- `load_activities`, ecoinvent_spreadsheet.py:343-399 -/
def loadActivities (canon : String → Option String) : List ARow → Arch → Out Arch Err Unit
  | [], a => .ok () a
  | r :: rs, a => (loadActivity canon r a).bind fun _ a' => loadActivities canon rs a'

/-- the flows and quantities, ecoinvent_spreadsheet.py:402-414: first all units, then the elementary rows, then the intermediate ones -/
def loadFlows (o : PyOrd String) (elem inter : List FRow) : Arch :=
  (elem ++ inter).foldl (fun a r => createFlow r a) (createQuantities o (elem ++ inter) [])

/-- `_load_all`, ecoinvent_spreadsheet.py:404-420 -/
def loadAll (o : PyOrd String) (canon : String → Option String) (elem inter : List FRow) (acts : List ARow) : Out Arch Err Unit :=
  loadActivities canon acts (loadFlows o elem inter)

end Eis
