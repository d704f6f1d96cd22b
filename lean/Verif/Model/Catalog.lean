import Verif.Model.Resolver

/-!
Model of queries to the catalog: `antelope_catalog/catalog/catalog.py`, `antelope_catalog/catalog_query.py`,
`lcatools/interfaces/abstract_query.py`, `lcatools/implementations/basic.py`.

Simplifications:
* the registry of resources is the model of `Verif.Model.Resolver`;
* an archive is what its `basic` interface can observe: its reference, whether it is static, the interfaces it can make, the
  entities it holds (with those of its upstream archive), and what `_fetch` answers for the others. What `_fetch` answers does not
  change, so keeping the entities that were fetched is left out; so are changes of `static` after loading;
* what loading a resource gives is fixed (`World.arch`); it may raise;
* an entity and the reference that `make_ref` makes of it are the same value;
* the interface `background` is left out: `gen_interfaces` makes a background resource for it as a last resort
  (catalog.py:547-549), and `_iface` sets it up (catalog_query.py:60-75);
* debugging output and the argument `debug` are left out.
-/

namespace Cat
open Rsv (Str Res Rec Dir isJson splitDots)

inductive Exc
  | entityNotFound | indexRequired | inventoryRequired | quantityRequired
  | notImplemented | interfaceError | unknownOrigin | stopIteration | keyError | attributeError | valueError | loadError
  deriving DecidableEq, Repr

/-- an archive as its interfaces see it, basic.py:9-17 -/
structure Arch (E : Type) where
  ref : Str
  static : Bool
  ifaces : List String
  held : Dict Str E
  source : Str → Except Exc (Option E)

/-- what loading each resource gives, lc_resource.py:70-101 (`_instantiate`) -/
structure World (A E : Type) where
  arch : Res A → Except Exc (Arch E)

/-- CatalogQuery, catalog_query.py:35-40 -/
structure Qry (E : Type) where
  origin : Str
  cache : Dict Str E

/-- LcCatalog, catalog.py:213-222. `loaded` are the resources that have an archive; `objs` are all the CatalogQuery objects ever made,
    `queries` those that the catalog keeps -/
structure St (A E : Type) where
  rsv : Rsv.St A
  loaded : List ℕ
  nick : Dict Str (Option Str)
  queries : Dict Str ℕ
  objs : Dict ℕ (Qry E)
  next : ℕ

/-- the argument itype: a name or an iterable of names, catalog.py:535 -/
inductive Itype
  | one (i : String)
  | many (l : List String)

/-- what `satisfies` makes of it, lc_resource.py:284-285 -/
def Itype.names : Itype → List String
  | .one i => [i]
  | .many l => l

variable {A E R : Type} [DecidableEq A]

/-- `is_loaded`, lc_resource.py:100-102 -/
def isLoaded (st : St A E) (r : Res A) : Bool := decide (r.oid ∈ st.loaded)

/-- `static` of a resource; `_instantiate` sets it to that of the archive, lc_resource.py:98, 273-275 -/
def staticNow (w : World A E) (st : St A E) (r : Res A) : Bool :=
  match isLoaded st r, w.arch r with
  | true, .ok a => a.static || isJson r.dtype
  | _, _ => r.isStatic

/-- the sort key, catalog.py:525: `(not (is_loaded and static), priority, reference != origin)` -/
def key (w : World A E) (st : St A E) (origin : Str) (r : Res A) : Bool × ℤ × Bool :=
  (!(isLoaded st r && staticNow w st r), r.prio, decide (r.ref ≠ origin))

/-- the order of bools -/
def boolLt (a b : Bool) : Bool := !a && b

/-- the order of tuples: `not (b < a)` -/
def keyLe (a b : Bool × ℤ × Bool) : Bool :=
  boolLt a.1 b.1 || decide (a.1 = b.1) && (decide (a.2.1 < b.2.1) || decide (a.2.1 = b.2.1) && !boolLt b.2.2 a.2.2)

/-- `_sorted_resources`, catalog.py:525-528 -/
def sortedResources (w : World A E) (st : St A E) (origin : Str) (t : Itype) (strict : Bool) : Except Exc (List (Res A)) :=
  match Rsv.resolve st.rsv origin (some t.names) strict with
  | .error _ => .error .unknownOrigin
  | .ok l => .ok (l.insertionSort fun a b => keyLe (key w st origin a) (key w st origin b) = true)

/-- `check`, lc_resource.py:107-111 -/
def load (w : World A E) (st : St A E) (r : Res A) : Out (St A E) Exc (Arch E) :=
  match w.arch r with
  | .error e => .err e st
  | .ok a => .ok a { st with loaded := PySet.add st.loaded r.oid }

/-- `make_interface`, basic_archive.py:127-135: an iterable is not the name of an interface -/
def makeInterface (a : Arch E) : Itype → Except Exc Unit
  | .one i => if i ∈ a.ifaces then .ok () else .error .interfaceError
  | .many _ => .error .interfaceError

/-- `except NotImplementedError: pass`, then `raise exc`, abstract_query.py:60-63 -/
def swallow (x e : Exc) : Exc := if e = .notImplemented then x else e

/-- the loop of `_perform_query` over the interfaces of `gen_interfaces`, abstract_query.py:51-63, catalog.py:543-545: the resources are
    loaded one by one as the loop reaches them -/
def ask (w : World A E) (t : Itype) (x : Exc) (call : Arch E → Except Exc (Option R)) : List (Res A) → St A E → Out (St A E) Exc R
  | [], st => .err x st
  | r :: l, st =>
    match load w st r with
    | .err e st => .err (swallow x e) st
    | .ok a st =>
      match makeInterface a t with
      | .error e => .err (swallow x e) st
      | .ok _ =>
        match call a with
        | .ok (some v) => .ok v st
        | .ok none => ask w t x call l st
        | .error e => if e = x then ask w t x call l st else .err (swallow x e) st

/-- `_perform_query`, abstract_query.py:50-64, with `_iface`, catalog_query.py:60-75, and `gen_interfaces`, catalog.py:530-554 -/
def performQuery (w : World A E) (st : St A E) (origin : Str) (t : Itype) (strict : Bool) (x : Exc)
    (call : Arch E → Except Exc (Option R)) : Out (St A E) Exc R :=
  match sortedResources w st origin t strict with
  | .error e => .err e st
  | .ok l => ask w t x call l st

/-! ### the basic interface -/

/-- `retrieve_or_fetch_entity`, entity_store.py:513-531 -/
def Arch.retrieve (a : Arch E) (eid : Str) : Except Exc (Option E) :=
  match a.held.get? eid with
  | some e => .ok (some e)
  | none => a.source eid

/-- `_fetch`, basic.py:60-65 (also `get`, 68-69) -/
def Arch.fetch (a : Arch E) (eid : Str) : Except Exc (Option E) :=
  if a.static then .ok (a.held.get? eid) else a.retrieve eid

/-- what `get_item` needs of entities: their truth value (a process has a length, the number of its exchanges, processes.py:207-208)
    and their properties -/
structure Face (E P : Type) where
  truth : E → Bool
  prop : E → Str → Option P

/-- `get_item`, basic.py:42-46 -/
def Arch.getItem {P : Type} (f : Face E P) (a : Arch E) (eid item : Str) : Except Exc (Option P) :=
  match a.fetch eid with
  | .error e => .error e
  | .ok none => .error .keyError
  | .ok (some e) =>
    if f.truth e then
      match f.prop e item with
      | some v => .ok (some v)
      | none => .error .keyError
    else .error .keyError

/-! ### CatalogQuery -/

/-- `get`, catalog_query.py:110-119 -/
def get (w : World A E) (st : St A E) (q : ℕ) (eid : Str) : Out (St A E) Exc E :=
  match st.objs.get? q with
  | none => .err .attributeError st
  | some o =>
    match o.cache.get? eid with
    | some e => .ok e st
    | none =>
      (performQuery w st o.origin (.one "basic") false .entityNotFound fun a => a.fetch eid).bind fun e st =>
        .ok e { st with objs := st.objs.set q { o with cache := o.cache.set eid e } }

/-- `get_item`, catalog_query.py:101-108 -/
def getItem {P : Type} (f : Face E P) (w : World A E) (st : St A E) (q : ℕ) (eid item : Str) : Out (St A E) Exc P :=
  match st.objs.get? q with
  | none => .err .attributeError st
  | some o => performQuery w st o.origin (.one "basic") false .entityNotFound fun a => a.getItem f eid item

/-- the loop of `resolve`, catalog_query.py:89-97, over `gen_interfaces` -/
def secureAll (w : World A E) (t : Itype) : List (Res A) → St A E → Out (St A E) Exc Unit
  | [], st => .ok () st
  | r :: l, st =>
    match load w st r with
    | .err e st => .err e st
    | .ok a st =>
      match makeInterface a t with
      | .error e => .err e st
      | .ok _ => secureAll w t l st

/-- `resolve`, catalog_query.py:89-97 -/
def secure (w : World A E) (st : St A E) (q : ℕ) (t : Itype) (strict : Bool) : Out (St A E) Exc Unit :=
  match st.objs.get? q with
  | none => .err .attributeError st
  | some o =>
    match sortedResources w st o.origin t strict with
    | .error e => .err e st
    | .ok l => secureAll w t l st

/-- INTERFACE_TYPES, the default of `resolve`, catalog_query.py:8, 91 -/
def allInterfaces : Itype := .many Rsv.ifaceTypes

/-! ### LcCatalog -/

/-- a new CatalogQuery kept for the origin, catalog.py:570 -/
def newQuery (st : St A E) (origin : Str) : St A E :=
  { st with objs := st.objs.set st.next ⟨origin, []⟩, queries := st.queries.set origin st.next, next := st.next + 1 }

/-- `query`, catalog.py:559-575: gives the identity of the object -/
def query (st : St A E) (origin : Str) (strict refresh : Bool) : Out (St A E) Exc ℕ :=
  match Rsv.resolve st.rsv origin none strict with
  | .error _ => .err .unknownOrigin st
  | .ok [] => .err .stopIteration st
  | .ok (_ :: _) =>
    match refresh, st.queries.get? origin with
    | false, some q => .ok q st
    | _, _ => .ok st.next (newQuery st origin)

/-- the loop of `lookup`, catalog.py:580-583 -/
def lookupIn (w : World A E) (eid : Str) : List (Res A) → St A E → Out (St A E) Exc Str
  | [], st => .err .entityNotFound st
  | r :: l, st =>
    match load w st r with
    | .err e st => .err e st
    | .ok a st =>
      match makeInterface a (.one "basic") with
      | .error e => .err e st
      | .ok _ =>
        match a.fetch eid with
        | .error e => .err e st
        | .ok (some _) => .ok a.ref st
        | .ok none => lookupIn w eid l st

/-- `lookup`, catalog.py:577-587 -/
def lookup (w : World A E) (st : St A E) (origin eid : Str) : Out (St A E) Exc Str :=
  match sortedResources w st origin (.one "basic") false with
  | .error e => .err e st
  | .ok l => lookupIn w eid l st

/-- `fetch`, catalog.py:589-591 -/
def fetch (w : World A E) (st : St A E) (origin eid : Str) : Out (St A E) Exc E :=
  (lookup w st origin eid).bind fun org st => (query st org false false).bind fun q st => get w st q eid

/-- `link.split('/', maxsplit=1)`, catalog.py:590 -/
def splitLink : Str → Option (Str × Str)
  | [] => none
  | c :: s => if c = '/' then some ([], s) else (splitLink s).map fun p => (c :: p.1, p.2)

/-- `fetch_link`, catalog.py:593-595 -/
def fetchLink (w : World A E) (st : St A E) (link : Str) : Out (St A E) Exc E :=
  match splitLink link with
  | none => .err .valueError st
  | some (o, e) => fetch w st o e

/-- `add_nickname`, catalog.py:257-267 -/
def addNickname (st : St A E) (source : Option Str) (nickname : Str) : Out (St A E) Exc Unit :=
  if Rsv.knownSource st.rsv source then .ok () { st with nick := st.nick.set nickname source } else .err .keyError st

/-- `get_resource`, catalog.py:348-362; a nickname of the source None resolves the reference None -/
def getResource (st : St A E) (name : Str) (iface : Option (List String)) (source : Option Str) (strict : Bool) :
    Except Rsv.Err (Res A) :=
  match st.nick.get? name with
  | some s => Rsv.getResource st.rsv none none s strict true
  | none => Rsv.getResource st.rsv (some name) iface source strict true

end Cat
