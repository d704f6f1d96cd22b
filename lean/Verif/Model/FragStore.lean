import Verif.Model.FragmentEdit
import Verif.Model.LowerDict

/-!
Model of saving, loading, listing and deleting the fragments of a foreground: `antelope_catalog/foreground/foreground.py`
(`save_fragments`, `_load_fragments`, `_do_load`, `fragments`, `frag`, `linked_terms`, `del_orphans`), `serialize`, `from_json`
and `finish_json_load` of `lcatools/entities/fragments.py`, `serialize` and `from_json` of `lcatools/terminations.py`.

Simplifications:
* a fragment object is identified by its uuid; all fragments are of the foreground's own origin;
* scenario names of terminations are strings; score caches are left out;
* `to_uuid`, `str.lower` and the catalog's `fetch` are parameters;
* a file is a list of records, or unreadable; subdirectories of the fragment directory are left out;
* `json.dump(.., sort_keys=True)` followed by `json.load` gives the tables with their keys in order;
* loading starts from the entities of `entities.json` (flows, quantities and references to them), see C105-C106.
-/

namespace FgS
open Frg (Key Dir saveEvs loadRest)

inductive Err
  | keyError | typeError | attributeError | valueError | assertion | balanceAlreadySet | recursion | entityNotFound
  | ambiguous | stopIteration | clash
  deriving DecidableEq, Repr

/-- a flow or a reference to one (`isEnt` false), with its reference quantity -/
structure Flow where
  isEnt : Bool := true
  origin : String
  ext : String
  uuid : String
  refQ : Option String := some "q"
  deriving DecidableEq

/-- `==` of flows, entities.py:345-361, entity_refs/base.py:117-124 -/
def Flow.eq (a b : Flow) : Bool :=
  decide (a.ext = b.ext) &&
    if a.isEnt then decide (a.origin = b.origin)
    else a.origin.toList.isPrefixOf b.origin.toList || b.origin.toList.isPrefixOf a.origin.toList

/-- an entity that is neither a flow nor a fragment of this foreground -/
structure Ent where
  etype : String
  origin : String
  ext : String
  deriving DecidableEq

/-- what is stored in the foreground -/
inductive Obj
  | frag (u : String)
  | flow (f : Flow)
  | ent (e : Ent)
  deriving DecidableEq

/-- the terminal node: nothing, a fragment of this foreground, or another entity -/
inductive TNode
  | null
  | frag (u : String)
  | ent (e : Ent)
  deriving DecidableEq

/-- FlowTermination, terminations.py:115-147 -/
structure Term where
  node : TNode
  flow : Flow
  dir : Dir
  descend : Bool := true
  deriving DecidableEq

/-- values of properties: what JSON can hold, None, and what it cannot hold (a set, an entity) -/
inductive Val
  | json (s : String)
  | null
  | bad
  deriving DecidableEq

/-- LcFragment, fragments.py:133-188; `tags` is `_d` -/
structure Frag where
  ext : Option String := none
  parent : Option String := none
  kids : List String := []
  flow : Flow
  dir : Dir
  priv : Bool := false
  bg : Bool := false
  bal : Bool := false
  cons : Option String := none
  evs : Dict Key (Option ℚ)
  terms : Dict (Option String) Term
  tags : LDict.St String Val

/-- the dictionaries of the foreground, foreground.py:111-114: `_entities`, `_ext_ref_mapping`, `_uuid_map` -/
structure Ix where
  links : Dict String Obj := []
  names : Dict String String := []
  uuids : Dict String (List String) := []

/-- the foreground: its fragment objects, and the dictionaries -/
structure Fore where
  frags : Dict String Frag := []
  ix : Ix := {}

structure Env where
  ref : String
  tu : String → Option String                       -- to_uuid
  lower : String → String                           -- str.lower
  fetch : String → String → Except Err Obj          -- catalog.fetch

/-! ### looking up -/

def link (origin ext : String) : String := origin ++ "/" ++ ext

/-- `external_ref`, entities.py:129-133 -/
def extOf (u : String) (f : Frag) : String := f.ext.getD u

/-- `_key_to_id`, foreground.py:58-91; the choice among several links is open -/
def keyToId (env : Env) (o : PyOrd String) (ix : Ix) (key : String) : Option String :=
  if ix.links.has key then some key
  else
    match ix.names.get? key with
    | some l => some l
    | none =>
      match env.tu key with
      | none => none
      | some u =>
        match ix.uuids.get? u with
        | none => none
        | some ls => (o.f ls).head?

/-- `self[key]`, entity_store.py:433-456 -/
def getitem (env : Env) (o : PyOrd String) (ix : Ix) (key : String) : Option Obj :=
  match keyToId env o ix key with
  | none => none
  | some l => ix.links.get? l

/-- `_add` and `_uuid_map`, entity_store.py:458-476, foreground.py:191-197, of an object with a new link -/
def insert (ix : Ix) (l u : String) (x : Obj) : Ix :=
  { ix with links := ix.links.set l x, uuids := ix.uuids.set u (PySet.add ((ix.uuids.get? u).getD []) l) }

/-! ### listing -/

/-- `child_flows`, fragments.py:255-258 -/
def children (f : Frag) : List String := f.kids.insertionSort (· ≤ ·)

/-- `entities_by_type('fragment')`, entity_store.py:575-577: in the order of their links -/
def fragments0 (fg : Fore) : List String :=
  (fg.ix.links.insertionSort fun a b => a.1 ≤ b.1).filterMap fun lx =>
    match lx.2 with
    | .frag u => some u
    | _ => none

/-- `_fragments`, foreground.py:313-317: the reference fragments -/
def roots (fg : Fore) (background : Option Bool) : List String :=
  (fragments0 fg).filter fun u =>
    match fg.frags.get? u with
    | none => false
    | some f => decide (f.parent = none) && (match background with
      | none => true
      | some b => f.bg == b)

/-- one after another, the first exception stops -/
def mapCat {α β : Type} (g : α → Except Err (List β)) : List α → Except Err (List β)
  | [] => .ok []
  | a :: r =>
    match g a with
    | .error e => .error e
    | .ok l =>
      match mapCat g r with
      | .error e => .error e
      | .ok m => .ok (l ++ m)

/-- `_recurse_frags`, foreground.py:278-282; `fuel` is the recursion limit -/
def recurse (fg : Fore) : ℕ → String → Except Err (List String)
  | 0, _ => .error .recursion
  | n + 1, u =>
    match fg.frags.get? u with
    | none => .error .attributeError
    | some f =>
      match mapCat (recurse fg n) (children f) with
      | .error e => .error e
      | .ok l => .ok (u :: l)

/-- `_show_frag_children`, foreground.py:319-327, with `show` false -/
def showKids (fg : Fore) : ℕ → String → Except Err (List String)
  | 0, _ => .error .recursion
  | n + 1, u =>
    match fg.frags.get? u with
    | none => .error .attributeError
    | some f =>
      mapCat (fun k =>
        match showKids fg n k with
        | .error e => .error e
        | .ok l => .ok (k :: l)) (children f)

/-- `is_background` of a fragment -/
def isBg (fg : Fore) (u : String) : Bool := ((fg.frags.get? u).map (·.bg)).getD false

/-- `fragments`, foreground.py:329-350, without a filter, not printing: the reference fragments, background ones last -/
def listFragments (fg : Fore) (fuel : ℕ) (showAll : Bool) (background : Option Bool) : Except Err (List String) :=
  mapCat (fun f =>
      if showAll then
        match showKids fg fuel f with
        | .error e => .error e
        | .ok l => .ok (f :: l)
      else .ok [f])
    ((roots fg background).insertionSort fun a b => isBg fg a ≤ isBg fg b)

/-- `frag(string)`, foreground.py:351-371 -/
def findFrag (env : Env) (fg : Fore) (fuel : ℕ) (s : String) (strict : Bool) : Except Err String :=
  match listFragments fg fuel true none with
  | .error e => .error e
  | .ok l =>
    match l.filter fun u => (env.lower s).toList.isPrefixOf u.toList with
    | [] => .error .stopIteration
    | [u] => .ok u
    | u :: _ => if strict then .error .ambiguous else .ok u

/-- `linked_terms`, `_find_links`, foreground.py:400-412: fragment and scenario of each termination found -/
def linkedTerms (fg : Fore) (fuel : ℕ) (u : String) : Except Err (List (String × Option String)) :=
  match listFragments fg fuel true none with
  | .error e => .error e
  | .ok l =>
    .ok (l.flatMap fun i =>
      match fg.frags.get? i with
      | none => []
      | some f => (f.terms.filter fun kt => decide (kt.2.node = .frag u)).map fun kt => (i, kt.1))

/-- `_del_f`, foreground.py:381-383: `del self._entities[f.uuid]` -/
def delF (fg : Fore) (u : String) : Out Fore Err Unit :=
  if fg.ix.links.has u then .ok () { fg with ix := { fg.ix with links := fg.ix.links.del u } } else .err .keyError fg

/-- the loop of `del_orphans`, foreground.py:389-398, over background reference fragments -/
def delLoop (fuel : ℕ) (forReal : Bool) : List String → Fore → Out Fore Err Unit
  | [], fg => .ok () fg
  | u :: r, fg =>
    match linkedTerms fg fuel u with
    | .error e => .err e fg
    | .ok (_ :: _) => delLoop fuel forReal r fg
    | .ok [] => if forReal then (delF fg u).bind fun _ fg => delLoop fuel forReal r fg else delLoop fuel forReal r fg

/-- `del_orphans`, foreground.py:385-398 -/
def delOrphans (fg : Fore) (fuel : ℕ) (forReal : Bool) : Out Fore Err Unit := delLoop fuel forReal (roots fg (some true)) fg

/-! ### records -/

/-- the flow of a saved termination: left out, an external reference, or origin and external reference -/
inductive JTF
  | same
  | str (ext : String)
  | ref (origin ext : String)
  deriving DecidableEq

/-- a saved termination that is not null -/
structure JTerm where
  origin : String
  ext : String
  tflow : JTF := .same
  dir : Option Dir := none
  descend : Bool := true
  deriving DecidableEq

/-- what is stored in a record -/
inductive J
  | str (s : String)
  | dir (d : Dir)
  | bool (b : Bool)
  | evs (d : Dict String (Option ℚ))
  | terms (d : Dict String (Option JTerm))
  | tags (l : List (String × Val))
  | val (v : Val)

abbrev Rec := Dict String J

/-! ### saving -/

/-- origin and external reference of a terminal node -/
def nodeRef (env : Env) (fg : Fore) : TNode → Option (String × String)
  | .null => none
  | .frag u =>
    match fg.frags.get? u with
    | none => none
    | some g => some (env.ref, extOf u g)
  | .ent e => some (e.origin, e.ext)

/-- `serialize` of a termination, terminations.py:500-521 -/
def serTerm (env : Env) (fg : Fore) (f : Frag) (t : Term) : Option JTerm :=
  match nodeRef env fg t.node with
  | none => none
  | some (o, x) =>
    some { origin := o
           ext := x
           tflow := if t.flow.eq f.flow then .same
             else if t.flow.origin = o then .str t.flow.ext else .ref t.flow.origin t.flow.ext
           dir := if t.dir = f.dir.comp then none else some t.dir
           descend := t.descend }

/-- the name of a scenario in `_serialize_terms`, fragments.py:297-300 -/
def termName : Option String → String
  | none => "default"
  | some s => s

/-- `_serialize_terms`, fragments.py:294-301 -/
def serTerms (env : Env) (fg : Fore) (f : Frag) : Dict String (Option JTerm) :=
  f.terms.foldl (fun d kt => d.set (termName kt.1) (serTerm env fg f kt.2)) []

/-- `_print_ref_field`, entities.py:238-242 -/
def parentName (fg : Fore) (f : Frag) : String :=
  match f.parent with
  | none => "None"
  | some p =>
    match fg.frags.get? p with
    | none => p
    | some g => extOf p g

/-- the properties that are not None, entities.py:254-274 -/
def putTags (tags : LDict.St String Val) (j : Rec) : Rec :=
  tags.foldl (fun j kv => if kv.2 = .null then j else j.set kv.1 (.val kv.2)) j

/-- `j.pop(k)` for every property, fragments.py:317-318 -/
def popTags : List String → Rec → Except Err Rec
  | [], j => .ok j
  | k :: ks, j => if j.has k then popTags ks (j.del k) else .error .keyError

/-- the record before the properties are removed again, fragments.py:304-316, entities.py:244-275 -/
def fullRec (env : Env) (fg : Fore) (u : String) (f : Frag) : Rec :=
  ((((((((putTags f.tags [("entityId", .str u), ("entityType", .str "fragment"), ("externalId", .str (extOf u f)),
    ("parent", .str (parentName fg f))]).set "flow" (.str f.flow.uuid)).set "direction" (.dir f.dir)).set
    "isPrivate" (.bool f.priv)).set "isBackground" (.bool f.bg)).set "isBalanceFlow" (.bool f.bal)).set
    "exchangeValues" (.evs (saveEvs f.evs))).set "terminations" (.terms (serTerms env fg f))).set "tags" (.tags f.tags)

/-- `serialize`, fragments.py:303-318 -/
def serialize (env : Env) (fg : Fore) (u : String) (f : Frag) : Except Err Rec :=
  popTags (LDict.keys f.tags) (fullRec env fg u f)

/-- the fragment directory: file names and contents; `none` is a file that cannot be read -/
abbrev Dir' := Dict String (Option (List Rec))

/-- records of the fragments, foreground.py:287 -/
def serAll (env : Env) (fg : Fore) : List String → Except Err (List Rec)
  | [] => .ok []
  | u :: us =>
    match fg.frags.get? u with
    | none => .error .attributeError
    | some f =>
      match serialize env fg u f with
      | .error e => .error e
      | .ok j =>
        match serAll env fg us with
        | .error e => .error e
        | .ok js => .ok (j :: js)

/-- `json.dump` raises on a value it cannot represent -/
def dumpable (j : Rec) : Bool :=
  match j.get? "tags" with
  | some (.tags l) => l.all fun kv => decide (kv.2 ≠ .bad)
  | _ => true

/-- one reference fragment, foreground.py:287-293: the file is opened, which empties it, then written -/
def saveOne (env : Env) (fg : Fore) (fuel : ℕ) (u : String) (d : Dir') : Out Dir' Err Unit :=
  match recurse fg fuel u with
  | .error e => .err e d
  | .ok us =>
    match serAll env fg us with
    | .error e => .err e d
    | .ok js =>
      if js.all dumpable then .ok () (d.set (u ++ ".json") (some js)) else .err .typeError (d.set (u ++ ".json") none)

/-- the loop, foreground.py:286-293 -/
def saveLoop (env : Env) (fg : Fore) (fuel : ℕ) : List String → Dir' → Out Dir' Err Unit
  | [], d => .ok () d
  | u :: us, d => (saveOne env fg fuel u d).bind fun _ d => saveLoop env fg fuel us d

/-- `save_fragments`, foreground.py:284-297 -/
def saveFragments (env : Env) (fg : Fore) (fuel : ℕ) (d : Dir') : Out Dir' Err Unit :=
  (saveLoop env fg fuel (roots fg none) d).bind fun _ d' =>
    .ok () ((d.keys.filter fun n => !((roots fg none).map (· ++ ".json")).contains n).foldl Dict.del d')

/-! ### loading -/

/-- `json.load` of what `json.dump` wrote with `sort_keys=True` -/
def sortK {V : Type} (d : List (String × V)) : List (String × V) := d.insertionSort fun a b => a.1 ≤ b.1

def str? (j : Rec) (k : String) : Except Err String :=
  match j.get? k with
  | some (.str s) => .ok s
  | _ => .error .keyError

def bool? (j : Rec) (k : String) : Except Err Bool :=
  match j.get? k with
  | some (.bool b) => .ok b
  | _ => .error .keyError

def dir? (j : Rec) (k : String) : Except Err Dir :=
  match j.get? k with
  | some (.dir d) => .ok d
  | _ => .error .keyError

def evs? (j : Rec) (k : String) : Except Err (Dict String (Option ℚ)) :=
  match j.get? k with
  | some (.evs d) => .ok d
  | _ => .error .keyError

def terms? (j : Rec) (k : String) : Except Err (Dict String (Option JTerm)) :=
  match j.get? k with
  | some (.terms d) => .ok d
  | _ => .error .keyError

def tags? (j : Rec) (k : String) : Except Err (List (String × Val)) :=
  match j.get? k with
  | some (.tags d) => .ok d
  | _ => .error .keyError

/-- the null termination, terminations.py:111-113 -/
def nullTerm (f : Frag) : Term := { node := .null, flow := f.flow, dir := f.dir.comp }

/-- the parent of a saved fragment, fragments.py:82-85: 'None' is looked up like any other key -/
def parentOf (env : Env) (o : PyOrd String) (fg : Fore) (name : String) : Except Err (Option String) :=
  match getitem env o fg.ix name with
  | none => .ok none
  | some (.frag p) => .ok (some p)
  | some _ => .error .typeError

/-- the flow of a saved fragment, fragments.py:86-89: if it is not known, a local flow is made -/
def flowOf (env : Env) (o : PyOrd String) (fg : Fore) (uuid : String) : Except Err (Flow × Ix) :=
  match getitem env o fg.ix uuid with
  | none =>
    if fg.ix.links.has (link env.ref uuid) then .error .clash
    else .ok ({ origin := env.ref, ext := uuid, uuid := uuid, refQ := none },
      insert fg.ix (link env.ref uuid) uuid (.flow { origin := env.ref, ext := uuid, uuid := uuid, refQ := none }))
  | some (.flow x) => .ok (x, fg.ix)
  | some _ => .error .assertion

/-- `set_parent`, fragments.py:207-214, and `set_balance_flow`, 694-701, 708-715, for a new fragment: the parent lists it and
conserves its reference quantity -/
def adopt (fg : Fore) (u : String) (parent : Option String) (flow : Flow) (bal : Bool) : Except Err (Dict String Frag) :=
  match parent with
  | none => if bal then .error .attributeError else .ok fg.frags
  | some p =>
    match fg.frags.get? p with
    | none => .error .attributeError
    | some g =>
      if bal then
        if g.cons.isSome then .error .balanceAlreadySet
        else .ok (fg.frags.set p { g with kids := PySet.add g.kids u, cons := flow.refQ })
      else .ok (fg.frags.set p { g with kids := PySet.add g.kids u })

/-- the exchange values, fragments.py:92-102, 418-424: the cached value of a balance flow can only be 1; the parent has no
termination yet -/
def loadEvs (bal : Bool) (j : Dict String (Option ℚ)) : Except Err (Dict Key (Option ℚ)) :=
  match j.get? "0" with
  | none => .error .keyError
  | some v0 =>
    if bal ∧ v0 ≠ some 1 then .error .attributeError
    else
      match (j.del "0").get? "1" with
      | none => .error .keyError
      | some v1 => .ok (loadRest (sortK ((j.del "0").del "1")) [(.cached, v0), (.observed, v1)])

/-- names of properties that cannot be set, entities.py:286-294 -/
def barred (env : Env) (k : String) : Bool :=
  (k == "EntityType") || ["parent", "entityid", "entitytype", "externalid", "origin"].contains (env.lower k)

/-- `frag[tag] = val` for all, fragments.py:103-104 -/
def loadTags (env : Env) : List (String × Val) → LDict.St String Val → Except Err (LDict.St String Val)
  | [], d => .ok d
  | (k, v) :: r, d => if barred env k then .error .keyError else loadTags env r (LDict.set env.lower d k v)

/-- the properties of a new fragment, entities.py:54-55, fragments.py:172-173 -/
def newTags : LDict.St String Val := [("Name", .json ""), ("Comment", .json ""), ("StageName", .json "")]

/-- `from_json`, fragments.py:80-105, and the rest of the loop of `_do_load`, foreground.py:246-250. If the link is taken the
code merges the two entities, which is left out -/
def loadOne (env : Env) (o : PyOrd String) (fg : Fore) (j : Rec) : Except Err Fore := do
  let parent ← parentOf env o fg (← str? j "parent")
  let (flow, ix) ← flowOf env o fg (← str? j "flow")
  let u ← str? j "entityId"
  let dir ← dir? j "direction"
  let evj ← evs? j "exchangeValues"
  let priv ← bool? j "isPrivate"
  let bal ← bool? j "isBalanceFlow"
  let bg ← bool? j "isBackground"
  let x ← str? j "externalId"
  let tj ← tags? j "tags"
  let frags ← adopt fg u parent flow bal
  let evs ← loadEvs bal evj
  let tags ← loadTags env (sortK tj) newTags
  let f : Frag := { ext := if x ≠ u then some x else none, parent := parent, flow := flow, dir := dir, priv := priv, bg := bg,
                    bal := bal, evs := evs, terms := [], tags := tags }
  let f := { f with terms := [(none, nullTerm f)] }
  if ix.links.has (link env.ref x) then .error .clash
  else
    let ix := if x ≠ u then { ix with names := ix.names.set x (link env.ref x) } else ix
    .ok { frags := frags.set u f, ix := insert ix (link env.ref x) u (.frag u) }

/-- the flow of a termination, terminations.py:75-85, and its setter, 154-164: a local flow that is not found is replaced by the
fragment's own. Anything that is found and is not a flow is left out -/
def termFlow (env : Env) (o : PyOrd String) (ix : Ix) (f : Frag) (origin : String) : JTF → Except Err (Option Flow)
  | .same => .ok (some f.flow)
  | .ref o' x =>
    match env.fetch o' x with
    | .ok (.flow y) => .ok (some y)
    | .ok _ => .error .typeError
    | .error e => .error e
  | .str x =>
    if origin = env.ref then
      match getitem env o ix x with
      | none => .ok none
      | some (.flow y) => .ok (some y)
      | some _ => .error .typeError
    else
      match env.fetch origin x with
      | .ok (.flow y) => .ok (some y)
      | .ok _ => .error .typeError
      | .error e => .error e

/-- the terminal node, terminations.py:87-91 -/
def termNode (env : Env) (o : PyOrd String) (ix : Ix) (origin ext : String) : Except Err (Option Obj) :=
  if origin = env.ref then .ok (getitem env o ix ext)
  else
    match env.fetch origin ext with
    | .ok x => .ok (some x)
    | .error e => .error e

/-- `from_json` of a termination, terminations.py:66-98, and the constructor, 115-147 -/
def loadTerm (env : Env) (o : PyOrd String) (ix : Ix) (u : String) (f : Frag) : Option JTerm → Except Err Term
  | none => .ok (nullTerm f)
  | some j => do
    let origin := if j.origin = "foreground" then env.ref else j.origin
    let tf ← termFlow env o ix f origin j.tflow
    let node ← termNode env o ix origin j.ext
    let dir := j.dir.getD f.dir.comp
    match node with
    | none => .ok { node := .null, flow := tf.getD f.flow, dir := dir, descend := j.descend }
    | some (.frag v) => .ok { node := .frag v, flow := tf.getD f.flow, dir := dir, descend := j.descend }
    | some (.ent e) => .ok { node := .ent e, flow := tf.getD f.flow, dir := dir, descend := j.descend }
    | some (.flow y) =>
      match tf with
      | some _ => .error .valueError
      | none => .ok { node := .frag u, flow := y, dir := dir, descend := j.descend }

/-- the scenario of a name, fragments.py:110-113 -/
def nameTerm (k : String) : Option String := if k = "default" ∨ k = "null" then none else some k

/-- `finish_json_load`, fragments.py:107-113 -/
def finishTerms (env : Env) (o : PyOrd String) (ix : Ix) (u : String) :
    List (String × Option JTerm) → Frag → Except Err Frag
  | [], f => .ok f
  | (k, j) :: r, f =>
    match loadTerm env o ix u f j with
    | .error e => .error e
    | .ok t => finishTerms env o ix u r { f with terms := f.terms.set (nameTerm k) t }

/-- the second loop of `_do_load`, foreground.py:252-258: the fragment is looked up by its uuid -/
def finishOne (env : Env) (o : PyOrd String) (fg : Fore) (j : Rec) : Except Err Fore := do
  let key ← str? j "entityId"
  match getitem env o fg.ix key with
  | some (.frag u) =>
    match fg.frags.get? u with
    | none => .error .attributeError
    | some f =>
      let tj ← terms? j "terminations"
      let f ← finishTerms env o fg.ix u (sortK tj) f
      .ok { fg with frags := fg.frags.set u f }
  | _ => .error .attributeError

def loopE {α : Type} (g : Fore → α → Except Err Fore) : List α → Fore → Except Err Fore
  | [], fg => .ok fg
  | a :: r, fg =>
    match g fg a with
    | .error e => .error e
    | .ok fg => loopE g r fg

/-- `_do_load`, foreground.py:245-258 -/
def doLoad (env : Env) (o : PyOrd String) (js : List Rec) (fg : Fore) : Except Err Fore :=
  match loopE (loadOne env o) js fg with
  | .error e => .error e
  | .ok fg => loopE (finishOne env o) js fg

/-- the contents of the files, foreground.py:269-275; `lo` is the order in which `os.listdir` gives them -/
def readFiles (d : Dir') : List String → Except Err (List Rec)
  | [] => .ok []
  | n :: ns =>
    match d.get? n with
    | some (some js) =>
      match readFiles d ns with
      | .error e => .error e
      | .ok r => .ok (js ++ r)
    | _ => .error .valueError

/-- `_load_fragments`, foreground.py:259-276, into a foreground with the entities `ix` -/
def loadFragments (env : Env) (o lo : PyOrd String) (ix : Ix) (d : Dir') : Except Err Fore :=
  match readFiles d (lo.f d.keys) with
  | .error e => .error e
  | .ok js => doLoad env o js { ix := ix }

end FgS
