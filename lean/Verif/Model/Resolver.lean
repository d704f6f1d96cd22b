import Verif.Base.Py
import Mathlib.Data.List.Sort

/-!
Model of the registry of data resources: `antelope_catalog/lc_resource.py`, `antelope_catalog/catalog/lc_resolver.py`.

Simplifications:
* strings are lists of characters, names of interfaces are of type `String`;
* resources are immutable: the archive that is loaded, configurations added later, and the flag `_issaved` are left out.
  `oid` stands for the identity of the object; two references to one object have equal fields. The remaining keyword arguments
  and the configuration are a value of any type `A`, which comes back from JSON unchanged (this needs keyword arguments whose
  names are not those of other fields, and which JSON can represent);
* the directory of resource files is a dictionary by file name: a file holds a list of records under its own name, or is not
  valid JSON (`none`). Other errors of the file system are left out;
* the interfaces of a resource are a list; the order in which Python iterates over the set is left out.
-/

namespace Rsv

abbrev Str := List Char

inductive Err
  | keyError | fileNotFound | unknownOrigin | ambiguous | noResource | attributeError
  deriving DecidableEq, Repr

/-- a serialized resource, lc_resource.py:331-341 -/
structure Rec (A : Type) where
  source : Option Str
  dtype : Str
  ifaces : List String
  prio : ℤ
  static : Bool
  internal : Bool
  download : Option Str       -- the url
  filetype : Option Str
  rest : A
  deriving DecidableEq

/-- LcResource, lc_resource.py:183-210 -/
structure Res (A : Type) where
  oid : ℕ
  ref : Str
  source : Option Str
  dtype : Str
  ifaces : List String
  prio : ℤ
  static : Bool
  internal : Bool
  download : Option Str
  filetype : Option Str
  rest : A
  deriving DecidableEq

/-- INTERFACE_TYPES, catalog_query.py:8 -/
def ifaceTypes : List String := ["basic", "index", "inventory", "background", "quantity", "foreground"]

/-- `add_interface`, lc_resource.py:139-141 -/
def addInterface (l : List String) (i : String) : List String := if i ∈ ifaceTypes then PySet.add l i else l

/-- `_normalize_interfaces`, lc_resource.py:143-158 -/
def normalize (ifaces : Option (List String)) : List String :=
  match ifaces with
  | none => addInterface [] "basic"
  | some l => l.foldl addInterface (addInterface [] "basic")

/-- `ds_type.lower() == 'json'`, lc_resource.py:275 -/
def isJson (s : Str) : Bool := decide (s.map Char.toLower = "json".toList)

variable {A : Type} [DecidableEq A]

/-- `static`, lc_resource.py:273-275 -/
def Res.isStatic (r : Res A) : Bool := r.static || isJson r.dtype

/-- the constructor, lc_resource.py:160-210 -/
def mkRes (oid : ℕ) (ref : Str) (source : Option Str) (dtype : Str) (ifaces : Option (List String)) (prio : ℤ) (static internal : Bool)
    (download filetype : Option Str) (rest : A) : Except Err (Res A) :=
  if source = none ∧ download = none then .error .keyError
  else .ok { oid := oid, ref := ref, source := source, dtype := dtype, ifaces := normalize ifaces, prio := prio, static := static,
             internal := internal, download := download, filetype := filetype, rest := rest }

/-- `s.endswith(t)` -/
def endsWith (s t : Str) : Bool := t.isSuffixOf s

/-- `from_dict`, lc_resource.py:34-54 -/
def fromDict (oid : ℕ) (ref : Str) (d : Rec A) : Except Err (Res A) :=
  match d.filetype with
  | none => mkRes oid ref d.source d.dtype (some d.ifaces) d.prio d.static d.internal d.download none d.rest
  | some ft =>
    match d.source with
    | none => .error .attributeError
    | some s =>
      mkRes oid ref (some (if endsWith s ft then s else s ++ ft)) d.dtype (some d.ifaces) d.prio d.static d.internal d.download none
        d.rest

/-- `serialize`, lc_resource.py:330-342 -/
def Res.serialize (r : Res A) : Rec A :=
  { source := r.source, dtype := r.dtype, ifaces := r.ifaces, prio := r.prio, static := r.isStatic, internal := r.internal,
    download := r.download, filetype := r.filetype, rest := r.rest }

/-- `matches`, lc_resource.py:344-357 -/
def Res.matches (r : Res A) (k : Rec A) : Except Err Bool :=
  match k.source, r.source with
  | some a, some b => .ok (decide (a = b))
  | _, _ =>
    match k.download, r.download with
    | some u, some v => .ok (decide (u = v))
    | _, _ => .error .keyError

/-- `satisfies`, lc_resource.py:281-291 -/
def Res.satisfies (r : Res A) (ifaces : Option (List String)) : Bool :=
  match ifaces with
  | none => true
  | some l => l.any fun i => decide (i = "basic") || decide (i ∈ r.ifaces)

/-! ### files -/

abbrev Dir (A : Type) := Dict Str (Option (List (Rec A)))

/-- `exists`, lc_resource.py:227-238 -/
def existsIn (dir : Dir A) (r : Res A) : Except Err Bool :=
  match dir.get? r.ref with
  | some (some l) => (l.mapM fun k => r.matches k).map fun bs => bs.any id
  | _ => .ok false

/-- the comprehension `[k for k in l if not self.matches(k)]`, lc_resource.py:380 -/
def unmatched (r : Res A) : List (Rec A) → Except Err (List (Rec A))
  | [] => .ok []
  | k :: l =>
    match r.matches k with
    | .error e => .error e
    | .ok b => (unmatched r l).map fun l' => if b then l' else k :: l'

/-- `write_to_file`, lc_resource.py:359-386 -/
def writeToFile (dir : Dir A) (r : Res A) : Except Err (Dir A) :=
  match dir.get? r.ref with
  | none => .ok (dir.set r.ref (some [r.serialize]))
  | some f => (unmatched r (f.getD [])).map fun l => dir.set r.ref (some (l ++ [r.serialize]))

/-- `sorted(..., key=lambda x: x.priority)`: a stable sort -/
def byPriority (l : List (Res A)) : List (Res A) := l.insertionSort fun a b => a.prio ≤ b.prio

/-- the resources of a list of records, numbered from `n` -/
def fromDicts (ref : Str) : ℕ → List (Rec A) → Except Err (List (Res A))
  | _, [] => .ok []
  | n, d :: l =>
    match fromDict n ref d with
    | .error e => .error e
    | .ok r => (fromDicts ref (n + 1) l).map fun l' => r :: l'

/-- `from_json`, lc_resource.py:56-68 -/
def fromJson (ref : Str) (l : List (Rec A)) : Except Err (List (Res A)) := (fromDicts ref 0 l).map byPriority

/-! ### the resolver -/

/-- LcCatalogResolver: `_resources`, and the directory, lc_resolver.py:21-26 -/
structure St (A : Type) where
  mem : Dict Str (List (Res A))
  dir : Dir A

/-- `index_resources` with `_update_semantic_ref`, lc_resolver.py:50-58 -/
def indexResources : Dir A → Dict Str (List (Res A)) → Except Err (Dict Str (List (Res A)))
  | [], m => .ok m
  | (_, none) :: d, m => indexResources d m
  | (ref, some l) :: d, m =>
    match fromJson ref l with
    | .error e => .error e
    | .ok rs => indexResources d (m.set ref rs)

/-- a new resolver, lc_resolver.py:21-26 -/
def start (dir : Dir A) : Except Err (St A) := (indexResources dir []).map fun m => ⟨m, dir⟩

/-- `self._resources[ref]` of a defaultdict makes the key -/
def touch (m : Dict Str (List (Res A))) (ref : Str) : Dict Str (List (Res A)) :=
  match m.get? ref with
  | some _ => m
  | none => m.set ref []

/-- the list of a reference -/
def listOf (m : Dict Str (List (Res A))) (ref : Str) : List (Res A) := (m.get? ref).getD []

/-- the generator in `has_resource`, lc_resolver.py:81: stops at the first match -/
def anyMatch (s : Rec A) : List (Res A) → Except Err Bool
  | [] => .ok false
  | k :: l =>
    match k.matches s with
    | .error e => .error e
    | .ok true => .ok true
    | .ok false => anyMatch s l

/-- `has_resource`, lc_resolver.py:79-81 -/
def hasResource (st : St A) (r : Res A) : Out (St A) Err Bool :=
  let st' : St A := { st with mem := touch st.mem r.ref }
  match anyMatch r.serialize (listOf st.mem r.ref) with
  | .error e => .err e st'
  | .ok b => .ok b st'

/-- `self._resources[resource.reference].append(resource)`, lc_resolver.py:77 -/
def append (m : Dict Str (List (Res A))) (r : Res A) : Dict Str (List (Res A)) := m.set r.ref (listOf m r.ref ++ [r])

/-- the end of `add_resource`, lc_resolver.py:75-77 -/
def register (st : St A) (r : Res A) (store : Bool) : Out (St A) Err Unit :=
  if store then
    match writeToFile st.dir r with
    | .error e => .err e st
    | .ok dir => .ok () ⟨append st.mem r, dir⟩
  else .ok () { st with mem := append st.mem r }

/-- `add_resource`, lc_resolver.py:64-77 -/
def addResource (st : St A) (r : Res A) (store : Bool) : Out (St A) Err Unit :=
  match existsIn st.dir r with
  | .error e => .err e st
  | .ok true => .ok () st
  | .ok false => (hasResource st r).bind fun b st => if b then .ok () st else register st r store

/-- the comprehension `[k for k in resources if k.exists(...)]`, lc_resolver.py:170 -/
def existing (dir : Dir A) : List (Res A) → Except Err (List (Res A))
  | [] => .ok []
  | r :: l =>
    match existsIn dir r with
    | .error e => .error e
    | .ok b => (existing dir l).map fun l' => if b then r :: l' else l'

/-- `_write_or_delete_resource_file`, lc_resolver.py:169-175 -/
def writeOrDelete (dir : Dir A) (ref : Str) (rs : List (Res A)) : Except Err (Dir A) :=
  match existing dir rs with
  | .error e => .error e
  | .ok [] => if dir.has ref then .ok (dir.del ref) else .error .fileNotFound
  | .ok l => .ok (dir.set ref (some (l.map Res.serialize)))

/-- `delete_resource`, lc_resolver.py:88-96 -/
def deleteResource (st : St A) (r : Res A) : Out (St A) Err Unit :=
  let rs := listOf st.mem r.ref
  if r ∈ rs then
    let rs' := rs.erase r
    match writeOrDelete st.dir r.ref rs' with
    | .error e => .err e { st with mem := st.mem.set r.ref rs' }
    | .ok dir => .ok () ⟨if rs' = [] then st.mem.del r.ref else st.mem.set r.ref rs', dir⟩
  else .err .keyError { st with mem := touch st.mem r.ref }

/-- `write_resource_files`, lc_resolver.py:177-179 -/
def writeAll : Dict Str (List (Res A)) → Dir A → Out (Dir A) Err Unit
  | [], dir => .ok () dir
  | (ref, rs) :: m, dir =>
    match writeOrDelete dir ref rs with
    | .error e => .err e dir
    | .ok dir => writeAll m dir

/-- `resources_with_source`, lc_resolver.py:105-109 -/
def withSource (st : St A) (source : Option Str) : List (Res A) :=
  (st.mem.flatMap Prod.snd).filter fun r => decide (r.source = source)

/-- `known_source`, lc_resolver.py:98-103 -/
def knownSource (st : St A) (source : Option Str) : Bool := !(withSource st source).isEmpty

/-- `s.split('.')` -/
def splitDots : Str → List Str
  | [] => [[]]
  | c :: s =>
    if c = '.' then [] :: splitDots s
    else
      match splitDots s with
      | [] => [[c]]
      | w :: l => (c :: w) :: l

/-- the condition of lines lc_resolver.py:127-130 -/
def refMatches (req ref : Str) (strict : Bool) : Bool :=
  !(strict && decide (ref ≠ req)) && decide ((splitDots ref).take (splitDots req).length = splitDots req)

/-- `resolve`, lc_resolver.py:114-136, run to its end; nothing is yielded before UnknownOrigin -/
def resolve (st : St A) (req : Str) (ifaces : Option (List String)) (strict : Bool) : Except Err (List (Res A)) :=
  let found := st.mem.filter fun p => refMatches req p.1 strict
  if found = [] then .error .unknownOrigin
  else .ok (found.flatMap fun p => p.2.filter fun r => r.satisfies ifaces)

/-- the end of `get_resource`, lc_resolver.py:154-167 -/
def pick (l : List (Res A)) (strict internal : Bool) : Except Err (Res A) :=
  match byPriority (if internal then l else l.filter fun r => !r.internal) with
  | [] => .error .noResource
  | r :: l => if strict && !l.isEmpty then .error .ambiguous else .ok r

/-- `get_resource`, lc_resolver.py:138-167 -/
def getResource (st : St A) (ref : Option Str) (iface : Option (List String)) (source : Option Str) (strict internal : Bool) :
    Except Err (Res A) :=
  match source with
  | some s => pick (withSource st (some s)) strict internal
  | none =>
    match ref with
    | none => .error .attributeError
    | some ref =>
      match resolve st ref iface strict with
      | .error e => .error e
      | .ok l => pick l strict internal

/-- `references`, lc_resolver.py:28-39, without the sorted interfaces -/
def references (st : St A) : List Str := st.mem.keys

end Rsv
