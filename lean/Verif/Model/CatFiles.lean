import Verif.Model.Resolver

/-!
Model of what the catalog does with files: `antelope_catalog/catalog/catalog.py` (paths, downloads, caches, `delete_resource`,
`create_foreground`, `configure_resource`) and the configuration of a resource, `antelope_catalog/lc_resource.py`.

Simplifications:
* the root directory contains no character that is special in a regular expression (but dots may occur), and no backslash;
* the file system is a table of paths; the resource directory is that of the registry; whatever is read or written elsewhere (the
  archives themselves) is left out;
* the sha1 digest, the md5 digest, what the network returns and `local_ref` are parameters;
* whether an archive is loaded and what its configuration interface answers is a table by resource; configurations that were
  applied or saved are logged.
-/

namespace CatF
open Rsv (Str Res St)

inductive Err
  | reg (e : Rsv.Err)
  | typeError | valueError | assertion | attributeError | runtimeError | stopIteration | indexError
  deriving DecidableEq

inductive Node
  | file (content : Str)
  | dir
  deriving DecidableEq

structure Env where
  root : Str
  hash : Str → Str
  md5 : Str → Str
  net : Str → Str
  localRef : Str → Str

/-- what `add_config` finds: no configuration interface, a configuration that is not accepted, one that is -/
inductive Ans
  | unsupported | refused | accepted
  deriving DecidableEq

structure Cat (A : Type) where
  reg : St A
  files : Dict Str Node
  loaded : ℕ → Option Ans := fun _ => none      -- archives of resources that are loaded
  applied : List ℕ := []                        -- resources to which a configuration was applied
  saved : List ℕ := []                          -- resources that were saved with it

/-! ### paths -/

/-- the marker, catalog.py:165 -/
def catRoot : Str := ['$', 'C', 'A', 'T', '_', 'R', 'O', 'O', 'T']

/-- `os.path.join` of a directory and a relative path -/
def join (a b : Str) : Str := if a.getLast? = some '/' then a ++ b else a ++ '/' :: b

/-- `os.path.isabs` -/
def isAbs (p : Str) : Bool := decide (p.head? = some '/')

/-- `_localize_source`, catalog.py:163-166 -/
def localize (root source : Str) : Str :=
  if root.isPrefixOf source then catRoot ++ source.drop root.length else source

/-- `abs_path`, catalog.py:168-173 -/
def absPath (root p : Str) : Str :=
  if isAbs p then p
  else if catRoot.isPrefixOf p then root ++ p.drop catRoot.length
  else join root p

/-- `cache_file`, catalog.py:110-111 -/
def cacheFile (env : Env) (source : Str) : Str := join (join env.root "cache".toList) (env.hash source ++ ".json.gz".toList)

variable {A : Type} [DecidableEq A]

def isFile (c : Cat A) (p : Str) : Bool :=
  match c.files.get? p with
  | some (.file _) => true
  | _ => false

/-- `os.path.exists` followed by `os.remove` -/
def remove (c : Cat A) (p : Str) : Cat A := { c with files := c.files.del p }

/-! ### downloading -/

/-- `local_file`, catalog.py:123, with `_download_dir`, catalog.py:83-85 -/
def downloadPath (env : Env) (url : Str) : Str := join (join env.root "downloads".toList) (env.hash url)

/-- `download_file`, catalog.py:113-145 -/
def download (env : Env) (c : Cat A) (url : Str) (md5sum : Option Str) (force localizeIt : Bool) : Out (Cat A) Err Str :=
  let p := downloadPath env url
  let answer := if localizeIt then localize env.root p else p
  if c.files.has p && !force then .ok answer c
  else
    let c' : Cat A := { c with files := c.files.set p (.file (env.net url)) }
    match md5sum with
    | none => .ok answer c'
    | some m => if env.md5 (env.net url) = m then .ok answer c' else .err .assertion c'

/-! ### deleting -/

/-- `delete_resource`, catalog.py:296-326 -/
def delete (env : Env) (c : Cat A) (r : Res A) (delSource : Option Bool) (delCache : Bool) : Out (Cat A) Err Unit :=
  match Rsv.deleteResource c.reg r with
  | .err e reg => .err (.reg e) { c with reg := reg }
  | .ok _ reg =>
    let c : Cat A := { c with reg := reg }
    match r.source with
    | none => .err .typeError c
    | some s =>
      if delSource = some false || !isFile c (absPath env.root s) then .ok () c
      else if !(Rsv.withSource reg (some s)).isEmpty then .ok () c
      else
        let c := if r.internal || delSource = some true then remove c (absPath env.root s) else c
        .ok () (if delCache then remove (remove c (cacheFile env s)) (cacheFile env (absPath env.root s)) else c)

/-! ### caches -/

/-- `create_source_cache`, catalog.py:433-448, of the archive's contents `content` -/
def createCache (env : Env) (c : Cat A) (source : Str) (static : Bool) (content : Str) : Out (Cat A) Err Unit :=
  match Rsv.withSource c.reg (some source) with
  | [] => .err .stopIteration c
  | r :: _ =>
    if r.isStatic && !static then .ok () c
    else .ok () { c with files := c.files.set (cacheFile env (localize env.root source)) (.file content) }

/-- the cache that is read when the resource is loaded, lc_resource.py:93-94 -/
def cacheRead (env : Env) (c : Cat A) (r : Res A) : Option Str :=
  match r.source with
  | none => none
  | some s =>
    match c.files.get? (cacheFile env s) with
    | some (.file x) => some x
    | _ => none

/-! ### foregrounds -/

/-- `create_foreground`, catalog.py:597-621; `oid` is the identity of a new resource. Loading the archive is left out -/
def createForeground (env : Env) (c : Cat A) (path : Str) (ref : Option Str) (oid : ℕ) (rest : A) : Out (Cat A) Err (Res A) :=
  if !isAbs path && path.contains '/' then .err .valueError c
  else
    let path := if isAbs path then path else join env.root path
    let lp := localize env.root path
    match Rsv.withSource c.reg (some lp) with
    | r :: _ => .ok r c
    | [] =>
      match Rsv.mkRes oid (ref.getD (env.localRef path)) (some lp) "LcForeground".toList (some ["index", "foreground"]) 50 false false
          none none rest with
      | .error e => .err (.reg e) c
      | .ok r =>
        match Rsv.addResource c.reg r true with
        | .err e reg => .err (.reg e) { c with reg := reg }
        | .ok _ reg => .ok r { c with reg := reg }

/-! ### configuring -/

/-- the loop over the resources of one reference, catalog.py:632-649, lc_resource.py:302-324. The list shrinks while it is iterated:
after a deletion the next resource is passed over -/
def configureList (env : Env) : List (Res A) → Cat A → Out (Cat A) Err Unit
  | [], c => .ok () c
  | r :: l, c =>
    match r.source with
    | none => .err .typeError c
    | some _ =>
      match c.loaded r.oid with
      | none => .err .attributeError c
      | some .accepted =>
        configureList env l { c with applied := c.applied ++ [r.oid], saved := if r.internal then c.saved else c.saved ++ [r.oid] }
      | some _ =>
        if r.internal then
          match delete env c r (some true) true with
          | .err e c => .err e c
          | .ok _ c => configureList env (l.drop 1) c
        else configureList env l c
termination_by l => l.length
decreasing_by all_goals (simp only [List.length_cons, List.length_drop]; omega)

/-- the loop over the references, lc_resolver.py:125-136: a dictionary that changed its size cannot be iterated further -/
def configureRefs (env : Env) (req : Str) : List (Str × List (Res A)) → Bool → Cat A → Out (Cat A) Err Unit
  | [], found, c => if found then .ok () c else .err (.reg .unknownOrigin) c
  | (ref, l) :: m, found, c =>
    if Rsv.refMatches req ref false then
      (configureList env l c).bind fun _ c' =>
        if c'.reg.mem.length ≠ c.reg.mem.length then .err .runtimeError c' else configureRefs env req m true c'
    else configureRefs env req m found c

/-- `configure_resource`, catalog.py:623-649 -/
def configure (env : Env) (c : Cat A) (req : Str) : Out (Cat A) Err Unit := configureRefs env req c.reg.mem false c

/-! ### the configuration of a resource -/

/-- `_config`: sets of tuples by name -/
abbrev Config := Dict Str (List (List Str))

/-- `_add_config`, lc_resource.py:293-300 -/
def addConfig (d : Config) (k : Str) (args : List Str) : Config := d.set k (PySet.add ((d.get? k).getD []) args)

/-- `_serialize_config`, lc_resource.py:324-328: sorted by the first argument, otherwise in the order of the set; `o` is that order -/
def serializeConfig (o : PyOrd (List Str)) : Config → Except Err (Dict Str (List (List Str)))
  | [] => .ok []
  | (k, v) :: d =>
    if v.any (·.isEmpty) then .error .indexError
    else (serializeConfig o d).map fun j => (k, o.f v) :: j

/-- the constructor, lc_resource.py:202-208 -/
def loadConfig (j : Dict Str (List (List Str))) : Config :=
  j.foldl (fun d kv => kv.2.foldl (fun d q => addConfig d kv.1 q) d) []

end CatF
