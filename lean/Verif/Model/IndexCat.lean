import Verif.Model.Resolver
import Mathlib.Data.Nat.Notation

/-!
Model of indexing in a catalog: `construct_new_ref` (entity_store.py:40-62), `LcCatalog._index_source`, `index_ref` (catalog.py:371-430) and
`LcResource.make_index` (lc_resource.py:116-123).

Simplifications:
* an archive is its reference and the list of its entities after `load_all`; `live s` is what is at the source `s` when it is loaded;
* `inx s` is the (localized) path of the index file of the source `s`; of an index file the reference and the entities are kept;
* `date` is the day of the call.
-/

namespace Inx
open Rsv (Str Res St splitDots)

inductive Err
  | stopIteration | referenceCreation | noFile | valueError | rsv (e : Rsv.Err)
  deriving DecidableEq, Repr

/-- `'.'.join(l)` -/
def joinDots : List Str → Str
  | [] => []
  | [s] => s
  | s :: l => s ++ '.' :: joinDots l

/-- `re.search('[0-9-]{6,}$', s)`, without the variant of a final newline -/
def dated (s : Str) : Bool := decide (6 ≤ (s.reverse.takeWhile fun c => c.isDigit || c == '-').length)

/-- `re.match('[A-Za-z0-9_-]+', s)` -/
def signifierOk (s : Str) : Bool :=
  match s with
  | [] => false
  | c :: _ => c.isAlphanum || c == '_' || c == '-'

/-- `construct_new_ref`, entity_store.py:40-62 -/
def newRef (date datetime : Str) (ref : Str) (signifier : Option Str) : Except Err Str :=
  let tail := (splitDots ref).getLastD []
  let base := if dated tail then joinDots (splitDots ref).dropLast else ref
  let done (t : List Str) : Except Err Str :=
    let r := joinDots (base :: t)
    if r = ref then .error .referenceCreation else .ok r
  match signifier with
  | none => done [if tail = date then datetime else date]
  | some s => if signifierOk s then done [s, date] else .error .valueError

/-- an archive: its reference and its entities -/
structure Ar (E : Type) where
  ref : Str
  ents : List E
  deriving DecidableEq

/-- the catalog: resources, the archives of those that are loaded (by identity of the resource), index files -/
structure Cat (A E : Type) where
  rs : St A
  loaded : Dict ℕ (Ar E)
  files : Dict Str (Ar E)
  next : ℕ                        -- identity of the next resource

structure World (E : Type) where
  live : Str → Option (List E)
  inx : Str → Str

variable {A E : Type} [DecidableEq A] [DecidableEq E]

/-- `check`, lc_resource.py:107-111: load the archive if it is not -/
def check (w : World E) (r : Res A) (c : Cat A E) : Out (Cat A E) Err (Ar E) :=
  match c.loaded.get? r.oid with
  | some a => .ok a c
  | none =>
    match r.source.bind w.live with
    | none => .err .noFile c
    | some l => .ok ⟨r.ref, l⟩ { c with loaded := c.loaded.set r.oid ⟨r.ref, l⟩ }

/-- `new_resource(ref, inx_local, 'json', priority, store, interfaces='index', _internal=True, static=True, preload_archive)`, lc_resolver.py:83-86 -/
def newIndex (rest : A) (a : Ar E) (path : Str) (prio : ℤ) (store : Bool) (c : Cat A E) : Out (Cat A E) Err Unit :=
  let r : Res A := { oid := c.next, ref := a.ref, source := some path, dtype := "json".toList, ifaces := Rsv.normalize (some ["index"]), prio := prio,
                     static := true, internal := true, download := none, filetype := none, rest := rest }
  let c : Cat A E := { c with loaded := c.loaded.set c.next a, next := c.next + 1 }
  match Rsv.addResource c.rs r store with
  | .err e rs => .err (.rsv e) { c with rs := rs }
  | .ok _ rs => .ok () { c with rs := rs }

/-- `_index_source`, catalog.py:379-412 -/
def indexSource (w : World E) (rest : A) (date : Str) (source : Str) (prio : ℤ) (force : Bool) (c : Cat A E) : Out (Cat A E) Err Str :=
  match Rsv.withSource c.rs (some source) with
  | [] => .err .stopIteration c
  | res :: _ =>
    match check w res c with
    | .err e c => .err e c
    | .ok a c =>
      let prio := min prio res.prio
      match Rsv.existsIn c.rs.dir res with
      | .error e => .err (.rsv e) c
      | .ok stored =>
        let fresh (c : Cat A E) : Out (Cat A E) Err Str :=
          match newRef date date a.ref (some "index".toList) with
          | .error e => .err e c
          | .ok ref =>
            match newIndex rest ⟨ref, a.ents⟩ (w.inx source) prio stored { c with files := c.files.set (w.inx source) ⟨ref, a.ents⟩ } with
            | .err e c => .err e c
            | .ok _ c => .ok ref c
        match c.files.get? (w.inx source) with
        | some f =>
          if force then fresh c
          else
            match Rsv.withSource c.rs (some (w.inx source)) with
            | r :: _ => .ok r.ref c
            | [] =>
              match newIndex rest f (w.inx source) prio stored c with
              | .err e c => .err e c
              | .ok _ c => .ok f.ref c
        | none => fresh c

/-- `index_ref`, catalog.py:414-430, with `_find_single_source`, 334-337 -/
def indexRef (w : World E) (rest : A) (date : Str) (origin : Str) (iface : Option (List String)) (source : Option Str) (prio : ℤ) (force : Bool)
    (c : Cat A E) : Out (Cat A E) Err Str :=
  match Rsv.getResource c.rs (some origin) iface source true false with
  | .error e => .err (.rsv e) c
  | .ok r =>
    match check w r c with
    | .err e c => .err e c
    | .ok _ c =>
      match r.source with
      | none => .err .stopIteration c
      | some s => indexSource w rest date s prio force c

end Inx
