import Verif.Model.Archive

/-!
Model of the names of an archive through files: `EntityStore.__init__`, `write_to_file`, `create_descendant`
(`lcatools/archives/entity_store.py`), `from_file`, `from_already_open_file` and `load_from_dict`
(`lcatools/archives/basic_archive.py`), on top of the table of names (`ArcNames`).

Simplifications:
* only what concerns names is in an archive and in a file: the table of names, the source, `dataReference`, whether the
  archive is loaded and whether it is a descendant; entities (C100-C106) are left out;
* references and sources are any types, with `valid` for `ref_regex.match` and `localRef` for `local_ref`; a source is
  not the empty string (which `serialize` would drop with None);
* JSON and gzip keep what is written; `json.dump(sort_keys=True)` sorts names and sources: theorems are about
  documents in any order.
-/

namespace Arf

open ArcNames (State addName refOf namesMap)

/-- exceptions: those of `_add_name`, `KeyError` (create_descendant), `EnvironmentError` -/
inductive Err | invalidReference | sourceAlreadyKnown | attributeError | keyError | environmentError
  deriving DecidableEq, Repr

def lift : ArcNames.Err → Err
  | .invalidReference => .invalidReference
  | .sourceAlreadyKnown => .sourceAlreadyKnown
  | .attributeError => .attributeError

/-- an archive: `_catalog_names` and `_source`; `_serialize_dict['dataReference']`; `_loaded`; `_descendant` -/
structure Arch (R S : Type) where
  tbl : State R S
  dataRef : R
  loaded : Bool := false
  descendant : Bool := false
  deriving DecidableEq

/-- a JSON document: `dataSource` and (older files) `dataReference`, `initArgs.dataReference`, `catalogNames`, `loaded` -/
structure Doc (R S : Type) where
  source : Option S := none
  top : Option R := none
  init : Option R := none
  names : List (R × List S) := []
  loaded : Option Bool := none
  deriving DecidableEq

variable {R S : Type} [DecidableEq R] [DecidableEq S]

/-- `_add_name` on an archive, entity_store.py:215-246 -/
def add (valid : R → Bool) (localRef : S → R) (ref : R) (source : Option S) (rewrite : Bool) (a : Arch R S) :
    Out (Arch R S) Err Unit :=
  match addName valid localRef ref source rewrite a.tbl with
  | .ok _ t => .ok () { a with tbl := t }
  | .err e t => .err (lift e) { a with tbl := t }

/-- the property `ref`, entity_store.py:262-267 -/
def ref (localRef : S → R) (a : Arch R S) : Except Err R :=
  match refOf localRef a.tbl with
  | .ok r => .ok r
  | .error e => .error (lift e)

/-- `__init__`, entity_store.py:125-213: the reference is `ref`, or else `dataReference`, or else that of the source -/
def create (valid : R → Bool) (localRef : S → R) (source : Option S) (ref dataReference : Option R) :
    Except Err (Arch R S) :=
  let r := match ref with
    | some r => Except.ok r
    | none => match dataReference with
      | some r => .ok r
      | none => match source with
        | some s => .ok (localRef s)
        | none => .error Err.attributeError
  match r with
  | .error e => .error e
  | .ok r =>
    match add valid localRef r source false { tbl := { names := [], source := source }, dataRef := r } with
    | .ok _ a => .ok a
    | .err e _ => .error e

/-- the sources of the document, one after the other: the loop over `catalogNames`, basic_archive.py:254-260 -/
def addPairs (valid : R → Bool) (localRef : S → R) : List (R × S) → Arch R S → Out (Arch R S) Err Unit
  | [], a => .ok () a
  | (k, s) :: l, a => (add valid localRef k (some s) false a).bind fun _ a => addPairs valid localRef l a

/-- the pairs of a document in their order -/
def Doc.pairs (d : Doc R S) : List (R × S) := d.names.flatMap fun kl => kl.2.map fun s => (kl.1, s)

/-- the part of `load_from_dict` about an older file's `dataReference`, basic_archive.py:262-269 -/
def addTop (valid : R → Bool) (localRef : S → R) (d : Doc R S) (a : Arch R S) : Out (Arch R S) Err Unit :=
  match d.top with
  | none => .ok () a
  | some r =>
    match add valid localRef r d.source false a with
    | .err .sourceAlreadyKnown a => add valid localRef r none false a
    | o => o

/-- the part of `load_from_dict` about the file, basic_archive.py:271-272 -/
def addFile (valid : R → Bool) (localRef : S → R) (file : Option S) (a : Arch R S) : Out (Arch R S) Err Unit :=
  match file with
  | none => .ok () a
  | some f =>
    match ref localRef a with
    | .error e => .err e a
    | .ok r => add valid localRef r (some f) true a

/-- `load_from_dict`, basic_archive.py:246-286 and lc_archive.py:68-82 (an archive that is read from its own source is
loaded) -/
def loadFromDict (valid : R → Bool) (localRef : S → R) (d : Doc R S) (file : Option S) (a : Arch R S) :
    Out (Arch R S) Err Unit :=
  (addPairs valid localRef d.pairs a).bind fun _ a =>
    (addTop valid localRef d a).bind fun _ a =>
      (addFile valid localRef file a).bind fun _ a =>
        let a := match d.loaded with
          | some b => { a with loaded := b }
          | none => a
        .ok () (if file ≠ none ∧ file = a.tbl.source then { a with loaded := true } else a)

/-- `from_file`, basic_archive.py:49-70 -/
def fromFile (valid : R → Bool) (localRef : S → R) (f : S) (d : Doc R S) : Except Err (Arch R S) :=
  match create valid localRef (some f) d.top d.init with
  | .error e => .error e
  | .ok a => match loadFromDict valid localRef d (some f) a with
    | .ok _ a => .ok a
    | .err e _ => .error e

/-- `from_already_open_file`, basic_archive.py:72-99, with a file name: the caller's reference goes first -/
def fromOpen (valid : R → Bool) (localRef : S → R) (r : Option R) (f : S) (d : Doc R S) : Except Err (Arch R S) :=
  match create valid localRef (some f) (r.or d.top) d.init with
  | .error e => .error e
  | .ok a => match loadFromDict valid localRef d (some f) a with
    | .ok _ a => .ok a
    | .err e _ => .error e

/-- `serialize`, entity_store.py:590-598; with `loaded` as `write_to_file` adds it, entity_store.py:621-624 -/
def serialize (complete : Bool) (a : Arch R S) : Doc R S :=
  { source := a.tbl.source
    top := none
    init := some a.dataRef
    names := a.tbl.names.map fun kl => (kl.1, kl.2.filterMap id)
    loaded := if complete && a.loaded then some true else none }

/-- `write_to_file`, entity_store.py:608-638: the name is registered, then the document is written to it, or to it with
`.gz` (`gzName`); `upstream`: the names of the upstream archive -/
def writeToFile (valid : R → Bool) (localRef : S → R) (gzName : S → S) (upstream : Dict (Option S) R) (f : S)
    (gzip complete : Bool) (a : Arch R S) : Out (Arch R S) Err (S × Doc R S) :=
  let named : Out (Arch R S) Err Unit :=
    match a.tbl.source with
    | none =>
      match ref localRef a with
      | .error e => .err e a
      | .ok r => (add valid localRef r (some f) false { a with tbl := { a.tbl with source := some f } }).bind
          fun _ a => .ok () { a with descendant := true }
    | some _ =>
      if (namesMap upstream a.tbl).has (some f) then .ok () a
      else match ref localRef a with
        | .error e => .err e a
        | .ok r => add valid localRef r (some f) false a
  named.bind fun _ a => .ok (if gzip then gzName f else f, serialize complete a) a

/-- `load_all` in `create_descendant`, entity_store.py:360-363, 573-577: `load`: what it does if the archive is not loaded
yet: none: NotImplementedError; else it reads its own source, if that is a JSON file (lc_archive.py:178-182) -/
def loadAll (valid : R → Bool) (localRef : S → R) (load : Option (Option (Doc R S))) (a : Arch R S) :
    Out (Arch R S) Err Unit :=
  if a.loaded then .ok () a
  else match load with
    | none => .ok () a
    | some none => .ok () { a with loaded := true }
    | some (some d) => (loadFromDict valid localRef d none a).bind fun _ a => .ok () { a with loaded := true }

/-- `create_descendant`, entity_store.py:326-366: `newRef`: `_construct_new_ref` (C167); `newSource`: the path of the
new file; `taken`: it exists -/
def createDescendant (valid : R → Bool) (localRef : S → R) (gzName : S → S) (upstream : Dict (Option S) R)
    (newRef : R → R) (newSource : R → S) (taken : S → Bool) (force : Bool) (load : Option (Option (Doc R S)))
    (a : Arch R S) : Out (Arch R S) Err (R × S × Doc R S) :=
  match ref localRef a with
  | .error e => .err e a
  | .ok r =>
    if newRef r = r then .err .keyError a
    else if taken (newSource (newRef r)) && !force then .err .environmentError a
    else
      (loadAll valid localRef load a).bind fun _ a =>
        (add valid localRef (newRef r) (some (newSource (newRef r))) false
          { a with tbl := { a.tbl with source := some (newSource (newRef r)) } }).bind fun _ a =>
        (writeToFile valid localRef gzName upstream (newSource (newRef r)) true true { a with descendant := true }).bind
          fun pd a => .ok (newRef r, pd.1, pd.2) a

end Arf
