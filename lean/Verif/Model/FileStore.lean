import Verif.Base.Dict
import Verif.Base.Py
import Mathlib.Data.Nat.Notation

/-!
Model of `FileStore`, antelope_catalog/providers/file_store.py: listing and reading the files of a directory, of a zip or 7z file, or of a web address.

Simplifications:
* a store is the list of its entries (in a directory: its files, by their path in the directory) with their contents;
* regular expressions: prefixes have no special characters, so that `re.sub('^' + p, '', s)` and `re.match('^' + p, s)` are about the beginning of the text;
* paths are posix paths; the entries of a zip file have distinct names;
* `urljoin` of an address and a relative path without dots: the path replaces what follows the last slash.
-/

namespace Fil

abbrev Txt := List Char

inductive Kind
  | zip | sevenZip | dir
  deriving DecidableEq

inductive Err
  | key | fileNotFound | http
  deriving DecidableEq, Repr

/-- `os.path.split(p)[0]` -/
def dirOf (p : Txt) : Txt :=
  let head := (p.reverse.dropWhile fun c => c != '/').reverse
  if head.all fun c => c == '/' then head else (head.reverse.dropWhile fun c => c == '/').reverse

/-- `posixpath.join(a, b)` -/
def join (a b : Txt) : Txt :=
  if b.head? = some '/' then b
  else if a = [] ∨ a.getLast? = some '/' then a ++ b
  else a ++ '/' :: b

/-- `re.sub('^' + p, '', s)` -/
def cut (p s : Txt) : Txt := if p.isPrefixOf s then s.drop p.length else s

structure Store (B : Type) where
  kind : Kind
  files : Dict Txt B
  pre : Option Txt

variable {B : Type}

/-- the constructor, file_store.py:112-141, of a directory: the prefix becomes a part of the path -/
def openDir (files : Dict Txt B) : Option Txt → Store B
  | none => ⟨.dir, files, none⟩
  | some p => ⟨.dir, (files.filter fun f => (p ++ ['/']).isPrefixOf f.1).map fun f => (cut (p ++ ['/']) f.1, f.2), none⟩

/-- the constructor of a zip or 7z file -/
def openZip (kind : Kind) (files : Dict Txt B) (pre : Option Txt) : Store B := ⟨kind, files, pre⟩

/-- the setter of `internal_prefix`, file_store.py:147-157 -/
def setPrefix (v : Txt) (s : Store B) : Store B :=
  match s.pre with
  | none => { s with pre := some v }
  | some p => { s with pre := some (join p v) }

/-- `_prefix`, file_store.py:178-181 -/
def addPre (s : Store B) (f : Txt) : Txt :=
  match s.pre with
  | none => f
  | some p => join p f

/-- `_de_prefix`, file_store.py:183-186 -/
def cutPre (s : Store B) (f : Txt) : Txt :=
  match s.pre with
  | none => f
  | some p => cut (join p []) f

/-- `_int_dirs_zip`, file_store.py:172-176 -/
def subfolders (s : Store B) : List Txt := s.files.keys.map dirOf

/-- the names before the prefix is removed, file_store.py:196-219 -/
def names (s : Store B) : List Txt :=
  let inPre := fun q : Txt => match s.pre with
    | none => true
    | some p => p.isPrefixOf q
  match s.kind with
  | .zip => s.files.keys.filter fun q => decide (q.dropLast ∉ subfolders s) && inPre q
  | .sevenZip => s.files.keys.filter inPre
  | .dir => s.files.keys

/-- `listfiles`, file_store.py:222-241, of a local store -/
def listFiles (inPrefix : Option Txt) (s : Store B) : List Txt :=
  ((names s).map (cutPre s)).filter fun l => match inPrefix with
    | none => true
    | some p => p.isPrefixOf l

/-- `readfile`, file_store.py:287-301, of a local store: `none` for a file that a 7z file does not have -/
def readFile (f : Txt) (s : Store B) : Except Err (Option B) :=
  match s.files.get? (addPre s f) with
  | some b => .ok (some b)
  | none =>
    match s.kind with
    | .zip => .error .key
    | .sevenZip => .ok none
    | .dir => .error .fileNotFound

/-! ### web addresses -/

/-- a store for a web address: the scheme, the address without `scheme://`, whether there is a cache, its files, and the directories made for it -/
structure Remote (B : Type) where
  scheme : Txt
  base : Txt
  caching : Bool
  cache : Dict Txt B
  made : List Txt

/-- is there a directory? (`makedirs` makes those above it, too) -/
def Remote.hasDir (r : Remote B) (d : Txt) : Bool := r.made.any fun m => decide (m = d) || (d ++ ['/']).isPrefixOf m

/-- `abspath` of the directory of the cache: no slash at the end -/
def strip (s : Txt) : Txt := (s.reverse.dropWhile fun c => c == '/').reverse

/-- the constructor, file_store.py:92-108 -/
def openRemote (scheme base : Txt) (caching : Bool) (cache : Dict Txt B) : Remote B :=
  ⟨scheme, base, caching, cache, if caching then [strip base] else []⟩

/-- `urljoin` of the address and a relative path -/
def urljoin (base f : Txt) : Txt := (base.reverse.dropWhile fun c => c != '/').reverse ++ f

/-- downloading, file_store.py:271-286. Files of the cache are named by their path in the directory of the cache -/
def download [DecidableEq B] (web : Txt → Option B) (f : Txt) (r : Remote B) : Out (Remote B) Err B :=
  let url := urljoin r.base f
  if r.scheme ≠ "http".toList then .err .key r
  else
    match web url with
    | none => .err .http r
    | some b =>
      if r.caching then
        let r := { r with made := dirOf url :: r.made }
        if r.hasDir (dirOf (join (strip r.base) f)) then .ok b { r with cache := r.cache.set f b }
        else .err .fileNotFound r
      else .ok b r

/-- `readfile`, file_store.py:252-301, of a web address -/
def readRemote [DecidableEq B] (web : Txt → Option B) (f : Txt) (force : Bool) (r : Remote B) : Out (Remote B) Err B :=
  if r.caching && !force then
    match r.cache.get? f with
    | some b => .ok b r
    | none => download web f r
  else download web f r

end Fil
