import Verif.Base.Dict
import Mathlib.Data.Nat.Notation

/-!
Model of how UUIDs are recognised in texts: `uuid_regex`, `to_uuid` (lcatools/interfaces/__init__.py:27-45), the UUID of an entity
(entities.py:43-47) and the lookup of an entity by a text (entity_store.py:76-89, 418-456), in an archive without upstream and without `ns_uuid`.

Simplifications:
* of `uuid.UUID(s)` the cases where `int(s, 16)` accepts signs, blanks or underscores are left out (they raise ValueError here).
-/

namespace Uid

abbrev Txt := List Char

/-- `[0-9a-f]` with IGNORECASE -/
def isHex (c : Char) : Bool := c.isDigit || (decide ('a' ≤ c) && decide (c ≤ 'f')) || (decide ('A' ≤ c) && decide (c ≤ 'F'))

/-- `[0-9a-f]{n}` at the beginning of the text: what is matched and what is left -/
def takeHex : ℕ → Txt → Option (Txt × Txt)
  | 0, s => some ([], s)
  | _ + 1, [] => none
  | n + 1, c :: s => if isHex c then (takeHex n s).map fun r => (c :: r.1, r.2) else none

/-- `-?` -/
def optHyphen : Txt → Txt × Txt
  | [] => ([], [])
  | c :: s => if c = '-' then (['-'], s) else ([], c :: s)

/-- `[0-9a-f]{n}-?` for each of the numbers, without the hyphen after the last. A hyphen that is there must be matched, as it is no digit -/
def groups : List ℕ → Txt → Option (Txt × Txt)
  | [], s => some ([], s)
  | [n], s => takeHex n s
  | n :: ns, s =>
    match takeHex n s with
    | none => none
    | some (a, s) =>
      let h := optHyphen s
      (groups ns h.2).map fun r => (a ++ h.1 ++ r.1, r.2)

/-- `uuid_regex.match(s)`, interfaces/__init__.py:24 -/
def uuidAt (s : Txt) : Option Txt := (groups [8, 4, 4, 4, 12] s).map Prod.fst

/-- `uuid_regex.search(s)`: leftmost -/
def search : Txt → Option Txt
  | [] => uuidAt []
  | c :: s => match uuidAt (c :: s) with
    | some u => some u
    | none => search s

/-- `s.replace(t, '')` for a text `t` that is not empty -/
def remove (t : Txt) (s : Txt) : Txt :=
  go (s.length + 1) s
where
  go : ℕ → Txt → Txt
    | 0, s => s
    | _ + 1, [] => []
    | n + 1, c :: s => if t.isPrefixOf (c :: s) then go n ((c :: s).drop t.length) else c :: go n s

/-- `s.strip('{}')` -/
def stripBraces (s : Txt) : Txt :=
  let b := fun c : Char => c == '{' || c == '}'
  ((s.dropWhile b).reverse.dropWhile b).reverse

/-- the digits in the usual form, `str(uuid.UUID(...))` -/
def canonical (h : Txt) : Txt :=
  let h := h.map Char.toLower
  h.take 8 ++ '-' :: (h.drop 8).take 4 ++ '-' :: (h.drop 12).take 4 ++ '-' :: (h.drop 16).take 4 ++ '-' :: h.drop 20

/-- `str(uuid.UUID(s))`; `none` is ValueError. Python's uuid module -/
def parse (s : Txt) : Option Txt :=
  let h := (stripBraces (remove "uuid:".toList (remove "urn:".toList s))).filter fun c => c != '-'
  if h.length = 32 ∧ h.all isHex then some (canonical h) else none

/-- `to_uuid` of a text, interfaces/__init__.py:27-45 -/
def toUuid (s : Txt) : Option Txt :=
  match search s with
  | some u => some u
  | none => parse s

/-- the UUID of an entity made with the text, entities.py:43-47 -/
def entityUuid (s : Txt) : Option Txt := parse s

/-- `__getitem__`, entity_store.py:433-456 with `_key_to_id`, 76-89 -/
def lookup {E : Type} (entities : Dict Txt E) (s : Txt) : Option E := (toUuid s).bind entities.get?

end Uid
