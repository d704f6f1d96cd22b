import Verif.Base.Dict
import Mathlib.Data.Int.Notation
import Mathlib.Order.Basic

/-!
Model of the privacy declarations of published resources: `antelope_v2_server/antelope/authorization.py`,
`antelope_v2_server/antelope/lc_pub.py`.

Simplifications: scores are integers; the keys of the dict given to `from_dict` are strings, its values numbers or None. A key `self`
is a TypeError in Python and is left out, as is a value that is no number.
-/

namespace Prv

/-- authorization.py:13 -/
def allowedInterfaces : List String := ["index", "inventory", "background", "quantity"]

/-- authorization.py:39 -/
def allowedScopes : List String := ["index", "info", "exch", "exch_val", "origin", "lci"]

/-- PrivacyDeclaration, authorization.py:64-76 -/
structure Decl where
  base : Option ℤ
  policy : Dict String (Option ℤ)

/-- `_set_policy`, authorization.py:78-80 -/
def setPolicy (d : Decl) (scope : String) (score : Option ℤ) : Decl :=
  if scope ∈ allowedScopes then { d with policy := d.policy.set scope score } else d

/-- `__init__` with the keywords in the order given, authorization.py:64-76 -/
def init (base : Option ℤ) (kwargs : Dict String (Option ℤ)) : Decl :=
  kwargs.foldl (fun d p => setPolicy d p.1 p.2) ⟨base, []⟩

/-- `from_dict`, authorization.py:55-62: `cls(**privacy)` binds the key `base` to the parameter of this name -/
def fromDict (p : Dict String (Option ℤ)) : Decl :=
  init ((p.get? "base").join) (p.del "base")

/-- `from_int`, authorization.py:46-53 -/
def fromInt (p : Option ℤ) : Decl := init p []

/-- `_get_policy`, authorization.py:82-85 -/
def getPolicy (d : Decl) (scope : String) : Option ℤ :=
  match d.policy.get? scope with
  | some p => p
  | none => d.base

/-- `test`, authorization.py:87-94 -/
def test (d : Decl) (scope : String) (score : ℤ) : Bool :=
  if scope ∈ allowedScopes then
    match getPolicy d scope with
    | none => true
    | some p => decide (max score 0 ≤ p)
  else false

/-- `serialize`, authorization.py:96-100 -/
def serialize (d : Decl) : Dict String (Option ℤ) :=
  match d.base with
  | none => d.policy
  | some b => d.policy.set "base" (some b)

/-- the argument `privacy` of a publication: a number, None or a dict, lc_pub.py:148-151 -/
inductive Spec
  | num (n : Option ℤ)
  | dict (d : Dict String (Option ℤ))

/-- the argument `interfaces`: a string or an iterable, lc_pub.py:145-146 -/
inductive Ifaces
  | one (s : String)
  | many (l : List String)

/-- AntelopeV2Pub, lc_pub.py:131-151 -/
structure Pub where
  interfaces : List String
  scopes : Decl

/-- `__init__`, lc_pub.py:131-151 -/
def mkPub (i : Ifaces) (p : Spec) : Pub where
  interfaces := (match i with | .one s => [s] | .many l => l).filter (· ∈ allowedInterfaces)
  scopes := match p with
    | .dict d => fromDict d
    | .num n => fromInt n

/-- `serialize`, lc_pub.py:153-159, without type and name -/
def serializePub (p : Pub) : List String × Dict String (Option ℤ) := (p.interfaces, serialize p.scopes)

end Prv
