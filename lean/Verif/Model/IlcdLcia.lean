import Mathlib.Data.Rat.Defs
import Mathlib.Data.List.Dedup
import Verif.Base.Py

/-!
Model of the loading of LCIA factors from ILCD archives: `antelope_catalog/providers/ilcd/ilcd_lcia.py`, `ilcd/quantity.py`,
and the methods of flows it uses (`lcatools/entities/flows.py`, `lcatools/characterizations.py`).

Simplifications:
* names of locations are texts, an empty tag is the empty text; uuids, names and CAS numbers are of any types;
* the file of a flow is the flow it makes, or none where it is missing or cannot be read (then `_check_or_retrieve_child` raises, or
  gives None, which has no characterizations: an error in both cases); the uuid in a file is the one asked for;
* factors: the uuid of the flow, the mean value or none where `float` raises, and the location;
* origins of factors, versions, units and the metadata of quantities are left out; a characterization that is yielded is the uuid
  of its flow (the quantity is known);
* the archive has no upstream.
-/

namespace Ilm

inductive Err
  | valueError | missing
  deriving DecidableEq

/-- a flow: name, CAS number, and for each quantity the values by location -/
structure Flow (Q Nm : Type) where
  name : Nm
  cas : Nm
  cfs : Dict Q (Dict String ℚ) := []

/-- a factor in the file of a method -/
structure Fac (U : Type) where
  flow : U
  mean : Option ℚ
  loc : String

/-- the archive: flows, and the quantities present -/
structure Arch (U Q Nm : Type) where
  flows : Dict U (Flow Q Nm) := []
  qtys : List Q := []

variable {U Q Nm : Type} [DecidableEq U] [DecidableEq Q] [DecidableEq Nm]

/-- `has_characterization`, lcatools/entities/flows.py:208-220, for an empty text the location is None (ilcd_lcia.py:97-98) -/
def hasChar (f : Flow Q Nm) (q : Q) (loc : String) : Bool :=
  match f.cfs.get? q with
  | none => false
  | some d => if loc = "GLO" ∨ loc = "" then true else d.has loc

/-- `add_characterization`, flows.py:193-206, and `add_value`, characterizations.py:101-109; the location is not there yet -/
def addChar (f : Flow Q Nm) (q : Q) (loc : String) (v : ℚ) : Flow Q Nm :=
  { f with cfs := f.cfs.set q (((f.cfs.get? q).getD []).set (if loc = "" then "GLO" else loc) v) }

/-- `_check_or_retrieve_child`, ilcd.py:226-230 -/
def retrieve (src : U → Option (Flow Q Nm)) (u : U) (a : Arch U Q Nm) : Out (Arch U Q Nm) Err (Flow Q Nm) :=
  match a.flows.get? u with
  | some f => .ok f a
  | none =>
    match src u with
    | none => .err .missing a
    | some f => .ok f { a with flows := a.flows.set u f }

/-- `_load_factor`, ilcd_lcia.py:89-103 -/
def loadFactor (src : U → Option (Flow Q Nm)) (q : Q) (all : Bool) (x : Fac U) (a : Arch U Q Nm) :
    Out (Arch U Q Nm) Err (Option U) :=
  if (a.flows.get? x.flow).isNone ∧ all = false then .ok none a
  else
    match x.mean with
    | none => .err .valueError a
    | some cf =>
      (retrieve src x.flow a).bind fun f a =>
        if hasChar f q x.loc then .ok (some x.flow) a
        else .ok (some x.flow) { a with flows := a.flows.set x.flow (addChar f q x.loc cf) }

/-- the loop over the factors, ilcd_lcia.py:119-120 and 137-138: what each call returned -/
def loadFactors (src : U → Option (Flow Q Nm)) (q : Q) (all : Bool) : List (Fac U) → Arch U Q Nm →
    Out (Arch U Q Nm) Err (List (Option U))
  | [], a => .ok [] a
  | x :: xs, a =>
    (loadFactor src q all x a).bind fun r a => (loadFactors src q all xs a).bind fun rs a => .ok (r :: rs) a

/-- `_create_lcia_quantity`, ilcd_lcia.py:44-71 -/
def createQty (q : Q) (a : Arch U Q Nm) : Arch U Q Nm := if q ∈ a.qtys then a else { a with qtys := a.qtys ++ [q] }

/-- `load_lcia_method`, ilcd_lcia.py:105-121; `all` is `load_all_flows`, which may be None -/
def loadMethod (src : U → Option (Flow Q Nm)) (file : Q → List (Fac U)) (q : Q) (all : Option Bool) (a : Arch U Q Nm) :
    Out (Arch U Q Nm) Err Unit :=
  match all with
  | none => .ok () (createQty q a)
  | some b => (loadFactors src q b (file q) (createQty q a)).bind fun _ a => .ok () a

/-- `load_lcia`, ilcd_lcia.py:123-129, over the methods in the archive; `load_all_flows` is False if it is not given -/
def loadLcia (src : U → Option (Flow Q Nm)) (file : Q → List (Fac U)) (all : Option Bool) : List Q → Arch U Q Nm →
    Out (Arch U Q Nm) Err Unit
  | [], a => .ok () a
  | q :: qs, a =>
    if q ∈ a.qtys then loadLcia src file all qs a
    else (loadMethod src file q all a).bind fun _ a => loadLcia src file all qs a

/-- `generate_factors`, ilcd_lcia.py:131-138, run to the end -/
def generateFactors (src : U → Option (Flow Q Nm)) (file : Q → List (Fac U)) (q : Q) (a : Arch U Q Nm) :
    Out (Arch U Q Nm) Err (List (Option U)) :=
  loadFactors src q true (file q) (createQty q a)

/-- `factors`, ilcd/quantity.py:57-71, run to the end; `flowable` is a name or a CAS number -/
def factors (src : U → Option (Flow Q Nm)) (file : Q → List (Fac U)) (q : Q) (flowable : Option Nm) (a : Arch U Q Nm) :
    Out (Arch U Q Nm) Err (List U) :=
  (generateFactors src file q a).bind fun l a =>
    .ok ((l.filterMap id).filter fun u =>
      match flowable, a.flows.get? u with
      | none, _ => true
      | some k, some f => decide (f.name = k ∨ f.cas = k)
      | some _, none => false) a

/-- `flowables` with a quantity, ilcd/quantity.py:33-39, run to the end: pairs of CAS number and name -/
def flowables (src : U → Option (Flow Q Nm)) (file : Q → List (Fac U)) (q : Q) (a : Arch U Q Nm) :
    Out (Arch U Q Nm) Err (List (Nm × Nm)) :=
  (generateFactors src file q a).bind fun l a =>
    .ok ((l.filterMap id).filterMap fun u => (a.flows.get? u).map fun f => (f.cas, f.name)).reverse.dedup.reverse a

/-- `cf`, flows.py:236-249 with `__getitem__`, characterizations.py:79-91: the value for a location, the global one, or 0.0 -/
def cf (a : Arch U Q Nm) (u : U) (q : Q) (loc : String) : ℚ :=
  match (a.flows.get? u).bind (fun f => f.cfs.get? q) with
  | none => 0
  | some d =>
    match d.get? loc with
    | some v => v
    | none => (d.get? "GLO").getD 0

end Ilm
