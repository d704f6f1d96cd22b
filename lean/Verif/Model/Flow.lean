import Mathlib.Data.Rat.Defs
import Verif.Base.Py

/-!
Model of `lcatools/characterizations.py` (Characterization), of the characterisation methods of
`lcatools/entities/flows.py` (LcFlow) and of `lcatools/entities/quantities.py` (unit conversion).

Simplifications: one flow; quantities are their uuids (the code indexes by uuid); factors are exact numbers, never
None; origins of factors and local units are left out; quantities given as arguments are of the right entity type.
-/

namespace Flo

/-- the strings that serve as locations; three of them are special -/
inductive Loc
  | glo                       -- 'GLO'
  | quantity | flow           -- 'quantity', 'flow': see `Characterization.__getitem__`
  | other (name : String)     -- all other strings
  deriving DecidableEq, Repr

inductive Err
  | duplicate | missingFactor | valueError | typeError | zeroDivision | attributeError | indexError | keyError
  | deleteReference
  deriving DecidableEq, Repr

/-- `_locations` of a Characterization, characterizations.py:29 -/
abbrev Char := Dict Loc ℚ

/-- LcFlow: `_characterizations` (flows.py:35), `reference_entity`; `hasComp`: the 'Compartment' property is not
empty, so that `str(flow)` (flows.py:145-152) does not raise IndexError -/
structure State (Q : Type) where
  chars : Dict Q Char := []
  ref : Option Q := none
  hasComp : Bool := true
  deriving DecidableEq

/-- a looked-up factor: a number, None, or an entity object -/
inductive Val
  | num (v : ℚ) | none | entity
  deriving DecidableEq, Repr

variable {Q : Type} [DecidableEq Q]

/-- `Characterization.__getitem__`, characterizations.py:80-91 -/
def Char.getItem (c : Char) (item : Loc) : Val :=
  match item with
  | .quantity => .entity
  | .flow => .entity
  | item =>
    match Dict.get? c item with
    | some v => .num v
    | none =>
      if c.length = 0 then .none
      else
        match Dict.get? c .glo with
        | some v => .num v
        | none => .num 0

/-- `Characterization.__setitem__`, characterizations.py:93-97 -/
def Char.setItem (c : Char) (k : Loc) (v : ℚ) : Except Err Char :=
  if Dict.has c k then .error .duplicate else .ok (Dict.set c k v)

/-- `add_value`, characterizations.py:102-109 -/
def Char.addValue (c : Char) (v : ℚ) (location : Option Loc) (overwrite : Bool) : Except Err Char :=
  let location := location.getD .glo
  let c := if overwrite && Dict.has c location then Dict.del c location else c
  Char.setItem c location v

/-- `update_values`, characterizations.py:99-100 -/
def Char.update (c : Char) (d : List (Loc × ℚ)) : Char := d.foldl (fun c kv => Dict.set c kv.1 kv.2) c

/-- `scale`, characterizations.py:111-113 -/
def Char.scale (c : Char) (factor : ℚ) : Char := c.map fun kv => (kv.1, kv.2 * factor)

/-- `cf`, flows.py:236-249; the KeyError it guards against is never raised -/
def cf (st : State Q) (q : Q) (locale : Loc) : Val :=
  match st.chars.get? q with
  | some c => c.getItem locale
  | none => .num 0

/-- `val * out / inn` -/
def ratio (val : ℚ) (out inn : Val) : Except Err ℚ :=
  match out, inn with
  | .num o, .num i => if i = 0 then .error .zeroDivision else .ok (val * o / i)
  | _, _ => .error .typeError

/-- `convert`, flows.py:251-263 -/
def convert (st : State Q) (val : ℚ) (to_ fr : Option Q) (locale : Loc) : Except Err ℚ :=
  match to_.or st.ref, fr.or st.ref with
  | some t, some f => ratio val (cf st t locale) (cf st f locale)
  | _, _ => .error .attributeError

/-- `_set_reference`, flows.py:61-75, reached by `flow['referenceQuantity'] = q` (entities.py:286-294) -/
def setReference (q : Q) (st : State Q) : Out (State Q) Err Unit :=
  match st.ref with
  | some r =>
    if r = q then .ok () st
    else if !st.hasComp then .err .indexError st       -- the first print
    else
      match cf st q .glo with
      | .num inc =>
        if inc = 0 then .err .missingFactor st
        else .ok () { st with chars := st.chars.map fun qc => (qc.1, Char.scale qc.2 (1 / inc)), ref := some q }
      | _ => .err .missingFactor st
  | none => .ok () { st with ref := some q }

/-- the argument `value` of `add_characterization` -/
inductive Arg
  | none | num (v : ℚ) | dict (d : List (Loc × ℚ))
  deriving DecidableEq

/-- the part of `add_characterization` after the reference is dealt with, flows.py:193-206 -/
def addFactor (q : Q) (value : Arg) (overwrite : Bool) (location : Option Loc) (st : State Q) :
    Out (State Q) Err Unit :=
  match st.chars.get? q, value with
  | some _, .none => .ok () st
  | none, .none => .ok () { st with chars := st.chars.set q [] }
  | c, .dict d => .ok () { st with chars := st.chars.set q (Char.update (c.getD []) d) }
  | c, .num v =>
    match Char.addValue (c.getD []) v location overwrite with
    | .ok c' => .ok () { st with chars := st.chars.set q c' }
    | .error e => .err e { st with chars := st.chars.set q (if overwrite && Dict.has (c.getD []) (location.getD .glo)
        then Dict.del (c.getD []) (location.getD .glo) else c.getD []) }

/-- `add_characterization`, flows.py:162-206 -/
def addChar (q : Q) (reference : Bool) (value : Arg) (overwrite : Bool) (location : Option Loc) (st : State Q) :
    Out (State Q) Err Unit :=
  if reference then
    if value = .none ∨ value = .num 1 then
      (setReference q st).bind fun _ st => addFactor q (.num 1) overwrite location st
    else .err .valueError st
  else addFactor q value overwrite location st

/-- `del_characterization`, flows.py:222-225, of a quantity object -/
def delChar (q : Q) (st : State Q) : Out (State Q) Err Unit :=
  if st.ref = some q then .err .deleteReference st
  else
    match st.chars.get? q with
    | some _ => .ok () { st with chars := st.chars.del q }
    | none => .err .keyError st

/-- `LcFlow(uuid, ReferenceQuantity=q)`, flows.py:32-51 -/
def new (q : Option Q) (hasComp : Bool) : State Q :=
  match q with
  | none => { hasComp := hasComp }
  | some q => (addChar q true .none false none { ref := some q, hasComp := hasComp }).state

/-! ### calls as data -/

inductive Op (Q : Type)
  | addChar (q : Q) (reference : Bool) (value : Arg) (overwrite : Bool) (location : Option Loc)
  | setReference (q : Q)
  | delChar (q : Q)

def step (op : Op Q) (st : State Q) : Option Err × State Q :=
  match op with
  | .addChar q r v o l => let x := addChar q r v o l st; (x.error?, x.state)
  | .setReference q => let x := setReference q st; (x.error?, x.state)
  | .delChar q => let x := delChar q st; (x.error?, x.state)

end Flo

/-! ### unit conversion -/

namespace Unit'

/-- a unit given to `convert`: a string, or the quantity's own LcUnit object (which is no key of a table of strings) -/
inductive Arg (U : Type)
  | str (u : U) | refObject
  deriving DecidableEq

variable {U : Type} [DecidableEq U]

inductive Res
  | none | val (v : ℚ) | zeroDivision
  deriving DecidableEq, Repr

/-- `LcQuantity.convert`, quantities.py:33-80; `refUnit` is `reference_entity.unitstring`, `table` the
'UnitConversion' property -/
def convert (refUnit : U) (table : Option (Dict U ℚ)) (from_ to_ : Option (Arg U)) : Res :=
  match table with
  | none => .none
  | some t =>
    match from_.getD (.str refUnit) with
    | .refObject => .none
    | .str f =>
      match t.get? f with
      | none => .none
      | some inbound =>
        let outbound := match to_.getD (.str refUnit) with
          | .refObject => some 1
          | .str u => t.get? u
        match outbound with
        | none => .none
        | some o => if inbound = 0 then .zeroDivision else .val (o / inbound)

end Unit'
