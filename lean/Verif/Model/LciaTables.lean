import Mathlib.Data.Rat.Defs
import Mathlib.Data.List.Dedup
import Verif.Base.Py

/-!
Model of the providers that read tables of characterization factors:
`antelope_catalog/providers/traci/traci_2_1_spreadsheet.py`, `traci/quantity.py`, and
`antelope_catalog/providers/ecoinvent_lcia.py`.

Simplifications:
* strings are lists of characters; `lower` is a parameter; a cell that holds a factor is a number, or none where `float` raises
  ValueError;
* namespace uuids of keys are the keys themselves; a flow in the archive is stored under its key, with its name, compartment, CAS
  number and factors (for the global location); the factor for mass is left out;
* a quantity of TRACI is its category (`_create_quantity` makes one quantity for each);
* `int` of a text accepts digits only (not spaces, signs and underscores); the final `$` of a regular expression does not
  match before a newline;
* generators are run to the end.
-/

namespace Ltab

abbrev Str := List Char

inductive Err
  | valueError | keyError | duplicate | stopIteration
  deriving DecidableEq

/-! ### CAS numbers -/

/-- the digit `n` -/
def dig (n : ℕ) : Char := Char.ofNat (48 + n)

/-- `str(n)` -/
def digs (n : ℕ) : Str := if h : n < 10 then [dig n] else digs (n / 10) ++ [dig (n % 10)]
  termination_by n
  decreasing_by omega

def isDig (c : Char) : Bool := decide (48 ≤ c.toNat ∧ c.toNat ≤ 57)

/-- `int(s)` -/
def toInt (s : Str) : Option ℕ :=
  if s ≠ [] ∧ s.all isDig = true then some (s.foldl (fun n c => 10 * n + (c.toNat - 48)) 0) else none

/-- `CAS_regexp`, traci/quantity.py:7: `^[0-9]{,6}-[0-9]{2}-[0-9]$` -/
def casRegexp (s : Str) : Bool :=
  decide ((s.takeWhile isDig).length ≤ 6) &&
  match s.dropWhile isDig with
  | [d1, a, b, d2, c] => d1 == '-' && isDig a && isDig b && d2 == '-' && isDig c
  | _ => false

/-- a cell that holds a CAS number: empty, a text, or a number -/
inductive CasCell
  | none
  | text (s : Str)
  | num (n : ℕ)
  deriving DecidableEq

/-- '-'.join([ss[:-3], ss[-3:-1], ss[-1:]]), traci/quantity.py:19 -/
def fmtCas (ss : Str) : Str :=
  ss.take (ss.length - 3) ++ '-' :: ((ss.drop (ss.length - 3)).take (ss.length - 1 - (ss.length - 3)) ++ '-' :: ss.drop (ss.length - 1))

/-- `transform_numeric_cas`, traci/quantity.py:10-19 -/
def transformNumericCas : CasCell → Except Err (Option Str)
  | .none => .ok .none
  | .text s =>
    if s = ['x'] then .ok .none
    else if casRegexp s then .ok (some s)
    else
      match toInt s with
      | .none => .error .valueError
      | some n => .ok (some (fmtCas (digs n)))
  | .num n => .ok (some (fmtCas (digs n)))

/-- `transform_string_cas`, traci_2_1_spreadsheet.py:25-26 -/
def transformStringCas (s : Str) : Option ℕ := toInt (s.filter fun c => decide (c ≠ '-'))

/-! ### TRACI -/

/-- a row of the sheet: name, 'CAS #', 'Formatted CAS #', and the columns in the order of the sheet -/
structure Row (Col : Type) where
  name : Str
  cas : CasCell
  fcas : CasCell
  cells : Dict Col (Option ℚ)

/-- an entry of `q_info`: column, category, compartment -/
structure QInfo (Col Cat : Type) where
  col : Col
  cat : Cat
  comp : Str

/-- a flow in the archive -/
structure TFlow (Cat : Type) where
  name : Str
  comp : Str
  cas : Option Str
  cfs : Dict Cat ℚ := []

abbrev Arch (Cat : Type) := Dict Str (TFlow Cat)

variable {Col Cat : Type} [DecidableEq Col] [DecidableEq Cat]

/-- `_flow_key`, traci_2_1_spreadsheet.py:65-67 -/
def flowKey (flowable comp : Str) : Str := flowable ++ ',' :: ' ' :: comp

/-- `_create_flow`, traci_2_1_spreadsheet.py:89-99: the key of the flow -/
def createFlow (lower : Str → Str) (row : Row Col) (comp : Str) (a : Arch Cat) : Out (Arch Cat) Err Str :=
  match transformNumericCas row.fcas with
  | .error e => .err e a
  | .ok cas =>
    match a.get? (flowKey (lower row.name) comp) with
    | some _ => .ok (flowKey (lower row.name) comp) a
    | none => .ok (flowKey (lower row.name) comp)
        (a.set (flowKey (lower row.name) comp) { name := lower row.name, comp := comp, cas := cas })

/-- `f.add_characterization(q, value=cf)`, where DuplicateCharacterizationError is caught, traci_2_1_spreadsheet.py:111-114 -/
def addCf (k : Str) (cat : Cat) (v : ℚ) (a : Arch Cat) : Arch Cat :=
  match a.get? k with
  | none => a
  | some f => if f.cfs.has cat then a else a.set k { f with cfs := f.cfs.set cat v }

/-- `_add_flowable`, traci_2_1_spreadsheet.py:101-114 -/
def addFlowable (lower : Str → Str) (row : Row Col) : List (QInfo Col Cat) → Arch Cat → Out (Arch Cat) Err Unit
  | [], a => .ok () a
  | i :: qi, a =>
    match row.cells.get? i.col with
    | none => .err .keyError a
    | some none => addFlowable lower row qi a
    | some (some cf) =>
      if cf = 0 then addFlowable lower row qi a
      else (createFlow lower row i.comp a).bind fun k a => addFlowable lower row qi (addCf k i.cat cf a)

/-- `_load_all`, traci_2_1_spreadsheet.py:119-121 -/
def loadAll (lower : Str → Str) (qi : List (QInfo Col Cat)) : List (Row Col) → Arch Cat → Out (Arch Cat) Err Unit
  | [], a => .ok () a
  | r :: rows, a => (addFlowable lower r qi a).bind fun _ a => loadAll lower qi rows a

/-- a characterization that is yielded: the key of its flow, category, value -/
abbrev Cf (Cat : Type) := Str × Cat × ℚ

/-- `q_info[col]` -/
def info (qi : List (QInfo Col Cat)) (c : Col) : Option (QInfo Col Cat) := qi.find? fun i => decide (i.col = c)

/-- `cf_for_method_and_compartment`, traci_2_1_spreadsheet.py:137-150, over the columns of a row -/
def cfRow (lower : Str → Str) (qi : List (QInfo Col Cat)) (row : Row Col) (method : Option Cat) (comp : Option Str) :
    List (Col × Option ℚ) → Arch Cat → Out (Arch Cat) Err (List (Cf Cat))
  | [], a => .ok [] a
  | (c, v) :: cs, a =>
    match info qi c with
    | none => cfRow lower qi row method comp cs a
    | some i =>
      if (method = none ∨ method = some i.cat) ∧ (comp = none ∨ comp = some i.comp) then
        match v with
        | none => cfRow lower qi row method comp cs a
        | some cf =>
          if cf = 0 then cfRow lower qi row method comp cs a
          else
            (createFlow lower row i.comp a).bind fun k a =>
              (cfRow lower qi row method comp cs a).bind fun l a => .ok ((k, i.cat, cf) :: l) a
      else cfRow lower qi row method comp cs a

/-- `row_for_key`, traci_2_1_spreadsheet.py:152-162 -/
def rowForKey (lower : Str → Str) (rows : List (Row Col)) (key : Str) : List (Row Col) :=
  if casRegexp key then
    rows.filter fun r => match r.cas, transformStringCas key with | .num n, some k => decide (n = k) | _, _ => false
  else rows.filter fun r => decide (lower r.name = lower key)

/-- the factors of several rows -/
def cfRows (lower : Str → Str) (qi : List (QInfo Col Cat)) (method : Option Cat) (comp : Option Str) :
    List (Row Col) → Arch Cat → Out (Arch Cat) Err (List (Cf Cat))
  | [], a => .ok [] a
  | r :: rows, a =>
    (cfRow lower qi r method comp r.cells a).bind fun l a =>
      (cfRows lower qi method comp rows a).bind fun m a => .ok (l ++ m) a

/-- `factors`, traci/quantity.py:63-73, for a quantity found by its category (traci/quantity.py:24-31) -/
def factors (lower : Str → Str) (qi : List (QInfo Col Cat)) (rows : List (Row Col)) (cat : Cat) (flowable : Option Str)
    (comp : Option Str) (a : Arch Cat) : Out (Arch Cat) Err (List (Cf Cat)) :=
  match flowable with
  | some key => cfRows lower qi (some cat) comp (rowForKey lower rows key) a
  | none => cfRows lower qi (some cat) comp rows a

/-- the loop of `compartments`, traci/quantity.py:48-59, for one row or for none; the compartments in the order found -/
def compsOf (cat : Option Cat) (row : Option (Row Col)) : List (QInfo Col Cat) → Except Err (List Str)
  | [] => .ok []
  | i :: qi =>
    if cat = none ∨ cat = some i.cat then
      match row with
      | none => (compsOf cat row qi).map (i.comp :: ·)
      | some r =>
        match r.cells.get? i.col with
        | none => .error .keyError
        | some none => compsOf cat row qi
        | some (some cf) => if cf ≠ 0 then (compsOf cat row qi).map (i.comp :: ·) else compsOf cat row qi
    else compsOf cat row qi

/-- `compartments`, traci/quantity.py:43-61, for a quantity found by its category; `next` on no row raises StopIteration, which
leaves a generator as RuntimeError -/
def compartments (lower : Str → Str) (qi : List (QInfo Col Cat)) (rows : List (Row Col)) (cat : Option Cat) (flowable : Option Str) :
    Except Err (List Str) :=
  match flowable with
  | none => (compsOf cat none qi).map List.dedup
  | some key =>
    match rowForKey lower rows key with
    | [] => .error .stopIteration
    | r :: _ => (compsOf cat (some r) qi).map List.dedup

/-! ### ecoinvent LCIA -/

/-- a row of the sheet: names of flow, compartment and subcompartment; method, category and indicator; the column 'Known issue',
which may be empty, and the column of values; both hold a number, or none where `float` raises ValueError -/
structure ERow where
  name : Str
  comp : Str
  sub : Str
  method : Str
  category : Str
  indicator : Str
  issue : Option (Option ℚ)
  num : Option ℚ

/-- `_quantity_key` and `_flow_key`, ecoinvent_lcia.py:84-86 -/
def key3 (a b c : Str) : Str := a ++ ',' :: ' ' :: (b ++ ',' :: ' ' :: c)

/-- `_get_value`, ecoinvent_lcia.py:129-133, and `LiterateFloat`, lcatools/literate_float.py:12-13 -/
def ERow.value (r : ERow) : Option ℚ :=
  match r.issue with
  | some v => v
  | none => r.num

/-- a flow of the archive: name, compartment, subcompartment, factors by quantity -/
structure EFlow where
  name : Str
  comp : Str
  sub : Str
  cfs : Dict Str ℚ := []

/-- the archive: flows by key; quantities by key, with method, category, indicator -/
structure EArch where
  flows : Dict Str EFlow := []
  qtys : Dict Str (Str × Str × Str) := []

/-- `_create_flow`, ecoinvent_lcia.py:116-127 -/
def eFlow (r : ERow) (a : EArch) : EArch :=
  match a.flows.get? (key3 r.name r.comp r.sub) with
  | some _ => a
  | none => { a with flows := a.flows.set (key3 r.name r.comp r.sub) { name := r.name, comp := r.comp, sub := r.sub } }

/-- `_create_quantity`, ecoinvent_lcia.py:88-106 -/
def eQty (r : ERow) (a : EArch) : EArch :=
  match a.qtys.get? (key3 r.method r.category r.indicator) with
  | some _ => a
  | none => { a with qtys := a.qtys.set (key3 r.method r.category r.indicator) (r.method, r.category, r.indicator) }

/-- the loop of `_load_all`, ecoinvent_lcia.py:139-143 -/
def eLoad : List ERow → EArch → Out EArch Err Unit
  | [], a => .ok () a
  | r :: rows, a =>
    let a := eQty r (eFlow r a)
    match r.value with
    | none => .err .valueError a
    | some v =>
      match a.flows.get? (key3 r.name r.comp r.sub) with
      | none => .err .keyError a                      -- not reached
      | some f =>
        if f.cfs.has (key3 r.method r.category r.indicator) then .err .duplicate a
        else
          let f' := { f with cfs := f.cfs.set (key3 r.method r.category r.indicator) v }
          eLoad rows { a with flows := a.flows.set (key3 r.name r.comp r.sub) f' }

end Ltab
