import Verif.Model.Tables

/-!
Model of the cells of a FlowablesGrid: `_extract_data_from_item` (`antelope_reports/tables/flowables.py`), and of the first line that
`text` needs of each row (`antelope_reports/tables/base.py`).
-/

namespace Tab

/-- an item of a cell; `key` is `_canonical(item.flow)`, flowables.py:64-81 -/
inductive FItem
  /-- an exchange: `_value_dict`, by name, and its value -/
  | exchange (key : String) (alloc : List (String × ℚ)) (value : Option ℚ)
  /-- a characterization: the name of its flow, and its values by location -/
  | factor (key name : String) (locs : List (String × ℚ))
  /-- a component of an LCIA result -/
  | score (key : String) (value : ℚ)

/-- `d[k]` of a `defaultdict(float)` -/
def look (d : Dict String ℚ) (k : String) : ℚ := (d.get? k).getD 0

/-- `d[k] += v` -/
def plus (d : Dict String ℚ) (k : String) (v : ℚ) : Dict String ℚ := d.set k (look d k + v)

/-- `while d[new_key] != 0: new_key += '.'`, flowables.py:117-118; `n` steps at most (see freshKey_some) -/
def freshKey : ℕ → Dict String ℚ → String → Option String
  | 0, _, _ => none
  | n + 1, d, k => if look d k ≠ 0 then freshKey n d (k ++ ".") else some k

/-- one location of a factor, flowables.py:107-119; `none`: the loop does not end -/
def addLoc (key name : String) (d : Dict String ℚ) (lv : String × ℚ) : Option (Dict String ℚ) :=
  let k := if lv.1 = "GLO" then key else lv.1
  if look d k = 0 then some (d.set k lv.2)
  else if look d k ≠ lv.2 then
    (freshKey (d.length + 1) d ("[" ++ lv.1 ++ "] " ++ name)).map fun k => d.set k lv.2
  else some d

/-- the locations of a factor -/
def addLocs (key name : String) : List (String × ℚ) → Dict String ℚ → Option (Dict String ℚ)
  | [], d => some d
  | lv :: l, d => match addLoc key name d lv with
    | none => none
    | some d => addLocs key name l d

/-- one item, flowables.py:97-126 -/
def addItem (d : Dict String ℚ) : FItem → Option (Dict String ℚ)
  | .exchange key alloc value =>
    let d := alloc.foldl (fun d kv => plus d kv.1 kv.2) d
    match value with
    | none => some d
    | some v => some (plus d key v)
  | .factor key name locs => addLocs key name locs d
  | .score key v => some (plus d key v)

/-- `_extract_data_from_item`, flowables.py:83-127 -/
def addItems : List FItem → Dict String ℚ → Option (Dict String ℚ)
  | [], d => some d
  | i :: l, d => match addItem d i with
    | none => none
    | some d => addItems l d

/-- the cell of some items -/
def flowCell (items : List FItem) : Option (Dict String ℚ) := addItems items []

/-- what `text` does with a row, base.py:240-250: it needs the first line -/
def textRow (o : PyOrd String) (near : List String) (note : String) (datas : List (Dict String ℚ)) : Except Err (List Line) :=
  match sortKeys o datas with
  | .error e => .error e
  | .ok keys => match lines near note datas keys with
    | [] => .error .indexError
    | l :: ls => .ok (l :: ls)

/-- `print(fmt % header)` of a table that returns sets, base.py:252-276: the format has a field for each near heading and each
column, one for the name and one for the note; the header (base.py:114-123) has the near headings, the columns, and the far headings -/
def textHeader (near cols far : List String) : Except Err (List String) :=
  let header := near ++ cols ++ far
  if header.length = near.length + cols.length + 1 + 1 then .ok header else .error .typeError

/-- `FlowablesGrid._near_headings`, flowables.py:11 -/
def flowNear : List String := ["Flowable", "Compartment"]

/-- `_far_headings` of a FlowablesGrid, which has none of its own, base.py:71, flowables.py:6-12 -/
def flowFar : List String := [""]

/-- the headings of an AllocationGrid, allocation.py:12-14 -/
def allocNear : List String := ["Direction", "Ref"]

/-- allocation.py:12-14 -/
def allocFar : List String := ["Flow", "Comment"]

end Tab
