import Verif.Base.Py
import Mathlib.Data.Rat.Defs
import Mathlib.Algebra.Order.Ring.Rat
import Mathlib.Data.String.Basic
import Mathlib.Data.Prod.Lex
import Mathlib.Data.List.Sort
import Mathlib.Order.Lattice

/-!
Model of tables: `BaseTableOutput` (`antelope_reports/tables/base.py`), `AllocationGrid` (`antelope_reports/tables/allocation.py`) and
the cells of `FlowablesGrid` (`antelope_reports/tables/flowables.py`).

Simplifications:
* the formatting of a line (`printable`, the widths, pandas, excel) is left out; a line is its headings, cells, key and note;
* an exchange is what a table reads of it: direction, compartment (joined), name, canonical name (allocation.py:40-52), comment and
  value; amounts are rationals;
* a process is its inventory for each reference flow (or none), and its reference exchanges.
-/

namespace Tab

inductive Err
  | indexError
  | typeError
  deriving DecidableEq

/-- a row of an AllocationGrid: direction, whether it is of references, compartment and name, allocation.py:27-35 -/
structure Row where
  ref : Bool
  dir : String
  comp : String
  name : String
  deriving DecidableEq

/-- an exchange in a cell: its value, canonical name and comment -/
structure Item where
  key : String
  value : Option ℚ
  note : String := ""
  deriving DecidableEq

/-- an exchange of an inventory -/
structure Exch where
  isRef : Bool := false
  dir : String
  comp : String
  name : String
  key : String
  value : Option ℚ
  note : String := ""

/-- a reference exchange -/
structure Ref where
  flow : ℕ
  dir : String
  comp : String
  name : String
  key : String
  note : String := ""

/-- a process -/
structure Proc where
  label : String := ""
  inv : Option ℕ → List Exch
  refs : List Ref

/-- `_rows`, `_notes`, `_d` and `_columns`, base.py:190-205; of the columns their labels -/
structure Table where
  rows : List Row := []
  notes : Dict Row String := []
  d : Dict (Row × ℕ) (List Item) := []
  columns : List String := []

/-- `_add_rowitem`, base.py:210-216 -/
def addRowitem (col : ℕ) (item : Item) (row : Row) (t : Table) : Table :=
  { t with
    rows := PySet.add t.rows row
    notes := if t.notes.has row then t.notes else t.notes.set row item.note
    d := t.d.set (row, col) ((t.d.get? (row, col)).getD [] ++ [item]) }

/-- `_pull_row_from_item`, allocation.py:27-35 -/
def rowOf (x : Exch) : Row := ⟨false, x.dir, x.comp, x.name⟩

/-- `_add_alloc_column` over the exchanges of the inventory, allocation.py:70-82, with `_generate_items`, allocation.py:16-25: those
that are no references, and have a value -/
def addAlloc (col : ℕ) : List Exch → Table → Bool × Table
  | [], t => (false, t)
  | x :: l, t =>
    if !x.isRef && x.value.isSome then
      (true, (addAlloc col l (addRowitem col ⟨x.key, x.value, x.note⟩ (rowOf x) t)).2)
    else addAlloc col l t

/-- `references(flow=…)`, process_ref.py:70-79 -/
def references (p : Proc) : Option ℕ → List Ref
  | none => p.refs
  | some f => p.refs.filter fun r => r.flow = f

/-- `_add_alloc_refs`, allocation.py:84-92 -/
def addRefs (p : Proc) (f : Option ℕ) (t : Table) : Table :=
  let col := t.columns.length
  let t := (references p f).foldl (fun t r => addRowitem col ⟨r.key, some 1, r.note⟩ ⟨true, r.dir, r.comp, r.name⟩ t) t
  { t with columns := t.columns ++ [p.label] }

/-- one column, allocation.py:114-123 -/
def addOne (p : Proc) (f : Option ℕ) (t : Table) : Table :=
  match addAlloc t.columns.length (p.inv f) t with
  | (true, t) => addRefs p f t
  | (false, t) => t

/-- `add_column`, allocation.py:113-123 -/
def addColumn (unalloc : Bool) (t : Table) (p : Proc) : Table :=
  let t := if unalloc then addOne p none t else t
  p.refs.foldl (fun t r => addOne p (some r.flow) t) t

/-- `AllocationGrid(archive, *processes)`, allocation.py:125-134, base.py:207-208 -/
def grid (unalloc : Bool) (ps : List Proc) : Table := ps.foldl (addColumn unalloc) {}

/-- `_extract_data_from_item`, allocation.py:54-68 -/
def extract (items : List Item) : Dict String ℚ :=
  items.foldl (fun d i => match i.value with
    | none => d
    | some v => d.set i.key ((d.get? i.key).getD 0 + v)) []

/-- `x[-2]` of a text -/
def lastButOne (k : String) : Option Char := k.toList.reverse[1]?

/-- a line of the table -/
structure Line where
  near : List String
  cells : List (Option ℚ)
  key : String
  note : String
  deriving DecidableEq

/-- `_build_near_header`, allocation.py:98-111 -/
def nearHeader (row : Row) (prev : Option Row) : List String :=
  [match prev with
    | some p => if row.dir = p.dir then "\"\"" else row.dir
    | none => row.dir,
   if row.ref then "{*}" else ""]

/-- the keys of a row, in their order, base.py:145-162: sorted by the last letter but one -/
def sortKeys (o : PyOrd String) (datas : List (Dict String ℚ)) : Except Err (List String) :=
  let keys := o.f (PySet.ofList (datas.flatMap fun d => d.keys))
  if keys.all fun k => (lastButOne k).isSome then
    .ok (keys.insertionSort fun a b => (lastButOne a).getD ' ' ≤ (lastButOne b).getD ' ')
  else .error .indexError

/-- the lines of a row for its keys, base.py:163-178 -/
def lines (near : List String) (note : String) (datas : List (Dict String ℚ)) : List String → List Line
  | [] => []
  | k :: ks => ⟨near, datas.map fun d => d.get? k, k, note⟩ :: ks.map fun k => ⟨["", ""], datas.map fun d => d.get? k, k, ""⟩

/-- `_build_row` where sets are returned, base.py:135-183 -/
def buildRow (o : PyOrd String) (t : Table) (row : Row) (prev : Option Row) : Except Err (List Line) :=
  let datas := (List.range t.columns.length).map fun i => extract ((t.d.get? (row, i)).getD [])
  match sortKeys o datas with
  | .error e => .error e
  | .ok keys => .ok (lines (nearHeader row prev) ((t.notes.get? row).getD "") datas keys)

/-- the order of rows: references first, then by direction, compartment and name, allocation.py:94-96 -/
def rowKey (r : Row) : Bool ×ₗ String ×ₗ String ×ₗ String := toLex (!r.ref, toLex (r.dir, toLex (r.comp, r.name)))

/-- `_sorted_rows`, allocation.py:94-96 -/
def sortedRows (o : PyOrd Row) (t : Table) : List Row := (o.f t.rows).insertionSort fun a b => rowKey a ≤ rowKey b

/-- the rows one after the other; `ditto`: with the row before, as `text` does, base.py:240-250; without, as `dataframe`, base.py:290-297 -/
def buildAll (o : PyOrd String) (t : Table) (ditto : Bool) : Option Row → List Row → Except Err (List (List Line))
  | _, [] => .ok []
  | prev, r :: rs =>
    match buildRow o t r (if ditto then prev else none) with
    | .error e => .error e
    | .ok ls => match buildAll o t ditto (some r) rs with
      | .error e => .error e
      | .ok lss => .ok (ls :: lss)

/-- the lines of an AllocationGrid -/
def body (oR : PyOrd Row) (o : PyOrd String) (ditto : Bool) (t : Table) : Except Err (List (List Line)) :=
  buildAll o t ditto none (sortedRows oR t)

end Tab
