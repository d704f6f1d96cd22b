import Mathlib.Algebra.Order.Field.Rat
import Verif.Base.Py

/-!
Model of `lcatools/autorange.py` (all of it), and its use in `lcatools/lcia_results.py` (`set_autorange`, `autorange`, `unit`)
and in `antelope_reports/charts/waterfall.py` (`_adjust_autorange`).

Simplifications:
* numbers are rationals, not floating-point numbers. `_set_shift` works with the logarithm `r` of the range: the model works with
  the range itself, `r < 0` is `x < 1`, `r > 3` is `x > 1000`, and `r += 3`, `r -= 3` multiply and divide by 1000;
* the unbounded loop has a fuel; `Props/AutoRange.lean` proves that some fuel is enough for every nonzero range.
-/

namespace AR

abbrev Str := List Char

inductive Err
  | valueError | indexError | keyError | zeroDivision
  deriving DecidableEq, Repr

/-- `metric_offsets`, autorange.py:9-23 -/
def metricOffsets : Dict Char ℤ :=
  [('a', -6), ('f', -5), ('p', -4), ('n', -3), ('u', -2), ('m', -1), ('k', 1), ('M', 2), ('G', 3), ('T', 4), ('P', 5), ('E', 6),
   ('Z', 7)]

/-- `metric_prefixes`, autorange.py:26-27 -/
def metricPrefixes : Dict ℤ Str := (metricOffsets.map fun kv => (kv.2, [kv.1])) ++ [(0, [])]

/-- `disallow_prefix`, autorange.py:30 -/
def disallowPrefix : List Str := [['m', 'o', 'l'], ['M', 'T']]

/-- the loop of `_set_shift`, autorange.py:37-45; `none`: out of fuel -/
def shiftLoop : ℕ → ℚ → ℤ → Option ℤ
  | 0, _, _ => none
  | n + 1, x, s =>
    if x < 1 then shiftLoop n (x * 1000) (s + 1)
    else if x > 1000 then shiftLoop n (x / 1000) (s - 1)
    else some s

/-- `AutoRange(rng)`, autorange.py:34-55: the shift; `log10(0)` raises ValueError -/
def make (fuel : ℕ) (rng : ℚ) : Except Err (Option ℤ) :=
  if |rng| = 0 then .error .valueError else .ok (shiftLoop fuel |rng| 0)

/-- `scale`, autorange.py:57-59 -/
def scale (shift : ℤ) : ℚ := (10 : ℚ) ^ (3 * shift)

/-- `adjust`, autorange.py:61-62 -/
def adjust (shift : ℤ) (value : ℚ) : ℚ := value * scale shift

/-- the prefix that is read off a unit, and the remainder, autorange.py:71-78 -/
def readUnit (unit : Str) : Except Err (ℤ × Str) :=
  match unit with
  | [] => .error .indexError
  | c :: rest =>
    if disallowPrefix.any fun x => x.isPrefixOf unit then .ok (0, unit)
    else
      match metricOffsets.get? c with
      | none => .ok (0, unit)
      | some o => .ok (o, rest)

/-- `adj_unit`, autorange.py:64-82 -/
def adjUnit (shift : ℤ) (unit : Str) : Except Err Str :=
  match readUnit unit with
  | .error e => .error e
  | .ok (pre, adj) =>
    match metricPrefixes.get? (pre - shift) with
    | none => .error .keyError
    | some p => .ok (p ++ adj)

/-! ### results -/

/-- what an LciaResult uses of auto-ranging: its range, the unit of its quantity, and the AutoRange object,
lcia_results.py:422-435 -/
structure Res where
  range : ℚ
  unit : Str
  ar : Option ℤ := none
  deriving DecidableEq

/-- `set_autorange(value)`, lcia_results.py:444-459; `none`: out of fuel -/
def Res.setAutorange (fuel : ℕ) (r : Res) (value : Bool) : Except Err (Option Res) :=
  if value then
    match make fuel r.range with
    | .error e => .error e
    | .ok none => .ok none
    | .ok (some s) => .ok (some { r with ar := some s })
  else .ok (some { r with ar := none })

/-- `autorange`, lcia_results.py:464-469 -/
def Res.autorange (r : Res) : ℚ :=
  match r.ar with
  | none => 1
  | some s => scale s

/-- `unit()`, lcia_results.py:471-475 -/
def Res.unitOf (r : Res) : Except Err Str :=
  match r.ar with
  | none => .ok r.unit
  | some s => adjUnit s r.unit

/-! ### several results in one chart -/

/-- the index of the largest of the scales, waterfall.py:77 -/
def maxIdx (scales : List ℚ) : Option ℕ :=
  scales.findIdx? fun x => scales.all fun y => decide (y ≤ x)

/-- `_adjust_autorange`, waterfall.py:76-83: the data of the bars, and the index of the unit -/
def adjustAll (scales : List ℚ) (d : List (List ℚ)) : Except Err (List (List ℚ) × ℕ) :=
  match maxIdx scales with
  | none => .error .valueError
  | some m =>
    let mx := (scales[m]?).getD 0
    if scales.zipIdx.any fun xi => decide (xi.2 ≠ m ∧ xi.1 = 0) then .error .zeroDivision
    else .ok ((d.zip scales).zipIdx.map (fun p => if p.2 = m then p.1.1 else p.1.1.map (· * (mx / p.1.2))), m)

end AR
