import Verif.Base.Dict
import Mathlib.Data.Rat.Defs
import Mathlib.Algebra.Order.Ring.Rat
import Mathlib.Algebra.Order.Group.Abs

/-!
Model of the charts: `LciaResult.contrib_query` (`lcatools/lcia_results.py`), `WaterfallChart`
(`antelope_reports/charts/waterfall.py`), `PosNegChart` (`pos_neg.py`), `_one_bar` and `stack_bars` (`combi.py`),
`spread_scenario_compare` (`vertical.py`): the numbers they give to the plotting library.

Simplifications:
* a result is the table of its components: key, entity and cumulative result (C33-C35 are about these); numbers are
  rationals; keys and entities are values of one type, None and '*' are none of them;
* the scale of an auto-ranged result is a function of its range, which fails at 0 (`log10(0)`, C42); units are a
  function of that scale;
* texts, fonts, ticks and figure sizes are left out; a colour is known by how often it was faded.
-/

namespace Cht

/-- a component's entity and its cumulative result, by key; `_private` -/
structure Res (V : Type) where
  comps : Dict V (V × ℚ)
  priv : Bool := false

/-- what can be asked for -/
inductive Query (V : Type) | star | none | val (v : V)
  deriving DecidableEq

inductive Err | zeroDivision | valueError | indexError | keyError | stopIteration | nameError | typeError
  deriving DecidableEq, Repr

variable {V : Type} [DecidableEq V]

/-- `total`, lcia_results.py:606-607 -/
def Res.total (r : Res V) : ℚ := (r.comps.map fun kv => kv.2.2).sum

/-- `range`, lcia_results.py:609-610 -/
def Res.range (r : Res V) : ℚ := (r.comps.map fun kv => |kv.2.2|).sum

/-- `keys`, lcia_results.py:649-652 -/
def Res.keys (r : Res V) : List (Query V) := if r.priv then [.none] else r.comps.keys.map .val

/-- `component_entities`, lcia_results.py:659-662 -/
def Res.componentEntities (r : Res V) : List (Query V) :=
  if r.priv then [.none] else r.comps.map fun kv => .val kv.2.1

/-- `_LciaScores[query].cumulative_result`, or 0 if there is none, lcia_results.py:743-746 -/
def Res.score (r : Res V) : Query V → ℚ
  | .val v => match r.comps.get? v with
    | some c => c.2
    | none => 0
  | _ => 0

/-- `math.isclose(a, b, rel_tol=1e-6)` -/
def isclose (a b : ℚ) : Bool := decide (|a - b| ≤ (1 / 1000000) * max |a| |b|)

/-- the argument of `contrib_query`: '*', None, or a list -/
inductive Stages (V : Type) | star | all | list (l : List (Query V))

/-- `contrib_query`, lcia_results.py:727-748: the message about a difference divides by the total -/
def Res.contribQuery (r : Res V) (stages : Stages V) : Except Err (List ℚ) :=
  let go (l : List (Query V)) : Except Err (List ℚ) :=
    let data := l.map r.score
    if !isclose data.sum r.total && decide (r.total = 0) then .error .zeroDivision else .ok data
  match stages with
  | .star => .ok [r.total]
  | .all => go r.componentEntities
  | .list l => go l

/-- `has_nonzero`, charts/base.py:100-102 -/
def hasNonzero (r : Res V) : Except Err Bool :=
  match r.contribQuery .all with
  | .error e => .error e
  | .ok l => .ok (decide ((l.map fun x => |x|).sum ≠ 0))

/-- `has_pos_neg`, charts/base.py:105-119 -/
def hasPosNeg (r : Res V) : Except Err Bool :=
  match r.contribQuery .all with
  | .error e => .error e
  | .ok l => .ok (l.any (fun x => decide (x > 0)) && l.any fun x => decide (x < 0))

/-! ### waterfall -/

/-- the last place of '*' in the queries, lcia_results.py:771-776 -/
def lastStar : List (Query V) → Option ℕ
  | [] => none
  | q :: l => match lastStar l with
    | some i => some (i + 1)
    | none => if q = .star then some 0 else none

/-- `contrib_new`, lcia_results.py:750-789, of a result with scale `a` -/
def Res.contribNew (r : Res V) (a : ℚ) (qs : List (Query V)) : List ℚ × ℚ :=
  let results := qs.map fun q => r.score q * a
  let balance := r.total * a - results.sum
  match lastStar qs with
  | some i => (results.set i balance, 0)
  | none => (results, balance)

/-- `set_autorange`, lcia_results.py:444-459, and `autorange`, lcia_results.py:464-469 -/
def scaleOf (ar : ℚ → Option ℚ) (autorange : Bool) (r : Res V) : Except Err ℚ :=
  if autorange then
    match ar r.range with
    | some a => .ok a
    | none => .error .valueError
  else .ok 1

/-- the loop of `_data_range` over the sums of a row, waterfall.py:47-57 -/
def rangeLoop : List ℚ → ℚ → ℚ × ℚ → ℚ × ℚ
  | [], _, m => m
  | d :: l, cum, (mn, mx) =>
    let k := cum + d
    rangeLoop l k (if k < mn then k else mn, if k > mx then k else mx)

/-- `_data_range`, waterfall.py:47-57 -/
def dataRange (rows : List (List ℚ)) : ℚ × ℚ := rows.foldl (fun m row => rangeLoop row 0 m) (0, 0)

/-- a row of the chart: data, whether the remainder was added, and the scale, waterfall.py:148-160 -/
def row (ar : ℚ → Option ℚ) (autorange : Bool) (stages : List (Query V)) (r : Res V) :
    Except Err (List ℚ × Bool × ℚ) :=
  match scaleOf ar autorange r with
  | .error e => .error e
  | .ok a =>
    let (data, net) := r.contribNew a stages
    let span := dataRange [data]
    if |net| * 100000000 > span.2 - span.1 then .ok (data ++ [net], true, a) else .ok (data, false, a)

/-- a bar: where it starts, how long it is, how often its colour was faded -/
structure Bar where
  left : ℚ
  width : ℚ
  fade : ℕ
  deriving DecidableEq

/-- the bars of a row, `_waterfall_horiz`, waterfall.py:303-440: the styles are a list of dicts that all rows share -/
def drawRow : List ℚ → List ℕ → ℚ → Except Err (List Bar × List ℕ)
  | [], st, _ => .ok ([], st)
  | _ :: _, [], _ => .error .indexError
  | d :: l, n :: st, cum =>
    let n := if d < 0 then n + 1 else n
    match drawRow l st (cum + d) with
    | .error e => .error e
    | .ok (bars, st) => .ok (⟨cum, d, n⟩ :: bars, n :: st)

/-- all rows, waterfall.py:267-273 -/
def drawRows : List (List ℚ) → List ℕ → Except Err (List (List Bar))
  | [], _ => .ok []
  | d :: l, st =>
    match drawRow d st 0 with
    | .error e => .error e
    | .ok (bars, st) => match drawRows l st with
      | .error e => .error e
      | .ok rest => .ok (bars :: rest)

/-- what is drawn: the bars, the number of labels, the scale whose unit is shown, and `_span` -/
structure Chart where
  rows : List (List Bar)
  labels : ℕ
  unit : ℚ
  span : ℚ × ℚ

/-- the largest scale, `_adjust_autorange`, waterfall.py:76-84 -/
def maxScale : List ℚ → ℚ
  | [] => 0
  | [a] => a
  | a :: l => max a (maxScale l)

/-- `WaterfallChart.__init__`, waterfall.py:86-181, and `_adjust_autorange`, waterfall.py:76-84; the stages are given (without them the keys of
all results are taken in some order) -/
def waterfall (ar : ℚ → Option ℚ) (autorange includeNet : Bool) (stages : List (Query V)) (results : List (Res V)) :
    Except Err Chart :=
  if results = [] then .error .indexError
  else match results.mapM (row ar autorange stages) with
    | .error e => .error e
    | .ok rows =>
      let data := rows.map fun x => x.1
      let scales := rows.map fun x => x.2.2
      let nstyles := stages.length + (if rows.any (fun x => x.2.1) && includeNet then 1 else 0)
      let span := dataRange data
      let same := scales.all fun a => decide (some a = scales.head?)
      let data' := if same then data
        else rows.map fun x => if x.2.2 = maxScale scales then x.1 else x.1.map fun k => k * (maxScale scales / x.2.2)
      let unit := if same then scales.getLastD 0 else maxScale scales
      match drawRows data' (List.replicate nstyles 0) with
      | .error e => .error e
      | .ok bars => .ok ⟨bars, nstyles, unit, span⟩

/-! ### positive and negative -/

/-- sums and positions of the bars of a result, `PosNegChart.__init__`, pos_neg.py:66-91 -/
structure PosNeg where
  pos : ℚ
  neg : ℚ
  idx : ℚ
  deriving DecidableEq

/-- the loop over the components, pos_neg.py:69-76 -/
def posNegSum (r : Res V) : ℚ × ℚ :=
  r.comps.foldl (fun m kv => if kv.2.2 > 0 then (m.1 + kv.2.2, m.2) else (m.1, m.2 + kv.2.2)) (0, 0)

/-- the loop over the results, pos_neg.py:66-87: a private result has the key None, which is not found -/
def posNeg (bw : ℚ) : List (Res V) → ℚ → Except Err (List PosNeg)
  | [], _ => .ok []
  | r :: l, ptr =>
    if r.priv then .error .keyError
    else
      let m := posNegSum r
      let ptr' := (if m.2 ≠ 0 then ptr + 2 * bw else ptr) + (1 - 2 * bw)
      match posNeg bw l ptr' with
      | .error e => .error e
      | .ok rest => .ok (⟨m.1, m.2, ptr⟩ :: rest)

/-- the bars of a result, `_pos_neg_vert`, pos_neg.py:140-168: centre, width, bottom, height; then, if there are
negative parts, the place of the total and the total -/
structure PnDrawn where
  pos : ℚ × ℚ × ℚ × ℚ
  neg : Option (ℚ × ℚ × ℚ × ℚ)
  tot : Option (ℚ × ℚ)

def drawPosNeg (bw arScale : ℚ) (p : PosNeg) : PnDrawn :=
  let pos := p.pos * arScale
  let neg := p.neg * arScale
  if neg ≠ 0 then
    { pos := (p.idx, 85 / 100 * bw, 0, pos)
      neg := some (p.idx + bw, 62 / 100 * bw, pos, neg)
      tot := some (p.idx + bw + bw, pos + neg) }
  else { pos := (p.idx, 85 / 100 * bw, 0, pos), neg := none, tot := none }

/-! ### stacked bars -/

/-- a segment: its datum's number, its height on the page, where it starts, how wide it is, its colour's number -/
structure Seg where
  num : ℕ
  y : ℚ
  left : ℚ
  width : ℚ
  deriving DecidableEq

/-- what `_one_bar` draws: segments, the numbers at the ends, the net marker (position and height on the page), and the
bottom -/
structure OneBar where
  segs : List Seg
  right : Option ℚ
  left : Option ℚ
  net : Option (ℚ × ℚ)
  bottom : ℚ

/-- whether `next(colors)` fails after `i` colours, combi.py:46, 77 -/
def exhausted (colors : Option ℕ) (i : ℕ) : Bool :=
  match colors with
  | some n => decide (n ≤ i)
  | none => false

/-- the loop of `_one_bar`, combi.py:75-96: `colors`: how many colours there are, none for a generated range -/
def segLoop (posY negY : ℚ) (colors : Option ℕ) : ℕ → List ℚ → ℚ → ℚ → Except Err (List Seg × ℚ × ℚ)
  | _, [], left, right => .ok ([], left, right)
  | i, d :: l, left, right =>
    if exhausted colors i then .error .stopIteration
    else if d > 0 then
      match segLoop posY negY colors (i + 1) l left (right + d) with
      | .error e => .error e
      | .ok (s, m) => .ok (⟨i, posY, right, d⟩ :: s, m)
    else if d < 0 then
      match segLoop posY negY colors (i + 1) l (left + d) right with
      | .error e => .error e
      | .ok (s, m) => .ok (⟨i, negY, left + d, |d|⟩ :: s, m)
    else segLoop posY negY colors (i + 1) l left right

/-- `_one_bar`, combi.py:16-115 -/
def oneBar (posY negY : ℚ) (data : List ℚ) (colors : Option ℕ) : Except Err OneBar :=
  let poss := (data.filter fun k => k > 0).sum
  let negs := (data.filter fun k => k < 0).sum
  let total := poss + negs
  if poss = 0 ∧ negs = 0 then .ok { segs := [], right := none, left := none, net := none, bottom := posY }
  else
    let totalY := if poss ≠ 0 ∧ negs ≠ 0 then some (if total > 0 then negY else posY) else none
    let negY := if poss ≠ 0 ∧ negs ≠ 0 then negY else posY
    match segLoop posY negY colors 0 data 0 0 with
    | .error e => .error e
    | .ok (s, left, right) => .ok
        { segs := s
          right := if poss ≠ 0 then some right else none
          left := if negs ≠ 0 then some left else none
          net := totalY.map fun y => (total, y)
          bottom := negY - 55 / 100 }

/-- the loop of `stack_bars` over the series, combi.py:168-173 -/
def stackLoop (colors : Option ℕ) : List (List ℚ) → ℚ → Except Err (List OneBar)
  | [], _ => .ok []
  | d :: l, posY =>
    match oneBar posY (posY - 1) d colors with
    | .error e => .error e
    | .ok b => match stackLoop colors l (b.bottom - 16 / 10) with
      | .error e => .error e
      | .ok rest => .ok (b :: rest)

/-- the range of the axis, combi.py:146-157, 194 -/
def stackLimits (series : List (List ℚ)) : ℚ × ℚ :=
  let m := series.foldl (fun (m : ℚ × ℚ) data =>
    let poss := (data.filter fun k => k > 0).sum
    let negs := (data.filter fun k => k < 0).sum
    (if negs < m.1 then negs else m.1, if poss > m.2 then poss else m.2)) (0, 0)
  (m.1 - 2 / 100 * (m.2 - m.1), m.2 + 8 / 100 * (m.2 - m.1))

/-- `stack_bars`, combi.py:133-195 -/
def stackBars (series : List (List ℚ)) (colors : Option ℕ) : Except Err (List OneBar) := stackLoop colors series (55 / 100)

/-! ### scenarios side by side -/

/-- left edges of the bars of scenario `i` of `m` at `n` stages, `spread_scenario_compare` and `spread_bars`,
vertical.py:156, 175, 199, 21; `bw`: the width of a group -/
def spreadLeft (m : ℕ) (bw : ℚ) (i n : ℕ) : List ℚ :=
  let w := bw / m
  let x0 := -((m : ℚ) + 1) * w / 2 + ((i : ℚ) + 1) * w
  (List.range n).map fun (k : ℕ) => (k : ℚ) - w / 2 + x0

end Cht
