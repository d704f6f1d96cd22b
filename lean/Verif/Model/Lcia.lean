import Verif.Base.Py
import Mathlib.Algebra.Order.Field.Rat

/-!
Model of LCIA results: `lcatools/lcia_results.py`, with `frag_flow_lcia` (`lcatools/fragment_flows.py`) and `do_lcia`
(`lcatools/basic_query.py`).

Simplifications:
* a result is a value: a scale, and components under keys. A component scales with the result that holds it (`own = none`), or
  with another result, whose scale is then stored (`own = some c`). Sharing of components between results and later changes of
  their scale are left out;
* all results are of one quantity and scenario; printing, auto-ranging (except as a factor) are left out;
* numbers are rationals; the comparison of totals with a tolerance at the end of `flatten` is left out (the totals are proved
  to be equal).
-/

namespace Lcia

inductive Dir | input | output
  deriving DecidableEq, Repr

/-- a characterization: values by location, and the natural direction if any; characterizations.py:14-118 -/
structure Factor where
  locs : Dict String (Option ℚ)
  nat : Option Dir := none
  deriving DecidableEq

/-- `factor[location]`, characterizations.py:80-91 -/
def Factor.raw (f : Factor) (loc : String) : Option ℚ :=
  match f.locs.get? loc with
  | some v => v
  | none =>
    if f.locs = [] then none
    else
      match f.locs.get? "GLO" with
      | some v => v
      | none => some 0

/-- `factor[location] or 0.0`, lcia_results.py:115 -/
def Factor.at (f : Factor) (loc : String) : ℚ := (f.raw loc).getD 0

/-- DetailedLciaResult, lcia_results.py:53-66 -/
structure Detail (F : Type) where
  flow : F
  value : Option ℚ           -- exchange.value
  dir : Dir                  -- exchange.direction
  fac : Factor
  loc : String               -- location, or GLO
  own : Option ℚ := none
  deriving DecidableEq

/-- `DetailedLciaResult(lc, exchange, factor, location)`, lcia_results.py:57-66 -/
def Detail.make {F : Type} (flow : F) (value : Option ℚ) (dir : Dir) (fac : Factor) (location : String) : Detail F :=
  { flow := flow, value := value, dir := dir, fac := fac, loc := if fac.locs.has location then location else "GLO" }

/-- `_dirn_adjust`, lcia_results.py:71-89 -/
def Detail.adjust {F : Type} (d : Detail F) : ℚ :=
  match d.fac.nat with
  | none => 1
  | some n => if d.dir = n then 1 else -1

/-- `value`, lcia_results.py:105-109; `sc` is the scale of the result -/
def Detail.val {F : Type} (sc : ℚ) (d : Detail F) : ℚ := d.value.getD 0 * d.own.getD sc

/-- `result`, lcia_results.py:111-115 -/
def Detail.result {F : Type} (sc : ℚ) (d : Detail F) : ℚ :=
  if d.fac.locs = [] then 0 else d.val sc * d.adjust * d.fac.at d.loc

/-- a component: AggregateLciaScore (lcia_results.py:307-332), SummaryLciaResult with a number or with a result
(lcia_results.py:140-161). `oid` identifies the object of the inner result. -/
inductive Comp (K En F : Type)
  | agg (e : En) (ds : List (Detail F))
  | static (own : Option ℚ) (e : En) (nw u : ℚ)
  | inner (own : Option ℚ) (e : En) (nw : ℚ) (oid : ℕ) (scale : ℚ) (priv : Bool) (scores : List (K × Comp K En F))

/-- LciaResult, lcia_results.py:422-435 -/
structure Result (K En F : Type) where
  scale : ℚ := 1
  priv : Bool := false
  scores : Dict K (Comp K En F) := []
  failed : List (Comp K En F) := []

inductive Err
  | inconsistentSummaries | inconsistentScores | typeError | attributeError | keyError | zeroDivision | keyFunction
  | duplicateResult
  deriving DecidableEq, Repr

variable {K En F : Type} [DecidableEq K] [DecidableEq En]

def Comp.entity : Comp K En F → En
  | .agg e _ => e
  | .static _ e _ _ => e
  | .inner _ e _ _ _ _ _ => e

mutual
/-- `cumulative_result`, lcia_results.py:178-191, 321-325 -/
def Comp.cum (sc : ℚ) : Comp K En F → ℚ
  | .agg _ ds => (ds.map (Detail.result sc)).sum
  | .static own _ nw u => nw * own.getD sc * u
  | .inner own _ nw _ s _ l => nw * own.getD sc * totalL s l
/-- sum over components -/
def totalL (sc : ℚ) : List (K × Comp K En F) → ℚ
  | [] => 0
  | p :: l => totalP sc p + totalL sc l
def totalP (sc : ℚ) : K × Comp K En F → ℚ
  | (_, c) => c.cum sc
end

/-- `total`, lcia_results.py:606-607 -/
def Result.total (r : Result K En F) : ℚ := totalL r.scale r.scores

mutual
/-- `is_null`, lcia_results.py:170-176, 327-332 -/
def Comp.isNull (sc : ℚ) : Comp K En F → Bool
  | .agg _ ds => ds.all fun d => decide (d.result sc = 0)
  | .static _ _ _ u => decide (u = 0)
  | .inner _ _ _ _ s _ l => nullL s l
def nullL (sc : ℚ) : List (K × Comp K En F) → Bool
  | [] => true
  | p :: l => nullP sc p && nullL sc l
def nullP (sc : ℚ) : K × Comp K En F → Bool
  | (_, c) => c.isNull sc
end

/-- `is_null`, lcia_results.py:437-442 -/
def Result.isNull (r : Result K En F) : Bool := nullL r.scale r.scores

/-! ### summaries -/

/-- the score part of a summary: a number, or a result -/
inductive Score (K En F : Type)
  | num (u : ℚ)
  | res (oid : ℕ) (scale : ℚ) (priv : Bool) (scores : List (K × Comp K En F))

/-- `unit_score`, lcia_results.py:182-187 -/
def Score.unit : Score K En F → ℚ
  | .num u => u
  | .res _ s _ l => totalL s l

/-- `SummaryLciaResult(lc, entity, node_weight, unit_score)` -/
def Comp.summary (own : Option ℚ) (e : En) (nw : ℚ) : Score K En F → Comp K En F
  | .num u => .static own e nw u
  | .res o s p l => .inner own e nw o s p l

/-- the entities of the components of an inner result, lcia_results.py:193-198, 654-657 -/
def Score.entities : Score K En F → List En
  | .num _ => []
  | .res _ _ priv l => if priv then [] else l.map fun kc => kc.2.entity

/-- `other.node_weight / self._lc.scale` added, lcia_results.py:268 -/
def addWeights (sc nw1 nw2 : ℚ) : Except Err ℚ := if sc = 0 then .error .zeroDivision else .ok (nw1 + nw2 * sc / sc)

/-- `SummaryLciaResult.__add__`, lcia_results.py:241-304, for two summaries of one result of scale `sc` -/
def sumAdd (sc : ℚ) (e1 : En) (nw1 : ℚ) (s1 : Score K En F) (e2 : En) (nw2 : ℚ) (s2 : Score K En F) :
    Except Err (Comp K En F) :=
  match s1, s2 with
  | .num u1, .num u2 =>
    if nw1 * sc = nw2 * sc then .ok (.static none e1 nw1 (u1 + u2))
    else if u1 = u2 then (addWeights sc nw1 nw2).map fun nw => .static none e1 nw u1
    else .error .inconsistentScores
  | .num u1, .res o s p l =>
    if u1 = (Score.res o s p l).unit then (addWeights sc nw1 nw2).map fun nw => .inner none e1 nw o s p l
    else .error .inconsistentScores
  | .res o s p l, .num u2 =>
    if (Score.res o s p l).unit = u2 then (addWeights sc nw1 nw2).map fun nw => .inner none e1 nw o s p l
    else .error .inconsistentSummaries
  | .res o s p l, .res o' s' p' l' =>
    if (Score.res o s p l).unit = (Score.res o' s' p' l').unit then
      if o = o' then
        if e1 = e2 then (addWeights sc nw1 nw2).map fun nw => .inner none e1 nw o s p l else .error .inconsistentSummaries
      else if (Score.res o s p l).entities ⊆ (Score.res o' s' p' l').entities ∧
          (Score.res o' s' p' l').entities ⊆ (Score.res o s p l).entities then
        (addWeights sc nw1 nw2).map fun nw => .inner none e1 nw o s p l
      else .error .inconsistentSummaries
    else .error .inconsistentSummaries

/-- `add_summary`, lcia_results.py:627-647 -/
def Result.addSummary (r : Result K En F) (k : K) (e : En) (nw : ℚ) (u : Score K En F) : Except Err (Result K En F) :=
  let put (x : Except Err (Comp K En F)) : Except Err (Result K En F) :=
    match x with
    | .ok c => .ok { r with scores := r.scores.set k c }
    | .error .inconsistentSummaries => .ok { r with failed := r.failed ++ [.summary none e nw u] }
    | .error x => .error x
  match r.scores.get? k with
  | none => .ok { r with scores := r.scores.set k (.summary none e nw u) }
  | some (.agg _ _) => .error .typeError
  | some (.static own e1 nw1 u1) =>
    if own.isSome then put (.error .inconsistentSummaries) else put (sumAdd r.scale e1 nw1 (.num u1) e nw u)
  | some (.inner own e1 nw1 o s p l) =>
    if own.isSome then put (.error .inconsistentSummaries) else put (sumAdd r.scale e1 nw1 (.res o s p l) e nw u)

/-- `add_component`, lcia_results.py:612-616 -/
def Result.addComponent (r : Result K En F) (k : K) (e : En) : Result K En F :=
  if r.scores.has k then r else { r with scores := r.scores.set k (.agg e []) }

/-- `add_score`, lcia_results.py:618-625, of one quantity; `e` is the entity made from the key if it is new -/
def Result.addScore (r : Result K En F) (k : K) (e : En) (d : Detail F) : Except Err (Result K En F) :=
  let r := r.addComponent k e
  match r.scores.get? k with
  | some (.agg e ds) => .ok { r with scores := r.scores.set k (.agg e (ds ++ [d])) }
  | _ => .error .attributeError

/-! ### LCIA of an inventory -/

/-- an exchange with the factor of its flow in the quantity, if it has one -/
structure Exch (F : Type) where
  flow : F
  value : Option ℚ
  dir : Dir
  fac : Option Factor
  loc : String               -- the SpatialScope of its process, or GLO
  deriving DecidableEq

/-- `x.flow.cf(quantity)`, flows.py:236-249 -/
def Exch.cf (x : Exch F) : Option ℚ :=
  match x.fac with
  | none => some 0
  | some f => f.raw "GLO"

/-- the loop of `do_lcia`, basic_query.py:46-55: exchanges whose flow has no global factor, or a global factor 0, are skipped.
`key` and `ent`: the external reference of a flow, and the flow as an entity -/
def doLcia (key : F → K) (ent : F → En) : List (Exch F) → Result K En F → Except Err (Result K En F)
  | [], r => .ok r
  | x :: xs, r =>
    if x.cf = some 0 then doLcia key ent xs r
    else
      match (r.addComponent (key x.flow) (ent x.flow)).addScore (key x.flow) (ent x.flow)
          (.make x.flow x.value x.dir (x.fac.getD { locs := [] }) x.loc) with
      | .error e => .error e
      | .ok r => doLcia key ent xs r

/-! ### aggregate, contributions -/

/-- the loop of `aggregate`, lcia_results.py:535-542: a summary is added under `other` if the key function raises, which is
then raised -/
def aggLoop (key : En → Option K) (ke : K → En) (sc : ℚ) : List (K × Comp K En F) → Result K En F → Except Err (Result K En F)
  | [], r => .ok r
  | (_, c) :: l, r =>
    match key c.entity with
    | none => .error .keyFunction
    | some k =>
      match r.addSummary k (ke k) 1 (.num (c.cum sc)) with
      | .error e => .error e
      | .ok r => aggLoop key ke sc l r

/-- `aggregate`, lcia_results.py:516-543; `none` is the key `'*'`, then `star` is the entity_id -/
def Result.aggregate (r : Result K En F) (key : Option (En → Option K)) (ke : K → En) (star : K) : Except Err (Result K En F) :=
  let new : Result K En F := { scale := r.scale, priv := r.priv }
  match key with
  | none => new.addSummary star (ke star) 1 (.num r.total)
  | some f => aggLoop f ke r.scale r.scores new

/-- the answer to a query, lcia_results.py:773-781 -/
def Result.contribOf (r : Result K En F) (ar : ℚ) : Option K → ℚ
  | none => 0
  | some k =>
    match r.scores.get? k with
    | some c => c.cum r.scale * ar
    | none => 0

/-- `contrib_new`, lcia_results.py:750-789: a query is a key, or `none` for `'*'`; `ar` is the factor of auto-ranging -/
def Result.contribNew (r : Result K En F) (ar : ℚ) (qs : List (Option K)) : List ℚ × ℚ :=
  let results := qs.map (r.contribOf ar)
  let balance := r.total * ar - results.sum
  match (List.range qs.length).reverse.find? fun i => decide (qs[i]? = some none) with
  | some i => (results.set i balance, 0)
  | none => (results, balance)

/-! ### flatten -/

/-- the details of an aggregate score, as new exchanges scaled by `a`, lcia_results.py:358-365, 563-567: those with a nonzero
result -/
def scaledDetails (sc a : ℚ) (ds : List (Detail F)) : List (Detail F) :=
  (ds.filter fun d => decide (d.result sc ≠ 0)).map fun d => .make d.flow (some (d.val sc * a)) d.dir d.fac d.loc

/-- `add_component` and `add_score` for details under the key `k` -/
def addDetails (fk : F → K) (fe : F → En) (key : F → K) : List (Detail F) → Result K En F → Except Err (Result K En F)
  | [], r => .ok r
  | d :: ds, r =>
    match (r.addComponent (fk d.flow) (fe d.flow)).addScore (key d.flow) (fe d.flow) d with
    | .error e => .error e
    | .ok r => addDetails fk fe key ds r

/-- one component of a flattened result, in the second loop of `flatten`, lcia_results.py:571-587 -/
def foldFlat (fk : F → K) (fe : F → En) (a sc : ℚ) : List (K × Comp K En F) → Result K En F → Except Err (Result K En F)
  | [], r => .ok r
  | (k, c) :: l, r =>
    match (match c with
      | .agg _ ds => addDetails fk fe (fun _ => k) (scaledDetails sc a ds) r
      | .static own e nw u => r.addSummary k e (nw * own.getD sc * a) (.num u)
      | .inner .. => .error .inconsistentSummaries) with
    | .error e => .error e
    | .ok r => foldFlat fk fe a sc l r

/-- the second loop of `flatten`, lcia_results.py:570-587; the keys of a private result are `[None]`, which is not found -/
def finish (fk : F → K) (fe : F → En) (a : ℚ) : List (Result K En F) → Result K En F → Except Err (Result K En F)
  | [], flat => .ok flat
  | r :: rs, flat =>
    if r.priv then .error .keyError
    else
      match foldFlat fk fe a r.scale r.scores flat with
      | .error e => .error e
      | .ok flat => finish fk fe a rs flat

mutual
/-- the body of the first loop of `flatten`, lcia_results.py:558-568 -/
def Comp.flat (fk : F → K) (fe : F → En) (sc a : ℚ) (k : K) :
    Comp K En F → Result K En F → List (Result K En F) → Except Err (Result K En F × List (Result K En F))
  | .agg _ ds, r, rs =>
    match addDetails fk fe fk (scaledDetails sc a ds) r with
    | .error e => .error e
    | .ok r => .ok (r, rs)
  | .static own e nw u, r, rs =>
    match r.addSummary k e (nw * own.getD sc * a) (.num u) with
    | .error e => .error e
    | .ok r => .ok (r, rs)
  | .inner own _ nw _ s p l, r, rs =>
    match flatL fk fe s (nw * own.getD sc) l { priv := p } [] with
    | .error e => .error e
    | .ok (f, fs) =>
      match finish fk fe (nw * own.getD sc) fs f with
      | .error e => .error e
      | .ok f => .ok (r, rs ++ [f])
/-- the first loop of `flatten`, lcia_results.py:557-568 -/
def flatL (fk : F → K) (fe : F → En) (sc a : ℚ) : List (K × Comp K En F) → Result K En F → List (Result K En F) →
    Except Err (Result K En F × List (Result K En F))
  | [], r, rs => .ok (r, rs)
  | p :: l, r, rs =>
    match flatP fk fe sc a p r rs with
    | .error e => .error e
    | .ok (r, rs) => flatL fk fe sc a l r rs
def flatP (fk : F → K) (fe : F → En) (sc a : ℚ) : K × Comp K En F → Result K En F → List (Result K En F) →
    Except Err (Result K En F × List (Result K En F))
  | (k, c), r, rs => c.flat fk fe sc a k r rs
end

/-- `flatten`, lcia_results.py:548-596 -/
def Result.flatten (fk : F → K) (fe : F → En) (r : Result K En F) (a : ℚ) : Except Err (Result K En F) :=
  match flatL fk fe r.scale a r.scores { priv := r.priv } [] with
  | .error e => .error e
  | .ok (f, fs) => finish fk fe a fs f

/-! ### adding results -/

/-- a component of a result of scale `sc`, seen from another result whose parent it becomes (`update_parent`): the details of
an aggregate score keep their own -/
def Comp.adopt (sc : ℚ) : Comp K En F → Comp K En F
  | .agg e ds => .agg e (ds.map fun d => { d with own := some (d.own.getD sc) })
  | .static _ e nw u => .static none e nw u
  | .inner _ e nw o s p l => .inner none e nw o s p l

/-- a component of a result of scale `sc`, put into another result without changing its parent -/
def Comp.lend (sc : ℚ) : Comp K En F → Comp K En F
  | .agg e ds => .agg e (ds.map fun d => { d with own := some (d.own.getD sc) })
  | .static own e nw u => .static (some (own.getD sc)) e nw u
  | .inner own e nw o s p l => .inner (some (own.getD sc)) e nw o s p l

/-- the second loop of `__add__`, lcia_results.py:713-720: adding two components of one entity raises, since they belong to
different results, or are aggregate scores, which cannot be added. `under` is `'_%s' % k` -/
def addLoop (under : K → K) (sc : ℚ) : List (K × Comp K En F) → Result K En F → Except Err (Result K En F)
  | [], s => .ok s
  | (k, v) :: l, s =>
    match s.scores.get? k with
    | none => addLoop under sc l { s with scores := s.scores.set k (v.lend sc) }
    | some c =>
      if v.entity = c.entity then
        match c, v with
        | .agg .., _ => .error .typeError
        | _, .agg .. => .error .typeError
        | _, _ => .error .inconsistentSummaries
      else addLoop under sc l { s with scores := s.scores.set (under k) (v.lend sc) }

/-- `__add__`, lcia_results.py:704-721, of two different results -/
def Result.add (under : K → K) (r1 r2 : Result K En F) : Except Err (Result K En F) :=
  addLoop under r2.scale r2.scores { scores := r1.scores.map fun kc => (kc.1, kc.2.adopt r1.scale) }

/-! ### LCIA of fragment flows -/

/-- a fragment flow as `frag_flow_lcia` uses it: the fragment, the flow as an entity, its node weight, whether the direction
of its termination collides with its own, its unit score (an object) -/
structure FFlow (K En F : Type) where
  frag : K
  ent : En
  isNull : Bool
  nw : ℚ
  collide : Bool
  oid : ℕ
  score : Result K En F

/-- `frag_flow_lcia`, fragment_flows.py:298-333, given the unit scores -/
def fragFlowLcia : List (FFlow K En F) → Result K En F → Except Err (Result K En F)
  | [], r => .ok r
  | f :: fs, r =>
    if f.isNull ∨ f.nw = 0 ∨ f.score.isNull then fragFlowLcia fs r
    else
      match r.addSummary f.frag f.ent (if f.collide then -f.nw else f.nw) (.res f.oid f.score.scale f.score.priv f.score.scores) with
      | .error e => .error e
      | .ok r => fragFlowLcia fs r

/-! ### weighting -/

/-- the loop over the components of one result in `apply_weighting`, lcia_results.py:883-891: entities and weighted scores by
key -/
def weighOne (w sc : ℚ) : List (K × Comp K En F) → Dict K (En × ℚ) → Except Err (Dict K (En × ℚ))
  | [], t => .ok t
  | (k, c) :: l, t =>
    match t.get? k with
    | none => weighOne w sc l (t.set k (c.entity, w * c.cum sc))
    | some (e, x) => if c.entity = e then weighOne w sc l (t.set k (e, x + w * c.cum sc)) else .error .duplicateResult

/-- the loop over the weights, lcia_results.py:878-891; the results are already looked up; the key `None` of a private result
is not found -/
def weighAll : List (ℚ × Result K En F) → Dict K (En × ℚ) → Except Err (Dict K (En × ℚ))
  | [], t => .ok t
  | (w, r) :: l, t =>
    if r.priv then .error .keyError
    else
      match weighOne w r.scale r.scores t with
      | .error e => .error e
      | .ok t => weighAll l t

/-- the last loop of `apply_weighting`, lcia_results.py:893-895 -/
def weighAdd : List (K × En × ℚ) → Result K En F → Except Err (Result K En F)
  | [], r => .ok r
  | (k, e, x) :: l, r =>
    match (r.addComponent k e).addSummary k e x (.num 1) with
    | .error e => .error e
    | .ok r => weighAdd l r

/-- `apply_weighting`, lcia_results.py:857-897 -/
def applyWeighting (ws : List (ℚ × Result K En F)) : Except Err (Result K En F) :=
  match weighAll ws [] with
  | .error e => .error e
  | .ok t => weighAdd t {}

end Lcia
