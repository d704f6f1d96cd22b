import Mathlib.Algebra.Order.Field.Rat
import Verif.Base.Py
import Verif.Model.Flow

/-!
Model of the quantity database, `lcatools/qdb/qdb.py`: the store of characterization factors, the search by compartment, the
conversion between quantities, and LCIA.

Simplifications:
* quantities are their uuids; the position of a quantity in the synonym list (`_get_q_ind` of a known quantity) is a function,
  two quantities may have the same position. Adding unknown quantities is left out;
* flowables are their positions in the synonym list. Which positions the terms of a flow lead to, in which order, and whether
  one of the terms looks biogenic, is part of the flow (or an argument, when a factor is stored). The synonym lists have
  models of their own (`Syn`, `Flw`);
* compartments are numbers; `anc` is the chain of parents of a compartment, the nearest first, `subs` its subcompartments.
  The search for the compartment of a flow has a model of its own (`Cmp`); here its result is part of the flow, `none` if
  MissingCompartment is raised;
* a set is a list without two equal members; the order of iteration is a parameter;
* flows are objects: numbers, with a heap. A characterization is made by the flow that holds it (flows.py:199), it is named by
  the flow and the quantity, and its values are in the heap;
* numbers are rationals; printing is left out, except that it may raise; origins of factors are left out.
-/

namespace Qdb

/-- a Characterization object: its flow (object and uuid) and its quantity -/
structure CF (Q : Type) where
  flow : ℕ
  uuid : ℕ
  q : Q
  deriving DecidableEq, Repr

variable {Q : Type} [DecidableEq Q]

/-- `Characterization.__eq__`, characterizations.py:124-128 -/
def CF.same (a b : CF Q) : Bool := decide (a.uuid = b.uuid ∧ a.q = b.q)

/-- `set.add` of a characterization -/
def addCF (l : List (CF Q)) (a : CF Q) : List (CF Q) := if l.any (CF.same a) then l else l ++ [a]

/-- `set.union` -/
def unionCF (l m : List (CF Q)) : List (CF Q) := m.foldl addCF l

/-- CLookup, qdb.py:62-69 -/
abbrev Lookup (Q : Type) := Dict ℕ (List (CF Q))

/-- `CLookup.__getitem__` of a compartment, qdb.py:73-78 -/
def Lookup.get (L : Lookup Q) (c : ℕ) : List (CF Q) := (Dict.get? L c).getD []

/-- `CLookup.__setitem__`, qdb.py:80-89 -/
def Lookup.put (L : Lookup Q) (c : ℕ) (cf : CF Q) : Lookup Q := Dict.set L c (addCF (L.get c) cf)

/-- `CLookup.cfs`, qdb.py:97-100 -/
def Lookup.cfs (L : Lookup Q) : List (CF Q) := L.flatMap fun p => p.2

inductive Err
  | attributeError | typeError | zeroDivision | mismatch | missing | indexError | duplicate
  | other (e : Flo.Err)
  deriving DecidableEq, Repr

/-- the hierarchy of compartments, the positions of quantities, the order of sets of factors, and the settings of the Qdb
(qdb.py:192-209) -/
structure Env (Q : Type) where
  ind : Q → ℕ
  canon : ℕ → Option Q      -- `self._q.entity`
  anc : ℕ → List ℕ
  subs : ℕ → List ℕ
  ord : PyOrd (CF Q)
  emissions : ℕ := 0
  resources : ℕ := 0
  fromAir : ℕ := 0
  co2 : ℕ := 0
  quell : Bool := false

/-- the loop over the parents of the parent, qdb.py:138-145 -/
def climb (L : Lookup Q) (first : Bool) : List ℕ → List (CF Q) → List (CF Q)
  | [], r => r
  | a :: as, r =>
    let r := unionCF r (L.get a)
    if first && !r.isEmpty then r else climb L first as r

/-- `CLookup.find`, qdb.py:102-147 -/
def find (E : Env Q) (L : Lookup Q) (c : ℕ) (dist : ℕ) (first : Bool) : Except Err (List (CF Q)) :=
  let found (r : List (CF Q)) : Bool := first && !r.isEmpty
  let r := L.get c
  if found r then .ok r
  else
    let r := if dist > 0 then (E.subs c).foldl (fun r s => unionCF r (L.get s)) r else r
    if found r then .ok r
    else
      let r := if dist > 1 then unionCF r (((E.anc c).head?.map L.get).getD []) else r
      if found r then .ok r
      else if dist > 2 then
        match E.anc c with
        | [] => .error .attributeError
        | _ :: as => .ok (climb L first as r)
      else .ok r

/-- a flow as the Qdb sees it: `inds` are the flowables its terms lead to (qdb.py:483-493), `comp` its compartment -/
structure FlowO (Q : Type) where
  uuid : ℕ
  st : Flo.State Q
  inds : List ℕ
  comp : Option ℕ
  bio : Bool := false

/-- the flows, and the dictionaries of a Qdb, qdb.py:196-198 -/
structure St (Q : Type) where
  flows : ℕ → FlowO Q
  qd : Dict ℕ (List ℕ) := []
  fd : Dict ℕ (List ℕ) := []
  fq : Dict (ℕ × ℕ) (Lookup Q) := []

/-- a default-dict of sets: add one member -/
def addTo (d : Dict ℕ (List ℕ)) (k v : ℕ) : Dict ℕ (List ℕ) := d.set k (PySet.add ((d.get? k).getD []) v)

/-- `self._fq_dict[f_ind, q_ind]`; no factor is stored under the position None -/
def St.lookup (s : St Q) (f : ℕ) (q : Option ℕ) : Lookup Q := (q.bind fun q => s.fq.get? (f, q)).getD []

/-- the loop of `add_cf`, qdb.py:590-593 -/
def storeCF (s : St Q) (q comp : ℕ) (cf : CF Q) (f : ℕ) : St Q :=
  { s with
    qd := addTo s.qd q f
    fd := addTo s.fd f q
    fq := s.fq.set (f, q) ((s.lookup f (some q)).put comp cf) }

/-- `add_cf`, qdb.py:566-593: `inds` are the flowables of the flow the terms are taken from -/
def addCf (E : Env Q) (cf : CF Q) (inds : List ℕ) (s : St Q) : Out (St Q) Err Unit :=
  match (s.flows cf.flow).comp with
  | none => .err .missing s
  | some c => .ok () (inds.foldl (storeCF · (E.ind cf.q) c cf) s)

/-- reading a default-dict makes an entry -/
def touch (d : Dict ℕ (List ℕ)) (k : ℕ) : Dict ℕ (List ℕ) := if d.has k then d else d.set k []

/-- `is_known`, qdb.py:290-299 -/
def isKnown (s : St Q) (q : ℕ) : Bool := s.qd.has q

/-- insertion into a sorted list -/
def insertNat (a : ℕ) : List ℕ → List ℕ
  | [] => [a]
  | b :: l => if a ≤ b then a :: b :: l else b :: insertNat a l

/-- `sorted` -/
def sortNat : List ℕ → List ℕ
  | [] => []
  | a :: l => insertNat a (sortNat l)

/-- `flows_for_quantity`, qdb.py:366-373, exhausted -/
def flowsForQuantity (s : St Q) (q : ℕ) : List ℕ × St Q :=
  (sortNat ((s.qd.get? q).getD []), { s with qd := touch s.qd q })

/-- `cfs_for_quantity`, qdb.py:374-393, exhausted -/
def cfsForQuantity (s : St Q) (q : ℕ) (comp : Option ℕ) : List (CF Q) × St Q :=
  ((sortNat ((s.qd.get? q).getD [])).flatMap fun f =>
      match comp with
      | none => (s.lookup f (some q)).cfs
      | some c => (s.lookup f (some q)).get c,
    { s with qd := touch s.qd q })

/-! ### conversion -/

/-- `cf[locale]`, characterizations.py:80-91 -/
def cfItem (s : St Q) (cf : CF Q) (loc : Flo.Loc) : Flo.Val :=
  Flo.Char.getItem (((s.flows cf.flow).st.chars.get? cf.q).getD []) loc

/-- `self._get_q_ind(flow.reference_entity)` -/
def refInd (E : Env Q) (s : St Q) (f : ℕ) : Option ℕ := (s.flows f).st.ref.map E.ind

/-- `_lookup_cfs`, qdb.py:595-603 -/
def lookupCfs (E : Env Q) (s : St Q) (inds : List ℕ) (comp : ℕ) (q : ℕ) : Except Err (List (CF Q)) :=
  inds.foldlM (fun r f => (find E (s.lookup f (some q)) comp 2 true).map fun l => unionCF r (E.ord.f l)) []

/-- `_conversion_from_flow` and `_flow_cf_generator`, qdb.py:605-608 -/
def convFromFlow (E : Env Q) (s : St Q) (f : ℕ) (fromQ : Option ℕ) : Flo.Val :=
  match (s.flows f).st.chars.find? fun p => decide (some (E.ind p.1) = fromQ) with
  | some p => Flo.Char.getItem p.2 .glo
  | none => .none

/-- the first member of `_conversion_generator`, qdb.py:618-622 -/
def convGen (E : Env Q) (s : St Q) (comp : ℕ) (fromQ toQ : Option ℕ) : List ℕ → Except Err (Option (CF Q))
  | [] => .ok none
  | f :: fs =>
    match find E (s.lookup f fromQ) comp 3 true with
    | .error e => .error e
    | .ok l =>
      match (E.ord.f l).find? fun cf => decide (refInd E s cf.flow = toQ) with
      | some cf => .ok (some cf)
      | none => convGen E s comp fromQ toQ fs

/-- `_lookfor_conversion`, qdb.py:651-682 -/
def lookforConv (E : Env Q) (s : St Q) (inds : List ℕ) (comp : ℕ) (fromQ toQ : Option ℕ) (loc : Flo.Loc) :
    Except Err Flo.Val :=
  match convGen E s comp fromQ toQ inds with
  | .error e => .error e
  | .ok (some cf) => .ok (cfItem s cf loc)
  | .ok none =>
    match convGen E s comp toQ fromQ inds with
    | .error e => .error e
    | .ok none => .ok .none
    | .ok (some cf) =>
      match cfItem s cf loc with
      | .num v => if v = 0 then .error .zeroDivision else .ok (.num (1 / v))
      | _ => .error .typeError

/-- a method of the flow is called -/
def onFlow (s : St Q) (f : ℕ) (r : Out (Flo.State Q) Flo.Err Unit) : Out (St Q) Err Unit :=
  let s := { s with flows := fun x => if x = f then { s.flows f with st := r.state } else s.flows x }
  match r with
  | .ok _ _ => .ok () s
  | .err .duplicate _ => .err .duplicate s
  | .err e _ => .err (.other e) s

/-- `flow.add_characterization(q, value=…, location=…)`, with the reference entity of another flow for `q` -/
def document (s : St Q) (f : ℕ) (q : Option Q) (v : ℚ) (loc : Flo.Loc) : Out (St Q) Err Unit :=
  match q with
  | none => .err .attributeError s
  | some q => onFlow s f (Flo.addFactor q (.num v) false (some loc) (s.flows f).st)

/-- the body of the loop in `_convert_values`, qdb.py:705-739: a value, or `none` if there is no conversion -/
def convOne (E : Env Q) (inds : List ℕ) (comp refQ : ℕ) (flow : Option ℕ) (loc : Flo.Loc) (cf : CF Q) (s : St Q) :
    Out (St Q) Err (Option ℚ) :=
  let factor := cfItem s cf loc
  let cfRef := refInd E s cf.flow
  if cfRef = some refQ then
    match factor with
    | .num v => .ok (some v) s
    | _ => .err .typeError s
  else
    match flow.elim .none (fun f => convFromFlow E s f cfRef) with
    | .num r =>
      match factor with
      | .num v => .ok (some (v * r)) s
      | _ => .err .typeError s
    | _ =>
      match lookforConv E s inds comp cfRef (some refQ) loc with
      | .error e => .err e s
      | .ok .none => .ok none s
      | .ok .entity => .err .typeError s
      | .ok (.num r) =>
        match factor with
        | .num v =>
          match flow with
          | none => .ok (some (v * r)) s
          | some f => (document s f (s.flows cf.flow).st.ref r loc).bind fun _ s => .ok (some (v * r)) s
        | _ => .err .typeError s

/-- the loop in `_convert_values`: the values, and whether a factor was left out -/
def convLoop (E : Env Q) (inds : List ℕ) (comp refQ : ℕ) (flow : Option ℕ) (loc : Flo.Loc) : List (CF Q) → St Q →
    Out (St Q) Err (List ℚ × Bool)
  | [], s => .ok ([], false) s
  | cf :: cfs, s =>
    (convOne E inds comp refQ flow loc cf s).bind fun v s =>
      (convLoop E inds comp refQ flow loc cfs s).bind fun r s =>
        match v with
        | some v => .ok (v :: r.1, r.2) s
        | none => .ok (r.1, true) s

/-- `_convert_values`, qdb.py:688-744 -/
def convertValues (E : Env Q) (inds : List ℕ) (comp refQ queryQ : ℕ) (flow : Option ℕ) (loc : Flo.Loc) (s : St Q) :
    Out (St Q) Err (List ℚ) :=
  match lookupCfs E s inds comp queryQ with
  | .error e => .err e s
  | .ok cfs =>
    (convLoop E inds comp refQ flow loc (E.ord.f cfs) s).bind fun r s =>
      if r.2 && r.1.isEmpty then .err .mismatch s else .ok r.1 s

/-- the arguments of `convert`: a flow; or a flowable (`none`: not known, then no
factor is found), whether its name looks biogenic, a compartment and a
reference quantity -/
inductive Query
  | flow (f : ℕ)
  | flowable (ind : Option ℕ) (bio : Bool) (comp : Option ℕ) (ref : Option ℕ)

/-- `comp.is_subcompartment_of(…)`, compartments.py:402-408 -/
def isSub (E : Env Q) (c d : ℕ) : Bool := decide (c = d ∨ d ∈ E.anc c)

/-- whether the flow is quelled, qdb.py:792-803 -/
def quelled (E : Env Q) (inds : List ℕ) (comp : ℕ) (bio : Bool) (quell : Option Bool) : Bool :=
  decide (E.co2 ∈ inds) && quell.getD E.quell &&
    (if isSub E comp E.emissions then bio else isSub E comp E.fromAir)

/-- `convert` after its arguments are sorted out, qdb.py:779-813 -/
def convertCore (E : Env Q) (flow : Option ℕ) (inds : List ℕ) (comp : Option ℕ) (bio : Bool) (refQ : Option ℕ) (queryQ : ℕ)
    (loc : Flo.Loc) (quell : Option Bool) (s : St Q) : Out (St Q) Err (Option ℚ) :=
  match refQ with
  | none => .ok none s
  | some refQ =>
    if refQ = queryQ then .ok (some 1) s
    else
      match comp with
      | none => .err .missing s
      | some comp =>
        if quelled E inds comp bio quell then .ok (some 0) s
        else
          (convertValues E inds comp refQ queryQ flow loc s).bind fun vals s =>
            match vals with
            | [] => .ok none s
            | v :: vs =>
              if vs.any fun w => decide (w ≠ v) then
                match flow with
                | none => .err .attributeError s                                 -- flow.unit()
                | some f => if (s.flows f).st.hasComp then .ok (some v) s else .err .indexError s     -- str(flow)
              else .ok (some v) s

/-- `convert`, qdb.py:753-813 -/
def convert (E : Env Q) (a : Query) (queryQ : ℕ) (loc : Flo.Loc) (quell : Option Bool) (s : St Q) :
    Out (St Q) Err (Option ℚ) :=
  match a with
  | .flow f =>
    convertCore E (some f) (s.flows f).inds (s.flows f).comp (s.flows f).bio (refInd E s f) queryQ loc quell s
  | .flowable i bio comp ref => convertCore E none i.toList comp bio ref queryQ loc quell s

/-- `convert_reference`, qdb.py:624-650; `cf`, qdb.py:860-868. `fromQ` is the position of the quantity; `object` says that it was
given as an entity: then `self._q.entity(from_q)` raises, because it asks the entity to `strip()` (synlist.py:73-74, 90-91) -/
def convertReference (E : Env Q) (f : ℕ) (fromQ : ℕ) (object : Bool) (loc : Flo.Loc) (s : St Q) : Out (St Q) Err ℚ :=
  if some fromQ = refInd E s f then .ok 1 s
  else
    match convFromFlow E s f (some fromQ) with
    | .num v => .ok v s
    | _ =>
      match (s.flows f).comp with
      | none => .err .missing s
      | some comp =>
        match lookforConv E s (s.flows f).inds comp (some fromQ) (refInd E s f) .glo with
        | .error e => .err e s
        | .ok (.num v) =>
          if object then .err .attributeError s
          else (document s f (E.canon fromQ) v loc).bind fun _ s => .ok v s
        | .ok _ => .ok 0 s

/-! ### LCIA -/

/-- an exchange of an inventory -/
structure Exch where
  flow : ℕ
  value : Option ℚ
  output : Bool
  deriving DecidableEq

/-- the first half of the loop in `do_lcia`, qdb.py:835-850: `false` if the exchange is abandoned -/
def obtain (E : Env Q) (q : Q) (loc : Flo.Loc) (refresh : Bool) (quell : Option Bool) (f : ℕ) (s : St Q) :
    Out (St Q) Err Bool :=
  if refresh || !(s.flows f).st.chars.has q then
    let add (v : Option ℚ) (s : St Q) : Out (St Q) Err Bool :=
      (onFlow s f (Flo.addFactor q (v.elim .none .num) refresh none (s.flows f).st)).bind fun _ s => .ok true s
    match convert E (.flow f) (E.ind q) loc quell s with
    | .err .missing s => .ok false s
    | .err .mismatch s => add none s
    | .err e s => .err e s
    | .ok v s => add v s
  else .ok true s

/-- `_dirn_adjust` of the factor whose natural direction comes from the compartment: lcia_results.py:71-89,
characterizations.py:50-59 -/
def adjust (E : Env Q) (comp : ℕ) (output : Bool) : ℚ :=
  if isSub E comp E.emissions then (if output then 1 else -1)
  else if isSub E comp E.resources then (if output then -1 else 1)
  else 1

/-- the body of the loop in `do_lcia`, qdb.py:834-856: the result of the detail that is added to the score of the flow, if any -/
def lciaOne (E : Env Q) (q : Q) (loc : Flo.Loc) (refresh : Bool) (quell : Option Bool) (x : Exch) (s : St Q) :
    Out (St Q) Err (Option ℚ) :=
  (obtain E q loc refresh quell x.flow s).bind fun go s =>
    if go then
      let fl := (s.flows x.flow).st
      match Flo.cf fl q .glo with
      | .none => .ok none s
      | _ =>
        match (s.flows x.flow).comp with
        | none => .err .missing s
        | some c =>
          match Flo.cf fl q (if ((fl.chars.get? q).getD []).has loc then loc else .glo) with
          | .num v => .ok (some (x.value.getD 0 * adjust E c x.output * v)) s
          | _ => .ok (some 0) s
    else .ok none s

/-- `do_lcia`, qdb.py:815-858: the flows in order, each with what it adds to the total -/
def doLcia (E : Env Q) (q : Q) (loc : Flo.Loc) (refresh : Bool) (quell : Option Bool) : List Exch → St Q →
    Out (St Q) Err (List (ℕ × ℚ))
  | [], s => .ok [] s
  | x :: xs, s =>
    (lciaOne E q loc refresh quell x s).bind fun v s =>
      (doLcia E q loc refresh quell xs s).bind fun r s =>
        match v with
        | some v => .ok ((x.flow, v) :: r) s
        | none => .ok r s

end Qdb
