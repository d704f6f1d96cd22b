import Verif.Model.Flowables
import Mathlib.Data.List.Sort

/-!
Model of `lcatools/implementations/quantity.py` (class QuantityImplementation): the index of flowables made from an archive and
the queries `flowables`, `compartments`, `factors` that use it.

Simplifications: names, CAS numbers and links are strings (LcFlow replaces a missing CAS number by '', flows.py:36-41); a
compartment is any value `C`, a factor any value `V`, a quantity is what the archive finds for it; a generator is the list of what
it yields, or the exception that ends it; printing is left out; the archive is not changed during a query.
-/

namespace Qim
open Syn Flw

inductive Err
  | syn (e : Syn.Err)     -- an exception of the synonym list
  | attributeError
  | typeError
  deriving DecidableEq, Repr

/-- a flow of the archive: its link, `['Name']`, `['CasNumber']`, `['Compartment']` and the factors by quantity -/
structure Flow (C Q V : Type) where
  link : Str
  name : Str
  cas : Str := []
  comp : C
  cfs : Dict Q V := []

variable {C Q V : Type} [DecidableEq C] [DecidableEq Q]

/-- the body of the loop of `_init_flowables`, quantity.py:22-30; the `except` covers InconsistentIndices only -/
def addFlow (L : Lex Str) (o : PyOrd Str) (oN : PyOrd ℕ) (f : Flow C Q V) (s : State Str) : Out (State Str) Syn.Err Unit :=
  let first : Out (State Str) Syn.Err Unit :=
    match addSet L o (mergeSetF L) [f.cas, f.name] true s with
    | .ok _ s1 => (setName L f.name s1).bind fun _ s2 => .ok () s2
    | .err .inconsistent s1 => mergeF L o oN f.cas [f.name] s1
    | .err e s1 => .err e s1
  first.bind fun _ s2 => (addSet L o (mergeSetF L) [f.name, f.link] true s2).bind fun _ s3 => .ok () s3

/-- `_init_flowables`, quantity.py:20-31 -/
def initFlowables (L : Lex Str) (o : PyOrd Str) (oN : PyOrd ℕ) : List (Flow C Q V) → State Str → Out (State Str) Syn.Err Unit
  | [], s => .ok () s
  | f :: fs, s => (addFlow L o oN f s).bind fun _ s' => initFlowables L o oN fs s'

/-- the property `_fb`, quantity.py:33-43: what is cached, or a new index; the second component is what is cached afterwards.
For a static archive the index is kept on the archive, otherwise on the implementation: here that is the same. -/
def fb (L : Lex Str) (o : PyOrd Str) (oN : PyOrd ℕ) (flows : List (Flow C Q V)) (cached : Option (State Str)) :
    Except Err (State Str) :=
  match cached with
  | some s => .ok s
  | none =>
    match initFlowables L o oN flows {} with
    | .ok _ s => .ok s
    | .err e _ => .error (.syn e)

/-- the filters of `flowables`, quantity.py:88-94 -/
def meets (comp : Option C) (q : Option Q) (f : Flow C Q V) : Bool :=
  (match comp with | none => true | some c => decide (f.comp = c)) &&
  (match q with | none => true | some q => (f.cfs.get? q).isSome)

/-- `_fb.cas(n), _fb.name(n)` for an index, quantity.py:97; flowables.py:55-56, synlist.py:109-116, 133-139. An index is always in
range here; the index None: `term.strip()` in flowables.py:78 raises AttributeError -/
def entry (s : State Str) : Option ℕ → Except Err (Option Str × Option Str)
  | none => .error .attributeError
  | some i =>
    match s.cas[i]?, s.names[i]? with
    | some c, some n => .ok (c, n)
    | _, _ => .error (.syn .indexError)

/-- `flowables`, quantity.py:75-95. `quantity`: none if not given, else what the archive finds for it (none: nothing); `oI` is the
order of the set of indices, `le` the order of strings. A name None beside another one cannot be sorted. -/
def flowables (L : Lex Str) (o : PyOrd Str) (oN : PyOrd ℕ) (oI : PyOrd (Option ℕ)) (le : Str → Str → Bool)
    (flows : List (Flow C Q V)) (cached : Option (State Str)) (quantity : Option (Option Q)) (comp : Option C) :
    Except Err (List (Option Str × Option Str)) :=
  let fs := flows.filter (meets comp quantity.join)
  if fs = [] then .ok []
  else
    match fb L o oN flows cached with
    | .error e => .error e
    | .ok s =>
      match (oI.f (PySet.ofList (fs.map fun f => getIndex L s f.name))).mapM (entry s) with
      | .error e => .error e
      | .ok es =>
        if (es.any fun e => e.2.isNone) && decide (2 ≤ es.length) then .error .typeError
        else .ok (es.insertionSort fun a b => le (a.2.getD []) (b.2.getD []) = true)

/-- `compartments`, quantity.py:97-109: the values are put in a set, which raises for lists (`hashable c = false`);
the arguments are not used -/
def compartments (hashable : C → Bool) (oC : PyOrd C) (flows : List (Flow C Q V)) (_quantity : Option Q) (_flowable : Option Str) :
    Except Err (List C) :=
  if flows.all fun f => hashable f.comp then .ok (oC.f (PySet.ofList (flows.map (·.comp)))) else .error .typeError

/-- the loop of `factors`, quantity.py:130-139; `target` is the index of the flowable asked for -/
def factorsLoop (L : Lex Str) (s : State Str) (q : Q) (target : Option ℕ) (comp : Option C) :
    List (Flow C Q V) → List (Str × V)
  | [] => []
  | f :: fs =>
    let rest := factorsLoop L s q target comp fs
    match f.cfs.get? q with
    | none => rest
    | some v =>
      if (match target with | none => true | some i => decide (getIndex L s f.link = some i)) &&
         (match comp with | none => true | some c => decide (f.comp = c)) then (f.link, v) :: rest else rest

/-- `factors`, quantity.py:113-139. `quantity` is what the archive finds: none raises AttributeError at 126. `_fb` is used only if a
flowable is given. A factor is shown with the link of its flow. -/
def factors (L : Lex Str) (o : PyOrd Str) (oN : PyOrd ℕ) (flows : List (Flow C Q V)) (cached : Option (State Str))
    (quantity : Option Q) (flowable : Option Str) (comp : Option C) : Except Err (List (Str × V)) :=
  match quantity with
  | none => .error .attributeError
  | some q =>
    match flowable with
    | none => .ok (factorsLoop L {} q none comp flows)
    | some x =>
      match fb L o oN flows cached with
      | .error e => .error e
      | .ok s => .ok (factorsLoop L s q (getIndex L s x) comp flows)

end Qim
