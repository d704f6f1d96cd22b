import Mathlib.Data.Rat.Defs
import Verif.Base.Py

/-!
Model of `lcatools/exchanges.py` (Exchange, ExchangeValue, MarketExchange) and of the exchange and allocation
methods of `lcatools/entities/processes.py` (LcProcess).

Simplifications:
* one process; an exchange key (a hash of process uuid, flow, direction and termination, exchanges.py:53) is the
  tuple itself (no hash collisions);
* all stored exchanges are ExchangeValues, as `add_exchange` makes them;
* values are numbers or None, not dicts;
* an exchange passed as a reference argument is one of the process's own, so its `is_reference` flag is that of
  the stored exchange;
* `flow.cf(quantity)` is a function parameter: `none` stands for a None factor;
* comments and `_exch_map` are left out.
-/

namespace Proc

inductive Dir | input | output
  deriving DecidableEq, Repr

/-- flow, direction, termination; `lkey`, exchanges.py:147-153 -/
structure Key (F T : Type) where
  flow : F
  dir : Dir
  term : Option T
  deriving DecidableEq

/-- ExchangeValue: exchanges.py:298-305 and `_is_reference`, 56 -/
structure Exch (F T : Type) where
  value : Option ℚ := none                        -- _value
  vdict : Dict (Key F T) (Option ℚ) := []         -- _value_dict
  isRef : Bool := false                           -- _is_reference
  deriving DecidableEq

inductive Err
  | exchangeError | typeError | zeroDivision | keyError | duplicate | ambiguousReference | valueError
  | referenceSettingFailed
  deriving DecidableEq, Repr

/-- LcProcess, processes.py:181-190 -/
structure State (F Q T : Type) where
  exchs : Dict (Key F T) (Exch F T) := []         -- _exchanges
  refs : List (Key F T) := []                     -- reference_entity
  allocQ : Option Q := none                       -- _alloc_by_quantity
  allocSum : ℚ := 0                               -- _alloc_sum
  deriving DecidableEq

variable {F Q T : Type} [DecidableEq F] [DecidableEq T]

/-- the property `value`, exchanges.py:311-319 -/
def Exch.val (e : Exch F T) : Option ℚ :=
  match e.value, e.vdict with
  | none, [(_, v)] => v
  | v, _ => v

/-- Python `/` on numbers or None -/
def pyDiv (a b : Option ℚ) : Except Err ℚ :=
  match a, b with
  | some a, some b => if b = 0 then .error .zeroDivision else .ok (a / b)
  | _, _ => .error .typeError

/-- Python `*` on numbers or None -/
def pyMul (a b : Option ℚ) : Except Err ℚ :=
  match a, b with
  | some a, some b => .ok (a * b)
  | _, _ => .error .typeError

/-- `alloc_qty`, processes.py:236-240 -/
def State.allocQty (p : State F Q T) : Option Q := if p.allocSum ≠ 0 then p.allocQ else none

/-- `ExchangeValue.__getitem__`, exchanges.py:349-401, of the stored exchange `x` with respect to `item` -/
def getItem (cf : F → Q → Option ℚ) (p : State F Q T) (x item : Key F T) : Except Err ℚ :=
  match p.exchs.get? x, p.exchs.get? item with
  | some e, some it =>
    if it.isRef then
      if e.isRef then
        if item = x then .ok 1 else .ok 0
      else
        match p.allocQty with
        | some q =>
          match pyDiv e.val (some p.allocSum) with
          | .error err => .error err
          | .ok norm => pyMul (some norm) (cf item.flow q)
        | none =>
          if e.vdict.length > 0 then
            match e.vdict.get? item with
            | none => .ok 0
            | some v => pyDiv v it.val
          else pyDiv e.value it.val
    else if item.term ≠ none then .error .exchangeError
    else pyDiv e.value it.val
  | some _, none => .error .exchangeError
  | none, _ => .error .keyError

/-- the value setter, exchanges.py:327-337 -/
def setValue (e : Exch F T) (v : Option ℚ) : Except Err (Exch F T) :=
  match e.value with
  | some _ => .error .duplicate
  | none => .ok { e with value := v }

/-- `add_to_value`, exchanges.py:285-290. A None already stored for the reference makes `+=` raise TypeError. -/
def addToValue (e : Exch F T) (v : ℚ) (reference : Option (Key F T)) : Except Err (Exch F T) :=
  match reference with
  | none =>
    match e.value with
    | some w => .ok { e with value := some (w + v) }
    | none => .error .typeError
  | some r =>
    match e.vdict.get? r with
    | some (some w) => .ok { e with vdict := e.vdict.set r (some (w + v)) }
    | some none => .error .typeError
    | none => .ok e

/-- `ExchangeValue.__setitem__`, exchanges.py:403-436: the exchange `e`, stored or to be stored under `x`;
`keyIsRef` is the flag of the allocation key. -/
def setItem (x : Key F T) (e : Exch F T) (key : Key F T) (keyIsRef : Bool) (v : Option ℚ) : Except Err (Exch F T) :=
  if !keyIsRef then .error .ambiguousReference
  else if e.vdict.has key then .error .duplicate
  else if e.isRef then
    if x = key then setValue e v
    else if v = some 0 then .ok e else .error .valueError
  else .ok { e with vdict := e.vdict.set key v }

/-- the flag of one of the process's exchanges -/
def isRefOf (p : State F Q T) (k : Key F T) : Bool := ((p.exchs.get? k).map (·.isRef)).getD false

/-- `add_exchange`, processes.py:539-612. `str` converts a termination to a string when the exchange is made
(exchanges.py:50-51), after the key has been looked up with the termination as given. -/
def addExchange (str : T → T) (flow : F) (dir : Dir) (reference : Option (Key F T)) (value : Option ℚ)
    (term : Option T) (addDups : Bool) (p : State F Q T) : Out (State F Q T) Err Unit :=
  let x : Key F T := ⟨flow, dir, term⟩
  match p.exchs.get? x with
  | some e =>
    match value with
    | none => .ok () p
    | some v =>
      if v = 0 then .ok () p
      else
        let put (r : Except Err (Exch F T)) : Out (State F Q T) Err Unit :=
          match r with
          | .ok e' => .ok () { p with exchs := p.exchs.set x e' }
          | .error err => .err err p
        let attempt := match reference with
          | none => setValue e (some v)
          | some r => setItem x e r (isRefOf p r) (some v)
        match attempt with
        | .error .duplicate => if addDups then put (addToValue e v reference) else .err .duplicate p
        | r => put r
  | none =>
    let new : Key F T := ⟨flow, dir, term.map str⟩
    match reference with
    | none => .ok () { p with exchs := p.exchs.set new { value := value } }
    | some r =>
      if r ∉ p.refs then .err .keyError p
      else
        match setItem new {} r (isRefOf p r) value with
        | .ok e => .ok () { p with exchs := p.exchs.set new e }
        | .error err => .err err p

/-- `_alloc_dict`, processes.py:439-454: (reference, magnitude) pairs -/
def allocDict (cf : F → Q → Option ℚ) (q : Q) (p : State F Q T) : List (Key F T) → Except Err (List (Key F T × ℚ))
  | [] => .ok []
  | r :: rs =>
    match p.exchs.get? r with
    | none => .error .keyError
    | some e =>
      match e.val with
      | none => allocDict cf q p rs
      | some v =>
        match pyMul (some v) (cf r.flow q), allocDict cf q p rs with
        | .ok m, .ok l => .ok ((r, m) :: l)
        | .error err, _ => .error err
        | _, .error err => .error err

/-- `allocate_by_quantity`, processes.py:456-483 -/
def allocate (cf : F → Q → Option ℚ) (q : Option Q) (p : State F Q T) : Out (State F Q T) Err Unit :=
  match q with
  | none => .ok () { p with allocQ := none, allocSum := 0 }
  | some q =>
    match allocDict cf q p p.refs with
    | .error err => .err err p
    | .ok mags =>
      let total := (mags.map (·.2)).sum
      if total = 0 then .ok () p else .ok () { p with allocQ := some q, allocSum := total }

/-- `allocation_factors`, processes.py:485-495; dividing by a zero sum raises (if there is any reference). -/
def allocFactors (cf : F → Q → Option ℚ) (q : Q) (p : State F Q T) : Except Err (List (Key F T × ℚ)) :=
  match allocDict cf q p p.refs with
  | .error err => .error err
  | .ok d =>
    let s := (d.map (·.2)).sum
    if d ≠ [] ∧ s = 0 then .error .zeroDivision else .ok (d.map fun kv => (kv.1, kv.2 / s))

/-- `add_reference` and `_set_reference`, processes.py:402-405, 219-234 -/
def addReference (cf : F → Q → Option ℚ) (flow : F) (dir : Dir) (p : State F Q T) : Out (State F Q T) Err Unit :=
  let k : Key F T := ⟨flow, dir, none⟩
  let p1 := match p.exchs.get? k with
    | some e => { p with exchs := p.exchs.set k { e with isRef := true }, refs := PySet.add p.refs k }
    | none => p
  let r := match p1.allocQty with
    | some q => allocate cf (some q) p1
    | none => .ok () p1
  r.bind fun _ p2 => if (p2.exchs.get? k).isSome then .ok () p2 else .err .keyError p2

/-- `remove_allocation` of an exchange, exchanges.py:438-445, and of the process, processes.py:535-537 -/
def removeAllocation (reference : Key F T) (p : State F Q T) : State F Q T :=
  { p with exchs := p.exchs.map fun kx => (kx.1, { kx.2 with vdict := kx.2.vdict.del reference }) }

/-- `remove_reference`, processes.py:407-414 -/
def removeReference (cf : F → Q → Option ℚ) (flow : F) (dir : Dir) (p : State F Q T) : Out (State F Q T) Err Unit :=
  let k : Key F T := ⟨flow, dir, none⟩
  match p.exchs.get? k with
  | none => .err .keyError p
  | some e =>
    let p1 := removeAllocation k { p with exchs := p.exchs.set k { e with isRef := false } }
    let p2 := { p1 with refs := p1.refs.filter fun r => decide (r ≠ k) }
    match p2.allocQ with
    | some q => allocate cf (some q) p2
    | none => .ok () p2

/-- `inventory(ref_flow)` for the exchange `ref` it resolves to, processes.py:346-360: the keys and values
generated. -/
def inventory (cf : F → Q → Option ℚ) (ref : Option (Key F T)) (p : State F Q T) :
    Except Err (List (Key F T × Option ℚ)) :=
  match ref with
  | none => .ok (p.exchs.map fun kx => (kx.1, kx.2.val))
  | some r =>
    (p.exchs.filter fun kx => if isRefOf p r then decide (kx.1 ∉ p.refs) else decide (kx.1 ≠ r)).mapM fun kx =>
      match getItem cf p kx.1 r with
      | .ok v => .ok (kx.1, some v)
      | .error err => .error err

/-! ### calls as data -/

inductive Op (F Q T : Type)
  | addExchange (flow : F) (dir : Dir) (reference : Option (Key F T)) (value : Option ℚ) (term : Option T)
      (addDups : Bool)
  | addReference (flow : F) (dir : Dir)
  | removeReference (flow : F) (dir : Dir)
  | allocate (q : Option Q)
  | removeAllocation (reference : Key F T)

/-- one call, raising or not; the factors may differ from call to call -/
def step (str : T → T) (cf : F → Q → Option ℚ) (op : Op F Q T) (p : State F Q T) : Option Err × State F Q T :=
  match op with
  | .addExchange f d r v t a => let o := addExchange str f d r v t a p; (o.error?, o.state)
  | .addReference f d => let o := addReference cf f d p; (o.error?, o.state)
  | .removeReference f d => let o := removeReference cf f d p; (o.error?, o.state)
  | .allocate q => let o := allocate cf q p; (o.error?, o.state)
  | .removeAllocation r => (none, removeAllocation r p)

end Proc

/-! ### MarketExchange -/

namespace Market
variable {K : Type} [DecidableEq K]

/-- `MarketExchange.__setitem__`, exchanges.py:559-562. `none`: KeyError. -/
def setItem (d : Dict K ℚ) (k : K) (v : ℚ) : Option (Dict K ℚ) := if d.has k then none else some (d.set k v)

/-- `_sum`, exchanges.py:550-551 -/
def total (d : Dict K ℚ) : ℚ := d.vals.sum

/-- `__getitem__`, exchanges.py:564-565. `none`: KeyError or ZeroDivisionError. -/
def getItem (d : Dict K ℚ) (k : K) : Option ℚ :=
  match d.get? k with
  | none => none
  | some v => if total d = 0 then none else some (v / total d)

/-- a history of assignments, the refused ones included -/
def run (ops : List (K × ℚ)) : Dict K ℚ := ops.foldl (fun d kv => (setItem d kv.1 kv.2).getD d) []

end Market
