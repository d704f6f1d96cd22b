import Mathlib.Order.Basic
import Mathlib.Data.List.Sort
import Verif.Model.Process

/-!
Model of writing a process to JSON and reading it again: `lcatools/exchanges.py` (`serialize`), `lcatools/entities/processes.py`
(`serialize`), `lcatools/archives/lc_archive.py` (`_process_from_json`).

Simplifications:
* only the exchanges and the allocation by a quantity, not the other properties of the process (Model/EntityJson);
* a flow has one identifier: its uuid, which is written, and its external reference, which is part of the key of exchanges, are
  taken to correspond one to one;
* the key of a value of `valueDict`, `'%s:%s' % (direction, uuid)`, is the pair: a uuid contains no colon.
-/

namespace Proc
variable {F Q T : Type} [DecidableEq F] [DecidableEq T]

/-- an exchange in JSON; `none` is a missing entry -/
structure JX (F T : Type) where
  flow : F
  dir : Dir
  term : Option T                                     -- 'termination'
  isRef : Bool                                        -- 'isReference'
  value : Option ℚ
  vdict : Option (Dict (Dir × F) (Option ℚ))          -- 'valueDict'
  deriving DecidableEq

/-- a process in JSON -/
structure JP (F Q T : Type) where
  exchanges : List (JX F T)
  alloc : Option Q                                    -- 'AllocatedByQuantity'

/-- `_serialize_value_dict`, exchanges.py:463-467 -/
def serializeDict (d : Dict (Key F T) (Option ℚ)) : Dict (Dir × F) (Option ℚ) :=
  d.foldl (fun j kv => j.set (kv.1.dir, kv.1.flow) kv.2) []

/-- `serialize` of an exchange, exchanges.py:232-242, 469-476 -/
def serializeX (values : Bool) (k : Key F T) (e : Exch F T) : JX F T where
  flow := k.flow
  dir := k.dir
  term := k.term
  isRef := e.isRef
  value := if values then e.val else none
  vdict := if values && !e.isRef && decide (e.vdict.length > 0) then some (serializeDict e.vdict) else none

/-- the order of the strings 'Input' and 'Output' -/
def Dir.le : Dir → Dir → Bool
  | .output, .input => false
  | _, _ => true

/-- the sort key `(x['direction'], x['flow'])`, processes.py:641 -/
def jxLe [LinearOrder F] (a b : JX F T) : Prop := a.dir.le b.dir = true ∧ (b.dir.le a.dir = true → a.flow ≤ b.flow)

instance [LinearOrder F] (a b : JX F T) : Decidable (jxLe a b) := by unfold jxLe; infer_instance

/-- `serialize` of a process, processes.py:635-648 -/
def serializeP [LinearOrder F] (exchanges values : Bool) (p : State F Q T) : JP F Q T where
  exchanges := ((p.exchs.filter fun kx => exchanges || decide (kx.1 ∈ p.refs)).map fun kx => serializeX values kx.1 kx.2).insertionSort jxLe
  alloc := p.allocQ

/-- what `add_exchange` returns: the exchange, or None if there was one and no value is given, processes.py:557-612 -/
def returned (str : T → T) (k : Key F T) (value : Option ℚ) (p : State F Q T) : Option (Key F T) :=
  match p.exchs.get? k with
  | some _ => if value = none ∨ value = some 0 then none else some k
  | none => some { k with term := k.term.map str }

/-- the loop over the reference exchanges, lc_archive.py:99-109, with `ref_x`; `has` are the flows of the archive -/
def loadRefs (str : T → T) (cf : F → Q → Option ℚ) (has : F → Bool) :
    List (JX F T) → Dict F (Option (Key F T)) → State F Q T → Out (State F Q T) Err (Dict F (Option (Key F T)))
  | [], d, p => .ok d p
  | x :: l, d, p =>
    if has x.flow then
      (addExchange str x.flow x.dir none x.value none false p).bind fun _ p1 =>
        (addReference cf x.flow x.dir p1).bind fun _ p2 =>
          loadRefs str cf has l (d.set x.flow (returned str ⟨x.flow, x.dir, none⟩ x.value p)) p2
    else .err .keyError p

/-- the loop over `valueDict`, lc_archive.py:122-133 -/
def loadVals (str : T → T) (d : Dict F (Option (Key F T))) (x : JX F T) :
    List ((Dir × F) × Option ℚ) → State F Q T → Out (State F Q T) Err Unit
  | [], p => .ok () p
  | ((_, f), v) :: l, p =>
    match d.get? f with
    | none => .err .keyError p
    | some rx => (addExchange str x.flow x.dir rx v x.term false p).bind fun _ p1 => loadVals str d x l p1

/-- the loop over the other exchanges, lc_archive.py:110-133 -/
def loadRest (str : T → T) (has : F → Bool) (d : Dict F (Option (Key F T))) :
    List (JX F T) → State F Q T → Out (State F Q T) Err Unit
  | [], p => .ok () p
  | x :: l, p =>
    if has x.flow then
      (match x.value with
        | some v => addExchange str x.flow x.dir none (some v) x.term false p
        | none => .ok () p).bind fun _ p1 =>
          (match x.vdict with
            | some vd => loadVals str d x vd p1
            | none => .ok () p1).bind fun _ p2 => loadRest str has d l p2
    else .err .keyError p

/-- `_process_from_json`, lc_archive.py:84-139. `hasQ` looks up the allocation quantity; None if it is missing -/
def loadP (str : T → T) (cf : F → Q → Option ℚ) (has : F → Bool) (hasQ : Q → Option Q) (j : JP F Q T) :
    Out (State F Q T) Err Unit :=
  (loadRefs str cf has (j.exchanges.filter (·.isRef)) [] {}).bind fun d p =>
    (loadRest str has d (j.exchanges.filter (!·.isRef)) p).bind fun _ p1 =>
      match j.alloc with
      | none => .ok () p1
      | some q => allocate cf (hasQ q) p1

end Proc
