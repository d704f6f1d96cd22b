import Mathlib.Data.List.Infix
import Mathlib.Data.Int.Notation

/-!
Model of `==` and `hash`: `lcatools/entities/entities.py`, `lcatools/entity_refs/base.py`, `lcatools/exchanges.py`,
`lcatools/entities/processes.py` (RxRef), `lcatools/characterizations.py`, `lcatools/terminations.py`, `lcatools/fragment_flows.py`,
`lcatools/lcia_results.py`.

Simplifications:
* objects are what `==` and `hash` read of them;
* Python's `hash` of strings and tuples is any function `h` of the string or tuple;
* origins are strings, except that an entity's origin may be None.
-/

namespace PyEq

inductive Err | attributeError | typeError
  deriving DecidableEq, Repr

/-- what is given to Python's `hash` -/
inductive HashIn
  | str (s : String)
  | pair (a b : Option String)
  | four (a b c : String) (d : Option String)
  | three (a b c : String)
  deriving DecidableEq, Repr

/-- an entity, entities.py:40-62, or a reference, base.py:41-54; `ext` is the property `external_ref` -/
inductive Ent
  | entity (etype : String) (origin : Option String) (ext uuid : String)
  | ref (etype : String) (origin : String) (ext uuid : String)
  deriving DecidableEq, Repr

def Ent.etype : Ent → String
  | .entity t _ _ _ => t
  | .ref t _ _ _ => t

def Ent.origin : Ent → Option String
  | .entity _ o _ _ => o
  | .ref _ o _ _ => some o

def Ent.ext : Ent → String
  | .entity _ _ e _ => e
  | .ref _ _ e _ => e

def Ent.uuid : Ent → String
  | .entity _ _ _ u => u
  | .ref _ _ _ u => u

/-- `str.startswith` -/
def startsWith (s p : String) : Bool := p.toList.isPrefixOf s.toList

/-- `a == b`: `LcEntity.__eq__`, entities.py:345-361, or `BaseRef.__eq__`, base.py:117-124 -/
def eqE (a b : Ent) : Except Err Bool :=
  match a with
  | .entity t o e _ => .ok (e == b.ext && o == b.origin && t == b.etype)
  | .ref t o e _ =>
    if t = b.etype && e = b.ext then
      match b.origin with
      | none => .error .typeError                  -- `self.origin.startswith(None)`
      | some o' => .ok (startsWith o o' || startsWith o' o)
    else .ok false

/-- `hash(a)`: entities.py:338-343, base.py:129-130 (the link, base.py:69-70) -/
def hashE (h : HashIn → ℤ) : Ent → Except Err ℤ
  | .entity _ none _ _ => .error .attributeError
  | .entity _ (some o) _ u => .ok (h (.pair (some o) (some u)))
  | .ref _ o e _ => .ok (h (.str (o ++ "/" ++ e)))

/-- `make_ref`, entities.py:68-79, for a query with the given origin -/
def makeRef (queryOrigin : String) : Ent → Ent
  | .entity t _ e u => .ref t queryOrigin e u
  | r => r

/-- `x in s` of a Python set: an element with the same hash that is equal (the element stored is on the left) -/
def inSet {α : Type} (hash : α → Except Err ℤ) (eq : α → α → Except Err Bool) (x : α) : List α → Except Err Bool
  | [] => .ok false
  | y :: s =>
    match hash x, hash y with
    | .error e, _ => .error e
    | _, .error e => .error e
    | .ok i, .ok j =>
      if i = j then
        match eq y x with
        | .error e => .error e
        | .ok true => .ok true
        | .ok false => inSet hash eq x s
      else inSet hash eq x s

/-- an exchange, exchanges.py:35-60, or a reference to a reference exchange, processes.py:43-58. The flow's external reference, the
process's uuid -/
inductive Xch
  | exch (process flow dir : String) (term : Option String)
  | rx (process flow dir : String)
  deriving DecidableEq, Repr

/-- the tuple hashed: exchanges.py:54, processes.py:53 -/
def Xch.key : Xch → HashIn
  | .exch p f d t => .four p f d t
  | .rx p f d => .four p f d none

/-- `lkey`, exchanges.py:147-153, processes.py:128-130 -/
def Xch.lkey : Xch → String × String × Option String
  | .exch _ f d t => (f, d, t)
  | .rx _ f d => (f, d, none)

/-- `hash(x)`, exchanges.py:163-164, processes.py:136-137 -/
def hashX (h : HashIn → ℤ) (x : Xch) : ℤ := h x.key

/-- `a == b`: exchanges.py:166-181 compares hashes, processes.py:139-146 flows and directions -/
def eqX (h : HashIn → ℤ) (a b : Xch) : Bool :=
  match a with
  | .exch .. => decide (h a.key = h b.key)
  | .rx .. => decide (a.lkey = b.lkey)

/-- a characterization, characterizations.py:121-128: the uuids of flow and quantity -/
structure Char2 where
  flow : String
  quantity : String
  deriving DecidableEq, Repr

def eqChar (a b : Char2) : Bool := decide (a.flow = b.flow) && decide (a.quantity = b.quantity)
def hashChar (h : HashIn → ℤ) (a : Char2) : ℤ := h (.pair (some a.flow) (some a.quantity))

/-- `DetailedLciaResult`, lcia_results.py:117-125 -/
structure Detail where
  process : String
  dir : String
  flow : String
  deriving DecidableEq, Repr

def hashDetail (h : HashIn → ℤ) (a : Detail) : ℤ := h (.three a.process a.dir a.flow)
/-- `direction[0]` is compared; a direction is never empty -/
def eqDetail (a b : Detail) : Bool :=
  decide (a.process = b.process) && decide (a.flow = b.flow) && decide (a.dir.toList.head? = b.dir.toList.head?)

/-- a termination, terminations.py:110-172: node (None if null), flow, direction -/
structure Term where
  node : Option Ent
  flow : Ent
  dir : String
  deriving DecidableEq, Repr

/-- `a == b`, terminations.py:523-539; `same` if they are one object. `other.term_node.external_ref` of a null termination raises -/
def eqT (same : Bool) (a b : Term) : Except Err Bool :=
  if same then .ok true
  else
    match a.node with
    | none => .ok b.node.isNone
    | some n =>
      match b.node with
      | none => .error .attributeError
      | some n' =>
        if n.ext = n'.ext then
          match eqE a.flow b.flow with
          | .ok true => .ok (decide (a.dir = b.dir))
          | r => r
        else .ok false

/-- a fragment flow -/
structure FFlow where
  fragment : Ent
  term : Term
  magnitude : ℤ
  deriving DecidableEq, Repr

/-- `a == b`, fragment_flows.py:208-216, for terminations that are different objects -/
def eqF (a b : FFlow) : Except Err Bool :=
  match eqE a.fragment b.fragment with
  | .ok true =>
    match eqT false a.term b.term with
    | .ok true => .ok (decide (a.magnitude = b.magnitude))
    | r => r
  | r => r

/-- `hash(a)`, fragment_flows.py:218-219 -/
def hashF (h : HashIn → ℤ) (a : FFlow) : Except Err ℤ := hashE h a.fragment

end PyEq
