import Mathlib.Data.Nat.Notation
import Verif.Base.Dict

/-!
Small vocabulary for modelling Python: calls that return or raise, sets, and the order of iteration over sets.
-/

/-- A call either returns, or raises; either way it leaves a state. -/
inductive Out (σ ε α : Type)
  | ok (a : α) (s : σ)
  | err (e : ε) (s : σ)

namespace Out
variable {σ ε α β : Type}

/-- sequencing -/
def bind (r : Out σ ε α) (f : α → σ → Out σ ε β) : Out σ ε β :=
  match r with
  | .ok a s => f a s
  | .err e s => .err e s

/-- the state after the call, whether it returned or raised -/
def state : Out σ ε α → σ
  | .ok _ s => s
  | .err _ s => s

/-- the returned value, if any -/
def value? : Out σ ε α → Option α
  | .ok a _ => some a
  | .err _ _ => none

/-- the exception, if any -/
def error? : Out σ ε α → Option ε
  | .ok _ _ => none
  | .err e _ => some e

end Out

/-- The order in which Python iterates over a set: any function that permutes the members. -/
structure PyOrd (α : Type) where
  f : List α → List α
  perm : ∀ l, (f l).Perm l

/-- the identity order, for examples -/
def PyOrd.id (α : Type) : PyOrd α := ⟨fun l => l, fun _ => .refl _⟩

theorem PyOrd.mem {α : Type} (o : PyOrd α) (l : List α) (a : α) : a ∈ o.f l ↔ a ∈ l := (o.perm l).mem_iff

namespace PySet
variable {α : Type} [DecidableEq α]

/-- `set.add` on a duplicate-free list. -/
def add (l : List α) (a : α) : List α := if a ∈ l then l else l ++ [a]

/-- `set(iterable)`. -/
def ofList (l : List α) : List α := l.foldl add []

/-- `set.union`. -/
def union (l m : List α) : List α := m.foldl add l

@[simp] theorem mem_add {l : List α} {a b : α} : b ∈ add l a ↔ b ∈ l ∨ b = a := by
  unfold add
  split
  · rename_i h
    constructor
    · exact Or.inl
    · rintro (h' | h')
      · exact h'
      · subst h'; exact h
  · simp

theorem nodup_add {l : List α} {a : α} (h : l.Nodup) : (add l a).Nodup := by
  unfold add
  split
  · exact h
  · rename_i hn
    rw [List.nodup_append]
    refine ⟨h, by simp, ?_⟩
    intro x hx y hy
    simp at hy; subst hy
    exact fun e => hn (e ▸ hx)

@[simp] theorem mem_union {l m : List α} {b : α} : b ∈ union l m ↔ b ∈ l ∨ b ∈ m := by
  unfold union
  induction m generalizing l with
  | nil => simp
  | cons a m ih => simp [List.foldl_cons, ih, or_assoc]

theorem nodup_union {l m : List α} (h : l.Nodup) : (union l m).Nodup := by
  unfold union
  induction m generalizing l with
  | nil => exact h
  | cons a m ih => exact ih (nodup_add h)

@[simp] theorem mem_ofList {l : List α} {b : α} : b ∈ ofList l ↔ b ∈ l := by
  have := mem_union (l := []) (m := l) (b := b)
  simpa [union, ofList] using this

theorem nodup_ofList (l : List α) : (ofList l).Nodup := nodup_union (l := []) (m := l) (by simp)

end PySet
