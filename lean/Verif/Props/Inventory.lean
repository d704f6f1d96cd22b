import Verif.Model.Inventory
import Verif.Props.Process

/-!
C132: the queries on the exchanges of a process.
-/

namespace Ivt
open Proc

variable {F Q T : Type} [DecidableEq F] [DecidableEq T]

/-! ### specification -/

/-- the states a process can be in -/
inductive Reach : Px F Q T → Prop
  | new : Reach {}
  | call (cf : F → Q → Option ℚ) (op : Op F Q T) {s : Px F Q T} : Reach s → Reach (step cf op s).2

/-- the exchange k of the process answers to a flow, a direction and whether it is to be a reference exchange (where given) -/
def Cand (s : Px F Q T) (flow : Option F) (dir : Option Dir) (reference : Option Bool) (k : Key F T) : Prop :=
  (∃ e, (k, e) ∈ s.p.exchs) ∧ (∀ f, flow = some f → k.flow = f) ∧ (∀ d, dir = some d → k.dir = d) ∧ (reference = some true → k ∈ s.p.refs) ∧
    (reference = some false → k ∉ s.p.refs)

/-! ### the index of exchanges by flow -/

theorem mem_keys_iff_pair {α β : Type} [DecidableEq α] (d : Dict α β) (k : α) : k ∈ d.keys ↔ ∃ e, (k, e) ∈ d := by
  simp [Dict.keys]

theorem reach_p {s : Px F Q T} (h : Reach s) : Proc.Reach id s.p := by
  induction h with
  | new => exact .new
  | call cf op _ ih => exact .call cf op ih

theorem step_keys (cf : F → Q → Option ℚ) (op : Op F Q T) (p : State F Q T) (hp : Proc.Reach id p) (k : Key F T) : k ∈ (Proc.step id cf op p).2.exchs.keys ↔ k ∈ p.exchs.keys ∨
    ∃ f d r v t a, op = .addExchange f d r v t a ∧ k = ⟨f, d, t⟩ ∧ p.exchs.get? k = none ∧ (Proc.step id cf op p).1 = none := by
  have hall : ∀ q (p : State F Q T), (allocate cf q p).state.exchs = p.exchs := fun q p => (allocate_fields cf q p).1
  cases op with
  | addExchange f d r v t a =>
    simp only [Proc.step]
    unfold addExchange
    simp only [Option.map_id_fun, id]
    cases hg : p.exchs.get? (⟨f, d, t⟩ : Key F T) with
    | some e =>
      have hmem : (⟨f, d, t⟩ : Key F T) ∈ p.exchs.keys := (Dict.mem_keys_iff _ _).2 ⟨e, hg⟩
      have hset : ∀ e' : Exch F T, k ∈ (p.exchs.set ⟨f, d, t⟩ e').keys ↔ k ∈ p.exchs.keys := by
        intro e'; rw [Dict.keys_set_of_mem _ _ hmem]
      have hno : ¬ ∃ f' d' r' v' t' a', Op.addExchange f d r v t a = (Op.addExchange f' d' r' v' t' a' : Op F Q T) ∧ k = ⟨f', d', t'⟩ ∧ p.exchs.get? k = none ∧ True := by
        rintro ⟨f', d', r', v', t', a', h1, h2, h3, _⟩
        cases h1
        rw [h2, hg] at h3; cases h3
      have hgoal : ∀ o : Out (State F Q T) Proc.Err Unit, (k ∈ o.state.exchs.keys ↔ k ∈ p.exchs.keys) → (k ∈ o.state.exchs.keys ↔ k ∈ p.exchs.keys ∨
          ∃ f' d' r' v' t' a', Op.addExchange f d r v t a = (Op.addExchange f' d' r' v' t' a' : Op F Q T) ∧ k = ⟨f', d', t'⟩ ∧ p.exchs.get? k = none ∧ o.error? = none) := by
        intro o ho
        rw [ho]
        constructor
        · exact .inl
        · rintro (h | ⟨f', d', r', v', t', a', h1, h2, h3, _⟩)
          · exact h
          · exact absurd ⟨f', d', r', v', t', a', h1, h2, h3, trivial⟩ hno
      apply hgoal
      simp only
      cases v with
      | none => exact Iff.rfl
      | some v =>
        simp only
        split
        · exact Iff.rfl
        · split
          · split
            · cases addToValue e v r with
              | ok e' => exact hset e'
              | error _ => exact Iff.rfl
            · exact Iff.rfl
          · cases r with
            | none =>
              simp only
              cases setValue e (some v) with
              | ok e' => exact hset e'
              | error _ => exact Iff.rfl
            | some r =>
              simp only
              cases setItem (⟨f, d, t⟩ : Key F T) e r (isRefOf p r) (some v) with
              | ok e' => exact hset e'
              | error _ => exact Iff.rfl
    | none =>
      have hnm : (⟨f, d, t⟩ : Key F T) ∉ p.exchs.keys := (Dict.not_mem_keys_iff _ _).2 hg
      simp only
      have hset : ∀ e' : Exch F T, k ∈ (p.exchs.set ⟨f, d, t⟩ e').keys ↔ k ∈ p.exchs.keys ∨
          ∃ f' d' r' v' t' a', Op.addExchange f d r v t a = (Op.addExchange f' d' r' v' t' a' : Op F Q T) ∧ k = ⟨f', d', t'⟩ ∧ p.exchs.get? k = none ∧ (none : Option Proc.Err) = none := by
        intro e'
        rw [Dict.mem_keys_set]
        constructor
        · rintro (h | h)
          · exact .inr ⟨f, d, r, v, t, a, rfl, h, by rw [h]; exact hg, rfl⟩
          · exact .inl h
        · rintro (h | ⟨f', d', r', v', t', a', h1, h2, _, _⟩)
          · exact .inr h
          · cases h1; exact .inl h2
      have herr : ∀ err : Proc.Err, k ∈ p.exchs.keys ↔ k ∈ p.exchs.keys ∨
          ∃ f' d' r' v' t' a', Op.addExchange f d r v t a = (Op.addExchange f' d' r' v' t' a' : Op F Q T) ∧ k = ⟨f', d', t'⟩ ∧ p.exchs.get? k = none ∧ some err = none := by
        intro err
        constructor
        · exact .inl
        · rintro (h | ⟨_, _, _, _, _, _, _, _, _, h⟩)
          · exact h
          · cases h
      cases r with
      | none => exact hset _
      | some r =>
        simp only
        split
        · exact herr _
        · cases setItem (⟨f, d, t⟩ : Key F T) {} r (isRefOf p r) v with
          | ok e => exact hset _
          | error e => exact herr _
  | addReference f d =>
    simp only [Proc.step]
    have hno : ¬ ∃ f' d' r' v' t' a', (Op.addReference f d : Op F Q T) = Op.addExchange f' d' r' v' t' a' ∧ k = ⟨f', d', t'⟩ ∧ p.exchs.get? k = none ∧ (addReference cf f d p).error? = none := by
      rintro ⟨_, _, _, _, _, _, h, _⟩; cases h
    rw [or_iff_left hno]
    unfold addReference
    simp only
    have key : ∀ p1 : State F Q T, p1.exchs.keys = p.exchs.keys → (k ∈ ((match p1.allocQty with
        | some q => allocate cf (some q) p1
        | none => .ok () p1).bind fun _ p2 => if (p2.exchs.get? (⟨f, d, none⟩ : Key F T)).isSome = true then Out.ok () p2 else Out.err Proc.Err.keyError p2).state.exchs.keys ↔ k ∈ p.exchs.keys) := by
      intro p1 hp1
      have hr : (match p1.allocQty with
          | some q => allocate cf (some q) p1
          | none => .ok () p1).state.exchs = p1.exchs := by
        cases p1.allocQty with
        | none => rfl
        | some q => exact hall (some q) p1
      rw [← hp1, ← hr]
      cases (match p1.allocQty with
          | some q => allocate cf (some q) p1
          | none => .ok () p1) with
      | err e p2 => exact Iff.rfl
      | ok u p2 =>
        simp only [Out.bind]
        split <;> exact Iff.rfl
    cases hg : p.exchs.get? (⟨f, d, none⟩ : Key F T) with
    | none => exact key p rfl
    | some e => exact key { p with exchs := p.exchs.set ⟨f, d, none⟩ { e with isRef := true }, refs := PySet.add p.refs ⟨f, d, none⟩ } (Dict.keys_set_of_mem _ _ ((Dict.mem_keys_iff _ _).2 ⟨e, hg⟩))
  | removeReference f d =>
    simp only [Proc.step]
    have hno : ¬ ∃ f' d' r' v' t' a', (Op.removeReference f d : Op F Q T) = Op.addExchange f' d' r' v' t' a' ∧ k = ⟨f', d', t'⟩ ∧ p.exchs.get? k = none ∧ (removeReference cf f d p).error? = none := by
      rintro ⟨_, _, _, _, _, _, h, _⟩; cases h
    rw [or_iff_left hno]
    unfold removeReference
    simp only
    cases hg : p.exchs.get? (⟨f, d, none⟩ : Key F T) with
    | none => exact Iff.rfl
    | some e =>
      have hk : ∀ p' : State F Q T, p'.exchs.keys = p.exchs.keys → (k ∈ p'.exchs.keys ↔ k ∈ p.exchs.keys) := fun p' h => by rw [h]
      have h0 : (removeAllocation (⟨f, d, none⟩ : Key F T) { p with exchs := p.exchs.set ⟨f, d, none⟩ { e with isRef := false } }).exchs.keys = p.exchs.keys := by
        have := Dict.keys_set_of_mem p.exchs ({ e with isRef := false } : Exch F T) ((Dict.mem_keys_iff _ _).2 ⟨e, hg⟩)
        simp only [removeAllocation, Dict.keys, List.map_map] at this ⊢
        rw [← this]
        rfl
      simp only
      split
      · apply hk
        rw [hall]; exact h0
      · exact hk _ h0
  | allocate q =>
    simp only [Proc.step, hall]
    constructor
    · exact .inl
    · rintro (h | ⟨_, _, _, _, _, _, h, _⟩)
      · exact h
      · cases h
  | removeAllocation r =>
    simp only [Proc.step]
    constructor
    · intro h; left
      simpa [removeAllocation, Dict.keys] using h
    · rintro (h | ⟨_, _, _, _, _, _, h, _⟩)
      · simpa [removeAllocation, Dict.keys] using h
      · cases h

/-- after any history the index lists exactly the exchanges of the flow, once each -/
theorem map_spec {s : Px F Q T} (h : Reach s) (f : F) : ((s.map.get? f).getD []).Nodup ∧ ∀ k, k ∈ (s.map.get? f).getD [] ↔ k ∈ s.p.exchs.keys ∧ k.flow = f := by
  induction h with
  | new => exact ⟨by simp, by simp [Dict.keys]⟩
  | @call cf op s hs ih =>
    have hk := step_keys cf op s.p (reach_p hs)
    have hstep : (step cf op s).2.p = (Proc.step id cf op s.p).2 := rfl
    rw [hstep]
    by_cases hop : ∃ f' d r v t a, op = .addExchange f' d r v t a ∧ s.p.exchs.get? ⟨f', d, t⟩ = none ∧ (Proc.step id cf op s.p).1 = none
    · obtain ⟨f', d, r, v, t, a, rfl, hg, he⟩ := hop
      have hmap : (step cf (.addExchange f' d r v t a) s).2.map = s.map.set f' (PySet.add ((s.map.get? f').getD []) ⟨f', d, t⟩) := by
        simp only [step]
        rw [if_pos (by simp [hg, he])]
      have hk' : ∀ k : Key F T, k ∈ (Proc.step id cf (.addExchange f' d r v t a) s.p).2.exchs.keys ↔ k ∈ s.p.exchs.keys ∨ k = ⟨f', d, t⟩ := by
        intro k
        rw [hk k]
        constructor
        · rintro (h | ⟨_, _, _, _, _, _, h1, h2, _⟩)
          · exact .inl h
          · cases h1; exact .inr h2
        · rintro (h | rfl)
          · exact .inl h
          · exact .inr ⟨f', d, r, v, t, a, rfl, rfl, hg, he⟩
      rw [hmap]
      by_cases hf : f = f'
      · subst hf
        rw [Dict.get?_set_self]
        refine ⟨PySet.nodup_add ih.1, fun k => ?_⟩
        simp only [Option.getD_some, PySet.mem_add]
        rw [ih.2, hk']
        constructor
        · rintro (⟨h1, h2⟩ | rfl)
          · exact ⟨.inl h1, h2⟩
          · exact ⟨.inr rfl, rfl⟩
        · rintro ⟨h1 | h1, h2⟩
          · exact .inl ⟨h1, h2⟩
          · exact .inr h1
      · rw [Dict.get?_set_ne _ _ (Ne.symm hf)]
        refine ⟨ih.1, fun k => ?_⟩
        rw [ih.2, hk']
        constructor
        · rintro ⟨h1, h2⟩; exact ⟨.inl h1, h2⟩
        · rintro ⟨h1 | rfl, h2⟩
          · exact ⟨h1, h2⟩
          · exact absurd h2.symm hf
    · have hmap : (step cf op s).2.map = s.map := by
        unfold step
        cases op with
        | addExchange f' d r v t a =>
          simp only
          rw [if_neg]
          intro hc
          simp only [Bool.and_eq_true, Option.isNone_iff_eq_none] at hc
          exact hop ⟨f', d, r, v, t, a, rfl, hc.1, hc.2⟩
        | addReference _ _ => rfl
        | removeReference _ _ => rfl
        | allocate _ => rfl
        | removeAllocation _ => rfl
      rw [hmap]
      refine ⟨ih.1, fun k => ?_⟩
      rw [ih.2]
      constructor
      · rintro ⟨h1, h2⟩; exact ⟨(hk k).2 (.inl h1), h2⟩
      · rintro ⟨h1, h2⟩
        rcases (hk k).1 h1 with h | ⟨f', d, r, v, t, a, h3, h4, h5, h6⟩
        · exact ⟨h, h2⟩
        · exact absurd ⟨f', d, r, v, t, a, h3, h4 ▸ h5, h6⟩ hop

end Ivt
