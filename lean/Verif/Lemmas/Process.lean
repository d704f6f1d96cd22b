import Mathlib.Algebra.BigOperators.Group.List.Basic
import Mathlib.Algebra.Field.Rat
import Mathlib.Tactic.Ring
import Mathlib.Tactic.FieldSimp
import Mathlib.Tactic.Tauto
import Mathlib.Tactic.ByContra
import Verif.Model.Process

/-! Invariant of processes. -/

set_option linter.unusedSectionVars false

namespace Proc
variable {F Q T : Type} [DecidableEq F] [DecidableEq T]

structure Inv (p : State F Q T) : Prop where
  nodup : p.exchs.keys.Nodup
  refsNodup : p.refs.Nodup
  refs : ∀ k, k ∈ p.refs ↔ ∃ e, p.exchs.get? k = some e ∧ e.isRef = true
  term : ∀ k ∈ p.refs, k.term = none
  vdict : ∀ k e, p.exchs.get? k = some e → e.vdict.keys.Nodup

theorem inv_init : Inv ({} : State F Q T) := by
  constructor <;> simp [Dict.keys]

/-- storing an exchange with the same reference flag (or a new non-reference one) -/
theorem inv_set {p : State F Q T} (h : Inv p) {k : Key F T} {e : Exch F T}
    (hr : e.isRef = isRefOf p k) (hv : e.vdict.keys.Nodup) : Inv { p with exchs := p.exchs.set k e } := by
  refine ⟨Dict.nodup_keys_set _ _ _ h.nodup, h.refsNodup, ?_, h.term, ?_⟩
  · intro k'
    simp only
    rw [h.refs, Dict.get?_set]
    split
    · rename_i e1
      subst e1
      unfold isRefOf at hr
      constructor
      · rintro ⟨e0, h0, h1⟩
        refine ⟨e, rfl, ?_⟩
        rw [hr, h0]; simpa using h1
      · rintro ⟨e0, h0, h1⟩
        simp at h0; subst h0
        rw [hr] at h1
        cases hg : p.exchs.get? k with
        | none => rw [hg] at h1; simp at h1
        | some e0 => rw [hg] at h1; exact ⟨e0, rfl, by simpa using h1⟩
    · rfl
  · intro k' e' hk
    simp only at hk
    rw [Dict.get?_set] at hk
    split at hk
    · simp at hk; subst hk; exact hv
    · exact h.vdict k' e' hk

theorem setValue_ok {e e' : Exch F T} {v : Option ℚ} (h : setValue e v = .ok e') :
    e.value = none ∧ e' = { e with value := v } := by
  unfold setValue at h
  split at h
  · simp at h
  · rename_i h0; simp at h; exact ⟨h0, h.symm⟩

theorem has_false {K V : Type} [DecidableEq K] {d : Dict K V} {k : K} (h : ¬ d.has k = true) : d.get? k = none := by
  unfold Dict.has at h
  cases hg : d.get? k with
  | none => rfl
  | some v => rw [hg] at h; simp at h

theorem setItem_ok {x : Key F T} {e e' : Exch F T} {key : Key F T} {b : Bool} {v : Option ℚ}
    (h : setItem x e key b v = .ok e') :
    b = true ∧ e.vdict.get? key = none ∧
      ((e.isRef = true ∧ x = key ∧ e.value = none ∧ e' = { e with value := v }) ∨
       (e.isRef = true ∧ x ≠ key ∧ v = some 0 ∧ e' = e) ∨
       (e.isRef = false ∧ e' = { e with vdict := e.vdict.set key v })) := by
  unfold setItem at h
  split at h
  · simp at h
  · rename_i hb
    split at h
    · simp at h
    · rename_i hk
      refine ⟨by simpa using hb, has_false hk, ?_⟩
      split at h
      · rename_i hr
        split at h
        · rename_i hx
          obtain ⟨h1, h2⟩ := setValue_ok h
          exact Or.inl ⟨hr, hx, h1, h2⟩
        · rename_i hx
          split at h
          · rename_i h0; simp at h; exact Or.inr (Or.inl ⟨hr, hx, h0, h.symm⟩)
          · simp at h
      · rename_i hr
        simp at h
        exact Or.inr (Or.inr ⟨by simpa using hr, h.symm⟩)

theorem addToValue_ok {e e' : Exch F T} {v : ℚ} {r : Option (Key F T)} (h : addToValue e v r = .ok e') :
    (r = none ∧ ∃ w, e.value = some w ∧ e' = { e with value := some (w + v) }) ∨
    (∃ r', r = some r' ∧ ((∃ w, e.vdict.get? r' = some (some w) ∧ e' = { e with vdict := e.vdict.set r' (some (w + v)) }) ∨
      (e.vdict.get? r' = none ∧ e' = e))) := by
  unfold addToValue at h
  split at h
  · split at h
    · rename_i w hw; simp at h; exact Or.inl ⟨rfl, w, hw, h.symm⟩
    · simp at h
  · rename_i r'
    split at h
    · rename_i w hw; simp at h; exact Or.inr ⟨r', rfl, Or.inl ⟨w, hw, h.symm⟩⟩
    · simp at h
    · rename_i hw; simp at h; exact Or.inr ⟨r', rfl, Or.inr ⟨hw, h.symm⟩⟩

/-- the ways in which an existing exchange can change under `add_exchange` -/
inductive Change (x : Key F T) (reference : Option (Key F T)) (v : ℚ) (addDups : Bool) (e : Exch F T) : Exch F T → Prop
  | same : Change x reference v addDups e e
  | value : e.value = none → Change x reference v addDups e { e with value := some v }
  | sum (w : ℚ) : e.value = some w → addDups = true → reference = none →
      Change x reference v addDups e { e with value := some (w + v) }
  | alloc (r : Key F T) : reference = some r → e.vdict.get? r = none →
      Change x reference v addDups e { e with vdict := e.vdict.set r (some v) }
  | allocSum (r : Key F T) (w : ℚ) : reference = some r → addDups = true → e.vdict.get? r = some (some w) →
      Change x reference v addDups e { e with vdict := e.vdict.set r (some (w + v)) }

/-- the state after `add_exchange` -/
theorem addExchange_cases (str : T → T) (f : F) (d : Dir) (r : Option (Key F T)) (v : Option ℚ) (t : Option T)
    (a : Bool) (p : State F Q T) :
    (addExchange str f d r v t a p).state = p ∨
    (∃ e e' w, p.exchs.get? ⟨f, d, t⟩ = some e ∧ v = some w ∧ w ≠ 0 ∧ Change ⟨f, d, t⟩ r w a e e' ∧
      (addExchange str f d r v t a p) = .ok () { p with exchs := p.exchs.set ⟨f, d, t⟩ e' }) ∨
    (p.exchs.get? ⟨f, d, t⟩ = none ∧ ∃ e', e'.isRef = false ∧ e'.vdict.keys.Nodup ∧
      addExchange str f d r v t a p = .ok () { p with exchs := p.exchs.set ⟨f, d, t.map str⟩ e' }) := by
  unfold addExchange
  simp only
  cases hg : p.exchs.get? ⟨f, d, t⟩ with
  | some e =>
    simp only
    cases v with
    | none => left; rfl
    | some v =>
      simp only
      by_cases hv : v = 0
      · left; rw [if_pos hv]; rfl
      · rw [if_neg hv]
        cases r with
        | none =>
          simp only
          cases hs : setValue e (some v) with
          | ok e' =>
            obtain ⟨h1, h2⟩ := setValue_ok hs
            right; left
            exact ⟨e, e', v, rfl, rfl, hv, h2 ▸ .value h1, rfl⟩
          | error err =>
            have : err = .duplicate ∧ ∃ w, e.value = some w := by
              unfold setValue at hs
              split at hs
              · rename_i w hw; simp at hs; exact ⟨hs.symm, w, hw⟩
              · simp at hs
            obtain ⟨rfl, w, hw⟩ := this
            simp only
            by_cases ha : a = true
            · rw [if_pos ha]
              right; left
              refine ⟨e, _, v, rfl, rfl, hv, .sum w hw ha rfl, ?_⟩
              simp [addToValue, hw]
            · rw [if_neg ha]; left; rfl
        | some r =>
          simp only
          cases hs : setItem ⟨f, d, t⟩ e r (isRefOf p r) (some v) with
          | ok e' =>
            obtain ⟨_, h2, h3⟩ := setItem_ok hs
            right; left
            refine ⟨e, e', v, rfl, rfl, hv, ?_, rfl⟩
            rcases h3 with ⟨_, _, h4, h5⟩ | ⟨_, _, _, h5⟩ | ⟨_, h5⟩
            · exact h5 ▸ .value h4
            · exact h5 ▸ .same
            · exact h5 ▸ .alloc r rfl h2
          | error err =>
            by_cases he : err = .duplicate
            · subst he
              simp only
              by_cases ha : a = true
              · rw [if_pos ha]
                cases hadd : addToValue e v (some r) with
                | error err => left; rfl
                | ok e' =>
                  right; left
                  refine ⟨e, e', v, rfl, rfl, hv, ?_, rfl⟩
                  rcases addToValue_ok hadd with ⟨h1, _⟩ | ⟨r', h1, ⟨w, h2, h3⟩ | ⟨h2, h3⟩⟩
                  · simp at h1
                  · simp at h1; subst h1; exact h3 ▸ .allocSum r w rfl ha h2
                  · exact h3 ▸ .same
              · rw [if_neg ha]; left; rfl
            · left
              cases err <;> first | rfl | exact absurd rfl he
  | none =>
    simp only
    cases r with
    | none => right; right; exact ⟨trivial, { value := v }, rfl, by simp [Dict.keys], rfl⟩
    | some r =>
      simp only
      by_cases hr : r ∈ p.refs
      · rw [if_neg (by simpa using hr)]
        cases hs : setItem ⟨f, d, t.map str⟩ ({} : Exch F T) r (isRefOf p r) v with
        | error err => left; rfl
        | ok e' =>
          right; right
          obtain ⟨_, _, h3⟩ := setItem_ok hs
          rcases h3 with ⟨h4, _⟩ | ⟨h4, _⟩ | ⟨_, h5⟩
          · simp at h4
          · simp at h4
          · exact ⟨trivial, e', by rw [h5], by rw [h5]; simp [Dict.set, Dict.keys], rfl⟩
      · rw [if_pos hr]; left; rfl

theorem change_flag {x : Key F T} {r : Option (Key F T)} {v : ℚ} {a : Bool} {e e' : Exch F T}
    (h : Change x r v a e e') (hn : e.vdict.keys.Nodup) : e'.isRef = e.isRef ∧ e'.vdict.keys.Nodup := by
  cases h with
  | same => exact ⟨rfl, hn⟩
  | value _ => exact ⟨rfl, hn⟩
  | sum _ _ _ _ => exact ⟨rfl, hn⟩
  | alloc r _ _ => exact ⟨rfl, Dict.nodup_keys_set _ _ _ hn⟩
  | allocSum r w _ _ _ => exact ⟨rfl, Dict.nodup_keys_set _ _ _ hn⟩

theorem inv_addExchange {p : State F Q T} (h : Inv p) (str : T → T) (f : F) (d : Dir) (r : Option (Key F T))
    (v : Option ℚ) (t : Option T) (a : Bool) : Inv (addExchange str f d r v t a p).state := by
  rcases addExchange_cases str f d r v t a p with h' | ⟨e, e', w, h1, _, _, h4, h5⟩ | ⟨h1, e', h2, h3, h4⟩
  · rw [h']; exact h
  · rw [h5]
    obtain ⟨h6, h7⟩ := change_flag h4 (h.vdict _ _ h1)
    exact inv_set h (by simp [isRefOf, h1, h6]) h7
  · rw [h4]
    refine inv_set h ?_ h3
    rw [h2]
    cases t with
    | none =>
      have : (Option.map str (none : Option T)) = none := rfl
      rw [this]; simp [isRefOf, h1]
    | some t =>
      unfold isRefOf
      cases hg : p.exchs.get? ⟨f, d, Option.map str (some t)⟩ with
      | none => rfl
      | some e0 =>
        by_contra hc
        have : (⟨f, d, Option.map str (some t)⟩ : Key F T) ∈ p.refs := by
          rw [h.refs]; refine ⟨e0, hg, ?_⟩
          cases hb : e0.isRef with
          | true => rfl
          | false => exact absurd (by simp [hb]) hc
        have := h.term _ this
        simp at this

theorem allocate_fields (cf : F → Q → Option ℚ) (q : Option Q) (p : State F Q T) :
    (allocate cf q p).state.exchs = p.exchs ∧ (allocate cf q p).state.refs = p.refs := by
  unfold allocate
  split
  · exact ⟨rfl, rfl⟩
  · split
    · exact ⟨rfl, rfl⟩
    · simp only
      split <;> exact ⟨rfl, rfl⟩

theorem inv_congr {p p' : State F Q T} (h : Inv p) (h1 : p'.exchs = p.exchs) (h2 : p'.refs = p.refs) : Inv p' := by
  refine ⟨h1 ▸ h.nodup, h2 ▸ h.refsNodup, ?_, h2 ▸ h.term, ?_⟩
  · intro k; rw [h1, h2]; exact h.refs k
  · intro k e; rw [h1]; exact h.vdict k e

theorem addReference_state (cf : F → Q → Option ℚ) (f : F) (d : Dir) (p : State F Q T) :
    ∃ p1 : State F Q T, (∃ r : Out (State F Q T) Err Unit, (r = .ok () p1 ∨ ∃ q, r = allocate cf (some q) p1 ∧ p.allocQty = some q) ∧
        (addReference cf f d p).state = r.state ∧ (p.allocQty = none → r = .ok () p1) ∧
        (∀ q, p.allocQty = some q → r = allocate cf (some q) p1)) ∧
      p1.allocQ = p.allocQ ∧ p1.allocSum = p.allocSum ∧
      ((p.exchs.get? ⟨f, d, none⟩ = none ∧ p1 = p) ∨
       ∃ e, p.exchs.get? ⟨f, d, none⟩ = some e ∧
        p1 = { p with exchs := p.exchs.set ⟨f, d, none⟩ { e with isRef := true }, refs := PySet.add p.refs ⟨f, d, none⟩ }) := by
  unfold addReference
  simp only
  have hst : ∀ (r : Out (State F Q T) Err Unit) (k : Key F T),
      (r.bind fun _ p2 => if (p2.exchs.get? k).isSome then .ok () p2 else .err .keyError p2).state = r.state := by
    intro r k
    cases r with
    | ok a s => simp only [Out.bind]; split <;> rfl
    | err e s => rfl
  cases hg : p.exchs.get? (⟨f, d, none⟩ : Key F T) with
  | none =>
    refine ⟨p, ⟨match p.allocQty with
      | some q => allocate cf (some q) p
      | none => .ok () p, ?_, ?_, ?_, ?_⟩, rfl, rfl, Or.inl ⟨rfl, rfl⟩⟩
    · cases hq : p.allocQty with
      | none => left; rfl
      | some q => right; exact ⟨q, rfl, rfl⟩
    · exact hst _ _
    · intro hq; rw [hq]
    · intro q hq; rw [hq]
  | some e =>
    have hq' : ({ p with exchs := p.exchs.set ⟨f, d, none⟩ { e with isRef := true }, refs := PySet.add p.refs ⟨f, d, none⟩ } : State F Q T).allocQty = p.allocQty := rfl
    refine ⟨{ p with exchs := p.exchs.set ⟨f, d, none⟩ { e with isRef := true }, refs := PySet.add p.refs ⟨f, d, none⟩ }, ⟨match p.allocQty with
      | some q => allocate cf (some q) { p with exchs := p.exchs.set ⟨f, d, none⟩ { e with isRef := true }, refs := PySet.add p.refs ⟨f, d, none⟩ }
      | none => .ok () { p with exchs := p.exchs.set ⟨f, d, none⟩ { e with isRef := true }, refs := PySet.add p.refs ⟨f, d, none⟩ }, ?_, ?_, ?_, ?_⟩, rfl, rfl, Or.inr ⟨e, rfl, rfl⟩⟩
    · cases hq : p.allocQty with
      | none => left; rfl
      | some q => right; exact ⟨q, rfl, rfl⟩
    · simp only [hq']; exact hst _ _
    · intro hq; rw [hq]
    · intro q hq; rw [hq]

theorem inv_makeRef {p : State F Q T} (h : Inv p) {f : F} {d : Dir} {e : Exch F T}
    (hg : p.exchs.get? ⟨f, d, none⟩ = some e) :
    Inv { p with exchs := p.exchs.set ⟨f, d, none⟩ { e with isRef := true }, refs := PySet.add p.refs ⟨f, d, none⟩ } := by
  refine ⟨Dict.nodup_keys_set _ _ _ h.nodup, PySet.nodup_add h.refsNodup, ?_, ?_, ?_⟩
  · intro k
    simp only
    rw [PySet.mem_add, h.refs, Dict.get?_set]
    by_cases e1 : (⟨f, d, none⟩ : Key F T) = k
    · rw [if_pos e1]
      constructor
      · intro _; exact ⟨_, rfl, rfl⟩
      · intro _; right; exact e1.symm
    · rw [if_neg e1]
      constructor
      · rintro (h' | h')
        · exact h'
        · exact absurd h'.symm e1
      · intro h'; exact Or.inl h'
  · intro k hk
    simp only at hk
    rw [PySet.mem_add] at hk
    rcases hk with hk | hk
    · exact h.term k hk
    · rw [hk]
  · intro k e' hk
    simp only at hk
    rw [Dict.get?_set] at hk
    split at hk
    · simp at hk; subst hk; have := h.vdict _ _ hg; exact this
    · exact h.vdict k e' hk

theorem inv_addReference {p : State F Q T} (h : Inv p) (cf : F → Q → Option ℚ) (f : F) (d : Dir) :
    Inv (addReference cf f d p).state := by
  obtain ⟨p1, ⟨r, hr, hst, _, _⟩, _, _, hp1⟩ := addReference_state cf f d p
  have hI1 : Inv p1 := by
    rcases hp1 with ⟨_, rfl⟩ | ⟨e, hg, rfl⟩
    · exact h
    · exact inv_makeRef h hg
  rw [hst]
  rcases hr with rfl | ⟨q, rfl, _⟩
  · exact hI1
  · obtain ⟨h1, h2⟩ := allocate_fields cf (some q) p1
    exact inv_congr hI1 h1 h2

theorem get?_mapVals {K V : Type} [DecidableEq K] (d : Dict K V) (g : V → V) (k : K) :
    Dict.get? (d.map fun kx => (kx.1, g kx.2)) k = (Dict.get? d k).map g := by
  induction d with
  | nil => rfl
  | cons a d ih =>
    obtain ⟨k', v⟩ := a
    simp only [List.map_cons, Dict.get?]
    split
    · rfl
    · exact ih

theorem inv_removeAllocation {p : State F Q T} (h : Inv p) (r : Key F T) : Inv (removeAllocation r p) := by
  unfold removeAllocation
  refine ⟨?_, h.refsNodup, ?_, h.term, ?_⟩
  · have : Dict.keys (p.exchs.map fun kx => (kx.1, { kx.2 with vdict := kx.2.vdict.del r })) = p.exchs.keys := by
      unfold Dict.keys; simp
    simp only; rw [this]; exact h.nodup
  · intro k
    simp only
    rw [get?_mapVals p.exchs (fun e => { e with vdict := e.vdict.del r }), h.refs]
    constructor
    · rintro ⟨e, h1, h2⟩; exact ⟨{ e with vdict := e.vdict.del r }, by rw [h1]; rfl, h2⟩
    · rintro ⟨e, h1, h2⟩
      rw [Option.map_eq_some_iff] at h1
      obtain ⟨e0, h3, h4⟩ := h1
      exact ⟨e0, h3, by rw [← h4] at h2; exact h2⟩
  · intro k e hk
    simp only at hk
    rw [get?_mapVals p.exchs (fun e => { e with vdict := e.vdict.del r }), Option.map_eq_some_iff] at hk
    obtain ⟨e0, h3, h4⟩ := hk
    rw [← h4]
    exact Dict.nodup_keys_del _ _ (h.vdict k e0 h3)

/-- the state in `remove_reference` before the allocation is renewed -/
def dropRef (k : Key F T) (e : Exch F T) (p : State F Q T) : State F Q T :=
  let p1 := removeAllocation k { p with exchs := p.exchs.set k { e with isRef := false } }
  { p1 with refs := p1.refs.filter fun r => decide (r ≠ k) }

theorem inv_dropRef {p : State F Q T} (h : Inv p) {k : Key F T} {e : Exch F T}
    (hg : p.exchs.get? k = some e) : Inv (dropRef k e p) := by
  unfold dropRef removeAllocation
  have hget : ∀ k', Dict.get? ((p.exchs.set k { e with isRef := false }).map fun kx => (kx.1, { kx.2 with vdict := kx.2.vdict.del k })) k' =
      ((p.exchs.set k { e with isRef := false }).get? k').map fun e => { e with vdict := e.vdict.del k } :=
    fun k' => get?_mapVals _ (fun e : Exch F T => { e with vdict := e.vdict.del k }) k'
  refine ⟨?_, h.refsNodup.filter _, ?_, ?_, ?_⟩
  · have : Dict.keys ((p.exchs.set k { e with isRef := false }).map fun kx => (kx.1, { kx.2 with vdict := kx.2.vdict.del k })) =
        (p.exchs.set k { e with isRef := false }).keys := by unfold Dict.keys; simp
    simp only; rw [this]; exact Dict.nodup_keys_set _ _ _ h.nodup
  · intro k'
    simp only
    rw [hget, List.mem_filter, h.refs, Dict.get?_set]
    by_cases e1 : k = k'
    · subst e1; simp
    · rw [if_neg e1]
      constructor
      · rintro ⟨⟨e0, h1, h2⟩, _⟩; exact ⟨{ e0 with vdict := e0.vdict.del k }, by rw [h1]; rfl, h2⟩
      · rintro ⟨e0, h1, h2⟩
        rw [Option.map_eq_some_iff] at h1
        obtain ⟨e2, h3, h4⟩ := h1
        exact ⟨⟨e2, h3, by rw [← h4] at h2; exact h2⟩, by simpa using Ne.symm e1⟩
  · intro k' hk
    simp only [List.mem_filter] at hk
    exact h.term k' hk.1
  · intro k' e' hk
    simp only at hk
    rw [hget, Option.map_eq_some_iff] at hk
    obtain ⟨e0, h3, h4⟩ := hk
    rw [← h4]
    apply Dict.nodup_keys_del
    rw [Dict.get?_set] at h3
    split at h3
    · simp at h3; subst h3; have := h.vdict _ _ hg; exact this
    · exact h.vdict _ _ h3

theorem removeReference_eq (cf : F → Q → Option ℚ) (f : F) (d : Dir) (p : State F Q T) :
    (p.exchs.get? ⟨f, d, none⟩ = none ∧ removeReference cf f d p = .err .keyError p) ∨
    ∃ e, p.exchs.get? ⟨f, d, none⟩ = some e ∧
      ((p.allocQ = none ∧ removeReference cf f d p = .ok () (dropRef ⟨f, d, none⟩ e p)) ∨
       ∃ q, p.allocQ = some q ∧ removeReference cf f d p = allocate cf (some q) (dropRef ⟨f, d, none⟩ e p)) := by
  unfold removeReference
  simp only
  cases hg : p.exchs.get? (⟨f, d, none⟩ : Key F T) with
  | none => left; exact ⟨rfl, rfl⟩
  | some e =>
    right
    refine ⟨e, rfl, ?_⟩
    simp only [removeAllocation, dropRef]
    cases hq : p.allocQ with
    | none => left; exact ⟨rfl, rfl⟩
    | some q => right; exact ⟨q, rfl, rfl⟩

theorem inv_removeReference {p : State F Q T} (h : Inv p) (cf : F → Q → Option ℚ) (f : F) (d : Dir) :
    Inv (removeReference cf f d p).state := by
  rcases removeReference_eq cf f d p with ⟨_, h2⟩ | ⟨e, hg, ⟨_, h2⟩ | ⟨q, _, h2⟩⟩
  · rw [h2]; exact h
  · rw [h2]; exact inv_dropRef h hg
  · rw [h2]
    obtain ⟨h3, h4⟩ := allocate_fields cf (some q) (dropRef ⟨f, d, none⟩ e p)
    exact inv_congr (inv_dropRef h hg) h3 h4

end Proc
