import Verif.Model.Spold2

/-!
Lemmas for loading linked EcoSpold v2 datasets.
-/

set_option linter.unusedSectionVars false

namespace Spold
open Proc (Dir Key)

variable {P F Q U T : Type} [DecidableEq P] [DecidableEq F] [DecidableEq T]

abbrev rkey (r : F) : Key F T := ⟨r, .output, none⟩

/-- what an exchange of a linked dataset sets -/
def xkey (x : X F T) : Option (Key F T × ℚ) :=
  if x.value = 0 then none else some (⟨x.flow, x.dir, if x.isRef then none else x.term⟩, x.value)

/-- adding a list of amounts for a reference -/
def addKV (rx : Key F T) : List (Key F T × ℚ) → Proc.State F Q T → Out (Proc.State F Q T) Err Unit
  | [], p => .ok () p
  | kv :: l, p =>
    match Proc.addExchange id kv.1.flow kv.1.dir (some rx) (some kv.2) kv.1.term false p with
    | .err e p => .err (.proc e) p
    | .ok _ p => addKV rx l p

theorem addXs_eq (env : Env P F Q U T) (hl : env.linked = true) (rx : Key F T) (xs : List (X F T)) (p : Proc.State F Q T) :
    addXs env (some rx) xs p = addKV rx (xs.filterMap xkey) p := by
  induction xs generalizing p with
  | nil => rfl
  | cons x xs ih =>
    by_cases h0 : x.value = 0
    · simp [addXs, addX, h0, hl, xkey, ih]
    · have : (x :: xs).filterMap xkey = (⟨x.flow, x.dir, if x.isRef then none else x.term⟩, x.value) :: xs.filterMap xkey := by
        simp [xkey, h0]
      rw [this, addKV, addXs, addX]
      simp only [h0, false_and, if_false, hl, Bool.and_true, Bool.not_true, Bool.false_and, Bool.false_eq_true]
      cases Proc.addExchange id x.flow x.dir (some rx) (some x.value) (if x.isRef then none else x.term) false p with
      | err e p => rfl
      | ok _ p => simp [ih]

/-- the state of an exchange after an amount for the reference `r` has been added, or not -/
def upd (r k : Key F T) (old : Option (Proc.Exch F T)) : Option ℚ → Option (Proc.Exch F T)
  | none => old
  | some v =>
    if k = r then some ⟨some v, [], true⟩
    else some { (old.getD {}) with vdict := (old.getD {}).vdict ++ [(r, some v)] }

theorem isRefOf_set {p : Proc.State F Q T} {r k : Key F T} {e : Proc.Exch F T} (h : Proc.isRefOf p r = true)
    (he : k = r → e.isRef = true) : Proc.isRefOf { p with exchs := p.exchs.set k e } r = true := by
  unfold Proc.isRefOf
  simp only [Dict.get?_set]
  by_cases hk : k = r
  · simp [hk, he hk]
  · simpa [hk, Proc.isRefOf] using h

/-- adding distinct amounts, none of them of another reference -/
theorem addKV_ok (r : Key F T) (l : Dict (Key F T) ℚ) (p : Proc.State F Q T) (hn : l.keys.Nodup) (hv : ∀ kv ∈ l, kv.2 ≠ 0)
    (h1 : r ∈ p.refs) (h2 : Proc.isRefOf p r = true) (h3 : r ∈ l.keys → p.exchs.get? r = some ⟨none, [], true⟩)
    (h4 : ∀ k ∈ l.keys, k ≠ r → ∀ e, p.exchs.get? k = some e → e.isRef = false ∧ e.vdict.get? r = none) :
    ∃ p', addKV r l p = .ok () p' ∧ p'.refs = p.refs ∧ p'.allocQ = p.allocQ ∧ p'.allocSum = p.allocSum ∧
      ∀ k, p'.exchs.get? k = upd r k (p.exchs.get? k) (l.get? k) := by
  induction l generalizing p with
  | nil => exact ⟨p, rfl, rfl, rfl, rfl, fun k => rfl⟩
  | cons kv l ih =>
    obtain ⟨k, v⟩ := kv
    have hv0 : v ≠ 0 := hv (k, v) (by simp)
    simp only [Dict.keys, List.map_cons, List.nodup_cons] at hn
    -- the state of the first exchange
    have step : ∃ e, Proc.addExchange id k.flow k.dir (some r) (some v) k.term false p =
        .ok () { p with exchs := p.exchs.set k e } ∧ upd r k (p.exchs.get? k) (some v) = some e ∧ (k = r → e.isRef = true) := by
      by_cases hk : k = r
      · subst hk
        have h3' := h3 (by simp [Dict.keys])
        refine ⟨⟨some v, [], true⟩, ?_, by simp [upd], fun _ => rfl⟩
        have : (⟨k.flow, k.dir, k.term⟩ : Key F T) = k := rfl
        simp [Proc.addExchange, this, h3', hv0, Proc.setItem, h2, Dict.has, Dict.get?, Proc.setValue]
      · have h4' := h4 k (by simp [Dict.keys]) hk
        have : (⟨k.flow, k.dir, k.term⟩ : Key F T) = k := rfl
        cases hg : p.exchs.get? k with
        | none =>
          refine ⟨⟨none, [(r, some v)], false⟩, ?_, by simp [upd, hk], fun h => absurd h hk⟩
          simp [Proc.addExchange, this, hg, h1, Proc.setItem, h2, Dict.has, Dict.get?, Dict.set, Option.map_id]
        | some e =>
          obtain ⟨h5, h6⟩ := h4' e hg
          refine ⟨{ e with vdict := e.vdict ++ [(r, some v)] }, ?_, by simp [upd, hk], fun h => absurd h hk⟩
          have h7 : e.vdict.set r (some v) = e.vdict ++ [(r, some v)] :=
            Dict.set_of_not_mem _ _ ((Dict.not_mem_keys_iff _ _).mpr h6)
          simp [Proc.addExchange, this, hg, hv0, Proc.setItem, h2, Dict.has, h6, h5, h7]
    obtain ⟨e, he1, he2, he3⟩ := step
    obtain ⟨p', hp1, hp2, hp3, hp4, hp5⟩ := ih { p with exchs := p.exchs.set k e } hn.2
      (fun kv hkv => hv kv (List.mem_cons_of_mem _ hkv)) h1 (isRefOf_set h2 he3)
      (fun hr => by
        have hne : k ≠ r := fun h => hn.1 (h ▸ hr)
        simp only [Dict.get?_set_ne _ _ hne]
        exact h3 (by simp only [Dict.keys, List.map_cons, List.mem_cons]; exact Or.inr hr))
      (fun k' hk' hkr e' he' => by
        have hne : k ≠ k' := fun h => hn.1 (h ▸ hk')
        simp only [Dict.get?_set_ne _ _ hne] at he'
        exact h4 k' (by simp only [Dict.keys, List.map_cons, List.mem_cons]; exact Or.inr hk') hkr e' he')
    refine ⟨p', ?_, hp2, hp3, hp4, ?_⟩
    · rw [addKV, he1]; exact hp1
    · intro k'
      rw [hp5 k']
      simp only [Dict.get?_set, Dict.get?]
      by_cases hkk : k = k'
      · subst hkk
        have : Dict.get? l k = none := (Dict.not_mem_keys_iff _ _).mp hn.1
        simp [this, upd] at he2 ⊢
        exact he2.symm
      · simp [hkk]

/-- the reference exchange of a new reference -/
theorem setRx_ok (env : Env P F Q U T) (r : F) (p : Proc.State F Q T) (hs : p.allocSum = 0) (hr : (rkey r : Key F T) ∉ p.refs)
    (hx : p.exchs.get? (rkey r) = none) :
    ∃ p', setRx env r p = .ok () p' ∧ p'.refs = p.refs ++ [rkey r] ∧ p'.allocQ = p.allocQ ∧ p'.allocSum = 0 ∧
      ∀ k, p'.exchs.get? k = if k = rkey r then some ⟨none, [], true⟩ else p.exchs.get? k := by
  refine ⟨{ p with exchs := (p.exchs.set (rkey r) { value := none }).set (rkey r) { value := none, isRef := true }, refs := p.refs ++ [rkey r] },
    ?_, rfl, rfl, hs, ?_⟩
  · have e1 : Proc.addExchange id r .output none none none false p = .ok () { p with exchs := p.exchs.set (rkey r) { value := none } } := by
      simp only [Proc.addExchange, Option.map_none]
      have : p.exchs.get? ⟨r, .output, none⟩ = none := hx
      simp [this]
    rw [setRx, e1]
    simp only [Proc.addReference, Dict.get?_set_self, PySet.add, hr, if_false, Proc.State.allocQty, hs, ne_eq, not_true_eq_false,
      Out.bind, Option.isSome_some, if_true]
  · intro k
    simp only [Dict.get?_set]
    by_cases hk : k = rkey r
    · subst hk; simp
    · have hk' : (rkey r : Key F T) ≠ k := fun h => hk h.symm
      simp [hk, hk']

/-! ### reading the elements -/

/-- what an element of a linked dataset sets -/
def lkey (e : El F U T) : Option (Key F T × ℚ) :=
  if e.kind = .param ∨ e.kind = .impact then none
  else
    match collectOne e with
    | .ok x => xkey x
    | .error _ => none

/-- elements that can be read -/
def Readable (e : El F U T) : Prop := e.kind = .param ∨ e.kind = .impact ∨ ((e.kind = .inter ∨ e.kind = .elem) ∧ e.grp ≠ .none)

theorem collect_ok (els : List (El F U T)) (units : Dict F U) (h : ∀ e ∈ els, Readable e) :
    ∃ xs units', collect els units = .ok xs units' ∧ xs.filterMap xkey = els.filterMap lkey := by
  induction els generalizing units with
  | nil => exact ⟨[], units, rfl, rfl⟩
  | cons e es ih =>
    have he := h e (by simp)
    have ih := fun u => ih u (fun e' h' => h e' (List.mem_cons_of_mem _ h'))
    rw [collect]
    by_cases hp : e.kind = .param ∨ e.kind = .impact
    · obtain ⟨xs, u, h1, h2⟩ := ih units
      exact ⟨xs, u, by simp [hp, h1], by simp [h2, lkey, hp]⟩
    · have he' : (e.kind = .inter ∨ e.kind = .elem) ∧ e.grp ≠ .none := by
        rcases he with h | h | h
        · exact absurd (Or.inl h) hp
        · exact absurd (Or.inr h) hp
        · exact h
      have hc : createFlow e units = .ok (if units.has e.flow then units else units.set e.flow e.unit) := by
        rcases he'.1 with h | h <;> simp [createFlow, h]
      obtain ⟨x, hx⟩ : ∃ x, collectOne e = .ok x := by
        unfold collectOne
        cases hg : e.grp with
        | output n => exact ⟨_, rfl⟩
        | input => exact ⟨_, rfl⟩
        | none => exact absurd hg he'.2
      obtain ⟨xs, u, h1, h2⟩ := ih (if units.has e.flow then units else units.set e.flow e.unit)
      refine ⟨x :: xs, u, by simp only [hp, if_false, hc, hx, h1], ?_⟩
      have hlk : lkey e = xkey x := by unfold lkey; simp [hp, hx]
      simp only [List.filterMap_cons, hlk, h2]

theorem grab_ok (r : F) (els : List (El F U T)) (units : Dict F U) (h : ∃ e ∈ els, e.kind = .inter ∧ e.flow = r) :
    ∃ u, grab r els units = .ok u := by
  unfold grab
  cases hf : els.find? fun e => decide (e.kind = .inter ∧ e.flow = r) with
  | none =>
    obtain ⟨e, he, h1⟩ := h
    have := List.find?_eq_none.mp hf e he
    simp [h1] at this
  | some e =>
    have := List.find?_some hf
    simp only [decide_eq_true_eq] at this
    exact ⟨_, by simp [createFlow, this.1]; rfl⟩

end Spold
