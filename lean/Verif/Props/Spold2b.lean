import Verif.Props.Spold2

/-!
Loading EcoSpold v2 datasets: C156 (unlinked archives), C157 (failed loads and later requests), units.
-/

set_option linter.unusedSectionVars false

namespace Spold
open Proc (Dir Key)

variable {P F Q U T : Type} [DecidableEq P] [DecidableEq F] [DecidableEq T]

/-! ### C156 -/

/-- the element says that the process has the exchange `k`, of amount `v` -/
def ListsU (e : El F U T) (k : Key F T) (v : ℚ) : Prop :=
  (e.kind = .inter ∨ e.kind = .elem) ∧ e.flow = k.flow ∧ e.amount = v ∧ k.term = e.link ∧
  ((e.grp = .input ∧ k.dir = .input) ∨ ∃ n, e.grp = .output n ∧ k.dir = .output)

/-- the element is a reference product of an unlinked dataset: group 0, or allocatable by-product, without activity link -/
def RefU (e : El F U T) : Prop :=
  (e.kind = .inter ∨ e.kind = .elem) ∧ e.link = none ∧ (e.grp = .output 0 ∨ (e.grp = .output 2 ∧ e.alloc = true))

/-- a sound unlinked dataset -/
structure SoundU (els : List (El F U T)) : Prop where
  readable : ∀ e ∈ els, e.kind = .param ∨ e.kind = .impact ∨ ((e.kind = .inter ∨ e.kind = .elem) ∧ e.grp ≠ .none)
  once : els.Pairwise fun e e' => ∀ k v v', ListsU e k v → ¬ ListsU e' k v'

/-- the key of an exchange as it is read -/
def X.key (x : X F T) : Key F T := ⟨x.flow, x.dir, x.term⟩

theorem addReference_ok (cf : F → Q → Option ℚ) (f : F) (d : Dir) (p : Proc.State F Q T) (hs : p.allocSum = 0) (e : Proc.Exch F T)
    (he : p.exchs.get? ⟨f, d, none⟩ = some e) :
    Proc.addReference cf f d p = .ok () { p with exchs := p.exchs.set ⟨f, d, none⟩ { e with isRef := true }, refs := PySet.add p.refs ⟨f, d, none⟩ } := by
  simp only [Proc.addReference, he, Proc.State.allocQty, hs, ne_eq, not_true_eq_false, if_false, Out.bind, Dict.get?_set_self,
    Option.isSome_some, if_true]

theorem mem_add {α : Type} [DecidableEq α] {l : List α} {a b : α} : b ∈ PySet.add l a ↔ b ∈ l ∨ b = a := by
  unfold PySet.add
  split
  · rename_i h
    constructor
    · exact Or.inl
    · rintro (h' | rfl)
      · exact h'
      · exact h
  · simp

/-- adding distinct exchanges of an unlinked dataset -/
theorem addXs_unlinked (env : Env P F Q U T) (hl : env.linked = false) (xs : List (X F T)) (p : Proc.State F Q T)
    (hn : (xs.map X.key).Nodup) (hnew : ∀ x ∈ xs, p.exchs.get? x.key = none) (hs : p.allocSum = 0) :
    ∃ p', addXs env none xs p = .ok () p' ∧ p'.allocSum = 0 ∧ p'.allocQ = p.allocQ ∧
      (∀ k, k ∉ xs.map X.key → p'.exchs.get? k = p.exchs.get? k) ∧
      (∀ x ∈ xs, p'.exchs.get? x.key = some ⟨some x.value, [], x.isRef && x.term.isNone⟩) ∧
      (∀ k, k ∈ p'.refs ↔ k ∈ p.refs ∨ ∃ x ∈ xs, x.isRef = true ∧ x.term = none ∧ k = x.key) := by
  induction xs generalizing p with
  | nil => exact ⟨p, rfl, hs, rfl, fun _ _ => rfl, fun x hx => (by cases hx), fun k => by simp⟩
  | cons x xs ih =>
    simp only [List.map_cons, List.nodup_cons] at hn
    have hx0 : p.exchs.get? x.key = none := hnew x (by simp)
    have step : ∃ p1, addX env none x p = .ok () p1 ∧ p1.allocSum = 0 ∧ p1.allocQ = p.allocQ ∧
        (∀ k, k ≠ x.key → p1.exchs.get? k = p.exchs.get? k) ∧
        p1.exchs.get? x.key = some ⟨some x.value, [], x.isRef && x.term.isNone⟩ ∧
        (∀ k, k ∈ p1.refs ↔ k ∈ p.refs ∨ (x.isRef = true ∧ x.term = none ∧ k = x.key)) := by
      have hadd : Proc.addExchange id x.flow x.dir none (some x.value) x.term false p =
          .ok () { p with exchs := p.exchs.set x.key { value := some x.value } } := by
        have : p.exchs.get? ⟨x.flow, x.dir, x.term⟩ = none := hx0
        simp [Proc.addExchange, this, X.key, Option.map_id]
      have hhas : p.exchs.has ⟨x.flow, x.dir, x.term⟩ = false := by
        have : p.exchs.get? ⟨x.flow, x.dir, x.term⟩ = none := hx0
        simp [Dict.has, this]
      unfold addX
      simp only [hl, Bool.false_eq_true, and_false, if_false, Bool.and_false, Bool.false_or, Bool.not_false, Bool.true_and, hadd, hhas, Bool.false_and]
      by_cases hr : (x.isRef && x.term.isNone) = true
      · simp only [hr, if_true]
        have ht : x.term = none := by
          simp only [Bool.and_eq_true, Option.isNone_iff_eq_none] at hr; exact hr.2
        have hkey : x.key = ⟨x.flow, x.dir, none⟩ := by simp [X.key, ht]
        have hg : (p.exchs.set x.key ({ value := some x.value } : Proc.Exch F T)).get? ⟨x.flow, x.dir, none⟩ = some { value := some x.value } := by
          rw [← hkey]; exact Dict.get?_set_self _ _ _
        rw [addReference_ok env.cf x.flow x.dir { p with exchs := p.exchs.set x.key { value := some x.value } } hs { value := some x.value } hg]
        refine ⟨_, rfl, hs, rfl, ?_, ?_, ?_⟩
        · intro k hk
          have hk' : x.key ≠ k := Ne.symm hk
          have hk'' : (⟨x.flow, x.dir, none⟩ : Key F T) ≠ k := by rw [← hkey]; exact hk'
          simp only [Dict.get?_set_ne _ _ hk', Dict.get?_set_ne _ _ hk'']
        · rw [hkey]; exact Dict.get?_set_self _ _ _
        · intro k
          simp only [mem_add]
          simp only [Bool.and_eq_true] at hr
          rw [hkey]; simp [hr.1, ht]
      · simp only [hr, if_false]
        refine ⟨_, rfl, hs, rfl, ?_, ?_, ?_⟩
        · intro k hk
          simp only [Dict.get?_set_ne _ _ (Ne.symm hk)]
        · simp only [Dict.get?_set_self]
        · intro k
          simp only [Bool.and_eq_true, Option.isNone_iff_eq_none, not_and] at hr
          constructor
          · exact Or.inl
          · rintro (h | ⟨h1, h2, _⟩)
            · exact h
            · exact absurd h2 (hr h1)
    obtain ⟨p1, s1, s2, s3, s4, s5, s6⟩ := step
    obtain ⟨p', i1, i2, i3, i4, i5, i6⟩ := ih p1 hn.2
      (fun y hy => by
        rw [s4 y.key (fun h => hn.1 (h ▸ List.mem_map_of_mem hy))]
        exact hnew y (List.mem_cons_of_mem _ hy)) s2
    refine ⟨p', by rw [addXs, s1]; exact i1, i2, by rw [i3, s3], ?_, ?_, ?_⟩
    · intro k hk
      simp only [List.map_cons, List.mem_cons, not_or] at hk
      rw [i4 k hk.2, s4 k hk.1]
    · intro y hy
      rcases List.mem_cons.mp hy with rfl | hy
      · rw [i4 _ hn.1, s5]
      · exact i5 y hy
    · intro k
      rw [i6 k, s6 k]
      simp only [List.mem_cons, exists_eq_or_imp, or_assoc]

/-- reading the elements of an unlinked dataset -/
theorem collect_unlinked (els : List (El F U T)) (units : Dict F U) (h : ∀ e ∈ els, Readable e) :
    ∃ xs units', collect els units = .ok xs units' ∧
      (∀ k v, (∃ x ∈ xs, x.key = k ∧ x.value = v) ↔ ∃ e ∈ els, ListsU e k v) ∧
      (∀ k, (∃ x ∈ xs, x.isRef = true ∧ x.term = none ∧ k = x.key) ↔ ∃ e ∈ els, RefU e ∧ k = ⟨e.flow, .output, none⟩) ∧
      ((els.Pairwise fun e e' => ∀ k v v', ListsU e k v → ¬ ListsU e' k v') → (xs.map X.key).Nodup) := by
  induction els generalizing units with
  | nil => exact ⟨[], units, rfl, by simp, by simp, by simp⟩
  | cons e es ih =>
    have he := h e (by simp)
    have ih := fun u => ih u (fun e' h' => h e' (List.mem_cons_of_mem _ h'))
    rw [collect]
    by_cases hp : e.kind = .param ∨ e.kind = .impact
    · obtain ⟨xs, u, h1, h2, h3, h4⟩ := ih units
      have hno : ∀ k v, ¬ ListsU e k v := by
        rintro k v ⟨h1, _⟩
        rcases hp with h | h <;> rw [h] at h1 <;> simp at h1
      have hnr : ¬ RefU e := by
        rintro ⟨h1, _⟩
        rcases hp with h | h <;> rw [h] at h1 <;> simp at h1
      refine ⟨xs, u, by simp [hp, h1], ?_, ?_, ?_⟩
      · intro k v; rw [h2]; simp [hno]
      · intro k; rw [h3]; simp [hnr]
      · intro hh; rw [List.pairwise_cons] at hh; exact h4 hh.2
    · have he' : (e.kind = .inter ∨ e.kind = .elem) ∧ e.grp ≠ .none := by
        rcases he with h | h | h
        · exact absurd (Or.inl h) hp
        · exact absurd (Or.inr h) hp
        · exact h
      have hc : createFlow e units = .ok (if units.has e.flow then units else units.set e.flow e.unit) := by
        rcases he'.1 with h | h <;> simp [createFlow, h]
      obtain ⟨x, hx, hx1, hx2⟩ : ∃ x, collectOne e = .ok x ∧ (∀ k v, (x.key = k ∧ x.value = v) ↔ ListsU e k v) ∧
          (∀ k, (x.isRef = true ∧ x.term = none ∧ k = x.key) ↔ (RefU e ∧ k = ⟨e.flow, .output, none⟩)) := by
        unfold collectOne
        cases hg : e.grp with
        | none => exact absurd hg he'.2
        | input =>
          refine ⟨_, rfl, ?_, ?_⟩
          · rintro ⟨kf, kd, kt⟩ v
            simp only [X.key, Key.mk.injEq, ListsU, he'.1, true_and, hg, reduceCtorEq, false_and, exists_false, or_false]
            constructor
            · rintro ⟨⟨a, b, c⟩, d⟩; exact ⟨a, d, c.symm, b.symm⟩
            · rintro ⟨a, b, c, d⟩; exact ⟨⟨a, d.symm, c.symm⟩, b⟩
          · intro k
            simp [RefU, hg]
        | output n =>
          refine ⟨_, rfl, ?_, ?_⟩
          · rintro ⟨kf, kd, kt⟩ v
            simp only [X.key, Key.mk.injEq, ListsU, he'.1, true_and, hg, reduceCtorEq, false_and, false_or, Grp.output.injEq]
            constructor
            · rintro ⟨⟨a, b, c⟩, d⟩; exact ⟨a, d, c.symm, n, rfl, b.symm⟩
            · rintro ⟨a, b, c, m, _, d⟩; exact ⟨⟨a, d.symm, c.symm⟩, b⟩
          · intro k
            simp only [X.key, RefU, he'.1, true_and, hg, Grp.output.injEq, Bool.or_eq_true, decide_eq_true_eq, Bool.and_eq_true]
            constructor
            · rintro ⟨a, b, c⟩; exact ⟨⟨b, a⟩, by rw [c, b]⟩
            · rintro ⟨⟨b, a⟩, c⟩; exact ⟨a, b, by rw [c, b]⟩
      obtain ⟨xs, u, h1, h2, h3, h4⟩ := ih (if units.has e.flow then units else units.set e.flow e.unit)
      refine ⟨x :: xs, u, by simp only [hp, if_false, hc, hx, h1], ?_, ?_, ?_⟩
      · intro k v
        simp only [List.mem_cons, exists_eq_or_imp, h2, hx1]
      · intro k
        simp only [List.mem_cons, exists_eq_or_imp, h3, hx2]
      · intro hh
        rw [List.pairwise_cons] at hh
        simp only [List.map_cons, List.nodup_cons]
        refine ⟨?_, h4 hh.2⟩
        intro hm
        obtain ⟨y, hy, hyk⟩ := List.mem_map.mp hm
        obtain ⟨e', he', h'⟩ := (h2 y.key y.value).mp ⟨y, hy, rfl, rfl⟩
        refine hh.1 e' he' x.key x.value y.value ((hx1 _ _).mp ⟨rfl, rfl⟩) ?_
        rw [← hyk]; exact h'

/-- **C156** a sound dataset of an unlinked archive is loaded with exactly its exchanges, those of amount zero included, with their amounts and
activity links, and its reference products are the references of the process -/
theorem unlinked_loaded (env : Env P F Q U T) (hl : env.linked = false) (p : P) (r : F) (els : List (El F U T)) (hf : env.file p r = some els)
    (hs : SoundU els) (a : Ar P F Q U T) (ha : a.procs.get? p = none) :
    ∃ a' st, fetch env true p [r] a = .ok () a' ∧ a'.procs.get? p = some st ∧
      (∀ k v, (∃ e, st.exchs.get? k = some e ∧ e.value = some v ∧ e.vdict = []) ↔ ∃ e ∈ els, ListsU e k v) ∧
      (∀ k, k ∈ st.exchs.keys → ∃ v, ∃ e ∈ els, ListsU e k v) ∧
      (∀ k, k ∈ st.refs ↔ ∃ e ∈ els, RefU e ∧ k = ⟨e.flow, .output, none⟩) ∧
      (∀ p', p' ≠ p → a'.procs.get? p' = a.procs.get? p') := by
  obtain ⟨xs, u, c1, c2, c3, c4⟩ := collect_unlinked els a.units hs.readable
  obtain ⟨st, s1, _, _, s4, s5, s6⟩ := addXs_unlinked env hl xs ({} : Proc.State F Q T) (c4 hs.once) (fun _ _ => rfl) rfl
  have hnone : ∀ k, k ∉ xs.map X.key → st.exchs.get? k = none := fun k hk => by rw [s4 k hk]; rfl
  refine ⟨⟨a.procs.set p st, u⟩, st, ?_, Dict.get?_set_self _ _ _, ?_, ?_, ?_, ?_⟩
  · simp only [fetch, loadOne, ha, hf, fill, hl, Bool.false_eq_true, if_false, if_true, loadXs, c1, s1]
  · intro k v
    rw [← c2 k v]
    constructor
    · rintro ⟨e, h1, h2, _⟩
      by_cases hk : k ∈ xs.map X.key
      · obtain ⟨x, hx, rfl⟩ := List.mem_map.mp hk
        rw [s5 x hx] at h1
        cases h1
        simp only [Option.some.injEq] at h2
        exact ⟨x, hx, rfl, h2⟩
      · rw [hnone k hk] at h1; cases h1
    · rintro ⟨x, hx, rfl, rfl⟩
      exact ⟨_, s5 x hx, rfl, rfl⟩
  · intro k hk
    by_cases hk' : k ∈ xs.map X.key
    · obtain ⟨x, hx, rfl⟩ := List.mem_map.mp hk'
      exact ⟨x.value, (c2 _ _).mp ⟨x, hx, rfl, rfl⟩⟩
    · obtain ⟨e, he⟩ := (Dict.mem_keys_iff _ _).mp hk
      rw [hnone k hk'] at he; cases he
  · intro k
    rw [s6 k, ← c3 k]
    constructor
    · rintro (h | h)
      · cases h
      · exact h
    · exact Or.inr
  · intro p' hp'
    exact Dict.get?_set_ne _ _ (Ne.symm hp')

/-! ### C157 -/

theorem addExchange_refs (str : T → T) (f : F) (d : Dir) (r : Option (Key F T)) (v : Option ℚ) (t : Option T) (ad : Bool) (p : Proc.State F Q T) :
    (Proc.addExchange str f d r v t ad p).state.refs = p.refs := by
  have hput : ∀ (x : Key F T) (o : Except Proc.Err (Proc.Exch F T)), (match o with
      | .ok e' => (.ok () { p with exchs := p.exchs.set x e' } : Out (Proc.State F Q T) Proc.Err Unit)
      | .error err => .err err p).state.refs = p.refs := by
    intro x o; cases o <;> rfl
  unfold Proc.addExchange
  dsimp only
  split
  · split
    · rfl
    · split
      · rfl
      · split
        · split
          · exact hput _ _
          · rfl
        · exact hput _ _
  · split
    · rfl
    · split
      · rfl
      · split <;> rfl

theorem ite_state {c : Bool} {e : Err} {p : Proc.State F Q T} :
    (if c = true then (.err e p : Out (Proc.State F Q T) Err Unit) else .ok () p).state = p := by
  cases c <;> rfl

theorem addX_refs (env : Env P F Q U T) (hl : env.linked = true) (rx : Option (Key F T)) (x : X F T) (p : Proc.State F Q T) :
    (addX env rx x p).state.refs = p.refs := by
  have h := addExchange_refs id x.flow x.dir rx (some x.value) (if x.isRef && env.linked then none else x.term) false p
  unfold addX
  dsimp only
  split
  · rfl
  · cases hx : Proc.addExchange id x.flow x.dir rx (some x.value) (if x.isRef && env.linked then none else x.term) false p with
    | err e p' => rw [hx] at h; exact h
    | ok _ p' =>
      rw [hx] at h
      simp only [hl, Bool.not_true, Bool.false_and, Bool.false_eq_true, if_false]
      rw [ite_state]; exact h

theorem addXs_refs (env : Env P F Q U T) (hl : env.linked = true) (rx : Option (Key F T)) (xs : List (X F T)) (p : Proc.State F Q T) :
    (addXs env rx xs p).state.refs = p.refs := by
  induction xs generalizing p with
  | nil => rfl
  | cons x xs ih =>
    have h := addX_refs env hl rx x p
    rw [addXs]
    cases hx : addX env rx x p with
    | err e p' => rw [hx] at h; exact h
    | ok _ p' => rw [hx] at h; rw [← h]; exact ih p'

/-- a linked process: references are outputs without termination, and there is no allocation -/
structure Lk (st : Proc.State F Q T) : Prop where
  refs : ∀ k ∈ st.refs, k.dir = .output ∧ k.term = none
  nodup : st.refs.Nodup

theorem lk_hasReference {st : Proc.State F Q T} (h : Lk st) (r : F) : hasReference st r = .ok (decide (rkey r ∈ st.refs)) := by
  unfold hasReference
  have hf : ∀ k ∈ st.refs.filter (fun k => decide (k.flow = r)), k = rkey r := by
    intro k hk
    obtain ⟨h1, h2⟩ := List.mem_filter.mp hk
    obtain ⟨h3, h4⟩ := h.refs k h1
    obtain ⟨f, d, t⟩ := k
    simp only [decide_eq_true_eq] at h2
    simp only at h3 h4
    subst h3 h4 h2; rfl
  have hn := h.nodup.filter (fun k => decide (k.flow = r))
  have hmem : ∀ k, k ∈ st.refs.filter (fun k => decide (k.flow = r)) → rkey r ∈ st.refs := fun k hk =>
    hf k hk ▸ (List.mem_filter.mp hk).1
  cases hc : st.refs.filter (fun k => decide (k.flow = r)) with
  | nil =>
    have : (rkey r : Key F T) ∉ st.refs := by
      intro hm
      have : (rkey r : Key F T) ∈ st.refs.filter (fun k => decide (k.flow = r)) := List.mem_filter.mpr ⟨hm, by simp⟩
      rw [hc] at this; cases this
    simp [this]
  | cons k l =>
    have hr : (rkey r : Key F T) ∈ st.refs := hmem k (by rw [hc]; simp)
    cases l with
    | nil => simp [hr]
    | cons k' l' =>
      rw [hc] at hf hn
      have h1 := hf k (by simp)
      have h2 := hf k' (by simp)
      rw [h1, h2] at hn
      simp at hn

/-- what setting the reference exchange does to the references, and it never fails -/
theorem setRx_refs (env : Env P F Q U T) (r : F) (p : Proc.State F Q T) (hs : p.allocSum = 0) :
    ∃ p', setRx env r p = .ok () p' ∧ p'.refs = PySet.add p.refs (rkey r) ∧ p'.allocSum = 0 := by
  unfold setRx
  cases hx : p.exchs.get? (rkey r) with
  | none =>
    have e1 : Proc.addExchange id r .output none none none false p = .ok () { p with exchs := p.exchs.set (rkey r) { value := none } } := by
      have : p.exchs.get? ⟨r, .output, none⟩ = none := hx
      simp [Proc.addExchange, this]
    rw [e1]
    dsimp only
    rw [addReference_ok env.cf r .output { p with exchs := p.exchs.set (rkey r) { value := none } } hs { value := none } (Dict.get?_set_self _ _ _)]
    exact ⟨_, rfl, rfl, hs⟩
  | some e =>
    have e1 : Proc.addExchange id r .output none none none false p = .ok () p := by
      have : p.exchs.get? ⟨r, .output, none⟩ = some e := hx
      simp [Proc.addExchange, this]
    rw [e1]
    dsimp only
    rw [addReference_ok env.cf r .output p hs e hx]
    exact ⟨_, rfl, rfl, hs⟩

theorem addExchange_allocSum (str : T → T) (f : F) (d : Dir) (r : Option (Key F T)) (v : Option ℚ) (t : Option T) (ad : Bool) (p : Proc.State F Q T) :
    (Proc.addExchange str f d r v t ad p).state.allocSum = p.allocSum := by
  have hput : ∀ (x : Key F T) (o : Except Proc.Err (Proc.Exch F T)), (match o with
      | .ok e' => (.ok () { p with exchs := p.exchs.set x e' } : Out (Proc.State F Q T) Proc.Err Unit)
      | .error err => .err err p).state.allocSum = p.allocSum := by
    intro x o; cases o <;> rfl
  unfold Proc.addExchange
  dsimp only
  split
  · split
    · rfl
    · split
      · rfl
      · split
        · split
          · exact hput _ _
          · rfl
        · exact hput _ _
  · split
    · rfl
    · split
      · rfl
      · split <;> rfl

theorem addX_allocSum (env : Env P F Q U T) (hl : env.linked = true) (rx : Option (Key F T)) (x : X F T) (p : Proc.State F Q T) :
    (addX env rx x p).state.allocSum = p.allocSum := by
  have h := addExchange_allocSum id x.flow x.dir rx (some x.value) (if x.isRef && env.linked then none else x.term) false p
  unfold addX
  dsimp only
  split
  · rfl
  · cases hx : Proc.addExchange id x.flow x.dir rx (some x.value) (if x.isRef && env.linked then none else x.term) false p with
    | err e p' => rw [hx] at h; exact h
    | ok _ p' =>
      rw [hx] at h
      simp only [hl, Bool.not_true, Bool.false_and, Bool.false_eq_true, if_false]
      rw [ite_state]; exact h

theorem addXs_allocSum (env : Env P F Q U T) (hl : env.linked = true) (rx : Option (Key F T)) (xs : List (X F T)) (p : Proc.State F Q T) :
    (addXs env rx xs p).state.allocSum = p.allocSum := by
  induction xs generalizing p with
  | nil => rfl
  | cons x xs ih =>
    have h := addX_allocSum env hl rx x p
    rw [addXs]
    cases hx : addX env rx x p with
    | err e p' => rw [hx] at h; exact h
    | ok _ p' => rw [hx] at h; rw [← h]; exact ih p'

/-- the processes of a linked archive -/
def LkAr (a : Ar P F Q U T) : Prop := ∀ p st, a.procs.get? p = some st → Lk st ∧ st.allocSum = 0

/-- what a call of a linked archive leaves, and that the reference is there if it went as far as that -/
theorem fill_state (env : Env P F Q U T) (hl : env.linked = true) (b : Bool) (p : P) (r : F) (els : List (El F U T)) (st : Proc.State F Q T)
    (hst : Lk st) (hs : st.allocSum = 0) (a : Ar P F Q U T) :
    ∃ st' u, (fill env b p r els st a).state = ⟨a.procs.set p st', u⟩ ∧ Lk st' ∧ st'.allocSum = 0 ∧
      (rkey r ∈ st'.refs ∨ ((∃ s, fill env b p r els st a = .err .key s) ∧ st' = st ∧ ∀ e ∈ els, ¬(e.kind = .inter ∧ e.flow = r))) := by
  have lkadd : ∀ q : Proc.State F Q T, q.refs = PySet.add st.refs (rkey r) → Lk q := by
    intro q hq
    constructor
    · intro k hk
      rw [hq, mem_add] at hk
      rcases hk with hk | rfl
      · exact hst.refs k hk
      · exact ⟨rfl, rfl⟩
    · rw [hq]
      unfold PySet.add
      split
      · exact hst.nodup
      · rename_i h; exact List.nodup_append.mpr ⟨hst.nodup, by simp, by rintro x hx y hy rfl; simp at hy; exact h (hy ▸ hx)⟩
  unfold fill
  simp only [hl, if_true]
  cases hg : grab r els a.units with
  | error e =>
    have : (∀ e ∈ els, ¬(e.kind = .inter ∧ e.flow = r)) ∧ e = .key := by
      unfold grab at hg
      cases hf : els.find? fun e => decide (e.kind = .inter ∧ e.flow = r) with
      | none =>
        rw [hf] at hg
        refine ⟨fun e' he' => ?_, by cases hg; rfl⟩
        have := List.find?_eq_none.mp hf e' he'
        simpa using this
      | some x =>
        rw [hf] at hg
        have := List.find?_some hf
        simp only [decide_eq_true_eq] at this
        simp [createFlow, this.1] at hg
    exact ⟨st, a.units, rfl, hst, hs, Or.inr ⟨⟨_, by rw [this.2]⟩, rfl, this.1⟩⟩
  | ok u =>
    obtain ⟨p1, e1, e2, e3⟩ := setRx_refs env r st hs
    simp only [e1]
    have hm : rkey r ∈ p1.refs := by rw [e2, mem_add]; exact Or.inr rfl
    cases b with
    | false => exact ⟨p1, u, rfl, lkadd p1 e2, e3, Or.inl hm⟩
    | true =>
      simp only [if_true, loadXs]
      cases collect els u with
      | err e u' => exact ⟨p1, u', rfl, lkadd p1 e2, e3, Or.inl hm⟩
      | ok xs u' =>
        simp only
        have hr := addXs_refs env hl (some ⟨r, .output, none⟩) xs p1
        have ha := addXs_allocSum env hl (some ⟨r, .output, none⟩) xs p1
        cases hx : addXs env (some ⟨r, .output, none⟩) xs p1 with
        | err e p2 =>
          rw [hx] at hr ha
          simp only [Out.state] at hr ha
          exact ⟨p2, u', rfl, lkadd p2 (by rw [hr, e2]), by rw [ha, e3], Or.inl (by rw [hr]; exact hm)⟩
        | ok _ p2 =>
          rw [hx] at hr ha
          simp only [Out.state] at hr ha
          exact ⟨p2, u', rfl, lkadd p2 (by rw [hr, e2]), by rw [ha, e3], Or.inl (by rw [hr]; exact hm)⟩

theorem lkAr_set {a : Ar P F Q U T} (h : LkAr a) (p : P) {st : Proc.State F Q T} (h1 : Lk st) (h2 : st.allocSum = 0) (u : Dict F U) :
    LkAr ⟨a.procs.set p st, u⟩ := by
  intro q st' hq
  simp only [Dict.get?_set] at hq
  split at hq
  · cases hq; exact ⟨h1, h2⟩
  · exact h q st' hq

/-- calls keep the form of a linked archive -/
theorem loadOne_lk (env : Env P F Q U T) (hl : env.linked = true) (b : Bool) (p : P) (r : F) (a : Ar P F Q U T) (h : LkAr a) :
    LkAr (loadOne env b p r a).state := by
  have hfill : ∀ els st, Lk st → st.allocSum = 0 → LkAr (fill env b p r els st a).state := by
    intro els st h1 h2
    obtain ⟨st', u, g1, g2, g3, _⟩ := fill_state env hl b p r els st h1 h2 a
    rw [g1]
    exact lkAr_set h p g2 g3 u
  unfold loadOne
  cases hp : a.procs.get? p with
  | none =>
    simp only
    cases env.file p r with
    | none => exact h
    | some els => exact hfill els {} ⟨by simp, by simp⟩ rfl
  | some st =>
    obtain ⟨h1, h2⟩ := h p st hp
    simp only [lk_hasReference h1]
    cases decide (rkey r ∈ st.refs) with
    | true => exact h
    | false =>
      simp only
      cases env.file p r with
      | none => exact h
      | some els => exact hfill els st h1 h2

/-- the states of a linked archive: any history of loads, that succeed or fail, of processes with or without exchanges, from any files -/
inductive Hist : Ar P F Q U T → Prop
  | new (u : Dict F U) : Hist ⟨[], u⟩
  | load (env : Env P F Q U T) (hl : env.linked = true) (b : Bool) (p : P) (r : F) {a : Ar P F Q U T} : Hist a → Hist (loadOne env b p r a).state

theorem hist_lk {a : Ar P F Q U T} (h : Hist a) : LkAr a := by
  induction h with
  | new u => intro p st hp; cases hp
  | load env hl b p r _ ih => exact loadOne_lk env hl b p r _ ih

/-- **C157** fails: a load that fails in the middle of a dataset leaves a process that is handed out from then on as if it were complete: the same
request succeeds, and so does retrieving the process; neither adds anything -/
theorem failed_kept {a : Ar P F Q U T} (ha : Hist a) (env env' : Env P F Q U T) (hl : env.linked = true) (b b' : Bool) (p : P) (r : F) (rs : List F)
    (e : Err) (a' : Ar P F Q U T) (h : loadOne env b p r a = .err e a') (he : e ≠ .notFound) (hk : e ≠ .key) :
    loadOne env' b' p r a' = .ok () a' ∧ ∃ st, a'.procs.get? p = some st ∧ retrieve env' b' p rs a' = .ok (some st) a' := by
  have hLk := hist_lk ha
  have hfill : ∀ els st, Lk st → st.allocSum = 0 → fill env b p r els st a = .err e a' →
      ∃ st', a'.procs.get? p = some st' ∧ Lk st' ∧ rkey r ∈ st'.refs := by
    intro els st h1 h2 hf
    obtain ⟨st', u, g1, g2, _, g4⟩ := fill_state env hl b p r els st h1 h2 a
    rw [hf] at g1 g4
    simp only [Out.state] at g1
    refine ⟨st', by rw [g1]; exact Dict.get?_set_self _ _ _, g2, ?_⟩
    rcases g4 with g4 | ⟨⟨s, g4⟩, _⟩
    · exact g4
    · cases g4; exact absurd rfl hk
  have key : ∃ st', a'.procs.get? p = some st' ∧ Lk st' ∧ rkey r ∈ st'.refs := by
    unfold loadOne at h
    cases hp : a.procs.get? p with
    | none =>
      simp only [hp] at h
      cases hf : env.file p r with
      | none => rw [hf] at h; cases h; exact absurd rfl he
      | some els => rw [hf] at h; exact hfill els {} ⟨by simp, by simp⟩ rfl h
    | some st =>
      obtain ⟨h1, h2⟩ := hLk p st hp
      simp only [hp, lk_hasReference h1] at h
      by_cases hm : (rkey r : Key F T) ∈ st.refs
      · simp [hm] at h
      · simp only [hm, decide_false] at h
        cases hf : env.file p r with
        | none => rw [hf] at h; cases h; exact absurd rfl he
        | some els => rw [hf] at h; exact hfill els st h1 h2 h
  obtain ⟨st, h1, h2, h3⟩ := key
  refine ⟨?_, st, h1, by simp [retrieve, h1]⟩
  simp [loadOne, h1, lk_hasReference h2, h3]

/-- **C157** fails: a process that was loaded without its exchanges never gets them -/
theorem without_exchanges_kept {a : Ar P F Q U T} (ha : Hist a) (env env' : Env P F Q U T) (hl : env.linked = true) (p : P) (r : F)
    (a' : Ar P F Q U T) (h : loadOne env false p r a = .ok () a') : loadOne env' true p r a' = .ok () a' := by
  have hLk := hist_lk ha
  have hfill : ∀ els st, Lk st → st.allocSum = 0 → fill env false p r els st a = .ok () a' →
      ∃ st', a'.procs.get? p = some st' ∧ Lk st' ∧ rkey r ∈ st'.refs := by
    intro els st h1 h2 hf
    obtain ⟨st', u, g1, g2, _, g4⟩ := fill_state env hl false p r els st h1 h2 a
    rw [hf] at g1 g4
    simp only [Out.state] at g1
    refine ⟨st', by rw [g1]; exact Dict.get?_set_self _ _ _, g2, ?_⟩
    rcases g4 with g4 | ⟨⟨s, g4⟩, _⟩
    · exact g4
    · cases g4
  have key : ∃ st', a'.procs.get? p = some st' ∧ Lk st' ∧ rkey r ∈ st'.refs := by
    unfold loadOne at h
    cases hp : a.procs.get? p with
    | none =>
      simp only [hp] at h
      cases hf : env.file p r with
      | none => rw [hf] at h; cases h
      | some els => rw [hf] at h; exact hfill els {} ⟨by simp, by simp⟩ rfl h
    | some st =>
      obtain ⟨h1, h2⟩ := hLk p st hp
      simp only [hp, lk_hasReference h1] at h
      by_cases hm : (rkey r : Key F T) ∈ st.refs
      · simp only [hm, decide_true, Out.ok.injEq, true_and] at h
        exact ⟨st, by rw [← h, hp], h1, hm⟩
      · simp only [hm, decide_false] at h
        cases hf : env.file p r with
        | none => rw [hf] at h; cases h
        | some els => rw [hf] at h; exact hfill els st h1 h2 h
  obtain ⟨st, h1, h2, h3⟩ := key
  simp [loadOne, h1, lk_hasReference h2, h3]

/-! ### units -/

/-- two datasets that differ in units only -/
def SameButUnits (els els' : List (El F U T)) : Prop := List.Forall₂ (fun e e' => ∃ u, e' = { e with unit := u }) els els'

theorem collect_units {els els' : List (El F U T)} (h : SameButUnits els els') (u u' : Dict F U) :
    (∃ xs v v', collect els u = .ok xs v ∧ collect els' u' = .ok xs v') ∨ (∃ e v v', collect els u = .err e v ∧ collect els' u' = .err e v') := by
  induction h generalizing u u' with
  | nil => exact Or.inl ⟨[], u, u', rfl, rfl⟩
  | cons he _ ih =>
    rename_i e e' es es' _
    obtain ⟨n, rfl⟩ := he
    simp only [collect]
    by_cases hp : e.kind = .param ∨ e.kind = .impact
    · simp only [hp, if_true]; exact ih u u'
    · simp only [hp, if_false]
      have hc : (∃ w w', createFlow e u = .ok w ∧ createFlow { e with unit := n } u' = .ok w') ∨
          (createFlow e u = .error .attribute ∧ createFlow { e with unit := n } u' = .error .attribute) := by
        unfold createFlow
        cases hk : e.kind <;> simp
      rcases hc with ⟨w, w', h1, h2⟩ | ⟨h1, h2⟩
      · simp only [h1, h2]
        have h3 : collectOne { e with unit := n } = collectOne e := rfl
        rw [h3]
        cases collectOne e with
        | error x => exact Or.inr ⟨x, w, w', rfl, rfl⟩
        | ok x =>
          rcases ih w w' with ⟨xs, v, v', g1, g2⟩ | ⟨y, v, v', g1, g2⟩
          · exact Or.inl ⟨x :: xs, v, v', by simp [g1], by simp [g2]⟩
          · exact Or.inr ⟨y, v, v', by simp [g1], by simp [g2]⟩
      · simp only [h1, h2]
        exact Or.inr ⟨_, u, u', rfl, rfl⟩

/-- **C156** fails: the unit of an element is never looked at when the flow is known: whatever units the elements of a dataset are in, and whatever
units the flows have, the amounts recorded are the same -/
theorem unit_ignored (env env' : Env P F Q U T) (hl : env'.linked = env.linked) (hcf : env'.cf = env.cf) (p : P) (r : F)
    (els els' : List (El F U T)) (hf : env.file p r = some els) (hf' : env'.file p r = some els') (hu : SameButUnits els els') (b : Bool)
    (a a' : Ar P F Q U T) (ha : a'.procs = a.procs) :
    (loadOne env' b p r a').state.procs = (loadOne env b p r a).state.procs ∧
    (loadOne env' b p r a').error? = (loadOne env b p r a).error? := by
  have hx : ∀ rx xs st, addXs env' rx xs st = addXs env rx xs st := by
    intro rx xs st
    induction xs generalizing st with
    | nil => rfl
    | cons x xs ih =>
      have : addX env' rx x st = addX env rx x st := by unfold addX; rw [hl, hcf]
      rw [addXs, addXs, this]
      cases addX env rx x st with
      | err e s => rfl
      | ok _ s => exact ih s
  have hrx : ∀ st, setRx env' r st = setRx env r st := by intro st; unfold setRx; rw [hcf]
  have hload : ∀ rx st u u', (loadXs env' p rx els' st u' a').state.procs = (loadXs env p rx els st u a).state.procs ∧
      (loadXs env' p rx els' st u' a').error? = (loadXs env p rx els st u a).error? := by
    intro rx st u u'
    unfold loadXs
    rcases collect_units hu u u' with ⟨xs, v, v', g1, g2⟩ | ⟨y, v, v', g1, g2⟩
    · rw [g1, g2]
      simp only [hx]
      cases addXs env rx xs st with
      | err e s => simp [Out.state, Out.error?, ha]
      | ok _ s => simp [Out.state, Out.error?, ha]
    · rw [g1, g2]
      simp [Out.state, Out.error?, ha]
  have hgrab : ∀ u u', (∃ v v', grab r els u = .ok v ∧ grab r els' u' = .ok v') ∨ (grab r els u = .error .key ∧ grab r els' u' = .error .key) := by
    intro u u'
    have hfind : (els.find? (fun e => decide (e.kind = .inter ∧ e.flow = r)) = none ∧ els'.find? (fun e => decide (e.kind = .inter ∧ e.flow = r)) = none) ∨
        ∃ e n, els.find? (fun e => decide (e.kind = .inter ∧ e.flow = r)) = some e ∧
          els'.find? (fun e => decide (e.kind = .inter ∧ e.flow = r)) = some { e with unit := n } := by
      clear hf hf' hload
      induction hu with
      | nil => exact Or.inl ⟨rfl, rfl⟩
      | cons he _ ih =>
        rename_i e e' es es' _
        obtain ⟨n, rfl⟩ := he
        by_cases hd : e.kind = .inter ∧ e.flow = r
        · exact Or.inr ⟨e, n, by simp [hd], by simp [hd]⟩
        · simp only [List.find?_cons, hd, decide_false]
          exact ih
    unfold grab
    rcases hfind with ⟨h1, h2⟩ | ⟨e, n, h1, h2⟩
    · exact Or.inr ⟨by rw [h1], by rw [h2]⟩
    · have := List.find?_some h1
      simp only [decide_eq_true_eq] at this
      refine Or.inl ?_
      rw [h1, h2]
      simp [createFlow, this.1]
  have hfill : ∀ st, (fill env' b p r els' st a').state.procs = (fill env b p r els st a).state.procs ∧
      (fill env' b p r els' st a').error? = (fill env b p r els st a).error? := by
    intro st
    unfold fill
    rw [hl]
    cases env.linked with
    | true =>
      simp only [if_true]
      rcases hgrab a.units a'.units with ⟨v, v', g1, g2⟩ | ⟨g1, g2⟩
      · rw [g1, g2]
        simp only [hrx]
        cases setRx env r st with
        | err e s => simp [Out.state, Out.error?, ha]
        | ok _ s =>
          cases b with
          | true => exact hload _ _ _ _
          | false => simp [Out.state, Out.error?, ha]
      · rw [g1, g2]
        simp [Out.state, Out.error?, ha]
    | false =>
      simp only [Bool.false_eq_true, if_false]
      cases b with
      | true => exact hload _ _ _ _
      | false => simp [Out.state, Out.error?, ha]
  unfold loadOne
  rw [ha]
  cases a.procs.get? p with
  | none => simp only [hf, hf']; exact hfill _
  | some st =>
    simp only [hf, hf']
    cases hasReference st r with
    | error e => simp [Out.state, Out.error?, ha]
    | ok t =>
      cases t with
      | true => simp [Out.state, Out.error?, ha]
      | false => exact hfill _

end Spold
