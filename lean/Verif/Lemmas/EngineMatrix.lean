import Mathlib.Tactic.FieldSimp
import Mathlib.Algebra.BigOperators.Group.List.Basic
import Verif.Lemmas.Tstack4

set_option linter.unusedSectionVars false
set_option linter.unusedSimpArgs false

namespace Engine
variable {F P : Type} [DecidableEq F] [DecidableEq P]
variable {db : DB F P} {strat : Strategy}

theorem adjustVals_spec {A : Type} {s : State F P} {l r : List ((F × P) × A × ℚ)}
    (h : adjustVals s l = some r) :
    r = l.map (fun i => (i.1, i.2.1, i.2.2 / (s.ev.get? i.1).getD 0)) ∧
      ∀ i ∈ l, (s.ev.get? i.1).getD 0 ≠ 0 := by
  induction l generalizing r with
  | nil => simp [adjustVals] at h; subst h; simp
  | cons i l ih =>
    obtain ⟨p, a, v⟩ := i
    unfold adjustVals at h
    simp only at h
    split at h
    · simp at h
    · rename_i hne
      cases hr : adjustVals s l with
      | none => rw [hr] at h; simp at h
      | some r' =>
        rw [hr] at h
        simp only [Option.map_some, Option.some.injEq] at h
        obtain ⟨h1, h2⟩ := ih hr
        subst h
        refine ⟨by simp [h1], ?_⟩
        intro i hi
        rcases List.mem_cons.mp hi with e | hi
        · subst e; exact hne
        · exact h2 i hi

theorem adjustVals_total {A : Type} {s : State F P} {l : List ((F × P) × A × ℚ)}
    (h : ∀ i ∈ l, (s.ev.get? i.1).getD 0 ≠ 0) : ∃ r, adjustVals s l = some r := by
  induction l with
  | nil => exact ⟨[], rfl⟩
  | cons i l ih =>
    obtain ⟨p, a, v⟩ := i
    obtain ⟨r, hr⟩ := ih fun i hi => h i (List.mem_cons_of_mem _ hi)
    have := h (p, a, v) (by simp)
    simp only at this
    unfold adjustVals
    simp only
    rw [if_neg this, hr]
    exact ⟨_, rfl⟩

theorem sum_div {α : Type} (l : List α) (f : α → ℚ) (c : ℚ) :
    (l.map fun x => f x / c).sum = (l.map f).sum / c := by
  induction l with
  | nil => simp
  | cons a l ih => simp [ih, add_div]

/-- the sum over the recorded interior exchanges is the sum over the inventory -/
theorem Rest.int_sum {s : State F P} (h : Rest db strat s) {u w : F × P} (hu : u ∈ s.pfIndex)
    (hne : w ≠ u) :
    ((s.interior.filter fun i => decide (i.1 = u ∧ i.2.1 = w)).map fun i => i.2.2).sum =
      useOf db strat u w := by
  have h1 : s.interior.filter (fun i => decide (i.1 = u ∧ i.2.1 = w)) =
      (s.interior.filter fun i => decide (i.1 = u)).filter fun i => decide (i.2.1 = w) := by
    rw [List.filter_filter]
    apply List.filter_congr
    intro x _
    simp [Bool.and_comm]
  rw [h1, (h.data.fin u hu (by simp)).int, List.filter_reverse, List.map_reverse, List.sum_reverse]
  unfold useOf intOf
  generalize db.inv u = xs
  induction xs with
  | nil => simp
  | cons x xs ih =>
    rw [List.filterMap_cons, List.map_cons, List.sum_cons, ← ih]
    cases hd : depOf db strat x with
    | none => simp
    | some p =>
      obtain ⟨w', v⟩ := p
      simp only
      by_cases hwu : w' = u
      · subst hwu
        rw [if_pos rfl]
        simp [Ne.symm hne]
      · rw [if_neg hwu]
        by_cases hww : w' = w
        · subst hww; simp
        · simp [hww]

theorem Rest.cut_sum {s : State F P} (h : Rest db strat s) {u : F × P} (hu : u ∈ s.pfIndex)
    (e : F × Dir) :
    ((s.cutoffs.filter fun i => decide (i.1 = u ∧ i.2.1 = e)).map fun i => i.2.2).sum =
      emitOf db strat u e := by
  have h1 : s.cutoffs.filter (fun i => decide (i.1 = u ∧ i.2.1 = e)) =
      (s.cutoffs.filter fun i => decide (i.1 = u)).filter fun i => decide (i.2.1 = e) := by
    rw [List.filter_filter]
    apply List.filter_congr
    intro x _
    simp [Bool.and_comm]
  rw [h1, (h.data.fin u hu (by simp)).cut, List.filter_reverse, List.map_reverse, List.sum_reverse]
  unfold emitOf extOf
  generalize db.inv u = xs
  induction xs with
  | nil => simp
  | cons x xs ih =>
    rw [List.filterMap_cons, List.map_cons, List.sum_cons, ← ih]
    cases hd : cutOf db strat x with
    | none => simp
    | some p =>
      obtain ⟨e', v⟩ := p
      simp only [Option.map_some]
      by_cases hee : e' = e
      · subst hee; simp
      · simp [hee]

theorem entry_map {α R C : Type} [DecidableEq R] [DecidableEq C] (l : List α) (f : α → R × C × ℚ)
    (r : R) (c : C) :
    entry (l.map f) r c =
      ((l.filter fun i => decide ((f i).1 = r ∧ (f i).2.1 = c)).map fun i => (f i).2.2).sum := by
  unfold entry
  rw [List.filter_map, List.map_map]
  rfl

/-- an entry of a matrix made from adjusted exchanges: generic form -/
theorem entry_adjusted {A R C : Type} [DecidableEq A] [DecidableEq R] [DecidableEq C]
    (s : State F P) (l : List ((F × P) × A × ℚ)) (keep : (F × P) × A × ℚ → Bool)
    (row : A → R) (col : F × P → C) (u : F × P) (a : A)
    (hk : ∀ i ∈ l, ((keep (i.1, i.2.1, i.2.2 / (s.ev.get? i.1).getD 0)) = true ∧ row i.2.1 = row a ∧
      col i.1 = col u) ↔ (i.1 = u ∧ i.2.1 = a)) :
    entry ((((l.map fun i => (i.1, i.2.1, i.2.2 / (s.ev.get? i.1).getD 0)).filter keep)).map
      fun i => (row i.2.1, col i.1, i.2.2)) (row a) (col u) =
    ((l.filter fun i => decide (i.1 = u ∧ i.2.1 = a)).map fun i => i.2.2).sum /
      (s.ev.get? u).getD 0 := by
  rw [entry_map, List.filter_filter, List.filter_map, List.map_map, ← sum_div]
  have : (l.filter ((fun i : (F × P) × A × ℚ => decide (row i.2.1 = row a ∧ col i.1 = col u) && keep i) ∘
      fun i => (i.1, i.2.1, i.2.2 / (s.ev.get? i.1).getD 0))) =
      l.filter fun i => decide (i.1 = u ∧ i.2.1 = a) := by
    apply List.filter_congr
    intro i hi
    have := hk i hi
    rw [Bool.eq_iff_iff]
    simp only [Function.comp, Bool.and_eq_true, decide_eq_true_eq]
    rw [and_comm]
    exact this
  rw [this]
  congr 1
  apply List.map_congr_left
  intro i hi
  simp only [List.mem_filter, decide_eq_true_eq] at hi
  simp [Function.comp, hi.2.1]

/-- the engine after `updateGraph` on a fresh engine -/
structure EngOK (db : DB F P) (strat : Strategy) (s : State F P) (e : Eng F P) : Prop where
  gok : GraphOK db strat s e.g
  st : e.st = { s with interior := [], cutoffs := [] }
  evNZ : ∀ i ∈ s.interior, (s.ev.get? i.1).getD 0 ≠ 0
  evNZc : ∀ i ∈ s.cutoffs, (s.ev.get? i.1).getD 0 ≠ 0
  int : e.interior = (s.interior.map fun i => (i.1, i.2.1, i.2.2 / (s.ev.get? i.1).getD 0)).filter
    fun i => isBackground e.g (pfIx s i.1)
  fgd : e.foreground = (s.interior.map fun i => (i.1, i.2.1, i.2.2 / (s.ev.get? i.1).getD 0)).filter
    fun i => !isBackground e.g (pfIx s i.1)
  bge : e.bgEmission = (s.cutoffs.map fun i => (i.1, i.2.1, i.2.2 / (s.ev.get? i.1).getD 0)).filter
    fun i => isBackground e.g (pfIx s i.1)
  cut : e.cutoff = (s.cutoffs.map fun i => (i.1, i.2.1, i.2.2 / (s.ev.get? i.1).getD 0)).filter
    fun i => !isBackground e.g (pfIx s i.1)
  mat : (e.g.background = none ∧ e.aMatrix = none ∧ e.bMatrix = none) ∨
    (e.g.background ≠ none ∧ e.aMatrix = some (constructA s e.g e.interior) ∧
      e.bMatrix = some (constructB s e.g e.bgEmission))

theorem updateGraph_spec {o : SetOrd F P} {fuel : ℕ} {s : State F P} {e : Eng F P}
    (h : Rest db strat s) (hr : updateGraph o fuel { st := s } = some e) : EngOK db strat s e := by
  unfold updateGraph at hr
  split at hr
  · simp at hr
  · rename_i g hg
    have hok := graph_spec h hg
    split at hr
    · rename_i is cs his hcs
      obtain ⟨h1, h2⟩ := adjustVals_spec his
      obtain ⟨h3, h4⟩ := adjustVals_spec hcs
      simp only [List.nil_append] at h1 h2 h3 h4
      cases hb : g.background with
      | none =>
        simp only [hb, Option.some.injEq] at hr
        subst hr
        exact ⟨hok, rfl, h2, h4, by simp [h1], by simp [h1], by simp [h3], by simp [h3],
          Or.inl ⟨hb, rfl, rfl⟩⟩
      | some b =>
        simp only [hb, Option.some.injEq] at hr
        subst hr
        exact ⟨hok, rfl, h2, h4, by simp [h1], by simp [h1], by simp [h3], by simp [h3],
          Or.inr ⟨by simp [hb], rfl, rfl⟩⟩
    · simp at hr

theorem addAllRefProducts_spec {o : SetOrd F P} {fuel : ℕ} {vs : List (F × P)} {e : Eng F P}
    (hr : addAllRefProducts o db strat fuel vs {} = some e) :
    ∃ s, addAll db strat fuel vs {} = .ok () s ∧ Rest db strat s ∧
      EngOK db strat s { e with allAdded := false } := by
  unfold addAllRefProducts at hr
  rw [if_neg (by simp)] at hr
  split at hr
  · simp at hr
  · rename_i s hs
    have hrest : Rest db strat s := ⟨(addAll_spec inv_init hs).1, addAll_data inv_init dinv_init hs⟩
    refine ⟨s, hs, hrest, ?_⟩
    cases hu : updateGraph o fuel ({ st := s } : Eng F P) with
    | none => rw [hu] at hr; simp at hr
    | some e' =>
      rw [hu] at hr
      simp only [Option.map_some, Option.some.injEq] at hr
      have hok := updateGraph_spec hrest hu
      rw [← hr]
      exact ⟨hok.gok, hok.st, hok.evNZ, hok.evNZc, hok.int, hok.fgd, hok.bge, hok.cut, hok.mat⟩

end Engine
