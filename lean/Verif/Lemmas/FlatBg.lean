import Verif.Model.FlatBg
import Verif.Props.Engine2
import Verif.Props.Engine3

set_option linter.unusedSectionVars false
set_option linter.unusedSimpArgs false

namespace FlatBg
open Engine
variable {F P : Type} [DecidableEq F] [DecidableEq P]
variable {db : DB F P} {strat : Strategy}

/-! ### `{key: i for i, key in enumerate(l)}` -/

theorem enumDict_fold {K : Type} [DecidableEq K] (ps : List (K × ℕ)) (d : Dict K ℕ)
    (h : (d.keys ++ ps.map Prod.fst).Nodup) :
    ps.foldl (fun d kn => d.set kn.1 kn.2) d = d ++ ps := by
  induction ps generalizing d with
  | nil => simp
  | cons p ps ih =>
    rw [List.foldl_cons]
    have hp : p.1 ∉ d.keys := by
      intro hm
      exact (List.nodup_append.mp h).2.2 _ hm p.1 (by simp) rfl
    rw [Dict.set_of_not_mem d _ hp, ih]
    · simp
    · simpa [Dict.keys] using h

theorem enumDict_eq {K : Type} [DecidableEq K] {l : List K} (hl : l.Nodup) : enumDict l = l.zipIdx := by
  unfold enumDict
  rw [enumDict_fold]
  · simp
  · simpa [Dict.keys, List.zipIdx_map_fst] using hl

theorem enumDict_get {K : Type} [DecidableEq K] {l : List K} (hl : l.Nodup) (k : K) (n : ℕ) :
    (enumDict l).get? k = some n ↔ l[n]? = some k := by
  rw [enumDict_eq hl]
  have hk : (Dict.keys (l.zipIdx : Dict K ℕ)).Nodup := by simpa [Dict.keys, List.zipIdx_map_fst] using hl
  constructor
  · intro h
    exact List.mem_zipIdx_iff_getElem?.mp (Dict.mem_of_get?_eq_some _ h)
  · intro h
    exact Dict.get?_eq_some_of_mem _ hk (List.mem_zipIdx_iff_getElem?.mpr h)

theorem enumDict_has {K : Type} [DecidableEq K] {l : List K} (hl : l.Nodup) (k : K) :
    (enumDict l).has k = true ↔ k ∈ l := by
  rw [Dict.has_iff, enumDict_eq hl, Dict.keys, List.zipIdx_map_fst]

/-! ### sparse matrices -/

theorem filterMap_range_single {α : Type} (n j : ℕ) (hj : j < n) (f : ℕ → Option α) :
    ((List.range n).filterMap fun c => if c = j then f c else none) = (f j).toList := by
  induction n with
  | zero => omega
  | succ n ih =>
    rw [List.range_succ, List.filterMap_append]
    by_cases e : j = n
    · subst e
      have : ((List.range j).filterMap fun c => if c = j then f c else none) = [] := by
        rw [List.filterMap_eq_nil_iff]
        intro c hc
        rw [if_neg (by have := List.mem_range.mp hc; omega)]
      rw [this]
      cases h : f j <;> simp [h]
    · rw [ih (by omega)]
      have : ¬ n = j := fun h => e h.symm
      simp [this]

/-- the stored entries of column `j` -/
theorem csr_col {nr nc : ℕ} {ts : List (Option ℕ × Option ℕ × ℚ)} {m : Sp} (h : csr nr nc ts = some m)
    {j : ℕ} (hj : j < nc) :
    m.col j = (List.range nr).filterMap fun r =>
      if ts.any (fun t => decide (t.1 = some r ∧ t.2.1 = some j))
      then some (r, entry ts (some r) (some j)) else none := by
  unfold csr at h
  split at h
  · cases h
    unfold Sp.col
    rw [List.filter_flatMap, List.map_flatMap]
    conv_rhs => rw [List.filterMap_eq_flatMap_toList]
    congr 1
    funext r
    rw [List.filter_filterMap, List.map_filterMap]
    rw [← filterMap_range_single nc j hj (fun c =>
      if (ts.any fun t => decide (t.1 = some r ∧ t.2.1 = some c)) = true
      then some (r, entry ts (some r) (some c)) else none)]
    congr 1
    funext c
    generalize (ts.any fun t => decide (t.1 = some r ∧ t.2.1 = some c)) = b
    by_cases hc : c = j
    · cases b <;> simp [hc, Option.filter]
    · cases b <;> simp [hc, Option.filter]
  · cases h

/-- the stored entries of row `i` -/
theorem csr_row {nr nc : ℕ} {ts : List (Option ℕ × Option ℕ × ℚ)} {m : Sp} (h : csr nr nc ts = some m)
    {i : ℕ} (hi : i < nr) :
    m.row i = (List.range nc).filterMap fun c =>
      if ts.any (fun t => decide (t.1 = some i ∧ t.2.1 = some c))
      then some (c, entry ts (some i) (some c)) else none := by
  unfold csr at h
  split at h
  · cases h
    unfold Sp.row
    rw [List.filter_flatMap, List.map_flatMap]
    have hz : ∀ r ∈ List.range nr, (List.map (fun t : ℕ × ℕ × ℚ => (t.2.1, t.2.2))
        (List.filter (fun t => decide (t.1 = i)) (List.filterMap (fun c =>
          if (ts.any fun t => decide (t.1 = some r ∧ t.2.1 = some c)) = true
          then some (r, c, entry ts (some r) (some c)) else none) (List.range nc)))) =
        if r = i then ((List.range nc).filterMap fun c =>
          if ts.any (fun t => decide (t.1 = some i ∧ t.2.1 = some c))
          then some (c, entry ts (some i) (some c)) else none) else [] := by
      intro r _
      by_cases hr : r = i
      · subst hr
        rw [if_pos rfl, List.filter_filterMap, List.map_filterMap]
        congr 1
        funext c
        generalize (ts.any fun t => decide (t.1 = some r ∧ t.2.1 = some c)) = b
        cases b <;> simp [Option.filter]
      · rw [if_neg hr, List.filter_filterMap, List.map_filterMap, List.filterMap_eq_nil_iff]
        intro c _
        generalize (ts.any fun t => decide (t.1 = some r ∧ t.2.1 = some c)) = b
        cases b <;> simp [hr, Option.filter]
    rw [List.flatMap_congr hz]
    clear hz
    generalize ((List.range nc).filterMap fun c =>
          if ts.any (fun t => decide (t.1 = some i ∧ t.2.1 = some c))
          then some (c, entry ts (some i) (some c)) else none) = l
    rename_i hall
    clear hall
    induction nr with
    | zero => omega
    | succ n ih =>
      rw [List.range_succ, List.flatMap_append]
      by_cases e : i = n
      · subst e
        have : ((List.range i).flatMap fun r => if r = i then l else []) = [] := by
          rw [List.flatMap_eq_nil_iff]
          intro c hc
          rw [if_neg (by have := List.mem_range.mp hc; omega)]
        rw [this]; simp
      · rw [ih (by omega)]
        have : ¬ n = i := fun h => e h.symm
        simp [this]
  · cases h

theorem csr_some {nr nc : ℕ} {ts : List (Option ℕ × Option ℕ × ℚ)}
    (h : ∀ t ∈ ts, ∃ r c, t.1 = some r ∧ t.2.1 = some c ∧ r < nr ∧ c < nc) : ∃ m, csr nr nc ts = some m := by
  unfold csr
  rw [if_pos]
  · exact ⟨_, rfl⟩
  · rw [List.all_eq_true]
    intro t ht
    obtain ⟨r, c, h1, h2, h3, h4⟩ := h t ht
    simp [h1, h2, h3, h4]

theorem pairs_eq {v : List (ℕ × ℚ)} (h : ∀ t ∈ v, t.2 ≠ 0) : pairs v = v := by
  unfold pairs nonzero
  rw [List.filter_eq_self.mpr (by simpa using h)]
  induction v with
  | nil => rfl
  | cons a v ih => simp [ih (fun t ht => h t (List.mem_cons_of_mem _ ht))]

theorem genLoop_eq (node : P) (en : List (TermRef F P P)) {ps : List (ℕ × ℚ)}
    (h : ∀ t ∈ ps, t.1 < en.length) :
    genLoop node en ps = (ps.filterMap fun t => (en[t.1]?).map fun x => exchOf node x t.2, none) := by
  induction ps with
  | nil => rfl
  | cons p ps ih =>
    obtain ⟨r, d⟩ := p
    have hr : r < en.length := h (r, d) (by simp)
    have := ih (fun t ht => h t (List.mem_cons_of_mem _ ht))
    simp [genLoop, this, hr]

theorem emLoop_eq (node : P) (en : List (TermRef F (Option P) P)) {ps : List (ℕ × ℚ)}
    (h : ∀ t ∈ ps, t.1 < en.length) :
    emLoop node en ps = (ps.filterMap fun t => (en[t.1]?).map fun x =>
      (⟨node, x.flow, x.dir.comp, none, t.2⟩ : ExchDef F P), none) := by
  induction ps with
  | nil => rfl
  | cons p ps ih =>
    obtain ⟨r, d⟩ := p
    have hr : r < en.length := h (r, d) (by simp)
    have := ih (fun t ht => h t (List.mem_cons_of_mem _ ht))
    simp [emLoop, this, hr]

theorem yieldAt_eq {T : Type} (en : List T) {is : List ℕ} (h : ∀ i ∈ is, i < en.length) :
    yieldAt en is = (is.filterMap fun i => en[i]?, none) := by
  induction is with
  | nil => rfl
  | cons i is ih =>
    have hr : i < en.length := h i (by simp)
    have := ih (fun t ht => h t (List.mem_cons_of_mem _ ht))
    simp [yieldAt, this, hr]

/-- a comprehension over positions is a comprehension over the elements -/
theorem filterMap_range_getElem {α β : Type} (l : List α) (f : ℕ → Option β) (g : α → Option β)
    (h : ∀ (r : ℕ) (a : α), l[r]? = some a → f r = g a) :
    (List.range l.length).filterMap f = l.filterMap g := by
  have : l = (List.range l.length).filterMap fun r => l[r]? := by
    apply List.ext_getElem?
    intro n
    have hm : ∀ (k : ℕ), k ≤ l.length → (List.range k).filterMap (fun r => l[r]?) = l.take k := by
      intro k
      induction k with
      | zero => simp
      | succ k ih =>
        intro hk
        rw [List.range_succ, List.filterMap_append, ih (by omega), List.take_add_one]
        congr 1
    rw [hm _ (le_refl _), List.take_length]
  conv_rhs => rw [this, List.filterMap_filterMap]
  apply List.filterMap_congr
  intro r hr
  have hlt := List.mem_range.mp hr
  have hsome : l[r]? = some l[r] := List.getElem?_eq_getElem hlt
  rw [h r _ hsome, hsome]
  rfl

end FlatBg
