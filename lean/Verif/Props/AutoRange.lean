import Mathlib.Tactic.Ring
import Mathlib.Tactic.Linarith
import Mathlib.Tactic.FieldSimp
import Mathlib.Algebra.Order.Archimedean.Basic
import Mathlib.Data.Rat.Floor
import Verif.Model.AutoRange

/-!
C42: auto-ranging shows an equal quantity with a readable number.
-/

namespace AR

/-! ### specification -/

/-- the metric prefixes in steps of 1000, and their powers of 1000 -/
def si : List (Str × ℤ) :=
  [("a".toList, -6), ("f".toList, -5), ("p".toList, -4), ("n".toList, -3), ("u".toList, -2), ("m".toList, -1), ([], 0),
   ("k".toList, 1), ("M".toList, 2), ("G".toList, 3), ("T".toList, 4), ("P".toList, 5), ("E".toList, 6), ("Z".toList, 7)]

/-- `u` is written with the prefix `p`, that stands for `1000 ^ n`, and the base unit `b` -/
structure Written (u p : Str) (n : ℤ) (b : Str) : Prop where
  split : u = p ++ b
  si : (p, n) ∈ si

/-- the units that are read as they are written: with a prefix, the unit does not begin with `mol` or `MT`; without one, it begins
with `mol` or `MT`, or with no letter that is a prefix -/
def Clear (u p : Str) : Prop :=
  u ≠ [] ∧
  if p = [] then "mol".toList <+: u ∨ "MT".toList <+: u ∨ ∀ q n, (q, n) ∈ si → q ≠ [] → ¬ q <+: u
  else ¬ "mol".toList <+: u ∧ ¬ "MT".toList <+: u

/-! ### the loop -/

theorem scale_eq (s : ℤ) : scale s = (1000 : ℚ) ^ s := by
  unfold scale
  rw [zpow_mul]
  norm_num

/-- the loop, once it ends, has brought the number into range; it goes in one direction only -/
theorem shiftLoop_up (n : ℕ) : ∀ (x : ℚ) (s : ℤ), 0 < x → x ≤ 1000 → (1 : ℚ) ≤ x * 1000 ^ n →
    ∃ k : ℕ, k ≤ n ∧ (∀ m, n < m → shiftLoop m x s = some (s + k)) ∧ 1 ≤ x * 1000 ^ k ∧ x * 1000 ^ k ≤ 1000 ∧
      ∀ j : ℕ, j < k → x * 1000 ^ j < 1 := by
  induction n with
  | zero =>
    intro x s h0 h1 h
    refine ⟨0, le_rfl, ?_, by simpa using h, by simpa using h1, by simp⟩
    intro m hm
    obtain ⟨m, rfl⟩ : ∃ j, m = j + 1 := ⟨m - 1, by omega⟩
    unfold shiftLoop
    rw [if_neg (by simp at h; linarith), if_neg (by linarith)]
    simp
  | succ n ih =>
    intro x s h0 h1 h
    by_cases hx : x < 1
    · obtain ⟨k, hk, h2, h3, h4, h5⟩ := ih (x * 1000) (s + 1) (by linarith) (by linarith) (by
        rw [pow_succ] at h; linarith)
      refine ⟨k + 1, by omega, ?_, ?_, ?_, ?_⟩
      · intro m hm
        obtain ⟨m, rfl⟩ : ∃ j, m = j + 1 := ⟨m - 1, by omega⟩
        unfold shiftLoop
        rw [if_pos hx, h2 m (by omega)]
        congr 1
        push_cast
        ring
      · rw [pow_succ]; linarith
      · rw [pow_succ]; linarith
      · intro j hj
        cases j with
        | zero => simpa using hx
        | succ j =>
          have := h5 j (by omega)
          rw [pow_succ]
          linarith
    · refine ⟨0, by omega, ?_, by simpa using (not_lt.1 hx), by simpa using h1, by simp⟩
      intro m hm
      obtain ⟨m, rfl⟩ : ∃ j, m = j + 1 := ⟨m - 1, by omega⟩
      unfold shiftLoop
      rw [if_neg hx, if_neg (by linarith)]
      simp

theorem shiftLoop_down (n : ℕ) : ∀ (x : ℚ) (s : ℤ), 1 ≤ x → x ≤ 1000 * 1000 ^ n →
    ∃ k : ℕ, k ≤ n ∧ (∀ m, n < m → shiftLoop m x s = some (s - k)) ∧ 1 ≤ x / 1000 ^ k ∧ x / 1000 ^ k ≤ 1000 ∧
      ∀ j : ℕ, j < k → 1000 < x / 1000 ^ j := by
  induction n with
  | zero =>
    intro x s h0 h1
    refine ⟨0, le_rfl, ?_, by simpa using h0, by simpa using h1, by simp⟩
    intro m hm
    obtain ⟨m, rfl⟩ : ∃ j, m = j + 1 := ⟨m - 1, by omega⟩
    unfold shiftLoop
    rw [if_neg (by linarith), if_neg (by simp at h1; linarith)]
    simp
  | succ n ih =>
    intro x s h0 h1
    by_cases hx : 1000 < x
    · obtain ⟨k, hk, h2, h3, h4, h5⟩ := ih (x / 1000) (s - 1) (by linarith) (by
        rw [pow_succ] at h1; linarith)
      refine ⟨k + 1, by omega, ?_, ?_, ?_, ?_⟩
      · intro m hm
        obtain ⟨m, rfl⟩ : ∃ j, m = j + 1 := ⟨m - 1, by omega⟩
        unfold shiftLoop
        rw [if_neg (by linarith), if_pos hx, h2 m (by omega)]
        congr 1
        push_cast
        ring
      · rw [pow_succ', ← div_div]; exact h3
      · rw [pow_succ', ← div_div]; exact h4
      · intro j hj
        cases j with
        | zero => simpa using hx
        | succ j => rw [pow_succ', ← div_div]; exact h5 j (by omega)
    · refine ⟨0, by omega, ?_, by simpa using h0, by simpa using (not_lt.1 hx), by simp⟩
      intro m hm
      obtain ⟨m, rfl⟩ : ∃ j, m = j + 1 := ⟨m - 1, by omega⟩
      unfold shiftLoop
      rw [if_neg (by linarith), if_neg hx]
      simp

/-- **The range ends up between 1 and 1000.** For every nonzero range the loop ends, and the shift is the smallest, in absolute
value, that brings the range between 1 and 1000. -/
theorem shift_in_range (rng : ℚ) (h : rng ≠ 0) :
    ∃ (N : ℕ) (s : ℤ), (∀ fuel, N ≤ fuel → make fuel rng = .ok (some s)) ∧ 1 ≤ |adjust s rng| ∧ |adjust s rng| ≤ 1000 ∧
      ∀ t : ℤ, 1 ≤ |adjust t rng| → |adjust t rng| ≤ 1000 → |s| ≤ |t| := by
  have hp : (0 : ℚ) < |rng| := abs_pos.2 h
  have ha : ∀ t : ℤ, |adjust t rng| = |rng| * 1000 ^ t := by
    intro t
    unfold adjust
    rw [scale_eq, abs_mul, abs_of_pos (zpow_pos (by norm_num : (0 : ℚ) < 1000) t)]
  have hm : ∀ fuel, make fuel rng = .ok (shiftLoop fuel |rng| 0) := by
    intro fuel
    unfold make
    rw [if_neg (ne_of_gt hp)]
  by_cases h1 : |rng| ≤ 1000
  · obtain ⟨n, hn⟩ := pow_unbounded_of_one_lt (1 / |rng|) (by norm_num : (1 : ℚ) < 1000)
    obtain ⟨k, hk, h2, h3, h4, h5⟩ := shiftLoop_up n |rng| 0 hp h1 (by
      rw [div_lt_iff₀ hp] at hn; linarith)
    refine ⟨n + 1, k, ?_, ?_, ?_, ?_⟩
    · intro fuel hf
      rw [hm, h2 fuel (by omega)]
      simp
    · rw [ha, zpow_natCast]; exact h3
    · rw [ha, zpow_natCast]; exact h4
    · intro t ht1 ht2
      rw [ha] at ht1 ht2
      by_contra hc
      have h6 : t < k := by
        rcases abs_cases t with ⟨h7, _⟩ | ⟨h7, _⟩ <;> rw [h7] at hc <;> simp at hc <;> omega
      have h7 : |rng| * 1000 ^ t < 1 := by
        by_cases h8 : 0 ≤ t
        · obtain ⟨j, rfl⟩ := Int.eq_ofNat_of_zero_le h8
          have := h5 j (by omega)
          rw [zpow_natCast]
          exact this
        · have h9 := h5 0 (by
            by_contra h10
            have : k = 0 := by omega
            subst this
            simp at hc)
          simp at h9
          calc |rng| * 1000 ^ t < 1 * 1000 ^ t := by
                apply mul_lt_mul_of_pos_right h9 (zpow_pos (by norm_num) _)
            _ ≤ 1 * 1000 ^ (0 : ℤ) := by
                apply mul_le_mul_of_nonneg_left _ (by norm_num)
                exact zpow_le_zpow_right₀ (by norm_num) (by omega)
            _ = 1 := by simp
      linarith
  · rw [not_le] at h1
    obtain ⟨n, hn⟩ := pow_unbounded_of_one_lt |rng| (by norm_num : (1 : ℚ) < 1000)
    obtain ⟨k, hk, h2, h3, h4, h5⟩ := shiftLoop_down n |rng| 0 (by linarith) (by
      have : (0 : ℚ) < 1000 ^ n := by positivity
      linarith)
    have hz : ∀ j : ℕ, (1000 : ℚ) ^ (-(j : ℤ)) = 1 / 1000 ^ j := by
      intro j
      rw [zpow_neg, zpow_natCast, one_div]
    refine ⟨n + 1, -k, ?_, ?_, ?_, ?_⟩
    · intro fuel hf
      rw [hm, h2 fuel (by omega)]
      simp
    · rw [ha, hz, mul_one_div]; exact h3
    · rw [ha, hz, mul_one_div]; exact h4
    · intro t ht1 ht2
      rw [ha] at ht1 ht2
      rw [abs_neg]
      by_contra hc
      have h6 : -(k : ℤ) < t := by
        rcases abs_cases t with ⟨h7, _⟩ | ⟨h7, _⟩ <;> rw [h7] at hc <;> simp at hc <;> omega
      have h7 : 1000 < |rng| * 1000 ^ t := by
        by_cases h8 : t ≤ 0
        · obtain ⟨j, rfl⟩ : ∃ j : ℕ, t = -(j : ℤ) := ⟨t.natAbs, by omega⟩
          have := h5 j (by omega)
          rw [hz, mul_one_div]
          exact this
        · calc (1000 : ℚ) < |rng| * 1000 ^ (0 : ℤ) := by simpa using h1
            _ ≤ |rng| * 1000 ^ t := by
              apply mul_le_mul_of_nonneg_left _ hp.le
              exact zpow_le_zpow_right₀ (by norm_num) (by omega)
      linarith

example : (make 10 (-34 / 100) = .ok (some 1)) ∧ (make 10 12000000000 = .ok (some (-3))) ∧
    adjust 1 (-34 / 100) = -340 ∧ (make 10 1000 = .ok (some 0)) := by
  refine ⟨by decide +kernel, by decide +kernel, ?_, by decide +kernel⟩
  unfold adjust scale
  norm_num

/-- Range 0 raises, for example for a result all of whose scores are zero. -/
theorem zero_range (fuel : ℕ) : make fuel 0 = .error .valueError := by
  simp [make]

/-! ### units -/

theorem prefixes_si (o : ℤ) (p : Str) : metricPrefixes.get? o = some p ↔ (p, o) ∈ si := by
  constructor
  · intro h
    have := Dict.mem_of_get?_eq_some _ h
    simp only [metricPrefixes, metricOffsets, List.map, List.cons_append, List.nil_append, List.mem_cons, Prod.mk.injEq,
      List.not_mem_nil, or_false] at this
    simp only [si, List.mem_cons, Prod.mk.injEq, List.not_mem_nil, or_false]
    rcases this with h | h | h | h | h | h | h | h | h | h | h | h | h | h <;> rcases h with ⟨rfl, rfl⟩ <;> simp
  · intro h
    simp only [si, List.mem_cons, Prod.mk.injEq, List.not_mem_nil, or_false] at h
    rcases h with h | h | h | h | h | h | h | h | h | h | h | h | h | h <;> rcases h with ⟨rfl, rfl⟩ <;> rfl

theorem offsets_si (c : Char) (o : ℤ) : metricOffsets.get? c = some o ↔ ([c], o) ∈ si := by
  constructor
  · intro h
    have := Dict.mem_of_get?_eq_some _ h
    simp only [metricOffsets, List.mem_cons, Prod.mk.injEq, List.not_mem_nil, or_false] at this
    simp only [si, List.mem_cons, Prod.mk.injEq, List.not_mem_nil, or_false]
    rcases this with h | h | h | h | h | h | h | h | h | h | h | h | h <;> rcases h with ⟨rfl, rfl⟩ <;> simp
  · intro h
    simp only [si, List.mem_cons, Prod.mk.injEq, List.not_mem_nil, or_false] at h
    rcases h with h | h | h | h | h | h | h | h | h | h | h | h | h | h <;> rcases h with ⟨h1, rfl⟩ <;>
      first
        | (have h1 := congrArg List.head? h1; simp at h1; subst h1; rfl)
        | simp at h1

theorem si_shape (p : Str) (n : ℤ) (h : (p, n) ∈ si) : (p = [] ∧ n = 0) ∨ ∃ c, p = [c] := by
  simp only [si, List.mem_cons, Prod.mk.injEq, List.not_mem_nil, or_false] at h
  rcases h with h | h | h | h | h | h | h | h | h | h | h | h | h | h <;> rcases h with ⟨rfl, rfl⟩ <;> simp

theorem si_range (n : ℤ) : (∃ p, (p, n) ∈ si) ↔ -6 ≤ n ∧ n ≤ 7 := by
  constructor
  · rintro ⟨p, h⟩
    simp only [si, List.mem_cons, Prod.mk.injEq, List.not_mem_nil, or_false] at h
    rcases h with h | h | h | h | h | h | h | h | h | h | h | h | h | h <;> rcases h with ⟨-, rfl⟩ <;> omega
  · rintro ⟨h1, h2⟩
    have : n = -6 ∨ n = -5 ∨ n = -4 ∨ n = -3 ∨ n = -2 ∨ n = -1 ∨ n = 0 ∨ n = 1 ∨ n = 2 ∨ n = 3 ∨ n = 4 ∨ n = 5 ∨ n = 6 ∨
      n = 7 := by omega
    rcases this with h | h | h | h | h | h | h | h | h | h | h | h | h | h <;> subst h <;> simp [si]

/-- a unit that is clear is read as it is written -/
theorem readUnit_clear (u p b : Str) (n : ℤ) (h : Written u p n b) (hc : Clear u p) : readUnit u = .ok (n, b) := by
  obtain ⟨hs, hsi⟩ := h
  obtain ⟨hne, hc⟩ := hc
  have hany : (disallowPrefix.any fun x => x.isPrefixOf u) = true ↔ "mol".toList <+: u ∨ "MT".toList <+: u := by
    simp [disallowPrefix]
  rcases si_shape p n hsi with ⟨rfl, rfl⟩ | ⟨c, rfl⟩
  · simp only [List.nil_append] at hs
    subst hs
    rw [if_pos rfl] at hc
    cases u with
    | nil => exact absurd rfl hne
    | cons c rest =>
      unfold readUnit
      dsimp only
      by_cases hm : (disallowPrefix.any fun x => x.isPrefixOf (c :: rest)) = true
      · rw [if_pos hm]
      · rw [if_neg hm]
        rw [hany] at hm
        cases ho : metricOffsets.get? c with
        | none => rfl
        | some o =>
          exfalso
          rw [offsets_si] at ho
          rcases hc with hc | hc | hc
          · exact hm (Or.inl hc)
          · exact hm (Or.inr hc)
          · exact hc _ _ ho (by simp) (by simp)
  · rw [if_neg (by simp)] at hc
    subst hs
    unfold readUnit
    simp only [List.cons_append, List.nil_append] at hc hany ⊢
    rw [if_neg (by rw [hany]; tauto), (offsets_si c n).2 hsi]

/-- **The shown quantity equals the original.** For a unit that is clear, the new unit has the same base and a metric prefix, and
every adjusted value in the new unit is the value in the old unit. -/
theorem adjUnit_equal (s : ℤ) (u p b u' : Str) (n : ℤ) (h : Written u p n b) (hc : Clear u p) (hu : adjUnit s u = .ok u') :
    ∃ p' n', Written u' p' n' b ∧ ∀ v : ℚ, adjust s v * 1000 ^ n' = v * 1000 ^ n := by
  unfold adjUnit at hu
  rw [readUnit_clear u p b n h hc] at hu
  dsimp only at hu
  cases hp : metricPrefixes.get? (n - s) with
  | none => rw [hp] at hu; simp at hu
  | some p' =>
    rw [hp] at hu
    simp only [Except.ok.injEq] at hu
    subst hu
    refine ⟨p', n - s, ⟨rfl, (prefixes_si _ _).1 hp⟩, ?_⟩
    intro v
    unfold adjust
    rw [scale_eq, mul_assoc, ← zpow_add₀ (by norm_num)]
    congr 2
    ring

/-- **When it raises.** For a unit that is clear: exactly when there is no prefix for the power of 1000. -/
theorem adjUnit_raises (s : ℤ) (u p b : Str) (n : ℤ) (h : Written u p n b) (hc : Clear u p) :
    adjUnit s u = .error .keyError ↔ ¬ (-6 ≤ n - s ∧ n - s ≤ 7) := by
  unfold adjUnit
  rw [readUnit_clear u p b n h hc]
  dsimp only
  rw [← si_range]
  cases hp : metricPrefixes.get? (n - s) with
  | none =>
    simp only [true_iff]
    rintro ⟨p', hp'⟩
    rw [← prefixes_si, hp] at hp'
    simp at hp'
  | some p' =>
    simp only [reduceCtorEq, false_iff, not_not]
    exact ⟨p', (prefixes_si _ _).1 hp⟩

example : Written "kg".toList "k".toList 1 "g".toList ∧ Clear "kg".toList "k".toList ∧
    adjUnit 1 "kg".toList = .ok "g".toList ∧ adjUnit (-3) "kg".toList = .ok "Tg".toList ∧
    Clear "mol H+".toList [] ∧ adjUnit 1 "mol H+".toList = .ok "mmol H+".toList ∧ Clear "MJ".toList "M".toList ∧
    adjUnit (-6) "MJ".toList = .error .keyError := by
  refine ⟨⟨by decide, by decide⟩, by simp [Clear], by decide, by decide, by simp [Clear], by decide, by simp [Clear], by decide⟩

theorem empty_unit (s : ℤ) : adjUnit s [] = .error .indexError := rfl

/-- **A unit whose first letter looks like a prefix is shown wrong.** 5000 m are shown as 5 of an empty unit; 5000 Pa as 5 Ea;
5000 'unit' as 5 'mnit'. Each is written without a prefix. -/
theorem base_taken_for_prefix :
    (Written "m".toList [] 0 "m".toList ∧ make 10 5000 = .ok (some (-1)) ∧ adjUnit (-1) "m".toList = .ok []) ∧
    (Written "Pa".toList [] 0 "Pa".toList ∧ adjUnit (-1) "Pa".toList = .ok "Ea".toList) ∧
    (Written "unit".toList [] 0 "unit".toList ∧ adjUnit (-1) "unit".toList = .ok "mnit".toList) := by
  refine ⟨⟨⟨rfl, by decide⟩, by decide +kernel, by decide⟩, ⟨⟨rfl, by decide⟩, by decide⟩, ⟨rfl, by decide⟩, by decide⟩

/-- a base unit that is not clear: what is shown with a shift is never the base with a prefix of the right size -/
theorem unclear_wrong (u : Str) (s : ℤ) (hc : ¬ Clear u []) (hne : u ≠ []) (u' : Str) (hu : adjUnit s u = .ok u') :
    u'.length ≤ u.length ∧ (s ≠ 0 → ¬ ∃ p' n', Written u' p' n' u ∧ n' = -s) := by
  cases u with
  | nil => exact absurd rfl hne
  | cons c rest =>
    unfold adjUnit at hu
    unfold readUnit at hu
    dsimp only at hu
    have hany : (disallowPrefix.any fun x => x.isPrefixOf (c :: rest)) = true ↔
        "mol".toList <+: (c :: rest) ∨ "MT".toList <+: (c :: rest) := by
      simp [disallowPrefix]
    have hc' : ¬ ("mol".toList <+: (c :: rest) ∨ "MT".toList <+: (c :: rest)) ∧
        ∃ o, metricOffsets.get? c = some o := by
      constructor
      · intro h
        apply hc
        refine ⟨hne, ?_⟩
        rw [if_pos rfl]
        tauto
      · cases ho : metricOffsets.get? c with
        | some o => exact ⟨o, rfl⟩
        | none =>
          exfalso
          apply hc
          refine ⟨hne, ?_⟩
          rw [if_pos rfl]
          right; right
          intro q n hq hq0 hpre
          rcases si_shape q n hq with ⟨h, -⟩ | ⟨d, rfl⟩
          · exact hq0 h
          · simp at hpre
            subst hpre
            rw [← offsets_si, ho] at hq
            simp at hq
    rw [if_neg (by rw [hany]; exact hc'.1)] at hu
    obtain ⟨o, ho⟩ := hc'.2
    rw [ho] at hu
    dsimp only at hu
    cases hp : metricPrefixes.get? (o - s) with
    | none => rw [hp] at hu; simp at hu
    | some p' =>
      rw [hp] at hu
      simp only [Except.ok.injEq] at hu
      subst hu
      have hl : p'.length ≤ 1 := by
        rcases si_shape _ _ ((prefixes_si _ _).1 hp) with ⟨h, -⟩ | ⟨d, rfl⟩
        · subst h; simp
        · simp
      refine ⟨by simp; omega, ?_⟩
      rintro hs ⟨q, n', ⟨hw, hq⟩, rfl⟩
      rcases si_shape _ _ hq with ⟨-, h⟩ | ⟨d, rfl⟩
      · omega
      · have := congrArg List.length hw
        simp at this
        omega

example : ¬ Clear "person".toList [] ∧ adjUnit 1 "person".toList = .ok "ferson".toList := by
  refine ⟨?_, by decide⟩
  intro h
  have := h.2
  rw [if_pos rfl] at this
  rcases this with h | h | h
  · revert h; decide
  · revert h; decide
  · exact h "p".toList (-4) (by decide) (by decide) (by decide)

/-! ### results -/

/-- **A result shown with auto-ranging.** For a result of nonzero range whose unit is clear, after `set_autorange`, if the unit can
be shown at all then every value times the displayed factor, in the displayed unit, is the value in the unit of the quantity,
and the range is displayed between 1 and 1000. -/
theorem result_shown (r : Res) (p b : Str) (n : ℤ) (h : Written r.unit p n b) (hc : Clear r.unit p) (h0 : r.range ≠ 0) :
    ∃ N r', (∀ fuel, N ≤ fuel → r.setAutorange fuel true = .ok (some r')) ∧
      1 ≤ |r.range * r'.autorange| ∧ |r.range * r'.autorange| ≤ 1000 ∧
      ∀ u', r'.unitOf = .ok u' → ∃ p' n', Written u' p' n' b ∧ ∀ v : ℚ, v * r'.autorange * 1000 ^ n' = v * 1000 ^ n := by
  obtain ⟨N, s, h1, h2, h3, -⟩ := shift_in_range r.range h0
  refine ⟨N, { r with ar := some s }, ?_, h2, h3, ?_⟩
  · intro fuel hf
    unfold Res.setAutorange
    rw [if_pos rfl, h1 fuel hf]
  · intro u' hu'
    exact adjUnit_equal s r.unit p b u' n h hc hu'

/-- without auto-ranging the values are shown as they are -/
theorem result_unset (fuel : ℕ) (r : Res) :
    ∃ r', r.setAutorange fuel false = .ok (some r') ∧ r'.autorange = 1 ∧ r'.unitOf = .ok r.unit :=
  ⟨{ r with ar := none }, rfl, rfl, rfl⟩

/-- setting auto-ranging on a result of range 0 raises -/
theorem result_zero (fuel : ℕ) (r : Res) (h : r.range = 0) : r.setAutorange fuel true = .error .valueError := by
  unfold Res.setAutorange
  rw [if_pos rfl, h, zero_range]

example : (({ range := 12000000, unit := "kg".toList } : Res).setAutorange 10 true =
      .ok (some { range := 12000000, unit := "kg".toList, ar := some (-2) })) ∧
    ({ range := 12000000, unit := "kg".toList, ar := some (-2) } : Res).unitOf = .ok "Gg".toList ∧
    12000000 * ({ range := 12000000, unit := "kg".toList, ar := some (-2) } : Res).autorange = 12 := by
  refine ⟨by decide +kernel, by decide +kernel, ?_⟩
  simp only [Res.autorange, scale]
  norm_num

/-! ### several results in one chart -/

/-- **Bars of several results are brought to one unit.** The data of the `i`-th result, shown with its own factor, are shown
with the largest factor afterwards, which is the one of the unit of the chart. -/
theorem adjustAll_common (scales : List ℚ) (vals : List (List ℚ)) (hl : vals.length = scales.length)
    (hp : ∀ x ∈ scales, 0 < x) (hne : scales ≠ []) :
    ∃ m mx, scales[m]? = some mx ∧ (∀ x ∈ scales, x ≤ mx) ∧
      adjustAll scales (List.zipWith (fun v s => v.map (· * s)) vals scales) = .ok (vals.map fun v => v.map (· * mx), m) := by
  have hmax : ∃ x ∈ scales, ∀ y ∈ scales, y ≤ x := by
    cases hx : scales.max? with
    | none => rw [List.max?_eq_none_iff] at hx; exact absurd hx hne
    | some x => exact ⟨x, List.max?_mem hx, fun y hy => (List.max?_le_iff hx).1 le_rfl y hy⟩
  have hf : ∃ m, maxIdx scales = some m := by
    unfold maxIdx
    obtain ⟨x, hx, hxm⟩ := hmax
    cases h : scales.findIdx? fun x => scales.all fun y => decide (y ≤ x) with
    | some m => exact ⟨m, rfl⟩
    | none =>
      rw [List.findIdx?_eq_none_iff] at h
      have := h x hx
      simp at this
      obtain ⟨y, hy, hlt⟩ := this
      exact absurd (hxm y hy) (not_le.2 hlt)
  obtain ⟨m, hm⟩ := hf
  have hm' := hm
  unfold maxIdx at hm'
  rw [List.findIdx?_eq_some_iff_getElem] at hm'
  obtain ⟨hlt, hall, -⟩ := hm'
  simp only [List.all_eq_true, decide_eq_true_eq] at hall
  have hge : scales[m]? = some scales[m] := List.getElem?_eq_getElem hlt
  refine ⟨m, scales[m], hge, hall, ?_⟩
  unfold adjustAll
  rw [hm]
  dsimp only
  rw [hge, if_neg]
  · simp only [Option.getD_some]
    congr 2
    apply List.ext_getElem
    · simp [hl]
    · intro i h1 h2
      simp only [List.getElem_map, List.getElem_zipIdx, List.getElem_zip, List.getElem_zipWith, zero_add]
      split
      · rename_i he
        subst he
        rfl
      · rw [List.map_map]
        apply List.map_congr_left
        intro v hv
        have : scales[i]'(by simp at h2; omega) ≠ 0 := ne_of_gt (hp _ (List.getElem_mem _))
        simp only [Function.comp]
        field_simp
  · simp only [List.any_eq_true, decide_eq_true_eq, not_exists, not_and]
    rintro ⟨x, i⟩ hx - h0
    have := List.fst_mem_of_mem_zipIdx hx
    exact absurd h0 (ne_of_gt (hp _ this))

example : adjustAll [1000, 1] [[5, 7], [3]] = .ok ([[5, 7], [3000]], 0) := by decide +kernel

end AR
