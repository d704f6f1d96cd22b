import Verif.Model.LciaTables
import Mathlib.Tactic.IntervalCases

/-! C184: CAS numbers. -/

namespace Ltab

lemma isDig_dig (n : ℕ) (h : n < 10) : isDig (dig n) = true := by
  interval_cases n <;> decide

lemma dig_val (n : ℕ) (h : n < 10) : (dig n).toNat - 48 = n := by
  interval_cases n <;> decide

lemma dig_ne_dash (n : ℕ) (h : n < 10) : dig n ≠ '-' := by
  interval_cases n <;> decide

lemma digs_all (n : ℕ) : ∀ c ∈ digs n, isDig c = true := by
  induction n using Nat.strong_induction_on with
  | _ n ih =>
    rw [digs]
    split
    · rename_i h; simp [isDig_dig n h]
    · rename_i h
      intro c hc
      rcases List.mem_append.1 hc with h1 | h1
      · exact ih _ (by omega) c h1
      · simp at h1; subst h1; exact isDig_dig _ (by omega)

lemma digs_ne (n : ℕ) : digs n ≠ [] := by
  rw [digs]; split <;> simp

lemma digs_val (n : ℕ) : (digs n).foldl (fun n c => 10 * n + (c.toNat - 48)) 0 = n := by
  induction n using Nat.strong_induction_on with
  | _ n ih =>
    rw [digs]
    split
    · rename_i h; simp [dig_val n h]
    · rename_i h
      rw [List.foldl_append, ih _ (by omega)]
      simp [dig_val (n % 10) (by omega)]
      omega

lemma toInt_digs (n : ℕ) : toInt (digs n) = some n := by
  have h : (digs n).all isDig = true := by simpa using digs_all n
  simp [toInt, digs_ne n, h, digs_val]

lemma digs_of_ge (n : ℕ) (h : 10 ≤ n) : digs n = digs (n / 10) ++ [dig (n % 10)] := by
  rw [digs, dif_neg (by omega)]

lemma digs_length_le (n k : ℕ) (hk : 1 ≤ k) : (digs n).length ≤ k ↔ n < 10 ^ k := by
  induction k generalizing n with
  | zero => omega
  | succ k ih =>
    rw [digs]
    split
    · rename_i h
      have : 10 ^ 1 ≤ 10 ^ (k + 1) := Nat.pow_le_pow_right (by decide) (by omega)
      simp; omega
    · rename_i h
      by_cases hk0 : k = 0
      · subst hk0
        have : 1 ≤ (digs (n / 10)).length := List.length_pos_iff.2 (digs_ne _)
        simp only [List.length_append, List.length_singleton, Nat.zero_add, pow_one]
        constructor <;> intro h2 <;> omega
      · have := ih (n / 10) (by omega)
        rw [List.length_append, List.length_singleton, Nat.add_le_add_iff_right, this, pow_succ, Nat.div_lt_iff_lt_mul (by decide)]

/-- The text made from a number `n` of at least four digits: all digits but the last three, a dash, two digits, a dash, the last. -/
theorem cas_text (n : ℕ) (h : 1000 ≤ n) :
    fmtCas (digs n) = digs (n / 1000) ++ ['-', dig (n / 100 % 10), dig (n / 10 % 10), '-', dig (n % 10)] := by
  have e : digs n = digs (n / 1000) ++ [dig (n / 100 % 10), dig (n / 10 % 10), dig (n % 10)] := by
    rw [digs_of_ge n (by omega), digs_of_ge (n / 10) (by omega), digs_of_ge (n / 10 / 10) (by omega)]
    simp [Nat.div_div_eq_div_mul]
  rw [e]
  simp [fmtCas, List.drop_append]

lemma cas_text3 (n : ℕ) (h : 100 ≤ n) (h' : n < 1000) :
    fmtCas (digs n) = ['-', dig (n / 100), dig (n / 10 % 10), '-', dig (n % 10)] := by
  have e : digs n = [dig (n / 100), dig (n / 10 % 10), dig (n % 10)] := by
    rw [digs_of_ge n (by omega), digs_of_ge (n / 10) (by omega), digs, dif_pos (by omega)]
    simp [Nat.div_div_eq_div_mul]
  rw [e]
  simp [fmtCas]

lemma takeWhile_dash (l m : Str) (h : ∀ c ∈ l, isDig c = true) : (l ++ '-' :: m).takeWhile isDig = l := by
  induction l with
  | nil => simp [isDig]
  | cons a l ih => simp [h a (by simp), ih (fun c hc => h c (by simp [hc]))]

lemma dropWhile_dash (l m : Str) (h : ∀ c ∈ l, isDig c = true) : (l ++ '-' :: m).dropWhile isDig = '-' :: m := by
  induction l with
  | nil => simp [isDig]
  | cons a l ih => simp [h a (by simp), ih (fun c hc => h c (by simp [hc]))]

/-- **C184**: the text made from a number is taken for a CAS number exactly for the numbers of three to nine digits (CAS numbers
of ten digits exist). -/
theorem cas_matches (n : ℕ) : casRegexp (fmtCas (digs n)) = true ↔ 100 ≤ n ∧ n < 10 ^ 9 := by
  have hb : ∀ m : ℕ, isDig (dig (m % 10)) = true := fun m => isDig_dig _ (by omega)
  by_cases h : 1000 ≤ n
  · rw [cas_text n h, casRegexp, takeWhile_dash _ _ (digs_all _), dropWhile_dash _ _ (digs_all _)]
    simp only [hb, beq_self_eq_true, Bool.and_self, Bool.and_true, decide_eq_true_eq]
    rw [digs_length_le _ 6 (by decide), Nat.div_lt_iff_lt_mul (by decide)]
    constructor
    · intro h1; omega
    · intro h1; omega
  · by_cases h1 : 100 ≤ n
    · rw [cas_text3 n h1 (by omega)]
      have : isDig (dig (n / 100)) = true := isDig_dig _ (by omega)
      have hd : isDig '-' = false := by decide
      rw [casRegexp, List.takeWhile_cons_of_neg (by simp [hd]), List.dropWhile_cons_of_neg (by simp [hd])]
      simp only [hb, this, beq_self_eq_true, Bool.and_self, Bool.and_true, decide_eq_true_eq, List.length_nil]
      constructor
      · intro _; exact ⟨h1, by omega⟩
      · intro _; omega
    · have : n < 100 := by omega
      constructor
      · intro h2; exfalso; revert h2
        interval_cases n <;> decide +kernel
      · intro h2; omega

example : fmtCas (digs 7732185) = "7732-18-5".toList ∧ casRegexp "7732-18-5".toList = true ∧
    casRegexp (fmtCas (digs 1000000000)) = false := by
  refine ⟨by decide +kernel, by decide +kernel, ?_⟩
  rw [← Bool.not_eq_true, cas_matches]; decide

lemma filter_dig (l : Str) (h : ∀ c ∈ l, isDig c = true) : l.filter (fun c => decide (c ≠ '-')) = l := by
  rw [List.filter_eq_self]
  intro c hc
  have := h c hc
  simp only [decide_eq_true_eq]
  rintro rfl
  revert this; decide

lemma fmtCas_filter (l : Str) (h : ∀ c ∈ l, isDig c = true) : (fmtCas l).filter (fun c => decide (c ≠ '-')) = l := by
  have key : (fmtCas l).filter (fun c => decide (c ≠ '-')) =
      l.take (l.length - 3) ++ ((l.drop (l.length - 3)).take (l.length - 1 - (l.length - 3)) ++ l.drop (l.length - 1)) := by
    unfold fmtCas
    rw [List.filter_append, List.filter_cons_of_neg (by simp), List.filter_append, List.filter_cons_of_neg (by simp),
      filter_dig _ (fun c hc => h c (List.mem_of_mem_take hc)),
      filter_dig _ (fun c hc => h c (List.mem_of_mem_drop (List.mem_of_mem_take hc))),
      filter_dig _ (fun c hc => h c (List.mem_of_mem_drop hc))]
  rw [key]
  have e : l.drop (l.length - 1) = (l.drop (l.length - 3)).drop (l.length - 1 - (l.length - 3)) := by
    rw [List.drop_drop]; congr 1; omega
  rw [e, List.take_append_drop, List.take_append_drop]

/-- **C184**: the number is read back from the text, for every number. -/
theorem cas_round_trip (n : ℕ) : transformStringCas (fmtCas (digs n)) = some n := by
  rw [transformStringCas, fmtCas_filter _ (digs_all n), toInt_digs]

/-- **C184**: two numbers never have the same text. -/
theorem cas_injective (m n : ℕ) (h : fmtCas (digs m) = fmtCas (digs n)) : m = n := by
  have := cas_round_trip m
  rw [h, cas_round_trip] at this
  simpa using this.symm

example : transformStringCas "7732-18-5".toList = some 7732185 := by decide +kernel

lemma toInt_dash (s : Str) (h : '-' ∈ s) : toInt s = none := by
  unfold toInt
  rw [if_neg]
  rintro ⟨-, h1⟩
  have := (List.all_eq_true.1 h1) _ h
  revert this; decide

/-- **C184**: a cell with a number gives its text; a cell with digits the same as the number they denote. -/
theorem cas_cell_number (n : ℕ) :
    transformNumericCas (.num n) = .ok (some (fmtCas (digs n))) ∧
    transformNumericCas (.text (digs n)) = .ok (some (fmtCas (digs n))) := by
  refine ⟨rfl, ?_⟩
  have hx : digs n ≠ ['x'] := by
    intro h
    have := digs_all n 'x' (by rw [h]; simp)
    revert this; decide
  have hd : ∀ s : Str, (∀ c ∈ s, isDig c = true) → s.dropWhile isDig = [] := by
    intro s h
    induction s with
    | nil => rfl
    | cons a s ih => rw [List.dropWhile_cons_of_pos (h a (by simp)), ih (fun c hc => h c (by simp [hc]))]
  have hr : casRegexp (digs n) = false := by
    simp [casRegexp, hd _ (digs_all n)]
  simp [transformNumericCas, hx, hr, toInt_digs]

/-- **C184**: a cell with a text that holds a dash is kept when it is taken for a CAS number, and raises ValueError otherwise;
so the text of a number of ten digits raises. -/
theorem cas_cell_text (s : Str) (h : '-' ∈ s) :
    transformNumericCas (.text s) = if casRegexp s then .ok (some s) else .error .valueError := by
  have hx : s ≠ ['x'] := by rintro rfl; revert h; decide
  simp [transformNumericCas, hx, toInt_dash s h]

example : transformNumericCas (.text "7732-18-5".toList) = .ok (some "7732-18-5".toList) ∧
    transformNumericCas (.text "1173092-45-7".toList) = .error .valueError := by
  constructor
  · rw [cas_cell_text _ (by decide), if_pos (by decide +kernel)]
  · rw [cas_cell_text _ (by decide), if_neg (by decide +kernel)]

lemma dash_fmt (s : Str) : '-' ∈ fmtCas s := by simp [fmtCas]

/-- **C184**: CAS numbers of ten digits, and those numbers of less than three, cannot be read from their own text. -/
theorem cas_cell_own_text (n : ℕ) :
    transformNumericCas (.text (fmtCas (digs n))) =
      if 100 ≤ n ∧ n < 10 ^ 9 then .ok (some (fmtCas (digs n))) else .error .valueError := by
  rw [cas_cell_text _ (dash_fmt _)]
  by_cases h : 100 ≤ n ∧ n < 10 ^ 9
  · rw [if_pos h, if_pos ((cas_matches n).2 h)]
  · rw [if_neg h, if_neg (fun h' => h ((cas_matches n).1 h'))]

variable {Col : Type}

/-- **C184**: the rows found for the text of a number of three to nine digits are those with this number, whatever their names;
for the text of any other number, those with this text for a name. -/
theorem rows_for_cas (lower : Str → Str) (rows : List (Row Col)) (n : ℕ) (r : Row Col) :
    r ∈ rowForKey lower rows (fmtCas (digs n)) ↔
      r ∈ rows ∧ if 100 ≤ n ∧ n < 10 ^ 9 then r.cas = .num n else lower r.name = lower (fmtCas (digs n)) := by
  unfold rowForKey
  by_cases h : 100 ≤ n ∧ n < 10 ^ 9
  · rw [if_pos ((cas_matches n).2 h), if_pos h, List.mem_filter, cas_round_trip]
    cases hc : r.cas <;> simp
  · rw [if_neg (fun h' => h ((cas_matches n).1 h')), if_neg h, List.mem_filter]
    simp

end Ltab

namespace Ltab

example : (rowForKey (Col := Bool) id [⟨"water".toList, .num 7732185, .none, []⟩, ⟨"ice".toList, .num 7732185, .none, []⟩,
      ⟨"air".toList, .num 132259100, .none, []⟩, ⟨"7732-18-5".toList, .none, .none, []⟩]
      (fmtCas (digs 7732185))).map (fun r => String.ofList r.name) = ["water", "ice"] := by decide +kernel

end Ltab
