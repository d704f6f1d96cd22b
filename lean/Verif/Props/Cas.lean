import Mathlib.Tactic.ByContra
import Verif.Model.Flowables

/-! Property C14: the algebra of CAS numbers. -/

namespace Flw

/-- What looks like a CAS number: up to six digits followed by `-dd-d` (and possibly a newline). -/
def CasShape (s : Str) : Prop := ∃ d t, s = d ++ t ∧ d.length ≤ 6 ∧ (∀ c ∈ d, c.isDigit) ∧ casTail t

theorem casTail_head {t : Str} (h : casTail t) : ∃ r, t = '-' :: r := by
  unfold casTail at h
  split at h
  · exact ⟨_, rfl⟩
  · exact ⟨_, rfl⟩
  · simp at h

theorem dash_not_digit : ('-' : Char).isDigit = false := by decide

theorem matchUpTo_append {n : ℕ} {d t : Str} (hl : d.length ≤ n) (hd : ∀ c ∈ d, c.isDigit) (ht : casTail t) :
    matchUpTo n (d ++ t) = true := by
  induction d generalizing n with
  | nil =>
    obtain ⟨r, rfl⟩ := casTail_head ht
    cases n <;> simpa [matchUpTo, dash_not_digit] using ht
  | cons c d ih =>
    cases n with
    | zero => simp at hl
    | succ n =>
      simp only [List.cons_append, matchUpTo, hd c (by simp), if_true]
      exact ih (by simpa using hl) (fun x hx => hd x (by simp [hx]))

theorem matchUpTo_shape {n : ℕ} {s : Str} (h : matchUpTo n s = true) :
    ∃ d t, s = d ++ t ∧ d.length ≤ n ∧ (∀ c ∈ d, c.isDigit) ∧ casTail t := by
  induction n generalizing s with
  | zero =>
    cases s with
    | nil => simp [matchUpTo] at h
    | cons c cs => exact ⟨[], c :: cs, rfl, by simp, by simp, by simpa [matchUpTo] using h⟩
  | succ n ih =>
    cases s with
    | nil => simp [matchUpTo] at h
    | cons c cs =>
      simp only [matchUpTo] at h
      split at h
      · rename_i hc
        obtain ⟨d, t, rfl, h1, h2, h3⟩ := ih h
        exact ⟨c :: d, t, rfl, by simpa using h1, by simpa [hc] using h2, h3⟩
      · exact ⟨[], c :: cs, rfl, by simp, by simp, h⟩

theorem matchExact_append {n : ℕ} {d t : Str} (hd : ∀ c ∈ d, c.isDigit) (ht : casTail t) :
    matchExact n (d ++ t) = decide (d.length = n) := by
  induction d generalizing n with
  | nil =>
    obtain ⟨r, rfl⟩ := casTail_head ht
    cases n with
    | zero => simpa [matchExact] using ht
    | succ n => simp [matchExact, dash_not_digit]
  | cons c d ih =>
    cases n with
    | zero =>
      have : casTail (c :: d ++ t) = false := by
        by_contra hc
        obtain ⟨r, hr⟩ := casTail_head (by simpa using hc)
        simp at hr
        have := hd c (by simp)
        rw [hr.1, dash_not_digit] at this
        simp at this
      simp [matchExact] at this ⊢
      exact this
    | succ n =>
      simp only [List.cons_append, matchExact, hd c (by simp), Bool.true_and]
      rw [ih (fun x hx => hd x (by simp [hx]))]
      simp

/-- the regular expression says what `CasShape` says -/
theorem isCas_iff (s : Str) : isCas s = true ↔ CasShape s := by
  constructor
  · exact matchUpTo_shape
  · rintro ⟨d, t, rfl, h1, h2, h3⟩
    exact matchUpTo_append h1 h2 h3

theorem padLoop_eq {n : ℕ} {d t : Str} (hd : ∀ c ∈ d, c.isDigit) (ht : casTail t) (hl : d.length ≤ 6)
    (hn : 6 ≤ d.length + n) :
    padLoop n (d ++ t) = some (List.replicate (6 - d.length) '0' ++ d ++ t) := by
  induction n generalizing d with
  | zero =>
    have : d.length = 6 := by omega
    simp [padLoop, isStrict, matchExact_append hd ht, this]
  | succ n ih =>
    by_cases h6 : d.length = 6
    · simp [padLoop, isStrict, matchExact_append hd ht, h6]
    · simp only [padLoop, isStrict, matchExact_append hd ht, h6, decide_false, Bool.false_eq_true, if_false]
      have := ih (d := '0' :: d) (by
        intro c hc
        rcases List.mem_cons.mp hc with rfl | hc
        · decide
        · exact hd c hc) (by simp; omega) (by simp; omega)
      rw [List.cons_append] at this
      rw [this]
      have h7 : 6 - d.length = (6 - ('0' :: d).length) + 1 := by simp; omega
      rw [h7, List.replicate_succ']
      simp

theorem pad_eq {d t : Str} (hd : ∀ c ∈ d, c.isDigit) (ht : casTail t) (hl : d.length ≤ 6) :
    pad (d ++ t) = some (List.replicate (6 - d.length) '0' ++ d ++ t) := by
  unfold pad
  rw [if_pos ((isCas_iff _).mpr ⟨d, t, rfl, hl, hd, ht⟩)]
  exact padLoop_eq hd ht hl (by omega)

theorem trim_tail {t : Str} (ht : casTail t) : trim t = t := by
  obtain ⟨r, rfl⟩ := casTail_head ht
  rfl

theorem dropWhile_append_stop {p : Char → Bool} {d t : Str} (ht : t.dropWhile p = t) :
    (d ++ t).dropWhile p = d.dropWhile p ++ t := by
  induction d with
  | nil => simpa using ht
  | cons c d ih =>
    by_cases hc : p c = true
    · simp [List.dropWhile_cons, hc, ih]
    · simp [List.dropWhile_cons, hc]

theorem trim_append {d t : Str} (ht : casTail t) : trim (d ++ t) = d.dropWhile (· == '0') ++ t := by
  exact dropWhile_append_stop (trim_tail ht)

/-- zeros then a string without leading zero: the string is determined by its trimmed form and its length -/
theorem dropWhile_pad (d : Str) (h : d.length ≤ 6) :
    List.replicate (6 - (d.dropWhile (· == '0')).length) '0' ++ d.dropWhile (· == '0') =
      List.replicate (6 - d.length) '0' ++ d := by
  induction d with
  | nil => simp
  | cons c d ih =>
    simp only [List.dropWhile_cons]
    split
    · rename_i hc
      have hc : c = '0' := by simpa using hc
      subst hc
      rw [ih (by simp at h; omega)]
      have : 6 - d.length = (6 - ('0' :: d).length) + 1 := by simp at h ⊢; omega
      rw [this, List.replicate_succ']
      simp
    · rfl

theorem dropWhile_replicate (n : ℕ) (d : Str) :
    (List.replicate n '0' ++ d).dropWhile (· == '0') = d.dropWhile (· == '0') := by
  induction n with
  | zero => simp
  | succ n ih => simp [List.replicate_succ, ih]

/-- C14, the algebra: for every string,
* `pad_cas` returns (its loop ends) exactly on strings that look like a CAS number, and the result is six
  digits followed by the same tail, equal to the input up to leading zeros;
* for a CAS number `c`: trimming gives a CAS number again, `pad(trim c) = pad c`, `trim(pad c) = trim c`,
  both are idempotent. -/
theorem C14_pad_trim (c : Str) :
    ((pad c).isSome = true ↔ CasShape c) ∧
    (∀ p, pad c = some p → isStrict p = true ∧ (∃ n, p = List.replicate n '0' ++ c) ∧ pad p = some p ∧
      pad (trim c) = some p ∧ trim p = trim c ∧ CasShape (trim c)) ∧
    trim (trim c) = trim c := by
  refine ⟨?_, ?_, ?_⟩
  · rw [← isCas_iff]
    constructor
    · intro h
      unfold pad at h
      split at h
      · assumption
      · simp at h
    · intro h
      obtain ⟨d, t, rfl, h1, h2, h3⟩ := (isCas_iff c).mp h
      rw [pad_eq h2 h3 h1]; rfl
  · intro p hp
    have hc : CasShape c := by
      rw [← isCas_iff]
      unfold pad at hp
      split at hp
      · assumption
      · simp at hp
    obtain ⟨d, t, rfl, h1, h2, h3⟩ := hc
    rw [pad_eq h2 h3 h1] at hp
    simp at hp
    have hd' : ∀ c ∈ List.replicate (6 - d.length) '0' ++ d, c.isDigit = true := by
      intro c hc
      rcases List.mem_append.mp hc with hc | hc
      · rw [List.eq_of_mem_replicate hc]; decide
      · exact h2 c hc
    have hlen : (List.replicate (6 - d.length) '0' ++ d).length = 6 := by simp; omega
    have hsub : ∀ c ∈ d.dropWhile (· == '0'), c.isDigit = true :=
      fun c hc => h2 c (List.dropWhile_suffix (p := (· == '0')) |>.subset hc)
    have hlt : (d.dropWhile (· == '0')).length ≤ 6 :=
      Nat.le_trans (List.dropWhile_suffix (p := (· == '0'))).length_le h1
    subst hp
    refine ⟨?_, ⟨6 - d.length, rfl⟩, ?_, ?_, ?_, ?_⟩
    · rw [← List.append_assoc]
      unfold isStrict
      rw [matchExact_append hd' h3, hlen]; rfl
    · rw [← List.append_assoc, pad_eq hd' h3 (by omega), hlen]; rfl
    · rw [trim_append h3, pad_eq hsub h3 hlt, dropWhile_pad d h1, List.append_assoc]
    · rw [← List.append_assoc, trim_append h3, trim_append h3, dropWhile_replicate]
    · rw [trim_append h3]
      exact ⟨_, t, rfl, hlt, hsub, h3⟩
  · unfold trim
    induction c with
    | nil => rfl
    | cons a c ih =>
      simp only [List.dropWhile_cons]
      split
      · exact ih
      · rename_i h; simp [List.dropWhile_cons, h]

/-- C14: two CAS numbers have the same padded form iff they have the same trimmed form. -/
theorem C14_same_number {a b : Str} (ha : CasShape a) (hb : CasShape b) :
    pad a = pad b ↔ trim a = trim b := by
  obtain ⟨p, hp⟩ := Option.isSome_iff_exists.mp ((C14_pad_trim a).1.mpr ha)
  obtain ⟨q, hq⟩ := Option.isSome_iff_exists.mp ((C14_pad_trim b).1.mpr hb)
  have h1 := (C14_pad_trim a).2.1 p hp
  have h2 := (C14_pad_trim b).2.1 q hq
  rw [hp, hq]
  constructor
  · intro h
    simp at h; subst h
    rw [← h1.2.2.2.2.1, ← h2.2.2.2.2.1]
  · intro h
    rw [← h1.2.2.2.1, ← h2.2.2.2.1, h]

example : CasShape "0050-00-0".toList ∧ CasShape "50-00-0".toList ∧ ¬ CasShape "1234567-00-0".toList ∧
    pad "0050-00-0".toList = some "000050-00-0".toList ∧ trim "0050-00-0".toList = "50-00-0".toList ∧
    trim "000000-00-0".toList = "-00-0".toList := by
  simp only [← isCas_iff]
  decide +kernel

end Flw
