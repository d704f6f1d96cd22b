import Verif.Model.Uid
import Mathlib.Tactic.IntervalCases

/-!
C169: entities are found by texts that contain their UUID.
-/

namespace Uid

/-! ### specification -/

def Hex (c : Char) : Prop := ('0' ≤ c ∧ c ≤ '9') ∨ ('a' ≤ c ∧ c ≤ 'f') ∨ ('A' ≤ c ∧ c ≤ 'F')
def LowHex (c : Char) : Prop := ('0' ≤ c ∧ c ≤ '9') ∨ ('a' ≤ c ∧ c ≤ 'f')

/-- five groups of 8, 4, 4, 4 and 12 hexadecimal digits, with or without a hyphen between -/
def IsUuid (s : Txt) : Prop := ∃ a h1 b h2 c h3 d h4 e, s = a ++ h1 ++ b ++ h2 ++ c ++ h3 ++ d ++ h4 ++ e ∧
  (a.length = 8 ∧ b.length = 4 ∧ c.length = 4 ∧ d.length = 4 ∧ e.length = 12) ∧
  (∀ x ∈ a ++ b ++ c ++ d ++ e, Hex x) ∧ ∀ h ∈ [h1, h2, h3, h4], h = [] ∨ h = ['-']

/-- the usual form: lower case, with the hyphens -/
def Canon (s : Txt) : Prop := ∃ a b c d e, s = a ++ ['-'] ++ b ++ ['-'] ++ c ++ ['-'] ++ d ++ ['-'] ++ e ∧
  (a.length = 8 ∧ b.length = 4 ∧ c.length = 4 ∧ d.length = 4 ∧ e.length = 12) ∧ ∀ x ∈ a ++ b ++ c ++ d ++ e, LowHex x

/-! ### lemmas -/

theorem isHex_iff (c : Char) : isHex c = true ↔ Hex c := by
  unfold isHex Hex Char.isDigit
  simp only [Bool.or_eq_true, Bool.and_eq_true, decide_eq_true_eq, or_assoc]
  rfl

theorem LowHex.hex {c : Char} (h : LowHex c) : Hex c := by
  rcases h with h | h
  · exact .inl h
  · exact .inr (.inl h)

theorem hyphen_not_hex : isHex '-' = false := by decide

theorem takeHex_iff (n : ℕ) (s u t : Txt) : takeHex n s = some (u, t) ↔ s = u ++ t ∧ u.length = n ∧ ∀ x ∈ u, Hex x := by
  induction n generalizing s u with
  | zero =>
    simp only [takeHex, Option.some.injEq, Prod.mk.injEq, List.length_eq_zero_iff]
    constructor
    · rintro ⟨rfl, rfl⟩; simp
    · rintro ⟨rfl, rfl, -⟩; simp
  | succ n ih =>
    cases s with
    | nil =>
      simp only [takeHex, reduceCtorEq, false_iff, not_and]
      intro h; cases u <;> simp at h ⊢
    | cons c s =>
      by_cases hc : isHex c = true
      · simp only [takeHex, if_pos hc, Option.map_eq_some_iff]
        constructor
        · rintro ⟨⟨u', t'⟩, h, he⟩
          simp only [Prod.mk.injEq] at he
          obtain ⟨rfl, rfl⟩ := he
          obtain ⟨rfl, h2, h3⟩ := (ih s u').mp h
          refine ⟨rfl, by simp [h2], ?_⟩
          intro x hx
          rcases List.mem_cons.mp hx with rfl | hx
          · exact (isHex_iff _).mp hc
          · exact h3 x hx
        · rintro ⟨h1, h2, h3⟩
          cases u with
          | nil => simp at h2
          | cons c' u =>
            simp only [List.cons_append, List.cons.injEq] at h1
            obtain ⟨rfl, rfl⟩ := h1
            exact ⟨(u, t), (ih _ u).mpr ⟨rfl, by simpa using h2, fun x hx => h3 x (List.mem_cons_of_mem _ hx)⟩, rfl⟩
      · simp only [takeHex, if_neg hc, reduceCtorEq, false_iff, not_and]
        intro h1 h2 h3
        cases u with
        | nil => simp at h2
        | cons c' u =>
          simp only [List.cons_append, List.cons.injEq] at h1
          obtain ⟨rfl, -⟩ := h1
          exact hc ((isHex_iff _).mpr (h3 _ (by simp)))

/-- the texts `groups` matches -/
def Shape : List ℕ → Txt → Prop
  | [], u => u = []
  | [n], u => u.length = n ∧ ∀ x ∈ u, Hex x
  | n :: ns, u => ∃ a h r, u = a ++ h ++ r ∧ (a.length = n ∧ ∀ x ∈ a, Hex x) ∧ (h = [] ∨ h = ['-']) ∧ Shape ns r

theorem optHyphen_spec (s : Txt) : s = (optHyphen s).1 ++ (optHyphen s).2 ∧ ((optHyphen s).1 = [] ∨ (optHyphen s).1 = ['-']) := by
  cases s with
  | nil => simp [optHyphen]
  | cons c s =>
    by_cases h : c = '-'
    · subst h; simp [optHyphen]
    · simp [optHyphen, h]

theorem shape_first {n : ℕ} {ns : List ℕ} {u : Txt} (hn : 0 < n) (h : Shape (n :: ns) u) : ∃ c u', u = c :: u' ∧ Hex c := by
  have fin : ∀ a b : Txt, a.length = n → (∀ x ∈ a, Hex x) → ∃ c u', a ++ b = c :: u' ∧ Hex c := by
    intro a b h1 h2
    cases a with
    | nil => simp at h1; omega
    | cons c a => exact ⟨c, a ++ b, rfl, h2 c (by simp)⟩
  cases ns with
  | nil => obtain ⟨h1, h2⟩ := h; simpa using fin u [] h1 h2
  | cons m ns =>
    obtain ⟨a, k, r, rfl, ⟨h1, h2⟩, -⟩ := h
    rw [List.append_assoc]
    exact fin a _ h1 h2

theorem groups_iff (ns : List ℕ) (hp : ∀ n ∈ ns, 0 < n) (s u t : Txt) : groups ns s = some (u, t) ↔ s = u ++ t ∧ Shape ns u := by
  induction ns generalizing s u with
  | nil =>
    simp only [groups, Shape, Option.some.injEq, Prod.mk.injEq]
    constructor
    · rintro ⟨rfl, rfl⟩; simp
    · rintro ⟨rfl, rfl⟩; simp
  | cons n ns ih =>
    cases ns with
    | nil => simp only [groups, Shape]; exact takeHex_iff n s u t
    | cons m ns =>
      have ih := ih (fun k hk => hp k (List.mem_cons_of_mem _ hk))
      simp only [groups, Shape]
      constructor
      · intro h
        cases ht : takeHex n s with
        | none => rw [ht] at h; cases h
        | some p =>
          obtain ⟨a, s'⟩ := p
          rw [ht] at h
          simp only [Option.map_eq_some_iff] at h
          obtain ⟨⟨r, t'⟩, h, he⟩ := h
          simp only [Prod.mk.injEq] at he
          obtain ⟨rfl, rfl⟩ := he
          obtain ⟨rfl, h2, h3⟩ := (takeHex_iff _ _ _ _).mp ht
          obtain ⟨h4, h5⟩ := (ih _ _).mp h
          obtain ⟨o1, o2⟩ := optHyphen_spec s'
          refine ⟨?_, a, _, r, rfl, ⟨h2, h3⟩, o2, h5⟩
          conv_lhs => rw [o1, h4]
          simp
      · rintro ⟨rfl, a, h, r, rfl, ⟨h1, h2⟩, h3, h4⟩
        have ht : takeHex n (a ++ h ++ r ++ t) = some (a, h ++ r ++ t) := (takeHex_iff _ _ _ _).mpr ⟨by simp, h1, h2⟩
        rw [ht]
        have ho : optHyphen (h ++ r ++ t) = (h, r ++ t) := by
          rcases h3 with rfl | rfl
          · obtain ⟨c, r', rfl, hc⟩ := shape_first (hp m (by simp)) h4
            have : c ≠ '-' := by
              rintro rfl
              rw [← isHex_iff, hyphen_not_hex] at hc
              cases hc
            simp [optHyphen, this]
          · simp [optHyphen]
        simp only [ho, Option.map_eq_some_iff]
        exact ⟨(r, t), (ih _ _).mpr ⟨rfl, h4⟩, rfl⟩

theorem shape_iff (u : Txt) : Shape [8, 4, 4, 4, 12] u ↔ IsUuid u := by
  simp only [Shape, IsUuid]
  constructor
  · rintro ⟨a, h1, _, rfl, ⟨la, xa⟩, k1, b, h2, _, rfl, ⟨lb, xb⟩, k2, c, h3, _, rfl, ⟨lc, xc⟩, k3, d, h4, e, rfl, ⟨ld, xd⟩, k4, le, xe⟩
    refine ⟨a, h1, b, h2, c, h3, d, h4, e, by simp, ⟨la, lb, lc, ld, le⟩, ?_, ?_⟩
    · intro x hx
      simp only [List.mem_append] at hx
      rcases hx with (((hx | hx) | hx) | hx) | hx
      · exact xa x hx
      · exact xb x hx
      · exact xc x hx
      · exact xd x hx
      · exact xe x hx
    · intro h hh
      simp only [List.mem_cons, List.not_mem_nil, or_false] at hh
      rcases hh with rfl | rfl | rfl | rfl <;> assumption
  · rintro ⟨a, h1, b, h2, c, h3, d, h4, e, rfl, ⟨la, lb, lc, ld, le⟩, hx, hh⟩
    exact ⟨a, h1, b ++ h2 ++ (c ++ h3 ++ (d ++ h4 ++ e)), by simp, ⟨la, fun x m => hx x (by simp [m])⟩, hh _ (by simp),
      b, h2, c ++ h3 ++ (d ++ h4 ++ e), by simp, ⟨lb, fun x m => hx x (by simp [m])⟩, hh _ (by simp),
      c, h3, d ++ h4 ++ e, by simp, ⟨lc, fun x m => hx x (by simp [m])⟩, hh _ (by simp),
      d, h4, e, by simp, ⟨ld, fun x m => hx x (by simp [m])⟩, hh _ (by simp), le, fun x m => hx x (by simp [m])⟩

/-- what the regular expression matches at the beginning of a text -/
theorem uuidAt_iff (s u : Txt) : uuidAt s = some u ↔ IsUuid u ∧ ∃ t, s = u ++ t := by
  unfold uuidAt
  simp only [Option.map_eq_some_iff, Prod.exists, exists_and_right, exists_eq_right]
  simp only [groups_iff [8, 4, 4, 4, 12] (by simp), shape_iff]
  constructor
  · rintro ⟨t, h1, h2⟩; exact ⟨h2, t, h1⟩
  · rintro ⟨h2, t, h1⟩; exact ⟨t, h1, h2⟩

theorem Canon.isUuid {u : Txt} (h : Canon u) : IsUuid u := by
  obtain ⟨a, b, c, d, e, rfl, hl, hx⟩ := h
  exact ⟨a, ['-'], b, ['-'], c, ['-'], d, ['-'], e, rfl, hl, fun x m => (hx x m).hex, by simp⟩

theorem IsUuid.chars {u : Txt} (h : IsUuid u) : ∀ x ∈ u, Hex x ∨ x = '-' := by
  obtain ⟨a, h1, b, h2, c, h3, d, h4, e, rfl, -, hx, hh⟩ := h
  have key : ∀ h ∈ [h1, h2, h3, h4], ∀ x ∈ h, x = '-' := by
    intro h hm x hx
    rcases hh h hm with rfl | rfl
    · cases hx
    · simpa using hx
  intro x hm
  simp only [List.mem_append] at hm
  rcases hm with (((((((hm | hm) | hm) | hm) | hm) | hm) | hm) | hm) | hm
  · exact .inl (hx x (by simp [hm]))
  · exact .inr (key _ (by simp) x hm)
  · exact .inl (hx x (by simp [hm]))
  · exact .inr (key _ (by simp) x hm)
  · exact .inl (hx x (by simp [hm]))
  · exact .inr (key _ (by simp) x hm)
  · exact .inl (hx x (by simp [hm]))
  · exact .inr (key _ (by simp) x hm)
  · exact .inl (hx x (by simp [hm]))

theorem IsUuid.ne_nil {u : Txt} (h : IsUuid u) : u ≠ [] := by
  rintro rfl
  obtain ⟨a, h1, b, h2, c, h3, d, h4, e, he, ⟨hl, -⟩, -⟩ := h
  have : a = [] := by
    have := congrArg List.length he
    simp at this
    omega
  subst this
  simp at hl

/-- the search finds the first place where there is a UUID -/
theorem search_at (a u b : Txt) (hu : IsUuid u) (hno : ∀ a1 a2 v t, a = a1 ++ a2 → a2 ≠ [] → IsUuid v → a2 ++ u ++ b ≠ v ++ t) :
    search (a ++ u ++ b) = some u := by
  induction a with
  | nil =>
    have h1 : uuidAt (u ++ b) = some u := (uuidAt_iff _ _).mpr ⟨hu, b, rfl⟩
    rw [List.nil_append]
    cases hub : u ++ b with
    | nil => rw [hub] at h1; exact h1
    | cons c s => rw [hub] at h1; simp [search, h1]
  | cons c a ih =>
    have h0 : uuidAt (c :: (a ++ u ++ b)) = none := by
      cases h : uuidAt (c :: (a ++ u ++ b)) with
      | none => rfl
      | some v =>
        obtain ⟨h1, t, h2⟩ := (uuidAt_iff _ _).mp h
        exact absurd (by simpa using h2) (hno [] (c :: a) v t rfl (by simp) h1)
    simp only [List.cons_append, search, h0]
    exact ih fun a1 a2 v t h => hno (c :: a1) a2 v t (by rw [h]; rfl)

/-! ### the UUID of an entity -/

theorem toLower_hex {c : Char} (h : Hex c) : LowHex c.toLower := by
  have aux : ∀ n, (65 ≤ n ∧ n ≤ 70) → LowHex (Char.ofNat n).toLower := by
    rintro n ⟨h1, h2⟩
    interval_cases n <;> (unfold LowHex; decide)
  have low : ∀ c : Char, LowHex c → c.toLower = c := by
    intro c hc
    have : ¬ ('A' ≤ c ∧ c ≤ 'Z') := by
      rintro ⟨h1, h2⟩
      simp only [LowHex, Char.le_def, UInt32.le_iff_toNat_le] at hc h1 h2
      simp at hc h1 h2
      omega
    unfold Char.toLower
    simp only [Char.le_def] at this
    split
    · rename_i h; exact absurd ⟨h.1, h.2⟩ this
    · rfl
  rcases h with h | h | h
  · rw [low c (.inl h)]; exact .inl h
  · rw [low c (.inr h)]; exact .inr h
  · have := aux c.toNat (by
      simp only [Char.le_def, UInt32.le_iff_toNat_le] at h
      simpa using h)
    rwa [Char.ofNat_toNat] at this

theorem toLower_low {c : Char} (hc : LowHex c) : c.toLower = c := by
  have : ¬ ('A' ≤ c ∧ c ≤ 'Z') := by
    rintro ⟨h1, h2⟩
    simp only [LowHex, Char.le_def, UInt32.le_iff_toNat_le] at hc h1 h2
    simp at hc h1 h2
    omega
  unfold Char.toLower
  simp only [Char.le_def] at this
  split
  · rename_i h; exact absurd ⟨h.1, h.2⟩ this
  · rfl

theorem canonical_canon {h : Txt} (hl : h.length = 32) (hx : ∀ x ∈ h, Hex x) : Canon (canonical h) := by
  have hm : ∀ x ∈ h.map Char.toLower, LowHex x := by
    intro x hx'
    obtain ⟨y, hy, rfl⟩ := List.mem_map.mp hx'
    exact toLower_hex (hx y hy)
  have hl' : (h.map Char.toLower).length = 32 := by simpa using hl
  unfold canonical
  generalize h.map Char.toLower = g at hm hl'
  refine ⟨g.take 8, (g.drop 8).take 4, (g.drop 12).take 4, (g.drop 16).take 4, g.drop 20, by simp, by simp [hl'], ?_⟩
  intro x hx
  simp only [List.mem_append] at hx
  refine hm x ?_
  rcases hx with (((hx | hx) | hx) | hx) | hx
  · exact List.mem_of_mem_take hx
  · exact List.mem_of_mem_drop (List.mem_of_mem_take hx)
  · exact List.mem_of_mem_drop (List.mem_of_mem_take hx)
  · exact List.mem_of_mem_drop (List.mem_of_mem_take hx)
  · exact List.mem_of_mem_drop hx

/-- the UUIDs of entities have the usual form -/
theorem entityUuid_canon {s u : Txt} (h : entityUuid s = some u) : Canon u := by
  unfold entityUuid parse at h
  simp only at h
  split at h
  · rename_i hc
    cases h
    exact canonical_canon hc.1 fun x hx => (isHex_iff x).mp (by have := hc.2; rw [List.all_eq_true] at this; exact this x hx)
  · cases h

theorem remove_noop {t s : Txt} {c : Char} {t' : Txt} (ht : t = c :: t') (hc : c ∉ s) : remove t s = s := by
  unfold remove
  have main : ∀ n s, c ∉ s → remove.go t n s = s := by
    intro n
    induction n with
    | zero => intro s _; rfl
    | succ n ih =>
      intro s hs
      cases s with
      | nil => rfl
      | cons x s =>
        simp only [List.mem_cons, not_or] at hs
        have : t.isPrefixOf (x :: s) = false := by
          rw [ht, List.isPrefixOf]
          simp [hs.1]
        simp [remove.go, this, ih s hs.2]
  exact main _ _ hc

theorem not_hex {c : Char} (h : ¬ (Hex c ∨ c = '-')) {s : Txt} (hs : ∀ x ∈ s, Hex x ∨ x = '-') : c ∉ s := fun hm => h (hs c hm)

theorem dropWhile_noop {p : Char → Bool} {s : Txt} (h : ∀ x ∈ s, p x = false) : s.dropWhile p = s := by
  cases s with
  | nil => rfl
  | cons c s => simp [List.dropWhile, h c (by simp)]

theorem parse_uuid {s : Txt} (hs : IsUuid s) : parse s = some (canonical (s.filter fun c => c != '-')) := by
  have hc := hs.chars
  have hu : 'u' ∉ s := not_hex (by unfold Hex; decide) hc
  have hb : ∀ x ∈ s, (x == '{' || x == '}') = false := by
    intro x hx
    have h1 : '{' ∉ s := not_hex (by unfold Hex; decide) hc
    have h2 : '}' ∉ s := not_hex (by unfold Hex; decide) hc
    have e1 : x ≠ '{' := by rintro rfl; exact h1 hx
    have e2 : x ≠ '}' := by rintro rfl; exact h2 hx
    simp [e1, e2]
  unfold parse
  rw [remove_noop (t := "urn:".toList) (c := 'u') rfl hu, remove_noop (t := "uuid:".toList) (c := 'u') rfl hu]
  have hst : stripBraces s = s := by
    unfold stripBraces
    simp only
    rw [dropWhile_noop hb, dropWhile_noop (fun x hx => hb x (List.mem_reverse.mp hx)), List.reverse_reverse]
  simp only [hst]
  rw [if_pos]
  constructor
  · obtain ⟨a, h1, b, h2, c, h3, d, h4, e, rfl, ⟨la, lb, lc, ld, le⟩, hx, hh⟩ := hs
    have hf : ∀ h ∈ [h1, h2, h3, h4], h.filter (fun c => c != '-') = [] := by
      intro h hm
      rcases hh h hm with rfl | rfl <;> decide
    have hk : ∀ g : Txt, (∀ x ∈ g, Hex x) → g.filter (fun c => c != '-') = g := by
      intro g hg
      rw [List.filter_eq_self]
      intro x hx
      simp only [bne_iff_ne, ne_eq]
      rintro rfl
      have := hg _ hx
      rw [← isHex_iff, hyphen_not_hex] at this
      cases this
    simp only [List.filter_append, hf h1 (by simp), hf h2 (by simp), hf h3 (by simp), hf h4 (by simp), hk a (fun x m => hx x (by simp [m])),
      hk b (fun x m => hx x (by simp [m])), hk c (fun x m => hx x (by simp [m])), hk d (fun x m => hx x (by simp [m])), hk e (fun x m => hx x (by simp [m]))]
    simp [la, lb, lc, ld, le]
  · rw [List.all_eq_true]
    intro x hx
    rw [List.mem_filter] at hx
    rcases hc x hx.1 with h | h
    · exact (isHex_iff x).mpr h
    · subst h; simp at hx

theorem parse_canon {u : Txt} (hu : Canon u) : parse u = some u := by
  rw [parse_uuid hu.isUuid]
  obtain ⟨a, b, c, d, e, rfl, ⟨la, lb, lc, ld, le⟩, hx⟩ := hu
  have hk : ∀ g : Txt, (∀ x ∈ g, LowHex x) → g.filter (fun c => c != '-') = g ∧ g.map Char.toLower = g := by
    intro g hg
    constructor
    · rw [List.filter_eq_self]
      intro x hx
      simp only [bne_iff_ne, ne_eq]
      rintro rfl
      have := (hg _ hx).hex
      rw [← isHex_iff, hyphen_not_hex] at this
      cases this
    · conv_rhs => rw [← List.map_id g]
      exact List.map_congr_left fun x hx => toLower_low (hg x hx)
  have ka := hk a (fun x m => hx x (by simp [m]))
  have kb := hk b (fun x m => hx x (by simp [m]))
  have kc := hk c (fun x m => hx x (by simp [m]))
  have kd := hk d (fun x m => hx x (by simp [m]))
  have ke := hk e (fun x m => hx x (by simp [m]))
  have hh : (['-'] : Txt).filter (fun c => c != '-') = [] := by decide
  simp only [List.filter_append, hh, ka.1, kb.1, kc.1, kd.1, ke.1, List.append_nil, Option.some.injEq]
  unfold canonical
  simp only [List.map_append, ka.2, kb.2, kc.2, kd.2, ke.2]
  have t1 : (a ++ b ++ c ++ d ++ e).take 8 = a := by
    rw [show a ++ b ++ c ++ d ++ e = a ++ (b ++ c ++ d ++ e) by simp, List.take_left' la]
  have t2 : ((a ++ b ++ c ++ d ++ e).drop 8).take 4 = b := by
    rw [show a ++ b ++ c ++ d ++ e = a ++ (b ++ (c ++ d ++ e)) by simp, List.drop_left' la, List.take_left' lb]
  have t3 : ((a ++ b ++ c ++ d ++ e).drop 12).take 4 = c := by
    have : (a ++ b ++ c ++ d ++ e).drop 12 = c ++ d ++ e := by
      rw [show a ++ b ++ c ++ d ++ e = (a ++ b) ++ (c ++ d ++ e) by simp, List.drop_left' (by simp [la, lb])]
    rw [this, List.append_assoc, List.take_left' lc]
  have t4 : ((a ++ b ++ c ++ d ++ e).drop 16).take 4 = d := by
    have : (a ++ b ++ c ++ d ++ e).drop 16 = d ++ e := by
      rw [show a ++ b ++ c ++ d ++ e = (a ++ b ++ c) ++ (d ++ e) by simp, List.drop_left' (by simp [la, lb, lc])]
    rw [this, List.take_left' ld]
  have t5 : (a ++ b ++ c ++ d ++ e).drop 20 = e := by
    rw [List.drop_left' (by simp [la, lb, lc, ld])]
  rw [t1, t2, t3, t4, t5]
  simp

/-! ### lookup -/

/-- **C169** an entity is found by every text in which its UUID is the first, in the usual form, and begins after a character that is no digit, letter up
to f, or hyphen -/
theorem found {E : Type} (entities : Dict Txt E) (a u b : Txt) (hu : Canon u)
    (ha : a = [] ∨ ∃ a' c, a = a' ++ [c] ∧ ¬ Hex c ∧ c ≠ '-') (hno : ∀ x v y, a = x ++ v ++ y → ¬ IsUuid v) :
    lookup entities (a ++ u ++ b) = entities.get? u := by
  unfold lookup toUuid
  rw [search_at a u b hu.isUuid]
  · rfl
  · intro a1 a2 v t h1 h2 hv he
    rcases ha with rfl | ⟨a', c, rfl, hc, hc'⟩
    · simp at h1; exact h2 h1.2
    · obtain ⟨a3, rfl⟩ : ∃ a3, a2 = a3 ++ [c] := by
        rcases List.eq_nil_or_concat a2 with h | ⟨L, x, h⟩
        · exact absurd h h2
        · refine ⟨L, ?_⟩
          rw [List.concat_eq_append] at h
          rw [h, ← List.append_assoc] at h1
          have := (List.append_inj' h1 rfl).2
          rw [h, this]
      rw [List.append_assoc, List.append_assoc, List.singleton_append] at he
      have hcv : c ∉ v := fun hm => by
        rcases hv.chars c hm with h | h
        · exact hc h
        · exact hc' h
      -- the match ends before the separator
      rcases List.append_eq_append_iff.mp he with ⟨w, hw1, hw2⟩ | ⟨w, hw1, hw2⟩
      · cases w with
        | nil =>
          rw [List.append_nil] at hw1
          exact hno a1 v [c] (by rw [h1, ← hw1]; simp) hv
        | cons x w =>
          simp only [List.cons_append, List.cons.injEq] at hw2
          obtain ⟨rfl, -⟩ := hw2
          exact hcv (by rw [hw1]; simp)
      · exact hno a1 v (w ++ [c]) (by rw [h1, hw1]; simp) hv

/-- a UUID in another spelling than the usual one (with capitals, or without a hyphen) is a UUID: an entity can be made with it, and is found under the usual
form of it; but by that spelling no entity of any archive is ever found -/
theorem other_spelling_not_found {s : Txt} (hs : IsUuid s) (hc : ¬ Canon s) :
    ∃ u, entityUuid s = some u ∧ Canon u ∧ ∀ (E : Type) (entities : Dict Txt E), (∀ k ∈ entities.keys, Canon k) →
      lookup entities u = entities.get? u ∧ lookup entities s = none := by
  have hp : entityUuid s = some (canonical (s.filter fun c => c != '-')) := parse_uuid hs
  refine ⟨_, hp, entityUuid_canon hp, ?_⟩
  intro E entities hk
  refine ⟨?_, ?_⟩
  · have := found entities [] (canonical (s.filter fun c => c != '-')) [] (entityUuid_canon hp) (.inl rfl) (by
      intro x v y h hv
      have : v = [] := by
        have := congrArg List.length h
        simp at this
        exact List.eq_nil_of_length_eq_zero (by omega)
      exact hv.ne_nil this)
    simpa using this
  · unfold lookup toUuid
    have := search_at [] s [] hs (by
      intro a1 a2 v t h h2
      simp at h
      exact absurd h.2 h2)
    simp only [List.nil_append, List.append_nil] at this
    rw [this]
    simp only [Option.bind_some]
    by_contra hn
    obtain ⟨e, he⟩ := Option.ne_none_iff_exists'.mp hn
    exact hc (hk s ((Dict.mem_keys_iff _ _).mpr ⟨e, he⟩))

/-- the UUID of an entity made with the UUID of an entity is the same -/
theorem entityUuid_idem {s u : Txt} (h : entityUuid s = some u) : entityUuid u = some u := parse_canon (entityUuid_canon h)

/-! ### examples -/

namespace Ex

def u : Txt := "93a60a56-a3c8-11da-a746-0800200b9a66".toList

theorem u_canon : Canon u :=
  ⟨"93a60a56".toList, "a3c8".toList, "11da".toList, "a746".toList, "0800200b9a66".toList, by decide, by decide, by simp only [LowHex]; decide⟩

/-- a path -/
example : toUuid "ILCD/processes/93a60a56-a3c8-11da-a746-0800200b9a66_02.xml".toList = some u := by decide +kernel

/-- the hypotheses of `found` hold of it -/
example : Canon u ∧ (∃ a' c, "flows/".toList = a' ++ [c] ∧ ¬ Hex c ∧ c ≠ '-') ∧ (∀ x v y, "flows/".toList = x ++ v ++ y → ¬ IsUuid v) := by
  refine ⟨u_canon, ⟨"flows".toList, '/', by decide, by unfold Hex; decide, by decide⟩, ?_⟩
  rintro x v y h ⟨a, h1, b, h2, c, h3, d, h4, e, rfl, ⟨la, -⟩, -⟩
  have := congrArg List.length h
  simp [la] at this
  omega

/-- capitals -/
theorem capitals_missed : entityUuid "93A60A56-A3C8-11DA-A746-0800200B9A66".toList = some u ∧ lookup [(u, 1)] u = some 1 ∧
    lookup [(u, 1)] "93A60A56-A3C8-11DA-A746-0800200B9A66".toList = none ∧
    lookup [(u, 1)] "93a60a56a3c811daa7460800200b9a66".toList = none := by decide +kernel

/-- with unusual hyphens, however, any spelling is put into the usual form -/
example : lookup [(u, 1)] "{93A6-0A56A3C8-11DAA7460800200B9A66}".toList = some 1 := by decide +kernel

/-- `other_spelling_not_found` is about it -/
example : IsUuid "93A60A56A3C811DAA7460800200B9A66".toList ∧ ¬ Canon "93A60A56A3C811DAA7460800200B9A66".toList := by
  constructor
  · exact ⟨"93A60A56".toList, [], "A3C8".toList, [], "11DA".toList, [], "A746".toList, [], "0800200B9A66".toList, by decide, by decide,
      by simp only [Hex]; decide, by simp⟩
  · intro h
    have := parse_canon h
    revert this
    decide +kernel

end Ex

end Uid
