import Verif.Model.LciaBox

/-!
C176: results of a container of LCIA results are found by number, by key and by the beginning of a key, and are at the scale of the container.
-/

set_option linter.unusedSectionVars false

namespace Lbx

inductive Op
  | set (k : Txt) (r : ℕ) | scale (f : ℚ) | clear | update (l : List (Txt × ℕ)) | delete (k : Txt)

def step (b : Box) : Op → Box
  | .set k r => set k r b
  | .scale f => scale f b
  | .clear => clear b
  | .update l => update l b
  | .delete k => (delete k b).getD b

def run (b : Box) (ops : List Op) : Box := ops.foldl step b

/-- results are stored one by one, under keys of one length (as UUIDs are), or all removed; the container is scaled -/
def Op.Plain (n : ℕ) : Op → Prop
  | .set k _ => k.length = n
  | .scale _ => True
  | .clear => True
  | .update _ => False
  | .delete _ => False

/-- the numbers are the places, and the results are at the scale of the container -/
structure Inv (n : ℕ) (b : Box) : Prop where
  idx : b.idx = b.ents.keys
  nodup : b.ents.keys.Nodup
  len : ∀ k ∈ b.ents.keys, k.length = n
  scaled : ∀ p ∈ b.ents, b.scales p.2 = b.scale

/-- **C176** a text gives the first result whose key begins with it, and none if no key does -/
theorem text_first (b : Box) (s : Txt) (r : ℕ) :
    getText s b = some r ↔ ∃ l1 k l2, b.ents = l1 ++ (k, r) :: l2 ∧ (∃ t, k = s ++ t) ∧ ∀ p ∈ l1, ¬ ∃ t, p.1 = s ++ t := by
  have hp : ∀ k : Txt, s.isPrefixOf k = true ↔ ∃ t, k = s ++ t := by
    intro k
    rw [List.isPrefixOf_iff_prefix]
    constructor
    · rintro ⟨t, rfl⟩; exact ⟨t, rfl⟩
    · rintro ⟨t, rfl⟩; exact ⟨t, rfl⟩
  unfold getText
  rw [Option.map_eq_some_iff]
  constructor
  · rintro ⟨⟨k, r'⟩, h, rfl⟩
    rw [List.find?_eq_some_iff_append] at h
    obtain ⟨h1, l1, l2, h2, h3⟩ := h
    refine ⟨l1, k, l2, h2, (hp k).mp h1, ?_⟩
    intro p hm hh
    have := h3 p hm
    simp [(hp p.1).mpr hh] at this
  · rintro ⟨l1, k, l2, h1, h2, h3⟩
    refine ⟨(k, r), ?_, rfl⟩
    rw [List.find?_eq_some_iff_append]
    refine ⟨(hp k).mpr h2, l1, l2, h1, ?_⟩
    intro p hm
    cases hh : s.isPrefixOf p.1 with
    | false => rfl
    | true => exact absurd ((hp p.1).mp hh) (h3 p hm)

theorem text_none (b : Box) (s : Txt) : getText s b = none ↔ ∀ k ∈ b.ents.keys, ¬ ∃ t, k = s ++ t := by
  cases h : getText s b with
  | some r =>
    simp only [reduceCtorEq, false_iff]
    intro hh
    obtain ⟨l1, k, l2, h1, h2, -⟩ := (text_first b s r).mp h
    exact hh k (by rw [h1]; simp [Dict.keys]) h2
  | none =>
    simp only [true_iff]
    rintro k hk ⟨t, rfl⟩
    unfold getText at h
    rw [Option.map_eq_none_iff, List.find?_eq_none] at h
    obtain ⟨p, hp, he⟩ := List.mem_map.mp hk
    apply h p hp
    rw [List.isPrefixOf_iff_prefix, he]
    exact ⟨t, rfl⟩

/-- **C176** a key gives its result, if keys have one length -/
theorem key_found {n : ℕ} {b : Box} (hi : Inv n b) {k : Txt} (hk : k.length = n) : getText k b = b.ents.get? k := by
  have eqk : ∀ q ∈ b.ents.keys, (∃ t, q = k ++ t) → q = k := by
    rintro q hq ⟨t, rfl⟩
    have := hi.len _ hq
    rw [List.length_append] at this
    have : t = [] := List.length_eq_zero_iff.mp (by omega)
    rw [this, List.append_nil]
  cases h : getText k b with
  | some r =>
    obtain ⟨l1, q, l2, h1, h2, -⟩ := (text_first b k r).mp h
    have hm : (q, r) ∈ b.ents := by rw [h1]; simp
    have hq : q = k := eqk q (List.mem_map.mpr ⟨_, hm, rfl⟩) h2
    subst hq
    exact (Dict.get?_eq_some_of_mem b.ents hi.nodup hm).symm
  | none =>
    have h := (text_none b k).mp h
    symm
    rw [← Dict.not_mem_keys_iff]
    intro hm
    exact h k hm ⟨[], by simp⟩

/-- **C176** the number `i` gives the result at the place `i` -/
theorem num_found {n : ℕ} {b : Box} (hi : Inv n b) {i : ℕ} {k : Txt} {r : ℕ} (h : b.ents[i]? = some (k, r)) : getNum i b = .ok r ∧ getNum (i - b.ents.length) b = .ok r := by
  have hk : b.idx[i]? = some k := by
    rw [hi.idx]
    simp [Dict.keys, h]
  have hg : b.ents.get? k = some r := Dict.get?_eq_some_of_mem _ hi.nodup (List.mem_of_getElem? h)
  have hlt := (List.getElem?_eq_some_iff.mp h).1
  have hl : b.idx.length = b.ents.length := by rw [hi.idx]; simp [Dict.keys]
  constructor
  · unfold getNum
    have h1 : ¬ ((i : ℤ) < 0) := by omega
    simp only [h1, if_false, Int.toNat_natCast, hk, hg]
  · unfold getNum
    have h0 : (i : ℤ) - (b.ents.length : ℤ) < 0 := by omega
    have h1 : (i : ℤ) - (b.ents.length : ℤ) + (b.idx.length : ℤ) = i := by omega
    have h2 : ¬ ((i : ℤ) < 0) := by omega
    simp only [h0, if_true, h1, h2, if_false, Int.toNat_natCast, hk, hg]

/-! ### histories -/

theorem scaleAll_spec (f : ℚ) (ks : List Txt) (b : Box) :
    (scaleAll f ks b).ents = b.ents ∧ (scaleAll f ks b).idx = b.idx ∧ (scaleAll f ks b).scale = b.scale ∧
    ∀ r, (scaleAll f ks b).scales r = if ∃ k ∈ ks, getText k b = some r then f else b.scales r := by
  induction ks generalizing b with
  | nil => simp [scaleAll]
  | cons k ks ih =>
    unfold scaleAll
    cases h : getText k b with
    | none =>
      obtain ⟨i1, i2, i3, i4⟩ := ih b
      refine ⟨i1, i2, i3, ?_⟩
      intro r
      simp only [i4, List.mem_cons, or_and_right, exists_or, exists_eq_left, h, reduceCtorEq, false_or]
    | some r0 =>
      obtain ⟨i1, i2, i3, i4⟩ := ih { b with scales := setScale r0 f b.scales }
      refine ⟨i1, i2, i3, ?_⟩
      intro r
      have hg : ∀ k, getText k { b with scales := setScale r0 f b.scales } = getText k b := fun k => rfl
      simp only [i4, hg, List.mem_cons, or_and_right, exists_or, exists_eq_left, h, Option.some.injEq]
      by_cases hr : r0 = r
      · subst hr; simp [setScale]
      · simp [hr, setScale, Ne.symm hr]

theorem scale_inv {n : ℕ} {b : Box} (f : ℚ) (h : Inv n b) : Inv n (scale f b) ∧ (scale f b).scale = f ∧ (scale f b).ents = b.ents := by
  unfold scale
  split
  · rename_i hf; exact ⟨h, hf.symm, rfl⟩
  · obtain ⟨i1, i2, i3, i4⟩ := scaleAll_spec f b.idx { b with scale := f }
    refine ⟨⟨by rw [i1, i2]; exact h.idx, by rw [i1]; exact h.nodup, by rw [i1]; exact h.len, ?_⟩, i3, i1⟩
    intro p hp
    rw [i1] at hp
    rw [i3, i4, if_pos]
    have hk : p.1 ∈ b.ents.keys := List.mem_map.mpr ⟨p, hp, rfl⟩
    refine ⟨p.1, by rw [h.idx]; exact hk, ?_⟩
    have : getText p.1 { b with scale := f } = getText p.1 b := rfl
    rw [this, key_found h (h.len _ hk)]
    exact Dict.get?_eq_some_of_mem _ h.nodup hp

theorem set_inv {n : ℕ} {b : Box} {k : Txt} (r : ℕ) (hk : k.length = n) (h : Inv n b) : Inv n (set k r b) := by
  refine ⟨?_, Dict.nodup_keys_set _ _ _ h.nodup, ?_, ?_⟩
  · simp only [set]
    by_cases hm : k ∈ b.idx
    · rw [if_pos hm, h.idx, Dict.keys_set_of_mem _ _ (h.idx ▸ hm)]
    · rw [if_neg hm, h.idx, Dict.set_of_not_mem _ _ (h.idx ▸ hm)]
      simp [Dict.keys]
  · intro q hq
    rcases (Dict.mem_keys_set _ _ _ _).mp hq with rfl | hq
    · exact hk
    · exact h.len q hq
  · intro p hp
    simp only [set, setScale]
    split
    · rfl
    · rename_i hne
      have hn : (b.ents.set k r).keys.Nodup := Dict.nodup_keys_set _ _ _ h.nodup
      have hg : (b.ents.set k r).get? p.1 = some p.2 := Dict.get?_eq_some_of_mem _ hn hp
      rw [Dict.get?_set] at hg
      split at hg
      · cases hg; exact absurd rfl hne
      · exact h.scaled p (Dict.mem_of_get?_eq_some _ hg)

theorem run_inv {n : ℕ} (ops : List Op) (hp : ∀ o ∈ ops, o.Plain n) {b : Box} (h : Inv n b) : Inv n (run b ops) := by
  induction ops generalizing b with
  | nil => exact h
  | cons o ops ih =>
    apply ih (fun o ho => hp o (List.mem_cons_of_mem _ ho))
    have := hp o (by simp)
    cases o with
    | set k r => exact set_inv r this h
    | scale f => exact (scale_inv f h).1
    | clear => exact ⟨rfl, by simp [step, clear, Dict.keys], by simp [step, clear, Dict.keys], by simp [step, clear]⟩
    | update l => exact absurd this (by simp [Op.Plain])
    | delete k => exact absurd this (by simp [Op.Plain])

/-- **C176** whatever results are stored one by one, scaled or cleared: numbers give the results in the order of their keys, keys give their results, and all are at the
scale of the container -/
theorem history {n : ℕ} (ops : List Op) (hp : ∀ o ∈ ops, o.Plain n) (sc : ℕ → ℚ) (b : Box) (hb : b = run (new sc) ops) :
    b.idx = b.ents.keys ∧ (∀ p ∈ b.ents, b.scales p.2 = b.scale) ∧
    (∀ (i : ℕ) k r, b.ents[i]? = some (k, r) → getNum i b = .ok r ∧ getText k b = some r) ∧
    toList b = b.ents.map fun p => some p.2 := by
  have h : Inv n b := by
    rw [hb]
    exact run_inv ops hp ⟨rfl, by simp [new, Dict.keys], by simp [new, Dict.keys], by simp [new]⟩
  refine ⟨h.idx, h.scaled, ?_, ?_⟩
  · intro i k r hi
    have hm := List.mem_of_getElem? hi
    have hk : k ∈ b.ents.keys := List.mem_map.mpr ⟨_, hm, rfl⟩
    exact ⟨(num_found h hi).1, by rw [key_found h (h.len k hk)]; exact Dict.get?_eq_some_of_mem _ h.nodup hm⟩
  · unfold toList
    rw [h.idx, Dict.keys, List.map_map]
    apply List.map_congr_left
    intro p hp
    have hk : p.1 ∈ b.ents.keys := List.mem_map.mpr ⟨p, hp, rfl⟩
    simp only [Function.comp_apply]
    rw [key_found h (h.len _ hk)]
    exact Dict.get?_eq_some_of_mem _ h.nodup hp

/-- **C176** what is stored under a key is what was stored last, and other keys are not disturbed -/
theorem set_found {n : ℕ} {b : Box} (hi : Inv n b) {k q : Txt} (r : ℕ) (hk : k.length = n) (hq : q.length = n) : getText q (set k r b) = if q = k then some r else getText q b := by
  rw [key_found (set_inv r hk hi) hq, key_found hi hq]
  show (b.ents.set k r).get? q = _
  rw [Dict.get?_set]
  simp only [eq_comm]

theorem update_keys_nodup (l : List (Txt × ℕ)) (d : Dict Txt ℕ) (h : d.keys.Nodup) : (l.foldl (fun d p => d.set p.1 p.2) d).keys.Nodup := by
  induction l generalizing d with
  | nil => exact h
  | cons p l ih => exact ih _ (Dict.nodup_keys_set _ _ _ h)

/-- **C176** after `update` too numbers give the results in the order of their keys -/
theorem update_numbers {n : ℕ} {b : Box} (hi : Inv n b) (l : List (Txt × ℕ)) (i : ℕ) (k : Txt) (r : ℕ) (h : (update l b).ents[i]? = some (k, r)) :
    getNum i (update l b) = .ok r := by
  have hn : (update l b).ents.keys.Nodup := update_keys_nodup l b.ents hi.nodup
  have hx : (update l b).idx[i]? = some k := by
    show (Dict.keys (update l b).ents)[i]? = _
    simp [Dict.keys, h]
  have hg : (update l b).ents.get? k = some r := Dict.get?_eq_some_of_mem _ hn (List.mem_of_getElem? h)
  unfold getNum
  have h1 : ¬ ((i : ℤ) < 0) := by omega
  simp only [h1, if_false, Int.toNat_natCast, hx, hg]

/-- **C176** (fails) a result stored by `update` keeps its own scale, also if the container is then scaled to the scale it has -/
theorem update_not_scaled (b : Box) (k : Txt) (r : ℕ) (h : b.scales r ≠ b.scale) :
    (scale b.scale (update [(k, r)] b)).ents.get? k = some r ∧ (scale b.scale (update [(k, r)] b)).scales r ≠ (scale b.scale (update [(k, r)] b)).scale := by
  have : scale b.scale (update [(k, r)] b) = update [(k, r)] b := by simp [scale, update]
  rw [this]
  exact ⟨by simp [update], h⟩

/-- **C176** (fails) when a result is deleted the numbers are not adjusted: its number raises KeyError, and the list has an empty result in its place -/
theorem delete_keeps_number {n : ℕ} {b b' : Box} (hi : Inv n b) {i : ℕ} {k : Txt} {r : ℕ} (h : b.ents[i]? = some (k, r)) (hd : delete k b = some b') :
    getNum i b' = .error .key ∧ (toList b')[i]? = some none ∧ (toList b').length = b.ents.length := by
  have hm := List.mem_of_getElem? h
  have hk : k ∈ b.ents.keys := List.mem_map.mpr ⟨_, hm, rfl⟩
  have hb' : b' = { b with ents := b.ents.del k } := by
    unfold delete at hd
    split at hd
    · exact (Option.some.inj hd).symm
    · cases hd
  have hx : b'.idx[i]? = some k := by
    rw [hb']
    simp only [hi.idx, Dict.keys, List.getElem?_map, h, Option.map_some]
  have hnot : k ∉ (b.ents.del k).keys := fun hh => absurd rfl ((Dict.mem_keys_del _ hi.nodup _ _).mp hh).1
  have hg : b'.ents.get? k = none := by
    rw [hb', ← Dict.not_mem_keys_iff]; exact hnot
  refine ⟨?_, ?_, ?_⟩
  · unfold getNum
    have h1 : ¬ ((i : ℤ) < 0) := by omega
    simp only [h1, if_false, Int.toNat_natCast, hx, hg]
  · unfold toList
    rw [List.getElem?_map, hx, Option.map_some, (text_none b' k).mpr]
    rintro q hq ⟨t, rfl⟩
    rw [hb'] at hq
    obtain ⟨h1, h2⟩ := (Dict.mem_keys_del _ hi.nodup _ _).mp hq
    have l1 := hi.len _ h2
    have l2 := hi.len _ hk
    rw [List.length_append] at l1
    have : t = [] := List.length_eq_zero_iff.mp (by omega)
    subst this
    simp at h1
  · unfold toList
    rw [List.length_map, hb']
    simp only [hi.idx, Dict.keys, List.length_map]

/-! ### examples -/

namespace Ex

def k1 : Txt := "abcd".toList
def k2 : Txt := "abef".toList

/-- two results, the first replaced, at scale two -/
def ops : List Op := [.set k1 1, .scale 2, .set k2 2, .set k1 3]

example : (∀ o ∈ ops, o.Plain 4) := by
  intro o ho
  simp only [ops, List.mem_cons, List.not_mem_nil, or_false] at ho
  rcases ho with rfl | rfl | rfl | rfl <;> simp [Op.Plain, k1, k2]

def b : Box := run (new fun _ => 1) ops

example : b.ents = [(k1, 3), (k2, 2)] ∧ b.scales 3 = 2 ∧ b.scales 2 = 2 ∧ getNum 0 b = .ok 3 ∧ getNum (-1) b = .ok 2 ∧ getNum 2 b = .error .index ∧
    getText "ab".toList b = some 3 ∧ getText "abe".toList b = some 2 ∧ getText "x".toList b = none := by
  refine ⟨?_, ?_, ?_, ?_, ?_, ?_, ?_, ?_, ?_⟩ <;> first | decide +kernel | rfl

/-- **C176** (fails) a result added by `update` to a container at scale two -/
theorem updated_unscaled : (update [("abgh".toList, 9)] b).scales 9 = 1 ∧ (update [("abgh".toList, 9)] b).scale = 2 := by decide +kernel

example : (update [("abgh".toList, 9)] b).ents[2]? = some ("abgh".toList, 9) := by decide +kernel

/-- **C176** (fails) if keys may have different lengths, a key may give the result of another -/
theorem shorter_key : getText "a".toList (run (new fun _ => 1) [.set "ab".toList 1, .set "a".toList 2]) = some 1 := by decide +kernel

/-- after deleting -/
theorem deleted : toList ((delete k1 b).getD b) = [none, some 2] := by decide +kernel

end Ex
end Lbx
