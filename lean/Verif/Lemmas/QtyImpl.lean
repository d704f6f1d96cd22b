import Verif.Model.QtyImpl
import Verif.Lemmas.Flowables
import Mathlib.Logic.Relation

/-! Invariant of the index of flowables and the effect of the calls made by `_init_flowables`. -/

set_option linter.unusedSectionVars false
set_option linter.unusedSimpArgs false
set_option linter.unusedVariables false

namespace Qim
open Syn Flw

variable {L : Lex Str}

/-! ### partitions -/

/-- connected by a chain of lists of keys -/
def Conn (H : List (List Str)) : Str → Str → Prop := Relation.EqvGen fun a b => ∃ h ∈ H, a ∈ h ∧ b ∈ h

structure PInv (H : List (List Str)) (d : Str → Option ℕ) : Prop where
  known : ∀ k, (∃ i, d k = some i) ↔ ∃ h ∈ H, k ∈ h
  conn : ∀ k k' i j, d k = some i → d k' = some j → (i = j ↔ Conn H k k')

/-- `d'` comes from `d` by joining the classes of `ks` -/
def Merged (ks : List Str) (d d' : Str → Option ℕ) : Prop :=
  ∃ i, (∀ k ∈ ks, d' k = some i) ∧ (∀ k, k ∉ ks → d k = none → d' k = none) ∧
    (∀ k, k ∉ ks → ∀ j, d k = some j → (∃ k' ∈ ks, d k' = some j) → d' k = some i) ∧
    (∀ k, k ∉ ks → ∀ j, d k = some j → (∀ k' ∈ ks, d k' ≠ some j) → d' k = some j) ∧
    (∀ k, d k = some i → ∃ k' ∈ ks, d k' = some i)

theorem conn_mono {H H' : List (List Str)} (h : ∀ x ∈ H, x ∈ H') {a b : Str} (hc : Conn H a b) : Conn H' a b := by
  induction hc with
  | rel a b hr => obtain ⟨x, hx, h1, h2⟩ := hr; exact .rel _ _ ⟨x, h x hx, h1, h2⟩
  | refl a => exact .refl _
  | symm a b _ ih => exact .symm _ _ ih
  | trans a b c _ _ i1 i2 => exact .trans _ _ _ i1 i2

theorem merged_inv {H : List (List Str)} {ks : List Str} {d d' : Str → Option ℕ} (h : PInv H d) (hm : Merged ks d d') :
    PInv (H ++ [ks]) d' := by
  obtain ⟨i, m1, m2, m3, m4, m5⟩ := hm
  have hmono : ∀ {a b}, Conn H a b → Conn (H ++ [ks]) a b := fun hc => conn_mono (fun x hx => List.mem_append_left _ hx) hc
  have hks : ∀ {a b}, a ∈ ks → b ∈ ks → Conn (H ++ [ks]) a b := fun ha hb => .rel _ _ ⟨ks, by simp, ha, hb⟩
  -- what a key of `d'` stands for
  have hcls : ∀ k x, d' k = some x → (x = i ∧ ∃ k' ∈ ks, Conn (H ++ [ks]) k k') ∨
      (x ≠ i ∧ k ∉ ks ∧ d k = some x) := by
    intro k x hx
    by_cases hk : k ∈ ks
    · left; rw [m1 k hk] at hx; simp at hx; exact ⟨hx.symm, k, hk, .refl _⟩
    · cases hd : d k with
      | none => rw [m2 k hk hd] at hx; simp at hx
      | some j =>
        by_cases ht : ∃ k' ∈ ks, d k' = some j
        · rw [m3 k hk j hd ht] at hx; simp at hx
          obtain ⟨k', h1, h2⟩ := ht
          exact Or.inl ⟨hx.symm, k', h1, hmono ((h.conn k k' j j hd h2).mp rfl)⟩
        · push Not at ht
          rw [m4 k hk j hd ht] at hx; simp at hx; subst hx
          right; refine ⟨?_, hk, rfl⟩
          rintro rfl
          obtain ⟨k', h1, h2⟩ := m5 k hd
          exact ht k' h1 h2
  have hedge : ∀ a b, Conn (H ++ [ks]) a b → d' a = d' b := by
    intro a b hc
    induction hc with
    | refl => rfl
    | symm _ _ _ ih => exact ih.symm
    | trans _ _ _ _ _ i1 i2 => exact i1.trans i2
    | rel a b hr =>
      obtain ⟨x, hx, ha, hb⟩ := hr
      rcases List.mem_append.mp hx with hx | hx
      · obtain ⟨ja, hja⟩ := (h.known a).mpr ⟨x, hx, ha⟩
        obtain ⟨jb, hjb⟩ := (h.known b).mpr ⟨x, hx, hb⟩
        have e : ja = jb := (h.conn a b ja jb hja hjb).mpr (.rel _ _ ⟨x, hx, ha, hb⟩)
        subst e
        by_cases ht : ∃ k' ∈ ks, d k' = some ja
        · have ea : d' a = some i := by
            by_cases hk : a ∈ ks
            · exact m1 a hk
            · exact m3 a hk ja hja ht
          have eb : d' b = some i := by
            by_cases hk : b ∈ ks
            · exact m1 b hk
            · exact m3 b hk ja hjb ht
          rw [ea, eb]
        · push Not at ht
          rw [m4 a (fun hk => ht a hk hja) ja hja ht, m4 b (fun hk => ht b hk hjb) ja hjb ht]
      · simp at hx; subst hx
        rw [m1 a ha, m1 b hb]
  refine ⟨?_, ?_⟩
  · intro k
    constructor
    · rintro ⟨x, hx⟩
      by_cases hk : k ∈ ks
      · exact ⟨ks, by simp, hk⟩
      · cases hd : d k with
        | none => rw [m2 k hk hd] at hx; simp at hx
        | some j =>
          obtain ⟨y, h1, h2⟩ := (h.known k).mp ⟨j, hd⟩
          exact ⟨y, List.mem_append_left _ h1, h2⟩
    · rintro ⟨y, h1, h2⟩
      by_cases hk : k ∈ ks
      · exact ⟨i, m1 k hk⟩
      · rcases List.mem_append.mp h1 with h1 | h1
        · obtain ⟨j, hj⟩ := (h.known k).mpr ⟨y, h1, h2⟩
          by_cases ht : ∃ k' ∈ ks, d k' = some j
          · exact ⟨i, m3 k hk j hj ht⟩
          · push Not at ht; exact ⟨j, m4 k hk j hj ht⟩
        · simp at h1; subst h1; exact absurd h2 hk
  · intro k k' x y hx hy
    constructor
    · rintro rfl
      rcases hcls k x hx with ⟨e, a, ha, hca⟩ | ⟨e, hk, hd⟩
      · rcases hcls k' x hy with ⟨_, b, hb, hcb⟩ | ⟨e', _⟩
        · exact (hca.trans _ _ _ (hks ha hb)).trans _ _ _ (hcb.symm _ _)
        · exact absurd e e'
      · rcases hcls k' x hy with ⟨e', _⟩ | ⟨_, hk', hd'⟩
        · exact absurd e' e
        · exact hmono ((h.conn k k' x x hd hd').mp rfl)
    · intro hc
      have := hedge k k' hc
      rw [hx, hy] at this; simpa using this

theorem pinv_init : PInv [] (fun k => ({} : State Str).dict.get? k) := by
  constructor
  · intro k; simp
  · intro k k' i j h; simp at h

/-! ### the invariant of the list of synonyms -/

structure G (L : Lex Str) (s : State Str) : Prop where
  lenN : ∀ j : ℕ, s.names[j]? = none ↔ s.items[j]? = none
  lenC : ∀ j : ℕ, s.cas[j]? = none ↔ s.items[j]? = none
  empty : s.dict.get? [] = none
  listed : ∀ (i : ℕ) l, s.items[i]? = some (some l) → ∀ t ∈ l, s.dict.get? (L.san t) = some i
  live : ∀ k i, s.dict.get? k = some i → ∃ l, s.items[i]? = some (some l) ∧ ((∃ t ∈ l, L.san t = k) ∨ isCas k = true)
  casK : ∀ k i, s.dict.get? k = some i → isCas k = true → ∃ c, s.cas[i]? = some (some c) ∧ trim c = trim k
  casL : ∀ (i : ℕ) c, s.cas[i]? = some (some c) → pad c = some c ∧ s.dict.get? c = some i ∧ s.dict.get? (trim c) = some i
  name : ∀ (i : ℕ) n, s.names[i]? = some (some n) → s.dict.get? (L.san n) = some i
  named : ∀ k i, s.dict.get? k = some i → ∃ n, s.names[i]? = some (some n)

theorem g_init : G L {} := by constructor <;> simp

/-- a name or a link: not blank, not a CAS number -/
def Plain (L : Lex Str) (t : Str) : Prop := L.san t ≠ [] ∧ isCas (L.san t) = false ∧ isCas t = false

/-- a CAS number written without spaces, with six digits in front or without leading zeros -/
def CasLike (L : Lex Str) (t : Str) : Prop := L.san t = t ∧ isCas t = true ∧ (pad t = some t ∨ trim t = t)

/-- the keys of a term -/
def keysOf (L : Lex Str) (t : Str) : List Str :=
  if t = [] then [] else if isCas t then [trim t, (pad t).getD t] else [L.san t]

structure Law (L : Lex Str) : Prop extends FLaw L where
  nil : L.san [] = []

theorem Plain.ne (hL : Law L) {t : Str} (h : Plain L t) : t ≠ [] := by
  rintro rfl; exact h.1 hL.nil

theorem CasLike.ne {t : Str} (h : CasLike L t) : t ≠ [] := by
  rintro rfl; exact absurd h.2.1 (by decide)

theorem keysOf_plain (hL : Law L) {t : Str} (h : Plain L t) : keysOf L t = [L.san t] := by
  simp [keysOf, h.ne hL, h.2.2]

theorem pad_some {t : Str} (h : isCas t = true) : ∃ p, pad t = some p :=
  Option.isSome_iff_exists.mp ((C14_pad_trim t).1.mpr ((isCas_iff t).mp h))

theorem keysOf_cas {t p : Str} (h : CasLike L t) (hp : pad t = some p) : keysOf L t = [trim t, p] := by
  simp [keysOf, h.ne, h.2.1, hp]

theorem pad_eq {a b : Str} (ha : isCas a = true) (hb : isCas b = true) (h : trim a = trim b) : pad a = pad b := by
  obtain ⟨p, hp⟩ := pad_some ha
  obtain ⟨q, hq⟩ := pad_some hb
  have e1 := ((C14_pad_trim a).2.1 p hp).2.2.2.1
  have e2 := ((C14_pad_trim b).2.1 q hq).2.2.2.1
  rw [h, e2] at e1
  rw [hp, hq, e1]

theorem pad_isCas {c p : Str} (h : pad c = some p) : isCas c = true := by
  unfold pad at h
  split at h
  · assumption
  · simp at h

/-- all keys of a known term lead to the same item -/
theorem keys_known (hL : Law L) {s : State Str} (h : G L s) {t : Str} (ht : Plain L t ∨ CasLike L t) {i : ℕ}
    (hk : s.dict.get? (L.san t) = some i) : ∀ k ∈ keysOf L t, s.dict.get? k = some i := by
  rcases ht with ht | ht
  · rw [keysOf_plain hL ht]; simpa using hk
  · obtain ⟨p, hp⟩ := pad_some ht.2.1
    rw [keysOf_cas ht hp]
    rw [ht.1] at hk
    obtain ⟨c, hc, hct⟩ := h.casK t i hk ht.2.1
    obtain ⟨c1, c2, c3⟩ := h.casL i c hc
    have : pad c = pad t := pad_eq (pad_isCas c1) ht.2.1 hct
    rw [c1, hp] at this; simp at this; subst this
    intro k hkk
    simp only [List.mem_cons, List.not_mem_nil, or_false] at hkk
    rcases hkk with rfl | rfl
    · rw [← hct]; exact c3
    · exact c2

/-- all keys of an unknown term are unknown -/
theorem keys_unknown (hL : Law L) {s : State Str} (h : G L s) {t : Str} (ht : Plain L t ∨ CasLike L t)
    (hk : s.dict.get? (L.san t) = none) : ∀ k ∈ keysOf L t, s.dict.get? k = none := by
  rcases ht with ht | ht
  · rw [keysOf_plain hL ht]; simpa using hk
  · obtain ⟨p, hp⟩ := pad_some ht.2.1
    rw [keysOf_cas ht hp]
    rw [ht.1] at hk
    have hpt := ((C14_pad_trim t).2.1 p hp)
    have key : ∀ k, isCas k = true → trim k = trim t → s.dict.get? k = none := by
      intro k hck hkt
      cases hd : s.dict.get? k with
      | none => rfl
      | some j =>
        exfalso
        obtain ⟨c, hc, hct⟩ := h.casK k j hd hck
        obtain ⟨c1, c2, c3⟩ := h.casL j c hc
        have : pad c = pad t := pad_eq (pad_isCas c1) ht.2.1 (hct.trans hkt)
        rw [c1, hp] at this; simp at this; subst this
        rcases ht.2.2 with e | e
        · rw [hp] at e; simp at e; subst e; rw [hk] at c2; simp at c2
        · rw [← hkt, ← hct] at e; rw [e] at c3; rw [hk] at c3; simp at c3
    intro k hkk
    simp only [List.mem_cons, List.not_mem_nil, or_false] at hkk
    rcases hkk with rfl | rfl
    · exact key _ (trim_ne_nil ht.2.1).2 (trim_idem t)
    · exact key _ (pad_isCas hpt.2.2.1) hpt.2.2.2.2.1

theorem keysOf_nil (hL : Law L) {t : Str} (ht : Plain L t ∨ CasLike L t) : [] ∉ keysOf L t := by
  rcases ht with ht | ht
  · rw [keysOf_plain hL ht]; simp; exact fun h => ht.1 h
  · obtain ⟨p, hp⟩ := pad_some ht.2.1
    rw [keysOf_cas ht hp]
    have h1 := (trim_ne_nil ht.2.1).1
    have h2 : p ≠ [] := by
      rintro rfl
      have := pad_isCas ((C14_pad_trim t).2.1 _ hp).2.2.1
      exact absurd this (by decide)
    simp only [List.mem_cons, List.not_mem_nil, or_false, not_or]
    exact ⟨fun h => h1 h.symm, fun h => h2 h.symm⟩

/-- replacing one item -/
theorem g_upd {s s' : State Str} (h : G L s) {idx : ℕ} {l l' ks : List Str} {n : Str} {c' : Option Str}
    (hl : s.items[idx]? = some (some l))
    (hi : ∀ j : ℕ, s'.items[j]? = if j = idx then some (some l') else s.items[j]?)
    (hn : ∀ j : ℕ, s'.names[j]? = if j = idx then some (some n) else s.names[j]?)
    (hc : ∀ j : ℕ, s'.cas[j]? = if j = idx then some c' else s.cas[j]?)
    (hd : ∀ k, s'.dict.get? k = if k ∈ ks then some idx else s.dict.get? k)
    (hsub : ∀ t ∈ l, t ∈ l') (hsub' : ∀ t ∈ l', t ∈ l ∨ L.san t ∈ ks)
    (hks : ∀ k ∈ ks, (∃ t ∈ l', L.san t = k) ∨ isCas k = true)
    (hun : ∀ k ∈ ks, s.dict.get? k = none ∨ s.dict.get? k = some idx)
    (hnil : [] ∉ ks)
    (ha : ∀ k, isCas k = true → (k ∈ ks ∨ s.dict.get? k = some idx) → ∃ c, c' = some c ∧ trim c = trim k)
    (hb : ∀ c, c' = some c → pad c = some c ∧ s'.dict.get? c = some idx ∧ s'.dict.get? (trim c) = some idx)
    (hname : s'.dict.get? (L.san n) = some idx) : G L s' := by
  have hdo : ∀ k j, j ≠ idx → (s'.dict.get? k = some j ↔ s.dict.get? k = some j) := by
    intro k j hj
    rw [hd]
    by_cases hk : k ∈ ks
    · rw [if_pos hk]
      constructor
      · intro e; simp at e; exact absurd e.symm hj
      · intro e; rcases hun k hk with e' | e' <;> rw [e'] at e <;> simp at e; exact absurd e.symm hj
    · rw [if_neg hk]
  have hdi : ∀ k, s'.dict.get? k = some idx ↔ k ∈ ks ∨ s.dict.get? k = some idx := by
    intro k; rw [hd]
    by_cases hk : k ∈ ks <;> simp [hk]
  refine ⟨?_, ?_, ?_, ?_, ?_, ?_, ?_, ?_, ?_⟩
  · intro j; rw [hn, hi]; split
    · simp
    · exact h.lenN j
  · intro j; rw [hc, hi]; split
    · simp
    · exact h.lenC j
  · rw [hd, if_neg hnil]; exact h.empty
  · intro i m hm t ht
    rw [hi] at hm
    split at hm
    · rename_i e; subst e
      simp at hm; subst hm
      rw [hdi]
      rcases hsub' t ht with h1 | h1
      · exact Or.inr (h.listed i l hl t h1)
      · exact Or.inl h1
    · rename_i e
      rw [hdo _ _ e]; exact h.listed i m hm t ht
  · intro k i hk
    by_cases e : i = idx
    · subst e
      refine ⟨l', by rw [hi]; simp, ?_⟩
      rcases (hdi k).mp hk with h1 | h1
      · exact hks k h1
      · obtain ⟨m, hm, h2⟩ := h.live k i h1
        rw [hl] at hm; simp at hm; subst hm
        rcases h2 with ⟨t, ht, e⟩ | h2
        · exact Or.inl ⟨t, hsub t ht, e⟩
        · exact Or.inr h2
    · rw [hdo _ _ e] at hk
      rw [hi, if_neg e]
      exact h.live k i hk
  · intro k i hk hck
    rw [hc]
    by_cases e : i = idx
    · subst e
      obtain ⟨c, h1, h2⟩ := ha k hck ((hdi k).mp hk)
      exact ⟨c, by simp [h1], h2⟩
    · rw [if_neg e]; rw [hdo _ _ e] at hk; exact h.casK k i hk hck
  · intro i c hcc
    rw [hc] at hcc
    by_cases e : i = idx
    · subst e; simp at hcc; exact hb c hcc
    · rw [if_neg e] at hcc
      rw [hdo _ _ e, hdo _ _ e]; exact h.casL i c hcc
  · intro i m hm
    rw [hn] at hm
    by_cases e : i = idx
    · subst e; simp at hm; subst hm; exact hname
    · rw [if_neg e] at hm; rw [hdo _ _ e]; exact h.name i m hm
  · intro k i hk
    rw [hn]
    by_cases e : i = idx
    · subst e; simp
    · rw [if_neg e]; rw [hdo _ _ e] at hk; exact h.named k i hk

theorem getElem?_set' {α : Type} (l : List α) (i : ℕ) (a : α) (h : l[i]? ≠ none) (j : ℕ) :
    (l.set i a)[j]? = if j = i then some a else l[j]? := by
  have hlt : i < l.length := by
    by_contra hge
    exact h (List.getElem?_eq_none (by omega))
  rw [List.getElem?_set]
  by_cases e : i = j
  · subst e; simp [hlt]
  · rw [if_neg e, if_neg (Ne.symm e)]

/-- the effect of adding a term to an item -/
theorem newTermF_ok (hL : Law L) {s : State Str} (h : G L s) {idx : ℕ} {l : List Str}
    (hl : s.items[idx]? = some (some l)) {t : Str} (ht : Plain L t ∨ CasLike L t)
    (hk : s.dict.get? (L.san t) = none ∨ s.dict.get? (L.san t) = some idx) :
    (∃ s' l', newTermF L t idx s = .ok () s' ∧ G L s' ∧ s'.items[idx]? = some (some l') ∧
      (∀ k, s'.dict.get? k = if k ∈ keysOf L t then some idx else s.dict.get? k) ∧
      (∀ c, s'.cas[idx]? = some (some c) → s.cas[idx]? = some (some c) ∨ (isCas t = true ∧ trim c = trim t)) ∧
      (∀ j : ℕ, s'.items[j]? = none ↔ s.items[j]? = none)) ∨
    (newTermF L t idx s = .err .conflictingCas s ∧ isCas t = true ∧ ∃ c, s.cas[idx]? = some (some c) ∧ trim c ≠ trim t) := by
  have hne : t ≠ [] := by rcases ht with ht | ht; exact ht.ne hL; exact ht.ne
  have hbl : t ≠ L.blank := by rw [hL.blank]; exact hne
  have hiN : s.items[idx]? ≠ none := by rw [hl]; simp
  have hnN : s.names[idx]? ≠ none := fun e => hiN ((h.lenN idx).mp e)
  have hcN : s.cas[idx]? ≠ none := fun e => hiN ((h.lenC idx).mp e)
  unfold newTermF
  rw [if_neg hbl]
  simp only
  rcases hk with hk | hk
  · rw [hk]; simp only
    have hun := keys_unknown hL h ht hk
    rcases ht with ht | ht
    · -- a name
      rw [if_neg (by rw [ht.2.1]; simp)]
      left
      unfold finish
      rw [hl]; simp only
      have hkeys := keysOf_plain hL ht
      obtain ⟨nm, hnm⟩ := Option.ne_none_iff_exists'.mp hnN
      obtain ⟨c0, hc0⟩ := Option.ne_none_iff_exists'.mp hcN
      rw [hnm]
      -- the new name
      have key : ∀ n : Str, L.san n = L.san t ∨ s.dict.get? (L.san n) = some idx → ∀ s' : State Str,
          s'.items = s.items.set idx (some (PySet.add l t)) → s'.dict = s.dict.set (L.san t) idx → s'.cas = s.cas →
          (∀ j : ℕ, s'.names[j]? = if j = idx then some (some n) else s.names[j]?) →
          G L s' ∧ s'.items[idx]? = some (some (PySet.add l t)) ∧
          (∀ k, s'.dict.get? k = if k ∈ keysOf L t then some idx else s.dict.get? k) ∧
          (∀ c, s'.cas[idx]? = some (some c) → s.cas[idx]? = some (some c) ∨ (isCas t = true ∧ trim c = trim t)) ∧
          (∀ j : ℕ, s'.items[j]? = none ↔ s.items[j]? = none) := by
        intro n hn s' e1 e2 e3 e4
        have hi : ∀ j : ℕ, s'.items[j]? = if j = idx then some (some (PySet.add l t)) else s.items[j]? := by
          intro j; rw [e1, getElem?_set' _ _ _ hiN]
        have hd : ∀ k, s'.dict.get? k = if k ∈ [L.san t] then some idx else s.dict.get? k := by
          intro k; rw [e2, Dict.get?_set]; simp only [List.mem_singleton]
          by_cases e : k = L.san t
          · subst e; simp
          · simp [e, Ne.symm e]
        refine ⟨?_, by rw [hi]; simp, by rw [hkeys]; exact hd, ?_, ?_⟩
        · apply g_upd (ks := [L.san t]) (c' := c0) (n := n) (l' := PySet.add l t) h hl hi e4 ?_ hd
          · intro x hx; simp [hx]
          · intro x hx; simp at hx; rcases hx with hx | hx
            · exact Or.inl hx
            · right; simp [hx]
          · intro k hk; simp at hk; subst hk; exact Or.inl ⟨t, by simp, rfl⟩
          · intro k hk'; simp at hk'; subst hk'; exact Or.inl hk
          · simp; exact fun e => ht.1 e
          · intro k hck hor
            rcases hor with hor | hor
            · simp at hor; subst hor; rw [ht.2.1] at hck; simp at hck
            · obtain ⟨c, h1, h2⟩ := h.casK k idx hor hck
              rw [hc0] at h1; simp at h1; exact ⟨c, h1, h2⟩
          · intro c hc
            subst hc
            obtain ⟨h1, h2, h3⟩ := h.casL idx c hc0
            refine ⟨h1, ?_, ?_⟩ <;> rw [hd] <;> split <;> first | rfl | assumption
          · rw [hd]
            rcases hn with hn | hn
            · simp [hn]
            · split <;> first | rfl | assumption
          · intro j; rw [e3]
            by_cases e : j = idx
            · subst e; simp [hc0]
            · simp [e]
        · intro c hc; left; rw [e3] at hc; exact hc
        · intro j; rw [hi]
          by_cases e : j = idx
          · subst e; simp [hl]
          · simp [e]
      cases nm with
      | none =>
        exact ⟨_, _, rfl, key t (Or.inl rfl) _ rfl rfl rfl (fun j => by rw [getElem?_set' _ _ _ hnN])⟩
      | some n =>
        simp only
        split
        · exact ⟨_, _, rfl, key t (Or.inl rfl) _ rfl rfl rfl (fun j => by rw [getElem?_set' _ _ _ hnN])⟩
        · refine ⟨_, _, rfl, key n (Or.inr (h.name idx n hnm)) _ rfl rfl rfl (fun j => ?_)⟩
          by_cases e : j = idx
          · subst e; simp [hnm]
          · simp [e]
    · -- a CAS number
      obtain ⟨p, hp⟩ := pad_some ht.2.1
      have hkeys := keysOf_cas ht hp
      have hpt := (C14_pad_trim t).2.1 p hp
      obtain ⟨c0, hc0⟩ := Option.ne_none_iff_exists'.mp hcN
      rw [ht.1, if_pos ht.2.1, hc0]; simp only
      cases hcf : conflicts c0 t with
      | true =>
        right
        simp only [if_true]
        cases c0 with
        | none => simp [conflicts] at hcf
        | some c =>
          simp [conflicts] at hcf
          exact ⟨trivial, ht.2.1, c, rfl, hcf⟩
      | false =>
        left
        simp only [hp, Bool.false_eq_true, if_false]
        have hst : L.san (trim p) = trim t := by
          have := san_trim hL.toFLaw (t := t) (k := p) (by rw [ht.1]; exact ht.2.1) (by rw [ht.1]; exact hp)
          rw [this, ht.1]
        have htp : trim p = trim t := hpt.2.2.2.2.1
        have hptr : trim p ≠ L.blank := by rw [hL.blank, htp]; exact (trim_ne_nil ht.2.1).1
        have hu1 : s.dict.get? (trim t) = none := hun _ (by rw [hkeys]; simp)
        have hu2 : s.dict.get? p = none := hun _ (by rw [hkeys]; simp)
        have hpcas := pad_isCas hpt.2.2.1
        obtain ⟨nm, hnm⟩ := Option.ne_none_iff_exists'.mp hnN
        have hnew : ∃ n s2, newTerm L (trim p) idx { s with cas := s.cas.set idx (some p) } = .ok () s2 ∧
            s2.items = s.items.set idx (some (PySet.add l (trim p))) ∧ s2.dict = s.dict.set (trim t) idx ∧
            s2.cas = s.cas.set idx (some p) ∧ (∀ j : ℕ, s2.names[j]? = if j = idx then some (some n) else s.names[j]?) ∧
            (L.san n = trim t ∨ s.dict.get? (L.san n) = some idx) := by
          unfold newTerm
          rw [if_neg hptr]
          simp only [hl, hst]
          rw [hu1]
          simp only [hnm]
          cases nm with
          | none =>
            exact ⟨trim p, _, rfl, rfl, rfl, rfl, (fun j => by rw [getElem?_set' _ _ _ hnN]), Or.inl hst⟩
          | some n =>
            refine ⟨n, _, rfl, rfl, rfl, rfl, (fun j => ?_), Or.inr (h.name idx n hnm)⟩
            by_cases e : j = idx
            · subst e; simp [hnm]
            · simp [e]
        obtain ⟨n, s2, e0, e1, e2, e3, e4, e5⟩ := hnew
        rw [e0]; simp only [Out.bind]
        unfold finish
        have hl2 : s2.items[idx]? = some (some (PySet.add l (trim p))) := by
          rw [e1, getElem?_set' _ _ _ hiN]; simp
        rw [hl2]; simp only
        have hn2 : s2.names[idx]? = some (some n) := by rw [e4]; simp
        rw [hn2]; simp only
        have hnN2 : s2.names[idx]? ≠ none := by rw [hn2]; simp
        have hi2N : s2.items[idx]? ≠ none := by rw [hl2]; simp
        have key : ∀ n' : Str, (L.san n' = t ∨ L.san n' = trim t ∨ s.dict.get? (L.san n') = some idx) → ∀ s' : State Str,
            s'.items = s2.items.set idx (some (PySet.add (PySet.add l (trim p)) t)) →
            s'.dict = s2.dict.set p idx → s'.cas = s2.cas →
            (∀ j : ℕ, s'.names[j]? = if j = idx then some (some n') else s.names[j]?) →
            G L s' ∧ s'.items[idx]? = some (some (PySet.add (PySet.add l (trim p)) t)) ∧
            (∀ k, s'.dict.get? k = if k ∈ keysOf L t then some idx else s.dict.get? k) ∧
            (∀ c, s'.cas[idx]? = some (some c) → s.cas[idx]? = some (some c) ∨ (isCas t = true ∧ trim c = trim t)) ∧
            (∀ j : ℕ, s'.items[j]? = none ↔ s.items[j]? = none) := by
          intro n' hn' s' f1 f2 f3 f4
          have hi : ∀ j : ℕ, s'.items[j]? = if j = idx then some (some (PySet.add (PySet.add l (trim p)) t)) else s.items[j]? := by
            intro j; rw [f1, getElem?_set' _ _ _ hi2N, e1, getElem?_set' _ _ _ hiN]
            split <;> rfl
          have hd : ∀ k, s'.dict.get? k = if k ∈ [trim t, p] then some idx else s.dict.get? k := by
            intro k; rw [f2, Dict.get?_set, e2, Dict.get?_set]
            by_cases g1 : k = p
            · subst g1; simp
            · by_cases g2 : k = trim t
              · subst g2; simp
              · simp [g1, g2, Ne.symm g1, Ne.symm g2]
          have hc : ∀ j : ℕ, s'.cas[j]? = if j = idx then some (some p) else s.cas[j]? := by
            intro j; rw [f3, e3, getElem?_set' _ _ _ hcN]
          have htk : t ∈ [trim t, p] := by
            rcases ht.2.2 with e | e
            · rw [hp] at e; simp at e; simp [e]
            · simp [e]
          refine ⟨?_, by rw [hi]; simp, by rw [hkeys]; exact hd, ?_, ?_⟩
          · apply g_upd (ks := [trim t, p]) (c' := some p) (n := n') h hl hi f4 hc hd
            · intro x hx; simp [hx]
            · intro x hx; simp only [PySet.mem_add] at hx
              rcases hx with (hx | hx) | hx
              · exact Or.inl hx
              · right; subst hx; rw [hst]; simp
              · right; subst hx; rw [ht.1]; exact htk
            · intro k hk'
              simp only [List.mem_cons, List.not_mem_nil, or_false] at hk'
              rcases hk' with rfl | rfl
              · exact Or.inr (trim_ne_nil ht.2.1).2
              · exact Or.inr hpcas
            · intro k hk'; exact Or.inl (hun k (by rw [hkeys]; exact hk'))
            · rw [← hkeys]; exact keysOf_nil hL (Or.inr ht)
            · intro k hck hor
              refine ⟨p, rfl, ?_⟩
              rcases hor with hor | hor
              · simp only [List.mem_cons, List.not_mem_nil, or_false] at hor
                rcases hor with rfl | rfl
                · rw [trim_idem]; exact htp
                · rfl
              · obtain ⟨c, h1, h2⟩ := h.casK k idx hor hck
                rw [hc0] at h1; simp at h1; subst h1
                simp [conflicts] at hcf
                rw [htp, ← hcf, h2]
            · intro c hcc
              simp at hcc; subst hcc
              refine ⟨hpt.2.2.1, ?_, ?_⟩
              · rw [hd]; simp
              · rw [hd, htp]; simp
            · rw [hd]
              rcases hn' with hn' | hn' | hn'
              · rw [hn', if_pos htk]
              · rw [hn']; simp
              · split <;> first | rfl | assumption
          · intro c hcc; right; rw [hc] at hcc; simp at hcc; subst hcc; exact ⟨ht.2.1, htp⟩
          · intro j; rw [hi]
            by_cases e : j = idx
            · subst e; simp [hl]
            · simp [e]
        simp only [hc0] at key
        split
        · exact ⟨_, _, rfl, key t (Or.inl ht.1) _ rfl rfl rfl (fun j => by
            rw [getElem?_set' _ _ _ hnN2, e4]; split <;> rfl)⟩
        · exact ⟨_, _, rfl, key n (Or.inr e5) _ rfl rfl rfl (fun j => by rw [e4])⟩
  · left
    rw [hk]; simp only [if_true]
    have := keys_known hL h ht hk
    refine ⟨s, l, rfl, h, hl, ?_, fun c hc => Or.inl hc, fun j => Iff.rfl⟩
    intro k
    split
    · rename_i hm; exact this k hm
    · rfl

/-- a term that may be given: nothing, a name, or a CAS number -/
def Tok (L : Lex Str) (t : Str) : Prop := t = [] ∨ Plain L t ∨ CasLike L t

theorem mergeSet_ok (hL : Law L) {idx : ℕ} : ∀ (ts : List Str) {s : State Str} (_ : G L s) {l : List Str}
    (_ : s.items[idx]? = some (some l)) (_ : ∀ t ∈ ts, Tok L t)
    (_ : ∀ t ∈ ts, t ≠ [] → s.dict.get? (L.san t) = none ∨ s.dict.get? (L.san t) = some idx)
    (_ : ∀ t ∈ ts, ∀ t' ∈ ts, isCas t = true → isCas t' = true → trim t = trim t')
    (_ : ∀ t ∈ ts, isCas t = true → ∀ c, s.cas[idx]? = some (some c) → trim c = trim t),
    ∃ s' l', mergeSet (newTermF L) ts idx s = .ok () s' ∧ G L s' ∧ s'.items[idx]? = some (some l') ∧
      (∀ k, s'.dict.get? k = if k ∈ ts.flatMap (keysOf L) then some idx else s.dict.get? k) ∧
      (∀ j : ℕ, s'.items[j]? = none ↔ s.items[j]? = none) := by
  intro ts
  induction ts with
  | nil => intro s h l hl _ _ _ _; exact ⟨s, l, rfl, h, hl, by simp, fun j => Iff.rfl⟩
  | cons t ts ih =>
    intro s h l hl htok hk hone hcf
    rcases htok t (by simp) with rfl | ht
    · have e : newTermF L [] idx s = .ok () s := by simp [newTermF, hL.blank]
      rw [mergeSet, e]; simp only [Out.bind]
      obtain ⟨s', l', h1, h2, h3, h4, h5⟩ := ih h hl (fun t ht => htok t (by simp [ht])) (fun t ht => hk t (by simp [ht]))
        (fun t ht t' ht' => hone t (by simp [ht]) t' (by simp [ht'])) (fun t ht => hcf t (by simp [ht]))
      refine ⟨s', l', h1, h2, h3, ?_, h5⟩
      intro k; rw [h4]; simp [keysOf]
    · have hne : t ≠ [] := by rcases ht with ht | ht; exact ht.ne hL; exact ht.ne
      rcases newTermF_ok hL h hl ht (hk t (by simp) hne) with ⟨s1, l1, e, g1, hl1, hd1, hc1, hn1⟩ | ⟨_, hc, c, e1, e2⟩
      · rw [mergeSet, e]; simp only [Out.bind]
        obtain ⟨s', l', h1, h2, h3, h4, h5⟩ := ih g1 hl1 (fun t ht => htok t (by simp [ht])) (by
            intro t' ht' hne'
            rw [hd1]
            split
            · exact Or.inr rfl
            · exact hk t' (by simp [ht']) hne')
          (fun t ht t' ht' => hone t (by simp [ht]) t' (by simp [ht'])) (by
            intro t' ht' hct' c hcc
            rcases hc1 c hcc with h6 | ⟨h6, h7⟩
            · exact hcf t' (by simp [ht']) hct' c h6
            · exact h7.trans (hone t (by simp) t' (by simp [ht']) h6 hct'))
        refine ⟨s', l', h1, h2, h3, ?_, fun j => (h5 j).trans (hn1 j)⟩
        intro k; rw [h4, hd1]
        simp only [List.flatMap_cons, List.mem_append]
        by_cases c1 : k ∈ List.flatMap (keysOf L) ts <;> by_cases c2 : k ∈ keysOf L t <;> simp [c1, c2]
      · exact absurd (hcf t (by simp) hc c e1) e2

theorem findCas_spec {ts : List Str} (hone : ∀ t ∈ ts, ∀ t' ∈ ts, isCas t = true → isCas t' = true → trim t = trim t') :
    (findCas ts = .ok none ∧ ∀ t ∈ ts, isCas t = false) ∨
    (∃ t ∈ ts, isCas t = true ∧ findCas ts = .ok (some (trim t))) := by
  have hmem : ∀ c, c ∈ PySet.ofList ((ts.filter isCas).map trim) ↔ ∃ t ∈ ts, isCas t = true ∧ trim t = c := by
    intro c; simp only [PySet.mem_ofList, List.mem_map, List.mem_filter]
    constructor
    · rintro ⟨t, ⟨h1, h2⟩, h3⟩; exact ⟨t, h1, h2, h3⟩
    · rintro ⟨t, h1, h2, h3⟩; exact ⟨t, ⟨h1, h2⟩, h3⟩
  have hnd := PySet.nodup_ofList ((ts.filter isCas).map trim)
  unfold findCas
  generalize hx : PySet.ofList ((ts.filter isCas).map trim) = x at hmem hnd
  match x with
  | [] =>
    left
    refine ⟨rfl, fun t ht => ?_⟩
    cases hc : isCas t with
    | false => rfl
    | true => have := (hmem (trim t)).mpr ⟨t, ht, hc, rfl⟩; simp at this
  | [c] =>
    right
    obtain ⟨t, h1, h2, h3⟩ := (hmem c).mp (by simp)
    exact ⟨t, h1, h2, by rw [h3]⟩
  | a :: b :: r =>
    exfalso
    obtain ⟨t, h1, h2, h3⟩ := (hmem a).mp (by simp)
    obtain ⟨t', h1', h2', h3'⟩ := (hmem b).mp (by simp)
    have := hone t h1 t' h1' h2 h2'
    rw [h3, h3'] at this
    subst this; simp at hnd

theorem mergeSetF_ok (hL : Law L) {idx : ℕ} {ts : List Str} {s : State Str} (h : G L s) {l : List Str}
    (hl : s.items[idx]? = some (some l)) (htok : ∀ t ∈ ts, Tok L t)
    (hk : ∀ t ∈ ts, t ≠ [] → s.dict.get? (L.san t) = none ∨ s.dict.get? (L.san t) = some idx)
    (hone : ∀ t ∈ ts, ∀ t' ∈ ts, isCas t = true → isCas t' = true → trim t = trim t') :
    (∃ s' l', mergeSetF L ts idx s = .ok () s' ∧ G L s' ∧ s'.items[idx]? = some (some l') ∧
      (∀ k, s'.dict.get? k = if k ∈ ts.flatMap (keysOf L) then some idx else s.dict.get? k) ∧
      (∀ j : ℕ, s'.items[j]? = none ↔ s.items[j]? = none)) ∨
    (mergeSetF L ts idx s = .err .conflictingCas s ∧
      ∃ t ∈ ts, isCas t = true ∧ ∃ c, s.cas[idx]? = some (some c) ∧ trim c ≠ trim t) := by
  unfold mergeSetF
  rcases findCas_spec hone with ⟨e, hno⟩ | ⟨t, ht, hct, e⟩
  · rw [e]; left
    exact mergeSet_ok hL ts h hl htok hk hone (fun t ht hc => by rw [hno t ht] at hc; simp at hc)
  · rw [e]
    have hcN : s.cas[idx]? ≠ none := fun e => by have := (h.lenC idx).mp e; rw [hl] at this; simp at this
    obtain ⟨c0, hc0⟩ := Option.ne_none_iff_exists'.mp hcN
    simp only [hc0]
    cases hcf : conflicts c0 (trim t) with
    | true =>
      right
      cases c0 with
      | none => simp [conflicts] at hcf
      | some c =>
        simp [conflicts, trim_idem] at hcf
        exact ⟨rfl, t, ht, hct, c, rfl, hcf⟩
    | false =>
      left
      simp only [Bool.false_eq_true, if_false]
      refine mergeSet_ok hL ts h hl htok hk hone ?_
      intro t' ht' hct' c hcc
      rw [hc0] at hcc; simp at hcc; subst hcc
      simp [conflicts, trim_idem] at hcf
      rw [hcf]; exact hone t ht t' ht' hct hct'

theorem g_newItem {s : State Str} (h : G L s) : G L (newItem s).2 ∧ (newItem s).2.items[s.items.length]? = some (some []) ∧
    (newItem s).2.dict = s.dict ∧ s.cas.length = s.items.length ∧ (newItem s).2.cas[s.items.length]? = some none := by
  have hlen : ∀ {α β : Type} (a : List α) (b : List β), (∀ j : ℕ, a[j]? = none ↔ b[j]? = none) → a.length = b.length := by
    intro α β a b hab
    have h1 := (hab a.length).mp (by simp)
    have h2 := (hab b.length).mpr (by simp)
    rw [List.getElem?_eq_none_iff] at h1 h2
    omega
  have e1 := hlen _ _ h.lenN
  have e2 := hlen _ _ h.lenC
  have hap : ∀ {α : Type} (a : List α) (x : α) (j : ℕ), (a ++ [x])[j]? = if j = a.length then some x else a[j]? := by
    intro α a x j
    rw [List.getElem?_append]
    split
    · rw [if_neg (by omega)]
    · split
      · subst_vars; simp
      · rw [List.getElem?_eq_none (by simp; omega), List.getElem?_eq_none (by omega)]
  have hlt : ∀ k i, s.dict.get? k = some i → i ≠ s.items.length := by
    rintro k i hk rfl
    obtain ⟨l, hl, _⟩ := h.live k _ hk
    simp at hl
  refine ⟨⟨?_, ?_, h.empty, ?_, ?_, ?_, ?_, ?_, ?_⟩, by simp [newItem], rfl, e2, by simp [newItem, e2.symm]⟩
  · intro j; simp only [newItem]; rw [hap, hap, e1]
    split
    · simp
    · exact h.lenN j
  · intro j; simp only [newItem]; rw [hap, hap, e2]
    split
    · simp
    · exact h.lenC j
  · intro i l hl t ht
    simp only [newItem] at hl ⊢
    rw [hap] at hl
    split at hl
    · simp at hl; subst hl; simp at ht
    · exact h.listed i l hl t ht
  · intro k i hk
    simp only [newItem] at hk ⊢
    rw [hap, if_neg (hlt k i hk)]
    exact h.live k i hk
  · intro k i hk hc
    simp only [newItem] at hk ⊢
    rw [hap, e2, if_neg (hlt k i hk)]
    exact h.casK k i hk hc
  · intro i c hc
    simp only [newItem] at hc ⊢
    rw [hap] at hc
    split at hc
    · simp at hc
    · exact h.casL i c hc
  · intro i n hn
    simp only [newItem] at hn ⊢
    rw [hap] at hn
    split at hn
    · simp at hn
    · exact h.name i n hn
  · intro k i hk
    simp only [newItem] at hk ⊢
    rw [hap, e1, if_neg (hlt k i hk)]
    exact h.named k i hk

/-- the terms of a call, the second one a name or a link -/
structure Pair (L : Lex Str) (a b : Str) : Prop where
  fst : Tok L a
  snd : Plain L b

/-- `add_synonyms(a, b)` unless the two are known as different items -/
theorem addSyn_ok (hL : Law L) {s : State Str} (h : G L s) (o : PyOrd Str) {a b : Str} (hp : Pair L a b)
    (hne : ∀ i j, getIndex L s a = some i → getIndex L s b = some j → i = j) :
    (∃ r s', addSet L o (mergeSetF L) [a, b] true s = .ok r s' ∧ G L s' ∧
      Merged (keysOf L a ++ keysOf L b) (fun k => s.dict.get? k) (fun k => s'.dict.get? k)) ∨
    (∃ s', addSet L o (mergeSetF L) [a, b] true s = .err .conflictingCas s' ∧
      isCas a = true ∧ ∃ j c, getIndex L s b = some j ∧ s.cas[j]? = some (some c) ∧ trim c ≠ trim a) := by
  have hcasb : isCas b = false := hp.snd.2.2
  have hbne : b ≠ [] := hp.snd.ne hL
  have htok : ∀ t ∈ [a, b], Tok L t := by
    intro t ht; simp at ht; rcases ht with rfl | rfl
    · exact hp.fst
    · exact Or.inr (Or.inl hp.snd)
  have hone : ∀ ts : List Str, (∀ t ∈ ts, t ∈ [a, b]) → ∀ t ∈ ts, ∀ t' ∈ ts, isCas t = true → isCas t' = true → trim t = trim t' := by
    intro ts hs t ht t' ht' h1 h2
    have e1 := hs t ht; have e2 := hs t' ht'
    simp at e1 e2
    rcases e1 with rfl | rfl <;> rcases e2 with rfl | rfl
    · rfl
    · rw [hcasb] at h2; simp at h2
    · rw [hcasb] at h1; simp at h1
    · rfl
  have hany : ∀ (t : Str), t ∈ [a, b] → ∀ i, getIndex L s t = some i → ∀ k ∈ keysOf L t, s.dict.get? k = some i := by
    intro t ht i hi k hk
    rcases htok t ht with rfl | ht'
    · simp [keysOf] at hk
    · exact keys_known hL h ht' hi k hk
  have hnone : ∀ (t : Str), t ∈ [a, b] → getIndex L s t = none → ∀ k ∈ keysOf L t, s.dict.get? k = none := by
    intro t ht hi k hk
    rcases htok t ht with rfl | ht'
    · simp [keysOf] at hk
    · exact keys_unknown hL h ht' hi k hk
  have hks : ∀ k, k ∈ keysOf L a ++ keysOf L b ↔ ∃ t ∈ [a, b], k ∈ keysOf L t := by intro k; simp
  have hkb : ∃ k, k ∈ keysOf L b := ⟨L.san b, by rw [keysOf_plain hL hp.snd]; simp⟩
  unfold addSet
  simp only
  generalize hun : o.f (PySet.ofList ([a, b].filter fun t => (getIndex L s t).isNone)) = un
  have humem : ∀ t, t ∈ un ↔ t ∈ [a, b] ∧ getIndex L s t = none := by
    intro t; rw [← hun, o.mem, PySet.mem_ofList, List.mem_filter]; simp
  have hfmem : ∀ i, i ∈ PySet.ofList ([a, b].filterMap (getIndex L s)) ↔ ∃ t ∈ [a, b], getIndex L s t = some i := by
    intro i; rw [PySet.mem_ofList, List.mem_filterMap]
  have hfnd := PySet.nodup_ofList ([a, b].filterMap (getIndex L s))
  generalize PySet.ofList ([a, b].filterMap (getIndex L s)) = fd at hfmem hfnd
  match fd with
  | [] =>
    -- a new item
    have hall : ∀ t ∈ [a, b], getIndex L s t = none := by
      intro t ht
      cases hi : getIndex L s t with
      | none => rfl
      | some i => have := (hfmem i).mpr ⟨t, ht, hi⟩; simp at this
    simp only
    unfold newSet
    have hfil : (un.filter fun t => (getIndex L s t).isNone) = un := by
      rw [List.filter_eq_self]; intro t ht; rw [((humem t).mp ht).2]; rfl
    simp only [hfil]
    have hne' : un ≠ [] := by
      intro e
      have := (humem b).mpr ⟨by simp, hall b (by simp)⟩
      rw [e] at this; simp at this
    rw [if_neg hne']
    obtain ⟨g1, hl1, hd1, _, hc1⟩ := g_newItem h
    rcases mergeSetF_ok hL g1 hl1 (fun t ht => htok t ((humem t).mp ht).1)
        (fun t ht _ => Or.inl (by rw [hd1]; exact ((humem t).mp ht).2)) (hone un (fun t ht => ((humem t).mp ht).1)) with
      ⟨s', l', e, g', hl', hd', _⟩ | ⟨_, t, _, _, c, hc, _⟩
    · left
      have e' : (newItem s).1 = s.items.length := rfl
      rw [e', e]
      refine ⟨_, s', rfl, g', s.items.length, ?_, ?_, ?_, ?_, ?_⟩
      · intro k hk
        simp only; rw [hd', if_pos]
        obtain ⟨t, ht, hkt⟩ := (hks k).mp hk
        rw [List.mem_flatMap]; exact ⟨t, (humem t).mpr ⟨ht, hall t ht⟩, hkt⟩
      · intro k hk hd
        simp only at hd ⊢; rw [hd', if_neg, hd1]
        · exact hd
        · rw [List.mem_flatMap]; rintro ⟨t, ht, hkt⟩
          exact hk ((hks k).mpr ⟨t, ((humem t).mp ht).1, hkt⟩)
      · intro k hk j hd ⟨k', hk', hd''⟩
        obtain ⟨t, ht, hkt⟩ := (hks k').mp hk'
        simp only at hd''
        rw [hnone t ht (hall t ht) k' hkt] at hd''; simp at hd''
      · intro k hk j hd _
        simp only at hd ⊢; rw [hd', if_neg, hd1]
        · exact hd
        · rw [List.mem_flatMap]; rintro ⟨t, ht, hkt⟩
          exact hk ((hks k).mpr ⟨t, ((humem t).mp ht).1, hkt⟩)
      · intro k hd
        obtain ⟨l, hl, _⟩ := h.live k _ hd
        simp at hl
    · rw [hc1] at hc; simp at hc
  | [i] =>
    simp only
    obtain ⟨t0, ht0, hi0⟩ := (hfmem i).mp (by simp)
    have hk0 : ∃ k0 ∈ keysOf L t0, s.dict.get? k0 = some i := by
      rcases htok t0 ht0 with rfl | ht'
      · unfold getIndex at hi0; rw [hL.nil, h.empty] at hi0; simp at hi0
      · have := hany t0 ht0 i hi0
        rcases ht' with ht' | ht'
        · rw [keysOf_plain hL ht'] at this ⊢; exact ⟨L.san t0, by simp, this (L.san t0) (by simp)⟩
        · obtain ⟨p, hp⟩ := pad_some ht'.2.1
          rw [keysOf_cas ht' hp] at this ⊢; exact ⟨p, by simp, this p (by simp)⟩
    have hsome : ∀ t ∈ [a, b], ∀ j, getIndex L s t = some j → j = i := by
      intro t ht j hj
      have := (hfmem j).mpr ⟨t, ht, hj⟩; simpa using this
    obtain ⟨l, hl, _⟩ := h.live _ i hi0
    rcases mergeSetF_ok hL h hl (fun t ht => htok t ((humem t).mp ht).1)
        (fun t ht _ => Or.inl ((humem t).mp ht).2) (hone un (fun t ht => ((humem t).mp ht).1)) with
      ⟨s', l', e, g', hl', hd', _⟩ | ⟨e, t, ht, hct, c, hc, hcc⟩
    · left
      rw [e]
      have hd2 : ∀ k, s'.dict.get? k = if k ∈ keysOf L a ++ keysOf L b then some i else s.dict.get? k := by
        intro k
        rw [hd']
        by_cases hk : k ∈ keysOf L a ++ keysOf L b
        · rw [if_pos hk]
          obtain ⟨t, ht, hkt⟩ := (hks k).mp hk
          split
          · rfl
          · rename_i hn
            cases hi : getIndex L s t with
            | none => exact absurd (List.mem_flatMap.mpr ⟨t, (humem t).mpr ⟨ht, hi⟩, hkt⟩) hn
            | some j => rw [hany t ht j hi k hkt, hsome t ht j hi]
        · rw [if_neg hk, if_neg]
          rw [List.mem_flatMap]; rintro ⟨t, ht, hkt⟩
          exact hk ((hks k).mpr ⟨t, ((humem t).mp ht).1, hkt⟩)
      refine ⟨_, s', rfl, g', i, ?_, ?_, ?_, ?_, ?_⟩
      · intro k hk; simp only; rw [hd2, if_pos hk]
      · intro k hk hd; simp only at hd ⊢; rw [hd2, if_neg hk]; exact hd
      · intro k hk j hd ⟨k', hk', hd''⟩
        simp only at hd hd'' ⊢; rw [hd2, if_neg hk]
        obtain ⟨t, ht, hkt⟩ := (hks k').mp hk'
        cases hi : getIndex L s t with
        | none => rw [hnone t ht hi k' hkt] at hd''; simp at hd''
        | some j' =>
          rw [hany t ht j' hi k' hkt] at hd''; simp at hd''; subst hd''
          rw [hd, hsome t ht j' hi]
      · intro k hk j hd _; simp only at hd ⊢; rw [hd2, if_neg hk]; exact hd
      · intro k hd
        obtain ⟨k0, h1, h2⟩ := hk0
        exact ⟨k0, (hks k0).mpr ⟨t0, ht0, h1⟩, h2⟩
    · right
      rw [e]
      obtain ⟨h1, h2⟩ := (humem t).mp ht
      have hta : t = a := by
        simp at h1; rcases h1 with rfl | rfl
        · rfl
        · rw [hcasb] at hct; simp at hct
      subst hta
      have : t0 = b := by
        simp at ht0; rcases ht0 with rfl | rfl
        · rw [hi0] at h2; simp at h2
        · rfl
      subst this
      exact ⟨s, rfl, hct, i, c, hi0, hc, hcc⟩
  | i :: j :: r =>
    exfalso
    obtain ⟨t, ht, hi⟩ := (hfmem i).mp (by simp)
    obtain ⟨t', ht', hj⟩ := (hfmem j).mp (by simp)
    have hij : i ≠ j := by intro e; subst e; simp at hfnd
    simp at ht ht'
    rcases ht with rfl | rfl <;> rcases ht' with rfl | rfl
    · rw [hi] at hj; simp at hj; exact hij hj
    · exact hij (hne i j hi hj)
    · exact hij (hne j i hj hi).symm
    · rw [hi] at hj; simp at hj; exact hij hj

/-- `add_synonyms(a, b)` if the two are known as different items -/
theorem addSyn_inconsistent {s : State Str} (o : PyOrd Str) {a b : Str} {i j : ℕ}
    (ha : getIndex L s a = some i) (hb : getIndex L s b = some j) (hij : i ≠ j) :
    addSet L o (mergeSetF L) [a, b] true s = .err .inconsistent s := by
  unfold addSet
  simp [ha, hb, PySet.ofList, PySet.add, Ne.symm hij]

/-- joining the item of a name with that of a CAS number -/
theorem mergeF_ok (hL : Law L) {s : State Str} (h : G L s) (o : PyOrd Str) (oN : PyOrd ℕ) {a b : Str} (ha : CasLike L a)
    (hb : Plain L b) {i j : ℕ} (hia : getIndex L s a = some i) (hjb : getIndex L s b = some j) (hij : i ≠ j) :
    (∃ s', mergeF L o oN a [b] s = .ok () s' ∧ G L s' ∧
      Merged (keysOf L a ++ keysOf L b) (fun k => s.dict.get? k) (fun k => s'.dict.get? k)) ∨
    (mergeF L o oN a [b] s = .err .conflictingCas s ∧ ∃ c, s.cas[j]? = some (some c) ∧ trim c ≠ trim a) := by
  have hka := keys_known hL h (Or.inr ha) hia
  have hkb := keys_known hL h (Or.inl hb) hjb
  obtain ⟨c, hc, hct⟩ := h.casK a i (by rw [getIndex, ha.1] at hia; exact hia) ha.2.1
  obtain ⟨li, hli, _⟩ := h.live _ i hia
  obtain ⟨lj, hlj, _⟩ := h.live _ j hjb
  have hcN : s.cas[j]? ≠ none := fun e => by have := (h.lenC j).mp e; rw [hlj] at this; simp at this
  obtain ⟨cj, hcj⟩ := Option.ne_none_iff_exists'.mp hcN
  unfold mergeF
  simp only [hia, List.mapM_cons, hjb, List.mapM_nil, pure_bind, Option.bind_eq_bind, Option.bind_some, Option.pure_def]
  cases cj with
  | some c' =>
    right
    simp only [List.filterMap_cons, hc, hcj, Option.join_some, List.filterMap_nil]
    refine ⟨trivial, c', rfl, ?_⟩
    intro e
    obtain ⟨p1, p2, _⟩ := h.casL i c hc
    obtain ⟨q1, q2, _⟩ := h.casL j c' hcj
    have := pad_eq (pad_isCas p1) (pad_isCas q1) (hct.trans e.symm)
    rw [p1, q1] at this; simp at this; subst this
    rw [p2] at q2; simp at q2; exact hij q2
  | none =>
    left
    simp only [List.filterMap_cons, hc, hcj, Option.join_some, List.filterMap_nil, Option.join_none]
    have ho : oN.f (PySet.ofList [j]) = [j] := by
      have : PySet.ofList [j] = [j] := by simp [PySet.ofList, PySet.add]
      rw [this]; exact List.perm_singleton.mp (oN.perm [j])
    simp only [merge, hia, List.mapM_cons, hjb, List.mapM_nil, pure_bind, Option.bind_eq_bind, Option.bind_some, Option.pure_def,
      ho, mergeAll, mergeOne, hli, hlj, Out.bind]
    -- the table afterwards
    have hd : ∀ k, ((o.f (PySet.union li lj)).foldl (fun d t => d.set (L.san t) i) s.dict).get? k =
        if s.dict.get? k = some j then some i else s.dict.get? k := by
      intro k
      rw [foldl_set_get]
      by_cases hm : k ∈ (o.f (PySet.union li lj)).map L.san
      · rw [if_pos hm]
        obtain ⟨t, ht, e⟩ := List.mem_map.mp hm
        rw [o.mem, PySet.mem_union] at ht
        subst e
        rcases ht with ht | ht
        · rw [h.listed i li hli t ht]; simp
        · rw [h.listed j lj hlj t ht]; simp
      · rw [if_neg hm]
        split
        · rename_i e
          exfalso
          obtain ⟨l, hl, ho⟩ := h.live k j e
          rw [hlj] at hl; simp at hl; subst hl
          rcases ho with ⟨t, ht, e'⟩ | hck
          · apply hm; rw [List.mem_map]; exact ⟨t, by rw [o.mem, PySet.mem_union]; exact Or.inr ht, e'⟩
          · obtain ⟨c', hc', _⟩ := h.casK k j e hck
            rw [hcj] at hc'; simp at hc'
        · rfl
    have hiN : s.items[i]? ≠ none := by rw [hli]; simp
    have hcN : s.cas[i]? ≠ none := by rw [hc]; simp
    have hnN : s.names[j]? ≠ none := fun e => by have := (h.lenN j).mp e; rw [hlj] at this; simp at this
    have hcjN : s.cas[j]? ≠ none := by rw [hcj]; simp
    have hI : ∀ x : ℕ, ((s.items.set i (some (PySet.union li lj))).set j none)[x]? =
        if x = j then some none else if x = i then some (some (PySet.union li lj)) else s.items[x]? := by
      intro x
      rw [getElem?_set', getElem?_set' _ _ _ hiN]
      rw [getElem?_set' _ _ _ hiN, if_neg (Ne.symm hij), hlj]; simp
    have hN : ∀ x : ℕ, (s.names.set j none)[x]? = if x = j then some none else s.names[x]? := by
      intro x; rw [getElem?_set' _ _ _ hnN]
    have hC : ∀ x : ℕ, ((s.cas.set j none).set i (some c))[x]? = s.cas[x]? := by
      intro x
      rw [getElem?_set', getElem?_set' _ _ _ hcjN]
      · by_cases e : x = i
        · subst e; simp [hc]
        · by_cases e' : x = j
          · subst e'; simp [e, hcj]
          · simp [e, e']
      · rw [getElem?_set' _ _ _ hcjN, if_neg hij]; exact hcN
    generalize hD : (o.f (PySet.union li lj)).foldl (fun d t => d.set (L.san t) i) s.dict = D at hd
    have hnj : ∀ k x, D.get? k = some x → x ≠ j := by
      intro k x hx
      rw [hd] at hx
      split at hx
      · simp at hx; subst hx; exact hij
      · rintro rfl; rename_i hn; exact hn hx
    have hdx : ∀ k x, x ≠ i → x ≠ j → (D.get? k = some x ↔ s.dict.get? k = some x) := by
      intro k x h1 h2
      rw [hd]
      split
      · rename_i e; rw [e]; simp; exact ⟨fun e => absurd e.symm h1, fun e => absurd e.symm h2⟩
      · rfl
    have hdi : ∀ k, D.get? k = some i ↔ s.dict.get? k = some i ∨ s.dict.get? k = some j := by
      intro k; rw [hd]; split
      · rename_i e; simp [e]
      · rename_i e; simp [e]
    refine ⟨_, rfl, ⟨?_, ?_, ?_, ?_, ?_, ?_, ?_, ?_, ?_⟩, i, ?_, ?_, ?_, ?_, ?_⟩
    · intro x; simp only; rw [hI, hN]
      by_cases e : x = j
      · simp [e]
      · by_cases e' : x = i
        · subst e'
          have : s.names[x]? ≠ none := fun hh => hiN ((h.lenN x).mp hh)
          simp only [e, if_false, this, if_true, reduceCtorEq]
        · rw [if_neg e, if_neg e, if_neg e']; exact h.lenN x
    · intro x; simp only; rw [hI, hC]
      by_cases e : x = j
      · subst e; simp only [if_true, hcjN, reduceCtorEq]
      · by_cases e' : x = i
        · subst e'
          simp only [e, if_false, hcN, if_true, reduceCtorEq]
        · rw [if_neg e, if_neg e']; exact h.lenC x
    · simp only; rw [hd, h.empty]; simp
    · intro x l hl t ht
      simp only at hl ⊢; rw [hI] at hl
      by_cases e : x = j
      · simp [e] at hl
      · by_cases e' : x = i
        · subst e'; simp [e] at hl; subst hl
          rw [PySet.mem_union] at ht
          rw [hdi]
          rcases ht with ht | ht
          · exact Or.inl (h.listed x li hli t ht)
          · exact Or.inr (h.listed j lj hlj t ht)
        · simp [e, e'] at hl
          rw [hdx _ _ e' e]; exact h.listed x l hl t ht
    · intro k x hk
      simp only at hk ⊢; rw [hI]
      have e := hnj k x hk
      by_cases e' : x = i
      · subst e'
        refine ⟨PySet.union li lj, by simp [e], ?_⟩
        rcases (hdi k).mp hk with h1 | h1
        · obtain ⟨l, hl, h2⟩ := h.live k x h1
          rw [hli] at hl; simp at hl; subst hl
          rcases h2 with ⟨t, ht, e⟩ | h2
          · exact Or.inl ⟨t, by simp [ht], e⟩
          · exact Or.inr h2
        · obtain ⟨l, hl, h2⟩ := h.live k j h1
          rw [hlj] at hl; simp at hl; subst hl
          rcases h2 with ⟨t, ht, e⟩ | h2
          · exact Or.inl ⟨t, by simp [ht], e⟩
          · exact Or.inr h2
      · rw [if_neg e, if_neg e']; rw [hdx _ _ e' e] at hk
        exact h.live k x hk
    · intro k x hk hck
      simp only at hk ⊢; rw [hC]
      have e := hnj k x hk
      by_cases e' : x = i
      · subst e'
        rcases (hdi k).mp hk with h1 | h1
        · exact h.casK k x h1 hck
        · obtain ⟨c', hc', _⟩ := h.casK k j h1 hck
          rw [hcj] at hc'; simp at hc'
      · rw [hdx _ _ e' e] at hk; exact h.casK k x hk hck
    · intro x c' hc'
      simp only at hc' ⊢; rw [hC] at hc'
      obtain ⟨h1, h2, h3⟩ := h.casL x c' hc'
      have e : x ≠ j := by rintro rfl; rw [hcj] at hc'; simp at hc'
      by_cases e' : x = i
      · subst e'; exact ⟨h1, (hdi _).mpr (Or.inl h2), (hdi _).mpr (Or.inl h3)⟩
      · rw [hdx _ _ e' e, hdx _ _ e' e]; exact ⟨h1, h2, h3⟩
    · intro x n hn
      simp only at hn ⊢; rw [hN] at hn
      by_cases e : x = j
      · simp [e] at hn
      · rw [if_neg e] at hn
        have := h.name x n hn
        by_cases e' : x = i
        · subst e'; exact (hdi _).mpr (Or.inl this)
        · rw [hdx _ _ e' e]; exact this
    · intro k x hk
      simp only at hk ⊢; rw [hN]
      have e := hnj k x hk
      rw [if_neg e]
      by_cases e' : x = i
      · subst e'
        exact h.named _ x hia
      · rw [hdx _ _ e' e] at hk; exact h.named k x hk
    · intro k hk
      simp only; rw [hdi]
      rcases List.mem_append.mp hk with hk | hk
      · exact Or.inl (hka k hk)
      · exact Or.inr (hkb k hk)
    · intro k hk hn
      simp only at hn ⊢; rw [hd, hn]; simp
    · intro k hk x hx ⟨k', hk', hx'⟩
      simp only at hx hx' ⊢
      rw [hdi]
      rcases List.mem_append.mp hk' with hk' | hk'
      · rw [hka k' hk'] at hx'; simp at hx'; subst hx'; exact Or.inl hx
      · rw [hkb k' hk'] at hx'; simp at hx'; subst hx'; exact Or.inr hx
    · intro k hk x hx hno
      simp only at hx hno ⊢
      rw [hd, hx, if_neg]
      intro e; simp at e; subst e
      exact hno (L.san b) (by rw [keysOf_plain hL hb]; simp) hjb
    · intro k hk
      obtain ⟨p, hp⟩ := pad_some ha.2.1
      have hmem : p ∈ keysOf L a := by rw [keysOf_cas ha hp]; simp
      exact ⟨p, List.mem_append_left _ hmem, hka p hmem⟩

theorem g_setName (hL : Law L) {s : State Str} (h : G L s) {n : Str} {i : ℕ} (hi : getIndex L s n = some i) :
    ∃ s', setName L n s = .ok i s' ∧ G L s' ∧ s'.dict = s.dict := by
  obtain ⟨l, hl, _⟩ := h.live _ i hi
  have hnN : s.names[i]? ≠ none := fun e => by have := (h.lenN i).mp e; rw [hl] at this; simp at this
  have hN : ∀ x : ℕ, (s.names.set i (some n))[x]? = if x = i then some (some n) else s.names[x]? := by
    intro x; rw [getElem?_set' _ _ _ hnN]
  unfold setName
  rw [hi]
  refine ⟨_, rfl, ⟨?_, h.lenC, h.empty, h.listed, h.live, h.casK, h.casL, ?_, ?_⟩, rfl⟩
  · intro x; simp only; rw [hN]
    split
    · rename_i e; subst e; rw [hl]; simp
    · exact h.lenN x
  · intro x m hm
    simp only at hm ⊢; rw [hN] at hm
    split at hm
    · rename_i e; subst e; simp at hm; subst hm; exact hi
    · exact h.name x m hm
  · intro k x hk
    simp only at hk ⊢; rw [hN]
    split
    · simp
    · exact h.named k x hk

end Qim
