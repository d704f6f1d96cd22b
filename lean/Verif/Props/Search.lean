import Verif.Model.Search
import Verif.Props.Archive
import Verif.Props.LowerDict
import Mathlib.Data.List.Infix

/-!
Searching an archive: C164 (search), C165 (find_partial_id), C166 (an index holds what the archive holds).
-/

set_option linter.unusedSectionVars false

namespace Srch
open Arc (Kind Heap Cfg State)

variable {Pat Nm : Type} [DecidableEq Nm]
variable {U E K R : Type} [DecidableEq U] [DecidableEq E] [DecidableEq K] [DecidableEq R]

/-! ### specification -/

mutual
/-- no number occurs in the value -/
def Tag.Plain : Tag → Prop
  | .number => False
  | .list l => Tag.Plains l
  | _ => True
def Tag.Plains : List Tag → Prop
  | [] => True
  | t :: l => t.Plain ∧ Tag.Plains l
end

mutual
/-- the texts in a value, in order; None and an empty list count as an empty text -/
def Tag.leaves : Tag → List Txt
  | .none => [[]]
  | .str s => [s]
  | .list [] => [[]]
  | .list (t :: l) => t.leaves ++ Tag.leavesOf l
  | .dict [] => [[]]
  | .dict (k :: ks) => k :: ks
  | .number => [[]]
def Tag.leavesOf : List Tag → List Txt
  | [] => []
  | t :: l => t.leaves ++ Tag.leavesOf l
end

/-- the text of a value: its texts, with spaces between -/
def Tag.Is (t : Tag) (s : Txt) : Prop := t.Plain ∧ s = [' '].intercalate t.leaves

/-- the patterns of a criterion -/
def Crit.pats : Crit Pat → List Pat
  | .one p => [p]
  | .many ps => ps
  | .bad => []

/-- an entity with these properties meets all criteria: it has each property, under the name as it is spelled, and all its patterns are found in it -/
def Meets (rx : Pat → Txt → Bool) (props : List (Nm × Tag)) (kw : List (Nm × Crit Pat)) : Prop :=
  ∀ kc ∈ kw, ∃ t, (kc.1, t) ∈ props ∧ ∀ p ∈ kc.2.pats, ∃ s, t.Is s ∧ rx p s = true

/-! ### texts -/

theorem join_eq (l : List Txt) : join l = [' '].intercalate l := by
  induction l with
  | nil => rfl
  | cons s l ih =>
    cases l with
    | nil => simp [join, List.intercalate]
    | cons s' l =>
      unfold join
      rw [ih]
      simp [List.intercalate, List.intersperse]

theorem leaves_ne (t : Tag) : t.leaves ≠ [] := by
  match t with
  | .none => simp [Tag.leaves]
  | .str s => simp [Tag.leaves]
  | .list [] => simp [Tag.leaves]
  | .list (t :: l) => simp [Tag.leaves, leaves_ne t]
  | .dict [] => simp [Tag.leaves]
  | .dict (k :: ks) => simp [Tag.leaves]
  | .number => simp [Tag.leaves]

theorem join_append {a b : List Txt} (ha : a ≠ []) (hb : b ≠ []) : join (a ++ b) = join a ++ ' ' :: join b := by
  induction a with
  | nil => exact absurd rfl ha
  | cons s a ih =>
    cases a with
    | nil =>
      cases b with
      | nil => exact absurd rfl hb
      | cons s' b => simp [join]
    | cons s' a =>
      have h1 : ∀ l : List Txt, join (s :: s' :: l) = s ++ ' ' :: join (s' :: l) := fun l => rfl
      simp only [List.cons_append] at ih ⊢
      rw [h1, h1, ih (by simp)]
      simp

mutual
theorem text_ok (t : Tag) (h : t.Plain) : t.text = .ok (join t.leaves) := by
  match t with
  | .none => simp [Tag.text, Tag.leaves, join]
  | .str s => simp [Tag.text, Tag.leaves, join]
  | .list [] => simp [Tag.text, Tag.texts, Tag.leaves, join, Except.map]
  | .list (t :: l) =>
    simp only [Tag.Plain] at h
    obtain ⟨r, h1, h2, h3⟩ := texts_ok (t :: l) h
    simp only [Tag.text, h1, Except.map, h2 (by simp), Tag.leaves, Tag.leavesOf]
  | .dict [] => simp [Tag.text, Tag.leaves, join]
  | .dict (k :: ks) => simp [Tag.text, Tag.leaves]
  | .number => exact h.elim
theorem texts_ok (l : List Tag) (h : Tag.Plains l) :
    ∃ r, Tag.texts l = .ok r ∧ (l ≠ [] → join r = join (Tag.leavesOf l)) ∧ (l ≠ [] → r ≠ []) := by
  match l with
  | [] => exact ⟨[], by simp [Tag.texts], by simp, by simp⟩
  | t :: l =>
    simp only [Tag.Plains] at h
    obtain ⟨r, h1, h2, h3⟩ := texts_ok l h.2
    refine ⟨join t.leaves :: r, ?_, ?_, by simp⟩
    · simp [Tag.texts, text_ok t h.1, h1, Except.map]
    · intro _
      simp only [Tag.leavesOf]
      cases l with
      | nil =>
        simp only [Tag.texts, Except.ok.injEq] at h1
        subst h1
        simp [join, Tag.leavesOf]
      | cons t' l =>
        have hr := h3 (by simp)
        have hl : Tag.leavesOf (t' :: l) ≠ [] := by simp [Tag.leavesOf, leaves_ne]
        rw [join_append (leaves_ne t) hl, ← h2 (by simp)]
        cases r with
        | nil => exact absurd rfl hr
        | cons s r => rfl
end

mutual
theorem text_number (t : Tag) (h : ¬ t.Plain) : t.text = .error .type := by
  match t with
  | .none => simp [Tag.Plain] at h
  | .str s => simp [Tag.Plain] at h
  | .list l =>
    simp only [Tag.Plain] at h
    simp [Tag.text, texts_number l h, Except.map]
  | .dict ks => simp [Tag.Plain] at h
  | .number => simp [Tag.text]
theorem texts_number (l : List Tag) (h : ¬ Tag.Plains l) : Tag.texts l = .error .type := by
  match l with
  | [] => simp [Tag.Plains] at h
  | t :: l =>
    simp only [Tag.Plains] at h
    by_cases ht : t.Plain
    · have hl : ¬ Tag.Plains l := fun hl => h ⟨ht, hl⟩
      simp [Tag.texts, text_ok t ht, texts_number l hl, Except.map]
    · simp [Tag.texts, text_number t ht]
end

/-- the text of a property is its texts with spaces between; there is none if a number occurs in it -/
theorem text_iff (t : Tag) (s : Txt) : t.text = .ok s ↔ t.Is s := by
  unfold Tag.Is
  constructor
  · intro h
    by_cases hp : t.Plain
    · rw [text_ok t hp] at h
      cases h
      exact ⟨hp, join_eq _⟩
    · rw [text_number t hp] at h; cases h
  · rintro ⟨hp, rfl⟩
    rw [text_ok t hp, join_eq]

/-! ### the filter -/

theorem narrowVals_false (rx : Pat → Txt → Bool) (t : Option Tag) (ps : List Pat) : narrowVals rx t ps false = .ok false := by
  induction ps with
  | nil => rfl
  | cons p ps ih => simp [narrowVals, ih]

theorem narrowVals_iff (rx : Pat → Txt → Bool) (t : Tag) (ps : List Pat) {b : Bool} (h : narrowVals rx (some t) ps true = .ok b) :
    b = true ↔ ∀ p ∈ ps, ∃ s, t.Is s ∧ rx p s = true := by
  induction ps with
  | nil => simp only [narrowVals, Except.ok.injEq] at h; subst h; simp
  | cons p ps ih =>
    simp only [narrowVals] at h
    cases ht : t.text with
    | error e => simp [ht] at h
    | ok s =>
      simp only [ht] at h
      have hs := (text_iff t s).mp ht
      have hu : ∀ s', t.Is s' ↔ s' = s := fun s' => by
        rw [← text_iff, ht]
        simp [eq_comm]
      cases hr : rx p s with
      | false =>
        rw [hr, narrowVals_false] at h
        cases h
        simp [hu, hr]
      | true =>
        rw [hr] at h
        rw [ih h]
        simp [hu, hr]

theorem keys_mem (d : LDict.St Nm Tag) (k : Nm) : k ∈ LDict.keys d ↔ ∃ t, (k, t) ∈ d := by
  unfold LDict.keys
  have : ∀ (l acc : List Nm), k ∈ l.foldl (fun l k => if k ∈ l then l else l ++ [k]) acc ↔ k ∈ acc ∨ k ∈ l := by
    intro l
    induction l with
    | nil => simp
    | cons a l ih =>
      intro acc
      simp only [List.foldl_cons]
      rw [ih]
      split
      · rename_i ha
        simp only [List.mem_cons]
        constructor
        · rintro (h | h)
          · exact Or.inl h
          · exact Or.inr (Or.inr h)
        · rintro (h | rfl | h)
          · exact Or.inl h
          · exact Or.inl ha
          · exact Or.inr h
      · simp only [List.mem_append, List.mem_singleton, List.mem_cons]
        tauto
  rw [this]
  simp

theorem getItem_mem {lower : Nm → Nm} {d : LDict.St Nm Tag} (hd : LDict.Distinct lower d) {k : Nm} {t : Tag} (h : (k, t) ∈ d) :
    LDict.getItem lower d k = some t := by
  unfold LDict.getItem
  unfold LDict.Distinct at hd
  induction d with
  | nil => simp at h
  | cons p d ih =>
    simp only [List.map_cons, List.nodup_cons] at hd
    rcases List.mem_cons.mp h with rfl | h
    · simp
    · have hne : lower p.1 ≠ lower k := by
        intro he
        apply hd.1
        rw [he]
        exact List.mem_map.mpr ⟨(k, t), h, rfl⟩
      rw [List.find?_cons_of_neg (by simpa using hne)]
      exact ih hd.2 h

theorem narrow_false {rx : Pat → Txt → Bool} {lower : Nm → Nm} {d : LDict.St Nm Tag} {kw : List (Nm × Crit Pat)} {b : Bool}
    (h : narrow rx lower d kw false = .ok b) : b = false := by
  induction kw with
  | nil => simp only [narrow, Except.ok.injEq] at h; exact h.symm
  | cons kc r ih =>
    obtain ⟨k, c⟩ := kc
    simp only [narrow] at h
    split at h
    · cases c with
      | bad => simp at h
      | one p => simp only [narrowVals_false] at h; exact ih h
      | many ps => simp only [narrowVals_false] at h; exact ih h
    · cases h; rfl

theorem narrow_iff {rx : Pat → Txt → Bool} {lower : Nm → Nm} {d : LDict.St Nm Tag} (hd : LDict.Distinct lower d) {kw : List (Nm × Crit Pat)} {b : Bool}
    (h : narrow rx lower d kw true = .ok b) : b = true ↔ Meets rx d kw := by
  induction kw generalizing b with
  | nil => simp only [narrow, Except.ok.injEq] at h; subst h; simp [Meets]
  | cons kc r ih =>
    obtain ⟨k, c⟩ := kc
    simp only [narrow] at h
    have hM : Meets rx d ((k, c) :: r) ↔ (∃ t, (k, t) ∈ d ∧ ∀ p ∈ c.pats, ∃ s, t.Is s ∧ rx p s = true) ∧ Meets rx d r := by
      simp [Meets]
    split at h
    · rename_i hk
      obtain ⟨t, ht⟩ := (keys_mem d k).mp hk
      have hg := getItem_mem hd ht
      have hu : ∀ t', (k, t') ∈ d → t' = t := fun t' h' => by
        have := getItem_mem hd h'; rw [hg] at this; cases this; rfl
      have hM' : Meets rx d ((k, c) :: r) ↔ (∀ p ∈ c.pats, ∃ s, t.Is s ∧ rx p s = true) ∧ Meets rx d r := by
        rw [hM]
        constructor
        · rintro ⟨⟨t', h1, h2⟩, h3⟩
          rw [hu t' h1] at h2
          exact ⟨h2, h3⟩
        · rintro ⟨h2, h3⟩
          exact ⟨⟨t, ht, h2⟩, h3⟩
      rw [hM']
      have step : ∀ ps keep, c.pats = ps → narrowVals rx (LDict.getItem lower d k) ps true = .ok keep → narrow rx lower d r keep = .ok b →
          (b = true ↔ (∀ p ∈ c.pats, ∃ s, t.Is s ∧ rx p s = true) ∧ Meets rx d r) := by
        intro ps keep hps hv h
        rw [hg] at hv
        have := narrowVals_iff rx t ps hv
        rw [hps, ← this]
        cases keep with
        | false => rw [narrow_false h]; simp
        | true => rw [ih h]; simp
      cases c with
      | bad => simp at h
      | one p =>
        simp only at h
        cases hv : narrowVals rx (LDict.getItem lower d k) [p] true with
        | error e => simp [hv] at h
        | ok keep => simp only [hv] at h; exact step [p] keep rfl hv h
      | many ps =>
        simp only at h
        cases hv : narrowVals rx (LDict.getItem lower d k) ps true with
        | error e => simp [hv] at h
        | ok keep => simp only [hv] at h; exact step ps keep rfl hv h
    · rename_i hk
      cases h
      rw [hM]
      constructor
      · intro h; cases h
      · rintro ⟨⟨t, h1, _⟩, _⟩
        exact absurd ((keys_mem d k).mpr ⟨t, h1⟩) hk

theorem searchIn_iff {rx : Pat → Txt → Bool} {lower : Nm → Nm} {props : E → LDict.St Nm Tag} (hd : ∀ e, LDict.Distinct lower (props e))
    {kw : List (Nm × Crit Pat)} {es : List E} (h : (searchIn rx lower props kw es).2 = none) (e : E) :
    e ∈ (searchIn rx lower props kw es).1 ↔ e ∈ es ∧ Meets rx (props e) kw := by
  induction es with
  | nil => simp [searchIn]
  | cons a es ih =>
    simp only [searchIn] at h ⊢
    cases hn : narrow rx lower (props a) kw true with
    | error x => simp [hn] at h
    | ok b =>
      have hi := narrow_iff (hd a) hn
      cases b with
      | true =>
        simp only [hn] at h ⊢
        simp only [List.mem_cons, ih h]
        constructor
        · rintro (rfl | h)
          · exact ⟨Or.inl rfl, hi.mp rfl⟩
          · exact ⟨Or.inr h.1, h.2⟩
        · rintro ⟨rfl | h1, h2⟩
          · exact Or.inl rfl
          · exact Or.inr ⟨h1, h2⟩
      | false =>
        simp only [hn] at h ⊢
        rw [ih h]
        simp only [List.mem_cons]
        constructor
        · rintro ⟨h1, h2⟩; exact ⟨Or.inr h1, h2⟩
        · rintro ⟨rfl | h1, h2⟩
          · exact absurd (hi.mpr h2) (by simp)
          · exact ⟨h1, h2⟩

theorem searchIn_sublist (rx : Pat → Txt → Bool) (lower : Nm → Nm) (props : E → LDict.St Nm Tag) (kw : List (Nm × Crit Pat)) (es : List E) :
    (searchIn rx lower props kw es).1.Sublist es := by
  induction es with
  | nil => simp [searchIn]
  | cons a es ih =>
    simp only [searchIn]
    cases narrow rx lower (props a) kw true with
    | error x => simp
    | ok b => cases b with
      | true => exact ih.cons₂ a
      | false => exact ih.cons a

end Srch
