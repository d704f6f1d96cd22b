import Verif.Model.Compartment
import Mathlib.Data.List.Nodup
import Mathlib.Tactic.Linarith

/-!
Compartment trees: elementary status (C36).
-/

set_option linter.unusedSectionVars false
set_option linter.unusedSimpArgs false

namespace Cmp

variable {S : Type} [DecidableEq S]

/-- `x` is `c`, or below it at any depth -/
inductive Below (H : Heap S) : ℕ → ℕ → Prop
  | refl (c : ℕ) : Below H c c
  | step {c s x : ℕ} : s ∈ (H c).subs → Below H s x → Below H c x

theorem Below.trans {H : Heap S} {a b c : ℕ} (h1 : Below H a b) (h2 : Below H b c) : Below H a c := by
  induction h1 with
  | refl => exact h2
  | step hs _ ih => exact .step hs (ih h2)

theorem Below.of_mem {H : Heap S} {a b : ℕ} (h : b ∈ (H a).subs) : Below H a b := .step h (.refl _)

theorem Below.congr {H H' : Heap S} (h : ∀ x, (H' x).subs = (H x).subs) {a b : ℕ} (hb : Below H a b) : Below H' a b := by
  induction hb with
  | refl => exact .refl _
  | step hs _ ih => exact .step (by rw [h]; exact hs) ih

/-- the heap in which exactly the compartments in `P` were made elementary -/
def Marked (H H' : Heap S) (P : ℕ → Prop) : Prop :=
  ∀ x, (P x → H' x = { H x with elem := true }) ∧ (¬ P x → H' x = H x)

theorem Marked.subs {H H' : Heap S} {P : ℕ → Prop} (h : Marked H H' P) (x : ℕ) : (H' x).subs = (H x).subs := by
  by_cases hp : P x
  · rw [(h x).1 hp]
  · rw [(h x).2 hp]

/-- C36: whenever `set_elementary` returns, the compartment and everything below it is elementary, and nothing else changed. -/
theorem setElementary_marks (ord : PyOrd ℕ) : ∀ (f : ℕ) (H H' : Heap S) (c : ℕ), setElementary ord f H c = some H' →
    Marked H H' (Below H c) := by
  intro f
  induction f with
  | zero => intro H H' c h; cases h
  | succ f ih =>
    intro H H' c h
    have loop : ∀ (l : List ℕ) (H1 H2 : Heap S), l.foldlM (fun H i => setElementary ord f H i) H1 = some H2 →
        Marked H1 H2 fun x => ∃ s ∈ l, Below H1 s x := by
      intro l
      induction l with
      | nil =>
        intro H1 H2 h
        simp at h; subst h
        exact fun x => ⟨fun ⟨s, hs, _⟩ => absurd hs (by simp), fun _ => rfl⟩
      | cons a l ihl =>
        intro H1 H2 h
        rw [List.foldlM_cons] at h
        cases ha : setElementary ord f H1 a with
        | none => rw [ha] at h; cases h
        | some H3 =>
          rw [ha] at h
          have m1 := ih _ _ _ ha
          have m2 := ihl H3 H2 h
          have hsub : ∀ x, (H3 x).subs = (H1 x).subs := m1.subs
          intro x
          constructor
          · rintro ⟨s, hs, hb⟩
            by_cases hx : ∃ s ∈ l, Below H3 s x
            · rw [(m2 x).1 hx]
              by_cases hy : Below H1 a x
              · rw [(m1 x).1 hy]
              · rw [(m1 x).2 hy]
            · rw [(m2 x).2 hx]
              rcases List.mem_cons.1 hs with rfl | hs
              · exact (m1 x).1 hb
              · exact absurd ⟨s, hs, hb.congr hsub⟩ hx
          · intro hn
            rw [(m2 x).2 fun ⟨s, hs, hb⟩ => hn ⟨s, by simp [hs], hb.congr fun y => (hsub y).symm⟩]
            exact (m1 x).2 fun hb => hn ⟨a, by simp, hb⟩
    unfold setElementary at h
    have m := loop _ _ _ h
    have hsub : ∀ x, (put H c { H c with elem := true } x).subs = (H x).subs := by
      intro x; unfold put; split
      · rename_i e; rw [e]
      · rfl
    intro x
    constructor
    · intro hb
      by_cases hx : ∃ s ∈ ord.f (H c).subs, Below (put H c { H c with elem := true }) s x
      · rw [(m x).1 hx]; unfold put; split
        · rename_i e; rw [e]
        · rfl
      · rw [(m x).2 hx]
        cases hb with
        | refl => simp [put]
        | step hs hb => exact absurd ⟨_, (ord.mem _ _).2 hs, hb.congr hsub⟩ hx
    · intro hb
      rw [(m x).2]
      · have : x ≠ c := by rintro rfl; exact hb (.refl _)
        simp [put, this]
      · rintro ⟨s, hs, hs2⟩
        exact hb (.step ((ord.mem _ _).1 hs) (hs2.congr fun y => (hsub y).symm))

/-- The hierarchy is finite: there is a height. -/
theorem setElementary_ok (ord : PyOrd ℕ) (rank : ℕ → ℕ) : ∀ (f : ℕ) (H : Heap S) (c : ℕ),
    (∀ x y, y ∈ (H x).subs → rank y < rank x) → rank c < f → ∃ H', setElementary ord f H c = some H' := by
  intro f
  induction f with
  | zero => intro H c _ h; omega
  | succ f ih =>
    intro H c hr hc
    unfold setElementary
    have hsub : ∀ x, (put H c { H c with elem := true } x).subs = (H x).subs := by
      intro x; unfold put; split
      · rename_i e; rw [e]
      · rfl
    have loop : ∀ (l : List ℕ) (H1 : Heap S), (∀ x, (H1 x).subs = (H x).subs) → (∀ s ∈ l, rank s < f) →
        ∃ H2, l.foldlM (fun H i => setElementary ord f H i) H1 = some H2 := by
      intro l
      induction l with
      | nil => intro H1 _ _; exact ⟨H1, rfl⟩
      | cons a l ihl =>
        intro H1 h1 hl
        obtain ⟨H3, h3⟩ := ih H1 a (fun x y hy => hr x y (by rw [← h1]; exact hy)) (hl a (by simp))
        have m := setElementary_marks ord f H1 H3 a h3
        obtain ⟨H2, h2⟩ := ihl H3 (fun x => by rw [m.subs, h1]) fun s hs => hl s (by simp [hs])
        exact ⟨H2, by rw [List.foldlM_cons, h3]; exact h2⟩
    refine loop _ _ hsub fun s hs => ?_
    have := hr c s ((ord.mem _ _).1 hs)
    omega

/-- `c` is an ancestor of `x`, or `x` itself, along the parents -/
inductive Anc (H : Heap S) : ℕ → ℕ → Prop
  | refl (c : ℕ) : Anc H c c
  | up {x p c : ℕ} : (H x).parent = some p → Anc H p c → Anc H x c

theorem isSubOf_iff (H : Heap S) : ∀ (f x c : ℕ) (b : Bool), isSubOf f H x c = some b → (b = true ↔ Anc H x c) := by
  intro f
  induction f with
  | zero => intro x c b h; cases h
  | succ f ih =>
    intro x c b h
    unfold isSubOf at h
    split at h
    · rename_i e; subst e; cases h; simpa using .refl _
    · rename_i e
      split at h
      · rename_i hp
        cases h
        simp only [Bool.false_eq_true, false_iff]
        intro ha
        cases ha with
        | refl => exact e rfl
        | up hq _ => rw [hp] at hq; cases hq
      · rename_i p hp
        rw [ih p c b h]
        constructor
        · exact fun ha => .up hp ha
        · intro ha
          cases ha with
          | refl => exact absurd rfl e
          | up hq ha => rw [hp] at hq; cases hq; exact ha

theorem isSubOf_ok (H : Heap S) (rank : ℕ → ℕ) (hr : ∀ x p, (H x).parent = some p → rank p < rank x) :
    ∀ (f x c : ℕ), rank x < f → ∃ b, isSubOf f H x c = some b := by
  intro f
  induction f with
  | zero => intro x c h; omega
  | succ f ih =>
    intro x c h
    unfold isSubOf
    split
    · exact ⟨_, rfl⟩
    · split
      · exact ⟨_, rfl⟩
      · rename_i p hp
        have := hr x p hp
        exact ih p c (by omega)

end Cmp
