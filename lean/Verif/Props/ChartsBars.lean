import Verif.Model.Charts
import Mathlib.Tactic.Linarith
import Mathlib.Tactic.Ring
import Mathlib.Tactic.FieldSimp
import Mathlib.Algebra.BigOperators.Group.List.Basic
import Mathlib.Algebra.Order.BigOperators.Group.List
import Mathlib.Algebra.Order.Ring.Abs

/-!
Properties C200-C202: charts of positive and negative parts, stacked bars, scenarios side by side.
-/

namespace ChartsBars

open Cht

variable {V : Type} [DecidableEq V]

set_option linter.unusedSectionVars false

/-! ### C200 -/

/-- spec: the sums of the positive and of the negative values -/
def posPart (r : Res V) : ℚ := (r.comps.map fun kv => max kv.2.2 0).sum
def negPart (r : Res V) : ℚ := (r.comps.map fun kv => min kv.2.2 0).sum

theorem posNegSum_spec (r : Res V) : posNegSum r = (posPart r, negPart r) := by
  unfold posNegSum posPart negPart
  have key : ∀ (l : List (V × V × ℚ)) (m : ℚ × ℚ),
      l.foldl (fun m kv => if kv.2.2 > 0 then (m.1 + kv.2.2, m.2) else (m.1, m.2 + kv.2.2)) m =
        (m.1 + (l.map fun kv => max kv.2.2 0).sum, m.2 + (l.map fun kv => min kv.2.2 0).sum) := by
    intro l
    induction l with
    | nil => intro m; simp
    | cons kv l ih =>
      intro m
      simp only [List.foldl_cons, ih, List.map_cons, List.sum_cons]
      by_cases h : kv.2.2 > 0
      · rw [if_pos h, max_eq_left h.le, min_eq_right h.le]
        simp only [Prod.mk.injEq]
        constructor <;> ring
      · rw [if_neg h, max_eq_right (not_lt.mp h), min_eq_left (not_lt.mp h)]
        simp only [Prod.mk.injEq]
        constructor <;> ring
  rw [key]
  simp

theorem parts (r : Res V) : 0 ≤ posPart r ∧ negPart r ≤ 0 ∧ posPart r + negPart r = r.total ∧ posPart r - negPart r = r.range := by
  unfold posPart negPart Res.total Res.range
  generalize r.comps = l
  induction l with
  | nil => simp
  | cons kv l ih =>
    obtain ⟨h1, h2, h3, h4⟩ := ih
    simp only [List.map_cons, List.sum_cons]
    rcases le_total kv.2.2 0 with h | h
    · rw [max_eq_right h, min_eq_left h, abs_of_nonpos h]
      refine ⟨by linarith, by linarith, by linarith, by linarith⟩
    · rw [max_eq_left h, min_eq_right h, abs_of_nonneg h]
      refine ⟨by linarith, by linarith, by linarith, by linarith⟩

/-- how much room a result takes along the axis: the centre of its last bar -/
def reach (bw : ℚ) (p : PosNeg) : ℚ := if p.neg ≠ 0 then p.idx + 2 * bw else p.idx

theorem posNeg_ok (bw : ℚ) : ∀ (l : List (Res V)) (ptr : ℚ) (ps : List PosNeg), posNeg bw l ptr = .ok ps →
    List.Forall₂ (fun r p => r.priv = false ∧ p.pos = posPart r ∧ p.neg = negPart r) l ps ∧
    (∀ p ∈ ps, bw ≤ 1 / 2 → 0 ≤ bw → ptr ≤ p.idx) ∧
    (∀ p, ps[0]? = some p → p.idx = ptr) ∧
    ∀ (i : ℕ) p p', ps[i]? = some p → ps[i + 1]? = some p' → p'.idx = reach bw p + (1 - 2 * bw) := by
  intro l
  induction l with
  | nil => intro ptr ps h; simp [posNeg] at h; subst h; simp
  | cons r l ih =>
    intro ptr ps h
    simp only [posNeg] at h
    split at h
    · cases h
    · next hp =>
      split at h
      · cases h
      · next rest hrest =>
        simp only [Except.ok.injEq] at h
        subst h
        obtain ⟨h1, h2, h3, h4⟩ := ih _ _ hrest
        have hs := posNegSum_spec r
        refine ⟨.cons ⟨by simpa using hp, by simp [hs], by simp [hs]⟩ h1, ?_, by simp, ?_⟩
        · intro p hpm hb1 hb2
          rcases List.mem_cons.mp hpm with rfl | hpm
          · exact le_refl _
          · refine le_trans ?_ (h2 p hpm hb1 hb2)
            split <;> linarith
        · intro i p p' hi hi'
          cases i with
          | zero =>
            simp at hi
            subst hi
            rw [h3 p' (by simpa using hi')]
            unfold reach
            rfl
          | succ i => exact h4 i p p' (by simpa using hi) (by simpa using hi')

/-- a chart is drawn just if no result is private -/
theorem posNeg_iff (bw ptr : ℚ) (l : List (Res V)) : (∃ ps, posNeg bw l ptr = .ok ps) ↔ ∀ r ∈ l, r.priv = false := by
  induction l generalizing ptr with
  | nil => simp [posNeg]
  | cons r l ih =>
    simp only [posNeg]
    by_cases hp : r.priv = true
    · simp [hp]
    · rw [if_neg hp]
      have := ih ((if (posNegSum r).2 ≠ 0 then ptr + 2 * bw else ptr) + (1 - 2 * bw))
      cases hr : posNeg bw l ((if (posNegSum r).2 ≠ 0 then ptr + 2 * bw else ptr) + (1 - 2 * bw)) with
      | error e =>
        rw [hr] at this
        simp only [reduceCtorEq, exists_false, false_iff] at this
        simp only [reduceCtorEq, exists_false, false_iff]
        intro h
        exact this fun x hx => h x (List.mem_cons_of_mem _ hx)
      | ok ps =>
        rw [hr] at this
        have h2 := this.mp ⟨ps, rfl⟩
        simp only [Except.ok.injEq, exists_eq', true_iff]
        intro x hx
        rcases List.mem_cons.mp hx with rfl | hx
        · simpa using hp
        · exact h2 x hx

/-- **what is drawn for a result**: a bar from the origin up to the sum of the positive values, a bar from there down
to the total, and a line from the origin to the total; the latter two only if there are negative values -/
theorem drawn_total (bw s : ℚ) (hs : 0 < s) (r : Res V) (p : PosNeg) (hp : p.pos = posPart r) (hn : p.neg = negPart r) :
    let D := drawPosNeg bw s p
    (D.pos.2.2.1 = 0 ∧ D.pos.2.2.2 = posPart r * s ∧ 0 ≤ D.pos.2.2.2) ∧
    ((∃ kv ∈ r.comps, kv.2.2 < 0) ↔ D.neg.isSome = true) ∧
    (∀ n, D.neg = some n → n.2.2.1 = posPart r * s ∧ n.2.2.2 < 0 ∧ n.2.2.1 + n.2.2.2 = r.total * s ∧
      D.tot.map (fun t => t.2) = some (r.total * s)) ∧
    (D.neg = none → D.pos.2.2.2 = r.total * s) := by
  obtain ⟨h1, h2, h3, -⟩ := parts r
  have hiff : (∃ kv ∈ r.comps, kv.2.2 < 0) ↔ negPart r ≠ 0 := by
    constructor
    · rintro ⟨kv, hkv, hlt⟩ h0
      have hle : ∀ l : List (V × V × ℚ), kv ∈ l → (l.map fun kv => min kv.2.2 0).sum ≤ kv.2.2 := by
        intro l
        induction l with
        | nil => simp
        | cons a l ih =>
          intro hm
          have hnp : (l.map fun kv => min kv.2.2 0).sum ≤ 0 := by
            clear ih hm
            induction l with
            | nil => simp
            | cons x l ih =>
              simp only [List.map_cons, List.sum_cons]
              have := min_le_right x.2.2 0
              linarith
          simp only [List.map_cons, List.sum_cons]
          rcases List.mem_cons.mp hm with rfl | hm
          · have := min_le_left kv.2.2 0; linarith
          · have := ih hm; have := min_le_right a.2.2 0; linarith
      have := hle _ hkv
      unfold negPart at h0
      linarith
    · intro h0
      by_contra hc
      push Not at hc
      apply h0
      apply List.sum_eq_zero
      intro x hx
      obtain ⟨y, hy, rfl⟩ := List.mem_map.mp hx
      exact min_eq_right (hc y hy)
  unfold drawPosNeg
  simp only [hp, hn]
  by_cases h0 : negPart r = 0
  · have hz : ¬ negPart r * s ≠ 0 := by simp [h0]
    simp only [if_neg hz]
    refine ⟨⟨trivial, trivial, by positivity⟩, ?_, by simp, fun _ => ?_⟩
    · rw [hiff]; simp [h0]
    · rw [← h3, h0, add_zero]
  · have hz : negPart r * s ≠ 0 := mul_ne_zero h0 hs.ne'
    have hlt : negPart r < 0 := lt_of_le_of_ne h2 h0
    simp only [if_pos hz]
    refine ⟨⟨trivial, trivial, by positivity⟩, ?_, ?_, by simp⟩
    · rw [hiff]; simp [h0]
    · intro n hn'
      simp only [Option.some.injEq] at hn'
      subst hn'
      refine ⟨rfl, mul_neg_of_neg_of_pos hlt hs, ?_, ?_⟩
      · rw [← h3]; ring
      · simp only [Option.map_some, Option.some.injEq]; rw [← h3]; ring

/-- the bars of a result lie between its place and its last bar's -/
theorem drawn_extent (bw s : ℚ) (hb : 0 < bw) (hs : 0 < s) (p : PosNeg) :
    let D := drawPosNeg bw s p
    p.idx - bw / 2 < D.pos.1 - D.pos.2.1 / 2 ∧ D.pos.1 + D.pos.2.1 / 2 < reach bw p + bw / 2 ∧
    (∀ n, D.neg = some n → D.pos.1 + D.pos.2.1 / 2 < n.1 - n.2.1 / 2 ∧ n.1 + n.2.1 / 2 < reach bw p + bw / 2) ∧
    ∀ t, D.tot = some t → t.1 = reach bw p := by
  unfold drawPosNeg reach
  by_cases h0 : p.neg = 0
  · have hz : ¬ p.neg * s ≠ 0 := by simp [h0]
    have hz' : ¬ p.neg ≠ 0 := by simp [h0]
    simp only [if_neg hz, if_neg hz']
    refine ⟨by linarith, by linarith, by simp, by simp⟩
  · have hz : p.neg * s ≠ 0 := mul_ne_zero h0 hs.ne'
    simp only [if_pos hz, if_pos h0]
    refine ⟨by linarith, by linarith, ?_, ?_⟩
    · intro n hn
      simp only [Option.some.injEq] at hn
      subst hn
      constructor <;> simp only <;> linarith
    · intro t ht
      simp only [Option.some.injEq] at ht
      subst ht
      simp only
      ring

/-- **the bars of different results do not overlap** for a bar width of at most a third -/
theorem apart (bw : ℚ) (hb : 0 < bw) (hb3 : bw ≤ 1 / 3) (l : List (Res V)) (ps : List PosNeg) (h : posNeg bw l 0 = .ok ps)
    (i j : ℕ) (hij : i < j) (p q : PosNeg) (hi : ps[i]? = some p) (hj : ps[j]? = some q) :
    reach bw p + bw / 2 ≤ q.idx - bw / 2 := by
  obtain ⟨-, -, -, h4⟩ := posNeg_ok bw l 0 ps h
  have hr : ∀ p : PosNeg, p.idx ≤ reach bw p := by
    intro p; unfold reach; split <;> linarith
  induction j generalizing q with
  | zero => omega
  | succ j ih =>
    have hjl : j < ps.length := by have := (List.getElem?_eq_some_iff.mp hj).1; omega
    have hstep := h4 j ps[j] q (List.getElem?_eq_getElem hjl) hj
    rcases Nat.lt_or_ge i j with hlt | hge
    · have := ih hlt ps[j] (List.getElem?_eq_getElem hjl)
      have := hr ps[j]
      linarith
    · have : i = j := by omega
      subst this
      have hp : ps[i] = p := by
        rw [List.getElem?_eq_getElem hjl] at hi
        simpa using hi
      rw [hp] at hstep
      linarith

def exA : Res ℕ := ⟨[(1, (11, 3)), (2, (12, -1)), (3, (13, 2))], false⟩
def exB : Res ℕ := ⟨[(1, (11, 5)), (2, (12, 4))], false⟩

example : (posNeg (1 / 5) [exA, exB, exA] 0).toOption = some [⟨5, -1, 0⟩, ⟨9, 0, 1⟩, ⟨5, -1, 8 / 5⟩] := by decide +kernel
example : (posNeg (1 / 5) [exA, { exB with priv := true }] 0).toOption = none := by decide +kernel
/-- with a bar width of 1/2 the second result's bar is drawn over the first one's line -/
example : (posNeg (1 / 2) [exA, exB] 0).toOption = some [⟨5, -1, 0⟩, ⟨9, 0, 1⟩] ∧ reach (1 / 2) ⟨5, -1, 0⟩ = 1 := by decide +kernel

/-! ### C201 -/

/-- spec: the sums of the positive and of the negative data -/
def pos (l : List ℚ) : ℚ := (l.map fun d => max d 0).sum
def neg (l : List ℚ) : ℚ := (l.map fun d => min d 0).sum

theorem pos_cons (a : ℚ) (l : List ℚ) : pos (a :: l) = max a 0 + pos l := by simp [pos]
theorem neg_cons (a : ℚ) (l : List ℚ) : neg (a :: l) = min a 0 + neg l := by simp [neg]

theorem pos_nonneg (l : List ℚ) : 0 ≤ pos l := by
  induction l with
  | nil => simp [pos]
  | cons a l ih => rw [pos_cons]; have := le_max_right a 0; linarith

theorem neg_nonpos (l : List ℚ) : neg l ≤ 0 := by
  induction l with
  | nil => simp [neg]
  | cons a l ih => rw [neg_cons]; have := min_le_right a 0; linarith

theorem pos_neg_sum (l : List ℚ) : pos l + neg l = l.sum := by
  induction l with
  | nil => simp [pos, neg]
  | cons a l ih =>
    rw [pos_cons, neg_cons, List.sum_cons, ← ih]
    rcases le_total a 0 with h | h
    · rw [max_eq_right h, min_eq_left h]; ring
    · rw [max_eq_left h, min_eq_right h]; ring

theorem filter_pos (l : List ℚ) : (l.filter fun k => decide (k > 0)).sum = pos l := by
  induction l with
  | nil => simp [pos]
  | cons a l ih =>
    rw [pos_cons, ← ih]
    by_cases h : a > 0
    · rw [List.filter_cons_of_pos (by simpa using h), List.sum_cons, max_eq_left h.le]
    · rw [List.filter_cons_of_neg (by simpa using h), max_eq_right (not_lt.mp h), zero_add]

theorem filter_neg (l : List ℚ) : (l.filter fun k => decide (k < 0)).sum = neg l := by
  induction l with
  | nil => simp [neg]
  | cons a l ih =>
    rw [neg_cons, ← ih]
    by_cases h : a < 0
    · rw [List.filter_cons_of_pos (by simpa using h), List.sum_cons, min_eq_left h.le]
    · rw [List.filter_cons_of_neg (by simpa using h), min_eq_right (not_lt.mp h), zero_add]

/-- spec: the segments of data numbered from `i`, positive ones rightwards from `R`, negative ones leftwards from `L` -/
inductive Stacked (posY negY : ℚ) : ℕ → ℚ → ℚ → List ℚ → List Seg → Prop
  | nil (i : ℕ) (L R : ℚ) : Stacked posY negY i L R [] []
  | zero (i : ℕ) (L R : ℚ) (l : List ℚ) (s : List Seg) : Stacked posY negY (i + 1) L R l s → Stacked posY negY i L R (0 :: l) s
  | right (i : ℕ) (L R d : ℚ) (l : List ℚ) (s : List Seg) : 0 < d → Stacked posY negY (i + 1) L (R + d) l s →
      Stacked posY negY i L R (d :: l) ({ num := i, y := posY, left := R, width := d } :: s)
  | left (i : ℕ) (L R d : ℚ) (l : List ℚ) (s : List Seg) : d < 0 → Stacked posY negY (i + 1) (L + d) R l s →
      Stacked posY negY i L R (d :: l) ({ num := i, y := negY, left := L + d, width := -d } :: s)

theorem segLoop_ok (posY negY : ℚ) (colors : Option ℕ) : ∀ (l : List ℚ) (i : ℕ) (L R : ℚ),
    (∀ n, colors = some n → i + l.length ≤ n) →
    ∃ s, segLoop posY negY colors i l L R = .ok (s, L + neg l, R + pos l) ∧ Stacked posY negY i L R l s := by
  intro l
  induction l with
  | nil => intro i L R _; exact ⟨[], by simp [segLoop, pos, neg], .nil _ _ _⟩
  | cons d l ih =>
    intro i L R hc
    have hc' : ∀ n, colors = some n → i + 1 + l.length ≤ n := by
      intro n hn
      have := hc n hn
      simp at this
      omega
    have hcol : exhausted colors i = false := by
      cases hcc : colors with
      | none => rfl
      | some n =>
        have := hc n hcc
        simp at this
        simp [exhausted]
        omega
    simp only [segLoop, hcol, Bool.false_eq_true, if_false]
    rcases lt_trichotomy d 0 with h | h | h
    · obtain ⟨s, hs, hst⟩ := ih (i + 1) (L + d) R hc'
      refine ⟨_, ?_, .left i L R d l s h hst⟩
      rw [if_neg (not_lt.mpr h.le), if_pos h, hs]
      simp only [pos_cons, neg_cons, max_eq_right h.le, min_eq_left h.le, abs_of_neg h, zero_add, add_assoc]
    · subst h
      obtain ⟨s, hs, hst⟩ := ih (i + 1) L R hc'
      refine ⟨_, ?_, .zero i L R l s hst⟩
      rw [if_neg (lt_irrefl _), if_neg (lt_irrefl _), hs]
      simp [pos_cons, neg_cons]
    · obtain ⟨s, hs, hst⟩ := ih (i + 1) L (R + d) hc'
      refine ⟨_, ?_, .right i L R d l s h hst⟩
      rw [if_pos h, hs]
      simp only [pos_cons, neg_cons, max_eq_left h.le, min_eq_right h.le, zero_add, add_assoc]

theorem segLoop_err (posY negY : ℚ) (n : ℕ) : ∀ (l : List ℚ) (i : ℕ) (L R : ℚ), i ≤ n → n < i + l.length →
    segLoop posY negY (some n) i l L R = .error .stopIteration := by
  intro l
  induction l with
  | nil => intro i L R h1 h2; simp at h2; omega
  | cons d l ih =>
    intro i L R h1 h2
    simp only [segLoop, exhausted]
    by_cases hn : n ≤ i
    · simp [hn]
    · simp only [hn, decide_false, Bool.false_eq_true, if_false]
      have hl : n < i + 1 + l.length := by simp at h2; omega
      split
      · rw [ih (i + 1) _ _ (by omega) hl]
      · split
        · rw [ih (i + 1) _ _ (by omega) hl]
        · exact ih (i + 1) _ _ (by omega) hl

/-- segments of stacked data are where they should be -/
theorem stacked_within {posY negY : ℚ} : ∀ {i : ℕ} {L R : ℚ} {l : List ℚ} {s : List Seg}, Stacked posY negY i L R l s →
    (∀ g ∈ s, (g.y = posY ∧ R ≤ g.left ∧ g.left + g.width ≤ R + pos l) ∨ (g.y = negY ∧ L + neg l ≤ g.left ∧ g.left + g.width ≤ L)) ∧
    (s.map fun g => g.width).sum = pos l - neg l ∧ (∀ g ∈ s, 0 < g.width) ∧ s.length = (l.filter fun d => decide (d ≠ 0)).length := by
  intro i L R l s h
  induction h with
  | nil => simp [pos, neg]
  | zero i L R l s _ ih =>
    simp only [pos_cons, neg_cons, max_self, min_self, zero_add]
    refine ⟨ih.1, ih.2.1, ih.2.2.1, ?_⟩
    simpa using ih.2.2.2
  | right i L R d l s hd _ ih =>
    obtain ⟨h1, h2, h3, h4⟩ := ih
    have hp := pos_nonneg l
    simp only [pos_cons, neg_cons, max_eq_left hd.le, min_eq_right hd.le, zero_add]
    refine ⟨?_, ?_, ?_, ?_⟩
    · intro g hg
      rcases List.mem_cons.mp hg with rfl | hg
      · left; refine ⟨rfl, le_refl _, ?_⟩; simp only; linarith
      · rcases h1 g hg with ⟨a, b, c⟩ | h
        · left; exact ⟨a, by linarith, by linarith⟩
        · right; exact h
    · simp only [List.map_cons, List.sum_cons, h2]; ring
    · intro g hg
      rcases List.mem_cons.mp hg with rfl | hg
      · exact hd
      · exact h3 g hg
    · rw [List.filter_cons_of_pos (by simpa using hd.ne')]; simp [h4]
  | left i L R d l s hd _ ih =>
    obtain ⟨h1, h2, h3, h4⟩ := ih
    have hp := neg_nonpos l
    simp only [pos_cons, neg_cons, max_eq_right hd.le, min_eq_left hd.le, zero_add]
    refine ⟨?_, ?_, ?_, ?_⟩
    · intro g hg
      rcases List.mem_cons.mp hg with rfl | hg
      · right; refine ⟨rfl, ?_, ?_⟩ <;> simp only <;> linarith
      · rcases h1 g hg with h | ⟨a, b, c⟩
        · left; exact h
        · right; exact ⟨a, by linarith, by linarith⟩
    · simp only [List.map_cons, List.sum_cons, h2]; ring
    · intro g hg
      rcases List.mem_cons.mp hg with rfl | hg
      · simp only; linarith
      · exact h3 g hg
    · rw [List.filter_cons_of_pos (by simpa using hd.ne)]; simp [h4]

theorem pos_eq_zero (l : List ℚ) : pos l = 0 ↔ ∀ d ∈ l, d ≤ 0 := by
  induction l with
  | nil => simp [pos]
  | cons a l ih =>
    rw [pos_cons]
    have h1 := pos_nonneg l
    have h2 := le_max_right a 0
    have h3 := le_max_left a 0
    constructor
    · intro h d hd
      have e1 : pos l = 0 := by linarith
      rcases List.mem_cons.mp hd with rfl | hd
      · linarith
      · exact ih.mp e1 d hd
    · intro h
      rw [max_eq_right (h a List.mem_cons_self), ih.mpr fun d hd => h d (List.mem_cons_of_mem _ hd), add_zero]

theorem neg_eq_zero (l : List ℚ) : neg l = 0 ↔ ∀ d ∈ l, 0 ≤ d := by
  induction l with
  | nil => simp [neg]
  | cons a l ih =>
    rw [neg_cons]
    have h1 := neg_nonpos l
    have h2 := min_le_right a 0
    have h3 := min_le_left a 0
    constructor
    · intro h d hd
      have e1 : neg l = 0 := by linarith
      rcases List.mem_cons.mp hd with rfl | hd
      · linarith
      · exact ih.mp e1 d hd
    · intro h
      rw [min_eq_right (h a List.mem_cons_self), ih.mpr fun d hd => h d (List.mem_cons_of_mem _ hd), add_zero]

/-- **one stacked bar**: the positive data one after the other to the right of the origin, the negative ones to the
left of it, each as long as its datum, in the data's order; printed are the sums of both; the net marker is at the total,
and is there just if there are positive and negative data -/
theorem one_bar (posY negY : ℚ) (data : List ℚ) (colors : Option ℕ) (hc : ∀ n, colors = some n → data.length ≤ n) :
    ∃ b, oneBar posY negY data colors = .ok b ∧
      (∃ y, (b.segs = [] ∨ y = negY ∨ neg data = 0 ∨ pos data = 0) ∧ Stacked posY y 0 0 0 data b.segs) ∧
      b.right = (if pos data ≠ 0 then some (pos data) else none) ∧
      b.left = (if neg data ≠ 0 then some (neg data) else none) ∧
      b.net.map (fun p => p.1) = (if pos data ≠ 0 ∧ neg data ≠ 0 then some data.sum else none) := by
  unfold oneBar
  simp only [filter_pos, filter_neg]
  by_cases h0 : pos data = 0 ∧ neg data = 0
  · rw [if_pos h0]
    refine ⟨_, rfl, ⟨negY, .inl rfl, ?_⟩, by simp [h0.1], by simp [h0.2], by simp [h0.1]⟩
    have hz : ∀ d ∈ data, d = 0 := fun d hd =>
      le_antisymm ((pos_eq_zero _).mp h0.1 d hd) ((neg_eq_zero _).mp h0.2 d hd)
    clear h0 hc
    generalize (0 : ℕ) = i
    induction data generalizing i with
    | nil => exact .nil _ _ _
    | cons a l ih =>
      have := hz a List.mem_cons_self
      subst this
      exact .zero _ _ _ _ _ (ih (fun d hd => hz d (List.mem_cons_of_mem _ hd)) (i + 1))
  · rw [if_neg h0]
    obtain ⟨s, hs, hst⟩ := segLoop_ok posY (if pos data ≠ 0 ∧ neg data ≠ 0 then negY else posY) colors data 0 0 0 (by
      intro n hn; have := hc n hn; omega)
    rw [hs]
    refine ⟨_, rfl, ⟨_, ?_, hst⟩, by simp, by simp, ?_⟩
    · by_cases h1 : pos data ≠ 0 ∧ neg data ≠ 0
      · exact .inr (.inl (if_pos h1))
      · rw [not_and_or, not_not, not_not] at h1
        rcases h1 with h1 | h1
        · exact .inr (.inr (.inr h1))
        · exact .inr (.inr (.inl h1))
    · by_cases h1 : pos data ≠ 0 ∧ neg data ≠ 0
      · rw [if_pos h1]
        simp only [if_pos h1]
        simp [pos_neg_sum]
      · simp only [if_neg h1]
        rfl

/-- too few colours: StopIteration, unless all data are zero -/
theorem too_few_colors (posY negY : ℚ) (data : List ℚ) (n : ℕ) (hn : n < data.length) (hz : ∃ d ∈ data, d ≠ 0) :
    ∃ e, oneBar posY negY data (some n) = .error e := by
  unfold oneBar
  simp only [filter_pos, filter_neg]
  rw [if_neg]
  · rw [segLoop_err _ _ _ _ _ _ _ (Nat.zero_le n) (by simpa using hn)]
    exact ⟨_, rfl⟩
  · rintro ⟨h1, h2⟩
    obtain ⟨d, hd, h⟩ := hz
    exact h (le_antisymm ((pos_eq_zero _).mp h1 d hd) ((neg_eq_zero _).mp h2 d hd))

/-- the axis covers every series -/
theorem limits_cover (series : List (List ℚ)) (data : List ℚ) (hd : data ∈ series) :
    (stackLimits series).1 ≤ neg data ∧ pos data ≤ (stackLimits series).2 ∧ (stackLimits series).1 ≤ 0 ∧ 0 ≤ (stackLimits series).2 := by
  have key : ∀ (l : List (List ℚ)) (m : ℚ × ℚ), m.1 ≤ 0 → 0 ≤ m.2 →
      let R := l.foldl (fun (m : ℚ × ℚ) data =>
        (if (data.filter fun k => decide (k < 0)).sum < m.1 then (data.filter fun k => decide (k < 0)).sum else m.1,
         if (data.filter fun k => decide (k > 0)).sum > m.2 then (data.filter fun k => decide (k > 0)).sum else m.2)) m
      R.1 ≤ m.1 ∧ m.2 ≤ R.2 ∧ ∀ d ∈ l, R.1 ≤ neg d ∧ pos d ≤ R.2 := by
    intro l
    induction l with
    | nil => intro m _ _; simp
    | cons a l ih =>
      intro m h1 h2
      simp only [List.foldl_cons, filter_neg, filter_pos] at ih ⊢
      have e1 : (if neg a < m.1 then neg a else m.1) = min (neg a) m.1 := by
        by_cases h : neg a < m.1
        · rw [if_pos h, min_eq_left h.le]
        · rw [if_neg h, min_eq_right (not_lt.mp h)]
      have e2 : (if pos a > m.2 then pos a else m.2) = max (pos a) m.2 := by
        by_cases h : pos a > m.2
        · rw [if_pos h, max_eq_left h.le]
        · rw [if_neg h, max_eq_right (not_lt.mp h)]
      obtain ⟨i1, i2, i3⟩ := ih (min (neg a) m.1, max (pos a) m.2) ((min_le_right _ _).trans h1) (h2.trans (le_max_right _ _))
      rw [e1, e2]
      refine ⟨i1.trans (min_le_right _ _), le_trans (le_max_right _ _) i2, fun d hd => ?_⟩
      rcases List.mem_cons.mp hd with rfl | hd
      · exact ⟨i1.trans (min_le_left _ _), le_trans (le_max_left _ _) i2⟩
      · exact i3 d hd
  obtain ⟨k1, k2, k3⟩ := key series (0, 0) (le_refl _) (le_refl _)
  obtain ⟨k4, k5⟩ := k3 data hd
  unfold stackLimits
  simp only at k1 k2 k4 k5 ⊢
  generalize List.foldl _ (0, 0) series = R at k1 k2 k4 k5 ⊢
  refine ⟨by linarith, by linarith, by linarith, by linarith⟩

/-- a bar ends where it says: its segments are between the top row's upper edge and the bottom -/
theorem one_bar_vertical (posY : ℚ) (data : List ℚ) (colors : Option ℕ) (b : OneBar)
    (h : oneBar posY (posY - 1) data colors = .ok b) :
    b.bottom ≤ posY ∧ ∀ g ∈ b.segs, g.y ≤ posY ∧ b.bottom < g.y - 1 / 2 := by
  unfold oneBar at h
  simp only [filter_pos, filter_neg] at h
  by_cases h0 : pos data = 0 ∧ neg data = 0
  · rw [if_pos h0] at h
    injection h with h
    subst h
    simp
  · rw [if_neg h0] at h
    by_cases hc : ∀ n, colors = some n → data.length ≤ n
    · obtain ⟨s, hs, hst⟩ := segLoop_ok posY (if pos data ≠ 0 ∧ neg data ≠ 0 then posY - 1 else posY) colors data 0 0 0 (by
        intro n hn; have := hc n hn; omega)
      rw [hs] at h
      injection h with h
      subst h
      have hw := (stacked_within hst).1
      by_cases h1 : pos data ≠ 0 ∧ neg data ≠ 0
      · simp only [if_pos h1] at hw ⊢
        refine ⟨by linarith, fun g hg => ?_⟩
        rcases hw g hg with ⟨h2, -⟩ | ⟨h2, -⟩ <;> rw [h2] <;> constructor <;> linarith
      · simp only [if_neg h1] at hw ⊢
        refine ⟨by linarith, fun g hg => ?_⟩
        rcases hw g hg with ⟨h2, -⟩ | ⟨h2, -⟩ <;> rw [h2] <;> constructor <;> linarith
    · exfalso
      push Not at hc
      obtain ⟨n, rfl, hn⟩ := hc
      rw [segLoop_err _ _ _ _ _ _ _ (Nat.zero_le n) (by simpa using hn)] at h
      cases h

theorem stackLoop_ok (colors : Option ℕ) : ∀ (l : List (List ℚ)) (posY : ℚ) (bs : List OneBar), stackLoop colors l posY = .ok bs →
    bs.length = l.length ∧ (∀ (j : ℕ) d b, l[j]? = some d → bs[j]? = some b → ∃ y, oneBar y (y - 1) d colors = .ok b ∧ y ≤ posY) ∧
    ∀ (i j : ℕ) b b', i < j → bs[i]? = some b → bs[j]? = some b' → ∀ g' ∈ b'.segs, g'.y ≤ b.bottom - 16 / 10 := by
  intro l
  induction l with
  | nil => intro posY bs h; simp [stackLoop] at h; subst h; simp
  | cons d l ih =>
    intro posY bs h
    simp only [stackLoop] at h
    split at h
    · cases h
    · next b0 hb0 =>
      split at h
      · cases h
      · next rest hrest =>
        simp only [Except.ok.injEq] at h
        subst h
        obtain ⟨i1, i2, i3⟩ := ih _ _ hrest
        have hv := one_bar_vertical posY d colors b0 hb0
        refine ⟨by simp [i1], ?_, ?_⟩
        · intro j e b hj hb
          cases j with
          | zero => simp at hj hb; subst hj; subst hb; exact ⟨posY, hb0, le_refl _⟩
          | succ j =>
            obtain ⟨y, hy, hle⟩ := i2 j e b (by simpa using hj) (by simpa using hb)
            exact ⟨y, hy, by linarith [hv.1]⟩
        · intro i j b b' hij hi hj g' hg'
          cases j with
          | zero => omega
          | succ j =>
            have hj : rest[j]? = some b' := by simpa using hj
            cases i with
            | zero =>
              simp at hi
              subst hi
              have hjl : j < l.length := by rw [← i1]; exact (List.getElem?_eq_some_iff.mp hj).1
              obtain ⟨y, hy, hle⟩ := i2 j l[j] b' (List.getElem?_eq_getElem hjl) hj
              have := (one_bar_vertical y _ colors b' hy).2 g' hg'
              linarith [this.1]
            | succ i => exact i3 i j b b' (by omega) (by simpa using hi) hj g' hg'

/-- **several series**: one bar per series; segments are a unit high and those of a later series all lie below those of
an earlier one; every segment is within the limits of the axis -/
theorem series_apart (series : List (List ℚ)) (colors : Option ℕ) (bs : List OneBar) (h : stackBars series colors = .ok bs) :
    bs.length = series.length ∧
    (∀ (i j : ℕ) b b', i < j → bs[i]? = some b → bs[j]? = some b' → ∀ g ∈ b.segs, ∀ g' ∈ b'.segs, g'.y + 1 / 2 < g.y - 1 / 2) ∧
    ∀ b ∈ bs, ∀ g ∈ b.segs, (stackLimits series).1 ≤ g.left ∧ g.left + g.width ≤ (stackLimits series).2 := by
  obtain ⟨h1, h2, h3⟩ := stackLoop_ok colors series _ bs h
  have hbar : ∀ (i : ℕ) b, bs[i]? = some b → ∃ d ∈ series, ∃ y, oneBar y (y - 1) d colors = .ok b := by
    intro i b hi
    have hl : i < series.length := by rw [← h1]; exact (List.getElem?_eq_some_iff.mp hi).1
    obtain ⟨y, hy, -⟩ := h2 i series[i] b (List.getElem?_eq_getElem hl) hi
    exact ⟨_, List.getElem_mem hl, y, hy⟩
  refine ⟨h1, ?_, ?_⟩
  · intro i j b b' hij hi hj g hg g' hg'
    obtain ⟨d, -, y, hy⟩ := hbar i b hi
    have e1 := ((one_bar_vertical y d colors b hy).2 g hg).2
    have e2 := h3 i j b b' hij hi hj g' hg'
    linarith
  · intro b hb g hg
    obtain ⟨i, hi⟩ := List.getElem?_of_mem hb
    obtain ⟨d, hd, y, hy⟩ := hbar i b hi
    obtain ⟨l1, l2, l3, l4⟩ := limits_cover series d hd
    by_cases hc : ∀ n, colors = some n → d.length ≤ n
    · obtain ⟨b', hb', ⟨y', -, hst⟩, -⟩ := one_bar y (y - 1) d colors hc
      rw [hy] at hb'
      injection hb' with hb'
      subst hb'
      obtain ⟨w1, -, w3, -⟩ := stacked_within hst
      have w3 := w3 g hg
      rcases w1 g hg with ⟨-, a, c⟩ | ⟨-, a, c⟩ <;> constructor <;> linarith
    · exfalso
      push Not at hc
      obtain ⟨n, rfl, hn⟩ := hc
      by_cases hz : ∃ x ∈ d, x ≠ 0
      · obtain ⟨e, he⟩ := too_few_colors y (y - 1) d n hn hz
        rw [hy] at he
        cases he
      · push Not at hz
        have hp : pos d = 0 := (pos_eq_zero d).mpr fun x hx => (hz x hx).le
        have hq : neg d = 0 := (neg_eq_zero d).mpr fun x hx => (hz x hx).ge
        unfold oneBar at hy
        simp only [filter_pos, filter_neg, hp, hq, and_self, if_true, Except.ok.injEq] at hy
        subst hy
        simp at hg

def exSegs (x : Except Err OneBar) : Option (List Seg × Option ℚ × Option ℚ × Option (ℚ × ℚ)) :=
  x.toOption.map fun b => (b.segs, b.right, b.left, b.net)

example : exSegs (oneBar 0 (-1) [3, -1, 0, 2, -2] none) =
    some ([⟨0, 0, 0, 3⟩, ⟨1, -1, -1, 1⟩, ⟨3, 0, 3, 2⟩, ⟨4, -1, -3, 2⟩], some 5, some (-3), some (2, -1)) := by decide +kernel
example : exSegs (oneBar 0 (-1) [3, -1, 0, 2, -2] (some 4)) = none := by decide +kernel
example : exSegs (oneBar 0 (-1) [3, 0, 1] (some 3)) = some ([⟨0, 0, 0, 3⟩, ⟨2, 0, 3, 1⟩], some 4, none, none) := by decide +kernel
example : (stackBars [[3, -1], [2, 2]] none).toOption.map (fun l => l.map fun b => b.segs.map fun g => g.y) =
    some [[11 / 20, -9 / 20], [-13 / 5, -13 / 5]] := by decide +kernel

/-! ### C202 -/

/-- **scenarios side by side**: the bars of `m` scenarios at a stage lie next to each other, in order, and together
take the group's width, centred at the stage -/
theorem spread (m : ℕ) (bw : ℚ) (i n k : ℕ) (hi : i < m) (hk : k < n) :
    (spreadLeft m bw i n)[k]? = some ((k : ℚ) - bw / 2 + i * (bw / m)) := by
  have hm : (m : ℚ) ≠ 0 := by
    have : m ≠ 0 := by omega
    exact_mod_cast this
  unfold spreadLeft
  simp only [List.getElem?_map, List.getElem?_range hk, Option.map_some, Option.some.injEq]
  field_simp
  ring

/-- a scenario's bar ends where the next one's starts; the first starts and the last ends half a group's width from the
stage; with a group narrower than 1 the groups of different stages are apart -/
theorem spread_tiles (m : ℕ) (bw : ℚ) (n k : ℕ) (hk : k < n) (hm : 0 < m) :
    (∀ i, i + 1 < m → ∀ x y, (spreadLeft m bw i n)[k]? = some x → (spreadLeft m bw (i + 1) n)[k]? = some y → x + bw / m = y) ∧
    (∀ x, (spreadLeft m bw 0 n)[k]? = some x → x = (k : ℚ) - bw / 2) ∧
    (∀ x, (spreadLeft m bw (m - 1) n)[k]? = some x → x + bw / m = (k : ℚ) + bw / 2) ∧
    (0 ≤ bw → bw < 1 → k + 1 < n → ∀ x y, (spreadLeft m bw (m - 1) n)[k]? = some x → (spreadLeft m bw 0 n)[k + 1]? = some y →
      x + bw / m < y) := by
  have hmq : (m : ℚ) ≠ 0 := by
    have : m ≠ 0 := by omega
    exact_mod_cast this
  have hlast : ∀ x, (spreadLeft m bw (m - 1) n)[k]? = some x → x + bw / m = (k : ℚ) + bw / 2 := by
    intro x hx
    rw [spread m bw (m - 1) n k (by omega) hk] at hx
    injection hx with hx
    subst hx
    rw [Nat.cast_sub (by omega : 1 ≤ m)]
    push_cast
    field_simp
    ring
  refine ⟨?_, ?_, hlast, ?_⟩
  · intro i hi x y hx hy
    rw [spread m bw i n k (by omega) hk] at hx
    rw [spread m bw (i + 1) n k hi hk] at hy
    injection hx with hx
    injection hy with hy
    subst hx
    subst hy
    push_cast
    ring
  · intro x hx
    rw [spread m bw 0 n k hm hk] at hx
    injection hx with hx
    subst hx
    simp
  · intro _ hb hk1 x y hx hy
    rw [hlast x hx]
    rw [spread m bw 0 n (k + 1) hm hk1] at hy
    injection hy with hy
    subst hy
    push_cast
    linarith

example : spreadLeft 2 (4 / 5) 0 2 = [-2 / 5, 3 / 5] ∧ spreadLeft 2 (4 / 5) 1 2 = [0, 1] := by decide +kernel

end ChartsBars
