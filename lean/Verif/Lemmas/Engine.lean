import Mathlib.Data.List.Nodup
import Mathlib.Data.List.Sublists
import Mathlib.Tactic.Push
import Verif.Spec.Engine

namespace Engine
variable {F P : Type} [DecidableEq F] [DecidableEq P]
variable {db : DB F P} {strat : Strategy}

/-! ### basic facts -/

theorem setLow_low (s : State F P) (v w : F × P) (n : ℕ) :
    (setLow s v n).low.get? w =
      if v = w then some (match s.low.get? v with | some m => min m n | none => n)
      else s.low.get? w := by
  unfold setLow
  cases h : s.low.get? v <;> simp [Dict.get?_set]

theorem setLow_other (s : State F P) (v : F × P) (n : ℕ) :
    (setLow s v n).pfs = s.pfs ∧ (setLow s v n).pfIndex = s.pfIndex ∧ (setLow s v n).ev = s.ev ∧
    (setLow s v n).stack = s.stack ∧ (setLow s v n).sccs = s.sccs ∧ (setLow s v n).sccOf = s.sccOf ∧
    (setLow s v n).interior = s.interior ∧ (setLow s v n).cutoffs = s.cutoffs ∧
    (setLow s v n).emissions = s.emissions := by
  unfold setLow
  cases h : s.low.get? v <;> simp

theorem addInterior_other (s : State F P) (p t : F × P) (v : ℚ) :
    (addInterior s p t v).pfs = s.pfs ∧ (addInterior s p t v).pfIndex = s.pfIndex ∧
    (addInterior s p t v).low = s.low ∧
    (addInterior s p t v).stack = s.stack ∧ (addInterior s p t v).sccs = s.sccs ∧
    (addInterior s p t v).sccOf = s.sccOf ∧ (addInterior s p t v).cutoffs = s.cutoffs ∧
    (addInterior s p t v).emissions = s.emissions := by
  unfold addInterior
  split <;> simp

/-- the part of the state that the graph invariant reads -/
structure SameGraph (s s' : State F P) : Prop where
  pfs : s'.pfs = s.pfs
  pfIndex : s'.pfIndex = s.pfIndex
  stack : s'.stack = s.stack
  sccs : s'.sccs = s.sccs
  sccOf : s'.sccOf = s.sccOf
  emissions : s'.emissions = s.emissions

theorem popUntil_spec (key : F × P) (a b : List (F × P)) (h : key ∉ a) :
    popUntil key (a ++ key :: b) = some (a ++ [key], b) := by
  induction a with
  | nil => simp [popUntil]
  | cons x a ih =>
    simp only [List.mem_cons, not_or] at h
    have hx : ¬ x = key := fun e => h.1 e.symm
    simp [popUntil, hx, ih h.2]

theorem foldl_labelNode_other (index : ℕ) (l : List (F × P)) (s : State F P) :
    (l.foldl (labelNode index) s).pfs = s.pfs ∧ (l.foldl (labelNode index) s).pfIndex = s.pfIndex ∧
    (l.foldl (labelNode index) s).low = s.low ∧ (l.foldl (labelNode index) s).ev = s.ev ∧
    (l.foldl (labelNode index) s).interior = s.interior ∧
    (l.foldl (labelNode index) s).cutoffs = s.cutoffs ∧
    (l.foldl (labelNode index) s).emissions = s.emissions := by
  induction l generalizing s with
  | nil => simp
  | cons v l ih =>
    have := ih (labelNode index s v)
    simpa [labelNode] using this

theorem foldl_labelNode_keys (index : ℕ) (l : List (F × P)) (s : State F P)
    (h : s.sccs.keys.Nodup) : (l.foldl (labelNode index) s).sccs.keys.Nodup := by
  induction l generalizing s with
  | nil => exact h
  | cons v l ih =>
    rw [List.foldl_cons]
    exact ih _ (Dict.nodup_keys_set _ _ _ h)

theorem foldl_labelNode_sccOf (index : ℕ) (l : List (F × P)) (s : State F P) (v : F × P) :
    (l.foldl (labelNode index) s).sccOf.get? v = if v ∈ l then some index else s.sccOf.get? v := by
  induction l generalizing s with
  | nil => simp
  | cons w l ih =>
    rw [List.foldl_cons, ih]
    by_cases h : v ∈ l
    · simp [h]
    · by_cases h2 : w = v
      · simp [h, h2, labelNode]
      · have : ¬ v = w := fun e => h2 e.symm
        simp [h, labelNode, Dict.get?_set, h2, this]

theorem foldl_labelNode_sccs (index : ℕ) (l : List (F × P)) (s : State F P) (n : ℕ)
    (hl : l ≠ []) (hnd : l.Nodup) (hnew : s.sccs.get? index = none) :
    (l.foldl (labelNode index) s).sccs.get? n =
      if n = index then some l else s.sccs.get? n := by
  have key : ∀ (l : List (F × P)) (s : State F P) (pre : List (F × P)),
      s.sccs.get? index = some pre → (pre ++ l).Nodup →
      (l.foldl (labelNode index) s).sccs.get? n =
        if n = index then some (pre ++ l) else s.sccs.get? n := by
    intro l
    induction l with
    | nil => intro s pre h _; by_cases hn : n = index <;> simp [hn, h]
    | cons v l ih =>
      intro s pre h hnd
      have hv : v ∉ pre := by
        rw [List.nodup_append] at hnd
        intro hv
        exact hnd.2.2 v hv v (by simp) rfl
      rw [List.foldl_cons, ih (labelNode index s v) (pre ++ [v])]
      · by_cases hn : n = index
        · simp [hn]
        · have : ¬ index = n := fun e => hn e.symm
          simp [hn, labelNode, Dict.get?_set, this]
      · simp [labelNode, h, hv]
      · simpa using hnd
  cases l with
  | nil => exact absurd rfl hl
  | cons v l =>
    rw [List.foldl_cons, key l (labelNode index s v) [v]]
    · by_cases hn : n = index
      · simp [hn]
      · have : ¬ index = n := fun e => hn e.symm
        simp [hn, labelNode, Dict.get?_set, this]
    · simp [labelNode, hnew]
    · simpa using hnd

/-! ### the graph invariant -/

/-- Invariant of the traversal; `g` is the list of product flows whose exchange loop is still running,
innermost first. -/
structure Inv (db : DB F P) (strat : Strategy) (g : List (F × P)) (s : State F P) : Prop where
  nodup : s.pfIndex.Nodup
  pfs : ∀ v n, s.pfs.get? v = some n ↔ s.pfIndex[n]? = some v
  stk : s.stack.Sublist s.pfIndex.reverse
  onStack : ∀ v ∈ s.stack, s.sccOf.get? v = none
  offStack : ∀ v ∈ s.pfIndex, v ∉ s.stack → ∃ n, s.sccOf.get? v = some n
  sccVis : ∀ v n, s.sccOf.get? v = some n → v ∈ s.pfIndex
  lowVis : ∀ v ∈ s.pfIndex, ∃ n, s.low.get? v = some n
  lowNew : ∀ v, v ∉ s.pfIndex → s.low.get? v = none
  grays : g.Sublist s.stack
  closed : ∀ v ∈ s.pfIndex, v ∉ g → ∀ w, Depends db strat v w → w ∈ s.pfIndex
  black : ∀ v n, s.sccOf.get? v = some n → ∀ w, Depends db strat v w → ∃ m, s.sccOf.get? w = some m
  scc : ∀ v w n m, s.sccOf.get? v = some n → s.sccOf.get? w = some m →
    (n = m ↔ Mutual db strat v w)
  sccRoot : ∀ v n, s.sccOf.get? v = some n → ∃ r, s.pfIndex[n]? = some r ∧ s.sccOf.get? r = some n
  sccsMem : ∀ n l, s.sccs.get? n = some l → l ≠ [] ∧ l.Nodup ∧ ∀ v, v ∈ l ↔ s.sccOf.get? v = some n
  sccsDom : ∀ v n, s.sccOf.get? v = some n → ∃ l, s.sccs.get? n = some l
  reachUp : s.stack.Pairwise fun a b => Reach db strat b a
  reachGray : ∀ y ∈ s.stack, ∃ x ∈ g, ∃ i j, s.pfs.get? x = some i ∧ s.pfs.get? y = some j ∧ i ≤ j ∧
    Reach db strat y x
  emis : ∀ k ∈ s.emissions, ∀ x : Exch F P, x.term = none → (x.flow, x.dir) = k →
    ∀ t, ¬ TermOf db strat x t
  refd : ∀ v ∈ s.pfIndex, db.refDir v ≠ none
  sccsKeys : s.sccs.keys.Nodup

theorem Inv.vis_iff {g : List (F × P)} {s : State F P} (h : Inv db strat g s) (v : F × P) :
    v ∈ s.pfIndex ↔ ∃ n, s.pfs.get? v = some n := by
  constructor
  · intro hv
    obtain ⟨n, hn⟩ := List.mem_iff_getElem?.mp hv
    exact ⟨n, (h.pfs v n).mpr hn⟩
  · rintro ⟨n, hn⟩
    exact List.mem_of_getElem? ((h.pfs v n).mp hn)

theorem Inv.none_iff {g : List (F × P)} {s : State F P} (h : Inv db strat g s) (v : F × P) :
    s.pfs.get? v = none ↔ v ∉ s.pfIndex := by
  rw [h.vis_iff]
  cases s.pfs.get? v <;> simp

theorem Inv.stack_vis {g : List (F × P)} {s : State F P} (h : Inv db strat g s) {v : F × P}
    (hv : v ∈ s.stack) : v ∈ s.pfIndex := by
  have := h.stk.subset hv
  simpa using this

theorem Inv.stack_nodup {g : List (F × P)} {s : State F P} (h : Inv db strat g s) : s.stack.Nodup :=
  h.stk.nodup (List.nodup_reverse.mpr h.nodup)

/-- if `b` occurs before `a` in a duplicate-free list, its position is smaller -/
theorem idx_lt_of_sublist {α : Type} {l : List α} (hn : l.Nodup) {a b : α}
    (h : [b, a].Sublist l) {i j : ℕ} (hi : l[i]? = some b) (hj : l[j]? = some a) : i < j := by
  induction l generalizing i j with
  | nil => simp at hi
  | cons c l ih =>
    rw [List.nodup_cons] at hn
    cases h with
    | cons _ h =>
      have hb : b ∈ l := h.subset (by simp)
      have ha : a ∈ l := h.subset (by simp)
      cases i with
      | zero => simp at hi; subst hi; exact absurd hb hn.1
      | succ i =>
        cases j with
        | zero => simp at hj; subst hj; exact absurd ha hn.1
        | succ j =>
          have := ih hn.2 h (i := i) (j := j) (by simpa using hi) (by simpa using hj)
          omega
    | cons_cons _ h =>
      have ha : a ∈ l := h.subset (by simp)
      cases i with
      | zero =>
        cases j with
        | zero => simp at hj; subst hj; exact absurd ha hn.1
        | succ j => omega
      | succ i =>
        have : b ∈ l := List.mem_of_getElem? (by simpa using hi : l[i]? = some b)
        exact absurd this hn.1

/-- positions decrease down the stack -/
theorem Inv.stack_order {g : List (F × P)} {s : State F P} (h : Inv db strat g s)
    {p q : List (F × P)} (hs : s.stack = p ++ q) {a b : F × P} (ha : a ∈ p) (hb : b ∈ q)
    {i j : ℕ} (hi : s.pfs.get? a = some i) (hj : s.pfs.get? b = some j) : j < i := by
  have h1 : [a, b].Sublist s.stack := by
    rw [hs]
    have := List.Sublist.append (List.singleton_sublist.mpr ha) (List.singleton_sublist.mpr hb)
    simpa using this
  have h2 := h1.trans h.stk
  have h3 : [b, a].Sublist s.pfIndex := by
    have := List.reverse_sublist.mpr h2
    simpa using this
  exact idx_lt_of_sublist h.nodup h3 ((h.pfs _ _).mp hj) ((h.pfs _ _).mp hi)

theorem Inv.idx_inj {g : List (F × P)} {s : State F P} (h : Inv db strat g s)
    {a b : F × P} {i : ℕ} (hi : s.pfs.get? a = some i) (hj : s.pfs.get? b = some i) : a = b := by
  have h1 := (h.pfs _ _).mp hi
  have h2 := (h.pfs _ _).mp hj
  rw [h1] at h2
  exact Option.some.inj h2

/-- everything reachable from a labelled product flow is labelled -/
theorem Inv.black_reach {g : List (F × P)} {s : State F P} (h : Inv db strat g s)
    {v w : F × P} {n : ℕ} (hv : s.sccOf.get? v = some n) (hr : Reach db strat v w) :
    ∃ m, s.sccOf.get? w = some m := by
  induction hr with
  | refl => exact ⟨n, hv⟩
  | tail _ hd ih =>
    obtain ⟨m, hm⟩ := ih
    exact h.black _ _ hm _ hd

/- a path that starts inside a set and ends outside has an edge leaving the set -/
omit [DecidableEq F] [DecidableEq P] in
theorem exit_edge {S : F × P → Prop} {u w : F × P} (hr : Reach db strat u w)
    (hu : S u) (hw : ¬ S w) :
    ∃ a b, S a ∧ ¬ S b ∧ Depends db strat a b ∧ Reach db strat u a ∧ Reach db strat b w := by
  induction hr with
  | refl => exact absurd hu hw
  | tail hub hbc ih =>
    rename_i b c
    by_cases hb : S b
    · exact ⟨b, c, hb, hw, hbc, hub, Relation.ReflTransGen.refl⟩
    · obtain ⟨a, b', h1, h2, h3, h4, h5⟩ := ih hb
      exact ⟨a, b', h1, h2, h3, h4, h5.tail hbc⟩

theorem Inv.congr {g : List (F × P)} {s s' : State F P} (h : Inv db strat g s)
    (hs : SameGraph s s') (hlow : ∀ v, (∃ n, s'.low.get? v = some n) ↔ ∃ n, s.low.get? v = some n) :
    Inv db strat g s' := by
  obtain ⟨e1, e2, e3, e4, e5, e6⟩ := hs
  have hl : ∀ v, s'.low.get? v = none ↔ s.low.get? v = none := by
    intro v
    have := hlow v
    cases h1 : s'.low.get? v <;> cases h2 : s.low.get? v <;> simp [h1, h2] at this ⊢
  constructor
  · rw [e2]; exact h.nodup
  · rw [e1, e2]; exact h.pfs
  · rw [e2, e3]; exact h.stk
  · rw [e3, e5]; exact h.onStack
  · rw [e2, e3, e5]; exact h.offStack
  · rw [e2, e5]; exact h.sccVis
  · rw [e2]; intro v hv; exact (hlow v).mpr (h.lowVis v hv)
  · rw [e2]; intro v hv; exact (hl v).mpr (h.lowNew v hv)
  · rw [e3]; exact h.grays
  · rw [e2]; exact h.closed
  · rw [e5]; exact h.black
  · rw [e5]; exact h.scc
  · rw [e2, e5]; exact h.sccRoot
  · rw [e4, e5]; exact h.sccsMem
  · rw [e4, e5]; exact h.sccsDom
  · rw [e3]; exact h.reachUp
  · rw [e1, e3]; exact h.reachGray
  · rw [e6]; exact h.emis
  · rw [e2]; exact h.refd
  · rw [e4]; exact h.sccsKeys

/-! ### `terminate` agrees with the state-independent specification -/

theorem terminate_some {s : State F P} {g : List (F × P)} (h : Inv db strat g s) {x : Exch F P} {t : P}
    (ht : terminate db strat s.emissions x = .ok (some t)) : TermOf db strat x t := by
  unfold terminate at ht
  unfold TermOf
  cases hx : x.term with
  | some t' => rw [hx] at ht; simp at ht; left; rw [ht]
  | none =>
    rw [hx] at ht
    right
    refine ⟨rfl, ?_⟩
    simp only at ht
    split at ht
    · simp at ht
    · cases hl : db.terms x.flow x.dir with
      | nil => rw [hl] at ht; simp at ht
      | cons a l =>
        rw [hl] at ht
        cases l with
        | nil => simp at ht; simp [ht]
        | cons b l =>
          simp only at ht
          cases strat <;> simp at ht
          · simp [ht]
          · right; right
            refine ⟨rfl, ?_⟩
            rw [← ht]
            rw [List.getLast?_eq_some_getLast (by simp)]
            simp [List.getLast_cons]

omit [DecidableEq F] [DecidableEq P] in
theorem TermOf.unique {x : Exch F P} {t t' : P} (h : TermOf db strat x t) (h' : TermOf db strat x t') :
    t = t' := by
  unfold TermOf at h h'
  rcases h with h | ⟨h0, h⟩
  · rcases h' with h' | ⟨h0', _⟩
    · rw [h] at h'; exact Option.some.inj h'
    · rw [h] at h0'; simp at h0'
  · rcases h' with h' | ⟨_, h'⟩
    · rw [h0] at h'; simp at h'
    · rcases h with h | ⟨e, h⟩ | ⟨e, h⟩ <;> rcases h' with h' | ⟨e', h'⟩ | ⟨e', h'⟩
      all_goals first
        | (rw [h] at h'; simp at h'; exact h')
        | (rw [h'] at h; simp at h; exact h.symm)
        | (rw [e] at e'; simp at e')

theorem terminate_none {s : State F P} {g : List (F × P)} (h : Inv db strat g s) {x : Exch F P}
    (ht : terminate db strat s.emissions x = .ok none) :
    x.term = none ∧ ∀ t, ¬ TermOf db strat x t := by
  unfold terminate at ht
  cases hx : x.term with
  | some t' => rw [hx] at ht; simp at ht
  | none =>
    refine ⟨rfl, ?_⟩
    rw [hx] at ht
    simp only at ht
    split at ht
    · rename_i hm
      exact h.emis _ hm x hx rfl
    · intro t hT
      rcases hT with hT | ⟨_, hT⟩
      · rw [hx] at hT; simp at hT
      · cases hl : db.terms x.flow x.dir with
        | nil => rw [hl] at hT; simp at hT
        | cons a l =>
          rw [hl] at ht hT
          cases l with
          | nil => simp at ht
          | cons b l =>
            simp only at ht
            cases strat <;> simp at ht hT

end Engine
