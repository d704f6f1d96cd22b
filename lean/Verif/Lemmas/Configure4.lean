import Verif.Lemmas.Configure3

/-! A configuration applied again: one process, then the archive. -/

set_option linter.unusedSectionVars false

namespace Cfg
open Proc
variable {P F Q T : Type} [DecidableEq P] [DecidableEq F] [DecidableEq Q] [DecidableEq T]

/-- both phases that deal with references -/
def prefs (c : F → Q → ℚ) (pids : List P) (p : P) (S : List (P × F × Option Dir)) (U : List (Unset P F))
    (x : State F Q T) : Option (State F Q T) :=
  (pall (pset (known c) p) S x).bind (pall (punset (known c) pids p) U)

theorem prefs_eff {c : F → Q → ℚ} {pids : List P} {p : P} {S : List (P × F × Option Dir)} {U : List (Unset P F)}
    {x y : State F Q T} (h : Wf x) (hr : prefs c pids p S U x = some y) : Eff c x y := by
  unfold prefs at hr
  rw [Option.bind_eq_some_iff] at hr
  obtain ⟨w, h1, h2⟩ := hr
  have e1 := (sets_eff S h h1).1
  exact e1.trans (unsets_eff U e1.wf h2).1

theorem prefs_again {c0 c1 : F → Q → ℚ} {pids : List P} {p : P} {S : List (P × F × Option Dir)}
    {U : List (Unset P F)} {ov : Bool} {A : List (P × Q)} {x0 a1 x1 : State F Q T} (h : Wf x0)
    (hr : prefs c0 pids p S U x0 = some a1) (hA : pall (palloc (known c1) ov p) A a1 = some x1) :
    ∃ a2, prefs c1 pids p S U x1 = some a2 ∧ Same a2 x1 ∧ Eff c1 x1 a2 := by
  unfold prefs at hr
  rw [Option.bind_eq_some_iff] at hr
  obtain ⟨r, h1, h2⟩ := hr
  obtain ⟨e1, _, _⟩ := sets_eff S h h1
  obtain ⟨e2, r2, c2⟩ := unsets_eff U e1.wf h2
  obtain ⟨y, g1, g2, g3, g4, g5, _⟩ := allocs_eff c1 (ov := ov) (p := p) A e2.wf
  rw [hA] at g1
  simp at g1; subst g1
  have hkr : r.exchs.keys = x0.exchs.keys := e1.keys
  have hk1 : x1.exchs.keys = r.exchs.keys := g4.trans e2.keys
  have hx1 : x1.refs = r.refs.filter (alive pids p r.exchs.keys U) := g3.trans r2
  obtain ⟨b', k1, k2, k3, k4, k5⟩ := sets_again (c' := c1) (alive pids p r.exchs.keys U) S h g2 (hk1.trans hkr) h1
    (fun k hk => by rw [hx1, List.mem_filter] at hk; exact hk.1)
    (fun k hk ha => by rw [hx1, List.mem_filter]; exact ⟨hk, ha⟩)
  have hkb : b'.exchs.keys = r.exchs.keys := k2.keys.trans hk1
  obtain ⟨a2, m1, m2⟩ := unsets_again (c' := c1) U e1.wf k2.wf hkb h2 k4 (fun u hu k hk hk' =>
    clean_congr k3.symm _ (g5 k (c2 u hu k hk hk')))
  obtain ⟨e3, r3, _⟩ := unsets_eff U k2.wf m1
  refine ⟨a2, ?_, ⟨m2.trans k3, ?_, ?_⟩, k2.trans e3⟩
  · unfold prefs; rw [k1, Option.bind_some, m1]
  · rw [r3, hkb, k5, hx1, List.filter_filter]
    apply List.filter_congr
    intro k _; simp
  · rw [e3.allocQ, k2.allocQ]

theorem prefs_twin {c : F → Q → ℚ} {pids : List P} {p : P} {S : List (P × F × Option Dir)} {U : List (Unset P F)}
    {x z x' z' : State F Q T} (hx : Wf x) (hz : Wf z) (hs : Same x z)
    (h1 : prefs c pids p S U x = some x') (h2 : prefs c pids p S U z = some z') : Twin x z x' z' := by
  unfold prefs at h1 h2
  rw [Option.bind_eq_some_iff] at h1 h2
  obtain ⟨w, h1, h3⟩ := h1
  obtain ⟨v, h2, h4⟩ := h2
  have ht := sets_twin S hx hz hs h1 h2
  have hw := (sets_eff S hx h1).1.wf
  have hv := (sets_eff S hz h2).1.wf
  refine ht.trans hw hv (unsets_twin U hw hv ht.1 h3 h4) ?_
  rintro rfl
  rw [h3] at h4
  simpa using h4

/-- everything a configuration does to one process -/
def prun (c c' : F → Q → ℚ) (pids : List P) (p : P) (cfg : Config P F Q) (ov : Bool) (x : State F Q T) :
    Option (State F Q T) :=
  (prefs c pids p cfg.set_reference cfg.unset_reference x).bind
    (pall (palloc (known c') ov p) cfg.allocate_by_quantity)

/-- a process that is unallocated or whose recorded total is up to date -/
theorem prefs_fresh {c : F → Q → ℚ} {x a : State F Q T} (h : Wf x) (hf : Fresh c x) (he : Eff c x a)
    (hs : Same a x) : a = x := by
  refine hs.eq he.wf h ?_
  cases hq : x.allocQ with
  | none => exact he.unallocated hq
  | some q =>
    have hsum : x.allocSum ≠ 0 := h.aq (by rw [hq]; simp)
    have hqty : x.allocQty = some q := by unfold State.allocQty; rw [if_pos hsum, hq]
    have hx := hf q hqty
    rcases he.settled with rfl | hst
    · rfl
    · have hT := total_congr c q hs.bare hs.refs
      rcases hst q (hs.allocQ.trans hq) with h0 | h0
      · exfalso; apply hsum; rw [hx, ← hT, h0]
      · rw [h0, hT, hx]

theorem allocQty_eq {x : State F Q T} (h : Wf x) : x.allocQty = x.allocQ := by
  unfold State.allocQty
  split
  · rfl
  · rename_i h0
    by_contra hn
    exact h0 (h.aq (Ne.symm hn))

theorem isAllocated_congr (cf : F → Q → Option ℚ) {x z : State F Q T} (hx : Wf x) (hz : Wf z) (hs : Same x z)
    (k : Key F T) : isAllocated cf x k = isAllocated cf z k := by
  unfold isAllocated
  rw [allocQty_eq hx, allocQty_eq hz, hs.allocQ]
  split
  · rfl
  · have : ∀ w : State F Q T, (w.exchs.any fun kx => decide (kx.1 ∉ w.refs) && kx.2.vdict.has k) =
        (bare w).any fun b => decide (b.1 ∉ w.refs) && b.2.2.has k := by
      intro w; unfold bare; rw [List.any_map]; rfl
    rw [this, this, hs.bare, hs.refs]

theorem wipe_same {x z : State F Q T} (hs : Same x z) : Same (wipe x) (wipe z) := by
  have aux : ∀ (rs : List (Key F T)) {x z : State F Q T}, Same x z →
      Same (rs.foldl (fun x rf => removeAllocation rf x) x) (rs.foldl (fun x rf => removeAllocation rf x) z) := by
    intro rs
    induction rs with
    | nil => intro x z h; exact h
    | cons r rs ih =>
      intro x z h
      apply ih
      exact ⟨by rw [bare_mapDel, bare_mapDel, h.bare], h.refs, h.allocQ⟩
  unfold wipe
  rw [← hs.refs]
  exact aux _ hs

theorem settle_twin (c : F → Q → ℚ) (q : Q) {x z : State F Q T} (hs : Same x z) :
    Twin x z (settle c q x) (settle c q z) := by
  unfold settle
  rw [← total_congr c q hs.bare hs.refs]
  split
  · exact ⟨hs, Or.inr ⟨rfl, rfl⟩⟩
  · exact ⟨⟨hs.bare, hs.refs, rfl⟩, Or.inl rfl⟩

theorem palloc_twin {c : F → Q → ℚ} {ov : Bool} {p : P} {k : P × Q} {x z x' z' : State F Q T} (hx : Wf x) (hz : Wf z)
    (hs : Same x z) (h1 : palloc (known c) ov p k x = some x') (h2 : palloc (known c) ov p k z = some z') :
    Twin x z x' z' := by
  unfold palloc at h1 h2
  split at h1
  · rename_i hp
    rw [if_pos hp] at h2
    rw [allocByQ_known hx] at h1
    rw [allocByQ_known hz] at h2
    simp only [Option.some.injEq] at h1 h2
    subst h1 h2
    cases ov with
    | true =>
      simp only [if_true]
      have := settle_twin c k.2 (wipe_same hs)
      refine ⟨this.1, ?_⟩
      obtain ⟨_, _, _, g1, _⟩ := wipe_spec hx
      obtain ⟨_, _, _, g2, _⟩ := wipe_spec hz
      rw [← g1, ← g2]; exact this.2
    | false =>
      simp only [Bool.false_eq_true, if_false]
      have : (x.refs.any (isAllocated (known c) x)) = z.refs.any (isAllocated (known c) z) := by
        rw [hs.refs]
        congr 1
        funext k
        exact isAllocated_congr _ hx hz hs k
      rw [this]
      split
      · exact ⟨hs, Or.inr ⟨rfl, rfl⟩⟩
      · exact settle_twin c k.2 hs
  · rename_i hp
    rw [if_neg hp] at h2
    simp at h1 h2; subst h1 h2
    exact ⟨hs, Or.inr ⟨rfl, rfl⟩⟩

theorem allocs_twin {c : F → Q → ℚ} {ov : Bool} {p : P} (A : List (P × Q)) {x z x' z' : State F Q T} (hx : Wf x)
    (hz : Wf z) (hs : Same x z) (h1 : pall (palloc (known c) ov p) A x = some x')
    (h2 : pall (palloc (known c) ov p) A z = some z') : Twin x z x' z' := by
  induction A generalizing x z with
  | nil => simp [pall] at h1 h2; subst h1 h2; exact ⟨hs, Or.inr ⟨rfl, rfl⟩⟩
  | cons k S ih =>
    rw [pall_cons, Option.bind_eq_some_iff] at h1 h2
    obtain ⟨w, h1, h3⟩ := h1
    obtain ⟨v, h2, h4⟩ := h2
    have ht := palloc_twin hx hz hs h1 h2
    obtain ⟨w', q1, hw, _⟩ := palloc_eff c (ov := ov) (p := p) (k := k) hx
    obtain ⟨v', q2, hv, _⟩ := palloc_eff c (ov := ov) (p := p) (k := k) hz
    rw [h1] at q1; rw [h2] at q2
    simp at q1 q2; subst q1 q2
    refine ht.trans hw hv (ih hw hv ht.1 h3 h4) ?_
    rintro rfl
    rw [h3] at h4
    simpa using h4

/-- a configuration applied to a process for the second and the third time -/
theorem prun_again {c0 c1 : F → Q → ℚ} {pids : List P} {p : P} {cfg : Config P F Q} {ov : Bool}
    {x0 x1 : State F Q T} (h : Wf x0) (hr : prun c0 c1 pids p cfg ov x0 = some x1) :
    Wf x1 ∧ ∃ x2, prun c1 c1 pids p cfg ov x1 = some x2 ∧ Wf x2 ∧ Same x2 x1 ∧ (Fresh c1 x1 → x2 = x1) ∧
      (cfg.set_reference = [] → cfg.unset_reference = [] → x2 = x1) ∧
      prun c1 c1 pids p cfg ov x2 = some x2 := by
  unfold prun at hr
  rw [Option.bind_eq_some_iff] at hr
  obtain ⟨a1, h1, h2⟩ := hr
  have hwa1 := (prefs_eff h h1).wf
  obtain ⟨y, g1, hwx1, _⟩ := allocs_eff c1 (ov := ov) (p := p) cfg.allocate_by_quantity hwa1
  rw [h2] at g1
  simp at g1; subst g1
  have hidem := allocs_idem _ hwa1 h2
  obtain ⟨a2, k1, k2, k3⟩ := prefs_again h h1 h2
  obtain ⟨x2, m1, hwx2, _⟩ := allocs_eff c1 (ov := ov) (p := p) cfg.allocate_by_quantity k3.wf
  have ht := allocs_twin _ hwx1 k3.wf k2.symm hidem m1
  have hrun : prun c1 c1 pids p cfg ov x1 = some x2 := by unfold prun; rw [k1, Option.bind_some, m1]
  have heq : a2 = x1 → x2 = x1 := by
    rintro rfl
    rw [hidem] at m1
    simpa using m1.symm
  refine ⟨hwx1, x2, hrun, hwx2, ht.1.symm, fun hf => heq (prefs_fresh hwx1 hf k3 k2), ?_, ?_⟩
  · intro hS hU
    apply heq
    rw [hS, hU] at k1
    simpa [prefs, pall] using k1.symm
  · have third : x2.allocSum = x1.allocSum → prun c1 c1 pids p cfg ov x2 = some x2 := by
      intro hsum
      have : x2 = x1 := ht.1.symm.eq hwx2 hwx1 hsum
      rw [this] at hrun ⊢
      exact hrun
    rcases ht.2 with hsum | ⟨_, hsum⟩
    · exact third hsum.symm
    · have hx2 : x2 = a2 := (ht.1.symm.trans k2.symm).eq hwx2 k3.wf hsum
      have h1' : prefs c1 pids p cfg.set_reference cfg.unset_reference x1 = some a2 := k1
      obtain ⟨a3, n1, n2, n3⟩ := prefs_again hwx1 k1 m1
      have hpt := prefs_twin hwx1 hwx2 ht.1 k1 n1
      rcases hpt.2 with hs | ⟨hs, _⟩
      · have : a3 = a2 := (hpt.1.eq k3.wf n3.wf hs).symm
        unfold prun
        rw [n1, Option.bind_some, this, m1]
      · exact third (by rw [hsum, hs])

end Cfg
