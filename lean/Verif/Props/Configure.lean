import Mathlib.Data.List.Perm.Subperm
import Verif.Lemmas.Configure5

/-!
Properties C46 (applying a configuration is idempotent), C56 (unset_reference without a process) and C57 (the entries of
a configuration do what they say).
-/

set_option linter.unusedSectionVars false

namespace Cfg
open Proc
variable {P F Q T : Type} [DecidableEq P] [DecidableEq F] [DecidableEq Q] [DecidableEq T]

/-! ### specification -/

/-- archives: every process is the result of some history of calls; every characterization has at least one value
(`flow.add_characterization(q)` without a value makes one that has none); every flow is characterized by its
reference quantity -/
structure Valid (s : Arch P F Q T) : Prop where
  procs : ∀ p, ∃ str : T → T, Reach str (s.proc p)
  values : ∀ f q, s.chars f q ≠ some []
  reference : ∀ f, s.chars f (s.refq f) ≠ none

/-- the same, except perhaps for the totals recorded with the allocations -/
structure SameButTotals (s s' : Arch P F Q T) : Prop where
  pids : s'.pids = s.pids
  refq : s'.refq = s.refq
  chars : s'.chars = s.chars
  exchs : ∀ p, (s'.proc p).exchs = (s.proc p).exchs
  refs : ∀ p, (s'.proc p).refs = (s.proc p).refs
  allocQ : ∀ p, (s'.proc p).allocQ = (s.proc p).allocQ

theorem allocate_aq (cf : F → Q → Option ℚ) (q : Option Q) (x : State F Q T)
    (h : x.allocQ ≠ none → x.allocSum ≠ 0) :
    (allocate cf q x).state.allocQ ≠ none → (allocate cf q x).state.allocSum ≠ 0 := by
  unfold allocate
  split
  · intro h; exact absurd rfl h
  · split
    · exact h
    · dsimp only
      split
      · exact h
      · rename_i hT; intro _; exact hT

theorem reach_wf {str : T → T} {x : State F Q T} (h : Reach str x) : Wf x := by
  refine ⟨reach_inv h, ?_⟩
  induction h with
  | new => intro h; exact absurd rfl h
  | call cf op _ ih =>
    rename_i p _
    cases op with
    | addExchange f d r v t a =>
      obtain ⟨_, h2, h3⟩ := addExchange_alloc str f d r v t a p
      change (addExchange str f d r v t a p).state.allocQ ≠ none → (addExchange str f d r v t a p).state.allocSum ≠ 0
      rw [h2, h3]; exact ih
    | addReference f d =>
      obtain ⟨p1, ⟨r, hr, hst, _, _⟩, h1, h2, _⟩ := addReference_state cf f d p
      change (addReference cf f d p).state.allocQ ≠ none → (addReference cf f d p).state.allocSum ≠ 0
      rw [hst]
      have ih1 : p1.allocQ ≠ none → p1.allocSum ≠ 0 := by rw [h1, h2]; exact ih
      rcases hr with rfl | ⟨q, rfl, _⟩
      · exact ih1
      · exact allocate_aq cf (some q) p1 ih1
    | removeReference f d =>
      change (removeReference cf f d p).state.allocQ ≠ none → (removeReference cf f d p).state.allocSum ≠ 0
      rcases removeReference_eq cf f d p with ⟨_, h2⟩ | ⟨e, _, ⟨_, h2⟩ | ⟨q, _, h2⟩⟩
      · rw [h2]; exact ih
      · rw [h2]; exact ih
      · rw [h2]; exact allocate_aq cf (some q) _ ih
    | allocate q => exact allocate_aq cf q p ih
    | removeAllocation r => exact ih

/-! ### C46 -/

/-- C46, what holds of every configuration and every archive: if a configuration has been applied without an error,
then it can be applied again without an error; that changes nothing but, perhaps, the totals recorded with the
allocations of some processes, namely of processes for which the recorded total was not the total of their
references any more; and from then on it changes nothing at all. -/
theorem config_again_partial {cfg : Config P F Q} {ov : Bool} {s s1 : Arch P F Q T} (hs : Valid s)
    (h : applyConfig cfg ov s = .ok () s1) :
    ∃ s2, applyConfig cfg ov s1 = .ok () s2 ∧ SameButTotals s1 s2 ∧
      (∀ p, Fresh (factor s1) (s1.proc p) → s2.proc p = s1.proc p) ∧
      applyConfig cfg ov s2 = .ok () s2 := by
  obtain ⟨h1, h2, h3⟩ := (apply_iff hs.values hs.reference).mp h
  have hwf : ∀ p, Wf (s.proc p) := fun p => by obtain ⟨str, hr⟩ := hs.procs p; exact reach_wf hr
  have hi : s1.pids = s.pids := by rw [h1]
  have hrq : s1.refq = s.refq := by rw [h1]
  obtain ⟨hv1, hq1⟩ := charsRun_values _ hs.reference hs.values h2
  have hq1' : ∀ f, s1.chars f (s1.refq f) ≠ none := by rw [hrq]; exact hq1
  have hidem := charsRun_idem _ hs.reference h2
  rw [← hrq] at hidem
  have key : ∀ p, ∃ x2, prun (factor s1) (factor s1) s1.pids p cfg ov (s1.proc p) = some x2 ∧ Wf (s1.proc p) ∧
      Wf x2 ∧ Same x2 (s1.proc p) ∧ (Fresh (factor s1) (s1.proc p) → x2 = s1.proc p) ∧
      prun (factor s1) (factor s1) s1.pids p cfg ov x2 = some x2 := by
    intro p
    obtain ⟨g0, x2, g1, g2, g3, g4, _, g6⟩ := prun_again (hwf p) (h3 p)
    rw [hi]
    exact ⟨x2, g1, g0, g2, g3, g4, g6⟩
  choose x2 k1 k0 k2 k3 k4 k6 using key
  refine ⟨{ s1 with proc := x2 }, ?_, ⟨rfl, rfl, rfl, ?_, fun p => (k3 p).refs, fun p => (k3 p).allocQ⟩, k4, ?_⟩
  · exact (apply_iff hv1 hq1').mpr ⟨rfl, hidem, k1⟩
  · intro p
    change (x2 p).exchs = _
    rw [exchs_eq (k2 p).inv, exchs_eq (k0 p).inv, (k3 p).bare, (k3 p).refs]
  · exact (apply_iff (s := { s1 with proc := x2 }) hv1 hq1').mpr ⟨rfl, hidem, k6⟩

/-- C46: applying a configuration is idempotent if, afterwards, the total recorded with each allocation is the total
of the references. -/
theorem config_idempotent_partial {cfg : Config P F Q} {ov : Bool} {s s1 : Arch P F Q T} (hs : Valid s)
    (h : applyConfig cfg ov s = .ok () s1) (hf : ∀ p, Fresh (factor s1) (s1.proc p)) :
    applyConfig cfg ov s1 = .ok () s1 := by
  obtain ⟨s2, h1, h2, h3, _⟩ := config_again_partial hs h
  rw [h1]
  congr 1
  have : s2.proc = s1.proc := funext fun p => h3 p (hf p)
  have a := h2.pids
  have b := h2.refq
  have c := h2.chars
  cases s1; cases s2
  simp only at this a b c
  subst this a b c
  rfl

/-- C46 for configurations that do not set or unset references: idempotent in every archive. -/
theorem config_idempotent_no_references {cfg : Config P F Q} {ov : Bool} {s s1 : Arch P F Q T} (hs : Valid s)
    (hS : cfg.set_reference = []) (hU : cfg.unset_reference = [])
    (h : applyConfig cfg ov s = .ok () s1) : applyConfig cfg ov s1 = .ok () s1 := by
  obtain ⟨h1, h2, h3⟩ := (apply_iff hs.values hs.reference).mp h
  have hwf : ∀ p, Wf (s.proc p) := fun p => by obtain ⟨str, hr⟩ := hs.procs p; exact reach_wf hr
  have hi : s1.pids = s.pids := by rw [h1]
  have hrq : s1.refq = s.refq := by rw [h1]
  obtain ⟨hv1, hq1⟩ := charsRun_values _ hs.reference hs.values h2
  have hq1' : ∀ f, s1.chars f (s1.refq f) ≠ none := by rw [hrq]; exact hq1
  have hidem := charsRun_idem _ hs.reference h2
  rw [← hrq] at hidem
  refine (apply_iff hv1 hq1').mpr ⟨rfl, hidem, fun p => ?_⟩
  obtain ⟨_, x2, g1, _, _, _, g5, _⟩ := prun_again (hwf p) (h3 p)
  rw [hi, g1, g5 hS hU]

/-- C46: when the recorded totals are those of the references. Without `overwrite`, if the archive was up to date,
the configuration leaves the characterizations as they are, and the references of each allocated process still have
a total other than zero, then applying the configuration is idempotent. -/
theorem config_idempotent_up_to_date_partial {cfg : Config P F Q} {s s1 : Arch P F Q T} (hs : Valid s)
    (h : applyConfig cfg false s = .ok () s1) (hf : ∀ p, Fresh (factor s) (s.proc p)) (hc : s1.chars = s.chars)
    (hT : ∀ p q, (s1.proc p).allocQ = some q → refTotal (factor s) q (s1.proc p) ≠ 0) :
    applyConfig cfg false s1 = .ok () s1 := by
  apply config_idempotent_partial hs h
  have hfac : factor s1 = factor s := by unfold factor; rw [hc]
  intro p
  rw [hfac]
  obtain ⟨_, _, h3⟩ := (apply_iff hs.values hs.reference).mp h
  have hw : Wf (s.proc p) := by obtain ⟨str, hr⟩ := hs.procs p; exact reach_wf hr
  have h4 := h3 p
  rw [hfac] at h4
  unfold prun at h4
  rw [Option.bind_eq_some_iff] at h4
  obtain ⟨a, h5, h6⟩ := h4
  have he := prefs_eff hw h5
  obtain ⟨y, g1, _, g3, _, _, g6, _, g8⟩ := allocs_eff (factor s) (ov := false) (p := p) cfg.allocate_by_quantity he.wf
  rw [h6] at g1
  simp only [Option.some.injEq] at g1; subst g1
  have hb : bare (s1.proc p) = bare a := g8 fun h => by simp at h
  intro q hq
  have hq' := allocQty_allocQ hq
  rcases g6 with ⟨g6, g7⟩ | ⟨q', g6, g7⟩
  · have hqa : a.allocQ = some q := g6.symm.trans hq'
    rw [g7, total_congr (factor s) q hb g3]
    rcases he.settled with rfl | hst
    · apply hf p q
      rw [allocQty_eq he.wf, hqa]
    · rcases hst q hqa with h0 | h0
      · exfalso
        apply hT p q hq'
        rw [total_congr (factor s) q hb g3, h0]
      · exact h0
  · rw [hq'] at g6
    simp only [Option.some.injEq] at g6
    subst g6
    exact g7

/-! ### C56 -/

/-- `p` has a reference exchange of this flow and direction -/
def IsRef (f : F) (d : Dir) (s : Arch P F Q T) (p : P) : Prop := ∃ k ∈ (s.proc p).refs, k.flow = f ∧ k.dir = d

/-- C56 for a process: after a successful call with a process, the exchange is not a reference, and the references
of all other processes and the other references of this one are as before. -/
theorem unset_one {s s1 : Arch P F Q T} (hs : Valid s) {p : P} {f : F} {d : Dir}
    (h : unsetReference (.one p f (some d)) s = .ok () s1) :
    ¬ IsRef f d s1 p ∧ (∀ p', p' ≠ p → s1.proc p' = s.proc p') ∧
      ∀ k, ¬ (k.flow = f ∧ k.dir = d) → (k ∈ (s1.proc p).refs ↔ k ∈ (s.proc p).refs) := by
  obtain ⟨h1, h2⟩ := (proj_unset _ _ _).mp h
  have hw : Wf (s.proc p) := by obtain ⟨str, hr⟩ := hs.procs p; exact reach_wf hr
  have h3 := h2 p
  dsimp only at h3
  rw [factor_known hs.values] at h3
  obtain ⟨_, h4, _⟩ := punset_eff hw h3
  refine ⟨?_, ?_, ?_⟩
  · rintro ⟨k, hk, rfl, rfl⟩
    rw [h4, List.mem_filter] at hk
    have ht := hw.inv.term k hk.1
    have hk2 := hk.2
    simp only [hits, resolveK] at hk2
    obtain ⟨f, d, t⟩ := k
    simp only at ht
    subst ht
    simp at hk2
  · intro p' hp
    have := h2 p'
    simp only [punset] at this
    rw [if_neg (Ne.symm hp)] at this
    simpa using this.symm
  · intro k hk
    rw [h4, List.mem_filter]
    constructor
    · exact fun h => h.1
    · intro hm
      refine ⟨hm, ?_⟩
      simp only [hits, resolveK]
      rw [Bool.not_eq_true', Bool.and_eq_false_iff]
      right
      rw [decide_eq_false_iff_not]
      rintro rfl
      exact hk ⟨rfl, rfl⟩

/-- C57, set_reference: after a successful call the exchange is a reference, and the references of all other
processes and the other references of this one are as before. -/
theorem set_one {s s1 : Arch P F Q T} (hs : Valid s) {p : P} {f : F} {d : Dir}
    (h : setReference (p, f, some d) s = .ok () s1) :
    IsRef f d s1 p ∧ (∀ p', p' ≠ p → s1.proc p' = s.proc p') ∧
      ∀ k, ¬ (k.flow = f ∧ k.dir = d) → (k ∈ (s1.proc p).refs ↔ k ∈ (s.proc p).refs) := by
  obtain ⟨h1, h2⟩ := (proj_set _ _ _).mp h
  have hw : Wf (s.proc p) := by obtain ⟨str, hr⟩ := hs.procs p; exact reach_wf hr
  have h3 := h2 p
  dsimp only at h3
  rw [factor_known hs.values] at h3
  obtain ⟨_, _, h4⟩ := pset_eff hw h3
  have h5 : (s1.proc p).refs = PySet.add (s.proc p).refs ⟨f, d, none⟩ := by
    rcases h4 with ⟨hn, _⟩ | ⟨d', _, hd, h4⟩
    · exact absurd rfl hn
    · simp only [resolveK, Except.ok.injEq] at hd
      rw [h4, hd]
  refine ⟨⟨⟨f, d, none⟩, by rw [h5, PySet.mem_add]; exact Or.inr rfl, rfl, rfl⟩, ?_, ?_⟩
  · intro p' hp
    have := h2 p'
    simp only [pset] at this
    rw [if_neg (Ne.symm hp)] at this
    simpa using this.symm
  · intro k hk
    rw [h5, PySet.mem_add]
    constructor
    · rintro (h | rfl)
      · exact h
      · exact absurd ⟨rfl, rfl⟩ hk
    · exact Or.inl

/-- C57, set_reference and unset_reference without a direction: if the process has exactly one exchange of the flow
without a termination, its direction is meant; otherwise the call raises. -/
theorem set_undirected (s : Arch P F Q T) (p : P) (f : F) :
    (∀ d, (∀ k : Key F T, k ∈ (s.proc p).exchs.keys → k.flow = f → k.term = none → k.dir = d) →
        (∃ k : Key F T, k ∈ (s.proc p).exchs.keys ∧ k.flow = f ∧ k.term = none) → (s.proc p).exchs.keys.Nodup →
        setReference (p, f, none) s = setReference (p, f, some d) s ∧
        unsetReference (.one p f none) s = unsetReference (.one p f (some d)) s) ∧
      ((∀ k : Key F T, k ∈ (s.proc p).exchs.keys → k.flow = f → k.term ≠ none) →
        (setReference (p, f, none) s).error? = some (.proc .keyError)) ∧
      ((⟨f, .input, none⟩ : Key F T) ∈ (s.proc p).exchs.keys → (⟨f, .output, none⟩ : Key F T) ∈ (s.proc p).exchs.keys →
        (s.proc p).exchs.keys.Nodup → (setReference (p, f, none) s).error? = some (.proc .valueError)) := by
  have hmem : ∀ k : Key F T, k ∈ ((s.proc p).exchs.keys.filter fun k => decide (k.flow = f) && decide (k.term = none)) ↔
      (k ∈ (s.proc p).exchs.keys ∧ k.flow = f ∧ k.term = none) := by intro k; rw [List.mem_filter]; simp
  refine ⟨?_, ?_, ?_⟩
  · intro d hd ⟨k, hk1, hk2, hk3⟩ hn
    have hres : checkDirection (s.proc p) f = .ok d := by
      unfold checkDirection
      have hnd := hn.filter fun k => decide (k.flow = f) && decide (k.term = none)
      split
      · rename_i k1 k2 he
        have m1 := (hmem k1).mp (by rw [he]; simp)
        have m2 := (hmem k2).mp (by rw [he]; simp)
        rw [he] at hnd
        have : k1 = k2 := by
          have e1 := hd k1 m1.1 m1.2.1 m1.2.2
          have e2 := hd k2 m2.1 m2.2.1 m2.2.2
          cases k1; cases k2; simp_all
        simp [this] at hnd
      · rename_i he
        have := (hmem k).mpr ⟨hk1, hk2, hk3⟩
        rw [he] at this; simp at this
      · rename_i k1 ks _ he
        have m1 := (hmem k1).mp (by rw [he]; simp)
        rw [hd k1 m1.1 m1.2.1 m1.2.2]
    constructor
    · simp only [setReference, onProc, addRef, resolve, hres]
    · simp only [unsetReference, onProc, remRef, resolve, hres]
  · intro hno
    have hres : checkDirection (s.proc p) f = .error .keyError := by
      unfold checkDirection
      have : ((s.proc p).exchs.keys.filter fun k => decide (k.flow = f) && decide (k.term = none)) = [] := by
        rw [List.eq_nil_iff_forall_not_mem]
        intro k hk
        obtain ⟨h1, h2, h3⟩ := (hmem k).mp hk
        exact hno k h1 h2 h3
      rw [this]
    simp only [setReference, onProc, addRef, resolve, hres]
    rfl
  · intro h1 h2 hn
    have hres : checkDirection (s.proc p) f = .error .valueError := by
      unfold checkDirection
      have hnd := hn.filter fun k => decide (k.flow = f) && decide (k.term = none)
      have m1 := (hmem ⟨f, .input, none⟩).mpr ⟨h1, rfl, rfl⟩
      have m2 := (hmem ⟨f, .output, none⟩).mpr ⟨h2, rfl, rfl⟩
      have hall : ∀ k : Key F T, k ∈ ((s.proc p).exchs.keys.filter fun k => decide (k.flow = f) && decide (k.term = none)) →
          k = ⟨f, .input, none⟩ ∨ k = ⟨f, .output, none⟩ := by
        intro k hk
        obtain ⟨_, h4, h5⟩ := (hmem k).mp hk
        obtain ⟨kf, kd, kt⟩ := k
        cases kd <;> simp_all
      have hsub : ((s.proc p).exchs.keys.filter fun k => decide (k.flow = f) && decide (k.term = none)).length = 2 := by
        apply le_antisymm
        · have := List.subperm_of_subset hnd (l₂ := [(⟨f, .input, none⟩ : Key F T), ⟨f, .output, none⟩]) (by
            intro k hk; simpa using hall k hk)
          simpa using this.length_le
        · have : ([(⟨f, .input, none⟩ : Key F T), ⟨f, .output, none⟩] : List (Key F T)).Nodup := by simp
          have := List.subperm_of_subset this (l₂ := ((s.proc p).exchs.keys.filter fun k => decide (k.flow = f) && decide (k.term = none))) (by
            intro k hk
            simp only [List.mem_cons, List.not_mem_nil, or_false] at hk
            rcases hk with rfl | rfl
            · exact m1
            · exact m2)
          simpa using this.length_le
      split
      · rfl
      · rename_i he; rw [he] at hsub; simp at hsub
      · rename_i k ks hne he
        rw [he] at hsub
        simp only [List.length_cons] at hsub
        match ks, hsub with
        | [b], _ => exact (hne b rfl).elim
    simp only [setReference, onProc, addRef, resolve, hres]
    rfl

/-- C57, characterize_flow: a flow not yet characterized, or one characterized by other than its reference quantity
when overwriting, gets the given factor; a flow already characterized keeps its factors when not overwriting; its
reference quantity cannot be overwritten; and nothing else changes. -/
theorem characterize_one (s : Arch P F Q T) (ov : Bool) (f : F) (q : Q) (v : ℚ) :
    (∀ s1, characterizeFlow ov (f, q, v) s = .ok () s1 →
      s1 = { s with chars := s1.chars } ∧
      (∀ f' q', ¬ (f' = f ∧ q' = q) → s1.chars f' q' = s.chars f' q') ∧
      (s.chars f q ≠ none ∧ ov = false → s1.chars f q = s.chars f q) ∧
      (s.chars f q = none ∨ ov = true → cfOf s1.chars f q = some v)) ∧
    (characterizeFlow ov (f, q, v) s = .err .deleteReference s ↔
      (s.chars f q ≠ none ∧ ov = true ∧ q = s.refq f)) := by
  unfold characterizeFlow setChars
  cases hc : s.chars f q with
  | none =>
    simp only [Option.isSome_none, Bool.false_eq_true, if_false, Out.ok.injEq, true_and]
    refine ⟨?_, by simp⟩
    rintro s1 rfl
    refine ⟨rfl, ?_, by simp, by simp [cfOf, Dict.get?]⟩
    intro f' q' hn; simp [hn]
  | some d =>
    simp only [Option.isSome_some, if_true]
    cases ov with
    | false =>
      simp only [Bool.false_eq_true, if_false, Out.ok.injEq, true_and]
      refine ⟨?_, by simp⟩
      rintro s1 rfl
      exact ⟨rfl, fun _ _ _ => rfl, fun _ => hc, by simp⟩
    | true =>
      simp only [if_true]
      by_cases hq : q = s.refq f
      · simp [hq]
      · simp only [if_neg hq, Out.ok.injEq, true_and]
        refine ⟨?_, by simp [hq]⟩
        rintro s1 rfl
        refine ⟨rfl, ?_, by simp, by simp [cfOf, Dict.get?]⟩
        intro f' q' hn; simp [hn]

/-- an allocation is detected -/
def Detected (s : Arch P F Q T) (p : P) : Prop :=
  ∃ r ∈ (s.proc p).refs, (∃ q, (s.proc p).allocQty = some q ∧ factor s r.flow q ≠ 0) ∨
    ((s.proc p).allocQty = none ∧ ∃ kx ∈ (s.proc p).exchs, kx.1 ∉ (s.proc p).refs ∧ kx.2.vdict.has r = true)

/-- C57, allocate_by_quantity, without overwriting: a process for which an allocation is detected is left alone;
otherwise it is allocated by the quantity, with the total of its references, unless that is zero. Other processes are
left alone. -/
theorem allocate_one {s : Arch P F Q T} (hs : Valid s) (p : P) (q : Q) :
    ∃ s1, allocateByQuantity false (p, q) s = .ok () s1 ∧ (∀ p', p' ≠ p → s1.proc p' = s.proc p') ∧
      (Detected s p → s1.proc p = s.proc p) ∧
      (¬ Detected s p → (s1.proc p).refs = (s.proc p).refs ∧ (s1.proc p).exchs = (s.proc p).exchs ∧
        (refTotal (factor s) q (s.proc p) ≠ 0 →
          (s1.proc p).allocQty = some q ∧ (s1.proc p).allocSum = refTotal (factor s) q (s.proc p))) := by
  have hw : Wf (s.proc p) := by obtain ⟨str, hr⟩ := hs.procs p; exact reach_wf hr
  have hk := allocByQ_known (c := factor s) (ov := false) (q := q) hw
  rw [← factor_known hs.values] at hk
  simp only [Bool.false_eq_true, if_false] at hk
  have hdet : (s.proc p).refs.any (isAllocated (cfOf s.chars) (s.proc p)) = true ↔ Detected s p := by
    rw [List.any_eq_true]
    unfold Detected
    constructor
    · rintro ⟨r, h1, h2⟩
      refine ⟨r, h1, ?_⟩
      unfold isAllocated at h2
      split at h2
      · rename_i q' hq'
        left
        refine ⟨q', hq', ?_⟩
        rw [factor_known hs.values] at h2
        simpa [known] using h2
      · rename_i hq'
        right
        refine ⟨hq', ?_⟩
        rw [List.any_eq_true] at h2
        obtain ⟨kx, h3, h4⟩ := h2
        simp only [Bool.and_eq_true, decide_eq_true_eq] at h4
        exact ⟨kx, h3, h4⟩
    · rintro ⟨r, h1, h2⟩
      refine ⟨r, h1, ?_⟩
      unfold isAllocated
      rcases h2 with ⟨q', hq', h2⟩ | ⟨hq', kx, h3, h4⟩
      · rw [hq']
        simp only
        rw [factor_known hs.values]
        simpa [known] using h2
      · rw [hq']
        simp only
        rw [List.any_eq_true]
        exact ⟨kx, h3, by simpa using h4⟩
  cases ho : allocByQ (cfOf s.chars) false q (s.proc p) with
  | err e x => rw [ho] at hk; simp [ok?] at hk
  | ok a x =>
    rw [ho] at hk
    simp only [ok?, Option.some.injEq] at hk
    refine ⟨{ s with proc := Function.update s.proc p x }, ?_, ?_, ?_, ?_⟩
    · simp only [allocateByQuantity, onProc, ho]
    · intro p' hp; exact Function.update_of_ne hp _ _
    · intro hd
      rw [if_pos (hdet.mpr hd)] at hk
      simp only [Function.update_self, hk]
    · intro hd
      rw [if_neg (fun h => hd (hdet.mp h))] at hk
      simp only [Function.update_self]
      rw [hk]
      obtain ⟨_, g2, _, _⟩ := settle_spec (factor s) q hw
      refine ⟨g2, ?_, ?_⟩
      · unfold settle; split <;> rfl
      · intro hT
        unfold settle
        rw [if_neg hT]
        exact ⟨by simp [State.allocQty, hT], rfl⟩

/-- C57, allocate_by_quantity, overwriting: no allocated values for the references remain, and the process is
allocated by the quantity with the total of its references, unless that is zero. -/
theorem allocate_over {s : Arch P F Q T} (hs : Valid s) (p : P) (q : Q) :
    ∃ s1, allocateByQuantity true (p, q) s = .ok () s1 ∧ (∀ p', p' ≠ p → s1.proc p' = s.proc p') ∧
      (s1.proc p).refs = (s.proc p).refs ∧ (s1.proc p).exchs.keys = (s.proc p).exchs.keys ∧
      (∀ k e, (s1.proc p).exchs.get? k = some e → ∀ r ∈ (s1.proc p).refs, e.vdict.has r = false) ∧
      (refTotal (factor s) q (s1.proc p) ≠ 0 →
        (s1.proc p).allocQty = some q ∧ (s1.proc p).allocSum = refTotal (factor s) q (s1.proc p)) := by
  have hw : Wf (s.proc p) := by obtain ⟨str, hr⟩ := hs.procs p; exact reach_wf hr
  have hk := allocByQ_known (c := factor s) (ov := true) (q := q) hw
  rw [← factor_known hs.values] at hk
  simp only [if_true] at hk
  cases ho : allocByQ (cfOf s.chars) true q (s.proc p) with
  | err e x => rw [ho] at hk; simp [ok?] at hk
  | ok a x =>
    rw [ho] at hk
    simp only [ok?, Option.some.injEq] at hk
    obtain ⟨h1, h2, _, _, h5, _, h7, _⟩ := wipe_spec hw
    obtain ⟨g1, g2, g3, _⟩ := settle_spec (factor s) q h1
    refine ⟨{ s with proc := Function.update s.proc p x }, ?_, ?_, ?_, ?_, ?_, ?_⟩
    · simp only [allocateByQuantity, onProc, ho]
    · intro p' hp; exact Function.update_of_ne hp _ _
    · simp only [Function.update_self, hk]; exact g2.trans h2
    · simp only [Function.update_self, hk]; exact (keys_eq g3).trans h5
    · simp only [Function.update_self, hk]
      intro k e he r hr
      have hm := Dict.mem_of_get?_eq_some _ he
      have hcl := h7 r (by rw [← g2]; exact hr)
      have := clean_congr g3.symm _ hcl (k, e.value, e.vdict) (by
        unfold bare; exact List.mem_map.mpr ⟨(k, e), hm, rfl⟩)
      by_contra hc
      exact this ((Dict.has_iff _ _).mp (by simpa using hc))
    · simp only [Function.update_self, hk]
      intro hT
      rw [total_congr (factor s) q g3 g2] at hT ⊢
      unfold settle
      rw [if_neg hT]
      exact ⟨by simp [State.allocQty, hT], rfl⟩

/-- C56 without a direction: nothing happens at all. -/
theorem unset_anywhere_undirected {s : Arch P F Q T} (f : F) :
    unsetReference (.anywhere f none) s = .ok () s := by
  simp only [unsetReference]
  rw [sweep_iff]
  refine ⟨rfl, fun p _ => ?_⟩
  unfold sweepProc
  have : ((s.proc p).refs.find? fun k => decide (k.flow = f) && decide (some k.dir = (none : Option Dir))) = none := by
    rw [List.find?_eq_none]; simp
  rw [this]

/-- the references of a process but those of a flow and direction -/
def othersKept (f : F) (d : Dir) (x y : State F Q T) : Prop :=
  ∀ k, k ∈ y.refs ↔ (k ∈ x.refs ∧ ¬ (k.flow = f ∧ k.dir = d))

theorem sweep_spec {s : Arch P F Q T} (hs : Valid s) (f : F) (d : Dir) (ps : List P) :
    (sweep f (some d) ps s = .ok () s ∧ ∀ p ∈ ps, ¬ IsRef f d s p) ∨
    ∃ p s1, p ∈ ps ∧ IsRef f d s p ∧ sweep f (some d) ps s = .err .runtimeError s1 ∧
      othersKept f d (s.proc p) (s1.proc p) ∧ (∀ p', p' ≠ p → s1.proc p' = s.proc p') ∧
      s1 = { s with proc := s1.proc } := by
  induction ps with
  | nil => left; exact ⟨rfl, by simp⟩
  | cons p ps ih =>
    by_cases hp : IsRef f d s p
    · right
      have hw : Wf (s.proc p) := by obtain ⟨str, hr⟩ := hs.procs p; exact reach_wf hr
      have hsome : ∃ k, ((s.proc p).refs.find? fun k => decide (k.flow = f) && decide (some k.dir = some d)) = some k := by
        rw [← Option.isSome_iff_exists, List.find?_isSome]
        obtain ⟨k, h1, h2, h3⟩ := hp
        exact ⟨k, h1, by simp [h2, h3]⟩
      obtain ⟨k, hk⟩ := hsome
      have hkm := List.mem_of_find?_eq_some hk
      have hkp := List.find?_some hk
      simp only [Bool.and_eq_true, decide_eq_true_eq, Option.some.injEq] at hkp
      have hterm := hw.inv.term k hkm
      obtain ⟨e, he, _⟩ := (hw.inv.refs k).mp hkm
      have hkk : (⟨k.flow, k.dir, none⟩ : Key F T) = k := by cases k; simp_all
      obtain ⟨y, hy⟩ := rem_ok (factor s) hw (f := k.flow) (d := k.dir) (by
        rw [hkk]; exact (Dict.mem_keys_iff _ _).mpr ⟨e, he⟩)
      obtain ⟨_, _, _, hr, _⟩ := rem_eff hw hy
      have hcf := factor_known hs.values
      refine ⟨p, { s with proc := Function.update s.proc p y }, List.mem_cons_self, hp, ?_, ?_, ?_, rfl⟩
      · simp only [sweep, sweepProc, hk]
        have : removeReference (cfOf s.chars) k.flow k.dir (s.proc p) = .ok () y := by
          rw [hcf]
          revert hy
          cases removeReference (known (factor s)) k.flow k.dir (s.proc p) with
          | ok a x => intro hy; simp only [ok?, Option.some.injEq] at hy; rw [hy]
          | err e x => intro hy; simp [ok?] at hy
        rw [this]
        rfl
      · intro k'
        simp only [Function.update_self]
        rw [hr, List.mem_filter, hkk]
        simp only [decide_eq_true_eq]
        constructor
        · rintro ⟨h1, h2⟩
          refine ⟨h1, ?_⟩
          rintro ⟨h3, h4⟩
          apply h2
          have := hw.inv.term k' h1
          cases k; cases k'; simp_all
        · rintro ⟨h1, h2⟩
          refine ⟨h1, ?_⟩
          rintro rfl
          exact h2 hkp
      · intro p' hp'
        exact Function.update_of_ne hp' _ _
    · have hnone : sweepProc (cfOf s.chars) f (some d) (s.proc p) = none := by
        by_contra hc
        have := (sweepProc_isSome _ _ _ _).mp (Option.isSome_iff_ne_none.mpr hc)
        obtain ⟨k, h1, h2, h3⟩ := this
        exact hp ⟨k, h1, h2, by simpa using h3⟩
      have hsw : sweep f (some d) (p :: ps) s = sweep f (some d) ps s := by
        simp only [sweep, hnone]
      rw [hsw]
      rcases ih with ⟨h1, h2⟩ | ⟨p', s1, h1, h2, h3, h4⟩
      · left
        refine ⟨h1, ?_⟩
        intro p' hp'
        rcases List.mem_cons.mp hp' with rfl | hp'
        · exact hp
        · exact h2 p' hp'
      · right; exact ⟨p', s1, List.mem_cons_of_mem _ h1, h2, h3, h4⟩

/-- C56, what the call does instead: if no process has such a reference it does nothing; otherwise it raises
RuntimeError, having unmarked the exchange in one process only. -/
theorem unset_anywhere_partial {s : Arch P F Q T} (hs : Valid s) (f : F) (d : Dir) :
    (unsetReference (.anywhere f (some d)) s = .ok () s ∧ ∀ p ∈ s.pids, ¬ IsRef f d s p) ∨
    ∃ p s1, p ∈ s.pids ∧ IsRef f d s p ∧ unsetReference (.anywhere f (some d)) s = .err .runtimeError s1 ∧
      othersKept f d (s.proc p) (s1.proc p) ∧ (∀ p', p' ≠ p → s1.proc p' = s.proc p') ∧
      s1 = { s with proc := s1.proc } := sweep_spec hs f d s.pids

/-! ### instances -/

theorem ok_of {σ ε : Type} {r : Out σ ε Unit} (h : r.value? = some ()) : r = .ok () r.state := by
  cases r with
  | ok a s => rfl
  | err e s => simp [Out.value?] at h

theorem err_of {σ ε : Type} {r : Out σ ε Unit} {e : ε} (h : r.error? = some e) : r = .err e r.state := by
  cases r with
  | ok a s => simp [Out.error?] at h
  | err e s => simp [Out.error?] at h; rw [h]; rfl

/-- factors of the three flows 0, 1, 2 by quantity 0 (their reference quantity): 1; by quantity 1: 2 for flow 0 -/
def exChars : ℕ → ℕ → Option (Dict String ℚ) := fun f q =>
  if q = 0 then some [("GLO", 1)] else if f = 0 ∧ q = 1 then some [("GLO", 2)] else none

/-- co-products 0 (amount 2) and 1 (amount 3), an input 2; 0 is the reference -/
def exOps2 : List (Op ℕ ℕ ℕ) :=
  [.addExchange 0 .output none (some 2) none false, .addExchange 1 .output none (some 3) none false,
   .addExchange 2 .input none (some 16) none false, .addReference 0 .output]

def exProc : State ℕ ℕ ℕ := runOps id (cfOf exChars) exOps2 {}

/-- the same, allocated by quantity 1 -/
def exAlloc : State ℕ ℕ ℕ := runOps id (cfOf exChars) (exOps2 ++ [.allocate (some 1)]) {}

def exArch (x : State ℕ ℕ ℕ) : Arch ℕ ℕ ℕ ℕ := ⟨[0, 1], fun _ => x, fun _ => 0, exChars⟩

theorem exArch_valid (ops : List (Op ℕ ℕ ℕ)) : Valid (exArch (runOps id (cfOf exChars) ops {})) := by
  refine ⟨fun p => ⟨id, reach_runOps _ _ _ .new⟩, ?_, ?_⟩
  · intro f q
    simp only [exArch, exChars]
    split
    · simp
    · split <;> simp
  · intro f; simp [exArch, exChars]

/-- make co-product 1 a reference of process 0, characterize it, and allocate by quantity 1 -/
def exCfg : Config ℕ ℕ ℕ :=
  { set_reference := [(0, 1, some .output)], unset_reference := [.one 1 0 none],
    characterize_flow := [(1, 1, 4)], allocate_by_quantity := [(0, 1)] }

/-- the archive after applying a configuration once, and twice -/
def once (cfg : Config ℕ ℕ ℕ) (s : Arch ℕ ℕ ℕ ℕ) : Arch ℕ ℕ ℕ ℕ := (applyConfig cfg false s).state
def twice (cfg : Config ℕ ℕ ℕ) (s : Arch ℕ ℕ ℕ ℕ) : Arch ℕ ℕ ℕ ℕ := (applyConfig cfg false (once cfg s)).state

-- applied to an unallocated archive: the references are 0 and 1, the total is 2·2 + 3·4 = 16, and process 1 has none;
-- the recorded total is up to date
example : Valid (exArch exProc) ∧ applyConfig exCfg false (exArch exProc) = .ok () (once exCfg (exArch exProc)) ∧
    ((once exCfg (exArch exProc)).proc 0).allocSum = 16 ∧
    ((once exCfg (exArch exProc)).proc 0).refs.length = 2 ∧ ((once exCfg (exArch exProc)).proc 1).refs = [] ∧
    cfOf (once exCfg (exArch exProc)).chars 1 1 = some 4 ∧
    refTotal (factor (once exCfg (exArch exProc))) 1 ((once exCfg (exArch exProc)).proc 0) = 16 ∧
    ((once exCfg (exArch exProc)).proc 1).allocQ = none :=
  ⟨exArch_valid exOps2, ok_of (by decide +kernel), by decide +kernel⟩

/-- a configuration without references -/
def exCfgNoRefs : Config ℕ ℕ ℕ := { characterize_flow := [(1, 1, 4)], allocate_by_quantity := [(0, 1)] }

example : applyConfig exCfgNoRefs false (exArch exProc) = .ok () (once exCfgNoRefs (exArch exProc)) ∧
    ((once exCfgNoRefs (exArch exProc)).proc 0).allocSum = 4 :=
  ⟨ok_of (by decide +kernel), by decide +kernel⟩

/-- a configuration that keeps the allocation of process 0 by quantity 0 up to date, and the characterizations -/
def exCfgUp : Config ℕ ℕ ℕ := { set_reference := [(0, 1, none)], unset_reference := [.one 0 0 none] }

/-- allocated by quantity 0 -/
def exAlloc0 : State ℕ ℕ ℕ := runOps id (cfOf exChars) (exOps2 ++ [.allocate (some 0)]) {}

example : applyConfig exCfgUp false (exArch exAlloc0) = .ok () (once exCfgUp (exArch exAlloc0)) ∧
    (exAlloc0.allocSum = refTotal (factor (exArch exAlloc0)) 0 exAlloc0) ∧ exAlloc0.allocQ = some 0 ∧
    refTotal (factor (exArch exAlloc0)) 0 ((once exCfgUp (exArch exAlloc0)).proc 0) = 3 ∧
    ((once exCfgUp (exArch exAlloc0)).proc 0).refs = [⟨1, .output, none⟩] :=
  ⟨ok_of (by decide +kernel), by decide +kernel⟩

/-- C46 fails when the process is already allocated: the configuration adds co-product 1, of which the factor is not
known yet, to the references, and then characterizes it; the allocation is not renewed, because one is detected.
Applied again, the configuration renews it: the first time the recorded total is 4, the second time it is
2·2 + 3·4 = 16, so the allocated amounts of the other exchanges change. -/
theorem config_not_idempotent : ∃ (cfg : Config ℕ ℕ ℕ) (s s1 s2 : Arch ℕ ℕ ℕ ℕ), Valid s ∧
    applyConfig cfg false s = .ok () s1 ∧ applyConfig cfg false s1 = .ok () s2 ∧
    (s1.proc 0).allocSum = 4 ∧ (s2.proc 0).allocSum = 16 ∧
    getItem (cfOf s1.chars) (s1.proc 0) ⟨2, .input, none⟩ ⟨0, .output, none⟩ = .ok 8 ∧
    getItem (cfOf s2.chars) (s2.proc 0) ⟨2, .input, none⟩ ⟨0, .output, none⟩ = .ok 2 :=
  ⟨exCfg, exArch exAlloc, once exCfg (exArch exAlloc), twice exCfg (exArch exAlloc), exArch_valid _,
    ok_of (by decide +kernel), ok_of (by decide +kernel), by decide +kernel⟩

/-- set and unset co-product 1, and unset co-product 0 -/
def exCfgStale : Config ℕ ℕ ℕ :=
  { set_reference := [(0, 1, some .output)], unset_reference := [.one 0 1 none, .one 0 0 none] }

/-- C46 fails also without characterizations: setting and unsetting all references of an allocated process leaves the
total of whatever was removed last. -/
theorem config_not_idempotent_stale : ∃ (cfg : Config ℕ ℕ ℕ) (s s1 s2 : Arch ℕ ℕ ℕ ℕ), Valid s ∧
    cfg.characterize_flow = [] ∧ cfg.allocate_by_quantity = [] ∧
    (∀ p, (s.proc p).allocSum = refTotal (factor s) 0 (s.proc p)) ∧
    applyConfig cfg false s = .ok () s1 ∧ applyConfig cfg false s1 = .ok () s2 ∧
    (s1.proc 0).allocSum = 2 ∧ (s2.proc 0).allocSum = 3 :=
  ⟨exCfgStale, exArch exAlloc0, once exCfgStale (exArch exAlloc0), twice exCfgStale (exArch exAlloc0),
    exArch_valid _, rfl, rfl, fun _ => by
      change exAlloc0.allocSum = refTotal (factor (exArch exAlloc0)) 0 exAlloc0
      decide +kernel,
    ok_of (by decide +kernel), ok_of (by decide +kernel), by decide +kernel, by decide +kernel⟩

/-- an archive in which flow 1 has a characterization by quantity 1 without a value -/
def exArchNoValue : Arch ℕ ℕ ℕ ℕ :=
  { exArch exProc with chars := fun f q => if f = 1 ∧ q = 1 then some [] else exChars f q }

def exCfgNoValue : Config ℕ ℕ ℕ :=
  { set_reference := [(0, 1, some .output)], unset_reference := [.one 0 1 none], allocate_by_quantity := [(0, 1)] }

/-- C46 needs the values: with a characterization that has no value, the second application raises TypeError. -/
theorem config_again_raises : ∃ (cfg : Config ℕ ℕ ℕ) (s s1 s2 : Arch ℕ ℕ ℕ ℕ),
    (∀ p, Reach id (s.proc p)) ∧ (∀ f, s.chars f (s.refq f) ≠ none) ∧ s.chars 1 1 = some [] ∧
    applyConfig cfg false s = .ok () s1 ∧ applyConfig cfg false s1 = .err (.proc .typeError) s2 :=
  ⟨exCfgNoValue, exArchNoValue, once exCfgNoValue exArchNoValue, twice exCfgNoValue exArchNoValue,
    fun _ => reach_runOps _ _ _ .new, by intro f; simp [exArchNoValue, exArch, exChars], by decide +kernel,
    ok_of (by decide +kernel), err_of (by decide +kernel)⟩

/-- C56 fails: both processes have flow 0 as reference output; the call without a process raises RuntimeError and
leaves process 1 as it is. -/
theorem unset_anywhere_raises : ∃ s s1 : Arch ℕ ℕ ℕ ℕ, Valid s ∧ s.pids = [0, 1] ∧
    IsRef 0 .output s 0 ∧ IsRef 0 .output s 1 ∧
    unsetReference (.anywhere 0 (some .output)) s = .err .runtimeError s1 ∧
    (s1.proc 0).refs = [] ∧ IsRef 0 .output s1 1 :=
  ⟨exArch exProc, (unsetReference (.anywhere 0 (some .output)) (exArch exProc)).state, exArch_valid exOps2, rfl,
    ⟨⟨0, .output, none⟩, by decide +kernel, rfl, rfl⟩,
    ⟨⟨0, .output, none⟩, by decide +kernel, rfl, rfl⟩, err_of (by decide +kernel), by decide +kernel,
    ⟨⟨0, .output, none⟩, by decide +kernel, rfl, rfl⟩⟩

-- the hypotheses of `set_one`, `set_undirected`, `characterize_one`, and both cases of `allocate_one`
example : setReference (1, 1, some .output) (exArch exProc) =
      .ok () (setReference (1, 1, some .output) (exArch exProc)).state ∧ ¬ IsRef 1 .output (exArch exProc) 1 :=
  ⟨ok_of (by decide +kernel), by
    rintro ⟨k, hk, h1, _⟩
    have : ∀ k ∈ exProc.refs, k.flow ≠ 1 := by decide +kernel
    exact this k hk h1⟩
example : (⟨1, .output, none⟩ : Key ℕ ℕ) ∈ exProc.exchs.keys ∧ exProc.exchs.keys.Nodup ∧
    ∀ k ∈ exProc.exchs.keys, k.flow = 1 → k.dir = .output := by decide +kernel
example : exChars 0 1 ≠ none ∧ exChars 1 1 = none ∧ (1 : ℕ) ≠ (exArch exProc).refq 0 := by decide +kernel
example : Detected (exArch exAlloc) 0 ∧ ¬ Detected (exArch exProc) 0 ∧
    refTotal (factor (exArch exProc)) 1 exProc = 4 := by
  refine ⟨⟨⟨0, .output, none⟩, by decide +kernel, Or.inl ⟨1, by decide +kernel, by decide +kernel⟩⟩, ?_, by decide +kernel⟩
  rintro ⟨r, _, ⟨q, hq, _⟩ | ⟨_, kx, h1, _, h2⟩⟩
  · have : exProc.allocQty = none := by decide +kernel
    rw [show ((exArch exProc).proc 0).allocQty = exProc.allocQty from rfl, this] at hq
    simp at hq
  · have : ∀ kx ∈ exProc.exchs, kx.2.vdict = [] := by decide +kernel
    rw [this kx h1] at h2
    simp [Dict.has] at h2

-- the hypothesis of `unset_one`
example : unsetReference (.one 1 0 (some .output)) (exArch exProc) =
      .ok () (unsetReference (.one 1 0 (some .output)) (exArch exProc)).state ∧
    IsRef 0 .output (exArch exProc) 1 :=
  ⟨ok_of (by decide +kernel), ⟨0, .output, none⟩, by decide +kernel, rfl, rfl⟩

end Cfg
