import Mathlib.Data.Set.Card
import Verif.Lemmas.EngineMatrix
import Verif.Spec.EngineExample

/-!
Properties C01-C07, C09, C49 of the background engine.
-/

set_option linter.unusedSectionVars false
set_option linter.unusedSimpArgs false

namespace Engine
variable {F P : Type} [DecidableEq F] [DecidableEq P]
variable {db : DB F P} {strat : Strategy}

/-! ### helper facts local to this file -/

theorem known_iff {fuel : ℕ} {vs : List (F × P)} {s : State F P}
    (hr : addAll db strat fuel vs {} = .ok () s) (u : F × P) :
    u ∈ s.pfIndex ↔ Known db strat vs u := by
  obtain ⟨hI, hv, _, _⟩ := addAll_spec inv_init hr
  constructor
  · exact addAll_sub (S := Known db strat vs)
      (fun a b ⟨v, h1, h2⟩ hd => ⟨v, h1, h2.tail hd⟩) (fun v h => ⟨v, h, .refl⟩) (by simp) hr u
  · rintro ⟨v, h1, h2⟩
    have hrest : Rest db strat s := ⟨hI, addAll_data inv_init dinv_init hr⟩
    exact hrest.reach_closed (hv v h1) h2

/-- A history of `add_ref_product` calls, each of which returns. -/
def addHistory (o : SetOrd F P) (db : DB F P) (strat : Strategy) (fuel : ℕ) :
    List (F × P) → Eng F P → Option (Eng F P)
  | [], e => some e
  | v :: vs, e =>
    match addRefProduct o db strat fuel v e with
    | none => none
    | some e' => addHistory o db strat fuel vs e'

theorem updateGraph_st {o : SetOrd F P} {fuel : ℕ} {e e' : Eng F P}
    (h : updateGraph o fuel e = some e') : e'.st = { e.st with interior := [], cutoffs := [] } := by
  unfold updateGraph at h
  split at h
  · simp at h
  · rename_i g hg
    split at h
    · simp only at h
      split at h <;> (simp only [Option.some.injEq] at h; rw [← h])
    · simp at h

theorem addRefProduct_inv {o : SetOrd F P} {fuel : ℕ} {v : F × P} {e e' : Eng F P}
    (hI : Inv db strat [] e.st) (h : addRefProduct o db strat fuel v e = some e') :
    Inv db strat [] e'.st ∧ v ∈ e'.st.pfIndex ∧ e.st.pfIndex <+: e'.st.pfIndex ∧
      ∀ u n, e.st.sccOf.get? u = some n → e'.st.sccOf.get? u = some n := by
  unfold addRefProduct at h
  cases hp : e.st.pfs.get? v with
  | some n =>
    rw [hp] at h
    simp only [Option.some.injEq] at h
    subst h
    exact ⟨hI, (hI.vis_iff v).mpr ⟨n, hp⟩, List.prefix_rfl, fun _ _ h => h⟩
  | none =>
    rw [hp] at h
    simp only at h
    split at h
    · simp at h
    · rename_i s hs
      have hs' : addRef db strat fuel v e.st = .ok () s := by unfold addRef; rw [hp]; exact hs
      obtain ⟨h1, h2, h3, h4⟩ := addRef_spec hI hs'
      have hst := updateGraph_st h
      simp only at hst
      rw [hst]
      refine ⟨?_, h2, h3, h4⟩
      exact h1.congr ⟨rfl, rfl, rfl, rfl, rfl, rfl⟩ (fun _ => Iff.rfl)

theorem addHistory_inv {o : SetOrd F P} {fuel : ℕ} {vs : List (F × P)} {e e' : Eng F P}
    (hI : Inv db strat [] e.st) (h : addHistory o db strat fuel vs e = some e') :
    Inv db strat [] e'.st ∧ (∀ v ∈ vs, v ∈ e'.st.pfIndex) ∧ e.st.pfIndex <+: e'.st.pfIndex ∧
      ∀ u n, e.st.sccOf.get? u = some n → e'.st.sccOf.get? u = some n := by
  induction vs generalizing e with
  | nil =>
    simp only [addHistory, Option.some.injEq] at h; subst h
    exact ⟨hI, by simp, List.prefix_rfl, fun _ _ h => h⟩
  | cons v vs ih =>
    unfold addHistory at h
    cases h1 : addRefProduct o db strat fuel v e with
    | none => rw [h1] at h; simp at h
    | some e1 =>
      rw [h1] at h
      simp only at h
      obtain ⟨a1, a2, a3, a4⟩ := addRefProduct_inv hI h1
      obtain ⟨b1, b2, b3, b4⟩ := ih a1 h
      refine ⟨b1, ?_, a3.trans b3, fun u n hu => b4 u n (a4 u n hu)⟩
      intro w hw
      rcases List.mem_cons.mp hw with e | hw
      · subst e; exact b3.subset a2
      · exact b2 w hw

/-! ### C01 -/

/-- C01, for `add_all_ref_products`: every product flow that the reference products `vs` depend on has a
component id, and two of them have the same id exactly when they depend on each other. -/
theorem C01_components_all (o : SetOrd F P) (fuel : ℕ) (vs : List (F × P)) (e : Eng F P)
    (hr : addAllRefProducts o db strat fuel vs {} = some e) (u w : F × P)
    (hu : Known db strat vs u) (hw : Known db strat vs w) :
    ∃ n m, e.st.sccOf.get? u = some n ∧ e.st.sccOf.get? w = some m ∧
      (n = m ↔ Reach db strat u w ∧ Reach db strat w u) := by
  obtain ⟨s, hs, hrest, hok⟩ := addAllRefProducts_spec hr
  have hst : e.st = { s with interior := [], cutoffs := [] } := hok.st
  obtain ⟨n, hn⟩ := hrest.scc ((known_iff hs u).mpr hu)
  obtain ⟨m, hm⟩ := hrest.scc ((known_iff hs w).mpr hw)
  rw [hst]
  exact ⟨n, m, hn, hm, hrest.inv.scc u w n m hn hm⟩

example : ∃ e, addAllRefProducts Ex.ord Ex.db .abort 10 Ex.roots {} = some e :=
  Option.isSome_iff_exists.mp (by decide +kernel)

/-- C01, for any history of `add_ref_product` calls that return: every product flow that the added ones
depend on has a component id, equal exactly for mutual dependency. -/
theorem C01_components_incremental (o : SetOrd F P) (fuel : ℕ) (vs : List (F × P)) (e : Eng F P)
    (hr : addHistory o db strat fuel vs {} = some e) (u w : F × P)
    (hu : Known db strat vs u) (hw : Known db strat vs w) :
    ∃ n m, e.st.sccOf.get? u = some n ∧ e.st.sccOf.get? w = some m ∧
      (n = m ↔ Reach db strat u w ∧ Reach db strat w u) := by
  obtain ⟨hI, hv, _, _⟩ := addHistory_inv inv_init hr
  have closed : ∀ a b, a ∈ e.st.pfIndex → Reach db strat a b → b ∈ e.st.pfIndex := by
    intro a b ha hab
    induction hab with
    | refl => exact ha
    | tail _ hd ih => exact hI.closed _ ih (by simp) _ hd
  have get : ∀ a, a ∈ e.st.pfIndex → ∃ n, e.st.sccOf.get? a = some n := fun a ha =>
    hI.offStack a ha (by rw [hI.stack_empty]; simp)
  obtain ⟨a, ha, hau⟩ := hu
  obtain ⟨b, hb, hbw⟩ := hw
  obtain ⟨n, hn⟩ := get u (closed a u (hv a ha) hau)
  obtain ⟨m, hm⟩ := get w (closed b w (hv b hb) hbw)
  exact ⟨n, m, hn, hm, hI.scc u w n m hn hm⟩

example : ∃ e, addHistory Ex.ord Ex.db .abort 10 [(1, 1), (0, 0)] {} = some e :=
  Option.isSome_iff_exists.mp (by decide +kernel)

/-! ### C02 -/

/-- C02: after any history of `add_ref_product` calls that return, the stack is empty and every known
product flow is in the member list of exactly one component. -/
theorem C02_classified_once (o : SetOrd F P) (fuel : ℕ) (vs : List (F × P)) (e : Eng F P)
    (hr : addHistory o db strat fuel vs {} = some e) :
    e.st.stack = [] ∧
    (∀ u ∈ e.st.pfIndex, ∃! k, ∃ l, e.st.sccs.get? k = some l ∧ u ∈ l) ∧
    (∀ k l, e.st.sccs.get? k = some l → l ≠ [] ∧ l.Nodup ∧ ∀ u ∈ l, u ∈ e.st.pfIndex) ∧
    (∀ v ∈ vs, v ∈ e.st.pfIndex) := by
  obtain ⟨hI, hv, _, _⟩ := addHistory_inv inv_init hr
  refine ⟨hI.stack_empty, ?_, ?_, hv⟩
  · intro u hu
    obtain ⟨n, hn⟩ := hI.offStack u hu (by rw [hI.stack_empty]; simp)
    obtain ⟨l, hl⟩ := hI.sccsDom u n hn
    refine ⟨n, ⟨l, hl, ((hI.sccsMem n l hl).2.2 u).mpr hn⟩, ?_⟩
    rintro k ⟨l', hl', hul'⟩
    have := ((hI.sccsMem k l' hl').2.2 u).mp hul'
    rw [hn] at this
    simpa using this.symm
  · intro k l hl
    obtain ⟨h1, h2, h3⟩ := hI.sccsMem k l hl
    exact ⟨h1, h2, fun u hu => hI.sccVis u k ((h3 u).mp hu)⟩

example : ∃ e, addHistory Ex.ord Ex.db .abort 10 [(2, 2), (0, 0)] {} = some e :=
  Option.isSome_iff_exists.mp (by decide +kernel)

/-- C02: a further `add_ref_product` call changes no index and no component of a known product flow. -/
theorem C02_stable (o : SetOrd F P) (fuel : ℕ) (vs : List (F × P)) (e e' : Eng F P) (v : F × P)
    (hr : addHistory o db strat fuel vs {} = some e) (hv : addRefProduct o db strat fuel v e = some e') :
    (∀ (n : ℕ) u, e.st.pfIndex[n]? = some u → e'.st.pfIndex[n]? = some u) ∧
    (∀ u k, e.st.sccOf.get? u = some k → e'.st.sccOf.get? u = some k) ∧
    (∀ k l, e.st.sccs.get? k = some l → ∃ l', e'.st.sccs.get? k = some l' ∧ ∀ u, u ∈ l' ↔ u ∈ l) := by
  obtain ⟨hI, _, _, _⟩ := addHistory_inv inv_init hr
  obtain ⟨hI', _, hp, hs⟩ := addRefProduct_inv hI hv
  refine ⟨?_, hs, ?_⟩
  · intro n u hn
    obtain ⟨t, ht⟩ := hp
    rw [← ht, List.getElem?_append_left (List.getElem?_eq_some_iff.mp hn).1]
    exact hn
  · intro k l hl
    obtain ⟨hne, hnd, hm⟩ := hI.sccsMem k l hl
    obtain ⟨a, ha⟩ := List.exists_mem_of_ne_nil l hne
    have hak := (hm a).mp ha
    obtain ⟨l', hl'⟩ := hI'.sccsDom a k (hs a k hak)
    refine ⟨l', hl', fun u => ?_⟩
    rw [(hI'.sccsMem k l' hl').2.2 u, hm u]
    constructor
    · intro hu
      -- `u` is mutual with `a`, so it was already known
      have hmut := (hI'.scc u a k k hu (hs a k hak)).mp rfl
      have hau : u ∈ e.st.pfIndex := by
        have : ∀ b, Reach db strat a b → b ∈ e.st.pfIndex := by
          intro b hb
          induction hb with
          | refl => exact hI.sccVis a k hak
          | tail _ hd ih => exact hI.closed _ ih (by simp) _ hd
        exact this u hmut.2
      obtain ⟨n, hn⟩ := hI.offStack u hau (by rw [hI.stack_empty]; simp)
      rw [hn, ← (hI.scc u a n k hn hak).mpr hmut]
    · exact hs u k

example : ∃ e e', addHistory Ex.ord Ex.db .abort 10 [(2, 2)] {} = some e ∧
    addRefProduct Ex.ord Ex.db .abort 10 (0, 0) e = some e' := by
  have h : ((addHistory Ex.ord Ex.db .abort 10 [(2, 2)] {}).bind
    (addRefProduct Ex.ord Ex.db .abort 10 (0, 0))).isSome = true := by decide +kernel
  obtain ⟨e', he'⟩ := Option.isSome_iff_exists.mp h
  obtain ⟨e, h1, h2⟩ := Option.bind_eq_some_iff.mp he'
  exact ⟨e, e', h1, h2⟩

/-- C02: the traversal ends.  If the product flows reachable from `vs` are among the finite list `N`,
the roots are references, and no exchange is ambiguous under a strategy that cannot resolve it, then
`N.length` stack frames are enough for all of `add_all_ref_products`' traversal. -/
theorem C02_terminates (N vs : List (F × P)) (hN : Closed db strat N) (fuel : ℕ)
    (hf : N.length ≤ fuel) (hv : ∀ v ∈ vs, v ∈ N) (hr : ∀ v ∈ vs, db.refDir v ≠ none) :
    ∃ s, addAll db strat fuel vs {} = .ok () s :=
  addAll_total hN hf inv_init hv hr (by simp)

example : Closed Ex.db .abort Ex.roots where
  dep := by
    intro u hu w hw
    obtain ⟨x, hx, hr, _, _, hf, hd⟩ := hw
    simp only [Ex.db] at hd
    have : w.1 = w.2 ∧ w.1 ≤ 3 := by
      by_contra hc; simp [hc] at hd
    obtain ⟨w1, w2⟩ := w
    obtain ⟨h1, h2⟩ := this
    simp only at h1 h2
    subst h1
    have : w1 = 0 ∨ w1 = 1 ∨ w1 = 2 ∨ w1 = 3 := by omega
    rcases this with h | h | h | h <;> subst h <;> simp [Ex.roots]
  unamb := by
    intro u _ x _ _ _ _
    left
    simp only [Ex.db]
    split <;> simp

/-! ### C03 -/

/-- C03: after `add_all_ref_products` either there is a component with more than one member, and then the
product flows reported as background (by `is_background` and by `background_flows`) are exactly the members
of a largest component and everything they depend on; or no component has more than one member and nothing is
background. -/
theorem C03_background (o : SetOrd F P) (fuel : ℕ) (vs : List (F × P)) (e : Eng F P)
    (hr : addAllRefProducts o db strat fuel vs {} = some e) :
    (∃ b, Known db strat vs b ∧ 1 < Set.ncard {w | Mutual db strat b w} ∧
      (∀ c, Known db strat vs c → Set.ncard {w | Mutual db strat c w} ≤
        Set.ncard {w | Mutual db strat b w}) ∧
      (∀ u, Known db strat vs u → (isBackground e.g (pfIx e.st u) = true ↔ Reach db strat b u)) ∧
      (∀ u, u ∈ e.g.bgProcs ↔ Reach db strat b u)) ∨
    ((∀ c, Known db strat vs c → Set.ncard {w | Mutual db strat c w} ≤ 1) ∧
      (∀ u, Known db strat vs u → isBackground e.g (pfIx e.st u) = false) ∧ e.g.bgProcs = []) := by
  obtain ⟨s, hs, hrest, hok⟩ := addAllRefProducts_spec hr
  have hst : e.st = { s with interior := [], cutoffs := [] } := hok.st
  have hg : GraphOK db strat s e.g := hok.gok
  have hix : ∀ u, pfIx e.st u = pfIx s u := by intro u; rw [hst]; rfl
  -- size of a class = length of its member list
  have hsize : ∀ c k l, s.sccOf.get? c = some k → s.sccs.get? k = some l →
      Set.ncard {w | Mutual db strat c w} = l.length := by
    intro c k l hc hl
    have : {w | Mutual db strat c w} = (l.toFinset : Set (F × P)) := by
      ext w
      simp only [Set.mem_setOf_eq, List.coe_toFinset]
      rw [(hrest.inv.sccsMem k l hl).2.2 w]
      constructor
      · intro hm
        have hw := hrest.reach_closed (hrest.inv.sccVis c k hc) hm.1
        obtain ⟨k', hk'⟩ := hrest.scc hw
        rw [hk', (hrest.inv.scc c w k k' hc hk').mpr hm]
      · intro hw; exact (hrest.inv.scc c w k k hc hw).mp rfl
    rw [this, Set.ncard_coe_finset, List.toFinset_card_of_nodup (hrest.inv.sccsMem k l hl).2.1]
  have hclass : ∀ c, Known db strat vs c → ∃ k l, s.sccOf.get? c = some k ∧ s.sccs.get? k = some l := by
    intro c hc
    obtain ⟨k, hk⟩ := hrest.scc ((known_iff hs c).mpr hc)
    obtain ⟨l, hl⟩ := hrest.inv.sccsDom c k hk
    exact ⟨k, l, hk, hl⟩
  rcases hg.bg with ⟨h1, h2, h3⟩ | ⟨b, l, hb, hl, hlen, hmax, _, hdown⟩
  · right
    have hempty : e.g.bgProcs = [] := by
      rw [List.eq_nil_iff_forall_not_mem]
      intro u hu
      obtain ⟨k, _, hf⟩ := (hg.bgMem u).mp hu
      rw [isFgScc_false, h1, h2] at hf
      simp at hf
    refine ⟨?_, ?_, hempty⟩
    · intro c hc
      obtain ⟨k, l, hk, hl⟩ := hclass c hc
      rw [hsize c k l hk hl]
      exact h3 k l hl
    · intro u hu
      rw [hix, ← Bool.not_eq_true, hg.isBg ((known_iff hs u).mpr hu), hempty]
      simp
  · left
    obtain ⟨r, hr⟩ := List.exists_mem_of_ne_nil l (hrest.inv.sccsMem b l hl).1
    have hrb := ((hrest.inv.sccsMem b l hl).2.2 r).mp hr
    have hrk := hrest.inv.sccVis r b hrb
    have hbg : ∀ u, u ∈ e.g.bgProcs ↔ Reach db strat r u := by
      intro u
      constructor
      · intro hu
        obtain ⟨k, hk, hf⟩ := (hg.bgMem u).mp hu
        rw [isFgScc_false, hb, hdown] at hf
        rcases hf with hf | hf
        · simp at hf; subst hf; exact hrest.same hrb hk
        · exact hrest.cpath_reach (Relation.ReflTransGen.mono
            (show PEdge s ≤ CEdge s from fun _ _ h => h.1) _ _ hf.to_reflTransGen) hrb hk
      · intro hre
        refine hg.bg_reach ((hg.bgMem r).mpr ⟨b, hrb, ?_⟩) hre
        rw [isFgScc_false]; exact Or.inl hb
    refine ⟨r, (known_iff hs r).mp hrk, ?_, ?_, ?_, hbg⟩
    · rw [hsize r b l hrb hl]; exact hlen
    · intro c hc
      obtain ⟨k, l', hk, hl'⟩ := hclass c hc
      rw [hsize r b l hrb hl, hsize c k l' hk hl']
      exact hmax k l' hl'
    · intro u hu
      rw [hix, hg.isBg ((known_iff hs u).mpr hu), hbg]

/-- in the example database the background is 1, 2 and their supplier 3, and 0 is foreground -/
example : ((addAllRefProducts Ex.ord Ex.db .abort 10 Ex.roots {}).map fun e =>
    (e.g.bgProcs, e.g.fgProcs)) = some ([(2, 2), (1, 1), (3, 3)], [(0, 0)]) := by decide +kernel

/-- ties: the first largest component in labelling order is chosen (tarjan_stack.py:66 uses `>`). -/
theorem C03_first_largest (o : SetOrd F P) (fuel : ℕ) (vs : List (F × P)) (e : Eng F P)
    (hr : addAllRefProducts o db strat fuel vs {} = some e) (b : ℕ) (hb : e.g.background = some b) :
    ∃ l, e.st.sccs.get? b = some l ∧ ∀ a z, e.st.sccs = a ++ (b, l) :: z → ∀ p ∈ a, p.2.length < l.length := by
  obtain ⟨s, hs, hrest, hok⟩ := addAllRefProducts_spec hr
  have hst : e.st = { s with interior := [], cutoffs := [] } := hok.st
  have hg : GraphOK db strat s e.g := hok.gok
  rcases hg.bg with ⟨h1, _⟩ | ⟨b', l, hb', hl, _, _, hfirst, _⟩
  · rw [h1] at hb; simp at hb
  · rw [hb] at hb'; simp at hb'; subst hb'
    rw [hst]
    exact ⟨l, hl, hfirst⟩

example : ((addAllRefProducts Ex.ord Ex.db .abort 10 Ex.roots {}).map fun e => e.g.background) =
    some (some 1) := by decide +kernel

/-- Totality of the whole of `add_all_ref_products`: under the hypotheses of `C02_terminates`, and if no
inbound exchange value is zero, it returns. -/
theorem C02_add_all_returns (o : SetOrd F P) (N vs : List (F × P)) (hN : Closed db strat N) (fuel : ℕ)
    (hf : N.length ≤ fuel) (hv : ∀ v ∈ vs, v ∈ N) (hr : ∀ v ∈ vs, db.refDir v ≠ none)
    (hev : ∀ u ∈ N, (selfOf db strat u (db.inv u)).foldl adjustEv
      (match db.refDir u with | some .input => -1 | _ => 1) ≠ 0) :
    ∃ e, addAllRefProducts o db strat fuel vs {} = some e := by
  obtain ⟨s, hs⟩ := C02_terminates N vs hN fuel hf hv hr
  have hI := (addAll_spec inv_init hs).1
  have hD := addAll_data inv_init dinv_init hs
  have hrest : Rest db strat s := ⟨hI, hD⟩
  have hsub : ∀ u ∈ s.pfIndex, u ∈ N :=
    addAll_sub (S := (· ∈ N)) (fun u w hu hd => hN.dep u hu w hd) hv (by simp) hs
  have hlen : s.pfIndex.length ≤ fuel :=
    le_trans (List.subperm_of_subset hI.nodup hsub).length_le hf
  obtain ⟨g, hg⟩ := graph_total (o := o) hrest hlen
  have hnz : ∀ u ∈ s.pfIndex, (s.ev.get? u).getD 0 ≠ 0 := by
    intro u hu
    rw [(hD.fin u hu (by simp)).ev]
    exact hev u (hsub u hu)
  obtain ⟨is, his⟩ := adjustVals_total (s := s) (l := s.interior) fun i hi => hnz _ (hD.newI i hi)
  obtain ⟨cs, hcs⟩ := adjustVals_total (s := s) (l := s.cutoffs) fun i hi => hnz _ (hD.newC i hi)
  unfold addAllRefProducts
  rw [if_neg (by simp), hs]
  simp only
  have : ∃ e, updateGraph o fuel ({ st := s } : Eng F P) = some e := by
    unfold updateGraph
    simp only [hg, his, hcs]
    cases g.background <;> exact ⟨_, rfl⟩
  obtain ⟨e, he⟩ := this
  rw [he]
  exact ⟨_, rfl⟩

example : ∀ u ∈ Ex.roots, (selfOf Ex.db .abort u (Ex.db.inv u)).foldl adjustEv
      (match Ex.db.refDir u with | some .input => -1 | _ => 1) ≠ 0 := by decide +kernel

/-! ### C04 -/

/-- C04: positions and product flows are inverse to each other; a known product flow has exactly one of the
two kinds of position; positions are 0..n-1. -/
theorem C04_positions (o : SetOrd F P) (fuel : ℕ) (vs : List (F × P)) (e : Eng F P)
    (hr : addAllRefProducts o db strat fuel vs {} = some e) :
    (∀ u, Known db strat vs u →
      (∀ n, fgDict e.g (pfIx e.st u) = some n ↔ fgNode e.g n = some u) ∧
      (∀ n, bgDict e.g (pfIx e.st u) = some n ↔ bgNode e.g n = some u) ∧
      ((fgDict e.g (pfIx e.st u)).isSome ↔ isBackground e.g (pfIx e.st u) = false) ∧
      ((bgDict e.g (pfIx e.st u)).isSome ↔ isBackground e.g (pfIx e.st u) = true)) ∧
    (∀ n, (∃ u, Known db strat vs u ∧ fgNode e.g n = some u) ↔ n < pdim e.g) ∧
    (∀ n, (∃ u, Known db strat vs u ∧ bgNode e.g n = some u) ↔ n < ndim e.g) := by
  obtain ⟨s, hs, hrest, hok⟩ := addAllRefProducts_spec hr
  have hst : e.st = { s with interior := [], cutoffs := [] } := hok.st
  have hg : GraphOK db strat s e.g := hok.gok
  have hix : ∀ u, pfIx e.st u = pfIx s u := by intro u; rw [hst]; rfl
  refine ⟨?_, ?_, ?_⟩
  · intro u hu
    have hu' := (known_iff hs u).mpr hu
    rw [hix]
    have hb := hg.isBg hu'
    have hfb := hg.isBg_not hu'
    refine ⟨fun n => hg.fg_get hu' n, fun n => hg.bg_get hu' n, ?_, ?_⟩
    · rw [Option.isSome_iff_exists, ← Bool.not_eq_true, hb, ← hfb, List.mem_iff_getElem?]
      exact exists_congr fun n => hg.fg_get hu' n
    · rw [Option.isSome_iff_exists, hb, List.mem_iff_getElem?]
      exact exists_congr fun n => hg.bg_get hu' n
  · intro n
    have hlen : pdim e.g = e.g.fgProcs.length := by
      unfold pdim; rw [hg.fgIndex]; exact enumIndex_length hrest.inv hg.fgNodup hg.fg_sub
    rw [hlen]
    constructor
    · rintro ⟨u, _, h⟩; exact (List.getElem?_eq_some_iff.mp h).1
    · intro hn
      exact ⟨e.g.fgProcs[n], (known_iff hs _).mp (hg.fg_sub _ (List.getElem_mem hn)),
        List.getElem?_eq_getElem hn⟩
  · intro n
    have hlen : ndim e.g = e.g.bgProcs.length := by
      unfold ndim; rw [hg.bgIndex]; exact enumIndex_length hrest.inv hg.bgNodup hg.bg_sub
    rw [hlen]
    constructor
    · rintro ⟨u, _, h⟩; exact (List.getElem?_eq_some_iff.mp h).1
    · intro hn
      exact ⟨e.g.bgProcs[n], (known_iff hs _).mp (hg.bg_sub _ (List.getElem_mem hn)),
        List.getElem?_eq_getElem hn⟩

example : ((addAllRefProducts Ex.ord Ex.db .abort 10 Ex.roots {}).map fun e => (pdim e.g, ndim e.g)) =
    some (1, 3) := by decide +kernel

example : ((addAllRefProducts Ex.ord Ex.db .abort 10 Ex.roots {}).bind fun e =>
    bgDict e.g (pfIx e.st (3, 3))) = some 2 := by decide +kernel

example : ((addAllRefProducts Ex.ord Ex.db .abort 10 Ex.roots {}).bind fun e => bgNode e.g 2) =
    some (3, 3) := by decide +kernel

/-! ### C05 -/

/-- C05: if `u` depends (directly or not) on the foreground product flow `w` but not conversely, then `u` is
foreground and its position is smaller. -/
theorem C05_topological (o : SetOrd F P) (fuel : ℕ) (vs : List (F × P)) (e : Eng F P)
    (hr : addAllRefProducts o db strat fuel vs {} = some e) (u w : F × P)
    (hu : Known db strat vs u) (hw : isBackground e.g (pfIx e.st w) = false)
    (huw : Reach db strat u w) (hwu : ¬ Reach db strat w u) :
    ∃ i j, fgDict e.g (pfIx e.st u) = some i ∧ fgDict e.g (pfIx e.st w) = some j ∧ i < j := by
  obtain ⟨s, hs, hrest, hok⟩ := addAllRefProducts_spec hr
  have hst : e.st = { s with interior := [], cutoffs := [] } := hok.st
  have hg : GraphOK db strat s e.g := hok.gok
  have hix : ∀ u, pfIx e.st u = pfIx s u := by intro u; rw [hst]; rfl
  have hu' := (known_iff hs u).mpr hu
  have hw' := hrest.reach_closed hu' huw
  rw [hix] at hw
  have hwf : w ∈ e.g.fgProcs := by
    rw [hg.isBg_not hw', ← hg.isBg hw']; simp [hw]
  have huf : u ∈ e.g.fgProcs := by
    rw [hg.isBg_not hu']
    intro hb
    exact (hg.isBg_not hw').mp hwf (hg.bg_reach hb huw)
  obtain ⟨i, hi⟩ := hg.fg_some huf
  obtain ⟨j, hj⟩ := hg.fg_some hwf
  refine ⟨i, j, by rw [hix]; exact hi, by rw [hix]; exact hj, ?_⟩
  obtain ⟨c, hc⟩ := hrest.scc hu'
  obtain ⟨r, hrr⟩ := hrest.scc hw'
  have hne : c ≠ r := fun e => hwu ((hrest.inv.scc u w c r hc hrr).mp e).2
  -- a chain of edges between different components
  have htg : Relation.TransGen (PEdge s) c r := by
    have hp := hrest.reach_cpath huw hc hrr
    have key : ∀ c r, Relation.ReflTransGen (CEdge s) c r → Relation.ReflTransGen (PEdge s) c r := by
      intro c r h
      induction h with
      | refl => exact .refl
      | @tail a b _ hab ih =>
        by_cases e : b = a
        · subst e; exact ih
        · exact ih.tail ⟨hab, e⟩
    rcases Relation.reflTransGen_iff_eq_or_transGen.mp (key c r hp) with h | h
    · exact absurd h.symm hne
    · exact h
  have key : ∀ r, Relation.TransGen (PEdge s) c r → isFgScc e.g r = true → ∀ w, s.sccOf.get? w = some r →
      ∀ j, fgDict e.g (pfIx s w) = some j → i < j := by
    intro r h
    induction h with
    | @single b hcb =>
      intro hbf w hw j hj
      have hsub := hg.order u w c b hc hw hcb hbf
      exact idx_lt_of_sublist hg.fgNodup hsub ((hg.fg_get hu' i).mp hi)
        ((hg.fg_get (hrest.inv.sccVis w b hw) j).mp hj)
    | @tail a b _ hab ih =>
      intro hbf w hw j hj
      have haf : isFgScc e.g a = true := by
        by_contra hcn
        have := bg_down hrest hg.down hab.1 (by simpa using hcn)
        rw [hbf] at this; simp at this
      obtain ⟨x, _, _, _, hx, _⟩ := hab.1
      obtain ⟨m, hm⟩ := hg.fg_some ((hg.fgMem x).mpr ⟨a, hx, haf⟩)
      have h1 := ih haf x hx m hm
      have hsub := hg.order x w a b hx hw hab hbf
      have h2 := idx_lt_of_sublist hg.fgNodup hsub
        ((hg.fg_get (hrest.inv.sccVis x a hx) m).mp hm)
        ((hg.fg_get (hrest.inv.sccVis w b hw) j).mp hj)
      omega
  obtain ⟨r', hr', hrf⟩ := (hg.fgMem w).mp hwf
  rw [hrr] at hr'; simp at hr'; subst hr'
  exact key r htg hrf w hrr j hj

/-- an acyclic database: 0 needs 1, 1 needs 2, all are foreground in this order -/
example : ((addAllRefProducts Ex.ord
    { Ex.db with inv := fun u => match u.2 with
        | 0 => [Ex.ref 0, Ex.need 1 2] | 1 => [Ex.ref 1, Ex.need 2 3] | _ => [] } .abort 10
      [(1, 1), (0, 0), (2, 2)] {}).map fun e =>
    (e.g.fgProcs, isBackground e.g (pfIx e.st (2, 2)))) = some ([(0, 0), (1, 1), (2, 2)], false) := by
  decide +kernel

/-- C05: `foreground_flows(outputs=True)` lists exactly the product flows on which no other product flow
depends, among the foreground. -/
theorem C05_outputs (o : SetOrd F P) (fuel : ℕ) (vs : List (F × P)) (e : Eng F P)
    (hr : addAllRefProducts o db strat fuel vs {} = some e) (u : F × P) (hu : Known db strat vs u) :
    u ∈ foregroundFlows e.st e.g true ↔
      isBackground e.g (pfIx e.st u) = false ∧
        ∀ p, Known db strat vs p → Depends db strat p u → p = u := by
  obtain ⟨s, hs, hrest, hok⟩ := addAllRefProducts_spec hr
  have hst : e.st = { s with interior := [], cutoffs := [] } := hok.st
  have hg : GraphOK db strat s e.g := hok.gok
  have hix : ∀ u, pfIx e.st u = pfIx s u := by intro u; rw [hst]; rfl
  have hu' := (known_iff hs u).mpr hu
  obtain ⟨k, hk⟩ := hrest.scc hu'
  obtain ⟨a, b, hab, ha, hb⟩ := hg.outs
  have hscc : e.st.sccOf = s.sccOf := by rw [hst]
  -- no component edge into `k` = no other product flow depends on a member, here only `u`
  have hcol : look e.g.cols k = [] ↔ ∀ p, Known db strat vs p → Depends db strat p u → p = u := by
    constructor
    · intro h p hp hd
      by_contra hne
      have hp' := (known_iff hs p).mpr hp
      obtain ⟨v, hv⟩ := hrest.int_iff.mpr ⟨hp', fun e => hne e.symm, hd⟩
      obtain ⟨c, hc⟩ := hrest.scc hp'
      have := (hg.cols c k).mpr ⟨p, u, v, hv, hc, hk⟩
      rw [h] at this; simp at this
    · intro h
      rw [List.eq_nil_iff_forall_not_mem]
      intro c hc
      obtain ⟨p, w, v, hv, hp, hw⟩ := (hg.cols c k).mp hc
      obtain ⟨hpv, hne, hd⟩ := hrest.int_iff.mp ⟨v, hv⟩
      by_cases hwu : w = u
      · subst hwu
        exact hne (h p ((known_iff hs p).mp hpv) hd).symm
      · -- `w` is another member of `u`'s component, so something other than `u` leads to `u`
        have hre : Reach db strat w u := hrest.same hw hk
        obtain ⟨q, r, hq, hr', hqr, hwq, _⟩ := exit_edge (S := fun x => x ≠ u) hre hwu (by simp)
        have hr'' : r = u := by simpa using hr'
        subst hr''
        have hqv : q ∈ s.pfIndex := hrest.reach_closed (hrest.inv.sccVis w k hw) hwq
        exact hq (h q ((known_iff hs q).mp hqv) hqr)
  have htw : foregroundFlows e.st e.g true = a := by
    unfold foregroundFlows
    rw [if_pos rfl, hab, hscc]
    have hin : ∀ x ∈ e.g.fgProcs, ∃ c, s.sccOf.get? x = some c := fun x hx =>
      hrest.scc (hg.fg_sub x hx)
    rw [List.takeWhile_append_of_pos]
    · cases b with
      | nil => simp
      | cons y b =>
        obtain ⟨c, hc⟩ := hin y (by rw [hab]; simp)
        have := hb y (by simp) c hc
        simp [hc, this]
    · intro x hx
      obtain ⟨c, hc⟩ := hin x (by rw [hab]; simp [hx])
      have := ha x hx c hc
      simp [hc, this]
  rw [htw, ← hcol, hix, ← Bool.not_eq_true, hg.isBg hu', ← hg.isBg_not hu']
  constructor
  · intro h
    exact ⟨by rw [hab]; simp [h], ha u h k hk⟩
  · rintro ⟨h1, h2⟩
    rw [hab, List.mem_append] at h1
    rcases h1 with h1 | h1
    · exact h1
    · exact absurd h2 (hb u h1 k hk)

example : ((addAllRefProducts Ex.ord Ex.db .abort 10 Ex.roots {}).map fun e =>
    foregroundFlows e.st e.g true) = some [(0, 0)] := by decide +kernel

end Engine
