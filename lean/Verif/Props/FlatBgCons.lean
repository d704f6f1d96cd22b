import Verif.Props.FlatBgFg

/-!
C61: the consumers listed by a flat background.
-/

set_option linter.unusedSectionVars false
set_option linter.unusedSimpArgs false

namespace FlatBg
open Engine
variable {F P : Type} [DecidableEq F] [DecidableEq P]
variable {db : DB F P} {strat : Strategy}

/-- decidable form of "`v` is not `w` and uses a net amount of `w` other than zero" -/
def usesNet (db : DB F P) (strat : Strategy) (w v : F × P) : Bool :=
  usesB db strat v w && decide (useOf db strat v w ≠ 0)

theorem usesNet_iff (w v : F × P) : usesNet db strat w v = true ↔ v ≠ w ∧ useOf db strat v w ≠ 0 := by
  unfold usesNet
  rw [Bool.and_eq_true, usesB_iff, decide_eq_true_eq]
  constructor
  · rintro ⟨⟨a, _⟩, c⟩; exact ⟨Ne.symm a, c⟩
  · rintro ⟨a, c⟩
    refine ⟨⟨Ne.symm a, ?_⟩, c⟩
    by_contra hd
    exact c (useOf_zero hd)

/-- one row of a matrix -/
theorem yieldAt_row {w : F × P} {ev : F × P → ℚ} {mk : F × P → TermRef F P P} {procs : List (F × P)}
    {nr r : ℕ} (hr : r < nr) {ts : List (Option ℕ × Option ℕ × ℚ)} {m : Sp}
    (hm : csr nr procs.length ts = some m)
    (hany : ∀ (c : ℕ) (v : F × P), procs[c]? = some v →
      ts.any (fun t => decide (t.1 = some r ∧ t.2.1 = some c)) = usesB db strat v w)
    (hent : ∀ (c : ℕ) (v : F × P), procs[c]? = some v → usesB db strat v w = true →
      entry ts (some r) (some c) = useOf db strat v w / ev v ∧ ev v ≠ 0) :
    yieldAt (procs.map mk) (nonzero (m.row r)) = ((procs.filter (usesNet db strat w)).map mk, none) := by
  have hrow := csr_row hm hr
  have hnz : nonzero (m.row r) = (List.range procs.length).filterMap fun c =>
      match procs[c]? with
      | some v => if usesNet db strat w v then some c else none
      | none => none := by
    unfold nonzero
    rw [hrow, ← List.filterMap_eq_filter, ← List.filterMap_eq_map, List.filterMap_filterMap,
      List.filterMap_filterMap]
    apply List.filterMap_congr
    intro c hc
    have hlt := List.mem_range.mp hc
    have hv : procs[c]? = some procs[c] := List.getElem?_eq_getElem hlt
    rw [hany c _ hv, hv]
    by_cases hu : usesB db strat procs[c] w = true
    · obtain ⟨h1, h2⟩ := hent c _ hv hu
      rw [hu, h1]
      simp only [if_true, Option.bind_some, Option.guard, usesNet, hu, Bool.true_and]
      by_cases hz : useOf db strat procs[c] w = 0
      · simp [hz]
      · simp [hz, h2]
    · simp [hu, usesNet]
  rw [hnz, yieldAt_eq _ (by
    intro i hi
    obtain ⟨c, hc, h⟩ := List.mem_filterMap.mp hi
    have hlt := List.mem_range.mp hc
    rw [List.getElem?_eq_getElem hlt] at h
    simp only at h
    split at h
    · cases h; simpa using hlt
    · cases h)]
  congr 1
  rw [List.filterMap_filterMap, ← List.filterMap_eq_filter, ← List.filterMap_eq_map, List.filterMap_filterMap]
  apply filterMap_range_getElem
  intro c v hv
  rw [hv]
  by_cases hu : usesNet db strat w v = true
  · simp [hu, hv, Option.guard]
  · simp [hu, Option.guard]

section
variable {o : SetOrd F P} {comp : F → Option P} {fuel : ℕ} {vs : List (F × P)} {fb : FB F P}

/-- C61: when there is a foreground, the consumers of a known product flow are exactly the other product flows
with a net use of it, each listed once, without an exception.
(A product flow whose uses cancel out is not a consumer.) -/
theorem C61_consumers_partial (hr : fromIndex o db comp strat fuel vs = .ok fb) (u : F × P)
    (hu : Known db strat vs u) (hne : fb.fg ≠ []) :
    ∃ L, consumers fb u.2 u.1 = (L, none) ∧ (L.map fun t => (t.flow, t.term)).Nodup ∧
      ∀ v, v ∈ (L.map fun t => (t.flow, t.term)) ↔
        Known db strat vs v ∧ v ≠ u ∧ useOf db strat v u ≠ 0 := by
  obtain ⟨e, s, he, hs, _, hB⟩ := fromIndex_built hr
  have hg : GraphOK db strat s e.g := hB.ok.gok
  have hst : e.st = { s with interior := [], cutoffs := [] } := hB.ok.st
  have hix : ∀ u, pfIx e.st u = pfIx s u := by intro u; rw [hst]; rfl
  obtain ⟨names, hn, hfg, hbg⟩ := hB.names
  have huv := (known_iff hs u).mpr hu
  have hfgb : ∀ v ∈ e.g.fgProcs, isBackground e.g (pfIx e.st v) = false := by
    intro v hv
    rw [hix]
    have := (hg.isBg_not (hg.fg_sub v hv)).mp hv
    rw [← hg.isBg (hg.fg_sub v hv)] at this; simpa using this
  have hbgb : ∀ v ∈ e.g.bgProcs, isBackground e.g (pfIx e.st v) = true := by
    intro v hv
    rw [hix]; exact (hg.isBg (hg.bg_sub v hv)).mpr hv
  obtain ⟨z, hz⟩ : ∃ z, z ∈ e.g.fgProcs := by
    apply List.exists_mem_of_ne_nil
    intro h; apply hne; rw [hfg, show e.g.fgProcs = [] from h]; rfl
  obtain ⟨_, m, _, hm, _⟩ := C07_foreground_all o fuel vs e he z
    ((known_iff hs z).mp (hg.fg_sub z hz)) (hfgb z hz)
  obtain ⟨af, ad, bf, h1, h2, _, c1, c2, _⟩ := hB.af m hm
  obtain ⟨a, b, ma, mb, h3, h4, hma, hmb, c3, c4⟩ := hB.lci
  have hma' : e.aMatrix = some ma := hma
  let ev : F × P → ℚ := fun v => (e.st.ev.get? v).getD 0
  let mk := makeTermRef db e.st names
  have hevnz : ∀ v, v ∈ s.pfIndex → usesB db strat v u = true → ev v ≠ 0 := by
    intro v hv hus
    obtain ⟨x, hx⟩ : ∃ x, e.st.ev.get? v = some x := by
      have := (hg.rest.data.fin v hv (by simp)).ev
      rw [hst]; exact ⟨_, this⟩
    have := (ev_nz hs hB hv hx).1 ⟨u, hus⟩
    simpa [ev, hx] using this
  -- what the rows list
  have key : ∀ procs : List (F × P), ((procs.filter (usesNet db strat u)).map mk).map
      (fun t => (t.flow, t.term)) = procs.filter (usesNet db strat u) := by
    intro procs
    rw [List.map_map]
    conv_rhs => rw [← List.map_id (procs.filter (usesNet db strat u))]
    apply List.map_congr_left
    intro v _; rfl
  have hall : ∀ v, v ∈ s.pfIndex → v ∈ e.g.fgProcs ∨ v ∈ e.g.bgProcs := by
    intro v hv
    by_cases h : v ∈ e.g.bgProcs
    · exact Or.inr h
    · exact Or.inl ((hg.isBg_not hv).mpr h)
  by_cases hub : u ∈ e.g.bgProcs
  · -- a background product flow
    obtain ⟨r, hrr⟩ := List.mem_iff_getElem?.mp hub
    have hrl : r < e.g.bgProcs.length := (List.getElem?_eq_some_iff.mp hrr).1
    have hri : (bgIndex fb).get? (u.2, u.1) = some r := (hB.bgIndex_get u.1 u.2 r).mpr hrr
    have hrd : bgDict e.g (pfIx e.st u) = some r := (hB.pos_bg huv).mpr hrr
    have hisb : isInBackground fb u.2 u.1 = true := (hB.inBg u.1 u.2).mpr hub
    have hfn : (fgIndex fb).get? (u.2, u.1) = none := by
      cases h : (fgIndex fb).get? (u.2, u.1) with
      | none => rfl
      | some i =>
        have hm := List.mem_of_getElem? ((hB.fgIndex_get u.1 u.2 i).mp h)
        exact absurd hub ((hg.isBg_not (hg.fg_sub _ hm)).mp hm)
    have hidx : indexOf fb u.2 u.1 = .ok r := by unfold indexOf; rw [hfn, hri]
    have e1 : yieldAt fb.fg (nonzero (ad.row r)) =
        ((e.g.fgProcs.filter (usesNet db strat u)).map mk, none) := by
      rw [hfg]
      exact yieldAt_row (ev := ev) hrl c2 (fun c v hv => hB.ad_any hm hv hrr) (by
        intro c v hv hus
        have hvf := List.mem_of_getElem? hv
        have hvp := hg.fg_sub v hvf
        obtain ⟨x, m', hx, hm', _, had, _⟩ := C07_foreground_all o fuel vs e he v
          ((known_iff hs v).mp hvp) (hfgb v hvf)
        rw [hm] at hm'; cases hm'
        have := had u ((usesB_iff v u).mp hus).1 hu (hbgb u hub)
        rw [hrd, (hB.pos_fg hvp).mpr hv] at this
        refine ⟨?_, hevnz v hvp hus⟩
        rw [this]; simp [ev, hx])
    have e2 : yieldAt fb.bg (nonzero (a.row r)) =
        ((e.g.bgProcs.filter (usesNet db strat u)).map mk, none) := by
      rw [hbg]
      exact yieldAt_row (ev := ev) hrl c3 (fun c v hv => hB.a_any hma hv hrr) (by
        intro c v hv hus
        have hvf := List.mem_of_getElem? hv
        have hvp := hg.bg_sub v hvf
        obtain ⟨x, ma', _, hx, hma'', _, haa, _⟩ := C07_background o fuel vs e he v
          ((known_iff hs v).mp hvp) (hbgb v hvf)
        rw [hma'] at hma''; cases hma''
        have := haa u ((usesB_iff v u).mp hus).1 (hbgb u hub) hu
        rw [hrd, (hB.pos_bg hvp).mpr hv] at this
        refine ⟨?_, hevnz v hvp hus⟩
        rw [this]; simp [ev, hx])
    refine ⟨(e.g.fgProcs.filter (usesNet db strat u)).map mk ++
      (e.g.bgProcs.filter (usesNet db strat u)).map mk, ?_, ?_, ?_⟩
    · unfold consumers
      rw [hidx]
      simp only [hisb, if_true, h2, h3]
      rw [e1, e2]; rfl
    · rw [List.map_append, key, key]
      refine List.nodup_append.mpr ⟨hg.fgNodup.filter _, hg.bgNodup.filter _, ?_⟩
      rintro x hx y hy rfl
      have hx' := (List.mem_filter.mp hx).1
      exact ((hg.isBg_not (hg.fg_sub x hx')).mp hx') (List.mem_filter.mp hy).1
    · intro v
      rw [List.map_append, key, key, List.mem_append, List.mem_filter, List.mem_filter, usesNet_iff]
      constructor
      · rintro (⟨h, hc⟩ | ⟨h, hc⟩)
        · exact ⟨(known_iff hs v).mp (hg.fg_sub v h), hc⟩
        · exact ⟨(known_iff hs v).mp (hg.bg_sub v h), hc⟩
      · rintro ⟨hk, hc⟩
        rcases hall v ((known_iff hs v).mpr hk) with h | h
        · exact Or.inl ⟨h, hc⟩
        · exact Or.inr ⟨h, hc⟩
  · -- a foreground product flow
    have huf : u ∈ e.g.fgProcs := (hg.isBg_not huv).mpr hub
    obtain ⟨r, hrr⟩ := List.mem_iff_getElem?.mp huf
    have hrl : r < e.g.fgProcs.length := (List.getElem?_eq_some_iff.mp hrr).1
    have hri : (fgIndex fb).get? (u.2, u.1) = some r := (hB.fgIndex_get u.1 u.2 r).mpr hrr
    have hrd : fgDict e.g (pfIx e.st u) = some r := (hB.pos_fg huv).mpr hrr
    have hisb : isInBackground fb u.2 u.1 = false := by
      rw [← Bool.not_eq_true, hB.inBg]; exact hub
    have hidx : indexOf fb u.2 u.1 = .ok r := by unfold indexOf; rw [hri]
    have e1 : yieldAt fb.fg (nonzero (af.row r)) =
        ((e.g.fgProcs.filter (usesNet db strat u)).map mk, none) := by
      rw [hfg]
      exact yieldAt_row (ev := ev) hrl c1 (fun c v hv => hB.af_any hm hv hrr) (by
        intro c v hv hus
        have hvf := List.mem_of_getElem? hv
        have hvp := hg.fg_sub v hvf
        obtain ⟨x, m', hx, hm', haf, _⟩ := C07_foreground_all o fuel vs e he v
          ((known_iff hs v).mp hvp) (hfgb v hvf)
        rw [hm] at hm'; cases hm'
        have := haf u ((usesB_iff v u).mp hus).1 hu (hfgb u huf)
        rw [hrd, (hB.pos_fg hvp).mpr hv] at this
        refine ⟨?_, hevnz v hvp hus⟩
        rw [this]; simp [ev, hx])
    refine ⟨(e.g.fgProcs.filter (usesNet db strat u)).map mk, ?_, ?_, ?_⟩
    · unfold consumers
      rw [hidx]
      simp only [hisb, Bool.false_eq_true, if_false, h1]
      exact e1
    · rw [key]; exact hg.fgNodup.filter _
    · intro v
      rw [key, List.mem_filter, usesNet_iff]
      constructor
      · rintro ⟨h, hc⟩
        exact ⟨(known_iff hs v).mp (hg.fg_sub v h), hc⟩
      · rintro ⟨hk, hc⟩
        refine ⟨?_, hc⟩
        rcases hall v ((known_iff hs v).mpr hk) with h | h
        · exact h
        · exfalso
          apply hub
          apply hg.bg_reach h (Relation.ReflTransGen.single _)
          by_contra hd
          exact hc.2 (useOf_zero hd)

/-- C61 fails when there is no foreground: asking for the consumers of any product flow raises TypeError. -/
theorem C61_fails_no_foreground (hr : fromIndex o db comp strat fuel vs = .ok fb) (u : F × P)
    (hu : Known db strat vs u) (hne : fb.fg = []) : consumers fb u.2 u.1 = ([], some .type) := by
  obtain ⟨e, s, he, hs, _, hB⟩ := fromIndex_built hr
  have hg : GraphOK db strat s e.g := hB.ok.gok
  obtain ⟨names, hn, hfg, hbg⟩ := hB.names
  have hf0 : e.g.fgProcs = [] := by
    have : fb.fg = e.g.fgProcs.map (makeTermRef db e.st names) := hfg
    rw [hne] at this; simpa using this.symm
  have huv := (known_iff hs u).mpr hu
  have hub : u ∈ e.g.bgProcs := by
    by_contra h
    have := (hg.isBg_not huv).mpr h
    rw [hf0] at this; simp at this
  have hno : makeForegroundAll { e with allAdded := false } = none := by
    have : pdim e.g = 0 := by rw [pdim_eq hg, hf0]; rfl
    unfold makeForegroundAll; rw [if_pos this]
  obtain ⟨_, had, _⟩ := hB.noFg hno
  obtain ⟨r, hrr⟩ := List.mem_iff_getElem?.mp hub
  have hri : (bgIndex fb).get? (u.2, u.1) = some r := (hB.bgIndex_get u.1 u.2 r).mpr hrr
  have hfn : (fgIndex fb).get? (u.2, u.1) = none := by
    unfold fgIndex; rw [hne]; rfl
  unfold consumers indexOf
  rw [hfn, hri]
  simp only [(hB.inBg u.1 u.2).mpr hub, if_true, had]

end

/-- 3 is consumed by 2 only; 1 by 0 and 2 -/
example : (match exFb with
    | .ok fb => [(consumers fb 3 3).1.map (·.term), (consumers fb 1 1).1.map (·.term),
        (consumers fb 0 0).1.map (·.term)]
    | .error _ => []) = [[2], [0, 2], []] := by decide +kernel

/-- a database that is one cycle has no foreground -/
example : (match fromIndex Ex.ord Ex.db (fun _ => none) .abort 10 [(1, 1)] with
    | .ok fb => some (fb.fg.length, (consumers fb 1 1).2) | .error _ => none) = some (0, some .type) := by
  decide +kernel

/-- the foreground of process 0: itself -/
example : (match exFb with
    | .ok fb => some (foreground fb 1 0 0) | .error _ => none) =
    some ([⟨0, 0, .output, none, 1⟩], none) := by decide +kernel

/-- A foreground with two levels and a shared supplier: 5 needs 6 and 7, which both need 8; 8 needs 1 in the cycle
of 1 and 2. -/
def deepInv : ℕ → List (Exch ℕ ℕ)
  | 1 => [Ex.ref 1, Ex.need 2 (1 / 2)]
  | 2 => [Ex.ref 2, Ex.need 1 (1 / 2)]
  | 5 => [Ex.ref 5, Ex.need 6 2, Ex.need 7 3]
  | 6 => [Ex.ref 6, Ex.need 8 1]
  | 7 => [Ex.ref 7, Ex.need 8 4]
  | 8 => [Ex.ref 8, Ex.need 1 1]
  | _ => []

def deepDb : DB ℕ ℕ where
  inv := fun u => deepInv u.2
  terms := fun f d => if d = .input then [f] else []
  refDir := fun u => if u.1 = u.2 ∧ u.1 ≤ 8 then some .output else none

/-- every link once, the shared supplier's too -/
example : (match fromIndex Ex.ord deepDb (fun _ => none) .abort 10 [(5, 5)] with
    | .ok fb => some ((foreground fb 4 5 5).1.map fun x => (x.process, x.term, x.value)) | .error _ => none) =
    some [(5, none, 1), (5, some 6, 2), (5, some 7, 3), (6, some 8, 1), (7, some 8, 4)] := by decide +kernel

/-- the example database with a process 4 that needs 0 and emits 1 of flow 10 -/
def extDb : DB ℕ ℕ where
  inv := fun u => if u.2 = 4 then [Ex.ref 4, Ex.emit 10 1, Ex.need 0 1] else Ex.inv u.2
  terms := fun f d => if f ≤ 3 ∧ d = .input then [f] else []
  refDir := fun u => if u.1 = u.2 ∧ u.1 ≤ 4 then some .output else none

/-- C61 fails for exterior flows: asked for the consumers of flow 9 in the compartment called 7, the flat
background answers with process 4, which has no exchange of flow 9 at all: it reads the row of the foreground
product flow that happens to have the same index. -/
theorem C61_fails_exterior :
    (match fromIndex Ex.ord extDb (fun _ => some 7) .abort 10 ((4, 4) :: Ex.roots) with
      | .ok fb => some ((consumers fb 7 9).1.map (fun t => t.term), (consumers fb 7 9).2)
      | .error _ => none) = some ([4], none) ∧
    (∀ x ∈ extDb.inv (4, 4), x.flow ≠ 9) := by
  constructor <;> decide +kernel

end FlatBg
