import Verif.Model.BgManager
import Verif.Props.FlatBgDeps

/-!
C221–C223: what a background manager reports of a product flow, against the inventory data.
-/

set_option linter.unusedSectionVars false
set_option linter.unusedSimpArgs false

namespace BgMgr
open Engine FlatBg
variable {F P : Type} [DecidableEq F] [DecidableEq P]
variable {db : DB F P} {strat : Strategy}

/-! ### the words of the claims -/

/-- the amount of output that the exchanges of a product flow are divided by: for a product whose inputs of itself are not negative and
come to less than one unit, one minus these; without such inputs, 1, or -1 for the treatment of a waste (a reference input) -/
def Scale (db : DB F P) (strat : Strategy) (u : F × P) (r : ℚ) : Prop :=
  (db.refDir u = some .output ∧ (∀ x ∈ db.inv u, ∀ v, depOf db strat x = some (u, v) → 0 ≤ v) ∧ useOf db strat u u < 1 ∧
    r = 1 - useOf db strat u u) ∨
  (¬ Depends db strat u u ∧ r = if db.refDir u = some .input then -1 else 1)

/-- the exchanges of a product flow with other product flows: with which, and how much (inputs positive) -/
def uses (db : DB F P) (strat : Strategy) (u : F × P) : List ((F × P) × ℚ) :=
  ((db.inv u).filterMap (depOf db strat)).filter fun wv => decide (wv.1 ≠ u)

/-- the exchanges of a product flow with the exterior -/
def emits (db : DB F P) (strat : Strategy) (u : F × P) : List ((F × Dir) × ℚ) := (db.inv u).filterMap (cutOf db strat)

/-- the exchange that says: `q` of `w` is taken in, or put out if `q` is negative -/
def report (u w : F × P) (q : ℚ) : ExchDef F P := ⟨u.2, w.1, if q < 0 then .output else .input, some w.2, |q|⟩

/-! ### lemmas -/

theorem scale_ev {o : SetOrd F P} {fuel : ℕ} {vs : List (F × P)} {e : Eng F P}
    (hr : addAllRefProducts o db strat fuel vs {} = some e) {u : F × P} (hu : Known db strat vs u) {r : ℚ} (hs : Scale db strat u r) :
    e.st.ev.get? u = some r := by
  rcases hs with ⟨hd, hself, hlt, rfl⟩ | ⟨hself, rfl⟩
  · exact ((C09_self_consumption_partial o fuel vs e hr).1 u hu hd hself hlt).1
  · exact ev_noself hr hu hself

theorem intOf_eq (u : F × P) (xs : List (Exch F P)) :
    intOf db strat u xs = ((xs.filterMap (depOf db strat)).filter fun wv => decide (wv.1 ≠ u)).map fun wv => (u, wv.1, wv.2) := by
  unfold intOf
  induction xs with
  | nil => rfl
  | cons x xs ih =>
    rw [List.filterMap_cons, List.filterMap_cons]
    cases hd : depOf db strat x with
    | none => simpa using ih
    | some wv =>
      obtain ⟨w, v⟩ := wv
      simp only [List.filter_cons]
      by_cases h : w = u
      · simp [h]; simpa using ih
      · simp [h]; simpa using ih

theorem extOf_eq (u : F × P) (xs : List (Exch F P)) :
    extOf db strat u xs = (xs.filterMap (cutOf db strat)).map fun av => (u, av.1, av.2) := by
  unfold extOf
  rw [List.map_filterMap]

/-- the entries of the engine for a foreground product flow -/
theorem fg_entries {o : SetOrd F P} {fuel : ℕ} {vs : List (F × P)} {e : Eng F P}
    (hr : addAllRefProducts o db strat fuel vs {} = some e) {u : F × P} (hu : Known db strat vs u)
    (hb : isBackground e.g (pfIx e.st u) = false) {r : ℚ} (hs : Scale db strat u r) :
    fgDeps e u = ((uses db strat u).map fun wv => (u, wv.1, wv.2 / r)).reverse ∧
    fgEms e u = ((emits db strat u).map fun av => (u, av.1, av.2 / r)).reverse := by
  have hev := scale_ev hr hu hs
  obtain ⟨s, hss, hrest, hok⟩ := addAllRefProducts_spec hr
  have hst : e.st = { s with interior := [], cutoffs := [] } := hok.st
  have hix : ∀ u, pfIx e.st u = pfIx s u := by intro u; rw [hst]; rfl
  have huv := (known_iff hss u).mpr hu
  have hev' : s.ev.get? u = some r := by rw [hst] at hev; exact hev
  have hd := hrest.data.fin u huv (by simp)
  have hb' : isBackground e.g (pfIx s u) = false := by rw [← hix]; exact hb
  have hfgd : e.foreground = (s.interior.map fun i => (i.1, i.2.1, i.2.2 / (s.ev.get? i.1).getD 0)).filter
    fun i => !isBackground e.g (pfIx s i.1) := hok.fgd
  have hcut : e.cutoff = (s.cutoffs.map fun i => (i.1, i.2.1, i.2.2 / (s.ev.get? i.1).getD 0)).filter
    fun i => !isBackground e.g (pfIx s i.1) := hok.cut
  constructor
  · unfold fgDeps
    rw [hfgd, List.filter_filter, List.filter_map]
    have h1 : s.interior.filter ((fun i : (F × P) × (F × P) × ℚ =>
        decide (pfIx e.st i.1 = pfIx e.st u) && !isBackground e.g (pfIx s i.1)) ∘
        fun i => (i.1, i.2.1, i.2.2 / (s.ev.get? i.1).getD 0)) = s.interior.filter fun i => decide (i.1 = u) := by
      apply List.filter_congr
      intro i hi
      have h2 := hrest.data.newI i hi
      simp only [Function.comp, hix]
      by_cases h : i.1 = u
      · simp [h, hb']
      · have : pfIx s i.1 ≠ pfIx s u := fun hh => h (hrest.inv.pfIx_inj h2 huv hh)
        simp [h, this]
    rw [h1, hd.int, intOf_eq, List.map_reverse, List.map_map]
    unfold uses
    congr 1
    apply List.map_congr_left
    intro wv _
    simp [hev']
  · unfold fgEms
    rw [hcut, List.filter_filter, List.filter_map]
    have h1 : s.cutoffs.filter ((fun i : (F × P) × (F × Dir) × ℚ =>
        decide (pfIx e.st i.1 = pfIx e.st u) && !isBackground e.g (pfIx s i.1)) ∘
        fun i => (i.1, i.2.1, i.2.2 / (s.ev.get? i.1).getD 0)) = s.cutoffs.filter fun i => decide (i.1 = u) := by
      apply List.filter_congr
      intro i hi
      have h2 := hrest.data.newC i hi
      simp only [Function.comp, hix]
      by_cases h : i.1 = u
      · simp [h, hb']
      · have : pfIx s i.1 ≠ pfIx s u := fun hh => h (hrest.inv.pfIx_inj h2 huv hh)
        simp [h, this]
    rw [h1, hd.cut, extOf_eq, List.map_reverse, List.map_map]
    unfold emits
    congr 1
    apply List.map_congr_left
    intro wv _
    simp [hev']

/-! ### C221 -/

/-- C221, foreground. The dependencies of a foreground product flow are its exchanges with background product flows, one for one,
with the true direction and amount per unit of net output, sorted by position in the background. -/
theorem manager_deps_fg (o : SetOrd F P) (fuel : ℕ) (vs : List (F × P)) (e : Eng F P)
    (hr : addAllRefProducts o db strat fuel vs {} = some e) (u : F × P) (hu : Known db strat vs u)
    (hb : isBackground e.g (pfIx e.st u) = false) (r : ℚ) (hs : Scale db strat u r) :
    (dependencies db e u).2 = none ∧
    (dependencies db e u).1.Perm
      (((uses db strat u).filter fun wv => isBackground e.g (pfIx e.st wv.1)).map fun wv => report u wv.1 (wv.2 / r)) ∧
    (dependencies db e u).1.Pairwise fun x y => ∀ p q, x.term = some p → y.term = some q →
      (bgDict e.g (pfIx e.st (x.flow, p))).getD 0 ≤ (bgDict e.g (pfIx e.st (y.flow, q))).getD 0 := by
  unfold dependencies
  rw [hb]
  simp only [Bool.false_eq_true, if_false]
  refine ⟨trivial, ?_, ?_⟩
  · refine ((List.perm_insertionSort _ _).map _).trans ?_
    rw [(fg_entries hr hu hb hs).1, List.filter_reverse, List.map_reverse]
    refine (List.reverse_perm _).trans ?_
    rw [List.filter_map, List.map_map]
    apply List.Perm.of_eq
    rfl
  · rw [List.pairwise_map]
    have hsort := List.pairwise_insertionSort (r := fun i j : (F × P) × (F × P) × ℚ => pos e i ≤ pos e j)
      ((fgDeps e u).filter fun i => isBackground e.g (pfIx e.st i.2.1))
    refine hsort.imp ?_
    intro a b hab p q hp hq
    simp only [Option.some.injEq] at hp hq
    subst hp hq
    exact hab

/-- the loop over a column without stored zeros -/
theorem colLoop_eq {T : Type} (mk : T → ℚ → ExchDef F P) (en : List T) (val : T → ℚ) (has : T → Bool) {nc c : ℕ} (hc : c < nc)
    {ts : List (Option ℕ × Option ℕ × ℚ)} {m : Sp} (hm : csr en.length nc ts = some m)
    (hany : ∀ (r : ℕ) (w : T), en[r]? = some w → ts.any (fun t => decide (t.1 = some r ∧ t.2.1 = some c)) = has w)
    (hent : ∀ (r : ℕ) (w : T), en[r]? = some w → has w = true → entry ts (some r) (some c) = val w)
    (hnz : ∀ w, has w = true → val w ≠ 0) :
    colLoop mk en (pairs (m.col c)) = ((en.filter has).map fun w => mk w (val w), none) ∧
    nonzero (m.col c) = (m.col c).map Prod.fst ∧ ((m.col c).map Prod.fst = [] ↔ en.filter has = []) := by
  have hcol := csr_col hm hc
  have hmem : ∀ t ∈ m.col c, t.1 < en.length ∧ t.2 ≠ 0 := by
    intro t ht
    rw [hcol, List.mem_filterMap] at ht
    obtain ⟨r, hr, ht⟩ := ht
    have hlt := List.mem_range.mp hr
    have hw : en[r]? = some en[r] := List.getElem?_eq_getElem hlt
    rw [hany r _ hw] at ht
    split at ht
    · rename_i hu
      simp only [Option.some.injEq] at ht
      subst ht
      refine ⟨hlt, ?_⟩
      simp only
      rw [hent r _ hw hu]
      exact hnz _ hu
    · cases ht
  have hloop : ∀ ps : List (ℕ × ℚ), (∀ t ∈ ps, t.1 < en.length) →
      colLoop mk en ps = (ps.filterMap fun t => (en[t.1]?).map fun w => mk w t.2, none) := by
    intro ps
    induction ps with
    | nil => intro _; rfl
    | cons t ps ih =>
      intro h
      obtain ⟨i, d⟩ := t
      have hlt := h (i, d) (by simp)
      simp only at hlt
      rw [colLoop, List.getElem?_eq_getElem hlt]
      simp only
      rw [ih (fun t ht => h t (List.mem_cons_of_mem _ ht)), List.filterMap_cons]
      simp [List.getElem?_eq_getElem hlt]
  have hlist : ((m.col c).filterMap fun t => (en[t.1]?).map fun w => mk w t.2) = (en.filter has).map fun w => mk w (val w) := by
    rw [hcol, List.filterMap_filterMap]
    have h1 : (en.filter has).map (fun w => mk w (val w)) = en.filterMap fun w => if has w then some (mk w (val w)) else none := by
      clear hloop hmem hcol hany hent hm
      induction en with
      | nil => rfl
      | cons a en ih => by_cases h : has a = true <;> simp [List.filter_cons, h, ih]
    rw [h1]
    apply filterMap_range_getElem
    intro r w hw
    rw [hany r w hw]
    by_cases hu : has w = true
    · simp [hu, hent r w hw hu, hw]
    · simp [hu]
  refine ⟨?_, ?_, ?_⟩
  · rw [pairs_eq (fun t ht => (hmem t ht).2), hloop _ (fun t ht => (hmem t ht).1), hlist]
  · unfold nonzero
    rw [List.filter_eq_self.mpr]
    intro t ht
    simpa using (hmem t ht).2
  · have hlen : ((m.col c).filterMap fun t => (en[t.1]?).map fun w => mk w t.2).length = (m.col c).length := by
      have : ∀ ps : List (ℕ × ℚ), (∀ t ∈ ps, t.1 < en.length) →
          (ps.filterMap fun t => (en[t.1]?).map fun w => mk w t.2).length = ps.length := by
        intro ps
        induction ps with
        | nil => intro _; rfl
        | cons t ps ih =>
          intro h
          have hlt := h t (by simp)
          rw [List.filterMap_cons, List.getElem?_eq_getElem hlt]
          simp [ih (fun t ht => h t (List.mem_cons_of_mem _ ht))]
      exact this _ (fun t ht => (hmem t ht).1)
    rw [hlist, List.length_map] at hlen
    rw [List.map_eq_nil_iff, ← List.length_eq_zero_iff, ← List.length_eq_zero_iff, hlen]

/-- the columns of the engine for a background product flow -/
theorem bg_columns {o : SetOrd F P} {fuel : ℕ} {vs : List (F × P)} {e : Eng F P}
    (hr : addAllRefProducts o db strat fuel vs {} = some e) {u : F × P} (hu : Known db strat vs u)
    (hb : isBackground e.g (pfIx e.st u) = true) {r : ℚ} (hs : Scale db strat u r) :
    ∃ c ta tb a b, c < e.g.bgProcs.length ∧ colA e u = .ok (Sp.col a c) ∧ colB e u = .ok (Sp.col b c) ∧
      csr e.g.bgProcs.length e.g.bgProcs.length ta = some a ∧ csr e.st.emissions.length e.g.bgProcs.length tb = some b ∧
      (∀ (i : ℕ) (w : F × P), e.g.bgProcs[i]? = some w →
        ta.any (fun t => decide (t.1 = some i ∧ t.2.1 = some c)) = usesB db strat u w) ∧
      (∀ (i : ℕ) (w : F × P), e.g.bgProcs[i]? = some w → usesB db strat u w = true →
        entry ta (some i) (some c) = useOf db strat u w / r) ∧
      (∀ (i : ℕ) (x : F × Dir), e.st.emissions[i]? = some x →
        tb.any (fun t => decide (t.1 = some i ∧ t.2.1 = some c)) = emitsB db strat u x) ∧
      (∀ (i : ℕ) (x : F × Dir), e.st.emissions[i]? = some x → entry tb (some i) (some c) = emitOf db strat u x / r) ∧
      ((∃ w, usesB db strat u w = true) → r ≠ 0) ∧ ((∃ a, emitsB db strat u a = true) → r ≠ 0) ∧ e.g.bgProcs.Nodup ∧
      e.st.emissions.Nodup ∧ (∀ w, usesB db strat u w = true → w ∈ e.g.bgProcs) ∧
      (∀ x, emitsB db strat u x = true → x ∈ e.st.emissions) := by
  have hev := scale_ev hr hu hs
  obtain ⟨s, hss, hrest, hok⟩ := addAllRefProducts_spec hr
  have hst : e.st = { s with interior := [], cutoffs := [] } := hok.st
  have hix : ∀ u, pfIx e.st u = pfIx s u := by intro u; rw [hst]; rfl
  have hemx : ∀ a, emIx e.st a = emIx s a := by intro a; rw [hst]; rfl
  have hems : e.st.emissions = s.emissions := by rw [hst]
  have huv := (known_iff hss u).mpr hu
  have hg : GraphOK db strat s e.g := hok.gok
  obtain ⟨ev, ma, mb, hev2, hma, hmb, hA, hB, hdep, hem⟩ := C07_background o fuel vs e hr u hu hb
  have : ev = r := by rw [hev] at hev2; exact (Option.some.inj hev2).symm
  subst this
  have hbg : e.g.background ≠ none := by
    intro hn
    rcases hok.mat with ⟨_, h1, _⟩ | ⟨h1, _⟩
    · have h1' : e.aMatrix = none := h1
      rw [h1'] at hma; cases hma
    · exact h1 hn
  obtain ⟨fb, _, hBt⟩ := (fromEngine_spec hok (fun _ : F => (none : Option P))).2 hbg
  obtain ⟨a, b, ma', mb', h1, h2, h3, h4, c1, c2⟩ := hBt.lci
  have e1 : ma' = ma := by have h3' : e.aMatrix = some ma' := h3; rw [h3'] at hma; exact Option.some.inj hma
  have e2 : mb' = mb := by have h4' : e.bMatrix = some mb' := h4; rw [h4'] at hmb; exact Option.some.inj hmb
  subst e1 e2
  have huf : u ∈ e.g.bgProcs := by rw [← hg.isBg huv, ← hix, hb]
  obtain ⟨c, hc⟩ := List.mem_iff_getElem?.mp huf
  have hcl : c < e.g.bgProcs.length := (List.getElem?_eq_some_iff.mp hc).1
  have hcd : bgDict e.g (pfIx e.st u) = some c := (hBt.pos_bg huv).mpr hc
  have hnd : ndim e.g = e.g.bgProcs.length := ndim_eq hg
  have hcA : csr (ndim e.g) (ndim e.g) ma' = some a := by rw [hnd]; exact c1
  have hcB : csr e.st.emissions.length (ndim e.g) (mb'.map fun t => ((some t.1, t.2.1, t.2.2) : Option ℕ × Option ℕ × ℚ)) = some b := by
    rw [hnd, hems]; exact c2
  have hnz := ev_nz hss hBt huv hev
  refine ⟨c, ma', mb'.map fun t => (some t.1, t.2.1, t.2.2), a, b, hcl, ?_, ?_, c1, by rw [hems]; exact c2,
    fun i w hw => hBt.a_any hma hc hw, ?_, ?_, ?_, hnz.1, hnz.2, hg.bgNodup, by rw [hems]; exact hg.rest.data.emn, ?_, ?_⟩
  · unfold colA column
    rw [hma]
    simp only
    rw [hcA, hcd]
  · unfold colB column
    rw [hmb]
    simp only [Option.map_some]
    rw [hcB, hcd]
  · intro i w hw huse
    have hwf := List.mem_of_getElem? hw
    have hwp := hg.bg_sub w hwf
    have hwb : isBackground e.g (pfIx e.st w) = true := by rw [hix]; exact (hg.isBg hwp).mpr hwf
    have := hA w ((usesB_iff u w).mp huse).1 hwb ((known_iff hss w).mp hwp)
    rw [hcd, (hBt.pos_bg hwp).mpr hw] at this
    exact this
  · intro i x hx
    exact hBt.b_any hmb hc (by rw [← hems]; exact hx)
  · intro i x hx
    rw [hems] at hx
    have hae := List.mem_of_getElem? hx
    have := hB x
    rw [hcd, hemx, (em_get hg.rest.data.emn hae).mpr hx] at this
    rw [entry_someRow]; exact this
  · intro w hw
    have hd := ((usesB_iff u w).mp hw).2
    have hwp := hg.rest.closed huv hd
    have := hdep w hd
    rw [hix] at this
    exact (hg.isBg hwp).mp this
  · intro x hx
    obtain ⟨y, hy, v, hv⟩ := (emitsB_iff u x).mp hx
    exact hem y hy x v hv

/-- the background product flows that `u` has exchanges with -/
def partners (db : DB F P) (strat : Strategy) (bg : List (F × P)) (u : F × P) : List (F × P) :=
  bg.filter fun w => decide (w ≠ u) && (db.inv u).any fun x => (depOf db strat x).any fun wv => decide (wv.1 = w)

/-- the exterior flows that `u` has exchanges with -/
def outlets (db : DB F P) (strat : Strategy) (em : List (F × Dir)) (u : F × P) : List (F × Dir) :=
  em.filter fun a => (db.inv u).any fun x => (cutOf db strat x).any fun av => decide (av.1 = a)

/-- C221, background, provided the exchanges with one product flow do not cancel. There is one dependency for each product flow that a
background product flow has exchanges with; its value is the amount taken in per unit of output, but its direction is read off the
reference exchange of the other side: right for products, the wrong way round for treated wastes. -/
theorem manager_deps_bg (o : SetOrd F P) (fuel : ℕ) (vs : List (F × P)) (e : Eng F P)
    (hr : addAllRefProducts o db strat fuel vs {} = some e) (u : F × P) (hu : Known db strat vs u)
    (hb : isBackground e.g (pfIx e.st u) = true) (r : ℚ) (hs : Scale db strat u r)
    (hnz : ∀ w, w ≠ u → Depends db strat u w → useOf db strat u w ≠ 0) :
    dependencies db e u = ((partners db strat e.g.bgProcs u).map fun w =>
      ⟨u.2, w.1, if db.refDir w = some .input then .output else .input, some w.2, useOf db strat u w / r⟩, none) ∧
    e.g.bgProcs.Nodup ∧ ∀ w, w ≠ u → Depends db strat u w → w ∈ e.g.bgProcs := by
  obtain ⟨c, ta, tb, a, b, hc, hA, -, hca, -, hany, hent, -, -, hrz, -, hnd, -, hin, -⟩ := bg_columns hr hu hb hs
  refine ⟨?_, hnd, fun w hw hd => hin w ((usesB_iff u w).mpr ⟨hw, hd⟩)⟩
  unfold dependencies
  rw [if_pos hb, hA]
  simp only
  have h := (colLoop_eq (fun (w : F × P) d => (⟨u.2, w.1, compRef db w, some w.2, d⟩ : ExchDef F P)) e.g.bgProcs
    (fun w => useOf db strat u w / r) (usesB db strat u) hc hca hany hent (by
      intro w hw
      have h := (usesB_iff u w).mp hw
      exact div_ne_zero (hnz w h.1 h.2) (hrz ⟨w, hw⟩))).1
  rw [h]
  have h2 : ∀ w, compRef db w = if db.refDir w = some .input then .output else .input := by
    intro w
    unfold compRef
    cases hd : db.refDir w with
    | none => rfl
    | some d => cases d <;> rfl
  simp only [h2]
  rfl

/-! ### C222 -/

/-- C222. The emissions of a product flow: those of a foreground one are its exchanges with the exterior, one for one; for a background
one there is one per exterior flow, with the total. Amounts are per unit of net output. -/
theorem manager_emissions (o : SetOrd F P) (fuel : ℕ) (vs : List (F × P)) (e : Eng F P)
    (hr : addAllRefProducts o db strat fuel vs {} = some e) (u : F × P) (hu : Known db strat vs u) (r : ℚ) (hs : Scale db strat u r) :
    (isBackground e.g (pfIx e.st u) = false →
      emissions e u = (((emits db strat u).map fun av => ⟨u.2, av.1.1, av.1.2, none, av.2 / r⟩).reverse, none)) ∧
    (isBackground e.g (pfIx e.st u) = true → (∀ a, a ∈ (emits db strat u).map Prod.fst → emitOf db strat u a ≠ 0) →
      emissions e u = ((outlets db strat e.st.emissions u).map fun a => ⟨u.2, a.1, a.2, none, emitOf db strat u a / r⟩, none) ∧
      e.st.emissions.Nodup ∧ ∀ a, a ∈ (emits db strat u).map Prod.fst → a ∈ e.st.emissions) := by
  have hmem : ∀ a, a ∈ (emits db strat u).map Prod.fst ↔ emitsB db strat u a = true := by
    intro a
    rw [emitsB_iff]
    unfold emits
    simp only [List.mem_map, List.mem_filterMap]
    constructor
    · rintro ⟨⟨a', v⟩, ⟨x, hx, hv⟩, rfl⟩
      exact ⟨x, hx, v, hv⟩
    · rintro ⟨x, hx, v, hv⟩
      exact ⟨(a, v), ⟨x, hx, hv⟩, rfl⟩
  constructor
  · intro hb
    unfold emissions
    rw [hb]
    simp only [Bool.false_eq_true, if_false]
    rw [(fg_entries hr hu hb hs).2, List.map_reverse, List.map_map]
    rfl
  · intro hb hnz
    obtain ⟨c, ta, tb, a, b, hc, -, hB, -, hcb, -, -, hany, hent, -, hrz, -, hnd, -, hin⟩ := bg_columns hr hu hb hs
    refine ⟨?_, hnd, fun x hx => hin x ((hmem x).mp hx)⟩
    unfold emissions
    rw [if_pos hb, hB]
    simp only
    exact (colLoop_eq (fun (x : F × Dir) d => (⟨u.2, x.1, x.2, none, d⟩ : ExchDef F P)) e.st.emissions
      (fun x => emitOf db strat u x / r) (emitsB db strat u) hc hcb hany (fun i x hx _ => hent i x hx) (by
        intro x hx
        exact div_ne_zero (hnz x ((hmem x).mpr hx)) (hrz ⟨x, hx⟩))).1

/-! ### C223 -/

/-- what the inventory of a product flow should say: the reference exchange and, per unit of net output, its exchanges with product
flows (outputs as positive amounts of Output) and with the exterior -/
def Right (db : DB F P) (strat : Strategy) (u : F × P) (r : ℚ) (L : List (ExchDef F P)) : Prop :=
  L.Perm (⟨u.2, u.1, (db.refDir u).getD .output, none, 1⟩ ::
    ((uses db strat u).map fun wv => ⟨u.2, wv.1.1, if wv.2 / r < 0 then .output else .input, none, |wv.2 / r|⟩) ++
    (emits db strat u).map fun av => ⟨u.2, av.1.1, av.1.2, none, av.2 / r⟩)

/-- C223, foreground: the inventory of a foreground product flow, exactly -/
theorem inventory_fg (o : SetOrd F P) (fuel : ℕ) (vs : List (F × P)) (e : Eng F P)
    (hr : addAllRefProducts o db strat fuel vs {} = some e) (u : F × P) (hu : Known db strat vs u)
    (hb : isBackground e.g (pfIx e.st u) = false) (r : ℚ) (hs : Scale db strat u r) :
    inventory db e u = .ok (⟨u.2, u.1, (db.refDir u).getD .output, none, 1⟩ ::
      ((uses db strat u).map fun wv =>
        (⟨u.2, wv.1.1, if wv.2 / r < 0 then .output else .input, none, wv.2 / r⟩ : ExchDef F P)).reverse ++
      ((emits db strat u).map fun av => (⟨u.2, av.1.1, av.1.2, none, av.2 / r⟩ : ExchDef F P)).reverse) := by
  unfold inventory
  rw [hb]
  simp only [Bool.false_eq_true, if_false]
  rw [(fg_entries hr hu hb hs).1, (fg_entries hr hu hb hs).2, List.map_reverse, List.map_reverse, List.map_map, List.map_map]
  rfl

/-- C223, foreground: the inventory is right exactly if the product flow gives nothing to other product flows: what it gives (a
by-product, a waste sent to treatment) is reported as an Output of a negative amount. -/
theorem inventory_fg_iff (o : SetOrd F P) (fuel : ℕ) (vs : List (F × P)) (e : Eng F P)
    (hr : addAllRefProducts o db strat fuel vs {} = some e) (u : F × P) (hu : Known db strat vs u)
    (hb : isBackground e.g (pfIx e.st u) = false) (r : ℚ) (hs : Scale db strat u r) :
    (∃ L, inventory db e u = .ok L ∧ Right db strat u r L) ↔ ∀ wv ∈ uses db strat u, 0 ≤ wv.2 / r := by
  have hL := inventory_fg o fuel vs e hr u hu hb r hs
  constructor
  · rintro ⟨L, h1, h2⟩
    rw [hL] at h1
    injection h1 with h1
    subst h1
    unfold Right at h2
    have h3 := List.perm_append_right_iff _ |>.mp
      (h2.symm.trans (List.Perm.append_left _ (List.reverse_perm _)))
    have h4 := ((List.perm_cons _).mp h3).trans (List.reverse_perm _)
    have h5 := (h4.map fun x => x.value).sum_eq
    rw [List.map_map, List.map_map] at h5
    by_contra hneg
    push Not at hneg
    obtain ⟨wv, hwv, hlt⟩ := hneg
    have hle : ∀ l : List ((F × P) × ℚ), (l.map fun wv => wv.2 / r).sum ≤ (l.map fun wv => |wv.2 / r|).sum := by
      intro l
      induction l with
      | nil => simp
      | cons a l ih => simp only [List.map_cons, List.sum_cons]; exact add_le_add (le_abs_self _) ih
    have hlts : ∀ l : List ((F × P) × ℚ), wv ∈ l → (l.map fun wv => wv.2 / r).sum < (l.map fun wv => |wv.2 / r|).sum := by
      intro l hm
      induction l with
      | nil => cases hm
      | cons a l ih =>
        simp only [List.map_cons, List.sum_cons]
        rcases List.mem_cons.mp hm with h | h
        · subst h
          exact add_lt_add_of_lt_of_le (lt_of_lt_of_le hlt (abs_nonneg _)) (hle l)
        · exact add_lt_add_of_le_of_lt (le_abs_self _) (ih h)
    exact absurd h5 (ne_of_gt (hlts _ hwv))
  · intro h
    refine ⟨_, hL, ?_⟩
    unfold Right
    refine List.Perm.append ?_ (List.reverse_perm _)
    refine List.Perm.cons _ ((List.reverse_perm _).trans (List.Perm.of_eq ?_))
    apply List.map_congr_left
    intro wv hwv
    rw [abs_of_nonneg (h wv hwv)]

/-- C223, background, amounts not cancelling: a background product flow with an exchange with the exterior has no inventory, the call
fails; without one the inventory is the reference exchange and the right exchanges with other product flows. -/
theorem inventory_bg (o : SetOrd F P) (fuel : ℕ) (vs : List (F × P)) (e : Eng F P)
    (hr : addAllRefProducts o db strat fuel vs {} = some e) (u : F × P) (hu : Known db strat vs u)
    (hb : isBackground e.g (pfIx e.st u) = true) (r : ℚ) (hs : Scale db strat u r)
    (hnz : ∀ w, w ≠ u → Depends db strat u w → useOf db strat u w ≠ 0)
    (hnz' : ∀ a, a ∈ (emits db strat u).map Prod.fst → emitOf db strat u a ≠ 0) :
    inventory db e u = if emits db strat u ≠ [] then .error .attribute else
      .ok (⟨u.2, u.1, (db.refDir u).getD .output, none, 1⟩ :: (partners db strat e.g.bgProcs u).map fun w =>
        ⟨u.2, w.1, if useOf db strat u w / r < 0 then .output else .input, none, |useOf db strat u w / r|⟩) := by
  obtain ⟨c, ta, tb, a, b, hc, hA, hB, hca, hcb, hany, hent, hany', hent', hrz, hrz', hnd, hndE, hin, hin'⟩ := bg_columns hr hu hb hs
  have hmem : ∀ a, a ∈ (emits db strat u).map Prod.fst ↔ emitsB db strat u a = true := by
    intro a
    rw [emitsB_iff]
    unfold emits
    simp only [List.mem_map, List.mem_filterMap]
    constructor
    · rintro ⟨⟨a', v⟩, ⟨x, hx, hv⟩, rfl⟩
      exact ⟨x, hx, v, hv⟩
    · rintro ⟨x, hx, v, hv⟩
      exact ⟨(a, v), ⟨x, hx, hv⟩, rfl⟩
  have h1 := (colLoop_eq (fun (w : F × P) d => (⟨u.2, w.1, if d < 0 then .output else .input, none, |d|⟩ : ExchDef F P)) e.g.bgProcs
    (fun w => useOf db strat u w / r) (usesB db strat u) hc hca hany hent (by
      intro w hw
      have h := (usesB_iff u w).mp hw
      exact div_ne_zero (hnz w h.1 h.2) (hrz ⟨w, hw⟩))).1
  have h2 := (colLoop_eq (fun (x : F × Dir) d => (⟨u.2, x.1, x.2, none, d⟩ : ExchDef F P)) e.st.emissions
      (fun x => emitOf db strat u x / r) (emitsB db strat u) hc hcb hany' (fun i x hx _ => hent' i x hx) (by
        intro x hx
        exact div_ne_zero (hnz' x ((hmem x).mpr hx)) (hrz' ⟨x, hx⟩))).2
  have hnil : nonzero (b.col c) = [] ↔ emits db strat u = [] := by
    rw [h2.1, h2.2]
    constructor
    · intro h
      by_contra hne
      obtain ⟨x, hx⟩ := List.exists_mem_of_ne_nil _ hne
      have hx' := (hmem x.1).mp (List.mem_map_of_mem hx)
      have := List.mem_filter.mpr ⟨hin' _ hx', hx'⟩
      rw [h] at this
      cases this
    · intro h
      rw [List.filter_eq_nil_iff]
      intro x _ hx
      have := (hmem x).mpr hx
      rw [h] at this
      cases this
  unfold inventory
  rw [if_pos hb, hA, hB]
  simp only [h1]
  by_cases hem : emits db strat u = []
  · rw [hnil.mpr hem]
    simp only [hem, ne_eq, not_true_eq_false, if_false]
    rfl
  · have hne : nonzero (b.col c) ≠ [] := fun h => hem (hnil.mp h)
    cases hn : nonzero (b.col c) with
    | nil => exact absurd hn hne
    | cons x l => simp [hem]

/-! ### examples and witnesses -/

def exEng : Option (Eng ℕ ℕ) := addAllRefProducts Ex.ord Ex.db .abort 20 Ex.roots {}

/-- what is reported of a product flow: is it in the background, its dependencies, emissions and inventory (none if the call fails) -/
structure Told where
  bg : Bool
  deps : Gen (ExchDef ℕ ℕ)
  ems : Gen (ExchDef ℕ ℕ)
  inv : Option (List (ExchDef ℕ ℕ))
  deriving DecidableEq

def told (db : DB ℕ ℕ) (e : Eng ℕ ℕ) (u : ℕ × ℕ) : Told :=
  ⟨isBackground e.g (pfIx e.st u), dependencies db e u, emissions e u, (inventory db e u).toOption⟩

/-- 0 is foreground: it needs 2 of 1 and emits 3 of 9 -/
example : exEng.map (fun e => told Ex.db e (0, 0)) =
    some ⟨false, ([⟨0, 1, .input, some 1, 2⟩], none), ([⟨0, 9, .output, none, 3⟩], none),
      some [⟨0, 0, .output, none, 1⟩, ⟨0, 1, .input, none, 2⟩, ⟨0, 9, .output, none, 3⟩]⟩ := by decide +kernel

/-- 1 is background and needs 1/4 of itself: it needs (1/2) / (3/4) of 2, and emits nothing -/
example : exEng.map (fun e => told Ex.db e (1, 1)) =
    some ⟨true, ([⟨1, 2, .input, some 2, 2 / 3⟩], none), ([], none),
      some [⟨1, 1, .output, none, 1⟩, ⟨1, 2, .input, none, 2 / 3⟩]⟩ := by decide +kernel

/-- 3 is background and emits 7 of 9: it has no inventory -/
example : exEng.map (fun e => told Ex.db e (3, 3)) =
    some ⟨true, ([], none), ([⟨3, 9, .output, none, 7⟩], none), none⟩ := by decide +kernel

/-- the amounts by which the theorems divide, for these three -/
example : Scale Ex.db .abort (0, 0) 1 ∧ Scale Ex.db .abort (1, 1) (3 / 4) := by
  refine ⟨.inr ⟨?_, by decide +kernel⟩, .inl ⟨rfl, ?_, by decide +kernel, by decide +kernel⟩⟩
  · have : usesB Ex.db .abort (0, 0) (0, 0) = false ∧ (Ex.db.inv (0, 0)).all (fun x =>
        !(depOf Ex.db .abort x).any fun wv => decide (wv.1 = (0, 0))) = true := by decide +kernel
    intro hd
    rw [depends_iff] at hd
    obtain ⟨x, hx, v, hv⟩ := hd
    have h := List.all_eq_true.mp this.2 x hx
    rw [hv] at h
    simp at h
  · have : (Ex.db.inv (1, 1)).all (fun x => (depOf Ex.db .abort x).all fun wv => decide (0 ≤ wv.2)) = true := by decide +kernel
    intro x hx v hv
    have h := List.all_eq_true.mp this x hx
    rw [hv] at h
    simpa using h

def oddEng : Option (Eng ℕ ℕ) :=
  addAllRefProducts Ex.ord oddDb .abort 10 [(0, 0), (1, 1), (2, 2), (3, 3), (4, 4)] {}

/-- C223 fails for waste: process 4 puts out 3 of a waste, and its inventory says that it puts out -3. -/
theorem inventory_fails_waste :
    oddEng.map (fun e => told oddDb e (4, 4)) =
      some ⟨false, ([], none), ([], none),
        some [⟨4, 4, .output, none, 1⟩, ⟨4, 3, .output, none, -3⟩]⟩ ∧
    oddDb.inv (4, 4) = [Ex.ref 4, ⟨3, .output, some 3, false, some 3⟩] := by
  refine ⟨?_, rfl⟩
  decide +kernel

/-- processes 0 and 1 need each other; 0 also sends 2 of waste 2 to its treatment (process 2, reference is an Input), and takes 1 of flow
3 from process 3 and gives it back -/
def wasteInv : ℕ → List (Exch ℕ ℕ)
  | 0 => [Ex.ref 0, ⟨3, .input, some 3, false, some 1⟩, ⟨3, .output, some 3, false, some 1⟩, ⟨1, .input, some 1, false, some (1 / 2)⟩,
      ⟨2, .output, some 2, false, some 2⟩]
  | 1 => [Ex.ref 1, ⟨0, .input, some 0, false, some (1 / 2)⟩, ⟨2, .output, some 2, false, some 4⟩]
  | 2 => [⟨2, .input, none, true, some 1⟩]
  | 3 => [Ex.ref 3]
  | _ => []

def wasteDb : DB ℕ ℕ where
  inv := fun u => wasteInv u.2
  terms := fun _ _ => []
  refDir := fun u => if u.1 = u.2 ∧ u.1 ≤ 3 then some (if u.1 = 2 then .input else .output) else none

def wasteEng : Option (Eng ℕ ℕ) := addAllRefProducts Ex.ord wasteDb .abort 10 [(0, 0), (1, 1), (2, 2), (3, 3)] {}

/-- C221 fails in the background: process 1 sends 4 of a waste to treatment and is reported to put out -4 of it -/
theorem manager_deps_bg_fails_waste :
    wasteEng.map (fun e => (isBackground e.g (pfIx e.st (1, 1)), (dependencies wasteDb e (1, 1)).1)) =
      some (true, [⟨1, 0, .input, some 0, 1 / 2⟩, ⟨1, 2, .output, some 2, -4⟩]) ∧
    wasteDb.inv (1, 1) = [Ex.ref 1, ⟨0, .input, some 0, false, some (1 / 2)⟩, ⟨2, .output, some 2, false, some 4⟩] := by
  refine ⟨?_, rfl⟩
  decide +kernel

/-- C221 fails if exchanges cancel: process 0 gives 2 of the waste 2 and, on balance, nothing of flow 3; of the waste it is reported to
give 0, the balance of flow 3 -/
theorem manager_deps_bg_fails_cancelling :
    wasteEng.map (fun e => (isBackground e.g (pfIx e.st (0, 0)), (dependencies wasteDb e (0, 0)).1)) =
      some (true, [⟨0, 1, .input, some 1, 1 / 2⟩, ⟨0, 2, .output, some 2, 0⟩]) ∧
    useOf wasteDb .abort (0, 0) (2, 2) = -2 ∧ useOf wasteDb .abort (0, 0) (3, 3) = 0 := by
  refine ⟨?_, ?_, ?_⟩ <;> decide +kernel

end BgMgr
