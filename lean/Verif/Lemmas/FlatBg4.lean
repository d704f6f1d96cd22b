import Verif.Lemmas.FlatBg3

set_option linter.unusedSectionVars false
set_option linter.unusedSimpArgs false

namespace FlatBg
open Engine
variable {F P : Type} [DecidableEq F] [DecidableEq P]
variable {db : DB F P} {strat : Strategy}

/-- the exchanges of `u` with the product flows of a list, in the order of the list -/
def depsOver (db : DB F P) (strat : Strategy) (u : F × P) (ev : ℚ) (mk : F × P → TermRef F P P)
    (procs : List (F × P)) : List (ExchDef F P) :=
  procs.filterMap fun w =>
    if usesB db strat u w then some (exchOf u.2 (mk w) (useOf db strat u w / ev)) else none

theorem genExchDefs_eq {u : F × P} {ev : ℚ} (hev : (∃ w, usesB db strat u w = true) → ev ≠ 0)
    {mk : F × P → TermRef F P P} {procs : List (F × P)} {nc c : ℕ} (hc : c < nc)
    {ts : List (Option ℕ × Option ℕ × ℚ)} {m : Sp} (hm : csr procs.length nc ts = some m)
    (hany : ∀ (r : ℕ) (w : F × P), procs[r]? = some w →
      ts.any (fun t => decide (t.1 = some r ∧ t.2.1 = some c)) = usesB db strat u w)
    (hent : ∀ (r : ℕ) (w : F × P), procs[r]? = some w → usesB db strat u w = true →
      entry ts (some r) (some c) = useOf db strat u w / ev)
    (hnz : ∀ w, usesB db strat u w = true → useOf db strat u w ≠ 0) :
    genExchDefs u.2 (some (m.col c)) (procs.map mk) = (depsOver db strat u ev mk procs, none) := by
  have hcol := csr_col hm hc
  have hmem : ∀ t ∈ m.col c, t.1 < procs.length ∧ t.2 ≠ 0 := by
    intro t ht
    rw [hcol, List.mem_filterMap] at ht
    obtain ⟨r, hr, ht⟩ := ht
    have hlt := List.mem_range.mp hr
    have hw : procs[r]? = some procs[r] := List.getElem?_eq_getElem hlt
    rw [hany r _ hw] at ht
    split at ht
    · rename_i hu
      simp only [Option.some.injEq] at ht
      subst ht
      refine ⟨hlt, ?_⟩
      simp only
      rw [hent r _ hw hu]
      exact div_ne_zero (hnz _ hu) (hev ⟨_, hu⟩)
    · cases ht
  unfold genExchDefs
  simp only
  rw [pairs_eq (fun t ht => (hmem t ht).2), genLoop_eq _ _ (by simpa using fun a b h => (hmem (a, b) h).1)]
  congr 1
  rw [hcol, List.filterMap_filterMap]
  unfold depsOver
  apply filterMap_range_getElem
  intro r w hw
  rw [hany r w hw]
  by_cases hu : usesB db strat u w = true
  · simp [hu, hent r w hw hu, hw]
  · simp [hu]

/-- the exchanges of `u` with the exterior, in the order of the list of exterior flows -/
def emsOver (db : DB F P) (strat : Strategy) (u : F × P) (ev : ℚ) (ems : List (F × Dir)) :
    List (ExchDef F P) :=
  ems.filterMap fun a =>
    if emitsB db strat u a then some ⟨u.2, a.1, a.2, none, emitOf db strat u a / ev⟩ else none

theorem genEmDefs_eq {u : F × P} {ev : ℚ} (hev : (∃ a, emitsB db strat u a = true) → ev ≠ 0)
    {comp : F → Option P} {ems : List (F × Dir)} {nc c : ℕ} (hc : c < nc)
    {ts : List (Option ℕ × Option ℕ × ℚ)} {m : Sp} (hm : csr ems.length nc ts = some m)
    (hany : ∀ (r : ℕ) (a : F × Dir), ems[r]? = some a →
      ts.any (fun t => decide (t.1 = some r ∧ t.2.1 = some c)) = emitsB db strat u a)
    (hent : ∀ (r : ℕ) (a : F × Dir), ems[r]? = some a →
      entry ts (some r) (some c) = emitOf db strat u a / ev)
    (hnz : ∀ a, emitsB db strat u a = true → emitOf db strat u a ≠ 0) :
    genEmDefs u.2 (m.col c) (ems.map (makeTermExt comp)) = (emsOver db strat u ev ems, none) := by
  have hcol := csr_col hm hc
  have hmem : ∀ t ∈ m.col c, t.1 < ems.length ∧ t.2 ≠ 0 := by
    intro t ht
    rw [hcol, List.mem_filterMap] at ht
    obtain ⟨r, hr, ht⟩ := ht
    have hlt := List.mem_range.mp hr
    have hw : ems[r]? = some ems[r] := List.getElem?_eq_getElem hlt
    rw [hany r _ hw] at ht
    split at ht
    · rename_i hu
      simp only [Option.some.injEq] at ht
      subst ht
      refine ⟨hlt, ?_⟩
      simp only
      rw [hent r _ hw]
      exact div_ne_zero (hnz _ hu) (hev ⟨_, hu⟩)
    · cases ht
  unfold genEmDefs
  rw [pairs_eq (fun t ht => (hmem t ht).2), emLoop_eq _ _ (by simpa using fun a b h => (hmem (a, b) h).1)]
  congr 1
  rw [hcol, List.filterMap_filterMap]
  unfold emsOver
  apply filterMap_range_getElem
  intro r w hw
  rw [hany r w hw]
  have hcc : ∀ d : Dir, d.comp.comp = d := by intro d; cases d <;> rfl
  by_cases hu : emitsB db strat u w = true
  · simp [hu, hent r w hw, hw, makeTermExt, hcc]
  · simp [hu]

/-- entries of a matrix whose triples have plain row numbers -/
theorem entry_someRow (l : List (ℕ × Option ℕ × ℚ)) (r : ℕ) (c : Option ℕ) :
    entry (l.map fun t => ((some t.1, t.2.1, t.2.2) : Option ℕ × Option ℕ × ℚ)) (some r) c = entry l r c := by
  unfold entry
  induction l with
  | nil => rfl
  | cons t l ih =>
    simp only [List.map_cons, List.filter_cons, Option.some.injEq]
    split
    · simpa using ih
    · exact ih

section
variable {o : SetOrd F P} {comp : F → Option P} {fuel : ℕ} {vs : List (F × P)} {fb : FB F P} {e : Eng F P}
  {s : State F P}

theorem ev_nz (hs : addAll db strat fuel vs {} = .ok () s) (hB : Built db strat s { e with allAdded := false } comp fb)
    {u : F × P} (hu : u ∈ s.pfIndex) {ev : ℚ} (hev : e.st.ev.get? u = some ev) :
    ((∃ w, usesB db strat u w = true) → ev ≠ 0) ∧ ((∃ a, emitsB db strat u a = true) → ev ≠ 0) := by
  have hst : e.st = { s with interior := [], cutoffs := [] } := hB.ok.st
  have hev' : s.ev.get? u = some ev := by rw [hst] at hev; exact hev
  constructor
  · rintro ⟨w, hw⟩
    obtain ⟨hne, hd⟩ := (usesB_iff u w).mp hw
    obtain ⟨v, hv⟩ := hB.ok.gok.rest.int_iff.mpr ⟨hu, hne, hd⟩
    have := hB.ok.evNZ _ hv
    simpa [hev'] using this
  · rintro ⟨a, ha⟩
    obtain ⟨v, hv⟩ := (Rest.cut_iff hB.ok.gok.rest hu a).mpr ((emitsB_iff u a).mp ha)
    have := hB.ok.evNZc _ hv
    simpa [hev'] using this

/-- `dependencies` of a foreground product flow without cancelling exchanges -/
theorem deps_fg (hr : addAllRefProducts o db strat fuel vs {} = some e) (hs : addAll db strat fuel vs {} = .ok () s)
    (hB : Built db strat s { e with allAdded := false } comp fb) {u : F × P} (hu : Known db strat vs u)
    (hb : isInBackground fb u.2 u.1 = false)
    (hnz : ∀ w, w ≠ u → Depends db strat u w → useOf db strat u w ≠ 0) :
    ∃ ev names, e.st.ev.get? u = some ev ∧ sccNames e.st = some names ∧
      (fb.fg = e.g.fgProcs.map (makeTermRef db e.st names) ∧ fb.bg = e.g.bgProcs.map (makeTermRef db e.st names)) ∧
      dependencies fb u.2 u.1 =
        (depsOver db strat u ev (makeTermRef db e.st names) (e.g.fgProcs ++ e.g.bgProcs), none) := by
  have huv := (known_iff hs u).mpr hu
  have hst : e.st = { s with interior := [], cutoffs := [] } := hB.ok.st
  have hix : ∀ u, pfIx e.st u = pfIx s u := by intro u; rw [hst]; rfl
  have hb' : isBackground e.g (pfIx e.st u) = false := by
    rw [hix, ← hb]; exact (hB.inBg' (f := u.1) (p := u.2) huv).symm
  obtain ⟨ev, m, hev, hm, haf, had, _, _⟩ := C07_foreground_all o fuel vs e hr u hu hb'
  obtain ⟨names, hn, hfg, hbg⟩ := hB.names
  refine ⟨ev, names, hev, hn, ⟨hfg, hbg⟩, ?_⟩
  obtain ⟨af, ad, bf, h1, h2, h3, c1, c2, c3⟩ := hB.af m hm
  have hg : GraphOK db strat s e.g := hB.ok.gok
  have huf : u ∈ e.g.fgProcs := by rw [hg.isBg_not huv, ← hg.isBg huv, ← hix, hb']; simp
  obtain ⟨c, hc⟩ := List.mem_iff_getElem?.mp huf
  have hci : (fgIndex fb).get? (u.2, u.1) = some c := (hB.fgIndex_get u.1 u.2 c).mpr hc
  have hcl : c < e.g.fgProcs.length := (List.getElem?_eq_some_iff.mp hc).1
  have hcd : fgDict e.g (pfIx e.st u) = some c := (hB.pos_fg huv).mpr hc
  unfold dependencies
  rw [hB.bgIndex_none hb, hci, h1, h2]
  simp only
  have hnz' : ∀ w, usesB db strat u w = true → useOf db strat u w ≠ 0 := by
    intro w hw
    obtain ⟨hne, hd⟩ := (usesB_iff u w).mp hw
    exact hnz w hne hd
  have hevz := (ev_nz hs hB huv hev).1
  rw [hfg, hbg]
  have e1 := genExchDefs_eq (db := db) (strat := strat) (u := u) (ev := ev) hevz (mk := makeTermRef db e.st names)
    (procs := e.g.fgProcs) hcl c1 (fun r w hw => hB.af_any hm hc hw) (by
      intro r w hw huse
      have hwf := List.mem_of_getElem? hw
      have hwp := hg.fg_sub w hwf
      have hwb : isBackground e.g (pfIx e.st w) = false := by
        rw [hix]
        have := (hg.isBg_not hwp).mp hwf
        rw [← hg.isBg hwp] at this; simpa using this
      have := haf w ((usesB_iff u w).mp huse).1 ((known_iff hs w).mp hwp) hwb
      rw [hcd, (hB.pos_fg hwp).mpr hw] at this
      exact this) hnz'
  have e2 := genExchDefs_eq (db := db) (strat := strat) (u := u) (ev := ev) hevz (mk := makeTermRef db e.st names)
    (procs := e.g.bgProcs) hcl c2 (fun r w hw => hB.ad_any hm hc hw) (by
      intro r w hw huse
      have hwf := List.mem_of_getElem? hw
      have hwp := hg.bg_sub w hwf
      have hwb : isBackground e.g (pfIx e.st w) = true := by rw [hix]; exact (hg.isBg hwp).mpr hwf
      have := had w ((usesB_iff u w).mp huse).1 ((known_iff hs w).mp hwp) hwb
      rw [hcd, (hB.pos_bg hwp).mpr hw] at this
      exact this) hnz'
  have e1' : genExchDefs u.2 (some (af.col c)) (e.g.fgProcs.map (makeTermRef db e.st names)) = _ := e1
  have e2' : genExchDefs u.2 (some (ad.col c)) (e.g.bgProcs.map (makeTermRef db e.st names)) = _ := e2
  show Gen.append (genExchDefs u.2 (some (af.col c)) (e.g.fgProcs.map (makeTermRef db e.st names)))
    (genExchDefs u.2 (some (ad.col c)) (e.g.bgProcs.map (makeTermRef db e.st names))) = _
  rw [e1', e2']
  simp [Gen.append, depsOver, List.filterMap_append]

/-- `emissions` of any product flow without cancelling exchanges -/
theorem ems_all (hr : addAllRefProducts o db strat fuel vs {} = some e) (hs : addAll db strat fuel vs {} = .ok () s)
    (hB : Built db strat s { e with allAdded := false } comp fb) {u : F × P} (hu : Known db strat vs u)
    (hnz : ∀ a, emitsB db strat u a = true → emitOf db strat u a ≠ 0) :
    ∃ ev, e.st.ev.get? u = some ev ∧
      emissions fb u.2 u.1 = (emsOver db strat u ev s.emissions, none) := by
  have huv := (known_iff hs u).mpr hu
  have hst : e.st = { s with interior := [], cutoffs := [] } := hB.ok.st
  have hix : ∀ u, pfIx e.st u = pfIx s u := by intro u; rw [hst]; rfl
  have hemx : ∀ a, emIx e.st a = emIx s a := by intro a; rw [hst]; rfl
  have hg : GraphOK db strat s e.g := hB.ok.gok
  have hemn := hg.rest.data.emn
  have hib : isInBackground fb u.2 u.1 = isBackground e.g (pfIx s u) := hB.inBg' (f := u.1) (p := u.2) huv
  cases hb : isInBackground fb u.2 u.1 with
  | false =>
    have hb' : isBackground e.g (pfIx e.st u) = false := by rw [hix, ← hib, hb]
    obtain ⟨ev, m, hev, hm, _, _, hbf, _⟩ := C07_foreground_all o fuel vs e hr u hu hb'
    refine ⟨ev, hev, ?_⟩
    obtain ⟨af, ad, bf, h1, h2, h3, c1, c2, c3⟩ := hB.af m hm
    have huf : u ∈ e.g.fgProcs := by rw [hg.isBg_not huv, ← hg.isBg huv, ← hix, hb']; simp
    obtain ⟨c, hc⟩ := List.mem_iff_getElem?.mp huf
    have hci : (fgIndex fb).get? (u.2, u.1) = some c := (hB.fgIndex_get u.1 u.2 c).mpr hc
    have hcl : c < e.g.fgProcs.length := (List.getElem?_eq_some_iff.mp hc).1
    have hcd : fgDict e.g (pfIx e.st u) = some c := (hB.pos_fg huv).mpr hc
    unfold emissions
    rw [hB.bgIndex_none hb, hci, h3]
    simp only
    rw [hB.ex]
    exact genEmDefs_eq (ev_nz hs hB huv hev).2 hcl c3 (fun r a ha => hB.bf_any hm hc ha) (by
      intro r a ha
      have hae := List.mem_of_getElem? ha
      have := hbf a
      rw [hcd, hemx, (em_get hemn hae).mpr ha] at this
      rw [entry_someRow]; exact this) hnz
  | true =>
    have hb' : isBackground e.g (pfIx e.st u) = true := by rw [hix, ← hib, hb]
    obtain ⟨ev, ma, mb, hev, hma, hmb, _, hbb, _, _⟩ := C07_background o fuel vs e hr u hu hb'
    refine ⟨ev, hev, ?_⟩
    obtain ⟨a, b, ma', mb', h1, h2, h3, h4, c1, c2⟩ := hB.lci
    have hmb' : mb' = mb := by
      have h4' : e.bMatrix = some mb' := h4
      rw [h4'] at hmb; exact Option.some.inj hmb
    subst hmb'
    have huf : u ∈ e.g.bgProcs := by rw [← hg.isBg huv, ← hix, hb']
    obtain ⟨c, hc⟩ := List.mem_iff_getElem?.mp huf
    have hci : (bgIndex fb).get? (u.2, u.1) = some c := (hB.bgIndex_get u.1 u.2 c).mpr hc
    have hcl : c < e.g.bgProcs.length := (List.getElem?_eq_some_iff.mp hc).1
    have hcd : bgDict e.g (pfIx e.st u) = some c := (hB.pos_bg huv).mpr hc
    unfold emissions
    rw [hci, h2]
    simp only
    rw [hB.ex]
    exact genEmDefs_eq (ev_nz hs hB huv hev).2 hcl c2 (fun r a ha => hB.b_any h4 hc ha) (by
      intro r a ha
      have hae := List.mem_of_getElem? ha
      have := hbb a
      rw [hcd, hemx, (em_get hemn hae).mpr ha] at this
      rw [entry_someRow]; exact this) hnz

end

end FlatBg
