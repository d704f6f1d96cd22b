import Verif.Lemmas.FlatBg

set_option linter.unusedSectionVars false
set_option linter.unusedSimpArgs false

namespace FlatBg
open Engine
variable {F P : Type} [DecidableEq F] [DecidableEq P]
variable {db : DB F P} {strat : Strategy}

/-! ### construction -/

theorem mapM_some {α β : Type} (f : α → Option β) (l : List α) (h : ∀ a ∈ l, ∃ b, f a = some b) :
    ∃ r, l.mapM f = some r ∧ r = l.filterMap f := by
  induction l with
  | nil => exact ⟨[], rfl, rfl⟩
  | cons a l ih =>
    obtain ⟨b, hb⟩ := h a (by simp)
    obtain ⟨r, hr, he⟩ := ih (fun x hx => h x (List.mem_cons_of_mem _ hx))
    refine ⟨b :: r, ?_, by simp [hb, he]⟩
    simp [List.mapM_cons, hb, hr]

theorem pdim_eq {s : State F P} {g : TGraph F P} (h : GraphOK db strat s g) : pdim g = g.fgProcs.length := by
  unfold pdim; rw [h.fgIndex]; exact enumIndex_length h.rest.inv h.fgNodup h.fg_sub

theorem ndim_eq {s : State F P} {g : TGraph F P} (h : GraphOK db strat s g) : ndim g = g.bgProcs.length := by
  unfold ndim; rw [h.bgIndex]; exact enumIndex_length h.rest.inv h.bgNodup h.bg_sub

theorem fg_pos {s : State F P} {g : TGraph F P} (h : GraphOK db strat s g) {u : F × P} (hu : u ∈ s.pfIndex)
    (hb : isBackground g (pfIx s u) = false) : ∃ n, fgDict g (pfIx s u) = some n ∧ n < pdim g := by
  have hf : u ∈ g.fgProcs := by rw [h.isBg_not hu, ← h.isBg hu]; simp [hb]
  obtain ⟨n, hn⟩ := h.fg_some hf
  refine ⟨n, hn, ?_⟩
  rw [pdim_eq h]
  exact (List.getElem?_eq_some_iff.mp ((h.fg_get hu n).mp hn)).1

theorem bg_pos {s : State F P} {g : TGraph F P} (h : GraphOK db strat s g) {u : F × P} (hu : u ∈ s.pfIndex)
    (hb : isBackground g (pfIx s u) = true) : ∃ n, bgDict g (pfIx s u) = some n ∧ n < ndim g := by
  have hf : u ∈ g.bgProcs := (h.isBg hu).mp hb
  obtain ⟨n, hn⟩ := h.bg_some hf
  refine ⟨n, hn, ?_⟩
  rw [ndim_eq h]
  exact (List.getElem?_eq_some_iff.mp ((h.bg_get hu n).mp hn)).1

theorem em_pos {s : State F P} {a : F × Dir} (ha : a ∈ s.emissions) : emIx s a < s.emissions.length :=
  List.idxOf_lt_length_iff.mpr ha

/-- everything about a flat background made from an engine that ordered its database -/
structure Built (db : DB F P) (strat : Strategy) (s : State F P) (e : Eng F P) (comp : F → Option P)
    (fb : FB F P) : Prop where
  ok : EngOK db strat s e
  names : ∃ names, sccNames e.st = some names ∧
    fb.fg = e.g.fgProcs.map (makeTermRef db e.st names) ∧ fb.bg = e.g.bgProcs.map (makeTermRef db e.st names)
  ex : fb.ex = s.emissions.map (makeTermExt comp)
  af : ∀ m, makeForegroundAll e = some m → ∃ af ad bf, fb.af = some af ∧ fb.ad = some ad ∧ fb.bf = some bf ∧
    csr e.g.fgProcs.length e.g.fgProcs.length m.af = some af ∧
    csr e.g.bgProcs.length e.g.fgProcs.length m.ad = some ad ∧
    csr s.emissions.length e.g.fgProcs.length
      (m.bf.map fun t => ((some t.1, t.2.1, t.2.2) : Option ℕ × Option ℕ × ℚ)) = some bf
  noFg : makeForegroundAll e = none → fb.af = none ∧ fb.ad = none ∧ fb.bf = none
  lci : ∃ a b ma mb, fb.A = some a ∧ fb.B = some b ∧ e.aMatrix = some ma ∧ e.bMatrix = some mb ∧
    csr e.g.bgProcs.length e.g.bgProcs.length ma = some a ∧
    csr s.emissions.length e.g.bgProcs.length
      (mb.map fun t => ((some t.1, t.2.1, t.2.2) : Option ℕ × Option ℕ × ℚ)) = some b

theorem sccNames_some {s : State F P} (h : Rest db strat s) : ∃ names, sccNames s = some names := by
  unfold sccNames
  obtain ⟨r, hr, _⟩ := mapM_some (fun kl : ℕ × List (F × P) => (s.pfIndex[kl.1]?).map fun v => (kl.1, v.2))
    (s.sccs.filter fun kl => decide (1 < kl.2.length)) (by
      intro kl hkl
      have hm := (List.mem_filter.mp hkl).1
      have hk : kl.1 ∈ s.sccs.keys := List.mem_map.mpr ⟨kl, hm, rfl⟩
      obtain ⟨u, hu⟩ := h.key_iff.mp hk
      obtain ⟨r, hr, _⟩ := h.inv.sccRoot u kl.1 hu
      exact ⟨(kl.1, r.2), by simp [hr]⟩)
  exact ⟨r, hr⟩

theorem fromEngine_spec {s : State F P} {e : Eng F P} (hok : EngOK db strat s e) (comp : F → Option P) :
    (e.g.background = none → fromEngine db comp e = .error .attribute) ∧
    (e.g.background ≠ none → ∃ fb, fromEngine db comp e = .ok fb ∧ Built db strat s e comp fb) := by
  have hg := hok.gok
  have hrest := hg.rest
  have hix : ∀ u, pfIx e.st u = pfIx s u := by intro u; rw [hok.st]; rfl
  have hem : ∀ a, emIx e.st a = emIx s a := by intro a; rw [hok.st]; rfl
  have hemis : e.st.emissions = s.emissions := by rw [hok.st]
  obtain ⟨names, hnames⟩ : ∃ names, sccNames e.st = some names := by
    obtain ⟨n, hn⟩ := sccNames_some hrest
    exact ⟨n, by rw [hok.st]; exact hn⟩
  have hfgm : ∀ i ∈ e.foreground, i.1 ∈ s.pfIndex ∧ i.2.1 ∈ s.pfIndex ∧ isBackground e.g (pfIx s i.1) = false := by
    intro i hi
    rw [hok.fgd, List.mem_filter, List.mem_map] at hi
    obtain ⟨⟨j, hj, rfl⟩, hb⟩ := hi
    exact ⟨hrest.data.newI j hj, hrest.data.tgt j hj, by simpa using hb⟩
  have hcut : ∀ i ∈ e.cutoff, i.1 ∈ s.pfIndex ∧ i.2.1 ∈ s.emissions ∧ isBackground e.g (pfIx s i.1) = false := by
    intro i hi
    rw [hok.cut, List.mem_filter, List.mem_map] at hi
    obtain ⟨⟨j, hj, rfl⟩, hb⟩ := hi
    exact ⟨hrest.data.newC j hj, hrest.data.emi j hj, by simpa using hb⟩
  have hint : ∀ i ∈ e.interior, i.1 ∈ s.pfIndex ∧ i.2.1 ∈ s.pfIndex ∧ isBackground e.g (pfIx s i.1) = true ∧
      isBackground e.g (pfIx s i.2.1) = true := by
    intro i hi
    rw [hok.int, List.mem_filter, List.mem_map] at hi
    obtain ⟨⟨j, hj, rfl⟩, hb⟩ := hi
    have h1 := hrest.data.newI j hj
    have h2 := hrest.data.tgt j hj
    have hd := (hrest.int_iff.mp ⟨j.2.2, hj⟩).2.2
    exact ⟨h1, h2, hb, (hg.isBg h2).mpr (hg.bg_reach ((hg.isBg h1).mp hb) (Relation.ReflTransGen.single hd))⟩
  have hbge : ∀ i ∈ e.bgEmission, i.1 ∈ s.pfIndex ∧ i.2.1 ∈ s.emissions ∧ isBackground e.g (pfIx s i.1) = true := by
    intro i hi
    rw [hok.bge, List.mem_filter, List.mem_map] at hi
    obtain ⟨⟨j, hj, rfl⟩, hb⟩ := hi
    exact ⟨hrest.data.newC j hj, hrest.data.emi j hj, by simpa using hb⟩
  -- the foreground matrices
  have hmats : ∀ m, makeForegroundAll e = some m → ∃ af ad bf,
      csr (pdim e.g) (pdim e.g) m.af = some af ∧ csr (ndim e.g) (pdim e.g) m.ad = some ad ∧
      csr e.st.emissions.length (pdim e.g)
        (m.bf.map fun t => ((some t.1, t.2.1, t.2.2) : Option ℕ × Option ℕ × ℚ)) = some bf := by
    intro m hm
    unfold makeForegroundAll at hm
    split at hm
    · cases hm
    · cases hm
      obtain ⟨af, haf⟩ := csr_some (nr := pdim e.g) (nc := pdim e.g)
        (ts := (e.foreground.filter fun i => !isBackground e.g (pfIx e.st i.2.1)).map fun i =>
          (fgDict e.g (pfIx e.st i.2.1), fgDict e.g (pfIx e.st i.1), i.2.2)) (by
          intro t ht
          obtain ⟨i, hi, rfl⟩ := List.mem_map.mp ht
          obtain ⟨hi, hb⟩ := List.mem_filter.mp hi
          obtain ⟨h1, h2, h3⟩ := hfgm i hi
          rw [hix] at hb
          obtain ⟨r, hr, hrl⟩ := fg_pos hg h2 (by simpa using hb)
          obtain ⟨c, hc, hcl⟩ := fg_pos hg h1 h3
          exact ⟨r, c, by simp [hix, hr], by simp [hix, hc], hrl, hcl⟩)
      obtain ⟨ad, had⟩ := csr_some (nr := ndim e.g) (nc := pdim e.g)
        (ts := (e.foreground.filter fun i => isBackground e.g (pfIx e.st i.2.1)).map fun i =>
          (bgDict e.g (pfIx e.st i.2.1), fgDict e.g (pfIx e.st i.1), i.2.2)) (by
          intro t ht
          obtain ⟨i, hi, rfl⟩ := List.mem_map.mp ht
          obtain ⟨hi, hb⟩ := List.mem_filter.mp hi
          obtain ⟨h1, h2, h3⟩ := hfgm i hi
          rw [hix] at hb
          obtain ⟨r, hr, hrl⟩ := bg_pos hg h2 hb
          obtain ⟨c, hc, hcl⟩ := fg_pos hg h1 h3
          exact ⟨r, c, by simp [hix, hr], by simp [hix, hc], hrl, hcl⟩)
      obtain ⟨bf, hbf⟩ := csr_some (nr := e.st.emissions.length) (nc := pdim e.g)
        (ts := (e.cutoff.map fun c => (emIx e.st c.2.1, fgDict e.g (pfIx e.st c.1), c.2.2)).map
          fun t => ((some t.1, t.2.1, t.2.2) : Option ℕ × Option ℕ × ℚ)) (by
          intro t ht
          obtain ⟨i', hi', rfl⟩ := List.mem_map.mp ht
          obtain ⟨i, hi, rfl⟩ := List.mem_map.mp hi'
          obtain ⟨h1, h2, h3⟩ := hcut i hi
          obtain ⟨c, hc, hcl⟩ := fg_pos hg h1 h3
          exact ⟨_, c, rfl, by simp [hix, hc], by rw [hem, hemis]; exact em_pos h2, hcl⟩)
      exact ⟨af, ad, bf, haf, had, hbf⟩
  constructor
  · intro hb
    rcases hok.mat with ⟨_, ha, hbm⟩ | ⟨h, _⟩
    · unfold fromEngine
      simp only [hnames, ha, hbm]
      cases hm : makeForegroundAll e with
      | none => simp
      | some m =>
        obtain ⟨af, ad, bf, h1, h2, h3⟩ := hmats m hm
        simp [h1, h2, h3]
    · exact absurd hb h
  · intro hb
    rcases hok.mat with ⟨h, _⟩ | ⟨_, ha, hbm⟩
    · exact absurd h hb
    · obtain ⟨a, hA⟩ := csr_some (nr := ndim e.g) (nc := ndim e.g) (ts := constructA s e.g e.interior) (by
        intro t ht
        obtain ⟨i, hi, rfl⟩ := List.mem_map.mp ht
        obtain ⟨h1, h2, h3, h4⟩ := hint i hi
        obtain ⟨r, hr, hrl⟩ := bg_pos hg h2 h4
        obtain ⟨c, hc, hcl⟩ := bg_pos hg h1 h3
        exact ⟨r, c, hr, hc, hrl, hcl⟩)
      obtain ⟨b, hB⟩ := csr_some (nr := e.st.emissions.length) (nc := ndim e.g)
        (ts := (constructB s e.g e.bgEmission).map
          fun t => ((some t.1, t.2.1, t.2.2) : Option ℕ × Option ℕ × ℚ)) (by
        intro t ht
        obtain ⟨i', hi', rfl⟩ := List.mem_map.mp ht
        obtain ⟨i, hi, rfl⟩ := List.mem_map.mp hi'
        obtain ⟨h1, h2, h3⟩ := hbge i hi
        obtain ⟨c, hc, hcl⟩ := bg_pos hg h1 h3
        exact ⟨_, c, rfl, hc, by rw [hemis]; exact em_pos h2, hcl⟩)
      cases hm : makeForegroundAll e with
      | none =>
        refine ⟨{ fg := e.g.fgProcs.map (makeTermRef db e.st names)
                  bg := e.g.bgProcs.map (makeTermRef db e.st names)
                  ex := e.st.emissions.map (makeTermExt comp)
                  af := none, ad := none, bf := none, A := some a, B := some b }, ?_, ?_⟩
        · unfold fromEngine
          simp only [hnames, ha, hbm, hm, hA, hB]
        · rw [ndim_eq hg] at hA hB
          rw [hemis] at hB
          exact ⟨hok, ⟨names, hnames, rfl, rfl⟩, by simp [hemis], by simp [hm], fun _ => ⟨rfl, rfl, rfl⟩,
            ⟨a, b, _, _, rfl, rfl, ha, hbm, hA, hB⟩⟩
      | some m =>
        obtain ⟨af, ad, bf, h1, h2, h3⟩ := hmats m hm
        refine ⟨{ fg := e.g.fgProcs.map (makeTermRef db e.st names)
                  bg := e.g.bgProcs.map (makeTermRef db e.st names)
                  ex := e.st.emissions.map (makeTermExt comp)
                  af := some af, ad := some ad, bf := some bf, A := some a, B := some b }, ?_, ?_⟩
        · unfold fromEngine
          simp only [hnames, ha, hbm, hm, h1, h2, h3, hA, hB]
        · rw [ndim_eq hg] at hA hB h2
          rw [pdim_eq hg] at h1 h2 h3
          rw [hemis] at hB h3
          refine ⟨hok, ⟨names, hnames, rfl, rfl⟩, by simp [hemis], ?_, by simp [hm],
            ⟨a, b, _, _, rfl, rfl, ha, hbm, hA, hB⟩⟩
          intro m' hm'
          rw [hm] at hm'; cases hm'
          exact ⟨af, ad, bf, rfl, rfl, rfl, h1, h2, h3⟩

theorem fromIndex_built {o : SetOrd F P} {comp : F → Option P} {fuel : ℕ} {vs : List (F × P)} {fb : FB F P}
    (hr : fromIndex o db comp strat fuel vs = .ok fb) :
    ∃ e s, addAllRefProducts o db strat fuel vs {} = some e ∧ addAll db strat fuel vs {} = .ok () s ∧
      e.g.background ≠ none ∧ Built db strat s { e with allAdded := false } comp fb := by
  unfold fromIndex at hr
  split at hr
  · cases hr
  · rename_i e he
    obtain ⟨s, hs, hrest, hok⟩ := addAllRefProducts_spec he
    obtain ⟨h1, h2⟩ := fromEngine_spec hok comp
    by_cases hb : e.g.background = none
    · have := h1 hb
      have h' : fromEngine db comp e = .error .attribute := this
      rw [h'] at hr; cases hr
    · obtain ⟨fb', hfb, hB⟩ := h2 hb
      have h' : fromEngine db comp e = .ok fb' := hfb
      rw [h'] at hr; cases hr
      exact ⟨e, s, he, hs, hb, hB⟩

end FlatBg
