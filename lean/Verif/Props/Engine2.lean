import Verif.Props.Engine

/-!
Properties C06 (foreground of a product flow) and C07 (no exchange is lost in the matrices).
-/

set_option linter.unusedSectionVars false
set_option linter.unusedSimpArgs false

namespace Engine
variable {F P : Type} [DecidableEq F] [DecidableEq P]
variable {db : DB F P} {strat : Strategy}

/-! ### C06 -/

/-- C06: `foreground(pf)` ends, and is empty for a background product flow; otherwise it starts with `pf`,
has no duplicates, holds exactly the non-background product flows `pf` depends on, and the rest is in the order
of foreground positions. -/
theorem C06_foreground (o : SetOrd F P) (fuel : ℕ) (vs : List (F × P)) (e : Eng F P)
    (hr : addAllRefProducts o db strat fuel vs {} = some e) (pf : F × P) (hpf : Known db strat vs pf) :
    ∃ f, ∀ f' ≥ f, ∃ l, foreground o f' e.st e.g pf = some l ∧
      (isBackground e.g (pfIx e.st pf) = true → l = []) ∧
      (isBackground e.g (pfIx e.st pf) = false →
        l.Nodup ∧
        (∀ u, u ∈ l ↔ Reach db strat pf u ∧ isBackground e.g (pfIx e.st u) = false) ∧
        ∃ t, l = pf :: t ∧ t.Pairwise fun x y => ∃ i j, fgDict e.g (pfIx e.st x) = some i ∧
          fgDict e.g (pfIx e.st y) = some j ∧ i < j) := by
  obtain ⟨s, hs, hrest, hok⟩ := addAllRefProducts_spec hr
  have hst : e.st = { s with interior := [], cutoffs := [] } := hok.st
  have hg : GraphOK db strat s e.g := hok.gok
  have hix : ∀ u, pfIx e.st u = pfIx s u := by intro u; rw [hst]; rfl
  have hpv := (known_iff hs pf).mpr hpf
  have hfe : ∀ f, foreground o f e.st e.g pf = foreground o f s e.g pf := by
    intro f; rw [hst]; rfl
  obtain ⟨f, hf⟩ := foreground_total (o := o) hg hpv
  refine ⟨f, fun f' hf' => ?_⟩
  obtain ⟨l, hl⟩ := hf f' hf'
  refine ⟨l, by rw [hfe]; exact hl, ?_, ?_⟩
  · intro hb
    rw [hix, hg.isBg hpv, hg.bgMem] at hb
    obtain ⟨k, hk, hkf⟩ := hb
    rw [isFgScc_false] at hkf
    unfold foreground at hl
    rw [hk] at hl
    simp only at hl
    rw [if_pos (by rcases hkf with h | h <;> simp [h])] at hl
    simpa using hl.symm
  · intro hb
    have hpfg : pf ∈ e.g.fgProcs := by
      rw [hg.isBg_not hpv, ← hg.isBg hpv, ← hix]; simp [hb]
    obtain ⟨h1, h2, ⟨t, ht⟩, h4⟩ := foreground_spec hg hpfg hl
    have hm : ∀ u, u ∈ l ↔ Reach db strat pf u ∧ isBackground e.g (pfIx e.st u) = false := by
      intro u
      rw [h2 u]
      refine and_congr_right fun hu => ?_
      have huv := hrest.reach_closed hpv hu
      rw [hix, ← Bool.not_eq_true, hg.isBg huv, hg.isBg_not huv]
    refine ⟨h1, hm, t, ht, ?_⟩
    subst ht
    rw [List.pairwise_cons] at h4
    rw [List.nodup_cons] at h1
    refine List.Pairwise.imp_of_mem ?_ (List.Pairwise.and h4.2 h1.2)
    intro x y hx hy hxy
    obtain ⟨i, hi⟩ := hg.fg_some ((h2 x).mp (by simp [hx])).2
    obtain ⟨j, hj⟩ := hg.fg_some ((h2 y).mp (by simp [hy])).2
    refine ⟨i, j, by rw [hix]; exact hi, by rw [hix]; exact hj, ?_⟩
    have hle : i ≤ j := by
      rcases hxy.1 with h | h | h
      · exact absurd (h ▸ hx) h1.1
      · exact absurd (h ▸ hy) h1.1
      · exact h i j hi hj
    rcases Nat.lt_or_ge i j with h | h
    · exact h
    · have hij : i = j := by omega
      subst hij
      have a1 := (hg.fg_get (hg.fg_sub x ((h2 x).mp (by simp [hx])).2) i).mp hi
      have a2 := (hg.fg_get (hg.fg_sub y ((h2 y).mp (by simp [hy])).2) i).mp hj
      rw [a1] at a2
      exact absurd (by simpa using a2) hxy.2

example : ((addAllRefProducts Ex.ord
    { Ex.db with inv := fun u => match u.2 with
        | 0 => [Ex.ref 0, Ex.need 1 2] | 1 => [Ex.ref 1, Ex.need 2 3] | _ => [] } .abort 10
      [(1, 1), (0, 0), (2, 2)] {}).map fun e => (isBackground e.g (pfIx e.st (1, 1)), e.g.fgProcs)) =
    some (false, [(0, 0), (1, 1), (2, 2)]) := by decide +kernel

example : ((addAllRefProducts Ex.ord Ex.db .abort 10 Ex.roots {}).bind fun e =>
    foreground Ex.ord 10 e.st e.g (0, 0)) = some [(0, 0)] := by decide +kernel

/-! ### C07 -/

theorem GraphOK.bg_inj {s : State F P} {g : TGraph F P} (h : GraphOK db strat s g) {u x : F × P}
    (hu : u ∈ g.bgProcs) (hx : x ∈ s.pfIndex) (e : bgDict g (pfIx s x) = bgDict g (pfIx s u)) : x = u := by
  obtain ⟨n, hn⟩ := h.bg_some hu
  rw [hn] at e
  have h1 := (h.bg_get hx n).mp e
  have h2 := (h.bg_get (h.bg_sub u hu) n).mp hn
  rw [h1] at h2; simpa using h2

theorem GraphOK.fg_inj {s : State F P} {g : TGraph F P} (h : GraphOK db strat s g) {u x : F × P}
    (hu : u ∈ g.fgProcs) (hx : x ∈ s.pfIndex) (e : fgDict g (pfIx s x) = fgDict g (pfIx s u)) : x = u := by
  obtain ⟨n, hn⟩ := h.fg_some hu
  rw [hn] at e
  have h1 := (h.fg_get hx n).mp e
  have h2 := (h.fg_get (h.fg_sub u hu) n).mp hn
  rw [h1] at h2; simpa using h2

theorem emIx_inj {s : State F P} {a b : F × Dir} (ha : a ∈ s.emissions)
    (h : emIx s a = emIx s b) : a = b := by
  unfold emIx at h
  have h1 := List.getElem?_idxOf ha
  have hlt := List.idxOf_lt_length_iff.mpr ha
  have hb : b ∈ s.emissions := by rw [h] at hlt; exact List.idxOf_lt_length_iff.mp hlt
  have h2 := List.getElem?_idxOf hb
  rw [h, h2] at h1
  simpa using h1.symm

theorem Rest.cut_emission {s : State F P} (h : Rest db strat s) {u : F × P} (hu : u ∈ s.pfIndex)
    {x : Exch F P} (hx : x ∈ db.inv u) {a : F × Dir} {v : ℚ} (hc : cutOf db strat x = some (a, v)) :
    a ∈ s.emissions := by
  have hd := (h.data.fin u hu (by simp)).cut
  have : (u, a, v) ∈ extOf db strat u (db.inv u) := by
    unfold extOf; rw [List.mem_filterMap]; exact ⟨x, hx, by simp [hc]⟩
  have : (u, a, v) ∈ s.cutoffs.filter (fun e => decide (e.1 = u)) := by rw [hd]; simpa using this
  exact h.data.emi _ (List.mem_of_mem_filter this)

/-- C07, background: the entry of A at the positions of `w` and `u` is the total net amount of `w` that `u`
uses, divided by the inbound exchange value of `u`; the entry of B is the total amount of each exterior flow,
likewise; everything `u` depends on has a row in A and every exterior flow of `u` has a row in B. -/
theorem C07_background (o : SetOrd F P) (fuel : ℕ) (vs : List (F × P)) (e : Eng F P)
    (hr : addAllRefProducts o db strat fuel vs {} = some e) (u : F × P) (hu : Known db strat vs u)
    (hb : isBackground e.g (pfIx e.st u) = true) :
    ∃ ev ma mb, e.st.ev.get? u = some ev ∧ e.aMatrix = some ma ∧ e.bMatrix = some mb ∧
      (∀ w, w ≠ u → isBackground e.g (pfIx e.st w) = true → Known db strat vs w →
        entry ma (bgDict e.g (pfIx e.st w)) (bgDict e.g (pfIx e.st u)) = useOf db strat u w / ev) ∧
      (∀ a, entry mb (emIx e.st a) (bgDict e.g (pfIx e.st u)) = emitOf db strat u a / ev) ∧
      (∀ w, Depends db strat u w → isBackground e.g (pfIx e.st w) = true) ∧
      (∀ x ∈ db.inv u, ∀ a v, cutOf db strat x = some (a, v) → a ∈ e.st.emissions) := by
  obtain ⟨s, hs, hrest, hok⟩ := addAllRefProducts_spec hr
  have hst : e.st = { s with interior := [], cutoffs := [] } := hok.st
  have hg : GraphOK db strat s e.g := hok.gok
  have hix : ∀ u, pfIx e.st u = pfIx s u := by intro u; rw [hst]; rfl
  have hem : ∀ a, emIx e.st a = emIx s a := by intro a; rw [hst]; rfl
  have huv := (known_iff hs u).mpr hu
  rw [hix, hg.isBg huv] at hb
  have hevs : e.st.ev = s.ev := by rw [hst]
  have hev := (hrest.data.fin u huv (by simp)).ev
  have hbne : e.g.background ≠ none := by
    obtain ⟨k, hk, hf⟩ := (hg.bgMem u).mp hb
    rw [isFgScc_false] at hf
    rcases hg.bg with ⟨h1, h2, _⟩ | ⟨b, _, h, _⟩
    · rw [h1, h2] at hf; simp at hf
    · rw [h]; simp
  obtain ⟨ma, mb, hma, hmb⟩ : ∃ ma mb, e.aMatrix = some ma ∧ e.bMatrix = some mb := by
    rcases hok.mat with ⟨h, _⟩ | ⟨_, h1, h2⟩
    · exact absurd h hbne
    · exact ⟨_, _, h1, h2⟩
  have hmat : ma = constructA s e.g e.interior ∧ mb = constructB s e.g e.bgEmission := by
    rcases hok.mat with ⟨h, _⟩ | ⟨_, h1, h2⟩
    · exact absurd h hbne
    · simp only at h1 h2; rw [hma] at h1; rw [hmb] at h2; exact ⟨by simpa using h1, by simpa using h2⟩
  refine ⟨_, ma, mb, by rw [hevs]; exact hev, hma, hmb, ?_, ?_, ?_, ?_⟩
  · intro w hwu hwb hw
    have hwv := (known_iff hs w).mpr hw
    rw [hix, hg.isBg hwv] at hwb
    rw [hmat.1, hix, hix]
    have hint : e.interior = _ := hok.int
    unfold constructA
    rw [hint]
    have := entry_adjusted s s.interior (fun i => isBackground e.g (pfIx s i.1))
      (fun x => bgDict e.g (pfIx s x)) (fun x => bgDict e.g (pfIx s x)) u w (by
        intro i hi
        have h1 := hrest.data.newI i hi
        have h2 := hrest.data.tgt i hi
        constructor
        · rintro ⟨_, hrw, hcl⟩
          exact ⟨hg.bg_inj hb h1 hcl, hg.bg_inj hwb h2 hrw⟩
        · rintro ⟨e1, e2⟩
          rw [e1, e2]
          exact ⟨(hg.isBg huv).mpr hb, rfl, rfl⟩)
    rw [this, hrest.int_sum huv hwu, hev]
    rfl
  · intro a
    rw [hmat.2, hix, hem]
    have hint : e.bgEmission = _ := hok.bge
    unfold constructB
    rw [hint]
    have := entry_adjusted s s.cutoffs (fun i => isBackground e.g (pfIx s i.1))
      (fun x => emIx s x) (fun x => bgDict e.g (pfIx s x)) u a (by
        intro i hi
        have h1 := hrest.data.newC i hi
        have h2 := hrest.data.emi i hi
        constructor
        · rintro ⟨_, hrw, hcl⟩
          exact ⟨hg.bg_inj hb h1 hcl, emIx_inj h2 hrw⟩
        · rintro ⟨e1, e2⟩
          rw [e1, e2]
          exact ⟨(hg.isBg huv).mpr hb, rfl, rfl⟩)
    rw [this, hrest.cut_sum huv, hev]
    rfl
  · intro w hd
    have hwb := hg.bg_reach hb (Relation.ReflTransGen.single hd)
    rw [hix]; exact (hg.isBg (hg.bg_sub w hwb)).mpr hwb
  · intro x hx a v hc
    rw [hst]; exact hrest.cut_emission huv hx hc

/-- 1 uses 1/2 of 2 and 1/4 of itself: the entry is (1/2)/(3/4) -/
example : ((addAllRefProducts Ex.ord Ex.db .abort 10 Ex.roots {}).bind fun e => e.aMatrix.map fun m =>
    entry m (bgDict e.g (pfIx e.st (2, 2))) (bgDict e.g (pfIx e.st (1, 1)))) = some (2 / 3) := by
  decide +kernel

/-- C07, foreground: for a foreground product flow `u`, everything it uses is in `af` (foreground) or `ad`
(background), and everything it exchanges with the exterior is in `bf`, each with its total amount divided by
the inbound exchange value. -/
theorem C07_foreground_all (o : SetOrd F P) (fuel : ℕ) (vs : List (F × P)) (e : Eng F P)
    (hr : addAllRefProducts o db strat fuel vs {} = some e) (u : F × P) (hu : Known db strat vs u)
    (hb : isBackground e.g (pfIx e.st u) = false) :
    ∃ ev m, e.st.ev.get? u = some ev ∧ makeForegroundAll e = some m ∧
      (∀ w, w ≠ u → Known db strat vs w → isBackground e.g (pfIx e.st w) = false →
        entry m.af (fgDict e.g (pfIx e.st w)) (fgDict e.g (pfIx e.st u)) = useOf db strat u w / ev) ∧
      (∀ w, w ≠ u → Known db strat vs w → isBackground e.g (pfIx e.st w) = true →
        entry m.ad (bgDict e.g (pfIx e.st w)) (fgDict e.g (pfIx e.st u)) = useOf db strat u w / ev) ∧
      (∀ a, entry m.bf (emIx e.st a) (fgDict e.g (pfIx e.st u)) = emitOf db strat u a / ev) ∧
      (∀ x ∈ db.inv u, ∀ a v, cutOf db strat x = some (a, v) → a ∈ e.st.emissions) := by
  obtain ⟨s, hs, hrest, hok⟩ := addAllRefProducts_spec hr
  have hst : e.st = { s with interior := [], cutoffs := [] } := hok.st
  have hg : GraphOK db strat s e.g := hok.gok
  have hix : ∀ u, pfIx e.st u = pfIx s u := by intro u; rw [hst]; rfl
  have hem : ∀ a, emIx e.st a = emIx s a := by intro a; rw [hst]; rfl
  have huv := (known_iff hs u).mpr hu
  have hufg : u ∈ e.g.fgProcs := by
    rw [hg.isBg_not huv, ← hg.isBg huv, ← hix]; simp [hb]
  have hevs : e.st.ev = s.ev := by rw [hst]
  have hev := (hrest.data.fin u huv (by simp)).ev
  have hpd : pdim e.g ≠ 0 := by
    have hlen : pdim e.g = e.g.fgProcs.length := by
      unfold pdim; rw [hg.fgIndex]; exact enumIndex_length hrest.inv hg.fgNodup hg.fg_sub
    rw [hlen]
    exact fun h => by rw [List.length_eq_zero_iff] at h; rw [h] at hufg; simp at hufg
  have hfgd : e.foreground = _ := hok.fgd
  have hcut : e.cutoff = _ := hok.cut
  refine ⟨_, _, by rw [hevs]; exact hev, by unfold makeForegroundAll; rw [if_neg hpd], ?_, ?_, ?_, ?_⟩
  · intro w hwu hw hwb
    have hwv := (known_iff hs w).mpr hw
    have hwfg : w ∈ e.g.fgProcs := by
      rw [hg.isBg_not hwv, ← hg.isBg hwv, ← hix]; simp [hwb]
    simp only [hix]
    rw [hfgd, List.filter_filter]
    have := entry_adjusted s s.interior (fun i => !isBackground e.g (pfIx s i.2.1) && !isBackground e.g (pfIx s i.1))
      (fun x => fgDict e.g (pfIx s x)) (fun x => fgDict e.g (pfIx s x)) u w (by
        intro i hi
        have h1 := hrest.data.newI i hi
        have h2 := hrest.data.tgt i hi
        constructor
        · rintro ⟨_, hrw, hcl⟩
          exact ⟨hg.fg_inj hufg h1 hcl, hg.fg_inj hwfg h2 hrw⟩
        · rintro ⟨e1, e2⟩
          rw [e1, e2]
          refine ⟨?_, rfl, rfl⟩
          rw [hix] at hb hwb
          simp [hb, hwb])
    rw [this, hrest.int_sum huv hwu, hev]
    rfl
  · intro w hwu hw hwb
    have hwv := (known_iff hs w).mpr hw
    rw [hix] at hwb
    have hwbg := (hg.isBg hwv).mp hwb
    simp only [hix]
    rw [hfgd, List.filter_filter]
    have := entry_adjusted s s.interior (fun i => isBackground e.g (pfIx s i.2.1) && !isBackground e.g (pfIx s i.1))
      (fun x => bgDict e.g (pfIx s x)) (fun x => fgDict e.g (pfIx s x)) u w (by
        intro i hi
        have h1 := hrest.data.newI i hi
        have h2 := hrest.data.tgt i hi
        constructor
        · rintro ⟨_, hrw, hcl⟩
          exact ⟨hg.fg_inj hufg h1 hcl, hg.bg_inj hwbg h2 hrw⟩
        · rintro ⟨e1, e2⟩
          rw [e1, e2]
          refine ⟨?_, rfl, rfl⟩
          rw [hix] at hb
          simp [hb, hwb])
    rw [this, hrest.int_sum huv hwu, hev]
    rfl
  · intro a
    simp only [hix, hem]
    rw [hcut]
    have := entry_adjusted s s.cutoffs (fun i => !isBackground e.g (pfIx s i.1))
      (fun x => emIx s x) (fun x => fgDict e.g (pfIx s x)) u a (by
        intro i hi
        have h1 := hrest.data.newC i hi
        have h2 := hrest.data.emi i hi
        constructor
        · rintro ⟨_, hrw, hcl⟩
          exact ⟨hg.fg_inj hufg h1 hcl, emIx_inj h2 hrw⟩
        · rintro ⟨e1, e2⟩
          rw [e1, e2]
          refine ⟨?_, rfl, rfl⟩
          rw [hix] at hb
          simp [hb])
    rw [this, hrest.cut_sum huv, hev]
    rfl
  · intro x hx a v hc
    rw [hst]; exact hrest.cut_emission huv hx hc

example : ((addAllRefProducts Ex.ord Ex.db .abort 10 Ex.roots {}).bind fun e =>
    (makeForegroundAll e).map fun m =>
    (entry m.ad (bgDict e.g (pfIx e.st (1, 1))) (fgDict e.g (pfIx e.st (0, 0))),
     entry m.bf (emIx e.st (9, .output)) (fgDict e.g (pfIx e.st (0, 0))))) = some (2, 3) := by
  decide +kernel

/-- C07, `make_foreground(pf)` for a foreground product flow: its columns are the product flows of
`foreground(pf)` in order; every column holds everything its product flow uses (in `af` or `ad`) and exchanges
with the exterior (in `bf`), and nothing is reported as lost. -/
theorem C07_foreground_one (o : SetOrd F P) (fuel : ℕ) (vs : List (F × P)) (e : Eng F P)
    (hr : addAllRefProducts o db strat fuel vs {} = some e) (pf : F × P) (hpf : Known db strat vs pf)
    (hb : isBackground e.g (pfIx e.st pf) = false) :
    ∃ f, ∀ f' ≥ f, ∃ l m, foreground o f' e.st e.g pf = some l ∧ makeForeground o f' e pf = some m ∧
      m.pdim = l.length ∧ m.lost = 0 ∧
      ∀ (n : ℕ) (u : F × P), l[n]? = some u → ∃ ev, e.st.ev.get? u = some ev ∧
        (∀ (k : ℕ) (w : F × P), w ≠ u → l[k]? = some w →
          entry m.af (some k) (some n) = useOf db strat u w / ev) ∧
        (∀ w, Known db strat vs w → isBackground e.g (pfIx e.st w) = true →
          entry m.ad (bgDict e.g (pfIx e.st w)) (some n) = useOf db strat u w / ev) ∧
        (∀ a, entry m.bf (emIx e.st a) (some n) = emitOf db strat u a / ev) ∧
        (∀ w, Depends db strat u w → w ∈ l ∨ isBackground e.g (pfIx e.st w) = true) := by
  obtain ⟨f, hf⟩ := C06_foreground o fuel vs e hr pf hpf
  refine ⟨f, fun f' hf' => ?_⟩
  obtain ⟨l, hl, _, hnb⟩ := hf f' hf'
  obtain ⟨hnd, hmem, _⟩ := hnb hb
  obtain ⟨s, hs, hrest, hok⟩ := addAllRefProducts_spec hr
  have hst : e.st = { s with interior := [], cutoffs := [] } := hok.st
  have hg : GraphOK db strat s e.g := hok.gok
  have hix : ∀ u, pfIx e.st u = pfIx s u := by intro u; rw [hst]; rfl
  have hem : ∀ a, emIx e.st a = emIx s a := by intro a; rw [hst]; rfl
  have hen : enumIndex e.st l = enumIndex s l := by rw [hst]; rfl
  have hpv := (known_iff hs pf).mpr hpf
  have hsub : ∀ u ∈ l, u ∈ s.pfIndex := fun u hu => hrest.reach_closed hpv ((hmem u).mp hu).1
  have hget : ∀ {u}, u ∈ s.pfIndex → ∀ n : ℕ,
      (enumIndex s l).get? (pfIx s u) = some n ↔ l[n]? = some u := fun hu n =>
    enumIndex_get hrest.inv hnd hsub hu n
  have hdep : ∀ u ∈ l, ∀ w, Depends db strat u w → w ∈ l ∨ isBackground e.g (pfIx e.st w) = true := by
    intro u hu w hd
    by_cases hw : isBackground e.g (pfIx e.st w) = true
    · exact Or.inr hw
    · exact Or.inl ((hmem w).mpr ⟨((hmem u).mp hu).1.tail hd, by simpa using hw⟩)
  have hfgd : e.foreground = _ := hok.fgd
  have hcut : e.cutoff = _ := hok.cut
  refine ⟨l, _, hl, by unfold makeForeground; rw [hl], rfl, ?_, ?_⟩
  · -- nothing is lost
    simp only [hix, hen]
    rw [List.length_eq_zero_iff, List.filter_eq_nil_iff]
    intro i hi
    simp only [List.mem_filter] at hi
    obtain ⟨hi1, hi2⟩ := hi
    rw [hfgd, List.mem_filter, List.mem_map] at hi1
    obtain ⟨⟨j, hj, hji⟩, _⟩ := hi1
    have h1 : i.1 = j.1 := by rw [← hji]
    have h2 : i.2.1 = j.2.1 := by rw [← hji]
    obtain ⟨n, hn⟩ := Option.isSome_iff_exists.mp hi2
    rw [h1, hget (hrest.data.newI j hj)] at hn
    have hd := (hrest.int_iff.mp ⟨j.2.2, hj⟩).2.2
    rcases hdep j.1 (List.mem_of_getElem? hn) j.2.1 hd with h | h
    · obtain ⟨k, hk⟩ := List.mem_iff_getElem?.mp h
      rw [← hget (hrest.data.tgt j hj)] at hk
      rw [h2, hk]; simp
    · rw [hix] at h; rw [h2, h]; simp
  · intro n u hn
    have hul := List.mem_of_getElem? hn
    have huv := hsub u hul
    have hub := ((hmem u).mp hul).2
    have hev := (hrest.data.fin u huv (by simp)).ev
    have hnu := (hget huv n).mpr hn
    have huinj : ∀ x ∈ s.pfIndex, (enumIndex s l).get? (pfIx s x) = some n → x = u := by
      intro x hx h
      rw [hget hx, hn] at h; simpa using h.symm
    refine ⟨_, by rw [hst]; exact hev, ?_, ?_, ?_, hdep u hul⟩
    · intro k w hwu hk
      have hwl := List.mem_of_getElem? hk
      have hwv := hsub w hwl
      have hwb := ((hmem w).mp hwl).2
      have hkw := (hget hwv k).mpr hk
      simp only [hix, hen]
      rw [hfgd, List.filter_filter, List.filter_filter]
      have := entry_adjusted s s.interior (fun i =>
          !isBackground e.g (pfIx s i.2.1) && ((enumIndex s l).get? (pfIx s i.2.1)).isSome &&
          ((enumIndex s l).get? (pfIx s i.1)).isSome && !isBackground e.g (pfIx s i.1))
        (fun x => (enumIndex s l).get? (pfIx s x)) (fun x => (enumIndex s l).get? (pfIx s x)) u w (by
          intro i hi
          have h1 := hrest.data.newI i hi
          have h2 := hrest.data.tgt i hi
          constructor
          · rintro ⟨_, hrw, hcl⟩
            rw [hnu] at hcl
            rw [hkw, hget h2, hk] at hrw
            exact ⟨huinj _ h1 hcl, by simpa using hrw.symm⟩
          · rintro ⟨e1, e2⟩
            rw [e1, e2]
            refine ⟨?_, rfl, rfl⟩
            rw [hix] at hub hwb
            simp [hub, hwb, hnu, hkw])
      rw [hnu, hkw] at this
      rw [this, hrest.int_sum huv hwu, hev]
      rfl
    · intro w hw hwb
      have hwv := (known_iff hs w).mpr hw
      have hwu : w ≠ u := by intro h; rw [h, hub] at hwb; simp at hwb
      rw [hix] at hwb
      have hwbg := (hg.isBg hwv).mp hwb
      simp only [hix, hen]
      rw [hfgd, List.filter_filter, List.filter_filter]
      have := entry_adjusted s s.interior (fun i =>
          isBackground e.g (pfIx s i.2.1) &&
          ((enumIndex s l).get? (pfIx s i.1)).isSome && !isBackground e.g (pfIx s i.1))
        (fun x => bgDict e.g (pfIx s x)) (fun x => (enumIndex s l).get? (pfIx s x)) u w (by
          intro i hi
          have h1 := hrest.data.newI i hi
          have h2 := hrest.data.tgt i hi
          constructor
          · rintro ⟨_, hrw, hcl⟩
            rw [hnu] at hcl
            exact ⟨huinj _ h1 hcl, hg.bg_inj hwbg h2 hrw⟩
          · rintro ⟨e1, e2⟩
            rw [e1, e2]
            refine ⟨?_, rfl, rfl⟩
            rw [hix] at hub
            simp [hub, hwb, hnu])
      rw [hnu] at this
      rw [this, hrest.int_sum huv hwu, hev]
      rfl
    · intro a
      simp only [hix, hen, hem]
      rw [hcut, List.filter_filter]
      have := entry_adjusted s s.cutoffs (fun i =>
          (((enumIndex s l).get? (pfIx s i.1)).isSome && !isBackground e.g (pfIx s i.1)))
        (fun x => emIx s x) (fun x => (enumIndex s l).get? (pfIx s x)) u a (by
          intro i hi
          have h1 := hrest.data.newC i hi
          have h2 := hrest.data.emi i hi
          constructor
          · rintro ⟨_, hrw, hcl⟩
            rw [hnu] at hcl
            exact ⟨huinj _ h1 hcl, emIx_inj h2 hrw⟩
          · rintro ⟨e1, e2⟩
            rw [e1, e2]
            refine ⟨?_, rfl, rfl⟩
            rw [hix] at hub
            simp [hub, hnu])
      rw [hnu] at this
      rw [this, hrest.cut_sum huv, hev]
      rfl

example : ((addAllRefProducts Ex.ord Ex.db .abort 10 Ex.roots {}).bind fun e =>
    (makeForeground Ex.ord 10 e (0, 0)).map fun m =>
    (m.pdim, entry m.ad (bgDict e.g (pfIx e.st (1, 1))) (some 0), entry m.bf (emIx e.st (9, .output)) (some 0))) =
    some (1, 2, 3) := by decide +kernel

end Engine
