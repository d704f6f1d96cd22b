import Verif.Props.FlatBgDeps

/-!
C60: the foreground listed by a flat background.
-/

set_option linter.unusedSectionVars false
set_option linter.unusedSimpArgs false

namespace FlatBg
open Engine
variable {F P : Type} [DecidableEq F] [DecidableEq P]
variable {db : DB F P} {strat : Strategy}

/-! ### the search -/

theorem fgColumn_eq (fb : FB F P) (node : TermRef F P P) (ps : List (ℕ × ℚ)) (q seen : List ℕ)
    {L : List (ExchDef F P)} (h : genLoop node.term fb.fg ps = (L, none)) :
    ∃ new seen', fgColumn fb node ps q seen = (L, q ++ new, seen', none) ∧ new.Nodup ∧
      (∀ r, r ∈ new ↔ r ∈ ps.map Prod.fst ∧ r ∉ seen) ∧
      (∀ r, r ∈ seen' ↔ r ∈ seen ∨ r ∈ ps.map Prod.fst) := by
  induction ps generalizing q seen L with
  | nil =>
    simp only [genLoop, Prod.mk.injEq, and_true] at h
    subst h
    exact ⟨[], seen, by simp [fgColumn], by simp, by simp, by simp⟩
  | cons p ps ih =>
    obtain ⟨r, d⟩ := p
    rw [genLoop] at h
    cases hr : fb.fg[r]? with
    | none => rw [hr] at h; simp at h
    | some t =>
      rw [hr] at h
      simp only [Prod.mk.injEq] at h
      obtain ⟨hL, hn⟩ := h
      by_cases hs : r ∈ seen
      · obtain ⟨new, seen', h1, h2, h3, h4⟩ := ih q seen
          (L := (genLoop node.term fb.fg ps).1) (Prod.ext rfl hn)
        refine ⟨new, seen', ?_, h2, ?_, ?_⟩
        · rw [fgColumn]
          simp only [hs, if_true, hr, h1, hL]
        · intro x
          rw [h3 x]
          simp only [List.map_cons, List.mem_cons]
          constructor
          · rintro ⟨a, b⟩; exact ⟨Or.inr a, b⟩
          · rintro ⟨rfl | a, b⟩
            · exact absurd hs b
            · exact ⟨a, b⟩
        · intro x
          rw [h4 x]
          simp only [List.map_cons, List.mem_cons]
          constructor
          · rintro (a | a)
            · exact Or.inl a
            · exact Or.inr (Or.inr a)
          · rintro (a | rfl | a)
            · exact Or.inl a
            · exact Or.inl hs
            · exact Or.inr a
      · obtain ⟨new, seen', h1, h2, h3, h4⟩ := ih (q ++ [r]) (r :: seen)
          (L := (genLoop node.term fb.fg ps).1) (Prod.ext rfl hn)
        refine ⟨r :: new, seen', ?_, ?_, ?_, ?_⟩
        · rw [fgColumn]
          simp only [hs, if_false, hr, h1, hL, List.append_assoc, List.singleton_append]
        · rw [List.nodup_cons]
          refine ⟨?_, h2⟩
          rw [h3]; simp
        · intro x
          simp only [List.map_cons, List.mem_cons, h3]
          constructor
          · rintro (rfl | ⟨a, b⟩)
            · exact ⟨Or.inl rfl, hs⟩
            · exact ⟨Or.inr a, fun c => b (Or.inr c)⟩
          · rintro ⟨rfl | a, b⟩
            · exact Or.inl rfl
            · by_cases e : x = r
              · exact Or.inl e
              · exact Or.inr ⟨a, fun c => c.elim e b⟩
        · intro x
          simp only [List.map_cons, List.mem_cons, h4]
          tauto

/-- the search through a matrix whose columns are good: it ends, and lists every column it can get to once -/
theorem fgQueue_eq (fb : FB F P) (af : Sp) (N : ℕ) (hN : fb.fg.length = N) (E : ℕ → List (ExchDef F P))
    (S : ℕ → ℕ → Prop) (G : ℕ → Prop) (hS : ∀ i j, G i → S i j → j < N ∧ G j)
    (hcol : ∀ i node, G i → fb.fg[i]? = some node →
      genLoop node.term fb.fg (pairs (af.col i)) = (E i, none) ∧
      ∀ j, j ∈ (pairs (af.col i)).map Prod.fst ↔ S i j) :
    ∀ (fuel : ℕ) (D q seen : List ℕ), (D ++ q).Nodup → (∀ i ∈ D ++ q, i < N ∧ G i) →
      (∀ i, i ∈ seen ↔ i ∈ D ++ q) → (∀ i ∈ D, ∀ j, S i j → j ∈ D ++ q) → N ≤ fuel + D.length →
      ∃ cols, fgQueue fb af fuel q seen = (cols.flatMap E, none) ∧ q <+: cols ∧ (D ++ cols).Nodup ∧
        (∀ i ∈ D ++ cols, ∀ j, S i j → j ∈ D ++ cols) ∧
        (∀ i ∈ cols, i < N ∧ G i) ∧
        (∀ i ∈ cols, ∃ s ∈ q, Relation.ReflTransGen S s i) := by
  intro fuel
  induction fuel with
  | zero =>
    intro D q seen hnd hlt hseen hD hf
    cases q with
    | nil => exact ⟨[], by simp [fgQueue], List.prefix_refl _, by simpa using hnd, by simpa using hD, by simp, by simp⟩
    | cons a q =>
      exfalso
      have : (D ++ a :: q).length ≤ N := by
        have := (List.subperm_of_subset hnd (l₂ := List.range N)
          (fun i hi => List.mem_range.mpr (hlt i hi).1)).length_le
        simpa using this
      simp at this
      omega
  | succ fuel ih =>
    intro D q seen hnd hlt hseen hD hf
    cases q with
    | nil => exact ⟨[], by simp [fgQueue], List.prefix_refl _, by simpa using hnd, by simpa using hD, by simp, by simp⟩
    | cons a q =>
      have ha : a < fb.fg.length := by rw [hN]; exact (hlt a (by simp)).1
      have hnode : fb.fg[a]? = some fb.fg[a] := List.getElem?_eq_getElem ha
      obtain ⟨hg, hs⟩ := hcol a _ (hlt a (by simp)).2 hnode
      obtain ⟨new, seen', h1, h2, h3, h4⟩ := fgColumn_eq fb fb.fg[a] (pairs (af.col a)) q seen hg
      have hnew : ∀ r, r ∈ new ↔ S a r ∧ r ∉ seen := fun r => by rw [h3, hs]
      obtain ⟨cols, c1, c2, c3, c4, c6, c5⟩ := ih (D ++ [a]) (q ++ new) seen' (by
          have e : (D ++ [a]) ++ (q ++ new) = (D ++ a :: q) ++ new := by simp
          rw [e, List.nodup_append]
          refine ⟨hnd, h2, ?_⟩
          rintro x hx y hy rfl
          exact ((hnew x).mp hy).2 ((hseen x).mpr hx)) (by
          intro i hi
          have e : (D ++ [a]) ++ (q ++ new) = (D ++ a :: q) ++ new := by simp
          rw [e, List.mem_append] at hi
          rcases hi with hi | hi
          · exact hlt i hi
          · exact hS a i (hlt a (by simp)).2 ((hnew i).mp hi).1) (by
          intro i
          have e : (D ++ [a]) ++ (q ++ new) = (D ++ a :: q) ++ new := by simp
          rw [h4, hs, e, List.mem_append, ← hseen, hnew]
          by_cases h : i ∈ seen <;> simp [h]) (by
          intro i hi j hj
          have e : (D ++ [a]) ++ (q ++ new) = (D ++ a :: q) ++ new := by simp
          rw [e, List.mem_append]
          rw [List.mem_append, List.mem_singleton] at hi
          rcases hi with hi | rfl
          · exact Or.inl (hD i hi j hj)
          · by_cases hjs : j ∈ seen
            · exact Or.inl ((hseen j).mp hjs)
            · exact Or.inr ((hnew j).mpr ⟨hj, hjs⟩)) (by simp; omega)
      refine ⟨a :: cols, ?_, ?_, ?_, ?_, ?_, ?_⟩
      · rw [fgQueue]
        simp only [hnode, h1, c1, List.flatMap_cons]
      · exact List.prefix_cons_inj a |>.mpr ((List.prefix_append q new).trans c2)
      · simpa using c3
      · intro i hi j hj
        have := c4 i (by simpa using hi) j hj
        simpa using this
      · intro i hi
        rcases List.mem_cons.mp hi with rfl | hi
        · exact hlt i (by simp)
        · exact c6 i hi
      · intro i hi
        rcases List.mem_cons.mp hi with rfl | hi
        · exact ⟨i, by simp, .refl⟩
        · obtain ⟨s, hsq, hp⟩ := c5 i hi
          rcases List.mem_append.mp hsq with h | h
          · exact ⟨s, List.mem_cons_of_mem _ h, hp⟩
          · exact ⟨a, by simp, Relation.ReflTransGen.head ((hnew s).mp h).1 hp⟩

/-- one column of the foreground matrix -/
theorem fg_column {s : State F P} {e : Eng F P} {comp : F → Option P} {fb : FB F P} {o : SetOrd F P} {fuel : ℕ}
    {vs : List (F × P)}
    (hr : addAllRefProducts o db strat fuel vs {} = some e) (hs : addAll db strat fuel vs {} = .ok () s)
    (hB : Built db strat s { e with allAdded := false } comp fb) {names : Dict ℕ P}
    (hfg : fb.fg = e.g.fgProcs.map (makeTermRef db e.st names))
    {m : Fg} (hm : makeForegroundAll e = some m) {af : Sp}
    (c1 : csr e.g.fgProcs.length e.g.fgProcs.length m.af = some af)
    {u : F × P} {c : ℕ} (hc : e.g.fgProcs[c]? = some u) {ev : ℚ} (hev : e.st.ev.get? u = some ev)
    (hnz : ∀ w, w ≠ u → Depends db strat u w → useOf db strat u w ≠ 0) :
    genLoop u.2 fb.fg (pairs (af.col c)) =
      (depsOver db strat u ev (makeTermRef db e.st names) e.g.fgProcs, none) ∧
    ∀ j, j ∈ (pairs (af.col c)).map Prod.fst ↔ ∃ w, e.g.fgProcs[j]? = some w ∧ usesB db strat u w = true := by
  have hg : GraphOK db strat s e.g := hB.ok.gok
  have hst : e.st = { s with interior := [], cutoffs := [] } := hB.ok.st
  have hix : ∀ u, pfIx e.st u = pfIx s u := by intro u; rw [hst]; rfl
  have huf := List.mem_of_getElem? hc
  have huv := hg.fg_sub u huf
  have hu := (known_iff hs u).mp huv
  have hb' : isBackground e.g (pfIx e.st u) = false := by
    rw [hix]
    have := (hg.isBg_not huv).mp huf
    rw [← hg.isBg huv] at this; simpa using this
  obtain ⟨ev', m', hev', hm', haf, _⟩ := C07_foreground_all o fuel vs e hr u hu hb'
  rw [hev] at hev'; cases hev'
  rw [hm] at hm'; cases hm'
  have hcl : c < e.g.fgProcs.length := (List.getElem?_eq_some_iff.mp hc).1
  have hcd : fgDict e.g (pfIx e.st u) = some c := (hB.pos_fg huv).mpr hc
  have hevz := (ev_nz hs hB huv hev).1
  have hnz' : ∀ w, usesB db strat u w = true → useOf db strat u w ≠ 0 := by
    intro w hw
    obtain ⟨hne, hd⟩ := (usesB_iff u w).mp hw
    exact hnz w hne hd
  have hany : ∀ (r : ℕ) (w : F × P), e.g.fgProcs[r]? = some w →
      m.af.any (fun t => decide (t.1 = some r ∧ t.2.1 = some c)) = usesB db strat u w :=
    fun r w hw => hB.af_any hm hc hw
  have hent : ∀ (r : ℕ) (w : F × P), e.g.fgProcs[r]? = some w → usesB db strat u w = true →
      entry m.af (some r) (some c) = useOf db strat u w / ev := by
    intro r w hw huse
    have hwf := List.mem_of_getElem? hw
    have hwp := hg.fg_sub w hwf
    have hwb : isBackground e.g (pfIx e.st w) = false := by
      rw [hix]
      have := (hg.isBg_not hwp).mp hwf
      rw [← hg.isBg hwp] at this; simpa using this
    have := haf w ((usesB_iff u w).mp huse).1 ((known_iff hs w).mp hwp) hwb
    rw [hcd, (hB.pos_fg hwp).mpr hw] at this
    exact this
  constructor
  · have := genExchDefs_eq (db := db) (strat := strat) (u := u) (ev := ev) hevz
      (mk := makeTermRef db e.st names) (procs := e.g.fgProcs) hcl c1 hany hent hnz'
    rw [hfg]
    exact this
  · have hcol := csr_col c1 hcl
    have hmem : ∀ t, t ∈ af.col c ↔ ∃ w, e.g.fgProcs[t.1]? = some w ∧ usesB db strat u w = true ∧
        t.2 = useOf db strat u w / ev := by
      intro t
      rw [hcol, List.mem_filterMap]
      constructor
      · rintro ⟨r, hr, ht⟩
        have hlt := List.mem_range.mp hr
        have hw : e.g.fgProcs[r]? = some e.g.fgProcs[r] := List.getElem?_eq_getElem hlt
        rw [hany r _ hw] at ht
        split at ht
        · rename_i hus
          simp only [Option.some.injEq] at ht
          subst ht
          exact ⟨_, hw, hus, hent r _ hw hus⟩
        · cases ht
      · rintro ⟨w, hw, hus, ht⟩
        refine ⟨t.1, List.mem_range.mpr (List.getElem?_eq_some_iff.mp hw).1, ?_⟩
        rw [hany t.1 w hw, hus, if_pos rfl, hent t.1 w hw hus, ← ht]
    rw [pairs_eq (fun t ht => by
      obtain ⟨w, _, hus, e2⟩ := (hmem t).mp ht
      rw [e2]; exact div_ne_zero (hnz' w hus) (hevz ⟨w, hus⟩))]
    intro j
    rw [List.mem_map]
    constructor
    · rintro ⟨t, ht, rfl⟩
      obtain ⟨w, h1, h2, _⟩ := (hmem t).mp ht
      exact ⟨w, h1, h2⟩
    · rintro ⟨w, h1, h2⟩
      exact ⟨(j, useOf db strat u w / ev), (hmem _).mpr ⟨w, h1, h2, rfl⟩, rfl⟩

/-- the links of `v` to other foreground product flows, per unit of net output: own exchanges with positive value,
no product flow twice, every one a real dependency, and the amounts add up (with the direction reversed for
waste treatments, as in C59). -/
def FgReport (db : DB F P) (strat : Strategy) (fb : FB F P) (v : F × P) (L : List (ExchDef F P)) : Prop :=
  (L.map fun x => (x.flow, x.term)).Nodup ∧
  (∀ x ∈ L, x.process = v.2 ∧ 0 < x.value ∧ ∃ w, w ≠ v ∧ Depends db strat v w ∧
    isInBackground fb w.2 w.1 = false ∧ x.flow = w.1 ∧ x.term = some w.2) ∧
  ∀ w, w ≠ v → isInBackground fb w.2 w.1 = false →
    amountOf L w = sgn (db.refDir w) * (useOf db strat v w / (1 - useOf db strat v v))

/-- C60 (partial): the foreground of a foreground product flow is its reference exchange, followed by the links of
every foreground product flow it depends on, directly or not, each of them exactly once, itself first; the search
ends after at most as many rounds as there are foreground product flows.
Missing: foregrounds with cancelling exchanges, waste treatment processes (Input references) or
self-consumption of one unit or more. -/
theorem C60_foreground_partial (o : SetOrd F P) (comp : F → Option P) (fuel : ℕ) (vs : List (F × P))
    (fb : FB F P) (hr : fromIndex o db comp strat fuel vs = .ok fb) (u : F × P) (hu : Known db strat vs u)
    (hb : isInBackground fb u.2 u.1 = false) (rounds : ℕ) (hrounds : fb.fg.length ≤ rounds)
    (hgood : ∀ v, Reach db strat u v → isInBackground fb v.2 v.1 = false →
      db.refDir v = some .output ∧
      (∀ x ∈ db.inv v, ∀ q, depOf db strat x = some (v, q) → 0 ≤ q) ∧ useOf db strat v v < 1 ∧
      ∀ w, w ≠ v → Depends db strat v w → useOf db strat v w ≠ 0) :
    ∃ (cols : List (F × P)) (L : F × P → List (ExchDef F P)),
      foreground fb rounds u.2 u.1 = (⟨u.2, u.1, .output, none, 1⟩ :: cols.flatMap L, none) ∧
      cols.head? = some u ∧ cols.Nodup ∧
      (∀ v, v ∈ cols ↔ Reach db strat u v ∧ isInBackground fb v.2 v.1 = false) ∧
      ∀ v ∈ cols, FgReport db strat fb v (L v) := by
  obtain ⟨e, s, he, hs, _, hB⟩ := fromIndex_built hr
  have hg : GraphOK db strat s e.g := hB.ok.gok
  have hst : e.st = { s with interior := [], cutoffs := [] } := hB.ok.st
  have hix : ∀ u, pfIx e.st u = pfIx s u := by intro u; rw [hst]; rfl
  obtain ⟨names, hn, hfg, hbg⟩ := hB.names
  have huv := (known_iff hs u).mpr hu
  have fgIff : ∀ v, v ∈ s.pfIndex → (v ∈ e.g.fgProcs ↔ isInBackground fb v.2 v.1 = false) := by
    intro v hv
    rw [hg.isBg_not hv, ← Bool.not_eq_true, hB.inBg]
  have huf := (fgIff u huv).mpr hb
  have hb' : isBackground e.g (pfIx e.st u) = false := by
    rw [hix, ← hb]; exact (hB.inBg' (f := u.1) (p := u.2) huv).symm
  obtain ⟨_, m, _, hm, _⟩ := C07_foreground_all o fuel vs e he u hu hb'
  obtain ⟨af, ad, bf, h1, _, _, c1, _, _⟩ := hB.af m hm
  obtain ⟨c, hc⟩ := List.mem_iff_getElem?.mp huf
  -- columns that cannot be reached may be bad: restrict the search to those that can
  have hlen : fb.fg.length = e.g.fgProcs.length := by rw [hfg, List.length_map]
  have hev : ∀ v, Reach db strat u v → isInBackground fb v.2 v.1 = false →
      e.st.ev.get? v = some (1 - useOf db strat v v) := by
    intro v hv hvb
    obtain ⟨a, b, c, _⟩ := hgood v hv hvb
    obtain ⟨k, hk, hku⟩ := hu
    exact ((C09_self_consumption_partial o fuel vs e he).1 v ⟨k, hk, hku.trans hv⟩ a b c).1
  let L : F × P → List (ExchDef F P) := fun v =>
    depsOver db strat v (1 - useOf db strat v v) (makeTermRef db e.st names) e.g.fgProcs
  let E : ℕ → List (ExchDef F P) := fun i => match e.g.fgProcs[i]? with
    | some v => L v
    | none => []
  let S : ℕ → ℕ → Prop := fun i j => ∃ v w, e.g.fgProcs[i]? = some v ∧ e.g.fgProcs[j]? = some w ∧
    usesB db strat v w = true
  let G : ℕ → Prop := fun i => ∀ v, e.g.fgProcs[i]? = some v → Reach db strat u v
  have hfgb : ∀ {i : ℕ} {v : F × P}, e.g.fgProcs[i]? = some v → isInBackground fb v.2 v.1 = false := by
    intro i v hi
    have := List.mem_of_getElem? hi
    exact (fgIff v (hg.fg_sub v this)).mp this
  have hcl : c < e.g.fgProcs.length := (List.getElem?_eq_some_iff.mp hc).1
  have hGc : G c := by
    intro v hv
    rw [hc] at hv; cases hv; exact .refl
  obtain ⟨ix, q1, q2, q3, q4, q6, q5⟩ := fgQueue_eq fb af e.g.fgProcs.length hlen E S G (by
      rintro i j hGi ⟨v, w, hv, hw, huse⟩
      refine ⟨(List.getElem?_eq_some_iff.mp hw).1, ?_⟩
      intro w' hw'
      rw [hw] at hw'; cases hw'
      exact (hGi v hv).tail ((usesB_iff v w).mp huse).2) (by
      intro i node hGi hnode
      rw [hfg, List.getElem?_map] at hnode
      cases hv : e.g.fgProcs[i]? with
      | none => rw [hv] at hnode; cases hnode
      | some v =>
        rw [hv] at hnode
        simp only [Option.map_some, Option.some.injEq] at hnode
        subst hnode
        have hre := hGi v hv
        obtain ⟨g1, g2⟩ := fg_column he hs hB hfg hm c1 hv (hev v hre (hfgb hv))
          (hgood v hre (hfgb hv)).2.2.2
        refine ⟨?_, ?_⟩
        · show genLoop v.2 fb.fg (pairs (af.col i)) = (E i, none)
          rw [g1]; simp only [E, hv, L]
        · intro j
          rw [g2 j]
          constructor
          · rintro ⟨w, hw, hus⟩; exact ⟨v, w, hv, hw, hus⟩
          · rintro ⟨v', w, hv', hw, hus⟩
            rw [hv] at hv'; cases hv'
            exact ⟨w, hw, hus⟩)
    rounds [] [c] [c] (by simp) (by simpa using ⟨hcl, hGc⟩) (by simp) (by simp) (by simpa [← hlen] using hrounds)
  have hget : ∀ i ∈ ix, ∃ v, e.g.fgProcs[i]? = some v := by
    intro i hi
    exact ⟨_, List.getElem?_eq_getElem (q6 i hi).1⟩
  refine ⟨ix.filterMap fun i => e.g.fgProcs[i]?, L, ?_, ?_, ?_, ?_, ?_⟩
  · have hci : (fgIndex fb).get? (u.2, u.1) = some c := (hB.fgIndex_get u.1 u.2 c).mpr hc
    have hnode : fb.fg[c]? = some (makeTermRef db e.st names u) := by
      rw [hfg, List.getElem?_map, hc]; rfl
    unfold foreground
    rw [hci]
    simp only [hnode, h1, q1]
    have hdir : (makeTermRef db e.st names u).dir = .output := by
      have := (hgood u .refl hb).1
      simp [makeTermRef, this]
    rw [hdir]
    congr 2
    clear q1 q2 q3 q4 q5
    induction ix with
    | nil => rfl
    | cons i ix ih =>
      obtain ⟨v, hv⟩ := hget i (by simp)
      rw [List.flatMap_cons, List.filterMap_cons, hv]
      simp only [List.flatMap_cons]
      rw [ih (fun j hj => q6 j (List.mem_cons_of_mem _ hj)) (fun j hj => hget j (List.mem_cons_of_mem _ hj))]
      simp only [E, hv]
  · obtain ⟨t, ht⟩ := q2
    rw [← ht]
    simp [hc]
  · simp only [List.nil_append] at q3
    apply List.Nodup.filterMap _ q3
    intro a a' b h1 h2
    have h1' := Option.mem_def.mp h1
    have h2' := Option.mem_def.mp h2
    obtain ⟨l1, l2⟩ := List.getElem?_eq_some_iff.mp h1'
    obtain ⟨l3, l4⟩ := List.getElem?_eq_some_iff.mp h2'
    exact (List.Nodup.getElem_inj_iff hg.fgNodup).mp (l2.trans l4.symm)
  · intro v
    rw [List.mem_filterMap]
    constructor
    · rintro ⟨i, hi, hv⟩
      exact ⟨(q6 i hi).2 v hv, hfgb hv⟩
    · rintro ⟨hre, hvb⟩
      simp only [List.nil_append] at q4
      -- the path to v stays in the foreground
      have hkey : ∀ v, Reach db strat u v → isInBackground fb v.2 v.1 = false →
          ∃ i ∈ ix, e.g.fgProcs[i]? = some v := by
        intro v hv
        induction hv with
        | refl => intro _; exact ⟨c, q2.subset (by simp), hc⟩
        | @tail a b hab hd ih =>
          intro hbb
          have hap := hg.rest.reach_closed huv hab
          have hbp := hg.rest.closed hap hd
          have hab' : isInBackground fb a.2 a.1 = false := by
            by_contra hcon
            have hain : a ∈ e.g.bgProcs := (hB.inBg a.1 a.2).mp (by simpa using hcon)
            have := hg.bg_reach hain (Relation.ReflTransGen.single hd)
            rw [(hB.inBg b.1 b.2).mpr this] at hbb
            cases hbb
          obtain ⟨i, hi, hia⟩ := ih hab'
          by_cases e1 : b = a
          · subst e1; exact ⟨i, hi, hia⟩
          · obtain ⟨j, hj⟩ := List.mem_iff_getElem?.mp ((fgIff b hbp).mpr hbb)
            exact ⟨j, q4 i hi j ⟨a, b, hia, hj, (usesB_iff a b).mpr ⟨e1, hd⟩⟩, hj⟩
      exact hkey v hre hvb
  · intro v hv
    obtain ⟨i, hi, hiv⟩ := List.mem_filterMap.mp hv
    have hre := (q6 i hi).2 v hiv
    have hvb := hfgb hiv
    have hvp := hg.rest.reach_closed huv hre
    have hmk : ∀ w, (makeTermRef db e.st names w).flow = w.1 ∧ (makeTermRef db e.st names w).term = w.2 ∧
        ((if (makeTermRef db e.st names w).dir = .input then -1 else 1 : ℚ) = sgn (db.refDir w)) := by
      intro w
      refine ⟨rfl, rfl, ?_⟩
      unfold makeTermRef sgn
      cases db.refDir w with
      | none => simp
      | some d => cases d <;> simp
    obtain ⟨r1, r2, r3⟩ := depsOver_spec (db := db) (strat := strat) (ev_nz hs hB hvp (hev v hre hvb)).1 hmk
      (hgood v hre hvb).2.2.2 hg.fgNodup
    refine ⟨r1, ?_, ?_⟩
    · intro x hx
      obtain ⟨a, b, w, hw, c, d, f⟩ := r2 x hx
      exact ⟨a, b, w, c, d, (fgIff w (hg.fg_sub w hw)).mp hw, f⟩
    · intro w hw hwb
      rw [r3 w hw]
      split
      · rfl
      · rename_i hwm
        have : ¬ Depends db strat v w := fun hd => hwm ((fgIff w (hg.rest.closed hvp hd)).mpr hwb)
        simp [useOf_zero this]

/-- C60 (refusal): the foreground of anything but a foreground product flow is a KeyError. -/
theorem C60_foreground_refused (o : SetOrd F P) (comp : F → Option P) (fuel : ℕ) (vs : List (F × P))
    (fb : FB F P) (hr : fromIndex o db comp strat fuel vs = .ok fb) (u : F × P)
    (hu : ¬ Known db strat vs u ∨ isInBackground fb u.2 u.1 = true) (rounds : ℕ) :
    foreground fb rounds u.2 u.1 = ([], some .key) := by
  obtain ⟨e, s, he, hs, _, hB⟩ := fromIndex_built hr
  have hg : GraphOK db strat s e.g := hB.ok.gok
  have : (fgIndex fb).get? (u.2, u.1) = none := by
    cases h : (fgIndex fb).get? (u.2, u.1) with
    | none => rfl
    | some i =>
      have hm := List.mem_of_getElem? ((hB.fgIndex_get u.1 u.2 i).mp h)
      rcases hu with hu | hu
      · exact absurd ((known_iff hs u).mp (hg.fg_sub _ hm)) hu
      · exact absurd ((hB.inBg u.1 u.2).mp hu) ((hg.isBg_not (hg.fg_sub _ hm)).mp hm)
  unfold foreground
  rw [this]

end FlatBg
