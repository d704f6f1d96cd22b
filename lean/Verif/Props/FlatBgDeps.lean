import Verif.Props.FlatBg

/-!
C59: what `dependencies` and `emissions` of a flat background report, against the inventory data.
-/

set_option linter.unusedSectionVars false
set_option linter.unusedSimpArgs false

namespace FlatBg
open Engine
variable {F P : Type} [DecidableEq F] [DecidableEq P]
variable {db : DB F P} {strat : Strategy}

/-- net amount of product flow `w` in a list of exchanges: inputs count positive, outputs negative -/
def amountOf (L : List (ExchDef F P)) (w : F × P) : ℚ :=
  ((L.filter fun x => decide (x.flow = w.1 ∧ x.term = some w.2)).map fun x =>
    if x.dir = .output then -x.value else x.value).sum

/-- the sign of a reference direction: 1 for products, -1 for treated wastes -/
def sgn (d : Option Dir) : ℚ := if d = some .input then -1 else 1

/-- amount of exterior flow `a` in a list of exchanges -/
def emittedOf (L : List (ExchDef F P)) (a : F × Dir) : ℚ :=
  ((L.filter fun x => decide (x.flow = a.1 ∧ x.dir = a.2)).map fun x => x.value).sum

theorem exchOf_amount (node : P) (t : TermRef F P P) (d : ℚ) :
    (if (exchOf node t d).dir = .output then -(exchOf node t d).value else (exchOf node t d).value) =
      (if t.dir = .input then -1 else 1) * d := by
  unfold exchOf
  split <;> cases t.dir <;> simp [Dir.comp]

theorem exchOf_pos (node : P) (t : TermRef F P P) {d : ℚ} (hd : d ≠ 0) : 0 < (exchOf node t d).value := by
  unfold exchOf
  split
  · rename_i h; simp; linarith
  · rename_i h; simp only; exact lt_of_le_of_ne (not_lt.mp h) (Ne.symm hd)

theorem useOf_zero {u w : F × P} (h : ¬ Depends db strat u w) : useOf db strat u w = 0 := by
  unfold useOf
  apply List.sum_eq_zero
  intro q hq
  obtain ⟨x, hx, rfl⟩ := List.mem_map.mp hq
  cases hd : depOf db strat x with
  | none => rfl
  | some wv =>
    obtain ⟨w', v⟩ := wv
    by_cases hw : w' = w
    · subst hw
      exact absurd ((depends_iff u w').mpr ⟨x, hx, v, hd⟩) h
    · simp [hw]

theorem amountOf_cons (x : ExchDef F P) (L : List (ExchDef F P)) (w : F × P) :
    amountOf (x :: L) w = (if x.flow = w.1 ∧ x.term = some w.2 then
      (if x.dir = .output then -x.value else x.value) else 0) + amountOf L w := by
  unfold amountOf
  rw [List.filter_cons]
  by_cases h : x.flow = w.1 ∧ x.term = some w.2
  · simp [h]
  · simp [h]

theorem depsOver_cons (u w : F × P) (ev : ℚ) (mk : F × P → TermRef F P P) (ps : List (F × P)) :
    depsOver db strat u ev mk (w :: ps) =
      (if usesB db strat u w then [exchOf u.2 (mk w) (useOf db strat u w / ev)] else []) ++
        depsOver db strat u ev mk ps := by
  unfold depsOver
  rw [List.filterMap_cons]
  by_cases h : usesB db strat u w = true <;> simp [h]

theorem exchOf_flow (n : P) (t : TermRef F P P) (d : ℚ) : (exchOf n t d).flow = t.flow ∧
    (exchOf n t d).term = some t.term ∧ (exchOf n t d).process = n := by
  unfold exchOf; split <;> exact ⟨rfl, rfl, rfl⟩

theorem depsOver_spec {u : F × P} {ev : ℚ} (hev : (∃ w, usesB db strat u w = true) → ev ≠ 0)
    {mk : F × P → TermRef F P P}
    (hmk : ∀ w, (mk w).flow = w.1 ∧ (mk w).term = w.2 ∧
      ((if (mk w).dir = .input then -1 else 1 : ℚ) = sgn (db.refDir w)))
    (hnz : ∀ w, w ≠ u → Depends db strat u w → useOf db strat u w ≠ 0)
    {procs : List (F × P)} (hnd : procs.Nodup) :
    ((depsOver db strat u ev mk procs).map fun x => (x.flow, x.term)).Nodup ∧
    (∀ x ∈ depsOver db strat u ev mk procs, x.process = u.2 ∧ 0 < x.value ∧
      ∃ w ∈ procs, w ≠ u ∧ Depends db strat u w ∧ x.flow = w.1 ∧ x.term = some w.2) ∧
    (∀ w, w ≠ u → amountOf (depsOver db strat u ev mk procs) w =
      if w ∈ procs then sgn (db.refDir w) * (useOf db strat u w / ev) else 0) := by
  induction procs with
  | nil => simp [depsOver, amountOf]
  | cons a ps ih =>
    obtain ⟨hap, hps⟩ := List.nodup_cons.mp hnd
    obtain ⟨i1, i2, i3⟩ := ih hps
    rw [depsOver_cons]
    by_cases hu : usesB db strat u a = true
    · obtain ⟨hne, hd⟩ := (usesB_iff u a).mp hu
      obtain ⟨f1, f2, f3⟩ := exchOf_flow u.2 (mk a) (useOf db strat u a / ev)
      obtain ⟨m1, m2, m3⟩ := hmk a
      simp only [hu, if_true, List.singleton_append, List.map_cons, List.nodup_cons, List.mem_cons]
      refine ⟨⟨?_, i1⟩, ?_, ?_⟩
      · rw [f1, f2, m1, m2]
        intro hm
        obtain ⟨x, hx, he⟩ := List.mem_map.mp hm
        obtain ⟨_, _, w, hw, _, _, e1, e2⟩ := i2 x hx
        rw [e1, e2] at he
        simp only [Prod.mk.injEq, Option.some.injEq] at he
        exact hap (by rwa [← Prod.ext he.1 he.2])
      · rintro x (rfl | hx)
        · exact ⟨f3, exchOf_pos _ _ (div_ne_zero (hnz a hne hd) (hev ⟨a, hu⟩)), a, Or.inl rfl, hne, hd,
            f1.trans m1, f2.trans (by rw [m2])⟩
        · obtain ⟨h1, h2, w, hw, h3⟩ := i2 x hx
          exact ⟨h1, h2, w, Or.inr hw, h3⟩
      · intro w hw
        rw [amountOf_cons, i3 w hw, f1, f2, m1, m2, exchOf_amount, m3]
        by_cases e : w = a
        · subst e
          simp [hap]
        · have : ¬ (a.1 = w.1 ∧ some a.2 = some w.2) := by
            rintro ⟨h1, h2⟩
            exact e (Prod.ext h1.symm (Option.some.inj h2).symm)
          rw [if_neg this, zero_add]
          simp [e]
    · simp only [hu, Bool.false_eq_true, if_false, List.nil_append]
      refine ⟨i1, ?_, ?_⟩
      · intro x hx
        obtain ⟨h1, h2, w, hw, h3⟩ := i2 x hx
        exact ⟨h1, h2, w, List.mem_cons_of_mem _ hw, h3⟩
      · intro w hw
        rw [i3 w hw]
        by_cases e : w = a
        · subst e
          have hnd' : ¬ Depends db strat u w := fun hd => hu ((usesB_iff u w).mpr ⟨hw, hd⟩)
          simp [hap, useOf_zero hnd']
        · simp [e]

theorem emitOf_zero {u : F × P} {a : F × Dir} (h : emitsB db strat u a ≠ true) : emitOf db strat u a = 0 := by
  unfold emitOf
  apply List.sum_eq_zero
  intro q hq
  obtain ⟨x, hx, rfl⟩ := List.mem_map.mp hq
  cases hd : cutOf db strat x with
  | none => rfl
  | some av =>
    obtain ⟨a', v⟩ := av
    by_cases hw : a' = a
    · subst hw
      exact absurd ((emitsB_iff u a').mpr ⟨x, hx, v, hd⟩) h
    · simp [hw]

theorem emittedOf_cons (x : ExchDef F P) (L : List (ExchDef F P)) (a : F × Dir) :
    emittedOf (x :: L) a = (if x.flow = a.1 ∧ x.dir = a.2 then x.value else 0) + emittedOf L a := by
  unfold emittedOf
  rw [List.filter_cons]
  by_cases h : x.flow = a.1 ∧ x.dir = a.2
  · simp [h]
  · simp [h]

theorem emsOver_cons (u : F × P) (a : F × Dir) (ev : ℚ) (as : List (F × Dir)) :
    emsOver db strat u ev (a :: as) =
      (if emitsB db strat u a then [⟨u.2, a.1, a.2, none, emitOf db strat u a / ev⟩] else []) ++
        emsOver db strat u ev as := by
  unfold emsOver
  rw [List.filterMap_cons]
  by_cases h : emitsB db strat u a = true <;> simp [h]

theorem emsOver_spec {u : F × P} {ev : ℚ} {ems : List (F × Dir)} (hnd : ems.Nodup) :
    ((emsOver db strat u ev ems).map fun x => (x.flow, x.dir)).Nodup ∧
    (∀ x ∈ emsOver db strat u ev ems, x.process = u.2 ∧ x.term = none ∧
      (x.flow, x.dir) ∈ ems ∧ emitsB db strat u (x.flow, x.dir) = true) ∧
    (∀ a, emittedOf (emsOver db strat u ev ems) a = if a ∈ ems then emitOf db strat u a / ev else 0) := by
  induction ems with
  | nil => simp [emsOver, emittedOf]
  | cons b as ih =>
    obtain ⟨hba, has⟩ := List.nodup_cons.mp hnd
    obtain ⟨i1, i2, i3⟩ := ih has
    rw [emsOver_cons]
    by_cases hu : emitsB db strat u b = true
    · simp only [hu, if_true, List.singleton_append, List.map_cons, List.nodup_cons, List.mem_cons]
      refine ⟨⟨?_, i1⟩, ?_, ?_⟩
      · intro hm
        obtain ⟨x, hx, he⟩ := List.mem_map.mp hm
        have := (i2 x hx).2.2.1
        rw [he] at this
        exact hba this
      · rintro x (rfl | hx)
        · exact ⟨rfl, rfl, Or.inl rfl, hu⟩
        · obtain ⟨h1, h2, h3, h4⟩ := i2 x hx
          exact ⟨h1, h2, Or.inr h3, h4⟩
      · intro a
        rw [emittedOf_cons, i3 a]
        by_cases e : a = b
        · subst e; simp [hba]
        · have : ¬ (b.1 = a.1 ∧ b.2 = a.2) := fun h => e (Prod.ext h.1.symm h.2.symm)
          rw [if_neg this, zero_add]
          simp [e]
    · simp only [hu, Bool.false_eq_true, if_false, List.nil_append]
      refine ⟨i1, ?_, ?_⟩
      · intro x hx
        obtain ⟨h1, h2, h3, h4⟩ := i2 x hx
        exact ⟨h1, h2, List.mem_cons_of_mem _ h3, h4⟩
      · intro a
        rw [i3 a]
        by_cases e : a = b
        · subst e; simp [hba, emitOf_zero hu]
        · simp [e]

/-- the inbound value of a product flow that does not consume its own product is its sign -/
theorem ev_noself {o : SetOrd F P} {fuel : ℕ} {vs : List (F × P)} {e : Eng F P}
    (hr : addAllRefProducts o db strat fuel vs {} = some e) {u : F × P} (hu : Known db strat vs u)
    (hself : ¬ Depends db strat u u) : e.st.ev.get? u = some (sgn (db.refDir u)) := by
  obtain ⟨s, hs, hrest, hok⟩ := addAllRefProducts_spec hr
  have hst : e.st = { s with interior := [], cutoffs := [] } := hok.st
  have hev := (hrest.data.fin u ((known_iff hs u).mpr hu) (by simp)).ev
  have hnil : selfOf db strat u (db.inv u) = [] := by
    rw [List.eq_nil_iff_forall_not_mem]
    intro v hv
    unfold selfOf at hv
    rw [List.mem_filterMap] at hv
    obtain ⟨x, hx, hxv⟩ := hv
    cases hdx : depOf db strat x with
    | none => rw [hdx] at hxv; simp at hxv
    | some d =>
      obtain ⟨w, v'⟩ := d
      rw [hdx] at hxv
      by_cases h : w = u
      · subst h
        exact hself ((depends_iff w w).mpr ⟨x, hx, v', hdx⟩)
      · simp [h] at hxv
  rw [hst]
  simp only
  rw [hev, hnil]
  simp only [List.foldl_nil]
  cases db.refDir u with
  | none => rfl
  | some d => cases d <;> rfl

/-- the report on the dependencies of `u`, `r` being the true scale and `f w` the factor by which the amount of
`w` is reported: every exchange is one of `u`'s own with a positive value and stands for a real dependency, no
product flow is listed twice, and the amounts add up to `f w` times the inventory's amount per unit. -/
def DepReport (db : DB F P) (strat : Strategy) (u : F × P) (scale : ℚ) (f : F × P → ℚ)
    (g : Gen (ExchDef F P)) : Prop :=
  g.2 = none ∧
  (g.1.map fun x => (x.flow, x.term)).Nodup ∧
  (∀ x ∈ g.1, x.process = u.2 ∧ 0 < x.value ∧
    ∃ w, w ≠ u ∧ Depends db strat u w ∧ x.flow = w.1 ∧ x.term = some w.2) ∧
  ∀ w, w ≠ u → amountOf g.1 w = f w * (useOf db strat u w / scale)

theorem deps_report {o : SetOrd F P} {comp : F → Option P} {fuel : ℕ} {vs : List (F × P)} {fb : FB F P}
    (hr : fromIndex o db comp strat fuel vs = .ok fb) {u : F × P} (hu : Known db strat vs u)
    (hb : isInBackground fb u.2 u.1 = false)
    (hnz : ∀ w, w ≠ u → Depends db strat u w → useOf db strat u w ≠ 0) :
    ∃ e ev, addAllRefProducts o db strat fuel vs {} = some e ∧ e.st.ev.get? u = some ev ∧
      DepReport db strat u ev (fun w => sgn (db.refDir w)) (dependencies fb u.2 u.1) := by
  obtain ⟨e, s, he, hs, _, hB⟩ := fromIndex_built hr
  obtain ⟨ev, names, hev, _, _, hdeps⟩ := deps_fg he hs hB hu hb hnz
  have huv := (known_iff hs u).mpr hu
  have hg : GraphOK db strat s e.g := hB.ok.gok
  have hmk : ∀ w, (makeTermRef db e.st names w).flow = w.1 ∧ (makeTermRef db e.st names w).term = w.2 ∧
      ((if (makeTermRef db e.st names w).dir = .input then -1 else 1 : ℚ) = sgn (db.refDir w)) := by
    intro w
    refine ⟨rfl, rfl, ?_⟩
    unfold makeTermRef sgn
    cases db.refDir w with
    | none => simp
    | some d => cases d <;> simp
  have hnd : (e.g.fgProcs ++ e.g.bgProcs).Nodup := by
    refine List.nodup_append.mpr ⟨hg.fgNodup, hg.bgNodup, ?_⟩
    rintro a ha b hb' rfl
    exact ((hg.isBg_not (hg.fg_sub a ha)).mp ha) hb'
  obtain ⟨h1, h2, h3⟩ := depsOver_spec (db := db) (strat := strat) (ev_nz hs hB huv hev).1 hmk hnz hnd
  refine ⟨e, ev, he, hev, ?_⟩
  rw [hdeps]
  refine ⟨rfl, h1, ?_, ?_⟩
  · intro x hx
    obtain ⟨a, b, w, _, c⟩ := h2 x hx
    exact ⟨a, b, w, c⟩
  · intro w hw
    simp only
    rw [h3 w hw]
    split
    · rfl
    · rename_i hwm
      have : ¬ Depends db strat u w := by
        intro hd
        have hwp := hg.rest.closed huv hd
        apply hwm
        rw [List.mem_append]
        by_cases hbg : w ∈ e.g.bgProcs
        · exact Or.inr hbg
        · exact Or.inl ((hg.isBg_not hwp).mpr hbg)
      simp [useOf_zero this]

/-- C59 (dependencies, partial): for a product (Output reference) in the foreground, whose exchanges do not
cancel each other and which consumes less than one unit of itself, the reported exchanges are, per unit of net
output, exactly the inventory's -- amounts and directions -- for every supplied product. The direction of
exchanges with waste treatment processes (Input references) is reversed.
Missing: background product flows, cancelling exchanges, see the witnesses below. -/
theorem C59_dependencies_partial (o : SetOrd F P) (comp : F → Option P) (fuel : ℕ) (vs : List (F × P))
    (fb : FB F P) (hr : fromIndex o db comp strat fuel vs = .ok fb) (u : F × P) (hu : Known db strat vs u)
    (hb : isInBackground fb u.2 u.1 = false) (hd : db.refDir u = some .output)
    (hself : ∀ x ∈ db.inv u, ∀ v, depOf db strat x = some (u, v) → 0 ≤ v) (hlt : useOf db strat u u < 1)
    (hnz : ∀ w, w ≠ u → Depends db strat u w → useOf db strat u w ≠ 0) :
    DepReport db strat u (1 - useOf db strat u u) (fun w => sgn (db.refDir w)) (dependencies fb u.2 u.1) := by
  obtain ⟨e, ev, he, hev, h⟩ := deps_report hr hu hb hnz
  have := ((C09_self_consumption_partial o fuel vs e he).1 u hu hd hself hlt).1
  rw [hev] at this
  rw [← Option.some.inj this]; exact h

/-- C59 (dependencies, any reference direction): without self-consumption the amounts are the inventory's, and
the direction of an exchange is right if and only if both references have the same direction. -/
theorem C59_dependencies_directions_partial (o : SetOrd F P) (comp : F → Option P) (fuel : ℕ)
    (vs : List (F × P)) (fb : FB F P) (hr : fromIndex o db comp strat fuel vs = .ok fb) (u : F × P)
    (hu : Known db strat vs u) (hb : isInBackground fb u.2 u.1 = false) (hself : ¬ Depends db strat u u)
    (hnz : ∀ w, w ≠ u → Depends db strat u w → useOf db strat u w ≠ 0) :
    DepReport db strat u 1 (fun w => if sgn (db.refDir u) = sgn (db.refDir w) then 1 else -1)
      (dependencies fb u.2 u.1) := by
  obtain ⟨e, ev, he, hev, h1, h2, h3, h4⟩ := deps_report hr hu hb hnz
  have := ev_noself he hu hself
  rw [hev] at this
  have hev' := Option.some.inj this
  refine ⟨h1, h2, h3, ?_⟩
  intro w hw
  rw [h4 w hw, hev']
  unfold sgn
  by_cases a : db.refDir u = some .input <;> by_cases b : db.refDir w = some .input <;>
    norm_num [a, b, div_neg]

/-- the report on the emissions of `u`: every exchange is one of `u`'s own, unterminated, and stands for real
exterior exchanges, no flow and direction is listed twice, and the amounts add up. -/
def EmReport (db : DB F P) (strat : Strategy) (u : F × P) (scale : ℚ) (g : Gen (ExchDef F P)) : Prop :=
  g.2 = none ∧
  (g.1.map fun x => (x.flow, x.dir)).Nodup ∧
  (∀ x ∈ g.1, x.process = u.2 ∧ x.term = none ∧
    ∃ y ∈ db.inv u, ∃ v, cutOf db strat y = some ((x.flow, x.dir), v)) ∧
  ∀ a, emittedOf g.1 a = emitOf db strat u a / scale

theorem ems_report {o : SetOrd F P} {comp : F → Option P} {fuel : ℕ} {vs : List (F × P)} {fb : FB F P}
    (hr : fromIndex o db comp strat fuel vs = .ok fb) {u : F × P} (hu : Known db strat vs u)
    (hnz : ∀ a, (∃ x ∈ db.inv u, ∃ v, cutOf db strat x = some (a, v)) → emitOf db strat u a ≠ 0) :
    ∃ e ev, addAllRefProducts o db strat fuel vs {} = some e ∧ e.st.ev.get? u = some ev ∧
      EmReport db strat u ev (emissions fb u.2 u.1) := by
  obtain ⟨e, s, he, hs, _, hB⟩ := fromIndex_built hr
  obtain ⟨ev, hev, hems⟩ := ems_all he hs hB hu (fun a ha => hnz a ((emitsB_iff u a).mp ha))
  have hg : GraphOK db strat s e.g := hB.ok.gok
  have huv := (known_iff hs u).mpr hu
  obtain ⟨h1, h2, h3⟩ := emsOver_spec (db := db) (strat := strat) (u := u) (ev := ev) hg.rest.data.emn
  refine ⟨e, ev, he, hev, ?_⟩
  rw [hems]
  refine ⟨rfl, h1, ?_, ?_⟩
  · intro x hx
    obtain ⟨a, b, _, c⟩ := h2 x hx
    exact ⟨a, b, (emitsB_iff u _).mp c⟩
  · intro a
    simp only
    rw [h3 a]
    split
    · rfl
    · rename_i ham
      have : emitsB db strat u a ≠ true := by
        intro hm
        obtain ⟨v, hv⟩ := (Rest.cut_iff hg.rest huv a).mpr ((emitsB_iff u a).mp hm)
        exact ham (hg.rest.data.emi _ hv)
      simp [emitOf_zero this]

/-- C59 (emissions, partial): for any product (Output reference), foreground or background, whose exterior
exchanges do not cancel and which consumes less than one unit of itself, the reported emissions are, per unit of
net output, exactly the inventory's. -/
theorem C59_emissions_partial (o : SetOrd F P) (comp : F → Option P) (fuel : ℕ) (vs : List (F × P))
    (fb : FB F P) (hr : fromIndex o db comp strat fuel vs = .ok fb) (u : F × P) (hu : Known db strat vs u)
    (hd : db.refDir u = some .output)
    (hself : ∀ x ∈ db.inv u, ∀ v, depOf db strat x = some (u, v) → 0 ≤ v) (hlt : useOf db strat u u < 1)
    (hnz : ∀ a, (∃ x ∈ db.inv u, ∃ v, cutOf db strat x = some (a, v)) → emitOf db strat u a ≠ 0) :
    EmReport db strat u (1 - useOf db strat u u) (emissions fb u.2 u.1) := by
  obtain ⟨e, ev, he, hev, h⟩ := ems_report hr hu hnz
  have := ((C09_self_consumption_partial o fuel vs e he).1 u hu hd hself hlt).1
  rw [hev] at this
  rw [← Option.some.inj this]; exact h

/-- C59 (emissions, any reference direction): without self-consumption the emissions of a product are right and
those of a waste treatment process have the opposite sign. -/
theorem C59_emissions_directions_partial (o : SetOrd F P) (comp : F → Option P) (fuel : ℕ)
    (vs : List (F × P)) (fb : FB F P) (hr : fromIndex o db comp strat fuel vs = .ok fb) (u : F × P)
    (hu : Known db strat vs u) (hself : ¬ Depends db strat u u)
    (hnz : ∀ a, (∃ x ∈ db.inv u, ∃ v, cutOf db strat x = some (a, v)) → emitOf db strat u a ≠ 0) :
    EmReport db strat u (sgn (db.refDir u)) (emissions fb u.2 u.1) := by
  obtain ⟨e, ev, he, hev, h⟩ := ems_report hr hu hnz
  have := ev_noself he hu hself
  rw [hev] at this
  rw [← Option.some.inj this]; exact h

/-- C59 fails for the background: whatever the flat background, asking for the dependencies of a product flow in
its background raises an exception and yields nothing. -/
theorem C59_fails_background (fb : FB F P) (u : F × P) (hb : isInBackground fb u.2 u.1 = true) :
    ∃ err, dependencies fb u.2 u.1 = ([], some err) := by
  unfold isInBackground Dict.has at hb
  obtain ⟨i, hi⟩ := Option.isSome_iff_exists.mp hb
  unfold dependencies
  rw [hi]
  cases fb.A with
  | none => exact ⟨_, rfl⟩
  | some a => exact ⟨_, rfl⟩

/-! ### examples and witnesses -/

/-- 0 needs 2 of 1: that is what is reported, together with 3 of flow 9 emitted -/
example : (match exFb with
    | .ok fb => some (dependencies fb 0 0, emissions fb 0 0, isInBackground fb 0 0)
    | .error _ => none) =
    some (([⟨0, 1, .input, some 1, 2⟩], none), ([⟨0, 9, .output, none, 3⟩], none), false) := by decide +kernel

/-- 3 is in the background: no dependencies can be had, its emissions can -/
example : (match exFb with
    | .ok fb => some (dependencies fb 3 3, emissions fb 3 3, isInBackground fb 3 3)
    | .error _ => none) =
    some (([], some .attribute), ([⟨3, 9, .output, none, 7⟩], none), true) := by decide +kernel

example : ∃ fb, exFb = .ok fb ∧ isInBackground fb 0 0 = false ∧ Ex.db.refDir (0, 0) = some .output ∧
    useOf Ex.db .abort (0, 0) (0, 0) < 1 ∧ useOf Ex.db .abort (0, 0) (1, 1) = 2 := by
  have h : ∀ r : Except Err (FB ℕ ℕ), (match r with | .ok fb => !isInBackground fb 0 0 | .error _ => false) = true →
      ∃ fb, r = .ok fb ∧ isInBackground fb 0 0 = false := by
    intro r hr
    cases r with
    | ok fb => exact ⟨fb, rfl, by simpa using hr⟩
    | error e => simp at hr
  obtain ⟨fb, h1, h2⟩ := h exFb (by decide +kernel)
  exact ⟨fb, h1, h2, by decide +kernel, by decide +kernel, by decide +kernel⟩

/-- Process 0 takes 2 of flow 1 from process 1, 1 of flow 2 from process 2, gives 1 of the latter back; process 4 sends 3 of waste 3 to
its treatment (process 3, reference is an Input); 1 and 2 need each other. -/
def oddInv : ℕ → List (Exch ℕ ℕ)
  | 0 => [Ex.ref 0, ⟨1, .input, some 1, false, some 2⟩, ⟨2, .input, some 2, false, some 1⟩,
      ⟨2, .output, some 2, false, some 1⟩]
  | 1 => [Ex.ref 1, ⟨2, .input, some 2, false, some (1 / 2)⟩]
  | 2 => [Ex.ref 2, ⟨1, .input, some 1, false, some (1 / 2)⟩]
  | 3 => [⟨3, .input, none, true, some 1⟩, Ex.emit 9 5]
  | 4 => [Ex.ref 4, ⟨3, .output, some 3, false, some 3⟩]
  | _ => []

def oddDb : DB ℕ ℕ where
  inv := fun u => oddInv u.2
  terms := fun _ _ => []
  refDir := fun u => if u.1 = u.2 ∧ u.1 ≤ 4 then some (if u.1 = 3 then .input else .output) else none

def oddFb : Except Err (FB ℕ ℕ) :=
  fromIndex Ex.ord oddDb (fun _ => none) .abort 10 [(0, 0), (1, 1), (2, 2), (3, 3), (4, 4)]

/-- C59 fails for cancelling exchanges: process 0 needs 2 of flow 1 per unit, and is reported to need 0. -/
theorem C59_fails_cancelling :
    (match oddFb with
      | .ok fb => some ((dependencies fb 0 0).1.map fun x => (x.flow, x.value))
      | .error _ => none) = some [(1, 0)] ∧
    useOf oddDb .abort (0, 0) (1, 1) = 2 ∧ useOf oddDb .abort (0, 0) (2, 2) = 0 := by
  refine ⟨?_, ?_, ?_⟩ <;> decide +kernel

/-- C59 fails for waste: process 4 puts out 3 of the waste, and is reported to take in 3 of it; and the treatment
is reported to emit -5 of flow 9 where the inventory says 5. -/
theorem C59_fails_waste :
    (match oddFb with
      | .ok fb => some (dependencies fb 4 4, emissions fb 3 3)
      | .error _ => none) =
      some (([⟨4, 3, .input, some 3, 3⟩], none), ([⟨3, 9, .output, none, -5⟩], none)) ∧
    oddDb.inv (4, 4) = [Ex.ref 4, ⟨3, .output, some 3, false, some 3⟩] ∧
    emitOf oddDb .abort (3, 3) (9, .output) = 5 := by
  refine ⟨?_, rfl, ?_⟩ <;> decide +kernel

end FlatBg
