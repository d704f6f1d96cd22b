import Verif.Lemmas.FlatBg2

set_option linter.unusedSectionVars false
set_option linter.unusedSimpArgs false

namespace FlatBg
open Engine
variable {F P : Type} [DecidableEq F] [DecidableEq P]
variable {db : DB F P} {strat : Strategy}

/-- decidable form of `w ≠ u ∧ Depends db strat u w` -/
def usesB (db : DB F P) (strat : Strategy) (u w : F × P) : Bool :=
  decide (w ≠ u) && (db.inv u).any fun x => (depOf db strat x).any fun wv => decide (wv.1 = w)

theorem usesB_iff (u w : F × P) : usesB db strat u w = true ↔ w ≠ u ∧ Depends db strat u w := by
  unfold usesB
  rw [depends_iff]
  simp only [Bool.and_eq_true, decide_eq_true_eq, List.any_eq_true, Option.any_eq_true]
  constructor
  · rintro ⟨h, x, hx, ⟨a, v⟩, hd, rfl⟩
    exact ⟨h, x, hx, v, hd⟩
  · rintro ⟨h, x, hx, v, hd⟩
    exact ⟨h, x, hx, (w, v), hd, rfl⟩

/-- decidable form of "`u` exchanges `a` with the exterior" -/
def emitsB (db : DB F P) (strat : Strategy) (u : F × P) (a : F × Dir) : Bool :=
  (db.inv u).any fun x => (cutOf db strat x).any fun av => decide (av.1 = a)

theorem emitsB_iff (u : F × P) (a : F × Dir) :
    emitsB db strat u a = true ↔ ∃ x ∈ db.inv u, ∃ v, cutOf db strat x = some (a, v) := by
  unfold emitsB
  simp only [List.any_eq_true, Option.any_eq_true, decide_eq_true_eq]
  constructor
  · rintro ⟨x, hx, ⟨b, v⟩, hd, rfl⟩
    exact ⟨x, hx, v, hd⟩
  · rintro ⟨x, hx, v, hd⟩
    exact ⟨x, hx, (a, v), hd, rfl⟩

theorem Rest.cut_iff {s : State F P} (h : Rest db strat s) {u : F × P} (hu : u ∈ s.pfIndex) (a : F × Dir) :
    (∃ v, (u, a, v) ∈ s.cutoffs) ↔ ∃ x ∈ db.inv u, ∃ v, cutOf db strat x = some (a, v) := by
  have hd := (h.data.fin u hu (by simp)).cut
  have key : ∀ v, (u, a, v) ∈ s.cutoffs ↔ ∃ x ∈ db.inv u, cutOf db strat x = some (a, v) := by
    intro v
    have h1 : (u, a, v) ∈ s.cutoffs ↔ (u, a, v) ∈ s.cutoffs.filter (fun e => decide (e.1 = u)) := by
      simp [List.mem_filter]
    rw [h1, hd, List.mem_reverse, extOf, List.mem_filterMap]
    constructor
    · rintro ⟨x, hx, hm⟩
      cases hc : cutOf db strat x with
      | none => simp [hc] at hm
      | some c => simp [hc] at hm; exact ⟨x, hx, by rw [hc, hm]⟩
    · rintro ⟨x, hx, hc⟩
      exact ⟨x, hx, by simp [hc]⟩
  constructor
  · rintro ⟨v, hv⟩
    obtain ⟨x, hx, hc⟩ := (key v).mp hv
    exact ⟨x, hx, v, hc⟩
  · rintro ⟨x, hx, v, hc⟩
    exact ⟨v, (key v).mpr ⟨x, hx, hc⟩⟩

section
variable {s : State F P} {e : Eng F P} {comp : F → Option P} {fb : FB F P}

theorem Built.fgKeys (h : Built db strat s e comp fb) :
    fb.fg.map (fun k => (k.term, k.flow)) = e.g.fgProcs.map Prod.swap := by
  obtain ⟨n, _, h1, _⟩ := h.names
  rw [h1, List.map_map]; rfl

theorem Built.bgKeys (h : Built db strat s e comp fb) :
    fb.bg.map (fun k => (k.term, k.flow)) = e.g.bgProcs.map Prod.swap := by
  obtain ⟨n, _, _, h1⟩ := h.names
  rw [h1, List.map_map]; rfl

theorem swap_get {l : List (F × P)} (f : F) (p : P) (n : ℕ) :
    (l.map Prod.swap)[n]? = some (p, f) ↔ l[n]? = some (f, p) := by
  rw [List.getElem?_map]
  cases h : l[n]? with
  | none => simp
  | some a =>
    obtain ⟨f', p'⟩ := a
    simp only [Option.map_some, Prod.swap_prod_mk, Option.some.injEq, Prod.mk.injEq]
    exact And.comm

theorem Built.fgIndex_get (h : Built db strat s e comp fb) (f : F) (p : P) (n : ℕ) :
    (fgIndex fb).get? (p, f) = some n ↔ e.g.fgProcs[n]? = some (f, p) := by
  unfold fgIndex
  rw [h.fgKeys, enumDict_get (h.ok.gok.fgNodup.map Prod.swap_injective), swap_get]

theorem Built.bgIndex_get (h : Built db strat s e comp fb) (f : F) (p : P) (n : ℕ) :
    (bgIndex fb).get? (p, f) = some n ↔ e.g.bgProcs[n]? = some (f, p) := by
  unfold bgIndex
  rw [h.bgKeys, enumDict_get (h.ok.gok.bgNodup.map Prod.swap_injective), swap_get]

theorem Built.inBg (h : Built db strat s e comp fb) (f : F) (p : P) :
    isInBackground fb p f = true ↔ (f, p) ∈ e.g.bgProcs := by
  unfold isInBackground bgIndex
  rw [h.bgKeys, enumDict_has (h.ok.gok.bgNodup.map Prod.swap_injective)]
  constructor
  · intro hm
    obtain ⟨a, ha, he⟩ := List.mem_map.mp hm
    obtain ⟨f', p'⟩ := a
    cases he; exact ha
  · intro hm
    exact List.mem_map.mpr ⟨(f, p), hm, rfl⟩

theorem Built.inBg' (h : Built db strat s e comp fb) {f : F} {p : P} (hu : (f, p) ∈ s.pfIndex) :
    isInBackground fb p f = isBackground e.g (pfIx s (f, p)) := by
  have h1 := h.inBg f p
  have h2 := h.ok.gok.isBg hu
  cases ha : isInBackground fb p f <;> cases hb : isBackground e.g (pfIx s (f, p)) <;> simp_all

theorem Built.bgIndex_none (h : Built db strat s e comp fb) {f : F} {p : P}
    (hb : isInBackground fb p f = false) : (bgIndex fb).get? (p, f) = none := by
  unfold isInBackground Dict.has at hb
  simpa using hb

/-! ### which entries are stored -/

theorem Built.pos_fg (h : Built db strat s e comp fb) {u : F × P} (hu : u ∈ s.pfIndex) {n : ℕ} :
    fgDict e.g (pfIx e.st u) = some n ↔ e.g.fgProcs[n]? = some u := by
  rw [show pfIx e.st u = pfIx s u by rw [h.ok.st]; rfl]
  exact h.ok.gok.fg_get hu n

theorem Built.pos_bg (h : Built db strat s e comp fb) {u : F × P} (hu : u ∈ s.pfIndex) {n : ℕ} :
    bgDict e.g (pfIx e.st u) = some n ↔ e.g.bgProcs[n]? = some u := by
  rw [show pfIx e.st u = pfIx s u by rw [h.ok.st]; rfl]
  exact h.ok.gok.bg_get hu n

theorem EngOK.fg_mem (hok : EngOK db strat s e) {u w : F × P} (hu : u ∈ e.g.fgProcs) :
    (∃ v, (u, w, v) ∈ e.foreground) ↔ w ≠ u ∧ Depends db strat u w := by
  have hup := hok.gok.fg_sub u hu
  have hb : isBackground e.g (pfIx s u) = false := by
    have := (hok.gok.isBg_not hup).mp hu
    rw [← hok.gok.isBg hup] at this; simpa using this
  rw [hok.fgd]
  constructor
  · rintro ⟨v, hv⟩
    rw [List.mem_filter, List.mem_map] at hv
    obtain ⟨⟨j, hj, he⟩, _⟩ := hv
    cases he
    have := hok.gok.rest.int_iff.mp ⟨j.2.2, hj⟩
    exact this.2
  · rintro ⟨hne, hd⟩
    obtain ⟨v, hv⟩ := hok.gok.rest.int_iff.mpr ⟨hup, hne, hd⟩
    refine ⟨_, List.mem_filter.mpr ⟨List.mem_map.mpr ⟨_, hv, rfl⟩, by simp [hb]⟩⟩

theorem EngOK.int_mem (hok : EngOK db strat s e) {u w : F × P} (hu : u ∈ e.g.bgProcs) :
    (∃ v, (u, w, v) ∈ e.interior) ↔ w ≠ u ∧ Depends db strat u w := by
  have hup := hok.gok.bg_sub u hu
  have hb : isBackground e.g (pfIx s u) = true := (hok.gok.isBg hup).mpr hu
  rw [hok.int]
  constructor
  · rintro ⟨v, hv⟩
    rw [List.mem_filter, List.mem_map] at hv
    obtain ⟨⟨j, hj, he⟩, _⟩ := hv
    cases he
    have := hok.gok.rest.int_iff.mp ⟨j.2.2, hj⟩
    exact this.2
  · rintro ⟨hne, hd⟩
    obtain ⟨v, hv⟩ := hok.gok.rest.int_iff.mpr ⟨hup, hne, hd⟩
    refine ⟨_, List.mem_filter.mpr ⟨List.mem_map.mpr ⟨_, hv, rfl⟩, by simp [hb]⟩⟩

theorem EngOK.cut_mem (hok : EngOK db strat s e) {u : F × P} {a : F × Dir} (hu : u ∈ e.g.fgProcs) :
    (∃ v, (u, a, v) ∈ e.cutoff) ↔ emitsB db strat u a = true := by
  have hup := hok.gok.fg_sub u hu
  have hb : isBackground e.g (pfIx s u) = false := by
    have := (hok.gok.isBg_not hup).mp hu
    rw [← hok.gok.isBg hup] at this; simpa using this
  rw [emitsB_iff, ← Rest.cut_iff hok.gok.rest hup, hok.cut]
  constructor
  · rintro ⟨v, hv⟩
    rw [List.mem_filter, List.mem_map] at hv
    obtain ⟨⟨j, hj, he⟩, _⟩ := hv
    cases he
    exact ⟨j.2.2, hj⟩
  · rintro ⟨v, hv⟩
    exact ⟨_, List.mem_filter.mpr ⟨List.mem_map.mpr ⟨_, hv, rfl⟩, by simp [hb]⟩⟩

theorem EngOK.bge_mem (hok : EngOK db strat s e) {u : F × P} {a : F × Dir} (hu : u ∈ e.g.bgProcs) :
    (∃ v, (u, a, v) ∈ e.bgEmission) ↔ emitsB db strat u a = true := by
  have hup := hok.gok.bg_sub u hu
  have hb : isBackground e.g (pfIx s u) = true := (hok.gok.isBg hup).mpr hu
  rw [emitsB_iff, ← Rest.cut_iff hok.gok.rest hup, hok.bge]
  constructor
  · rintro ⟨v, hv⟩
    rw [List.mem_filter, List.mem_map] at hv
    obtain ⟨⟨j, hj, he⟩, _⟩ := hv
    cases he
    exact ⟨j.2.2, hj⟩
  · rintro ⟨v, hv⟩
    exact ⟨_, List.mem_filter.mpr ⟨List.mem_map.mpr ⟨_, hv, rfl⟩, by simp [hb]⟩⟩

theorem EngOK.fg_known (hok : EngOK db strat s e) {i : (F × P) × (F × P) × ℚ} (hi : i ∈ e.foreground) :
    i.1 ∈ s.pfIndex ∧ i.2.1 ∈ s.pfIndex := by
  rw [hok.fgd, List.mem_filter, List.mem_map] at hi
  obtain ⟨⟨j, hj, rfl⟩, _⟩ := hi
  exact ⟨hok.gok.rest.data.newI j hj, hok.gok.rest.data.tgt j hj⟩

theorem EngOK.int_known (hok : EngOK db strat s e) {i : (F × P) × (F × P) × ℚ} (hi : i ∈ e.interior) :
    i.1 ∈ s.pfIndex ∧ i.2.1 ∈ s.pfIndex := by
  rw [hok.int, List.mem_filter, List.mem_map] at hi
  obtain ⟨⟨j, hj, rfl⟩, _⟩ := hi
  exact ⟨hok.gok.rest.data.newI j hj, hok.gok.rest.data.tgt j hj⟩

theorem EngOK.cut_known (hok : EngOK db strat s e) {i : (F × P) × (F × Dir) × ℚ} (hi : i ∈ e.cutoff) :
    i.1 ∈ s.pfIndex ∧ i.2.1 ∈ s.emissions := by
  rw [hok.cut, List.mem_filter, List.mem_map] at hi
  obtain ⟨⟨j, hj, rfl⟩, _⟩ := hi
  exact ⟨hok.gok.rest.data.newC j hj, hok.gok.rest.data.emi j hj⟩

theorem EngOK.bge_known (hok : EngOK db strat s e) {i : (F × P) × (F × Dir) × ℚ} (hi : i ∈ e.bgEmission) :
    i.1 ∈ s.pfIndex ∧ i.2.1 ∈ s.emissions := by
  rw [hok.bge, List.mem_filter, List.mem_map] at hi
  obtain ⟨⟨j, hj, rfl⟩, _⟩ := hi
  exact ⟨hok.gok.rest.data.newC j hj, hok.gok.rest.data.emi j hj⟩

theorem bool_eq_of_iff {a b : Bool} (h : a = true ↔ b = true) : a = b := by
  cases a <;> cases b <;> simp_all

theorem Built.af_any (h : Built db strat s e comp fb) {m : Fg} (hm : makeForegroundAll e = some m)
    {r c : ℕ} {u w : F × P} (hu : e.g.fgProcs[c]? = some u) (hw : e.g.fgProcs[r]? = some w) :
    m.af.any (fun t => decide (t.1 = some r ∧ t.2.1 = some c)) = usesB db strat u w := by
  have hok := h.ok
  unfold makeForegroundAll at hm
  split at hm
  · cases hm
  cases hm
  have huf := List.mem_of_getElem? hu
  have hwf := List.mem_of_getElem? hw
  have hup := hok.gok.fg_sub u huf
  have hwp := hok.gok.fg_sub w hwf
  apply bool_eq_of_iff
  rw [usesB_iff, ← EngOK.fg_mem hok huf, List.any_eq_true]
  constructor
  · rintro ⟨t, ht, hd⟩
    obtain ⟨i, hi, rfl⟩ := List.mem_map.mp ht
    obtain ⟨hi, _⟩ := List.mem_filter.mp hi
    obtain ⟨k1, k2⟩ := EngOK.fg_known hok hi
    simp only [decide_eq_true_eq] at hd
    rw [h.pos_fg k2, h.pos_fg k1, hw, hu] at hd
    obtain ⟨a, b, v⟩ := i
    simp only [Option.some.injEq] at hd
    rw [hd.1, hd.2]
    exact ⟨v, hi⟩
  · rintro ⟨v, hv⟩
    have hwb : isBackground e.g (pfIx e.st w) = false := by
      rw [show pfIx e.st w = pfIx s w by rw [hok.st]; rfl]
      have := (hok.gok.isBg_not hwp).mp hwf
      rw [← hok.gok.isBg hwp] at this; simpa using this
    refine ⟨_, List.mem_map.mpr ⟨_, List.mem_filter.mpr ⟨hv, by simp [hwb]⟩, rfl⟩, ?_⟩
    simp only [decide_eq_true_eq]
    rw [h.pos_fg hwp, h.pos_fg hup]
    exact ⟨hw, hu⟩

theorem Built.ad_any (h : Built db strat s e comp fb) {m : Fg} (hm : makeForegroundAll e = some m)
    {r c : ℕ} {u w : F × P} (hu : e.g.fgProcs[c]? = some u) (hw : e.g.bgProcs[r]? = some w) :
    m.ad.any (fun t => decide (t.1 = some r ∧ t.2.1 = some c)) = usesB db strat u w := by
  have hok := h.ok
  unfold makeForegroundAll at hm
  split at hm
  · cases hm
  cases hm
  have huf := List.mem_of_getElem? hu
  have hwf := List.mem_of_getElem? hw
  have hup := hok.gok.fg_sub u huf
  have hwp := hok.gok.bg_sub w hwf
  apply bool_eq_of_iff
  rw [usesB_iff, ← EngOK.fg_mem hok huf, List.any_eq_true]
  constructor
  · rintro ⟨t, ht, hd⟩
    obtain ⟨i, hi, rfl⟩ := List.mem_map.mp ht
    obtain ⟨hi, _⟩ := List.mem_filter.mp hi
    obtain ⟨k1, k2⟩ := EngOK.fg_known hok hi
    simp only [decide_eq_true_eq] at hd
    rw [h.pos_bg k2, h.pos_fg k1, hw, hu] at hd
    obtain ⟨a, b, v⟩ := i
    simp only [Option.some.injEq] at hd
    rw [hd.1, hd.2]
    exact ⟨v, hi⟩
  · rintro ⟨v, hv⟩
    have hwb : isBackground e.g (pfIx e.st w) = true := by
      rw [show pfIx e.st w = pfIx s w by rw [hok.st]; rfl]
      exact (hok.gok.isBg hwp).mpr hwf
    refine ⟨_, List.mem_map.mpr ⟨_, List.mem_filter.mpr ⟨hv, by simp [hwb]⟩, rfl⟩, ?_⟩
    simp only [decide_eq_true_eq]
    rw [h.pos_bg hwp, h.pos_fg hup]
    exact ⟨hw, hu⟩

theorem em_get {a : F × Dir} {r : ℕ} (hn : s.emissions.Nodup) (ha : a ∈ s.emissions) :
    emIx s a = r ↔ s.emissions[r]? = some a := by
  unfold emIx
  constructor
  · rintro rfl; exact List.getElem?_idxOf ha
  · intro h
    obtain ⟨hl, rfl⟩ := List.getElem?_eq_some_iff.mp h
    exact List.Nodup.idxOf_getElem hn r hl

theorem Built.bf_any (h : Built db strat s e comp fb) {m : Fg} (hm : makeForegroundAll e = some m)
    {r c : ℕ} {u : F × P} {a : F × Dir} (hu : e.g.fgProcs[c]? = some u) (ha : s.emissions[r]? = some a) :
    (m.bf.map fun t => ((some t.1, t.2.1, t.2.2) : Option ℕ × Option ℕ × ℚ)).any
      (fun t => decide (t.1 = some r ∧ t.2.1 = some c)) = emitsB db strat u a := by
  have hok := h.ok
  have hemx : ∀ a, emIx e.st a = emIx s a := by intro a; rw [hok.st]; rfl
  unfold makeForegroundAll at hm
  split at hm
  · cases hm
  cases hm
  have huf := List.mem_of_getElem? hu
  have hae := List.mem_of_getElem? ha
  have hup := hok.gok.fg_sub u huf
  apply bool_eq_of_iff
  rw [← EngOK.cut_mem hok huf, List.any_eq_true]
  have hemn := hok.gok.rest.data.emn
  constructor
  · rintro ⟨t, ht, hd⟩
    obtain ⟨i', hi', rfl⟩ := List.mem_map.mp ht
    obtain ⟨i, hi, rfl⟩ := List.mem_map.mp hi'
    obtain ⟨k1, k2⟩ := EngOK.cut_known hok hi
    simp only [decide_eq_true_eq, Option.some.injEq] at hd
    rw [hemx, em_get hemn k2, h.pos_fg k1, ha, hu] at hd
    obtain ⟨a, b, v⟩ := i
    simp only [Option.some.injEq] at hd
    rw [hd.1, hd.2]
    exact ⟨v, hi⟩
  · rintro ⟨v, hv⟩
    refine ⟨_, List.mem_map.mpr ⟨_, List.mem_map.mpr ⟨_, hv, rfl⟩, rfl⟩, ?_⟩
    simp only [decide_eq_true_eq, Option.some.injEq]
    rw [hemx, em_get hemn hae, h.pos_fg hup]
    exact ⟨ha, hu⟩

theorem Built.a_any (h : Built db strat s e comp fb) {ma : List (Option ℕ × Option ℕ × ℚ)}
    (hm : e.aMatrix = some ma) {r c : ℕ} {u w : F × P} (hu : e.g.bgProcs[c]? = some u)
    (hw : e.g.bgProcs[r]? = some w) :
    ma.any (fun t => decide (t.1 = some r ∧ t.2.1 = some c)) = usesB db strat u w := by
  have hok := h.ok
  have hma : ma = constructA s e.g e.interior := by
    rcases hok.mat with ⟨_, h1, _⟩ | ⟨_, h1, _⟩
    · rw [hm] at h1; cases h1
    · rw [hm] at h1; exact Option.some.inj h1
  subst hma
  have huf := List.mem_of_getElem? hu
  have hwf := List.mem_of_getElem? hw
  have hup := hok.gok.bg_sub u huf
  have hwp := hok.gok.bg_sub w hwf
  apply bool_eq_of_iff
  rw [usesB_iff, ← EngOK.int_mem hok huf, List.any_eq_true]
  unfold constructA
  constructor
  · rintro ⟨t, ht, hd⟩
    obtain ⟨i, hi, rfl⟩ := List.mem_map.mp ht
    obtain ⟨k1, k2⟩ := EngOK.int_known hok hi
    simp only [decide_eq_true_eq] at hd
    rw [hok.gok.bg_get k2, hok.gok.bg_get k1, hw, hu] at hd
    obtain ⟨a, b, v⟩ := i
    simp only [Option.some.injEq] at hd
    rw [hd.1, hd.2]
    exact ⟨v, hi⟩
  · rintro ⟨v, hv⟩
    refine ⟨_, List.mem_map.mpr ⟨_, hv, rfl⟩, ?_⟩
    simp only [decide_eq_true_eq]
    rw [hok.gok.bg_get hwp, hok.gok.bg_get hup]
    exact ⟨hw, hu⟩

theorem Built.b_any (h : Built db strat s e comp fb) {mb : List (ℕ × Option ℕ × ℚ)}
    (hm : e.bMatrix = some mb) {r c : ℕ} {u : F × P} {a : F × Dir} (hu : e.g.bgProcs[c]? = some u)
    (ha : s.emissions[r]? = some a) :
    (mb.map fun t => ((some t.1, t.2.1, t.2.2) : Option ℕ × Option ℕ × ℚ)).any
      (fun t => decide (t.1 = some r ∧ t.2.1 = some c)) = emitsB db strat u a := by
  have hok := h.ok
  have hma : mb = constructB s e.g e.bgEmission := by
    rcases hok.mat with ⟨_, _, h1⟩ | ⟨_, _, h1⟩
    · rw [hm] at h1; cases h1
    · rw [hm] at h1; exact Option.some.inj h1
  subst hma
  have huf := List.mem_of_getElem? hu
  have hae := List.mem_of_getElem? ha
  have hup := hok.gok.bg_sub u huf
  apply bool_eq_of_iff
  rw [← EngOK.bge_mem hok huf, List.any_eq_true]
  have hemn := hok.gok.rest.data.emn
  unfold constructB
  constructor
  · rintro ⟨t, ht, hd⟩
    obtain ⟨i', hi', rfl⟩ := List.mem_map.mp ht
    obtain ⟨i, hi, rfl⟩ := List.mem_map.mp hi'
    obtain ⟨k1, k2⟩ := EngOK.bge_known hok hi
    simp only [decide_eq_true_eq, Option.some.injEq] at hd
    rw [em_get hemn k2, hok.gok.bg_get k1, ha, hu] at hd
    obtain ⟨a, b, v⟩ := i
    simp only [Option.some.injEq] at hd
    rw [hd.1, hd.2]
    exact ⟨v, hi⟩
  · rintro ⟨v, hv⟩
    refine ⟨_, List.mem_map.mpr ⟨_, List.mem_map.mpr ⟨_, hv, rfl⟩, rfl⟩, ?_⟩
    simp only [decide_eq_true_eq, Option.some.injEq]
    rw [em_get hemn hae, hok.gok.bg_get hup]
    exact ⟨ha, hu⟩

end

end FlatBg
