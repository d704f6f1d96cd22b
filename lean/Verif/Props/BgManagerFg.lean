import Verif.Props.BgManager

/-!
C224: the foreground of a product flow, as a background manager reports it.
-/

set_option linter.unusedSectionVars false
set_option linter.unusedSimpArgs false

namespace BgMgr
open Engine FlatBg
variable {F P : Type} [DecidableEq F] [DecidableEq P]
variable {db : DB F P} {strat : Strategy}

/-- the exchanges between the product flows of `l`: for each supplier, one for each product flow other than itself that has exchanges
with it, with the total per unit of net output. The direction is the complement of the reference direction of the supplier. -/
def Links (db : DB F P) (strat : Strategy) (sc : F × P → ℚ) (l : List (F × P)) : List (ExchDef F P) :=
  l.flatMap fun w => (l.filter fun v => decide (w ≠ v) && (db.inv v).any fun x => (depOf db strat x).any fun wv => decide (wv.1 = w)).map
    fun v => ⟨v.2, w.1, if db.refDir w = some .input then .output else .input, some w.2, useOf db strat v w / sc v⟩

theorem flatMap_range_getElem {A B : Type} (l : List A) (f : ℕ → List B) (g : A → List B) (h : ∀ r w, l[r]? = some w → f r = g w) :
    (List.range l.length).flatMap f = l.flatMap g := by
  induction l generalizing f with
  | nil => rfl
  | cons a l ih =>
    rw [List.length_cons, List.range_succ_eq_map, List.flatMap_cons, List.flatMap_cons, h 0 a rfl, List.flatMap_map]
    rw [ih (fun r => f (r + 1)) (fun r w hw => h (r + 1) w (by simpa using hw))]

theorem filter_map_flatMap {A B : Type} (l : List A) (p : A → Bool) (k : A → B) :
    (l.filter p).map k = l.flatMap fun v => if p v = true then [k v] else [] := by
  induction l with
  | nil => rfl
  | cons a l ih =>
    rw [List.flatMap_cons, ← ih]
    cases h : p a <;> simp [List.filter_cons, h]

theorem scale_ne {u : F × P} {r : ℚ} (h : Scale db strat u r) : r ≠ 0 := by
  rcases h with ⟨_, _, h, rfl⟩ | ⟨_, rfl⟩
  · exact sub_ne_zero.mpr (ne_of_gt h)
  · split <;> norm_num

theorem linkLoop_eq (fg : List (F × P)) (m : Sp) (h : ∀ t ∈ m, t.1 < fg.length ∧ t.2.1 < fg.length) :
    linkLoop db fg (m.map fun t => ((t.1, t.2.1), t.2.2)) = (m.flatMap fun t =>
      match fg[t.2.1]?, fg[t.1]? with
      | some node, some term => [⟨node.2, term.1, compRef db term, some term.2, t.2.2⟩]
      | _, _ => [], none) := by
  induction m with
  | nil => rfl
  | cons t m ih =>
    obtain ⟨h1, h2⟩ := h t (by simp)
    rw [List.map_cons, linkLoop, List.flatMap_cons, List.getElem?_eq_getElem h1, List.getElem?_eq_getElem h2]
    simp only
    rw [ih (fun t ht => h t (List.mem_cons_of_mem _ ht))]
    rfl

/-- C224, provided the exchanges with one product flow do not cancel. The foreground of a product flow outside the background ends; it is
the reference exchange, and then the links between the product flows outside the background that the given one depends on. -/
theorem manager_foreground (o : SetOrd F P) (fuel : ℕ) (vs : List (F × P)) (e : Eng F P)
    (hr : addAllRefProducts o db strat fuel vs {} = some e) (u : F × P) (hu : Known db strat vs u)
    (hb : isBackground e.g (pfIx e.st u) = false) (sc : F × P → ℚ)
    (hs : ∀ v, Reach db strat u v → isBackground e.g (pfIx e.st v) = false → Scale db strat v (sc v))
    (hnz : ∀ v w, Reach db strat u v → isBackground e.g (pfIx e.st w) = false → w ≠ v → Depends db strat v w → useOf db strat v w ≠ 0) :
    ∃ f, ∀ f' ≥ f, ∃ l t, l = u :: t ∧ l.Nodup ∧ (∀ v, v ∈ l ↔ Reach db strat u v ∧ isBackground e.g (pfIx e.st v) = false) ∧
      (t.Pairwise fun x y => ∃ i j, fgDict e.g (pfIx e.st x) = some i ∧ fgDict e.g (pfIx e.st y) = some j ∧ i < j) ∧
      foreground db o f' e u = (⟨u.2, u.1, (db.refDir u).getD .output, none, 1⟩ :: Links db strat sc l, none) := by
  obtain ⟨f1, hf1⟩ := C06_foreground o fuel vs e hr u hu
  obtain ⟨f2, hf2⟩ := C07_foreground_one o fuel vs e hr u hu hb
  refine ⟨max f1 f2, fun f' hf' => ?_⟩
  obtain ⟨l, hl, -, hnb⟩ := hf1 f' (le_trans (le_max_left _ _) hf')
  obtain ⟨l', m, hl', hm, hpd, -, hent⟩ := hf2 f' (le_trans (le_max_right _ _) hf')
  rw [hl] at hl'
  cases hl'
  obtain ⟨hnd, hmem, t, hlt, hpw⟩ := hnb hb
  refine ⟨l, t, hlt, hnd, hmem, hpw, ?_⟩
  obtain ⟨s, hss, hrest, hok⟩ := addAllRefProducts_spec hr
  have hst : e.st = { s with interior := [], cutoffs := [] } := hok.st
  have hg : GraphOK db strat s e.g := hok.gok
  have hix : ∀ u, pfIx e.st u = pfIx s u := by intro u; rw [hst]; rfl
  have hem : ∀ a, emIx e.st a = emIx s a := by intro a; rw [hst]; rfl
  have hen : enumIndex e.st l = enumIndex s l := by rw [hst]; rfl
  have hems : e.st.emissions = s.emissions := by rw [hst]
  have hpv := (known_iff hss u).mpr hu
  have hsub : ∀ u ∈ l, u ∈ s.pfIndex := fun u hu => hrest.reach_closed hpv ((hmem u).mp hu).1
  have hget : ∀ {u}, u ∈ s.pfIndex → ∀ n : ℕ,
      (enumIndex e.st l).get? (pfIx e.st u) = some n ↔ l[n]? = some u := fun hu n => by
    rw [hen, hix]; exact enumIndex_get hrest.inv hnd hsub hu n
  have hpos : ∀ {u}, u ∈ s.pfIndex → ((enumIndex e.st l).get? (pfIx e.st u)).isSome = true →
      ∃ n, (enumIndex e.st l).get? (pfIx e.st u) = some n ∧ n < l.length ∧ l[n]? = some u := by
    intro u hu h
    obtain ⟨n, hn⟩ := Option.isSome_iff_exists.mp h
    have h2 := (hget hu n).mp hn
    exact ⟨n, hn, (List.getElem?_eq_some_iff.mp h2).1, h2⟩
  have hm' := hm
  unfold makeForeground at hm'
  rw [hl] at hm'
  simp only [Option.some.injEq] at hm'
  -- the matrices can be built
  obtain ⟨af, haf⟩ := csr_some (nr := m.pdim) (nc := m.pdim) (ts := m.af) (by
    intro t ht
    rw [← hm'] at ht ⊢
    obtain ⟨i, hi, rfl⟩ := List.mem_map.mp ht
    obtain ⟨hi, hb2⟩ := List.mem_filter.mp hi
    obtain ⟨hi, hb1⟩ := List.mem_filter.mp hi
    obtain ⟨k1, k2⟩ := EngOK.fg_known hok hi
    simp only [Bool.and_eq_true] at hb2
    obtain ⟨a, ha, hal, -⟩ := hpos k2 hb2.2
    obtain ⟨b, hb', hbl, -⟩ := hpos k1 hb1
    exact ⟨a, b, ha, hb', hal, hbl⟩)
  obtain ⟨ad, had⟩ := csr_some (nr := ndim e.g) (nc := m.pdim) (ts := m.ad) (by
    intro t ht
    rw [← hm'] at ht ⊢
    obtain ⟨i, hi, rfl⟩ := List.mem_map.mp ht
    obtain ⟨hi, hb2⟩ := List.mem_filter.mp hi
    obtain ⟨hi, hb1⟩ := List.mem_filter.mp hi
    obtain ⟨k1, k2⟩ := EngOK.fg_known hok hi
    rw [hix] at hb2
    obtain ⟨a, ha, hal⟩ := bg_pos hg k2 hb2
    obtain ⟨b, hb', hbl, -⟩ := hpos k1 hb1
    exact ⟨a, b, by simp [hix, ha], hb', hal, hbl⟩)
  obtain ⟨bf, hbf⟩ := csr_some (nr := e.st.emissions.length) (nc := m.pdim)
    (ts := m.bf.map fun t => ((some t.1, t.2.1, t.2.2) : Option ℕ × Option ℕ × ℚ)) (by
    intro t ht
    rw [← hm'] at ht ⊢
    obtain ⟨i', hi', rfl⟩ := List.mem_map.mp ht
    obtain ⟨i, hi, rfl⟩ := List.mem_map.mp hi'
    obtain ⟨hi, hb1⟩ := List.mem_filter.mp hi
    obtain ⟨k1, k2⟩ := EngOK.cut_known hok hi
    obtain ⟨b, hb', hbl, -⟩ := hpos k1 hb1
    exact ⟨_, b, rfl, hb', by rw [hem, hems]; exact em_pos k2, hbl⟩)
  -- where it has entries
  have hany : ∀ (k n : ℕ) (w v : F × P), l[k]? = some w → l[n]? = some v →
      m.af.any (fun t => decide (t.1 = some k ∧ t.2.1 = some n)) = usesB db strat v w := by
    intro k n w v hk hn
    have hwl := List.mem_of_getElem? hk
    have hvl := List.mem_of_getElem? hn
    have hwb := ((hmem w).mp hwl).2
    have hvb := ((hmem v).mp hvl).2
    have hvf : v ∈ e.g.fgProcs := by
      rw [hix] at hvb
      rw [hg.isBg_not (hsub v hvl), ← hg.isBg (hsub v hvl)]; simp [hvb]
    apply bool_eq_of_iff
    rw [usesB_iff, ← EngOK.fg_mem hok hvf, List.any_eq_true, ← hm']
    constructor
    · rintro ⟨t, ht, hd⟩
      obtain ⟨i, hi, rfl⟩ := List.mem_map.mp ht
      obtain ⟨hi, _⟩ := List.mem_filter.mp hi
      obtain ⟨hi, _⟩ := List.mem_filter.mp hi
      obtain ⟨k1, k2⟩ := EngOK.fg_known hok hi
      simp only [decide_eq_true_eq] at hd
      rw [hget k2, hget k1, hk, hn] at hd
      obtain ⟨a, b, x⟩ := i
      simp only [Option.some.injEq] at hd
      rw [hd.1, hd.2]
      exact ⟨x, hi⟩
    · rintro ⟨x, hx⟩
      have h1 := (hget (hsub v hvl) n).mpr hn
      have h2 := (hget (hsub w hwl) k).mpr hk
      exact ⟨_, List.mem_map.mpr ⟨_, List.mem_filter.mpr ⟨List.mem_filter.mpr ⟨hx, by simp [h1]⟩, by simp [h2, hwb]⟩, rfl⟩,
        by simp [h1, h2]⟩
  have hval : ∀ (k n : ℕ) (w v : F × P), l[k]? = some w → l[n]? = some v → usesB db strat v w = true →
      entry m.af (some k) (some n) = useOf db strat v w / sc v := by
    intro k n w v hk hn huse
    have hvl := (hmem v).mp (List.mem_of_getElem? hn)
    obtain ⟨ev, hev, h, -⟩ := hent n v hn
    have h2 := scale_ev hr ((known_iff hss v).mp (hsub v (List.mem_of_getElem? hn))) (hs v hvl.1 hvl.2)
    rw [hev] at h2
    rw [← Option.some.inj h2]
    exact h k w ((usesB_iff v w).mp huse).1 hk
  have haf' : af = (List.range l.length).flatMap fun r => (List.range l.length).filterMap fun c =>
      if m.af.any fun t => decide (t.1 = some r ∧ t.2.1 = some c) then some (r, c, entry m.af (some r) (some c)) else none := by
    unfold csr at haf
    split at haf
    · rw [hpd] at haf
      exact (Option.some.inj haf).symm
    · cases haf
  have hin : ∀ x ∈ af, (x.1 < l.length ∧ x.2.1 < l.length) ∧ x.2.2 ≠ 0 := by
    intro x hx
    rw [haf', List.mem_flatMap] at hx
    obtain ⟨r, hr', hx⟩ := hx
    rw [List.mem_filterMap] at hx
    obtain ⟨c, hc', hx⟩ := hx
    have hrl := List.mem_range.mp hr'
    have hcl := List.mem_range.mp hc'
    have hw : l[r]? = some l[r] := List.getElem?_eq_getElem hrl
    have hv : l[c]? = some l[c] := List.getElem?_eq_getElem hcl
    rw [hany r c _ _ hw hv] at hx
    split at hx
    · rename_i huse
      simp only [Option.some.injEq] at hx
      subst hx
      refine ⟨⟨hrl, hcl⟩, ?_⟩
      simp only
      rw [hval r c _ _ hw hv huse]
      have hvl := (hmem _).mp (List.mem_of_getElem? hv)
      have hwl := (hmem _).mp (List.mem_of_getElem? hw)
      have hd := (usesB_iff _ _).mp huse
      exact div_ne_zero (hnz _ _ hvl.1 hwl.2 hd.1 hd.2) (scale_ne (hs _ hvl.1 hvl.2))
    · cases hx
  unfold foreground
  rw [hb]
  simp only [Bool.false_eq_true, if_false]
  rw [hl, hm]
  simp only
  rw [haf, had, hbf]
  simp only
  have hzip : ((af.filter fun t => decide (t.2.2 ≠ 0)).map fun t => (t.1, t.2.1)).zip (af.map fun t => t.2.2) =
      af.map fun t => ((t.1, t.2.1), t.2.2) := by
    rw [List.filter_eq_self.mpr (by intro x hx; simpa using (hin x hx).2)]
    clear hin haf' haf
    induction af with
    | nil => rfl
    | cons a af ih => simp [ih]
  rw [hzip, linkLoop_eq l af (fun x hx => (hin x hx).1)]
  congr 2
  rw [haf', List.flatMap_assoc]
  unfold Links
  apply flatMap_range_getElem
  intro r w hw
  rw [List.filterMap_eq_flatMap_toList, List.flatMap_assoc]
  rw [filter_map_flatMap]
  apply flatMap_range_getElem
  intro c v hv
  rw [hany r c w v hw hv]
  have hdir : compRef db w = if db.refDir w = some .input then .output else .input := by
    unfold compRef
    cases hd : db.refDir w with
    | none => rfl
    | some d => cases d <;> rfl
  have h2 : (decide (w ≠ v) && (db.inv v).any fun x => (depOf db strat x).any fun wv => decide (wv.1 = w)) = usesB db strat v w := rfl
  rw [h2]
  by_cases huse : usesB db strat v w = true
  · rw [if_pos huse, if_pos huse, hval r c w v hw hv huse]
    simp [hw, hv, hdir]
  · rw [if_neg huse, if_neg huse]
    rfl

/-- C224, the background: the foreground of a background product flow is the reference exchange alone. -/
theorem manager_foreground_bg (o : SetOrd F P) (fuel : ℕ) (vs : List (F × P)) (e : Eng F P)
    (hr : addAllRefProducts o db strat fuel vs {} = some e) (u : F × P) (hu : Known db strat vs u)
    (hb : isBackground e.g (pfIx e.st u) = true) (r : ℚ) (hs : Scale db strat u r) (f : ℕ) :
    foreground db o f e u = ([⟨u.2, u.1, (db.refDir u).getD .output, none, 1⟩], none) := by
  obtain ⟨c, ta, tb, a, b, -, hA, hB, -⟩ := bg_columns hr hu hb hs
  unfold foreground
  rw [if_pos hb, hA, hB]
  rfl

/-! ### examples and witnesses -/

/-- 5 needs 3 of 0 and 1 of 4; 4 needs 2 of 0; 0 needs 2 of 1, and half of itself; 1 and 2 need each other -/
def deepInv : ℕ → List (Exch ℕ ℕ)
  | 0 => [Ex.ref 0, Ex.need 1 2, Ex.need 0 (1 / 2)]
  | 1 => [Ex.ref 1, Ex.need 2 (1 / 2)]
  | 2 => [Ex.ref 2, Ex.need 1 (1 / 5)]
  | 4 => [Ex.ref 4, Ex.need 0 2]
  | 5 => [Ex.ref 5, Ex.need 0 3, Ex.need 4 1, Ex.emit 9 7]
  | _ => []

def deepDb : DB ℕ ℕ where
  inv := fun u => deepInv u.2
  terms := fun f d => if f ≤ 5 ∧ d = .input then [f] else []
  refDir := fun u => if u.1 = u.2 ∧ u.1 ≤ 5 then some .output else none

def deepEng : Option (Eng ℕ ℕ) := addAllRefProducts Ex.ord deepDb .abort 20 [(5, 5)] {}

/-- 5, 4 and 0 are in the foreground -/
example : deepEng.map (fun e => (e.g.fgProcs, e.g.bgProcs)) = some ([(5, 5), (4, 4), (0, 0)], [(2, 2), (1, 1)]) := by decide +kernel

/-- the foreground of 5, by the theorem: 5 needs 1 of 4 and 3 of 0, 4 needs 2 of 0 -/
example : Links deepDb .abort (fun v => if v = (0, 0) then 1 / 2 else 1) [(5, 5), (4, 4), (0, 0)] =
    [⟨5, 4, .input, some 4, 1⟩, ⟨5, 0, .input, some 0, 3⟩, ⟨4, 0, .input, some 0, 2⟩] := by decide +kernel

theorem deep_depends {v w : ℕ × ℕ} (hv : v ∈ [(5, 5), (4, 4), (0, 0), (1, 1), (2, 2)]) (h : Depends deepDb .abort v w) :
    w ∈ [(5, 5), (4, 4), (0, 0), (1, 1), (2, 2)] ∧ useOf deepDb .abort v w ≠ 0 := by
  have hall : [(5, 5), (4, 4), (0, 0), (1, 1), (2, 2)].all (fun v => (deepDb.inv v).all fun x =>
      (depOf deepDb .abort x).all fun wv => decide (wv.1 ∈ [(5, 5), (4, 4), (0, 0), (1, 1), (2, 2)]) &&
        decide (useOf deepDb .abort v wv.1 ≠ 0)) = true := by decide +kernel
  rw [depends_iff] at h
  obtain ⟨x, hx, q, hd⟩ := h
  have h2 := List.all_eq_true.mp (List.all_eq_true.mp hall v hv) x hx
  rw [hd] at h2
  simpa using h2

/-- the hypotheses of the theorem hold of it: nothing cancels, and the amounts divided by are 1/2 for 0, and 1 -/
example : (∀ v w, Reach deepDb .abort (5, 5) v → Depends deepDb .abort v w → useOf deepDb .abort v w ≠ 0) ∧
    (∀ v, Reach deepDb .abort (5, 5) v → Scale deepDb .abort v (if v = (0, 0) then 1 / 2 else 1)) := by
  have hr : ∀ v, Reach deepDb .abort (5, 5) v → v ∈ [(5, 5), (4, 4), (0, 0), (1, 1), (2, 2)] := by
    intro v h
    induction h with
    | refl => decide
    | tail _ hd ih => exact (deep_depends ih hd).1
  refine ⟨fun v w h hd => (deep_depends (hr v h) hd).2, fun v h => ?_⟩
  have hv := hr v h
  have hno : ∀ v, (deepDb.inv v).all (fun x => (depOf deepDb .abort x).all fun wv => decide (wv.1 ≠ v)) = true →
      ¬ Depends deepDb .abort v v := by
    intro v hall hd
    rw [depends_iff] at hd
    obtain ⟨x, hx, q, hd⟩ := hd
    have h2 := List.all_eq_true.mp hall x hx
    rw [hd] at h2
    simp at h2
  have h0 : (deepDb.inv (0, 0)).all (fun x => (depOf deepDb .abort x).all fun wv => decide (0 ≤ wv.2)) = true := by decide +kernel
  simp only [List.mem_cons, List.not_mem_nil, or_false] at hv
  rcases hv with rfl | rfl | rfl | rfl | rfl
  · exact .inr ⟨hno _ (by decide +kernel), by decide +kernel⟩
  · exact .inr ⟨hno _ (by decide +kernel), by decide +kernel⟩
  · refine .inl ⟨rfl, ?_, by decide +kernel, by decide +kernel⟩
    intro x hx q hq
    have h2 := List.all_eq_true.mp h0 x hx
    rw [hq] at h2
    simpa using h2
  · exact .inr ⟨hno _ (by decide +kernel), by decide +kernel⟩
  · exact .inr ⟨hno _ (by decide +kernel), by decide +kernel⟩

/-- C224 fails for waste: process 4 puts out 3 of a waste; in a foreground that holds it and its treatment it puts out -3 -/
theorem manager_foreground_fails_waste :
    Links oddDb .abort (fun _ => 1) [(4, 4), (3, 3)] = [⟨4, 3, .output, some 3, -3⟩] ∧
    oddDb.inv (4, 4) = [Ex.ref 4, ⟨3, .output, some 3, false, some 3⟩] := by
  refine ⟨?_, rfl⟩
  decide +kernel

end BgMgr
