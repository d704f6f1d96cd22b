import Verif.Lemmas.FlatBg4
import Verif.Props.Engine3

/-!
C58: which databases get a flat background, and what it says about membership of the background and of
strongly connected components.
-/

set_option linter.unusedSectionVars false
set_option linter.unusedSimpArgs false

namespace FlatBg
open Engine
variable {F P : Type} [DecidableEq F] [DecidableEq P]
variable {db : DB F P} {strat : Strategy}

theorem sccNames_get {s : State F P} (h : Rest db strat s) {names : Dict ℕ P} (hn : sccNames s = some names)
    (k : ℕ) : (names.get? k).isSome = true ↔ ∃ l, s.sccs.get? k = some l ∧ 1 < l.length := by
  have hmap : ∀ (ls : List (ℕ × List (F × P))) (r : Dict ℕ P),
      (ls.mapM fun kl => (s.pfIndex[kl.1]?).map fun v => (kl.1, v.2)) = some r →
      r.map Prod.fst = ls.map Prod.fst := by
    intro ls
    induction ls with
    | nil => intro r hr; simp at hr; simp [hr]
    | cons a ls ih =>
      intro r hr
      rw [List.mapM_cons] at hr
      cases ha : s.pfIndex[a.1]? with
      | none => simp [ha] at hr
      | some v =>
        simp only [ha, Option.map_some, Option.pure_def, Option.bind_eq_bind, Option.bind_some] at hr
        cases ht : (ls.mapM fun kl => (s.pfIndex[kl.1]?).map fun v => (kl.1, v.2)) with
        | none => rw [ht] at hr; simp at hr
        | some t =>
          rw [ht] at hr
          simp at hr
          subst hr
          simp [ih t ht]
  have hkeys := hmap _ _ hn
  have h1 : (names.get? k).isSome = true ↔ k ∈ names.keys := by
    rw [Dict.mem_keys_iff, Option.isSome_iff_exists]
  rw [h1]
  show k ∈ names.map Prod.fst ↔ _
  rw [hkeys]
  constructor
  · intro hm
    obtain ⟨kl, hkl, rfl⟩ := List.mem_map.mp hm
    obtain ⟨hm', hl⟩ := List.mem_filter.mp hkl
    exact ⟨kl.2, Dict.get?_eq_some_of_mem _ h.inv.sccsKeys hm', by simpa using hl⟩
  · rintro ⟨l, hl, hlen⟩
    exact List.mem_map.mpr ⟨(k, l), List.mem_filter.mpr ⟨Dict.mem_of_get?_eq_some _ hl, by simpa using hlen⟩, rfl⟩

theorem big_iff {s : State F P} (h : Rest db strat s) {u : F × P} {k : ℕ} (hk : s.sccOf.get? u = some k) :
    (∃ l, s.sccs.get? k = some l ∧ 1 < l.length) ↔ ∃ w, w ≠ u ∧ Mutual db strat u w := by
  obtain ⟨l, hl⟩ := h.inv.sccsDom u k hk
  obtain ⟨hne, hnd, hmem⟩ := h.inv.sccsMem k l hl
  have hul : u ∈ l := (hmem u).mpr hk
  constructor
  · rintro ⟨l', hl', hlen⟩
    rw [hl] at hl'; cases hl'
    match l, hlen, hnd, hmem, hul with
    | a :: b :: t, _, hnd, hmem, hul =>
      have hab : a ≠ b := by
        have := (List.nodup_cons.mp hnd).1
        intro e; subst e; simp at this
      by_cases ha : a = u
      · exact ⟨b, fun e => hab (ha.trans e.symm),
          (h.inv.scc u b k k hk ((hmem b).mp (by simp))).mp rfl⟩
      · exact ⟨a, ha, (h.inv.scc u a k k hk ((hmem a).mp (by simp))).mp rfl⟩
  · rintro ⟨w, hw, hm⟩
    have hwp := h.reach_closed (h.inv.sccVis u k hk) hm.1
    obtain ⟨k', hk'⟩ := h.scc hwp
    have : k = k' := (h.inv.scc u w k k' hk hk').mpr hm
    subst this
    have hwl : w ∈ l := (hmem w).mpr hk'
    refine ⟨l, hl, ?_⟩
    match l, hul, hwl with
    | [a], h1, h2 =>
      simp at h1 h2; exact absurd (h2.trans h1.symm) hw
    | a :: b :: t, _, _ => simp

/-- C58 (construction): once the engine has ordered its database, a flat background is obtained if and only if
some two product flows depend on each other; for every other database the constructor fails with
AttributeError. -/
theorem C58_constructed_iff_cyclic (o : SetOrd F P) (comp : F → Option P) (fuel : ℕ) (vs : List (F × P))
    (e : Eng F P) (hr : addAllRefProducts o db strat fuel vs {} = some e) :
    ((∃ fb, fromIndex o db comp strat fuel vs = .ok fb) ↔
      ∃ a b, Known db strat vs a ∧ Known db strat vs b ∧ a ≠ b ∧ Mutual db strat a b) ∧
    ((¬ ∃ a b, Known db strat vs a ∧ Known db strat vs b ∧ a ≠ b ∧ Mutual db strat a b) →
      fromIndex o db comp strat fuel vs = .error .attribute) := by
  obtain ⟨s, hs, hrest, hok⟩ := addAllRefProducts_spec hr
  have hg : GraphOK db strat s e.g := hok.gok
  obtain ⟨h1, h2⟩ := fromEngine_spec hok comp
  have h1' : e.g.background = none → fromIndex o db comp strat fuel vs = .error .attribute := by
    intro hb
    unfold fromIndex; rw [hr]; exact h1 hb
  have h2' : e.g.background ≠ none → ∃ fb, fromIndex o db comp strat fuel vs = .ok fb := by
    intro hb
    obtain ⟨fb, hfb, _⟩ := h2 hb
    refine ⟨fb, ?_⟩
    unfold fromIndex; rw [hr]; exact hfb
  have key : e.g.background ≠ none ↔
      ∃ a b, Known db strat vs a ∧ Known db strat vs b ∧ a ≠ b ∧ Mutual db strat a b := by
    constructor
    · intro hb
      rcases hg.bg with ⟨hn, _⟩ | ⟨b, l, hb', hl, hlen, _⟩
      · exact absurd hn hb
      · obtain ⟨u, hu⟩ := List.exists_mem_of_ne_nil l (hrest.inv.sccsMem b l hl).1
        have hub := ((hrest.inv.sccsMem b l hl).2.2 u).mp hu
        obtain ⟨w, hw, hm⟩ := (big_iff hrest hub).mp ⟨l, hl, hlen⟩
        have huk := (known_iff hs u).mp (hrest.inv.sccVis u b hub)
        obtain ⟨v, hv, hvu⟩ := huk
        exact ⟨u, w, ⟨v, hv, hvu⟩, ⟨v, hv, hvu.trans hm.1⟩, Ne.symm hw, hm⟩
    · rintro ⟨a, b, ha, hb, hab, hm⟩ hn
      rcases hg.bg with ⟨_, _, hs3⟩ | ⟨b', l, hb', _⟩
      · obtain ⟨k, hk⟩ := hrest.scc ((known_iff hs a).mpr ha)
        obtain ⟨l, hl, hlen⟩ := (big_iff hrest hk).mpr ⟨b, Ne.symm hab, hm⟩
        have := hs3 k l hl
        omega
      · rw [hn] at hb'; cases hb'
  refine ⟨⟨?_, fun h => h2' (key.mpr h)⟩, ?_⟩
  · rintro ⟨fb, hfb⟩
    refine key.mp fun hn => ?_
    rw [h1' hn] at hfb; cases hfb
  · intro h
    by_cases hn : e.g.background = none
    · exact h1' hn
    · exact absurd (key.mp hn) h

/-- C58 (background): the background is exactly what some largest group of mutually dependent product flows
requires, directly or indirectly. -/
theorem C58_background (o : SetOrd F P) (comp : F → Option P) (fuel : ℕ) (vs : List (F × P)) (fb : FB F P)
    (hr : fromIndex o db comp strat fuel vs = .ok fb) :
    ∃ b, Known db strat vs b ∧ 1 < Set.ncard {w | Mutual db strat b w} ∧
      (∀ c, Known db strat vs c → Set.ncard {w | Mutual db strat c w} ≤ Set.ncard {w | Mutual db strat b w}) ∧
      ∀ f p, isInBackground fb p f = true ↔ Reach db strat b (f, p) := by
  obtain ⟨e, s, he, hs, hb, hB⟩ := fromIndex_built hr
  rcases C03_background o fuel vs e he with ⟨b, h1, h2, h3, _, h5⟩ | ⟨_, _, h3⟩
  · exact ⟨b, h1, h2, h3, fun f p => (hB.inBg f p).trans (h5 (f, p))⟩
  · exfalso
    have hg : GraphOK db strat s e.g := hB.ok.gok
    rcases hg.bg with ⟨hn, _⟩ | ⟨b, l, hb', hl, _⟩
    · exact hb hn
    · obtain ⟨u, hu⟩ := List.exists_mem_of_ne_nil l (hg.rest.inv.sccsMem b l hl).1
      have hub := ((hg.rest.inv.sccsMem b l hl).2.2 u).mp hu
      have : u ∈ e.g.bgProcs := (hg.bgMem u).mpr ⟨b, hub, by rw [isFgScc_false]; exact Or.inl hb'⟩
      rw [h3] at this; simp at this

/-- C58 (components): `is_in_scc` is true exactly for the known product flows that depend on another product
flow which depends on them, false for the other known ones, and a KeyError for the rest. -/
theorem C58_in_scc (o : SetOrd F P) (comp : F → Option P) (fuel : ℕ) (vs : List (F × P)) (fb : FB F P)
    (hr : fromIndex o db comp strat fuel vs = .ok fb) (f : F) (p : P) :
    (Known db strat vs (f, p) → ∃ r, isInScc fb p f = .ok r ∧
      (r = true ↔ ∃ w, w ≠ (f, p) ∧ Mutual db strat (f, p) w)) ∧
    (¬ Known db strat vs (f, p) → isInScc fb p f = .error .key) := by
  obtain ⟨e, s, he, hs, hb, hB⟩ := fromIndex_built hr
  have hg : GraphOK db strat s e.g := hB.ok.gok
  have hst : e.st = { s with interior := [], cutoffs := [] } := hB.ok.st
  obtain ⟨names, hn, hfg, hbg⟩ := hB.names
  have hn' : sccNames s = some names := by
    have : sccNames e.st = some names := hn
    rw [hst] at this; exact this
  constructor
  · intro hk
    have hup := (known_iff hs _).mpr hk
    obtain ⟨k, hsk⟩ := hg.rest.scc hup
    have hmk : (makeTermRef db e.st names (f, p)).scc.isSome = true ↔
        ∃ w, w ≠ (f, p) ∧ Mutual db strat (f, p) w := by
      rw [← big_iff hg.rest hsk, ← sccNames_get hg.rest hn' k]
      have : e.st.sccOf.get? (f, p) = some k := by rw [hst]; exact hsk
      simp [makeTermRef, this]
    unfold isInScc
    by_cases hin : (f, p) ∈ e.g.bgProcs
    · obtain ⟨i, hi⟩ := List.mem_iff_getElem?.mp hin
      have h1 : (bgIndex fb).get? (p, f) = some i := (hB.bgIndex_get f p i).mpr hi
      have h2 : fb.bg[i]? = some (makeTermRef db e.st names (f, p)) := by
        rw [hbg, List.getElem?_map]; simp [hi]
      rw [h1]; simp only [h2]
      exact ⟨_, rfl, hmk⟩
    · have hfgm : (f, p) ∈ e.g.fgProcs := (hg.isBg_not hup).mpr hin
      obtain ⟨i, hi⟩ := List.mem_iff_getElem?.mp hfgm
      have h0 : (bgIndex fb).get? (p, f) = none := by
        apply hB.bgIndex_none
        rw [← Bool.not_eq_true, hB.inBg]; exact hin
      have h1 : (fgIndex fb).get? (p, f) = some i := (hB.fgIndex_get f p i).mpr hi
      have h2 : fb.fg[i]? = some (makeTermRef db e.st names (f, p)) := by
        rw [hfg, List.getElem?_map]; simp [hi]
      rw [h0, h1]; simp only [Option.bind_some, h2]
      exact ⟨_, rfl, hmk⟩
  · intro hk
    have hnp : (f, p) ∉ s.pfIndex := fun h => hk ((known_iff hs _).mp h)
    have h0 : (bgIndex fb).get? (p, f) = none := by
      cases h : (bgIndex fb).get? (p, f) with
      | none => rfl
      | some i =>
        exact absurd (hg.bg_sub _ (List.mem_of_getElem? ((hB.bgIndex_get f p i).mp h))) hnp
    have h1 : (fgIndex fb).get? (p, f) = none := by
      cases h : (fgIndex fb).get? (p, f) with
      | none => rfl
      | some i =>
        exact absurd (hg.fg_sub _ (List.mem_of_getElem? ((hB.fgIndex_get f p i).mp h))) hnp
    unfold isInScc
    rw [h0, h1]
    rfl

/-! the example database: 1 and 2 form the cycle, 3 is background but in no cycle, 0 is foreground -/

def exFb : Except Err (FB ℕ ℕ) := fromIndex Ex.ord Ex.db (fun _ => none) .abort 10 Ex.roots

example : (match exFb with
    | .ok fb => [0, 1, 2, 3].map fun n => (isInBackground fb n n, match isInScc fb n n with
        | .ok b => some b | .error _ => none)
    | .error _ => []) =
    [(false, some false), (true, some true), (true, some true), (true, some false)] := by decide +kernel

/-- a database without a cycle: 0 needs 1 -/
def lineDb : DB ℕ ℕ where
  inv := fun u => if u.2 = 0 then [Ex.ref 0, Ex.need 1 2] else [Ex.ref 1]
  terms := fun f d => if f ≤ 1 ∧ d = .input then [f] else []
  refDir := fun u => if u.1 = u.2 ∧ u.1 ≤ 1 then some .output else none

/-- its engine is fine, its flat background is an AttributeError -/
example : (addAllRefProducts Ex.ord lineDb .abort 10 [(0, 0), (1, 1)] {}).isSome = true ∧
    (match fromIndex Ex.ord lineDb (fun _ => none) .abort 10 [(0, 0), (1, 1)] with
      | .error e => some e | .ok _ => none) = some .attribute := by
  constructor <;> decide +kernel

end FlatBg
