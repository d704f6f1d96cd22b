import Verif.Props.Spold1
import Mathlib.Tactic.FinCases

/-!
Loading EcoSpold v1 datasets: C158 (the amounts, in whatever units), C159 (failed loads), C160 (names).
-/

set_option linter.unusedSectionVars false

namespace Spold1
open Proc (Dir Key)

variable {F Q U T : Type} [DecidableEq F] [DecidableEq U] [DecidableEq T]

theorem plain_new : Plain ({} : Proc.State F Q T) := ⟨(by intro k e h; cases h), rfl, rfl⟩

theorem addXs_noRef (xs : List (X F)) (p p' : Proc.State F Q T) (hp : ∀ k e, p.exchs.get? k = some e → e.isRef = false) (h : addXs xs p = .ok p') :
    ∀ k e, p'.exchs.get? k = some e → e.isRef = false := by
  induction xs generalizing p with
  | nil => unfold addXs at h; cases h; exact hp
  | cons x xs ih =>
    unfold addXs at h
    cases hx : Proc.addExchange id x.flow x.dir none (some x.value) none true p with
    | err e s => simp [hx] at h
    | ok u p1 =>
      simp only [hx] at h
      split at h
      · cases h
      · refine ih p1 ?_ h
        have fin : ∀ e' : Proc.Exch F T, e'.isRef = false → p1 = { p with exchs := p.exchs.set ⟨x.flow, x.dir, none⟩ e' } →
            ∀ k e, p1.exchs.get? k = some e → e.isRef = false := by
          rintro e' h1 rfl k e he
          by_cases hk : (⟨x.flow, x.dir, none⟩ : Key F T) = k
          · subst hk
            simp only [Dict.get?_set_self, Option.some.injEq] at he
            subst he; exact h1
          · simp only [Dict.get?_set_ne _ _ hk] at he
            exact hp k e he
        cases hg : p.exchs.get? ⟨x.flow, x.dir, none⟩ with
        | none =>
          simp only [Proc.addExchange, hg, Option.map_none, Out.ok.injEq, true_and] at hx
          exact fin _ rfl hx.symm
        | some e =>
          simp only [Proc.addExchange, hg] at hx
          by_cases h0 : x.value = 0
          · simp only [h0, if_true, Out.ok.injEq, true_and] at hx
            subst hx; exact hp
          · simp only [h0, if_false, Proc.setValue] at hx
            cases hv : e.value with
            | none =>
              simp only [hv, Out.ok.injEq, true_and] at hx
              exact fin { e with value := some x.value } (hp _ e hg :) hx.symm
            | some v =>
              simp only [hv, if_true, Proc.addToValue, Out.ok.injEq, true_and] at hx
              exact fin { e with value := some (v + x.value) } (hp _ e hg :) hx.symm

/-- failing or not, reading the elements leaves the flows right, with their units -/
theorem extract_good {env : Env F U} {w : F → U → ℚ} (hw : Agrees env w) (els : List (El F U)) (flows : Dict F (Flow U)) (hg : Good w flows) :
    Good w (extract env els flows).state ∧ Keeps flows (extract env els flows).state := by
  induction els generalizing flows with
  | nil => exact ⟨hg, Keeps.refl _⟩
  | cons e es ih =>
    unfold extract
    cases hc : createFlow env e flows with
    | error err => exact ⟨hg, Keeps.refl _⟩
    | ok ff =>
      obtain ⟨fl, fl1⟩ := ff
      obtain ⟨g1, k1, _⟩ := createFlow_right hw hg hc
      simp only
      cases hx : extractOne e fl with
      | error err => exact ⟨g1, k1⟩
      | ok x =>
        obtain ⟨i1, i2⟩ := ih fl1 g1
        simp only
        cases he : extract env es fl1 with
        | err err s => rw [he] at i1 i2; exact ⟨i1, k1.trans i2⟩
        | ok ys s => rw [he] at i1 i2; exact ⟨i1, k1.trans i2⟩

theorem createProcess_good {env : Env F U} {w : F → U → ℚ} (hw : Agrees env w) (fn : String) (a : Ar F Q U T) (hg : Good w a.flows) :
    Good w (createProcess env fn a).state.flows ∧ Keeps a.flows (createProcess env fn a).state.flows := by
  unfold createProcess
  split
  · exact ⟨hg, Keeps.refl _⟩
  · rename_i ds hds
    split
    · exact ⟨hg, Keeps.refl _⟩
    · obtain ⟨h1, h2⟩ := extract_good hw ds.els a.flows hg
      cases he : extract env ds.els a.flows with
      | err e s => rw [he] at h1 h2; exact ⟨h1, h2⟩
      | ok xs s =>
        rw [he] at h1 h2
        simp only
        split
        · exact ⟨h1, h2⟩
        · split <;> exact ⟨h1, h2⟩

theorem hist_good {w : F → U → ℚ} {a : Ar F Q U T} (h : Hist w a) : Good w a.flows := by
  induction h with
  | new => intro f fl h; cases h
  | load env hw fn _ ih => exact (createProcess_good hw fn _ ih).1

/-- **C158** in whatever state the archive is, and whatever the units of the flows in it, a dataset that is loaded gives a process whose exchanges are
the flows and directions of the dataset; the amount of each is worth the total of what the dataset lists for it, each entry in its own unit; the
references are the reference products of the dataset, as outputs; other processes and the units of the flows are as they were -/
theorem loaded {w : F → U → ℚ} {env : Env F U} (hw : Agrees env w) {a a' : Ar F Q U T} (ha : Hist w a) {fn : String} {ds : DS F U}
    (hf : readFile env.files fn = some ds) (hn : a.procs.get? ds.name = none) (h : createProcess env fn a = .ok () a') :
    ∃ st, a'.procs.get? ds.name = some st ∧
      (∀ k, k ∈ st.exchs.keys ↔ ∃ f d, k = ⟨f, d, none⟩ ∧ ∃ e ∈ ds.els, e.Has f d) ∧
      (∀ f d, (∃ e ∈ ds.els, e.Has f d) → ∃ x v fl, st.exchs.get? ⟨f, d, none⟩ = some x ∧ x.value = some v ∧ x.vdict = [] ∧
        a'.flows.get? f = some fl ∧ v * w f fl.unit = Total w f d ds.els) ∧
      (∀ k, k ∈ st.refs ↔ ∃ f, k = ⟨f, .output, none⟩ ∧ ∃ e ∈ ds.els, e.Ref f) ∧
      (∀ k x, st.exchs.get? k = some x → (x.isRef = true ↔ k ∈ st.refs)) ∧ st.allocQ = none ∧ st.allocSum = 0 ∧
      (∀ n, n ≠ ds.name → a'.procs.get? n = a.procs.get? n) ∧
      (∀ f fl, a.flows.get? f = some fl → ∃ fl', a'.flows.get? f = some fl' ∧ fl'.unit = fl.unit) := by
  unfold createProcess at h
  simp only [hf, hn] at h
  cases he : extract env ds.els a.flows with
  | err e s => simp [he] at h
  | ok xs flows =>
    simp only [he] at h
    obtain ⟨e1, e2, e3, e4, e5, e6, e7⟩ := extract_right hw (hist_good ha) he
    cases hx : addXs xs ({} : Proc.State F Q T) with
    | error e => simp [hx] at h
    | ok st1 =>
      simp only [hx] at h
      obtain ⟨x1, x2, x3, x4⟩ := addXs_right plain_new hx
      have hout : ∀ f ∈ ((xs.filter fun x => x.isRef).map fun x => x.flow).dedup, (⟨f, .output, none⟩ : Key F T) ∈ st1.exchs.keys := by
        intro f hfm
        simp only [List.mem_dedup, List.mem_map, List.mem_filter] at hfm
        obtain ⟨x, ⟨hx1, hx2⟩, rfl⟩ := hfm
        rw [x4]
        exact Or.inr ⟨x, hx1, by rw [e7 x hx1 hx2]⟩
      obtain ⟨st, r1, r2, r3, r4, r5, r6⟩ := addRefs_right x1 hout
      rw [r1] at h
      simp only [Out.ok.injEq, true_and] at h
      subst h
      have hrefs : ∀ k, k ∈ st.refs ↔ ∃ f, k = ⟨f, .output, none⟩ ∧ ∃ e ∈ ds.els, e.Ref f := by
        intro k
        rw [r3, x2]
        simp only [List.not_mem_nil, false_or, List.mem_dedup, List.mem_map, List.mem_filter]
        constructor
        · rintro ⟨f, ⟨x, ⟨h1, h2⟩, h3⟩, rfl⟩
          exact ⟨f, rfl, (e6 f).mp ⟨x, h1, h3, h2⟩⟩
        · rintro ⟨f, rfl, h1⟩
          obtain ⟨x, h2, h3, h4⟩ := (e6 f).mpr h1
          exact ⟨f, ⟨x, ⟨h2, h4⟩, h3⟩, rfl⟩
      refine ⟨st, Dict.get?_set_self _ _ _, ?_, ?_, hrefs, ?_, r2.alloc.2, r2.alloc.1, ?_, e2⟩
      · intro k
        rw [r5, x4]
        constructor
        · rintro (h1 | ⟨x, h1, rfl⟩)
          · cases h1
          · exact ⟨x.flow, x.dir, rfl, (e5 _ _).mp ⟨x, h1, rfl, rfl⟩⟩
        · rintro ⟨f, d, rfl, h1⟩
          obtain ⟨x, h2, h3, h4⟩ := (e5 _ _).mpr h1
          exact Or.inr ⟨x, h2, by rw [h3, h4]⟩
      · intro f d h1
        obtain ⟨x, h2, h3, h4⟩ := (e5 _ _).mpr h1
        have hk : (⟨f, d, none⟩ : Key F T) ∈ st.exchs.keys := by
          rw [r5, x4]; exact Or.inr ⟨x, h2, by rw [h3, h4]⟩
        obtain ⟨ex, hex⟩ := (Dict.mem_keys_iff _ _).mp hk
        obtain ⟨_, q2, v, q3⟩ := r2.exch _ _ hex
        obtain ⟨fl, hfl⟩ := e3 f d h1
        refine ⟨ex, v, fl, hex, q3, q2, hfl, ?_⟩
        rw [← e4 f d fl hfl]
        have hv : valOf st f d = v := by simp [valOf, hex, q3]
        rw [r4, x3] at hv
        have h0 : valOf ({} : Proc.State F Q T) f d = 0 := rfl
        rw [h0, zero_add] at hv
        rw [hv]
      · intro k x hk
        obtain ⟨e, h1, _, h3⟩ := r6 k x hk
        rw [h3, r3, x2]
        simp only [List.not_mem_nil, false_or]
        constructor
        · rintro (h4 | h4)
          · -- nothing read is a reference before
            exfalso
            exact absurd h4 (by
              have := addXs_noRef xs ({} : Proc.State F Q T) st1 (by intro k e h; cases h) hx k e h1
              simp [this])
          · exact h4
        · exact Or.inr
      · intro n hne
        exact Dict.get?_set_ne _ _ (Ne.symm hne)

/-- **C158** the amount per unit of a reference product, in units of the two flows: the total of the one over the total of the other -/
theorem loaded_relation {w : F → U → ℚ} {env : Env F U} (hw : Agrees env w) {a a' : Ar F Q U T} (ha : Hist w a) {fn : String} {ds : DS F U}
    (hf : readFile env.files fn = some ds) (hn : a.procs.get? ds.name = none) (h : createProcess env fn a = .ok () a')
    (r : F) (hr : ∃ e ∈ ds.els, e.Ref r) (ht : Total w r .output ds.els ≠ 0) (f : F) (d : Dir) (hfd : ∃ e ∈ ds.els, e.Has f d)
    (hno : d = .input ∨ ∀ e ∈ ds.els, ¬ e.Ref f) (cf : F → Q → Option ℚ) :
    ∃ st v flr fl, a'.procs.get? ds.name = some st ∧ a'.flows.get? r = some flr ∧ a'.flows.get? f = some fl ∧
      Proc.getItem cf st ⟨f, d, none⟩ ⟨r, .output, none⟩ = .ok v ∧
      v * (w f fl.unit / w r flr.unit) = Total w f d ds.els / Total w r .output ds.els := by
  obtain ⟨st, h1, h2, h3, h4, h5, h6, h7, _⟩ := loaded hw ha hf hn h
  have hro : ∃ e ∈ ds.els, e.Has r .output := by
    obtain ⟨e, he, h8, h9⟩ := hr
    refine ⟨e, he, h8, Or.inr ?_⟩
    rcases h9 with h9 | h9
    · exact ⟨0, h9, rfl⟩
    · exact ⟨2, h9, rfl⟩
  obtain ⟨xr, vr, flr, r1, r2, r3, r4, r5⟩ := h3 r .output hro
  obtain ⟨x, v, fl, x1, x2, x3, x4, x5⟩ := h3 f d hfd
  have hrr : xr.isRef = true := (h5 _ _ r1).mpr ((h4 _).mpr ⟨r, rfl, hr⟩)
  have hxr : x.isRef = false := by
    rw [Bool.eq_false_iff]
    intro hx
    obtain ⟨g, hg1, hg2⟩ := (h4 _).mp ((h5 _ _ x1).mp hx)
    simp only [Key.mk.injEq] at hg1
    obtain ⟨rfl, rfl, _⟩ := hg1
    rcases hno with h | h
    · cases h
    · obtain ⟨e, he, h8⟩ := hg2
      exact h e he h8
  have hvr : vr ≠ 0 := by
    rintro rfl
    rw [zero_mul] at r5
    exact ht r5.symm
  refine ⟨st, v / vr, flr, fl, h1, r4, x4, ?_, ?_⟩
  · simp only [Proc.getItem, x1, r1, hrr, hxr, if_true, Bool.false_eq_true, if_false, Proc.State.allocQty, h7, ne_eq, not_true_eq_false, x3,
      List.length_nil, gt_iff_lt, lt_irrefl, x2, Proc.Exch.val, r2, Proc.pyDiv, hvr]
  · rw [← x5, ← r5]
    have := hw.pos r flr.unit
    field_simp

/-- **C158** the order in which datasets are loaded, and the units in which flows were met first, do not matter: two archives agree on what the amounts
are worth -/
theorem loaded_order {w : F → U → ℚ} {env : Env F U} (hw : Agrees env w) {a a' b b' : Ar F Q U T} (ha : Hist w a) (hb : Hist w b) {fn : String}
    {ds : DS F U} (hf : readFile env.files fn = some ds) (han : a.procs.get? ds.name = none) (hbn : b.procs.get? ds.name = none)
    (h : createProcess env fn a = .ok () a') (h' : createProcess env fn b = .ok () b') :
    ∃ st st', a'.procs.get? ds.name = some st ∧ b'.procs.get? ds.name = some st' ∧ (∀ k, k ∈ st.exchs.keys ↔ k ∈ st'.exchs.keys) ∧
      (∀ k, k ∈ st.refs ↔ k ∈ st'.refs) ∧
      ∀ f d x x' fl fl', st.exchs.get? ⟨f, d, none⟩ = some x → st'.exchs.get? ⟨f, d, none⟩ = some x' → a'.flows.get? f = some fl →
        b'.flows.get? f = some fl' → ∃ v v', x.value = some v ∧ x'.value = some v' ∧ v * w f fl.unit = v' * w f fl'.unit := by
  obtain ⟨st, h1, h2, h3, h4, _⟩ := loaded hw ha hf han h
  obtain ⟨st', h1', h2', h3', h4', _⟩ := loaded hw hb hf hbn h'
  refine ⟨st, st', h1, h1', fun k => by rw [h2, h2'], fun k => by rw [h4, h4'], ?_⟩
  intro f d x x' fl fl' hx hx' hfl hfl'
  have hh : ∃ e ∈ ds.els, e.Has f d := by
    obtain ⟨f', d', hk, hh⟩ := (h2 ⟨f, d, none⟩).mp ((Dict.mem_keys_iff _ _).mpr ⟨x, hx⟩)
    simp only [Key.mk.injEq] at hk
    obtain ⟨rfl, rfl, _⟩ := hk
    exact hh
  obtain ⟨y, v, g, y1, y2, y3, y4, y5⟩ := h3 f d hh
  obtain ⟨y', v', g', y1', y2', y3', y4', y5'⟩ := h3' f d hh
  rw [hx] at y1; cases y1
  rw [hx'] at y1'; cases y1'
  rw [hfl] at y4; cases y4
  rw [hfl'] at y4'; cases y4'
  exact ⟨v, v', y2, y2', by rw [y5, y5']⟩

/-! ### when datasets are loaded -/

theorem createFlow_loads {env : Env F U} (hask : ∀ f u u', (env.ask f u u').isSome) (h0 : ∀ u u', env.conv u u' ≠ some 0) (e : El F U)
    (flows : Dict F (Flow U)) : ∃ r, createFlow env e flows = .ok r := by
  unfold createFlow
  split
  · exact ⟨_, rfl⟩
  · split
    · exact ⟨_, rfl⟩
    · rename_i f _ _
      have : ∃ c, convFactor env e.flow f.unit e.unit = .ok c := by
        unfold convFactor
        split
        · exact ⟨_, rfl⟩
        · split
          · rename_i c hc
            have : c ≠ 0 := by rintro rfl; exact h0 _ _ hc
            rw [if_neg this]; exact ⟨_, rfl⟩
          · obtain ⟨c, hc⟩ := Option.isSome_iff_exists.mp (hask e.flow f.unit e.unit)
            rw [hc]; exact ⟨_, rfl⟩
      obtain ⟨c, hc⟩ := this
      rw [hc]; exact ⟨_, rfl⟩

theorem createFlow_unit {env : Env F U} {e : El F U} {flows flows' : Dict F (Flow U)} {fl : Flow U} (h : createFlow env e flows = .ok (fl, flows')) :
    e.unit = fl.unit ∨ fl.cfs.has e.unit = true := by
  unfold createFlow at h
  split at h
  · cases h; exact Or.inl rfl
  · split at h
    · rename_i hu; cases h; exact hu
    · split at h
      · cases h
      · cases h; right; simp [Dict.has]

theorem extract_loads {env : Env F U} {w : F → U → ℚ} (hw : Agrees env w) (hask : ∀ f u u', (env.ask f u u').isSome) (els : List (El F U))
    (hm : ∀ e ∈ els, e.grp ≠ .none → e.amount ≠ none) (flows : Dict F (Flow U)) (hg : Good w flows) :
    ∃ xs flows', extract env els flows = .ok xs flows' := by
  have h0 : ∀ u u' : U, env.conv u u' ≠ some 0 ∨ IsEmpty F := by
    intro u u'
    by_cases hF : IsEmpty F
    · exact Or.inr hF
    · left
      intro hc
      obtain ⟨f⟩ := not_isEmpty_iff.mp hF
      have := hw.conv f _ _ _ hc
      rw [zero_mul] at this
      exact hw.pos _ _ this
  induction els generalizing flows with
  | nil => exact ⟨[], flows, rfl⟩
  | cons e es ih =>
    obtain ⟨⟨fl, fl1⟩, hc⟩ := createFlow_loads hask (fun u u' => (h0 u u').resolve_right (fun h => h.elim e.flow)) e flows
    obtain ⟨g1, k1, f1⟩ := createFlow_right hw hg hc
    have hx : ∃ x, extractOne e fl = .ok x := by
      unfold extractOne
      have ham : e.grp ≠ .none → ∃ v, amountOf e fl = .ok v := by
        intro hn
        obtain ⟨m, hmm⟩ := Option.ne_none_iff_exists'.mp (hm e (by simp) hn)
        unfold amountOf
        simp only [hmm]
        split
        · exact ⟨_, rfl⟩
        · rename_i hu
          obtain ⟨c, hcc⟩ := (Dict.mem_keys_iff _ _).mp ((Dict.has_iff _ _).mp ((createFlow_unit hc).resolve_left hu))
          have hc0 : c ≠ 0 := by
            rintro rfl
            have := g1 _ _ f1 _ _ hcc
            rw [zero_mul] at this
            exact hw.pos _ _ this
          simp only [hcc, Option.getD_some, hc0, if_false]
          exact ⟨_, rfl⟩
      cases hgp : e.grp with
      | none => exact ⟨_, rfl⟩
      | input =>
        obtain ⟨v, hv⟩ := ham (by simp [hgp])
        simp only [hv]; exact ⟨_, rfl⟩
      | output n =>
        obtain ⟨v, hv⟩ := ham (by simp [hgp])
        simp only [hv]; exact ⟨_, rfl⟩
    obtain ⟨x, hx⟩ := hx
    obtain ⟨xs, flows', hxs⟩ := ih (fun e' he' => hm e' (List.mem_cons_of_mem _ he')) fl1 g1
    exact ⟨x.toList ++ xs, flows', by unfold extract; simp only [hc, hx, hxs]⟩

theorem addXs_loads (xs : List (X F)) (p : Proc.State F Q T) (hp : Plain p) (hz : ∀ x ∈ xs, x.comment = true → x.value ≠ 0) : ∃ p', addXs xs p = .ok p' := by
  induction xs generalizing p with
  | nil => exact ⟨p, rfl⟩
  | cons x xs ih =>
    have hx : ∃ p1, Proc.addExchange id x.flow x.dir none (some x.value) none true p = .ok () p1 := by
      cases hg : p.exchs.get? ⟨x.flow, x.dir, none⟩ with
      | none => simp only [Proc.addExchange, hg]; exact ⟨_, rfl⟩
      | some e =>
        obtain ⟨_, _, v, hv⟩ := hp.exch _ _ hg
        by_cases h0 : x.value = 0
        · simp only [Proc.addExchange, hg, h0, if_true]; exact ⟨_, rfl⟩
        · simp only [Proc.addExchange, hg, h0, if_false, Proc.setValue, hv, if_true, Proc.addToValue]; exact ⟨_, rfl⟩
    obtain ⟨p1, hx⟩ := hx
    obtain ⟨p', h'⟩ := ih p1 (addX_right hp hx).1 (fun y hy => hz y (List.mem_cons_of_mem _ hy))
    refine ⟨p', ?_⟩
    unfold addXs
    simp only [hx]
    have : ((p.exchs.has ⟨x.flow, x.dir, none⟩ && decide (x.value = 0)) && x.comment) = false := by
      by_cases hc : x.comment = true
      · have := hz x (by simp) hc
        simp [this]
      · simp [hc]
    rw [this]
    exact h'

theorem extract_comments {env : Env F U} {w : F → U → ℚ} (hw : Agrees env w) {els : List (El F U)} {flows flows' : Dict F (Flow U)} {xs : List (X F)}
    (hg : Good w flows) (hz : ∀ e ∈ els, e.comment = true → e.amount ≠ some 0) (h : extract env els flows = .ok xs flows') :
    ∀ x ∈ xs, x.comment = true → x.value ≠ 0 := by
  induction els generalizing flows xs with
  | nil => unfold extract at h; cases h; simp
  | cons e es ih =>
    unfold extract at h
    cases hc : createFlow env e flows with
    | error err => simp [hc] at h
    | ok ff =>
      obtain ⟨fl, fl1⟩ := ff
      simp only [hc] at h
      obtain ⟨g1, _, f1⟩ := createFlow_right hw hg hc
      cases hx : extractOne e fl with
      | error err => simp [hx] at h
      | ok x =>
        simp only [hx] at h
        cases he : extract env es fl1 with
        | err err s => simp [he] at h
        | ok ys s =>
          simp only [he, Out.ok.injEq] at h
          obtain ⟨rfl, rfl⟩ := h
          intro y hy hcm
          rcases List.mem_append.mp hy with hy | hy
          · have ham : ∀ v, amountOf e fl = .ok v → e.comment = true → v ≠ 0 := by
              intro v hv hec h0
              have := amountOf_right (w := w) (g1 _ _ f1) hv
              rw [h0, zero_mul, eq_comm, mul_eq_zero] at this
              rcases this with h1 | h1
              · cases hea : e.amount with
                | none => simp [amountOf, hea] at hv
                | some m =>
                  rw [hea, Option.getD_some] at h1
                  exact hz e (by simp) hec (by rw [hea, h1])
              · exact hw.pos _ _ h1
            unfold extractOne at hx
            split at hx
            · cases hx; cases hy
            · split at hx
              · cases hx
              · rename_i v hv
                cases hx
                simp only [Option.toList_some, List.mem_singleton] at hy
                subst hy
                exact ham v hv hcm
            · split at hx
              · cases hx
              · rename_i v hv
                cases hx
                simp only [Option.toList_some, List.mem_singleton] at hy
                subst hy
                exact ham v hv hcm
          · exact ih g1 (fun e' he' => hz e' (List.mem_cons_of_mem _ he')) he y hy hcm

/-- **C158** a dataset is loaded if every exchange has an amount, those of amount zero no comment, and the user knows the conversions he is asked for -/
theorem loads {w : F → U → ℚ} {env : Env F U} (hw : Agrees env w) (hask : ∀ f u u', (env.ask f u u').isSome) {a : Ar F Q U T} (ha : Hist w a)
    {fn : String} {ds : DS F U} (hf : readFile env.files fn = some ds) (hm : ∀ e ∈ ds.els, e.grp ≠ .none → e.amount ≠ none)
    (hz : ∀ e ∈ ds.els, e.comment = true → e.amount ≠ some 0) : ∃ a', createProcess env fn a = .ok () a' := by
  unfold createProcess
  simp only [hf]
  split
  · exact ⟨a, rfl⟩
  · obtain ⟨xs, flows, hx⟩ := extract_loads hw hask ds.els hm a.flows (hist_good ha)
    obtain ⟨st1, h1⟩ := addXs_loads xs ({} : Proc.State F Q T) plain_new (extract_comments hw (hist_good ha) hz hx)
    obtain ⟨x1, _, _, x4⟩ := addXs_right plain_new h1
    obtain ⟨_, _, _, _, _, _, e7⟩ := extract_right hw (hist_good ha) hx
    obtain ⟨st, r1, _⟩ := addRefs_right (fs := ((xs.filter fun x => x.isRef).map fun x => x.flow).dedup) x1 (by
      intro f hfm
      simp only [List.mem_dedup, List.mem_map, List.mem_filter] at hfm
      obtain ⟨x, ⟨hx1, hx2⟩, rfl⟩ := hfm
      rw [x4]
      exact Or.inr ⟨x, hx1, by rw [e7 x hx1 hx2]⟩)
    simp only [hx, h1, r1]
    exact ⟨_, rfl⟩

/-! ### failures and names -/

/-- **C159** a load that fails leaves the processes as they were -/
theorem failed_absent {env : Env F U} {fn : String} {a a' : Ar F Q U T} {e : Err} (h : createProcess env fn a = .err e a') : a'.procs = a.procs := by
  unfold createProcess at h
  split at h
  · cases h; rfl
  · split at h
    · cases h
    · split at h
      · cases h; rfl
      · split at h
        · cases h; rfl
        · split at h
          · cases h; rfl
          · cases h

/-- **C159** a process that is in the archive was loaded without failure, and stays as it is whatever is loaded later -/
theorem kept {env : Env F U} (fn : String) {a : Ar F Q U T} {n : String} {st : Proc.State F Q T} (h : a.procs.get? n = some st) :
    (createProcess env fn a).state.procs.get? n = some st := by
  unfold createProcess
  split
  · exact h
  · rename_i ds _
    split
    · exact h
    · rename_i hn
      have hne : ds.name ≠ n := by rintro rfl; rw [hn] at h; cases h
      split
      · exact h
      · split
        · exact h
        · split
          · exact h
          · simp only [Out.state, Dict.get?_set_ne _ _ hne]; exact h

/-- **C159** after a failure the process is loaded again when it is asked for: the same answer as from an archive with those flows where it was never
tried -/
theorem failed_again {env env' : Env F U} {fn key : String} {a a' : Ar F Q U T} {e : Err} (h : createProcess env fn a = .err e a')
    (hk : a.procs.get? key = none) : retrieve env' key a' = fetch env' key ⟨a.procs, a'.flows⟩ := by
  have h1 := failed_absent h
  have : a' = ⟨a.procs, a'.flows⟩ := by rw [← h1]
  unfold retrieve
  rw [h1, hk]
  simp only
  rw [← this]

/-- **C159** a process that was loaded is what later queries return, whatever was loaded, or failed, in between -/
theorem retrieve_kept {env env' : Env F U} (fns : List String) {a : Ar F Q U T} {n : String} {st : Proc.State F Q T} (h : a.procs.get? n = some st) :
    (retrieve env' n (fns.foldl (fun a fn => (createProcess env fn a).state) a)).value? = some (some st) := by
  have : (fns.foldl (fun a fn => (createProcess env fn a).state) a).procs.get? n = some st := by
    induction fns generalizing a with
    | nil => exact h
    | cons fn fns ih => exact ih (kept fn h)
  unfold retrieve
  rw [this]
  rfl

/-- **C160** fails: a second dataset of the same name is not loaded, whatever it has -/
theorem same_name_ignored {env : Env F U} {fn : String} {a : Ar F Q U T} {ds : DS F U} {st : Proc.State F Q T} (hf : readFile env.files fn = some ds)
    (hn : a.procs.get? ds.name = some st) : createProcess env fn a = .ok () a := by
  unfold createProcess
  simp only [hf, hn]

/-- **C160** loading all files gives a process for the name of each -/
theorem all_named {env : Env F U} {fns : List String} {a a' : Ar F Q U T} (h : loadAll env fns a = .ok () a') :
    ∀ fn ∈ fns, ∃ ds st, readFile env.files fn = some ds ∧ a'.procs.get? ds.name = some st := by
  have mono : ∀ (fns : List String) (a a' : Ar F Q U T), loadAll env fns a = .ok () a' → ∀ n st, a.procs.get? n = some st → a'.procs.get? n = some st := by
    intro fns
    induction fns with
    | nil => intro a a' h n st hn; unfold loadAll at h; cases h; exact hn
    | cons fn fns ih =>
      intro a a' h n st hn
      unfold loadAll at h
      cases hc : createProcess env fn a with
      | err e s => simp [hc] at h
      | ok u s =>
        simp only [hc] at h
        have := kept (env := env) fn hn
        rw [hc] at this
        exact ih s a' h n st this
  induction fns generalizing a with
  | nil => simp
  | cons fn fns ih =>
    unfold loadAll at h
    cases hc : createProcess env fn a with
    | err e s => simp [hc] at h
    | ok u s =>
      simp only [hc] at h
      intro fn' hfn
      rcases List.mem_cons.mp hfn with rfl | hfn
      · have : ∃ ds st, readFile env.files fn' = some ds ∧ s.procs.get? ds.name = some st := by
          unfold createProcess at hc
          split at hc
          · cases hc
          · rename_i ds hds
            refine ⟨ds, ?_⟩
            split at hc
            · rename_i st hst; cases hc; exact ⟨st, hds, hst⟩
            · split at hc
              · cases hc
              · split at hc
                · cases hc
                · split at hc
                  · cases hc
                  · cases hc; exact ⟨_, hds, Dict.get?_set_self _ _ _⟩
        obtain ⟨ds, st, h1, h2⟩ := this
        exact ⟨ds, st, h1, mono fns s a' h _ _ h2⟩
      · exact ih h fn' hfn

/-- **C160** fails: a dataset under another name than that of its file is loaded, but what is returned is None -/
theorem misnamed_none {env : Env F U} {key : String} {a a' : Ar F Q U T} {ds : DS F U} (hf : readFile env.files (key ++ ".xml") = some ds)
    (hne : ds.name ≠ key) (hk : a.procs.get? key = none) (h : createProcess env (key ++ ".xml") a = .ok () a') :
    retrieve env key a = .ok none a' := by
  unfold retrieve fetch
  simp only [hk, h, Out.ok.injEq, and_true]
  unfold createProcess at h
  simp only [hf] at h
  split at h
  · cases h; exact hk
  · split at h
    · cases h
    · split at h
      · cases h
      · split at h
        · cases h
        · cases h
          simp only [Dict.get?_set_ne _ _ hne]; exact hk

/-- **C158** an exchange without direction is left out, without error -/
theorem directionless_dropped (env : Env F U) (e : El F U) (he : e.grp = .none) (es : List (El F U)) (flows : Dict F (Flow U)) {fl : Flow U}
    {flows1 : Dict F (Flow U)} (hc : createFlow env e flows = .ok (fl, flows1)) : extract env (e :: es) flows = extract env es flows1 := by
  rw [extract]
  simp only [hc, extractOne, he, Option.toList_none, List.nil_append]
  cases extract env es flows1 <;> rfl

/-! ### examples -/

namespace Ex

/-- the conversions of the code -/
def conv (u u' : String) : Option ℚ := Dict.get? conversionDict (u, u')

/-- what the units are worth -/
def worthD : Dict String ℚ := [("kBq", 1000), ("t", 1000), ("kg*km", 1 / 1000), ("ha", 10000), ("sh tn", 907185 / 1000), ("kWh", 36 / 10),
  ("btu", 1000 / 947817), ("m3", 1000)]

def worth (u : String) : ℚ := (worthD.get? u).getD 1

theorem worth_ne (u : String) : worth u ≠ 0 := by
  unfold worth
  cases h : worthD.get? u with
  | none => simp
  | some c =>
    have hm := Dict.mem_of_get?_eq_some _ h
    have : ∀ kv ∈ worthD, kv.2 ≠ 0 := by decide +kernel
    exact this _ hm

/-- the conversions of the code agree with each other -/
theorem conv_agrees (u u' : String) (c : ℚ) (h : conv u u' = some c) : worth u = c * worth u' := by
  have hm := Dict.mem_of_get?_eq_some _ h
  have : ∀ kv ∈ conversionDict, worth kv.1.1 = kv.2 * worth kv.1.2 := by decide +kernel
  exact this _ hm

theorem worth_kg : worth "kg" = 1 := by decide +kernel
theorem worth_t : worth "t" = 1000 := by decide +kernel

/-- steel in tonnes and kilograms, electricity in two units, CO2 twice, a stray element -/
def steel : DS ℕ String := ⟨"steel", [⟨1, "t", .output 0, some 2, true⟩, ⟨2, "kWh", .input, some 10, false⟩, ⟨2, "MJ", .input, some 4, false⟩,
  ⟨3, "kg", .output 4, some 5, false⟩, ⟨3, "kg", .output 4, some 7, true⟩, ⟨4, "kg", .none, none, false⟩]⟩

/-- uses of the same flows in other units -/
def car : DS ℕ String := ⟨"car", [⟨5, "p", .output 0, some 1, false⟩, ⟨1, "kg", .input, some 900, false⟩, ⟨2, "MJ", .input, some 36, false⟩,
  ⟨6, "kg", .output 2, some 0, false⟩]⟩

/-- another dataset of the name of the first, and one that fails -/
def steel2 : DS ℕ String := ⟨"steel", [⟨1, "t", .output 0, some 2, true⟩, ⟨9, "kg", .input, some 1, false⟩]⟩
def broken : DS ℕ String := ⟨"broken", [⟨7, "p", .output 0, some 1, false⟩, ⟨1, "kg", .input, none, false⟩]⟩

def env : Env ℕ String := ⟨[("steel.xml", steel), ("car.xml", car), ("steel B.xml", steel2), ("broken.xml", broken), ("other.xml", car)], conv,
  fun _ u u' => some (worth u / worth u')⟩

theorem agrees : Agrees env (fun _ => worth) :=
  ⟨fun _ u => worth_ne u, fun _ u u' c h => conv_agrees u u' c h, by
    intro f u u' c h
    simp only [env, Option.some.injEq] at h
    have := worth_ne u'
    rw [← h]; field_simp⟩

/-- the archive with nothing, and after loading the car first -/
def a0 : Ar ℕ Unit String ℕ := ⟨[], []⟩
def a1 : Ar ℕ Unit String ℕ := (createProcess env "car.xml" a0).state

theorem hist0 : Hist (fun _ => worth) a0 := Hist.new
theorem hist1 : Hist (fun _ => worth) a1 := Hist.load env agrees _ hist0

/-- the hypotheses of `loads` and `loaded` are met: steel after the car, whose flow 1 is in kilograms -/
example : ∃ a' st x fl, createProcess env "steel.xml" a1 = .ok () a' ∧ a'.procs.get? "steel" = some st ∧
    st.exchs.get? ⟨1, .output, none⟩ = some x ∧ x.value = some 2000 ∧ a'.flows.get? 1 = some fl ∧ fl.unit = "kg" := by
  obtain ⟨a', h⟩ := loads agrees (by intro f u u'; rfl) hist1 (fn := "steel.xml") (ds := steel) rfl (by decide +kernel) (by decide +kernel)
  obtain ⟨st, h1, _, h3, _⟩ := loaded agrees hist1 (ds := steel) rfl (by decide +kernel) h
  obtain ⟨x, v, fl, x1, x2, _, x4, x5⟩ := h3 1 .output ⟨⟨1, "t", .output 0, some 2, true⟩, by simp [steel], rfl, Or.inr ⟨0, rfl, rfl⟩⟩
  have hfl : (createProcess env "steel.xml" a1).state.flows.get? 1 = some ⟨"kg", [("kg", 1), ("t", 1 / 1000)]⟩ := by decide +kernel
  rw [h] at hfl
  simp only [Out.state] at hfl
  rw [hfl] at x4
  cases x4
  have hv : v = 2000 := by
    simp only [Total, steel, El.Has] at x5
    norm_num [worth_kg, worth_t] at x5
    exact x5
  exact ⟨a', st, x, _, h, h1, x1, by rw [x2, hv], hfl, rfl⟩

/-- the two orders: 40 MJ of electricity, or 11.1 kWh -/
example : ((createProcess env "steel.xml" a1).state.procs.get? "steel").map (fun st => (st.exchs.get? ⟨2, .input, none⟩).map (·.value)) =
      some (some (some 40)) ∧
    ((createProcess env "steel.xml" a0).state.procs.get? "steel").map (fun st => (st.exchs.get? ⟨2, .input, none⟩).map (·.value)) =
      some (some (some (10 + 4 / (36 / 10)))) := by decide +kernel

/-- the hypotheses of `loaded_relation` are met -/
example : ∃ st v flr fl, (createProcess env "steel.xml" a1).state.procs.get? "steel" = some st ∧
    (createProcess env "steel.xml" a1).state.flows.get? 1 = some flr ∧ (createProcess env "steel.xml" a1).state.flows.get? 3 = some fl ∧
    Proc.getItem (fun _ _ => none) st ⟨3, .output, none⟩ ⟨1, .output, none⟩ = .ok v ∧
    v * (worth fl.unit / worth flr.unit) = Total (fun _ => worth) 3 .output steel.els / Total (fun _ => worth) 1 .output steel.els := by
  obtain ⟨a', h⟩ := loads agrees (by intro f u u'; rfl) hist1 (fn := "steel.xml") (ds := steel) rfl (by decide +kernel) (by decide +kernel)
  have := loaded_relation agrees hist1 (ds := steel) rfl (by decide +kernel) h 1
    ⟨⟨1, "t", .output 0, some 2, true⟩, by simp [steel], rfl, Or.inl rfl⟩
    (by simp only [Total, steel, El.Has]; norm_num [worth_kg, worth_t]) 3 .output
    ⟨⟨3, "kg", .output 4, some 5, false⟩, by simp [steel], rfl, Or.inr ⟨4, rfl, rfl⟩⟩ (Or.inr (by simp [steel, El.Ref])) (fun _ _ => none)
  rw [h]
  exact this

/-- **C160** fails: two datasets of one name, one process -/
theorem lost : (loadAll env ["steel.xml", "steel B.xml"] a0).error? = none ∧
    (loadAll env ["steel.xml", "steel B.xml"] a0).state.procs = (loadAll env ["steel.xml"] a0).state.procs := by decide +kernel

/-- the hypotheses of `failed_absent` and `misnamed_none` are met -/
example : (createProcess env "broken.xml" a0).error? = some .type ∧ (createProcess env "broken.xml" a0).state.procs = [] ∧
    (retrieve env "other" a0).value? = some none ∧ (retrieve env "other" a0).state.procs.keys = ["car"] := by decide +kernel

/-- the hypothesis of `retrieve_kept` is met -/
example : ∃ st, a1.procs.get? "car" = some st := Option.isSome_iff_exists.mp (by decide +kernel)

/-- file names without the characters that file systems refuse -/
example : (readFile [("a b.xml", steel)] "a <b>.xml").map (·.name) = some "steel" := by decide +kernel

end Ex

end Spold1
