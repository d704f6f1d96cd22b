import Verif.Props.QdbStore
import Mathlib.Tactic.FieldSimp
import Mathlib.Tactic.LinearCombination

/-!
C64: conversion between quantities. If the stored factors are coherent, that is, all express one and the same proportion
between quantities, then whatever `convert` returns is that proportion, regardless of the order in which Python iterates over
sets; `convert` returns None exactly when there is no factor in the compartment, below it, or in its parent.
-/

namespace Qdb
variable {Q : Type} [DecidableEq Q]

/-- a compartment that a search may come to: itself, a subcompartment, an ancestor -/
def Near (E : Env Q) (comp c : ℕ) : Prop := c = comp ∨ c ∈ E.subs comp ∨ c ∈ E.anc comp

theorem mem_nearest {ls : List (List (CF Q))} {x : CF Q} (h : x ∈ nearest ls) : ∃ l ∈ ls, x ∈ l := by
  induction ls with
  | nil => simp [nearest] at h
  | cons l ls ih =>
    simp only [nearest] at h
    split at h
    · obtain ⟨l', h1, h2⟩ := ih h
      exact ⟨l', by simp [h1], h2⟩
    · exact ⟨l, by simp, h⟩

theorem nearest_nil {ls : List (List (CF Q))} : nearest ls = [] ↔ ∀ l ∈ ls, l = [] := by
  induction ls with
  | nil => simp [nearest]
  | cons l ls ih =>
    simp only [nearest]
    split
    · rename_i h; simp [h, ih]
    · rename_i h; simp [h]

theorem mem_levels {E : Env Q} {L : Lookup Q} {c dist : ℕ} {x : CF Q} {l : List (CF Q)} (hl : l ∈ levels E L c dist)
    (hx : x ∈ l) : ∃ d, Near E c d ∧ x ∈ L.get d := by
  simp only [levels, List.mem_append, List.mem_cons, List.not_mem_nil, or_false] at hl
  rcases hl with ((hl | hl) | hl) | hl
  · subst hl; exact ⟨c, .inl rfl, hx⟩
  · split at hl
    · simp only [List.mem_cons, List.not_mem_nil, or_false] at hl
      subst hl
      obtain ⟨d, h1, h2⟩ := List.mem_flatMap.mp hx
      exact ⟨d, .inr (.inl h1), h2⟩
    · simp at hl
  · split at hl
    · obtain ⟨d, h1, rfl⟩ := List.mem_map.mp hl
      exact ⟨d, .inr (.inr (List.mem_of_mem_take h1)), hx⟩
    · simp at hl
  · split at hl
    · obtain ⟨d, h1, rfl⟩ := List.mem_map.mp hl
      exact ⟨d, .inr (.inr (List.mem_of_mem_drop h1)), hx⟩
    · simp at hl

theorem find_near {E : Env Q} {L : Lookup Q} {c dist : ℕ} {r : List (CF Q)} (h : find E L c dist true = .ok r) {x : CF Q}
    (hx : x ∈ r) : ∃ d, Near E c d ∧ x ∈ L.get d := by
  obtain ⟨l, h1, h2⟩ := mem_nearest ((find_first E L c dist r h).1 x hx)
  exact mem_levels h1 h2

/-- the loop of `_lookup_cfs` from a set -/
theorem lookupLoop (E : Env Q) (s : St Q) (comp q : ℕ) (inds : List ℕ) : ∀ (r0 r : List (CF Q)),
    inds.foldlM (fun r f => (find E (s.lookup f (some q)) comp 2 true).map fun l => unionCF r (E.ord.f l)) r0 = .ok r →
    (∀ x ∈ r, x ∈ r0 ∨ ∃ f ∈ inds, ∃ d, Near E comp d ∧ x ∈ (s.lookup f (some q)).get d) ∧
    (∀ x ∈ r0, x ∈ r) ∧
    ∀ f ∈ inds, ∀ l, find E (s.lookup f (some q)) comp 2 true = .ok l → ∀ x ∈ l, ∃ y ∈ r, x.same y = true := by
  induction inds with
  | nil =>
    intro r0 r h
    simp only [List.foldlM_nil] at h
    cases h
    exact ⟨fun x hx => .inl hx, fun x hx => hx, fun f hf => by simp at hf⟩
  | cons f inds ih =>
    intro r0 r h
    rw [List.foldlM_cons] at h
    cases hf : find E (s.lookup f (some q)) comp 2 true with
    | error e => rw [hf] at h; cases h
    | ok l =>
      rw [hf] at h
      obtain ⟨h1, h2, h3⟩ := ih (unionCF r0 (E.ord.f l)) r h
      refine ⟨?_, ?_, ?_⟩
      · intro x hx
        rcases h1 x hx with hx | ⟨g, hg, hd⟩
        · rcases unionCF_mem _ hx with hx | hx
          · exact .inl hx
          · obtain ⟨d, hd⟩ := find_near hf ((E.ord.mem l x).mp hx)
            exact .inr ⟨f, by simp, d, hd⟩
        · exact .inr ⟨g, by simp [hg], hd⟩
      · exact fun x hx => h2 x (unionCF_sub _ hx)
      · intro g hg l' hl' x hx
        rcases List.mem_cons.mp hg with rfl | hg
        · rw [hf] at hl'
          cases hl'
          obtain ⟨y, hy, hs⟩ := unionCF_has (E.ord.f l) r0 ((E.ord.mem l x).mpr hx)
          exact ⟨y, h2 y hy, hs⟩
        · exact h3 g hg l' hl' x hx

theorem find_two_ok (E : Env Q) (L : Lookup Q) (c : ℕ) (first : Bool) : ∃ r, find E L c 2 first = .ok r := by
  cases h : find E L c 2 first with
  | ok r => exact ⟨r, rfl⟩
  | error e => have := ((find_error_iff E L c 2 first e).mp h).2.1; omega

theorem lookupLoop_ok (E : Env Q) (s : St Q) (comp q : ℕ) (inds : List ℕ) : ∀ (r0 : List (CF Q)), ∃ r,
    inds.foldlM (fun r f => (find E (s.lookup f (some q)) comp 2 true).map fun l => unionCF r (E.ord.f l)) r0 =
      (.ok r : Except Err _) := by
  induction inds with
  | nil => intro r0; exact ⟨r0, rfl⟩
  | cons f inds ih =>
    intro r0
    obtain ⟨l, hl⟩ := find_two_ok E (s.lookup f (some q)) comp true
    obtain ⟨r, hr⟩ := ih (unionCF r0 (E.ord.f l))
    refine ⟨r, ?_⟩
    rw [List.foldlM_cons, hl]
    exact hr

/-- the factors that `_lookup_cfs` may find -/
theorem lookupCfs_mem {E : Env Q} {s : St Q} {inds : List ℕ} {comp q : ℕ} {r : List (CF Q)}
    (h : lookupCfs E s inds comp q = .ok r) {x : CF Q} (hx : x ∈ r) :
    ∃ f ∈ inds, ∃ d, Near E comp d ∧ x ∈ (s.lookup f (some q)).get d := by
  rcases (lookupLoop E s comp q inds [] r h).1 x hx with h0 | h0
  · simp at h0
  · exact h0

/-- `_lookup_cfs` finds nothing exactly if there is nothing in the compartment, below it, or in its parent -/
theorem lookupCfs_nil (E : Env Q) (s : St Q) (inds : List ℕ) (comp q : ℕ) :
    lookupCfs E s inds comp q = .ok [] ↔
      ∀ f ∈ inds, ∀ d, d = comp ∨ d ∈ E.subs comp ∨ d ∈ (E.anc comp).head? → (s.lookup f (some q)).get d = [] := by
  have key : ∀ f, (∃ l, find E (s.lookup f (some q)) comp 2 true = .ok l ∧
      (l = [] ↔ ∀ d, d = comp ∨ d ∈ E.subs comp ∨ d ∈ (E.anc comp).head? → (s.lookup f (some q)).get d = [])) := by
    intro f
    obtain ⟨l, hl⟩ := find_two_ok E (s.lookup f (some q)) comp true
    refine ⟨l, hl, ?_⟩
    have hs := find_first E _ comp 2 l hl
    have h1 : l = [] ↔ nearest (levels E (s.lookup f (some q)) comp 2) = [] := by
      have := isEmpty_of_same hs
      constructor
      · intro e; rw [e] at this; simpa using this.symm
      · intro e; rw [e] at this; simpa using this
    rw [h1, nearest_nil]
    have h2 : levels E (s.lookup f (some q)) comp 2 =
        [(s.lookup f (some q)).get comp, (E.subs comp).flatMap (s.lookup f (some q)).get] ++
          ((E.anc comp).take 1).map (s.lookup f (some q)).get := by simp [levels]
    rw [h2]
    cases E.anc comp with
    | nil =>
      simp only [List.take_nil, List.map_nil, List.append_nil, List.mem_cons, List.not_mem_nil, or_false,
        forall_eq_or_imp, forall_eq, List.flatMap_eq_nil_iff, List.head?_nil, Option.mem_def, reduceCtorEq]
    | cons p as =>
      simp only [List.take_succ_cons, List.take_zero, List.map_cons, List.map_nil, List.cons_append, List.nil_append,
        List.mem_cons, List.not_mem_nil, or_false, forall_eq_or_imp, forall_eq, List.flatMap_eq_nil_iff, List.head?_cons,
        Option.mem_def, Option.some.injEq]
      constructor
      · rintro ⟨h1, h2, h3⟩
        exact ⟨h1, fun d hd => hd.elim (h2 d) (fun e => e ▸ h3)⟩
      · rintro ⟨h1, h2⟩
        exact ⟨h1, fun d hd => h2 d (.inl hd), h2 p (.inr rfl)⟩
  constructor
  · intro h f hf
    obtain ⟨l, hl, hiff⟩ := key f
    apply hiff.mp
    cases l with
    | nil => rfl
    | cons a l =>
      obtain ⟨y, hy, _⟩ := (lookupLoop E s comp q inds [] [] h).2.2 f hf _ hl a (by simp)
      simp at hy
  · intro h
    obtain ⟨r, hr⟩ := lookupLoop_ok E s comp q inds []
    have hr' : lookupCfs E s inds comp q = .ok r := hr
    rw [hr']
    congr 1
    cases r with
    | nil => rfl
    | cons a r =>
      -- a member would come from a search that found nothing
      exfalso
      have hno : ∀ (inds' : List ℕ) (r0 r : List (CF Q)), (∀ f ∈ inds', f ∈ inds) →
          inds'.foldlM (fun r f => (find E (s.lookup f (some q)) comp 2 true).map fun l => unionCF r (E.ord.f l)) r0 =
            (.ok r : Except Err _) → r = r0 := by
        intro inds'
        induction inds' with
        | nil => intro r0 r _ e; simp only [List.foldlM_nil] at e; cases e; rfl
        | cons f inds' ih =>
          intro r0 r hsub e
          obtain ⟨l, hl, hiff⟩ := key f
          have hl0 : l = [] := hiff.mpr (h f (hsub f (by simp)))
          subst hl0
          rw [List.foldlM_cons, hl] at e
          have hord : E.ord.f [] = [] := List.Perm.eq_nil (E.ord.perm [])
          have e' : inds'.foldlM (fun r f => (find E (s.lookup f (some q)) comp 2 true).map fun l =>
              unionCF r (E.ord.f l)) (unionCF r0 (E.ord.f [])) = (.ok r : Except Err _) := e
          rw [hord] at e'
          exact ih r0 r (fun f hf => hsub f (by simp [hf])) e'
      have := hno inds [] _ (fun f hf => hf) hr
      simp at this

/-! ### coherent factors -/

/-- all factors that a conversion may use for these flowables in this compartment, at this location, express the proportions
`μ` between quantities: one unit of the quantity `r` is worth `μ q / μ r` units of `q` -/
def Coherent (E : Env Q) (s : St Q) (inds : List ℕ) (comp : ℕ) (loc : Flo.Loc) (μ : ℕ → ℚ) : Prop :=
  ∀ f ∈ inds, ∀ q d cf, Near E comp d → cf ∈ (s.lookup f (some q)).get d →
    ∃ r, refInd E s cf.flow = some r ∧ μ r ≠ 0 ∧ ∀ v, cfItem s cf loc = .num v → v = μ q / μ r

/-- the factors of the flow itself express the same proportions -/
def FlowCoherent (E : Env Q) (s : St Q) (f refQ : ℕ) (μ : ℕ → ℚ) : Prop :=
  ∀ q c v, (q, c) ∈ (s.flows f).st.chars → Flo.Char.getItem c .glo = .num v → v = μ (E.ind q) / μ refQ

theorem convGen_mem {E : Env Q} {s : St Q} {comp : ℕ} {a b : Option ℕ} (inds : List ℕ) {cf : CF Q}
    (h : convGen E s comp a b inds = .ok (some cf)) :
    ∃ f ∈ inds, ∃ d, Near E comp d ∧ cf ∈ (s.lookup f a).get d ∧ refInd E s cf.flow = b := by
  induction inds with
  | nil => simp [convGen] at h
  | cons f fs ih =>
    simp only [convGen] at h
    cases hf : find E (s.lookup f a) comp 3 true with
    | error e => rw [hf] at h; simp at h
    | ok l =>
      rw [hf] at h
      simp only at h
      cases hg : (E.ord.f l).find? fun cf => decide (refInd E s cf.flow = b) with
      | none =>
        rw [hg] at h
        obtain ⟨g, hg, hd⟩ := ih h
        exact ⟨g, by simp [hg], hd⟩
      | some cf' =>
        rw [hg] at h
        simp only [Except.ok.injEq, Option.some.injEq] at h
        subst h
        have h1 := List.find?_some hg
        have h2 := List.mem_of_find?_eq_some hg
        obtain ⟨d, hd⟩ := find_near hf ((E.ord.mem l _).mp h2)
        exact ⟨f, by simp, d, hd.1, hd.2, by simpa using h1⟩

/-- the conversion that is looked for is the right proportion -/
theorem lookforConv_sound {E : Env Q} {s : St Q} {inds : List ℕ} {comp : ℕ} {loc : Flo.Loc} {μ : ℕ → ℚ}
    (hc : Coherent E s inds comp loc μ) {a b : ℕ} (ha : μ a ≠ 0) (hb : μ b ≠ 0) {v : ℚ}
    (h : lookforConv E s inds comp (some a) (some b) loc = .ok (.num v)) : v = μ a / μ b := by
  unfold lookforConv at h
  cases h1 : convGen E s comp (some a) (some b) inds with
  | error e => rw [h1] at h; simp at h
  | ok o =>
    rw [h1] at h
    cases o with
    | some cf =>
      simp only [Except.ok.injEq] at h
      obtain ⟨f, hf, d, hd, hm, hr⟩ := convGen_mem inds h1
      obtain ⟨r, hr', _, hv⟩ := hc f hf a d cf hd hm
      rw [hr] at hr'
      cases hr'
      exact hv v h
    | none =>
      simp only at h
      cases h2 : convGen E s comp (some b) (some a) inds with
      | error e => rw [h2] at h; simp at h
      | ok o =>
        rw [h2] at h
        cases o with
        | none => simp at h
        | some cf =>
          simp only at h
          cases h3 : cfItem s cf loc with
          | none => rw [h3] at h; simp at h
          | entity => rw [h3] at h; simp at h
          | num w =>
            rw [h3] at h
            simp only at h
            split at h
            · simp at h
            · simp only [Except.ok.injEq, Flo.Val.num.injEq] at h
              obtain ⟨f, hf, d, hd, hm, hr⟩ := convGen_mem inds h2
              obtain ⟨r, hr', _, hv⟩ := hc f hf b d cf hd hm
              rw [hr] at hr'
              cases hr'
              have := hv w h3
              rw [← h, this]
              field_simp

theorem convFromFlow_sound {E : Env Q} {s : St Q} {f refQ : ℕ} {μ : ℕ → ℚ} (hc : FlowCoherent E s f refQ μ) {a : ℕ} {v : ℚ}
    (h : convFromFlow E s f (some a) = .num v) : v = μ a / μ refQ := by
  unfold convFromFlow at h
  cases hg : (s.flows f).st.chars.find? fun p => decide (some (E.ind p.1) = some a) with
  | none => rw [hg] at h; simp at h
  | some p =>
    rw [hg] at h
    have h1 := List.find?_some hg
    have h2 := List.mem_of_find?_eq_some hg
    simp only [Option.some.injEq, decide_eq_true_eq] at h1
    have := hc p.1 p.2 v h2 h
    rw [this, h1]

/-- one value of `_convert_values` -/
theorem convOne_sound {E : Env Q} {s s' : St Q} {inds : List ℕ} {comp refQ q : ℕ} {flow : Option ℕ} {loc : Flo.Loc} {μ : ℕ → ℚ}
    (hc : Coherent E s inds comp loc μ) (hf : ∀ f ∈ flow, FlowCoherent E s f refQ μ) (hr : μ refQ ≠ 0) {cf : CF Q}
    (hcf : ∃ f ∈ inds, ∃ d, Near E comp d ∧ cf ∈ (s.lookup f (some q)).get d) {v : ℚ}
    (h : convOne E inds comp refQ flow loc cf s = .ok (some v) s') : v = μ q / μ refQ := by
  obtain ⟨f, hfi, d, hd, hm⟩ := hcf
  obtain ⟨r, hrr, hr0, hv⟩ := hc f hfi q d cf hd hm
  unfold convOne at h
  simp only [hrr, Option.some.injEq] at h
  by_cases e : r = refQ
  · subst e
    simp only [if_true] at h
    cases hi : cfItem s cf loc with
    | none => rw [hi] at h; simp at h
    | entity => rw [hi] at h; simp at h
    | num w =>
      rw [hi] at h
      simp only [Out.ok.injEq, Option.some.injEq] at h
      rw [← h.1]
      exact hv w hi
  · simp only [e, if_false] at h
    have fin : ∀ w x, cfItem s cf loc = .num w → x = μ r / μ refQ → w * x = μ q / μ refQ := by
      intro w x hw hx
      rw [hv w hw, hx]
      field_simp
    cases hff : flow.elim Flo.Val.none (fun f => convFromFlow E s f (some r)) with
    | num x =>
      rw [hff] at h
      cases flow with
      | none => simp at hff
      | some fl =>
        have hx := convFromFlow_sound (hf fl rfl) hff
        cases hi : cfItem s cf loc with
        | none => rw [hi] at h; simp at h
        | entity => rw [hi] at h; simp at h
        | num w =>
          rw [hi] at h
          simp only [Out.ok.injEq, Option.some.injEq] at h
          rw [← h.1]
          exact fin w x hi hx
    | _ =>
      rw [hff] at h
      simp only at h
      cases hl : lookforConv E s inds comp (some r) (some refQ) loc with
      | error e => rw [hl] at h; simp at h
      | ok o =>
        rw [hl] at h
        cases o with
        | none => simp at h
        | entity => simp at h
        | num x =>
          have hx := lookforConv_sound hc hr0 hr hl
          cases hi : cfItem s cf loc with
          | none => rw [hi] at h; simp at h
          | entity => rw [hi] at h; simp at h
          | num w =>
            rw [hi] at h
            cases flow with
            | none =>
              simp only [Out.ok.injEq, Option.some.injEq] at h
              rw [← h.1]
              exact fin w x hi hx
            | some fl =>
              simp only at h
              cases hdoc : document s fl (s.flows cf.flow).st.ref x loc with
              | err e s2 => rw [hdoc] at h; simp [Out.bind] at h
              | ok u s2 =>
                rw [hdoc] at h
                simp only [Out.bind, Out.ok.injEq, Option.some.injEq] at h
                rw [← h.1]
                exact fin w x hi hx

/-- a factor without a conversion changes nothing -/
theorem convOne_none {E : Env Q} {s s' : St Q} {inds : List ℕ} {comp refQ : ℕ} {flow : Option ℕ} {loc : Flo.Loc} {cf : CF Q}
    (h : convOne E inds comp refQ flow loc cf s = .ok none s') : s' = s := by
  unfold convOne at h
  simp only at h
  split at h
  · split at h <;> simp at h
  · split at h
    · split at h <;> simp at h
    · split at h
      · simp at h
      · simp only [Out.ok.injEq, true_and] at h; exact h.symm
      · simp at h
      · split at h
        · split at h
          · simp at h
          · generalize document s _ (s.flows cf.flow).st.ref _ loc = o at h
            cases o <;> simp [Out.bind] at h
        · simp at h

/-- the first value of the loop is computed before anything changes -/
theorem convLoop_head {E : Env Q} {inds : List ℕ} {comp refQ : ℕ} {flow : Option ℕ} {loc : Flo.Loc} (cfs : List (CF Q)) :
    ∀ {s s' : St Q} {v : ℚ} {vs : List ℚ} {b : Bool},
      convLoop E inds comp refQ flow loc cfs s = .ok (v :: vs, b) s' →
      ∃ cf ∈ cfs, ∃ s2, convOne E inds comp refQ flow loc cf s = .ok (some v) s2 := by
  induction cfs with
  | nil => intro s s' v vs b h; simp [convLoop] at h
  | cons cf cfs ih =>
    intro s s' v vs b h
    simp only [convLoop] at h
    cases h1 : convOne E inds comp refQ flow loc cf s with
    | err e s1 => rw [h1] at h; simp [Out.bind] at h
    | ok o s1 =>
      rw [h1] at h
      simp only [Out.bind] at h
      cases h2 : convLoop E inds comp refQ flow loc cfs s1 with
      | err e s2 => rw [h2] at h; simp at h
      | ok r s2 =>
        rw [h2] at h
        cases o with
        | some w =>
          simp only [Out.ok.injEq, Prod.mk.injEq, List.cons.injEq] at h
          obtain ⟨⟨⟨rfl, -⟩, -⟩, -⟩ := h
          exact ⟨cf, by simp, s1, h1⟩
        | none =>
          simp only [Out.ok.injEq, Prod.mk.injEq] at h
          have hs1 := convOne_none h1
          subst hs1
          obtain ⟨cf', hm, s3, h3⟩ := ih (v := v) (vs := vs) (b := r.2) (s' := s2)
            (by rw [h2]; congr 1; exact Prod.ext h.1.1 rfl)
          exact ⟨cf', by simp [hm], s3, h3⟩

/-- the core of `convert`: coherent factors give the right proportion -/
theorem convertCore_sound {E : Env Q} {s s' : St Q} {flow : Option ℕ} {inds : List ℕ} {comp : ℕ} {bio : Bool} {refQ q : ℕ}
    {loc : Flo.Loc} {quell : Option Bool} {μ : ℕ → ℚ} (hc : Coherent E s inds comp loc μ)
    (hf : ∀ f ∈ flow, FlowCoherent E s f refQ μ) (hr : μ refQ ≠ 0) (hq : quelled E inds comp bio quell = false) {v : ℚ}
    (h : convertCore E flow inds (some comp) bio (some refQ) q loc quell s = .ok (some v) s') : v = μ q / μ refQ := by
  unfold convertCore at h
  simp only at h
  split at h
  · rename_i e
    subst e
    simp only [Out.ok.injEq, Option.some.injEq] at h
    rw [← h.1]
    field_simp
  · simp only [hq, Bool.false_eq_true, if_false] at h
    cases hv : convertValues E inds comp refQ q flow loc s with
    | err e s1 => rw [hv] at h; simp [Out.bind] at h
    | ok vals s1 =>
      rw [hv] at h
      simp only [Out.bind] at h
      cases vals with
      | nil => simp at h
      | cons w ws =>
        have hw : w = v := by
          simp only at h
          repeat' split at h
          all_goals simp only [Out.ok.injEq, Option.some.injEq, reduceCtorEq] at h
          all_goals exact h.1
        subst hw
        unfold convertValues at hv
        cases hl : lookupCfs E s inds comp q with
        | error e => rw [hl] at hv; simp at hv
        | ok cfs =>
          rw [hl] at hv
          simp only at hv
          cases h2 : convLoop E inds comp refQ flow loc (E.ord.f cfs) s with
          | err e s2 => rw [h2] at hv; simp [Out.bind] at hv
          | ok r s2 =>
            rw [h2] at hv
            simp only [Out.bind] at hv
            split at hv
            · simp at hv
            · simp only [Out.ok.injEq] at hv
              obtain ⟨cf, hm, s3, h3⟩ := convLoop_head (E.ord.f cfs) (v := w) (vs := ws) (b := r.2) (s' := s2)
                (by rw [h2]; congr 1; exact Prod.ext hv.1 rfl)
              exact convOne_sound hc hf hr (lookupCfs_mem hl ((E.ord.mem cfs cf).mp hm)) h3

/-- C64: whatever `convert` returns for a flow is the proportion between the quantity and the reference quantity of the flow -/
theorem convert_sound (E : Env Q) (s s' : St Q) (f comp refQ q : ℕ) (loc : Flo.Loc) (quell : Option Bool) (μ : ℕ → ℚ) (v : ℚ)
    (hcomp : (s.flows f).comp = some comp) (href : refInd E s f = some refQ)
    (hc : Coherent E s (s.flows f).inds comp loc μ) (hf : FlowCoherent E s f refQ μ) (hr : μ refQ ≠ 0)
    (hq : quelled E (s.flows f).inds comp (s.flows f).bio quell = false)
    (h : convert E (.flow f) q loc quell s = .ok (some v) s') : v = μ q / μ refQ := by
  unfold convert at h
  simp only [hcomp, href] at h
  exact convertCore_sound hc (fun g hg => by cases hg; exact hf) hr hq h

/-- C64, for a flowable -/
theorem convert_sound_flowable (E : Env Q) (s s' : St Q) (i : Option ℕ) (bio : Bool) (comp refQ q : ℕ) (loc : Flo.Loc)
    (quell : Option Bool) (μ : ℕ → ℚ) (v : ℚ) (hc : Coherent E s i.toList comp loc μ) (hr : μ refQ ≠ 0)
    (hq : quelled E i.toList comp bio quell = false)
    (h : convert E (.flowable i bio (some comp) (some refQ)) q loc quell s = .ok (some v) s') : v = μ q / μ refQ := by
  unfold convert at h
  exact convertCore_sound hc (fun g hg => by cases hg) hr hq h

/-- C64: for coherent factors the result does not depend on the order of sets -/
theorem convert_order (E : Env Q) (ord : PyOrd (CF Q)) (s s1 s2 : St Q) (f comp refQ q : ℕ) (loc : Flo.Loc)
    (quell : Option Bool) (μ : ℕ → ℚ) (v w : ℚ)
    (hcomp : (s.flows f).comp = some comp) (href : refInd E s f = some refQ)
    (hc : Coherent E s (s.flows f).inds comp loc μ) (hf : FlowCoherent E s f refQ μ) (hr : μ refQ ≠ 0)
    (hq : quelled E (s.flows f).inds comp (s.flows f).bio quell = false)
    (h : convert E (.flow f) q loc quell s = .ok (some v) s1)
    (h' : convert { E with ord := ord } (.flow f) q loc quell s = .ok (some w) s2) : v = w := by
  rw [convert_sound E s s1 f comp refQ q loc quell μ v hcomp href hc hf hr hq h,
    convert_sound { E with ord := ord } s s2 f comp refQ q loc quell μ w hcomp href hc hf hr hq h']

theorem convLoop_nil {E : Env Q} {inds : List ℕ} {comp refQ : ℕ} {flow : Option ℕ} {loc : Flo.Loc} (cfs : List (CF Q)) :
    ∀ {s s' : St Q}, convLoop E inds comp refQ flow loc cfs s = .ok ([], false) s' → cfs = [] := by
  cases cfs with
  | nil => intros; rfl
  | cons cf cfs =>
    intro s s' h
    simp only [convLoop] at h
    cases h1 : convOne E inds comp refQ flow loc cf s with
    | err e s1 => rw [h1] at h; simp [Out.bind] at h
    | ok o s1 =>
      rw [h1] at h
      simp only [Out.bind] at h
      cases h2 : convLoop E inds comp refQ flow loc cfs s1 with
      | err e s2 => rw [h2] at h; simp at h
      | ok r s2 =>
        rw [h2] at h
        cases o <;> simp at h

/-- C64: `convert` returns None for a flow with a reference quantity exactly if the flow is not quelled and there is no factor
in the compartment, below it, or in its parent -/
theorem convert_none_iff (E : Env Q) (s : St Q) (f comp refQ q : ℕ) (loc : Flo.Loc) (quell : Option Bool)
    (hcomp : (s.flows f).comp = some comp) (href : refInd E s f = some refQ) (hne : refQ ≠ q) :
    (∃ s', convert E (.flow f) q loc quell s = .ok none s') ↔
      quelled E (s.flows f).inds comp (s.flows f).bio quell = false ∧
      ∀ i ∈ (s.flows f).inds, ∀ d, d = comp ∨ d ∈ E.subs comp ∨ d ∈ (E.anc comp).head? →
        (s.lookup i (some q)).get d = [] := by
  rw [← lookupCfs_nil]
  constructor
  · rintro ⟨s', h⟩
    unfold convert at h
    simp only [hcomp, href] at h
    unfold convertCore at h
    simp only [hne, if_false] at h
    split at h
    · simp at h
    · rename_i hq
      refine ⟨by simpa using hq, ?_⟩
      cases hv : convertValues E (s.flows f).inds comp refQ q (some f) loc s with
      | err e s1 => rw [hv] at h; simp [Out.bind] at h
      | ok vals s1 =>
        rw [hv] at h
        simp only [Out.bind] at h
        cases vals with
        | cons w ws =>
          simp only at h
          repeat' split at h
          all_goals simp at h
        | nil =>
          unfold convertValues at hv
          cases hl : lookupCfs E s (s.flows f).inds comp q with
          | error e => rw [hl] at hv; simp at hv
          | ok cfs =>
            rw [hl] at hv
            simp only at hv
            cases h2 : convLoop E (s.flows f).inds comp refQ (some f) loc (E.ord.f cfs) s with
            | err e s2 => rw [h2] at hv; simp [Out.bind] at hv
            | ok r s2 =>
              rw [h2] at hv
              simp only [Out.bind] at hv
              split at hv
              · simp at hv
              · rename_i hb
                simp only [Out.ok.injEq] at hv
                have hr2 : r.2 = false := by
                  cases hr : r.2 with
                  | false => rfl
                  | true => rw [hr, hv.1] at hb; simp at hb
                have : E.ord.f cfs = [] := convLoop_nil _ (s := s) (s' := s2)
                  (by rw [h2]; congr 1; exact Prod.ext hv.1 hr2)
                have h0 : cfs = [] := List.Perm.nil_eq (this ▸ E.ord.perm cfs) ▸ rfl
                rw [h0]
  · rintro ⟨hq, hl⟩
    refine ⟨s, ?_⟩
    have hord : E.ord.f [] = [] := List.Perm.eq_nil (E.ord.perm [])
    unfold convert
    simp only [hcomp, href]
    unfold convertCore
    simp only [hne, if_false, hq, Bool.false_eq_true]
    unfold convertValues
    rw [hl]
    simp [hord, convLoop, Out.bind]

/-- a compartment lies within another one -/
def Within (E : Env Q) (c d : ℕ) : Prop := c = d ∨ d ∈ E.anc c

/-- a flow is quelled exactly if it is carbon dioxide, quelling is asked for (or is the default and not asked against), and it is
an emission of biogenic name, or not an emission and a resource from air -/
theorem quelled_iff (E : Env Q) (inds : List ℕ) (comp : ℕ) (bio : Bool) (quell : Option Bool) :
    quelled E inds comp bio quell = true ↔
      E.co2 ∈ inds ∧ (quell = some true ∨ quell = none ∧ E.quell = true) ∧
        (Within E comp E.emissions ∧ bio = true ∨ ¬ Within E comp E.emissions ∧ Within E comp E.fromAir) := by
  unfold quelled isSub Within
  have hqu : quell.getD E.quell = true ↔ (quell = some true ∨ quell = none ∧ E.quell = true) := by
    cases quell with
    | none => simp
    | some b => simp
  by_cases h : comp = E.emissions ∨ E.emissions ∈ E.anc comp
  · simp only [Bool.and_eq_true, decide_eq_true_eq, hqu, h, if_true, true_and, not_true, false_and, or_false, and_assoc]
  · simp only [Bool.and_eq_true, decide_eq_true_eq, hqu, h, if_false, not_false_eq_true, true_and, false_and, false_or,
      and_assoc]

/-- C64: a quelled flow gets 0, whatever the factors, and the state is left as it is -/
theorem convert_quelled (E : Env Q) (s : St Q) (f comp refQ q : ℕ) (loc : Flo.Loc) (quell : Option Bool)
    (hcomp : (s.flows f).comp = some comp) (href : refInd E s f = some refQ) (hne : refQ ≠ q)
    (hc : E.co2 ∈ (s.flows f).inds) (hq : quell = some true ∨ quell = none ∧ E.quell = true)
    (hw : Within E comp E.emissions ∧ (s.flows f).bio = true ∨ ¬ Within E comp E.emissions ∧ Within E comp E.fromAir) :
    convert E (.flow f) q loc quell s = .ok (some 0) s := by
  have := (quelled_iff E (s.flows f).inds comp (s.flows f).bio quell).mpr ⟨hc, hq, hw⟩
  unfold convert convertCore
  simp [hcomp, href, hne, this]

/-! ### examples

Quantities: mass 1, volume 2, a score 7. Flow 10 is counted in mass: half a unit of volume and three units of score per unit of
mass. Flow 20, of the same flowable 5, is counted in volume. -/

def cFlows : ℕ → FlowO ℕ := fun x =>
  if x = 10 then
    { uuid := 10, inds := [5], comp := some 2,
      st := { chars := [(1, [(.glo, 1)]), (7, [(.glo, 3)]), (2, [(.glo, 1/2)])], ref := some 1 } }
  else { uuid := x, inds := [5], comp := some 2, st := { chars := [(2, [(.glo, 1)])], ref := some 2 } }

def cOps : List (Op ℕ) := [.addCf ⟨10, 10, 7⟩ [5], .addCf ⟨10, 10, 2⟩ [5]]

def cSt : St ℕ := run wEnv cOps { flows := cFlows }

def cμ : ℕ → ℚ := fun q => if q = 2 then 1/2 else if q = 7 then 3 else 1

theorem cCoherent : Coherent wEnv cSt [5] 2 .glo cμ := by
  intro f hf q d cf _ hm
  have h1 := (stored_iff wEnv f q d cOps cFlows).1 cf hm
  have hfl : cSt.flows = cFlows := rfl
  have h2 : (cf = ⟨10, 10, 7⟩ ∧ q = 7) ∨ (cf = ⟨10, 10, 2⟩ ∧ q = 2) := by
    simp only [added, cOps] at h1
    split at h1
    · rename_i h0
      have hq : q = 7 := h0.2.1.symm
      rcases List.mem_cons.mp h1 with rfl | h1
      · exact .inl ⟨rfl, hq⟩
      · split at h1
        · rename_i h0'
          have : q = 2 := h0'.2.1.symm
          omega
        · simp at h1
    · split at h1
      · rename_i h0
        rcases List.mem_cons.mp h1 with rfl | h1
        · exact .inr ⟨rfl, h0.2.1.symm⟩
        · simp at h1
      · simp at h1
  rcases h2 with ⟨rfl, rfl⟩ | ⟨rfl, rfl⟩
  · refine ⟨1, by decide +kernel, by norm_num [cμ], ?_⟩
    intro v hv
    have : cfItem cSt ⟨10, 10, 7⟩ .glo = .num 3 := by decide +kernel
    rw [this] at hv
    cases hv
    norm_num [cμ]
  · refine ⟨1, by decide +kernel, by norm_num [cμ], ?_⟩
    intro v hv
    have : cfItem cSt ⟨10, 10, 2⟩ .glo = .num (1/2) := by decide +kernel
    rw [this] at hv
    cases hv
    norm_num [cμ]

/-- the hypotheses of C64 are met: the score of a unit of volume is 6, by way of the inverse of the factor for volume -/
example : (convert wEnv (.flow 20) 7 .glo none cSt).value? = some (some 6) ∧ cμ 7 / cμ 2 = 6 ∧
    Coherent wEnv cSt (cSt.flows 20).inds 2 .glo cμ ∧ FlowCoherent wEnv cSt 20 2 cμ := by
  refine ⟨by decide +kernel, by norm_num [cμ], cCoherent, ?_⟩
  intro q c v hm hv
  have h1 : (cSt.flows 20).st.chars = [(2, [(.glo, 1)])] := by decide +kernel
  rw [h1] at hm
  simp only [List.mem_cons, Prod.mk.injEq, List.not_mem_nil, or_false] at hm
  obtain ⟨rfl, rfl⟩ := hm
  have h2 : Flo.Char.getItem [(Flo.Loc.glo, (1 : ℚ))] .glo = .num 1 := by decide +kernel
  rw [h2] at hv
  cases hv
  norm_num [cμ, wEnv]

/-- the flowable alone, and a quantity without factors -/
example : (convert wEnv (.flowable (some 5) false (some 2) (some 2)) 7 .glo none cSt).value? = some (some 6) ∧
    (convert wEnv (.flow 20) 8 .glo none cSt).value? = some none := by decide +kernel

/-- carbon dioxide (flowable 5), taken from compartment 2: quelled if asked for; as an emission, only under a biogenic name -/
example : (convert { wEnv with co2 := 5, emissions := 9, fromAir := 1 } (.flow 20) 7 .glo (some true) cSt).value? = some (some 0) ∧
    (convert { wEnv with co2 := 5, emissions := 9, fromAir := 1 } (.flow 20) 7 .glo none cSt).value? = some (some 6) ∧
    (convert { wEnv with co2 := 5, emissions := 1, fromAir := 1 } (.flow 20) 7 .glo (some true) cSt).value? = some (some 6) := by
  decide +kernel

/-- two copies of a substance with different factors -/
def dFlows (v w : ℚ) : ℕ → FlowO ℕ := fun x =>
  { uuid := x, inds := [5], comp := some 2,
    st :=
      if x = 20 then { chars := [(2, [(.glo, 1)])], ref := some 2 }
      else { chars := [(1, [(.glo, 1)]), (7, [(.glo, if x = 10 then v else w)])], ref := some 1 } }

def dSt (v w : ℚ) : St ℕ := run wEnv [.addCf ⟨10, 10, 7⟩ [5], .addCf ⟨11, 11, 7⟩ [5]] { flows := dFlows v w }

/-- another order of factors -/
def rev : PyOrd (CF ℕ) :=
  ⟨fun l => l.filter (fun c => decide (c.uuid > 10)) ++ l.filter (fun c => !decide (c.uuid > 10)),
    fun l => List.filter_append_perm _ l⟩

/-- C64 fails for factors that disagree: the answer is one of them, which one depends on the order of a set -/
theorem convert_fails_order : (convert wEnv (.flow 30) 7 .glo none (dSt 2 3)).value? = some (some 2) ∧
    (convert { wEnv with ord := rev } (.flow 30) 7 .glo none (dSt 2 3)).value? = some (some 3) := by decide +kernel

/-- C64 fails for a flowable whose factors disagree: the warning raises -/
theorem convert_fails_warning :
    (convert wEnv (.flowable (some 5) false (some 2) (some 1)) 7 .glo none (dSt 2 3)).error? = some .attributeError ∧
    (convert wEnv (.flowable (some 5) false (some 2) (some 1)) 7 .glo none (dSt 2 2)).value? = some (some 2) := by
  decide +kernel

/-- only the factor of flow 10, at the root -/
def rSt : St ℕ :=
  run wEnv [.addCf ⟨10, 10, 7⟩ [5]]
    { flows := fun x => { dFlows 2 3 x with comp := some 0 } }

/-- C64 fails at the root: with a conversion to look for, the search raises instead of reporting the mismatch -/
theorem convert_fails_root : (convert wEnv (.flow 20) 7 .glo none rSt).error? = some .attributeError ∧
    (convert wEnv (.flow 20) 7 .glo none (dSt 2 3)).error? = some .mismatch := by decide +kernel

/-- a stored conversion that is zero -/
def zFlows : ℕ → FlowO ℕ := fun x =>
  if x = 10 then { cFlows 10 with st := { chars := [(7, [(.glo, 3)]), (2, [(.glo, 0)])], ref := some 1 } } else cFlows x

/-- C64 fails for a conversion by the inverse of zero, and for a factor without a value -/
theorem convert_fails_values :
    (convert wEnv (.flow 20) 7 .glo none (run wEnv cOps { flows := zFlows })).error? = some .zeroDivision ∧
    (convert wEnv (.flow 30) 7 .glo none (run wEnv [.addCf ⟨10, 10, 7⟩ [5]] { flows := fun x =>
      { cFlows 10 with uuid := x, st := { chars := [(7, [])], ref := some 1 } } })).error? = some .typeError := by
  decide +kernel

/-- `cf` and `convert_reference` with a quantity object: a conversion that is found raises, one that is not found is 0 -/
theorem convert_reference_fails : (convertReference wEnv 20 1 true .glo cSt).error? = some .attributeError ∧
    (convertReference wEnv 20 1 false .glo cSt).value? = some 2 ∧
    (convertReference wEnv 20 8 true .glo cSt).value? = some 0 := by decide +kernel

end Qdb
