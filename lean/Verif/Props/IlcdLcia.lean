import Verif.Model.IlcdLcia

/-! C188, C189: LCIA factors of ILCD archives. -/

set_option linter.unusedSectionVars false

namespace Ilm

section
variable {U Q Nm : Type} [DecidableEq U] [DecidableEq Q] [DecidableEq Nm]

/-! ### Specification -/

/-- a global factor: the location is empty or GLO -/
def Glob (x : Fac U) : Prop := x.loc = "GLO" ∨ x.loc = ""

instance (x : Fac U) : Decidable (Glob x) := by unfold Glob; infer_instance

/-- the factors of a file for a flow, in order -/
def ofFlow (xs : List (Fac U)) (u : U) : List (Fac U) := xs.filter fun x => decide (x.flow = u)

/-- the value stored for a flow, quantity and location -/
def stored (a : Arch U Q Nm) (u : U) (q : Q) (l : String) : Option ℚ :=
  ((Dict.get? a.flows u).bind fun f => Dict.get? f.cfs q).bind fun d => Dict.get? d l

def Loaded (a : Arch U Q Nm) (u : U) : Prop := (Dict.get? a.flows u).isSome

/-- no flow in the archive or in the files has a factor for the quantity -/
def Fresh (src : U → Option (Flow Q Nm)) (a : Arch U Q Nm) (q : Q) : Prop :=
  (∀ u f, Dict.get? a.flows u = some f → Dict.get? f.cfs q = none) ∧ ∀ u f, src u = some f → Dict.get? f.cfs q = none

/-! ### One factor -/

/-- a flow, as it is or as its file gives it -/
def view (src : U → Option (Flow Q Nm)) (a : Arch U Q Nm) (u : U) : Option (Flow Q Nm) := (Dict.get? a.flows u).or (src u)

/-- what a factor does to the characterization of its flow -/
def step (d : Option (Dict String ℚ)) (x : Fac U) : Option (Dict String ℚ) :=
  match d, x.mean with
  | d, none => d
  | none, some v => some (Dict.set [] (if x.loc = "" then "GLO" else x.loc) v)
  | some d, some v => if Glob x ∨ (Dict.get? d x.loc).isSome then some d else some (Dict.set d x.loc v)

/-- the effect of a factor on a flow -/
def stepFlow (q : Q) (f : Flow Q Nm) (x : Fac U) : Flow Q Nm :=
  match x.mean with
  | none => f
  | some v => if hasChar f q x.loc then f else addChar f q x.loc v

lemma stepFlow_cfs (q q' : Q) (f : Flow Q Nm) (x : Fac U) :
    Dict.get? (stepFlow q f x).cfs q' = if q' = q then step (Dict.get? f.cfs q) x else Dict.get? f.cfs q' := by
  unfold stepFlow
  cases hm : x.mean with
  | none =>
    simp only
    split
    · rename_i h; subst h; cases h : Dict.get? f.cfs q' <;> simp [step, hm]
    · rfl
  | some v =>
    simp only
    cases hd : Dict.get? f.cfs q with
    | none =>
      have : hasChar f q x.loc = false := by simp [hasChar, hd]
      rw [this]
      simp only [Bool.false_eq_true, if_false, addChar, hd, Option.getD_none]
      by_cases hq : q' = q
      · subst hq; rw [Dict.get?_set_self]; simp [step, hm]
      · rw [Dict.get?_set_ne _ _ (Ne.symm hq)]; simp [hq]
    | some d =>
      by_cases hg : x.loc = "GLO" ∨ x.loc = ""
      · have : hasChar f q x.loc = true := by simp [hasChar, hd, hg]
        rw [this]
        simp only [if_true]
        by_cases hq : q' = q
        · subst hq; rw [if_pos rfl]; simp [step, hm, Glob, hg, hd]
        · rw [if_neg hq]
      · by_cases hs : (Dict.get? d x.loc).isSome
        · have : hasChar f q x.loc = true := by simp [hasChar, hd, Dict.has, hs]
          rw [this]
          simp only [if_true]
          by_cases hq : q' = q
          · subst hq; rw [if_pos rfl]; simp [step, hm, hs, hd]
          · rw [if_neg hq]
        · have : hasChar f q x.loc = false := by
            simp only [hasChar, hd, Dict.has]
            rw [if_neg hg]
            simpa using hs
          rw [this]
          have hne : x.loc ≠ "" := fun h => hg (Or.inr h)
          simp only [Bool.false_eq_true, if_false, addChar, hd, Option.getD_some, hne]
          by_cases hq : q' = q
          · subst hq
            rw [Dict.get?_set_self]
            simp only [if_true, step, hm]
            rw [if_neg (by rintro (h | h); exacts [hg h, hs h])]
          · rw [Dict.get?_set_ne _ _ (Ne.symm hq)]; simp [hq]

/-- the factor is processed: its flow is there, or all flows are loaded -/
def Active (all : Bool) (a : Arch U Q Nm) (u : U) : Prop := Loaded a u ∨ all = true

lemma loadFactor_spec (src : U → Option (Flow Q Nm)) (q : Q) (all : Bool) (x : Fac U) (a : Arch U Q Nm) :
    (¬ Active all a x.flow → loadFactor src q all x a = .ok none a) ∧
    (Active all a x.flow → (x.mean = none ∨ view src a x.flow = none) →
      ∃ e, loadFactor src q all x a = .err e a) ∧
    (Active all a x.flow → ∀ f, x.mean ≠ none → view src a x.flow = some f →
      ∃ a', loadFactor src q all x a = .ok (some x.flow) a' ∧
        Dict.get? a'.flows x.flow = some (stepFlow q f x) ∧
        (∀ u, u ≠ x.flow → Dict.get? a'.flows u = Dict.get? a.flows u) ∧ a'.qtys = a.qtys ∧
        (Loaded a x.flow → hasChar f q x.loc = true → a' = a)) := by
  have hcond : ((Dict.get? a.flows x.flow).isNone = true ∧ all = false) ↔ ¬ Active all a x.flow := by
    unfold Active Loaded
    rw [not_or]
    refine and_congr ?_ ?_
    · cases Dict.get? a.flows x.flow <;> simp
    · simp
  refine ⟨?_, ?_, ?_⟩
  · intro h
    unfold loadFactor
    rw [if_pos (hcond.2 h)]
  · intro h hbad
    unfold loadFactor
    rw [if_neg (fun h' => hcond.1 h' h)]
    cases hm : x.mean with
    | none => exact ⟨_, rfl⟩
    | some v =>
      rw [hm] at hbad
      simp only [reduceCtorEq, false_or] at hbad
      unfold view at hbad
      rw [Option.or_eq_none_iff] at hbad
      refine ⟨.missing, ?_⟩
      simp only [retrieve, hbad.1, hbad.2, Out.bind]
  · intro h f hmean hf
    obtain ⟨v, hm⟩ := Option.ne_none_iff_exists'.1 hmean
    unfold loadFactor
    rw [if_neg (fun h' => hcond.1 h' h), hm]
    simp only
    cases hg : Dict.get? a.flows x.flow with
    | some f' =>
      have : f' = f := by simpa [view, hg] using hf
      subst this
      simp only [retrieve, hg, Out.bind]
      cases hh : hasChar f' q x.loc with
      | true =>
        refine ⟨a, by simp, by simp [stepFlow, hm, hh, hg], fun _ _ => rfl, rfl, fun _ _ => rfl⟩
      | false =>
        refine ⟨⟨Dict.set a.flows x.flow (addChar f' q x.loc v), a.qtys⟩, by simp, ?_, ?_, rfl, ?_⟩
        · simp [Dict.get?_set_self, stepFlow, hm, hh]
        · intro u hu; simp only; rw [Dict.get?_set_ne _ _ (Ne.symm hu)]
        · intro _ h; cases h
    | none =>
      have hs : src x.flow = some f := by simpa [view, hg] using hf
      simp only [retrieve, hg, hs, Out.bind]
      cases hh : hasChar f q x.loc with
      | true =>
        refine ⟨⟨Dict.set a.flows x.flow f, a.qtys⟩, by simp, ?_, ?_, rfl, ?_⟩
        · simp [Dict.get?_set_self, stepFlow, hm, hh]
        · intro u hu; simp only; rw [Dict.get?_set_ne _ _ (Ne.symm hu)]
        · intro h _; simp [Loaded, hg] at h
      | false =>
        refine ⟨⟨Dict.set (Dict.set a.flows x.flow f) x.flow (addChar f q x.loc v), a.qtys⟩, by simp, ?_, ?_, rfl, ?_⟩
        · simp [Dict.get?_set_self, stepFlow, hm, hh]
        · intro u hu; simp only; rw [Dict.get?_set_ne _ _ (Ne.symm hu), Dict.get?_set_ne _ _ (Ne.symm hu)]
        · intro h _; simp [Loaded, hg] at h

/-! ### All factors of a file -/

lemma loadFactors_ok (src : U → Option (Flow Q Nm)) (q : Q) (all : Bool) (xs : List (Fac U)) (a a' : Arch U Q Nm)
    (l : List (Option U)) (h : loadFactors src q all xs a = .ok l a') :
    (∀ u, Loaded a' u ↔ Loaded a u ∨ all = true ∧ u ∈ xs.map (·.flow)) ∧
    (∀ u f, Dict.get? a'.flows u = some f → ∃ g, view src a u = some g ∧ f = (ofFlow xs u).foldl (stepFlow q) g) ∧
    a'.qtys = a.qtys ∧
    (∀ x ∈ xs, Active all a x.flow → x.mean ≠ none ∧ view src a x.flow ≠ none) := by
  induction xs generalizing a l with
  | nil =>
    simp only [loadFactors, Out.ok.injEq] at h
    obtain ⟨-, rfl⟩ := h
    refine ⟨by simp, ?_, rfl, by simp⟩
    intro u f hf
    exact ⟨f, by simp [view, hf], rfl⟩
  | cons x xs ih =>
    rw [loadFactors] at h
    by_cases hact : Active all a x.flow
    · by_cases hbad : x.mean = none ∨ view src a x.flow = none
      · obtain ⟨e, he⟩ := (loadFactor_spec src q all x a).2.1 hact hbad
        rw [he] at h; simp [Out.bind] at h
      · push Not at hbad
        obtain ⟨f, hf⟩ := Option.ne_none_iff_exists'.1 hbad.2
        obtain ⟨a1, e1, g1, g2, g3, -⟩ := (loadFactor_spec src q all x a).2.2 hact f hbad.1 hf
        rw [e1] at h
        simp only [Out.bind] at h
        cases h2 : loadFactors src q all xs a1 with
        | err e b => rw [h2] at h; cases h
        | ok l1 b =>
          rw [h2] at h
          simp only [Out.ok.injEq] at h
          obtain ⟨-, rfl⟩ := h
          obtain ⟨i1, i2, i3, i4⟩ := ih a1 l1 h2
          have hl1 : ∀ u, Loaded a1 u ↔ Loaded a u ∨ u = x.flow := by
            intro u
            by_cases hu : u = x.flow
            · subst hu; simp [Loaded, g1]
            · simp [Loaded, g2 u hu, hu]
          have hv : ∀ u, view src a1 u = if u = x.flow then some (stepFlow q f x) else view src a u := by
            intro u
            by_cases hu : u = x.flow
            · subst hu; simp [view, g1]
            · simp [view, g2 u hu, hu]
          refine ⟨?_, ?_, i3.trans g3, ?_⟩
          · intro u
            rw [i1, hl1]
            simp only [List.map_cons, List.mem_cons]
            constructor
            · rintro ((h | h) | ⟨h, h'⟩)
              · exact Or.inl h
              · subst h
                rcases hact with h | h
                · exact Or.inl h
                · exact Or.inr ⟨h, Or.inl rfl⟩
              · exact Or.inr ⟨h, Or.inr h'⟩
            · rintro (h | ⟨h, h' | h'⟩)
              · exact Or.inl (Or.inl h)
              · exact Or.inl (Or.inr h')
              · exact Or.inr ⟨h, h'⟩
          · intro u g hg
            obtain ⟨g', hg', e⟩ := i2 u g hg
            rw [hv] at hg'
            by_cases hu : u = x.flow
            · subst hu
              rw [if_pos rfl] at hg'
              refine ⟨f, hf, ?_⟩
              have : ofFlow (x :: xs) x.flow = x :: ofFlow xs x.flow := by simp [ofFlow]
              rw [this, List.foldl_cons, Option.some.inj hg', e]
            · rw [if_neg hu] at hg'
              refine ⟨g', hg', ?_⟩
              have : ofFlow (x :: xs) u = ofFlow xs u := by simp [ofFlow, Ne.symm hu]
              rw [this, e]
          · intro y hy hact'
            rcases List.mem_cons.1 hy with rfl | hy
            · exact hbad
            · have : Active all a1 y.flow := by
                rcases hact' with h | h
                · exact Or.inl ((hl1 _).2 (Or.inl h))
                · exact Or.inr h
              obtain ⟨j1, j2⟩ := i4 y hy this
              refine ⟨j1, ?_⟩
              rw [hv] at j2
              by_cases hu : y.flow = x.flow
              · rw [hu]; exact hbad.2
              · rwa [if_neg hu] at j2
    · rw [(loadFactor_spec src q all x a).1 hact] at h
      simp only [Out.bind] at h
      cases h2 : loadFactors src q all xs a with
      | err e b => rw [h2] at h; cases h
      | ok l1 b =>
        rw [h2] at h
        simp only [Out.ok.injEq] at h
        obtain ⟨-, rfl⟩ := h
        obtain ⟨i1, i2, i3, i4⟩ := ih a l1 h2
        have hall : all = false := by
          cases all
          · rfl
          · exact absurd (Or.inr rfl) hact
        refine ⟨?_, ?_, i3, ?_⟩
        · intro u; rw [i1]; simp [hall]
        · intro u g hg
          obtain ⟨g', hg', e⟩ := i2 u g hg
          refine ⟨g', hg', ?_⟩
          have hu : x.flow ≠ u := by
            rintro rfl
            have : Loaded b x.flow := by simp [Loaded, hg]
            rw [i1] at this
            rcases this with h | h
            · exact hact (Or.inl h)
            · exact hact (Or.inr h.1)
          have : ofFlow (x :: xs) u = ofFlow xs u := by simp [ofFlow, hu]
          rw [this, e]
        · intro y hy hact'
          rcases List.mem_cons.1 hy with rfl | hy
          · exact absurd hact' hact
          · exact i4 y hy hact'

lemma loadFactors_returns (src : U → Option (Flow Q Nm)) (q : Q) (all : Bool) (xs : List (Fac U)) (a : Arch U Q Nm)
    (h : ∀ x ∈ xs, Active all a x.flow → x.mean ≠ none ∧ view src a x.flow ≠ none) :
    ∃ a', loadFactors src q all xs a = .ok (xs.map fun x => if (Dict.get? a.flows x.flow).isSome ∨ all = true then some x.flow else none) a' := by
  induction xs generalizing a with
  | nil => exact ⟨a, rfl⟩
  | cons x xs ih =>
    rw [loadFactors]
    by_cases hact : Active all a x.flow
    · obtain ⟨hm, hv⟩ := h x (by simp) hact
      obtain ⟨f, hf⟩ := Option.ne_none_iff_exists'.1 hv
      obtain ⟨a1, e1, g1, g2, -, -⟩ := (loadFactor_spec src q all x a).2.2 hact f hm hf
      have hL : ∀ u, Active all a1 u ↔ Active all a u := by
        intro u
        unfold Active Loaded
        by_cases hu : u = x.flow
        · subst hu
          rw [g1]
          simp only [Option.isSome_some, true_or, true_iff]
          exact hact
        · rw [g2 u hu]
      obtain ⟨a2, e2⟩ := ih a1 (fun y hy ha => by
        obtain ⟨j1, j2⟩ := h y (by simp [hy]) ((hL _).1 ha)
        refine ⟨j1, ?_⟩
        unfold view
        by_cases hu : y.flow = x.flow
        · rw [hu, g1]; simp
        · rw [g2 _ hu]; exact j2)
      refine ⟨a2, ?_⟩
      rw [e1]
      simp only [Out.bind, e2, List.map_cons]
      have ha : (Dict.get? a.flows x.flow).isSome ∨ all = true := hact
      rw [if_pos ha]
      congr 2
      apply List.map_congr_left
      intro y _
      exact if_congr (hL y.flow) rfl rfl
    · rw [(loadFactor_spec src q all x a).1 hact]
      obtain ⟨a2, e2⟩ := ih a (fun y hy ha => h y (by simp [hy]) ha)
      refine ⟨a2, ?_⟩
      simp only [Out.bind, e2, List.map_cons]
      have ha : ¬ ((Dict.get? a.flows x.flow).isSome ∨ all = true) := hact
      rw [if_neg ha]

lemma foldl_stepFlow_cfs (q q' : Q) (xs : List (Fac U)) (f : Flow Q Nm) :
    Dict.get? (xs.foldl (stepFlow q) f).cfs q' =
      if q' = q then xs.foldl step (Dict.get? f.cfs q) else Dict.get? f.cfs q' := by
  induction xs generalizing f with
  | nil => by_cases h : q' = q <;> simp [h]
  | cons x xs ih =>
    rw [List.foldl_cons, ih]
    by_cases h : q' = q
    · rw [if_pos h, if_pos h, List.foldl_cons, stepFlow_cfs, if_pos rfl]
    · rw [if_neg h, if_neg h, stepFlow_cfs, if_neg h]

lemma foldl_step_some (xs : List (Fac U)) (hm : ∀ x ∈ xs, x.mean ≠ none) (d : Dict String ℚ) :
    ∃ d', xs.foldl step (some d) = some d' ∧ Dict.get? d' "GLO" = Dict.get? d "GLO" ∧
      ∀ l, l ≠ "GLO" → l ≠ "" →
        Dict.get? d' l = (Dict.get? d l).or ((xs.find? fun x => decide (x.loc = l)).bind (·.mean)) := by
  induction xs generalizing d with
  | nil => exact ⟨d, rfl, rfl, by simp⟩
  | cons x xs ih =>
    obtain ⟨v, hv⟩ := Option.ne_none_iff_exists'.1 (hm x (by simp))
    by_cases hc : Glob x ∨ (Dict.get? d x.loc).isSome
    · obtain ⟨d', e, g, r⟩ := ih (fun y hy => hm y (by simp [hy])) d
      refine ⟨d', by simp [step, hv, hc, e], g, ?_⟩
      intro l h1 h2
      rw [r l h1 h2]
      by_cases hl : x.loc = l
      · subst hl
        have hs : (Dict.get? d x.loc).isSome := by
          rcases hc with h | h
          · rcases h with h | h
            · exact absurd h h1
            · exact absurd h h2
          · exact h
        obtain ⟨w, hw⟩ := Option.isSome_iff_exists.1 hs
        rw [hw]; simp
      · rw [List.find?_cons_of_neg (by simpa using hl)]
    · obtain ⟨d', e, g, r⟩ := ih (fun y hy => hm y (by simp [hy])) (Dict.set d x.loc v)
      have hng : x.loc ≠ "GLO" := fun h => hc (Or.inl (Or.inl h))
      refine ⟨d', by simp [step, hv, hc, e], by rw [g, Dict.get?_set_ne _ _ hng], ?_⟩
      intro l h1 h2
      rw [r l h1 h2]
      by_cases hl : x.loc = l
      · subst hl
        have hn : Dict.get? d x.loc = none := by
          cases h : Dict.get? d x.loc with
          | none => rfl
          | some w => exact absurd (Or.inr (by simp [h])) hc
        rw [Dict.get?_set_self, List.find?_cons_of_pos (by simp), hn]
        simp [hv]
      · rw [Dict.get?_set_ne _ _ hl, List.find?_cons_of_neg (by simpa using hl)]

lemma foldl_step_none (xs : List (Fac U)) (hm : ∀ x ∈ xs, x.mean ≠ none) :
    ((xs.foldl step none).bind fun d => Dict.get? d "GLO") =
      (xs.head?.bind fun x => if Glob x then x.mean else none) ∧
    ∀ l, l ≠ "GLO" → l ≠ "" → ((xs.foldl step none).bind fun d => Dict.get? d l) =
      (xs.find? fun x => decide (x.loc = l)).bind (·.mean) := by
  cases xs with
  | nil => simp
  | cons x xs =>
    obtain ⟨v, hv⟩ := Option.ne_none_iff_exists'.1 (hm x (by simp))
    obtain ⟨d', e, g, r⟩ := foldl_step_some xs (fun y hy => hm y (by simp [hy]))
      (Dict.set [] (if x.loc = "" then "GLO" else x.loc) v)
    have hs : step none x = some (Dict.set [] (if x.loc = "" then "GLO" else x.loc) v) := by simp [step, hv]
    rw [List.foldl_cons, hs, e]
    constructor
    · simp only [Option.bind_some, List.head?_cons, g]
      by_cases hg : Glob x
      · have : (if x.loc = "" then "GLO" else x.loc) = "GLO" := by
          rcases hg with h | h <;> simp [h]
        rw [this, Dict.get?_set_self, if_pos hg, hv]
      · have h0 : x.loc ≠ "" := fun h => hg (Or.inr h)
        rw [if_neg h0, Dict.get?_set_ne _ _ (fun h => hg (Or.inl h)), if_neg hg]; rfl
    · intro l h1 h2
      simp only [Option.bind_some]
      rw [r l h1 h2]
      by_cases hl : x.loc = l
      · subst hl
        rw [if_neg h2, Dict.get?_set_self, List.find?_cons_of_pos (by simp)]; simp [hv]
      · rw [List.find?_cons_of_neg (by simpa using hl)]
        have : (if x.loc = "" then "GLO" else x.loc) ≠ l := by
          split
          · exact fun h => h1 h.symm
          · exact hl
        rw [Dict.get?_set_ne _ _ this]; rfl

lemma mem_ofFlow (xs : List (Fac U)) (u : U) (x : Fac U) : x ∈ ofFlow xs u ↔ x ∈ xs ∧ x.flow = u := by
  simp [ofFlow]

/-! ### C188 -/

lemma createQty_flows (q : Q) (a : Arch U Q Nm) : (createQty q a).flows = a.flows := by
  unfold createQty; split <;> rfl

lemma createQty_qtys (q q' : Q) (a : Arch U Q Nm) : q' ∈ (createQty q a).qtys ↔ q' ∈ a.qtys ∨ q' = q := by
  unfold createQty
  split
  · rename_i h
    constructor
    · exact Or.inl
    · rintro (h' | rfl)
      · exact h'
      · exact h
  · simp

lemma loadMethod_some (src : U → Option (Flow Q Nm)) (file : Q → List (Fac U)) (q : Q) (all : Bool) (a a' : Arch U Q Nm)
    (h : loadMethod src file q (some all) a = .ok () a') : ∃ l, loadFactors src q all (file q) (createQty q a) = .ok l a' := by
  unfold loadMethod at h
  simp only at h
  cases h1 : loadFactors src q all (file q) (createQty q a) with
  | err e b => rw [h1] at h; cases h
  | ok l b => rw [h1] at h; simp only [Out.bind, Out.ok.injEq, true_and] at h; subst h; exact ⟨l, rfl⟩

/-- **C188**: `load_lcia_method` returns exactly when each factor of the file, for flows that are loaded (for all flows, with
`load_all_flows`), is a number and its flow is there or can be read. -/
theorem load_method_returns (src : U → Option (Flow Q Nm)) (file : Q → List (Fac U)) (q : Q) (all : Bool) (a : Arch U Q Nm) :
    (∃ a', loadMethod src file q (some all) a = .ok () a') ↔
      ∀ x ∈ file q, Loaded a x.flow ∨ all = true → x.mean ≠ none ∧ (Loaded a x.flow ∨ src x.flow ≠ none) := by
  have hv : ∀ u, view src (createQty q a) u ≠ none ↔ (Loaded a u ∨ src u ≠ none) := by
    intro u
    unfold view Loaded
    rw [createQty_flows]
    cases Dict.get? a.flows u <;> simp
  have ha : ∀ u, Active all (createQty q a) u ↔ (Loaded a u ∨ all = true) := by
    intro u; unfold Active Loaded; rw [createQty_flows]
  constructor
  · rintro ⟨a', h⟩ x hx hact
    obtain ⟨l, hl⟩ := loadMethod_some src file q all a a' h
    have := (loadFactors_ok src q all (file q) _ a' l hl).2.2.2 x hx ((ha _).2 hact)
    exact ⟨this.1, (hv _).1 this.2⟩
  · intro h
    obtain ⟨a', e⟩ := loadFactors_returns src q all (file q) (createQty q a) (fun x hx hact => by
      obtain ⟨h1, h2⟩ := h x hx ((ha _).1 hact)
      exact ⟨h1, (hv _).2 h2⟩)
    exact ⟨a', by simp only [loadMethod, e, Out.bind]⟩

/-- what the values of a flow for a quantity must be: for each location the first value of the file; a global value only if the
first factor of the flow is global -/
def Right (src : U → Option (Flow Q Nm)) (file : Q → List (Fac U)) (q : Q) (a : Arch U Q Nm) : Prop :=
  ∀ u, Loaded a u →
    (∀ l, l ≠ "GLO" → l ≠ "" → stored a u q l = ((ofFlow (file q) u).find? fun x => decide (x.loc = l)).bind (·.mean)) ∧
    stored a u q "GLO" = (ofFlow (file q) u).head?.bind fun x => if Glob x then x.mean else none

/-- **C188**: the values after `load_lcia_method`. For a location that is not global, the value stored is the first one the file has
for the flow. The global value is stored only when the first factor of the flow in the file is global. Flows are added exactly with
`load_all_flows`, for the factors of the file; factors for other quantities are unchanged. -/
theorem load_method_values (src : U → Option (Flow Q Nm)) (file : Q → List (Fac U)) (q : Q) (all : Bool) (a a' : Arch U Q Nm)
    (hf : Fresh src a q) (h : loadMethod src file q (some all) a = .ok () a') :
    Right src file q a' ∧
    (∀ u, Loaded a' u ↔ Loaded a u ∨ all = true ∧ u ∈ (file q).map (·.flow)) ∧
    (∀ u q' l, Loaded a u → q' ≠ q → stored a' u q' l = stored a u q' l) := by
  obtain ⟨l, hl⟩ := loadMethod_some src file q all a a' h
  obtain ⟨i1, i2, i3, i4⟩ := loadFactors_ok src q all (file q) _ a' l hl
  have hLc : ∀ u, Loaded (createQty q a) u ↔ Loaded a u := by intro u; unfold Loaded; rw [createQty_flows]
  refine ⟨?_, fun u => by rw [i1, hLc], ?_⟩
  · intro u hu
    obtain ⟨f, hf'⟩ := Option.isSome_iff_exists.1 hu
    obtain ⟨g, hg, e⟩ := i2 u f hf'
    have hgq : Dict.get? g.cfs q = none := by
      unfold view at hg
      rw [createQty_flows] at hg
      cases h1 : Dict.get? a.flows u with
      | some g' => rw [h1] at hg; simp only [Option.some_or, Option.some.injEq] at hg; subst hg; exact hf.1 u g' h1
      | none => rw [h1] at hg; simp only [Option.none_or] at hg; exact hf.2 u g hg
    have hst : ∀ m, stored a' u q m = ((ofFlow (file q) u).foldl step none).bind fun d => Dict.get? d m := by
      intro m
      unfold stored
      rw [hf']
      simp only [Option.bind_some]
      rw [e, foldl_stepFlow_cfs, if_pos rfl, hgq]
    have hmean : ∀ x ∈ ofFlow (file q) u, x.mean ≠ none := by
      intro x hx
      rw [mem_ofFlow] at hx
      refine (i4 x hx.1 ?_).1
      have := (i1 u).1 hu
      rw [hx.2]
      rcases this with h | h
      · exact Or.inl h
      · exact Or.inr h.1
    obtain ⟨s1, s2⟩ := foldl_step_none _ hmean
    exact ⟨fun m h1 h2 => by rw [hst, s2 m h1 h2], by rw [hst, s1]⟩
  · intro u q' m hu hq
    obtain ⟨g, hg⟩ := Option.isSome_iff_exists.1 hu
    have hu' : Loaded a' u := (i1 u).2 (Or.inl ((hLc u).2 hu))
    obtain ⟨f, hf'⟩ := Option.isSome_iff_exists.1 hu'
    obtain ⟨g', hg', e⟩ := i2 u f hf'
    have : g' = g := by
      unfold view at hg'; rw [createQty_flows, hg] at hg'; simpa using hg'.symm
    subst this
    unfold stored
    rw [hf', hg]
    simp only [Option.bind_some]
    rw [e, foldl_stepFlow_cfs, if_neg hq]

/-- **C188**: a flow for which the file has no factors for locations has its first factor as the global one: it is what `cf` gives,
for every location. -/
theorem global_factor_partial (src : U → Option (Flow Q Nm)) (file : Q → List (Fac U)) (q : Q) (all : Bool) (a a' : Arch U Q Nm)
    (hf : Fresh src a q) (h : loadMethod src file q (some all) a = .ok () a') (u : U) (hu : Loaded a' u) (x : Fac U)
    (xs : List (Fac U)) (hx : ofFlow (file q) u = x :: xs) (hg : ∀ y ∈ x :: xs, Glob y) (l : String) (hl : l ≠ "") :
    ∃ v, x.mean = some v ∧ cf a' u q l = v := by
  obtain ⟨h1, h2, -⟩ := load_method_values src file q all a a' hf h
  obtain ⟨k1, k2⟩ := h1 u hu
  rw [hx] at k1 k2
  simp only [List.head?_cons, Option.bind_some, if_pos (hg x (by simp))] at k2
  have hm : x.mean ≠ none := by
    have hxm : x ∈ ofFlow (file q) u := by rw [hx]; simp
    rw [mem_ofFlow] at hxm
    have := (load_method_returns src file q all a).1 ⟨a', h⟩ x hxm.1
    refine (this ?_).1
    rw [hxm.2]
    rcases (h2 u).1 hu with h | h
    · exact Or.inl h
    · exact Or.inr h.1
  obtain ⟨v, hv⟩ := Option.ne_none_iff_exists'.1 hm
  refine ⟨v, hv, ?_⟩
  have hloc : l ≠ "GLO" → stored a' u q l = none := by
    intro hl'
    rw [k1 l hl' hl]
    have : (x :: xs).find? (fun x => decide (x.loc = l)) = none := by
      rw [List.find?_eq_none]
      intro y hy
      simp only [decide_eq_true_eq]
      rcases hg y hy with h | h
      · rw [h]; exact fun h => hl' h.symm
      · rw [h]; exact fun h => hl h.symm
    rw [this]; rfl
  rw [hv] at k2
  unfold stored at k2 hloc
  unfold cf
  cases hd : (Dict.get? a'.flows u).bind fun f => Dict.get? f.cfs q with
  | none => rw [hd] at k2; cases k2
  | some d =>
    rw [hd] at k2 hloc
    simp only [Option.bind_some] at k2 hloc
    simp only
    by_cases hl' : l = "GLO"
    · subst hl'; rw [k2]
    · rw [hloc hl', k2]; rfl

/-- **C188**: a global factor that follows a factor for a location is lost: `cf` gives zero for the world, and for every location
without a factor of its own, whatever the file says. -/
theorem global_factor_lost (src : U → Option (Flow Q Nm)) (file : Q → List (Fac U)) (q : Q) (all : Bool) (a a' : Arch U Q Nm)
    (hf : Fresh src a q) (h : loadMethod src file q (some all) a = .ok () a') (u : U) (hu : Loaded a' u) (x : Fac U)
    (xs : List (Fac U)) (hx : ofFlow (file q) u = x :: xs) (hg : ¬ Glob x) (l : String) (hl0 : l ≠ "")
    (hl : ∀ y ∈ x :: xs, y.loc = l → Glob y) : cf a' u q l = 0 := by
  obtain ⟨h1, -, -⟩ := load_method_values src file q all a a' hf h
  obtain ⟨k1, k2⟩ := h1 u hu
  rw [hx] at k1 k2
  simp only [List.head?_cons, Option.bind_some, if_neg hg] at k2
  have hloc : l ≠ "GLO" → stored a' u q l = none := by
    intro hl'
    rw [k1 l hl' hl0]
    have : (x :: xs).find? (fun x => decide (x.loc = l)) = none := by
      rw [List.find?_eq_none]
      intro y hy
      simp only [decide_eq_true_eq]
      intro hyl
      rcases hl y hy hyl with h | h
      · exact hl' (hyl.symm.trans h)
      · exact hl0 (hyl.symm.trans h)
    rw [this]; rfl
  unfold stored at k2 hloc
  unfold cf
  cases hd : (Dict.get? a'.flows u).bind fun f => Dict.get? f.cfs q with
  | none => rfl
  | some d =>
    rw [hd] at k2 hloc
    simp only [Option.bind_some] at k2 hloc
    simp only
    by_cases hl' : l = "GLO"
    · subst hl'; rw [k2]; rfl
    · rw [hloc hl', k2]; rfl

/-! ### Loading again -/

lemma hasChar_iff (f : Flow Q Nm) (q : Q) (loc : String) :
    hasChar f q loc = true ↔ ∃ d, Dict.get? f.cfs q = some d ∧ (loc = "GLO" ∨ loc = "" ∨ (Dict.get? d loc).isSome) := by
  unfold hasChar
  cases Dict.get? f.cfs q with
  | none => simp
  | some d =>
    simp only [Option.some.injEq, exists_eq_left']
    split
    · rename_i h; simp only [true_iff]; rw [← or_assoc]; exact Or.inl h
    · rename_i h; rw [← or_assoc]; simp [h, Dict.has]

lemma hasChar_step (q : Q) (f : Flow Q Nm) (x : Fac U) (loc : String) (h : hasChar f q loc = true) :
    hasChar (stepFlow q f x) q loc = true := by
  rw [hasChar_iff] at h ⊢
  obtain ⟨d, hd, hl⟩ := h
  have := stepFlow_cfs q q f x
  rw [if_pos rfl, hd] at this
  cases hm : x.mean with
  | none => exact ⟨d, by rw [this]; simp [step, hm], hl⟩
  | some v =>
    by_cases hc : Glob x ∨ (Dict.get? d x.loc).isSome
    · exact ⟨d, by rw [this]; simp [step, hm, hc], hl⟩
    · refine ⟨Dict.set d x.loc v, by rw [this]; simp [step, hm, hc], ?_⟩
      rcases hl with h | h | h
      · exact Or.inl h
      · exact Or.inr (Or.inl h)
      · right; right
        rw [Dict.get?_set]
        split
        · rfl
        · exact h

lemma hasChar_self (q : Q) (f : Flow Q Nm) (x : Fac U) (hm : x.mean ≠ none) : hasChar (stepFlow q f x) q x.loc = true := by
  obtain ⟨v, hv⟩ := Option.ne_none_iff_exists'.1 hm
  rw [hasChar_iff]
  have := stepFlow_cfs q q f x
  rw [if_pos rfl] at this
  cases hd : Dict.get? f.cfs q with
  | none =>
    refine ⟨Dict.set [] (if x.loc = "" then "GLO" else x.loc) v, by rw [this, hd]; simp [step, hv], ?_⟩
    by_cases h : x.loc = ""
    · exact Or.inr (Or.inl h)
    · right; right; rw [if_neg h, Dict.get?_set_self]; rfl
  | some d =>
    by_cases hc : Glob x ∨ (Dict.get? d x.loc).isSome
    · refine ⟨d, by rw [this, hd]; simp [step, hv, hc], ?_⟩
      rcases hc with (h | h) | h
      · exact Or.inl h
      · exact Or.inr (Or.inl h)
      · exact Or.inr (Or.inr h)
    · refine ⟨Dict.set d x.loc v, by rw [this, hd]; simp [step, hv, hc], ?_⟩
      right; right; rw [Dict.get?_set_self]; rfl

lemma hasChar_foldl (q : Q) (xs : List (Fac U)) (f : Flow Q Nm) (loc : String) (h : hasChar f q loc = true) :
    hasChar (xs.foldl (stepFlow q) f) q loc = true := by
  induction xs generalizing f with
  | nil => exact h
  | cons x xs ih => exact ih _ (hasChar_step q f x loc h)

lemma hasChar_foldl_mem (q : Q) (xs : List (Fac U)) (f : Flow Q Nm) (x : Fac U) (hx : x ∈ xs) (hm : x.mean ≠ none) :
    hasChar (xs.foldl (stepFlow q) f) q x.loc = true := by
  induction xs generalizing f with
  | nil => cases hx
  | cons y xs ih =>
    rw [List.foldl_cons]
    rcases List.mem_cons.1 hx with rfl | hx
    · exact hasChar_foldl q xs _ _ (hasChar_self q f x hm)
    · exact ih _ hx

lemma loadFactors_id (src : U → Option (Flow Q Nm)) (q : Q) (all : Bool) (xs : List (Fac U)) (a : Arch U Q Nm)
    (h : ∀ x ∈ xs, Active all a x.flow → x.mean ≠ none ∧ ∃ f, Dict.get? a.flows x.flow = some f ∧ hasChar f q x.loc = true) :
    ∃ l, loadFactors src q all xs a = .ok l a := by
  induction xs with
  | nil => exact ⟨[], rfl⟩
  | cons x xs ih =>
    obtain ⟨l, hl⟩ := ih (fun y hy => h y (by simp [hy]))
    rw [loadFactors]
    by_cases hact : Active all a x.flow
    · obtain ⟨hm, f, hf, hh⟩ := h x (by simp) hact
      obtain ⟨a1, e1, -, -, -, g⟩ := (loadFactor_spec src q all x a).2.2 hact f hm (by simp [view, hf])
      have := g (by simp [Loaded, hf]) hh
      subst this
      rw [e1]
      simp only [Out.bind, hl]
      exact ⟨_, rfl⟩
    · rw [(loadFactor_spec src q all x a).1 hact]
      simp only [Out.bind, hl]
      exact ⟨_, rfl⟩

/-- **C188**: loading a method again changes nothing. -/
theorem load_method_again (src : U → Option (Flow Q Nm)) (file : Q → List (Fac U)) (q : Q) (all : Bool) (a a' : Arch U Q Nm)
    (h : loadMethod src file q (some all) a = .ok () a') : loadMethod src file q (some all) a' = .ok () a' := by
  obtain ⟨l, hl⟩ := loadMethod_some src file q all a a' h
  obtain ⟨i1, i2, i3, i4⟩ := loadFactors_ok src q all (file q) _ a' l hl
  have hq : createQty q a' = a' := by
    unfold createQty
    rw [if_pos]
    rw [i3, createQty_qtys]; exact Or.inr rfl
  obtain ⟨l', hl'⟩ := loadFactors_id src q all (file q) a' (by
    intro x hx hact
    have hact0 : Active all (createQty q a) x.flow := by
      rcases hact with h | h
      · rcases (i1 _).1 h with h' | h'
        · exact Or.inl h'
        · exact Or.inr h'.1
      · exact Or.inr h
    obtain ⟨hm, hv⟩ := i4 x hx hact0
    refine ⟨hm, ?_⟩
    have hL : Loaded a' x.flow := by
      rw [i1]
      rcases hact0 with h | h
      · exact Or.inl h
      · exact Or.inr ⟨h, List.mem_map_of_mem hx⟩
    obtain ⟨f, hf⟩ := Option.isSome_iff_exists.1 hL
    obtain ⟨g, hg, e⟩ := i2 _ f hf
    refine ⟨f, hf, ?_⟩
    rw [e]
    exact hasChar_foldl_mem q _ g x ((mem_ofFlow _ _ _).2 ⟨hx, rfl⟩) hm)
  simp only [loadMethod, hq, hl', Out.bind]

/-! ### C189: the methods of an archive, and queries -/

lemma loadLcia_frame (src : U → Option (Flow Q Nm)) (file : Q → List (Fac U)) (all : Option Bool) (qs : List Q)
    (a a' : Arch U Q Nm) (h : loadLcia src file all qs a = .ok () a') (q : Q) (hq : q ∉ qs ∨ q ∈ a.qtys) :
    (∀ u, Loaded a u → Loaded a' u) ∧ (∀ u l, Loaded a u → stored a' u q l = stored a u q l) ∧
    (∀ q', q' ∈ a.qtys → q' ∈ a'.qtys) := by
  induction qs generalizing a with
  | nil =>
    simp only [loadLcia, Out.ok.injEq, true_and] at h
    subst h
    exact ⟨fun _ h => h, fun _ _ _ => rfl, fun _ h => h⟩
  | cons p qs ih =>
    rw [loadLcia] at h
    by_cases hp : p ∈ a.qtys
    · rw [if_pos hp] at h
      refine ih a h ?_
      rcases hq with h | h
      · exact Or.inl (fun h' => h (by simp [h']))
      · exact Or.inr h
    · rw [if_neg hp] at h
      have hqp : q ≠ p := by
        rintro rfl
        rcases hq with h | h
        · exact h (by simp)
        · exact hp h
      cases h1 : loadMethod src file p all a with
      | err e b => rw [h1] at h; cases h
      | ok u b =>
        rw [h1] at h
        simp only [Out.bind] at h
        have hb : (∀ u, Loaded a u → Loaded b u) ∧ (∀ u l, Loaded a u → stored b u q l = stored a u q l) ∧
            (∀ q', q' ∈ a.qtys → q' ∈ b.qtys) := by
          cases all with
          | none =>
            simp only [loadMethod, Out.ok.injEq, true_and] at h1
            subst h1
            refine ⟨?_, ?_, ?_⟩
            · intro u hu; unfold Loaded; rw [createQty_flows]; exact hu
            · intro u l _; unfold stored; rw [createQty_flows]
            · intro q' hq'; rw [createQty_qtys]; exact Or.inl hq'
          | some all =>
            obtain ⟨l, hl⟩ := loadMethod_some src file p all a b h1
            obtain ⟨i1, i2, i3, i4⟩ := loadFactors_ok src p all (file p) _ b l hl
            refine ⟨?_, ?_, ?_⟩
            · intro u hu
              rw [i1]
              left
              unfold Loaded; rw [createQty_flows]; exact hu
            · intro u m hu
              obtain ⟨g, hg⟩ := Option.isSome_iff_exists.1 hu
              have hLb : Loaded b u := by rw [i1]; left; unfold Loaded; rw [createQty_flows]; exact hu
              obtain ⟨f, hf⟩ := Option.isSome_iff_exists.1 hLb
              obtain ⟨g', hg', e⟩ := i2 u f hf
              have : g' = g := by
                unfold view at hg'; rw [createQty_flows, hg] at hg'; simpa using hg'.symm
              subst this
              unfold stored
              rw [hf, hg]
              simp only [Option.bind_some]
              rw [e, foldl_stepFlow_cfs, if_neg hqp]
            · intro q' hq'
              rw [i3, createQty_qtys]; exact Or.inl hq'
        obtain ⟨b1, b2, b3⟩ := hb
        obtain ⟨c1, c2, c3⟩ := ih b h (by
          rcases hq with h | h
          · exact Or.inl (fun h' => h (by simp [h']))
          · exact Or.inr (b3 q h))
        exact ⟨fun u hu => c1 u (b1 u hu), fun u l hu => by rw [c2 u l (b1 u hu), b2 u l hu], fun q' hq' => c3 q' (b3 q' hq')⟩

/-- **C189**: `load_lcia` does nothing for a method that is already in the archive, even if it was read without its factors (as
`get` and `load_all_flows=None` do): the values for this method stay as they were. -/
theorem load_lcia_skips (src : U → Option (Flow Q Nm)) (file : Q → List (Fac U)) (all : Option Bool) (qs : List Q)
    (a a' : Arch U Q Nm) (h : loadLcia src file all qs a = .ok () a') (q : Q) (hq : q ∈ a.qtys) (u : U) (hu : Loaded a u)
    (l : String) : stored a' u q l = stored a u q l :=
  (loadLcia_frame src file all qs a a' h q (Or.inr hq)).2.1 u l hu

/-- **C189**: after `load_lcia` every method listed is in the archive. For each one that was not, every flow that was in the archive
has the values of the file, as after `load_lcia_method`. -/
theorem load_lcia_values (src : U → Option (Flow Q Nm)) (file : Q → List (Fac U)) (all : Bool) (qs : List Q)
    (a a' : Arch U Q Nm) (h : loadLcia src file (some all) qs a = .ok () a') (q : Q) (hq : q ∈ qs) :
    q ∈ a'.qtys ∧ (q ∉ a.qtys → Fresh src a q → ∀ u, Loaded a u →
      (∀ l, l ≠ "GLO" → l ≠ "" → stored a' u q l = ((ofFlow (file q) u).find? fun x => decide (x.loc = l)).bind (·.mean)) ∧
      stored a' u q "GLO" = (ofFlow (file q) u).head?.bind fun x => if Glob x then x.mean else none) := by
  induction qs generalizing a with
  | nil => cases hq
  | cons p qs ih =>
    rw [loadLcia] at h
    by_cases hp : p ∈ a.qtys
    · rw [if_pos hp] at h
      rcases List.mem_cons.1 hq with rfl | hq
      · exact ⟨(loadLcia_frame src file (some all) qs a a' h q (Or.inr hp)).2.2 q hp, fun h => absurd hp h⟩
      · exact ih a h hq
    · rw [if_neg hp] at h
      cases h1 : loadMethod src file p (some all) a with
      | err e b => rw [h1] at h; cases h
      | ok w b =>
        rw [h1] at h
        simp only [Out.bind] at h
        obtain ⟨l, hl⟩ := loadMethod_some src file p all a b h1
        obtain ⟨i1, i2, i3, i4⟩ := loadFactors_ok src p all (file p) _ b l hl
        have hpb : p ∈ b.qtys := by rw [i3, createQty_qtys]; exact Or.inr rfl
        have hLb : ∀ u, Loaded a u → Loaded b u := by
          intro u hu; rw [i1]; left; unfold Loaded; rw [createQty_flows]; exact hu
        by_cases hqp : q = p
        · subst hqp
          obtain ⟨c1, c2, c3⟩ := loadLcia_frame src file (some all) qs b a' h q (Or.inr hpb)
          refine ⟨c3 q hpb, fun _ hf u hu => ?_⟩
          obtain ⟨R, -, -⟩ := load_method_values src file q all a b hf h1
          obtain ⟨r1, r2⟩ := R u (hLb u hu)
          exact ⟨fun l h1 h2 => by rw [c2 u l (hLb u hu), r1 l h1 h2], by rw [c2 u _ (hLb u hu), r2]⟩
        · have hq' : q ∈ qs := by
            rcases List.mem_cons.1 hq with h | h
            · exact absurd h hqp
            · exact h
          obtain ⟨j1, j2⟩ := ih b h hq'
          refine ⟨j1, fun hna hf u hu => j2 ?_ ?_ u (hLb u hu)⟩
          · rw [i3, createQty_qtys]
            rintro (h | h)
            · exact hna h
            · exact hqp h
          · refine ⟨?_, hf.2⟩
            intro v f hf'
            obtain ⟨g, hg, e⟩ := i2 v f hf'
            rw [e, foldl_stepFlow_cfs, if_neg hqp]
            unfold view at hg
            rw [createQty_flows] at hg
            cases h2 : Dict.get? a.flows v with
            | some g' => rw [h2] at hg; simp only [Option.some_or, Option.some.injEq] at hg; subst hg; exact hf.1 v g' h2
            | none => rw [h2] at hg; simp only [Option.none_or] at hg; exact hf.2 v g hg

/-- **C189**: a query for the factors of a quantity gives one factor for each entry of the file, in order, those whose flow has
the name or CAS number asked for; afterwards all its flows are in the archive, with the values of the file. -/
theorem factors_values (src : U → Option (Flow Q Nm)) (file : Q → List (Fac U)) (q : Q) (flowable : Option Nm) (a a' : Arch U Q Nm)
    (l : List U) (h : factors src file q flowable a = .ok l a') :
    l = ((file q).map (·.flow)).filter (fun u => match flowable with
      | none => true
      | some k => match (Dict.get? a'.flows u) with | some f => decide (f.name = k ∨ f.cas = k) | none => false) ∧
    (∀ x ∈ file q, Loaded a' x.flow) ∧ (Fresh src a q → Right src file q a') := by
  unfold factors at h
  cases h1 : generateFactors src file q a with
  | err e b => rw [h1] at h; cases h
  | ok r b =>
    rw [h1] at h
    simp only [Out.bind, Out.ok.injEq] at h
    obtain ⟨rfl, rfl⟩ := h
    unfold generateFactors at h1
    obtain ⟨i1, i2, i3, i4⟩ := loadFactors_ok src q true (file q) _ b r h1
    obtain ⟨b', e⟩ := loadFactors_returns src q true (file q) (createQty q a) i4
    rw [h1] at e
    simp only [or_true, if_true, Out.ok.injEq] at e
    obtain ⟨e, -⟩ := e
    refine ⟨?_, ?_, ?_⟩
    · rw [e]
      have : ((file q).map fun x => some x.flow).filterMap id = (file q).map (·.flow) := by
        rw [List.filterMap_map]; exact List.filterMap_eq_map (f := fun x : Fac U => x.flow) ▸ rfl
      rw [this]
      apply List.filter_congr
      intro u _
      cases flowable with
      | none => rfl
      | some k => cases Dict.get? b.flows u <;> rfl
    · intro x hx
      rw [i1]
      exact Or.inr ⟨rfl, List.mem_map_of_mem hx⟩
    · intro hf
      exact (load_method_values src file q true a b hf (by simp only [loadMethod, h1, Out.bind])).1

/-- **C189**: `flowables` lists the CAS number and name of the flows with a factor, each once. -/
theorem flowables_values (src : U → Option (Flow Q Nm)) (file : Q → List (Fac U)) (q : Q) (a a' : Arch U Q Nm)
    (l : List (Nm × Nm)) (h : flowables src file q a = .ok l a') :
    l.Nodup ∧ ∀ c n, (c, n) ∈ l ↔ ∃ x ∈ file q, ∃ f, Dict.get? a'.flows x.flow = some f ∧ f.cas = c ∧ f.name = n := by
  unfold flowables at h
  cases h1 : generateFactors src file q a with
  | err e b => rw [h1] at h; cases h
  | ok r b =>
    rw [h1] at h
    simp only [Out.bind, Out.ok.injEq] at h
    obtain ⟨rfl, rfl⟩ := h
    unfold generateFactors at h1
    obtain ⟨i1, i2, i3, i4⟩ := loadFactors_ok src q true (file q) _ b r h1
    obtain ⟨b', e⟩ := loadFactors_returns src q true (file q) (createQty q a) i4
    rw [h1] at e
    simp only [or_true, if_true, Out.ok.injEq] at e
    obtain ⟨rfl, -⟩ := e
    refine ⟨List.nodup_reverse.2 (List.nodup_dedup _), ?_⟩
    intro c n
    simp only [List.mem_reverse, List.mem_dedup, List.mem_filterMap, List.mem_map, id, Option.map_eq_some_iff, Prod.mk.injEq]
    constructor
    · rintro ⟨u, ⟨o, ⟨x, hx, rfl⟩, hu⟩, f, hf, h2⟩
      cases hu
      exact ⟨x, hx, f, hf, h2⟩
    · rintro ⟨x, hx, f, hf, h2⟩
      exact ⟨x.flow, ⟨some x.flow, ⟨x, hx, rfl⟩, rfl⟩, f, hf, h2⟩

end

/-! ### Examples -/

/-- two flows, one of them in the archive; the file of method 7 has a factor for France before the global one for flow 1 -/
def exSrc : ℕ → Option (Flow ℕ String) := fun u => if u = 1 then some ⟨"CO2", "124-38-9", []⟩ else if u = 2 then some ⟨"CH4", "74-82-8", []⟩ else none

def exFile : ℕ → List (Fac ℕ) := fun q => if q = 7 then [⟨1, some 3, "FR"⟩, ⟨2, some 25, ""⟩, ⟨1, some 1, ""⟩, ⟨1, some 4, "FR"⟩] else []

def exA : Arch ℕ ℕ String := { flows := [(1, ⟨"CO2", "124-38-9", [(0, [("GLO", 1)])]⟩)], qtys := [0] }

example : (loadMethod exSrc exFile 7 (some true) exA).value? = some () ∧
    cf (loadMethod exSrc exFile 7 (some true) exA).state 1 7 "FR" = 3 ∧
    cf (loadMethod exSrc exFile 7 (some true) exA).state 1 7 "GLO" = 0 ∧
    cf (loadMethod exSrc exFile 7 (some true) exA).state 2 7 "DE" = 25 ∧
    cf (loadMethod exSrc exFile 7 (some false) exA).state 2 7 "DE" = 0 ∧
    (loadLcia exSrc exFile (some true) [7, 0] exA).value? = some () := by
  refine ⟨by decide +kernel, by decide +kernel, by decide +kernel, by decide +kernel, by decide +kernel, by decide +kernel⟩

example : Fresh exSrc exA 7 := by
  constructor
  · intro u f h
    simp only [exA, Dict.get?] at h
    by_cases hu : u = 1
    · subst hu; simp at h; subst h; decide
    · simp [Ne.symm hu] at h
  · intro u f h
    unfold exSrc at h
    split at h
    · cases h; rfl
    · split at h
      · cases h; rfl
      · cases h

example : ofFlow (exFile 7) 1 = [⟨1, some 3, "FR"⟩, ⟨1, some 1, ""⟩, ⟨1, some 4, "FR"⟩] ∧ ofFlow (exFile 7) 2 = [⟨2, some 25, ""⟩] := ⟨rfl, rfl⟩

/-- a method read without factors is skipped by `load_lcia` -/
example : cf (loadLcia exSrc exFile (some true) [7] (loadMethod exSrc exFile 7 none exA).state).state 1 7 "FR" = 0 ∧
    cf (loadLcia exSrc exFile (some true) [7] exA).state 1 7 "FR" = 3 := by
  constructor <;> decide +kernel

example : (factors exSrc exFile 7 (some "124-38-9") exA).value? = some [1, 1, 1] ∧
    (flowables exSrc exFile 7 exA).value? = some [("124-38-9", "CO2"), ("74-82-8", "CH4")] := by
  constructor <;> decide +kernel

end Ilm
