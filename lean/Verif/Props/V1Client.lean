import Verif.Model.V1Client
import Verif.Props.Lcia

/-!
LCIA results taken from an Antelope v1 server: of processes (C203), of fragments (C204), names of stages (C205).
-/

set_option linter.unusedSimpArgs false

namespace Av1

open Lcia (Result Detail cumAt)

/-! ### what the server says -/

/-- the amount of a component: the sum over its details, or the cumulative result if it has none -/
def amount (c : CompDoc) : ℚ :=
  match c.detail with
  | [] => c.cumulative
  | ds => (ds.map fun d => d.quantity * d.factor).sum

/-- the thing a component is about -/
inductive About (stgs : List (ℕ × String)) (c : CompDoc) : Ref → Prop
  | process {p : ℕ} : c.processID = some p → About stgs c (.process p)
  | flow {f : ℕ} : c.processID = none → c.fragmentFlowID = some f → About stgs c (.fragmentFlow f)
  | stage {s : ℕ} {n : String} : c.processID = none → c.fragmentFlowID = none → c.fragmentStageID = some s →
      (s, n) ∈ stgs → About stgs c (.stage n)

/-- within 1e-8 of the larger one -/
def Within (a b : ℚ) : Prop := |a - b| ≤ max |a| |b| / 100000000

/-- the value under a key of a result, 0 if there is none -/
def under (r : Res) (k : Ref) : ℚ :=
  match r.scores.get? k with
  | some c => c.cum r.scale
  | none => 0

/-- the sum of the amounts of those that are about `k` -/
def amountOf (k : Ref) : List (Ref × CompDoc) → ℚ
  | [] => 0
  | (k', c) :: l => (if k' = k then amount c else 0) + amountOf k l

theorem isclose_iff (a b : ℚ) : isclose a b = true ↔ Within a b := by
  simp only [isclose, Within, decide_eq_true_eq]
  rw [show (1 / 100000000 : ℚ) * max |a| |b| = max |a| |b| / 100000000 by ring]

/-! ### names of stages -/

theorem pyIndex_mem {α : Type} {l : List α} {n : ℕ} {a : α} (h : pyIndex l n = some a) : a ∈ l := by
  unfold pyIndex at h
  split at h
  · exact List.mem_of_getLast? h
  · exact List.mem_of_getElem? h

theorem stageName_mem {stgs : List (ℕ × String)} {id : ℕ} {n : String} (h : stageName stgs id = .ok n) :
    (id, n) ∈ stgs := by
  unfold stageName at h
  split at h
  · cases h
  · rename_i s hs
    split at h
    · rename_i he
      injection h with h; subst h; rw [← he]; exact pyIndex_mem hs
    · split at h
      · rename_i s' hf
        injection h with h; subst h
        have h1 := List.find?_some hf
        simp only [decide_eq_true_eq] at h1
        rw [← h1]; exact List.mem_of_find?_eq_some hf
      · cases h

theorem pyIndex_isSome {α : Type} (l : List α) (n : ℕ) (hl : l ≠ []) : (pyIndex l n).isSome ↔ n ≤ l.length := by
  unfold pyIndex
  have h0 : 0 < l.length := List.length_pos_iff.mpr hl
  split
  · rename_i h; subst h; simp [hl]
  · simp only [Option.isSome_iff_ne_none, ne_eq, List.getElem?_eq_none_iff, not_le]
    constructor <;> intro h <;> omega

/-- C205: with distinct ids, the name of a stage is found, and is the one listed, exactly if the stage is listed and its id is not
above the number of stages. -/
theorem stageName_iff {stgs : List (ℕ × String)} (hn : (stgs.map Prod.fst).Nodup) (id : ℕ) (n : String) :
    stageName stgs id = .ok n ↔ (id, n) ∈ stgs ∧ id ≤ stgs.length := by
  have huniq : ∀ a b, (id, a) ∈ stgs → (id, b) ∈ stgs → a = b := by
    intro a b ha hb
    have := List.inj_on_of_nodup_map hn ha hb rfl
    exact (Prod.mk.inj this).2
  constructor
  · intro h
    have hm := stageName_mem h
    refine ⟨hm, ?_⟩
    rw [← pyIndex_isSome stgs id (List.ne_nil_of_mem hm)]
    unfold stageName at h
    cases hp : pyIndex stgs id with
    | none => rw [hp] at h; cases h
    | some _ => rfl
  · rintro ⟨hm, hl⟩
    rw [← pyIndex_isSome stgs id (List.ne_nil_of_mem hm)] at hl
    cases hr : stageName stgs id with
    | ok m => rw [huniq m n (stageName_mem hr) hm]
    | error e =>
      exfalso
      unfold stageName at hr
      cases hp : pyIndex stgs id with
      | none => rw [hp] at hl; cases hl
      | some s =>
        simp only [hp] at hr
        split at hr
        · cases hr
        · split at hr
          · cases hr
          · rename_i hf
            rw [List.find?_eq_none] at hf
            exact hf _ hm (by simp)

/-- C205: the name of a listed stage whose id is above the number of stages raises IndexError -/
theorem stageName_above (stgs : List (ℕ × String)) (id : ℕ) (h : stgs.length < id) :
    stageName stgs id = .error .indexError := by
  have : pyIndex stgs id = none := by
    unfold pyIndex
    rw [if_neg (by omega)]
    rw [List.getElem?_eq_none]; omega
  simp [stageName, this]

example : (([(1, "use"), (3, "waste"), (2, "make")] : List (ℕ × String)).map Prod.fst).Nodup ∧
    (stageName [(1, "use"), (3, "waste"), (2, "make")] 3).toOption = some "waste" ∧
    (stageName [(1, "use"), (3, "waste")] 3).toOption = none ∧
    (3, "waste") ∈ [(1, "use"), (3, "waste")] := by decide +kernel

/-! ### one component -/

theorem compEntity_about {scope : ℕ → String} {stgs : List (ℕ × String)} {c : CompDoc} {k : Ref} {loc : String}
    (h : compEntity scope stgs c = .ok (k, loc)) : About stgs c k := by
  unfold compEntity at h
  split at h
  · rename_i p hp; injection h with h; cases h; exact .process hp
  · rename_i hp
    split at h
    · rename_i f hf; injection h with h; cases h; exact .flow hp hf
    · rename_i hf
      split at h
      · rename_i s hs
        split at h
        · rename_i n hn; injection h with h; cases h; exact .stage hp hf hs (stageName_mem hn)
        · cases h
      · cases h

/-- results made here: every component is under its own entity and is the sum of details, or a number of weight 1 -/
structure Good (r : Res) : Prop where
  scale : r.scale = 1
  failed : r.failed = []
  comps : ∀ k c, r.scores.get? k = some c → (∃ ds, c = .agg k ds) ∨ ∃ u, c = .static none k 1 u
  nodup : (Dict.keys r.scores).Nodup

theorem good_empty : Good {} where
  scale := rfl
  failed := rfl
  comps := by intro k c h; cases h
  nodup := List.nodup_nil

theorem under_set {r : Res} (k k' : Ref) (c : Lcia.Comp Ref Ref ℕ) :
    under { r with scores := r.scores.set k c } k' = if k' = k then c.cum r.scale else under r k' := by
  unfold under
  by_cases h : k' = k
  · subst h; simp [Dict.get?_set_self]
  · rw [if_neg h]; simp only; rw [Dict.get?_set_ne _ _ (Ne.symm h)]

theorem good_set {r : Res} (h : Good r) {k : Ref} {c : Lcia.Comp Ref Ref ℕ}
    (hc : (∃ ds, c = .agg k ds) ∨ ∃ u, c = .static none k 1 u) : Good { r with scores := r.scores.set k c } := by
  refine ⟨h.scale, h.failed, ?_, Dict.nodup_keys_set _ _ _ h.nodup⟩
  intro k' c' hg
  by_cases hk : k' = k
  · subst hk; simp only [Dict.get?_set_self] at hg; cases hg; exact hc
  · simp only at hg; rw [Dict.get?_set_ne _ _ (Ne.symm hk)] at hg; exact h.comps _ _ hg

theorem addSummary_good {r r' : Res} (h : Good r) {k : Ref} {u : ℚ} (hr : r.addSummary k k 1 (.num u) = .ok r') :
    Good r' ∧ ∀ k', under r' k' = under r k' + if k' = k then u else 0 := by
  unfold Result.addSummary at hr
  cases hg : r.scores.get? k with
  | none =>
    simp only [hg] at hr
    cases hr
    refine ⟨good_set h (.inr ⟨u, rfl⟩), ?_⟩
    intro k'
    rw [under_set]
    split
    · rename_i hk; subst hk
      simp [under, hg, Lcia.Comp.summary, Lcia.Comp.cum, h.scale]
    · simp
  | some c =>
    rcases h.comps _ _ hg with ⟨ds, rfl⟩ | ⟨u1, rfl⟩
    · simp only [hg] at hr; cases hr
    · simp only [hg, Option.isSome_none, Bool.false_eq_true, if_false, Lcia.sumAdd, if_true] at hr
      cases hr
      refine ⟨good_set h (.inr ⟨u1 + u, rfl⟩), ?_⟩
      intro k'
      rw [under_set]
      split
      · rename_i hk; subst hk
        simp [under, hg, Lcia.Comp.cum, h.scale]
      · simp

theorem addSummary_ok {r : Res} (h : Good r) {k : Ref} {u : ℚ} (hk : ∀ ds, r.scores.get? k ≠ some (.agg k ds)) :
    ∃ r', r.addSummary k k 1 (.num u) = .ok r' := by
  unfold Result.addSummary
  cases hg : r.scores.get? k with
  | none => exact ⟨_, rfl⟩
  | some c =>
    rcases h.comps _ _ hg with ⟨ds, rfl⟩ | ⟨u1, rfl⟩
    · exact absurd hg (hk ds)
    · simp [Lcia.sumAdd]

theorem addComponent_good {r : Res} (h : Good r) (k : Ref) :
    Good (r.addComponent k k) ∧ ∀ k', under (r.addComponent k k) k' = under r k' := by
  unfold Result.addComponent
  split
  · exact ⟨h, fun _ => rfl⟩
  · rename_i hh
    refine ⟨good_set h (.inl ⟨[], rfl⟩), ?_⟩
    intro k'
    rw [under_set]
    split
    · rename_i hk; subst hk
      have : r.scores.get? k' = none := by
        rw [← Dict.not_mem_keys_iff]
        intro hm; exact hh ((Dict.has_iff _ _).mpr hm)
      simp [under, this, Lcia.Comp.cum]
    · rfl

theorem detail_result (d : DetailDoc) (loc : String) :
    (Detail.make d.flow (some d.quantity) d.dir { locs := [(loc, some d.factor)] } loc : Detail ℕ).result 1
      = d.quantity * d.factor := by
  simp [Detail.make, Detail.result, Detail.val, Detail.adjust, Lcia.Factor.at, Lcia.Factor.raw, Dict.has, Dict.get?]

theorem addDetail_good {r r' : Res} (h : Good r) {k : Ref} {loc : String} {d : DetailDoc}
    (hr : addDetail k loc r d = .ok r') :
    Good r' ∧ ∀ k', under r' k' = under r k' + if k' = k then d.quantity * d.factor else 0 := by
  unfold addDetail at hr
  split at hr
  · rename_i r2 hs
    injection hr with hr; subst hr
    obtain ⟨hg, hu⟩ := addComponent_good h k
    unfold Result.addScore at hs
    simp only at hs
    cases hc : (r.addComponent k k).scores.get? k with
    | none => rw [hc] at hs; cases hs
    | some c =>
      rcases hg.comps _ _ hc with ⟨ds, rfl⟩ | ⟨u1, rfl⟩
      · rw [hc] at hs
        simp only [Except.ok.injEq] at hs
        subst hs
        refine ⟨good_set hg (.inl ⟨_, rfl⟩), ?_⟩
        intro k'
        rw [under_set]
        split
        · rename_i hk; subst hk
          rw [← hu]
          simp only [under, hc, Lcia.Comp.cum, hg.scale, List.map_append, List.sum_append, List.map_cons, List.map_nil,
            List.sum_cons, List.sum_nil, add_zero, detail_result]
        · simp [hu]
      · rw [hc] at hs; cases hs
  · cases hr

theorem addDetails_good {k : Ref} {loc : String} (l : List DetailDoc) : ∀ {r r' : Res}, Good r →
    addDetails k loc l r = .ok r' →
    Good r' ∧ ∀ k', under r' k' = under r k' + if k' = k then (l.map fun d => d.quantity * d.factor).sum else 0 := by
  induction l with
  | nil => intro r r' h hr; cases hr; exact ⟨h, by simp⟩
  | cons d l ih =>
    intro r r' h hr
    unfold addDetails at hr
    split at hr
    · rename_i r2 h2
      obtain ⟨hg, hu⟩ := addDetail_good h h2
      obtain ⟨hg', hu'⟩ := ih hg hr
      refine ⟨hg', ?_⟩
      intro k'
      rw [hu', hu]
      split
      · simp; ring
      · simp
    · cases hr

theorem addOne_good {scope : ℕ → String} {stgs : List (ℕ × String)} {r r' : Res} {c : CompDoc} (h : Good r)
    (hr : addComponent scope stgs r c = .ok r') :
    ∃ k, About stgs c k ∧ (c.detail = [] ∨ isProcess k = true) ∧
      Good r' ∧ ∀ k', under r' k' = under r k' + if k' = k then amount c else 0 := by
  unfold addComponent at hr
  split at hr
  · cases hr
  · rename_i k loc hk
    refine ⟨k, compEntity_about hk, ?_⟩
    split at hr
    · rename_i hd
      split at hr
      · rename_i r2 h2
        cases hr
        obtain ⟨hg, hu⟩ := addSummary_good h h2
        refine ⟨.inl hd, hg, ?_⟩
        simpa [amount, hd] using hu
      · cases hr
    · rename_i hd
      cases hp : isProcess k with
      | false => simp [hp] at hr
      | true =>
        simp only [hp, Bool.not_true, Bool.false_eq_true, if_false] at hr
        obtain ⟨hg, hu⟩ := addComponent_good h k
        obtain ⟨hg', hu'⟩ := addDetails_good _ hg hr
        refine ⟨.inr rfl, hg', ?_⟩
        intro k'
        rw [hu', hu]
        have : amount c = (c.detail.map fun d => d.quantity * d.factor).sum := by
          unfold amount
          split
          · rename_i he; exact absurd he hd
          · rfl
        rw [this]

/-- the total is the sum of the values under the keys -/
theorem total_eq {r : Res} (h : Good r) : r.total = ((Dict.keys r.scores).map (under r)).sum := by
  unfold Result.total
  rw [Lcia.totalL_eq_sum]
  simp only [Dict.keys, List.map_map]
  congr 1
  apply List.map_congr_left
  intro p hp
  have := Dict.get?_eq_some_of_mem r.scores h.nodup (k := p.1) (v := p.2) hp
  simp [under, this]

theorem addOne_total {scope : ℕ → String} {stgs : List (ℕ × String)} {r r' : Res} {c : CompDoc} (h : Good r)
    (hr : addComponent scope stgs r c = .ok r') : r'.total = r.total + amount c := by
  have details : ∀ (k : Ref) (loc : String) (l : List DetailDoc) (r r' : Res), Good r → addDetails k loc l r = .ok r' →
      r'.total = r.total + (l.map fun d => d.quantity * d.factor).sum := by
    intro k loc l
    induction l with
    | nil => intro r r' h hr; cases hr; simp
    | cons d l ih =>
      intro r r' h hr
      unfold addDetails at hr
      split at hr
      · rename_i r2 h2
        rw [ih r2 r' (addDetail_good h h2).1 hr]
        unfold addDetail at h2
        split at h2
        · rename_i r3 h3
          injection h2 with h2; subst h2
          have := (Lcia.addScore_total _ _ _ _ _ h3).2.2.1
          rw [h.scale, detail_result] at this
          rw [this]; simp; ring
        · cases h2
      · cases hr
  have hgood := hr
  unfold addComponent at hr
  split at hr
  · cases hr
  · rename_i k loc hk
    split at hr
    · rename_i hd
      split at hr
      · rename_i r2 h2
        cases hr
        obtain ⟨-, -, h3, h4⟩ := Lcia.addSummary_total _ _ _ _ _ _ h2
        rcases h4 with h4 | h4
        · rw [h4.2]; simp [amount, hd, h.scale, Lcia.Score.unit]
        · have := (addSummary_good h h2).1.failed
          rw [h4.1] at this; simp at this
      · cases hr
    · rename_i hd
      cases hp : isProcess k with
      | false => simp [hp] at hr
      | true =>
        simp only [hp, Bool.not_true, Bool.false_eq_true, if_false] at hr
        rw [details _ _ _ _ _ (addComponent_good h k).1 hr, (Lcia.addComponent_total r k k).2.2.1]
        congr 1
        unfold amount
        split
        · rename_i he; exact absurd he hd
        · rfl

theorem addAll_good {scope : ℕ → String} {stgs : List (ℕ × String)} (l : List CompDoc) : ∀ {r r' : Res}, Good r →
    addAll scope stgs l r = .ok r' →
    Good r' ∧ r'.total = r.total + (l.map amount).sum ∧
    ∃ ks : List (Ref × CompDoc), ks.map Prod.snd = l ∧ (∀ p ∈ ks, About stgs p.2 p.1 ∧ (p.2.detail = [] ∨ isProcess p.1 = true)) ∧
      ∀ k, under r' k = under r k + amountOf k ks := by
  induction l with
  | nil => intro r r' h hr; cases hr; exact ⟨h, by simp, [], rfl, by simp, by simp [amountOf]⟩
  | cons c l ih =>
    intro r r' h hr
    unfold addAll at hr
    split at hr
    · rename_i r2 h2
      obtain ⟨k, hk, hd, hg, hu⟩ := addOne_good h h2
      obtain ⟨hg', ht', ks, h1, h2', h3⟩ := ih hg hr
      refine ⟨hg', ?_, (k, c) :: ks, by simp [h1], ?_, ?_⟩
      · rw [ht', addOne_total h h2]; simp; ring
      · intro p hp
        rcases List.mem_cons.mp hp with rfl | hp
        · exact ⟨hk, hd⟩
        · exact h2' p hp
      · intro k'
        rw [h3, hu]
        simp only [amountOf]
        by_cases hkk : k' = k
        · subst hkk; simp; ring
        · simp [hkk, Ne.symm hkk]
    · cases hr

/-! ### processes (C203) -/

/-- C203: what the client returns for a process has the answer's only component as its only one, under the process; its total is
the sum over the details, or the cumulative result if there are none; the server's total is within tolerance of both. -/
theorem lcia_ok {scope : ℕ → String} {stgs : List (ℕ × String)} {p : ℕ} {total : ℚ} {scores : List CompDoc} {r : Res}
    (h : lcia scope stgs p total scores = .ok r) :
    ∃ c, scores = [c] ∧ c.processID = some p ∧ r.total = amount c ∧ r.failed = [] ∧ Within r.total total ∧
      Within c.cumulative total ∧ Dict.keys r.scores = [.process p] ∧ under r (.process p) = amount c := by
  unfold lcia at h
  split at h
  · cases h
  · rename_i c rest
    split at h
    · cases h
    · rename_i hrest
      have hrest : rest = [] := by simpa using hrest
      subst hrest
      cases hc : isclose c.cumulative total with
      | false => simp [hc] at h
      | true =>
        simp only [hc, Bool.not_true, Bool.false_eq_true, if_false] at h
        cases hq : c.processID with
        | none => simp [hq] at h
        | some q =>
          simp only [hq] at h
          split at h
          · cases h
          · rename_i hqp
            have hqp : q = p := by simpa using hqp
            subst hqp
            split at h
            · cases h
            · rename_i r2 h2
              split at h
              · rename_i hcl
                injection h with h; subst h
                obtain ⟨k, hk, -, hg, hu⟩ := addOne_good good_empty h2
                have ht := addOne_total good_empty h2
                have hk' : k = .process q := by
                  cases hk with
                  | process h1 => rw [hq] at h1; cases h1; rfl
                  | flow h1 _ => rw [hq] at h1; cases h1
                  | stage h1 _ _ _ => rw [hq] at h1; cases h1
                subst hk'
                have h0 : (({} : Res)).total = 0 := by simp [Result.total, Lcia.totalL]
                have hkeys : Dict.keys r2.scores = [.process q] := by
                  have hent : compEntity scope stgs c = .ok (.process q, scope q) := by simp [compEntity, hq]
                  unfold addComponent at h2
                  simp only [hent, isProcess, Bool.not_true, Bool.false_eq_true, if_false] at h2
                  have hset : ∀ (r : Res) (v : Lcia.Comp Ref Ref ℕ), Dict.keys r.scores = [.process q] →
                      Dict.keys (r.scores.set (.process q) v) = [.process q] := by
                    intro r v hr
                    rw [Dict.keys_set_of_mem _ _ (by rw [hr]; simp), hr]
                  have hdet : ∀ (l : List DetailDoc) (r r' : Res), Dict.keys r.scores = [.process q] →
                      addDetails (.process q) (scope q) l r = .ok r' → Dict.keys r'.scores = [.process q] := by
                    intro l
                    induction l with
                    | nil => intro r r' hr h; cases h; exact hr
                    | cons d l ih =>
                      intro r r' hr h
                      unfold addDetails at h
                      split at h
                      · rename_i r3 h3
                        refine ih _ _ ?_ h
                        unfold addDetail at h3
                        split at h3
                        · rename_i r4 h4
                          injection h3 with h3; subst h3
                          have hac : r.addComponent (.process q) (.process q) = r := by
                            unfold Result.addComponent
                            rw [if_pos ((Dict.has_iff _ _).mpr (by rw [hr]; simp))]
                          unfold Result.addScore at h4
                          simp only [hac] at h4
                          split at h4
                          · injection h4 with h4; subst h4; exact hset _ _ hr
                          · cases h4
                        · cases h3
                      · cases h
                  split at h2
                  · split at h2
                    · rename_i r3 h3
                      injection h2 with h2; subst h2
                      simp [Result.addSummary, Dict.get?] at h3
                      subst h3
                      simp [Dict.set, Dict.keys]
                    · cases h2
                  · refine hdet _ _ _ ?_ h2
                    simp [Result.addComponent, Dict.has, Dict.set, Dict.keys, Dict.get?]
                refine ⟨c, rfl, hq, by rw [ht, h0, zero_add], hg.failed, (isclose_iff _ _).mp hcl, (isclose_iff _ _).mp hc, hkeys, ?_⟩
                rw [hu]; simp [under, Dict.get?]
              · cases h

/-- C203: an answer with several components, about another process, or whose total is off, raises. -/
theorem lcia_raises (scope : ℕ → String) (stgs : List (ℕ × String)) (p : ℕ) (total : ℚ) (scores : List CompDoc)
    (h : scores.length ≠ 1 ∨ (∃ c ∈ scores, c.processID ≠ some p) ∨ ∃ c ∈ scores, ¬ Within (amount c) total) :
    ∃ e, lcia scope stgs p total scores = .error e := by
  cases hr : lcia scope stgs p total scores with
  | error e => exact ⟨e, rfl⟩
  | ok r =>
    exfalso
    obtain ⟨c, rfl, h1, h2, -, h3, -⟩ := lcia_ok hr
    rcases h with h | ⟨c', hc, h⟩ | ⟨c', hc, h⟩
    · simp at h
    · simp only [List.mem_singleton] at hc; subst hc; exact h h1
    · simp only [List.mem_singleton] at hc; subst hc; rw [h2] at h3; exact h h3

/-- C203: a summary of the process with the server's total is accepted. -/
theorem lcia_accepts (scope : ℕ → String) (stgs : List (ℕ × String)) (p : ℕ) (total : ℚ) :
    ∃ r, lcia scope stgs p total [{ processID := some p, cumulative := total }] = .ok r := by
  have h0 : isclose total total = true := by simp [isclose]
  simp [lcia, addComponent, compEntity, Result.addSummary, Dict.get?, h0, Result.total, Dict.set, Lcia.totalL, Lcia.totalP,
    Lcia.Comp.summary, Lcia.Comp.cum]

/-- answers for the process 7: details that add up to the total, and that do not -/
def exAnswer : CompDoc := { processID := some 7, cumulative := 6, detail := [⟨1, .output, 2, 2⟩, ⟨2, .output, 1, 2⟩] }
def exWrong : CompDoc := { processID := some 7, cumulative := 6, detail := [⟨1, .output, 2, 2⟩, ⟨2, .output, 1, 1⟩] }

example : (lcia (fun _ => "US") [] 7 6 [exAnswer]).toOption.map (fun r => (r.total, under r (.process 7))) = some (6, 6) ∧
    (lcia (fun _ => "US") [] 7 6 [exWrong]).toOption.map (fun r => r.total) = none := by decide +kernel

/-! ### fragments (C204) -/

/-- C204: what the client returns for a fragment adds up every component of the answer under the thing it is about, nothing is
lost, and the total is the sum of all amounts, within tolerance of the server's. -/
theorem fragmentLcia_ok {scope : ℕ → String} {stgs : List (ℕ × String)} {total : ℚ} {scores : List CompDoc} {r : Res}
    (h : fragmentLcia scope stgs (some (total, scores)) = .ok r) :
    r.total = (scores.map amount).sum ∧ r.failed = [] ∧ Within r.total total ∧
    ∃ ks : List (Ref × CompDoc), ks.map Prod.snd = scores ∧
      (∀ p ∈ ks, About stgs p.2 p.1 ∧ (p.2.detail ≠ [] → ∃ n, p.1 = .process n)) ∧ ∀ k, under r k = amountOf k ks := by
  unfold fragmentLcia at h
  simp only at h
  split at h
  · cases h
  · rename_i r2 h2
    split at h
    · rename_i hc
      injection h with h; subst h
      obtain ⟨hg, ht, ks, h1, h3, h4⟩ := addAll_good _ good_empty h2
      refine ⟨by rw [ht]; simp [Result.total, Lcia.totalL], hg.failed, (isclose_iff _ _).mp hc, ks, h1, ?_, ?_⟩
      · intro p hp
        refine ⟨(h3 p hp).1, fun hd => ?_⟩
        rcases (h3 p hp).2 with h5 | h5
        · exact absurd h5 hd
        · cases hk : p.1 with
          | process n => exact ⟨n, rfl⟩
          | fragmentFlow n => rw [hk] at h5; cases h5
          | stage n => rw [hk] at h5; cases h5
      · intro k; rw [h4]; simp [under, Dict.get?]
    · cases h

/-- C204: with distinct stage ids, what a component is about is determined, so the keys above are. -/
theorem about_unique {stgs : List (ℕ × String)} (hn : (stgs.map Prod.fst).Nodup) {c : CompDoc} {k k' : Ref}
    (h : About stgs c k) (h' : About stgs c k') : k = k' := by
  cases h with
  | process h1 =>
    cases h' with
    | process h2 => rw [h1] at h2; cases h2; rfl
    | flow h2 _ => rw [h1] at h2; cases h2
    | stage h2 _ _ _ => rw [h1] at h2; cases h2
  | flow h1 h1' =>
    cases h' with
    | process h2 => rw [h1] at h2; cases h2
    | flow _ h2 => rw [h1'] at h2; cases h2; rfl
    | stage _ h2 _ _ => rw [h1'] at h2; cases h2
  | stage h1 h1' h1'' hm =>
    cases h' with
    | process h2 => rw [h1] at h2; cases h2
    | flow _ h2 => rw [h1'] at h2; cases h2
    | stage _ _ h2 hm' =>
      rw [h1''] at h2; cases h2
      have := List.inj_on_of_nodup_map hn hm hm' rfl
      rw [(Prod.mk.inj this).2]

/-- C204: no answer is an empty result, of total 0 -/
theorem fragmentLcia_none (scope : ℕ → String) (stgs : List (ℕ × String)) :
    ∃ r, fragmentLcia scope stgs none = .ok r ∧ r.total = 0 ∧ Dict.keys r.scores = [] :=
  ⟨{}, rfl, by simp [Result.total, Lcia.totalL], by simp [Dict.keys]⟩

/-- no component is a sum of details -/
def NoDetails (r : Res) : Prop := ∀ k e ds, r.scores.get? k ≠ some (.agg e ds)

theorem addAll_summaries {scope : ℕ → String} {stgs : List (ℕ × String)} (l : List CompDoc)
    (hd : ∀ c ∈ l, c.detail = []) (he : ∀ c ∈ l, ∃ x, compEntity scope stgs c = .ok x) : ∀ {r : Res}, Good r → NoDetails r →
    ∃ r', addAll scope stgs l r = .ok r' := by
  induction l with
  | nil => intro r _ _; exact ⟨r, rfl⟩
  | cons c l ih =>
    intro r h hnd
    obtain ⟨⟨k, loc⟩, hx⟩ := he c List.mem_cons_self
    obtain ⟨r2, h2⟩ := addSummary_ok h (k := k) (u := c.cumulative) (hnd k k)
    have hc : addComponent scope stgs r c = .ok r2 := by
      unfold addComponent
      rw [hx]; simp [hd c List.mem_cons_self, h2]
    have hnd2 : NoDetails r2 := by
      intro k' e ds hg
      unfold Result.addSummary at h2
      cases hgk : r.scores.get? k with
      | none =>
        simp only [hgk] at h2
        cases h2
        by_cases hk : k' = k
        · subst hk; simp [Dict.get?_set_self, Lcia.Comp.summary] at hg
        · simp only at hg; rw [Dict.get?_set_ne _ _ (Ne.symm hk)] at hg; exact hnd _ _ _ hg
      | some c' =>
        rcases h.comps _ _ hgk with ⟨ds, rfl⟩ | ⟨u1, rfl⟩
        · exact hnd _ _ _ hgk
        · simp only [hgk, Option.isSome_none, Bool.false_eq_true, if_false, Lcia.sumAdd, if_true] at h2
          cases h2
          by_cases hk : k' = k
          · subst hk; simp [Dict.get?_set_self] at hg
          · simp only at hg; rw [Dict.get?_set_ne _ _ (Ne.symm hk)] at hg; exact hnd _ _ _ hg
    obtain ⟨r3, h3⟩ := ih (fun c hc => hd c (List.mem_cons_of_mem _ hc)) (fun c hc => he c (List.mem_cons_of_mem _ hc))
      (addSummary_good h h2).1 hnd2
    exact ⟨r3, by unfold addAll; rw [hc]; exact h3⟩

/-- C204: an answer of stages, as the server gives, is accepted if every stage is listed with an id that is not above the number
of stages, and the amounts add up to the total. -/
theorem fragmentLcia_stages (scope : ℕ → String) {stgs : List (ℕ × String)} (hn : (stgs.map Prod.fst).Nodup) (total : ℚ)
    (scores : List CompDoc)
    (h : ∀ c ∈ scores, c.processID = none ∧ c.fragmentFlowID = none ∧ c.detail = [] ∧
      ∃ s n, c.fragmentStageID = some s ∧ (s, n) ∈ stgs ∧ s ≤ stgs.length)
    (ht : (scores.map CompDoc.cumulative).sum = total) :
    ∃ r, fragmentLcia scope stgs (some (total, scores)) = .ok r ∧ r.total = total := by
  obtain ⟨r, hr⟩ := addAll_summaries (scope := scope) (stgs := stgs) scores (fun c hc => (h c hc).2.2.1) (by
    intro c hc
    obtain ⟨h1, h2, -, s, n, h3, h4, h5⟩ := h c hc
    have := (stageName_iff hn s n).mpr ⟨h4, h5⟩
    exact ⟨(.stage n, "GLO"), by simp [compEntity, h1, h2, h3, this]⟩) good_empty (by intro k e ds hg; cases hg)
  obtain ⟨-, h2, -⟩ := addAll_good _ good_empty hr
  have hm : scores.map amount = scores.map CompDoc.cumulative := by
    apply List.map_congr_left
    intro c hc
    simp [amount, (h c hc).2.2.1]
  have h2 : r.total = total := by
    rw [h2, hm, ht]; simp [Result.total, Lcia.totalL]
  refine ⟨r, ?_, h2⟩
  unfold fragmentLcia
  simp only [hr]
  rw [if_pos]
  rw [h2]; simp [isclose]

/-- C204: if the amounts do not add up to the total, within tolerance, it raises. -/
theorem fragmentLcia_raises (scope : ℕ → String) (stgs : List (ℕ × String)) (total : ℚ) (scores : List CompDoc)
    (h : ¬ Within (scores.map amount).sum total ∨
      ∃ c ∈ scores, (c.detail ≠ [] ∧ c.processID = none) ∨ ∀ k, ¬ About stgs c k) :
    ∃ e, fragmentLcia scope stgs (some (total, scores)) = .error e := by
  cases hr : fragmentLcia scope stgs (some (total, scores)) with
  | error e => exact ⟨e, rfl⟩
  | ok r =>
    exfalso
    obtain ⟨h1, -, h2, ks, h3, h4, -⟩ := fragmentLcia_ok hr
    have hex : ∀ c ∈ scores, ∃ k, About stgs c k ∧ (c.detail ≠ [] → ∃ n, k = .process n) := by
      intro c hc
      rw [← h3] at hc
      obtain ⟨p, hp, rfl⟩ := List.mem_map.mp hc
      exact ⟨p.1, h4 p hp⟩
    rcases h with h | ⟨c, hm, hc⟩
    · rw [h1] at h2; exact h h2
    · rcases hc with ⟨hd, hp⟩ | hk
      · obtain ⟨k, ha, hn⟩ := hex c hm
        obtain ⟨n, rfl⟩ := hn hd
        cases ha with
        | process h5 => rw [hp] at h5; cases h5
      · obtain ⟨k, ha, -⟩ := hex c hm
        exact hk k ha

/-- stages by which the hypotheses of the theorems above are met: two stages of one name, one of them twice -/
def exStages : List (ℕ × String) := [(1, "use"), (3, "waste"), (2, "use")]
def exScores : List CompDoc := [{ fragmentStageID := some 1, cumulative := 2 }, { fragmentStageID := some 3, cumulative := 5 },
  { fragmentStageID := some 2, cumulative := 1 }, { fragmentStageID := some 1, cumulative := -4 }]

example : (exStages.map Prod.fst).Nodup ∧
    (fragmentLcia (fun _ => "") exStages (some (4, exScores))).toOption.map
      (fun r => (r.total, under r (.stage "use"), under r (.stage "waste"))) = some (4, -1, 5) ∧
    (fragmentLcia (fun _ => "") exStages (some (5, exScores))).toOption.map (fun r => r.total) = none := by decide +kernel

end Av1
