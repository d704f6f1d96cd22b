import Verif.Model.Lcia
import Mathlib.Algebra.BigOperators.Group.List.Basic
import Mathlib.Tactic.Ring
import Mathlib.Tactic.Linarith
import Mathlib.Tactic.LinearCombination
import Mathlib.Tactic.FieldSimp

/-!
LCIA results: grouping keeps totals (C33), scores are linear in the inventory (C34), summaries add (C35), results of fragment
flows (C52).
-/

set_option linter.unusedSectionVars false
set_option linter.unusedSimpArgs false

namespace Lcia

variable {K En F : Type} [DecidableEq K] [DecidableEq En]

/-! ### totals and dictionary updates -/

/-- the cumulative result under a key, 0 if there is none -/
def cumAt (sc : ℚ) (d : Dict K (Comp K En F)) (k : K) : ℚ :=
  match d.get? k with
  | some c => c.cum sc
  | none => 0

theorem totalL_cons (sc : ℚ) (k : K) (c : Comp K En F) (l : List (K × Comp K En F)) :
    totalL sc ((k, c) :: l) = c.cum sc + totalL sc l := by simp [totalL, totalP]

theorem totalL_eq_sum (sc : ℚ) (l : List (K × Comp K En F)) : totalL sc l = (l.map fun p => p.2.cum sc).sum := by
  induction l with
  | nil => simp [totalL]
  | cons p l ih => obtain ⟨k, c⟩ := p; rw [totalL_cons, ih]; simp

theorem totalL_set (sc : ℚ) (d : Dict K (Comp K En F)) (k : K) (c : Comp K En F) :
    totalL sc (d.set k c) = totalL sc d - cumAt sc d k + c.cum sc := by
  induction d with
  | nil => simp [Dict.set, totalL, totalP, cumAt]
  | cons p d ih =>
    obtain ⟨k', c'⟩ := p
    by_cases h : k' = k
    · subst h; simp [Dict.set, totalL_cons, cumAt, Dict.get?]; ring
    · have : cumAt sc ((k', c') :: d) k = cumAt sc d k := by simp [cumAt, Dict.get?, h]
      simp only [Dict.set, h, if_false, totalL_cons, ih, this]; ring

/-! ### summaries (C35) -/

theorem addWeights_ok {sc a b c : ℚ} (h : addWeights sc a b = .ok c) : c * sc = a * sc + b * sc := by
  unfold addWeights at h
  split at h
  · cases h
  · rename_i hs
    cases h; field_simp

theorem summary_cum (sc : ℚ) (own : Option ℚ) (e : En) (nw : ℚ) (s : Score K En F) :
    (Comp.summary own e nw s).cum sc = nw * own.getD sc * s.unit := by
  cases s <;> simp [Comp.summary, Comp.cum, Score.unit]

/-- C35: adding two summaries of a result raises, or gives a summary whose cumulative result is the sum of theirs. -/
theorem summary_add (sc : ℚ) (e1 e2 : En) (nw1 nw2 : ℚ) (s1 s2 : Score K En F) (c : Comp K En F)
    (h : sumAdd sc e1 nw1 s1 e2 nw2 s2 = .ok c) :
    c.cum sc = (Comp.summary none e1 nw1 s1).cum sc + (Comp.summary none e2 nw2 s2).cum sc ∧ c.entity = e1 := by
  rw [summary_cum, summary_cum]
  have key : ∀ (f : ℚ → Comp K En F) (u : ℚ), (∀ nw, (f nw).cum sc = nw * sc * u ∧ (f nw).entity = e1) →
      s1.unit = u → s2.unit = u →
      (addWeights sc nw1 nw2).map f = .ok c →
      c.cum sc = nw1 * (none : Option ℚ).getD sc * s1.unit + nw2 * (none : Option ℚ).getD sc * s2.unit ∧ c.entity = e1 := by
    intro f u hf h1 h2 hm
    cases hw : addWeights sc nw1 nw2 with
    | error x => rw [hw] at hm; cases hm
    | ok nw =>
      rw [hw] at hm; cases hm
      have := addWeights_ok hw
      refine ⟨?_, (hf nw).2⟩
      rw [(hf nw).1, h1, h2, this]; simp; ring
  unfold sumAdd at h
  split at h
  · split at h
    · rename_i u1 u2 hw
      cases h
      simp only [Comp.cum, Score.unit, Option.getD_none, Comp.entity, and_true]
      linear_combination u2 * hw
    · split at h
      · rename_i u1 u2 _ hu
        exact key _ u1 (fun nw => by simp [Comp.cum, Comp.entity]) rfl (by simp [Score.unit, hu]) h
      · cases h
  · split at h
    · rename_i u1 o s p l hu
      exact key _ u1 (fun nw => by simp [Comp.cum, Comp.entity, hu, Score.unit]) rfl hu.symm h
    · cases h
  · split at h
    · rename_i o s p l u2 hu
      exact key _ u2 (fun nw => by simp [Comp.cum, Comp.entity, ← hu, Score.unit]) hu rfl h
    · cases h
  · rename_i o s p l o' s' p' l'
    split at h
    · rename_i hu
      have hc : ∀ nw, (Comp.inner none e1 nw o s p l : Comp K En F).cum sc = nw * sc * (Score.res o s p l : Score K En F).unit ∧
          (Comp.inner none e1 nw o s p l : Comp K En F).entity = e1 := fun nw => by simp [Comp.cum, Comp.entity, Score.unit]
      split at h
      · split at h
        · exact key _ _ hc rfl hu.symm h
        · cases h
      · split at h
        · exact key _ _ hc rfl hu.symm h
        · cases h
    · cases h

/-- two static summaries of unequal weight and equal score, in a result of scale 2 -/
example : (sumAdd (K := ℕ) (F := ℕ) 2 'a' 3 (.num 5) 'b' 4 (.num 5)).map (fun c => c.cum 2) = .ok 70 := by decide +kernel
/-- neither weights nor scores are equal: refused -/
example : (sumAdd (K := ℕ) (F := ℕ) 2 'a' 3 (.num 5) 'b' 4 (.num 6)).map (fun c => c.cum 2) = .error .inconsistentScores := by
  decide +kernel

/-! ### add_summary, add_score -/

/-- the sum of the contributions that could not be added -/
def Result.lost (r : Result K En F) : ℚ := (r.failed.map (Comp.cum r.scale)).sum

/-- `add_summary` adds the weighted score to the total, or puts it among the failed ones. -/
theorem addSummary_total (r r' : Result K En F) (k : K) (e : En) (nw : ℚ) (u : Score K En F)
    (h : r.addSummary k e nw u = .ok r') :
    r'.scale = r.scale ∧ r'.priv = r.priv ∧ r'.total + r'.lost = r.total + r.lost + nw * r.scale * u.unit ∧
    (r'.failed = r.failed ∧ r'.total = r.total + nw * r.scale * u.unit ∨
      r'.failed = r.failed ++ [.summary none e nw u] ∧ r'.scores = r.scores) := by
  have hput : ∀ c : Comp K En F, c.cum r.scale = cumAt r.scale r.scores k + nw * r.scale * u.unit →
      totalL r.scale (r.scores.set k c) = r.total + nw * r.scale * u.unit := by
    intro c hc
    rw [totalL_set, hc, Result.total]; ring
  have hfail : totalL r.scale r.scores + ((r.failed ++ [Comp.summary none e nw u]).map (Comp.cum r.scale)).sum =
      r.total + r.lost + nw * r.scale * u.unit := by
    simp [Result.total, Result.lost, summary_cum]; ring
  unfold Result.addSummary at h
  split at h
  · rename_i hg
    cases h
    have := hput (.summary none e nw u) (by simp [summary_cum, cumAt, hg])
    refine ⟨rfl, rfl, ?_, .inl ⟨rfl, this⟩⟩
    simp only [Result.total, Result.lost] at this ⊢
    rw [this]; ring
  · cases h
  · rename_i own e1 nw1 u1 hg
    split at h
    · cases h; exact ⟨rfl, rfl, hfail, .inr ⟨rfl, rfl⟩⟩
    · rename_i ho
      cases own with
      | some _ => simp at ho
      | none =>
        cases hx : sumAdd r.scale e1 nw1 (.num u1) e nw u with
        | error x =>
          rw [hx] at h
          cases x <;> first | (cases h; done) | (cases h; exact ⟨rfl, rfl, hfail, .inr ⟨rfl, rfl⟩⟩)
        | ok c =>
          rw [hx] at h; cases h
          have := hput c (by rw [(summary_add _ _ _ _ _ _ _ _ hx).1, summary_cum _ _ e]; simp [cumAt, hg, Comp.summary])
          refine ⟨rfl, rfl, ?_, .inl ⟨rfl, this⟩⟩
          simp only [Result.total, Result.lost] at this ⊢
          rw [this]; ring
  · rename_i own e1 nw1 o s p l hg
    split at h
    · cases h; exact ⟨rfl, rfl, hfail, .inr ⟨rfl, rfl⟩⟩
    · rename_i ho
      cases own with
      | some _ => simp at ho
      | none =>
        cases hx : sumAdd r.scale e1 nw1 (.res o s p l) e nw u with
        | error x =>
          rw [hx] at h
          cases x <;> first | (cases h; done) | (cases h; exact ⟨rfl, rfl, hfail, .inr ⟨rfl, rfl⟩⟩)
        | ok c =>
          rw [hx] at h; cases h
          have := hput c (by rw [(summary_add _ _ _ _ _ _ _ _ hx).1, summary_cum _ _ e]; simp [cumAt, hg, Comp.summary])
          refine ⟨rfl, rfl, ?_, .inl ⟨rfl, this⟩⟩
          simp only [Result.total, Result.lost] at this ⊢
          rw [this]; ring

theorem addComponent_total (r : Result K En F) (k : K) (e : En) :
    (r.addComponent k e).scale = r.scale ∧ (r.addComponent k e).priv = r.priv ∧ (r.addComponent k e).total = r.total ∧
    (r.addComponent k e).failed = r.failed := by
  unfold Result.addComponent
  split
  · exact ⟨rfl, rfl, rfl, rfl⟩
  · rename_i h
    refine ⟨rfl, rfl, ?_, rfl⟩
    have : r.scores.get? k = none := by
      cases hg : r.scores.get? k with
      | none => rfl
      | some c => simp [Dict.has, hg] at h
    simp [Result.total, totalL_set, cumAt, this, Comp.cum]

/-- `add_score` adds the detailed result to the total. -/
theorem addScore_total (r r' : Result K En F) (k : K) (e : En) (d : Detail F) (h : r.addScore k e d = .ok r') :
    r'.scale = r.scale ∧ r'.priv = r.priv ∧ r'.total = r.total + d.result r.scale ∧ r'.failed = r.failed := by
  obtain ⟨h1, h2, h3, h4⟩ := addComponent_total r k e
  unfold Result.addScore at h
  dsimp only at h
  split at h
  · rename_i e' ds hg
    cases h
    refine ⟨h1, h2, ?_, h4⟩
    rw [← h3]
    simp [Result.total, totalL_set, cumAt, hg, Comp.cum, h1]; ring
  · cases h

/-! ### the inventory (C34) -/

/-- the score of an exchange in the English claim: value, times -1 if the factor has a natural direction which is the opposite
one, times the factor for the location (the global factor if there is none) -/
def Exch.score (x : Exch F) : ℚ :=
  match x.fac with
  | none => 0
  | some f =>
    x.value.getD 0 * (if f.nat = none ∨ f.nat = some x.dir then 1 else -1) *
      (match f.locs.get? x.loc with
        | some v => v.getD 0
        | none => match f.locs.get? "GLO" with
          | some v => v.getD 0
          | none => 0)

/-- the part of an inventory that `do_lcia` looks at: not those flows whose global factor is absent or 0 -/
def Exch.counted (x : Exch F) : Prop := x.cf ≠ some 0

instance (x : Exch F) : Decidable x.counted := inferInstanceAs (Decidable (_ ≠ _))

theorem at_eq (f : Factor) (loc : String) : f.at loc = match f.locs.get? loc with
    | some v => v.getD 0
    | none => match f.locs.get? "GLO" with
      | some v => v.getD 0
      | none => 0 := by
  unfold Factor.at Factor.raw
  cases f.locs.get? loc with
  | some v => rfl
  | none =>
    by_cases h : f.locs = []
    · simp [h]
    · simp only [h, if_false]
      cases f.locs.get? "GLO" <;> rfl

theorem at_make (f : Factor) (loc : String) : f.at (if f.locs.has loc then loc else "GLO") = f.at loc := by
  split
  · rfl
  · rename_i h
    have : f.locs.get? loc = none := by
      cases hg : f.locs.get? loc with
      | none => rfl
      | some c => simp [Dict.has, hg] at h
    rw [at_eq, at_eq, this]
    cases h : f.locs.get? "GLO" <;> rfl

theorem result_eq (sc : ℚ) (d : Detail F) : d.result sc = d.val sc * d.adjust * d.fac.at d.loc := by
  unfold Detail.result
  split
  · rename_i h
    simp [at_eq, h]
  · rfl

theorem make_result (sc : ℚ) (x : Exch F) (f : Factor) (hf : x.fac = some f) :
    (Detail.make x.flow x.value x.dir f x.loc).result sc = sc * x.score := by
  rw [result_eq]
  simp only [Detail.make, Detail.val, Detail.adjust, at_make, Exch.score, hf, ← at_eq, Option.getD_none]
  cases f.nat with
  | none => simp; ring
  | some n =>
    by_cases h : x.dir = n
    · subst h; simp; ring
    · have : ¬ n = x.dir := fun e => h e.symm
      simp [h, this]; ring

/-- C34: `do_lcia` adds the scale times the sum of the scores of the exchanges whose global factor is not zero. -/
theorem doLcia_total (key : F → K) (ent : F → En) (xs : List (Exch F)) : ∀ (r r' : Result K En F),
    doLcia key ent xs r = .ok r' →
    r'.scale = r.scale ∧ r'.total = r.total + r.scale * ((xs.filter fun x => decide x.counted).map Exch.score).sum := by
  induction xs with
  | nil => intro r r' h; cases h; simp
  | cons x xs ih =>
    intro r r' h
    unfold doLcia at h
    split at h
    · rename_i hc
      have : decide x.counted = false := by simp [Exch.counted, hc]
      rw [List.filter_cons_of_neg (by simp [this])]
      exact ih _ _ h
    · rename_i hc
      split at h
      · cases h
      · rename_i r1 h1
        obtain ⟨a1, _, a3, _⟩ := addComponent_total r (key x.flow) (ent x.flow)
        obtain ⟨b1, _, b3, _⟩ := addScore_total _ _ _ _ _ h1
        obtain ⟨c1, c2⟩ := ih _ _ h
        have : decide x.counted = true := by simp [Exch.counted, hc]
        rw [List.filter_cons_of_pos (by simp [this])]
        cases hf : x.fac with
        | none => simp [Exch.cf, hf] at hc
        | some f =>
          refine ⟨by rw [c1, b1, a1], ?_⟩
          rw [c2, b3, b1, a1, a3, hf, Option.getD_some, make_result _ _ _ hf]
          simp; ring

/-- all components are made by `add_score` -/
def allAgg (l : List (K × Comp K En F)) : Prop := ∀ p ∈ l, ∃ e ds, p.2 = .agg e ds

theorem allAgg_set {l : Dict K (Comp K En F)} (h : allAgg l) (k : K) (e : En) (ds : List (Detail F)) :
    allAgg (l.set k (.agg e ds)) := by
  induction l with
  | nil => intro p hp; simp [Dict.set] at hp; exact ⟨e, ds, by rw [hp]⟩
  | cons q l ih =>
    obtain ⟨k', c'⟩ := q
    have hl : allAgg l := fun p hp => h p (by simp [hp])
    unfold Dict.set
    split
    · intro p hp
      rcases List.mem_cons.1 hp with rfl | hp
      · exact ⟨e, ds, rfl⟩
      · exact hl p hp
    · intro p hp
      rcases List.mem_cons.1 hp with rfl | hp
      · exact h _ (by simp)
      · exact ih hl p hp

theorem addScore_allAgg (r : Result K En F) (h : allAgg r.scores) (k : K) (e : En) (d : Detail F) :
    ∃ r', r.addScore k e d = .ok r' ∧ allAgg r'.scores := by
  have h1 : allAgg (r.addComponent k e).scores := by
    unfold Result.addComponent
    split
    · exact h
    · exact allAgg_set h _ _ _
  have h2 : ∃ c, (r.addComponent k e).scores.get? k = some c := by
    unfold Result.addComponent
    split
    · rename_i hh; exact Option.isSome_iff_exists.1 hh
    · exact ⟨_, Dict.get?_set_self _ _ _⟩
  obtain ⟨c, hc⟩ := h2
  obtain ⟨e', ds, rfl⟩ : ∃ e ds, c = .agg e ds := h1 (k, c) (Dict.mem_of_get?_eq_some _ hc)
  refine ⟨_, by simp only [Result.addScore, hc]; rfl, ?_⟩
  exact allAgg_set h1 _ _ _

theorem addComponent_allAgg (r : Result K En F) (h : allAgg r.scores) (k : K) (e : En) :
    allAgg (r.addComponent k e).scores := by
  unfold Result.addComponent
  split
  · exact h
  · exact allAgg_set h _ _ _

/-- `do_lcia` does not raise. -/
theorem doLcia_ok (key : F → K) (ent : F → En) (xs : List (Exch F)) : ∀ (r : Result K En F), allAgg r.scores →
    ∃ r', doLcia key ent xs r = .ok r' ∧ allAgg r'.scores := by
  induction xs with
  | nil => intro r h; exact ⟨r, rfl, h⟩
  | cons x xs ih =>
    intro r h
    unfold doLcia
    split
    · exact ih r h
    · obtain ⟨r1, h1, h2⟩ := addScore_allAgg _ (addComponent_allAgg r h (key x.flow) (ent x.flow)) (key x.flow) (ent x.flow)
        (.make x.flow x.value x.dir (x.fac.getD { locs := [] }) x.loc)
      rw [h1]
      exact ih r1 h2

/-- C34, for the inventories in which flows that have a factor for some location have a nonzero global factor: the LCIA of an
inventory exists, and its total is the sum of value, sign of the direction and factor, over all exchanges. -/
theorem lcia_total_partial (key : F → K) (ent : F → En) (xs : List (Exch F))
    (hloc : ∀ x ∈ xs, x.cf = some 0 → x.score = 0) :
    ∃ r : Result K En F, doLcia key ent xs {} = .ok r ∧ r.total = (xs.map Exch.score).sum := by
  obtain ⟨r, hr, _⟩ := doLcia_ok (K := K) (En := En) key ent xs {} (fun p hp => by cases hp)
  refine ⟨r, hr, ?_⟩
  rw [(doLcia_total key ent xs _ _ hr).2]
  simp only [Result.total, totalL, zero_add, one_mul]
  clear hr
  induction xs with
  | nil => rfl
  | cons x xs ih =>
    have ih := ih fun y hy => hloc y (by simp [hy])
    by_cases hc : x.cf = some 0
    · have : decide x.counted = false := by simp [Exch.counted, hc]
      rw [List.filter_cons_of_neg (by simp [this]), ih]
      simp [hloc x (by simp) hc]
    · have : decide x.counted = true := by simp [Exch.counted, hc]
      rw [List.filter_cons_of_pos (by simp [this])]
      simp only [List.map_cons, List.sum_cons, ih]

/-- C34: the LCIA of two inventories together is the sum of their results: for all inventories. -/
theorem lcia_append (key : F → K) (ent : F → En) (xs ys : List (Exch F)) :
    ∃ r1 r2 r : Result K En F, doLcia key ent xs {} = .ok r1 ∧ doLcia key ent ys {} = .ok r2 ∧
      doLcia key ent (xs ++ ys) {} = .ok r ∧ r.total = r1.total + r2.total := by
  have hn : allAgg ({} : Result K En F).scores := fun p hp => by cases hp
  obtain ⟨r1, h1, _⟩ := doLcia_ok key ent xs _ hn
  obtain ⟨r2, h2, _⟩ := doLcia_ok key ent ys _ hn
  obtain ⟨r, h, _⟩ := doLcia_ok key ent (xs ++ ys) _ hn
  refine ⟨r1, r2, r, h1, h2, h, ?_⟩
  rw [(doLcia_total _ _ _ _ _ h1).2, (doLcia_total _ _ _ _ _ h2).2, (doLcia_total _ _ _ _ _ h).2]
  simp [Result.total, totalL]

/-- C34: the order of the exchanges does not matter. -/
theorem lcia_perm (key : F → K) (ent : F → En) (xs ys : List (Exch F)) (hp : xs.Perm ys) :
    ∃ r1 r2 : Result K En F, doLcia key ent xs {} = .ok r1 ∧ doLcia key ent ys {} = .ok r2 ∧ r1.total = r2.total := by
  have hn : allAgg ({} : Result K En F).scores := fun p hp => by cases hp
  obtain ⟨r1, h1, _⟩ := doLcia_ok key ent xs _ hn
  obtain ⟨r2, h2, _⟩ := doLcia_ok key ent ys _ hn
  refine ⟨r1, r2, h1, h2, ?_⟩
  rw [(doLcia_total _ _ _ _ _ h1).2, (doLcia_total _ _ _ _ _ h2).2]
  rw [((hp.filter _).map _).sum_eq]

/-- an inventory with an input and an output of one flow, with a natural direction and a local factor -/
def exInv : List (Exch ℕ) :=
  [⟨1, some 2, .output, some ⟨[("GLO", some 3), ("US", some 5)], some .output⟩, "US"⟩,
   ⟨1, some 1, .input, some ⟨[("GLO", some 3), ("US", some 5)], some .output⟩, "CA"⟩,
   ⟨2, some 7, .input, none, "GLO"⟩]

example : (∀ x ∈ exInv, x.cf = some 0 → x.score = 0) ∧ (exInv.map Exch.score) = [10, -3, 0] := by decide +kernel

/-- C34 fails: a flow with a factor for the location, but without a global factor, is skipped. -/
theorem local_factor_skipped : ∃ x : Exch ℕ, x.score = 6 ∧
    (doLcia id id [x] ({} : Result ℕ ℕ ℕ)).map Result.total = .ok 0 :=
  ⟨⟨1, some 2, .output, some ⟨[("US", some 3)], none⟩, "US"⟩, by decide +kernel, by decide +kernel⟩

end Lcia
