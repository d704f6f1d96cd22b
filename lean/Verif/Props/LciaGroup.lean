import Verif.Props.Lcia

/-!
Grouping keeps LCIA totals (C33), adding and scaling results (C34), results of fragment flows (C52).
-/

set_option linter.unusedSectionVars false
set_option linter.unusedSimpArgs false

namespace Lcia

variable {K En F : Type} [DecidableEq K] [DecidableEq En]

/-! ### what a total is -/

mutual
/-- the numbers at the leaves below a component, each multiplied by the weights and scales on the way down to it: `m` is the
product of those above. A detail is value, sign and factor; its value is multiplied by the scale of its own result. -/
def Comp.leaves (m sc : ℚ) : Comp K En F → List ℚ
  | .agg _ ds => ds.map fun d => m * (d.own.getD sc * (d.value.getD 0 * d.adjust * d.fac.at d.loc))
  | .static own _ nw u => [m * (own.getD sc * (nw * u))]
  | .inner own _ nw _ s _ l => leavesL (m * (own.getD sc * nw)) s l
def leavesL (m sc : ℚ) : List (K × Comp K En F) → List ℚ
  | [] => []
  | p :: l => leavesP m sc p ++ leavesL m sc l
def leavesP (m sc : ℚ) : K × Comp K En F → List ℚ
  | (_, c) => c.leaves m sc
end

mutual
theorem leaves_sum (m sc : ℚ) (c : Comp K En F) : (c.leaves m sc).sum = m * c.cum sc := by
  cases c with
  | agg e ds =>
    simp only [Comp.leaves, Comp.cum]
    induction ds with
    | nil => simp
    | cons d ds ih =>
      simp only [List.map_cons, List.sum_cons, ih, result_eq, Detail.val]; ring
  | static own e nw u => simp only [Comp.leaves, Comp.cum, List.sum_cons, List.sum_nil]; ring
  | inner own e nw o s p l => simp only [Comp.leaves, Comp.cum, leavesL_sum]; ring
theorem leavesL_sum (m sc : ℚ) (l : List (K × Comp K En F)) : (leavesL m sc l).sum = m * totalL sc l := by
  cases l with
  | nil => simp [leavesL, totalL]
  | cons p l => simp only [leavesL, totalL, List.sum_append, leavesL_sum, leavesP_sum]; ring
theorem leavesP_sum (m sc : ℚ) (p : K × Comp K En F) : (leavesP m sc p).sum = m * totalP sc p := by
  cases p with
  | mk k c => simp only [leavesP, totalP, leaves_sum]
end

/-- C33: a total is the sum of all scores at any depth, each multiplied by the weights and scales above it. -/
theorem total_leaves (r : Result K En F) : r.total = (leavesL 1 r.scale r.scores).sum := by
  rw [leavesL_sum, Result.total, one_mul]

/-! ### aggregate -/

/-- all components are static with weight 1 -/
def allOne (l : List (K × Comp K En F)) : Prop := ∀ p ∈ l, ∃ e u, p.2 = .static none e 1 u

theorem allOne_set {l : Dict K (Comp K En F)} (h : allOne l) (k : K) (e : En) (u : ℚ) :
    allOne (l.set k (.static none e 1 u)) := by
  induction l with
  | nil => intro p hp; simp [Dict.set] at hp; exact ⟨e, u, by rw [hp]⟩
  | cons q l ih =>
    obtain ⟨k', c'⟩ := q
    have hl : allOne l := fun p hp => h p (by simp [hp])
    unfold Dict.set
    split
    · intro p hp
      rcases List.mem_cons.1 hp with rfl | hp
      · exact ⟨e, u, rfl⟩
      · exact hl p hp
    · intro p hp
      rcases List.mem_cons.1 hp with rfl | hp
      · exact h _ (by simp)
      · exact ih hl p hp

theorem cumAt_set (sc : ℚ) (d : Dict K (Comp K En F)) (k k' : K) (c : Comp K En F) :
    cumAt sc (d.set k c) k' = if k = k' then c.cum sc else cumAt sc d k' := by
  unfold cumAt
  rw [Dict.get?_set]
  by_cases h : k = k' <;> simp [h]

theorem addSummary_one (r : Result K En F) (h : allOne r.scores) (k : K) (e : En) (u : ℚ) :
    ∃ r', r.addSummary k e 1 (.num u) = .ok r' ∧ allOne r'.scores ∧ r'.scale = r.scale ∧ r'.failed = r.failed ∧
      r'.total = r.total + r.scale * u ∧
      ∀ k', cumAt r.scale r'.scores k' = cumAt r.scale r.scores k' + if k = k' then r.scale * u else 0 := by
  cases hg : r.scores.get? k with
  | none =>
    refine ⟨{ r with scores := r.scores.set k (.static none e 1 u) }, by simp [Result.addSummary, hg, Comp.summary],
      allOne_set h _ _ _, rfl, rfl, ?_, ?_⟩
    · simp [Result.total, totalL_set, cumAt, hg, Comp.cum]
    · intro k'
      rw [cumAt_set]
      split
      · rename_i hk; subst hk; simp [Comp.cum, cumAt, hg]
      · simp
  | some c =>
    obtain ⟨e0, u0, rfl⟩ : ∃ e u, c = .static none e 1 u := h (k, c) (Dict.mem_of_get?_eq_some _ hg)
    refine ⟨{ r with scores := r.scores.set k (.static none e0 1 (u0 + u)) }, by simp [Result.addSummary, hg, sumAdd],
      allOne_set h _ _ _, rfl, rfl, ?_, ?_⟩
    · simp [Result.total, totalL_set, cumAt, hg, Comp.cum]; ring
    · intro k'
      rw [cumAt_set]
      split
      · rename_i hk; subst hk; simp [Comp.cum, cumAt, hg]; ring
      · simp

/-- the components whose entities have the key `k` -/
def ofKey (key : En → Option K) (k : K) (l : List (K × Comp K En F)) : List (K × Comp K En F) :=
  l.filter fun p => decide (key p.2.entity = some k)

theorem aggLoop_total (key : En → Option K) (ke : K → En) (sc : ℚ) (l : List (K × Comp K En F)) :
    ∀ (r : Result K En F), allOne r.scores → (∀ p ∈ l, (key p.2.entity).isSome) →
    ∃ r', aggLoop key ke sc l r = .ok r' ∧ r'.scale = r.scale ∧ r'.failed = r.failed ∧
      r'.total = r.total + r.scale * totalL sc l ∧
      ∀ k, cumAt r.scale r'.scores k = cumAt r.scale r.scores k + r.scale * totalL sc (ofKey key k l) := by
  induction l with
  | nil => intro r _ _; exact ⟨r, rfl, rfl, rfl, by simp [totalL], by simp [ofKey, totalL]⟩
  | cons p l ih =>
    intro r hr hk
    obtain ⟨k0, c⟩ := p
    obtain ⟨k, hkk⟩ := Option.isSome_iff_exists.1 (hk (k0, c) (by simp))
    obtain ⟨r1, h1, h2, h3, h4, h5, h6⟩ := addSummary_one r hr k (ke k) (c.cum sc)
    obtain ⟨r2, g1, g2, g3, g4, g5⟩ := ih r1 h2 fun p hp => hk p (by simp [hp])
    dsimp only at hkk
    refine ⟨r2, by simp only [aggLoop, hkk, h1, g1], by rw [g2, h3], by rw [g3, h4], ?_, ?_⟩
    · rw [g4, h5, h3, totalL_cons]; ring
    · intro k'
      rw [h3] at g5
      rw [g5, h6]
      by_cases e : k = k'
      · subst e
        simp [ofKey, hkk, totalL_cons]; ring
      · have : ¬ some k = some k' := by simpa using e
        simp [ofKey, hkk, e, this]

/-- C33: `aggregate` with a key function that does not raise gives a result whose total is the scale times the total, and
whose component under each key is the scale times the sum of the components with this key. -/
theorem aggregate_total (r : Result K En F) (key : En → Option K) (ke : K → En) (star : K)
    (hk : ∀ p ∈ r.scores, (key p.2.entity).isSome) :
    ∃ g, r.aggregate (some key) ke star = .ok g ∧ g.failed = [] ∧ g.total = r.scale * r.total ∧
      ∀ k, cumAt g.scale g.scores k = r.scale * ((ofKey key k r.scores).map fun p => p.2.cum r.scale).sum := by
  obtain ⟨g, h1, h2, h3, h4, h5⟩ := aggLoop_total key ke r.scale r.scores { scale := r.scale, priv := r.priv }
    (fun p hp => by cases hp) hk
  refine ⟨g, h1, h3, ?_, ?_⟩
  · rw [h4]; simp [Result.total, totalL]
  · intro k
    rw [h2, ← totalL_eq_sum, h5 k]; simp [cumAt]

/-- C33: the key `'*'` -/
theorem aggregate_star (r : Result K En F) (ke : K → En) (star : K) :
    ∃ g, r.aggregate none ke star = .ok g ∧ g.failed = [] ∧ g.total = r.scale * r.total := by
  obtain ⟨g, h1, _, h3, h4, h5, _⟩ := addSummary_one ({ scale := r.scale, priv := r.priv } : Result K En F)
    (fun p hp => by cases hp) star (ke star) r.total
  exact ⟨g, h1, h4, by rw [h5]; simp [Result.total, totalL]⟩

/-- C33, for results of scale 1 and key functions that do not raise: aggregation keeps the total, whatever the key. -/
theorem aggregate_total_partial (r : Result K En F) (hs : r.scale = 1) (key : Option (En → Option K)) (ke : K → En) (star : K)
    (hk : ∀ f ∈ key, ∀ p ∈ r.scores, (f p.2.entity).isSome) :
    ∃ g, r.aggregate key ke star = .ok g ∧ g.total = r.total := by
  cases key with
  | none =>
    obtain ⟨g, h, _, h2⟩ := aggregate_star r ke star
    exact ⟨g, h, by rw [h2, hs, one_mul]⟩
  | some f =>
    obtain ⟨g, h, _, h2, _⟩ := aggregate_total r f ke star (hk f rfl)
    exact ⟨g, h, by rw [h2, hs, one_mul]⟩

/-- a result with a flow and a nested fragment result -/
def exRes (sc : ℚ) : Result ℕ ℕ ℕ :=
  { scale := sc
    scores := [(1, .agg 10 [⟨1, some 2, .output, ⟨[("GLO", some 3)], none⟩, "GLO", none⟩]),
      (2, .inner none 20 5 0 2 false [(7, .agg 11 [⟨4, some 1, .output, ⟨[("GLO", some 3)], none⟩, "GLO", none⟩])]),
      (3, .static none 12 2 (-1))] }

example : (exRes 1).total = 34 ∧ (exRes 2).total = 68 := by decide +kernel
example : ((exRes 1).aggregate (some fun e => some (e / 15)) id 0).map
    (fun g => (g.total, cumAt g.scale g.scores 0, cumAt g.scale g.scores 1)) = .ok (34, 4, 30) := by decide +kernel

/-- C33 fails: aggregating a result of scale 2 doubles its total, also with the key `'*'`. -/
theorem aggregate_scale : ∃ r : Result ℕ ℕ ℕ, r.total = 68 ∧
    (r.aggregate (some fun e => some e) id 0).map Result.total = .ok 136 ∧
    (r.aggregate none id 0).map Result.total = .ok 136 :=
  ⟨exRes 2, by decide +kernel, by decide +kernel, by decide +kernel⟩

/-- The documentation says that components where the key function fails are grouped together; the exception is raised
instead. -/
theorem aggregate_raises (r : Result K En F) (key : En → Option K) (ke : K → En) (star : K)
    (h : ∃ p ∈ r.scores, key p.2.entity = none) : ∃ e, r.aggregate (some key) ke star = .error e := by
  have : ∀ (l : List (K × Comp K En F)) (g : Result K En F), (∃ p ∈ l, key p.2.entity = none) →
      ∃ e, aggLoop key ke r.scale l g = .error e := by
    intro l
    induction l with
    | nil => rintro g ⟨p, hp, _⟩; cases hp
    | cons q l ih =>
      obtain ⟨k, c⟩ := q
      rintro g ⟨p, hp, hn⟩
      unfold aggLoop
      cases hk : key c.entity with
      | none => exact ⟨_, rfl⟩
      | some k =>
        dsimp only
        cases hs : g.addSummary k (ke k) 1 (.num (c.cum r.scale)) with
        | error e => exact ⟨e, rfl⟩
        | ok g' =>
          rcases List.mem_cons.1 hp with rfl | hp
          · rw [hn] at hk; cases hk
          · exact ih g' ⟨p, hp, hn⟩
  exact this _ _ h

example : ((exRes 1).aggregate (some fun e => if e = 12 then none else some e) id 0).map Result.total = .error .keyFunction := by
  decide +kernel

/-! ### contributions -/

theorem sum_set (l : List ℚ) (i : ℕ) (x y : ℚ) (h : l[i]? = some y) : (l.set i x).sum = l.sum - y + x := by
  induction l generalizing i with
  | nil => simp at h
  | cons a l ih =>
    cases i with
    | zero => simp at h; simp [h]; ring
    | succ i => simp at h; simp [ih i h]; ring

/-- C33: the contributions and the balance add up to the total (times the auto-ranging factor, which is 1 without
auto-ranging), the balance is 0 if `'*'` is queried, and the answer to a query for a component is its score. -/
theorem contrib_total (r : Result K En F) (ar : ℚ) (qs : List (Option K)) :
    (r.contribNew ar qs).1.sum + (r.contribNew ar qs).2 = r.total * ar ∧
    (r.contribNew ar qs).1.length = qs.length ∧
    (none ∈ qs → (r.contribNew ar qs).2 = 0) ∧
    ∀ (i : ℕ) (k : K), qs[i]? = some (some k) → (r.contribNew ar qs).1[i]? = some (cumAt r.scale r.scores k * ar) := by
  have hres : ∀ (i : ℕ) (q : Option K), qs[i]? = some q →
      (qs.map (r.contribOf ar))[i]? = some (match q with | none => 0 | some k => cumAt r.scale r.scores k * ar) := by
    intro i q hq
    rw [List.getElem?_map, hq]
    cases q with
    | none => rfl
    | some k =>
      simp only [Option.map_some, cumAt, Result.contribOf]
      cases r.scores.get? k <;> simp
  unfold Result.contribNew
  dsimp only
  split
  · rename_i i hi
    have hi2 := List.find?_some hi
    simp only [decide_eq_true_eq] at hi2
    refine ⟨?_, by simp, by simp, ?_⟩
    · rw [sum_set _ _ _ _ (hres i none hi2)]; ring
    · intro j k hj
      have : i ≠ j := by rintro rfl; rw [hi2] at hj; cases hj
      rw [List.getElem?_set_ne this]
      exact hres j (some k) hj
  · rename_i hi
    refine ⟨by ring, by simp, ?_, fun j k hj => hres j (some k) hj⟩
    intro hn
    obtain ⟨i, hi', hi2⟩ := List.mem_iff_getElem.1 hn
    have := List.find?_eq_none.1 hi i (by simp [hi'])
    simp [hi2, hi'] at this

example : (exRes 1).contribNew 1 [some 3, none, some 9] = ([-2, 36, 0], 0) := by decide +kernel
example : (exRes 1).contribNew 1 [some 1] = ([6], 28) := by decide +kernel

end Lcia
