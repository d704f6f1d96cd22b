import Verif.Props.LciaGroup

/-!
`flatten` keeps LCIA totals (C33).
-/

set_option linter.unusedSectionVars false
set_option linter.unusedSimpArgs false

namespace Lcia

variable {K En F : Type} [DecidableEq K] [DecidableEq En]

/-- a component without an inner result, which scales with the result that holds it -/
def Comp.isFlat : Comp K En F → Prop
  | .agg _ ds => ∀ d ∈ ds, d.own = none
  | .static own _ _ _ => own = none
  | .inner .. => False

/-- a flat result of scale 1 in which nothing failed -/
def Result.Flat (r : Result K En F) : Prop := r.scale = 1 ∧ r.failed = [] ∧ ∀ p ∈ r.scores, p.2.isFlat

theorem mem_set {V : Type} (d : Dict K V) (k : K) (v : V) (p : K × V) (h : p ∈ d.set k v) : p ∈ d ∨ p.2 = v := by
  induction d with
  | nil => simp [Dict.set] at h; simp [h]
  | cons q d ih =>
    obtain ⟨k', v'⟩ := q
    unfold Dict.set at h
    split at h
    · rcases List.mem_cons.1 h with rfl | h
      · exact .inr rfl
      · exact .inl (by simp [h])
    · rcases List.mem_cons.1 h with rfl | h
      · exact .inl (by simp)
      · rcases ih h with h | h
        · exact .inl (by simp [h])
        · exact .inr h

theorem flat_set {l : Dict K (Comp K En F)} (h : ∀ p ∈ l, p.2.isFlat) (k : K) {c : Comp K En F} (hc : c.isFlat) :
    ∀ p ∈ l.set k c, p.2.isFlat := by
  intro p hp
  rcases mem_set _ _ _ _ hp with hp | hp
  · exact h p hp
  · rw [hp]; exact hc

theorem sumAdd_num {sc : ℚ} {e1 e2 : En} {nw1 nw2 u1 u2 : ℚ} :
    (∃ nw u, sumAdd (K := K) (F := F) sc e1 nw1 (.num u1) e2 nw2 (.num u2) = .ok (.static none e1 nw u)) ∨
    sumAdd (K := K) (F := F) sc e1 nw1 (.num u1) e2 nw2 (.num u2) = .error .zeroDivision ∨
    sumAdd (K := K) (F := F) sc e1 nw1 (.num u1) e2 nw2 (.num u2) = .error .inconsistentScores := by
  unfold sumAdd addWeights
  by_cases h1 : nw1 * sc = nw2 * sc
  · exact .inl ⟨_, _, by simp [h1]; exact ⟨rfl, rfl⟩⟩
  · by_cases h2 : u1 = u2
    · by_cases h3 : sc = 0
      · simp [h3] at h1
      · exact .inl ⟨_, _, by simp [h1, h2, h3, Except.map]; exact ⟨rfl, rfl⟩⟩
    · simp [h1, h2]

theorem addSummary_flat (r r' : Result K En F) (hr : r.Flat) (k : K) (e : En) (nw u : ℚ)
    (h : r.addSummary k e nw (.num u) = .ok r') : r'.Flat ∧ r'.total = r.total + nw * u := by
  obtain ⟨h1, _, _, h4⟩ := addSummary_total r r' k e nw _ h
  have key : r'.failed = r.failed ∧ ∀ p ∈ r'.scores, p.2.isFlat := by
    unfold Result.addSummary at h
    split at h
    · cases h; exact ⟨rfl, flat_set hr.2.2 _ rfl⟩
    · cases h
    · rename_i own e1 nw1 u1 hg
      have := hr.2.2 (k, _) (Dict.mem_of_get?_eq_some _ hg)
      simp only [Comp.isFlat] at this
      subst this
      rcases sumAdd_num (K := K) (F := F) (sc := r.scale) (e1 := e1) (nw1 := nw1) (u1 := u1) (e2 := e) (nw2 := nw) (u2 := u)
        with ⟨a, b, hs⟩ | hs | hs <;> simp only [hs, Option.isSome_none] at h
      · cases h; exact ⟨rfl, flat_set hr.2.2 _ rfl⟩
      · cases h
      · cases h
    · rename_i own e1 nw1 o s p l hg
      have := hr.2.2 (k, _) (Dict.mem_of_get?_eq_some _ hg)
      exact absurd this id
  refine ⟨⟨by rw [h1, hr.1], by rw [key.1, hr.2.1], key.2⟩, ?_⟩
  rcases h4 with h4 | h4
  · rw [h4.2, hr.1]; simp [Score.unit]
  · rw [key.1] at h4; simp at h4

theorem addScore_flat (r r' : Result K En F) (hr : r.Flat) (k : K) (e : En) (d : Detail F) (hd : d.own = none)
    (h : r.addScore k e d = .ok r') : r'.Flat ∧ r'.total = r.total + d.result 1 := by
  obtain ⟨h1, _, h3, h4⟩ := addScore_total r r' k e d h
  refine ⟨⟨by rw [h1, hr.1], by rw [h4, hr.2.1], ?_⟩, by rw [h3, hr.1]⟩
  have hc : ∀ p ∈ (r.addComponent k e).scores, p.2.isFlat := by
    unfold Result.addComponent
    split
    · exact hr.2.2
    · exact flat_set hr.2.2 _ (by simp [Comp.isFlat])
  unfold Result.addScore at h
  dsimp only at h
  split at h
  · rename_i e' ds hg
    cases h
    have := hc (k, _) (Dict.mem_of_get?_eq_some _ hg)
    refine flat_set hc _ ?_
    intro x hx
    rcases List.mem_append.1 hx with hx | hx
    · exact this x hx
    · simp at hx; rw [hx]; exact hd
  · cases h

theorem addComponent_flat (r : Result K En F) (hr : r.Flat) (k : K) (e : En) : (r.addComponent k e).Flat := by
  obtain ⟨h1, _, _, h4⟩ := addComponent_total r k e
  refine ⟨by rw [h1, hr.1], by rw [h4, hr.2.1], ?_⟩
  unfold Result.addComponent
  split
  · exact hr.2.2
  · exact flat_set hr.2.2 _ (by simp [Comp.isFlat])

theorem addDetails_flat (fk : F → K) (fe : F → En) (key : F → K) (ds : List (Detail F)) (hds : ∀ d ∈ ds, d.own = none) :
    ∀ (r r' : Result K En F), r.Flat → addDetails fk fe key ds r = .ok r' →
    r'.Flat ∧ r'.total = r.total + (ds.map (Detail.result 1)).sum := by
  induction ds with
  | nil => intro r r' hr h; cases h; exact ⟨hr, by simp⟩
  | cons d ds ih =>
    intro r r' hr h
    unfold addDetails at h
    split at h
    · cases h
    · rename_i r1 h1
      obtain ⟨a1, a2⟩ := addScore_flat _ r1 (addComponent_flat r hr _ _) _ _ d (hds d (by simp)) h1
      obtain ⟨b1, b2⟩ := ih (fun x hx => hds x (by simp [hx])) r1 r' a1 h
      refine ⟨b1, ?_⟩
      rw [b2, a2, (addComponent_total r _ _).2.2.1]; simp; ring

theorem scaled_own (sc a : ℚ) (ds : List (Detail F)) : ∀ d ∈ scaledDetails sc a ds, d.own = none := by
  intro d hd
  simp only [scaledDetails, List.mem_map] at hd
  obtain ⟨x, _, rfl⟩ := hd
  rfl

theorem scaled_sum (sc a : ℚ) (ds : List (Detail F)) :
    ((scaledDetails sc a ds).map (Detail.result 1)).sum = a * (ds.map (Detail.result sc)).sum := by
  induction ds with
  | nil => simp [scaledDetails]
  | cons d ds ih =>
    unfold scaledDetails at ih ⊢
    by_cases h : d.result sc = 0
    · rw [List.filter_cons_of_neg (by simp [h]), ih]; simp [h]
    · rw [List.filter_cons_of_pos (by simp [h])]
      simp only [List.map_cons, List.sum_cons, ih, mul_add]
      congr 1
      have hadj : (Detail.make d.flow (some (d.val sc * a)) d.dir d.fac d.loc).adjust = d.adjust := rfl
      rw [result_eq, result_eq, hadj]
      simp only [Detail.make, Detail.val, at_make, Option.getD_some, Option.getD_none]
      ring

theorem foldFlat_total (fk : F → K) (fe : F → En) (a sc : ℚ) (l : List (K × Comp K En F)) :
    ∀ (r r' : Result K En F), r.Flat → foldFlat fk fe a sc l r = .ok r' →
    r'.Flat ∧ r'.total = r.total + a * totalL sc l := by
  induction l with
  | nil => intro r r' hr h; cases h; exact ⟨hr, by simp [totalL]⟩
  | cons p l ih =>
    obtain ⟨k, c⟩ := p
    intro r r' hr h
    unfold foldFlat at h
    split at h
    · cases h
    · rename_i r1 h1
      have : r1.Flat ∧ r1.total = r.total + a * c.cum sc := by
        cases c with
        | agg e ds =>
          obtain ⟨b1, b2⟩ := addDetails_flat _ _ _ _ (scaled_own sc a ds) _ _ hr h1
          exact ⟨b1, by rw [b2, scaled_sum]; simp [Comp.cum]⟩
        | static own e nw u =>
          obtain ⟨b1, b2⟩ := addSummary_flat _ _ hr _ _ _ _ h1
          exact ⟨b1, by rw [b2]; simp only [Comp.cum]; ring⟩
        | inner => cases h1
      obtain ⟨b1, b2⟩ := ih _ _ this.1 h
      exact ⟨b1, by rw [b2, this.2, totalL_cons]; ring⟩

theorem finish_total (fk : F → K) (fe : F → En) (a : ℚ) (rs : List (Result K En F)) :
    ∀ (r r' : Result K En F), r.Flat → finish fk fe a rs r = .ok r' →
    r'.Flat ∧ r'.total = r.total + a * (rs.map Result.total).sum := by
  induction rs with
  | nil => intro r r' hr h; cases h; exact ⟨hr, by simp⟩
  | cons x rs ih =>
    intro r r' hr h
    unfold finish at h
    split at h
    · cases h
    · split at h
      · cases h
      · rename_i r1 h1
        obtain ⟨a1, a2⟩ := foldFlat_total fk fe a x.scale x.scores r r1 hr h1
        obtain ⟨b1, b2⟩ := ih _ _ a1 h
        exact ⟨b1, by rw [b2, a2]; simp only [List.map_cons, List.sum_cons, Result.total]; ring⟩

mutual
theorem flat_total (fk : F → K) (fe : F → En) (sc a : ℚ) (k : K) (c : Comp K En F) (r r' : Result K En F)
    (rs rs' : List (Result K En F)) (hr : r.Flat) (h : c.flat fk fe sc a k r rs = .ok (r', rs')) :
    r'.Flat ∧ r'.total + a * (rs'.map Result.total).sum = r.total + a * (rs.map Result.total).sum + a * c.cum sc := by
  cases c with
  | agg e ds =>
    simp only [Comp.flat] at h
    split at h
    · cases h
    · rename_i r1 h1
      cases h
      obtain ⟨b1, b2⟩ := addDetails_flat _ _ _ _ (scaled_own sc a ds) _ _ hr h1
      exact ⟨b1, by rw [b2, scaled_sum]; simp only [Comp.cum]; ring⟩
  | static own e nw u =>
    simp only [Comp.flat] at h
    split at h
    · cases h
    · rename_i r1 h1
      cases h
      obtain ⟨b1, b2⟩ := addSummary_flat _ _ hr _ _ _ _ h1
      exact ⟨b1, by rw [b2]; simp only [Comp.cum]; ring⟩
  | inner own e nw o s p l =>
    simp only [Comp.flat] at h
    split at h
    · cases h
    · rename_i f fs h1
      split at h
      · cases h
      · rename_i f' h2
        cases h
        obtain ⟨b1, b2⟩ := flatL_total fk fe s (nw * own.getD sc) l _ f [] fs
          ⟨rfl, rfl, fun p hp => by cases hp⟩ h1
        obtain ⟨c1, c2⟩ := finish_total _ _ _ _ _ _ b1 h2
        refine ⟨hr, ?_⟩
        simp [Result.total, totalL] at b2 c2
        simp only [List.map_append, List.sum_append, List.map_cons, List.map_nil, List.sum_cons, List.sum_nil, Comp.cum]
        have : f'.total = nw * own.getD sc * totalL s l := by rw [Result.total, c2, ← b2]
        rw [this]; ring
theorem flatL_total (fk : F → K) (fe : F → En) (sc a : ℚ) (l : List (K × Comp K En F)) (r r' : Result K En F)
    (rs rs' : List (Result K En F)) (hr : r.Flat) (h : flatL fk fe sc a l r rs = .ok (r', rs')) :
    r'.Flat ∧ r'.total + a * (rs'.map Result.total).sum = r.total + a * (rs.map Result.total).sum + a * totalL sc l := by
  cases l with
  | nil => simp only [flatL] at h; cases h; exact ⟨hr, by simp [totalL]⟩
  | cons p l =>
    simp only [flatL] at h
    split at h
    · cases h
    · rename_i r1 rs1 h1
      obtain ⟨a1, a2⟩ := flatP_total fk fe sc a p r r1 rs rs1 hr h1
      obtain ⟨b1, b2⟩ := flatL_total fk fe sc a l r1 r' rs1 rs' a1 h
      exact ⟨b1, by rw [b2, a2]; simp only [totalL]; ring⟩
theorem flatP_total (fk : F → K) (fe : F → En) (sc a : ℚ) (p : K × Comp K En F) (r r' : Result K En F)
    (rs rs' : List (Result K En F)) (hr : r.Flat) (h : flatP fk fe sc a p r rs = .ok (r', rs')) :
    r'.Flat ∧ r'.total + a * (rs'.map Result.total).sum = r.total + a * (rs.map Result.total).sum + a * totalP sc p := by
  cases p with
  | mk k c =>
    simp only [flatP] at h
    simpa only [totalP] using flat_total fk fe sc a k c r r' rs rs' hr h
end

/-- C33: whenever `flatten` returns, the result is flat, nothing failed, and its total is the applied scale times the total:
for every nesting of results. -/
theorem flatten_total (fk : F → K) (fe : F → En) (r f : Result K En F) (a : ℚ) (h : r.flatten fk fe a = .ok f) :
    f.Flat ∧ f.total = a * r.total := by
  unfold Result.flatten at h
  split at h
  · cases h
  · rename_i f0 fs h1
    obtain ⟨b1, b2⟩ := flatL_total fk fe r.scale a r.scores _ f0 [] fs ⟨rfl, rfl, fun p hp => by cases hp⟩ h1
    obtain ⟨c1, c2⟩ := finish_total _ _ _ _ _ _ b1 h
    refine ⟨c1, ?_⟩
    rw [c2, b2]; simp [Result.total, totalL]

example : ((exRes 2).flatten id id 1).map Result.total = .ok 68 := by decide +kernel
example : ((exRes 2).flatten id id 1).map (fun f => f.scores.keys) = .ok [1, 3, 4] := by decide +kernel

/-! ### when flatten returns -/

mutual
/-- all leaves are detailed scores, and no inner result is private -/
def Comp.plain : Comp K En F → Prop
  | .agg _ _ => True
  | .static .. => False
  | .inner _ _ _ _ _ p l => p = false ∧ plainL l
def plainL : List (K × Comp K En F) → Prop
  | [] => True
  | p :: l => plainP p ∧ plainL l
def plainP : K × Comp K En F → Prop
  | (_, c) => c.plain
end

theorem addDetails_ok (fk : F → K) (fe : F → En) (key : F → K) (ds : List (Detail F)) :
    ∀ (r : Result K En F), allAgg r.scores → ∃ r', addDetails fk fe key ds r = .ok r' ∧ allAgg r'.scores ∧ r'.priv = r.priv := by
  induction ds with
  | nil => intro r h; exact ⟨r, rfl, h, rfl⟩
  | cons d ds ih =>
    intro r h
    obtain ⟨r1, h1, h2⟩ := addScore_allAgg _ (addComponent_allAgg r h (fk d.flow) (fe d.flow)) (key d.flow) (fe d.flow) d
    obtain ⟨r2, g1, g2, g3⟩ := ih r1 h2
    refine ⟨r2, by simp only [addDetails, h1, g1], g2, ?_⟩
    rw [g3, (addScore_total _ _ _ _ _ h1).2.1, (addComponent_total _ _ _).2.1]

theorem foldFlat_ok (fk : F → K) (fe : F → En) (a sc : ℚ) (l : List (K × Comp K En F)) (hl : allAgg l) :
    ∀ (r : Result K En F), allAgg r.scores →
    ∃ r', foldFlat fk fe a sc l r = .ok r' ∧ allAgg r'.scores ∧ r'.priv = r.priv := by
  induction l with
  | nil => intro r h; exact ⟨r, rfl, h, rfl⟩
  | cons p l ih =>
    obtain ⟨k, c⟩ := p
    intro r h
    obtain ⟨e, ds, hc⟩ := hl (k, c) (by simp)
    dsimp only at hc; subst hc
    obtain ⟨r1, h1, h2, h3⟩ := addDetails_ok fk fe (fun _ => k) (scaledDetails sc a ds) r h
    obtain ⟨r2, g1, g2, g3⟩ := ih (fun p hp => hl p (by simp [hp])) r1 h2
    exact ⟨r2, by simp only [foldFlat, h1, g1], g2, by rw [g3, h3]⟩

theorem finish_ok (fk : F → K) (fe : F → En) (a : ℚ) (rs : List (Result K En F))
    (hrs : ∀ x ∈ rs, x.priv = false ∧ allAgg x.scores) :
    ∀ (r : Result K En F), allAgg r.scores → ∃ r', finish fk fe a rs r = .ok r' ∧ allAgg r'.scores ∧ r'.priv = r.priv := by
  induction rs with
  | nil => intro r h; exact ⟨r, rfl, h, rfl⟩
  | cons x rs ih =>
    intro r h
    obtain ⟨hx1, hx2⟩ := hrs x (by simp)
    obtain ⟨r1, h1, h2, h3⟩ := foldFlat_ok fk fe a x.scale x.scores hx2 r h
    obtain ⟨r2, g1, g2, g3⟩ := ih (fun p hp => hrs p (by simp [hp])) r1 h2
    exact ⟨r2, by simp only [finish, hx1, h1, g1]; rfl, g2, by rw [g3, h3]⟩

mutual
theorem flat_ok (fk : F → K) (fe : F → En) (sc a : ℚ) (k : K) (c : Comp K En F) (r : Result K En F)
    (rs : List (Result K En F)) (hc : c.plain) (hr : allAgg r.scores) (hrs : ∀ x ∈ rs, x.priv = false ∧ allAgg x.scores) :
    ∃ r' rs', c.flat fk fe sc a k r rs = .ok (r', rs') ∧ allAgg r'.scores ∧ r'.priv = r.priv ∧
      ∀ x ∈ rs', x.priv = false ∧ allAgg x.scores := by
  cases c with
  | agg e ds =>
    obtain ⟨r1, h1, h2, h3⟩ := addDetails_ok fk fe fk (scaledDetails sc a ds) r hr
    exact ⟨r1, rs, by simp only [Comp.flat, h1], h2, h3, hrs⟩
  | static own e nw u => exact absurd hc (by simp [Comp.plain])
  | inner own e nw o s p l =>
    simp only [Comp.plain] at hc
    obtain ⟨f, fs, h1, h2, h3, h4⟩ := flatL_ok fk fe s (nw * own.getD sc) l { priv := p } [] hc.2
      (fun p hp => by cases hp) (fun x hx => by cases hx)
    obtain ⟨f', g1, g2, g3⟩ := finish_ok fk fe (nw * own.getD sc) fs h4 f h2
    refine ⟨r, rs ++ [f'], by simp only [Comp.flat, h1, g1], hr, rfl, ?_⟩
    intro x hx
    rcases List.mem_append.1 hx with hx | hx
    · exact hrs x hx
    · simp at hx; subst hx
      exact ⟨by rw [g3, h3]; exact hc.1, g2⟩
theorem flatL_ok (fk : F → K) (fe : F → En) (sc a : ℚ) (l : List (K × Comp K En F)) (r : Result K En F)
    (rs : List (Result K En F)) (hl : plainL l) (hr : allAgg r.scores) (hrs : ∀ x ∈ rs, x.priv = false ∧ allAgg x.scores) :
    ∃ r' rs', flatL fk fe sc a l r rs = .ok (r', rs') ∧ allAgg r'.scores ∧ r'.priv = r.priv ∧
      ∀ x ∈ rs', x.priv = false ∧ allAgg x.scores := by
  cases l with
  | nil => exact ⟨r, rs, by simp only [flatL], hr, rfl, hrs⟩
  | cons p l =>
    simp only [plainL] at hl
    obtain ⟨r1, rs1, h1, h2, h3, h4⟩ := flatP_ok fk fe sc a p r rs hl.1 hr hrs
    obtain ⟨r2, rs2, g1, g2, g3, g4⟩ := flatL_ok fk fe sc a l r1 rs1 hl.2 h2 h4
    exact ⟨r2, rs2, by simp only [flatL, h1, g1], g2, by rw [g3, h3], g4⟩
theorem flatP_ok (fk : F → K) (fe : F → En) (sc a : ℚ) (p : K × Comp K En F) (r : Result K En F)
    (rs : List (Result K En F)) (hl : plainP p) (hr : allAgg r.scores) (hrs : ∀ x ∈ rs, x.priv = false ∧ allAgg x.scores) :
    ∃ r' rs', flatP fk fe sc a p r rs = .ok (r', rs') ∧ allAgg r'.scores ∧ r'.priv = r.priv ∧
      ∀ x ∈ rs', x.priv = false ∧ allAgg x.scores := by
  cases p with
  | mk k c =>
    simp only [plainP] at hl
    obtain ⟨r', rs', h⟩ := flat_ok fk fe sc a k c r rs hl hr hrs
    exact ⟨r', rs', by simpa only [flatP] using h⟩
end

/-- C33, for results all whose leaves are detailed scores and which hold no private results: `flatten` returns a result made
of detailed scores with the same total. -/
theorem flatten_ok_partial (fk : F → K) (fe : F → En) (r : Result K En F) (hr : plainL r.scores) :
    ∃ f, r.flatten fk fe 1 = .ok f ∧ allAgg f.scores ∧ f.total = r.total := by
  obtain ⟨f0, fs, h1, h2, _, h4⟩ := flatL_ok fk fe r.scale 1 r.scores { priv := r.priv } [] hr (fun p hp => by cases hp)
    (fun x hx => by cases hx)
  obtain ⟨f, g1, g2, _⟩ := finish_ok fk fe 1 fs h4 f0 h2
  have : r.flatten fk fe 1 = .ok f := by simp only [Result.flatten, h1, g1]
  exact ⟨f, this, g2, by rw [(flatten_total fk fe r f 1 this).2, one_mul]⟩

/-- two levels of nesting -/
def exPlain : Result ℕ ℕ ℕ :=
  { scale := 3
    scores := [(2, .inner none 20 5 0 2 false
      [(7, .agg 11 [⟨4, some 1, .output, ⟨[("GLO", some 3)], none⟩, "GLO", none⟩]),
       (8, .inner none 11 2 1 1 false [(4, .agg 11 [⟨4, some 1, .output, ⟨[("GLO", some 3)], none⟩, "GLO", none⟩])])])] }

example : plainL exPlain.scores := by simp [exPlain, plainL, plainP, Comp.plain]
example : exPlain.total = 270 ∧ (exPlain.flatten id id 1).map (fun f => (f.total, f.scores.keys)) = .ok (270, [4]) := by
  decide +kernel

/-- C33 fails: a result that holds a private result cannot be flattened. -/
theorem flatten_private : ∃ r : Result ℕ ℕ ℕ, r.priv = false ∧ r.total = 6 ∧
    (r.flatten id id 1).map Result.total = .error .keyError :=
  ⟨{ scores := [(1, .inner none 1 2 0 1 true [(4, .agg 11 [⟨4, some 1, .output, ⟨[("GLO", some 3)], none⟩, "GLO", none⟩])])] },
   by decide +kernel, by decide +kernel, by decide +kernel⟩

/-- C33 fails: two nested results that hold static scores under one key with different weights and scores cannot be
flattened. -/
theorem flatten_static : ∃ r : Result ℕ ℕ ℕ, r.total = 7 ∧
    (r.flatten id id 1).map Result.total = .error .inconsistentScores :=
  ⟨{ scores := [(1, .inner none 1 1 0 1 false [(4, .static none 11 1 3)]), (2, .inner none 1 2 1 1 false [(4, .static none 11 1 2)])] },
   by decide +kernel, by decide +kernel⟩

end Lcia
