import Verif.Props.LciaFlat

/-!
Adding and scaling LCIA results (C34), results of fragment flows (C52), weighting (C53).
-/

set_option linter.unusedSectionVars false
set_option linter.unusedSimpArgs false

namespace Lcia

variable {K En F : Type} [DecidableEq K] [DecidableEq En]

/-! ### scaling -/

/-- a component that belongs to the result that holds it -/
def Comp.belongs : Comp K En F → Prop
  | .agg _ ds => ∀ d ∈ ds, d.own = none
  | .static own _ _ _ => own = none
  | .inner own _ _ _ _ _ _ => own = none

theorem belongs_cum (sc : ℚ) (c : Comp K En F) (h : c.belongs) : c.cum sc = sc * c.cum 1 := by
  cases c with
  | agg e ds =>
    simp only [Comp.cum]
    simp only [Comp.belongs] at h
    induction ds with
    | nil => simp
    | cons d ds ih =>
      simp only [List.map_cons, List.sum_cons, ih fun x hx => h x (by simp [hx])]
      have : d.result sc = sc * d.result 1 := by
        rw [result_eq, result_eq]; simp only [Detail.val, h d (by simp), Option.getD_none]; ring
      rw [this]; ring
  | static own e nw u => simp only [Comp.belongs] at h; subst h; simp only [Comp.cum, Option.getD_none]; ring
  | inner own e nw o s p l => simp only [Comp.belongs] at h; subst h; simp only [Comp.cum, Option.getD_none]; ring

/-- C34: scaling a result scales its total, if its components are its own (they are, unless the result was made by `+`). -/
theorem scale_total_partial (r : Result K En F) (h : ∀ p ∈ r.scores, p.2.belongs) (a : ℚ) :
    { r with scale := a }.total = a * { r with scale := 1 }.total := by
  simp only [Result.total, totalL_eq_sum]
  have : ∀ l : List (K × Comp K En F), (∀ p ∈ l, p.2.belongs) →
      (l.map fun p => p.2.cum a).sum = a * (l.map fun p => p.2.cum 1).sum := by
    intro l
    induction l with
    | nil => simp
    | cons p l ih =>
      intro hl
      simp only [List.map_cons, List.sum_cons, ih fun q hq => hl q (by simp [hq]), belongs_cum a p.2 (hl p (by simp))]
      ring
  exact this _ h

theorem doLcia_belongs (key : F → K) (ent : F → En) (xs : List (Exch F)) : ∀ (r r' : Result K En F),
    (∀ p ∈ r.scores, p.2.belongs) → doLcia key ent xs r = .ok r' → ∀ p ∈ r'.scores, p.2.belongs := by
  have hset : ∀ (l : Dict K (Comp K En F)) (k : K) (c : Comp K En F), (∀ p ∈ l, p.2.belongs) → c.belongs →
      ∀ p ∈ l.set k c, p.2.belongs := by
    intro l k c hl hc p hp
    rcases mem_set _ _ _ _ hp with hp | hp
    · exact hl p hp
    · rw [hp]; exact hc
  have hcomp : ∀ (r : Result K En F) (k : K) (e : En), (∀ p ∈ r.scores, p.2.belongs) →
      ∀ p ∈ (r.addComponent k e).scores, p.2.belongs := by
    intro r k e hr
    unfold Result.addComponent
    split
    · exact hr
    · exact hset _ _ _ hr (by simp [Comp.belongs])
  induction xs with
  | nil => intro r r' hr h; cases h; exact hr
  | cons x xs ih =>
    intro r r' hr h
    unfold doLcia at h
    split at h
    · exact ih r r' hr h
    · split at h
      · cases h
      · rename_i r1 h1
        refine ih r1 r' ?_ h
        unfold Result.addScore at h1
        dsimp only at h1
        split at h1
        · rename_i e' ds hg
          cases h1
          have h2 := hcomp _ (key x.flow) (ent x.flow) (hcomp r (key x.flow) (ent x.flow) hr)
          have h3 := h2 (_, _) (Dict.mem_of_get?_eq_some _ hg)
          refine hset _ _ _ h2 ?_
          intro d hd
          rcases List.mem_append.1 hd with hd | hd
          · exact h3 d hd
          · simp at hd; rw [hd]; rfl
        · cases h1

/-- C34: scaling the LCIA of an inventory by `a` multiplies its total by `a`. -/
theorem lcia_scale (key : F → K) (ent : F → En) (xs : List (Exch F)) (a : ℚ) :
    ∃ r : Result K En F, doLcia key ent xs {} = .ok r ∧ { r with scale := a }.total = a * r.total := by
  obtain ⟨r, h, _⟩ := doLcia_ok (K := K) (En := En) key ent xs {} (fun p hp => by cases hp)
  have hb := doLcia_belongs key ent xs {} r (fun p hp => by cases hp) h
  have hs := (doLcia_total key ent xs {} r h).1
  refine ⟨r, h, ?_⟩
  rw [scale_total_partial r hb a]
  obtain ⟨s, p, l, f⟩ := r
  simp only at hs
  subst hs; rfl

example : (doLcia id id exInv ({} : Result ℕ ℕ ℕ)).map (fun r => (r.total, { r with scale := 3 }.total)) = .ok (7, 21) := by
  decide +kernel

/-! ### adding two results -/

theorem adopt_cum (c : Comp K En F) (h : c.belongs) : (c.adopt 1).cum 1 = c.cum 1 := by
  cases c with
  | agg e ds =>
    simp only [Comp.adopt, Comp.cum, List.map_map]
    congr 1
  | static own e nw u => simp only [Comp.belongs] at h; subst h; rfl
  | inner own e nw o s p l => simp only [Comp.belongs] at h; subst h; rfl

theorem lend_cum (sc sc' : ℚ) (c : Comp K En F) : (c.lend sc).cum sc' = c.cum sc := by
  cases c with
  | agg e ds =>
    simp only [Comp.lend, Comp.cum, List.map_map]
    congr 1
  | static own e nw u => simp [Comp.lend, Comp.cum]
  | inner own e nw o s p l => simp [Comp.lend, Comp.cum]

theorem adopt_entity (sc : ℚ) (c : Comp K En F) : (c.adopt sc).entity = c.entity := by cases c <;> rfl
theorem lend_entity (sc : ℚ) (c : Comp K En F) : (c.lend sc).entity = c.entity := by cases c <;> rfl

theorem addLoop_total (under : K → K) (hu : Function.Injective under) (sc : ℚ) (l : List (K × Comp K En F))
    (hn : (l.map Prod.fst).Nodup) (hul : ∀ p ∈ l, ∀ q ∈ l, under p.1 ≠ q.1) : ∀ (s : Result K En F), s.scale = 1 →
    (∀ p ∈ l, ∀ c, s.scores.get? p.1 = some c → p.2.entity ≠ c.entity) →
    (∀ p ∈ l, s.scores.get? (under p.1) = none) →
    ∃ s', addLoop under sc l s = .ok s' ∧ s'.total = s.total + totalL sc l := by
  induction l with
  | nil => intro s _ _ _; exact ⟨s, rfl, by simp [totalL]⟩
  | cons p l ih =>
    obtain ⟨k, v⟩ := p
    intro s hs h1 h2
    have ih := ih (List.nodup_cons.1 hn).2 fun p hp q hq => hul p (by simp [hp]) q (by simp [hq])
    have hk : ∀ p ∈ l, p.1 ≠ k := by
      intro p hp e
      exact (List.nodup_cons.1 hn).1 (by simpa [← e] using ⟨p.2, hp⟩)
    have step : ∀ k', s.scores.get? k' = none → (∀ p ∈ l, k' ≠ p.1) → (∀ p ∈ l, k' ≠ under p.1) →
        ∃ s', addLoop under sc l { s with scores := s.scores.set k' (v.lend sc) } = .ok s' ∧
          s'.total = s.total + totalL sc ((k, v) :: l) := by
      intro k' hk' ha hb
      obtain ⟨s', g1, g2⟩ := ih { s with scores := s.scores.set k' (v.lend sc) } hs
        (fun p hp c hc => h1 p (by simp [hp]) c (by rwa [Dict.get?_set_ne _ _ (ha p hp)] at hc))
        (fun p hp => by rw [Dict.get?_set_ne _ _ (hb p hp)]; exact h2 p (by simp [hp]))
      refine ⟨s', g1, ?_⟩
      rw [g2, totalL_cons]
      simp only [Result.total, totalL_set, cumAt, hk', lend_cum]; ring
    unfold addLoop
    split
    · rename_i hg
      refine step k hg (fun p hp e => hk p hp e.symm) (fun p hp e => ?_)
      exact hul p (by simp [hp]) (k, v) (by simp) e.symm
    · rename_i c hg
      rw [if_neg (h1 (k, v) (by simp) c hg)]
      refine step (under k) (h2 (k, v) (by simp)) (fun p hp e => ?_) (fun p hp e => ?_)
      · exact hul (k, v) (by simp) p (by simp [hp]) e
      · exact hk p hp (hu e).symm

theorem get?_map {V W : Type} (f : V → W) (d : Dict K V) (k : K) :
    Dict.get? (d.map fun kc => (kc.1, f kc.2)) k = (d.get? k).map f := by
  induction d with
  | nil => rfl
  | cons p d ih =>
    obtain ⟨a, b⟩ := p
    by_cases h : a = k <;> simp [Dict.get?, h]
    exact ih

/-- C34, for a first operand of scale 1 with its own components, if no key of the second has an underscored version among
the keys of both, and the components under a common key have different entities: the total of the sum of two results is the
sum of their totals. -/
theorem add_total_partial (under : K → K) (hu : Function.Injective under) (r1 r2 : Result K En F) (hs : r1.scale = 1)
    (hb : ∀ p ∈ r1.scores, p.2.belongs) (hn : r2.scores.keys.Nodup)
    (hul : ∀ k ∈ r2.scores.keys, under k ∉ r1.scores.keys ∧ under k ∉ r2.scores.keys)
    (he : ∀ k c1 c2, r1.scores.get? k = some c1 → r2.scores.get? k = some c2 → c1.entity ≠ c2.entity) :
    ∃ s, r1.add under r2 = .ok s ∧ s.total = r1.total + r2.total := by
  have hm : ∀ k, Dict.get? (r1.scores.map fun kc => (kc.1, kc.2.adopt r1.scale)) k = (r1.scores.get? k).map (Comp.adopt r1.scale) :=
    get?_map _ _
  have hk : ∀ p ∈ r2.scores, p.1 ∈ r2.scores.keys := fun p hp => List.mem_map_of_mem hp
  obtain ⟨s, h1, h2⟩ := addLoop_total under hu r2.scale r2.scores hn
    (fun p hp q hq e => (hul p.1 (hk p hp)).2 (by rw [e]; exact hk q hq))
    ({ scores := r1.scores.map fun kc => (kc.1, kc.2.adopt r1.scale) } : Result K En F) rfl
    (fun p hp c hc e => by
      dsimp only at hc
      rw [hm] at hc
      cases hg : r1.scores.get? p.1 with
      | none => rw [hg] at hc; cases hc
      | some c1 =>
        rw [hg] at hc; cases hc
        rw [adopt_entity] at e
        exact he p.1 c1 p.2 hg (Dict.get?_eq_some_of_mem _ hn hp) e.symm)
    (fun p hp => by
      dsimp only
      rw [hm, (Dict.not_mem_keys_iff _ _).1 (hul p.1 (hk p hp)).1]; rfl)
  refine ⟨s, h1, ?_⟩
  rw [h2]
  simp only [Result.total, hs]
  congr 1
  rw [totalL_eq_sum, totalL_eq_sum, List.map_map]
  congr 1
  apply List.map_congr_left
  intro p hp
  exact adopt_cum p.2 (hb p hp)

/-- keys 1 in both, of different entities -/
def exAdd : Result ℕ ℕ ℕ := { scale := 2, scores := [(1, .static none 13 1 5), (5, .static none 14 1 1)] }

example : ((exRes 1).add (· + 100) exAdd).map (fun s => (s.total, s.scores.keys)) = .ok (46, [1, 2, 3, 101, 5]) := by
  decide +kernel
example : (exRes 1).scale = 1 ∧ exAdd.scores.keys.Nodup ∧
    (∀ k ∈ exAdd.scores.keys, k + 100 ∉ (exRes 1).scores.keys ∧ k + 100 ∉ exAdd.scores.keys) ∧ exAdd.total = 12 := by
  decide +kernel

/-- C34 fails: results with a common component cannot be added, e.g. two inventories with a common flow. -/
theorem add_common (under : K → K) (r1 r2 : Result K En F) (k : K) (c1 c2 : Comp K En F)
    (l : List (K × Comp K En F)) (h2 : r2.scores = (k, c2) :: l) (h1 : r1.scores.get? k = some c1)
    (he : c1.entity = c2.entity) : ∃ e, r1.add under r2 = .error e := by
  have hm := get?_map (Comp.adopt r1.scale) r1.scores k
  rw [h1] at hm
  unfold Result.add
  rw [h2]
  unfold addLoop
  simp only [hm, Option.map_some, adopt_entity, he, if_true]
  cases c1 <;> cases c2 <;> exact ⟨_, rfl⟩

example : ((doLcia id id exInv ({} : Result ℕ ℕ ℕ)).bind fun r => r.add (· + 100) r).map Result.total = .error .typeError := by
  decide +kernel

/-- C34 fails: the underscored key of a component of the second operand may hide one of the first. -/
theorem add_underscore : ∃ r1 r2 : Result ℕ ℕ ℕ, r1.total = 3 ∧ r2.total = 4 ∧
    (r1.add (· + 100) r2).map Result.total = .ok 5 :=
  ⟨{ scores := [(1, .static none 1 1 1), (101, .static none 2 1 2)] }, { scores := [(1, .static none 3 1 4)] },
   by decide +kernel, by decide +kernel, by decide +kernel⟩

/-- C34 fails: the scale of the first operand is lost for its summaries. -/
theorem add_scale : ∃ r1 r2 : Result ℕ ℕ ℕ, r1.total = 6 ∧ r2.total = 4 ∧
    (r1.add (· + 100) r2).map Result.total = .ok 7 :=
  ⟨{ scale := 2, scores := [(1, .static none 1 1 3)] }, { scores := [(2, .static none 3 1 4)] },
   by decide +kernel, by decide +kernel, by decide +kernel⟩

/-- C34 fails: a sum of results cannot be scaled: the components of the operands keep the scale they had. -/
theorem add_rescaled : ∃ r1 r2 : Result ℕ ℕ ℕ,
    (r1.add (· + 100) r2).map (fun s => (s.total, { s with scale := 10 }.total)) = .ok (7, 34) :=
  ⟨{ scores := [(1, .static none 1 1 3)] }, { scores := [(2, .static none 3 1 4)] }, by decide +kernel⟩

/-! ### fragment flows -/

/-- the contribution of a fragment flow in the English claim: node weight times unit score, negative if the directions
collide, nothing for a null termination -/
def FFlow.contribution (f : FFlow K En F) : ℚ :=
  if f.isNull then 0 else (if f.collide then -1 else 1) * f.nw * f.score.total

theorem null_total : (∀ (sc : ℚ) (c : Comp K En F), c.isNull sc = true → c.cum sc = 0) ∧
    (∀ (sc : ℚ) (l : List (K × Comp K En F)), nullL sc l = true → totalL sc l = 0) := by
  have h : ∀ n : ℕ, (∀ (sc : ℚ) (c : Comp K En F), sizeOf c ≤ n → c.isNull sc = true → c.cum sc = 0) ∧
      (∀ (sc : ℚ) (l : List (K × Comp K En F)), sizeOf l ≤ n → nullL sc l = true → totalL sc l = 0) := by
    intro n
    induction n with
    | zero =>
      constructor
      · intro sc c hc; cases c <;> simp at hc
      · intro sc l hl; cases l <;> simp at hl
    | succ n ih =>
      constructor
      · intro sc c hc hn
        cases c with
        | agg e ds =>
          simp only [Comp.isNull, List.all_eq_true, decide_eq_true_eq] at hn
          simp only [Comp.cum]
          apply List.sum_eq_zero
          intro x hx
          obtain ⟨d, hd, rfl⟩ := List.mem_map.1 hx
          exact hn d hd
        | static own e nw u => simp only [Comp.isNull, decide_eq_true_eq] at hn; simp [Comp.cum, hn]
        | inner own e nw o s p l =>
          simp only [Comp.isNull] at hn
          simp only [Comp.cum]
          rw [ih.2 s l (by simp at hc; omega) hn]; simp
      · intro sc l hl hn
        cases l with
        | nil => simp [totalL]
        | cons p l =>
          obtain ⟨k, c⟩ := p
          simp only [nullL, nullP, Bool.and_eq_true] at hn
          rw [totalL_cons, ih.1 sc c (by simp at hl; omega) hn.1, ih.2 sc l (by simp at hl; omega) hn.2]; simp
  exact ⟨fun sc c => (h (sizeOf c)).1 sc c (le_refl _), fun sc l => (h (sizeOf l)).2 sc l (le_refl _)⟩

/-- C52: whenever `frag_flow_lcia` returns, the total and the sum of the failed summaries together are the sum of the
contributions of all fragment flows. -/
theorem fragLcia_conserved (fs : List (FFlow K En F)) : ∀ (r r' : Result K En F), r.scale = 1 →
    fragFlowLcia fs r = .ok r' →
    r'.scale = 1 ∧ r'.total + r'.lost = r.total + r.lost + (fs.map FFlow.contribution).sum := by
  induction fs with
  | nil => intro r r' hs h; cases h; exact ⟨hs, by simp⟩
  | cons f fs ih =>
    intro r r' hs h
    unfold fragFlowLcia at h
    split at h
    · rename_i hc
      have : f.contribution = 0 := by
        unfold FFlow.contribution
        rcases hc with hc | hc | hc
        · simp [hc]
        · simp [hc]
        · have := null_total.2 f.score.scale f.score.scores hc
          simp [Result.total, this]
      obtain ⟨a1, a2⟩ := ih r r' hs h
      exact ⟨a1, by rw [a2]; simp [this]⟩
    · rename_i hc
      split at h
      · cases h
      · rename_i r1 h1
        obtain ⟨b1, _, b3, _⟩ := addSummary_total _ _ _ _ _ _ h1
        obtain ⟨a1, a2⟩ := ih r1 r' (by rw [b1, hs]) h
        refine ⟨a1, ?_⟩
        have hn : f.isNull = false := by
          cases hf : f.isNull with
          | false => rfl
          | true => simp [hf] at hc
        rw [a2, b3, hs]
        simp only [FFlow.contribution, hn, List.map_cons, List.sum_cons, Score.unit, Result.total]
        split <;> simp <;> ring

theorem fragLcia_distinct (fs : List (FFlow K En F)) : ∀ (r : Result K En F), r.scale = 1 →
    (fs.map FFlow.frag).Nodup → (∀ f ∈ fs, r.scores.get? f.frag = none) →
    ∃ r', fragFlowLcia fs r = .ok r' ∧ r'.failed = r.failed := by
  induction fs with
  | nil => intro r _ _ _; exact ⟨r, rfl, rfl⟩
  | cons f fs ih =>
    intro r hs hn hg
    have hn' := List.nodup_cons.1 hn
    unfold fragFlowLcia
    split
    · exact ih r hs hn'.2 fun g hg' => hg g (by simp [hg'])
    · simp only [Result.addSummary, hg f (by simp)]
      refine ih _ hs hn'.2 fun g hg' => ?_
      dsimp only
      rw [Dict.get?_set_ne]
      · exact hg g (by simp [hg'])
      · intro e; exact hn'.1 (by rw [e]; exact List.mem_map_of_mem hg')

/-- C52, for traversals in which no fragment occurs twice: the total is the sum of the contributions. -/
theorem fragLcia_total_partial (fs : List (FFlow K En F)) (hn : (fs.map FFlow.frag).Nodup) :
    ∃ r, fragFlowLcia fs {} = .ok r ∧ r.failed = [] ∧ r.total = (fs.map FFlow.contribution).sum := by
  obtain ⟨r, h1, h2⟩ := fragLcia_distinct fs ({} : Result K En F) rfl hn (fun f _ => rfl)
  refine ⟨r, h1, h2, ?_⟩
  have := (fragLcia_conserved fs _ _ rfl h1).2
  simpa [Result.lost, h2, Result.total, totalL] using this

/-- a process score -/
def exScore (v : ℚ) : Result ℕ ℕ ℕ :=
  { scores := [(4, .agg 4 [⟨4, some v, .output, ⟨[("GLO", some 3)], none⟩, "GLO", none⟩])] }

example : (fragFlowLcia [⟨1, 10, false, 2, false, 0, exScore 1⟩, ⟨2, 11, false, 5, true, 1, exScore 2⟩,
    ⟨3, 12, true, 1, false, 2, exScore 9⟩] {}).map Result.total = .ok (-24) := by decide +kernel

/-- C52 fails: the entities of the summaries are the fragment flows, whose equality includes the magnitude. If a traversal
visits a fragment twice with different magnitudes (entities 10 and 11), the second contribution is dropped. -/
theorem fragLcia_dropped : ∃ fs : List (FFlow ℕ ℕ ℕ), (fs.map FFlow.contribution).sum = 21 ∧
    (fragFlowLcia fs {}).map Result.total = .ok 6 :=
  ⟨[⟨1, 10, false, 2, false, 0, exScore 1⟩, ⟨1, 11, false, 5, false, 0, exScore 1⟩], by decide +kernel, by decide +kernel⟩

/-! ### weighting -/

/-- C53 fails: `apply_weighting` raises whenever there is a component to weigh: an aggregate score is made under its key, to
which a summary cannot be added. -/
theorem weighting_raises (ws : List (ℚ × Result K En F)) (r : Result K En F) (h : applyWeighting ws = .ok r) :
    ∀ p ∈ ws, p.2.scores = [] := by
  have hgrow1 : ∀ (w sc : ℚ) (l : List (K × Comp K En F)) (t t' : Dict K (En × ℚ)), weighOne w sc l t = .ok t' →
      t' = [] → t = [] ∧ l = [] := by
    intro w sc l
    induction l with
    | nil => intro t t' h h2; cases h; exact ⟨h2, rfl⟩
    | cons p l ih =>
      obtain ⟨k, c⟩ := p
      intro t t' h h2
      have hne : ∀ (t : Dict K (En × ℚ)) (k : K) v, t.set k v ≠ [] := by
        intro t k v; cases t with
        | nil => simp [Dict.set]
        | cons q t => obtain ⟨a, b⟩ := q; simp only [Dict.set]; split <;> simp
      unfold weighOne at h
      split at h
      · exact absurd (ih _ _ h h2).1 (hne _ _ _)
      · split at h
        · exact absurd (ih _ _ h h2).1 (hne _ _ _)
        · cases h
  have hgrow : ∀ (ws : List (ℚ × Result K En F)) (t t' : Dict K (En × ℚ)), weighAll ws t = .ok t' →
      t' = [] → t = [] ∧ ∀ p ∈ ws, p.2.scores = [] := by
    intro ws
    induction ws with
    | nil => intro t t' h h2; cases h; exact ⟨h2, fun p hp => by cases hp⟩
    | cons p ws ih =>
      obtain ⟨w, q⟩ := p
      intro t t' h h2
      unfold weighAll at h
      split at h
      · cases h
      · split at h
        · cases h
        · rename_i t1 h1
          obtain ⟨a1, a2⟩ := ih _ _ h h2
          obtain ⟨b1, b2⟩ := hgrow1 _ _ _ _ _ h1 a1
          refine ⟨b1, fun p hp => ?_⟩
          rcases List.mem_cons.1 hp with rfl | hp
          · exact b2
          · exact a2 p hp
  unfold applyWeighting at h
  split at h
  · cases h
  · rename_i t ht
    refine (hgrow ws _ t ht ?_).2
    cases t with
    | nil => rfl
    | cons q t =>
      obtain ⟨k, e, x⟩ := q
      simp [weighAdd, Result.addComponent, Dict.has, Dict.set, Result.addSummary, Dict.get?] at h

example : (applyWeighting [(2, exScore 1)]).map Result.total = .error .typeError := by decide +kernel
example : (applyWeighting [(2, ({} : Result ℕ ℕ ℕ))]).map Result.total = .ok 0 := by decide +kernel

end Lcia
