import Verif.Props.FragmentObserve

/-!
C126: traversals after observing a fragment. Also: a traversal is not affected by changes to fragments it does not reach.
-/

namespace Frg
set_option linter.unusedSectionVars false

variable {F Q : Type} [DecidableEq F] [DecidableEq Q]

theorem Same.eq_id {T : ℕ → Prop} {f f' : FF F} (h : Same id T f f') : f' = f := by
  obtain ⟨who, flow, dir, mag, nw, ⟨tg, tf, td⟩, con, sub⟩ := f
  obtain ⟨who', flow', dir', mag', nw', ⟨tg', tf', td'⟩, con', sub'⟩ := f'
  obtain ⟨h1, h2, h3, h4, h5, h6, h7, h8, h9, h10⟩ := h
  simp only at h1 h2 h3 h4 h5 h6 h7 h8 h9 h10
  have h9 : tg' = tg := h9.elim id fun ⟨i, _, a, b⟩ => by rw [a, b]; rfl
  have h10 : who' = who := h10.elim id fun ⟨i, _, a, b⟩ => by rw [a, b]; rfl
  subst_vars
  rfl

theorem Same.eqs_id {T : ℕ → Prop} {l l' : List (FF F)} (h : List.Forall₂ (Same id T) l l') : l' = l := by
  induction h with
  | nil => rfl
  | cons h _ ih => rw [h.eq_id, ih]

theorem moved_self (t : Term F) (i : ℕ) : t.moved i i = t := by
  unfold Term.moved
  split
  · rename_i h; rw [← h]
  · rfl

/-- what H and H' must have in common on U -/
structure Agree (H H' : Heap F Q) (U : ℕ → Prop) : Prop where
  parent : ∀ i, U i → (H' i).parent = (H i).parent
  kids : ∀ i, U i → (H' i).kids = (H i).kids
  flow : ∀ i, U i → (H' i).flow = (H i).flow
  dir : ∀ i, U i → (H' i).dir = (H i).dir
  bg : ∀ i, U i → (H' i).bg = (H i).bg
  bal : ∀ i, U i → (H' i).bal = (H i).bal
  cons : ∀ i, U i → (H' i).cons = (H i).cons
  terms : ∀ i, U i → (H' i).terms = (H i).terms

theorem top_agree {H H' : Heap F Q} {U : ℕ → Prop} (hA : Agree H H' U) (hp : ∀ i p, U i → (H i).parent = some p → U p) :
    ∀ (n i x : ℕ), U i → top H n i = .ok x → top H' n i = .ok x ∧ U x ∧ (H x).parent = none := by
  intro n
  induction n with
  | zero => intro i x _ h; simp [top] at h
  | succ n ih =>
    intro i x hi h
    rw [top] at h ⊢
    rw [hA.parent i hi]
    cases hpar : (H i).parent with
    | none =>
      rw [hpar] at h
      simp only [Except.ok.injEq] at h ⊢
      subst h
      exact ⟨rfl, hi, hpar⟩
    | some p =>
      rw [hpar] at h
      exact ih p x (hp i p hi hpar) h

variable {E : Env F Q} {H H' : Heap F Q} {sc : Scen} {obs obs' : Bool} {U Read : ℕ → Prop}

/-- two heaps that agree on a closed set of fragments, also in the amounts that a traversal uses, are traversed the same way -/
theorem travNode_agree (hC : Closed H sc U) (hA : Agree H H' U)
    (hev : ∀ i, U i → Read i → (H i).bal = true ∨ exchangeValue (H' i) sc obs' = exchangeValue (H i) sc obs)
    (hevb : ∀ i, U i → (H i).bal = true → ∀ v, exchangeValue (H i) sc obs = .ok v → ∃ v', exchangeValue (H' i) sc obs' = .ok v')
    (hkr : ∀ i, U i → ∀ t, termOf (H i) sc = .ok t → t.target = .process ∨ t.target = .frag i → ∀ c ∈ (H i).kids, Read c)
    (hrr : ∀ i, U i → (H i).parent = none → Read i) : ∀ (fuel : ℕ) (seen : List ℕ) (i : ℕ), U i → ((H i).parent = none → seen = []) →
    ∀ (up : ℚ) (cq : Option Q) (bal : Option ℚ), (bal = none → Read i) → (bal = none → (H i).bal = true → cq ≠ none) → ∀ r,
    travNode E H sc obs fuel seen i up cq bal = .ok r → travNode E H' sc obs' fuel seen i up cq bal = .ok r := by
  have S : Sim E H H' sc obs obs' id U Read :=
    { kidsT := fun i hi c hc => (hC.kids i hi c ((mem_children _ _).1 hc)).1
      isRef := fun i hi => by rw [id, hA.parent i hi]
      kidPar := fun i hi c hc => by rw [(hC.kids i hi c ((mem_children _ _).1 hc)).2]; simp
      kids := fun i hi => by simp only [id, children, hA.kids i hi, List.map_id_fun, List.map_id]
      flow := fun i hi => hA.flow i hi
      dir := fun i hi => hA.dir i hi
      bg := fun i hi => hA.bg i hi
      bal := fun i hi => hA.bal i hi
      cons := fun i hi => hA.cons i hi
      term := fun i hi t ht => by rw [id, moved_self, termOf_congr _ _ (hA.terms i hi)]; exact ht
      ev := fun i hi hr v hv => by
        rcases hev i hi hr with hb | he
        · obtain ⟨v', h⟩ := hevb i hi hb v hv
          exact ⟨v', h, fun h => absurd (hb.symm.trans h) (by decide)⟩
        · exact ⟨v, by rw [id, he]; exact hv, fun _ => rfl⟩
      kidsRead := fun i hi t ht h c hc => hkr i hi t ht h c ((mem_children _ _).1 hc)
      refRead := fun i hi hp => ⟨hrr i hi hp, hC.refBal i hi hp⟩
      balPar := fun i hi h c hc => hC.balPar i hi h c ((mem_children _ _).1 hc) }
  have main : ∀ n, (∀ m < n, OutAt E H H' sc obs obs' id U m) → ∀ (seen : List ℕ) (i : ℕ), U i → ((H i).parent = none → seen = []) →
      ∀ (up : ℚ) (cq : Option Q) (bal : Option ℚ), (bal = none → Read i) → (bal = none → (H i).bal = true → cq ≠ none) → ∀ r,
      travNode E H sc obs n seen i up cq bal = .ok r → travNode E H' sc obs' n seen i up cq bal = .ok r := by
    intro n hn seen i hi hs up cq bal h1 h2 r hr
    obtain ⟨l, cv⟩ := r
    obtain ⟨l', e, f⟩ := (travNode_sim S n hn seen seen i hi hs up cq bal h1 h2).1 l cv hr
    rw [Same.eqs_id f] at e
    exact e
  have out : ∀ n, OutAt E H H' sc obs obs' id U n := by
    intro n
    induction n using Nat.strong_induction_on with
    | _ n ih =>
      intro i hi t j ht htj hji
      have hj := hC.target i t j hi ht htj
      refine ⟨hji, hA.bg j hj, fun x hx => ?_, fun hbg up r hr => ?_⟩
      · obtain ⟨h1, h2, h3⟩ := top_agree hA hC.parent n j x hj hx
        refine ⟨h1, hA.flow x h2, hA.dir x h2, fun r hr => ?_⟩
        exact main n ih [] x h2 (fun _ => rfl) _ _ _ (fun _ => hrr x h2 h3) (fun _ hb => by rw [hC.refBal x h2 h3] at hb; cases hb) r hr
      · have hp := hC.bgRef i t j hi ht htj hbg
        exact main n ih [] j hj (fun _ => rfl) _ _ _ (fun _ => hrr j hj hp) (fun _ hb => by rw [hC.refBal j hj hp] at hb; cases hb) r hr
  intro fuel
  exact main fuel fun m _ => out m

/-- **C126** a traversal depends only on the fragments it can reach: whatever is done to the others, the result is the same -/
theorem traverse_local (E : Env F Q) (hC : Closed H sc U) (hU : ∀ x, U x → H' x = H x) (fuel i : ℕ) (hi : U i) (hb : (H i).bal = false)
    (l : List (FF F)) (h : traverse E H sc obs fuel i = .ok l) : traverse E H' sc obs fuel i = .ok l := by
  have hA : Agree H H' U := by constructor <;> intro i hi <;> rw [hU i hi]
  rw [traverse] at h ⊢
  cases hr : travNode E H sc obs fuel [] i 1 none none with
  | error e => rw [hr] at h; simp [Except.map] at h
  | ok r =>
    have := travNode_agree (E := E) (obs := obs) (obs' := obs) (Read := fun _ => True) hC hA (fun i hi _ => .inr (by rw [hU i hi]))
      (fun i hi _ v hv => ⟨v, by rw [hU i hi]; exact hv⟩) (fun _ _ _ _ _ _ _ => trivial) (fun _ _ _ => trivial) fuel [] i hi (fun _ => rfl) 1 none none
      (fun _ => trivial) (fun _ h => by rw [hb] at h; cases h) r hr
    rw [this]; rw [hr] at h; exact h

theorem fresh_cached {sc : Scen} (hF : Fresh H U sc) (x : ℕ) (hx : U x) : exchangeValue (H x) sc false = .ok (cachedEv (H x).evs) := by
  cases sc with
  | none => rfl
  | many l => exact absurd hF (by simp [Fresh])
  | one k =>
    cases k with
    | str s =>
      have := hF.2.2 x hx
      rw [Dict.not_mem_keys_iff] at this
      simp [exchangeValue, matchEv, Dict.has, this]
    | cached => exact absurd hF (by simp [Fresh])
    | observed => exact absurd hF (by simp [Fresh])
    | tup l => exact absurd hF (by simp [Fresh])

theorem fresh_observed {sc : Scen} (hF : Fresh H U sc) (k : Key) (hk : obsKey sc = some k) (n : Node F Q) (v : ℚ) (hv : v ≠ 0) :
    exchangeValue { n with evs := n.evs.set k (some v) } sc true = .ok v := by
  cases sc with
  | none =>
    simp only [obsKey, Option.some.injEq] at hk
    subst hk
    simp [exchangeValue, matchEv, observedEv, hv]
  | many l => exact absurd hF (by simp [Fresh])
  | one k' =>
    cases k' with
    | str s =>
      simp only [obsKey, if_neg hF.1, if_neg hF.2.1, Option.some.injEq] at hk
      subst hk
      simp [exchangeValue, matchEv, Dict.has]
    | cached => exact absurd hF (by simp [Fresh])
    | observed => exact absurd hF (by simp [Fresh])
    | tup l => exact absurd hF (by simp [Fresh])

theorem matchEv_one_ok (evs : Dict Key (Option ℚ)) (sc : Scen) (hF : Fresh H U sc) : ∃ v, matchEv evs sc = .ok v := by
  cases sc with
  | none => exact ⟨_, rfl⟩
  | many l => exact absurd hF (by simp [Fresh])
  | one k => exact ⟨_, rfl⟩

theorem exchangeValue_ok (n : Node F Q) (sc : Scen) (hF : Fresh H U sc) (obs : Bool) : ∃ v, exchangeValue n sc obs = .ok v := by
  obtain ⟨v, hv⟩ := matchEv_one_ok n.evs sc hF
  rw [exchangeValue, hv]
  cases v <;> exact ⟨_, rfl⟩

/-- **C126** after a fragment was observed, its traversal with observed values gives what its traversal with cached values gave
before, provided the subfragments it uses had been observed -/
theorem observe_traverse_partial (E : Env F Q) (hC : Closed H sc U) (hF : Fresh H U sc) (k : Key) (hk : obsKey sc = some k) (i : ℕ) (hi : U i)
    (hown : OwnValue H sc i)
    (hsub : ∀ x, U x → ¬ InTree H i x → (H x).bal = false → exchangeValue (H x) sc true = exchangeValue (H x) sc false)
    (fuel0 fuel : ℕ) (h : observeTree sc fuel0 i H = .ok () H') (l : List (FF F)) (hl : traverse E H sc false fuel i = .ok l) :
    traverse E H' sc true fuel i = .ok l := by
  have hbal : (H i).bal = false := by
    rcases hown with hp | ⟨p, t, _, hb, _⟩
    · exact hC.refBal i hi hp
    · exact hb
  have hO := observeTree_spec sc k hk fuel0 i H H' h
  have hA : Agree H H' U :=
    ⟨fun x _ => (hO.same x).1, fun x _ => (hO.same x).2.1, fun x _ => (hO.same x).2.2.2.2.2.1, fun x _ => (hO.same x).2.2.2.2.2.2.1,
     fun x _ => (hO.same x).2.2.2.2.1, fun x _ => (hO.same x).2.2.1, fun x _ => (hO.same x).2.2.2.2.2.2.2.1, fun x _ => (hO.same x).2.2.2.1⟩
  let Read : ℕ → Prop := fun x => (H x).bal = true ∨ OwnValue H sc x
  have hev : ∀ x, U x → Read x → (H x).bal = true ∨ exchangeValue (H' x) sc true = exchangeValue (H x) sc false := by
    intro x hx hr
    rcases hr with hb | ho
    · exact .inl hb
    · cases hb : (H x).bal with
      | true => exact .inl rfl
      | false =>
        right
        by_cases hB : InTree H i x
        · rw [(hO x).1 ⟨hB, ho⟩, fresh_observed hF k hk _ _ (cachedEv_ne _), fresh_cached hF x hx]
        · rw [(hO x).2 (fun h => hB h.1)]
          exact hsub x hx hB hb
  rw [traverse] at hl ⊢
  cases hr : travNode E H sc false fuel [] i 1 none none with
  | error e => rw [hr] at hl; simp [Except.map] at hl
  | ok r =>
    have := travNode_agree (E := E) (obs := false) (obs' := true) (Read := Read) hC hA hev
      (fun x _ _ v _ => exchangeValue_ok _ _ hF true)
      (fun p hp t ht htg c hc => by
        cases hb : (H c).bal with
        | true => exact .inl hb
        | false =>
          refine .inr (.inr ⟨p, t, (hC.kids p hp c hc).2, hb, ht, ?_⟩)
          rcases htg with h | h
          · exact .inr (.inl h)
          · exact .inr (.inr ⟨p, h, .inl rfl⟩))
      (fun x hx hp => .inr (.inl hp)) fuel [] i hi (fun _ => rfl) 1 none none
      (fun _ => .inr hown) (fun _ h => by rw [hbal] at h; cases h) r hr
    rw [this]; rw [hr] at hl; exact hl

/-- **C126** and so observing such a fragment does not raise -/
theorem observe_ok_partial (E : Env F Q) (hC : Closed H sc U) (hF : Fresh H U sc) (k : Key) (hk : obsKey sc = some k) (i : ℕ) (hi : U i)
    (hown : OwnValue H sc i)
    (hsub : ∀ x, U x → ¬ InTree H i x → (H x).bal = false → exchangeValue (H x) sc true = exchangeValue (H x) sc false)
    (fuel : ℕ) (h : observeTree sc fuel i H = .ok () H') (l : List (FF F)) (hl : traverse E H sc false fuel i = .ok l) :
    observe E sc fuel i H = .ok () H' := by
  rw [observe, h]
  simp only [Out.bind, observe_traverse_partial E hC hF k hk i hi hown hsub fuel fuel h l hl]

/-! ### examples -/

/-- the fragment that n is terminated to -/
def targetOf (n : Node F Q) (sc : Scen) : Option ℕ :=
  match termOf n sc with
  | .ok t => match t.target with
    | .frag j => some j
    | _ => none
  | _ => none

theorem targetOf_some {n : Node F Q} {sc : Scen} {t : Term F} {j : ℕ} (h : termOf n sc = .ok t) (hj : t.target = .frag j) : targetOf n sc = some j := by
  rw [targetOf, h]; simp only [hj]

/-- a closed set of the fragments below n, by computation -/
def closedB (H : Heap F Q) (sc : Scen) (n : ℕ) : Prop :=
  ∀ i < n, (∀ c ∈ (H i).kids, c < n ∧ (H c).parent = some i ∧ ((H i).cons = none → (H c).bal = false)) ∧ (∀ p ∈ (H i).parent, p < n) ∧
    (∀ j ∈ targetOf (H i) sc, j < n ∧ ((H j).bg = true → (H j).parent = none)) ∧ ((H i).parent = none → (H i).bal = false)

instance (H : Heap F Q) (sc : Scen) (n : ℕ) : Decidable (closedB H sc n) := by unfold closedB; infer_instance

theorem closed_of (H : Heap F Q) (sc : Scen) (n : ℕ) (h : closedB H sc n) : Closed H sc (· < n) where
  kids i hi c hc := ⟨((h i hi).1 c hc).1, ((h i hi).1 c hc).2.1⟩
  parent i p hi hp := (h i hi).2.1 p hp
  target i t j hi ht hj := ((h i hi).2.2.1 j (targetOf_some ht hj)).1
  refBal i hi hp := (h i hi).2.2.2 hp
  balPar i hi hc c hk := ((h i hi).1 c hk).2.2 hc
  bgRef i t j hi ht hj hb := ((h i hi).2.2.1 j (targetOf_some ht hj)).2 hb

/-- the fragments of `exH`, after fragment 5 was observed -/
def obH : Heap ℕ ℕ := (observe exE .none 5 5 exH).state

/-- … and after fragment 0 was -/
def obH' : Heap ℕ ℕ := (observeTree .none 5 0 obH).state

def isOk {σ ε α : Type} : Out σ ε α → Bool
  | .ok _ _ => true
  | .err _ _ => false

theorem isOk_state {σ ε : Type} {o : Out σ ε Unit} (h : isOk o = true) : o = .ok () o.state := by
  cases o with
  | ok a s => rfl
  | err e s => simp [isOk] at h

/-- what is below i, by computation -/
def belowB (H : Heap F Q) (i : ℕ) : ℕ → ℕ → Bool
  | 0, _ => false
  | n + 1, x => decide (x = i) || match (H x).parent with
    | none => false
    | some p => decide (x ∈ (H p).kids) && belowB H i n p

theorem below_child {H : Heap F Q} {i p x : ℕ} (h : InTree H i p) (hx : x ∈ (H p).kids) : InTree H i x := by
  induction h with
  | self i => exact .child _ _ _ hx (.self _)
  | child i c p hc _ ih => exact .child _ _ _ hc (ih hx)

theorem belowB_sound (H : Heap F Q) (i : ℕ) : ∀ n x, belowB H i n x = true → InTree H i x := by
  intro n
  induction n with
  | zero => intro x h; simp [belowB] at h
  | succ n ih =>
    intro x h
    rw [belowB, Bool.or_eq_true] at h
    rcases h with h | h
    · rw [of_decide_eq_true h]; exact .self _
    · split at h
      · simp at h
      · rename_i p _
        rw [Bool.and_eq_true] at h
        exact below_child (ih p h.2) (of_decide_eq_true h.1)

/-- the hypotheses of `observe_traverse_partial` and `observe_ok_partial` are met for fragment 0 once the subfragment 5 has been observed -/
example : Closed obH .none (· < 9) ∧ Fresh obH (· < 9) .none ∧ OwnValue obH .none 0 ∧ observeTree .none 5 0 obH = .ok () obH' ∧
    (∀ x, x < 9 → ¬ InTree obH 0 x → (obH x).bal = false → exchangeValue (obH x) .none true = exchangeValue (obH x) .none false) ∧
    view (traverse exE obH .none false 9 0) = .ok
      [(.frag 0, 10, 1), (.frag 1, 2, 2), (.frag 2, 4, 4), (.frag 5, 4, 2), (.frag 8, 14, 14), (.ghost 5, 6, 6), (.frag 4, 1, 3), (.frag 3, -5, -5)] ∧
    view (traverse exE obH' .none true 9 0) = view (traverse exE obH .none false 9 0) ∧
    view (traverse exE obH .none true 9 0) = .ok [(.frag 0, 10, 1), (.frag 1, 0, 0), (.frag 2, 0, 0), (.frag 4, 0, 0), (.frag 3, -10, -10)] := by
  refine ⟨closed_of _ _ _ (by decide +kernel), trivial, .inl (by decide +kernel), ?_, ?_, by decide +kernel, by decide +kernel, by decide +kernel⟩
  · exact isOk_state (o := observeTree .none 5 0 obH) (by decide +kernel)
  · have : ∀ x < 9, belowB obH 0 5 x = true ∨ (obH x).bal = true ∨ exchangeValue (obH x) .none true = exchangeValue (obH x) .none false := by decide +kernel
    intro x hx hb hbal
    rcases this x hx with h | h | h
    · exact absurd (belowB_sound _ _ _ _ h) hb
    · rw [hbal] at h; cases h
    · exact h

/-- the subfragments have to be observed, too: without that, the observed values of fragment 0 give another result -/
theorem observe_subfragment : isOk (observe exE .none 5 0 exH) = true ∧
    (view (traverse exE (observe exE .none 5 0 exH).state .none true 9 0) ≠ view (traverse exE exH .none false 9 0)) := by
  decide +kernel

/-- a named scenario: observing fragment 0 in a new scenario copies the cached values there -/
example : Closed obH (.one (.str "b")) (· < 9) ∧ Fresh obH (· < 9) (.one (.str "b")) ∧ isOk (observeTree (.one (.str "b")) 5 0 obH) = true ∧
    ((observe exE (.one (.str "b")) 5 0 exH).state 4).evs = [(.cached, some 1), (.observed, some 0), (.str "b", some 1)] := by
  refine ⟨closed_of _ _ _ (by decide +kernel), ⟨by decide, by decide, by decide +kernel⟩, by decide +kernel, by decide +kernel⟩

/-- `traverse_local`: fragment 9 is not reached from fragment 0 -/
example : Closed exH .none (· < 9) ∧ ∀ x, x < 9 → (exH.put 9 { flow := 7, dir := .output, evs := [], terms := [] }) x = exH x :=
  ⟨closed_of _ _ _ (by decide +kernel), fun x hx => by simp [Heap.put, Function.update, show x ≠ 9 by omega]⟩

end Frg
