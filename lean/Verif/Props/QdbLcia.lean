import Verif.Props.QdbRepeat

/-!
C66: LCIA in the quantity database. Every exchange is scored on its own, so that the total does not depend on the order of the
inventory; a factor is obtained once and kept; the second run gives the same result.
-/

namespace Qdb
variable {Q : Type} [DecidableEq Q]

/-! ### what a conversion depends on -/

/-- what is seen of a call: the outcome, and the flow afterwards -/
def obs {α : Type} (f : ℕ) (o : Out (St Q) Err α) : (Option α × Option Err) × FlowO Q := ((o.value?, o.error?), o.state.flows f)

/-- two states with the same store, the same flow `f`, and the same flows behind the factors that a conversion of `f` may use -/
structure Agree (E : Env Q) (inds : List ℕ) (comp f : ℕ) (s t : St Q) : Prop where
  fq : t.fq = s.fq
  own : t.flows f = s.flows f
  stored : ∀ i ∈ inds, ∀ q d cf, Near E comp d → cf ∈ (s.lookup i (some q)).get d →
    cf.flow ≠ f ∧ t.flows cf.flow = s.flows cf.flow

theorem Agree.lookup {E : Env Q} {inds : List ℕ} {comp f : ℕ} {s t : St Q} (h : Agree E inds comp f s t) (i : ℕ)
    (q : Option ℕ) : t.lookup i q = s.lookup i q := by
  unfold St.lookup; rw [h.fq]

theorem find?_congr_mem {α : Type} {p p' : α → Bool} (l : List α) (h : ∀ a ∈ l, p a = p' a) : l.find? p = l.find? p' := by
  induction l with
  | nil => rfl
  | cons a l ih =>
    simp only [List.find?, h a (by simp)]
    split
    · rfl
    · exact ih fun b hb => h b (by simp [hb])

theorem Agree.ref {E : Env Q} {inds : List ℕ} {comp f : ℕ} {s t : St Q} (h : Agree E inds comp f s t) {i : ℕ} (hi : i ∈ inds)
    {q : Option ℕ} {d : ℕ} {cf : CF Q} (hd : Near E comp d) (hm : cf ∈ (s.lookup i q).get d) :
    t.flows cf.flow = s.flows cf.flow := by
  cases q with
  | none => rw [lookup_none] at hm; simp at hm
  | some q => exact (h.stored i hi q d cf hd hm).2

theorem convGen_agree {E : Env Q} {inds : List ℕ} {comp f : ℕ} {s t : St Q} (h : Agree E inds comp f s t) (a b : Option ℕ) :
    ∀ js : List ℕ, (∀ j ∈ js, j ∈ inds) → convGen E t comp a b js = convGen E s comp a b js := by
  intro js
  induction js with
  | nil => intro _; rfl
  | cons j js ih =>
    intro hj
    simp only [convGen, h.lookup, ih fun k hk => hj k (by simp [hk])]
    cases hf : find E (s.lookup j a) comp 3 true with
    | error e => rfl
    | ok l =>
      simp only
      have : (E.ord.f l).find? (fun cf => decide (refInd E t cf.flow = b)) =
          (E.ord.f l).find? (fun cf => decide (refInd E s cf.flow = b)) := by
        apply find?_congr_mem
        intro cf hm
        obtain ⟨d, hd, hm'⟩ := find_near hf ((E.ord.mem l cf).mp hm)
        unfold refInd
        rw [h.ref (hj j (by simp)) hd hm']
      rw [this]

theorem lookforConv_agree {E : Env Q} {inds : List ℕ} {comp f : ℕ} {s t : St Q} (h : Agree E inds comp f s t)
    (a b : Option ℕ) (loc : Flo.Loc) : lookforConv E t inds comp a b loc = lookforConv E s inds comp a b loc := by
  have key : ∀ a b cf, convGen E s comp a b inds = .ok (some cf) → cfItem t cf loc = cfItem s cf loc := by
    intro a b cf hc
    obtain ⟨i, hi, d, hd, hm, _⟩ := convGen_mem inds hc
    unfold cfItem
    rw [h.ref hi hd hm]
  unfold lookforConv
  simp only [convGen_agree h _ _ inds fun _ hj => hj]
  cases h1 : convGen E s comp a b inds with
  | error e => rfl
  | ok o =>
    cases o with
    | some cf => simp only [key a b cf h1]
    | none =>
      simp only
      cases h2 : convGen E s comp b a inds with
      | error e => rfl
      | ok o =>
        cases o with
        | none => rfl
        | some cf => simp only [key b a cf h2]

theorem obs_onFlow (s t : St Q) (f : ℕ) (r : Out (Flo.State Q) Flo.Err Unit) (h : t.flows f = s.flows f) :
    obs f (onFlow t f r) = obs f (onFlow s f r) := by
  unfold onFlow
  simp only [h]
  split <;> simp [obs, Out.value?, Out.error?, Out.state]

theorem obs_document (s t : St Q) (f : ℕ) (q : Option Q) (v : ℚ) (loc : Flo.Loc) (h : t.flows f = s.flows f) :
    obs f (document t f q v loc) = obs f (document s f q v loc) := by
  unfold document
  split
  · simp [obs, Out.value?, Out.error?, Out.state, h]
  · rw [h]; exact obs_onFlow s t f _ h

/-- calls that look the same are both results or both errors -/
theorem obs_cases {α : Type} {f : ℕ} {o o' : Out (St Q) Err α} (h : obs f o' = obs f o) :
    (∃ a s s', o = .ok a s ∧ o' = .ok a s' ∧ s'.flows f = s.flows f) ∨
      (∃ e s s', o = .err e s ∧ o' = .err e s' ∧ s'.flows f = s.flows f) := by
  cases o with
  | ok a s =>
    cases o' with
    | ok a' s' =>
      simp only [obs, Out.value?, Out.error?, Out.state, Prod.mk.injEq, Option.some.injEq, and_true] at h
      exact .inl ⟨a, s, s', rfl, by rw [h.1], h.2⟩
    | err e s' => simp [obs, Out.value?, Out.error?] at h
  | err e s =>
    cases o' with
    | ok a' s' => simp [obs, Out.value?, Out.error?] at h
    | err e' s' =>
      simp only [obs, Out.value?, Out.error?, Out.state, Prod.mk.injEq, Option.some.injEq, true_and] at h
      exact .inr ⟨e, s, s', rfl, by rw [h.1], h.2⟩

theorem convFromFlow_agree (E : Env Q) {f : ℕ} {s t : St Q} (h : t.flows f = s.flows f) (a : Option ℕ) :
    convFromFlow E t f a = convFromFlow E s f a := by
  unfold convFromFlow; rw [h]

theorem convOne_agree {E : Env Q} {inds : List ℕ} {comp refQ f q : ℕ} {s t : St Q} (h : Agree E inds comp f s t) (loc : Flo.Loc)
    {cf : CF Q} (hcf : ∃ i ∈ inds, ∃ d, Near E comp d ∧ cf ∈ (s.lookup i (some q)).get d) :
    obs f (convOne E inds comp refQ (some f) loc cf t) = obs f (convOne E inds comp refQ (some f) loc cf s) := by
  obtain ⟨i, hi, d, hd, hm⟩ := hcf
  have hfl := h.ref hi hd hm
  have h1 : cfItem t cf loc = cfItem s cf loc := by unfold cfItem; rw [hfl]
  have h2 : refInd E t cf.flow = refInd E s cf.flow := by unfold refInd; rw [hfl]
  unfold convOne
  simp only [h1, h2, hfl, Option.elim, convFromFlow_agree E h.own, lookforConv_agree h]
  have plain : ∀ {α : Type} (a : α), obs f (Out.ok (ε := Err) a t) = obs f (Out.ok (ε := Err) a s) := by
    intro α a; simp [obs, Out.value?, Out.error?, Out.state, h.own]
  have plainE : ∀ {α : Type} (e : Err), obs f (Out.err (α := α) e t) = obs f (Out.err (α := α) e s) := by
    intro α e; simp [obs, Out.value?, Out.error?, Out.state, h.own]
  split
  · split
    · exact plain _
    · exact plainE _
  · split
    · split
      · exact plain _
      · exact plainE _
    · split
      · exact plainE _
      · exact plain _
      · exact plainE _
      · rename_i r _
        split
        · rcases obs_cases (obs_document s t f (s.flows cf.flow).st.ref r loc h.own) with ⟨a, s1, s2, e1, e2, e3⟩ |
            ⟨e, s1, s2, e1, e2, e3⟩
          · rw [e1, e2]; simp [obs, Out.bind, Out.value?, Out.error?, Out.state, e3]
          · rw [e1, e2]; simp [obs, Out.bind, Out.value?, Out.error?, Out.state, e3]
        · exact plainE _

theorem Agree.step {E : Env Q} {inds : List ℕ} {comp f : ℕ} {s t s1 t1 : St Q} (h : Agree E inds comp f s t)
    (hs : Frame (some f) s s1) (ht : Frame (some f) t t1) (ho : t1.flows f = s1.flows f) : Agree E inds comp f s1 t1 := by
  refine ⟨by rw [ht.1, hs.1, h.fq], ho, ?_⟩
  intro i hi q d cf hd hm
  rw [frame_lookup hs] at hm
  obtain ⟨hne, he⟩ := h.stored i hi q d cf hd hm
  refine ⟨hne, ?_⟩
  rw [ht.2.2.2.1 cf.flow (by simpa using hne), hs.2.2.2.1 cf.flow (by simpa using hne), he]

theorem convLoop_agree {E : Env Q} {inds : List ℕ} {comp refQ f q : ℕ} (loc : Flo.Loc) (cfs : List (CF Q)) :
    ∀ {s t : St Q}, Agree E inds comp f s t →
      (∀ cf ∈ cfs, ∃ i ∈ inds, ∃ d, Near E comp d ∧ cf ∈ (s.lookup i (some q)).get d) →
      obs f (convLoop E inds comp refQ (some f) loc cfs t) = obs f (convLoop E inds comp refQ (some f) loc cfs s) := by
  induction cfs with
  | nil => intro s t h _; simp [convLoop, obs, Out.value?, Out.error?, Out.state, h.own]
  | cons cf cfs ih =>
    intro s t h hcf
    simp only [convLoop]
    have fs := convOne_frame E inds comp refQ (some f) loc cf s
    have ft := convOne_frame E inds comp refQ (some f) loc cf t
    rcases obs_cases (convOne_agree (refQ := refQ) h loc (hcf cf (by simp))) with ⟨o, s1, t1, e1, e2, e3⟩ | ⟨e, s1, t1, e1, e2, e3⟩
    · rw [e1] at fs
      rw [e2] at ft
      have fs : Frame (some f) s s1 := fs
      have ft : Frame (some f) t t1 := ft
      rw [e1, e2]
      simp only [Out.bind]
      have h' := h.step fs ft e3
      have hcf' : ∀ cf ∈ cfs, ∃ i ∈ inds, ∃ d, Near E comp d ∧ cf ∈ (s1.lookup i (some q)).get d := by
        intro cf hc
        obtain ⟨i, hi, d, hd, hm⟩ := hcf cf (by simp [hc])
        exact ⟨i, hi, d, hd, by rw [frame_lookup fs]; exact hm⟩
      rcases obs_cases (ih h' hcf') with ⟨r, s2, t2, g1, g2, g3⟩ | ⟨e, s2, t2, g1, g2, g3⟩
      · rw [g1, g2]
        cases o <;> simp [obs, Out.value?, Out.error?, Out.state, g3]
      · rw [g1, g2]; simp [obs, Out.value?, Out.error?, Out.state, g3]
    · rw [e1, e2]; simp [obs, Out.bind, Out.value?, Out.error?, Out.state, e3]

/-- a conversion depends on the flow, the store, and the flows behind the stored factors, on nothing else -/
theorem convert_agree {E : Env Q} {f q : ℕ} {s t : St Q} {loc : Flo.Loc} {quell : Option Bool} (hfq : t.fq = s.fq)
    (hown : t.flows f = s.flows f)
    (h : ∀ comp, (s.flows f).comp = some comp → Agree E (s.flows f).inds comp f s t) :
    obs f (convert E (.flow f) q loc quell t) = obs f (convert E (.flow f) q loc quell s) := by
  unfold convert
  have hr : refInd E t f = refInd E s f := by unfold refInd; rw [hown]
  simp only [hr, hown]
  have plain : ∀ {α : Type} (a : α), obs f (Out.ok (ε := Err) a t) = obs f (Out.ok (ε := Err) a s) := by
    intro α a; simp [obs, Out.value?, Out.error?, Out.state, hown]
  have plainE : ∀ {α : Type} (e : Err), obs f (Out.err (α := α) e t) = obs f (Out.err (α := α) e s) := by
    intro α e; simp [obs, Out.value?, Out.error?, Out.state, hown]
  unfold convertCore
  cases refInd E s f with
  | none => exact plain _
  | some refQ =>
    simp only
    split
    · exact plain _
    · cases hc : (s.flows f).comp with
      | none => exact plainE _
      | some comp =>
        simp only
        split
        · exact plain _
        · have hl : lookupCfs E t (s.flows f).inds comp q = lookupCfs E s (s.flows f).inds comp q := by
            unfold lookupCfs St.lookup
            simp only [hfq]
          unfold convertValues
          rw [hl]
          cases hk : lookupCfs E s (s.flows f).inds comp q with
          | error e => simp only [Out.bind]; exact plainE _
          | ok cfs =>
            simp only
            have := convLoop_agree (refQ := refQ) loc (E.ord.f cfs) (h comp hc)
              fun cf hm => lookupCfs_mem hk ((E.ord.mem cfs cf).mp hm)
            have fs := convLoop_frame E (s.flows f).inds comp refQ (some f) loc (E.ord.f cfs) s
            rcases obs_cases this with ⟨r, s1, t1, e1, e2, e3⟩ | ⟨e, s1, t1, e1, e2, e3⟩
            · rw [e1, e2]
              simp only [Out.bind]
              by_cases hb : (r.2 && r.1.isEmpty) = true
              · simp only [hb, if_true]; simp [obs, Out.value?, Out.error?, Out.state, e3]
              · simp only [hb, Bool.false_eq_true, if_false]
                cases r.1 with
                | nil => simp [obs, Out.value?, Out.error?, Out.state, e3]
                | cons v vs =>
                  simp only [e3]
                  split
                  · split <;> simp [obs, Out.value?, Out.error?, Out.state, e3]
                  · simp [obs, Out.value?, Out.error?, Out.state, e3]
            · rw [e1, e2]; simp [obs, Out.bind, Out.value?, Out.error?, Out.state, e3]

/-! ### one exchange -/

theorem bind_frame {α β : Type} {f : Option ℕ} {s : St Q} {o : Out (St Q) Err α} {g : α → St Q → Out (St Q) Err β}
    (h : Frame f s o.state) (hg : ∀ a s1, Frame f s s1 → Frame f s (g a s1).state) : Frame f s (o.bind g).state := by
  cases o with
  | ok a s1 => exact hg a s1 h
  | err e s1 => exact h

theorem obtain_frame (E : Env Q) (q : Q) (loc : Flo.Loc) (refresh : Bool) (quell : Option Bool) (f : ℕ) (s : St Q) :
    Frame (some f) s (obtain E q loc refresh quell f s).state := by
  unfold obtain
  split
  · have h1 := convert_frame E f (E.ind q) loc quell s
    have add : ∀ (v : Option ℚ) (s1 : St Q), Frame (some f) s s1 →
        Frame (some f) s ((onFlow s1 f (Flo.addFactor q (v.elim .none .num) refresh none (s1.flows f).st)).bind
          fun _ s => (.ok true s : Out (St Q) Err Bool)).state := by
      intro v s1 hf
      obtain ⟨k1, k2⟩ := addFactor_keeps q (v.elim .none .num) refresh none (s1.flows f).st
      have := onFlow_frame s1 f _ k1 k2
      exact bind_frame (hf.trans this) fun _ s2 h2 => h2
    simp only
    cases hc : convert E (.flow f) (E.ind q) loc quell s with
    | ok v s1 => rw [hc] at h1; exact add v s1 h1
    | err e s1 =>
      rw [hc] at h1
      cases e <;> first | exact h1 | exact add none s1 h1
  · exact Frame.refl _ _

theorem lciaOne_frame (E : Env Q) (q : Q) (loc : Flo.Loc) (refresh : Bool) (quell : Option Bool) (x : Exch) (s : St Q) :
    Frame (some x.flow) s (lciaOne E q loc refresh quell x s).state := by
  unfold lciaOne
  refine bind_frame (obtain_frame ..) fun go s1 h1 => ?_
  cases go with
  | false => exact h1
  | true =>
    simp only [if_true]
    split
    · exact h1
    · split
      · exact h1
      · split <;> exact h1

theorem obtain_agree {E : Env Q} {f : ℕ} {q : Q} {s t : St Q} {loc : Flo.Loc} {refresh : Bool} {quell : Option Bool}
    (hfq : t.fq = s.fq) (hown : t.flows f = s.flows f)
    (h : ∀ comp, (s.flows f).comp = some comp → Agree E (s.flows f).inds comp f s t) :
    obs f (obtain E q loc refresh quell f t) = obs f (obtain E q loc refresh quell f s) := by
  unfold obtain
  simp only [hown]
  split
  · have add : ∀ (v : Option ℚ) (s1 t1 : St Q), t1.flows f = s1.flows f →
        obs f ((onFlow t1 f (Flo.addFactor q (v.elim .none .num) refresh none (t1.flows f).st)).bind
          fun _ s => (.ok true s : Out (St Q) Err Bool)) =
        obs f ((onFlow s1 f (Flo.addFactor q (v.elim .none .num) refresh none (s1.flows f).st)).bind
          fun _ s => (.ok true s : Out (St Q) Err Bool)) := by
      intro v s1 t1 e
      rw [e]
      rcases obs_cases (obs_onFlow s1 t1 f (Flo.addFactor q (v.elim .none .num) refresh none (s1.flows f).st) e) with
        ⟨a, s2, t2, e1, e2, e3⟩ | ⟨er, s2, t2, e1, e2, e3⟩
      · rw [e1, e2]; simp [obs, Out.bind, Out.value?, Out.error?, Out.state, e3]
      · rw [e1, e2]; simp [obs, Out.bind, Out.value?, Out.error?, Out.state, e3]
    rcases obs_cases (convert_agree (q := E.ind q) (loc := loc) (quell := quell) hfq hown h) with
      ⟨v, s1, t1, e1, e2, e3⟩ | ⟨er, s1, t1, e1, e2, e3⟩
    · rw [e1, e2]; exact add v s1 t1 e3
    · rw [e1, e2]
      cases er <;> first | exact add none s1 t1 e3 | simp [obs, Out.value?, Out.error?, Out.state, e3]
  · simp [obs, Out.value?, Out.error?, Out.state, hown]

theorem lciaOne_agree {E : Env Q} {x : Exch} {q : Q} {s t : St Q} {loc : Flo.Loc} {refresh : Bool} {quell : Option Bool}
    (hfq : t.fq = s.fq) (hown : t.flows x.flow = s.flows x.flow)
    (h : ∀ comp, (s.flows x.flow).comp = some comp → Agree E (s.flows x.flow).inds comp x.flow s t) :
    obs x.flow (lciaOne E q loc refresh quell x t) = obs x.flow (lciaOne E q loc refresh quell x s) := by
  unfold lciaOne
  rcases obs_cases (obtain_agree (q := q) (loc := loc) (refresh := refresh) (quell := quell) hfq hown h) with
    ⟨go, s1, t1, e1, e2, e3⟩ | ⟨er, s1, t1, e1, e2, e3⟩
  · rw [e1, e2]
    simp only [Out.bind, e3]
    have plain : ∀ {α : Type} (a : α), obs x.flow (Out.ok (ε := Err) a t1) = obs x.flow (Out.ok (ε := Err) a s1) := by
      intro α a; simp [obs, Out.value?, Out.error?, Out.state, e3]
    have plainE : ∀ {α : Type} (e : Err), obs x.flow (Out.err (α := α) e t1) = obs x.flow (Out.err (α := α) e s1) := by
      intro α e; simp [obs, Out.value?, Out.error?, Out.state, e3]
    cases go with
    | false => exact plain _
    | true =>
      simp only [if_true]
      split
      · exact plain _
      · split
        · exact plainE _
        · split <;> exact plain _
  · rw [e1, e2]; simp [obs, Out.bind, Out.value?, Out.error?, Out.state, e3]

/-! ### a flow that is settled -/

/-- the only call that raises MissingCompartment is the one for a flow without a known compartment -/
theorem convert_missing {E : Env Q} {q : ℕ} {loc : Flo.Loc} {quell : Option Bool} {f : ℕ} {u s0 : St Q}
    (hu : convert E (.flow f) q loc quell u = .err .missing s0) :
    (∃ r, refInd E u f = some r ∧ r ≠ q) ∧ (u.flows f).comp = none ∧ s0 = u := by
  unfold convert convertCore at hu
  simp only at hu
  cases hr : refInd E u f with
  | none => rw [hr] at hu; simp at hu
  | some r =>
    rw [hr] at hu
    simp only at hu
    by_cases e : r = q
    · simp [e] at hu
    · simp only [e, if_false] at hu
      cases hcp : (u.flows f).comp with
      | none =>
        rw [hcp] at hu
        simp only [Out.err.injEq, true_and] at hu
        exact ⟨⟨r, rfl, e⟩, rfl, hu.symm⟩
      | some comp =>
        exfalso
        rw [hcp] at hu
        simp only at hu
        split at hu
        · simp at hu
        · have hno : ∀ s9, convertValues E (u.flows f).inds comp r (q) (some f) loc u ≠ .err .missing s9 := by
            intro s9 e9
            have hone : ∀ cf u1 s9, convOne E (u.flows f).inds comp r (some f) loc cf u1 ≠ .err .missing s9 := by
              intro cf u1 s9 e8
              unfold convOne at e8
              simp only at e8
              have hgen : ∀ a b js, convGen E u1 comp a b js ≠ .error .missing := by
                intro a b js
                induction js with
                | nil => simp [convGen]
                | cons j js ihj =>
                  simp only [convGen]
                  cases hf : find E (u1.lookup j a) comp 3 true with
                  | error e =>
                    simp only
                    intro e7
                    simp only [Except.error.injEq] at e7
                    rw [e7] at hf
                    have := ((find_error_iff ..).mp hf).1
                    simp at this
                  | ok l =>
                    simp only
                    split
                    · simp
                    · exact ihj
              have hlook : ∀ a b, lookforConv E u1 (u.flows f).inds comp a b loc ≠ .error .missing := by
                intro a b e7
                unfold lookforConv at e7
                cases h1 : convGen E u1 comp a b (u.flows f).inds with
                | error e => rw [h1] at e7; simp only [Except.error.injEq] at e7; rw [e7] at h1; exact hgen _ _ _ h1
                | ok o =>
                  rw [h1] at e7
                  cases o with
                  | some cf => simp at e7
                  | none =>
                    simp only at e7
                    cases h2 : convGen E u1 comp b a (u.flows f).inds with
                    | error e => rw [h2] at e7; simp only [Except.error.injEq] at e7; rw [e7] at h2; exact hgen _ _ _ h2
                    | ok o =>
                      rw [h2] at e7
                      cases o with
                      | none => simp at e7
                      | some cf =>
                        simp only at e7
                        split at e7
                        · split at e7 <;> simp at e7
                        · simp at e7
              have hdoc : ∀ qq vv s8, document u1 f qq vv loc ≠ .err .missing s8 := by
                intro qq vv s8 e7
                unfold document at e7
                split at e7
                · simp at e7
                · unfold onFlow at e7
                  simp only at e7
                  split at e7 <;> simp at e7
              split at e8
              · split at e8 <;> simp at e8
              · split at e8
                · split at e8 <;> simp at e8
                · split at e8
                  · rename_i hl
                    simp only [Out.err.injEq] at e8
                    rw [e8.1] at hl
                    exact hlook _ _ hl
                  · simp at e8
                  · simp at e8
                  · split at e8
                    · generalize hd : document u1 f (u1.flows cf.flow).st.ref _ loc = od at e8
                      cases od with
                      | ok a s8 => simp [Out.bind] at e8
                      | err e s8 =>
                        simp only [Out.bind, Out.err.injEq] at e8
                        rw [e8.1] at hd
                        exact hdoc _ _ _ hd
                    · simp at e8
            have hloop : ∀ cfs u1 s9, convLoop E (u.flows f).inds comp r (some f) loc cfs u1 ≠ .err .missing s9 := by
              intro cfs
              induction cfs with
              | nil => intro u1 s9; simp [convLoop]
              | cons cf cfs ihc =>
                intro u1 s9 e8
                simp only [convLoop] at e8
                cases h1 : convOne E (u.flows f).inds comp r (some f) loc cf u1 with
                | err e s8 =>
                  rw [h1] at e8
                  simp only [Out.bind, Out.err.injEq] at e8
                  rw [e8.1] at h1
                  exact hone _ _ _ h1
                | ok o s8 =>
                  rw [h1] at e8
                  simp only [Out.bind] at e8
                  cases h2 : convLoop E (u.flows f).inds comp r (some f) loc cfs s8 with
                  | err e s7 =>
                    rw [h2] at e8
                    simp only [Out.err.injEq] at e8
                    rw [e8.1] at h2
                    exact ihc _ _ h2
                  | ok o2 s7 => rw [h2] at e8; cases o <;> simp at e8
            unfold convertValues at e9
            cases hl : lookupCfs E u (u.flows f).inds comp (q) with
            | error e =>
              obtain ⟨rr, hrr⟩ := lookupLoop_ok E u comp (q) (u.flows f).inds []
              unfold lookupCfs at hl
              rw [hrr] at hl
              simp at hl
            | ok cfs =>
              rw [hl] at e9
              simp only at e9
              cases h2 : convLoop E (u.flows f).inds comp r (some f) loc (E.ord.f cfs) u with
              | err e s7 =>
                rw [h2] at e9
                simp only [Out.bind, Out.err.injEq] at e9
                rw [e9.1] at h2
                exact hloop _ _ _ h2
              | ok o2 s7 =>
                rw [h2] at e9
                simp only [Out.bind] at e9
                split at e9 <;> simp at e9
          cases hv : convertValues E (u.flows f).inds comp r (q) (some f) loc u with
          | err e s9 =>
            rw [hv] at hu
            simp only [Out.bind, Out.err.injEq] at hu
            rw [hu.1] at hv
            exact hno _ hv
          | ok vals s9 =>
            rw [hv] at hu
            simp only [Out.bind] at hu
            repeat' split at hu
            all_goals simp at hu

/-- after its factor was obtained, or its exchange abandoned, a flow is left as it is -/
theorem obtain_settled {E : Env Q} {q : Q} {loc : Flo.Loc} {quell : Option Bool} {f : ℕ} {s s2 : St Q} {go : Bool}
    (ho : obtain E q loc false quell f s = .ok go s2) (t : St Q) (ht : t.flows f = s2.flows f) :
    obtain E q loc false quell f t = .ok go t := by
  unfold obtain at ho
  simp only [Bool.false_or] at ho
  cases hh : (s.flows f).st.chars.has q with
  | true =>
    rw [hh] at ho
    simp only [Bool.not_true, Bool.false_eq_true, if_false, Out.ok.injEq] at ho
    obtain ⟨rfl, rfl⟩ := ho
    unfold obtain
    simp [ht, hh]
  | false =>
    rw [hh] at ho
    simp only [Bool.not_false, if_true] at ho
    have added : ∀ (v : Option ℚ) (s3 : St Q),
        (onFlow s3 f (Flo.addFactor q (v.elim .none .num) false none (s3.flows f).st)).bind
          (fun _ s => (.ok true s : Out (St Q) Err Bool)) = .ok go s2 → obtain E q loc false quell f t = .ok go t := by
      intro v s3 e
      have hch : (Flo.addFactor q (v.elim .none .num) false none (s3.flows f).st).state.chars.has q = true := by
        unfold Flo.addFactor
        split
        · rename_i c hg _
          simp [Out.state, Dict.has, hg]
        · simp [Out.state, Dict.has]
        · simp [Out.state, Dict.has]
        · split <;> simp [Out.state, Dict.has]
      generalize hrr : Flo.addFactor q (v.elim .none .num) false none (s3.flows f).st = rr at e hch
      unfold onFlow at e
      cases rr with
      | ok u w =>
        simp only [Out.bind, Out.state, Out.ok.injEq] at e
        obtain ⟨rfl, e⟩ := e
        have hhas : (s2.flows f).st.chars.has q = true := by
          rw [← e]
          simpa [Out.state] using hch
        unfold obtain
        simp [ht, hhas]
      | err er w => cases er <;> simp [Out.bind] at e
    cases hc : convert E (.flow f) (E.ind q) loc quell s with
    | ok v s3 => rw [hc] at ho; exact added v s3 ho
    | err e s3 =>
      rw [hc] at ho
      cases e with
      | mismatch => exact added none s3 ho
      | missing =>
        simp only [Out.ok.injEq] at ho
        obtain ⟨rfl, rfl⟩ := ho
        obtain ⟨⟨r, hr, hne⟩, hcomp, rfl⟩ := convert_missing hc
        have hr' : refInd E t f = some r := by unfold refInd at hr ⊢; rw [ht]; exact hr
        unfold obtain convert convertCore
        simp [hr', ht, hcomp, hne, hh]
      | _ => simp at ho

/-- the score of an exchange whose flow has its factor: the second half of the loop, qdb.py:851-856 -/
def score (E : Env Q) (q : Q) (loc : Flo.Loc) (x : Exch) (go : Bool) (s : St Q) : Out (St Q) Err (Option ℚ) :=
  if go then
    let fl := (s.flows x.flow).st
    match Flo.cf fl q .glo with
    | .none => .ok none s
    | _ =>
      match (s.flows x.flow).comp with
      | none => .err .missing s
      | some c =>
        match Flo.cf fl q (if ((fl.chars.get? q).getD []).has loc then loc else .glo) with
        | .num v => .ok (some (x.value.getD 0 * adjust E c x.output * v)) s
        | _ => .ok (some 0) s
  else .ok none s

theorem lciaOne_eq (E : Env Q) (q : Q) (loc : Flo.Loc) (refresh : Bool) (quell : Option Bool) (x : Exch) (s : St Q) :
    lciaOne E q loc refresh quell x s = (obtain E q loc refresh quell x.flow s).bind (score E q loc x) := rfl

theorem score_state (E : Env Q) (q : Q) (loc : Flo.Loc) (x : Exch) (go : Bool) (s : St Q) :
    (score E q loc x go s).state = s := by
  unfold score
  split
  · simp only
    split
    · rfl
    · split
      · rfl
      · split <;> rfl
  · rfl

theorem score_obs (E : Env Q) (q : Q) (loc : Flo.Loc) (x : Exch) (go : Bool) (s t : St Q)
    (ht : t.flows x.flow = s.flows x.flow) : (score E q loc x go t).value? = (score E q loc x go s).value? := by
  unfold score
  rw [ht]
  split
  · simp only
    split
    · rfl
    · split
      · rfl
      · split <;> rfl
  · rfl

theorem ok_of_value {α : Type} {o : Out (St Q) Err α} {a : α} (h : o.value? = some a) : o = .ok a o.state := by
  cases o with
  | ok b s => simp only [Out.value?, Option.some.injEq] at h; rw [h]; rfl
  | err e s => simp [Out.value?] at h

theorem score_ok {E : Env Q} {q : Q} {loc : Flo.Loc} {x : Exch} {go : Bool} {s t : St Q} {v : Option ℚ} {s1 : St Q}
    (h : score E q loc x go s = .ok v s1) (ht : t.flows x.flow = s.flows x.flow) : score E q loc x go t = .ok v t := by
  have h1 := score_obs E q loc x go s t ht
  rw [h] at h1
  rw [ok_of_value h1, score_state]

/-- a flow that is settled is scored without a change, in any later state -/
theorem lciaOne_settled {E : Env Q} {q : Q} {loc : Flo.Loc} {quell : Option Bool} {x : Exch} {s s1 : St Q} {v : Option ℚ}
    (h : lciaOne E q loc false quell x s = .ok v s1) (t : St Q) (ht : t.flows x.flow = s1.flows x.flow) :
    lciaOne E q loc false quell x t = .ok v t := by
  rw [lciaOne_eq] at h ⊢
  cases ho : obtain E q loc false quell x.flow s with
  | err e s2 => rw [ho] at h; simp [Out.bind] at h
  | ok go s2 =>
    rw [ho] at h
    simp only [Out.bind] at h
    have hs : s1 = s2 := by have := score_state E q loc x go s2; rw [h] at this; exact this
    subst hs
    rw [obtain_settled ho t ht]
    exact score_ok h ht

/-- another exchange of the same flow -/
theorem lciaOne_same {E : Env Q} {q : Q} {loc : Flo.Loc} {quell : Option Bool} {x y : Exch} {s s1 : St Q} {v : Option ℚ}
    (h : lciaOne E q loc false quell x s = .ok v s1) (hy : y.flow = x.flow) (t : St Q)
    (ht : t.flows x.flow = s1.flows x.flow) :
    (lciaOne E q loc false quell y t).state = t ∧
      (lciaOne E q loc false quell y t).value? = (lciaOne E q loc false quell y s).value? := by
  rw [lciaOne_eq] at h ⊢
  rw [lciaOne_eq, hy]
  cases ho : obtain E q loc false quell x.flow s with
  | err e s2 => rw [ho] at h; simp [Out.bind] at h
  | ok go s2 =>
    rw [ho] at h
    simp only [Out.bind] at h
    have hs : s1 = s2 := by have := score_state E q loc x go s2; rw [h] at this; exact this
    subst hs
    rw [obtain_settled ho t ht]
    simp only [Out.bind]
    exact ⟨score_state .., score_obs E q loc y go s1 t (by rw [hy, ht])⟩

/-! ### the inventory -/

theorem doLcia_step {E : Env Q} {q : Q} {loc : Flo.Loc} {refresh : Bool} {quell : Option Bool} {x : Exch} {xs : List Exch}
    {s s' : St Q} {r : List (ℕ × ℚ)} (h : doLcia E q loc refresh quell (x :: xs) s = .ok r s') :
    ∃ v s1 r1, lciaOne E q loc refresh quell x s = .ok v s1 ∧ doLcia E q loc refresh quell xs s1 = .ok r1 s' ∧
      r = (v.map fun v => (x.flow, v)).toList ++ r1 := by
  simp only [doLcia] at h
  cases h1 : lciaOne E q loc refresh quell x s with
  | err e s1 => rw [h1] at h; simp [Out.bind] at h
  | ok v s1 =>
    rw [h1] at h
    simp only [Out.bind] at h
    cases h2 : doLcia E q loc refresh quell xs s1 with
    | err e s2 => rw [h2] at h; simp at h
    | ok r1 s2 =>
      rw [h2] at h
      cases v with
      | none =>
        simp only [Out.ok.injEq] at h
        obtain ⟨rfl, rfl⟩ := h
        exact ⟨none, s1, r1, rfl, h2, rfl⟩
      | some v =>
        simp only [Out.ok.injEq] at h
        obtain ⟨rfl, rfl⟩ := h
        exact ⟨some v, s1, r1, rfl, h2, rfl⟩

theorem doLcia_cons {E : Env Q} {q : Q} {loc : Flo.Loc} {refresh : Bool} {quell : Option Bool} {x : Exch} {xs : List Exch}
    {s s1 s' : St Q} {r1 : List (ℕ × ℚ)} {v : Option ℚ} (h1 : lciaOne E q loc refresh quell x s = .ok v s1)
    (h2 : doLcia E q loc refresh quell xs s1 = .ok r1 s') :
    doLcia E q loc refresh quell (x :: xs) s = .ok ((v.map fun v => (x.flow, v)).toList ++ r1) s' := by
  simp only [doLcia, h1, Out.bind, h2]
  cases v <;> rfl

/-- C66: LCIA, whether it returns or raises, writes to no flow outside of the inventory, and not to the store -/
theorem doLcia_frame (E : Env Q) (q : Q) (loc : Flo.Loc) (refresh : Bool) (quell : Option Bool) (xs : List Exch) :
    ∀ s : St Q, let s' := (doLcia E q loc refresh quell xs s).state
      s'.fq = s.fq ∧ s'.qd = s.qd ∧ s'.fd = s.fd ∧ ∀ f, (∀ x ∈ xs, x.flow ≠ f) → s'.flows f = s.flows f := by
  induction xs with
  | nil => intro s; exact ⟨rfl, rfl, rfl, fun _ _ => rfl⟩
  | cons x xs ih =>
    intro s
    have hf := lciaOne_frame E q loc refresh quell x s
    simp only [doLcia]
    cases h1 : lciaOne E q loc refresh quell x s with
    | err e s1 =>
      rw [h1] at hf
      have hf : Frame (some x.flow) s s1 := hf
      refine ⟨hf.1, hf.2.1, hf.2.2.1, fun f hx => hf.2.2.2.1 f ?_⟩
      intro e; cases e; exact hx x (by simp) rfl
    | ok v s1 =>
      rw [h1] at hf
      have hf : Frame (some x.flow) s s1 := hf
      have h2 := ih s1
      simp only [Out.bind]
      have key : ∀ s2 : St Q, (s2.fq = s1.fq ∧ s2.qd = s1.qd ∧ s2.fd = s1.fd ∧
          ∀ f, (∀ x ∈ xs, x.flow ≠ f) → s2.flows f = s1.flows f) →
          s2.fq = s.fq ∧ s2.qd = s.qd ∧ s2.fd = s.fd ∧ ∀ f, (∀ y ∈ x :: xs, y.flow ≠ f) → s2.flows f = s.flows f := by
        intro s2 ⟨a, b, c, d⟩
        refine ⟨a.trans hf.1, b.trans hf.2.1, c.trans hf.2.2.1, fun f hx => ?_⟩
        rw [d f fun y hy => hx y (by simp [hy])]
        refine hf.2.2.2.1 f ?_
        intro e; cases e; exact hx x (by simp) rfl
      cases h3 : doLcia E q loc refresh quell xs s1 with
      | err e s2 => rw [h3] at h2; exact key s2 h2
      | ok r s2 =>
        rw [h3] at h2
        cases v <;> exact key s2 h2

/-- a settled flow stays as it is -/
theorem doLcia_keeps {E : Env Q} {q : Q} {loc : Flo.Loc} {quell : Option Bool} {f : ℕ} {u : FlowO Q} (xs : List Exch)
    (hset : ∀ y : Exch, y.flow = f → ∀ t : St Q, t.flows f = u → (lciaOne E q loc false quell y t).state = t) :
    ∀ s : St Q, s.flows f = u → (doLcia E q loc false quell xs s).state.flows f = u := by
  induction xs with
  | nil => intro s h; exact h
  | cons x xs ih =>
    intro s h
    simp only [doLcia]
    have hf := lciaOne_frame E q loc false quell x s
    have h1 : (lciaOne E q loc false quell x s).state.flows f = u := by
      by_cases e : x.flow = f
      · rw [hset x e s h]; exact h
      · rw [hf.2.2.2.1 f (by simpa using fun e' => e e'.symm)]; exact h
    cases h2 : lciaOne E q loc false quell x s with
    | err e s1 => rw [h2] at h1; exact h1
    | ok v s1 =>
      rw [h2] at h1
      have h1 : s1.flows f = u := h1
      have h3 := ih s1 h1
      simp only [Out.bind]
      cases h4 : doLcia E q loc false quell xs s1 with
      | err e s2 => rw [h4] at h3; exact h3
      | ok r s2 => rw [h4] at h3; cases v <;> exact h3

/-- C66: the second run of an assessment gives the same result, at any location, and changes nothing -/
theorem doLcia_repeat (E : Env Q) (q : Q) (loc : Flo.Loc) (quell : Option Bool) (xs : List Exch) :
    ∀ (s s' : St Q) (r : List (ℕ × ℚ)), doLcia E q loc false quell xs s = .ok r s' →
      ∀ t : St Q, (∀ x ∈ xs, t.flows x.flow = s'.flows x.flow) → doLcia E q loc false quell xs t = .ok r t := by
  induction xs with
  | nil =>
    intro s s' r h t _
    simp only [doLcia, Out.ok.injEq] at h ⊢
    exact ⟨h.1, trivial⟩
  | cons x xs ih =>
    intro s s' r h t ht
    obtain ⟨v, s1, r1, h1, h2, rfl⟩ := doLcia_step h
    have hk := doLcia_keeps (f := x.flow) (u := s1.flows x.flow) xs
      (fun y hy t ht => (lciaOne_same h1 hy t ht).1) s1 rfl
    rw [h2] at hk
    have hk : s'.flows x.flow = s1.flows x.flow := hk
    exact doLcia_cons (lciaOne_settled h1 t (by rw [ht x (by simp), hk]))
      (ih s1 s' r1 h2 t fun y hy => ht y (by simp [hy]))

/-- the factors that the flows of an inventory may use belong to flows outside of the inventory -/
def ForeignInv (E : Env Q) (s : St Q) (xs : List Exch) : Prop :=
  ∀ x ∈ xs, ∀ y ∈ xs, ∀ comp, (s.flows x.flow).comp = some comp → Foreign E s (s.flows x.flow).inds comp y.flow

/-- C66: each exchange is scored on its own: the result lists what every exchange gives in the first state -/
theorem doLcia_each (E : Env Q) (q : Q) (loc : Flo.Loc) (quell : Option Bool) (xs : List Exch) :
    ∀ (s s' : St Q) (r : List (ℕ × ℚ)), ForeignInv E s xs → doLcia E q loc false quell xs s = .ok r s' →
      r = xs.filterMap fun x => ((lciaOne E q loc false quell x s).value?.join).map fun v => (x.flow, v) := by
  induction xs with
  | nil =>
    intro s s' r _ h
    simp only [doLcia, Out.ok.injEq] at h
    exact h.1.symm
  | cons x xs ih =>
    intro s s' r hfor h
    obtain ⟨v, s1, r1, h1, h2, rfl⟩ := doLcia_step h
    have hf := lciaOne_frame E q loc false quell x s
    rw [h1] at hf
    have hf : Frame (some x.flow) s s1 := hf
    have hfor1 : ForeignInv E s1 xs := by
      intro a ha b hb comp hc
      obtain ⟨_, e2, e3, _⟩ := hf.2.2.2.2 a.flow
      rw [e3] at hc
      rw [e2]
      exact (hfor a (by simp [ha]) b (by simp [hb]) comp hc).frame hf
    have hval : ∀ y ∈ xs, (lciaOne E q loc false quell y s1).value? = (lciaOne E q loc false quell y s).value? := by
      intro y hy
      by_cases e : y.flow = x.flow
      · exact (lciaOne_same h1 e s1 rfl).2
      · have hown : s1.flows y.flow = s.flows y.flow := hf.2.2.2.1 y.flow (by simpa using e)
        have := lciaOne_agree (x := y) (q := q) (loc := loc) (refresh := false) (quell := quell) hf.1 hown (fun comp hc =>
          ⟨hf.1, hown, fun i hi q' d cf hd hm =>
            ⟨hfor y (by simp [hy]) y (by simp [hy]) comp hc i hi q' d cf hd hm, by
              have := hfor y (by simp [hy]) x (by simp) comp hc i hi q' d cf hd hm
              exact hf.2.2.2.1 cf.flow (by simpa using this)⟩⟩)
        exact congrArg (fun z => z.1.1) this
    have hr1 := ih s1 s' r1 hfor1 h2
    rw [List.filterMap_cons, h1]
    have : xs.filterMap (fun x => ((lciaOne E q loc false quell x s1).value?.join).map fun v => (x.flow, v)) =
        xs.filterMap (fun x => ((lciaOne E q loc false quell x s).value?.join).map fun v => (x.flow, v)) :=
      List.filterMap_congr fun y hy => by rw [hval y hy]
    rw [this] at hr1
    rw [hr1]
    cases v <;> rfl

/-- C66: the total does not depend on the order of the inventory -/
theorem doLcia_perm (E : Env Q) (q : Q) (loc : Flo.Loc) (quell : Option Bool) (xs ys : List Exch) (hp : xs.Perm ys)
    (s s1 s2 : St Q) (r1 r2 : List (ℕ × ℚ)) (hfor : ForeignInv E s xs)
    (h1 : doLcia E q loc false quell xs s = .ok r1 s1) (h2 : doLcia E q loc false quell ys s = .ok r2 s2) :
    r1.Perm r2 ∧ (r1.map Prod.snd).sum = (r2.map Prod.snd).sum := by
  have hfor' : ForeignInv E s ys := fun a ha b hb => hfor a (hp.mem_iff.mpr ha) b (hp.mem_iff.mpr hb)
  rw [doLcia_each E q loc quell xs s s1 r1 hfor h1, doLcia_each E q loc quell ys s s2 r2 hfor' h2]
  have := hp.filterMap fun x => ((lciaOne E q loc false quell x s).value?.join).map fun v => (x.flow, v)
  exact ⟨this, (this.map Prod.snd).sum_eq⟩

/-- the sign: an emission counts as an output, a resource as an input, anything else in both directions -/
theorem adjust_eq (E : Env Q) (c : ℕ) (output : Bool) :
    (Within E c E.emissions → adjust E c output = if output then 1 else -1) ∧
    (¬ Within E c E.emissions → Within E c E.resources → adjust E c output = if output then -1 else 1) ∧
    (¬ Within E c E.emissions → ¬ Within E c E.resources → adjust E c output = 1) := by
  unfold adjust isSub Within
  refine ⟨fun h => by simp [h], fun h h' => ?_, fun h h' => ?_⟩
  · simp only [h, h', decide_false, Bool.false_eq_true, if_false, decide_true, if_true]
  · simp only [h, h', decide_false, Bool.false_eq_true, if_false]

/-- C66: a flow without a factor gets the one that `convert` finds, and scores its value times the factor, with the sign of the
direction -/
theorem lciaOne_new (E : Env Q) (q : Q) (loc : Flo.Loc) (quell : Option Bool) (x : Exch) (s s1 : St Q) (c : ℕ) (v : ℚ)
    (hcomp : (s.flows x.flow).comp = some c) (hnew : (s.flows x.flow).st.chars.has q = false)
    (hconv : convert E (.flow x.flow) (E.ind q) loc quell s = .ok (some v) s1)
    (hkeep : (s1.flows x.flow).st.chars.has q = false) :
    (lciaOne E q loc false quell x s).value? = some (some (x.value.getD 0 * adjust E c x.output * v)) := by
  have hf := convert_frame E x.flow (E.ind q) loc quell s
  rw [hconv] at hf
  have hf : Frame (some x.flow) s s1 := hf
  have hcomp1 : (s1.flows x.flow).comp = some c := by rw [(hf.2.2.2.2 x.flow).2.2.1, hcomp]
  have hg : (s1.flows x.flow).st.chars.get? q = none := by
    cases hg : (s1.flows x.flow).st.chars.get? q with
    | none => rfl
    | some w => simp [Dict.has, hg] at hkeep
  have hadd : Flo.addFactor q (.num v) false none (s1.flows x.flow).st =
      .ok () { (s1.flows x.flow).st with chars := (s1.flows x.flow).st.chars.set q [(.glo, v)] } := by
    unfold Flo.addFactor
    simp only [hg]
    rfl
  rw [lciaOne_eq]
  unfold obtain
  simp only [Bool.false_or, hnew, Bool.not_false, if_true, hconv, Option.elim, hadd]
  unfold onFlow
  simp only [Out.bind, Out.state]
  unfold score
  simp only [if_true, Flo.cf, Dict.get?_set_self, Option.getD_some, hcomp1]
  have h1 : Flo.Char.getItem [(Flo.Loc.glo, v)] .glo = .num v := by simp [Flo.Char.getItem, Dict.get?]
  rw [h1]
  simp only
  have h2 : Flo.Char.getItem [(Flo.Loc.glo, v)] (if Dict.has [(Flo.Loc.glo, v)] loc then loc else .glo) = .num v := by
    cases loc <;> simp [Flo.Char.getItem, Dict.get?, Dict.has]
  rw [h2]
  rfl

/-! ### examples

Flow 10 holds the factors (volume 2, scores 7 and 8, each global and for the US); flows 30 and up are counted in mass, flow 20 in
volume, flow 40 has no known compartment. -/

def lFlows : ℕ → FlowO ℕ := fun x =>
  if x = 10 then
    { uuid := 10, inds := [5], comp := some 2,
      st := { chars := [(1, [(.glo, 1)]), (7, [(.glo, 3), (.other "US", 9)]), (8, [(.glo, 4), (.other "US", 8)]),
        (2, [(.glo, 1/2)])], ref := some 1 } }
  else if x = 20 then { uuid := x, inds := [5], comp := some 2, st := { chars := [(2, [(.glo, 1)])], ref := some 2 } }
  else if x = 40 then { uuid := x, inds := [5], comp := none, st := { chars := [(1, [(.glo, 1)])], ref := some 1 } }
  else { uuid := x, inds := [5], comp := some 2, st := { chars := [(1, [(.glo, 1)])], ref := some 1 } }

def lOps : List (Op ℕ) := [.addCf ⟨10, 10, 7⟩ [5], .addCf ⟨10, 10, 8⟩ [5], .addCf ⟨10, 10, 2⟩ [5]]

def lSt : St ℕ := run wEnv lOps { flows := lFlows }

/-- the hierarchy again, water and what is in it are emissions -/
def lEnv : Env ℕ := { wEnv with emissions := 1 }

def lInv : List Exch := [⟨30, some 2, true⟩, ⟨20, some 5, true⟩, ⟨30, some 1, false⟩, ⟨40, some 1, true⟩]

theorem lForeign : ForeignInv lEnv lSt lInv := by
  intro x _ y hy comp _ f hf q d cf _ hm
  have h1 := (stored_iff wEnv f q d lOps lFlows).1 cf hm
  have hcf : cf.flow = 10 := by
    simp only [added, lOps] at h1
    split at h1
    · rcases List.mem_cons.mp h1 with rfl | h1
      · rfl
      · split at h1
        · rcases List.mem_cons.mp h1 with rfl | h1
          · rfl
          · split at h1
            · rcases List.mem_cons.mp h1 with rfl | h1
              · rfl
              · simp at h1
            · simp at h1
        · split at h1
          · rcases List.mem_cons.mp h1 with rfl | h1
            · rfl
            · simp at h1
          · simp at h1
    · split at h1
      · rcases List.mem_cons.mp h1 with rfl | h1
        · rfl
        · split at h1
          · rcases List.mem_cons.mp h1 with rfl | h1
            · rfl
            · simp at h1
          · simp at h1
      · split at h1
        · rcases List.mem_cons.mp h1 with rfl | h1
          · rfl
          · simp at h1
        · simp at h1
  rw [hcf]
  simp only [lInv, List.mem_cons, List.not_mem_nil, or_false] at hy
  rcases hy with rfl | rfl | rfl | rfl <;> decide

/-- the hypotheses of C66 are met by an inventory with a repeated flow, a converted one, an input and an abandoned one, in two
orders -/
example : ForeignInv lEnv lSt lInv ∧
    (doLcia lEnv 7 .glo false none lInv lSt).value? = some [(30, 6), (20, 30), (30, -3)] ∧
    (doLcia lEnv 7 .glo false none lInv.reverse lSt).value? = some [(30, -3), (20, 30), (30, 6)] ∧
    (doLcia lEnv 7 (.other "US") false none lInv lSt).value? = some [(30, 18), (20, 90), (30, -9)] := by
  refine ⟨lForeign, ?_⟩
  decide +kernel

/-- the hypotheses of `lciaOne_new` are met -/
example : (convert lEnv (.flow 20) 7 .glo none lSt).value? = some (some 6) ∧ (lSt.flows 20).st.chars.has 7 = false ∧
    ((convert lEnv (.flow 20) 7 .glo none lSt).state.flows 20).st.chars.has 7 = false ∧ (lSt.flows 20).comp = some 2 ∧
    (lciaOne lEnv 7 .glo false none ⟨20, some 5, false⟩ lSt).value? = some (some (-30)) := by decide +kernel

/-- C66 fails for another location: the factor of the first location is kept as the global one, and used for every location
afterwards -/
theorem doLcia_fails_locale :
    (doLcia lEnv 7 (.other "DE") false none [⟨30, some 1, true⟩] lSt).value? = some [(30, 3)] ∧
    (doLcia lEnv 7 (.other "DE") false none [⟨30, some 1, true⟩]
      (doLcia lEnv 7 (.other "US") false none [⟨30, some 1, true⟩] lSt).state).value? = some [(30, 9)] := by decide +kernel

/-- a flow with a factor of 11 for the quantity 9, which the database does not know -/
def stale : St ℕ :=
  { lSt with flows := fun x => if x = 50 then
      { uuid := 50, inds := [5], comp := some 2, st := { chars := [(1, [(.glo, 1)]), (9, [(.glo, 11)])], ref := some 1 } }
    else lSt.flows x }

/-- C66 fails with `refresh`: it is to rewrite the factors from the database, but a factor the database does not have stays; one
it has is written over -/
theorem doLcia_fails_refresh :
    (convert lEnv (.flow 50) 9 .glo none stale).value? = some none ∧
    (doLcia lEnv 9 .glo true none [⟨50, some 1, true⟩] stale).value? = some [(50, 11)] ∧
    (doLcia lEnv 7 .glo true none [⟨30, some 1, true⟩]
      (doLcia lEnv 7 (.other "US") false none [⟨30, some 1, true⟩] lSt).state).value? = some [(30, 3)] := by decide +kernel

/-- C66 fails for a second quantity: the conversion from mass to volume that was noted at the first assessment for the US is read
back for `GLO`, and the flow scores 0 -/
theorem doLcia_fails_second :
    (doLcia lEnv 8 (.other "US") false none [⟨20, some 1, true⟩] lSt).value? = some [(20, 16)] ∧
    (doLcia lEnv 8 (.other "US") false none [⟨20, some 1, true⟩]
      (doLcia lEnv 7 (.other "US") false none [⟨20, some 1, true⟩] lSt).state).value? = some [(20, 0)] := by decide +kernel

/-- a flow of unknown compartment, with a factor of its own for 7 -/
def noComp : St ℕ :=
  { lSt with flows := fun x => if x = 50 then
      { uuid := 50, inds := [5], comp := none, st := { chars := [(1, [(.glo, 1)]), (7, [(.glo, 11)])], ref := some 1 } }
    else lSt.flows x }

/-- C66 fails for a flow without a known compartment: it is left out if it has no factor; if it has one, the whole assessment
raises -/
theorem doLcia_fails_missing :
    (doLcia lEnv 7 .glo false none [⟨30, some 1, true⟩, ⟨40, some 1, true⟩] noComp).value? = some [(30, 3)] ∧
    (doLcia lEnv 7 .glo false none [⟨30, some 1, true⟩, ⟨50, some 1, true⟩] noComp).error? = some .missing := by
  decide +kernel

end Qdb
