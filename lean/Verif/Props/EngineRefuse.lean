import Verif.Lemmas.EngineRefuse
import Verif.Props.Engine3

/-!
C49: what happens when an exchange with several candidate terminations is met and the strategy is `abort`.
-/

set_option linter.unusedSectionVars false
set_option linter.unusedSimpArgs false

namespace Engine
variable {F P : Type} [DecidableEq F] [DecidableEq P]
variable {db : DB F P} {strat : Strategy}

/-! ### a run that succeeds has met no ambiguity -/

theorem create_emissions {s s' : State F P} {v : F × P} {b : Bool}
    (h : createProductFlow db s v = .ok b s') : s'.emissions = s.emissions := by
  unfold createProductFlow at h
  split at h
  · simp at h; rw [h.2]
  · rename_i d hd
    split at h
    · rename_i s1 h1
      unfold addProductFlow at h1
      simp only [Res.ok.injEq] at h
      cases d <;> simp only at h1 <;> split at h1
      · simp at h1
      rotate_left
      · simp at h1
      all_goals
        simp only [Res.ok.injEq, true_and] at h1
        rw [← h.2, ← h1]
        simp only [setLow]
        split <;> rfl
    · simp at h

/-- emissions were only recorded for flows nobody offers -/
def EmisFree (db : DB F P) (s : State F P) : Prop := ∀ k ∈ s.emissions, db.terms k.1 k.2 = []

def AmbSpec (db : DB F P) (rec : F × P → State F P → Res F P Unit) : Prop :=
  ∀ x s s', rec x s = .ok () s' → EmisFree db s →
    EmisFree db s' ∧ ¬ HasAmbiguity db x ∧ ∀ u ∈ s'.pfIndex, u ∈ s.pfIndex ∨ ¬ HasAmbiguity db u

theorem setLow_emissions (s : State F P) (v : F × P) (n : ℕ) : (setLow s v n).emissions = s.emissions := by
  unfold setLow; split <;> rfl

theorem addInterior_emissions (s : State F P) (p t : F × P) (v : ℚ) :
    (addInterior s p t v).emissions = s.emissions := by
  unfold addInterior; split <;> rfl

theorem step_amb (rec : F × P → State F P → Res F P Unit) (hrec : AmbSpec db rec) {x : F × P}
    {e : Exch F P} {s s' : State F P} (hs : EmisFree db s)
    (h : stepExch db .abort rec x e s = .ok () s') :
    EmisFree db s' ∧ ¬ Ambiguous db e ∧ ∀ u ∈ s'.pfIndex, u ∈ s.pfIndex ∨ ¬ HasAmbiguity db u := by
  unfold stepExch at h
  split at h
  · rename_i href
    simp at h; subst h
    exact ⟨hs, fun ha => by have := ha.1; simp [href] at this, fun u hu => Or.inl hu⟩
  · rename_i href
    split at h
    · rename_i hval
      simp at h; subst h
      exact ⟨hs, fun ha => by obtain ⟨v, hv, _⟩ := ha.2.1; simp [hval] at hv, fun u hu => Or.inl hu⟩
    · rename_i v hval
      split at h
      · rename_i hv0
        simp at h; subst h
        exact ⟨hs, fun ha => by
          obtain ⟨v', hv, hne⟩ := ha.2.1
          rw [hval] at hv; simp at hv; exact hne (by rw [← hv, hv0]), fun u hu => Or.inl hu⟩
      · rename_i hv0
        have hamb : ∀ {r : Option P}, terminate db .abort s.emissions e = .ok r → ¬ Ambiguous db e := by
          intro r hr ha
          obtain ⟨_, _, h3, h4⟩ := ha
          unfold terminate at hr
          rw [h3] at hr
          simp only at hr
          split at hr
          · rename_i hm
            rw [hs _ hm] at h4
            simp at h4
          · split at hr
            · rename_i h5; rw [h5] at h4; simp at h4
            · rename_i h5; rw [h5] at h4; simp at h4
            · simp at hr
        split at h
        · simp at h
        · rename_i hterm
          simp only [Res.ok.injEq, true_and] at h
          have hna := hamb hterm
          subst h
          refine ⟨?_, hna, ?_⟩
          · intro k hk
            simp only [addCutoff, addEmission] at hk
            split at hk
            · exact hs k hk
            · rename_i hne
              rcases List.mem_append.mp hk with hk | hk
              · exact hs k hk
              · simp at hk; subst hk
                simp only
                unfold terminate at hterm
                split at hterm
                · simp at hterm
                · simp only at hterm
                  rw [if_neg hne] at hterm
                  split at hterm
                  · assumption
                  · simp at hterm
                  · simp at hterm
          · intro u hu
            simp only [addCutoff, addEmission] at hu
            split at hu <;> exact Or.inl hu
        · rename_i t ht
          have hna := hamb ht
          simp only at h
          split at h
          · split at h
            · simp at h
            · rename_i s1 hc
              simp at h; subst h
              rcases create_sub hc with ⟨hb, _⟩ | ⟨_, hb⟩
              · simp at hb
              · rw [hb]; exact ⟨hs, hna, fun u hu => Or.inl hu⟩
            · rename_i s1 hc
              rcases create_sub hc with ⟨_, hp, hr⟩ | ⟨hb, _⟩
              · split at h
                · simp at h
                · rename_i s2 hr2
                  have hr2 := onTermError_ok hr2
                  have hs1 : EmisFree db s1 := by
                    unfold EmisFree; rw [create_emissions hc]; exact hs
                  obtain ⟨h1, h2, h3⟩ := hrec _ _ _ hr2 hs1
                  split at h
                  · simp at h
                  · simp only [Res.ok.injEq, true_and] at h
                    subst h
                    refine ⟨?_, hna, ?_⟩
                    · unfold EmisFree; rw [addInterior_emissions, setLow_emissions]; exact h1
                    · rw [(addInterior_other _ _ _ _).2.1, (setLow_other _ _ _).2.1]
                      intro u hu
                      rcases h3 u hu with hu | hu
                      · rw [hp] at hu
                        rcases List.mem_append.mp hu with hu | hu
                        · exact Or.inl hu
                        · simp at hu; rw [hu]; exact Or.inr h2
                      · exact Or.inr hu
              · simp at hb
          · split at h
            · simp only [Res.ok.injEq, true_and] at h
              subst h
              refine ⟨?_, hna, ?_⟩
              · unfold EmisFree; rw [addInterior_emissions, setLow_emissions]; exact hs
              · rw [(addInterior_other _ _ _ _).2.1, (setLow_other _ _ _).2.1]
                exact fun u hu => Or.inl hu
            · simp only [Res.ok.injEq, true_and] at h
              subst h
              refine ⟨?_, hna, ?_⟩
              · unfold EmisFree; rw [addInterior_emissions]; exact hs
              · rw [(addInterior_other _ _ _ _).2.1]
                exact fun u hu => Or.inl hu

theorem loop_amb (rec : F × P → State F P → Res F P Unit) (hrec : AmbSpec db rec) {x : F × P}
    (todo : List (Exch F P)) {s s' : State F P} (hs : EmisFree db s)
    (h : loopExch db .abort rec x todo s = .ok () s') :
    EmisFree db s' ∧ (∀ e ∈ todo, ¬ Ambiguous db e) ∧
      ∀ u ∈ s'.pfIndex, u ∈ s.pfIndex ∨ ¬ HasAmbiguity db u := by
  induction todo generalizing s with
  | nil => simp [loopExch] at h; subst h; exact ⟨hs, by simp, fun u hu => Or.inl hu⟩
  | cons e todo ih =>
    unfold loopExch at h
    split at h
    · rename_i s1 h1
      obtain ⟨a1, a2, a3⟩ := step_amb rec hrec hs h1
      obtain ⟨b1, b2, b3⟩ := ih a1 h
      refine ⟨b1, ?_, ?_⟩
      · intro e' he'
        rcases List.mem_cons.mp he' with h' | h'
        · rw [h']; exact a2
        · exact b2 e' h'
      · intro u hu
        rcases b3 u hu with h' | h'
        · exact a3 u h'
        · exact Or.inr h'
    · simp at h

theorem traverse_amb (fuel : ℕ) : AmbSpec db (traverse db .abort fuel) := by
  induction fuel with
  | zero => intro x s s' h; simp [traverse] at h
  | succ n ih =>
    intro x s s' h hs
    unfold traverse at h
    split at h
    · rename_i s1 h1
      obtain ⟨a1, a2, a3⟩ := loop_amb _ ih (db.inv x) hs h1
      obtain ⟨e1, _, _, _, e5⟩ := finish_other h
      refine ⟨?_, ?_, ?_⟩
      · unfold EmisFree; rw [e5]; exact a1
      · rintro ⟨e, he, ha⟩; exact a2 e he ha
      · rw [e1]; exact a3
    · simp at h

theorem addRef_amb {fuel : ℕ} {v : F × P} {s s' : State F P} (hs : EmisFree db s)
    (h : addRef db .abort fuel v s = .ok () s') :
    EmisFree db s' ∧ ∀ u ∈ s'.pfIndex, u ∈ s.pfIndex ∨ ¬ HasAmbiguity db u := by
  unfold addRef at h
  split at h
  · simp at h; subst h; exact ⟨hs, fun u hu => Or.inl hu⟩
  · unfold addRefProductRaw at h
    split at h
    · simp at h
    · simp at h
    · rename_i s1 hc
      have h := onTermError_ok h
      have hs1 : EmisFree db s1 := by unfold EmisFree; rw [create_emissions hc]; exact hs
      obtain ⟨a1, a2, a3⟩ := traverse_amb fuel _ _ _ h hs1
      refine ⟨a1, fun u hu => ?_⟩
      rcases a3 u hu with hu | hu
      · rcases create_sub hc with ⟨_, hp, _⟩ | ⟨hb, _⟩
        · rw [hp] at hu
          rcases List.mem_append.mp hu with hu | hu
          · exact Or.inl hu
          · simp at hu; rw [hu]; exact Or.inr a2
        · simp at hb
      · exact Or.inr hu

theorem addAll_amb {fuel : ℕ} {vs : List (F × P)} {s s' : State F P} (hs : EmisFree db s)
    (hc : ∀ u ∈ s.pfIndex, ¬ HasAmbiguity db u)
    (h : addAll db .abort fuel vs s = .ok () s') :
    EmisFree db s' ∧ ∀ u ∈ s'.pfIndex, ¬ HasAmbiguity db u := by
  induction vs generalizing s with
  | nil => simp [addAll] at h; subst h; exact ⟨hs, hc⟩
  | cons v vs ih =>
    unfold addAll at h
    split at h
    · rename_i s1 h1
      obtain ⟨a1, a2⟩ := addRef_amb hs h1
      exact ih a1 (fun u hu => (a2 u hu).elim (hc u) id) h
    · simp at h

/-! ### a termination error comes from an ambiguity -/

def AmbErr (db : DB F P) (strat : Strategy) (rec : F × P → State F P → Res F P Unit) : Prop :=
  ∀ x s s', rec x s = .err .termination s' → ∃ u, Reach db strat x u ∧ HasAmbiguity db u

theorem onTermError_term {v : F × P} {r : Res F P Unit} {s : State F P}
    (h : onTermError v r = .err .termination s) : ∃ s', r = .err .termination s' := by
  unfold onTermError at h
  split at h
  · exact ⟨_, rfl⟩
  · exact ⟨_, h⟩

theorem create_err {s s' : State F P} {v : F × P} {e : Err}
    (h : createProductFlow db s v = .err e s') : e = .valueError := by
  unfold createProductFlow at h
  split at h
  · simp at h
  · rename_i d hd
    split at h
    · simp at h
    · rename_i e' s1 h1
      simp only [Res.err.injEq] at h
      unfold addProductFlow at h1
      cases d <;> simp only at h1 <;> split at h1
      all_goals first
        | (simp only [Res.err.injEq] at h1; rw [← h.1, ← h1.1])
        | (exact absurd h1 (by simp))

theorem step_amberr (rec : F × P → State F P → Res F P Unit) (hrec : AmbErr db strat rec) {x : F × P}
    {e : Exch F P} {s s' : State F P} (he : e ∈ db.inv x)
    (h : stepExch db strat rec x e s = .err .termination s') :
    ∃ u, Reach db strat x u ∧ HasAmbiguity db u := by
  unfold stepExch at h
  split at h
  · simp at h
  rename_i href
  split at h
  · simp at h
  rename_i v hval
  split at h
  · simp at h
  rename_i hv0
  split at h
  · rename_i e' hterm
    simp only [Res.err.injEq] at h
    obtain ⟨rfl, -⟩ := h
    refine ⟨x, Relation.ReflTransGen.refl, e, he, by simpa using href, ⟨v, hval, hv0⟩, ?_⟩
    unfold terminate at hterm
    split at hterm
    · simp at hterm
    · rename_i hn
      split at hterm
      · simp at hterm
      · split at hterm
        · simp at hterm
        · simp at hterm
        · rename_i a l hne ht
          refine ⟨hn, ?_⟩
          rw [ht]
          cases l with
          | nil => exact absurd rfl hne
          | cons b l => simp
  · simp at h
  · rename_i t ht
    have hT := terminate_edge ht
    simp only at h
    split at h
    · split at h
      · rename_i e' s1 hc
        simp only [Res.err.injEq] at h
        have := create_err hc
        rw [h.1] at this
        simp at this
      · simp at h
      · rename_i s1 hc
        split at h
        · rename_i e2 s2 hr2
          simp only [Res.err.injEq] at h
          obtain ⟨rfl, -⟩ := h
          obtain ⟨s3, h3⟩ := onTermError_term hr2
          obtain ⟨u, hu, ha⟩ := hrec _ _ _ h3
          rcases create_sub hc with ⟨_, _, hr⟩ | ⟨hb, _⟩
          · have hd : Depends db strat x (e.flow, t) :=
              ⟨e, he, by simpa using href, ⟨v, hval, hv0⟩, hT, rfl, hr⟩
            exact ⟨u, Relation.ReflTransGen.head hd hu, ha⟩
          · simp at hb
        · split at h <;> simp at h
    · split at h <;> simp at h

theorem loop_amberr (rec : F × P → State F P → Res F P Unit) (hrec : AmbErr db strat rec) {x : F × P}
    (todo : List (Exch F P)) {s s' : State F P} (he : ∀ e ∈ todo, e ∈ db.inv x)
    (h : loopExch db strat rec x todo s = .err .termination s') :
    ∃ u, Reach db strat x u ∧ HasAmbiguity db u := by
  induction todo generalizing s with
  | nil => simp [loopExch] at h
  | cons e todo ih =>
    unfold loopExch at h
    split at h
    · exact ih (fun e' h' => he e' (List.mem_cons_of_mem _ h')) h
    · rename_i e' s1 h1
      simp only [Res.err.injEq] at h
      obtain ⟨rfl, -⟩ := h
      exact step_amberr rec hrec (he e (by simp)) h1

theorem traverse_amberr (fuel : ℕ) : AmbErr db strat (traverse db strat fuel) := by
  induction fuel with
  | zero => intro x s s' h; simp [traverse] at h
  | succ n ih =>
    intro x s s' h
    unfold traverse at h
    split at h
    · exfalso
      unfold finishNode at h
      split at h
      · split at h
        · unfold labelScc at h
          split at h <;> simp at h
        · simp at h
      · simp at h
    · rename_i e' s1 h1
      simp only [Res.err.injEq] at h
      obtain ⟨rfl, -⟩ := h
      exact loop_amberr _ ih (db.inv x) (fun _ h => h) h1

theorem addRef_amberr {fuel : ℕ} {v : F × P} {s s' : State F P}
    (h : addRef db strat fuel v s = .err .termination s') :
    ∃ u, Reach db strat v u ∧ HasAmbiguity db u := by
  unfold addRef at h
  split at h
  · simp at h
  · unfold addRefProductRaw at h
    split at h
    · rename_i e' s1 hc
      simp only [Res.err.injEq] at h
      have := create_err hc
      rw [h.1] at this
      simp at this
    · simp at h
    · obtain ⟨s3, h3⟩ := onTermError_term h
      exact traverse_amberr fuel _ _ _ h3

/-! ### the property theorems -/

theorem Refused.same {s s' : State F P} (h : Rest db strat s) (hR : Refused db strat s s') :
    SameAnswers s s' := by
  obtain ⟨g, t, hI, e1, e2, e3⟩ := hR.scc
  refine ⟨hR.pfIndex, hR.pfs, hR.low, hR.stack, ?_, hR.ev, hR.int, hR.cut⟩
  intro u hu
  obtain ⟨n, hn⟩ := h.scc hu
  obtain ⟨l, hl⟩ := h.inv.sccsDom u n hn
  have hn' := e3 u n hn
  obtain ⟨l', hl'⟩ := hI.sccsDom u n hn'
  refine ⟨n, hn, by rw [e2]; exact hn', l, l', hl, by rw [e1]; exact hl', ?_⟩
  intro w
  rw [(hI.sccsMem n l' hl').2.2 w, (h.inv.sccsMem n l hl).2.2 w]
  constructor
  · intro hw
    have hm := (hI.scc u w n n hn' hw).mp rfl
    obtain ⟨m, hm'⟩ := h.scc (h.reach_closed hu hm.1)
    have := e3 w m hm'
    rw [hw] at this
    simp at this
    rw [hm', this]
  · exact e3 w n

/-- C49 (partial): how `add_ref_product` can fail under the strategy `abort`, after any history of successful
additions.  Besides exhausted recursion and an unknown reference product, the call ends with the
TerminationError -- then some product flow it depends on really has an ambiguous exchange, and every answer
about product flows and components is as before -- or with an IndexError, which happens only while the engine has
recorded no dependency at all or no exterior exchange at all.
Missing: (a) the right error in that last case (`C49_fails_index_error`); (b) answers about product flows that
are *not* known (`C49_fails_stale`) and the records of later additions (`C49_fails_later`). -/
theorem C49_refusal_partial {fuel fuel' : ℕ} {vs : List (F × P)} {v : F × P} {s s' : State F P} {e : Err}
    (hs : addAll db .abort fuel vs {} = .ok () s)
    (hr : addRef db .abort fuel' v s = .err e s') :
    (e = .attributeError ∧ s' = s ∧ db.refDir v = none) ∨
    e = .recursion ∨
    (e = .indexError ∧ (s.interior = [] ∨ s.cutoffs = [])) ∨
    (e = .termination ∧ (∃ u, Reach db .abort v u ∧ HasAmbiguity db u) ∧ SameAnswers s s') := by
  have hrest : Rest db .abort s := ⟨(addAll_spec inv_init hs).1, addAll_data inv_init dinv_init hs⟩
  rcases addRef_err hrest hr with h | h | h | h | h | ⟨h, hR⟩
  · exact Or.inl h
  · exact Or.inr (Or.inl h)
  · simp at h
  · simp at h
  · exact Or.inr (Or.inr (Or.inl h))
  · subst h
    exact Or.inr (Or.inr (Or.inr ⟨rfl, addRef_amberr hr, hR.same hrest⟩))

/-- C49 (partial): under `abort`, additions that succeed have met no ambiguous exchange anywhere among the product
flows they give rise to; an ambiguity is never passed over silently. -/
theorem C49_never_silent {fuel : ℕ} {vs : List (F × P)} {s : State F P}
    (hs : addAll db .abort fuel vs {} = .ok () s) :
    ∀ u, Known db .abort vs u → ¬ HasAmbiguity db u := by
  intro u hu
  have h1 := addAll_amb (s := ({} : State F P)) (by simp [EmisFree]) (by simp) hs
  have hrest : Rest db .abort s := ⟨(addAll_spec inv_init hs).1, addAll_data inv_init dinv_init hs⟩
  obtain ⟨v, hv, hr⟩ := hu
  exact h1.2 u (hrest.reach_closed ((addAll_spec inv_init hs).2.1 v hv) hr)

/-- C49 (partial): once at least one dependency and one exterior exchange are recorded, and unless the recursion
limit is hit, adding a reference product raises TerminationError exactly if an ambiguous exchange is among the
product flows it depends on. -/
theorem C49_raises_iff_partial {fuel fuel' : ℕ} {vs : List (F × P)} {v : F × P} {s : State F P}
    (hs : addAll db .abort fuel vs {} = .ok () s) (hi : s.interior ≠ []) (hc : s.cutoffs ≠ [])
    (hd : db.refDir v ≠ none) (hrec : ∀ s', addRef db .abort fuel' v s ≠ .err .recursion s') :
    (∃ s', addRef db .abort fuel' v s = .err .termination s') ↔
      ∃ u, Reach db .abort v u ∧ HasAmbiguity db u := by
  constructor
  · rintro ⟨s', h⟩; exact addRef_amberr h
  · rintro ⟨u, hu, ha⟩
    cases hr : addRef db .abort fuel' v s with
    | ok a s' =>
      exfalso
      have hI := (addAll_spec inv_init hs).1
      obtain ⟨h1, h2, _⟩ := addRef_spec hI hr
      have hD := addRef_data hI (addAll_data inv_init dinv_init hs) hr
      have hrest' : Rest db .abort s' := ⟨h1, hD⟩
      have hamb := addAll_amb (s := ({} : State F P)) (by simp [EmisFree]) (by simp) hs
      have := (addRef_amb hamb.1 hr).2 u (hrest'.reach_closed h2 hu)
      exact this.elim (fun h => hamb.2 u h ha) (fun h => h ha)
    | err e s' =>
      rcases C49_refusal_partial hs hr with h | h | h | h
      · exact absurd h.2.2 hd
      · exact absurd (h ▸ hr) (hrec s')
      · exact h.2.elim (fun h => absurd h hi) (fun h => absurd h hc)
      · exact ⟨s', by rw [h.1]⟩

/-- 7 needs 8 and emits 9; 0 needs 1, which needs 3 (which emits 9) and then the ambiguous flow 5 -/
def ambDb3 : DB ℕ ℕ where
  inv := fun u => match u.2 with
    | 7 => [Ex.need 8 1, Ex.emit 9 1]
    | 0 => [Ex.ref 0, Ex.need 1 1] | 1 => [Ex.ref 1, Ex.need 3 1, Ex.need 5 1]
    | 3 => [Ex.ref 3, Ex.emit 9 2]
    | _ => []
  terms := fun f d => if d = .input then (if f = 5 then [5, 6] else if f ≤ 8 then [f] else []) else []
  refDir := fun u => if u.1 = u.2 then some .output else none

-- the hypotheses of `C49_refusal_partial` and `C49_raises_iff_partial` are met: the additions of 7 succeed, and 0 is
-- refused with the right error two levels down
example : (match addAll ambDb3 .abort 10 [(7, 7)] {} with
    | .ok _ s =>
      match addRef ambDb3 .abort 10 (0, 0) s with
      | .err e s' => some (s.interior.length, s.cutoffs.length, e, s'.pfIndex)
      | .ok _ _ => none
    | .err _ _ => none) = some (1, 1, .termination, [(7, 7), (8, 8)]) := by decide +kernel

example : HasAmbiguity ambDb3 (1, 1) := ⟨Ex.need 5 1, by simp [ambDb3], rfl, ⟨1, rfl, by decide⟩, rfl, by decide⟩

/-- C49 fails: a refused addition leaves the exterior exchanges of product flows completed on the way.  When the
caller goes on and adds one of these (3), its emission is recorded twice although its inventory has it once. -/
theorem C49_fails_later :
    (match addAll ambDb3 .abort 10 [(7, 7)] {} with
      | .err _ _ => none
      | .ok _ s =>
        match addRef ambDb3 .abort 10 (0, 0) s with
        | .ok _ _ => none
        | .err e s' =>
          match addRef ambDb3 .abort 10 (3, 3) s' with
          | .err _ _ => none
          | .ok _ s'' => some (e, (s''.cutoffs.filter (fun c => decide (c.1 = (3, 3)))).map (·.2.2))) =
      some (.termination, [2, 2]) ∧
    extOf ambDb3 .abort (3, 3) (ambDb3.inv (3, 3)) = [((3, 3), (9, .output), 2)] := by
  constructor <;> decide +kernel

end Engine
