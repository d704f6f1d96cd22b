import Verif.Lemmas.EngineData

namespace Engine
variable {F P : Type} [DecidableEq F] [DecidableEq P]
variable {db : DB F P} {strat : Strategy}

theorem terminate_total {em : List (F × Dir)} {x : Exch F P}
    (h : x.term = none → (db.terms x.flow x.dir).length ≤ 1 ∨ strat = .first ∨ strat = .last ∨
      strat = .cutoff) : ∃ r, terminate db strat em x = .ok r := by
  unfold terminate
  cases hx : x.term with
  | some t => exact ⟨_, rfl⟩
  | none =>
    simp only
    split
    · exact ⟨_, rfl⟩
    · have := h hx
      cases hl : db.terms x.flow x.dir with
      | nil => exact ⟨_, rfl⟩
      | cons a l =>
        cases l with
        | nil => exact ⟨_, rfl⟩
        | cons b l =>
          rw [hl] at this
          simp at this
          rcases this with e | e | e <;> subst e <;> exact ⟨_, rfl⟩

theorem terminate_edge {em : List (F × Dir)} {x : Exch F P} {t : P}
    (ht : terminate db strat em x = .ok (some t)) : TermOf db strat x t := by
  unfold terminate at ht
  unfold TermOf
  cases hx : x.term with
  | some t' => rw [hx] at ht; simp at ht; left; rw [ht]
  | none =>
    rw [hx] at ht
    right
    refine ⟨rfl, ?_⟩
    simp only at ht
    split at ht
    · simp at ht
    · cases hl : db.terms x.flow x.dir with
      | nil => rw [hl] at ht; simp at ht
      | cons a l =>
        rw [hl] at ht
        cases l with
        | nil => simp at ht; simp [ht]
        | cons b l =>
          simp only at ht
          cases strat <;> simp at ht
          · simp [ht]
          · right; right
            refine ⟨rfl, ?_⟩
            rw [← ht]
            rw [List.getLast?_eq_some_getLast (by simp)]
            simp [List.getLast_cons]

/-! ### the traversal only visits what the roots reach -/

theorem create_sub {s s' : State F P} {v : F × P} {b : Bool} (h : createProductFlow db s v = .ok b s') :
    (b = true ∧ s'.pfIndex = s.pfIndex ++ [v] ∧ db.refDir v ≠ none) ∨ (b = false ∧ s' = s) := by
  unfold createProductFlow at h
  split at h
  · simp at h; right; exact ⟨h.1.symm ▸ rfl, h.2.symm⟩
  · rename_i d hd
    split at h
    · rename_i s1 h1
      unfold addProductFlow at h1
      simp only [Res.ok.injEq] at h
      cases d <;> simp only at h1 <;> split at h1
      · simp at h1
      rotate_left
      · simp at h1
      all_goals
        simp only [Res.ok.injEq, true_and] at h1
        left
        refine ⟨h.1.symm, ?_, by simp [hd]⟩
        rw [← h.2, ← h1]
        simp [(setLow_other _ v _).2.1]
    · simp at h

def SubSpec (S : F × P → Prop) (rec : F × P → State F P → Res F P Unit) : Prop :=
  ∀ x s s', rec x s = .ok () s' → S x → (∀ u ∈ s.pfIndex, S u) → ∀ u ∈ s'.pfIndex, S u

theorem step_sub {S : F × P → Prop} (hS : ∀ u w, S u → Depends db strat u w → S w)
    (rec : F × P → State F P → Res F P Unit) (hrec : SubSpec S rec) {x : F × P} {e : Exch F P}
    {s s' : State F P} (he : e ∈ db.inv x) (hx : S x) (hs : ∀ u ∈ s.pfIndex, S u)
    (h : stepExch db strat rec x e s = .ok () s') : ∀ u ∈ s'.pfIndex, S u := by
  unfold stepExch at h
  split at h
  · simp at h; subst h; exact hs
  · rename_i href
    split at h
    · simp at h; subst h; exact hs
    · rename_i v hval
      split at h
      · simp at h; subst h; exact hs
      · rename_i hv0
        split at h
        · simp at h
        · simp only [Res.ok.injEq, true_and] at h
          subst h
          simp only [addCutoff, addEmission]
          split <;> exact hs
        · rename_i t ht
          have hT := terminate_edge ht
          simp only at h
          split at h
          · split at h
            · simp at h
            · rename_i s1 hc
              simp at h; subst h
              rcases create_sub hc with ⟨hb, _⟩ | ⟨_, hb⟩
              · simp at hb
              · rw [hb]; exact hs
            · rename_i s1 hc
              rcases create_sub hc with ⟨_, hp, hr⟩ | ⟨hb, _⟩
              · split at h
                · simp at h
                · rename_i s2 hr2
                  have hr2 := onTermError_ok hr2
                  have hSt : S (e.flow, t) :=
                    hS x _ hx ⟨e, he, by simpa using href, ⟨v, hval, hv0⟩, hT, rfl, hr⟩
                  have h1 : ∀ u ∈ s1.pfIndex, S u := by
                    rw [hp]; intro u hu
                    rcases List.mem_append.mp hu with hu | hu
                    · exact hs u hu
                    · simp at hu; rw [hu]; exact hSt
                  have h2 := hrec _ _ _ hr2 hSt h1
                  split at h
                  · simp at h
                  · simp only [Res.ok.injEq, true_and] at h
                    subst h
                    rw [(addInterior_other _ _ _ _).2.1, (setLow_other _ _ _).2.1]
                    exact h2
              · simp at hb
          · split at h
            · simp only [Res.ok.injEq, true_and] at h
              subst h
              rw [(addInterior_other _ _ _ _).2.1, (setLow_other _ _ _).2.1]
              exact hs
            · simp only [Res.ok.injEq, true_and] at h
              subst h
              rw [(addInterior_other _ _ _ _).2.1]
              exact hs

theorem loop_sub {S : F × P → Prop} (hS : ∀ u w, S u → Depends db strat u w → S w)
    (rec : F × P → State F P → Res F P Unit) (hrec : SubSpec S rec) {x : F × P}
    (todo : List (Exch F P)) {s s' : State F P} (he : ∀ e ∈ todo, e ∈ db.inv x) (hx : S x)
    (hs : ∀ u ∈ s.pfIndex, S u) (h : loopExch db strat rec x todo s = .ok () s') :
    ∀ u ∈ s'.pfIndex, S u := by
  induction todo generalizing s with
  | nil => simp [loopExch] at h; subst h; exact hs
  | cons e todo ih =>
    unfold loopExch at h
    split at h
    · rename_i s1 h1
      exact ih (fun e' h' => he e' (List.mem_cons_of_mem _ h'))
        (step_sub hS rec hrec (he e (by simp)) hx hs h1) h
    · simp at h

theorem traverse_sub {S : F × P → Prop} (hS : ∀ u w, S u → Depends db strat u w → S w) (fuel : ℕ) :
    SubSpec S (traverse db strat fuel) := by
  induction fuel with
  | zero => intro x s s' h; simp [traverse] at h
  | succ n ih =>
    intro x s s' h hx hs
    unfold traverse at h
    split at h
    · rename_i s1 h1
      have := loop_sub hS _ ih (db.inv x) (fun _ h => h) hx hs h1
      rw [(finish_other h).1]; exact this
    · simp at h

theorem addAll_sub {S : F × P → Prop} (hS : ∀ u w, S u → Depends db strat u w → S w) {fuel : ℕ}
    {vs : List (F × P)} {s s' : State F P} (hv : ∀ v ∈ vs, S v) (hs : ∀ u ∈ s.pfIndex, S u)
    (h : addAll db strat fuel vs s = .ok () s') : ∀ u ∈ s'.pfIndex, S u := by
  induction vs generalizing s with
  | nil => simp [addAll] at h; subst h; exact hs
  | cons v vs ih =>
    unfold addAll at h
    split at h
    · rename_i s1 h1
      refine ih (fun w hw => hv w (List.mem_cons_of_mem _ hw)) ?_ h
      unfold addRef at h1
      split at h1
      · simp at h1; subst h1; exact hs
      · unfold addRefProductRaw at h1
        split at h1
        · simp at h1
        · simp at h1
        · rename_i s2 hc
          have h1 := onTermError_ok h1
          have hSv := hv v (by simp)
          refine traverse_sub hS fuel _ _ _ h1 hSv ?_
          rcases create_sub hc with ⟨_, hp, _⟩ | ⟨hb, _⟩
          · rw [hp]; intro u hu
            rcases List.mem_append.mp hu with hu | hu
            · exact hs u hu
            · simp at hu; rw [hu]; exact hSv
          · simp at hb
    · simp at h

/-! ### the traversal terminates -/

/-- The nodes `N` are closed under dependency and none of their exchanges is ambiguous for a strategy
that cannot resolve it. -/
structure Closed (db : DB F P) (strat : Strategy) (N : List (F × P)) : Prop where
  dep : ∀ u ∈ N, ∀ w, Depends db strat u w → w ∈ N
  unamb : ∀ u ∈ N, ∀ x ∈ db.inv u, x.isRef = false → (∃ v, x.val = some v ∧ v ≠ 0) → x.term = none →
    (db.terms x.flow x.dir).length ≤ 1 ∨ strat = .first ∨ strat = .last ∨ strat = .cutoff

def TravTotal (db : DB F P) (strat : Strategy) (N : List (F × P)) (fuel : ℕ)
    (rec : F × P → State F P → Res F P Unit) : Prop :=
  ∀ x g old k s, Inv db strat (x :: g) s → s.stack = x :: old → s.pfs.get? x = some k →
    s.low.get? x = some k → (∀ u ∈ s.pfIndex, u ∈ N) → N.length < fuel + (x :: g).length →
    ∃ s', rec x s = .ok () s'

theorem create_total {g : List (F × P)} {s : State F P} {x : F × P} (h : Inv db strat g s)
    (hx : x ∉ s.pfIndex) :
    (db.refDir x = none ∧ createProductFlow db s x = .ok false s) ∨
    ∃ s', createProductFlow db s x = .ok true s' := by
  unfold createProductFlow
  cases hd : db.refDir x with
  | none => left; exact ⟨rfl, rfl⟩
  | some d =>
    right
    have hxs : x ∉ s.stack := fun h' => hx (h.stack_vis h')
    simp only [addProductFlow]
    have hst := fun (t : State F P) n => (setLow_other t x n).2.2.2.1
    simp only [hst, hxs, if_false]
    exact ⟨_, rfl⟩

theorem step_total {N : List (F × P)} (hN : Closed db strat N) {fuel : ℕ}
    (rec : F × P → State F P → Res F P Unit) (hrec : TravSpec db strat rec)
    (htot : TravTotal db strat N fuel rec)
    {x : F × P} {g old : List (F × P)} {k : ℕ} {done : List (Exch F P)} {e : Exch F P}
    {s : State F P} (hl : LoopInv db strat x g old k done s) (he : e ∈ db.inv x)
    (hxN : x ∈ N) (hsub : ∀ u ∈ s.pfIndex, u ∈ N)
    (hf : N.length < fuel + 1 + (x :: g).length) :
    ∃ s', stepExch db strat rec x e s = .ok () s' := by
  have hI := hl.inv
  unfold stepExch
  split
  · exact ⟨_, rfl⟩
  · rename_i href
    split
    · exact ⟨_, rfl⟩
    · rename_i v hval
      split
      · exact ⟨_, rfl⟩
      · rename_i hv0
        obtain ⟨r, hr⟩ := terminate_total (db := db) (strat := strat) (em := s.emissions) (x := e)
          (hN.unamb x hxN e he (by simpa using href) ⟨v, hval, hv0⟩)
        rw [hr]
        cases r with
        | none => exact ⟨_, rfl⟩
        | some t =>
          have hT := terminate_some hI hr
          simp only
          cases hp : s.pfs.get? (e.flow, t) with
          | some ix =>
            simp only
            split <;> exact ⟨_, rfl⟩
          | none =>
            have hnv := (hI.none_iff _).mp hp
            simp only
            rcases create_total hI hnv with ⟨_, hc⟩ | ⟨s1, hc⟩
            · rw [hc]; exact ⟨_, rfl⟩
            · rw [hc]
              simp only
              obtain ⟨new, l, hstk, _⟩ := hl.low
              have hrd : db.refDir (e.flow, t) ≠ none := by
                rcases create_sub hc with ⟨_, _, h⟩ | ⟨h, _⟩
                · exact h
                · simp at h
              have hdep : Depends db strat x (e.flow, t) :=
                ⟨e, he, by simpa using href, ⟨v, hval, hv0⟩, hT, rfl, hrd⟩
              obtain ⟨hI1, hs1, hp1, hl1, hE1, _⟩ := inv_push hI hnv
                (fun y hy => (hI.reach_top hstk hy).tail hdep) hc
              have hsub1 : ∀ u ∈ s1.pfIndex, u ∈ N := by
                rcases create_sub hc with ⟨_, h, _⟩ | ⟨h, _⟩
                · rw [h]; intro u hu
                  rcases List.mem_append.mp hu with hu | hu
                  · exact hsub u hu
                  · simp at hu; rw [hu]; exact hN.dep x hxN _ hdep
                · simp at h
              obtain ⟨s2, h2⟩ := htot _ _ _ _ _ hI1 hs1 hp1 hl1 hsub1 (by simp at hf ⊢; omega)
              have hpost := hrec _ _ _ _ _ _ hI1 hs1 hp1 hl1 h2
              rw [h2]
              simp only [onTermError]
              obtain ⟨_, l', _, hlow', _⟩ := hpost.low
              rw [hlow']
              exact ⟨_, rfl⟩

theorem loop_total {N : List (F × P)} (hN : Closed db strat N) {fuel : ℕ}
    (rec : F × P → State F P → Res F P Unit) (hrec : TravSpec db strat rec)
    (hrsub : SubSpec (· ∈ N) rec)
    (htot : TravTotal db strat N fuel rec)
    {x : F × P} {g old : List (F × P)} {k : ℕ} (todo : List (Exch F P)) {done : List (Exch F P)}
    {s : State F P} (hl : LoopInv db strat x g old k done s) (he : ∀ e ∈ todo, e ∈ db.inv x)
    (hxN : x ∈ N) (hsub : ∀ u ∈ s.pfIndex, u ∈ N)
    (hf : N.length < fuel + 1 + (x :: g).length) :
    ∃ s', loopExch db strat rec x todo s = .ok () s' := by
  induction todo generalizing done s with
  | nil => exact ⟨_, rfl⟩
  | cons e todo ih =>
    obtain ⟨s1, h1⟩ := step_total hN rec hrec htot hl (he e (by simp)) hxN hsub hf
    have hl1 := (loop_step rec hrec hl (he e (by simp)) h1).1
    have hsub1 : ∀ u ∈ s1.pfIndex, u ∈ N :=
      step_sub (S := (· ∈ N)) (fun u w hu hd => hN.dep u hu w hd) rec hrsub (he e (by simp)) hxN hsub h1
    obtain ⟨s2, h2⟩ := ih hl1 (fun e' h' => he e' (List.mem_cons_of_mem _ h')) hsub1
    exact ⟨s2, by simp [loopExch, h1, h2]⟩

theorem finish_total {x : F × P} {g old : List (F × P)} {k : ℕ} {s : State F P}
    {done : List (Exch F P)} (hl : LoopInv db strat x g old k done s) :
    ∃ s', finishNode x s = .ok () s' := by
  obtain ⟨new, l, hstk, hlow, _⟩ := hl.low
  unfold finishNode
  rw [hlow, hl.pfsx]
  simp only
  split
  · have hnd := hl.inv.stack_nodup
    rw [hstk] at hnd
    have hxnew : x ∉ new := fun h => (List.nodup_append.mp hnd).2.2 x h x (by simp) rfl
    unfold labelScc
    rw [hstk, popUntil_spec x new old hxnew]
    exact ⟨_, rfl⟩
  · exact ⟨_, rfl⟩

theorem traverse_total {N : List (F × P)} (hN : Closed db strat N) (fuel : ℕ) :
    TravTotal db strat N fuel (traverse db strat fuel) := by
  induction fuel with
  | zero =>
    intro x g old k s hI hs hp hlw hsub hf
    exfalso
    have hnd : (x :: g).Nodup := hI.grays.nodup hI.stack_nodup
    have hss : (x :: g) ⊆ N := fun u hu => hsub u (hI.stack_vis (hI.grays.subset hu))
    have := (List.subperm_of_subset hnd hss).length_le
    omega
  | succ n ih =>
    intro x g old k s hI hs hp hlw hsub hf
    have hl0 : LoopInv db strat x g old k [] s :=
      ⟨hI, hp, [], k, by simpa using hs, hlw, le_refl _,
        ⟨x, by rw [hs]; simp, hp, Relation.ReflTransGen.refl⟩, by simp, by simp⟩
    have hxN : x ∈ N := hsub x (hI.stack_vis (by rw [hs]; simp))
    obtain ⟨s1, h1⟩ := loop_total hN _ (traverse_spec n)
      (traverse_sub (fun u w hu hd => hN.dep u hu w hd) n) ih (db.inv x) hl0 (fun _ h => h) hxN hsub hf
    have hl1 := (loop_spec _ (traverse_spec n) (db.inv x) [] hl0 (fun e h => h) h1).1
    obtain ⟨s2, h2⟩ := finish_total hl1
    exact ⟨s2, by simp [traverse, h1, h2]⟩

theorem addAll_total {N : List (F × P)} (hN : Closed db strat N) {fuel : ℕ} (hf : N.length ≤ fuel)
    {vs : List (F × P)} {s : State F P} (hI : Inv db strat [] s) (hv : ∀ v ∈ vs, v ∈ N)
    (hr : ∀ v ∈ vs, db.refDir v ≠ none) (hs : ∀ u ∈ s.pfIndex, u ∈ N) :
    ∃ s', addAll db strat fuel vs s = .ok () s' := by
  induction vs generalizing s with
  | nil => exact ⟨s, rfl⟩
  | cons v vs ih =>
    have : ∃ s1, addRef db strat fuel v s = .ok () s1 := by
      unfold addRef
      cases hp : s.pfs.get? v with
      | some n => exact ⟨_, rfl⟩
      | none =>
        have hnv := (hI.none_iff v).mp hp
        simp only
        rcases create_total hI hnv with ⟨h, _⟩ | ⟨s1, hc⟩
        · exact absurd h (hr v (by simp))
        · unfold addRefProductRaw
          rw [hc]
          simp only
          obtain ⟨hI1, hs1, hp1, hl1, hE1, _⟩ := inv_push hI hnv (by rw [hI.stack_empty]; simp) hc
          have hsub1 : ∀ u ∈ s1.pfIndex, u ∈ N := by
            rcases create_sub hc with ⟨_, h, _⟩ | ⟨h, _⟩
            · rw [h]; intro u hu
              rcases List.mem_append.mp hu with hu | hu
              · exact hs u hu
              · simp at hu; rw [hu]; exact hv v (by simp)
            · simp at h
          obtain ⟨s2, h2⟩ := traverse_total hN fuel _ _ _ _ _ hI1 hs1 hp1 hl1 hsub1 (by simp; omega)
          rw [h2]
          exact ⟨s2, rfl⟩
    obtain ⟨s1, h1⟩ := this
    have hsub1 : ∀ u ∈ s1.pfIndex, u ∈ N :=
      addAll_sub (S := (· ∈ N)) (fun u w hu hd => hN.dep u hu w hd) (vs := [v]) (fuel := fuel)
        (fun w hw => hv w (by simp at hw; simp [hw])) hs (by simp [addAll, h1])
    obtain ⟨s2, h2⟩ := ih (addRef_spec hI h1).1 (fun w hw => hv w (List.mem_cons_of_mem _ hw))
      (fun w hw => hr w (List.mem_cons_of_mem _ hw)) hsub1
    exact ⟨s2, by simp [addAll, h1, h2]⟩

end Engine
