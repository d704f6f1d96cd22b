import Mathlib.Tactic.Ring
import Verif.Lemmas.EngineTarjan

namespace Engine
variable {F P : Type} [DecidableEq F] [DecidableEq P]
variable {db : DB F P} {strat : Strategy}

omit [DecidableEq F] [DecidableEq P] in
theorem staticTerm_iff (x : Exch F P) (t : P) :
    staticTerm db strat x = some t ↔ TermOf db strat x t := by
  unfold staticTerm TermOf
  cases hx : x.term with
  | some t' => simp
  | none =>
    cases hl : db.terms x.flow x.dir with
    | nil => cases strat <;> simp
    | cons a l =>
      cases l with
      | nil => cases strat <;> simp
      | cons b l => cases strat <;> simp

omit [DecidableEq F] [DecidableEq P] in
theorem depOf_iff (x : Exch F P) (w : F × P) :
    (∃ v, depOf db strat x = some (w, v)) ↔ EdgeOf db strat x w := by
  unfold depOf EdgeOf nzVal
  cases hr : x.isRef with
  | true => simp
  | false =>
    cases hv : x.val with
    | none => simp
    | some v =>
      by_cases h0 : v = 0
      · simp [h0]
      · cases ht : staticTerm db strat x with
        | none =>
          have : ∀ t, ¬ TermOf db strat x t := by
            intro t h; rw [← staticTerm_iff, ht] at h; simp at h
          simp [h0, this]
        | some t =>
          have hT : TermOf db strat x t := (staticTerm_iff x t).mp ht
          simp only [h0, if_false, Bool.false_eq_true]
          obtain ⟨w1, w2⟩ := w
          constructor
          · rintro ⟨v', h⟩
            split at h
            · simp at h
            · rename_i hd
              simp only [Option.some.injEq, Prod.mk.injEq] at h
              obtain ⟨⟨rfl, rfl⟩, _⟩ := h
              exact ⟨trivial, ⟨v, rfl, h0⟩, hT, rfl, hd⟩
          · rintro ⟨_, _, h1, h2, h3⟩
            have := TermOf.unique h1 hT
            simp only at this h2
            subst this; subst h2
            simp [h3]

omit [DecidableEq F] [DecidableEq P] in
theorem depends_iff (u w : F × P) :
    Depends db strat u w ↔ ∃ x ∈ db.inv u, ∃ v, depOf db strat x = some (w, v) := by
  unfold Depends
  simp only [depOf_iff]

theorem pval_eq (x : Exch F P) (v : ℚ) : pval x v = if x.dir = .output then -v else v := by
  unfold pval
  cases x.dir <;> simp

def initEv (d : Option Dir) : ℚ := match d with | some .input => -1 | _ => 1

/-- exchanges `xs` of `u` have been recorded, and nothing else for `u` -/
structure Done (db : DB F P) (strat : Strategy) (u : F × P) (xs : List (Exch F P)) (s : State F P) :
    Prop where
  int : s.interior.filter (fun e => decide (e.1 = u)) = (intOf db strat u xs).reverse
  cut : s.cutoffs.filter (fun e => decide (e.1 = u)) = (extOf db strat u xs).reverse
  ev : s.ev.get? u = some ((selfOf db strat u xs).foldl adjustEv (initEv (db.refDir u)))

structure DInv (db : DB F P) (strat : Strategy) (g : List (F × P)) (s : State F P) : Prop where
  fin : ∀ u ∈ s.pfIndex, u ∉ g → Done db strat u (db.inv u) s
  newI : ∀ e ∈ s.interior, e.1 ∈ s.pfIndex
  newC : ∀ e ∈ s.cutoffs, e.1 ∈ s.pfIndex
  emi : ∀ e ∈ s.cutoffs, e.2.1 ∈ s.emissions
  emn : s.emissions.Nodup
  tgt : ∀ e ∈ s.interior, e.2.1 ∈ s.pfIndex

structure Frame (x : F × P) (s s' : State F P) : Prop where
  int : ∀ u ∈ s.pfIndex, u ≠ x → s'.interior.filter (fun e => decide (e.1 = u)) =
    s.interior.filter (fun e => decide (e.1 = u))
  cut : ∀ u ∈ s.pfIndex, u ≠ x → s'.cutoffs.filter (fun e => decide (e.1 = u)) =
    s.cutoffs.filter (fun e => decide (e.1 = u))
  ev : ∀ u ∈ s.pfIndex, u ≠ x → s'.ev.get? u = s.ev.get? u

theorem Frame.refl (x : F × P) (s : State F P) : Frame x s s :=
  ⟨fun _ _ _ => rfl, fun _ _ _ => rfl, fun _ _ _ => rfl⟩

theorem Frame.trans {x : F × P} {a b c : State F P} (h : Frame x a b) (hp : a.pfIndex <+: b.pfIndex)
    (h' : Frame x b c) : Frame x a c :=
  ⟨fun u hu hx => by rw [h'.int u (hp.subset hu) hx, h.int u hu hx],
   fun u hu hx => by rw [h'.cut u (hp.subset hu) hx, h.cut u hu hx],
   fun u hu hx => by rw [h'.ev u (hp.subset hu) hx, h.ev u hu hx]⟩

theorem Done.frame {x u : F × P} {s s' : State F P} {xs : List (Exch F P)} (h : Done db strat u xs s)
    (hf : Frame x s s') (hu : u ∈ s.pfIndex) (hx : u ≠ x) : Done db strat u xs s' :=
  ⟨by rw [hf.int u hu hx]; exact h.int, by rw [hf.cut u hu hx]; exact h.cut,
   by rw [hf.ev u hu hx]; exact h.ev⟩

def TravData (db : DB F P) (strat : Strategy) (rec : F × P → State F P → Res F P Unit) : Prop :=
  ∀ x g old k s s', Inv db strat (x :: g) s → s.stack = x :: old → s.pfs.get? x = some k →
    s.low.get? x = some k → rec x s = .ok () s' → DInv db strat (x :: g) s → Done db strat x [] s →
    DInv db strat g s' ∧ Frame x s s'

theorem create_data {g : List (F × P)} {s s' : State F P} {x : F × P} (h : Inv db strat g s)
    (hD : DInv db strat g s)
    (hx : x ∉ s.pfIndex) (hc : createProductFlow db s x = .ok true s') :
    DInv db strat (x :: g) s' ∧ Done db strat x [] s' ∧
      (∀ u, u ≠ x → ∀ xs, Done db strat u xs s → Done db strat u xs s') ∧ Frame x s s' := by
  unfold createProductFlow at hc
  cases hd : db.refDir x with
  | none => rw [hd] at hc; simp at hc
  | some d =>
    rw [hd] at hc
    simp only at hc
    unfold addProductFlow at hc
    have hxs : x ∉ s.stack := fun h' => hx (h.stack_vis h')
    have hlow : s.low.get? x = none := h.lowNew x hx
    simp only [setLow, hlow] at hc
    rw [if_neg hxs] at hc
    simp only [Res.ok.injEq, true_and] at hc
    subst hc
    have hemptyI : s.interior.filter (fun e => decide (e.1 = x)) = [] := by
      rw [List.filter_eq_nil_iff]
      intro e he
      have := hD.newI e he
      simp; rintro rfl; exact hx this
    have hemptyC : s.cutoffs.filter (fun e => decide (e.1 = x)) = [] := by
      rw [List.filter_eq_nil_iff]
      intro e he
      have := hD.newC e he
      simp; rintro rfl; exact hx this
    have hkeep : ∀ q : ℚ, ∀ u, u ≠ x → ∀ xs, Done db strat u xs s → Done db strat u xs
        { s with pfs := s.pfs.set x s.pfIndex.length,
                 ev := s.ev.set x q,
                 low := s.low.set x s.pfIndex.length, pfIndex := s.pfIndex ++ [x],
                 stack := x :: s.stack } := by
      intro q u hu xs hDu
      exact ⟨hDu.int, hDu.cut, by simp only; rw [Dict.get?_set_ne _ _ (Ne.symm hu)]; exact hDu.ev⟩
    refine ⟨⟨?_, ?_, ?_, hD.emi, hD.emn, ?_⟩, ?_, hkeep _, ⟨fun _ _ _ => rfl, fun _ _ _ => rfl, ?_⟩⟩
    · intro u hu hug
      simp only [List.mem_cons, not_or] at hug
      simp only [List.mem_append, List.mem_singleton] at hu
      rcases hu with hu | hu
      · exact hkeep _ u hug.1 _ (hD.fin u hu hug.2)
      · exact absurd hu hug.1
    · intro e he; simp only [List.mem_append]; exact Or.inl (hD.newI e he)
    · intro e he; simp only [List.mem_append]; exact Or.inl (hD.newC e he)
    · intro e he; simp only [List.mem_append]; exact Or.inl (hD.tgt e he)
    · refine ⟨by simpa [intOf] using hemptyI, by simpa [extOf] using hemptyC, ?_⟩
      simp [selfOf, hd, initEv]
      cases d <;> rfl
    · intro u _ hux
      simp only
      rw [Dict.get?_set_ne _ _ (Ne.symm hux)]

/-- what `addInterior` does to the records -/
theorem addInterior_done {s : State F P} {x : F × P} {xs : List (Exch F P)} {e : Exch F P}
    {w : F × P} {v : ℚ} (hD : Done db strat x xs s) (he : depOf db strat e = some (w, v)) :
    Done db strat x (xs ++ [e]) (addInterior s x w v) := by
  have hc : cutOf db strat e = none := by
    unfold depOf at he
    unfold cutOf
    cases h1 : nzVal e with
    | none => rfl
    | some a =>
      rw [h1] at he
      cases h2 : staticTerm db strat e with
      | none => rw [h2] at he; simp at he
      | some b => simp
  have hext : extOf db strat x (xs ++ [e]) = extOf db strat x xs := by
    simp [extOf, hc]
  unfold addInterior
  by_cases hxw : x = w
  · subst hxw
    have h1 : intOf db strat x (xs ++ [e]) = intOf db strat x xs := by simp [intOf, he]
    have h2 : selfOf db strat x (xs ++ [e]) = selfOf db strat x xs ++ [v] := by simp [selfOf, he]
    rw [if_pos rfl]
    refine ⟨by rw [h1]; exact hD.int, by rw [hext]; exact hD.cut, ?_⟩
    rw [h2]
    simp [hD.ev]
  · have hwx : ¬ w = x := fun h => hxw h.symm
    have h1 : intOf db strat x (xs ++ [e]) = intOf db strat x xs ++ [(x, w, v)] := by
      simp [intOf, he, hwx]
    have h2 : selfOf db strat x (xs ++ [e]) = selfOf db strat x xs := by simp [selfOf, he, hwx]
    rw [if_neg hxw]
    refine ⟨?_, by rw [hext]; exact hD.cut, by rw [h2]; exact hD.ev⟩
    rw [h1]
    simp [List.filter_cons, hD.int]

theorem addInterior_frame (s : State F P) (x w : F × P) (v : ℚ) : Frame x s (addInterior s x w v) := by
  unfold addInterior
  by_cases hxw : x = w
  · rw [if_pos hxw]
    refine ⟨fun _ _ _ => rfl, fun _ _ _ => rfl, fun u _ hu => ?_⟩
    simp only
    rw [Dict.get?_set_ne _ _ (Ne.symm hu)]
  · rw [if_neg hxw]
    refine ⟨fun u _ hu => ?_, fun _ _ _ => rfl, fun _ _ _ => rfl⟩
    have : ¬ x = u := fun h => hu h.symm
    simp [List.filter_cons, this]

theorem step_data (rec : F × P → State F P → Res F P Unit) (hrec : TravSpec db strat rec)
    (hdat : TravData db strat rec)
    {x : F × P} {g old : List (F × P)} {k : ℕ} {done : List (Exch F P)} {e : Exch F P}
    {s s' : State F P} (hl : LoopInv db strat x g old k done s) (he : e ∈ db.inv x)
    (hst : stepExch db strat rec x e s = .ok () s')
    (hD : DInv db strat (x :: g) s) (hX : Done db strat x done s) :
    DInv db strat (x :: g) s' ∧ Done db strat x (done ++ [e]) s' ∧ Frame x s s' := by
  have hI := hl.inv
  obtain ⟨new, l, hstk, hlow, hlk, -⟩ := hl.low
  have hxv : x ∈ s.pfIndex := hI.stack_vis (by rw [hstk]; simp)
  -- exchanges that leave no trace
  have skip : depOf db strat e = none → cutOf db strat e = none →
      DInv db strat (x :: g) s ∧ Done db strat x (done ++ [e]) s ∧ Frame x s s := by
    intro h1 h2
    refine ⟨hD, ⟨?_, ?_, ?_⟩, Frame.refl x s⟩
    · rw [hX.int]; simp [intOf, h1]
    · rw [hX.cut]; simp [extOf, h2]
    · rw [hX.ev]; simp [selfOf, h1]
  unfold stepExch at hst
  split at hst
  · rename_i href
    simp at hst; subst hst
    exact skip (by simp [depOf, nzVal, href]) (by simp [cutOf, nzVal, href])
  rename_i href
  split at hst
  · rename_i hval
    simp at hst; subst hst
    exact skip (by simp [depOf, nzVal, href, hval]) (by simp [cutOf, nzVal, href, hval])
  rename_i v hval
  split at hst
  · rename_i hv0
    simp at hst; subst hst
    exact skip (by simp [depOf, nzVal, href, hval, hv0]) (by simp [cutOf, nzVal, href, hval, hv0])
  rename_i hv0
  have hnz : nzVal e = some v := by simp [nzVal, href, hval, hv0]
  split at hst
  · simp at hst
  · -- cutoff
    rename_i hterm
    simp only [Res.ok.injEq, true_and] at hst
    obtain ⟨hnt, hno⟩ := terminate_none hI hterm
    have hst0 : staticTerm db strat e = none := by
      cases h : staticTerm db strat e with
      | none => rfl
      | some t => exact absurd ((staticTerm_iff e t).mp h) (hno t)
    have hc : cutOf db strat e = some ((e.flow, e.dir), v) := by simp [cutOf, hnz, hst0]
    have hd : depOf db strat e = none := by simp [depOf, hnz, hst0]
    have key : ∀ em : List (F × Dir), em.Nodup → (∀ c ∈ s.emissions, c ∈ em) → (e.flow, e.dir) ∈ em →
        s' = addCutoff { s with emissions := em } x (e.flow, e.dir) v →
        DInv db strat (x :: g) s' ∧ Done db strat x (done ++ [e]) s' ∧ Frame x s s' := by
      intro em hem hsub hin hs'
      subst hs'
      refine ⟨⟨?_, hD.newI, ?_, ?_, hem, hD.tgt⟩, ⟨?_, ?_, ?_⟩, ⟨fun _ _ _ => rfl, ?_, fun _ _ _ => rfl⟩⟩
      · intro u hu hug
        have := hD.fin u hu hug
        refine ⟨this.int, ?_, this.ev⟩
        simp only [List.mem_cons, not_or] at hug
        have hux : ¬ x = u := fun h => hug.1 h.symm
        simpa [addCutoff, List.filter_cons, hux] using this.cut
      · intro c hc'
        simp only [addCutoff, List.mem_cons] at hc'
        rcases hc' with h | h
        · subst h; exact hxv
        · exact hD.newC c h
      · intro c hc'
        simp only [addCutoff, List.mem_cons] at hc'
        rcases hc' with h | h
        · subst h; exact hin
        · exact hsub _ (hD.emi c h)
      · simp only [addCutoff]; rw [hX.int]; simp [intOf, hd]
      · simp only [addCutoff, extOf, List.filter_cons]
        simp [hX.cut, extOf, hc]
      · simp only [addCutoff]; rw [hX.ev]; simp [selfOf, hd]
      · intro u _ hux
        have hux' : ¬ x = u := fun h => hux h.symm
        simp [addCutoff, List.filter_cons, hux']
    by_cases hem : (e.flow, e.dir) ∈ s.emissions
    · refine key s.emissions hD.emn (fun _ h => h) hem ?_
      rw [← hst]; simp [addEmission, hem]
    · refine key (s.emissions ++ [(e.flow, e.dir)]) ?_ (fun c h => by simp [h]) (by simp) ?_
      · rw [List.nodup_append]
        refine ⟨hD.emn, by simp, ?_⟩
        intro a ha b hb hab
        simp at hb; subst hb; subst hab; exact hem ha
      · rw [← hst]; simp [addEmission, hem]
  · rename_i t hterm
    have hT := terminate_some hI hterm
    have hst1 : staticTerm db strat e = some t := (staticTerm_iff e t).mpr hT
    have hdep : db.refDir (e.flow, t) ≠ none →
        depOf db strat e = some ((e.flow, t), pval e v) := by
      intro h
      simp [depOf, hnz, hst1, h, pval_eq]
    have hcut : cutOf db strat e = none := by simp [cutOf, hnz, hst1]
    -- recording the edge in a state where everything else is in order
    have record : ∀ s2 : State F P, DInv db strat (x :: g) s2 → Done db strat x done s2 → Frame x s s2 →
        x ∈ s2.pfIndex → (e.flow, t) ∈ s2.pfIndex → s.pfIndex <+: s2.pfIndex →
        db.refDir (e.flow, t) ≠ none → ∀ n,
        DInv db strat (x :: g) (addInterior (setLow s2 x n) x (e.flow, t) (pval e v)) ∧
        Done db strat x (done ++ [e]) (addInterior (setLow s2 x n) x (e.flow, t) (pval e v)) ∧
        Frame x s (addInterior (setLow s2 x n) x (e.flow, t) (pval e v)) := by
      intro s2 hD2 hX2 hF2 hxv2 hiv2 hpre hrd n
      have ho3 := setLow_other s2 x n
      set s3 := setLow s2 x n with hs3
      have hX3 : Done db strat x done s3 := by
        refine ⟨?_, ?_, ?_⟩
        · rw [ho3.2.2.2.2.2.2.1]; exact hX2.int
        · rw [ho3.2.2.2.2.2.2.2.1]; exact hX2.cut
        · rw [ho3.2.2.1]; exact hX2.ev
      have hF3 : Frame x s s3 := by
        refine ⟨?_, ?_, ?_⟩
        · rw [ho3.2.2.2.2.2.2.1]; exact hF2.int
        · rw [ho3.2.2.2.2.2.2.2.1]; exact hF2.cut
        · rw [ho3.2.2.1]; exact hF2.ev
      have hD3 : DInv db strat (x :: g) s3 := by
        refine ⟨?_, ?_, ?_, ?_, ?_, ?_⟩
        · rw [ho3.2.1]
          intro u hu hug
          have := hD2.fin u hu hug
          refine ⟨?_, ?_, ?_⟩
          · rw [ho3.2.2.2.2.2.2.1]; exact this.int
          · rw [ho3.2.2.2.2.2.2.2.1]; exact this.cut
          · rw [ho3.2.2.1]; exact this.ev
        · rw [ho3.2.2.2.2.2.2.1, ho3.2.1]; exact hD2.newI
        · rw [ho3.2.2.2.2.2.2.2.1, ho3.2.1]; exact hD2.newC
        · rw [ho3.2.2.2.2.2.2.2.1, ho3.2.2.2.2.2.2.2.2]; exact hD2.emi
        · rw [ho3.2.2.2.2.2.2.2.2]; exact hD2.emn
        · rw [ho3.2.2.2.2.2.2.1, ho3.2.1]; exact hD2.tgt
      have hp3 : s3.pfIndex = s2.pfIndex := ho3.2.1
      clear_value s3
      have ho4 := addInterior_other s3 x (e.flow, t) (pval e v)
      have hfr := addInterior_frame s3 x (e.flow, t) (pval e v)
      refine ⟨⟨?_, ?_, ?_, ?_, ?_, ?_⟩, addInterior_done hX3 (hdep hrd),
        hF3.trans (by rw [hp3]; exact hpre) hfr⟩
      · rw [ho4.2.1]
        intro u hu hug
        have hux : u ≠ x := by
          intro h; apply hug; simp [h]
        exact (hD3.fin u hu hug).frame hfr hu hux
      · rw [ho4.2.1]
        intro c hc
        unfold addInterior at hc
        split at hc
        · exact hD3.newI c hc
        · simp only [List.mem_cons] at hc
          rcases hc with h | h
          · subst h; rw [hp3]; exact hxv2
          · exact hD3.newI c h
      · rw [ho4.2.1, ho4.2.2.2.2.2.2.1]; exact hD3.newC
      · rw [ho4.2.2.2.2.2.2.1, ho4.2.2.2.2.2.2.2]; exact hD3.emi
      · rw [ho4.2.2.2.2.2.2.2]; exact hD3.emn
      · rw [ho4.2.1]
        intro c hc
        unfold addInterior at hc
        split at hc
        · exact hD3.tgt c hc
        · simp only [List.mem_cons] at hc
          rcases hc with h | h
          · subst h; rw [hp3]; exact hiv2
          · exact hD3.tgt c h
    simp only at hst
    split at hst
    · rename_i hnv
      have hnew : (e.flow, t) ∉ s.pfIndex := (hI.none_iff _).mp hnv
      split at hst
      · simp at hst
      · rename_i s1 hc
        simp at hst; subst hst
        unfold createProductFlow at hc
        cases hd : db.refDir (e.flow, t) with
        | none =>
          rw [hd] at hc; simp at hc
          subst hc
          exact skip (by simp [depOf, hnz, hst1, hd]) hcut
        | some d =>
          rw [hd] at hc
          simp only at hc
          split at hc <;> simp at hc
      · rename_i s1 hc
        have hrd : db.refDir (e.flow, t) ≠ none := by
          intro hd; unfold createProductFlow at hc; rw [hd] at hc; simp at hc
        have hdep' : Depends db strat x (e.flow, t) :=
          ⟨e, he, by simpa using href, ⟨v, hval, hv0⟩, hT, rfl, hrd⟩
        have hreach : ∀ y ∈ s.stack, Reach db strat y (e.flow, t) :=
          fun y hy => (hI.reach_top hstk hy).tail hdep'
        obtain ⟨hI1, hs1, hp1, hl1, hE1, _⟩ := inv_push hI hnew hreach hc
        obtain ⟨hD1, hX1, hkeep, hF1⟩ := create_data hI hD hnew hc
        split at hst
        · simp at hst
        · rename_i s2 hr
          have hr := onTermError_ok hr
          have hpost := hrec _ _ _ _ _ _ hI1 hs1 hp1 hl1 hr
          obtain ⟨hD2, hF2⟩ := hdat _ _ _ _ _ _ hI1 hs1 hp1 hl1 hr hD1 hX1
          have hxne : x ≠ (e.flow, t) := fun e' => hnew (e' ▸ hxv)
          have hpre2 : s.pfIndex <+: s2.pfIndex := hE1.pre.trans hpost.ext.pre
          have hX2 : Done db strat x done s2 :=
            (hkeep x hxne _ hX).frame hF2 (hE1.pre.subset hxv) hxne
          have hFs2 : Frame x s s2 := by
            refine ⟨fun u hu hux => ?_, fun u hu hux => ?_, fun u hu hux => ?_⟩
            · have h1 : u ≠ (e.flow, t) := fun h => hnew (h ▸ hu)
              rw [hF2.int u (hE1.pre.subset hu) h1, hF1.int u hu h1]
            · have h1 : u ≠ (e.flow, t) := fun h => hnew (h ▸ hu)
              rw [hF2.cut u (hE1.pre.subset hu) h1, hF1.cut u hu h1]
            · have h1 : u ≠ (e.flow, t) := fun h => hnew (h ▸ hu)
              rw [hF2.ev u (hE1.pre.subset hu) h1, hF1.ev u hu h1]
          have hi2 : (e.flow, t) ∈ s2.pfIndex :=
            hpost.ext.pre.subset (hI1.stack_vis (by rw [hs1]; simp))
          split at hst
          · simp at hst
          · simp only [Res.ok.injEq, true_and] at hst
            subst hst
            exact record s2 hD2 hX2 hFs2 (hpre2.subset hxv) hi2 hpre2 hrd _
    · rename_i ix hv
      have hvis : (e.flow, t) ∈ s.pfIndex := (hI.vis_iff _).mpr ⟨ix, hv⟩
      by_cases hon : (e.flow, t) ∈ s.stack
      · rw [if_pos hon] at hst
        simp only [Res.ok.injEq, true_and] at hst
        subst hst
        exact record s hD hX (Frame.refl x s) hxv hvis List.prefix_rfl (hI.refd _ hvis) _
      · rw [if_neg hon] at hst
        simp only [Res.ok.injEq, true_and] at hst
        subst hst
        have hsame : setLow s x l = { s with low := s.low.set x l } := by
          simp [setLow, hlow]
        have := record s hD hX (Frame.refl x s) hxv hvis List.prefix_rfl (hI.refd _ hvis) l
        -- the low-link part does not matter for the records
        have e1 : (addInterior (setLow s x l) x (e.flow, t) (pval e v)) =
            { addInterior s x (e.flow, t) (pval e v) with low := s.low.set x l } := by
          rw [hsame]; unfold addInterior; split <;> rfl
        rw [e1] at this
        obtain ⟨h1, h2, h3⟩ := this
        exact ⟨⟨fun u hu hg => ⟨(h1.fin u hu hg).int, (h1.fin u hu hg).cut, (h1.fin u hu hg).ev⟩,
          h1.newI, h1.newC, h1.emi, h1.emn, h1.tgt⟩, ⟨h2.int, h2.cut, h2.ev⟩, ⟨h3.int, h3.cut, h3.ev⟩⟩

theorem loop_data (rec : F × P → State F P → Res F P Unit) (hrec : TravSpec db strat rec)
    (hdat : TravData db strat rec)
    {x : F × P} {g old : List (F × P)} {k : ℕ} (todo done : List (Exch F P))
    {s s' : State F P} (hl : LoopInv db strat x g old k done s) (he : ∀ e ∈ todo, e ∈ db.inv x)
    (hst : loopExch db strat rec x todo s = .ok () s')
    (hD : DInv db strat (x :: g) s) (hX : Done db strat x done s) :
    DInv db strat (x :: g) s' ∧ Done db strat x (done ++ todo) s' ∧ Frame x s s' := by
  induction todo generalizing done s with
  | nil =>
    simp [loopExch] at hst; subst hst
    exact ⟨hD, by simpa using hX, Frame.refl x s⟩
  | cons e todo ih =>
    unfold loopExch at hst
    split at hst
    · rename_i s1 h1
      obtain ⟨hl1, hE1⟩ := loop_step rec hrec hl (he e (by simp)) h1
      obtain ⟨hD1, hX1, hF1⟩ := step_data rec hrec hdat hl (he e (by simp)) h1 hD hX
      obtain ⟨hD2, hX2, hF2⟩ :=
        ih (done ++ [e]) hl1 (fun e' h' => he e' (List.mem_cons_of_mem _ h')) hst hD1 hX1
      exact ⟨hD2, by simpa using hX2, hF1.trans hE1.pre hF2⟩
    · simp at hst

theorem finish_other {x : F × P} {s s' : State F P} (hf : finishNode x s = .ok () s') :
    s'.pfIndex = s.pfIndex ∧ s'.interior = s.interior ∧ s'.cutoffs = s.cutoffs ∧ s'.ev = s.ev ∧
      s'.emissions = s.emissions := by
  unfold finishNode at hf
  split at hf
  · rename_i l ix _ _
    split at hf
    · unfold labelScc at hf
      split at hf
      · simp at hf
      · rename_i popped rest _
        simp only [Res.ok.injEq, true_and] at hf
        subst hf
        have ho := foldl_labelNode_other (F := F) (P := P) ix popped s
        exact ⟨ho.2.1, ho.2.2.2.2.1, ho.2.2.2.2.2.1, ho.2.2.2.1, ho.2.2.2.2.2.2⟩
    · simp at hf; subst hf; simp
  · simp at hf

theorem traverse_data (fuel : ℕ) : TravData db strat (traverse db strat fuel) := by
  induction fuel with
  | zero => intro x g old k s s' _ _ _ _ h; simp [traverse] at h
  | succ n ih =>
    intro x g old k s s' hI hs hp hlw h hD hX
    unfold traverse at h
    split at h
    · rename_i s1 h1
      have hl0 : LoopInv db strat x g old k [] s :=
        ⟨hI, hp, [], k, by simpa using hs, hlw, le_refl _,
          ⟨x, by rw [hs]; simp, hp, Relation.ReflTransGen.refl⟩, by simp, by simp⟩
      obtain ⟨hD1, hX1, hF1⟩ := loop_data _ (traverse_spec n) ih (db.inv x) [] hl0 (fun e h => h) h1 hD hX
      rw [List.nil_append] at hX1
      obtain ⟨e1, e2, e3, e4, e5⟩ := finish_other h
      refine ⟨⟨?_, ?_, ?_, ?_, ?_, ?_⟩, ⟨?_, ?_, ?_⟩⟩
      · rw [e1]
        intro u hu hug
        have : Done db strat u (db.inv u) s1 := by
          by_cases hux : u = x
          · subst hux; exact hX1
          · exact hD1.fin u hu (by simp [hux, hug])
        exact ⟨by rw [e2]; exact this.int, by rw [e3]; exact this.cut, by rw [e4]; exact this.ev⟩
      · rw [e1, e2]; exact hD1.newI
      · rw [e1, e3]; exact hD1.newC
      · rw [e3, e5]; exact hD1.emi
      · rw [e5]; exact hD1.emn
      · rw [e1, e2]; exact hD1.tgt
      · rw [e2]; exact hF1.int
      · rw [e3]; exact hF1.cut
      · rw [e4]; exact hF1.ev
    · simp at h

theorem dinv_init : DInv db strat [] ({} : State F P) := by
  constructor <;> simp

theorem addRef_data {fuel : ℕ} {v : F × P} {s s' : State F P} (h : Inv db strat [] s)
    (hD : DInv db strat [] s) (hr : addRef db strat fuel v s = .ok () s') : DInv db strat [] s' := by
  unfold addRef at hr
  split at hr
  · simp at hr; subst hr; exact hD
  · rename_i hn
    have hnv := (h.none_iff v).mp hn
    unfold addRefProductRaw at hr
    split at hr
    · simp at hr
    · simp at hr
    · rename_i s1 hc
      have hr := onTermError_ok hr
      obtain ⟨hI1, hs1, hp1, hl1, hE1, _⟩ := inv_push h hnv (by rw [h.stack_empty]; simp) hc
      obtain ⟨hD1, hX1, _, _⟩ := create_data h hD hnv hc
      exact (traverse_data fuel _ _ _ _ _ _ hI1 hs1 hp1 hl1 hr hD1 hX1).1

theorem addAll_data {fuel : ℕ} {vs : List (F × P)} {s s' : State F P} (h : Inv db strat [] s)
    (hD : DInv db strat [] s) (hr : addAll db strat fuel vs s = .ok () s') : DInv db strat [] s' := by
  induction vs generalizing s with
  | nil => simp [addAll] at hr; subst hr; exact hD
  | cons v vs ih =>
    unfold addAll at hr
    split at hr
    · rename_i s1 h1
      exact ih (addRef_spec h h1).1 (addRef_data h hD h1) hr
    · simp at hr

end Engine
