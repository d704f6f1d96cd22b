import Verif.Lemmas.Engine

namespace Engine
variable {F P : Type} [DecidableEq F] [DecidableEq P]
variable {db : DB F P} {strat : Strategy}

/-- what a call leaves untouched (`x` is the product flow whose loop makes the call) -/
structure Ext (x : F × P) (s s' : State F P) : Prop where
  pre : s.pfIndex <+: s'.pfIndex
  scc : ∀ v n, s.sccOf.get? v = some n → s'.sccOf.get? v = some n
  low : ∀ v ∈ s.pfIndex, v ≠ x → s'.low.get? v = s.low.get? v

theorem Ext.refl (x : F × P) (s : State F P) : Ext x s s :=
  ⟨List.prefix_rfl, fun _ _ h => h, fun _ _ _ => rfl⟩

theorem Ext.trans {x : F × P} {a b c : State F P} (h : Ext x a b) (h' : Ext x b c) : Ext x a c :=
  ⟨h.pre.trans h'.pre, fun v n hv => h'.scc v n (h.scc v n hv), fun v hv hx => by
    rw [h'.low v (h.pre.subset hv) hx, h.low v hv hx]⟩

theorem Ext.pfs {x : F × P} {s s' : State F P} {g g' : List (F × P)} (h : Ext x s s')
    (i : Inv db strat g s) (i' : Inv db strat g' s') {v : F × P} {n : ℕ}
    (hv : s.pfs.get? v = some n) : s'.pfs.get? v = some n := by
  rw [i'.pfs]
  have := (i.pfs v n).mp hv
  obtain ⟨t, ht⟩ := h.pre
  rw [← ht]
  rw [List.getElem?_append_left]
  · exact this
  · exact (List.getElem?_eq_some_iff.mp this).1

theorem inv_push {g : List (F × P)} {s s' : State F P} {x : F × P} (h : Inv db strat g s)
    (hx : x ∉ s.pfIndex) (hr : ∀ y ∈ s.stack, Reach db strat y x)
    (hc : createProductFlow db s x = .ok true s') :
    Inv db strat (x :: g) s' ∧ s'.stack = x :: s.stack ∧ s'.pfs.get? x = some s.pfIndex.length ∧
      s'.low.get? x = some s.pfIndex.length ∧ Ext x s s' ∧ db.refDir x ≠ none := by
  unfold createProductFlow at hc
  cases hd : db.refDir x with
  | none => rw [hd] at hc; simp at hc
  | some d =>
    rw [hd] at hc
    simp only at hc
    unfold addProductFlow at hc
    have hxs : x ∉ s.stack := fun h' => hx (h.stack_vis h')
    have hlow : s.low.get? x = none := h.lowNew x hx
    simp only [setLow, hlow] at hc
    rw [if_neg hxs] at hc
    simp only [Res.ok.injEq, true_and] at hc
    subst hc
    have hlen : s.pfs.get? x = none := (h.none_iff x).mpr hx
    have hsx : s.sccOf.get? x = none := by
      cases hs : s.sccOf.get? x with
      | none => rfl
      | some n => exact absurd (h.sccVis x n hs) hx
    refine ⟨?_, rfl, by simp, by simp, ?_, by simp⟩
    swap
    · refine ⟨by simp, fun _ _ h => h, ?_⟩
      intro v hv hvx
      simp only
      rw [Dict.get?_set_ne]
      exact fun e => hvx e.symm
    have hpfs : ∀ v n, (s.pfs.set x s.pfIndex.length).get? v = some n ↔
        (s.pfIndex ++ [x])[n]? = some v := by
      intro v n
      rw [Dict.get?_set]
      by_cases hv : x = v
      · subst hv
        rw [if_pos rfl]
        constructor
        · intro e; simp at e; subst e; simp
        · intro e
          rw [List.getElem?_append] at e
          split at e
          · exact absurd (List.mem_of_getElem? e) hx
          · rename_i hn
            have := (List.getElem?_eq_some_iff.mp e).1
            simp at this
            congr 1; omega
      · rw [if_neg hv, h.pfs]
        rw [List.getElem?_append]
        split
        · rfl
        · rename_i hn
          rw [List.getElem?_eq_none (by omega)]
          constructor
          · intro e; simp at e
          · intro e
            have := List.mem_of_getElem? e
            simp at this
            exact absurd this.symm hv
    constructor
    · simp only
      rw [List.nodup_append]
      refine ⟨h.nodup, by simp, ?_⟩
      intro a ha b hb e
      simp at hb
      subst hb; subst e; exact hx ha
    · exact hpfs
    · simp only [List.reverse_append, List.reverse_cons, List.reverse_nil, List.nil_append,
        List.singleton_append]
      exact h.stk.cons_cons x
    · intro v hv
      rcases List.mem_cons.mp hv with e | hv
      · subst e; exact hsx
      · exact h.onStack v hv
    · intro v hv hvs
      simp only [List.mem_cons, not_or] at hvs
      simp only [List.mem_append, List.mem_singleton] at hv
      rcases hv with hv | hv
      · exact h.offStack v hv hvs.2
      · exact absurd hv hvs.1
    · intro v n hv
      simp only [List.mem_append]
      exact Or.inl (h.sccVis v n hv)
    · intro v hv
      simp only [Dict.get?_set]
      by_cases e : x = v
      · simp [e]
      · simp only [List.mem_append, List.mem_singleton] at hv
        rcases hv with hv | hv
        · simpa [e] using h.lowVis v hv
        · exact absurd hv.symm e
    · intro v hv
      simp only [List.mem_append, List.mem_singleton, not_or] at hv
      simp only [Dict.get?_set]
      have : ¬ x = v := fun e => hv.2 e.symm
      rw [if_neg this]
      exact h.lowNew v hv.1
    · exact h.grays.cons_cons x
    · intro v hv hvg w hw
      simp only [List.mem_cons, not_or] at hvg
      simp only [List.mem_append, List.mem_singleton] at hv ⊢
      rcases hv with hv | hv
      · exact Or.inl (h.closed v hv hvg.2 w hw)
      · exact absurd hv hvg.1
    · exact h.black
    · exact h.scc
    · intro v n hv
      obtain ⟨r, h1, h2⟩ := h.sccRoot v n hv
      refine ⟨r, ?_, h2⟩
      simp only
      rw [List.getElem?_append_left (List.getElem?_eq_some_iff.mp h1).1]
      exact h1
    · exact h.sccsMem
    · exact h.sccsDom
    · simp only [List.pairwise_cons]
      exact ⟨hr, h.reachUp⟩
    · intro y hy
      simp only at hy ⊢
      rcases List.mem_cons.mp hy with e | hy
      · subst e
        exact ⟨y, by simp, s.pfIndex.length, s.pfIndex.length, by simp, by simp, le_refl _,
          Relation.ReflTransGen.refl⟩
      · obtain ⟨z, hz, i, j, h1, h2, h3, h4⟩ := h.reachGray y hy
        have hzx : x ≠ z := by
          intro e; subst e; rw [hlen] at h1; simp at h1
        have hyx : x ≠ y := by
          intro e; subst e; exact hxs hy
        exact ⟨z, List.mem_cons_of_mem _ hz, i, j, by rw [Dict.get?_set_ne _ _ hzx]; exact h1,
          by rw [Dict.get?_set_ne _ _ hyx]; exact h2, h3, h4⟩
    · exact h.emis
    · intro v hv
      simp only [List.mem_append, List.mem_singleton] at hv
      rcases hv with hv | hv
      · exact h.refd v hv
      · subst hv; simp [hd]
    · exact h.sccsKeys

/-- result of a completed traversal of `x`, whose stack was `x :: old` and whose index is `k` -/
structure Post (db : DB F P) (strat : Strategy) (x : F × P) (g old : List (F × P)) (k : ℕ)
    (s s' : State F P) : Prop where
  inv : Inv db strat g s'
  ext : Ext x s s'
  low : ∃ new l, s'.stack = new ++ old ∧ s'.low.get? x = some l ∧
    ((l = k ∧ new = []) ∨
     (l < k ∧ x ∈ new ∧ (∃ y ∈ s'.stack, s'.pfs.get? y = some l ∧ Reach db strat x y) ∧
      ∀ y ∈ new, ∀ z ∈ old, Depends db strat y z → ∀ j, s'.pfs.get? z = some j → l ≤ j))

/-- state of the exchange loop of `x` after the exchanges `done` -/
structure LoopInv (db : DB F P) (strat : Strategy) (x : F × P) (g old : List (F × P)) (k : ℕ)
    (done : List (Exch F P)) (s : State F P) : Prop where
  inv : Inv db strat (x :: g) s
  pfsx : s.pfs.get? x = some k
  low : ∃ new l, s.stack = new ++ x :: old ∧ s.low.get? x = some l ∧ l ≤ k ∧
    (∃ y ∈ s.stack, s.pfs.get? y = some l ∧ Reach db strat x y) ∧
    (∀ y ∈ new, ∀ z ∈ old, Depends db strat y z → ∀ j, s.pfs.get? z = some j → l ≤ j) ∧
    (∀ e ∈ done, ∀ w, EdgeOf db strat e w → w ∈ s.pfIndex ∧
      (w ∈ old → ∀ j, s.pfs.get? w = some j → l ≤ j))

def TravSpec (db : DB F P) (strat : Strategy) (rec : F × P → State F P → Res F P Unit) : Prop :=
  ∀ x g old k s s', Inv db strat (x :: g) s → s.stack = x :: old → s.pfs.get? x = some k →
    s.low.get? x = some k → rec x s = .ok () s' → Post db strat x g old k s s'

theorem onTermError_ok {v : F × P} {r : Res F P Unit} {s : State F P}
    (h : onTermError v r = .ok () s) : r = .ok () s := by
  unfold onTermError at h
  split at h
  · split at h <;> simp at h
  · exact h

/-- every stack member reaches the innermost active product flow -/
theorem Inv.reach_top {x : F × P} {g : List (F × P)} {s : State F P} (h : Inv db strat (x :: g) s)
    {new old : List (F × P)} (hs : s.stack = new ++ x :: old) {y : F × P} (hy : y ∈ s.stack) :
    Reach db strat y x := by
  have up := h.reachUp
  rw [hs, List.pairwise_append] at up
  have hold : ∀ z ∈ old, Reach db strat z x := (List.pairwise_cons.mp up.2.1).1
  obtain ⟨z, hz, _, _, _, _, _, hr⟩ := h.reachGray y hy
  rcases List.mem_cons.mp hz with e | hzg
  · subst e; exact hr
  · have hz' : z ∈ old := by
      have hnd := h.stack_nodup
      rw [hs] at hnd
      have hsub := h.grays
      rw [hs] at hsub
      rw [List.nodup_append] at hnd
      have hxnew : x ∉ new := fun hx => hnd.2.2 x hx x (by simp) rfl
      have : (x :: g).Sublist (x :: old) := by
        clear hr hz hzg hold up hy hs h
        induction new with
        | nil => simpa using hsub
        | cons a new ih =>
          apply ih
          · refine ⟨(List.nodup_cons.mp hnd.1).2, hnd.2.1, ?_⟩
            intro p hp q hq; exact hnd.2.2 p (List.mem_cons_of_mem _ hp) q hq
          · rw [List.cons_append] at hsub
            cases hsub with
            | cons _ h => exact h
            | cons_cons _ h => exact absurd (by simp) hxnew
          · exact fun hx => hxnew (List.mem_cons_of_mem _ hx)
      exact (List.Sublist.of_cons_cons this).subset hzg
    exact hr.trans (hold z hz')

theorem loop_step (rec : F × P → State F P → Res F P Unit) (hrec : TravSpec db strat rec)
    {x : F × P} {g old : List (F × P)} {k : ℕ} {done : List (Exch F P)} {e : Exch F P}
    {s s' : State F P} (hl : LoopInv db strat x g old k done s) (he : e ∈ db.inv x)
    (hst : stepExch db strat rec x e s = .ok () s') :
    LoopInv db strat x g old k (done ++ [e]) s' ∧ Ext x s s' := by
  have hI := hl.inv
  obtain ⟨new, l, hstk, hlow, hlk, hsound, hcross, hdone⟩ := hl.low
  -- a step that changes nothing and whose exchange makes no edge
  have skip : ∀ {t : State F P}, SameGraph s t → t.low = s.low → (∀ w, ¬ EdgeOf db strat e w) →
      LoopInv db strat x g old k (done ++ [e]) t ∧ Ext x s t := by
    intro t hg hlw hne
    refine ⟨⟨hI.congr hg (by simp [hlw]), by rw [hg.pfs]; exact hl.pfsx,
      new, l, by rw [hg.stack]; exact hstk, by rw [hlw]; exact hlow, hlk,
      by rw [hg.stack, hg.pfs]; exact hsound, by rw [hg.pfs]; exact hcross, ?_⟩, ?_⟩
    · intro e' he' w hw
      rcases List.mem_append.mp he' with h' | h'
      · rw [hg.pfs, hg.pfIndex]; exact hdone e' h' w hw
      · simp at h'; subst h'; exact absurd hw (hne w)
    · exact ⟨by rw [hg.pfIndex]; exact List.prefix_rfl, by rw [hg.sccOf]; exact fun _ _ h => h, by simp [hlw]⟩
  have same : SameGraph s s := ⟨rfl, rfl, rfl, rfl, rfl, rfl⟩
  unfold stepExch at hst
  split at hst
  · rename_i href
    simp at hst; subst hst
    exact skip same rfl (fun w hw => by simp [EdgeOf, href] at hw)
  rename_i href
  split at hst
  · rename_i hval
    simp at hst; subst hst
    exact skip same rfl (fun w hw => by simp [EdgeOf, hval] at hw)
  rename_i v hval
  split at hst
  · rename_i hv0
    simp at hst; subst hst
    refine skip same rfl (fun w hw => ?_)
    obtain ⟨_, ⟨v', h1, h2⟩, _⟩ := hw
    rw [hval] at h1
    simp at h1
    exact h2 (by rw [← h1, hv0])
  rename_i hv0
  split at hst
  · simp at hst
  · -- cutoff
    rename_i hterm
    simp only [Res.ok.injEq, true_and] at hst
    obtain ⟨hnt, hno⟩ := terminate_none hI hterm
    have hne : ∀ w, ¬ EdgeOf db strat e w := fun w hw => hno _ hw.2.2.1
    by_cases hem : (e.flow, e.dir) ∈ s.emissions
    · have : s' = addCutoff s x (e.flow, e.dir) v := by
        rw [← hst]; simp [addEmission, hem]
      subst this
      exact skip ⟨rfl, rfl, rfl, rfl, rfl, rfl⟩ rfl hne
    · have hs' : s' = addCutoff { s with emissions := s.emissions ++ [(e.flow, e.dir)] } x (e.flow, e.dir) v := by
        rw [← hst]; simp [addEmission, hem]
      subst hs'
      refine ⟨⟨?_, hl.pfsx, new, l, hstk, hlow, hlk, hsound, hcross, ?_⟩,
        ⟨List.prefix_rfl, fun _ _ h => h, fun _ _ _ => rfl⟩⟩
      · refine { hI with emis := ?_ }
        intro k' hk' y hy hyk t ht
        simp only [addCutoff, List.mem_append, List.mem_singleton] at hk'
        rcases hk' with hk' | hk'
        · exact hI.emis k' hk' y hy hyk t ht
        · subst hk'
          apply hno t
          simp only [Prod.mk.injEq] at hyk
          rcases ht with ht | ⟨_, ht⟩
          · rw [hy] at ht; simp at ht
          · right
            refine ⟨hnt, ?_⟩
            rw [← hyk.1, ← hyk.2]; exact ht
      · intro e' he' w hw
        rcases List.mem_append.mp he' with h' | h'
        · exact hdone e' h' w hw
        · simp at h'; subst h'; exact absurd hw (hne w)
  · rename_i t hterm
    have hT := terminate_some hI hterm
    -- the only possible edge of this exchange
    have huniq : ∀ w, EdgeOf db strat e w → w = (e.flow, t) := by
      intro w hw
      have := TermOf.unique hw.2.2.1 hT
      obtain ⟨w1, w2⟩ := w
      simp only at this
      simp [this, ← hw.2.2.2.1]
    simp only at hst
    split at hst
    · -- not visited
      rename_i hnv
      have hnew : (e.flow, t) ∉ s.pfIndex := (hI.none_iff _).mp hnv
      split at hst
      · simp at hst
      · -- no matching reference
        rename_i s1 hc
        simp at hst; subst hst
        unfold createProductFlow at hc
        cases hd : db.refDir (e.flow, t) with
        | none =>
          rw [hd] at hc; simp at hc
          subst hc
          refine skip same rfl (fun w hw => ?_)
          have := huniq w hw
          subst this
          exact hw.2.2.2.2 hd
        | some d =>
          rw [hd] at hc
          simp only at hc
          split at hc <;> simp at hc
      · rename_i s1 hc
        have hrd : db.refDir (e.flow, t) ≠ none := by
          intro hd; unfold createProductFlow at hc; rw [hd] at hc; simp at hc
        have hedge : EdgeOf db strat e (e.flow, t) :=
          ⟨by simpa using href, ⟨v, hval, hv0⟩, hT, rfl, hrd⟩
        have hdep : Depends db strat x (e.flow, t) := ⟨e, he, hedge⟩
        have hreach : ∀ y ∈ s.stack, Reach db strat y (e.flow, t) :=
          fun y hy => (hI.reach_top hstk hy).tail hdep
        obtain ⟨hI1, hs1, hp1, hl1, hE1, _⟩ := inv_push hI hnew hreach hc
        split at hst
        · simp at hst
        · rename_i s2 hr
          have hr := onTermError_ok hr
          have hpost := hrec _ _ _ _ _ _ hI1 hs1 hp1 hl1 hr
          have hI2 := hpost.inv
          obtain ⟨new2, l2, hstk2, hlow2, hcase⟩ := hpost.low
          have hxv : x ∈ s.pfIndex := hI.stack_vis (by rw [hstk]; simp)
          have hxne : x ≠ (e.flow, t) := fun e' => hnew (e' ▸ hxv)
          rw [hlow2] at hst
          simp only [Res.ok.injEq, true_and] at hst
          -- x's low link before the update
          have hlowx2 : s2.low.get? x = some l := by
            rw [hpost.ext.low x (hE1.pre.subset hxv) hxne, hE1.low x hxv hxne, hlow]
          have hpfs2 : ∀ {y : F × P} {n}, s.pfs.get? y = some n → s2.pfs.get? y = some n :=
            fun hy => hpost.ext.pfs hI1 hI2 (hE1.pfs hI hI1 hy)
          have hvis2 : ∀ y ∈ s.pfIndex, y ∈ s2.pfIndex :=
            fun y hy => hpost.ext.pre.subset (hE1.pre.subset hy)
          have hi2 : (e.flow, t) ∈ s2.pfIndex := by
            apply hpost.ext.pre.subset
            exact hI1.stack_vis (by rw [hs1]; simp)
          have hpfs_old : ∀ z ∈ old, ∀ j, s2.pfs.get? z = some j → s.pfs.get? z = some j := by
            intro z hz j hj
            have hzv : z ∈ s.pfIndex := hI.stack_vis (by rw [hstk]; simp [hz])
            obtain ⟨n, hn⟩ := (hI.vis_iff z).mp hzv
            have := hpfs2 hn
            rw [this] at hj
            rw [hn, hj]
          subst hst
          set s3 := setLow s2 x l2 with hs3
          have ho3 := setLow_other s2 x l2
          have ho4 := addInterior_other s3 x (e.flow, t) (pval e v)
          set s4 := addInterior s3 x (e.flow, t) (pval e v) with hs4
          have hg : SameGraph s2 s4 := by
            refine ⟨by rw [ho4.1, ho3.1], by rw [ho4.2.1, ho3.2.1], by rw [ho4.2.2.2.1, ho3.2.2.2.1],
              by rw [ho4.2.2.2.2.1, ho3.2.2.2.2.1], by rw [ho4.2.2.2.2.2.1, ho3.2.2.2.2.2.1],
              by rw [ho4.2.2.2.2.2.2.2, ho3.2.2.2.2.2.2.2.2]⟩
          have hlow4 : ∀ w, s4.low.get? w = if x = w then some (min l l2) else s2.low.get? w := by
            intro w
            rw [ho4.2.2.1, hs3, setLow_low, hlowx2]
          have hI4 : Inv db strat (x :: g) s4 := by
            apply hI2.congr hg
            intro w
            rw [hlow4]
            by_cases hw : x = w
            · subst hw; simp [hlowx2]
            · simp [hw]
          refine ⟨⟨hI4, by rw [hg.pfs]; exact hpfs2 hl.pfsx, new2 ++ new, min l l2, ?_, ?_, ?_, ?_, ?_, ?_⟩, ?_⟩
          · rw [hg.stack, hstk2, hstk]; simp
          · rw [hlow4]; simp
          · omega
          · -- soundness
            rcases hcase with ⟨e1, e2⟩ | ⟨e1, e2, ⟨y, hy, hyl, hyr⟩, _⟩
            · have hkl : l ≤ l2 := by
                obtain ⟨y, hy, hyl, _⟩ := hsound
                have : l < s.pfIndex.length := by
                  have := (hI.pfs y l).mp hyl
                  exact (List.getElem?_eq_some_iff.mp this).1
                omega
              obtain ⟨y, hy, hyl, hyr⟩ := hsound
              refine ⟨y, ?_, ?_, hyr⟩
              · rw [hg.stack, hstk2]; simp [hy]
              · rw [hg.pfs, Nat.min_eq_left hkl]; exact hpfs2 hyl
            · rcases Nat.le_total l l2 with hle | hle
              · rw [Nat.min_eq_left hle]
                obtain ⟨y, hy, hyl, hyr⟩ := hsound
                refine ⟨y, ?_, ?_, hyr⟩
                · rw [hg.stack, hstk2]; simp [hy]
                · rw [hg.pfs]; exact hpfs2 hyl
              · rw [Nat.min_eq_right hle]
                refine ⟨y, by rw [hg.stack]; exact hy, by rw [hg.pfs]; exact hyl, ?_⟩
                exact (Relation.ReflTransGen.single hdep).trans hyr
          · intro y hy z hz hd j hj
            rw [hg.pfs] at hj
            rcases List.mem_append.mp hy with hy | hy
            · rcases hcase with ⟨_, e2⟩ | ⟨_, _, _, hc2⟩
              · rw [e2] at hy; simp at hy
              · have := hc2 y hy z (by rw [hstk]; simp [hz]) hd j hj
                omega
            · have := hcross y hy z hz hd j (hpfs_old z hz j hj)
              omega
          · intro e' he' w hw
            rw [hg.pfIndex]
            rcases List.mem_append.mp he' with h' | h'
            · obtain ⟨h1, h2⟩ := hdone e' h' w hw
              refine ⟨hvis2 w h1, ?_⟩
              intro hwo j hj
              rw [hg.pfs] at hj
              have := h2 hwo j (hpfs_old w hwo j hj)
              omega
            · simp at h'; subst h'
              have := huniq w hw
              subst this
              refine ⟨hi2, ?_⟩
              intro hwo
              exact absurd (hI.stack_vis (by rw [hstk]; simp [hwo])) hnew
          · -- Ext
            refine ⟨by rw [hg.pfIndex]; exact hE1.pre.trans hpost.ext.pre, ?_, ?_⟩
            · intro w n hw
              rw [hg.sccOf]
              exact hpost.ext.scc _ _ (hE1.scc _ _ hw)
            · intro w hw hwx
              rw [hlow4, if_neg (fun e' => hwx e'.symm)]
              have hwi : w ≠ (e.flow, t) := fun e' => hnew (e' ▸ hw)
              rw [hpost.ext.low w (hE1.pre.subset hw) hwi, hE1.low w hw hwi]
    · -- visited
      rename_i ix hv
      have hvis : (e.flow, t) ∈ s.pfIndex := (hI.vis_iff _).mpr ⟨ix, hv⟩
      by_cases hon : (e.flow, t) ∈ s.stack
      · rw [if_pos hon] at hst
        simp only [Res.ok.injEq, true_and] at hst
        -- is this an edge of the graph?  refDir may be none only for flows never created
        subst hst
        set s3 := setLow s x ix with hs3
        have ho3 := setLow_other s x ix
        have ho4 := addInterior_other s3 x (e.flow, t) (pval e v)
        set s4 := addInterior s3 x (e.flow, t) (pval e v) with hs4
        have hg : SameGraph s s4 := by
          refine ⟨by rw [ho4.1, ho3.1], by rw [ho4.2.1, ho3.2.1], by rw [ho4.2.2.2.1, ho3.2.2.2.1],
            by rw [ho4.2.2.2.2.1, ho3.2.2.2.2.1], by rw [ho4.2.2.2.2.2.1, ho3.2.2.2.2.2.1],
            by rw [ho4.2.2.2.2.2.2.2, ho3.2.2.2.2.2.2.2.2]⟩
        have hlow4 : ∀ w, s4.low.get? w = if x = w then some (min l ix) else s.low.get? w := by
          intro w
          rw [ho4.2.2.1, hs3, setLow_low, hlow]
        have hI4 : Inv db strat (x :: g) s4 := by
          apply hI.congr hg
          intro w
          rw [hlow4]
          by_cases hw : x = w
          · subst hw; simp [hlow]
          · simp [hw]
        have hedge : EdgeOf db strat e (e.flow, t) :=
          ⟨by simpa using href, ⟨v, hval, hv0⟩, hT, rfl, hI.refd _ hvis⟩
        have hdep : Depends db strat x (e.flow, t) := ⟨e, he, hedge⟩
        refine ⟨⟨hI4, by rw [hg.pfs]; exact hl.pfsx, new, min l ix, by rw [hg.stack]; exact hstk,
          by rw [hlow4]; simp, by omega, ?_, ?_, ?_⟩, ?_⟩
        · rcases Nat.le_total l ix with hle | hle
          · rw [Nat.min_eq_left hle, hg.stack, hg.pfs]; exact hsound
          · rw [Nat.min_eq_right hle, hg.stack, hg.pfs]
            exact ⟨_, hon, hv, Relation.ReflTransGen.single hdep⟩
        · intro y hy z hz hd j hj
          rw [hg.pfs] at hj
          have := hcross y hy z hz hd j hj
          omega
        · intro e' he' w hw
          rw [hg.pfIndex, hg.pfs]
          rcases List.mem_append.mp he' with h' | h'
          · obtain ⟨h1, h2⟩ := hdone e' h' w hw
            refine ⟨h1, fun hwo j hj => ?_⟩
            have := h2 hwo j hj
            omega
          · simp at h'; subst h'
            have := huniq w hw
            subst this
            refine ⟨hvis, fun _ j hj => ?_⟩
            rw [hv] at hj
            simp at hj
            omega
        · refine ⟨by rw [hg.pfIndex]; exact List.prefix_rfl, by rw [hg.sccOf]; exact fun _ _ h => h, ?_⟩
          intro w _ hwx
          rw [hlow4, if_neg (fun e' => hwx e'.symm)]
      · rw [if_neg hon] at hst
        simp only [Res.ok.injEq, true_and] at hst
        subst hst
        have ho4 := addInterior_other s x (e.flow, t) (pval e v)
        set s4 := addInterior s x (e.flow, t) (pval e v) with hs4
        have hg : SameGraph s s4 := ⟨ho4.1, ho4.2.1, ho4.2.2.2.1, ho4.2.2.2.2.1, ho4.2.2.2.2.2.1,
          ho4.2.2.2.2.2.2.2⟩
        refine ⟨⟨hI.congr hg (by simp [ho4.2.2.1]), by rw [hg.pfs]; exact hl.pfsx, new, l,
          by rw [hg.stack]; exact hstk, by rw [ho4.2.2.1]; exact hlow, hlk,
          by rw [hg.stack, hg.pfs]; exact hsound, by rw [hg.pfs]; exact hcross, ?_⟩, ?_⟩
        · intro e' he' w hw
          rw [hg.pfIndex, hg.pfs]
          rcases List.mem_append.mp he' with h' | h'
          · exact hdone e' h' w hw
          · simp at h'; subst h'
            have := huniq w hw
            subst this
            exact ⟨hvis, fun hwo => absurd (by rw [hstk]; simp [hwo]) hon⟩
        · exact ⟨by rw [hg.pfIndex]; exact List.prefix_rfl, by rw [hg.sccOf]; exact fun _ _ h => h,
            fun w _ _ => by rw [ho4.2.2.1]⟩

theorem loop_spec (rec : F × P → State F P → Res F P Unit) (hrec : TravSpec db strat rec)
    {x : F × P} {g old : List (F × P)} {k : ℕ} (todo done : List (Exch F P))
    {s s' : State F P} (hl : LoopInv db strat x g old k done s) (he : ∀ e ∈ todo, e ∈ db.inv x)
    (hst : loopExch db strat rec x todo s = .ok () s') :
    LoopInv db strat x g old k (done ++ todo) s' ∧ Ext x s s' := by
  induction todo generalizing done s with
  | nil =>
    simp [loopExch] at hst; subst hst
    exact ⟨by simpa using hl, Ext.refl x s⟩
  | cons e todo ih =>
    unfold loopExch at hst
    split at hst
    · rename_i s1 h1
      obtain ⟨hl1, hE1⟩ := loop_step rec hrec hl (he e (by simp)) h1
      obtain ⟨hl2, hE2⟩ := ih (done ++ [e]) hl1 (fun e' h' => he e' (List.mem_cons_of_mem _ h')) hst
      exact ⟨by simpa using hl2, hE1.trans hE2⟩
    · simp at hst

/-- the final step of the traversal of `x` -/
theorem finish_spec {x : F × P} {g old : List (F × P)} {k : ℕ} {s s' : State F P}
    (hl : LoopInv db strat x g old k (db.inv x) s)
    (hf : finishNode x s = .ok () s') :
    Inv db strat g s' ∧ Ext x s s' ∧ ∃ new l, s'.stack = new ++ old ∧ s'.low.get? x = some l ∧
    ((l = k ∧ new = []) ∨
     (l < k ∧ x ∈ new ∧ (∃ y ∈ s'.stack, s'.pfs.get? y = some l ∧ Reach db strat x y) ∧
      ∀ y ∈ new, ∀ z ∈ old, Depends db strat y z → ∀ j, s'.pfs.get? z = some j → l ≤ j)) := by
  have hI := hl.inv
  have hpx := hl.pfsx
  obtain ⟨new, l, hstk, hlow, hlk, hsound, hcross, hdone⟩ := hl.low
  have hnd := hI.stack_nodup
  rw [hstk] at hnd
  have hnd' := List.nodup_append.mp hnd
  have hxnew : x ∉ new := fun h => hnd'.2.2 x h x (by simp) rfl
  have hxold : x ∉ old := (List.nodup_cons.mp hnd'.2.1).1
  have hxg : x ∉ g := by
    have := hI.grays.nodup hI.stack_nodup
    exact (List.nodup_cons.mp this).1
  have hxs : x ∈ s.stack := by rw [hstk]; simp
  have hxv := hI.stack_vis hxs
  -- active flows other than x are below x on the stack
  have hgold : ∀ y ∈ g, y ∈ old := by
    intro y hy
    have hys : y ∈ s.stack := hI.grays.subset (List.mem_cons_of_mem _ hy)
    have h2 : [x, y].Sublist s.stack :=
      ((List.singleton_sublist.mpr hy).cons_cons x).trans hI.grays
    have h3 : [y, x].Sublist s.pfIndex := by
      have := List.reverse_sublist.mpr (h2.trans hI.stk)
      simpa using this
    obtain ⟨j, hj⟩ := (hI.vis_iff y).mp (hI.stack_vis hys)
    have hlt := idx_lt_of_sublist hI.nodup h3 ((hI.pfs _ _).mp hj) ((hI.pfs _ _).mp hpx)
    rw [hstk] at hys
    rcases List.mem_append.mp hys with h | h
    · have := hI.stack_order hstk h (by simp : x ∈ x :: old) hj hpx
      omega
    · rcases List.mem_cons.mp h with h | h
      · subst h; exact absurd hy hxg
      · exact h
  -- all dependencies of x are visited
  have hxdeps : ∀ w, Depends db strat x w → w ∈ s.pfIndex ∧
      (w ∈ old → ∀ j, s.pfs.get? w = some j → l ≤ j) := by
    rintro w ⟨e, he, hw⟩
    exact hdone e he w hw
  have hclosed : ∀ v ∈ s.pfIndex, v ∉ g → ∀ w, Depends db strat v w → w ∈ s.pfIndex := by
    intro v hv hvg w hw
    by_cases hvx : v = x
    · subst hvx; exact (hxdeps w hw).1
    · exact hI.closed v hv (by simp [hvx, hvg]) w hw
  unfold finishNode at hf
  rw [hlow, hpx] at hf
  simp only at hf
  by_cases hlk' : l = k
  · rw [if_pos hlk'] at hf
    unfold labelScc at hf
    rw [hstk, popUntil_spec x new old hxnew] at hf
    simp only [Res.ok.injEq, true_and] at hf
    have ho := foldl_labelNode_other k (new ++ [x]) s
    have hso := foldl_labelNode_sccOf k (new ++ [x]) s
    have hndS : (new ++ [x]).Nodup := by
      rw [List.nodup_append]
      refine ⟨hnd'.1, by simp, ?_⟩
      intro a ha b hb e
      simp at hb; subst hb; subst e; exact hxnew ha
    have hxsc : s.sccOf.get? x = none := hI.onStack x hxs
    have hkroot : s.pfIndex[k]? = some x := (hI.pfs x k).mp hpx
    -- no component uses x's index yet
    have hfresh : ∀ v, s.sccOf.get? v ≠ some k := by
      intro v hv
      obtain ⟨r, h1, h2⟩ := hI.sccRoot v k hv
      rw [hkroot] at h1
      have := Option.some.inj h1
      subst this
      rw [hxsc] at h2; simp at h2
    have hnewscc : s.sccs.get? k = none := by
      cases hc : s.sccs.get? k with
      | none => rfl
      | some l' =>
        obtain ⟨h1, _, h2⟩ := hI.sccsMem k l' hc
        cases l' with
        | nil => exact absurd rfl h1
        | cons a l' => exact absurd ((h2 a).mp (by simp)) (hfresh a)
    have hsccs := fun n => foldl_labelNode_sccs k (new ++ [x]) s n (by simp) hndS hnewscc
    set S := new ++ [x] with hS
    have hSstack : ∀ y ∈ S, y ∈ s.stack := by
      intro y hy; rw [hstk]
      rcases List.mem_append.mp hy with h | h
      · simp [h]
      · simp at h; simp [h]
    have hSold : ∀ y ∈ S, y ∉ old := by
      intro y hy hyo
      rcases List.mem_append.mp hy with h | h
      · exact hnd'.2.2 y h y (by simp [hyo]) rfl
      · simp at h; subst h; exact hxold hyo
    -- no dependency leads from S to the old stack
    have hnocross : ∀ y ∈ S, ∀ z ∈ old, ¬ Depends db strat y z := by
      intro y hy z hz hd
      have hzs : z ∈ s.stack := by rw [hstk]; simp [hz]
      obtain ⟨j, hj⟩ := (hI.vis_iff z).mp (hI.stack_vis hzs)
      have hjk : j < k := by
        have hstk' : s.stack = (new ++ [x]) ++ old := by rw [hstk]; simp
        exact hI.stack_order hstk' (by simp) hz hpx hj
      rcases List.mem_append.mp hy with h | h
      · have := hcross y h z hz hd j hj
        omega
      · simp at h; subst h
        have := (hxdeps z hd).2 hz j hj
        omega
    have hSclosed : ∀ y ∈ S, ∀ w, Depends db strat y w → w ∈ S ∨ ∃ m, s.sccOf.get? w = some m := by
      intro y hy w hw
      have hyg : y ∉ g := fun h => hSold y hy (hgold y h)
      have hwv := hclosed y (hI.stack_vis (hSstack y hy)) hyg w hw
      by_cases hws : w ∈ s.stack
      · rw [hstk] at hws
        rcases List.mem_append.mp hws with h | h
        · left; simp [hS, h]
        · rcases List.mem_cons.mp h with h | h
          · left; simp [hS, h]
          · exact absurd hw (hnocross y hy w h)
      · exact Or.inr (hI.offStack w hwv hws)
    -- a path from S ends in S or at a labelled flow
    have hSreach : ∀ y ∈ S, ∀ w, Reach db strat y w → w ∈ S ∨ ∃ m, s.sccOf.get? w = some m := by
      intro y hy w hr
      induction hr with
      | refl => exact Or.inl hy
      | tail _ hd ih =>
        rcases ih with h | ⟨m, hm⟩
        · exact hSclosed _ h _ hd
        · exact Or.inr (hI.black _ _ hm _ hd)
    have hSx : ∀ y ∈ S, Reach db strat y x := fun y hy => hI.reach_top hstk (hSstack y hy)
    have hxS : ∀ y ∈ S, Reach db strat x y := by
      intro y hy
      rcases List.mem_append.mp hy with h | h
      · have up := hI.reachUp
        rw [hstk, List.pairwise_append] at up
        exact up.2.2 y h x (by simp)
      · simp at h; subst h; exact Relation.ReflTransGen.refl
    have hunl : ∀ y ∈ S, s.sccOf.get? y = none := fun y hy => hI.onStack y (hSstack y hy)
    have hext : Ext x s s' := by
      subst hf
      refine ⟨by simp [ho.2.1], ?_, ?_⟩
      · intro v n hv
        simp only [hso]
        by_cases hvS : v ∈ S
        · rw [hunl v hvS] at hv; simp at hv
        · rw [if_neg hvS]; exact hv
      · intro v _ _; simp [ho.2.2.1]
    refine ⟨?_, hext, [], l, ?_, ?_, Or.inl ⟨hlk', rfl⟩⟩
    rotate_left
    · subst hf; simp
    · subst hf; simp [ho.2.2.1, hlow]
    subst hf
    have hstk2 : old.Sublist s.stack := by
      rw [hstk]
      exact (List.sublist_append_of_sublist_right ((List.Sublist.refl old).cons x))
    constructor
    · simp only [ho.2.1]; exact hI.nodup
    · simp only [ho.2.1, ho.1]; exact hI.pfs
    · simp only [ho.2.1]; exact hstk2.trans hI.stk
    · intro v hv
      simp only [hso]
      have : v ∉ S := fun h => hSold v h hv
      rw [if_neg this]
      exact hI.onStack v (hstk2.subset hv)
    · intro v hv hvs
      simp only [hso]
      simp only [ho.2.1] at hv
      by_cases hvS : v ∈ S
      · simp [hvS]
      · rw [if_neg hvS]
        apply hI.offStack v hv
        rw [hstk]
        intro h
        rcases List.mem_append.mp h with h | h
        · exact hvS (by simp [hS, h])
        · rcases List.mem_cons.mp h with h | h
          · exact hvS (by simp [hS, h])
          · exact hvs h
    · intro v n hv
      simp only [hso] at hv
      simp only [ho.2.1]
      by_cases hvS : v ∈ S
      · exact hI.stack_vis (hSstack v hvS)
      · rw [if_neg hvS] at hv; exact hI.sccVis v n hv
    · simp only [ho.2.1, ho.2.2.1]; exact hI.lowVis
    · simp only [ho.2.1, ho.2.2.1]; exact hI.lowNew
    · simp only
      have := hI.grays
      rw [hstk] at this
      have h2 : ∀ (n : List (F × P)), x ∉ n → (x :: g).Sublist (n ++ x :: old) → g.Sublist old := by
        intro n
        induction n with
        | nil => intro _ h; simpa using h
        | cons a n ih =>
          intro hxn h
          simp only [List.mem_cons, not_or] at hxn
          rw [List.cons_append] at h
          cases h with
          | cons _ h => exact ih hxn.2 h
          | cons_cons _ h => exact absurd rfl hxn.1
      exact h2 new hxnew this
    · simp only [ho.2.1]; exact hclosed
    · intro v n hv w hw
      simp only [hso] at hv ⊢
      by_cases hwS : w ∈ S
      · simp [hwS]
      · rw [if_neg hwS]
        by_cases hvS : v ∈ S
        · rcases hSclosed v hvS w hw with h | h
          · exact absurd h hwS
          · exact h
        · rw [if_neg hvS] at hv; exact hI.black v n hv w hw
    · intro v w n m hv hw
      simp only [hso] at hv hw
      by_cases hvS : v ∈ S
      · rw [if_pos hvS] at hv
        simp at hv; subst hv
        by_cases hwS : w ∈ S
        · rw [if_pos hwS] at hw
          simp at hw; subst hw
          simp only [true_iff]
          exact ⟨(hSx v hvS).trans (hxS w hwS), (hSx w hwS).trans (hxS v hvS)⟩
        · rw [if_neg hwS] at hw
          constructor
          · intro e; subst e; exact absurd hw (hfresh w)
          · rintro ⟨_, hr⟩
            obtain ⟨m', hm'⟩ := hI.black_reach hw hr
            rw [hunl v hvS] at hm'; simp at hm'
      · rw [if_neg hvS] at hv
        by_cases hwS : w ∈ S
        · rw [if_pos hwS] at hw
          simp at hw; subst hw
          constructor
          · intro e; subst e; exact absurd hv (hfresh v)
          · rintro ⟨hr, _⟩
            obtain ⟨m', hm'⟩ := hI.black_reach hv hr
            rw [hunl w hwS] at hm'; simp at hm'
        · rw [if_neg hwS] at hw
          exact hI.scc v w n m hv hw
    · intro v n hv
      simp only [hso] at hv
      simp only [ho.2.1, hso]
      by_cases hvS : v ∈ S
      · rw [if_pos hvS] at hv
        simp at hv; subst hv
        exact ⟨x, hkroot, by simp [hS]⟩
      · rw [if_neg hvS] at hv
        obtain ⟨r, h1, h2⟩ := hI.sccRoot v n hv
        refine ⟨r, h1, ?_⟩
        have : r ∉ S := by
          intro h; rw [hunl r h] at h2; simp at h2
        rw [if_neg this]; exact h2
    · intro n l' hn
      simp only [hsccs] at hn
      by_cases hnk : n = k
      · rw [if_pos hnk] at hn
        simp at hn; subst hn; subst hnk
        refine ⟨by simp [hS], hndS, ?_⟩
        intro v
        simp only [hso]
        constructor
        · intro h; rw [if_pos h]
        · intro h
          by_cases hvS : v ∈ S
          · exact hvS
          · rw [if_neg hvS] at h; exact absurd h (hfresh v)
      · rw [if_neg hnk] at hn
        obtain ⟨h1, h2, h3⟩ := hI.sccsMem n l' hn
        refine ⟨h1, h2, ?_⟩
        intro v
        simp only [hso]
        by_cases hvS : v ∈ S
        · rw [if_pos hvS, h3 v, hunl v hvS]
          simp
          exact fun e => hnk e.symm
        · rw [if_neg hvS]; exact h3 v
    · intro v n hv
      simp only [hso] at hv
      simp only [hsccs]
      by_cases hnk : n = k
      · simp [hnk]
      · rw [if_neg hnk]
        by_cases hvS : v ∈ S
        · rw [if_pos hvS] at hv
          simp at hv; exact absurd hv.symm hnk
        · rw [if_neg hvS] at hv
          exact hI.sccsDom v n hv
    · simp only
      exact hI.reachUp.sublist hstk2
    · intro y hy
      simp only at hy
      simp only [ho.1]
      have hys : y ∈ s.stack := hstk2.subset hy
      obtain ⟨z, hz, i, j, h1, h2, h3, h4⟩ := hI.reachGray y hys
      rcases List.mem_cons.mp hz with e | hz
      · subst e
        have hstk' : s.stack = (new ++ [z]) ++ old := by rw [hstk]; simp
        have := hI.stack_order hstk' (by simp : z ∈ new ++ [z]) hy h1 h2
        omega
      · exact ⟨z, hz, i, j, h1, h2, h3, h4⟩
    · simp only [ho.2.2.2.2.2.2]; exact hI.emis
    · simp only [ho.2.1]; exact hI.refd
    · exact foldl_labelNode_keys _ _ _ hI.sccsKeys
  · rw [if_neg hlk'] at hf
    simp only [Res.ok.injEq, true_and] at hf
    subst hf
    have hlt : l < k := by omega
    refine ⟨?_, Ext.refl x s, new ++ [x], l, by rw [hstk]; simp, hlow, Or.inr ⟨hlt, by simp, hsound, ?_⟩⟩
    · obtain ⟨y0, hy0, hy0l, hy0r⟩ := hsound
      refine { hI with grays := ?_, closed := hclosed, reachGray := ?_ }
      · exact ((List.Sublist.refl g).cons x).trans hI.grays
      · -- x itself reaches an active flow below it
        have hx : ∃ z ∈ g, ∃ i, s.pfs.get? z = some i ∧ i ≤ l ∧ Reach db strat x z := by
          obtain ⟨z, hz, i, j, h1, h2, h3, h4⟩ := hI.reachGray y0 hy0
          rw [hy0l] at h2
          simp at h2; subst h2
          rcases List.mem_cons.mp hz with e | hz
          · subst e; rw [hpx] at h1; simp at h1; omega
          · exact ⟨z, hz, i, h1, h3, hy0r.trans h4⟩
        obtain ⟨z0, hz0, i0, hi0, hi0l, hz0r⟩ := hx
        intro y hy
        obtain ⟨z, hz, i, j, h1, h2, h3, h4⟩ := hI.reachGray y hy
        rcases List.mem_cons.mp hz with e | hz
        · subst e
          rw [hpx] at h1
          simp at h1; subst h1
          exact ⟨z0, hz0, i0, j, hi0, h2, by omega, h4.trans hz0r⟩
        · exact ⟨z, hz, i, j, h1, h2, h3, h4⟩
    · intro y hy z hz hd j hj
      rcases List.mem_append.mp hy with h | h
      · exact hcross y h z hz hd j hj
      · simp at h; subst h
        exact (hxdeps z hd).2 hz j hj

theorem traverse_spec (fuel : ℕ) : TravSpec db strat (traverse db strat fuel) := by
  induction fuel with
  | zero => intro x g old k s s' _ _ _ _ h; simp [traverse] at h
  | succ n ih =>
    intro x g old k s s' hI hs hp hlw h
    unfold traverse at h
    split at h
    · rename_i s1 h1
      have hl0 : LoopInv db strat x g old k [] s :=
        ⟨hI, hp, [], k, by simpa using hs, hlw, le_refl _,
          ⟨x, by rw [hs]; simp, hp, Relation.ReflTransGen.refl⟩, by simp, by simp⟩
      obtain ⟨hl, hE⟩ := loop_spec _ ih (db.inv x) [] hl0 (fun e h => h) h1
      rw [List.nil_append] at hl
      obtain ⟨h2, h3, h4⟩ := finish_spec hl h
      exact ⟨h2, hE.trans h3, h4⟩
    · simp at h

/-- the engine at rest -/
theorem inv_init : Inv db strat [] ({} : State F P) := by
  constructor <;> simp [Dict.keys]

theorem Inv.stack_empty {s : State F P} (h : Inv db strat [] s) : s.stack = [] := by
  cases hs : s.stack with
  | nil => rfl
  | cons a l =>
    obtain ⟨x, hx, _⟩ := h.reachGray a (by rw [hs]; simp)
    simp at hx

theorem addRef_spec {fuel : ℕ} {v : F × P} {s s' : State F P} (h : Inv db strat [] s)
    (hr : addRef db strat fuel v s = .ok () s') :
    Inv db strat [] s' ∧ v ∈ s'.pfIndex ∧ s.pfIndex <+: s'.pfIndex ∧
      (∀ u n, s.sccOf.get? u = some n → s'.sccOf.get? u = some n) := by
  unfold addRef at hr
  split at hr
  · rename_i n hn
    simp at hr; subst hr
    exact ⟨h, (h.vis_iff v).mpr ⟨n, hn⟩, List.prefix_rfl, fun _ _ h => h⟩
  · rename_i hn
    have hnv := (h.none_iff v).mp hn
    unfold addRefProductRaw at hr
    split at hr
    · simp at hr
    · simp at hr
    · rename_i s1 hc
      have hr := onTermError_ok hr
      obtain ⟨hI1, hs1, hp1, hl1, hE1, _⟩ := inv_push h hnv (by rw [h.stack_empty]; simp) hc
      have hpost := traverse_spec fuel _ _ _ _ _ _ hI1 hs1 hp1 hl1 hr
      refine ⟨hpost.inv, ?_, hE1.pre.trans hpost.ext.pre,
        fun u n hu => hpost.ext.scc _ _ (hE1.scc _ _ hu)⟩
      apply hpost.ext.pre.subset
      exact hI1.stack_vis (by rw [hs1]; simp)

theorem addAll_spec {fuel : ℕ} {vs : List (F × P)} {s s' : State F P} (h : Inv db strat [] s)
    (hr : addAll db strat fuel vs s = .ok () s') :
    Inv db strat [] s' ∧ (∀ v ∈ vs, v ∈ s'.pfIndex) ∧ s.pfIndex <+: s'.pfIndex ∧
      (∀ u n, s.sccOf.get? u = some n → s'.sccOf.get? u = some n) := by
  induction vs generalizing s with
  | nil =>
    simp [addAll] at hr; subst hr
    exact ⟨h, by simp, List.prefix_rfl, fun _ _ h => h⟩
  | cons v vs ih =>
    unfold addAll at hr
    split at hr
    · rename_i s1 h1
      obtain ⟨hI1, hv1, hp1, hs1⟩ := addRef_spec h h1
      obtain ⟨hI2, hv2, hp2, hs2⟩ := ih hI1 hr
      refine ⟨hI2, ?_, hp1.trans hp2, fun u n hu => hs2 u n (hs1 u n hu)⟩
      intro w hw
      rcases List.mem_cons.mp hw with e | hw
      · subst e; exact hp2.subset hv1
      · exact hv2 w hw
    · simp at hr

end Engine
