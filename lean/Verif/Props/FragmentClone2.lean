import Verif.Props.FragmentClone

/-!
C127: a clone of a fragment is a copy, of the whole tree below it; it is traversed as the original is.
-/

namespace Frg
set_option linter.unusedSectionVars false

variable {F Q : Type} [DecidableEq F] [DecidableEq Q]
variable {E : Env F Q} {H0 : Heap F Q} {root : ℕ} {φ : ℕ → ℕ} {N : ℕ → Prop} {d : ℕ → ℕ}

/-- what cloning f did -/
structure Cloned (E : Env F Q) (H0 : Heap F Q) (φ : ℕ → ℕ) (N : ℕ → Prop) (f : ℕ) (par : Option ℕ) (H H' : Heap F Q) : Prop where
  old : ∀ x, ¬ N x → H' x = H x
  up : UpNew N H'
  copies : ∀ x, InTree H0 f x → IsCopy H0 φ x (if x = f then par else (H0 x).parent.map φ) (H' (φ x))
  others : ∀ y, N y → some y ≠ par → (∀ x, InTree H0 f x → y ≠ φ x) → H' y = H y
  parent : ∀ p, par = some p → H' p = { H p with kids := PySet.add (H p).kids (φ f), cons := if (H0 f).bal then some (E.refQ (H0 f).flow) else (H p).cons }

theorem clone_loop (hC : Clonable E H0 root φ N d) (fuel : ℕ)
    (ih : ∀ (f : ℕ) (par : Option ℕ) (H H' : Heap F Q), InTree H0 root f → (∀ x, ¬ N x → H x = H0 x) → UpNew N H → Place H0 root φ f par H →
      clone E φ fuel par f H = .ok () H' → Cloned E H0 φ N f par H H') (f : ℕ) (hf : InTree H0 root f) :
    ∀ (cs : List ℕ), cs.Nodup → (∀ c ∈ cs, c ∈ (H0 f).kids) → ∀ (H H' : Heap F Q), (∀ x, ¬ N x → H x = H0 x) → UpNew N H →
    (H (φ f)).bg = (H0 f).bg → (∀ key, (H (φ f)).terms.get? key = ((H0 f).terms.get? key).map fun t => t.moved f (φ f)) →
    (∀ c ∈ cs, φ c ∉ (H (φ f)).kids) → each (clone E φ fuel (some (φ f))) cs H = .ok () H' →
    (∀ x, ¬ N x → H' x = H x) ∧ UpNew N H' ∧ (∀ c ∈ cs, ∀ x, InTree H0 c x → IsCopy H0 φ x ((H0 x).parent.map φ) (H' (φ x))) ∧
    (∀ y, N y → y ≠ φ f → (∀ c ∈ cs, ∀ x, InTree H0 c x → y ≠ φ x) → H' y = H y) ∧
    H' (φ f) = { H (φ f) with kids := (H (φ f)).kids ++ cs.map φ, cons := if cs.any (fun c => (H0 c).bal) then (H0 f).cons else (H (φ f)).cons } := by
  intro cs
  induction cs with
  | nil =>
    intro _ _ H H' _ hup _ _ _ h
    simp only [each, Out.ok.injEq, true_and] at h
    subst h
    exact ⟨fun _ _ => rfl, hup, by simp, fun _ _ _ _ => rfl, by simp⟩
  | cons c cs ihc =>
    intro hnd hkids H H' hold hup hbg hterms hnew h
    rw [each] at h
    obtain ⟨_, H1, h1, h2⟩ := bind_ok h
    rw [List.nodup_cons] at hnd
    have hcf := hkids c List.mem_cons_self
    have hbc := below_child hf hcf
    have C := ih c (some (φ f)) H H1 hbc hold hup (.inr ⟨f, hf, hcf, rfl, hbg, hterms⟩) h1
    have e1 := C.parent (φ f) rfl
    have hcn : φ c ∉ (H (φ f)).kids := hnew c List.mem_cons_self
    have hadd : PySet.add (H (φ f)).kids (φ c) = (H (φ f)).kids ++ [φ c] := by rw [PySet.add, if_neg hcn]
    rw [hadd] at e1
    obtain ⟨l1, l2, l3, l4, l5⟩ := ihc hnd.2 (fun c hc => hkids c (List.mem_cons_of_mem _ hc)) H1 H' (fun x hx => (C.old x hx).trans (hold x hx)) C.up
      (by rw [e1]; exact hbg) (by rw [e1]; exact hterms)
      (fun c' hc' => by
        rw [e1]
        simp only [List.mem_append, List.mem_singleton, not_or]
        refine ⟨hnew c' (List.mem_cons_of_mem _ hc'), fun h => ?_⟩
        have := hC.inj c' c (below_child hf (hkids c' (List.mem_cons_of_mem _ hc'))) hbc h
        subst this
        exact hnd.1 hc') h2
    have hdc : ∀ c ∈ (H0 f).kids, ∀ x, InTree H0 c x → x ≠ f := by
      intro c hc x hx hxf
      have a1 := ((hC.tree f hf).2 c hc).2
      have a2 := hC.depth (below_child hf hc) hx
      rw [hxf] at a2
      omega
    refine ⟨fun x hx => (l1 x hx).trans (C.old x hx), l2, ?_, ?_, ?_⟩
    · intro c' hc' x hx
      rcases List.mem_cons.1 hc' with rfl | hc'
      · have hbx := below_trans hbc hx
        rw [l4 (φ x) (hC.fresh x hbx).1 ?_ ?_]
        · have := C.copies x hx
          by_cases hxc : x = c'
          · subst hxc
            rw [if_pos rfl] at this
            rw [((hC.tree f hf).2 x hcf).1]
            exact this
          · rw [if_neg hxc] at this; exact this
        · intro h
          exact hdc c' hcf x hx (hC.inj x f hbx hf h)
        · intro c2 hc2 x2 hx2 h
          have hb2 := below_child hf (hkids c2 (List.mem_cons_of_mem _ hc2))
          have := hC.inj x x2 hbx (below_trans hb2 hx2) h
          subst this
          have hdd : d c' = d c2 := by
            rw [((hC.tree f hf).2 c' hcf).2, ((hC.tree f hf).2 c2 (hkids c2 (List.mem_cons_of_mem _ hc2))).2]
          have := hC.one hbc hb2 hdd hx hx2
          subst this
          exact hnd.1 hc2
      · exact l3 c' hc' x hx
    · intro y hy hyf hyx
      rw [l4 y hy hyf (fun c' hc' => hyx c' (List.mem_cons_of_mem _ hc')), C.others y hy (by simpa using hyf) (hyx c List.mem_cons_self)]
    · rw [l5, e1]
      simp only [List.any_cons, List.map_cons, List.append_assoc, List.singleton_append]
      congr 1
      by_cases hb : (H0 c).bal = true
      · have := (hC.cons f hf).1 c hcf hb
        simp [this, hb]
      · simp [hb]

/-- cloning f, anywhere in the tree -/
theorem clone_spec (hC : Clonable E H0 root φ N d) : ∀ (fuel f : ℕ) (par : Option ℕ) (H H' : Heap F Q), InTree H0 root f →
    (∀ x, ¬ N x → H x = H0 x) → UpNew N H → Place H0 root φ f par H → clone E φ fuel par f H = .ok () H' → Cloned E H0 φ N f par H H' := by
  intro fuel
  induction fuel with
  | zero => intro f par H H' _ _ _ _ h; simp [clone] at h
  | succ fuel ih =>
    intro f par H H' hf hold hup hP h
    rw [clone] at h
    obtain ⟨_, H1, h1, h⟩ := bind_ok h
    obtain ⟨_, H2, h2, h⟩ := bind_ok h
    obtain ⟨_, H3, h3, h⟩ := bind_ok h
    obtain ⟨n1, n2, n3, n4, n5, n6⟩ := copy_node hC hf fuel hold hup hP h1 h2 h3
    obtain ⟨hNf, hnf⟩ := hC.fresh f hf
    have hparN : ∀ p, par = some p → N p ∧ ∀ x, InTree H0 f x → p ≠ φ x := by
      intro p hp
      rcases hP with ⟨rfl, -⟩ | ⟨q, hq, hfq, rfl, _⟩
      · simp at hp
      · simp only [Option.some.injEq] at hp
        subst hp
        refine ⟨(hC.fresh q hq).1, fun x hx h => ?_⟩
        have := hC.inj q x hq (below_trans hf hx) h
        subst this
        have h1 := hC.depth hf hx
        have h2 := ((hC.tree q hq).2 f hfq).2
        omega
    have hold3 : ∀ x, ¬ N x → H3 x = H x := by
      intro x hx
      refine n5 x (by rintro rfl; exact hx hNf) fun h => hx (hparN x h.symm).1
    have hHf : H3 f = H0 f := (hold3 f hnf).trans (hold f hnf)
    rw [hHf] at h
    obtain ⟨l1, l2, l3, l4, l5⟩ := clone_loop hC fuel ih f hf (children (H0 f))
      ((List.perm_insertionSort (· ≤ ·) (H0 f).kids).nodup_iff.2 (hC.tree f hf).1) (fun c hc => (mem_children _ _).1 hc) H3 H'
      (fun x hx => (hold3 x hx).trans (hold x hx)) n6 n1.bg n1.terms (by rw [n2]; simp) h
    refine ⟨fun x hx => (l1 x hx).trans (hold3 x hx), l2, ?_, ?_, ?_⟩
    · intro x hx
      cases hx with
      | self =>
        rw [if_pos rfl, l5]
        refine ⟨⟨n1.parent, n1.flow, n1.dir, n1.bg, n1.bal, n1.terms, n1.keys, n1.cached, n1.observed, n1.others⟩, by simp [n2], ?_⟩
        simp only [n3]
        split
        · rfl
        · rename_i hb
          cases hcq : (H0 f).cons with
          | none => rfl
          | some q =>
            exfalso
            obtain ⟨c, hc, hcb⟩ := (hC.cons f hf).2 (by rw [hcq]; simp)
            exact hb (List.any_eq_true.2 ⟨c, (mem_children _ _).2 hc, hcb⟩)
      | child _ c x hc hbx =>
        have : x ≠ f := by
          rintro rfl
          have a1 := ((hC.tree x hf).2 c hc).2
          have a2 := hC.depth (below_child hf hc) hbx
          omega
        rw [if_neg this]
        exact l3 c ((mem_children _ _).2 hc) x hbx
    · intro y hy hyp hyx
      have hyf := hyx f (.self f)
      rw [l4 y hy hyf (fun c hc x hx => hyx x (.child _ _ _ ((mem_children _ _).1 hc) hx)), n5 y hyf hyp]
    · intro p hp
      obtain ⟨hN, hpx⟩ := hparN p hp
      rw [l4 p hN (hpx f (.self f)) (fun c hc x hx => hpx x (.child _ _ _ ((mem_children _ _).1 hc) hx)), n4 p hp]

/-- **C127** (partial) Cloning a reference fragment copies the whole tree below it: the copy of every fragment has the same flow,
direction, terminations (a foreground node is one again), conserved quantity, balance and background marks and, where the amount is its own, the
same values; its child flows are the copies of the child flows. No other fragment is changed. Partial: the conditions `Clonable`. -/
theorem clone_copy_partial (hC : Clonable E H0 root φ N d) (fuel : ℕ) (H' : Heap F Q) (h : clone E φ fuel none root H0 = .ok () H') :
    (∀ x, InTree H0 root x → IsCopy H0 φ x ((H0 x).parent.map φ) (H' (φ x))) ∧
    ∀ y, (∀ x, InTree H0 root x → y ≠ φ x) → H' y = H0 y := by
  have C := clone_spec hC fuel root none H0 H' (.self _) (fun _ _ => rfl) (fun y p hy hp => by rw [hC.blank y hy] at hp; cases hp) (.inl ⟨rfl, rfl⟩) h
  constructor
  · intro x hx
    have := C.copies x hx
    split at this
    · rename_i hr; subst hr; rw [hC.root.1]; exact this
    · exact this
  · intro y hy
    by_cases hN : N y
    · exact C.others y hN (by simp) hy
    · exact C.old y hN

/-! ### traversal of a clone -/

theorem matchEv_copy {evs evs' : Dict Key (Option ℚ)} (h : ∀ k, evs'.has k = evs.has k) (sc : Scen) : matchEv evs' sc = matchEv evs sc := by
  have : evs'.has = evs.has := funext h
  unfold matchEv; rw [this]

theorem matchEv_fewer {evs evs' : Dict Key (Option ℚ)} (h : ∀ k, evs'.has k = true → evs.has k = true) (sc : Scen) (r : Option Key) (hr : matchEv evs sc = .ok r) :
    ∃ r', matchEv evs' sc = .ok r' := by
  cases sc with
  | none => exact ⟨_, rfl⟩
  | one k => exact ⟨_, rfl⟩
  | many l =>
    have hlen : (l.filter evs'.has).length ≤ (l.filter evs.has).length := (List.monotone_filter_right l h).length_le
    simp only [matchEv] at hr ⊢
    match h1 : l.filter evs.has, h2 : l.filter evs'.has with
    | _, [] => exact ⟨_, rfl⟩
    | _, [k] => exact ⟨_, rfl⟩
    | [], a :: b :: t => rw [h1, h2] at hlen; simp at hlen
    | [k], a :: b :: t => rw [h1, h2] at hlen; simp at hlen
    | c :: e :: t', a :: b :: t => rw [h1] at hr; simp at hr

/-- the values of a copy are read as those of the original -/
theorem copy_values (hC : Clonable E H0 root φ N d) {x : ℕ} (hx : InTree H0 root x) {par : Option ℕ} (hpar : par = none ↔ (H0 x).parent = none) {n' : Node F Q}
    (h : NodeCopy H0 φ x par n') (hF : Free H0 x) (sc : Scen) (hsc : ∀ k ∈ sc.names, k ≠ .cached ∧ k ≠ .observed) (obs : Bool) :
    exchangeValue n' sc obs = exchangeValue (H0 x) sc obs := by
  obtain ⟨hnd, hkc, hko, hpl⟩ := hC.evKeys x hx
  have hhas : ∀ k, n'.evs.has k = (H0 x).evs.has k := by
    intro k
    by_cases h1 : k = .cached
    · subst h1; rw [(Dict.has_iff _ _).2 hkc, Dict.has, h.cached hF]; rfl
    · by_cases h2 : k = .observed
      · subst h2; rw [(Dict.has_iff _ _).2 hko, Dict.has, h.observed hF]; rfl
      · rw [Dict.has, h.others hF k h1 h2, Dict.has]; simp
  obtain ⟨vc, hvc⟩ := (Dict.mem_keys_iff _ _).1 hkc
  obtain ⟨vo, hvo⟩ := (Dict.mem_keys_iff _ _).1 hko
  have hc0 := hC.cached x hx
  have hcached : cachedEv n'.evs = cachedEv (H0 x).evs := by
    rw [cachedEv, h.cached hF]
    simp only [Option.join_some, if_neg (cachedEv_ne _)]
  have hisn : n'.parent.isNone = (H0 x).parent.isNone := by
    rw [h.parent, Bool.eq_iff_iff, Option.isNone_iff_eq_none, Option.isNone_iff_eq_none]; exact hpar
  have hobs : observedEv n'.parent.isNone n'.evs = observedEv (H0 x).parent.isNone (H0 x).evs := by
    rw [hisn]
    conv_lhs => unfold observedEv
    simp only [h.observed hF, Option.join_some]
    split
    · rename_i hcond
      exfalso
      obtain ⟨hr, h0⟩ := hcond
      unfold observedEv at h0
      simp only [hr, true_and] at h0
      split at h0
      · rw [hvc] at h0 hc0; simp at h0; rw [h0] at hc0; exact hc0 rfl
      · rename_i h1; exact h1 h0
    · rfl
  unfold exchangeValue
  rw [matchEv_copy hhas]
  cases hm : matchEv (H0 x).evs sc with
  | error e => rfl
  | ok r =>
    cases r with
    | none => simp only [hobs, hcached]
    | some k =>
      have hk : k ∈ sc.names := by
        cases sc with
        | none => simp [matchEv] at hm
        | one k' =>
          simp only [matchEv, Except.ok.injEq] at hm
          split at hm
          · simp at hm; simp [Scen.names, hm]
          · simp at hm
        | many l =>
          simp only [matchEv] at hm
          split at hm
          · simp at hm
          · rename_i a ha
            simp only [Except.ok.injEq, Option.some.injEq] at hm
            subst hm
            have : a ∈ l.filter (H0 x).evs.has := by rw [ha]; simp
            exact (List.mem_filter.1 this).1
          · simp at hm
      simp only
      rw [h.others hF k (hsc k hk).1 (hsc k hk).2]
      cases (H0 x).evs.get? k with
      | none => rfl
      | some v => cases v <;> rfl

/-- **C127** (partial) The clone of a reference fragment is traversed as the original: the same fragment flows, with the same amounts, but for
the identity of the fragments in the tree. Partial: the conditions `Clonable`, and the uuids of the copies of the child flows of a
fragment must be in the order of the originals'. -/
theorem clone_traverse_partial (hC : Clonable E H0 root φ N d) (fuel0 : ℕ) (H' : Heap F Q) (h : clone E φ fuel0 none root H0 = .ok () H')
    (horder : ∀ x, InTree H0 root x → ∀ a ∈ (H0 x).kids, ∀ b ∈ (H0 x).kids, a ≤ b → φ a ≤ φ b)
    (sc : Scen) (hsc : ∀ k ∈ sc.names, k ≠ .cached ∧ k ≠ .observed) (obs : Bool) (U : ℕ → Prop) (hU : Closed H0 sc U) (hr : U root) (hUN : ∀ x, U x → ¬ N x)
    (fuel : ℕ) (l : List (FF F)) (hl : traverse E H0 sc obs fuel root = .ok l) :
    ∃ l', traverse E H' sc obs fuel (φ root) = .ok l' ∧ List.Forall₂ (Same φ (InTree H0 root)) l l' := by
  obtain ⟨hcopy, hold⟩ := clone_copy_partial hC fuel0 H' h
  have hBU : ∀ x, InTree H0 root x → U x := by
    intro x hx
    have : ∀ a, InTree H0 a x → U a → U x := by
      intro a ha
      induction ha with
      | self i => exact fun h => h
      | child i c x hc _ ih => exact fun hi => ih (below_trans (.self _) ‹_›) ((hU.kids i hi c hc).1)
    exact this root hx hr
  have hUold : ∀ x, U x → H' x = H0 x := by
    intro x hx
    refine hold x fun y hy he => hUN x hx ?_
    rw [he]; exact (hC.fresh y hy).1
  let Read : ℕ → Prop := fun x => (H0 x).bal = true ∨ Free H0 x
  have S : Sim E H0 H' sc obs obs φ (InTree H0 root) Read :=
    { kidsT := fun i hi c hc => below_child hi ((mem_children _ _).1 hc)
      isRef := fun i hi => by rw [(hcopy i hi).parent]; simp
      kidPar := fun i hi c hc => by rw [((hC.tree i hi).2 c ((mem_children _ _).1 hc)).1]; simp
      kids := fun i hi => by
        rw [children, (hcopy i hi).kids]
        refine List.Pairwise.insertionSort_eq ?_
        rw [List.pairwise_map]
        refine List.Pairwise.imp_of_mem ?_ (List.pairwise_insertionSort (· ≤ ·) (H0 i).kids)
        intro a b ha hb hab
        exact horder i hi a ((mem_children _ _).1 ha) b ((mem_children _ _).1 hb) hab
      flow := fun i hi => (hcopy i hi).flow
      dir := fun i hi => (hcopy i hi).dir
      bg := fun i hi => (hcopy i hi).bg
      bal := fun i hi => (hcopy i hi).bal
      cons := fun i hi => (hcopy i hi).cons
      term := fun i hi t ht => termOf_copy _ (hcopy i hi).terms sc t ht
      ev := fun i hi hrd v hv => by
        rcases hrd with hb | hF
        · have : ∃ r, matchEv (H0 i).evs sc = .ok r := by
            cases hm : matchEv (H0 i).evs sc with
            | error e => rw [exchangeValue, hm] at hv; simp at hv
            | ok r => exact ⟨r, rfl⟩
          obtain ⟨r, hr⟩ := this
          obtain ⟨r', hr'⟩ := matchEv_fewer (hcopy i hi).keys sc r hr
          have : ∃ v', exchangeValue (H' (φ i)) sc obs = .ok v' := by
            rw [exchangeValue, hr']
            cases r' <;> exact ⟨_, rfl⟩
          obtain ⟨v', hv'⟩ := this
          exact ⟨v', hv', fun h => absurd (hb.symm.trans h) (by decide)⟩
        · exact ⟨v, (copy_values hC hi (by simp) (hcopy i hi).toNodeCopy hF sc hsc obs).trans hv, fun _ => rfl⟩
      kidsRead := fun i hi t ht htg c hc => by
        have hck := (mem_children _ _).1 hc
        cases hb : (H0 c).bal with
        | true => exact .inl hb
        | false =>
          refine .inr (.inr ⟨i, ((hC.tree i hi).2 c hck).1, hb, ?_⟩)
          obtain ⟨b, hbu⟩ := hC.uniform i hi
          obtain ⟨key, hkey⟩ := termOf_get ht
          have h0 : isSubfrag H0 i t = false := by
            rcases htg with h | h <;> simp [isSubfrag, h]
          have hb0 : b = false := (hbu key t hkey).symm.trans h0
          intro key' t' h'
          rw [hbu key' t' h', hb0]
      refRead := fun i hi hp => ⟨.inr (.inl hp), hU.refBal i (hBU i hi) hp⟩
      balPar := fun i hi hcn c hc => hU.balPar i (hBU i hi) hcn c ((mem_children _ _).1 hc) }
  have hA : Agree H0 H' U := by constructor <;> intro i hi <;> rw [hUold i hi]
  have out : ∀ n, OutAt E H0 H' sc obs obs φ (InTree H0 root) n := by
    intro n i hi t j ht htj hji
    have hj := hU.target i t j (hBU i hi) ht htj
    have same := travNode_agree (E := E) (obs := obs) (obs' := obs) (Read := fun _ => True) hU hA (fun i hi _ => .inr (by rw [hUold i hi]))
      (fun i hi _ v hv => ⟨v, by rw [hUold i hi]; exact hv⟩) (fun _ _ _ _ _ _ _ => trivial) (fun _ _ _ => trivial) n []
    refine ⟨?_, by rw [hUold j hj], fun x hx => ?_, fun hbg up r hr => ?_⟩
    · rintro rfl; exact hUN _ hj (hC.fresh i hi).1
    · obtain ⟨h1, h2, h3⟩ := top_agree hA hU.parent n j x hj hx
      refine ⟨h1, by rw [hUold x h2], by rw [hUold x h2], fun r hr => ?_⟩
      exact same x h2 (fun _ => rfl) _ _ _ (fun _ => trivial) (fun _ hb => by rw [hU.refBal x h2 h3] at hb; cases hb) r hr
    · have hp := hU.bgRef i t j (hBU i hi) ht htj hbg
      exact same j hj (fun _ => rfl) _ _ _ (fun _ => trivial) (fun _ hb => by rw [hU.refBal j hj hp] at hb; cases hb) r hr
  rw [traverse] at hl
  cases hr' : travNode E H0 sc obs fuel [] root 1 none none with
  | error e => rw [hr'] at hl; simp [Except.map] at hl
  | ok r =>
    obtain ⟨l0, cv⟩ := r
    rw [hr'] at hl
    simp only [Except.map, Except.ok.injEq] at hl
    subst hl
    obtain ⟨l', e, f⟩ := (travNode_sim S fuel (fun n _ => out n) [] [] root (.self _) (fun _ => rfl) 1 none none (fun _ => .inr (.inl hC.root.1))
      (fun _ hb => by rw [hC.root.2] at hb; cases hb)).1 l0 cv hr'
    exact ⟨l', by rw [traverse, e]; rfl, f⟩

end Frg
