import Verif.Props.FragmentJson

/-!
C48: parents and children agree. C51: a creation that raises.
-/

namespace Frg
set_option linter.unusedSectionVars false

variable {F Q : Type} [DecidableEq F] [DecidableEq Q]

/-- all fragments, and which of them were made -/
structure World (F Q : Type) where
  heap : Heap F Q
  live : List ℕ

/-- an edit of the tree -/
inductive Edit (F : Type)
  | new (k : ℕ) (flow : F) (dir : Dir) (parent : Option ℕ) (value : Option ℚ) (bal bg : Bool)      -- LcFragment(...)
  | create (k : ℕ) (flow : F) (dir : Dir) (parent : Option ℕ) (value : Option ℚ) (bal bg : Bool)   -- create_fragment(...)
  | setParent (i p : ℕ)
  | unsetParent (i : ℕ)
  | setBalance (i : ℕ)
  | unsetBalance (i : ℕ)
  | values (c : EvCall)

/-- the call can be made: a new fragment is new, the others exist -/
def Edit.valid (w : World F Q) : Edit F → Prop
  | .new k _ _ p _ _ _ => k ∉ w.live ∧ ∀ q, p = some q → q ∈ w.live
  | .create k _ _ p _ _ _ => k ∉ w.live ∧ ∀ q, p = some q → q ∈ w.live
  | .setParent i p => i ∈ w.live ∧ p ∈ w.live
  | .unsetParent i => i ∈ w.live
  | .setBalance i => i ∈ w.live
  | .unsetBalance i => i ∈ w.live
  | .values (.set i _ _) => i ∈ w.live
  | .values (.cached i _) => i ∈ w.live
  | .values (.observed i _) => i ∈ w.live
  | .values (.reset i) => i ∈ w.live
  | .values (.clear i) => i ∈ w.live

/-- one call; it may raise, and then leaves what it did -/
def Edit.run (E : Env F Q) (w : World F Q) : Edit F → World F Q
  | .new k f d p v bal bg => { heap := (construct E w.heap k f d p v bal bg).state, live := k :: w.live }
  | .create k f d p v bal bg => { heap := (createFragment E w.heap k f d p v bal bg).state, live := k :: w.live }
  | .setParent i p => { w with heap := (Frg.setParent w.heap i p).state }
  | .unsetParent i => { w with heap := (Frg.unsetParent w.heap i).state }
  | .setBalance i => { w with heap := (Frg.setBalance E w.heap i).state }
  | .unsetBalance i => { w with heap := (Frg.unsetBalance w.heap i).state }
  | .values c => { w with heap := c.run w.heap }

/-- the states reached by the allowed calls -/
inductive Reach (E : Env F Q) (allow : World F Q → Edit F → Prop) : World F Q → Prop
  | start (H : Heap F Q) (h : ∀ i, (H i).parent = none ∧ (H i).kids = []) : Reach E allow ⟨H, []⟩
  | step (w : World F Q) (e : Edit F) (hr : Reach E allow w) (hv : e.valid w) (ha : allow w e) : Reach E allow (e.run E w)

/-- `set_parent` is called on fragments without a parent only -/
def orphansOnly (w : World F Q) : Edit F → Prop
  | .setParent i _ => (w.heap i).parent = none
  | _ => True

/-- parents and children are unchanged -/
def SameTree (H H' : Heap F Q) : Prop := ∀ i, (H' i).parent = (H i).parent ∧ (H' i).kids = (H i).kids

theorem SameTree.refl (H : Heap F Q) : SameTree H H := fun _ => ⟨rfl, rfl⟩
theorem SameTree.trans {H H' H'' : Heap F Q} (h : SameTree H H') (h' : SameTree H' H'') : SameTree H H'' :=
  fun i => ⟨(h' i).1.trans (h i).1, (h' i).2.trans (h i).2⟩

theorem sameTree_put (H : Heap F Q) (i : ℕ) (n : Node F Q) (hp : n.parent = (H i).parent) (hk : n.kids = (H i).kids) :
    SameTree H (H.put i n) := by
  intro j
  by_cases h : j = i
  · subst h; simp [hp, hk]
  · simp [h]

theorem sameTree_setEv (H : Heap F Q) (i : ℕ) (sc : Scen) (v : Option ℚ) : SameTree H (setEv H i sc v).state := by
  unfold setEv
  cases observable H i sc with
  | error e => exact .refl _
  | ok b =>
    cases b with
    | false => exact .refl _
    | true =>
      cases singleKey sc with
      | error e => exact .refl _
      | ok k => exact sameTree_put _ _ _ rfl rfl

theorem sameTree_setCached (H : Heap F Q) (i : ℕ) (v : Option ℚ) : SameTree H (setCached H i v).state := by
  unfold setCached
  split
  · exact .refl _
  · split
    · exact .refl _
    · exact sameTree_setEv _ _ _ _

theorem sameTree_values (H : Heap F Q) (c : EvCall) : SameTree H (c.run H) := by
  cases c with
  | set i sc v => exact sameTree_setEv _ _ _ _
  | cached i v => exact sameTree_setCached _ _ _
  | observed i v =>
    simp only [EvCall.run, setObserved]
    cases observable H i .none with
    | error e => exact .refl _
    | ok b =>
      cases b with
      | false => exact .refl _
      | true => exact sameTree_put _ _ _ rfl rfl
  | reset i => exact sameTree_put _ _ _ rfl rfl
  | clear i => exact sameTree_put _ _ _ rfl rfl

theorem sameTree_setBalance (E : Env F Q) (H : Heap F Q) (i : ℕ) : SameTree H (setBalance E H i).state := by
  unfold setBalance
  split
  · exact .refl _
  · split
    · exact .refl _
    · rename_i p hp
      unfold setConserved
      split
      · exact .refl _
      · split
        · exact .refl _
        · simp only [Out.bind, Out.state]
          exact (sameTree_put H p { H p with cons := some (E.refQ (H i).flow) } rfl rfl).trans (sameTree_put _ _ _ rfl rfl)

theorem sameTree_unsetBalance (H : Heap F Q) (i : ℕ) : SameTree H (unsetBalance H i).state := by
  unfold unsetBalance
  split
  · exact .refl _
  · split
    · exact .refl _
    · rename_i p hp
      exact (sameTree_put H p { H p with cons := none } rfl rfl).trans (sameTree_put _ _ _ rfl rfl)

theorem sameTree_initRest (E : Env F Q) (H : Heap F Q) (k : ℕ) (bal bg : Bool) (v : Option ℚ) :
    SameTree H (initRest E H k bal bg v).state := by
  unfold initRest
  cases bal with
  | false => exact (sameTree_put H k { H k with bg := bg, evs := newEvs, terms := [(none, { target := .null, flow := (H k).flow })] } rfl
      rfl).trans (sameTree_setCached _ _ _)
  | true =>
    have h1 := sameTree_setBalance E H k
    simp only [if_true]
    cases hs : setBalance E H k with
    | err e H1 => rw [hs] at h1; exact h1
    | ok u H1 =>
      rw [hs] at h1
      exact h1.trans ((sameTree_put H1 k { H1 k with bg := bg, evs := newEvs, terms := [(none, { target := .null, flow := (H1 k).flow })] }
        rfl rfl).trans (sameTree_setCached _ _ _))

theorem sameTree_toForeground (H : Heap F Q) (i : ℕ) : SameTree H (toForeground H i).state := by
  unfold toForeground
  have h1 := sameTree_put H i { H i with bg := false } rfl rfl
  simp only
  split
  · split
    · exact h1.trans (sameTree_put _ _ _ rfl rfl)
    · exact h1
  · exact h1.trans (sameTree_put _ _ _ rfl rfl)

theorem nodup_add (l : List ℕ) (a : ℕ) (hl : l.Nodup) : (PySet.add l a).Nodup := by
  unfold PySet.add; split
  · exact hl
  · rename_i ha
    exact List.nodup_append.2 ⟨hl, List.nodup_singleton _, by
      intro x hx y hy; rw [List.mem_singleton] at hy; subst hy; rintro rfl; exact ha hx⟩

/-- the tree after `set_parent` -/
theorem setParent_spec (H : Heap F Q) (i p : ℕ) : (setParent H i p).error? = none ∧
    ∀ j, ((setParent H i p).state j).parent = (if j = i then some p else (H j).parent) ∧
      (∀ c, c ∈ ((setParent H i p).state j).kids ↔ c ∈ (H j).kids ∨ (j = p ∧ c = i)) ∧
      ((H j).kids.Nodup → ((setParent H i p).state j).kids.Nodup) := by
  unfold setParent addChild setRef
  simp only [put_self, ne_eq, not_true_eq_false, if_false, Out.error?, Out.state, true_and]
  have hadd : ∀ (l : List ℕ) (a c : ℕ), c ∈ PySet.add l a ↔ c ∈ l ∨ c = a := by
    intro l a c; unfold PySet.add; split
    · rename_i h
      constructor
      · exact .inl
      · rintro (h' | rfl)
        · exact h'
        · exact h
    · simp
  intro j
  by_cases hjp : j = p
  · subst hjp
    simp only [put_self, hadd, true_and]
    by_cases hji : j = i
    · subst hji; simpa using nodup_add _ _
    · simp +contextual [hji, nodup_add]
  · simp only [put_ne _ _ hjp, hjp, false_and, or_false]
    by_cases hji : j = i
    · subst hji; simp
    · simp [hji]

/-- the tree after `unset_parent` of a fragment that is listed under its parent -/
theorem unsetParent_spec (H : Heap F Q) (i p : ℕ) (hp : (H i).parent = some p) (hk : i ∈ (H p).kids) :
    (unsetParent H i).error? = none ∧
    ∀ j, ((unsetParent H i).state j).parent = (if j = i then none else (H j).parent) ∧
      ((unsetParent H i).state j).kids = if j = p then (H p).kids.erase i else (H j).kids := by
  unfold unsetParent removeChild setRef
  simp only [hp, ne_eq, not_true_eq_false, if_false, hk, Out.error?, Out.state, true_and]
  intro j
  by_cases hji : j = i
  · subst hji
    simp only [put_self, if_true, true_and]
    by_cases hjp : j = p
    · subst hjp; simp
    · simp [hjp]
  · simp only [put_ne _ _ hji, hji, if_false]
    by_cases hjp : j = p
    · subst hjp; simp
    · simp [hjp]

/-- what holds after every history: fragments are listed once, under (at least) their parent; only made fragments occur -/
structure Tree (w : World F Q) : Prop where
  listed : ∀ i p, (w.heap i).parent = some p → i ∈ (w.heap p).kids
  live : ∀ i p, i ∈ (w.heap p).kids → i ∈ w.live ∧ p ∈ w.live
  dead : ∀ i, i ∉ w.live → (w.heap i).parent = none ∧ (w.heap i).kids = []

theorem Tree.same {w : World F Q} (h : Tree w) {H : Heap F Q} (hs : SameTree w.heap H) : Tree { w with heap := H } := by
  constructor
  · intro i p hp; rw [(hs p).2]; exact h.listed i p ((hs i).1 ▸ hp)
  · intro i p hi; exact h.live i p ((hs p).2 ▸ hi)
  · intro i hi; exact ⟨(hs i).1.trans (h.dead i hi).1, (hs i).2.trans (h.dead i hi).2⟩

theorem construct_tree (E : Env F Q) (w : World F Q) (h : Tree w) (k : ℕ) (hk : k ∉ w.live) (f : F) (d : Dir)
    (p : Option ℕ) (hp : ∀ q, p = some q → q ∈ w.live) (v : Option ℚ) (bal bg : Bool) :
    ∀ j, ((construct E w.heap k f d p v bal bg).state j).parent = (if j = k then p else (w.heap j).parent) ∧
      (∀ c, c ∈ ((construct E w.heap k f d p v bal bg).state j).kids ↔ c ∈ (w.heap j).kids ∨ (p = some j ∧ c = k)) ∧
      ((w.heap j).kids.Nodup → ((construct E w.heap k f d p v bal bg).state j).kids.Nodup) := by
  obtain ⟨hd1, hd2⟩ := h.dead k hk
  have h0 : SameTree w.heap (w.heap.put k { flow := f, dir := d, evs := [], terms := [] }) :=
    sameTree_put _ _ _ hd1.symm hd2.symm
  unfold construct
  cases p with
  | none =>
    have hs := h0.trans (sameTree_initRest E _ k bal bg v)
    intro j
    refine ⟨?_, fun c => ?_, fun hn => ?_⟩
    · refine (hs j).1.trans ?_
      split
      · rename_i hjk; subst hjk; exact hd1
      · rfl
    · simp only
      rw [(hs j).2]; simp
    · simp only
      rw [(hs j).2]; exact hn
  | some p =>
    have hsp := setParent_spec (w.heap.put k { flow := f, dir := d, evs := [], terms := [] }) k p
    simp only
    cases hs : setParent (w.heap.put k { flow := f, dir := d, evs := [], terms := [] }) k p with
    | err e H1 => rw [hs] at hsp; exact absurd hsp.1 (by simp [Out.error?])
    | ok u H1 =>
      rw [hs] at hsp
      simp only [Out.bind]
      have hir := sameTree_initRest E H1 k bal bg v
      intro j
      refine ⟨(hir j).1.trans ((hsp.2 j).1.trans ?_), fun c => ?_, fun hn => ?_⟩
      · split
        · rfl
        · exact (h0 j).1
      · rw [(hir j).2]
        refine ((hsp.2 j).2.1 c).trans ?_
        rw [(h0 j).2, Option.some.injEq, eq_comm (a := j)]
      · rw [(hir j).2]; exact (hsp.2 j).2.2 (by rw [(h0 j).2]; exact hn)

theorem create_tree (E : Env F Q) (w : World F Q) (h : Tree w) (k : ℕ) (hk : k ∉ w.live) (f : F) (d : Dir)
    (p : Option ℕ) (hp : ∀ q, p = some q → q ∈ w.live) (v : Option ℚ) (bal bg : Bool) :
    SameTree w.heap (createFragment E w.heap k f d p v bal bg).state ∨
    ∀ j, ((createFragment E w.heap k f d p v bal bg).state j).parent = (if j = k then p else (w.heap j).parent) ∧
      (∀ c, c ∈ ((createFragment E w.heap k f d p v bal bg).state j).kids ↔ c ∈ (w.heap j).kids ∨ (p = some j ∧ c = k)) ∧
      ((w.heap j).kids.Nodup → ((createFragment E w.heap k f d p v bal bg).state j).kids.Nodup) := by
  unfold createFragment
  cases p with
  | none => exact .inr (construct_tree E w h k hk f _ none hp v false bg)
  | some p =>
    simp only
    cases ht : (w.heap p).terms.get? none with
    | none => exact .inl (.refl _)
    | some t =>
      simp only
      have key : ∀ (H1 : Heap F Q), SameTree w.heap H1 → ∀ (r : Out (Heap F Q) Err Unit),
          r = (match (H1 p).terms.get? none with
            | none => .err .keyError H1
            | some t => construct E H1 k f d (some p) (if bal || isSubfrag H1 p t then some 1 else v) bal bg) →
          SameTree w.heap r.state ∨ ∀ j, (r.state j).parent = (if j = k then some p else (w.heap j).parent) ∧
            (∀ c, c ∈ (r.state j).kids ↔ c ∈ (w.heap j).kids ∨ (some p = some j ∧ c = k)) ∧
            ((w.heap j).kids.Nodup → (r.state j).kids.Nodup) := by
        intro H1 hs r hr
        cases ht1 : (H1 p).terms.get? none with
        | none => rw [ht1] at hr; subst hr; exact .inl hs
        | some t1 =>
          rw [ht1] at hr
          subst hr
          refine .inr fun j => ?_
          have hc := construct_tree E { w with heap := H1 } (h.same hs) k hk f d (some p) hp
            (if bal || isSubfrag H1 p t1 then some 1 else v) bal bg j
          refine ⟨hc.1.trans ?_, fun c => (hc.2.1 c).trans ?_, fun hn => hc.2.2 ?_⟩
          · split
            · rfl
            · exact (hs j).1
          · simp only; rw [(hs j).2]
          · simp only; rw [(hs j).2]; exact hn
      cases hn : t.isNull with
      | false =>
        simp only [Bool.false_eq_true, if_false, Out.bind]
        exact key _ (.refl _) _ rfl
      | true =>
        simp only [if_true]
        have hf := sameTree_toForeground w.heap p
        cases hfg : toForeground w.heap p with
        | err e H1 => rw [hfg] at hf; exact .inl hf
        | ok u H1 =>
          rw [hfg] at hf
          exact key H1 hf _ rfl

theorem Tree.grow {w : World F Q} (h : Tree w) (k : ℕ) (hk : k ∉ w.live) (p : Option ℕ) (hp : ∀ q, p = some q → q ∈ w.live)
    {H : Heap F Q} (hH : ∀ j, (H j).parent = (if j = k then p else (w.heap j).parent) ∧
      (∀ c, c ∈ (H j).kids ↔ c ∈ (w.heap j).kids ∨ (p = some j ∧ c = k)) ∧ ((w.heap j).kids.Nodup → (H j).kids.Nodup)) : Tree { heap := H, live := k :: w.live } := by
  constructor
  · intro i q hq
    simp only at hq ⊢
    rw [(hH i).1] at hq
    rw [(hH q).2.1]
    by_cases hik : i = k
    · subst hik; rw [if_pos rfl] at hq; exact .inr ⟨hq, rfl⟩
    · rw [if_neg hik] at hq; exact .inl (h.listed i q hq)
  · intro i q hi
    simp only at hi ⊢
    rcases ((hH q).2.1 i).1 hi with hi | ⟨hq, rfl⟩
    · obtain ⟨a, b⟩ := h.live i q hi
      exact ⟨List.mem_cons_of_mem _ a, List.mem_cons_of_mem _ b⟩
    · exact ⟨List.mem_cons_self, List.mem_cons_of_mem _ (hp q hq)⟩
  · intro i hi
    simp only [List.mem_cons, not_or] at hi ⊢
    refine ⟨?_, ?_⟩
    · rw [(hH i).1, if_neg hi.1]; exact (h.dead i hi.2).1
    · rw [List.eq_nil_iff_forall_not_mem]
      intro c hc
      rcases ((hH i).2.1 c).1 hc with hc | ⟨hq, -⟩
      · rw [(h.dead i hi.2).2] at hc; cases hc
      · exact hi.2 (hp i hq)

theorem tree_step (E : Env F Q) (w : World F Q) (e : Edit F) (h : Tree w) (hv : e.valid w) : Tree (e.run E w) := by
  cases e with
  | new k f d p v bal bg => exact h.grow k hv.1 p hv.2 (construct_tree E w h k hv.1 f d p hv.2 v bal bg)
  | create k f d p v bal bg =>
    rcases create_tree E w h k hv.1 f d p hv.2 v bal bg with hs | hs
    · have := h.same hs
      constructor
      · exact this.listed
      · intro i q hi
        obtain ⟨a, b⟩ := this.live i q hi
        exact ⟨List.mem_cons_of_mem _ a, List.mem_cons_of_mem _ b⟩
      · intro i hi
        exact this.dead i fun hi' => hi (List.mem_cons_of_mem _ hi')
    · exact h.grow k hv.1 p hv.2 hs
  | setParent i p =>
    have hsp := (setParent_spec w.heap i p).2
    constructor
    · intro j q hq
      simp only [Edit.run] at hq ⊢
      rw [(hsp j).1] at hq
      rw [(hsp q).2.1]
      by_cases hji : j = i
      · subst hji; rw [if_pos rfl] at hq; exact .inr ⟨(Option.some.inj hq).symm, rfl⟩
      · rw [if_neg hji] at hq; exact .inl (h.listed j q hq)
    · intro j q hj
      simp only [Edit.run] at hj ⊢
      rcases ((hsp q).2.1 j).1 hj with hj | ⟨rfl, rfl⟩
      · exact h.live j q hj
      · exact hv
    · intro j hj
      simp only [Edit.run] at hj ⊢
      refine ⟨?_, ?_⟩
      · rw [(hsp j).1, if_neg fun hji => hj (by rw [hji]; exact hv.1)]; exact (h.dead j hj).1
      · rw [List.eq_nil_iff_forall_not_mem]
        intro c hc
        rcases ((hsp j).2.1 c).1 hc with hc | ⟨rfl, -⟩
        · rw [(h.dead j hj).2] at hc; cases hc
        · exact hj hv.2
  | unsetParent i =>
    cases hp : (w.heap i).parent with
    | none =>
      have : (unsetParent w.heap i).state = w.heap := by simp [unsetParent, hp, Out.state]
      simp only [Edit.run, this]; exact h
    | some p =>
      have hk := h.listed i p hp
      have hsp := (unsetParent_spec w.heap i p hp hk).2
      constructor
      · intro j q hq
        simp only [Edit.run] at hq ⊢
        rw [(hsp j).1] at hq
        rw [(hsp q).2]
        by_cases hji : j = i
        · subst hji; rw [if_pos rfl] at hq; cases hq
        · rw [if_neg hji] at hq
          have := h.listed j q hq
          split
          · rename_i hqp; subst hqp; exact (List.mem_erase_of_ne hji).2 this
          · exact this
      · intro j q hj
        simp only [Edit.run] at hj ⊢
        rw [(hsp q).2] at hj
        split at hj
        · rename_i hqp; subst hqp; exact h.live j q (List.mem_of_mem_erase hj)
        · exact h.live j q hj
      · intro j hj
        simp only [Edit.run] at hj ⊢
        obtain ⟨d1, d2⟩ := h.dead j hj
        refine ⟨?_, ?_⟩
        · rw [(hsp j).1]; split
          · rfl
          · exact d1
        · rw [(hsp j).2]; split
          · rename_i hjp; subst hjp; rw [d2]; rfl
          · exact d2
  | setBalance i => exact h.same (sameTree_setBalance _ _ _)
  | unsetBalance i => exact h.same (sameTree_unsetBalance _ _)
  | values c => exact h.same (sameTree_values _ _)

theorem tree_reach (E : Env F Q) (allow : World F Q → Edit F → Prop) (w : World F Q) (h : Reach E allow w) : Tree w := by
  induction h with
  | start H h => exact ⟨fun i p hp => (by rw [(h i).1] at hp; cases hp), fun i p hi => (by rw [(h p).2] at hi; cases hi), fun i _ => h i⟩
  | step w e _ hv _ ih => exact tree_step E w e ih hv

/-- further, if `set_parent` is called on fragments without a parent only -/
theorem only_reach (E : Env F Q) (w : World F Q) (h : Reach E orphansOnly w) :
    (∀ i p, i ∈ (w.heap p).kids → (w.heap i).parent = some p) ∧ ∀ p, (w.heap p).kids.Nodup := by
  induction h with
  | start H h => exact ⟨fun i p hi => (by rw [(h p).2] at hi; cases hi), fun p => (by rw [(h p).2]; exact List.nodup_nil)⟩
  | step w e hr hv ha ih =>
    have ht := tree_reach E _ w hr
    have hsame : ∀ H', SameTree w.heap H' → (∀ i p, i ∈ (H' p).kids → (H' i).parent = some p) ∧ ∀ p, (H' p).kids.Nodup := by
      intro H' hs
      exact ⟨fun i p hi => (hs i).1.trans (ih.1 i p ((hs p).2 ▸ hi)), fun p => by rw [(hs p).2]; exact ih.2 p⟩
    have hgrow : ∀ (k : ℕ) (p : Option ℕ) (H : Heap F Q), k ∉ w.live → (∀ j, (H j).parent = (if j = k then p else (w.heap j).parent) ∧
        (∀ c, c ∈ (H j).kids ↔ c ∈ (w.heap j).kids ∨ (p = some j ∧ c = k)) ∧ ((w.heap j).kids.Nodup → (H j).kids.Nodup)) →
        (∀ i p, i ∈ (H p).kids → (H i).parent = some p) ∧ ∀ p, (H p).kids.Nodup := by
      intro k p H hk hH
      refine ⟨fun i q hi => ?_, fun q => (hH q).2.2 (ih.2 q)⟩
      rw [(hH i).1]
      rcases ((hH q).2.1 i).1 hi with hi | ⟨hq, rfl⟩
      · rw [if_neg]
        · exact ih.1 i q hi
        · rintro rfl; exact hk (ht.live i q hi).1
      · rw [if_pos rfl]; exact hq
    cases e with
    | new k f d p v bal bg => exact hgrow k p _ hv.1 (construct_tree E w ht k hv.1 f d p hv.2 v bal bg)
    | create k f d p v bal bg =>
      rcases create_tree E w ht k hv.1 f d p hv.2 v bal bg with hs | hs
      · exact hsame _ hs
      · exact hgrow k p _ hv.1 hs
    | setParent i p =>
      have hsp := (setParent_spec w.heap i p).2
      have hi0 : (w.heap i).parent = none := ha
      refine ⟨fun j q hj => ?_, fun q => (hsp q).2.2 (ih.2 q)⟩
      simp only [Edit.run] at hj ⊢
      rw [(hsp j).1]
      rcases ((hsp q).2.1 j).1 hj with hj' | ⟨rfl, rfl⟩
      · rw [if_neg]
        · exact ih.1 j q hj'
        · rintro rfl
          have := ih.1 j q hj'
          rw [hi0] at this; cases this
      · rw [if_pos rfl]
    | unsetParent i =>
      cases hp : (w.heap i).parent with
      | none =>
        have : (unsetParent w.heap i).state = w.heap := by simp [unsetParent, hp, Out.state]
        simp only [Edit.run, this]; exact ih
      | some p =>
        have hsp := (unsetParent_spec w.heap i p hp (ht.listed i p hp)).2
        refine ⟨fun j q hj => ?_, fun q => ?_⟩
        · simp only [Edit.run] at hj ⊢
          rw [(hsp q).2] at hj
          rw [(hsp j).1]
          by_cases hqp : q = p
          · subst hqp
            rw [if_pos rfl] at hj
            rw [if_neg fun hji => (ih.2 q).not_mem_erase (hji ▸ hj)]
            exact ih.1 j q (List.mem_of_mem_erase hj)
          · rw [if_neg hqp] at hj
            have hq := ih.1 j q hj
            rw [if_neg]
            · exact hq
            · rintro rfl
              rw [hp] at hq; exact hqp (Option.some.inj hq).symm
        · simp only [Edit.run]
          rw [(hsp q).2]
          split
          · exact (ih.2 _).erase _
          · exact ih.2 q
    | setBalance i => exact hsame _ (sameTree_setBalance _ _ _)
    | unsetBalance i => exact hsame _ (sameTree_unsetBalance _ _)
    | values c => exact hsame _ (sameTree_values _ _)

/-- **C48** After any history of edits, including calls that raise, a fragment is listed among the child flows of the
fragment reported as its reference entity. -/
theorem listed_under_parent (E : Env F Q) (w : World F Q) (h : Reach E (fun _ _ => True) w) (i p : ℕ)
    (hp : (w.heap i).parent = some p) : i ∈ children (w.heap p) := by
  unfold children
  rw [List.mem_insertionSort]
  exact (tree_reach E _ w h).listed i p hp

/-- **C48** (partial) and of no other fragment, after histories in which `set_parent` is only called on fragments without a
parent (see `listed_twice` for other histories). -/
theorem listed_iff_partial (E : Env F Q) (w : World F Q) (h : Reach E orphansOnly w) (i p : ℕ) :
    i ∈ children (w.heap p) ↔ (w.heap i).parent = some p := by
  unfold children
  rw [List.mem_insertionSort]
  have ht := tree_reach E _ w h
  refine ⟨fun hi => ?_, ht.listed i p⟩
  exact (only_reach E w h).1 i p hi

/-! ### examples and witnesses -/

/-- three fragments: 0, its children 1 and 2; then 2 is detached and put under 1 -/
def exEdits : List (Edit ℕ) :=
  [.new 0 1 .input none (some 1) false false, .create 1 2 .input (some 0) (some 2) false false,
   .create 2 3 .output (some 0) (some 3) true false, .unsetBalance 2, .unsetParent 2, .setParent 2 1]

def blank : Heap ℕ ℕ := fun _ => { flow := 0, dir := .input, evs := [], terms := [] }

theorem reach_foldl {allow : World F Q → Edit F → Prop} (E : Env F Q) (w : World F Q) (hr : Reach E allow w) (es : List (Edit F))
    (h : ∀ n (hn : n < es.length), es[n].valid ((es.take n).foldl (Edit.run E) w) ∧ allow ((es.take n).foldl (Edit.run E) w) es[n]) :
    Reach E allow (es.foldl (Edit.run E) w) := by
  induction es generalizing w with
  | nil => exact hr
  | cons e es ih =>
    have h0 := h 0 (by simp)
    refine ih _ (.step w e hr h0.1 h0.2) fun n hn => ?_
    have := h (n + 1) (by simpa using hn)
    simpa using this

example : ∃ w, Reach exE orphansOnly w ∧ (w.heap 2).parent = some 1 ∧ children (w.heap 1) = [2] ∧ children (w.heap 0) = [1] := by
  refine ⟨exEdits.foldl (Edit.run exE) ⟨blank, []⟩, reach_foldl exE _ (.start _ fun _ => ⟨rfl, rfl⟩) _ ?_, rfl, rfl, rfl⟩
  intro n hn
  match n, hn with
  | 0, _ => exact ⟨⟨by simp, by simp⟩, trivial⟩
  | 1, _ => exact ⟨⟨by decide +kernel, by intro q h; cases h; decide +kernel⟩, trivial⟩
  | 2, _ => exact ⟨⟨by decide +kernel, by intro q h; cases h; decide +kernel⟩, trivial⟩
  | 3, _ => exact ⟨(by decide +kernel : 2 ∈ (((exEdits.take 3).foldl (Edit.run exE) ⟨blank, []⟩).live)), trivial⟩
  | 4, _ => exact ⟨(by decide +kernel : 2 ∈ (((exEdits.take 4).foldl (Edit.run exE) ⟨blank, []⟩).live)), trivial⟩
  | 5, _ => exact ⟨⟨by decide +kernel, by decide +kernel⟩, rfl⟩
  | n + 6, hn => exact absurd hn (by simp [exEdits])

/-- **C48 fails** when `set_parent` is called on a fragment that has a parent: it stays listed under the former one -/
theorem listed_twice : ∃ w, Reach exE (fun _ _ => True) w ∧ (w.heap 2).parent = some 1 ∧ 2 ∈ children (w.heap 1) ∧
    2 ∈ children (w.heap 0) := by
  refine ⟨([.new 0 1 .input none (some 1) false false, .new 1 2 .input (some 0) (some 2) false false,
    .new 2 3 .output (some 0) (some 3) false false, .setParent 2 1] : List (Edit ℕ)).foldl (Edit.run exE) ⟨blank, []⟩,
    reach_foldl exE _ (.start _ fun _ => ⟨rfl, rfl⟩) _ ?_, rfl, by decide +kernel, by decide +kernel⟩
  intro n hn
  match n, hn with
  | 0, _ => exact ⟨⟨by simp, by simp⟩, trivial⟩
  | 1, _ => exact ⟨⟨by decide +kernel, by intro q h; cases h; decide +kernel⟩, trivial⟩
  | 2, _ => exact ⟨⟨by decide +kernel, by intro q h; cases h; decide +kernel⟩, trivial⟩
  | 3, _ => exact ⟨⟨by decide +kernel, by decide +kernel⟩, trivial⟩
  | n + 4, hn => exact absurd hn (by simp)

/-! ### C51: a creation that raises -/

/-- **C51** A fragment can be made, if it is made without a parent and not as a balance flow. -/
theorem construct_reference (E : Env F Q) (H : Heap F Q) (k : ℕ) (f : F) (d : Dir) (v : Option ℚ) (bg : Bool) :
    (construct E H k f d none v false bg).error? = none := by
  simp only [construct, initRest, Bool.false_eq_true, if_false, Out.bind]
  obtain ⟨H1, h1, -⟩ := setCached_new ((H.put k { flow := f, dir := d, evs := [], terms := [] }).put k
    { flow := f, dir := d, bg := bg, evs := newEvs, terms := [(none, { target := .null, flow := f })] }) k v
    (by simp) (.inr (by simp [observable]))
  simp only [put_self]
  rw [h1]; rfl

/-- **C51** A child flow with another value than 1 can be made under a parent whose default termination is not a
subfragment; as a balance flow if the parent has none and the value is 1. -/
theorem construct_child (E : Env F Q) (H : Heap F Q) (k p : ℕ) (f : F) (d : Dir) (v : Option ℚ) (bal bg : Bool) (hpk : p ≠ k)
    (t : Term F) (ht : (H p).terms.get? none = some t) (hb : bal = true → (H p).cons = none ∧ v = some 1)
    (hs : bal = false → v = some 1 ∨ ∀ j, t.target = .frag j → j = p) :
    (construct E H k f d (some p) v bal bg).error? = none := by
  simp only [construct, setParent, setRef, addChild, put_self, ne_eq, not_true_eq_false, if_false, Out.bind, put_ne _ _ hpk]
  cases bal with
  | false =>
    simp only [initRest, Bool.false_eq_true, if_false, Out.bind]
    refine (setCached_new _ k v ?_ ?_).elim fun H1 h => by rw [h.1]; rfl
    · simp
    · rcases hs rfl with hs | hs
      · exact .inl hs
      right
      simp only [observable, put_self, put_ne _ _ hpk, put_ne _ _ hpk.symm]
      simp only [Bool.false_eq_true, if_false]
      have h2 : termOf { H p with kids := PySet.add (H p).kids k } (.one .cached) = .ok t := (termOf_none (H p) t ht).2
      rw [h2]
      simp only [Except.map, isSubfrag]
      cases htg : t.target with
      | null => rfl
      | process => rfl
      | frag j => simp [hs j htg]
  | true =>
    obtain ⟨hc, hv⟩ := hb rfl
    simp only [initRest, if_true, setBalance, setConserved, put_self, put_ne _ _ hpk.symm, hc, Bool.false_eq_true,
      if_false, ne_eq, not_true_eq_false, Option.isSome_none, Out.bind]
    refine (setCached_new _ k _ ?_ (.inl hv)).elim fun H1 h => by rw [h.1]; rfl
    simp

/-- **C51 fails**: a second balance flow is refused, but the half-made fragment stays among the child flows of its parent,
and the parent, which could be traversed before, cannot be traversed any more -/
theorem failed_creation_stays : ∃ H', construct exE exH 20 7 .input (some 0) (some 1) true false = .err .balanceAlreadySet H' ∧
    20 ∈ children (H' 0) ∧ 20 ∉ children (exH 0) ∧
    (view (traverse exE exH .none false 9 0)).toBool = true ∧ (view (traverse exE H' .none false 9 0)).toBool = false :=
  ⟨_, rfl, by decide +kernel, by decide +kernel, by decide +kernel, by decide +kernel⟩

/-- **C51 fails** likewise for a child of a fragment terminated to a subfragment, with a value other than 1: the parent (0 in
`exH` is a foreground node, 2 is terminated to 5) keeps it -/
theorem failed_creation_stays_subfragment :
    ∃ H', construct exE exH 20 7 .input (some 2) (some 3) false false = .err .dependentFragment H' ∧
    20 ∈ children (H' 2) ∧ 20 ∉ children (exH 2) :=
  ⟨_, rfl, by decide +kernel, by decide +kernel⟩

end Frg
