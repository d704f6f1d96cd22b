import Verif.Props.FragmentCloneLemmas

/-!
C127: a clone of a fragment is a copy.
-/

namespace Frg
set_option linter.unusedSectionVars false

variable {F Q : Type} [DecidableEq F] [DecidableEq Q]

/-! ### specification -/

/-- the amount of x is its own in every scenario: x is a reference flow, or it is not a balance and no termination of its parent is to
a subfragment -/
def Free (H : Heap F Q) (x : ℕ) : Prop :=
  (H x).parent = none ∨
    ∃ p, (H x).parent = some p ∧ (H x).bal = false ∧ ∀ key t, (H p).terms.get? key = some t → isSubfrag H p t = false

/-- the reference fragment f, all fragments below it, and the unused uuids `φ x`, are such that f is copied faithfully -/
structure Clonable (E : Env F Q) (H : Heap F Q) (f : ℕ) (φ : ℕ → ℕ) (N : ℕ → Prop) (d : ℕ → ℕ) : Prop where
  root : (H f).parent = none ∧ (H f).bal = false
  fresh : ∀ x, InTree H f x → N (φ x) ∧ ¬ N x                               -- the uuids are unused
  blank : ∀ y, N y → (H y).parent = none
  inj : ∀ x y, InTree H f x → InTree H f y → φ x = φ y → x = y               -- and differ
  tree : ∀ x, InTree H f x → (H x).kids.Nodup ∧ ∀ c ∈ (H x).kids, (H c).parent = some x ∧ d c = d x + 1
  evKeys : ∀ x, InTree H f x → (H x).evs.keys.Nodup ∧ Key.cached ∈ (H x).evs.keys ∧ Key.observed ∈ (H x).evs.keys ∧ ∀ k ∈ (H x).evs.keys, Plain k
  cached : ∀ x, InTree H f x → (H x).evs.get? .cached ≠ some (some 0)
  termKeys : ∀ x, InTree H f x → (H x).terms.keys.Nodup ∧ ∃ t, (H x).terms.get? none = some t ∧ ((H x).kids ≠ [] → t.isNull = false)
  null : ∀ x, InTree H f x → ∀ key t, (H x).terms.get? key = some t → t.target = .null →
    key = none ∧ t.flow = (H x).flow ∧ t.descend = true                    -- no termination was cleared in a scenario
  self : ∀ x, InTree H f x → ∀ key t, (H x).terms.get? key = some t → t.target = .frag x →
    t.flow = (H x).flow ∧ t.descend = true ∧ (H x).bg = false              -- no foreground emission
  target : ∀ x, InTree H f x → ∀ key t j, (H x).terms.get? key = some t → t.target = .frag j → ¬ N j
  uniform : ∀ x, InTree H f x → ∃ b, ∀ key t, (H x).terms.get? key = some t → isSubfrag H x t = b
  cons : ∀ x, InTree H f x → (∀ c ∈ (H x).kids, (H c).bal = true → (H x).cons = some (E.refQ (H c).flow)) ∧
    ((H x).cons ≠ none → ∃ c ∈ (H x).kids, (H c).bal = true)

/-- the node n' is a copy of fragment x, but for its child flows and conserved quantity -/
structure NodeCopy (H : Heap F Q) (φ : ℕ → ℕ) (x : ℕ) (par : Option ℕ) (n' : Node F Q) : Prop where
  parent : n'.parent = par
  flow : n'.flow = (H x).flow
  dir : n'.dir = (H x).dir
  bg : n'.bg = (H x).bg
  bal : n'.bal = (H x).bal
  terms : ∀ key, n'.terms.get? key = ((H x).terms.get? key).map fun t => t.moved x (φ x)
  keys : ∀ k, n'.evs.has k = true → (H x).evs.has k = true
  cached : Free H x → n'.evs.get? .cached = some (some (cachedEv (H x).evs))
  observed : Free H x → n'.evs.get? .observed = some (observedEv (H x).parent.isNone (H x).evs)
  others : Free H x → ∀ k, k ≠ .cached → k ≠ .observed → n'.evs.get? k = ((H x).evs.get? k).map fun v => some (v.getD 0)

/-- the node n' is a copy of fragment x -/
structure IsCopy (H : Heap F Q) (φ : ℕ → ℕ) (x : ℕ) (par : Option ℕ) (n' : Node F Q) : Prop extends NodeCopy H φ x par n' where
  kids : n'.kids = (children (H x)).map φ
  cons : n'.cons = (H x).cons

/-! ### terminations of a copy -/

theorem termOf_get {n : Node F Q} {sc : Scen} {t : Term F} (h : termOf n sc = .ok t) : ∃ key, n.terms.get? key = some t := by
  have get : ∀ key, (match n.terms.get? key with
      | some t => Except.ok t
      | none => .error Err.keyError) = .ok t → n.terms.get? key = some t := by
    intro key h
    cases hk : n.terms.get? key with
    | none => rw [hk] at h; simp at h
    | some t' => rw [hk] at h; simp at h; rw [h]
  unfold termOf at h
  cases sc with
  | none => exact ⟨_, get _ h⟩
  | one k =>
    simp only at h
    split at h
    · exact ⟨_, get _ h⟩
    · exact ⟨_, get _ h⟩
  | many l =>
    simp only at h
    split at h
    · exact ⟨_, get _ h⟩
    · exact ⟨_, get _ h⟩
    · simp at h

theorem termOf_copy {n n' : Node F Q} (g : Term F → Term F) (h : ∀ key, n'.terms.get? key = (n.terms.get? key).map g) (sc : Scen) (t : Term F)
    (ht : termOf n sc = .ok t) : termOf n' sc = .ok (g t) := by
  have hhas : ∀ key, n'.terms.has key = n.terms.has key := by intro key; rw [Dict.has, Dict.has, h]; simp
  have get : ∀ key, (match n.terms.get? key with
      | some t => Except.ok t
      | none => .error Err.keyError) = .ok t → (match n'.terms.get? key with
      | some t => Except.ok t
      | none => .error Err.keyError) = .ok (g t) := by
    intro key hk
    rw [h]
    cases hk' : n.terms.get? key with
    | none => rw [hk'] at hk; simp at hk
    | some t' => rw [hk'] at hk; simp at hk; simp [hk]
  unfold termOf at ht ⊢
  cases sc with
  | none => exact get _ ht
  | one k =>
    simp only [hhas] at ht ⊢
    split at ht
    · rename_i hc; rw [if_pos hc]; exact get _ ht
    · rename_i hc; rw [if_neg hc]; exact get _ ht
  | many l =>
    simp only [hhas] at ht ⊢
    split at ht
    · exact get _ ht
    · exact get _ ht
    · simp at ht

theorem termOf_default {n : Node F Q} {t : Term F} (h : n.terms.get? none = some t) (sc : Scen) (hsc : sc = .none ∨ ∃ k, sc = .one k) :
    ∃ t', termOf n sc = .ok t' := by
  rcases hsc with rfl | ⟨k, rfl⟩
  · exact ⟨t, (termOf_none n t h).1⟩
  · unfold termOf
    simp only
    split
    · rw [h]; exact ⟨t, rfl⟩
    · cases hk : n.terms.get? (some k) with
      | none => simp [Dict.has, hk, h]
      | some t' => simp [Dict.has, hk]

/-! ### one fragment -/

/-- below f, a fragment lies below one child flow only -/
theorem below_last {H : Heap F Q} {i x : ℕ} (h : InTree H i x) : x = i ∨ ∃ p, InTree H i p ∧ x ∈ (H p).kids := by
  induction h with
  | self i => exact .inl rfl
  | child i c x hc hb ih =>
    rcases ih with rfl | ⟨p, hp, hx⟩
    · exact .inr ⟨i, .self i, hc⟩
    · exact .inr ⟨p, .child _ _ _ hc hp, hx⟩

theorem below_trans {H : Heap F Q} {i c x : ℕ} (h : InTree H i c) (h' : InTree H c x) : InTree H i x := by
  induction h with
  | self i => exact h'
  | child i c' c hc _ ih => exact .child _ _ _ hc (ih h')

variable {E : Env F Q} {H0 : Heap F Q} {root : ℕ} {φ : ℕ → ℕ} {N : ℕ → Prop} {d : ℕ → ℕ}

theorem Clonable.depth (hC : Clonable E H0 root φ N d) {c x : ℕ} (hc : InTree H0 root c) (h : InTree H0 c x) : d c ≤ d x := by
  induction h with
  | self i => exact le_refl _
  | child i c' x hc' _ ih =>
    have := ((hC.tree i hc).2 c' hc').2
    have := ih (below_child hc hc')
    omega

theorem Clonable.one (hC : Clonable E H0 root φ N d) {a b x : ℕ} (ha : InTree H0 root a) (hb : InTree H0 root b) (hd : d a = d b)
    (hax : InTree H0 a x) (hbx : InTree H0 b x) : a = b := by
  have key : ∀ n x, d x = n → InTree H0 a x → InTree H0 b x → a = b := by
    intro n
    induction n with
    | zero =>
      intro x hx h1 h2
      rcases below_last h1 with rfl | ⟨p, hp, hpx⟩
      · rcases below_last h2 with rfl | ⟨q, hq, hqx⟩
        · rfl
        · have := ((hC.tree q (below_trans hb hq)).2 _ hqx).2; omega
      · have := ((hC.tree p (below_trans ha hp)).2 _ hpx).2; omega
    | succ n ih =>
      intro x hx h1 h2
      rcases below_last h1 with rfl | ⟨p, hp, hpx⟩
      · rcases below_last h2 with rfl | ⟨q, hq, hqx⟩
        · rfl
        · have h3 := ((hC.tree q (below_trans hb hq)).2 _ hqx).2
          have h4 := hC.depth hb hq
          omega
      · have h5 := (hC.tree p (below_trans ha hp)).2 _ hpx
        rcases below_last h2 with rfl | ⟨q, hq, hqx⟩
        · have h4 := hC.depth ha hp
          omega
        · have h6 := (hC.tree q (below_trans hb hq)).2 _ hqx
          have : p = q := by
            have := h5.1.symm.trans h6.1
            simpa using this
          subst this
          exact ih p (by omega) hp hq
  exact key _ x rfl hax hbx

/-- where the copy of f is made -/
def Place (H0 : Heap F Q) (root : ℕ) (φ : ℕ → ℕ) (f : ℕ) (par : Option ℕ) (H : Heap F Q) : Prop :=
  (par = none ∧ f = root) ∨ ∃ q, InTree H0 root q ∧ f ∈ (H0 q).kids ∧ par = some (φ q) ∧ (H (φ q)).bg = (H0 q).bg ∧
    ∀ key, (H (φ q)).terms.get? key = ((H0 q).terms.get? key).map fun t => t.moved q (φ q)

/-- what can be observed of the copy -/
theorem copy_observable (hC : Clonable E H0 root φ N d) {H : Heap F Q} (hold : ∀ x, ¬ N x → H x = H0 x) {q c k : ℕ} (hq : InTree H0 root q)
    (hc : c ∈ (H0 q).kids) (hk : k ≠ φ q) (hpar : (H k).parent = some (φ q)) (hbal : (H k).bal = (H0 c).bal) (hbg : (H (φ q)).bg = (H0 q).bg)
    (hterms : ∀ key, (H (φ q)).terms.get? key = ((H0 q).terms.get? key).map fun t => t.moved q (φ q)) (sc : Scen) (hsc : sc = .none ∨ ∃ k, sc = .one k) :
    (Free H0 c → observable H k sc = .ok true) ∧ (¬ Free H0 c → observable H k sc = .ok false) := by
  have hcp := ((hC.tree q hq).2 c hc).1
  obtain ⟨b, hb⟩ := hC.uniform q hq
  obtain ⟨t0, ht0, _⟩ := (hC.termKeys q hq).2
  obtain ⟨t, ht⟩ := termOf_default ht0 sc hsc
  have ht' := termOf_copy (fun t => t.moved q (φ q)) hterms sc t ht
  obtain ⟨key, hkey⟩ := termOf_get ht
  have hsub : isSubfrag H (φ q) (t.moved q (φ q)) = isSubfrag H0 q t := by
    unfold isSubfrag Term.moved
    cases htt : t.target with
    | null => simp [htt]
    | process => simp [htt]
    | frag j =>
      by_cases hjq : j = q
      · subst hjq; simp
      · have hj := hC.target q hq key t j hkey htt
        have : j ≠ φ q := by rintro rfl; exact hj (hC.fresh q hq).1
        simp only [htt, Target.frag.injEq, hjq, if_false, ne_eq, this, not_false_eq_true, hbg, hold j hj]
  have hobs : (H k).bal = false → observable H k sc = .ok (!b) := by
    intro h
    rw [observable, hpar]
    simp only [h, Bool.false_eq_true, if_false, ht', Except.map, hsub, hb key t hkey]
  constructor
  · rintro (h | ⟨p, hp, hbl, hfr⟩)
    · rw [hcp] at h; cases h
    · rw [hcp] at hp
      simp only [Option.some.injEq] at hp
      subst hp
      rw [hobs (hbal.trans hbl), ← hb key t hkey, hfr key t hkey]; rfl
  · intro hf
    cases hbl : (H0 c).bal with
    | true => rw [observable, hpar]; simp [hbal, hbl]
    | false =>
      rw [hobs (hbal.trans hbl)]
      cases hbb : b with
      | true => rfl
      | false =>
        exfalso
        refine hf (.inr ⟨q, hcp, hbl, fun key t h => ?_⟩)
        rw [hb key t h, hbb]

/-- making one copy, without the child flows -/
theorem copy_node (hC : Clonable E H0 root φ N d) {f : ℕ} (hf : InTree H0 root f) {par : Option ℕ} {H H1 H2 H3 : Heap F Q} (fuel : ℕ)
    (hold : ∀ x, ¬ N x → H x = H0 x) (hup : UpNew N H) (hP : Place H0 root φ f par H)
    (h1 : createFragment E H (φ f) (H f).flow (if par = none then (H f).dir.comp else (H f).dir) par (some (cachedEv (H f).evs)) (H f).bal (H f).bg = .ok () H1)
    (h2 : transferEvs H1 f (φ f) = .ok () H2) (h3 : cloneTerms E fuel f (φ f) (H2 f).terms H2 = .ok () H3) :
    NodeCopy H0 φ f par (H3 (φ f)) ∧ (H3 (φ f)).kids = [] ∧ (H3 (φ f)).cons = none ∧
    (∀ p, par = some p → H3 p = { H p with kids := PySet.add (H p).kids (φ f), cons := if (H0 f).bal then some (E.refQ (H0 f).flow) else (H p).cons }) ∧
    (∀ y, y ≠ φ f → some y ≠ par → H3 y = H y) ∧ UpNew N H3 := by
  obtain ⟨hNf, hnf⟩ := hC.fresh f hf
  have hHf : H f = H0 f := hold f hnf
  have hne : f ≠ φ f := by intro h; rw [← h] at hNf; exact hnf hNf
  rw [hHf] at h1
  -- the new fragment
  have c1 : (H1 (φ f)).parent = par ∧ (H1 (φ f)).flow = (H0 f).flow ∧ (H1 (φ f)).dir = (H0 f).dir ∧ (H1 (φ f)).bg = (H0 f).bg ∧ (H1 (φ f)).bal = (H0 f).bal ∧
      (H1 (φ f)).kids = [] ∧ (H1 (φ f)).cons = none ∧ (H1 (φ f)).terms = [(none, { target := .null, flow := (H0 f).flow })] ∧
      (∃ v, (H1 (φ f)).evs = [(.cached, some v), (.observed, some 0)] ∧ (Free H0 f → v = cachedEv (H0 f).evs)) ∧
      (∀ p, par = some p → H1 p = { H p with kids := PySet.add (H p).kids (φ f), cons := if (H0 f).bal then some (E.refQ (H0 f).flow) else (H p).cons }) ∧
      (∀ y, y ≠ φ f → some y ≠ par → H1 y = H y) ∧
      (∀ sc, (sc = .none ∨ ∃ k, sc = .one k) → (Free H0 f → observable H1 (φ f) sc = .ok true) ∧ (¬ Free H0 f → observable H1 (φ f) sc = .ok false)) := by
    rcases hP with ⟨rfl, rfl⟩ | ⟨q, hq, hfq, rfl, hbg, hterms⟩
    · rw [if_pos rfl] at h1
      have := create_root E H H1 _ _ _ _ _ _ h1
      subst this
      have hdir : (H0 f).dir.comp.comp = (H0 f).dir := by cases (H0 f).dir <;> rfl
      rw [put_self]
      refine ⟨rfl, rfl, hdir, rfl, hC.root.2.symm, rfl, rfl, rfl, ⟨_, rfl, fun _ => rfl⟩, by simp, fun y hy _ => put_ne _ _ hy, fun sc _ => ⟨fun _ => by simp [observable], fun h => absurd (.inl hC.root.1) h⟩⟩
    · rw [if_neg (by simp)] at h1
      have hqf : φ q ≠ φ f := by
        intro h
        have := hC.inj q f hq hf h
        have h2 := ((hC.tree q hq).2 f hfq).2
        rw [this] at h2
        omega
      obtain ⟨t0, ht0, hnn⟩ := (hC.termKeys q hq).2
      have hn0 := hnn (List.ne_nil_of_mem hfq)
      have ht0' : (H (φ q)).terms.get? none = some (t0.moved q (φ q)) := by rw [hterms, ht0]; rfl
      have hn0' : (t0.moved q (φ q)).isNull = false := by rw [moved_isNull]; exact hn0
      obtain ⟨e1, e2, e3⟩ := create_child E H H1 (φ f) (φ q) _ _ _ _ _ hqf _ ht0' hn0' h1
      have hold1 : ∀ x, ¬ N x → H1 x = H0 x := by
        intro x hx
        rw [e3 x (by rintro rfl; exact hx hNf) (by rintro rfl; exact hx (hC.fresh q hq).1), hold x hx]
      have hobs := fun sc hsc => copy_observable hC hold1 hq hfq hqf.symm (by rw [e1]) (by rw [e1]) (by rw [e2]; exact hbg) (by rw [e2]; exact hterms) sc hsc
      rw [e1]
      refine ⟨rfl, rfl, rfl, rfl, rfl, rfl, rfl, rfl, ?_, fun p hp => ?_, fun y h1 h2 => e3 y h1 (by simpa using h2), hobs⟩
      · by_cases hc : ((H0 f).bal || isSubfrag H (φ q) (t0.moved q (φ q))) = true
        · refine ⟨1, by rw [if_pos hc], fun hF => ?_⟩
          exfalso
          have ho := (hobs .none (.inl rfl)).1 hF
          rw [observable, e1] at ho
          simp only at ho
          have ht1 : (H1 (φ q)).terms.get? none = some (t0.moved q (φ q)) := by rw [e2]; exact ht0'
          rw [(termOf_none _ _ ht1).1] at ho
          have hsb : isSubfrag H1 (φ q) (t0.moved q (φ q)) = isSubfrag H (φ q) (t0.moved q (φ q)) := by
            unfold isSubfrag
            cases htt : (t0.moved q (φ q)).target with
            | null => rfl
            | process => rfl
            | frag j =>
              simp only
              by_cases hj : j = φ q
              · subst hj; simp
              · have hjN : ¬ N j := by
                  unfold Term.moved at htt
                  split at htt
                  · simp at htt; exact absurd htt.symm hj
                  · exact hC.target q hq none t0 j ht0 htt
                rw [hold1 j hjN, hold j hjN, e2]
          simp only [Except.map, hsb] at ho
          cases hb : (H0 f).bal with
          | true => rw [hb] at ho; simp at ho
          | false => rw [hb] at ho hc; simp at ho hc; simp [hc] at ho
        · refine ⟨_, by rw [if_neg hc], fun _ => rfl⟩
      · simp only [Option.some.injEq] at hp
        subst hp
        exact e2
  obtain ⟨p1, p2, p3, p4, p5, p6, p7, p8, ⟨v, p9, p9'⟩, p10, p11, p12⟩ := c1
  have hf1 : H1 f = H0 f := by
    rw [p11 f hne ?_, hHf]
    rcases hP with ⟨rfl, -⟩ | ⟨q, hq, _, rfl, _⟩
    · simp
    · simp only [ne_eq, Option.some.injEq]; intro h; rw [h] at hnf; exact hnf (hC.fresh q hq).1
  obtain ⟨hnd, hkc, hko, hpl⟩ := hC.evKeys f hf
  -- its values
  have c2 : ∃ evs, H2 = H1.put (φ f) { H1 (φ f) with evs := evs } ∧ (∀ k, evs.has k = true → (H0 f).evs.has k = true) ∧
      (Free H0 f → evs.get? .cached = some (some (cachedEv (H0 f).evs)) ∧ evs.get? .observed = some (observedEv (H0 f).parent.isNone (H0 f).evs) ∧
        ∀ k, k ≠ .cached → k ≠ .observed → evs.get? k = ((H0 f).evs.get? k).map fun v => some (v.getD 0)) := by
    by_cases hF : Free H0 f
    · obtain ⟨evs, e, hev, hob⟩ := transferEvs_free H1 H2 f (φ f) hne (by rw [hf1]; exact hnd) (by rw [hf1]; exact hpl)
        ((p12 .none (.inl rfl)).1 hF) (fun k _ _ _ => (p12 (.one k) (.inr ⟨k, rfl⟩)).1 hF) h2
      rw [hf1] at hev hob
      have hcache : evs.get? .cached = some (some v) := by rw [hev _ (by simp), p9]; simp [Dict.get?]
      have hoth : ∀ k, k ≠ .cached → k ≠ .observed → evs.get? k = ((H0 f).evs.get? k).map fun v => some (v.getD 0) := by
        intro k h1 h2
        rw [hev k h2]
        by_cases hk : k ∈ (H0 f).evs.keys
        · rw [if_pos ⟨hk, h1⟩]
        · rw [if_neg (fun h => hk h.1), p9, (Dict.not_mem_keys_iff _ _).1 hk]
          simp [Dict.get?, h1.symm, h2.symm]
      refine ⟨evs, e, fun k hk => ?_, fun _ => ⟨by rw [hcache, p9' hF], ?_, hoth⟩⟩
      · by_cases h1 : k = .cached
        · subst h1; exact (Dict.has_iff _ _).2 hkc
        · by_cases h2 : k = .observed
          · subst h2; exact (Dict.has_iff _ _).2 hko
          · rw [Dict.has, hoth k h1 h2] at hk; simpa [Dict.has] using hk
      · rw [hob, p9]
        split
        · rename_i h; rw [h]; simp [Dict.get?]
        · rfl
    · have := transferEvs_bound H1 H2 f (φ f) ((p12 .none (.inl rfl)).2 hF) (fun k _ _ _ => (p12 (.one k) (.inr ⟨k, rfl⟩)).2 hF) h2
      refine ⟨(H1 (φ f)).evs, by rw [this]; exact (put_id _ _).symm, fun k hk => ?_, fun h => absurd h hF⟩
      rw [p9] at hk
      by_cases h1 : k = .cached
      · subst h1; exact (Dict.has_iff _ _).2 hkc
      · by_cases h2 : k = .observed
        · subst h2; exact (Dict.has_iff _ _).2 hko
        · simp [Dict.has, Dict.get?, Ne.symm h1, Ne.symm h2] at hk
  obtain ⟨evs, rfl, hevk, hevf⟩ := c2
  -- its terminations
  have hf2 : H1.put (φ f) { H1 (φ f) with evs := evs } f = H0 f := by rw [put_ne _ _ hne, hf1]
  rw [hf2] at h3
  have hup1 : UpNew N H1 := by
    intro y p hy hp
    by_cases hyf : y = φ f
    · subst hyf
      rw [p1] at hp
      rcases hP with ⟨rfl, -⟩ | ⟨q, hq, _, rfl, _⟩
      · simp at hp
      · simp only [Option.some.injEq] at hp; subst hp; exact (hC.fresh q hq).1
    · refine hup y p hy ?_
      by_cases hyp : some y = par
      · rw [p10 y hyp.symm] at hp; exact hp
      · rw [p11 y hyf hyp] at hp; exact hp
  have hup2 : UpNew N (H1.put (φ f) { H1 (φ f) with evs := evs }) := by
    intro y p hy hp
    refine hup1 y p hy ?_
    by_cases hyk : y = φ f
    · subst hyk; rw [put_self] at hp; exact hp
    · rw [put_ne _ _ hyk] at hp; exact hp
  have hget : ∀ p ∈ (H0 f).terms, (H0 f).terms.get? p.1 = some p.2 := fun p hp =>
    Dict.get?_eq_some_of_mem _ (hC.termKeys f hf).1 (show (p.1, p.2) ∈ (H0 f).terms from hp)
  obtain ⟨terms, rfl, hterms⟩ := cloneTerms_ok E fuel N f (φ f) hnf hNf _ _ H3 hup2 (hC.termKeys f hf).1
    (fun p hp j hj => hC.target f hf p.1 p.2 j (hget p hp) hj)
    (fun p hp hself => by
      obtain ⟨a, b, c⟩ := hC.self f hf p.1 p.2 (hget p hp) hself
      rw [put_self]; exact ⟨a.trans p2.symm, b, p4.trans c⟩) h3
  rw [put_self] at hterms
  refine ⟨?_, ?_, ?_, ?_, ?_, ?_⟩
  · rw [put_self]
    refine ⟨?_, ?_, ?_, ?_, ?_, fun key => ?_, ?_, ?_, ?_, ?_⟩
    · rw [put_self]; exact p1
    · rw [put_self]; exact p2
    · rw [put_self]; exact p3
    · rw [put_self]; exact p4
    · rw [put_self]; exact p5
    · have := hterms key
      simp only [p8] at this
      simp only
      rw [this]
      cases hk : (H0 f).terms.get? key with
      | none =>
        simp only [Option.map_none]
        obtain ⟨t0, ht0, _⟩ := (hC.termKeys f hf).2
        have : key ≠ none := by rintro rfl; rw [hk] at ht0; cases ht0
        simp [Dict.get?, this.symm]
      | some t =>
        simp only [Option.map_some]
        cases htt : t.target with
        | null =>
          obtain ⟨rfl, h4, h5⟩ := hC.null f hf key t hk htt
          simp only [Term.isNull, htt, if_true, Dict.get?, Option.some.injEq, Term.moved, reduceCtorEq, if_false]
          obtain ⟨tg, tf, td⟩ := t
          simp only at htt h4 h5
          subst htt h4 h5
          rfl
        | process => simp [Term.isNull, htt]
        | frag j => simp [Term.isNull, htt]
    · intro k hk; rw [put_self] at hk; exact hevk k hk
    · intro hF; rw [put_self]; exact (hevf hF).1
    · intro hF; rw [put_self]; exact (hevf hF).2.1
    · intro hF; rw [put_self]; exact (hevf hF).2.2
  · rw [put_self, put_self]; exact p6
  · rw [put_self, put_self]; exact p7
  · intro p hp
    have hpf : p ≠ φ f := by
      rcases hP with ⟨rfl, -⟩ | ⟨q, hq, hfq, rfl, _⟩
      · simp at hp
      · simp only [Option.some.injEq] at hp
        subst hp
        intro h
        have := hC.inj q f hq hf h
        have h2 := ((hC.tree q hq).2 f hfq).2
        rw [this] at h2
        omega
    rw [put_ne _ _ hpf, put_ne _ _ hpf]
    exact p10 p hp
  · intro y h4 h5
    rw [put_ne _ _ h4, put_ne _ _ h4]
    exact p11 y h4 h5
  · intro y p hy hp
    refine hup2 y p hy ?_
    by_cases hyk : y = φ f
    · subst hyk; rw [put_self] at hp; exact hp
    · rw [put_ne _ _ hyk] at hp; exact hp

end Frg
