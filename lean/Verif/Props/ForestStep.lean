import Verif.Props.ForestInv

/-!
What one step of `create_forest` keeps and adds (for C130).
-/

namespace Fst

open Frg (Dir)

variable {P F : Type} [DecidableEq P] [DecidableEq F]

/-- the child fragment that stands for a dependency -/
def depNode (i : ℕ) (d : Link P F) : Node P F := { parent := some i, flow := d.flow, dir := d.dir, ev := d.value, term := .bg d.term }

/-- the dependencies of the process of each new node are its children: they follow it directly, and it has no others -/
structure DepInv (deps : P → F → List (Link P F)) (st : St P F) : Prop where
  all : ∀ i, i ∈ st.new → ∀ p, (st.node i).term = .proc p → ∀ k (hk : k < (deps p (st.node i).flow).length),
    i + 1 + k < st.n ∧ st.node (i + 1 + k) = depNode i (deps p (st.node i).flow)[k]
  src : ∀ c, c < st.n → ∀ q, q ∈ st.new → (st.node c).parent = some q → (∃ t, (st.node c).term = .bg t) →
    ∃ p, (st.node q).term = .proc p ∧ ∃ k, k < (deps p (st.node q).flow).length ∧ c = q + 1 + k

/-- what a step keeps -/
structure Grow (st st' : St P F) : Prop where
  n : st.n ≤ st'.n
  map : ∀ p i, st.map.get? p = some i → st'.map.get? p = some i
  new : ∀ q, q ∈ st'.new → q < st.n → q ∈ st.new
  kids : ∀ c t q, c < st.n → (st.node c).parent = some q → leads st c t = true →
    ∃ c', c' < st'.n ∧ (st'.node c').parent = some q ∧ (st'.node c').flow = (st.node c).flow ∧ (st'.node c').dir = (st.node c).dir ∧ leads st' c' t = true
  root : ∀ i, i < st.n → (st.node i).parent = none → st'.node i = st.node i

theorem Grow.refl (st : St P F) : Grow st st := ⟨le_refl _, fun _ _ h => h, fun _ h _ => h, fun c _ _ h1 h2 h3 => ⟨c, h1, h2, rfl, rfl, h3⟩, fun _ _ _ => rfl⟩

theorem Grow.trans {a b c : St P F} (h1 : Grow a b) (h2 : Grow b c) : Grow a c := by
  refine ⟨le_trans h1.n h2.n, fun p i h => h2.map p i (h1.map p i h), fun q h hq => h1.new q (h2.new q h (lt_of_lt_of_le hq h1.n)) hq, ?_, ?_⟩
  · intro x t q hx hp hl
    obtain ⟨y, a1, a2, a3, a4, a5⟩ := h1.kids x t q hx hp hl
    obtain ⟨z, b1, b2, b3, b4, b5⟩ := h2.kids y t q a1 a2 a5
    exact ⟨z, b1, b2, by rw [b3, a3], by rw [b4, a4], b5⟩
  · intro i hi hp
    have := h1.root i hi hp
    rw [← this]
    exact h2.root i (lt_of_lt_of_le hi h1.n) (by rw [this]; exact hp)

variable {n0 : ℕ} {node0 : ℕ → Node P F} {L : List (Link P F)} {ex : Option P} {st : St P F} {deps : P → F → List (Link P F)}

theorem Inv.leads_add (h : Inv n0 node0 L ex st) (x : Node P F) (m : Dict P ℕ) (w : List ℕ) {c : ℕ} (hc : c < st.n) (t : P) :
    leads { st.add x with map := m, new := w } c t = leads st c t := by
  unfold leads
  simp only [add_lt st x hc]
  cases hcc : (st.node c).term with
  | sub j => simp only [add_lt st x (h.subLt c j hc hcc).1]
  | _ => rfl

/-- a fragment is added -/
theorem Inv.grow_add (h : Inv n0 node0 L ex st) (x : Node P F) (m : Dict P ℕ) (w : List ℕ)
    (hm : ∀ p i, st.map.get? p = some i → m.get? p = some i) (hw : ∀ q ∈ w, q < st.n → q ∈ st.new) :
    Grow st { st.add x with map := m, new := w } := by
  refine ⟨by show st.n ≤ st.n + 1; omega, hm, hw, ?_, ?_⟩
  · intro c t q hc hp hl
    refine ⟨c, by show c < st.n + 1; omega, ?_, ?_, ?_, by rw [h.leads_add x m w hc]; exact hl⟩
    · show ((st.add x).node c).parent = _; rw [add_lt st x hc]; exact hp
    · show ((st.add x).node c).flow = _; rw [add_lt st x hc]
    · show ((st.add x).node c).dir = _; rw [add_lt st x hc]
  · intro i hi _
    exact add_lt st x hi

theorem Inv.grow_addDeps (q : ℕ) : ∀ (ds : List (Link P F)) (st : St P F), Inv n0 node0 L ex st → q ∈ st.new → Grow st (Fst.addDeps q ds st) := by
  intro ds
  induction ds with
  | nil => intro st _ _; exact Grow.refl st
  | cons d ds ih =>
    intro st h hq
    have h1 := h.addBg q hq d.flow d.dir d.value d.term
    exact (h.grow_add _ st.map st.new (fun _ _ h => h) (fun _ h _ => h)).trans (ih _ h1 hq)

/-- the fragments added for dependencies -/
theorem addDeps_nodes (q : ℕ) : ∀ (ds : List (Link P F)) (st : St P F), (Fst.addDeps q ds st).n = st.n + ds.length ∧
    ∀ k (hk : k < ds.length), (Fst.addDeps q ds st).node (st.n + k) = depNode q ds[k] := by
  intro ds
  induction ds with
  | nil => intro st; exact ⟨rfl, fun k hk => absurd hk (by simp)⟩
  | cons d ds ih =>
    intro st
    obtain ⟨h1, h2⟩ := ih (st.add (depNode q d))
    have he : Fst.addDeps q (d :: ds) st = Fst.addDeps q ds (st.add (depNode q d)) := rfl
    rw [he]
    refine ⟨by rw [h1, add_n, List.length_cons]; omega, fun k hk => ?_⟩
    cases k with
    | zero =>
      have := (addDeps_mapnew q ds (st.add (depNode q d))).2.2.2 st.n (by rw [add_n]; omega)
      rw [Nat.add_zero, this, add_self]; rfl
    | succ k =>
      have := h2 k (by simpa using hk)
      rw [add_n] at this
      rw [show st.n + (k + 1) = st.n + 1 + k by omega, this]; rfl

/-- a fragment that is no dependency is added -/
theorem DepInv.add (h : DepInv deps st) (hl : ∀ q ∈ st.new, q < st.n) (x : Node P F) (hx : ∀ t, x.term ≠ .bg t) : DepInv deps (st.add x) := by
  refine ⟨?_, ?_⟩
  · intro i hi p hp k hk
    have hi' : i ∈ st.new := hi
    simp only [add_lt st x (hl i hi')] at hp hk ⊢
    obtain ⟨h1, h2⟩ := h.all i hi' p hp k hk
    exact ⟨by rw [add_n]; omega, by rw [add_lt st x h1]; exact h2⟩
  · intro c hc q hq hp ht
    have hq' : q ∈ st.new := hq
    rw [add_lt st x (hl q hq')]
    by_cases hcn : c = st.n
    · subst hcn
      rw [add_self] at ht
      obtain ⟨t, ht⟩ := ht
      exact absurd ht (hx t)
    · rw [add_n] at hc
      rw [add_ne st x hcn] at hp ht
      exact h.src c (by omega) q hq' hp ht

/-- the node of a process is added, with its dependencies -/
theorem DepInv.addProc (h : DepInv deps st) (hl : ∀ q ∈ st.new, q < st.n) (hpar : ∀ c q, c < st.n → (st.node c).parent = some q → q < st.n) (x : Node P F) (p : P)
    (hx : x.term = .proc p) (m : Dict P ℕ) :
    DepInv deps (Fst.addDeps st.n (deps p x.flow) { st.add x with map := m, new := st.n :: st.new }) := by
  obtain ⟨g1, g2⟩ := addDeps_nodes st.n (deps p x.flow) { st.add x with map := m, new := st.n :: st.new }
  obtain ⟨_, g3, _, g4⟩ := addDeps_mapnew st.n (deps p x.flow) { st.add x with map := m, new := st.n :: st.new }
  generalize Fst.addDeps st.n (deps p x.flow) { st.add x with map := m, new := st.n :: st.new } = st' at *
  change st'.n = st.n + 1 + _ at g1
  change ∀ k (hk : k < (deps p x.flow).length), st'.node (st.n + 1 + k) = _ at g2
  change st'.new = st.n :: st.new at g3
  change ∀ i, i < st.n + 1 → st'.node i = (st.add x).node i at g4
  have go : ∀ i, i < st.n → st'.node i = st.node i := fun i hi => by rw [g4 i (by omega), add_lt st x hi]
  have gx : st'.node st.n = x := by rw [g4 _ (by omega), add_self]
  refine ⟨?_, ?_⟩
  · intro i hi p' hp k hk
    rw [g3] at hi
    rcases List.mem_cons.1 hi with rfl | hi
    · rw [gx, hx] at hp
      cases hp
      simp only [gx] at hk ⊢
      exact ⟨by omega, g2 k hk⟩
    · have hil := hl i hi
      simp only [go i hil] at hp hk ⊢
      obtain ⟨h1, h2⟩ := h.all i hi p' hp k hk
      exact ⟨by omega, by rw [go _ h1]; exact h2⟩
  · intro c hc q hq hp ht
    rw [g3] at hq
    by_cases hcn : c < st.n
    · rw [go c hcn] at hp ht
      have hqn := hpar c q hcn hp
      rcases List.mem_cons.1 hq with rfl | hq
      · omega
      · rw [go q hqn]
        exact h.src c hcn q hq hp ht
    · by_cases hce : c = st.n
      · subst hce
        rw [gx, hx] at ht
        obtain ⟨t, ht⟩ := ht
        cases ht
      · have hk : c - (st.n + 1) < (deps p x.flow).length := by omega
        have := g2 (c - (st.n + 1)) hk
        rw [show st.n + 1 + (c - (st.n + 1)) = c by omega] at this
        rw [this] at hp
        cases hp
        rw [gx]
        exact ⟨p, hx, c - (st.n + 1), hk, by omega⟩

/-- a node is split -/
theorem DepInv.split (h : DepInv deps st) (hl : ∀ q ∈ st.new, q < st.n) (i : ℕ) (hi : i < st.n) (p0 : P) (hit : (st.node i).term = .proc p0)
    (refuse : St P F → ℕ → Bool) (st' : St P F) (hs : Fst.split refuse st i = some st') : DepInv deps st' := by
  unfold Fst.split at hs
  simp only at hs
  split at hs
  · cases hs
  · cases hs
    generalize hsd : ({ parent := (st.node i).parent, flow := (st.node i).flow, dir := (st.node i).dir, ev := readEv (st.node i).ev, term := .sub i } : Node P F) = sd
    have e1 : sd.term = .sub i := by rw [← hsd]
    have h1 := h.add hl sd (fun t ht => by rw [e1] at ht; cases ht)
    have hii : (st.add sd).node i = st.node i := add_lt st sd hi
    generalize st.add sd = s1 at h1 hii
    generalize hst : ({ s1 with node := Function.update s1.node i { st.node i with parent := none, ev := 1 } } : St P F) = st'
    have k1 : st'.n = s1.n := by rw [← hst]
    have k2 : st'.new = s1.new := by rw [← hst]
    have k3 : st'.node i = { st.node i with parent := none, ev := 1 } := by rw [← hst]; exact Function.update_self ..
    have k4 : ∀ c, c ≠ i → st'.node c = s1.node c := by
      intro c hc; rw [← hst]; exact Function.update_of_ne hc ..
    have ht : ∀ c, (st'.node c).term = (s1.node c).term := by
      intro c
      by_cases hc : c = i
      · rw [hc, k3, hii]
      · rw [k4 c hc]
    have hf : ∀ c, (st'.node c).flow = (s1.node c).flow := by
      intro c
      by_cases hc : c = i
      · rw [hc, k3, hii]
      · rw [k4 c hc]
    have hb : ∀ c t, (s1.node c).term = .bg t → c ≠ i := by
      rintro c t hct rfl
      rw [hii, hit] at hct; cases hct
    refine ⟨?_, ?_⟩
    · intro j hj p hp k hk
      rw [k2] at hj
      rw [ht] at hp
      simp only [hf] at hk ⊢
      obtain ⟨a1, a2⟩ := h1.all j hj p hp k hk
      rw [k1]
      exact ⟨a1, by rw [k4 _ (hb _ _ (by rw [a2]; rfl))]; exact a2⟩
    · intro c hc q hq hp hct
      rw [k1] at hc
      rw [k2] at hq
      rw [ht] at hct
      obtain ⟨t, hct⟩ := hct
      rw [k4 c (hb c t hct)] at hp
      rw [ht, hf]
      exact h1.src c hc q hq hp ⟨t, hct⟩

/-! ### one link -/

theorem dict_set_same {V : Type} : ∀ (d : Dict P V) {k : P} {v : V}, d.get? k = some v → d.set k v = d := by
  intro d
  induction d with
  | nil => intro k v h; cases h
  | cons x xs ih =>
    intro k v h
    obtain ⟨a, b⟩ := x
    simp only [Dict.get?, Dict.set] at h ⊢
    split at h
    · rename_i hh; cases h; subst hh; simp
    · rename_i hh; rw [if_neg hh, ih h]


theorem hasChild_iff (st : St P F) (i : ℕ) (f : F) (d : Dir) (t : P) : hasChild st i f d t = true ↔
    ∃ c, c < st.n ∧ (st.node c).parent = some i ∧ (st.node c).flow = f ∧ (st.node c).dir = d ∧ leads st c t = true := by
  unfold hasChild
  simp only [List.any_eq_true, List.mem_range, Bool.and_eq_true, decide_eq_true_eq]
  constructor
  · rintro ⟨c, h1, ⟨⟨h2, h3⟩, h4⟩, h5⟩; exact ⟨c, h1, h2, h3, h4, h5⟩
  · rintro ⟨c, h1, h2, h3, h4, h5⟩; exact ⟨c, h1, ⟨⟨h2, h3⟩, h4⟩, h5⟩

theorem leads_of_invokes {c : ℕ} {t : P} (h : Invokes st c t) : leads st c t = true := by
  unfold leads
  rcases h with h | ⟨j, h, hj⟩
  · rw [h]; simp
  · rw [h]; simp [hj]

/-- the link has been followed -/
def Done (st : St P F) (x : Link P F) : Prop :=
  ∃ q, st.map.get? x.proc = some q ∧ (q ∈ st.new → ∃ c, c < st.n ∧ (st.node c).parent = some q ∧ (st.node c).flow = x.flow ∧ (st.node c).dir = x.dir ∧ leads st c x.term = true)

theorem Done.grow {st' : St P F} {x : Link P F} (h : Done st x) (hi : Inv n0 node0 L ex st) (g : Grow st st') : Done st' x := by
  obtain ⟨q, h1, h2⟩ := h
  refine ⟨q, g.map _ _ h1, fun hq => ?_⟩
  obtain ⟨c, a1, a2, a3, a4, a5⟩ := h2 (g.new q hq (hi.mapOk _ _ h1).1)
  obtain ⟨c', b1, b2, b3, b4, b5⟩ := g.kids c x.term q a1 a2 a5
  exact ⟨c', b1, b2, by rw [b3, a3], by rw [b4, a4], b5⟩

theorem createChild_step (hI : Inv n0 node0 L none st) (hD : DepInv deps st) (refuse : St P F → ℕ → Bool) (par : ℕ) (hpar : par ∈ st.new) (x : Link P F) (hx : x ∈ L)
    (hxp : st.map.get? x.proc = some par) (hno : hasChild st par x.flow x.dir x.term = false) (st' : St P F) (h : createChild deps refuse st par x = some st') :
    Inv n0 node0 L none st' ∧ DepInv deps st' ∧ Grow st st' ∧ Done st' x := by
  have hl : ∀ q ∈ st.new, q < st.n := fun q hq => (hI.newOk q hq).2.1
  have hno' : ∀ c, c < st.n → (st.node c).parent = some par → (st.node c).flow = x.flow → (st.node c).dir = x.dir → ¬leads st c x.term = true := by
    intro c h1 h2 h3 h4 h5
    have := (hasChild_iff st par x.flow x.dir x.term).2 ⟨c, h1, h2, h3, h4, h5⟩
    rw [hno] at this; cases this
  unfold createChild at h
  cases hm : st.map.get? x.term with
  | some i =>
    rw [hm] at h
    simp only at h
    split at h
    · rename_i hp
      cases h
      have hI' := hI.addSub x.term i hm hp par hpar x hx hxp rfl (fun c h1 h2 h3 h4 h5 => hno' c h1 h2 h3 h4 (leads_of_invokes h5)) (.inl rfl)
      refine ⟨hI', hD.add hl _ (fun t ht => by cases ht), hI.grow_add _ st.map st.new (fun _ _ h => h) (fun _ h _ => h), par, hxp, fun _ => ?_⟩
      refine ⟨st.n, by rw [add_n]; omega, by rw [add_self], by rw [add_self], by rw [add_self], ?_⟩
      refine leads_of_invokes (.inr ⟨i, by rw [add_self], ?_⟩)
      obtain ⟨k1, k2⟩ := hI.mapOk _ _ hm
      rw [add_lt st _ k1]; exact k2
    · rename_i hp
      cases hs : Fst.split refuse st i with
      | none => rw [hs] at h; cases h
      | some s1 =>
        rw [hs] at h
        simp only [Option.some.injEq] at h
        obtain ⟨k1, k2⟩ := hI.mapOk _ _ hm
        obtain ⟨g1, g2, g3, g4, g5, g6, g7⟩ := hI.split x.term i hm hp refuse s1 hs
        have hd1 := hD.split hl i k1 x.term k2 refuse s1 hs
        have hset : s1.map.set x.term i = s1.map := by
          rw [g2]
          exact dict_set_same _ hm
        have hgrow1 : Grow st s1 := by
          refine ⟨g5, fun p j hp => by rw [g2]; exact hp, fun q hq _ => by rw [g3] at hq; exact hq, ?_, ?_⟩
          · intro c t q hc hp' hl'
            obtain ⟨c', b1, b2, b3, b4, b5⟩ := g6 c t hc q _ _ hp' rfl rfl hl'
            exact ⟨c', b1, b2, b3, b4, b5⟩
          · intro j hj hp'
            have hji : j ≠ i := by rintro rfl; exact hp hp'
            unfold Fst.split at hs
            simp only at hs
            split at hs
            · cases hs
            · cases hs
              show Function.update _ i _ j = _
              rw [Function.update_of_ne hji, add_lt st _ hj]
        rw [hset] at h
        change s1.add { parent := some par, flow := x.flow, dir := x.dir, ev := x.value, term := .sub i } = st' at h
        have hm1 : s1.map.get? x.term = some i := by rw [g2]; exact hm
        have hI' := g1.addSub x.term i hm1 g4 par (by rw [g3]; exact hpar) x hx (by rw [g2]; exact hxp) rfl (by
          intro c h1 h2 h3 h4 h5
          obtain ⟨c', b1, b2, b3, b4, b5⟩ := g7 c x.term par h1 h2 (leads_of_invokes h5)
          exact hno' c' b1 b2 (by rw [b3, h3]) (by rw [b4, h4]) b5) (.inr rfl)
        cases h
        have hl1 : ∀ q ∈ s1.new, q < s1.n := fun q hq => (g1.newOk q hq).2.1
        refine ⟨hI', hd1.add hl1 _ (fun t ht => by cases ht), hgrow1.trans (g1.grow_add _ s1.map s1.new (fun _ _ h => h) (fun _ h _ => h)), par, hgrow1.map _ _ hxp, fun _ => ?_⟩
        refine ⟨s1.n, by rw [add_n]; omega, by rw [add_self], by rw [add_self], by rw [add_self], ?_⟩
        refine leads_of_invokes (.inr ⟨i, by rw [add_self], ?_⟩)
        obtain ⟨k1, k2⟩ := g1.mapOk _ _ hm1
        rw [add_lt s1 _ k1]; exact k2
  | none =>
    rw [hm] at h
    simp only [newNode, Option.some.injEq] at h
    obtain ⟨m1, m2, _, _⟩ := addDeps_mapnew st.n (deps x.term x.flow) (st.add { parent := some par, flow := x.flow, dir := x.dir, ev := x.value, term := .proc x.term })
    rw [m1, m2, addDeps_with] at h
    change Fst.addDeps st.n (deps x.term x.flow) { st.add { parent := some par, flow := x.flow, dir := x.dir, ev := x.value, term := .proc x.term } with
      map := st.map.set x.term st.n, new := st.n :: st.new } = st' at h
    subst h
    have hI1 := hI.addProc x.term hm par hpar x hx hxp rfl
    have hget' : ∀ p j, st.map.get? p = some j → (st.map.set x.term st.n).get? p = some j := by
      intro p j hp
      rw [Dict.get?_set_ne _ _ (by rintro rfl; rw [hm] at hp; cases hp)]; exact hp
    have hg1 := hI.grow_add { parent := some par, flow := x.flow, dir := x.dir, ev := x.value, term := .proc x.term } (st.map.set x.term st.n) (st.n :: st.new) hget'
      (by intro q hq hlt
          rcases List.mem_cons.1 hq with rfl | hq
          · exact absurd hlt (lt_irrefl _)
          · exact hq)
    have hnew1 : st.n ∈ (st.n :: st.new) := List.mem_cons_self ..
    have hg2 := Inv.grow_addDeps st.n (deps x.term x.flow) _ hI1 hnew1
    have hdone : Done { st.add { parent := some par, flow := x.flow, dir := x.dir, ev := x.value, term := .proc x.term } with
        map := st.map.set x.term st.n, new := st.n :: st.new } x := by
      refine ⟨par, hget' _ _ hxp, fun _ => ⟨st.n, by show st.n < st.n + 1; omega, ?_, ?_, ?_, ?_⟩⟩
      · show ((st.add _).node st.n).parent = _; rw [add_self]
      · show ((st.add _).node st.n).flow = _; rw [add_self]
      · show ((st.add _).node st.n).dir = _; rw [add_self]
      · refine leads_of_invokes (.inl ?_)
        show ((st.add _).node st.n).term = _; rw [add_self]
    exact ⟨Inv.addDeps st.n _ _ hI1 hnew1, hD.addProc hl (fun c q hc hp => (hI.parLt c q hc hp).1) { parent := some par, flow := x.flow, dir := x.dir, ev := x.value, term := .proc x.term } x.term rfl _, hg1.trans hg2, hdone.grow hI1 hg2⟩

theorem tryExch_step (hI : Inv n0 node0 L none st) (hD : DepInv deps st) (refuse : St P F → ℕ → Bool) (par : ℕ) (x : Link P F) (hx : x ∈ L)
    (hxp : st.map.get? x.proc = some par) (st' : St P F) (h : tryExch deps refuse st par x = some st') :
    Inv n0 node0 L none st' ∧ DepInv deps st' ∧ Grow st st' ∧ Done st' x := by
  unfold tryExch at h
  split at h
  · rename_i hn
    cases h
    exact ⟨hI, hD, Grow.refl _, par, hxp, fun hh => absurd hh hn⟩
  · rename_i hn
    simp only [not_not] at hn
    split at h
    · rename_i hc
      cases h
      exact ⟨hI, hD, Grow.refl _, par, hxp, fun _ => (hasChild_iff ..).1 hc⟩
    · rename_i hc
      exact createChild_step hI hD refuse par hn x hx hxp (by simpa using hc) st' h

/-! ### all links -/

theorem pass_step (refuse : St P F → ℕ → Bool) : ∀ (xs : List (Link P F)) (st : St P F), (∀ x ∈ xs, x ∈ L) → Inv n0 node0 L none st → DepInv deps st →
    ∀ st' px, pass deps refuse xs st = some (st', px) →
      Inv n0 node0 L none st' ∧ DepInv deps st' ∧ Grow st st' ∧ px.Sublist xs ∧ (∀ x ∈ xs, x ∈ px ∨ Done st' x) ∧ (∀ x ∈ px, st.map.get? x.proc = none) := by
  intro xs
  induction xs with
  | nil =>
    intro st _ hI hD st' px h
    simp only [pass, Option.some.injEq, Prod.mk.injEq] at h
    obtain ⟨rfl, rfl⟩ := h
    exact ⟨hI, hD, Grow.refl _, List.Sublist.refl _, by simp, by simp⟩
  | cons x xs ih =>
    intro st hL hI hD st' px h
    rw [pass] at h
    cases hm : st.map.get? x.proc with
    | none =>
      rw [hm] at h
      simp only at h
      cases hp : pass deps refuse xs st with
      | none => rw [hp] at h; cases h
      | some r =>
        obtain ⟨s1, p1⟩ := r
        rw [hp] at h
        simp only [Option.some.injEq, Prod.mk.injEq] at h
        obtain ⟨rfl, rfl⟩ := h
        obtain ⟨a1, a2, a3, a4, a5, a6⟩ := ih st (fun y hy => hL y (by simp [hy])) hI hD s1 p1 hp
        refine ⟨a1, a2, a3, a4.cons_cons _, ?_, ?_⟩
        · intro y hy
          rcases List.mem_cons.1 hy with rfl | hy
          · exact .inl (by simp)
          · rcases a5 y hy with h | h
            · exact .inl (by simp [h])
            · exact .inr h
        · intro y hy
          rcases List.mem_cons.1 hy with rfl | hy
          · exact hm
          · exact a6 y hy
    | some par =>
      rw [hm] at h
      simp only at h
      cases ht : tryExch deps refuse st par x with
      | none => rw [ht] at h; cases h
      | some s1 =>
        rw [ht] at h
        simp only at h
        obtain ⟨b1, b2, b3, b4⟩ := tryExch_step hI hD refuse par x (hL x (by simp)) hm s1 ht
        obtain ⟨a1, a2, a3, a4, a5, a6⟩ := ih s1 (fun y hy => hL y (by simp [hy])) b1 b2 st' px h
        refine ⟨a1, a2, b3.trans a3, a4.cons _, ?_, ?_⟩
        · intro y hy
          rcases List.mem_cons.1 hy with rfl | hy
          · exact .inr (b4.grow b1 a3)
          · exact a5 y hy
        · intro y hy
          cases hy' : st.map.get? y.proc with
          | none => rfl
          | some j =>
            have := a6 y hy
            rw [b3.map _ _ hy'] at this; cases this

theorem retry_step (refuse : St P F → ℕ → Bool) : ∀ (k : ℕ) (xs : List (Link P F)) (st : St P F), (∀ x ∈ xs, x ∈ L) → Inv n0 node0 L none st → DepInv deps st →
    ∀ st' px, retry deps refuse k xs st = some (st', px) →
      Inv n0 node0 L none st' ∧ DepInv deps st' ∧ Grow st st' ∧ px.Sublist xs ∧ (∀ x ∈ xs, x ∈ px ∨ Done st' x) := by
  intro k
  induction k with
  | zero =>
    intro xs st hL hI hD st' px h
    cases xs with
    | nil =>
      simp only [retry, Option.some.injEq, Prod.mk.injEq] at h
      obtain ⟨rfl, rfl⟩ := h
      exact ⟨hI, hD, Grow.refl _, List.Sublist.refl _, by simp⟩
    | cons x xs =>
      simp only [retry, Option.some.injEq, Prod.mk.injEq] at h
      obtain ⟨rfl, rfl⟩ := h
      exact ⟨hI, hD, Grow.refl _, List.Sublist.refl _, fun y hy => .inl hy⟩
  | succ k ih =>
    intro xs st hL hI hD st' px h
    cases xs with
    | nil =>
      simp only [retry, Option.some.injEq, Prod.mk.injEq] at h
      obtain ⟨rfl, rfl⟩ := h
      exact ⟨hI, hD, Grow.refl _, List.Sublist.refl _, by simp⟩
    | cons x xs =>
      rw [retry] at h
      · cases hp : pass deps refuse (x :: xs) st with
        | none => rw [hp] at h; cases h
        | some r =>
          obtain ⟨s1, p1⟩ := r
          rw [hp] at h
          simp only at h
          obtain ⟨a1, a2, a3, a4, a5, _⟩ := pass_step refuse (x :: xs) st hL hI hD s1 p1 hp
          obtain ⟨b1, b2, b3, b4, b5⟩ := ih p1 s1 (fun y hy => hL y (a4.subset hy)) a1 a2 st' px h
          refine ⟨b1, b2, a3.trans b3, b4.trans a4, fun y hy => ?_⟩
          rcases a5 y hy with h | h
          · exact b5 y h
          · exact .inr (h.grow a1 b3)
      · simp

/-! ### the beginning -/

theorem mapOf_succ (n : ℕ) (node : ℕ → Node P F) : mapOf (n + 1) node = (match (node n).term with
    | .proc p => (mapOf n node).set p n
    | _ => mapOf n node) := by
  unfold mapOf
  rw [List.range_succ, List.foldl_append]
  rfl

theorem mapOf_ok (node : ℕ → Node P F) : ∀ n, (∀ p i, (mapOf n node).get? p = some i → i < n ∧ (node i).term = .proc p) ∧
    (∀ i p, i < n → (node i).term = .proc p → ∃ j, (mapOf n node).get? p = some j) := by
  intro n
  induction n with
  | zero =>
    refine ⟨fun p i h => ?_, fun i p h => by omega⟩
    simp [mapOf, Dict.get?] at h
  | succ n ih =>
    rw [mapOf_succ]
    obtain ⟨h1, h2⟩ := ih
    cases ht : (node n).term with
    | proc p0 =>
      simp only
      refine ⟨fun p i h => ?_, fun i p hi hp => ?_⟩
      · by_cases hpp : p0 = p
        · subst hpp; rw [Dict.get?_set_self] at h; cases h; exact ⟨by omega, ht⟩
        · rw [Dict.get?_set_ne _ _ hpp] at h
          obtain ⟨a, b⟩ := h1 p i h
          exact ⟨by omega, b⟩
      · by_cases hpp : p0 = p
        · subst hpp; exact ⟨n, Dict.get?_set_self _ _ _⟩
        · rw [Dict.get?_set_ne _ _ hpp]
          refine h2 i p ?_ hp
          rcases Nat.lt_succ_iff_lt_or_eq.1 hi with h | rfl
          · exact h
          · rw [ht] at hp; cases hp; exact absurd rfl hpp
    | sub j =>
      refine ⟨fun p i h => ⟨by have := (h1 p i h).1; omega, (h1 p i h).2⟩, fun i p hi hp => h2 i p ?_ hp⟩
      rcases Nat.lt_succ_iff_lt_or_eq.1 hi with h | rfl
      · exact h
      · rw [ht] at hp; cases hp
    | bg j =>
      refine ⟨fun p i h => ⟨by have := (h1 p i h).1; omega, (h1 p i h).2⟩, fun i p hi hp => h2 i p ?_ hp⟩
      rcases Nat.lt_succ_iff_lt_or_eq.1 hi with h | rfl
      · exact h
      · rw [ht] at hp; cases hp
    | other =>
      refine ⟨fun p i h => ⟨by have := (h1 p i h).1; omega, (h1 p i h).2⟩, fun i p hi hp => h2 i p ?_ hp⟩
      rcases Nat.lt_succ_iff_lt_or_eq.1 hi with h | rfl
      · exact h
      · rw [ht] at hp; cases hp

/-- the state after the first node, without its dependencies -/
theorem Inv.start (n : ℕ) (node : ℕ → Node P F) (hpar : ∀ i q, i < n → (node i).parent = some q → q < n) (hsub : ∀ i j, i < n → (node i).term = .sub j → j < n)
    (nd : Node P F) (p : P) (h1 : nd.parent = none) (h2 : nd.term = .proc p) (h0 : (mapOf n node).get? p = none) :
    Inv n node L none { ({ n := n, node := node, map := mapOf n node, new := [] } : St P F).add nd with map := (mapOf n node).set p n, new := [n] } := by
  obtain ⟨m1, m2⟩ := mapOf_ok node n
  have es : ∀ {i}, i = n → (({ n := n, node := node, map := mapOf n node, new := [] } : St P F).add nd).node i = nd := by
    rintro i rfl; exact Function.update_self ..
  have eo : ∀ {i}, i < n → (({ n := n, node := node, map := mapOf n node, new := [] } : St P F).add nd).node i = node i := by
    intro i hi; exact Function.update_of_ne (Nat.ne_of_lt hi) ..
  generalize hs : ({ ({ n := n, node := node, map := mapOf n node, new := [] } : St P F).add nd with map := (mapOf n node).set p n, new := [n] } : St P F) = s
  have ks : ∀ {i}, i = n → s.node i = nd := by intro i hi; rw [← hs]; exact es hi
  have ko : ∀ {i}, i < n → s.node i = node i := by intro i hi; rw [← hs]; exact eo hi
  have kn : s.n = n + 1 := by rw [← hs]; rfl
  have km : s.map = (mapOf n node).set p n := by rw [← hs]
  have kw : s.new = [n] := by rw [← hs]
  clear hs es eo
  have hcase : ∀ {i}, i < s.n → i = n ∨ i < n := by intro i hi; omega
  have hget : ∀ p' i, s.map.get? p' = some i → p' = p ∧ i = n ∨ p' ≠ p ∧ (mapOf n node).get? p' = some i := by
    intro p' i h
    rw [km] at h
    by_cases hpp : p = p'
    · subst hpp; rw [Dict.get?_set_self] at h; cases h; exact .inl ⟨rfl, rfl⟩
    · rw [Dict.get?_set_ne _ _ hpp] at h; exact .inr ⟨Ne.symm hpp, h⟩
  have hnew : ∀ {i}, i ∈ s.new → i = n := by intro i hi; rw [kw] at hi; simpa using hi
  refine ⟨by omega, by rw [ks rfl]; exact h1, by rw [kw]; simp, ?_, ?_, ?_, ?_, ?_, ?_, ?_, ?_, ?_, ?_, ?_, ?_, ?_, ?_⟩
  · intro p' i h
    rcases hget p' i h with ⟨rfl, rfl⟩ | ⟨_, h⟩
    · exact ⟨by omega, by rw [ks rfl]; exact h2⟩
    · obtain ⟨a, b⟩ := m1 p' i h
      exact ⟨by omega, by rw [ko a]; exact b⟩
  · intro i p' hi hp
    rcases hcase hi with rfl | hi
    · rw [ks rfl, h2] at hp; cases hp
      exact ⟨i, by rw [km, Dict.get?_set_self], fun h => h⟩
    · rw [ko hi] at hp
      obtain ⟨j, hj⟩ := m2 i p' hi hp
      refine ⟨j, ?_, fun _ => (m1 _ _ hj).1⟩
      rw [km, Dict.get?_set_ne _ _ (by rintro rfl; rw [h0] at hj; cases hj)]; exact hj
  · intro i hi
    have := hnew hi
    subst this
    exact ⟨le_refl _, by omega, p, by rw [ks rfl]; exact h2, by rw [km, Dict.get?_set_self]⟩
  · intro i p' ha hb _
    rw [kw]
    have : i = n := by omega
    simp [this]
  · intro i j hi hp
    rcases hcase hi with rfl | hi
    · rw [ks rfl, h2] at hp; cases hp
    · rw [ko hi] at hp
      have := hsub i j hi hp
      exact ⟨by omega, fun _ => this⟩
  · intro i j hi hp
    rcases hcase hi with rfl | hi
    · rw [ks rfl, h1] at hp; cases hp
    · rw [ko hi] at hp
      have := hpar i j hi hp
      exact ⟨by omega, fun _ => this⟩
  · intro i j ha hb hp
    have : i = n := by omega
    rw [ks this, h2] at hp; cases hp
  · intro q c c' t hq hc hc' hp hp' hf hd hi hi'
    have := hnew hq
    subst this
    rcases hcase hc with rfl | hc
    · rw [ks rfl, h1] at hp; cases hp
    · rw [ko hc] at hp
      exact absurd (hpar c q hc hp) (lt_irrefl _)
  · intro q c t hq hc hp hi
    have := hnew hq
    subst this
    rcases hcase hc with rfl | hc
    · rw [ks rfl, h1] at hp; cases hp
    · rw [ko hc] at hp
      exact absurd (hpar c q hc hp) (lt_irrefl _)
  · intro t i hm hi hp
    rw [ks (hnew hi)] at hp
    exact absurd h1 hp
  · intro t i hm hi hne
    exact absurd (hnew hi) hne
  · intro i hi
    exact .inl (ko hi)
  · intro c q h0 hc hp
    rw [ks (by omega), h1] at hp; cases hp
  · intro c c' k q q' h0 hc h0' hc' _ _ hp
    rw [ks (by omega), h1] at hp; cases hp

end Fst
