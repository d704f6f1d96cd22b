import Verif.Props.ForestStep

/-!
C130: `create_forest`.
-/

namespace Fst

open Frg (Dir)

variable {P F : Type} [DecidableEq P] [DecidableEq F]

/-- fragment c is terminated to process t, to a fragment terminated to process t, or to the background fragment of process t -/
def LeadsTo (st : St P F) (c : ℕ) (t : P) : Prop :=
  (st.node c).term = .proc t ∨ (∃ j, (st.node c).term = .sub j ∧ (st.node j).term = .proc t) ∨ (st.node c).term = .bg t

theorem leads_iff (st : St P F) (c : ℕ) (t : P) : leads st c t = true ↔ LeadsTo st c t := by
  unfold leads LeadsTo
  cases hc : (st.node c).term with
  | proc p => simp
  | other => simp
  | bg p => simp
  | sub j =>
    simp only [reduceCtorEq, Tm.sub.injEq, false_or, or_false]
    cases hj : (st.node j).term with
    | proc p =>
      simp only [decide_eq_true_eq]
      constructor
      · rintro rfl; exact ⟨j, rfl, hj⟩
      · rintro ⟨k, rfl, hk⟩; rw [hj] at hk; cases hk; rfl
    | _ =>
      simp only [Bool.false_eq_true, false_iff]
      rintro ⟨k, rfl, hk⟩
      rw [hj] at hk; cases hk

/-- the archive has the fragments `0, …, n-1`, none of them terminated to the given process; `create_forest` makes state st, returns fragment top, and gives up the links px -/
structure Run (deps : P → F → List (Link P F)) (refuse : St P F → ℕ → Bool) (n : ℕ) (node : ℕ → Node P F) (x0 : Link P F) (rest : List (Link P F))
    (st : St P F) (top : ℕ) (px : List (Link P F)) : Prop where
  par : ∀ i q, i < n → (node i).parent = some q → q < n
  sub : ∀ i j, i < n → (node i).term = .sub j → j < n
  fresh : ∀ i, i < n → (node i).term ≠ .proc x0.proc
  run : createForest deps refuse n node x0 rest = some (st, top, px)

variable {deps : P → F → List (Link P F)} {refuse : St P F → ℕ → Bool} {n : ℕ} {node : ℕ → Node P F} {x0 : Link P F} {rest : List (Link P F)}
  {st : St P F} {top : ℕ} {px : List (Link P F)}

/-- the state when the loop over the links begins -/
def startSt (deps : P → F → List (Link P F)) (n : ℕ) (node : ℕ → Node P F) (x0 : Link P F) : St P F :=
  addDeps n (deps x0.proc x0.flow) { ({ n := n, node := node, map := mapOf n node, new := [] } : St P F).add
    { parent := none, flow := x0.flow, dir := x0.dir.comp, ev := x0.value, term := .proc x0.proc } with map := (mapOf n node).set x0.proc n, new := [n] }

theorem Run.mapNone (h : Run deps refuse n node x0 rest st top px) : (mapOf n node).get? x0.proc = none := by
  cases hm : (mapOf n node).get? x0.proc with
  | none => rfl
  | some i =>
    obtain ⟨h1, h2⟩ := (mapOf_ok node n).1 _ _ hm
    exact absurd h2 (h.fresh i h1)

theorem Run.loops (h : Run deps refuse n node x0 rest st top px) :
    top = n ∧ ∃ s p, pass deps refuse rest (startSt deps n node x0) = some (s, p) ∧ retry deps refuse 10 p s = some (st, px) := by
  have hr := h.run
  unfold createForest at hr
  simp only [h.mapNone, newNode] at hr
  obtain ⟨m1, m2, _, _⟩ := addDeps_mapnew n (deps x0.proc x0.flow) (({ n := n, node := node, map := mapOf n node, new := [] } : St P F).add
    { parent := none, flow := x0.flow, dir := x0.dir.comp, ev := x0.value, term := .proc x0.proc })
  rw [m1, m2, addDeps_with] at hr
  change (match pass deps refuse rest (startSt deps n node x0) with
    | none => none
    | some (st2, px) => (match retry deps refuse 10 px st2 with
      | none => none
      | some (st3, px) => some (st3, n, px))) = _ at hr
  cases hp : pass deps refuse rest (startSt deps n node x0) with
  | none => rw [hp] at hr; cases hr
  | some r =>
    obtain ⟨s, p⟩ := r
    rw [hp] at hr
    simp only at hr
    cases hq : retry deps refuse 10 p s with
    | none => rw [hq] at hr; cases hr
    | some r' =>
      obtain ⟨s', p'⟩ := r'
      rw [hq] at hr
      simp only [Option.some.injEq, Prod.mk.injEq] at hr
      obtain ⟨rfl, rfl, rfl⟩ := hr
      exact ⟨rfl, s, p, rfl, hq⟩

theorem Run.start (h : Run deps refuse n node x0 rest st top px) :
    Inv n node rest none (startSt deps n node x0) ∧ DepInv deps (startSt deps n node x0) ∧
    (startSt deps n node x0).map.get? x0.proc = some n ∧
    (startSt deps n node x0).node n = { parent := none, flow := x0.flow, dir := x0.dir.comp, ev := x0.value, term := .proc x0.proc } := by
  have hI := Inv.start (L := rest) n node h.par h.sub { parent := none, flow := x0.flow, dir := x0.dir.comp, ev := x0.value, term := .proc x0.proc } x0.proc rfl rfl h.mapNone
  have hd0 : DepInv deps ({ n := n, node := node, map := mapOf n node, new := [] } : St P F) :=
    ⟨fun i hi => absurd hi List.not_mem_nil, fun c _ q hq => absurd hq List.not_mem_nil⟩
  refine ⟨Inv.addDeps n _ _ hI (by simp), ?_, ?_, ?_⟩
  · exact DepInv.addProc hd0 (fun q hq => absurd hq List.not_mem_nil) (fun c q hc hp => h.par c q hc hp)
      { parent := none, flow := x0.flow, dir := x0.dir.comp, ev := x0.value, term := .proc x0.proc } x0.proc rfl ((mapOf n node).set x0.proc n)
  · unfold startSt
    rw [(addDeps_mapnew ..).1]
    exact Dict.get?_set_self _ _ _
  · unfold startSt
    rw [(addDeps_mapnew ..).2.2.2 n (by show n < n + 1; omega)]
    exact Function.update_self ..

theorem Run.all (h : Run deps refuse n node x0 rest st top px) :
    Inv n node rest none st ∧ DepInv deps st ∧ Grow (startSt deps n node x0) st ∧ px.Sublist rest ∧ ∀ x ∈ rest, x ∈ px ∨ Done st x := by
  obtain ⟨_, s, p, h1, h2⟩ := h.loops
  obtain ⟨hI, hD, _, _⟩ := h.start
  obtain ⟨a1, a2, a3, a4, a5, _⟩ := pass_step refuse rest _ (fun _ h => h) hI hD s p h1
  obtain ⟨b1, b2, b3, b4, b5⟩ := retry_step refuse 10 p s (fun x hx => a4.subset hx) a1 a2 st px h2
  refine ⟨b1, b2, a3.trans b3, b4.trans a4, fun x hx => ?_⟩
  rcases a5 x hx with hh | hh
  · exact b5 x hh
  · exact .inr (hh.grow a1 b3)

/-- **C130** the fragment returned is new, a reference fragment, and stands for the given process -/
theorem forest_top (h : Run deps refuse n node x0 rest st top px) :
    top = n ∧ top < st.n ∧ st.node top = { parent := none, flow := x0.flow, dir := x0.dir.comp, ev := x0.value, term := .proc x0.proc } := by
  obtain ⟨rfl, _⟩ := h.loops
  obtain ⟨hI, _, hG, _⟩ := h.all
  obtain ⟨hI0, _, _, h4⟩ := h.start
  refine ⟨rfl, hI.lt, ?_⟩
  rw [hG.root top hI0.lt (by rw [h4]), h4]

/-- **C130** "every distinct termination matches exactly one foreground node": no process gets two nodes, and none that had one before gets another -/
theorem forest_one_node (h : Run deps refuse n node x0 rest st top px) (i : ℕ) (p : P) (hi : i < st.n) (hn : n ≤ i) (hp : (st.node i).term = .proc p) :
    ∀ j, j < st.n → (st.node j).term = .proc p → j = i := by
  obtain ⟨hI, _⟩ := h.all
  intro j hj hjp
  obtain ⟨_, _, p', k1, k2⟩ := hI.newOk i (hI.newAll i p hn hi hp)
  rw [hp] at k1; cases k1
  by_cases hjn : j < n
  · obtain ⟨m, hm, hmn⟩ := hI.mapAll j p hj hjp
    rw [k2] at hm; cases hm
    have := hmn hjn
    omega
  · obtain ⟨_, _, p', l1, l2⟩ := hI.newOk j (hI.newAll j p (by omega) hj hjp)
    rw [hjp] at l1; cases l1
    rw [k2] at l2; cases l2; rfl

/-- **C130** "any node that has a unique parent will be a child fragment; any node that is multiply invoked will be a subfragment" -/
theorem forest_sub_iff (h : Run deps refuse n node x0 rest st top px) (i : ℕ) (p : P) (hi : i < st.n) (hn : n ≤ i) (hp : (st.node i).term = .proc p) (htop : i ≠ top) :
    ((st.node i).parent ≠ none ∧ ∀ c, c < st.n → (st.node c).term ≠ .sub i) ∨
    ((st.node i).parent = none ∧ ∃ c c', c < st.n ∧ c' < st.n ∧ c ≠ c' ∧ (st.node c).term = .sub i ∧ (st.node c').term = .sub i) := by
  obtain ⟨rfl, _⟩ := h.loops
  obtain ⟨hI, _⟩ := h.all
  have hnew := hI.newAll i p hn hi hp
  obtain ⟨_, _, p', k1, k2⟩ := hI.newOk i hnew
  rw [hp] at k1; cases k1
  by_cases hpar : (st.node i).parent = none
  · obtain ⟨c, a1, a2, a3⟩ := hI.two p i k2 hnew htop hpar
    obtain ⟨c', b1, b2, b3⟩ := a3 (by simp)
    exact .inr ⟨hpar, c, c', a1, b1, Ne.symm b2, a2, b3⟩
  · refine .inl ⟨hpar, fun c hc hs => ?_⟩
    have := hI.one p i k2 hnew hpar c hc (.inr ⟨i, hs, hp⟩)
    subst this
    rw [hp] at hs; cases hs

/-- **C130** a fragment terminated to another one by this call is terminated to a reference fragment that stands for a process -/
theorem forest_sub_ref (h : Run deps refuse n node x0 rest st top px) (i j : ℕ) (hi : i < st.n) (hn : n ≤ i) (hs : (st.node i).term = .sub j) :
    j < st.n ∧ (st.node j).parent = none ∧ ∃ p, (st.node j).term = .proc p := by
  obtain ⟨hI, _⟩ := h.all
  obtain ⟨h1, p, h2⟩ := hI.subOk i j hn hi hs
  exact ⟨(hI.subLt i j hi hs).1, h1, p, (hI.mapOk p j h2).2⟩

/-- **C130** every flow of a new node that leads to a process comes from a link, and shows its value (1 if that is 0); no two have the same flow, direction and process -/
theorem forest_from_links (h : Run deps refuse n node x0 rest st top px) (q c : ℕ) (s t : P) (hq : q < st.n) (hn : n ≤ q) (hs : (st.node q).term = .proc s) (hc : c < st.n)
    (hp : (st.node c).parent = some q) (ht : (st.node c).term = .proc t ∨ ∃ j, (st.node c).term = .sub j ∧ (st.node j).term = .proc t) :
    (∃ x ∈ rest, x.proc = s ∧ x.flow = (st.node c).flow ∧ x.dir = (st.node c).dir ∧ x.term = t ∧
      (if x.value = 0 then 1 else x.value) = if (st.node c).ev = 0 then 1 else (st.node c).ev) ∧
    ∀ c', c' < st.n → (st.node c').parent = some q → ((st.node c').term = .proc t ∨ ∃ j, (st.node c').term = .sub j ∧ (st.node j).term = .proc t) →
      (st.node c').flow = (st.node c).flow → (st.node c').dir = (st.node c).dir → c' = c := by
  obtain ⟨hI, _⟩ := h.all
  have hnew := hI.newAll q s hn hq hs
  refine ⟨?_, fun c' h1 h2 h3 h4 h5 => hI.uniq q c' c t hnew h1 hc h2 hp h4 h5 h3 ht⟩
  obtain ⟨x, hx, h1, h2, h3, h4, h5⟩ := hI.src q c t hnew hc hp ht
  have := (hI.mapOk _ _ h1).2
  rw [hs] at this; cases this
  exact ⟨x, hx, rfl, h2, h3, h4, h5⟩

/-- **C130** the dependencies of its process are flows of every new node, in order, terminated to the background; and it has no other such flows -/
theorem forest_deps (h : Run deps refuse n node x0 rest st top px) (i : ℕ) (p : P) (hi : i < st.n) (hn : n ≤ i) (hp : (st.node i).term = .proc p) :
    (∀ k (hk : k < (deps p (st.node i).flow).length), i + 1 + k < st.n ∧
      st.node (i + 1 + k) = { parent := some i, flow := (deps p (st.node i).flow)[k].flow, dir := (deps p (st.node i).flow)[k].dir, ev := (deps p (st.node i).flow)[k].value, term := .bg (deps p (st.node i).flow)[k].term }) ∧
    ∀ c t, c < st.n → (st.node c).parent = some i → (st.node c).term = .bg t → ∃ k, k < (deps p (st.node i).flow).length ∧ c = i + 1 + k := by
  obtain ⟨hI, hD, _⟩ := h.all
  have hnew := hI.newAll i p hn hi hp
  refine ⟨hD.all i hnew p hp, fun c t hc hpar ht => ?_⟩
  obtain ⟨p', h1, h2⟩ := hD.src c hc i hnew hpar ⟨t, ht⟩
  rw [hp] at h1; cases h1
  exact h2

/-- **C130** the fragments that were there stay as they are, or become reference fragments; a new fragment then takes their place, terminated to them,
and the fragments that were there get no other children -/
theorem forest_old (h : Run deps refuse n node x0 rest st top px) (i : ℕ) (hi : i < n) :
    (st.node i = node i ∨ (node i).parent ≠ none ∧ st.node i = { node i with parent := none, ev := 1 } ∧
      ∃ k, n ≤ k ∧ k < st.n ∧ st.node k = { parent := (node i).parent, flow := (node i).flow, dir := (node i).dir, ev := (if (node i).ev = 0 then 1 else (node i).ev), term := .sub i } ∧
        ∀ k' q, n ≤ k' → k' < st.n → q < n → (st.node k').parent = some q → (st.node k').term = .sub i → k' = k) ∧
    (∀ c, n ≤ c → c < st.n → (st.node c).parent = some i → ∃ k, k < n ∧ (node k).parent = some i ∧ (st.node k).parent = none ∧ (st.node c).term = .sub k) := by
  obtain ⟨hI, _⟩ := h.all
  refine ⟨?_, ?_⟩
  · rcases hI.old i hi with h1 | ⟨h1, h2, k, h3, h4, h5⟩
    · exact .inl h1
    · refine .inr ⟨h1, h2, k, h3, h4, h5, fun k' q a1 a2 a3 a4 a5 => ?_⟩
      obtain ⟨q0, hq0⟩ := Option.ne_none_iff_exists'.1 h1
      exact hI.once k' k i q q0 a1 a2 h3 h4 a3 (h.par i q0 hi hq0) a4 (by rw [h5]; exact hq0) a5 (by rw [h5])
  · intro c h0 hc hp
    rcases hI.kid c i h0 hc hp with hh | ⟨k, h1, h2, h3⟩
    · have := (hI.newOk i hh).1
      omega
    · have ht : (st.node c).term = .sub k := by rw [h3]
      exact ⟨k, h1, h2, (hI.subOk c k h0 hc ht).1, ht⟩

/-- **C130** a link is given up, or its process has a node; if that is new, it has a flow as in the link that leads to the link's partner -/
theorem forest_follows (h : Run deps refuse n node x0 rest st top px) : px.Sublist rest ∧ ∀ x ∈ rest, x ∈ px ∨
    ∃ q, q < st.n ∧ (st.node q).term = .proc x.proc ∧
      (n ≤ q → ∃ c, c < st.n ∧ (st.node c).parent = some q ∧ (st.node c).flow = x.flow ∧ (st.node c).dir = x.dir ∧ LeadsTo st c x.term) := by
  obtain ⟨hI, _, _, h1, h2⟩ := h.all
  refine ⟨h1, fun x hx => ?_⟩
  rcases h2 x hx with hh | ⟨q, a1, a2⟩
  · exact .inl hh
  · obtain ⟨b1, b2⟩ := hI.mapOk _ _ a1
    refine .inr ⟨q, b1, b2, fun hn => ?_⟩
    obtain ⟨c, c1, c2, c3, c4, c5⟩ := a2 (hI.newAll q _ hn b1 b2)
    exact ⟨c, c1, c2, c3, c4, (leads_iff ..).1 c5⟩

/-! ### which links are given up -/

/-- p can be reached from the first process by k links -/
inductive Reach (rest : List (Link P F)) (p0 : P) : ℕ → P → Prop
  | zero : Reach rest p0 0 p0
  | succ (k : ℕ) (x : Link P F) : x ∈ rest → Reach rest p0 k x.proc → Reach rest p0 (k + 1) x.term

/-- no fragment stands yet for a process of the links, and none of these is a dependency -/
structure Clean (deps : P → F → List (Link P F)) (n : ℕ) (node : ℕ → Node P F) (rest : List (Link P F)) : Prop where
  old : ∀ i, i < n → ∀ x ∈ rest, (node i).term ≠ .proc x.proc
  dep : ∀ p f, ∀ d ∈ deps p f, ∀ x ∈ rest, d.term ≠ x.proc

theorem mapped_of_done (hc : Clean deps n node rest) (hI : Inv n node rest none st) (hD : DepInv deps st) (x y : Link P F) (hx : x ∈ rest) (hy : y ∈ rest) (hxy : x.term = y.proc)
    (hd : Done st x) : st.map.get? y.proc ≠ none := by
  obtain ⟨q, h1, h2⟩ := hd
  obtain ⟨h3, h4⟩ := hI.mapOk _ _ h1
  have hqn : n ≤ q := by
    by_contra hlt
    have hlt : q < n := by omega
    refine hc.old q hlt x hx ?_
    rcases hI.old q hlt with hh | ⟨_, hh, _⟩
    · rw [← hh]; exact h4
    · rw [hh] at h4; exact h4
  have hnew := hI.newAll q _ hqn h3 h4
  obtain ⟨c, c1, c2, c3, c4, c5⟩ := h2 hnew
  rw [hxy] at c5
  rcases (leads_iff ..).1 c5 with hh | ⟨j, hj, hh⟩ | hh
  · obtain ⟨j, hj, _⟩ := hI.mapAll c _ c1 hh
    rw [hj]; simp
  · obtain ⟨k, hk, _⟩ := hI.mapAll j _ (hI.subLt c j c1 hj).1 hh
    rw [hk]; simp
  · exfalso
    obtain ⟨p, k1, k, k2, k3⟩ := hD.src c c1 q hnew c2 ⟨_, hh⟩
    have := (hD.all q hnew p k1 k k2).2
    rw [← k3] at this
    rw [this] at hh
    simp only [depNode, Tm.bg.injEq] at hh
    exact hc.dep _ _ _ (List.getElem_mem k2) y hy hh

/-- the links within reach are followed or among those put off -/
structure Near (rest : List (Link P F)) (p0 : P) (d : ℕ) (st : St P F) (xs : List (Link P F)) : Prop where
  all : ∀ x ∈ rest, x ∈ xs ∨ Done st x
  map : ∀ j, j ≤ d → ∀ x ∈ rest, Reach rest p0 j x.proc → st.map.get? x.proc ≠ none

theorem near_pass (hc : Clean deps n node rest) (d : ℕ) (xs : List (Link P F)) (st : St P F) (hL : ∀ x ∈ xs, x ∈ rest) (hI : Inv n node rest none st) (hD : DepInv deps st)
    (p0 : P) (hN : Near rest p0 d st xs) (h0 : st.map.get? p0 ≠ none) (st' : St P F) (px : List (Link P F)) (h : pass deps refuse xs st = some (st', px)) :
    Near rest p0 (d + 1) st' px ∧ ∀ x ∈ px, ∀ j, j ≤ d → ¬Reach rest p0 j x.proc := by
  obtain ⟨a1, a2, a3, a4, a5, a6⟩ := pass_step refuse xs st hL hI hD st' px h
  have hfar : ∀ x ∈ px, ∀ j, j ≤ d → ¬Reach rest p0 j x.proc := fun x hx j hj hr => hN.map j hj x (hL x (a4.subset hx)) hr (a6 x hx)
  have hall : ∀ x ∈ rest, x ∈ px ∨ Done st' x := by
    intro x hx
    rcases hN.all x hx with hh | hh
    · exact a5 x hh
    · exact .inr (hh.grow hI a3)
  refine ⟨⟨hall, ?_⟩, hfar⟩
  intro j hj y hy hr
  generalize hp : y.proc = p at hr
  cases hr with
  | zero =>
    obtain ⟨i, hi⟩ := Option.ne_none_iff_exists'.1 h0
    rw [a3.map _ _ hi]; simp
  | succ k x hx hr =>
    rcases hall x hx with hh | hh
    · exact absurd hr (hfar x hh k (by omega))
    · rw [← hp]
      exact mapped_of_done hc a1 a2 x y hx hy hp.symm hh

theorem near_retry (hc : Clean deps n node rest) (p0 : P) : ∀ (k d : ℕ) (xs : List (Link P F)) (st : St P F), (∀ x ∈ xs, x ∈ rest) → Inv n node rest none st → DepInv deps st →
    Near rest p0 d st xs → st.map.get? p0 ≠ none → (∀ x ∈ xs, ∀ j, j < d → ¬Reach rest p0 j x.proc) → ∀ st' px, retry deps refuse k xs st = some (st', px) →
    ∀ x ∈ px, ∀ j, j < d + k → ¬Reach rest p0 j x.proc := by
  intro k
  induction k with
  | zero =>
    intro d xs st hL hI hD hN h0 hf st' px h
    cases xs with
    | nil =>
      simp only [retry, Option.some.injEq, Prod.mk.injEq] at h
      rw [← h.2]; simp
    | cons x xs =>
      simp only [retry, Option.some.injEq, Prod.mk.injEq] at h
      rw [← h.2]; exact hf
  | succ k ih =>
    intro d xs st hL hI hD hN h0 hf st' px h
    cases xs with
    | nil =>
      simp only [retry, Option.some.injEq, Prod.mk.injEq] at h
      rw [← h.2]; simp
    | cons x xs =>
      rw [retry] at h
      · cases hp : pass deps refuse (x :: xs) st with
        | none => rw [hp] at h; cases h
        | some r =>
          obtain ⟨s1, p1⟩ := r
          rw [hp] at h
          simp only at h
          obtain ⟨a1, a2, a3, a4, _, _⟩ := pass_step refuse (x :: xs) st hL hI hD s1 p1 hp
          obtain ⟨b1, b2⟩ := near_pass hc d (x :: xs) st hL hI hD p0 hN h0 s1 p1 hp
          have := ih (d + 1) p1 s1 (fun y hy => hL y (a4.subset hy)) a1 a2 b1 (by
            obtain ⟨i, hi⟩ := Option.ne_none_iff_exists'.1 h0
            rw [a3.map _ _ hi]; simp) (fun y hy j hj => b2 y hy j (by omega)) st' px h
          intro y hy j hj
          exact this y hy j (by omega)
      · simp

/-- **C130** no link is given up whose process is within ten links of the given process -/
theorem forest_complete (h : Run deps refuse n node x0 rest st top px) (hc : Clean deps n node rest) (x : Link P F) (hx : x ∈ rest) (k : ℕ) (hk : k ≤ 10)
    (hr : Reach rest x0.proc k x.proc) : x ∉ px := by
  intro hpx
  obtain ⟨_, s, p, h1, h2⟩ := h.loops
  obtain ⟨hI, hD, hm, _⟩ := h.start
  obtain ⟨a1, a2, a3, a4, _, _⟩ := pass_step refuse rest _ (fun _ h => h) hI hD s p h1
  have hN : Near rest x0.proc 0 (startSt deps n node x0) rest := by
    refine ⟨fun x hx => .inl hx, fun j hj y hy hr => ?_⟩
    have : j = 0 := by omega
    subst this
    generalize y.proc = p at hr
    cases hr
    rw [hm]; simp
  obtain ⟨b1, b2⟩ := near_pass hc 0 rest _ (fun _ h => h) hI hD x0.proc hN (by rw [hm]; simp) s p h1
  exact near_retry hc x0.proc 10 1 p s (fun x hx => a4.subset hx) a1 a2 b1 (by rw [a3.map _ _ hm]; simp) (fun y hy j hj => b2 y hy j (by omega)) st px h2 x hpx k (by omega) hr

theorem ordered_pass (hc : Clean deps n node rest) (p0 : P) : ∀ (xs ds : List (Link P F)) (st : St P F), rest = ds ++ xs → Inv n node rest none st → DepInv deps st →
    st.map.get? p0 ≠ none → (∀ x ∈ ds, Done st x) → (∀ as x bs, rest = as ++ x :: bs → x.proc = p0 ∨ ∃ y ∈ as, y.term = x.proc) →
    ∀ st' px, pass deps refuse xs st = some (st', px) → px = [] := by
  intro xs
  induction xs with
  | nil =>
    intro ds st _ _ _ _ _ _ st' px h
    simp only [pass, Option.some.injEq, Prod.mk.injEq] at h
    exact h.2.symm
  | cons x xs ih =>
    intro ds st hr hI hD h0 hd ho st' px h
    have hx : x ∈ rest := by rw [hr]; simp
    have hmap : st.map.get? x.proc ≠ none := by
      rcases ho ds x xs hr with hh | ⟨y, hy, hh⟩
      · rw [hh]; exact h0
      · exact mapped_of_done hc hI hD y x (by rw [hr]; simp [hy]) hx hh (hd y hy)
    obtain ⟨par, hpar⟩ := Option.ne_none_iff_exists'.1 hmap
    rw [pass, hpar] at h
    simp only at h
    cases ht : tryExch deps refuse st par x with
    | none => rw [ht] at h; cases h
    | some s1 =>
      rw [ht] at h
      simp only at h
      obtain ⟨b1, b2, b3, b4⟩ := tryExch_step hI hD refuse par x hx hpar s1 ht
      refine ih (ds ++ [x]) s1 (by rw [hr]; simp) b1 b2 ?_ ?_ ho st' px h
      · obtain ⟨i, hi⟩ := Option.ne_none_iff_exists'.1 h0
        rw [b3.map _ _ hi]; simp
      · intro y hy
        rcases List.mem_append.1 hy with hy | hy
        · exact (hd y hy).grow hI b3
        · rw [List.mem_singleton.1 hy]; exact b4

/-- **C130** if the process of every link is the given one or the partner in an earlier link, no link is given up -/
theorem forest_ordered (h : Run deps refuse n node x0 rest st top px) (hc : Clean deps n node rest)
    (ho : ∀ as x bs, rest = as ++ x :: bs → x.proc = x0.proc ∨ ∃ y ∈ as, y.term = x.proc) : px = [] := by
  obtain ⟨_, s, p, h1, h2⟩ := h.loops
  obtain ⟨hI, hD, hm, _⟩ := h.start
  have := ordered_pass hc x0.proc rest [] _ rfl hI hD (by rw [hm]; simp) (by simp) ho s p h1
  subst this
  simp only [retry, Option.some.injEq, Prod.mk.injEq] at h2
  exact h2.2.symm

/-- **C130** (a fault) a link that leads back to the given process makes a flow below the fragment returned that is terminated to that fragment itself: the check
for loops that `terminate` makes is not made here -/
theorem forest_loop (h : Run deps refuse n node x0 rest st top px) (hc : Clean deps n node rest) (hd : ∀ p f, ∀ d ∈ deps p f, d.term ≠ x0.proc)
    (x : Link P F) (hx : x ∈ rest) (hpx : x ∉ px) (hl : x.term = x0.proc) :
    ∃ q c, n ≤ q ∧ q < st.n ∧ (st.node q).term = .proc x.proc ∧ c < st.n ∧ (st.node c).parent = some q ∧ (st.node c).flow = x.flow ∧ (st.node c).term = .sub top := by
  obtain ⟨hI, hD, _⟩ := h.all
  obtain ⟨ht, ht1, ht2⟩ := forest_top h
  rcases (forest_follows h).2 x hx with hh | ⟨q, h1, h2, h3⟩
  · exact absurd hh hpx
  · have hqn : n ≤ q := by
      by_contra hlt
      have hlt : q < n := by omega
      refine hc.old q hlt x hx ?_
      rcases hI.old q hlt with hh | ⟨_, hh, _⟩
      · rw [← hh]; exact h2
      · rw [hh] at h2; exact h2
    obtain ⟨c, c1, c2, c3, _, c5⟩ := h3 hqn
    have htt : (st.node top).term = .proc x0.proc := by rw [ht2]
    have huniq := forest_one_node h top x0.proc ht1 (by omega) htt
    refine ⟨q, c, hqn, h1, h2, c1, c2, c3, ?_⟩
    rw [hl] at c5
    rcases c5 with hh | ⟨j, hj, hh⟩ | hh
    · have := huniq c c1 hh
      rw [this, ht2] at c2; cases c2
    · rw [hj, huniq j (hI.subLt c j c1 hj).1 hh]
    · exfalso
      have hnew := hI.newAll q _ hqn h1 h2
      obtain ⟨p, k1, k, k2, k3⟩ := hD.src c c1 q hnew c2 ⟨_, hh⟩
      have := (hD.all q hnew p k1 k k2).2
      rw [← k3] at this
      rw [this] at hh
      simp only [depNode, Tm.bg.injEq] at hh
      exact hd _ _ _ (List.getElem_mem k2) hh

/-! ### the process has a fragment already -/

/-- **C130** if a fragment stands for the process already, one such fragment is returned, as a reference fragment: it is split if it was a child. The links are
not looked at, and no other fragment changes. -/
theorem forest_exists (i0 : ℕ) (hi0 : i0 < n) (h0 : (node i0).term = .proc x0.proc) (h : createForest deps refuse n node x0 rest = some (st, top, px)) :
    px = [] ∧ top < n ∧ (node top).term = .proc x0.proc ∧ (st.node top).term = .proc x0.proc ∧ (st.node top).parent = none ∧
    (∀ j, j < n → j ≠ top → st.node j = node j) ∧
    ((node top).parent = none ∧ st.n = n ∧ st.node top = node top ∨
      (node top).parent ≠ none ∧ st.n = n + 1 ∧ st.node n = { parent := (node top).parent, flow := (node top).flow, dir := (node top).dir, ev := (if (node top).ev = 0 then 1 else (node top).ev), term := .sub top }) := by
  obtain ⟨m1, m2⟩ := mapOf_ok node n
  obtain ⟨i, hi⟩ := m2 i0 _ hi0 h0
  obtain ⟨hin, hit⟩ := m1 _ _ hi
  unfold createForest at h
  simp only [hi] at h
  split at h
  · rename_i hp
    simp only [Option.some.injEq, Prod.mk.injEq] at h
    obtain ⟨rfl, rfl, rfl⟩ := h
    exact ⟨rfl, hin, hit, hit, hp, fun _ _ _ => rfl, .inl ⟨hp, rfl, rfl⟩⟩
  · rename_i hp
    simp only [Fst.split] at h
    split at h
    · cases h
    · rename_i s hs
      split at hs
      · cases hs
      · cases hs
        simp only [Option.some.injEq, Prod.mk.injEq] at h
        obtain ⟨rfl, rfl, rfl⟩ := h
        refine ⟨rfl, hin, hit, ?_, ?_, ?_, .inr ⟨hp, rfl, ?_⟩⟩
        · simp only [Function.update_self]; exact hit
        · simp only [Function.update_self]
        · intro j hj hne
          simp only [Function.update_of_ne hne]
          exact Function.update_of_ne (Nat.ne_of_lt hj) ..
        · simp only [Function.update_of_ne (Nat.ne_of_gt hin)]
          exact Function.update_self ..

/-! ### examples -/

/-- two old fragments: a reference fragment, and its child, terminated to process 5 -/
def exNode (i : ℕ) : Node ℕ ℕ :=
  if i = 0 then { parent := none, flow := 100, dir := .output, ev := 1, term := .other }
  else { parent := some 0, flow := 105, dir := .input, ev := 7, term := .proc 5 }

/-- process 1 depends on process 9 -/
def exDeps (p : ℕ) (_ : ℕ) : List (Link ℕ ℕ) := if p = 1 then [{ proc := 1, flow := 109, dir := .input, value := 3, term := 9 }] else []

def lk (p t : ℕ) (v : ℚ) : Link ℕ ℕ := { proc := p, flow := 100 + t, dir := .input, value := v, term := t }

/-- 0 uses 1 and 2, both use 3, 3 uses 5; two links come out of order -/
def exRest : List (Link ℕ ℕ) := [lk 0 1 2, lk 3 5 6, lk 1 3 4, lk 2 3 5, lk 0 2 3]

def exX0 : Link ℕ ℕ := { proc := 0, flow := 100, dir := .output, value := 1, term := 0 }

def exRun : Option (St ℕ ℕ × ℕ × List (Link ℕ ℕ)) := createForest exDeps (fun _ _ => false) 2 exNode exX0 exRest

theorem exRun_ok : ∃ st, Run exDeps (fun _ _ => false) 2 exNode exX0 exRest st 2 [] := by
  have h : (exRun.map fun r => (r.2.1, r.2.2.length)) = some (2, 0) := by decide +kernel
  cases hr : exRun with
  | none => rw [hr] at h; cases h
  | some r =>
    obtain ⟨st, top, px⟩ := r
    rw [hr] at h
    simp only [Option.map_some, Option.some.injEq, Prod.mk.injEq, List.length_eq_zero_iff] at h
    obtain ⟨rfl, rfl⟩ := h
    refine ⟨st, ⟨?_, ?_, ?_, hr⟩⟩
    · intro i q hi hp
      have : i = 0 ∨ i = 1 := by omega
      rcases this with rfl | rfl <;> simp [exNode] at hp; omega
    · intro i j hi hp
      have : i = 0 ∨ i = 1 := by omega
      rcases this with rfl | rfl <;> simp [exNode] at hp
    · intro i hi hp
      have : i = 0 ∨ i = 1 := by omega
      rcases this with rfl | rfl <;> simp [exNode, exX0] at hp

/-- the forest: 2 is the fragment returned; 3 is the node of process 1, 4 its dependency; 5 was the node of process 3, and became a reference fragment; 6 took its
place; 1, the old fragment for process 5, is split -/
example : (exRun.map fun r => (List.range r.1.n).map fun i => ((r.1.node i).parent, (r.1.node i).flow, (r.1.node i).ev, (r.1.node i).term)) =
    some [(none, 100, 1, .other), (none, 105, 1, .proc 5), (none, 100, 1, .proc 0), (some 2, 101, 2, .proc 1), (some 3, 109, 3, .bg 9),
      (none, 103, 1, .proc 3), (some 2, 102, 3, .proc 2), (some 0, 105, 7, .sub 1), (some 5, 105, 6, .sub 1), (some 3, 103, 4, .sub 5), (some 6, 103, 5, .sub 5)] := by
  decide +kernel

/-- the hypotheses of `forest_complete` hold of this case: link 3-5 is within three links -/
example : Clean exDeps 2 exNode exRest ∧ Reach exRest 0 2 3 := by
  refine ⟨⟨?_, ?_⟩, ?_⟩
  · intro i hi x hx
    have : i = 0 ∨ i = 1 := by omega
    rcases this with rfl | rfl
    · simp [exNode]
    · simp only [exRest, List.mem_cons, List.not_mem_nil, or_false] at hx
      rcases hx with rfl | rfl | rfl | rfl | rfl <;> simp [exNode, lk]
  · intro p f d hd x hx
    unfold exDeps at hd
    split at hd
    · rw [List.mem_singleton.1 hd]
      simp only [exRest, List.mem_cons, List.not_mem_nil, or_false] at hx
      rcases hx with rfl | rfl | rfl | rfl | rfl <;> simp [lk]
    · cases hd
  · exact .succ 1 (lk 1 3 4) (by simp [exRest]) (.succ 0 (lk 0 1 2) (by simp [exRest]) .zero)

/-- the chain 0 uses 1 uses 2 …, of `m` links -/
def chain (m : ℕ) : List (Link ℕ ℕ) := (List.range m).map fun i => lk i (i + 1) 1

/-- **C130** (a fault) ten passes are not enough for a chain of twelve links that comes in the wrong order: its last link is given up, although its process has a node -/
theorem forest_gives_up : ((createForest (fun _ _ => []) (fun _ _ => false) 0 exNode exX0 (chain 12).reverse).map fun r =>
    (r.2.2.map fun x => (x.proc, x.term), (List.range r.1.n).any fun i => (r.1.node i).term = .proc 11)) = some ([(11, 12)], true) := by decide +kernel

/-- in the right order it is not -/
example : ((createForest (fun _ _ => []) (fun _ _ => false) 0 exNode exX0 (chain 12)).map fun r => r.2.2.map fun x => (x.proc, x.term)) = some [] := by decide +kernel

/-- the hypothesis of `forest_ordered` holds of it -/
example : ∀ as x bs, chain 12 = as ++ x :: bs → x.proc = 0 ∨ ∃ y ∈ as, y.term = x.proc := by
  intro as x bs h
  have hlen : as.length < 12 := by
    have := congrArg List.length h
    simp [chain] at this
    omega
  have hget : ∀ k (hk : k < 12), (chain 12)[k]? = some (lk k (k + 1) 1) := by
    intro k hk
    simp [chain, hk]
  have hx : x = lk as.length (as.length + 1) 1 := by
    have := hget as.length hlen
    rw [h] at this
    simpa using this
  rw [hx]
  by_cases h0 : as.length = 0
  · exact .inl h0
  · refine .inr ⟨lk (as.length - 1) (as.length - 1 + 1) 1, ?_, ?_⟩
    · have := hget (as.length - 1) (by omega)
      rw [h, List.getElem?_append_left (by omega)] at this
      exact List.mem_of_getElem? this
    · show as.length - 1 + 1 = as.length
      omega

/-- a loop of two processes: the flow from 1 back to 0 is terminated to the fragment returned -/
example : ((createForest (fun _ _ => []) (fun _ _ => false) 0 exNode exX0 [lk 0 1 2, lk 1 0 3]).map fun r =>
    (List.range r.1.n).map fun i => ((r.1.node i).parent, (r.1.node i).term)) = some [(none, .proc 0), (some 0, .proc 1), (some 1, .sub 0)] := by decide +kernel

/-- the process has a fragment already, a child: it is split -/
example : ((createForest exDeps (fun _ _ => false) 2 exNode { exX0 with proc := 5 } exRest).map fun r =>
    (r.2.1, (List.range r.1.n).map fun i => ((r.1.node i).parent, (r.1.node i).term))) = some (1, [(none, .other), (none, .proc 5), (some 0, .sub 1)]) := by decide +kernel

end Fst
