import Verif.Model.Forest

/-!
The invariant of `create_forest` (for C130).
-/

namespace Fst

open Frg (Dir)

variable {P F : Type} [DecidableEq P] [DecidableEq F]

/-- fragment c is terminated to process t, or to a fragment terminated to process t -/
def Invokes (st : St P F) (c : ℕ) (t : P) : Prop :=
  (st.node c).term = .proc t ∨ ∃ j, (st.node c).term = .sub j ∧ (st.node j).term = .proc t

/-- an old fragment is as before, or has been split: then a new fragment has taken its place -/
def KeptOrSplit (node0 : ℕ → Node P F) (n0 : ℕ) (st : St P F) (i : ℕ) : Prop :=
  st.node i = node0 i ∨
    (node0 i).parent ≠ none ∧ st.node i = { node0 i with parent := none, ev := 1 } ∧
      ∃ k, n0 ≤ k ∧ k < st.n ∧ st.node k = { parent := (node0 i).parent, flow := (node0 i).flow, dir := (node0 i).dir, ev := readEv (node0 i).ev, term := .sub i }

structure Inv (n0 : ℕ) (node0 : ℕ → Node P F) (L : List (Link P F)) (ex : Option P) (st : St P F) : Prop where
  lt : n0 < st.n
  top : (st.node n0).parent = none
  topNew : n0 ∈ st.new
  mapOk : ∀ p i, st.map.get? p = some i → i < st.n ∧ (st.node i).term = .proc p
  mapAll : ∀ i p, i < st.n → (st.node i).term = .proc p → ∃ j, st.map.get? p = some j ∧ (i < n0 → j < n0)
  newOk : ∀ i, i ∈ st.new → n0 ≤ i ∧ i < st.n ∧ ∃ p, (st.node i).term = .proc p ∧ st.map.get? p = some i
  newAll : ∀ i p, n0 ≤ i → i < st.n → (st.node i).term = .proc p → i ∈ st.new
  subLt : ∀ i j, i < st.n → (st.node i).term = .sub j → j < st.n ∧ (i < n0 → j < n0)
  parLt : ∀ i q, i < st.n → (st.node i).parent = some q → q < st.n ∧ (i < n0 → q < n0)
  subOk : ∀ i j, n0 ≤ i → i < st.n → (st.node i).term = .sub j → (st.node j).parent = none ∧ ∃ p, st.map.get? p = some j
  uniq : ∀ q c c' t, q ∈ st.new → c < st.n → c' < st.n → (st.node c).parent = some q → (st.node c').parent = some q →
    (st.node c).flow = (st.node c').flow → (st.node c).dir = (st.node c').dir → Invokes st c t → Invokes st c' t → c = c'
  src : ∀ q c t, q ∈ st.new → c < st.n → (st.node c).parent = some q → Invokes st c t →
    ∃ x ∈ L, st.map.get? x.proc = some q ∧ x.flow = (st.node c).flow ∧ x.dir = (st.node c).dir ∧ x.term = t ∧ readEv x.value = readEv (st.node c).ev
  one : ∀ t i, st.map.get? t = some i → i ∈ st.new → (st.node i).parent ≠ none → ∀ c, c < st.n → Invokes st c t → c = i
  two : ∀ t i, st.map.get? t = some i → i ∈ st.new → i ≠ n0 → (st.node i).parent = none →
    ∃ c, c < st.n ∧ (st.node c).term = .sub i ∧ (some t ≠ ex → ∃ c', c' < st.n ∧ c' ≠ c ∧ (st.node c').term = .sub i)
  old : ∀ i, i < n0 → KeptOrSplit node0 n0 st i
  kid : ∀ c q, n0 ≤ c → c < st.n → (st.node c).parent = some q → q ∈ st.new ∨ ∃ k, k < n0 ∧ (node0 k).parent = some q ∧
    st.node c = { parent := some q, flow := (node0 k).flow, dir := (node0 k).dir, ev := readEv (node0 k).ev, term := .sub k }
  once : ∀ c c' k q q', n0 ≤ c → c < st.n → n0 ≤ c' → c' < st.n → q < n0 → q' < n0 → (st.node c).parent = some q → (st.node c').parent = some q' →
    (st.node c).term = .sub k → (st.node c').term = .sub k → c = c'

/-! ### adding a fragment -/

theorem add_n (st : St P F) (x : Node P F) : (st.add x).n = st.n + 1 := rfl
theorem add_map (st : St P F) (x : Node P F) : (st.add x).map = st.map := rfl
theorem add_new (st : St P F) (x : Node P F) : (st.add x).new = st.new := rfl
theorem add_self (st : St P F) (x : Node P F) : (st.add x).node st.n = x := Function.update_self ..
theorem add_ne (st : St P F) (x : Node P F) {i : ℕ} (h : i ≠ st.n) : (st.add x).node i = st.node i := Function.update_of_ne h ..
theorem add_lt (st : St P F) (x : Node P F) {i : ℕ} (h : i < st.n) : (st.add x).node i = st.node i := add_ne st x (by omega)

variable {n0 : ℕ} {node0 : ℕ → Node P F} {L : List (Link P F)} {ex : Option P} {st : St P F}

theorem Inv.invokes_add (h : Inv n0 node0 L ex st) (x : Node P F) {c : ℕ} (hc : c < st.n) (t : P) : Invokes (st.add x) c t ↔ Invokes st c t := by
  unfold Invokes
  rw [add_lt st x hc]
  refine or_congr Iff.rfl (exists_congr fun j => and_congr_right fun hj => ?_)
  rw [add_lt st x (h.subLt c j hc hj).1]

theorem KeptOrSplit.add {i : ℕ} (h : KeptOrSplit node0 n0 st i) (hi : i < n0) (hn : n0 < st.n) (x : Node P F) : KeptOrSplit node0 n0 (st.add x) i := by
  unfold KeptOrSplit at h ⊢
  rw [add_lt st x (by omega)]
  rcases h with h | ⟨h1, h2, k, h3, h4, h5⟩
  · exact .inl h
  · exact .inr ⟨h1, h2, k, h3, by rw [add_n]; omega, by rw [add_lt st x h4]; exact h5⟩

/-- a dependency is added -/
theorem Inv.addBg (h : Inv n0 node0 L ex st) (q : ℕ) (hq : q ∈ st.new) (f : F) (d : Dir) (v : ℚ) (p : P) :
    Inv n0 node0 L ex (st.add { parent := some q, flow := f, dir := d, ev := v, term := .bg p }) := by
  have hno : ∀ t, ¬Invokes (st.add { parent := some q, flow := f, dir := d, ev := v, term := .bg p }) st.n t := by
    intro t ht
    unfold Invokes at ht
    rw [add_self] at ht
    rcases ht with ht | ⟨j, ht, _⟩ <;> cases ht
  generalize hx : ({ parent := some q, flow := f, dir := d, ev := v, term := .bg p } : Node P F) = x at *
  have hxt : x.term = .bg p := by rw [← hx]
  have hxp : x.parent = some q := by rw [← hx]
  have hI : ∀ {c t}, c < (st.add x).n → Invokes (st.add x) c t → c < st.n ∧ Invokes st c t := by
    intro c t hc hi
    have hne : c ≠ st.n := by rintro rfl; exact hno t hi
    have hc' : c < st.n := by rw [add_n] at hc; omega
    exact ⟨hc', (h.invokes_add x hc' t).1 hi⟩
  have hcase : ∀ {i}, i < (st.add x).n → i = st.n ∨ i < st.n := by intro i hi; rw [add_n] at hi; omega
  refine ⟨?_, ?_, h.topNew, ?_, ?_, ?_, ?_, ?_, ?_, ?_, ?_, ?_, ?_, ?_, ?_, ?_, ?_⟩
  · rw [add_n]; have := h.lt; omega
  · rw [add_lt st x h.lt]; exact h.top
  · intro p i hp
    obtain ⟨h1, h2⟩ := h.mapOk p i hp
    rw [add_lt st x h1, add_n]
    exact ⟨by omega, h2⟩
  · intro i p' hi hp
    rcases hcase hi with rfl | hi
    · rw [add_self, hxt] at hp; cases hp
    · rw [add_lt st x hi] at hp; exact h.mapAll i p' hi hp
  · intro i hi
    obtain ⟨h1, h2, h3⟩ := h.newOk i hi
    rw [add_lt st x h2, add_n]
    exact ⟨h1, by omega, h3⟩
  · intro i p' h1 hi hp
    rcases hcase hi with rfl | hi
    · rw [add_self, hxt] at hp; cases hp
    · rw [add_lt st x hi] at hp; exact h.newAll i p' h1 hi hp
  · intro i j hi hp
    rcases hcase hi with rfl | hi
    · rw [add_self, hxt] at hp; cases hp
    · rw [add_lt st x hi] at hp
      obtain ⟨h1, h2⟩ := h.subLt i j hi hp
      exact ⟨by rw [add_n]; omega, h2⟩
  · intro i j hi hp
    rcases hcase hi with rfl | hi
    · rw [add_self, hxp] at hp
      cases hp
      have := (h.newOk q hq).2.1
      exact ⟨by rw [add_n]; omega, fun hh => absurd h.lt (by omega)⟩
    · rw [add_lt st x hi] at hp
      obtain ⟨h1, h2⟩ := h.parLt i j hi hp
      exact ⟨by rw [add_n]; omega, h2⟩
  · intro i j h0 hi hp
    rcases hcase hi with rfl | hi
    · rw [add_self, hxt] at hp; cases hp
    · rw [add_lt st x hi] at hp
      rw [add_lt st x (h.subLt i j hi hp).1]
      exact h.subOk i j h0 hi hp
  · intro q' c c' t hq' hc hc' hp hp' hf hd hi hi'
    obtain ⟨hc, hi⟩ := hI hc hi
    obtain ⟨hc', hi'⟩ := hI hc' hi'
    rw [add_lt st x hc] at hp hf hd
    rw [add_lt st x hc'] at hp' hf hd
    exact h.uniq q' c c' t hq' hc hc' hp hp' hf hd hi hi'
  · intro q' c t hq' hc hp hi
    obtain ⟨hc, hi⟩ := hI hc hi
    rw [add_lt st x hc] at hp ⊢
    exact h.src q' c t hq' hc hp hi
  · intro t i hm hi hp c hc hinv
    obtain ⟨hc, hinv⟩ := hI hc hinv
    rw [add_lt st x (h.mapOk t i hm).1] at hp
    exact h.one t i hm hi hp c hc hinv
  · intro t i hm hi hne hp
    rw [add_lt st x (h.mapOk t i hm).1] at hp
    obtain ⟨c, h1, h2, h3⟩ := h.two t i hm hi hne hp
    refine ⟨c, by rw [add_n]; omega, by rw [add_lt st x h1]; exact h2, fun he => ?_⟩
    obtain ⟨c', h4, h5, h6⟩ := h3 he
    exact ⟨c', by rw [add_n]; omega, h5, by rw [add_lt st x h4]; exact h6⟩
  · intro i hi
    exact (h.old i hi).add hi h.lt x
  · intro c q' h0 hc hp
    rcases hcase hc with rfl | hc
    · rw [add_self, hxp] at hp; cases hp; exact .inl hq
    · rw [add_lt st x hc] at hp ⊢
      exact h.kid c q' h0 hc hp
  · intro c c' k q1 q2 h0 hc h0' hc' hq1 hq2 hp hp' ht ht'
    rcases hcase hc with rfl | hc
    · rw [add_self, hxt] at ht; cases ht
    · rcases hcase hc' with rfl | hc'
      · rw [add_self, hxt] at ht'; cases ht'
      · rw [add_lt st x hc] at hp ht
        rw [add_lt st x hc'] at hp' ht'
        exact h.once c c' k q1 q2 h0 hc h0' hc' hq1 hq2 hp hp' ht ht'

theorem Inv.addDeps (q : ℕ) : ∀ (ds : List (Link P F)) (st : St P F), Inv n0 node0 L ex st → q ∈ st.new → Inv n0 node0 L ex (addDeps q ds st) := by
  intro ds
  induction ds with
  | nil => intro st h _; exact h
  | cons d ds ih => intro st h hq; exact ih _ (h.addBg q hq _ _ _ _) hq

theorem addDeps_with (q : ℕ) (m : Dict P ℕ) (w : List ℕ) : ∀ (ds : List (Link P F)) (st : St P F),
    { addDeps q ds st with map := m, new := w } = addDeps q ds { st with map := m, new := w } := by
  intro ds
  induction ds with
  | nil => intro st; rfl
  | cons d ds ih => intro st; rw [Fst.addDeps, Fst.addDeps, ih]; rfl

theorem addDeps_mapnew (q : ℕ) : ∀ (ds : List (Link P F)) (st : St P F), (Fst.addDeps q ds st).map = st.map ∧ (Fst.addDeps q ds st).new = st.new ∧
    st.n ≤ (Fst.addDeps q ds st).n ∧ ∀ i, i < st.n → (Fst.addDeps q ds st).node i = st.node i := by
  intro ds
  induction ds with
  | nil => intro st; exact ⟨rfl, rfl, le_refl _, fun _ _ => rfl⟩
  | cons d ds ih =>
    intro st
    obtain ⟨h1, h2, h3, h4⟩ := ih (st.add { parent := some q, flow := d.flow, dir := d.dir, ev := d.value, term := .bg d.term })
    rw [Fst.addDeps]
    refine ⟨h1, h2, ?_, fun i hi => ?_⟩
    · rw [add_n] at h3; omega
    · rw [h4 i (by rw [add_n]; omega), add_lt st _ hi]

/-- a flow terminated to a reference fragment is added -/
theorem Inv.addSub (h : Inv n0 node0 L ex st) (t : P) (i : ℕ) (hm : st.map.get? t = some i) (hpi : (st.node i).parent = none) (par : ℕ)
    (hpar : par ∈ st.new) (x : Link P F) (hx : x ∈ L) (hxp : st.map.get? x.proc = some par) (hxt : x.term = t)
    (hno : ∀ c, c < st.n → (st.node c).parent = some par → (st.node c).flow = x.flow → (st.node c).dir = x.dir → ¬Invokes st c t)
    (hex : ex = none ∨ ex = some t) :
    Inv n0 node0 L none (st.add { parent := some par, flow := x.flow, dir := x.dir, ev := x.value, term := .sub i }) := by
  have hmi := h.mapOk t i hm
  have hself : ∀ t', Invokes (st.add { parent := some par, flow := x.flow, dir := x.dir, ev := x.value, term := .sub i }) st.n t' ↔ t' = t := by
    intro t'
    unfold Invokes
    rw [add_self]
    simp only [reduceCtorEq, false_or, Tm.sub.injEq]
    constructor
    · rintro ⟨j, rfl, hj⟩
      rw [add_lt st _ hmi.1, hmi.2] at hj
      cases hj; rfl
    · rintro rfl
      exact ⟨i, rfl, by rw [add_lt st _ hmi.1]; exact hmi.2⟩
  generalize hnd : ({ parent := some par, flow := x.flow, dir := x.dir, ev := x.value, term := .sub i } : Node P F) = nd at *
  have e1 : nd.term = .sub i := by rw [← hnd]
  have e2 : nd.parent = some par := by rw [← hnd]
  have e3 : nd.flow = x.flow := by rw [← hnd]
  have e4 : nd.dir = x.dir := by rw [← hnd]
  have e5 : nd.ev = x.value := by rw [← hnd]
  have hcase : ∀ {c}, c < (st.add nd).n → c = st.n ∨ c < st.n := by intro c hc; rw [add_n] at hc; omega
  refine ⟨?_, ?_, h.topNew, ?_, ?_, ?_, ?_, ?_, ?_, ?_, ?_, ?_, ?_, ?_, ?_, ?_, ?_⟩
  · rw [add_n]; have := h.lt; omega
  · rw [add_lt st nd h.lt]; exact h.top
  · intro p j hp
    obtain ⟨h1, h2⟩ := h.mapOk p j hp
    rw [add_lt st nd h1, add_n]
    exact ⟨by omega, h2⟩
  · intro j p' hi hp
    rcases hcase hi with rfl | hi
    · rw [add_self, e1] at hp; cases hp
    · rw [add_lt st nd hi] at hp; exact h.mapAll j p' hi hp
  · intro j hi
    obtain ⟨h1, h2, h3⟩ := h.newOk j hi
    rw [add_lt st nd h2, add_n]
    exact ⟨h1, by omega, h3⟩
  · intro j p' h1 hi hp
    rcases hcase hi with rfl | hi
    · rw [add_self, e1] at hp; cases hp
    · rw [add_lt st nd hi] at hp; exact h.newAll j p' h1 hi hp
  · intro j k hi hp
    rcases hcase hi with rfl | hi
    · rw [add_self, e1] at hp
      cases hp
      exact ⟨by rw [add_n]; omega, fun hh => absurd h.lt (by omega)⟩
    · rw [add_lt st nd hi] at hp
      obtain ⟨h1, h2⟩ := h.subLt j k hi hp
      exact ⟨by rw [add_n]; omega, h2⟩
  · intro j k hi hp
    rcases hcase hi with rfl | hi
    · rw [add_self, e2] at hp
      cases hp
      have := (h.newOk par hpar).2.1
      exact ⟨by rw [add_n]; omega, fun hh => absurd h.lt (by omega)⟩
    · rw [add_lt st nd hi] at hp
      obtain ⟨h1, h2⟩ := h.parLt j k hi hp
      exact ⟨by rw [add_n]; omega, h2⟩
  · intro j k h0 hi hp
    rcases hcase hi with rfl | hi
    · rw [add_self, e1] at hp
      cases hp
      rw [add_lt st nd hmi.1]
      exact ⟨hpi, t, hm⟩
    · rw [add_lt st nd hi] at hp
      rw [add_lt st nd (h.subLt j k hi hp).1]
      exact h.subOk j k h0 hi hp
  · intro q c c' t' hq hc hc' hp hp' hf hd hi hi'
    rcases hcase hc with rfl | hc <;> rcases hcase hc' with rfl | hc'
    · rfl
    · exfalso
      have ht := (hself t').1 hi
      subst ht
      rw [add_self] at hp hf hd
      rw [add_lt st nd hc'] at hp' hf hd
      rw [e2] at hp; cases hp
      exact hno c' hc' hp' (by rw [← hf, e3]) (by rw [← hd, e4]) ((h.invokes_add nd hc' _).1 hi')
    · exfalso
      have ht := (hself t').1 hi'
      subst ht
      rw [add_self] at hp' hf hd
      rw [add_lt st nd hc] at hp hf hd
      rw [e2] at hp'; cases hp'
      exact hno c hc hp (by rw [hf, e3]) (by rw [hd, e4]) ((h.invokes_add nd hc _).1 hi)
    · rw [add_lt st nd hc] at hp hf hd
      rw [add_lt st nd hc'] at hp' hf hd
      exact h.uniq q c c' t' hq hc hc' hp hp' hf hd ((h.invokes_add nd hc _).1 hi) ((h.invokes_add nd hc' _).1 hi')
  · intro q c t' hq hc hp hi
    rcases hcase hc with rfl | hc
    · have ht := (hself t').1 hi
      rw [add_self] at hp ⊢
      rw [e2] at hp; cases hp
      exact ⟨x, hx, hxp, e3.symm, e4.symm, by rw [hxt, ht], by rw [e5]⟩
    · rw [add_lt st nd hc] at hp ⊢
      exact h.src q c t' hq hc hp ((h.invokes_add nd hc _).1 hi)
  · intro t' j hm' hj hp c hc hinv
    change st.map.get? t' = some j at hm'
    rw [add_lt st nd (h.mapOk t' j hm').1] at hp
    rcases hcase hc with rfl | hc
    · exfalso
      have ht := (hself t').1 hinv
      subst ht
      rw [hm] at hm'; cases hm'
      exact hp hpi
    · exact h.one t' j hm' hj hp c hc ((h.invokes_add nd hc _).1 hinv)
  · intro t' j hm' hj hne hp
    change st.map.get? t' = some j at hm'
    rw [add_lt st nd (h.mapOk t' j hm').1] at hp
    obtain ⟨c, h1, h2, h3⟩ := h.two t' j hm' hj hne hp
    refine ⟨c, by rw [add_n]; omega, by rw [add_lt st nd h1]; exact h2, fun _ => ?_⟩
    by_cases htt : t' = t
    · subst htt
      rw [hm] at hm'; cases hm'
      exact ⟨st.n, by rw [add_n]; omega, by omega, by rw [add_self, e1]⟩
    · obtain ⟨c', h4, h5, h6⟩ := h3 (by
        rcases hex with rfl | rfl
        · simp
        · simpa using htt)
      exact ⟨c', by rw [add_n]; omega, h5, by rw [add_lt st nd h4]; exact h6⟩
  · intro j hj
    exact (h.old j hj).add hj h.lt nd
  · intro c q' h0 hc hp
    rcases hcase hc with rfl | hc
    · rw [add_self, e2] at hp; cases hp; exact .inl hpar
    · rw [add_lt st nd hc] at hp ⊢
      exact h.kid c q' h0 hc hp
  · intro c c' k q1 q2 h0 hc h0' hc' hq1 hq2 hp hp' ht ht'
    have hparn := (h.newOk par hpar).1
    rcases hcase hc with rfl | hc
    · rw [add_self, e2] at hp; cases hp; omega
    · rcases hcase hc' with rfl | hc'
      · rw [add_self, e2] at hp'; cases hp'; omega
      · rw [add_lt st nd hc] at hp ht
        rw [add_lt st nd hc'] at hp' ht'
        exact h.once c c' k q1 q2 h0 hc h0' hc' hq1 hq2 hp hp' ht ht'

/-- a node for a process that has none is added -/
theorem Inv.addProc (h : Inv n0 node0 L none st) (t : P) (hm : st.map.get? t = none) (par : ℕ) (hpar : par ∈ st.new)
    (x : Link P F) (hx : x ∈ L) (hxp : st.map.get? x.proc = some par) (hxt : x.term = t) :
    Inv n0 node0 L none { st.add { parent := some par, flow := x.flow, dir := x.dir, ev := x.value, term := .proc t } with
      map := st.map.set t st.n, new := st.n :: st.new } := by
  have hno : ∀ c, c < st.n → ¬Invokes st c t := by
    rintro c hc (hh | ⟨j, hj, hh⟩)
    · obtain ⟨j, hj, _⟩ := h.mapAll c t hc hh; rw [hm] at hj; cases hj
    · obtain ⟨j, hj, _⟩ := h.mapAll j t (h.subLt c j hc hj).1 hh; rw [hm] at hj; cases hj
  have hne : x.proc ≠ t := by intro hh; rw [hh, hm] at hxp; cases hxp
  generalize hnd : ({ parent := some par, flow := x.flow, dir := x.dir, ev := x.value, term := .proc t } : Node P F) = nd at *
  have e1 : nd.term = .proc t := by rw [← hnd]
  have e2 : nd.parent = some par := by rw [← hnd]
  have e3 : nd.flow = x.flow := by rw [← hnd]
  have e4 : nd.dir = x.dir := by rw [← hnd]
  have e5 : nd.ev = x.value := by rw [← hnd]
  have hcase : ∀ {c}, c < st.n + 1 → c = st.n ∨ c < st.n := by intro c hc; omega
  have hI : ∀ c t', c < st.n → (Invokes { st.add nd with map := st.map.set t st.n, new := st.n :: st.new } c t' ↔ Invokes st c t') :=
    fun c t' hc => h.invokes_add nd hc t'
  have hS : ∀ t', Invokes { st.add nd with map := st.map.set t st.n, new := st.n :: st.new } st.n t' ↔ t' = t := by
    intro t'
    unfold Invokes
    simp only [add_self, e1, Tm.proc.injEq, reduceCtorEq, false_and, exists_false, or_false]
    exact eq_comm
  have hget : ∀ p j, (st.map.set t st.n).get? p = some j → p = t ∧ j = st.n ∨ p ≠ t ∧ st.map.get? p = some j := by
    intro p j hp
    by_cases hpt : t = p
    · subst hpt; rw [Dict.get?_set_self] at hp; cases hp; exact .inl ⟨rfl, rfl⟩
    · rw [Dict.get?_set_ne _ _ hpt] at hp; exact .inr ⟨Ne.symm hpt, hp⟩
  have hget' : ∀ p j, st.map.get? p = some j → (st.map.set t st.n).get? p = some j := by
    intro p j hp
    rw [Dict.get?_set_ne _ _ (by rintro rfl; rw [hm] at hp; cases hp)]; exact hp
  have hlt := h.lt
  refine ⟨?_, ?_, ?_, ?_, ?_, ?_, ?_, ?_, ?_, ?_, ?_, ?_, ?_, ?_, ?_, ?_, ?_⟩
  · show n0 < st.n + 1; omega
  · show ((st.add nd).node n0).parent = none
    rw [add_lt st nd h.lt]; exact h.top
  · exact List.mem_cons_of_mem _ h.topNew
  · intro p j hp
    show j < st.n + 1 ∧ ((st.add nd).node j).term = .proc p
    rcases hget p j hp with ⟨rfl, rfl⟩ | ⟨_, hp⟩
    · rw [add_self]; exact ⟨by omega, e1⟩
    · obtain ⟨h1, h2⟩ := h.mapOk p j hp
      rw [add_lt st nd h1]
      exact ⟨by omega, h2⟩
  · intro j p' hi hp
    show ∃ k, (st.map.set t st.n).get? p' = some k ∧ (j < n0 → k < n0)
    change ((st.add nd).node j).term = .proc p' at hp
    rcases hcase hi with rfl | hi
    · rw [add_self, e1] at hp; cases hp; exact ⟨_, Dict.get?_set_self _ _ _, fun hh => absurd hh (by omega)⟩
    · rw [add_lt st nd hi] at hp
      obtain ⟨k, hk, hk'⟩ := h.mapAll j p' hi hp
      exact ⟨k, hget' _ _ hk, hk'⟩
  · intro j hj
    show n0 ≤ j ∧ j < st.n + 1 ∧ ∃ p, ((st.add nd).node j).term = .proc p ∧ (st.map.set t st.n).get? p = some j
    rcases List.mem_cons.1 hj with rfl | hj
    · exact ⟨by omega, by omega, t, by rw [add_self]; exact e1, Dict.get?_set_self _ _ _⟩
    · obtain ⟨h1, h2, p, h3, h4⟩ := h.newOk j hj
      rw [add_lt st nd h2]
      exact ⟨h1, by omega, p, h3, hget' _ _ h4⟩
  · intro j p' h1 hi hp
    change ((st.add nd).node j).term = .proc p' at hp
    show j ∈ st.n :: st.new
    rcases hcase hi with rfl | hi
    · simp
    · rw [add_lt st nd hi] at hp; exact List.mem_cons_of_mem _ (h.newAll j p' h1 hi hp)
  · intro j k hi hp
    change ((st.add nd).node j).term = .sub k at hp
    show k < st.n + 1 ∧ _
    rcases hcase hi with rfl | hi
    · rw [add_self, e1] at hp; cases hp
    · rw [add_lt st nd hi] at hp
      obtain ⟨h1, h2⟩ := h.subLt j k hi hp
      exact ⟨by omega, h2⟩
  · intro j k hi hp
    change ((st.add nd).node j).parent = some k at hp
    show k < st.n + 1 ∧ _
    rcases hcase hi with rfl | hi
    · rw [add_self, e2] at hp
      cases hp
      have := (h.newOk par hpar).2.1
      exact ⟨by omega, fun hh => absurd h.lt (by omega)⟩
    · rw [add_lt st nd hi] at hp
      obtain ⟨h1, h2⟩ := h.parLt j k hi hp
      exact ⟨by omega, h2⟩
  · intro j k h0 hi hp
    change ((st.add nd).node j).term = .sub k at hp
    show ((st.add nd).node k).parent = none ∧ ∃ p, (st.map.set t st.n).get? p = some k
    rcases hcase hi with rfl | hi
    · rw [add_self, e1] at hp; cases hp
    · rw [add_lt st nd hi] at hp
      rw [add_lt st nd (h.subLt j k hi hp).1]
      obtain ⟨h1, p, h2⟩ := h.subOk j k h0 hi hp
      exact ⟨h1, p, hget' _ _ h2⟩
  · intro q c c' t' hq hc hc' hp hp' hf hd hi hi'
    change ((st.add nd).node c).parent = _ at hp
    change ((st.add nd).node c').parent = _ at hp'
    change ((st.add nd).node c).flow = ((st.add nd).node c').flow at hf
    change ((st.add nd).node c).dir = ((st.add nd).node c').dir at hd
    rcases hcase hc with h1 | hc1 <;> rcases hcase hc' with h2 | hc2
    · rw [h1, h2]
    · rw [h1] at hi
      have ht := (hS t').1 hi
      subst ht
      exact absurd ((hI c' _ hc2).1 hi') (hno c' hc2)
    · rw [h2] at hi'
      have ht := (hS t').1 hi'
      subst ht
      exact absurd ((hI c _ hc1).1 hi) (hno c hc1)
    · clear hc hc'
      rename' hc1 => hc, hc2 => hc'
      rw [add_lt st nd hc] at hp hf hd
      rw [add_lt st nd hc'] at hp' hf hd
      rcases List.mem_cons.1 hq with rfl | hq
      · exact absurd (h.parLt c st.n hc hp).1 (lt_irrefl _)
      · exact h.uniq q c c' t' hq hc hc' hp hp' hf hd ((hI c _ hc).1 hi) ((hI c' _ hc').1 hi')
  · intro q c t' hq hc hp hi
    change ((st.add nd).node c).parent = _ at hp
    show ∃ x ∈ L, (st.map.set t st.n).get? x.proc = some q ∧ x.flow = ((st.add nd).node c).flow ∧ x.dir = ((st.add nd).node c).dir ∧ x.term = t' ∧
      readEv x.value = readEv ((st.add nd).node c).ev
    rcases hcase hc with rfl | hc
    · have ht := (hS t').1 hi
      rw [add_self] at hp ⊢
      rw [e2] at hp; cases hp
      exact ⟨x, hx, hget' _ _ hxp, e3.symm, e4.symm, by rw [hxt, ht], by rw [e5]⟩
    · rw [add_lt st nd hc] at hp ⊢
      rcases List.mem_cons.1 hq with rfl | hq
      · exact absurd (h.parLt c st.n hc hp).1 (lt_irrefl _)
      · obtain ⟨y, hy, h1, h2⟩ := h.src q c t' hq hc hp ((hI c _ hc).1 hi)
        exact ⟨y, hy, hget' _ _ h1, h2⟩
  · intro t' j hm' hj hp c hc hinv
    change ((st.add nd).node j).parent ≠ none at hp
    rcases hget t' j hm' with ⟨rfl, rfl⟩ | ⟨htt, hm'⟩
    · rcases hcase hc with rfl | hc
      · rfl
      · exact absurd ((hI c _ hc).1 hinv) (hno c hc)
    · have hj' : j ∈ st.new := by
        rcases List.mem_cons.1 hj with rfl | hj
        · exact absurd (h.mapOk t' _ hm').1 (lt_irrefl _)
        · exact hj
      rcases hcase hc with rfl | hc
      · exact absurd ((hS t').1 hinv) htt
      · rw [add_lt st nd (h.mapOk t' j hm').1] at hp
        exact h.one t' j hm' hj' hp c hc ((hI c _ hc).1 hinv)
  · intro t' j hm' hj hne' hp
    change ((st.add nd).node j).parent = none at hp
    show ∃ c, c < st.n + 1 ∧ ((st.add nd).node c).term = .sub j ∧ (_ → ∃ c', c' < st.n + 1 ∧ c' ≠ c ∧ ((st.add nd).node c').term = .sub j)
    rcases hget t' j hm' with ⟨rfl, rfl⟩ | ⟨htt, hm'⟩
    · rw [add_self, e2] at hp; cases hp
    · have hj' : j ∈ st.new := by
        rcases List.mem_cons.1 hj with rfl | hj
        · exact absurd (h.mapOk t' _ hm').1 (lt_irrefl _)
        · exact hj
      rw [add_lt st nd (h.mapOk t' j hm').1] at hp
      obtain ⟨c, h1, h2, h3⟩ := h.two t' j hm' hj' hne' hp
      refine ⟨c, by omega, by rw [add_lt st nd h1]; exact h2, fun he => ?_⟩
      obtain ⟨c', h4, h5, h6⟩ := h3 he
      exact ⟨c', by omega, h5, by rw [add_lt st nd h4]; exact h6⟩
  · intro j hj
    exact (h.old j hj).add hj h.lt nd
  · intro c q' h0 hc hp
    change ((st.add nd).node c).parent = some q' at hp
    show q' ∈ st.n :: st.new ∨ ∃ k, k < n0 ∧ (node0 k).parent = some q' ∧ (st.add nd).node c = _
    rcases hcase hc with rfl | hc
    · rw [add_self, e2] at hp; cases hp; exact .inl (List.mem_cons_of_mem _ hpar)
    · rw [add_lt st nd hc] at hp ⊢
      rcases h.kid c q' h0 hc hp with h | h
      · exact .inl (List.mem_cons_of_mem _ h)
      · exact .inr h
  · intro c c' k q1 q2 h0 hc h0' hc' hq1 hq2 hp hp' ht ht'
    change ((st.add nd).node c).parent = some q1 at hp
    change ((st.add nd).node c').parent = some q2 at hp'
    change ((st.add nd).node c).term = _ at ht
    change ((st.add nd).node c').term = _ at ht'
    rcases hcase hc with rfl | hc1
    · rw [add_self, e1] at ht; cases ht
    · rcases hcase hc' with rfl | hc1'
      · rw [add_self, e1] at ht'; cases ht'
      · rw [add_lt st nd hc1] at hp ht
        rw [add_lt st nd hc1'] at hp' ht'
        exact h.once c c' k q1 q2 h0 hc1 h0' hc1' hq1 hq2 hp hp' ht ht'

theorem readEv_readEv (v : ℚ) : readEv (readEv v) = readEv v := by
  unfold readEv
  split
  · simp
  · rename_i h; simp [h]

/-- a node that is a child becomes a reference fragment -/
theorem Inv.split (h : Inv n0 node0 L none st) (t : P) (i : ℕ) (hm : st.map.get? t = some i) (hpi : (st.node i).parent ≠ none)
    (refuse : St P F → ℕ → Bool) (st' : St P F) (hs : Fst.split refuse st i = some st') :
    Inv n0 node0 L (some t) st' ∧ st'.map = st.map ∧ st'.new = st.new ∧ (st'.node i).parent = none ∧ st.n ≤ st'.n ∧
      (∀ c t', c < st.n → ∀ q f d, (st.node c).parent = some q → (st.node c).flow = f → (st.node c).dir = d → leads st c t' = true →
        ∃ c', c' < st'.n ∧ (st'.node c').parent = some q ∧ (st'.node c').flow = f ∧ (st'.node c').dir = d ∧ leads st' c' t' = true) ∧
      (∀ c t' q, c < st'.n → (st'.node c).parent = some q → leads st' c t' = true →
        ∃ c', c' < st.n ∧ (st.node c').parent = some q ∧ (st.node c').flow = (st'.node c).flow ∧ (st.node c').dir = (st'.node c).dir ∧ leads st c' t' = true) := by
  obtain ⟨hil, hit⟩ := h.mapOk t i hm
  unfold Fst.split at hs
  simp only at hs
  split at hs
  · cases hs
  · cases hs
    generalize hsd : ({ parent := (st.node i).parent, flow := (st.node i).flow, dir := (st.node i).dir, ev := readEv (st.node i).ev, term := .sub i } : Node P F) = sd
    have e1 : sd.term = .sub i := by rw [← hsd]
    have e2 : sd.parent = (st.node i).parent := by rw [← hsd]
    have e3 : sd.flow = (st.node i).flow := by rw [← hsd]
    have e4 : sd.dir = (st.node i).dir := by rw [← hsd]
    have e5 : sd.ev = readEv (st.node i).ev := by rw [← hsd]
    generalize hst : ({ st.add sd with node := Function.update (st.add sd).node i { st.node i with parent := none, ev := 1 } } : St P F) = st'
    have hn : st'.n = st.n + 1 := by rw [← hst]; rfl
    have hmap : st'.map = st.map := by rw [← hst]; rfl
    have hnew : st'.new = st.new := by rw [← hst]; rfl
    have hk : st'.node st.n = sd := by
      rw [← hst]; show Function.update (st.add sd).node i _ st.n = sd
      rw [Function.update_of_ne (by omega), add_self]
    have hi : st'.node i = { st.node i with parent := none, ev := 1 } := by rw [← hst]; exact Function.update_self ..
    have ho : ∀ c, c < st.n → c ≠ i → st'.node c = st.node c := by
      intro c hc hne
      rw [← hst]; show Function.update (st.add sd).node i _ c = _
      rw [Function.update_of_ne hne, add_lt st sd hc]
    have hterm : ∀ c, c < st.n → (st'.node c).term = (st.node c).term := by
      intro c hc
      by_cases hci : c = i
      · rw [hci, hi]
      · rw [ho c hc hci]
    have hcase : ∀ {c}, c < st'.n → c = st.n ∨ c < st.n := by intro c hc; omega
    have hI : ∀ c t', c < st.n → (Invokes st' c t' ↔ Invokes st c t') := by
      intro c t' hc
      unfold Invokes
      rw [hterm c hc]
      refine or_congr Iff.rfl (exists_congr fun j => and_congr_right fun hj => ?_)
      rw [hterm j (h.subLt c j hc hj).1]
    have hS : ∀ t', Invokes st' st.n t' ↔ t' = t := by
      intro t'
      unfold Invokes
      rw [hk, e1]
      simp only [reduceCtorEq, false_or, Tm.sub.injEq]
      constructor
      · rintro ⟨j, rfl, hj⟩
        rw [hterm i hil, hit] at hj; cases hj; rfl
      · rintro rfl
        exact ⟨i, rfl, by rw [hterm i hil]; exact hit⟩
    have hin0 : i ≠ n0 := by rintro rfl; exact hpi h.top
    have hpar : ∀ c q, c < st.n → (st'.node c).parent = some q → c ≠ i ∧ (st.node c).parent = some q := by
      intro c q hc hp
      by_cases hci : c = i
      · rw [hci, hi] at hp; cases hp
      · rw [ho c hc hci] at hp; exact ⟨hci, hp⟩
    obtain ⟨q0, hq0⟩ : ∃ q0, (st.node i).parent = some q0 := Option.ne_none_iff_exists'.1 hpi
    have hlt := h.lt
    have hlead : ∀ c t', c < st.n → leads st' c t' = leads st c t' := by
      intro c t' hc
      unfold leads
      rw [hterm c hc]
      cases hcc : (st.node c).term with
      | sub j => simp only [hterm j (h.subLt c j hc hcc).1]
      | _ => rfl
    have hleadk : ∀ t', leads st' st.n t' = true ↔ t' = t := by
      intro t'
      unfold leads
      rw [hk, e1]
      simp only [hterm i hil, hit, decide_eq_true_eq]
      exact eq_comm
    refine ⟨⟨?_, ?_, ?_, ?_, ?_, ?_, ?_, ?_, ?_, ?_, ?_, ?_, ?_, ?_, ?_, ?_, ?_⟩, hmap, hnew, by rw [hi], by omega, ?_, ?_⟩
    · omega
    · rw [ho n0 h.lt (Ne.symm hin0)]; exact h.top
    · rw [hnew]; exact h.topNew
    · intro p j hp
      rw [hmap] at hp
      obtain ⟨h1, h2⟩ := h.mapOk p j hp
      rw [hterm j h1]
      exact ⟨by omega, h2⟩
    · intro j p' hj hp
      rw [hmap]
      rcases hcase hj with rfl | hj
      · rw [hk, e1] at hp; cases hp
      · rw [hterm j hj] at hp; exact h.mapAll j p' hj hp
    · intro j hj
      rw [hnew] at hj
      obtain ⟨h1, h2, h3⟩ := h.newOk j hj
      rw [hterm j h2, hmap]
      exact ⟨h1, by omega, h3⟩
    · intro j p' h1 hj hp
      rw [hnew]
      rcases hcase hj with rfl | hj
      · rw [hk, e1] at hp; cases hp
      · rw [hterm j hj] at hp; exact h.newAll j p' h1 hj hp
    · intro j k hj hp
      rcases hcase hj with rfl | hj
      · rw [hk, e1] at hp
        cases hp
        exact ⟨by omega, fun hh => absurd h.lt (by omega)⟩
      · rw [hterm j hj] at hp
        obtain ⟨h1, h2⟩ := h.subLt j k hj hp
        exact ⟨by omega, h2⟩
    · intro j k hj hp
      rcases hcase hj with rfl | hj
      · rw [hk, e2] at hp
        have := (h.parLt i k hil hp).1
        exact ⟨by omega, fun hh => absurd h.lt (by omega)⟩
      · obtain ⟨_, hp⟩ := hpar j k hj hp
        obtain ⟨h1, h2⟩ := h.parLt j k hj hp
        exact ⟨by omega, h2⟩
    · intro j k h0 hj hp
      rcases hcase hj with rfl | hj
      · rw [hk, e1] at hp
        cases hp
        rw [hi, hmap]
        exact ⟨rfl, t, hm⟩
      · rw [hterm j hj] at hp
        obtain ⟨h1, h2⟩ := h.subOk j k h0 hj hp
        have hkl := (h.subLt j k hj hp).1
        rw [hmap]
        refine ⟨?_, h2⟩
        by_cases hki : k = i
        · rw [hki, hi]
        · rw [ho k hkl hki]; exact h1
    · intro q c c' t' hq hc hc' hp hp' hf hd hiv hiv'
      rw [hnew] at hq
      rcases hcase hc with rfl | hc <;> rcases hcase hc' with rfl | hc'
      · rfl
      · exfalso
        have ht := (hS t').1 hiv
        subst ht
        obtain ⟨hne, hp'⟩ := hpar c' q hc' hp'
        rw [hk] at hp hf hd
        rw [ho c' hc' hne] at hf hd
        have := h.uniq q i c' t' hq hil hc' (by rw [← e2]; exact hp) hp' (by rw [← e3]; exact hf) (by rw [← e4]; exact hd) (.inl hit) ((hI c' _ hc').1 hiv')
        exact hne this.symm
      · exfalso
        have ht := (hS t').1 hiv'
        subst ht
        obtain ⟨hne, hp⟩ := hpar c q hc hp
        rw [hk] at hp' hf hd
        rw [ho c hc hne] at hf hd
        have := h.uniq q c i t' hq hc hil hp (by rw [← e2]; exact hp') (by rw [← e3]; exact hf) (by rw [← e4]; exact hd) ((hI c _ hc).1 hiv) (.inl hit)
        exact hne this
      · obtain ⟨hne, hp⟩ := hpar c q hc hp
        obtain ⟨hne', hp'⟩ := hpar c' q hc' hp'
        rw [ho c hc hne, ho c' hc' hne'] at hf hd
        exact h.uniq q c c' t' hq hc hc' hp hp' hf hd ((hI c _ hc).1 hiv) ((hI c' _ hc').1 hiv')
    · intro q c t' hq hc hp hiv
      rw [hnew] at hq
      rw [hmap]
      rcases hcase hc with rfl | hc
      · have ht := (hS t').1 hiv
        subst ht
        rw [hk] at hp ⊢
        obtain ⟨y, hy, h1, h2, h3, h4, h5⟩ := h.src q i t' hq hil (by rw [← e2]; exact hp) (.inl hit)
        exact ⟨y, hy, h1, by rw [h2, e3], by rw [h3, e4], h4, by rw [h5, e5, readEv_readEv]⟩
      · obtain ⟨hne, hp⟩ := hpar c q hc hp
        rw [ho c hc hne]
        exact h.src q c t' hq hc hp ((hI c _ hc).1 hiv)
    · intro t' j hm' hj hp c hc hinv
      rw [hmap] at hm'
      rw [hnew] at hj
      have hjl := (h.mapOk t' j hm').1
      have hji : j ≠ i := by rintro rfl; rw [hi] at hp; exact hp rfl
      rw [ho j hjl hji] at hp
      rcases hcase hc with rfl | hc
      · exfalso
        have ht := (hS t').1 hinv
        subst ht
        rw [hm] at hm'; cases hm'
        exact hji rfl
      · exact h.one t' j hm' hj hp c hc ((hI c _ hc).1 hinv)
    · intro t' j hm' hj hne hp
      rw [hmap] at hm'
      rw [hnew] at hj
      have hjl := (h.mapOk t' j hm').1
      by_cases hji : j = i
      · subst hji
        have htt : t' = t := by
          have := (h.mapOk t' j hm').2
          rw [hit] at this; cases this; rfl
        exact ⟨st.n, by omega, by rw [hk, e1], fun hh => absurd (by rw [htt]) hh⟩
      · rw [ho j hjl hji] at hp
        obtain ⟨c, h1, h2, h3⟩ := h.two t' j hm' hj hne hp
        obtain ⟨c', h4, h5, h6⟩ := h3 (by simp)
        exact ⟨c, by omega, by rw [hterm c h1]; exact h2, fun _ => ⟨c', by omega, h5, by rw [hterm c' h4]; exact h6⟩⟩
    · intro j hj
      have hjl : j < st.n := by omega
      have hkeep : ∀ k, k < st.n → (∃ m, (st.node k).term = .sub m) → st'.node k = st.node k := by
        rintro k hkl ⟨m, hkm⟩
        refine ho k hkl ?_
        rintro rfl
        rw [hit] at hkm; cases hkm
      unfold KeptOrSplit
      rcases h.old j hj with h1 | ⟨h1, h2, k, h3, h4, h5⟩
      · by_cases hji : j = i
        · subst hji
          refine .inr ⟨by rw [← h1]; exact hpi, by rw [hi, h1], st.n, by omega, by omega, ?_⟩
          rw [hk, ← hsd, h1]
        · rw [ho j hjl hji]; exact .inl h1
      · have hji : j ≠ i := by rintro rfl; rw [h2] at hpi; exact hpi rfl
        rw [ho j hjl hji]
        exact .inr ⟨h1, h2, k, h3, by omega, by rw [hkeep k h4 ⟨j, by rw [h5]⟩]; exact h5⟩
    · intro c q h0 hc hp
      rw [hnew]
      rcases hcase hc with rfl | hc
      · rw [hk, e2] at hp
        rw [hk]
        by_cases hi0 : n0 ≤ i
        · rcases h.kid i q hi0 hil hp with hh | ⟨k, _, _, hh⟩
          · exact .inl hh
          · rw [hh] at hit; cases hit
        · have h1 : st.node i = node0 i := by
            rcases h.old i (by omega) with h1 | ⟨_, h2, _⟩
            · exact h1
            · rw [h2] at hp; cases hp
          refine .inr ⟨i, by omega, by rw [← h1]; exact hp, ?_⟩
          rw [← hsd, h1, ← hp, h1]
      · obtain ⟨hne, hp⟩ := hpar c q hc hp
        rw [ho c hc hne]
        exact h.kid c q h0 hc hp
    · intro c c' k q1 q2 h0 hc h0' hc' hq1 hq2 hp hp' ht ht'
      rcases hcase hc with rfl | hc <;> rcases hcase hc' with rfl | hc'
      · rfl
      · exfalso
        rw [hk, e1] at ht; cases ht
        rw [hterm c' hc'] at ht'
        exact hpi (h.subOk c' i h0' hc' ht').1
      · exfalso
        rw [hk, e1] at ht'; cases ht'
        rw [hterm c hc] at ht
        exact hpi (h.subOk c i h0 hc ht).1
      · obtain ⟨hne, hp⟩ := hpar c q1 hc hp
        obtain ⟨hne', hp'⟩ := hpar c' q2 hc' hp'
        rw [hterm c hc] at ht
        rw [hterm c' hc'] at ht'
        exact h.once c c' k q1 q2 h0 hc h0' hc' hq1 hq2 hp hp' ht ht'
    · intro c t' hc q f d hp hf hd hl
      by_cases hci : c = i
      · subst hci
        refine ⟨st.n, by omega, by rw [hk, e2]; exact hp, by rw [hk, e3]; exact hf, by rw [hk, e4]; exact hd, ?_⟩
        rw [hleadk]
        unfold leads at hl
        rw [hit] at hl
        exact (of_decide_eq_true hl).symm
      · exact ⟨c, by omega, by rw [ho c hc hci]; exact hp, by rw [ho c hc hci]; exact hf, by rw [ho c hc hci]; exact hd, by rw [hlead c t' hc]; exact hl⟩
    · intro c t' q hc hp hl
      rcases hcase hc with rfl | hc
      · rw [hleadk] at hl
        subst hl
        rw [hk] at hp ⊢
        refine ⟨i, hil, by rw [← e2]; exact hp, e3.symm, e4.symm, ?_⟩
        unfold leads
        rw [hit]
        simp
      · obtain ⟨hne, hp⟩ := hpar c q hc hp
        rw [ho c hc hne]
        exact ⟨c, hc, hp, rfl, rfl, by rw [← hlead c t' hc]; exact hl⟩

end Fst
