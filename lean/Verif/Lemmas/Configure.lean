import Verif.Model.Configure
import Verif.Props.Process

/-! The effect of a configuration on one process. -/

set_option linter.unusedSectionVars false

namespace Cfg
open Proc
variable {P F Q T : Type} [DecidableEq P] [DecidableEq F] [DecidableEq Q] [DecidableEq T]

/-- the exchanges without their reference flags -/
def bare (x : State F Q T) : List (Key F T × Option ℚ × Dict (Key F T) (Option ℚ)) :=
  x.exchs.map fun kx => (kx.1, kx.2.value, kx.2.vdict)

structure Wf (x : State F Q T) : Prop where
  inv : Inv x
  aq : x.allocQ ≠ none → x.allocSum ≠ 0

theorem flag_eq {x : State F Q T} (h : Inv x) {kx : Key F T × Exch F T} (hm : kx ∈ x.exchs) :
    kx.2.isRef = decide (kx.1 ∈ x.refs) := by
  have hg := Dict.get?_eq_some_of_mem _ h.nodup hm
  cases hb : kx.2.isRef with
  | true => symm; rw [decide_eq_true_iff, h.refs]; exact ⟨_, hg, hb⟩
  | false =>
    symm; rw [decide_eq_false_iff_not, h.refs]
    rintro ⟨e, h1, h2⟩
    rw [hg] at h1
    simp at h1; subst h1; rw [hb] at h2; simp at h2

theorem exchs_eq {x : State F Q T} (h : Inv x) :
    x.exchs = (bare x).map fun b => (b.1, (⟨b.2.1, b.2.2, decide (b.1 ∈ x.refs)⟩ : Exch F T)) := by
  unfold bare
  rw [List.map_map]
  conv_lhs => rw [← List.map_id x.exchs]
  apply List.map_congr_left
  intro kx hm
  simp only [id, Function.comp]
  rw [← flag_eq h hm]

theorem state_ext {x y : State F Q T} (hx : Inv x) (hy : Inv y) (h1 : bare x = bare y) (h2 : x.refs = y.refs)
    (h3 : x.allocQ = y.allocQ) (h4 : x.allocSum = y.allocSum) : x = y := by
  have : x.exchs = y.exchs := by rw [exchs_eq hx, exchs_eq hy, h1, h2]
  cases x; cases y; simp_all

theorem keys_bare (x : State F Q T) : x.exchs.keys = (bare x).map (·.1) := by
  unfold bare Dict.keys; rw [List.map_map]; rfl

theorem keys_eq {x y : State F Q T} (h : bare x = bare y) : x.exchs.keys = y.exchs.keys := by
  rw [keys_bare, keys_bare, h]

/-- no exchange has an allocated value for `k` -/
def Clean (x : State F Q T) (k : Key F T) : Prop := ∀ b ∈ bare x, k ∉ b.2.2.keys

/-- drop the allocated values for `k` -/
def scrub (k : Key F T) (b : List (Key F T × Option ℚ × Dict (Key F T) (Option ℚ))) :
    List (Key F T × Option ℚ × Dict (Key F T) (Option ℚ)) := b.map fun b => (b.1, b.2.1, b.2.2.del k)

theorem del_of_not_mem {K V : Type} [DecidableEq K] (d : Dict K V) {k : K} (h : k ∉ d.keys) : d.del k = d := by
  induction d with
  | nil => rfl
  | cons a d ih =>
    obtain ⟨k', v⟩ := a
    simp only [Dict.keys, List.map_cons, List.mem_cons, not_or] at h
    simp only [Dict.del]
    rw [if_neg (fun e => h.1 e.symm)]
    rw [ih h.2]

theorem scrub_of_clean {x : State F Q T} {k : Key F T} (h : Clean x k) : scrub k (bare x) = bare x := by
  unfold scrub
  conv_rhs => rw [← List.map_id (bare x)]
  apply List.map_congr_left
  intro b hb
  rw [del_of_not_mem _ (h b hb)]; rfl

theorem vdict_nodup {x : State F Q T} (h : Inv x) : ∀ b ∈ bare x, b.2.2.keys.Nodup := by
  intro b hb
  unfold bare at hb
  obtain ⟨kx, h1, rfl⟩ := List.mem_map.mp hb
  exact h.vdict _ _ (Dict.get?_eq_some_of_mem _ h.nodup h1)

/-- scrubbing cleans, and keeps what is clean -/
theorem clean_scrub {x y : State F Q T} {k : Key F T} (hx : Inv x) (h : bare y = scrub k (bare x)) :
    Clean y k ∧ ∀ k', Clean x k' → Clean y k' := by
  unfold Clean
  rw [h]
  unfold scrub
  constructor
  · intro b hb hk
    obtain ⟨b', h1, rfl⟩ := List.mem_map.mp hb
    rw [Dict.mem_keys_del _ (vdict_nodup hx _ h1)] at hk
    exact hk.1 rfl
  · intro k' hc b hb hk
    obtain ⟨b', h1, rfl⟩ := List.mem_map.mp hb
    rw [Dict.mem_keys_del _ (vdict_nodup hx _ h1)] at hk
    exact hc _ h1 hk.2

theorem amount_congr {x y : State F Q T} (h : bare x = bare y) (k : Key F T) : amount x k = amount y k := by
  have aux : ∀ (d d' : Dict (Key F T) (Exch F T)),
      (d.map fun kx => (kx.1, kx.2.value, kx.2.vdict)) = (d'.map fun kx => (kx.1, kx.2.value, kx.2.vdict)) →
      (d.get? k).bind (·.val) = (d'.get? k).bind (·.val) := by
    intro d
    induction d with
    | nil => intro d' hd; cases d' with
      | nil => rfl
      | cons a d' => simp at hd
    | cons a d ih =>
      intro d' hd
      cases d' with
      | nil => simp at hd
      | cons a' d' =>
        simp only [List.map_cons, List.cons.injEq, Prod.mk.injEq] at hd
        obtain ⟨⟨h1, h2, h3⟩, h4⟩ := hd
        obtain ⟨k1, e1⟩ := a
        obtain ⟨k2, e2⟩ := a'
        simp only at h1 h2 h3
        subst h1
        simp only [Dict.get?]
        split
        · simp only [Option.bind_some, Exch.val, h2, h3]
        · exact ih _ h4
  unfold amount
  rw [aux x.exchs y.exchs h]

theorem total_congr {x y : State F Q T} (c : F → Q → ℚ) (q : Q) (h : bare x = bare y) (h2 : x.refs = y.refs) :
    refTotal c q x = refTotal c q y := by
  unfold refTotal
  rw [h2]
  congr 1
  apply List.map_congr_left
  intro r _
  rw [amount_congr h]

/-- the allocation renewed -/
def renew (c : F → Q → ℚ) (y : State F Q T) : State F Q T :=
  match y.allocQ with
  | none => y
  | some q => if refTotal c q y = 0 then y else { y with allocSum := refTotal c q y }

theorem renew_fields (c : F → Q → ℚ) (y : State F Q T) :
    (renew c y).exchs = y.exchs ∧ (renew c y).refs = y.refs ∧ (renew c y).allocQ = y.allocQ := by
  unfold renew
  split
  · exact ⟨rfl, rfl, rfl⟩
  · split <;> exact ⟨rfl, rfl, rfl⟩

theorem renew_none (c : F → Q → ℚ) {y : State F Q T} (h : y.allocQ = none) : renew c y = y := by
  unfold renew; rw [h]

theorem renew_wf {c : F → Q → ℚ} {y : State F Q T} (h : Wf y) : Wf (renew c y) := by
  obtain ⟨h1, h2, h3⟩ := renew_fields c y
  refine ⟨inv_congr h.inv h1 h2, ?_⟩
  unfold renew
  split
  · exact h.aq
  · split
    · exact h.aq
    · intro _; assumption

/-- the recorded total is up to date, or there is nothing to divide -/
def Settled (c : F → Q → ℚ) (x : State F Q T) : Prop :=
  ∀ q, x.allocQ = some q → refTotal c q x = 0 ∨ x.allocSum = refTotal c q x

theorem renew_settled (c : F → Q → ℚ) (y : State F Q T) : Settled c (renew c y) := by
  intro q hq
  have hT : refTotal c q (renew c y) = refTotal c q y := by
    obtain ⟨h1, h2, _⟩ := renew_fields c y
    exact total_congr c q (by unfold bare; rw [h1]) h2
  rw [hT]
  rw [(renew_fields c y).2.2] at hq
  unfold renew
  rw [hq]
  simp only
  by_cases h : refTotal c q y = 0
  · left; exact h
  · right; rw [if_neg h]

theorem allocate_renew {c : F → Q → ℚ} {y : State F Q T} (h : Inv y) {q : Q} (hq : y.allocQ = some q) :
    allocate (known c) (some q) y = .ok () (renew c y) := by
  rw [allocate_spec h, renew, hq]

theorem bare_set {x : State F Q T} {k : Key F T} {e : Exch F T} (hg : x.exchs.get? k = some e)
    (b : Bool) :
    (x.exchs.set k { e with isRef := b }).map (fun kx => (kx.1, kx.2.value, kx.2.vdict)) = bare x := by
  unfold bare
  revert hg
  generalize x.exchs = d
  induction d with
  | nil => simp
  | cons a d ih =>
    obtain ⟨k', e'⟩ := a
    intro hg
    simp only [Dict.get?] at hg
    simp only [Dict.set]
    split at hg
    · rename_i hk
      rw [if_pos hk]
      simp at hg
      subst hg hk
      simp
    · rename_i hk
      rw [if_neg hk]
      simp only [List.map_cons]
      rw [ih hg]

/-- the exchanges, references, quantity after making `k` a reference -/
theorem addReference_known {c : F → Q → ℚ} {x : State F Q T} (h : Wf x) (f : F) (d : Dir) :
    if (⟨f, d, none⟩ : Key F T) ∈ x.exchs.keys then
      ∃ y, addReference (known c) f d x = .ok () (renew c y) ∧ Wf y ∧ bare y = bare x ∧
        y.refs = PySet.add x.refs ⟨f, d, none⟩ ∧ y.allocQ = x.allocQ ∧ y.allocSum = x.allocSum
    else (addReference (known c) f d x).value? = none := by
  have haq : x.allocQty = x.allocQ := by
    unfold State.allocQty
    split
    · rfl
    · rename_i h0
      by_contra hn
      exact h0 (h.aq (Ne.symm hn))
  split
  · rename_i hk
    obtain ⟨e, he⟩ := (Dict.mem_keys_iff _ _).mp hk
    let y : State F Q T := { x with exchs := x.exchs.set ⟨f, d, none⟩ { e with isRef := true }, refs := PySet.add x.refs ⟨f, d, none⟩ }
    have hI : Inv y := inv_makeRef h.inv he
    have hy : y.allocQty = x.allocQ := haq
    refine ⟨y, ?_, ⟨hI, h.aq⟩, bare_set he true, rfl, rfl, rfl⟩
    unfold addReference
    simp only [he]
    change Out.bind (match y.allocQty with | some q => allocate (known c) (some q) y | none => .ok () y) _ = _
    rw [hy]
    cases hq : x.allocQ with
    | none =>
      simp only [Out.bind, renew]
      have : y.allocQ = none := hq
      rw [this]
      simp [y]
    | some q =>
      have hq' : y.allocQ = some q := hq
      simp only [allocate_renew hI hq', Out.bind]
      rw [(renew_fields c y).1]
      simp [y]
  · rename_i hk
    rw [Dict.not_mem_keys_iff] at hk
    unfold addReference
    simp only [hk]
    cases hq : x.allocQty with
    | none => simp [Out.bind, hk, Out.value?]
    | some q =>
      simp only
      have := (allocate_fields (known c) (some q) x).1
      cases hr : allocate (known c) (some q) x with
      | err e s => rfl
      | ok a s =>
        rw [hr] at this
        simp only [Out.state] at this
        simp [Out.bind, this, hk, Out.value?]

theorem bare_mapDel (x : State F Q T) (k : Key F T) :
    bare (removeAllocation k x) = scrub k (bare x) := by
  unfold bare scrub removeAllocation
  rw [List.map_map, List.map_map]; rfl

theorem removeReference_known {c : F → Q → ℚ} {x : State F Q T} (h : Wf x) (f : F) (d : Dir) :
    if (⟨f, d, none⟩ : Key F T) ∈ x.exchs.keys then
      ∃ y, removeReference (known c) f d x = .ok () (renew c y) ∧ Wf y ∧ bare y = scrub ⟨f, d, none⟩ (bare x) ∧
        y.refs = x.refs.filter (fun r => decide (r ≠ ⟨f, d, none⟩)) ∧ y.allocQ = x.allocQ ∧ y.allocSum = x.allocSum
    else (removeReference (known c) f d x).value? = none := by
  rcases removeReference_eq (known c) f d x with ⟨h1, h2⟩ | ⟨e, he, h2⟩
  · rw [if_neg ((Dict.not_mem_keys_iff _ _).mpr h1), h2]; rfl
  · rw [if_pos ((Dict.mem_keys_iff _ _).mpr ⟨e, he⟩)]
    have hI := inv_dropRef h.inv he
    refine ⟨dropRef ⟨f, d, none⟩ e x, ?_, ⟨hI, h.aq⟩, ?_, rfl, rfl, rfl⟩
    · rcases h2 with ⟨hq, h2⟩ | ⟨q, hq, h2⟩
      · rw [h2, renew]
        have : (dropRef ⟨f, d, none⟩ e x).allocQ = none := hq
        rw [this]
      · rw [h2]; exact allocate_renew hI hq
    · have := bare_mapDel { x with exchs := x.exchs.set ⟨f, d, none⟩ { e with isRef := false } } ⟨f, d, none⟩
      rw [show bare (dropRef ⟨f, d, none⟩ e x) = _ from this]
      congr 1
      exact bare_set he false

/-! ### one entry, one process -/

/-- the state left by a call that returned -/
def ok? {σ ε α : Type} : Out σ ε α → Option σ
  | .ok _ s => some s
  | .err _ _ => none

theorem ok?_of_value {σ ε α : Type} {r : Out σ ε α} (h : r.value? = none) : ok? r = none := by
  cases r with
  | ok a s => simp [Out.value?] at h
  | err e s => rfl

theorem ok?_bind {σ ε α β : Type} (r : Out σ ε α) (g : α → σ → Out σ ε β) (a : α) (hg : ∀ b s, g b s = g a s) :
    ok? (r.bind g) = (ok? r).bind fun s => ok? (g a s) := by
  cases r with
  | ok b s => simp [Out.bind, ok?, hg b]
  | err e s => rfl

/-- equal but for the recorded total -/
structure Same (x y : State F Q T) : Prop where
  bare : bare x = bare y
  refs : x.refs = y.refs
  allocQ : x.allocQ = y.allocQ

theorem Same.refl (x : State F Q T) : Same x x := ⟨rfl, rfl, rfl⟩
theorem Same.symm {x y : State F Q T} (h : Same x y) : Same y x := ⟨h.1.symm, h.2.symm, h.3.symm⟩
theorem Same.trans {x y z : State F Q T} (h : Same x y) (h' : Same y z) : Same x z :=
  ⟨h.1.trans h'.1, h.2.trans h'.2, h.3.trans h'.3⟩

theorem Same.eq {x y : State F Q T} (h : Same x y) (hx : Wf x) (hy : Wf y) (hs : x.allocSum = y.allocSum) : x = y :=
  state_ext hx.inv hy.inv h.bare h.refs h.allocQ hs

/-- two runs of the same steps: the recorded totals become equal, or are both left as they were -/
def Twin (x z x' z' : State F Q T) : Prop :=
  Same x' z' ∧ (x'.allocSum = z'.allocSum ∨ (x'.allocSum = x.allocSum ∧ z'.allocSum = z.allocSum))

theorem renew_twin (c : F → Q → ℚ) {a b : State F Q T} (h : Same a b) : Twin a b (renew c a) (renew c b) := by
  obtain ⟨a1, a2, a3⟩ := renew_fields c a
  obtain ⟨b1, b2, b3⟩ := renew_fields c b
  refine ⟨⟨?_, by rw [a2, b2]; exact h.refs, by rw [a3, b3]; exact h.allocQ⟩, ?_⟩
  · have := h.bare
    unfold bare at this ⊢
    rw [a1, b1]; exact this
  · unfold renew
    rw [← h.allocQ]
    split
    · right; exact ⟨rfl, rfl⟩
    · rename_i q _
      rw [← total_congr c q h.bare h.refs]
      split
      · right; exact ⟨rfl, rfl⟩
      · left; rfl

theorem renew_bare (c : F → Q → ℚ) (y : State F Q T) : bare (renew c y) = bare y := by
  unfold bare; rw [(renew_fields c y).1]

/-- the effect of one step -/
structure Eff (c : F → Q → ℚ) (x y : State F Q T) : Prop where
  wf : Wf y
  keys : y.exchs.keys = x.exchs.keys
  allocQ : y.allocQ = x.allocQ
  clean : ∀ k, Clean x k → Clean y k
  settled : y = x ∨ Settled c y
  unallocated : x.allocQ = none → y.allocSum = x.allocSum

theorem Eff.refl {c : F → Q → ℚ} {x : State F Q T} (h : Wf x) : Eff c x x :=
  ⟨h, rfl, rfl, fun _ h => h, Or.inl rfl, fun _ => rfl⟩

theorem Eff.trans {c : F → Q → ℚ} {x y z : State F Q T} (h : Eff c x y) (h' : Eff c y z) : Eff c x z := by
  refine ⟨h'.wf, h'.keys.trans h.keys, h'.allocQ.trans h.allocQ, fun k hk => h'.clean k (h.clean k hk), ?_, ?_⟩
  · rcases h'.settled with rfl | hs
    · exact h.settled
    · exact Or.inr hs
  · intro hn
    rw [h'.unallocated (h.allocQ.trans hn), h.unallocated hn]

theorem clean_congr {x y : State F Q T} (h : bare x = bare y) (k : Key F T) : Clean x k → Clean y k := by
  unfold Clean; rw [h]; exact id

theorem add_eff {c : F → Q → ℚ} {x y : State F Q T} (h : Wf x) {f : F} {d : Dir}
    (hr : ok? (addReference (known c) f d x) = some y) :
    ⟨f, d, none⟩ ∈ x.exchs.keys ∧ Eff c x y ∧ bare y = bare x ∧ y.refs = PySet.add x.refs ⟨f, d, none⟩ := by
  have hk := addReference_known (c := c) h f d
  split at hk
  · rename_i hm
    obtain ⟨y0, h1, h2, h3, h4, h5, h6⟩ := hk
    rw [h1] at hr
    simp only [ok?, Option.some.injEq] at hr
    subst hr
    refine ⟨hm, ⟨renew_wf h2, ?_, ?_, ?_, Or.inr (renew_settled c y0),
      fun hn => by rw [renew_none c (h5.trans hn), h6]⟩, ?_, ?_⟩
    · exact keys_eq ((renew_bare c y0).trans h3)
    · rw [(renew_fields c y0).2.2, h5]
    · exact fun k => clean_congr ((renew_bare c y0).trans h3).symm k
    · exact (renew_bare c y0).trans h3
    · rw [(renew_fields c y0).2.1, h4]
  · rw [ok?_of_value hk] at hr; simp at hr

theorem add_ok (c : F → Q → ℚ) {x : State F Q T} (h : Wf x) {f : F} {d : Dir}
    (hm : ⟨f, d, none⟩ ∈ x.exchs.keys) : ∃ y, ok? (addReference (known c) f d x) = some y := by
  have hk := addReference_known (c := c) h f d
  rw [if_pos hm] at hk
  obtain ⟨y0, h1, _⟩ := hk
  rw [h1]; exact ⟨_, rfl⟩

theorem add_twin {c : F → Q → ℚ} {x z x' z' : State F Q T} (hx : Wf x) (hz : Wf z) (hs : Same x z) {f : F} {d : Dir}
    (h1 : ok? (addReference (known c) f d x) = some x') (h2 : ok? (addReference (known c) f d z) = some z') :
    Twin x z x' z' := by
  have hk1 := addReference_known (c := c) hx f d
  have hk2 := addReference_known (c := c) hz f d
  rw [if_pos (add_eff hx h1).1] at hk1
  rw [if_pos (add_eff hz h2).1] at hk2
  obtain ⟨a, a1, _, a3, a4, a5, a6⟩ := hk1
  obtain ⟨b, b1, _, b3, b4, b5, b6⟩ := hk2
  rw [a1] at h1; rw [b1] at h2
  simp only [ok?, Option.some.injEq] at h1 h2
  subst h1 h2
  have := renew_twin c (a := a) (b := b)
    ⟨by rw [a3, b3, hs.bare], by rw [a4, b4, hs.refs], by rw [a5, b5, hs.allocQ]⟩
  refine ⟨this.1, ?_⟩
  rw [← a6, ← b6]; exact this.2

theorem rem_eff {c : F → Q → ℚ} {x y : State F Q T} (h : Wf x) {f : F} {d : Dir}
    (hr : ok? (removeReference (known c) f d x) = some y) :
    ⟨f, d, none⟩ ∈ x.exchs.keys ∧ Eff c x y ∧ bare y = scrub ⟨f, d, none⟩ (bare x) ∧
      y.refs = x.refs.filter (fun r => decide (r ≠ ⟨f, d, none⟩)) ∧ Clean y ⟨f, d, none⟩ := by
  have hk := removeReference_known (c := c) h f d
  split at hk
  · rename_i hm
    obtain ⟨y0, h1, h2, h3, h4, h5, h6⟩ := hk
    rw [h1] at hr
    simp only [ok?, Option.some.injEq] at hr
    subst hr
    have hb := (renew_bare c y0).trans h3
    refine ⟨hm, ⟨renew_wf h2, ?_, ?_, ?_, Or.inr (renew_settled c y0),
      fun hn => by rw [renew_none c (h5.trans hn), h6]⟩, hb, ?_, ?_⟩
    · rw [keys_bare, keys_bare, hb, scrub, List.map_map]; rfl
    · rw [(renew_fields c y0).2.2, h5]
    · exact (clean_scrub h.inv hb).2
    · rw [(renew_fields c y0).2.1, h4]
    · exact (clean_scrub h.inv hb).1
  · rw [ok?_of_value hk] at hr; simp at hr

theorem rem_ok (c : F → Q → ℚ) {x : State F Q T} (h : Wf x) {f : F} {d : Dir}
    (hm : ⟨f, d, none⟩ ∈ x.exchs.keys) : ∃ y, ok? (removeReference (known c) f d x) = some y := by
  have hk := removeReference_known (c := c) h f d
  rw [if_pos hm] at hk
  obtain ⟨y0, h1, _⟩ := hk
  rw [h1]; exact ⟨_, rfl⟩

theorem rem_twin {c : F → Q → ℚ} {x z x' z' : State F Q T} (hx : Wf x) (hz : Wf z) (hs : Same x z) {f : F} {d : Dir}
    (h1 : ok? (removeReference (known c) f d x) = some x') (h2 : ok? (removeReference (known c) f d z) = some z') :
    Twin x z x' z' := by
  have hk1 := removeReference_known (c := c) hx f d
  have hk2 := removeReference_known (c := c) hz f d
  rw [if_pos (rem_eff hx h1).1] at hk1
  rw [if_pos (rem_eff hz h2).1] at hk2
  obtain ⟨a, a1, _, a3, a4, a5, a6⟩ := hk1
  obtain ⟨b, b1, _, b3, b4, b5, b6⟩ := hk2
  rw [a1] at h1; rw [b1] at h2
  simp only [ok?, Option.some.injEq] at h1 h2
  subst h1 h2
  have := renew_twin c (a := a) (b := b)
    ⟨by rw [a3, b3, hs.bare], by rw [a4, b4, hs.refs], by rw [a5, b5, hs.allocQ]⟩
  refine ⟨this.1, ?_⟩
  rw [← a6, ← b6]; exact this.2

/-- composing twin runs -/
theorem Twin.trans {x z x' z' x'' z'' : State F Q T} (h : Twin x z x' z') (hx : Wf x') (hz : Wf z')
    (h' : Twin x' z' x'' z'') (hdet : x' = z' → x'' = z'') : Twin x z x'' z'' := by
  refine ⟨h'.1, ?_⟩
  rcases h.2 with h2 | ⟨h2, h3⟩
  · left; rw [hdet (h.1.eq hx hz h2)]
  · rcases h'.2 with h4 | ⟨h4, h5⟩
    · exact Or.inl h4
    · right; exact ⟨h4.trans h2, h5.trans h3⟩

/-! the list of removals of `remEvery` -/

theorem remList_cons (cf : F → Q → Option ℚ) (fd : F × Dir) (fds : List (F × Dir)) (x : State F Q T) :
    ok? (remList cf (fd :: fds) x) = (ok? (removeReference cf fd.1 fd.2 x)).bind fun y => ok? (remList cf fds y) := by
  simp only [remList]
  exact ok?_bind _ (fun _ x' => remList cf fds x') () (fun _ _ => rfl)

/-- the key of a flow and direction -/
def key (fd : F × Dir) : Key F T := ⟨fd.1, fd.2, none⟩

theorem remList_eff {c : F → Q → ℚ} (fds : List (F × Dir)) {x y : State F Q T} (h : Wf x)
    (hr : ok? (remList (known c) fds x) = some y) :
    Eff c x y ∧ y.refs = x.refs.filter (fun r => decide (∀ fd ∈ fds, r ≠ key fd)) ∧
      (∀ fd ∈ fds, Clean y (key fd)) ∧ ((∀ fd ∈ fds, Clean x (key fd)) → bare y = bare x) := by
  induction fds generalizing x with
  | nil =>
    simp only [remList, ok?, Option.some.injEq] at hr
    subst hr
    exact ⟨Eff.refl h, by simp, by simp, fun _ => rfl⟩
  | cons fd fds ih =>
    rw [remList_cons, Option.bind_eq_some_iff] at hr
    obtain ⟨w, h1, h2⟩ := hr
    obtain ⟨_, e1, b1, r1, c1⟩ := rem_eff h h1
    obtain ⟨e2, r2, c2, n2⟩ := ih e1.wf h2
    refine ⟨e1.trans e2, ?_, ?_, ?_⟩
    · rw [r2, r1, List.filter_filter]
      apply List.filter_congr
      intro k _
      simp only [List.mem_cons, forall_eq_or_imp, Bool.decide_and]
      rw [Bool.and_comm]; rfl
    · intro fd' hm
      rcases List.mem_cons.mp hm with rfl | hm
      · exact e2.clean _ c1
      · exact c2 _ hm
    · intro hc
      have hb : bare w = bare x := by
        rw [b1]; exact scrub_of_clean (hc fd List.mem_cons_self)
      rw [n2 (fun fd' hm => clean_congr hb.symm _ (hc fd' (List.mem_cons_of_mem _ hm))), hb]

theorem remList_ok (c : F → Q → ℚ) (fds : List (F × Dir)) {x : State F Q T} (h : Wf x)
    (hm : ∀ fd ∈ fds, (key fd : Key F T) ∈ x.exchs.keys) : ∃ y, ok? (remList (known c) fds x) = some y := by
  induction fds generalizing x with
  | nil => exact ⟨x, rfl⟩
  | cons fd fds ih =>
    obtain ⟨w, hw⟩ := rem_ok c h (hm fd List.mem_cons_self)
    obtain ⟨_, e1, _⟩ := rem_eff h hw
    obtain ⟨y, hy⟩ := ih e1.wf fun fd' h' => by rw [e1.keys]; exact hm fd' (List.mem_cons_of_mem _ h')
    refine ⟨y, ?_⟩
    rw [remList_cons, hw, Option.bind_some, hy]

theorem remList_twin {c : F → Q → ℚ} (fds : List (F × Dir)) {x z x' z' : State F Q T} (hx : Wf x) (hz : Wf z)
    (hs : Same x z) (h1 : ok? (remList (known c) fds x) = some x') (h2 : ok? (remList (known c) fds z) = some z') :
    Twin x z x' z' := by
  induction fds generalizing x z with
  | nil =>
    simp only [remList, ok?, Option.some.injEq] at h1 h2
    subst h1 h2
    exact ⟨hs, Or.inr ⟨rfl, rfl⟩⟩
  | cons fd fds ih =>
    rw [remList_cons, Option.bind_eq_some_iff] at h1 h2
    obtain ⟨w, h1, h3⟩ := h1
    obtain ⟨v, h2, h4⟩ := h2
    have ht := rem_twin hx hz hs h1 h2
    have hw := (rem_eff hx h1).2.1.wf
    have hv := (rem_eff hz h2).2.1.wf
    refine ht.trans hw hv (ih hw hv ht.1 h3 h4) ?_
    rintro rfl
    rw [h3] at h4
    simpa using h4

end Cfg
