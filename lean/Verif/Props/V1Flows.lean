import Verif.Model.V1Client
import Mathlib.Tactic.Ring
import Mathlib.Tactic.Linarith
import Mathlib.Tactic.FieldSimp
import Mathlib.Algebra.Order.Ring.Abs

/-!
Fragment flows taken from an Antelope v1 server (C208).
-/

set_option linter.unusedSimpArgs false

namespace Av1

/-! ### what is required -/

/-- roots first, then by id -/
def Ordered (a b : FlowDoc) : Prop :=
  (a.parent = none ∧ b.parent ≠ none) ∨ ((a.parent = none ↔ b.parent = none) ∧ a.id ≤ b.id)

/-- a fragment flow made of a document: the inbound exchange value, times the node weight, is the magnitude -/
structure MadeOf (d : FlowDoc) (m : Made) : Prop where
  id : m.id = d.id
  magnitude : m.magnitude = d.magnitude
  weight : m.weight = d.weight
  inbound : m.inbound * m.weight = m.magnitude
  zero : m.magnitude = 0 → m.inbound = 0

/-- what a document says of its flow: one unit of it is `v` in the flow property `q` -/
def Says (d : FlowDoc) (q : ℕ) (v : ℚ) : Prop := ∃ m, (q, m) ∈ d.others ∧ m = v * d.magnitude ∧ (m = 0 → v = 0)

/-! ### one flow -/

/-- what is known of flows is not changed by further fragment flows, and each is compared with it -/
theorem addChars_ok {close : ℚ → ℚ → Bool} {flow : ℕ} {mag : ℚ} (l : List (ℕ × ℚ)) : ∀ {c c' : Chars},
    addChars close flow mag l c = .ok c' →
    (∀ k w, c.get? k = some w → c'.get? k = some w) ∧
    (∀ q m, (q, m) ∈ l → (m ≠ 0 → mag ≠ 0) ∧
      ∃ w, c'.get? (flow, q) = some w ∧ (w = (if m = 0 then 0 else m / mag) ∨ close w (if m = 0 then 0 else m / mag) = true)) ∧
    (∀ k, c'.get? k ≠ none → c.get? k ≠ none ∨ k.1 = flow ∧ ∃ m, (k.2, m) ∈ l) := by
  induction l with
  | nil => intro c c' h; cases h; exact ⟨fun _ _ h => h, by simp, fun k h => .inl h⟩
  | cons a l ih =>
    obtain ⟨q, m⟩ := a
    intro c c' h
    unfold addChars at h
    split at h
    · cases h
    · rename_i hz
      have hz' : m ≠ 0 → mag ≠ 0 := by tauto
      simp only at h
      split at h
      · rename_i hg
        obtain ⟨h1, h2, h3⟩ := ih h
        refine ⟨?_, ?_, ?_⟩
        · intro k w hk
          apply h1
          rw [Dict.get?_set_ne]
          · exact hk
          · rintro rfl; rw [hg] at hk; cases hk
        · intro q' m' hm
          rcases List.mem_cons.mp hm with he | hm
          · cases he
            exact ⟨hz', _, h1 _ _ (Dict.get?_set_self _ _ _), .inl rfl⟩
          · exact h2 _ _ hm
        · intro k hk
          rcases h3 k hk with h4 | ⟨h4, m', h5⟩
          · by_cases hkk : k = (flow, q)
            · subst hkk; exact .inr ⟨rfl, m, by simp⟩
            · rw [Dict.get?_set_ne _ _ (Ne.symm hkk)] at h4; exact .inl h4
          · exact .inr ⟨h4, m', List.mem_cons_of_mem _ h5⟩
      · rename_i w hg
        cases hc : close w (if m = 0 then 0 else m / mag) with
        | true =>
          simp only [hc, if_true] at h
          obtain ⟨h1, h2, h3⟩ := ih h
          refine ⟨h1, ?_, ?_⟩
          · intro q' m' hm
            rcases List.mem_cons.mp hm with he | hm
            · cases he
              exact ⟨hz', w, h1 _ _ hg, .inr hc⟩
            · exact h2 _ _ hm
          · intro k hk
            rcases h3 k hk with h4 | ⟨h4, m', h5⟩
            · exact .inl h4
            · exact .inr ⟨h4, m', List.mem_cons_of_mem _ h5⟩
        | false => simp [hc] at h

theorem addChars_again {close : ℚ → ℚ → Bool} {flow : ℕ} {mag : ℚ} (l : List (ℕ × ℚ)) {c : Chars}
    (h : ∀ q m, (q, m) ∈ l → (m ≠ 0 → mag ≠ 0) ∧
      ∃ w, c.get? (flow, q) = some w ∧ close w (if m = 0 then 0 else m / mag) = true) :
    addChars close flow mag l c = .ok c := by
  induction l with
  | nil => rfl
  | cons a l ih =>
    obtain ⟨q, m⟩ := a
    obtain ⟨hz, w, hw, hc⟩ := h q m List.mem_cons_self
    unfold addChars
    rw [if_neg (by tauto)]
    simp only [hw, hc, if_true]
    exact ih (fun q m hm => h q m (List.mem_cons_of_mem _ hm))

theorem fromV1_ok {close : ℚ → ℚ → Bool} {d : FlowDoc} {c c' : Chars} {m : Made} (h : fromV1 close d c = .ok (m, c')) :
    addChars close d.flow d.magnitude d.others c = .ok c' ∧ MadeOf d m := by
  unfold fromV1 at h
  split at h
  · cases h
  · rename_i c2 h2
    split at h
    · rename_i hz
      cases h
      exact ⟨h2, ⟨rfl, rfl, rfl, by simp [hz], fun _ => rfl⟩⟩
    · rename_i hz
      split at h
      · cases h
      · rename_i hw
        cases h
        refine ⟨h2, ⟨rfl, rfl, rfl, ?_, ?_⟩⟩
        · simp only; field_simp
        · intro h0; exact absurd h0 hz

theorem fromV1_again {close : ℚ → ℚ → Bool} {d : FlowDoc} {c c' c2 : Chars} {m : Made} (h : fromV1 close d c = .ok (m, c'))
    (h2 : addChars close d.flow d.magnitude d.others c2 = .ok c2) : fromV1 close d c2 = .ok (m, c2) := by
  unfold fromV1 at h ⊢
  simp only [h2]
  split at h
  · cases h
  · split at h
    · rename_i hz; cases h; rw [if_pos hz]
    · rename_i hz
      split at h
      · cases h
      · rename_i hw; cases h; rw [if_neg hz, if_neg hw]

theorem makeAll_ok {close : ℚ → ℚ → Bool} (l : List FlowDoc) : ∀ {c c' : Chars} {ms : List Made},
    makeAll close l c = .ok (ms, c') →
    List.Forall₂ MadeOf l ms ∧ (∀ k w, c.get? k = some w → c'.get? k = some w) ∧
    (∀ d ∈ l, ∀ q m, (q, m) ∈ d.others → (m ≠ 0 → d.magnitude ≠ 0) ∧ ∃ w, c'.get? (d.flow, q) = some w ∧
      (w = (if m = 0 then 0 else m / d.magnitude) ∨ close w (if m = 0 then 0 else m / d.magnitude) = true)) := by
  induction l with
  | nil => intro c c' ms h; cases h; exact ⟨.nil, fun _ _ h => h, by simp⟩
  | cons d l ih =>
    intro c c' ms h
    unfold makeAll at h
    split at h
    · cases h
    · rename_i m c1 h1
      split at h
      · cases h
      · rename_i ms2 c2 h2
        cases h
        obtain ⟨ha, hm⟩ := fromV1_ok h1
        obtain ⟨k1, k2, -⟩ := addChars_ok _ ha
        obtain ⟨i1, i2, i3⟩ := ih h2
        refine ⟨.cons hm i1, fun k w hk => i2 _ _ (k1 _ _ hk), ?_⟩
        intro d' hd
        rcases List.mem_cons.mp hd with rfl | hd
        · intro q m' hq
          obtain ⟨a, w, b, e⟩ := k2 q m' hq
          exact ⟨a, w, i2 _ _ b, e⟩
        · exact i3 d' hd

theorem makeAll_again {close : ℚ → ℚ → Bool} (l : List FlowDoc) : ∀ {c c' c2 : Chars} {ms : List Made},
    makeAll close l c = .ok (ms, c') →
    (∀ d ∈ l, addChars close d.flow d.magnitude d.others c2 = .ok c2) → makeAll close l c2 = .ok (ms, c2) := by
  induction l with
  | nil => intro c c' c2 ms h _; cases h; rfl
  | cons d l ih =>
    intro c c' c2 ms h ha
    unfold makeAll at h
    split at h
    · cases h
    · rename_i m c1 h1
      split at h
      · cases h
      · rename_i ms2 c3 h2
        cases h
        unfold makeAll
        rw [fromV1_again h1 (ha d List.mem_cons_self)]
        simp only
        rw [ih h2 (fun d hd => ha d (List.mem_cons_of_mem _ hd))]

theorem before_iff (a b : FlowDoc) : before a b = true ↔ Ordered a b := by
  unfold before Ordered
  cases ha : a.parent <;> cases hb : b.parent <;> simp

/-! ### all flows (C208) -/

/-- C208: the flows of a fragment are those of the server, each once, roots first and then by id; the inbound exchange value times the
node weight is the magnitude. -/
theorem traverse_ok {close : ℚ → ℚ → Bool} {docs : List FlowDoc} {c c' : Chars} {ms : List Made}
    (h : traverse close docs c = .ok (ms, c')) :
    ∃ ds : List FlowDoc, ds.Perm docs ∧ ds.Pairwise Ordered ∧ List.Forall₂ MadeOf ds ms := by
  refine ⟨_, List.perm_insertionSort _ _, ?_, (makeAll_ok _ h).1⟩
  have : Std.Total (fun a b : FlowDoc => before a b = true) := ⟨by
    intro a b; rw [before_iff, before_iff]
    unfold Ordered
    by_cases ha : a.parent = none <;> by_cases hb : b.parent = none <;> simp [ha, hb]
    · omega
    · omega⟩
  have : IsTrans FlowDoc (fun a b => before a b = true) := ⟨by
    intro a b c; rw [before_iff, before_iff, before_iff]
    unfold Ordered
    by_cases ha : a.parent = none <;> by_cases hb : b.parent = none <;> by_cases hc : c.parent = none <;> simp [ha, hb, hc]
    · omega
    · omega⟩
  have hp : (docs.insertionSort fun a b => before a b = true).Pairwise (fun a b => before a b = true) :=
    List.pairwise_insertionSort _ _
  exact hp.imp fun {a b} hab => (before_iff a b).mp hab

/-- C208: what is known of flows does not change, and everything the server says of them is known, or close to what is. -/
theorem traverse_chars {close : ℚ → ℚ → Bool} {docs : List FlowDoc} {c c' : Chars} {ms : List Made}
    (h : traverse close docs c = .ok (ms, c')) :
    (∀ k w, c.get? k = some w → c'.get? k = some w) ∧
    ∀ d ∈ docs, ∀ q v, Says d q v → d.magnitude ≠ 0 → ∃ w, c'.get? (d.flow, q) = some w ∧ (w = v ∨ close w v = true) := by
  obtain ⟨-, h2, h3⟩ := makeAll_ok _ h
  refine ⟨h2, ?_⟩
  rintro d hd q v ⟨m, hm, hv, hz⟩ hmag
  obtain ⟨-, w, h4, h5⟩ := h3 d ((List.mem_insertionSort _).mpr hd) q m hm
  have : (if m = 0 then 0 else m / d.magnitude) = v := by
    split
    · rename_i h0; exact (hz h0).symm
    · rw [hv]; field_simp
  rw [this] at h5
  exact ⟨w, h4, h5⟩

/-- C208: traversing again gives the same flows, and nothing more becomes known. -/
theorem traverse_again {close : ℚ → ℚ → Bool} (hrefl : ∀ v, close v v = true) {docs : List FlowDoc} {c c' : Chars} {ms : List Made}
    (h : traverse close docs c = .ok (ms, c')) : traverse close docs c' = .ok (ms, c') := by
  obtain ⟨-, -, h3⟩ := makeAll_ok _ h
  refine makeAll_again _ h ?_
  intro d hd
  apply addChars_again
  intro q m hm
  obtain ⟨a, w, b, e⟩ := h3 d hd q m hm
  refine ⟨a, w, b, ?_⟩
  rcases e with rfl | e
  · exact hrefl _
  · exact e

theorem isclose9_refl (v : ℚ) : isclose9 v v = true := by simp [isclose9]

theorem isclose9_zero {v : ℚ} (hv : v ≠ 0) : isclose9 0 v = false ∧ isclose9 v 0 = false := by
  have hp := abs_pos.mpr hv
  have h1 : max |(0 : ℚ)| |v| = |v| := by simp
  have h2 : max |v| |(0 : ℚ)| = |v| := by simp
  constructor
  · simp only [isclose9, decide_eq_false_iff_not, h1, zero_sub, abs_neg, not_le]
    linarith
  · simp only [isclose9, decide_eq_false_iff_not, h2, sub_zero, not_le]
    linarith

/-- C208: a fragment in which one flow occurs with a magnitude 0 and with another one in the same flow property cannot be traversed:
that it is 0 where the flow is not used is taken for a statement about the flow. -/
theorem traverse_zero_raises {docs : List FlowDoc} {c : Chars} {d d' : FlowDoc} {q : ℕ} {m : ℚ} (hd : d ∈ docs) (hd' : d' ∈ docs)
    (hf : d.flow = d'.flow) (h0 : (q, 0) ∈ d.others) (hm : (q, m) ∈ d'.others) (hm0 : m ≠ 0) :
    ∃ e, traverse isclose9 docs c = .error e := by
  cases h : traverse isclose9 docs c with
  | error e => exact ⟨e, rfl⟩
  | ok x =>
    exfalso
    obtain ⟨ms, c'⟩ := x
    obtain ⟨-, -, h3⟩ := makeAll_ok _ h
    obtain ⟨-, w, h4, h5⟩ := h3 d ((List.mem_insertionSort _).mpr hd) q 0 h0
    obtain ⟨hz, w', h6, h7⟩ := h3 d' ((List.mem_insertionSort _).mpr hd') q m hm
    rw [← hf, h4] at h6
    cases h6
    rw [if_neg hm0] at h7
    have hv : m / d'.magnitude ≠ 0 := div_ne_zero hm0 (hz hm0)
    simp only [if_true] at h5
    have hw : w = 0 := by
      rcases h5 with h5 | h5
      · exact h5
      · by_contra hw
        rw [(isclose9_zero hw).2] at h5; cases h5
    subst hw
    rcases h7 with h7 | h7
    · exact hv h7.symm
    · rw [(isclose9_zero hv).1] at h7; cases h7

/-- C208: so does one with a magnitude but no node weight, or with another magnitude but none of its own -/
theorem traverse_weight_raises {close : ℚ → ℚ → Bool} {docs : List FlowDoc} {c : Chars} {d : FlowDoc} (hd : d ∈ docs)
    (h0 : d.magnitude ≠ 0 ∧ d.weight = 0 ∨ d.magnitude = 0 ∧ ∃ q m, (q, m) ∈ d.others ∧ m ≠ 0) :
    ∃ e, traverse close docs c = .error e := by
  cases h : traverse close docs c with
  | error e => exact ⟨e, rfl⟩
  | ok x =>
    exfalso
    obtain ⟨ms, c'⟩ := x
    obtain ⟨h1, -, h3⟩ := makeAll_ok _ h
    rcases h0 with ⟨hm, hw⟩ | ⟨hm, q, m, hq, hm0⟩
    · have : ∀ (l : List FlowDoc) (ms : List Made), List.Forall₂ MadeOf l ms → d ∈ l → ∃ m, MadeOf d m := by
        intro l ms hf
        induction hf with
        | nil => simp
        | cons a _ ih =>
          intro hd
          rcases List.mem_cons.mp hd with rfl | hd
          · exact ⟨_, a⟩
          · exact ih hd
      obtain ⟨m, hmm⟩ := this _ _ h1 ((List.mem_insertionSort _).mpr hd)
      have := hmm.inbound
      rw [hmm.weight, hmm.magnitude, hw, mul_zero] at this
      exact hm this.symm
    · exact (h3 d ((List.mem_insertionSort _).mpr hd) q m hq).1 hm0 hm

/-- three flows: a root, and two with the same flow and one characterization -/
def exFlows : List FlowDoc := [⟨3, some 2, 5, 4, [(9, 2)], 2, ⟩, ⟨1, some 2, 5, 2, [(9, 1)], 4⟩, ⟨2, none, 6, 0, [], 0⟩]

example : (traverse isclose9 exFlows []).toOption =
    some ([⟨2, 0, 0, 0⟩, ⟨1, 2, 4, 1 / 2⟩, ⟨3, 4, 2, 2⟩], [((5, 9), 1 / 2)]) ∧
    (traverse isclose9 (⟨4, some 2, 5, 0, [(9, 0)], 1⟩ :: exFlows) []).toOption = none := by decide +kernel

end Av1
