import Mathlib.Algebra.BigOperators.Ring.List
import Verif.Lemmas.Process

/-!
Properties C22 (quantity allocation), C23 (reference exchanges) and C24 (exchange values are kept) of processes, and
C25 (market shares).
-/

namespace Proc
variable {F Q T : Type} [DecidableEq F] [DecidableEq T]

/-! ### specification -/

/-- the states a process can be in: any sequence of calls, raising or not, with any characterisation factors at
the time of each call -/
inductive Reach (str : T → T) : State F Q T → Prop
  | new : Reach str {}
  | call (cf : F → Q → Option ℚ) (op : Op F Q T) {p : State F Q T} : Reach str p → Reach str (step str cf op p).2

/-- the amount of a reference exchange (a missing value counts for nothing) -/
def amount (p : State F Q T) (r : Key F T) : ℚ := ((p.exchs.get? r).bind (·.val)).getD 0

/-- the total of the reference flows, measured by a quantity with factors `c` -/
def refTotal (c : F → Q → ℚ) (q : Q) (p : State F Q T) : ℚ := (p.refs.map fun r => amount p r * c r.flow q).sum

/-- factors known for all flows -/
def known (c : F → Q → ℚ) : F → Q → Option ℚ := fun f q => some (c f q)

theorem reach_inv {str : T → T} {p : State F Q T} (h : Reach str p) : Inv p := by
  induction h with
  | new => exact inv_init
  | call cf op _ ih =>
    cases op with
    | addExchange f d r v t a => exact inv_addExchange ih str f d r v t a
    | addReference f d => exact inv_addReference ih cf f d
    | removeReference f d => exact inv_removeReference ih cf f d
    | allocate q => exact inv_congr ih (allocate_fields cf q _).1 (allocate_fields cf q _).2
    | removeAllocation r => exact inv_removeAllocation ih r

/-! ### C23 -/

/-- C23: whatever the process has been through, the value of a reference exchange with respect to a reference
exchange is 1 for the same exchange and 0 for another. -/
theorem reference_relation {str : T → T} {p : State F Q T} (h : Reach str p) (cf : F → Q → Option ℚ)
    {r s : Key F T} (hr : r ∈ p.refs) (hs : s ∈ p.refs) :
    getItem cf p r s = .ok (if r = s then 1 else 0) := by
  have hI := reach_inv h
  obtain ⟨e, h1, h2⟩ := (hI.refs r).mp hr
  obtain ⟨e', h3, h4⟩ := (hI.refs s).mp hs
  unfold getItem
  rw [h1, h3]
  simp only [h2, h4, if_true]
  by_cases hrs : r = s
  · rw [if_pos hrs.symm, if_pos hrs]
  · rw [if_neg (Ne.symm hrs), if_neg hrs]

/-! ### C22 -/

theorem allocDict_spec (c : F → Q → ℚ) (q : Q) (p : State F Q T) (rs : List (Key F T))
    (h : ∀ r ∈ rs, ∃ e, p.exchs.get? r = some e) :
    ∃ l, allocDict (known c) q p rs = .ok l ∧
      (l.map (·.2)).sum = (rs.map fun r => amount p r * c r.flow q).sum ∧
      ∀ km ∈ l, km.1 ∈ rs ∧ km.2 = amount p km.1 * c km.1.flow q := by
  induction rs with
  | nil => exact ⟨[], rfl, rfl, by simp⟩
  | cons r rs ih =>
    obtain ⟨l, h1, h2, h3⟩ := ih fun r' hr' => h r' (List.mem_cons_of_mem _ hr')
    obtain ⟨e, he⟩ := h r List.mem_cons_self
    unfold allocDict
    simp only [he]
    cases hv : e.val with
    | none =>
      refine ⟨l, h1, ?_, fun km hkm => ⟨List.mem_cons_of_mem _ (h3 km hkm).1, (h3 km hkm).2⟩⟩
      rw [List.map_cons, List.sum_cons, h2]
      simp [amount, he, hv]
    | some v =>
      simp only [pyMul, known, h1]
      refine ⟨_, rfl, ?_, ?_⟩
      · simp [amount, he, hv, h2]
      · intro km hkm
        rcases List.mem_cons.mp hkm with rfl | hkm
        · exact ⟨List.mem_cons_self, by simp [amount, he, hv]⟩
        · exact ⟨List.mem_cons_of_mem _ (h3 km hkm).1, (h3 km hkm).2⟩

theorem allocate_spec {p : State F Q T} (hI : Inv p) (c : F → Q → ℚ) (q : Q) :
    allocate (known c) (some q) p =
      .ok () (if refTotal c q p = 0 then p else { p with allocQ := some q, allocSum := refTotal c q p }) := by
  obtain ⟨l, h1, h2, _⟩ := allocDict_spec c q p p.refs fun r hr => by
    obtain ⟨e, he, _⟩ := (hI.refs r).mp hr; exact ⟨e, he⟩
  unfold allocate
  simp only [h1, h2]
  unfold refTotal
  split <;> rfl

/-- the recorded total is that of the present reference exchanges -/
def Fresh (c : F → Q → ℚ) (p : State F Q T) : Prop := ∀ q, p.allocQty = some q → p.allocSum = refTotal c q p

theorem allocQty_some {p : State F Q T} {q : Q} (h : p.allocQty = some q) : p.allocSum ≠ 0 := by
  unfold State.allocQty at h
  split at h
  · assumption
  · simp at h

theorem allocQty_allocQ {p : State F Q T} {q : Q} (h : p.allocQty = some q) : p.allocQ = some q := by
  unfold State.allocQty at h
  split at h
  · assumption
  · simp at h

/-- C22, conservation, in every reachable state whose recorded total is up to date: the amounts of a non-reference
exchange allocated to a unit of each reference, weighted with the amounts of the references, add up to its value,
and they are proportional to the characterisation factors of the references. -/
theorem allocation_conserves {str : T → T} {p : State F Q T} (h : Reach str p) (c : F → Q → ℚ) (hf : Fresh c p)
    {q : Q} (hq : p.allocQty = some q) {x : Key F T} {e : Exch F T} (hx : p.exchs.get? x = some e)
    (hnr : x ∉ p.refs) {v : ℚ} (hv : e.val = some v) :
    ∃ a : Key F T → ℚ, (∀ r ∈ p.refs, getItem (known c) p x r = .ok (a r)) ∧
      (p.refs.map fun r => a r * amount p r).sum = v ∧
      ∀ r, a r * refTotal c q p = v * c r.flow q := by
  have hI := reach_inv h
  have hs := allocQty_some hq
  have hsum := hf q hq
  refine ⟨fun r => v / p.allocSum * c r.flow q, ?_, ?_, ?_⟩
  · intro r hr
    obtain ⟨e', h1, h2⟩ := (hI.refs r).mp hr
    have he : e.isRef = false := by
      cases hb : e.isRef with
      | false => rfl
      | true => exact absurd ((hI.refs x).mpr ⟨e, hx, hb⟩) hnr
    unfold getItem
    rw [hx, h1]
    simp only [h2, he, if_true, hq, hv, pyDiv, if_neg hs, pyMul, known, Bool.false_eq_true, if_false]
  · have : (fun r => v / p.allocSum * c r.flow q * amount p r) =
        fun r : Key F T => v / p.allocSum * (amount p r * c r.flow q) := by
      funext r; ring
    rw [this, List.sum_map_mul_left]
    change v / p.allocSum * refTotal c q p = v
    rw [← hsum]
    field_simp
  · intro r
    rw [← hsum]
    field_simp

/-- allocating with a nonzero total makes the recorded total up to date -/
theorem allocate_fresh {str : T → T} {p : State F Q T} (h : Reach str p) (c : F → Q → ℚ) (q : Q)
    (hT : refTotal c q p ≠ 0) : ∃ p', allocate (known c) (some q) p = .ok () p' ∧ p'.exchs = p.exchs ∧
      p'.refs = p.refs ∧ p'.allocQty = some q ∧ Fresh c p' ∧ Reach str p' := by
  have hspec := allocate_spec (reach_inv h) c q
  rw [if_neg hT] at hspec
  refine ⟨_, hspec, rfl, rfl, ?_, ?_, ?_⟩
  · simp [State.allocQty, hT]
  · intro q' hq'
    simp [State.allocQty, hT] at hq'
    subst hq'
    rfl
  · have := Reach.call (known c) (.allocate (some q)) h
    simp only [step, hspec, Out.state] at this
    exact this

/-- C22 for the calls `allocate_by_quantity(q)` and then `x[r]`. -/
theorem allocate_then_conserves {str : T → T} {p : State F Q T} (h : Reach str p) (c : F → Q → ℚ) (q : Q)
    (hT : refTotal c q p ≠ 0) :
    ∃ p', allocate (known c) (some q) p = .ok () p' ∧
      ∀ x e v, p.exchs.get? x = some e → x ∉ p.refs → e.val = some v →
        ∃ a : Key F T → ℚ, (∀ r ∈ p.refs, getItem (known c) p' x r = .ok (a r)) ∧
          (p.refs.map fun r => a r * amount p r).sum = v ∧
          ∀ r, a r * refTotal c q p = v * c r.flow q := by
  obtain ⟨p', h1, h2, h3, h4, h5, h6⟩ := allocate_fresh h c q hT
  refine ⟨p', h1, ?_⟩
  intro x e v hx hnr hv
  have ha : amount p' = amount p := by funext r; unfold amount; rw [h2]
  have ht : refTotal c q p' = refTotal c q p := by unfold refTotal; rw [h3, ha]
  have := allocation_conserves h6 c h5 h4 (x := x) (e := e) (by rw [h2]; exact hx) (by rw [h3]; exact hnr) hv
  rw [h3, ha, ht] at this
  exact this

/-- C22, `allocation_factors`: defined when the total is nonzero; they add up to one and each is proportional to
the amount of its reference times its characterisation factor. -/
theorem allocation_factors_sum {str : T → T} {p : State F Q T} (h : Reach str p) (c : F → Q → ℚ) (q : Q)
    (hT : refTotal c q p ≠ 0) :
    ∃ l, allocFactors (known c) q p = .ok l ∧ (l.map (·.2)).sum = 1 ∧
      ∀ kf ∈ l, kf.1 ∈ p.refs ∧ kf.2 * refTotal c q p = amount p kf.1 * c kf.1.flow q := by
  have hI := reach_inv h
  obtain ⟨l, h1, h2, h3⟩ := allocDict_spec c q p p.refs fun r hr => by
    obtain ⟨e, he, _⟩ := (hI.refs r).mp hr; exact ⟨e, he⟩
  have h2' : (l.map (·.2)).sum = refTotal c q p := h2
  unfold allocFactors
  simp only [h1, h2']
  rw [if_neg (by tauto)]
  refine ⟨_, rfl, ?_, ?_⟩
  · have : (l.map fun kv => (kv.1, kv.2 / refTotal c q p)).map (·.2) = l.map fun kv => kv.2 * (refTotal c q p)⁻¹ := by
      rw [List.map_map]; apply List.map_congr_left; intro kv _; simp [div_eq_mul_inv]
    rw [this, List.sum_map_mul_right, h2']
    exact mul_inv_cancel₀ hT
  · intro kf hkf
    obtain ⟨km, hkm, rfl⟩ := List.mem_map.mp hkf
    obtain ⟨h4, h5⟩ := h3 km hkm
    refine ⟨h4, ?_⟩
    simp only
    rw [div_mul_cancel₀ _ hT, h5]

/-- every reference with a value has its factor -/
theorem allocDict_complete (c : F → Q → ℚ) (q : Q) (p : State F Q T) (rs : List (Key F T)) :
    ∀ l, allocDict (known c) q p rs = .ok l → ∀ r ∈ rs, ∀ e v, p.exchs.get? r = some e → e.val = some v →
      r ∈ l.map (·.1) := by
  induction rs with
  | nil => intro l _ r hr; simp at hr
  | cons r rs ih =>
    intro l hl r' hr' e v he hv
    unfold allocDict at hl
    cases he0 : p.exchs.get? r with
    | none => simp [he0] at hl
    | some e0 =>
      simp only [he0] at hl
      cases hv0 : e0.val with
      | none =>
        simp only [hv0] at hl
        rcases List.mem_cons.mp hr' with rfl | hr'
        · rw [he] at he0; cases he0; rw [hv] at hv0; simp at hv0
        · exact ih l hl r' hr' e v he hv
      | some v0 =>
        have hm : pyMul (some v0) (known c r.flow q) = .ok (v0 * c r.flow q) := rfl
        simp only [hv0, hm] at hl
        cases hd : allocDict (known c) q p rs with
        | error err => simp only [hd] at hl; cases hl
        | ok l0 =>
          simp only [hd] at hl
          cases hl
          rcases List.mem_cons.mp hr' with rfl | hr'
          · exact List.mem_cons_self
          · exact List.mem_cons_of_mem _ (ih l0 hd r' hr' e v he hv)

theorem allocation_factors_complete (c : F → Q → ℚ) (q : Q) (p : State F Q T) {l : List (Key F T × ℚ)}
    (h : allocFactors (known c) q p = .ok l) {r : Key F T} (hr : r ∈ p.refs) {e : Exch F T} {v : ℚ}
    (he : p.exchs.get? r = some e) (hv : e.val = some v) : r ∈ l.map (·.1) := by
  unfold allocFactors at h
  cases hd : allocDict (known c) q p p.refs with
  | error err => simp [hd] at h
  | ok d =>
    simp only [hd] at h
    split at h
    · simp at h
    · cases h
      have := allocDict_complete c q p p.refs d hd r hr e v he hv
      simpa [List.map_map] using this

/-! #### when the recorded total stays up to date -/

theorem refTotal_congr (c : F → Q → ℚ) (q : Q) {p p' : State F Q T} (h1 : p'.refs = p.refs)
    (h2 : ∀ r ∈ p.refs, amount p' r = amount p r) : refTotal c q p' = refTotal c q p := by
  unfold refTotal
  rw [h1]
  congr 1
  apply List.map_congr_left
  intro r hr
  rw [h2 r hr]

theorem addExchange_alloc (str : T → T) (f : F) (d : Dir) (r : Option (Key F T)) (v : Option ℚ) (t : Option T)
    (a : Bool) (p : State F Q T) :
    (addExchange str f d r v t a p).state.refs = p.refs ∧ (addExchange str f d r v t a p).state.allocQ = p.allocQ ∧
      (addExchange str f d r v t a p).state.allocSum = p.allocSum := by
  rcases addExchange_cases str f d r v t a p with h | ⟨e, e', w, _, _, _, _, h⟩ | ⟨_, e', _, _, h⟩
  · rw [h]; exact ⟨rfl, rfl, rfl⟩
  · rw [h]; exact ⟨rfl, rfl, rfl⟩
  · rw [h]; exact ⟨rfl, rfl, rfl⟩

theorem fresh_congr (c : F → Q → ℚ) {p p' : State F Q T} (h : Fresh c p) (h1 : p'.refs = p.refs)
    (h2 : ∀ r ∈ p.refs, amount p' r = amount p r) (h3 : p'.allocQ = p.allocQ) (h4 : p'.allocSum = p.allocSum) :
    Fresh c p' := by
  intro q hq
  rw [h4, refTotal_congr c q h1 h2]
  apply h
  unfold State.allocQty at hq ⊢
  rw [h3, h4] at hq
  exact hq

theorem fresh_of_allocate (c : F → Q → ℚ) {p : State F Q T} (hI : Inv p) (q : Q) (hT : refTotal c q p ≠ 0) :
    Fresh c (allocate (known c) (some q) p).state := by
  rw [allocate_spec hI, if_neg hT]
  intro q' hq'
  simp [Out.state, State.allocQty, hT] at hq'
  subst hq'
  rfl

/-- a call that keeps the recorded total up to date: it leaves the reference exchanges and their amounts alone, or
it adds or removes a reference and the new total is not zero -/
def Benign (str : T → T) (c : F → Q → ℚ) (op : Op F Q T) (p : State F Q T) : Prop :=
  ((step str (known c) op p).2.refs = p.refs ∧
    ∀ r ∈ p.refs, amount (step str (known c) op p).2 r = amount p r) ∨
  ((∃ f d, op = .addReference f d ∨ op = .removeReference f d) ∧
    ∀ q, p.allocQ = some q → refTotal c q (step str (known c) op p).2 ≠ 0)

/-- C22: in a history of such calls (among them any number of allocations) the recorded total is always up to
date, so `allocation_conserves` applies. -/
theorem fresh_step {str : T → T} {p : State F Q T} (h : Reach str p) (c : F → Q → ℚ) (hf : Fresh c p)
    (op : Op F Q T) (hb : Benign str c op p) : Fresh c (step str (known c) op p).2 := by
  have hI := reach_inv h
  have alloc : ∀ (q : Q) (p1 : State F Q T), Inv p1 →
      (Fresh c p1 ∨ ∀ q, refTotal c q (allocate (known c) (some q) p1).state ≠ 0) →
      Fresh c (allocate (known c) (some q) p1).state := by
    intro q p1 hI1 hor
    by_cases hT : refTotal c q p1 = 0
    · rcases hor with hf | hn
      · rw [allocate_spec hI1, if_pos hT]; exact hf
      · have := hn q
        rw [allocate_spec hI1, if_pos hT] at this
        exact absurd hT this
    · exact fresh_of_allocate c hI1 q hT
  cases op with
  | addExchange f d r v t a =>
    obtain ⟨h1, h2, h3⟩ := addExchange_alloc str f d r v t a p
    rcases hb with ⟨_, h5⟩ | ⟨⟨f, d, h4 | h4⟩, _⟩
    · exact fresh_congr c hf h1 h5 h2 h3
    · simp at h4
    · simp at h4
  | removeAllocation r =>
    rcases hb with ⟨h4, h5⟩ | ⟨⟨f, d, h4 | h4⟩, _⟩
    · exact fresh_congr c hf h4 h5 rfl rfl
    · simp at h4
    · simp at h4
  | allocate q =>
    cases q with
    | none =>
      intro q hq
      simp [step, allocate, Out.state, State.allocQty] at hq
    | some q => exact alloc q p hI (Or.inl hf)
  | addReference f d =>
    obtain ⟨p1, ⟨r, hr, hst, hnone, hsome⟩, hq1, hs1, hp1⟩ := addReference_state (known c) f d p
    have hI1 : Inv p1 := by
      rcases hp1 with ⟨_, rfl⟩ | ⟨e, hg, rfl⟩
      · exact hI
      · exact inv_makeRef hI hg
    have hstate : (step str (known c) (.addReference f d) p).2 = r.state := hst
    rw [hstate]
    unfold Benign at hb
    rw [hstate] at hb
    have haq : p1.allocQty = p.allocQty := by unfold State.allocQty; rw [hq1, hs1]
    cases hq : p.allocQty with
    | none =>
      rw [hnone hq]
      intro q hq'
      simp only [Out.state] at hq'
      rw [haq, hq] at hq'
      simp at hq'
    | some q =>
      rw [hsome q hq] at hb ⊢
      by_cases hT : refTotal c q p1 = 0
      · have hst' : (allocate (known c) (some q) p1).state = p1 := by rw [allocate_spec hI1, if_pos hT]; rfl
        rw [hst'] at hb ⊢
        rcases hb with ⟨h4, h5⟩ | ⟨_, h6⟩
        · exact fresh_congr c hf h4 h5 hq1 hs1
        · exact absurd hT (h6 q (by first | assumption | exact allocQty_allocQ hq))
      · exact fresh_of_allocate c hI1 q hT
  | removeReference f d =>
    have hstate : (step str (known c) (.removeReference f d) p).2 = (removeReference (known c) f d p).state := rfl
    unfold Benign at hb
    rw [hstate] at hb ⊢
    rcases removeReference_eq (known c) f d p with ⟨_, h2⟩ | ⟨e, hg, ⟨hqn, h2⟩ | ⟨q, hqs, h2⟩⟩
    · rw [h2]; exact hf
    · rw [h2]
      intro q hq'
      simp [Out.state, State.allocQty, dropRef, removeAllocation, hqn] at hq'
    · rw [h2] at hb ⊢
      have hI1 := inv_dropRef hI hg
      by_cases hT : refTotal c q (dropRef ⟨f, d, none⟩ e p) = 0
      · have hst' : (allocate (known c) (some q) (dropRef ⟨f, d, none⟩ e p)).state = dropRef ⟨f, d, none⟩ e p := by
          rw [allocate_spec hI1, if_pos hT]; rfl
        rw [hst'] at hb ⊢
        rcases hb with ⟨h4, h5⟩ | ⟨_, h6⟩
        · exact fresh_congr c hf h4 h5 rfl rfl
        · exact absurd hT (h6 q (by first | assumption | exact allocQty_allocQ hq))
      · exact fresh_of_allocate c hI1 q hT

/-- histories of benign calls -/
inductive BReach (str : T → T) (c : F → Q → ℚ) : State F Q T → Prop
  | new : BReach str c {}
  | call (op : Op F Q T) {p : State F Q T} : BReach str c p → Benign str c op p →
      BReach str c (step str (known c) op p).2

theorem breach_fresh {str : T → T} {c : F → Q → ℚ} {p : State F Q T} (h : BReach str c p) :
    Reach str p ∧ Fresh c p := by
  induction h with
  | new => exact ⟨.new, fun q hq => by simp [State.allocQty] at hq⟩
  | call op _ hb ih => exact ⟨.call _ op ih.1, fresh_step ih.1 c ih.2 op hb⟩

/-- C22 over histories of calls. -/
theorem allocation_conserves_partial {str : T → T} {c : F → Q → ℚ} {p : State F Q T} (h : BReach str c p)
    {q : Q} (hq : p.allocQty = some q) {x : Key F T} {e : Exch F T} (hx : p.exchs.get? x = some e)
    (hnr : x ∉ p.refs) {v : ℚ} (hv : e.val = some v) :
    ∃ a : Key F T → ℚ, (∀ r ∈ p.refs, getItem (known c) p x r = .ok (a r)) ∧
      (p.refs.map fun r => a r * amount p r).sum = v ∧
      ∀ r, a r * refTotal c q p = v * c r.flow q :=
  allocation_conserves (breach_fresh h).1 c (breach_fresh h).2 hq hx hnr hv

/-! ### C24 -/

/-- what may happen to a stored number under `add_exchange` with value `w` -/
def Kept (old : Option ℚ) (w : Option ℚ) (addDups : Bool) (new : Option ℚ) : Prop :=
  ∀ v, old = some v → new = some v ∨ (addDups = true ∧ ∃ u, w = some u ∧ u ≠ 0 ∧ new = some (v + u))

/-- C24 for strings as terminations (`str` leaves them alone): after `add_exchange` every exchange is still there
with its stored numbers, except that a number may have had the value of the call added to it under `add_dups`; and no
key occurs twice. -/
theorem values_kept_partial {str : T → T} {p : State F Q T} (h : Reach str p) (f : F) (d : Dir)
    (r : Option (Key F T)) (w : Option ℚ) (t : Option T) (a : Bool) (ht : t.map str = t)
    {p' : State F Q T} (hp' : p' = (addExchange str f d r w t a p).state) :
    p'.exchs.keys.Nodup ∧
    ∀ k e, p.exchs.get? k = some e → ∃ e', p'.exchs.get? k = some e' ∧ e'.isRef = e.isRef ∧
      Kept e.value w a e'.value ∧
      ∀ s v, e.vdict.get? s = some v → ∃ v', e'.vdict.get? s = some v' ∧ Kept v w a v' := by
  have hI := reach_inv h
  refine ⟨?_, ?_⟩
  · rw [hp']; exact (inv_addExchange hI str f d r w t a).nodup
  intro k e hk
  have same : ∀ e' : Exch F T, e' = e → e'.isRef = e.isRef ∧ Kept e.value w a e'.value ∧
      ∀ s v, e.vdict.get? s = some v → ∃ v', e'.vdict.get? s = some v' ∧ Kept v w a v' := by
    rintro e' rfl
    exact ⟨rfl, fun v hv => Or.inl hv, fun s v hs => ⟨v, hs, fun u hu => Or.inl hu⟩⟩
  rcases addExchange_cases str f d r w t a p with h' | ⟨e0, e', u, h1, h2, h3, h4, h5⟩ | ⟨h1, e', h2, h3, h4⟩
  · rw [h'] at hp'; subst hp'; exact ⟨e, hk, same e rfl⟩
  · rw [h5] at hp'
    simp only [Out.state] at hp'
    subst hp'
    simp only [Dict.get?_set]
    by_cases hkk : (⟨f, d, t⟩ : Key F T) = k
    · subst hkk
      rw [hk] at h1
      cases h1
      rw [if_pos rfl]
      refine ⟨e', rfl, ?_⟩
      cases h4 with
      | same => exact same _ rfl
      | value hn =>
        refine ⟨rfl, ?_, fun s v hs => ⟨v, hs, fun u hu => Or.inl hu⟩⟩
        intro v hv; rw [hn] at hv; simp at hv
      | sum w0 hw0 ha _ =>
        refine ⟨rfl, ?_, fun s v hs => ⟨v, hs, fun u hu => Or.inl hu⟩⟩
        intro v hv; rw [hw0] at hv; cases hv
        exact Or.inr ⟨ha, u, h2, h3, rfl⟩
      | alloc r0 _ hn =>
        refine ⟨rfl, fun v hv => Or.inl hv, ?_⟩
        intro s v hs
        simp only [Dict.get?_set]
        by_cases hrs : r0 = s
        · subst hrs; rw [hs] at hn; simp at hn
        · rw [if_neg hrs]; exact ⟨v, hs, fun u hu => Or.inl hu⟩
      | allocSum r0 w0 _ ha hw0 =>
        refine ⟨rfl, fun v hv => Or.inl hv, ?_⟩
        intro s v hs
        simp only [Dict.get?_set]
        by_cases hrs : r0 = s
        · subst hrs
          rw [hs] at hw0; cases hw0
          rw [if_pos rfl]
          refine ⟨_, rfl, ?_⟩
          intro v hv; cases hv
          exact Or.inr ⟨ha, u, h2, h3, rfl⟩
        · rw [if_neg hrs]; exact ⟨v, hs, fun u hu => Or.inl hu⟩
    · rw [if_neg hkk]; exact ⟨e, hk, same e rfl⟩
  · rw [h4] at hp'
    simp only [Out.state] at hp'
    subst hp'
    simp only [Dict.get?_set]
    by_cases hkk : (⟨f, d, t.map str⟩ : Key F T) = k
    · rw [ht] at hkk; subst hkk; rw [hk] at h1; simp at h1
    · rw [if_neg hkk]; exact ⟨e, hk, same e rfl⟩

/-- C24: a second value for the same exchange and no `add_dups`: DuplicateExchangeError, nothing changes. -/
theorem second_value_refused (str : T → T) (p : State F Q T) (f : F) (d : Dir) (t : Option T) (w v : ℚ)
    {e : Exch F T} (he : p.exchs.get? ⟨f, d, t⟩ = some e) (hv : e.value = some v) (hw : w ≠ 0) :
    addExchange str f d none (some w) t false p = .err .duplicate p := by
  simp [addExchange, he, hw, setValue, hv]

/-- C24: a second value for the same exchange and the same reference and no `add_dups`: likewise. -/
theorem second_allocated_value_refused (str : T → T) (p : State F Q T) (f : F) (d : Dir) (t : Option T)
    (w : ℚ) (v : Option ℚ) (r : Key F T)
    {e : Exch F T} (he : p.exchs.get? ⟨f, d, t⟩ = some e) (hr : isRefOf p r = true) (hv : e.vdict.get? r = some v)
    (hw : w ≠ 0) : addExchange str f d (some r) (some w) t false p = .err .duplicate p := by
  simp [addExchange, he, hw, setItem, hr, Dict.has, hv]

/-- C24: with `add_dups` the values add up. -/
theorem add_dups_adds (str : T → T) (p : State F Q T) (f : F) (d : Dir) (t : Option T) (w v : ℚ)
    {e : Exch F T} (he : p.exchs.get? ⟨f, d, t⟩ = some e) (hv : e.value = some v) (hw : w ≠ 0) :
    ∃ p', addExchange str f d none (some w) t true p = .ok () p' ∧
      (p'.exchs.get? ⟨f, d, t⟩).bind (·.value) = some (v + w) := by
  refine ⟨{ p with exchs := p.exchs.set ⟨f, d, t⟩ { e with value := some (v + w) } }, ?_, ?_⟩
  · simp [addExchange, he, hw, setValue, hv, addToValue]
  · simp [Dict.get?_set]

/-- C24, the other calls: stored values are kept by all of them, and only `remove_reference(r)` and
`remove_allocation(r)` drop numbers: those allocated to `r`. -/
theorem values_kept_other {str : T → T} {p : State F Q T} (h : Reach str p) (cf : F → Q → Option ℚ) (op : Op F Q T)
    (hop : ∀ f d r w t a, op ≠ .addExchange f d r w t a) {k : Key F T} {e : Exch F T} (hk : p.exchs.get? k = some e) :
    ∃ e', (step str cf op p).2.exchs.get? k = some e' ∧ e'.value = e.value ∧
      ∀ s v, e.vdict.get? s = some v → e'.vdict.get? s = some v ∨
        (op = .removeAllocation s ∨ ∃ f d, s = ⟨f, d, none⟩ ∧ op = .removeReference f d) := by
  have hI := reach_inv h
  cases op with
  | addExchange f d r w t a => exact absurd rfl (hop f d r w t a)
  | allocate q =>
    refine ⟨e, ?_, rfl, fun s v hs => Or.inl hs⟩
    rw [show (step str cf (.allocate q) p).2 = (allocate cf q p).state from rfl, (allocate_fields cf q p).1]
    exact hk
  | removeAllocation r =>
    refine ⟨{ e with vdict := e.vdict.del r }, ?_, rfl, ?_⟩
    · show Dict.get? (removeAllocation r p).exchs k = _
      unfold removeAllocation
      simp only
      rw [get?_mapVals p.exchs (fun e => { e with vdict := e.vdict.del r }), hk]; rfl
    · intro s v hs
      simp only [Dict.get?_del _ (hI.vdict k e hk)]
      by_cases hrs : r = s
      · right; left; rw [hrs]
      · left; rw [if_neg hrs]; exact hs
  | addReference f d =>
    obtain ⟨p1, ⟨r, hr, hst, _, _⟩, _, _, hp1⟩ := addReference_state cf f d p
    have hex : (step str cf (.addReference f d) p).2.exchs = p1.exchs := by
      rw [show (step str cf (.addReference f d) p).2 = (addReference cf f d p).state from rfl, hst]
      rcases hr with rfl | ⟨q, rfl, _⟩
      · rfl
      · exact (allocate_fields cf (some q) p1).1
    rw [hex]
    rcases hp1 with ⟨_, rfl⟩ | ⟨e0, hg, rfl⟩
    · exact ⟨e, hk, rfl, fun s v hs => Or.inl hs⟩
    · simp only [Dict.get?_set]
      by_cases hkk : (⟨f, d, none⟩ : Key F T) = k
      · subst hkk
        rw [hk] at hg
        cases hg
        rw [if_pos rfl]
        exact ⟨{ e with isRef := true }, rfl, rfl, fun s v hs => Or.inl hs⟩
      · rw [if_neg hkk]; exact ⟨e, hk, rfl, fun s v hs => Or.inl hs⟩
  | removeReference f d =>
    have hex : (removeReference cf f d p).state.exchs = p.exchs ∨ ∃ e0, p.exchs.get? ⟨f, d, none⟩ = some e0 ∧
        (removeReference cf f d p).state.exchs = (dropRef ⟨f, d, none⟩ e0 p).exchs := by
      rcases removeReference_eq cf f d p with ⟨_, h2⟩ | ⟨e0, hg, ⟨_, h2⟩ | ⟨q, _, h2⟩⟩
      · left; rw [h2]; rfl
      · right; exact ⟨e0, hg, by rw [h2]; rfl⟩
      · right; exact ⟨e0, hg, by rw [h2]; exact (allocate_fields cf (some q) _).1⟩
    rw [show (step str cf (.removeReference f d) p).2 = (removeReference cf f d p).state from rfl]
    rcases hex with hex | ⟨e0, hg, hex⟩
    · rw [hex]; exact ⟨e, hk, rfl, fun s v hs => Or.inl hs⟩
    · rw [hex]
      unfold dropRef removeAllocation
      simp only
      rw [get?_mapVals (p.exchs.set ⟨f, d, none⟩ { e0 with isRef := false })
        (fun e => { e with vdict := e.vdict.del ⟨f, d, none⟩ }), Dict.get?_set]
      have hdel : ∀ s v, e.vdict.get? s = some v → (e.vdict.del ⟨f, d, none⟩).get? s = some v ∨
          ((Op.removeReference f d : Op F Q T) = .removeAllocation s ∨
            ∃ f' d', s = ⟨f', d', none⟩ ∧ (Op.removeReference f d : Op F Q T) = .removeReference f' d') := by
        intro s v hs
        rw [Dict.get?_del _ (hI.vdict k e hk)]
        by_cases hrs : (⟨f, d, none⟩ : Key F T) = s
        · right; right; exact ⟨f, d, hrs.symm, rfl⟩
        · left; rw [if_neg hrs]; exact hs
      by_cases hkk : (⟨f, d, none⟩ : Key F T) = k
      · subst hkk
        rw [hk] at hg
        cases hg
        rw [if_pos rfl]
        exact ⟨{ e with isRef := false, vdict := e.vdict.del ⟨f, d, none⟩ }, rfl, rfl, hdel⟩
      · rw [if_neg hkk, hk]
        exact ⟨{ e with vdict := e.vdict.del ⟨f, d, none⟩ }, rfl, rfl, hdel⟩

/-! ### cases -/

/-- a sequence of calls -/
def runOps (str : T → T) (cf : F → Q → Option ℚ) (ops : List (Op F Q T)) (p : State F Q T) : State F Q T :=
  ops.foldl (fun p op => (step str cf op p).2) p

theorem reach_runOps (str : T → T) (cf : F → Q → Option ℚ) (ops : List (Op F Q T)) {p : State F Q T}
    (h : Reach str p) : Reach str (runOps str cf ops p) := by
  induction ops generalizing p with
  | nil => exact h
  | cons op ops ih => exact ih (.call cf op h)

/-- factors 1, 2, 3, ... of flows 0, 1, 2, ... -/
def exC : ℕ → Unit → ℚ := fun f _ => f + 1

/-- co-products 0 (amount 2) and 1 (amount 3), and an input 2 (amount 16) -/
def exOps : List (Op ℕ Unit ℕ) :=
  [.addExchange 0 .output none (some 2) none false, .addExchange 1 .output none (some 3) none false,
   .addExchange 2 .input none (some 16) none false, .addReference 0 .output, .addReference 1 .output]

def exP : State ℕ Unit ℕ := runOps id (known exC) exOps {}

-- the hypotheses of the theorems are met: the total is 2·1 + 3·2 = 8
example : Reach id exP := reach_runOps _ _ _ .new
example : refTotal exC () exP = 8 := by decide +kernel
example : exP.refs = [⟨0, .output, none⟩, ⟨1, .output, none⟩] := by decide +kernel
example : getItem (known exC) (runOps id (known exC) [.allocate (some ())] exP) ⟨2, .input, none⟩ ⟨0, .output, none⟩ =
    .ok 2 := by decide +kernel
example : getItem (known exC) (runOps id (known exC) [.allocate (some ())] exP) ⟨2, .input, none⟩ ⟨1, .output, none⟩ =
    .ok 4 := by decide +kernel   -- 2·2 + 4·3 = 16
example : allocFactors (known exC) () exP = .ok [(⟨0, .output, none⟩, 1/4), (⟨1, .output, none⟩, 3/4)] := by
  decide +kernel
-- a benign history with an allocation in it
example : ∃ p : State ℕ Unit ℕ, BReach id exC p ∧ p.allocQty = some () ∧ p.refs ≠ [] := by
  have h1 : BReach id exC (runOps id (known exC) (exOps.take 3) {}) := by
    refine .call _ (.call _ (.call _ .new ?_) ?_) ?_ <;> left <;> decide +kernel
  have h2 : BReach id exC (runOps id (known exC) (exOps.take 4) {}) := by
    refine .call (.addReference 0 .output) h1 (Or.inr ⟨⟨_, _, Or.inl rfl⟩, ?_⟩); rintro ⟨⟩ _; decide +kernel
  have h3 : BReach id exC exP := by
    refine .call (.addReference 1 .output) h2 (Or.inr ⟨⟨_, _, Or.inl rfl⟩, ?_⟩); rintro ⟨⟩ _; decide +kernel
  refine ⟨_, .call (.allocate (some ())) h3 (Or.inl ?_), ?_, ?_⟩ <;> decide +kernel

/-- C22 fails for histories in which the amount of a reference exchange changes after the allocation: the recorded
total is stale. Here `add_exchange` adds 2 to the amount of co-product 0; the amounts of exchange 2 allocated to the
references then add up to 2·4 + 4·3 = 20, not to 16. -/
theorem allocation_stale : ∃ p : State ℕ Unit ℕ, Reach id p ∧ p.allocQty = some () ∧
    refTotal exC () p ≠ 0 ∧ (⟨2, .input, none⟩ : Key ℕ ℕ) ∉ p.refs ∧
    (p.exchs.get? ⟨2, .input, none⟩).bind (·.val) = some 16 ∧
    p.refs = [⟨0, .output, none⟩, ⟨1, .output, none⟩] ∧
    getItem (known exC) p ⟨2, .input, none⟩ ⟨0, .output, none⟩ = .ok 2 ∧
    getItem (known exC) p ⟨2, .input, none⟩ ⟨1, .output, none⟩ = .ok 4 ∧
    amount p ⟨0, .output, none⟩ = 4 ∧ amount p ⟨1, .output, none⟩ = 3 :=
  ⟨runOps id (known exC) [.allocate (some ()), .addExchange 0 .output none (some 2) none true] exP,
    reach_runOps _ _ _ (reach_runOps _ _ _ .new), by decide +kernel⟩

/-- C22 fails also when the last change of the references makes the total zero: the earlier allocation stays.
Co-product 0 (amount 2) is allocated; then co-product 1, of amount -1 and factor 2, is added; the amounts of exchange
2 then add up to 8·2 + 16·(-1) = 0, not to 16. -/
theorem allocation_stale_zero : ∃ p : State ℕ Unit ℕ, Reach id p ∧ p.allocQty = some () ∧
    refTotal exC () p = 0 ∧ (p.exchs.get? ⟨2, .input, none⟩).bind (·.val) = some 16 ∧
    p.refs = [⟨0, .output, none⟩, ⟨1, .output, none⟩] ∧
    getItem (known exC) p ⟨2, .input, none⟩ ⟨0, .output, none⟩ = .ok 8 ∧
    getItem (known exC) p ⟨2, .input, none⟩ ⟨1, .output, none⟩ = .ok 16 ∧
    amount p ⟨0, .output, none⟩ = 2 ∧ amount p ⟨1, .output, none⟩ = -1 :=
  ⟨runOps id (known exC) [.addExchange 0 .output none (some 2) none false,
      .addExchange 1 .output none (some (-1)) none false,
      .addExchange 2 .input none (some 16) none false, .addReference 0 .output, .allocate (some ()),
      .addReference 1 .output] {},
    reach_runOps _ _ _ .new, by decide +kernel⟩

-- C23 and C24 on this process
example : getItem (known exC) exP ⟨0, .output, none⟩ ⟨1, .output, none⟩ = .ok 0 := by decide +kernel
example : (addExchange id 2 .input none (some 5) none false exP).error? = some .duplicate := by decide +kernel
example : ((addExchange id 2 .input none (some 5) none true exP).state.exchs.get? ⟨2, .input, none⟩).bind (·.value) =
    some 21 := by decide +kernel
example : Reach id exP ∧ ((none : Option ℕ).map id = none) := ⟨reach_runOps _ _ _ .new, rfl⟩

/-- C24 fails for a termination that is not a string, such as a UUID object: it is looked up as given but stored
under its string form, so adding the exchange again silently replaces the stored value. Here `str` maps 1 (the object)
to 0 (its string). -/
theorem value_replaced : ∃ (str : ℕ → ℕ) (p : State ℕ Unit ℕ), Reach str p ∧ (∀ t, str (str t) = str t) ∧
    (p.exchs.get? ⟨0, .output, some 0⟩).bind (·.value) = some 5 ∧
    (addExchange str 0 .output none (some 7) (some 1) false p).error? = none ∧
    ((addExchange str 0 .output none (some 7) (some 1) false p).state.exchs.get? ⟨0, .output, some 0⟩).bind (·.value) =
      some 7 :=
  ⟨fun _ => 0, runOps (fun _ => 0) (known exC) [.addExchange 0 .output none (some 5) (some 1) false] {},
    reach_runOps _ _ _ .new, fun _ => rfl, by decide +kernel, by decide +kernel, by decide +kernel⟩

/-- a value added with `add_dups` to a reference exchange with respect to itself is lost without an error -/
theorem value_lost : ∃ p : State ℕ Unit ℕ, Reach id p ∧
    (⟨0, .output, none⟩ : Key ℕ ℕ) ∈ p.refs ∧ amount p ⟨0, .output, none⟩ = 2 ∧
    addExchange id 0 .output (some ⟨0, .output, none⟩) (some 3) none true p = .ok () p := by
  refine ⟨exP, reach_runOps _ _ _ .new, by decide +kernel, by decide +kernel, ?_⟩
  rfl

end Proc

/-! ### C25 -/

namespace Market
variable {K : Type} [DecidableEq K]

/-- C25: in every market with nonzero total, whatever assignments were tried, every supplier has a share, the shares
add up to one and they are in proportion to the amounts. -/
theorem shares (ops : List (K × ℚ)) (hT : total (run ops) ≠ 0) :
    ∃ s : K → ℚ, (∀ k ∈ (run ops).keys, getItem (run ops) k = some (s k)) ∧
      ((run ops).keys.map s).sum = 1 ∧
      ∀ k l v w, (run ops).get? k = some v → (run ops).get? l = some w → s k * w = s l * v := by
  have hn : (run ops).keys.Nodup := by
    have step : ∀ (ops : List (K × ℚ)) (d : Dict K ℚ), d.keys.Nodup →
        (ops.foldl (fun d kv => (setItem d kv.1 kv.2).getD d) d).keys.Nodup := by
      intro ops
      induction ops with
      | nil => intro d h; exact h
      | cons o ops ih =>
        intro d h
        apply ih
        simp only [setItem]
        split
        · exact h
        · exact Dict.nodup_keys_set _ _ _ h
    exact step ops [] (by simp [Dict.keys])
  generalize run ops = d at *
  refine ⟨fun k => (d.get? k).getD 0 / total d, ?_, ?_, ?_⟩
  · intro k hk
    rw [Dict.mem_keys_iff] at hk
    obtain ⟨v, hv⟩ := hk
    simp [getItem, hv, hT]
  · have hv : d.keys.map (fun k => (d.get? k).getD 0 / total d) = d.map fun kv => kv.2 * (total d)⁻¹ := by
      unfold Dict.keys
      rw [List.map_map]
      apply List.map_congr_left
      intro kv hkv
      have := Dict.get?_eq_some_of_mem d hn (k := kv.1) (v := kv.2) hkv
      simp [this, div_eq_mul_inv]
    rw [hv, List.sum_map_mul_right]
    have : (d.map fun kv => kv.2).sum = total d := rfl
    rw [this]
    exact mul_inv_cancel₀ hT
  · intro k l v w hk hl
    simp only [hk, hl, Option.getD_some]
    ring

/-- an amount once given is kept: giving it again is refused -/
theorem market_kept (ops ops' : List (K × ℚ)) {k : K} {v : ℚ} (h : (run ops).get? k = some v) :
    (run (ops ++ ops')).get? k = some v := by
  unfold run at *
  rw [List.foldl_append]
  generalize ops.foldl (fun d kv => (setItem d kv.1 kv.2).getD d) [] = d at h
  induction ops' generalizing d with
  | nil => exact h
  | cons o ops' ih =>
    apply ih
    simp only [setItem]
    split
    · exact h
    · rename_i hh
      simp only [Option.getD_some]
      rw [Dict.get?_set]
      split
      · rename_i e; subst e; exact absurd ((Dict.has_iff d _).mpr ((Dict.mem_keys_iff d _).mpr ⟨v, h⟩)) hh
      · exact h

-- three suppliers; the second amount for supplier 1 is refused
example : run [(1, 2), (2, 3), (1, 7), (3, -1)] = [(1, (2 : ℚ)), (2, 3), ((3 : ℕ), -1)] ∧
    total (run [((1 : ℕ), 2), (2, 3), (1, 7), (3, -1)]) = 4 ∧
    getItem (run [((1 : ℕ), 2), (2, 3), (1, 7), (3, -1)]) 2 = some (3/4) := by decide +kernel

end Market
