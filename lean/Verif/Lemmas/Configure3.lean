import Verif.Lemmas.Configure2

/-! Lists of entries, seen from one process. -/

set_option linter.unusedSectionVars false

namespace Cfg
open Proc
variable {P F Q T : Type} [DecidableEq P] [DecidableEq F] [DecidableEq Q] [DecidableEq T]

theorem pall_cons {K : Type} (m : K → State F Q T → Option (State F Q T)) (k : K) (ks : List K) (x : State F Q T) :
    pall m (k :: ks) x = (m k x).bind (pall m ks) := rfl

/-! ### set_reference -/

theorem sets_eff {c : F → Q → ℚ} {p : P} (S : List (P × F × Option Dir)) {x y : State F Q T} (h : Wf x)
    (hr : pall (pset (known c) p) S x = some y) :
    Eff c x y ∧ bare y = bare x ∧ ∀ k ∈ x.refs, k ∈ y.refs := by
  induction S generalizing x with
  | nil => simp [pall] at hr; subst hr; exact ⟨Eff.refl h, rfl, fun _ h => h⟩
  | cons k S ih =>
    rw [pall_cons, Option.bind_eq_some_iff] at hr
    obtain ⟨w, h1, h2⟩ := hr
    obtain ⟨e1, b1, r1⟩ := pset_eff h h1
    obtain ⟨e2, b2, r2⟩ := ih e1.wf h2
    refine ⟨e1.trans e2, b2.trans b1, fun k' hk => r2 k' ?_⟩
    rcases r1 with ⟨_, rfl⟩ | ⟨d, _, _, h3⟩
    · exact hk
    · rw [h3, PySet.mem_add]; exact Or.inl hk

/-- the second time: nothing that survives is new -/
theorem sets_again {c c' : F → Q → ℚ} {p : P} (al : Key F T → Bool) (S : List (P × F × Option Dir))
    {a b a' : State F Q T} (ha : Wf a) (hb : Wf b) (hk : b.exchs.keys = a.exchs.keys)
    (hr : pall (pset (known c) p) S a = some a') (hsub : ∀ k ∈ b.refs, k ∈ a'.refs)
    (hal : ∀ k ∈ a'.refs, al k = true → k ∈ b.refs) :
    ∃ b', pall (pset (known c') p) S b = some b' ∧ Eff c' b b' ∧ bare b' = bare b ∧ (∀ k ∈ b'.refs, k ∈ a'.refs) ∧
      b'.refs.filter al = b.refs.filter al := by
  induction S generalizing a b with
  | nil => exact ⟨b, rfl, Eff.refl hb, rfl, hsub, rfl⟩
  | cons k S ih =>
    rw [pall_cons, Option.bind_eq_some_iff] at hr
    obtain ⟨a1, h1, h2⟩ := hr
    obtain ⟨b1, h3⟩ := pset_ok (c' := c') ha hb hk h1
    obtain ⟨e1, _, r1⟩ := pset_eff ha h1
    obtain ⟨e3, b3, r3⟩ := pset_eff hb h3
    have hmono := (sets_eff S e1.wf h2).2.2
    have hb1 : (∀ k ∈ b1.refs, k ∈ a'.refs) ∧ (∀ k ∈ b.refs, k ∈ b1.refs) ∧ b1.refs.filter al = b.refs.filter al := by
      rcases r3 with ⟨_, rfl⟩ | ⟨d, hp, hd, h5⟩
      · exact ⟨hsub, fun _ h => h, rfl⟩
      · rw [hk] at hd
        have hin : (⟨k.2.1, d, none⟩ : Key F T) ∈ a'.refs := by
          apply hmono
          rcases r1 with ⟨hn, _⟩ | ⟨d', _, hd', h6⟩
          · exact absurd hp hn
          · rw [hd] at hd'; simp at hd'; subst hd'
            rw [h6, PySet.mem_add]; exact Or.inr rfl
        rw [h5]
        refine ⟨?_, fun k' hk' => PySet.mem_add.mpr (Or.inl hk'), ?_⟩
        · intro k' hk'
          rcases PySet.mem_add.mp hk' with hk' | rfl
          · exact hsub k' hk'
          · exact hin
        · unfold PySet.add
          split
          · rfl
          · rename_i hn
            rw [List.filter_append]
            have : al ⟨k.2.1, d, none⟩ ≠ true := fun h => hn (hal _ hin h)
            simp [this]
    obtain ⟨b', h7, e7, b7, s7, f7⟩ := ih e1.wf e3.wf (by rw [e3.keys, e1.keys, hk]) h2 hb1.1
      (fun k' hk' h' => hb1.2.1 _ (hal k' hk' h'))
    exact ⟨b', by rw [pall_cons, h3, Option.bind_some, h7], e3.trans e7, b7.trans b3, s7, f7.trans hb1.2.2⟩

theorem sets_twin {c : F → Q → ℚ} {p : P} (S : List (P × F × Option Dir)) {x z x' z' : State F Q T} (hx : Wf x)
    (hz : Wf z) (hs : Same x z) (h1 : pall (pset (known c) p) S x = some x')
    (h2 : pall (pset (known c) p) S z = some z') : Twin x z x' z' := by
  induction S generalizing x z with
  | nil => simp [pall] at h1 h2; subst h1 h2; exact ⟨hs, Or.inr ⟨rfl, rfl⟩⟩
  | cons k S ih =>
    rw [pall_cons, Option.bind_eq_some_iff] at h1 h2
    obtain ⟨w, h1, h3⟩ := h1
    obtain ⟨v, h2, h4⟩ := h2
    have ht := pset_twin hx hz hs h1 h2
    have hw := (pset_eff hx h1).1.wf
    have hv := (pset_eff hz h2).1.wf
    refine ht.trans hw hv (ih hw hv ht.1 h3 h4) ?_
    rintro rfl
    rw [h3] at h4
    simpa using h4

/-! ### unset_reference -/

/-- survives the removals -/
def alive (pids : List P) (p : P) (ks : List (Key F T)) (U : List (Unset P F)) (k : Key F T) : Bool :=
  U.all fun u => !hits pids p ks u k

theorem unsets_eff {c : F → Q → ℚ} {pids : List P} {p : P} (U : List (Unset P F)) {x y : State F Q T} (h : Wf x)
    (hr : pall (punset (known c) pids p) U x = some y) :
    Eff c x y ∧ y.refs = x.refs.filter (alive pids p x.exchs.keys U) ∧
      (∀ u ∈ U, ∀ k, hits pids p x.exchs.keys u k = true → (k ∈ x.refs ∨ isOne u = true) → Clean y k) := by
  induction U generalizing x with
  | nil =>
    simp [pall] at hr; subst hr
    refine ⟨Eff.refl h, ?_, by simp⟩
    symm; rw [List.filter_eq_self]; intro k _; rfl
  | cons v U ih =>
    rw [pall_cons, Option.bind_eq_some_iff] at hr
    obtain ⟨w, h1, h2⟩ := hr
    obtain ⟨e1, r1, c1, _⟩ := punset_eff h h1
    obtain ⟨e2, r2, c2⟩ := ih e1.wf h2
    rw [e1.keys] at r2 c2
    refine ⟨e1.trans e2, ?_, ?_⟩
    · rw [r2, r1, List.filter_filter]
      apply List.filter_congr
      intro k _
      simp only [alive, List.all_cons]
      rw [Bool.and_comm]
    · intro u hu k hk hk'
      rcases List.mem_cons.mp hu with rfl | hu
      · exact e2.clean k (c1 k hk hk')
      · rcases hk' with hk' | hk'
        · by_cases hw : k ∈ w.refs
          · exact c2 u hu k hk (Or.inl hw)
          · rw [r1, List.mem_filter] at hw
            have : hits pids p x.exchs.keys v k = true := by
              by_contra hc
              simp only [Bool.not_eq_true] at hc
              exact hw ⟨hk', by rw [hc]; rfl⟩
            exact e2.clean k (c1 k this (Or.inl hk'))
        · exact c2 u hu k hk (Or.inr hk')

theorem unsets_again {c c' : F → Q → ℚ} {pids : List P} {p : P} (U : List (Unset P F)) {a b a' : State F Q T}
    (ha : Wf a) (hb : Wf b) (hk : b.exchs.keys = a.exchs.keys)
    (hr : pall (punset (known c) pids p) U a = some a') (hsub : ∀ k ∈ b.refs, k ∈ a.refs)
    (hcl : ∀ u ∈ U, ∀ k, hits pids p a.exchs.keys u k = true → (k ∈ a.refs ∨ isOne u = true) → Clean b k) :
    ∃ b', pall (punset (known c') pids p) U b = some b' ∧ bare b' = bare b := by
  induction U generalizing a b with
  | nil => exact ⟨b, rfl, rfl⟩
  | cons u U ih =>
    rw [pall_cons, Option.bind_eq_some_iff] at hr
    obtain ⟨a1, h1, h2⟩ := hr
    obtain ⟨b1, h3⟩ := punset_ok (c' := c') ha hb hk hsub h1
    obtain ⟨e1, r1, _, _⟩ := punset_eff ha h1
    obtain ⟨e3, r3, _, n3⟩ := punset_eff hb h3
    have hb3 : bare b1 = bare b := by
      apply n3
      intro k hk1 hk2
      rw [hk] at hk1
      exact hcl u List.mem_cons_self k hk1 (hk2.imp (hsub k) id)
    obtain ⟨b', h7, b7⟩ := ih e1.wf e3.wf (by rw [e3.keys, e1.keys, hk]) h2 (by
        intro k hk1
        rw [r3, hk] at hk1
        rw [r1]
        rw [List.mem_filter] at hk1 ⊢
        exact ⟨hsub k hk1.1, hk1.2⟩) (by
        intro u' hu' k hk1 hk2
        rw [e1.keys] at hk1
        apply clean_congr hb3.symm
        refine hcl u' (List.mem_cons_of_mem _ hu') k hk1 (hk2.imp ?_ id)
        intro hm
        rw [r1, List.mem_filter] at hm
        exact hm.1)
    exact ⟨b', by rw [pall_cons, h3, Option.bind_some, h7], b7.trans hb3⟩

theorem unsets_twin {c : F → Q → ℚ} {pids : List P} {p : P} (U : List (Unset P F)) {x z x' z' : State F Q T}
    (hx : Wf x) (hz : Wf z) (hs : Same x z) (h1 : pall (punset (known c) pids p) U x = some x')
    (h2 : pall (punset (known c) pids p) U z = some z') : Twin x z x' z' := by
  induction U generalizing x z with
  | nil => simp [pall] at h1 h2; subst h1 h2; exact ⟨hs, Or.inr ⟨rfl, rfl⟩⟩
  | cons k S ih =>
    rw [pall_cons, Option.bind_eq_some_iff] at h1 h2
    obtain ⟨w, h1, h3⟩ := h1
    obtain ⟨v, h2, h4⟩ := h2
    have ht := punset_twin hx hz hs h1 h2
    have hw := (punset_eff hx h1).1.wf
    have hv := (punset_eff hz h2).1.wf
    refine ht.trans hw hv (ih hw hv ht.1 h3 h4) ?_
    rintro rfl
    rw [h3] at h4
    simpa using h4

/-! ### allocate_by_quantity -/

/-- the allocated values for the references dropped -/
def wipe (x : State F Q T) : State F Q T := x.refs.foldl (fun x rf => removeAllocation rf x) x

/-- no allocated values for the references -/
def Wiped (x : State F Q T) : Prop := ∀ k ∈ x.refs, Clean x k

theorem removeAllocation_wf {x : State F Q T} (h : Wf x) (k : Key F T) : Wf (removeAllocation k x) :=
  ⟨inv_removeAllocation h.inv k, h.aq⟩

theorem removeAllocation_of_clean {x : State F Q T} (h : Wf x) {k : Key F T} (hc : Clean x k) :
    removeAllocation k x = x :=
  state_ext (removeAllocation_wf h k).inv h.inv (by rw [bare_mapDel, scrub_of_clean hc]) rfl rfl rfl

theorem foldl_removeAllocation (rs : List (Key F T)) {x : State F Q T} (h : Wf x) :
    let y := rs.foldl (fun x rf => removeAllocation rf x) x
    Wf y ∧ y.refs = x.refs ∧ y.allocQ = x.allocQ ∧ y.allocSum = x.allocSum ∧ y.exchs.keys = x.exchs.keys ∧
      (∀ k, Clean x k → Clean y k) ∧ (∀ k ∈ rs, Clean y k) ∧ ((∀ k ∈ rs, Clean x k) → y = x) := by
  induction rs generalizing x with
  | nil => exact ⟨h, rfl, rfl, rfl, rfl, fun _ h => h, by simp, fun _ => rfl⟩
  | cons r rs ih =>
    simp only [List.foldl_cons]
    have hc := clean_scrub h.inv (bare_mapDel x r)
    obtain ⟨h1, h2, h3, h4, h5, h6, h7, h8⟩ := ih (removeAllocation_wf h r)
    refine ⟨h1, h2, h3, h4, h5.trans ?_, fun k hk => h6 k (hc.2 k hk), ?_, ?_⟩
    · rw [keys_bare, keys_bare, bare_mapDel, scrub, List.map_map]; rfl
    · intro k hk
      rcases List.mem_cons.mp hk with rfl | hk
      · exact h6 k hc.1
      · exact h7 k hk
    · intro ha
      have he := removeAllocation_of_clean h (ha r List.mem_cons_self)
      rw [h8 (fun k hk => hc.2 k (ha k (List.mem_cons_of_mem _ hk))), he]

theorem wipe_spec {x : State F Q T} (h : Wf x) :
    Wf (wipe x) ∧ (wipe x).refs = x.refs ∧ (wipe x).allocQ = x.allocQ ∧ (wipe x).allocSum = x.allocSum ∧
      (wipe x).exchs.keys = x.exchs.keys ∧ (∀ k, Clean x k → Clean (wipe x) k) ∧ Wiped (wipe x) ∧
      (Wiped x → wipe x = x) := by
  obtain ⟨h1, h2, h3, h4, h5, h6, h7, h8⟩ := foldl_removeAllocation x.refs h
  refine ⟨h1, h2, h3, h4, h5, h6, ?_, h8⟩
  intro k hk
  exact h7 k (by rw [show (wipe x).refs = x.refs from h2] at hk; exact hk)

/-- allocated by `q`, if there is anything to divide -/
def settle (c : F → Q → ℚ) (q : Q) (x : State F Q T) : State F Q T :=
  if refTotal c q x = 0 then x else { x with allocQ := some q, allocSum := refTotal c q x }

theorem settle_spec (c : F → Q → ℚ) (q : Q) {x : State F Q T} (h : Wf x) :
    Wf (settle c q x) ∧ (settle c q x).refs = x.refs ∧ bare (settle c q x) = bare x ∧
      (settle c q x = x ∨ settle c q x = { x with allocQ := some q, allocSum := refTotal c q x }) := by
  unfold settle
  split
  · exact ⟨h, rfl, rfl, Or.inl rfl⟩
  · rename_i hT
    exact ⟨⟨inv_congr h.inv rfl rfl, fun _ => hT⟩, rfl, rfl, Or.inr rfl⟩

theorem allocByQ_known {c : F → Q → ℚ} {ov : Bool} {q : Q} {x : State F Q T} (h : Wf x) :
    ok? (allocByQ (known c) ov q x) = some (if ov then settle c q (wipe x)
      else if x.refs.any (isAllocated (known c) x) then x else settle c q x) := by
  unfold allocByQ
  split
  · rw [show (x.refs.foldl (fun x rf => removeAllocation rf x) x) = wipe x from rfl,
      allocate_spec (wipe_spec h).1.inv]
    rfl
  · split
    · rfl
    · rw [allocate_spec h.inv]; rfl

/-- up to date -/
def UpToDate (c : F → Q → ℚ) (x : State F Q T) : Prop := ∃ q, x.allocQ = some q ∧ x.allocSum = refTotal c q x

theorem palloc_eff (c : F → Q → ℚ) {ov : Bool} {p : P} {k : P × Q} {x : State F Q T} (h : Wf x) :
    ∃ y, palloc (known c) ov p k x = some y ∧ Wf y ∧ y.refs = x.refs ∧ y.exchs.keys = x.exchs.keys ∧
      (∀ k, Clean x k → Clean y k) ∧
      ((y.allocQ = x.allocQ ∧ y.allocSum = x.allocSum) ∨ (UpToDate c y ∧ k.1 = p)) ∧
      (ov = true → k.1 = p → Wiped y) ∧
      ((ov = true → k.1 = p → Wiped x) → bare y = bare x) := by
  unfold palloc
  split
  · rename_i hp
    rw [allocByQ_known h]
    refine ⟨_, rfl, ?_⟩
    have settled : ∀ w : State F Q T, Wf w → (((settle c k.2 w).allocQ = w.allocQ ∧ (settle c k.2 w).allocSum = w.allocSum) ∨
        (UpToDate c (settle c k.2 w) ∧ k.1 = p)) := by
      intro w hw
      rcases (settle_spec c k.2 hw).2.2.2 with he | he
      · rw [he]; exact Or.inl ⟨rfl, rfl⟩
      · rw [he]
        right
        exact ⟨⟨k.2, rfl, rfl⟩, hp⟩
    cases ov with
    | true =>
      simp only [if_true]
      obtain ⟨h1, h2, h3, h4, h5, h6, h7, h8⟩ := wipe_spec h
      obtain ⟨g1, g2, g3, _⟩ := settle_spec c k.2 h1
      refine ⟨g1, g2.trans h2, (keys_eq g3).trans h5, fun k' hk' => clean_congr g3.symm _ (h6 k' hk'), ?_, ?_, ?_⟩
      · have := settled _ h1
        rwa [h3, h4] at this
      · intro _ _ k' hk'
        rw [g2] at hk'
        exact clean_congr g3.symm _ (h7 k' hk')
      · intro hw
        rw [g3, h8 (hw trivial hp)]
    | false =>
      simp only [Bool.false_eq_true, if_false]
      split
      · exact ⟨h, rfl, rfl, fun _ h => h, Or.inl ⟨rfl, rfl⟩, by simp, fun _ => rfl⟩
      · obtain ⟨g1, g2, g3, _⟩ := settle_spec c k.2 h
        exact ⟨g1, g2, keys_eq g3, fun k' hk' => clean_congr g3.symm _ hk', settled _ h, by simp, fun _ => g3⟩
  · rename_i hp
    exact ⟨x, rfl, h, rfl, rfl, fun _ h => h, Or.inl ⟨rfl, rfl⟩, fun _ h => absurd h hp, fun _ => rfl⟩

theorem upToDate_congr {c : F → Q → ℚ} {x y : State F Q T} (h : UpToDate c x) (h1 : bare y = bare x)
    (h2 : y.refs = x.refs) (h3 : y.allocQ = x.allocQ ∧ y.allocSum = x.allocSum) : UpToDate c y := by
  obtain ⟨q, h4, h5⟩ := h
  exact ⟨q, h3.1.trans h4, by rw [h3.2, h5, total_congr c q h1 h2]⟩

/-- one entry, when the allocated values for the references are gone already -/
theorem palloc_wiped (c : F → Q → ℚ) {p : P} (k : P × Q) {x : State F Q T} (h : Wf x) (hw : Wiped x) :
    palloc (known c) true p k x = some (if k.1 = p then settle c k.2 x else x) := by
  unfold palloc
  split
  · rw [allocByQ_known h]
    simp [(wipe_spec h).2.2.2.2.2.2.2 hw]
  · rfl

/-- what a list of allocations sets -/
def outcome (o : Option (Q × ℚ)) (x : State F Q T) : State F Q T :=
  match o with
  | none => x
  | some (q, t) => { x with allocQ := some q, allocSum := t }

theorem outcome_fields (o : Option (Q × ℚ)) (x : State F Q T) :
    bare (outcome o x) = bare x ∧ (outcome o x).refs = x.refs := by
  cases o <;> exact ⟨rfl, rfl⟩

theorem allocs_wiped (c : F → Q → ℚ) (p : P) (A : List (P × Q)) {x : State F Q T} (hw : Wiped x) :
    ∃ o : Option (Q × ℚ), (∀ q t, o = some (q, t) → t ≠ 0) ∧
      ∀ z : State F Q T, Wf z → bare z = bare x → z.refs = x.refs →
        pall (palloc (known c) true p) A z = some (outcome o z) := by
  induction A with
  | nil => exact ⟨none, by simp, fun z _ _ _ => rfl⟩
  | cons k A ih =>
    obtain ⟨o, ho, ih⟩ := ih
    by_cases hs : k.1 = p ∧ refTotal c k.2 x ≠ 0
    · refine ⟨some (o.getD (k.2, refTotal c k.2 x)), ?_, ?_⟩
      · intro q t hqt
        cases o with
        | none => simp at hqt; rw [← hqt.2]; exact hs.2
        | some qt => simp at hqt; exact ho q t (by rw [hqt])
      · intro z hz hb hr
        have hwz : Wiped z := fun k' hk' => clean_congr hb.symm _ (hw k' (by rw [← hr]; exact hk'))
        have hT := total_congr c k.2 hb hr
        rw [pall_cons, palloc_wiped c k hz hwz, if_pos hs.1, Option.bind_some]
        have hst : settle c k.2 z = { z with allocQ := some k.2, allocSum := refTotal c k.2 x } := by
          unfold settle; rw [hT, if_neg hs.2]
        obtain ⟨g1, g2, g3, _⟩ := settle_spec c k.2 hz
        rw [ih _ g1 (g3.trans hb) (g2.trans hr), hst]
        cases o with
        | none => rfl
        | some qt => rfl
    · refine ⟨o, ho, ?_⟩
      intro z hz hb hr
      have hwz : Wiped z := fun k' hk' => clean_congr hb.symm _ (hw k' (by rw [← hr]; exact hk'))
      have hT := total_congr c k.2 hb hr
      rw [pall_cons, palloc_wiped c k hz hwz]
      have : (if k.1 = p then settle c k.2 z else z) = z := by
        split
        · rename_i hp
          unfold settle
          rw [hT, if_pos]
          by_contra hn; exact hs ⟨hp, hn⟩
        · rfl
      rw [this, Option.bind_some, ih z hz hb hr]

theorem outcome_idem (o : Option (Q × ℚ)) (x : State F Q T) : outcome o (outcome o x) = outcome o x := by
  cases o <;> rfl

theorem outcome_wf {o : Option (Q × ℚ)} (ho : ∀ q t, o = some (q, t) → t ≠ 0) {x : State F Q T} (h : Wf x) :
    Wf (outcome o x) := by
  cases o with
  | none => exact h
  | some qt => exact ⟨inv_congr h.inv rfl rfl, fun _ => ho _ _ rfl⟩

theorem allocs_skip (c : F → Q → ℚ) {ov : Bool} {p : P} (A : List (P × Q)) (hA : ∀ k ∈ A, k.1 ≠ p)
    (x : State F Q T) : pall (palloc (known c) ov p) A x = some x := by
  induction A with
  | nil => rfl
  | cons k A ih =>
    rw [pall_cons]
    have : palloc (known c) ov p k x = some x := by unfold palloc; rw [if_neg (hA k List.mem_cons_self)]
    rw [this, Option.bind_some]
    exact ih fun k' hk' => hA k' (List.mem_cons_of_mem _ hk')

/-- overwriting begins by wiping -/
theorem allocs_wipe (c : F → Q → ℚ) {p : P} (A : List (P × Q)) (hA : ∃ k ∈ A, k.1 = p) {x : State F Q T} (h : Wf x) :
    pall (palloc (known c) true p) A x = pall (palloc (known c) true p) A (wipe x) := by
  induction A with
  | nil => simp at hA
  | cons k A ih =>
    rw [pall_cons, pall_cons]
    by_cases hk : k.1 = p
    · have : palloc (known c) true p k x = palloc (known c) true p k (wipe x) := by
        obtain ⟨h1, _, _, _, _, _, h7, _⟩ := wipe_spec h
        rw [palloc_wiped c k h1 h7, if_pos hk]
        unfold palloc
        rw [if_pos hk, allocByQ_known h]; rfl
      rw [this]
    · have : ∀ x : State F Q T, palloc (known c) true p k x = some x := by
        intro x; unfold palloc; rw [if_neg hk]
      rw [this, this, Option.bind_some, Option.bind_some]
      apply ih
      obtain ⟨k', h1, h2⟩ := hA
      rcases List.mem_cons.mp h1 with rfl | h1
      · exact absurd h2 hk
      · exact ⟨k', h1, h2⟩

theorem isAllocated_settled {c : F → Q → ℚ} {q : Q} {x : State F Q T} (hT : refTotal c q x ≠ 0) :
    (settle c q x).refs.any (isAllocated (known c) (settle c q x)) = true := by
  have hst : settle c q x = { x with allocQ := some q, allocSum := refTotal c q x } := by
    unfold settle; rw [if_neg hT]
  rw [hst]
  rw [List.any_eq_true]
  have : ∃ k ∈ x.refs, c k.flow q ≠ 0 := by
    by_contra hn
    push Not at hn
    apply hT
    unfold refTotal
    apply List.sum_eq_zero
    intro v hv
    obtain ⟨k, h1, rfl⟩ := List.mem_map.mp hv
    rw [hn k h1, mul_zero]
  obtain ⟨k, h1, h2⟩ := this
  refine ⟨k, h1, ?_⟩
  unfold isAllocated State.allocQty
  simp only [if_pos hT]
  simp [known, h2]

theorem allocs_keep_step {c : F → Q → ℚ} {p : P} (k : P × Q) {x : State F Q T} (h : Wf x) :
    ∃ y, palloc (known c) false p k x = some y ∧ Wf y ∧ (y = x ∨ y.refs.any (isAllocated (known c) y) = true) ∧
      (x.refs.any (isAllocated (known c) x) = true → y = x) := by
  unfold palloc
  split
  · rw [allocByQ_known h]
    refine ⟨_, rfl, ?_⟩
    simp only [Bool.false_eq_true, if_false]
    split
    · exact ⟨h, Or.inl rfl, fun _ => rfl⟩
    · rename_i hn
      refine ⟨(settle_spec c k.2 h).1, ?_, fun h' => absurd h' hn⟩
      by_cases hT : refTotal c k.2 x = 0
      · left; unfold settle; rw [if_pos hT]
      · right; exact isAllocated_settled hT
  · exact ⟨x, rfl, h, Or.inl rfl, fun _ => rfl⟩

theorem allocs_keep_of {c : F → Q → ℚ} {p : P} (A : List (P × Q)) {x : State F Q T} (h : Wf x)
    (ha : x.refs.any (isAllocated (known c) x) = true) : pall (palloc (known c) false p) A x = some x := by
  induction A with
  | nil => rfl
  | cons k A ih =>
    obtain ⟨y, h1, _, _, h4⟩ := allocs_keep_step (c := c) (p := p) k h
    rw [pall_cons, h1, Option.bind_some, h4 ha]
    exact ih

theorem allocs_keep {c : F → Q → ℚ} {p : P} (A : List (P × Q)) {x y : State F Q T} (h : Wf x)
    (hr : pall (palloc (known c) false p) A x = some y) :
    Wf y ∧ (y = x ∨ y.refs.any (isAllocated (known c) y) = true) := by
  induction A generalizing x with
  | nil => simp [pall] at hr; subst hr; exact ⟨h, Or.inl rfl⟩
  | cons k A ih =>
    obtain ⟨w, h1, h2, h3, _⟩ := allocs_keep_step (c := c) (p := p) k h
    rw [pall_cons, h1, Option.bind_some] at hr
    rcases h3 with rfl | h3
    · exact ih h2 hr
    · rw [allocs_keep_of A h2 h3] at hr
      simp at hr; subst hr
      exact ⟨h2, Or.inr h3⟩

/-- the allocations made a second time change nothing -/
theorem allocs_idem {c : F → Q → ℚ} {ov : Bool} {p : P} (A : List (P × Q)) {x y : State F Q T} (h : Wf x)
    (hr : pall (palloc (known c) ov p) A x = some y) : pall (palloc (known c) ov p) A y = some y := by
  cases ov with
  | false =>
    obtain ⟨h1, rfl | h2⟩ := allocs_keep A h hr
    · exact hr
    · exact allocs_keep_of A h1 h2
  | true =>
    by_cases hA : ∃ k ∈ A, k.1 = p
    · rw [allocs_wipe c A hA h] at hr
      obtain ⟨g1, _, _, _, _, _, g7, _⟩ := wipe_spec h
      obtain ⟨o, ho, hz⟩ := allocs_wiped c p A g7
      rw [hz _ g1 rfl rfl] at hr
      simp at hr; subst hr
      rw [hz _ (outcome_wf ho g1) (outcome_fields o _).1 (outcome_fields o _).2, outcome_idem]
    · push Not at hA
      exact allocs_skip c A hA y

/-- what a list of allocations does -/
theorem allocs_eff (c : F → Q → ℚ) {ov : Bool} {p : P} (A : List (P × Q)) {x : State F Q T} (h : Wf x) :
    ∃ y, pall (palloc (known c) ov p) A x = some y ∧ Wf y ∧ y.refs = x.refs ∧ y.exchs.keys = x.exchs.keys ∧
      (∀ k, Clean x k → Clean y k) ∧
      ((y.allocQ = x.allocQ ∧ y.allocSum = x.allocSum) ∨ UpToDate c y) ∧
      (ov = true → (∃ k ∈ A, k.1 = p) → Wiped y) ∧
      ((ov = true → (∃ k ∈ A, k.1 = p) → Wiped x) → bare y = bare x) := by
  induction A generalizing x with
  | nil => exact ⟨x, rfl, h, rfl, rfl, fun _ h => h, Or.inl ⟨rfl, rfl⟩, by simp, fun _ => rfl⟩
  | cons k A ih =>
    obtain ⟨w, h1, h2, h3, h4, h5, h6, h7, h8⟩ := palloc_eff c (ov := ov) (p := p) (k := k) h
    obtain ⟨y, g1, g2, g3, g4, g5, g6, g7, g8⟩ := ih h2
    have wiped : Wiped w → Wiped y := fun hw k' hk' => g5 k' (hw k' (by rw [← g3]; exact hk'))
    refine ⟨y, by rw [pall_cons, h1, Option.bind_some, g1], g2, g3.trans h3, g4.trans h4,
      fun k' hk' => g5 k' (h5 k' hk'), ?_, ?_, ?_⟩
    · rcases g6 with g6 | g6
      · rcases h6 with h6 | h6
        · exact Or.inl ⟨g6.1.trans h6.1, g6.2.trans h6.2⟩
        · right
          exact upToDate_congr h6.1 (g8 fun a _ => h7 a h6.2) g3 g6
      · exact Or.inr g6
    · intro ho hm
      by_cases hk : k.1 = p
      · exact wiped (h7 ho hk)
      · refine g7 ho ?_
        obtain ⟨k', h9, h10⟩ := hm
        rcases List.mem_cons.mp h9 with rfl | h9
        · exact absurd h10 hk
        · exact ⟨k', h9, h10⟩
    · intro hw
      have hbw := h8 fun a b => hw a ⟨k, List.mem_cons_self, b⟩
      rw [g8, hbw]
      intro a b
      have hwx := hw a (by obtain ⟨k', h9, h10⟩ := b; exact ⟨k', List.mem_cons_of_mem _ h9, h10⟩)
      intro k' hk'
      rw [h3] at hk'
      exact h5 k' (hwx k' hk')

end Cfg
