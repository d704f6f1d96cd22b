import Verif.Props.InventoryFind

/-!
C132, C133: inventories with respect to a reference flow, and exchange relations.
-/

namespace Ivt
open Proc

variable {F Q T : Type} [DecidableEq F] [DecidableEq T]

/-- no allocation is specified: neither by a quantity nor by amounts of single exchanges -/
def Plain (s : Px F Q T) : Prop := s.p.allocQty = none ∧ ∀ kx ∈ s.p.exchs, kx.1 ∉ s.p.refs → kx.2.vdict = []

/-- every exchange that is no reference has an amount -/
def Valued (s : Px F Q T) : Prop := ∀ kx ∈ s.p.exchs, kx.1 ∉ s.p.refs → kx.2.value ≠ none

/-- the amounts of the exchanges with a flow, a direction and (if given) a termination, references apart -/
def total (s : Px F Q T) (x : F) (d : Dir) (t : Option T) : ℚ :=
  ((s.p.exchs.filter fun kx => decide (kx.1 ∉ s.p.refs) && (decide (kx.1.flow = x) && decide (kx.1.dir = d)) && (decide (t = none) || decide (kx.1.term = t))).map
    fun kx => kx.2.value.getD 0).sum

theorem mapM_ok_of {α β ε : Type} (g : α → Except ε β) (f : α → β) : ∀ l : List α, (∀ a ∈ l, g a = .ok (f a)) → l.mapM g = .ok (l.map f)
  | [], _ => rfl
  | a :: l, h => by
    rw [List.mapM_cons, h a (by simp), List.map_cons]
    have := mapM_ok_of g f l fun b hb => h b (by simp [hb])
    simp only [bind, Except.bind, pure, Except.pure] at this ⊢
    rw [this]

/-- **C132** the inventory for the only reference of a flow, without allocation: the exchanges that are no references, once each, with their
amounts per unit of the reference -/
theorem inventory_plain (ro mo : PyOrd (Key F T)) (cf : F → Q → Option ℚ) {s : Px F Q T} (h : Reach s) {f : F} {dir : Option Dir} {r : Key F T} (hr : OnlyRef s f dir r) (hp : Plain s)
    (hv : Valued s) {v : ℚ} (hrv : (s.p.exchs.get? r).bind (·.val) = some v) (hv0 : v ≠ 0) :
    inventory ro mo cf s (some f) dir = .ok ((s.p.exchs.filter fun kx => decide (kx.1 ∉ s.p.refs)).map fun kx => (kx.1, some (kx.2.value.getD 0 / v))) := by
  have hreach := reach_p h
  have hI := reach_inv hreach
  unfold inventory
  simp only [resolve_onlyRef ro mo h hr]
  unfold Proc.inventory
  simp only [(isRefOf_iff hreach r).2 hr.1, if_true]
  obtain ⟨er, her, herr⟩ := (hI.refs r).1 hr.1
  rw [her] at hrv
  simp only [Option.bind_some] at hrv
  rw [mapM_ok_of _ (fun kx => (kx.1, some (kx.2.value.getD 0 / v)))]
  intro kx hkx
  obtain ⟨h1, h2⟩ := List.mem_filter.1 hkx
  have h2 : kx.1 ∉ s.p.refs := by simpa using h2
  have hg := Dict.get?_eq_some_of_mem s.p.exchs hI.nodup (k := kx.1) (v := kx.2) h1
  have hnr : kx.2.isRef = false := by
    cases hb : kx.2.isRef with
    | false => rfl
    | true => exact absurd ((hI.refs kx.1).2 ⟨_, hg, hb⟩) h2
  obtain ⟨w, hw⟩ := Option.ne_none_iff_exists'.1 (hv kx h1 h2)
  have hgi : getItem cf s.p kx.1 r = .ok (w / v) := by
    unfold getItem
    rw [hg, her]
    simp only [herr, hnr, if_true, hp.1, hp.2 kx h1 h2, List.length_nil, gt_iff_lt, lt_self_iff_false, if_false, Bool.false_eq_true, hw, hrv]
    simp [pyDiv, hv0]
  rw [hgi, hw]
  rfl

/-- **C132** … with allocation by a quantity: the amounts are shared by what the reference flow has of the quantity -/
theorem inventory_allocated (ro mo : PyOrd (Key F T)) (cf : F → Q → Option ℚ) {s : Px F Q T} (h : Reach s) {f : F} {dir : Option Dir} {r : Key F T} (hr : OnlyRef s f dir r) {q : Q}
    (hq : s.p.allocQty = some q) {c : ℚ} (hc : cf f q = some c) (hv : ∀ kx ∈ s.p.exchs, kx.1 ∉ s.p.refs → kx.2.val ≠ none) :
    inventory ro mo cf s (some f) dir = .ok ((s.p.exchs.filter fun kx => decide (kx.1 ∉ s.p.refs)).map fun kx => (kx.1, some (kx.2.val.getD 0 / s.p.allocSum * c))) := by
  have hreach := reach_p h
  have hI := reach_inv hreach
  unfold inventory
  simp only [resolve_onlyRef ro mo h hr]
  unfold Proc.inventory
  simp only [(isRefOf_iff hreach r).2 hr.1, if_true]
  obtain ⟨er, her, herr⟩ := (hI.refs r).1 hr.1
  rw [mapM_ok_of _ (fun kx => (kx.1, some (kx.2.val.getD 0 / s.p.allocSum * c)))]
  intro kx hkx
  obtain ⟨h1, h2⟩ := List.mem_filter.1 hkx
  have h2 : kx.1 ∉ s.p.refs := by simpa using h2
  have hg := Dict.get?_eq_some_of_mem s.p.exchs hI.nodup (k := kx.1) (v := kx.2) h1
  have hnr : kx.2.isRef = false := by
    cases hb : kx.2.isRef with
    | false => rfl
    | true => exact absurd ((hI.refs kx.1).2 ⟨_, hg, hb⟩) h2
  obtain ⟨w, hw⟩ := Option.ne_none_iff_exists'.1 (hv kx h1 h2)
  have hgi : getItem cf s.p kx.1 r = .ok (w / s.p.allocSum * c) := by
    unfold getItem
    rw [hg, her]
    simp only [herr, hnr, if_true, Bool.false_eq_true, if_false, hq, hw]
    simp only [pyDiv, allocQty_some hq, if_false, pyMul, hr.2.1, hc]
  rw [hgi, hw]
  rfl

/-- **C132** the inventory for an exchange that is no reference and has no termination: all other exchanges, not allocated, per unit of it -/
theorem inventory_cutoff (ro mo : PyOrd (Key F T)) (cf : F → Q → Option ℚ) {s : Px F Q T} (h : Reach s) {f : F} {dir : Option Dir} {r : Key F T} (hr : resolve ro mo s f dir = .ok r)
    (hnr : r ∉ s.p.refs) (ht : r.term = none) {er : Exch F T} (her : (r, er) ∈ s.p.exchs) {v : ℚ} (hrv : er.val = some v) (hv0 : v ≠ 0) (hv : ∀ kx ∈ s.p.exchs, kx.1 ≠ r → kx.2.value ≠ none) :
    inventory ro mo cf s (some f) dir = .ok ((s.p.exchs.filter fun kx => decide (kx.1 ≠ r)).map fun kx => (kx.1, some (kx.2.value.getD 0 / v))) := by
  have hreach := reach_p h
  have hI := reach_inv hreach
  have hnr' : isRefOf s.p r = false := by rw [← Bool.not_eq_true, isRefOf_iff hreach]; exact hnr
  have hg' := Dict.get?_eq_some_of_mem s.p.exchs hI.nodup her
  have hb : er.isRef = false := by
    cases hb : er.isRef with
    | false => rfl
    | true => exact absurd ((hI.refs r).2 ⟨_, hg', hb⟩) hnr
  unfold inventory
  simp only [hr]
  unfold Proc.inventory
  simp only [hnr', Bool.false_eq_true, if_false]
  rw [mapM_ok_of _ (fun kx => (kx.1, some (kx.2.value.getD 0 / v)))]
  intro kx hkx
  obtain ⟨h1, h2⟩ := List.mem_filter.1 hkx
  have h2 : kx.1 ≠ r := by simpa using h2
  have hg := Dict.get?_eq_some_of_mem s.p.exchs hI.nodup (k := kx.1) (v := kx.2) h1
  obtain ⟨w, hw⟩ := Option.ne_none_iff_exists'.1 (hv kx h1 h2)
  have hgi : getItem cf s.p kx.1 r = .ok (w / v) := by
    unfold getItem
    rw [hg, hg']
    simp [hb, ht, hw, hrv, pyDiv, hv0]
  rw [hgi, hw]
  rfl

/-- **C132** … and for an exchange with a termination it raises -/
theorem inventory_terminated (ro mo : PyOrd (Key F T)) (cf : F → Q → Option ℚ) {s : Px F Q T} (h : Reach s) {f : F} {dir : Option Dir} {r : Key F T} (hr : resolve ro mo s f dir = .ok r)
    (ht : r.term ≠ none) {kx : Key F T × Exch F T} (hkx : kx ∈ s.p.exchs) (hne : kx.1 ≠ r) : inventory ro mo cf s (some f) dir = .error (.proc .exchangeError) := by
  have hreach := reach_p h
  have hI := reach_inv hreach
  have hnr : r ∉ s.p.refs := fun hm => ht (hI.term r hm)
  have hnr' : isRefOf s.p r = false := by rw [← Bool.not_eq_true, isRefOf_iff hreach]; exact hnr
  have hmem : ∃ er, (r, er) ∈ s.p.exchs := by
    have hC : ∀ a, Found (Cand s (some f) dir none) a → a = .ok r → Cand s (some f) dir none r := by
      intro a ha e
      cases ha with
      | none => cases e
      | only x hx _ => cases e; exact hx
      | cutoff x hx _ _ _ => cases e; exact hx
      | multiple => cases e
      | ambiguous => cases e
    unfold resolve at hr
    have hs := find_spec ro mo h (some f) none dir
    split at hr
    · have hs' := find_spec ro mo h (some f) (some true) dir
      rw [hr] at hs'
      have : Cand s (some f) dir (some true) r := by
        cases hs' with
        | only _ hx _ => exact hx
        | cutoff _ hx _ _ _ => exact hx
      exact this.1
    · exact (hC _ hs hr).1
  obtain ⟨er, her⟩ := hmem
  have hg' := Dict.get?_eq_some_of_mem s.p.exchs hI.nodup her
  have hb : er.isRef = false := by
    cases hb : er.isRef with
    | false => rfl
    | true => exact absurd ((hI.refs r).2 ⟨_, hg', hb⟩) hnr
  unfold inventory
  simp only [hr]
  unfold Proc.inventory
  simp only [hnr', Bool.false_eq_true, if_false]
  have hfm : kx ∈ s.p.exchs.filter fun kx => decide (kx.1 ≠ r) := List.mem_filter.2 ⟨hkx, by simpa using hne⟩
  match hl : s.p.exchs.filter fun kx => decide (kx.1 ≠ r) with
  | [] => rw [hl] at hfm; cases hfm
  | a :: l =>
    have ha : a ∈ s.p.exchs := (List.mem_filter.1 (show a ∈ s.p.exchs.filter fun kx => decide (kx.1 ≠ r) by rw [hl]; simp)).1
    have hga := Dict.get?_eq_some_of_mem s.p.exchs hI.nodup (k := a.1) (v := a.2) ha
    have hgi : getItem cf s.p a.1 r = .error .exchangeError := by
      unfold getItem
      rw [hga, hg']
      simp [hb, ht]
    rw [hl, List.mapM_cons, hgi]
    rfl

theorem pySum_some (l : List ℚ) : pySum (l.map some) = .ok l.sum := by
  induction l with
  | nil => rfl
  | cons a l ih => simp only [List.map_cons, pySum, ih, List.sum_cons]

/-- **C133** the exchange relation is the sum of the matching amounts of the inventory, divided by the amount of the reference once more -/
theorem relation_inventory (ro mo : PyOrd (Key F T)) (cf : F → Q → Option ℚ) {s : Px F Q T} (h : Reach s) {f : F} {r : Key F T} (hr : OnlyRef s f none r)
    {v : ℚ} (hrv : (s.p.exchs.get? r).bind (·.val) = some v) (hv0 : v ≠ 0) (x : F) (d : Dir) (t : Option T) {inv : List (Key F T × ℚ)}
    (hinv : inventory ro mo cf s (some f) none = .ok (inv.map fun kv => (kv.1, some kv.2))) :
    exchangeRelation ro mo cf s (some f) x d t = .ok (((inv.filter fun kv => (decide (kv.1.flow = x) && decide (kv.1.dir = d)) && (decide (t = none) || decide (kv.1.term = t))).map Prod.snd).sum / v) := by
  unfold exchangeRelation
  rw [hinv]
  simp only [reference, find_onlyRef ro mo h hr, List.filter_map, List.filter_filter]
  have hfil : (fun a : Key F T × ℚ => ((fun x : Key F T × Option ℚ => decide (t = none) || decide (x.1.term = t)) ∘ fun kv : Key F T × ℚ => (kv.1, some kv.2)) a &&
      ((fun x_1 : Key F T × Option ℚ => decide (x_1.1.flow = x) && decide (x_1.1.dir = d)) ∘ fun kv : Key F T × ℚ => (kv.1, some kv.2)) a) =
      fun kv => (decide (kv.1.flow = x) && decide (kv.1.dir = d)) && (decide (t = none) || decide (kv.1.term = t)) := by
    funext kv; simp only [Function.comp]; rw [Bool.and_comm]
  rw [hfil]
  generalize inv.filter (fun kv => (decide (kv.1.flow = x) && decide (kv.1.dir = d)) && (decide (t = none) || decide (kv.1.term = t))) = m
  by_cases hm : m = []
  · subst hm; simp
  · rw [if_neg (by simpa using hm), List.map_map]
    have : (m.map (Prod.snd ∘ fun kv : Key F T × ℚ => (kv.1, some kv.2))) = (m.map Prod.snd).map some := by
      rw [List.map_map]; rfl
    rw [this, pySum_some]
    simp [hrv, pyDiv, hv0]

theorem sum_div (l : List ℚ) (v : ℚ) : (l.map (· / v)).sum = l.sum / v := by
  induction l with
  | nil => simp
  | cons a l ih => simp only [List.map_cons, List.sum_cons, ih]; ring

/-- **C133** (a fault) without allocation, the exchange relation with respect to a flow is the amount divided by the reference amount twice -/
theorem relation_twice (ro mo : PyOrd (Key F T)) (cf : F → Q → Option ℚ) {s : Px F Q T} (h : Reach s) {f : F} {r : Key F T} (hr : OnlyRef s f none r) (hp : Plain s) (hv : Valued s)
    {v : ℚ} (hrv : (s.p.exchs.get? r).bind (·.val) = some v) (hv0 : v ≠ 0) (x : F) (d : Dir) (t : Option T) :
    exchangeRelation ro mo cf s (some f) x d t = .ok (total s x d t / v / v) := by
  have hinv := inventory_plain ro mo cf h hr hp hv hrv hv0
  have h1 : ((s.p.exchs.filter fun kx => decide (kx.1 ∉ s.p.refs)).map fun kx : Key F T × Exch F T => (kx.1, some (kx.2.value.getD 0 / v))) =
      (((s.p.exchs.filter fun kx => decide (kx.1 ∉ s.p.refs)).map fun kx : Key F T × Exch F T => (kx.1, kx.2.value.getD 0 / v)).map fun kv => (kv.1, some kv.2)) := by
    rw [List.map_map]; rfl
  rw [h1] at hinv
  rw [relation_inventory ro mo cf h hr hrv hv0 x d t hinv]
  congr 2
  rw [List.filter_map, List.map_map, total, ← sum_div, List.map_map, List.filter_filter]
  congr 2
  congr 1
  funext kx
  simp only [Function.comp]
  cases decide (kx.1 ∉ s.p.refs) <;> simp

/-- **C133** it is right exactly if the reference amount is one or there is nothing to report -/
theorem relation_right_iff (ro mo : PyOrd (Key F T)) (cf : F → Q → Option ℚ) {s : Px F Q T} (h : Reach s) {f : F} {r : Key F T} (hr : OnlyRef s f none r) (hp : Plain s) (hv : Valued s)
    {v : ℚ} (hrv : (s.p.exchs.get? r).bind (·.val) = some v) (hv0 : v ≠ 0) (x : F) (d : Dir) (t : Option T) :
    exchangeRelation ro mo cf s (some f) x d t = .ok (total s x d t / v) ↔ v = 1 ∨ total s x d t = 0 := by
  rw [relation_twice ro mo cf h hr hp hv hrv hv0]
  generalize total s x d t = w
  simp only [Except.ok.injEq]
  constructor
  · intro h
    have h : w / v = w := by
      have := congrArg (· * v) h
      simpa [div_mul_cancel₀ _ hv0] using this
    by_cases hw : w = 0
    · exact .inr hw
    · left
      rw [div_eq_iff hv0] at h
      exact (mul_left_cancel₀ hw (by rw [← h, mul_one])).symm
  · rintro (rfl | hw)
    · simp
    · rw [hw]; simp

/-- **C133** for a process with one reference, asked without a reference flow, the relation is right -/
theorem relation_without_flow (ro mo : PyOrd (Key F T)) (cf : F → Q → Option ℚ) {s : Px F Q T} (h : Reach s) {r : Key F T} (hr : s.p.refs = [r]) (hp : Plain s) (hv : Valued s)
    {v : ℚ} (hrv : (s.p.exchs.get? r).bind (·.val) = some v) (hv0 : v ≠ 0) (x : F) (d : Dir) (t : Option T) (hx : ¬ (r.flow = x ∧ r.dir = d)) :
    exchangeRelation ro mo cf s none x d t = .ok (total s x d t / v) := by
  have hI := reach_inv (reach_p h)
  have hfind : reference ro mo s none = .ok r := by
    refine found_unique (find_spec ro mo h none (some true) none) (.only r ((cand_ref h).2 ⟨by rw [hr]; simp, by simp, by simp⟩) fun y hy => ?_)
    have := ((cand_ref h).1 hy).1
    rw [hr] at this; simpa using this
  unfold exchangeRelation inventory Proc.inventory
  simp only [hfind, List.filter_map, List.filter_filter]
  have hfil : (s.p.exchs.filter fun a : Key F T × Exch F T => ((fun x : Key F T × Option ℚ => decide (t = none) || decide (x.1.term = t)) ∘ fun kx : Key F T × Exch F T => (kx.1, kx.2.val)) a &&
      ((fun x_1 : Key F T × Option ℚ => decide (x_1.1.flow = x) && decide (x_1.1.dir = d)) ∘ fun kx : Key F T × Exch F T => (kx.1, kx.2.val)) a) =
      s.p.exchs.filter fun kx => decide (kx.1 ∉ s.p.refs) && (decide (kx.1.flow = x) && decide (kx.1.dir = d)) && (decide (t = none) || decide (kx.1.term = t)) := by
    apply List.filter_congr
    intro kx hkx
    simp only [Function.comp]
    by_cases hm : kx.1 ∈ s.p.refs
    · rw [hr, List.mem_singleton] at hm
      have : (decide (kx.1.flow = x) && decide (kx.1.dir = d)) = false := by
        rw [hm]; simpa using hx
      rw [this]; simp
    · simp only [hm, not_false_eq_true, decide_true, Bool.true_and]
      rw [Bool.and_comm]
  rw [hfil]
  have hval : ∀ kx ∈ s.p.exchs.filter (fun kx => decide (kx.1 ∉ s.p.refs) && (decide (kx.1.flow = x) && decide (kx.1.dir = d)) && (decide (t = none) || decide (kx.1.term = t))),
      kx.2.val = some (kx.2.value.getD 0) := by
    intro kx hkx
    obtain ⟨h1, h2⟩ := List.mem_filter.1 hkx
    have h2 : kx.1 ∉ s.p.refs := by
      simp only [Bool.and_eq_true, decide_eq_true_eq] at h2
      exact h2.1.1
    obtain ⟨w, hw⟩ := Option.ne_none_iff_exists'.1 (hv kx h1 h2)
    rw [Exch.val, hp.2 kx h1 h2, hw]
    rfl
  unfold total
  generalize s.p.exchs.filter (fun kx => decide (kx.1 ∉ s.p.refs) && (decide (kx.1.flow = x) && decide (kx.1.dir = d)) && (decide (t = none) || decide (kx.1.term = t))) = m at hval ⊢
  by_cases hm : m = []
  · subst hm; simp
  · rw [if_neg (by simpa using hm), List.map_map]
    have : (m.map (Prod.snd ∘ fun kx : Key F T × Exch F T => (kx.1, kx.2.val))) = (m.map fun kx => kx.2.value.getD 0).map some := by
      rw [List.map_map]
      apply List.map_congr_left
      intro kx hkx
      exact hval kx hkx
    rw [this, pySum_some]
    simp [hrv, pyDiv, hv0]

/-! ### examples -/

/-- flow 0 is produced (amount 2), and consumed from the process 5; 16 of flow 2 are consumed, 6 of them from process 7; flow 3 is a co-product
if it is made a reference -/
def exOps : List (Op ℕ Unit ℕ) :=
  [.addExchange 0 .output none (some 2) none false, .addExchange 0 .input none (some 1) (some 5) false, .addExchange 2 .input none (some 10) none false,
   .addExchange 2 .input none (some 6) (some 7) false, .addExchange 3 .output none (some 4) none false, .addReference 0 .output]

def run (ops : List (Op ℕ Unit ℕ)) : Px ℕ Unit ℕ := ops.foldl (fun s op => (step (known exC) op s).2) {}

theorem reach_run (ops : List (Op ℕ Unit ℕ)) : Reach (run ops) := by
  have : ∀ (ops : List (Op ℕ Unit ℕ)) (s : Px ℕ Unit ℕ), Reach s → Reach (ops.foldl (fun s op => (step (known exC) op s).2) s) := by
    intro ops
    induction ops with
    | nil => intro s h; exact h
    | cons op ops ih => intro s h; exact ih _ (.call _ op h)
  exact this ops _ .new

def o : PyOrd (Key ℕ ℕ) := .id _

theorem ex_onlyRef : OnlyRef (run exOps) 0 none ⟨0, .output, none⟩ := by
  refine ⟨by decide +kernel, rfl, by simp, ?_⟩
  intro r' h _ _
  have : (run exOps).p.refs = [⟨0, .output, none⟩] := by decide +kernel
  rw [this] at h
  simpa using h

theorem ex_plain : Plain (run exOps) := by
  refine ⟨by decide +kernel, ?_⟩
  have : ∀ kx ∈ (run exOps).p.exchs, kx.2.vdict = [] := by decide +kernel
  exact fun kx h _ => this kx h

theorem ex_valued : Valued (run exOps) := by
  have : ∀ kx ∈ (run exOps).p.exchs, kx.2.value ≠ none := by decide +kernel
  exact fun kx h _ => this kx h

/-- 16 of flow 2 for 2 of flow 0 are reported as 4 per unit -/
example : exchangeRelation o o (known exC) (run exOps) (some 0) 2 .input none = .ok 4 := by
  rw [relation_twice o o _ (reach_run _) ex_onlyRef ex_plain ex_valued (v := 2) (by decide +kernel) (by decide)]
  decide +kernel

/-- without the flow, as 8 -/
example : exchangeRelation o o (known exC) (run exOps) none 2 .input none = .ok 8 := by
  rw [relation_without_flow o o _ (reach_run _) (r := ⟨0, .output, none⟩) (by decide +kernel) ex_plain ex_valued (v := 2) (by decide +kernel) (by decide) _ _ _ (by decide)]
  decide +kernel

/-- flow 0 has two exchanges; the reference is the one without termination -/
example : resolve o o (run exOps) 0 none = .ok ⟨0, .output, none⟩ := resolve_onlyRef o o (reach_run _) ex_onlyRef

/-- with respect to flow 3, which is no reference, the amounts are divided by 4; flow 0 as an input has a termination -/
example : inventory o o (known exC) (run exOps) (some 3) none = .ok [(⟨0, .output, none⟩, some (1/2)), (⟨0, .input, some 5⟩, some (1/4)), (⟨2, .input, none⟩, some (10/4)),
    (⟨2, .input, some 7⟩, some (6/4))] ∧ inventory o o (known exC) (run exOps) (some 0) (some .input) = .error (.proc .exchangeError) := by decide +kernel

/-- exchanges that are ambiguous, not found, and found by their direction -/
example : find o o (run exOps) none none none = .error .multiple ∧ find o o (run exOps) (some 9) none none = .error .noExchange ∧
    find o o (run exOps) (some 0) none (some .input) = .ok ⟨0, .input, some 5⟩ ∧ find o o (run exOps) (some 2) none none = .ok ⟨2, .input, none⟩ := by decide +kernel

example : find o o (run [.addExchange 2 .input none (some 6) (some 7) false, .addExchange 2 .input none (some 5) (some 8) false]) (some 2) none none = .error .ambiguous := by decide +kernel

/-- with flow 3 a second reference: two references, each found by its flow, but `has_reference()` raises -/
example : hasReference o o (run (exOps ++ [.addReference 3 .output])) none = .error .multiple :=
  hasReference_raises o o (reach_run _) (r := ⟨0, .output, none⟩) (r' := ⟨3, .output, none⟩) (by decide +kernel) (by decide +kernel) (by decide)

example : hasReference o o (run (exOps ++ [.addReference 3 .output])) (some 3) = .ok true ∧ hasReference o o (run exOps) (some 3) = .ok false := by decide +kernel

/-- a flow that is a reference in both directions: the input is yielded too when references that are outputs are asked for -/
example : exchangeValues o o (run [.addExchange 0 .output none (some 2) none false, .addExchange 0 .input none (some 1) none false, .addReference 0 .output, .addReference 0 .input])
    0 (some .output) none (some true) = .ok [⟨0, .output, none⟩, ⟨0, .input, none⟩] := by decide +kernel

example : resolve o o (run [.addExchange 0 .output none (some 2) none false, .addExchange 0 .input none (some 1) none false, .addReference 0 .output, .addReference 0 .input]) 0 none =
    .error .multiple :=
  resolve_two_refs o o (reach_run _) (r := ⟨0, .output, none⟩) (r' := ⟨0, .input, none⟩) (by decide +kernel) (by decide +kernel) (by decide) rfl rfl (by simp) (by simp)

/-- allocation by the quantity: shares 2·1 and 4·4 of the total 18 -/
example : inventory o o (known exC) (run (exOps ++ [.addReference 3 .output, .allocate (some ())])) (some 0) none = .ok
    [(⟨0, .input, some 5⟩, some (1/18)), (⟨2, .input, none⟩, some (10/18)), (⟨2, .input, some 7⟩, some (6/18))] := by decide +kernel

/-- allocation by amounts: complete for flow 0, and not -/
example : isAllocated o o (known exC) (run [.addExchange 0 .output none (some 2) none false, .addReference 0 .output, .addExchange 2 .input (some ⟨0, .output, none⟩) (some 3) none false])
    (some 0) true = .ok true ∧
  isAllocated o o (known exC) (run [.addExchange 0 .output none (some 2) none false, .addReference 0 .output, .addExchange 2 .input (some ⟨0, .output, none⟩) (some 3) none false,
    .addExchange 3 .input none (some 3) none false]) (some 0) true = .error .missingAllocation := by decide +kernel

end Ivt
