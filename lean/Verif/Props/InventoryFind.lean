import Verif.Props.Inventory

/-!
C132: finding exchanges, inventories and exchange relations.
-/

namespace Ivt
open Proc

variable {F Q T : Type} [DecidableEq F] [DecidableEq T]

theorem isRefOf_iff {p : State F Q T} (h : Proc.Reach id p) (k : Key F T) : isRefOf p k = true ↔ k ∈ p.refs := by
  rw [(reach_inv h).refs k]
  unfold isRefOf
  cases hg : p.exchs.get? k with
  | none => simp
  | some e => simp

theorem refs_keys {p : State F Q T} (h : Proc.Reach id p) {k : Key F T} (hk : k ∈ p.refs) : k ∈ p.exchs.keys := by
  obtain ⟨e, h1, _⟩ := ((reach_inv h).refs k).1 hk
  exact (Dict.mem_keys_iff _ _).2 ⟨e, h1⟩

/-- the candidates, in whatever order the sets have -/
theorem gen_spec (ro mo : PyOrd (Key F T)) {s : Px F Q T} (h : Reach s) (flow : Option F) (dir : Option Dir) (reference : Option Bool) :
    ∃ l, gen ro mo s flow dir reference = .ok l ∧ l.Nodup ∧ ∀ k, k ∈ l ↔ Cand s flow dir reference k := by
  have hp := reach_p h
  have hI := reach_inv hp
  have hall : (s.p.refs.all fun r => s.p.exchs.has r) = true := by
    rw [List.all_eq_true]; intro r hr
    exact (Dict.has_iff _ _).2 (refs_keys hp hr)
  have hpair : ∀ kx ∈ s.p.exchs, kx.2.isRef = true ↔ kx.1 ∈ s.p.refs := by
    intro kx hkx
    have := Dict.get?_eq_some_of_mem s.p.exchs hI.nodup hkx
    rw [hI.refs, this]
    constructor
    · intro h; exact ⟨_, rfl, h⟩
    · rintro ⟨e, h1, h2⟩; cases h1; exact h2
  -- the list before the direction is looked at
  have hl : ∃ l, (match flow with
      | none =>
        match reference with
        | some true => if s.p.refs.all fun r => s.p.exchs.has r then .ok (ro.f s.p.refs) else .error .keyError
        | some false => .ok ((s.p.exchs.filter fun kx => !kx.2.isRef).map Prod.fst)
        | none => .ok s.p.exchs.keys
      | some f =>
        match reference with
        | some true => .ok ((mo.f ((s.map.get? f).getD [])).filter fun k => isRefOf s.p k)
        | some false => .ok ((mo.f ((s.map.get? f).getD [])).filter fun k => !isRefOf s.p k)
        | none => .ok (mo.f ((s.map.get? f).getD [])) : Except Err (List (Key F T))) = .ok l ∧ l.Nodup ∧ ∀ k, k ∈ l ↔ Cand s flow none reference k := by
    cases flow with
    | none =>
      cases reference with
      | none => exact ⟨_, rfl, hI.nodup, fun k => by rw [mem_keys_iff_pair]; simp [Cand]⟩
      | some b =>
        cases b with
        | true =>
          refine ⟨_, by rw [if_pos hall], (ro.perm _).nodup_iff.2 hI.refsNodup, fun k => ?_⟩
          rw [ro.mem]
          simp only [Cand, ← mem_keys_iff_pair]
          constructor
          · intro hk; exact ⟨refs_keys hp hk, by simp, by simp, fun _ => hk, by simp⟩
          · rintro ⟨_, _, _, h, _⟩; exact h trivial
        | false =>
          refine ⟨_, rfl, ?_, fun k => ?_⟩
          · exact (List.Sublist.map Prod.fst List.filter_sublist).nodup hI.nodup
          · simp only [List.mem_map, List.mem_filter, Bool.not_eq_true', Cand]
            constructor
            · rintro ⟨kx, ⟨h1, h2⟩, rfl⟩
              refine ⟨⟨kx.2, h1⟩, by simp, by simp, by simp, fun _ hr => ?_⟩
              rw [← hpair kx h1, h2] at hr; cases hr
            · rintro ⟨⟨e, h1⟩, _, _, _, h2⟩
              refine ⟨(k, e), ⟨h1, ?_⟩, rfl⟩
              cases hb : e.isRef with
              | false => rfl
              | true => exact absurd ((hpair (k, e) h1).1 hb) (h2 trivial)
    | some f =>
      obtain ⟨hn, hm⟩ := map_spec h f
      have hn' : (mo.f ((s.map.get? f).getD [])).Nodup := (mo.perm _).nodup_iff.2 hn
      have hm' : ∀ k, k ∈ mo.f ((s.map.get? f).getD []) ↔ k ∈ s.p.exchs.keys ∧ k.flow = f := fun k => by rw [mo.mem, hm]
      cases reference with
      | none =>
        refine ⟨_, rfl, hn', fun k => ?_⟩
        rw [hm', mem_keys_iff_pair]
        simp [Cand]
      | some b =>
        cases b with
        | true =>
          refine ⟨_, rfl, hn'.filter _, fun k => ?_⟩
          rw [List.mem_filter, hm', mem_keys_iff_pair, isRefOf_iff hp]
          simp only [Cand]
          constructor
          · rintro ⟨⟨h1, h2⟩, h3⟩; exact ⟨h1, fun _ hf => by cases hf; exact h2, by simp, fun _ => h3, by simp⟩
          · rintro ⟨h1, h2, _, h3, _⟩; exact ⟨⟨h1, h2 f rfl⟩, h3 trivial⟩
        | false =>
          refine ⟨_, rfl, hn'.filter _, fun k => ?_⟩
          rw [List.mem_filter, hm', mem_keys_iff_pair, Bool.not_eq_true', ← Bool.not_eq_true, isRefOf_iff hp]
          simp only [Cand]
          constructor
          · rintro ⟨⟨h1, h2⟩, h3⟩; exact ⟨h1, fun _ hf => by cases hf; exact h2, by simp, by simp, fun _ => h3⟩
          · rintro ⟨h1, h2, _, _, h3⟩; exact ⟨⟨h1, h2 f rfl⟩, h3 trivial⟩
  obtain ⟨l, h1, h2, h3⟩ := hl
  unfold gen
  simp only
  cases dir with
  | none =>
    refine ⟨l, ?_, h2, h3⟩
    cases flow <;> cases reference <;> (try rename_i b; cases b) <;> simp_all
  | some d =>
    refine ⟨l.filter fun k => decide (k.dir = d), ?_, h2.filter _, fun k => ?_⟩
    · cases flow <;> cases reference <;> (try rename_i b; cases b) <;> simp_all
    · rw [List.mem_filter, h3]
      simp only [Cand, decide_eq_true_eq]
      constructor
      · rintro ⟨⟨a1, a2, _, a4, a5⟩, a6⟩; exact ⟨a1, a2, fun _ hd => by cases hd; exact a6, a4, a5⟩
      · rintro ⟨a1, a2, a3, a4, a5⟩; exact ⟨⟨a1, a2, by simp, a4, a5⟩, a3 d rfl⟩

/-! ### find_exchange -/

/-- the answer of `find_exchange` by the candidates -/
inductive Found (C : Key F T → Prop) : Except Err (Key F T) → Prop
  | none : (∀ k, ¬ C k) → Found C (.error .noExchange)
  | only (x : Key F T) : C x → (∀ y, C y → y = x) → Found C (.ok x)
  | cutoff (x : Key F T) : C x → x.term = none → (∀ y, C y → y.term = none → y = x) → (∃ y, C y ∧ y ≠ x) → Found C (.ok x)
  | multiple (x y : Key F T) : C x → C y → x ≠ y → x.term = none → y.term = none → Found C (.error .multiple)
  | ambiguous (x y : Key F T) : C x → C y → x ≠ y → (∀ z, C z → z.term ≠ none) → Found C (.error .ambiguous)

/-- the cases exclude each other -/
theorem found_unique {C : Key F T → Prop} {a b : Except Err (Key F T)} (ha : Found C a) (hb : Found C b) : a = b := by
  cases ha with
  | none h =>
    cases hb with
    | none => rfl
    | only x hx _ => exact absurd hx (h x)
    | cutoff x hx _ _ _ => exact absurd hx (h x)
    | multiple x y hx _ _ _ _ => exact absurd hx (h x)
    | ambiguous x y hx _ _ _ => exact absurd hx (h x)
  | only x hx h =>
    cases hb with
    | none h' => exact absurd hx (h' x)
    | only y hy _ => rw [h y hy]
    | cutoff y hy _ _ _ => rw [h y hy]
    | multiple y z hy hz hyz _ _ => exact absurd ((h y hy).trans (h z hz).symm) hyz
    | ambiguous y z hy hz hyz _ => exact absurd ((h y hy).trans (h z hz).symm) hyz
  | cutoff x hx ht h hy =>
    cases hb with
    | none h' => exact absurd hx (h' x)
    | only z hz h' => rw [h' x hx]
    | cutoff z hz hzt _ _ => rw [h z hz hzt]
    | multiple y z hy hz hyz h1 h2 => exact absurd ((h y hy h1).trans (h z hz h2).symm) hyz
    | ambiguous y z hy hz hyz h1 => exact absurd ht (h1 x hx)
  | multiple y z hy hz hyz h1 h2 =>
    cases hb with
    | none h' => exact absurd hy (h' y)
    | only x hx h => exact absurd ((h y hy).trans (h z hz).symm) hyz
    | cutoff x hx ht h _ => exact absurd ((h y hy h1).trans (h z hz h2).symm) hyz
    | multiple => rfl
    | ambiguous _ _ _ _ _ h' => exact absurd h1 (h' y hy)
  | ambiguous y z hy hz hyz h1 =>
    cases hb with
    | none h' => exact absurd hy (h' y)
    | only x hx h => exact absurd ((h y hy).trans (h z hz).symm) hyz
    | cutoff x hx ht h _ => exact absurd ht (h1 x hx)
    | multiple x _ hx _ _ h2 _ => exact absurd h2 (h1 x hx)
    | ambiguous => rfl

/-- **C132** `find_exchange` answers by the exchanges that fit, whatever the order of the sets: the only one, or else the only one without
termination; otherwise it raises the exception for the case -/
theorem find_spec (ro mo : PyOrd (Key F T)) {s : Px F Q T} (h : Reach s) (flow : Option F) (reference : Option Bool) (dir : Option Dir) :
    Found (Cand s flow dir reference) (find ro mo s flow reference dir) := by
  obtain ⟨l, h1, h2, h3⟩ := gen_spec ro mo h flow dir reference
  unfold find
  rw [h1]
  match l, h2, h3 with
  | [], _, h3 => exact .none fun k hk => by simpa using (h3 k).2 hk
  | [x], _, h3 => exact .only x ((h3 x).1 (by simp)) fun y hy => by simpa using (h3 y).2 hy
  | x :: y :: l, h2, h3 =>
    simp only
    have hxy : x ≠ y := by
      intro h; subst h; simp at h2
    have hm : ∀ z, z ∈ (x :: y :: l).filter (fun x => decide (x.term = none)) ↔ Cand s flow dir reference z ∧ z.term = none := by
      intro z; rw [List.mem_filter, h3]; simp
    have hn := h2.filter (fun x => decide (x.term = none))
    generalize (x :: y :: l).filter (fun x => decide (x.term = none)) = m at hm hn ⊢
    match m, hm, hn with
    | [], hm, _ => exact .ambiguous x y ((h3 x).1 (by simp)) ((h3 y).1 (by simp)) hxy fun z hz hzt => by simpa using (hm z).2 ⟨hz, hzt⟩
    | [z], hm, _ =>
      obtain ⟨a1, a2⟩ := (hm z).1 (by simp)
      refine .cutoff z a1 a2 (fun w hw hwt => by simpa using (hm w).2 ⟨hw, hwt⟩) ?_
      by_cases hxz : x = z
      · exact ⟨y, (h3 y).1 (by simp), by rw [← hxz]; exact Ne.symm hxy⟩
      · exact ⟨x, (h3 x).1 (by simp), hxz⟩
    | z :: w :: l', hm, hn =>
      obtain ⟨a1, a2⟩ := (hm z).1 (by simp)
      obtain ⟨b1, b2⟩ := (hm w).1 (by simp)
      exact .multiple z w a1 b1 (by intro h; subst h; simp at hn) a2 b2

/-- **C132** the answer does not depend on the order of the sets -/
theorem find_order (ro mo ro' mo' : PyOrd (Key F T)) {s : Px F Q T} (h : Reach s) (flow : Option F) (reference : Option Bool) (dir : Option Dir) :
    find ro mo s flow reference dir = find ro' mo' s flow reference dir :=
  found_unique (find_spec ro mo h flow reference dir) (find_spec ro' mo' h flow reference dir)

/-- the only reference exchange of the flow, in the direction if one is given -/
def OnlyRef (s : Px F Q T) (f : F) (dir : Option Dir) (r : Key F T) : Prop :=
  r ∈ s.p.refs ∧ r.flow = f ∧ (∀ d, dir = some d → r.dir = d) ∧ ∀ r' ∈ s.p.refs, r'.flow = f → (∀ d, dir = some d → r'.dir = d) → r' = r

theorem cand_ref {s : Px F Q T} (h : Reach s) {flow : Option F} {dir : Option Dir} {r : Key F T} :
    Cand s flow dir (some true) r ↔ r ∈ s.p.refs ∧ (∀ f, flow = some f → r.flow = f) ∧ ∀ d, dir = some d → r.dir = d := by
  simp only [Cand, ← mem_keys_iff_pair]
  constructor
  · rintro ⟨_, h2, h3, h4, _⟩; exact ⟨h4 trivial, h2, h3⟩
  · rintro ⟨h1, h2, h3⟩; exact ⟨refs_keys (reach_p h) h1, h2, h3, fun _ => h1, by simp⟩

theorem find_onlyRef (ro mo : PyOrd (Key F T)) {s : Px F Q T} (h : Reach s) {f : F} {dir : Option Dir} {r : Key F T} (hr : OnlyRef s f dir r) :
    find ro mo s (some f) (some true) dir = .ok r := by
  obtain ⟨h1, h2, h3, h4⟩ := hr
  refine found_unique (find_spec ro mo h _ _ _) (.only r ((cand_ref h).2 ⟨h1, fun _ hf => by cases hf; exact h2, h3⟩) ?_)
  intro y hy
  obtain ⟨a1, a2, a3⟩ := (cand_ref h).1 hy
  exact h4 y a1 (a2 f rfl) a3

/-- **C132** the inventory for a flow is taken with respect to its reference exchange, if there is one only, whatever other exchanges the
flow has -/
theorem resolve_onlyRef (ro mo : PyOrd (Key F T)) {s : Px F Q T} (h : Reach s) {f : F} {dir : Option Dir} {r : Key F T} (hr : OnlyRef s f dir r) :
    resolve ro mo s f dir = .ok r := by
  have ht := (reach_inv (reach_p h)).term r hr.1
  have hc : Cand s (some f) dir none r := by
    refine ⟨(mem_keys_iff_pair _ _).1 (refs_keys (reach_p h) hr.1), fun _ hf => by cases hf; exact hr.2.1, hr.2.2.1, by simp, by simp⟩
  unfold resolve
  have := find_spec ro mo h (some f) none dir
  generalize find ro mo s (some f) none dir = a at this
  cases this with
  | none h' => exact absurd hc (h' r)
  | only x _ h' => rw [h' r hc]
  | cutoff x _ _ h' _ => rw [h' r hc ht]
  | multiple => exact find_onlyRef ro mo h hr
  | ambiguous _ _ _ _ _ h' => exact absurd ht (h' r hc)

/-- **C132** … and raises if there are several -/
theorem resolve_two_refs (ro mo : PyOrd (Key F T)) {s : Px F Q T} (h : Reach s) {f : F} {dir : Option Dir} {r r' : Key F T} (hr : r ∈ s.p.refs) (hr' : r' ∈ s.p.refs) (hne : r ≠ r')
    (h1 : r.flow = f) (h2 : r'.flow = f) (h3 : ∀ d, dir = some d → r.dir = d) (h4 : ∀ d, dir = some d → r'.dir = d) : resolve ro mo s f dir = .error .multiple := by
  have ht := (reach_inv (reach_p h)).term r hr
  have ht' := (reach_inv (reach_p h)).term r' hr'
  have hc : ∀ q ∈ s.p.refs, q.flow = f → (∀ d, dir = some d → q.dir = d) → Cand s (some f) dir none q := fun q hq hf hd =>
    ⟨(mem_keys_iff_pair _ _).1 (refs_keys (reach_p h) hq), fun _ e => by cases e; exact hf, hd, by simp, by simp⟩
  unfold resolve
  rw [found_unique (find_spec ro mo h (some f) none dir) (.multiple r r' (hc r hr h1 h3) (hc r' hr' h2 h4) hne ht ht')]
  exact found_unique (find_spec ro mo h (some f) (some true) dir) (.multiple r r' ((cand_ref h).2 ⟨hr, fun _ e => by cases e; exact h1, h3⟩)
    ((cand_ref h).2 ⟨hr', fun _ e => by cases e; exact h2, h4⟩) hne ht ht')

/-! ### has_reference -/

/-- **C132** whether a flow is a reference of the process: right, if it is not twice -/
theorem hasReference_partial (ro mo : PyOrd (Key F T)) {s : Px F Q T} (h : Reach s) (f : F)
    (hu : ∀ r ∈ s.p.refs, ∀ r' ∈ s.p.refs, r.flow = f → r'.flow = f → r = r') : ∃ b, hasReference ro mo s (some f) = .ok b ∧ (b = true ↔ ∃ r ∈ s.p.refs, r.flow = f) := by
  by_cases hex : ∃ r ∈ s.p.refs, r.flow = f
  · obtain ⟨r, h1, h2⟩ := hex
    refine ⟨true, ?_, by simp only [true_iff]; exact ⟨r, h1, h2⟩⟩
    unfold hasReference
    rw [find_onlyRef ro mo h (dir := none) ⟨h1, h2, by simp, fun r' h3 h4 _ => hu r' h3 r h1 h4 h2⟩]
  · refine ⟨false, ?_, by simp [hex]⟩
    unfold hasReference
    rw [found_unique (find_spec ro mo h (some f) (some true) none) (.none fun k hk => hex ?_)]
    obtain ⟨a1, a2, _⟩ := (cand_ref h).1 hk
    exact ⟨k, a1, a2 f rfl⟩

/-- **C132** (a fault) for every process with two reference exchanges `has_reference()` raises, although its answer should be True -/
theorem hasReference_raises (ro mo : PyOrd (Key F T)) {s : Px F Q T} (h : Reach s) {r r' : Key F T} (hr : r ∈ s.p.refs) (hr' : r' ∈ s.p.refs) (hne : r ≠ r') :
    hasReference ro mo s none = .error .multiple := by
  unfold hasReference
  rw [found_unique (find_spec ro mo h none (some true) none) (.multiple r r' ((cand_ref h).2 ⟨hr, by simp, by simp⟩) ((cand_ref h).2 ⟨hr', by simp, by simp⟩) hne
    ((reach_inv (reach_p h)).term r hr) ((reach_inv (reach_p h)).term r' hr'))]

/-! ### exchange_values -/

/-- **C132** `exchange_values` yields the exchanges of the flow, in the direction, with the termination and without the references if so asked -/
theorem exchangeValues_spec (ro mo : PyOrd (Key F T)) {s : Px F Q T} (h : Reach s) (f : F) (dir : Option Dir) (term : Option T) (reference : Option Bool) (hr : reference ≠ some true) :
    ∃ l, exchangeValues ro mo s f dir term reference = .ok l ∧ l.Nodup ∧
      ∀ k, k ∈ l ↔ (∃ e, (k, e) ∈ s.p.exchs) ∧ k.flow = f ∧ (∀ d, dir = some d → k.dir = d) ∧ (∀ t, term = some t → k.term = some t) ∧ (reference = some false → k ∉ s.p.refs) := by
  obtain ⟨l, h1, h2, h3⟩ := gen_spec ro mo h (some f) dir none
  unfold exchangeValues
  rw [if_neg hr, h1]
  refine ⟨_, rfl, h2.filter _, fun k => ?_⟩
  rw [List.mem_filter, h3]
  have hR := isRefOf_iff (reach_p h) k
  simp only [Cand]
  constructor
  · rintro ⟨⟨a1, a2, a3, _, _⟩, a4⟩
    simp only [Bool.and_eq_true, Bool.not_eq_true', Bool.or_eq_true, decide_eq_true_eq, Bool.and_eq_false_iff, decide_eq_false_iff_not] at a4
    refine ⟨a1, a2 f rfl, a3, ?_, ?_⟩
    · rintro t rfl
      rcases a4.2 with h | h
      · cases h
      · exact h
    · intro hf hk
      rcases a4.1 with h | h
      · exact h hf
      · rw [← Bool.not_eq_true, hR] at h; exact h hk
  · rintro ⟨a1, a2, a3, a4, a5⟩
    refine ⟨⟨a1, fun _ e => by cases e; exact a2, a3, by simp, by simp⟩, ?_⟩
    simp only [Bool.and_eq_true, Bool.not_eq_true', Bool.or_eq_true, decide_eq_true_eq, Bool.and_eq_false_iff, decide_eq_false_iff_not]
    constructor
    · by_cases hf : reference = some false
      · right
        rw [← Bool.not_eq_true, hR]
        exact a5 hf
      · exact .inl hf
    · cases term with
      | none => exact .inl rfl
      | some t => exact .inr (a4 t rfl)

/-- **C132** (a fault) asked for references, it ignores the direction: it yields all reference exchanges of the flow -/
theorem exchangeValues_reference (ro mo : PyOrd (Key F T)) {s : Px F Q T} (h : Reach s) (f : F) (dir : Option Dir) (term : Option T) :
    ∃ l, exchangeValues ro mo s f dir term (some true) = .ok l ∧ l.Nodup ∧ ∀ k, k ∈ l ↔ k ∈ s.p.refs ∧ k.flow = f := by
  have hp := reach_p h
  have hall : (s.p.refs.all fun r => s.p.exchs.has r) = true := by
    rw [List.all_eq_true]; intro r hr
    exact (Dict.has_iff _ _).2 (refs_keys hp hr)
  unfold exchangeValues
  rw [if_pos rfl, if_pos hall]
  refine ⟨_, rfl, ((ro.perm _).nodup_iff.2 (reach_inv hp).refsNodup).filter _, fun k => ?_⟩
  rw [List.mem_filter, ro.mem]
  simp

/-! ### is_allocated -/

omit [DecidableEq F] [DecidableEq T] in
theorem ne_nil_iff_mem {α : Type} (l : List α) : l ≠ [] ↔ ∃ x, x ∈ l := by
  cases l with
  | nil => simp
  | cons a l => simp only [ne_eq, reduceCtorEq, not_false_eq_true, true_iff]; exact ⟨a, by simp⟩

/-- **C132** whether a process without allocation by quantity is allocated to the only reference of a flow: some exchange that is no reference
has an amount for it; strictly: all have, or it raises -/
theorem isAllocated_spec (ro mo : PyOrd (Key F T)) (cf : F → Q → Option ℚ) {s : Px F Q T} (h : Reach s) {f : F} {r : Key F T} (hr : OnlyRef s f none r) (hq : s.p.allocQty = none) :
    (isAllocated ro mo cf s (some f) false = .ok true ↔ ∃ kx ∈ s.p.exchs, kx.1 ∉ s.p.refs ∧ r ∈ kx.2.vdict.keys) ∧
    (isAllocated ro mo cf s (some f) true = .ok true ↔ (∃ kx ∈ s.p.exchs, kx.1 ∉ s.p.refs) ∧ ∀ kx ∈ s.p.exchs, kx.1 ∉ s.p.refs → r ∈ kx.2.vdict.keys) ∧
    (isAllocated ro mo cf s (some f) true = .error .missingAllocation ↔
      (∃ kx ∈ s.p.exchs, kx.1 ∉ s.p.refs ∧ r ∈ kx.2.vdict.keys) ∧ ∃ kx ∈ s.p.exchs, kx.1 ∉ s.p.refs ∧ r ∉ kx.2.vdict.keys) := by
  have hex : ∀ b strict, isAllocated ro mo cf s (some f) strict = b ↔ (
      let others := s.p.exchs.filter fun kx => decide (kx.1 ∉ s.p.refs)
      let has := others.filter fun kx => kx.2.vdict.has r
      let missing := others.filter fun kx => !kx.2.vdict.has r
      if !strict && decide (has ≠ []) then .ok true
      else if has = [] then .ok false
      else if missing = [] then .ok true
      else .error .missingAllocation) = b := by
    intro b strict
    unfold isAllocated
    rw [find_onlyRef ro mo h hr, hq]
  have hhas : ∀ kx : Key F T × Exch F T, kx ∈ (s.p.exchs.filter fun kx => decide (kx.1 ∉ s.p.refs)).filter (fun kx => kx.2.vdict.has r) ↔ kx ∈ s.p.exchs ∧ kx.1 ∉ s.p.refs ∧ r ∈ kx.2.vdict.keys := by
    intro kx; rw [List.mem_filter, List.mem_filter, Dict.has_iff]; simp [and_assoc]
  have hmiss : ∀ kx : Key F T × Exch F T, kx ∈ (s.p.exchs.filter fun kx => decide (kx.1 ∉ s.p.refs)).filter (fun kx => !kx.2.vdict.has r) ↔ kx ∈ s.p.exchs ∧ kx.1 ∉ s.p.refs ∧ r ∉ kx.2.vdict.keys := by
    intro kx; rw [List.mem_filter, List.mem_filter, Bool.not_eq_true', ← Bool.not_eq_true, Dict.has_iff]; simp [and_assoc]
  have hasE : (s.p.exchs.filter fun kx => decide (kx.1 ∉ s.p.refs)).filter (fun kx => kx.2.vdict.has r) ≠ [] ↔ ∃ kx ∈ s.p.exchs, kx.1 ∉ s.p.refs ∧ r ∈ kx.2.vdict.keys := by
    rw [ne_nil_iff_mem]
    simp only [hhas]
  have missE : (s.p.exchs.filter fun kx => decide (kx.1 ∉ s.p.refs)).filter (fun kx => !kx.2.vdict.has r) ≠ [] ↔ ∃ kx ∈ s.p.exchs, kx.1 ∉ s.p.refs ∧ r ∉ kx.2.vdict.keys := by
    rw [ne_nil_iff_mem]
    simp only [hmiss]
  simp only [hex, Bool.not_false, Bool.not_true, Bool.true_and, Bool.false_and, Bool.false_eq_true, if_false]
  clear hhas hmiss hex
  generalize (s.p.exchs.filter fun kx => decide (kx.1 ∉ s.p.refs)).filter (fun kx => kx.2.vdict.has r) = A at hasE ⊢
  generalize (s.p.exchs.filter fun kx => decide (kx.1 ∉ s.p.refs)).filter (fun kx => !kx.2.vdict.has r) = B at missE ⊢
  by_cases ha : A = []
  · have hno : ¬ ∃ kx ∈ s.p.exchs, kx.1 ∉ s.p.refs ∧ r ∈ kx.2.vdict.keys := by rw [← hasE]; simpa using ha
    rw [if_neg (by simp [ha]), if_pos ha]
    refine ⟨by simp only [hno, iff_false]; simp, ?_, by simp only [hno, false_and, iff_false]; simp⟩
    constructor
    · intro h; cases h
    · rintro ⟨⟨kx, h1, h2⟩, h3⟩
      exact absurd ⟨kx, h1, h2, h3 kx h1 h2⟩ hno
  · have hyes := hasE.1 ha
    rw [if_pos (by simpa using ha), if_neg ha]
    refine ⟨by simp only [hyes], ?_, ?_⟩
    · by_cases hm : B = []
      · rw [if_pos hm]
        refine ⟨fun _ => ⟨?_, ?_⟩, fun _ => rfl⟩
        · obtain ⟨kx, a1, a2, _⟩ := hyes; exact ⟨kx, a1, a2⟩
        · intro kx a1 a2
          by_contra a3
          exact missE.2 ⟨kx, a1, a2, a3⟩ hm
      · rw [if_neg hm]
        obtain ⟨kx, a1, a2, a3⟩ := missE.1 hm
        exact ⟨fun h => (by cases h), fun h => absurd (h.2 kx a1 a2) a3⟩
    · by_cases hm : B = []
      · rw [if_pos hm]
        exact ⟨fun h => (by cases h), fun h => absurd hm (missE.2 h.2)⟩
      · rw [if_neg hm]
        exact ⟨fun _ => ⟨hyes, missE.1 hm⟩, fun _ => rfl⟩

end Ivt
