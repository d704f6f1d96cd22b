import Verif.Props.QdbFind

/-!
C63: the store of factors. After any history of `add_cf` and of queries, the factors under a flowable, quantity and compartment
are those that were added, of equal ones the first.
-/

namespace Qdb
variable {Q : Type} [DecidableEq Q]

theorem addCF_idem (l : List (CF Q)) (a : CF Q) : addCF (addCF l a) a = addCF l a := by
  obtain ⟨y, hy, hs⟩ := addCF_has l a
  have : (addCF l a).any (CF.same a) = true := List.any_eq_true.mpr ⟨y, hy, hs⟩
  rw [show addCF (addCF l a) a = if (addCF l a).any (CF.same a) then addCF l a else addCF l a ++ [a] from rfl, if_pos this]

theorem put_get (L : Lookup Q) (c c' : ℕ) (cf : CF Q) :
    (L.put c cf).get c' = if c' = c then addCF (L.get c) cf else L.get c' := by
  show (Dict.get? (Dict.set L c (addCF (L.get c) cf)) c').getD [] = _
  rw [Dict.get?_set]
  by_cases h : c' = c
  · subst h; simp
  · have h' : ¬ c = c' := fun e => h e.symm
    simp [h, h', Lookup.get]

theorem storeCF_lookup (s : St Q) (q c : ℕ) (cf : CF Q) (f f' q' : ℕ) :
    (storeCF s q c cf f).lookup f' (some q') =
      if f' = f ∧ q' = q then (s.lookup f (some q)).put c cf else s.lookup f' (some q') := by
  show ((s.fq.set (f, q) ((s.lookup f (some q)).put c cf)).get? (f', q')).getD [] = _
  rw [Dict.get?_set]
  by_cases h : f' = f ∧ q' = q
  · obtain ⟨rfl, rfl⟩ := h; simp
  · have h' : ¬ (f, q) = (f', q') := by
      intro e; simp only [Prod.mk.injEq] at e; exact h ⟨e.1.symm, e.2.symm⟩
    simp only [h, h', if_false, St.lookup, Option.bind_some]

theorem storeAll_get (q c : ℕ) (cf : CF Q) (f' q' c' : ℕ) (inds : List ℕ) : ∀ s : St Q,
    ((inds.foldl (storeCF · q c cf) s).lookup f' (some q')).get c' =
      if f' ∈ inds ∧ q' = q ∧ c' = c then addCF ((s.lookup f' (some q')).get c') cf
      else (s.lookup f' (some q')).get c' := by
  induction inds with
  | nil => intro s; simp
  | cons i inds ih =>
    intro s
    rw [List.foldl_cons, ih, storeCF_lookup]
    by_cases h1 : f' = i ∧ q' = q
    · obtain ⟨rfl, rfl⟩ := h1
      simp only [and_self, if_true, List.mem_cons, true_or, true_and]
      rw [put_get]
      by_cases hc : c' = c
      · subst hc
        simp only [if_true, and_true]
        split
        · exact addCF_idem _ _
        · rfl
      · simp [hc]
    · simp only [h1, if_false]
      by_cases h2 : f' ∈ inds ∧ q' = q ∧ c' = c
      · have h3 : f' ∈ i :: inds ∧ q' = q ∧ c' = c := ⟨by simp [h2.1], h2.2⟩
        rw [if_pos h2, if_pos h3]
      · have h3 : ¬ (f' ∈ i :: inds ∧ q' = q ∧ c' = c) := by
          rintro ⟨h3, h4⟩
          rcases List.mem_cons.mp h3 with h3 | h3
          · exact h1 ⟨h3, h4.1⟩
          · exact h2 ⟨h3, h4⟩
        rw [if_neg h2, if_neg h3]

theorem mem_addTo (d : Dict ℕ (List ℕ)) (k v k' v' : ℕ) :
    v' ∈ ((addTo d k v).get? k').getD [] ↔ v' ∈ (d.get? k').getD [] ∨ (k' = k ∧ v' = v) := by
  unfold addTo
  rw [Dict.get?_set]
  by_cases h : k = k'
  · subst h; simp
  · have h' : ¬ k' = k := fun e => h e.symm
    simp [h, h']

theorem mem_touch (d : Dict ℕ (List ℕ)) (k k' v : ℕ) :
    v ∈ ((touch d k).get? k').getD [] ↔ v ∈ (d.get? k').getD [] := by
  unfold touch
  split
  · rfl
  · rename_i h
    rw [Dict.get?_set]
    by_cases e : k = k'
    · subst e
      have : d.get? k = none := by
        cases hg : d.get? k with
        | none => rfl
        | some w => simp [Dict.has, hg] at h
      simp [this]
    · simp [e]

theorem storeAll_qd (q c : ℕ) (cf : CF Q) (q' f' : ℕ) (inds : List ℕ) : ∀ s : St Q,
    f' ∈ ((inds.foldl (storeCF · q c cf) s).qd.get? q').getD [] ↔
      f' ∈ (s.qd.get? q').getD [] ∨ (f' ∈ inds ∧ q' = q) := by
  induction inds with
  | nil => intro s; simp
  | cons i inds ih =>
    intro s
    rw [List.foldl_cons, ih]
    simp only [storeCF, mem_addTo, List.mem_cons]
    constructor
    · rintro ((h | ⟨h, h'⟩) | ⟨h, h'⟩)
      · exact .inl h
      · exact .inr ⟨.inl h', h⟩
      · exact .inr ⟨.inr h, h'⟩
    · rintro (h | ⟨h | h, h'⟩)
      · exact .inl (.inl h)
      · exact .inl (.inr ⟨h', h⟩)
      · exact .inr ⟨h, h'⟩

theorem storeAll_fd (q c : ℕ) (cf : CF Q) (q' f' : ℕ) (inds : List ℕ) : ∀ s : St Q,
    q' ∈ ((inds.foldl (storeCF · q c cf) s).fd.get? f').getD [] ↔
      q' ∈ (s.fd.get? f').getD [] ∨ (f' ∈ inds ∧ q' = q) := by
  induction inds with
  | nil => intro s; simp
  | cons i inds ih =>
    intro s
    rw [List.foldl_cons, ih]
    simp only [storeCF, mem_addTo, List.mem_cons]
    constructor
    · rintro ((h | ⟨h, h'⟩) | ⟨h, h'⟩)
      · exact .inl h
      · exact .inr ⟨.inl h, h'⟩
      · exact .inr ⟨.inr h, h'⟩
    · rintro (h | ⟨h | h, h'⟩)
      · exact .inl (.inl h)
      · exact .inl (.inr ⟨h, h'⟩)
      · exact .inr ⟨h, h'⟩

theorem storeAll_flows (q c : ℕ) (cf : CF Q) (inds : List ℕ) : ∀ s : St Q,
    (inds.foldl (storeCF · q c cf) s).flows = s.flows := by
  induction inds with
  | nil => intro s; rfl
  | cons i inds ih => intro s; rw [List.foldl_cons, ih]; rfl

/-! ### histories -/

inductive Op (Q : Type)
  | addCf (cf : CF Q) (inds : List ℕ)
  | flowsFor (q : ℕ)
  | cfsFor (q : ℕ) (comp : Option ℕ)

def step (E : Env Q) (s : St Q) : Op Q → St Q
  | .addCf cf inds => (addCf E cf inds s).state
  | .flowsFor q => (flowsForQuantity s q).2
  | .cfsFor q c => (cfsForQuantity s q c).2

def run (E : Env Q) (ops : List (Op Q)) (s : St Q) : St Q := ops.foldl (step E) s

/-- the factors that a history adds for a flowable, a quantity and a compartment; `comp` is the compartment of a flow -/
def added (E : Env Q) (comp : ℕ → Option ℕ) (f q c : ℕ) : List (Op Q) → List (CF Q)
  | [] => []
  | .addCf cf inds :: ops =>
    if f ∈ inds ∧ E.ind cf.q = q ∧ comp cf.flow = some c then cf :: added E comp f q c ops else added E comp f q c ops
  | _ :: ops => added E comp f q c ops

theorem step_flows (E : Env Q) (s : St Q) (op : Op Q) : (step E s op).flows = s.flows := by
  cases op with
  | addCf cf inds =>
    simp only [step, addCf]
    split
    · rfl
    · simp [Out.state, storeAll_flows]
  | flowsFor q => rfl
  | cfsFor q c => rfl

/-- C63: what is stored is what was added, of equal factors the first -/
theorem stored_eq (E : Env Q) (f q c : ℕ) (ops : List (Op Q)) : ∀ s : St Q,
    ((run E ops s).lookup f (some q)).get c =
      unionCF ((s.lookup f (some q)).get c) (added E (fun x => (s.flows x).comp) f q c ops) := by
  induction ops with
  | nil => intro s; rfl
  | cons op ops ih =>
    intro s
    have h : run E (op :: ops) s = run E ops (step E s op) := rfl
    rw [h, ih, step_flows]
    cases op with
    | flowsFor q' => rfl
    | cfsFor q' c' => rfl
    | addCf cf inds =>
      rcases hc : (s.flows cf.flow).comp with _ | c1
      · simp [step, addCf, added, Out.state, hc]
      · simp only [step, addCf, added, hc, Out.state, Option.some.injEq]
        rw [storeAll_get]
        by_cases h1 : f ∈ inds ∧ q = E.ind cf.q ∧ c = c1
        · have h2 : f ∈ inds ∧ E.ind cf.q = q ∧ c1 = c := ⟨h1.1, h1.2.1.symm, h1.2.2.symm⟩
          rw [if_pos h1, if_pos h2]; rfl
        · have h2 : ¬ (f ∈ inds ∧ E.ind cf.q = q ∧ c1 = c) := fun h2 => h1 ⟨h2.1, h2.2.1.symm, h2.2.2.symm⟩
          rw [if_neg h1, if_neg h2]

/-- C63: from an empty store, a factor is found where it was added, and only there -/
theorem stored_iff (E : Env Q) (f q c : ℕ) (ops : List (Op Q)) (flows : ℕ → FlowO Q) :
    SameSet (((run E ops { flows := flows }).lookup f (some q)).get c) (added E (fun x => (flows x).comp) f q c ops) := by
  rw [stored_eq]
  have := SameSet.union (SameSet.refl ([] : List (CF Q))) (m := added E (fun x => (flows x).comp) f q c ops)
  have h0 : (({ flows := flows } : St Q).lookup f (some q)).get c = [] := rfl
  rw [h0]
  simpa using this

/-- a flowable and a quantity for which a history adds a factor -/
def addedFor (E : Env Q) (comp : ℕ → Option ℕ) (ops : List (Op Q)) (f q : ℕ) : Prop :=
  ∃ cf inds, Op.addCf cf inds ∈ ops ∧ f ∈ inds ∧ E.ind cf.q = q ∧ comp cf.flow ≠ none

omit [DecidableEq Q] in
theorem addedFor_iff (E : Env Q) (comp : ℕ → Option ℕ) (f q : ℕ) (ops : List (Op Q)) :
    addedFor E comp ops f q ↔ ∃ c cf, cf ∈ added E comp f q c ops := by
  induction ops with
  | nil => simp [addedFor, added]
  | cons op ops ih =>
    constructor
    · rintro ⟨cf, inds, hm, h⟩
      rcases List.mem_cons.mp hm with rfl | hm
      · obtain ⟨c, hc⟩ := Option.ne_none_iff_exists'.mp h.2.2
        exact ⟨c, cf, by simp [added, h.1, h.2.1, hc]⟩
      · obtain ⟨c, cf', h'⟩ := ih.mp ⟨cf, inds, hm, h⟩
        refine ⟨c, cf', ?_⟩
        cases op with
        | addCf cf inds =>
          simp only [added]
          split
          · simp [h']
          · exact h'
        | flowsFor q' => exact h'
        | cfsFor q' c' => exact h'
    · rintro ⟨c, cf, h⟩
      have lift : addedFor E comp ops f q → addedFor E comp (op :: ops) f q := by
        rintro ⟨cf, inds, hm, h⟩
        exact ⟨cf, inds, by simp [hm], h⟩
      cases op with
      | addCf cf' inds =>
        simp only [added] at h
        split at h
        · rename_i h0
          rcases List.mem_cons.mp h with rfl | h
          · exact ⟨cf, inds, by simp, h0.1, h0.2.1, by simp [h0.2.2]⟩
          · exact lift (ih.mpr ⟨c, cf, h⟩)
        · exact lift (ih.mpr ⟨c, cf, h⟩)
      | flowsFor q' => exact lift (ih.mpr ⟨c, cf, h⟩)
      | cfsFor q' c' => exact lift (ih.mpr ⟨c, cf, h⟩)

/-- C63: the flowables listed for a quantity are those with a factor, and likewise the quantities of a flowable -/
theorem listed_iff (E : Env Q) (f q : ℕ) (ops : List (Op Q)) : ∀ s : St Q,
    (f ∈ ((run E ops s).qd.get? q).getD [] ↔
      f ∈ (s.qd.get? q).getD [] ∨ addedFor E (fun x => (s.flows x).comp) ops f q) ∧
    (q ∈ ((run E ops s).fd.get? f).getD [] ↔
      q ∈ (s.fd.get? f).getD [] ∨ addedFor E (fun x => (s.flows x).comp) ops f q) := by
  induction ops with
  | nil => intro s; simp [run, addedFor]
  | cons op ops ih =>
    intro s
    have h : run E (op :: ops) s = run E ops (step E s op) := rfl
    have h2 := ih (step E s op)
    rw [← h, step_flows] at h2
    have hcons : addedFor E (fun x => (s.flows x).comp) (op :: ops) f q ↔
        (∃ cf inds, op = .addCf cf inds ∧ f ∈ inds ∧ E.ind cf.q = q ∧ (s.flows cf.flow).comp ≠ none) ∨
          addedFor E (fun x => (s.flows x).comp) ops f q := by
      constructor
      · rintro ⟨cf, inds, hm, hr⟩
        rcases List.mem_cons.mp hm with e | hm
        · exact .inl ⟨cf, inds, e.symm, hr⟩
        · exact .inr ⟨cf, inds, hm, hr⟩
      · rintro (⟨cf, inds, rfl, hr⟩ | ⟨cf, inds, hm, hr⟩)
        · exact ⟨cf, inds, by simp, hr⟩
        · exact ⟨cf, inds, by simp [hm], hr⟩
    rw [h2.1, h2.2, hcons]
    cases op with
    | flowsFor q' => simp [step, flowsForQuantity, mem_touch]
    | cfsFor q' c' => simp [step, cfsForQuantity, mem_touch]
    | addCf cf inds =>
      simp only [step, addCf]
      cases hc : (s.flows cf.flow).comp with
      | none => simp [Out.state, hc]
      | some c1 =>
        simp only [Out.state, storeAll_qd, storeAll_fd]
        have e1 : (∃ cf' inds', Op.addCf cf inds = .addCf cf' inds' ∧ f ∈ inds' ∧ E.ind cf'.q = q ∧
            (s.flows cf'.flow).comp ≠ none) ↔ f ∈ inds ∧ q = E.ind cf.q := by
          constructor
          · rintro ⟨cf', inds', e, hf, hq, _⟩
            cases e
            exact ⟨hf, hq.symm⟩
          · rintro ⟨hf, hq⟩
            exact ⟨cf, inds, rfl, hf, hq.symm, by simp [hc]⟩
        rw [e1]
        exact ⟨or_assoc, or_assoc⟩

theorem mem_insertNat (a b : ℕ) (l : List ℕ) : b ∈ insertNat a l ↔ b = a ∨ b ∈ l := by
  induction l with
  | nil => simp [insertNat]
  | cons c l ih =>
    simp only [insertNat]
    split
    · simp
    · simp only [List.mem_cons, ih]
      constructor
      · rintro (h | h | h) <;> simp [h]
      · rintro (h | h | h) <;> simp [h]

theorem mem_sortNat (b : ℕ) (l : List ℕ) : b ∈ sortNat l ↔ b ∈ l := by
  induction l with
  | nil => simp [sortNat]
  | cons a l ih => simp [sortNat, mem_insertNat, ih]

theorem sorted_insertNat (a : ℕ) (l : List ℕ) (h : l.Pairwise (· ≤ ·)) : (insertNat a l).Pairwise (· ≤ ·) := by
  induction l with
  | nil => simp [insertNat]
  | cons c l ih =>
    simp only [insertNat]
    rw [List.pairwise_cons] at h
    split
    · rename_i hac
      rw [List.pairwise_cons, List.pairwise_cons]
      refine ⟨?_, h⟩
      intro x hx
      rcases List.mem_cons.mp hx with rfl | hx
      · exact hac
      · exact Nat.le_trans hac (h.1 x hx)
    · rename_i hac
      rw [List.pairwise_cons]
      refine ⟨?_, ih h.2⟩
      intro x hx
      rcases (mem_insertNat a x l).mp hx with rfl | hx
      · omega
      · exact h.1 x hx

theorem sorted_sortNat (l : List ℕ) : (sortNat l).Pairwise (· ≤ ·) := by
  induction l with
  | nil => simp [sortNat]
  | cons a l ih => exact sorted_insertNat a _ ih

/-- C63: `flows_for_quantity` after any history: the flowables with a factor, in increasing order -/
theorem flowsFor_spec (E : Env Q) (q : ℕ) (ops : List (Op Q)) (flows : ℕ → FlowO Q) :
    let l := (flowsForQuantity (run E ops { flows := flows }) q).1
    l.Pairwise (· ≤ ·) ∧ ∀ f, f ∈ l ↔ addedFor E (fun x => (flows x).comp) ops f q := by
  refine ⟨sorted_sortNat _, fun f => ?_⟩
  simp only [flowsForQuantity, mem_sortNat]
  rw [(listed_iff E f q ops _).1]
  have h0 : (Dict.get? ([] : Dict ℕ (List ℕ)) q).getD [] = [] := by simp [Dict.get?]
  simp [h0]

theorem mem_cfs_get {L : Lookup Q} {cf : CF Q} {c : ℕ} (h : cf ∈ L.get c) : cf ∈ L.cfs := by
  unfold Lookup.get at h
  unfold Lookup.cfs
  cases hg : Dict.get? L c with
  | none => rw [hg] at h; simp at h
  | some l =>
    rw [hg] at h
    simp only [Option.getD_some] at h
    exact List.mem_flatMap.mpr ⟨(c, l), Dict.mem_of_get?_eq_some _ hg, h⟩

/-- C63: `cfs_for_quantity` after any history, in a compartment: the factors added there, no others -/
theorem cfsFor_spec (E : Env Q) (q c : ℕ) (ops : List (Op Q)) (flows : ℕ → FlowO Q) :
    let l := (cfsForQuantity (run E ops { flows := flows }) q (some c)).1
    (∀ cf ∈ l, ∃ f, cf ∈ added E (fun x => (flows x).comp) f q c ops) ∧
      ∀ f, ∀ cf ∈ added E (fun x => (flows x).comp) f q c ops, ∃ y ∈ l, cf.same y = true := by
  constructor
  · intro cf h
    simp only [cfsForQuantity, List.mem_flatMap] at h
    obtain ⟨f, _, h⟩ := h
    exact ⟨f, (stored_iff E f q c ops flows).1 cf h⟩
  · intro f cf h
    obtain ⟨y, hy, hs⟩ := (stored_iff E f q c ops flows).2 cf h
    refine ⟨y, ?_, hs⟩
    simp only [cfsForQuantity, List.mem_flatMap]
    refine ⟨f, ?_, hy⟩
    have := ((flowsFor_spec E q ops flows).2 f).mpr ((addedFor_iff E _ f q ops).mpr ⟨c, cf, h⟩)
    simpa [flowsForQuantity] using this

/-! ### examples -/

/-- two archives' copies of a flow in `fresh`, same uuid -/
def wFlows : ℕ → FlowO ℕ := fun x =>
  { uuid := if x ≤ 1 then 100 else x, inds := [5], comp := if x = 9 then none else some 2,
    st := { chars := [(1, [(.glo, 1)]), (7, [(.glo, if x = 0 then 2 else 3)])], ref := some 1 } }

/-- the hypotheses are met: a factor is added under two flowables; it is found under both -/
example : (flowsForQuantity (run wEnv [.addCf ⟨2, 2, 7⟩ [6, 5], .flowsFor 8] { flows := wFlows }) 7).1 = [5, 6] ∧
    (cfsForQuantity (run wEnv [.addCf ⟨2, 2, 7⟩ [6, 5]] { flows := wFlows }) 7 (some 2)).1 = [⟨2, 2, 7⟩, ⟨2, 2, 7⟩] := by
  decide +kernel

/-- C63 fails for updates: a later factor for the same flow and quantity, from another copy of the flow, is dropped -/
theorem add_cf_fails_update : ∃ (a b : CF ℕ), cfItem ({ flows := wFlows } : St ℕ) a .glo = .num 2 ∧
    cfItem ({ flows := wFlows } : St ℕ) b .glo = .num 3 ∧
    ((run wEnv [.addCf a [5], .addCf b [5]] { flows := wFlows }).lookup 5 (some 7)).get 2 = [a] :=
  ⟨⟨0, 100, 7⟩, ⟨1, 100, 7⟩, by decide +kernel, by decide +kernel, by decide +kernel⟩

/-- C63 fails for `is_known`: asking for the flows of a quantity makes it known, without any factor -/
theorem is_known_fails : isKnown ({ flows := wFlows } : St ℕ) 7 = false ∧
    (flowsForQuantity ({ flows := wFlows } : St ℕ) 7).1 = [] ∧
    isKnown (flowsForQuantity ({ flows := wFlows } : St ℕ) 7).2 7 = true := by decide +kernel

end Qdb
