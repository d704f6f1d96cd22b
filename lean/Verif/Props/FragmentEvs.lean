import Verif.Model.FragmentEdit
import Verif.Props.FragmentLinear
import Mathlib.Data.List.Perm.Lattice

/-!
C30: which exchange value a scenario gives.
-/

namespace Frg
set_option linter.unusedSectionVars false

variable {F Q : Type} [DecidableEq F] [DecidableEq Q]

/-! ### specification -/

/-- the scenarios named by a scenario argument -/
def Scen.names : Scen → List Key
  | .none => []
  | .one k => [k]
  | .many l => l

/-- the named scenarios that have an exchange value -/
def matching (n : Node F Q) (sc : Scen) : List Key := sc.names.filter fun k => decide (k ∈ n.evs.keys)

theorem has_eq (d : Dict Key (Option ℚ)) (k : Key) : d.has k = decide (k ∈ d.keys) := by
  cases h : d.has k with
  | true => exact (decide_eq_true ((Dict.has_iff d k).1 h)).symm
  | false =>
    refine (decide_eq_false fun hk => ?_).symm
    rw [(Dict.has_iff d k).2 hk] at h; exact absurd h (by decide)

theorem matchEv_eq (n : Node F Q) (sc : Scen) : matchEv n.evs sc =
    match matching n sc with
    | [] => .ok none
    | [k] => .ok (some k)
    | _ => .error .scenarioConflict := by
  unfold matchEv matching
  cases sc with
  | none => rfl
  | one k =>
    simp only [Scen.names, has_eq]
    by_cases h : k ∈ n.evs.keys
    · simp [h]
    · simp [h]
  | many l =>
    have : l.filter n.evs.has = l.filter fun k => decide (k ∈ n.evs.keys) := by
      congr 1; funext k; exact has_eq _ k
    simp only [Scen.names, this]; rfl

/-- **C30** one named scenario has a value: that value is used (0 if it is None), whether or not observed values are asked for -/
theorem scenario_value (n : Node F Q) (sc : Scen) (obs : Bool) (k : Key) (v : Option ℚ) (hm : matching n sc = [k])
    (hv : n.evs.get? k = some v) : exchangeValue n sc obs = .ok (v.getD 0) := by
  simp only [exchangeValue, matchEv_eq, hm, hv]; rfl

/-- **C30** several named scenarios have a value: a conflict is raised -/
theorem scenario_conflict (n : Node F Q) (sc : Scen) (obs : Bool) (hm : 2 ≤ (matching n sc).length) :
    exchangeValue n sc obs = .error .scenarioConflict := by
  unfold exchangeValue; rw [matchEv_eq]
  match h : matching n sc, hm with
  | _ :: _ :: _, _ => rfl

/-- **C30** no named scenario has a value, observed values asked for: the observed value (0 if it is None); for a reference
fragment whose observed value is 0, the stored cached value -/
theorem scenario_observed (n : Node F Q) (sc : Scen) (v : Option ℚ) (hm : matching n sc = [])
    (hv : n.evs.get? .observed = some v) (hr : n.parent ≠ none ∨ v ≠ some 0) :
    exchangeValue n sc true = .ok (v.getD 0) := by
  simp only [exchangeValue, matchEv_eq, hm, observedEv, hv]
  have : ¬ (n.parent = none ∧ v = some 0) := by
    rintro ⟨h1, h2⟩
    rcases hr with hr | hr
    · exact hr h1
    · exact hr h2
  simp [this]

/-- **C30** the same for a reference fragment that was not observed -/
theorem scenario_observed_ref (n : Node F Q) (sc : Scen) (v : Option ℚ) (hm : matching n sc = [])
    (ho : n.evs.get? .observed = some (some 0)) (hr : n.parent = none) (hv : n.evs.get? .cached = some v) :
    exchangeValue n sc true = .ok (v.getD 0) := by
  simp only [exchangeValue, matchEv_eq, hm, observedEv, ho, hr, hv]; simp

/-- **C30** no named scenario has a value, observed values not asked for: the cached value, unless it is 0 or None -/
theorem scenario_cached (n : Node F Q) (sc : Scen) (v : ℚ) (hm : matching n sc = [])
    (hv : n.evs.get? .cached = some (some v)) (h0 : v ≠ 0) : exchangeValue n sc false = .ok v := by
  simp only [exchangeValue, matchEv_eq, hm, cachedEv, hv]; simp [h0]

/-- **C30** a cached value of 0 or None is reported as 1 -/
theorem scenario_cached_zero (n : Node F Q) (sc : Scen) (v : Option ℚ) (hm : matching n sc = [])
    (hv : n.evs.get? .cached = some v) (h0 : v = none ∨ v = some 0) : exchangeValue n sc false = .ok 1 := by
  simp only [exchangeValue, matchEv_eq, hm, cachedEv, hv]
  rcases h0 with rfl | rfl <;> simp

/-- **C30** the order in which a set of scenarios is iterated does not matter -/
theorem scenario_order (n : Node F Q) (l l' : List Key) (h : l.Perm l') (obs : Bool) :
    exchangeValue n (.many l) obs = exchangeValue n (.many l') obs := by
  have hp : (matching n (.many l)).Perm (matching n (.many l')) := h.filter _
  unfold exchangeValue; rw [matchEv_eq, matchEv_eq]
  match h1 : matching n (.many l), h2 : matching n (.many l'), hp with
  | [], [], _ => rfl
  | [a], [b], hp =>
    have := List.singleton_perm_singleton.1 hp; subst this; rfl
  | _ :: _ :: _, _ :: _ :: _, _ => rfl
  | [], _ :: _, hp => exact absurd hp.length_eq (by simp)
  | _ :: _, [], hp => exact absurd hp.length_eq (by simp)
  | [_], _ :: _ :: _, hp => exact absurd hp.length_eq (by simp)
  | _ :: _ :: _, [_], hp => exact absurd hp.length_eq (by simp)

/-! ### histories of settings -/

/-- a call that changes exchange values of fragment i -/
inductive EvCall
  | set (i : ℕ) (sc : Scen) (v : Option ℚ)     -- set_exchange_value
  | cached (i : ℕ) (v : Option ℚ)              -- cached_ev = v
  | observed (i : ℕ) (v : Option ℚ)            -- observed_ev = v
  | reset (i : ℕ)                              -- reset_cache
  | clear (i : ℕ)                              -- clear_evs

/-- one call, which may raise -/
def EvCall.run (H : Heap F Q) : EvCall → Heap F Q
  | .set i sc v => (setEv H i sc v).state
  | .cached i v => (setCached H i v).state
  | .observed i v => (setObserved H i v).state
  | .reset i => resetCache H i
  | .clear i => clearEvs H i

/-- the call sets this very scenario of this fragment, or clears all values of this fragment -/
def EvCall.concerns (i : ℕ) (s : String) : EvCall → Prop
  | .set j sc _ => j = i ∧ sc = .one (.str s)
  | .clear j => j = i
  | _ => False

theorem putEv_evs (H : Heap F Q) (i j : ℕ) (k : Key) (v : Option ℚ) :
    (putEv H i k v j).evs = if j = i then (H i).evs.set k v else (H j).evs := by
  unfold putEv Heap.put Function.update
  by_cases h : j = i
  · subst h; simp
  · simp [h]

theorem putEv_get (H : Heap F Q) (i j : ℕ) (k k' : Key) (v : Option ℚ) :
    (putEv H i k v j).evs.get? k' = if j = i ∧ k = k' then some v else (H j).evs.get? k' := by
  rw [putEv_evs]
  by_cases h : j = i
  · subst h; simp only [if_true, Dict.get?_set, true_and]
  · simp [h]

theorem singleKey_str {sc : Scen} {s : String} (h : singleKey sc = .ok (.str s)) : sc = .one (.str s) := by
  unfold singleKey at h
  split at h
  · exact absurd h (by simp)
  · exact absurd h (by simp)
  · rename_i k _
    unfold evKey at h
    split at h
    · exact absurd h (by simp)
    · exact absurd h (by simp)
    · rw [Except.ok.inj h]
  · exact absurd h (by simp)

/-- a call that does not concern the scenario leaves its entry -/
theorem run_get (H : Heap F Q) (c : EvCall) (i : ℕ) (s : String) (hc : ¬ c.concerns i s) :
    ((c.run H) i).evs.get? (.str s) = (H i).evs.get? (.str s) := by
  have hset : ∀ (j : ℕ) (sc : Scen) (v : Option ℚ), ¬ (j = i ∧ sc = .one (.str s)) →
      ((setEv H j sc v).state i).evs.get? (.str s) = (H i).evs.get? (.str s) := by
    intro j sc v hc
    unfold setEv
    cases observable H j sc with
    | error e => rfl
    | ok b =>
      cases b with
      | false => rfl
      | true =>
        cases hk : singleKey sc with
        | error e => rfl
        | ok k =>
          simp only [Out.state]
          rw [putEv_get, if_neg]
          rintro ⟨rfl, rfl⟩
          exact hc ⟨rfl, singleKey_str hk⟩
  cases c with
  | set j sc v => exact hset j sc v hc
  | cached j v =>
    simp only [EvCall.run, setCached]
    split
    · rfl
    · split
      · rfl
      · exact hset j _ v (by simp)
  | observed j v =>
    simp only [EvCall.run, setObserved]
    cases observable H j .none with
    | error e => rfl
    | ok b =>
      cases b with
      | false => rfl
      | true => simp only [Out.state]; rw [putEv_get, if_neg (by simp)]
  | reset j => simp only [EvCall.run, resetCache]; rw [putEv_get, if_neg (by simp)]
  | clear j =>
    have hj : i ≠ j := fun h => hc h.symm
    simp only [EvCall.run, clearEvs, Heap.put]
    rw [Function.update_of_ne hj]

/-- **C30** A scenario's value that was set is returned for this scenario, with or without observed values, whatever else
was set before (`H` is any state) or is set after (`calls`, returning or raising); also in a set of scenarios, if no other
scenario of the set has a value. (The names "0" and "1" are set as the cached and the observed value.) -/
theorem set_value_kept (H H1 : Heap F Q) (i : ℕ) (s : String) (h01 : s ≠ "0" ∧ s ≠ "1") (v : Option ℚ)
    (h : setEv H i (.one (.str s)) v = .ok () H1) (calls : List EvCall) (hc : ∀ c ∈ calls, ¬ c.concerns i s) (obs : Bool) :
    exchangeValue (calls.foldl EvCall.run H1 i) (.one (.str s)) obs = .ok (v.getD 0) ∧
    ∀ l : List Key, matching (calls.foldl EvCall.run H1 i) (.many l) = [.str s] →
      exchangeValue (calls.foldl EvCall.run H1 i) (.many l) obs = .ok (v.getD 0) := by
  have h1 : (H1 i).evs.get? (.str s) = some v := by
    have hk : singleKey (.one (.str s)) = .ok (.str s) := by
      unfold singleKey
      simp only
      congr 1
      unfold evKey
      split
      · rename_i he; injection he with he; exact absurd he h01.1
      · rename_i he; injection he with he; exact absurd he h01.2
      · rfl
    unfold setEv at h
    cases ho : observable H i (.one (.str s)) with
    | error e => rw [ho] at h; simp at h
    | ok b =>
      cases b with
      | false => rw [ho] at h; simp at h
      | true =>
        rw [ho, hk] at h
        injection h with _ h
        rw [← h, putEv_get, if_pos ⟨rfl, rfl⟩]
  have h2 : ∀ (cs : List EvCall) (H : Heap F Q), (∀ c ∈ cs, ¬ c.concerns i s) →
      (cs.foldl EvCall.run H i).evs.get? (.str s) = (H i).evs.get? (.str s) := by
    intro cs
    induction cs with
    | nil => intros; rfl
    | cons c cs ih =>
      intro H hcs
      rw [List.foldl_cons, ih _ fun c' hc' => hcs c' (List.mem_cons_of_mem _ hc')]
      exact run_get H c i s (hcs c List.mem_cons_self)
  have h3 := (h2 calls H1 hc).trans h1
  refine ⟨scenario_value _ _ _ (.str s) v ?_ h3, fun l hl => scenario_value _ _ _ _ _ hl h3⟩
  have : Key.str s ∈ (calls.foldl EvCall.run H1 i).evs.keys := (Dict.mem_keys_iff _ _).2 ⟨v, h3⟩
  simp only [matching, Scen.names, List.filter_cons, this, decide_true, List.filter_nil, ↓reduceIte]

/-! Examples: in `exH`, fragment 1 has the scenario "a". -/

example : ∃ H1, setEv exH 1 (.one (.str "b")) (some 7) = .ok () H1 ∧
    (exchangeValue ([EvCall.set 1 (.one (.str "a")) (some 3), .cached 1 (some 9), .observed 1 (some 4)].foldl EvCall.run H1 1)
      (.one (.str "b")) true) = .ok 7 ∧
    matching (H1 1) (.many [.str "c", .str "b"]) = [.str "b"] :=
  ⟨putEv exH 1 (.str "b") (some 7), rfl, by decide +kernel, by decide +kernel⟩

example : exchangeValue (exH 1) (.many [.str "z", .str "a"]) false = .ok 5 := by decide +kernel
example : exchangeValue (exH 1) .none false = .ok 2 ∧ exchangeValue (exH 1) .none true = .ok 0 ∧
    exchangeValue (exH 0) .none true = .ok 10 := by decide +kernel
example : exchangeValue { exH 1 with evs := (exH 1).evs.set (.str "b") (some 1) } (.many [.str "b", .str "a"]) false
    = .error .scenarioConflict := by decide +kernel

/-- **C30 fails** for a cached value of 0: setting the cached value of fragment 1 to 0 is accepted, and 1 is returned -/
theorem cached_zero_is_one : ∃ H1, setEv exH 1 .none (some 0) = .ok () H1 ∧ exchangeValue (H1 1) .none false = .ok 1 :=
  ⟨putEv exH 1 .cached (some 0), rfl, by decide +kernel⟩

/-- **C30 fails** for the scenario name "1": the value is set as the observed value, and the cached value is returned -/
theorem name_one_not_read : ∃ H1, setEv exH 1 (.one (.str "1")) (some 7) = .ok () H1 ∧
    exchangeValue (H1 1) (.one (.str "1")) false = .ok 2 :=
  ⟨putEv exH 1 .observed (some 7), rfl, by decide +kernel⟩

/-- **C30** setting raises for a balance flow, for a child of a subfragment, and for several scenarios at once -/
theorem set_raises (H : Heap F Q) (i p : ℕ) (sc : Scen) (v : Option ℚ) (hp : (H i).parent = some p) (t : Term F)
    (ht : termOf (H p) sc = .ok t) :
    (setEv H i sc v).error? = if (H i).bal ∨ isSubfrag H p t then some .dependentFragment
      else match sc with
        | .many _ | .one (.tup _) => some .scenarioConflict
        | _ => none := by
  unfold setEv observable
  simp only [hp, ht]
  by_cases hb : (H i).bal
  · simp [hb, Out.error?]
  · by_cases hs : isSubfrag H p t
    · simp [hb, hs, Out.error?, Except.map]
    · simp only [hb, hs, Except.map, Bool.false_eq_true, if_false, or_self]
      cases sc with
      | none => rfl
      | many l => rfl
      | one k => cases k <;> rfl

example : (setEv exH 3 .none (some 2)).error? = some .dependentFragment ∧
    (setEv exH 8 .none (some 2)).error? = some .dependentFragment ∧
    (setEv exH 1 (.one (.str "x")) (some 2)).error? = none := ⟨rfl, rfl, rfl⟩

end Frg
