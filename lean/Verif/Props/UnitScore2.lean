import Verif.Props.UnitScore

/-!
The cache of unit scores (C153) and the LCIA of fragments (C154).
-/

set_option linter.unusedSectionVars false

namespace USc
open Frg (Dir)

variable {P F Q K En : Type} [DecidableEq F] [DecidableEq Q] [DecidableEq K] [DecidableEq En]

/-! ### C153 the cache -/

/-- **C153** a score that was asked for is given again, the same object -/
theorem score_again (env : Env P F Q K En) (terms : ℕ → Term P F) (ign rf : Bool) (i : ℕ) (s s' : St K En F) (v : ℕ × Res K En F)
    (h : scoreCache env terms ign rf i s = .ok v s') : scoreCache env terms ign false i s' = .ok v s' := by
  have key : s'.cache.get? i = some v := by
    unfold scoreCache at h
    have hf : ∀ r : Res K En F, (Out.ok (s.next, r) { cache := s.cache.set i (s.next, r), next := s.next + 1 } :
        Out (St K En F) Err _) = .ok v s' → s'.cache.get? i = some v := by
      intro r h
      cases h
      exact Dict.get?_set_self _ _ _
    cases hc : s.cache.get? i with
    | some w =>
      simp only [hc] at h
      cases rf with
      | false => simp only [Bool.false_eq_true, if_false, Out.ok.injEq] at h; obtain ⟨rfl, rfl⟩ := h; exact hc
      | true =>
        simp only [if_true] at h
        split at h
        · exact hf _ h
        · split at h
          · exact hf _ h
          · cases h
        · cases h
    | none =>
      simp only [hc] at h
      split at h
      · exact hf _ h
      · split at h
        · exact hf _ h
        · cases h
      · cases h
  simp [scoreCache, key]

/-- **C153** fails in general: once computed, the score is given whatever has changed since: child flows, terminating flow, inventory, factors -/
theorem score_stale (env env' : Env P F Q K En) (terms terms' : ℕ → Term P F) (ign ign' rf : Bool) (i : ℕ) (s s' : St K En F) (v : ℕ × Res K En F)
    (h : scoreCache env terms ign rf i s = .ok v s') : scoreCache env' terms' ign' false i s' = .ok v s' := by
  have h1 := score_again env terms ign rf i s s' v h
  have key : s'.cache.get? i = some v := by
    cases hc : s'.cache.get? i with
    | some w => simp only [scoreCache, hc, Bool.false_eq_true, if_false, Out.ok.injEq, and_true] at h1; rw [h1]
    | none =>
      exfalso
      have hn : ∀ r : Res K En F, (Out.ok (s'.next, r) { cache := s'.cache.set i (s'.next, r), next := s'.next + 1 } :
          Out (St K En F) Err _) ≠ .ok v s' := by
        intro r h
        simp only [Out.ok.injEq] at h
        have := congrArg St.next h.2
        simp at this
      simp only [scoreCache, hc] at h1
      split at h1
      · exact hn _ h1
      · split at h1
        · exact hn _ h1
        · cases h1
      · cases h1
  simp [scoreCache, key]

/-- **C153** a score that is refreshed, or asked for after the cache was cleared, is the current one -/
theorem score_current (env : Env P F Q K En) (terms : ℕ → Term P F) (ign : Bool) (i : ℕ) (s : St K En F) (r : Res K En F)
    (h : (terms i).unitScore env = .ok r) :
    (∃ s', scoreCache env terms ign true i s = .ok (s.next, { r with scale := 1 }) s') ∧
    (∃ s', scoreCache env terms ign false i (clearCache i s) = .ok (s.next, { r with scale := 1 }) s') ∧
    (∃ s', scoreCache env terms ign false i (clearAll s) = .ok (s.next, { r with scale := 1 }) s') := by
  refine ⟨?_, ?_, ?_⟩
  · unfold scoreCache
    cases s.cache.get? i <;> simp [h]
  · have : (s.cache.del i).get? i = none := by
      rw [Dict.get?_del']; simp
    simp [scoreCache, this, h, clearCache]
  · have : (clearAll s).cache.get? i = none := rfl
    simp [scoreCache, this, h, clearAll]

/-- **C153** asking for one score changes no other -/
theorem score_frame (env : Env P F Q K En) (terms : ℕ → Term P F) (ign rf : Bool) (i j : ℕ) (s : St K En F) (hj : j ≠ i) :
    (scoreCache env terms ign rf i s).state.cache.get? j = s.cache.get? j := by
  have hf : ∀ r : Res K En F, (Out.ok (s.next, r) { cache := s.cache.set i (s.next, r), next := s.next + 1 } :
      Out (St K En F) Err (ℕ × Res K En F)).state.cache.get? j = s.cache.get? j := by
    intro r
    exact Dict.get?_set_ne _ _ (Ne.symm hj)
  unfold scoreCache
  cases hc : s.cache.get? i with
  | some w =>
    cases rf with
    | false => simp [Out.state]
    | true =>
      simp only [if_true]
      split
      · exact hf _
      · split
        · exact hf _
        · rfl
      · rfl
  | none =>
    simp only
    split
    · exact hf _
    · split
      · exact hf _
      · rfl
    · rfl

/-- **C153** a score that was given is used, with the total given -/
theorem added_used (env : Env P F Q K En) (terms : ℕ → Term P F) (ign : Bool) (k : K) (e : En) (i : ℕ) (x : ℚ) (s : St K En F) :
    ∃ v, scoreCache env terms ign false i (addScore k e i x s) = .ok v (addScore k e i x s) ∧ v.2.total = x := by
  refine ⟨(s.next, { scores := [(k, .static none e 1 x)] }), ?_, ?_⟩
  · have : (addScore k e i x s).cache.get? i = some (s.next, { scores := [(k, .static none e 1 x)] }) := Dict.get?_set_self _ _ _
    simp [scoreCache, this]
  · simp [Lcia.Result.total, Lcia.totalL, Lcia.totalP, Lcia.Comp.cum]

/-- **C153** a missing score is reported once at most: after an LCIA that ignores it, it is zero, even for those who do not ignore it -/
theorem missing_becomes_zero (env : Env P F Q K En) (terms : ℕ → Term P F) (i : ℕ) (s : St K En F) (hs : s.cache.get? i = none)
    (h : (terms i).node = .self) (hb : (terms i).parent.bg = true) :
    scoreCache env terms false false i s = .err .uncached s ∧
    ∃ v s', scoreCache env terms true false i s = .ok v s' ∧ scoreCache env terms false false i s' = .ok v s' ∧ v.2.total = 0 := by
  have hu : (terms i).unitScore env = .error .uncached := by
    have : (terms i).isSubfrag = .ok false := by simp [Term.isSubfrag, Term.isFrag, Term.isFg, h]
    simp [Term.unitScore, this, hb, h]
  have h1 : scoreCache env terms true false i s = .ok (s.next, {}) { cache := s.cache.set i (s.next, {}), next := s.next + 1 } := by
    simp [scoreCache, hs, hu]
  refine ⟨by simp [scoreCache, hs, hu], _, _, h1, score_stale env env terms terms true false false i s _ _ h1, ?_⟩
  simp [Lcia.Result.total, Lcia.totalL]

/-! ### C154 the LCIA of fragment flows -/

/-- the unit score of the termination `i`: the cached one, or the current one; none if there is none or it is that of the aggregated flows -/
def unitOf (env : Env P F Q K En) (terms : ℕ → Term P F) (refresh : Bool) (s : St K En F) (i : ℕ) : Option ℚ :=
  match (if refresh then none else s.cache.get? i) with
  | some r => some r.2.total
  | none =>
    match (terms i).unitScore env with
    | .ok r => some { r with scale := 1 }.total
    | .error .uncached => some 0
    | .error _ => none

def FFl.frag : FFl K En → K
  | .mk k _ _ _ _ _ => k

mutual
/-- the contribution of a fragment flow: node weight times unit score, negative if the direction of the termination is that of the fragment -/
def contribution (env : Env P F Q K En) (terms : ℕ → Term P F) (u : ℕ → Option ℚ) : FFl K En → ℚ
  | .mk _ _ d nw i sub =>
    if (terms i).isNull then 0
    else (if (terms i).dir = d then -1 else 1) * nw *
      match u i with
      | some x => x
      | none =>
        match sub with
        | none => 0
        | some [] =>
          match env.remote i with
          | .ok r => r.total
          | .error _ => 0
        | some (f :: fs) => contributions env terms u (f :: fs)
/-- the sum of the contributions -/
def contributions (env : Env P F Q K En) (terms : ℕ → Term P F) (u : ℕ → Option ℚ) : List (FFl K En) → ℚ
  | [] => 0
  | f :: fs => contribution env terms u f + contributions env terms u fs
end

mutual
/-- no fragment occurs twice among the flows of a list, at any depth -/
def Distinct : FFl K En → Prop
  | .mk _ _ _ _ _ none => True
  | .mk _ _ _ _ _ (some l) => (l.map FFl.frag).Nodup ∧ DistinctAll l
def DistinctAll : List (FFl K En) → Prop
  | [] => True
  | f :: fs => Distinct f ∧ DistinctAll fs
end

theorem unitOf_fresh {env : Env P F Q K En} {terms : ℕ → Term P F} {rf : Bool} {s : St K En F} {i : ℕ} {r : Res K En F}
    (hc : rf = true ∨ s.cache.get? i = none) (hr : unitOf env terms rf s i = some r.total) :
    unitOf env terms rf { cache := s.cache.set i (s.next, r), next := s.next + 1 } = unitOf env terms rf s := by
  funext j
  by_cases hj : j = i
  · subst hj
    rw [hr]
    cases rf with
    | true => rw [← hr]; rfl
    | false =>
      unfold unitOf
      simp [Dict.get?_set_self]
  · unfold unitOf
    simp [Dict.get?_set_ne _ _ (Ne.symm hj)]

/-- asking for a score does not change what the scores are, and gives the one it is -/
theorem scoreCache_unit (env : Env P F Q K En) (terms : ℕ → Term P F) (ign rf : Bool) (i : ℕ) (s : St K En F) :
    (∀ v s', scoreCache env terms ign rf i s = .ok v s' →
      unitOf env terms rf s i = some v.2.total ∧ unitOf env terms rf s' = unitOf env terms rf s) ∧
    (∀ s', scoreCache env terms ign rf i s = .err .subAggregation s' → unitOf env terms rf s i = none ∧ s' = s) := by
  have hfresh : ∀ (_ : rf = true ∨ s.cache.get? i = none), unitOf env terms rf s i = (match (terms i).unitScore env with
      | .ok r => some { r with scale := 1 }.total
      | .error .uncached => some 0
      | .error _ => none) := by
    intro hc
    unfold unitOf
    rcases hc with h | h <;> simp [h]
  have go : ∀ (_ : rf = true ∨ s.cache.get? i = none),
      ∀ o : Out (St K En F) Err (ℕ × Res K En F), o = (match (terms i).unitScore env with
        | .ok r => .ok (s.next, { r with scale := 1 }) { cache := s.cache.set i (s.next, { r with scale := 1 }), next := s.next + 1 }
        | .error .uncached => if ign then .ok (s.next, {}) { cache := s.cache.set i (s.next, {}), next := s.next + 1 } else .err .uncached s
        | .error e => .err e s) →
      (∀ v s', o = .ok v s' → unitOf env terms rf s i = some v.2.total ∧ unitOf env terms rf s' = unitOf env terms rf s) ∧
      (∀ s', o = .err .subAggregation s' → unitOf env terms rf s i = none ∧ s' = s) := by
    intro hc o ho
    have hf := hfresh hc
    cases hu : (terms i).unitScore env with
    | ok r =>
      rw [hu] at ho hf
      subst ho
      refine ⟨fun v s' h => ?_, fun s' h => by cases h⟩
      cases h
      exact ⟨hf, unitOf_fresh hc hf⟩
    | error e =>
      rw [hu] at ho hf
      cases e with
      | uncached =>
        cases ign with
        | true =>
          simp only [if_true] at ho
          subst ho
          refine ⟨fun v s' h => ?_, fun s' h => by cases h⟩
          cases h
          have h0 : ({} : Res K En F).total = 0 := by simp [Lcia.Result.total, Lcia.totalL]
          exact ⟨by rw [hf, h0], unitOf_fresh hc (by rw [hf, h0])⟩
        | false =>
          simp only [Bool.false_eq_true, if_false] at ho
          subst ho
          exact ⟨fun v s' h => (by cases h), fun s' h => (by cases h)⟩
      | _ =>
        subst ho
        refine ⟨fun v s' h => (by cases h), fun s' h => ?_⟩
        first
          | (cases h; exact ⟨hf, rfl⟩)
          | cases h
  cases hc : s.cache.get? i with
  | some w =>
    cases rf with
    | true => exact go (Or.inl rfl) _ (by unfold scoreCache; simp only [hc, if_true]; cases (terms i).unitScore env <;> rfl)
    | false =>
      refine ⟨fun v s' h => ?_, fun s' h => ?_⟩
      · simp only [scoreCache, hc, Bool.false_eq_true, if_false, Out.ok.injEq] at h
        obtain ⟨rfl, rfl⟩ := h
        exact ⟨by simp [unitOf, hc], rfl⟩
      · simp [scoreCache, hc] at h
  | none => exact go (Or.inr hc) _ (by unfold scoreCache; simp only [hc]; cases (terms i).unitScore env <;> rfl)

theorem unitOf_next {env : Env P F Q K En} {terms : ℕ → Term P F} {rf : Bool} (s : St K En F) (n : ℕ) :
    unitOf env terms rf { s with next := n } = unitOf env terms rf s := rfl

/-- what the loop does with a score -/
theorem add_total {terms : ℕ → Term P F} {i : ℕ} {k : K} {e : En} {d : Dir} {nw : ℚ} {r r' : Res K En F} {v : ℕ × Res K En F} {s s' : St K En F}
    (hr : r.scale = 1) (hk : r.scores.get? k = none)
    (h : (if v.2.isNull then Out.ok r s
      else
        match r.addSummary k e (if (terms i).dir = d then -nw else nw) (.res v.1 v.2.scale v.2.priv v.2.scores) with
        | .ok r => .ok r s
        | .error e => .err (.lcia e) s : Out (St K En F) Err (Res K En F)) = .ok r' s') :
    r'.scale = 1 ∧ r'.total = r.total + (if (terms i).dir = d then -1 else 1) * nw * v.2.total ∧ s' = s ∧
    ∀ k', k' ≠ k → r'.scores.get? k' = r.scores.get? k' := by
  by_cases hn : v.2.isNull = true
  · simp only [hn, if_true, Out.ok.injEq] at h
    obtain ⟨rfl, rfl⟩ := h
    have : v.2.total = 0 := Lcia.null_total.2 _ _ hn
    exact ⟨hr, by rw [this]; ring, rfl, fun _ _ => rfl⟩
  · simp only [hn, if_false] at h
    have ha : r.addSummary k e (if (terms i).dir = d then -nw else nw) (.res v.1 v.2.scale v.2.priv v.2.scores) =
        .ok { r with scores := r.scores.set k (.summary none e (if (terms i).dir = d then -nw else nw)
          (.res v.1 v.2.scale v.2.priv v.2.scores)) } := by
      simp [Lcia.Result.addSummary, hk]
    obtain ⟨h1, _, _, h4⟩ := Lcia.addSummary_total _ _ _ _ _ _ ha
    rw [ha] at h
    simp only [Bool.false_eq_true, if_false, Out.ok.injEq] at h
    obtain ⟨rfl, rfl⟩ := h
    refine ⟨hr, ?_, rfl, fun k' hk' => Dict.get?_set_ne _ _ (Ne.symm hk')⟩
    rcases h4 with h4 | h4
    · rw [h4.2, hr]
      have : (Lcia.Score.res v.1 v.2.scale v.2.priv v.2.scores : Lcia.Score K En F).unit = v.2.total := rfl
      rw [this]
      split <;> ring
    · have := congrArg (fun d => d.get? k) h4.2
      simp [Dict.get?_set_self, hk] at this

theorem contribution_mk (env : Env P F Q K En) (terms : ℕ → Term P F) (u : ℕ → Option ℚ) (k : K) (e : En) (d : Dir) (nw : ℚ) (i : ℕ)
    (sub : Option (List (FFl K En))) : contribution env terms u (.mk k e d nw i sub) =
    if (terms i).isNull then 0
    else (if (terms i).dir = d then -1 else 1) * nw *
      match u i with
      | some x => x
      | none =>
        match sub with
        | none => 0
        | some [] =>
          match env.remote i with
          | .ok r => r.total
          | .error _ => 0
        | some (f :: fs) => contributions env terms u (f :: fs) := by
  rw [contribution.eq_def]

/-- the result of the LCIA of a list of fragment flows, and of one -/
theorem lcia_contributions (env : Env P F Q K En) (terms : ℕ → Term P F) (rf : Bool) (n : ℕ) :
    (∀ (ign : Bool) (f : FFl K En) (s s' : St K En F) (r r' : Res K En F), sizeOf f ≤ n → r.scale = 1 → r.scores.get? f.frag = none →
      Distinct f → lciaOne env terms ign rf f s r = .ok r' s' →
      r'.scale = 1 ∧ r'.total = r.total + contribution env terms (unitOf env terms rf s) f ∧
      unitOf env terms rf s' = unitOf env terms rf s ∧ ∀ k, k ≠ f.frag → r'.scores.get? k = r.scores.get? k) ∧
    (∀ (ign : Bool) (l : List (FFl K En)) (s s' : St K En F) (r r' : Res K En F), sizeOf l ≤ n → r.scale = 1 →
      (∀ k ∈ l.map FFl.frag, r.scores.get? k = none) → (l.map FFl.frag).Nodup →
      DistinctAll l → lciaMany env terms ign rf l s r = .ok r' s' →
      r'.scale = 1 ∧ r'.total = r.total + contributions env terms (unitOf env terms rf s) l ∧
      unitOf env terms rf s' = unitOf env terms rf s) := by
  induction n with
  | zero =>
    refine ⟨fun ign f => ?_, fun ign l => ?_⟩
    · cases f; simp
    · cases l <;> simp
  | succ n ih =>
    refine ⟨?_, ?_⟩
    · intro ign f s s' r r' hsz hr hk hd h
      obtain ⟨k, e, d, nw, i, sub⟩ := f
      simp only [FFl.frag] at hk ⊢
      rw [lciaOne] at h
      by_cases hn : (terms i).isNull = true
      · simp only [hn, true_or, if_true, Out.ok.injEq] at h
        obtain ⟨rfl, rfl⟩ := h
        exact ⟨hr, by rw [contribution_mk]; simp [hn], rfl, fun _ _ => rfl⟩
      by_cases hw : nw = 0
      · simp only [hw, or_true, if_true, Out.ok.injEq] at h
        obtain ⟨rfl, rfl⟩ := h
        exact ⟨hr, by rw [contribution_mk]; simp [hw], rfl, fun _ _ => rfl⟩
      simp only [hn, hw, or_self, if_false, Bool.false_eq_true] at h
      obtain ⟨hok, herr⟩ := scoreCache_unit env terms ign rf i s
      cases hs : scoreCache env terms ign rf i s with
      | ok v s1 =>
        simp only [hs] at h
        obtain ⟨hu, hs1⟩ := hok v s1 hs
        obtain ⟨a, b, c, g⟩ := add_total hr hk h
        subst c
        exact ⟨a, by rw [b, contribution_mk]; simp [hn, hu], hs1, g⟩
      | err x s1 =>
        cases x with
        | subAggregation =>
          simp only [hs] at h
          obtain ⟨hu, rfl⟩ := herr s1 hs
          cases sub with
          | none => cases h
          | some l =>
            cases l with
            | nil =>
              simp only at h
              cases hrm : env.remote i with
              | error e => simp [hrm] at h
              | ok v =>
                simp only [hrm] at h
                obtain ⟨a, b, c, g⟩ := add_total (v := (s1.next, v)) hr hk h
                subst c
                exact ⟨a, by rw [b, contribution_mk]; simp [hn, hu, hrm], rfl, g⟩
            | cons f fs =>
              simp only at h
              simp only [Distinct] at hd
              cases hm : lciaMany env terms true rf (f :: fs) s1 {} with
              | err e s2 => simp [hm] at h
              | ok v s2 =>
                simp only [hm] at h
                obtain ⟨a, b, c, g⟩ := add_total (v := (s2.next, v)) hr hk h
                subst c
                obtain ⟨_, b2, c2⟩ := ih.2 true (f :: fs) s1 s2 {} v
                  (by simp only [FFl.mk.sizeOf_spec, Option.some.sizeOf_spec] at hsz; omega) rfl
                  (by intro k _; rfl) hd.1 hd.2 hm
                have h0 : ({} : Res K En F).total = 0 := by simp [Lcia.Result.total, Lcia.totalL]
                rw [h0, zero_add] at b2
                exact ⟨a, by rw [b, b2, contribution_mk]; simp [hn, hu], c2, g⟩
        | _ => simp [hs] at h
    · intro ign l s s' r r' hsz hr hk hnd hd h
      cases l with
      | nil =>
        rw [lciaMany] at h
        simp only [Out.ok.injEq] at h
        obtain ⟨rfl, rfl⟩ := h
        exact ⟨hr, by simp [contributions], rfl⟩
      | cons f fs =>
        rw [lciaMany] at h
        simp only [DistinctAll] at hd
        simp only [List.map_cons, List.nodup_cons] at hnd
        simp only [List.cons.sizeOf_spec] at hsz
        cases ho : lciaOne env terms ign rf f s r with
        | err e s1 => simp [ho] at h
        | ok r1 s1 =>
          simp only [ho] at h
          obtain ⟨a, b, c, g⟩ := ih.1 ign f s s1 r r1 (by omega) hr (hk _ (by simp)) hd.1 ho
          obtain ⟨a2, b2, c2⟩ := ih.2 ign fs s1 s' r1 r' (by omega) a
            (by
              intro k hkm
              rw [g k (fun hkf => hnd.1 (hkf ▸ hkm))]
              exact hk k (by simp only [List.map_cons, List.mem_cons]; exact Or.inr hkm)) hnd.2 hd.2 h
          refine ⟨a2, ?_, by rw [c2, c]⟩
          rw [b2, b, c, contributions]; ring

/-- **C154** the LCIA of fragment flows of distinct fragments, if it succeeds, is the sum over the flows of node weight times unit score, or times the
LCIA of the aggregated flows, negative where termination and fragment have the same direction; and it changes no unit score -/
theorem fragment_total_partial (env : Env P F Q K En) (terms : ℕ → Term P F) (ign rf : Bool) (l : List (FFl K En)) (s s' : St K En F)
    (r : Res K En F) (hl : (l.map FFl.frag).Nodup) (hd : DistinctAll l) (h : lciaMany env terms ign rf l s {} = .ok r s') :
    r.total = contributions env terms (unitOf env terms rf s) l ∧ unitOf env terms rf s' = unitOf env terms rf s := by
  obtain ⟨_, b, c⟩ := (lcia_contributions env terms rf (sizeOf l)).2 ign l s s' {} r (Nat.le_refl _) rfl (by intro k _; rfl) hl hd h
  refine ⟨?_, c⟩
  rw [b]
  simp [Lcia.Result.total, Lcia.totalL]

/-- **C154** a repeated LCIA gives the same total -/
theorem fragment_again (env : Env P F Q K En) (terms : ℕ → Term P F) (ign ign' rf : Bool) (l : List (FFl K En)) (s s' s'' : St K En F)
    (r r' : Res K En F) (hl : (l.map FFl.frag).Nodup) (hd : DistinctAll l) (h : lciaMany env terms ign rf l s {} = .ok r s')
    (h' : lciaMany env terms ign' rf l s' {} = .ok r' s'') : r'.total = r.total := by
  obtain ⟨h1, h2⟩ := fragment_total_partial env terms ign rf l s s' r hl hd h
  obtain ⟨h3, _⟩ := fragment_total_partial env terms ign' rf l s' s'' r' hl hd h'
  rw [h3, h1, h2]

/-- the score of a process of the fragment's own origin is never cached -/
theorem local_score (env : Env P F Q K En) (terms : ℕ → Term P F) (ign rf : Bool) (i j : ℕ) (p : P) (hp : (terms i).node = .proc p true)
    (s : St K En F) (hs : s.cache.get? i = none) : (scoreCache env terms ign rf j s).state.cache.get? i = none := by
  by_cases h : i = j
  · subst h
    simp [scoreCache, hs, local_process_raises env (terms i) p hp, Out.state]
  · rw [score_frame env terms ign rf j i s h, hs]

theorem local_lcia (env : Env P F Q K En) (terms : ℕ → Term P F) (rf : Bool) (i : ℕ) (p : P) (hp : (terms i).node = .proc p true) (n : ℕ) :
    (∀ (ign : Bool) (f : FFl K En) (s : St K En F) (r : Res K En F), sizeOf f ≤ n → s.cache.get? i = none →
      (lciaOne env terms ign rf f s r).state.cache.get? i = none) ∧
    (∀ (ign : Bool) (l : List (FFl K En)) (s : St K En F) (r : Res K En F), sizeOf l ≤ n → s.cache.get? i = none →
      (lciaMany env terms ign rf l s r).state.cache.get? i = none) := by
  induction n with
  | zero =>
    refine ⟨fun ign f => ?_, fun ign l => ?_⟩
    · cases f; simp
    · cases l <;> simp
  | succ n ih =>
    refine ⟨?_, ?_⟩
    · intro ign f s r hsz hs
      obtain ⟨k, e, d, nw, j, sub⟩ := f
      have hloc := local_score env terms ign rf i j p hp s hs
      rw [lciaOne]
      by_cases hn : (terms j).isNull = true ∨ nw = 0
      · simp only [hn, if_true]; exact hs
      simp only [hn, if_false]
      cases hc : scoreCache env terms ign rf j s with
      | ok v s1 =>
        rw [hc] at hloc
        simp only
        split
        · exact hloc
        · split <;> exact hloc
      | err x s1 =>
        rw [hc] at hloc
        cases x with
        | subAggregation =>
          simp only
          cases sub with
          | none => exact hloc
          | some l =>
            cases l with
            | nil =>
              simp only
              cases env.remote j with
              | error e => exact hloc
              | ok v =>
                simp only
                split
                · exact hloc
                · split <;> exact hloc
            | cons f fs =>
              simp only
              have hm := ih.2 true (f :: fs) s1 {}
                (by simp only [FFl.mk.sizeOf_spec, Option.some.sizeOf_spec] at hsz; omega) hloc
              cases hx : lciaMany env terms true rf (f :: fs) s1 {} with
              | err e s2 => rw [hx] at hm; exact hm
              | ok v s2 =>
                rw [hx] at hm
                simp only
                split
                · exact hm
                · split <;> exact hm
        | _ => exact hloc
    · intro ign l s r hsz hs
      cases l with
      | nil => rw [lciaMany]; exact hs
      | cons f fs =>
        rw [lciaMany]
        simp only [List.cons.sizeOf_spec] at hsz
        have h1 := ih.1 ign f s r (by omega) hs
        cases ho : lciaOne env terms ign rf f s r with
        | err x s1 => rw [ho] at h1; exact h1
        | ok r1 s1 => rw [ho] at h1; exact ih.2 ign fs s1 r1 (by omega) h1

/-- **C154** fails for every fragment with a flow, of weight not zero, terminated to a process of its own origin whose score was not given:
AttributeError, or another error before -/
theorem fragment_raises (env : Env P F Q K En) (terms : ℕ → Term P F) (ign rf : Bool) (k : K) (e : En) (d : Dir) (nw : ℚ) (i : ℕ)
    (sub : Option (List (FFl K En))) (p : P) (hw : nw ≠ 0) (hp : (terms i).node = .proc p true)
    (l : List (FFl K En)) (hm : FFl.mk k e d nw i sub ∈ l) (s : St K En F) (hs : s.cache.get? i = none) (r : Res K En F) :
    ∃ x s', lciaMany env terms ign rf l s r = .err x s' := by
  induction l generalizing s r with
  | nil => cases hm
  | cons f fs ih =>
    rw [lciaMany]
    cases ho : lciaOne env terms ign rf f s r with
    | err x s1 => exact ⟨x, s1, rfl⟩
    | ok r1 s1 =>
      rcases List.mem_cons.mp hm with hf | hf
      · exfalso
        subst hf
        have hn : (terms i).isNull = false := by simp [Term.isNull, hp]
        have hu : scoreCache env terms ign rf i s = .err .attribute s := by
          simp [scoreCache, hs, local_process_raises env (terms i) p hp]
        rw [lciaOne] at ho
        simp [hn, hw, hu] at ho
      · have h1 := (local_lcia env terms rf i p hp (sizeOf f)).1 ign f s r (Nat.le_refl _) hs
        rw [ho] at h1
        exact ih hf s1 h1 r1

/-! ### examples -/

namespace Ex

/-- 0: the process with a child flow for electricity; 1: a subfragment, aggregated; 2: a background flow without a score; 3: a process of the
fragment's own origin; 4: a null termination -/
def terms : ℕ → Term ℕ String
  | 0 => term
  | 1 => { term with node := .frag 5 false false true, descend := false }
  | 2 => { term with node := .self, parent := { term.parent with bg := true } }
  | 3 => { term with node := .proc 1 true }
  | _ => { term with node := .null }

def s0 : St String String String := ⟨[], 0⟩

def getTotal : Out (St String String String) Err (Res String String String) → Option ℚ
  | .ok r _ => some r.total
  | .err _ _ => none

/-- node weights 3, and 2 for a subfragment with two flows, run in reverse: 3 * 8 + -(2 * (5 * 8 - 1 * 8)) -/
def flows : List (FFl String String) :=
  [.mk "a" "A" .output 3 0 none, .mk "b" "B" .input 2 1 (some [.mk "a" "A" .output 5 0 none, .mk "c" "C" .input 1 0 none]),
    .mk "d" "D" .output 1 2 none, .mk "e" "E" .output 1 4 none]

theorem flows_total : getTotal (lciaMany env terms true false flows s0 {}) = some (-40) := by decide +kernel

theorem ok_of_total {o : Out (St String String String) Err (Res String String String)} {x : ℚ} (h : getTotal o = some x) :
    ∃ r s', o = .ok r s' ∧ r.total = x := by
  cases o with
  | ok r s' => exact ⟨r, s', rfl, by simpa [getTotal] using h⟩
  | err e s' => cases h

/-- the hypotheses of `fragment_total_partial` are met -/
example : contributions env terms (unitOf env terms false s0) flows = -40 := by
  obtain ⟨r, s', h, ht⟩ := ok_of_total flows_total
  rw [← ht, (fragment_total_partial env terms true false flows s0 s' r (by decide) (by simp [flows, DistinctAll, Distinct, FFl.frag]) h).1]

example : ∃ x s', lciaMany env terms true false (flows ++ [.mk "f" "F" .output 1 3 none]) s0 {} = .err x s' :=
  fragment_raises env terms true false "f" "F" .output 1 3 none 1 (by decide) rfl _ (by simp [flows]) s0 rfl {}

/-- without a child flow for electricity -/
def terms0 : ℕ → Term ℕ String := fun _ => { term with parent := { term.parent with kids := [] } }

/-- **C154** fails: the score of a process was computed, 218 with its electricity; then a child flow is added for the electricity. The LCIA of the
node is still 218, although the child flow counts the electricity again; the current score is 8 -/
theorem stale_double : ∃ v s1, scoreCache env terms0 true false 0 s0 = .ok v s1 ∧
    getTotal (lciaMany env (fun i => if i = 0 then term else terms0 i) true false [.mk "a" "A" .output 1 0 none] s1 {}) = some 218 ∧
    getTotal (lciaMany env (fun i => if i = 0 then term else terms0 i) true false [.mk "a" "A" .output 1 0 none] s0 {}) = some 8 := by
  cases h : scoreCache env terms0 true false 0 s0 with
  | err e s1 =>
    have : (match scoreCache env terms0 true false 0 s0 with | .ok _ _ => true | .err _ _ => false) = true := by decide +kernel
    rw [h] at this; cases this
  | ok v s1 =>
    refine ⟨v, s1, rfl, ?_, by decide +kernel⟩
    have : s1 = (scoreCache env terms0 true false 0 s0).state := by rw [h]; rfl
    rw [this]
    decide +kernel

example : ∃ v s', scoreCache env terms0 false false 0 (addScore "a" "A" 0 5 s0) = .ok v s' ∧ v.2.total = 5 := by
  obtain ⟨v, h1, h2⟩ := added_used env terms0 false "a" "A" 0 5 s0
  exact ⟨v, _, h1, h2⟩

example : ∃ v s', scoreCache env terms true false 2 s0 = .ok v s' ∧ scoreCache env terms false false 2 s' = .ok v s' ∧ v.2.total = 0 :=
  (missing_becomes_zero env terms 2 s0 rfl rfl rfl).2

end Ex

end USc
