import Verif.Props.FragmentSplit
import Verif.Props.FragmentFork

/-!
C45: `split_subfragment` keeps the modelled amounts.
-/

namespace Frg
set_option linter.unusedSectionVars false

variable {F Q : Type} [DecidableEq F] [DecidableEq Q]
variable {H H' : Heap F Q} {f p k : ℕ}

/-- a fragment f with parent p in a tree, and an unused k: f is a foreground fragment that does not balance its parent; the parent
is not terminated to a subfragment; no fragment is terminated to f or to a fragment below f; no scenario is called "0" or "1" -/
structure Splittable (H : Heap F Q) (f p k : ℕ) : Prop where
  parent : (H f).parent = some p
  isKid : f ∈ (H p).kids
  kid : ∀ i c, c ∈ (H i).kids → (H c).parent = some i
  nodup : (H p).kids.Nodup
  below : ¬ Below H f p
  fresh : ∀ i, k ∉ (H i).kids
  noParent : ∀ i, (H i).parent ≠ some k
  notBg : (H f).bg = false
  notBal : (H f).bal = false
  balanced : (H f).cons ≠ none → (children (H f)).any (fun c => (H c).bal) = true
  pTerm : ∃ t, (H p).terms.get? none = some t ∧ t.isNull = false
  noSub : ∀ q t, (q, t) ∈ (H p).terms → isSubfrag H p t = false
  target : ∀ i, i ≠ k → ∀ q t j, (q, t) ∈ (H i).terms → t.target = .frag j → j ≠ i → ¬ Below H f j ∧ j ≠ k
  names : Key.str "0" ∉ (H f).evs.keys ∧ Key.str "1" ∉ (H f).evs.keys

/-- the fragments after the new one was made -/
structure Mid (H M : Heap F Q) (f p k : ℕ) : Prop where
  other : ∀ i, i ≠ p → i ≠ k → M i = H i
  atP : M p = { H p with kids := (H p).kids ++ [k] }
  atK : M k =
    { parent := some p, flow := (H f).flow, dir := (H f).dir, evs := (M k).evs,
      terms := [(none, { target := .null, flow := (H f).flow })] }

theorem Splittable.pk (W : Splittable H f p k) : p ≠ k := fun e => W.noParent f (by rw [W.parent, e])

theorem Splittable.pf (W : Splittable H f p k) : p ≠ f := fun e => W.below (e ▸ Below.refl)

theorem Mid.putEv {M : Heap F Q} (m : Mid H M f p k) (pk : p ≠ k) (q : Key) (v : Option ℚ) :
    Mid H (putEv M k q v) f p k ∧ ((Frg.putEv M k q v) k).evs = (M k).evs.set q v := by
  have hk : (Frg.putEv M k q v) k = { M k with evs := (M k).evs.set q v } := by simp [Frg.putEv, Heap.put]
  have ho : ∀ i, i ≠ k → (Frg.putEv M k q v) i = M i := by
    intro i hi
    simp [Frg.putEv, Heap.put, Function.update_of_ne hi]
  refine ⟨⟨fun i h1 h2 => ?_, ?_, ?_⟩, by rw [hk]⟩
  · rw [ho i h2]; exact m.other i h1 h2
  · rw [ho p pk]; exact m.atP
  · rw [hk]
    have := m.atK
    rw [this]

theorem Mid.sub {M : Heap F Q} (W : Splittable H f p k) (m : Mid H M f p k) (q : Option Key) (t : Term F)
    (ht : (M p).terms.get? q = some t) : isSubfrag M p t = false := by
  have e : (M p).terms = (H p).terms := by rw [m.atP]
  have hmem : (q, t) ∈ (H p).terms := Dict.mem_of_get?_eq_some _ (by rw [← e]; exact ht)
  have h1 := W.noSub q t hmem
  unfold isSubfrag at h1 ⊢
  split
  · rename_i j hj
    rw [hj] at h1
    simp only at h1
    have ebg : (M p).bg = (H p).bg := by rw [m.atP]
    by_cases hjp : j = p
    · simp [hjp]
    · have hjk := (W.target p W.pk q t j hmem hj hjp).2
      rw [m.other j hjp hjk, ebg]
      exact h1
  · rfl

theorem Mid.observable {M : Heap F Q} (W : Splittable H f p k) (m : Mid H M f p k) (sc : Scen)
    (hsc : sc = .none ∨ ∃ q, sc = .one q) : observable M k sc = .ok true := by
  have e : (M p).terms = (H p).terms := by rw [m.atP]
  obtain ⟨t, ht, -⟩ := W.pTerm
  have hp : (M k).parent = some p := by rw [m.atK]
  have hb : (M k).bal = false := by rw [m.atK]
  have key : ∃ u, termOf (M p) sc = .ok u ∧ isSubfrag M p u = false := by
    have hd : (M p).terms.get? none = some t := by rw [e]; exact ht
    rcases hsc with rfl | ⟨q, rfl⟩
    · exact ⟨t, by simp [termOf, hd], m.sub W _ t hd⟩
    · unfold termOf
      simp only
      by_cases hq : q = .cached ∨ q = .str "0"
      · rw [if_pos hq]
        rw [hd]
        exact ⟨t, rfl, m.sub W _ t hd⟩
      · rw [if_neg hq]
        cases hg : (M p).terms.get? (some q) with
        | none => 
          have : (M p).terms.has (some q) = false := by simp [Dict.has, hg]
          rw [this]
          simp only [Bool.false_eq_true, if_false, hd]
          exact ⟨t, rfl, m.sub W _ t hd⟩
        | some u =>
          have : (M p).terms.has (some q) = true := by simp [Dict.has, hg]
          rw [this]
          simp only [if_true, hg]
          exact ⟨u, rfl, m.sub W _ u hg⟩
  obtain ⟨u, h1, h2⟩ := key
  unfold Frg.observable
  rw [hp]
  simp [hb, h1, h2, Except.map]

theorem create_mid (E : Env F Q) (W : Splittable H f p k) (v : ℚ) (hv : v ≠ 0) :
    ∃ M, createFragment E H k (H f).flow (H f).dir (H f).parent (some v) (H f).bal false = .ok () M ∧ Mid H M f p k ∧
      (M k).evs.get? .cached = some (some v) ∧ (M k).evs.get? .observed = some (some 0) ∧
      ∀ q, q ≠ .cached → q ≠ .observed → (M k).evs.get? q = none := by
  obtain ⟨t, ht, hn⟩ := W.pTerm
  have pk := W.pk
  have kp : k ≠ p := pk.symm
  have hsub : isSubfrag H p t = false := W.noSub _ _ (Dict.mem_of_get?_eq_some _ ht)
  let M0 : Heap F Q := (((H.put k { flow := (H f).flow, dir := (H f).dir, evs := [], terms := [] }).put k
    { parent := some p, flow := (H f).flow, dir := (H f).dir, evs := [], terms := [] }).put p
    { H p with kids := (H p).kids ++ [k] }).put k
    { parent := some p, flow := (H f).flow, dir := (H f).dir, evs := newEvs, terms := [(none, { target := .null, flow := (H f).flow })] }
  have hM0 : Mid H M0 f p k := by
    refine ⟨fun i h1 h2 => ?_, ?_, ?_⟩
    · simp [M0, Heap.put, Function.update_of_ne h1, Function.update_of_ne h2]
    · simp [M0, Heap.put, Function.update_of_ne pk]
    · simp [M0, Heap.put]
  have hM0k : (M0 k).evs = newEvs := by simp [M0, Heap.put]
  have hcre : createFragment E H k (H f).flow (H f).dir (H f).parent (some v) (H f).bal false = setCached M0 k (some v) := by
    have e1 : ∀ n : Node F Q, (H.put k n) p = H p := fun n => by simp [Heap.put, Function.update_of_ne pk]
    unfold createFragment
    rw [W.parent, W.notBal]
    simp only [ht, hn, Bool.false_eq_true, if_false, Out.bind, hsub, Bool.or_false]
    unfold construct setParent addChild setRef initRest
    simp only [Heap.put, Function.update_self, ne_eq, not_true_eq_false, if_false, Out.bind, Bool.false_eq_true,
      Function.update_of_ne kp, Function.update_of_ne pk, PySet.add, W.fresh p, M0]
  rw [hcre]
  have hc1 : cachedEv (M0 k).evs = 1 := by rw [hM0k]; simp [cachedEv, newEvs, Dict.get?]
  unfold setCached
  simp only [hc1, ne_eq, not_true_eq_false, if_false]
  by_cases h1 : v = 1
  · subst h1
    simp only [if_true]
    refine ⟨M0, rfl, hM0, ?_, ?_, ?_⟩
    · rw [hM0k]; simp [newEvs, Dict.get?]
    · rw [hM0k]; simp [newEvs, Dict.get?]
    · intro q h1 h2
      have h1 : ¬ Key.cached = q := fun e => h1 e.symm
      have h2 : ¬ Key.observed = q := fun e => h2 e.symm
      rw [hM0k]; simp [newEvs, Dict.get?, h1, h2]
  · have h1' : ¬ (some v = some (1 : ℚ)) := by simpa using h1
    simp only [h1', if_false]
    unfold setEv
    rw [hM0.observable W _ (.inr ⟨_, rfl⟩)]
    simp only [singleKey, evKey]
    obtain ⟨m1, m2⟩ := hM0.putEv pk .cached (some v)
    refine ⟨_, rfl, m1, ?_, ?_, ?_⟩
    · rw [m2, Dict.get?_set_self]
    · rw [m2, Dict.get?_set_ne _ _ (by simp), hM0k]; simp [newEvs, Dict.get?]
    · intro q h1 h2
      have h1' : ¬ Key.cached = q := fun e => h1 e.symm
      have h2 : ¬ Key.observed = q := fun e => h2 e.symm
      rw [m2, Dict.get?_set_ne _ _ (Ne.symm h1), hM0k]; simp [newEvs, Dict.get?, h1', h2]

/-- the loop of `transfer_evs` -/
theorem transfer_loop (W : Splittable H f p k) (fk : f ≠ k) (ks : List Key) : ∀ {M M' : Heap F Q}, Mid H M f p k →
    (∀ q ∈ ks, q ∈ (H f).evs.keys) → transferLoop f k ks M = .ok () M' → Mid H M' f p k ∧ ∀ q, (M' k).evs.get? q =
      if q ∈ ks ∧ q ≠ .cached ∧ q ≠ .observed then some (some (((H f).evs.get? q).join.getD 0)) else (M k).evs.get? q := by
  induction ks with
  | nil =>
    intro M M' m _ h
    simp only [transferLoop, Out.ok.injEq, true_and] at h
    subst h
    exact ⟨m, by simp⟩
  | cons q0 ks ih =>
    intro M M' m hks h
    have hMf : M f = H f := m.other f W.pf.symm fk
    simp only [transferLoop] at h
    unfold transferOne at h
    by_cases hq : q0 = .cached ∨ q0 = .observed
    · simp only [hq, if_true, Out.bind] at h
      obtain ⟨i1, i2⟩ := ih m (fun q hq => hks q (by simp [hq])) h
      refine ⟨i1, fun q => ?_⟩
      rw [i2 q]
      congr 1
      simp only [List.mem_cons, eq_iff_iff]
      constructor
      · rintro ⟨h1, h2⟩; exact ⟨.inr h1, h2⟩
      · rintro ⟨h1 | h1, h2, h3⟩
        · subst h1; rcases hq with hq | hq <;> contradiction
        · exact ⟨h1, h2, h3⟩
    · simp only [hq, if_false, m.observable W _ (.inr ⟨q0, rfl⟩), hMf] at h
      have hev : exchangeValue (H f) (.one q0) false = .ok (((H f).evs.get? q0).join.getD 0) := by
        have : (H f).evs.has q0 = true := (Dict.has_iff _ _).mpr (hks q0 (by simp))
        simp [exchangeValue, matchEv, this]
      rw [hev] at h
      simp only at h
      unfold setEv at h
      rw [m.observable W _ (.inr ⟨q0, rfl⟩)] at h
      simp only at h
      have hkey : singleKey (.one q0) = .ok q0 ∨ ∃ e, singleKey (.one q0) = .error e := by
        cases q0 with
        | cached => exact .inl rfl
        | observed => exact .inl rfl
        | tup l => exact .inr ⟨_, rfl⟩
        | str s =>
          left
          have h0 : s ≠ "0" := fun e => W.names.1 (by rw [← e]; exact hks _ (by simp))
          have h1 : s ≠ "1" := fun e => W.names.2 (by rw [← e]; exact hks _ (by simp))
          unfold singleKey
          simp only
          unfold evKey
          split
          · rename_i e; cases e; exact absurd rfl h0
          · rename_i e; cases e; exact absurd rfl h1
          · rfl
      rcases hkey with hkey | ⟨e, hkey⟩
      · rw [hkey] at h
        simp only [Out.bind] at h
        obtain ⟨m1, m2⟩ := m.putEv W.pk q0 (some (((H f).evs.get? q0).join.getD 0))
        obtain ⟨i1, i2⟩ := ih m1 (fun q hq => hks q (by simp [hq])) h
        refine ⟨i1, fun q => ?_⟩
        rw [i2 q, m2]
        by_cases hqq : q = q0
        · subst hqq
          simp only [not_or] at hq
          simp only [List.mem_cons, true_or, hq.1, hq.2, ne_eq, not_false_eq_true, and_true, if_true, Dict.get?_set_self]
          split <;> rfl
        · rw [Dict.get?_set_ne _ _ (Ne.symm hqq)]
          simp only [List.mem_cons, hqq, false_or]
      · rw [hkey] at h; simp [Out.bind] at h

theorem cachedEv_ne (d : Dict Key (Option ℚ)) : cachedEv d ≠ 0 := by
  unfold cachedEv
  split
  · norm_num
  · split <;> [norm_num; assumption]

/-- making the new fragment with the exchange values of the old one -/
theorem fork_mid (E : Env F Q) (W : Splittable H f p k) (fk : f ≠ k) {M : Heap F Q} (h : fork E H f k = .ok () M) :
    (∀ i, i ≠ p → i ≠ k → i ≠ f → M i = H i) ∧ M p = { H p with kids := (H p).kids ++ [k] } ∧
    M f = { H f with evs := newEvs } ∧
    M k = { parent := some p, flow := (H f).flow, dir := (H f).dir, evs := (M k).evs,
            terms := [(none, { target := .null, flow := (H f).flow })] } ∧
    ∀ sc obs, .cached ∉ sc.names ∧ .observed ∉ sc.names → exchangeValue (M k) sc obs = exchangeValue (H f) sc obs := by
  obtain ⟨M1, h1, m1, c1, c2, c3⟩ := create_mid E W _ (cachedEv_ne (H f).evs)
  unfold fork at h
  rw [h1] at h
  simp only [Out.bind] at h
  have hMf : M1 f = H f := m1.other f W.pf.symm fk
  have hfk : f ≠ p := W.pf.symm
  have hpn : (H f).parent.isNone = false := by rw [W.parent]; rfl
  cases ht : transferEvs M1 f k with
  | err e M2 => rw [ht] at h; simp at h
  | ok u M2 =>
    rw [ht] at h
    simp only [Out.ok.injEq, true_and] at h
    have hM2 : Mid H M2 f p k ∧ ∀ q, (M2 k).evs.get? q =
        if q = .observed then some (((H f).evs.get? .observed).join)
        else if q = .cached then some (some (cachedEv (H f).evs))
        else if q ∈ (H f).evs.keys then some (some (((H f).evs.get? q).join.getD 0)) else none := by
      unfold transferEvs at ht
      simp only [hMf, hpn] at ht
      have hob : observedEv false (H f).evs = ((H f).evs.get? .observed).join := by simp [observedEv]
      rw [hob] at ht
      have step : ∃ M3, (if ((H f).evs.get? .observed).join = some 0 then (.ok () M1 : Out (Heap F Q) Err Unit)
          else setObserved M1 k ((H f).evs.get? .observed).join) = .ok () M3 ∧ Mid H M3 f p k ∧
          (M3 k).evs.get? .cached = some (some (cachedEv (H f).evs)) ∧
          (M3 k).evs.get? .observed = some (((H f).evs.get? .observed).join) ∧
          ∀ q, q ≠ .cached → q ≠ .observed → (M3 k).evs.get? q = none := by
        by_cases h0 : ((H f).evs.get? .observed).join = some 0
        · exact ⟨M1, by rw [if_pos h0], m1, c1, by rw [c2, h0], c3⟩
        · rw [if_neg h0]
          unfold setObserved
          rw [m1.observable W _ (.inl rfl)]
          obtain ⟨n1, n2⟩ := m1.putEv W.pk .observed ((H f).evs.get? .observed).join
          refine ⟨_, rfl, n1, ?_, ?_, ?_⟩
          · rw [n2, Dict.get?_set_ne _ _ (by simp)]; exact c1
          · rw [n2, Dict.get?_set_self]
          · intro q q1 q2
            rw [n2, Dict.get?_set_ne _ _ (Ne.symm q2)]; exact c3 q q1 q2
      obtain ⟨M3, e1, n1, n2, n3, n4⟩ := step
      rw [e1] at ht
      simp only [Out.bind] at ht
      have hM3f : M3 f = H f := n1.other f W.pf.symm fk
      rw [hM3f] at ht
      obtain ⟨i1, i2⟩ := transfer_loop W fk _ n1 (fun q hq => hq) ht
      refine ⟨i1, fun q => ?_⟩
      rw [i2 q]
      by_cases q1 : q = .observed
      · subst q1; simp [n3]
      · by_cases q2 : q = .cached
        · subst q2; simp [n2]
        · simp only [q1, q2, ne_eq, not_false_eq_true, and_true, if_false, n4 q q2 q1]
    obtain ⟨m2, hev⟩ := hM2
    have hMf2 : M2 f = H f := m2.other f W.pf.symm fk
    subst h
    have ho : ∀ i, i ≠ f → clearEvs M2 f i = M2 i := fun i hi => by simp [clearEvs, Heap.put, Function.update_of_ne hi]
    refine ⟨fun i a b c => ?_, ?_, ?_, ?_, ?_⟩
    · rw [ho i c]; exact m2.other i a b
    · rw [ho p W.pf]; exact m2.atP
    · simp [clearEvs, Heap.put, hMf2]
    · rw [ho k fk.symm]; exact m2.atK
    · intro sc obs hn
      rw [ho k fk.symm]
      have hpk : (M2 k).parent = some p := by rw [m2.atK]
      have hhas : ∀ q, q ≠ .cached → q ≠ .observed → (M2 k).evs.has q = (H f).evs.has q := by
        intro q q1 q2
        have := hev q
        simp only [q1, q2, if_false] at this
        unfold Dict.has
        rw [this]
        by_cases hq : q ∈ (H f).evs.keys
        · obtain ⟨v, hv⟩ := (Dict.mem_keys_iff _ _).mp hq
          simp [hq, hv]
        · simp [hq, (Dict.not_mem_keys_iff _ _).mp hq]
      have hm : matchEv (M2 k).evs sc = matchEv (H f).evs sc := by
        unfold matchEv
        cases sc with
        | none => rfl
        | one q =>
          simp only [Scen.names, List.mem_singleton] at hn
          simp only
          rw [hhas q (fun e => hn.1 e.symm) (fun e => hn.2 e.symm)]
        | many l =>
          simp only [Scen.names] at hn
          have : l.filter (M2 k).evs.has = l.filter (H f).evs.has := by
            apply List.filter_congr
            intro q hq
            exact hhas q (fun e => hn.1 (e ▸ hq)) (fun e => hn.2 (e ▸ hq))
          simp only [this]
      have hmn : ∀ q, matchEv (H f).evs sc = .ok (some q) → q ∈ sc.names ∧ q ∈ (H f).evs.keys := by
        intro q hq
        unfold matchEv at hq
        cases sc with
        | none => simp at hq
        | one q' =>
          simp only [Except.ok.injEq] at hq
          split at hq
          · rename_i hh
            cases hq
            exact ⟨by simp [Scen.names], (Dict.has_iff _ _).mp hh⟩
          · simp at hq
        | many l =>
          simp only at hq
          split at hq
          · simp at hq
          · rename_i q' hl
            cases hq
            have : q ∈ l.filter (H f).evs.has := by rw [hl]; simp
            obtain ⟨a, b⟩ := List.mem_filter.mp this
            exact ⟨a, (Dict.has_iff _ _).mp b⟩
          · simp at hq
      unfold exchangeValue
      rw [hm, hpk, W.parent]
      cases hmm : matchEv (H f).evs sc with
      | error e => rfl
      | ok o =>
        cases o with
        | none =>
          have e1 : cachedEv (M2 k).evs = cachedEv (H f).evs := by
            have := hev .cached
            simp only [reduceCtorEq, if_false, if_true] at this
            have hne := cachedEv_ne (H f).evs
            conv_lhs => unfold cachedEv
            rw [this]
            simp [hne]
          have e2 : observedEv false (M2 k).evs = observedEv false (H f).evs := by
            have := hev .observed
            simp only [if_true] at this
            simp [observedEv, this]
          simp only [Option.isNone_some, e1, e2]
        | some q =>
          obtain ⟨a, b⟩ := hmn q hmm
          have := hev q
          have q1 : q ≠ .cached := fun e => hn.1 (e ▸ a)
          have q2 : q ≠ .observed := fun e => hn.2 (e ▸ a)
          simp only [q1, q2, if_false, b, if_true] at this
          simp [this]

/-- the top of a fragment that is not below f is not f -/
theorem top_not {M : Heap F Q} (hM : ∀ i, i ≠ f → i ≠ k → (M i).parent = (H i).parent) (hnp : ∀ i, (H i).parent ≠ some k) {n i t : ℕ}
    (hi : i ≠ k) (hb : ¬ Below H f i) (h : top M n i = .ok t) : t ≠ f := by
  induction n generalizing i with
  | zero => simp [top] at h
  | succ n ih =>
    have hif : i ≠ f := fun e => hb (e ▸ Below.refl)
    unfold top at h
    rw [hM i hif hi] at h
    cases hp : (H i).parent with
    | none => rw [hp] at h; cases h; exact hif
    | some q =>
      rw [hp] at h
      exact ih (fun e => hnp i (by rw [hp, e])) (fun hq => hb (.step hp hq)) h

/-- `split_subfragment` puts a new fragment, terminated to the old one, in its place -/
theorem split_ok (E : Env F Q) {fuel : ℕ} (W : Splittable H f p k) (h : splitSubfragment E fuel H f k = .ok () H') :
    Split H H' f p k := by
  have pk := W.pk
  have pf := W.pf
  have fk : f ≠ k := fun e => W.fresh p (e ▸ W.isKid)
  unfold splitSubfragment at h
  cases hfo : fork E H f k with
  | err e M => rw [hfo] at h; simp [Out.bind] at h
  | ok u M =>
    rw [hfo] at h
    obtain ⟨g1, g2, g3, g4, g5⟩ := fork_mid E W fk hfo
    simp only [Out.bind] at h
    -- taking the old fragment from its parent
    have hun : unsetParent M f = .ok () (setRef (M.put p { M p with kids := (M p).kids.erase f }) f none) := by
      unfold unsetParent
      have e1 : (M f).parent = some p := by rw [g3]; exact W.parent
      have e2 : f ∈ (M p).kids := by rw [g2]; simp [W.isKid]
      rw [e1]
      simp only [removeChild, e1, ne_eq, not_true_eq_false, if_false, e2]
    rw [hun] at h
    simp only at h
    generalize hM3 : setRef (M.put p { M p with kids := (M p).kids.erase f }) f none = M3 at h
    have a1 : ∀ i, i ≠ p → i ≠ f → M3 i = M i := by
      intro i h1 h2
      subst hM3
      simp [setRef, Heap.put, Function.update_of_ne h1, Function.update_of_ne h2]
    have a2 : M3 p = { M p with kids := (M p).kids.erase f } := by
      subst hM3
      simp [setRef, Heap.put, Function.update_of_ne pf]
    have a3 : M3 f = { M f with parent := none } := by
      subst hM3
      simp [setRef, Heap.put, Function.update_of_ne pf.symm]
    have a4 : M3 k = M k := a1 k pk.symm fk.symm
    -- terminating the new one
    have hterm : H' = M3.put k { M3 k with terms := [(none, { target := .frag f, flow := (H f).flow })] } := by
      have ht : (M3 k).terms = [(none, { target := .null, flow := (H f).flow })] := by rw [a4, g4]
      have hfl : (M3 k).flow = (H f).flow := by rw [a4, g4]
      unfold terminate at h
      simp only [ht, Dict.get?, if_true, Term.isNull, Bool.not_true, Bool.false_eq_true, if_false, fk] at h
      cases hto : top M3 fuel k with
      | error e => rw [hto] at h; simp at h
      | ok t =>
        rw [hto] at h
        have htf : t ≠ f := by
          have hpar : ∀ i, i ≠ f → i ≠ k → (M3 i).parent = (H i).parent := by
            intro i h1 h2
            by_cases h3 : i = p
            · subst h3; rw [a2, g2]
            · rw [a1 i h3 h1, g1 i h3 h2 h1]
          cases fuel with
          | zero => simp [top] at hto
          | succ n =>
            unfold top at hto
            have : (M3 k).parent = some p := by rw [a4, g4]
            rw [this] at hto
            exact top_not hpar W.noParent pk W.below hto
        simp only [Ne.symm htf, if_false] at h
        split at h
        · simp at h
        · split at h
          · simp at h
          · simp only [Out.ok.injEq, true_and] at h
            rw [← h]
            simp only [hfl, Dict.set, if_true]
    have b1 : ∀ i, i ≠ k → H' i = M3 i := by
      intro i hi
      rw [hterm]
      simp [Heap.put, Function.update_of_ne hi]
    have b2 : H' k = { M3 k with terms := [(none, { target := .frag f, flow := (H f).flow })] } := by
      rw [hterm]
      simp [Heap.put]
    refine
      { parent := W.parent, fk := fk, pk := pk, pf := pf, kid := W.kid, fresh := W.fresh, noParent := W.noParent,
        notBg := W.notBg, notBal := W.notBal, balanced := W.balanced, noSub := W.noSub, target := W.target,
        other := ?_, atP := ?_, atF := ?_, atK := ?_, evK := ?_ }
    · intro i h1 h2 h3
      rw [b1 i h3, a1 i h2 h1, g1 i h2 h3 h1]
    · refine ⟨((H p).kids ++ [k]).erase f, ?_, ?_⟩
      · rw [b1 p pk, a2, g2]
      · rw [List.erase_append_left _ W.isKid]
        have h1 : ((H p).kids.map (instead f k)).Perm ((f :: (H p).kids.erase f).map (instead f k)) :=
          (List.perm_cons_erase W.isKid).map _
        have h2 : ((H p).kids.erase f).map (instead f k) = (H p).kids.erase f := by
          conv_rhs => rw [← List.map_id ((H p).kids.erase f)]
          apply List.map_congr_left
          intro c hc
          have : c ≠ f := (W.nodup.mem_erase_iff.mp hc).1
          simp [instead, this]
        refine List.Perm.trans ?_ h1.symm
        rw [List.map_cons, h2]
        simp only [instead, if_true]
        exact List.perm_append_singleton _ _
    · rw [b1 f fk, a3, g3]
    · rw [b2, a4]
      have := g4
      rw [this]
    · intro sc obs hn
      rw [← g5 sc obs hn]
      have e1 : (H' k).evs = (M k).evs := by rw [b2, a4]
      have e2 : (H' k).parent = (M k).parent := by rw [b2, a4]
      unfold exchangeValue
      rw [e1, e2]

/-- **C45, what holds.** A foreground fragment with a parent is split off: every traversal that returned still does, and models
the same: fragments that are not cut off have the same amounts and node weights (the new fragment apart), so have those cut off that
are not in the split subtree, and every flow has the same net amount cut off. -/
theorem split_keeps_partial (E : Env F Q) {fuel : ℕ} (W : Splittable H f p k) (h : splitSubfragment E fuel H f k = .ok () H')
    {sc : Scen} {obs : Bool} (T : Terminated E H f sc obs) {n r : ℕ} (hrf : r ≠ f) (hrk : r ≠ k) {l : List (FF F)}
    (hl : traverse E H sc obs n r = .ok l) : ∃ l', traverse E H' sc obs (2 * n) r = .ok l' ∧ Like H f k l l' :=
  split_traverse (split_ok E W h) T hrf hrk hl

/-- **C45 fails** for every `interpose` that returns: the fragment is a child of the new fragment, and is still listed as a child of
its former parent, which has the new fragment as another child -/
theorem interpose_listed_twice (E : Env F Q) (W : Splittable H f p k) (h : interpose E H f k = .ok () H') :
    f ∈ (H' p).kids ∧ f ∈ (H' k).kids ∧ k ∈ (H' p).kids ∧ (H' f).parent = some k := by
  have pk := W.pk
  have pf := W.pf
  have fk : f ≠ k := fun e => W.fresh p (e ▸ W.isKid)
  unfold interpose at h
  cases hfo : fork E H f k with
  | err e M => rw [hfo] at h; simp [Out.bind] at h
  | ok u M =>
    rw [hfo] at h
    obtain ⟨g1, g2, g3, g4, g5⟩ := fork_mid E W fk hfo
    simp only [Out.bind] at h
    cases hto : toForeground M k with
    | err e M2 => rw [hto] at h; simp at h
    | ok u M2 =>
      rw [hto] at h
      have ho : ∀ i, i ≠ k → M2 i = M i := by
        intro i hi
        unfold toForeground at hto
        simp only at hto
        split at hto
        · split at hto
          · simp only [Out.ok.injEq, true_and] at hto
            rw [← hto]
            simp [Heap.put, Function.update_of_ne hi]
          · simp at hto
        · simp only [Out.ok.injEq, true_and] at hto
          rw [← hto]
          simp [Heap.put, Function.update_of_ne hi]
      simp only [setParent, addChild, setRef, Heap.put, Function.update_self, ne_eq, not_true_eq_false, if_false,
        Function.update_of_ne fk.symm, Out.ok.injEq, true_and] at h
      subst h
      refine ⟨?_, ?_, ?_, ?_⟩
      · rw [Function.update_of_ne pk, Function.update_of_ne pf, ho p pk, g2]
        simp [W.isKid]
      · rw [Function.update_self]
        simp only [PySet.add]
        split
        · assumption
        · exact List.mem_append_right _ (List.mem_singleton.mpr rfl)
      · rw [Function.update_of_ne pk, Function.update_of_ne pf, ho p pk, g2]
        simp
      · rw [Function.update_of_ne fk, Function.update_self]

/-! a case that meets the hypotheses: `splitH`, with the cut-offs 2 and 4 and the process 3 below the split fragment 1 -/

theorem splitH_below {t : Target} {tf j : ℕ} (h : Below (splitH t tf) 1 j) : j = 1 ∨ j = 2 ∨ j = 3 ∨ j = 4 := by
  induction h with
  | refl => exact .inl rfl
  | @step c q hp _ ih =>
    match c with
    | 0 => simp [splitH] at hp
    | 1 => exact .inl rfl
    | 2 => simp
    | 3 => simp
    | 4 => simp
    | c + 5 => simp [splitH] at hp

theorem splitH_ok : Splittable (splitH (.frag 1) 4) 1 0 20 where
  parent := rfl
  isKid := by simp [splitH]
  kid := by
    intro i c hc
    match i with
    | 0 => simp [splitH] at hc; subst hc; rfl
    | 1 => simp [splitH] at hc; rcases hc with rfl | rfl | rfl <;> rfl
    | 2 => simp [splitH] at hc
    | 3 => simp [splitH] at hc
    | 4 => simp [splitH] at hc
    | i + 5 => simp [splitH] at hc
  nodup := by simp [splitH]
  below := fun h => by have := splitH_below h; simp at this
  fresh := by
    intro i hc
    match i with
    | 0 => simp [splitH] at hc
    | 1 => simp [splitH] at hc
    | 2 => simp [splitH] at hc
    | 3 => simp [splitH] at hc
    | 4 => simp [splitH] at hc
    | i + 5 => simp [splitH] at hc
  noParent := by
    intro i hc
    match i with
    | 0 => simp [splitH] at hc
    | 1 => simp [splitH] at hc
    | 2 => simp [splitH] at hc
    | 3 => simp [splitH] at hc
    | 4 => simp [splitH] at hc
    | i + 5 => simp [splitH] at hc
  notBg := rfl
  notBal := rfl
  balanced := by simp [splitH]
  pTerm := ⟨_, rfl, rfl⟩
  noSub := by
    intro q t h
    simp [splitH] at h
    rw [h.2]
    rfl
  target := by
    intro i hi q t j h1 h2 h3
    match i with
    | 0 => simp [splitH] at h1; rw [h1.2] at h2; cases h2; exact absurd rfl h3
    | 1 => simp [splitH] at h1; rw [h1.2] at h2; cases h2; exact absurd rfl h3
    | 2 => simp [splitH, nullT] at h1; rw [h1.2] at h2; cases h2
    | 3 => simp [splitH] at h1; rw [h1.2] at h2; cases h2
    | 4 => simp [splitH, nullT] at h1; rw [h1.2] at h2; cases h2
    | i + 5 => simp [splitH] at h1
  names := by decide

theorem splitH_trav (n : ℕ) (seen : List ℕ) (up : ℚ) (cq : Option ℕ) (l : List (FF ℕ)) (cv : Option ℚ)
    (h : travNode exE (splitH (.frag 1) 4) (.one (.str "a")) false n seen 1 up cq none = .ok (l, cv)) : cutoffsOf 4 l = [] := by
  have h2 : ∀ n w, travNode exE (splitH (.frag 1) 4) (.one (.str "a")) false (n + 1) seen 2 w none none = .ok
      ([{ who := .frag 2, flow := 3, dir := .input, mag := w * 3, nw := w * 3, term := nullT 3, conserved := false }], none) := by
    intro n w; rfl
  have h4 : ∀ n w, travNode exE (splitH (.frag 1) 4) (.one (.str "a")) false (n + 1) seen 4 w none none = .ok
      ([{ who := .frag 4, flow := 3, dir := .output, mag := w * 5, nw := w * 5, term := nullT 3, conserved := false }], none) := by
    intro n w; rfl
  have h3 : ∀ n w, travNode exE (splitH (.frag 1) 4) (.one (.str "a")) false (n + 1) seen 3 w none none = .ok
      ([{ who := .frag 3, flow := 5, dir := .output, mag := w * 7, nw := w * 7, term := { target := .process, flow := 5 },
          conserved := false }], none) := by
    intro n w
    have e : enter exE (splitH (.frag 1) 4) (.one (.str "a")) false seen 3 w none none = .ok
      ({ who := .frag 3, flow := 5, dir := .output, mag := w * 7, nw := w * 7 * 1, term := { target := .process, flow := 5 },
         conserved := false }, none) := rfl
    unfold travNode
    rw [e]
    simp only [mul_one]
    split
    · rfl
    · rfl
  rcases n with _ | n
  · simp [travNode] at h
  obtain ⟨c, e⟩ : ∃ c : Bool × Option ℚ, enter exE (splitH (.frag 1) 4) (.one (.str "a")) false seen 1 up cq none = .ok
      ({ who := .frag 1, flow := 4, dir := .input, mag := up * 5, nw := up * 5 * 1, term := { target := .frag 1, flow := 4 },
         conserved := c.1 }, c.2) := by
    cases cq with
    | none => exact ⟨(false, none), rfl⟩
    | some q => exact ⟨(_, _), rfl⟩
  unfold travNode at h
  rw [e] at h
  simp only at h
  split at h
  · cases h; rfl
  · rcases n with _ | n
    · cases h
    · have hx : expand exE (splitH (.frag 1) 4) (.one (.str "a")) false (top (splitH (.frag 1) 4) (n + 1))
        (travNode exE (splitH (.frag 1) 4) (.one (.str "a")) false (n + 1)) seen 1
        { who := .frag 1, flow := 4, dir := .input, mag := up * 5, nw := up * 5 * 1, term := { target := .frag 1, flow := 4 },
          conserved := c.1 } = .ok l := by
        have : (splitH (.frag 1) 4 1).parent = some 0 := rfl
        rw [this] at h
        simp only [reduceCtorEq, if_false] at h
        split at h
        · simp at h
        · rename_i hh; cases h; exact hh
      unfold expand fgFrom at hx
      simp only [if_true] at hx
      have hs : stock0 (splitH (.frag 1) 4 1) (.one (.str "a")) false true = .ok 1 := rfl
      rw [hs] at hx
      simp only at hx
      unfold fgNode at hx
      have hk : children (splitH (.frag 1) 4 1) = [2, 3, 4] := by decide
      have hc : (splitH (.frag 1) 4 1).cons = none := rfl
      simp only [hk, hc, fgLoop, h2, h3, h4, Except.ok.injEq] at hx
      subst hx
      simp [cutoffsOf, nullT, Term.isNull]

theorem splitH_terminated : Terminated exE (splitH (.frag 1) 4) 1 (.one (.str "a")) false where
  term := ⟨{ target := .frag 1, flow := 4 }, by rfl, rfl, by simp [conversion, splitH], by
    intro j h1 h2; cases h1; exact absurd rfl h2⟩
  own := splitH_trav
  names := by simp [Scen.names]

/-- the traversal of the whole tree in the scenario "a", before and after -/
example : ∃ H' l l', splitSubfragment exE 9 (splitH (.frag 1) 4) 1 20 = .ok () H' ∧
    traverse exE (splitH (.frag 1) 4) (.one (.str "a")) false 9 0 = .ok l ∧ l.length = 5 ∧
    traverse exE H' (.one (.str "a")) false 18 0 = .ok l' ∧ Like (splitH (.frag 1) 4) 1 20 l l' := by
  cases h : splitSubfragment exE 9 (splitH (.frag 1) 4) 1 20 with
  | err e M =>
    exfalso
    have : (splitSubfragment exE 9 (splitH (.frag 1) 4) 1 20).error? = none := by decide +kernel
    rw [h] at this
    cases this
  | ok u H' =>
    have hl : ((traverse exE (splitH (.frag 1) 4) (.one (.str "a")) false 9 0).map List.length) = .ok 5 := by decide +kernel
    cases hl2 : traverse exE (splitH (.frag 1) 4) (.one (.str "a")) false 9 0 with
    | error e => rw [hl2] at hl; cases hl
    | ok l =>
      rw [hl2] at hl
      obtain ⟨l', h1, h2⟩ := split_keeps_partial exE splitH_ok h splitH_terminated (by decide) (by decide) hl2
      exact ⟨H', l, l', rfl, rfl, by simpa [Except.map] using hl, h1, h2⟩

example : ∃ H', interpose exE (splitH (.frag 1) 4) 1 20 = .ok () H' ∧ 1 ∈ (H' 0).kids ∧ 1 ∈ (H' 20).kids := by
  cases h : interpose exE (splitH (.frag 1) 4) 1 20 with
  | err e M =>
    exfalso
    have : (interpose exE (splitH (.frag 1) 4) 1 20).error? = none := by decide +kernel
    rw [h] at this
    cases this
  | ok u H' => exact ⟨H', rfl, (interpose_listed_twice exE splitH_ok h).1, (interpose_listed_twice exE splitH_ok h).2.1⟩

end Frg
