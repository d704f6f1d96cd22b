import Verif.Props.FragmentObserve2
import Verif.Props.FragmentTree

/-!
What the single steps of cloning a fragment do (used for C127).
-/

namespace Frg
set_option linter.unusedSectionVars false

variable {F Q : Type} [DecidableEq F] [DecidableEq Q]

theorem put_put (H : Heap F Q) (i : ℕ) (n m : Node F Q) : (H.put i n).put i m = H.put i m := by
  funext j
  by_cases h : j = i
  · subst h; simp
  · simp [h]

theorem put_id (H : Heap F Q) (i : ℕ) : H.put i (H i) = H := by
  funext j
  by_cases h : j = i
  · subst h; simp
  · simp [h]

theorem bind_ok {σ ε α β : Type} {r : Out σ ε α} {f : α → σ → Out σ ε β} {b : β} {s : σ} (h : r.bind f = .ok b s) :
    ∃ a s', r = .ok a s' ∧ f a s' = .ok b s := by
  cases r with
  | ok a s' => exact ⟨a, s', rfl, h⟩
  | err e s' => simp [Out.bind] at h

/-! ### creation -/

theorem setCached_inv (H H' : Heap F Q) (k : ℕ) (v : Option ℚ) (he : (H k).evs = newEvs) (h : setCached H k v = .ok () H') :
    H' = H.put k { H k with evs := [(.cached, v), (.observed, some 0)] } := by
  unfold setCached at h
  split at h
  · simp at h
  · split at h
    · rename_i hv
      simp only [Out.ok.injEq, true_and] at h
      subst h
      rw [hv]
      have : ({ H k with evs := [(.cached, some 1), (.observed, some 0)] } : Node F Q) = H k := by
        conv_rhs => rw [show H k = { H k with evs := (H k).evs } from rfl, he]
        rfl
      rw [this, put_id]
    · unfold setEv at h
      split at h
      · simp at h
      · simp at h
      · simp only [singleKey, evKey, Out.ok.injEq, true_and] at h
        subst h
        rw [putEv, he]; rfl

theorem create_root (E : Env F Q) (H H' : Heap F Q) (k : ℕ) (flow : F) (dir : Dir) (v : Option ℚ) (bal bg : Bool)
    (h : createFragment E H k flow dir none v bal bg = .ok () H') :
    H' = H.put k { flow := flow, dir := dir.comp, evs := [(.cached, v), (.observed, some 0)],
                   terms := [(none, { target := .null, flow := flow })], bg := bg } := by
  simp only [createFragment, construct, initRest, Bool.false_eq_true, if_false, Out.bind] at h
  have := setCached_inv _ _ _ _ (by simp) h
  rw [this]
  simp only [put_self, put_put]

theorem create_child (E : Env F Q) (H H' : Heap F Q) (k p : ℕ) (flow : F) (dir : Dir) (v : Option ℚ) (bal bg : Bool) (hpk : p ≠ k)
    (t : Term F) (ht : (H p).terms.get? none = some t) (hn : t.isNull = false)
    (h : createFragment E H k flow dir (some p) v bal bg = .ok () H') :
    H' k = { parent := some p, flow := flow, dir := dir, evs := [(.cached, if bal || isSubfrag H p t then some 1 else v), (.observed, some 0)],
             terms := [(none, { target := .null, flow := flow })], bg := bg, bal := bal } ∧
    H' p = { H p with kids := PySet.add (H p).kids k, cons := if bal then some (E.refQ flow) else (H p).cons } ∧
    ∀ y, y ≠ k → y ≠ p → H' y = H y := by
  simp only [createFragment, ht, hn, Bool.false_eq_true, if_false, Out.bind, construct, setParent, setRef, addChild, put_self, ne_eq,
    not_true_eq_false, put_ne _ _ hpk] at h
  cases bal with
  | false =>
    simp only [initRest, Bool.false_eq_true, if_false, Out.bind] at h
    have := setCached_inv _ _ _ _ (by simp) h
    subst this
    refine ⟨?_, ?_, ?_⟩
    · simp [put_ne _ _ hpk.symm]
    · simp [put_ne _ _ hpk]
    · intro y h1 h2; simp [h1, h2]
  | true =>
    simp only [initRest, if_true, setBalance, setConserved, put_self, put_ne _ _ hpk.symm, put_ne _ _ hpk, Bool.false_eq_true,
      if_false, ne_eq, not_true_eq_false, Out.bind] at h
    by_cases hc : (H p).cons.isSome = true
    · rw [if_pos hc] at h; simp at h
    · rw [if_neg hc] at h
      simp only [put_self, put_ne _ _ hpk.symm, put_ne _ _ hpk] at h
      have := setCached_inv _ _ _ _ (by simp) h
      subst this
      refine ⟨?_, ?_, ?_⟩
      · simp
      · simp [put_ne _ _ hpk]
      · intro y h1 h2; simp [h1, h2]

/-! ### values -/

/-- a name that a scenario can have -/
def Plain : Key → Prop
  | .cached => True
  | .observed => True
  | .str s => s ≠ "0" ∧ s ≠ "1"
  | .tup _ => False

theorem observable_put (H : Heap F Q) (k : ℕ) (n : Node F Q) (hp : n.parent = (H k).parent) (hb : n.bal = (H k).bal) (ht : n.terms = (H k).terms)
    (hg : n.bg = (H k).bg) (sc : Scen) : observable (H.put k n) k sc = observable H k sc := by
  have hterm : ∀ y, termOf (H.put k n y) sc = termOf (H y) sc := by
    intro y
    by_cases h : y = k
    · subst h; rw [put_self]; exact termOf_congr _ _ ht sc
    · rw [put_ne _ _ h]
  have hbg : ∀ y, (H.put k n y).bg = (H y).bg := by
    intro y
    by_cases h : y = k
    · subst h; rw [put_self, hg]
    · rw [put_ne _ _ h]
  have hsub : ∀ p t, isSubfrag (H.put k n) p t = isSubfrag H p t := by
    intro p t; unfold isSubfrag; simp only [hbg]
  unfold observable
  rw [put_self, hp, hb]
  simp only [hterm, hsub]

theorem observable_evs (H : Heap F Q) (k : ℕ) (e : Dict Key (Option ℚ)) (sc : Scen) :
    observable (H.put k { H k with evs := e }) k sc = observable H k sc :=
  observable_put H k { H k with evs := e } rfl rfl rfl rfl sc

/-- the loop of `transfer_evs`, when the values of the new fragment can be set -/
theorem transferLoop_free (frag new : ℕ) (hne : frag ≠ new) : ∀ (ks : List Key) (H H' : Heap F Q), ks.Nodup → (∀ k ∈ ks, Plain k) →
    (∀ k ∈ ks, k ∈ (H frag).evs.keys) → (∀ k ∈ ks, k ≠ .cached → k ≠ .observed → observable H new (.one k) = .ok true) →
    transferLoop frag new ks H = .ok () H' → ∃ evs, H' = H.put new { H new with evs := evs } ∧
      ∀ k, evs.get? k = if k ∈ ks ∧ k ≠ .cached ∧ k ≠ .observed then ((H frag).evs.get? k).map (fun v => some (v.getD 0)) else (H new).evs.get? k := by
  intro ks
  induction ks with
  | nil =>
    intro H H' _ _ _ _ h
    simp only [transferLoop, Out.ok.injEq, true_and] at h
    subst h
    exact ⟨(H new).evs, (put_id _ _).symm, fun k => by simp⟩
  | cons a ks ih =>
    intro H H' hnd hpl hk hobs h
    rw [transferLoop] at h
    obtain ⟨_, H1, h1, h2⟩ := bind_ok h
    rw [List.nodup_cons] at hnd
    by_cases ha : a = .cached ∨ a = .observed
    · rw [transferOne, if_pos ha] at h1
      simp only [Out.ok.injEq, true_and] at h1
      subst h1
      obtain ⟨evs, e, hev⟩ := ih H H' hnd.2 (fun k hk' => hpl k (List.mem_cons_of_mem _ hk')) (fun k hk' => hk k (List.mem_cons_of_mem _ hk'))
        (fun k hk' => hobs k (List.mem_cons_of_mem _ hk')) h2
      refine ⟨evs, e, fun k => ?_⟩
      rw [hev k]
      by_cases hka : k = a
      · subst hka
        have : ¬(k ≠ .cached ∧ k ≠ .observed) := by tauto
        simp only [this, and_false]
      · simp [hka]
    · rw [transferOne, if_neg ha] at h1
      push Not at ha
      rw [hobs a List.mem_cons_self ha.1 ha.2] at h1
      simp only at h1
      obtain ⟨va, hva⟩ := (Dict.mem_keys_iff _ _).1 (hk a List.mem_cons_self)
      have hx : exchangeValue (H frag) (.one a) false = .ok (va.getD 0) := by
        simp [exchangeValue, matchEv, Dict.has, hva]
      rw [hx] at h1
      simp only [setEv, hobs a List.mem_cons_self ha.1 ha.2] at h1
      have hsk : singleKey (.one a) = .ok a := by
        have := hpl a List.mem_cons_self
        cases a with
        | cached => exact absurd rfl ha.1
        | observed => exact absurd rfl ha.2
        | tup l => exact absurd this (by simp [Plain])
        | str s =>
          simp only [Plain] at this
          rw [singleKey]
          · unfold evKey
            split
            · rename_i h; simp at h; exact absurd h this.1
            · rename_i h; simp at h; exact absurd h this.2
            · rfl
          · simp
      rw [hsk] at h1
      simp only [Out.ok.injEq, true_and] at h1
      subst h1
      have hfr : putEv H new a (some (va.getD 0)) frag = H frag := by rw [putEv, put_ne _ _ hne]
      obtain ⟨evs, e, hev⟩ := ih _ H' hnd.2 (fun k hk' => hpl k (List.mem_cons_of_mem _ hk'))
        (fun k hk' => by rw [hfr]; exact hk k (List.mem_cons_of_mem _ hk'))
        (fun k hk' h3 h4 => by
          exact (observable_evs H new _ _).trans (hobs k (List.mem_cons_of_mem _ hk') h3 h4)) h2
      refine ⟨evs, ?_, fun k => ?_⟩
      · rw [e, putEv, put_put, put_self]
      · rw [hev k, hfr]
        by_cases hka : k = a
        · subst hka
          rw [if_neg (fun h => hnd.1 h.1), putEv_get, if_pos ⟨rfl, rfl⟩, if_pos ⟨List.mem_cons_self, ha.1, ha.2⟩, hva]
          rfl
        · have hp : (putEv H new a (some (va.getD 0)) new).evs.get? k = (H new).evs.get? k := by
            rw [putEv_get, if_neg (fun h => hka h.2.symm)]
          rw [hp]
          simp [hka]

/-- … and when they cannot -/
theorem transferLoop_bound (frag new : ℕ) : ∀ (ks : List Key) (H H' : Heap F Q),
    (∀ k ∈ ks, k ≠ .cached → k ≠ .observed → observable H new (.one k) = .ok false) →
    transferLoop frag new ks H = .ok () H' → H' = H := by
  intro ks
  induction ks with
  | nil => intro H H' _ h; simp only [transferLoop, Out.ok.injEq, true_and] at h; exact h.symm
  | cons a ks ih =>
    intro H H' hobs h
    rw [transferLoop] at h
    obtain ⟨_, H1, h1, h2⟩ := bind_ok h
    have : H1 = H := by
      rw [transferOne] at h1
      split at h1
      · simp only [Out.ok.injEq, true_and] at h1; exact h1.symm
      · rename_i ha
        push Not at ha
        rw [hobs a List.mem_cons_self ha.1 ha.2] at h1
        simp only [Out.ok.injEq, true_and] at h1; exact h1.symm
    subst this
    exact ih _ _ (fun k hk => hobs k (List.mem_cons_of_mem _ hk)) h2

/-- `transfer_evs`, when the values of the new fragment can be set -/
theorem transferEvs_free (H H' : Heap F Q) (frag new : ℕ) (hne : frag ≠ new) (hnd : (H frag).evs.keys.Nodup)
    (hpl : ∀ k ∈ (H frag).evs.keys, Plain k) (h0 : observable H new .none = .ok true)
    (hobs : ∀ k ∈ (H frag).evs.keys, k ≠ .cached → k ≠ .observed → observable H new (.one k) = .ok true)
    (h : transferEvs H frag new = .ok () H') : ∃ evs, H' = H.put new { H new with evs := evs } ∧
      (∀ k, k ≠ .observed → evs.get? k = if k ∈ (H frag).evs.keys ∧ k ≠ .cached then ((H frag).evs.get? k).map (fun v => some (v.getD 0)) else (H new).evs.get? k) ∧
      evs.get? .observed = if observedEv (H frag).parent.isNone (H frag).evs = some 0 then (H new).evs.get? .observed else
        some (observedEv (H frag).parent.isNone (H frag).evs) := by
  rw [transferEvs] at h
  obtain ⟨_, H1, h1, h2⟩ := bind_ok h
  have key : ∃ e1, H1 = H.put new { H new with evs := e1 } ∧ (∀ k, k ≠ .observed → e1.get? k = (H new).evs.get? k) ∧
      e1.get? .observed = if observedEv (H frag).parent.isNone (H frag).evs = some 0 then (H new).evs.get? .observed else
        some (observedEv (H frag).parent.isNone (H frag).evs) := by
    split at h1
    · rename_i hob
      simp only [Out.ok.injEq, true_and] at h1
      subst h1
      exact ⟨(H new).evs, (put_id _ _).symm, fun _ _ => rfl, by rw [if_pos hob]⟩
    · rename_i hob
      simp only [setObserved, h0, Out.ok.injEq, true_and] at h1
      subst h1
      exact ⟨_, rfl, fun k hk => Dict.get?_set_ne _ _ hk.symm, by rw [if_neg hob, Dict.get?_set_self]⟩
  obtain ⟨e1, rfl, hk1, ho1⟩ := key
  have hfr : H.put new { H new with evs := e1 } frag = H frag := put_ne _ _ hne
  rw [hfr] at h2
  obtain ⟨evs, e, hev⟩ := transferLoop_free frag new hne _ _ _ hnd hpl (fun k hk => by rw [hfr]; exact hk)
    (fun k hk h3 h4 => (observable_evs H new _ _).trans (hobs k hk h3 h4)) h2
  refine ⟨evs, by rw [e, put_put, put_self], fun k hk => ?_, ?_⟩
  · rw [hev k, hfr, put_self]
    simp only [hk, ne_eq, not_false_eq_true, and_true]
    split
    · rfl
    · exact hk1 k hk
  · rw [hev]
    simp only [ne_eq, not_true_eq_false, and_false, if_false, put_self]
    exact ho1

/-- `transfer_evs`, when they cannot -/
theorem transferEvs_bound (H H' : Heap F Q) (frag new : ℕ) (h0 : observable H new .none = .ok false)
    (hobs : ∀ k ∈ (H frag).evs.keys, k ≠ .cached → k ≠ .observed → observable H new (.one k) = .ok false)
    (h : transferEvs H frag new = .ok () H') : H' = H := by
  rw [transferEvs] at h
  obtain ⟨_, H1, h1, h2⟩ := bind_ok h
  have : H1 = H := by
    split at h1
    · simp only [Out.ok.injEq, true_and] at h1; exact h1.symm
    · simp only [setObserved, h0, Out.ok.injEq, true_and] at h1; exact h1.symm
  subst this
  exact transferLoop_bound frag new _ _ _ hobs h2

/-! ### terminations -/

/-- parents of new fragments are new -/
def UpNew (N : ℕ → Prop) (H : Heap F Q) : Prop := ∀ y p, N y → (H y).parent = some p → N p

theorem top_new {N : ℕ → Prop} {H : Heap F Q} (h : UpNew N H) : ∀ n y x, N y → top H n y = .ok x → N x := by
  intro n
  induction n with
  | zero => intro y x _ ht; simp [top] at ht
  | succ n ih =>
    intro y x hy ht
    rw [top] at ht
    cases hp : (H y).parent with
    | none => rw [hp] at ht; simp only [Except.ok.injEq] at ht; subst ht; exact hy
    | some p => rw [hp] at ht; exact ih p x (h y p hy hp) ht

theorem terminateTo_ok (E : Env F Q) (fuel : ℕ) (N : ℕ → Prop) (H H' : Heap F Q) (hN : UpNew N H) (k : ℕ) (hk : N k) (key : Option Key) (t : Term F)
    (htg : ∀ j, t.target = .frag j → j = k ∨ ¬ N j) (h : terminateTo E fuel H k key t = .ok () H') :
    H' = H.put k { H k with terms := (H k).terms.set key t } := by
  unfold terminateTo at h
  simp only at h
  split at h
  · simp at h
  · have hset : ∀ (b : Bool) (x : Out (Heap F Q) Err Unit), (if b = true then Out.err Err.cacheAlreadySet H else x) = .ok () H' → x = .ok () H' := by
      intro b x h
      cases b with
      | true => simp at h
      | false => simpa using h
    · have h := hset _ _ h
      cases htt : t.target with
      | frag j =>
        rw [htt] at h
        simp only at h
        by_cases hjk : j = k
        · rw [if_pos hjk] at h
          simp only [Out.ok.injEq, true_and] at h; exact h.symm
        · rw [if_neg hjk] at h
          cases hx : top H fuel k with
          | error e => rw [hx] at h; simp at h
          | ok x =>
            rw [hx] at h
            simp only at h
            have hjx : j ≠ x := by
              rintro rfl
              rcases htg j htt with h1 | h1
              · exact hjk h1
              · exact h1 (top_new hN fuel k j hk hx)
            rw [if_neg hjx] at h
            split at h
            · simp at h
            · split at h
              · simp at h
              · simp only [Out.ok.injEq, true_and] at h; exact h.symm
      | null => rw [htt] at h; simp only [Out.ok.injEq, true_and] at h; exact h.symm
      | process => rw [htt] at h; simp only [Out.ok.injEq, true_and] at h; exact h.symm

/-- the loop over the terminations -/
theorem cloneTerms_ok (E : Env F Q) (fuel : ℕ) (N : ℕ → Prop) (f k : ℕ) (hf : ¬ N f) (hk : N k) : ∀ (l : List (Option Key × Term F)) (H H' : Heap F Q),
    UpNew N H → (l.map Prod.fst).Nodup → (∀ p ∈ l, ∀ j, p.2.target = .frag j → ¬ N j) →
    (∀ p ∈ l, p.2.target = .frag f → p.2.flow = (H k).flow ∧ p.2.descend = true ∧ (H k).bg = false) →
    cloneTerms E fuel f k l H = .ok () H' → ∃ terms, H' = H.put k { H k with terms := terms } ∧
      ∀ key, terms.get? key = match Dict.get? (l : Dict (Option Key) (Term F)) key with
        | some t => if t.isNull then (H k).terms.get? key else some (t.moved f k)
        | none => (H k).terms.get? key := by
  intro l
  induction l with
  | nil =>
    intro H H' _ _ _ _ h
    simp only [cloneTerms, Out.ok.injEq, true_and] at h
    subst h
    exact ⟨(H k).terms, (put_id _ _).symm, fun key => by simp⟩
  | cons a l ih =>
    intro H H' hN hnd htg hself h
    obtain ⟨key0, t⟩ := a
    rw [cloneTerms] at h
    obtain ⟨_, H1, h1, h2⟩ := bind_ok h
    simp only [List.map_cons, List.nodup_cons] at hnd
    have hl : ∀ key, key = key0 → Dict.get? (l : Dict (Option Key) (Term F)) key = none := by
      intro key hk'
      rw [← Dict.not_mem_keys_iff, hk']
      exact hnd.1
    have step : ∃ t1, H1 = H.put k { H k with terms := t1 } ∧ ∀ key, t1.get? key = if key = key0 ∧ t.isNull = false then some (t.moved f k) else (H k).terms.get? key := by
      rw [cloneTerm] at h1
      have hset : ∀ t' : Term F, t' = t.moved f k → t.isNull = false → ∀ key, ((H k).terms.set key0 t').get? key =
          if key = key0 ∧ t.isNull = false then some (t.moved f k) else (H k).terms.get? key := by
        intro t' ht' hn key
        rw [Dict.get?_set, ht']
        by_cases hkk : key0 = key
        · rw [if_pos hkk, if_pos ⟨hkk.symm, hn⟩]
        · rw [if_neg hkk, if_neg (fun h => hkk h.1.symm)]
      cases htt : t.target with
      | null =>
        rw [htt] at h1
        simp only [Out.ok.injEq, true_and] at h1
        subst h1
        refine ⟨(H k).terms, (put_id _ _).symm, fun key => ?_⟩
        rw [if_neg]
        rintro ⟨_, h⟩
        simp [Term.isNull, htt] at h
      | process =>
        rw [htt] at h1
        simp only at h1
        have := terminateTo_ok E fuel N H H1 hN k hk key0 t (fun j hj => by rw [htt] at hj; cases hj) h1
        exact ⟨_, this, hset t (by rw [Term.moved, htt]; simp) (by simp [Term.isNull, htt])⟩
      | frag j =>
        rw [htt] at h1
        simp only at h1
        by_cases hjf : j = f
        · subst hjf
          rw [if_pos rfl] at h1
          obtain ⟨hfl, hds, hbg⟩ := hself _ List.mem_cons_self htt
          have hput : H.put k { H k with bg := false } = H := by
            have : ({ H k with bg := false } : Node F Q) = H k := by
              conv_rhs => rw [show H k = { H k with bg := (H k).bg } from rfl, hbg]
            rw [this, put_id]
          rw [hput] at h1
          have := terminateTo_ok E fuel N H H1 hN k hk key0 _ (fun j' hj' => by simp at hj'; exact .inl hj'.symm) h1
          refine ⟨_, this, hset _ ?_ (by simp [Term.isNull, htt])⟩
          rw [Term.moved, if_pos htt]
          simp only at hfl hds
          rw [← hfl, ← hds]
        · rw [if_neg hjf] at h1
          have := terminateTo_ok E fuel N H H1 hN k hk key0 t (fun j' hj' => .inr (htg _ List.mem_cons_self j' hj')) h1
          refine ⟨_, this, hset t ?_ (by simp [Term.isNull, htt])⟩
          rw [Term.moved, htt, if_neg (by simp [hjf])]
    obtain ⟨t1, rfl, ht1⟩ := step
    have hN1 : UpNew N (H.put k { H k with terms := t1 }) := by
      intro y p hy hp
      refine hN y p hy ?_
      by_cases hyk : y = k
      · subst hyk; rw [put_self] at hp; exact hp
      · rw [put_ne _ _ hyk] at hp; exact hp
    obtain ⟨terms, e, hterms⟩ := ih _ H' hN1 hnd.2 (fun p hp => htg p (List.mem_cons_of_mem _ hp))
      (fun p hp h => by rw [put_self]; exact hself p (List.mem_cons_of_mem _ hp) h) h2
    refine ⟨terms, by rw [e, put_put, put_self], fun key => ?_⟩
    rw [hterms key, put_self]
    simp only [Dict.get?]
    by_cases hkk : key0 = key
    · rw [hl key hkk.symm, if_pos hkk]
      simp only
      rw [ht1]
      cases hn : t.isNull with
      | true => simp
      | false => simp [hkk]
    · rw [if_neg hkk]
      have : t1.get? key = (H k).terms.get? key := by rw [ht1, if_neg (fun h => hkk h.1.symm)]
      rw [this]

end Frg
