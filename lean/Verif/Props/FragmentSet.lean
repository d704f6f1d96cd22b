import Verif.Model.FragmentSet
import Verif.Props.FragmentObserve2
import Verif.Props.FragmentCloneLemmas

/-!
C128: setting the exchange values of child flows from an inventory.
-/

namespace Frg

variable {F Q R : Type} [DecidableEq F] [DecidableEq Q] [DecidableEq R]

/-! ### specification -/

/-- a child flow and an exchange are of the same flow and direction -/
def Fits (H : Heap F Q) (ref : F → R) (c : ℕ) (x : Exch R) : Prop := ref (H c).flow = x.flow ∧ (H c).dir = x.dir

/-- a child flow leads where the exchange leads: both nowhere, or to the same thing -/
def Leads (H : Heap F Q) (sc : Scen) (pid : ℕ → Term F → R) (c : ℕ) (x : Exch R) : Prop :=
  ∃ t, termOf (H c) sc = .ok t ∧ (t.target = .null ∧ x.term = none ∨ t.target ≠ .null ∧ x.term = some (pid c t))

/-- the exchange is meant for child c of f: no other child fits it, or c is the first that leads where the exchange does -/
def Meant (H : Heap F Q) (sc : Scen) (ref : F → R) (pid : ℕ → Term F → R) (f c : ℕ) (x : Exch R) : Prop :=
  c ∈ (H f).kids ∧ Fits H ref c x ∧
    ((∀ c' ∈ (H f).kids, Fits H ref c' x → c' = c) ∨
      Leads H sc pid c x ∧ ∀ c' ∈ (H f).kids, c' < c → Fits H ref c' x → ¬Leads H sc pid c' x)

/-- which entry of the table of exchange values is set -/
def setKey : Scen → Bool → Option Key
  | .none, false => some .observed
  | .none, true => some .cached
  | .one (.str "0"), _ => some .cached
  | .one (.str "1"), _ => some .observed
  | .one (.str s), _ => some (.str s)
  | .one .cached, _ => some .cached
  | .one .observed, _ => some .observed
  | .one (.tup _), _ => none
  | .many _, _ => none

/-- after the call, the entry K of child c is the value of the last exchange meant for it that has one, if there is one -/
def TakenFrom (H H' : Heap F Q) (sc : Scen) (ref : F → R) (pid : ℕ → Term F → R) (inv : List (Exch R)) (f c : ℕ) (K : Key) : Prop :=
  (∃ pre x post v, inv = pre ++ x :: post ∧ x.value = some v ∧ Meant H sc ref pid f c x ∧
      (∀ y ∈ post, Meant H sc ref pid f c y → y.value = none) ∧ (H' c).evs.get? K = some (some v)) ∨
  (∀ y ∈ inv, Meant H sc ref pid f c y → y.value = none) ∧ (H' c).evs.get? K = (H c).evs.get? K

/-- nothing but exchange values is different -/
def EvOnly (H H' : Heap F Q) : Prop := ∀ i, H' i = { H i with evs := (H' i).evs }

/-! ### lemmas -/

theorem EvOnly.refl (H : Heap F Q) : EvOnly H H := fun _ => rfl
theorem EvOnly.trans {H H1 H2 : Heap F Q} (h1 : EvOnly H H1) (h2 : EvOnly H1 H2) : EvOnly H H2 := by
  intro i
  have a := h1 i
  have b := h2 i
  rw [b, a]
theorem EvOnly.flow {H H' : Heap F Q} (h : EvOnly H H') (i : ℕ) : (H' i).flow = (H i).flow := by rw [h i]
theorem EvOnly.dir {H H' : Heap F Q} (h : EvOnly H H') (i : ℕ) : (H' i).dir = (H i).dir := by rw [h i]
theorem EvOnly.parent {H H' : Heap F Q} (h : EvOnly H H') (i : ℕ) : (H' i).parent = (H i).parent := by rw [h i]
theorem EvOnly.kids {H H' : Heap F Q} (h : EvOnly H H') (i : ℕ) : (H' i).kids = (H i).kids := by rw [h i]
theorem EvOnly.terms {H H' : Heap F Q} (h : EvOnly H H') (i : ℕ) : (H' i).terms = (H i).terms := by rw [h i]
theorem EvOnly.bg {H H' : Heap F Q} (h : EvOnly H H') (i : ℕ) : (H' i).bg = (H i).bg := by rw [h i]
theorem EvOnly.bal {H H' : Heap F Q} (h : EvOnly H H') (i : ℕ) : (H' i).bal = (H i).bal := by rw [h i]

theorem EvOnly.put (H : Heap F Q) (i : ℕ) (k : Key) (v : Option ℚ) : EvOnly H (putEv H i k v) := by
  intro j
  unfold putEv
  by_cases h : j = i
  · subst h; rw [put_self]
  · rw [put_ne _ _ h]

theorem pickTerm_spec (H : Heap F Q) (sc : Scen) (pid : ℕ → Term F → R) (x : Exch R) : ∀ (cs : List ℕ), cs.Pairwise (· < ·) →
    (∀ c ∈ cs, ∃ t, termOf (H c) sc = .ok t) →
    ∃ o, pickTerm H sc pid x.term cs = .ok o ∧
      ∀ c, o = some c ↔ c ∈ cs ∧ Leads H sc pid c x ∧ ∀ c' ∈ cs, c' < c → ¬Leads H sc pid c' x := by
  intro cs
  induction cs with
  | nil => intro _ _; exact ⟨none, rfl, by simp⟩
  | cons a cs ih =>
    intro hs ht
    obtain ⟨t, hta⟩ := ht a (by simp)
    rw [List.pairwise_cons] at hs
    have hl : Leads H sc pid a x ↔ termId pid a t = x.term := by
      unfold Leads termId Term.isNull
      rw [hta]
      constructor
      · rintro ⟨t', h, h'⟩
        cases h
        rcases h' with ⟨h1, h2⟩ | ⟨h1, h2⟩
        · rw [h1, h2]; rfl
        · cases hc : t.target with
          | null => exact absurd hc h1
          | process => rw [h2]; rfl
          | frag _ => rw [h2]; rfl
      · intro h
        refine ⟨t, rfl, ?_⟩
        cases hc : t.target with
        | null => rw [hc] at h; exact .inl ⟨rfl, h.symm⟩
        | process => rw [hc] at h; exact .inr ⟨by simp, h.symm⟩
        | frag _ => rw [hc] at h; exact .inr ⟨by simp, h.symm⟩
    rw [pickTerm, hta]
    simp only
    by_cases hq : termId pid a t = x.term
    · rw [if_pos hq]
      refine ⟨some a, rfl, fun c => ?_⟩
      constructor
      · intro h
        cases h
        refine ⟨by simp, hl.2 hq, fun c' hc' hlt => ?_⟩
        rcases List.mem_cons.1 hc' with rfl | h
        · exact absurd hlt (lt_irrefl _)
        · exact absurd hlt (not_lt.2 (le_of_lt (hs.1 _ h)))
      · rintro ⟨hc, _, hmin⟩
        rcases List.mem_cons.1 hc with rfl | h
        · rfl
        · exact absurd (hl.2 hq) (hmin a (by simp) (hs.1 _ h))
    · rw [if_neg hq]
      obtain ⟨o, ho, hspec⟩ := ih hs.2 (fun c hc => ht c (by simp [hc]))
      refine ⟨o, ho, fun c => ?_⟩
      rw [hspec c]
      constructor
      · rintro ⟨h1, h2, h3⟩
        refine ⟨by simp [h1], h2, fun c' hc' hlt => ?_⟩
        rcases List.mem_cons.1 hc' with rfl | h
        · exact fun hh => hq (hl.1 hh)
        · exact h3 c' h hlt
      · rintro ⟨h1, h2, h3⟩
        rcases List.mem_cons.1 h1 with rfl | h
        · exact absurd (hl.1 h2) hq
        · exact ⟨h, h2, fun c' hc' => h3 c' (by simp [hc'])⟩

theorem children_pairwise (n : Node F Q) (hn : n.kids.Nodup) : (children n).Pairwise (· < ·) := by
  have h1 : (children n).Pairwise (· ≤ ·) := List.pairwise_insertionSort _ _
  have h2 : (children n).Nodup := (List.perm_insertionSort _ _).nodup_iff.2 hn
  exact (h1.and h2).imp fun h => lt_of_le_of_ne h.1 h.2

/-- which child is picked for an exchange -/
theorem pickChild_spec (H : Heap F Q) (sc : Scen) (ref : F → R) (pid : ℕ → Term F → R) (f : ℕ) (hn : (H f).kids.Nodup)
    (ht : ∀ c ∈ (H f).kids, ∃ t, termOf (H c) sc = .ok t) (x : Exch R) :
    ∃ o, pickChild H sc ref pid (children (H f)) x = .ok o ∧ ∀ c, o = some c ↔ Meant H sc ref pid f c x := by
  unfold pickChild
  simp only
  generalize hcs : (children (H f)).filter (fun c => decide (ref (H c).flow = x.flow ∧ (H c).dir = x.dir)) = cs
  have hmem : ∀ c, c ∈ cs ↔ c ∈ (H f).kids ∧ Fits H ref c x := by
    intro c; rw [← hcs, List.mem_filter, mem_children, decide_eq_true_eq]; rfl
  have hpw : cs.Pairwise (· < ·) := by rw [← hcs]; exact (children_pairwise _ hn).filter _
  by_cases hlen : 1 < cs.length
  · rw [if_pos hlen]
    obtain ⟨o, ho, hs⟩ := pickTerm_spec H sc pid x cs hpw (fun c hc => ht c ((hmem c).1 hc).1)
    refine ⟨o, ho, fun c => ?_⟩
    rw [hs c]
    constructor
    · rintro ⟨h1, h2, h3⟩
      obtain ⟨h4, h5⟩ := (hmem c).1 h1
      exact ⟨h4, h5, .inr ⟨h2, fun c' hc' hlt hf => h3 c' ((hmem c').2 ⟨hc', hf⟩) hlt⟩⟩
    · rintro ⟨h1, h2, h3⟩
      refine ⟨(hmem c).2 ⟨h1, h2⟩, ?_⟩
      rcases h3 with h3 | ⟨h3, h4⟩
      · exfalso
        match cs, hlen, hpw, hmem with
        | a :: b :: _, _, hpw, hmem =>
          have ha := h3 a ((hmem a).1 (by simp)).1 ((hmem a).1 (by simp)).2
          have hb := h3 b ((hmem b).1 (by simp)).1 ((hmem b).1 (by simp)).2
          have := (List.pairwise_cons.1 hpw).1 b (by simp)
          omega
      · exact ⟨h3, fun c' hc' hlt => h4 c' ((hmem c').1 hc').1 hlt ((hmem c').1 hc').2⟩
  · rw [if_neg hlen]
    refine ⟨_, rfl, fun c => ?_⟩
    match cs, hlen, hmem with
    | [], _, hmem =>
      simp only [List.head?_nil, reduceCtorEq, false_iff]
      rintro ⟨h1, h2, _⟩
      exact absurd ((hmem c).2 ⟨h1, h2⟩) (by simp)
    | [a], _, hmem =>
      simp only [List.head?_cons, Option.some.injEq]
      constructor
      · rintro rfl
        obtain ⟨h1, h2⟩ := (hmem a).1 (by simp)
        exact ⟨h1, h2, .inl fun c' h h' => by simpa using (hmem c').2 ⟨h, h'⟩⟩
      · rintro ⟨h1, h2, _⟩
        exact (by simpa using (hmem c).2 ⟨h1, h2⟩ : c = a).symm
    | a :: b :: _, h, _ => simp at h

theorem pickTerm_congr {H H' : Heap F Q} (he : EvOnly H H') (sc : Scen) (pid : ℕ → Term F → R) (x : Option R) (cs : List ℕ) :
    pickTerm H' sc pid x cs = pickTerm H sc pid x cs := by
  induction cs with
  | nil => rfl
  | cons c cs ih => rw [pickTerm, pickTerm, termOf_congr _ _ (he.terms c), ih]

theorem pickChild_congr {H H' : Heap F Q} (he : EvOnly H H') (sc : Scen) (ref : F → R) (pid : ℕ → Term F → R) (kids : List ℕ) (x : Exch R) :
    pickChild H' sc ref pid kids x = pickChild H sc ref pid kids x := by
  unfold pickChild
  simp only [he.flow, he.dir, pickTerm_congr he]

theorem set_set' {K V : Type} [DecidableEq K] (d : Dict K V) (k : K) (v w : V) : (d.set k v).set k w = d.set k w := by
  induction d with
  | nil => simp [Dict.set]
  | cons a d ih =>
    obtain ⟨k', v'⟩ := a
    by_cases h : k' = k
    · simp [Dict.set, h]
    · simp [Dict.set, h, ih]

theorem putEv_putEv (H : Heap F Q) (i : ℕ) (k : Key) (v w : Option ℚ) : putEv (putEv H i k v) i k w = putEv H i k w := by
  unfold putEv
  rw [put_self, put_put, set_set']

theorem observable_kid (H : Heap F Q) (sc : Scen) (f c : ℕ) (t : Term F) (hp : (H c).parent = some f) (hb : (H c).bal = false)
    (ht : termOf (H f) sc = .ok t) (htt : t.target = .process) : observable H c sc = .ok true := by
  simp [observable, hp, hb, ht, isSubfrag, htt, Except.map]

theorem observable_bal (H : Heap F Q) (sc : Scen) (f c : ℕ) (hp : (H c).parent = some f) (hb : (H c).bal = true) :
    observable H c sc = .ok false := by
  simp [observable, hp, hb]

theorem termOf_cached (n : Node F Q) : termOf n (.one .cached) = termOf n .none := by
  simp [termOf]

/-- setting the value of a child that is not a balance flow -/
theorem setChild_ok (H : Heap F Q) (sc : Scen) (reset : Bool) (K : Key) (hK : setKey sc reset = some K) (f c : ℕ) (t : Term F)
    (hp : (H c).parent = some f) (hb : (H c).bal = false) (ht : termOf (H f) sc = .ok t) (htt : t.target = .process) (v : ℚ) :
    setChild H sc reset c v = .ok () (putEv H c K (some v)) := by
  unfold setChild
  cases sc with
  | none =>
    cases reset with
    | false =>
      cases hK
      simp only [Bool.false_eq_true, if_false]
      rw [setObserved, observable_kid H .none f c t hp hb ht htt]
    | true =>
      cases hK
      simp only [if_true]
      have hc : cachedEv (resetCache H c c).evs = 1 := by
        rw [resetCache, putEv, put_self]; simp [cachedEv, Dict.get?_set_self]
      have he : EvOnly H (resetCache H c) := EvOnly.put _ _ _ _
      rw [setCached, if_neg (not_not.2 hc)]
      by_cases h1 : v = 1
      · rw [if_pos (by rw [h1]), h1]; rfl
      · rw [if_neg (by simpa using h1), setEv]
        have : observable (resetCache H c) c (.one .cached) = .ok true := by
          refine observable_kid _ _ f c t ?_ ?_ ?_ htt
          · rw [he.parent]; exact hp
          · rw [he.bal]; exact hb
          · rw [termOf_cached, termOf_congr _ _ (he.terms f)]; exact ht
        rw [this]
        simp only [singleKey, evKey]
        rw [resetCache, putEv_putEv]
  | one k =>
    simp only
    rw [setEv, observable_kid H _ f c t hp hb ht htt]
    have : singleKey (.one k) = .ok K := by
      cases k with
      | cached => cases hK; rfl
      | observed => cases hK; rfl
      | tup l => simp [setKey] at hK
      | str s =>
        simp only [singleKey]
        congr 1
        unfold setKey at hK
        unfold evKey
        by_cases h0 : s = "0"
        · subst h0; simpa using hK
        · by_cases h1 : s = "1"
          · subst h1; simpa using hK
          · simpa [h0, h1] using hK
    rw [this]
  | many l => simp [setKey] at hK

theorem setChild_bal (H : Heap F Q) (f c : ℕ) (hp : (H c).parent = some f) (hb : (H c).bal = true) (v : ℚ) :
    setChild H .none false c v = .ok () H := by
  simp only [setChild, Bool.false_eq_true, if_false]
  rw [setObserved, observable_bal H .none f c hp hb]

/-- what the loop does to H1, as it finds the fragments in H -/
def LoopDone (H : Heap F Q) (sc : Scen) (ref : F → R) (pid : ℕ → Term F → R) (K : Key) (f : ℕ) (inv : List (Exch R)) (H1 H' : Heap F Q) : Prop :=
  EvOnly H1 H' ∧ (∀ i, i ∉ (H f).kids → H' i = H1 i) ∧
    ∀ c ∈ (H f).kids, (∀ k, k ≠ K → (H' c).evs.get? k = (H1 c).evs.get? k) ∧ ((H c).bal = true → H' c = H1 c) ∧
      ((H c).bal = false →
        (∃ pre x post v, inv = pre ++ x :: post ∧ x.value = some v ∧ Meant H sc ref pid f c x ∧
          (∀ y ∈ post, Meant H sc ref pid f c y → y.value = none) ∧ (H' c).evs.get? K = some (some v)) ∨
        (∀ y ∈ inv, Meant H sc ref pid f c y → y.value = none) ∧ (H' c).evs.get? K = (H1 c).evs.get? K)

theorem setLoop_spec (H : Heap F Q) (sc : Scen) (reset : Bool) (ref : F → R) (pid : ℕ → Term F → R) (K : Key) (hK : setKey sc reset = some K)
    (f : ℕ) (t : Term F) (ht : termOf (H f) sc = .ok t) (htt : t.target = .process) (hn : (H f).kids.Nodup)
    (hk : ∀ c ∈ (H f).kids, (H c).parent = some f ∧ ∃ t, termOf (H c) sc = .ok t) : ∀ (inv : List (Exch R)) (H1 : Heap F Q), EvOnly H H1 →
    (sc = .none ∧ reset = false ∨ ∀ c x, x ∈ inv → Meant H sc ref pid f c x → (H c).bal = false) →
    ∃ H', setLoop sc reset ref pid (children (H f)) inv H1 = .ok () H' ∧ LoopDone H sc ref pid K f inv H1 H' := by
  intro inv
  induction inv with
  | nil =>
    intro H1 he _
    exact ⟨H1, rfl, EvOnly.refl _, fun _ _ => rfl, fun c _ => ⟨fun _ _ => rfl, fun _ => rfl, fun _ => .inr ⟨by simp, rfl⟩⟩⟩
  | cons x xs ih =>
    intro H1 he hb
    have hb' : sc = .none ∧ reset = false ∨ ∀ c x, x ∈ xs → Meant H sc ref pid f c x → (H c).bal = false :=
      hb.imp id fun h c y hy => h c y (by simp [hy])
    -- an exchange that changes nothing
    have skip : (∀ c, (H c).bal = false → Meant H sc ref pid f c x → x.value = none) →
        setLoop sc reset ref pid (children (H f)) (x :: xs) H1 = setLoop sc reset ref pid (children (H f)) xs H1 →
        ∃ H', setLoop sc reset ref pid (children (H f)) (x :: xs) H1 = .ok () H' ∧ LoopDone H sc ref pid K f (x :: xs) H1 H' := by
      intro hx heq
      obtain ⟨H', h1, h2, h3, h4⟩ := ih H1 he hb'
      refine ⟨H', heq.trans h1, h2, h3, fun c hc => ⟨(h4 c hc).1, (h4 c hc).2.1, fun hbc => ?_⟩⟩
      rcases (h4 c hc).2.2 hbc with ⟨pre, y, post, v, rfl, e2, e3, e4, e5⟩ | ⟨e1, e2⟩
      · exact .inl ⟨x :: pre, y, post, v, rfl, e2, e3, e4, e5⟩
      · refine .inr ⟨fun y hy => ?_, e2⟩
        rcases List.mem_cons.1 hy with rfl | hy
        · exact hx c hbc
        · exact e1 y hy
    cases hv : x.value with
    | none => exact skip (fun _ _ _ => hv) (by rw [setLoop, hv])
    | some v =>
      obtain ⟨o, ho, hs⟩ := pickChild_spec H sc ref pid f hn (fun c hc => (hk c hc).2) x
      have ho' : pickChild H1 sc ref pid (children (H f)) x = .ok o := by rw [pickChild_congr he, ho]
      cases o with
      | none =>
        refine skip (fun c _ hm => absurd ((hs c).2 hm) (by simp)) (by rw [setLoop, hv]; simp only [ho'])
      | some c =>
        have hm : Meant H sc ref pid f c x := (hs c).1 rfl
        have hc := hm.1
        have hp1 : (H1 c).parent = some f := by rw [he.parent]; exact (hk c hc).1
        have ht1 : termOf (H1 f) sc = .ok t := by rw [termOf_congr _ _ (he.terms f)]; exact ht
        cases hbc : (H c).bal with
        | true =>
          rcases hb with ⟨rfl, rfl⟩ | hb
          · refine skip (fun c' hb' hm' => ?_) (by
              rw [setLoop, hv]; simp only [ho']; rw [setChild_bal H1 f c hp1 (by rw [he.bal]; exact hbc)]; rfl)
            have : some c = some c' := (hs c').2 hm'
            cases this
            rw [hbc] at hb'
            cases hb'
          · exact absurd (hb c x (by simp) hm) (by simp [hbc])
        | false =>
          have hstep := setChild_ok H1 sc reset K hK f c t hp1 (by rw [he.bal]; exact hbc) ht1 htt v
          obtain ⟨H', h1, h2, h3, h4⟩ := ih (putEv H1 c K (some v)) (he.trans (EvOnly.put _ _ _ _)) hb'
          have hother : ∀ i, i ≠ c → putEv H1 c K (some v) i = H1 i := fun i hi => put_ne _ _ hi
          have hself : (putEv H1 c K (some v) c).evs = (H1 c).evs.set K (some v) := by rw [putEv, put_self]
          refine ⟨H', ?_, (EvOnly.put _ _ _ _).trans h2, fun i hi => ?_, fun d hd => ⟨fun k hkK => ?_, fun hbd => ?_, fun hbd => ?_⟩⟩
          · rw [setLoop, hv]; simp only [ho']; rw [hstep]; exact h1
          · rw [h3 i hi, hother i (fun h => hi (h ▸ hc))]
          · rw [(h4 d hd).1 k hkK]
            by_cases hdc : d = c
            · subst hdc; rw [hself, Dict.get?_set_ne _ _ (Ne.symm hkK)]
            · rw [hother d hdc]
          · rw [(h4 d hd).2.1 hbd, hother d (fun h => by subst h; rw [hbc] at hbd; cases hbd)]
          · rcases (h4 d hd).2.2 hbd with ⟨pre, y, post, w, rfl, e2, e3, e4, e5⟩ | ⟨e1, e2⟩
            · exact .inl ⟨x :: pre, y, post, w, rfl, e2, e3, e4, e5⟩
            · by_cases hdc : d = c
              · subst hdc
                refine .inl ⟨[], x, xs, v, rfl, hv, hm, e1, ?_⟩
                rw [e2, hself, Dict.get?_set_self]
              · refine .inr ⟨fun y hy hmy => ?_, by rw [e2, hother d hdc]⟩
                rcases List.mem_cons.1 hy with rfl | hy
                · have : some c = some d := (hs d).2 hmy
                  cases this
                  exact absurd rfl hdc
                · exact e1 y hy hmy

/-! ### C128 -/

/-- Called on a fragment whose child flows are its own and which is terminated to a process, it succeeds in the default scenario, and also in
a named one or resetting the cache if no exchange is meant for a balance flow. Then every child flow has the value of the (last) exchange meant
for it; the other values, all else of the fragments, balance flows and other fragments are as before. A reference flow not yet observed is
observed. -/
theorem set_child_exchanges_sets (H : Heap F Q) (sc : Scen) (reset : Bool) (ref : F → R) (pid : ℕ → Term F → R) (inv : List (Exch R))
    (K : Key) (hK : setKey sc reset = some K) (f : ℕ) (t : Term F) (ht : termOf (H f) sc = .ok t) (htt : t.target = .process)
    (hn : (H f).kids.Nodup) (hk : ∀ c ∈ (H f).kids, c ≠ f ∧ (H c).parent = some f ∧ ∃ t, termOf (H c) sc = .ok t)
    (hb : sc = .none ∧ reset = false ∨ ∀ c x, x ∈ inv → Meant H sc ref pid f c x → (H c).bal = false) :
    ∃ H', setChildExchanges H sc reset ref pid inv f = .ok () H' ∧ EvOnly H H' ∧
      (∀ c ∈ (H f).kids, (H c).bal = false → TakenFrom H H' sc ref pid inv f c K ∧ ∀ k, k ≠ K → (H' c).evs.get? k = (H c).evs.get? k) ∧
      (∀ c ∈ (H f).kids, (H c).bal = true → H' c = H c) ∧
      (∀ i, i ∉ (H f).kids → i ≠ f → H' i = H i) ∧
      ((H f).parent = none → (H f).evs.get? .observed = some (some 0) → (∃ q, (H f).evs.get? .cached = some (some q)) →
        sc = .none → exchangeValue (H' f) .none true = .ok (cachedEv (H f).evs)) ∧
      (¬(sc = .none ∧ (H f).parent = none) → H' f = H f) ∧
      ∀ k, k ≠ .observed → (H' f).evs.get? k = (H f).evs.get? k := by
  obtain ⟨H1, he, ho, hkk, hobs, hnr, heq⟩ : ∃ H1, EvOnly H H1 ∧ (∀ i, i ≠ f → H1 i = H i) ∧
      (∀ k, k ≠ .observed → (H1 f).evs.get? k = (H f).evs.get? k) ∧
      ((H f).parent = none → (H f).evs.get? .observed = some (some 0) → (∃ q, (H f).evs.get? .cached = some (some q)) →
        sc = .none → exchangeValue (H1 f) .none true = .ok (cachedEv (H f).evs)) ∧
      (¬(sc = .none ∧ (H f).parent = none) → H1 f = H f) ∧
      setChildExchanges H sc reset ref pid inv f = setLoop sc reset ref pid (children (H f)) inv H1 := by
    by_cases hc : sc = .none ∧ (H f).parent = none ∧ observedEv true (H f).evs = some 0
    · refine ⟨putEv H f .observed (some (cachedEv (H f).evs)), EvOnly.put _ _ _ _, fun i hi => put_ne _ _ hi, ?_, ?_, ?_, ?_⟩
      · intro k hkk
        rw [putEv, put_self]
        exact Dict.get?_set_ne _ _ (Ne.symm hkk)
      · intro _ _ _ _
        have hne : cachedEv (H f).evs ≠ 0 := cachedEv_ne _
        rw [putEv, put_self]
        simp [exchangeValue, matchEv, observedEv, Dict.get?_set_self, hne]
      · intro h; exact absurd ⟨hc.1, hc.2.1⟩ h
      · rw [setChildExchanges, ht]
        simp only [htt]
        rw [if_pos hc, setObserved]
        simp [observable, hc.2.1, Out.bind]
    · refine ⟨H, EvOnly.refl _, fun _ _ => rfl, fun _ _ => rfl, ?_, fun _ => rfl, ?_⟩
      · rintro h1 h2 ⟨q, h3⟩ h4
        have hq : q ≠ 0 := by
          rintro rfl
          exact hc ⟨h4, h1, by simp [observedEv, h2, h3]⟩
        simp [exchangeValue, matchEv, observedEv, cachedEv, h1, h2, h3, hq]
      · rw [setChildExchanges, ht]
        simp only [htt]
        rw [if_neg hc]
        rfl
  obtain ⟨H', h1, h2, h3, h4⟩ := setLoop_spec H sc reset ref pid K hK f t ht htt hn (fun c hc => (hk c hc).2) inv H1 he hb
  have hff : H' f = H1 f := h3 f (fun h => (hk f h).1 rfl)
  refine ⟨H', heq.trans h1, he.trans h2, fun c hc hbc => ?_, fun c hc hbc => ?_, fun i hi hif => ?_, ?_, ?_, ?_⟩
  · have hc1 : H1 c = H c := ho c (hk c hc).1
    refine ⟨?_, fun k hkK => by rw [(h4 c hc).1 k hkK, hc1]⟩
    rcases (h4 c hc).2.2 hbc with h | ⟨e1, e2⟩
    · exact .inl h
    · exact .inr ⟨e1, by rw [e2, hc1]⟩
  · rw [(h4 c hc).2.1 hbc, ho c (hk c hc).1]
  · rw [h3 i hi, ho i hif]
  · rw [hff]; exact hobs
  · rw [hff]; exact hnr
  · rw [hff]; exact hkk

/-- the values set are the ones used: observed in the default scenario, in a named scenario, or cached (zero is then read as one) -/
theorem set_child_exchanges_used (H : Heap F Q) (c : ℕ) (v : ℚ) (hp : (H c).parent ≠ none) :
    ((H c).evs.get? .observed = some (some v) → exchangeValue (H c) .none true = .ok v) ∧
    (∀ k, (H c).evs.get? k = some (some v) → ∀ obs, exchangeValue (H c) (.one k) obs = .ok v) ∧
    ((H c).evs.get? .cached = some (some v) → exchangeValue (H c) .none false = .ok (if v = 0 then 1 else v)) := by
  have hr : (H c).parent.isNone = false := by cases h : (H c).parent <;> simp_all
  refine ⟨fun h => ?_, fun k h obs => ?_, fun h => ?_⟩
  · simp [exchangeValue, matchEv, observedEv, h, hr]
  · have hh : (H c).evs.has k = true := by simp [Dict.has, h]
    simp [exchangeValue, matchEv, hh, h]
  · simp [exchangeValue, matchEv, cachedEv, h]

/-- A fragment not terminated to a process is refused, nothing changes. -/
theorem set_child_exchanges_refuses (H : Heap F Q) (sc : Scen) (reset : Bool) (ref : F → R) (pid : ℕ → Term F → R) (inv : List (Exch R)) (f : ℕ)
    (t : Term F) (ht : termOf (H f) sc = .ok t) :
    ((∃ j, t.target = .frag j) → setChildExchanges H sc reset ref pid inv f = .err .dependentFragment H) ∧
    (t.target = .null → setChildExchanges H sc reset ref pid inv f = .err .attributeError H) := by
  constructor
  · rintro ⟨j, h⟩; rw [setChildExchanges, ht]; simp only [h]
  · intro h; rw [setChildExchanges, ht]; simp only [h]

/-- An exchange meant for a balance flow stops the call, in a named scenario or when resetting the cache to another value than 1: it raises
DependentFragment. The values of the exchanges before it have been set, those after it are not. -/
theorem set_child_exchanges_balance_raises (H : Heap F Q) (sc : Scen) (reset : Bool) (ref : F → R) (pid : ℕ → Term F → R) (K : Key)
    (hK : setKey sc reset = some K) (f : ℕ) (t : Term F) (ht : termOf (H f) sc = .ok t) (htt : t.target = .process)
    (hn : (H f).kids.Nodup) (hk : ∀ c ∈ (H f).kids, c ≠ f ∧ (H c).parent = some f ∧ ∃ t, termOf (H c) sc = .ok t)
    (pre post : List (Exch R)) (x : Exch R) (v : ℚ) (b : ℕ) (hv : x.value = some v) (hm : Meant H sc ref pid f b x) (hbb : (H b).bal = true)
    (hpre : ∀ c y, y ∈ pre → Meant H sc ref pid f c y → (H c).bal = false)
    (hs : sc ≠ .none ∨ sc = .none ∧ reset = true ∧ v ≠ 1) :
    ∃ H', setChildExchanges H sc reset ref pid (pre ++ x :: post) f = .err .dependentFragment H' ∧
      ∀ c ∈ (H f).kids, (H c).bal = false → TakenFrom H H' sc ref pid pre f c K := by
  obtain ⟨H1, he, ho, heq⟩ : ∃ H1, EvOnly H H1 ∧ (∀ i, i ≠ f → H1 i = H i) ∧
      setChildExchanges H sc reset ref pid (pre ++ x :: post) f = setLoop sc reset ref pid (children (H f)) (pre ++ x :: post) H1 := by
    by_cases hc : sc = .none ∧ (H f).parent = none ∧ observedEv true (H f).evs = some 0
    · refine ⟨putEv H f .observed (some (cachedEv (H f).evs)), EvOnly.put _ _ _ _, fun i hi => put_ne _ _ hi, ?_⟩
      rw [setChildExchanges, ht]
      simp only [htt]
      rw [if_pos hc, setObserved]
      simp [observable, hc.2.1, Out.bind]
    · refine ⟨H, EvOnly.refl _, fun _ _ => rfl, ?_⟩
      rw [setChildExchanges, ht]
      simp only [htt]
      rw [if_neg hc]
      rfl
  have happ : ∀ (l : List (Exch R)) (r : List (Exch R)) (G G' : Heap F Q), setLoop sc reset ref pid (children (H f)) l G = .ok () G' →
      setLoop sc reset ref pid (children (H f)) (l ++ r) G = setLoop sc reset ref pid (children (H f)) r G' := by
    intro l r
    induction l with
    | nil => intro G G' h; simp only [setLoop, Out.ok.injEq, true_and] at h; rw [List.nil_append, h]
    | cons y ys ih =>
      intro G G' h
      rw [List.cons_append, setLoop]
      rw [setLoop] at h
      cases hy : y.value with
      | none => rw [hy] at h; exact ih G G' h
      | some w =>
        rw [hy] at h
        simp only at h ⊢
        cases hp : pickChild G sc ref pid (children (H f)) y with
        | error e => rw [hp] at h; cases h
        | ok o =>
          rw [hp] at h
          cases o with
          | none => exact ih G G' h
          | some c =>
            simp only at h ⊢
            cases hsc : setChild G sc reset c w with
            | err e G1 => rw [hsc] at h; cases h
            | ok u G1 => rw [hsc] at h; exact ih G1 G' h
  obtain ⟨H2, h1, h2, h3, h4⟩ := setLoop_spec H sc reset ref pid K hK f t ht htt hn (fun c hc => (hk c hc).2) pre H1 he (.inr hpre)
  have he2 : EvOnly H H2 := he.trans h2
  obtain ⟨o, ho2, hs2⟩ := pickChild_spec H sc ref pid f hn (fun c hc => (hk c hc).2.2) x
  have hob : o = some b := (hs2 b).2 hm
  have ho3 : pickChild H2 sc ref pid (children (H f)) x = .ok (some b) := by rw [pickChild_congr he2, ho2, hob]
  have hpb : (H2 b).parent = some f := by rw [he2.parent]; exact (hk b hm.1).2.1
  have hb2 : (H2 b).bal = true := by rw [he2.bal]; exact hbb
  have hval : ∀ c ∈ (H f).kids, (H c).bal = false → TakenFrom H H2 sc ref pid pre f c K := by
    intro c hc hbc
    rcases (h4 c hc).2.2 hbc with h | ⟨e1, e2⟩
    · exact .inl h
    · exact .inr ⟨e1, by rw [e2, ho c (hk c hc).1]⟩
  obtain ⟨H3, hset, hsame⟩ : ∃ H3, setChild H2 sc reset b v = .err .dependentFragment H3 ∧ ∀ i, i ≠ b → H3 i = H2 i := by
    rcases hs with hs | ⟨rfl, rfl, hv1⟩
    · refine ⟨H2, ?_, fun _ _ => rfl⟩
      cases sc with
      | none => exact absurd rfl hs
      | one k => simp only [setChild]; rw [setEv, observable_bal H2 _ f b hpb hb2]
      | many l => simp [setKey] at hK
    · refine ⟨resetCache H2 b, ?_, fun i hi => put_ne _ _ hi⟩
      have he3 : EvOnly H2 (resetCache H2 b) := EvOnly.put _ _ _ _
      have hc : cachedEv (resetCache H2 b b).evs = 1 := by
        rw [resetCache, putEv, put_self]; simp [cachedEv, Dict.get?_set_self]
      simp only [setChild, if_true]
      rw [setCached, if_neg (not_not.2 hc), if_neg (by simpa using hv1), setEv,
        observable_bal _ _ f b (by rw [he3.parent]; exact hpb) (by rw [he3.bal]; exact hb2)]
  refine ⟨H3, ?_, fun c hc hbc => ?_⟩
  · rw [heq, happ pre _ H1 H2 h1, setLoop, hv]
    simp only [ho3]
    rw [hset]
    rfl
  · have hcb : c ≠ b := by rintro rfl; rw [hbb] at hbc; cases hbc
    unfold TakenFrom
    rw [hsame c hcb]
    exact hval c hc hbc

/-! ### concrete cases -/

/-- fragment 0 is terminated to a process; its children 1 and 2 are of the same flow, 2 is terminated to a process; 3 is a balance flow -/
def scH : Heap ℕ ℕ
  | 0 => { kids := [2, 1, 3], flow := 0, dir := .output, evs := [(.cached, some 2), (.observed, some 0)],
           terms := [(none, { target := .process, flow := 0 })], cons := some 1 }
  | 1 => { parent := some 0, flow := 1, dir := .input, evs := newEvs, terms := [(none, nullT 1)] }
  | 2 => { parent := some 0, flow := 1, dir := .input, evs := newEvs, terms := [(none, { target := .process, flow := 1 })] }
  | 3 => { parent := some 0, flow := 2, dir := .input, evs := newEvs, terms := [(none, nullT 2)], bal := true }
  | _ => { flow := 0, dir := .input, evs := newEvs, terms := [(none, nullT 0)] }

/-- the inventory: two exchanges of flow 1, one of flow 2 (the balance flow's), one of a flow that no child has -/
def scInv : List (Exch ℕ) :=
  [{ flow := 1, dir := .input, value := some 7, term := none }, { flow := 1, dir := .input, value := some 5, term := some 90 },
   { flow := 2, dir := .input, value := some 3, term := none }, { flow := 4, dir := .output, value := some 9, term := none },
   { flow := 1, dir := .input, value := none, term := none }]

/-- the premises of `set_child_exchanges_sets` hold, and child 1 has the value 7, child 2 the value 5, the balance flow is as before -/
example : setKey .none false = some .observed ∧ termOf (scH 0) .none = .ok { target := .process, flow := 0 } ∧ (scH 0).kids.Nodup ∧
    (∀ c ∈ (scH 0).kids, c ≠ 0 ∧ (scH c).parent = some 0 ∧ ∃ t, termOf (scH c) .none = .ok t) ∧
    (let H' := (setChildExchanges scH .none false id (fun _ _ => 90) scInv 0).state
     (H' 1).evs.get? .observed = some (some 7) ∧ (H' 2).evs.get? .observed = some (some 5) ∧ (H' 3).evs.get? .observed = some (some 0) ∧
      exchangeValue (H' 0) .none true = .ok 2) := by
  refine ⟨rfl, rfl, by decide, ?_, by decide +kernel⟩
  intro c hc
  have : c = 2 ∨ c = 1 ∨ c = 3 := by simpa [scH] using hc
  rcases this with rfl | rfl | rfl
  · exact ⟨by decide, rfl, _, rfl⟩
  · exact ⟨by decide, rfl, _, rfl⟩
  · exact ⟨by decide, rfl, _, rfl⟩

/-- the premises of `set_child_exchanges_balance_raises` hold: in a scenario the third exchange stops the call -/
example : Meant scH (.one (.str "a")) id (fun _ _ => 90) 0 3 { flow := 2, dir := .input, value := some 3, term := none } ∧ (scH 3).bal = true ∧
    (setChildExchanges scH (.one (.str "a")) false id (fun _ _ => 90) scInv 0).error? = some .dependentFragment ∧
    ((setChildExchanges scH (.one (.str "a")) false id (fun _ _ => 90) scInv 0).state 1).evs.get? (.str "a") = some (some 7) := by
  refine ⟨⟨by decide, by constructor <;> rfl, .inl ?_⟩, rfl, by decide +kernel, by decide +kernel⟩
  intro c hc hf
  have : c = 2 ∨ c = 1 ∨ c = 3 := by simpa [scH] using hc
  rcases this with rfl | rfl | rfl
  · exact absurd hf.1 (by decide)
  · exact absurd hf.1 (by decide)
  · rfl

/-- a fragment that is not terminated to a process (a fragment's, or nothing) -/
example : termOf (scH 1) .none = .ok (nullT 1) ∧ (nullT 1).target = .null := ⟨rfl, rfl⟩

/-- an inventory that has a flow twice, with one child: the later value is kept, not the sum; a zero is cached as one -/
theorem set_child_exchanges_loses :
    (let H : Heap ℕ ℕ := scH.put 0 { scH 0 with kids := [1] }
     let x (v : ℚ) (p : ℕ) : Exch ℕ := { flow := 1, dir := .input, value := some v, term := some p }
     ((setChildExchanges H .none false id (fun _ _ => 90) [x 7 80, x 5 81] 0).state 1).evs.get? .observed = some (some 5) ∧
     exchangeValue ((setChildExchanges H .none true id (fun _ _ => 90) [x 0 80] 0).state 1) .none false = .ok 1) := by
  decide +kernel

end Frg
