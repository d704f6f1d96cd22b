import Verif.Model.FragmentClone
import Verif.Props.FragmentSim

/-!
C126: observing a fragment.
-/

namespace Frg
set_option linter.unusedSectionVars false

variable {F Q : Type} [DecidableEq F] [DecidableEq Q]

/-! ### specification -/

/-- x is i, or a child flow of a fragment below i -/
inductive InTree (H : Heap F Q) : ℕ → ℕ → Prop
  | self (i : ℕ) : InTree H i i
  | child (i c x : ℕ) : c ∈ (H i).kids → InTree H c x → InTree H i x

/-- the amount of x is its own: x is a reference flow, or it is not a balance and its parent is not terminated to a subfragment -/
def OwnValue (H : Heap F Q) (sc : Scen) (x : ℕ) : Prop :=
  (H x).parent = none ∨
    ∃ p t, (H x).parent = some p ∧ (H x).bal = false ∧ termOf (H p) sc = .ok t ∧
      (t.target = .null ∨ t.target = .process ∨ ∃ j, t.target = .frag j ∧ (j = p ∨ (H p).bg = true ∨ (H j).bg = true))

/-- where the value observed for a scenario is kept -/
def obsKey : Scen → Option Key
  | .none => some .observed
  | .one (.tup _) => none
  | .one (.str s) => some (if s = "0" then .cached else if s = "1" then .observed else .str s)
  | .one k => some k
  | .many _ => none

/-- in H', the fragments x of S that have an amount of their own have their cached value (1 if it is 0 or None) under k; nothing else
has changed -/
def Obsd (sc : Scen) (k : Key) (S : ℕ → Prop) (H H' : Heap F Q) : Prop :=
  ∀ x, (S x ∧ OwnValue H sc x → H' x = { H x with evs := (H x).evs.set k (some (cachedEv (H x).evs)) }) ∧
    (¬(S x ∧ OwnValue H sc x) → H' x = H x)

/-- no fragment has a value for the scenario yet -/
def Fresh (H : Heap F Q) (U : ℕ → Prop) : Scen → Prop
  | .none => True
  | .one (.str s) => s ≠ "0" ∧ s ≠ "1" ∧ ∀ x, U x → Key.str s ∉ (H x).evs.keys
  | _ => False

/-- a set of fragments closed under parents, child flows and terminations, and sound: child flows know that they are,
a reference flow is not a balance, and a fragment with a balance flow has a conserved quantity; background terminations are
to reference flows -/
structure Closed (H : Heap F Q) (sc : Scen) (U : ℕ → Prop) : Prop where
  kids : ∀ i, U i → ∀ c ∈ (H i).kids, U c ∧ (H c).parent = some i
  parent : ∀ i p, U i → (H i).parent = some p → U p
  target : ∀ i t j, U i → termOf (H i) sc = .ok t → t.target = .frag j → U j
  refBal : ∀ i, U i → (H i).parent = none → (H i).bal = false
  balPar : ∀ i, U i → (H i).cons = none → ∀ c ∈ (H i).kids, (H c).bal = false
  bgRef : ∀ i t j, U i → termOf (H i) sc = .ok t → t.target = .frag j → (H j).bg = true → (H j).parent = none

/-! ### what is set -/

theorem mem_children (n : Node F Q) (c : ℕ) : c ∈ children n ↔ c ∈ n.kids := by
  unfold children; exact List.mem_insertionSort _

theorem set_set {K V : Type} [DecidableEq K] (d : Dict K V) (k : K) (v : V) : (d.set k v).set k v = d.set k v := by
  induction d with
  | nil => simp [Dict.set]
  | cons p d ih =>
    obtain ⟨a, b⟩ := p
    by_cases h : a = k
    · simp [Dict.set, h]
    · simp [Dict.set, h, ih]

theorem cachedEv_ne (d : Dict Key (Option ℚ)) : cachedEv d ≠ 0 := by
  unfold cachedEv
  split
  · exact one_ne_zero
  · split
    · exact one_ne_zero
    · assumption

theorem cachedEv_set (d : Dict Key (Option ℚ)) (k : Key) : cachedEv (d.set k (some (cachedEv d))) = cachedEv d := by
  by_cases h : k = .cached
  · subst h
    rw [cachedEv, Dict.get?_set_self]
    simp only [Option.join_some, if_neg (cachedEv_ne d)]
  · rw [cachedEv, Dict.get?_set_ne _ _ h]; rfl

theorem ownValue_iff (H : Heap F Q) (sc : Scen) (x : ℕ) : OwnValue H sc x ↔ observable H x sc = .ok true := by
  unfold OwnValue observable
  cases hp : (H x).parent with
  | none => simp
  | some p =>
    simp only [reduceCtorEq, false_or, Option.some.injEq, exists_and_left, exists_eq_left']
    cases hb : (H x).bal with
    | true => simp
    | false =>
      simp only [Bool.false_eq_true, if_false, true_and]
      cases ht : termOf (H p) sc with
      | error e => simp [Except.map]
      | ok t =>
        simp only [Except.map, Except.ok.injEq, exists_eq_left']
        unfold isSubfrag
        cases htg : t.target with
        | null => simp
        | process => simp
        | frag j => simp; tauto

theorem autoObserve_eq (H : Heap F Q) (i : ℕ) (sc : Scen) (k : Key) (hk : obsKey sc = some k) (ho : observable H i sc = .ok true) :
    autoObserve H i sc = .ok () (putEv H i k (some (cachedEv (H i).evs))) := by
  unfold autoObserve
  cases sc with
  | none =>
    simp only [obsKey, Option.some.injEq] at hk
    subst hk
    simp only [setObserved, ho]
  | one k' =>
    have : singleKey (.one k') = .ok k := by
      cases k' with
      | cached => simp only [obsKey, Option.some.injEq] at hk; subst hk; rfl
      | observed => simp only [obsKey, Option.some.injEq] at hk; subst hk; rfl
      | tup l => simp [obsKey] at hk
      | str s =>
        simp only [obsKey, Option.some.injEq] at hk
        subst hk
        rw [singleKey]
        · unfold evKey
          split
          · rename_i h; simp at h; subst h; simp
          · rename_i h; simp at h; subst h; simp
          · rename_i h1 h2
            have h1 : s ≠ "0" := fun e => h1 (by rw [e])
            have h2 : s ≠ "1" := fun e => h2 (by rw [e])
            simp [h1, h2]
        · simp
    simp only [setEv, ho, this]
  | many l => simp [obsKey] at hk

theorem termOf_congr (n n' : Node F Q) (h : n'.terms = n.terms) (sc : Scen) : termOf n' sc = termOf n sc := by
  unfold termOf; rw [h]

theorem ownValue_congr (H H' : Heap F Q) (hp : ∀ x, (H' x).parent = (H x).parent) (hb : ∀ x, (H' x).bal = (H x).bal)
    (ht : ∀ x, (H' x).terms = (H x).terms) (hg : ∀ x, (H' x).bg = (H x).bg) (sc : Scen) (x : ℕ) : OwnValue H' sc x ↔ OwnValue H sc x := by
  unfold OwnValue
  simp only [hp, hb, hg, termOf_congr _ _ (ht _)]

theorem Obsd.same {sc : Scen} {k : Key} {S : ℕ → Prop} {H H' : Heap F Q} (h : Obsd sc k S H H') (x : ℕ) :
    (H' x).parent = (H x).parent ∧ (H' x).kids = (H x).kids ∧ (H' x).bal = (H x).bal ∧ (H' x).terms = (H x).terms ∧ (H' x).bg = (H x).bg ∧
      (H' x).flow = (H x).flow ∧ (H' x).dir = (H x).dir ∧ (H' x).cons = (H x).cons ∧ cachedEv (H' x).evs = cachedEv (H x).evs := by
  by_cases hx : S x ∧ OwnValue H sc x
  · rw [(h x).1 hx]; simp [cachedEv_set]
  · rw [(h x).2 hx]; simp

theorem Obsd.own {sc : Scen} {k : Key} {S : ℕ → Prop} {H H' : Heap F Q} (h : Obsd sc k S H H') (x : ℕ) : OwnValue H' sc x ↔ OwnValue H sc x :=
  ownValue_congr H H' (fun x => (h.same x).1) (fun x => (h.same x).2.2.1) (fun x => (h.same x).2.2.2.1) (fun x => (h.same x).2.2.2.2.1) sc x

theorem Obsd.below {sc : Scen} {k : Key} {S : ℕ → Prop} {H H' : Heap F Q} (h : Obsd sc k S H H') (i x : ℕ) : InTree H' i x ↔ InTree H i x := by
  constructor
  · intro hb
    induction hb with
    | self i => exact .self i
    | child i c x hc _ ih => exact .child i c x (by rwa [(h.same i).2.1] at hc) ih
  · intro hb
    induction hb with
    | self i => exact .self i
    | child i c x hc _ ih => exact .child i c x (by rwa [(h.same i).2.1]) ih

theorem Obsd.trans {sc : Scen} {k : Key} {S1 S2 : ℕ → Prop} {H H1 H2 : Heap F Q} (h1 : Obsd sc k S1 H H1) (h2 : Obsd sc k S2 H1 H2) :
    Obsd sc k (fun x => S1 x ∨ S2 x) H H2 := by
  intro x
  by_cases ho : OwnValue H sc x
  · have ho1 := (h1.own x).2 ho
    by_cases hs1 : S1 x
    · have e1 := (h1 x).1 ⟨hs1, ho⟩
      refine ⟨fun _ => ?_, fun h => absurd ⟨.inl hs1, ho⟩ h⟩
      by_cases hs2 : S2 x
      · rw [(h2 x).1 ⟨hs2, ho1⟩, e1]
        simp only [cachedEv_set, set_set]
      · rw [(h2 x).2 (fun h => hs2 h.1), e1]
    · have e1 := (h1 x).2 (fun h => hs1 h.1)
      by_cases hs2 : S2 x
      · refine ⟨fun _ => ?_, fun h => absurd ⟨.inr hs2, ho⟩ h⟩
        rw [(h2 x).1 ⟨hs2, ho1⟩, e1]
      · refine ⟨fun h => ?_, fun _ => ?_⟩
        · exact absurd h.1 (by simp [hs1, hs2])
        · rw [(h2 x).2 (fun h => hs2 h.1), e1]
  · refine ⟨fun h => absurd h.2 ho, fun _ => ?_⟩
    rw [(h2 x).2 (fun h => ho ((h1.own x).1 h.2)), (h1 x).2 (fun h => ho h.2)]

theorem Obsd.congr {sc : Scen} {k : Key} {S1 S2 : ℕ → Prop} {H H1 : Heap F Q} (h1 : Obsd sc k S1 H H1) (h : ∀ x, S2 x ↔ S1 x) : Obsd sc k S2 H H1 := by
  intro x; rw [h]; exact h1 x

theorem observeTree_spec (sc : Scen) (k : Key) (hk : obsKey sc = some k) : ∀ (fuel i : ℕ) (H H' : Heap F Q),
    observeTree sc fuel i H = .ok () H' → Obsd sc k (InTree H i) H H' := by
  intro fuel
  induction fuel with
  | zero => intro i H H' h; simp [observeTree] at h
  | succ fuel ih =>
    have loop : ∀ (cs : List ℕ) (H H' : Heap F Q), each (observeTree sc fuel) cs H = .ok () H' →
        Obsd sc k (fun x => ∃ c ∈ cs, InTree H c x) H H' := by
      intro cs
      induction cs with
      | nil =>
        intro H H' h
        simp only [each, Out.ok.injEq, true_and] at h
        subst h
        intro x
        simp
      | cons c cs ihc =>
        intro H H' h
        rw [each] at h
        cases h1 : observeTree sc fuel c H with
        | err e H1 => rw [h1] at h; simp [Out.bind] at h
        | ok u H1 =>
          rw [h1] at h
          simp only [Out.bind] at h
          have s1 := ih c H H1 h1
          have s2 := ihc H1 H' h
          refine (s1.trans s2).congr fun x => ?_
          simp only [List.mem_cons, exists_eq_or_imp, s1.below]
    intro i H H' h
    rw [observeTree] at h
    cases ho : observable H i sc with
    | error e => rw [ho] at h; simp at h
    | ok b =>
      rw [ho] at h
      simp only at h
      have key : ∀ H1, Obsd sc k (fun x => x = i) H H1 → each (observeTree sc fuel) (children (H1 i)) H1 = .ok () H' →
          Obsd sc k (InTree H i) H H' := by
        intro H1 s1 h
        refine (s1.trans (loop _ _ _ h)).congr fun x => ?_
        constructor
        · intro hb
          cases hb with
          | self => exact .inl rfl
          | child i c x hc hb => exact .inr ⟨c, (mem_children _ _).2 (by rwa [(s1.same i).2.1]), (s1.below c x).2 hb⟩
        · rintro (rfl | ⟨c, hc, hb⟩)
          · exact .self _
          · refine .child i c x ?_ ((s1.below c x).1 hb)
            rwa [mem_children, (s1.same i).2.1] at hc
      cases b with
      | true =>
        rw [if_pos rfl, autoObserve_eq H i sc k hk ho] at h
        simp only [Out.bind] at h
        refine key _ ?_ h
        intro x
        have ho' := (ownValue_iff H sc i).2 ho
        constructor
        · rintro ⟨rfl, _⟩; simp [putEv, Heap.put]
        · intro hx
          have : x ≠ i := by rintro rfl; exact hx ⟨rfl, ho'⟩
          simp [putEv, Heap.put, this]
      | false =>
        simp only [Bool.false_eq_true, if_false, Out.bind] at h
        refine key _ ?_ h
        intro x
        constructor
        · rintro ⟨rfl, hown⟩
          rw [ownValue_iff, ho] at hown
          simp at hown
        · intro _; rfl

/-- **C126** what observing a fragment sets: in the whole tree below it, every fragment with an amount of its own gets its cached
value as observed value (or as value of the scenario); nothing else is changed, in the tree or out of it -/
theorem observe_sets (E : Env F Q) (sc : Scen) (k : Key) (hk : obsKey sc = some k) (fuel i : ℕ) (H H' : Heap F Q)
    (h : observe E sc fuel i H = .ok () H') (x : ℕ) :
    (InTree H i x ∧ OwnValue H sc x → H' x = { H x with evs := (H x).evs.set k (some (cachedEv (H x).evs)) }) ∧
    (¬(InTree H i x ∧ OwnValue H sc x) → H' x = H x) := by
  rw [observe] at h
  cases ho : observeTree sc fuel i H with
  | err e H1 => rw [ho] at h; simp [Out.bind] at h
  | ok u H1 =>
    rw [ho] at h
    simp only [Out.bind] at h
    split at h
    · simp at h
    · simp only [Out.ok.injEq, true_and] at h
      subst h
      exact observeTree_spec sc k hk fuel i H H1 ho x

/-- **C126** observing once more changes nothing -/
theorem observe_again (E : Env F Q) (sc : Scen) (k : Key) (hk : obsKey sc = some k) (fuel fuel' i : ℕ) (H H' H'' : Heap F Q)
    (h : observe E sc fuel i H = .ok () H') (h' : observe E sc fuel' i H' = .ok () H'') : H'' = H' := by
  have s1 : Obsd sc k (InTree H i) H H' := observe_sets E sc k hk fuel i H H' h
  have s2 : Obsd sc k (InTree H' i) H' H'' := observe_sets E sc k hk fuel' i H' H'' h'
  funext x
  by_cases hx : InTree H i x ∧ OwnValue H sc x
  · rw [(s2 x).1 ⟨(s1.below i x).2 hx.1, (s1.own x).2 hx.2⟩, (s1 x).1 hx]
    simp only [cachedEv_set, set_set]
  · exact (s2 x).2 fun h => hx ⟨(s1.below i x).1 h.1, (s1.own x).1 h.2⟩

end Frg
