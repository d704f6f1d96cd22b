import Verif.Model.Qdb

/-!
C62: the search for a factor by compartment. The nearest compartment with factors wins: the compartment itself, then its
subcompartments taken together, then its parent, then the further ancestors up to the root, as far as `dist` allows.
-/

namespace Qdb
variable {Q : Type} [DecidableEq Q]

/-! ### sets of factors -/

theorem same_refl (a : CF Q) : a.same a = true := by simp [CF.same]

theorem same_symm {a b : CF Q} (h : a.same b = true) : b.same a = true := by
  simp only [CF.same, decide_eq_true_eq] at *; exact ⟨h.1.symm, h.2.symm⟩

theorem same_trans {a b c : CF Q} (h : a.same b = true) (h' : b.same c = true) : a.same c = true := by
  simp only [CF.same, decide_eq_true_eq] at *; exact ⟨h.1.trans h'.1, h.2.trans h'.2⟩

/-- the list `r` holds the set of the members of `l`: nothing else, and of equal members at least one -/
def SameSet (r l : List (CF Q)) : Prop := (∀ x ∈ r, x ∈ l) ∧ ∀ x ∈ l, ∃ y ∈ r, x.same y = true

theorem SameSet.refl (l : List (CF Q)) : SameSet l l := ⟨fun _ h => h, fun x h => ⟨x, h, same_refl x⟩⟩

theorem SameSet.nil {r : List (CF Q)} (h : SameSet r []) : r = [] := by
  cases r with
  | nil => rfl
  | cons a r => exact absurd (h.1 a (by simp)) (by simp)

theorem addCF_sub {l : List (CF Q)} {a x : CF Q} (h : x ∈ l) : x ∈ addCF l a := by
  unfold addCF; split <;> simp [h]

theorem addCF_mem {l : List (CF Q)} {a x : CF Q} (h : x ∈ addCF l a) : x ∈ l ∨ x = a := by
  unfold addCF at h; split at h
  · exact .inl h
  · simpa using h

theorem addCF_has (l : List (CF Q)) (a : CF Q) : ∃ y ∈ addCF l a, a.same y = true := by
  unfold addCF; split
  · rename_i h
    simpa using h
  · exact ⟨a, by simp, same_refl a⟩

theorem unionCF_sub (m : List (CF Q)) : ∀ {l : List (CF Q)} {x : CF Q}, x ∈ l → x ∈ unionCF l m := by
  induction m with
  | nil => intro l x h; exact h
  | cons a m ih => intro l x h; exact ih (addCF_sub h)

theorem unionCF_mem (m : List (CF Q)) : ∀ {l : List (CF Q)} {x : CF Q}, x ∈ unionCF l m → x ∈ l ∨ x ∈ m := by
  induction m with
  | nil => intro l x h; exact .inl h
  | cons a m ih =>
    intro l x h
    rcases ih (l := addCF l a) h with h | h
    · rcases addCF_mem h with h | h
      · exact .inl h
      · exact .inr (by simp [h])
    · exact .inr (by simp [h])

theorem unionCF_has (m : List (CF Q)) : ∀ (l : List (CF Q)) {x : CF Q}, x ∈ m → ∃ y ∈ unionCF l m, x.same y = true := by
  induction m with
  | nil => intro l x h; simp at h
  | cons a m ih =>
    intro l x h
    rcases List.mem_cons.mp h with rfl | h
    · obtain ⟨y, hy, hs⟩ := addCF_has l x
      exact ⟨y, unionCF_sub m hy, hs⟩
    · exact ih (addCF l a) h

theorem SameSet.union {r l m : List (CF Q)} (h : SameSet r l) : SameSet (unionCF r m) (l ++ m) := by
  constructor
  · intro x hx
    rcases unionCF_mem m hx with hx | hx
    · simp [h.1 x hx]
    · simp [hx]
  · intro x hx
    rcases List.mem_append.mp hx with hx | hx
    · obtain ⟨y, hy, hs⟩ := h.2 x hx
      exact ⟨y, unionCF_sub m hy, hs⟩
    · exact unionCF_has m r hx

theorem SameSet.foldl {L : Lookup Q} (ss : List ℕ) : ∀ {r l : List (CF Q)}, SameSet r l →
    SameSet (ss.foldl (fun r s => unionCF r (L.get s)) r) (l ++ ss.flatMap L.get) := by
  induction ss with
  | nil => intro r l h; simpa using h
  | cons s ss ih =>
    intro r l h
    have := ih h.union (l := l ++ L.get s)
    simpa [List.append_assoc] using this

/-! ### the search -/

/-- what is searched, nearest first -/
def levels (E : Env Q) (L : Lookup Q) (c dist : ℕ) : List (List (CF Q)) :=
  [L.get c] ++ (if dist ≥ 1 then [(E.subs c).flatMap L.get] else []) ++
    (if dist ≥ 2 then ((E.anc c).take 1).map L.get else []) ++
    (if dist ≥ 3 then ((E.anc c).drop 1).map L.get else [])

/-- the first level with factors in it; no factors if there is none -/
def nearest : List (List (CF Q)) → List (CF Q)
  | [] => []
  | l :: ls => if l = [] then nearest ls else l

theorem climb_first (L : Lookup Q) (as : List ℕ) : SameSet (climb L true as []) (nearest (as.map L.get)) := by
  induction as with
  | nil => exact SameSet.refl _
  | cons a as ih =>
    have h := SameSet.union (SameSet.refl ([] : List (CF Q))) (m := L.get a)
    simp only [climb, List.map_cons, nearest, Bool.true_and]
    by_cases hz : L.get a = []
    · rw [hz] at h
      have h0 : unionCF ([] : List (CF Q)) (L.get a) = [] := by rw [hz]; rfl
      rw [h0]
      simpa [hz] using ih
    · have h1 : unionCF [] (L.get a) ≠ [] := by
        intro h0
        rw [h0] at h
        cases hg : L.get a with
        | nil => exact hz hg
        | cons b l =>
          obtain ⟨y, hy, _⟩ := h.2 b (by simp [hg])
          simp at hy
      have h2 : (unionCF [] (L.get a)).isEmpty = false := by simpa using h1
      simp only [h2, hz, if_false, Bool.not_false, if_true]
      simpa using h

theorem climb_all (L : Lookup Q) (as : List ℕ) : ∀ {r l : List (CF Q)}, SameSet r l →
    SameSet (climb L false as r) (l ++ (as.map L.get).flatten) := by
  induction as with
  | nil => intro r l h; simpa [climb] using h
  | cons a as ih =>
    intro r l h
    have := ih h.union (l := l ++ L.get a)
    simpa [climb, List.append_assoc] using this

theorem isEmpty_of_same {r l : List (CF Q)} (h : SameSet r l) : r.isEmpty = l.isEmpty := by
  cases r with
  | nil =>
    cases l with
    | nil => rfl
    | cons b l => obtain ⟨y, hy, _⟩ := h.2 b (by simp); simp at hy
  | cons a r =>
    cases l with
    | nil => have := h.1 a (by simp); simp at this
    | cons b l => rfl

/-- C62: the search that stops at the first hit returns the factors of the nearest level that has any -/
theorem find_first (E : Env Q) (L : Lookup Q) (c dist : ℕ) (r : List (CF Q)) (h : find E L c dist true = .ok r) :
    SameSet r (nearest (levels E L c dist)) := by
  unfold find at h
  simp only [Bool.true_and] at h
  unfold levels
  cases h0 : L.get c with
  | cons a l =>
    rw [h0] at h
    simp only [List.isEmpty_cons, Bool.not_false, if_true, Except.ok.injEq] at h
    subst h
    simpa [nearest] using SameSet.refl _
  | nil =>
    rw [h0] at h
    simp only [List.isEmpty_nil, Bool.not_true, Bool.false_eq_true, if_false] at h
    have hs := SameSet.foldl (L := L) (E.subs c) (SameSet.refl ([] : List (CF Q)))
    simp only [List.nil_append] at hs
    have he := isEmpty_of_same hs
    by_cases hd1 : dist > 0
    · have hd1' : dist ≥ 1 := hd1
      simp only [hd1, if_true] at h
      simp only [hd1', if_true]
      cases h1 : (E.subs c).flatMap L.get with
      | cons a l =>
        rw [h1] at he
        simp only [he, List.isEmpty_cons, Bool.not_false, if_true, Except.ok.injEq] at h
        subst h
        simpa [nearest, h1] using hs
      | nil =>
        rw [h1] at he hs
        have h2 := hs.nil
        simp only [h2, List.isEmpty_nil, Bool.not_true, Bool.false_eq_true, if_false] at h
        by_cases hd2 : dist > 1
        · have hd2' : dist ≥ 2 := hd2
          simp only [hd2, if_true] at h
          simp only [hd2', if_true]
          cases hanc : E.anc c with
          | nil =>
            rw [hanc] at h
            simp only [List.head?_nil, Option.map_none, Option.getD_none] at h
            by_cases hd3 : dist > 2
            · simp only [hd3, if_true] at h
              simp [unionCF] at h
            · simp only [hd3, if_false] at h
              simp only [unionCF, List.foldl_nil, List.isEmpty_nil, Bool.not_true, Bool.false_eq_true, if_false,
                Except.ok.injEq] at h
              subst h
              simpa [nearest] using SameSet.refl _
          | cons p as =>
            rw [hanc] at h
            simp only [List.head?_cons, Option.map_some, Option.getD_some] at h
            have hp := SameSet.union (SameSet.refl ([] : List (CF Q))) (m := L.get p)
            simp only [List.nil_append] at hp
            have hpe := isEmpty_of_same hp
            cases h3 : L.get p with
            | cons a l =>
              rw [h3] at hpe hp
              simp only [h3, hpe, List.isEmpty_cons, Bool.not_false, if_true, Except.ok.injEq] at h
              subst h
              simpa [nearest, h3] using hp
            | nil =>
              simp only [h3, unionCF, List.foldl_nil, List.isEmpty_nil, Bool.not_true, Bool.false_eq_true, if_false] at h
              by_cases hd3 : dist > 2
              · have hd3' : dist ≥ 3 := hd3
                simp only [hd3, if_true, Except.ok.injEq] at h
                subst h
                simpa [nearest, h3, hd3'] using climb_first L as
              · have hd3' : ¬ dist ≥ 3 := hd3
                simp only [hd3, if_false, Except.ok.injEq] at h
                subst h
                simpa [nearest, h3, hd3'] using SameSet.refl _
        · have hd2' : ¬ dist ≥ 2 := hd2
          have hd3 : ¬ dist > 2 := by omega
          have hd3' : ¬ dist ≥ 3 := by omega
          simp only [hd2, hd3, if_false, List.isEmpty_nil, Bool.not_true, Bool.false_eq_true, Except.ok.injEq] at h
          subst h
          simpa [nearest, hd2', hd3'] using SameSet.refl _
    · have hd1' : ¬ dist ≥ 1 := hd1
      have hd2 : ¬ dist > 1 := by omega
      have hd2' : ¬ dist ≥ 2 := by omega
      have hd3 : ¬ dist > 2 := by omega
      have hd3' : ¬ dist ≥ 3 := by omega
      simp only [hd1, hd2, hd3, if_false, List.isEmpty_nil, Bool.not_true, Bool.false_eq_true, Except.ok.injEq] at h
      subst h
      simpa [nearest, hd1', hd2', hd3'] using SameSet.refl _

/-- C62: the search that does not stop returns the factors of all levels -/
theorem find_all (E : Env Q) (L : Lookup Q) (c dist : ℕ) (r : List (CF Q)) (h : find E L c dist false = .ok r) :
    SameSet r (levels E L c dist).flatten := by
  unfold find at h
  simp only [Bool.false_and, Bool.false_eq_true, if_false] at h
  unfold levels
  have h0 := SameSet.refl (L.get c)
  by_cases hd1 : dist > 0
  · have hd1' : dist ≥ 1 := hd1
    simp only [hd1, if_true] at h
    have h1 := SameSet.foldl (L := L) (E.subs c) h0
    by_cases hd2 : dist > 1
    · have hd2' : dist ≥ 2 := hd2
      simp only [hd2, if_true] at h
      cases hanc : E.anc c with
      | nil =>
        rw [hanc] at h
        by_cases hd3 : dist > 2
        · simp [hd3] at h
        · simp only [hd3, if_false, List.head?_nil, Option.map_none, Option.getD_none, Except.ok.injEq] at h
          subst h
          simpa [hd1', unionCF] using h1
      | cons p as =>
        rw [hanc] at h
        have h2 := h1.union (m := L.get p)
        by_cases hd3 : dist > 2
        · have hd3' : dist ≥ 3 := hd3
          simp only [hd3, if_true, List.head?_cons, Option.map_some, Option.getD_some, Except.ok.injEq] at h
          subst h
          have h3 := climb_all L as h2
          simpa [hd1', hd2', hd3', List.append_assoc] using h3
        · have hd3' : ¬ dist ≥ 3 := hd3
          simp only [hd3, if_false, List.head?_cons, Option.map_some, Option.getD_some, Except.ok.injEq] at h
          subst h
          simpa [hd1', hd2', hd3', List.append_assoc] using h2
    · have hd2' : ¬ dist ≥ 2 := hd2
      have hd3 : ¬ dist > 2 := by omega
      have hd3' : ¬ dist ≥ 3 := by omega
      simp only [hd2, hd3, if_false, Except.ok.injEq] at h
      subst h
      simpa [hd1', hd2', hd3'] using h1
  · have hd1' : ¬ dist ≥ 1 := hd1
    have hd2 : ¬ dist > 1 := by omega
    have hd2' : ¬ dist ≥ 2 := by omega
    have hd3 : ¬ dist > 2 := by omega
    have hd3' : ¬ dist ≥ 3 := by omega
    simp only [hd1, hd2, hd3, if_false, Except.ok.injEq] at h
    subst h
    simpa [hd1', hd2', hd3'] using h0

/-- C62: the search raises only when it is told to climb to the root and starts there, without a hit before it climbs -/
theorem find_error_iff (E : Env Q) (L : Lookup Q) (c dist : ℕ) (first : Bool) (e : Err) :
    find E L c dist first = .error e ↔ e = .attributeError ∧ dist ≥ 3 ∧ E.anc c = [] ∧
      (first = true → L.get c = [] ∧ ∀ s ∈ E.subs c, L.get s = []) := by
  have hs := SameSet.foldl (L := L) (E.subs c) (SameSet.refl (L.get c))
  have he := isEmpty_of_same hs
  constructor
  · intro h
    unfold find at h
    by_cases hd : dist > 2
    · have hd0 : dist > 0 := by omega
      have hd1 : dist > 1 := by omega
      simp only [hd, hd0, hd1, if_true] at h
      split at h
      · simp at h
      · rename_i n0
        split at h
        · simp at h
        · rename_i n1
          split at h
          · simp at h
          · cases hanc : E.anc c with
            | cons p as => rw [hanc] at h; simp at h
            | nil =>
              rw [hanc] at h
              simp only [Except.error.injEq] at h
              refine ⟨h.symm, hd, rfl, ?_⟩
              intro hf
              subst hf
              simp only [Bool.true_and, Bool.not_eq_true, Bool.not_eq_false'] at n0 n1
              rw [he] at n1
              simp only [List.isEmpty_iff, List.append_eq_nil_iff, List.flatMap_eq_nil_iff] at n0 n1
              exact n1
    · simp only [hd, if_false] at h
      repeat' split at h
      all_goals simp at h
  · rintro ⟨rfl, hd, hanc, hf⟩
    have hd0 : dist > 0 := by omega
    have hd1 : dist > 1 := by omega
    have hd2 : dist > 2 := by omega
    unfold find
    simp only [hd0, hd1, hd2, if_true, hanc, List.head?_nil, Option.map_none, Option.getD_none]
    cases first with
    | false => simp
    | true =>
      obtain ⟨h0, h1⟩ := hf rfl
      have : (E.subs c).flatMap L.get = [] := by simpa using h1
      rw [h0, this] at hs
      have hn := hs.nil
      rw [h0]
      simp [hn, show unionCF ([] : List (CF Q)) [] = [] from rfl]

/-! ### examples: root 0, water 1 with fresh 2 and sea 3, lake 4 in fresh -/

/-- the example hierarchy; its factors below -/
def wEnv : Env ℕ where
  ind := id
  canon := some
  anc := fun c => match c with | 1 => [0] | 2 => [1, 0] | 3 => [1, 0] | 4 => [2, 1, 0] | _ => []
  subs := fun c => match c with | 0 => [1] | 1 => [2, 3] | 2 => [4] | _ => []
  ord := PyOrd.id _

def wA : CF ℕ := ⟨10, 100, 7⟩
def wB : CF ℕ := ⟨11, 101, 7⟩

/-- factors at fresh and at sea are found from water; from lake, the one of fresh is found; and only with `dist = 3` the one at
the root is found from lake -/
example : find wEnv [(2, [wA]), (3, [wB])] 1 1 true = .ok [wA, wB] ∧
    find wEnv [(2, [wA]), (3, [wB])] 4 2 true = .ok [wA] ∧
    find wEnv [(0, [wB])] 4 2 true = .ok [] ∧ find wEnv [(0, [wB])] 4 3 true = .ok [wB] := by decide +kernel

/-- the factor of the compartment hides the one of its subcompartment, unless all are asked for -/
example : find wEnv [(1, [wA]), (2, [wB])] 1 1 true = .ok [wA] ∧
    find wEnv [(1, [wA]), (2, [wB])] 1 1 false = .ok [wA, wB] := by decide +kernel

/-- C62 fails as documented at the root: the search up to the root, started there, raises instead of returning nothing -/
theorem find_fails_root : find wEnv ([] : Lookup ℕ) 0 3 true = .error .attributeError ∧
    find wEnv ([] : Lookup ℕ) 0 2 true = .ok [] := by decide +kernel

end Qdb
