import Verif.Model.Privacy
import Mathlib.Order.Lattice
import Mathlib.Tactic.Ring
import Mathlib.Tactic.Linarith

/-!
C99: privacy declarations. The specification speaks of the dict (or number) the publisher wrote.
-/

namespace Prv

/-- the scopes and interfaces there are -/
def scopes : List String := ["index", "info", "exch", "exch_val", "origin", "lci"]

def interfaces : List String := ["index", "inventory", "background", "quantity"]

/-- what the publisher wrote sets this limit to the scope: at the scope itself or, if there is nothing about the scope, at `base` -/
def Limit (p : Dict String (Option ℤ)) (scope : String) (limit : ℤ) : Prop :=
  p.get? scope = some (some limit) ∨ p.get? scope = none ∧ p.get? "base" = some (some limit)

theorem setAll_policy (kw : Dict String (Option ℤ)) : ∀ (d : Decl), kw.keys.Nodup → (∀ k ∈ kw.keys, k ∉ d.policy.keys) →
    ∀ k, k ∈ allowedScopes → ((kw.foldl (fun d p => setPolicy d p.1 p.2) d).policy.get? k =
      match kw.get? k with
      | some v => some v
      | none => d.policy.get? k) := by
  induction kw with
  | nil => intro d _ _ k _; rfl
  | cons p kw ih =>
    obtain ⟨a, v⟩ := p
    intro d hn hd k hk
    have hn' : a ∉ Dict.keys kw ∧ (Dict.keys kw).Nodup := by simpa [Dict.keys] using hn
    have hpol : ∀ k', (setPolicy d a v).policy.get? k' = if a ∈ allowedScopes ∧ a = k' then some v else d.policy.get? k' := by
      intro k'
      unfold setPolicy
      split
      · rename_i h; simp only [Dict.get?_set, h, true_and]
      · rename_i h; simp [h]
    have hd' : ∀ k ∈ Dict.keys kw, k ∉ (setPolicy d a v).policy.keys := by
      intro k hk
      have h1 : k ∉ d.policy.keys := hd k (by simp only [Dict.keys, List.map_cons, List.mem_cons]; exact .inr hk)
      rw [Dict.not_mem_keys_iff] at h1 ⊢
      rw [hpol, if_neg]
      · exact h1
      · rintro ⟨-, rfl⟩; exact hn'.1 hk
    rw [List.foldl_cons, ih _ hn'.2 hd' k hk, hpol]
    by_cases h : a = k
    · subst h
      have : Dict.get? kw a = none := (Dict.not_mem_keys_iff kw a).1 hn'.1
      simp [this, Dict.get?, hk]
    · simp [h, Dict.get?]

theorem setAll_base (kw : Dict String (Option ℤ)) : ∀ (d : Decl), (kw.foldl (fun d p => setPolicy d p.1 p.2) d).base = d.base := by
  induction kw with
  | nil => intro d; rfl
  | cons p kw ih =>
    intro d
    rw [List.foldl_cons, ih]
    unfold setPolicy
    split <;> rfl

theorem setAll_keys (kw : Dict String (Option ℤ)) : ∀ (d : Decl), (∀ k ∈ d.policy.keys, k ∈ allowedScopes) → d.policy.keys.Nodup →
    (∀ k ∈ (kw.foldl (fun d p => setPolicy d p.1 p.2) d).policy.keys, k ∈ allowedScopes) ∧
      (kw.foldl (fun d p => setPolicy d p.1 p.2) d).policy.keys.Nodup := by
  induction kw with
  | nil => intro d h h'; exact ⟨h, h'⟩
  | cons p kw ih =>
    intro d h h'
    rw [List.foldl_cons]
    apply ih
    · unfold setPolicy
      split
      · rename_i hs
        intro k hk
        rcases (Dict.mem_keys_set _ _ _ _).1 hk with rfl | hk
        · exact hs
        · exact h k hk
      · exact h
    · unfold setPolicy
      split
      · exact Dict.nodup_keys_set _ _ _ h'
      · exact h'

theorem base_not_scope : "base" ∉ allowedScopes := by decide

/-- the requirement that counts, from the dict -/
theorem getPolicy_fromDict (p : Dict String (Option ℤ)) (hp : p.keys.Nodup) (k : String) (hk : k ∈ allowedScopes) :
    getPolicy (fromDict p) k = match p.get? k with
      | some v => v
      | none => (p.get? "base").join := by
  have hb : "base" ≠ k := fun h => base_not_scope (h ▸ hk)
  have := setAll_policy (p.del "base") ⟨(p.get? "base").join, []⟩ (Dict.nodup_keys_del p _ hp) (by simp [Dict.keys]) k hk
  unfold getPolicy fromDict init
  rw [this, Dict.get?_del', if_neg hb, setAll_base]
  cases p.get? k <;> rfl

/-- C99: a score is let through for a scope exactly if the scope exists, and the score does not exceed the limit that the publisher has set
for the scope or, if nothing is said about it, for all of them; a negative limit lets nobody through; without limit everybody is. -/
theorem test_iff (p : Dict String (Option ℤ)) (hp : p.keys.Nodup) (scope : String) (score : ℤ) :
    test (fromDict p) scope score = true ↔ scope ∈ scopes ∧ ∀ limit, Limit p scope limit → 0 ≤ limit ∧ score ≤ limit := by
  unfold test Limit
  by_cases hs : scope ∈ allowedScopes
  · rw [if_pos hs, getPolicy_fromDict p hp scope hs]
    have hs' : scope ∈ scopes := hs
    simp only [hs', true_and]
    cases h : p.get? scope with
    | some v =>
      cases v with
      | none => simp
      | some l => simp [and_comm]
    | none =>
      cases h' : p.get? "base" with
      | none => simp
      | some v =>
        cases v with
        | none => simp
        | some l => simp [and_comm]
  · have hs' : scope ∉ scopes := hs
    simp [hs, hs']

/-- a dict as a publisher might write it -/
def exP : Dict String (Option ℤ) := [("exch", some 3), ("base", some 10), ("exch_val", some (-1)), ("index", none), ("colour", some 0)]

example : exP.keys.Nodup ∧ test (fromDict exP) "exch" 3 = true ∧ test (fromDict exP) "exch" 4 = false ∧
    test (fromDict exP) "lci" 10 = true ∧ test (fromDict exP) "lci" 11 = false ∧ test (fromDict exP) "exch_val" (-5) = false ∧
    test (fromDict exP) "index" 1000 = true ∧ test (fromDict exP) "colour" 0 = false := by decide +kernel

/-- C99: a blanket number is the limit for all scopes -/
theorem test_num (n : Option ℤ) (scope : String) (score : ℤ) :
    test (fromInt n) scope score = true ↔ scope ∈ scopes ∧ ∀ limit, n = some limit → 0 ≤ limit ∧ score ≤ limit := by
  unfold test
  by_cases hs : scope ∈ allowedScopes
  · have hs' : scope ∈ scopes := hs
    rw [if_pos hs]
    cases n with
    | none => simp [hs', getPolicy, fromInt, init]
    | some l => simp [hs', getPolicy, fromInt, init, and_comm]
  · have hs' : scope ∉ scopes := hs
    simp [hs, hs']

example : test (fromInt (some 2)) "lci" 2 = true ∧ test (fromInt (some 2)) "lci" 3 = false ∧ test (fromInt none) "lci" 3 = true ∧
    test (fromInt none) "all" 0 = false := by decide +kernel

/-- C99: who is let through with a score is let through with every lower one -/
theorem test_mono (d : Decl) (scope : String) (s s' : ℤ) (h : s' ≤ s) (ht : test d scope s = true) : test d scope s' = true := by
  unfold test at ht ⊢
  by_cases hs : scope ∈ allowedScopes
  · rw [if_pos hs] at ht ⊢
    cases hg : getPolicy d scope with
    | none => rfl
    | some l =>
      rw [hg] at ht
      simp only [decide_eq_true_eq] at ht ⊢
      exact le_trans (max_le_max h (le_refl 0)) ht
  · rw [if_neg hs] at ht; cases ht

example : test (fromDict exP) "exch" 3 = true ∧ test (fromDict exP) "exch" (-7) = true := by decide +kernel

/-- C99: scopes do not influence each other: what is decided about a scope depends on what is written about it and on `base` only -/
theorem test_frame (p p' : Dict String (Option ℤ)) (hp : p.keys.Nodup) (hp' : p'.keys.Nodup) (scope : String) (score : ℤ)
    (h : p.get? scope = p'.get? scope) (hb : p.get? "base" = p'.get? "base") :
    test (fromDict p) scope score = test (fromDict p') scope score := by
  rw [Bool.eq_iff_iff, test_iff p hp, test_iff p' hp']
  unfold Limit
  rw [h, hb]

theorem serialize_nodup (d : Decl) (h : d.policy.keys.Nodup) : (serialize d).keys.Nodup := by
  unfold serialize
  split
  · exact h
  · exact Dict.nodup_keys_set _ _ _ h

theorem serialize_policy (d : Decl) (hn : d.policy.keys.Nodup) (hk : ∀ k ∈ d.policy.keys, k ∈ allowedScopes) (k : String)
    (hs : k ∈ allowedScopes) : getPolicy (fromDict (serialize d)) k = getPolicy d k := by
  have hb : "base" ≠ k := fun h => base_not_scope (h ▸ hs)
  have hb' : d.policy.get? "base" = none := (Dict.not_mem_keys_iff _ _).1 fun h => base_not_scope (hk _ h)
  rw [getPolicy_fromDict _ (serialize_nodup d hn) k hs]
  unfold serialize getPolicy
  cases h : d.base with
  | none => simp only [hb']; rfl
  | some b => simp only [Dict.get?_set_ne _ _ hb, Dict.get?_set_self]; rfl

theorem wf_fromDict (p : Dict String (Option ℤ)) :
    (∀ k ∈ (fromDict p).policy.keys, k ∈ allowedScopes) ∧ (fromDict p).policy.keys.Nodup :=
  setAll_keys _ _ (by simp [Dict.keys]) (by simp [Dict.keys])

theorem wf_fromInt (n : Option ℤ) : (∀ k ∈ (fromInt n).policy.keys, k ∈ allowedScopes) ∧ (fromInt n).policy.keys.Nodup := by
  simp [fromInt, init, Dict.keys]

/-- C99: a publication that is written to a file and read again grants the same interfaces, and decides every request as before. -/
theorem publication_round_trip (i : Ifaces) (p : Spec) (scope : String) (score : ℤ) :
    let pub := mkPub i p
    let pub' := mkPub (.many (serializePub pub).1) (.dict (serializePub pub).2)
    pub'.interfaces = pub.interfaces ∧ test pub'.scopes scope score = test pub.scopes scope score := by
  refine ⟨?_, ?_⟩
  · simp only [mkPub, serializePub]
    rw [List.filter_filter]
    simp
  · have hw : (∀ k ∈ (mkPub i p).scopes.policy.keys, k ∈ allowedScopes) ∧ (mkPub i p).scopes.policy.keys.Nodup := by
      cases p with
      | num n => exact wf_fromInt n
      | dict d => exact wf_fromDict d
    show test (fromDict (serialize (mkPub i p).scopes)) scope score = _
    unfold test
    split
    · rename_i hs
      rw [serialize_policy _ hw.2 hw.1 scope hs]
    · rfl

example : (mkPub (.many ["index", "foreground", "quantity"]) (.dict exP)).interfaces = ["index", "quantity"] ∧
    (serializePub (mkPub (.many ["index", "foreground", "quantity"]) (.dict exP))).2 =
      [("exch", some 3), ("exch_val", some (-1)), ("index", none), ("base", some 10)] := by decide +kernel

/-- C99: a publication grants exactly those of the interfaces named that can be published, in the order named -/
theorem publication_interfaces (l : List String) (p : Spec) :
    (mkPub (.many l) p).interfaces = l.filter (· ∈ interfaces) ∧
      ∀ s, (mkPub (.one s) p).interfaces = if s ∈ interfaces then [s] else [] := by
  refine ⟨rfl, fun s => ?_⟩
  have : interfaces = allowedInterfaces := rfl
  rw [this]
  by_cases h : s ∈ allowedInterfaces <;> simp [mkPub, h]

example : (mkPub (.one "background") (.num none)).interfaces = ["background"] ∧
    (mkPub (.one "foreground") (.num none)).interfaces = [] := by decide +kernel

end Prv
