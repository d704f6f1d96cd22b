import Verif.Lemmas.Configure

/-! The entries of a configuration, seen from one process. -/

set_option linter.unusedSectionVars false

namespace Cfg
open Proc
variable {P F Q T : Type} [DecidableEq P] [DecidableEq F] [DecidableEq Q] [DecidableEq T]

/-- `resolve`, of the keys -/
def resolveK (ks : List (Key F T)) (f : F) (d : Option Dir) : Except Proc.Err Dir :=
  match d with
  | some d => .ok d
  | none =>
    match ks.filter fun k => decide (k.flow = f) && decide (k.term = none) with
    | [_, _] => .error .valueError
    | [] => .error .keyError
    | k :: _ => .ok k.dir

theorem resolve_eq (x : State F Q T) (f : F) (d : Option Dir) : resolve x f d = resolveK x.exchs.keys f d := by
  unfold resolve resolveK checkDirection
  rfl

/-- an entry of set_reference -/
def pset (cf : F → Q → Option ℚ) (p : P) (k : P × F × Option Dir) (x : State F Q T) : Option (State F Q T) :=
  if k.1 = p then ok? (addRef cf k.2.1 k.2.2 x) else some x

/-- an entry of unset_reference -/
def punset (cf : F → Q → Option ℚ) (pids : List P) (p : P) (u : Unset P F) (x : State F Q T) : Option (State F Q T) :=
  match u with
  | .one p' f d => if p' = p then ok? (remRef cf f d x) else some x
  | .every p' d => if p' = p then ok? (remEvery cf d x) else some x
  | .anywhere f d => if p ∈ pids ∧ (sweepProc cf f d x).isSome then none else some x

/-- an entry of allocate_by_quantity -/
def palloc (cf : F → Q → Option ℚ) (ov : Bool) (p : P) (k : P × Q) (x : State F Q T) : Option (State F Q T) :=
  if k.1 = p then ok? (allocByQ cf ov k.2 x) else some x

/-- a list of entries -/
def pall {K : Type} (m : K → State F Q T → Option (State F Q T)) : List K → State F Q T → Option (State F Q T)
  | [], x => some x
  | k :: ks, x => (m k x).bind (pall m ks)

/-- the keys that an entry makes non-reference -/
def hits (pids : List P) (p : P) (ks : List (Key F T)) (u : Unset P F) (k : Key F T) : Bool :=
  match u with
  | .one p' f d => decide (p' = p) && (match resolveK ks f d with
      | .ok d' => decide (k = ⟨f, d', none⟩)
      | .error _ => false)
  | .every p' d => decide (p' = p) && (match d with
      | none => true
      | some d => decide (k.dir = d))
  | .anywhere f d => decide (p ∈ pids) && decide (k.flow = f) && decide (some k.dir = d)

def isOne : Unset P F → Bool
  | .one .. => true
  | _ => false

/-! ### set_reference -/

theorem pset_eff {c : F → Q → ℚ} {p : P} {k : P × F × Option Dir} {x y : State F Q T} (h : Wf x)
    (hr : pset (known c) p k x = some y) :
    Eff c x y ∧ bare y = bare x ∧ ((k.1 ≠ p ∧ y = x) ∨
      ∃ d, k.1 = p ∧ resolveK x.exchs.keys k.2.1 k.2.2 = .ok d ∧ y.refs = PySet.add x.refs ⟨k.2.1, d, none⟩) := by
  unfold pset at hr
  split at hr
  · rename_i hp
    unfold addRef at hr
    rw [resolve_eq] at hr
    split at hr
    · simp [ok?] at hr
    · rename_i d hd
      obtain ⟨_, h1, h2, h3⟩ := add_eff h hr
      exact ⟨h1, h2, Or.inr ⟨d, hp, hd, h3⟩⟩
  · rename_i hp
    simp at hr; subst hr
    exact ⟨Eff.refl h, rfl, Or.inl ⟨hp, rfl⟩⟩

theorem pset_ok {c c' : F → Q → ℚ} {p : P} {k : P × F × Option Dir} {a b a' : State F Q T} (ha : Wf a) (hb : Wf b)
    (hk : b.exchs.keys = a.exchs.keys) (hr : pset (known c) p k a = some a') :
    ∃ b', pset (known c') p k b = some b' := by
  unfold pset at hr ⊢
  split
  · rename_i hp
    rw [if_pos hp] at hr
    unfold addRef at hr ⊢
    rw [resolve_eq] at hr ⊢
    rw [hk]
    split at hr
    · simp [ok?] at hr
    · exact add_ok c' hb (by rw [hk]; exact (add_eff ha hr).1)
  · exact ⟨_, rfl⟩

theorem pset_twin {c : F → Q → ℚ} {p : P} {k : P × F × Option Dir} {x z x' z' : State F Q T} (hx : Wf x) (hz : Wf z)
    (hs : Same x z) (h1 : pset (known c) p k x = some x') (h2 : pset (known c) p k z = some z') : Twin x z x' z' := by
  unfold pset at h1 h2
  split at h1
  · rename_i hp
    rw [if_pos hp] at h2
    unfold addRef at h1 h2
    rw [resolve_eq] at h1 h2
    rw [← keys_eq hs.bare] at h2
    split at h1
    · simp [ok?] at h1
    · rename_i d hd
      rw [hd] at h2
      exact add_twin hx hz hs h1 h2
  · rename_i hp
    rw [if_neg hp] at h2
    simp at h1 h2; subst h1 h2
    exact ⟨hs, Or.inr ⟨rfl, rfl⟩⟩

/-! ### unset_reference -/

/-- the flows and directions removed by an entry without a flow -/
def fdsOf (d : Option Dir) (x : State F Q T) : List (F × Dir) :=
  match d with
  | none => x.refs.map fun k => (k.flow, k.dir)
  | some d => (x.refs.map fun k => (k.flow, k.dir)).filter fun fd => decide (fd.2 = d)

theorem remEvery_eq (cf : F → Q → Option ℚ) (d : Option Dir) (x : State F Q T) :
    remEvery cf d x = remList cf (fdsOf d x) x := by
  unfold remEvery fdsOf
  cases d <;> rfl

theorem mem_fdsOf {d : Option Dir} {x : State F Q T} (h : Inv x) (fd : F × Dir) :
    fd ∈ fdsOf d x ↔ (key fd : Key F T) ∈ x.refs ∧ (∀ d0, d = some d0 → fd.2 = d0) := by
  have hk : ∀ k ∈ x.refs, (⟨k.flow, k.dir, none⟩ : Key F T) = k := by
    intro k hm
    have := h.term k hm
    cases k; simp_all
  have base : fd ∈ (x.refs.map fun k => (k.flow, k.dir)) ↔ (key fd : Key F T) ∈ x.refs := by
    rw [List.mem_map]
    constructor
    · rintro ⟨k, h1, rfl⟩
      unfold key; rw [hk k h1]; exact h1
    · intro h1; exact ⟨_, h1, rfl⟩
  unfold fdsOf
  cases d with
  | none => rw [base]; simp
  | some d => rw [List.mem_filter, base]; simp

theorem key_of_mem {x : State F Q T} (h : Inv x) {k : Key F T} (hm : k ∈ x.refs) : key (k.flow, k.dir) = k := by
  have := h.term k hm
  unfold key
  cases k; simp_all

theorem punset_eff {c : F → Q → ℚ} {pids : List P} {p : P} {u : Unset P F} {x y : State F Q T} (h : Wf x)
    (hr : punset (known c) pids p u x = some y) :
    Eff c x y ∧ y.refs = x.refs.filter (fun k => !hits pids p x.exchs.keys u k) ∧
      (∀ k, hits pids p x.exchs.keys u k = true → (k ∈ x.refs ∨ isOne u = true) → Clean y k) ∧
      ((∀ k, hits pids p x.exchs.keys u k = true → (k ∈ x.refs ∨ isOne u = true) → Clean x k) → bare y = bare x) := by
  cases u with
  | one p' f d =>
    simp only [punset] at hr
    split at hr
    · rename_i hp
      unfold remRef at hr
      rw [resolve_eq] at hr
      split at hr
      · simp [ok?] at hr
      · rename_i d' hd
        obtain ⟨_, h1, h2, h3, h4⟩ := rem_eff h hr
        have hh : ∀ k : Key F T, hits pids p x.exchs.keys (.one p' f d) k = decide (k = ⟨f, d', none⟩) := by
          intro k; simp [hits, hp, hd]
        refine ⟨h1, ?_, ?_, ?_⟩
        · rw [h3]
          apply List.filter_congr
          intro k _; rw [hh]; simp
        · intro k hk _
          rw [hh] at hk
          simp at hk; rw [hk]; exact h4
        · intro hc
          rw [h2]
          exact scrub_of_clean (hc _ (by rw [hh]; simp) (Or.inr rfl))
    · rename_i hp
      simp at hr; subst hr
      have hh : ∀ k : Key F T, hits pids p x.exchs.keys (.one p' f d) k = false := by intro k; simp [hits, hp]
      exact ⟨Eff.refl h, by simp [hh], by simp [hh], fun _ => rfl⟩
  | every p' d =>
    simp only [punset] at hr
    split at hr
    · rename_i hp
      rw [remEvery_eq] at hr
      obtain ⟨h1, h2, h3, h4⟩ := remList_eff _ h hr
      have hh : ∀ k : Key F T, hits pids p x.exchs.keys (.every p' d) k = true ↔ (∀ d0, d = some d0 → k.dir = d0) := by
        intro k
        cases d <;> simp [hits, hp]
      have hone : isOne (.every p' d : Unset P F) = false := rfl
      refine ⟨h1, ?_, ?_, ?_⟩
      · rw [h2]
        apply List.filter_congr
        intro k hk
        have : (∀ fd ∈ fdsOf d x, k ≠ key fd) ↔ ¬ hits pids p x.exchs.keys (.every p' d) k = true := by
          rw [hh]
          constructor
          · intro ha hd
            refine ha (k.flow, k.dir) ((mem_fdsOf h.inv _).mpr ⟨?_, hd⟩) (key_of_mem h.inv hk).symm
            rw [key_of_mem h.inv hk]; exact hk
          · intro ha fd hfd e
            obtain ⟨_, h6⟩ := (mem_fdsOf h.inv _).mp hfd
            exact ha (by rw [e]; exact h6)
        rw [Bool.eq_iff_iff, decide_eq_true_iff, this]
        simp
      · intro k hk hk'
        rw [hone] at hk'
        simp at hk'
        have := h3 (k.flow, k.dir) ((mem_fdsOf h.inv _).mpr ⟨by rw [key_of_mem h.inv hk']; exact hk', (hh k).mp hk⟩)
        rw [key_of_mem h.inv hk'] at this
        exact this
      · intro hc
        refine h4 fun fd hfd => ?_
        obtain ⟨h5, h6⟩ := (mem_fdsOf h.inv _).mp hfd
        exact hc _ ((hh _).mpr h6) (Or.inl h5)
    · rename_i hp
      simp at hr; subst hr
      have hh : ∀ k : Key F T, hits pids p x.exchs.keys (.every p' d) k = false := by intro k; simp [hits, hp]
      exact ⟨Eff.refl h, by simp [hh], by simp [hh], fun _ => rfl⟩
  | anywhere f d =>
    simp only [punset] at hr
    split at hr
    · simp at hr
    · rename_i hp
      simp at hr; subst hr
      have hh : ∀ k ∈ x.refs, hits pids p x.exchs.keys (.anywhere f d) k = false := by
        intro k hk
        simp only [hits]
        by_contra hc
        simp only [Bool.not_eq_false, Bool.and_eq_true, decide_eq_true_eq] at hc
        apply hp
        refine ⟨hc.1.1, ?_⟩
        unfold sweepProc
        have : (x.refs.find? fun k => decide (k.flow = f) && decide (some k.dir = d)).isSome := by
          rw [List.find?_isSome]
          exact ⟨k, hk, by simp [hc.1.2, hc.2]⟩
        cases hf : x.refs.find? fun k => decide (k.flow = f) && decide (some k.dir = d) with
        | none => rw [hf] at this; simp at this
        | some k => rfl
      have hone : isOne (.anywhere f d : Unset P F) = false := rfl
      refine ⟨Eff.refl h, ?_, ?_, fun _ => rfl⟩
      · symm; rw [List.filter_eq_self]
        intro k hk; rw [hh k hk]; rfl
      · intro k hk hk'
        rw [hone] at hk'
        simp at hk'
        rw [hh k hk'] at hk; simp at hk

theorem sweepProc_isSome (cf : F → Q → Option ℚ) (f : F) (d : Option Dir) (x : State F Q T) :
    (sweepProc cf f d x).isSome = true ↔ ∃ k ∈ x.refs, k.flow = f ∧ some k.dir = d := by
  have : (sweepProc cf f d x).isSome = (x.refs.find? fun k => decide (k.flow = f) && decide (some k.dir = d)).isSome := by
    unfold sweepProc
    cases x.refs.find? fun k => decide (k.flow = f) && decide (some k.dir = d) <;> rfl
  rw [this, List.find?_isSome]
  simp

theorem punset_ok {c c' : F → Q → ℚ} {pids : List P} {p : P} {u : Unset P F} {a b a' : State F Q T} (ha : Wf a)
    (hb : Wf b) (hk : b.exchs.keys = a.exchs.keys) (hsub : ∀ k ∈ b.refs, k ∈ a.refs)
    (hr : punset (known c) pids p u a = some a') : ∃ b', punset (known c') pids p u b = some b' := by
  cases u with
  | one p' f d =>
    simp only [punset] at hr ⊢
    split
    · rename_i hp
      rw [if_pos hp] at hr
      unfold remRef at hr ⊢
      rw [resolve_eq] at hr ⊢
      rw [hk]
      split at hr
      · simp [ok?] at hr
      · exact rem_ok c' hb (by rw [hk]; exact (rem_eff ha hr).1)
    · exact ⟨_, rfl⟩
  | every p' d =>
    simp only [punset]
    split
    · rw [remEvery_eq]
      apply remList_ok c' _ hb
      intro fd hfd
      obtain ⟨h1, _⟩ := (mem_fdsOf hb.inv _).mp hfd
      obtain ⟨e, he, _⟩ := (hb.inv.refs _).mp h1
      exact (Dict.mem_keys_iff _ _).mpr ⟨e, he⟩
    · exact ⟨_, rfl⟩
  | anywhere f d =>
    simp only [punset] at hr ⊢
    split at hr
    · simp at hr
    · rename_i hp
      rw [if_neg]
      · exact ⟨_, rfl⟩
      · rintro ⟨h1, h2⟩
        rw [sweepProc_isSome] at h2
        obtain ⟨k, h3, h4⟩ := h2
        exact hp ⟨h1, (sweepProc_isSome _ _ _ _).mpr ⟨k, hsub k h3, h4⟩⟩

theorem punset_twin {c : F → Q → ℚ} {pids : List P} {p : P} {u : Unset P F} {x z x' z' : State F Q T} (hx : Wf x)
    (hz : Wf z) (hs : Same x z) (h1 : punset (known c) pids p u x = some x')
    (h2 : punset (known c) pids p u z = some z') : Twin x z x' z' := by
  cases u with
  | one p' f d =>
    simp only [punset] at h1 h2
    split at h1
    · rename_i hp
      rw [if_pos hp] at h2
      unfold remRef at h1 h2
      rw [resolve_eq] at h1 h2
      rw [← keys_eq hs.bare] at h2
      split at h1
      · simp [ok?] at h1
      · rename_i d' hd
        rw [hd] at h2
        exact rem_twin hx hz hs h1 h2
    · rename_i hp
      rw [if_neg hp] at h2
      simp at h1 h2; subst h1 h2
      exact ⟨hs, Or.inr ⟨rfl, rfl⟩⟩
  | every p' d =>
    simp only [punset] at h1 h2
    split at h1
    · rename_i hp
      rw [if_pos hp] at h2
      rw [remEvery_eq] at h1 h2
      have : fdsOf d z = fdsOf d x := by unfold fdsOf; rw [hs.refs]
      rw [this] at h2
      exact remList_twin _ hx hz hs h1 h2
    · rename_i hp
      rw [if_neg hp] at h2
      simp at h1 h2; subst h1 h2
      exact ⟨hs, Or.inr ⟨rfl, rfl⟩⟩
  | anywhere f d =>
    simp only [punset] at h1 h2
    split at h1
    · simp at h1
    · split at h2
      · simp at h2
      · simp at h1 h2; subst h1 h2
        exact ⟨hs, Or.inr ⟨rfl, rfl⟩⟩

end Cfg
