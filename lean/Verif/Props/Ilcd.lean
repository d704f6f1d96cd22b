import Verif.Model.Ilcd
import Verif.Props.Spold2b
import Mathlib.Tactic.Ring

/-!
ILCD loader: specification and lemmas.
-/

set_option linter.unusedSectionVars false

namespace Ilcd
open Proc (Dir Key)

variable {U P Q T : Type} [DecidableEq U] [DecidableEq P] [DecidableEq T]

/-! ### specification -/

/-- the exchange is of the flow and direction -/
def ExEl.Is (canon : U → U) (x : ExEl U P) (f : U) (d : Dir) : Prop := canon x.uid = f ∧ x.dir = d

instance (canon : U → U) (x : ExEl U P) (f : U) (d : Dir) : Decidable (x.Is canon f d) := by unfold ExEl.Is; infer_instance

/-- the total of the flow in the direction; a missing amount counts as zero -/
def Total (canon : U → U) (f : U) (d : Dir) : List (ExEl U P) → ℚ
  | [] => 0
  | x :: xs => (if x.Is canon f d then x.value.getD 0 else 0) + Total canon f d xs

/-- the file a reference to a flow leads to is of that flow -/
def Consistent (env : Env U P) (exs : List (ExEl U P)) : Prop :=
  ∀ x ∈ exs, ∀ fd, env.flowFile x.uri = .doc fd → env.canon fd.uuid = env.canon x.uid

/-- the usual form of a usual form is itself, and the entities of the archive have it -/
structure Usual (env : Env U P) (a : Ar U Q T) : Prop where
  idem : ∀ u, env.canon (env.canon u) = env.canon u
  flows : ∀ k ∈ a.flows.keys, env.canon k = k

/-! ### reading the flows -/

theorem childQty_frame {env : Env U P} {uid : U} {uri : P} {a : Ar U Q T} : (childQty env uid uri a).state.flows = a.flows ∧ (childQty env uid uri a).state.procs = a.procs := by
  unfold childQty
  split
  · exact ⟨rfl, rfl⟩
  · unfold fetchQty
    cases env.qtyFile uri with
    | missing => exact ⟨rfl, rfl⟩
    | noFile => exact ⟨rfl, rfl⟩
    | badXml => exact ⟨rfl, rfl⟩
    | doc d =>
      simp only
      split
      · exact ⟨rfl, rfl⟩
      · cases createUnit env d.ug with
        | error e => exact ⟨rfl, rfl⟩
        | ok q => simp only; split <;> exact ⟨rfl, rfl⟩

theorem flowProps_frame {env : Env U P} {ref : ℕ} (ps : List (PropEl U P)) (f : Flow U) (a : Ar U Q T) :
    (flowProps env ref ps f a).state.flows = a.flows ∧ (flowProps env ref ps f a).state.procs = a.procs := by
  induction ps generalizing f a with
  | nil => exact ⟨rfl, rfl⟩
  | cons p ps ih =>
    have hf := childQty_frame (env := env) (uid := p.uid) (uri := p.uri) (a := a)
    unfold flowProps
    split
    · rename_i a1 h; rw [h] at hf; rw [(ih f a1).1, (ih f a1).2]; exact hf
    · rename_i a1 h; rw [h] at hf; rw [(ih f a1).1, (ih f a1).2]; exact hf
    · rename_i e a1 _ _ h; rw [h] at hf; exact hf
    · rename_i q a1 h
      rw [h] at hf
      split
      · exact hf
      · rename_i f' _; rw [(ih f' a1).1, (ih f' a1).2]; exact hf

/-- what making a flow does to the archive -/
theorem createFlow_spec {env : Env U P} {d : FlowDoc U P} {a : Ar U Q T} (ha : Usual env a) :
    (∃ a', createFlow env d a = .ok (env.canon d.uuid) a' ∧ Usual env a' ∧ a'.procs = a.procs ∧ (∀ k, k ∈ a'.flows.keys ↔ k ∈ a.flows.keys ∨ k = env.canon d.uuid)) ∨
    (∃ e a', createFlow env d a = .err e a' ∧ a'.flows = a.flows ∧ a'.procs = a.procs) := by
  unfold createFlow
  by_cases hu : a.flows.has d.uuid = true
  · have hm := (Dict.has_iff _ _).mp hu
    have hc := ha.flows _ hm
    rw [if_pos hu]
    left
    refine ⟨a, by rw [hc], ha, rfl, ?_⟩
    intro k
    rw [hc]
    constructor
    · exact .inl
    · rintro (h | rfl)
      · exact h
      · exact hm
  · rw [if_neg hu]
    have hf := flowProps_frame (env := env) (ref := d.refProp) d.props ⟨none, []⟩ a
    cases h : flowProps env d.refProp d.props ⟨none, []⟩ a with
    | err e a1 => rw [h] at hf; exact .inr ⟨e, a1, rfl, hf⟩
    | ok f a1 =>
      rw [h] at hf
      simp only [Out.state] at hf
      simp only
      split
      · exact .inr ⟨_, a1, rfl, hf⟩
      · refine .inl ⟨_, rfl, ⟨ha.idem, ?_⟩, hf.2, ?_⟩
        · intro k hk
          rcases (Dict.mem_keys_set _ _ _ _).mp hk with rfl | hk
          · exact ha.idem _
          · rw [hf.1] at hk; exact ha.flows k hk
        · intro k
          simp only [Dict.mem_keys_set, hf.1]
          exact or_comm

/-- what looking a flow up does -/
theorem childFlow_spec {env : Env U P} {x : ExEl U P} {a : Ar U Q T} (ha : Usual env a)
    (hc : ∀ fd, env.flowFile x.uri = .doc fd → env.canon fd.uuid = env.canon x.uid) :
    (∃ a', childFlow env x.uid x.uri a = .ok (some (env.canon x.uid)) a' ∧ Usual env a' ∧ a'.procs = a.procs ∧
      (∀ k, k ∈ a'.flows.keys ↔ k ∈ a.flows.keys ∨ k = env.canon x.uid)) ∨
    (∃ a', childFlow env x.uid x.uri a = .ok none a' ∧ a'.flows = a.flows ∧ a'.procs = a.procs) ∨
    (∃ e a', childFlow env x.uid x.uri a = .err e a' ∧ a'.flows = a.flows ∧ a'.procs = a.procs) := by
  unfold childFlow
  by_cases hu : a.flows.has x.uid = true
  · have hm := (Dict.has_iff _ _).mp hu
    have hcc := ha.flows _ hm
    rw [if_pos hu]
    refine .inl ⟨a, by rw [hcc], ha, rfl, ?_⟩
    intro k
    rw [hcc]
    constructor
    · exact .inl
    · rintro (h | rfl)
      · exact h
      · exact hm
  · rw [if_neg hu]
    unfold fetchFlow
    cases hfile : env.flowFile x.uri with
    | missing => exact .inr (.inr ⟨_, a, rfl, rfl, rfl⟩)
    | noFile => exact .inr (.inr ⟨_, a, rfl, rfl, rfl⟩)
    | badXml => exact .inr (.inr ⟨_, a, rfl, rfl, rfl⟩)
    | doc fd =>
      simp only
      rcases createFlow_spec (d := fd) ha with ⟨a', h1, h2⟩ | ⟨e, a', h1, h2⟩
      · rw [h1]
        rw [hc fd hfile] at h2
        exact .inl ⟨a', by rw [hc fd hfile], h2⟩
      · rw [h1]
        cases e with
        | key => exact .inr (.inl ⟨a', rfl, h2⟩)
        | fileNotFound => exact .inr (.inr ⟨_, a', rfl, h2⟩)
        | badXml => exact .inr (.inr ⟨_, a', rfl, h2⟩)
        | index => exact .inr (.inr ⟨_, a', rfl, h2⟩)
        | value => exact .inr (.inr ⟨_, a', rfl, h2⟩)
        | zeroDivision => exact .inr (.inr ⟨_, a', rfl, h2⟩)
        | «attribute» => exact .inr (.inr ⟨_, a', rfl, h2⟩)
        | proc e => exact .inr (.inr ⟨_, a', rfl, h2⟩)

/-- one step of the loop over the exchanges: the flow, or a dummy for it -/
def flowOf (env : Env U P) (x : ExEl U P) (a : Ar U Q T) : Out (Ar U Q T) Err (Option U) :=
  let dummy (a : Ar U Q T) : Out (Ar U Q T) Err (Option U) :=
    if a.flows.has (env.canon x.uid) then .err .key a
    else .ok (some (env.canon x.uid)) { a with flows := a.flows.set (env.canon x.uid) ⟨none, []⟩ }
  match childFlow env x.uid x.uri a with
  | .err .key a => dummy a
  | .err .badXml a => dummy a
  | r => r

theorem readExs_cons (env : Env U P) (x : ExEl U P) (xs : List (ExEl U P)) (a : Ar U Q T) : readExs env (x :: xs) a =
    match flowOf env x a with
    | .err e a => .err e a
    | .ok f a =>
      match readExs env xs a with
      | .err e a => .err e a
      | .ok l a => .ok (⟨f, x.dir, x.value, x.comment⟩ :: l) a := rfl

theorem flowOf_spec {env : Env U P} {x : ExEl U P} {a : Ar U Q T} (ha : Usual env a)
    (hc : ∀ fd, env.flowFile x.uri = .doc fd → env.canon fd.uuid = env.canon x.uid) :
    (∃ a', flowOf env x a = .ok (some (env.canon x.uid)) a' ∧ Usual env a' ∧ a'.procs = a.procs ∧
      (∀ k, k ∈ a'.flows.keys ↔ k ∈ a.flows.keys ∨ k = env.canon x.uid)) ∨
    (∃ a', flowOf env x a = .ok none a' ∧ a'.flows = a.flows ∧ a'.procs = a.procs) ∨
    (∃ e a', flowOf env x a = .err e a' ∧ a'.flows = a.flows ∧ a'.procs = a.procs) := by
  have hd : ∀ a1 : Ar U Q T, a1.flows = a.flows → a1.procs = a.procs →
      (∃ a', (if a1.flows.has (env.canon x.uid) then .err .key a1
        else .ok (some (env.canon x.uid)) { a1 with flows := a1.flows.set (env.canon x.uid) ⟨none, []⟩ } : Out (Ar U Q T) Err (Option U)) =
          .ok (some (env.canon x.uid)) a' ∧ Usual env a' ∧ a'.procs = a.procs ∧ (∀ k, k ∈ a'.flows.keys ↔ k ∈ a.flows.keys ∨ k = env.canon x.uid)) ∨
      (∃ e a', (if a1.flows.has (env.canon x.uid) then .err .key a1
        else .ok (some (env.canon x.uid)) { a1 with flows := a1.flows.set (env.canon x.uid) ⟨none, []⟩ } : Out (Ar U Q T) Err (Option U)) =
          .err e a' ∧ a'.flows = a.flows ∧ a'.procs = a.procs) := by
    intro a1 h1 h2
    by_cases hh : a1.flows.has (env.canon x.uid) = true
    · exact .inr ⟨_, a1, by rw [if_pos hh], h1, h2⟩
    · refine .inl ⟨{ a1 with flows := a1.flows.set (env.canon x.uid) ⟨none, []⟩ }, by rw [if_neg hh], ⟨ha.idem, ?_⟩, h2, ?_⟩
      · intro k hk
        rcases (Dict.mem_keys_set _ _ _ _).mp hk with rfl | hk
        · exact ha.idem _
        · rw [h1] at hk; exact ha.flows k hk
      · intro k
        simp only [Dict.mem_keys_set, h1]
        exact or_comm
  unfold flowOf
  rcases childFlow_spec ha hc with ⟨a', h1, h2⟩ | ⟨a', h1, h2⟩ | ⟨e, a', h1, h2, h3⟩
  · rw [h1]; exact .inl ⟨a', rfl, h2⟩
  · rw [h1]; exact .inr (.inl ⟨a', rfl, h2⟩)
  · rw [h1]
    cases e with
    | key => rcases hd a' h2 h3 with h | h
             · exact .inl h
             · exact .inr (.inr h)
    | badXml => rcases hd a' h2 h3 with h | h
                · exact .inl h
                · exact .inr (.inr h)
    | fileNotFound => exact .inr (.inr ⟨_, a', rfl, h2, h3⟩)
    | index => exact .inr (.inr ⟨_, a', rfl, h2, h3⟩)
    | value => exact .inr (.inr ⟨_, a', rfl, h2, h3⟩)
    | zeroDivision => exact .inr (.inr ⟨_, a', rfl, h2, h3⟩)
    | «attribute» => exact .inr (.inr ⟨_, a', rfl, h2, h3⟩)
    | proc e => exact .inr (.inr ⟨_, a', rfl, h2, h3⟩)

/-- what is read of an exchange -/
def Reads (env : Env U P) (x : ExEl U P) (y : X U) : Prop :=
  (y.flow = none ∨ y.flow = some (env.canon x.uid)) ∧ y.dir = x.dir ∧ y.value = x.value ∧ y.comment = x.comment

theorem readExs_right {env : Env U P} {exs : List (ExEl U P)} {a a' : Ar U Q T} {l : List (X U)} (ha : Usual env a) (hc : Consistent env exs)
    (h : readExs env exs a = .ok l a') :
    List.Forall₂ (Reads env) exs l ∧ Usual env a' ∧ a'.procs = a.procs ∧ (∀ k ∈ a.flows.keys, k ∈ a'.flows.keys) ∧
      (∀ k ∈ a'.flows.keys, k ∈ a.flows.keys ∨ ∃ x ∈ exs, env.canon x.uid = k) ∧
      (∀ y ∈ l, ∀ f, y.flow = some f → f ∈ a'.flows.keys) := by
  induction exs generalizing a l with
  | nil =>
    unfold readExs at h
    cases h
    exact ⟨.nil, ha, rfl, fun _ h => h, fun _ h => .inl h, by simp⟩
  | cons x xs ih =>
    rw [readExs_cons] at h
    have hcx := hc x (by simp)
    have hcs : Consistent env xs := fun y hy => hc y (List.mem_cons_of_mem _ hy)
    have fin : ∀ (f : Option U) (a1 : Ar U Q T), flowOf env x a = .ok f a1 → (f = none ∨ f = some (env.canon x.uid)) → Usual env a1 → a1.procs = a.procs →
        (∀ k ∈ a.flows.keys, k ∈ a1.flows.keys) → (∀ k ∈ a1.flows.keys, k ∈ a.flows.keys ∨ k = env.canon x.uid) →
        (∀ g, f = some g → g ∈ a1.flows.keys) →
        List.Forall₂ (Reads env) (x :: xs) l ∧ Usual env a' ∧ a'.procs = a.procs ∧ (∀ k ∈ a.flows.keys, k ∈ a'.flows.keys) ∧
          (∀ k ∈ a'.flows.keys, k ∈ a.flows.keys ∨ ∃ y ∈ x :: xs, env.canon y.uid = k) ∧
          (∀ y ∈ l, ∀ f, y.flow = some f → f ∈ a'.flows.keys) := by
      intro f a1 hf h1 h2 h3 h4 h5 h6
      rw [hf] at h
      simp only at h
      cases hr : readExs env xs a1 with
      | err e a2 => rw [hr] at h; cases h
      | ok l' a2 =>
        rw [hr] at h
        simp only [Out.ok.injEq] at h
        obtain ⟨rfl, rfl⟩ := h
        obtain ⟨i1, i2, i3, i4, i5, i6⟩ := ih h2 hcs hr
        refine ⟨.cons ⟨h1, rfl, rfl, rfl⟩ i1, i2, by rw [i3, h3], fun k hk => i4 k (h4 k hk), ?_, ?_⟩
        · intro k hk
          rcases i5 k hk with hk | ⟨y, hy, e⟩
          · rcases h5 k hk with hk | rfl
            · exact .inl hk
            · exact .inr ⟨x, by simp, rfl⟩
          · exact .inr ⟨y, by simp [hy], e⟩
        · intro y hy g hg
          rcases List.mem_cons.mp hy with rfl | hy
          · exact i4 g (h6 g hg)
          · exact i6 y hy g hg
    rcases flowOf_spec ha hcx with ⟨a1, h1, h2, h3, h4⟩ | ⟨a1, h1, h2, h3⟩ | ⟨e, a1, h1, h2⟩
    · exact fin _ a1 h1 (.inr rfl) h2 h3 (fun k hk => (h4 k).mpr (.inl hk)) (fun k hk => (h4 k).mp hk) (by rintro g ⟨⟩; exact (h4 _).mpr (.inr rfl))
    · exact fin _ a1 h1 (.inl rfl) ⟨ha.idem, by rw [h2]; exact ha.flows⟩ h3 (by rw [h2]; exact fun _ h => h) (by rw [h2]; exact fun _ h => .inl h)
        (by rintro g ⟨⟩)
    · rw [h1] at h; cases h

end Ilcd
