import Verif.Props.Ilcd
import Verif.Props.Spold1

/-!
C171: an ILCD process has the exchanges of its file. C172: what fails.
-/

set_option linter.unusedSectionVars false

namespace Ilcd
open Proc (Dir Key)
open Spold1 (valOf)

variable {U P Q T : Type} [DecidableEq U] [DecidableEq P] [DecidableEq T]

/-- a process without allocation -/
structure Pl (p : Proc.State U Q T) : Prop where
  exch : ∀ k e, p.exchs.get? k = some e → k.term = none ∧ e.vdict = []
  alloc : p.allocSum = 0

theorem addX_right {f : U} {d : Dir} {v : Option ℚ} {p p' : Proc.State U Q T} (hp : Pl p) (h : Proc.addExchange id f d none v none true p = .ok () p') :
    Pl p' ∧ p'.refs = p.refs ∧ (∀ g e, valOf p' g e = valOf p g e + if f = g ∧ d = e then v.getD 0 else 0) ∧
    (∀ k, k ∈ p'.exchs.keys ↔ k ∈ p.exchs.keys ∨ k = ⟨f, d, none⟩) := by
  have fin : ∀ e' : Proc.Exch U T, e'.vdict = [] → e'.value.getD 0 = valOf p f d + v.getD 0 →
      p' = { p with exchs := p.exchs.set ⟨f, d, none⟩ e' } →
      Pl p' ∧ p'.refs = p.refs ∧ (∀ g e, valOf p' g e = valOf p g e + if f = g ∧ d = e then v.getD 0 else 0) ∧
        (∀ k, k ∈ p'.exchs.keys ↔ k ∈ p.exchs.keys ∨ k = ⟨f, d, none⟩) := by
    rintro e' h1 h2 rfl
    refine ⟨⟨?_, hp.alloc⟩, rfl, ?_, ?_⟩
    · intro k e he
      by_cases hk : (⟨f, d, none⟩ : Key U T) = k
      · subst hk
        simp only [Dict.get?_set_self, Option.some.injEq] at he
        subst he; exact ⟨rfl, h1⟩
      · simp only [Dict.get?_set_ne _ _ hk] at he
        exact hp.exch k e he
    · intro g e
      by_cases hk : f = g ∧ d = e
      · obtain ⟨rfl, rfl⟩ := hk
        simp only [and_self, if_true]
        rw [← h2]
        simp [valOf]
      · have : (⟨f, d, none⟩ : Key U T) ≠ ⟨g, e, none⟩ := by
          intro hh; cases hh; exact hk ⟨rfl, rfl⟩
        simp only [if_neg hk, add_zero, valOf, Dict.get?_set_ne _ _ this]
    · intro k
      simp only [Dict.mem_keys_set]
      exact or_comm
  have same : v.getD 0 = 0 → (⟨f, d, none⟩ : Key U T) ∈ p.exchs.keys → p' = p → Pl p' ∧ p'.refs = p.refs ∧
      (∀ g e, valOf p' g e = valOf p g e + if f = g ∧ d = e then v.getD 0 else 0) ∧ (∀ k, k ∈ p'.exchs.keys ↔ k ∈ p.exchs.keys ∨ k = ⟨f, d, none⟩) := by
    rintro h0 hm rfl
    refine ⟨hp, rfl, by simp [h0], ?_⟩
    intro k
    constructor
    · exact .inl
    · rintro (h | rfl)
      · exact h
      · exact hm
  cases hg : p.exchs.get? ⟨f, d, none⟩ with
  | none =>
    simp only [Proc.addExchange, hg, Option.map_none, Out.ok.injEq, true_and] at h
    refine fin { value := v } rfl ?_ h.symm
    simp [valOf, hg]
  | some e =>
    have hm : (⟨f, d, none⟩ : Key U T) ∈ p.exchs.keys := (Dict.mem_keys_iff _ _).mpr ⟨e, hg⟩
    cases v with
    | none =>
      simp only [Proc.addExchange, hg, Out.ok.injEq, true_and] at h
      exact same rfl hm h.symm
    | some v =>
      simp only [Proc.addExchange, hg] at h
      by_cases h0 : v = 0
      · simp only [h0, if_true, Out.ok.injEq, true_and] at h
        exact same h0 hm h.symm
      · simp only [h0, if_false, Proc.setValue] at h
        have hx := (hp.exch _ e hg).2
        cases hv : e.value with
        | none =>
          simp only [hv, Out.ok.injEq, true_and] at h
          exact fin { e with value := some v } hx (by simp [valOf, hg, hv]) h.symm
        | some w =>
          simp only [hv, if_true, Proc.addToValue, Out.ok.injEq, true_and] at h
          exact fin { e with value := some (w + v) } hx (by simp [valOf, hg, hv]) h.symm

theorem addRef_right {cf : U → Q → Option ℚ} {f : U} {d : Dir} {p p' : Proc.State U Q T} (hp : Pl p) (hk : (⟨f, d, none⟩ : Key U T) ∈ p.exchs.keys)
    (h : Proc.addReference cf f d p = .ok () p') :
    Pl p' ∧ (∀ k, k ∈ p'.refs ↔ k ∈ p.refs ∨ k = ⟨f, d, none⟩) ∧ (∀ g e, valOf p' g e = valOf p g e) ∧ (∀ k, k ∈ p'.exchs.keys ↔ k ∈ p.exchs.keys) := by
  obtain ⟨e, he⟩ := (Dict.mem_keys_iff _ _).mp hk
  rw [Spold.addReference_ok cf f d p hp.alloc e he] at h
  simp only [Out.ok.injEq, true_and] at h
  subst h
  have hx := hp.exch _ e he
  refine ⟨⟨?_, hp.alloc⟩, fun k => Spold.mem_add, ?_, ?_⟩
  · intro k e' he'
    by_cases hkk : (⟨f, d, none⟩ : Key U T) = k
    · subst hkk
      simp only [Dict.get?_set_self, Option.some.injEq] at he'
      subst he'
      exact hx
    · simp only [Dict.get?_set_ne _ _ hkk] at he'
      exact hp.exch k e' he'
  · intro g e'
    simp only [valOf]
    by_cases hkk : (⟨f, d, none⟩ : Key U T) = ⟨g, e', none⟩
    · rw [← hkk, Dict.get?_set_self, he]; rfl
    · rw [Dict.get?_set_ne _ _ hkk]
  · intro k
    simp only [Dict.keys_set_of_mem _ _ hk]

theorem addXs_right {env : Env U P} {rf : Option (U × Dir)} {exs : List (ExEl U P)} {l : List (X U)} (hl : List.Forall₂ (Reads env) exs l)
    {p p' : Proc.State U Q T} (hp : Pl p) (h : addXs rf l p = .ok () p') :
    Pl p' ∧ (∀ y ∈ l, y.flow ≠ none) ∧ (∀ f d, valOf p' f d = valOf p f d + Total env.canon f d exs) ∧
    (∀ k, k ∈ p'.exchs.keys ↔ k ∈ p.exchs.keys ∨ ∃ x ∈ exs, k = ⟨env.canon x.uid, x.dir, none⟩) ∧
    (∀ k, k ∈ p'.refs ↔ k ∈ p.refs ∨ ∃ x ∈ exs, rf = some (env.canon x.uid, x.dir) ∧ k = ⟨env.canon x.uid, x.dir, none⟩) := by
  induction hl generalizing p with
  | nil => unfold addXs at h; cases h; exact ⟨hp, by simp, by simp [Total], by simp, by simp⟩
  | @cons x y xs l hxy hl ih =>
    obtain ⟨hf, hd, hv, hcm⟩ := hxy
    unfold addXs at h
    cases hyf : y.flow with
    | none => rw [hyf] at h; cases h
    | some f =>
      rw [hyf] at h
      simp only at h
      have hff : f = env.canon x.uid := by
        rcases hf with hf | hf
        · rw [hyf] at hf; cases hf
        · rw [hyf] at hf; exact Option.some.inj hf
      subst hff
      cases hx : Proc.addExchange id (env.canon x.uid) y.dir none y.value none true p with
      | err e s => rw [hx] at h; cases h
      | ok u p1 =>
        rw [hx] at h
        simp only at h
        split at h
        · cases h
        · obtain ⟨a1, a2, a3, a4⟩ := addX_right hp hx
          have step : ∀ p2 : Proc.State U Q T, Pl p2 → (∀ f d, valOf p2 f d = valOf p1 f d) → (∀ k, k ∈ p2.exchs.keys ↔ k ∈ p1.exchs.keys) →
              (∀ k, k ∈ p2.refs ↔ k ∈ p.refs ∨ (rf = some (env.canon x.uid, x.dir) ∧ k = ⟨env.canon x.uid, x.dir, none⟩)) → addXs rf l p2 = .ok () p' →
              Pl p' ∧ (∀ z ∈ y :: l, z.flow ≠ none) ∧ (∀ f d, valOf p' f d = valOf p f d + Total env.canon f d (x :: xs)) ∧
              (∀ k, k ∈ p'.exchs.keys ↔ k ∈ p.exchs.keys ∨ ∃ z ∈ x :: xs, k = ⟨env.canon z.uid, z.dir, none⟩) ∧
              (∀ k, k ∈ p'.refs ↔ k ∈ p.refs ∨ ∃ z ∈ x :: xs, rf = some (env.canon z.uid, z.dir) ∧ k = ⟨env.canon z.uid, z.dir, none⟩) := by
            intro p2 b1 b2 b3 b4 b5
            obtain ⟨i1, i2, i3, i4, i5⟩ := ih b1 b5
            refine ⟨i1, ?_, ?_, ?_, ?_⟩
            · intro z hz
              rcases List.mem_cons.mp hz with rfl | hz
              · rw [hyf]; simp
              · exact i2 z hz
            · intro f d
              rw [i3, b2, a3, Total, hd, hv]
              simp only [ExEl.Is]
              ring
            · intro k
              rw [i4, b3, a4, hd]
              simp only [List.mem_cons, exists_eq_or_imp, or_assoc]
            · intro k
              rw [i5, b4]
              simp only [List.mem_cons, exists_eq_or_imp, or_assoc]
          split at h
          · rename_i hrf
            cases hr : Proc.addReference (fun _ _ => none) (env.canon x.uid) y.dir p1 with
            | err e s => rw [hr] at h; cases h
            | ok u p2 =>
              rw [hr] at h
              simp only at h
              obtain ⟨c1, c2, c3, c4⟩ := addRef_right a1 ((a4 _).mpr (.inr rfl)) hr
              refine step p2 c1 c3 c4 ?_ h
              intro k
              rw [c2, a2]
              rw [hd] at hrf ⊢
              simp [hrf]
          · rename_i hrf
            refine step p1 a1 (fun _ _ => rfl) (fun _ => Iff.rfl) ?_ h
            intro k
            rw [a2]
            rw [hd] at hrf
            simp [hrf]

theorem forall₂_left {α β : Type} {R : α → β → Prop} {l : List α} {m : List β} (h : List.Forall₂ R l m) {x : α} (hx : x ∈ l) : ∃ y ∈ m, R x y := by
  induction h with
  | nil => cases hx
  | @cons a b l m hab _ ih =>
    rcases List.mem_cons.mp hx with rfl | hx
    · exact ⟨b, by simp, hab⟩
    · obtain ⟨y, hy, hr⟩ := ih hx
      exact ⟨y, by simp [hy], hr⟩

theorem pl_empty : Pl ({} : Proc.State U Q T) := ⟨by simp, rfl⟩

/-- **C171** a process that is loaded has exactly the exchanges of its file, duplicates added up, and its flows are in the archive; other processes are
as they were. It has the reference flow of the file as its reference if the file writes the UUID of that flow in the usual form; if not, it has no
references -/
theorem loaded {env : Env U P} {d : ProcDoc U P} {a a' : Ar U Q T} {u : U} (ha : Usual env a) (hc : Consistent env d.exchs)
    (hn : a.procs.get? d.uuid = none) (h : createProcess env d a = .ok u a') :
    u = env.canon d.uuid ∧ ∃ st, a'.procs.get? u = some st ∧
      (∀ k, k ∈ st.exchs.keys ↔ ∃ x ∈ d.exchs, k = ⟨env.canon x.uid, x.dir, none⟩) ∧
      (∀ f e x, st.exchs.get? ⟨f, e, none⟩ = some x → x.value.getD 0 = Total env.canon f e d.exchs ∧ x.vdict = []) ∧
      (∀ k, k ∈ st.refs ↔ ∃ n x l1 l2, d.refFlow = some n ∧ d.exchs = l1 ++ x :: l2 ∧ x.id = n ∧ (∀ y ∈ l1, y.id ≠ n) ∧
        env.canon x.uid = x.uid ∧ k = ⟨x.uid, x.dir, none⟩) ∧
      (∀ x ∈ d.exchs, env.canon x.uid ∈ a'.flows.keys) ∧
      (∀ v, v ≠ u → a'.procs.get? v = a.procs.get? v) := by
  unfold createProcess at h
  cases hrf : refFlow d with
  | error e => rw [hrf] at h; cases h
  | ok rf =>
    rw [hrf] at h
    simp only at h
    cases hr : readExs env d.exchs a with
    | err e a1 => rw [hr] at h; cases h
    | ok l a1 =>
      rw [hr] at h
      simp only at h
      obtain ⟨r1, r2, r3, r4, r5, r6⟩ := readExs_right ha hc hr
      rw [r3, hn] at h
      simp only at h
      split at h
      · cases h
      · cases hx : addXs rf l ({} : Proc.State U Q T) with
        | err e p => rw [hx] at h; cases h
        | ok _ st =>
          rw [hx] at h
          simp only [Out.ok.injEq] at h
          obtain ⟨rfl, rfl⟩ := h
          obtain ⟨i1, i2, i3, i4, i5⟩ := addXs_right r1 pl_empty hx
          refine ⟨rfl, st, Dict.get?_set_self _ _ _, ?_, ?_, ?_, ?_, ?_⟩
          · intro k
            rw [i4]
            simp [Dict.keys]
          · intro f e x hx'
            have h1 := i3 f e
            simp only [valOf, hx', Option.bind_some] at h1
            refine ⟨by rw [h1]; simp, (i1.exch _ _ hx').2⟩
          · intro k
            rw [i5]
            simp only [List.not_mem_nil, false_or]
            constructor
            · rintro ⟨x, hxm, he, rfl⟩
              subst he
              unfold refFlow at hrf
              cases hn' : d.refFlow with
              | none => rw [hn'] at hrf; cases hrf
              | some n =>
                rw [hn'] at hrf
                simp only at hrf
                cases hfi : d.exchs.find? fun x => decide (x.id = n) with
                | none => rw [hfi] at hrf; cases hrf
                | some z =>
                  rw [hfi] at hrf
                  simp only [Except.ok.injEq, Option.some.injEq, Prod.mk.injEq] at hrf
                  obtain ⟨z1, as, bs, z2, z3⟩ := List.find?_eq_some_iff_append.mp hfi
                  refine ⟨n, z, as, bs, rfl, z2, by simpa using z1, fun y hy => by simpa using z3 y hy, ?_, ?_⟩
                  · rw [hrf.1, r2.idem]
                  · rw [hrf.1, hrf.2]
            · rintro ⟨n, x, l1, l2, e1, e2, e3, e4, e5, rfl⟩
              refine ⟨x, by rw [e2]; simp, ?_, by rw [e5]⟩
              have hfi : d.exchs.find? (fun x => decide (x.id = n)) = some x :=
                List.find?_eq_some_iff_append.mpr ⟨by simpa using e3, l1, l2, e2, fun y hy => by simpa using e4 y hy⟩
              unfold refFlow at hrf
              rw [e1] at hrf
              simp only [hfi, Except.ok.injEq] at hrf
              rw [e5]
              exact hrf.symm
          · intro x hxm
            obtain ⟨y, hy, hxy⟩ : ∃ y ∈ l, Reads env x y := by
              exact forall₂_left r1 hxm
            rcases hxy.1 with hf | hf
            · exact absurd hf (i2 y hy)
            · exact r6 y hy _ hf
          · intro v hv
            simp only [Dict.get?_set_ne _ _ (Ne.symm hv), r3]

end Ilcd
