import Verif.Model.Spold1
import Verif.Props.Spold2b
import Mathlib.Tactic.Ring
import Mathlib.Tactic.FieldSimp

/-!
Loading EcoSpold v1 datasets: C158 (the amounts, in whatever units), C159 (failed loads, names).
-/

set_option linter.unusedSectionVars false

namespace Spold1
open Proc (Dir Key)

variable {F Q U T : Type} [DecidableEq F] [DecidableEq U] [DecidableEq T]

/-! ### specification -/

/-- the element is of direction `d` -/
def El.Has (e : El F U) (f : F) (d : Dir) : Prop :=
  e.flow = f ∧ ((e.grp = .input ∧ d = .input) ∨ ∃ n, e.grp = .output n ∧ d = .output)

/-- the element is a reference product -/
def El.Ref (e : El F U) (f : F) : Prop := e.flow = f ∧ (e.grp = .output 0 ∨ e.grp = .output 2)

/-- the total of the flow in the direction: the sum of the amounts, each times what its unit is worth for the flow -/
noncomputable def Total (w : F → U → ℚ) (f : F) (d : Dir) : List (El F U) → ℚ
  | [] => 0
  | e :: es => (open Classical in if e.Has f d then e.amount.getD 0 * w f e.unit else 0) + Total w f d es

/-- `w f u` is what a unit `u` of the flow `f` is worth (in some unit of its own): the conversions known and the answers of the user agree with it -/
structure Agrees (env : Env F U) (w : F → U → ℚ) : Prop where
  pos : ∀ f u, w f u ≠ 0
  conv : ∀ f u u' c, env.conv u u' = some c → w f u = c * w f u'
  ask : ∀ f u u' c, env.ask f u u' = some c → w f u = c * w f u'

/-- the archives there are: whatever was loaded before, with or without failure -/
inductive Hist (w : F → U → ℚ) : Ar F Q U T → Prop
  | new : Hist w ⟨[], []⟩
  | load (env : Env F U) (h : Agrees env w) (fn : String) {a : Ar F Q U T} : Hist w a → Hist w (createProcess env fn a).state

/-! ### lemmas -/

/-- the factors of the flows are right -/
def Good (w : F → U → ℚ) (flows : Dict F (Flow U)) : Prop :=
  ∀ f fl, flows.get? f = some fl → ∀ u c, fl.cfs.get? u = some c → w f fl.unit = c * w f u

/-- the flows keep their units -/
def Keeps (flows flows' : Dict F (Flow U)) : Prop := ∀ f fl, flows.get? f = some fl → ∃ fl', flows'.get? f = some fl' ∧ fl'.unit = fl.unit

theorem Keeps.refl (flows : Dict F (Flow U)) : Keeps flows flows := fun _ fl h => ⟨fl, h, rfl⟩

theorem Keeps.trans {a b c : Dict F (Flow U)} (h1 : Keeps a b) (h2 : Keeps b c) : Keeps a c := by
  intro f fl h
  obtain ⟨fl1, h3, h4⟩ := h1 f fl h
  obtain ⟨fl2, h5, h6⟩ := h2 f fl1 h3
  exact ⟨fl2, h5, by rw [h6, h4]⟩

theorem convFactor_right {env : Env F U} {w : F → U → ℚ} (hw : Agrees env w) {f : F} {fu lu : U} {c : ℚ} (h : convFactor env f fu lu = .ok c) :
    w f fu = c * w f lu := by
  unfold convFactor at h
  split at h
  · rename_i c' hc; cases h; exact hw.conv f _ _ _ hc
  · split at h
    · rename_i c' hc
      split at h
      · cases h
      · rename_i hc0
        cases h
        have := hw.conv f _ _ _ hc
        rw [this]; field_simp
    · split at h
      · rename_i c' hc; cases h; exact hw.ask f _ _ _ hc
      · cases h

theorem createFlow_right {env : Env F U} {w : F → U → ℚ} (hw : Agrees env w) {e : El F U} {flows flows' : Dict F (Flow U)} {fl : Flow U}
    (hg : Good w flows) (h : createFlow env e flows = .ok (fl, flows')) :
    Good w flows' ∧ Keeps flows flows' ∧ flows'.get? e.flow = some fl := by
  unfold createFlow at h
  split at h
  · rename_i hn
    cases h
    refine ⟨?_, ?_, Dict.get?_set_self _ _ _⟩
    · intro f fl hf u c hu
      by_cases hfe : e.flow = f
      · subst hfe
        rw [Dict.get?_set_self] at hf
        cases hf
        simp only [Dict.get?] at hu
        split at hu
        · rename_i heq
          cases hu
          have : e.unit = u := by simpa using heq
          rw [this]; simp
        · cases hu
      · rw [Dict.get?_set_ne _ _ hfe] at hf
        exact hg f fl hf u c hu
    · intro f fl hf
      by_cases hfe : e.flow = f
      · subst hfe; rw [hn] at hf; cases hf
      · exact ⟨fl, by rw [Dict.get?_set_ne _ _ hfe]; exact hf, rfl⟩
  · rename_i f0 hf0
    split at h
    · cases h; exact ⟨hg, Keeps.refl _, hf0⟩
    · cases hc : convFactor env e.flow f0.unit e.unit with
      | error err => simp [hc] at h
      | ok c =>
        simp only [hc, Except.ok.injEq, Prod.mk.injEq] at h
        obtain ⟨h1, h2⟩ := h
        subst h1 h2
        refine ⟨?_, ?_, Dict.get?_set_self _ _ _⟩
        · intro f fl hf u c' hu
          by_cases hfe : e.flow = f
          · subst hfe
            rw [Dict.get?_set_self] at hf
            cases hf
            by_cases hue : e.unit = u
            · subst hue
              simp only [Dict.get?_set_self, Option.some.injEq] at hu
              subst hu
              exact convFactor_right hw hc
            · simp only [Dict.get?_set_ne _ _ hue] at hu
              exact hg _ _ hf0 _ _ hu
          · rw [Dict.get?_set_ne _ _ hfe] at hf
            exact hg f fl hf u c' hu
        · intro f fl hf
          by_cases hfe : e.flow = f
          · subst hfe; rw [hf0] at hf; cases hf; exact ⟨_, Dict.get?_set_self _ _ _, rfl⟩
          · exact ⟨fl, by rw [Dict.get?_set_ne _ _ hfe]; exact hf, rfl⟩

theorem amountOf_right {w : F → U → ℚ} {e : El F U} {fl : Flow U} (hg : ∀ u c, fl.cfs.get? u = some c → w e.flow fl.unit = c * w e.flow u) {v : ℚ}
    (h : amountOf e fl = .ok v) : v * w e.flow fl.unit = e.amount.getD 0 * w e.flow e.unit := by
  unfold amountOf at h
  cases ha : e.amount with
  | none => simp [ha] at h
  | some m =>
    simp only [ha] at h
    split at h
    · rename_i hu; cases h; simp [hu]
    · split at h
      · cases h
      · rename_i hc
        cases h
        cases hcf : fl.cfs.get? e.unit with
        | none => simp [hcf] at hc
        | some c =>
          simp only [hcf, Option.getD_some] at hc ⊢
          rw [hg _ _ hcf]
          field_simp

/-- the sum of the exchanges read of a flow and direction -/
def sumX (f : F) (d : Dir) : List (X F) → ℚ
  | [] => 0
  | x :: xs => (if x.flow = f ∧ x.dir = d then x.value else 0) + sumX f d xs

theorem sumX_append (f : F) (d : Dir) (l m : List (X F)) : sumX f d (l ++ m) = sumX f d l + sumX f d m := by
  induction l with
  | nil => simp [sumX]
  | cons x l ih => simp [sumX, ih]; ring

theorem extractOne_right {w : F → U → ℚ} {e : El F U} {fl : Flow U} (hg : ∀ u c, fl.cfs.get? u = some c → w e.flow fl.unit = c * w e.flow u)
    {x : Option (X F)} (h : extractOne e fl = .ok x) (f : F) (d : Dir) :
    (f = e.flow → sumX f d x.toList * w f fl.unit = open Classical in if e.Has f d then e.amount.getD 0 * w f e.unit else 0) ∧
    ((∃ y ∈ x.toList, y.flow = f ∧ y.dir = d) ↔ e.Has f d) ∧ ((∃ y ∈ x.toList, y.flow = f ∧ y.isRef = true) ↔ e.Ref f) ∧
    (∀ y ∈ x.toList, y.isRef = true → y.dir = .output) := by
  unfold extractOne at h
  cases hgp : e.grp with
  | none =>
    simp only [hgp, Except.ok.injEq] at h
    subst h
    have : ¬ e.Has f d := by simp [El.Has, hgp]
    simp [sumX, El.Ref, hgp, this]
  | input =>
    simp only [hgp] at h
    cases ha : amountOf e fl with
    | error err => simp [ha] at h
    | ok v =>
      simp only [ha, Except.ok.injEq] at h
      subst h
      have hr := amountOf_right hg ha
      refine ⟨?_, ?_, ?_, ?_⟩
      · rintro rfl
        simp only [Option.toList_some, sumX, true_and, add_zero, El.Has, hgp, reduceCtorEq, false_and, exists_false, or_false]
        by_cases hd : d = .input
        · subst hd; simpa using hr
        · rw [if_neg (Ne.symm hd), if_neg hd]; simp
      · simp only [Option.toList_some, List.mem_singleton, exists_eq_left, El.Has, hgp, true_and, reduceCtorEq, false_and, exists_false, or_false]
        exact and_congr_right fun _ => eq_comm
      · simp [El.Ref, hgp]
      · simp
  | output n =>
    simp only [hgp] at h
    cases ha : amountOf e fl with
    | error err => simp [ha] at h
    | ok v =>
      simp only [ha, Except.ok.injEq] at h
      subst h
      have hr := amountOf_right hg ha
      refine ⟨?_, ?_, ?_, ?_⟩
      · rintro rfl
        simp only [Option.toList_some, sumX, true_and, add_zero, El.Has, hgp, reduceCtorEq, false_and, Grp.output.injEq, exists_eq_left', false_or]
        by_cases hd : d = .output
        · subst hd; simpa using hr
        · rw [if_neg (Ne.symm hd), if_neg hd]; simp
      · simp only [Option.toList_some, List.mem_singleton, exists_eq_left, El.Has, hgp, reduceCtorEq, false_and, Grp.output.injEq, exists_eq_left', false_or]
        exact and_congr_right fun _ => eq_comm
      · simp [El.Ref, hgp]
      · simp

theorem extract_right {env : Env F U} {w : F → U → ℚ} (hw : Agrees env w) {els : List (El F U)} {flows flows' : Dict F (Flow U)} {xs : List (X F)}
    (hg : Good w flows) (h : extract env els flows = .ok xs flows') :
    Good w flows' ∧ Keeps flows flows' ∧
    (∀ f d, (∃ e ∈ els, e.Has f d) → ∃ fl, flows'.get? f = some fl) ∧
    (∀ f d fl, flows'.get? f = some fl → sumX f d xs * w f fl.unit = Total w f d els) ∧
    (∀ f d, (∃ x ∈ xs, x.flow = f ∧ x.dir = d) ↔ ∃ e ∈ els, e.Has f d) ∧
    (∀ f, (∃ x ∈ xs, x.flow = f ∧ x.isRef = true) ↔ ∃ e ∈ els, e.Ref f) ∧
    (∀ x ∈ xs, x.isRef = true → x.dir = .output) := by
  induction els generalizing flows xs with
  | nil =>
    unfold extract at h
    cases h
    exact ⟨hg, Keeps.refl _, by simp, by simp [sumX, Total], by simp, by simp, by simp⟩
  | cons e es ih =>
    unfold extract at h
    cases hc : createFlow env e flows with
    | error err => simp [hc] at h
    | ok ff =>
      obtain ⟨fl, fl1⟩ := ff
      simp only [hc] at h
      obtain ⟨g1, k1, f1⟩ := createFlow_right hw hg hc
      cases hx : extractOne e fl with
      | error err => simp [hx] at h
      | ok x =>
        simp only [hx] at h
        cases he : extract env es fl1 with
        | err err s => simp [he] at h
        | ok ys s =>
          simp only [he, Out.ok.injEq] at h
          obtain ⟨h1, h2⟩ := h
          subst h1 h2
          obtain ⟨i1, i2, i3, i4, i5, i6, i7⟩ := ih g1 he
          have hxr := extractOne_right (w := w) (g1 _ _ f1) hx
          refine ⟨i1, k1.trans i2, ?_, ?_, ?_, ?_, ?_⟩
          · rintro f d ⟨e', he', hh⟩
            rcases List.mem_cons.mp he' with rfl | he'
            · obtain ⟨fl', h3, _⟩ := i2 _ _ f1
              exact ⟨fl', by rw [← hh.1]; exact h3⟩
            · exact i3 f d ⟨e', he', hh⟩
          · intro f d fl' hf
            rw [sumX_append, add_mul, i4 f d fl' hf, Total]
            congr 1
            by_cases hfe : f = e.flow
            · have := (hxr f d).1 hfe
              obtain ⟨fl2, h3, h4⟩ := i2 _ _ f1
              rw [← hfe, hf] at h3
              cases h3
              rw [h4]; exact this
            · have hno : ¬ e.Has f d := fun hh => hfe hh.1.symm
              rw [if_neg hno]
              have : sumX f d x.toList = 0 := by
                have h5 : ∀ y ∈ x.toList, y.flow ≠ f := by
                  intro y hy hyf
                  exact hno ((hxr f y.dir).2.1.mp ⟨y, hy, hyf, rfl⟩ |>.1 |> fun h => absurd h.symm hfe)
                cases x with
                | none => rfl
                | some y => simp [sumX, h5 y (by simp)]
              rw [this, zero_mul]
          · intro f d
            simp only [List.mem_append, List.mem_cons, or_and_right, exists_or, exists_eq_left]
            rw [← i5 f d]
            exact or_congr_left (hxr f d).2.1
          · intro f
            simp only [List.mem_append, List.mem_cons, or_and_right, exists_or, exists_eq_left]
            rw [← i6 f]
            exact or_congr_left (hxr f .input).2.2.1
          · intro y hy hr
            rcases List.mem_append.mp hy with hy | hy
            · exact (hxr y.flow .input).2.2.2 y hy hr
            · exact i7 y hy hr

/-- a process whose exchanges are as they are read: each with one value, no references -/
structure Plain (p : Proc.State F Q T) : Prop where
  exch : ∀ k e, p.exchs.get? k = some e → k.term = none ∧ e.vdict = [] ∧ ∃ v, e.value = some v
  alloc : p.allocSum = 0 ∧ p.allocQ = none

/-- the value of an exchange, zero if there is none -/
def valOf (p : Proc.State F Q T) (f : F) (d : Dir) : ℚ := ((p.exchs.get? ⟨f, d, none⟩).bind (·.value)).getD 0

theorem addX_right {x : X F} {p p' : Proc.State F Q T} (hp : Plain p)
    (h : Proc.addExchange id x.flow x.dir none (some x.value) none true p = .ok () p') :
    Plain p' ∧ p'.refs = p.refs ∧ (∀ f d, valOf p' f d = valOf p f d + if x.flow = f ∧ x.dir = d then x.value else 0) ∧
    (∀ k, k ∈ p'.exchs.keys ↔ k ∈ p.exchs.keys ∨ k = ⟨x.flow, x.dir, none⟩) := by
  have fin : ∀ e' : Proc.Exch F T, e'.vdict = [] → (∃ v, e'.value = some v ∧ v = valOf p x.flow x.dir + x.value) →
      p' = { p with exchs := p.exchs.set ⟨x.flow, x.dir, none⟩ e' } →
      Plain p' ∧ p'.refs = p.refs ∧ (∀ f d, valOf p' f d = valOf p f d + if x.flow = f ∧ x.dir = d then x.value else 0) ∧
        (∀ k, k ∈ p'.exchs.keys ↔ k ∈ p.exchs.keys ∨ k = ⟨x.flow, x.dir, none⟩) := by
    rintro e' h1 ⟨v, h2, h3⟩ rfl
    refine ⟨⟨?_, hp.alloc⟩, rfl, ?_, ?_⟩
    · intro k e he
      by_cases hk : (⟨x.flow, x.dir, none⟩ : Key F T) = k
      · subst hk
        simp only [Dict.get?_set_self, Option.some.injEq] at he
        subst he
        exact ⟨rfl, h1, v, h2⟩
      · simp only [Dict.get?_set_ne _ _ hk] at he
        exact hp.exch k e he
    · intro f d
      by_cases hk : x.flow = f ∧ x.dir = d
      · obtain ⟨rfl, rfl⟩ := hk
        simp only [true_and, if_true]
        rw [← h3]
        simp [valOf, h2]
      · have hne : (⟨x.flow, x.dir, none⟩ : Key F T) ≠ ⟨f, d, none⟩ := by
          intro hh; apply hk; simp only [Key.mk.injEq] at hh; exact ⟨hh.1, hh.2.1⟩
        rw [if_neg hk, add_zero]
        simp only [valOf, Dict.get?_set_ne _ _ hne]
    · intro k
      rw [Dict.mem_keys_set]
      tauto
  cases hg : p.exchs.get? ⟨x.flow, x.dir, none⟩ with
  | none =>
    simp only [Proc.addExchange, hg, Option.map_none, Out.ok.injEq, true_and] at h
    exact fin { value := some x.value } rfl ⟨x.value, rfl, by simp [valOf, hg]⟩ h.symm
  | some e =>
    obtain ⟨_, h2, v, h3⟩ := hp.exch _ _ hg
    simp only [Proc.addExchange, hg] at h
    by_cases h0 : x.value = 0
    · simp only [h0, if_true, Out.ok.injEq, true_and] at h
      subst h
      refine ⟨hp, rfl, by intro f d; simp [h0], ?_⟩
      intro k
      constructor
      · exact Or.inl
      · rintro (h | rfl)
        · exact h
        · rw [Dict.mem_keys_iff]; exact ⟨e, hg⟩
    · simp only [h0, if_false, Proc.setValue, h3, if_true, Proc.addToValue, Out.ok.injEq, true_and] at h
      exact fin { e with value := some (v + x.value) } h2 ⟨v + x.value, rfl, by simp [valOf, hg, h3]⟩ h.symm

theorem addXs_right {xs : List (X F)} {p p' : Proc.State F Q T} (hp : Plain p) (h : addXs xs p = .ok p') :
    Plain p' ∧ p'.refs = p.refs ∧ (∀ f d, valOf p' f d = valOf p f d + sumX f d xs) ∧
    (∀ k, k ∈ p'.exchs.keys ↔ k ∈ p.exchs.keys ∨ ∃ x ∈ xs, k = ⟨x.flow, x.dir, none⟩) := by
  induction xs generalizing p with
  | nil => unfold addXs at h; cases h; exact ⟨hp, rfl, by simp [sumX], by simp⟩
  | cons x xs ih =>
    unfold addXs at h
    cases hx : Proc.addExchange id x.flow x.dir none (some x.value) none true p with
    | err e s => simp [hx] at h
    | ok u p1 =>
      simp only [hx] at h
      split at h
      · cases h
      · obtain ⟨h1, h2, h3, h4⟩ := addX_right hp hx
        obtain ⟨i1, i2, i3, i4⟩ := ih h1 h
        refine ⟨i1, by rw [i2, h2], ?_, ?_⟩
        · intro f d; rw [i3, h3, sumX]; ring
        · intro k; rw [i4, h4]; simp only [List.mem_cons, exists_eq_or_imp]; tauto

theorem addRefs_right {fs : List F} {p : Proc.State F Q T} (hp : Plain p) (hk : ∀ f ∈ fs, (⟨f, .output, none⟩ : Key F T) ∈ p.exchs.keys) :
    ∃ p', addRefs fs p = .ok p' ∧ Plain p' ∧ (∀ k, k ∈ p'.refs ↔ k ∈ p.refs ∨ ∃ f ∈ fs, k = ⟨f, .output, none⟩) ∧
      (∀ f d, valOf p' f d = valOf p f d) ∧ (∀ k, k ∈ p'.exchs.keys ↔ k ∈ p.exchs.keys) ∧
      (∀ k e', p'.exchs.get? k = some e' → ∃ e, p.exchs.get? k = some e ∧ e'.value = e.value ∧
        (e'.isRef = true ↔ e.isRef = true ∨ ∃ f ∈ fs, k = ⟨f, .output, none⟩)) := by
  induction fs generalizing p with
  | nil => exact ⟨p, rfl, hp, by simp, fun _ _ => rfl, fun _ => Iff.rfl, fun k e h => ⟨e, h, rfl, by simp⟩⟩
  | cons f fs ih =>
    obtain ⟨e, he⟩ := (Dict.mem_keys_iff _ _).mp (hk f (by simp))
    obtain ⟨q1, q2, v, q3⟩ := hp.exch _ _ he
    have h1 := Spold.addReference_ok (fun _ _ => none) f .output p hp.alloc.1 e he
    have hp1 : Plain ({ p with exchs := p.exchs.set ⟨f, .output, none⟩ { e with isRef := true }, refs := PySet.add p.refs ⟨f, .output, none⟩ } : Proc.State F Q T) := by
      refine ⟨?_, hp.alloc⟩
      intro k e' he'
      by_cases hkk : (⟨f, .output, none⟩ : Key F T) = k
      · subst hkk
        simp only [Dict.get?_set_self, Option.some.injEq] at he'
        subst he'
        exact ⟨rfl, q2, v, q3⟩
      · simp only [Dict.get?_set_ne _ _ hkk] at he'
        exact hp.exch k e' he'
    have hmem : (⟨f, .output, none⟩ : Key F T) ∈ p.exchs.keys := hk f (by simp)
    obtain ⟨p', i1, i2, i3, i4, i5, i6⟩ := ih hp1 (by
      intro g hg
      simp only [Dict.keys_set_of_mem _ _ hmem]
      exact hk g (List.mem_cons_of_mem _ hg))
    refine ⟨p', by unfold addRefs; rw [h1]; exact i1, i2, ?_, ?_, ?_, ?_⟩
    · intro k
      rw [i3]
      simp only [Spold.mem_add, List.mem_cons, exists_eq_or_imp, or_assoc]
    · intro g d
      rw [i4]
      simp only [valOf]
      by_cases hkk : (⟨f, .output, none⟩ : Key F T) = ⟨g, d, none⟩
      · rw [← hkk, Dict.get?_set_self, he]; rfl
      · rw [Dict.get?_set_ne _ _ hkk]
    · intro k
      rw [i5]
      simp only [Dict.keys_set_of_mem _ _ hmem]
    · intro k e' he'
      obtain ⟨e1, j1, j2, j3⟩ := i6 k e' he'
      by_cases hkk : (⟨f, .output, none⟩ : Key F T) = k
      · subst hkk
        simp only [Dict.get?_set_self, Option.some.injEq] at j1
        subst j1
        refine ⟨e, he, j2, ?_⟩
        rw [j3]
        simp
      · simp only [Dict.get?_set_ne _ _ hkk] at j1
        refine ⟨e1, j1, j2, ?_⟩
        rw [j3]
        simp only [List.mem_cons, exists_eq_or_imp]
        have : k ≠ ⟨f, .output, none⟩ := Ne.symm hkk
        tauto

end Spold1
