import Verif.Model.Olca
import Verif.Props.Spold1

/-!
Loading OpenLCA processes: specification and lemmas.
-/

set_option linter.unusedSectionVars false

namespace Olca
open Proc (Dir Key)
open Spold1 (Plain valOf)

variable {P F Q T : Type} [DecidableEq P] [DecidableEq F] [DecidableEq Q] [DecidableEq T]

/-! ### specification -/

/-- `w q u` is the factor the unit group of the flow property `q` lists for the unit `u` -/
def Agrees (env : Env P F Q) (w : Q → String → ℚ) : Prop := ∀ q us, env.qty q = some us → ∀ c ∈ us, w q c.name = c.factor

/-- the exchange is of the flow and direction -/
def Ex.Is (ex : Ex F Q) (f : F) (d : Dir) : Prop := ex.flow = f ∧ ((ex.input = true ∧ d = .input) ∨ (ex.input = false ∧ d = .output))

instance (ex : Ex F Q) (f : F) (d : Dir) : Decidable (ex.Is f d) := by unfold Ex.Is; infer_instance

/-- the amount of the exchange in the reference unit of its flow property -/
def Ex.native (w : Q → String → ℚ) (ex : Ex F Q) : ℚ := ex.amount * (match ex.unit with | none => 1 | some u => w ex.fp u)

/-- the total of the flow in the direction -/
def Total (w : Q → String → ℚ) (f : F) (d : Dir) : List (Ex F Q) → ℚ
  | [] => 0
  | ex :: exs => (if ex.Is f d then ex.native w else 0) + Total w f d exs

/-- the allocation factor of the product by the method, zero if there is none -/
def factor (pj : PJ F Q) (m : String) (f : F) : ℚ :=
  match pj.factors.find? fun af => decide (af.typ = m ∧ af.product = f ∧ af.value ≠ 0) with
  | some af => af.value
  | none => 0

/-! ### units -/

theorem unitLoop_right {w : String → ℚ} {us : List Unit} {u u' : Option String} {t t' : Dict String ℚ} (hw : ∀ c ∈ us, w c.name = c.factor)
    (hu : ∀ n, u = some n → w n = 1) (ht : ∀ n c, t.get? n = some c → c = 1 / w n ∧ w n ≠ 0) (h : unitLoop us u t = .ok (u', t')) :
    (∀ n, u' = some n → w n = 1) ∧ (∀ n c, t'.get? n = some c → c = 1 / w n ∧ w n ≠ 0) := by
  induction us generalizing u t with
  | nil => unfold unitLoop at h; cases h; exact ⟨hu, ht⟩
  | cons c cs ih =>
    unfold unitLoop at h
    split at h
    · cases h
    · rename_i h0
      have hc := hw c (by simp)
      have ht1 : ∀ n x, (t.set c.name (1 / c.factor)).get? n = some x → x = 1 / w n ∧ w n ≠ 0 := by
        intro n x hx
        by_cases hn : c.name = n
        · subst hn
          rw [Dict.get?_set_self] at hx
          cases hx
          rw [hc]; exact ⟨rfl, h0⟩
        · rw [Dict.get?_set_ne _ _ hn] at hx
          exact ht n x hx
      have hcs : ∀ c ∈ cs, w c.name = c.factor := fun c' h' => hw c' (List.mem_cons_of_mem _ h')
      simp only at h
      split at h
      · split at h
        · rename_i h1
          exact ih hcs (by intro n hn; cases hn; rw [hc, h1]) ht1 h
        · cases h
      · exact ih hcs hu ht1 h

theorem getQty_right {env : Env P F Q} {w : Q → String → ℚ} (hw : Agrees env w) {q : Q} {ut : String × Dict String ℚ} (h : getQty env q = .ok ut) :
    w q ut.1 = 1 ∧ ∀ n c, ut.2.get? n = some c → c = 1 / w q n ∧ w q n ≠ 0 := by
  unfold getQty at h
  split at h
  · cases h
  · rename_i us hus
    split at h
    · cases h
    · cases h
    · rename_i u t hl
      cases h
      obtain ⟨h1, h2⟩ := unitLoop_right (w := w q) (hw q us hus) (by intro n hn; cases hn) (by intro n c hc; cases hc) hl
      exact ⟨h1 u rfl, h2⟩

theorem exValue_right {env : Env P F Q} {w : Q → String → ℚ} (hw : Agrees env w) {ex : Ex F Q} {v : ℚ} (h : exValue env ex = .ok v) :
    v = ex.native w := by
  unfold exValue at h
  split at h
  · cases h
  · split at h
    · cases h
    · rename_i q hq
      obtain ⟨h1, h2⟩ := getQty_right hw hq
      unfold Ex.native
      cases hu : ex.unit with
      | none =>
        simp only [hu] at h
        split at h
        · cases h; simp
        · cases h
      | some u =>
        simp only [hu] at h
        by_cases huq : u = q.1
        · simp only [huq, if_true] at h
          split at h
          · cases h; simp [huq, h1]
          · cases h
        · simp only [huq, if_false] at h
          cases hc : convert q u with
          | none => simp [hc] at h
          | some c =>
            simp only [hc] at h
            split at h
            · cases h
              unfold convert at hc
              cases hi : q.2.get? u with
              | none => simp [hi] at hc
              | some i =>
                cases ho : q.2.get? q.1 with
                | none => simp [hi, ho] at hc
                | some o =>
                  simp only [hi, ho, Option.some.injEq] at hc
                  obtain ⟨e1, e2⟩ := h2 _ _ hi
                  obtain ⟨e3, _⟩ := h2 _ _ ho
                  rw [h1] at e3
                  rw [← hc, e1, e3]
                  field_simp
            · cases h

theorem dir_is (ex : Ex F Q) (f : F) (d : Dir) : ex.Is f d ↔ ex.flow = f ∧ ex.dir = d := by
  unfold Ex.Is Ex.dir
  cases ex.input <;> cases d <;> simp

/-! ### exchanges and references -/

/-- the references and the flags of the exchanges agree -/
structure Wf (p : Proc.State F String T) : Prop where
  plain : Plain p
  flag : ∀ k x, p.exchs.get? k = some x → (x.isRef = true ↔ k ∈ p.refs)
  sub : ∀ k ∈ p.refs, k ∈ p.exchs.keys
  nodup : p.refs.Nodup

theorem addExchange_flag {x : Spold1.X F} {p p' : Proc.State F String T}
    (h : Proc.addExchange id x.flow x.dir none (some x.value) none true p = .ok () p') (hp : ∀ k e, p.exchs.get? k = some e → e.isRef = false) :
    ∀ k e, p'.exchs.get? k = some e → e.isRef = false := by
  have fin : ∀ e' : Proc.Exch F T, e'.isRef = false → p' = { p with exchs := p.exchs.set ⟨x.flow, x.dir, none⟩ e' } →
      ∀ k e, p'.exchs.get? k = some e → e.isRef = false := by
    rintro e' h1 rfl k e he
    by_cases hk : (⟨x.flow, x.dir, none⟩ : Key F T) = k
    · subst hk
      simp only [Dict.get?_set_self, Option.some.injEq] at he
      subst he; exact h1
    · simp only [Dict.get?_set_ne _ _ hk] at he
      exact hp k e he
  cases hg : p.exchs.get? ⟨x.flow, x.dir, none⟩ with
  | none =>
    simp only [Proc.addExchange, hg, Option.map_none, Out.ok.injEq, true_and] at h
    exact fin _ rfl h.symm
  | some e =>
    simp only [Proc.addExchange, hg] at h
    by_cases h0 : x.value = 0
    · simp only [h0, if_true, Out.ok.injEq, true_and] at h
      subst h; exact hp
    · simp only [h0, if_false, Proc.setValue] at h
      cases hv : e.value with
      | none =>
        simp only [hv, Out.ok.injEq, true_and] at h
        exact fin { e with value := some x.value } (hp _ e hg :) h.symm
      | some v =>
        simp only [hv, if_true, Proc.addToValue, Out.ok.injEq, true_and] at h
        exact fin { e with value := some (v + x.value) } (hp _ e hg :) h.symm

theorem addExs_right {env : Env P F Q} {w : Q → String → ℚ} (hw : Agrees env w) {exs : List (Ex F Q)} {p p' : Proc.State F String T}
    (hp : Plain p) (hf : ∀ k e, p.exchs.get? k = some e → e.isRef = false) (h : addExs env exs p = .ok () p') :
    Plain p' ∧ (∀ k e, p'.exchs.get? k = some e → e.isRef = false) ∧ p'.refs = p.refs ∧ (∀ f d, valOf p' f d = valOf p f d + Total w f d exs) ∧
    (∀ k, k ∈ p'.exchs.keys ↔ k ∈ p.exchs.keys ∨ ∃ f d, k = ⟨f, d, none⟩ ∧ ∃ ex ∈ exs, ex.Is f d) := by
  induction exs generalizing p with
  | nil => unfold addExs at h; cases h; exact ⟨hp, hf, rfl, by simp [Total], by simp⟩
  | cons ex exs ih =>
    unfold addExs at h
    cases hv : exValue env ex with
    | error e => simp [hv] at h
    | ok v =>
      simp only [hv] at h
      cases hx : Proc.addExchange id ex.flow ex.dir none (some v) none true p with
      | err e s => simp [hx] at h
      | ok u p1 =>
        simp only [hx] at h
        obtain ⟨h1, h2, h3, h4⟩ := Spold1.addX_right (x := ⟨ex.flow, ex.dir, v, false, false⟩) hp hx
        have hf1 := addExchange_flag (x := ⟨ex.flow, ex.dir, v, false, false⟩) hx hf
        obtain ⟨i1, i2, i3, i4, i5⟩ := ih h1 hf1 h
        refine ⟨i1, i2, by rw [i3, h2], ?_, ?_⟩
        · intro f d
          rw [i4, h3, Total, exValue_right hw hv]
          simp only [dir_is]
          ring
        · intro k
          rw [i5, h4]
          simp only [List.mem_cons, exists_eq_or_imp, and_or_left, exists_or]
          constructor
          · rintro ((h | rfl) | h)
            · exact Or.inl h
            · exact Or.inr (Or.inl ⟨ex.flow, ex.dir, rfl, (dir_is _ _ _).mpr ⟨rfl, rfl⟩⟩)
            · exact Or.inr (Or.inr h)
          · rintro (h | ⟨f, d, rfl, h⟩ | h)
            · exact Or.inl (Or.inl h)
            · obtain ⟨rfl, rfl⟩ := (dir_is _ _ _).mp h
              exact Or.inl (Or.inr rfl)
            · exact Or.inr h

theorem addReference_right (cf : F → String → Option ℚ) {f : F} {d : Dir} {p : Proc.State F String T} (hp : Wf p)
    (hk : (⟨f, d, none⟩ : Key F T) ∈ p.exchs.keys) :
    ∃ p', Proc.addReference cf f d p = .ok () p' ∧ Wf p' ∧ (∀ k, k ∈ p'.refs ↔ k ∈ p.refs ∨ k = ⟨f, d, none⟩) ∧
      (∀ g e, valOf p' g e = valOf p g e) ∧ (∀ k, k ∈ p'.exchs.keys ↔ k ∈ p.exchs.keys) := by
  obtain ⟨e, he⟩ := (Dict.mem_keys_iff _ _).mp hk
  obtain ⟨_, q2, v, q3⟩ := hp.plain.exch _ _ he
  have hmem : ∀ k, k ∈ PySet.add p.refs ⟨f, d, none⟩ ↔ k ∈ p.refs ∨ k = ⟨f, d, none⟩ := fun k => Spold.mem_add
  refine ⟨_, Spold.addReference_ok cf f d p hp.plain.alloc.1 e he, ⟨⟨?_, hp.plain.alloc⟩, ?_, ?_, ?_⟩, hmem, ?_, ?_⟩
  · intro k e' he'
    by_cases hkk : (⟨f, d, none⟩ : Key F T) = k
    · subst hkk
      simp only [Dict.get?_set_self, Option.some.injEq] at he'
      subst he'
      exact ⟨rfl, q2, v, q3⟩
    · simp only [Dict.get?_set_ne _ _ hkk] at he'
      exact hp.plain.exch k e' he'
  · intro k x hx
    by_cases hkk : (⟨f, d, none⟩ : Key F T) = k
    · subst hkk
      simp only [Dict.get?_set_self, Option.some.injEq] at hx
      subst hx
      simp [hmem]
    · simp only [Dict.get?_set_ne _ _ hkk] at hx
      rw [hp.flag k x hx, hmem]
      simp [Ne.symm hkk]
  · intro k hk'
    simp only [Dict.keys_set_of_mem _ _ hk]
    rcases (hmem k).mp hk' with h | rfl
    · exact hp.sub k h
    · exact hk
  · simp only [PySet.add]
    split
    · exact hp.nodup
    · rename_i hn
      rw [List.nodup_append]
      refine ⟨hp.nodup, by simp, ?_⟩
      intro a ha b hb hab
      simp only [List.mem_singleton] at hb
      subst hb hab
      exact hn ha
  · intro g e'
    simp only [valOf]
    by_cases hkk : (⟨f, d, none⟩ : Key F T) = ⟨g, e', none⟩
    · rw [← hkk, Dict.get?_set_self, he]; rfl
    · rw [Dict.get?_set_ne _ _ hkk]
  · intro k
    simp only [Dict.keys_set_of_mem _ _ hk]

theorem addRefs_right {exs : List (Ex F Q)} {p : Proc.State F String T} (hp : Wf p)
    (hk : ∀ ex ∈ exs, ex.isRef = true → (⟨ex.flow, ex.dir, none⟩ : Key F T) ∈ p.exchs.keys) :
    ∃ p', addRefs exs p = .ok () p' ∧ Wf p' ∧
      (∀ k, k ∈ p'.refs ↔ k ∈ p.refs ∨ ∃ f d, k = ⟨f, d, none⟩ ∧ ∃ ex ∈ exs, ex.isRef = true ∧ ex.Is f d) ∧
      (∀ g e, valOf p' g e = valOf p g e) ∧ (∀ k, k ∈ p'.exchs.keys ↔ k ∈ p.exchs.keys) := by
  induction exs generalizing p with
  | nil => exact ⟨p, rfl, hp, by simp, fun _ _ => rfl, fun _ => Iff.rfl⟩
  | cons ex exs ih =>
    unfold addRefs
    by_cases hr : ex.isRef = true
    · rw [if_pos hr]
      obtain ⟨p1, h1, h2, h3, h4, h5⟩ := addReference_right (fun _ _ => none) hp (hk ex (by simp) hr)
      obtain ⟨p', i1, i2, i3, i4, i5⟩ := ih h2 (fun ex' h' hr' => (h5 _).mpr (hk ex' (List.mem_cons_of_mem _ h') hr'))
      refine ⟨p', by rw [h1]; exact i1, i2, ?_, fun g e => by rw [i4, h4], fun k => by rw [i5, h5]⟩
      intro k
      rw [i3, h3]
      simp only [List.mem_cons, exists_eq_or_imp, and_or_left, exists_or, hr, true_and, or_assoc]
      refine or_congr_right (or_congr_left ?_)
      constructor
      · rintro rfl; exact ⟨_, _, rfl, (dir_is _ _ _).mpr ⟨rfl, rfl⟩⟩
      · rintro ⟨f, d, rfl, h⟩
        obtain ⟨rfl, rfl⟩ := (dir_is _ _ _).mp h
        rfl
    · rw [if_neg hr]
      obtain ⟨p', i1, i2, i3, i4, i5⟩ := ih hp (fun ex' h' hr' => hk ex' (List.mem_cons_of_mem _ h') hr')
      refine ⟨p', i1, i2, ?_, i4, i5⟩
      intro k
      rw [i3]
      simp [hr]

end Olca
