import Verif.Lemmas.Configure4

/-! From the archive to its processes and back. -/

set_option linter.unusedSectionVars false

namespace Cfg
open Proc
variable {P F Q T : Type} [DecidableEq P] [DecidableEq F] [DecidableEq Q] [DecidableEq T]

/-- a method that acts on each process separately -/
def Proj {K : Type} (m : K → Arch P F Q T → Out (Arch P F Q T) Err Unit)
    (pm : (F → Q → Option ℚ) → List P → P → K → State F Q T → Option (State F Q T)) : Prop :=
  ∀ k s s', m k s = .ok () s' ↔
    (s' = { s with proc := s'.proc } ∧ ∀ p, pm (cfOf s.chars) s.pids p k (s.proc p) = some (s'.proc p))

theorem onProc_iff (p : P) (g : State F Q T → Out (State F Q T) Proc.Err Unit) (s s' : Arch P F Q T) :
    onProc p g s = .ok () s' ↔ (s' = { s with proc := s'.proc } ∧
      ∀ p', (if p = p' then ok? (g (s.proc p')) else some (s.proc p')) = some (s'.proc p')) := by
  unfold onProc
  cases hg : g (s.proc p) with
  | err e x =>
    constructor
    · intro h; simp at h
    · rintro ⟨_, h⟩
      have := h p
      rw [if_pos rfl, hg] at this
      simp [ok?] at this
  | ok a x =>
    simp only [Out.ok.injEq, true_and]
    constructor
    · rintro rfl
      refine ⟨rfl, fun p' => ?_⟩
      by_cases h : p = p'
      · subst h; simp [hg, ok?]
      · rw [if_neg h]; dsimp only; rw [Function.update_of_ne (Ne.symm h)]
    · rintro ⟨h1, h2⟩
      rw [h1]
      congr 1
      funext p'
      have := h2 p'
      by_cases h : p = p'
      · subst h
        rw [if_pos rfl, hg] at this
        simp [ok?] at this
        rw [Function.update_self, this]
      · rw [if_neg h] at this
        simp at this
        rw [Function.update_of_ne (Ne.symm h), this]

theorem proj_set : Proj (P := P) (F := F) (Q := Q) (T := T) setReference (fun cf _ p k x => pset cf p k x) := by
  intro k s s'
  unfold setReference
  rw [onProc_iff]
  rfl

theorem proj_alloc (ov : Bool) :
    Proj (P := P) (F := F) (Q := Q) (T := T) (allocateByQuantity ov) (fun cf _ p k x => palloc cf ov p k x) := by
  intro k s s'
  unfold allocateByQuantity
  rw [onProc_iff]
  rfl

theorem sweep_iff (f : F) (d : Option Dir) (ps : List P) (s s' : Arch P F Q T) :
    sweep f d ps s = .ok () s' ↔ (s' = s ∧ ∀ p ∈ ps, sweepProc (cfOf s.chars) f d (s.proc p) = none) := by
  induction ps with
  | nil => simp [sweep, eq_comm]
  | cons p ps ih =>
    simp only [sweep]
    cases hg : sweepProc (cfOf s.chars) f d (s.proc p) with
    | none => simp only [ih, List.mem_cons, forall_eq_or_imp, hg, true_and]
    | some r =>
      constructor
      · intro h
        exfalso
        simp only at h
        cases ho : onProc p (fun _ => r) s with
        | ok a x => rw [ho] at h; simp [Out.bind] at h
        | err e x => rw [ho] at h; simp [Out.bind] at h
      · rintro ⟨_, h⟩
        have := h p List.mem_cons_self
        rw [hg] at this; simp at this

theorem proj_unset : Proj (P := P) (F := F) (Q := Q) (T := T) unsetReference (fun cf pids p k x => punset cf pids p k x) := by
  intro k s s'
  cases k with
  | one p f d => simp only [unsetReference]; rw [onProc_iff]; rfl
  | every p d => simp only [unsetReference]; rw [onProc_iff]; rfl
  | anywhere f d =>
    simp only [unsetReference]
    rw [sweep_iff]
    simp only [punset]
    constructor
    · rintro ⟨rfl, h⟩
      refine ⟨rfl, fun p => ?_⟩
      rw [if_neg]
      rintro ⟨h1, h2⟩
      rw [h p h1] at h2; simp at h2
    · rintro ⟨h1, h2⟩
      constructor
      · rw [h1]
        have : s'.proc = s.proc := by
          funext p
          have := h2 p
          split at this
          · simp at this
          · simpa using this.symm
        rw [this]
      · intro p hp
        have := h2 p
        split at this
        · simp at this
        · rename_i hn
          by_contra hc
          exact hn ⟨hp, Option.isSome_iff_ne_none.mpr hc⟩

theorem each_iff {K : Type} {m : K → Arch P F Q T → Out (Arch P F Q T) Err Unit}
    {pm : (F → Q → Option ℚ) → List P → P → K → State F Q T → Option (State F Q T)} (hp : Proj m pm) (ks : List K)
    (s s' : Arch P F Q T) :
    each m ks s = .ok () s' ↔
      (s' = { s with proc := s'.proc } ∧
        ∀ p, pall (pm (cfOf s.chars) s.pids p) ks (s.proc p) = some (s'.proc p)) := by
  induction ks generalizing s with
  | nil =>
    simp only [each, pall, Out.ok.injEq, true_and, Option.some.injEq]
    constructor
    · rintro rfl; exact ⟨rfl, fun _ => rfl⟩
    · rintro ⟨h1, h2⟩
      rw [h1, ← funext h2]
  | cons k ks ih =>
    simp only [each]
    constructor
    · intro h
      cases hm : m k s with
      | err e x => rw [hm] at h; simp [Out.bind] at h
      | ok a x =>
        rw [hm] at h
        simp only [Out.bind] at h
        obtain ⟨h1, h2⟩ := (hp k s x).mp hm
        obtain ⟨h3, h4⟩ := (ih x).mp h
        have hc : x.chars = s.chars := by rw [h1]
        have hi : x.pids = s.pids := by rw [h1]
        have hq : x.refq = s.refq := by rw [h1]
        refine ⟨?_, fun p => ?_⟩
        · rw [h3]
          simp only [hc, hi, hq]
        · rw [pall_cons, h2 p, Option.bind_some, ← h4 p, hc, hi]
    · rintro ⟨h1, h2⟩
      have hw : ∀ p, ∃ w, pm (cfOf s.chars) s.pids p k (s.proc p) = some w ∧
          pall (pm (cfOf s.chars) s.pids p) ks w = some (s'.proc p) := by
        intro p
        have := h2 p
        rw [pall_cons, Option.bind_eq_some_iff] at this
        exact this
      choose w hw1 hw2 using hw
      have hm : m k s = .ok () { s with proc := w } := (hp k s _).mpr ⟨rfl, hw1⟩
      rw [hm]
      simp only [Out.bind]
      rw [ih]
      exact ⟨by rw [h1], hw2⟩

/-! ### characterize_flow -/

/-- the characterizations after a list of entries -/
def charsRun (ov : Bool) (refq : F → Q) : List (F × Q × ℚ) → (F → Q → Option (Dict String ℚ)) →
    Option (F → Q → Option (Dict String ℚ))
  | [], ch => some ch
  | k :: ks, ch =>
    let set := fun f' q' => if f' = k.1 ∧ q' = k.2.1 then some [("GLO", k.2.2)] else ch f' q'
    if (ch k.1 k.2.1).isSome then
      if ov then
        if k.2.1 = refq k.1 then none else charsRun ov refq ks set
      else charsRun ov refq ks ch
    else charsRun ov refq ks set

theorem each_chars_iff (ov : Bool) (ks : List (F × Q × ℚ)) (s s' : Arch P F Q T) :
    each (characterizeFlow ov) ks s = .ok () s' ↔
      (s' = { s with chars := s'.chars } ∧ charsRun ov s.refq ks s.chars = some s'.chars) := by
  induction ks generalizing s with
  | nil =>
    simp only [each, charsRun, Out.ok.injEq, true_and, Option.some.injEq]
    constructor
    · rintro rfl; exact ⟨rfl, rfl⟩
    · rintro ⟨h1, h2⟩; rw [h1, ← h2]
  | cons k ks ih =>
    simp only [each, charsRun, characterizeFlow, setChars]
    split
    · split
      · split
        · simp [Out.bind]
        · simp only [Out.bind, ih]
      · simp only [Out.bind, ih]
    · simp only [Out.bind, ih]

/-- the last value given for a flow and quantity -/
def lastVal (f : F) (q : Q) : List (F × Q × ℚ) → Option ℚ
  | [] => none
  | k :: ks => match lastVal f q ks with
    | some v => some v
    | none => if k.1 = f ∧ k.2.1 = q then some k.2.2 else none

theorem charsRun_overwrite {refq : F → Q} (ks : List (F × Q × ℚ)) {ch ch' : F → Q → Option (Dict String ℚ)}
    (hq : ∀ f, ch f (refq f) ≠ none) (h : charsRun true refq ks ch = some ch') :
    (∀ k ∈ ks, k.2.1 ≠ refq k.1) ∧ (∀ f q, ch' f q = match lastVal f q ks with
      | some v => some [("GLO", v)]
      | none => ch f q) := by
  induction ks generalizing ch with
  | nil => simp [charsRun] at h; subst h; exact ⟨by simp, fun _ _ => rfl⟩
  | cons k ks ih =>
    simp only [charsRun, if_true] at h
    have hk : k.2.1 ≠ refq k.1 := by
      intro he
      rw [he, if_pos (Option.isSome_iff_ne_none.mpr (hq k.1)), if_pos rfl] at h
      simp at h
    rw [if_neg hk] at h
    have h' : charsRun true refq ks (fun f' q' => if f' = k.1 ∧ q' = k.2.1 then some [("GLO", k.2.2)] else ch f' q') = some ch' := by
      split at h <;> exact h
    obtain ⟨h1, h2⟩ := ih (by
      intro f
      split
      · simp
      · exact hq f) h'
    refine ⟨?_, ?_⟩
    · intro k' hk'
      rcases List.mem_cons.mp hk' with rfl | hk'
      · exact hk
      · exact h1 k' hk'
    · intro f q
      rw [h2]
      simp only [lastVal]
      cases lastVal f q ks with
      | some v => rfl
      | none =>
        simp only
        by_cases he : k.1 = f ∧ k.2.1 = q
        · rw [if_pos he, if_pos ⟨he.1.symm, he.2.symm⟩]
        · rw [if_neg he, if_neg (fun e => he ⟨e.1.symm, e.2.symm⟩)]

theorem charsRun_keep {refq : F → Q} (ks : List (F × Q × ℚ)) {ch ch' : F → Q → Option (Dict String ℚ)}
    (h : charsRun false refq ks ch = some ch') :
    (∀ f q, ch f q ≠ none → ch' f q = ch f q) ∧ (∀ k ∈ ks, ch' k.1 k.2.1 ≠ none) ∧
      (∀ f q, ch' f q = ch f q ∨ ∃ v, ch' f q = some [("GLO", v)]) := by
  induction ks generalizing ch with
  | nil => simp [charsRun] at h; subst h; exact ⟨fun _ _ _ => rfl, by simp, fun _ _ => Or.inl rfl⟩
  | cons k ks ih =>
    simp only [charsRun, Bool.false_eq_true, if_false] at h
    split at h
    · rename_i hs
      obtain ⟨h1, h2, h3⟩ := ih h
      refine ⟨h1, ?_, h3⟩
      intro k' hk'
      rcases List.mem_cons.mp hk' with rfl | hk'
      · have := Option.isSome_iff_ne_none.mp hs
        rw [h1 _ _ this]; exact this
      · exact h2 k' hk'
    · rename_i hs
      obtain ⟨h1, h2, h3⟩ := ih h
      refine ⟨?_, ?_, ?_⟩
      · intro f q hn
        have hne : ¬ (f = k.1 ∧ q = k.2.1) := by
          rintro ⟨rfl, rfl⟩
          exact hs (Option.isSome_iff_ne_none.mpr hn)
        have := h1 f q (by rw [if_neg hne]; exact hn)
        rw [this, if_neg hne]
      · intro k' hk'
        rcases List.mem_cons.mp hk' with rfl | hk'
        · rw [h1 _ _ (by simp)]; simp
        · exact h2 k' hk'
      · intro f q
        rcases h3 f q with h4 | h4
        · rw [h4]
          by_cases he : f = k.1 ∧ q = k.2.1
          · right; exact ⟨k.2.2, by rw [if_pos he]⟩
          · left; rw [if_neg he]
        · exact Or.inr h4

theorem charsRun_stay {refq : F → Q} (ks : List (F × Q × ℚ)) {ch : F → Q → Option (Dict String ℚ)}
    (h : ∀ k ∈ ks, ch k.1 k.2.1 ≠ none) : charsRun false refq ks ch = some ch := by
  induction ks with
  | nil => rfl
  | cons k ks ih =>
    simp only [charsRun, Bool.false_eq_true, if_false]
    rw [if_pos (Option.isSome_iff_ne_none.mpr (h k List.mem_cons_self))]
    exact ih fun k' hk' => h k' (List.mem_cons_of_mem _ hk')

theorem charsRun_redo {refq : F → Q} (ks : List (F × Q × ℚ)) (ch : F → Q → Option (Dict String ℚ))
    (hn : ∀ k ∈ ks, k.2.1 ≠ refq k.1) : ∃ ch', charsRun true refq ks ch = some ch' := by
  induction ks generalizing ch with
  | nil => exact ⟨ch, rfl⟩
  | cons k ks ih =>
    simp only [charsRun, if_true]
    rw [if_neg (hn k List.mem_cons_self)]
    have := ih (fun f' q' => if f' = k.1 ∧ q' = k.2.1 then some [("GLO", k.2.2)] else ch f' q')
      fun k' hk' => hn k' (List.mem_cons_of_mem _ hk')
    split <;> exact this

theorem charsRun_idem {ov : Bool} {refq : F → Q} (ks : List (F × Q × ℚ)) {ch ch' : F → Q → Option (Dict String ℚ)}
    (hq : ∀ f, ch f (refq f) ≠ none) (h : charsRun ov refq ks ch = some ch') :
    charsRun ov refq ks ch' = some ch' := by
  cases ov with
  | false => exact charsRun_stay ks (charsRun_keep ks h).2.1
  | true =>
    obtain ⟨h1, h2⟩ := charsRun_overwrite ks hq h
    obtain ⟨ch'', h3⟩ := charsRun_redo (refq := refq) ks ch' h1
    have hq' : ∀ f, ch' f (refq f) ≠ none := by
      intro f; rw [h2]
      split
      · simp
      · exact hq f
    obtain ⟨_, h4⟩ := charsRun_overwrite ks hq' h3
    rw [h3]
    congr 1
    funext f q
    rw [h4]
    have := h2 f q
    split
    · rename_i v hv
      rw [this, hv]
    · rfl

/-- a characterization without a value stays the only source of None -/
theorem charsRun_values {ov : Bool} {refq : F → Q} (ks : List (F × Q × ℚ)) {ch ch' : F → Q → Option (Dict String ℚ)}
    (hq : ∀ f, ch f (refq f) ≠ none) (hv : ∀ f q, ch f q ≠ some []) (h : charsRun ov refq ks ch = some ch') :
    (∀ f q, ch' f q ≠ some []) ∧ ∀ f, ch' f (refq f) ≠ none := by
  cases ov with
  | false =>
    obtain ⟨h1, _, h3⟩ := charsRun_keep ks h
    refine ⟨fun f q => ?_, fun f => ?_⟩
    · rcases h3 f q with h4 | ⟨v, h4⟩
      · rw [h4]; exact hv f q
      · rw [h4]; simp
    · rw [h1 _ _ (hq f)]; exact hq f
  | true =>
    obtain ⟨_, h2⟩ := charsRun_overwrite ks hq h
    refine ⟨fun f q => ?_, fun f => ?_⟩
    · rw [h2]
      split
      · simp
      · exact hv f q
    · rw [h2]
      split
      · simp
      · exact hq f

/-- the factors, where none is None -/
def factor (s : Arch P F Q T) (f : F) (q : Q) : ℚ := (cfOf s.chars f q).getD 0

theorem factor_known {s : Arch P F Q T} (h : ∀ f q, s.chars f q ≠ some []) : cfOf s.chars = known (factor s) := by
  funext f q
  have : ∃ v, cfOf s.chars f q = some v := by
    unfold cfOf
    split
    · exact ⟨0, rfl⟩
    · rename_i d hd
      split
      · exact ⟨_, rfl⟩
      · split
        · rename_i he
          exact absurd (by rw [hd, List.isEmpty_iff.mp he]) (h f q)
        · exact ⟨0, rfl⟩
  obtain ⟨v, hv⟩ := this
  simp [known, factor, hv]

/-- one application of a configuration, process by process -/
theorem apply_iff {cfg : Config P F Q} {ov : Bool} {s s' : Arch P F Q T} (hv : ∀ f q, s.chars f q ≠ some [])
    (hq : ∀ f, s.chars f (s.refq f) ≠ none) :
    applyConfig cfg ov s = .ok () s' ↔
      (s' = { s with proc := s'.proc, chars := s'.chars } ∧
        charsRun ov s.refq cfg.characterize_flow s.chars = some s'.chars ∧
        ∀ p, prun (factor s) (factor s') s.pids p cfg ov (s.proc p) = some (s'.proc p)) := by
  unfold applyConfig
  constructor
  · intro h
    cases e1 : each setReference cfg.set_reference s with
    | err e x => rw [e1] at h; simp [Out.bind] at h
    | ok _ s1 =>
    rw [e1] at h; simp only [Out.bind] at h
    cases e2 : each unsetReference cfg.unset_reference s1 with
    | err e x => rw [e2] at h; simp at h
    | ok _ s2 =>
    rw [e2] at h; simp only at h
    cases e3 : each (characterizeFlow ov) cfg.characterize_flow s2 with
    | err e x => rw [e3] at h; simp at h
    | ok _ s3 =>
    rw [e3] at h; simp only at h
    obtain ⟨f1, p1⟩ := (each_iff proj_set _ _ _).mp e1
    obtain ⟨f2, p2⟩ := (each_iff proj_unset _ _ _).mp e2
    obtain ⟨f3, p3⟩ := (each_chars_iff ov _ _ _).mp e3
    obtain ⟨f4, p4⟩ := (each_iff (proj_alloc ov) _ _ _).mp h
    have c1 : s1.chars = s.chars := by rw [f1]
    have i1 : s1.pids = s.pids := by rw [f1]
    have q1 : s1.refq = s.refq := by rw [f1]
    have c2 : s2.chars = s.chars := by rw [f2, c1]
    have i2 : s2.pids = s.pids := by rw [f2, i1]
    have q2 : s2.refq = s.refq := by rw [f2, q1]
    have i3 : s3.pids = s.pids := by rw [f3, i2]
    have q3 : s3.refq = s.refq := by rw [f3, q2]
    have r3 : s3.proc = s2.proc := by rw [f3]
    have c4 : s'.chars = s3.chars := by rw [f4]
    have i4 : s'.pids = s.pids := by rw [f4, i3]
    have q4 : s'.refq = s.refq := by rw [f4, q3]
    rw [q2, c2, ← c4] at p3
    have hv' := (charsRun_values _ hq hv p3).1
    refine ⟨?_, p3, ?_⟩
    · rw [← i4, ← q4]
    · intro p
      unfold prun prefs
      have a1 := p1 p
      have a2 := p2 p
      have a4 := p4 p
      rw [factor_known hv] at a1
      rw [c1, i1, factor_known hv] at a2
      rw [← c4, factor_known hv', r3] at a4
      rw [a1, Option.bind_some, a2, Option.bind_some, a4]
  · rintro ⟨h1, h2, h3⟩
    have hw : ∀ p, ∃ a b, pall (pset (known (factor s)) p) cfg.set_reference (s.proc p) = some a ∧
        pall (punset (known (factor s)) s.pids p) cfg.unset_reference a = some b ∧
        pall (palloc (known (factor s')) ov p) cfg.allocate_by_quantity b = some (s'.proc p) := by
      intro p
      have := h3 p
      unfold prun prefs at this
      rw [Option.bind_eq_some_iff] at this
      obtain ⟨b, hb, hc⟩ := this
      rw [Option.bind_eq_some_iff] at hb
      obtain ⟨a, ha, hb⟩ := hb
      exact ⟨a, b, ha, hb, hc⟩
    choose a b ha hb hc using hw
    have hv' := (charsRun_values _ hq hv h2).1
    have e1 : each setReference cfg.set_reference s = .ok () { s with proc := a } :=
      (each_iff proj_set _ _ _).mpr ⟨rfl, fun p => by rw [factor_known hv]; exact ha p⟩
    have e2 : each unsetReference cfg.unset_reference { s with proc := a } = .ok () { s with proc := b } :=
      (each_iff proj_unset _ _ _).mpr ⟨rfl, fun p => by
        change pall (punset (cfOf s.chars) s.pids p) _ _ = _
        rw [factor_known hv]; exact hb p⟩
    have e3 : each (characterizeFlow ov) cfg.characterize_flow { s with proc := b } =
        .ok () { s with proc := b, chars := s'.chars } :=
      (each_chars_iff ov _ _ _).mpr ⟨rfl, h2⟩
    have e4 : each (allocateByQuantity ov) cfg.allocate_by_quantity { s with proc := b, chars := s'.chars } = .ok () s' :=
      (each_iff (proj_alloc ov) _ _ _).mpr ⟨by rw [h1], fun p => by
        change pall (palloc (cfOf s'.chars) ov p) _ _ = _
        rw [factor_known hv']; exact hc p⟩
    rw [e1]; simp only [Out.bind]
    rw [e2]; simp only
    rw [e3]; simp only
    exact e4

end Cfg
