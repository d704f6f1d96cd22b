import Verif.Model.Catalog
import Verif.Props.Resolver

/-!
Queries to the catalog: which resource answers (C91), which do not have to be loaded (C92).
-/

set_option linter.unusedSectionVars false

namespace Cat
open Rsv (Str Res Listed Hits Provides)

variable {A E R : Type} [DecidableEq A]

/-! ### the specification -/

/-- the resource may be asked: it is registered for the origin or for a reference that continues it after a dot (unless strict), and
provides one of the interfaces -/
def Candidate (st : St A E) (origin : Str) (t : Itype) (strict : Bool) (r : Res A) : Prop :=
  ∃ ref, Listed st.rsv ref r ∧ Hits origin ref strict ∧ Provides r (some t.names)

/-- the resource has been loaded, and is static: its archive is, or it is a JSON file -/
def Ready (w : World A E) (st : St A E) (r : Res A) : Prop :=
  r.oid ∈ st.loaded ∧ (Rsv.isJson r.dtype = true ∨ match w.arch r with
    | .ok a => a.static = true
    | .error _ => r.static = true)

/-- the resource comes before the other: ready ones come first; then those with a lower priority; then those whose reference is the
origin itself -/
def Sooner (w : World A E) (st : St A E) (origin : Str) (r r' : Res A) : Prop :=
  Ready w st r ∧ ¬ Ready w st r' ∨
  (Ready w st r ↔ Ready w st r') ∧ (r.prio < r'.prio ∨ r.prio = r'.prio ∧ r.ref = origin ∧ r'.ref ≠ origin)

/-- the resource can be loaded, makes the interface, and answers the question like this -/
def Says (w : World A E) (t : Itype) (call : Arch E → Except Exc (Option R)) (r : Res A) (v : Except Exc (Option R)) : Prop :=
  ∃ a, w.arch r = .ok a ∧ makeInterface a t = .ok () ∧ call a = v

/-- the resource has no answer -/
def Passes (w : World A E) (t : Itype) (x : Exc) (call : Arch E → Except Exc (Option R)) (r : Res A) : Prop :=
  Says w t call r (.ok none) ∨ Says w t call r (.error x)

/-! ### the order -/

theorem ready_iff (w : World A E) (st : St A E) (o : Str) (r : Res A) : (key w st o r).1 = false ↔ Ready w st r := by
  unfold key Ready isLoaded staticNow isLoaded Res.isStatic
  by_cases h : r.oid ∈ st.loaded
  · cases h' : w.arch r with
    | ok a => simp [h]; cases a.static <;> cases Rsv.isJson r.dtype <;> simp
    | error e => simp [h]; cases r.static <;> cases Rsv.isJson r.dtype <;> simp
  · simp [h]

theorem keyLe_total (a b : Bool × ℤ × Bool) : keyLe a b = true ∨ keyLe b a = true := by
  obtain ⟨a1, a2, a3⟩ := a
  obtain ⟨b1, b2, b3⟩ := b
  unfold keyLe boolLt
  rcases lt_trichotomy a2 b2 with h | h | h
  · cases a1 <;> cases b1 <;> cases a3 <;> cases b3 <;> simp [h]
  · subst h; cases a1 <;> cases b1 <;> cases a3 <;> cases b3 <;> simp
  · cases a1 <;> cases b1 <;> cases a3 <;> cases b3 <;> simp [h]

theorem keyLe_trans (a b c : Bool × ℤ × Bool) (h : keyLe a b = true) (h' : keyLe b c = true) : keyLe a c = true := by
  obtain ⟨a1, a2, a3⟩ := a
  obtain ⟨b1, b2, b3⟩ := b
  obtain ⟨c1, c2, c3⟩ := c
  unfold keyLe boolLt at *
  cases a1 <;> cases b1 <;> cases c1 <;> cases a3 <;> cases b3 <;> cases c3 <;> simp at h h' ⊢ <;> omega

theorem not_keyLe (w : World A E) (st : St A E) (o : Str) (r r' : Res A) (h : Sooner w st o r' r) :
    keyLe (key w st o r) (key w st o r') = false := by
  unfold Sooner at h
  rw [← ready_iff w st o, ← ready_iff w st o] at h
  rcases h with ⟨h1, h2⟩ | ⟨h1, h2⟩
  · have h2 : (key w st o r).1 = true := by simpa using h2
    unfold keyLe boolLt
    simp [h1, h2]
  · have h1 : (key w st o r).1 = (key w st o r').1 := by
      generalize (key w st o r).1 = a at h1 ⊢
      generalize (key w st o r').1 = b at h1 ⊢
      cases a <;> cases b <;> simp at h1 ⊢
    have e1 : (key w st o r).2.1 = r.prio := rfl
    have e2 : (key w st o r').2.1 = r'.prio := rfl
    have e3 : (key w st o r).2.2 = decide (r.ref ≠ o) := rfl
    have e4 : (key w st o r').2.2 = decide (r'.ref ≠ o) := rfl
    unfold keyLe boolLt
    rw [h1, e1, e2, e3, e4]
    rcases h2 with h2 | ⟨h2, h3, h4⟩
    · have h5 : ¬ r.prio < r'.prio := by omega
      have h6 : ¬ r.prio = r'.prio := by omega
      simp [h5, h6]
    · simp [h2, h3, h4]

instance (w : World A E) (st : St A E) (o : Str) :
    Std.Total (fun a b : Res A => keyLe (key w st o a) (key w st o b) = true) := ⟨fun _ _ => keyLe_total _ _⟩
instance (w : World A E) (st : St A E) (o : Str) :
    IsTrans (Res A) (fun a b : Res A => keyLe (key w st o a) (key w st o b) = true) := ⟨fun _ _ _ => keyLe_trans _ _ _⟩

theorem sorted_mem (w : World A E) (st : St A E) (o : Str) (t : Itype) (s : Bool) (l : List (Res A))
    (h : sortedResources w st o t s = .ok l) (r : Res A) : r ∈ l ↔ Candidate st o t s r := by
  unfold sortedResources at h
  cases hr : Rsv.resolve st.rsv o (some t.names) s with
  | error e => rw [hr] at h; exact absurd h (by simp)
  | ok m =>
    rw [hr] at h
    cases h
    rw [(List.perm_insertionSort _ _).mem_iff, Rsv.resolve_exact _ _ _ _ _ hr]
    rfl

theorem sorted_order (w : World A E) (st : St A E) (o : Str) (t : Itype) (s : Bool) (l : List (Res A))
    (h : sortedResources w st o t s = .ok l) : l.Pairwise fun a b => keyLe (key w st o a) (key w st o b) = true := by
  unfold sortedResources at h
  cases hr : Rsv.resolve st.rsv o (some t.names) s with
  | error e => rw [hr] at h; exact absurd h (by simp)
  | ok m =>
    rw [hr] at h
    cases h
    exact List.pairwise_insertionSort _ m

/-- the candidates that come sooner than a member are in front of it -/
theorem sooner_front (w : World A E) (st : St A E) (o : Str) (t : Itype) (s : Bool) (l₁ l₂ : List (Res A)) (r r' : Res A)
    (h : sortedResources w st o t s = .ok (l₁ ++ r :: l₂)) (hc : Candidate st o t s r') (hs : Sooner w st o r' r) : r' ∈ l₁ := by
  have hm := (sorted_mem w st o t s _ h r').2 hc
  rcases List.mem_append.1 hm with hm | hm
  · exact hm
  · exfalso
    have hf := not_keyLe w st o r r' hs
    have hp := (List.pairwise_append.1 (sorted_order w st o t s _ h)).2.1
    rcases List.mem_cons.1 hm with rfl | hm
    · have := keyLe_total (key w st o r') (key w st o r')
      rw [hf] at this
      simp at this
    · rw [(List.pairwise_cons.1 hp).1 r' hm] at hf
      simp at hf

theorem candidate_known (w : World A E) (st : St A E) (o : Str) (t : Itype) (s : Bool) (r : Res A) (h : Candidate st o t s r) :
    ∃ l, sortedResources w st o t s = .ok l := by
  obtain ⟨ref, ⟨rs, h1, _⟩, h2, _⟩ := h
  obtain ⟨l, hl⟩ := (Rsv.resolve_unknown st.rsv o (some t.names) s).2 ⟨ref, List.mem_map.2 ⟨_, h1, rfl⟩, h2⟩
  exact ⟨_, by unfold sortedResources; rw [hl]⟩

/-! ### the loop -/

theorem load_says {w : World A E} {st : St A E} {r : Res A} {a : Arch E} {st' : St A E} (h : load w st r = .ok a st') :
    w.arch r = .ok a ∧ st' = { st with loaded := PySet.add st.loaded r.oid } := by
  unfold load at h
  split at h
  · cases h
  · cases h; exact ⟨by assumption, rfl⟩

/-- only the loaded archives change, and only more are loaded -/
def Grows (st st' : St A E) : Prop :=
  st' = { st with loaded := st'.loaded } ∧ ∀ n ∈ st.loaded, n ∈ st'.loaded

theorem Grows.refl (st : St A E) : Grows st st := ⟨rfl, fun _ h => h⟩

theorem Grows.trans {a b c : St A E} (h : Grows a b) (h' : Grows b c) : Grows a c := by
  refine ⟨?_, fun n hn => h'.2 n (h.2 n hn)⟩
  rw [h'.1, h.1]

theorem load_grows {w : World A E} {st : St A E} {r : Res A} {a : Arch E} {st' : St A E} (h : load w st r = .ok a st') :
    Grows st st' := by
  rw [(load_says h).2]
  exact ⟨rfl, fun n hn => by simp [hn]⟩

theorem load_err {w : World A E} {st : St A E} {r : Res A} {e : Exc} {st' : St A E} (h : load w st r = .err e st') :
    w.arch r = .error e ∧ st' = st := by
  unfold load at h
  split at h
  · cases h; exact ⟨by assumption, rfl⟩
  · cases h

/-- what the loop returns -/
theorem ask_ok (w : World A E) (t : Itype) (x : Exc) (call : Arch E → Except Exc (Option R)) : ∀ (l : List (Res A)) (st : St A E) (v : R)
    (st' : St A E), ask w t x call l st = .ok v st' →
    ∃ l₁ r l₂, l = l₁ ++ r :: l₂ ∧ (∀ r' ∈ l₁, Passes w t x call r') ∧ Says w t call r (.ok (some v)) ∧ Grows st st' ∧
      ∀ n, n ∈ st'.loaded ↔ n ∈ st.loaded ∨ n = r.oid ∨ ∃ r' ∈ l₁, n = r'.oid := by
  intro l
  induction l with
  | nil => intro st v st' h; unfold ask at h; cases h
  | cons r l ih =>
    intro st v st' h
    unfold ask at h
    split at h
    · cases h
    · rename_i a st1 hl
      obtain ⟨ha, hst1⟩ := load_says hl
      split at h
      · cases h
      · rename_i hi
        have next : Passes w t x call r → ask w t x call l st1 = .ok v st' →
            ∃ l₁ r₁ l₂, r :: l = l₁ ++ r₁ :: l₂ ∧ (∀ r' ∈ l₁, Passes w t x call r') ∧ Says w t call r₁ (.ok (some v)) ∧ Grows st st' ∧
              ∀ n, n ∈ st'.loaded ↔ n ∈ st.loaded ∨ n = r₁.oid ∨ ∃ r' ∈ l₁, n = r'.oid := by
          intro hp h
          obtain ⟨l₁, r₁, l₂, e, h1, h2, h3, h4⟩ := ih st1 v st' h
          refine ⟨r :: l₁, r₁, l₂, by rw [e]; rfl, ?_, h2, (load_grows hl).trans h3, fun n => ?_⟩
          · intro r' hr'
            rcases List.mem_cons.1 hr' with rfl | hr'
            · exact hp
            · exact h1 r' hr'
          · rw [h4 n, hst1]
            simp only [PySet.mem_add, List.mem_cons, exists_eq_or_imp]
            constructor
            · rintro ((h | h) | h | h)
              · exact .inl h
              · exact .inr (.inr (.inl h))
              · exact .inr (.inl h)
              · exact .inr (.inr (.inr h))
            · rintro (h | h | h | h)
              · exact .inl (.inl h)
              · exact .inr (.inl h)
              · exact .inl (.inr h)
              · exact .inr (.inr h)
        split at h
        · rename_i v' hc
          cases h
          refine ⟨[], r, l, rfl, by simp, ⟨a, ha, hi, hc⟩, load_grows hl, fun n => ?_⟩
          rw [hst1]
          simp
        · rename_i hc
          exact next (.inl ⟨a, ha, hi, hc⟩) h
        · rename_i e hc
          split at h
          · rename_i he
            subst he
            exact next (.inr ⟨a, ha, hi, hc⟩) h
          · cases h

/-- it does not return if all pass -/
theorem ask_none (w : World A E) (t : Itype) (x : Exc) (call : Arch E → Except Exc (Option R)) : ∀ (l : List (Res A)) (st : St A E),
    (∀ r ∈ l, Passes w t x call r) → ∃ st', ask w t x call l st = .err x st' := by
  intro l
  induction l with
  | nil => intro st _; exact ⟨st, rfl⟩
  | cons r l ih =>
    intro st h
    have hn := fun st => ih st (fun r hr => h r (List.mem_cons_of_mem _ hr))
    rcases h r (by simp) with ⟨a, ha, hi, hc⟩ | ⟨a, ha, hi, hc⟩
    · simp only [ask, load, ha, hi, hc]; exact hn _
    · simp only [ask, load, ha, hi, hc, if_true]; exact hn _

/-- it returns if one answers and those before pass -/
theorem ask_some (w : World A E) (t : Itype) (x : Exc) (call : Arch E → Except Exc (Option R)) (v : R) (r : Res A) (l₂ : List (Res A))
    (hr : Says w t call r (.ok (some v))) : ∀ (l₁ : List (Res A)) (st : St A E), (∀ r ∈ l₁, Passes w t x call r) →
    ∃ st', ask w t x call (l₁ ++ r :: l₂) st = .ok v st' := by
  intro l
  induction l with
  | nil =>
    intro st _
    obtain ⟨a, ha, hi, hc⟩ := hr
    simp only [List.nil_append, ask, load, ha, hi, hc]
    exact ⟨_, rfl⟩
  | cons r l ih =>
    intro st h
    have hn := fun st => ih st (fun r hr => h r (List.mem_cons_of_mem _ hr))
    rcases h r (by simp) with ⟨a, ha, hi, hc⟩ | ⟨a, ha, hi, hc⟩
    · simp only [List.cons_append, ask, load, ha, hi, hc]; exact hn _
    · simp only [List.cons_append, ask, load, ha, hi, hc, if_true]; exact hn _

/-- the loop only loads archives -/
theorem ask_grows (w : World A E) (t : Itype) (x : Exc) (call : Arch E → Except Exc (Option R)) : ∀ (l : List (Res A)) (st : St A E),
    Grows st (ask w t x call l st).state := by
  intro l
  induction l with
  | nil => intro st; exact Grows.refl st
  | cons r l ih =>
    intro st
    unfold ask
    split
    · rename_i hl
      rw [(load_err hl).2]
      exact Grows.refl st
    · rename_i a st1 hl
      have g := load_grows hl
      split
      · exact g
      · split
        · exact g
        · exact g.trans (ih st1)
        · split
          · exact g.trans (ih st1)
          · exact g

/-! ### C91: which resource answers -/

/-- C91: the answer to a query is that of a candidate, and every candidate that comes sooner has no answer. -/
theorem query_answer (w : World A E) (st : St A E) (origin : Str) (t : Itype) (strict : Bool) (x : Exc)
    (call : Arch E → Except Exc (Option R)) (v : R) (st' : St A E) (h : performQuery w st origin t strict x call = .ok v st') :
    ∃ r, Candidate st origin t strict r ∧ Says w t call r (.ok (some v)) ∧
      ∀ r', Candidate st origin t strict r' → Sooner w st origin r' r → Passes w t x call r' := by
  unfold performQuery at h
  cases hs : sortedResources w st origin t strict with
  | error e => rw [hs] at h; cases h
  | ok l =>
    rw [hs] at h
    obtain ⟨l₁, r, l₂, rfl, h1, h2, -, -⟩ := ask_ok w t x call l st v st' h
    refine ⟨r, (sorted_mem w st origin t strict _ hs r).1 (by simp), h2, fun r' hc hso => ?_⟩
    exact h1 r' (sooner_front w st origin t strict l₁ l₂ r r' hs hc hso)

/-- C91: if all candidates answer or pass, then the query is answered as soon as one of them has an answer; and if none has, the
exception says so. -/
theorem query_complete_partial (w : World A E) (st : St A E) (origin : Str) (t : Itype) (strict : Bool) (x : Exc)
    (call : Arch E → Except Exc (Option R))
    (hall : ∀ r, Candidate st origin t strict r → Passes w t x call r ∨ ∃ v, Says w t call r (.ok (some v)))
    (hone : ∃ r, Candidate st origin t strict r) :
    ((∃ r v, Candidate st origin t strict r ∧ Says w t call r (.ok (some v))) →
      ∃ v st', performQuery w st origin t strict x call = .ok v st') ∧
    ((∀ r, Candidate st origin t strict r → Passes w t x call r) → ∃ st', performQuery w st origin t strict x call = .err x st') := by
  obtain ⟨r0, hr0⟩ := hone
  obtain ⟨l, hl⟩ := candidate_known w st origin t strict r0 hr0
  have hm := sorted_mem w st origin t strict l hl
  unfold performQuery
  rw [hl]
  refine ⟨?_, fun h => ask_none w t x call l st fun r hr => h r ((hm r).1 hr)⟩
  rintro ⟨r, v, hc, hv⟩
  have hall' : ∀ r ∈ l, Passes w t x call r ∨ ∃ v, Says w t call r (.ok (some v)) := fun r hr => hall r ((hm r).1 hr)
  have hmem := (hm r).2 hc
  clear hm hl hall
  dsimp only
  -- split the list at the first that answers
  have : ∃ l₁ r v l₂, l = l₁ ++ r :: l₂ ∧ (∀ r' ∈ l₁, Passes w t x call r') ∧ Says w t call r (.ok (some v)) := by
    induction l with
    | nil => exact absurd hmem (by simp)
    | cons a l ih =>
      by_cases ha : ∃ v, Says w t call a (.ok (some v))
      · obtain ⟨v, ha⟩ := ha
        exact ⟨[], a, v, l, rfl, by simp, ha⟩
      · have hp : Passes w t x call a := (hall' a (by simp)).resolve_right ha
        have hml : r ∈ l := by
          rcases List.mem_cons.1 hmem with rfl | h
          · exact absurd ⟨v, hv⟩ ha
          · exact h
        obtain ⟨l₁, r₁, v₁, l₂, rfl, h1, h2⟩ := ih (fun r hr => hall' r (by simp [hr])) hml
        refine ⟨a :: l₁, r₁, v₁, l₂, rfl, ?_, h2⟩
        intro r' hr'
        rcases List.mem_cons.1 hr' with rfl | hr'
        · exact hp
        · exact h1 r' hr'
  obtain ⟨l₁, r₁, v₁, l₂, rfl, h1, h2⟩ := this
  obtain ⟨st', h⟩ := ask_some w t x call v₁ r₁ l₂ h2 l₁ st h1
  exact ⟨v₁, st', h⟩

/-- C91: an origin that is not known is refused, and nothing happens -/
theorem query_unknown (w : World A E) (st : St A E) (origin : Str) (t : Itype) (strict : Bool) (x : Exc)
    (call : Arch E → Except Exc (Option R)) (h : ∀ ref ∈ Rsv.references st.rsv, ¬ Hits origin ref strict) :
    performQuery w st origin t strict x call = .err .unknownOrigin st := by
  unfold performQuery sortedResources
  rw [(Rsv.resolve_unknown st.rsv origin (some t.names) strict).1.2 h]

/-! ### C92: what is loaded -/

/-- C92: a query that is answered loads the resource that answers, and besides only candidates that were asked and had no answer;
it changes nothing else. -/
theorem query_loads (w : World A E) (st : St A E) (origin : Str) (t : Itype) (strict : Bool) (x : Exc)
    (call : Arch E → Except Exc (Option R)) (v : R) (st' : St A E) (h : performQuery w st origin t strict x call = .ok v st') :
    st' = { st with loaded := st'.loaded } ∧ (∀ n ∈ st.loaded, n ∈ st'.loaded) ∧
      ∃ r, Candidate st origin t strict r ∧ Says w t call r (.ok (some v)) ∧ r.oid ∈ st'.loaded ∧
        ∀ n ∈ st'.loaded, n ∈ st.loaded ∨ n = r.oid ∨
          ∃ r', Candidate st origin t strict r' ∧ n = r'.oid ∧ Passes w t x call r' ∧ ¬ Sooner w st origin r r' := by
  unfold performQuery at h
  cases hs : sortedResources w st origin t strict with
  | error e => rw [hs] at h; cases h
  | ok l =>
    rw [hs] at h
    obtain ⟨l₁, r, l₂, rfl, h1, h2, h3, h4⟩ := ask_ok w t x call l st v st' h
    refine ⟨h3.1, h3.2, r, (sorted_mem w st origin t strict _ hs r).1 (by simp), h2, (h4 _).2 (by simp), fun n hn => ?_⟩
    rcases (h4 n).1 hn with h | h | ⟨r', hr', h⟩
    · exact .inl h
    · exact .inr (.inl h)
    · refine .inr (.inr ⟨r', (sorted_mem w st origin t strict _ hs r').1 (by simp [hr']), h, h1 r' hr', fun hso => ?_⟩)
      have := (List.pairwise_append.1 (sorted_order w st origin t strict _ hs)).2.2 r' hr' r (by simp)
      rw [not_keyLe w st origin r' r hso] at this
      cases this

/-- C92: whether it is answered or not, a query only loads archives. -/
theorem query_only_loads (w : World A E) (st : St A E) (origin : Str) (t : Itype) (strict : Bool) (x : Exc)
    (call : Arch E → Except Exc (Option R)) :
    (performQuery w st origin t strict x call).state =
      { st with loaded := (performQuery w st origin t strict x call).state.loaded } := by
  unfold performQuery
  cases sortedResources w st origin t strict with
  | error e => rfl
  | ok l => exact (ask_grows w t x call l st).1

end Cat
