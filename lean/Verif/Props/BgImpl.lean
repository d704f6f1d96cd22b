import Verif.Model.BgImpl
import Verif.Props.FlatBg

/-!
C146 Background queries answer for the product flow that their arguments name.
C147 `foreground_flows` and `background_flows`.
-/

namespace BgI
open Engine FlatBg
variable {F P : Type} [DecidableEq F] [DecidableEq P]

/-! ### specification -/

/-- the arguments name the reference flow `f` of process `p`: the id of the process with the flow, or without it if there is only one reference;
or the reference exchange -/
def Names (env : Env F P) (arg : Arg F P) (opt : Option F) (p : P) (f : F) : Prop :=
  match arg with
  | .str q => q = p ∧ ∃ e d, env.proc p = some e ∧
      ((opt = some f ∧ (f, d) ∈ e.refs ∧ (e.refs.filter fun x => decide (x.1 = f)).length = 1) ∨ (opt = none ∧ e.refs = [(f, d)]))
  | .exch q g r => q = p ∧ g = f ∧ r = true
  | _ => False

/-- the index knows the processes and flows of the flat background, and a process that it gives has the id asked for -/
structure Knows (env : Env F P) (fb : FB F P) : Prop where
  self : ∀ p e, env.proc p = some e → e.ext = p
  fgProc : ∀ t ∈ fb.fg, ∃ e, env.proc t.term = some e
  bgProc : ∀ t ∈ fb.bg, ∃ e, env.proc t.term = some e
  fgFlow : ∀ t ∈ fb.fg, env.flow t.flow = true
  bgFlow : ∀ t ∈ fb.bg, env.flow t.flow = true
  exFlow : ∀ t ∈ fb.ex, env.flow t.flow = true

/-! ### arguments -/

theorem length_one {α : Type} {l : List α} (h : l.length = 1) : ∃ x, l = [x] := List.length_eq_one_iff.mp h

theorem reference_named {e : Ent F P} {opt : Option F} {f : F} {d : Dir}
    (h : (opt = some f ∧ (f, d) ∈ e.refs ∧ (e.refs.filter fun x => decide (x.1 = f)).length = 1) ∨ (opt = none ∧ e.refs = [(f, d)])) :
    reference e opt = .ok (f, d) := by
  rcases h with ⟨ho, hm, hl⟩ | ⟨ho, hr⟩
  · obtain ⟨x, hx⟩ := length_one hl
    have : (f, d) ∈ e.refs.filter fun x => decide (x.1 = f) := List.mem_filter.mpr ⟨hm, by simp⟩
    rw [hx] at this
    have hxe : x = (f, d) := (List.mem_singleton.mp this).symm
    subst ho hxe
    unfold reference
    cases e.isRef <;> simp [hx]
  · subst ho
    unfold reference
    cases e.isRef <;> simp [hr]

theorem checkRef_named {env : Env F P} {arg : Arg F P} {opt : Option F} {p : P} {f : F} (h : Names env arg opt p f) :
    checkRef env arg opt = .ok (p, some f) := by
  cases arg with
  | str q =>
    obtain ⟨rfl, e, d, he, hr⟩ := h
    simp [checkRef, he, reference_named hr]
  | exch q g r =>
    obtain ⟨rfl, rfl, rfl⟩ := h
    rfl
  | proc e => exact h.elim
  | entity => exact h.elim
  | thing => exact h.elim

/-! ### what the flat background yields is about its own flows -/

theorem genLoop_mem (node : P) (en : List (TermRef F P P)) : ∀ (l : List (ℕ × ℚ)) (x : ExchDef F P), x ∈ (genLoop node en l).1 →
    x.process = node ∧ ∃ t ∈ en, x.flow = t.flow ∧ x.term = some t.term
  | [], x, h => by simp [genLoop] at h
  | (r, dat) :: l, x, h => by
    unfold genLoop at h
    cases ht : en[r]? with
    | none => simp [ht] at h
    | some t =>
      simp only [ht] at h
      rcases List.mem_cons.mp h with h | h
      · subst h
        have hm := List.mem_of_getElem? ht
        unfold exchOf
        split <;> exact ⟨rfl, t, hm, rfl, rfl⟩
      · exact genLoop_mem node en l x h

theorem emLoop_mem (node : P) (en : List (TermRef F (Option P) P)) : ∀ (l : List (ℕ × ℚ)) (x : ExchDef F P), x ∈ (emLoop node en l).1 →
    x.process = node ∧ ∃ t ∈ en, x.flow = t.flow
  | [], x, h => by simp [emLoop] at h
  | (r, dat) :: l, x, h => by
    unfold emLoop at h
    cases ht : en[r]? with
    | none => simp [ht] at h
    | some t =>
      simp only [ht] at h
      rcases List.mem_cons.mp h with h | h
      · subst h
        exact ⟨rfl, t, List.mem_of_getElem? ht, rfl⟩
      · exact emLoop_mem node en l x h

theorem append_mem {α : Type} {a b : Gen α} {x : α} (h : x ∈ (a.append b).1) : x ∈ a.1 ∨ x ∈ b.1 := by
  unfold Gen.append at h
  split at h
  · exact Or.inl h
  · exact List.mem_append.mp h

theorem genExch_mem {node : P} {v : Option (List (ℕ × ℚ))} {en : List (TermRef F P P)} {x : ExchDef F P} (h : x ∈ (genExchDefs node v en).1) :
    x.process = node ∧ ∃ t ∈ en, x.flow = t.flow ∧ x.term = some t.term := by
  cases v with
  | none => simp [genExchDefs] at h
  | some v => exact genLoop_mem _ _ _ _ h

theorem dependencies_mem {fb : FB F P} {p : P} {f : F} {x : ExchDef F P} (h : x ∈ (dependencies fb p f).1) :
    x.process = p ∧ ((∃ t ∈ fb.fg, x.flow = t.flow) ∨ ∃ t ∈ fb.bg, x.flow = t.flow) := by
  unfold dependencies at h
  split at h
  · split at h
    · simp at h
    · rcases append_mem h with h | h
      · obtain ⟨h1, t, ht, h2, _⟩ := genExch_mem h
        exact ⟨h1, Or.inl ⟨t, ht, h2⟩⟩
      · obtain ⟨h1, t, ht, h2, _⟩ := genExch_mem h
        exact ⟨h1, Or.inr ⟨t, ht, h2⟩⟩
  · split at h
    · simp at h
    · rcases append_mem h with h | h
      · obtain ⟨h1, t, ht, h2, _⟩ := genExch_mem h
        exact ⟨h1, Or.inl ⟨t, ht, h2⟩⟩
      · obtain ⟨h1, t, ht, h2, _⟩ := genExch_mem h
        exact ⟨h1, Or.inr ⟨t, ht, h2⟩⟩
    · simp at h

theorem emissions_mem {fb : FB F P} {p : P} {f : F} {x : ExchDef F P} (h : x ∈ (emissions fb p f).1) :
    x.process = p ∧ ∃ t ∈ fb.ex, x.flow = t.flow := by
  unfold emissions at h
  split at h
  · split at h
    · simp at h
    · exact emLoop_mem _ _ _ _ h
  · split at h
    · simp at h
    · exact emLoop_mem _ _ _ _ h
    · simp at h

theorem fgColumn_mem {fb : FB F P} {node : TermRef F P P} : ∀ (l : List (ℕ × ℚ)) (q seen : List ℕ) (x : ExchDef F P),
    x ∈ (fgColumn fb node l q seen).1 → x.process = node.term ∧ ∃ t ∈ fb.fg, x.flow = t.flow
  | [], q, seen, x, h => by simp [fgColumn] at h
  | (r, dat) :: l, q, seen, x, h => by
    unfold fgColumn at h
    cases ht : fb.fg[r]? with
    | none => simp [ht] at h
    | some t =>
      simp only [ht] at h
      rcases List.mem_cons.mp h with h | h
      · subst h
        have hm := List.mem_of_getElem? ht
        unfold exchOf
        split <;> exact ⟨rfl, t, hm, rfl⟩
      · exact fgColumn_mem l _ _ x h

theorem fgQueue_mem {fb : FB F P} {af : Sp} : ∀ (fuel : ℕ) (q seen : List ℕ) (x : ExchDef F P), x ∈ (fgQueue fb af fuel q seen).1 →
    (∃ t ∈ fb.fg, x.process = t.term) ∧ ∃ t ∈ fb.fg, x.flow = t.flow
  | fuel, [], seen, x, h => by cases fuel <;> simp [fgQueue] at h
  | 0, _ :: _, seen, x, h => by simp [fgQueue] at h
  | fuel + 1, c :: q, seen, x, h => by
    unfold fgQueue at h
    cases ht : fb.fg[c]? with
    | none => simp [ht] at h
    | some node =>
      simp only [ht] at h
      have hm := List.mem_of_getElem? ht
      cases hc : fgColumn fb node (pairs (af.col c)) q seen with
      | mk l r =>
        obtain ⟨q', seen', e⟩ := r
        have hcol : ∀ x ∈ l, x.process = node.term ∧ ∃ t ∈ fb.fg, x.flow = t.flow := by
          intro x hx
          exact fgColumn_mem (fb := fb) (node := node) (pairs (af.col c)) q seen x (by rw [hc]; exact hx)
        rw [hc] at h
        cases e with
        | some e =>
          obtain ⟨h1, h2⟩ := hcol x h
          exact ⟨⟨node, hm, h1⟩, h2⟩
        | none =>
          rcases List.mem_append.mp h with h | h
          · obtain ⟨h1, h2⟩ := hcol x h
            exact ⟨⟨node, hm, h1⟩, h2⟩
          · exact fgQueue_mem fuel q' seen' x h

theorem fgIndex_mem {fb : FB F P} {p : P} {f : F} {i : ℕ} (h : (fgIndex fb).get? (p, f) = some i) : ∃ t ∈ fb.fg, t.term = p ∧ t.flow = f := by
  have hk : (p, f) ∈ (fgIndex fb).keys := by
    rw [Dict.mem_keys_iff, h]; exact ⟨i, rfl⟩
  have : ∀ (l : List ((P × F) × ℕ)) (d : Dict (P × F) ℕ), (p, f) ∈ (l.foldl (fun d kn => d.set kn.1 kn.2) d).keys → (p, f) ∈ d.keys ∨ ∃ kn ∈ l, kn.1 = (p, f) := by
    intro l
    induction l with
    | nil => intro d h; exact Or.inl h
    | cons kn l ih =>
      intro d h
      rcases ih _ h with h | ⟨kn', h1, h2⟩
      · rcases (Dict.mem_keys_set _ _ _ _).mp h with h | h
        · exact Or.inr ⟨kn, by simp, h.symm⟩
        · exact Or.inl h
      · exact Or.inr ⟨kn', List.mem_cons_of_mem _ h1, h2⟩
  rcases this _ _ hk with h | ⟨⟨k, n⟩, h1, h2⟩
  · exact absurd h (by simp [Dict.keys])
  · have h3 := List.mem_zipIdx h1
    obtain ⟨_, _, h3⟩ := h3
    have h4 : k ∈ fb.fg.map fun k => (k.term, k.flow) := by
      rw [h3]; exact List.getElem_mem _
    obtain ⟨t, ht, he⟩ := List.mem_map.mp h4
    have h2' : k = (p, f) := h2
    rw [h2'] at he
    exact ⟨t, ht, (Prod.mk.inj he).1, (Prod.mk.inj he).2⟩

theorem foreground_mem {fb : FB F P} {fuel : ℕ} {p : P} {f : F} {x : ExchDef F P} (h : x ∈ (FlatBg.foreground fb fuel p f).1) :
    (∃ t ∈ fb.fg, x.process = t.term) ∧ ∃ t ∈ fb.fg, x.flow = t.flow := by
  unfold FlatBg.foreground at h
  cases hi : (fgIndex fb).get? (p, f) with
  | none => simp [hi] at h
  | some i =>
    obtain ⟨t0, ht0, h1, h2⟩ := fgIndex_mem hi
    simp only [hi] at h
    split at h
    · simp at h
    · simp only [List.mem_singleton] at h
      subst h
      exact ⟨⟨t0, ht0, h1.symm⟩, t0, ht0, h2.symm⟩
    · rcases List.mem_cons.mp h with h | h
      · subst h
        exact ⟨⟨t0, ht0, h1.symm⟩, t0, ht0, h2.symm⟩
      · exact fgQueue_mem _ _ _ _ h

/-! ### C146 -/

theorem ending_map : ∀ o : Option FlatBg.Err, ending o = o.map Err.flat
  | none => rfl
  | some _ => rfl

theorem direct_all {env : Env F P} {node : P} {last : Option FlatBg.Err} : ∀ (l : List (ExchDef F P)),
    (∀ x ∈ l, x.process = node ∧ env.flow x.flow = true) → direct env node last l = (l, last.map Err.flat)
  | [], _ => by simp [direct, fgExchanges, termRefs, ending_map]
  | x :: l, h => by
    obtain ⟨h1, h2⟩ := h x (by simp)
    unfold direct
    rw [if_pos h2, direct_all l fun y hy => h y (List.mem_cons_of_mem _ hy)]
    subst h1
    rfl

theorem directQuery_named {env : Env F P} {fb : FB F P} (hk : Knows env fb) {q : P → F → Gen (ExchDef F P)} {arg : Arg F P} {opt : Option F} {p : P} {f : F}
    (h : Names env arg opt p f) {e : Ent F P} (he : env.proc p = some e) (hq : ∀ x ∈ (q p f).1, x.process = p ∧ env.flow x.flow = true) :
    directQuery env q arg opt = ((q p f).1, (q p f).2.map Err.flat) := by
  unfold directQuery
  rw [checkRef_named h]
  simp only [he, hk.self p e he]
  exact direct_all _ hq

theorem fgExchanges_all {env : Env F P} (hs : ∀ p e, env.proc p = some e → e.ext = p) {last : Option FlatBg.Err} : ∀ (l : List (ExchDef F P)),
    (∀ x ∈ l, (∃ e, env.proc x.process = some e) ∧ env.flow x.flow = true) → fgExchanges env last l = (l, last.map Err.flat)
  | [], _ => by simp [direct, fgExchanges, termRefs, ending_map]
  | x :: l, h => by
    obtain ⟨⟨e, h1⟩, h2⟩ := h x (by simp)
    unfold fgExchanges
    simp only [h1, if_pos h2, fgExchanges_all hs l fun y hy => h y (List.mem_cons_of_mem _ hy), hs _ _ h1]

/-- **C146** the queries answer for the product flow named, as the flat background does: whether it is in the background, in a cycle, and its
direct dependencies, emissions and foreground -/
theorem queries_named_partial (env : Env F P) (fb : FB F P) (hk : Knows env fb) (arg : Arg F P) (opt : Option F) (p : P) (f : F) (h : Names env arg opt p f)
    (e : Ent F P) (he : env.proc p = some e) :
    isInBackground env fb arg opt = .ok (FlatBg.isInBackground fb p f) ∧
    (∀ b, isInScc env fb arg opt = .ok b ↔ FlatBg.isInScc fb p f = .ok b) ∧
    directQuery env (dependencies fb) arg opt = ((dependencies fb p f).1, (dependencies fb p f).2.map Err.flat) ∧
    directQuery env (emissions fb) arg opt = ((emissions fb p f).1, (emissions fb p f).2.map Err.flat) ∧
    (∀ fuel, foreground env fb fuel arg opt = ((FlatBg.foreground fb fuel p f).1, (FlatBg.foreground fb fuel p f).2.map Err.flat)) := by
  refine ⟨?_, ?_, ?_, ?_, ?_⟩
  · simp [isInBackground, checkRef_named h]
  · intro b
    unfold isInScc
    rw [checkRef_named h]
    cases hs : FlatBg.isInScc fb p f <;> simp [hs]
  · apply directQuery_named hk h he
    intro x hx
    obtain ⟨h1, ⟨t, ht, h2⟩ | ⟨t, ht, h2⟩⟩ := dependencies_mem hx
    · exact ⟨h1, by rw [h2]; exact hk.fgFlow t ht⟩
    · exact ⟨h1, by rw [h2]; exact hk.bgFlow t ht⟩
  · apply directQuery_named hk h he
    intro x hx
    obtain ⟨h1, t, ht, h2⟩ := emissions_mem hx
    exact ⟨h1, by rw [h2]; exact hk.exFlow t ht⟩
  · intro fuel
    unfold foreground
    rw [checkRef_named h]
    apply fgExchanges_all hk.self
    intro x hx
    obtain ⟨⟨t, ht, h1⟩, t', ht', h2⟩ := foreground_mem hx
    exact ⟨by rw [h1]; exact hk.fgProc t ht, by rw [h2]; exact hk.fgFlow t' ht'⟩

/-- **C146** end to end: over a database that was ordered, `is_in_background` is true exactly for what some largest group of mutually dependent
product flows requires -/
theorem is_in_background_partial (o : SetOrd F P) (db : DB F P) (comp : F → Option P) (strat : Strategy) (fuel : ℕ) (vs : List (F × P)) (fb : FB F P)
    (hr : fromIndex o db comp strat fuel vs = .ok fb) :
    ∃ b, Known db strat vs b ∧ 1 < Set.ncard {w | Mutual db strat b w} ∧
      (∀ c, Known db strat vs c → Set.ncard {w | Mutual db strat c w} ≤ Set.ncard {w | Mutual db strat b w}) ∧
      ∀ (env : Env F P) arg opt p f, Names env arg opt p f → (isInBackground env fb arg opt = .ok true ↔ Reach db strat b (f, p)) := by
  obtain ⟨b, h1, h2, h3, h4⟩ := C58_background o comp fuel vs fb hr
  refine ⟨b, h1, h2, h3, fun env arg opt p f h => ?_⟩
  rw [← h4 f p]
  simp [isInBackground, checkRef_named h]

/-- **C146** arguments that name nothing are refused: an unknown process, a process without the reference flow, an exchange that is no reference,
an entity of another type -/
theorem queries_refused (env : Env F P) (fb : FB F P) (arg : Arg F P) (opt : Option F)
    (h : match arg with
      | .str p => env.proc p = none ∨ ∃ e, env.proc p = some e ∧ ∀ x ∈ e.refs, opt = some x.1 ∨ opt = none → False
      | .exch _ _ r => r = false
      | .proc e => ∀ x ∈ e.refs, opt = some x.1 ∨ opt = none → False
      | _ => True) :
    (∃ x, isInBackground env fb arg opt = .error x) ∧ (∃ x, isInScc env fb arg opt = .error x) ∧
      (∀ q, ∃ x, directQuery env q arg opt = ([], some x)) ∧ (∀ fuel, ∃ x, foreground env fb fuel arg opt = ([], some x)) ∧
      ∃ x, consumers env fb arg opt = ([], some x) := by
  have hc : ∃ x, checkRef env arg opt = .error x := by
    have noref : ∀ e : Ent F P, (∀ x ∈ e.refs, opt = some x.1 ∨ opt = none → False) → ∃ x, reference e opt = .error x := by
      intro e h
      cases opt with
      | none =>
        cases hr : e.refs with
        | nil => cases hi : e.isRef <;> simp [reference, hr, hi]
        | cons a l => exact (h a (by rw [hr]; simp) (Or.inr rfl)).elim
      | some f =>
        have : e.refs.filter (fun x => decide (x.1 = f)) = [] := by
          apply List.filter_eq_nil_iff.mpr
          intro a ha hf
          exact h a ha (Or.inl (by simp at hf; rw [hf]))
        cases hi : e.isRef <;> simp [reference, this, hi]
    cases arg with
    | str p =>
      rcases h with h | ⟨e, he, hx⟩
      · exact ⟨.notFound, by simp [checkRef, h]⟩
      · obtain ⟨x, hx⟩ := noref e hx
        unfold checkRef
        simp only [he, hx]
        cases x <;> exact ⟨_, rfl⟩
    | proc e =>
      obtain ⟨x, hx⟩ := noref e h
      unfold checkRef
      simp only [hx]
      cases x <;> exact ⟨_, rfl⟩
    | exch p f r => exact ⟨.value, by simp only at h; subst h; rfl⟩
    | entity => exact ⟨.type, rfl⟩
    | thing => exact ⟨.type, rfl⟩
  obtain ⟨x, hx⟩ := hc
  simp [isInBackground, isInScc, directQuery, foreground, consumers, hx]

/-- **C146** fails for every process given as an object: `is_in_background` is never true, and all other queries yield nothing and raise -/
theorem process_object_fails (env : Env F P) (fb : FB F P) (e : Ent F P) (opt : Option F) :
    isInBackground env fb (.proc e) opt ≠ .ok true ∧ (∀ b, isInScc env fb (.proc e) opt ≠ .ok b) ∧
      (∀ q, ∃ x, directQuery env q (.proc e) opt = ([], some x)) ∧ (∀ fuel, ∃ x, foreground env fb fuel (.proc e) opt = ([], some x)) ∧
      ∃ x, consumers env fb (.proc e) opt = ([], some x) := by
  have hc : (∃ x, checkRef env (.proc e) opt = .error x) ∨ checkRef env (.proc e) opt = .ok (e.ext, none) := by
    unfold checkRef
    cases hr : reference e opt with
    | ok rx => exact Or.inr (by simp only [hr])
    | error x => left; simp only [hr]; cases x <;> exact ⟨_, rfl⟩
  rcases hc with ⟨x, hx⟩ | hx
  · simp [isInBackground, isInScc, directQuery, foreground, consumers, hx]
  · refine ⟨by simp [isInBackground, hx], by simp [isInScc, hx], ?_, by simp [foreground, hx], by simp [consumers, hx]⟩
    intro q
    unfold directQuery
    simp only [hx]
    cases env.proc e.ext <;> exact ⟨_, rfl⟩

/-- **C146** a process with several references, given by its id alone: an LcProcess is refused, a catalog reference is answered for its first
reference, whichever that is -/
theorem ambiguous_reference (env : Env F P) (fb : FB F P) (p : P) (e : Ent F P) (he : env.proc p = some e) (a b : F × Dir) (l : List (F × Dir)) (hr : e.refs = a :: b :: l) :
    (e.isRef = false → isInBackground env fb (.str p) none = .error .multiple) ∧
    (e.isRef = true → isInBackground env fb (.str p) none = .ok (FlatBg.isInBackground fb p a.1)) := by
  constructor <;> intro h <;> simp [isInBackground, checkRef, he, reference, h, hr]

/-- **C146** `bg_lcia` always raises, for every process, archive and reference flow -/
theorem bg_lcia_raises {R : Type} (env : Env F P) (q : P → F → Gen (ExchDef F P)) (arch : P → Option (Ent F P)) (lcia : List (ExchDef F P) → R) (p : P) (opt : Option F) :
    ∃ x, bgLcia env q arch lcia p opt = .error x := by
  unfold bgLcia
  cases ha : arch p with
  | some e =>
    obtain ⟨x, hx⟩ := (process_object_fails env ⟨[], [], [], none, none, none, none, none⟩ e opt).2.2.1 q
    exact ⟨x, by simp only [hx]⟩
  | none => exact ⟨.type, rfl⟩

/-! ### C147 -/

/-- the index gives the processes of the flat background with their references: one for each product flow -/
def Refs (env : Env F P) (ts : List (TermRef F P P)) : Prop :=
  ∀ t ∈ ts, ∃ e, env.proc t.term = some e ∧ e.ext = t.term ∧ (e.refs.filter fun x => decide (x.1 = t.flow)) = [(t.flow, t.dir)]

theorem termRefs_all {env : Env F P} {last : Option FlatBg.Err} : ∀ (ts : List (TermRef F P P)), Refs env ts →
    termRefs env last ts = (ts.map fun t => ⟨t.term, t.flow, t.dir⟩, last.map Err.flat)
  | [], _ => by simp [direct, fgExchanges, termRefs, ending_map]
  | t :: l, h => by
    obtain ⟨e, h1, h2, h3⟩ := h t (by simp)
    have ih := termRefs_all (last := last) l fun x hx => h x (List.mem_cons_of_mem _ hx)
    have hr : reference e (some t.flow) = .ok (t.flow, t.dir) := by
      unfold reference
      simp only [h3]
      cases e.isRef <;> rfl
    unfold termRefs
    simp [h1, hr, ih, h2]

theorem yieldAt_mem {T : Type} (en : List T) : ∀ (l : List ℕ) (x : T), x ∈ (yieldAt en l).1 → x ∈ en
  | [], x, h => by simp [yieldAt] at h
  | i :: l, x, h => by
    unfold yieldAt at h
    cases ht : en[i]? with
    | none => simp [ht] at h
    | some t =>
      simp only [ht] at h
      rcases List.mem_cons.mp h with h | h
      · subst h; exact List.mem_of_getElem? ht
      · exact yieldAt_mem en l x h

/-- **C146** `consumers` gives the reference exchanges of the product flows that the flat background names -/
theorem consumers_named_partial (env : Env F P) (fb : FB F P) (hfg : Refs env fb.fg) (hbg : Refs env fb.bg) (arg : Arg F P) (opt : Option F) (p : P) (f : F)
    (h : Names env arg opt p f) :
    consumers env fb arg opt = ((FlatBg.consumers fb p f).1.map fun t => ⟨t.term, t.flow, t.dir⟩, (FlatBg.consumers fb p f).2.map Err.flat) := by
  unfold consumers
  rw [checkRef_named h]
  apply termRefs_all
  intro t ht
  have : t ∈ fb.fg ∨ t ∈ fb.bg := by
    unfold FlatBg.consumers at ht
    split at ht
    · simp at ht
    · split at ht
      · split at ht
        · simp at ht
        · rcases append_mem ht with ht | ht
          · exact Or.inl (yieldAt_mem _ _ _ ht)
          · split at ht
            · simp at ht
            · exact Or.inr (yieldAt_mem _ _ _ ht)
      · split at ht
        · simp at ht
        · exact Or.inl (yieldAt_mem _ _ _ ht)
  rcases this with ht | ht
  · exact hfg t ht
  · exact hbg t ht

/-- **C147** over a database that was ordered, `background_flows` lists every background product flow once, `foreground_flows` every other one
known, as the reference exchange of its process, and nothing else -/
theorem flows_listed_partial (o : SetOrd F P) (db : DB F P) (comp : F → Option P) (strat : Strategy) (fuel : ℕ) (vs : List (F × P)) (fb : FB F P)
    (hr : fromIndex o db comp strat fuel vs = .ok fb) (env : Env F P) (hfg : Refs env fb.fg) (hbg : Refs env fb.bg) (s : Option String) :
    ∃ fgl bgl, foregroundFlows env fb s = (fgl, none) ∧ backgroundFlows env fb s = (bgl, none) ∧
      (bgl.map fun x => (x.flow, x.process)).Nodup ∧ (fgl.map fun x => (x.flow, x.process)).Nodup ∧
      (∀ f p, (f, p) ∈ bgl.map (fun x => (x.flow, x.process)) ↔ FlatBg.isInBackground fb p f = true) ∧
      (∀ f p, (f, p) ∈ fgl.map (fun x => (x.flow, x.process)) ↔ Known db strat vs (f, p) ∧ FlatBg.isInBackground fb p f = false) ∧
      ∀ x ∈ fgl ++ bgl, x.dir = (db.refDir (x.flow, x.process)).getD .output := by
  obtain ⟨e, st, he, hs, hb, hB⟩ := fromIndex_built hr
  have hg : GraphOK db strat st e.g := hB.ok.gok
  obtain ⟨names, hn, h1, h2⟩ := hB.names
  have hm : ∀ (l : List (F × P)), ((l.map (makeTermRef db e.st names)).map fun t => (⟨t.term, t.flow, t.dir⟩ : Rx F P)).map (fun x => (x.flow, x.process)) = l := by
    intro l
    rw [List.map_map, List.map_map]
    conv_rhs => rw [← List.map_id l]
    rfl
  have hm1 : (fb.fg.map fun t => (⟨t.term, t.flow, t.dir⟩ : Rx F P)).map (fun x => (x.flow, x.process)) = e.g.fgProcs := by
    rw [h1]; exact hm _
  have hm2 : (fb.bg.map fun t => (⟨t.term, t.flow, t.dir⟩ : Rx F P)).map (fun x => (x.flow, x.process)) = e.g.bgProcs := by
    rw [h2]; exact hm _
  refine ⟨_, _, termRefs_all _ hfg, termRefs_all _ hbg, by rw [hm2]; exact hg.bgNodup, by rw [hm1]; exact hg.fgNodup, ?_, ?_, ?_⟩
  · intro f p
    rw [hm2]
    exact (hB.inBg f p).symm
  · intro f p
    rw [hm1]
    constructor
    · intro h
      have hup := hg.fg_sub _ h
      refine ⟨(known_iff hs _).mp hup, ?_⟩
      rw [← Bool.not_eq_true, hB.inBg]
      exact (hg.isBg_not hup).mp h
    · rintro ⟨hk, hnb⟩
      apply (hg.isBg_not ((known_iff hs _).mpr hk)).mpr
      show (f, p) ∉ ({ e with allAdded := false } : Eng F P).g.bgProcs
      rw [← hB.inBg, hnb]
      simp
  · intro x hx
    rcases List.mem_append.mp hx with hx | hx
    · rw [h1, List.map_map] at hx
      obtain ⟨v, _, rfl⟩ := List.mem_map.mp hx
      rfl
    · rw [h2, List.map_map] at hx
      obtain ⟨v, _, rfl⟩ := List.mem_map.mp hx
      rfl

/-- **C147** fails for searches: whatever is searched for, the answer is that without a search -/
theorem search_ignored (env : Env F P) (fb : FB F P) (s : Option String) :
    foregroundFlows env fb s = foregroundFlows env fb none ∧ backgroundFlows env fb s = backgroundFlows env fb none := ⟨rfl, rfl⟩

/-! ### examples: the example database of C58, 1 and 2 form the cycle, 3 is background, 0 is foreground -/

/-- an index of this database; process 9 has two references -/
def exEnv (isRef : Bool) : Env ℕ ℕ :=
  { proc := fun p => if p ≤ 3 then some ⟨p, [(p, .output)], isRef⟩ else if p = 9 then some ⟨9, [(1, .output), (0, .output)], isRef⟩ else none
    flow := fun _ => true }

def exFb' : FB ℕ ℕ := match exFb with | .ok fb => fb | .error _ => ⟨[], [], [], none, none, none, none, none⟩

example : exFb = .ok exFb' ∧ Knows (exEnv true) exFb' ∧ Refs (exEnv true) exFb'.fg ∧ Refs (exEnv true) exFb'.bg := by
  refine ⟨by decide +kernel, ⟨?_, ?_, ?_, fun _ _ => rfl, fun _ _ => rfl, fun _ _ => rfl⟩, ?_, ?_⟩
  · intro p e h
    simp only [exEnv] at h
    split at h
    · cases h; rfl
    · split at h
      · rename_i h9; cases h; exact h9.symm
      · cases h
  all_goals
    intro t ht
    have key : t.term ≤ 3 ∧ t.flow = t.term ∧ t.dir = .output := by
      have : ∀ t ∈ exFb'.fg ++ exFb'.bg, t.term ≤ 3 ∧ t.flow = t.term ∧ t.dir = .output := by decide +kernel
      exact this t (by simp [ht])
    obtain ⟨h1, h2, h3⟩ := key
    simp [exEnv, h1, h2, h3]

example : Names (exEnv true) (.str 1) none 1 1 ∧ Names (exEnv true) (.str 9) (some 0) 9 0 ∧ Names (exEnv false) (.exch 3 3 true) none 3 3 ∧
    Names (exEnv false) (.str 0) (some 0) 0 0 :=
  ⟨⟨rfl, ⟨1, [(1, .output)], true⟩, .output, rfl, Or.inr ⟨rfl, rfl⟩⟩,
   ⟨rfl, ⟨9, [(1, .output), (0, .output)], true⟩, .output, rfl, Or.inl ⟨rfl, by decide, by decide⟩⟩, ⟨rfl, rfl, rfl⟩,
   ⟨rfl, ⟨0, [(0, .output)], false⟩, .output, rfl, Or.inl ⟨rfl, by decide, by decide⟩⟩⟩

def okB : Except Err Bool → Option Bool
  | .ok b => some b
  | .error _ => none

/-- process 1 is in the background; given as an object it is not; a foreground process has dependencies and consumers -/
example : okB (isInBackground (exEnv true) exFb' (.str 1) none) = some true ∧
    okB (isInBackground (exEnv true) exFb' (.proc ⟨1, [(1, .output)], true⟩) none) = some false ∧
    (directQuery (exEnv true) (dependencies exFb') (.str 0) none).1 ≠ [] ∧ (consumers (exEnv true) exFb' (.str 1) none).1 ≠ [] ∧
    (backgroundFlows (exEnv true) exFb' (some "x")).1.length = 3 ∧ (foregroundFlows (exEnv true) exFb' none).1 = [⟨0, 0, .output⟩] := by decide +kernel

/-- a process with two references, of which only the second is in the foreground -/
example : okB (isInBackground (exEnv true) exFb' (.str 9) none) = some false ∧ okB (isInBackground (exEnv false) exFb' (.str 9) none) = none := by decide +kernel

end BgI
