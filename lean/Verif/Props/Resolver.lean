import Verif.Model.Resolver

/-!
Resolving origins (C39), choosing a resource (C40).
-/

set_option linter.unusedSectionVars false

namespace Rsv

variable {A : Type} [DecidableEq A]

/-! ### the specification -/

/-- the reference is the origin, or (unless strict) continues it after a dot -/
def Hits (req ref : Str) (strict : Bool) : Prop := ref = req ∨ strict = false ∧ ∃ t, ref = req ++ '.' :: t

/-- the resource provides one of the interfaces that were asked for, if any were; every resource provides `basic` -/
def Provides (r : Res A) (ifaces : Option (List String)) : Prop :=
  ∀ l, ifaces = some l → ∃ i ∈ l, i = "basic" ∨ i ∈ r.ifaces

/-- the resource is listed under the reference -/
def Listed (st : St A) (ref : Str) (r : Res A) : Prop := ∃ rs, (ref, rs) ∈ st.mem ∧ r ∈ rs

/-! ### dots -/

theorem splitDots_ne (s : Str) : splitDots s ≠ [] := by
  cases s with
  | nil => simp [splitDots]
  | cons c s =>
    unfold splitDots
    split
    · simp
    · split <;> simp

theorem splitDots_cons (c : Char) (hc : c ≠ '.') (s w : Str) (l : List Str) (h : splitDots s = w :: l) :
    splitDots (c :: s) = (c :: w) :: l := by
  unfold splitDots
  rw [if_neg hc, h]

theorem splitDots_dot (s : Str) : splitDots ('.' :: s) = [] :: splitDots s := by
  conv_lhs => unfold splitDots
  rw [if_pos rfl]

theorem prefix_iff (req : Str) : ∀ ref : Str, (splitDots ref).take (splitDots req).length = splitDots req ↔
    ref = req ∨ ∃ t, ref = req ++ '.' :: t := by
  induction req with
  | nil =>
    intro ref
    cases ref with
    | nil => simp [splitDots]
    | cons c s =>
      by_cases hc : c = '.'
      · subst hc; simp [splitDots]
      · obtain ⟨w, l, h⟩ := List.exists_cons_of_ne_nil (splitDots_ne s)
        rw [splitDots_cons c hc s w l h]
        simp [splitDots, hc]
  | cons a req ih =>
    intro ref
    by_cases ha : a = '.'
    · subst ha
      rw [splitDots_dot]
      cases ref with
      | nil =>
        obtain ⟨w, l, h⟩ := List.exists_cons_of_ne_nil (splitDots_ne req)
        simp [splitDots, h]
      | cons c s =>
        by_cases hc : c = '.'
        · subst hc
          rw [splitDots_dot]
          simp only [List.length_cons, List.take_succ_cons, List.cons.injEq, true_and, List.cons_append, ih s]
        · obtain ⟨w, l, h⟩ := List.exists_cons_of_ne_nil (splitDots_ne s)
          rw [splitDots_cons c hc s w l h]
          simp [hc]
    · obtain ⟨w, l, h⟩ := List.exists_cons_of_ne_nil (splitDots_ne req)
      rw [splitDots_cons a ha req w l h]
      cases ref with
      | nil => simp [splitDots]
      | cons c s =>
        by_cases hc : c = '.'
        · subst hc
          rw [splitDots_dot]
          simp [Ne.symm ha]
        · obtain ⟨w', l', h'⟩ := List.exists_cons_of_ne_nil (splitDots_ne s)
          rw [splitDots_cons c hc s w' l' h']
          have := ih s
          rw [h, h'] at this
          simp only [List.length_cons, List.take_succ_cons, List.cons.injEq, List.cons_append] at this ⊢
          constructor
          · rintro ⟨⟨rfl, rfl⟩, h2⟩
            rcases this.1 ⟨rfl, h2⟩ with rfl | ⟨t, rfl⟩
            · exact .inl ⟨rfl, rfl⟩
            · exact .inr ⟨t, rfl, rfl⟩
          · rintro (⟨rfl, rfl⟩ | ⟨t, rfl, rfl⟩)
            · exact ⟨⟨rfl, (this.2 (.inl rfl)).1⟩, (this.2 (.inl rfl)).2⟩
            · exact ⟨⟨rfl, (this.2 (.inr ⟨t, rfl⟩)).1⟩, (this.2 (.inr ⟨t, rfl⟩)).2⟩

theorem refMatches_iff (req ref : Str) (strict : Bool) : refMatches req ref strict = true ↔ Hits req ref strict := by
  unfold refMatches Hits
  cases strict with
  | false => simp [prefix_iff]
  | true =>
    simp only [Bool.true_and, Bool.and_eq_true, Bool.not_eq_true', decide_eq_false_iff_not, not_not, decide_eq_true_eq, prefix_iff]
    simp only [Bool.true_eq_false, false_and, or_false]
    exact ⟨fun h => h.1, fun h => ⟨h, .inl h⟩⟩

theorem satisfies_iff (r : Res A) (ifaces : Option (List String)) : r.satisfies ifaces = true ↔ Provides r ifaces := by
  unfold Res.satisfies Provides
  cases ifaces <;> simp

/-! ### C39 -/

/-- C39: `resolve` returns exactly the resources that are listed under a reference which the origin hits, and which provide one
of the interfaces. -/
theorem resolve_exact (st : St A) (req : Str) (ifaces : Option (List String)) (strict : Bool) (l : List (Res A))
    (h : resolve st req ifaces strict = .ok l) (r : Res A) :
    r ∈ l ↔ ∃ ref, Listed st ref r ∧ Hits req ref strict ∧ Provides r ifaces := by
  unfold resolve at h
  dsimp only at h
  split at h
  · exact absurd h (by simp)
  · cases h
    simp only [List.mem_flatMap, List.mem_filter, refMatches_iff, satisfies_iff, Listed]
    constructor
    · rintro ⟨⟨ref, rs⟩, ⟨h1, h2⟩, h3, h4⟩; exact ⟨ref, ⟨rs, h1, h3⟩, h2, h4⟩
    · rintro ⟨ref, ⟨rs, h1, h3⟩, h2, h4⟩; exact ⟨(ref, rs), ⟨h1, h2⟩, h3, h4⟩

/-- C39: otherwise it raises UnknownOrigin: when the origin hits no reference of the registry. -/
theorem resolve_unknown (st : St A) (req : Str) (ifaces : Option (List String)) (strict : Bool) :
    (resolve st req ifaces strict = .error .unknownOrigin ↔ ∀ ref ∈ references st, ¬ Hits req ref strict) ∧
    ((∃ ref ∈ references st, Hits req ref strict) → ∃ l, resolve st req ifaces strict = .ok l) := by
  have key : (st.mem.filter fun p => refMatches req p.1 strict) = [] ↔ ∀ ref ∈ references st, ¬ Hits req ref strict := by
    rw [List.filter_eq_nil_iff]
    simp only [refMatches_iff, references, Dict.keys, List.mem_map]
    constructor
    · rintro h ref ⟨p, hp, rfl⟩; exact h p hp
    · intro h p hp; exact h p.1 ⟨p, hp, rfl⟩
  unfold resolve
  dsimp only
  constructor
  · rw [← key]
    by_cases h : (st.mem.filter fun p => refMatches req p.1 strict) = []
    · rw [if_pos h]; exact ⟨fun _ => h, fun _ => rfl⟩
    · rw [if_neg h]; exact ⟨fun e => absurd e (by simp), fun e => absurd e h⟩
  · rintro ⟨ref, h1, h2⟩
    rw [if_neg (fun e => key.1 e ref h1 h2)]
    exact ⟨_, rfl⟩

/-- each resource is returned once, if it is listed once -/
theorem resolve_nodup (st : St A) (req : Str) (ifaces : Option (List String)) (strict : Bool) (l : List (Res A))
    (h : resolve st req ifaces strict = .ok l) (hn : (st.mem.flatMap Prod.snd).Nodup) : l.Nodup := by
  unfold resolve at h
  dsimp only at h
  split at h
  · exact absurd h (by simp)
  · cases h
    refine List.Nodup.sublist ?_ hn
    clear hn
    rename_i hne
    clear hne
    induction st.mem with
    | nil => simp
    | cons p m ih =>
      rw [List.filter_cons]
      split
      · simp only [List.flatMap_cons]; exact List.filter_sublist.append ih
      · simp only [List.flatMap_cons]; exact ih.trans (List.sublist_append_right _ _)

/-! ### C40 -/

instance : Std.Total (fun a b : Res A => a.prio ≤ b.prio) := ⟨fun _ _ => le_total _ _⟩
instance : IsTrans (Res A) (fun a b : Res A => a.prio ≤ b.prio) := ⟨fun _ _ _ => le_trans⟩

theorem byPriority_perm (l : List (Res A)) : (byPriority l).Perm l := List.perm_insertionSort _ _

theorem byPriority_sorted (l : List (Res A)) : (byPriority l).Pairwise fun a b => a.prio ≤ b.prio :=
  List.pairwise_insertionSort _ l

/-- what a caller of `get_resource` allows -/
def Allowed (l : List (Res A)) (internal : Bool) (r : Res A) : Prop := r ∈ l ∧ (internal = false → r.internal = false)

theorem pick_spec (l : List (Res A)) (strict internal : Bool) (r : Res A) (h : pick l strict internal = .ok r) :
    Allowed l internal r ∧ (∀ r', Allowed l internal r' → r.prio ≤ r'.prio) ∧
      (strict = true → ∀ r', Allowed l internal r' → r' = r) := by
  unfold pick at h
  generalize hl : (if internal = true then l else l.filter fun r => !r.internal) = m at h
  have hm : ∀ x, x ∈ m ↔ Allowed l internal x := by
    intro x
    subst hl
    cases internal <;> simp [Allowed]
  cases hb : byPriority m with
  | nil => rw [hb] at h; exact absurd h (by simp)
  | cons a t =>
    rw [hb] at h
    dsimp only at h
    have hp := byPriority_perm m
    have hs := byPriority_sorted m
    rw [hb] at hp hs
    split at h
    · exact absurd h (by simp)
    · rename_i hst
      cases h
      refine ⟨(hm _).1 (hp.mem_iff.1 (by simp)), fun r' hr' => ?_, fun hstrict r' hr' => ?_⟩
      · have := hp.mem_iff.2 ((hm _).2 hr')
        rcases List.mem_cons.1 this with rfl | ht
        · exact le_refl _
        · exact (List.pairwise_cons.1 hs).1 r' ht
      · have := hp.mem_iff.2 ((hm _).2 hr')
        have ht : t = [] := by simpa [hstrict] using hst
        subst ht
        simpa using this

theorem pick_ambiguous (l : List (Res A)) (hn : l.Nodup) (strict internal : Bool) :
    pick l strict internal = .error .ambiguous ↔
      strict = true ∧ ∃ r r', Allowed l internal r ∧ Allowed l internal r' ∧ r ≠ r' := by
  unfold pick
  generalize hl : (if internal = true then l else l.filter fun r => !r.internal) = m
  have hm : ∀ x, x ∈ m ↔ Allowed l internal x := by
    intro x
    subst hl
    cases internal <;> simp [Allowed]
  have hmn : m.Nodup := by
    subst hl
    split
    · exact hn
    · exact hn.filter _
  have hp := byPriority_perm m
  have hbn := hp.nodup_iff.2 hmn
  cases hb : byPriority m with
  | nil =>
    rw [hb] at hp
    constructor
    · intro h; exact absurd h (by simp)
    · rintro ⟨_, r, r', h1, _⟩
      exact absurd (hp.mem_iff.2 ((hm r).2 h1)) (by simp)
  | cons a t =>
    rw [hb] at hp hbn
    dsimp only
    constructor
    · intro h
      split at h
      · rename_i hst
        simp only [Bool.and_eq_true, Bool.not_eq_true', List.isEmpty_eq_false_iff] at hst
        obtain ⟨b, t', rfl⟩ := List.exists_cons_of_ne_nil hst.2
        refine ⟨hst.1, a, b, (hm _).1 (hp.mem_iff.1 (by simp)), (hm _).1 (hp.mem_iff.1 (by simp)), ?_⟩
        rintro rfl
        exact (List.nodup_cons.1 hbn).1 (by simp)
      · exact absurd h (by simp)
    · rintro ⟨h1, r, r', h2, h3, h4⟩
      have h2 := hp.mem_iff.2 ((hm _).2 h2)
      have h3 := hp.mem_iff.2 ((hm _).2 h3)
      have ht : t ≠ [] := by
        rintro rfl
        simp only [List.mem_cons, List.not_mem_nil, or_false] at h2 h3
        exact h4 (h2.trans h3.symm)
      simp [h1, ht]

theorem pick_none (l : List (Res A)) (strict internal : Bool) :
    pick l strict internal = .error .noResource ↔ ∀ r, ¬ Allowed l internal r := by
  unfold pick
  generalize hl : (if internal = true then l else l.filter fun r => !r.internal) = m
  have hm : ∀ x, x ∈ m ↔ Allowed l internal x := by
    intro x
    subst hl
    cases internal <;> simp [Allowed]
  have hp := byPriority_perm m
  cases hb : byPriority m with
  | nil =>
    rw [hb] at hp
    simp only [true_iff]
    intro r hr
    exact absurd (hp.mem_iff.2 ((hm r).2 hr)) (by simp)
  | cons a t =>
    rw [hb] at hp
    constructor
    · intro h
      dsimp only at h
      split at h <;> exact absurd h (by simp)
    · intro h
      exact absurd ((hm a).1 (hp.mem_iff.1 (by simp))) (h a)

/-- what `get_resource(ref, iface, strict=...)` looks for -/
def Wanted (st : St A) (ref : Str) (iface : Option (List String)) (strict internal : Bool) (r : Res A) : Prop :=
  (∃ ref', Listed st ref' r ∧ Hits ref ref' strict ∧ Provides r iface) ∧ (internal = false → r.internal = false)

/-- what `get_resource(source=...)` looks for -/
def WantedSource (st : St A) (source : Str) (internal : Bool) (r : Res A) : Prop :=
  (∃ ref', Listed st ref' r) ∧ r.source = some source ∧ (internal = false → r.internal = false)

/-- C40, without a source: what `get_resource` returns meets all filters, and has a priority that is minimal among those that do;
when strict, it is the only one. -/
theorem getResource_partial (st : St A) (ref : Str) (iface : Option (List String)) (strict internal : Bool) (r : Res A)
    (h : getResource st (some ref) iface none strict internal = .ok r) :
    Wanted st ref iface strict internal r ∧ (∀ r', Wanted st ref iface strict internal r' → r.prio ≤ r'.prio) ∧
      (strict = true → ∀ r', Wanted st ref iface strict internal r' → r' = r) := by
  unfold getResource at h
  dsimp only at h
  cases hr : resolve st ref iface strict with
  | error e => rw [hr] at h; exact absurd h (by simp)
  | ok l =>
    rw [hr] at h
    dsimp only at h
    have hl : ∀ x, Allowed l internal x ↔ Wanted st ref iface strict internal x := by
      intro x
      unfold Allowed Wanted
      rw [resolve_exact st ref iface strict l hr x]
    obtain ⟨h1, h2, h3⟩ := pick_spec l strict internal r h
    exact ⟨(hl r).1 h1, fun r' hr' => h2 r' ((hl r').2 hr'), fun hs r' hr' => h3 hs r' ((hl r').2 hr')⟩

/-- C40, without a source: when it refuses. -/
theorem getResource_refuses_partial (st : St A) (hn : (st.mem.flatMap Prod.snd).Nodup) (ref : Str) (iface : Option (List String))
    (strict internal : Bool) :
    (getResource st (some ref) iface none strict internal = .error .ambiguous ↔
      strict = true ∧ ∃ r r', Wanted st ref iface strict internal r ∧ Wanted st ref iface strict internal r' ∧ r ≠ r') ∧
    ((getResource st (some ref) iface none strict internal = .error .noResource ∨
        getResource st (some ref) iface none strict internal = .error .unknownOrigin) ↔
      ∀ r, ¬ Wanted st ref iface strict internal r) := by
  unfold getResource
  dsimp only
  cases hr : resolve st ref iface strict with
  | error e =>
    have he : e = .unknownOrigin := by
      unfold resolve at hr
      dsimp only at hr
      split at hr
      · exact (Except.error.inj hr).symm
      · exact absurd hr (by simp)
    subst he
    have hno : ∀ r, ¬ Wanted st ref iface strict internal r := by
      rintro r ⟨⟨ref', ⟨rs, h1, _⟩, h2, _⟩, _⟩
      exact (resolve_unknown st ref iface strict).1.1 hr ref' (List.mem_map.2 ⟨_, h1, rfl⟩) h2
    refine ⟨⟨fun h => absurd h (by simp), ?_⟩, ⟨fun _ => hno, fun _ => .inr rfl⟩⟩
    rintro ⟨_, r, _, h, _⟩
    exact absurd h (hno r)
  | ok l =>
    dsimp only
    have hl : ∀ x, Allowed l internal x ↔ Wanted st ref iface strict internal x := by
      intro x
      unfold Allowed Wanted
      rw [resolve_exact st ref iface strict l hr x]
    rw [pick_ambiguous l (resolve_nodup st ref iface strict l hr hn), pick_none]
    simp only [hl, or_iff_left_iff_imp]
    refine ⟨trivial, ?_⟩
    intro h
    exfalso
    unfold pick at h
    split at h
    · exact absurd h (by simp)
    · split at h <;> exact absurd h (by simp)

/-- C40, with a source: what is returned has this source, and a minimal priority among those that have; the reference and the
interface are ignored (see `source_ignores_ref`). -/
theorem getResource_source_partial (st : St A) (ref : Option Str) (iface : Option (List String)) (source : Str)
    (strict internal : Bool) (r : Res A) (h : getResource st ref iface (some source) strict internal = .ok r) :
    WantedSource st source internal r ∧ (∀ r', WantedSource st source internal r' → r.prio ≤ r'.prio) ∧
      (strict = true → ∀ r', WantedSource st source internal r' → r' = r) := by
  have hl : ∀ x, Allowed (withSource st (some source)) internal x ↔ WantedSource st source internal x := by
    intro x
    unfold Allowed WantedSource withSource Listed
    simp only [List.mem_filter, List.mem_flatMap, decide_eq_true_eq, Prod.exists, and_assoc]
  obtain ⟨h1, h2, h3⟩ := pick_spec _ strict internal r h
  exact ⟨(hl r).1 h1, fun r' hr' => h2 r' ((hl r').2 hr'), fun hs r' hr' => h3 hs r' ((hl r').2 hr')⟩

/-! ### examples -/

/-- resources for the examples -/
def exRes (oid : ℕ) (ref source : String) (ifaces : List String) (prio : ℤ) : Res Unit :=
  { oid := oid, ref := ref.toList, source := some source.toList, dtype := "json".toList, ifaces := normalize (some ifaces), prio := prio,
    static := false, internal := false, download := none, filetype := none, rest := () }

def exSt : St Unit :=
  { mem := [("uslci".toList, [exRes 0 "uslci" "a" ["index"] 50]),
            ("uslci.clean".toList, [exRes 1 "uslci.clean" "b" ["inventory"] 20, exRes 2 "uslci.clean" "c" ["index"] 10]),
            ("uslci2".toList, [exRes 3 "uslci2" "d" [] 0])]
    dir := [] }

def view (x : Except Err (List (Res Unit))) : Option (List ℕ) := x.toOption.map fun l => l.map Res.oid
def view1 (x : Except Err (Res Unit)) : Except Err ℕ := x.map Res.oid

example : view (resolve exSt "uslci".toList none false) = some [0, 1, 2] ∧
    view (resolve exSt "uslci".toList none true) = some [0] ∧
    view (resolve exSt "uslci".toList (some ["index"]) false) = some [0, 2] ∧
    view (resolve exSt "uslci.cl".toList none false) = none := by decide +kernel

example : view1 (getResource exSt (some "uslci".toList) (some ["index"]) none false true) = .ok 2 ∧
    view1 (getResource exSt (some "uslci.clean".toList) none none true true) = .error .ambiguous ∧
    view1 (getResource exSt (some "uslci.clean".toList) (some ["foreground"]) none true true) = .error .noResource ∧
    (exSt.mem.flatMap Prod.snd).Nodup := by decide +kernel

/-- C40 fails: when a source is given, the reference and the interface are ignored. -/
theorem source_ignores_ref : ∃ (st : St Unit) (r : Res Unit),
    getResource st (some "ecoinvent".toList) (some ["background"]) (some "a".toList) true true = .ok r ∧
    r.ref = "uslci".toList ∧ ¬ Provides r (some ["background"]) := by
  refine ⟨exSt, exRes 0 "uslci" "a" ["index"] 50, by decide +kernel, rfl, ?_⟩
  rw [← satisfies_iff]
  decide +kernel

/-- C80: `get_resource(origin, interfaces)`: what it returns meets all filters, its priority is minimal among those that do,
and when strict it is the only one. -/
theorem getResource_by_reference (st : St A) (ref : Str) (iface : Option (List String)) (strict internal : Bool) (r : Res A)
    (h : getResource st (some ref) iface none strict internal = .ok r) :
    Wanted st ref iface strict internal r ∧ (∀ r', Wanted st ref iface strict internal r' → r.prio ≤ r'.prio) ∧
      (strict = true → ∀ r', Wanted st ref iface strict internal r' → r' = r) :=
  getResource_partial st ref iface strict internal r h

/-- C80: when it refuses. -/
theorem getResource_refuses (st : St A) (hn : (st.mem.flatMap Prod.snd).Nodup) (ref : Str) (iface : Option (List String))
    (strict internal : Bool) :
    (getResource st (some ref) iface none strict internal = .error .ambiguous ↔
      strict = true ∧ ∃ r r', Wanted st ref iface strict internal r ∧ Wanted st ref iface strict internal r' ∧ r ≠ r') ∧
    ((getResource st (some ref) iface none strict internal = .error .noResource ∨
        getResource st (some ref) iface none strict internal = .error .unknownOrigin) ↔
      ∀ r, ¬ Wanted st ref iface strict internal r) :=
  getResource_refuses_partial st hn ref iface strict internal

end Rsv
