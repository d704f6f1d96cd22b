import Verif.Props.CatFiles2

/-!
C124: configuring the resources of a reference; C125: the stored configuration of a resource.
-/

namespace CatF
open Rsv (Str Res St Listed Hits)

variable {A : Type} [DecidableEq A]

/-! ### C124 configuring -/

/-- a resource of the reference, or of one that extends it -/
def Concerned (reg : St A) (req : Str) (r : Res A) : Prop := ∃ ref, Hits req ref false ∧ Listed reg ref r

/-- a resource that a configuration leaves in place: it has a source, is loaded, and if it is internal it accepts the configuration -/
def Stays (c : Cat A) (r : Res A) : Prop :=
  (∃ s, r.source = some s) ∧ (∃ a, c.loaded r.oid = some a) ∧ (r.internal = true → c.loaded r.oid = some .accepted)

theorem configureList_stays (env : Env) : ∀ (l : List (Res A)) (c : Cat A), (∀ r ∈ l, Stays c r) →
    configureList env l c = .ok () { c with
      applied := c.applied ++ (l.filter fun r => decide (c.loaded r.oid = some .accepted)).map Res.oid
      saved := c.saved ++ (l.filter fun r => decide (c.loaded r.oid = some .accepted) && !r.internal).map Res.oid } := by
  intro l
  induction l with
  | nil => intro c _; rw [configureList]; simp
  | cons r l ih =>
    intro c h
    obtain ⟨⟨s, h1⟩, ⟨a, h2⟩, h3⟩ := h r List.mem_cons_self
    have hl : ∀ q ∈ l, Stays c q := fun q hq => h q (List.mem_cons_of_mem _ hq)
    rw [configureList, h1]
    simp only [h2]
    cases a with
    | accepted =>
      simp only
      rw [ih _ (by intro q hq; exact hl q hq)]
      cases hi : r.internal <;> simp [h2, hi]
    | refused =>
      have hi : r.internal = false := by
        cases hi : r.internal with
        | false => rfl
        | true => have := h3 hi; rw [h2] at this; cases this
      simp only [hi, Bool.false_eq_true, if_false]
      rw [ih _ hl]
      simp [h2]
    | unsupported =>
      have hi : r.internal = false := by
        cases hi : r.internal with
        | false => rfl
        | true => have := h3 hi; rw [h2] at this; cases this
      simp only [hi, Bool.false_eq_true, if_false]
      rw [ih _ hl]
      simp [h2]

theorem configureRefs_stays (env : Env) (req : Str) : ∀ (m : List (Str × List (Res A))) (found : Bool) (c : Cat A),
    (∀ p ∈ m, Hits req p.1 false → ∀ r ∈ p.2, Stays c r) → (found = true ∨ ∃ p ∈ m, Hits req p.1 false) →
    ∃ c', configureRefs env req m found c = .ok () c' ∧ c'.reg = c.reg ∧ c'.files = c.files ∧ c'.loaded = c.loaded ∧
      (∀ i, i ∈ c'.applied ↔ i ∈ c.applied ∨ ∃ p ∈ m, Hits req p.1 false ∧ ∃ r ∈ p.2, c.loaded r.oid = some .accepted ∧ r.oid = i) ∧
      (∀ i, i ∈ c'.saved ↔ i ∈ c.saved ∨ ∃ p ∈ m, Hits req p.1 false ∧ ∃ r ∈ p.2, c.loaded r.oid = some .accepted ∧ r.internal = false ∧ r.oid = i) := by
  intro m
  induction m with
  | nil =>
    intro found c _ hf
    rcases hf with hf | ⟨p, hp, -⟩
    · rw [configureRefs]; subst hf; exact ⟨c, rfl, rfl, rfl, rfl, by simp, by simp⟩
    · simp at hp
  | cons p m ih =>
    intro found c h hf
    obtain ⟨ref, l⟩ := p
    by_cases hm : Hits req ref false
    · rw [configureRefs, if_pos ((Rsv.refMatches_iff _ _ _).2 hm), configureList_stays env l c (h _ List.mem_cons_self hm)]
      simp only [Out.bind, ne_eq, not_true_eq_false, if_false]
      obtain ⟨c', h1, h2, h3, h4, h5, h6⟩ := ih true { c with
        applied := c.applied ++ (l.filter fun r => decide (c.loaded r.oid = some .accepted)).map Res.oid
        saved := c.saved ++ (l.filter fun r => decide (c.loaded r.oid = some .accepted) && !r.internal).map Res.oid } (fun p hp hh r hr => h p (List.mem_cons_of_mem _ hp) hh r hr) (.inl rfl)
      refine ⟨c', h1, h2, h3, h4, fun i => ?_, fun i => ?_⟩
      · rw [h5]
        simp only [List.mem_append, List.mem_map, List.mem_filter, decide_eq_true_eq, List.mem_cons, exists_eq_or_imp, hm, true_and]
        constructor
        · rintro ((h | ⟨r, ⟨a, b⟩, rfl⟩) | h)
          · exact .inl h
          · exact .inr (.inl ⟨r, a, b, rfl⟩)
          · exact .inr (.inr h)
        · rintro (h | ⟨r, a, b, rfl⟩ | h)
          · exact .inl (.inl h)
          · exact .inl (.inr ⟨r, ⟨a, b⟩, rfl⟩)
          · exact .inr h
      · rw [h6]
        simp only [List.mem_append, List.mem_map, List.mem_filter, Bool.and_eq_true, decide_eq_true_eq, Bool.not_eq_true', List.mem_cons, exists_eq_or_imp, hm, true_and]
        constructor
        · rintro ((h | ⟨r, ⟨a, b, c⟩, rfl⟩) | h)
          · exact .inl h
          · exact .inr (.inl ⟨r, a, b, c, rfl⟩)
          · exact .inr (.inr h)
        · rintro (h | ⟨r, a, b, c, rfl⟩ | h)
          · exact .inl (.inl h)
          · exact .inl (.inr ⟨r, ⟨a, b, c⟩, rfl⟩)
          · exact .inr h
    · rw [configureRefs, if_neg (fun e => hm ((Rsv.refMatches_iff _ _ _).1 e))]
      obtain ⟨c', h1, h2, h3, h4, h5, h6⟩ := ih found c (fun p hp => h p (List.mem_cons_of_mem _ hp)) (by
        rcases hf with hf | ⟨p, hp, hh⟩
        · exact .inl hf
        · rcases List.mem_cons.1 hp with rfl | hp
          · exact absurd hh hm
          · exact .inr ⟨p, hp, hh⟩)
      refine ⟨c', h1, h2, h3, h4, fun i => ?_, fun i => ?_⟩
      · rw [h5]; simp only [List.mem_cons, exists_eq_or_imp, hm, false_and, false_or]
      · rw [h6]; simp only [List.mem_cons, exists_eq_or_imp, hm, false_and, false_or]

/-- **C124** when every resource concerned stays in place, `configure_resource` succeeds: the configuration has been applied to exactly the
resources concerned that accept it, exactly those of them that are not internal were saved, and registry and files are as before. -/
theorem configure_partial (env : Env) (c : Cat A) (req : Str) (hknown : ∃ ref l, (ref, l) ∈ c.reg.mem ∧ Hits req ref false)
    (h : ∀ r, Concerned c.reg req r → Stays c r) :
    ∃ c', configure env c req = .ok () c' ∧ c'.reg = c.reg ∧ c'.files = c.files ∧
      (∀ i, i ∈ c'.applied ↔ i ∈ c.applied ∨ ∃ r, Concerned c.reg req r ∧ c.loaded r.oid = some .accepted ∧ r.oid = i) ∧
      (∀ i, i ∈ c'.saved ↔ i ∈ c.saved ∨ ∃ r, Concerned c.reg req r ∧ c.loaded r.oid = some .accepted ∧ r.internal = false ∧ r.oid = i) := by
  obtain ⟨ref, l, hk1, hk2⟩ := hknown
  obtain ⟨c', h1, h2, h3, -, h5, h6⟩ := configureRefs_stays env req c.reg.mem false c
    (fun p hp hh r hr => h r ⟨p.1, hh, p.2, hp, hr⟩) (.inr ⟨_, hk1, hk2⟩)
  refine ⟨c', h1, h2, h3, fun i => ?_, fun i => ?_⟩
  · rw [h5]
    refine or_congr_right ⟨?_, ?_⟩
    · rintro ⟨p, hp, hh, r, hr, x⟩; exact ⟨r, ⟨p.1, hh, p.2, hp, hr⟩, x⟩
    · rintro ⟨r, ⟨ref, hh, rs, hp, hr⟩, x⟩; exact ⟨(ref, rs), hp, hh, r, hr, x⟩
  · rw [h6]
    refine or_congr_right ⟨?_, ?_⟩
    · rintro ⟨p, hp, hh, r, hr, x⟩; exact ⟨r, ⟨p.1, hh, p.2, hp, hr⟩, x⟩
    · rintro ⟨r, ⟨ref, hh, rs, hp, hr⟩, x⟩; exact ⟨(ref, rs), hp, hh, r, hr, x⟩

/-- **C124** a reference that no registered reference extends is refused, and nothing changes. -/
theorem configure_unknown (env : Env) (c : Cat A) (req : Str) (h : ∀ ref l, (ref, l) ∈ c.reg.mem → ¬ Hits req ref false) :
    configure env c req = .err (.reg .unknownOrigin) c := by
  rw [configure]
  revert h
  generalize c.reg.mem = m
  induction m with
  | nil => intro _; rw [configureRefs]; rfl
  | cons p m ih =>
    intro h
    obtain ⟨ref, l⟩ := p
    rw [configureRefs, if_neg (fun e => h ref l List.mem_cons_self ((Rsv.refMatches_iff _ _ _).1 e))]
    exact ih fun ref l hm => h ref l (List.mem_cons_of_mem _ hm)

theorem configureList_unloaded (env : Env) : ∀ (l : List (Res A)) (c : Cat A), (∀ r ∈ l, r.internal = false) → (∀ r ∈ l, ∃ s, r.source = some s) →
    (∃ r ∈ l, c.loaded r.oid = none) → ∃ c', configureList env l c = .err .attributeError c' := by
  intro l
  induction l with
  | nil => rintro c - - ⟨r, hr, -⟩; simp at hr
  | cons r l ih =>
    intro c hi hs hu
    obtain ⟨s, h1⟩ := hs r List.mem_cons_self
    rw [configureList, h1]
    cases hl : c.loaded r.oid with
    | none => exact ⟨c, by simp only⟩
    | some a =>
      have hu' : ∃ r ∈ l, c.loaded r.oid = none := by
        obtain ⟨q, hq, hq2⟩ := hu
        rcases List.mem_cons.1 hq with rfl | hq
        · rw [hl] at hq2; cases hq2
        · exact ⟨q, hq, hq2⟩
      have hi' := hi r List.mem_cons_self
      cases a <;> simp only [hi', Bool.false_eq_true, if_false] <;>
        exact ih _ (fun q hq => hi q (List.mem_cons_of_mem _ hq)) (fun q hq => hs q (List.mem_cons_of_mem _ hq)) hu'

/-- **C124** fails if a resource concerned has not been loaded yet, which is how every resource starts: `configure_resource` does not
load it but raises AttributeError. (Here for catalogs without internal resources.) -/
theorem configure_unloaded (env : Env) (c : Cat A) (req : Str) (hi : ∀ r, Concerned c.reg req r → r.internal = false)
    (hs : ∀ r, Concerned c.reg req r → ∃ s, r.source = some s) (hu : ∃ r, Concerned c.reg req r ∧ c.loaded r.oid = none) :
    ∃ c', configure env c req = .err .attributeError c' := by
  rw [configure]
  have key : ∀ (m : List (Str × List (Res A))) (found : Bool) (c' : Cat A), c'.loaded = c.loaded →
      (∀ p ∈ m, Hits req p.1 false → ∀ r ∈ p.2, r.internal = false ∧ ∃ s, r.source = some s) →
      (∃ p ∈ m, Hits req p.1 false ∧ ∃ r ∈ p.2, c.loaded r.oid = none) → ∃ c'', configureRefs env req m found c' = .err .attributeError c'' := by
    intro m
    induction m with
    | nil => rintro _ _ _ _ ⟨p, hp, _⟩; simp at hp
    | cons p m ih =>
      intro found c' hl h1 h2
      obtain ⟨ref, l⟩ := p
      have h1' := fun p hp => h1 p (List.mem_cons_of_mem _ hp)
      by_cases hm : Hits req ref false
      · rw [configureRefs, if_pos ((Rsv.refMatches_iff _ _ _).2 hm)]
        have h3 := h1 _ List.mem_cons_self hm
        by_cases hbad : ∃ r ∈ l, c'.loaded r.oid = none
        · obtain ⟨c'', hc⟩ := configureList_unloaded env l c' (fun r hr => (h3 r hr).1) (fun r hr => (h3 r hr).2) hbad
          exact ⟨c'', by rw [hc]; rfl⟩
        · have hst : ∀ r ∈ l, Stays c' r := by
            intro r hr
            refine ⟨(h3 r hr).2, ?_, ?_⟩
            · cases hx : c'.loaded r.oid with
              | none => exact absurd ⟨r, hr, hx⟩ hbad
              | some a => exact ⟨a, rfl⟩
            · intro hx; rw [(h3 r hr).1] at hx; cases hx
          rw [configureList_stays env l c' hst]
          simp only [Out.bind, ne_eq, not_true_eq_false, if_false]
          refine ih true _ (by exact hl) h1' ?_
          obtain ⟨p, hp, hh, r, hr, hn⟩ := h2
          rcases List.mem_cons.1 hp with rfl | hp
          · exact absurd ⟨r, hr, by rw [hl]; exact hn⟩ hbad
          · exact ⟨p, hp, hh, r, hr, hn⟩
      · rw [configureRefs, if_neg (fun e => hm ((Rsv.refMatches_iff _ _ _).1 e))]
        refine ih found c' hl h1' ?_
        obtain ⟨p, hp, hh, x⟩ := h2
        rcases List.mem_cons.1 hp with rfl | hp
        · exact absurd hh hm
        · exact ⟨p, hp, hh, x⟩
  obtain ⟨r, ⟨ref, hh, rs, hp, hr⟩, hn⟩ := hu
  exact key c.reg.mem false c rfl (fun p hp hh r hr => ⟨hi r ⟨p.1, hh, p.2, hp, hr⟩, hs r ⟨p.1, hh, p.2, hp, hr⟩⟩) ⟨(ref, rs), hp, hh, r, hr, hn⟩

theorem delete_loaded (env : Env) (c : Cat A) (r : Res A) (ds : Option Bool) (dc : Bool) :
    (delete env c r ds dc).state.loaded = c.loaded ∧ (delete env c r ds dc).state.applied = c.applied := by
  rw [delete]
  cases Rsv.deleteResource c.reg r with
  | err e reg => exact ⟨rfl, rfl⟩
  | ok a reg =>
    cases r.source with
    | none => exact ⟨rfl, rfl⟩
    | some s =>
      simp only
      split
      · exact ⟨rfl, rfl⟩
      · split
        · exact ⟨rfl, rfl⟩
        · simp only [Out.state]
          split <;> split <;> exact ⟨rfl, rfl⟩

/-- **C124** fails beside an internal resource that does not accept the configuration: it is deleted while the list of resources is being
read, and the resource that follows it is passed over. -/
theorem configure_skips (env : Env) (c : Cat A) (r q : Res A) (l : List (Res A)) (s : Str) (hs : r.source = some s) (hi : r.internal = true)
    (a : Ans) (hl : c.loaded r.oid = some a) (ha : a ≠ .accepted) :
    configureList env (r :: q :: l) c = (delete env c r (some true) true).bind fun _ c' => configureList env l c' := by
  rw [configureList, hs]
  simp only [hl]
  cases a with
  | accepted => exact absurd rfl ha
  | _ =>
    simp only [hi, if_true, List.drop_succ_cons, List.drop_zero]
    cases delete env c r (some true) true <;> rfl

theorem length_del {K V : Type} [DecidableEq K] (d : Dict K V) (k : K) : (Dict.del d k).length ≤ d.length := by
  induction d with
  | nil => exact Nat.le_refl _
  | cons p d ih =>
    rw [Dict.del]
    split
    · exact Nat.le_succ_of_le ih
    · exact Nat.succ_le_succ ih

/-- **C124** an internal resource that is alone under its reference and does not accept the configuration always makes
`configure_resource` raise: its deletion removes the reference from the dictionary that is being read. -/
theorem configure_sole_internal (env : Env) (c : Cat A) (ref : Str) (r : Res A) (m : List (Str × List (Res A)))
    (hmem : c.reg.mem = (ref, [r]) :: m) (href : r.ref = ref) (hi : r.internal = true) (a : Ans)
    (hl : c.loaded r.oid = some a) (ha : a ≠ .accepted) : ∃ e c', configure env c ref = .err e c' := by
  rw [configure]
  have hh : Rsv.refMatches ref ref false = true := (Rsv.refMatches_iff _ _ _).2 (.inl rfl)
  conv in configureRefs _ _ _ _ _ => rw [hmem, configureRefs, if_pos hh]
  have key : (∃ e c', configureList env [r] c = .err e c') ∨ ∃ c', configureList env [r] c = .ok () c' ∧ c'.reg.mem.length ≤ m.length := by
    rw [configureList]
    cases hs : r.source with
    | none => exact .inl ⟨_, _, rfl⟩
    | some s =>
      simp only [hl]
      cases a with
      | accepted => exact absurd rfl ha
      | _ =>
        simp only [hi, if_true]
        cases hd : delete env c r (some true) true with
        | err e c' => exact .inl ⟨e, c', rfl⟩
        | ok _ c' =>
          refine .inr ⟨c', by simp [configureList], ?_⟩
          have := (delete_files env c c' r s (some true) true hs hd).1
          rw [Rsv.deleteResource, Rsv.listOf, hmem] at this
          simp only [href, Dict.get?, if_true, Option.getD_some, List.mem_singleton, List.erase_cons_head] at this
          split at this
          · simp at this
          · simp only [Out.ok.injEq, true_and] at this
            rw [← this]
            simp only [Dict.del, if_true]
            exact length_del m ref
  rcases key with ⟨e, c', h⟩ | ⟨c', h, h2⟩
  · exact ⟨e, c', by rw [h]; rfl⟩
  · refine ⟨.runtimeError, c', ?_⟩
    rw [h]
    simp only [Out.bind, hmem, List.length_cons]
    rw [if_pos (by omega)]

/-- loaded: 1 refuses, 2 and 3 accept -/
def exCat2 : Cat Unit := { exCat with loaded := fun i => if i = 1 then some .refused else if i ≤ 3 then some .accepted else none }

/-- resource 2 follows resource 1, which is deleted: it is not configured although it would accept -/
example : ∃ c', configure exEnv exCat2 "a".toList = .ok () c' ∧ c'.applied = [] ∧ Concerned exCat2.reg "a".toList (exRes 2 "a" (some "/y") false) ∧
    exCat2.loaded 2 = some .accepted := by
  obtain ⟨_, c', h⟩ := ok_of_okP (x := configure exEnv exCat2 "a".toList) (by decide +kernel)
  refine ⟨c', h, ?_, ⟨"a".toList, .inl rfl, [exRes 1 "a" (some "$CAT_ROOT/x") true, exRes 2 "a" (some "/y") false], ?_, ?_⟩, rfl⟩
  · have : (match configure exEnv exCat2 "a".toList with | .ok _ c => c.applied | .err _ c => c.applied) = c'.applied := by rw [h]
    rw [← this]; decide +kernel
  · decide +kernel
  · decide +kernel

example : ∃ c', configure exEnv exCat2 "b".toList = .ok () c' ∧ 3 ∈ c'.applied ∧ 3 ∉ c'.saved := by
  have hst : ∀ r, Concerned exCat2.reg "b".toList r → r = exRes 3 "b" (some "$CAT_ROOT/x") true := by
    rintro r ⟨ref, hh, rs, hp, hr⟩
    have : ∀ p ∈ exCat2.reg.mem, Rsv.refMatches "b".toList p.1 false = true → ∀ r ∈ p.2, r = exRes 3 "b" (some "$CAT_ROOT/x") true := by decide +kernel
    exact this _ hp ((Rsv.refMatches_iff _ _ _).2 hh) _ hr
  have hc : Concerned exCat2.reg "b".toList (exRes 3 "b" (some "$CAT_ROOT/x") true) :=
    ⟨"b".toList, .inl rfl, [exRes 3 "b" (some "$CAT_ROOT/x") true], by decide +kernel, by decide +kernel⟩
  obtain ⟨c', h1, -, -, h4, h5⟩ := configure_partial exEnv exCat2 "b".toList ⟨"b".toList, [exRes 3 "b" (some "$CAT_ROOT/x") true], by decide +kernel, .inl rfl⟩
    (by intro r hr; rw [hst r hr]; exact ⟨⟨_, rfl⟩, ⟨_, rfl⟩, fun _ => rfl⟩)
  refine ⟨c', h1, (h4 3).2 (.inr ⟨_, hc, rfl, rfl⟩), fun h => ?_⟩
  rcases (h5 3).1 h with h | ⟨r, hr, -, h3, -⟩
  · revert h; decide
  · rw [hst r hr] at h3; revert h3; decide

example : ∃ c', configure exEnv exCat2 "d".toList = .err .attributeError c' := by
  have hst : ∀ r, Concerned exCat2.reg "d".toList r → r = exRes 4 "d" (some "/c/x") false := by
    rintro r ⟨ref, hh, rs, hp, hr⟩
    have : ∀ p ∈ exCat2.reg.mem, Rsv.refMatches "d".toList p.1 false = true → ∀ r ∈ p.2, r = exRes 4 "d" (some "/c/x") false := by decide +kernel
    exact this _ hp ((Rsv.refMatches_iff _ _ _).2 hh) _ hr
  exact configure_unloaded exEnv exCat2 "d".toList (fun r hr => by rw [hst r hr]; rfl) (fun r hr => by rw [hst r hr]; exact ⟨_, rfl⟩)
    ⟨exRes 4 "d" (some "/c/x") false, ⟨"d".toList, .inl rfl, [exRes 4 "d" (some "/c/x") false], by decide +kernel, by decide +kernel⟩, rfl⟩

example : ∃ e c', configure exEnv { exCat with reg := { exCat.reg with mem := exCat.reg.mem.drop 1 }, loaded := fun _ => some .refused } "b".toList = .err e c' :=
  configure_sole_internal _ _ _ (exRes 3 "b" (some "$CAT_ROOT/x") true) _ rfl rfl rfl .refused rfl (by decide)

/-! ### C125 the stored configuration -/

/-- the configuration holds the arguments under the name -/
def Holds (d : Dict Str (List (List Str))) (k : Str) (args : List Str) : Prop := ∃ v, (k, v) ∈ d ∧ args ∈ v

/-- **C125** a configuration is stored unless one of its entries has no arguments; then saving the resource raises IndexError. -/
theorem serialize_fails_iff (o : PyOrd (List Str)) (d : Config) :
    serializeConfig o d = .error .indexError ↔ ∃ k, Holds d k [] := by
  induction d with
  | nil => simp [serializeConfig, Holds]
  | cons p d ih =>
    obtain ⟨k, v⟩ := p
    have hholds : ∀ k', Holds ((k, v) :: d) k' [] ↔ (k' = k ∧ [] ∈ v) ∨ Holds d k' [] := by
      intro k'
      constructor
      · rintro ⟨w, h1, h2⟩
        rcases List.mem_cons.1 h1 with h1 | h1
        · cases h1; exact .inl ⟨rfl, h2⟩
        · exact .inr ⟨w, h1, h2⟩
      · rintro (⟨rfl, h⟩ | ⟨w, h1, h2⟩)
        · exact ⟨v, List.mem_cons_self, h⟩
        · exact ⟨w, List.mem_cons_of_mem _ h1, h2⟩
    rw [serializeConfig]
    split
    · rename_i he
      simp only [true_iff]
      obtain ⟨x, hx, hx2⟩ := List.any_eq_true.1 he
      rw [List.isEmpty_iff] at hx2
      subst hx2
      exact ⟨k, (hholds k).2 (.inl ⟨rfl, hx⟩)⟩
    · rename_i he
      have hne : [] ∉ v := fun h => he (List.any_eq_true.2 ⟨[], h, rfl⟩)
      have : (∃ k', Holds ((k, v) :: d) k' []) ↔ ∃ k', Holds d k' [] := by
        refine exists_congr fun k' => ?_
        rw [hholds]; simp [hne]
      rw [this, ← ih]
      cases serializeConfig o d <;> simp [Except.map]

theorem holds_addConfig (d : Config) (hn : d.keys.Nodup) (k k' : Str) (a a' : List Str) :
    Holds (addConfig d k a) k' a' ↔ Holds d k' a' ∨ (k' = k ∧ a' = a) := by
  have hh : ∀ (e : Config), e.keys.Nodup → ∀ x y, Holds e x y ↔ ∃ v, e.get? x = some v ∧ y ∈ v := by
    intro e he x y
    constructor
    · rintro ⟨v, h1, h2⟩; exact ⟨v, Dict.get?_eq_some_of_mem _ he h1, h2⟩
    · rintro ⟨v, h1, h2⟩; exact ⟨v, Dict.mem_of_get?_eq_some _ h1, h2⟩
  rw [addConfig, hh _ (Dict.nodup_keys_set _ _ _ hn), hh _ hn]
  by_cases hk : k = k'
  · subst hk
    simp only [Dict.get?_set_self, Option.some.injEq, exists_eq_left', PySet.mem_add, true_and]
    cases d.get? k <;> simp
  · simp only [Dict.get?_set_ne _ _ hk]
    constructor
    · exact .inl
    · rintro (h | ⟨h, -⟩)
      · exact h
      · exact absurd h.symm hk

theorem holds_load_inner (k k' : Str) (a' : List Str) : ∀ (v : List (List Str)) (d : Config), d.keys.Nodup →
    (v.foldl (fun d q => addConfig d k q) d).keys.Nodup ∧
    (Holds (v.foldl (fun d q => addConfig d k q) d) k' a' ↔ Holds d k' a' ∨ (k' = k ∧ a' ∈ v)) := by
  intro v
  induction v with
  | nil => intro d hn; exact ⟨hn, by simp⟩
  | cons q v ih =>
    intro d hn
    rw [List.foldl_cons]
    obtain ⟨h1, h2⟩ := ih (addConfig d k q) (Dict.nodup_keys_set _ _ _ hn)
    refine ⟨h1, h2.trans ?_⟩
    rw [holds_addConfig _ hn, List.mem_cons]
    constructor
    · rintro ((h | ⟨rfl, rfl⟩) | ⟨rfl, h⟩)
      · exact .inl h
      · exact .inr ⟨rfl, .inl rfl⟩
      · exact .inr ⟨rfl, .inr h⟩
    · rintro (h | ⟨rfl, rfl | h⟩)
      · exact .inl (.inl h)
      · exact .inl (.inr ⟨rfl, rfl⟩)
      · exact .inr ⟨rfl, h⟩

theorem holds_load (k' : Str) (a' : List Str) : ∀ (j : Dict Str (List (List Str))) (d : Config), d.keys.Nodup →
    (j.foldl (fun d kv => kv.2.foldl (fun d q => addConfig d kv.1 q) d) d).keys.Nodup ∧
    (Holds (j.foldl (fun d kv => kv.2.foldl (fun d q => addConfig d kv.1 q) d) d) k' a' ↔ Holds d k' a' ∨ Holds j k' a') := by
  intro j
  induction j with
  | nil => intro d hn; exact ⟨hn, by simp [Holds]⟩
  | cons p j ih =>
    intro d hn
    obtain ⟨k, v⟩ := p
    rw [List.foldl_cons]
    obtain ⟨h1, h2⟩ := holds_load_inner k k' a' v d hn
    obtain ⟨h3, h4⟩ := ih _ h1
    refine ⟨h3, h4.trans ?_⟩
    rw [h2]
    constructor
    · rintro ((h | ⟨rfl, h⟩) | ⟨w, h, h'⟩)
      · exact .inl h
      · exact .inr ⟨v, List.mem_cons_self, h⟩
      · exact .inr ⟨w, List.mem_cons_of_mem _ h, h'⟩
    · rintro (h | ⟨w, h, h'⟩)
      · exact .inl (.inl h)
      · rcases List.mem_cons.1 h with h | h
        · cases h; exact .inl (.inr ⟨rfl, h'⟩)
        · exact .inr ⟨w, h, h'⟩

/-- **C125** a configuration that was stored is read back: a new resource made of it holds the same entries, and each once. -/
theorem config_round_trip (o : PyOrd (List Str)) (d : Config) (j : Dict Str (List (List Str))) (h : serializeConfig o d = .ok j) (k : Str)
    (a : List Str) : (Holds (loadConfig j) k a ↔ Holds d k a) ∧ (loadConfig j).keys.Nodup := by
  obtain ⟨h1, h2⟩ := holds_load k a j [] (by simp [Dict.keys])
  refine ⟨h2.trans ?_, h1⟩
  have hnil : ¬ Holds ([] : Config) k a := by simp [Holds]
  simp only [hnil, false_or]
  clear h1 h2
  induction d generalizing j with
  | nil => rw [serializeConfig] at h; simp at h; subst h; exact Iff.rfl
  | cons p d ih =>
    obtain ⟨k', v⟩ := p
    rw [serializeConfig] at h
    split at h
    · simp at h
    · cases hs : serializeConfig o d with
      | error e => rw [hs] at h; simp [Except.map] at h
      | ok j' =>
        rw [hs] at h
        simp only [Except.map, Except.ok.injEq] at h
        subst h
        have := ih j' hs
        constructor
        · rintro ⟨w, h1, h2⟩
          rcases List.mem_cons.1 h1 with h1 | h1
          · cases h1; exact ⟨v, List.mem_cons_self, (o.mem _ _).1 h2⟩
          · obtain ⟨w', h3, h4⟩ := this.1 ⟨w, h1, h2⟩
            exact ⟨w', List.mem_cons_of_mem _ h3, h4⟩
        · rintro ⟨w, h1, h2⟩
          rcases List.mem_cons.1 h1 with h1 | h1
          · cases h1; exact ⟨_, List.mem_cons_self, (o.mem _ _).2 h2⟩
          · obtain ⟨w', h3, h4⟩ := this.2 ⟨w, h1, h2⟩
            exact ⟨w', List.mem_cons_of_mem _ h3, h4⟩

def exConfig : Config := [("prefer_provider".toList, [["f".toList, "p".toList], ["g".toList, "q".toList]]), ("bad".toList, [["x".toList]])]

example : ∃ j, serializeConfig (PyOrd.id _) exConfig = .ok j ∧ Holds (loadConfig j) "prefer_provider".toList ["g".toList, "q".toList] := by
  refine ⟨exConfig, rfl, ((config_round_trip (PyOrd.id _) exConfig exConfig rfl _ _).1).2 ?_⟩
  exact ⟨_, List.mem_cons_self, by decide⟩

example : serializeConfig (PyOrd.id _) [("k".toList, [[]])] = .error .indexError :=
  (serialize_fails_iff _ _).2 ⟨"k".toList, [[]], List.mem_cons_self, List.mem_cons_self⟩

end CatF
