import Verif.Props.CatFiles

/-!
Examples for C120–C122; C123: creating a foreground; C124: configuring resources; C125: the stored configuration.
-/

namespace CatF
open Rsv (Str Res St Listed Hits)

variable {A : Type} [DecidableEq A]

/-! ### examples for C120, C121, C122 -/

def exEnv : Env := { root := "/c".toList, hash := id, md5 := id, net := fun u => u ++ "!".toList, localRef := fun p => "local".toList ++ p }

def exRes (oid : ℕ) (ref : String) (source : Option String) (internal : Bool) : Res Unit :=
  { oid := oid, ref := ref.toList, source := source.map String.toList, dtype := "X".toList, ifaces := ["basic"], prio := 50, static := false,
    internal := internal, download := if source = none then some "u".toList else none, filetype := none, rest := () }

/-- two resources share an internal source, a third names the same file by another path -/
def exCat : Cat Unit :=
  { reg := ⟨[("a".toList, [exRes 1 "a" (some "$CAT_ROOT/x") true, exRes 2 "a" (some "/y") false]),
             ("b".toList, [exRes 3 "b" (some "$CAT_ROOT/x") true]), ("d".toList, [exRes 4 "d" (some "/c/x") false])],
            [("a".toList, some [(exRes 1 "a" (some "$CAT_ROOT/x") true).serialize, (exRes 2 "a" (some "/y") false).serialize]),
             ("b".toList, some [(exRes 3 "b" (some "$CAT_ROOT/x") true).serialize]),
             ("d".toList, some [(exRes 4 "d" (some "/c/x") false).serialize])]⟩
    files := [("/c/x".toList, .file "data".toList), ("/y".toList, .file "other".toList)] }

def outFiles {E V : Type} : Out (Cat Unit) E V → Dict Str Node
  | .ok _ c => c.files
  | .err _ c => c.files

def okP {E V : Type} : Out (Cat Unit) E V → Bool
  | .ok _ _ => true
  | .err _ _ => false

theorem ok_of_okP {E V : Type} {x : Out (Cat Unit) E V} (h : okP x = true) : ∃ v c, x = .ok v c := by
  cases x with
  | ok v c => exact ⟨v, c, rfl⟩
  | err e c => cases h

example : ∃ p c', download exEnv exCat "u".toList (some "u!".toList) false true = .ok p c' ∧ p = "$CAT_ROOT/downloads/u".toList ∧
    c'.files.get? "/c/downloads/u".toList = some (.file "u!".toList) := by
  obtain ⟨p, c', h⟩ := ok_of_okP (x := download exEnv exCat "u".toList (some "u!".toList) false true) (by decide +kernel)
  refine ⟨p, c', h, ?_, (download_partial _ _ _ _ _ _ _ _ (.inl (by decide +kernel)) h).1⟩
  have : (match download exEnv exCat "u".toList (some "u!".toList) false true with | .ok p _ => p | .err _ _ => []) = p := by rw [h]
  rw [← this]; decide +kernel

example := bad_download_accepted exEnv exCat "u".toList "good".toList false (.inl (by decide +kernel)) (by decide +kernel)

/-- the first of two resources is deleted: the file stays; then the second: the file goes -/
example : (outFiles (delete exEnv exCat (exRes 1 "a" (some "$CAT_ROOT/x") true) none true)).get? "/c/x".toList ≠ none ∧
    (outFiles ((delete exEnv exCat (exRes 1 "a" (some "$CAT_ROOT/x") true) none true).bind fun _ c =>
      delete exEnv c (exRes 3 "b" (some "$CAT_ROOT/x") true) none true)).get? "/c/x".toList = none := by decide +kernel

/-- **C121** whether a source is still used is decided by comparing names: a file that another resource names by another path is
deleted under it. Here resource 4 (`/c/x`) still is listed when the file is removed. -/
theorem delete_used_by_another_name : ∃ (c c' : Cat Unit) (r r' : Res Unit) (s s' : Str), r.source = some s ∧ r'.source = some s' ∧
    absPath exEnv.root s = absPath exEnv.root s' ∧ delete exEnv c r none true = .ok () c' ∧ Listed c'.reg r'.ref r' ∧
    c.files.get? (absPath exEnv.root s') ≠ none ∧ c'.files.get? (absPath exEnv.root s') = none := by
  obtain ⟨_, c1, h1⟩ := ok_of_okP (x := delete exEnv exCat (exRes 1 "a" (some "$CAT_ROOT/x") true) none true) (by decide +kernel)
  have hc1 : (match delete exEnv exCat (exRes 1 "a" (some "$CAT_ROOT/x") true) none true with | .ok _ c => c | .err _ c => c) = c1 := by rw [h1]
  obtain ⟨_, c2, h2⟩ := ok_of_okP (x := delete exEnv c1 (exRes 3 "b" (some "$CAT_ROOT/x") true) none true) (by rw [← hc1]; decide +kernel)
  have hc2 : (match delete exEnv c1 (exRes 3 "b" (some "$CAT_ROOT/x") true) none true with | .ok _ c => c | .err _ c => c) = c2 := by rw [h2]
  refine ⟨c1, c2, exRes 3 "b" (some "$CAT_ROOT/x") true, exRes 4 "d" (some "/c/x") false, "$CAT_ROOT/x".toList, "/c/x".toList, rfl, rfl,
    by decide +kernel, h2, ⟨[exRes 4 "d" (some "/c/x") false], ?_, List.mem_singleton.2 rfl⟩, ?_, ?_⟩
  · rw [← hc2, ← hc1]; decide +kernel
  · rw [← hc1]; decide +kernel
  · rw [← hc2, ← hc1]; decide +kernel

example : okP (createCache exEnv exCat "/y".toList false "cached".toList) = true ∧
    okP (createCache exEnv exCat "/c/x".toList false "cached".toList) = true := by decide +kernel

example : ∃ c', createCache exEnv exCat "/y".toList false "cached".toList = .ok () c' ∧
    cacheRead exEnv c' (exRes 2 "a" (some "/y") false) = some "cached".toList := by
  obtain ⟨_, c', h⟩ := ok_of_okP (x := createCache exEnv exCat "/y".toList false "cached".toList) (by decide +kernel)
  refine ⟨c', h, cache_found_partial exEnv exCat c' "/y".toList _ false (by decide +kernel) h (.inr ?_) _ rfl⟩
  rintro ref r ⟨rs, h1, h2⟩ -
  have : ∀ p ∈ exCat.reg.mem, ∀ r ∈ p.2, r.isStatic = false := by decide +kernel
  exact this _ h1 _ h2

example : ∃ c', createCache exEnv exCat "/c/x".toList false "cached".toList = .ok () c' ∧
    cacheRead exEnv c' (exRes 4 "d" (some "/c/x") false) = none := by
  obtain ⟨_, c', h⟩ := ok_of_okP (x := createCache exEnv exCat "/c/x".toList false "cached".toList) (by decide +kernel)
  exact ⟨c', h, (cache_lost exEnv exCat c' "/x".toList "cached".toList false rfl (fun _ _ h => h) h _ rfl).trans (by decide +kernel)⟩

/-! ### C123 creating a foreground -/

theorem mem_withSource (reg : St A) (s : Str) (r : Res A) :
    r ∈ Rsv.withSource reg (some s) ↔ r.source = some s ∧ ∃ ref, Listed reg ref r := by
  rw [Rsv.withSource, List.mem_filter, List.mem_flatMap]
  constructor
  · rintro ⟨⟨⟨ref, rs⟩, h1, h2⟩, h3⟩
    exact ⟨by simpa using h3, ref, rs, h1, h2⟩
  · rintro ⟨h1, ref, rs, h2, h3⟩
    exact ⟨⟨(ref, rs), h2, h3⟩, by simpa using h1⟩

/-- whatever is in the directory is registered -/
def Synced (reg : St A) : Prop := ∀ ref l k, reg.dir.get? ref = some (some l) → k ∈ l → ∀ s, k.source = some s → StillUsed reg s

/-- the path a name stands for -/
def FgPath (env : Env) (name path : Str) : Prop :=
  (name.head? = some '/' ∧ path = name) ∨ (name.head? ≠ some '/' ∧ '/' ∉ name ∧ path = join env.root name)

theorem fgPath_of_ok (env : Env) (c c' : Cat A) (name : Str) (ref : Option Str) (oid : ℕ) (rest : A) (r : Res A)
    (h : createForeground env c name ref oid rest = .ok r c') : ∃ path, FgPath env name path := by
  rw [createForeground] at h
  split at h
  · simp at h
  · rename_i hc
    by_cases ha : name.head? = some '/'
    · exact ⟨name, .inl ⟨ha, rfl⟩⟩
    · refine ⟨_, .inr ⟨ha, ?_, rfl⟩⟩
      simp [isAbs, ha] at hc
      exact hc

theorem createForeground_path (env : Env) (c : Cat A) (name path : Str) (hp : FgPath env name path) (ref : Option Str) (oid : ℕ) (rest : A) :
    createForeground env c name ref oid rest =
      match Rsv.withSource c.reg (some (localize env.root path)) with
      | r :: _ => .ok r c
      | [] =>
        match Rsv.mkRes oid (ref.getD (env.localRef path)) (some (localize env.root path)) "LcForeground".toList (some ["index", "foreground"]) 50
            false false none none rest with
        | .error e => .err (.reg e) c
        | .ok r =>
          match Rsv.addResource c.reg r true with
          | .err e reg => .err (.reg e) { c with reg := reg }
          | .ok _ reg => .ok r { c with reg := reg } := by
  rw [createForeground]
  rcases hp with ⟨h1, rfl⟩ | ⟨h1, h2, rfl⟩
  · simp only [isAbs, h1, decide_true, Bool.not_true, Bool.false_and, Bool.false_eq_true, if_false, if_true]
    rfl
  · have : name.contains '/' = false := by rw [← Bool.not_eq_true, List.contains_iff_mem]; exact h2
    simp only [isAbs, h1, decide_false, Bool.not_false, Bool.true_and, this, Bool.false_eq_true, if_false]
    rfl

/-- **C123** a relative path that is more than a name is refused, and nothing changes. -/
theorem relative_refused (env : Env) (c : Cat A) (name : Str) (ref : Option Str) (oid : ℕ) (rest : A) (h1 : name.head? ≠ some '/') (h2 : '/' ∈ name) :
    createForeground env c name ref oid rest = .err .valueError c := by
  rw [createForeground, if_pos]
  simp [isAbs, h1, h2]

theorem anyMatch_true (s : Rsv.Rec A) (x : Str) (hx : s.source = some x) (hd : s.download = none) : ∀ l : List (Res A),
    Rsv.anyMatch s l = .ok true → ∃ r ∈ l, r.source = some x := by
  intro l
  induction l with
  | nil => intro h; simp [Rsv.anyMatch] at h
  | cons k l ih =>
    intro h
    rw [Rsv.anyMatch] at h
    rw [Rsv.Res.matches, hx, hd] at h
    cases hk : k.source with
    | none => rw [hk] at h; simp at h
    | some y =>
      rw [hk] at h
      simp only at h
      by_cases hxy : x = y
      · exact ⟨k, List.mem_cons_self, by rw [hk, hxy]⟩
      · simp only [hxy, decide_false] at h
        obtain ⟨r, h1, h2⟩ := ih h
        exact ⟨r, List.mem_cons_of_mem _ h1, h2⟩

theorem mapM_ok_mem {X Y E : Type} (f : X → Except E Y) : ∀ (l : List X) (m : List Y), l.mapM f = .ok m → ∀ y ∈ m, ∃ x ∈ l, f x = .ok y := by
  intro l
  induction l with
  | nil => intro m h y hy; simp [List.mapM_nil, pure, Except.pure] at h; subst h; simp at hy
  | cons a l ih =>
    intro m h y hy
    rw [List.mapM_cons] at h
    cases hf : f a with
    | error e => rw [hf] at h; simp [bind, Except.bind] at h
    | ok b =>
      rw [hf] at h
      cases hm : l.mapM f with
      | error e => rw [hm] at h; simp [bind, Except.bind] at h
      | ok m' =>
        rw [hm] at h
        simp only [bind, Except.bind, pure, Except.pure, Except.ok.injEq] at h
        subst h
        rcases List.mem_cons.1 hy with rfl | hy
        · exact ⟨a, List.mem_cons_self, hf⟩
        · obtain ⟨x, h1, h2⟩ := ih m' hm y hy
          exact ⟨x, List.mem_cons_of_mem _ h1, h2⟩

theorem existsIn_true (dir : Rsv.Dir A) (r : Res A) (x : Str) (hx : r.source = some x) (hd : r.download = none) (h : Rsv.existsIn dir r = .ok true) :
    ∃ l k, dir.get? r.ref = some (some l) ∧ k ∈ l ∧ k.source = some x := by
  rw [Rsv.existsIn] at h
  split at h
  · rename_i l hl
    cases hm : l.mapM fun k => r.matches k with
    | error e => rw [hm] at h; simp [Except.map] at h
    | ok bs =>
      rw [hm] at h
      simp only [Except.map, Except.ok.injEq] at h
      rw [List.any_eq_true] at h
      obtain ⟨b, hb, hb2⟩ := h
      obtain ⟨k, hk, hk2⟩ := mapM_ok_mem _ _ _ hm b hb
      refine ⟨l, k, hl, hk, ?_⟩
      rw [Rsv.Res.matches, hx, hd] at hk2
      cases hs : k.source with
      | none => rw [hs] at hk2; cases hdd : k.download <;> (rw [hdd] at hk2; simp at hk2)
      | some y =>
        rw [hs] at hk2
        simp only [Except.ok.injEq] at hk2
        simp only [id_eq] at hb2
        rw [← hk2] at hb2
        rw [of_decide_eq_true hb2]
  · simp at h

theorem mem_of_mem_set {K V : Type} [DecidableEq K] (k : K) (v : V) : ∀ (d : Dict K V) (p : K × V), p ∈ Dict.set d k v → p ∈ d ∨ p = (k, v) := by
  intro d
  induction d with
  | nil => intro p h; simp [Dict.set] at h; exact .inr h
  | cons a d ih =>
    intro p h
    obtain ⟨k', v'⟩ := a
    rw [Dict.set] at h
    split at h
    · rename_i e
      rcases List.mem_cons.1 h with rfl | h
      · right; simp_all
      · exact .inl (List.mem_cons_of_mem _ h)
    · rcases List.mem_cons.1 h with rfl | h
      · exact .inl List.mem_cons_self
      · rcases ih p h with h | h
        · exact .inl (List.mem_cons_of_mem _ h)
        · exact .inr h

theorem listed_append (m : Dict Str (List (Res A))) (dir dir' : Rsv.Dir A) (r q : Res A) (ref : Str)
    (h : Listed ⟨Rsv.append (Rsv.touch m r.ref) r, dir'⟩ ref q) : q = r ∨ ∃ ref, Listed (⟨m, dir⟩ : St A) ref q := by
  obtain ⟨rs, h1, h2⟩ := h
  have touch_mem : ∀ p ∈ Rsv.touch m r.ref, p ∈ m ∨ p = (r.ref, []) := by
    intro p hp
    rw [Rsv.touch] at hp
    split at hp
    · exact .inl hp
    · exact mem_of_mem_set _ _ _ _ hp
  rcases mem_of_mem_set _ _ _ _ h1 with h3 | h3
  · rcases touch_mem _ h3 with h4 | h4
    · exact .inr ⟨ref, rs, h4, h2⟩
    · cases h4; simp at h2
  · obtain ⟨rfl, rfl⟩ := Prod.mk.inj h3
    rcases List.mem_append.1 h2 with h4 | h4
    · rw [Rsv.listOf] at h4
      cases hg : Dict.get? (Rsv.touch m r.ref) r.ref with
      | none => rw [hg] at h4; simp at h4
      | some l =>
        rw [hg] at h4
        rcases touch_mem _ (Dict.mem_of_get?_eq_some _ hg) with h5 | h5
        · exact .inr ⟨r.ref, l, h5, h4⟩
        · obtain ⟨-, rfl⟩ := Prod.mk.inj h5; simp at h4
    · exact .inl (List.mem_singleton.1 h4)

/-- what `create_foreground` does: it returns the resource that has the path as its source, and is listed; only the registry changes -/
theorem createForeground_ok (env : Env) (c c' : Cat A) (name path : Str) (hp : FgPath env name path) (hsync : Synced c.reg) (ref : Option Str)
    (oid : ℕ) (rest : A) (r : Res A) (h : createForeground env c name ref oid rest = .ok r c') :
    r.source = some (localize env.root path) ∧ (∃ t, Rsv.withSource c'.reg (some (localize env.root path)) = r :: t) ∧ c'.files = c.files := by
  rw [createForeground_path env c name path hp] at h
  cases hw : Rsv.withSource c.reg (some (localize env.root path)) with
  | cons q l =>
    rw [hw] at h
    simp only [Out.ok.injEq] at h
    obtain ⟨rfl, rfl⟩ := h
    exact ⟨((mem_withSource _ _ _).1 (by rw [hw]; exact List.mem_cons_self)).1, ⟨l, hw⟩, rfl⟩
  | nil =>
    rw [hw] at h
    simp only [Rsv.mkRes, reduceCtorEq, false_and, if_false] at h
    split at h
    · simp at h
    · rename_i reg hadd
      simp only [Out.ok.injEq] at h
      obtain ⟨hr, rfl⟩ := h
      rw [hr] at hadd
      have hsrc : r.source = some (localize env.root path) := by rw [← hr]
      have hdl : r.download = none := by rw [← hr]
      have hnone : ¬ StillUsed c.reg (localize env.root path) := by rw [← withSource_empty, hw]; rfl
      refine ⟨hsrc, ?_, rfl⟩
      rw [Rsv.addResource] at hadd
      split at hadd
      · simp at hadd
      · rename_i hex
        obtain ⟨l, k, h1, h2, h3⟩ := existsIn_true _ _ _ hsrc hdl hex
        exact absurd (hsync _ _ _ h1 h2 _ h3) hnone
      · rw [Rsv.hasResource] at hadd
        split at hadd
        · simp [Out.bind] at hadd
        · rename_i b hb
          cases b with
          | true =>
            obtain ⟨q, h1, h2⟩ := anyMatch_true r.serialize _ hsrc hdl _ hb
            rw [Rsv.listOf] at h1
            cases hg : c.reg.mem.get? r.ref with
            | none => rw [hg] at h1; simp at h1
            | some rs =>
              rw [hg] at h1
              exact absurd ⟨r.ref, q, ⟨rs, Dict.mem_of_get?_eq_some _ hg, h1⟩, h2⟩ hnone
          | false =>
            simp only [Out.bind, Bool.false_eq_true, if_false, Rsv.register, if_true] at hadd
            split at hadd
            · simp at hadd
            · rename_i dir hdir
              simp only [Out.ok.injEq] at hadd
              obtain ⟨-, rfl⟩ := hadd
              have hall : ∀ q ∈ Rsv.withSource (⟨Rsv.append (Rsv.touch c.reg.mem r.ref) r, dir⟩ : St A) (some (localize env.root path)), q = r := by
                intro q hq
                obtain ⟨h1, ref, h2⟩ := (mem_withSource _ _ _).1 hq
                rcases listed_append _ c.reg.dir _ _ _ _ h2 with h3 | ⟨ref', h3⟩
                · exact h3
                · exact absurd ⟨ref', q, h3, h1⟩ hnone
              have hin : r ∈ Rsv.withSource (⟨Rsv.append (Rsv.touch c.reg.mem r.ref) r, dir⟩ : St A) (some (localize env.root path)) := by
                rw [mem_withSource]
                refine ⟨hsrc, r.ref, _, Dict.mem_of_get?_eq_some _ (Dict.get?_set_self _ _ _), ?_⟩
                exact List.mem_append_right _ (List.mem_singleton.2 rfl)
              cases hl : Rsv.withSource (⟨Rsv.append (Rsv.touch c.reg.mem r.ref) r, dir⟩ : St A) (some (localize env.root path)) with
              | nil => rw [hl] at hin; simp at hin
              | cons a t => exact ⟨t, by rw [hall a (by rw [hl]; exact List.mem_cons_self)]⟩

/-- **C123** creating a foreground a second time, under whatever reference, gives the same resource and changes nothing. -/
theorem createForeground_again (env : Env) (c c' : Cat A) (name : Str) (hsync : Synced c.reg) (ref ref' : Option Str)
    (oid oid' : ℕ) (rest rest' : A) (r : Res A) (h : createForeground env c name ref oid rest = .ok r c') :
    createForeground env c' name ref' oid' rest' = .ok r c' := by
  obtain ⟨path, hp⟩ := fgPath_of_ok _ _ _ _ _ _ _ _ h
  obtain ⟨-, ⟨t, h2⟩, -⟩ := createForeground_ok _ _ _ _ _ hp hsync _ _ _ _ h
  rw [createForeground_path env c' name path hp, h2]

/-- **C123** its source is the path that was asked for. -/
theorem createForeground_source (env : Env) (c c' : Cat A) (name path : Str) (hroot : env.root.head? = some '/') (hp : FgPath env name path)
    (hsync : Synced c.reg) (ref : Option Str) (oid : ℕ) (rest : A) (r : Res A) (h : createForeground env c name ref oid rest = .ok r c') :
    ∃ s, r.source = some s ∧ absPath env.root s = path := by
  obtain ⟨h1, -, -⟩ := createForeground_ok _ _ _ _ _ hp hsync _ _ _ _ h
  refine ⟨_, h1, abs_localize _ _ ?_⟩
  rcases hp with ⟨h2, rfl⟩ | ⟨-, -, rfl⟩
  · exact h2
  · obtain ⟨t, ht⟩ : ∃ t, env.root = '/' :: t := by
      cases hr : env.root with
      | nil => rw [hr] at hroot; simp at hroot
      | cons a t => rw [hr] at hroot; simp at hroot; exact ⟨t, by rw [hroot]⟩
    rw [join, ht]
    split <;> rfl

/-- **C123** a name and the path it stands for give the same foreground. -/
theorem name_or_path (env : Env) (c : Cat A) (name : Str) (hroot : env.root.head? = some '/') (h1 : name.head? ≠ some '/') (h2 : '/' ∉ name)
    (ref : Option Str) (oid : ℕ) (rest : A) :
    createForeground env c name ref oid rest = createForeground env c (join env.root name) ref oid rest := by
  have hj : (join env.root name).head? = some '/' := by
    obtain ⟨t, ht⟩ : ∃ t, env.root = '/' :: t := by
      cases hr : env.root with
      | nil => rw [hr] at hroot; simp at hroot
      | cons a t => rw [hr] at hroot; simp at hroot; exact ⟨t, by rw [hroot]⟩
    rw [join, ht]
    split <;> rfl
  rw [createForeground_path env c name _ (.inr ⟨h1, h2, rfl⟩), createForeground_path env c _ _ (.inl ⟨hj, rfl⟩)]

theorem exCat_synced : Synced exCat.reg := by
  intro ref l k h1 h2 s h3
  have : ∀ p ∈ exCat.reg.dir, ∀ l, p.2 = some l → ∀ k ∈ l, k.source.any (fun s => (Rsv.withSource exCat.reg (some s)).isEmpty) = false := by decide +kernel
  have h4 := this _ (Dict.mem_of_get?_eq_some _ h1) l rfl k h2
  rw [h3] at h4
  simp only [Option.any_some] at h4
  rw [← Bool.not_eq_true, withSource_empty] at h4
  exact not_not.1 h4

example : ∃ r c', createForeground exEnv exCat "fg".toList none 9 () = .ok r c' ∧
    createForeground exEnv c' "/c/fg".toList (some "other".toList) 10 () = .ok r c' ∧ r.source = some "$CAT_ROOT/fg".toList := by
  obtain ⟨r, c', h⟩ := ok_of_okP (x := createForeground exEnv exCat "fg".toList none 9 ()) (by decide +kernel)
  refine ⟨r, c', h, ?_, ?_⟩
  · have h2 := createForeground_again _ _ _ _ exCat_synced none (some "other".toList) 9 10 () () _ h
    rwa [name_or_path exEnv c' _ rfl (by decide) (by decide)] at h2
  · exact (createForeground_ok _ _ _ _ "/c/fg".toList (.inr ⟨by decide, by decide, by decide +kernel⟩) exCat_synced _ _ _ _ h).1

end CatF
