import Verif.Model.CatFiles
import Verif.Props.Resolver

/-!
C119: paths of a catalog; C120: downloads; C121: deleting a resource; C122: caches; C123: creating a foreground.
-/

namespace CatF
open Rsv (Str Res St Listed)

variable {A : Type} [DecidableEq A]

/-! ### C119 paths -/

theorem isPrefixOf_iff (a b : Str) : a.isPrefixOf b = true ↔ ∃ t, b = a ++ t := by
  rw [List.isPrefixOf_iff_prefix]
  exact ⟨fun ⟨t, h⟩ => ⟨t, h.symm⟩, fun ⟨t, h⟩ => ⟨t, h.symm⟩⟩

theorem localize_inside (root t : Str) : localize root (root ++ t) = catRoot ++ t := by
  rw [localize, if_pos ((isPrefixOf_iff _ _).2 ⟨t, rfl⟩), List.drop_left]

theorem absPath_catRoot (root t : Str) : absPath root (catRoot ++ t) = root ++ t := by
  have h : isAbs (catRoot ++ t) = false := by simp [isAbs, catRoot]
  rw [absPath, h, if_neg (by simp), if_pos ((isPrefixOf_iff _ _).2 ⟨t, rfl⟩), List.drop_left]

/-- **C119** whatever absolute path is made relative to the catalog, `abs_path` gives it back. -/
theorem abs_localize (root p : Str) (h : p.head? = some '/') : absPath root (localize root p) = p := by
  by_cases hp : root.isPrefixOf p = true
  · obtain ⟨t, rfl⟩ := (isPrefixOf_iff _ _).1 hp
    rw [localize_inside, absPath_catRoot]
  · rw [localize, if_neg hp, absPath, isAbs, h]; simp

/-- **C119** a stored path is not changed by localizing it again. -/
theorem localize_idem (root p : Str) (h : root.head? = some '/') : localize root (localize root p) = localize root p := by
  by_cases hp : root.isPrefixOf p = true
  · obtain ⟨t, rfl⟩ := (isPrefixOf_iff _ _).1 hp
    rw [localize_inside, localize, if_neg]
    intro hc
    obtain ⟨s, hs⟩ := (isPrefixOf_iff _ _).1 hc
    obtain ⟨r, rfl⟩ : ∃ r, root = '/' :: r := by
      cases root with
      | nil => simp at h
      | cons a r => simp at h; exact ⟨r, by rw [h]⟩
    simp [catRoot] at hs
  · have : localize root p = p := by rw [localize, if_neg hp]
    rw [this, this]

/-- **C119** if the catalog is moved, a path inside it that was stored by the old catalog is found inside the new one. -/
theorem moved_inside (root root' t : Str) : absPath root' (localize root (join root t)) = root' ++ (join root t).drop root.length := by
  have : ∃ s, join root t = root ++ s := by
    rw [join]; split
    · exact ⟨t, rfl⟩
    · exact ⟨'/' :: t, rfl⟩
  obtain ⟨s, hs⟩ := this
  rw [hs, localize_inside, absPath_catRoot, List.drop_left]

/-- **C119** fails for paths beside the catalog whose name merely begins like it: they are taken to be inside. When the catalog is
moved, the path is changed although its file stayed. -/
theorem moved_beside (root root' t : Str) (hne : root ≠ root') :
    localize root (root ++ '2' :: t) = catRoot ++ '2' :: t ∧ absPath root' (localize root (root ++ '2' :: t)) ≠ root ++ '2' :: t := by
  rw [localize_inside, absPath_catRoot]
  exact ⟨rfl, fun h => hne (List.append_cancel_right h).symm⟩

example := abs_localize "/data/cat".toList "/data/cat/archives/x".toList rfl
example : localize "/data/cat".toList "/data/cat/archives/x".toList = "$CAT_ROOT/archives/x".toList ∧
    absPath "/new/cat".toList "$CAT_ROOT/archives/x".toList = "/new/cat/archives/x".toList := by decide
example : localize "/data/cat".toList "/data/cat2/x".toList = "$CAT_ROOT2/x".toList ∧
    absPath "/new/c".toList "$CAT_ROOT2/x".toList = "/new/c2/x".toList := by decide
example := localize_idem "/data/cat".toList "/data/cat/x".toList rfl
example := moved_inside "/data/cat".toList "/new".toList "x".toList
example := moved_beside "/data/cat".toList "/new".toList "/x".toList (by decide)

/-! ### C120 downloads -/

/-- **C120** a download that was not there before, or that is forced, and that returns, is what the network gave and has the digest
asked for; no other file changes. -/
theorem download_partial (env : Env) (c c' : Cat A) (url : Str) (md5sum : Option Str) (force loc : Bool) (p : Str)
    (hnew : downloadPath env url ∉ c.files.keys ∨ force = true) (h : download env c url md5sum force loc = .ok p c') :
    c'.files.get? (downloadPath env url) = some (.file (env.net url)) ∧ (∀ m, md5sum = some m → env.md5 (env.net url) = m) ∧
      (∀ q, q ≠ downloadPath env url → c'.files.get? q = c.files.get? q) ∧ c'.reg = c.reg := by
  rw [download] at h
  have hcond : (c.files.has (downloadPath env url) && !force) = false := by
    rcases hnew with h1 | h1
    · have : c.files.has (downloadPath env url) = false := by rw [← Bool.not_eq_true, Dict.has_iff]; exact h1
      simp [this]
    · simp [h1]
  simp only [hcond, Bool.false_eq_true, if_false] at h
  have key : ∀ c2 : Cat A, c2 = { c with files := c.files.set (downloadPath env url) (.file (env.net url)) } →
      c2.files.get? (downloadPath env url) = some (.file (env.net url)) ∧
      (∀ q, q ≠ downloadPath env url → c2.files.get? q = c.files.get? q) ∧ c2.reg = c.reg := by
    rintro c2 rfl
    exact ⟨Dict.get?_set_self _ _ _, fun q hq => Dict.get?_set_ne _ _ (Ne.symm hq), rfl⟩
  cases hm : md5sum with
  | none =>
    rw [hm] at h
    simp only [Out.ok.injEq] at h
    obtain ⟨h1, h2, h3⟩ := key c' h.2.symm
    exact ⟨h1, by simp, h2, h3⟩
  | some m =>
    rw [hm] at h
    simp only at h
    split at h
    · rename_i hmd
      simp only [Out.ok.injEq] at h
      obtain ⟨h1, h2, h3⟩ := key c' h.2.symm
      exact ⟨h1, by intro m' hm'; rw [← Option.some.inj hm']; exact hmd, h2, h3⟩
    · simp at h

/-- **C120** a file that was downloaded is not downloaded again unless forced. -/
theorem download_again (env : Env) (c : Cat A) (url : Str) (md5sum : Option Str) (h : downloadPath env url ∈ c.files.keys) :
    download env c url md5sum false false = .ok (downloadPath env url) c := by
  have : c.files.has (downloadPath env url) = true := (Dict.has_iff _ _).2 h
  simp [download, this]

/-- **C120** is false for files that are there: when a download has the wrong digest an exception is raised, but the file stays, and
the next call with the same digest returns it. -/
theorem bad_download_accepted (env : Env) (c : Cat A) (url m : Str) (force : Bool)
    (hnew : downloadPath env url ∉ c.files.keys ∨ force = true) (hbad : env.md5 (env.net url) ≠ m) :
    ∃ c', download env c url (some m) force false = .err .assertion c' ∧
      c'.files.get? (downloadPath env url) = some (.file (env.net url)) ∧
      download env c' url (some m) false false = .ok (downloadPath env url) c' := by
  have hcond : (c.files.has (downloadPath env url) && !force) = false := by
    rcases hnew with h1 | h1
    · have : c.files.has (downloadPath env url) = false := by rw [← Bool.not_eq_true, Dict.has_iff]; exact h1
      simp [this]
    · simp [h1]
  refine ⟨{ c with files := c.files.set (downloadPath env url) (.file (env.net url)) }, ?_, Dict.get?_set_self _ _ _, ?_⟩
  · rw [download]
    simp only [hcond, Bool.false_eq_true, if_false, hbad]
  · exact download_again env _ url _ ((Dict.mem_keys_iff _ _).2 ⟨_, Dict.get?_set_self _ _ _⟩)

/-! ### C121 deleting a resource -/

/-- another resource that is still listed names the same source -/
def StillUsed (reg : St A) (s : Str) : Prop := ∃ ref r, Listed reg ref r ∧ r.source = some s

theorem withSource_empty (reg : St A) (s : Str) : (Rsv.withSource reg (some s)).isEmpty = true ↔ ¬ StillUsed reg s := by
  rw [List.isEmpty_iff, Rsv.withSource, List.filter_eq_nil_iff]
  constructor
  · rintro h ⟨ref, r, ⟨rs, h1, h2⟩, h3⟩
    exact h r (List.mem_flatMap.2 ⟨(ref, rs), h1, h2⟩) (by simpa using h3)
  · intro h r hr hs
    obtain ⟨⟨ref, rs⟩, h1, h2⟩ := List.mem_flatMap.1 hr
    exact h ⟨ref, r, ⟨rs, h1, h2⟩, by simpa using hs⟩

open Classical in
/-- **C121** `delete_resource` removes the resource from the registry, as `LcCatalogResolver.delete_resource` does (C41). Of the files
it removes the source exactly if deletion is not forbidden, the source is a file that no other resource names, and the resource is
internal or deletion is asked for; and the caches of the source if deletion is not forbidden and the source was such a file. -/
theorem delete_files (env : Env) (c c' : Cat A) (r : Res A) (s : Str) (ds : Option Bool) (dc : Bool) (hs : r.source = some s)
    (h : delete env c r ds dc = .ok () c') :
    Rsv.deleteResource c.reg r = .ok () c'.reg ∧
    ∀ p, c'.files.get? p =
      if ds ≠ some false ∧ (∃ x, c.files.get? (absPath env.root s) = some (.file x)) ∧ ¬ StillUsed c'.reg s ∧
        ((p = absPath env.root s ∧ (r.internal = true ∨ ds = some true)) ∨
          (dc = true ∧ (p = cacheFile env s ∨ p = cacheFile env (absPath env.root s))))
      then none else c.files.get? p := by
  rw [delete] at h
  cases hd : Rsv.deleteResource c.reg r with
  | err e reg => rw [hd] at h; simp at h
  | ok a reg =>
    rw [hd] at h
    simp only [hs] at h
    have hfile : isFile ({ c with reg := reg } : Cat A) (absPath env.root s) = true ↔ ∃ x, c.files.get? (absPath env.root s) = some (.file x) := by
      rw [isFile]
      simp only
      cases hg : c.files.get? (absPath env.root s) with
      | none => simp
      | some n => cases n <;> simp
    split at h
    · rename_i hc
      obtain rfl : _ = c' := (Out.ok.inj h).2
      refine ⟨rfl, fun p => ?_⟩
      rw [if_neg]
      rintro ⟨h1, h2, -⟩
      rw [Bool.or_eq_true, decide_eq_true_eq, Bool.not_eq_true', ← Bool.not_eq_true, hfile] at hc
      exact hc.elim h1 fun h => h h2
    · rename_i hc
      rw [Bool.or_eq_true, decide_eq_true_eq, Bool.not_eq_true', ← Bool.not_eq_true, hfile, not_or, not_not] at hc
      split at h
      · rename_i hw
        obtain rfl : _ = c' := (Out.ok.inj h).2
        refine ⟨rfl, fun p => ?_⟩
        rw [if_neg]
        rintro ⟨-, -, h3, -⟩
        rw [Bool.not_eq_true', ← Bool.not_eq_true, withSource_empty] at hw
        exact hw h3
      · rename_i hw
        rw [Bool.not_eq_true', Bool.not_eq_false, withSource_empty] at hw
        obtain rfl : _ = c' := (Out.ok.inj h).2
        have hreg : ∀ b1 b2 : Bool, (if b2 = true then remove (remove (if b1 = true then remove ({ c with reg := reg } : Cat A) (absPath env.root s)
            else { c with reg := reg }) (cacheFile env s)) (cacheFile env (absPath env.root s)) else
            (if b1 = true then remove ({ c with reg := reg } : Cat A) (absPath env.root s) else { c with reg := reg })).reg = reg := by
          intro b1 b2; cases b1 <;> cases b2 <;> rfl
        rw [hreg]
        refine ⟨rfl, fun p => ?_⟩
        by_cases hb1 : (r.internal || decide (ds = some true)) = true
        · have hb1' : r.internal = true ∨ ds = some true := by simpa using hb1
          cases dc <;> simp only [hb1, if_true, remove, Dict.get?_del', Bool.false_eq_true, if_false, hw, hc, not_false_eq_true, true_and, ne_eq, hb1', and_true,
            false_and, or_false] <;> grind
        · have hb1' : ¬ (r.internal = true ∨ ds = some true) := by simpa using hb1
          cases dc <;> simp only [hb1, remove, Dict.get?_del', Bool.false_eq_true, if_false, if_true, hw, hc, not_false_eq_true, true_and, ne_eq, hb1', and_false,
            false_and, or_false, false_or] <;> grind

/-- **C121** a resource that was never downloaded has no source. Deleting it raises TypeError, after it has been removed from the
registry. -/
theorem delete_without_source (env : Env) (c : Cat A) (r : Res A) (ds : Option Bool) (dc : Bool) (hs : r.source = none) (reg : St A)
    (h : Rsv.deleteResource c.reg r = .ok () reg) : delete env c r ds dc = .err .typeError { c with reg := reg } := by
  simp [delete, h, hs]

/-- **C121** the caches stay, though their deletion is the default, whenever the source is not a file, or is to be kept. -/
theorem delete_keeps_cache (env : Env) (c c' : Cat A) (r : Res A) (s : Str) (ds : Option Bool) (hs : r.source = some s)
    (hno : ds = some false ∨ ∀ x, c.files.get? (absPath env.root s) ≠ some (.file x)) (h : delete env c r ds true = .ok () c') (p : Str) :
    c'.files.get? p = c.files.get? p := by
  obtain ⟨-, h2⟩ := delete_files env c c' r s ds true hs h
  rw [h2, if_neg]
  rintro ⟨h3, ⟨x, hx⟩, -⟩
  rcases hno with h4 | h4
  · exact h3 h4
  · exact h4 x hx

/-! ### C122 caches -/

/-- **C122** the cache that `create_source_cache` makes of a source that is stored in localized form, or lies outside the catalog, is
read when a resource with that source is loaded. -/
theorem cache_found_partial (env : Env) (c c' : Cat A) (s x : Str) (static : Bool) (hloc : localize env.root s = s)
    (h : createCache env c s static x = .ok () c') (hst : static = true ∨ ∀ ref r, Listed c.reg ref r → r.source = some s → r.isStatic = false)
    (r : Res A) (hr : r.source = some s) : cacheRead env c' r = some x := by
  rw [createCache] at h
  cases hw : Rsv.withSource c.reg (some s) with
  | nil => rw [hw] at h; simp at h
  | cons q l =>
    rw [hw] at h
    have hq : q ∈ Rsv.withSource c.reg (some s) := by rw [hw]; exact List.mem_cons_self
    rw [Rsv.withSource, List.mem_filter, List.mem_flatMap] at hq
    obtain ⟨⟨⟨ref, rs⟩, h1, h2⟩, h3⟩ := hq
    have hcond : (q.isStatic && !static) = false := by
      rcases hst with h4 | h4
      · simp [h4]
      · simp [h4 ref q ⟨rs, h1, h2⟩ (by simpa using h3)]
    simp only [hcond, Bool.false_eq_true, if_false] at h
    obtain rfl : _ = c' := (Out.ok.inj h).2
    simp [cacheRead, hr, hloc, Dict.get?_set_self]

/-- **C122** fails for a source stored as an absolute path inside the catalog: the cache is written under another name than the one
that is read (if the digests differ). -/
theorem cache_lost (env : Env) (c c' : Cat A) (t x : Str) (static : Bool) (hroot : env.root.head? = some '/')
    (hinj : ∀ a b, env.hash a = env.hash b → a = b) (h : createCache env c (env.root ++ t) static x = .ok () c') (r : Res A)
    (hr : r.source = some (env.root ++ t)) : cacheRead env c' r = cacheRead env c r := by
  have hne : cacheFile env (catRoot ++ t) ≠ cacheFile env (env.root ++ t) := by
    intro e
    have e' : env.hash (catRoot ++ t) ++ ".json.gz".toList = env.hash (env.root ++ t) ++ ".json.gz".toList := by
      simp only [cacheFile] at e
      rw [join] at e
      conv_rhs at e => rw [join]
      split at e
      · exact List.append_cancel_left e
      · have := List.append_cancel_left e
        exact (List.cons.inj this).2
    have := hinj _ _ (List.append_cancel_right e')
    have := List.append_cancel_right this
    rw [← this] at hroot
    simp [catRoot] at hroot
  rw [createCache] at h
  cases hw : Rsv.withSource c.reg (some (env.root ++ t)) with
  | nil => rw [hw] at h; simp at h
  | cons q l =>
    rw [hw] at h
    simp only at h
    split at h
    · obtain rfl : _ = c' := (Out.ok.inj h).2; rfl
    · obtain rfl : _ = c' := (Out.ok.inj h).2
      rw [localize_inside]
      simp only [cacheRead, hr, Dict.get?_set_ne _ _ hne]

end CatF
