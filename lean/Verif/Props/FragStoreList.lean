import Verif.Model.FragStore
import Mathlib.Logic.Relation

/-!
C112: listing the fragments of a foreground; C113: finding one by the beginning of its uuid; C114: finding what is terminated to a
fragment; C115: deleting orphans.
-/

namespace FgS
open Frg (Key Dir)

/-! ### specification -/

/-- `p` is the parent of `c` -/
def Parent (fg : Fore) (c p : String) : Prop := ∃ f, fg.frags.get? c = some f ∧ f.parent = some p

/-- `x` is in the tree below `a` (or is `a`) -/
def Below (fg : Fore) (x a : String) : Prop := Relation.ReflTransGen (Parent fg) x a

/-- a reference fragment that was added to the foreground -/
def Root (fg : Fore) (u : String) : Prop :=
  (∃ l, fg.ix.links.get? l = some (.frag u)) ∧ ∃ f, fg.frags.get? u = some f ∧ f.parent = none

/-- the fragments form trees: child flows and parents agree, there are no cycles, every stored fragment is stored under one link -/
structure Trees (fg : Fore) : Prop where
  nodup : fg.ix.links.keys.Nodup
  stored : ∀ l u, fg.ix.links.get? l = some (.frag u) → ∃ f, fg.frags.get? u = some f
  once : ∀ l l' u, fg.ix.links.get? l = some (.frag u) → fg.ix.links.get? l' = some (.frag u) → l = l'
  kids : ∀ p g c, fg.frags.get? p = some g → (c ∈ g.kids ↔ Parent fg c p)
  parent : ∀ c p, Parent fg c p → ∃ g, fg.frags.get? p = some g
  kidsOnce : ∀ p g, fg.frags.get? p = some g → g.kids.Nodup
  acyclic : ∃ rank : String → ℕ, ∀ c p, Parent fg c p → rank p < rank c

/-! ### one after another -/

section
variable {α β : Type} {g : α → Except Err (List β)}

theorem mapCat_ok {l : List α} {m : List β} (h : mapCat g l = .ok m) : ∀ a ∈ l, ∃ r, g a = .ok r := by
  induction l generalizing m with
  | nil => intro a ha; exact absurd ha List.not_mem_nil
  | cons b l ih =>
    intro a ha
    rw [mapCat] at h
    cases hb : g b with
    | error e => rw [hb] at h; simp at h
    | ok r =>
      rw [hb] at h
      cases hl : mapCat g l with
      | error e => rw [hl] at h; simp at h
      | ok m' =>
        rcases List.mem_cons.1 ha with rfl | ha
        · exact ⟨r, hb⟩
        · exact ih hl a ha

theorem mapCat_mem {l : List α} {m : List β} (h : mapCat g l = .ok m) (x : β) :
    x ∈ m ↔ ∃ a ∈ l, ∃ r, g a = .ok r ∧ x ∈ r := by
  induction l generalizing m with
  | nil => simp [mapCat] at h; subst h; simp
  | cons b l ih =>
    rw [mapCat] at h
    cases hb : g b with
    | error e => rw [hb] at h; simp at h
    | ok r =>
      rw [hb] at h
      cases hl : mapCat g l with
      | error e => rw [hl] at h; simp at h
      | ok m' =>
        rw [hl] at h
        have h : r ++ m' = m := by simpa using h
        subst h
        simp [hb, ih hl]

theorem mapCat_nodup {l : List α} {m : List β} (h : mapCat g l = .ok m) (hl : l.Nodup)
    (hr : ∀ a ∈ l, ∀ r, g a = .ok r → r.Nodup)
    (hd : ∀ a ∈ l, ∀ b ∈ l, a ≠ b → ∀ r s x, g a = .ok r → g b = .ok s → x ∈ r → x ∈ s → False) : m.Nodup := by
  induction l generalizing m with
  | nil => simp [mapCat] at h; subst h; simp
  | cons b l ih =>
    rw [mapCat] at h
    cases hb : g b with
    | error e => rw [hb] at h; simp at h
    | ok r =>
      rw [hb] at h
      cases hm : mapCat g l with
      | error e => rw [hm] at h; simp at h
      | ok m' =>
        rw [hm] at h
        have h : r ++ m' = m := by simpa using h
        subst h
        have hl' := List.nodup_cons.1 hl
        rw [List.nodup_append]
        refine ⟨hr b List.mem_cons_self r hb, ih hm hl'.2 (fun a ha => hr a (List.mem_cons_of_mem _ ha))
          (fun a ha c hc => hd a (List.mem_cons_of_mem _ ha) c (List.mem_cons_of_mem _ hc)), ?_⟩
        rintro x hx y hy rfl
        obtain ⟨a, ha, s, hs, hxs⟩ := (mapCat_mem hm x).1 hy
        exact hd b List.mem_cons_self a (List.mem_cons_of_mem _ ha) (fun e => hl'.1 (e ▸ ha)) r s x hb hs hx hxs

theorem mapCat_congr {g' : α → Except Err (List β)} {l : List α} (h : ∀ a ∈ l, g a = g' a) : mapCat g l = mapCat g' l := by
  induction l with
  | nil => rfl
  | cons b l ih =>
    rw [mapCat, mapCat, h b List.mem_cons_self, ih fun a ha => h a (List.mem_cons_of_mem _ ha)]
end

/-! ### trees -/

theorem mem_children (f : Frag) (c : String) : c ∈ children f ↔ c ∈ f.kids := by
  rw [children, List.mem_insertionSort]

theorem nodup_children (f : Frag) (h : f.kids.Nodup) : (children f).Nodup :=
  (List.perm_insertionSort _ _).nodup_iff.2 h

theorem parent_unique (fg : Fore) : Relator.RightUnique (Parent fg) := by
  rintro c p q ⟨f, hf, hp⟩ ⟨f', hf', hq⟩
  rw [hf] at hf'; obtain rfl := Option.some.inj hf'
  rw [hp] at hq; exact Option.some.inj hq

theorem rank_below {fg : Fore} {rank : String → ℕ} (hr : ∀ c p, Parent fg c p → rank p < rank c) {x a : String}
    (h : Below fg x a) : rank a ≤ rank x := by
  induction h with
  | refl => exact le_rfl
  | tail _ h ih => exact (hr _ _ h).le.trans ih

/-- two different children have disjoint subtrees -/
theorem below_disjoint {fg : Fore} (ht : Trees fg) {p c d x : String} (hc : Parent fg c p) (hd : Parent fg d p) (hne : c ≠ d)
    (h1 : Below fg x c) (h2 : Below fg x d) : False := by
  obtain ⟨rank, hr⟩ := ht.acyclic
  have key : ∀ {c d}, Parent fg c p → Parent fg d p → c ≠ d → Below fg c d → False := by
    intro c d hc hd hne h
    rcases Relation.ReflTransGen.cases_head h with rfl | ⟨q, hq, hqd⟩
    · exact hne rfl
    · obtain rfl := parent_unique fg hq hc
      have := rank_below hr hqd
      have := hr _ _ hd
      omega
  rcases Relation.ReflTransGen.total_of_right_unique (parent_unique fg) h1 h2 with h | h
  · exact key hc hd hne h
  · exact key hd hc (Ne.symm hne) h

/-- two different reference fragments have disjoint trees -/
theorem root_disjoint {fg : Fore} {r s x : String} (hr : ∃ f, fg.frags.get? r = some f ∧ f.parent = none)
    (hs : ∃ f, fg.frags.get? s = some f ∧ f.parent = none) (hne : r ≠ s) (h1 : Below fg x r) (h2 : Below fg x s) : False := by
  have key : ∀ {r s}, (∃ f, fg.frags.get? r = some f ∧ f.parent = none) → r ≠ s → Below fg r s → False := by
    rintro r s ⟨f, hf, hp⟩ hne h
    rcases Relation.ReflTransGen.cases_head h with rfl | ⟨q, ⟨f', hf', hq⟩, -⟩
    · exact hne rfl
    · rw [hf] at hf'; obtain rfl := Option.some.inj hf'; rw [hp] at hq; simp at hq
  rcases Relation.ReflTransGen.total_of_right_unique (parent_unique fg) h1 h2 with h | h
  · exact key hr hne h
  · exact key hs (Ne.symm hne) h

theorem recurse_succ {fg : Fore} {n : ℕ} {u : String} {l : List String} (h : recurse fg (n + 1) u = .ok l) :
    ∃ f l', fg.frags.get? u = some f ∧ mapCat (recurse fg n) (children f) = .ok l' ∧ l = u :: l' := by
  rw [recurse] at h
  cases hf : fg.frags.get? u with
  | none => rw [hf] at h; simp at h
  | some f =>
    rw [hf] at h
    simp only at h
    cases hm : mapCat (recurse fg n) (children f) with
    | error e => rw [hm] at h; simp at h
    | ok l' => rw [hm] at h; simp at h; exact ⟨f, l', rfl, hm, h.symm⟩

/-- the list of a tree has exactly the fragments in it -/
theorem recurse_mem {fg : Fore} (ht : Trees fg) {n : ℕ} {u : String} {l : List String} (h : recurse fg n u = .ok l) (x : String) :
    x ∈ l ↔ Below fg x u := by
  induction n generalizing u l with
  | zero => simp [recurse] at h
  | succ n ih =>
    obtain ⟨f, l', hf, hm, rfl⟩ := recurse_succ h
    rw [List.mem_cons, mapCat_mem hm]
    constructor
    · rintro (rfl | ⟨c, hc, r, hr, hx⟩)
      · exact .refl
      · exact ((ih hr).1 hx).tail ((ht.kids u f c hf).1 ((mem_children f c).1 hc))
    · intro hb
      rcases Relation.ReflTransGen.cases_tail hb with rfl | ⟨c, hxc, hc⟩
      · exact .inl rfl
      · have hcm := (mem_children f c).2 ((ht.kids u f c hf).2 hc)
        obtain ⟨r, hr⟩ := mapCat_ok hm c hcm
        exact .inr ⟨c, hcm, r, hr, (ih hr).2 hxc⟩

/-- each once -/
theorem recurse_nodup {fg : Fore} (ht : Trees fg) {n : ℕ} {u : String} {l : List String} (h : recurse fg n u = .ok l) : l.Nodup := by
  induction n generalizing u l with
  | zero => simp [recurse] at h
  | succ n ih =>
    obtain ⟨f, l', hf, hm, rfl⟩ := recurse_succ h
    have hp : ∀ c ∈ children f, Parent fg c u := fun c hc => (ht.kids u f c hf).1 ((mem_children f c).1 hc)
    refine List.nodup_cons.2 ⟨?_, ?_⟩
    · intro hu
      obtain ⟨c, hc, r, hr, hx⟩ := (mapCat_mem hm u).1 hu
      obtain ⟨rank, hrk⟩ := ht.acyclic
      have h1 := rank_below hrk ((recurse_mem ht hr u).1 hx)
      have h2 := hrk _ _ (hp c hc)
      omega
    · refine mapCat_nodup hm (nodup_children f (ht.kidsOnce u f hf)) (fun c _ r hr => ih hr) ?_
      intro c hc d hd hne r s x hr hs hxr hxs
      exact below_disjoint ht (hp c hc) (hp d hd) hne ((recurse_mem ht hr x).1 hxr) ((recurse_mem ht hs x).1 hxs)

/-- `show_all` lists a tree like `_recurse_frags` -/
theorem recurse_eq_showKids (fg : Fore) (n : ℕ) (u : String) :
    recurse fg n u = match showKids fg n u with
      | .error e => .error e
      | .ok l => .ok (u :: l) := by
  induction n generalizing u with
  | zero => rfl
  | succ n ih =>
    rw [recurse, showKids]
    cases fg.frags.get? u with
    | none => rfl
    | some f =>
      simp only
      rw [mapCat_congr (fun k _ => ih k)]
      cases mapCat _ (children f) <;> rfl

/-! ### reference fragments -/

theorem mem_fragments0 {fg : Fore} (ht : Trees fg) (u : String) :
    u ∈ fragments0 fg ↔ ∃ l, fg.ix.links.get? l = some (.frag u) := by
  rw [fragments0, List.mem_filterMap]
  constructor
  · rintro ⟨⟨l, x⟩, hm, hx⟩
    rw [List.mem_insertionSort] at hm
    cases x with
    | frag v =>
      simp only [Option.some.injEq] at hx; subst hx
      exact ⟨l, Dict.get?_eq_some_of_mem _ ht.nodup hm⟩
    | flow f => simp at hx
    | ent e => simp at hx
  · rintro ⟨l, hl⟩
    exact ⟨(l, .frag u), List.mem_insertionSort _ |>.2 (Dict.mem_of_get?_eq_some _ hl), rfl⟩

theorem nodup_filterMap_frag {d : List (String × Obj)} (hn : (d.map Prod.fst).Nodup)
    (h1 : ∀ l l' u, (l, Obj.frag u) ∈ d → (l', Obj.frag u) ∈ d → l = l') :
    (d.filterMap fun lx => match lx.2 with | .frag u => some u | _ => none).Nodup := by
  induction d with
  | nil => simp
  | cons a d ih =>
    obtain ⟨l, x⟩ := a
    have hn' := List.nodup_cons.1 hn
    have hd := ih hn'.2 fun l l' u h h' => h1 l l' u (List.mem_cons_of_mem _ h) (List.mem_cons_of_mem _ h')
    cases x with
    | flow f => simpa [List.filterMap_cons] using hd
    | ent e => simpa [List.filterMap_cons] using hd
    | frag u =>
      simp only [List.filterMap_cons]
      refine List.nodup_cons.2 ⟨?_, hd⟩
      intro hu
      obtain ⟨⟨l', y⟩, hm, hy⟩ := List.mem_filterMap.1 hu
      cases y with
      | flow f => simp at hy
      | ent e => simp at hy
      | frag v =>
        simp only [Option.some.injEq] at hy; subst hy
        have := h1 l l' v List.mem_cons_self (List.mem_cons_of_mem _ hm)
        subst this
        exact hn'.1 (List.mem_map.2 ⟨_, hm, rfl⟩)

theorem nodup_fragments0 {fg : Fore} (ht : Trees fg) : (fragments0 fg).Nodup := by
  have hp := List.perm_insertionSort (fun a b : String × Obj => a.1 ≤ b.1) fg.ix.links
  refine nodup_filterMap_frag ((hp.map Prod.fst).nodup_iff.2 ht.nodup) ?_
  intro l l' u h h'
  rw [List.mem_insertionSort] at h h'
  exact ht.once l l' u (Dict.get?_eq_some_of_mem _ ht.nodup h) (Dict.get?_eq_some_of_mem _ ht.nodup h')

/-- the reference fragments whose background status is as asked -/
theorem mem_roots {fg : Fore} (ht : Trees fg) (b : Option Bool) (u : String) :
    u ∈ roots fg b ↔ Root fg u ∧ ∀ x, b = some x → ∃ f, fg.frags.get? u = some f ∧ f.bg = x := by
  rw [roots, List.mem_filter, mem_fragments0 ht, Root]
  cases hf : fg.frags.get? u with
  | none => simp
  | some f =>
    cases b with
    | none => simp
    | some b => simp [and_assoc]

theorem nodup_roots {fg : Fore} (ht : Trees fg) (b : Option Bool) : (roots fg b).Nodup := (nodup_fragments0 ht).filter _

/-! ### C112 listing -/

theorem listFragments_ok {fg : Fore} {fuel : ℕ} {b : Option Bool} {l : List String} (h : listFragments fg fuel true b = .ok l) :
    ∃ R, R.Perm (roots fg b) ∧ mapCat (recurse fg fuel) R = .ok l := by
  simp only [listFragments, if_true] at h
  refine ⟨_, List.perm_insertionSort (fun a b => isBg fg a ≤ isBg fg b) _, ?_⟩
  rw [mapCat_congr (fun a _ => recurse_eq_showKids fg fuel a)]
  exact h

/-- **C112** `fragments(show_all=True)` lists every fragment of every tree whose reference fragment is in the foreground, and
has the background status that is asked for, each exactly once, and nothing else. -/
theorem fragments_all (fg : Fore) (ht : Trees fg) (fuel : ℕ) (b : Option Bool) (l : List String)
    (h : listFragments fg fuel true b = .ok l) :
    l.Nodup ∧ ∀ x, x ∈ l ↔ ∃ r, Root fg r ∧ Below fg x r ∧ ∀ c, b = some c → ∃ f, fg.frags.get? r = some f ∧ f.bg = c := by
  obtain ⟨R, hp, hm⟩ := listFragments_ok h
  have hR : ∀ r, r ∈ R ↔ _ := fun r => (hp.mem_iff).trans (mem_roots ht b r)
  constructor
  · refine mapCat_nodup hm (hp.nodup_iff.2 (nodup_roots ht b)) (fun r _ l hl => recurse_nodup ht hl) ?_
    intro r hr s hs hne lr ls x hlr hls hx hx'
    exact root_disjoint ((hR r).1 hr).1.2 ((hR s).1 hs).1.2 hne ((recurse_mem ht hlr x).1 hx) ((recurse_mem ht hls x).1 hx')
  · intro x
    rw [mapCat_mem hm]
    constructor
    · rintro ⟨r, hr, lr, hlr, hx⟩
      exact ⟨r, ((hR r).1 hr).1, (recurse_mem ht hlr x).1 hx, ((hR r).1 hr).2⟩
    · rintro ⟨r, hr, hx, hb⟩
      have hm' := (hR r).2 ⟨hr, hb⟩
      obtain ⟨lr, hlr⟩ := mapCat_ok hm r hm'
      exact ⟨r, hm', lr, hlr, (recurse_mem ht hlr x).2 hx⟩

theorem mapCat_single (l : List String) : mapCat (fun f => .ok [f]) l = (.ok l : Except Err (List String)) := by
  induction l with
  | nil => rfl
  | cons a l ih => rw [mapCat, ih]; rfl

/-- **C112** `fragments()` lists the reference fragments, each exactly once. -/
theorem fragments_refs (fg : Fore) (ht : Trees fg) (fuel : ℕ) (b : Option Bool) : ∃ l, listFragments fg fuel false b = .ok l ∧
    l.Nodup ∧ ∀ x, x ∈ l ↔ Root fg x ∧ ∀ c, b = some c → ∃ f, fg.frags.get? x = some f ∧ f.bg = c := by
  refine ⟨(roots fg b).insertionSort fun a b => isBg fg a ≤ isBg fg b, ?_, ?_, ?_⟩
  · simp only [listFragments, Bool.false_eq_true, if_false, mapCat_single]
  · exact (List.perm_insertionSort _ _).nodup_iff.2 (nodup_roots ht b)
  · intro x
    rw [List.mem_insertionSort, mem_roots ht]

/-! ### C113 finding by the beginning of the uuid -/

/-- `u` begins with `s` in lower case, and belongs to a tree of the foreground -/
def Matches (env : Env) (fg : Fore) (s u : String) : Prop :=
  (∃ r, Root fg r ∧ Below fg u r) ∧ (env.lower s).toList <+: u.toList

/-- **C113** `frag(s)` returns the only fragment whose uuid begins with s; raises an ambiguous reference if there are several, and
StopIteration if there is none. -/
theorem frag_strict (env : Env) (fg : Fore) (ht : Trees fg) (fuel : ℕ) (s : String) (l : List String)
    (hl : listFragments fg fuel true none = .ok l) :
    (∀ u, findFrag env fg fuel s true = .ok u ↔ Matches env fg s u ∧ ∀ v, Matches env fg s v → v = u) ∧
    (findFrag env fg fuel s true = .error .ambiguous ↔ ∃ u v, u ≠ v ∧ Matches env fg s u ∧ Matches env fg s v) ∧
    (findFrag env fg fuel s true = .error .stopIteration ↔ ∀ u, ¬ Matches env fg s u) := by
  obtain ⟨hn, hm⟩ := fragments_all fg ht fuel none l hl
  have hM : ∀ u, Matches env fg s u ↔ u ∈ l.filter fun u => (env.lower s).toList.isPrefixOf u.toList := by
    intro u
    rw [List.mem_filter, hm, Matches]
    simp [List.isPrefixOf_iff_prefix]
  have hn' : (l.filter fun u => (env.lower s).toList.isPrefixOf u.toList).Nodup := hn.filter _
  simp only [findFrag, hl, hM]
  generalize (l.filter fun u => (env.lower s).toList.isPrefixOf u.toList) = F at hn'
  match F with
  | [] => simp
  | [u] =>
    simp only [Except.ok.injEq, List.mem_singleton, reduceCtorEq, false_iff]
    refine ⟨fun w => ⟨fun h => ⟨h.symm, fun v hv => hv.trans h⟩, fun h => h.1.symm⟩, ?_, ?_⟩
    · rintro ⟨a, b, hab, rfl, rfl⟩; exact hab rfl
    · intro h; exact h u rfl
  | u :: v :: r =>
    have huv : u ≠ v := by intro e; subst e; simp at hn'
    refine ⟨?_, ?_, ?_⟩
    · intro w
      simp only [if_true, reduceCtorEq, false_iff, not_and, not_forall]
      intro hw
      by_cases h : w = u
      · exact ⟨v, by simp, fun e => huv (by rw [e, h])⟩
      · exact ⟨u, by simp, fun e => h e.symm⟩
    · simp only [if_true, true_iff]; exact ⟨u, v, huv, by simp, by simp⟩
    · simp only [if_true, Except.error.injEq, reduceCtorEq, false_iff, not_forall, not_not]; exact ⟨u, by simp⟩

/-- **C113** not strict: some fragment whose uuid begins with s, if there is one -/
theorem frag_loose (env : Env) (fg : Fore) (ht : Trees fg) (fuel : ℕ) (s : String) (l : List String)
    (hl : listFragments fg fuel true none = .ok l) :
    (∀ u, findFrag env fg fuel s false = .ok u → Matches env fg s u) ∧
    (findFrag env fg fuel s false = .error .stopIteration ↔ ∀ u, ¬ Matches env fg s u) := by
  obtain ⟨-, hm⟩ := fragments_all fg ht fuel none l hl
  have hM : ∀ u, Matches env fg s u ↔ u ∈ l.filter fun u => (env.lower s).toList.isPrefixOf u.toList := by
    intro u
    rw [List.mem_filter, hm, Matches]
    simp [List.isPrefixOf_iff_prefix]
  simp only [findFrag, hl, hM]
  generalize (l.filter fun u => (env.lower s).toList.isPrefixOf u.toList) = F
  match F with
  | [] => simp
  | [u] => simp
  | u :: v :: r =>
    simp only [Bool.false_eq_true, if_false, Except.ok.injEq, reduceCtorEq, false_iff, not_forall, not_not]
    exact ⟨fun w hw => hw ▸ List.mem_cons_self, u, List.mem_cons_self⟩

/-! ### C114 what is terminated to a fragment -/

/-- **C114** `linked_terms` finds every termination to the fragment, in every scenario, of every fragment in the trees of the
foreground, and nothing else. -/
theorem linked_terms (fg : Fore) (ht : Trees fg) (fuel : ℕ) (u : String) (m : List (String × Option String))
    (h : linkedTerms fg fuel u = .ok m) (i : String) (sc : Option String) :
    (i, sc) ∈ m ↔ (∃ r, Root fg r ∧ Below fg i r) ∧ ∃ f t, fg.frags.get? i = some f ∧ (sc, t) ∈ f.terms ∧ t.node = .frag u := by
  rw [linkedTerms] at h
  cases hl : listFragments fg fuel true none with
  | error e => rw [hl] at h; simp at h
  | ok l =>
    rw [hl] at h
    simp only [Except.ok.injEq] at h
    subst h
    obtain ⟨-, hm⟩ := fragments_all fg ht fuel none l hl
    have hm : ∀ x, x ∈ l ↔ ∃ r, Root fg r ∧ Below fg x r := by intro x; rw [hm]; simp
    rw [List.mem_flatMap]
    constructor
    · rintro ⟨j, hj, hij⟩
      cases hf : fg.frags.get? j with
      | none => rw [hf] at hij; simp at hij
      | some f =>
        rw [hf] at hij
        simp only [List.mem_map, List.mem_filter, decide_eq_true_eq, Prod.mk.injEq] at hij
        obtain ⟨⟨k, t⟩, ⟨hkt, hn⟩, rfl, rfl⟩ := hij
        refine ⟨(hm j).1 hj, f, t, hf, hkt, hn⟩
    · rintro ⟨hr, f, t, hf, hkt, hn⟩
      refine ⟨i, (hm i).2 hr, ?_⟩
      rw [hf]
      simp only [List.mem_map, List.mem_filter, decide_eq_true_eq, Prod.mk.injEq]
      exact ⟨(sc, t), ⟨hkt, hn⟩, trivial, rfl⟩

/-! ### C115 deleting orphans -/

/-- a background reference fragment to which nothing in the foreground is terminated -/
def Orphan (fg : Fore) (u : String) : Prop :=
  Root fg u ∧ (∃ f, fg.frags.get? u = some f ∧ f.bg = true) ∧
    ∀ i f t sc, (∃ r, Root fg r ∧ Below fg i r) → fg.frags.get? i = some f → (sc, t) ∈ f.terms → t.node ≠ .frag u

theorem delLoop_false (fuel : ℕ) (l : List String) (fg : Fore) : (delLoop fuel false l fg).state = fg := by
  induction l with
  | nil => rfl
  | cons u l ih =>
    rw [delLoop]
    cases linkedTerms fg fuel u with
    | error e => rfl
    | ok m => cases m <;> simp [ih]

/-- without `for_real` nothing is deleted -/
theorem del_orphans_dry (fg : Fore) (fuel : ℕ) : (delOrphans fg fuel false).state = fg := delLoop_false fuel _ fg

/-- **C115** is false: `del_orphans(for_real=True)` never deletes an orphan. It looks for it under its uuid, although entities are
stored under their links; so it raises KeyError at the first orphan and leaves the foreground as it was. -/
theorem del_orphans_raises (fg : Fore) (ht : Trees fg) (fuel : ℕ) (hs : ∀ k ∈ fg.ix.links.keys, '/' ∈ k.toList)
    (hu : ∀ u, Root fg u → '/' ∉ u.toList) (l : List String) (hl : listFragments fg fuel true none = .ok l) :
    (delOrphans fg fuel true).state = fg ∧
      ((∃ u, Orphan fg u) → delOrphans fg fuel true = .err .keyError fg) := by
  have key : ∀ L : List String, (∀ u ∈ L, u ∈ roots fg (some true)) →
      (delLoop fuel true L fg).state = fg ∧ ((∃ u ∈ L, Orphan fg u) → delLoop fuel true L fg = .err .keyError fg) := by
    intro L
    induction L with
    | nil => intro _; exact ⟨rfl, by rintro ⟨u, hu, -⟩; exact absurd hu List.not_mem_nil⟩
    | cons u L ih =>
      intro hL
      have ih := ih fun v hv => hL v (List.mem_cons_of_mem _ hv)
      have hroot := ((mem_roots ht _ u).1 (hL u List.mem_cons_self)).1
      rw [delLoop]
      cases hk : linkedTerms fg fuel u with
      | error e => rw [linkedTerms, hl] at hk; simp at hk
      | ok m =>
        have hm := linked_terms fg ht fuel u m hk
        cases m with
        | nil =>
          have hd : delF fg u = .err .keyError fg := by
            rw [delF, if_neg]
            intro h; exact hu u hroot (hs u ((Dict.has_iff _ _).1 h))
          simp only [if_true, hd, Out.bind]
          exact ⟨rfl, fun _ => by trivial⟩
        | cons a m =>
          simp only
          refine ⟨ih.1, ?_⟩
          rintro ⟨v, hv, ho⟩
          rcases List.mem_cons.1 hv with rfl | hv
          · obtain ⟨i, sc⟩ := a
            obtain ⟨hr, f, t, hf, hkt, hn⟩ := (hm i sc).1 List.mem_cons_self
            exact absurd hn (ho.2.2 i f t sc hr hf hkt)
          · exact ih.2 ⟨v, hv, ho⟩
  have := key (roots fg (some true)) fun _ h => h
  refine ⟨this.1, ?_⟩
  rintro ⟨u, ho⟩
  refine this.2 ⟨u, (mem_roots ht _ u).2 ⟨ho.1, ?_⟩, ho⟩
  intro x hx
  rw [← Option.some.inj hx]; exact ho.2.1

end FgS
