import Mathlib.Data.List.Flatten
import Mathlib.Data.List.Nodup
import Verif.Lemmas.Tstack

set_option linter.unusedSectionVars false
set_option linter.unusedSimpArgs false

namespace Engine
variable {F P : Type} [DecidableEq F] [DecidableEq P]
variable {db : DB F P} {strat : Strategy}

/-! ### `dict((pf.index, n) for n, pf in enumerate(l))` -/

theorem enum_fold (f : F × P → ℕ) (ps : List ((F × P) × ℕ)) (d : Dict ℕ ℕ)
    (h : (d.keys ++ ps.map fun p => f p.1).Nodup) :
    ps.foldl (fun d pn => d.set (f pn.1) pn.2) d = d ++ ps.map fun p => (f p.1, p.2) := by
  induction ps generalizing d with
  | nil => simp
  | cons p ps ih =>
    rw [List.foldl_cons]
    have hp : f p.1 ∉ d.keys := by
      intro hm
      exact (List.nodup_append.mp h).2.2 _ hm (f p.1) (by simp) rfl
    rw [Dict.set_of_not_mem d _ hp, ih]
    · simp
    · simpa [Dict.keys] using h

theorem Inv.pfIx_get {s : State F P} {g : List (F × P)} (h : Inv db strat g s) {u : F × P}
    (hu : u ∈ s.pfIndex) : s.pfs.get? u = some (pfIx s u) := by
  obtain ⟨n, hn⟩ := (h.vis_iff u).mp hu
  simp [pfIx, hn]

theorem Inv.pfIx_inj {s : State F P} {g : List (F × P)} (h : Inv db strat g s) {u w : F × P}
    (hu : u ∈ s.pfIndex) (hw : w ∈ s.pfIndex) (he : pfIx s u = pfIx s w) : u = w := by
  have h1 := (h.pfs u _).mp (h.pfIx_get hu)
  have h2 := (h.pfs w _).mp (h.pfIx_get hw)
  rw [he] at h1
  rw [h1] at h2
  exact Option.some.inj h2

theorem map_pfIx_nodup {s : State F P} {g : List (F × P)} (h : Inv db strat g s) {l : List (F × P)}
    (hl : l.Nodup) (hs : ∀ u ∈ l, u ∈ s.pfIndex) : (l.map (pfIx s)).Nodup :=
  List.Nodup.map_on (fun u hu w hw he => h.pfIx_inj (hs u hu) (hs w hw) he) hl

theorem enumIndex_eq {s : State F P} {g : List (F × P)} (h : Inv db strat g s) {l : List (F × P)}
    (hl : l.Nodup) (hs : ∀ u ∈ l, u ∈ s.pfIndex) :
    enumIndex s l = l.zipIdx.map fun p => (pfIx s p.1, p.2) := by
  unfold enumIndex
  rw [enum_fold (pfIx s)]
  · simp
  · have : (l.zipIdx.map fun p => pfIx s p.1) = l.map (pfIx s) := by
      rw [show (fun p : (F × P) × ℕ => pfIx s p.1) = pfIx s ∘ Prod.fst from rfl, ← List.map_map,
        List.zipIdx_map_fst]
    rw [this]
    simpa [Dict.keys] using map_pfIx_nodup h hl hs

theorem enumIndex_keys {s : State F P} {g : List (F × P)} (h : Inv db strat g s) {l : List (F × P)}
    (hl : l.Nodup) (hs : ∀ u ∈ l, u ∈ s.pfIndex) : (enumIndex s l).keys = l.map (pfIx s) := by
  rw [enumIndex_eq h hl hs, Dict.keys, List.map_map]
  rw [show (Prod.fst ∘ fun p : (F × P) × ℕ => (pfIx s p.1, p.2)) = pfIx s ∘ Prod.fst from rfl,
    ← List.map_map, List.zipIdx_map_fst]

theorem enumIndex_length {s : State F P} {g : List (F × P)} (h : Inv db strat g s) {l : List (F × P)}
    (hl : l.Nodup) (hs : ∀ u ∈ l, u ∈ s.pfIndex) : (enumIndex s l).length = l.length := by
  rw [enumIndex_eq h hl hs]; simp

theorem enumIndex_get {s : State F P} {g : List (F × P)} (h : Inv db strat g s) {l : List (F × P)}
    (hl : l.Nodup) (hs : ∀ u ∈ l, u ∈ s.pfIndex) {u : F × P} (hu : u ∈ s.pfIndex) (n : ℕ) :
    (enumIndex s l).get? (pfIx s u) = some n ↔ l[n]? = some u := by
  have hk : (enumIndex s l).keys.Nodup := by
    rw [enumIndex_keys h hl hs]; exact map_pfIx_nodup h hl hs
  constructor
  · intro hg
    have := Dict.mem_of_get?_eq_some _ hg
    rw [enumIndex_eq h hl hs] at this
    obtain ⟨⟨w, m⟩, hm, he⟩ := List.mem_map.mp this
    simp only [Prod.mk.injEq] at he
    obtain ⟨he1, rfl⟩ := he
    have hw : l[m]? = some w := List.mem_zipIdx_iff_getElem?.mp hm
    rw [h.pfIx_inj (hs w (List.mem_of_getElem? hw)) hu he1] at hw
    exact hw
  · intro hn
    apply Dict.get?_eq_some_of_mem _ hk
    rw [enumIndex_eq h hl hs]
    exact List.mem_map.mpr ⟨(u, n), List.mem_zipIdx_iff_getElem?.mpr hn, rfl⟩

theorem enumIndex_has {s : State F P} {g : List (F × P)} (h : Inv db strat g s) {l : List (F × P)}
    (hl : l.Nodup) (hs : ∀ u ∈ l, u ∈ s.pfIndex) {u : F × P} (hu : u ∈ s.pfIndex) :
    (enumIndex s l).has (pfIx s u) = true ↔ u ∈ l := by
  rw [Dict.has_iff, enumIndex_keys h hl hs, List.mem_map]
  constructor
  · rintro ⟨w, hw, he⟩
    rw [← h.pfIx_inj (hs w hw) hu he]; exact hw
  · intro h; exact ⟨u, h, rfl⟩

/-! ### `_set_background` -/

theorem largest_spec (l : List (ℕ × List (F × P))) (ml : ℕ) (ind : Option ℕ) :
    ml ≤ (largest l (ml, ind)).1 ∧ (∀ p ∈ l, p.2.length ≤ (largest l (ml, ind)).1) ∧
    (largest l (ml, ind) = (ml, ind) ∨
      ∃ a i t b, l = a ++ (i, t) :: b ∧ largest l (ml, ind) = (t.length, some i) ∧
        ml < t.length ∧ ∀ p ∈ a, p.2.length < t.length) := by
  induction l generalizing ml ind with
  | nil => simp [largest]
  | cons p l ih =>
    obtain ⟨i, t⟩ := p
    unfold largest
    split
    · rename_i hlt
      obtain ⟨h1, h2, h3⟩ := ih t.length (some i)
      refine ⟨by omega, ?_, ?_⟩
      · intro q hq
        rcases List.mem_cons.mp hq with e | hq
        · subst e; exact h1
        · exact h2 q hq
      · right
        rcases h3 with h3 | ⟨a, i', t', b, hl, he, hlt', ha⟩
        · exact ⟨[], i, t, l, rfl, h3, hlt, by simp⟩
        · refine ⟨(i, t) :: a, i', t', b, by rw [hl]; rfl, he, by omega, ?_⟩
          intro q hq
          rcases List.mem_cons.mp hq with e | hq
          · subst e; exact hlt'
          · exact ha q hq
    · rename_i hlt
      obtain ⟨h1, h2, h3⟩ := ih ml ind
      refine ⟨h1, ?_, ?_⟩
      · intro q hq
        rcases List.mem_cons.mp hq with e | hq
        · subst e; simp only at hlt ⊢; omega
        · exact h2 q hq
      · rcases h3 with h3 | ⟨a, i', t', b, hl, he, hlt', ha⟩
        · exact Or.inl h3
        · right
          refine ⟨(i, t) :: a, i', t', b, by rw [hl]; rfl, he, hlt', ?_⟩
          intro q hq
          rcases List.mem_cons.mp hq with e | hq
          · subst e; simp only at hlt ⊢; omega
          · exact ha q hq

/-! ### members of components -/

theorem Rest.mem_members {s : State F P} (h : Rest db strat s) {u : F × P} {k : ℕ} :
    u ∈ sccMembers s k ↔ s.sccOf.get? u = some k := by
  unfold sccMembers
  cases hk : s.sccs.get? k with
  | some l => simp; exact (h.inv.sccsMem k l hk).2.2 u
  | none =>
    simp
    intro hu
    obtain ⟨l, hl⟩ := h.inv.sccsDom u k hu
    rw [hk] at hl; simp at hl

theorem Rest.members_nodup {s : State F P} (h : Rest db strat s) (k : ℕ) : (sccMembers s k).Nodup := by
  unfold sccMembers
  cases hk : s.sccs.get? k with
  | some l => exact (h.inv.sccsMem k l hk).2.1
  | none => simp

/-- all product flows of the listed components, in any set order -/
theorem Rest.mem_flat {s : State F P} (h : Rest db strat s) (o : SetOrd F P) {ks : List ℕ} {u : F × P} :
    u ∈ (ks.flatMap fun k => o.pf (sccMembers s k)) ↔ ∃ k ∈ ks, s.sccOf.get? u = some k := by
  simp only [List.mem_flatMap, (o.pf_perm _).mem_iff, h.mem_members]

theorem Rest.flat_nodup {s : State F P} (h : Rest db strat s) (o : SetOrd F P) {ks : List ℕ}
    (hk : ks.Nodup) : (ks.flatMap fun k => o.pf (sccMembers s k)).Nodup := by
  rw [List.nodup_flatMap]
  refine ⟨fun k _ => (o.pf_perm _).nodup_iff.mpr (h.members_nodup k), ?_⟩
  refine hk.imp ?_
  intro a b hne u hu hw
  rw [(o.pf_perm _).mem_iff, h.mem_members] at hu hw
  rw [hu] at hw
  exact hne (Option.some.inj hw)

theorem Rest.key_iff {s : State F P} (h : Rest db strat s) {k : ℕ} :
    k ∈ s.sccs.keys ↔ ∃ u, s.sccOf.get? u = some k := by
  rw [Dict.mem_keys_iff]
  constructor
  · rintro ⟨l, hl⟩
    obtain ⟨h1, h2, h3⟩ := h.inv.sccsMem k l hl
    obtain ⟨u, hu⟩ := List.exists_mem_of_ne_nil l h1
    exact ⟨u, (h3 u).mp hu⟩
  · rintro ⟨u, hu⟩; exact h.inv.sccsDom u k hu

/-! ### `_generate_foreground_index` -/

/-- every listed component comes after the components that depend on it -/
def Topo (cols : Dict ℕ (List ℕ)) (l : List ℕ) : Prop :=
  ∀ k ∈ l, ∀ j ∈ look cols k, j ≠ k → [j, k].Sublist l

theorem fgLoop_spec (o : SetOrd F P) (cols : Dict ℕ (List ℕ)) (fuel : ℕ) :
    ∀ nodes ord r, fgLoop o cols fuel nodes ord = some r → (ord ++ nodes).Nodup → Topo cols ord →
      r.Nodup ∧ Topo cols r ∧ ord <+: r ∧ ∀ k, k ∈ r ↔ k ∈ ord ∨ k ∈ nodes := by
  induction fuel with
  | zero =>
    intro nodes ord r h hnd ht
    cases nodes with
    | nil => simp [fgLoop] at h; subst h; rw [List.append_nil] at hnd; exact ⟨hnd, ht, List.prefix_rfl, by simp⟩
    | cons n ns => simp [fgLoop] at h
  | succ m ih =>
    intro nodes ord r h hnd ht
    cases nodes with
    | nil => simp [fgLoop] at h; subst h; rw [List.append_nil] at hnd; exact ⟨hnd, ht, List.prefix_rfl, by simp⟩
    | cons n ns =>
      unfold fgLoop at h
      simp only at h
      generalize hnews : ((o.nat (n :: ns)).filter fun k =>
        (look cols k).all fun j => decide (j ∈ ord ∨ j = k)) = news at h
      have hmem : ∀ k ∈ news, k ∈ n :: ns ∧ ∀ j ∈ look cols k, j ≠ k → j ∈ ord := by
        intro k hk
        rw [← hnews, List.mem_filter, (o.nat_perm _).mem_iff] at hk
        refine ⟨hk.1, ?_⟩
        intro j hj hne
        have := List.all_eq_true.mp hk.2 j hj
        simp at this
        exact this.resolve_right hne
      obtain ⟨hnd1, hnd2, hnd3⟩ := List.nodup_append.mp hnd
      have hnn : news.Nodup := by
        rw [← hnews]; exact ((o.nat_perm _).nodup_iff.mpr hnd2).filter _
      have hnn' : (o.nat news).Nodup := (o.nat_perm _).nodup_iff.mpr hnn
      have hmem' : ∀ k, k ∈ o.nat news ↔ k ∈ news := fun k => (o.nat_perm _).mem_iff
      have hnd' : ((ord ++ o.nat news) ++ (n :: ns).filter fun k => decide (k ∉ news)).Nodup := by
        refine List.nodup_append.mpr ⟨List.nodup_append.mpr ⟨hnd1, hnn', ?_⟩, hnd2.filter _, ?_⟩
        · intro a ha b hb
          exact hnd3 a ha b (hmem b ((hmem' b).mp hb)).1
        · intro a ha b hb
          rw [List.mem_filter] at hb
          rcases List.mem_append.mp ha with ha | ha
          · exact hnd3 a ha b hb.1
          · intro e; subst e
            simp at hb
            exact hb.2 ((hmem' a).mp ha)
      have ht' : Topo cols (ord ++ o.nat news) := by
        intro k hk j hj hne
        rcases List.mem_append.mp hk with hk | hk
        · exact (ht k hk j hj hne).trans (List.sublist_append_left _ _)
        · have hjo := (hmem k ((hmem' k).mp hk)).2 j hj hne
          exact List.Sublist.append (l₁ := [j]) (l₂ := ord) (r₁ := [k]) (r₂ := o.nat news)
            (List.singleton_sublist.mpr hjo) (List.singleton_sublist.mpr hk)
      obtain ⟨h1, h2, h3, h4⟩ := ih _ _ r h hnd' ht'
      refine ⟨h1, h2, (List.prefix_append _ _).trans h3, fun k => ?_⟩
      rw [h4, List.mem_append, hmem', List.mem_filter]
      constructor
      · rintro ((hk | hk) | hk)
        · exact Or.inl hk
        · exact Or.inr (hmem k hk).1
        · exact Or.inr hk.1
      · rintro (hk | hk)
        · exact Or.inl (Or.inl hk)
        · by_cases hkn : k ∈ news
          · exact Or.inl (Or.inr hkn)
          · exact Or.inr ⟨hk, by simpa using hkn⟩

theorem fgLoop_total (o : SetOrd F P) (cols : Dict ℕ (List ℕ))
    (hirr : ∀ c, ¬ Relation.TransGen (fun j k => j ∈ look cols k ∧ j ≠ k) c c) (fuel : ℕ) :
    ∀ nodes ord, (∀ k ∈ nodes, ∀ j ∈ look cols k, j ≠ k → j ∈ nodes ∨ j ∈ ord) →
      nodes.length ≤ fuel → ∃ r, fgLoop o cols fuel nodes ord = some r := by
  induction fuel with
  | zero =>
    intro nodes ord _ hl
    cases nodes with
    | nil => exact ⟨ord, rfl⟩
    | cons n ns => simp at hl
  | succ m ih =>
    intro nodes ord hcl hl
    cases nodes with
    | nil => exact ⟨ord, rfl⟩
    | cons n ns =>
      unfold fgLoop
      simp only
      generalize hnews : ((o.nat (n :: ns)).filter fun k =>
        (look cols k).all fun j => decide (j ∈ ord ∨ j = k)) = news
      have hnm : ∀ k, k ∈ news ↔ k ∈ n :: ns ∧ ∀ j ∈ look cols k, j ∈ ord ∨ j = k := by
        intro k
        rw [← hnews, List.mem_filter, (o.nat_perm _).mem_iff, List.all_eq_true]
        simp
      -- a component no other remaining component depends on
      have hex : ∃ k ∈ n :: ns, ∀ j ∈ look cols k, j ≠ k → j ∉ n :: ns := by
        let R : {k // k ∈ n :: ns} → {k // k ∈ n :: ns} → Prop := fun a b =>
          Relation.TransGen (fun j k => j ∈ look cols k ∧ j ≠ k) a.1 b.1
        have : Finite {k // k ∈ n :: ns} := (List.finite_toSet (n :: ns)).to_subtype
        have : IsTrans _ R := ⟨fun a b c h1 h2 => Relation.TransGen.trans h1 h2⟩
        have : Std.Irrefl R := ⟨fun a h => hirr a.1 h⟩
        have wf := Finite.wellFounded_of_trans_of_irrefl R
        obtain ⟨x, _, hx⟩ := wf.has_min Set.univ ⟨⟨n, by simp⟩, trivial⟩
        refine ⟨x.1, x.2, ?_⟩
        intro j hj hne hm
        exact hx ⟨j, hm⟩ trivial (.single ⟨hj, hne⟩)
      obtain ⟨k, hk, hkd⟩ := hex
      have hkn : k ∈ news := by
        rw [hnm]
        refine ⟨hk, fun j hj => ?_⟩
        by_cases e : j = k
        · exact Or.inr e
        · rcases hcl k hk j hj e with h | h
          · exact absurd h (hkd j hj e)
          · exact Or.inl h
      apply ih
      · intro a ha j hj hne
        rw [List.mem_filter] at ha
        rcases hcl a ha.1 j hj hne with h | h
        · by_cases hjn : j ∈ news
          · right; rw [List.mem_append, (o.nat_perm _).mem_iff]; exact Or.inr hjn
          · left; rw [List.mem_filter]; exact ⟨h, by simpa using hjn⟩
        · right; rw [List.mem_append]; exact Or.inl h
      · have : ((n :: ns).filter fun k => decide (k ∉ news)).length < (n :: ns).length := by
          apply List.length_filter_lt_length_iff_exists.mpr
          exact ⟨k, hk, by simpa using hkn⟩
        omega

end Engine
