import Mathlib.Order.WellFounded
import Mathlib.Data.Fintype.Card
import Mathlib.Order.Preorder.Finite
import Mathlib.Data.List.Sort
import Verif.Model.Tstack
import Verif.Lemmas.EngineTotal

set_option linter.unusedSectionVars false
set_option linter.unusedSimpArgs false

namespace Engine
variable {F P : Type} [DecidableEq F] [DecidableEq P]
variable {db : DB F P} {strat : Strategy}

/-! ### facts about a finished traversal -/

theorem mem_setAdd {α : Type} [DecidableEq α] (l : List α) (a b : α) :
    b ∈ setAdd l a ↔ b ∈ l ∨ b = a := by
  unfold setAdd
  split
  · constructor
    · exact Or.inl
    · rintro (h | h)
      · exact h
      · subst h; assumption
  · simp

theorem nodup_setAdd {α : Type} [DecidableEq α] {l : List α} (a : α) (h : l.Nodup) :
    (setAdd l a).Nodup := by
  unfold setAdd
  split
  · exact h
  · rename_i ha
    exact List.nodup_append.mpr ⟨h, by simp, by simp; exact fun x hx e => ha (e ▸ hx)⟩

/-- the traversal is at rest and all exchanges of the known product flows are recorded -/
structure Rest (db : DB F P) (strat : Strategy) (s : State F P) : Prop where
  inv : Inv db strat [] s
  data : DInv db strat [] s

theorem Rest.scc {s : State F P} (h : Rest db strat s) {u : F × P} (hu : u ∈ s.pfIndex) :
    ∃ k, s.sccOf.get? u = some k :=
  h.inv.offStack u hu (by rw [h.inv.stack_empty]; simp)

theorem mem_intOf {u w : F × P} {v : ℚ} {p : F × P} {xs : List (Exch F P)} :
    (p, w, v) ∈ intOf db strat u xs ↔ p = u ∧ w ≠ u ∧ ∃ x ∈ xs, depOf db strat x = some (w, v) := by
  unfold intOf
  simp only [List.mem_filterMap]
  constructor
  · rintro ⟨x, hx, h⟩
    split at h
    · rename_i w' v' hd
      split at h
      · simp at h
      · rename_i hne
        simp only [Option.some.injEq, Prod.mk.injEq] at h
        obtain ⟨rfl, rfl, rfl⟩ := h
        exact ⟨rfl, hne, x, hx, hd⟩
    · simp at h
  · rintro ⟨rfl, hne, x, hx, hd⟩
    exact ⟨x, hx, by simp [hd, hne]⟩

theorem Rest.mem_int {s : State F P} (h : Rest db strat s) {u w : F × P} {v : ℚ} :
    (u, w, v) ∈ s.interior ↔ u ∈ s.pfIndex ∧ w ≠ u ∧ ∃ x ∈ db.inv u, depOf db strat x = some (w, v) := by
  constructor
  · intro hm
    have hu : u ∈ s.pfIndex := h.data.newI _ hm
    have hd := (h.data.fin u hu (by simp)).int
    have : (u, w, v) ∈ s.interior.filter (fun e => decide (e.1 = u)) := by simp [hm]
    rw [hd, List.mem_reverse, mem_intOf] at this
    exact ⟨hu, this.2⟩
  · rintro ⟨hu, hne, hx⟩
    have hd := (h.data.fin u hu (by simp)).int
    have : (u, w, v) ∈ s.interior.filter (fun e => decide (e.1 = u)) := by
      rw [hd, List.mem_reverse, mem_intOf]; exact ⟨rfl, hne, hx⟩
    exact (List.mem_filter.mp this).1

/-- dependency between different known product flows = recorded interior exchange -/
theorem Rest.int_iff {s : State F P} (h : Rest db strat s) {u w : F × P} :
    (∃ v, (u, w, v) ∈ s.interior) ↔ u ∈ s.pfIndex ∧ w ≠ u ∧ Depends db strat u w := by
  rw [depends_iff]
  constructor
  · rintro ⟨v, hv⟩
    obtain ⟨h1, h2, x, hx, hd⟩ := h.mem_int.mp hv
    exact ⟨h1, h2, x, hx, v, hd⟩
  · rintro ⟨h1, h2, x, hx, v, hd⟩
    exact ⟨v, h.mem_int.mpr ⟨h1, h2, x, hx, hd⟩⟩

theorem Rest.closed {s : State F P} (h : Rest db strat s) {u w : F × P} (hu : u ∈ s.pfIndex)
    (hd : Depends db strat u w) : w ∈ s.pfIndex := h.inv.closed u hu (by simp) w hd

theorem Rest.reach_closed {s : State F P} (h : Rest db strat s) {u w : F × P} (hu : u ∈ s.pfIndex)
    (hd : Reach db strat u w) : w ∈ s.pfIndex := by
  induction hd with
  | refl => exact hu
  | tail _ hd ih => exact h.closed ih hd

/-! ### the component graph -/

/-- SCC `c` has a recorded exchange on SCC `r` -/
def CEdge (s : State F P) (c r : ℕ) : Prop :=
  ∃ u w v, (u, w, v) ∈ s.interior ∧ s.sccOf.get? u = some c ∧ s.sccOf.get? w = some r

/-- `g`'s adjacency is the component graph of `is` -/
structure Adj (s : State F P) (is : List ((F × P) × (F × P) × ℚ)) (g : TGraph F P) : Prop where
  rows : ∀ c r, r ∈ look g.rows c ↔
    ∃ u w v, (u, w, v) ∈ is ∧ s.sccOf.get? u = some c ∧ s.sccOf.get? w = some r
  cols : ∀ c r, c ∈ look g.cols r ↔
    ∃ u w v, (u, w, v) ∈ is ∧ s.sccOf.get? u = some c ∧ s.sccOf.get? w = some r

omit [DecidableEq F] [DecidableEq P] in
theorem look_set (d : Dict ℕ (List ℕ)) (k k' : ℕ) (v : List ℕ) :
    look (d.set k v) k' = if k = k' then v else look d k' := by
  unfold look
  rw [Dict.get?_set]
  split <;> simp

theorem addEdges_spec {s : State F P} (is done : List ((F × P) × (F × P) × ℚ)) {g g' : TGraph F P}
    (h : Adj s done g) (hr : addEdges s is g = some g') :
    Adj s (done ++ is) g' ∧ g'.background = g.background ∧ g'.downstream = g.downstream ∧
      g'.bgProcs = g.bgProcs ∧ g'.bgIndex = g.bgIndex := by
  induction is generalizing g done with
  | nil => simp [addEdges] at hr; subst hr; simp; exact h
  | cons i is ih =>
    obtain ⟨p, t, v⟩ := i
    unfold addEdges at hr
    split at hr
    · rename_i row col hrow hcol
      have hA : Adj s (done ++ [(p, t, v)])
          { g with cols := g.cols.set row (setAdd (look g.cols row) col),
                   rows := g.rows.set col (setAdd (look g.rows col) row) } := by
        constructor
        · intro c r
          simp only [look_set]
          by_cases hc : col = c
          · subst hc
            rw [if_pos rfl, mem_setAdd, h.rows]
            constructor
            · rintro (⟨u, w, v, h1, h2⟩ | e)
              · exact ⟨u, w, v, by simp [h1], h2⟩
              · subst e; exact ⟨p, t, v, by simp, hcol, hrow⟩
            · rintro ⟨u, w, v', h1, h2, h3⟩
              rcases List.mem_append.mp h1 with h1 | h1
              · exact Or.inl ⟨u, w, v', h1, h2, h3⟩
              · simp at h1
                obtain ⟨rfl, rfl, rfl⟩ := h1
                rw [hrow] at h3; right; simpa using h3.symm
          · rw [if_neg hc, h.rows]
            constructor
            · rintro ⟨u, w, v, h1, h2⟩
              exact ⟨u, w, v, by simp [h1], h2⟩
            · rintro ⟨u, w, v', h1, h2, h3⟩
              rcases List.mem_append.mp h1 with h1 | h1
              · exact ⟨u, w, v', h1, h2, h3⟩
              · simp at h1
                obtain ⟨rfl, rfl, rfl⟩ := h1
                rw [hcol] at h2; simp at h2; exact absurd h2 hc
        · intro c r
          simp only [look_set]
          by_cases hc : row = r
          · subst hc
            rw [if_pos rfl, mem_setAdd, h.cols]
            constructor
            · rintro (⟨u, w, v, h1, h2⟩ | e)
              · exact ⟨u, w, v, by simp [h1], h2⟩
              · subst e; exact ⟨p, t, v, by simp, hcol, hrow⟩
            · rintro ⟨u, w, v', h1, h2, h3⟩
              rcases List.mem_append.mp h1 with h1 | h1
              · exact Or.inl ⟨u, w, v', h1, h2, h3⟩
              · simp at h1
                obtain ⟨rfl, rfl, rfl⟩ := h1
                rw [hcol] at h2; right; simpa using h2.symm
          · rw [if_neg hc, h.cols]
            constructor
            · rintro ⟨u, w, v, h1, h2⟩
              exact ⟨u, w, v, by simp [h1], h2⟩
            · rintro ⟨u, w, v', h1, h2, h3⟩
              rcases List.mem_append.mp h1 with h1 | h1
              · exact ⟨u, w, v', h1, h2, h3⟩
              · simp at h1
                obtain ⟨rfl, rfl, rfl⟩ := h1
                rw [hrow] at h3; simp at h3; exact absurd h3 hc
      obtain ⟨h1, h2⟩ := ih _ hA hr
      exact ⟨by simpa using h1, h2⟩
    · simp at hr

theorem addEdges_total {s : State F P} (is : List ((F × P) × (F × P) × ℚ)) (g : TGraph F P)
    (h : ∀ i ∈ is, (∃ k, s.sccOf.get? i.1 = some k) ∧ ∃ k, s.sccOf.get? i.2.1 = some k) :
    ∃ g', addEdges s is g = some g' := by
  induction is generalizing g with
  | nil => exact ⟨g, rfl⟩
  | cons i is ih =>
    obtain ⟨p, t, v⟩ := i
    obtain ⟨⟨a, ha⟩, b, hb⟩ := h (p, t, v) (by simp)
    simp only [addEdges]
    simp only at ha hb
    rw [ha, hb]
    exact ih _ fun i hi => h i (List.mem_cons_of_mem _ hi)

theorem adj_init (s : State F P) : Adj s [] ({} : TGraph F P) := by
  constructor <;> simp [look, Dict.get?]

/-- component edge between different components -/
def PEdge (s : State F P) (c r : ℕ) : Prop := CEdge s c r ∧ r ≠ c

theorem Rest.same {s : State F P} (h : Rest db strat s) {u w : F × P} {k : ℕ}
    (hu : s.sccOf.get? u = some k) (hw : s.sccOf.get? w = some k) : Reach db strat u w :=
  ((h.inv.scc u w k k hu hw).mp rfl).1

theorem Rest.cedge_reach {s : State F P} (h : Rest db strat s) {c r : ℕ} (he : CEdge s c r)
    {u w : F × P} (hu : s.sccOf.get? u = some c) (hw : s.sccOf.get? w = some r) :
    Reach db strat u w := by
  obtain ⟨a, b, v, hv, ha, hb⟩ := he
  have := (h.int_iff.mp ⟨v, hv⟩).2.2
  exact ((h.same hu ha).tail this).trans (h.same hb hw)

theorem Rest.cpath_reach {s : State F P} (h : Rest db strat s) {c r : ℕ}
    (he : Relation.ReflTransGen (CEdge s) c r)
    {u w : F × P} (hu : s.sccOf.get? u = some c) (hw : s.sccOf.get? w = some r) :
    Reach db strat u w := by
  induction he generalizing w with
  | refl => exact h.same hu hw
  | tail _ hd ih =>
    obtain ⟨a, b, v, hv, ha, hb⟩ := hd
    exact (ih ha).trans (h.cedge_reach ⟨a, b, v, hv, ha, hb⟩ ha hw)

theorem Rest.reach_cpath {s : State F P} (h : Rest db strat s) {u w : F × P}
    (hr : Reach db strat u w) {c r : ℕ} (hu : s.sccOf.get? u = some c) (hw : s.sccOf.get? w = some r) :
    Relation.ReflTransGen (CEdge s) c r := by
  have hup := h.inv.sccVis u c hu
  induction hr generalizing r with
  | refl => rw [hu] at hw; simp at hw; subst hw; exact .refl
  | @tail b w' hb hd ih =>
    have hbp := h.reach_closed hup hb
    obtain ⟨k, hk⟩ := h.scc hbp
    by_cases e : w' = b
    · subst e; exact ih hw
    · obtain ⟨v, hv⟩ := h.int_iff.mpr ⟨hbp, e, hd⟩
      exact (ih hk).tail ⟨b, w', v, hv, hk, hw⟩

theorem Rest.pedge_irrefl {s : State F P} (h : Rest db strat s) {c : ℕ} :
    ¬ Relation.TransGen (PEdge s) c c := by
  intro hc
  obtain ⟨d, hcd, hdc⟩ := Relation.TransGen.head'_iff.mp hc
  obtain ⟨⟨a, b, v, hv, ha, hb⟩, hne⟩ := hcd
  have h1 : Reach db strat a b := h.cedge_reach ⟨a, b, v, hv, ha, hb⟩ ha hb
  have h2 : Reach db strat b a :=
    h.cpath_reach (Relation.ReflTransGen.mono (show PEdge s ≤ CEdge s from fun _ _ h => h.1) _ _ hdc) hb ha
  exact hne ((h.inv.scc b a d c hb ha).mpr ⟨h2, h1⟩)

theorem Rest.pedge_key {s : State F P} (h : Rest db strat s) {c r : ℕ} (he : CEdge s c r) :
    c ∈ s.sccs.keys ∧ r ∈ s.sccs.keys := by
  obtain ⟨a, b, v, hv, ha, hb⟩ := he
  obtain ⟨l, hl⟩ := h.inv.sccsDom a c ha
  obtain ⟨l', hl'⟩ := h.inv.sccsDom b r hb
  exact ⟨(Dict.mem_keys_iff _ _).mpr ⟨l, hl⟩, (Dict.mem_keys_iff _ _).mpr ⟨l', hl'⟩⟩

/-! ### `_set_downstream` -/

/-- edges `_set_downstream` follows -/
def DEdge (rows : Dict ℕ (List ℕ)) (a b : ℕ) : Prop := b ∈ look rows a ∧ b ≠ a

theorem setDownstream_spec (o : SetOrd F P) (rows : Dict ℕ (List ℕ)) (fuel : ℕ) :
    ∀ up d d', setDownstream o rows fuel up d = some d' → d.Nodup →
      d'.Nodup ∧ ∀ x, x ∈ d' ↔ x ∈ d ∨ Relation.TransGen (DEdge rows) up x := by
  induction fuel with
  | zero => intro up d d' h; simp [setDownstream] at h
  | succ n ih =>
    intro up d d' h hnd
    unfold setDownstream at h
    have key : ∀ (l : List ℕ) (d d' : List ℕ),
        l.foldlM (init := d) (fun d dep =>
          if dep ≠ up then setDownstream o rows n dep (setAdd d dep) else some d) = some d' →
        d.Nodup → d'.Nodup ∧ ∀ x, x ∈ d' ↔ x ∈ d ∨ ∃ b ∈ l, b ≠ up ∧
          (x = b ∨ Relation.TransGen (DEdge rows) b x) := by
      intro l
      induction l with
      | nil => intro d d' h hnd; simp at h; subst h; simp [hnd]
      | cons b l ihl =>
        intro d d' h hnd
        rw [List.foldlM_cons] at h
        by_cases hb : b = up
        · rw [if_neg (by simp [hb])] at h
          simp only [Option.pure_def, Option.bind_eq_bind, Option.bind_some] at h
          obtain ⟨h1, h2⟩ := ihl d d' h hnd
          refine ⟨h1, fun x => ?_⟩
          rw [h2]
          simp [hb]
        · rw [if_pos hb] at h
          cases hs : setDownstream o rows n b (setAdd d b) with
          | none => rw [hs] at h; simp at h
          | some d1 =>
            rw [hs] at h
            simp only [Option.bind_eq_bind, Option.bind_some] at h
            obtain ⟨hn1, hm1⟩ := ih b _ d1 hs (nodup_setAdd b hnd)
            obtain ⟨h1, h2⟩ := ihl d1 d' h hn1
            refine ⟨h1, fun x => ?_⟩
            rw [h2, hm1, mem_setAdd]
            constructor
            · rintro (((h | h) | h) | ⟨c, hc, h⟩)
              · exact Or.inl h
              · exact Or.inr ⟨b, by simp, hb, Or.inl h⟩
              · exact Or.inr ⟨b, by simp, hb, Or.inr h⟩
              · exact Or.inr ⟨c, by simp [hc], h⟩
            · rintro (h | ⟨c, hc, hcu, h⟩)
              · exact Or.inl (Or.inl (Or.inl h))
              · rcases List.mem_cons.mp hc with e | hc
                · subst e
                  rcases h with h | h
                  · exact Or.inl (Or.inl (Or.inr h))
                  · exact Or.inl (Or.inr h)
                · exact Or.inr ⟨c, hc, hcu, h⟩
    obtain ⟨h1, h2⟩ := key _ d d' h hnd
    refine ⟨h1, fun x => ?_⟩
    rw [h2]
    apply or_congr_right
    rw [Relation.TransGen.head'_iff]
    constructor
    · rintro ⟨b, hb, hne, h⟩
      refine ⟨b, ⟨(o.nat_perm _).mem_iff.mp hb, hne⟩, ?_⟩
      rcases h with h | h
      · subst h; exact .refl
      · exact h.to_reflTransGen
    · rintro ⟨b, ⟨hb, hne⟩, h⟩
      refine ⟨b, (o.nat_perm _).mem_iff.mpr hb, hne, ?_⟩
      rcases Relation.reflTransGen_iff_eq_or_transGen.mp h with h | h
      · exact Or.inl h
      · exact Or.inr h

theorem setDownstream_total (o : SetOrd F P) (rows : Dict ℕ (List ℕ)) (keys : List ℕ)
    (hk : ∀ a b, DEdge rows a b → b ∈ keys)
    (hirr : ∀ c, ¬ Relation.TransGen (DEdge rows) c c) (fuel : ℕ) :
    ∀ up d (path : List ℕ), (up :: path).Nodup → (∀ x ∈ up :: path, x ∈ keys) →
      (∀ x ∈ path, Relation.TransGen (DEdge rows) x up) → keys.length < fuel + (up :: path).length →
      ∃ d', setDownstream o rows fuel up d = some d' := by
  induction fuel with
  | zero =>
    intro up d path hnd hsub _ hlt
    have := (List.subperm_of_subset hnd hsub).length_le
    omega
  | succ n ih =>
    intro up d path hnd hsub hpath hlt
    unfold setDownstream
    have key : ∀ (l : List ℕ) (d : List ℕ), (∀ b ∈ l, b ∈ look rows up) → ∃ d',
        l.foldlM (init := d) (fun d dep =>
          if dep ≠ up then setDownstream o rows n dep (setAdd d dep) else some d) = some d' := by
      intro l
      induction l with
      | nil => intro d _; exact ⟨d, rfl⟩
      | cons b l ihl =>
        intro d hl
        rw [List.foldlM_cons]
        by_cases hb : b = up
        · rw [if_neg (by simp [hb])]
          simp only [Option.bind_eq_bind, Option.bind_some]
          exact ihl d fun c hc => hl c (List.mem_cons_of_mem _ hc)
        · rw [if_pos hb]
          have he : DEdge rows up b := ⟨hl b (by simp), hb⟩
          obtain ⟨d1, h1⟩ := ih b (setAdd d b) (up :: path)
            (by
              refine List.nodup_cons.mpr ⟨?_, hnd⟩
              intro hm
              rcases List.mem_cons.mp hm with e | hm
              · exact hb e
              · exact hirr b ((hpath b hm).tail he))
            (by
              intro x hx
              rcases List.mem_cons.mp hx with e | hx
              · subst e; exact hk _ _ he
              · exact hsub x hx)
            (by
              intro x hx
              rcases List.mem_cons.mp hx with e | hx
              · subst e; exact .single he
              · exact (hpath x hx).tail he)
            (by simp at hlt ⊢; omega)
          rw [h1]
          simp only [Option.bind_eq_bind, Option.bind_some]
          exact ihl d1 fun c hc => hl c (List.mem_cons_of_mem _ hc)
    exact key _ d fun b hb => (o.nat_perm _).mem_iff.mp hb

end Engine
