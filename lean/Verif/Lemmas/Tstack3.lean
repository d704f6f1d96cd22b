import Verif.Lemmas.Tstack2

set_option linter.unusedSectionVars false
set_option linter.unusedSimpArgs false

namespace Engine
variable {F P : Type} [DecidableEq F] [DecidableEq P]
variable {db : DB F P} {strat : Strategy}

/-- what `add_to_graph` on a fresh graph establishes -/
structure GraphOK (db : DB F P) (strat : Strategy) (s : State F P) (g : TGraph F P) : Prop where
  rest : Rest db strat s
  rows : ∀ c r, r ∈ look g.rows c ↔ CEdge s c r
  cols : ∀ c r, c ∈ look g.cols r ↔ CEdge s c r
  bg : (g.background = none ∧ g.downstream = [] ∧ ∀ k l, s.sccs.get? k = some l → l.length ≤ 1) ∨
    (∃ b l, g.background = some b ∧ s.sccs.get? b = some l ∧ 1 < l.length ∧
      (∀ k l', s.sccs.get? k = some l' → l'.length ≤ l.length) ∧
      (∀ a z, s.sccs = a ++ (b, l) :: z → ∀ p ∈ a, p.2.length < l.length) ∧
      ∀ x, x ∈ g.downstream ↔ Relation.TransGen (PEdge s) b x)
  bgNodup : g.bgProcs.Nodup
  bgMem : ∀ u, u ∈ g.bgProcs ↔ ∃ k, s.sccOf.get? u = some k ∧ isFgScc g k = false
  bgIndex : g.bgIndex = enumIndex s g.bgProcs
  fgNodup : g.fgProcs.Nodup
  fgMem : ∀ u, u ∈ g.fgProcs ↔ ∃ k, s.sccOf.get? u = some k ∧ isFgScc g k = true
  fgIndex : g.fgIndex = enumIndex s g.fgProcs
  order : ∀ u w c r, s.sccOf.get? u = some c → s.sccOf.get? w = some r → PEdge s c r →
    isFgScc g r = true → [u, w].Sublist g.fgProcs
  outs : ∃ a b, g.fgProcs = a ++ b ∧
    (∀ u ∈ a, ∀ k, s.sccOf.get? u = some k → look g.cols k = []) ∧
    (∀ u ∈ b, ∀ k, s.sccOf.get? u = some k → look g.cols k ≠ [])

theorem isFgScc_iff (g : TGraph F P) (k : ℕ) :
    isFgScc g k = true ↔ some k ≠ g.background ∧ k ∉ g.downstream := by
  simp [isFgScc]

theorem isFgScc_false (g : TGraph F P) (k : ℕ) :
    isFgScc g k = false ↔ g.background = some k ∨ k ∈ g.downstream := by
  rw [← Bool.not_eq_true, isFgScc_iff]
  by_cases h : g.background = some k
  · simp [h]
  · have : some k ≠ g.background := fun e => h e.symm
    simp [h, this]

theorem largest_split {s : State F P} (hn : s.sccs.keys.Nodup) {a b a' b' : List (ℕ × List (F × P))}
    {i : ℕ} {t t' : List (F × P)} (h : s.sccs = a ++ (i, t) :: b) (h' : s.sccs = a' ++ (i, t') :: b') :
    a = a' ∧ t = t' ∧ b = b' := by
  have key : ∀ (d : List (ℕ × List (F × P))), (d.map Prod.fst).Nodup → ∀ a a' b b' t t',
      d = a ++ (i, t) :: b → d = a' ++ (i, t') :: b' → a = a' ∧ t = t' ∧ b = b' := by
    intro d
    induction d with
    | nil => intro _ a a' b b' t t' h; simp at h
    | cons x d ih =>
      intro hn a a' b b' t t' h h'
      simp only [List.map_cons, List.nodup_cons] at hn
      cases a with
      | nil =>
        cases a' with
        | nil =>
          simp at h h'
          obtain ⟨rfl, rfl⟩ := h
          simp at h'
          exact ⟨rfl, h'.1, h'.2⟩
        | cons y a' =>
          exfalso
          simp at h h'
          obtain ⟨rfl, rfl⟩ := h
          obtain ⟨rfl, h'⟩ := h'
          apply hn.1
          rw [h']
          simp
      | cons y a =>
        cases a' with
        | nil =>
          exfalso
          simp at h h'
          obtain ⟨rfl, rfl⟩ := h'
          obtain ⟨rfl, h⟩ := h
          apply hn.1
          rw [h]
          simp
        | cons y' a' =>
          simp at h h'
          obtain ⟨rfl, h⟩ := h
          obtain ⟨rfl, h'⟩ := h'
          obtain ⟨h1, h2, h3⟩ := ih hn.2 a a' b b' t t' h h'
          exact ⟨by rw [h1], h2, h3⟩
  exact key s.sccs hn a a' b b' t t' h h'

theorem dedge_iff {s : State F P} {g : TGraph F P} (h : ∀ c r, r ∈ look g.rows c ↔ CEdge s c r) :
    DEdge g.rows = PEdge s := by
  funext a b
  simp only [DEdge, PEdge, h]

/-- the background is closed under dependency -/
theorem bg_down {s : State F P} {g : TGraph F P} (h : Rest db strat s)
    (hd : g.background = none ∧ g.downstream = [] ∨
      ∃ b, g.background = some b ∧ ∀ x, x ∈ g.downstream ↔ Relation.TransGen (PEdge s) b x)
    {c r : ℕ} (he : CEdge s c r) (hc : isFgScc g c = false) : isFgScc g r = false := by
  rw [isFgScc_false] at hc ⊢
  by_cases hrc : r = c
  · subst hrc; exact hc
  rcases hd with ⟨h1, h2⟩ | ⟨b, hb, hx⟩
  · rw [h1, h2] at hc; simp at hc
  · right
    rw [hx]
    rcases hc with hc | hc
    · rw [hb] at hc; simp at hc; subst hc; exact .single ⟨he, hrc⟩
    · exact ((hx c).mp hc).tail ⟨he, hrc⟩

theorem setBackground_spec {o : SetOrd F P} {fuel : ℕ} {s : State F P} {g g' : TGraph F P}
    (h : Rest db strat s) (hrows : ∀ c r, r ∈ look g.rows c ↔ CEdge s c r)
    (hcols : ∀ c r, c ∈ look g.cols r ↔ CEdge s c r)
    (hb0 : g.background = none) (hd0 : g.downstream = []) (hp0 : g.bgProcs = []) (hi0 : g.bgIndex = [])
    (hr : setBackground o fuel s g = some g') :
    (∀ c r, r ∈ look g'.rows c ↔ CEdge s c r) ∧ (∀ c r, c ∈ look g'.cols r ↔ CEdge s c r) ∧
    ((g'.background = none ∧ g'.downstream = [] ∧ ∀ k l, s.sccs.get? k = some l → l.length ≤ 1) ∨
    (∃ b l, g'.background = some b ∧ s.sccs.get? b = some l ∧ 1 < l.length ∧
      (∀ k l', s.sccs.get? k = some l' → l'.length ≤ l.length) ∧
      (∀ a z, s.sccs = a ++ (b, l) :: z → ∀ p ∈ a, p.2.length < l.length) ∧
      ∀ x, x ∈ g'.downstream ↔ Relation.TransGen (PEdge s) b x)) ∧
    g'.bgProcs.Nodup ∧ (∀ u, u ∈ g'.bgProcs ↔ ∃ k, s.sccOf.get? u = some k ∧ isFgScc g' k = false) ∧
    g'.bgIndex = enumIndex s g'.bgProcs := by
  have hl := largest_spec s.sccs 0 none
  unfold setBackground at hr
  have triv : (∀ k l, s.sccs.get? k = some l → l.length ≤ 1) → g' = g →
      (∀ c r, r ∈ look g'.rows c ↔ CEdge s c r) ∧ (∀ c r, c ∈ look g'.cols r ↔ CEdge s c r) ∧
    ((g'.background = none ∧ g'.downstream = [] ∧ ∀ k l, s.sccs.get? k = some l → l.length ≤ 1) ∨
    (∃ b l, g'.background = some b ∧ s.sccs.get? b = some l ∧ 1 < l.length ∧
      (∀ k l', s.sccs.get? k = some l' → l'.length ≤ l.length) ∧
      (∀ a z, s.sccs = a ++ (b, l) :: z → ∀ p ∈ a, p.2.length < l.length) ∧
      ∀ x, x ∈ g'.downstream ↔ Relation.TransGen (PEdge s) b x)) ∧
    g'.bgProcs.Nodup ∧ (∀ u, u ∈ g'.bgProcs ↔ ∃ k, s.sccOf.get? u = some k ∧ isFgScc g' k = false) ∧
    g'.bgIndex = enumIndex s g'.bgProcs := by
    intro hle e
    subst e
    refine ⟨hrows, hcols, Or.inl ⟨hb0, hd0, hle⟩, by rw [hp0]; simp, ?_, by rw [hi0, hp0]; rfl⟩
    intro u
    rw [hp0]
    simp only [List.not_mem_nil, false_iff, not_exists, not_and]
    intro k _ hf
    rw [isFgScc_false, hb0, hd0] at hf
    simp at hf
  split at hr
  · rename_i ml i heq
    rw [heq] at hl
    simp only at hl
    obtain ⟨_, hmax, hwhich⟩ := hl
    split at hr
    · rename_i hml
      split at hr
      · simp at hr
      · rename_i d hd
        simp only [Option.some.injEq] at hr
        rcases hwhich with hw | ⟨a, i', t, b, hs, hw, hpos, hfirst⟩
        · simp at hw
        · simp only [Prod.mk.injEq, Option.some.injEq] at hw
          obtain ⟨rfl, rfl⟩ := hw
          have hget : s.sccs.get? i = some t :=
            Dict.get?_eq_some_of_mem _ h.inv.sccsKeys (by rw [hs]; simp)
          obtain ⟨hdn, hdm⟩ := setDownstream_spec o g.rows fuel i g.downstream d hd (by rw [hd0]; simp)
          rw [hd0] at hdm
          have hdm' : ∀ x, x ∈ d ↔ Relation.TransGen (PEdge s) i x := by
            intro x; rw [hdm, dedge_iff hrows]; simp
          have hbr : g'.background = some i := by rw [← hr]; rfl
          have hdr : g'.downstream = d := by rw [← hr]; rfl
          have hpr : g'.bgProcs =
              o.pf (sccMembers s i) ++ (o.nat d).flatMap fun i => o.pf (sccMembers s i) := by
            rw [← hr]; rfl
          have hpr' : g'.bgProcs = (i :: o.nat d).flatMap fun i => o.pf (sccMembers s i) := by
            rw [hpr]; simp
          have hnd : (i :: o.nat d).Nodup := by
            refine List.nodup_cons.mpr ⟨?_, (o.nat_perm _).nodup_iff.mpr hdn⟩
            rw [(o.nat_perm _).mem_iff, hdm']
            exact h.pedge_irrefl
          refine ⟨by rw [← hr]; exact hrows, by rw [← hr]; exact hcols, Or.inr ⟨i, t, hbr, hget, hml, ?_,
            ?_, ?_⟩, ?_, ?_, by rw [← hr]; rfl⟩
          · intro k l' hk
            exact hmax (k, l') (Dict.mem_of_get?_eq_some _ hk)
          · intro a' z hs' p hp
            obtain ⟨e, _, _⟩ := largest_split h.inv.sccsKeys hs hs'
            subst e
            exact hfirst p hp
          · intro x; rw [hdr]; exact hdm' x
          · rw [hpr']; exact h.flat_nodup o hnd
          · intro u
            rw [hpr', h.mem_flat]
            constructor
            · rintro ⟨k, hk, hu⟩
              refine ⟨k, hu, ?_⟩
              rw [isFgScc_false, hbr, hdr]
              rcases List.mem_cons.mp hk with e | hk
              · left; rw [e]
              · right; exact (o.nat_perm _).mem_iff.mp hk
            · rintro ⟨k, hu, hk⟩
              refine ⟨k, ?_, hu⟩
              rw [isFgScc_false, hbr, hdr] at hk
              rcases hk with e | hk
              · simp at e; simp [e]
              · exact List.mem_cons_of_mem _ ((o.nat_perm _).mem_iff.mpr hk)
    · rename_i hml
      simp only [Option.some.injEq] at hr
      refine triv ?_ hr.symm
      intro k l hk
      have := hmax (k, l) (Dict.mem_of_get?_eq_some _ hk)
      simp only at this; omega
  · rename_i ml heq
    rw [heq] at hl
    simp only [Option.some.injEq] at hr hl
    obtain ⟨_, hmax, hwhich⟩ := hl
    refine triv ?_ hr.symm
    intro k l hk
    have := hmax (k, l) (Dict.mem_of_get?_eq_some _ hk)
    rcases hwhich with hw | ⟨a, i', t, b, hs, hw, _⟩
    · simp at hw; simp only at this; omega
    · simp at hw

theorem graph_spec {o : SetOrd F P} {fuel : ℕ} {s : State F P} {g : TGraph F P} (h : Rest db strat s)
    (hr : addToGraph o fuel s s.interior.reverse {} = some g) : GraphOK db strat s g := by
  unfold addToGraph at hr
  split at hr
  · simp at hr
  · rename_i g1 h1
    obtain ⟨hA, hb, hd, hp, hi⟩ := addEdges_spec _ [] (adj_init s) h1
    have hrows1 : ∀ c r, r ∈ look g1.rows c ↔ CEdge s c r := by
      intro c r; rw [hA.rows]; simp [CEdge]
    have hcols1 : ∀ c r, c ∈ look g1.cols r ↔ CEdge s c r := by
      intro c r; rw [hA.cols]; simp [CEdge]
    split at hr
    · simp at hr
    · rename_i g2 h2
      obtain ⟨hrows, hcols, hbg, hbn, hbm, hbi⟩ :=
        setBackground_spec h hrows1 hcols1 (by rw [hb]) (by rw [hd]) (by rw [hp]) (by rw [hi]) h2
      unfold generateFgIndex at hr
      simp only at hr
      split at hr
      · simp at hr
      · rename_i ord hord
        have hkn := h.inv.sccsKeys
        have hpart : ((s.sccs.keys.filter (isFgScc g2)).filter (fun k => (look g2.cols k).isEmpty) ++
            (s.sccs.keys.filter (isFgScc g2)).filter (fun k => !(look g2.cols k).isEmpty)).Nodup := by
          refine List.nodup_append.mpr ⟨(hkn.filter _).filter _, (hkn.filter _).filter _, ?_⟩
          intro a ha b hb e
          subst e
          rw [List.mem_filter] at ha hb
          simp [ha.2] at hb
        have htopo : Topo g2.cols
            ((s.sccs.keys.filter (isFgScc g2)).filter (fun k => (look g2.cols k).isEmpty)) := by
          intro k hk j hj
          rw [List.mem_filter] at hk
          have := List.isEmpty_iff.mp hk.2
          rw [this] at hj; simp at hj
        obtain ⟨hon, hot, hpre, hom⟩ := fgLoop_spec o g2.cols fuel _ _ ord hord hpart htopo
        have hom' : ∀ k, k ∈ ord ↔ k ∈ s.sccs.keys ∧ isFgScc g2 k = true := by
          intro k
          rw [hom]
          simp only [List.mem_filter]
          cases (look g2.cols k).isEmpty <;> simp
        simp only [Option.some.injEq] at hr
        have hfp : g.fgProcs = ord.flatMap fun k => o.pf (sccMembers s k) := by rw [← hr]
        have hisfg : ∀ k, isFgScc g k = isFgScc g2 k := by intro k; rw [← hr]; rfl
        refine ⟨h, by rw [← hr]; exact hrows, by rw [← hr]; exact hcols, by rw [← hr]; exact hbg,
          by rw [← hr]; exact hbn, ?_, by rw [← hr]; exact hbi, ?_, ?_, by rw [← hr], ?_, ?_⟩
        · intro u
          have := hbm u
          simp only [hisfg]
          rw [← hr]; exact this
        · rw [hfp]; exact h.flat_nodup o hon
        · intro u
          rw [hfp, h.mem_flat]
          constructor
          · rintro ⟨k, hk, hu⟩
            exact ⟨k, hu, by rw [hisfg]; exact ((hom' k).mp hk).2⟩
          · rintro ⟨k, hu, hk⟩
            exact ⟨k, (hom' k).mpr ⟨h.key_iff.mpr ⟨u, hu⟩, by rw [← hisfg]; exact hk⟩, hu⟩
        · intro u w c r hu hw he hf
          rw [hfp]
          have hro : r ∈ ord := (hom' r).mpr ⟨h.key_iff.mpr ⟨w, hw⟩, by rw [← hisfg]; exact hf⟩
          have hsub : [c, r].Sublist ord := hot r hro c ((hcols c r).mpr he.1) (Ne.symm he.2)
          have h1 := hsub.flatMap (fun k => o.pf (sccMembers s k))
          refine List.Sublist.trans ?_ h1
          simp only [List.flatMap_cons, List.flatMap_nil, List.append_nil]
          exact List.Sublist.append (l₁ := [u]) (r₁ := [w])
            (List.singleton_sublist.mpr ((o.pf_perm _).mem_iff.mpr (h.mem_members.mpr hu)))
            (List.singleton_sublist.mpr ((o.pf_perm _).mem_iff.mpr (h.mem_members.mpr hw)))
        · obtain ⟨rest, hrest⟩ := hpre
          refine ⟨_, rest.flatMap fun k => o.pf (sccMembers s k), by rw [hfp, ← hrest, List.flatMap_append],
            ?_, ?_⟩
          · intro u hu k hk
            rw [h.mem_flat] at hu
            obtain ⟨k', hk', hu'⟩ := hu
            rw [hk] at hu'; simp at hu'; subst hu'
            rw [List.mem_filter] at hk'
            rw [← hr]
            exact List.isEmpty_iff.mp hk'.2
          · intro u hu k hk he
            rw [h.mem_flat] at hu
            obtain ⟨k', hk', hu'⟩ := hu
            rw [hk] at hu'; simp at hu'; subst hu'
            rw [← hr] at he
            simp only at he
            rw [← hrest] at hon
            have hko : k ∈ ord := by rw [← hrest]; simp [hk']
            have hk2 := (hom' k).mp hko
            exact (List.nodup_append.mp hon).2.2 k
              (by rw [List.mem_filter, List.mem_filter]; exact ⟨hk2, by rw [he]; rfl⟩) k hk' rfl

theorem graph_total {o : SetOrd F P} {fuel : ℕ} {s : State F P} (h : Rest db strat s)
    (hf : s.pfIndex.length ≤ fuel) : ∃ g, addToGraph o fuel s s.interior.reverse {} = some g := by
  have hkl : s.sccs.keys.length ≤ s.pfIndex.length := by
    have hsub : ∀ k ∈ s.sccs.keys, k < s.pfIndex.length := by
      intro k hk
      obtain ⟨u, hu⟩ := h.key_iff.mp hk
      obtain ⟨r, hr, _⟩ := h.inv.sccRoot u k hu
      exact (List.getElem?_eq_some_iff.mp hr).1
    have : s.sccs.keys.Subperm (List.range s.pfIndex.length) :=
      List.subperm_of_subset h.inv.sccsKeys (fun k hk => List.mem_range.mpr (hsub k hk))
    simpa using this.length_le
  obtain ⟨g1, h1⟩ := addEdges_total (s := s) s.interior.reverse ({} : TGraph F P) (by
    intro i hi
    obtain ⟨u, w, v⟩ := i
    rw [List.mem_reverse] at hi
    obtain ⟨hu, hne, hd⟩ := h.int_iff.mp ⟨v, hi⟩
    exact ⟨h.scc hu, h.scc (h.closed hu hd)⟩)
  obtain ⟨hA, hb, hd, hp, hi⟩ := addEdges_spec _ [] (adj_init s) h1
  have hrows1 : ∀ c r, r ∈ look g1.rows c ↔ CEdge s c r := by
    intro c r; rw [hA.rows]; simp [CEdge]
  have hcols1 : ∀ c r, c ∈ look g1.cols r ↔ CEdge s c r := by
    intro c r; rw [hA.cols]; simp [CEdge]
  have h2 : ∃ g2, setBackground o fuel s g1 = some g2 := by
    unfold setBackground
    have hl := largest_spec s.sccs 0 none
    generalize hL : largest s.sccs (0, none) = L at hl
    obtain ⟨ml, ind⟩ := L
    cases ind with
    | none => exact ⟨_, rfl⟩
    | some i =>
      simp only
      split
      · have hik : i ∈ s.sccs.keys := by
          rcases hl.2.2 with hw | ⟨a, i', t, b, hs, hw, _⟩
          · simp at hw
          · simp only [Prod.mk.injEq, Option.some.injEq] at hw
            rw [hw.2, hs]; simp [Dict.keys]
        obtain ⟨d, hd⟩ := setDownstream_total o g1.rows s.sccs.keys
          (fun a b he => (h.pedge_key ((hrows1 a b).mp he.1)).2)
          (by rw [dedge_iff hrows1]; exact fun c => h.pedge_irrefl) fuel i g1.downstream [] (by simp)
          (by simp [hik]) (by simp) (by simp; omega)
        rw [hd]
        exact ⟨_, rfl⟩
      · exact ⟨_, rfl⟩
  obtain ⟨g2, h2⟩ := h2
  obtain ⟨hrows, hcols, hbg, hbn, hbm, hbi⟩ :=
        setBackground_spec h hrows1 hcols1 (by rw [hb]) (by rw [hd]) (by rw [hp]) (by rw [hi]) h2
  have h3 : ∃ g3, generateFgIndex o fuel s g2 = some g3 := by
    unfold generateFgIndex
    simp only
    obtain ⟨r, hr⟩ := fgLoop_total o g2.cols (by
        have : (fun j k => j ∈ look g2.cols k ∧ j ≠ k) = PEdge s := by
          funext a b
          simp only [PEdge, hcols, ne_eq, eq_comm]
        rw [this]; exact fun c => h.pedge_irrefl) fuel
      ((s.sccs.keys.filter (isFgScc g2)).filter fun k => !(look g2.cols k).isEmpty)
      ((s.sccs.keys.filter (isFgScc g2)).filter fun k => (look g2.cols k).isEmpty)
      (by
        intro k hk j hj hne
        rw [List.mem_filter, List.mem_filter] at hk
        have he := (hcols j k).mp hj
        have hjf : isFgScc g2 j = true := by
          by_contra hc
          have := bg_down h (g := g2) (by
            rcases hbg with ⟨h1, h2, _⟩ | ⟨b, l, h1, _, _, _, _, h2⟩
            · exact Or.inl ⟨h1, h2⟩
            · exact Or.inr ⟨b, h1, h2⟩) he (by simpa using hc)
          rw [this] at hk; simp at hk
        have hjk := (h.pedge_key he).1
        simp only [List.mem_filter]
        cases hE : (look g2.cols j).isEmpty <;> simp [hjk, hjf, hE])
      (le_trans ((List.length_filter_le _ _).trans (List.length_filter_le _ _)) (by omega))
    rw [hr]
    exact ⟨_, rfl⟩
  obtain ⟨g3, h3⟩ := h3
  exact ⟨g3, by simp [addToGraph, h1, h2, h3]⟩

/-! ### consequences in terms of dependency -/

theorem GraphOK.down {s : State F P} {g : TGraph F P} (h : GraphOK db strat s g) :
    g.background = none ∧ g.downstream = [] ∨
      ∃ b, g.background = some b ∧ ∀ x, x ∈ g.downstream ↔ Relation.TransGen (PEdge s) b x := by
  rcases h.bg with ⟨h1, h2, _⟩ | ⟨b, l, h1, _, _, _, _, h2⟩
  · exact Or.inl ⟨h1, h2⟩
  · exact Or.inr ⟨b, h1, h2⟩

theorem GraphOK.bg_sub {s : State F P} {g : TGraph F P} (h : GraphOK db strat s g) :
    ∀ u ∈ g.bgProcs, u ∈ s.pfIndex := by
  intro u hu
  obtain ⟨k, hk, _⟩ := (h.bgMem u).mp hu
  exact h.rest.inv.sccVis u k hk

theorem GraphOK.fg_sub {s : State F P} {g : TGraph F P} (h : GraphOK db strat s g) :
    ∀ u ∈ g.fgProcs, u ∈ s.pfIndex := by
  intro u hu
  obtain ⟨k, hk, _⟩ := (h.fgMem u).mp hu
  exact h.rest.inv.sccVis u k hk

theorem GraphOK.isBg {s : State F P} {g : TGraph F P} (h : GraphOK db strat s g) {u : F × P}
    (hu : u ∈ s.pfIndex) : isBackground g (pfIx s u) = true ↔ u ∈ g.bgProcs := by
  unfold isBackground
  rw [h.bgIndex]
  exact enumIndex_has h.rest.inv h.bgNodup h.bg_sub hu

/-- an SCC id is background exactly when its product flows are -/
theorem GraphOK.isBg_id {s : State F P} {g : TGraph F P} (h : GraphOK db strat s g) {k : ℕ}
    (hk : k ∈ s.sccs.keys) : isBackground g k = !isFgScc g k := by
  obtain ⟨u, hu⟩ := h.rest.key_iff.mp hk
  obtain ⟨r, hr, hrk⟩ := h.rest.inv.sccRoot u k hu
  have hrv := List.mem_of_getElem? hr
  have hix : pfIx s r = k := by
    have := (h.rest.inv.pfs r k).mpr hr
    simp [pfIx, this]
  have := h.isBg hrv
  rw [hix, h.bgMem] at this
  cases hf : isFgScc g k with
  | true =>
    simp only [Bool.not_true]
    rw [← Bool.not_eq_true, this]
    rintro ⟨k', hk', hf'⟩
    rw [hrk] at hk'; simp at hk'; subst hk'
    rw [hf] at hf'; simp at hf'
  | false => exact this.mpr ⟨k, hrk, hf⟩

theorem GraphOK.isBg_not {s : State F P} {g : TGraph F P} (h : GraphOK db strat s g) {u : F × P}
    (hu : u ∈ s.pfIndex) : u ∈ g.fgProcs ↔ u ∉ g.bgProcs := by
  rw [h.fgMem, h.bgMem]
  obtain ⟨k, hk⟩ := h.rest.scc hu
  constructor
  · rintro ⟨k1, h1, h2⟩ ⟨k2, h3, h4⟩
    rw [h1] at h3; simp at h3; subst h3
    rw [h2] at h4; simp at h4
  · intro hn
    refine ⟨k, hk, ?_⟩
    by_contra hc
    exact hn ⟨k, hk, by simpa using hc⟩

theorem GraphOK.bg_reach {s : State F P} {g : TGraph F P} (h : GraphOK db strat s g) {u w : F × P}
    (hu : u ∈ g.bgProcs) (hr : Reach db strat u w) : w ∈ g.bgProcs := by
  have hup := h.bg_sub u hu
  induction hr with
  | refl => exact hu
  | @tail b c hb hd ih =>
    have hbp := h.rest.reach_closed hup hb
    have hcp := h.rest.closed hbp hd
    by_cases e : c = b
    · subst e; exact ih
    · obtain ⟨k, hk, hf⟩ := (h.bgMem b).mp ih
      obtain ⟨k', hk'⟩ := h.rest.scc hcp
      obtain ⟨v, hv⟩ := h.rest.int_iff.mpr ⟨hbp, e, hd⟩
      exact (h.bgMem c).mpr ⟨k', hk', bg_down h.rest h.down ⟨b, c, v, hv, hk, hk'⟩ hf⟩

end Engine
