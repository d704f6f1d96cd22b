import Verif.Lemmas.Tstack3

set_option linter.unusedSectionVars false
set_option linter.unusedSimpArgs false

namespace Engine
variable {F P : Type} [DecidableEq F] [DecidableEq P]
variable {db : DB F P} {strat : Strategy}

/-! ### `_foreground_components` -/

/-- edges `_foreground_components` follows -/
def FEdge (g : TGraph F P) (a b : ℕ) : Prop := b ∈ look g.rows a ∧ isBackground g b = false

theorem fgComponents_spec (o : SetOrd F P) (g : TGraph F P) (fuel : ℕ) :
    ∀ q fg r, fgComponents o g fuel q fg = some r → fg.Nodup →
      r.Nodup ∧ (∀ x ∈ fg, x ∈ r) ∧ (∀ x ∈ q, x ∈ r) ∧
      (∀ x ∈ r, x ∈ fg ∨ ∃ y ∈ q, Relation.ReflTransGen (FEdge g) y x) ∧
      ((∀ c ∈ fg, ∀ b, FEdge g c b → b ∈ fg ∨ b ∈ q) → ∀ c ∈ r, ∀ b, FEdge g c b → b ∈ r) := by
  induction fuel with
  | zero =>
    intro q fg r h hnd
    cases q with
    | nil => simp [fgComponents] at h; subst h; simp [hnd]
    | cons a q => simp [fgComponents] at h
  | succ n ih =>
    intro q fg r h hnd
    cases q with
    | nil => simp [fgComponents] at h; subst h; simp [hnd]
    | cons a q =>
      unfold fgComponents at h
      split at h
      · rename_i ha
        obtain ⟨h1, h2, h3, h4, h5⟩ := ih q fg r h hnd
        refine ⟨h1, h2, ?_, ?_, ?_⟩
        · intro x hx
          rcases List.mem_cons.mp hx with e | hx
          · subst e; exact h2 _ ha
          · exact h3 x hx
        · intro x hx
          rcases h4 x hx with h | ⟨y, hy, hr⟩
          · exact Or.inl h
          · exact Or.inr ⟨y, by simp [hy], hr⟩
        · intro hc
          apply h5
          intro c hcf b hb
          rcases hc c hcf b hb with h | h
          · exact Or.inl h
          · rcases List.mem_cons.mp h with e | h
            · subst e; exact Or.inl ha
            · exact Or.inr h
      · rename_i ha
        have hmem : ∀ b, b ∈ (o.nat (look g.rows a)).filter (fun k => !isBackground g k) ↔ FEdge g a b := by
          intro b
          rw [List.mem_filter, (o.nat_perm _).mem_iff]
          simp [FEdge]
        obtain ⟨h1, h2, h3, h4, h5⟩ := ih _ _ r h
          (List.nodup_append.mpr ⟨hnd, by simp, by simp; exact fun x hx e => ha (e ▸ hx)⟩)
        refine ⟨h1, fun x hx => h2 x (by simp [hx]), ?_, ?_, ?_⟩
        · intro x hx
          rcases List.mem_cons.mp hx with e | hx
          · subst e; exact h2 _ (by simp)
          · exact h3 x (by simp [hx])
        · intro x hx
          rcases h4 x hx with h | ⟨y, hy, hr⟩
          · rcases List.mem_append.mp h with h | h
            · exact Or.inl h
            · simp at h; subst h; exact Or.inr ⟨x, by simp, .refl⟩
          · rcases List.mem_append.mp hy with hy | hy
            · exact Or.inr ⟨y, by simp [hy], hr⟩
            · exact Or.inr ⟨a, by simp, .head ((hmem y).mp hy) hr⟩
        · intro hc
          apply h5
          intro c hcf b hb
          rcases List.mem_append.mp hcf with hcf | hcf
          · rcases hc c hcf b hb with h | h
            · exact Or.inl (by simp [h])
            · rcases List.mem_cons.mp h with e | h
              · subst e; exact Or.inl (by simp)
              · exact Or.inr (by simp [h])
          · simp at hcf; subst hcf
            exact Or.inr (by rw [List.mem_append]; exact Or.inr ((hmem b).mpr hb))

theorem fgComponents_total (o : SetOrd F P) (g : TGraph F P) (univ : List ℕ)
    (hu : ∀ a b, FEdge g a b → b ∈ univ) (n : ℕ) :
    ∀ q fg, (univ.filter fun k => decide (k ∉ fg)).length ≤ n → (∀ x ∈ q, x ∈ univ) →
      ∃ f, ∀ f' ≥ f, ∃ r, fgComponents o g f' q fg = some r := by
  induction n with
  | zero =>
    intro q fg hl hq
    have hall : ∀ x ∈ univ, x ∈ fg := by
      intro x hx
      by_contra hc
      have : x ∈ univ.filter fun k => decide (k ∉ fg) := by simp [hx, hc]
      rw [List.eq_nil_of_length_eq_zero (Nat.le_zero.mp hl)] at this
      simp at this
    refine ⟨q.length, ?_⟩
    clear hl
    induction q with
    | nil => intro f' _; exact ⟨fg, by cases f' <;> rfl⟩
    | cons a q ihq =>
      intro f' hf
      cases f' with
      | zero => simp at hf
      | succ f' =>
        unfold fgComponents
        rw [if_pos (hall a (hq a (by simp)))]
        exact ihq (fun x hx => hq x (by simp [hx])) f' (by simp at hf; omega)
  | succ n ih =>
    intro q
    induction q with
    | nil => intro fg _ _; exact ⟨0, fun f' _ => ⟨fg, by cases f' <;> rfl⟩⟩
    | cons a q ihq =>
      intro fg hl hq
      by_cases ha : a ∈ fg
      · obtain ⟨f, hf⟩ := ihq fg hl (fun x hx => hq x (by simp [hx]))
        refine ⟨f + 1, fun f' hf' => ?_⟩
        cases f' with
        | zero => omega
        | succ f' =>
          unfold fgComponents
          rw [if_pos ha]
          exact hf f' (by omega)
      · have hlt : (univ.filter fun k => decide (k ∉ fg ++ [a])).length ≤ n := by
          have h1 : (univ.filter fun k => decide (k ∉ fg ++ [a])) =
              (univ.filter fun k => decide (k ∉ fg)).filter fun k => decide (k ≠ a) := by
            rw [List.filter_filter]
            apply List.filter_congr
            intro x _
            simp [Bool.and_comm]
          have : ((univ.filter fun k => decide (k ∉ fg)).filter fun k => decide (k ≠ a)).length <
              (univ.filter fun k => decide (k ∉ fg)).length := by
            apply List.length_filter_lt_length_iff_exists.mpr
            exact ⟨a, by simp [hq a (by simp), ha], by simp⟩
          rw [h1]; omega
        obtain ⟨f, hf⟩ := ih
          (q ++ (o.nat (look g.rows a)).filter fun k => !isBackground g k) (fg ++ [a]) hlt (by
            intro x hx
            rcases List.mem_append.mp hx with hx | hx
            · exact hq x (by simp [hx])
            · rw [List.mem_filter, (o.nat_perm _).mem_iff] at hx
              exact hu a x ⟨hx.1, by simpa using hx.2⟩)
        refine ⟨f + 1, fun f' hf' => ?_⟩
        cases f' with
        | zero => omega
        | succ f' =>
          unfold fgComponents
          rw [if_neg ha]
          exact hf f' (by omega)

/-! ### `foreground` -/

theorem fgLe_trans (s : State F P) (g : TGraph F P) (pf a b c : F × P) (h1 : fgLe s g pf a b = true)
    (h2 : fgLe s g pf b c = true) : fgLe s g pf a c = true := by
  unfold fgLe at *
  by_cases ha : pfIx s a = pfIx s pf <;> by_cases hb : pfIx s b = pfIx s pf <;>
    by_cases hc : pfIx s c = pfIx s pf <;> simp [ha, hb, hc] at h1 h2 ⊢ <;> omega

theorem fgLe_total (s : State F P) (g : TGraph F P) (pf a b : F × P) :
    (fgLe s g pf a b || fgLe s g pf b a) = true := by
  unfold fgLe
  by_cases ha : pfIx s a = pfIx s pf <;> by_cases hb : pfIx s b = pfIx s pf <;> simp [ha, hb] <;> omega

theorem GraphOK.fedge {s : State F P} {g : TGraph F P} (h : GraphOK db strat s g) (a b : ℕ) :
    FEdge g a b ↔ CEdge s a b ∧ isFgScc g b = true := by
  unfold FEdge
  rw [h.rows]
  constructor
  · rintro ⟨h1, h2⟩
    rw [h.isBg_id (h.rest.pedge_key h1).2] at h2
    exact ⟨h1, by simpa using h2⟩
  · rintro ⟨h1, h2⟩
    rw [h.isBg_id (h.rest.pedge_key h1).2]
    exact ⟨h1, by simp [h2]⟩

theorem GraphOK.comp_reach {s : State F P} {g : TGraph F P} (h : GraphOK db strat s g) {pf u : F × P}
    {c k : ℕ} (hc : s.sccOf.get? pf = some c) (hf : isFgScc g c = true) (hk : s.sccOf.get? u = some k) :
    Relation.ReflTransGen (FEdge g) c k ↔ Reach db strat pf u ∧ isFgScc g k = true := by
  constructor
  · intro hr
    refine ⟨h.rest.cpath_reach (Relation.ReflTransGen.mono
      (show FEdge g ≤ CEdge s from fun a b hab => ((h.fedge a b).mp hab).1) _ _ hr) hc hk, ?_⟩
    rcases Relation.ReflTransGen.cases_tail hr with e | ⟨b, _, hb⟩
    · rw [e]; exact hf
    · exact ((h.fedge _ _).mp hb).2
  · rintro ⟨hr, hkf⟩
    have hp := h.rest.reach_cpath hr hc hk
    clear hr hk
    induction hp with
    | refl => exact .refl
    | @tail a b _ hab ih =>
      refine .tail (ih ?_) ((h.fedge a b).mpr ⟨hab, hkf⟩)
      by_contra hcn
      have := bg_down h.rest h.down hab (by simpa using hcn)
      rw [hkf] at this; simp at this

theorem GraphOK.fg_get {s : State F P} {g : TGraph F P} (h : GraphOK db strat s g) {u : F × P}
    (hu : u ∈ s.pfIndex) (n : ℕ) : fgDict g (pfIx s u) = some n ↔ g.fgProcs[n]? = some u := by
  unfold fgDict
  rw [h.fgIndex]
  exact enumIndex_get h.rest.inv h.fgNodup h.fg_sub hu n

theorem GraphOK.bg_get {s : State F P} {g : TGraph F P} (h : GraphOK db strat s g) {u : F × P}
    (hu : u ∈ s.pfIndex) (n : ℕ) : bgDict g (pfIx s u) = some n ↔ g.bgProcs[n]? = some u := by
  unfold bgDict
  rw [h.bgIndex]
  exact enumIndex_get h.rest.inv h.bgNodup h.bg_sub hu n

theorem GraphOK.fg_some {s : State F P} {g : TGraph F P} (h : GraphOK db strat s g) {u : F × P}
    (hu : u ∈ g.fgProcs) : ∃ n, fgDict g (pfIx s u) = some n := by
  obtain ⟨n, hn⟩ := List.mem_iff_getElem?.mp hu
  exact ⟨n, (h.fg_get (h.fg_sub u hu) n).mpr hn⟩

theorem GraphOK.bg_some {s : State F P} {g : TGraph F P} (h : GraphOK db strat s g) {u : F × P}
    (hu : u ∈ g.bgProcs) : ∃ n, bgDict g (pfIx s u) = some n := by
  obtain ⟨n, hn⟩ := List.mem_iff_getElem?.mp hu
  exact ⟨n, (h.bg_get (h.bg_sub u hu) n).mpr hn⟩

theorem foreground_spec {o : SetOrd F P} {fuel : ℕ} {s : State F P} {g : TGraph F P}
    (h : GraphOK db strat s g) {pf : F × P} (hpf : pf ∈ g.fgProcs) {l : List (F × P)}
    (hr : foreground o fuel s g pf = some l) :
    l.Nodup ∧ (∀ u, u ∈ l ↔ Reach db strat pf u ∧ u ∈ g.fgProcs) ∧ (∃ t, l = pf :: t) ∧
      l.Pairwise (fun x y => x = pf ∨ y = pf ∨ ∀ i j, fgDict g (pfIx s x) = some i →
        fgDict g (pfIx s y) = some j → i ≤ j) := by
  obtain ⟨c, hc, hcf⟩ := (h.fgMem pf).mp hpf
  have hpv := h.fg_sub pf hpf
  unfold foreground at hr
  rw [hc] at hr
  simp only at hr
  have hnb := (isFgScc_iff g c).mp hcf
  rw [if_neg (by rintro (h | h); exact hnb.1 h; exact hnb.2 h)] at hr
  split at hr
  · simp at hr
  · rename_i fg hfg
    obtain ⟨h1, _, h3, h4, h5⟩ := fgComponents_spec o g fuel _ _ fg hfg (by simp)
    have hmem : ∀ x, x ∈ fg ↔ Relation.ReflTransGen (FEdge g) c x := by
      intro x
      constructor
      · intro hx
        rcases h4 x hx with h | ⟨y, hy, hr⟩
        · simp at h
        · simp at hy; subst hy; exact hr
      · intro hx
        induction hx with
        | refl => exact h3 c (by simp)
        | tail _ hab ih => exact h5 (by simp) _ ih _ hab
    split at hr
    · simp only [Option.some.injEq] at hr
      have hperm := List.mergeSort_perm (fg.flatMap fun c => o.pf (sccMembers s c)) (fgLe s g pf)
      rw [hr] at hperm
      have hmem2 : ∀ u, u ∈ l ↔ Reach db strat pf u ∧ u ∈ g.fgProcs := by
        intro u
        rw [hperm.mem_iff, h.rest.mem_flat, h.fgMem]
        constructor
        · rintro ⟨k, hk, hu⟩
          have := (h.comp_reach hc hcf hu).mp ((hmem k).mp hk)
          exact ⟨this.1, k, hu, this.2⟩
        · rintro ⟨hre, k, hu, hk⟩
          exact ⟨k, (hmem k).mpr ((h.comp_reach hc hcf hu).mpr ⟨hre, hk⟩), hu⟩
      have hsort := List.pairwise_mergeSort (le := fgLe s g pf) (fgLe_trans s g pf) (fgLe_total s g pf)
        (fg.flatMap fun c => o.pf (sccMembers s c))
      rw [hr] at hsort
      refine ⟨hperm.nodup_iff.mpr (h.rest.flat_nodup o h1), hmem2, ?_, ?_⟩
      · have hpl : pf ∈ l := (hmem2 pf).mpr ⟨.refl, hpf⟩
        cases l with
        | nil => simp at hpl
        | cons a t =>
          refine ⟨t, ?_⟩
          rcases List.mem_cons.mp hpl with e | hpt
          · rw [e]
          · have := (List.pairwise_cons.mp hsort).1 pf hpt
            have hav : a ∈ s.pfIndex := h.fg_sub a ((hmem2 a).mp (by simp)).2
            unfold fgLe at this
            by_cases ha : pfIx s a = pfIx s pf
            · rw [h.rest.inv.pfIx_inj hav hpv ha]
            · simp [ha] at this
      · refine hsort.imp_of_mem ?_
        intro x y hx hy hxy
        have hxv : x ∈ s.pfIndex := h.fg_sub x ((hmem2 x).mp hx).2
        have hyv : y ∈ s.pfIndex := h.fg_sub y ((hmem2 y).mp hy).2
        by_cases hxp : x = pf
        · exact Or.inl hxp
        by_cases hyp : y = pf
        · exact Or.inr (Or.inl hyp)
        right; right
        intro i j hi hj
        have e1 : pfIx s x ≠ pfIx s pf := fun e => hxp (h.rest.inv.pfIx_inj hxv hpv e)
        have e2 : pfIx s y ≠ pfIx s pf := fun e => hyp (h.rest.inv.pfIx_inj hyv hpv e)
        simpa [fgLe, e1, e2, hi, hj] using hxy
    · simp at hr

theorem foreground_total {o : SetOrd F P} {s : State F P} {g : TGraph F P}
    (h : GraphOK db strat s g) {pf : F × P} (hpf : pf ∈ s.pfIndex) :
    ∃ f, ∀ f' ≥ f, ∃ l, foreground o f' s g pf = some l := by
  obtain ⟨c, hc⟩ := h.rest.scc hpf
  by_cases hcf : isFgScc g c = true
  · obtain ⟨f, hf⟩ := fgComponents_total o g s.sccs.keys
      (fun a b he => (h.rest.pedge_key ((h.fedge a b).mp he).1).2) s.sccs.keys.length [c] []
      (List.length_filter_le _ _) (by simp; exact h.rest.key_iff.mpr ⟨pf, hc⟩)
    refine ⟨f, fun f' hf' => ?_⟩
    obtain ⟨r, hr⟩ := hf f' hf'
    unfold foreground
    rw [hc]
    simp only
    have hnb := (isFgScc_iff g c).mp hcf
    rw [if_neg (by rintro (h | h); exact hnb.1 h; exact hnb.2 h), hr]
    simp only
    rw [if_pos]
    · exact ⟨_, rfl⟩
    · rw [List.all_eq_true]
      intro x hx
      rw [h.rest.mem_flat] at hx
      obtain ⟨k, hk, hu⟩ := hx
      obtain ⟨_, _, _, h4, _⟩ := fgComponents_spec o g f' _ _ r hr (by simp)
      have hre : Relation.ReflTransGen (FEdge g) c k := by
        rcases h4 k hk with h | ⟨y, hy, hry⟩
        · simp at h
        · simp at hy; subst hy; exact hry
      have := ((h.comp_reach hc hcf hu).mp hre).2
      obtain ⟨n, hn⟩ := h.fg_some ((h.fgMem x).mpr ⟨k, hu, this⟩)
      rw [hn]; rfl
  · refine ⟨0, fun f' _ => ⟨[], ?_⟩⟩
    unfold foreground
    rw [hc]
    simp only
    rw [if_pos]
    have := (isFgScc_false g c).mp (by simpa using hcf)
    rcases this with h | h
    · exact Or.inl h.symm
    · exact Or.inr h

end Engine
