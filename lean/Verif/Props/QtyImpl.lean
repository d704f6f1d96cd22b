import Verif.Lemmas.QtyImpl
import Verif.Props.Flowables

/-! Properties C179–C181: the index of flowables of an archive, `factors`, `flowables` and `compartments`. -/

set_option linter.unusedSectionVars false
set_option linter.unusedVariables false
set_option linter.unusedSimpArgs false

namespace Qim
open Syn Flw

section Spec
variable {C Q V : Type} [DecidableEq C] [DecidableEq Q] {L : Lex Str}

/-! ### specification -/

/-- equal up to leading zeros -/
def SameCas (a b : Str) : Prop := a.dropWhile (· == '0') = b.dropWhile (· == '0')

/-- two flows have the same name (up to case and spaces), or both have a CAS number and it is the same -/
def Alike (L : Lex Str) (f g : Flow C Q V) : Prop :=
  L.san f.name = L.san g.name ∨ (f.cas ≠ [] ∧ g.cas ≠ [] ∧ SameCas f.cas g.cas)

/-- the same flowable: connected by a chain of flows of the archive with the same name or CAS number -/
def Same (L : Lex Str) (flows : List (Flow C Q V)) : Flow C Q V → Flow C Q V → Prop :=
  Relation.EqvGen fun f g => f ∈ flows ∧ g ∈ flows ∧ Alike L f g

/-- a string names a flow: it is its name or link (up to case and spaces), or its CAS number -/
def Names (L : Lex Str) (x : Str) (f : Flow C Q V) : Prop :=
  L.san x = L.san f.name ∨ L.san x = L.san f.link ∨ (f.cas ≠ [] ∧ x = f.cas)

/-- an archive with names and links that are not blank and not CAS numbers, CAS numbers without spaces and either with six digits in
front or without leading zeros (or none at all), and links that differ from each other and from names -/
structure Regular (L : Lex Str) (flows : List (Flow C Q V)) : Prop where
  name : ∀ f ∈ flows, Plain L f.name
  link : ∀ f ∈ flows, Plain L f.link
  cas : ∀ f ∈ flows, f.cas = [] ∨ CasLike L f.cas
  links : flows.Pairwise fun f g => L.san f.link ≠ L.san g.link
  apart : ∀ f ∈ flows, ∀ g ∈ flows, L.san f.link ≠ L.san g.name

/-- no flowable with two CAS numbers -/
def NoConflict (L : Lex Str) (flows : List (Flow C Q V)) : Prop :=
  ∀ f ∈ flows, ∀ g ∈ flows, Same L flows f g → f.cas ≠ [] → g.cas ≠ [] → SameCas f.cas g.cas

/-! ### keys -/

/-- the keys of a flow -/
def keys (L : Lex Str) (f : Flow C Q V) : List Str := keysOf L f.cas ++ keysOf L f.name ++ keysOf L f.link

def hyper (L : Lex Str) (flows : List (Flow C Q V)) : List (List Str) :=
  flows.flatMap fun f => [keysOf L f.cas ++ keysOf L f.name, keysOf L f.name ++ keysOf L f.link]

theorem mem_hyper {flows : List (Flow C Q V)} {h : List Str} : h ∈ hyper L flows ↔
    ∃ f ∈ flows, h = keysOf L f.cas ++ keysOf L f.name ∨ h = keysOf L f.name ++ keysOf L f.link := by
  simp [hyper, List.mem_flatMap]

theorem casKeys {t k : Str} (h : t = [] ∨ CasLike L t) : k ∈ keysOf L t ↔ t ≠ [] ∧ (k = trim t ∨ pad t = some k) := by
  rcases h with rfl | h
  · simp [keysOf]
  · obtain ⟨p, hp⟩ := pad_some h.2.1
    rw [keysOf_cas h hp, hp]
    simp [h.ne, eq_comm]

theorem casKeys_isCas {t k : Str} (h : t = [] ∨ CasLike L t) (hk : k ∈ keysOf L t) : isCas k = true ∧ trim k = trim t := by
  obtain ⟨hne, hk⟩ := (casKeys h).mp hk
  have hc : CasLike L t := by rcases h with h | h; exact absurd h hne; exact h
  rcases hk with rfl | hk
  · exact ⟨(trim_ne_nil hc.2.1).2, trim_idem t⟩
  · have := (C14_pad_trim t).2.1 k hk
    exact ⟨pad_isCas this.2.2.1, this.2.2.2.2.1⟩

theorem mem_keys (hL : Law L) {flows : List (Flow C Q V)} (hr : Regular L flows) {f : Flow C Q V} (hf : f ∈ flows) {k : Str} :
    k ∈ keys L f ↔ k ∈ keysOf L f.cas ∨ k = L.san f.name ∨ k = L.san f.link := by
  simp [keys, keysOf_plain hL (hr.name f hf), keysOf_plain hL (hr.link f hf)]

theorem link_eq {flows : List (Flow C Q V)} (hr : Regular L flows) {f g : Flow C Q V} (hf : f ∈ flows) (hg : g ∈ flows)
    (h : L.san f.link = L.san g.link) : f = g := by
  by_contra hne
  have := hr.links
  rw [List.pairwise_iff_getElem] at this
  obtain ⟨i, hi, rfl⟩ := List.getElem_of_mem hf
  obtain ⟨j, hj, rfl⟩ := List.getElem_of_mem hg
  rcases lt_trichotomy i j with h1 | h1 | h1
  · exact this i j hi hj h1 h
  · subst h1; exact hne rfl
  · exact this j i hj hi h1 h.symm

theorem shared (hL : Law L) {flows : List (Flow C Q V)} (hr : Regular L flows) {f g : Flow C Q V} (hf : f ∈ flows) (hg : g ∈ flows)
    {k : Str} (h1 : k ∈ keys L f) (h2 : k ∈ keys L g) : Same L flows f g := by
  rw [mem_keys hL hr hf] at h1
  rw [mem_keys hL hr hg] at h2
  have hnc : ∀ e ∈ flows, ∀ k, k ∈ keysOf L e.cas → ∀ e' ∈ flows, k ≠ L.san e'.name ∧ k ≠ L.san e'.link := by
    intro e he k hk e' he'
    have := (casKeys_isCas (hr.cas e he) hk).1
    constructor
    · rintro rfl; rw [(hr.name e' he').2.1] at this; simp at this
    · rintro rfl; rw [(hr.link e' he').2.1] at this; simp at this
  rcases h1 with h1 | h1 | h1
  · rcases h2 with h2 | h2 | h2
    · obtain ⟨_, e1⟩ := casKeys_isCas (hr.cas f hf) h1
      obtain ⟨_, e2⟩ := casKeys_isCas (hr.cas g hg) h2
      exact .rel _ _ ⟨hf, hg, Or.inr ⟨((casKeys (hr.cas f hf)).mp h1).1, ((casKeys (hr.cas g hg)).mp h2).1, e1.symm.trans e2⟩⟩
    · exact absurd h2 (hnc f hf k h1 g hg).1
    · exact absurd h2 (hnc f hf k h1 g hg).2
  · rcases h2 with h2 | h2 | h2
    · exact absurd h1 (hnc g hg k h2 f hf).1
    · exact .rel _ _ ⟨hf, hg, Or.inl (h1.symm.trans h2)⟩
    · exact absurd (h2.symm.trans h1) (hr.apart g hg f hf)
  · rcases h2 with h2 | h2 | h2
    · exact absurd h1 (hnc g hg k h2 f hf).2
    · exact absurd (h1.symm.trans h2) (hr.apart f hf g hg)
    · have := link_eq hr hf hg (h1.symm.trans h2); subst this; exact .refl _

theorem same_mem {flows : List (Flow C Q V)} {f g : Flow C Q V} (h : Same L flows f g) : f = g ∨ (f ∈ flows ∧ g ∈ flows) := by
  induction h with
  | rel f g h => exact Or.inr ⟨h.1, h.2.1⟩
  | refl => exact Or.inl rfl
  | symm _ _ _ ih => rcases ih with h | h; exact Or.inl h.symm; exact Or.inr ⟨h.2, h.1⟩
  | trans _ _ _ _ _ i1 i2 =>
    rcases i1 with rfl | i1
    · exact i2
    · rcases i2 with rfl | i2
      · exact Or.inr i1
      · exact Or.inr ⟨i1.1, i2.2⟩

theorem conn_own (hL : Law L) {flows : List (Flow C Q V)} (hr : Regular L flows) {f : Flow C Q V} (hf : f ∈ flows) {k : Str}
    (hk : k ∈ keys L f) : Conn (hyper L flows) k (L.san f.name) := by
  have hn : L.san f.name ∈ keysOf L f.name := by rw [keysOf_plain hL (hr.name f hf)]; simp
  rw [mem_keys hL hr hf] at hk
  rcases hk with hk | hk | hk
  · exact .rel _ _ ⟨_, mem_hyper.mpr ⟨f, hf, Or.inl rfl⟩, by simp [hk], by simp [hn]⟩
  · subst hk; exact .refl _
  · subst hk
    exact .rel _ _ ⟨_, mem_hyper.mpr ⟨f, hf, Or.inr rfl⟩, by simp [keysOf_plain hL (hr.link f hf)], by simp [hn]⟩

theorem conn_same (hL : Law L) {flows : List (Flow C Q V)} (hr : Regular L flows) {f g : Flow C Q V} (hf : f ∈ flows)
    (hg : g ∈ flows) {a b : Str} (ha : a ∈ keys L f) (hb : b ∈ keys L g) :
    Conn (hyper L flows) a b ↔ Same L flows f g := by
  constructor
  · intro hc
    have key : ∀ a b, Conn (hyper L flows) a b → (a = b ∨ ((∃ f ∈ flows, a ∈ keys L f) ∧ ∃ g ∈ flows, b ∈ keys L g)) ∧
        ∀ f ∈ flows, ∀ g ∈ flows, a ∈ keys L f → b ∈ keys L g → Same L flows f g := by
      intro a b hc
      induction hc with
      | rel a b h =>
        obtain ⟨x, hx, h1, h2⟩ := h
        obtain ⟨e, he, hx⟩ := mem_hyper.mp hx
        have h1 : a ∈ keys L e := by
          rcases hx with rfl | rfl <;> simp only [keys, List.mem_append] at h1 ⊢ <;> tauto
        have h2 : b ∈ keys L e := by
          rcases hx with rfl | rfl <;> simp only [keys, List.mem_append] at h2 ⊢ <;> tauto
        exact ⟨Or.inr ⟨⟨e, he, h1⟩, e, he, h2⟩, fun f hf g hg h3 h4 =>
          .trans _ _ _ (shared hL hr hf he h3 h1) (shared hL hr he hg h2 h4)⟩
      | refl a => exact ⟨Or.inl rfl, fun f hf g hg h3 h4 => shared hL hr hf hg h3 h4⟩
      | symm a b _ ih =>
        refine ⟨?_, fun f hf g hg h3 h4 => .symm _ _ (ih.2 g hg f hf h4 h3)⟩
        rcases ih.1 with h | ⟨h1, h2⟩
        · exact Or.inl h.symm
        · exact Or.inr ⟨h2, h1⟩
      | trans a b c _ _ i1 i2 =>
        rcases i1.1 with rfl | ⟨h1, e, he, h2⟩
        · exact i2
        · refine ⟨?_, fun f hf g hg h3 h4 => .trans _ _ _ (i1.2 f hf e he h3 h2) (i2.2 e he g hg h2 h4)⟩
          rcases i2.1 with rfl | ⟨_, h3⟩
          · exact Or.inr ⟨h1, e, he, h2⟩
          · exact Or.inr ⟨h1, h3⟩
    exact (key a b hc).2 f hf g hg ha hb
  · intro hs
    have key : ∀ f g, Same L flows f g → f ∈ flows → g ∈ flows → Conn (hyper L flows) (L.san f.name) (L.san g.name) := by
      intro f g hs
      induction hs with
      | rel f g h =>
        intro hf hg
        rcases h.2.2 with h | ⟨h1, h2, h3⟩
        · rw [h]; exact .refl _
        · have k1 : trim f.cas ∈ keys L f := by
            rw [mem_keys hL hr hf]; exact Or.inl ((casKeys (hr.cas f hf)).mpr ⟨h1, Or.inl rfl⟩)
          have k2 : trim f.cas ∈ keys L g := by
            rw [mem_keys hL hr hg]; exact Or.inl ((casKeys (hr.cas g hg)).mpr ⟨h2, Or.inl h3⟩)
          exact .trans _ _ _ (.symm _ _ (conn_own hL hr hf k1)) (conn_own hL hr hg k2)
      | refl => intro _ _; exact .refl _
      | symm _ _ _ ih => intro hf hg; exact .symm _ _ (ih hg hf)
      | trans a b c hab _ i1 i2 =>
        intro hf hg
        rcases same_mem hab with rfl | ⟨_, hb⟩
        · exact i2 hf hg
        · exact .trans _ _ _ (i1 hf hb) (i2 hb hg)
    exact .trans _ _ _ (conn_own hL hr hf ha) (.trans _ _ _ (key f g hs hf hg) (.symm _ _ (conn_own hL hr hg hb)))

/-! ### the loop -/

theorem addFlow_ok (hL : Law L) {s : State Str} (h : G L s) {H : List (List Str)} (hp : PInv H fun k => s.dict.get? k)
    (o : PyOrd Str) (oN : PyOrd ℕ) {f : Flow C Q V} (hn : Plain L f.name) (hl : Plain L f.link)
    (hc : f.cas = [] ∨ CasLike L f.cas) (hfresh : ∀ x ∈ H, L.san f.link ∉ x) (hap : L.san f.link ≠ L.san f.name) :
    (∃ s', addFlow L o oN f s = .ok () s' ∧ G L s' ∧
      PInv (H ++ [keysOf L f.cas ++ keysOf L f.name, keysOf L f.name ++ keysOf L f.link]) fun k => s'.dict.get? k) ∨
    (∃ s', addFlow L o oN f s = .err .conflictingCas s' ∧ isCas f.cas = true ∧
      ∃ j c, s.dict.get? (L.san f.name) = some j ∧ s.cas[j]? = some (some c) ∧ trim c ≠ trim f.cas) := by
  have hcn : ∀ k ∈ keysOf L f.cas, isCas k = true := fun k hk => (casKeys_isCas hc hk).1
  have hfk : ∀ (H' : List (List Str)) (s' : State Str), PInv H' (fun k => s'.dict.get? k) →
      (∀ x ∈ H', L.san f.link ∉ x) → s'.dict.get? (L.san f.link) = none := by
    intro H' s' hp' hx
    cases hd : s'.dict.get? (L.san f.link) with
    | none => rfl
    | some i =>
      obtain ⟨x, h1, h2⟩ := (hp'.known _).mp ⟨i, hd⟩
      exact absurd h2 (hx x h1)
  have hfresh1 : ∀ x ∈ H ++ [keysOf L f.cas ++ keysOf L f.name], L.san f.link ∉ x := by
    intro x hx
    rcases List.mem_append.mp hx with hx | hx
    · exact hfresh x hx
    · simp at hx; subst hx
      rw [List.mem_append, keysOf_plain hL hn]
      rintro (h1 | h1)
      · have := hcn _ h1; rw [hl.2.1] at this; simp at this
      · simp at h1; exact hap h1
  -- the second call
  have second : ∀ s2, G L s2 → PInv (H ++ [keysOf L f.cas ++ keysOf L f.name]) (fun k => s2.dict.get? k) →
      ∃ s', ((addSet L o (mergeSetF L) [f.name, f.link] true s2).bind fun _ s3 => Out.ok () s3) = .ok () s' ∧ G L s' ∧
      PInv (H ++ [keysOf L f.cas ++ keysOf L f.name, keysOf L f.name ++ keysOf L f.link]) fun k => s'.dict.get? k := by
    intro s2 g2 p2
    have hun : getIndex L s2 f.link = none := hfk _ s2 p2 hfresh1
    rcases addSyn_ok hL g2 o (a := f.name) (b := f.link) ⟨Or.inr (Or.inl hn), hl⟩
        (fun i j _ hj => by rw [hun] at hj; simp at hj) with ⟨r, s', e, g', m'⟩ | ⟨s', e, hcas, _⟩
    · rw [e]
      refine ⟨s', rfl, g', ?_⟩
      have := merged_inv p2 m'
      rwa [List.append_assoc] at this
    · rw [hn.2.2] at hcas; simp at hcas
  -- the first call
  unfold addFlow
  simp only
  by_cases hinc : ∃ i j, getIndex L s f.cas = some i ∧ getIndex L s f.name = some j ∧ i ≠ j
  · obtain ⟨i, j, hi, hj, hij⟩ := hinc
    rw [addSyn_inconsistent o hi hj hij]
    simp only
    have hcas : CasLike L f.cas := by
      rcases hc with e | hc
      · rw [getIndex, e, hL.nil, h.empty] at hi; simp at hi
      · exact hc
    rcases mergeF_ok hL h o oN hcas hn hi hj hij with ⟨s2, e, g2, m2⟩ | ⟨e, c, h1, h2⟩
    · left
      rw [e]; simp only [Out.bind]
      obtain ⟨s', e', g', p'⟩ := second s2 g2 (merged_inv hp m2)
      exact ⟨s', e', g', p'⟩
    · right
      rw [e]; simp only [Out.bind]
      exact ⟨s, rfl, hcas.2.1, j, c, hj, h1, h2⟩
  · push Not at hinc
    have htok : Tok L f.cas := by
      rcases hc with h | h
      · exact Or.inl h
      · exact Or.inr (Or.inr h)
    rcases addSyn_ok hL h o (a := f.cas) (b := f.name) ⟨htok, hn⟩ hinc with
      ⟨r, s1, e, g1, m1⟩ | ⟨s1, e, hcas, j, c, h1, h2, h3⟩
    · left
      rw [e]; simp only
      have p1 := merged_inv hp m1
      obtain ⟨i, hi⟩ : ∃ i, getIndex L s1 f.name = some i := by
        obtain ⟨i, m, _⟩ := m1
        exact ⟨i, m (L.san f.name) (by rw [List.mem_append, keysOf_plain hL hn]; simp)⟩
      obtain ⟨s2, e2, g2, d2⟩ := g_setName hL g1 hi
      rw [e2]; simp only [Out.bind]
      exact second s2 g2 (by rw [d2]; exact p1)
    · right
      rw [e]; simp only [Out.bind]
      exact ⟨s1, rfl, hcas, j, c, h1, h2, h3⟩

theorem same_mono {fl fl' : List (Flow C Q V)} (h : ∀ x ∈ fl, x ∈ fl') {f g : Flow C Q V} (hs : Same L fl f g) : Same L fl' f g := by
  induction hs with
  | rel f g hr => exact .rel _ _ ⟨h _ hr.1, h _ hr.2.1, hr.2.2⟩
  | refl => exact .refl _
  | symm _ _ _ ih => exact .symm _ _ ih
  | trans _ _ _ _ _ i1 i2 => exact .trans _ _ _ i1 i2

theorem Regular.left {fl fl' : List (Flow C Q V)} (h : Regular L (fl ++ fl')) : Regular L fl where
  name f hf := h.name f (List.mem_append_left _ hf)
  link f hf := h.link f (List.mem_append_left _ hf)
  cas f hf := h.cas f (List.mem_append_left _ hf)
  links := (List.pairwise_append.mp h.links).1
  apart f hf g hg := h.apart f (List.mem_append_left _ hf) g (List.mem_append_left _ hg)

theorem init_from (hL : Law L) (o : PyOrd Str) (oN : PyOrd ℕ) (rest : List (Flow C Q V)) : ∀ (done : List (Flow C Q V))
    (s : State Str), G L s → PInv (hyper L done) (fun k => s.dict.get? k) → Regular L (done ++ rest) →
    (∃ s', initFlowables L o oN rest s = .ok () s' ∧ G L s' ∧ PInv (hyper L (done ++ rest)) fun k => s'.dict.get? k) ∨
    (∃ s', initFlowables L o oN rest s = .err .conflictingCas s' ∧ ¬NoConflict L (done ++ rest)) := by
  induction rest with
  | nil => intro done s g p hr; left; exact ⟨s, rfl, g, by simpa using p⟩
  | cons f fs ih =>
    intro done s g p hr
    have hf : f ∈ done ++ f :: fs := by simp
    have hd : ∀ x ∈ done, x ∈ done ++ f :: fs := fun x hx => List.mem_append_left _ hx
    have hfresh : ∀ x ∈ hyper L done, L.san f.link ∉ x := by
      intro x hx hm
      obtain ⟨e, he, hx⟩ := mem_hyper.mp hx
      have hke : L.san f.link ∈ keys L e := by
        rcases hx with rfl | rfl <;> simp only [keys, List.mem_append] at hm ⊢ <;> tauto
      rw [mem_keys hL hr (hd e he)] at hke
      rcases hke with h1 | h1 | h1
      · have := (casKeys_isCas (hr.cas e (hd e he)) h1).1
        rw [(hr.link f hf).2.1] at this; simp at this
      · exact hr.apart f hf e (hd e he) h1
      · exact (List.pairwise_append.mp hr.links).2.2 e he f (by simp) h1.symm
    rcases addFlow_ok hL g p o oN (hr.name f hf) (hr.link f hf) (hr.cas f hf) hfresh (hr.apart f hf f hf) with
      ⟨s', e, g', p'⟩ | ⟨s', e, hcas, j, c, h1, h2, h3⟩
    · have hh : hyper L done ++ [keysOf L f.cas ++ keysOf L f.name, keysOf L f.name ++ keysOf L f.link] =
          hyper L (done ++ [f]) := by simp [hyper]
      rw [hh] at p'
      have := ih (done ++ [f]) s' g' p' (by simpa using hr)
      simp only [initFlowables, e, Out.bind]
      simpa using this
    · right
      simp only [initFlowables, e, Out.bind]
      refine ⟨s', rfl, ?_⟩
      intro hno
      have hr' := hr.left
      obtain ⟨q1, q2, q3⟩ := g.casL j c h2
      obtain ⟨x, hx, hcx⟩ := (p.known c).mp ⟨j, q2⟩
      obtain ⟨y, hy, hny⟩ := (p.known (L.san f.name)).mp ⟨j, h1⟩
      obtain ⟨e1, he1, hx⟩ := mem_hyper.mp hx
      obtain ⟨e2, he2, hy⟩ := mem_hyper.mp hy
      have k1 : c ∈ keys L e1 := by
        rcases hx with rfl | rfl <;> simp only [keys, List.mem_append] at hcx ⊢ <;> tauto
      have k2 : L.san f.name ∈ keys L e2 := by
        rcases hy with rfl | rfl <;> simp only [keys, List.mem_append] at hny ⊢ <;> tauto
      have hs12 : Same L done e1 e2 := (conn_same hL hr' he1 he2 k1 k2).mp ((p.conn c _ j j q2 h1).mp rfl)
      have hs2f : Same L (done ++ f :: fs) e2 f :=
        shared hL hr (hd e2 he2) hf k2 (by rw [mem_keys hL hr hf]; simp)
      have hce : c ∈ keysOf L e1.cas := by
        rw [mem_keys hL hr (hd e1 he1)] at k1
        have hcc := pad_isCas q1
        rcases k1 with k1 | k1 | k1
        · exact k1
        · rw [k1, (hr.name e1 (hd e1 he1)).2.1] at hcc; simp at hcc
        · rw [k1, (hr.link e1 (hd e1 he1)).2.1] at hcc; simp at hcc
      have hct := (casKeys_isCas (hr.cas e1 (hd e1 he1)) hce).2
      have hfc : f.cas ≠ [] := by intro e; rw [e] at hcas; exact absurd hcas (by decide)
      have := hno e1 (hd e1 he1) f hf (.trans _ _ _ (same_mono hd hs12) hs2f)
        ((casKeys (hr.cas e1 (hd e1 he1))).mp hce).1 hfc
      exact h3 (hct.trans this)

/-- what the index of a regular archive is -/
structure Indexed (L : Lex Str) (flows : List (Flow C Q V)) (s : State Str) : Prop where
  g : G L s
  p : PInv (hyper L flows) fun k => s.dict.get? k

theorem init_cases (hL : Law L) (o : PyOrd Str) (oN : PyOrd ℕ) {flows : List (Flow C Q V)} (hr : Regular L flows) :
    (∃ s, initFlowables L o oN flows {} = .ok () s ∧ Indexed L flows s) ∨
    (∃ s, initFlowables L o oN flows {} = .err .conflictingCas s ∧ ¬NoConflict L flows) := by
  rcases init_from hL o oN flows [] {} g_init pinv_init (by simpa using hr) with ⟨s, h1, h2, h3⟩ | ⟨s, h1, h2⟩
  · left; exact ⟨s, h1, h2, by simpa using h3⟩
  · right; exact ⟨s, h1, by simpa using h2⟩

theorem Indexed.known {flows : List (Flow C Q V)} {s : State Str} (h : Indexed L flows s) {f : Flow C Q V} (hf : f ∈ flows)
    {k : Str} (hk : k ∈ keys L f) : ∃ i, s.dict.get? k = some i := by
  apply (h.p.known k).mpr
  simp only [keys, List.mem_append] at hk
  rcases hk with (hk | hk) | hk
  · exact ⟨_, mem_hyper.mpr ⟨f, hf, Or.inl rfl⟩, by simp [hk]⟩
  · exact ⟨_, mem_hyper.mpr ⟨f, hf, Or.inl rfl⟩, by simp [hk]⟩
  · exact ⟨_, mem_hyper.mpr ⟨f, hf, Or.inr rfl⟩, by simp [hk]⟩

theorem Indexed.same (hL : Law L) {flows : List (Flow C Q V)} (hr : Regular L flows) {s : State Str} (h : Indexed L flows s)
    {f g : Flow C Q V} (hf : f ∈ flows) (hg : g ∈ flows) {a b : Str} (ha : a ∈ keys L f) (hb : b ∈ keys L g) :
    s.dict.get? a = s.dict.get? b ↔ Same L flows f g := by
  obtain ⟨i, hi⟩ := h.known hf ha
  obtain ⟨j, hj⟩ := h.known hg hb
  rw [← conn_same hL hr hf hg ha hb, ← h.p.conn a b i j hi hj, hi, hj]
  simp

theorem Indexed.noConflict (hL : Law L) {flows : List (Flow C Q V)} (hr : Regular L flows) {s : State Str}
    (h : Indexed L flows s) : NoConflict L flows := by
  intro f hf g hg hs h1 h2
  have k1 : trim f.cas ∈ keysOf L f.cas := (casKeys (hr.cas f hf)).mpr ⟨h1, Or.inl rfl⟩
  have k2 : trim g.cas ∈ keysOf L g.cas := (casKeys (hr.cas g hg)).mpr ⟨h2, Or.inl rfl⟩
  have e := (h.same hL hr hf hg (a := trim f.cas) (b := trim g.cas) (by simp [keys, k1]) (by simp [keys, k2])).mpr hs
  obtain ⟨i, hi⟩ := h.known hf (k := trim f.cas) (by simp [keys, k1])
  obtain ⟨c, c1, c2⟩ := h.g.casK _ i hi (casKeys_isCas (hr.cas f hf) k1).1
  obtain ⟨c', c1', c2'⟩ := h.g.casK _ i (e ▸ hi) (casKeys_isCas (hr.cas g hg) k2).1
  rw [c1] at c1'; simp at c1'; subst c1'
  have := c2.symm.trans c2'
  rw [trim_idem, trim_idem] at this
  exact this

/-! ### C179: the index of flowables -/

/-- The index of a regular archive can be made if and only if no flowable has two CAS numbers; then two names, links or CAS
numbers lead to the same entry if and only if they belong to the same flowable. -/
theorem index_iff (hL : Law L) (o : PyOrd Str) (oN : PyOrd ℕ) {flows : List (Flow C Q V)} (hr : Regular L flows) :
    ((∃ s, initFlowables L o oN flows {} = .ok () s) ↔ NoConflict L flows) ∧
    (∀ s, initFlowables L o oN flows {} = .ok () s → ∀ f ∈ flows, ∀ g ∈ flows, ∀ x y, Names L x f → Names L y g →
      (∃ i, getIndex L s x = some i) ∧ (getIndex L s x = getIndex L s y ↔ Same L flows f g)) ∧
    (∀ e s, initFlowables L o oN flows {} = .err e s → e = .conflictingCas) := by
  have hnames : ∀ f ∈ flows, ∀ x, Names L x f → L.san x ∈ keys L f := by
    intro f hf x hx
    rw [mem_keys hL hr hf]
    rcases hx with hx | hx | ⟨hx, rfl⟩
    · exact Or.inr (Or.inl hx)
    · exact Or.inr (Or.inr hx)
    · left
      rcases hr.cas f hf with e | hc
      · exact absurd e hx
      · rw [hc.1, casKeys (hr.cas f hf)]
        refine ⟨hx, ?_⟩
        rcases hc.2.2 with e | e
        · exact Or.inr e
        · exact Or.inl e.symm
  rcases init_cases hL o oN hr with ⟨s, e, hi⟩ | ⟨s, e, hn⟩
  · refine ⟨⟨fun _ => hi.noConflict hL hr, fun _ => ⟨s, e⟩⟩, ?_, ?_⟩
    · intro s' e' f hf g hg x y hx hy
      rw [e] at e'; simp at e'; subst e'
      exact ⟨hi.known hf (hnames f hf x hx), hi.same hL hr hf hg (hnames f hf x hx) (hnames g hg y hy)⟩
    · intro e' s' h; rw [e] at h; simp at h
  · refine ⟨⟨?_, fun h => absurd h hn⟩, ?_, ?_⟩
    · rintro ⟨s', h⟩; rw [e] at h; simp at h
    · intro s' h; rw [e] at h; simp at h
    · intro e' s' h; rw [e] at h; simp at h; exact h.1.symm

/-- Two flows with one name and different CAS numbers: no index, and every query for a flowable raises. -/
theorem two_cas_raise (hL : Law L) (o : PyOrd Str) (oN : PyOrd ℕ) {flows : List (Flow C Q V)} (hr : Regular L flows)
    {f g : Flow C Q V} (hf : f ∈ flows) (hg : g ∈ flows) (hn : L.san f.name = L.san g.name) (h1 : f.cas ≠ []) (h2 : g.cas ≠ [])
    (hne : ¬SameCas f.cas g.cas) (q : Q) (x : Str) (comp : Option C) (oI : PyOrd (Option ℕ)) (le : Str → Str → Bool) :
    factors L o oN flows none (some q) (some x) comp = .error (.syn .conflictingCas) ∧
    flowables L o oN oI le flows none none none = .error (.syn .conflictingCas) := by
  have hc : ¬NoConflict L flows := fun h => hne (h f hf g hg (.rel _ _ ⟨hf, hg, Or.inl hn⟩) h1 h2)
  rcases init_cases hL o oN hr with ⟨s, e, hi⟩ | ⟨s, e, _⟩
  · exact absurd (hi.noConflict hL hr) hc
  · constructor
    · simp [factors, fb, e]
    · unfold flowables
      have : flows.filter (meets (none : Option C) (Option.join (none : Option (Option Q)))) ≠ [] := by
        intro h; rw [List.filter_eq_nil_iff] at h
        exact h f hf (by simp [meets])
      simp only
      rw [if_neg this]
      simp [fb, e]

/-! ### C180: factors -/

/-- what `factors` should yield: in the order of the archive, the factors of the flows with one for the quantity that are in the
compartment and for which `P` holds -/
noncomputable def wanted (flows : List (Flow C Q V)) (q : Q) (comp : Option C) (P : Flow C Q V → Prop) : List (Str × V) :=
  open Classical in
  flows.filterMap fun f => if P f ∧ (∀ c, comp = some c → f.comp = c) then (f.cfs.get? q).map fun v => (f.link, v) else none

theorem factorsLoop_eq {s : State Str} {q : Q} {target : Option ℕ} {comp : Option C} {P : Flow C Q V → Prop} :
    ∀ {flows : List (Flow C Q V)}, (∀ f ∈ flows, P f ↔ ∀ i, target = some i → getIndex L s f.link = some i) →
    factorsLoop L s q target comp flows = wanted flows q comp P := by
  intro flows
  induction flows with
  | nil => intro _; rfl
  | cons f fs ih =>
    intro hP
    have ih' := ih (fun g hg => hP g (by simp [hg]))
    have h0 := hP f (by simp)
    rw [factorsLoop.eq_def]
    simp only
    rw [ih']
    unfold wanted
    rw [List.filterMap_cons]
    cases hv : f.cfs.get? q with
    | none => simp
    | some v =>
      clear ih ih' hP
      cases target <;> cases comp <;> by_cases hPf : P f <;> simp_all <;> split <;> simp_all

/-- Without a flowable all factors of the quantity in the compartment; with a flowable known to the archive those of the same
flowable. -/
theorem factors_spec_partial (hL : Law L) (o : PyOrd Str) (oN : PyOrd ℕ) {flows : List (Flow C Q V)} (hr : Regular L flows)
    (hc : NoConflict L flows) (q : Q) (comp : Option C) :
    factors L o oN flows none (some q) none comp = .ok (wanted flows q comp fun _ => True) ∧
    ∀ g ∈ flows, ∀ x, Names L x g →
      factors L o oN flows none (some q) (some x) comp = .ok (wanted flows q comp fun f => Same L flows f g) := by
  obtain ⟨h1, h2, _⟩ := index_iff hL o oN hr
  obtain ⟨s, e⟩ := h1.mpr hc
  constructor
  · simp only [factors]
    rw [factorsLoop_eq (P := fun _ => True)]
    intro f _; simp
  · intro g hg x hx
    simp only [factors, fb, e]
    rw [factorsLoop_eq (P := fun f => Same L flows f g)]
    intro f hf
    obtain ⟨⟨i, hi⟩, hs⟩ := h2 s e g hg f hf x f.link hx (Or.inr (Or.inl rfl))
    constructor
    · intro h i' hi'
      rw [← hi', hs.mpr (.symm _ _ h)]
    · intro h
      exact .symm _ _ (hs.mp (by rw [hi, h i hi]))

/-- A flowable that is not known is no filter: all factors of the quantity are yielded. -/
theorem unknown_flowable_all (hL : Law L) (o : PyOrd Str) (oN : PyOrd ℕ) {flows : List (Flow C Q V)} (hr : Regular L flows)
    (hc : NoConflict L flows) (q : Q) (comp : Option C) {x : Str} (hx : ∀ f ∈ flows, L.san x ∉ keys L f) :
    factors L o oN flows none (some q) (some x) comp = .ok (wanted flows q comp fun _ => True) := by
  rcases init_cases hL o oN hr with ⟨s, e, hi⟩ | ⟨s, e, hn⟩
  · have : getIndex L s x = none := by
      cases hd : getIndex L s x with
      | none => rfl
      | some i =>
        obtain ⟨y, hy, hk⟩ := (hi.p.known (L.san x)).mp ⟨i, hd⟩
        obtain ⟨f, hf, hy⟩ := mem_hyper.mp hy
        refine absurd ?_ (hx f hf)
        rcases hy with rfl | rfl <;> simp only [keys, List.mem_append] at hk ⊢ <;> tauto
    simp only [factors, fb, e, this]
    rw [factorsLoop_eq (P := fun _ => True)]
    intro f _; simp
  · exact absurd hc hn

/-- A quantity the archive does not have: `factors` raises, `flowables` is unfiltered. -/
theorem unknown_quantity (o : PyOrd Str) (oN : PyOrd ℕ) (flows : List (Flow C Q V)) (cached : Option (State Str)) (x : Option Str)
    (comp : Option C) (oI : PyOrd (Option ℕ)) (le : Str → Str → Bool) :
    factors L o oN flows cached (none : Option Q) x comp = .error .attributeError ∧
    flowables L o oN oI le flows cached (some none) comp = flowables L o oN oI le flows cached none comp := by
  constructor
  · rfl
  · rfl

/-! ### C181: flowables and compartments -/

/-- an entry that `flowables` yields stands for a flow: its name is a name, link or CAS number of the same flowable, and its CAS
number that of the flowable, None if none of its flows has one -/
def StandsFor (L : Lex Str) (flows : List (Flow C Q V)) (e : Option Str × Option Str) (f : Flow C Q V) : Prop :=
  (∃ n, e.2 = some n ∧ ∃ g ∈ flows, Same L flows f g ∧ L.san n ∈ keys L g) ∧
  (∀ g ∈ flows, Same L flows f g → g.cas ≠ [] → ∃ c, e.1 = some c ∧ SameCas c g.cas) ∧
  (∀ c, e.1 = some c → ∃ g ∈ flows, Same L flows f g ∧ g.cas ≠ [] ∧ SameCas c g.cas)

/-- the flow meets the conditions of the query -/
def Wanted (q : Option Q) (comp : Option C) (f : Flow C Q V) : Prop :=
  (∀ c, comp = some c → f.comp = c) ∧ (∀ x, q = some x → ∃ v, f.cfs.get? x = some v)

theorem meets_iff {q : Option Q} {comp : Option C} {f : Flow C Q V} : meets comp q f = true ↔ Wanted q comp f := by
  cases q <;> cases comp <;> simp [meets, Wanted, Option.isSome_iff_exists]

theorem mapM_ok {α β ε : Type} {f : α → Except ε β} {g : α → β} : ∀ {l : List α}, (∀ a ∈ l, f a = .ok (g a)) →
    l.mapM f = .ok (l.map g) := by
  intro l
  induction l with
  | nil => intro _; rfl
  | cons a l ih =>
    intro h
    rw [List.mapM_cons, h a (by simp), ih (fun b hb => h b (by simp [hb]))]
    rfl

/-- One entry for each flowable with a flow that meets the conditions, sorted by name. -/
theorem flowables_spec (hL : Law L) (o : PyOrd Str) (oN : PyOrd ℕ) (oI : PyOrd (Option ℕ)) {le : Str → Str → Bool}
    (ht : ∀ a b, le a b = true ∨ le b a = true) (htr : ∀ a b c, le a b = true → le b c = true → le a c = true)
    {flows : List (Flow C Q V)} (hr : Regular L flows) (hc : NoConflict L flows) (q : Option Q) (comp : Option C) :
    ∃ r, flowables L o oN oI le flows none (q.map some) comp = .ok r ∧
      (∀ f ∈ flows, Wanted q comp f → ∃ e ∈ r, StandsFor L flows e f) ∧
      (∀ e ∈ r, ∃ f ∈ flows, Wanted q comp f ∧ StandsFor L flows e f) ∧
      (r.Pairwise fun e e' => ∀ f ∈ flows, StandsFor L flows e f → ¬StandsFor L flows e' f) ∧
      (r.Pairwise fun e e' => le (e.2.getD []) (e'.2.getD []) = true) := by
  rcases init_cases hL o oN hr with ⟨s, ei, hi⟩ | ⟨s, e, hn⟩
  swap
  · exact absurd hc hn
  have hq : (q.map some).join = q := by cases q <;> rfl
  unfold flowables
  simp only [hq]
  by_cases hfs : flows.filter (meets comp q) = []
  · rw [if_pos hfs]
    refine ⟨[], rfl, ?_, by simp, by simp, by simp⟩
    intro f hf hw
    rw [List.filter_eq_nil_iff] at hfs
    exact absurd (meets_iff.mpr hw) (hfs f hf)
  rw [if_neg hfs]
  simp only [fb, ei]
  generalize hix : oI.f (PySet.ofList ((flows.filter (meets comp q)).map fun f => getIndex L s f.name)) = ix
  have hmem : ∀ x, x ∈ ix ↔ ∃ f ∈ flows, Wanted q comp f ∧ getIndex L s f.name = x := by
    intro x; rw [← hix, oI.mem, PySet.mem_ofList, List.mem_map]
    constructor
    · rintro ⟨f, hf, e⟩; rw [List.mem_filter, meets_iff] at hf; exact ⟨f, hf.1, hf.2, e⟩
    · rintro ⟨f, hf, hw, e⟩; exact ⟨f, by rw [List.mem_filter, meets_iff]; exact ⟨hf, hw⟩, e⟩
  have hnd : ix.Nodup := by rw [← hix, (oI.perm _).nodup_iff]; exact PySet.nodup_ofList _
  have hname : ∀ f ∈ flows, L.san f.name ∈ keys L f := fun f hf => by rw [mem_keys hL hr hf]; simp
  -- entries
  let ent : Option ℕ → Option Str × Option Str := fun x =>
    match x with
    | none => (none, none)
    | some i => ((s.cas[i]?).join, (s.names[i]?).join)
  have hent : ∀ x ∈ ix, entry s x = .ok (ent x) := by
    intro x hx
    obtain ⟨f, hf, _, e⟩ := (hmem x).mp hx
    obtain ⟨i, hi'⟩ := hi.known hf (hname f hf)
    have : x = some i := by rw [← e]; exact hi'
    subst this
    obtain ⟨l, hl, _⟩ := hi.g.live _ i hi'
    obtain ⟨n, hn⟩ := hi.g.named _ i hi'
    have hcN : s.cas[i]? ≠ none := fun e => by have := (hi.g.lenC i).mp e; rw [hl] at this; simp at this
    obtain ⟨c, hcc⟩ := Option.ne_none_iff_exists'.mp hcN
    simp [entry, ent, hcc, hn]
  have hstand : ∀ x ∈ ix, ∃ i, x = some i ∧ ∃ n, s.names[i]? = some (some n) ∧
      ∀ f ∈ flows, StandsFor L flows (ent x) f ↔ getIndex L s f.name = x := by
    intro x hx
    obtain ⟨f0, hf0, _, e0⟩ := (hmem x).mp hx
    obtain ⟨i, hi'⟩ := hi.known hf0 (hname f0 hf0)
    have : x = some i := by rw [← e0]; exact hi'
    subst this
    obtain ⟨n, hn⟩ := hi.g.named _ i hi'
    refine ⟨i, rfl, n, hn, ?_⟩
    have hnk := hi.g.name i n hn
    obtain ⟨y, hy, hky⟩ := (hi.p.known (L.san n)).mp ⟨i, hnk⟩
    obtain ⟨g0, hg0, hy⟩ := mem_hyper.mp hy
    have hkg : L.san n ∈ keys L g0 := by
      rcases hy with rfl | rfl <;> simp only [keys, List.mem_append] at hky ⊢ <;> tauto
    intro f hf
    have hown : ∀ g ∈ flows, L.san n ∈ keys L g → (getIndex L s f.name = some i ↔ Same L flows f g) := by
      intro g hg hk
      rw [← hi.same hL hr hf hg (hname f hf) hk, hnk]; rfl
    constructor
    · rintro ⟨⟨m, hm, g, hg, hs, hk⟩, _⟩
      simp only [ent, hn, Option.join_some] at hm
      simp at hm; subst hm
      exact (hown g hg hk).mpr hs
    · intro hfi
      have hcas : ∀ g ∈ flows, Same L flows f g → g.cas ≠ [] →
          ∃ c, s.cas[i]? = some (some c) ∧ SameCas c g.cas := by
        intro g hg hs hne
        have hk : trim g.cas ∈ keysOf L g.cas := (casKeys (hr.cas g hg)).mpr ⟨hne, Or.inl rfl⟩
        have := (hi.same hL hr hf hg (hname f hf) (b := trim g.cas) (by simp [keys, hk])).mpr hs
        have hfi' : s.dict.get? (L.san f.name) = some i := hfi
        rw [hfi'] at this
        obtain ⟨c, h1, h2⟩ := hi.g.casK _ i this.symm (casKeys_isCas (hr.cas g hg) hk).1
        rw [trim_idem] at h2
        exact ⟨c, h1, h2⟩
      refine ⟨⟨n, by simp [ent, hn], g0, hg0, (hown g0 hg0 hkg).mp hfi, hkg⟩, ?_, ?_⟩
      · intro g hg hs hne
        obtain ⟨c, h1, h2⟩ := hcas g hg hs hne
        exact ⟨c, by simp [ent, h1], h2⟩
      · intro c hcc
        have hcc : s.cas[i]? = some (some c) := by
          simp only [ent] at hcc
          cases hx' : s.cas[i]? with
          | none => rw [hx'] at hcc; simp at hcc
          | some y => rw [hx'] at hcc; simp at hcc; rw [hcc]
        obtain ⟨q1, q2, q3⟩ := hi.g.casL i c hcc
        obtain ⟨z, hz, hkz⟩ := (hi.p.known c).mp ⟨i, q2⟩
        obtain ⟨g, hg, hz⟩ := mem_hyper.mp hz
        have hkg' : c ∈ keys L g := by
          rcases hz with rfl | rfl <;> simp only [keys, List.mem_append] at hkz ⊢ <;> tauto
        have hce : c ∈ keysOf L g.cas := by
          rw [mem_keys hL hr hg] at hkg'
          have hic := pad_isCas q1
          rcases hkg' with k1 | k1 | k1
          · exact k1
          · rw [k1, (hr.name g hg).2.1] at hic; simp at hic
          · rw [k1, (hr.link g hg).2.1] at hic; simp at hic
        refine ⟨g, hg, ?_, ((casKeys (hr.cas g hg)).mp hce).1, (casKeys_isCas (hr.cas g hg) hce).2⟩
        have hfi' : s.dict.get? (L.san f.name) = some i := hfi
        exact (hi.same hL hr hf hg (hname f hf) hkg').mp (hfi'.trans q2.symm)
  rw [mapM_ok (g := ent) hent]
  simp only
  have hany : ((ix.map ent).any fun e => e.2.isNone) = false := by
    rw [List.any_eq_false]
    intro e he
    obtain ⟨x, hx, rfl⟩ := List.mem_map.mp he
    obtain ⟨i, rfl, n, hn, _⟩ := hstand x hx
    simp [ent, hn]
  rw [hany]
  simp only [Bool.false_and, Bool.false_eq_true, if_false]
  have hperm := List.perm_insertionSort (fun a b : Option Str × Option Str => le (a.2.getD []) (b.2.getD []) = true) (ix.map ent)
  refine ⟨_, rfl, ?_, ?_, ?_, ?_⟩
  · intro f hf hw
    have hx := (hmem _).mpr ⟨f, hf, hw, rfl⟩
    obtain ⟨i, _, n, _, hs⟩ := hstand _ hx
    exact ⟨ent (getIndex L s f.name), hperm.mem_iff.mpr (List.mem_map_of_mem hx), (hs f hf).mpr rfl⟩
  · intro e he
    obtain ⟨x, hx, rfl⟩ := List.mem_map.mp (hperm.mem_iff.mp he)
    obtain ⟨f, hf, hw, e⟩ := (hmem x).mp hx
    obtain ⟨i, _, n, _, hs⟩ := hstand _ hx
    exact ⟨f, hf, hw, (hs f hf).mpr e⟩
  · have hsym : Std.Symm (fun e e' : Option Str × Option Str => ∀ f ∈ flows, StandsFor L flows e f → ¬StandsFor L flows e' f) :=
      ⟨fun e e' h f hf h1 h2 => h f hf h2 h1⟩
    refine (hperm.pairwise_iff (R := fun e e' => ∀ f ∈ flows, StandsFor L flows e f → ¬StandsFor L flows e' f)
      (fun h f hf h1 h2 => h f hf h2 h1)).mpr ?_
    rw [List.pairwise_map]
    refine List.Pairwise.imp_of_mem ?_ hnd
    intro x y hx hy hxy f hf h1 h2
    obtain ⟨_, _, _, _, hsx⟩ := hstand x hx
    obtain ⟨_, _, _, _, hsy⟩ := hstand y hy
    exact hxy (((hsx f hf).mp h1).symm.trans ((hsy f hf).mp h2))
  · have : Std.Total (fun a b : Option Str × Option Str => le (a.2.getD []) (b.2.getD []) = true) := ⟨fun a b => ht _ _⟩
    have : IsTrans _ (fun a b : Option Str × Option Str => le (a.2.getD []) (b.2.getD []) = true) := ⟨fun a b c => htr _ _ _⟩
    exact List.pairwise_insertionSort _ _

theorem mapM_none {s : State Str} : ∀ {l : List (Option ℕ)}, none ∈ l → ∃ e, l.mapM (entry s) = .error e := by
  intro l
  induction l with
  | nil => simp
  | cons a l ih =>
    intro h
    rw [List.mapM_cons]
    cases ha : entry s a with
    | error e => exact ⟨e, rfl⟩
    | ok x =>
      have : none ∈ l := by
        rcases List.mem_cons.mp h with h | h
        · subst h; simp [entry] at ha
        · exact h
      obtain ⟨e, he⟩ := ih this
      exact ⟨e, by rw [he]; rfl⟩

/-- The index is made once: after that a flow with a new name makes `flowables` raise. -/
theorem stale_raises (o : PyOrd Str) (oN : PyOrd ℕ) (oI : PyOrd (Option ℕ)) (le : Str → Str → Bool) (flows : List (Flow C Q V))
    (s : State Str) (q : Option (Option Q)) (comp : Option C) {f : Flow C Q V} (hf : f ∈ flows) (hw : Wanted q.join comp f)
    (hn : getIndex L s f.name = none) : ∃ e, flowables L o oN oI le flows (some s) q comp = .error e := by
  unfold flowables
  have hm : f ∈ flows.filter (meets comp q.join) := by rw [List.mem_filter, meets_iff]; exact ⟨hf, hw⟩
  simp only
  rw [if_neg (List.ne_nil_of_mem hm)]
  simp only [fb]
  have : none ∈ oI.f (PySet.ofList ((flows.filter (meets comp q.join)).map fun f => getIndex L s f.name)) := by
    rw [oI.mem, PySet.mem_ofList, List.mem_map]; exact ⟨f, hm, hn⟩
  obtain ⟨e, he⟩ := mapM_none (s := s) this
  exact ⟨e, by rw [he]⟩

/-- `compartments` yields every compartment once, whatever quantity or flowable is asked for, and raises as soon as one of them is
a list. -/
theorem compartments_spec (hashable : C → Bool) (oC : PyOrd C) (flows : List (Flow C Q V)) (q q' : Option Q) (x x' : Option Str) :
    (compartments hashable oC flows q x = compartments hashable oC flows q' x') ∧
    (∀ f ∈ flows, hashable f.comp = false → compartments hashable oC flows q x = .error .typeError) ∧
    (∀ r, compartments hashable oC flows q x = .ok r → r.Nodup ∧ ∀ c, c ∈ r ↔ ∃ f ∈ flows, f.comp = c) := by
  refine ⟨rfl, ?_, ?_⟩
  · intro f hf hh
    unfold compartments
    rw [if_neg]
    rw [List.all_eq_true]
    intro h; have := h f hf; rw [hh] at this; simp at this
  · intro r h
    unfold compartments at h
    split at h
    · simp at h; subst h
      refine ⟨(oC.perm _).nodup_iff.mpr (PySet.nodup_ofList _), ?_⟩
      intro c; rw [oC.mem, PySet.mem_ofList, List.mem_map]
    · simp at h

end Spec

/-! ### examples -/

def str (s : String) : Str := s.toList

theorem asciiLaw' : Law asciiLex := { asciiLaw with nil := by decide +kernel }

abbrev Fl := Flow ℕ ℕ ℕ

/-- three flows of one flowable (by name, by CAS number), one other -/
def exFlows : List Fl :=
  [{ link := str "o/1", name := str "Methane", comp := 0, cfs := [(7, 10)] },
   { link := str "o/2", name := str "natural gas", cas := str "000074-82-8", comp := 0, cfs := [(7, 20)] },
   { link := str "o/3", name := str "methane ", cas := str "74-82-8", comp := 1, cfs := [(7, 30)] },
   { link := str "o/4", name := str "Water", comp := 1, cfs := [(7, 40), (8, 1)] }]

def leStr (a b : Str) : Bool := decide (a.map Char.toNat ≤ b.map Char.toNat)

theorem exRegular : Regular asciiLex exFlows := by
  have hP : ∀ t ∈ exFlows.flatMap (fun f => [f.name, f.link]), Plain asciiLex t := by
    have : (exFlows.flatMap fun f => [f.name, f.link]).all (fun t =>
      decide (asciiLex.san t ≠ [] ∧ isCas (asciiLex.san t) = false ∧ isCas t = false)) = true := by decide +kernel
    intro t ht; have h := List.all_eq_true.mp this t ht; rw [decide_eq_true_eq] at h; exact h
  refine ⟨?_, ?_, ?_, ?_, ?_⟩
  · intro f hf; exact hP _ (List.mem_flatMap.mpr ⟨f, hf, by simp⟩)
  · intro f hf; exact hP _ (List.mem_flatMap.mpr ⟨f, hf, by simp⟩)
  · have : exFlows.all (fun f => decide (f.cas = [] ∨ (asciiLex.san f.cas = f.cas ∧ isCas f.cas = true ∧
      (pad f.cas = some f.cas ∨ trim f.cas = f.cas)))) = true := by decide +kernel
    intro f hf; have h := List.all_eq_true.mp this f hf; rw [decide_eq_true_eq] at h; exact h
  · have : (exFlows.map fun f => asciiLex.san f.link).Pairwise (· ≠ ·) := by decide +kernel
    rwa [List.pairwise_map] at this
  · have : exFlows.all (fun f => exFlows.all fun g => decide (asciiLex.san f.link ≠ asciiLex.san g.name)) = true := by decide +kernel
    intro f hf g hg
    exact of_decide_eq_true (List.all_eq_true.mp (List.all_eq_true.mp this f hf) g hg)

theorem exInit : ∃ s, initFlowables asciiLex (PyOrd.id _) (PyOrd.id _) exFlows {} = .ok () s := by
  have : (initFlowables asciiLex (PyOrd.id _) (PyOrd.id _) exFlows {}).error? = none := by decide +kernel
  cases h : initFlowables asciiLex (PyOrd.id _) (PyOrd.id _) exFlows {} with
  | ok u s => exact ⟨s, rfl⟩
  | err e s => rw [h] at this; simp [Out.error?] at this

/-- the hypotheses of C179–C181 are met, by flows that have to be joined by name and by CAS number -/
example : Regular asciiLex exFlows ∧ NoConflict asciiLex exFlows :=
  ⟨exRegular, ((index_iff asciiLaw' (PyOrd.id _) (PyOrd.id _) exRegular).1).mp exInit⟩

example : (factors asciiLex (PyOrd.id _) (PyOrd.id _) exFlows none (some 7) (some (str "METHANE")) none).toOption.map
      (·.map Prod.snd) = some [10, 20, 30] ∧
    (factors asciiLex (PyOrd.id _) (PyOrd.id _) exFlows none (some 7) (some (str "74-82-8")) (some 1)).toOption.map
      (·.map Prod.snd) = some [30] ∧
    (factors asciiLex (PyOrd.id _) (PyOrd.id _) exFlows none (some 7) (some (str "nothing")) none).toOption.map
      (·.map Prod.snd) = some [10, 20, 30, 40] := by decide +kernel

example : (flowables asciiLex (PyOrd.id _) (PyOrd.id _) (PyOrd.id _) leStr exFlows none none none).toOption =
    some [(none, some (str "Water")), (some (str "000074-82-8"), some (str "natural gas"))] := by decide +kernel

/-- two flows of one name with different CAS numbers -/
example : (flowables asciiLex (PyOrd.id _) (PyOrd.id _) (PyOrd.id _) leStr
    ([{ link := str "o/1", name := str "x", cas := str "50-00-0", comp := 0 },
      { link := str "o/2", name := str "X", cas := str "71-43-2", comp := 0 }] : List Fl) none none none).toOption = none := by
  decide +kernel

/-- a CAS number with some but not all leading zeros, in two flows: no index -/
theorem some_zeros_raise : (initFlowables asciiLex (PyOrd.id _) (PyOrd.id _)
    ([{ link := str "o/1", name := str "x", cas := str "0050-00-0", comp := 0 },
      { link := str "o/2", name := str "y", cas := str "0050-00-0", comp := 0 }] : List Fl) {}).error? = some .termFound := by
  decide +kernel

/-- a name of spaces joins all flows without CAS number -/
theorem blank_name_joins : ((initFlowables asciiLex (PyOrd.id _) (PyOrd.id _)
    ([{ link := str "o/1", name := str " ", comp := 0 }, { link := str "o/2", name := str "x", comp := 0 },
      { link := str "o/3", name := str "y", comp := 0 }] : List Fl) {}).state.dict.map Prod.snd) = [0, 0, 0, 0, 0, 0] := by
  decide +kernel

/-- a placeholder in place of CAS numbers joins all flows that have it -/
theorem placeholder_joins : ((initFlowables asciiLex (PyOrd.id _) (PyOrd.id _)
    ([{ link := str "o/2", name := str "x", cas := str "n/a", comp := 0 },
      { link := str "o/3", name := str "y", cas := str "n/a", comp := 0 }] : List Fl) {}).state.dict.map Prod.snd) = [0, 0, 0, 0, 0] := by
  decide +kernel

/-- an empty name ends the making of the index -/
theorem empty_name_raises : (initFlowables asciiLex (PyOrd.id _) (PyOrd.id _)
    ([{ link := str "o/1", name := [], comp := 0 }] : List Fl) {}).error? = some .keyError := by
  decide +kernel

end Qim
