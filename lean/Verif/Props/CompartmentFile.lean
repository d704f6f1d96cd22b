import Verif.Props.CompartmentOps

/-!
The local file of compartments, and the interactive merge (C183).
-/

set_option linter.unusedSectionVars false
set_option linter.unusedSimpArgs false

namespace Cmp

variable {S : Type} [DecidableEq S]

/-- one of the two steps of `_load_compartments`: if `root` is not above `lcl`, and `lcl` is not below its own subcompartments -/
theorem loadBranch_known (ord : PyOrd ℕ) (f : ℕ) (H H' : Heap S) (lcl root : ℕ) (n : S) (hr : ¬ Below H root lcl)
    (ha : ∀ b ∈ (H lcl).subs, ¬ Below H b lcl) (h : loadBranch ord f H lcl root n = some H') :
    (∀ s, Known H' root s ↔ Known H root s ∨ ∃ b, getSub ord H lcl n = some b ∧ Known H b s) ∧
    (∀ x, x ≠ lcl → ¬ Below H root x → (∀ b, getSub ord H lcl n = some b → ¬ Below H b x) → H' x = H x) ∧
    (∀ x y, Below H' x y → Below H x y ∨ ∃ b, getSub ord H lcl n = some b ∧ Below H b y) ∧
    H' lcl = { H lcl with subs := (H lcl).subs.filter fun x => decide (getSub ord H lcl n ≠ some x) } := by
  unfold loadBranch at h
  cases hg : getSub ord H lcl n with
  | none =>
    simp only [hg, Option.some.injEq] at h
    subst h
    simp
  | some b =>
    have hb := (getSub_mem ord _ _ _ _ hg).1
    simp only [hg] at h
    unfold uproot at h
    cases hm : mergeSub ord f H root b with
    | none => rw [hm] at h; cases h
    | some H2 =>
      simp only [hm, Option.map_some, Option.some.injEq] at h
      obtain ⟨k1, k2⟩ := mergeSub_into ord f H H2 root b hm
      have hH' : H' = dropSub H2 lcl b := h.symm
      subst hH'
      have hnr : ¬ Below H2 root lcl := fun hx => (k1.below _ _ hx).elim hr (ha b hb)
      have hl : H2 lcl = H lcl := k1.frame lcl hr (ha b hb)
      refine ⟨fun s => ⟨?_, ?_⟩, fun x hx h1 h2 => ?_, fun x y hxy => ?_, ?_⟩
      · rintro ⟨x, hx, hs⟩
        rw [(dropSub_names _ _ _ _).1] at hs
        rcases k1.names x s hs with hs | hs
        · rcases k1.below _ _ (dropSub_below_le hx) with h | h
          · exact .inl ⟨x, h, hs⟩
          · exact .inr ⟨b, rfl, x, h, hs⟩
        · exact .inr ⟨b, rfl, hs⟩
      · intro hk
        have : Known H2 root s := by
          rcases hk with hk | ⟨b', e, hk⟩
          · exact k1.grow.known hk
          · cases e; exact k2 s hk
        obtain ⟨x, hx, hs⟩ := this
        exact ⟨x, dropSub_below hx hnr, by rw [(dropSub_names _ _ _ _).1]; exact hs⟩
      · unfold dropSub; rw [put_ne _ _ _ hx]; exact k1.frame x h1 (h2 b rfl)
      · rcases k1.below _ _ (dropSub_below_le hxy) with h | h
        · exact .inl h
        · exact .inr ⟨b, rfl, h⟩
      · unfold dropSub; rw [put_self, hl]
        have e : ((H lcl).subs.filter fun x => decide (x ≠ b)) = (H lcl).subs.filter fun x => decide (some b ≠ some x) := by
          apply List.filter_congr
          intro x _
          by_cases e : x = b
          · simp [e]
          · simp [e, Ne.symm e]
        rw [e]

theorem loadBranch_ok (ord : PyOrd ℕ) (f : ℕ) (H : Heap S) (rank : ℕ → ℕ) (lcl root : ℕ) (n : S)
    (ht : ∀ b ∈ (H lcl).subs, n ∈ (H b).names → TreeBelow H rank b ∧ rank b < f ∧ ∀ y, Below H b y → ¬ Below H root y) :
    ∃ H', loadBranch ord f H lcl root n = some H' := by
  unfold loadBranch
  cases hg : getSub ord H lcl n with
  | none => exact ⟨H, rfl⟩
  | some b =>
    obtain ⟨hb, hn⟩ := getSub_mem ord _ _ _ _ hg
    obtain ⟨h1, h2, h3⟩ := ht b hb hn
    obtain ⟨H', h'⟩ := mergeSub_ok ord rank f H root b h1 h2 h3
    exact ⟨_, by dsimp only [uproot]; rw [h']; rfl⟩

/-- C183: reading a file makes new compartments only: all compartments that were there are unchanged. -/
theorem from_json_frame (N : Names S) (ord : PyOrd ℕ) (f : ℕ) (s : St S) (j : J S) (c : ℕ) (t : St S)
    (h : fromJson N ord f s j = some (c, t)) (x : ℕ) (hx : x < s.next) : t.H x = s.H x :=
  (fromJson_new N ord f s j c t h).2.2.1 x (.inl hx)

/-- C183: Loading a local file. If the present hierarchy is a forest, and still is one together with the hierarchy `lcl` read from the
file: loading returns, and afterwards the names known at the root are those known before, those of the root in the file, and all
names of and below the subcompartments of the file's root that are called 'Intermediate Flows' or 'Elementary Flows'; nothing
else of the file. Nothing that was known is lost. -/
theorem load_local_names (N : Names S) (ord : PyOrd ℕ) (f : ℕ) (inter elem : S) (s : St S) (hs : Forest s) (root : ℕ)
    (hr : root < s.next) (j : J S) (lcl : ℕ) (t : St S) (hj : fromJson N ord f s j = some (lcl, t)) (ht : Forest t)
    (hf : t.next < f) : ∃ u, loadLocal N ord f inter elem s root j = some (lcl, u) ∧
    ∀ n, Known u.H root n ↔ Known s.H root n ∨ n ∈ (t.H lcl).names ∨
      ∃ b ∈ (t.H lcl).subs, (inter ∈ (t.H b).names ∨ elem ∈ (t.H b).names) ∧ Known t.H b n := by
  obtain ⟨rfl, hlt, hfr, hcl⟩ := fromJson_new N ord f s j lcl t hj
  -- what is below the root is old, what is below the local root is new
  have hold : ∀ x, x < s.next → ∀ y, Below t.H x y → y < s.next := by
    intro x hx y hb
    induction hb with
    | refl => exact hx
    | @step a b y hm _ ih =>
      rw [hfr a (.inl hx)] at hm
      exact ih (hs.up a b hm).2.2
  have hnew : ∀ x, s.next ≤ x → x < t.next → ∀ y, Below t.H x y → s.next ≤ y := fun x h1 h2 y hb => (hcl.below ⟨h1, h2⟩ hb).1
  have hsubs : ∀ b ∈ (t.H s.next).subs, s.next < b ∧ b < t.next := fun b hb => (ht.up _ b hb).2
  have hknown : ∀ n, Known t.H root n ↔ Known s.H root n := by
    intro n
    have e : ∀ x, Below s.H root x → t.H x = s.H x := fun x hb => hfr x (.inl (hb.lt_next hs hr))
    have hb := Below.agree e
    constructor
    · rintro ⟨x, hx, h⟩; have hx' := (hb x).1 hx; exact ⟨x, hx', by rw [← e x hx']; exact h⟩
    · rintro ⟨x, hx, h⟩; exact ⟨x, (hb x).2 hx, by rw [e x hx]; exact h⟩
  -- after the names of the root are added
  generalize hH1 : put t.H root ((t.H root).addSyns (t.H s.next).names) = H1
  have hb1 : ∀ x y, Below H1 x y ↔ Below t.H x y := fun x y => by rw [← hH1]; exact putSyns_below _ _ _
  have hs1 : ∀ x, (H1 x).subs = (t.H x).subs := fun x => by rw [← hH1]; exact putSyns_subs _ _ _ _
  have hne1 : ∀ x, s.next ≤ x → H1 x = t.H x := fun x hx => by rw [← hH1]; exact put_ne _ _ _ (by omega)
  have hk1 : ∀ n, Known H1 root n ↔ Known t.H root n ∨ n ∈ (t.H s.next).names := by
    intro n
    constructor
    · rintro ⟨x, hx, h⟩
      rw [← hH1] at h
      rcases (putSyns_names _ _ _ _ _).1 h with h | ⟨-, h⟩
      · exact .inl ⟨x, (hb1 _ _).1 hx, h⟩
      · exact .inr h
    · rintro (⟨x, hx, h⟩ | h)
      · exact ⟨x, (hb1 _ _).2 hx, by rw [← hH1]; exact (putSyns_names _ _ _ _ _).2 (.inl h)⟩
      · exact ⟨root, .refl _, by rw [← hH1]; exact (putSyns_names _ _ _ _ _).2 (.inr ⟨rfl, h⟩)⟩
  have hkb1 : ∀ b ∈ (t.H s.next).subs, ∀ n, Known H1 b n ↔ Known t.H b n := by
    intro b hb n
    have := hsubs b hb
    have e : ∀ x, Below t.H b x → H1 x = t.H x := fun x hx => hne1 x (hnew b (by omega) this.2 x hx)
    constructor
    · rintro ⟨x, hx, h⟩; have hx' := (hb1 _ _).1 hx; exact ⟨x, hx', by rw [← e x hx']; exact h⟩
    · rintro ⟨x, hx, h⟩; exact ⟨x, (hb1 _ _).2 hx, by rw [e x hx]; exact h⟩
  have hr1 : ¬ Below H1 root s.next := fun hb => by have := hold root hr _ ((hb1 _ _).1 hb); omega
  have ha1 : ∀ b ∈ (H1 s.next).subs, ¬ Below H1 b s.next := by
    intro b hb hx
    rw [hs1] at hb
    have := ((hb1 _ _).1 hx).le ht
    have := hsubs b hb
    omega
  have htb1 : ∀ b ∈ (t.H s.next).subs, TreeBelow H1 (fun x => t.next - x) b := fun b hb =>
    (ht.treeBelow b).agree fun x hx => hne1 x (hnew b (by have := hsubs b hb; omega) (hsubs b hb).2 x hx)
  have hdr1 : ∀ b ∈ (t.H s.next).subs, ∀ y, Below H1 b y → ¬ Below H1 root y := by
    intro b hb y h1 h2
    have := hold root hr _ ((hb1 _ _).1 h2)
    have := hnew b (by have := hsubs b hb; omega) (hsubs b hb).2 y ((hb1 _ _).1 h1)
    omega
  obtain ⟨H2, h2⟩ := loadBranch_ok ord f H1 (fun x => t.next - x) s.next root inter fun b hb _ => by
    rw [hs1] at hb
    exact ⟨htb1 b hb, by omega, hdr1 b hb⟩
  obtain ⟨c1, c2, c3, c4⟩ := loadBranch_known ord f H1 H2 s.next root inter hr1 ha1 h2
  -- the other subcompartments of the file are as they were
  have hrest : ∀ b ∈ (t.H s.next).subs, getSub ord H1 s.next inter ≠ some b → ∀ x, Below t.H b x → H2 x = H1 x := by
    intro b hb hnb x hx
    have hxs := hnew b (by have := hsubs b hb; omega) (hsubs b hb).2 x hx
    refine c2 x ?_ (fun h => hdr1 b hb x ((hb1 _ _).2 hx) h) (fun b' hg h => ?_)
    · have := hx.le ht; have := hsubs b hb; omega
    · have hb' := (getSub_mem ord _ _ _ _ hg).1
      rw [hs1] at hb'
      exact hnb (by rw [hg, branch_unique ht hb' hb ((hb1 _ _).1 h) hx])
  have hsub2 : ∀ b, b ∈ (H2 s.next).subs ↔ b ∈ (t.H s.next).subs ∧ getSub ord H1 s.next inter ≠ some b := by
    intro b; rw [c4]; simp [hs1]
  have hag2 : ∀ b ∈ (H2 s.next).subs, ∀ x, Below H1 b x → H2 x = H1 x := fun b hb x hx =>
    hrest b ((hsub2 b).1 hb).1 ((hsub2 b).1 hb).2 x ((hb1 _ _).1 hx)
  have hr2 : ¬ Below H2 root s.next := by
    intro hb
    rcases c3 _ _ hb with h | ⟨b, hg, h⟩
    · exact hr1 h
    · exact ha1 b (getSub_mem ord _ _ _ _ hg).1 h
  have ha2 : ∀ b ∈ (H2 s.next).subs, ¬ Below H2 b s.next := by
    intro b hb hx
    rw [Below.agree (hag2 b hb)] at hx
    exact ha1 b (by rw [hs1]; exact ((hsub2 b).1 hb).1) hx
  have hdr2 : ∀ b ∈ (H2 s.next).subs, ∀ y, Below H2 b y → ¬ Below H2 root y := by
    intro b hb y h1 h3
    rw [Below.agree (hag2 b hb)] at h1
    obtain ⟨hb', hnb⟩ := (hsub2 b).1 hb
    rcases c3 _ _ h3 with h | ⟨b', hg, h⟩
    · exact hdr1 b hb' y h1 h
    · have hb'' := (getSub_mem ord _ _ _ _ hg).1
      rw [hs1] at hb''
      exact hnb (by rw [hg, branch_unique ht hb'' hb' ((hb1 _ _).1 h) ((hb1 _ _).1 h1)])
  obtain ⟨H3, h3⟩ := loadBranch_ok ord f H2 (fun x => t.next - x) s.next root elem fun b hb _ =>
    ⟨(htb1 b ((hsub2 b).1 hb).1).agree (hag2 b hb), by omega, hdr2 b hb⟩
  obtain ⟨d1, -, -, -⟩ := loadBranch_known ord f H2 H3 s.next root elem hr2 ha2 h3
  refine ⟨{ t with H := H3 }, ?_, fun n => ?_⟩
  · unfold loadLocal
    simp only [hj, hH1, h2, h3, Option.map_some]
  · dsimp only
    rw [d1, c1, hk1, hknown]
    -- the branch that is found has the name, and any branch with the name is found
    have hfind1 : ∀ b, getSub ord H1 s.next inter = some b ↔ b ∈ (t.H s.next).subs ∧ inter ∈ (t.H b).names := by
      intro b
      constructor
      · intro hg
        obtain ⟨h1, h2⟩ := getSub_mem ord _ _ _ _ hg
        rw [hs1] at h1
        rw [hne1 b (by have := hsubs b h1; omega)] at h2
        exact ⟨h1, h2⟩
      · rintro ⟨h1, h2⟩
        unfold getSub
        apply find?_unique
        · rw [ord.mem, hs1]; exact h1
        · rw [hne1 b (by have := hsubs b h1; omega)]; simpa using h2
        · intro x hx hn
          rw [ord.mem, hs1] at hx
          rw [hne1 x (by have := hsubs x hx; omega)] at hn
          by_contra hne
          exact ht.sib _ x b hx h1 hne inter (by simpa using hn) h2
    have hH2 : ∀ b ∈ (H2 s.next).subs, H2 b = t.H b := fun b hb => by
      rw [hag2 b hb b (.refl _), hne1 b (by have := hsubs b ((hsub2 b).1 hb).1; omega)]
    have hk2 : ∀ b ∈ (H2 s.next).subs, Known H2 b n ↔ Known t.H b n := by
      intro b hb
      rw [← hkb1 b ((hsub2 b).1 hb).1]
      constructor
      · rintro ⟨x, hx, h⟩
        have hx' := (Below.agree (hag2 b hb) x).1 hx
        exact ⟨x, hx', by rw [← hag2 b hb x hx']; exact h⟩
      · rintro ⟨x, hx, h⟩
        exact ⟨x, (Below.agree (hag2 b hb) x).2 hx, by rw [hag2 b hb x hx]; exact h⟩
    constructor
    · rintro ((((h | h) | ⟨b, hg, h⟩)) | ⟨b, hg, h⟩)
      · exact .inl h
      · exact .inr (.inl h)
      · have := (hfind1 b).1 hg
        exact .inr (.inr ⟨b, this.1, .inl this.2, (hkb1 b this.1 n).1 h⟩)
      · obtain ⟨g1, g2⟩ := getSub_mem ord _ _ _ _ hg
        rw [hH2 b g1] at g2
        exact .inr (.inr ⟨b, ((hsub2 b).1 g1).1, .inr g2, (hk2 b g1).1 h⟩)
    · rintro (h | h | ⟨b, hb, hn, h⟩)
      · exact .inl (.inl (.inl h))
      · exact .inl (.inl (.inr h))
      · by_cases hi : inter ∈ (t.H b).names
        · exact .inl (.inr ⟨b, (hfind1 b).2 ⟨hb, hi⟩, (hkb1 b hb n).2 h⟩)
        · have hn := hn.resolve_left hi
          have hb2 : b ∈ (H2 s.next).subs := (hsub2 b).2 ⟨hb, fun hg => hi ((hfind1 b).1 hg).2⟩
          refine .inr ⟨b, ?_, (hk2 b hb2).2 h⟩
          unfold getSub
          apply find?_unique
          · rw [ord.mem]; exact hb2
          · rw [hH2 b hb2]; simpa using hn
          · intro x hx hnx
            rw [ord.mem] at hx
            rw [hH2 x hx] at hnx
            by_contra hne
            exact ht.sib _ x b ((hsub2 x).1 hx).1 hb hne elem (by simpa using hnx) hn

/-! ### the interactive merge -/

theorem crawl_below' (N : Names S) (ord : PyOrd ℕ) (check : Bool) (H : Heap S) : ∀ (f c : ℕ) (l : List (Option S)) (d : ℕ)
    (l' : List (Option S)), crawl N ord check H f c l = some (some d, l') → Below H c d := by
  intro f
  induction f with
  | zero => intro c l d l' h; cases h
  | succ f ih =>
    intro c l d l' h
    have loop : ∀ (ss : List ℕ) (l : List (Option S)), crawlSubs (fun s l => crawl N ord check H f s l) ss l = some (some d, l') →
        ∃ x ∈ ss, Below H x d := by
      intro ss
      induction ss with
      | nil => intro l h; simp [crawlSubs] at h
      | cons a ss ihs =>
        intro l h
        rw [crawlSubs] at h
        split at h
        · cases h
        · rename_i n l2 hg
          simp only [Option.some.injEq, Prod.mk.injEq] at h
          obtain ⟨rfl, rfl⟩ := h
          exact ⟨a, by simp, ih _ _ _ _ hg⟩
        · obtain ⟨x, hx, hb⟩ := ihs _ h
          exact ⟨x, by simp [hx], hb⟩
    rw [crawl] at h
    split at h
    · simp only [Option.some.injEq, Prod.mk.injEq] at h
      rw [h.1]; exact .refl _
    · split at h
      · simp only [Option.some.injEq, Prod.mk.injEq] at h
        rw [h.1]; exact .refl _
      · obtain ⟨x, hx, hb⟩ := loop _ _ h
        rw [ord.mem] at hx
        exact .step hx hb

theorem mergeComp_adds {B : ℕ → Prop} {K : S → Prop} {lo : ℕ} (N : Names S) (ord : PyOrd ℕ) (f : ℕ)
    (pick : St S → ℕ → S → Pick S) : ∀ (g : ℕ) (p : List S) (s : St S) (c : ℕ) (r : Except Err ℕ) (t : St S),
    (∀ x, B x → x < s.next) → lo ≤ s.next → Cl (Rg B lo s.next) K s.H → Rg B lo s.next c → (∀ n ∈ p, K n) →
    mergeComp N ord f pick g s c p = some (r, t) → Adds B K lo s t := by
  intro g
  induction g with
  | zero => intro p s c r t _ _ _ _ _ h; cases h
  | succ g ih =>
    intro p s c r t hB hlo hcl hc hK h
    cases p with
    | nil =>
      simp only [mergeComp, Option.some.injEq, Prod.mk.injEq] at h
      obtain ⟨-, rfl⟩ := h
      exact .refl hcl
    | cons n p =>
      have hadd : ∀ q : Option (ℕ × St S), q = addSubs N ord f s c (n :: p) →
          (q.map fun r => ((.ok r.1 : Except Err ℕ), r.2)) = some (r, t) → Adds B K lo s t := by
        intro q hq he
        cases q with
        | none => cases he
        | some q =>
          simp only [Option.map_some, Option.some.injEq, Prod.mk.injEq] at he
          obtain ⟨-, rfl⟩ := he
          exact (addSubs_adds N ord f (n :: p) s c q.1 q.2 hB hlo hcl hc hK hq.symm).1
      rw [mergeComp] at h
      split at h
      · cases h
      · rename_i d l' hcr
        exact ih p s d r t hB hlo hcl (hcl.below hc (crawl_below' N ord false s.H f c _ d l' hcr))
          (fun m hm => hK m (by simp [hm])) h
      · split at h
        · exact hadd _ rfl h
        · split at h
          · have a := putSyns_adds (B := B) (K := K) (lo := lo) s c [n] hcl hc fun m hm => hK m (by simp at hm; simp [hm])
            exact a.trans (ih p _ c r t hB hlo a.cl hc (fun m hm => hK m (by simp [hm])) h)
          · exact hadd _ rfl h
          · simp only [Option.some.injEq, Prod.mk.injEq] at h
            obtain ⟨-, rfl⟩ := h
            exact .refl hcl
          · split at h
            · simp only [Option.some.injEq, Prod.mk.injEq] at h
              obtain ⟨-, rfl⟩ := h
              exact .refl hcl
            · rename_i d hg
              exact ih (n :: p) s d r t hB hlo hcl (hcl.sub c d hc (getSub_mem ord _ _ _ _ hg).1) hK h

/-- C183: whatever the user answers, and whether or not `_merge_compartment` raises: nothing that was known at the root is lost, and
nothing becomes known but the names that were asked for. -/
theorem merge_compartment_names (N : Names S) (ord : PyOrd ℕ) (f g : ℕ) (pick : St S → ℕ → S → Pick S) (s t : St S) (root : ℕ)
    (hr : ∀ x, Below s.H root x → x < s.next) (p : List S) (r : Except Err ℕ)
    (h : mergeComp N ord f pick g s root p = some (r, t)) :
    (∀ n, Known s.H root n → Known t.H root n) ∧ (∀ n, Known t.H root n → Known s.H root n ∨ n ∈ p) ∧
    ∀ x, x < s.next → ¬ Below s.H root x → t.H x = s.H x := by
  have hcl : Cl (Rg (Below s.H root) s.next s.next) (fun n => Known s.H root n ∨ n ∈ p) s.H := by
    have hin : ∀ x, Rg (Below s.H root) s.next s.next x → Below s.H root x := by
      rintro x (h | ⟨h1, h2⟩)
      · exact h
      · omega
    exact ⟨fun x y hx hy => .inl ((hin x hx).trans (.of_mem hy)), fun x n hx hn => .inl ⟨x, hin x hx, hn⟩⟩
  have a := mergeComp_adds (B := Below s.H root) (K := fun n => Known s.H root n ∨ n ∈ p) (lo := s.next) N ord f pick g p s root r t
    hr (le_refl _) hcl (.inl (.refl _)) (fun n hn => .inr hn) h
  refine ⟨?_, fun n hn => a.cl.known (.inl (.refl _)) hn, fun x hx hnb => a.frame x ?_⟩
  · rintro n ⟨x, hx, hn⟩
    obtain ⟨h1, h2⟩ := a.below hr (fun x y hx hy => hx.trans (.of_mem hy)) (.refl _) hx
    exact ⟨x, h1, (a.grow x (hr x h2)).1 n hn⟩
  · rintro (h | ⟨h1, -⟩)
    · exact hnb h
    · omega

/-- C183: the interactive `find_matching`, for a name that is not in the cache. If it returns a compartment, then asking again without
interaction gives that compartment; it is in the cache; and if the hierarchy changed, the new hierarchy was saved. Without
a writeable file nothing changes. In all cases no known name is lost, and only names that were asked for become known. -/
theorem find_interact_spec {Key : Type} [DecidableEq Key] (N : Names S) (key : List S → Key) (ord : PyOrd ℕ) (f : ℕ)
    (pick : St S → ℕ → S → Pick S) (l l' : LMgr S Key) (name : List S) (r : Except Err ℕ)
    (hr : ∀ x, Below l.m.st.H l.m.root x → x < l.m.st.next) (hc : l.m.cache.get? (key name) = none)
    (h : findInteract N key ord f pick l name = some (r, l')) :
    l'.m.root = l.m.root ∧
    (∀ c, r = .ok c → (crawl N ord false l'.m.st.H f l.m.root (name.map some)).map Prod.fst = some (some c) ∧
      l'.m.cache = l.m.cache.set (key name) c ∧
      (l'.m.st = l.m.st ∧ l'.saved = l.saved ∨ l.writeable = true ∧ l'.saved = serialize N ord l'.m.st.H f l.m.root)) ∧
    ((∀ c, r ≠ .ok c) → l'.m.cache = l.m.cache ∧ l'.saved = l.saved) ∧
    (l.writeable = false → l'.m.st = l.m.st) ∧
    (∀ n, Known l.m.st.H l.m.root n → Known l'.m.st.H l.m.root n) ∧
    (∀ n, Known l'.m.st.H l.m.root n → Known l.m.st.H l.m.root n ∨ n ∈ name) := by
  unfold findInteract at h
  simp only [hc] at h
  split at h
  · cases h
  · rename_i c lr hcr
    simp only [Option.some.injEq, Prod.mk.injEq] at h
    obtain ⟨rfl, rfl⟩ := h
    refine ⟨rfl, fun c' e => ?_, fun hn => absurd rfl (hn c), fun _ => rfl, fun _ h => h, fun _ h => .inl h⟩
    cases e
    exact ⟨by simp [hcr], rfl, .inl ⟨rfl, rfl⟩⟩
  · split at h
    · rename_i hw
      split at h
      · cases h
      · rename_i e t hm
        simp only [Option.some.injEq, Prod.mk.injEq] at h
        obtain ⟨rfl, rfl⟩ := h
        obtain ⟨a1, a2, -⟩ := merge_compartment_names N ord f f pick _ t _ hr name _ hm
        refine ⟨rfl, fun c' e' => (by cases e'), fun _ => ⟨rfl, rfl⟩, fun hw' => ?_, a1, a2⟩
        rw [hw] at hw'; cases hw'
      · rename_i c t hm
        obtain ⟨a1, a2, -⟩ := merge_compartment_names N ord f f pick _ t _ hr name _ hm
        have hwf : l.writeable = false → t = l.m.st := fun hw' => by rw [hw] at hw'; cases hw'
        split at h
        · cases h
        · rename_i q lr hcr
          split at h
          · rename_i hq
            subst hq
            cases hser : serialize N ord t.H f l.m.root with
            | none => rw [hser] at h; cases h
            | some j =>
              simp only [hser, Option.map_some, Option.some.injEq, Prod.mk.injEq] at h
              obtain ⟨rfl, rfl⟩ := h
              refine ⟨rfl, fun c' e => ?_, fun hn => absurd rfl (hn c), hwf, a1, a2⟩
              cases e
              exact ⟨by simp [hcr], rfl, .inr ⟨hw, hser.symm⟩⟩
          · simp only [Option.some.injEq, Prod.mk.injEq] at h
            obtain ⟨rfl, rfl⟩ := h
            exact ⟨rfl, fun c' e => (by cases e), fun _ => ⟨rfl, rfl⟩, hwf, a1, a2⟩
    · rename_i hw
      simp only [Option.some.injEq, Prod.mk.injEq] at h
      obtain ⟨rfl, rfl⟩ := h
      exact ⟨rfl, fun c' e => (by cases e), fun _ => ⟨rfl, rfl⟩, fun _ => rfl, fun _ h => h, fun _ h => .inl h⟩

/-! ### examples -/

/-- a local file: a new intermediate compartment, a new subcompartment of water, and a branch of another kind -/
def exFile : J String :=
  .node "all flows" [] false
    [.node "Intermediate Flows" ["products"] false [.node "parts" [] false []],
     .node "Elementary Flows" [] true [.node "water" ["Wasser"] true [.node "lake" [] true []]],
     .node "categories" [] false [.node "steel" [] false []]]

/-- the state after reading the file -/
def exRead : St String := ((fromJson exN (PyOrd.id ℕ) 20 exSt exFile).map Prod.snd).getD exSt

theorem exRead_eq : fromJson exN (PyOrd.id ℕ) 20 exSt exFile = some (6, exRead) := by
  have h : (fromJson exN (PyOrd.id ℕ) 20 exSt exFile).map Prod.fst = some 6 := by decide +kernel
  unfold exRead
  cases hr : fromJson exN (PyOrd.id ℕ) 20 exSt exFile with
  | none => rw [hr] at h; cases h
  | some r =>
    rw [hr] at h
    simp only [Option.map_some, Option.some.injEq] at h
    simp [← h]

set_option synthInstance.maxSize 1000 in
set_option synthInstance.maxHeartbeats 200000 in
theorem exRead_forest : Forest exRead := by
  refine forest_of_bounded (fun x hx => ?_) (by decide +kernel)
  have hn : exRead.next = 14 := by decide +kernel
  rw [(fromJson_new _ _ _ _ _ _ _ exRead_eq).2.2.1 x (.inr hx)]
  obtain ⟨y, rfl⟩ : ∃ y, x = y + 6 := ⟨x - 6, by omega⟩
  rfl

/-- the hypotheses of `load_local_names`, and the result: `steel` is left out -/
example : Forest exSt ∧ Forest exRead ∧ 0 < exSt.next ∧ exRead.next < 20 ∧
    (loadLocal exN (PyOrd.id ℕ) 20 "Intermediate Flows" "Elementary Flows" exSt 0 exFile).bind (fun r =>
      knownNames exN (PyOrd.id ℕ) r.2.H 20 0) =
    some ["root", "all flows", "Elementary Flows", "elementary", "air", "water", "Wasser", "lake", "urban",
      "Intermediate Flows", "products", "parts"] :=
  ⟨exSt_tree.toForest, exRead_forest, by decide, by decide +kernel, by decide +kernel⟩

/-- a manager of the example hierarchy with a writeable local file -/
def exLM : LMgr String String := { m := { st := exSt, root := 0 }, writeable := true }

/-- a user who merges every missing name into the compartment at hand -/
def merger : St String → ℕ → String → Pick String := fun _ _ _ => .merge

example : (∀ x, Below exLM.m.st.H exLM.m.root x → x < exLM.m.st.next) ∧
    (findInteract exN (fun l => "; ".intercalate l) (PyOrd.id ℕ) 20 merger exLM ["Intermediate Flows", "parts"]).map
      (fun r => (r.1.toOption, (r.2.m.st.H 2).subs, r.2.saved.isSome)) = some (some 6, [6], true) ∧
    (findInteract exN (fun l => "; ".intercalate l) (PyOrd.id ℕ) 20 merger exLM ["water", "sea"]).map
      (fun r => (r.1.toOption, (r.2.m.st.H 4).names, r.2.saved.isSome)) = some (some 4, ["water", "sea"], true) :=
  ⟨fun _ hb => hb.lt_next exSt_tree.toForest (by decide), by decide +kernel, by decide +kernel⟩

/-- C183 fails in part: a name with the same element twice. The first is added, then the call raises MissingCompartment ("Merge
failed"): the hierarchy has changed, and is not saved. -/
theorem merge_failed_changes : ∃ l', findInteract exN (fun l => "; ".intercalate l) (PyOrd.id ℕ) 20 merger exLM
      ["Intermediate Flows", "parts", "parts"] = some (.error .missing, l') ∧
    ¬ Known exLM.m.st.H 0 "parts" ∧ Known l'.m.st.H 0 "parts" ∧ l'.saved.isSome = false := by
  refine ⟨_, rfl, ?_, ?_, by decide +kernel⟩
  · rintro ⟨x, hx, hn⟩
    have : x < 6 := hx.lt_next exSt_tree.toForest (by decide)
    clear hx
    revert hn; revert x
    decide +kernel
  · exact ⟨6, .step (s := 2) (by decide +kernel) (.of_mem (by decide +kernel)), by decide +kernel⟩

end Cmp
