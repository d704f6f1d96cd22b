import Verif.Lemmas.CompartmentOps

/-!
Rearranging compartments (C182), the local file and the interactive merge (C183).
`Below H c x`: `x` is `c` or below it (Props/Compartment.lean). `Known H c s`: `s` is a name of `c` or of a compartment below it
(Lemmas/CompartmentOps.lean).
-/

set_option linter.unusedSectionVars false
set_option linter.unusedSimpArgs false

namespace Cmp

variable {S : Type} [DecidableEq S]

/-! ### C182 -/

/-- C182: `known_names` lists the names of the compartment and of all compartments below it, and no others. -/
theorem known_names_spec (N : Names S) (ord : PyOrd ℕ) (H : Heap S) : ∀ (f c : ℕ) (l : List S), knownNames N ord H f c = some l →
    ∀ s, s ∈ l ↔ Known H c s := by
  intro f
  induction f with
  | zero => intro c l h; cases h
  | succ f ih =>
    intro c l h s
    rw [knownNames] at h
    generalize hsb : sortBy (fun a b => N.le (H a).name (H b).name) (ord.f (H c).subs) = sb at h
    have hmem : ∀ x, x ∈ sb ↔ x ∈ (H c).subs := fun x => by rw [← hsb, (sortBy_perm _ _).mem_iff, ord.mem]
    cases hm : sb.mapM (fun x => knownNames N ord H f x) with
    | none => rw [hm] at h; cases h
    | some m =>
      simp only [hm, Option.map_some, Option.some.injEq] at h
      subst h
      obtain ⟨h1, h2⟩ := mapM_mem _ _ _ hm
      simp only [List.mem_append, List.mem_cons, (sortBy_perm _ _).mem_iff, List.mem_flatten]
      constructor
      · rintro (h | ⟨k, hk, hs⟩)
        · exact ⟨c, .refl _, by simpa [Node.names] using h⟩
        · obtain ⟨x, hx, hg⟩ := h2 k hk
          exact ((ih x k hg s).1 hs).up (.of_mem ((hmem x).1 hx))
      · rintro ⟨x, hx, hs⟩
        cases hx with
        | refl => exact .inl (by simpa [Node.names] using hs)
        | @step _ d _ hd hb =>
          obtain ⟨k, hk, hg⟩ := h1 d ((hmem d).2 hd)
          exact .inr ⟨k, hk, (ih d k hg s).2 ⟨x, hb, hs⟩⟩

/-- C182: it ends, in every forest. -/
theorem known_names_ends (N : Names S) (ord : PyOrd ℕ) (s : St S) (hs : Forest s) : ∀ (f c : ℕ), s.next - c < f →
    ∃ l, knownNames N ord s.H f c = some l := by
  intro f
  induction f with
  | zero => intro c h; omega
  | succ f ih =>
    intro c hf
    obtain ⟨m, hm⟩ := mapM_all (fun x => knownNames N ord s.H f x)
      (sortBy (fun a b => N.le (s.H a).name (s.H b).name) (ord.f (s.H c).subs)) fun x hx => by
        rw [(sortBy_perm _ _).mem_iff, ord.mem] at hx
        have := (hs.up c x hx).2
        exact ih x (by omega)
    exact ⟨_, by rw [knownNames, hm]; rfl⟩

/-- C182: `merge_subs`. Let `s1` and `s2` be two subcompartments of `c`, and let `c` be below neither. If `merge_subs(s1, s2)`
returns: at `c`, and at every compartment above it, the same names are known as before; `c` lists the subcompartments it listed
before, except `s1`; compartments that are not `c` and not below `s1` or `s2` are unchanged; names of compartments and elementary
flags are all unchanged. -/
theorem merge_subs_names (ord : PyOrd ℕ) (f : ℕ) (H H' : Heap S) (c s1 s2 : ℕ) (n1 n2 : S ⊕ ℕ)
    (h1 : ensureComp ord H c n1 = some s1) (h2 : ensureComp ord H c n2 = some s2) (hne : s1 ≠ s2) (hs1 : s1 ∈ (H c).subs)
    (hs2 : s2 ∈ (H c).subs) (ha1 : ¬ Below H s1 c) (ha2 : ¬ Below H s2 c) (h : mergeSubs ord f H c n1 n2 = some (.ok H')) :
    (∀ r, Below H r c → ∀ s, Known H' r s ↔ Known H r s) ∧ (∀ y, y ∈ (H' c).subs ↔ y ∈ (H c).subs ∧ y ≠ s1) ∧
    (∀ x, x ≠ c → ¬ Below H s1 x → ¬ Below H s2 x → H' x = H x) ∧
    (∀ x, (H' x).name = (H x).name ∧ (H' x).elem = (H x).elem) ∧
    (∀ s, Known H s1 s ∨ Known H s2 s ↔ Known H' s2 s) ∧ ∀ s, s ∈ (H s1).names ∨ s ∈ (H s2).names → s ∈ (H' s2).names := by
  unfold mergeSubs at h
  simp only [h1, h2, if_neg hne] at h
  split at h
  · cases h
  · cases hf : (ord.f (H s1).subs).foldlM (fun H i => mergeSub ord f H s2 i) (put H s2 ((H s2).addSyns (H s1).names)) with
    | none => rw [hf] at h; cases h
    | some H2 =>
      simp only [hf, Option.map_some, Option.some.injEq, Except.ok.injEq] at h
      have h0 : Into H (Below H s2) (Below H s1) (Known H s1) (put H s2 ((H s2).addSyns (H s1).names)) := by
        refine ⟨.putSyns _ _ _, fun x y hb => .inl ((putSyns_below H s2 _).1 hb), fun x s hs => ?_, fun x hx _ => ?_,
          fun x => ⟨(putSyns_fix H s2 _ x).1, (putSyns_fix H s2 _ x).2.1⟩⟩
        · rcases (putSyns_names _ _ _ _ _).1 hs with hs | ⟨-, hs⟩
          · exact .inl hs
          · exact .inr ⟨s1, .refl _, hs⟩
        · exact put_ne _ _ _ fun e => hx (e ▸ .refl _)
      obtain ⟨k1, k2, k3⟩ := mergeSub_loop ord f H s1 s2 _ _ _ (fun j hj => (ord.mem _ _).1 hj) h0 hf
      have hc2 : H2 c = H c := k1.frame c ha2 ha1
      rw [if_pos (by rw [hc2]; exact hs1)] at h
      subst h
      -- what is known below s2 in the end
      have hk2 : ∀ s, Known H s1 s → Known H2 s2 s := by
        rintro s ⟨x, hx, hs⟩
        cases hx with
        | refl => exact ⟨s2, .refl _, (k2 s2).1 s ((putSyns_names _ _ _ _ _).2 (.inr ⟨rfl, hs⟩))⟩
        | step hj hb => exact k3 _ ((ord.mem _ _).2 hj) s ⟨x, hb, hs⟩
      have hup : ∀ x s, Known H2 x s → Known H x s ∨ Known H s1 s := by
        rintro x s ⟨y, hy, hs⟩
        rcases k1.names y s hs with hs | hs
        · exact (k1.below _ _ hy).imp (fun h => ⟨y, h, hs⟩) fun h => ⟨y, h, hs⟩
        · exact .inr hs
      have hn2 : ¬ Below H2 s2 c := fun hb => (k1.below _ _ hb).elim ha2 ha1
      have hdrop : ∀ s, Known H2 s2 s ↔ Known (dropSub H2 c s1) s2 s := by
        intro s
        constructor
        · rintro ⟨x, hx, hs⟩; exact ⟨x, dropSub_below hx hn2, by rw [(dropSub_names _ _ _ _).1]; exact hs⟩
        · rintro ⟨x, hx, hs⟩; exact ⟨x, dropSub_below_le hx, by rw [(dropSub_names _ _ _ _).1] at hs; exact hs⟩
      have hlist : ∀ y, y ∈ (dropSub H2 c s1 c).subs ↔ y ∈ (H c).subs ∧ y ≠ s1 := by
        intro y; rw [dropSub_subs, hc2]; simp
      refine ⟨fun r hr s => ⟨?_, ?_⟩, hlist, fun x hx hb1 hb2 => ?_, fun x => ?_, fun s => ?_, fun s hs => ?_⟩
      · rintro ⟨x, hx, hs⟩
        rw [(dropSub_names _ _ _ _).1] at hs
        rcases hup r s ⟨x, dropSub_below_le hx, hs⟩ with h | h
        · exact h
        · exact h.up (hr.trans (.of_mem hs1))
      · intro hk
        obtain ⟨x, hx, hs⟩ := k1.grow.known hk
        rcases dropSub_below_or (c := c) (s1 := s1) hx with hx | ⟨hx, hx'⟩
        · exact ⟨x, hx, by rw [(dropSub_names _ _ _ _).1]; exact hs⟩
        · have : Known H s1 s := (hup s1 s ⟨x, hx', hs⟩).elim id id
          exact (((hdrop s).1 (hk2 s this)).up (.of_mem ((hlist s2).2 ⟨hs2, Ne.symm hne⟩))).up hx
      · unfold dropSub; rw [put_ne _ _ _ hx]; exact k1.frame x hb2 hb1
      · rw [(dropSub_names _ _ _ _).2.1, (dropSub_names _ _ _ _).2.2.1]; exact k1.fix x
      · rw [← hdrop]
        constructor
        · rintro (h | h)
          · exact hk2 s h
          · exact k1.grow.known h
        · intro h; exact (hup s2 s h).symm
      · rw [(dropSub_names _ _ _ _).1]
        rcases hs with hs | hs
        · exact (k2 s2).1 s ((putSyns_names _ _ _ _ _).2 (.inr ⟨rfl, hs⟩))
        · exact (k1.grow s2).1 s hs

/-- C182: in a forest: `merge_subs` of two different subcompartments with the same elementary flag returns. Then every name of
either of them denotes the second one. -/
theorem merge_subs_denotes (ord ord' : PyOrd ℕ) (f : ℕ) (s : St S) (hs : Forest s) (hf : s.next < f) (c s1 s2 : ℕ) (n1 n2 : S)
    (h1 : getSub ord s.H c n1 = some s1) (h2 : getSub ord s.H c n2 = some s2) (hne : s1 ≠ s2)
    (he : (s.H s1).elem = (s.H s2).elem) :
    ∃ H', mergeSubs ord f s.H c (.inl n1) (.inl n2) = some (.ok H') ∧
      (∀ n, n ∈ (s.H s1).names ∨ n ∈ (s.H s2).names → getSub ord' H' c n = some s2) ∧
      (∀ r, Below s.H r c → ∀ n, Known H' r n ↔ Known s.H r n) ∧ ∀ y, y ∈ (H' c).subs ↔ y ∈ (s.H c).subs ∧ y ≠ s1 := by
  obtain ⟨m1, -⟩ := getSub_mem ord _ _ _ _ h1
  obtain ⟨m2, -⟩ := getSub_mem ord _ _ _ _ h2
  have l1 := (hs.up c s1 m1).2
  have l2 := (hs.up c s2 m2).2
  have hdis : ∀ y, Below s.H s1 y → ¬ Below s.H s2 y := fun y a b => hne (branch_unique hs m1 m2 a b)
  have hok : ∃ H2, (ord.f (s.H s1).subs).foldlM (fun H i => mergeSub ord f H s2 i)
      (put s.H s2 ((s.H s2).addSyns (s.H s1).names)) = some H2 := by
    have hag : ∀ j ∈ (s.H s1).subs, ∀ x, Below s.H j x → put s.H s2 ((s.H s2).addSyns (s.H s1).names) x = s.H x :=
      fun j hj x hx => put_ne _ _ _ fun e => hdis x (.step hj hx) (e ▸ .refl _)
    refine merge_all_ok ord f (fun x => s.next - x) s2 (fun H j => mergeSub_ok ord _ f H s2 j) _ _ ?_ (fun j hj => ?_)
      fun a ha b hb hne' y hy hy' => ?_
    · exact (ord.perm _).nodup_iff.2 (hs.nodup s1)
    · rw [ord.mem] at hj
      refine ⟨(hs.treeBelow j).agree (hag j hj), by omega, fun y hy hy' => ?_⟩
      rw [putSyns_below] at hy hy'
      exact hdis y (.step hj hy) hy'
    · rw [ord.mem] at ha hb
      rw [putSyns_below] at hy hy'
      exact hne' (branch_unique hs ha hb hy hy')
  obtain ⟨H2, hH2⟩ := hok
  have hm : ∃ H', mergeSubs ord f s.H c (.inl n1) (.inl n2) = some (.ok H') := by
    unfold mergeSubs
    simp only [ensureComp, h1, h2, if_neg hne, he, ne_eq, not_true_eq_false, if_false, hH2, Option.map_some]
    exact ⟨_, rfl⟩
  obtain ⟨H', hm⟩ := hm
  obtain ⟨g1, g2, g3, -, -, g6⟩ := merge_subs_names ord f s.H H' c s1 s2 (.inl n1) (.inl n2) h1 h2 hne m1 m2
    (fun hb => by have := hb.le hs; omega) (fun hb => by have := hb.le hs; omega) hm
  refine ⟨H', hm, fun n hn => ?_, g1, g2⟩
  unfold getSub
  apply find?_unique
  · rw [ord'.mem]; exact (g2 s2).2 ⟨m2, Ne.symm hne⟩
  · simpa using g6 n hn
  · intro y hy hn'
    rw [ord'.mem] at hy
    obtain ⟨hy, hne1⟩ := (g2 y).1 hy
    by_contra hne2
    have ly := (hs.up c y hy).2
    rw [g3 y (by omega) (fun hb => hne1 (branch_unique hs hy m1 (.refl _) hb))
      (fun hb => hne2 (branch_unique hs hy m2 (.refl _) hb))] at hn'
    have hn' : n ∈ (s.H y).names := by simpa using hn'
    rcases hn with h | h
    · exact hs.sib c y s1 hy m1 hne1 n hn' h
    · exact hs.sib c y s2 hy m2 hne2 n hn' h

/-- C182: `merge_subs` refuses two compartments of which one is elementary and the other is not; it raises KeyError for a name
that is not there; merging a compartment with itself changes nothing. -/
theorem merge_subs_refused (ord : PyOrd ℕ) (f : ℕ) (H : Heap S) (c : ℕ) (n1 n2 : S ⊕ ℕ) :
    (ensureComp ord H c n1 = none ∨ ensureComp ord H c n2 = none → mergeSubs ord f H c n1 n2 = some (.error .key)) ∧
    ∀ s1 s2, ensureComp ord H c n1 = some s1 → ensureComp ord H c n2 = some s2 →
      (s1 = s2 → mergeSubs ord f H c n1 n2 = some (.ok H)) ∧
      ((H s1).elem ≠ (H s2).elem → mergeSubs ord f H c n1 n2 = some (.error .value)) := by
  constructor
  · intro h
    unfold mergeSubs
    cases h1 : ensureComp ord H c n1 with
    | none => rfl
    | some s1 =>
      rcases h with h | h
      · rw [h1] at h; cases h
      · simp only [h]
  · intro s1 s2 h1 h2
    unfold mergeSubs
    simp only [h1, h2]
    refine ⟨fun e => by rw [if_pos e], fun e => ?_⟩
    rw [if_neg (fun e' => e (by rw [e'])), if_pos e]

/-- C182: `collapse`. If it returns, the compartment `sub` of `c` is not listed any more, and the names of `c` are those it had and
all that were known below `sub`; `c` and every compartment above it know the same names as before; the other subcompartments
of `c` and all compartments not below `sub` are unchanged; any of the absorbed names is now matched by `c` itself. -/
theorem collapse_names (N : Names S) (ord ord' : PyOrd ℕ) (f : ℕ) (H H' : Heap S) (c : ℕ) (arg : S ⊕ ℕ)
    (h : collapse ord f H c arg = some (H', .ok ())) : ∃ s1, ensureComp ord H c arg = some s1 ∧ s1 ∈ (H c).subs ∧
    (H' c).name = (H c).name ∧ (∀ s, s ∈ (H' c).names ↔ s ∈ (H c).names ∨ Known H s1 s) ∧
    (∀ y, y ∈ (H' c).subs ↔ y ∈ (H c).subs ∧ y ≠ s1) ∧ (∀ x, x ≠ c → ¬ Below H s1 x → H' x = H x) ∧
    (∀ r, Below H r c → ∀ s, Known H' r s ↔ Known H r s) ∧
    ∀ s, Known H s1 s → ∀ g, crawl N ord' false H' (g + 1) c [some s] = some (some c, []) := by
  unfold collapse at h
  cases he : ensureComp ord H c arg with
  | none => rw [he] at h; cases h
  | some s1 =>
    rw [he] at h
    dsimp only at h
    cases hr : collapseRec ord f H c s1 with
    | none => rw [hr] at h; cases h
    | some H2 =>
      simp only [hr, Option.map_some, Option.some.injEq] at h
      split at h
      · rename_i hm
        simp only [Prod.mk.injEq, and_true] at h
        subst h
        obtain ⟨a1, a2, a3, a4, a5⟩ := collapseRec_spec ord _ _ _ _ _ hr
        rw [(a1 c).1] at hm
        have hbel : ∀ x y, Below H2 x y ↔ Below H x y := fun x y =>
          ⟨Below.congr fun z => (a1 z).1.symm, Below.congr fun z => (a1 z).1⟩
        have hcn : ∀ s, s ∈ (dropSub H2 c s1 c).names ↔ s ∈ (H c).names ∨ Known H s1 s := by
          intro s
          rw [(dropSub_names _ _ _ _).1]
          exact ⟨a4 c s, fun h => h.elim ((a2 c).1 s) (a5 s)⟩
        refine ⟨s1, rfl, hm, ?_, hcn, fun y => ?_, fun x hx hb => ?_, fun r hr s => ⟨?_, ?_⟩, fun s hs g => ?_⟩
        · rw [(dropSub_names _ _ _ _).2.1]; exact (a1 c).2.1
        · rw [dropSub_subs, (a1 c).1]; simp
        · unfold dropSub; rw [put_ne _ _ _ hx]; exact a3 x hx hb
        · rintro ⟨x, hx, hs⟩
          rw [(dropSub_names _ _ _ _).1] at hs
          rcases a4 x s hs with hs | hs
          · exact ⟨x, (hbel _ _).1 (dropSub_below_le hx), hs⟩
          · exact hs.up (hr.trans (.of_mem hm))
        · rintro ⟨x, hx, hs⟩
          rcases dropSub_below_or (c := c) (s1 := s1) ((hbel _ _).2 hx) with hx | ⟨hx, hx'⟩
          · exact ⟨x, hx, by rw [(dropSub_names _ _ _ _).1]; exact (a2 x).1 s hs⟩
          · exact ⟨c, hx, (hcn s).2 (.inr ⟨x, (hbel _ _).1 hx', hs⟩)⟩
        · have hin : s ∈ (dropSub H2 c s1 c).names := (hcn s).2 (.inr hs)
          rw [crawl]
          simp only [popNames, if_pos hin, Bool.false_and, Bool.false_eq_true, if_false]
          rfl
      · simp at h

/-- C182: in a forest, `collapse` of a name of a subcompartment returns. -/
theorem collapse_returns (ord : PyOrd ℕ) (f : ℕ) (s : St S) (hs : Forest s) (hf : s.next < f) (c s1 : ℕ) (n : S)
    (h1 : getSub ord s.H c n = some s1) : ∃ H', collapse ord f s.H c (.inl n) = some (H', .ok ()) := by
  obtain ⟨m1, -⟩ := getSub_mem ord _ _ _ _ h1
  obtain ⟨H2, h2⟩ := collapseRec_ok ord (fun x => s.next - x) f s.H c s1
    (fun x y _ hy => by have := (hs.up x y hy).2; omega) (by omega)
  refine ⟨dropSub H2 c s1, ?_⟩
  unfold collapse
  simp only [ensureComp, h1, h2, Option.map_some]
  rw [if_pos (by rw [((collapseRec_spec ord _ _ _ _ _ h2).1 c).1]; exact m1)]

/-- C182: `delete` removes a subcompartment exactly if it has no subcompartments; then nothing else changes, and the names that
are no longer known are its own. -/
theorem delete_spec (ord : PyOrd ℕ) (H H' : Heap S) (c : ℕ) (n : S) : delete ord H c (.inl n) = .ok H' ↔
    ∃ s1, getSub ord H c n = some s1 ∧ (H s1).subs = [] ∧
      H' = fun x => if x = c then { H c with subs := (H c).subs.filter fun y => decide (y ≠ s1) } else H x := by
  unfold delete
  simp only [ensureComp]
  cases h : getSub ord H c n with
  | none => simp
  | some s1 =>
    have hm := (getSub_mem ord _ _ _ _ h).1
    simp only [Option.some.injEq, exists_eq_left']
    by_cases hl : (H s1).subs = []
    · simp only [hl, List.length_nil, gt_iff_lt, Nat.lt_irrefl, if_false, if_pos hm, Except.ok.injEq, true_and]
      exact eq_comm
    · have : (H s1).subs.length > 0 := List.length_pos_iff.2 hl
      simp [this, hl]

/-! ### examples -/

/-- a hierarchy with two spellings of a compartment, both with subcompartments -/
def exM : St String :=
  { H := fun x => match x with
      | 0 => { name := "root", subs := [1, 2, 3] }
      | 1 => { name := "emissions", syns := ["out"], subs := [4, 5], parent := some 0 }
      | 2 => { name := "Emissions", subs := [6], parent := some 0 }
      | 3 => { name := "resources", elem := true, parent := some 0 }
      | 4 => { name := "air", elem := true, subs := [7], parent := some 1 }
      | 5 => { name := "soil", parent := some 1 }
      | 6 => { name := "to air", syns := ["air"], parent := some 2 }
      | 7 => { name := "urban", elem := true, parent := some 4 }
      | _ => { name := "" }
    next := 8 }

/-- a decidable form of `Forest`, for heaps that are empty from `next` on -/
theorem forest_of_bounded {s : St S} (he : ∀ x, s.next ≤ x → (s.H x).subs = [])
    (h : ∀ x < s.next, (s.H x).subs.Nodup ∧ ∀ y ∈ (s.H x).subs, (s.H y).parent = some x ∧ x < y ∧ y < s.next ∧
      (∀ n ∈ (s.H x).names, n ∉ (s.H y).names) ∧ ((s.H x).elem = true → (s.H y).elem = true) ∧
      ∀ z ∈ (s.H x).subs, y ≠ z → ∀ n ∈ (s.H y).names, n ∉ (s.H z).names) : Forest s := by
  have lt : ∀ x y, y ∈ (s.H x).subs → x < s.next := by
    intro x y hy
    by_contra hx
    rw [he x (by omega)] at hy; cases hy
  refine ⟨fun x y hy => ?_, fun x => ?_, fun x y hy => ?_, fun x y z hy hz hne => ?_, fun x y hy => ?_⟩
  · obtain ⟨a, b, c, -⟩ := (h x (lt x y hy)).2 y hy; exact ⟨a, b, c⟩
  · by_cases hx : x < s.next
    · exact (h x hx).1
    · rw [he x (by omega)]; exact .nil
  · exact ((h x (lt x y hy)).2 y hy).2.2.2.1
  · exact ((h x (lt x y hy)).2 y hy).2.2.2.2.2 z hz hne
  · exact ((h x (lt x y hy)).2 y hy).2.2.2.2.1

set_option synthInstance.maxSize 1000 in
set_option synthInstance.maxHeartbeats 200000 in
theorem exM_forest : Forest exM := by
  refine forest_of_bounded (fun x hx => ?_) (by decide +kernel)
  obtain ⟨y, rfl⟩ : ∃ y, x = y + 8 := ⟨x - 8, by change 8 ≤ x at hx; omega⟩
  rfl

example : getSub (PyOrd.id ℕ) exM.H 0 "out" = some 1 ∧ getSub (PyOrd.id ℕ) exM.H 0 "Emissions" = some 2 ∧
    (exM.H 1).elem = (exM.H 2).elem := by decide +kernel

set_option synthInstance.maxSize 1000 in
/-- `out` is merged into `Emissions`; its subcompartment `air` goes into `to air`, `soil` becomes a subcompartment -/
example : (mergeSubs (PyOrd.id ℕ) 20 exM.H 0 (.inl "out") (.inl "Emissions")).map (fun r => r.toOption.map fun H =>
    ((H 0).subs, (H 2).names, (H 2).subs, (H 6).names, (H 6).subs)) =
    some (some ([2, 3], ["Emissions", "emissions", "out"], [6, 5], ["to air", "air"], [7])) := by decide +kernel

example : (knownNames exN (PyOrd.id ℕ) exM.H 20 0) =
    some ["root", "Emissions", "to air", "air", "emissions", "out", "air", "urban", "soil", "resources"] := by decide +kernel

example : (collapse (PyOrd.id ℕ) 20 exM.H 0 (.inl "emissions")).map (fun r => ((r.1 0).subs, (r.1 0).names, r.2.toOption)) =
    some ([2, 3], ["root", "emissions", "out", "air", "urban", "soil"], some ()) := by decide +kernel

example : (delete (PyOrd.id ℕ) exM.H 0 (.inl "resources")).toOption.map (fun H => (H 0).subs) = some [1, 2] ∧
    (delete (PyOrd.id ℕ) exM.H 0 (.inl "out")).toOption.isNone = true := by decide +kernel

/-- C182 fails for the elementary flag: `merge_subs` compares the flags of the two compartments only. What is below `air` was
elementary; after the merge the name `air` denotes a compartment that is not. -/
theorem merge_changes_status : ∃ (s : St String) (H' : Heap String), Forest s ∧
    mergeSubs (PyOrd.id ℕ) 20 s.H 0 (.inl "out") (.inl "Emissions") = some (.ok H') ∧
    (crawl exN (PyOrd.id ℕ) false s.H 20 0 [some "emissions", some "air"]).map Prod.fst = some (some 4) ∧ (s.H 4).elem = true ∧
    (crawl exN (PyOrd.id ℕ) false H' 20 0 [some "emissions", some "air"]).map Prod.fst = some (some 6) ∧ (H' 6).elem = false :=
  ⟨exM, _, exM_forest, rfl, by decide +kernel, by decide +kernel, by decide +kernel, by decide +kernel⟩

end Cmp
