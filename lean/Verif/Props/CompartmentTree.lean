import Verif.Props.Compartment

/-!
Compartment trees made by adding compartments: C36, C37.
-/

set_option linter.unusedSectionVars false
set_option linter.unusedSimpArgs false

namespace Cmp

variable {S : Type} [DecidableEq S]

/-- two compartments have no name in common -/
def Apart (H : Heap S) (x y : ℕ) : Prop := ∀ n ∈ (H x).names, n ∉ (H y).names

/-- A forest of compartments: a compartment that is listed has the one that lists it as its parent; no compartment shares a
name with the one that lists it or with a sibling; what is below an elementary compartment is elementary. -/
structure Forest (s : St S) : Prop where
  up : ∀ x y, y ∈ (s.H x).subs → (s.H y).parent = some x ∧ x < y ∧ y < s.next
  nodup : ∀ x, (s.H x).subs.Nodup
  par : ∀ x y, y ∈ (s.H x).subs → Apart s.H x y
  sib : ∀ x y z, y ∈ (s.H x).subs → z ∈ (s.H x).subs → y ≠ z → Apart s.H y z
  mono : ∀ x y, y ∈ (s.H x).subs → (s.H x).elem = true → (s.H y).elem = true

/-- Also, a compartment that has a parent is listed there. -/
structure Tree (s : St S) : Prop extends Forest s where
  down : ∀ x y, y < s.next → (s.H y).parent = some x → y ∈ (s.H x).subs

theorem find?_unique {α : Type} (l : List α) (p : α → Bool) (a : α) (ha : a ∈ l) (hp : p a = true)
    (hu : ∀ b ∈ l, p b = true → b = a) : l.find? p = some a := by
  cases h : l.find? p with
  | none => exact absurd hp (by simpa using List.find?_eq_none.1 h a ha)
  | some b => rw [hu b (List.mem_of_find?_eq_some h) (List.find?_some h)]

theorem mem_pyadd {α : Type} [DecidableEq α] (l : List α) (a b : α) : b ∈ PySet.add l a ↔ b ∈ l ∨ b = a := by
  unfold PySet.add
  split
  · rename_i h
    constructor
    · exact .inl
    · rintro (h' | rfl) <;> assumption
  · simp

/-- the condition in `_merge_sub` -/
theorem shares_iff (H : Heap S) (i c : ℕ) :
    ((H i).names.any fun s => decide (s ∈ (H c).names)) = true ↔ ∃ n ∈ (H i).names, n ∈ (H c).names := by
  simp

theorem put_same (H : Heap S) (k : ℕ) : put H k (H k) = H := by
  funext x; unfold put; split
  · rename_i e; rw [e]
  · rfl

theorem addSyn_mem (n : Node S) (s : S) (h : s ∈ n.names) : n.addSyn s = n := by
  unfold Node.addSyn
  split
  · rfl
  · rename_i hne
    have : s ∈ n.syns := by simpa [Node.names, hne] using h
    simp [PySet.add, this]

theorem addSyns_mem (l : List S) : ∀ (n : Node S), (∀ s ∈ l, s ∈ n.names) → n.addSyns l = n := by
  induction l with
  | nil => intro n _; rfl
  | cons a l ih =>
    intro n h
    show (n.addSyn a).addSyns l = n
    rw [addSyn_mem n a (h a (by simp))]
    exact ih n fun s hs => h s (by simp [hs])

/-- merging a subcompartment that is already there changes nothing -/
theorem mergeSub_id (ord : PyOrd ℕ) (s : St S) (ht : Forest s) : ∀ (f c d : ℕ), d ∈ (s.H c).subs → s.next < f + d →
    mergeSub ord f s.H c d = some s.H := by
  intro f
  induction f with
  | zero => intro c d hd hf; have := (ht.up c d hd).2.2; omega
  | succ f ih =>
    intro c d hd hf
    have hm : matching ord s.H c d = some d := by
      unfold matching
      apply find?_unique
      · rw [ord.mem, mem_pyadd]; exact .inl hd
      · rw [shares_iff]; exact ⟨(s.H d).name, by simp [Node.names], by simp [Node.names]⟩
      · intro b hb hs
        rw [shares_iff] at hs
        obtain ⟨n, h1, h2⟩ := hs
        rw [ord.mem, mem_pyadd] at hb
        rcases hb with hb | rfl
        · by_contra hne
          exact ht.sib c b d hb hd hne n h1 h2
        · exact absurd h2 (ht.par b d hd n h1)
    unfold mergeSub
    simp only [hm]
    rw [addSyns_mem _ _ fun s hs => hs, put_same]
    have loop : ∀ l : List ℕ, (∀ j ∈ l, j ∈ (s.H d).subs) → l.foldlM (fun H j => mergeSub ord f H d j) s.H = some s.H := by
      intro l
      induction l with
      | nil => intro _; rfl
      | cons a l ihl =>
        intro hl
        have ha := hl a (by simp)
        have := (ht.up d a ha).2.1
        rw [List.foldlM_cons, ih d a ha (by omega)]
        exact ihl fun j hj => hl j (by simp [hj])
    exact loop _ fun j hj => (ord.mem _ _).1 hj

/-- the new compartment made by `add_sub` -/
def newNode (s : St S) (c : ℕ) (name : S) (e : Option Bool) : Node S :=
  { name := name, elem := if (s.H c).elem then true else e.getD (s.H c).elem, parent := some c }

/-- the heap after a new compartment was attached -/
def attach (s : St S) (c : ℕ) (name : S) (e : Option Bool) : St S :=
  { H := put (put s.H s.next (newNode s c name e)) c { s.H c with subs := (s.H c).subs ++ [s.next] }, next := s.next + 1 }

/-- what `add_sub` does in a tree: it finds a subcompartment and changes nothing, or attaches a new one, or makes a new one
which is not attached since its name is one of the parent's -/
theorem addSub_cases (N : Names S) (ord : PyOrd ℕ) (f : ℕ) (s : St S) (ht : Forest s) (c : ℕ) (hc : c < s.next) (name : S)
    (e : Option Bool) (hu : N.unsp name = false) (hf : s.next < f) :
    (∃ d ∈ (s.H c).subs, name ∈ (s.H d).names ∧ addSub N ord f s c name e = some (d, s)) ∨
    ((∀ d ∈ (s.H c).subs, name ∉ (s.H d).names) ∧ name ∉ (s.H c).names ∧
      addSub N ord f s c name e = some (s.next, attach s c name e)) ∨
    (name ∈ (s.H c).names ∧
      addSub N ord f s c name e = some (s.next, { H := put s.H s.next (newNode s c name e), next := s.next + 1 })) := by
  cases hg : getSub ord s.H c name with
  | some d =>
    left
    have h1 := List.mem_of_find?_eq_some hg
    have h2 := List.find?_some hg
    simp only [decide_eq_true_eq] at h2
    rw [ord.mem] at h1
    refine ⟨d, h1, h2, ?_⟩
    unfold addSub
    simp only [hu, Bool.false_eq_true, if_false, hg, mergeSub_id ord s ht f c d h1 (by omega), Option.map_some]
  | none =>
    right
    have hno : ∀ d ∈ (s.H c).subs, name ∉ (s.H d).names := by
      intro d hd hn
      have := List.find?_eq_none.1 hg d ((ord.mem _ _).2 hd)
      simp [hn] at this
    have hcn : c ≠ s.next := by omega
    have hHc : put s.H s.next (newNode s c name e) c = s.H c := by simp [put, hcn]
    have hHn : put s.H s.next (newNode s c name e) s.next = newNode s c name e := by simp [put]
    have hHd : ∀ d ∈ (s.H c).subs, put s.H s.next (newNode s c name e) d = s.H d := by
      intro d hd
      have := (ht.up c d hd).2.2
      have : d ≠ s.next := by omega
      simp [put, this]
    have hadd : addSub N ord f s c name e = (mergeSub ord f (put s.H s.next (newNode s c name e)) c s.next).map fun H =>
        (s.next, ({ H := H, next := s.next + 1 } : St S)) := by
      unfold addSub
      simp only [hu, Bool.false_eq_true, if_false, hg, newNode]
    obtain ⟨f', rfl⟩ : ∃ f', f = f' + 1 := ⟨f - 1, by omega⟩
    by_cases hn : name ∈ (s.H c).names
    · right
      refine ⟨hn, ?_⟩
      have hm : matching ord (put s.H s.next (newNode s c name e)) c s.next = some c := by
        unfold matching
        apply find?_unique
        · rw [ord.mem, mem_pyadd]; exact .inr rfl
        · rw [shares_iff, hHc, hHn]; exact ⟨name, hn, by simp [newNode, Node.names]⟩
        · intro b hb hs
          rw [shares_iff, hHn] at hs
          obtain ⟨n, h1, h2⟩ := hs
          have : n = name := by simpa [newNode, Node.names] using h2
          subst this
          rw [ord.mem, mem_pyadd, hHc] at hb
          rcases hb with hb | rfl
          · rw [hHd b hb] at h1; exact absurd h1 (hno b hb)
          · rfl
      rw [hadd]
      unfold mergeSub
      simp only [hm]
      have hsn : (put s.H s.next (newNode s c name e) s.next).subs = [] := by rw [hHn]; rfl
      have hof : ord.f [] = [] := List.Perm.eq_nil (ord.perm [])
      rw [hsn, hof, addSyns_mem _ _ (by
        intro x hx
        rw [hHn] at hx
        have : x = name := by simpa [newNode, Node.names] using hx
        rw [hHc, this]; exact hn), put_same]
      rfl
    · left
      refine ⟨hno, hn, ?_⟩
      have hm : matching ord (put s.H s.next (newNode s c name e)) c s.next = none := by
        unfold matching
        rw [List.find?_eq_none]
        intro b hb
        rw [shares_iff, hHn]
        rintro ⟨n, h1, h2⟩
        have : n = name := by simpa [newNode, Node.names] using h2
        subst this
        rw [ord.mem, mem_pyadd, hHc] at hb
        rcases hb with hb | rfl
        · rw [hHd b hb] at h1; exact absurd h1 (hno b hb)
        · rw [hHc] at h1; exact hn h1
      rw [hadd]
      unfold mergeSub
      simp only [hm, Option.map_some]
      congr 2
      unfold attach
      congr 1
      funext x
      by_cases hx : x = s.next
      · subst hx
        simp [put, newNode, hcn.symm]
      · by_cases hx2 : x = c
        · subst hx2; simp [put, hx]
        · simp [put, hx, hx2]

theorem names_put_subs (n : Node S) (l : List ℕ) : ({ n with subs := l } : Node S).names = n.names := rfl

theorem attach_H (s : St S) (c : ℕ) (hc : c < s.next) (name : S) (e : Option Bool) (x : ℕ) :
    (attach s c name e).H x = if x = s.next then newNode s c name e else
      if x = c then { s.H c with subs := (s.H c).subs ++ [s.next] } else s.H x := by
  have : c ≠ s.next := by omega
  unfold attach put
  dsimp only
  by_cases h1 : x = c
  · subst h1; simp [this]
  · simp [h1]

theorem attach_forest (s : St S) (ht : Forest s) (c : ℕ) (hc : c < s.next) (name : S) (e : Option Bool)
    (hno : ∀ d ∈ (s.H c).subs, name ∉ (s.H d).names) (hn : name ∉ (s.H c).names) : Forest (attach s c name e) ∧
    ((∀ x y, y < s.next → (s.H y).parent = some x → y ∈ (s.H x).subs) → Tree (attach s c name e)) := by
  have hH := attach_H s c hc name e
  have hnext : (attach s c name e).next = s.next + 1 := rfl
  -- names and elem are as before, and those of the new one
  have hold : ∀ x, x < s.next → ((attach s c name e).H x).names = (s.H x).names ∧
      ((attach s c name e).H x).elem = (s.H x).elem ∧ ((attach s c name e).H x).parent = (s.H x).parent := by
    intro x hx
    have h1 : x ≠ s.next := by omega
    rw [hH, if_neg h1]
    split
    · rename_i h2; subst h2; exact ⟨rfl, rfl, rfl⟩
    · exact ⟨rfl, rfl, rfl⟩
  have hnew : (attach s c name e).H s.next = newNode s c name e := by rw [hH]; simp
  have hsub : ∀ x y, y ∈ ((attach s c name e).H x).subs ↔ (x ≠ s.next ∧ y ∈ (s.H x).subs) ∨ (x = c ∧ y = s.next) := by
    intro x y
    rw [hH]
    by_cases h1 : x = s.next
    · have : ¬ x = c := by omega
      simp [h1, newNode]; omega
    · by_cases h2 : x = c
      · subst h2; simp [h1]
      · simp [h1, h2]
  have hlt : ∀ x y, y ∈ (s.H x).subs → x < s.next ∧ y < s.next := fun x y h => by
    have := ht.up x y h; omega
  have hforest : Forest (attach s c name e) := by
    refine ⟨?_, ?_, ?_, ?_, ?_⟩
    · intro x y h
      rcases (hsub x y).1 h with ⟨h1, h2⟩ | ⟨rfl, rfl⟩
      · obtain ⟨a, b, d⟩ := ht.up x y h2
        rw [(hold y (by omega)).2.2, hnext]; exact ⟨a, b, by omega⟩
      · rw [hnew, hnext]; exact ⟨rfl, hc, by omega⟩
    · intro x
      rw [hH]
      split
      · simp [newNode]
      · split
        · rename_i h2; subst h2
          dsimp only
          rw [List.nodup_append]
          refine ⟨ht.nodup _, by simp, ?_⟩
          intro a ha b hb
          simp at hb; subst hb
          have := (hlt _ _ ha).2
          omega
        · exact ht.nodup x
    · intro x y h
      rcases (hsub x y).1 h with ⟨h1, h2⟩ | ⟨rfl, rfl⟩
      · have := hlt x y h2
        unfold Apart
        rw [(hold x this.1).1, (hold y this.2).1]
        exact ht.par x y h2
      · unfold Apart
        rw [(hold x hc).1, hnew]
        intro n h1 h2
        have : n = name := by simpa [newNode, Node.names] using h2
        exact hn (this ▸ h1)
    · intro x y z hy hz hyz
      unfold Apart
      rcases (hsub x y).1 hy with ⟨h1, h2⟩ | ⟨rfl, rfl⟩ <;> rcases (hsub x z).1 hz with ⟨h3, h4⟩ | ⟨h3, h4⟩
      · rw [(hold y (hlt x y h2).2).1, (hold z (hlt x z h4).2).1]
        exact ht.sib x y z h2 h4 hyz
      · subst h3; subst h4
        rw [(hold y (hlt x y h2).2).1, hnew]
        intro n a b
        have : n = name := by simpa [newNode, Node.names] using b
        exact hno y h2 (this ▸ a)
      · rw [hnew, (hold z (hlt x z h4).2).1]
        intro n a b
        have : n = name := by simpa [newNode, Node.names] using a
        exact hno z h4 (this ▸ b)
      · exact absurd h4.symm hyz
    · intro x y h
      rcases (hsub x y).1 h with ⟨h1, h2⟩ | ⟨rfl, rfl⟩
      · have := hlt x y h2
        rw [(hold x this.1).2.1, (hold y this.2).2.1]
        exact ht.mono x y h2
      · rw [(hold x hc).2.1, hnew]
        intro he
        simp [newNode, he]
  refine ⟨hforest, fun hdown => { toForest := hforest, down := ?_ }⟩
  intro x y hy hp
  rw [hsub]
  rw [hnext] at hy
  by_cases h1 : y = s.next
  · subst h1
    rw [hnew] at hp
    simp only [newNode, Option.some.injEq] at hp
    exact .inr ⟨hp.symm, rfl⟩
  · rw [(hold y (by omega)).2.2] at hp
    have := hdown x y (by omega) hp
    exact .inl ⟨by have := hlt x y this; omega, this⟩

theorem attach_tree (s : St S) (ht : Tree s) (c : ℕ) (hc : c < s.next) (name : S) (e : Option Bool)
    (hno : ∀ d ∈ (s.H c).subs, name ∉ (s.H d).names) (hn : name ∉ (s.H c).names) : Tree (attach s c name e) :=
  (attach_forest s ht.toForest c hc name e hno hn).2 ht.down

/-- C36: `add_sub` of a name which is not a name of the parent keeps the tree. -/
theorem addSub_tree (N : Names S) (ord : PyOrd ℕ) (f : ℕ) (s : St S) (ht : Tree s) (c : ℕ) (hc : c < s.next) (name : S)
    (e : Option Bool) (hf : s.next < f) (hn : name ∉ (s.H c).names) :
    ∃ d t, addSub N ord f s c name e = some (d, t) ∧ Tree t ∧ d < t.next ∧ s.next ≤ t.next ∧
      (N.unsp name = false → d ∈ (t.H c).subs ∧ name ∈ (t.H d).names) := by
  cases hu : N.unsp name with
  | true => exact ⟨c, s, by simp [addSub, hu], ht, hc, le_refl _, by simp⟩
  | false =>
    rcases addSub_cases N ord f s ht.toForest c hc name e hu hf with ⟨d, hd, hn', h⟩ | ⟨h1, h2, h⟩ | ⟨h1, _⟩
    · exact ⟨d, s, h, ht, (ht.up c d hd).2.2, le_refl _, fun _ => ⟨hd, hn'⟩⟩
    · refine ⟨s.next, attach s c name e, h, attach_tree s ht c hc name e h1 h2, Nat.lt_succ_self _, Nat.le_succ _, fun _ => ?_⟩
      rw [attach_H s c hc, attach_H s c hc]
      have : c ≠ s.next := by omega
      simp [this, newNode, Node.names]
    · exact absurd h1 hn

/-- in a tree, the compartments below `c` are those of which `c` is an ancestor -/
theorem below_iff_anc (s : St S) (ht : Tree s) (c x : ℕ) (hx : x < s.next) : Below s.H c x ↔ Anc s.H x c := by
  constructor
  · intro h
    clear hx
    have key : ∀ y z, Below s.H y z → ∀ w, Anc s.H y w → Anc s.H z w := by
      intro y z h
      induction h with
      | refl => intro w hw; exact hw
      | step hs _ ih => intro w hw; exact ih w (.up (ht.up _ _ hs).1 hw)
    exact key c x h c (.refl _)
  · intro h
    induction h with
    | refl => exact .refl _
    | @up y p w hp _ ih =>
      have hm := ht.down p y hx hp
      have := ht.up p y hm
      exact (ih (by omega)).trans (.of_mem hm)

/-- C36: in every tree made by adding compartments (none with a name of its parent): after `set_elementary(c)`, a compartment
is elementary if and only if it was before, or it is a subcompartment of `c`; nothing else changed; `is_subcompartment_of` is
true exactly of the compartments at or below `c`. -/
theorem set_elementary_partial (ord : PyOrd ℕ) (s : St S) (ht : Tree s) (c : ℕ) (f : ℕ) (hf : s.next < f) :
    ∃ H', setElementary ord f s.H c = some H' ∧ ∀ x, x < s.next →
      ∃ b, isSubOf f s.H x c = some b ∧ (b = true ↔ Below s.H c x) ∧
        H' x = { s.H x with elem := (s.H x).elem || b } := by
  obtain ⟨H', h⟩ := setElementary_ok ord (fun x => s.next - x) f s.H c
    (fun x y hy => by have := ht.up x y hy; omega) (by omega)
  refine ⟨H', h, fun x hx => ?_⟩
  have hrank : ∀ f x, x < s.next → x < f → ∃ b, isSubOf f s.H x c = some b := by
    intro f
    induction f with
    | zero => intro x _ h; omega
    | succ f ih =>
      intro x hx hf
      unfold isSubOf
      split
      · exact ⟨_, rfl⟩
      · split
        · exact ⟨_, rfl⟩
        · rename_i p hp
          have := ht.up p x (ht.down p x hx hp)
          exact ih p (by omega) (by omega)
  obtain ⟨b, hb⟩ := hrank f x hx (by omega)
  have hiff := isSubOf_iff s.H f x c b hb
  rw [← below_iff_anc s ht c x hx] at hiff
  refine ⟨b, hb, hiff, ?_⟩
  have m := setElementary_marks ord f s.H H' c h x
  cases b with
  | true => rw [m.1 (hiff.1 rfl)]; simp
  | false => rw [m.2 fun h => absurd (hiff.2 h) (by simp)]; simp

end Cmp
