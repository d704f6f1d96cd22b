import Verif.Model.CompartmentOps
import Verif.Props.CompartmentJson

/-!
Lemmas on rearranging compartments, for `Props/CompartmentOps.lean`.
-/

set_option linter.unusedSectionVars false
set_option linter.unusedSimpArgs false

namespace Cmp

variable {S : Type} [DecidableEq S]

/-- a name that is known at a compartment: it is a name of it, or of one below it -/
def Known (H : Heap S) (c : ℕ) (s : S) : Prop := ∃ x, Below H c x ∧ s ∈ (H x).names

theorem addSyn_fields (n : Node S) (s : S) : (n.addSyn s).name = n.name ∧ (n.addSyn s).elem = n.elem ∧
    (n.addSyn s).subs = n.subs ∧ (n.addSyn s).parent = n.parent := by
  unfold Node.addSyn; split <;> exact ⟨rfl, rfl, rfl, rfl⟩

theorem addSyns_fields (l : List S) : ∀ n : Node S, (n.addSyns l).name = n.name ∧ (n.addSyns l).elem = n.elem ∧
    (n.addSyns l).subs = n.subs ∧ (n.addSyns l).parent = n.parent := by
  induction l with
  | nil => intro n; exact ⟨rfl, rfl, rfl, rfl⟩
  | cons a l ih =>
    intro n
    obtain ⟨h1, h2, h3, h4⟩ := ih (n.addSyn a)
    obtain ⟨g1, g2, g3, g4⟩ := addSyn_fields n a
    exact ⟨h1.trans g1, h2.trans g2, h3.trans g3, h4.trans g4⟩

theorem mem_addSyn (n : Node S) (a s : S) : s ∈ (n.addSyn a).names ↔ s ∈ n.names ∨ s = a := by
  unfold Node.addSyn
  split
  · rename_i h
    constructor
    · exact .inl
    · rintro (h' | rfl)
      · exact h'
      · rw [h]; simp [Node.names]
  · simp only [Node.names, List.mem_cons, mem_pyadd]; tauto

theorem mem_addSyns (l : List S) : ∀ (n : Node S) (s : S), s ∈ (n.addSyns l).names ↔ s ∈ n.names ∨ s ∈ l := by
  induction l with
  | nil => intro n s; simp [Node.addSyns]
  | cons a l ih =>
    intro n s
    show s ∈ ((n.addSyn a).addSyns l).names ↔ _
    rw [ih, mem_addSyn, List.mem_cons]; tauto

theorem put_self (H : Heap S) (k : ℕ) (n : Node S) : put H k n k = n := by simp [put]
theorem put_ne (H : Heap S) (k : ℕ) (n : Node S) {x : ℕ} (h : x ≠ k) : put H k n x = H x := by simp [put, h]

theorem putSyns_subs (H : Heap S) (k : ℕ) (l : List S) (x : ℕ) : (put H k ((H k).addSyns l) x).subs = (H x).subs := by
  by_cases h : x = k
  · subst h; rw [put_self]; exact (addSyns_fields l _).2.2.1
  · rw [put_ne _ _ _ h]

theorem putSyns_fix (H : Heap S) (k : ℕ) (l : List S) (x : ℕ) : (put H k ((H k).addSyns l) x).name = (H x).name ∧
    (put H k ((H k).addSyns l) x).elem = (H x).elem ∧ (put H k ((H k).addSyns l) x).parent = (H x).parent := by
  by_cases h : x = k
  · subst h; rw [put_self]; obtain ⟨a, b, _, d⟩ := addSyns_fields l (H x); exact ⟨a, b, d⟩
  · rw [put_ne _ _ _ h]; exact ⟨rfl, rfl, rfl⟩

theorem putSyns_names (H : Heap S) (k : ℕ) (l : List S) (x : ℕ) (s : S) :
    s ∈ (put H k ((H k).addSyns l) x).names ↔ s ∈ (H x).names ∨ (x = k ∧ s ∈ l) := by
  by_cases h : x = k
  · subst h; rw [put_self, mem_addSyns]; simp
  · rw [put_ne _ _ _ h]; simp [h]

theorem putSyns_below (H : Heap S) (k : ℕ) (l : List S) {x y : ℕ} :
    Below (put H k ((H k).addSyns l)) x y ↔ Below H x y :=
  ⟨Below.congr fun z => (putSyns_subs H k l z).symm, Below.congr fun z => putSyns_subs H k l z⟩

/-- the heap `H'` has what `H` has, and perhaps more names and more subcompartments -/
def Grow (H H' : Heap S) : Prop := ∀ x, (∀ s ∈ (H x).names, s ∈ (H' x).names) ∧ ∀ y ∈ (H x).subs, y ∈ (H' x).subs

theorem Grow.refl (H : Heap S) : Grow H H := fun _ => ⟨fun _ h => h, fun _ h => h⟩
theorem Grow.trans {H H1 H2 : Heap S} (h : Grow H H1) (h' : Grow H1 H2) : Grow H H2 :=
  fun x => ⟨fun s hs => (h' x).1 s ((h x).1 s hs), fun y hy => (h' x).2 y ((h x).2 y hy)⟩
theorem Grow.below {H H' : Heap S} (h : Grow H H') {x y : ℕ} (hb : Below H x y) : Below H' x y := by
  induction hb with
  | refl => exact .refl _
  | step hs _ ih => exact .step ((h _).2 _ hs) ih
theorem Grow.known {H H' : Heap S} (h : Grow H H') {x : ℕ} {s : S} (hb : Known H x s) : Known H' x s := by
  obtain ⟨y, h1, h2⟩ := hb
  exact ⟨y, h.below h1, (h y).1 s h2⟩
theorem Grow.putSyns (H : Heap S) (k : ℕ) (l : List S) : Grow H (put H k ((H k).addSyns l)) := fun x =>
  ⟨fun s hs => (putSyns_names H k l x s).2 (.inl hs), fun y hy => by rw [putSyns_subs]; exact hy⟩

theorem Known.up {H : Heap S} {a b : ℕ} {s : S} (h : Below H a b) (hk : Known H b s) : Known H a s := by
  obtain ⟨x, h1, h2⟩ := hk; exact ⟨x, h.trans h1, h2⟩

/-- what lies below and above a merge of the compartments `B` (at `H`) into the compartments `A` -/
structure Into (H : Heap S) (A B : ℕ → Prop) (K : S → Prop) (H' : Heap S) : Prop where
  grow : Grow H H'
  below : ∀ x y, Below H' x y → Below H x y ∨ B y
  names : ∀ x s, s ∈ (H' x).names → s ∈ (H x).names ∨ K s
  frame : ∀ x, ¬ A x → ¬ B x → H' x = H x
  fix : ∀ x, (H' x).name = (H x).name ∧ (H' x).elem = (H x).elem

theorem Into.refl (H : Heap S) (A B : ℕ → Prop) (K : S → Prop) : Into H A B K H :=
  ⟨.refl _, fun _ _ => .inl, fun _ _ => .inl, fun _ _ _ => rfl, fun _ => ⟨rfl, rfl⟩⟩

/-- one more step of a loop: `j` is among the compartments to be merged into `i` -/
theorem Into.step {H H1 H2 : Heap S} {A B : ℕ → Prop} {K : S → Prop} {i j : ℕ} (hA : ∀ x, Below H i x → A x)
    (hB : ∀ x, Below H j x → B x) (hK : ∀ x s, B x → s ∈ (H x).names → K s) (h1 : Into H A B K H1)
    (h2 : Into H1 (Below H1 i) (Below H1 j) (Known H1 j) H2) : Into H A B K H2 := by
  have hb : ∀ y, Below H1 j y → B y := fun y hy => (h1.below _ _ hy).elim (hB y) id
  refine ⟨h1.grow.trans h2.grow, fun x y h => ?_, fun x s h => ?_, fun x ha hb' => ?_,
    fun x => ⟨(h2.fix x).1.trans (h1.fix x).1, (h2.fix x).2.trans (h1.fix x).2⟩⟩
  · rcases h2.below _ _ h with h | h
    · exact h1.below _ _ h
    · exact .inr (hb y h)
  · rcases h2.names _ _ h with h | ⟨y, hy, hs⟩
    · exact h1.names _ _ h
    · rcases h1.names _ _ hs with hs | hs
      · exact .inr (hK y s (hb y hy) hs)
      · exact .inr hs
  · rw [h2.frame x (fun hx => ?_) (fun hx => hb' (hb x hx)), h1.frame x ha hb']
    rcases h1.below _ _ hx with h | h
    · exact ha (hA x h)
    · exact hb' h

/-- `_merge_sub`: nothing is lost, all names of the merged compartment are known below the other, nothing else is. -/
theorem mergeSub_into (ord : PyOrd ℕ) : ∀ (f : ℕ) (H H' : Heap S) (self comp : ℕ), mergeSub ord f H self comp = some H' →
    Into H (Below H self) (Below H comp) (Known H comp) H' ∧ ∀ s, Known H comp s → Known H' self s := by
  intro f
  induction f with
  | zero => intro H H' self comp h; cases h
  | succ f ih =>
    intro H H' self comp h
    rw [mergeSub] at h
    cases hm : matching ord H self comp with
    | none =>
      simp only [hm, Option.some.injEq] at h
      subst h
      have e : ∀ x, (put (put H self { H self with subs := (H self).subs ++ [comp] }) comp
          { put H self { H self with subs := (H self).subs ++ [comp] } comp with parent := some self } x).names = (H x).names ∧
          (put (put H self { H self with subs := (H self).subs ++ [comp] }) comp
          { put H self { H self with subs := (H self).subs ++ [comp] } comp with parent := some self } x).subs =
            (if x = self then (H x).subs ++ [comp] else (H x).subs) ∧
          (put (put H self { H self with subs := (H self).subs ++ [comp] }) comp
          { put H self { H self with subs := (H self).subs ++ [comp] } comp with parent := some self } x).name = (H x).name ∧
          (put (put H self { H self with subs := (H self).subs ++ [comp] }) comp
          { put H self { H self with subs := (H self).subs ++ [comp] } comp with parent := some self } x).elem = (H x).elem := by
        intro x
        unfold put
        by_cases h1 : x = comp <;> by_cases h2 : x = self <;> by_cases h3 : comp = self <;>
          simp_all [Node.names]
      generalize hH : (put (put H self { H self with subs := (H self).subs ++ [comp] }) comp
          { put H self { H self with subs := (H self).subs ++ [comp] } comp with parent := some self }) = H' at e
      have hg : Grow H H' := fun x => by
        refine ⟨fun s hs => by rw [(e x).1]; exact hs, fun y hy => ?_⟩
        rw [(e x).2.1]; split
        · simp [hy]
        · exact hy
      refine ⟨⟨hg, ?_, fun x s hs => .inl (by rw [(e x).1] at hs; exact hs), ?_, fun x => ⟨(e x).2.2.1, (e x).2.2.2⟩⟩, ?_⟩
      · intro x y hb
        induction hb with
        | refl => exact .inl (.refl _)
        | @step a b y hs _ ih' =>
          rcases ih' with hb | hb
          · rw [(e _).2.1] at hs
            by_cases ha : a = self
            · rw [if_pos ha] at hs
              rcases List.mem_append.1 hs with hs | hs
              · exact .inl (.step hs hb)
              · simp at hs; subst hs; exact .inr hb
            · rw [if_neg ha] at hs; exact .inl (.step hs hb)
          · exact .inr hb
      · intro x h1 h2
        have h1' : x ≠ self := fun hx => h1 (hx ▸ .refl _)
        have h2' : x ≠ comp := fun hx => h2 (hx ▸ .refl _)
        rw [← hH, put_ne _ _ _ h2', put_ne _ _ _ h1']
      · intro s hs
        exact (hg.known hs).up (.of_mem (by rw [(e _).2.1, if_pos rfl]; simp))
    | some i =>
      simp only [hm] at h
      have hi : Below H self i := by
        have := List.mem_of_find?_eq_some hm
        rw [ord.mem, mem_pyadd] at this
        rcases this with h | rfl
        · exact .of_mem h
        · exact .refl _
      have hK : ∀ x s, Below H comp x → s ∈ (H x).names → Known H comp s := fun x s hx hs => ⟨x, hx, hs⟩
      have h0 : Into H (Below H self) (Below H comp) (Known H comp) (put H i ((H i).addSyns (H comp).names)) := by
        refine ⟨.putSyns _ _ _, fun x y h => .inl ((putSyns_below H i _).1 h), fun x s hs => ?_, fun x hx _ => ?_,
          fun x => ⟨(putSyns_fix H i _ x).1, (putSyns_fix H i _ x).2.1⟩⟩
        · rcases (putSyns_names _ _ _ _ _).1 hs with hs | ⟨-, hs⟩
          · exact .inl hs
          · exact .inr ⟨comp, .refl _, hs⟩
        · exact put_ne _ _ _ fun e => hx (e ▸ hi)
      have loop : ∀ (l : List ℕ) (H1 H2 : Heap S), (∀ j ∈ l, j ∈ (H comp).subs) →
          Into H (Below H self) (Below H comp) (Known H comp) H1 →
          l.foldlM (fun H j => mergeSub ord f H i j) H1 = some H2 →
          Into H (Below H self) (Below H comp) (Known H comp) H2 ∧ Grow H1 H2 ∧ ∀ j ∈ l, ∀ s, Known H j s → Known H2 i s := by
        intro l
        induction l with
        | nil =>
          intro H1 H2 _ h1 h
          simp at h; subst h
          exact ⟨h1, .refl _, fun j hj => absurd hj (by simp)⟩
        | cons a l ihl =>
          intro H1 H2 hl h1 h
          rw [List.foldlM_cons] at h
          cases ha : mergeSub ord f H1 i a with
          | none => rw [ha] at h; cases h
          | some H3 =>
            rw [ha] at h
            have ⟨g1, g2⟩ := ih _ _ _ _ ha
            have h3 := h1.step (i := i) (j := a) (fun x hx => hi.trans hx) (fun x hx => .step (hl a (by simp)) hx) hK g1
            obtain ⟨k1, k2, k3⟩ := ihl H3 H2 (fun j hj => hl j (by simp [hj])) h3 h
            refine ⟨k1, g1.grow.trans k2, fun j hj s hs => ?_⟩
            rcases List.mem_cons.1 hj with rfl | hj
            · exact k2.known (g2 s (h1.grow.known hs))
            · exact k3 j hj s hs
      obtain ⟨k1, k2, k3⟩ := loop _ _ _ (fun j hj => (ord.mem _ _).1 hj) h0 h
      refine ⟨k1, ?_⟩
      rintro s ⟨x, hx, hs⟩
      refine Known.up (k1.grow.below hi) ?_
      cases hx with
      | refl => exact ⟨i, .refl _, (k2 i).1 s ((putSyns_names _ _ _ _ _).2 (.inr ⟨rfl, hs⟩))⟩
      | @step _ j _ hj hb => exact k3 j ((ord.mem _ _).2 hj) s ⟨x, hb, hs⟩

/-- the loop of `merge_subs` -/
theorem mergeSub_loop (ord : PyOrd ℕ) (f : ℕ) (H : Heap S) (s1 s2 : ℕ) : ∀ (l : List ℕ) (H1 H2 : Heap S),
    (∀ j ∈ l, j ∈ (H s1).subs) → Into H (Below H s2) (Below H s1) (Known H s1) H1 →
    l.foldlM (fun H j => mergeSub ord f H s2 j) H1 = some H2 →
    Into H (Below H s2) (Below H s1) (Known H s1) H2 ∧ Grow H1 H2 ∧ ∀ j ∈ l, ∀ s, Known H j s → Known H2 s2 s := by
  intro l
  induction l with
  | nil =>
    intro H1 H2 _ h1 h
    simp at h; subst h
    exact ⟨h1, .refl _, fun j hj => absurd hj (by simp)⟩
  | cons a l ihl =>
    intro H1 H2 hl h1 h
    rw [List.foldlM_cons] at h
    cases ha : mergeSub ord f H1 s2 a with
    | none => rw [ha] at h; cases h
    | some H3 =>
      rw [ha] at h
      have ⟨g1, g2⟩ := mergeSub_into ord _ _ _ _ _ ha
      have h3 := h1.step (i := s2) (j := a) (fun x hx => hx) (fun x hx => .step (hl a (by simp)) hx)
        (fun x s hx hs => ⟨x, hx, hs⟩) g1
      obtain ⟨k1, k2, k3⟩ := ihl H3 H2 (fun j hj => hl j (by simp [hj])) h3 h
      refine ⟨k1, g1.grow.trans k2, fun j hj s hs => ?_⟩
      rcases List.mem_cons.1 hj with rfl | hj
      · exact k2.known (g2 s (h1.grow.known hs))
      · exact k3 j hj s hs

theorem dropSub_names (H : Heap S) (c s1 x : ℕ) : (dropSub H c s1 x).names = (H x).names ∧ (dropSub H c s1 x).name = (H x).name ∧
    (dropSub H c s1 x).elem = (H x).elem ∧ (dropSub H c s1 x).parent = (H x).parent := by
  unfold dropSub put; split
  · rename_i h; subst h; exact ⟨rfl, rfl, rfl, rfl⟩
  · exact ⟨rfl, rfl, rfl, rfl⟩

theorem dropSub_subs (H : Heap S) (c s1 x y : ℕ) : y ∈ (dropSub H c s1 x).subs ↔ y ∈ (H x).subs ∧ ¬ (x = c ∧ y = s1) := by
  unfold dropSub put; split
  · rename_i h; subst h; simp
  · rename_i h; simp [h]

theorem dropSub_below_le {H : Heap S} {c s1 x y : ℕ} (h : Below (dropSub H c s1) x y) : Below H x y := by
  induction h with
  | refl => exact .refl _
  | step hs _ ih => exact .step ((dropSub_subs _ _ _ _ _).1 hs).1 ih

/-- a path that does not reach `c` is not cut -/
theorem dropSub_below {H : Heap S} {c s1 x y : ℕ} (h : Below H x y) (hc : ¬ Below H x c) : Below (dropSub H c s1) x y := by
  induction h with
  | refl => exact .refl _
  | @step a b y hs hb ih =>
    refine .step ((dropSub_subs _ _ _ _ _).2 ⟨hs, fun e => hc (e.1 ▸ .refl _)⟩) (ih fun h => hc (.step hs h))

/-- what is reached without `c`'s link to `s1`, or is below `s1` -/
theorem dropSub_below_or {H : Heap S} {c s1 x y : ℕ} (h : Below H x y) :
    Below (dropSub H c s1) x y ∨ (Below (dropSub H c s1) x c ∧ Below H s1 y) := by
  induction h with
  | refl => exact .inl (.refl _)
  | @step a b y hs hb ih =>
    by_cases he : a = c ∧ b = s1
    · obtain ⟨rfl, rfl⟩ := he
      exact .inr ⟨.refl _, hb⟩
    · have := (dropSub_subs H c s1 _ _).2 ⟨hs, he⟩
      rcases ih with h | ⟨h, h'⟩
      · exact .inl (.step this h)
      · exact .inr ⟨.step this h, h'⟩

/-! ### sets of compartments that are closed -/

/-- a set of compartments that contains the subcompartments of its members, and whose names are all in `K` -/
structure Cl (R : ℕ → Prop) (K : S → Prop) (H : Heap S) : Prop where
  sub : ∀ x y, R x → y ∈ (H x).subs → R y
  nam : ∀ x s, R x → s ∈ (H x).names → K s

theorem Cl.below {R : ℕ → Prop} {K : S → Prop} {H : Heap S} (h : Cl R K H) {x y : ℕ} (hx : R x) (hb : Below H x y) : R y := by
  induction hb with
  | refl => exact hx
  | step hs _ ih => exact ih (h.sub _ _ hx hs)

theorem Cl.known {R : ℕ → Prop} {K : S → Prop} {H : Heap S} (h : Cl R K H) {x : ℕ} {s : S} (hx : R x) (hk : Known H x s) : K s := by
  obtain ⟨y, h1, h2⟩ := hk; exact h.nam y s (h.below hx h1) h2

theorem mergeSub_cl {R : ℕ → Prop} {K : S → Prop} (ord : PyOrd ℕ) (f : ℕ) (H H' : Heap S) (self comp : ℕ) (hc : Cl R K H)
    (hs : R self) (hcm : R comp) (h : mergeSub ord f H self comp = some H') :
    Cl R K H' ∧ Grow H H' ∧ (∀ x, ¬ R x → H' x = H x) := by
  obtain ⟨hi, -⟩ := mergeSub_into ord f H H' self comp h
  refine ⟨⟨fun x y hx hy => ?_, fun x s hx hn => ?_⟩, hi.grow, fun x hx => ?_⟩
  · rcases hi.below x y (.of_mem hy) with hb | hb
    · exact hc.below hx hb
    · exact hc.below hcm hb
  · rcases hi.names x s hn with hn | hn
    · exact hc.nam x s hx hn
    · exact hc.known hcm hn
  · exact hi.frame x (fun hb => hx (hc.below hs hb)) (fun hb => hx (hc.below hcm hb))

/-- a set of old compartments, and all that were made since -/
def Rg (B : ℕ → Prop) (lo : ℕ) (next : ℕ) : ℕ → Prop := fun x => B x ∨ (lo ≤ x ∧ x < next)

theorem Rg.mono {B : ℕ → Prop} {lo n m x : ℕ} (h : n ≤ m) (hx : Rg B lo n x) : Rg B lo m x :=
  hx.imp_right fun ⟨a, b⟩ => ⟨a, by omega⟩

/-- the states before and after some additions below a compartment: what was made since `lo` and what is in `B` is closed, what is
elsewhere is unchanged, nothing is lost -/
structure Adds (B : ℕ → Prop) (K : S → Prop) (lo : ℕ) (s t : St S) : Prop where
  cl : Cl (Rg B lo t.next) K t.H
  next : s.next ≤ t.next
  grow : ∀ x < s.next, (∀ n ∈ (s.H x).names, n ∈ (t.H x).names) ∧ ∀ y ∈ (s.H x).subs, y ∈ (t.H x).subs
  frame : ∀ x, ¬ Rg B lo t.next x → t.H x = s.H x

theorem Adds.refl {B : ℕ → Prop} {K : S → Prop} {lo : ℕ} {s : St S} (h : Cl (Rg B lo s.next) K s.H) : Adds B K lo s s :=
  ⟨h, le_refl _, fun _ _ => ⟨fun _ h => h, fun _ h => h⟩, fun _ _ => rfl⟩

theorem Adds.trans {B : ℕ → Prop} {K : S → Prop} {lo : ℕ} {s t u : St S} (h1 : Adds B K lo s t) (h2 : Adds B K lo t u) :
    Adds B K lo s u :=
  ⟨h2.cl, h1.next.trans h2.next,
    fun x hx => ⟨fun n hn => (h2.grow x (lt_of_lt_of_le hx h1.next)).1 n ((h1.grow x hx).1 n hn),
      fun y hy => (h2.grow x (lt_of_lt_of_le hx h1.next)).2 y ((h1.grow x hx).2 y hy)⟩,
    fun x hx => (h2.frame x hx).trans (h1.frame x fun h => hx (h.mono h2.next))⟩

theorem Adds.below {B : ℕ → Prop} {K : S → Prop} {lo : ℕ} {s t : St S} (h : Adds B K lo s t) (hlt : ∀ x, B x → x < s.next)
    (hcl : ∀ x y, B x → y ∈ (s.H x).subs → B y) {x y : ℕ} (hx : B x) (hb : Below s.H x y) : Below t.H x y ∧ B y := by
  induction hb with
  | refl => exact ⟨.refl _, hx⟩
  | step hs _ ih =>
    obtain ⟨h1, h2⟩ := ih (hcl _ _ hx hs)
    exact ⟨.step ((h.grow _ (hlt _ hx)).2 _ hs) h1, h2⟩

theorem getSub_mem (ord : PyOrd ℕ) (H : Heap S) (c d : ℕ) (n : S) (h : getSub ord H c n = some d) :
    d ∈ (H c).subs ∧ n ∈ (H d).names := by
  refine ⟨?_, by simpa using List.find?_some h⟩
  have := List.mem_of_find?_eq_some h
  rwa [ord.mem] at this

theorem addSub_adds {B : ℕ → Prop} {K : S → Prop} {lo : ℕ} (N : Names S) (ord : PyOrd ℕ) (f : ℕ) (s : St S) (c : ℕ) (n : S)
    (e : Option Bool) (d : ℕ) (t : St S) (hB : ∀ x, B x → x < s.next) (hlo : lo ≤ s.next) (hcl : Cl (Rg B lo s.next) K s.H)
    (hc : Rg B lo s.next c) (hK : K n) (h : addSub N ord f s c n e = some (d, t)) :
    Adds B K lo s t ∧ Rg B lo t.next d := by
  unfold addSub at h
  split at h
  · simp only [Option.some.injEq, Prod.mk.injEq] at h
    obtain ⟨rfl, rfl⟩ := h
    exact ⟨.refl hcl, hc⟩
  · split at h
    · rename_i sub hsub
      cases hm : mergeSub ord f s.H c sub with
      | none => rw [hm] at h; cases h
      | some H =>
        simp only [hm, Option.map_some, Option.some.injEq, Prod.mk.injEq] at h
        obtain ⟨rfl, rfl⟩ := h
        have hd := hcl.sub c _ hc (getSub_mem ord _ _ _ _ hsub).1
        obtain ⟨a1, a2, a3⟩ := mergeSub_cl ord f _ _ c _ hcl hc hd hm
        exact ⟨⟨a1, le_refl _, fun x _ => a2 x, a3⟩, hd⟩
    · dsimp only at h
      generalize hnd : ({ name := n, elem := if (s.H c).elem then true else e.getD (s.H c).elem, parent := some c } : Node S) = nd at h
      cases hm : mergeSub ord f (put s.H s.next nd) c s.next with
      | none => rw [hm] at h; cases h
      | some H =>
        simp only [hm, Option.map_some, Option.some.injEq, Prod.mk.injEq] at h
        obtain ⟨rfl, rfl⟩ := h
        have hnew : Rg B lo (s.next + 1) s.next := .inr ⟨hlo, by omega⟩
        have hold : ∀ x, Rg B lo (s.next + 1) x → x ≠ s.next → Rg B lo s.next x := by
          rintro x (hx | ⟨h1, h2⟩) hne
          · exact .inl hx
          · exact .inr ⟨h1, by omega⟩
        have hcl' : Cl (Rg B lo (s.next + 1)) K (put s.H s.next nd) := by
          refine ⟨fun x y hx hy => ?_, fun x m hx hm' => ?_⟩
          · by_cases hxe : x = s.next
            · subst hxe; rw [put_self, ← hnd] at hy; cases hy
            · rw [put_ne _ _ _ hxe] at hy
              exact (hcl.sub x y (hold x hx hxe) hy).mono (Nat.le_succ _)
          · by_cases hxe : x = s.next
            · subst hxe; rw [put_self, ← hnd] at hm'
              simp only [Node.names, List.mem_cons, List.not_mem_nil, or_false] at hm'
              exact hm' ▸ hK
            · rw [put_ne _ _ _ hxe] at hm'; exact hcl.nam x m (hold x hx hxe) hm'
        obtain ⟨a1, a2, a3⟩ := mergeSub_cl ord f _ _ c _ hcl' (hc.mono (Nat.le_succ _)) hnew hm
        refine ⟨⟨a1, Nat.le_succ _, fun x hx => ?_, fun x hx => ?_⟩, hnew⟩
        · have := a2 x
          rwa [put_ne _ _ _ (show x ≠ s.next by omega)] at this
        · dsimp only
          rw [a3 x hx, put_ne _ _ _ (fun e => hx (by rw [e]; exact hnew))]

theorem addSubs_adds {B : ℕ → Prop} {K : S → Prop} {lo : ℕ} (N : Names S) (ord : PyOrd ℕ) (f : ℕ) : ∀ (p : List S) (s : St S) (c : ℕ)
    (d : ℕ) (t : St S), (∀ x, B x → x < s.next) → lo ≤ s.next → Cl (Rg B lo s.next) K s.H → Rg B lo s.next c →
    (∀ n ∈ p, K n) → addSubs N ord f s c p = some (d, t) → Adds B K lo s t ∧ Rg B lo t.next d := by
  intro p
  induction p with
  | nil => intro s c d t _ _ _ _ _ h; cases h
  | cons n p ih =>
    intro s c d t hB hlo hcl hc hK h
    cases p with
    | nil => exact addSub_adds N ord f s c n none d t hB hlo hcl hc (hK n (by simp)) h
    | cons m p =>
      rw [addSubs] at h
      · cases ha : addSub N ord f s c n with
        | none => rw [ha] at h; cases h
        | some r =>
          obtain ⟨d1, s1⟩ := r
          rw [ha] at h
          obtain ⟨a1, a2⟩ := addSub_adds N ord f s c n none d1 s1 hB hlo hcl hc (hK n (by simp)) ha
          obtain ⟨b1, b2⟩ := ih s1 d1 d t (fun x hx => lt_of_lt_of_le (hB x hx) a1.next) (hlo.trans a1.next) a1.cl a2
            (fun x hx => hK x (by simp [hx])) h
          exact ⟨a1.trans b1, b2⟩
      · simp

/-- giving a compartment more names -/
theorem putSyns_adds {B : ℕ → Prop} {K : S → Prop} {lo : ℕ} (s : St S) (c : ℕ) (l : List S) (hcl : Cl (Rg B lo s.next) K s.H)
    (hc : Rg B lo s.next c) (hK : ∀ n ∈ l, K n) : Adds B K lo s { s with H := put s.H c ((s.H c).addSyns l) } := by
  refine ⟨⟨fun x y hx hy => ?_, fun x n hx hn => ?_⟩, le_refl _, fun x _ => Grow.putSyns s.H c l x, fun x hx => ?_⟩
  · dsimp only at hx hy ⊢
    rw [putSyns_subs] at hy; exact hcl.sub x y hx hy
  · rcases (putSyns_names _ _ _ _ _).1 hn with hn | ⟨-, hn⟩
    · exact hcl.nam x n hx hn
    · exact hK n hn
  · exact put_ne _ _ _ fun e => hx (e ▸ hc)

/-- all names in a serialization -/
inductive JName : J S → S → Prop
  | own (j : J S) (s : S) : s ∈ j.names → JName j s
  | sub (j k : J S) (s : S) : k ∈ j.subs → JName k s → JName j s

mutual
theorem addJ_adds {B : ℕ → Prop} {K : S → Prop} {lo : ℕ} (N : Names S) (ord : PyOrd ℕ) (f : ℕ) (s : St S) (c : ℕ) (e : Bool)
    (j : J S) (t : St S) (hB : ∀ x, B x → x < s.next) (hlo : lo ≤ s.next) (hcl : Cl (Rg B lo s.next) K s.H)
    (hc : Rg B lo s.next c) (hK : ∀ n, JName j n → K n) (h : addJ N ord f s c e j = some t) : Adds B K lo s t := by
  cases j with
  | node name syns el subs =>
    rw [addJ] at h
    cases ha : addSub N ord f s c name (some (e || el)) with
    | none => rw [ha] at h; cases h
    | some r =>
      obtain ⟨d, s1⟩ := r
      rw [ha] at h
      dsimp only at h
      obtain ⟨a1, a2⟩ := addSub_adds N ord f s c name _ d s1 hB hlo hcl hc (hK _ (.own _ _ (by simp [J.names, J.name, J.syns]))) ha
      have a3 := putSyns_adds s1 d syns a1.cl a2 fun n hn => hK n (.own _ _ (by simp [J.names, J.name, J.syns, hn]))
      exact (a1.trans a3).trans (addJs_adds N ord f _ d (e || el) subs t (fun x hx => lt_of_lt_of_le (hB x hx) a1.next)
        (hlo.trans a1.next) a3.cl a2 (fun k hk n hn => hK n (.sub _ k _ hk hn)) h)
theorem addJs_adds {B : ℕ → Prop} {K : S → Prop} {lo : ℕ} (N : Names S) (ord : PyOrd ℕ) (f : ℕ) (s : St S) (c : ℕ) (e : Bool)
    (js : List (J S)) (t : St S) (hB : ∀ x, B x → x < s.next) (hlo : lo ≤ s.next) (hcl : Cl (Rg B lo s.next) K s.H)
    (hc : Rg B lo s.next c) (hK : ∀ k ∈ js, ∀ n, JName k n → K n) (h : addJs N ord f s c e js = some t) : Adds B K lo s t := by
  cases js with
  | nil => simp only [addJs, Option.some.injEq] at h; subst h; exact .refl hcl
  | cons j js =>
    rw [addJs] at h
    cases ha : addJ N ord f s c e j with
    | none => rw [ha] at h; cases h
    | some s1 =>
      rw [ha] at h
      have a1 := addJ_adds N ord f s c e j s1 hB hlo hcl hc (hK j (by simp)) ha
      exact a1.trans (addJs_adds N ord f s1 c e js t (fun x hx => lt_of_lt_of_le (hB x hx) a1.next) (hlo.trans a1.next) a1.cl
        (hc.mono a1.next) (fun k hk => hK k (by simp [hk])) h)
end

/-- `from_json` makes new compartments and leaves all others alone -/
theorem fromJson_new (N : Names S) (ord : PyOrd ℕ) (f : ℕ) (s : St S) (j : J S) (c : ℕ) (t : St S)
    (h : fromJson N ord f s j = some (c, t)) : c = s.next ∧ s.next < t.next ∧
    (∀ x, (x < s.next ∨ t.next ≤ x) → t.H x = s.H x) ∧
    Cl (fun x => s.next ≤ x ∧ x < t.next) (JName j) t.H := by
  cases j with
  | node name syns el subs =>
    rw [fromJson] at h
    generalize hs1 : ({ H := put s.H s.next (Node.addSyns { name := name } syns), next := s.next + 1 } : St S) = s1 at h
    cases ha : addJs N ord f s1 s.next false subs with
    | none => rw [ha] at h; cases h
    | some u =>
      simp only [ha, Option.map_some, Option.some.injEq, Prod.mk.injEq] at h
      obtain ⟨rfl, rfl⟩ := h
      have hn1 : s1.next = s.next + 1 := by rw [← hs1]
      have hcl : Cl (Rg (fun _ => False) s.next s1.next) (JName (.node name syns el subs)) s1.H := by
        refine ⟨fun x y hx hy => ?_, fun x n hx hn => ?_⟩
        · rcases hx with hx | ⟨h1, h2⟩
          · exact hx.elim
          · obtain rfl : x = s.next := by omega
            rw [← hs1] at hy
            dsimp only at hy
            rw [put_self, (addSyns_fields _ _).2.2.1] at hy
            cases hy
        · rcases hx with hx | ⟨h1, h2⟩
          · exact hx.elim
          · obtain rfl : x = s.next := by omega
            rw [← hs1] at hn
            dsimp only at hn
            rw [put_self, mem_addSyns] at hn
            refine .own _ _ ?_
            simp only [Node.names, List.mem_cons, List.not_mem_nil, or_false] at hn
            simpa [J.names, J.name, J.syns] using hn
      have a := addJs_adds (B := fun _ => False) (lo := s.next) N ord f s1 s.next false subs u (fun x hx => hx.elim) (by omega)
        hcl (.inr ⟨le_refl _, by omega⟩) (fun k hk n hn => .sub _ k _ (by simpa [J.subs] using hk) hn) ha
      have hnx := a.next
      refine ⟨rfl, by omega, fun x hx => ?_, ⟨fun x y hx hy => ?_, fun x n hx hn => a.cl.nam x n (.inr hx) hn⟩⟩
      · rw [a.frame x (by rintro (h | ⟨h1, h2⟩); exact h.elim; omega), ← hs1]
        exact put_ne _ _ _ (by omega)
      · rcases a.cl.sub x y (.inr hx) hy with h | h
        · exact h.elim
        · exact h

/-! ### merging ends -/

/-- below `c` there is a tree, of height at most `rank c` -/
structure TreeBelow (H : Heap S) (rank : ℕ → ℕ) (c : ℕ) : Prop where
  desc : ∀ x y, Below H c x → y ∈ (H x).subs → rank y < rank x
  nodup : ∀ x, Below H c x → (H x).subs.Nodup
  apart : ∀ x a b y, Below H c x → a ∈ (H x).subs → b ∈ (H x).subs → a ≠ b → Below H a y → ¬ Below H b y

theorem TreeBelow.sub {H : Heap S} {rank : ℕ → ℕ} {c d : ℕ} (h : TreeBelow H rank c) (hd : d ∈ (H c).subs) : TreeBelow H rank d :=
  ⟨fun x y hx => h.desc x y (.step hd hx), fun x hx => h.nodup x (.step hd hx), fun x a b y hx => h.apart x a b y (.step hd hx)⟩

theorem Below.agree {H H' : Heap S} {c : ℕ} (he : ∀ x, Below H c x → H' x = H x) : ∀ y, Below H' c y ↔ Below H c y := by
  intro y
  constructor
  · intro h
    induction h with
    | refl => exact .refl _
    | @step a b y hs hb ih =>
      rw [he a (.refl _)] at hs
      exact .step hs (ih fun x hx => he x (.step hs hx))
  · intro h
    induction h with
    | refl => exact .refl _
    | @step a b y hs hb ih =>
      exact .step (by rw [he a (.refl _)]; exact hs) (ih fun x hx => he x (.step hs hx))

theorem TreeBelow.agree {H H' : Heap S} {rank : ℕ → ℕ} {c : ℕ} (h : TreeBelow H rank c) (he : ∀ x, Below H c x → H' x = H x) :
    TreeBelow H' rank c := by
  have hb := Below.agree he
  have hb' : ∀ d, Below H c d → ∀ y, Below H' d y ↔ Below H d y := fun d hd => Below.agree fun x hx => he x (hd.trans hx)
  refine ⟨fun x y hx hy => ?_, fun x hx => ?_, fun x a b y hx ha hb2 hne h1 h2 => ?_⟩
  · rw [he x ((hb x).1 hx)] at hy; exact h.desc x y ((hb x).1 hx) hy
  · rw [he x ((hb x).1 hx)]; exact h.nodup x ((hb x).1 hx)
  · have hx' := (hb x).1 hx
    rw [he x hx'] at ha hb2
    exact h.apart x a b y hx' ha hb2 hne ((hb' a (hx'.trans (.of_mem ha)) y).1 h1) ((hb' b (hx'.trans (.of_mem hb2)) y).1 h2)

/-- merging a list of trees into `i`, one after the other, if merging each of them ends -/
theorem merge_all_ok (ord : PyOrd ℕ) (f : ℕ) (rank : ℕ → ℕ) (i : ℕ)
    (ih : ∀ (H : Heap S) (j : ℕ), TreeBelow H rank j → rank j < f → (∀ y, Below H j y → ¬ Below H i y) →
      ∃ H', mergeSub ord f H i j = some H') :
    ∀ (l : List ℕ) (H : Heap S), l.Nodup → (∀ j ∈ l, TreeBelow H rank j ∧ rank j < f ∧ ∀ y, Below H j y → ¬ Below H i y) →
      (∀ a ∈ l, ∀ b ∈ l, a ≠ b → ∀ y, Below H a y → ¬ Below H b y) →
      ∃ H', l.foldlM (fun H j => mergeSub ord f H i j) H = some H' := by
  intro l
  induction l with
  | nil => intro H _ _ _; exact ⟨H, rfl⟩
  | cons a l ihl =>
    intro H hnd hl hap
    obtain ⟨h1, h2, h3⟩ := hl a (by simp)
    obtain ⟨H1, hm⟩ := ih H a h1 h2 h3
    obtain ⟨hi, -⟩ := mergeSub_into ord f H H1 i a hm
    have hne : ∀ j ∈ l, j ≠ a := fun j hj e => (List.nodup_cons.1 hnd).1 (e ▸ hj)
    have hfr : ∀ j ∈ l, ∀ x, Below H j x → H1 x = H x := fun j hj x hx =>
      hi.frame x ((hl j (by simp [hj])).2.2 x hx) (hap j (by simp [hj]) a (by simp) (hne j hj) x hx)
    rw [List.foldlM_cons, hm]
    refine ihl H1 (List.nodup_cons.1 hnd).2 (fun j hj => ⟨?_, (hl j (by simp [hj])).2.1, fun y hy hy' => ?_⟩)
      (fun b hb c hc hne' y hy hy' => ?_)
    · exact (hl j (by simp [hj])).1.agree (hfr j hj)
    · rw [Below.agree (hfr j hj)] at hy
      rcases hi.below _ _ hy' with h | h
      · exact (hl j (by simp [hj])).2.2 y hy h
      · exact hap j (by simp [hj]) a (by simp) (hne j hj) y hy h
    · rw [Below.agree (hfr b hb)] at hy
      rw [Below.agree (hfr c hc)] at hy'
      exact hap b (by simp [hb]) c (by simp [hc]) hne' y hy hy'

theorem mergeSub_ok (ord : PyOrd ℕ) (rank : ℕ → ℕ) : ∀ (f : ℕ) (H : Heap S) (self comp : ℕ), TreeBelow H rank comp → rank comp < f →
    (∀ y, Below H comp y → ¬ Below H self y) → ∃ H', mergeSub ord f H self comp = some H' := by
  intro f
  induction f with
  | zero => intro H self comp _ h; omega
  | succ f ih =>
    intro H self comp ht hr hd
    rw [mergeSub]
    cases hm : matching ord H self comp with
    | none => exact ⟨_, rfl⟩
    | some i =>
      dsimp only
      have hi : Below H self i := by
        have := List.mem_of_find?_eq_some hm
        rw [ord.mem, mem_pyadd] at this
        rcases this with h | rfl
        · exact .of_mem h
        · exact .refl _
      have hag : ∀ j ∈ (H comp).subs, ∀ x, Below H j x → put H i ((H i).addSyns (H comp).names) x = H x :=
        fun j hj x hx => put_ne _ _ _ fun e => hd x (.step hj hx) (e ▸ hi)
      have hmem : ∀ j, j ∈ ord.f (H comp).subs → j ∈ (H comp).subs := fun j hj => (ord.mem _ _).1 hj
      refine merge_all_ok ord f rank i (fun H j => ih H i j) _ _ ?_ (fun j hj => ?_) fun a ha b hb hne y hy hy' => ?_
      · exact (ord.perm _).nodup_iff.2 (ht.nodup comp (.refl _))
      · have hj' := hmem j hj
        refine ⟨(ht.sub hj').agree (hag j hj'), by have := ht.desc comp j (.refl _) hj'; omega, fun y hy hy' => ?_⟩
        rw [putSyns_below] at hy hy'
        exact hd y (.step hj' hy) (hi.trans hy')
      · rw [putSyns_below] at hy hy'
        exact ht.apart comp a b y (.refl _) (hmem a ha) (hmem b hb) hne hy hy'

/-- what is below a compartment of a forest is a tree -/
theorem Forest.treeBelow {s : St S} (hs : Forest s) (c : ℕ) : TreeBelow s.H (fun x => s.next - x) c :=
  ⟨fun x y _ hy => by have := (hs.up x y hy).2; omega, fun x _ => hs.nodup x,
    fun x a b y _ ha hb hne h1 h2 => hne (branch_unique hs ha hb h1 h2)⟩

theorem mapM_all {α β : Type} (g : α → Option β) : ∀ (l : List α), (∀ x ∈ l, ∃ y, g x = some y) →
    ∃ m, l.mapM g = some m := by
  intro l
  induction l with
  | nil => intro _; exact ⟨[], rfl⟩
  | cons a l ih =>
    intro h
    obtain ⟨y, hy⟩ := h a (by simp)
    obtain ⟨m, hm⟩ := ih fun x hx => h x (by simp [hx])
    exact ⟨y :: m, by rw [List.mapM_cons, hy, hm]; rfl⟩

theorem mapM_mem {α β : Type} (g : α → Option β) : ∀ (l : List α) (m : List β), l.mapM g = some m →
    (∀ x ∈ l, ∃ y ∈ m, g x = some y) ∧ ∀ y ∈ m, ∃ x ∈ l, g x = some y := by
  intro l
  induction l with
  | nil => intro m h; cases h; simp
  | cons a l ih =>
    intro m h
    rw [List.mapM_cons] at h
    cases ha : g a with
    | none => rw [ha] at h; cases h
    | some y =>
      cases hl : l.mapM g with
      | none => rw [ha, hl] at h; cases h
      | some m' =>
        rw [ha, hl] at h
        cases h
        obtain ⟨h1, h2⟩ := ih m' hl
        constructor
        · intro x hx
          rcases List.mem_cons.1 hx with rfl | hx
          · exact ⟨y, by simp, ha⟩
          · obtain ⟨z, hz, e⟩ := h1 x hx; exact ⟨z, by simp [hz], e⟩
        · intro z hz
          rcases List.mem_cons.1 hz with rfl | hz
          · exact ⟨a, by simp, ha⟩
          · obtain ⟨x, hx, e⟩ := h2 z hz; exact ⟨x, by simp [hx], e⟩

/-! ### collapsing -/

theorem collapseRec_spec (ord : PyOrd ℕ) : ∀ (f : ℕ) (H H' : Heap S) (self sub : ℕ), collapseRec ord f H self sub = some H' →
    (∀ x, (H' x).subs = (H x).subs ∧ (H' x).name = (H x).name ∧ (H' x).elem = (H x).elem ∧ (H' x).parent = (H x).parent) ∧
    Grow H H' ∧ (∀ x, x ≠ self → ¬ Below H sub x → H' x = H x) ∧
    (∀ x s, s ∈ (H' x).names → s ∈ (H x).names ∨ Known H sub s) ∧ ∀ s, Known H sub s → s ∈ (H' self).names := by
  intro f
  induction f with
  | zero => intro H H' self sub h; cases h
  | succ f ih =>
    intro H H' self sub h
    rw [collapseRec] at h
    cases hf : (ord.f (H sub).subs).foldlM (fun H x => collapseRec ord f H sub x) H with
    | none => rw [hf] at h; cases h
    | some H2 =>
      simp only [hf, Option.map_some, Option.some.injEq] at h
      have loop : ∀ (l : List ℕ) (H1 H2 : Heap S), (∀ j ∈ l, j ∈ (H sub).subs) → (∀ x, (H1 x).subs = (H x).subs) →
          (∀ x s, s ∈ (H1 x).names → s ∈ (H x).names ∨ Known H sub s) →
          l.foldlM (fun H x => collapseRec ord f H sub x) H1 = some H2 →
          (∀ x, (H2 x).subs = (H1 x).subs ∧ (H2 x).name = (H1 x).name ∧ (H2 x).elem = (H1 x).elem ∧ (H2 x).parent = (H1 x).parent) ∧
          Grow H1 H2 ∧ (∀ x, ¬ Below H sub x → H2 x = H1 x) ∧ (∀ x s, s ∈ (H2 x).names → s ∈ (H x).names ∨ Known H sub s) ∧
          ∀ j ∈ l, ∀ s, Known H1 j s → s ∈ (H2 sub).names := by
        intro l
        induction l with
        | nil =>
          intro H1 H2 _ _ hn h
          simp at h; subst h
          exact ⟨fun _ => ⟨rfl, rfl, rfl, rfl⟩, .refl _, fun _ _ => rfl, hn, fun j hj => absurd hj (by simp)⟩
        | cons a l ihl =>
          intro H1 H2 hl hsub hn h
          rw [List.foldlM_cons] at h
          cases ha : collapseRec ord f H1 sub a with
          | none => rw [ha] at h; cases h
          | some H3 =>
            rw [ha] at h
            obtain ⟨a1, a2, a3, a4, a5⟩ := ih _ _ _ _ ha
            have hbel : ∀ x y, Below H1 x y ↔ Below H x y := fun x y =>
              ⟨Below.congr fun z => (hsub z).symm, Below.congr hsub⟩
            have hka : ∀ s, Known H1 a s → Known H sub s := by
              rintro s ⟨x, hx, hs⟩
              rcases hn x s hs with hs | hs
              · exact ⟨x, .step (hl a (by simp)) ((hbel _ _).1 hx), hs⟩
              · exact hs
            obtain ⟨b1, b2, b3, b4, b5⟩ := ihl H3 H2 (fun j hj => hl j (by simp [hj])) (fun x => (a1 x).1.trans (hsub x))
              (fun x s hs => (a4 x s hs).elim (hn x s) fun h => .inr (hka s h)) h
            refine ⟨fun x => ⟨(b1 x).1.trans (a1 x).1, (b1 x).2.1.trans (a1 x).2.1, (b1 x).2.2.1.trans (a1 x).2.2.1,
              (b1 x).2.2.2.trans (a1 x).2.2.2⟩, a2.trans b2, fun x hx => ?_, b4, fun j hj s hs => ?_⟩
            · rw [b3 x hx, a3 x (fun e => hx (e ▸ .refl _)) fun hb => hx (.step (hl a (by simp)) ((hbel _ _).1 hb))]
            · rcases List.mem_cons.1 hj with rfl | hj
              · exact (b2 sub).1 s (a5 s hs)
              · exact b5 j hj s (a2.known hs)
      obtain ⟨b1, b2, b3, b4, b5⟩ := loop _ _ _ (fun j hj => (ord.mem _ _).1 hj) (fun _ => rfl) (fun _ _ => .inl) hf
      have hsubn : ∀ s, s ∈ (H2 sub).names → Known H sub s := fun s hs => (b4 sub s hs).elim (fun h => ⟨sub, .refl _, h⟩) id
      subst h
      refine ⟨fun x => ⟨?_, ?_, ?_, ?_⟩, b2.trans (.putSyns _ _ _), fun x hx hb => ?_, fun x s hs => ?_, fun s hs => ?_⟩
      · rw [putSyns_subs]; exact (b1 x).1
      · exact (putSyns_fix H2 self _ x).1.trans (b1 x).2.1
      · exact (putSyns_fix H2 self _ x).2.1.trans (b1 x).2.2.1
      · exact (putSyns_fix H2 self _ x).2.2.trans (b1 x).2.2.2
      · rw [put_ne _ _ _ hx, b3 x hb]
      · rcases (putSyns_names _ _ _ _ _).1 hs with hs | ⟨-, hs⟩
        · exact b4 x s hs
        · exact .inr (hsubn s hs)
      · rw [putSyns_names]
        refine .inr ⟨rfl, ?_⟩
        obtain ⟨x, hx, hn⟩ := hs
        cases hx with
        | refl => exact (b2 sub).1 s hn
        | step hj hb => exact b5 _ ((ord.mem _ _).2 hj) s ⟨x, hb, hn⟩

theorem collapseRec_ok (ord : PyOrd ℕ) (rank : ℕ → ℕ) : ∀ (f : ℕ) (H : Heap S) (self sub : ℕ),
    (∀ x y, Below H sub x → y ∈ (H x).subs → rank y < rank x) → rank sub < f → ∃ H', collapseRec ord f H self sub = some H' := by
  intro f
  induction f with
  | zero => intro H self sub _ h; omega
  | succ f ih =>
    intro H self sub hd hr
    have loop : ∀ (l : List ℕ) (H1 : Heap S), (∀ j ∈ l, j ∈ (H sub).subs) → (∀ x, (H1 x).subs = (H x).subs) →
        ∃ H2, l.foldlM (fun H x => collapseRec ord f H sub x) H1 = some H2 := by
      intro l
      induction l with
      | nil => intro H1 _ _; exact ⟨H1, rfl⟩
      | cons a l ihl =>
        intro H1 hl hs
        have ha := hl a (by simp)
        have hra := hd sub a (.refl _) ha
        obtain ⟨H3, h3⟩ := ih H1 sub a (fun x y hx hy => hd x y (.step ha (hx.congr fun z => (hs z).symm)) (hs x ▸ hy)) (by omega)
        rw [List.foldlM_cons, h3]
        exact ihl H3 (fun j hj => hl j (by simp [hj])) fun x => ((collapseRec_spec ord _ _ _ _ _ h3).1 x).1.trans (hs x)
    obtain ⟨H2, h2⟩ := loop _ H (fun j hj => (ord.mem _ _).1 hj) fun _ => rfl
    exact ⟨_, by rw [collapseRec, h2]; rfl⟩

end Cmp
