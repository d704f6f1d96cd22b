import Verif.Props.CompartmentTree

/-!
Paths of compartments that were added are found again (C37); the cache of the manager (C54).
-/

set_option linter.unusedSectionVars false
set_option linter.unusedSimpArgs false

namespace Cmp

variable {S : Type} [DecidableEq S]

/-! ### below -/

theorem Below.snoc {H : Heap S} {a y : ℕ} (h : Below H a y) : y = a ∨ ∃ p, Below H a p ∧ y ∈ (H p).subs := by
  induction h with
  | refl => exact .inl rfl
  | @step c s x hs _ ih =>
    rcases ih with rfl | ⟨p, hp, hy⟩
    · exact .inr ⟨c, .refl _, hs⟩
    · exact .inr ⟨p, .step hs hp, hy⟩

theorem Below.le {s : St S} (ht : Forest s) {a y : ℕ} (h : Below s.H a y) : a ≤ y := by
  induction h with
  | refl => exact le_refl _
  | step hs _ ih => have := (ht.up _ _ hs).2.1; omega

theorem Below.lt_next {s : St S} (ht : Forest s) {a y : ℕ} (ha : a < s.next) (h : Below s.H a y) : y < s.next := by
  rcases h.snoc with rfl | ⟨p, _, hy⟩
  · exact ha
  · exact (ht.up _ _ hy).2.2

theorem below_linear {s : St S} (ht : Forest s) (n : ℕ) : ∀ y, y < n → ∀ a b, Below s.H a y → Below s.H b y →
    Below s.H a b ∨ Below s.H b a := by
  induction n with
  | zero => intro y hy; omega
  | succ n ih =>
    intro y hy a b ha hb
    rcases ha.snoc with rfl | ⟨p, hp, hyp⟩
    · exact .inr hb
    · rcases hb.snoc with rfl | ⟨q, hq, hyq⟩
      · exact .inl ha
      · have h1 := ht.up p y hyp
        have h2 := ht.up q y hyq
        have : p = q := by rw [h1.1] at h2; simpa using h2.1
        subst this
        exact ih p (by omega) a b hp hq

theorem branch_unique {s : St S} (ht : Forest s) {x a b y : ℕ} (ha : a ∈ (s.H x).subs) (hb : b ∈ (s.H x).subs)
    (hay : Below s.H a y) (hby : Below s.H b y) : a = b := by
  have key : ∀ a b, a ∈ (s.H x).subs → b ∈ (s.H x).subs → Below s.H a b → a = b := by
    intro a b ha hb h
    rcases h.snoc with rfl | ⟨p, hp, hbp⟩
    · rfl
    · have h1 := ht.up p b hbp
      have h2 := ht.up x b hb
      have : p = x := by rw [h1.1] at h2; simpa using h2.1
      subst this
      have := hp.le ht
      have := (ht.up p a ha).2.1
      omega
  rcases below_linear ht (y + 1) y (by omega) a b hay hby with h | h
  · exact key a b ha hb h
  · exact (key b a hb ha h).symm

/-! ### chains of named compartments -/

/-- `d` is reached from `c` by going down to subcompartments with the given names -/
def Chain (H : Heap S) : ℕ → List S → ℕ → Prop
  | c, [], d => d = c
  | c, n :: p, d => ∃ y ∈ (H c).subs, n ∈ (H y).names ∧ Chain H y p d

/-- each name on the path is a name of only one compartment -/
def Unique (s : St S) (p : List S) : Prop :=
  ∀ n ∈ p, ∀ x y, x < s.next → y < s.next → n ∈ (s.H x).names → n ∈ (s.H y).names → x = y

/-- compartments are only added -/
structure Ext (s t : St S) : Prop where
  next : s.next ≤ t.next
  names : ∀ x, x < s.next → (t.H x).names = (s.H x).names
  subs : ∀ x, x < s.next → ∀ y ∈ (s.H x).subs, y ∈ (t.H x).subs

theorem Ext.refl (s : St S) : Ext s s := ⟨le_refl _, fun _ _ => rfl, fun _ _ _ h => h⟩

theorem Ext.trans {s t u : St S} (h1 : Ext s t) (h2 : Ext t u) : Ext s u :=
  ⟨h1.next.trans h2.next, fun x hx => by rw [h2.names x (by have := h1.next; omega), h1.names x hx],
   fun x hx y hy => h2.subs x (by have := h1.next; omega) y (h1.subs x hx y hy)⟩

theorem addSub_forest (N : Names S) (ord : PyOrd ℕ) (f : ℕ) (s t : St S) (ht : Forest s) (c d : ℕ) (hc : c < s.next) (name : S)
    (e : Option Bool) (hu : N.unsp name = false) (hf : s.next < f) (h : addSub N ord f s c name e = some (d, t)) :
    Forest t ∧ Ext s t ∧ d < t.next ∧ t.next ≤ s.next + 1 ∧ name ∈ (t.H d).names ∧
      (d ∈ (t.H c).subs ∨ name ∈ (t.H c).names ∧ c ≠ d) := by
  rcases addSub_cases N ord f s ht c hc name e hu hf with ⟨d', hd, hn', h'⟩ | ⟨h1, h2, h'⟩ | ⟨h1, h'⟩
  · rw [h'] at h; cases h
    exact ⟨ht, .refl _, (ht.up c d hd).2.2, by omega, hn', .inl hd⟩
  · rw [h'] at h; cases h
    have hH := attach_H s c hc name e
    refine ⟨(attach_forest s ht c hc name e h1 h2).1, ⟨Nat.le_succ _, ?_, ?_⟩, Nat.lt_succ_self _, le_refl _, ?_, .inl ?_⟩
    · intro x hx
      have : x ≠ s.next := by omega
      rw [hH, if_neg this]
      split
      · rename_i hx; subst hx; rfl
      · rfl
    · intro x hx y hy
      have : x ≠ s.next := by omega
      rw [hH, if_neg this]
      split
      · rename_i hx; subst hx; simp [hy]
      · exact hy
    · rw [hH]; simp [newNode, Node.names]
    · have : c ≠ s.next := by omega
      rw [hH]; simp [this]
  · rw [h'] at h; cases h
    have hold : ∀ x, x < s.next → put s.H s.next (newNode s c name e) x = s.H x := by
      intro x hx
      have : x ≠ s.next := by omega
      simp [put, this]
    have hsub : ∀ x y, y ∈ (put s.H s.next (newNode s c name e) x).subs → x < s.next ∧ y < s.next ∧ y ∈ (s.H x).subs := by
      intro x y hy
      by_cases hx : x = s.next
      · subst hx; simp [put, newNode] at hy
      · have : y ∈ (s.H x).subs := by simpa [put, hx] using hy
        have h3 := ht.up x y this
        exact ⟨by omega, h3.2.2, this⟩
    refine ⟨⟨?_, ?_, ?_, ?_, ?_⟩, ⟨Nat.le_succ _, fun x hx => congrArg Node.names (hold x hx),
        fun x hx y hy => by dsimp only; rw [hold x hx]; exact hy⟩,
      Nat.lt_succ_self _, le_refl _, by simp [put, newNode, Node.names], .inr ⟨by dsimp only; rw [hold c hc]; exact h1, by omega⟩⟩
    · intro x y hy
      obtain ⟨a, b, hy⟩ := hsub x y hy
      have := ht.up x y hy
      dsimp only
      rw [hold y b]; exact ⟨this.1, this.2.1, by omega⟩
    · intro x
      by_cases hx : x = s.next
      · subst hx; simp [put, newNode]
      · simpa [put, hx] using ht.nodup x
    · intro x y hy
      obtain ⟨a, b, hy⟩ := hsub x y hy
      unfold Apart; dsimp only
      rw [hold x a, hold y b]; exact ht.par x y hy
    · intro x y z hy hz hyz
      obtain ⟨a, b, hy⟩ := hsub x y hy
      obtain ⟨_, b', hz⟩ := hsub x z hz
      unfold Apart; dsimp only
      rw [hold z b', hold y b]; exact ht.sib x y z hy hz hyz
    · intro x y hy
      obtain ⟨a, b, hy⟩ := hsub x y hy
      dsimp only
      rw [hold x a, hold y b]; exact ht.mono x y hy

theorem addSubs_chain (N : Names S) (ord : PyOrd ℕ) (f : ℕ) (p : List S) (hu : ∀ n ∈ p, N.unsp n = false) :
    ∀ (s t : St S) (c d : ℕ), Forest s → c < s.next → s.next + p.length < f + 1 → addSubs N ord f s c p = some (d, t) →
    Forest t ∧ Ext s t ∧ d < t.next ∧ t.next ≤ s.next + p.length ∧ (Unique t p → Chain t.H c p d) := by
  induction p with
  | nil => intro s t c d _ _ _ h; cases h
  | cons n p ih =>
    intro s t c d hs hc hf h
    have hlen : (n :: p).length = p.length + 1 := rfl
    -- the first step
    have first : ∀ (d1 : ℕ) (s1 : St S), addSub N ord f s c n = some (d1, s1) → Forest s1 ∧ Ext s s1 ∧ d1 < s1.next ∧
        s1.next ≤ s.next + 1 ∧ n ∈ (s1.H d1).names ∧ (d1 ∈ (s1.H c).subs ∨ n ∈ (s1.H c).names ∧ c ≠ d1) :=
      fun d1 s1 h1 => addSub_forest N ord f s s1 hs c d1 hc n none (hu n (by simp)) (by omega) h1
    -- and the others
    have rest : ∀ (d1 : ℕ) (s1 : St S), addSub N ord f s c n = some (d1, s1) →
        (Forest t ∧ Ext s1 t ∧ d < t.next ∧ t.next ≤ s1.next + p.length ∧ (Unique t p → Chain t.H d1 p d)) →
        Forest t ∧ Ext s t ∧ d < t.next ∧ t.next ≤ s.next + (n :: p).length ∧ (Unique t (n :: p) → Chain t.H c (n :: p) d) := by
      rintro d1 s1 h1 ⟨g1, g2, g3, g4, g5⟩
      obtain ⟨a1, a2, a3, a4, a5, a6⟩ := first d1 s1 h1
      have hc1 : c < s1.next := by have := a2.next; omega
      refine ⟨g1, a2.trans g2, g3, by omega, fun hun => ⟨d1, ?_, by rw [g2.names d1 a3]; exact a5,
        g5 fun m hm => hun m (by simp [hm])⟩⟩
      rcases a6 with a6 | ⟨a6, a7⟩
      · exact g2.subs c hc1 d1 a6
      · refine absurd (hun n (by simp) c d1 ?_ ?_ ?_ ?_) a7
        · have := g2.next; omega
        · have := g2.next; omega
        · rw [g2.names c hc1]; exact a6
        · rw [g2.names d1 a3]; exact a5
    cases p with
    | nil =>
      have h : addSub N ord f s c n = some (d, t) := h
      obtain ⟨a1, a2, a3, a4, a5, a6⟩ := first d t h
      exact rest d t h ⟨a1, .refl _, a3, by simp, fun _ => rfl⟩
    | cons m p =>
      unfold addSubs at h
      split at h
      · cases h
      · rename_i d1 s1 h1
        obtain ⟨a1, a2, a3, a4, a5, a6⟩ := first d1 s1 h1
        refine rest d1 s1 h1 (ih (fun k hk => hu k (by simp [hk])) s1 t d1 d a1 a3 ?_ h)
        omega

theorem addSubs_ok (N : Names S) (ord : PyOrd ℕ) (f : ℕ) (p : List S) (hp : p ≠ []) (hu : ∀ n ∈ p, N.unsp n = false) :
    ∀ (s : St S) (c : ℕ), Forest s → c < s.next → s.next + p.length < f + 1 → ∃ d t, addSubs N ord f s c p = some (d, t) := by
  induction p with
  | nil => exact absurd rfl hp
  | cons n p ih =>
    intro s c hs hc hf
    have hlen : (n :: p).length = p.length + 1 := rfl
    have h1 : ∃ d t, addSub N ord f s c n = some (d, t) := by
      rcases addSub_cases N ord f s hs c hc n none (hu n (by simp)) (by omega) with ⟨d, _, _, h⟩ | ⟨_, _, h⟩ | ⟨_, h⟩
      · exact ⟨_, _, h⟩
      · exact ⟨_, _, h⟩
      · exact ⟨_, _, h⟩
    cases p with
    | nil => exact h1
    | cons m p =>
      obtain ⟨d1, s1, h1⟩ := h1
      obtain ⟨a1, a2, a3, a4, _⟩ := addSub_forest N ord f s s1 hs c d1 hc n none (hu n (by simp)) (by omega) h1
      obtain ⟨d, t, h⟩ := ih (by simp) (fun k hk => hu k (by simp [hk])) s1 d1 a1 a3 (by omega)
      exact ⟨d, t, by unfold addSubs; simp only [h1]; exact h⟩

/-! ### crawling -/

theorem crawlSubs_miss (g : ℕ → List (Option S) → Option (Option ℕ × List (Option S))) (l : List (Option S)) (ss : List ℕ)
    (h : ∀ s ∈ ss, g s l = some (none, l)) : crawlSubs g ss l = some (none, l) := by
  induction ss with
  | nil => rfl
  | cons a ss ih =>
    unfold crawlSubs
    rw [h a (by simp)]
    exact ih fun s hs => h s (by simp [hs])

theorem crawlSubs_hit (g : ℕ → List (Option S) → Option (Option ℕ × List (Option S))) (l : List (Option S)) (y d : ℕ)
    (ss : List ℕ) (hy : y ∈ ss) (h : ∀ s ∈ ss, s ≠ y → g s l = some (none, l)) (hg : g y l = some (some d, [])) :
    crawlSubs g ss l = some (some d, []) := by
  induction ss with
  | nil => cases hy
  | cons a ss ih =>
    unfold crawlSubs
    by_cases ha : a = y
    · subst ha; rw [hg]
    · rw [h a (by simp) ha]
      rcases List.mem_cons.1 hy with rfl | hy
      · exact absurd rfl ha
      · exact ih hy fun s hs => h s (by simp [hs])

theorem popNames_miss (check : Bool) (n : Node S) (s : S) (l : List (Option S)) (h : s ∉ n.names) :
    popNames check n (some s :: l) = (false, some s :: l) := by
  simp [popNames, h]

theorem popUnsp_some (N : Names S) (s : S) (l : List (Option S)) (h : N.ends s = false) :
    popUnsp N (some s :: l) = some s :: l := by
  simp [popUnsp, List.dropWhile, h]

/-- where no compartment has the first name, nothing is found, and nothing is taken from the list -/
theorem crawl_miss (N : Names S) (ord : PyOrd ℕ) (check : Bool) (t : St S) (ht : Forest t) (n : S) (l : List (Option S))
    (hn : N.ends n = false) : ∀ (f x : ℕ), t.next < f + x → 0 < f → (∀ z, Below t.H x z → n ∉ (t.H z).names) →
    crawl N ord check t.H f x (some n :: l) = some (none, some n :: l) := by
  intro f
  induction f with
  | zero => intro x _ h; omega
  | succ f ih =>
    intro x hf _ hno
    unfold crawl
    rw [popNames_miss _ _ _ _ (hno x (.refl _))]
    dsimp only
    rw [popUnsp_some N n l hn]
    apply crawlSubs_miss
    intro s hs
    rw [ord.mem] at hs
    have := ht.up x s hs
    exact ih s (by omega) (by omega) fun z hz => hno z (.step hs hz)

theorem crawl_chain (N : Names S) (ord : PyOrd ℕ) (t : St S) (ht : Forest t) (p : List S) :
    ∀ (n : S) (y d f : ℕ), y < t.next → t.next < f + y → n ∈ (t.H y).names → Chain t.H y p d →
    Unique t (n :: p) → (∀ m ∈ n :: p, N.ends m = false) →
    crawl N ord false t.H f y (some n :: p.map some) = some (some d, []) := by
  induction p with
  | nil =>
    intro n y d f hy hf hn hch _ _
    obtain ⟨f, rfl⟩ : ∃ f', f = f' + 1 := ⟨f - 1, by omega⟩
    simp only [Chain] at hch
    subst hch
    unfold crawl
    simp [popNames, hn, popUnsp]
  | cons m p ih =>
    intro n y d f hy hf hn hch hun hends
    obtain ⟨f, rfl⟩ : ∃ f', f = f' + 1 := ⟨f - 1, by omega⟩
    obtain ⟨z, hz, hm, hch⟩ := hch
    have hup := ht.up y z hz
    have hmy : m ∉ (t.H y).names := by
      intro h
      have := hun m (by simp) y z hy hup.2.2 h hm
      omega
    unfold crawl
    have h1 : popNames false (t.H y) (some n :: List.map some (m :: p)) = (false, some m :: p.map some) := by
      simp [popNames, hn, hmy]
    rw [h1]
    dsimp only
    rw [popUnsp_some N m _ (hends m (by simp))]
    apply crawlSubs_hit _ _ z d
    · rw [ord.mem]; exact hz
    · intro s hs hsz
      rw [ord.mem] at hs
      have hs2 := ht.up y s hs
      refine crawl_miss N ord false t ht m _ (hends m (by simp)) f s (by omega) (by omega) fun w hw hmw => ?_
      have : w = z := hun m (by simp) w z (hw.lt_next ht hs2.2.2) hup.2.2 hmw hm
      subst this
      exact hsz (branch_unique ht hs hz hw (.refl _))
    · exact ih m z d f hup.2.2 (by omega) hm hch (fun k hk => hun k (by simp [hk])) fun k hk => hends k (by simp [hk])

theorem crawl_below (N : Names S) (ord : PyOrd ℕ) (t : St S) (ht : Forest t) (n : S) (p : List S) (y d : ℕ)
    (hy : y < t.next) (hn : n ∈ (t.H y).names) (hch : Chain t.H y p d) (hun : Unique t (n :: p))
    (hends : ∀ m ∈ n :: p, N.ends m = false) : ∀ (f x : ℕ), t.next < f + x → Below t.H x y →
    crawl N ord false t.H f x (some n :: p.map some) = some (some d, []) := by
  intro f
  induction f with
  | zero => intro x hf hb; have := hb.le ht; omega
  | succ f ih =>
    intro x hf hb
    cases hb with
    | refl => exact crawl_chain N ord t ht p n y d (f + 1) hy hf hn hch hun hends
    | @step _ s _ hs hb =>
      have hs2 := ht.up x s hs
      have hle := hb.le ht
      have hnx : n ∉ (t.H x).names := by
        intro h
        have := hun n (by simp) x y (by omega) hy h hn
        omega
      unfold crawl
      rw [popNames_miss _ _ _ _ hnx]
      dsimp only
      rw [popUnsp_some N n _ (hends n (by simp))]
      apply crawlSubs_hit _ _ s d
      · rw [ord.mem]; exact hs
      · intro r hr hrs
        rw [ord.mem] at hr
        have hr2 := ht.up x r hr
        refine crawl_miss N ord false t ht n _ (hends n (by simp)) f r (by omega) (by omega) fun w hw hmw => ?_
        have : w = y := hun n (by simp) w y (hw.lt_next ht hr2.2.2) hy hmw hn
        subst this
        exact hrs (branch_unique ht hr hs hw hb)
      · exact ih s (by omega) hb

/-- adding a path that is already there changes nothing -/
theorem addSubs_again (N : Names S) (ord : PyOrd ℕ) (f : ℕ) (p : List S) (hp : p ≠ []) (hu : ∀ n ∈ p, N.unsp n = false)
    (t : St S) (ht : Forest t) : ∀ (c d : ℕ), c < t.next → t.next < f → Chain t.H c p d →
    addSubs N ord f t c p = some (d, t) := by
  induction p with
  | nil => exact absurd rfl hp
  | cons n p ih =>
    intro c d hc hf hch
    obtain ⟨y, hy, hn, hch⟩ := hch
    have h1 : addSub N ord f t c n = some (y, t) := by
      rcases addSub_cases N ord f t ht c hc n none (hu n (by simp)) hf with ⟨z, hz, hnz, h⟩ | ⟨h1, _, _⟩ | ⟨h1, _⟩
      · by_cases e : y = z
        · subst e; exact h
        · exact absurd hnz (ht.sib c y z hy hz e n hn)
      · exact absurd hn (h1 y hy)
      · exact absurd hn (ht.par c y hy n h1)
    cases p with
    | nil => simp only [Chain] at hch; subst hch; exact h1
    | cons m p =>
      unfold addSubs
      simp only [h1]
      exact ih (by simp) (fun k hk => hu k (by simp [hk])) y d (ht.up c y hy).2.2 hf hch

theorem Below.ext {s t : St S} (hs : Forest s) (h : Ext s t) {a b : ℕ} (hb : Below s.H a b) : Below t.H a b := by
  induction hb with
  | refl => exact .refl _
  | step hm _ ih => exact .step (h.subs _ (by have := hs.up _ _ hm; omega) _ hm) ih

/-- C37, for paths whose names (none of which ends with "unspecified") are each a name of only one compartment: `add_subs`
returns a compartment which is then found by crawling the hierarchy for the path, in whatever order sets are iterated over;
adding the path again changes nothing and returns the same compartment. -/
theorem added_path_found_partial (N : Names S) (ord ord' : PyOrd ℕ) (s : St S) (hs : Forest s) (root c : ℕ) (hr : Below s.H root c)
    (hc : c < s.next) (p : List S) (hp : p ≠ []) (hends : ∀ n ∈ p, N.ends n = false ∧ N.unsp n = false)
    (f : ℕ) (hf : s.next + p.length < f) :
    ∃ d t, addSubs N ord f s c p = some (d, t) ∧ (Unique t p →
      crawl N ord' false t.H f root (p.map some) = some (some d, []) ∧ addSubs N ord' f t c p = some (d, t)) := by
  obtain ⟨d, t, h⟩ := addSubs_ok N ord f p hp (fun n hn => (hends n hn).2) s c hs hc (by omega)
  obtain ⟨h1, h2, h3, h4, h5⟩ := addSubs_chain N ord f p (fun n hn => (hends n hn).2) s t c d hs hc (by omega) h
  refine ⟨d, t, h, fun hun => ⟨?_, ?_⟩⟩
  · cases p with
    | nil => exact absurd rfl hp
    | cons n p =>
      obtain ⟨y, hy, hn, hch⟩ := h5 hun
      have hroot : Below t.H root y := (hr.ext hs h2).trans (.of_mem hy)
      refine crawl_below N ord' t h1 n p y d (h1.up c y hy).2.2 hn hch hun (fun m hm => (hends m hm).1) f root ?_ hroot
      have := hroot.le h1
      omega
  · exact addSubs_again N ord' f p hp (fun n hn => (hends n hn).2) t h1 c d (by have := h2.next; omega) (by omega) (h5 hun)

/-! ### find_matching -/

/-- C37: the manager finds the added compartment, if it has not answered a query with these names before. -/
theorem added_path_matching_partial {Key : Type} [DecidableEq Key] (N : Names S) (key : List (Option S) → Key) (ord ord' : PyOrd ℕ)
    (m : Mgr S Key) (hs : Forest m.st) (c : ℕ) (hr : Below m.st.H m.root c)
    (hc : c < m.st.next) (p : List S) (hp : p ≠ []) (hends : ∀ n ∈ p, N.ends n = false ∧ N.unsp n = false)
    (f : ℕ) (hf : m.st.next + p.length < f) (hcache : m.cache.get? (key (p.map some)) = none) :
    ∃ d t, addSubs N ord f m.st c p = some (d, t) ∧ (Unique t p →
      (findMatching N key ord' f { m with st := t } (p.map some) false).1 = .comp d) := by
  obtain ⟨d, t, h, h2⟩ := added_path_found_partial N ord ord' m.st hs m.root c hr hc p hp hends f hf
  refine ⟨d, t, h, fun hun => ?_⟩
  unfold findMatching
  simp only [hcache, (h2 hun).1]

/-- the answer that the hierarchy gives, without the cache -/
def fresh {Key : Type} (N : Names S) (ord : PyOrd ℕ) (f : ℕ) (m : Mgr S Key) (name : List (Option S)) : Found :=
  match crawl N ord false m.st.H f m.root name with
  | none => .fuel
  | some (none, _) => .missing
  | some (some c, _) => .comp c

/-- a sequence of queries: the answers, and the manager -/
def queries {Key : Type} [DecidableEq Key] (N : Names S) (key : List (Option S) → Key) (ord : PyOrd ℕ) (f : ℕ) :
    List (List (Option S) × Bool) → Mgr S Key → List Found × Mgr S Key
  | [], m => ([], m)
  | (q, check) :: qs, m =>
    let (a, m) := findMatching N key ord f m q check
    let (as, m) := queries N key ord f qs m
    (a :: as, m)

/-- C54, for queries that do not use `check_elem` and whose names, if they are joined to equal strings, are equal: the answer
to a query does not depend on the queries before. -/
theorem queries_fresh_partial {Key : Type} [DecidableEq Key] (N : Names S) (key : List (Option S) → Key) (ord : PyOrd ℕ) (f : ℕ)
    (qs : List (List (Option S) × Bool)) (m : Mgr S Key) (hm : m.cache = [])
    (hcheck : ∀ q ∈ qs, q.2 = false) (hkey : ∀ q ∈ qs, ∀ r ∈ qs, key q.1 = key r.1 → q.1 = r.1) :
    (queries N key ord f qs m).1 = qs.map fun q => fresh N ord f m q.1 := by
  have main : ∀ (l : List (List (Option S) × Bool)) (m' : Mgr S Key), (∀ q ∈ l, q ∈ qs) → m'.st = m.st → m'.root = m.root →
      (∀ q ∈ qs, ∀ c, m'.cache.get? (key q.1) = some c → fresh N ord f m q.1 = .comp c) →
      (queries N key ord f l m').1 = l.map fun q => fresh N ord f m q.1 := by
    intro l
    induction l with
    | nil => intro m' _ _ _ _; rfl
    | cons q l ih =>
      intro m' hl h1 h2 h3
      obtain ⟨n, check⟩ := q
      have hq := hl (n, check) (by simp)
      have hck := hcheck _ hq
      simp only at hck
      subst hck
      have hl' : ∀ q ∈ l, q ∈ qs := fun q h => hl q (by simp [h])
      have hfresh : fresh N ord f m' n = fresh N ord f m n := by simp [fresh, h1, h2]
      have hstep : (findMatching N key ord f m' n false).1 = fresh N ord f m n ∧
          (queries N key ord f l (findMatching N key ord f m' n false).2).1 = l.map fun q => fresh N ord f m q.1 := by
        unfold findMatching
        split
        · rename_i c hc
          exact ⟨(h3 _ hq c hc).symm, ih _ hl' h1 h2 h3⟩
        · split
          · rename_i hcr
            exact ⟨by rw [← hfresh]; simp [fresh, hcr], ih _ hl' h1 h2 h3⟩
          · rename_i hcr
            exact ⟨by rw [← hfresh]; simp [fresh, hcr], ih _ hl' h1 h2 h3⟩
          · rename_i c _ hcr
            have hc : fresh N ord f m n = .comp c := by rw [← hfresh]; simp [fresh, hcr]
            refine ⟨hc.symm, ih _ hl' h1 h2 ?_⟩
            intro q hq' d hd
            dsimp only at hd
            rw [Dict.get?_set] at hd
            split at hd
            · rename_i e
              cases hd
              rw [← hkey _ hq _ hq' e]; exact hc
            · exact h3 q hq' d hd
      show (findMatching N key ord f m' n false).1 :: (queries N key ord f l (findMatching N key ord f m' n false).2).1 = _
      rw [hstep.1, hstep.2]; rfl
  exact main qs m (fun q h => h) rfl rfl (by simp [hm])

/-! ### examples -/

/-- names for the examples -/
def exN : Names String where
  unsp s := s == "unspecified"
  ends s := s == "unspecified" || s == "air, unspecified"
  le a b := decide (a ≤ b)

/-- a root, elementary flows, intermediate flows -/
def exSt : St String :=
  { H := fun x => match x with
      | 0 => { name := "root", subs := [1, 2] }
      | 1 => { name := "Elementary Flows", syns := ["elementary"], elem := true, subs := [3, 4], parent := some 0 }
      | 2 => { name := "Intermediate Flows", parent := some 0 }
      | 3 => { name := "air", elem := true, parent := some 1 }
      | 4 => { name := "water", elem := true, subs := [5], parent := some 1 }
      | 5 => { name := "urban", elem := true, parent := some 4 }
      | _ => { name := "" }
    next := 6 }

theorem exSt_tree : Tree exSt := by
  have hs : ∀ x, (exSt.H x).subs = match x with | 0 => [1, 2] | 1 => [3, 4] | 4 => [5] | _ => [] := by
    intro x; unfold exSt; dsimp only; split <;> first | rfl | (split <;> simp_all)
  have hp : ∀ x, (exSt.H x).parent = match x with | 1 => some 0 | 2 => some 0 | 3 => some 1 | 4 => some 1 | 5 => some 4 | _ => none := by
    intro x; unfold exSt; dsimp only; split <;> first | rfl | (split <;> simp_all)
  have hpairs : ∀ x y, y ∈ (exSt.H x).subs → (x, y) ∈ [(0, 1), (0, 2), (1, 3), (1, 4), (4, 5)] := by
    intro x y h
    rw [hs] at h
    split at h <;> simp at h <;> simp [h]
  have hall : ∀ q ∈ [((0 : ℕ), (1 : ℕ)), (0, 2), (1, 3), (1, 4), (4, 5)], (exSt.H q.2).parent = some q.1 ∧ q.1 < q.2 ∧ q.2 < exSt.next ∧
      (∀ n ∈ (exSt.H q.1).names, n ∉ (exSt.H q.2).names) ∧ ((exSt.H q.1).elem = true → (exSt.H q.2).elem = true) ∧
      ∀ r ∈ [((0 : ℕ), (1 : ℕ)), (0, 2), (1, 3), (1, 4), (4, 5)], q.1 = r.1 → q.2 ≠ r.2 →
        ∀ n ∈ (exSt.H q.2).names, n ∉ (exSt.H r.2).names := by decide +kernel
  refine { up := fun x y h => ?_, nodup := fun x => ?_, par := fun x y h => ?_, sib := fun x y z h1 h2 h3 => ?_,
           mono := fun x y h => ?_, down := fun x y hy h => ?_ }
  · have := hall _ (hpairs x y h); exact ⟨this.1, this.2.1, this.2.2.1⟩
  · rw [hs]; split <;> decide
  · exact (hall _ (hpairs x y h)).2.2.2.1
  · exact (hall _ (hpairs x y h1)).2.2.2.2.2 _ (hpairs x z h2) rfl h3
  · exact (hall _ (hpairs x y h)).2.2.2.2.1
  · rw [hp] at h
    split at h <;> cases h <;> decide

/-- the answer of a query -/
def ask (s : St String) (l : List String) (check : Bool := false) : Option (Option ℕ) :=
  (crawl exN (PyOrd.id ℕ) check s.H 10 0 (l.map some)).map Prod.fst

/-- a path is added below the intermediate flows, and found -/
example : (addSubs exN (PyOrd.id ℕ) 20 exSt 2 ["parts", "wheels"]).map
    (fun r => (r.1, ask r.2 ["parts", "wheels"], ask r.2 ["wheels"], (r.2.H 2).subs)) = some (7, some (some 7), some (some 7), [6]) := by
  decide +kernel

/-- the new names are unique in the hierarchy, and 2 is below the root -/
example : Below exSt.H 0 2 ∧ ∀ n ∈ ["parts", "wheels"], ∀ x, x < 6 → n ∉ (exSt.H x).names :=
  ⟨.of_mem (by decide), by decide⟩

/-- C36: after `set_elementary` on 4, 5 is elementary -/
example : (setElementary (PyOrd.id ℕ) 10 (fun x => { exSt.H x with elem := false }) 4).map
    (fun H => [0, 1, 2, 3, 4, 5].map fun x => (H x).elem) = some [false, false, false, false, true, true] := by decide +kernel
example : isSubOf 10 exSt.H 5 1 = some true ∧ isSubOf 10 exSt.H 5 3 = some false := by decide +kernel

/-- C36 fails: a compartment that is added with a name of its parent is returned, has this parent, but is not listed there:
`is_subcompartment_of` says that it is below, `set_elementary` does not reach it. -/
theorem same_name_not_listed : ∃ s : St String, Tree s ∧ ∃ c d t, addSub exN (PyOrd.id ℕ) 20 s c "Intermediate Flows" = some (d, t) ∧
    isSubOf 20 t.H d c = some true ∧ d ∉ (t.H c).subs ∧
    (setElementary (PyOrd.id ℕ) 20 t.H c).map (fun H => ((H c).elem, (H d).elem)) = some (true, false) :=
  ⟨exSt, exSt_tree, 2, 6, _, rfl, by decide +kernel, by decide +kernel, by decide +kernel⟩

/-- C37 fails: what is then added below it is lost. -/
theorem same_name_lost : ∃ s : St String, Tree s ∧
    (addSubs exN (PyOrd.id ℕ) 20 s 0 ["Intermediate Flows", "Intermediate Flows", "parts"]).map
      (fun r => (r.1, ask r.2 ["Intermediate Flows", "Intermediate Flows", "parts"])) = some (7, some none) :=
  ⟨exSt, exSt_tree, by decide +kernel⟩

/-- C37 fails: a compartment whose name ends with "unspecified" is added, but then its parent is found. -/
theorem unspecified_not_found : ∃ s : St String, Tree s ∧
    (addSubs exN (PyOrd.id ℕ) 20 s 3 ["air, unspecified"]).map
      (fun r => (r.1, (r.2.H 3).subs, ask r.2 ["air", "air, unspecified"])) = some (6, [6], some (some 3)) :=
  ⟨exSt, exSt_tree, by decide +kernel⟩

/-- C37 fails: names are not matched monotonically. A name that matches in a branch which fails is not looked for in the next:
for `air; urban` the compartment `water; urban` is found. -/
theorem wrong_branch_found : ∃ s : St String, Tree s ∧ ask s ["air", "urban"] = some (some 5) ∧
    Below s.H 4 5 ∧ ¬ Below s.H 3 5 := by
  refine ⟨exSt, exSt_tree, by decide +kernel, .of_mem (by decide), fun h => ?_⟩
  cases h with
  | step hs _ => exact absurd hs (by simp [exSt])

/-- C37 fails: so for a path that was added another compartment may be found, if branches that come first have its names. -/
theorem added_not_found : ∃ s : St String, Tree s ∧
    (addSubs exN (PyOrd.id ℕ) 20 s 2 ["air", "urban"]).map (fun r => (r.1, ask r.2 ["air", "urban"])) = some (7, some (some 5)) :=
  ⟨exSt, exSt_tree, by decide +kernel⟩

/-- Not only adding: `uproot` into an elementary compartment leaves the moved one as it is. -/
theorem uproot_not_elementary : ∃ s : St String, Tree s ∧ (s.H 1).elem = true ∧
    (uproot (PyOrd.id ℕ) 20 s.H 0 2 1).map (fun H => ((H 1).subs, (H 2).parent, (H 2).elem)) = some ([3, 4, 2], some 1, false) :=
  ⟨exSt, exSt_tree, by decide +kernel, by decide +kernel⟩

/-- `unset_elementary(unset_children=True)` makes the children elementary. -/
theorem unset_sets_children : ∃ s : St String, Tree s ∧
    (unsetElementary (PyOrd.id ℕ) 20 s.H 0 true).map (fun H => ((s.H 2).elem, (H 0).elem, (H 2).elem)) =
      some (false, false, true) :=
  ⟨exSt, exSt_tree, by decide +kernel⟩

/-- `compartment_string`, compartments.py:26-32 -/
def exKey (l : List (Option String)) : String := "; ".intercalate (l.filterMap id)

/-- C54: queries that meet the hypotheses -/
example : (queries exN exKey (PyOrd.id ℕ) 20 [([some "water", some "urban"], false), ([some "air"], false), ([some "x"], false),
    ([some "water", some "urban"], false)] ⟨exSt, 0, []⟩).1 = [.comp 5, .comp 3, .missing, .comp 5] := by decide +kernel

/-- C54 fails: after a query with `check_elem`, the cache gives the compartment at which it stopped. -/
theorem check_elem_cached : ∃ m : Mgr String String, Tree m.st ∧ m.cache = [] ∧
    fresh exN (PyOrd.id ℕ) 20 m [some "elementary", some "water", some "urban"] = .comp 5 ∧
    (queries exN exKey (PyOrd.id ℕ) 20 [([some "elementary", some "water", some "urban"], true),
      ([some "elementary", some "water", some "urban"], false)] m).1 = [.comp 1, .comp 1] :=
  ⟨⟨exSt, 0, []⟩, exSt_tree, rfl, by decide +kernel, by decide +kernel⟩

/-- C54 fails: names with a semicolon -/
theorem joined_names_cached : ∃ m : Mgr String String, Tree m.st ∧ m.cache = [] ∧
    fresh exN (PyOrd.id ℕ) 20 m [some "water; urban"] = .missing ∧
    (queries exN exKey (PyOrd.id ℕ) 20 [([some "water", some "urban"], false), ([some "water; urban"], false)] m).1 =
      [.comp 5, .comp 5] :=
  ⟨⟨exSt, 0, []⟩, exSt_tree, rfl, by decide +kernel, by decide +kernel⟩

end Cmp
