import Verif.Props.CompartmentPath
import Mathlib.Data.List.Forall2
import Mathlib.Data.List.Perm.Basic

/-!
Compartment trees survive serialisation (C38).
-/

set_option linter.unusedSectionVars false
set_option linter.unusedSimpArgs false

namespace Cmp

variable {S : Type} [DecidableEq S]

/-! ### sorting permutes -/

theorem insertBy_perm {α : Type} (le : α → α → Bool) (a : α) (l : List α) : (insertBy le a l).Perm (a :: l) := by
  induction l with
  | nil => exact .refl _
  | cons b l ih =>
    unfold insertBy
    split
    · exact .refl _
    · exact (ih.cons b).trans (.swap a b l)

theorem sortBy_perm {α : Type} (le : α → α → Bool) (l : List α) : (sortBy le l).Perm l := by
  induction l with
  | nil => exact .refl _
  | cons a l ih => exact (insertBy_perm le a _).trans (ih.cons a)

/-! ### what a serialization says -/

def J.syns : J S → List S
  | .node _ s _ _ => s
def J.elem : J S → Bool
  | .node _ _ e _ => e
def J.subs : J S → List (J S)
  | .node _ _ _ l => l
def J.names (j : J S) : List S := j.name :: j.syns

theorem J.name_node (n : S) (s : List S) (e : Bool) (l : List (J S)) : (J.node n s e l).name = n := rfl
theorem J.syns_node (n : S) (s : List S) (e : Bool) (l : List (J S)) : (J.node n s e l).syns = s := rfl
theorem J.elem_node (n : S) (s : List S) (e : Bool) (l : List (J S)) : (J.node n s e l).elem = e := rfl
theorem J.subs_node (n : S) (s : List S) (e : Bool) (l : List (J S)) : (J.node n s e l).subs = l := rfl

mutual
/-- the compartment `c`, all of it between `lo` and `hi`, is described by the serialization -/
def Rep (H : Heap S) (lo hi : ℕ) : J S → ℕ → Prop
  | .node n ss e l, c => lo ≤ c ∧ c < hi ∧ (H c).name = n ∧ ss.Perm (H c).syns ∧ (H c).elem = e ∧
      ∃ m, m.Perm (H c).subs ∧ RepL H lo hi l m
def RepL (H : Heap S) (lo hi : ℕ) : List (J S) → List ℕ → Prop
  | [], m => m = []
  | j :: l, m => ∃ a m', m = a :: m' ∧ Rep H lo hi j a ∧ RepL H lo hi l m'
end

theorem repL_iff (H : Heap S) (lo hi : ℕ) (l : List (J S)) : ∀ m, RepL H lo hi l m ↔ List.Forall₂ (Rep H lo hi) l m := by
  induction l with
  | nil => intro m; simp [RepL]
  | cons j l ih =>
    intro m
    simp only [RepL, ih]
    constructor
    · rintro ⟨a, m', rfl, h1, h2⟩; exact .cons h1 h2
    · intro h
      cases h with
      | cons h1 h2 => exact ⟨_, _, rfl, h1, h2⟩

theorem rep_node (H : Heap S) (lo hi : ℕ) (j : J S) (c : ℕ) : Rep H lo hi j c ↔
    lo ≤ c ∧ c < hi ∧ (H c).name = j.name ∧ j.syns.Perm (H c).syns ∧ (H c).elem = j.elem ∧
      ∃ m, m.Perm (H c).subs ∧ List.Forall₂ (Rep H lo hi) j.subs m := by
  cases j with
  | node n ss e l => simp only [Rep, repL_iff, J.name, J.syns, J.elem, J.subs]

/-- a change outside of the range does not matter -/
theorem Rep.frame {H H' : Heap S} {lo hi lo' hi' : ℕ} (hlo : lo' ≤ lo) (hhi : hi ≤ hi')
    (h : ∀ x, lo ≤ x → x < hi → H' x = H x) : ∀ (j : J S) (c : ℕ), Rep H lo hi j c → Rep H' lo' hi' j c := by
  have main : ∀ n, ∀ (j : J S) (c : ℕ), sizeOf j ≤ n → Rep H lo hi j c → Rep H' lo' hi' j c := by
    intro n
    induction n with
    | zero => intro j c hj; cases j; simp at hj
    | succ n ih =>
      intro j c hj hr
      rw [rep_node] at hr ⊢
      obtain ⟨h1, h2, h3, h4, h5, m, h6, h7⟩ := hr
      rw [h c h1 h2]
      refine ⟨by omega, by omega, h3, h4, h5, m, h6, ?_⟩
      have hsz : ∀ k ∈ j.subs, sizeOf k ≤ n := by
        intro k hk
        cases j with
        | node nm ss e l =>
          have := List.sizeOf_lt_of_mem hk
          simp only [J.subs] at this
          simp at hj
          omega
      clear h6 hj
      generalize j.subs = js at *
      induction h7 with
      | nil => exact .nil
      | cons a _ ihl => exact .cons (ih _ _ (hsz _ (by simp)) a) (ihl fun k hk => hsz k (by simp [hk]))
  exact fun j c => main (sizeOf j) j c (le_refl _)

/-! ### serialize -/

theorem serialize_rep (N : Names S) (ord : PyOrd ℕ) (s : St S) (hs : Forest s) : ∀ (f c : ℕ), c < s.next → s.next < f + c →
    ∃ j, serialize N ord s.H f c = some j ∧ Rep s.H 0 s.next j c := by
  intro f
  induction f with
  | zero => intro c h1 h2; omega
  | succ f ih =>
    intro c hc hf
    have loop : ∀ l : List ℕ, (∀ x ∈ l, x ∈ (s.H c).subs) →
        ∃ js, l.mapM (fun x => serialize N ord s.H f x) = some js ∧ List.Forall₂ (Rep s.H 0 s.next) js l := by
      intro l
      induction l with
      | nil => intro _; exact ⟨[], rfl, .nil⟩
      | cons a l ihl =>
        intro hl
        have ha := hs.up c a (hl a (by simp))
        obtain ⟨j, h1, h2⟩ := ih a ha.2.2 (by omega)
        obtain ⟨js, h3, h4⟩ := ihl fun x hx => hl x (by simp [hx])
        exact ⟨j :: js, by simp [List.mapM_cons, h1, h3], .cons h2 h4⟩
    obtain ⟨js, h1, h2⟩ := loop (ord.f (s.H c).subs) fun x hx => (ord.mem _ _).1 hx
    refine ⟨_, by unfold serialize; rw [h1]; rfl, ?_⟩
    rw [rep_node]
    obtain ⟨m, hm, hm2⟩ := List.perm_comp_forall₂ (sortBy_perm (fun a b : J S => N.le a.name b.name) js) h2
    exact ⟨Nat.zero_le _, hc, rfl, sortBy_perm _ _, rfl, m, hm2.trans (ord.perm _), hm⟩

/-! ### from_json -/

/-- a serialization without name clashes -/
inductive Good (N : Names S) : J S → Prop
  | mk (j : J S) (hset : j.syns.Nodup ∧ j.name ∉ j.syns)
      (hgood : ∀ k ∈ j.subs, Good N k)
      (hsub : ∀ k ∈ j.subs, N.unsp k.name = false ∧ k.name ∉ j.names ∧ (j.elem = true → k.elem = true))
      (hsib : j.subs.Pairwise fun a b => b.name ∉ a.names) : Good N j

theorem addSyns_fresh (l : List S) : ∀ (n : Node S), l.Nodup → (∀ x ∈ l, x ∉ n.names) →
    n.addSyns l = { n with syns := n.syns ++ l } := by
  induction l with
  | nil => intro n _ _; simp [Node.addSyns]
  | cons a l ih =>
    intro n hn hl
    have hna : a ∉ n.names := hl a (by simp)
    simp only [Node.names, List.mem_cons, not_or] at hna
    have h1 : n.addSyn a = { n with syns := n.syns ++ [a] } := by
      simp [Node.addSyn, hna.1, PySet.add, hna.2]
    show (n.addSyn a).addSyns l = _
    rw [h1, ih _ (List.nodup_cons.1 hn).2]
    · simp
    · intro x hx hm
      simp only [Node.names, List.mem_cons, List.mem_append, List.not_mem_nil, or_false] at hm
      rcases hm with h | h | h
      · exact hl x (by simp [hx]) (by simp [Node.names, h])
      · exact hl x (by simp [hx]) (by simp [Node.names, h])
      · exact (List.nodup_cons.1 hn).1 (h ▸ hx)

/-- `add_sub` of a new name, in any hierarchy -/
theorem addSub_new (N : Names S) (ord : PyOrd ℕ) (f : ℕ) (s : St S) (c : ℕ) (hc : c < s.next) (name : S)
    (e : Option Bool) (hu : N.unsp name = false) (hf : 0 < f) (hsub : ∀ d ∈ (s.H c).subs, d < s.next ∧ name ∉ (s.H d).names)
    (hn : name ∉ (s.H c).names) : addSub N ord f s c name e = some (s.next, attach s c name e) := by
  have hg : getSub ord s.H c name = none := by
    unfold getSub
    rw [List.find?_eq_none]
    intro x hx
    simpa using (hsub x ((ord.mem _ _).1 hx)).2
  have hcn : c ≠ s.next := by omega
  have hHc : put s.H s.next (newNode s c name e) c = s.H c := by simp [put, hcn]
  have hHn : put s.H s.next (newNode s c name e) s.next = newNode s c name e := by simp [put]
  have hHd : ∀ d ∈ (s.H c).subs, put s.H s.next (newNode s c name e) d = s.H d := by
    intro d hd
    have := (hsub d hd).1
    have : d ≠ s.next := by omega
    simp [put, this]
  obtain ⟨f', rfl⟩ : ∃ f', f = f' + 1 := ⟨f - 1, by omega⟩
  have hadd : addSub N ord (f' + 1) s c name e = (mergeSub ord (f' + 1) (put s.H s.next (newNode s c name e)) c s.next).map fun H =>
      (s.next, ({ H := H, next := s.next + 1 } : St S)) := by
    unfold addSub
    simp only [hu, Bool.false_eq_true, if_false, hg, newNode]
  have hm : matching ord (put s.H s.next (newNode s c name e)) c s.next = none := by
    unfold matching
    rw [List.find?_eq_none]
    intro b hb
    rw [shares_iff, hHn]
    rintro ⟨n, h1, h2⟩
    have : n = name := by simpa [newNode, Node.names] using h2
    subst this
    rw [ord.mem, mem_pyadd, hHc] at hb
    rcases hb with hb | rfl
    · rw [hHd b hb] at h1; exact absurd h1 (hsub b hb).2
    · rw [hHc] at h1; exact hn h1
  rw [hadd]
  unfold mergeSub
  simp only [hm, Option.map_some]
  congr 2
  unfold attach
  congr 1
  funext x
  by_cases hx : x = s.next
  · subst hx
    simp [put, newNode, hcn.symm]
  · by_cases hx2 : x = c
    · subst hx2; simp [put, hx]
    · simp [put, hx, hx2]

/-- what loading a list of subcompartments below `c` does -/
theorem addJs_rep (N : Names S) (ord : PyOrd ℕ) (f : ℕ) (hf : 0 < f) : ∀ (n : ℕ) (js : List (J S)) (s : St S) (c : ℕ),
    sizeOf js ≤ n → c < s.next → (∀ d ∈ (s.H c).subs, d < s.next) →
    (∀ k ∈ js, Good N k ∧ N.unsp k.name = false ∧ k.name ∉ (s.H c).names ∧ ((s.H c).elem = true → k.elem = true) ∧
      ∀ d ∈ (s.H c).subs, k.name ∉ (s.H d).names) →
    js.Pairwise (fun a b => b.name ∉ a.names) →
    ∃ t ds, addJs N ord f s c (s.H c).elem js = some t ∧ s.next ≤ t.next ∧
      t.H c = { s.H c with subs := (s.H c).subs ++ ds } ∧ (∀ x, x < s.next → x ≠ c → t.H x = s.H x) ∧
      List.Forall₂ (Rep t.H s.next t.next) js ds := by
  intro n
  induction n with
  | zero => intro js s c h; cases js <;> simp at h
  | succ n ih =>
    intro js s c hsz hc hlt hjs hpw
    cases js with
    | nil => exact ⟨s, [], by simp [addJs], le_refl _, by simp, fun _ _ _ => rfl, .nil⟩
    | cons j js =>
      obtain ⟨hgood, hu, hn, he, hd⟩ := hjs j (by simp)
      cases j with
      | node name syns elem subs =>
        simp only [J.name_node, J.elem_node] at hu hn he hd
        cases hgood with
        | mk _ hset hgd hgs hpws =>
          simp only [J.syns_node, J.name_node, J.subs_node, J.names, J.elem_node] at hset hgd hgs hpws
          -- the new compartment
          have h1 := addSub_new N ord f s c hc name (some ((s.H c).elem || elem)) hu hf (fun d hd' => ⟨hlt d hd', hd d hd'⟩) hn
          have hH := attach_H s c hc name (some ((s.H c).elem || elem))
          have hcn : c ≠ s.next := by omega
          have hnew : (attach s c name (some ((s.H c).elem || elem))).H s.next =
              { name := name, elem := elem, parent := some c } := by
            rw [hH]; simp only [if_true, newNode, Option.getD_some]
            cases hce : (s.H c).elem with
            | false => simp
            | true => simp [he hce]
          have hsyn : ((attach s c name (some ((s.H c).elem || elem))).H s.next).addSyns syns =
              { name := name, syns := syns, elem := elem, parent := some c } := by
            rw [hnew, addSyns_fresh _ _ hset.1]
            · simp
            · intro x hx hm
              simp only [Node.names, List.mem_cons, List.not_mem_nil, or_false] at hm
              exact hset.2 (hm ▸ hx)
          have hor : ((s.H c).elem || elem) = elem := by
            cases hce : (s.H c).elem with
            | false => simp
            | true => simp [he hce]
          -- its subcompartments
          obtain ⟨s1, hs1⟩ : ∃ s1 : St S, s1 = { attach s c name (some ((s.H c).elem || elem)) with
            H := put (attach s c name (some ((s.H c).elem || elem))).H s.next
              { name := name, syns := syns, elem := elem, parent := some c } } := ⟨_, rfl⟩
          have hs1n : s1.next = s.next + 1 := by rw [hs1]; rfl
          have hs1d : s1.H s.next = { name := name, syns := syns, elem := elem, parent := some c } := by rw [hs1]; simp [put]
          have hs1c : s1.H c = { s.H c with subs := (s.H c).subs ++ [s.next] } := by
            rw [hs1]; simp only [put, hcn, if_false, hH, if_true]
          have hs1x : ∀ x, x < s.next → x ≠ c → s1.H x = s.H x := by
            intro x hx hxc
            have : x ≠ s.next := by omega
            rw [hs1]; simp only [put, this, if_false, hH, hxc]
          obtain ⟨t1, ds1, a1, a2, a3, a4, a5⟩ := ih subs s1 s.next (by simp at hsz; omega) (by omega) (by rw [hs1d]; simp)
            (fun k hk => by
              have g1 := hgd k hk
              obtain ⟨g2, g3, g4⟩ := hgs k hk
              refine ⟨g1, g2, ?_, ?_, ?_⟩
              · rw [hs1d]; simpa [Node.names] using g3
              · rw [hs1d]; exact g4
              · rw [hs1d]; simp) hpws
          have haddJ : addJ N ord f s c (s.H c).elem (.node name syns elem subs) = some t1 := by
            unfold addJ
            rw [h1]
            dsimp only
            rw [hsyn, hor]
            rw [hs1d] at a1
            rw [hor] at hs1
            rw [hs1] at a1
            exact a1
          have ht1c : t1.H c = { s.H c with subs := (s.H c).subs ++ [s.next] } := by
            rw [a4 c (by omega) hcn, hs1c]
          -- the other ones
          have hlt1 : ∀ d ∈ (t1.H c).subs, d < t1.next := by
            intro d hd'
            rw [ht1c] at hd'
            simp only [List.mem_append, List.mem_cons, List.not_mem_nil, or_false] at hd'
            rcases hd' with h | rfl
            · have := hlt d h; omega
            · omega
          have ht1d : t1.H s.next = { name := name, syns := syns, elem := elem, subs := ds1, parent := some c } := by
            rw [a3, hs1d]; simp
          have hpw' := List.pairwise_cons.1 hpw
          have helem : (t1.H c).elem = (s.H c).elem := by rw [ht1c]
          obtain ⟨t, ds, b1, b2, b3, b4, b5⟩ := ih js t1 c (by simp at hsz; omega) (by omega) hlt1
            (fun k hk => by
              obtain ⟨g1, g2, g3, g4, g5⟩ := hjs k (by simp [hk])
              refine ⟨g1, g2, ?_, ?_, ?_⟩
              · rw [ht1c]; exact g3
              · rw [helem]; exact g4
              · intro d hd'
                rw [ht1c] at hd'
                simp only [List.mem_append, List.mem_cons, List.not_mem_nil, or_false] at hd'
                rcases hd' with h | rfl
                · have hdlt := hlt d h
                  by_cases hdc : d = c
                  · subst hdc; rw [ht1c]; exact g3
                  · rw [a4 d (by omega) (by omega), hs1x d hdlt hdc]; exact g5 d h
                · rw [ht1d]; exact hpw'.1 k hk) hpw'.2
          refine ⟨t, s.next :: ds, ?_, by omega, ?_, ?_, .cons ?_ ?_⟩
          · unfold addJs
            rw [haddJ]
            dsimp only
            rw [← helem]; exact b1
          · rw [b3, ht1c]; simp
          · intro x hx hxc
            rw [b4 x (by omega) hxc, a4 x (by omega) (by omega), hs1x x hx hxc]
          · have htd : t.H s.next = t1.H s.next := b4 s.next (by omega) hcn.symm
            rw [rep_node]
            refine ⟨le_refl _, by omega, ?_, ?_, ?_, ds1, ?_, ?_⟩
            · rw [htd, ht1d]; rfl
            · rw [htd, ht1d]; exact .refl _
            · rw [htd, ht1d]; rfl
            · rw [htd, ht1d]
            · refine a5.imp fun k d h => ?_
              refine Rep.frame (lo := s1.next) (hi := t1.next) (by omega) b2 (fun x hx1 hx2 => ?_) k d h
              exact b4 x hx2 (by omega)
          · refine b5.imp fun k d h => ?_
            exact Rep.frame (by omega) (le_refl _) (fun _ _ _ => rfl) k d h

theorem fromJson_rep (N : Names S) (ord : PyOrd ℕ) (f : ℕ) (hf : 0 < f) (s : St S) (j : J S) (hg : Good N j)
    (he : j.elem = false) : ∃ t, fromJson N ord f s j = some (s.next, t) ∧ Rep t.H s.next t.next j s.next := by
  cases j with
  | node name syns elem subs =>
    simp only [J.elem] at he
    subst he
    cases hg with
    | mk _ hset hgd hgs hpws =>
      simp only [J.syns_node, J.name_node, J.subs_node, J.names, J.elem_node] at hset hgd hgs hpws
      have hsyn : Node.addSyns ({ name := name } : Node S) syns = { name := name, syns := syns } := by
        rw [addSyns_fresh _ _ hset.1]
        · simp
        · intro x hx hm
          simp only [Node.names, List.mem_cons, List.not_mem_nil, or_false] at hm
          exact hset.2 (hm ▸ hx)
      have hH : put s.H s.next (Node.addSyns ({ name := name } : Node S) syns) s.next = { name := name, syns := syns } := by
        simp [put, hsyn]
      obtain ⟨t, ds, a1, a2, a3, a4, a5⟩ := addJs_rep N ord f hf (sizeOf subs) subs
        { H := put s.H s.next (Node.addSyns ({ name := name } : Node S) syns), next := s.next + 1 } s.next (le_refl _)
        (Nat.lt_succ_self _) (by dsimp only; rw [hH]; simp)
        (fun k hk => by
          have g1 := hgd k hk
          obtain ⟨g2, g3, g4⟩ := hgs k hk
          dsimp only
          rw [hH]
          exact ⟨g1, g2, by simpa [Node.names] using g3, g4, by simp⟩) hpws
      dsimp only at a1 a2 a3
      rw [hH] at a1 a3
      dsimp only at a1
      refine ⟨t, by unfold fromJson; dsimp only; rw [a1]; rfl, ?_⟩
      rw [rep_node]
      refine ⟨le_refl _, by omega, by rw [a3]; rfl, by rw [a3]; exact .refl _, by rw [a3]; rfl, ds, by rw [a3]; simp, ?_⟩
      exact a5.imp fun k d h => Rep.frame (Nat.le_succ _) (le_refl _) (fun _ _ _ => rfl) k d h

/-- a serialization of a forest without compartments called "unspecified" has no clashes -/
theorem rep_good (N : Names S) (s : St S) (hs : Forest s) (hset : ∀ x, x < s.next → (s.H x).syns.Nodup ∧ (s.H x).name ∉ (s.H x).syns) :
    ∀ (n : ℕ) (j : J S) (c : ℕ), sizeOf j ≤ n → (∀ x, Below s.H c x → x ≠ c → N.unsp (s.H x).name = false) →
    Rep s.H 0 s.next j c → Good N j := by
  intro n
  induction n with
  | zero => intro j c hj; cases j; simp at hj
  | succ n ih =>
    intro j c hj hu hr
    rw [rep_node] at hr
    obtain ⟨_, h2, h3, h4, h5, m, h6, h7⟩ := hr
    have hsz : ∀ k ∈ j.subs, sizeOf k ≤ n := by
      intro k hk
      cases j with
      | node nm ss e l =>
        have := List.sizeOf_lt_of_mem hk
        simp only [J.subs] at this
        simp at hj
        omega
    have hnames : ∀ (k : J S) (d : ℕ), Rep s.H 0 s.next k d → ∀ x, x ∈ k.names ↔ x ∈ (s.H d).names := by
      intro k d hk x
      rw [rep_node] at hk
      obtain ⟨_, _, a, b, _⟩ := hk
      simp only [J.names, Node.names, List.mem_cons, a, b.mem_iff]
    have hjn : ∀ x, x ∈ j.names ↔ x ∈ (s.H c).names := by
      intro x; simp only [J.names, Node.names, List.mem_cons, h3, h4.mem_iff]
    have hmem : ∀ d ∈ m, d ∈ (s.H c).subs := fun d hd => h6.mem_iff.1 hd
    have hnd : m.Nodup := h6.nodup_iff.2 (hs.nodup c)
    have hsubs : ∀ k ∈ j.subs, Good N k ∧ N.unsp k.name = false ∧ k.name ∉ j.names ∧ (j.elem = true → k.elem = true) := by
      -- subcompartments
      have main : ∀ (js : List (J S)) (m : List ℕ), List.Forall₂ (Rep s.H 0 s.next) js m → (∀ k ∈ js, sizeOf k ≤ n) →
          (∀ d ∈ m, d ∈ (s.H c).subs) →
          ∀ k ∈ js, Good N k ∧ N.unsp k.name = false ∧ k.name ∉ j.names ∧ (j.elem = true → k.elem = true) := by
        intro js m hF
        induction hF with
        | nil => intro _ _ k hk; cases hk
        | @cons k d js m hk _ ihl =>
          intro hz hm k' hk'
          rcases List.mem_cons.1 hk' with rfl | hk'
          · have hd := hm d (by simp)
            have hup := hs.up c d hd
            have hkn := hk
            rw [rep_node] at hkn
            refine ⟨ih k' d (hz k' (by simp)) (fun x hx hxd => hu x (.step hd hx) ?_) hk, ?_, ?_, ?_⟩
            · have := hx.le hs; omega
            · rw [← hkn.2.2.1]; exact hu d (.of_mem hd) (by omega)
            · rw [hjn, ← hkn.2.2.1]
              intro hmm
              exact hs.par c d hd _ hmm (by simp [Node.names])
            · rw [← h5, ← hkn.2.2.2.2.1]; exact hs.mono c d hd
          · exact ihl (fun k hk => hz k (by simp [hk])) (fun d hd => hm d (by simp [hd])) k' hk'
      exact main j.subs m h7 hsz hmem
    refine .mk j ⟨h4.nodup_iff.2 (hset c h2).1, ?_⟩ (fun k hk => (hsubs k hk).1) (fun k hk => (hsubs k hk).2) ?_
    · rw [← h3, h4.mem_iff]; exact (hset c h2).2
    · have main : ∀ (js : List (J S)) (m : List ℕ), List.Forall₂ (Rep s.H 0 s.next) js m → m.Nodup →
          (∀ d ∈ m, d ∈ (s.H c).subs) → js.Pairwise fun a b => b.name ∉ a.names := by
        intro js m hF
        induction hF with
        | nil => intro _ _; exact .nil
        | @cons k d js m hk hF ihl =>
          intro hn hm
          have hn' := List.nodup_cons.1 hn
          refine List.pairwise_cons.2 ⟨?_, ihl hn'.2 fun d hd => hm d (by simp [hd])⟩
          intro k' hk' hmem'
          obtain ⟨d', hd', hr'⟩ : ∃ d' ∈ m, Rep s.H 0 s.next k' d' := by
            clear ihl hn hn' hm hk
            induction hF with
            | nil => cases hk'
            | cons h _ ih =>
              rcases List.mem_cons.1 hk' with rfl | hk'
              · exact ⟨_, by simp, h⟩
              · obtain ⟨d', h1, h2⟩ := ih hk'
                exact ⟨d', by simp [h1], h2⟩
          rw [hnames k d hk] at hmem'
          have hne : d ≠ d' := by rintro rfl; exact hn'.1 hd'
          refine hs.sib c d d' (hm d (by simp)) (hm d' (by simp [hd'])) hne _ hmem' ?_
          rw [← hnames k' d' hr']; simp [J.names]
      exact main j.subs m h7 hnd hmem

/-! ### the claim -/

/-- Two hierarchies are the same from `c` and `c'` down: there is a correspondence between their compartments, under which
names, synonyms and elementary flags are equal, and subcompartments correspond one to one. -/
def Same (H H' : Heap S) (c c' : ℕ) : Prop :=
  ∃ R : ℕ → ℕ → Prop, R c c' ∧ ∀ a b, R a b →
    (H a).name = (H' b).name ∧ (∀ x, x ∈ (H a).syns ↔ x ∈ (H' b).syns) ∧ (H a).elem = (H' b).elem ∧
    ∃ l, l.Perm (H' b).subs ∧ List.Forall₂ R (H a).subs l

/-- C38, for a hierarchy whose root is not elementary, in which what is below an elementary compartment is elementary, no
compartment below the root is called "unspecified", and compartments share no names with their parents and siblings: loading
what was serialized gives the same hierarchy. -/
theorem load_serialized_partial (N : Names S) (ord ord' : PyOrd ℕ) (s s0 : St S) (hs : Forest s)
    (hset : ∀ x, x < s.next → (s.H x).syns.Nodup ∧ (s.H x).name ∉ (s.H x).syns) (c : ℕ) (hc : c < s.next)
    (he : (s.H c).elem = false) (hu : ∀ x, Below s.H c x → x ≠ c → N.unsp (s.H x).name = false) (f : ℕ) (hf : s.next < f) :
    ∃ j c' t, serialize N ord s.H f c = some j ∧ fromJson N ord' f s0 j = some (c', t) ∧ Same s.H t.H c c' := by
  obtain ⟨j, h1, h2⟩ := serialize_rep N ord s hs f c hc (by omega)
  have hg := rep_good N s hs hset (sizeOf j) j c (le_refl _) hu h2
  have hje : j.elem = false := by
    have := h2; rw [rep_node] at this; rw [← this.2.2.2.2.1, he]
  obtain ⟨t, h3, h4⟩ := fromJson_rep N ord' f (by omega) s0 j hg hje
  refine ⟨j, s0.next, t, h1, h3, fun a b => ∃ k, Rep s.H 0 s.next k a ∧ Rep t.H s0.next t.next k b, ⟨j, h2, h4⟩, ?_⟩
  rintro a b ⟨k, ha, hb⟩
  rw [rep_node] at ha hb
  obtain ⟨_, _, a1, a2, a3, m, a4, a5⟩ := ha
  obtain ⟨_, _, b1, b2, b3, m', b4, b5⟩ := hb
  refine ⟨a1.trans b1.symm, fun x => by rw [← a2.mem_iff, b2.mem_iff], a3.trans b3.symm, ?_⟩
  -- pair the two lists through the serialization
  have hR : List.Forall₂ (fun a b => ∃ k, Rep s.H 0 s.next k a ∧ Rep t.H s0.next t.next k b) m m' := by
    clear a4 b4
    generalize k.subs = ks at a5 b5
    induction a5 generalizing m' with
    | nil => cases b5; exact .nil
    | cons h _ ih =>
      cases b5 with
      | cons h' hb5 => exact .cons ⟨_, h, h'⟩ (ih _ hb5)
  obtain ⟨l, hl1, hl2⟩ := List.perm_comp_forall₂ a4.symm hR
  exact ⟨l, hl2.trans b4, hl1⟩

/-- the example meets the hypotheses -/
example : (∀ x, x < exSt.next → (exSt.H x).syns.Nodup ∧ (exSt.H x).name ∉ (exSt.H x).syns) ∧ (exSt.H 0).elem = false ∧
    ∀ x, x < exSt.next → exN.unsp (exSt.H x).name = false := by decide +kernel

example : ∃ j c' t, serialize exN (PyOrd.id ℕ) exSt.H 20 0 = some j ∧
    fromJson exN (PyOrd.id ℕ) 20 { H := fun _ => { name := "" }, next := 100 } j = some (c', t) ∧ Same exSt.H t.H 0 c' := by
  refine load_serialized_partial exN (PyOrd.id ℕ) (PyOrd.id ℕ) exSt _ exSt_tree.toForest (by decide +kernel) 0 (by decide) (by decide +kernel) ?_ 20
    (by decide)
  intro x _ hx
  have : ∀ x, exN.unsp (exSt.H x).name = false := by
    intro x
    by_cases h : x < 6
    · revert x; decide +kernel
    · obtain ⟨y, rfl⟩ : ∃ y, x = y + 6 := ⟨x - 6, by omega⟩
      show exN.unsp "" = false
      decide +kernel
  exact this x

/-- serialize, load at 100 -/
def reload (s : St String) (c : ℕ) : Option (St String) :=
  (serialize exN (PyOrd.id ℕ) s.H 4 c).bind fun j =>
    (fromJson exN (PyOrd.id ℕ) 2 { H := fun _ => { name := "" }, next := 100 } j).map Prod.snd

/-- C38 fails: the flag of an elementary root is lost. -/
theorem root_flag_lost : ∃ s : St String, Tree s ∧ (s.H 4).elem = true ∧
    (reload s 4).map (fun t => ((t.H 100).name, (t.H 100).elem)) = some ("water", false) :=
  ⟨exSt, exSt_tree, by decide +kernel, by decide +kernel⟩

/-- an elementary compartment next to another one -/
def exTwo : Heap String := fun x => match x with
  | 0 => { name := "root", subs := [1, 2] }
  | 1 => { name := "E", elem := true, parent := some 0 }
  | 2 => { name := "I", parent := some 0 }
  | _ => { name := "" }

/-- what is below an elementary compartment, with the flags -/
def flags (H : Heap String) (c : ℕ) : List (String × Bool) := (H c).subs.map fun x => ((H x).name, (H x).elem)

/-- C38 fails: a compartment below an elementary one that is not elementary (see `uproot_not_elementary`) becomes so. -/
theorem flag_gained : (uproot (PyOrd.id ℕ) 5 exTwo 0 2 1).map (fun H => flags H 1) = some [("I", false)] ∧
    ((uproot (PyOrd.id ℕ) 5 exTwo 0 2 1).bind fun H => reload { H := H, next := 3 } 0).map (fun t => flags t.H 101) =
      some [("I", true)] := by
  constructor <;> decide +kernel

end Cmp
