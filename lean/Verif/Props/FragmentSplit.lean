import Verif.Props.FragmentBalance
import Verif.Props.FragmentIos
import Verif.Props.FragmentEvs
import Mathlib.Data.List.Sort
import Mathlib.Algebra.BigOperators.Group.List.Basic
import Mathlib.Algebra.Group.Prod

/-!
C45, lemmas: the traversal of a tree from which a subfragment was split off.
-/

namespace Frg
set_option linter.unusedSectionVars false

variable {F Q : Type} [DecidableEq F] [DecidableEq Q]

/-! ### specification -/

/-- the amounts and node weights of some of the fragment flows, added up -/
def tot (P : FF F → Bool) (l : List (FF F)) : ℚ × ℚ := ((l.filter P).map fun x => (x.mag, x.nw)).sum

/-- a flow of fragment i that is not cut off -/
def isInt (i : ℕ) (x : FF F) : Bool := decide (x.who = .frag i) && !x.term.isNull

/-- a flow of fragment i that is cut off -/
def isCut (i : ℕ) (x : FF F) : Bool := decide (x.who = .frag i) && x.term.isNull

/-- fragment j is fragment i or below it -/
inductive Below (H : Heap F Q) (i : ℕ) : ℕ → Prop
  | refl : Below H i i
  | step {c p : ℕ} : (H c).parent = some p → Below H i p → Below H i c

/-- two traversals that model the same: equal amounts and node weights of every fragment but `k` that is not cut off, and of
those that are cut off and not below f; equal net amounts of every flow cut off -/
structure Like (H : Heap F Q) (f k : ℕ) (l l' : List (FF F)) : Prop where
  int : ∀ i, i ≠ k → tot (isInt i) l = tot (isInt i) l'
  cut : ∀ i, i ≠ k → ¬ Below H f i → tot (isCut i) l = tot (isCut i) l'
  net : ∀ φ, net (cutoffsOf φ l) = net (cutoffsOf φ l')
  pres : ∀ φ, cutoffsOf φ l = [] ↔ cutoffsOf φ l' = []

/-! ### sums -/

theorem tot_nil (P : FF F → Bool) : tot P [] = 0 := rfl

theorem tot_append (P : FF F → Bool) (l m : List (FF F)) : tot P (l ++ m) = tot P l + tot P m := by
  simp [tot]

theorem tot_perm (P : FF F → Bool) {l m : List (FF F)} (h : l.Perm m) : tot P l = tot P m :=
  ((h.filter P).map _).sum_eq

theorem tot_congr (P : FF F → Bool) {l m : List (FF F)}
    (h : List.Forall₂ (fun x y => P x = P y ∧ x.mag = y.mag ∧ x.nw = y.nw) l m) : tot P l = tot P m := by
  induction h with
  | nil => rfl
  | cons h _ ih =>
    unfold tot at ih ⊢
    obtain ⟨h1, h2, h3⟩ := h
    simp only [List.filter_cons, h1]
    split
    · simp [h2, h3, ih]
    · exact ih

theorem tot_none (P : FF F → Bool) (l : List (FF F)) (h : ∀ x ∈ l, P x = false) : tot P l = 0 := by
  unfold tot
  rw [List.filter_eq_nil_iff.mpr fun x hx => by simp [h x hx]]
  rfl

theorem net_append (l m : List (FF F)) : net (l ++ m) = net l + net m := by simp [net]

theorem net_perm {l m : List (FF F)} (h : l.Perm m) : net l = net m := (h.map _).sum_eq

theorem cutoffsOf_append (φ : F) (l m : List (FF F)) : cutoffsOf φ (l ++ m) = cutoffsOf φ l ++ cutoffsOf φ m := by
  simp [cutoffsOf]

theorem amount_scale (x : ℚ) (a : FF F) : (FF.scale x a).amount = x * a.amount := by
  unfold FF.amount FF.scale
  simp only
  split <;> ring

theorem cutoffsOf_scale (φ : F) (x : ℚ) (l : List (FF F)) :
    cutoffsOf φ (l.map (FF.scale x)) = (cutoffsOf φ l).map (FF.scale x) := by
  unfold cutoffsOf
  rw [List.filter_map]
  rfl

theorem net_scale (x : ℚ) (l : List (FF F)) : net (l.map (FF.scale x)) = x * net l := by
  unfold net
  induction l with
  | nil => simp
  | cons a l ih => simp only [List.map_cons, List.sum_cons, amount_scale] at ih ⊢; rw [ih]; ring

theorem tot_scale (P : FF F → Bool) (hP : ∀ x a, P (FF.scale x a) = P a) (x : ℚ) (l : List (FF F)) :
    tot P (l.map (FF.scale x)) = (x * (tot P l).1, x * (tot P l).2) := by
  unfold tot
  induction l with
  | nil => simp; rfl
  | cons a l ih =>
    simp only [List.map_cons, List.filter_cons, hP]
    split
    · simp only [List.map_cons, List.sum_cons]
      rw [ih]
      ext <;> simp [FF.scale] <;> ring
    · exact ih

variable {H : Heap F Q} {f k : ℕ}

theorem Like.refl (l : List (FF F)) : Like H f k l l := ⟨fun _ _ => rfl, fun _ _ _ => rfl, fun _ => rfl, fun _ => Iff.rfl⟩

theorem Like.trans {a b c : List (FF F)} (h : Like H f k a b) (h' : Like H f k b c) : Like H f k a c :=
  ⟨fun i hi => (h.int i hi).trans (h'.int i hi), fun i hi hb => (h.cut i hi hb).trans (h'.cut i hi hb),
    fun φ => (h.net φ).trans (h'.net φ), fun φ => (h.pres φ).trans (h'.pres φ)⟩

theorem Like.append {a a' b b' : List (FF F)} (h : Like H f k a a') (h' : Like H f k b b') : Like H f k (a ++ b) (a' ++ b') := by
  refine ⟨fun i hi => ?_, fun i hi hb => ?_, fun φ => ?_, fun φ => ?_⟩
  · rw [tot_append, tot_append, h.int i hi, h'.int i hi]
  · rw [tot_append, tot_append, h.cut i hi hb, h'.cut i hi hb]
  · rw [cutoffsOf_append, cutoffsOf_append, net_append, net_append, h.net, h'.net]
  · rw [cutoffsOf_append, cutoffsOf_append, List.append_eq_nil_iff, List.append_eq_nil_iff, h.pres, h'.pres]

theorem Like.perm {a b : List (FF F)} (h : a.Perm b) : Like H f k a b := by
  refine ⟨fun i _ => tot_perm _ h, fun i _ _ => tot_perm _ h, fun φ => net_perm (h.filter _), fun φ => ?_⟩
  have := (h.filter fun x => x.term.isNull && decide (x.flow = φ)).length_eq
  unfold cutoffsOf
  rw [← List.length_eq_zero_iff, ← List.length_eq_zero_iff, this]

theorem Like.scale {a b : List (FF F)} (h : Like H f k a b) (x : ℚ) : Like H f k (a.map (FF.scale x)) (b.map (FF.scale x)) := by
  refine ⟨fun i hi => ?_, fun i hi hb => ?_, fun φ => ?_, fun φ => ?_⟩
  · rw [tot_scale _ (fun _ _ => rfl), tot_scale _ (fun _ _ => rfl), h.int i hi]
  · rw [tot_scale _ (fun _ _ => rfl), tot_scale _ (fun _ _ => rfl), h.cut i hi hb]
  · rw [cutoffsOf_scale, cutoffsOf_scale, net_scale, net_scale, h.net]
  · rw [cutoffsOf_scale, cutoffsOf_scale, List.map_eq_nil_iff, List.map_eq_nil_iff, h.pres]

/-- what is not cut off -/
theorem Like.internal {a b : List (FF F)} (h : Like H f k a b) :
    Like H f k (a.filter fun x => !x.term.isNull) (b.filter fun x => !x.term.isNull) := by
  have h1 : ∀ i (l : List (FF F)), tot (isInt i) (l.filter fun x => !x.term.isNull) = tot (isInt i) l := by
    intro i l
    unfold tot
    rw [List.filter_filter]
    congr 3
    funext x
    unfold isInt
    cases x.term.isNull <;> simp
  have h2 : ∀ i (l : List (FF F)), tot (isCut i) (l.filter fun x => !x.term.isNull) = 0 := by
    intro i l
    apply tot_none
    intro x hx
    have := (List.mem_filter.mp hx).2
    simp only [Bool.not_eq_true'] at this
    simp [isCut, this]
  have h3 : ∀ φ (l : List (FF F)), cutoffsOf φ (l.filter fun x => !x.term.isNull) = [] := by
    intro φ l
    unfold cutoffsOf
    rw [List.filter_filter]
    apply List.filter_eq_nil_iff.mpr
    intro x _
    cases x.term.isNull <;> simp
  exact ⟨fun i hi => by rw [h1, h1, h.int i hi], fun i _ _ => by rw [h2, h2], fun φ => by rw [h3, h3],
    fun φ => by rw [h3, h3]⟩

/-- fragment flows with the same data, up to whether they are conserved and what is aggregated in them -/
structure Alike (x y : FF F) : Prop where
  who : x.who = y.who
  flow : x.flow = y.flow
  dir : x.dir = y.dir
  mag : x.mag = y.mag
  nw : x.nw = y.nw
  term : x.term = y.term

theorem Alike.refl (x : FF F) : Alike x x := ⟨rfl, rfl, rfl, rfl, rfl, rfl⟩

theorem Alike.like {x y : FF F} (h : Alike x y) : Like H f k [x] [y] := by
  have ht : ∀ P : FF F → Bool, P x = P y → tot P [x] = tot P [y] := fun P hP => by
    apply tot_congr
    exact .cons ⟨hP, h.mag, h.nw⟩ .nil
  have hc : ∀ φ, (x.term.isNull && decide (x.flow = φ)) = (y.term.isNull && decide (y.flow = φ)) := fun φ => by
    rw [h.term, h.flow]
  refine ⟨fun i _ => ht _ (by simp [isInt, h.who, h.term]), fun i _ _ => ht _ (by simp [isCut, h.who, h.term]), fun φ => ?_,
    fun φ => ?_⟩
  · unfold cutoffsOf
    simp only [List.filter_cons, hc, List.filter_nil]
    split
    · simp [net, FF.amount, h.dir, h.mag]
    · rfl
  · unfold cutoffsOf
    simp only [List.filter_cons, hc, List.filter_nil]
    split <;> simp

theorem Like.cons {x y : FF F} {a b : List (FF F)} (h : Alike x y) (h' : Like H f k a b) : Like H f k (x :: a) (y :: b) :=
  Like.append (a := [x]) (a' := [y]) h.like h'

/-! ### grouping -/

/-- inventories with the same entries for every flow -/
def InvLike (a b : List (FF F)) : Prop := ∀ φ, (a.filter fun x => decide (x.flow = φ)) = b.filter fun x => decide (x.flow = φ)

/-- entries made by `group_ios` -/
def Entries (a : List (FF F)) : Prop := ∀ x ∈ a, x.term.isNull = true ∧ ∃ j, x.who = .ghost j

theorem InvLike.like {a b : List (FF F)} (h : InvLike a b) (ha : Entries a) (hb : Entries b) : Like H f k a b := by
  have h1 : ∀ (l : List (FF F)), Entries l → ∀ i, tot (isInt i) l = 0 := fun l hl i => tot_none _ _ fun x hx => by
    simp [isInt, (hl x hx).1]
  have h2 : ∀ (l : List (FF F)), Entries l → ∀ i, tot (isCut i) l = 0 := fun l hl i => tot_none _ _ fun x hx => by
    obtain ⟨j, hj⟩ := (hl x hx).2
    simp [isCut, hj]
  have h3 : ∀ (l : List (FF F)), Entries l → ∀ φ, cutoffsOf φ l = l.filter fun x => decide (x.flow = φ) := fun l hl φ => by
    unfold cutoffsOf
    apply List.filter_congr
    intro x hx
    simp [(hl x hx).1]
  exact ⟨fun i _ => by rw [h1 a ha, h1 b hb], fun i _ _ => by rw [h2 a ha, h2 b hb],
    fun φ => by rw [h3 a ha, h3 b hb, h φ], fun φ => by rw [h3 a ha, h3 b hb, h φ]⟩

theorem find_filter (φ : F) (l : List (FF F)) :
    l.find? (fun m => decide (m.flow = φ)) = (l.filter fun m => decide (m.flow = φ)).head? := by
  induction l with
  | nil => rfl
  | cons a l ih =>
    simp only [List.find?_cons, List.filter_cons]
    split <;> simp_all

theorem eraseP_filter (φ ψ : F) (l : List (FF F)) :
    ((l.eraseP fun m => decide (m.flow = φ)).filter fun m => decide (m.flow = ψ)) =
      if ψ = φ then (l.filter fun m => decide (m.flow = φ)).tail else l.filter fun m => decide (m.flow = ψ) := by
  induction l with
  | nil => simp
  | cons a l ih =>
    by_cases ha : a.flow = φ
    · simp only [List.eraseP_cons, ha, decide_true, cond_true, List.filter_cons, if_true, List.tail_cons]
      by_cases h : ψ = φ
      · simp [h]
      · have : ¬ φ = ψ := fun e => h e.symm
        simp [h, this]
    · simp only [List.eraseP_cons, ha, decide_false, cond_false, List.filter_cons, Bool.false_eq_true, if_false, ih]
      by_cases h : ψ = φ
      · subst h; simp [ha]
      · simp [h]

theorem InvLike.find {a b : List (FF F)} (h : InvLike a b) (φ : F) :
    a.find? (fun m => decide (m.flow = φ)) = b.find? fun m => decide (m.flow = φ) := by
  rw [find_filter, find_filter, h φ]

theorem InvLike.erase {a b : List (FF F)} (h : InvLike a b) (φ : F) :
    InvLike (a.eraseP fun m => decide (m.flow = φ)) (b.eraseP fun m => decide (m.flow = φ)) := by
  intro ψ
  rw [eraseP_filter, eraseP_filter, h φ, h ψ]

theorem Entries.erase {a : List (FF F)} (h : Entries a) (p : FF F → Bool) : Entries (a.eraseP p) :=
  fun x hx => h x (List.mem_of_mem_eraseP hx)

theorem Entries.scale {a : List (FF F)} (h : Entries a) (x : ℚ) : Entries (a.map (FF.scale x)) := by
  intro y hy
  obtain ⟨z, hz, rfl⟩ := List.mem_map.mp hy
  exact h z hz

theorem entries_cutoff (p : ℕ) (d : Dict F ℚ) : Entries (d.map fun kv => FF.cutoff p kv.1 (dirOf kv.2) |kv.2|) := by
  intro x hx
  obtain ⟨kv, _, rfl⟩ := List.mem_map.mp hx
  exact ⟨rfl, p, rfl⟩

theorem table_like {a b : List (FF F)} (h : Like H f k a b) (φ : F) : (outTable a).get? φ = (outTable b).get? φ := by
  rw [outTable_get, outTable_get]
  by_cases e : cutoffsOf φ a = []
  · simp [e, (h.pres φ).mp e]
  · have e' : cutoffsOf φ b ≠ [] := fun e' => e ((h.pres φ).mpr e')
    simp [e, e', h.net φ]

theorem entries_like (p : ℕ) {d d' : Dict F ℚ} (hd : d.keys.Nodup) (hd' : d'.keys.Nodup) (h : ∀ φ, d.get? φ = d'.get? φ) :
    InvLike (d.map fun kv => FF.cutoff p kv.1 (dirOf kv.2) |kv.2|) (d'.map fun kv => FF.cutoff p kv.1 (dirOf kv.2) |kv.2|) := by
  intro φ
  rw [entries_filter p d hd, entries_filter p d' hd', h φ]

theorem InvLike.cons {a b : List (FF F)} (h : InvLike a b) (x : FF F) : InvLike (x :: a) (x :: b) := by
  intro φ
  simp only [List.filter_cons, h φ]

/-- grouping of traversals that model the same -/
theorem groupIos_like {a b : List (FF F)} (h : Like H f k a b) (hh : a.head?.map FF.mag = b.head?.map FF.mag) (p : ℕ) (rf : F)
    (rd : Dir) (inv int : List (FF F)) (hg : groupIos p rf rd a true = .ok (inv, int)) :
    ∃ inv' int', groupIos p rf rd b true = .ok (inv', int') ∧ InvLike inv inv' ∧ Entries inv ∧ Entries inv' ∧
      Like H f k int int' := by
  cases a with
  | nil => simp [groupIos] at hg
  | cons f0 a0 =>
    cases b with
    | nil => simp at hh
    | cons g0 b0 =>
      simp only [List.head?_cons, Option.map_some, Option.some.injEq] at hh
      have ht := table_like h
      have hda := outTable_nodup' (f0 :: a0)
      have hdb := outTable_nodup' (g0 :: b0)
      have hi := h.internal
      unfold groupIos at hg ⊢
      simp only [Bool.not_true, Bool.false_eq_true, if_false] at hg ⊢
      rw [ht rf] at hg
      cases hv : (outTable (g0 :: b0)).get? rf with
      | none =>
        rw [hv] at hg
        simp only [Except.ok.injEq, Prod.mk.injEq] at hg ⊢
        obtain ⟨rfl, rfl⟩ := hg
        refine ⟨_, _, ⟨rfl, rfl⟩, ?_, ?_, ?_, hi⟩
        · rw [hh]; exact (entries_like p hda hdb ht).cons _
        · intro x hx
          rcases List.mem_cons.mp hx with rfl | hx
          · exact ⟨rfl, p, rfl⟩
          · exact entries_cutoff p _ x hx
        · intro x hx
          rcases List.mem_cons.mp hx with rfl | hx
          · exact ⟨rfl, p, rfl⟩
          · exact entries_cutoff p _ x hx
      | some val =>
        rw [hv] at hg
        simp only at hg ⊢
        by_cases h1 : dirOf val = rd
        · simp only [h1, if_true] at hg ⊢
          rw [hh] at hg
          by_cases h2 : |val| < g0.mag
          · simp only [h2, if_true, Except.ok.injEq, Prod.mk.injEq] at hg ⊢
            obtain ⟨rfl, rfl⟩ := hg
            refine ⟨_, _, ⟨rfl, rfl⟩, ?_, entries_cutoff p _, entries_cutoff p _, hi⟩
            apply entries_like p (Dict.nodup_keys_set _ _ _ hda) (Dict.nodup_keys_set _ _ _ hdb)
            intro φ
            by_cases e : φ = rf
            · subst e; rw [Dict.get?_set_self, Dict.get?_set_self]
            · rw [Dict.get?_set_ne _ _ (Ne.symm e), Dict.get?_set_ne _ _ (Ne.symm e), ht φ]
          · simp only [h2, if_false, Except.ok.injEq, Prod.mk.injEq] at hg ⊢
            obtain ⟨rfl, rfl⟩ := hg
            refine ⟨_, _, ⟨rfl, rfl⟩, (entries_like p hda hdb ht).cons _, ?_, ?_, hi⟩
            · intro x hx
              rcases List.mem_cons.mp hx with rfl | hx
              · exact ⟨rfl, p, rfl⟩
              · exact entries_cutoff p _ x hx
            · intro x hx
              rcases List.mem_cons.mp hx with rfl | hx
              · exact ⟨rfl, p, rfl⟩
              · exact entries_cutoff p _ x hx
        · simp [h1] at hg

/-! ### the loop over child flows -/

/-- the flows of a visited child -/
def flowsIn (r : Res F) : List (FF F) :=
  match r with
  | .ok (l, _) => l
  | .error _ => []

def isBalance (r : Res F) : Bool :=
  match r with
  | .error .foundBalance => true
  | _ => false

def Visited (r : Res F) : Prop := r = .error .foundBalance ∨ ∃ l cv, r = .ok (l, cv)

theorem fgLoop_iff (visit : ℕ → Res F) (cs : List ℕ) (s : ℚ) (l : List (FF F)) (s' : ℚ) (bo : Option ℕ) :
    fgLoop visit cs s = .ok (l, s', bo) ↔
      (∀ c ∈ cs, Visited (visit c)) ∧ l = cs.flatMap (fun c => flowsIn (visit c)) ∧
      s' = s + (cs.map fun c => consOf (visit c)).sum ∧ bo = (cs.filter fun c => isBalance (visit c)).getLast? := by
  induction cs generalizing s l s' bo with
  | nil =>
    simp only [fgLoop, Except.ok.injEq, Prod.mk.injEq]
    constructor
    · rintro ⟨rfl, rfl, rfl⟩; simp
    · rintro ⟨-, rfl, rfl, rfl⟩; simp
  | cons c cs ih =>
    simp only [fgLoop]
    cases hv : visit c with
    | ok r =>
      obtain ⟨lc, v⟩ := r
      simp only
      cases hr : fgLoop visit cs (s + v.getD 0) with
      | error e =>
        simp only [reduceCtorEq, false_iff, not_and]
        intro h
        exfalso
        have := (ih (s + v.getD 0) _ _ _).mpr ⟨fun c hc => h c (by simp [hc]), rfl, rfl, rfl⟩
        rw [this] at hr
        simp at hr
      | ok r =>
        obtain ⟨l1, s1, b1⟩ := r
        obtain ⟨i1, i2, i3, i4⟩ := (ih _ _ _ _).mp hr
        have f1 : flowsIn (visit c) = lc := by rw [hv]; rfl
        have f2 : consOf (visit c) = v.getD 0 := by rw [hv]; rfl
        have f3 : isBalance (visit c) = false := by rw [hv]; rfl
        simp only [Except.ok.injEq, Prod.mk.injEq, List.flatMap_cons, List.map_cons, List.sum_cons, List.filter_cons, f1, f2, f3,
          Bool.false_eq_true, if_false, ← i2, ← i4]
        have h1 : s1 = s + (v.getD 0 + (cs.map fun c => consOf (visit c)).sum) := by rw [i3]; ring
        rw [← h1]
        have h2 : ∀ d ∈ c :: cs, Visited (visit d) := by
          intro d hd
          rcases List.mem_cons.mp hd with rfl | hd
          · exact .inr ⟨lc, v, hv⟩
          · exact i1 d hd
        constructor
        · rintro ⟨rfl, rfl, rfl⟩; exact ⟨h2, rfl, rfl, rfl⟩
        · rintro ⟨-, rfl, rfl, rfl⟩; exact ⟨rfl, rfl, rfl⟩
    | error e =>
      by_cases he : e = .foundBalance
      · subst he
        simp only
        cases hr : fgLoop visit cs s with
        | error e =>
          simp only [reduceCtorEq, false_iff, not_and]
          intro h
          exfalso
          have := (ih s _ _ _).mpr ⟨fun c hc => h c (by simp [hc]), rfl, rfl, rfl⟩
          rw [this] at hr
          simp at hr
        | ok r =>
          obtain ⟨l1, s1, b1⟩ := r
          obtain ⟨i1, i2, i3, i4⟩ := (ih _ _ _ _).mp hr
          have f1 : flowsIn (visit c) = [] := by rw [hv]; rfl
          have f2 : consOf (visit c) = 0 := by rw [hv]; rfl
          have f3 : isBalance (visit c) = true := by rw [hv]; rfl
          simp only [Except.ok.injEq, Prod.mk.injEq, List.flatMap_cons, List.map_cons, List.sum_cons, List.filter_cons, f1, f2, f3,
            if_true, List.nil_append, ← i2, zero_add, ← i3, List.getLast?_cons, ← i4]
          have h2 : ∀ d ∈ c :: cs, Visited (visit d) := by
            intro d hd
            rcases List.mem_cons.mp hd with rfl | hd
            · exact .inl hv
            · exact i1 d hd
          constructor
          · rintro ⟨rfl, rfl, rfl⟩; exact ⟨h2, rfl, rfl, rfl⟩
          · rintro ⟨-, rfl, rfl, rfl⟩; exact ⟨rfl, rfl, rfl⟩
      · constructor
        · intro h
          exfalso
          cases e <;> first | (simp at h; done) | exact he rfl
        · rintro ⟨h, -⟩
          exfalso
          rcases h c (by simp) with h | ⟨l, cv, h⟩
          · rw [hv] at h; exact he (by cases h; rfl)
          · rw [hv] at h; cases h

/-- one visit models another one -/
def RLike (H : Heap F Q) (f k : ℕ) (r r' : Res F) : Prop :=
  (r = .error .foundBalance → r' = .error .foundBalance) ∧
  ∀ l cv, r = .ok (l, cv) → ∃ l', r' = .ok (l', cv) ∧ Like H f k l l'

theorem RLike.visited {r r' : Res F} (h : RLike H f k r r') (hv : Visited r) :
    Visited r' ∧ consOf r' = consOf r ∧ isBalance r' = isBalance r ∧ Like H f k (flowsIn r) (flowsIn r') := by
  rcases hv with hv | ⟨l, cv, hv⟩
  · rw [h.1 hv, hv]; exact ⟨.inl rfl, rfl, rfl, Like.refl _⟩
  · obtain ⟨l', h1, h2⟩ := h.2 l cv hv
    rw [h1, hv]; exact ⟨.inr ⟨l', cv, rfl⟩, rfl, rfl, h2⟩

theorem like_flatMap (g g' : ℕ → List (FF F)) (σ : ℕ → ℕ) (cs : List ℕ) (h : ∀ c ∈ cs, Like H f k (g c) (g' (σ c))) :
    Like H f k (cs.flatMap g) ((cs.map σ).flatMap g') := by
  induction cs with
  | nil => exact Like.refl _
  | cons c cs ih =>
    simp only [List.map_cons, List.flatMap_cons]
    exact (h c (by simp)).append (ih fun d hd => h d (by simp [hd]))

/-- the loop over two sorted lists of child flows that correspond, balance flows being the same -/
theorem fgLoop_like (visit visit' : ℕ → Res F) (σ : ℕ → ℕ) (cs cs' : List ℕ) (hp : cs'.Perm (cs.map σ))
    (hs : cs.Pairwise (· ≤ ·)) (hs' : cs'.Pairwise (· ≤ ·)) (hr : ∀ c ∈ cs, RLike H f k (visit c) (visit' (σ c)))
    (hσ : ∀ c ∈ cs, isBalance (visit c) = true → σ c = c) (s : ℚ) (l : List (FF F)) (s' : ℚ) (bo : Option ℕ)
    (h : fgLoop visit cs s = .ok (l, s', bo)) : ∃ l', fgLoop visit' cs' s = .ok (l', s', bo) ∧ Like H f k l l' := by
  obtain ⟨h1, rfl, rfl, rfl⟩ := (fgLoop_iff ..).mp h
  have hv : ∀ c ∈ cs, Visited (visit' (σ c)) := fun c hc => ((hr c hc).visited (h1 c hc)).1
  refine ⟨cs'.flatMap fun c => flowsIn (visit' c), (fgLoop_iff ..).mpr ⟨?_, rfl, ?_, ?_⟩, ?_⟩
  · intro d hd
    obtain ⟨c, hc, rfl⟩ := List.mem_map.mp (hp.mem_iff.mp hd)
    exact hv c hc
  · congr 1
    rw [(hp.map _).sum_eq, List.map_map]
    congr 1
    apply List.map_congr_left
    intro c hc
    exact (((hr c hc).visited (h1 c hc)).2.1).symm
  · have e : (cs'.filter fun c => isBalance (visit' c)) = cs.filter fun c => isBalance (visit c) := by
      apply List.Perm.eq_of_pairwise (le := (· ≤ ·))
      · intro a b _ _ hab hba; omega
      · exact hs'.filter _
      · exact hs.filter _
      · refine (hp.filter _).trans ?_
        rw [List.filter_map]
        have e1 : (cs.filter ((fun c => isBalance (visit' c)) ∘ σ)) = cs.filter fun c => isBalance (visit c) := by
          apply List.filter_congr
          intro c hc
          exact ((hr c hc).visited (h1 c hc)).2.2.1
        rw [e1]
        have e2 : (cs.filter fun c => isBalance (visit c)).map σ = (cs.filter fun c => isBalance (visit c)).map id := by
          apply List.map_congr_left
          intro c hc
          obtain ⟨hc, hb⟩ := List.mem_filter.mp hc
          exact hσ c hc hb
        rw [e2, List.map_id]
    rw [e]
  · refine (like_flatMap _ (fun c => flowsIn (visit' c)) σ cs fun c hc => ((hr c hc).visited (h1 c hc)).2.2.2).trans ?_
    exact Like.perm (hp.symm.flatMap_right _)

/-! ### a tree from which `f` was split off, `k` being in its place -/

/-- the new fragment stands where the old one was -/
def instead (f k c : ℕ) : ℕ := if c = f then k else c

/-- `H'` is `H` after splitting fragment f, child of p, off: k is in its place, terminated to f -/
structure Split (H H' : Heap F Q) (f p k : ℕ) : Prop where
  parent : (H f).parent = some p
  fk : f ≠ k
  pk : p ≠ k
  pf : p ≠ f
  kid : ∀ i c, c ∈ (H i).kids → (H c).parent = some i
  fresh : ∀ i, k ∉ (H i).kids
  noParent : ∀ i, (H i).parent ≠ some k
  other : ∀ i, i ≠ f → i ≠ p → i ≠ k → H' i = H i
  atP : ∃ ks, H' p = { H p with kids := ks } ∧ ks.Perm ((H p).kids.map (instead f k))
  atF : H' f = { H f with parent := none, evs := newEvs }
  atK : H' k =
    { parent := some p, flow := (H f).flow, dir := (H f).dir, evs := (H' k).evs,
      terms := [(none, { target := .frag f, flow := (H f).flow })] }
  evK : ∀ sc obs, .cached ∉ sc.names ∧ .observed ∉ sc.names → exchangeValue (H' k) sc obs = exchangeValue (H f) sc obs
  notBg : (H f).bg = false
  notBal : (H f).bal = false
  balanced : (H f).cons ≠ none → (children (H f)).any (fun c => (H c).bal) = true
  noSub : ∀ q t, (q, t) ∈ (H p).terms → isSubfrag H p t = false
  target : ∀ i, i ≠ k → ∀ q t j, (q, t) ∈ (H i).terms → t.target = .frag j → j ≠ i → ¬ Below H f j ∧ j ≠ k

variable {H' : Heap F Q} {p : ℕ}

theorem Split.same (S : Split H H' f p k) {i : ℕ} (hi : i ≠ k) :
    (H' i).flow = (H i).flow ∧ (H' i).dir = (H i).dir ∧ (H' i).cons = (H i).cons ∧ (H' i).bal = (H i).bal ∧
      (H' i).bg = (H i).bg ∧ (H' i).terms = (H i).terms := by
  by_cases h1 : i = f
  · subst h1; rw [S.atF]; exact ⟨rfl, rfl, rfl, rfl, rfl, rfl⟩
  by_cases h2 : i = p
  · subst h2
    obtain ⟨ks, h, -⟩ := S.atP
    rw [h]; exact ⟨rfl, rfl, rfl, rfl, rfl, rfl⟩
  rw [S.other i h1 h2 hi]; exact ⟨rfl, rfl, rfl, rfl, rfl, rfl⟩

theorem Split.same2 (S : Split H H' f p k) {i : ℕ} (hi : i ≠ k) (hf : i ≠ f) :
    (H' i).parent = (H i).parent ∧ (H' i).evs = (H i).evs := by
  by_cases h2 : i = p
  · subst h2
    obtain ⟨ks, h, -⟩ := S.atP
    rw [h]; exact ⟨rfl, rfl⟩
  rw [S.other i hf h2 hi]; exact ⟨rfl, rfl⟩

theorem mem_children (n : Node F Q) (c : ℕ) : c ∈ children n ↔ c ∈ n.kids := by
  unfold children; rw [List.mem_insertionSort]

theorem Split.children (S : Split H H' f p k) {i : ℕ} (hi : i ≠ k) :
    (children (H' i)).Perm ((children (H i)).map (instead f k)) := by
  unfold Frg.children
  refine (List.perm_insertionSort ..).trans (.trans ?_ ((List.perm_insertionSort ..).map _).symm)
  by_cases h2 : i = p
  · subst h2
    obtain ⟨ks, h, hp⟩ := S.atP
    rw [h]; exact hp
  · have e : (H' i).kids = (H i).kids := by
      by_cases h1 : i = f
      · subst h1; rw [S.atF]
      · rw [S.other i h1 h2 hi]
    rw [e]
    have : (H i).kids.map (instead f k) = (H i).kids := by
      conv_rhs => rw [← List.map_id (H i).kids]
      apply List.map_congr_left
      intro c hc
      unfold instead
      split
      · rename_i hcf
        subst hcf
        have := S.kid i c hc
        rw [S.parent] at this
        cases this
        exact absurd rfl h2
      · rfl
    rw [this]

theorem children_sorted (n : Node F Q) : (children n).Pairwise (· ≤ ·) := List.pairwise_insertionSort (· ≤ ·) n.kids

theorem Split.bals (S : Split H H' f p k) {i : ℕ} (hi : i ≠ k) :
    ((Frg.children (H' i)).any fun c => (H' c).bal) = (Frg.children (H i)).any fun c => (H c).bal := by
  rw [Bool.eq_iff_iff, List.any_eq_true, List.any_eq_true]
  constructor
  · rintro ⟨c, hc, hb⟩
    obtain ⟨d, hd, rfl⟩ := List.mem_map.mp ((S.children hi).mem_iff.mp hc)
    refine ⟨d, hd, ?_⟩
    unfold instead at hb
    split at hb
    · rw [S.atK] at hb; simp at hb
    · have hdk : d ≠ k := fun e => S.fresh i (by rw [← e]; exact (mem_children ..).mp hd)
      rw [(S.same hdk).2.2.2.1] at hb
      exact hb
  · rintro ⟨c, hc, hb⟩
    have hcf : c ≠ f := fun e => by rw [e, S.notBal] at hb; simp at hb
    have hck : c ≠ k := fun e => S.fresh i (by rw [← e]; exact (mem_children ..).mp hc)
    refine ⟨c, (S.children hi).mem_iff.mpr (List.mem_map.mpr ⟨c, hc, ?_⟩), ?_⟩
    · simp [instead, hcf]
    · rw [(S.same hck).2.2.2.1]; exact hb

theorem Split.enter (S : Split H H' f p k) (E : Env F Q) (sc : Scen) (obs : Bool) {seen seen' : List ℕ} {i : ℕ} (hi : i ≠ k)
    (hf : i ≠ f) (hs : (H i).parent = none → i ∉ seen') (up : ℚ) (cq : Option Q) (bal : Option ℚ)
    (he : enter E H sc obs seen i up cq bal ≠ .error .invalidParentChild) :
    enter E H' sc obs seen' i up cq bal = enter E H sc obs seen i up cq bal := by
  obtain ⟨s1, s2, s3, s4, s5, s6⟩ := S.same hi
  obtain ⟨t1, t2⟩ := S.same2 hi hf
  have e1 : evOf (H' i) sc obs bal = evOf (H i) sc obs bal := by
    unfold evOf exchangeValue
    rw [t1, t2]
  have e2 : termOf (H' i) sc = termOf (H i) sc := by unfold termOf; rw [s6]
  have e3 : ∀ t u v, nodeWeight E (H' i) t u v = nodeWeight E (H i) t u v := by
    intro t u v
    unfold nodeWeight
    rw [t1, s1]
  have e4 : ∀ ev, conserved E H' (H' i) ev cq = conserved E H (H i) ev cq := by
    intro ev
    unfold conserved
    rw [s1, s2, s3, s4, S.bals hi]
  have n1 : ¬ ((H i).parent = none ∧ i ∈ seen) := by
    intro h
    apply he
    unfold Frg.enter
    simp [h]
  have n2 : ¬ ((H i).parent = none ∧ i ∈ seen') := fun h => hs h.1 h.2
  unfold Frg.enter
  simp only [t1, n1, n2, if_false, e1, e2, e3, e4, s1, s2]

/-- which fragment is at the top, for fragments that are not below f -/
theorem Split.top (S : Split H H' f p k) {n m j t : ℕ} (hnm : n ≤ m) (hj : j ≠ k) (hb : ¬ Below H f j) (h : top H n j = .ok t) :
    top H' m j = .ok t ∧ t ≠ k ∧ t ≠ f ∧ (H t).parent = none := by
  induction n generalizing m j with
  | zero => simp [Frg.top] at h
  | succ n ih =>
    obtain ⟨m, rfl⟩ : ∃ m', m = m' + 1 := ⟨m - 1, by omega⟩
    have hjf : j ≠ f := fun e => hb (e ▸ Below.refl)
    unfold Frg.top at h ⊢
    rw [(S.same2 hj hjf).1]
    cases hp : (H j).parent with
    | none =>
      rw [hp] at h
      simp only [Except.ok.injEq] at h ⊢
      subst h
      exact ⟨rfl, hj, hjf, hp⟩
    | some q =>
      rw [hp] at h
      simp only at h ⊢
      exact ih (by omega) (fun e => S.noParent j (by rw [hp, e])) (fun hq => hb (.step hp hq)) h

/-- a background fragment that is visited -/
theorem Split.bg (S : Split H H' f p k) {E : Env F Q} {sc : Scen} {obs : Bool} {n m : ℕ} {seen seen' : List ℕ} {j : ℕ}
    (hj : j ≠ k) (hjf : j ≠ f) (hm : 0 < m) (hbg : (H j).bg = true) (hs : (H j).parent = none → j ∉ seen') {up : ℚ} {cq : Option Q}
    {bal : Option ℚ} {l : List (FF F)} {cv : Option ℚ} (h : travNode E H sc obs n seen j up cq bal = .ok (l, cv)) :
    travNode E H' sc obs m seen' j up cq bal = .ok (l, cv) := by
  obtain ⟨m, rfl⟩ : ∃ m', m = m' + 1 := ⟨m - 1, by omega⟩
  cases n with
  | zero => simp [travNode] at h
  | succ n =>
    unfold travNode at h ⊢
    have he : Frg.enter E H sc obs seen j up cq bal ≠ .error .invalidParentChild := by
      intro he; rw [he] at h; simp at h
    rw [S.enter E sc obs hj hjf hs up cq bal he, (S.same hj).2.2.2.2.1]
    cases h1 : Frg.enter E H sc obs seen j up cq bal with
    | error e => rw [h1] at h; simp at h
    | ok r =>
      obtain ⟨ff, cv1⟩ := r
      rw [h1] at h
      simp only [hbg, true_or, or_true, if_true] at h ⊢
      exact h

/-- a balance flow is found -/
theorem Split.found (S : Split H H' f p k) {E : Env F Q} {sc : Scen} {obs : Bool} {n m : ℕ} {seen seen' : List ℕ} {j : ℕ}
    (hj : j ≠ k) (hjf : j ≠ f) (hm : n ≤ m) (hs : (H j).parent = none → j ∉ seen') {up : ℚ} {cq : Option Q} {bal : Option ℚ}
    (h : travNode E H sc obs n seen j up cq bal = .error .foundBalance) :
    travNode E H' sc obs m seen' j up cq bal = .error .foundBalance := by
  obtain ⟨hcq, hb⟩ := trav_foundBalance h
  cases n with
  | zero => simp [travNode] at h
  | succ n =>
    obtain ⟨m, rfl⟩ : ∃ m', m = m' + 1 := ⟨m - 1, by omega⟩
    unfold travNode at h ⊢
    have he : Frg.enter E H sc obs seen j up cq bal ≠ .error .invalidParentChild := by
      intro he; rw [he] at h; simp at h
    rw [S.enter E sc obs hj hjf hs up cq bal he]
    cases h1 : Frg.enter E H sc obs seen j up cq bal with
    | error e => rw [h1] at h; simp only at h ⊢; exact h
    | ok r =>
      obtain ⟨ff, cv1⟩ := r
      obtain ⟨ev, -, -, -, -, -, h2⟩ := enter_ok h1
      cases cq with
      | none => exact absurd rfl hcq
      | some q => rw [(h2 q rfl).1] at hb; simp at hb

theorem fgNode_like (S : Split H H' f p k) (E : Env F Q) {i : ℕ} (hi : i ≠ k) {ff ff2 : FF F} (ha : Alike ff ff2) (s : ℚ)
    (visit visit' : ℕ → Option Q → Option ℚ → Res F)
    (h1 : ∀ c ∈ children (H i), c ≠ f → ∀ cq bal, RLike H f k (visit c cq bal) (visit' c cq bal))
    (h2 : f ∈ children (H i) → ∀ cq, RLike H f k (visit f cq none) (visit' k cq none))
    (hb : ∀ c cq bal, visit c cq bal = .error .foundBalance → (H c).bal = true)
    {l : List (FF F)} (h : fgNode E H i s ff visit = .ok l) :
    ∃ l', fgNode E H' i s ff2 visit' = .ok l' ∧ Like H f k l l' ∧ l.head?.map FF.mag = l'.head?.map FF.mag := by
  obtain ⟨s1, s2, s3, s4, s5, s6⟩ := S.same hi
  have hin : inbound E (H' i) s = inbound E (H i) s := by unfold inbound; rw [s1, s2, s3]
  have hbf : ∀ c cq bal, isBalance (visit c cq bal) = true → (H c).bal = true := by
    intro c cq bal h
    refine hb c cq bal ?_
    unfold isBalance at h
    split at h
    · rename_i e; exact e
    · simp at h
  unfold fgNode at h ⊢
  simp only at h ⊢
  rw [s3, hin]
  cases hl : fgLoop (fun c => visit c (H i).cons none) (children (H i)) (inbound E (H i) s) with
  | error e => rw [hl] at h; simp at h
  | ok r =>
    obtain ⟨l1, s', bo⟩ := r
    rw [hl] at h
    obtain ⟨l1', hl', hlike⟩ := fgLoop_like (H := H) (f := f) (k := k) (fun c => visit c (H i).cons none)
      (fun c => visit' c (H i).cons none) (instead f k) (children (H i)) (children (H' i)) (S.children hi) (children_sorted _)
      (children_sorted _) (by
        intro c hc
        unfold instead
        split
        · rename_i e; subst e; exact h2 hc _
        · rename_i e; exact h1 c hc e _ _)
      (by
        intro c hc hbal
        have hcb := hbf c _ _ hbal
        unfold instead
        rw [if_neg]
        intro e
        rw [e, S.notBal] at hcb
        simp at hcb) _ _ _ _ hl
    rw [hl']
    cases bo with
    | none =>
      simp only [Except.ok.injEq] at h ⊢
      subst h
      exact ⟨_, rfl, Like.cons ha hlike, by simp [ha.mag]⟩
    | some b =>
      have hbm := ((fgLoop_iff ..).mp hl).2.2.2
      have hb1 := List.mem_of_getLast? hbm.symm
      obtain ⟨hb2, hb3⟩ := List.mem_filter.mp hb1
      have hb4 := hbf b _ _ hb3
      have hbfne : b ≠ f := fun e => by rw [e, S.notBal] at hb4; simp at hb4
      have hbk : b ≠ k := fun e => S.fresh i (by rw [← e]; exact (mem_children ..).mp hb2)
      simp only at h ⊢
      rw [(S.same hbk).2.1]
      cases hv : visit b none (some (if (H b).dir = .input then -s' else s')) with
      | error e => rw [hv] at h; simp at h
      | ok r =>
        obtain ⟨l2, cv⟩ := r
        rw [hv] at h
        simp only [Except.ok.injEq] at h
        subst h
        obtain ⟨l2', hv', hlike2⟩ := (h1 b hb2 hbfne none _).2 l2 cv hv
        rw [hv']
        exact ⟨_, rfl, (Like.cons ha hlike).append hlike2, by simp [ha.mag]⟩

theorem subLoop_like (H H' : Heap F Q) (f k : ℕ) (visit visit' : ℕ → ℚ → Res F) (cs : List ℕ)
    (hsame : ∀ c ∈ cs, (H' c).flow = (H c).flow ∧ (H' c).dir = (H c).dir)
    (hv : ∀ c ∈ cs, ∀ ev l cv, visit c ev = .ok (l, cv) → ∃ l', visit' c ev = .ok (l', cv) ∧ Like H f k l l') :
    ∀ (inv inv' : List (FF F)), InvLike inv inv' → Entries inv → Entries inv' → ∀ l rest, subLoop H visit cs inv = .ok (l, rest) →
      ∃ l' rest', subLoop H' visit' cs inv' = .ok (l', rest') ∧ Like H f k l l' ∧ InvLike rest rest' ∧ Entries rest ∧
        Entries rest' := by
  induction cs with
  | nil =>
    intro inv inv' h1 h2 h3 l rest h
    simp only [subLoop, Except.ok.injEq, Prod.mk.injEq] at h
    obtain ⟨rfl, rfl⟩ := h
    exact ⟨[], inv', rfl, Like.refl _, h1, h2, h3⟩
  | cons c cs ih =>
    intro inv inv' h1 h2 h3 l rest h
    have ih := ih (fun d hd => hsame d (by simp [hd])) (fun d hd => hv d (by simp [hd]))
    obtain ⟨s1, s2⟩ := hsame c (by simp)
    simp only [subLoop] at h ⊢
    rw [s1, s2, ← h1.find (H c).flow]
    cases hf : inv.find? fun m => decide (m.flow = (H c).flow) with
    | none =>
      rw [hf] at h
      simp only at h ⊢
      exact ih inv inv' h1 h2 h3 l rest h
    | some m =>
      rw [hf] at h
      simp only at h ⊢
      cases hvc : visit c (if m.dir = (H c).dir then m.mag else -m.mag) with
      | error e => rw [hvc] at h; simp at h
      | ok r =>
        obtain ⟨l1, cv⟩ := r
        rw [hvc] at h
        simp only at h
        obtain ⟨l1', hv', hlike⟩ := hv c (by simp) _ _ _ hvc
        rw [hv']
        simp only
        cases hs : subLoop H visit cs (inv.eraseP fun m => decide (m.flow = (H c).flow)) with
        | error e => rw [hs] at h; simp at h
        | ok r =>
          obtain ⟨l2, r2⟩ := r
          rw [hs] at h
          simp only [Except.ok.injEq, Prod.mk.injEq] at h
          obtain ⟨rfl, rfl⟩ := h
          obtain ⟨l2', r2', e1, e2, e3, e4, e5⟩ := ih _ _ (h1.erase _) (h2.erase _) (h3.erase _) _ _ hs
          rw [e1]
          exact ⟨_, _, rfl, hlike.append e2, e3, e4, e5⟩

theorem subNode_like (S : Split H H' f p k) {i : ℕ} (hi : i ≠ k) (hip : i ≠ p) {ff ff2 : FF F} (ha : Alike ff ff2)
    {inv inv' int int' : List (FF F)} (hinv : InvLike inv inv') (he : Entries inv) (he' : Entries inv') (hint : Like H f k int int')
    (visit visit' : ℕ → ℚ → ℚ → Res F)
    (hv : ∀ c ∈ children (H i), ∀ w ev l cv, visit c w ev = .ok (l, cv) → ∃ l', visit' c w ev = .ok (l', cv) ∧ Like H f k l l')
    {l : List (FF F)} (h : subNode H i ff inv int visit = .ok l) :
    ∃ l', subNode H' i ff2 inv' int' visit' = .ok l' ∧ Like H f k l l' ∧ l.head?.map FF.mag = l'.head?.map FF.mag := by
  obtain ⟨s1, s2, s3, s4, s5, s6⟩ := S.same hi
  have hkids : Frg.children (H' i) = Frg.children (H i) := by
    unfold Frg.children
    by_cases h1 : i = f
    · subst h1; rw [S.atF]
    · rw [S.other i h1 hip hi]
  unfold subNode at h ⊢
  simp only at h ⊢
  rw [hkids, s2, ← ha.term, ← ha.nw, ← hinv.find]
  cases hf : inv.find? fun m => decide (m.flow = ff.term.flow) with
  | none => rw [hf] at h; simp at h
  | some m =>
    rw [hf] at h
    simp only at h ⊢
    by_cases hz : m.mag = 0
    · simp [hz] at h
    · simp only [hz, if_false] at h ⊢
      generalize hd : ff.nw / (if m.dir = (H i).dir then -m.mag else m.mag) = dnw at h ⊢
      cases hs : subLoop H (fun c ev => visit c dnw ev) (Frg.children (H i)) (inv.eraseP fun m => decide (m.flow = ff.term.flow)) with
      | error e => rw [hs] at h; simp at h
      | ok r =>
        obtain ⟨l2, rest⟩ := r
        rw [hs] at h
        simp only [Except.ok.injEq] at h
        subst h
        obtain ⟨l2', rest', e1, e2, e3, e4, e5⟩ := subLoop_like H H' f k (fun c ev => visit c dnw ev) (fun c ev => visit' c dnw ev)
          (Frg.children (H i)) (by
            intro c hc
            have hck : c ≠ k := fun e => S.fresh i (by rw [← e]; exact (mem_children ..).mp hc)
            exact ⟨(S.same hck).1, (S.same hck).2.1⟩)
          (fun c hc ev l cv hh => hv c hc dnw ev l cv hh) _ _ (hinv.erase _) (he.erase _) (he'.erase _) _ _ hs
        rw [e1]
        refine ⟨_, rfl, ?_, ?_⟩
        · refine Like.append (Like.append ?_ e2) ((InvLike.like e3 e4 e5).scale dnw)
          by_cases hdsc : ff.term.descend = true
          · simp only [hdsc, if_true]
            exact Like.cons ha (hint.scale dnw)
          · simp only [hdsc, Bool.false_eq_true, if_false]
            exact Alike.like ⟨ha.who, ha.flow, ha.dir, ha.mag, rfl, rfl⟩
        · by_cases hdsc : ff.term.descend = true
          · simp [hdsc, ha.mag]
          · simp [hdsc, ha.mag]

/-! ### the induction -/

theorem termOf_mem {n : Node F Q} {sc : Scen} {t : Term F} (h : termOf n sc = .ok t) : ∃ q, (q, t) ∈ n.terms := by
  have key : ∀ q, (match n.terms.get? q with
      | some t => (.ok t : Except Err (Term F))
      | none => .error .keyError) = .ok t → ∃ q, (q, t) ∈ n.terms := by
    intro q hq
    cases hg : n.terms.get? q with
    | none => rw [hg] at hq; simp at hq
    | some t' =>
      rw [hg] at hq
      simp only [Except.ok.injEq] at hq
      subst hq
      exact ⟨q, Dict.mem_of_get?_eq_some _ hg⟩
  unfold termOf at h
  simp only at h
  split at h
  · exact key _ h
  · split at h
    · exact key _ h
    · exact key _ h
  · split at h
    · exact key _ h
    · exact key _ h
    · simp at h

/-- a visit of a fragment other than f and k models the same visit after the split -/
def Visits (E : Env F Q) (H H' : Heap F Q) (f k : ℕ) (sc : Scen) (obs : Bool) (n m : ℕ) : Prop :=
  ∀ seen c up cq bal l cv, c ≠ f → c ≠ k → travNode E H sc obs n seen c up cq bal = .ok (l, cv) →
    ∀ seen', ((H c).parent = none → c ∉ seen') → ∃ l', travNode E H' sc obs m seen' c up cq bal = .ok (l', cv) ∧
      Like H f k l l' ∧ l.head?.map FF.mag = l'.head?.map FF.mag

/-- a visit of f models the visit of k -/
def VisitsK (E : Env F Q) (H H' : Heap F Q) (f k : ℕ) (sc : Scen) (obs : Bool) (n m : ℕ) : Prop :=
  ∀ seen up cq l cv, travNode E H sc obs n seen f up cq none = .ok (l, cv) →
    ∀ seen', ∃ l', travNode E H' sc obs m seen' k up cq none = .ok (l', cv) ∧ Like H f k l l'

theorem expand_like (S : Split H H' f p k) {E : Env F Q} {sc : Scen} {obs : Bool} {n m : ℕ} (hm : n ≤ m)
    (IH : Visits E H H' f k sc obs n m) (IK : VisitsK E H H' f k sc obs n m)
    {seen seen' : List ℕ} {i : ℕ} {ff ff2 : FF F} (hi : i ≠ k) (hnb : (H i).bg = false) (ht : termOf (H i) sc = .ok ff.term)
    (ha : Alike ff ff2) (hst : ∀ b, stock0 (H' i) sc obs b = stock0 (H i) sc obs b) {l : List (FF F)}
    (h : expand E H sc obs (top H n) (travNode E H sc obs n) seen i ff = .ok l) :
    ∃ l', expand E H' sc obs (top H' m) (travNode E H' sc obs m) seen' i ff2 = .ok l' ∧ Like H f k l l' ∧
      l.head?.map FF.mag = l'.head?.map FF.mag := by
  obtain ⟨s1, s2, s3, s4, s5, s6⟩ := S.same hi
  have hkid : ∀ c ∈ children (H i), (H c).parent ≠ none ∧ c ≠ k := by
    intro c hc
    have hc := (mem_children ..).mp hc
    exact ⟨by rw [S.kid i c hc]; simp, fun e => S.fresh i (by rw [← e]; exact hc)⟩
  have hfg : ∀ b, fgFrom E H sc obs (travNode E H sc obs n) seen i ff b = .ok l →
      ∃ l', fgFrom E H' sc obs (travNode E H' sc obs m) seen' i ff2 b = .ok l' ∧ Like H f k l l' ∧
        l.head?.map FF.mag = l'.head?.map FF.mag := by
    intro b hb
    unfold fgFrom at hb ⊢
    rw [hst b]
    cases hs : stock0 (H i) sc obs b with
    | error e => rw [hs] at hb; simp at hb
    | ok s =>
      rw [hs] at hb
      simp only at hb ⊢
      rw [← ha.nw]
      refine fgNode_like S E hi ha s _ _ ?_ ?_ ?_ hb
      · intro c hc hcf cq bal
        obtain ⟨hc1, hc2⟩ := hkid c hc
        refine ⟨fun he => S.found hc2 hcf hm (fun e => absurd e hc1) he, fun l cv he => ?_⟩
        obtain ⟨l', h1, h2, -⟩ := IH _ _ _ _ _ _ _ hcf hc2 he seen' (fun e => absurd e hc1)
        exact ⟨l', h1, h2⟩
      · intro _ cq
        refine ⟨fun he => ?_, fun l cv he => IK _ _ _ _ _ he seen'⟩
        have := (trav_foundBalance he).2
        rw [S.notBal] at this
        simp at this
      · intro c cq bal he
        exact (trav_foundBalance he).2
  unfold expand at h ⊢
  rw [← ha.term]
  cases htg : ff.term.target with
  | null =>
    rw [htg] at h
    simp only [Except.ok.injEq] at h ⊢
    subst h
    exact ⟨_, rfl, ha.like, by simp [ha.mag]⟩
  | process =>
    rw [htg] at h
    simp only at h ⊢
    exact hfg false h
  | frag j =>
    rw [htg] at h
    simp only at h ⊢
    by_cases hji : j = i
    · simp only [hji, if_true] at h ⊢
      exact hfg true h
    · obtain ⟨q, hq⟩ := termOf_mem ht
      obtain ⟨hbelow, hjk⟩ := S.target i hi q _ j hq htg hji
      have hjf : j ≠ f := fun e => hbelow (e ▸ Below.refl)
      simp only [hji, if_false, (S.same hjk).2.2.2.2.1] at h ⊢
      by_cases hbg : (H j).bg = true
      · simp only [hbg, if_true] at h ⊢
        cases hv : travNode E H sc obs n [] j ff.nw none none with
        | error e => rw [hv] at h; simp at h
        | ok r =>
          obtain ⟨l1, cv⟩ := r
          have hn : 0 < n := by
            cases n with
            | zero => simp [travNode] at hv
            | succ n => omega
          rw [← ha.nw, S.bg hjk hjf (by omega) hbg (by simp) hv, s1, s2]
          rw [hv] at h
          exact ⟨l, h, Like.refl _, rfl⟩
      · simp only [hbg, Bool.false_eq_true, if_false] at h ⊢
        have hip : i ≠ p := by
          intro e
          subst e
          have := S.noSub q _ hq
          unfold isSubfrag at this
          rw [htg] at this
          simp [hji, hnb, hbg] at this
        cases hto : top H n j with
        | error e => rw [hto] at h; simp at h
        | ok t =>
          rw [hto] at h
          obtain ⟨ht1, ht2, ht3, ht4⟩ := S.top hm hjk hbelow hto
          rw [ht1]
          simp only at h ⊢
          cases hv : travNode E H sc obs n [] t 1 none none with
          | error e => rw [hv] at h; simp at h
          | ok r =>
            obtain ⟨ffs, cv⟩ := r
            rw [hv] at h
            obtain ⟨ffs', hv', hl1, hl2⟩ := IH _ _ _ _ _ _ _ ht3 ht2 hv [] (by simp)
            rw [hv', (S.same ht2).1, (S.same ht2).2.1]
            simp only at h ⊢
            cases hg : groupIos j (H t).flow (H t).dir ffs true with
            | error e => rw [hg] at h; simp at h
            | ok g =>
              obtain ⟨inv, int⟩ := g
              rw [hg] at h
              obtain ⟨inv', int', g1, g2, g3, g4, g5⟩ := groupIos_like hl1 hl2 j _ _ _ _ hg
              rw [g1]
              simp only at h ⊢
              refine subNode_like S hi hip ha g2 g3 g4 g5 _ _ ?_ h
              intro c hc w ev l cv he
              obtain ⟨hc1, hc2⟩ := hkid c hc
              have hcf : c ≠ f := by
                intro e
                subst e
                have := S.kid i c ((mem_children ..).mp hc)
                rw [S.parent] at this
                cases this
                exact hip rfl
              obtain ⟨l', e1, e2, -⟩ := IH _ _ _ _ _ _ _ hcf hc2 he seen' (fun e => absurd e hc1)
              exact ⟨l', e1, e2⟩

theorem Below.trans {a b c : ℕ} (h : Below H a b) (h' : Below H b c) : Below H a c := by
  induction h' with
  | refl => exact h
  | step hp _ ih => exact .step hp ih

/-- what is cut off in a traversal is below the fragment, or a ghost -/
theorem cut_below {E : Env F Q} {sc : Scen} {obs : Bool} (hkid : ∀ i c, c ∈ (H i).kids → (H c).parent = some i) (n : ℕ) :
    ∀ (seen : List ℕ) (i : ℕ) (up : ℚ) (cq : Option Q) (bal : Option ℚ) (l : List (FF F)) (cv : Option ℚ),
      travNode E H sc obs n seen i up cq bal = .ok (l, cv) → ∀ x ∈ l, ∀ j, x.who = .frag j → x.term.isNull = true → Below H i j := by
  induction n with
  | zero => intro seen i up cq bal l cv h; simp [travNode] at h
  | succ n ih =>
    intro seen i up cq bal l cv h
    obtain ⟨ff, he, -⟩ := trav_own h
    obtain ⟨ev, -, hw, -⟩ := enter_ok he
    have hff : ∀ x : FF F, x.who = ff.who → ∀ j, x.who = .frag j → Below H i j := by
      intro x hx j hj
      rw [hx, hw] at hj
      cases hj
      exact .refl
    have hc : ∀ c ∈ children (H i), Below H i c := fun c hc => .step (hkid i c ((mem_children ..).mp hc)) .refl
    have hint : ∀ (p : ℕ) (rf : F) (rd : Dir) (ffs inv int : List (FF F)), groupIos p rf rd ffs true = .ok (inv, int) → Entries inv ∧ ∀ x ∈ int, x.term.isNull = false := by
      intro p rf rd ffs inv int hg
      have h1 := group_ios_internal _ _ _ _ hg
      obtain ⟨inv', int', h2, -, h3, -⟩ := groupIos_like (H := H) (f := 0) (k := 0) (Like.refl ffs) rfl p rf rd inv int hg
      refine ⟨h3, ?_⟩
      subst h1
      intro x hx
      simpa using (List.mem_filter.mp hx).2
    have hfg : ∀ seen b, fgFrom E H sc obs (travNode E H sc obs n) seen i ff b = .ok l →
        ∀ x ∈ l, ∀ j, x.who = .frag j → x.term.isNull = true → Below H i j := by
      intro seen b hb x hx j hj hnull
      unfold fgFrom at hb
      cases hs : stock0 (H i) sc obs b with
      | error e => rw [hs] at hb; simp at hb
      | ok s =>
        rw [hs] at hb
        simp only at hb
        unfold fgNode at hb
        simp only at hb
        cases hl : fgLoop (fun c => travNode E H sc obs n seen c ff.nw (H i).cons none) (children (H i)) (inbound E (H i) s) with
        | error e => rw [hl] at hb; simp at hb
        | ok r =>
          obtain ⟨l1, s', bo⟩ := r
          rw [hl] at hb
          obtain ⟨g1, g2, g3, g4⟩ := (fgLoop_iff ..).mp hl
          have hl1 : ∀ x ∈ l1, ∀ j, x.who = .frag j → x.term.isNull = true → Below H i j := by
            intro x hx j hj hnull
            rw [g2] at hx
            obtain ⟨c, hcm, hx⟩ := List.mem_flatMap.mp hx
            rcases g1 c hcm with hv | ⟨lc, cv, hv⟩
            · rw [hv] at hx; simp [flowsIn] at hx
            · rw [hv] at hx
              exact (hc c hcm).trans (ih _ _ _ _ _ _ _ hv x hx j hj hnull)
          cases bo with
          | none =>
            simp only [Except.ok.injEq] at hb
            subst hb
            rcases List.mem_cons.mp hx with rfl | hx
            · exact hff x rfl j hj
            · exact hl1 x hx j hj hnull
          | some b =>
            have hbm := (List.mem_filter.mp (List.mem_of_getLast? g4.symm)).1
            simp only at hb
            cases hv : travNode E H sc obs n seen b ff.nw none (some (if (H b).dir = .input then -s' else s')) with
            | error e => rw [hv] at hb; simp at hb
            | ok r =>
              obtain ⟨l2, cv2⟩ := r
              rw [hv] at hb
              simp only [Except.ok.injEq] at hb
              subst hb
              rcases List.mem_append.mp hx with hx | hx
              · rcases List.mem_cons.mp hx with rfl | hx
                · exact hff x rfl j hj
                · exact hl1 x hx j hj hnull
              · exact (hc b hbm).trans (ih _ _ _ _ _ _ _ hv x hx j hj hnull)
    unfold travNode at h
    rw [he] at h
    simp only at h
    split at h
    · simp only [Except.ok.injEq, Prod.mk.injEq] at h
      obtain ⟨rfl, -⟩ := h
      intro x hx j hj _
      simp only [List.mem_singleton] at hx
      subst hx
      exact hff x rfl j hj
    · generalize (if (H i).parent = none then i :: seen else seen) = seen1 at h
      cases hx : expand E H sc obs (top H n) (travNode E H sc obs n) seen1 i ff with
      | error e => rw [hx] at h; simp at h
      | ok l0 =>
        rw [hx] at h
        simp only [Except.ok.injEq, Prod.mk.injEq] at h
        obtain ⟨rfl, -⟩ := h
        unfold expand at hx
        cases htg : ff.term.target with
        | null =>
          rw [htg] at hx
          simp only [Except.ok.injEq] at hx
          subst hx
          intro x hx j hj _
          simp only [List.mem_singleton] at hx
          subst hx
          exact hff x rfl j hj
        | process => rw [htg] at hx; exact hfg _ _ hx
        | frag j0 =>
          rw [htg] at hx
          simp only at hx
          by_cases hji : j0 = i
          · simp only [hji, if_true] at hx; exact hfg _ _ hx
          · simp only [hji, if_false] at hx
            by_cases hbg : (H j0).bg = true
            · simp only [hbg, if_true] at hx
              cases hv : travNode E H sc obs n [] j0 ff.nw none none with
              | error e => rw [hv] at hx; simp at hx
              | ok r =>
                obtain ⟨l1, cv1⟩ := r
                rw [hv] at hx
                match l1, hx with
                | [g], hx =>
                  simp only [Except.ok.injEq] at hx
                  subst hx
                  intro x hx j hj _
                  simp only [List.mem_singleton] at hx
                  subst hx
                  cases hj
                  exact .refl
            · simp only [hbg, Bool.false_eq_true, if_false] at hx
              cases hto : top H n j0 with
              | error e => rw [hto] at hx; simp at hx
              | ok t =>
                rw [hto] at hx
                simp only at hx
                cases hv : travNode E H sc obs n [] t 1 none none with
                | error e => rw [hv] at hx; simp at hx
                | ok r =>
                  obtain ⟨ffs, cv1⟩ := r
                  rw [hv] at hx
                  simp only at hx
                  cases hg : groupIos j0 (H t).flow (H t).dir ffs true with
                  | error e => rw [hg] at hx; simp at hx
                  | ok g =>
                    obtain ⟨inv, int⟩ := g
                    rw [hg] at hx
                    simp only at hx
                    obtain ⟨k1, k2⟩ := hint _ _ _ _ _ _ hg
                    unfold subNode at hx
                    simp only at hx
                    cases hf : inv.find? fun m => decide (m.flow = ff.term.flow) with
                    | none => rw [hf] at hx; simp at hx
                    | some m =>
                      rw [hf] at hx
                      simp only at hx
                      by_cases hz : m.mag = 0
                      · simp [hz] at hx
                      · simp only [hz, if_false] at hx
                        generalize hd : ff.nw / (if m.dir = (H i).dir then -m.mag else m.mag) = dnw at hx
                        have hsub : ∀ (cs : List ℕ), (∀ c ∈ cs, Below H i c) → ∀ inv l rest, Entries inv →
                            subLoop H (fun c ev => travNode E H sc obs n seen1 c dnw none (some ev)) cs inv = .ok (l, rest) →
                            (∀ x ∈ l, ∀ j, x.who = .frag j → x.term.isNull = true → Below H i j) ∧ Entries rest := by
                          intro cs
                          induction cs with
                          | nil =>
                            intro _ inv l rest hinv hh
                            simp only [subLoop, Except.ok.injEq, Prod.mk.injEq] at hh
                            obtain ⟨rfl, rfl⟩ := hh
                            exact ⟨by simp, hinv⟩
                          | cons c cs ihc =>
                            intro hcs inv l rest hinv hh
                            have ihc := ihc fun d hd => hcs d (by simp [hd])
                            simp only [subLoop] at hh
                            cases hff : inv.find? fun m => decide (m.flow = (H c).flow) with
                            | none => rw [hff] at hh; exact ihc inv l rest hinv hh
                            | some m' =>
                              rw [hff] at hh
                              simp only at hh
                              cases hvc : travNode E H sc obs n seen1 c dnw none
                                  (some (if m'.dir = (H c).dir then m'.mag else -m'.mag)) with
                              | error e => rw [hvc] at hh; simp at hh
                              | ok r =>
                                obtain ⟨lc, cvc⟩ := r
                                rw [hvc] at hh
                                simp only at hh
                                generalize hrec : subLoop H _ cs _ = o at hh
                                cases o with
                                | error e => simp at hh
                                | ok r =>
                                  obtain ⟨l2, r2⟩ := r
                                  simp only [Except.ok.injEq, Prod.mk.injEq] at hh
                                  obtain ⟨rfl, rfl⟩ := hh
                                  obtain ⟨m1, m2⟩ := ihc _ _ _ (hinv.erase _) hrec
                                  refine ⟨?_, m2⟩
                                  intro x hx j hj hnull
                                  rcases List.mem_append.mp hx with hx | hx
                                  · exact (hcs c (by simp)).trans (ih _ _ _ _ _ _ _ hvc x hx j hj hnull)
                                  · exact m1 x hx j hj hnull
                        generalize hrec : subLoop H _ (children (H i)) _ = o at hx
                        cases o with
                        | error e => simp at hx
                        | ok r =>
                          obtain ⟨l2, rest⟩ := r
                          simp only [Except.ok.injEq] at hx
                          subst hx
                          obtain ⟨m1, m2⟩ := hsub _ hc _ _ _ (k1.erase _) hrec
                          intro x hx j hj hnull
                          rcases List.mem_append.mp hx with hx | hx
                          · rcases List.mem_append.mp hx with hx | hx
                            · by_cases hdsc : ff.term.descend = true
                              · simp only [hdsc, if_true] at hx
                                rcases List.mem_cons.mp hx with rfl | hx
                                · exact hff x rfl j hj
                                · obtain ⟨y, hy, rfl⟩ := List.mem_map.mp hx
                                  have := k2 y hy
                                  have e : (FF.scale dnw y).term = y.term := rfl
                                  rw [e, this] at hnull
                                  simp at hnull
                              · simp only [hdsc, Bool.false_eq_true, if_false, List.mem_singleton] at hx
                                subst hx
                                exact hff _ rfl j hj
                            · exact m1 x hx j hj hnull
                          · obtain ⟨y, hy, rfl⟩ := List.mem_map.mp hx
                            obtain ⟨jj, hjj⟩ := (m2 y hy).2
                            have e : (FF.scale dnw y).who = y.who := rfl
                            rw [e, hjj] at hj
                            simp at hj

/-! ### the fragment put in the place of f -/

/-- the traversal begins with the fragment's own flow -/
theorem expand_head {E : Env F Q} {sc : Scen} {obs : Bool} {tp : ℕ → Except Err ℕ}
    {visit : List ℕ → ℕ → ℚ → Option Q → Option ℚ → Res F} {seen : List ℕ} {i : ℕ} {ff : FF F} {l : List (FF F)}
    (hbg : ∀ j, ff.term.target = .frag j → j ≠ i → (H j).bg = false) (h : expand E H sc obs tp visit seen i ff = .ok l) :
    l.head?.map FF.mag = some ff.mag := by
  have hfg : ∀ b, fgFrom E H sc obs visit seen i ff b = .ok l → l.head?.map FF.mag = some ff.mag := by
    intro b hb
    unfold fgFrom at hb
    cases hs : stock0 (H i) sc obs b with
    | error e => rw [hs] at hb; simp at hb
    | ok s =>
      rw [hs] at hb
      simp only at hb
      unfold fgNode at hb
      simp only at hb
      split at hb
      · simp at hb
      · cases hb; rfl
      · split at hb
        · simp at hb
        · cases hb; rfl
  unfold expand at h
  cases htg : ff.term.target with
  | null => rw [htg] at h; cases h; rfl
  | process => rw [htg] at h; exact hfg _ h
  | frag j =>
    rw [htg] at h
    simp only at h
    by_cases hji : j = i
    · simp only [hji, if_true] at h; exact hfg _ h
    · simp only [hji, if_false, hbg j htg hji, Bool.false_eq_true] at h
      split at h
      · simp at h
      · split at h
        · simp at h
        · split at h
          · simp at h
          · unfold subNode at h
            simp only at h
            split at h
            · simp at h
            · split at h
              · simp at h
              · split at h
                · simp at h
                · cases h
                  by_cases hd : ff.term.descend = true <;> simp [hd]

/-- what the traversals of f need to be: f is terminated, to something of the same flow; its own flow is not cut off below it;
scenarios are named -/
structure Terminated (E : Env F Q) (H : Heap F Q) (f : ℕ) (sc : Scen) (obs : Bool) : Prop where
  term : ∃ t, termOf (H f) sc = .ok t ∧ t.isNull = false ∧ conversion E (H f).flow t.flow = .ok 1 ∧
    ∀ j, t.target = .frag j → j ≠ f → (H j).bg = false
  own : ∀ n seen up cq l cv, travNode E H sc obs n seen f up cq none = .ok (l, cv) → cutoffsOf (H f).flow l = []
  names : .cached ∉ sc.names ∧ .observed ∉ sc.names

theorem exchangeValue_new {n : Node F Q} (hp : n.parent = none) (he : n.evs = newEvs) {sc : Scen} (obs : Bool)
    (hn : .cached ∉ sc.names ∧ .observed ∉ sc.names) : exchangeValue n sc obs = .ok 1 := by
  have hm : matchEv newEvs sc = .ok none := by
    have hk : ∀ k : Key, k ≠ .cached → k ≠ .observed → Dict.has newEvs k = false := by
      intro k h1 h2
      have h1 : ¬ Key.cached = k := fun e => h1 e.symm
      have h2 : ¬ Key.observed = k := fun e => h2 e.symm
      simp [Dict.has, Dict.get?, newEvs, h1, h2]
    unfold matchEv
    cases sc with
    | none => rfl
    | one k =>
      simp only [Scen.names, List.mem_singleton] at hn
      simp [hk k (fun e => hn.1 e.symm) (fun e => hn.2 e.symm)]
    | many l =>
      simp only [Scen.names] at hn
      have : l.filter (Dict.has newEvs) = [] := by
        apply List.filter_eq_nil_iff.mpr
        intro k hkl
        rw [hk k (fun e => hn.1 (e ▸ hkl)) (fun e => hn.2 (e ▸ hkl))]
        simp
      simp [this]
  unfold exchangeValue
  rw [he, hm, hp]
  cases obs <;> simp [observedEv, cachedEv, newEvs, Dict.get?]

theorem termOf_single {n : Node F Q} {t : Term F} (h : n.terms = [(none, t)]) (sc : Scen) : termOf n sc = .ok t := by
  unfold termOf
  have h1 : n.terms.get? none = some t := by rw [h]; simp [Dict.get?]
  have h2 : ∀ k, n.terms.has (some k) = false := by intro k; rw [h]; simp [Dict.has, Dict.get?]
  cases sc with
  | none => simp [h1]
  | one k => simp [h1, h2]
  | many l =>
    have : (l.filter fun k => n.terms.has (some k)) = [] := by
      apply List.filter_eq_nil_iff.mpr
      intro k _
      simp [h2]
    simp [this, h1]

theorem comp_ne (d : Dir) : d.comp ≠ d := by cases d <;> simp [Dir.comp]

theorem visitsK_step (S : Split H H' f p k) {E : Env F Q} {sc : Scen} {obs : Bool} (T : Terminated E H f sc obs) {n m : ℕ}
    (hm : n ≤ m) (IH : Visits E H H' f k sc obs n m) (IK : VisitsK E H H' f k sc obs n m) :
    VisitsK E H H' f k sc obs (n + 1) (m + 2) := by
  intro seen up cq l cv h seen'
  obtain ⟨t, ht, hnull, hconv, hbgt⟩ := T.term
  have hown := T.own _ _ _ _ _ _ h
  have hcut := cut_below S.kid (n + 1) _ _ _ _ _ _ _ h
  obtain ⟨s1, s2, s3, s4, s5, s6⟩ := S.same S.fk
  have k1 : (H' k).parent = some p := by rw [S.atK]
  have k2 : (H' k).flow = (H f).flow := by rw [S.atK]
  have k3 : (H' k).dir = (H f).dir := by rw [S.atK]
  have k4 : (H' k).terms = [(none, { target := .frag f, flow := (H f).flow })] := by rw [S.atK]
  have k5 : (H' k).bg = false := by rw [S.atK]
  have k6 : (H' k).bal = false := by rw [S.atK]
  have k7 : (H' k).cons = none := by rw [S.atK]
  have k8 : (H' k).kids = [] := by rw [S.atK]
  unfold travNode at h
  cases he : enter E H sc obs seen f up cq none with
  | error e => rw [he] at h; simp at h
  | ok r =>
    obtain ⟨ff, cv1⟩ := r
    rw [he] at h
    -- the own flow of f
    have hff : ∃ ev c, exchangeValue (H f) sc obs = .ok ev ∧ conserved E H (H f) ev cq = .ok (cv1, c) ∧
        ff = { who := .frag f, flow := (H f).flow, dir := (H f).dir, mag := up * ev, nw := up * ev, term := t, conserved := c } := by
      unfold enter at he
      have hp : ¬ ((H f).parent = none ∧ f ∈ seen) := by rw [S.parent]; simp
      simp only [hp, if_false, evOf, ht] at he
      cases hev : exchangeValue (H f) sc obs with
      | error e => rw [hev] at he; simp at he
      | ok ev =>
        rw [hev] at he
        simp only [nodeWeight, S.parent, hnull, hconv, Except.map, mul_one, reduceCtorEq, Bool.false_eq_true, if_false] at he
        cases hc : conserved E H (H f) ev cq with
        | error e => rw [hc] at he; simp at he
        | ok r =>
          obtain ⟨cvv, c⟩ := r
          rw [hc] at he
          simp only [Except.ok.injEq, Prod.mk.injEq] at he
          obtain ⟨rfl, rfl⟩ := he
          exact ⟨ev, c, rfl, hc, rfl⟩
    obtain ⟨ev, c, hev, hcons, rfl⟩ := hff
    -- the own flow of k
    have hk : ∃ c', enter E H' sc obs seen' k up cq none = .ok ({ who := .frag k, flow := (H f).flow, dir := (H f).dir, mag := up * ev, nw := up * ev, term := { target := .frag f, flow := (H f).flow }, conserved := c' }, cv1) := by
      have hc' : ∃ c', conserved E H' (H' k) ev cq = .ok (cv1, c') := by
        unfold conserved at hcons ⊢
        cases cq with
        | some q =>
          simp only [S.notBal, Bool.false_eq_true, if_false, Except.ok.injEq, Prod.mk.injEq] at hcons
          simp only [k6, Bool.false_eq_true, if_false, k2, k3, Except.ok.injEq, Prod.mk.injEq]
          exact ⟨_, hcons.1, rfl⟩
        | none =>
          simp only [S.notBal, Bool.false_eq_true, if_false] at hcons
          simp only [k6, k7, Bool.false_eq_true, if_false, Except.ok.injEq, Prod.mk.injEq]
          cases hq : (H f).cons with
          | none => rw [hq] at hcons; simp only [Except.ok.injEq, Prod.mk.injEq] at hcons; exact ⟨_, hcons.1, rfl⟩
          | some q =>
            rw [hq] at hcons
            simp only at hcons
            split at hcons
            · simp only [Except.ok.injEq, Prod.mk.injEq] at hcons; exact ⟨_, hcons.1, rfl⟩
            · simp at hcons
      obtain ⟨c', hc'⟩ := hc'
      refine ⟨c', ?_⟩
      unfold enter
      have hp : ¬ ((H' k).parent = none ∧ k ∈ seen') := by rw [k1]; simp
      have hev' : exchangeValue (H' k) sc obs = .ok ev := by rw [S.evK _ _ T.names, hev]
      simp only [hp, if_false, evOf, hev', termOf_single k4, nodeWeight, k1, Term.isNull, k2, conversion, if_true, Except.map, mul_one,
        reduceCtorEq, Bool.false_eq_true, false_and, hc', k3]
    obtain ⟨c', hk⟩ := hk
    have hnk : ∀ φ, cutoffsOf φ [({ who := .frag k, flow := (H f).flow, dir := (H f).dir, mag := up * ev, nw := up * ev, term := { target := .frag f, flow := (H f).flow }, conserved := c' } : FF F)] = [] := by
      intro φ; simp [cutoffsOf, Term.isNull]
    unfold travNode
    rw [hk]
    simp only [hnull, S.notBg, Bool.false_eq_true, false_or] at h
    simp only [Term.isNull, k5, Bool.false_eq_true, false_or]
    by_cases hz : up * ev = 0
    · simp only [hz, if_true, Except.ok.injEq, Prod.mk.injEq] at h ⊢
      obtain ⟨rfl, rfl⟩ := h
      refine ⟨_, ⟨rfl, rfl⟩, ?_⟩
      refine ⟨fun i hi => ?_, fun i hi _ => ?_, fun φ => ?_, fun φ => ?_⟩
      · have e0 : ∀ (a b : FF F), a.mag = 0 → a.nw = 0 → tot (isInt i) [b] = 0 → tot (isInt i) [a] = tot (isInt i) [b] := by
          intro a b h1 h2 h3
          rw [h3]
          unfold tot
          simp only [List.filter_cons, List.filter_nil]
          split
          · simp only [List.map_cons, h1, h2, List.map_nil, List.sum_cons, List.sum_nil, add_zero]; rfl
          · rfl
        apply e0
        · rfl
        · rfl
        · apply tot_none
          intro x hx
          simp only [List.mem_singleton] at hx
          subst hx
          have : ¬ k = i := fun e => hi e.symm
          simp [isInt, this]
      · rw [tot_none, tot_none]
        · intro x hx
          simp only [List.mem_singleton] at hx
          subst hx
          simp [isCut, Term.isNull]
        · intro x hx
          simp only [List.mem_singleton] at hx
          subst hx
          simp [isCut, hnull]
      · unfold cutoffsOf
        rw [List.filter_cons_of_neg (by simp [hnull]), List.filter_cons_of_neg (by simp [Term.isNull])]
      · unfold cutoffsOf
        rw [List.filter_cons_of_neg (by simp [hnull]), List.filter_cons_of_neg (by simp [Term.isNull])]
    · simp only [hz, if_false, S.parent, reduceCtorEq] at h
      simp only [hz, if_false, k1, reduceCtorEq]
      generalize hffd : ({ who := .frag f, flow := (H f).flow, dir := (H f).dir, mag := up * ev, nw := up * ev, term := t, conserved := c } : FF F) = ff at h
      generalize hkd : ({ who := .frag k, flow := (H f).flow, dir := (H f).dir, mag := up * ev, nw := up * ev, term := { target := .frag f, flow := (H f).flow }, conserved := c' } : FF F) = fk at hnk ⊢
      cases hx : expand E H sc obs (top H n) (travNode E H sc obs n) seen f ff with
      | error e => rw [hx] at h; simp at h
      | ok l1 =>
        rw [hx] at h
        simp only [Except.ok.injEq, Prod.mk.injEq] at h
        obtain ⟨rfl, rfl⟩ := h
        have hzi : (up * ev)⁻¹ ≠ 0 := inv_ne_zero hz
        have hu : expand E H sc obs (top H n) (travNode E H sc obs n) seen f (FF.scale (up * ev)⁻¹ ff) =
            .ok (l1.map (FF.scale (up * ev)⁻¹)) := by
          rw [expand_scaled _ _ _ _ _ _ _ (fun seen c w cq b => traversal_linear E H sc obs _ hzi n seen c w cq b), hx]
          rfl
        -- the traversal of f on its own
        have hf' : ∃ cf, enter E H' sc obs [] f 1 none none =
            .ok ({ who := .frag f, flow := (H f).flow, dir := (H f).dir, mag := 1, nw := 1, term := t, conserved := cf }, none) := by
          have hc' : ∃ cf, conserved E H' (H' f) 1 none = .ok (none, cf) := by
            unfold conserved
            simp only [s4, S.notBal, s3, Bool.false_eq_true, if_false]
            cases hq : (H f).cons with
            | none => exact ⟨_, rfl⟩
            | some q =>
              have := S.balanced (by rw [hq]; simp)
              rw [← S.bals S.fk] at this
              simp only [this, if_true]
              exact ⟨_, rfl⟩
          obtain ⟨cf, hcf⟩ := hc'
          refine ⟨cf, ?_⟩
          have hpf : (H' f).parent = none := by rw [S.atF]
          have hef : (H' f).evs = newEvs := by rw [S.atF]
          have ht' : termOf (H' f) sc = .ok t := by unfold termOf at ht ⊢; rw [s6]; exact ht
          unfold enter
          simp only [List.not_mem_nil, and_false, if_false, evOf, exchangeValue_new hpf hef obs T.names, ht', nodeWeight, hpf,
            if_true, mul_one, hcf, s1, s2]
        obtain ⟨cf, hf'⟩ := hf'
        generalize hfd : ({ who := .frag f, flow := (H f).flow, dir := (H f).dir, mag := 1, nw := 1, term := t, conserved := cf } : FF F) = fr at hf'
        have ha : Alike (FF.scale (up * ev)⁻¹ ff) fr := by
          subst hffd hfd
          exact ⟨rfl, rfl, rfl, inv_mul_cancel₀ hz, inv_mul_cancel₀ hz, rfl⟩
        have hpf : (H' f).parent = none := by rw [S.atF]
        have hef : (H' f).evs = newEvs := by rw [S.atF]
        have hst : ∀ b, stock0 (H' f) sc obs b = stock0 (H f) sc obs b := by
          intro b
          unfold stock0
          rw [hpf, S.parent, exchangeValue_new hpf hef obs T.names]
          simp
        have htf : termOf (H f) sc = .ok (FF.scale (up * ev)⁻¹ ff).term := by rw [ht]; subst hffd; rfl
        obtain ⟨l0', hx', hlike, hhead⟩ := expand_like S hm IH IK (seen' := [f]) S.fk S.notBg htf ha hst hu
        have hfe : travNode E H' sc obs (m + 1) [] f 1 none none = .ok (l0', none) := by
          unfold travNode
          rw [hf']
          have e1 : fr.term = t := by subst hfd; rfl
          have e2 : fr.mag = 1 := by subst hfd; rfl
          simp only [e1, e2, hnull, s5, S.notBg, one_ne_zero, or_false, Bool.false_eq_true, if_false, hpf, if_true]
          rw [hx']
        have hh0 : l0'.head?.map FF.mag = some 1 := by
          rw [← hhead, expand_head (ff := FF.scale (up * ev)⁻¹ ff) ?_ hu]
          · subst hffd
            show some ((up * ev)⁻¹ * (up * ev)) = some 1
            rw [inv_mul_cancel₀ hz]
          · intro j hj; subst hffd; exact hbgt j hj
        have hc0 : cutoffsOf (H f).flow l0' = [] := by
          rw [← hlike.pres, cutoffsOf_scale, hown]; rfl
        obtain ⟨f0, l00, rfl⟩ : ∃ a b, l0' = a :: b := by
          cases l0' with
          | nil => simp at hh0
          | cons a b => exact ⟨a, b, rfl⟩
        simp only [List.head?_cons, Option.map_some, Option.some.injEq] at hh0
        generalize hl0 : f0 :: l00 = l0' at *
        have hgi : groupIos f (H f).flow (H f).dir l0' true =
            .ok (FF.cutoff f (H f).flow (H f).dir.comp 1 :: ((outTable l0').map fun kv => FF.cutoff f kv.1 (dirOf kv.2) |kv.2|),
              l0'.filter fun x => !x.term.isNull) := by
          have hg : (outTable l0').get? (H f).flow = none := by rw [outTable_get, hc0]; simp
          unfold groupIos
          simp only [Bool.not_true, Bool.false_eq_true, if_false]
          rw [hg]
          subst hl0
          simp only [hh0]
        have htop : top H' (m + 1) f = .ok f := by unfold top; rw [hpf]
        have hexp : expand E H' sc obs (top H' (m + 1)) (travNode E H' sc obs (m + 1)) seen' k fk =
            .ok (fk :: (l0'.filter fun x => !x.term.isNull).map (FF.scale (up * ev)) ++
              ((outTable l0').map fun kv => FF.cutoff f kv.1 (dirOf kv.2) |kv.2|).map (FF.scale (up * ev))) := by
          have e1 : fk.term = { target := .frag f, flow := (H f).flow } := by subst hkd; rfl
          have e2 : fk.nw = up * ev := by subst hkd; rfl
          unfold expand
          simp only [e1, S.fk, if_false, s5, S.notBg, Bool.false_eq_true, htop, hfe, s1, s2, hgi]
          unfold subNode
          simp only [e1, e2, FF.cutoff, List.find?_cons, decide_true, one_ne_zero, if_false, k3, comp_ne, div_one, if_true,
            List.eraseP_cons, cond_true, Frg.children, k8, List.insertionSort_nil, subLoop, List.append_nil]
        rw [hexp]
        refine ⟨_, rfl, ?_⟩
        have hl1 : l1 = (l1.map (FF.scale (up * ev)⁻¹)).map (FF.scale (up * ev)) := by
          rw [List.map_map]
          conv_lhs => rw [← List.map_id l1]
          apply List.map_congr_left
          intro x _
          simp only [Function.comp, scale_scale, mul_inv_cancel₀ hz, id]
          cases x
          simp [FF.scale]
        have hl := hlike.scale (up * ev)
        rw [← hl1] at hl
        have hent : Entries ((outTable l0').map fun kv => FF.cutoff f kv.1 (dirOf kv.2) |kv.2|) := entries_cutoff f _
        generalize hed : ((outTable l0').map fun kv => FF.cutoff f kv.1 (dirOf kv.2) |kv.2|) = ent at *
        have hfl : ∀ φ, cutoffsOf φ ent = match (outTable l0').get? φ with
            | none => []
            | some v => [FF.cutoff f φ (dirOf v) |v|] := by
          intro φ
          refine Eq.trans ?_ (entries_filter f _ (outTable_nodup' l0') φ)
          rw [hed]
          unfold cutoffsOf
          apply List.filter_congr
          intro x hx
          simp [(hent x hx).1]
        have hpres : ∀ φ, cutoffsOf φ ent = [] ↔ cutoffsOf φ l0' = [] := by
          intro φ
          rw [hfl, outTable_get]
          by_cases e : cutoffsOf φ l0' = [] <;> simp [e]
        have hnet : ∀ φ, net (cutoffsOf φ ent) = net (cutoffsOf φ l0') := by
          intro φ
          rw [hfl, outTable_get]
          by_cases e : cutoffsOf φ l0' = []
          · simp [e]
          · simp only [e, if_false]
            simp only [net, List.map_cons, List.map_nil, List.sum_cons, List.sum_nil, add_zero, amount_cutoff, signed_abs]
        have hnint : ∀ φ (a : ℚ), cutoffsOf φ ((l0'.filter fun x => !x.term.isNull).map (FF.scale a)) = [] := by
          intro φ a
          rw [cutoffsOf_scale]
          have : cutoffsOf φ (l0'.filter fun x => !x.term.isNull) = [] := by
            unfold cutoffsOf
            rw [List.filter_filter]
            apply List.filter_eq_nil_iff.mpr
            intro x _
            cases x.term.isNull <;> simp
          rw [this]; rfl
        have hfkc : ∀ φ l, cutoffsOf φ (fk :: l) = cutoffsOf φ l := by
          intro φ l
          have := cutoffsOf_append φ [fk] l
          rw [hnk] at this
          exact this
        refine ⟨fun i hi => ?_, fun i hi hb => ?_, fun φ => ?_, fun φ => ?_⟩
        · have e0 : ∀ r, tot (isInt i) (fk :: r) = tot (isInt i) r := by
            intro r
            have := tot_append (isInt i) [fk] r
            rw [tot_none (isInt i) [fk], zero_add] at this
            · exact this
            · intro x hx
              simp only [List.mem_singleton] at hx
              subst hx hkd
              have : ¬ k = i := fun e => hi e.symm
              simp [isInt, this]
          have e1 : tot (isInt i) (ent.map (FF.scale (up * ev))) = 0 := tot_none _ _ fun x hx => by
            simp [isInt, (hent.scale (up * ev) x hx).1]
          have e2 : tot (isInt i) (l0'.filter fun x => !x.term.isNull) = tot (isInt i) l0' := by
            unfold tot
            rw [List.filter_filter]
            congr 3
            funext x
            unfold isInt
            cases x.term.isNull <;> simp
          rw [hl.int i hi, List.cons_append, e0, tot_append, e1, add_zero, tot_scale (isInt i) (fun _ _ => rfl),
            tot_scale (isInt i) (fun _ _ => rfl), e2]
        · rw [tot_none, tot_none]
          · intro x hx
            rcases List.mem_append.mp hx with hx | hx
            · rcases List.mem_cons.mp hx with rfl | hx
              · subst hkd; simp [isCut, Term.isNull]
              · obtain ⟨y, hy, rfl⟩ := List.mem_map.mp hx
                have := (List.mem_filter.mp hy).2
                simp only [Bool.not_eq_true'] at this
                have e : (FF.scale (up * ev) y).term = y.term := rfl
                simp [isCut, e, this]
            · obtain ⟨y, hy, rfl⟩ := List.mem_map.mp hx
              obtain ⟨j, hj⟩ := (hent y hy).2
              have e : (FF.scale (up * ev) y).who = y.who := rfl
              simp [isCut, e, hj]
          · intro x hx
            by_contra hcc
            simp only [isCut, Bool.not_eq_false, Bool.and_eq_true, decide_eq_true_eq] at hcc
            exact hb (hcut x hx i hcc.1 hcc.2)
        · rw [hl.net φ, List.cons_append, hfkc, cutoffsOf_append, hnint, List.nil_append, cutoffsOf_scale, cutoffsOf_scale, net_scale, net_scale, hnet]
        · rw [hl.pres φ, List.cons_append, hfkc, cutoffsOf_append, hnint, List.nil_append, cutoffsOf_scale, cutoffsOf_scale, List.map_eq_nil_iff,
            List.map_eq_nil_iff, hpres]

theorem visits_step (S : Split H H' f p k) {E : Env F Q} {sc : Scen} {obs : Bool} {n m : ℕ}
    (hm : n ≤ m) (IH : Visits E H H' f k sc obs n m) (IK : VisitsK E H H' f k sc obs n m) :
    Visits E H H' f k sc obs (n + 1) (m + 1) := by
  intro seen c up cq bal l cv hcf hck h seen' hs
  obtain ⟨s1, s2, s3, s4, s5, s6⟩ := S.same hck
  obtain ⟨t1, t2⟩ := S.same2 hck hcf
  unfold travNode at h ⊢
  have he : Frg.enter E H sc obs seen c up cq bal ≠ .error .invalidParentChild := by
    intro he; rw [he] at h; simp at h
  rw [S.enter E sc obs hck hcf hs up cq bal he, s5, t1]
  cases hen : enter E H sc obs seen c up cq bal with
  | error e => rw [hen] at h; simp at h
  | ok r =>
    obtain ⟨ff, cv1⟩ := r
    rw [hen] at h
    simp only at h ⊢
    by_cases hstop : ff.term.isNull = true ∨ (H c).bg = true ∨ ff.mag = 0
    · simp only [hstop, if_true, Except.ok.injEq, Prod.mk.injEq] at h ⊢
      obtain ⟨rfl, rfl⟩ := h
      exact ⟨_, ⟨rfl, rfl⟩, Like.refl _, rfl⟩
    · simp only [hstop, if_false] at h ⊢
      generalize (if (H c).parent = none then c :: seen' else seen') = seen1'
      cases hx : expand E H sc obs (top H n) (travNode E H sc obs n) (if (H c).parent = none then c :: seen else seen) c ff with
      | error e => rw [hx] at h; simp at h
      | ok l1 =>
        rw [hx] at h
        simp only [Except.ok.injEq, Prod.mk.injEq] at h
        obtain ⟨rfl, rfl⟩ := h
        obtain ⟨ev, -, -, -, ht, -⟩ := enter_ok hen
        have hst : ∀ b, stock0 (H' c) sc obs b = stock0 (H c) sc obs b := by
          intro b
          unfold stock0 exchangeValue
          rw [t1, t2]
        obtain ⟨l', h1, h2, h3⟩ := expand_like S hm IH IK (seen' := seen1') hck (by
          cases hb : (H c).bg
          · rfl
          · exact absurd (Or.inr (Or.inl hb)) hstop) ht (Alike.refl ff) hst hx
        rw [h1]
        exact ⟨l', rfl, h2, h3⟩

/-- every traversal models the traversal after the split -/
theorem visits (S : Split H H' f p k) {E : Env F Q} {sc : Scen} {obs : Bool} (T : Terminated E H f sc obs) (n : ℕ) :
    ∀ m, 2 * n ≤ m → Visits E H H' f k sc obs n m ∧ VisitsK E H H' f k sc obs n m := by
  induction n with
  | zero =>
    intro m _
    constructor
    · intro seen c up cq bal l cv _ _ h; simp [travNode] at h
    · intro seen up cq l cv h; simp [travNode] at h
  | succ n ih =>
    intro m hm
    constructor
    · obtain ⟨m', rfl⟩ : ∃ m', m = m' + 1 := ⟨m - 1, by omega⟩
      obtain ⟨i1, i2⟩ := ih m' (by omega)
      exact visits_step S (by omega) i1 i2
    · obtain ⟨m', rfl⟩ : ∃ m', m = m' + 2 := ⟨m - 2, by omega⟩
      obtain ⟨i1, i2⟩ := ih m' (by omega)
      exact visitsK_step S T (by omega) i1 i2

/-- traversals before and after a split model the same -/
theorem split_traverse (S : Split H H' f p k) {E : Env F Q} {sc : Scen} {obs : Bool} (T : Terminated E H f sc obs) {n r : ℕ}
    (hrf : r ≠ f) (hrk : r ≠ k) {l : List (FF F)} (h : traverse E H sc obs n r = .ok l) :
    ∃ l', traverse E H' sc obs (2 * n) r = .ok l' ∧ Like H f k l l' := by
  unfold traverse at h ⊢
  cases hv : travNode E H sc obs n [] r 1 none none with
  | error e => rw [hv] at h; simp [Except.map] at h
  | ok x =>
    obtain ⟨l1, cv⟩ := x
    rw [hv] at h
    simp only [Except.map, Except.ok.injEq] at h
    subst h
    obtain ⟨l', h1, h2, -⟩ := (visits S T n (2 * n) le_rfl).1 _ _ _ _ _ _ _ hrf hrk hv [] (by simp)
    rw [h1]
    exact ⟨l', rfl, h2⟩

end Frg
