import Mathlib.Algebra.Order.BigOperators.Group.List
import Mathlib.Tactic.Linarith
import Verif.Props.Engine2

/-!
C09 (self-consumption), what goes wrong when product flows are added one at a time (C03, C07), and the
refusal of ambiguous terminations (C49).
-/

set_option linter.unusedSectionVars false
set_option linter.unusedSimpArgs false

namespace Engine
variable {F P : Type} [DecidableEq F] [DecidableEq P]
variable {db : DB F P} {strat : Strategy}

/-! ### C09 -/

theorem useOf_self (u : F × P) (xs : List (Exch F P)) :
    (xs.map fun x => match depOf db strat x with
      | some (w', v) => if w' = u then v else 0
      | none => 0).sum = (selfOf db strat u xs).sum := by
  induction xs with
  | nil => simp [selfOf]
  | cons x xs ih =>
    simp only [List.map_cons, List.sum_cons, ih]
    unfold selfOf
    rw [List.filterMap_cons]
    cases depOf db strat x with
    | none => simp
    | some d =>
      obtain ⟨w, v⟩ := d
      by_cases h : w = u <;> simp [h]

theorem foldl_adjust (l : List ℚ) (c : ℚ) (hc : 0 < c) (h0 : ∀ v ∈ l, 0 ≤ v) (h1 : l.sum < c) :
    l.foldl adjustEv c = c - l.sum ∧ 0 < c - l.sum := by
  induction l generalizing c with
  | nil => simpa using hc
  | cons v l ih =>
    have hv := h0 v (by simp)
    have hl : 0 ≤ l.sum := List.sum_nonneg fun x hx => h0 x (by simp [hx])
    rw [List.sum_cons] at h1 ⊢
    have e : adjustEv c v = c - v := by
      unfold adjustEv
      rw [if_neg (by linarith), if_neg (by linarith)]
    rw [List.foldl_cons, e]
    obtain ⟨h2, h3⟩ := ih (c - v) (by linarith) (fun x hx => h0 x (by simp [hx])) (by linarith)
    rw [h2]
    constructor <;> linarith

/-- C09 (partial): for a product flow whose reference is an Output and whose inputs of its own product are
non-negative and add up to less than one unit, the inbound exchange value is one minus this total; and no
product flow is recorded as a dependency of itself.
Missing: references that are Inputs, totals of one or more, negative amounts -- see the two witnesses below. -/
theorem C09_self_consumption_partial (o : SetOrd F P) (fuel : ℕ) (vs : List (F × P)) (e : Eng F P)
    (hr : addAllRefProducts o db strat fuel vs {} = some e) :
    (∀ u, Known db strat vs u → db.refDir u = some .output →
      (∀ x ∈ db.inv u, ∀ v, depOf db strat x = some (u, v) → 0 ≤ v) → useOf db strat u u < 1 →
      e.st.ev.get? u = some (1 - useOf db strat u u) ∧ 0 < 1 - useOf db strat u u) ∧
    (∀ i ∈ e.interior, i.1 ≠ i.2.1) ∧ (∀ i ∈ e.foreground, i.1 ≠ i.2.1) := by
  obtain ⟨s, hs, hrest, hok⟩ := addAllRefProducts_spec hr
  have hst : e.st = { s with interior := [], cutoffs := [] } := hok.st
  refine ⟨?_, ?_, ?_⟩
  · intro u hu hd hnn hlt
    have huv := (known_iff hs u).mpr hu
    have hev := (hrest.data.fin u huv (by simp)).ev
    have hsum : useOf db strat u u = (selfOf db strat u (db.inv u)).sum := useOf_self u _
    rw [hst]
    simp only
    rw [hev, hd, hsum]
    rw [hsum] at hlt
    have := foldl_adjust (selfOf db strat u (db.inv u)) 1 (by norm_num) (by
      intro v hv
      unfold selfOf at hv
      rw [List.mem_filterMap] at hv
      obtain ⟨x, hx, hxv⟩ := hv
      cases hdx : depOf db strat x with
      | none => rw [hdx] at hxv; simp at hxv
      | some d =>
        obtain ⟨w, v'⟩ := d
        rw [hdx] at hxv
        by_cases h : w = u
        · subst h
          simp at hxv
          subst hxv
          exact hnn x hx _ hdx
        · simp [h] at hxv) hlt
    exact ⟨by rw [← this.1]; rfl, this.2⟩
  · have hint : e.interior = _ := hok.int
    rw [hint]
    intro i hi
    rw [List.mem_filter, List.mem_map] at hi
    obtain ⟨⟨j, hj, rfl⟩, _⟩ := hi
    exact fun h => (hrest.mem_int.mp hj).2.1 h.symm
  · have hint : e.foreground = _ := hok.fgd
    rw [hint]
    intro i hi
    rw [List.mem_filter, List.mem_map] at hi
    obtain ⟨⟨j, hj, rfl⟩, _⟩ := hi
    exact fun h => (hrest.mem_int.mp hj).2.1 h.symm

/-- 1 uses 1/4 of its own product -/
example : ((addAllRefProducts Ex.ord Ex.db .abort 10 Ex.roots {}).bind fun e => e.st.ev.get? (1, 1)) =
    some (3 / 4) := by decide +kernel
example : useOf Ex.db .abort (1, 1) (1, 1) = 1 / 4 := by decide +kernel

/-- a waste treatment process (reference is an Input) that gives back 1/4 unit of the waste it treats -/
def wasteDb : DB ℕ ℕ where
  inv := fun _ => [⟨0, .input, none, true, some 1⟩, ⟨0, .output, some 0, false, some (1 / 4)⟩]
  terms := fun _ _ => []
  refDir := fun u => if u = (0, 0) then some .input else none

/-- C09 fails for Input references: the process treats 3/4 net, but the stored inbound value is -5/4 instead of
-3/4. -/
theorem C09_fails_input_reference :
    ((addAllRefProducts Ex.ord wasteDb .abort 10 [(0, 0)] {}).bind fun e => e.st.ev.get? (0, 0)) =
      some (-(5 / 4)) ∧ useOf wasteDb .abort (0, 0) (0, 0) = -(1 / 4) := by
  constructor <;> decide +kernel

/-- a process with two inputs of its own product, listed in the order `l` -/
def selfDb (l : List ℚ) : DB ℕ ℕ where
  inv := fun _ => l.map fun v => ⟨0, .input, some 0, false, some v⟩
  terms := fun _ _ => []
  refDir := fun u => if u = (0, 0) then some .output else none

/-- C09 fails when the total reaches one: the result depends on the order of the exchanges, since an amount
equal to what is left is ignored. -/
theorem C09_fails_order :
    ((addAllRefProducts Ex.ord (selfDb [1 / 4, 3 / 4]) .abort 10 [(0, 0)] {}).bind fun e =>
      e.st.ev.get? (0, 0)) = some (3 / 4) ∧
    ((addAllRefProducts Ex.ord (selfDb [3 / 4, 1 / 4]) .abort 10 [(0, 0)] {}).bind fun e =>
      e.st.ev.get? (0, 0)) = some (1 / 4) := by
  constructor <;> decide +kernel

/-! ### C03, C07 under incremental use -/

/-- 1 and 2 form a cycle and need 3; 4, 5 and 6 form a larger, unrelated cycle -/
def incDb : DB ℕ ℕ where
  inv := fun u => match u.2 with
    | 1 => [Ex.ref 1, Ex.need 2 1] | 2 => [Ex.ref 2, Ex.need 1 (1 / 2), Ex.need 3 1] | 3 => [Ex.ref 3]
    | 4 => [Ex.ref 4, Ex.need 5 1] | 5 => [Ex.ref 5, Ex.need 6 1] | 6 => [Ex.ref 6, Ex.need 4 (1 / 2)]
    | _ => []
  terms := fun f d => if f ≤ 6 ∧ d = .input then [f] else []
  refDir := fun u => if u.1 = u.2 ∧ u.1 ≤ 6 then some .output else none

/-- C03 fails under incremental use: after adding 1 and then 4 the background component is that of 4 (ids are
positions), and 3 is still reported as background although 4 does not depend on it; 2 is not any more. -/
theorem C03_fails_incremental :
    ((addHistory Ex.ord incDb .abort 10 [(1, 1), (4, 4)] {}).map fun e =>
      (e.g.background == e.st.sccOf.get? (4, 4), isBackground e.g (pfIx e.st (3, 3)),
       isBackground e.g (pfIx e.st (2, 2)))) = some (true, true, false) ∧
    ¬ Reach incDb .abort (4, 4) (3, 3) := by
  refine ⟨by decide +kernel, ?_⟩
  intro h
  have key : ∀ w, Reach incDb .abort (4, 4) w → 4 ≤ w.2 ∧ w.2 ≤ 6 := by
    intro w hw
    induction hw with
    | refl => simp
    | @tail b c _ hd ih =>
      obtain ⟨x, hx, _, _, ht, hf, hrd⟩ := hd
      have hcc : c.1 = c.2 := by
        by_contra hne
        exact hrd (by simp [incDb, hne])
      have hb : b.2 = 4 ∨ b.2 = 5 ∨ b.2 = 6 := by omega
      rcases hb with h | h | h <;>
        (simp only [incDb, h, List.mem_cons, List.not_mem_nil, or_false] at hx
         rcases hx with rfl | rfl <;>
          (simp [Ex.ref, Ex.need] at hf; omega))
  have := key _ h
  omega

/-- C07 fails under incremental use: the A matrix is built once, so the larger cycle, although now background,
has no entries: 4 uses one unit of 5, the matrix says 0. -/
theorem C07_fails_incremental :
    ((addHistory Ex.ord incDb .abort 10 [(1, 1), (4, 4)] {}).bind fun e => e.aMatrix.map fun m =>
      (isBackground e.g (pfIx e.st (4, 4)), isBackground e.g (pfIx e.st (5, 5)),
       entry m (bgDict e.g (pfIx e.st (5, 5))) (bgDict e.g (pfIx e.st (4, 4))))) = some (true, true, 0) ∧
    useOf incDb .abort (4, 4) (5, 5) = 1 := by
  constructor <;> decide +kernel

/-! ### C49 -/

/-- 0 needs flow 1, which two processes make -/
def ambDb : DB ℕ ℕ where
  inv := fun u => if u = (0, 0) then [Ex.ref 0, Ex.need 1 1] else []
  terms := fun f d => if f = 1 ∧ d = .input then [1, 2] else []
  refDir := fun u => if u.1 ≤ 1 then some .output else none

/-- C49 fails: adding a product flow with an ambiguous termination raises IndexError instead of the
TerminationError, because the clean-up reads the last of an empty list of exchanges. -/
theorem C49_fails_index_error :
    (match addRefProductRaw ambDb .abort 10 (0, 0) {} with
      | .err e _ => some e | .ok _ _ => none) = some .indexError ∧
    (match terminate ambDb .abort [] (Ex.need 1 1) with
      | .error e => some e | .ok _ => none) = some .termination := by
  constructor <;> decide +kernel

/-- 0 emits something and needs 1, which needs 3 and then the ambiguous flow 5 -/
def ambDb2 : DB ℕ ℕ where
  inv := fun u => match u.2 with
    | 7 => [Ex.need 8 1, Ex.emit 9 1] | 8 => []
    | 0 => [Ex.ref 0, Ex.need 1 1] | 1 => [Ex.ref 1, Ex.need 3 1, Ex.need 5 1]
    | _ => []
  terms := fun f d => if d = .input then (if f = 5 then [5, 6] else if f ≤ 8 then [f] else []) else []
  refDir := fun u => if u.1 = u.2 then some .output else none

/-- C49 fails: even when the right error is raised, product flows completed on the way (here 3) are no
longer known but keep their component, so the component id is still answered for them. -/
theorem C49_fails_stale :
    (match addAll ambDb2 .abort 10 [(7, 7), (0, 0)] {} with
      | .err e s => some (e, s.pfs.has (3, 3), (s.sccOf.get? (3, 3)).isSome)
      | .ok _ _ => none) = some (.termination, false, true) := by
  decide +kernel

end Engine
