import Verif.Props.FragmentLinear
import Mathlib.Algebra.BigOperators.Group.List.Basic
import Mathlib.Tactic.Linarith

/-!
C31: grouping the inputs and outputs of a fragment conserves each flow.
-/

namespace Frg
set_option linter.unusedSectionVars false
variable {F Q : Type} [DecidableEq F] [DecidableEq Q]

/-- the cut-offs of a flow in a traversal -/
def cutoffsOf (f : F) (ffs : List (FF F)) : List (FF F) := ffs.filter fun x => x.term.isNull && decide (x.flow = f)

/-- the amount of a fragment flow, input minus output -/
def FF.amount (x : FF F) : ℚ := if x.dir = .input then x.mag else -x.mag

/-- the net amount of a list of fragment flows -/
def net (l : List (FF F)) : ℚ := (l.map FF.amount).sum

theorem amount_eq (x : FF F) : signed x.dir x.mag = x.amount := by
  unfold signed FF.amount; cases x.dir <;> rfl

theorem amount_cutoff (p : ℕ) (f : F) (d : Dir) (m : ℚ) : (FF.cutoff p f d m).amount = signed d m := by
  unfold signed FF.amount FF.cutoff; cases d <;> rfl

theorem signed_abs (v : ℚ) : signed (dirOf v) |v| = v := by
  unfold dirOf signed
  by_cases h : v < 0
  · simp [h, abs_of_neg h]
  · simp [h, abs_of_nonneg (not_lt.1 h)]

theorem signed_comp (d : Dir) (m : ℚ) : signed d.comp m = -signed d m := by
  cases d <;> simp [signed, Dir.comp]

/-- the invariant of the table of cut-offs -/
theorem outFold (l : List (FF F)) (d : Dict F ℚ) (hd : d.keys.Nodup) (f : F) :
    (l.foldl (fun d x => d.set x.flow ((d.get? x.flow).getD 0 + signed x.dir x.mag)) d).get? f =
      (if (l.filter fun x => decide (x.flow = f)) = [] then d.get? f
        else some ((d.get? f).getD 0 + net (l.filter fun x => decide (x.flow = f)))) ∧
    (l.foldl (fun d x => d.set x.flow ((d.get? x.flow).getD 0 + signed x.dir x.mag)) d).keys.Nodup := by
  induction l generalizing d with
  | nil => simp [hd]
  | cons x l ih =>
    have hd' : (d.set x.flow ((d.get? x.flow).getD 0 + signed x.dir x.mag)).keys.Nodup := Dict.nodup_keys_set _ _ _ hd
    obtain ⟨ih1, ih2⟩ := ih _ hd'
    rw [List.foldl_cons]
    refine ⟨?_, ih2⟩
    rw [ih1, Dict.get?_set]
    by_cases hx : x.flow = f
    · have e : (x :: l).filter (fun x => decide (x.flow = f)) = x :: l.filter fun x => decide (x.flow = f) := by simp [hx]
      rw [e, hx]
      simp only [↓reduceIte, List.cons_ne_nil, Option.getD_some, amount_eq, net, List.map_cons, List.sum_cons]
      split
      · rename_i h0; rw [h0]; simp
      · rw [add_assoc]
    · have e : (x :: l).filter (fun x => decide (x.flow = f)) = l.filter fun x => decide (x.flow = f) := by simp [hx]
      rw [e]; simp [hx]

theorem outTable_get (ffs : List (FF F)) (f : F) :
    (outTable ffs).get? f = if cutoffsOf f ffs = [] then none else some (net (cutoffsOf f ffs)) := by
  have h := (outFold (ffs.filter fun x => x.term.isNull) [] (by simp [Dict.keys]) f).1
  have e : (ffs.filter fun x => x.term.isNull).filter (fun x => decide (x.flow = f)) = cutoffsOf f ffs := by
    rw [List.filter_filter]
    unfold cutoffsOf
    congr 1
    funext x
    rw [Bool.and_comm]
  rw [e] at h
  unfold outTable
  rw [h]
  simp

theorem outTable_nodup (ffs : List (FF F)) [Inhabited F] : (outTable ffs).keys.Nodup :=
  (outFold (ffs.filter fun x => x.term.isNull) [] (by simp [Dict.keys]) default).2

theorem outTable_nodup' (ffs : List (FF F)) : (outTable ffs).keys.Nodup := by
  cases ffs with
  | nil => simp [outTable, Dict.keys]
  | cons x l => exact @outTable_nodup F _ (x :: l) ⟨x.flow⟩

/-- the entries made from a table -/
theorem entries_filter (p : ℕ) (d : Dict F ℚ) (hd : d.keys.Nodup) (f : F) :
    (d.map fun kv => FF.cutoff p kv.1 (dirOf kv.2) |kv.2|).filter (fun x => decide (x.flow = f)) =
      match d.get? f with
      | none => []
      | some v => [FF.cutoff p f (dirOf v) |v|] := by
  induction d with
  | nil => simp
  | cons kv d ih =>
    obtain ⟨k, v⟩ := kv
    have hd' : Dict.keys d = List.map Prod.fst d := rfl
    have hk : k ∉ Dict.keys d ∧ (Dict.keys d).Nodup := by
      have := hd
      unfold Dict.keys at this ⊢
      simpa using this
    have ih' := ih hk.2
    by_cases hkf : k = f
    · subst hkf
      have hn := (Dict.not_mem_keys_iff d k).1 hk.1
      rw [hn] at ih'
      simp only [List.map_cons, List.filter_cons, Dict.get?, ↓reduceIte]
      rw [ih']
      simp [FF.cutoff]
    · simp only [List.map_cons, List.filter_cons, Dict.get?, hkf, ↓reduceIte]
      rw [← ih']
      simp [FF.cutoff, hkf]

variable (p : ℕ) (rf : F) (rd : Dir) (ffs : List (FF F))

/-- C31 for every flow but the reference flow: if the traversal has cut-offs of the flow, there is exactly one entry, a
cut-off whose amount (input minus output) is their net amount and whose magnitude is not negative; otherwise none. -/
theorem group_ios_flow {ref : Bool} {ext int : List (FF F)} (h : groupIos p rf rd ffs ref = .ok (ext, int)) (f : F)
    (hf : ref = true → f ≠ rf) :
    (cutoffsOf f ffs = [] ∧ ext.filter (fun x => decide (x.flow = f)) = []) ∨
    (cutoffsOf f ffs ≠ [] ∧ ∃ e, ext.filter (fun x => decide (x.flow = f)) = [e] ∧ e.amount = net (cutoffsOf f ffs) ∧
      0 ≤ e.mag ∧ e.term.isNull = true) := by
  have key : ∀ d : Dict F ℚ, d.keys.Nodup → d.get? f = (outTable ffs).get? f → ∀ pre : List (FF F),
      pre.filter (fun x => decide (x.flow = f)) = [] →
      ext = pre ++ d.map (fun kv => FF.cutoff p kv.1 (dirOf kv.2) |kv.2|) →
      (cutoffsOf f ffs = [] ∧ ext.filter (fun x => decide (x.flow = f)) = []) ∨
      (cutoffsOf f ffs ≠ [] ∧ ∃ e, ext.filter (fun x => decide (x.flow = f)) = [e] ∧ e.amount = net (cutoffsOf f ffs) ∧
        0 ≤ e.mag ∧ e.term.isNull = true) := by
    intro d hd hg pre hpre hext
    rw [hext, List.filter_append, hpre, entries_filter p d hd f, hg, outTable_get]
    by_cases hc : cutoffsOf f ffs = []
    · left; simp [hc]
    · right
      refine ⟨hc, FF.cutoff p f (dirOf (net (cutoffsOf f ffs))) |net (cutoffsOf f ffs)|, by simp [hc], ?_,
        abs_nonneg _, rfl⟩
      rw [amount_cutoff, signed_abs]
  unfold groupIos at h
  cases ref with
  | false =>
    simp only [Bool.not_false, ↓reduceIte, Except.ok.injEq, Prod.mk.injEq] at h
    exact key _ (outTable_nodup' ffs) rfl [] rfl (by rw [← h.1]; rfl)
  | true =>
    have hf' := hf rfl
    simp only [Bool.not_true, Bool.false_eq_true, ↓reduceIte] at h
    have hcut : ∀ d m, [FF.cutoff p rf d m].filter (fun x => decide (x.flow = f)) = [] := by
      intro d m; simp [FF.cutoff, Ne.symm hf']
    cases ffs with
    | nil => simp at h
    | cons f0 l =>
      simp only at h
      cases hg : (outTable (f0 :: l)).get? rf with
      | none =>
        simp only [hg, Except.ok.injEq, Prod.mk.injEq] at h
        exact key _ (outTable_nodup' _) rfl [_] (hcut _ _) (by rw [← h.1]; rfl)
      | some val =>
        simp only [hg] at h
        by_cases hdir : dirOf val = rd
        · rw [if_pos hdir] at h
          by_cases hlt : |val| < f0.mag
          · rw [if_pos hlt] at h
            simp only [Except.ok.injEq, Prod.mk.injEq] at h
            exact key ((outTable (f0 :: l)).set rf (if rd = .output then val + f0.mag else val - f0.mag))
              (Dict.nodup_keys_set _ _ _ (outTable_nodup' _)) (Dict.get?_set_ne _ _ (Ne.symm hf')) []
              rfl (by rw [← h.1]; rfl)
          · rw [if_neg hlt] at h
            simp only [Except.ok.injEq, Prod.mk.injEq] at h
            exact key _ (outTable_nodup' _) rfl [_] (hcut _ _) (by rw [← h.1]; rfl)
        · rw [if_neg hdir] at h; simp at h

/-- C31 for the reference flow: the entries of the reference flow, one or two, together have the amount of the
reference flow (leaving the fragment, in the direction opposite to that of the reference fragment) plus the net amount
of its cut-offs (auto-consumption or pass-through). -/
theorem group_ios_ref {ext int : List (FF F)} {f0 : FF F} {l : List (FF F)} (hffs : ffs = f0 :: l)
    (h : groupIos p rf rd ffs true = .ok (ext, int)) :
    net (ext.filter fun x => decide (x.flow = rf)) =
      (if rd = .input then -f0.mag else f0.mag) + net (cutoffsOf rf ffs) ∧
    (ext.filter fun x => decide (x.flow = rf)).length ∈ [1, 2] := by
  have hsg : (if rd = .input then -f0.mag else f0.mag) = signed rd.comp f0.mag := by cases rd <;> simp [signed, Dir.comp]
  rw [hsg]
  unfold groupIos at h
  simp only [Bool.not_true, Bool.false_eq_true, ↓reduceIte, hffs] at h
  rw [hffs]
  have hfil : ∀ (d : Dict F ℚ), d.keys.Nodup → _ := fun d hd => entries_filter p d hd rf
  have hcut : ∀ d m, (FF.cutoff p rf d m).flow = rf := fun _ _ => rfl
  cases hg : (outTable (f0 :: l)).get? rf with
  | none =>
    have hc : cutoffsOf rf (f0 :: l) = [] := by
      rw [outTable_get] at hg
      by_contra hc
      rw [if_neg hc] at hg; simp at hg
    simp only [hg, Except.ok.injEq, Prod.mk.injEq] at h
    rw [← h.1, List.filter_cons, if_pos (by simp [hcut]), entries_filter p _ (outTable_nodup' _), hg, hc]
    simp [net, amount_cutoff]
  | some val =>
    have hval : val = net (cutoffsOf rf (f0 :: l)) := by
      rw [outTable_get] at hg
      split at hg
      · simp at hg
      · simpa using hg.symm
    simp only [hg] at h
    by_cases hdir : dirOf val = rd
    · rw [if_pos hdir] at h
      by_cases hlt : |val| < f0.mag
      · rw [if_pos hlt] at h
        simp only [Except.ok.injEq, Prod.mk.injEq] at h
        rw [← h.1, entries_filter p _ (Dict.nodup_keys_set _ _ _ (outTable_nodup' _)), Dict.get?_set_self]
        simp only [net, List.map_cons, amount_cutoff, signed_abs, List.map_nil, List.sum_cons, List.sum_nil, add_zero]
        refine ⟨?_, by simp⟩
        rw [hval]
        cases rd <;> simp [signed, Dir.comp, net] <;> ring
      · rw [if_neg hlt] at h
        simp only [Except.ok.injEq, Prod.mk.injEq] at h
        rw [← h.1, List.filter_cons, if_pos (by simp [hcut]), entries_filter p _ (outTable_nodup' _), hg]
        simp only [net, List.map_cons, amount_cutoff, signed_abs, List.map_nil, List.sum_cons, List.sum_nil, add_zero]
        refine ⟨?_, by simp⟩
        rw [hdir, hval]; simp [net]
    · rw [if_neg hdir] at h; simp at h

/-- With auto-consumption, i.e. when the cut-offs of the reference flow amount to less than the reference flow, there is
one entry of it, and it leaves the fragment. -/
theorem group_ios_autoconsumption {ext int : List (FF F)} {f0 : FF F} {l : List (FF F)} (hffs : ffs = f0 :: l)
    (h : groupIos p rf rd ffs true = .ok (ext, int)) (hc : cutoffsOf rf ffs ≠ [])
    (hlt : |net (cutoffsOf rf ffs)| < f0.mag) :
    ∃ e, ext.filter (fun x => decide (x.flow = rf)) = [e] ∧
      e.amount = (if rd = .input then -f0.mag else f0.mag) + net (cutoffsOf rf ffs) ∧ e.dir = rd.comp := by
  have hg : (outTable (f0 :: l)).get? rf = some (net (cutoffsOf rf ffs)) := by rw [outTable_get, ← hffs, if_neg hc]
  unfold groupIos at h
  simp only [Bool.not_true, Bool.false_eq_true, ↓reduceIte, hffs] at h
  rw [hffs] at hlt hg ⊢
  simp only [hg] at h
  generalize net (cutoffsOf rf (f0 :: l)) = val at hlt h
  by_cases hdir : dirOf val = rd
  · rw [if_pos hdir, if_pos hlt] at h
    simp only [Except.ok.injEq, Prod.mk.injEq] at h
    refine ⟨FF.cutoff p rf (dirOf (if rd = .output then val + f0.mag else val - f0.mag))
        |if rd = .output then val + f0.mag else val - f0.mag|, ?_, ?_, ?_⟩
    · rw [← h.1, entries_filter p _ (Dict.nodup_keys_set _ _ _ (outTable_nodup' _)), Dict.get?_set_self]
    · rw [amount_cutoff, signed_abs]
      cases rd <;> simp <;> ring
    · have h1 := abs_lt.1 hlt
      simp only [FF.cutoff]
      cases rd with
      | input =>
        have : val - f0.mag < 0 := by linarith [h1.2]
        simp [dirOf, this, Dir.comp]
      | output =>
        have : ¬ (val + f0.mag < 0) := by push_neg; linarith [h1.1]
        simp [dirOf, this, Dir.comp]
  · rw [if_neg hdir] at h; simp at h

/-- Grouping a nonempty traversal raises exactly when there are cut-offs of the reference flow and their net amount
has not the direction of the reference fragment. -/
theorem group_ios_raises {f0 : FF F} {l : List (FF F)} (hffs : ffs = f0 :: l) (e : Err) :
    groupIos p rf rd ffs true = .error e ↔
      e = .cumulating ∧ cutoffsOf rf ffs ≠ [] ∧ (if net (cutoffsOf rf ffs) < 0 then Dir.output else .input) ≠ rd := by
  unfold groupIos
  simp only [Bool.not_true, Bool.false_eq_true, ↓reduceIte, hffs]
  rw [outTable_get]
  by_cases hc : cutoffsOf rf (f0 :: l) = []
  · simp [hc]
  · simp only [hc, ↓reduceIte]
    have : dirOf (net (cutoffsOf rf (f0 :: l))) = if net (cutoffsOf rf (f0 :: l)) < 0 then Dir.output else .input := rfl
    rw [this]
    by_cases hdir : (if net (cutoffsOf rf (f0 :: l)) < 0 then Dir.output else .input) = rd
    · simp only [hdir, ↓reduceIte]
      by_cases hlt : |net (cutoffsOf rf (f0 :: l))| < f0.mag <;> simp [hlt]
    · simp only [hdir, ↓reduceIte]
      constructor
      · intro h; simp at h; exact ⟨h.symm, hc, hdir⟩
      · intro h; rw [h.1]

/-- the internal flows are the others, in order -/
theorem group_ios_internal {ref : Bool} {ext int : List (FF F)} (h : groupIos p rf rd ffs ref = .ok (ext, int)) :
    int = ffs.filter fun x => !x.term.isNull := by
  unfold groupIos at h
  cases ref with
  | false => simp only [Bool.not_false, ↓reduceIte, Except.ok.injEq, Prod.mk.injEq] at h; exact h.2.symm
  | true =>
    simp only [Bool.not_true, Bool.false_eq_true, ↓reduceIte] at h
    cases ffs with
    | nil => simp at h
    | cons f0 l =>
      simp only at h
      repeat' split at h
      all_goals first | (simp at h; done) | (simp only [Except.ok.injEq, Prod.mk.injEq] at h; exact h.2.symm)

/-- What C31 says and the code does not do: flows of net amount zero are not dropped. -/
theorem zero_flows_kept : ∃ (ffs : List (FF ℕ)) (ext int : List (FF ℕ)), groupIos 0 1 .input ffs true = .ok (ext, int) ∧
    net (cutoffsOf 2 ffs) = 0 ∧ ∃ e ∈ ext, e.flow = 2 ∧ e.mag = 0 :=
  ⟨[{ who := .frag 0, flow := 1, dir := .input, mag := 1, nw := 1, term := { target := .process, flow := 1 }, conserved := false },
    { who := .frag 1, flow := 2, dir := .input, mag := 5, nw := 5, term := nullT 2, conserved := false },
    { who := .frag 2, flow := 2, dir := .output, mag := 5, nw := 5, term := nullT 2, conserved := false }], _, _, rfl,
    by decide +kernel, FF.cutoff 0 2 .input 0, by simp [outTable, Term.isNull, nullT, dirOf, signed, Dict.get?, Dict.set], rfl, rfl⟩

/-- and a pass-through gives two entries of the reference flow -/
theorem pass_through_two_entries : ∃ ffs : List (FF ℕ), ((groupIos 0 1 .input ffs true).map fun r =>
    r.1.map fun e => (e.flow, e.dir, e.mag)) = .ok [(1, .output, 3), (1, .input, 3)] :=
  ⟨[{ who := .frag 0, flow := 1, dir := .input, mag := 3, nw := 3, term := nullT 1, conserved := false }], by decide +kernel⟩

/-! a case with auto-consumption, two cut-offs of one flow and an internal flow -/

def exFfs : List (FF ℕ) :=
  [{ who := .frag 0, flow := 1, dir := .input, mag := 10, nw := 1, term := { target := .frag 0, flow := 1 }, conserved := false },
   { who := .frag 1, flow := 2, dir := .input, mag := 5, nw := 5, term := nullT 2, conserved := false },
   { who := .frag 2, flow := 2, dir := .output, mag := 7, nw := 7, term := nullT 2, conserved := false },
   { who := .frag 3, flow := 1, dir := .input, mag := 4, nw := 4, term := nullT 1, conserved := false }]

example : ((groupIos 0 1 .input exFfs true).map fun r => (r.1.map fun e => (e.flow, e.dir, e.mag), r.2.map FF.who)) =
    .ok ([(2, .output, 2), (1, .output, 6)], [.frag 0]) := by decide +kernel
example : net (cutoffsOf 2 exFfs) = -2 ∧ net (cutoffsOf 1 exFfs) = 4 ∧ cutoffsOf 1 exFfs ≠ [] ∧
    |net (cutoffsOf 1 exFfs)| < 10 := by decide +kernel

end Frg
