import Verif.Model.Fragment
import Mathlib.Tactic.Ring
import Mathlib.Tactic.FieldSimp

/-!
C28: the traversal of a fragment is linear in the node weight.
-/

namespace Frg
set_option linter.unusedSectionVars false

variable {F Q : Type} [DecidableEq F] [DecidableEq Q]

/-- the same traversal, all amounts and node weights multiplied by k; aggregated subfragments (unit inventories) kept -/
def scaled (k : ℚ) (r : Res F) : Res F :=
  match r with
  | .ok (l, cv) => .ok (l.map fun f => { f with mag := k * f.mag, nw := k * f.nw }, cv)
  | .error e => .error e

theorem scaled_ok (k : ℚ) (l : List (FF F)) (cv : Option ℚ) : scaled k (.ok (l, cv)) = .ok (l.map (FF.scale k), cv) := rfl
theorem scaled_error (k : ℚ) (e : Err) : scaled k (.error e : Res F) = .error e := rfl

theorem scale_scale (a b : ℚ) (f : FF F) : FF.scale a (FF.scale b f) = FF.scale (a * b) f := by
  unfold FF.scale; simp only [FF.mk.injEq, true_and, and_true]; constructor <;> ring

theorem fgLoop_scaled (k : ℚ) (visit visit' : ℕ → Res F) (h : ∀ c, visit' c = scaled k (visit c)) (cs : List ℕ) (s : ℚ) :
    fgLoop visit' cs s = (fgLoop visit cs s).map fun r => (r.1.map (FF.scale k), r.2) := by
  induction cs generalizing s with
  | nil => rfl
  | cons c cs ih =>
    simp only [fgLoop, h c]
    cases hv : visit c with
    | error e =>
      simp only [scaled_error]
      cases e <;> try rfl
      rw [ih s]
      cases fgLoop visit cs s with
      | error e => rfl
      | ok r => rfl
    | ok r =>
      obtain ⟨l, cons⟩ := r
      rw [scaled_ok]
      simp only [ih (s + cons.getD 0)]
      cases fgLoop visit cs (s + cons.getD 0) with
      | error e => rfl
      | ok r => simp [Except.map]

theorem subLoop_scaled (k : ℚ) (H : Heap F Q) (visit visit' : ℕ → ℚ → Res F)
    (h : ∀ c ev, visit' c ev = scaled k (visit c ev)) (cs : List ℕ) (inv : List (FF F)) :
    subLoop H visit' cs inv = (subLoop H visit cs inv).map fun r => (r.1.map (FF.scale k), r.2) := by
  induction cs generalizing inv with
  | nil => rfl
  | cons c cs ih =>
    simp only [subLoop]
    cases hf : inv.find? fun m => decide (m.flow = (H c).flow) with
    | none => simp only [ih inv]
    | some m =>
      simp only [h]
      cases hv : visit c (if m.dir = (H c).dir then m.mag else -m.mag) with
      | error e => simp only [scaled_error]; rfl
      | ok r =>
        obtain ⟨l, cv⟩ := r
        rw [scaled_ok]
        simp only [ih]
        cases subLoop H visit cs (inv.eraseP fun m => decide (m.flow = (H c).flow)) with
        | error e => rfl
        | ok r => simp [Except.map]

theorem fgNode_scaled (k : ℚ) (E : Env F Q) (H : Heap F Q) (i : ℕ) (s : ℚ) (ff : FF F)
    (visit visit' : ℕ → Option Q → Option ℚ → Res F) (h : ∀ c cq b, visit' c cq b = scaled k (visit c cq b)) :
    fgNode E H i s (FF.scale k ff) visit' = (fgNode E H i s ff visit).map (List.map (FF.scale k)) := by
  unfold fgNode
  simp only
  rw [fgLoop_scaled k _ _ (fun c => h c (H i).cons none)]
  cases fgLoop (fun c => visit c (H i).cons none) (children (H i)) (inbound E (H i) s) with
  | error e => rfl
  | ok r =>
    obtain ⟨l, s', b⟩ := r
    cases b with
    | none => rfl
    | some b =>
      simp only [Except.map, h]
      cases visit b none (some (if (H b).dir = .input then -s' else s')) with
      | error e => rfl
      | ok r => obtain ⟨l', cv⟩ := r; simp [scaled_ok, FF.scale]

theorem subNode_scaled (k : ℚ) (H : Heap F Q) (i : ℕ) (ff : FF F) (inv internal : List (FF F))
    (visit : ℕ → ℚ → ℚ → Res F) (h : ∀ c w ev, visit c (k * w) ev = scaled k (visit c w ev)) :
    subNode H i (FF.scale k ff) inv internal visit = (subNode H i ff inv internal visit).map (List.map (FF.scale k)) := by
  unfold subNode
  have e1 : (FF.scale k ff).term = ff.term := rfl
  have e2 : (FF.scale k ff).nw = k * ff.nw := rfl
  simp only [e1, e2]
  cases hf : inv.find? fun m => decide (m.flow = ff.term.flow) with
  | none => rfl
  | some m =>
    simp only
    by_cases hz : m.mag = 0
    · simp only [hz, ↓reduceIte]; rfl
    · simp only [hz, ↓reduceIte]
      generalize hd : (if m.dir = (H i).dir then -m.mag else m.mag) = d
      have hk : k * ff.nw / d = k * (ff.nw / d) := by ring
      simp only [hk]
      rw [subLoop_scaled k H (fun c ev => visit c (ff.nw / d) ev) (fun c ev => visit c (k * (ff.nw / d)) ev)
        (fun c ev => h c _ ev)]
      cases subLoop H (fun c ev => visit c (ff.nw / d) ev) (children (H i))
          (inv.eraseP fun m => decide (m.flow = ff.term.flow)) with
      | error e => rfl
      | ok r =>
        obtain ⟨l, rest⟩ := r
        have hs : ∀ l : List (FF F), l.map (FF.scale (k * (ff.nw / d))) = (l.map (FF.scale (ff.nw / d))).map (FF.scale k) := by
          intro l
          rw [List.map_map]
          apply List.map_congr_left
          intro f _
          exact (scale_scale k _ f).symm
        simp only [Except.map, List.map_append, hs]
        by_cases hdsc : ff.term.descend = true
        · simp [hdsc]
        · simp [hdsc, FF.scale]

theorem enter_scaled (E : Env F Q) (H : Heap F Q) (sc : Scen) (obs : Bool) (k : ℚ) (seen : List ℕ) (i : ℕ)
    (w : ℚ) (cq : Option Q) (bal : Option ℚ) :
    enter E H sc obs seen i (k * w) cq bal = (enter E H sc obs seen i w cq bal).map fun r => (FF.scale k r.1, r.2) := by
  unfold enter
  split
  · rfl
  cases evOf (H i) sc obs bal with
  | error e => rfl
  | ok ev =>
    simp only
    cases termOf (H i) sc with
    | error e => rfl
    | ok term =>
      simp only
      have hnw : nodeWeight E (H i) term (k * w) (k * w * ev) = (nodeWeight E (H i) term w (w * ev)).map (k * ·) := by
        unfold nodeWeight
        split
        · rfl
        · split
          · simp [Except.map, mul_assoc]
          · cases conversion E (H i).flow term.flow with
            | error e => rfl
            | ok v => simp [Except.map, mul_assoc]
      rw [hnw]
      cases nodeWeight E (H i) term w (w * ev) with
      | error e => rfl
      | ok nw =>
        simp only [Except.map]
        cases conserved E H (H i) ev cq with
        | error e => rfl
        | ok r => simp [FF.scale, mul_assoc]

theorem expand_scaled (E : Env F Q) (H : Heap F Q) (sc : Scen) (obs : Bool) (k : ℚ) (topOf : ℕ → Except Err ℕ)
    (visit : List ℕ → ℕ → ℚ → Option Q → Option ℚ → Res F)
    (h : ∀ seen c w cq b, visit seen c (k * w) cq b = scaled k (visit seen c w cq b)) (seen : List ℕ) (i : ℕ) (ff : FF F) :
    expand E H sc obs topOf visit seen i (FF.scale k ff) =
      (expand E H sc obs topOf visit seen i ff).map (List.map (FF.scale k)) := by
  have hfg : ∀ s, (fgNode E H i s (FF.scale k ff) fun c cq bal => visit seen c (FF.scale k ff).nw cq bal) =
      (fgNode E H i s ff fun c cq bal => visit seen c ff.nw cq bal).map (List.map (FF.scale k)) :=
    fun s => fgNode_scaled k E H i s ff _ _ fun c cq b => h seen c ff.nw cq b
  unfold expand fgFrom
  have e1 : (FF.scale k ff).term = ff.term := rfl
  simp only [e1, hfg]
  cases ff.term.target with
  | null => rfl
  | process =>
    simp only
    cases stock0 (H i) sc obs false with
    | error e => rfl
    | ok s => rfl
  | frag j =>
    simp only
    by_cases hji : j = i
    · simp only [hji, ↓reduceIte]
      cases stock0 (H i) sc obs true with
      | error e => rfl
      | ok s => rfl
    · simp only [hji, ↓reduceIte]
      by_cases hbg : (H j).bg = true
      · have e2 : (FF.scale k ff).nw = k * ff.nw := rfl
        simp only [hbg, ↓reduceIte, e2, h]
        cases visit [] j ff.nw none none with
        | error e => rfl
        | ok r =>
          obtain ⟨l, cv'⟩ := r
          rw [scaled_ok]
          match l with
          | [] => rfl
          | [f] => rfl
          | f :: g :: l => rfl
      · simp only [hbg]
        cases topOf j with
        | error e => rfl
        | ok t =>
          simp only
          cases visit [] t 1 none none with
          | error e => rfl
          | ok r =>
            obtain ⟨ffs, c⟩ := r
            simp only
            cases groupIos j (H t).flow (H t).dir ffs true with
            | error e => rfl
            | ok g =>
              exact subNode_scaled k H i ff g.1 g.2 (fun c w ev => visit seen c w none (some ev))
                fun c w ev => h seen c w none (some ev)

/-- C28, for `_traverse_node` in all its uses: multiplying the upstream node weight by k ≠ 0 multiplies all amounts and
node weights by k, and changes neither the sequence of fragment flows, nor the conserved value reported to the parent,
nor the aggregated unit inventories, nor an exception. -/
theorem traversal_linear (E : Env F Q) (H : Heap F Q) (sc : Scen) (obs : Bool) (k : ℚ) (hk : k ≠ 0) (fuel : ℕ)
    (seen : List ℕ) (i : ℕ) (w : ℚ) (cq : Option Q) (bal : Option ℚ) :
    travNode E H sc obs fuel seen i (k * w) cq bal = scaled k (travNode E H sc obs fuel seen i w cq bal) := by
  induction fuel generalizing seen i w cq bal with
  | zero => rfl
  | succ fuel ih =>
    unfold travNode
    rw [enter_scaled]
    cases enter E H sc obs seen i w cq bal with
    | error e => rfl
    | ok r =>
      obtain ⟨ff, cv⟩ := r
      simp only [Except.map]
      have hz : ((FF.scale k ff).mag = 0) = (ff.mag = 0) := by simp [FF.scale, hk]
      have e1 : (FF.scale k ff).term = ff.term := rfl
      rw [expand_scaled E H sc obs k _ _ ih]
      simp only [hz, e1]
      split
      · rfl
      · cases expand E H sc obs (top H fuel) (travNode E H sc obs fuel) _ i ff with
        | error e => rfl
        | ok l => rfl

/-- With weight 0 the traversal stops at once: one flow of amount 0. -/
theorem traversal_zero (E : Env F Q) (H : Heap F Q) (sc : Scen) (obs : Bool) (fuel : ℕ) (seen : List ℕ) (i : ℕ)
    (cq : Option Q) (bal : Option ℚ) (l : List (FF F)) (cv : Option ℚ)
    (h : travNode E H sc obs fuel seen i 0 cq bal = .ok (l, cv)) : ∃ f, l = [f] ∧ f.who = .frag i ∧ f.mag = 0 ∧ f.nw = 0 := by
  cases fuel with
  | zero => simp [travNode] at h
  | succ fuel =>
    unfold travNode at h
    cases he : enter E H sc obs seen i 0 cq bal with
    | error e => simp [he] at h
    | ok r =>
      obtain ⟨ff, c⟩ := r
      have hs := enter_scaled E H sc obs 0 seen i 0 cq bal
      rw [zero_mul, he] at hs
      simp only [Except.map, Except.ok.injEq, Prod.mk.injEq] at hs
      have hmag : ff.mag = 0 := by rw [hs.1]; simp [FF.scale]
      have hnw : ff.nw = 0 := by rw [hs.1]; simp [FF.scale]
      have hwho : ff.who = .frag i := by
        unfold enter at he
        repeat' split at he
        all_goals first | (simp at he; done) | (simp only [Except.ok.injEq, Prod.mk.injEq] at he; rw [← he.1])
      simp only [he, hmag, or_true, ↓reduceIte, Except.ok.injEq, Prod.mk.injEq] at h
      exact ⟨ff, h.1.symm, hwho, hmag, hnw⟩

/-! ### an example used for several properties -/

/-- flows are numbers; two quantities: 0 (the reference quantity of flows below 10) and 1 (of the others) -/
def exE : Env ℕ ℕ :=
  { cf := fun f q => if f < 10 then (if q = 0 then 1 else if f = 4 then 3 else 0) else (if q = 1 then 1 else if f = 12 then 1/2 else 0)
    refQ := fun f => if f < 10 then 0 else 1 }

def nullT (f : ℕ) : Term ℕ := { target := .null, flow := f }

/-- fragment 0 (amount 10 of flow 1, a foreground node balancing quantity 0) has the child flows
1 (cut-off, input of 2 of flow 2, or 5 in scenario "a"), 2 (4 of flow 3, terminated to the subfragment 5),
3 (the balance, an output) and 4 (terminated to a process with a flow in another quantity);
fragment 2 has a child flow 8 for the flow 6 of the subfragment.
Fragment 5 produces 2 of flow 3 from 7 of flow 6 (cut-off) and 3 of flow 2 (cut-off). -/
def exH : Heap ℕ ℕ
  | 0 => { kids := [2, 1, 4, 3], flow := 1, dir := .input, evs := [(.cached, some 10), (.observed, some 0)],
           terms := [(none, { target := .frag 0, flow := 1 })], cons := some 0 }
  | 1 => { parent := some 0, flow := 2, dir := .input, evs := [(.cached, some 2), (.observed, some 0), (.str "a", some 5)],
           terms := [(none, nullT 2)] }
  | 2 => { parent := some 0, kids := [8], flow := 3, dir := .input, evs := [(.cached, some 4), (.observed, some 0)],
           terms := [(none, { target := .frag 5, flow := 3 })] }
  | 3 => { parent := some 0, flow := 5, dir := .output, evs := [(.cached, some 1), (.observed, some 0)],
           terms := [(none, nullT 5)], bal := true }
  | 4 => { parent := some 0, flow := 4, dir := .output, evs := [(.cached, some 1), (.observed, some 0)],
           terms := [(none, { target := .process, flow := 12 })] }
  | 5 => { kids := [6, 7], flow := 3, dir := .input, evs := [(.cached, some 2), (.observed, some 0)],
           terms := [(none, { target := .frag 5, flow := 3 })] }
  | 6 => { parent := some 5, flow := 6, dir := .input, evs := [(.cached, some 7), (.observed, some 0)],
           terms := [(none, nullT 6)] }
  | 7 => { parent := some 5, flow := 2, dir := .input, evs := [(.cached, some 3), (.observed, some 0)],
           terms := [(none, nullT 2)] }
  | 8 => { parent := some 2, flow := 6, dir := .input, evs := [(.cached, some 1), (.observed, some 0)],
           terms := [(none, nullT 6)] }
  | _ => { flow := 0, dir := .input, evs := [], terms := [] }

/-- whose flow, amount, node weight -/
def view (r : Except Err (List (FF ℕ))) : Except Err (List (Who × ℚ × ℚ)) := r.map (List.map fun f => (f.who, f.mag, f.nw))

deriving instance DecidableEq for Except

example : view (traverse exE exH .none false 9 0) = .ok
    [(.frag 0, 10, 1), (.frag 1, 2, 2), (.frag 2, 4, 4), (.frag 5, 4, 2), (.frag 8, 14, 14), (.ghost 5, 6, 6),
     (.frag 4, 1, 3), (.frag 3, -5, -5)] := by decide +kernel

example : view ((travNode exE exH .none false 9 [] 0 (-3/2) none none).map Prod.fst) = .ok
    [(.frag 0, -15, -3/2), (.frag 1, -3, -3), (.frag 2, -6, -6), (.frag 5, -6, -3), (.frag 8, -21, -21), (.ghost 5, -9, -9),
     (.frag 4, -3/2, -9/2), (.frag 3, 15/2, 15/2)] := by decide +kernel

end Frg
