import Verif.Model.Cutoffs
import Verif.Props.FragmentIos
import Verif.Props.FragmentReverse
import Verif.Props.FragmentLoop2

/-!
C178: cut-offs and inventories of fragments.
-/

namespace Frg

section

variable {F Q K : Type} [DecidableEq F] [DecidableEq Q] [LinearOrder K]

/-! ### specification -/

/-- inputs minus outputs of a flow -/
def netFlow (f : F) (l : List (Xv F)) : ℚ :=
  ((l.filter fun x => decide (x.flow = f)).map fun x => match x.dir with | .input => x.value | .output => -x.value).sum

/-- what one fragment flow leaves cut off of a flow: itself, if not terminated; what the process of a background fragment requires of it, at its node weight -/
def leaves (H : Heap F Q) (cuts : Term F → List (F × Dir × ℚ)) (f : F) (ff : FF F) : ℚ :=
  if ff.term.isNull then (if ff.flow = f then (match ff.dir with | .input => ff.mag | .output => -ff.mag) else 0)
  else match ff.who with
    | .ghost _ => 0
    | .frag i => if (H i).bg then ff.nw * ((cuts ff.term).map fun x => if x.1 = f then (match x.2.1 with | .input => x.2.2 | .output => -x.2.2) else 0).sum else 0

/-! ### sums -/

theorem sortDown_perm {α β : Type} [LinearOrder β] (key : α → β) (l : List α) : (sortDown key l).Perm l := List.perm_insertionSort _ l

theorem sortDown_sorted {α β : Type} [LinearOrder β] (key : α → β) (l : List α) : (sortDown key l).Pairwise fun a b => key b ≤ key a := by
  have : Std.Total (fun a b : α => key b ≤ key a) := ⟨fun a b => le_total _ _⟩
  have : IsTrans α (fun a b : α => key b ≤ key a) := ⟨fun a b c h1 h2 => le_trans h2 h1⟩
  exact List.pairwise_insertionSort _ l

theorem netFlow_perm {l l' : List (Xv F)} (h : l.Perm l') (f : F) : netFlow f l = netFlow f l' := by
  unfold netFlow
  exact ((h.filter _).map _).sum_eq

theorem netFlow_map (f : F) (l : List (FF F)) : netFlow f (l.map FF.xv) = net (l.filter fun x => decide (x.flow = f)) := by
  unfold netFlow net
  rw [List.filter_map, List.map_map]
  have : ((fun x : Xv F => decide (x.flow = f)) ∘ FF.xv) = fun x : FF F => decide (x.flow = f) := rfl
  rw [this]
  congr 1
  apply List.map_congr_left
  intro x _
  simp only [Function.comp_apply, FF.xv, FF.amount]
  cases x.dir <;> rfl

theorem net_append (l l' : List (FF F)) : net (l ++ l') = net l + net l' := by simp [net]

theorem cutsOf_null (H : Heap F Q) (cuts : Term F → List (F × Dir × ℚ)) (ff : FF F) : ∀ x ∈ cutsOf H cuts ff, x.term.isNull = true := by
  unfold cutsOf
  intro x hx
  split at hx
  · rename_i h; simp at hx; subst hx; exact h
  · split at hx
    · obtain ⟨y, -, rfl⟩ := List.mem_map.1 hx; rfl
    · simp at hx

theorem cutsOf_net (H : Heap F Q) (cuts : Term F → List (F × Dir × ℚ)) (ff : FF F) (f : F) :
    net ((cutsOf H cuts ff).filter fun x => decide (x.flow = f)) = leaves H cuts f ff := by
  unfold cutsOf leaves
  split
  · by_cases h : ff.flow = f
    · simp only [List.filter_cons, h, decide_true, if_true, List.filter_nil, net, List.map_cons, List.map_nil, List.sum_cons, List.sum_nil, add_zero, FF.amount]
      cases ff.dir <;> rfl
    · simp [h, net]
  · cases hw : ff.who with
    | ghost p => simp [Who.isBg, net]
    | frag i =>
      cases hb : (H i).bg with
      | false => simp [Who.isBg, hb, net]
      | true =>
        rw [if_pos (show Who.isBg H (.frag i) = true from hb)]
        simp only [Who.num, hb, if_true]
        clear hb
        induction cuts ff.term with
        | nil => simp [net]
        | cons y l ih =>
          rw [List.map_cons, List.filter_cons, List.map_cons, List.sum_cons, mul_add, ← ih]
          by_cases hy : y.1 = f
          · simp only [FF.cutoff, hy, decide_true, if_true, net, List.map_cons, List.sum_cons]
            congr 1
            unfold FF.amount
            cases y.2.1
            · simp [mul_comm]
            · simp [mul_comm]
          · simp [FF.cutoff, hy]

theorem flatMap_net (H : Heap F Q) (cuts : Term F → List (F × Dir × ℚ)) (ffs : List (FF F)) (f : F) :
    net ((ffs.flatMap (cutsOf H cuts)).filter fun x => decide (x.flow = f)) = (ffs.map (leaves H cuts f)).sum := by
  induction ffs with
  | nil => simp [net]
  | cons x l ih =>
    rw [List.flatMap_cons, List.filter_append, net_append, ih, cutsOf_net]
    simp

theorem cutoffsOf_flat (H : Heap F Q) (cuts : Term F → List (F × Dir × ℚ)) (ffs : List (FF F)) (f : F) :
    cutoffsOf f (ffs.flatMap (cutsOf H cuts)) = (ffs.flatMap (cutsOf H cuts)).filter fun x => decide (x.flow = f) := by
  unfold cutoffsOf
  apply List.filter_congr
  intro x hx
  obtain ⟨ff, -, h⟩ := List.mem_flatMap.1 hx
  simp [cutsOf_null H cuts ff x h]

variable {E : Env F Q} {H : Heap F Q} {rank : F → K} {cuts : Term F → List (F × Dir × ℚ)} {sc : Scen} {obs : Bool} {fuel i : ℕ}

theorem groupIos_plain (p : ℕ) (rf : F) (rd : Dir) (l : List (FF F)) : ∃ r, groupIos p rf rd l false = .ok r := ⟨_, rfl⟩

/-- **C178** there are cut-offs if the fragment can be traversed, and errors are the traversal's -/
theorem cutoffs_total (agg : Bool) : (∀ e, cutoffs E H rank cuts sc obs fuel i agg = .error e ↔ traverse E H sc obs fuel i = .error e) := by
  intro e
  unfold cutoffs
  cases traverse E H sc obs fuel i with
  | error e' => simp
  | ok ffs =>
    cases agg with
    | false => simp
    | true =>
      obtain ⟨r, hr⟩ := groupIos_plain i (H i).flow (H i).dir (ffs.flatMap (cutsOf H cuts))
      simp [hr, Except.map]

/-- **C178** the net amount of each flow in the cut-offs is what the fragment flows leave cut off, aggregated or not -/
theorem cutoffs_net {agg : Bool} {l : List (Xv F)} {ffs : List (FF F)} (h : cutoffs E H rank cuts sc obs fuel i agg = .ok l) (ht : traverse E H sc obs fuel i = .ok ffs) (f : F) :
    netFlow f l = (ffs.map (leaves H cuts f)).sum := by
  unfold cutoffs at h
  rw [ht] at h
  cases agg with
  | false =>
    simp at h
    subst h
    rw [netFlow_perm (sortDown_perm _ _), netFlow_map, flatMap_net]
  | true =>
    simp only [if_true] at h
    obtain ⟨⟨ext, int⟩, hr⟩ := groupIos_plain i (H i).flow (H i).dir (ffs.flatMap (cutsOf H cuts))
    rw [hr] at h
    simp [Except.map] at h
    subst h
    rw [netFlow_perm (sortDown_perm _ _), netFlow_map, ← flatMap_net, ← cutoffsOf_flat]
    rcases group_ios_flow i _ _ _ hr f (by simp) with ⟨h1, h2⟩ | ⟨-, e, h2, h3, -⟩
    · rw [h1, h2]
    · rw [h2, ← h3]; simp [net]

/-- **C178** aggregated, each flow that is cut off is listed once, with an amount that is not negative -/
theorem cutoffs_once {l : List (Xv F)} {ffs : List (FF F)} (h : cutoffs E H rank cuts sc obs fuel i true = .ok l) (ht : traverse E H sc obs fuel i = .ok ffs) (f : F) :
    ((∃ ff ∈ ffs, (ff.term.isNull = true ∧ ff.flow = f) ∨ (ff.term.isNull = false ∧ ff.who.isBg H = true ∧ ∃ x ∈ cuts ff.term, x.1 = f)) →
      ∃ x, l.filter (fun x => decide (x.flow = f)) = [x] ∧ 0 ≤ x.value) ∧
    ((¬ ∃ ff ∈ ffs, (ff.term.isNull = true ∧ ff.flow = f) ∨ (ff.term.isNull = false ∧ ff.who.isBg H = true ∧ ∃ x ∈ cuts ff.term, x.1 = f)) →
      l.filter (fun x => decide (x.flow = f)) = []) := by
  unfold cutoffs at h
  rw [ht] at h
  simp only [if_true] at h
  obtain ⟨⟨ext, int⟩, hr⟩ := groupIos_plain i (H i).flow (H i).dir (ffs.flatMap (cutsOf H cuts))
  rw [hr] at h
  simp [Except.map] at h
  subst h
  have hiff : (∃ ff ∈ ffs, (ff.term.isNull = true ∧ ff.flow = f) ∨ (ff.term.isNull = false ∧ ff.who.isBg H = true ∧ ∃ x ∈ cuts ff.term, x.1 = f)) ↔
      cutoffsOf f (ffs.flatMap (cutsOf H cuts)) ≠ [] := by
    rw [cutoffsOf_flat, ne_eq, List.filter_eq_nil_iff]
    push Not
    constructor
    · rintro ⟨ff, hff, (⟨h1, h2⟩ | ⟨h1, h2, x, hx, rfl⟩)⟩
      · exact ⟨ff, List.mem_flatMap.2 ⟨ff, hff, by simp [cutsOf, h1]⟩, by simp [h2]⟩
      · refine ⟨FF.cutoff ff.who.num x.1 x.2.1 (x.2.2 * ff.nw), List.mem_flatMap.2 ⟨ff, hff, ?_⟩, by simp [FF.cutoff]⟩
        simp only [cutsOf, h1, Bool.false_eq_true, if_false, h2, if_true]
        exact List.mem_map.2 ⟨x, hx, rfl⟩
    · rintro ⟨y, hy, hyf⟩
      simp only [decide_eq_true_eq] at hyf
      obtain ⟨ff, hff, hy⟩ := List.mem_flatMap.1 hy
      refine ⟨ff, hff, ?_⟩
      unfold cutsOf at hy
      split at hy
      · rename_i h1; simp at hy; subst hy; exact .inl ⟨h1, hyf⟩
      · rename_i h1
        split at hy
        · rename_i h2
          obtain ⟨x, hx, rfl⟩ := List.mem_map.1 hy
          exact .inr ⟨by simpa using h1, h2, x, hx, hyf⟩
        · simp at hy
  rw [hiff]
  have hperm := (sortDown_perm (Xv.key rank) (ext.map FF.xv)).filter (fun x => decide (x.flow = f))
  have hmap : (ext.map FF.xv).filter (fun x => decide (x.flow = f)) = (ext.filter fun x => decide (x.flow = f)).map FF.xv := by
    rw [List.filter_map]; rfl
  rw [hmap] at hperm
  rcases group_ios_flow i _ _ _ hr f (by simp) with ⟨h1, h2⟩ | ⟨h1, e, h2, -, h4, -⟩
  · refine ⟨fun hh => absurd h1 hh, fun _ => ?_⟩
    rw [h2] at hperm
    exact List.Perm.eq_nil (by simpa using hperm)
  · refine ⟨fun _ => ⟨e.xv, ?_, h4⟩, fun hh => absurd h1 hh⟩
    rw [h2] at hperm
    exact List.perm_singleton.1 (by simpa using hperm)

/-- **C178** not aggregated, each cut-off of each fragment flow is listed -/
theorem cutoffs_each {l : List (Xv F)} {ffs : List (FF F)} (h : cutoffs E H rank cuts sc obs fuel i false = .ok l) (ht : traverse E H sc obs fuel i = .ok ffs) :
    l.Perm (ffs.flatMap fun ff =>
      if ff.term.isNull then [⟨ff.who, ff.flow, ff.dir, ff.mag⟩]
      else match ff.who with
        | .ghost _ => []
        | .frag j => if (H j).bg then (cuts ff.term).map fun x => ⟨.ghost j, x.1, x.2.1, x.2.2 * ff.nw⟩ else []) := by
  unfold cutoffs at h
  rw [ht] at h
  simp at h
  subst h
  refine (sortDown_perm _ _).trans (List.Perm.of_eq ?_)
  rw [List.map_flatMap]
  congr 1
  funext ff
  unfold cutsOf
  split
  · rfl
  · cases hw : ff.who with
    | ghost p => simp [Who.isBg]
    | frag j =>
      cases hb : (H j).bg with
      | false => simp [Who.isBg, hb]
      | true =>
        rw [if_pos (show Who.isBg H (.frag j) = true from hb), List.map_map]
        simp only [hb, if_true]
        rfl

/-- **C178** inputs come first; then by compartment and name, then by value, all descending -/
theorem cutoffs_sorted {agg : Bool} {l : List (Xv F)} (h : cutoffs E H rank cuts sc obs fuel i agg = .ok l) :
    l.Pairwise fun a b => (a.dir = .output → b.dir = .output) ∧ (a.dir = b.dir → rank b.flow ≤ rank a.flow ∧ (rank a.flow = rank b.flow → b.value ≤ a.value)) := by
  have hs : ∃ l', l = sortDown (Xv.key rank) l' := by
    unfold cutoffs at h
    split at h
    · cases h
    · simp only at h
      split at h
      · cases h
      · cases h; exact ⟨_, rfl⟩
  obtain ⟨l', rfl⟩ := hs
  refine (sortDown_sorted (Xv.key rank) l').imp ?_
  intro a b hab
  unfold Xv.key at hab
  rw [Prod.Lex.toLex_le_toLex] at hab
  simp only [Prod.Lex.toLex_le_toLex] at hab
  cases ha : a.dir <;> cases hb : b.dir <;> simp [ha, hb] at hab ⊢
  · rcases hab with hab | ⟨h1, h2⟩
    · exact ⟨le_of_lt hab, fun he => absurd he (ne_of_gt hab)⟩
    · exact ⟨le_of_eq h1, fun _ => h2⟩
  · exact absurd hab (by decide)
  · rcases hab with hab | ⟨h1, h2⟩
    · exact ⟨le_of_lt hab, fun he => absurd he (ne_of_gt hab)⟩
    · exact ⟨le_of_eq h1, fun _ => h2⟩

/-- **C178** the inventory is the unit inventory, scaled, inputs first and by value -/
theorem inventory_spec {scale : ℚ} {l : List (Xv F)} (h : inventory E H sc obs fuel i scale = .ok l) :
    ∃ io int, unitInventory E H sc obs fuel i = .ok (io, int) ∧ l.Perm (io.map fun f => ⟨.frag i, f.flow, f.dir, f.mag * scale⟩) ∧
    l.Pairwise fun a b => (a.dir = .output → b.dir = .output) ∧ (a.dir = b.dir → b.value ≤ a.value) := by
  unfold inventory at h
  split at h
  · cases h
  · rename_i io int hu
    cases h
    refine ⟨io, int, hu, sortDown_perm _ _, (sortDown_sorted Xv.key2 _).imp ?_⟩
    intro a b hab
    unfold Xv.key2 at hab
    rw [Prod.Lex.toLex_le_toLex] at hab
    cases ha : a.dir <;> cases hb : b.dir <;> simp [ha, hb] at hab ⊢
    all_goals first | exact hab | cases hab

/-- **C178** the inventory at twice the scale is twice the inventory -/
theorem inventory_net {scale : ℚ} {l l1 : List (Xv F)} (h : inventory E H sc obs fuel i scale = .ok l) (h1 : inventory E H sc obs fuel i 1 = .ok l1) (f : F) :
    netFlow f l = scale * netFlow f l1 := by
  obtain ⟨io, int, hu, hp, -⟩ := inventory_spec h
  obtain ⟨io', int', hu', hp', -⟩ := inventory_spec h1
  rw [hu] at hu'; cases hu'
  rw [netFlow_perm hp, netFlow_perm hp']
  clear hp hp' hu h h1
  unfold netFlow
  induction io with
  | nil => simp
  | cons x io ih =>
    simp only [List.map_cons, List.filter_cons]
    by_cases hx : x.flow = f
    · simp only [hx, decide_true, if_true, List.map_cons, List.sum_cons, ih, mul_add]
      congr 1
      cases x.dir <;> simp [mul_comm]
    · simp only [hx, decide_false, Bool.false_eq_true, if_false, ih]

/-! ### background cut-offs that are not found -/

/-- the fragments met from V are V and ghosts; background fragments that flows are terminated to are not met -/
structure NoBg (H : Heap F Q) (sc : Scen) (V : ℕ → Prop) : Prop where
  bg : ∀ j, V j → (H j).bg = false
  kids : ∀ j, V j → ∀ c ∈ (H j).kids, V c
  target : ∀ j t k, V j → termOf (H j) sc = .ok t → t.target = .frag k → k ≠ j → (H k).bg = false → ∀ n x, top H n k = .ok x → V x

/-- a fragment flow of a fragment in V, or of a ghost -/
def InV (V : ℕ → Prop) (f : FF F) : Prop := ∀ j, f.who = .frag j → V j

theorem groupIos_ghosts {p : ℕ} {f : F} {d : Dir} {ffs inv internal : List (FF F)} {b : Bool} (h : groupIos p f d ffs b = .ok (inv, internal)) (V : ℕ → Prop) :
    ∀ x ∈ inv, InV V x := by
  have hg : ∀ f d m, InV V (FF.cutoff (F := F) p f d m) := by
    intro f d m j hj; simp [FF.cutoff] at hj
  have hm : ∀ (o : Dict F ℚ), ∀ x ∈ o.map (fun kv => FF.cutoff p kv.1 (dirOf kv.2) |kv.2|), InV V x := by
    intro o x hx
    obtain ⟨y, -, rfl⟩ := List.mem_map.1 hx
    exact hg _ _ _
  unfold groupIos at h
  simp only at h
  split at h
  · cases h; exact hm _
  · split at h
    · cases h
    · split at h
      · split at h
        · split at h <;> cases h
          · exact hm _
          · intro x hx
            rcases List.mem_cons.1 hx with rfl | hx
            · exact hg _ _ _
            · exact hm _ x hx
        · cases h
      · cases h
        intro x hx
        rcases List.mem_cons.1 hx with rfl | hx
        · exact hg _ _ _
        · exact hm _ x hx

theorem fgLoop_all {visit : ℕ → Res F} {P : FF F → Prop} : ∀ (cs : List ℕ) (s : ℚ) l s' b, fgLoop visit cs s = .ok (l, s', b) →
    (∀ c ∈ cs, ∀ l cv, visit c = .ok (l, cv) → ∀ x ∈ l, P x) → ∀ x ∈ l, P x := by
  intro cs
  induction cs with
  | nil => intro s l s' b h _; simp [fgLoop] at h; rw [h.1]; simp
  | cons c cs ih =>
    intro s l s' b h hv
    rw [fgLoop] at h
    split at h
    · rename_i l1 cv hvc
      split at h
      · rename_i hh
        cases h
        intro x hx
        rcases List.mem_append.1 hx with hx | hx
        · exact hv c (by simp) _ _ hvc x hx
        · exact ih _ _ _ _ hh (fun d hd => hv d (by simp [hd])) x hx
      · cases h
    · split at h
      · rename_i hh
        cases h
        exact ih _ _ _ _ hh (fun d hd => hv d (by simp [hd]))
      · cases h
    · cases h

theorem subLoop_all {visit : ℕ → ℚ → Res F} {P : FF F → Prop} : ∀ (cs : List ℕ) (inv l r : List (FF F)), subLoop H visit cs inv = .ok (l, r) →
    (∀ c ∈ cs, ∀ ev l cv, visit c ev = .ok (l, cv) → ∀ x ∈ l, P x) → (∀ x ∈ inv, P x) → (∀ x ∈ l, P x) ∧ ∀ x ∈ r, P x := by
  intro cs
  induction cs with
  | nil => intro inv l r h _ hi; simp [subLoop] at h; rw [h.1, ← h.2]; exact ⟨by simp, hi⟩
  | cons c cs ih =>
    intro inv l r h hv hi
    rw [subLoop] at h
    split at h
    · exact ih _ _ _ h (fun d hd => hv d (by simp [hd])) hi
    · split at h
      · cases h
      · rename_i l1 cv hvc
        split at h
        · rename_i l2 r2 hh
          cases h
          obtain ⟨h1, h2⟩ := ih _ _ _ hh (fun d hd => hv d (by simp [hd])) fun x hx => hi x (List.mem_of_mem_eraseP hx)
          refine ⟨fun x hx => ?_, h2⟩
          rcases List.mem_append.1 hx with hx | hx
          · exact hv c (by simp) _ _ _ hvc x hx
          · exact h1 x hx
        · cases h

theorem travNode_inV {V : ℕ → Prop} (hV : NoBg H sc V) : ∀ (fuel : ℕ) (seen : List ℕ) (j : ℕ) (up : ℚ) (cq : Option Q) (bal : Option ℚ) l cv, V j →
    travNode E H sc obs fuel seen j up cq bal = .ok (l, cv) → ∀ x ∈ l, InV V x := by
  intro fuel
  induction fuel with
  | zero => intro seen j up cq bal l cv _ h; cases h
  | succ fuel ih =>
    intro seen j up cq bal l cv hj h
    rw [travNode] at h
    split at h
    · cases h
    · rename_i ff cv' hen
      obtain ⟨ev, -, hwho, -, hterm, -⟩ := enter_ok hen
      have hff : ∀ f : FF F, f.who = ff.who → InV V f := by
        intro f hf k hk; rw [hf, hwho] at hk; cases hk; exact hj
      split at h
      · cases h
        intro x hx; simp at hx; subst hx; exact hff _ rfl
      · split at h
        · cases h
        · rename_i l' hx
          cases h
          have hch : ∀ c ∈ children (H j), V c := fun c hc => hV.kids j hj c ((mem_children _ _).1 hc)
          have hfg : ∀ s b l, fgFrom E H sc obs (travNode E H sc obs fuel) s j ff b = .ok l → ∀ x ∈ l, InV V x := by
            intro s b l hl
            unfold fgFrom at hl
            split at hl
            · cases hl
            · unfold fgNode at hl
              simp only at hl
              split at hl
              · cases hl
              · rename_i l1 s1 hloop
                cases hl
                intro x hx
                rcases List.mem_cons.1 hx with rfl | hx
                · exact hff _ rfl
                · exact fgLoop_all _ _ _ _ _ hloop (fun c hc l cv hh => ih _ _ _ _ _ _ _ (hch c hc) hh) x hx
              · rename_i l1 s1 b1 hloop
                split at hl
                · cases hl
                · rename_i l2 cv2 h2
                  cases hl
                  intro x hx
                  rcases List.mem_cons.1 hx with rfl | hx
                  · exact hff _ rfl
                  · rcases List.mem_append.1 hx with hx | hx
                    · exact fgLoop_all _ _ _ _ _ hloop (fun c hc l cv hh => ih _ _ _ _ _ _ _ (hch c hc) hh) x hx
                    · exact ih _ _ _ _ _ _ _ (hch _ (fgLoop_mem _ _ _ _ _ _ hloop)) h2 x hx
          unfold expand at hx
          cases htt : ff.term.target with
          | null => rw [htt] at hx; cases hx; intro x hx; simp at hx; subst hx; exact hff _ rfl
          | process => rw [htt] at hx; exact hfg _ _ _ hx
          | frag k =>
            rw [htt] at hx
            simp only at hx
            split at hx
            · exact hfg _ _ _ hx
            · rename_i hkj
              split at hx
              · split at hx
                · cases hx
                · cases hx
                  intro x hx; simp at hx; subst hx
                  intro k hk; cases hk; exact hj
                · cases hx
              · rename_i hbg
                split at hx
                · cases hx
                · rename_i t ht
                  have hVt := hV.target j ff.term k hj hterm htt hkj (by simpa using hbg) _ _ ht
                  split at hx
                  · cases hx
                  · rename_i ffs cv2 hsub
                    have hsubV := ih _ _ _ _ _ _ _ hVt hsub
                    split at hx
                    · cases hx
                    · rename_i inv internal hg
                      have hinv := groupIos_ghosts hg V
                      have hint : ∀ x ∈ internal, InV V x := by
                        rw [groupIos_internal hg]
                        exact fun x hx => hsubV x (List.mem_filter.1 hx).1
                      have hscale : ∀ w (l : List (FF F)), (∀ x ∈ l, InV V x) → ∀ x ∈ l.map (FF.scale w), InV V x := by
                        intro w l hl x hx
                        obtain ⟨y, hy, rfl⟩ := List.mem_map.1 hx
                        exact hl y hy
                      unfold subNode at hx
                      simp only at hx
                      split at hx
                      · cases hx
                      · split at hx
                        · cases hx
                        · split at hx
                          · cases hx
                          · rename_i l3 rest hloop
                            cases hx
                            obtain ⟨h1, h2⟩ := subLoop_all (P := InV V) _ _ _ _ hloop (fun c hc ev l cv hh => ih _ _ _ _ _ _ _ (hch c hc) hh)
                              fun x hx => hinv x (List.mem_of_mem_eraseP hx)
                            intro x hx
                            rcases List.mem_append.1 hx with hx | hx
                            · rcases List.mem_append.1 hx with hx | hx
                              · split at hx
                                · rcases List.mem_cons.1 hx with rfl | hx
                                  · exact hff _ rfl
                                  · exact hscale _ _ hint x hx
                                · simp at hx; subst hx; exact hff _ rfl
                              · exact h1 x hx
                            · exact hscale _ _ h2 x hx

/-- **C178** (fails) the cut-offs of background processes are never listed where flows are terminated to background fragments: if none of the fragments met is itself
marked background, cut-offs are the same whatever the background processes leave cut off -/
theorem background_cutoffs_missed {V : ℕ → Prop} (hV : NoBg H sc V) (hi : V i) (cuts' : Term F → List (F × Dir × ℚ)) (agg : Bool) :
    cutoffs E H rank cuts sc obs fuel i agg = cutoffs E H rank cuts' sc obs fuel i agg := by
  unfold cutoffs
  cases ht : traverse E H sc obs fuel i with
  | error e => rfl
  | ok ffs =>
    have hin : ∀ x ∈ ffs, InV V x := by
      unfold traverse at ht
      cases hh : travNode E H sc obs fuel [] i 1 none none with
      | error e => rw [hh] at ht; cases ht
      | ok r =>
        rw [hh] at ht
        cases ht
        exact travNode_inV hV _ _ _ _ _ _ _ _ hi hh
    have : ffs.flatMap (cutsOf H cuts) = ffs.flatMap (cutsOf H cuts') := by
      have e : ffs.map (cutsOf H cuts) = ffs.map (cutsOf H cuts') := by
        apply List.map_congr_left
        intro x hx
        unfold cutsOf
        have hb : x.who.isBg H = false := by
          cases hw : x.who with
          | ghost p => rfl
          | frag j => exact hV.bg j (hin x hx j hw)
        rw [hb]
        rfl
      rw [List.flatMap_def, List.flatMap_def, e]
    simp only [this]

end

/-! ### examples -/

namespace CutEx

def E : Env ℕ ℕ := { cf := fun _ _ => 0, refQ := fun _ => 0 }

/-- fragment 0 with a cut-off (1), and a background fragment (2) of amount 3 -/
def H : Heap ℕ ℕ := fun
  | 0 => { kids := [1, 2], flow := 0, dir := .output, evs := [(.cached, some 1), (.observed, some 1)], terms := [(none, { target := .frag 0, flow := 0 })] }
  | 1 => { parent := some 0, flow := 1, dir := .input, evs := [(.cached, some 2), (.observed, some 2)], terms := [(none, { target := .null, flow := 1 })] }
  | _ => { parent := some 0, flow := 2, dir := .input, bg := true, evs := [(.cached, some 3), (.observed, some 3)], terms := [(none, { target := .process, flow := 2 })] }

/-- the background process gives 5 of flow 1, and needs 7 of flow 4 -/
def cuts : Term ℕ → List (ℕ × Dir × ℚ) := fun _ => [(1, .output, 5), (4, .input, 7)]

example : (cutoffs E H id cuts .none true 9 0 true).toOption.map (·.map fun x => (x.flow, x.dir, x.value)) = some [(4, .input, 21), (1, .output, 13)] ∧
    (cutoffs E H id cuts .none true 9 0 false).toOption.map (·.map fun x => (x.flow, x.dir, x.value)) = some [(4, .input, 21), (1, .input, 2), (1, .output, 15)] := by
  constructor <;> decide +kernel

example : (inventory E H .none true 9 0 2).toOption.map (·.map fun x => (x.flow, x.dir, x.value)) = some [(1, .input, 4), (0, .input, 2)] := by decide +kernel

/-- the same with the background fragment on its own (3), and flow 2 terminated to it -/
def H2 : Heap ℕ ℕ := fun
  | 0 => H 0
  | 1 => H 1
  | 2 => { parent := some 0, flow := 2, dir := .input, evs := [(.cached, some 3), (.observed, some 3)], terms := [(none, { target := .frag 3, flow := 2 })] }
  | _ => { flow := 2, dir := .input, bg := true, evs := [(.cached, some 1), (.observed, some 1)], terms := [(none, { target := .process, flow := 2 })] }

theorem H2_noBg : NoBg H2 .none (· ≤ 2) := by
  refine ⟨?_, ?_, ?_⟩
  · intro j hj
    match j, hj with
    | 0, _ => rfl
    | 1, _ => rfl
    | 2, _ => rfl
  · intro j hj c hc
    match j, hj with
    | 0, _ => simp [H2, H] at hc; omega
    | 1, _ => simp [H2, H] at hc
    | 2, _ => simp [H2] at hc
  · intro j t k hj ht htk hkj hb
    match j, hj with
    | 0, _ => simp [termOf, H2, H, Dict.get?] at ht; subst ht; simp at htk; omega
    | 1, _ => simp [termOf, H2, H, Dict.get?] at ht; subst ht; simp at htk
    | 2, _ => simp [termOf, H2, Dict.get?] at ht; subst ht; simp at htk; subst htk; simp [H2] at hb

/-- **C178** (fails) flow 2 is there, but its cut-offs are not -/
theorem background_missed : (traverse E H2 .none true 9 0).toOption.map (·.map fun f => (f.flow, f.mag, decide (f.term.target = .process))) = some [(0, 1, false), (1, 2, false), (2, 3, true)] ∧
    (cutoffs E H2 id cuts .none true 9 0 true).toOption.map (·.map fun x => (x.flow, x.dir, x.value)) = some [(1, .input, 2)] := by
  constructor <;> decide +kernel

end CutEx
end Frg
