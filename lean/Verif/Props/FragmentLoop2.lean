import Verif.Props.FragmentLoop

/-!
C131: the check for loops in `terminate`.
-/

namespace Frg

variable {F Q : Type} [DecidableEq F] [DecidableEq Q] {E : Env F Q} {H H' : Heap F Q} {sc : Scen} {obs : Bool}

/-! ### loops that it does not find -/

/-- b is below a, by child flows of foreground nodes and processes whose amounts are not zero -/
inductive LivePath (H : Heap F Q) (sc : Scen) (obs : Bool) : ℕ → ℕ → Prop
  | refl (a : ℕ) : LivePath H sc obs a a
  | step (a c b : ℕ) (tm : Term F) : termOf (H a) sc = .ok tm → (tm.target = .process ∨ tm.target = .frag a) → c ∈ (H a).kids → exchangeValue (H a) sc obs ≠ .ok 0 →
      (H a).bg = false → (H a).bal = false → LivePath H sc obs c b → LivePath H sc obs a b

/-- the fragment has an amount and is neither background nor balance -/
def Live (H : Heap F Q) (sc : Scen) (obs : Bool) (i : ℕ) : Prop := exchangeValue (H i) sc obs ≠ .ok 0 ∧ (H i).bg = false ∧ (H i).bal = false

/-- what `terminate` does if it does not refuse -/
theorem terminate_ok {fuel i j : ℕ} (h : terminate E fuel H i j = .ok () H') (hji : j ≠ i) :
    ∃ t, top H fuel i = .ok t ∧ (∀ tm, (H i).terms.get? none = some tm → tm.isNull = true) ∧
      ((j = t ∧ H' = H.put i { H i with terms := (H i).terms.set none { target := .null, flow := (H i).flow } }) ∨
       (j ≠ t ∧ H' = H.put i { H i with terms := (H i).terms.set none { target := .frag j, flow := (H i).flow } } ∧
        ∃ ffs, traverse E H .none false fuel j = .ok ffs ∧ ∀ ff ∈ ffs, ff.who ≠ .frag t)) := by
  unfold terminate at h
  simp only at h
  by_cases hnull : ∀ tm, (H i).terms.get? none = some tm → tm.isNull = true
  case neg =>
    push Not at hnull
    obtain ⟨tm, h1, h2⟩ := hnull
    simp [h1, h2] at h
  case pos =>
    have hc : ¬ ((match (H i).terms.get? none with
        | some t => !t.isNull
        | none => false) = true) := by
      cases hg : (H i).terms.get? none with
      | none => simp
      | some tm => simp [hnull tm hg]
    rw [if_neg (by exact hc), if_neg hji] at h
    cases ht : top H fuel i with
    | error e => rw [ht] at h; cases h
    | ok t =>
      rw [ht] at h
      simp only at h
      by_cases hjt : j = t
      · rw [if_pos hjt] at h
        cases h
        exact ⟨t, rfl, hnull, .inl ⟨hjt, rfl⟩⟩
      · rw [if_neg hjt] at h
        cases hv : traverse E H .none false fuel j with
        | error e => rw [hv] at h; cases h
        | ok ffs =>
          rw [hv] at h
          simp only at h
          by_cases hany : (ffs.any fun ff => decide (ff.who = .frag t)) = true
          · rw [if_pos hany] at h; cases h
          · rw [if_neg hany] at h
            cases h
            refine ⟨t, rfl, hnull, .inr ⟨hjt, rfl, ffs, rfl, fun ff hff hw => hany ?_⟩⟩
            rw [List.any_eq_true]
            exact ⟨ff, hff, by simpa using hw⟩

section
variable {i j : ℕ} {tm : Term F}

theorem setTerm_other (tm : Term F) {x : ℕ} (hx : x ≠ i) : H.put i { H i with terms := (H i).terms.set none tm } x = H x := put_ne _ _ hx

theorem setTerm_parent (tm : Term F) (x : ℕ) : (H.put i { H i with terms := (H i).terms.set none tm } x).parent = (H x).parent := by
  by_cases hx : x = i
  · subst hx; rw [put_self]
  · rw [put_ne _ _ hx]

theorem setTerm_bg (tm : Term F) (x : ℕ) : (H.put i { H i with terms := (H i).terms.set none tm } x).bg = (H x).bg := by
  by_cases hx : x = i
  · subst hx; rw [put_self]
  · rw [put_ne _ _ hx]

theorem setTerm_bal (tm : Term F) (x : ℕ) : (H.put i { H i with terms := (H i).terms.set none tm } x).bal = (H x).bal := by
  by_cases hx : x = i
  · subst hx; rw [put_self]
  · rw [put_ne _ _ hx]

theorem setTerm_ev (tm : Term F) (x : ℕ) (obs : Bool) : exchangeValue (H.put i { H i with terms := (H i).terms.set none tm } x) .none obs = exchangeValue (H x) .none obs := by
  by_cases hx : x = i
  · subst hx; rw [put_self]; rfl
  · rw [put_ne _ _ hx]

theorem setTerm_term (tm : Term F) : termOf (H.put i { H i with terms := (H i).terms.set none tm } i) .none = .ok tm := by
  rw [put_self]
  simp [termOf]

end

/-- **C131** (a fault) terminating a flow to another flow of the same tree is not refused, unless that is the reference fragment; the tree cannot be traversed afterwards -/
theorem terminate_same_tree_loops (E : Env F Q) {fuel i j t : ℕ} (h : terminate E fuel H i j = .ok () H') (hji : j ≠ i) (hjt : j ≠ t) {n m : ℕ}
    (hti : top H n i = .ok t) (htj : top H m j = .ok t) (hbg : (H j).bg = false) (hp : LivePath H .none obs t i) (hl : Live H .none obs i) :
    ∀ fuel', ∃ e, traverse E H' .none obs fuel' t = .error e := by
  obtain ⟨t', h1, h2, h3⟩ := terminate_ok h hji
  have htt : t' = t := by
    rcases top_same hti _ h1 with h' | ⟨e, h'⟩ <;> cases h'
    rfl
  subst htt
  rcases h3 with ⟨h3, _⟩ | ⟨_, rfl, _⟩
  · exact absurd h3 hjt
  have hS : Stuck (H.put i { H i with terms := (H i).terms.set none { target := .frag j, flow := (H i).flow } }) .none obs (fun x => LivePath H .none obs x i ∧ Live H .none obs x) := by
    refine ⟨?_, ?_, ?_, ?_⟩
    · rintro x ⟨_, hx, _⟩; rw [setTerm_ev]; exact hx
    · rintro x ⟨_, _, hx, _⟩; rw [setTerm_bg]; exact hx
    · rintro x ⟨_, _, _, hx⟩; rw [setTerm_bal]; exact hx
    · rintro x ⟨hx, hlx⟩ tm htm
      by_cases hxi : x = i
      · subst hxi
        rw [setTerm_term] at htm
        cases htm
        refine .inr ⟨j, t', m, rfl, hji, by rw [setTerm_bg]; exact hbg, by rw [top_parents (setTerm_parent _)]; exact htj, hp, ?_⟩
        cases hp with
        | refl => exact hl
        | step c _ _ _ a1 a2 a3 a4 a5 a6 => exact ⟨a4, a5, a6⟩
      · rw [setTerm_other _ hxi] at htm ⊢
        cases hx with
        | refl => exact absurd rfl hxi
        | step _ c _ tm' a1 a2 a3 _ _ _ a7 =>
          rw [a1] at htm
          cases htm
          refine .inl ⟨a2, c, a3, a7, ?_⟩
          cases a7 with
          | refl => exact hl
          | step _ _ _ _ _ _ _ b4 b5 b6 _ => exact ⟨b4, b5, b6⟩
  intro fuel'
  refine traverse_stuck E hS t' ⟨hp, ?_⟩ fuel'
  cases hp with
  | refl => exact hl
  | step _ _ _ _ _ _ _ a4 a5 a6 _ => exact ⟨a4, a5, a6⟩

/-- **C131** (a fault) terminating a reference fragment t to a reference fragment j that uses t is not refused (if `terminate` returns, that is); neither can be traversed
afterwards -/
theorem terminate_reference_loops (E : Env F Q) {fuel t j b : ℕ} (h : terminate E fuel H t j = .ok () H') (hjt : j ≠ t) (hrt : (H t).parent = none) (hrj : (H j).parent = none)
    (hbgj : (H j).bg = false) (hlt : Live H .none obs t) (hbt : b ≠ t) (hp : LivePath H .none obs j b) (hlb : Live H .none obs b) {tm : Term F}
    (hb : termOf (H b) .none = .ok tm) (htm : tm.target = .frag t) : ∀ fuel', (∃ e, traverse E H' .none obs fuel' t = .error e) ∧ ∃ e, traverse E H' .none obs fuel' j = .error e := by
  obtain ⟨t', h1, h2, h3⟩ := terminate_ok h hjt
  have htt : t' = t := by
    rcases top_same (show top H 1 t = .ok t by simp [top, hrt]) _ h1 with h' | ⟨e, h'⟩ <;> cases h'
    rfl
  subst htt
  rcases h3 with ⟨h3, _⟩ | ⟨_, rfl, _⟩
  · exact absurd h3 hjt
  have hnull : ∀ tm, termOf (H t') .none = .ok tm → tm.isNull = true := by
    intro tm' h'
    unfold termOf at h'
    simp only at h'
    split at h'
    · rename_i hh; cases h'; exact h2 _ hh
    · cases h'
  have hlive : ∀ x, LivePath H .none obs x b → Live H .none obs x := by
    intro x hx
    cases hx with
    | refl => exact hlb
    | step _ _ _ _ _ _ _ a4 a5 a6 _ => exact ⟨a4, a5, a6⟩
  have hS : Stuck (H.put t' { H t' with terms := (H t').terms.set none { target := .frag j, flow := (H t').flow } }) .none obs (fun x => x = t' ∨ LivePath H .none obs x b) := by
    have hl : ∀ x, (x = t' ∨ LivePath H .none obs x b) → Live H .none obs x := by
      rintro x (rfl | hx)
      · exact hlt
      · exact hlive x hx
    refine ⟨?_, ?_, ?_, ?_⟩
    · intro x hx; rw [setTerm_ev]; exact (hl x hx).1
    · intro x hx; rw [setTerm_bg]; exact (hl x hx).2.1
    · intro x hx; rw [setTerm_bal]; exact (hl x hx).2.2
    · intro x hx tm' htm'
      by_cases hxt : x = t'
      · subst hxt
        rw [setTerm_term] at htm'
        cases htm'
        refine .inr ⟨j, j, 1, rfl, hjt, by rw [setTerm_bg]; exact hbgj, ?_, .inr hp⟩
        rw [top_parents (setTerm_parent _)]
        simp [top, hrj]
      · rw [setTerm_other _ hxt] at htm' ⊢
        rcases hx with hx | hx
        · exact absurd hx hxt
        · cases hx with
          | refl =>
            rw [hb] at htm'
            cases htm'
            refine .inr ⟨t', t', 1, htm, Ne.symm hbt, by rw [setTerm_bg]; exact hlt.2.1, ?_, .inl rfl⟩
            rw [top_parents (setTerm_parent _)]
            simp [top, hrt]
          | step _ c _ tm2 a1 a2 a3 _ _ _ a7 =>
            rw [a1] at htm'
            cases htm'
            exact .inl ⟨a2, c, a3, .inr a7⟩
  intro fuel'
  exact ⟨traverse_stuck E hS t' (.inl rfl) fuel', traverse_stuck E hS j (.inr hp) fuel'⟩

/-! ### loops that it finds -/

/-- the heaps differ in the terminations of i only -/
structure Term1 (H H' : Heap F Q) (i : ℕ) : Prop where
  other : ∀ x, x ≠ i → H' x = H x
  parent : ∀ x, (H' x).parent = (H x).parent
  bal : ∀ x, (H' x).bal = (H x).bal
  bg : ∀ x, (H' x).bg = (H x).bg

theorem top_is_ref {n x r : ℕ} (h : top H n x = .ok r) : (H r).parent = none := by
  induction n generalizing x with
  | zero => cases h
  | succ n ih =>
    rw [top] at h
    cases hp : (H x).parent with
    | none => rw [hp] at h; cases h; exact hp
    | some p => rw [hp] at h; exact ih h

theorem groupIos_internal {p : ℕ} {f : F} {d : Dir} {ffs inv internal : List (FF F)} {b : Bool} (h : groupIos p f d ffs b = .ok (inv, internal)) :
    internal = ffs.filter fun f => !f.term.isNull := by
  unfold groupIos at h
  simp only at h
  split at h
  · cases h; rfl
  · split at h
    · cases h
    · split at h
      · split at h
        · split at h <;> cases h <;> rfl
        · cases h
      · cases h; rfl

theorem fgLoop_keep {visit visit' : ℕ → Res F} {N : List (FF F) → Prop} (hN : ∀ l l', N (l ++ l') → N l ∧ N l') : ∀ (cs : List ℕ) (s : ℚ) (r : List (FF F) × ℚ × Option ℕ),
    fgLoop visit cs s = .ok r → N r.1 → (∀ c ∈ cs, ∀ l cv, visit c = .ok (l, cv) → N l → visit' c = .ok (l, cv)) →
    (∀ c ∈ cs, visit c = .error .foundBalance → visit' c = .error .foundBalance) → fgLoop visit' cs s = .ok r := by
  intro cs
  induction cs with
  | nil => intro s r h _ _ _; exact h
  | cons c cs ih =>
    intro s r h hr h1 h2
    rw [fgLoop] at h ⊢
    cases hv : visit c with
    | ok q =>
      obtain ⟨l, cv⟩ := q
      rw [hv] at h
      simp only at h
      cases hl : fgLoop visit cs (s + cv.getD 0) with
      | error e => rw [hl] at h; cases h
      | ok q' =>
        rw [hl] at h
        simp only [Except.ok.injEq] at h
        subst h
        obtain ⟨n1, n2⟩ := hN _ _ hr
        rw [h1 c (by simp) l cv hv n1]
        simp only
        rw [ih _ q' hl n2 (fun d hd => h1 d (by simp [hd])) (fun d hd => h2 d (by simp [hd]))]
    | error e =>
      by_cases he : e = .foundBalance
      · subst he
        rw [hv] at h
        simp only at h
        cases hl : fgLoop visit cs s with
        | error e => rw [hl] at h; cases h
        | ok q' =>
          rw [hl] at h
          simp only [Except.ok.injEq] at h
          subst h
          rw [h2 c (by simp) hv]
          simp only
          rw [ih _ q' hl hr (fun d hd => h1 d (by simp [hd])) (fun d hd => h2 d (by simp [hd]))]
      · rw [hv] at h
        cases e <;> first | exact absurd rfl he | simp at h

theorem subLoop_keep {visit visit' : ℕ → ℚ → Res F} {N : List (FF F) → Prop} (hN : ∀ l l', N (l ++ l') → N l ∧ N l') : ∀ (cs : List ℕ) (inv : List (FF F)) (r : List (FF F) × List (FF F)),
    subLoop H visit cs inv = .ok r → N r.1 → (∀ c ∈ cs, H' c = H c) → (∀ c ∈ cs, ∀ ev l cv, visit c ev = .ok (l, cv) → N l → visit' c ev = .ok (l, cv)) →
    subLoop H' visit' cs inv = .ok r := by
  intro cs
  induction cs with
  | nil => intro inv r h _ _ _; exact h
  | cons c cs ih =>
    intro inv r h hr hH h1
    rw [subLoop] at h ⊢
    rw [hH c (by simp)]
    cases hf : inv.find? fun m => decide (m.flow = (H c).flow) with
    | none =>
      rw [hf] at h
      exact ih inv r h hr (fun d hd => hH d (by simp [hd])) (fun d hd => h1 d (by simp [hd]))
    | some m =>
      rw [hf] at h
      simp only at h ⊢
      cases hv : visit c (if m.dir = (H c).dir then m.mag else -m.mag) with
      | error e => rw [hv] at h; cases h
      | ok q =>
        obtain ⟨l, cv⟩ := q
        rw [hv] at h
        simp only at h
        cases hl : subLoop H visit cs (inv.eraseP fun m => decide (m.flow = (H c).flow)) with
        | error e => rw [hl] at h; cases h
        | ok q' =>
          rw [hl] at h
          simp only [Except.ok.injEq] at h
          subst h
          obtain ⟨n1, n2⟩ := hN _ _ hr
          rw [h1 c (by simp) _ l cv hv n1]
          simp only
          rw [ih _ q' hl n2 (fun d hd => hH d (by simp [hd])) (fun d hd => h1 d (by simp [hd]))]

/-- a traversal that does not list t, the reference fragment above i, does not come to i -/
theorem travNode_keep (E : Env F Q) {i t : ℕ} (hT : Term1 H H' i) (hpar : ∀ x c, c ∈ (H x).kids → (H c).parent = some x)
    (hdesc : ∀ x tm, termOf (H x) sc = .ok tm → tm.descend = true) (hbgi : (H i).bg = false) (hit : i ≠ t) {n : ℕ} (hti : top H n i = .ok t) (htr : (H t).parent = none) :
    ∀ (fuel : ℕ) (seen : List ℕ) (x : ℕ), (x = t ∨ ∃ m r, top H m x = .ok r ∧ r ≠ t) → ∀ (up : ℚ) (cq : Option Q) (bal : Option ℚ) (l : List (FF F)) (cv : Option ℚ),
    travNode E H sc obs fuel seen x up cq bal = .ok (l, cv) → (∀ ff ∈ l, ff.who = .frag t → ff.term.isNull = true) → travNode E H' sc obs fuel seen x up cq bal = .ok (l, cv) := by
  have hkid : ∀ x c m r, top H m x = .ok r → c ∈ (H x).kids → top H (m + 1) c = .ok r := by
    intro x c m r h hc
    rw [top, hpar x c hc]; exact h
  have hne : ∀ x, (x = t ∨ ∃ m r, top H m x = .ok r ∧ r ≠ t) → x ≠ i := by
    rintro x (rfl | ⟨m, r, h1, h2⟩) rfl
    · exact hit rfl
    · rcases top_same hti _ h1 with h' | ⟨e, h'⟩ <;> cases h'
      exact h2 rfl
  have henter : ∀ seen x up cq bal, x ≠ i → enter E H' sc obs seen x up cq bal = enter E H sc obs seen x up cq bal := by
    intro seen x up cq bal hx
    have hc : ∀ nd ev cq, conserved E H' nd ev cq = conserved E H nd ev cq := by
      intro nd ev cq
      unfold conserved
      simp only [hT.bal]
    simp only [enter, hT.other x hx, hc]
  intro fuel
  induction fuel with
  | zero => intro seen x _ up cq bal l cv h; cases h
  | succ fuel ih =>
    intro seen x hx up cq bal l cv h hN
    have hxi := hne x hx
    rw [travNode] at h ⊢
    rw [henter seen x up cq bal hxi, hT.other x hxi]
    cases hen : enter E H sc obs seen x up cq bal with
    | error e => rw [hen] at h; cases h
    | ok r =>
      obtain ⟨ff, cv'⟩ := r
      rw [hen] at h
      simp only at h ⊢
      split at h
      · rename_i hleaf
        rw [if_pos hleaf]; exact h
      · rename_i hleaf
        rw [if_neg hleaf]
        generalize (if (H x).parent = none then x :: seen else seen) = s at h ⊢
        have hterm := enter_term hen
        obtain ⟨_, _, hwho, _⟩ := enter_ok hen
        have hnn : ff.term.isNull = false := by
          cases hh : ff.term.isNull with
          | false => rfl
          | true => exact absurd (.inl hh) hleaf
        cases hex : expand E H sc obs (top H fuel) (travNode E H sc obs fuel) s x ff with
        | error e => rw [hex] at h; cases h
        | ok l' =>
          rw [hex] at h
          simp only [Except.ok.injEq, Prod.mk.injEq] at h
          obtain ⟨rfl, rfl⟩ := h
          suffices hgoal : expand E H' sc obs (top H' fuel) (travNode E H' sc obs fuel) s x ff = .ok l' by rw [hgoal]
          -- the fragment's own flow is listed, so it is not t
          have hown : ff ∈ l' → ∃ m r, top H m x = .ok r ∧ r ≠ t := by
            intro hm
            rcases hx with rfl | hx
            · have := hN ff hm hwho
              rw [hnn] at this; cases this
            · exact hx
          have hNapp : ∀ a b : List (FF F), (∀ ff ∈ a ++ b, ff.who = .frag t → ff.term.isNull = true) →
              (∀ ff ∈ a, ff.who = .frag t → ff.term.isNull = true) ∧ (∀ ff ∈ b, ff.who = .frag t → ff.term.isNull = true) :=
            fun a b hab => ⟨fun f hf => hab f (by simp [hf]), fun f hf => hab f (by simp [hf])⟩
          have hfg : ∀ b, fgFrom E H sc obs (travNode E H sc obs fuel) s x ff b = .ok l' → fgFrom E H' sc obs (travNode E H' sc obs fuel) s x ff b = .ok l' := by
            intro b hb
            unfold fgFrom at hb ⊢
            rw [hT.other x hxi]
            cases hs : stock0 (H x) sc obs b with
            | error e => rw [hs] at hb; cases hb
            | ok st =>
              rw [hs] at hb
              simp only at hb ⊢
              have hin : ff ∈ l' := by
                unfold fgNode at hb
                simp only at hb
                split at hb
                · cases hb
                · cases hb; simp
                · split at hb
                  · cases hb
                  · cases hb; simp
              obtain ⟨m, r, hr1, hr2⟩ := hown hin
              have hck : ∀ c ∈ children (H x), ∃ m r, top H m c = .ok r ∧ r ≠ t :=
                fun c hc => ⟨m + 1, r, hkid x c m r hr1 ((mem_children _ _).1 hc), hr2⟩
              unfold fgNode at hb ⊢
              rw [hT.other x hxi]
              simp only at hb ⊢
              cases hl : fgLoop (fun c => travNode E H sc obs fuel s c ff.nw (H x).cons none) (children (H x)) (inbound E (H x) st) with
              | error e => rw [hl] at hb; cases hb
              | ok q =>
                obtain ⟨lq, sq, oq⟩ := q
                rw [hl] at hb
                have hlN : (∀ f ∈ lq, f.who = .frag t → f.term.isNull = true) := by
                  cases oq with
                  | none => cases hb; exact fun f hf => hN f (by simp [hf])
                  | some b' =>
                    simp only at hb
                    split at hb
                    · cases hb
                    · cases hb; exact fun f hf => hN f (by simp [hf])
                have hkeep := fgLoop_keep (visit' := fun c => travNode E H' sc obs fuel s c ff.nw (H x).cons none) hNapp _ _ _ hl hlN
                  (fun c hc l0 cv0 h0 hn0 => ih s c (.inr (hck c hc)) _ _ _ _ _ h0 hn0)
                  (fun c hc h0 => by
                    obtain ⟨k1, k2⟩ := trav_foundBalance h0
                    have hci := hne c (.inr (hck c hc))
                    cases fuel with
                    | zero => cases h0
                    | succ fuel =>
                      rw [travNode] at h0 ⊢
                      rw [henter s c _ _ _ hci]
                      cases hec : enter E H sc obs s c ff.nw (H x).cons none with
                      | error e => rw [hec] at h0; exact h0
                      | ok q =>
                        obtain ⟨qq, hqq⟩ := Option.ne_none_iff_exists'.1 k1
                        have := ((enter_ok (show enter E H sc obs s c ff.nw (H x).cons none = .ok (q.1, q.2) from hec)).choose_spec.2.2.2.2.2 qq hqq).1
                        rw [k2] at this; cases this)
                rw [hkeep]
                cases oq with
                | none => exact hb
                | some b' =>
                  have hbm := fgLoop_mem _ _ _ _ _ _ hl
                  simp only at hb ⊢
                  rw [hT.other b' (hne b' (.inr (hck b' hbm)))]
                  cases hv : travNode E H sc obs fuel s b' ff.nw none (some (if (H b').dir = .input then -sq else sq)) with
                  | error e => rw [hv] at hb; cases hb
                  | ok q =>
                    obtain ⟨l2, cv2⟩ := q
                    rw [hv] at hb
                    simp only at hb
                    cases hb
                    rw [ih s b' (.inr (hck b' hbm)) _ _ _ _ _ hv (fun f hf => hN f (by simp [hf]))]
          unfold expand at hex ⊢
          cases htt : ff.term.target with
          | null => rw [htt] at hex; exact hex
          | process => rw [htt] at hex; exact hfg _ hex
          | frag j =>
            rw [htt] at hex
            simp only at hex ⊢
            by_cases hjx : j = x
            · rw [if_pos hjx] at hex ⊢; exact hfg _ hex
            · rw [if_neg hjx] at hex ⊢
              by_cases hbg : (H j).bg = true
              · have hji : j ≠ i := by rintro rfl; rw [hbgi] at hbg; cases hbg
                rw [if_pos hbg] at hex
                rw [hT.other j hji, if_pos hbg, hT.other x hxi]
                have hsame : travNode E H' sc obs fuel [] j ff.nw none none = travNode E H sc obs fuel [] j ff.nw none none := by
                  cases fuel with
                  | zero => rfl
                  | succ fuel =>
                    rw [travNode, travNode, henter [] j _ _ _ hji, hT.other j hji]
                    cases enter E H sc obs [] j ff.nw none none with
                    | error e => rfl
                    | ok q =>
                      simp only
                      rw [if_pos (.inr (.inl hbg)), if_pos (.inr (.inl hbg))]
                rw [hsame]; exact hex
              · rw [if_neg hbg] at hex
                rw [if_neg (by rw [hT.bg]; exact hbg), top_parents hT.parent]
                cases htop : top H fuel j with
                | error e => rw [htop] at hex; cases hex
                | ok t1 =>
                  rw [htop] at hex
                  simp only at hex ⊢
                  have hr1 := top_is_ref htop
                  have ht1 : t1 = t ∨ ∃ m r, top H m t1 = .ok r ∧ r ≠ t := by
                    by_cases hh : t1 = t
                    · exact .inl hh
                    · exact .inr ⟨1, t1, by simp [top, hr1], hh⟩
                  cases hv : travNode E H sc obs fuel [] t1 1 none none with
                  | error e => rw [hv] at hex; cases hex
                  | ok q =>
                    obtain ⟨ffs, cv1⟩ := q
                    rw [hv] at hex
                    simp only at hex
                    cases hg : groupIos j (H t1).flow (H t1).dir ffs true with
                    | error e => rw [hg] at hex; cases hex
                    | ok g =>
                      obtain ⟨inv, internal⟩ := g
                      rw [hg] at hex
                      simp only at hex
                      have hint := groupIos_internal hg
                      have hdx := hdesc x ff.term hterm
                      unfold subNode at hex
                      simp only at hex
                      cases hf : inv.find? fun m => decide (m.flow = ff.term.flow) with
                      | none => rw [hf] at hex; cases hex
                      | some m =>
                        rw [hf] at hex
                        simp only at hex
                        by_cases hm0 : m.mag = 0
                        · rw [if_pos hm0] at hex; cases hex
                        rw [if_neg hm0] at hex
                        simp only [hdx, if_true] at hex
                        generalize hdnw : (ff.nw / if m.dir = (H x).dir then -m.mag else m.mag) = dnw at hex
                        cases hl : subLoop H (fun c ev => travNode E H sc obs fuel s c dnw none (some ev)) (children (H x))
                            (inv.eraseP fun m => decide (m.flow = ff.term.flow)) with
                        | error e => rw [hl] at hex; cases hex
                        | ok q =>
                          obtain ⟨l1, rest⟩ := q
                          rw [hl] at hex
                          simp only [Except.ok.injEq] at hex
                          have hNs : ∀ f ∈ ffs, f.who = .frag t → f.term.isNull = true := by
                            intro f hf' hw
                            cases hfn : f.term.isNull with
                            | true => rfl
                            | false =>
                              have hin : f ∈ internal := by rw [hint]; exact List.mem_filter.2 ⟨hf', by simp [hfn]⟩
                              have := hN (f.scale dnw) (by rw [← hex]; simp only [List.cons_append, List.mem_cons, List.mem_append, List.mem_map]; exact .inr (.inl (.inl ⟨f, hin, rfl⟩))) hw
                              exact absurd (show f.term.isNull = true from this) (by rw [hfn]; simp)
                          rw [ih [] t1 ht1 _ _ _ _ _ hv hNs, hT.other t1 (hne t1 ht1)]
                          simp only [hg]
                          obtain ⟨mm, r, hr2, hr3⟩ := hown (by rw [← hex]; simp)
                          have hck : ∀ c ∈ children (H x), ∃ m r, top H m c = .ok r ∧ r ≠ t :=
                            fun c hc => ⟨mm + 1, r, hkid x c mm r hr2 ((mem_children _ _).1 hc), hr3⟩
                          have hkeep := subLoop_keep (H := H) (H' := H') (visit' := fun c ev => travNode E H' sc obs fuel s c dnw none (some ev)) hNapp _ _ _ hl
                            (fun f hf' => hN f (by rw [← hex]; simp [hf'])) (fun c hc => hT.other c (hne c (.inr (hck c hc))))
                            (fun c hc ev l0 cv0 h0 hn0 => ih s c (.inr (hck c hc)) _ _ _ _ _ h0 hn0)
                          unfold subNode
                          simp only [hf, if_neg hm0, hdx, if_true, hT.other x hxi, hdnw, hkeep]
                          rw [hex]

/-- **C131** what the check achieves: if every termination shows the flows of its subfragment, and a flow inside a fragment is terminated to a reference fragment, then
that can still be traversed, with the same result -/
theorem terminate_keeps_traversal_partial (E : Env F Q) {fuel i j : ℕ} (h : terminate E fuel H i j = .ok () H') (hji : j ≠ i) (hpar : ∀ x c, c ∈ (H x).kids → (H c).parent = some x)
    (hdesc : ∀ x tm, termOf (H x) .none = .ok tm → tm.descend = true) (hbg : (H i).bg = false) (hi : (H i).parent ≠ none) (hj : (H j).parent = none)
    (hjt : top H fuel i ≠ .ok j) : ∃ ffs, traverse E H .none false fuel j = .ok ffs ∧ traverse E H' .none false fuel j = .ok ffs := by
  obtain ⟨t, h1, _, h3⟩ := terminate_ok h hji
  rcases h3 with ⟨h3, _⟩ | ⟨h3, rfl, ffs, h4, h5⟩
  · rw [h3] at hjt; exact absurd h1 hjt
  · refine ⟨ffs, h4, ?_⟩
    rw [traverse] at h4 ⊢
    cases hv : travNode E H .none false fuel [] j 1 none none with
    | error e => rw [hv] at h4; cases h4
    | ok q =>
      obtain ⟨l, cv⟩ := q
      rw [hv] at h4
      cases h4
      have htr := top_is_ref h1
      have hit : i ≠ t := by rintro rfl; exact hi htr
      rw [travNode_keep E ⟨fun x hx => setTerm_other _ hx, setTerm_parent _, setTerm_bal _, setTerm_bg _⟩ hpar hdesc hbg hit h1 htr fuel [] j
        (.inr ⟨1, j, by simp [top, hj], h3⟩) _ _ _ _ _ hv (fun f hf hw => absurd hw (h5 f hf))]
      rfl

end Frg
