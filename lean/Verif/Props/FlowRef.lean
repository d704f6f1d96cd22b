import Verif.Model.FlowRef
import Verif.Props.FlowJson

/-!
C107: the factors that a flow reference reports.
-/

namespace FlowRef
open Flo (Loc Err Val Arg)
variable {Q : Type} [DecidableEq Q]

/-! ### specification

The database's answer is `Flo.cf f q l`, for the flow `f` behind the reference. -/

/-- a location; 'quantity' and 'flow' are not -/
def Place (l : Loc) : Prop := l ≠ .quantity ∧ l ≠ .flow

/-- all calls of `cf` for a quantity use one location -/
def OneLocale (loc : Q → Loc) (ops : List (Op Q)) : Prop := ∀ q l, Op.cf q l ∈ ops → l = loc q

/-! ### proofs -/

theorem getItem_single {l : Loc} (hl : Place l) (v : ℚ) : Flo.Char.getItem [(l, v)] l = .num v := by
  obtain ⟨h1, h2⟩ := hl
  unfold Flo.Char.getItem
  cases l <;> simp_all [Dict.get?]

theorem getItem_elsewhere {l l' : Loc} (hl : Place l') (hne : l' ≠ l) (v : ℚ) :
    Flo.Char.getItem [(l, v)] l' = .num (if l = .glo then v else 0) := by
  obtain ⟨h1, h2⟩ := hl
  unfold Flo.Char.getItem
  by_cases hg : l = .glo
  · subst hg
    cases l' <;> simp_all [Dict.get?]
  · cases l' with
    | quantity => exact absurd rfl h1
    | flow => exact absurd rfl h2
    | glo => simp [Dict.get?, hg]
    | other s => simp [Dict.get?, hg, hne.symm]

theorem add_new_num {q : Q} {st : State Q} (h : st.chars.get? q = none) (v : ℚ) (l : Loc) :
    add q (.num v) (some l) st = .ok () { st with chars := st.chars.set q [(l, v)] } := by
  unfold add
  rw [h]
  rfl

theorem add_new_none {q : Q} {st : State Q} (h : st.chars.get? q = none) (l : Option Loc) :
    add q .none l st = .ok () { st with chars := st.chars.set q [] } := by
  unfold add; rw [h]

theorem add_new_dict {q : Q} {st : State Q} (h : st.chars.get? q = none) {c : Flo.Char} (hc : (Dict.keys c).Nodup) (l : Option Loc) :
    add q (.dict c) l st = .ok () { st with chars := st.chars.set q c } := by
  unfold add
  rw [h]
  show Out.ok () { st with chars := st.chars.set q (Flo.Char.update [] c) } = _
  rw [Flo.update_nil c hc]

theorem new_eq (r : Q) : new r = { chars := [(r, [(.glo, 1)])] } := rfl

theorem fetch_spec (l : List (Q × Flo.Char)) : ∀ (st : State Q), (l.map Prod.fst).Nodup → (∀ qc ∈ l, (Dict.keys qc.2).Nodup) →
    ∃ out st', fetch l st = .ok out st' ∧ st'.fetched = st.fetched ∧
      ∀ q, st'.chars.get? q = (st.chars.get? q).or (Dict.get? l q) := by
  induction l with
  | nil => intro st _ _; exact ⟨[], st, rfl, rfl, fun q => by simp [Dict.get?]⟩
  | cons qc l ih =>
    obtain ⟨q, c⟩ := qc
    intro st hn hc
    have hn' := List.nodup_cons.1 hn
    rw [fetch]
    by_cases hh : st.chars.has q = true
    · rw [if_pos hh]
      obtain ⟨out, st', h1, h2, h3⟩ := ih st hn'.2 fun qc h => hc qc (List.mem_cons_of_mem _ h)
      refine ⟨out, st', h1, h2, ?_⟩
      intro q'
      rw [h3 q', Dict.get?]
      split
      · rename_i he
        subst he
        obtain ⟨v, hv⟩ := (Dict.mem_keys_iff _ _).1 ((Dict.has_iff _ _).1 hh)
        rw [hv]; rfl
      · rfl
    · rw [if_neg hh]
      have hnone : st.chars.get? q = none := by
        rw [← Dict.not_mem_keys_iff, ← Dict.has_iff]; exact hh
      rw [add_new_dict hnone (hc _ List.mem_cons_self)]
      simp only [Out.bind]
      obtain ⟨out, st', h1, h2, h3⟩ := ih { st with chars := st.chars.set q c } hn'.2 fun qc h => hc qc (List.mem_cons_of_mem _ h)
      rw [h1]
      refine ⟨(q, c) :: out, st', rfl, h2, ?_⟩
      intro q'
      rw [h3 q']
      by_cases he : q = q'
      · subst he
        rw [show Dict.get? (Dict.set st.chars q c) q = some c from Dict.get?_set_self _ _ _, hnone]
        simp [Dict.get?]
      · rw [show Dict.get? (Dict.set st.chars q c) q' = st.chars.get? q' from Dict.get?_set_ne _ _ he]
        simp [Dict.get?, he]

theorem profile_spec {f : Flo.State Q} (hf : Flo.Reach f) (st : State Q) :
    (profile (some f) st).error? = none ∧
      (st.fetched = true → (profile (some f) st).state = st) ∧
      (st.fetched = false → ∀ q, (profile (some f) st).state.chars.get? q = (st.chars.get? q).or (f.chars.get? q)) := by
  obtain ⟨hI, hn⟩ := Flo.reach_inv hf
  unfold profile
  cases h : st.fetched with
  | true => exact ⟨rfl, fun _ => rfl, nofun⟩
  | false =>
    obtain ⟨out, st', h1, h2, h3⟩ := fetch_spec f.chars st hn
      (fun qc hqc => hI qc.1 qc.2 (Dict.get?_eq_some_of_mem _ hn hqc))
    simp only [Bool.false_eq_true, if_false, h1, Out.bind]
    exact ⟨rfl, nofun, fun _ => h3⟩

/-- the answer to `cf`, and what is stored -/
theorem cf_spec (f : Flo.State Q) (q : Q) (l : Loc) (st : State Q) :
    ∃ st', cf (some f) q l st = .ok (match st.chars.get? q with | some c => c.getItem l | none => Flo.cf f q l) st' ∧
      st'.fetched = st.fetched ∧
      ∀ q' c, st'.chars.get? q' = some c → st.chars.get? q' = some c ∨ (q' = q ∧ st.chars.get? q = none ∧
        ((∃ v, Flo.cf f q l = .num v ∧ c = [(l, v)]) ∨ (Flo.cf f q l = .none ∧ c = []))) := by
  unfold cf
  cases h : st.chars.get? q with
  | some c => exact ⟨st, rfl, rfl, fun q' c h => .inl h⟩
  | none =>
    simp only
    cases hv : Flo.cf f q l with
    | num v =>
      simp only [add_new_num h, Out.bind]
      refine ⟨_, rfl, rfl, ?_⟩
      intro q' c hc
      by_cases he : q = q'
      · subst he
        rw [show Dict.get? (Dict.set st.chars q [(l, v)]) q = some [(l, v)] from Dict.get?_set_self _ _ _] at hc
        cases hc
        exact .inr ⟨rfl, trivial, .inl ⟨v, rfl, rfl⟩⟩
      · rw [show Dict.get? (Dict.set st.chars q [(l, v)]) q' = st.chars.get? q' from Dict.get?_set_ne _ _ he] at hc
        exact .inl hc
    | none =>
      simp only [add_new_none h, Out.bind]
      refine ⟨_, rfl, rfl, ?_⟩
      intro q' c hc
      by_cases he : q = q'
      · subst he
        rw [show Dict.get? (Dict.set st.chars q []) q = some [] from Dict.get?_set_self _ _ _] at hc
        cases hc
        refine .inr ⟨rfl, trivial, .inr ⟨?_, rfl⟩⟩; first | rfl | trivial
      · rw [show Dict.get? (Dict.set st.chars q []) q' = st.chars.get? q' from Dict.get?_set_ne _ _ he] at hc
        exact .inl hc
    | entity => exact ⟨st, rfl, rfl, fun q' c h => .inl h⟩

/-- C107: as long as a reference is asked about each quantity for one location only, it answers what the database answers, whatever
was asked before. -/
theorem cf_one_locale_partial {f : Flo.State Q} (hf : Flo.Reach f) {r : Q} (hr : f.chars.get? r = some [(.glo, 1)])
    (loc : Q → Loc) (hloc : ∀ q, Place (loc q)) (ops : List (Op Q)) (hops : OneLocale loc ops) (q : Q) :
    (cf (some f) q (loc q) (run (some f) ops (new r))).value? = some (Flo.cf f q (loc q)) := by
  have inv : ∀ (ops : List (Op Q)) (st : State Q), OneLocale loc ops →
      (∀ q c, st.chars.get? q = some c → c.getItem (loc q) = Flo.cf f q (loc q)) →
      ∀ q c, (run (some f) ops st).chars.get? q = some c → c.getItem (loc q) = Flo.cf f q (loc q) := by
    intro ops
    induction ops with
    | nil => intro st _ h; exact h
    | cons op ops ih =>
      intro st ho h
      have : run (some f) (op :: ops) st = run (some f) ops (step (some f) op st) := rfl
      rw [this]
      refine ih _ (fun q l hm => ho q l (List.mem_cons_of_mem _ hm)) ?_
      cases op with
      | cf q' l =>
        have hl := ho q' l List.mem_cons_self
        subst hl
        obtain ⟨st', h1, -, h3⟩ := cf_spec f q' (loc q') st
        show ∀ q c, (cf (some f) q' (loc q') st).state.chars.get? q = some c → _
        rw [h1]
        intro q c hc
        rcases h3 q c hc with hc | ⟨rfl, -, ⟨v, hv, rfl⟩ | ⟨hv, rfl⟩⟩
        · exact h q c hc
        · rw [hv, getItem_single (hloc q)]
        · rw [hv]
          have := hloc q
          unfold Flo.Char.getItem
          cases hq : loc q with
          | quantity => exact absurd hq this.1
          | flow => exact absurd hq this.2
          | glo => rfl
          | other s => rfl
      | profile =>
        obtain ⟨-, h2, h3⟩ := profile_spec hf st
        intro q c hc
        have hc : (profile (some f) st).state.chars.get? q = some c := hc
        cases hfe : st.fetched with
        | true => rw [h2 hfe] at hc; exact h q c hc
        | false =>
          rw [h3 hfe q] at hc
          cases hq : st.chars.get? q with
          | some c' => rw [hq] at hc; cases hc; exact h q c hq
          | none =>
            rw [hq] at hc
            have hc : f.chars.get? q = some c := hc
            unfold Flo.cf
            rw [hc]
  have := inv ops (new r) hops (by
    intro q c hc
    rw [new_eq] at hc
    simp only [Dict.get?] at hc
    split at hc
    · rename_i he
      cases hc
      subst he
      unfold Flo.cf
      rw [hr]
    · cases hc)
  obtain ⟨st', h1, -, -⟩ := cf_spec f q (loc q) (run (some f) ops (new r))
  rw [h1]
  show some _ = some _
  congr 1
  cases hq : (run (some f) ops (new r)).chars.get? q with
  | none => rfl
  | some c => exact this q c hq

/-- C107: after its profile has been read, a new reference answers what the database answers, for every quantity and every location,
whatever is asked afterwards. -/
theorem cf_after_profile_partial {f : Flo.State Q} (hf : Flo.Reach f) {r : Q} (hr : f.chars.get? r = some [(.glo, 1)])
    (ops : List (Op Q)) (q : Q) {l : Loc} (hl : Place l) :
    (cf (some f) q l (run (some f) (.profile :: ops) (new r))).value? = some (Flo.cf f q l) := by
  have inv : ∀ (ops : List (Op Q)) (st : State Q),
      (∀ q c, f.chars.get? q = some c → st.chars.get? q = some c) →
      (∀ q c, f.chars.get? q = none → st.chars.get? q = some c → ∀ l, Place l → c.getItem l = .num 0) →
      (∀ q c, f.chars.get? q = some c → (run (some f) ops st).chars.get? q = some c) ∧
      (∀ q c, f.chars.get? q = none → (run (some f) ops st).chars.get? q = some c → ∀ l, Place l → c.getItem l = .num 0) := by
    intro ops
    induction ops with
    | nil => intro st h1 h2; exact ⟨h1, h2⟩
    | cons op ops ih =>
      intro st h1 h2
      have : run (some f) (op :: ops) st = run (some f) ops (step (some f) op st) := rfl
      rw [this]
      cases op with
      | cf q' l =>
        obtain ⟨st', hs, -, h3⟩ := cf_spec f q' l st
        have hst : step (some f) (.cf q' l) st = st' := by
          show (cf (some f) q' l st).state = st'
          rw [hs]; rfl
        rw [hst]
        refine ih _ ?_ ?_
        · intro q c hc
          -- nothing is lost
          have : ∀ q c, st.chars.get? q = some c → st'.chars.get? q = some c := by
            intro q c hc
            have hs' : (cf (some f) q' l st).state = st' := by rw [hs]; rfl
            rw [← hs']
            unfold cf
            cases hq' : st.chars.get? q' with
            | some c' => exact hc
            | none =>
              have hne : q' ≠ q := by rintro rfl; rw [hq'] at hc; cases hc
              simp only
              cases Flo.cf f q' l with
              | num v =>
                simp only [add_new_num hq', Out.bind, Out.state]
                rw [show Dict.get? (Dict.set st.chars q' [(l, v)]) q = st.chars.get? q from Dict.get?_set_ne _ _ hne]
                exact hc
              | none =>
                simp only [add_new_none hq', Out.bind, Out.state]
                rw [show Dict.get? (Dict.set st.chars q' []) q = st.chars.get? q from Dict.get?_set_ne _ _ hne]
                exact hc
              | entity => exact hc
          exact this q c (h1 q c hc)
        · intro q c hq hc l' hl'
          rcases h3 q c hc with hc | ⟨rfl, -, ⟨v, hv, rfl⟩ | ⟨hv, rfl⟩⟩
          · exact h2 q c hq hc l' hl'
          · have : v = 0 := by
              unfold Flo.cf at hv
              rw [hq] at hv
              cases hv; rfl
            subst this
            by_cases he : l' = l
            · subst he; exact getItem_single hl' 0
            · rw [getItem_elsewhere hl' he]; simp
          · unfold Flo.cf at hv
            rw [hq] at hv
            cases hv
      | profile =>
        obtain ⟨-, h3, h4⟩ := profile_spec hf st
        refine ih _ ?_ ?_
        · intro q c hc
          show (profile (some f) st).state.chars.get? q = some c
          cases hfe : st.fetched with
          | true => rw [h3 hfe]; exact h1 q c hc
          | false => rw [h4 hfe q, h1 q c hc]; rfl
        · intro q c hq hc
          have hc : (profile (some f) st).state.chars.get? q = some c := hc
          cases hfe : st.fetched with
          | true => rw [h3 hfe] at hc; exact h2 q c hq hc
          | false =>
            rw [h4 hfe q, hq, Option.or_none] at hc
            exact h2 q c hq hc
  obtain ⟨-, -, h4⟩ := profile_spec hf (new r)
  have h4 := h4 rfl
  obtain ⟨i1, i2⟩ := inv ops (profile (some f) (new r)).state
    (by
      intro q c hc
      rw [h4 q]
      rw [new_eq]
      simp only [Dict.get?]
      split
      · rename_i he
        subst he
        rw [hr] at hc
        cases hc; rfl
      · exact hc)
    (by
      intro q c hq hc
      rw [h4 q, hq, Option.or_none, new_eq] at hc
      simp only [Dict.get?] at hc
      split at hc
      · rename_i he
        subst he
        rw [hr] at hq; cases hq
      · cases hc)
  have hrun : run (some f) (.profile :: ops) (new r) = run (some f) ops (profile (some f) (new r)).state := rfl
  rw [hrun]
  obtain ⟨st', h1, -, -⟩ := cf_spec f q l (run (some f) ops (profile (some f) (new r)).state)
  rw [h1]
  show some _ = some _
  congr 1
  cases hq : f.chars.get? q with
  | some c =>
    rw [i1 q c hq]
    show c.getItem l = _
    unfold Flo.cf
    rw [hq]
  | none =>
    cases hc : (run (some f) ops (profile (some f) (new r)).state).chars.get? q with
    | none => rfl
    | some c =>
      show c.getItem l = _
      rw [i2 q c hq hc l hl]
      unfold Flo.cf
      rw [hq]

/-- the answer depends on what was asked before: if the first question about a quantity is for a region, the factor for every other
location, the global one included, is zero -/
theorem asked_elsewhere_zero (f : Flo.State Q) {r q : Q} (hq : q ≠ r) {l l' : Loc} (hl : l ≠ .glo) (hl' : Place l') (hne : l' ≠ l)
    {v : ℚ} (hv : Flo.cf f q l = .num v) :
    (cf (some f) q l' (run (some f) [.cf q l] (new r))).value? = some (.num 0) := by
  have hn : (new r).chars.get? q = none := by rw [new_eq]; simp [Dict.get?, hq.symm]
  have : run (some f) [.cf q l] (new r) = { new r with chars := (new r).chars.set q [(l, v)] } := by
    show (cf (some f) q l (new r)).state = _
    unfold cf
    rw [hn]
    simp only [hv, add_new_num hn, Out.bind, Out.state]
  rw [this]
  unfold cf
  rw [show Dict.get? ({ new r with chars := (new r).chars.set q [(l, v)] } : State Q).chars q = some [(l, v)] from
    Dict.get?_set_self _ _ _]
  show some (Flo.Char.getItem [(l, v)] l') = _
  rw [getItem_elsewhere hl' hne, if_neg hl]

/-- ... and if it is for the global factor, that is the factor reported for every region -/
theorem asked_global_first (f : Flo.State Q) {r q : Q} (hq : q ≠ r) {l : Loc} (hl : Place l)
    {v : ℚ} (hv : Flo.cf f q .glo = .num v) :
    (cf (some f) q l (run (some f) [.cf q .glo] (new r))).value? = some (.num v) := by
  have hn : (new r).chars.get? q = none := by rw [new_eq]; simp [Dict.get?, hq.symm]
  have : run (some f) [.cf q .glo] (new r) = { new r with chars := (new r).chars.set q [(.glo, v)] } := by
    show (cf (some f) q .glo (new r)).state = _
    unfold cf
    rw [hn]
    simp only [hv, add_new_num hn, Out.bind, Out.state]
  rw [this]
  unfold cf
  rw [show Dict.get? ({ new r with chars := (new r).chars.set q [(.glo, v)] } : State Q).chars q = some [(.glo, v)] from
    Dict.get?_set_self _ _ _]
  show some (Flo.Char.getItem [(.glo, v)] l) = _
  by_cases he : l = .glo
  · subst he; rw [getItem_single hl]
  · rw [getItem_elsewhere hl he, if_pos rfl]

/-! ### concrete cases -/

/-- reference quantity 0; quantity 1 with factor 2, and 4 in the US -/
def exDb : Flo.State ℕ := (Flo.step (.addChar 1 false (.num 4) false (some (.other "US")))
  (Flo.step (.addChar 1 false (.num 2) false none) (Flo.new (some 0) true)).2).2

example : Flo.Reach exDb := .call _ (.call _ (.new _ _))
example : exDb.chars.get? 0 = some [(.glo, 1)] := by decide +kernel
example : OneLocale (fun _ => .other "US") [.cf 1 (.other "US"), .profile, .cf 0 (.other "US"), .cf 7 (.other "US"), .cf (1 : ℕ) (.other "US")] := by
  intro q l h; simp at h; rcases h with h | h | h | h <;> exact h.2
example : (cf (some exDb) 1 (.other "US") (run (some exDb) [.cf 1 (.other "US"), .profile] (new 0))).value? = some (.num 4) ∧
    (cf (some exDb) 1 .glo (run (some exDb) [.profile, .cf 1 (.other "US")] (new 0))).value? = some (.num 2) := by decide +kernel

/-- the database has the global factor 2; asked for the US first, the reference says that it is zero -/
theorem cf_order_matters : Flo.Reach exDb ∧ Flo.cf exDb 1 .glo = .num 2 ∧
    (cf (some exDb) 1 .glo (run (some exDb) [] (new 0))).value? = some (.num 2) ∧
    (cf (some exDb) 1 .glo (run (some exDb) [.cf 1 (.other "US")] (new 0))).value? = some (.num 0) ∧
    (cf (some exDb) 1 (.other "US") (run (some exDb) [.cf 1 .glo] (new 0))).value? = some (.num 2) := by
  refine ⟨.call _ (.call _ (.new _ _)), ?_, ?_, ?_, ?_⟩ <;> decide +kernel

/-- a factor that could not be looked up once is zero ever after, even when a resource with the quantity interface is there -/
theorem cf_zero_sticks (f : Option (Flo.State Q)) {r q : Q} (hq : q ≠ r) :
    (cf f q .glo (cf none q .glo (new r)).state).value? = some (.num 0) := by
  have hn : (new r).chars.get? q = none := by rw [new_eq]; simp [Dict.get?, hq.symm]
  have : (cf none q .glo (new r)).state = { new r with chars := (new r).chars.set q [(.glo, 0)] } := by
    unfold cf
    rw [hn]
    simp only [add_new_num hn, Out.bind, Out.state]
  rw [this]
  unfold cf
  rw [show Dict.get? ({ new r with chars := (new r).chars.set q [(.glo, 0)] } : State Q).chars q = some [(.glo, 0)] from
    Dict.get?_set_self _ _ _]
  show some (Flo.Char.getItem [(.glo, 0)] .glo) = _
  rw [getItem_single ⟨by decide, by decide⟩]

end FlowRef
