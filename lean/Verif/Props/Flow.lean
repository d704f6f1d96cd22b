import Mathlib.Algebra.Field.Rat
import Mathlib.Tactic.Ring
import Mathlib.Tactic.FieldSimp
import Mathlib.Tactic.ByContra
import Verif.Model.Flow

/-!
Properties C26 (lookup of characterisation factors), C27 (changing the reference quantity) and C47 (unit conversion).
-/

set_option linter.unusedSectionVars false

namespace Flo
variable {Q : Type} [DecidableEq Q]

/-! ### specification -/

/-- the factor stored for a quantity and a location -/
def stored (st : State Q) (q : Q) (l : Loc) : Option ℚ := (st.chars.get? q).bind fun c => Dict.get? c l

/-- all states of a flow -/
inductive Reach : State Q → Prop
  | new (q : Option Q) (hasComp : Bool) : Reach (new q hasComp)
  | call (op : Op Q) {st : State Q} : Reach st → Reach (step op st).2

/-! ### C26: lookup -/

/-- C26: for every locale but the two strings 'quantity' and 'flow': the value of the locale if there is one, else the
'GLO' value if there is one, else 0 if there are values for other locations only, None for a characterisation
without values, and 0 if there is no characterisation. -/
theorem cf_lookup_partial (st : State Q) (q : Q) (l : Loc) (hl : l ≠ .quantity ∧ l ≠ .flow) :
    (∀ v, stored st q l = some v → cf st q l = .num v) ∧
    (∀ v, stored st q l = none → stored st q .glo = some v → cf st q l = .num v) ∧
    (stored st q l = none → stored st q .glo = none → (∃ l' v, stored st q l' = some v) → cf st q l = .num 0) ∧
    (st.chars.get? q ≠ none → (∀ l', stored st q l' = none) → cf st q l = .none) ∧
    (st.chars.get? q = none → cf st q l = .num 0) := by
  unfold stored cf
  cases hq : st.chars.get? q with
  | none => simp
  | some c =>
    have hgi : Char.getItem c l = match Dict.get? c l with
        | some v => .num v
        | none => if c.length = 0 then .none else
          match Dict.get? c .glo with
          | some v => .num v
          | none => .num 0 := by
      unfold Char.getItem
      cases l with
      | quantity => exact absurd rfl hl.1
      | flow => exact absurd rfl hl.2
      | glo => rfl
      | other n => rfl
    simp only [Option.bind_some, hgi]
    refine ⟨?_, ?_, ?_, ?_, ?_⟩
    · intro v hv; rw [hv]
    · intro v hv hg
      rw [hv, hg]
      have : c.length ≠ 0 := by intro h0; rw [List.length_eq_zero_iff.mp h0] at hg; simp [Dict.get?] at hg
      simp [this]
    · rintro hv hg ⟨l', v, hl'⟩
      rw [hv, hg]
      have : c.length ≠ 0 := by intro h0; rw [List.length_eq_zero_iff.mp h0] at hl'; simp [Dict.get?] at hl'
      simp [this]
    · intro _ hall
      rw [hall l]
      have : c = [] := by
        cases c with
        | nil => rfl
        | cons kv c => have := hall kv.1; simp [Dict.get?] at this
      simp [this]
    · simp

/-- C26 fails for the locales 'quantity' and 'flow': an entity object is returned, though a number is stored. -/
theorem cf_lookup_fails : ∃ st : State ℕ, Reach st ∧ stored st 0 .flow = some 5 ∧ cf st 0 .flow = .entity :=
  ⟨(step (.addChar 0 false (.num 5) false (some .flow)) (new (some 1) true)).2, .call _ (.new _ _),
    by decide +kernel, by decide +kernel⟩

-- the five cases all occur
example : cf (⟨[(0, [(.glo, 2), (.other "US", 3)]), (1, [(.other "US", 4)]), (2, [])], some 0, true⟩ : State ℕ) 0 (.other "US") = .num 3 ∧
    cf (⟨[(0, [(.glo, 2), (.other "US", 3)])], some 0, true⟩ : State ℕ) 0 (.other "DE") = .num 2 ∧
    cf (⟨[(1, [(.other "US", 4)])], some 0, true⟩ : State ℕ) 1 .glo = .num 0 ∧
    cf (⟨[(2, [])], some 0, true⟩ : State ℕ) 2 .glo = .none ∧
    cf (⟨[], some 0, true⟩ : State ℕ) 2 .glo = .num 0 := by decide +kernel

/-! ### scaling -/

theorem get?_scale (c : Char) (k : ℚ) (l : Loc) : Dict.get? (Char.scale c k) l = (Dict.get? c l).map (· * k) := by
  induction c with
  | nil => rfl
  | cons a c ih =>
    obtain ⟨l', v⟩ := a
    unfold Char.scale at *
    simp only [List.map_cons, Dict.get?]
    split
    · rfl
    · exact ih

/-- a looked-up factor after scaling -/
def Val.scale (k : ℚ) : Val → Val
  | .num v => .num (v * k)
  | v => v

theorem getItem_scale (c : Char) (k : ℚ) (l : Loc) : Char.getItem (Char.scale c k) l = (Char.getItem c l).scale k := by
  have hlen : (Char.scale c k).length = c.length := by simp [Char.scale]
  cases l with
  | quantity => rfl
  | flow => rfl
  | glo =>
    simp only [Char.getItem, get?_scale, hlen]
    cases Dict.get? c .glo with
    | some v => rfl
    | none => simp only [Option.map_none]; split <;> simp [Val.scale]
  | other n =>
    simp only [Char.getItem, get?_scale, hlen]
    cases Dict.get? c (.other n) with
    | some v => rfl
    | none =>
      simp only [Option.map_none]
      split
      · rfl
      · cases Dict.get? c .glo <;> simp [Val.scale]

theorem get?_mapVals {K V W : Type} [DecidableEq K] (d : Dict K V) (g : V → W) (k : K) :
    Dict.get? (d.map fun kx => (kx.1, g kx.2)) k = (Dict.get? d k).map g := by
  induction d with
  | nil => rfl
  | cons a d ih =>
    obtain ⟨k', v⟩ := a
    simp only [List.map_cons, Dict.get?]
    split
    · rfl
    · exact ih

/-- the state after rescaling everything -/
def rescaled (st : State Q) (k : ℚ) (q : Q) : State Q :=
  { st with chars := st.chars.map fun qc => (qc.1, Char.scale qc.2 k), ref := some q }

theorem cf_rescaled (st : State Q) (k : ℚ) (q q' : Q) (l : Loc) : cf (rescaled st k q) q' l = (cf st q' l).scale k := by
  unfold cf rescaled
  simp only
  rw [get?_mapVals st.chars (fun c => Char.scale c k)]
  cases st.chars.get? q' with
  | none => simp [Val.scale]
  | some c => exact getItem_scale c k l

theorem stored_rescaled (st : State Q) (k : ℚ) (q q' : Q) (l : Loc) :
    stored (rescaled st k q) q' l = (stored st q' l).map (· * k) := by
  unfold stored rescaled
  simp only
  rw [get?_mapVals st.chars (fun c => Char.scale c k)]
  cases st.chars.get? q' with
  | none => rfl
  | some c => exact get?_scale c k l

theorem ratio_scale {k : ℚ} (hk : k ≠ 0) (v : ℚ) (o i : Val) : ratio v (o.scale k) (i.scale k) = ratio v o i := by
  cases o <;> cases i <;> simp only [Val.scale, ratio]
  rename_i o i
  by_cases hi : i = 0
  · simp [hi]
  · rw [if_neg hi, if_neg (mul_ne_zero hi hk)]
    congr 1
    field_simp

theorem setReference_cases (q : Q) (st : State Q) :
    (∃ e, setReference q st = .err e st) ∨ (setReference q st = .ok () st ∧ st.ref = some q) ∨
    (∃ r inc, st.ref = some r ∧ r ≠ q ∧ inc ≠ 0 ∧ cf st q .glo = .num inc ∧
      setReference q st = .ok () (rescaled st (1 / inc) q)) ∨
    (st.ref = none ∧ setReference q st = .ok () { st with ref := some q }) := by
  unfold setReference
  cases hr : st.ref with
  | none => right; right; right; exact ⟨rfl, rfl⟩
  | some r =>
    simp only
    by_cases h1 : r = q
    · right; left; rw [if_pos h1, h1]; exact ⟨rfl, rfl⟩
    · rw [if_neg h1]
      split
      · left; exact ⟨_, rfl⟩
      · cases hcf : cf st q .glo with
        | none => left; exact ⟨_, rfl⟩
        | entity => left; exact ⟨_, rfl⟩
        | num inc =>
          simp only
          by_cases h0 : inc = 0
          · rw [if_pos h0]; left; exact ⟨_, rfl⟩
          · rw [if_neg h0]; right; right; left; exact ⟨r, inc, rfl, h1, h0, rfl, rfl⟩

/-! ### C27 -/

/-- C27: when a flow that has a reference quantity is given a new one by `flow['referenceQuantity'] = q`, every
conversion between two quantities, at every location, gives the same result as before (the same error if it
raises), and the new reference has the factor one. -/
theorem conversions_kept {q r : Q} {st st' : State Q} (hr : st.ref = some r) (h : setReference q st = .ok () st') :
    (∀ v a b l, convert st' v (some a) (some b) l = convert st v (some a) (some b) l) ∧ st'.ref = some q ∧
      (q ≠ r → cf st' q .glo = .num 1) := by
  rcases setReference_cases q st with ⟨e, he⟩ | ⟨h1, h2⟩ | ⟨r', inc, h1, h2, h3, h4, h5⟩ | ⟨h1, _⟩
  · rw [he] at h; simp at h
  · rw [h1] at h; cases h
    refine ⟨fun _ _ _ _ => rfl, h2, ?_⟩
    intro hne; rw [hr] at h2; cases h2; exact absurd rfl hne
  · rw [h5] at h; cases h
    refine ⟨?_, rfl, ?_⟩
    · intro v a b l
      unfold convert
      simp only [Option.some_or, cf_rescaled]
      exact ratio_scale (one_div_ne_zero h3) _ _ _
    · intro _
      rw [cf_rescaled, h4]
      simp only [Val.scale]
      congr 1
      field_simp
  · rw [hr] at h1; simp at h1

/-- a refused change of reference changes nothing -/
theorem setReference_err {q : Q} {st st' : State Q} {e : Err} (h : setReference q st = .err e st') : st' = st := by
  rcases setReference_cases q st with ⟨e, he⟩ | ⟨h1, h2⟩ | ⟨r', inc, h1, h2, h3, h4, h5⟩ | ⟨_, h1⟩
  · rw [he] at h; cases h; rfl
  · rw [h1] at h; cases h
  · rw [h5] at h; cases h
  · rw [h1] at h; cases h

/-- and it is not refused if the quantity has a nonzero 'GLO' factor and the flow a compartment -/
theorem setReference_succeeds {q r : Q} {st : State Q} (hr : st.ref = some r) (hc : st.hasComp = true) {inc : ℚ}
    (hq : stored st q .glo = some inc) (h0 : inc ≠ 0) : ∃ st', setReference q st = .ok () st' := by
  have hcf : cf st q .glo = .num inc := (cf_lookup_partial st q .glo (by simp)).1 inc hq
  unfold setReference
  simp only [hr, hc, hcf]
  split
  · exact ⟨_, rfl⟩
  · simp [h0]

theorem glo_of_cf {st : State Q} {q : Q} {inc : ℚ} (h : cf st q .glo = .num inc) (h0 : inc ≠ 0) :
    ∃ c, st.chars.get? q = some c ∧ Dict.get? c .glo = some inc := by
  unfold cf at h
  cases hq : st.chars.get? q with
  | none => rw [hq] at h; simp at h; exact absurd h.symm h0
  | some c =>
    rw [hq] at h
    refine ⟨c, rfl, ?_⟩
    simp only [Char.getItem] at h
    cases hg : Dict.get? c .glo with
    | some v => rw [hg] at h; simp at h; rw [h]
    | none =>
      rw [hg] at h
      simp only at h
      split at h
      · cases h
      · cases h; exact absurd rfl h0

/-- every location table has each location once -/
def Inv (st : State Q) : Prop := ∀ q c, st.chars.get? q = some c → (Dict.keys c).Nodup

theorem inv_set {st : State Q} (h : Inv st) (q : Q) {c : Char} (hc : (Dict.keys c).Nodup) :
    Inv { st with chars := st.chars.set q c } := by
  intro q' c' h'
  simp only [Dict.get?_set] at h'
  split at h'
  · cases h'; exact hc
  · exact h q' c' h'

theorem inv_getD {st : State Q} (h : Inv st) (q : Q) : (Dict.keys ((st.chars.get? q).getD [])).Nodup := by
  cases hq : st.chars.get? q with
  | none => simp [Dict.keys]
  | some c => exact h q c hq

theorem nodup_update (c : Char) (d : List (Loc × ℚ)) (h : (Dict.keys c).Nodup) : (Dict.keys (Char.update c d)).Nodup := by
  unfold Char.update
  induction d generalizing c with
  | nil => exact h
  | cons a d ih => exact ih _ (Dict.nodup_keys_set _ _ _ h)

theorem addValue_ok {c c' : Char} {v : ℚ} {l : Option Loc} {o : Bool} (h : Char.addValue c v l o = .ok c') :
    c' = Dict.set (if o && Dict.has c (l.getD .glo) then Dict.del c (l.getD .glo) else c) (l.getD .glo) v ∧
      (o = false → Dict.get? c (l.getD .glo) = none) := by
  have hdef : Char.addValue c v l o =
      Char.setItem (if o && Dict.has c (l.getD .glo) then Dict.del c (l.getD .glo) else c) (l.getD .glo) v := rfl
  rw [hdef] at h
  unfold Char.setItem at h
  by_cases hh : Dict.has (if (o && Dict.has c (l.getD .glo)) = true then Dict.del c (l.getD .glo) else c) (l.getD .glo) = true
  · rw [if_pos hh] at h; cases h
  · rw [if_neg hh] at h
    refine ⟨(Except.ok.inj h).symm, ?_⟩
    intro ho
    simp only [ho, Bool.false_and, Bool.false_eq_true, if_false] at hh
    by_contra hc
    obtain ⟨w, hw⟩ := Option.ne_none_iff_exists'.mp hc
    exact hh ((Dict.has_iff _ _).mpr ((Dict.mem_keys_iff _ _).mpr ⟨w, hw⟩))

theorem addValue_overwrite {c : Char} (hn : (Dict.keys c).Nodup) (v : ℚ) (l : Option Loc) :
    ∃ c', Char.addValue c v l true = .ok c' := by
  have hdef : Char.addValue c v l true =
      Char.setItem (if true && Dict.has c (l.getD .glo) then Dict.del c (l.getD .glo) else c) (l.getD .glo) v := rfl
  rw [hdef]
  unfold Char.setItem
  by_cases hh : Dict.has (if (true && Dict.has c (l.getD .glo)) = true then Dict.del c (l.getD .glo) else c) (l.getD .glo) = true
  · exfalso
    rw [Dict.has_iff, Dict.mem_keys_iff] at hh
    obtain ⟨w, hw⟩ := hh
    by_cases h2 : Dict.has c (l.getD .glo) = true
    · simp only [h2, Bool.and_self, if_true] at hw
      rw [Dict.get?_del _ hn, if_pos rfl] at hw; cases hw
    · simp only [Bool.true_and, if_neg h2] at hw
      exact h2 ((Dict.has_iff _ _).mpr ((Dict.mem_keys_iff _ _).mpr ⟨w, hw⟩))
  · rw [if_neg hh]; exact ⟨_, rfl⟩

theorem nodup_cond {c : Char} (h : (Dict.keys c).Nodup) (b : Bool) (l : Loc) :
    (Dict.keys (if b then Dict.del c l else c)).Nodup := by
  split
  · exact Dict.nodup_keys_del _ _ h
  · exact h

theorem inv_addFactor {st : State Q} (h : Inv st) (q : Q) (v : Arg) (o : Bool) (l : Option Loc) :
    Inv (addFactor q v o l st).state := by
  unfold addFactor
  have hd := inv_getD h q
  split
  · exact h
  · exact inv_set h q (by simp [Dict.keys])
  · exact inv_set h q (nodup_update _ _ hd)
  · split
    · rename_i c' hc'
      refine inv_set h q ?_
      rw [(addValue_ok hc').1]
      exact Dict.nodup_keys_set _ _ _ (nodup_cond hd _ _)
    · exact inv_set h q (nodup_cond hd _ _)

theorem inv_rescaled {st : State Q} (h : Inv st) (k : ℚ) (q : Q) : Inv (rescaled st k q) := by
  intro q' c' h'
  unfold rescaled at h'
  simp only at h'
  rw [get?_mapVals st.chars (fun c => Char.scale c k), Option.map_eq_some_iff] at h'
  obtain ⟨c, hc, rfl⟩ := h'
  have : Dict.keys (Char.scale c k) = Dict.keys c := by simp [Char.scale, Dict.keys]
  rw [this]; exact h q' c hc

theorem inv_setReference {st : State Q} (h : Inv st) (q : Q) : Inv (setReference q st).state := by
  rcases setReference_cases q st with ⟨e, he⟩ | ⟨h1, _⟩ | ⟨r', inc, _, _, _, _, h5⟩ | ⟨_, h1⟩
  · rw [he]; exact h
  · rw [h1]; exact h
  · rw [h5]; exact inv_rescaled h _ _
  · rw [h1]; exact h

theorem bind_state {σ ε α β : Type} (o : Out σ ε α) (f : α → σ → Out σ ε β) :
    (∃ e, o = .err e o.state ∧ (o.bind f) = .err e o.state) ∨ ∃ a, o = .ok a o.state ∧ o.bind f = f a o.state := by
  cases o with
  | ok a s => right; exact ⟨a, rfl, rfl⟩
  | err e s => left; exact ⟨e, rfl, rfl⟩

theorem inv_addChar {st : State Q} (h : Inv st) (q : Q) (r : Bool) (v : Arg) (o : Bool) (l : Option Loc) :
    Inv (addChar q r v o l st).state := by
  unfold addChar
  split
  · split
    · have hs := inv_setReference h q
      rcases bind_state (setReference q st) (fun _ st => addFactor q (.num 1) o l st) with ⟨e, _, he⟩ | ⟨_, _, he⟩
      · rw [he]; exact hs
      · rw [he]; exact inv_addFactor hs _ _ _ _
    · exact h
  · exact inv_addFactor h _ _ _ _

theorem inv_delChar {st : State Q} (hk : st.chars.keys.Nodup) (h : Inv st) (q : Q) : Inv (delChar q st).state := by
  unfold delChar
  split
  · exact h
  · split
    · intro q' c' h'
      simp only [Out.state, Dict.get?_del _ hk] at h'
      split at h'
      · cases h'
      · exact h q' c' h'
    · exact h

theorem keys_addFactor {st : State Q} (h : st.chars.keys.Nodup) (q : Q) (v : Arg) (o : Bool) (l : Option Loc) :
    (addFactor q v o l st).state.chars.keys.Nodup := by
  unfold addFactor
  split
  · exact h
  · exact Dict.nodup_keys_set _ _ _ h
  · exact Dict.nodup_keys_set _ _ _ h
  · split <;> exact Dict.nodup_keys_set _ _ _ h

theorem keys_setReference {st : State Q} (h : st.chars.keys.Nodup) (q : Q) :
    (setReference q st).state.chars.keys.Nodup := by
  rcases setReference_cases q st with ⟨e, he⟩ | ⟨h1, _⟩ | ⟨r', inc, _, _, _, _, h5⟩ | ⟨_, h1⟩
  · rw [he]; exact h
  · rw [h1]; exact h
  · rw [h5]
    have : (rescaled st (1 / inc) q).chars.keys = st.chars.keys := by simp [rescaled, Dict.keys]
    simp only [Out.state, this]; exact h
  · rw [h1]; exact h

theorem keys_addChar {st : State Q} (h : st.chars.keys.Nodup) (q : Q) (r : Bool) (v : Arg) (o : Bool)
    (l : Option Loc) : (addChar q r v o l st).state.chars.keys.Nodup := by
  unfold addChar
  split
  · split
    · have hs := keys_setReference h q
      rcases bind_state (setReference q st) (fun _ st => addFactor q (.num 1) o l st) with ⟨e, _, he⟩ | ⟨_, _, he⟩
      · rw [he]; exact hs
      · rw [he]; exact keys_addFactor hs _ _ _ _
    · exact h
  · exact keys_addFactor h _ _ _ _

theorem reach_inv {st : State Q} (h : Reach st) : Inv st ∧ st.chars.keys.Nodup := by
  induction h with
  | new q hc =>
    cases q with
    | none => exact ⟨by intro q c h; simp [new] at h, by simp [new, Dict.keys]⟩
    | some q =>
      have h0 : Inv ({ ref := some q, hasComp := hc } : State Q) := by intro q c h; simp at h
      exact ⟨inv_addChar h0 _ _ _ _ _, keys_addChar (by simp [Dict.keys]) _ _ _ _ _⟩
  | call op _ ih =>
    cases op with
    | addChar q r v o l => exact ⟨inv_addChar ih.1 _ _ _ _ _, keys_addChar ih.2 _ _ _ _ _⟩
    | setReference q => exact ⟨inv_setReference ih.1 _, keys_setReference ih.2 _⟩
    | delChar q =>
      refine ⟨inv_delChar ih.2 ih.1 q, ?_⟩
      show (delChar q _).state.chars.keys.Nodup
      unfold delChar
      split
      · exact ih.2
      · split
        · exact Dict.nodup_keys_del _ _ ih.2
        · exact ih.2

/-- C27 for `add_characterization(q, reference=True)`, raising or not: conversions are kept and the new reference has
the factor one, unless `overwrite` comes with a location other than 'GLO'. -/
theorem conversions_kept_addChar_partial {q r : Q} {st : State Q} (hreach : Reach st) (hr : st.ref = some r)
    (hqr : q ≠ r) (hcomp : st.hasComp = true) {inc : ℚ} (hq : stored st q .glo = some inc) (h0 : inc ≠ 0)
    (v : Arg) (hv : v = .none ∨ v = .num 1) (o : Bool) (l : Option Loc) (hol : o = false ∨ l.getD .glo = .glo)
    {st' : State Q} (hst' : st' = (addChar q true v o l st).state) :
    (∀ v a b l, convert st' v (some a) (some b) l = convert st v (some a) (some b) l) ∧ st'.ref = some q ∧
      cf st' q .glo = .num 1 := by
  obtain ⟨st1, h1⟩ := setReference_succeeds hr hcomp hq h0
  obtain ⟨hconv, href, hone⟩ := conversions_kept hr h1
  have hone := hone hqr
  obtain ⟨c, hc, hglo⟩ := glo_of_cf hone (by norm_num)
  have hI : Inv st1 := by
    have := inv_setReference (reach_inv hreach).1 q
    rw [h1] at this; exact this
  have hn := hI q c hc
  -- the second half of the call changes no lookup
  have key : st' = (addFactor q (.num 1) o l st1).state := by
    rw [hst']; unfold addChar; rw [if_pos rfl, if_pos hv, h1]; rfl
  have hcf : ∀ q' l', cf st' q' l' = cf st1 q' l' := by
    have hset : ∀ c', (∀ l', Char.getItem c' l' = Char.getItem c l') → ∀ q' l',
        cf ({ st1 with chars := st1.chars.set q c' } : State Q) q' l' = cf st1 q' l' := by
      intro c' hc' q' l'
      unfold cf
      simp only [Dict.get?_set]
      by_cases e : q = q'
      · subst e; rw [if_pos rfl, hc]; exact hc' l'
      · rw [if_neg e]
    have hlen : ∀ c' : Char, (Dict.get? c' .glo = some 1) → c'.length ≠ 0 := by
      intro c' h' h0; rw [List.length_eq_zero_iff.mp h0] at h'; simp [Dict.get?] at h'
    have hsame : ∀ c' : Char, Dict.get? c' .glo = some 1 →
        (∀ l', Dict.get? c' l' = Dict.get? c l' ∨ (Dict.get? c l' = none ∧ Dict.get? c' l' = some 1)) →
        ∀ l', Char.getItem c' l' = Char.getItem c l' := by
      intro c' hg' hall l'
      cases l' with
      | quantity => rfl
      | flow => rfl
      | glo => simp only [Char.getItem, hg', hglo]
      | other n =>
        simp only [Char.getItem, hg', hglo, hlen c' hg', hlen c hglo, if_false]
        rcases hall (.other n) with h | ⟨h2, h3⟩
        · rw [h]
        · rw [h2, h3]
    intro q' l'
    rw [key]
    unfold addFactor
    simp only [hc, Option.getD_some]
    cases hav : Char.addValue c 1 l o with
    | error e =>
      simp only [Out.state]
      apply hset
      cases o with
      | false => intro l'; rfl
      | true =>
        exfalso
        obtain ⟨c', hc'⟩ := addValue_overwrite hn 1 l
        rw [hc'] at hav; cases hav
    | ok c' =>
      simp only [Out.state]
      apply hset
      obtain ⟨h2, h3⟩ := addValue_ok hav
      apply hsame
      · rw [h2]
        by_cases hl : l.getD .glo = .glo
        · rw [hl, Dict.get?_set, if_pos rfl]
        · rw [Dict.get?_set, if_neg hl]
          rcases hol with ho | ho
          · simp [ho, hglo]
          · exact absurd ho hl
      · intro l'
        rw [h2, Dict.get?_set]
        by_cases hl : l.getD .glo = l'
        · rw [if_pos hl]
          rcases hol with ho | ho
          · right; exact ⟨hl ▸ h3 ho, rfl⟩
          · left; rw [← hl, ho, hglo]
        · rw [if_neg hl]
          left
          split
          · rw [Dict.get?_del _ hn, if_neg hl]
          · rfl
  refine ⟨?_, ?_, ?_⟩
  · intro v a b l'
    rw [← hconv]
    unfold convert
    simp only [Option.some_or, hcf]
  · rw [key]
    unfold addFactor
    simp only [hc, Option.getD_some]
    split <;> exact href
  · rw [hcf]; exact hone

/-- the call raises DuplicateCharacterizationError all the same, after changing the reference: `add_characterization(q,
reference=True)` never returns for a quantity with a nonzero 'GLO' factor. -/
theorem addChar_reference_raises {q r : Q} {st : State Q} (hr : st.ref = some r)
    (hqr : q ≠ r) (hcomp : st.hasComp = true) {inc : ℚ} (hq : stored st q .glo = some inc) (h0 : inc ≠ 0) :
    (addChar q true .none false none st).error? = some .duplicate ∧
      (addChar q true .none false none st).state.ref = some q := by
  obtain ⟨st1, h1⟩ := setReference_succeeds hr hcomp hq h0
  obtain ⟨_, href, hone⟩ := conversions_kept hr h1
  obtain ⟨c, hc, hglo⟩ := glo_of_cf (hone hqr) (by norm_num)
  have hh : Dict.has c .glo = true := (Dict.has_iff _ _).mpr ((Dict.mem_keys_iff _ _).mpr ⟨1, hglo⟩)
  have : addChar q true .none false none st = addFactor q (.num 1) false none st1 := by
    unfold addChar; rw [if_pos rfl, if_pos (Or.inl rfl), h1]; rfl
  rw [this]
  unfold addFactor
  simp only [hc, Option.getD_some]
  have hav : Char.addValue c 1 none false = .error .duplicate := by
    simp [Char.addValue, Char.setItem, hh]
  rw [hav]
  exact ⟨rfl, href⟩

/-- C27 fails with `overwrite` and a location: quantity 1 has the factors 2 (GLO) and 4 (US); making it the
reference with location 'US' changes its conversion at US from 4 to 2. -/
theorem conversions_changed : ∃ st : State ℕ, Reach st ∧ st.ref = some 0 ∧
    convert st 1 (some 1) (some 0) (.other "US") = .ok 4 ∧
    (addChar 1 true .none true (some (.other "US")) st).error? = none ∧
    convert (addChar 1 true .none true (some (.other "US")) st).state 1 (some 1) (some 0) (.other "US") = .ok 2 :=
  ⟨(step (.addChar 1 false (.num 4) false (some (.other "US")))
      (step (.addChar 1 false (.num 2) false none) (new (some 0) true)).2).2,
    .call _ (.call _ (.new _ _)), by decide +kernel⟩

/-- the new reference does not get the factor one if the flow had no reference quantity before -/
theorem no_factor_one : ∃ st : State ℕ, Reach st ∧ setReference 1 st = .ok () { st with ref := some 1 } ∧
    cf { st with ref := some 1 } 1 .glo = .num 2 :=
  ⟨(step (.addChar 1 false (.num 2) false none) (new none true)).2, .call _ (.new _ _), rfl, by decide +kernel⟩

-- the theorems at work: quantity 1 has factor 2 (and 4 at US), quantity 2 factor 6
example : let st := (step (.addChar 2 false (.num 6) false none) (step (.addChar 1 false (.num 4) false (some (.other "US")))
      (step (.addChar 1 false (.num 2) false none) (new (some (0 : ℕ)) true)).2).2).2
    st.ref = some 0 ∧ stored st 1 .glo = some 2 ∧ convert st 1 (some 2) (some 1) .glo = .ok 3 ∧
    (setReference 1 st).error? = none ∧ convert (setReference 1 st).state 1 (some 2) (some 1) .glo = .ok 3 ∧
    cf (setReference 1 st).state 2 .glo = .num 3 ∧
    convert (setReference 1 st).state 1 (some 2) (some 1) (.other "US") = .ok (3/2) := by decide +kernel

/-! ### C26: stored factors are kept -/

/-- calls that are not asked to replace anything -/
def Op.plain : Op Q → Prop
  | .addChar _ _ v o _ => o = false ∧ ∀ d, v ≠ .dict d
  | .setReference _ => True
  | .delChar _ => False

theorem stored_set {st : State Q} {q : Q} {c' : Char} {q' : Q} {l : Loc} {v : ℚ}
    (hc : ∀ l v, Dict.get? ((st.chars.get? q).getD []) l = some v → Dict.get? c' l = some v)
    (h : stored st q' l = some v) : stored { st with chars := st.chars.set q c' } q' l = some v := by
  unfold stored at *
  simp only [Dict.get?_set]
  by_cases e : q = q'
  · subst e
    rw [if_pos rfl]
    cases hq : st.chars.get? q with
    | none => rw [hq] at h; simp at h
    | some c => rw [hq] at h hc; exact hc l v h
  · rw [if_neg e]; exact h

/-- C26: without `overwrite` (and with a number for the value) `add_characterization` changes no stored factor -/
theorem addChar_keeps (st : State Q) (q : Q) (v : Arg) (hv : ∀ d, v ≠ .dict d) (loc : Option Loc) {q' : Q} {l : Loc}
    {w : ℚ} (h : stored st q' l = some w) : stored (addChar q false v false loc st).state q' l = some w := by
  have : addChar q false v false loc st = addFactor q v false loc st := by simp [addChar]
  rw [this]
  unfold addFactor
  split
  · exact h
  · rename_i hq
    exact stored_set (by rw [hq]; simp [Dict.get?]) h
  · exact absurd rfl (hv _)
  · split
    · rename_i c' hc'
      obtain ⟨h1, h2⟩ := addValue_ok hc'
      refine stored_set ?_ h
      intro l v hl
      rw [h1]
      simp only [Bool.false_and, Bool.false_eq_true, if_false]
      rw [Dict.get?_set]
      split
      · rename_i e; rw [← e, h2 rfl] at hl; cases hl
      · exact hl
    · simp only [Bool.false_and, Bool.false_eq_true, if_false]
      exact stored_set (fun l v h => h) h

theorem setReference_scales (st : State Q) (q : Q) : ∃ k : ℚ, k ≠ 0 ∧
    ∀ q' l, stored (setReference q st).state q' l = (stored st q' l).map (· * k) := by
  have id1 : ∀ x : Option ℚ, x = x.map (· * 1) := by intro x; cases x <;> simp
  rcases setReference_cases q st with ⟨e, he⟩ | ⟨h1, _⟩ | ⟨r', inc, _, _, h0, _, h5⟩ | ⟨_, h1⟩
  · rw [he]; exact ⟨1, by norm_num, fun q' l => id1 _⟩
  · rw [h1]; exact ⟨1, by norm_num, fun q' l => id1 _⟩
  · rw [h5]; exact ⟨1 / inc, one_div_ne_zero h0, fun q' l => stored_rescaled st _ q q' l⟩
  · rw [h1]; exact ⟨1, by norm_num, fun q' l => id1 _⟩

/-- C26 over histories: as long as nothing is overwritten or deleted, all stored factors stay in place, up to one
common nonzero factor (from changes of the reference quantity). -/
theorem factors_kept_partial (ops : List (Op Q)) (hops : ∀ op ∈ ops, op.plain) (st : State Q) :
    ∃ k : ℚ, k ≠ 0 ∧ ∀ q l v, stored st q l = some v →
      stored (ops.foldl (fun st op => (step op st).2) st) q l = some (v * k) := by
  induction ops generalizing st with
  | nil => exact ⟨1, by norm_num, by intro q l v h; simpa using h⟩
  | cons op ops ih =>
    obtain ⟨k, hk, hall⟩ := ih (fun o ho => hops o (List.mem_cons_of_mem _ ho)) (step op st).2
    have hp := hops op List.mem_cons_self
    have h1 : ∃ k' : ℚ, k' ≠ 0 ∧ ∀ q l v, stored st q l = some v → stored (step op st).2 q l = some (v * k') := by
      cases op with
      | delChar q => exact absurd hp (by simp [Op.plain])
      | setReference q =>
        obtain ⟨k', hk', h⟩ := setReference_scales st q
        refine ⟨k', hk', ?_⟩
        intro q' l v hv
        show stored (setReference q st).state q' l = _
        rw [h, hv]; rfl
      | addChar q r v o loc =>
        obtain ⟨rfl, hv⟩ := hp
        cases r with
        | false =>
          refine ⟨1, by norm_num, ?_⟩
          intro q' l w hw
          rw [mul_one]
          exact addChar_keeps st q v hv loc hw
        | true =>
          show ∃ k' : ℚ, k' ≠ 0 ∧ ∀ q' l w, stored st q' l = some w →
            stored (addChar q true v false loc st).state q' l = some (w * k')
          unfold addChar
          rw [if_pos rfl]
          split
          · obtain ⟨k', hk', h⟩ := setReference_scales st q
            refine ⟨k', hk', ?_⟩
            intro q' l w hw
            have hw' : stored (setReference q st).state q' l = some (w * k') := by rw [h, hw]; rfl
            rcases bind_state (setReference q st) (fun _ st => addFactor q (.num 1) false loc st) with
              ⟨e, _, he⟩ | ⟨_, _, he⟩
            · rw [he]; exact hw'
            · rw [he]
              have := addChar_keeps (setReference q st).state q (.num 1) (by simp) loc hw'
              simpa [addChar] using this
          · exact ⟨1, by norm_num, fun q' l w hw => by rw [mul_one]; exact hw⟩
    obtain ⟨k', hk', hall'⟩ := h1
    refine ⟨k' * k, mul_ne_zero hk' hk, ?_⟩
    intro q l v hv
    rw [List.foldl_cons, ← mul_assoc]
    exact hall q l _ (hall' q l v hv)

/-- C26: a second value for the same location is refused and nothing changes -/
theorem second_factor_refused (st : State Q) (q : Q) (v w : ℚ) (loc : Option Loc)
    (h : stored st q (loc.getD .glo) = some w) :
    (addChar q false (.num v) false loc st).error? = some .duplicate ∧
      ∀ q' l, stored (addChar q false (.num v) false loc st).state q' l = stored st q' l := by
  unfold stored at h
  cases hq : st.chars.get? q with
  | none => rw [hq] at h; simp at h
  | some c =>
    rw [hq] at h
    have hh : Dict.has c (loc.getD .glo) = true := (Dict.has_iff _ _).mpr ((Dict.mem_keys_iff _ _).mpr ⟨w, h⟩)
    have hav : Char.addValue c v loc false = .error .duplicate := by
      simp [Char.addValue, Char.setItem, hh]
    have : addChar q false (.num v) false loc st =
        .err .duplicate { st with chars := st.chars.set q c } := by
      simp [addChar, addFactor, hq, hav]
    rw [this]
    refine ⟨rfl, ?_⟩
    intro q' l
    unfold stored
    simp only [Out.state, Dict.get?_set]
    split
    · rename_i e; rw [← e, hq]
    · rfl

/-- C26: with `overwrite` the value is replaced -/
theorem overwrite_replaces {st : State Q} (hreach : Reach st) (q : Q) (v : ℚ) (loc : Option Loc) :
    (addChar q false (.num v) true loc st).error? = none ∧
      stored (addChar q false (.num v) true loc st).state q (loc.getD .glo) = some v ∧
      ∀ q' l, (q' ≠ q ∨ l ≠ loc.getD .glo) →
        stored (addChar q false (.num v) true loc st).state q' l = stored st q' l := by
  have hn := inv_getD (reach_inv hreach).1 q
  have hadd : addChar q false (.num v) true loc st =
      .ok () { st with chars := st.chars.set q (Dict.set (if true && Dict.has ((st.chars.get? q).getD []) (loc.getD .glo)
        then Dict.del ((st.chars.get? q).getD []) (loc.getD .glo) else (st.chars.get? q).getD []) (loc.getD .glo) v) } := by
    unfold addChar addFactor
    simp only [Bool.false_eq_true, if_false]
    cases hav : Char.addValue ((st.chars.get? q).getD []) v loc true with
    | ok c' => rw [(addValue_ok hav).1]
    | error e =>
      exfalso
      obtain ⟨c', hc'⟩ := addValue_overwrite hn v loc
      rw [hc'] at hav; cases hav
  rw [hadd]
  refine ⟨rfl, ?_, ?_⟩
  · simp [stored, Out.state, Dict.get?_set]
  · intro q' l hor
    unfold stored
    simp only [Out.state, Dict.get?_set]
    by_cases e : q = q'
    · subst e
      rw [if_pos rfl]
      rcases hor with h | h
      · exact absurd rfl h
      · simp only [Option.bind_some, Dict.get?_set]
        rw [if_neg (Ne.symm h)]
        have : Dict.get? ((st.chars.get? q).getD []) l = (st.chars.get? q).bind fun c => Dict.get? c l := by
          cases st.chars.get? q <;> simp [Dict.get?]
        rw [← this]
        split
        · rw [Dict.get?_del _ hn, if_neg (Ne.symm h)]
        · rfl
    · rw [if_neg e]

/-- C26 fails for a dict as the value: stored factors are replaced without `overwrite`. -/
theorem factor_replaced : ∃ st : State ℕ, Reach st ∧ stored st 1 .glo = some 2 ∧
    (addChar 1 false (.dict [(.glo, 5)]) false none st).error? = none ∧
    stored (addChar 1 false (.dict [(.glo, 5)]) false none st).state 1 .glo = some 5 :=
  ⟨(step (.addChar 1 false (.num 2) false none) (new (some 0) true)).2, .call _ (.new _ _), by decide +kernel⟩

-- a plain history: a refused second factor, a change of reference, a new location
example : ∃ st : State ℕ, st = ([.addChar 1 false (.num 2) false none, .addChar 1 false (.num 3) false none, .setReference 1,
      .addChar 0 false (.num 7) false (some (.other "US"))] : List (Op ℕ)).foldl (fun st op => (step op st).2)
      (new (some 0) true) ∧ stored st 1 .glo = some 1 ∧ stored st 0 .glo = some (1/2) ∧
      stored st 0 (.other "US") = some 7 := ⟨_, rfl, by decide +kernel⟩

/-! ### the factor of the reference quantity -/

/-- calls that do not replace a factor of the present reference quantity -/
def Op.safe (st : State Q) : Op Q → Prop
  | .addChar q false v o _ => (o = true ∨ ∃ d, v = .dict d) → st.ref ≠ some q
  | _ => True

inductive SReach : State Q → Prop
  | new (q : Q) (hasComp : Bool) : SReach (new (some q) hasComp)
  | call (op : Op Q) {st : State Q} : SReach st → op.safe st → SReach (step op st).2

/-- C27: from its creation on, as long as its factor is not overwritten, the reference quantity has the factor one. -/
theorem reference_factor_one {st : State Q} (h : SReach st) : ∃ r, st.ref = some r ∧ stored st r .glo = some 1 := by
  have hR : ∀ {st : State Q}, SReach st → Reach st := by
    intro st h
    induction h with
    | new q hc => exact .new (some q) hc
    | call op _ _ ih => exact .call op ih
  -- adding the factor one to a reference that has the factor one
  have addOne : ∀ (st : State Q) (q : Q) (o : Bool) (l : Option Loc), Inv st → stored st q .glo = some 1 →
      stored (addFactor q (.num 1) o l st).state q .glo = some 1 ∧ (addFactor q (.num 1) o l st).state.ref = st.ref := by
    intro st q o l hI hs
    unfold stored at hs
    cases hq : st.chars.get? q with
    | none => rw [hq] at hs; simp at hs
    | some c =>
      rw [hq] at hs
      simp only [Option.bind_some] at hs
      have hn := hI q c hq
      unfold addFactor
      simp only [hq, Option.getD_some]
      split
      · rename_i c' hc'
        refine ⟨?_, rfl⟩
        simp only [stored, Out.state, Dict.get?_set, if_pos, Option.bind_some]
        rw [(addValue_ok hc').1, Dict.get?_set]
        split
        · rfl
        · rename_i hl
          split
          · rw [Dict.get?_del _ hn, if_neg hl]; exact hs
          · exact hs
      · rename_i e he
        refine ⟨?_, rfl⟩
        have ho : o = false := by
          cases o with
          | false => rfl
          | true =>
            exfalso
            obtain ⟨c', hc'⟩ := addValue_overwrite hn 1 l
            rw [hc'] at he; cases he
        simp [stored, Out.state, Dict.get?_set, ho, hs]
  have setR : ∀ (st : State Q) (q r : Q), st.ref = some r → stored st r .glo = some 1 →
      ∃ r', (setReference q st).state.ref = some r' ∧ stored (setReference q st).state r' .glo = some 1 ∧
        ((setReference q st).error? = none → r' = q) := by
    intro st q r hr hs
    rcases setReference_cases q st with ⟨e, he⟩ | ⟨h1, h2⟩ | ⟨r', inc, h1, h2, h3, h4, h5⟩ | ⟨h1, _⟩
    · rw [he]; exact ⟨r, hr, hs, by simp [Out.error?]⟩
    · rw [h1]; exact ⟨r, hr, hs, by intro _; rw [hr] at h2; exact Option.some.inj h2⟩
    · rw [h5]
      refine ⟨q, rfl, ?_, fun _ => rfl⟩
      obtain ⟨c, hc, hg⟩ := glo_of_cf h4 h3
      have : stored st q .glo = some inc := by simp [stored, hc, hg]
      show stored (rescaled st (1 / inc) q) q .glo = some 1
      rw [stored_rescaled, this]
      simp only [Option.map_some]
      congr 1
      field_simp
    · rw [hr] at h1; cases h1
  induction h with
  | new q hc =>
    refine ⟨q, ?_, ?_⟩
    · simp [new, addChar, setReference, Out.bind, addFactor, Char.addValue, Char.setItem, Dict.has, Out.state]
    · simp [new, addChar, setReference, Out.bind, addFactor, Char.addValue, Char.setItem, Dict.has, Out.state, stored,
        Dict.set, Dict.get?]
  | @call op st hst hsafe ih =>
    obtain ⟨r, hr, hs⟩ := ih
    have hI := (reach_inv (hR hst)).1
    cases op with
    | setReference q =>
      obtain ⟨r', h1, h2, _⟩ := setR st q r hr hs
      exact ⟨r', h1, h2⟩
    | delChar q =>
      refine ⟨r, ?_, ?_⟩
      · show (delChar q st).state.ref = some r
        unfold delChar
        split
        · exact hr
        · split <;> exact hr
      · show stored (delChar q st).state r .glo = some 1
        unfold delChar
        split
        · exact hs
        · rename_i hne
          split
          · have hk := (reach_inv (hR hst)).2
            unfold stored at *
            simp only [Out.state, Dict.get?_del _ hk]
            rw [if_neg (by rintro rfl; exact hne hr)]
            exact hs
          · exact hs
    | addChar q rf v o l =>
      cases rf with
      | true =>
        show ∃ r, (addChar q true v o l st).state.ref = some r ∧ stored (addChar q true v o l st).state r .glo = some 1
        unfold addChar
        rw [if_pos rfl]
        split
        · obtain ⟨r', h1, h2, h3⟩ := setR st q r hr hs
          rcases bind_state (setReference q st) (fun _ st => addFactor q (.num 1) o l st) with
            ⟨e, _, he⟩ | ⟨a, hok, he⟩
          · rw [he]; exact ⟨r', h1, h2⟩
          · rw [he]
            have : r' = q := h3 (by rw [hok]; rfl)
            subst this
            obtain ⟨h4, h5⟩ := addOne (setReference r' st).state r' o l (inv_setReference hI r') h2
            exact ⟨r', by rw [h5]; exact h1, h4⟩
        · exact ⟨r, hr, hs⟩
      | false =>
        show ∃ r, (addChar q false v o l st).state.ref = some r ∧ stored (addChar q false v o l st).state r .glo = some 1
        have href : (addChar q false v o l st).state.ref = st.ref := by
          simp only [addChar, Bool.false_eq_true, if_false]
          unfold addFactor
          split
          · rfl
          · rfl
          · rfl
          · split <;> rfl
        refine ⟨r, by rw [href]; exact hr, ?_⟩
        by_cases hp : o = true ∨ ∃ d, v = .dict d
        · have hne : q ≠ r := by
            rintro rfl; exact hsafe hp hr
          have hset : ∀ c', stored ({ st with chars := st.chars.set q c' } : State Q) r .glo = some 1 := by
            intro c'
            unfold stored at *
            simp only [Dict.get?_set, if_neg hne]
            exact hs
          simp only [addChar, Bool.false_eq_true, if_false]
          unfold addFactor
          split
          · exact hs
          · exact hset _
          · exact hset _
          · split <;> exact hset _
        · have ho : o = false := by
            cases o with
            | false => rfl
            | true => exact absurd (Or.inl rfl) hp
          subst ho
          exact addChar_keeps st q v (fun d hd => hp (Or.inr ⟨d, hd⟩)) l hs

example : ∃ st : State ℕ, SReach st ∧ st.ref = some 1 ∧ stored st 0 .glo = some (1/2) :=
  ⟨_, .call (.setReference 1) (.call (.addChar 1 false (.num 2) true none) (.new 0 true)
    (fun _ => by decide +kernel)) trivial, by decide +kernel⟩

end Flo

/-! ### C47 -/

namespace Unit'
variable {U : Type} [DecidableEq U]

/-- C47: for a table without zeros, converting from a to b and from b to c is converting from a to c, whenever these
are defined (units given as strings, or left out for the reference unit; c may also be the unit object). -/
theorem convert_trans (ref : U) (t : Dict U ℚ) (h0 : ∀ u v, t.get? u = some v → v ≠ 0)
    (a b c : Option (Arg U)) (x y : ℚ)
    (hab : convert ref (some t) a b = .val x) (hbc : convert ref (some t) b c = .val y) :
    convert ref (some t) a c = .val (x * y) := by
  unfold convert at *
  simp only at *
  cases hb : b.getD (.str ref) with
  | refObject => simp [hb] at hbc
  | str ub =>
    simp only [hb] at hab hbc
    cases ha : a.getD (.str ref) with
    | refObject => simp [ha] at hab
    | str ua =>
      simp only [ha] at hab ⊢
      cases hta : t.get? ua with
      | none => simp [hta] at hab
      | some va =>
        simp only [hta] at hab ⊢
        cases htb : t.get? ub with
        | none => simp [htb] at hbc
        | some vb =>
          simp only [htb] at hab hbc
          have ha0 := h0 ua va hta
          have hb0 := h0 ub vb htb
          rw [if_neg ha0] at hab
          cases hab
          split at hbc
          · cases hbc
          · rename_i oc hoc
            rw [if_neg hb0] at hbc
            cases hbc
            simp only [hoc, if_neg ha0]
            congr 1
            field_simp

/-- C47: a unit in itself is one. -/
theorem convert_self (ref : U) (t : Dict U ℚ) (u : U) {v : ℚ} (hu : t.get? u = some v) (h0 : v ≠ 0) :
    convert ref (some t) (some (.str u)) (some (.str u)) = .val 1 := by
  simp [convert, hu, h0]

/-- C47: there and back is one. -/
theorem convert_inverse (ref : U) (t : Dict U ℚ) (h0 : ∀ u v, t.get? u = some v → v ≠ 0) (a b : Option (Arg U))
    (x y : ℚ) (hab : convert ref (some t) a b = .val x) (hba : convert ref (some t) b a = .val y) : x * y = 1 := by
  have h := convert_trans ref t h0 a b a x y hab hba
  unfold convert at h
  simp only at h
  cases ha : a.getD (.str ref) with
  | refObject => simp [ha] at h
  | str ua =>
    simp only [ha] at h
    cases hta : t.get? ua with
    | none => simp [hta] at h
    | some va =>
      have ha0 := h0 ua va hta
      simp only [hta, if_neg ha0, div_self ha0] at h
      exact (Res.val.inj h).symm

/-- when a conversion between strings is defined, and its value: how many `b` there are in one `a`, for a table that
lists equal amounts -/
theorem convert_value (ref : U) (t : Dict U ℚ) (a b : Option U) (z : ℚ) :
    convert ref (some t) (a.map .str) (b.map .str) = .val z ↔
      ∃ x y, t.get? (a.getD ref) = some x ∧ t.get? (b.getD ref) = some y ∧ x ≠ 0 ∧ z * x = y := by
  have hget : ∀ o : Option U, (o.map Arg.str).getD (.str ref) = .str (o.getD ref) := by intro o; cases o <;> rfl
  unfold convert
  simp only [hget]
  cases hx : t.get? (a.getD ref) with
  | none => simp
  | some x =>
    cases hy : t.get? (b.getD ref) with
    | none => simp
    | some y =>
      simp only
      by_cases h : x = 0
      · simp [h]
      · rw [if_neg h]
        constructor
        · intro hz
          refine ⟨x, y, rfl, rfl, h, ?_⟩
          rw [← Res.val.inj hz, div_mul_cancel₀ _ h]
        · rintro ⟨x', y', hx', hy', _, he⟩
          cases hx'; cases hy'
          rw [← he, mul_div_cancel_right₀ _ h]

example : convert "kg" (some [("kg", 907), ("lb", 2000), ("ton", 1)]) (some (.str "lb")) (some (.str "ton")) = .val (1/2000) ∧
    convert "kg" (some [("kg", 907), ("lb", 2000), ("ton", 1)]) none (some (.str "lb")) = .val (2000/907) := by decide +kernel

/-- The documentation says that a reference unit missing from the table counts as 1; the code returns None. -/
theorem missing_reference_unit : convert "kg" (some [("lb", 2)]) (some (.str "lb")) none = .none := by decide +kernel

end Unit'
