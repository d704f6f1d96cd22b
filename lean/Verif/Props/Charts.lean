import Verif.Model.Charts
import Mathlib.Tactic.Linarith
import Mathlib.Tactic.Ring
import Mathlib.Tactic.FieldSimp
import Mathlib.Algebra.BigOperators.Group.List.Basic
import Mathlib.Algebra.Order.BigOperators.Group.List
import Mathlib.Algebra.Order.Ring.Abs

/-!
Properties C196-C199: the numbers a result gives to a chart, and the waterfall chart.
-/

namespace Charts

open Cht

variable {V : Type} [DecidableEq V]

set_option linter.unusedSectionVars false

/-! ### C196 -/

/-- spec: the value of the component with the key `v` -/
def Value (r : Res V) (q : Query V) (x : ℚ) : Prop :=
  (∃ v e, q = .val v ∧ (v, (e, x)) ∈ r.comps) ∨ ((∀ v c, q = .val v → (v, c) ∉ r.comps) ∧ x = 0)

theorem score_value (r : Res V) (hn : r.comps.keys.Nodup) (q : Query V) (x : ℚ) : r.score q = x ↔ Value r q x := by
  constructor
  · intro h
    cases q with
    | star => exact .inr ⟨by simp, by simpa [Res.score] using h.symm⟩
    | none => exact .inr ⟨by simp, by simpa [Res.score] using h.symm⟩
    | val v =>
      unfold Res.score at h
      cases hc : r.comps.get? v with
      | none =>
        simp only [hc] at h
        refine .inr ⟨fun v' c hv hm => ?_, h.symm⟩
        injection hv with hv
        subst hv
        rw [Dict.get?_eq_some_of_mem _ hn hm] at hc
        cases hc
      | some c =>
        simp only [hc] at h
        subst h
        exact .inl ⟨v, c.1, rfl, Dict.mem_of_get?_eq_some _ hc⟩
  · rintro (⟨v, e, rfl, hm⟩ | ⟨h1, rfl⟩)
    · have := Dict.get?_eq_some_of_mem _ hn hm
      simp only [Res.score, this]
    · cases q with
      | star => rfl
      | none => rfl
      | val v =>
        cases hc : r.comps.get? v with
        | none => simp only [Res.score, hc]
        | some c => exact absurd (Dict.mem_of_get?_eq_some _ hc) (h1 v c rfl)

theorem isclose_zero (x : ℚ) : isclose x 0 = decide (x = 0) := by
  unfold isclose
  by_cases hx : x = 0
  · simp [hx]
  · have : 0 < |x| := abs_pos.mpr hx
    simp only [sub_zero, abs_zero, hx, decide_false, decide_eq_false_iff_not, not_le]
    rw [max_eq_left this.le]
    linarith

theorem contrib_list (r : Res V) (l : List (Query V)) :
    r.contribQuery (.list l) = if (l.map r.score).sum ≠ 0 ∧ r.total = 0 then .error .zeroDivision else .ok (l.map r.score) := by
  unfold Res.contribQuery
  by_cases ht : r.total = 0
  · simp [ht, isclose_zero]
  · simp [ht]

theorem contrib_all (r : Res V) :
    r.contribQuery .all = r.contribQuery (.list r.componentEntities) := rfl

/-- with stages: one number per stage, in order, the value of the component with that key or 0; asking for '*' gives
the total -/
theorem query_values (r : Res V) (hn : r.comps.keys.Nodup) (l : List (Query V)) (d : List ℚ)
    (h : r.contribQuery (.list l) = .ok d) : List.Forall₂ (Value r) l d := by
  rw [contrib_list] at h
  split at h
  · cases h
  · injection h with h
    subst h
    rw [List.forall₂_map_right_iff, List.forall₂_same]
    intro q _
    exact (score_value r hn q _).mp rfl

theorem query_star (r : Res V) : r.contribQuery .star = .ok [r.total] := rfl

/-- it fails just when the total is zero and the stages' values do not add up to zero -/
theorem query_raises (r : Res V) (hn : r.comps.keys.Nodup) (l : List (Query V)) :
    (∃ e, r.contribQuery (.list l) = .error e) ↔ r.total = 0 ∧ ∃ d, List.Forall₂ (Value r) l d ∧ d.sum ≠ 0 := by
  have key : ∀ d, List.Forall₂ (Value r) l d ↔ d = l.map r.score := by
    intro d
    constructor
    · intro h
      induction h with
      | nil => rfl
      | cons h1 _ ih => rw [List.map_cons, ← ih, (score_value r hn _ _).mpr h1]
    · rintro rfl
      rw [List.forall₂_map_right_iff, List.forall₂_same]
      intro q _
      exact (score_value r hn q _).mp rfl
  rw [contrib_list]
  constructor
  · rintro ⟨e, h⟩
    split at h
    · next hc => exact ⟨hc.2, _, (key _).mpr rfl, hc.1⟩
    · cases h
  · rintro ⟨ht, d, hd, hs⟩
    rw [(key d).mp hd] at hs
    exact ⟨.zeroDivision, if_pos ⟨hs, ht⟩⟩

/-- the documented use without stages: if every component's key is its entity, the numbers are the components' values in
order and add up to the total -/
theorem query_all (r : Res V) (hn : r.comps.keys.Nodup) (hp : r.priv = false) (hk : ∀ kv ∈ r.comps, kv.2.1 = kv.1) :
    r.contribQuery .all = .ok (r.comps.map fun kv => kv.2.2) ∧ (r.comps.map fun kv => kv.2.2).sum = r.total := by
  have h : r.componentEntities.map r.score = r.comps.map fun kv => kv.2.2 := by
    unfold Res.componentEntities
    rw [hp]
    simp only [Bool.false_eq_true, if_false, List.map_map]
    apply List.map_congr_left
    intro kv hkv
    have : r.comps.get? kv.1 = some kv.2 := Dict.get?_eq_some_of_mem _ hn hkv
    simp only [Function.comp, Res.score, hk kv hkv, this]
  refine ⟨?_, rfl⟩
  rw [contrib_all, contrib_list, h, if_neg]
  rintro ⟨h1, h2⟩
  exact h1 h2

/-- but the numbers are looked up by entity in a table by key: where no entity is a key, as after `aggregate`, all of
them are zero whatever the components are, and the chart helpers take the result for an empty one -/
theorem query_all_lost (r : Res V) (hp : r.priv = false) (hk : ∀ kv ∈ r.comps, kv.2.1 ∉ r.comps.keys) :
    r.contribQuery .all = .ok (List.replicate r.comps.length 0) ∧ hasNonzero r = .ok false ∧ hasPosNeg r = .ok false := by
  have h : r.componentEntities.map r.score = List.replicate r.comps.length 0 := by
    unfold Res.componentEntities
    rw [hp]
    simp only [Bool.false_eq_true, if_false, List.map_map]
    rw [List.eq_replicate_iff]
    refine ⟨by simp, fun b hb => ?_⟩
    obtain ⟨kv, hkv, rfl⟩ := List.mem_map.mp hb
    have : r.comps.get? kv.2.1 = none := (Dict.not_mem_keys_iff _ _).mp (hk kv hkv)
    simp [Function.comp, Res.score, this]
  have h2 : r.contribQuery .all = .ok (List.replicate r.comps.length 0) := by
    rw [contrib_all, contrib_list, h]
    simp
  refine ⟨h2, ?_, ?_⟩
  · simp [hasNonzero, h2]
  · unfold hasPosNeg
    rw [h2]
    simp

/-- a private result has one number, zero -/
theorem query_private (r : Res V) (hp : r.priv = true) : r.contribQuery .all = .ok [0] := by
  rw [contrib_all, contrib_list]
  simp [Res.componentEntities, hp, Res.score]

/-- three components keyed by name with other entities -/
def exR : Res ℕ := ⟨[(1, (11, 3)), (2, (12, -1)), (3, (13, 2))], false⟩

def exOk (x : Except Err α) : Option α := x.toOption

example : exOk (exR.contribQuery (.list [.val 2, .val 7, .val 1, .star])) = some [-1, 0, 3, 0] ∧ exR.total = 4 ∧
    exOk (exR.contribQuery .all) = some [0, 0, 0] := by decide +kernel
example : exR.comps.keys.Nodup ∧ ∀ kv ∈ exR.comps, kv.2.1 ∉ exR.comps.keys := by decide
example : (fun (r : Res ℕ) => r.total = 0 ∧ exOk (r.contribQuery (.list [.val 1])) = none) ⟨[(1, (1, 2)), (2, (2, -2))], false⟩ := by
  decide +kernel
example : (fun (r : Res ℕ) => ∀ kv ∈ r.comps, kv.2.1 = kv.1) ⟨[(1, (1, 2)), (2, (2, -3))], false⟩ := by decide

/-! ### rows -/

theorem mapM_forall₂ {X Y E : Type} (f : X → Except E Y) : ∀ (l : List X) (m : List Y),
    l.mapM f = .ok m → List.Forall₂ (fun x y => f x = .ok y) l m := by
  intro l
  induction l with
  | nil => intro m h; simp [List.mapM_nil, pure, Except.pure] at h; subst h; exact .nil
  | cons a l ih =>
    intro m h
    rw [List.mapM_cons] at h
    cases ha : f a with
    | error e => rw [ha] at h; cases h
    | ok y =>
      rw [ha] at h
      cases hm : l.mapM f with
      | error e => rw [hm] at h; cases h
      | ok m' =>
        rw [hm] at h
        injection h with h
        subst h
        exact .cons ha (ih _ hm)

/-- bars that start at `x`, each where the one before ended -/
def Chain : ℚ → List Bar → Prop
  | _, [] => True
  | x, b :: l => b.left = x ∧ Chain (x + b.width) l

theorem drawRow_ok : ∀ (d : List ℚ) (st : List ℕ) (x : ℚ) (bars : List Bar) (st' : List ℕ), drawRow d st x = .ok (bars, st') →
    bars.map (fun b => b.width) = d ∧ Chain x bars ∧ d.length ≤ st.length ∧ st'.length = st.length := by
  intro d
  induction d with
  | nil => intro st x bars st' h; simp [drawRow] at h; obtain ⟨rfl, rfl⟩ := h; simp [Chain]
  | cons a l ih =>
    intro st x bars st' h
    cases st with
    | nil => simp [drawRow] at h
    | cons n st =>
      simp only [drawRow] at h
      split at h
      · cases h
      · next b2 s2 hr =>
        simp only [Except.ok.injEq, Prod.mk.injEq] at h
        obtain ⟨rfl, rfl⟩ := h
        obtain ⟨h1, h2, h3, h4⟩ := ih _ _ _ _ hr
        exact ⟨by simp [h1], ⟨rfl, h2⟩, by simpa using h3, by simp [h4]⟩

theorem drawRow_some : ∀ (d : List ℚ) (st : List ℕ) (x : ℚ), d.length ≤ st.length → ∃ p, drawRow d st x = .ok p := by
  intro d
  induction d with
  | nil => intro st x _; exact ⟨_, rfl⟩
  | cons a l ih =>
    intro st x h
    cases st with
    | nil => simp at h
    | cons n st =>
      obtain ⟨p, hp⟩ := ih st (x + a) (by simpa using h)
      simp only [drawRow, hp]
      exact ⟨_, rfl⟩

theorem drawRow_err : ∀ (d : List ℚ) (st : List ℕ) (x : ℚ), st.length < d.length → drawRow d st x = .error .indexError := by
  intro d
  induction d with
  | nil => intro st x h; simp at h
  | cons a l ih =>
    intro st x h
    cases st with
    | nil => rfl
    | cons n st => simp only [drawRow, ih st _ (by simpa using h)]

/-- the fade counts after a row -/
theorem drawRow_fade : ∀ (d : List ℚ) (st : List ℕ) (x : ℚ) (bars : List Bar) (st' : List ℕ), drawRow d st x = .ok (bars, st') →
    (∀ (j : ℕ) (b : Bar), bars[j]? = some b → st'[j]? = some b.fade) ∧
    ∀ (j : ℕ) n, st[j]? = some n → st'[j]? = some (if ∃ a, d[j]? = some a ∧ a < 0 then n + 1 else n) := by
  intro d
  induction d with
  | nil => intro st x bars st' h; simp [drawRow] at h; obtain ⟨rfl, rfl⟩ := h; simp
  | cons a l ih =>
    intro st x bars st' h
    cases st with
    | nil => simp [drawRow] at h
    | cons n st =>
      simp only [drawRow] at h
      split at h
      · cases h
      · next b2 s2 hr =>
        simp only [Except.ok.injEq, Prod.mk.injEq] at h
        obtain ⟨rfl, rfl⟩ := h
        obtain ⟨h1, h2⟩ := ih _ _ _ _ hr
        constructor
        · intro j b hb
          cases j with
          | zero => simp at hb; subst hb; simp
          | succ j => simpa using h1 j b (by simpa using hb)
        · intro j m hm
          cases j with
          | zero =>
            simp at hm
            subst hm
            by_cases hc : a < 0 <;> simp [hc]
          | succ j => simpa using h2 j m (by simpa using hm)

theorem drawRows_ok : ∀ (ds : List (List ℚ)) (st : List ℕ) (rows : List (List Bar)), drawRows ds st = .ok rows →
    List.Forall₂ (fun d bars => bars.map (fun b => b.width) = d ∧ Chain 0 bars ∧ d.length ≤ st.length) ds rows := by
  intro ds
  induction ds with
  | nil => intro st rows h; simp [drawRows] at h; subst h; exact .nil
  | cons d l ih =>
    intro st rows h
    simp only [drawRows] at h
    split at h
    · cases h
    · next bars st' hr =>
      split at h
      · cases h
      · next rest hrest =>
        simp only [Except.ok.injEq] at h
        subst h
        obtain ⟨h1, h2, h3, h4⟩ := drawRow_ok _ _ _ _ _ hr
        refine .cons ⟨h1, h2, h3⟩ ?_
        have := ih _ _ hrest
        rw [h4] at this
        exact this

theorem drawRows_err : ∀ (ds : List (List ℚ)) (st : List ℕ), (∃ d ∈ ds, st.length < d.length) → drawRows ds st = .error .indexError := by
  intro ds
  induction ds with
  | nil => simp
  | cons d l ih =>
    intro st h
    simp only [drawRows]
    by_cases hd : st.length < d.length
    · rw [drawRow_err _ _ _ hd]
    · obtain ⟨⟨bars, st'⟩, hp⟩ := drawRow_some d st 0 (not_lt.mp hd)
      obtain ⟨_, _, _, h4⟩ := drawRow_ok _ _ _ _ _ hp
      simp only [hp]
      rw [ih st' (by
        obtain ⟨x, hx, hl⟩ := h
        rcases List.mem_cons.mp hx with rfl | hx
        · exact absurd hl hd
        · exact ⟨x, hx, by rw [h4]; exact hl⟩)]

/-- how many of the rows have a negative `j`-th number -/
def negRows (ds : List (List ℚ)) (j : ℕ) : ℕ := (ds.filter fun d => decide (∃ a, d[j]? = some a ∧ a < 0)).length

theorem drawRows_fade : ∀ (ds : List (List ℚ)) (st : List ℕ) (rows : List (List Bar)), drawRows ds st = .ok rows →
    ∀ (i : ℕ) bars, rows[i]? = some bars → ∀ (j : ℕ) (b : Bar) n, bars[j]? = some b → st[j]? = some n →
      b.fade = n + negRows (ds.take (i + 1)) j := by
  intro ds
  induction ds with
  | nil => intro st rows h; simp [drawRows] at h; subst h; simp
  | cons d l ih =>
    intro st rows h
    simp only [drawRows] at h
    split at h
    · cases h
    · next bars0 st' hr =>
      split at h
      · cases h
      · next rest hrest =>
        simp only [Except.ok.injEq] at h
        subst h
        obtain ⟨f1, f2⟩ := drawRow_fade _ _ _ _ _ hr
        intro i bars hi j b n hb hn
        cases i with
        | zero =>
          simp at hi
          subst hi
          have h1 := f1 j b hb
          rw [f2 j n hn] at h1
          simp only [Option.some.injEq] at h1
          rw [← h1]
          unfold negRows
          by_cases hc : ∃ a, d[j]? = some a ∧ a < 0 <;> simp [hc]
        | succ i =>
          have := ih _ _ hrest i bars (by simpa using hi) j b _ hb (f2 j n hn)
          rw [this]
          unfold negRows
          by_cases hc : ∃ a, d[j]? = some a ∧ a < 0
          · simp [hc]; omega
          · simp [hc]

/-! ### C197 -/

/-- running sums -/
def psums : ℚ → List ℚ → List ℚ
  | _, [] => []
  | c, a :: l => (c + a) :: psums (c + a) l

/-- where bars end, and the origin -/
def ends (bars : List Bar) : List ℚ := 0 :: bars.map fun b => b.left + b.width

theorem chain_ends : ∀ (bars : List Bar) (x : ℚ), Chain x bars →
    bars.map (fun b => b.left + b.width) = psums x (bars.map fun b => b.width) := by
  intro bars
  induction bars with
  | nil => intro x _; rfl
  | cons b l ih =>
    rintro x ⟨rfl, h⟩
    simp only [List.map_cons, psums, ih _ h]

theorem psums_scale (f : ℚ) : ∀ (l : List ℚ) (c : ℚ), psums (c * f) (l.map fun k => k * f) = (psums c l).map fun k => k * f := by
  intro l
  induction l with
  | nil => intro c; rfl
  | cons a l ih =>
    intro c
    simp only [List.map_cons, psums]
    rw [show c * f + a * f = (c + a) * f by ring, ih]

theorem rangeLoop_spec : ∀ (l : List ℚ) (c mn mx : ℚ),
    (rangeLoop l c (mn, mx)).1 ∈ mn :: psums c l ∧ (rangeLoop l c (mn, mx)).2 ∈ mx :: psums c l ∧
    (∀ x ∈ mn :: psums c l, (rangeLoop l c (mn, mx)).1 ≤ x) ∧ ∀ x ∈ mx :: psums c l, x ≤ (rangeLoop l c (mn, mx)).2 := by
  intro l
  induction l with
  | nil => intro c mn mx; simp [rangeLoop, psums]
  | cons a l ih =>
    intro c mn mx
    simp only [rangeLoop, psums]
    obtain ⟨h1, h2, h3, h4⟩ := ih (c + a) (if c + a < mn then c + a else mn) (if c + a > mx then c + a else mx)
    refine ⟨?_, ?_, ?_, ?_⟩
    · rcases List.mem_cons.mp h1 with h | h
      · rw [h]; split <;> simp
      · exact List.mem_cons_of_mem _ (List.mem_cons_of_mem _ h)
    · rcases List.mem_cons.mp h2 with h | h
      · rw [h]; split <;> simp
      · exact List.mem_cons_of_mem _ (List.mem_cons_of_mem _ h)
    · have hm := h3 _ List.mem_cons_self
      intro x hx
      simp only [List.mem_cons] at hx
      rcases hx with rfl | rfl | hx
      · refine hm.trans ?_
        split
        · linarith
        · exact le_refl _
      · refine hm.trans ?_
        split
        · exact le_refl _
        · linarith
      · exact h3 x (List.mem_cons_of_mem _ hx)
    · have hm := h4 _ List.mem_cons_self
      intro x hx
      simp only [List.mem_cons] at hx
      rcases hx with rfl | rfl | hx
      · refine le_trans ?_ hm
        split
        · linarith
        · exact le_refl _
      · refine le_trans ?_ hm
        split
        · exact le_refl _
        · linarith
      · exact h4 x (List.mem_cons_of_mem _ hx)

theorem lastStar_some : ∀ (l : List (Query V)) (i : ℕ), lastStar l = some i → l[i]? = some .star := by
  intro l
  induction l with
  | nil => intro i h; simp [lastStar] at h
  | cons q l ih =>
    intro i h
    simp only [lastStar] at h
    split at h
    · next k hk =>
      simp only [Option.some.injEq] at h
      subst h
      simpa using ih k hk
    · split at h
      · next hq => simp only [Option.some.injEq] at h; subst h; simp [hq]
      · cases h

theorem lastStar_none : ∀ (l : List (Query V)), lastStar l = none → Query.star ∉ l := by
  intro l
  induction l with
  | nil => simp
  | cons q l ih =>
    intro h
    simp only [lastStar] at h
    split at h
    · cases h
    · next hk =>
      split at h
      · cases h
      · next hq =>
        rw [List.mem_cons, not_or]
        exact ⟨fun e => hq e.symm, ih hk⟩

theorem sum_set : ∀ (l : List ℚ) (i : ℕ) (x : ℚ), l[i]? = some 0 → (l.set i x).sum = l.sum + x := by
  intro l
  induction l with
  | nil => intro i x h; simp at h
  | cons a l ih =>
    intro i x h
    cases i with
    | zero => simp at h; subst h; simp; ring
    | succ i =>
      have := ih i x (by simpa using h)
      simp only [List.set_cons_succ, List.sum_cons, this]
      ring

theorem contribNew_spec (r : Res V) (a : ℚ) (qs : List (Query V)) :
    (r.contribNew a qs).1.length = qs.length ∧
    (r.contribNew a qs).1.sum + (r.contribNew a qs).2 = r.total * a ∧
    (Query.star ∈ qs → (r.contribNew a qs).2 = 0) ∧
    (Query.star ∉ qs → (r.contribNew a qs).1 = qs.map fun q => r.score q * a) ∧
    ∀ (j : ℕ) q, qs[j]? = some q → q ≠ .star → (r.contribNew a qs).1[j]? = some (r.score q * a) := by
  unfold Res.contribNew
  cases hs : lastStar qs with
  | none =>
    have hn := lastStar_none _ hs
    refine ⟨by simp, by simp, fun h => absurd h hn, fun _ => rfl, fun j q hj _ => by simp [hj]⟩
  | some i =>
    have hi := lastStar_some _ _ hs
    refine ⟨by simp, ?_, fun _ => rfl, fun h => absurd (List.mem_of_getElem? hi) h, fun j q hj hq => ?_⟩
    · simp only
      rw [sum_set _ _ _ (by simp [hi, Res.score])]
      ring
    · have : i ≠ j := by
        rintro rfl
        rw [hi] at hj
        simp only [Option.some.injEq] at hj
        exact hq hj.symm
      simp [this, hj]

/-- what a row is, before it is scaled to the common unit -/
theorem row_ok (ar : ℚ → Option ℚ) (b : Bool) (stages : List (Query V)) (r : Res V) (d : List ℚ) (f : Bool) (a : ℚ)
    (h : row ar b stages r = .ok (d, f, a)) : scaleOf ar b r = .ok a ∧
    ((f = true ∧ d = (r.contribNew a stages).1 ++ [(r.contribNew a stages).2] ∧ (r.contribNew a stages).2 ≠ 0) ∨
     (f = false ∧ d = (r.contribNew a stages).1 ∧
      ∃ p ∈ 0 :: psums 0 d, ∃ q ∈ 0 :: psums 0 d, |(r.contribNew a stages).2| * 10 ^ 8 ≤ q - p)) := by
  unfold row at h
  cases hs : scaleOf ar b r with
  | error e => rw [hs] at h; cases h
  | ok a' =>
    rw [hs] at h
    simp only at h
    have hr := rangeLoop_spec (r.contribNew a' stages).1 0 0 0
    have hdr : dataRange [(r.contribNew a' stages).1] = rangeLoop (r.contribNew a' stages).1 0 (0, 0) := rfl
    rw [hdr] at h
    split at h
    · next hc =>
      simp only [Except.ok.injEq, Prod.mk.injEq] at h
      obtain ⟨rfl, rfl, rfl⟩ := h
      refine ⟨rfl, .inl ⟨rfl, rfl, fun h0 => ?_⟩⟩
      rw [h0, abs_zero, zero_mul] at hc
      have h1 := hr.2.2.1 0 List.mem_cons_self
      have h2 := hr.2.2.2 0 List.mem_cons_self
      linarith
    · next hc =>
      simp only [Except.ok.injEq, Prod.mk.injEq] at h
      obtain ⟨rfl, rfl, rfl⟩ := h
      refine ⟨rfl, .inr ⟨rfl, rfl, _, hr.1, _, hr.2.1, ?_⟩⟩
      rw [show (10 : ℚ) ^ 8 = 100000000 by norm_num]
      exact not_lt.mp hc

theorem maxScale_spec : ∀ (l : List ℚ), l ≠ [] → maxScale l ∈ l ∧ ∀ a ∈ l, a ≤ maxScale l := by
  intro l
  induction l with
  | nil => intro h; exact absurd rfl h
  | cons a l ih =>
    intro _
    cases l with
    | nil => simp [maxScale]
    | cons b l =>
      obtain ⟨h1, h2⟩ := ih (by simp)
      simp only [maxScale]
      constructor
      · rcases max_choice a (maxScale (b :: l)) with h | h
        · rw [h]; simp
        · rw [h]; exact List.mem_cons_of_mem _ h1
      · intro x hx
        rcases List.mem_cons.mp hx with rfl | hx
        · exact le_max_left _ _
        · exact (h2 x hx).trans (le_max_right _ _)

theorem scale_pos {ar : ℚ → Option ℚ} (har : ∀ x a, ar x = some a → 0 < a) {b : Bool} {r : Res V} {a : ℚ}
    (h : scaleOf ar b r = .ok a) : 0 < a := by
  unfold scaleOf at h
  split at h
  · split at h
    · next hx => injection h with h; subst h; exact har _ _ hx
    · cases h
  · injection h with h; subst h; norm_num

/-- what a chart is made of: rows, one per result; the unit is the largest of their scales; the drawn numbers are the
rows' in that unit -/
theorem waterfall_parts {ar : ℚ → Option ℚ} (har : ∀ x a, ar x = some a → 0 < a) {b incl : Bool} {stages : List (Query V)}
    {results : List (Res V)} {ch : Chart} (h : waterfall ar b incl stages results = .ok ch) :
    ∃ rows : List (List ℚ × Bool × ℚ), List.Forall₂ (fun r x => row ar b stages r = .ok x) results rows ∧
      ch.unit ∈ rows.map (fun x => x.2.2) ∧ (∀ x ∈ rows, x.2.2 ≤ ch.unit) ∧ ch.span = dataRange (rows.map fun x => x.1) ∧
      ch.labels = stages.length + (if rows.any (fun x => x.2.1) && incl then 1 else 0) ∧
      drawRows (rows.map fun x => x.1.map fun k => k * (ch.unit / x.2.2)) (List.replicate ch.labels 0) = .ok ch.rows := by
  unfold waterfall at h
  split at h
  · cases h
  · next hne =>
    split at h
    · cases h
    · next rows hm =>
      simp only at h
      have hf := mapM_forall₂ _ _ _ hm
      have hpos : ∀ x ∈ rows, 0 < x.2.2 := by
        intro x hx
        obtain ⟨i, hi⟩ := List.getElem?_of_mem hx
        have hlt : i < results.length := by
          rw [hf.length_eq]
          exact (List.getElem?_eq_some_iff.mp hi).1
        have h2 := (List.forall₂_iff_get.mp hf).2 i hlt (by rw [← hf.length_eq]; exact hlt)
        have hxi : rows.get ⟨i, by rw [← hf.length_eq]; exact hlt⟩ = x := by
          simpa using (List.getElem?_eq_some_iff.mp hi).2
        rw [hxi] at h2
        obtain ⟨d, f, a⟩ := x
        exact scale_pos har (row_ok _ _ _ _ _ _ _ h2).1
      have hrne : rows.map (fun x => x.2.2) ≠ [] := by
        intro h0
        have := hf.length_eq
        simp only [List.map_eq_nil_iff] at h0
        rw [h0] at this
        exact hne (List.length_eq_zero_iff.mp this)
      split at h
      · cases h
      · next bars hd =>
        simp only [Except.ok.injEq] at h
        subst h
        refine ⟨rows, hf, ?_⟩
        simp only
        by_cases hs : (rows.map fun x => x.2.2).all (fun a => decide (some a = (rows.map fun x => x.2.2).head?)) = true
        · simp only [hs, if_true] at hd ⊢
          obtain ⟨x0, l, hl⟩ := List.exists_cons_of_ne_nil hrne
          have hall : ∀ x ∈ rows, x.2.2 = x0 := by
            intro x hx
            have := (List.all_eq_true.mp hs) x.2.2 (List.mem_map_of_mem hx)
            rw [hl] at this
            simpa using this
          have hlast : (rows.map fun x => x.2.2).getLastD 0 = x0 := by
            have hmem : (rows.map fun x => x.2.2).getLastD 0 ∈ rows.map fun x => x.2.2 := by
              rw [List.getLastD_eq_getLast?, List.getLast?_eq_some_getLast hrne]
              exact List.getLast_mem hrne
            obtain ⟨x, hx, he⟩ := List.mem_map.mp hmem
            rw [← he]
            exact hall x hx
          rw [hlast]
          refine ⟨by rw [hl]; simp, fun x hx => (hall x hx).le, trivial, trivial, ?_⟩
          rw [← hd]
          congr 1
          apply List.map_congr_left
          intro x hx
          have hp := hpos x hx
          rw [← hall x hx, div_self hp.ne']
          simp
        · simp only [hs, Bool.false_eq_true, if_false] at hd ⊢
          obtain ⟨m1, m2⟩ := maxScale_spec _ hrne
          refine ⟨m1, fun x hx => m2 _ (List.mem_map_of_mem hx), trivial, trivial, ?_⟩
          rw [← hd]
          congr 1
          apply List.map_congr_left
          intro x hx
          have hp := hpos x hx
          by_cases hc : x.2.2 = maxScale (rows.map fun x => x.2.2)
          · rw [if_pos hc, ← hc, div_self hp.ne']
            simp
          · rw [if_neg hc]

theorem forall₂_imp {X Y Z : Type} {R : X → Y → Prop} {S : Y → Z → Prop} {T : X → Z → Prop}
    (h : ∀ x y z, R x y → S y z → T x z) : ∀ {l : List X} {m : List Y} {n : List Z},
    List.Forall₂ R l m → List.Forall₂ S m n → List.Forall₂ T l n := by
  intro l m n h1
  induction h1 generalizing n with
  | nil => intro h2; cases h2; exact .nil
  | cons a _ ih => intro h2; cases h2 with
    | cons b h2 => exact .cons (h _ _ _ a b) (ih h2)

theorem sum_map_mul (f : ℚ) (l : List ℚ) : (l.map fun k => k * f).sum = l.sum * f := by
  induction l with
  | nil => simp
  | cons a l ih => simp only [List.map_cons, List.sum_cons, ih]; ring

/-- **the bars of a waterfall**: in every row the first bar starts at the origin and every other one where the one before
ended; a stage's bar is as long as the component's value in the chart's unit, the same for all rows; all bars together
are the total, but for a remainder that is dropped only if it is less than 10 ppb of what the row spans, and never if
one of the stages is '*' -/
theorem waterfall_bars {ar : ℚ → Option ℚ} (har : ∀ x a, ar x = some a → 0 < a) {b incl : Bool} {stages : List (Query V)}
    {results : List (Res V)} (hn : ∀ r ∈ results, r.comps.keys.Nodup) {ch : Chart}
    (h : waterfall ar b incl stages results = .ok ch) :
    List.Forall₂ (fun r bars => Chain 0 bars ∧ stages.length ≤ bars.length ∧ bars.length ≤ stages.length + 1 ∧
        bars.length ≤ ch.labels ∧
        (∀ (j : ℕ) q, stages[j]? = some q → q ≠ .star → ∃ x, Value r q x ∧
          (bars.map fun b => b.width)[j]? = some (x * ch.unit)) ∧
        ∃ e, (bars.map fun b => b.width).sum + e = r.total * ch.unit ∧ (Query.star ∈ stages → e = 0) ∧
          ∃ p ∈ ends bars, ∃ q ∈ ends bars, |e| * 10 ^ 8 ≤ q - p) results ch.rows := by
  obtain ⟨rows, hf, hu, -, -, -, hd⟩ := waterfall_parts har h
  have hd := drawRows_ok _ _ _ hd
  rw [List.forall₂_map_left_iff] at hd
  have hn' : List.Forall₂ (fun r r' : Res V => r = r' ∧ r.comps.keys.Nodup) results results := by
    rw [List.forall₂_same]
    exact fun r hr => ⟨rfl, hn r hr⟩
  have hup : 0 < ch.unit := by
    obtain ⟨x, hx, he⟩ := List.mem_map.mp hu
    obtain ⟨i, hi⟩ := List.getElem?_of_mem hx
    have hlt : i < results.length := by
      rw [hf.length_eq]
      exact (List.getElem?_eq_some_iff.mp hi).1
    have h2 := (List.forall₂_iff_get.mp hf).2 i hlt (by rw [← hf.length_eq]; exact hlt)
    have hxi : rows.get ⟨i, by rw [← hf.length_eq]; exact hlt⟩ = x := by
      simpa using (List.getElem?_eq_some_iff.mp hi).2
    rw [hxi] at h2
    obtain ⟨d, f, a⟩ := x
    rw [← he]
    exact scale_pos har (row_ok _ _ _ _ _ _ _ h2).1
  refine forall₂_imp ?_ hn' (forall₂_imp (T := fun r bars => ∃ x, row ar b stages r = .ok x ∧
    (bars.map (fun b => b.width) = (x.1.map fun k => k * (ch.unit / x.2.2)) ∧ Chain 0 bars ∧
      (x.1.map fun k => k * (ch.unit / x.2.2)).length ≤ (List.replicate ch.labels 0).length))
    (fun r x bars h1 h2 => ⟨x, h1, h2⟩) hf hd)
  rintro r _ bars ⟨rfl, hnr⟩ ⟨⟨d, f, a⟩, hrow, hw, hc, hl⟩
  simp only at hw hl
  obtain ⟨hs, hrow⟩ := row_ok _ _ _ _ _ _ _ hrow
  have ha := scale_pos har hs
  obtain ⟨c1, c2, c3, -, c5⟩ := contribNew_spec r a stages
  have hfac : a * (ch.unit / a) = ch.unit := by field_simp
  have hends : ends bars = (0 :: psums 0 d).map fun k => k * (ch.unit / a) := by
    unfold ends
    rw [chain_ends _ _ hc, hw]
    have := psums_scale (ch.unit / a) d 0
    rw [zero_mul] at this
    rw [this]
    simp
  have hblen : bars.length = d.length := by simpa using congrArg List.length hw
  have hval : ∀ (j : ℕ) q, stages[j]? = some q → q ≠ .star → d[j]? = some (r.score q * a) := by
    intro j q hj hq
    have h5 := c5 j q hj hq
    rcases hrow with ⟨-, rfl, -⟩ | ⟨-, rfl, -⟩
    · rw [List.getElem?_append_left (List.getElem?_eq_some_iff.mp h5).1]; exact h5
    · exact h5
  refine ⟨hc, ?_, ?_, ?_, fun j q hj hq => ⟨r.score q, (score_value r hnr q _).mp rfl, ?_⟩, ?_⟩
  · rw [hblen]
    rcases hrow with ⟨-, rfl, -⟩ | ⟨-, rfl, -⟩ <;> simp [c1]
  · rw [hblen]
    rcases hrow with ⟨-, rfl, -⟩ | ⟨-, rfl, -⟩ <;> simp [c1]
  · rw [hblen]; simpa using hl
  · rw [hw, List.getElem?_map, hval j q hj hq]
    simp only [Option.map_some, Option.some.injEq]
    rw [mul_assoc, hfac]
  · rcases hrow with ⟨-, rfl, -⟩ | ⟨-, rfl, p, hp, q, hq, hpq⟩
    · refine ⟨0, ?_, fun _ => rfl, 0, by simp [ends], 0, by simp [ends], by simp⟩
      rw [hw, sum_map_mul, List.sum_append, List.sum_singleton, c2, add_zero, mul_assoc, hfac]
    · refine ⟨(r.contribNew a stages).2 * (ch.unit / a), ?_, fun hm => by rw [c3 hm, zero_mul], p * (ch.unit / a), ?_,
        q * (ch.unit / a), ?_, ?_⟩
      · rw [hw, sum_map_mul, ← add_mul, c2, mul_assoc, hfac]
      · rw [hends]; exact List.mem_map_of_mem hp
      · rw [hends]; exact List.mem_map_of_mem hq
      · have hpos : 0 < ch.unit / a := div_pos hup ha
        rw [abs_mul, abs_of_pos hpos, ← sub_mul]
        calc |(r.contribNew a stages).2| * (ch.unit / a) * 10 ^ 8
            = |(r.contribNew a stages).2| * 10 ^ 8 * (ch.unit / a) := by ring
          _ ≤ (q - p) * (ch.unit / a) := mul_le_mul_of_nonneg_right hpq hpos.le

theorem forall₂_left {X Y : Type} {R : X → Y → Prop} : ∀ {l : List X} {m : List Y}, List.Forall₂ R l m →
    ∀ x ∈ l, ∃ y ∈ m, R x y := by
  intro l m h
  induction h with
  | nil => simp
  | cons a _ ih =>
    intro x hx
    rcases List.mem_cons.mp hx with rfl | hx
    · exact ⟨_, List.mem_cons_self, a⟩
    · obtain ⟨y, hy, hr⟩ := ih x hx
      exact ⟨y, List.mem_cons_of_mem _ hy, hr⟩

theorem forall₂_right {X Y : Type} {R : X → Y → Prop} : ∀ {l : List X} {m : List Y}, List.Forall₂ R l m →
    ∀ y ∈ m, ∃ x ∈ l, R x y := by
  intro l m h
  induction h with
  | nil => simp
  | cons a _ ih =>
    intro y hy
    rcases List.mem_cons.mp hy with rfl | hy
    · exact ⟨_, List.mem_cons_self, a⟩
    · obtain ⟨x, hx, hr⟩ := ih y hy
      exact ⟨x, List.mem_cons_of_mem _ hx, hr⟩

/-- the unit: 1 without auto-ranging, else the largest of the results' scales -/
theorem waterfall_unit {ar : ℚ → Option ℚ} (har : ∀ x a, ar x = some a → 0 < a) {b incl : Bool} {stages : List (Query V)}
    {results : List (Res V)} {ch : Chart} (h : waterfall ar b incl stages results = .ok ch) :
    (b = false → ch.unit = 1) ∧ (b = true → (∃ r ∈ results, ar r.range = some ch.unit) ∧
      ∀ r ∈ results, ∃ a, ar r.range = some a ∧ a ≤ ch.unit) := by
  obtain ⟨rows, hf, hu, hle, -, -, -⟩ := waterfall_parts har h
  obtain ⟨x, hx, he⟩ := List.mem_map.mp hu
  obtain ⟨r, hr, hrow⟩ := forall₂_right hf x hx
  constructor
  · rintro rfl
    have hs := (row_ok _ _ _ _ x.1 x.2.1 x.2.2 hrow).1
    simp only [scaleOf, Bool.false_eq_true, if_false, Except.ok.injEq] at hs
    rw [← he, ← hs]
  · rintro rfl
    have key : ∀ (r : Res V) a, scaleOf ar true r = .ok a → ar r.range = some a := by
      intro r a hs
      simp only [scaleOf, if_true] at hs
      split at hs
      · next hx => injection hs with hs; rw [hx, hs]
      · cases hs
    refine ⟨⟨r, hr, ?_⟩, fun r hr => ?_⟩
    · rw [← he]
      exact key _ _ (row_ok _ _ _ _ x.1 x.2.1 x.2.2 hrow).1
    · obtain ⟨y, hy, hrow⟩ := forall₂_left hf r hr
      exact ⟨y.2.2, key _ _ (row_ok _ _ _ _ y.1 y.2.1 y.2.2 hrow).1, hle y hy⟩

/-- spec: what the stages do not account for is more than 10 ppb of the span of their bars -/
def Remainder (r : Res V) (stages : List (Query V)) : Prop :=
  Query.star ∉ stages ∧ ∀ d, List.Forall₂ (Value r) stages d → ∀ p ∈ 0 :: psums 0 d, ∀ q ∈ 0 :: psums 0 d,
    |r.total - d.sum| * 10 ^ 8 > q - p

theorem row_remainder {ar : ℚ → Option ℚ} (har : ∀ x a, ar x = some a → 0 < a) {b : Bool} {stages : List (Query V)} {r : Res V}
    (hn : r.comps.keys.Nodup) (hr : Remainder r stages) {x : List ℚ × Bool × ℚ} (h : row ar b stages r = .ok x) :
    x.2.1 = true ∧ x.1.length = stages.length + 1 := by
  obtain ⟨d, f, a⟩ := x
  obtain ⟨hs, hrow⟩ := row_ok _ _ _ _ _ _ _ h
  have ha := scale_pos har hs
  obtain ⟨c1, c2, -, c4, -⟩ := contribNew_spec r a stages
  rcases hrow with ⟨rfl, rfl, -⟩ | ⟨-, rfl, p, hp, q, hq, hpq⟩
  · exact ⟨rfl, by simp [c1]⟩
  · exfalso
    have c4 := c4 hr.1
    have hv : List.Forall₂ (Value r) stages (stages.map r.score) := by
      rw [List.forall₂_map_right_iff, List.forall₂_same]
      exact fun q _ => (score_value r hn q _).mp rfl
    have hd : (r.contribNew a stages).1 = (stages.map r.score).map fun k => k * a := by
      rw [c4, List.map_map]; rfl
    have hps : (0 :: psums 0 (r.contribNew a stages).1) = (0 :: psums 0 (stages.map r.score)).map fun k => k * a := by
      have := psums_scale a (stages.map r.score) 0
      rw [zero_mul] at this
      rw [hd, this]
      simp
    rw [hps] at hp hq
    obtain ⟨p', hp', rfl⟩ := List.mem_map.mp hp
    obtain ⟨q', hq', rfl⟩ := List.mem_map.mp hq
    have h2 := hr.2 _ hv p' hp' q' hq'
    have hnet : (r.contribNew a stages).2 = (r.total - (stages.map r.score).sum) * a := by
      rw [hd, sum_map_mul] at c2
      linarith
    rw [hnet, abs_mul, abs_of_pos ha, ← sub_mul] at hpq
    have h3 := mul_lt_mul_of_pos_right h2 ha
    linarith

/-- without the remainder bar the chart always fails if a result has a remainder -/
theorem waterfall_no_net {ar : ℚ → Option ℚ} (har : ∀ x a, ar x = some a → 0 < a) {b : Bool} {stages : List (Query V)}
    {results : List (Res V)} {r : Res V} (hr : r ∈ results) (hn : r.comps.keys.Nodup) (hrem : Remainder r stages) (ch : Chart) :
    waterfall ar b false stages results ≠ .ok ch := by
  intro h
  obtain ⟨rows, hf, -, -, -, hl, hd⟩ := waterfall_parts har h
  obtain ⟨x, hx, hrow⟩ := forall₂_left hf r hr
  have h2 := row_remainder har hn hrem hrow
  have := drawRows_err (rows.map fun x => x.1.map fun k => k * (ch.unit / x.2.2)) (List.replicate ch.labels 0)
    ⟨_, List.mem_map_of_mem hx, by simp [h2.2, hl]⟩
  rw [this] at hd
  cases hd

/-- with the remainder bar, and scales for all results, there is always a chart -/
theorem waterfall_exists {ar : ℚ → Option ℚ} {b : Bool} {stages : List (Query V)}
    {results : List (Res V)} (hne : results ≠ []) (hs : b = true → ∀ r ∈ results, ar r.range ≠ none) :
    ∃ ch, waterfall ar b true stages results = .ok ch := by
  have h1 : ∀ r ∈ results, ∃ x, row ar b stages r = .ok x := by
    intro r hr
    have : ∃ a, scaleOf ar b r = .ok a := by
      unfold scaleOf
      cases b with
      | false => exact ⟨1, rfl⟩
      | true =>
        obtain ⟨a, ha⟩ := Option.ne_none_iff_exists'.mp (hs rfl r hr)
        exact ⟨a, by simp [ha]⟩
    obtain ⟨a, ha⟩ := this
    unfold row
    rw [ha]
    simp only
    split <;> exact ⟨_, rfl⟩
  have h2 : ∀ l : List (Res V), (∀ r ∈ l, ∃ x, row ar b stages r = .ok x) → ∃ m, l.mapM (row ar b stages) = .ok m := by
    intro l
    induction l with
    | nil => intro _; exact ⟨[], rfl⟩
    | cons r l ih =>
      intro h
      obtain ⟨x, hx⟩ := h r List.mem_cons_self
      obtain ⟨m, hm⟩ := ih fun r hr => h r (List.mem_cons_of_mem _ hr)
      exact ⟨x :: m, by rw [List.mapM_cons, hx, hm]; rfl⟩
  obtain ⟨rows, hrows⟩ := h2 _ h1
  have hf := mapM_forall₂ _ _ _ hrows
  have h3 : ∀ (ds : List (List ℚ)) (st : List ℕ), (∀ d ∈ ds, d.length ≤ st.length) → ∃ bars, drawRows ds st = .ok bars := by
    intro ds
    induction ds with
    | nil => intro st _; exact ⟨[], rfl⟩
    | cons d l ih =>
      intro st h
      obtain ⟨⟨bars, st'⟩, hp⟩ := drawRow_some d st 0 (h d List.mem_cons_self)
      obtain ⟨rest, hrest⟩ := ih st' (by
        rw [(drawRow_ok _ _ _ _ _ hp).2.2.2]
        exact fun d hd => h d (List.mem_cons_of_mem _ hd))
      exact ⟨bars :: rest, by simp only [drawRows, hp, hrest]⟩
  have hlen : ∀ x ∈ rows, x.1.length ≤ stages.length + (if rows.any (fun x => x.2.1) && true then 1 else 0) := by
    rintro ⟨d, f, a⟩ hx
    obtain ⟨r, hr, hrow⟩ := forall₂_right hf _ hx
    obtain ⟨-, hrow⟩ := row_ok _ _ _ _ _ _ _ hrow
    have c1 := (contribNew_spec r a stages).1
    rcases hrow with ⟨rfl, rfl, -⟩ | ⟨-, rfl, -⟩
    · have : rows.any (fun x => x.2.1) = true := List.any_eq_true.mpr ⟨_, hx, rfl⟩
      simp [this, c1]
    · simp [c1]
  unfold waterfall
  rw [if_neg (by
    cases results with
    | nil => exact absurd rfl hne
    | cons a l => simp), hrows]
  simp only
  obtain ⟨bars, hb⟩ := h3 (if ((rows.map fun x => x.2.2).all fun a => decide (some a = (rows.map fun x => x.2.2).head?)) = true
      then rows.map fun x => x.1
      else rows.map fun x => if x.2.2 = maxScale (rows.map fun x => x.2.2) then x.1
        else x.1.map fun k => k * (maxScale (rows.map fun x => x.2.2) / x.2.2))
    (List.replicate (stages.length + (if rows.any (fun x => x.2.1) && true then 1 else 0)) 0) (by
      intro d hd
      rw [List.length_replicate]
      split at hd
      · obtain ⟨x, hx, rfl⟩ := List.mem_map.mp hd
        exact hlen x hx
      · obtain ⟨x, hx, rfl⟩ := List.mem_map.mp hd
        split
        · exact hlen x hx
        · rw [List.length_map]; exact hlen x hx)
  rw [hb]
  exact ⟨_, rfl⟩

/-- auto-ranging fails if one of the results is null -/
theorem waterfall_null {ar : ℚ → Option ℚ} (har : ∀ x a, ar x = some a → 0 < a) (h0 : ar 0 = none) {incl : Bool}
    {stages : List (Query V)} {results : List (Res V)} {r : Res V} (hr : r ∈ results) (hz : ∀ kv ∈ r.comps, kv.2.2 = 0)
    (ch : Chart) : waterfall ar true incl stages results ≠ .ok ch := by
  intro h
  obtain ⟨a, ha, -⟩ := ((waterfall_unit har h).2 rfl).2 r hr
  have : r.range = 0 := by
    unfold Res.range
    apply List.sum_eq_zero
    intro x hx
    obtain ⟨kv, hkv, rfl⟩ := List.mem_map.mp hx
    simp [hz kv hkv]
  rw [this, h0] at ha
  cases ha

/-! ### C198 -/

/-- **colours**: how often the colour of a bar was faded is the number of rows up to and including its own that have a
negative bar at that stage -/
theorem waterfall_fade {ar : ℚ → Option ℚ} (har : ∀ x a, ar x = some a → 0 < a) {b incl : Bool} {stages : List (Query V)}
    {results : List (Res V)} {ch : Chart} (h : waterfall ar b incl stages results = .ok ch) (i : ℕ) (bars : List Bar)
    (hi : ch.rows[i]? = some bars) (j : ℕ) (bar : Bar) (hj : bars[j]? = some bar) :
    bar.fade = ((ch.rows.take (i + 1)).filter fun row => decide (∃ b', row[j]? = some b' ∧ b'.width < 0)).length := by
  obtain ⟨rows, -, -, -, -, -, hd⟩ := waterfall_parts har h
  have h1 := drawRows_ok _ _ _ hd
  have hlen : j < (List.replicate ch.labels 0).length := by
    have hi' : i < (rows.map fun x => x.1.map fun k => k * (ch.unit / x.2.2)).length := by
      rw [h1.length_eq]; exact (List.getElem?_eq_some_iff.mp hi).1
    have := (List.forall₂_iff_get.mp h1).2 i hi' (List.getElem?_eq_some_iff.mp hi).1
    have hb : ch.rows.get ⟨i, (List.getElem?_eq_some_iff.mp hi).1⟩ = bars := by
      simpa using (List.getElem?_eq_some_iff.mp hi).2
    rw [hb] at this
    have hl := congrArg List.length this.1
    rw [List.length_map] at hl
    have hjl := (List.getElem?_eq_some_iff.mp hj).1
    omega
  have h2 := drawRows_fade _ _ _ hd i bars hi j bar 0 hj (by
    rw [List.getElem?_eq_some_iff]
    exact ⟨hlen, by simp⟩)
  rw [h2, zero_add]
  have h3 : (rows.map fun x => x.1.map fun k => k * (ch.unit / x.2.2)) = ch.rows.map fun bars => bars.map fun b => b.width := by
    clear h2
    generalize (rows.map fun x => x.1.map fun k => k * (ch.unit / x.2.2)) = ds at h1
    generalize ch.rows = rs at h1
    induction h1 with
    | nil => rfl
    | cons a _ ih => rw [List.map_cons, ih, a.1]
  unfold negRows
  rw [h3, ← List.map_take, List.filter_map, List.length_map]
  congr 1
  apply List.filter_congr
  intro row _
  simp only [Function.comp, List.getElem?_map]
  apply Bool.decide_congr
  constructor
  · rintro ⟨a, ha, hneg⟩
    obtain ⟨b', hb', rfl⟩ := Option.map_eq_some_iff.mp ha
    exact ⟨b', hb', hneg⟩
  · rintro ⟨b', hb', hneg⟩
    exact ⟨b'.width, by rw [hb']; rfl, hneg⟩

/-- so in the first row just the negative bars are faded -/
theorem waterfall_fade_first {ar : ℚ → Option ℚ} (har : ∀ x a, ar x = some a → 0 < a) {b incl : Bool} {stages : List (Query V)}
    {results : List (Res V)} {ch : Chart} (h : waterfall ar b incl stages results = .ok ch) (bars : List Bar)
    (hi : ch.rows[0]? = some bars) (j : ℕ) (bar : Bar) (hj : bars[j]? = some bar) :
    bar.fade = if bar.width < 0 then 1 else 0 := by
  rw [waterfall_fade har h 0 bars hi j bar hj]
  obtain ⟨r, l, hr⟩ : ∃ r l, ch.rows = r :: l := by
    cases hc : ch.rows with
    | nil => rw [hc] at hi; simp at hi
    | cons r l => exact ⟨r, l, rfl⟩
  rw [hr] at hi ⊢
  simp at hi
  subst hi
  by_cases hw : bar.width < 0
  · simp [hj, hw]
  · simp [hj, hw]

/-- but a later row's bar is faded, positive or not, if any row before it has a negative bar at that stage -/
theorem waterfall_fade_later {ar : ℚ → Option ℚ} (har : ∀ x a, ar x = some a → 0 < a) {b incl : Bool} {stages : List (Query V)}
    {results : List (Res V)} {ch : Chart} (h : waterfall ar b incl stages results = .ok ch) (i i' : ℕ) (hlt : i' < i)
    (bars bars' : List Bar) (hi : ch.rows[i]? = some bars) (hi' : ch.rows[i']? = some bars') (j : ℕ) (bar bar' : Bar)
    (hj : bars[j]? = some bar) (hj' : bars'[j]? = some bar') (hneg : bar'.width < 0) : 0 < bar.fade := by
  rw [waterfall_fade har h i bars hi j bar hj, List.length_pos_iff_exists_mem]
  refine ⟨bars', List.mem_filter.mpr ⟨?_, by simp only [decide_eq_true_eq]; exact ⟨bar', hj', hneg⟩⟩⟩
  apply List.mem_of_getElem? (i := i')
  rw [List.getElem?_take, if_pos (by omega)]
  exact hi'

/-! ### C199 -/

theorem dataRange_fold : ∀ (ds : List (List ℚ)) (m : ℚ × ℚ),
    let R := ds.foldl (fun m row => rangeLoop row 0 m) m
    R.1 ≤ m.1 ∧ m.2 ≤ R.2 ∧ (R.1 = m.1 ∨ ∃ d ∈ ds, R.1 ∈ psums 0 d) ∧ (R.2 = m.2 ∨ ∃ d ∈ ds, R.2 ∈ psums 0 d) ∧
    ∀ d ∈ ds, ∀ x ∈ psums 0 d, R.1 ≤ x ∧ x ≤ R.2 := by
  intro ds
  induction ds with
  | nil => intro m; simp
  | cons d l ih =>
    intro m
    simp only [List.foldl_cons]
    obtain ⟨r1, r2, r3, r4⟩ := rangeLoop_spec d 0 m.1 m.2
    obtain ⟨i1, i2, i3, i4, i5⟩ := ih (rangeLoop d 0 m)
    have q3 := r3 _ List.mem_cons_self
    have q4 := r4 _ List.mem_cons_self
    refine ⟨i1.trans q3, le_trans q4 i2, ?_, ?_, ?_⟩
    · rcases i3 with h | ⟨x, hx, hm⟩
      · rcases List.mem_cons.mp r1 with h1 | h1
        · exact .inl (h.trans h1)
        · exact .inr ⟨d, List.mem_cons_self, by rw [h]; exact h1⟩
      · exact .inr ⟨x, List.mem_cons_of_mem _ hx, hm⟩
    · rcases i4 with h | ⟨x, hx, hm⟩
      · rcases List.mem_cons.mp r2 with h1 | h1
        · exact .inl (h.trans h1)
        · exact .inr ⟨d, List.mem_cons_self, by rw [h]; exact h1⟩
      · exact .inr ⟨x, List.mem_cons_of_mem _ hx, hm⟩
    · intro x hx y hy
      rcases List.mem_cons.mp hx with rfl | hx
      · exact ⟨i1.trans (r3 y (List.mem_cons_of_mem _ hy)), (r4 y (List.mem_cons_of_mem _ hy)).trans i2⟩
      · exact i5 x hx y hy

/-- **the span of the chart**: without auto-ranging, or if all results have the same scale, all bars are within it, and
its limits are the origin or the end of a bar -/
theorem waterfall_span {ar : ℚ → Option ℚ} (har : ∀ x a, ar x = some a → 0 < a) {b incl : Bool} {stages : List (Query V)}
    {results : List (Res V)} {ch : Chart} (h : waterfall ar b incl stages results = .ok ch)
    (hs : b = true → ∀ r ∈ results, ar r.range = some ch.unit) :
    (∀ bars ∈ ch.rows, ∀ x ∈ ends bars, ch.span.1 ≤ x ∧ x ≤ ch.span.2) ∧
    (∃ bars ∈ ch.rows, ch.span.1 ∈ ends bars) ∧ ∃ bars ∈ ch.rows, ch.span.2 ∈ ends bars := by
  obtain ⟨rows, hf, hu, -, hsp, -, hd⟩ := waterfall_parts har h
  have hsc : ∀ x ∈ rows, x.2.2 = ch.unit := by
    intro x hx
    obtain ⟨r, hr, hrow⟩ := forall₂_right hf x hx
    have h1 := (row_ok _ _ _ _ x.1 x.2.1 x.2.2 hrow).1
    cases b with
    | false =>
      rw [((waterfall_unit har h).1 rfl)]
      simp only [scaleOf, Bool.false_eq_true, if_false, Except.ok.injEq] at h1
      exact h1.symm
    | true =>
      have := hs rfl r hr
      simp only [scaleOf, if_true, this, Except.ok.injEq] at h1
      exact h1.symm
  have hup : ch.unit ≠ 0 := by
    obtain ⟨x, hx, he⟩ := List.mem_map.mp hu
    obtain ⟨r, hr, hrow⟩ := forall₂_right hf x hx
    rw [← he]
    exact (scale_pos har (row_ok _ _ _ _ x.1 x.2.1 x.2.2 hrow).1).ne'
  have hdata : (rows.map fun x => x.1.map fun k => k * (ch.unit / x.2.2)) = rows.map fun x => x.1 := by
    apply List.map_congr_left
    intro x hx
    rw [hsc x hx, div_self hup]
    simp
  rw [hdata] at hd
  have h1 := drawRows_ok _ _ _ hd
  have hends : ∀ bars ∈ ch.rows, ∃ d ∈ rows.map (fun x => x.1), ends bars = 0 :: psums 0 d := by
    intro bars hb
    obtain ⟨d, hd', hw, hc, -⟩ := forall₂_right h1 bars hb
    exact ⟨d, hd', by rw [ends, chain_ends _ _ hc, hw]⟩
  have hends' : ∀ d ∈ rows.map (fun x => x.1), ∃ bars ∈ ch.rows, ends bars = 0 :: psums 0 d := by
    intro d hd'
    obtain ⟨bars, hb, hw, hc, -⟩ := forall₂_left h1 d hd'
    exact ⟨bars, hb, by rw [ends, chain_ends _ _ hc, hw]⟩
  obtain ⟨f1, f2, f3, f4, f5⟩ := dataRange_fold (rows.map fun x => x.1) (0, 0)
  have hne : ∃ bars, bars ∈ ch.rows := by
    obtain ⟨x, hx, -⟩ := List.mem_map.mp hu
    obtain ⟨bars, hb, -⟩ := hends' x.1 (List.mem_map_of_mem hx)
    exact ⟨bars, hb⟩
  rw [hsp]
  refine ⟨fun bars hb x hx => ?_, ?_, ?_⟩
  · obtain ⟨d, hd', he⟩ := hends bars hb
    rw [he] at hx
    rcases List.mem_cons.mp hx with rfl | hx
    · exact ⟨f1, f2⟩
    · exact f5 d hd' x hx
  · rcases f3 with h3 | ⟨d, hd', hm⟩
    · obtain ⟨bars, hb⟩ := hne
      exact ⟨bars, hb, by rw [show (dataRange (rows.map fun x => x.1)).1 = 0 from h3]; simp [ends]⟩
    · obtain ⟨bars, hb, he⟩ := hends' d hd'
      exact ⟨bars, hb, by rw [he]; exact List.mem_cons_of_mem _ hm⟩
  · rcases f4 with h3 | ⟨d, hd', hm⟩
    · obtain ⟨bars, hb⟩ := hne
      exact ⟨bars, hb, by rw [show (dataRange (rows.map fun x => x.1)).2 = 0 from h3]; simp [ends]⟩
    · obtain ⟨bars, hb, he⟩ := hends' d hd'
      exact ⟨bars, hb, by rw [he]; exact List.mem_cons_of_mem _ hm⟩

/-! ### examples -/

/-- scales like those of `AutoRange`: thousands are shown in kilo -/
def exAr (x : ℚ) : Option ℚ := if x = 0 then none else if x ≥ 1000 then some (1 / 1000) else some 1

theorem exAr_pos : ∀ x a, exAr x = some a → 0 < a := by
  intro x a h
  unfold exAr at h
  split at h
  · cases h
  · split at h <;> (injection h with h; subst h; norm_num)

def exA : Res ℕ := ⟨[(1, (11, 3)), (2, (12, -1)), (3, (13, 2))], false⟩
def exB : Res ℕ := ⟨[(1, (11, 5)), (2, (12, 4))], false⟩
def exC : Res ℕ := ⟨[(1, (11, 3000)), (2, (12, -1000))], false⟩

def exW (b incl : Bool) (st : List (Query ℕ)) (rs : List (Res ℕ)) : Option (List (List (ℚ × ℚ × ℕ)) × ℚ × ℚ × ℚ) :=
  (waterfall exAr b incl st rs).toOption.map fun c => (c.rows.map fun l => l.map fun b => (b.left, b.width, b.fade), c.unit, c.span)

/-- two rows; the second one's positive bar at the second stage is faded -/
example : exW false true [.val 1, .val 2] [exA, exB] =
    some ([[(0, 3, 0), (3, -1, 1), (2, 2, 0)], [(0, 5, 0), (5, 4, 1)]], 1, 0, 9) := by decide +kernel
/-- no chart without the remainder bar -/
example : exW false false [.val 1, .val 2] [exA, exB] = none := by decide +kernel
example : exW false false [.val 1, .star, .val 2] [exA, exB] ≠ none := by decide +kernel
/-- **the span is wrong** when scales differ: bars up to 3000 in a chart that is said to span 0 to 9 -/
example : exW true true [.val 1, .val 2] [exB, exC] =
    some ([[(0, 5, 0), (5, 4, 0)], [(0, 3000, 0), (3000, -1000, 1)]], 1, 0, 9) := by decide +kernel

theorem waterfall_span_false : ∃ ch, waterfall exAr true true [.val 1, .val 2] [exB, exC] = .ok ch ∧
    ∃ bars ∈ ch.rows, ∃ x ∈ ends bars, x > 300 * ch.span.2 := by
  have h : exW true true [.val 1, .val 2] [exB, exC] =
      some ([[(0, 5, 0), (5, 4, 0)], [(0, 3000, 0), (3000, -1000, 1)]], 1, 0, 9) := by decide +kernel
  unfold exW at h
  cases hw : waterfall exAr true true [.val 1, .val 2] [exB, exC] with
  | error e => rw [hw] at h; cases h
  | ok ch =>
    rw [hw] at h
    simp only [Except.toOption, Option.map_some, Option.some.injEq, Prod.mk.injEq] at h
    obtain ⟨h1, -, h2⟩ := h
    refine ⟨ch, rfl, ?_⟩
    obtain ⟨r1, l1, hr⟩ : ∃ r1 r2, ch.rows = [r1, r2] := by
      match hc : ch.rows with
      | [] => rw [hc] at h1; simp at h1
      | [_] => rw [hc] at h1; simp at h1
      | [a, b] => exact ⟨a, b, rfl⟩
      | _ :: _ :: _ :: _ => rw [hc] at h1; simp at h1
    rw [hr] at h1
    simp only [List.map_cons, List.map_nil, List.cons.injEq, and_true] at h1
    obtain ⟨-, h3⟩ := h1
    refine ⟨l1, by rw [hr]; simp, ?_⟩
    cases l1 with
    | nil => simp at h3
    | cons b l =>
      simp only [List.map_cons, List.cons.injEq, Prod.mk.injEq] at h3
      obtain ⟨⟨e1, e2, -⟩, -⟩ := h3
      refine ⟨3000, ?_, ?_⟩
      · simp [ends, e1, e2]
      · rw [show ch.span.2 = 9 from congrArg Prod.snd h2]; norm_num

example : exR.comps.keys.Nodup ∧ exB.comps.keys.Nodup ∧ exC.comps.keys.Nodup := by decide
example : Remainder exA [.val 1, .val 2] := by
  have hn : exA.comps.keys.Nodup := by decide
  refine ⟨by decide, fun d hd => ?_⟩
  have : d = [3, -1] := by
    match hd with
    | .cons h1 (.cons h2 .nil) =>
      have e1 := (score_value exA hn _ _).mpr h1
      have e2 := (score_value exA hn _ _).mpr h2
      rw [← e1, ← e2]
      decide +kernel
  subst this
  decide +kernel
example : exAr 0 = none ∧ exAr 9 = some 1 ∧ exAr exC.range = some (1 / 1000) := by decide +kernel

end Charts
