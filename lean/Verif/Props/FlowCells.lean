import Verif.Model.FlowCells
import Mathlib.Tactic.Linarith
import Mathlib.Data.List.Perm.Basic
import Mathlib.Algebra.BigOperators.Group.List.Basic

/-!
C214: the cells of a FlowablesGrid.
-/

namespace Tab

/-! ### Specification -/

/-- a text followed by points -/
def dotted (k : String) : ℕ → String
  | 0 => k
  | n + 1 => dotted k n ++ "."

/-- the names under which the factor of a flow at a location is shown: that of the flow (everywhere) or the location, or both, with
points -/
def NameOf (key name loc k : String) : Prop :=
  k = (if loc = "GLO" then key else loc) ∨ ∃ n, k = dotted ("[" ++ loc ++ "] " ++ name) n

/-- the amounts of an exchange or component of a result, by name -/
def FItem.amounts : FItem → List (String × ℚ)
  | .exchange key alloc value => alloc ++ (match value with | none => [] | some v => [(key, v)])
  | .score key v => [(key, v)]
  | .factor _ _ _ => []

/-- an item that is no factor -/
def FItem.Plain : FItem → Prop
  | .factor _ _ _ => False
  | _ => True

/-! ### the loop ends -/

theorem dotted_length (k : String) (n : ℕ) : (dotted k n).length = k.length + n := by
  induction n with
  | zero => rfl
  | succ n ih =>
    rw [dotted, String.length_append, ih]
    show k.length + n + 1 = _
    omega

theorem dotted_shift (k : String) (n : ℕ) : dotted (k ++ ".") n = dotted k (n + 1) := by
  induction n with
  | zero => rfl
  | succ n ih => rw [dotted, ih]; rfl

theorem freshKey_cases (d : Dict String ℚ) : ∀ (n : ℕ) (k : String),
    (∃ i < n, freshKey n d k = some (dotted k i) ∧ look d (dotted k i) = 0) ∨
    (freshKey n d k = none ∧ ∀ i < n, look d (dotted k i) ≠ 0)
  | 0, k => .inr ⟨rfl, fun i h => by omega⟩
  | n + 1, k => by
    unfold freshKey
    by_cases h : look d k ≠ 0
    · rw [if_pos h]
      rcases freshKey_cases d n (k ++ ".") with ⟨i, hi, h1, h2⟩ | ⟨h1, h2⟩
      · left
        refine ⟨i + 1, by omega, ?_, ?_⟩
        · rw [h1, dotted_shift]
        · rw [← dotted_shift]; exact h2
      · right
        refine ⟨h1, ?_⟩
        intro i hi
        cases i with
        | zero => exact h
        | succ i => rw [← dotted_shift]; exact h2 i (by omega)
    · rw [if_neg h]
      left
      exact ⟨0, by omega, rfl, by simpa [dotted] using h⟩

/-- the loop ends after as many steps as there are names, plus one -/
theorem freshKey_some (d : Dict String ℚ) (k : String) :
    ∃ i, freshKey (d.length + 1) d k = some (dotted k i) ∧ look d (dotted k i) = 0 := by
  rcases freshKey_cases d (d.length + 1) k with ⟨i, -, h⟩ | ⟨-, h⟩
  · exact ⟨i, h⟩
  · exfalso
    have hn : ((List.range (d.length + 1)).map (dotted k)).Nodup := by
      refine List.Nodup.map ?_ List.nodup_range
      intro a b hab
      have := congrArg String.length hab
      rw [dotted_length, dotted_length] at this
      omega
    have hs : (List.range (d.length + 1)).map (dotted k) ⊆ d.keys := by
      intro x hx
      rw [List.mem_map] at hx
      obtain ⟨i, hi, rfl⟩ := hx
      rw [List.mem_range] at hi
      have := h i hi
      rw [Dict.mem_keys_iff]
      unfold look at this
      cases hg : d.get? (dotted k i) with
      | none => rw [hg] at this; exact absurd rfl this
      | some v => exact ⟨v, rfl⟩
    have := (List.subperm_of_subset hn hs).length_le
    have hl : d.keys.length = d.length := by simp [Dict.keys]
    simp only [List.length_map, List.length_range] at this
    omega

/-! ### factors -/

theorem addLoc_spec (key name : String) (d : Dict String ℚ) (lv : String × ℚ) :
    ∃ d', addLoc key name d lv = some d' ∧
      (∀ k v, v ≠ 0 → d.get? k = some v → d'.get? k = some v) ∧
      (lv.2 ≠ 0 → ∃ k, NameOf key name lv.1 k ∧ d'.get? k = some lv.2) ∧
      (∀ k v, v ≠ 0 → d'.get? k = some v → d.get? k = some v ∨ (v = lv.2 ∧ NameOf key name lv.1 k)) := by
  have keep : ∀ k0, look d k0 = 0 → ∀ k v, v ≠ 0 → d.get? k = some v → (d.set k0 lv.2).get? k = some v := by
    intro k0 h0 k v hv hk
    by_cases e : k0 = k
    · subst e; unfold look at h0; rw [hk] at h0; exact absurd h0 hv
    · rw [Dict.get?_set_ne _ _ e]; exact hk
  have only : ∀ k0, NameOf key name lv.1 k0 → ∀ k v, v ≠ 0 → (d.set k0 lv.2).get? k = some v →
      d.get? k = some v ∨ (v = lv.2 ∧ NameOf key name lv.1 k) := by
    intro k0 h0 k v hv hk
    by_cases e : k0 = k
    · subst e; rw [Dict.get?_set_self] at hk; cases hk; exact .inr ⟨rfl, h0⟩
    · rw [Dict.get?_set_ne _ _ e] at hk; exact .inl hk
  unfold addLoc
  simp only
  by_cases h0 : look d (if lv.1 = "GLO" then key else lv.1) = 0
  · rw [if_pos h0]
    exact ⟨_, rfl, keep _ h0, fun _ => ⟨_, .inl rfl, Dict.get?_set_self _ _ _⟩, only _ (.inl rfl)⟩
  · rw [if_neg h0]
    by_cases h1 : look d (if lv.1 = "GLO" then key else lv.1) ≠ lv.2
    · rw [if_pos h1]
      obtain ⟨i, h2, h3⟩ := freshKey_some d ("[" ++ lv.1 ++ "] " ++ name)
      rw [h2]
      exact ⟨_, rfl, keep _ h3, fun _ => ⟨_, .inr ⟨i, rfl⟩, Dict.get?_set_self _ _ _⟩, only _ (.inr ⟨i, rfl⟩)⟩
    · rw [if_neg h1]
      refine ⟨d, rfl, fun _ _ _ h => h, fun hv => ⟨_, .inl rfl, ?_⟩, fun _ _ _ h => .inl h⟩
      have h1 : look d (if lv.1 = "GLO" then key else lv.1) = lv.2 := by simpa using h1
      unfold look at h1 h0
      cases hg : d.get? (if lv.1 = "GLO" then key else lv.1) with
      | none => rw [hg] at h0; exact absurd rfl h0
      | some v => rw [hg] at h1; simpa using h1

theorem addLocs_spec (key name : String) : ∀ (l : List (String × ℚ)) (d : Dict String ℚ),
    ∃ d', addLocs key name l d = some d' ∧
      (∀ k v, v ≠ 0 → d.get? k = some v → d'.get? k = some v) ∧
      (∀ lv ∈ l, lv.2 ≠ 0 → ∃ k, NameOf key name lv.1 k ∧ d'.get? k = some lv.2) ∧
      (∀ k v, v ≠ 0 → d'.get? k = some v → d.get? k = some v ∨ ∃ lv ∈ l, v = lv.2 ∧ NameOf key name lv.1 k)
  | [], d => ⟨d, rfl, fun _ _ _ h => h, (fun _ h => by cases h), fun _ _ _ h => .inl h⟩
  | lv :: l, d => by
    obtain ⟨d1, h1, h2, h3, h4⟩ := addLoc_spec key name d lv
    obtain ⟨d2, g1, g2, g3, g4⟩ := addLocs_spec key name l d1
    unfold addLocs
    rw [h1]
    refine ⟨d2, g1, fun k v hv h => g2 k v hv (h2 k v hv h), ?_, ?_⟩
    · intro x hx hv
      rw [List.mem_cons] at hx
      rcases hx with rfl | hx
      · obtain ⟨k, hk, hg⟩ := h3 hv
        exact ⟨k, hk, g2 k _ hv hg⟩
      · exact g3 x hx hv
    · intro k v hv h
      rcases g4 k v hv h with h | ⟨x, hx, h⟩
      · rcases h4 k v hv h with h | h
        · exact .inl h
        · exact .inr ⟨lv, by simp, h⟩
      · exact .inr ⟨x, by simp [hx], h⟩

theorem addItem_total (d : Dict String ℚ) (i : FItem) : ∃ d', addItem d i = some d' := by
  cases i with
  | exchange key alloc value => cases value <;> exact ⟨_, rfl⟩
  | factor key name locs => obtain ⟨d', h, -⟩ := addLocs_spec key name locs d; exact ⟨d', h⟩
  | score key v => exact ⟨_, rfl⟩

/-- C214: a cell always is computed. -/
theorem flowCell_total (items : List FItem) : ∃ d, flowCell items = some d := by
  have gen : ∀ (l : List FItem) (d : Dict String ℚ), ∃ d', addItems l d = some d' := by
    intro l
    induction l with
    | nil => intro d; exact ⟨d, rfl⟩
    | cons i l ih =>
      intro d
      obtain ⟨d1, h1⟩ := addItem_total d i
      unfold addItems
      rw [h1]
      exact ih d1
  exact gen items []

/-- C214: no factor is lost, and none is made up: every factor that is not 0, at every location, is shown under the name of its flow
or location; and every amount shown that is not 0 is such a factor. -/
theorem factors_shown {items : List FItem} (hf : ∀ i ∈ items, ∃ key name locs, i = .factor key name locs) {d : Dict String ℚ}
    (h : flowCell items = some d) :
    (∀ key name locs, FItem.factor key name locs ∈ items → ∀ loc v, (loc, v) ∈ locs → v ≠ 0 →
      ∃ k, NameOf key name loc k ∧ d.get? k = some v) ∧
    (∀ k v, d.get? k = some v → v ≠ 0 → ∃ key name locs loc, FItem.factor key name locs ∈ items ∧ (loc, v) ∈ locs ∧
      NameOf key name loc k) := by
  have gen : ∀ (l : List FItem) (d d' : Dict String ℚ), (∀ i ∈ l, ∃ key name locs, i = .factor key name locs) →
      addItems l d = some d' →
      (∀ k v, v ≠ 0 → d.get? k = some v → d'.get? k = some v) ∧
      (∀ key name locs, FItem.factor key name locs ∈ l → ∀ loc v, (loc, v) ∈ locs → v ≠ 0 →
        ∃ k, NameOf key name loc k ∧ d'.get? k = some v) ∧
      (∀ k v, d'.get? k = some v → v ≠ 0 → d.get? k = some v ∨ ∃ key name locs loc, FItem.factor key name locs ∈ l ∧
        (loc, v) ∈ locs ∧ NameOf key name loc k) := by
    intro l
    induction l with
    | nil =>
      intro d d' _ h
      cases h
      exact ⟨fun _ _ _ h => h, (fun _ _ _ h => by cases h), fun _ _ h _ => .inl h⟩
    | cons i l ih =>
      intro d d' hl h
      obtain ⟨key, name, locs, rfl⟩ := hl i (by simp)
      obtain ⟨d1, h1, h2, h3, h4⟩ := addLocs_spec key name locs d
      have h1' : addItem d (.factor key name locs) = some d1 := h1
      unfold addItems at h
      rw [h1'] at h
      simp only at h
      obtain ⟨g1, g2, g3⟩ := ih d1 d' (fun i hi => hl i (by simp [hi])) h
      refine ⟨fun k v hv h => g1 k v hv (h2 k v hv h), ?_, ?_⟩
      · intro key' name' locs' hm loc v hlv hv
        rw [List.mem_cons] at hm
        rcases hm with hm | hm
        · cases hm
          obtain ⟨k, hk, hg⟩ := h3 _ hlv hv
          exact ⟨k, hk, g1 k v hv hg⟩
        · exact g2 _ _ _ hm loc v hlv hv
      · intro k v hk hv
        rcases g3 k v hk hv with h | ⟨a, b, c, e, hm, h⟩
        · rcases h4 k v hv h with h | ⟨⟨loc, w⟩, hx, rfl, hn⟩
          · exact .inl h
          · exact .inr ⟨key, name, locs, loc, by simp, hx, hn⟩
        · exact .inr ⟨a, b, c, e, by simp [hm], h⟩
  obtain ⟨-, a, b⟩ := gen items [] d hf h
  refine ⟨a, fun k v hk hv => ?_⟩
  rcases b k v hk hv with h | h
  · cases h
  · exact h

/-! ### exchanges and results -/

/-- the amounts under a name -/
def underName (k : String) (l : List (String × ℚ)) : List ℚ := (l.filter fun e => decide (e.1 = k)).map Prod.snd

/-- C214: of exchanges and of components of results, the cell has under each name the sum of the amounts, and nothing where there are
none. -/
theorem plain_sum {items : List FItem} (hp : ∀ i ∈ items, i.Plain) {d : Dict String ℚ} (h : flowCell items = some d) (k : String) :
    d.get? k = if underName k (items.flatMap FItem.amounts) = [] then none
      else some (underName k (items.flatMap FItem.amounts)).sum := by
  have one : ∀ (d : Dict String ℚ) (pre : List (String × ℚ)) (e : String × ℚ),
      (∀ k, d.get? k = if underName k pre = [] then none else some (underName k pre).sum) →
      ∀ k, (plus d e.1 e.2).get? k = if underName k (pre ++ [e]) = [] then none else some (underName k (pre ++ [e])).sum := by
    intro d pre e hd k
    unfold plus
    rw [Dict.get?_set]
    by_cases hk : e.1 = k
    · rw [if_pos hk]
      subst hk
      have e1 : underName e.1 (pre ++ [e]) = underName e.1 pre ++ [e.2] := by simp [underName]
      rw [e1, if_neg (by simp)]
      unfold look
      rw [hd e.1]
      by_cases hn : underName e.1 pre = []
      · rw [if_pos hn, hn]; simp
      · rw [if_neg hn]; simp
    · rw [if_neg hk]
      have e1 : underName k (pre ++ [e]) = underName k pre := by simp [underName, hk]
      rw [e1]; exact hd k
  have many : ∀ (l : List (String × ℚ)) (d : Dict String ℚ) (pre : List (String × ℚ)),
      (∀ k, d.get? k = if underName k pre = [] then none else some (underName k pre).sum) →
      ∀ k, (l.foldl (fun d kv => plus d kv.1 kv.2) d).get? k =
        if underName k (pre ++ l) = [] then none else some (underName k (pre ++ l)).sum := by
    intro l
    induction l with
    | nil => intro d pre hd k; rw [List.append_nil]; exact hd k
    | cons e l ih =>
      intro d pre hd k
      have := ih _ _ (one d pre e hd) k
      rw [List.append_assoc] at this
      exact this
  have gen : ∀ (l : List FItem) (d d' : Dict String ℚ) (pre : List (String × ℚ)), (∀ i ∈ l, i.Plain) →
      (∀ k, d.get? k = if underName k pre = [] then none else some (underName k pre).sum) →
      addItems l d = some d' →
      ∀ k, d'.get? k = if underName k (pre ++ l.flatMap FItem.amounts) = [] then none
        else some (underName k (pre ++ l.flatMap FItem.amounts)).sum := by
    intro l
    induction l with
    | nil => intro d d' pre _ hd h k; cases h; rw [List.flatMap_nil, List.append_nil]; exact hd k
    | cons i l ih =>
      intro d d' pre hl hd h k
      have e1 : addItem d i = some (i.amounts.foldl (fun d kv => plus d kv.1 kv.2) d) := by
        cases i with
        | exchange key alloc value => cases value <;> simp [addItem, FItem.amounts, List.foldl_append]
        | factor key name locs => exact absurd (hl (.factor key name locs) (by simp)) (fun h => h)
        | score key v => rfl
      unfold addItems at h
      rw [e1] at h
      have := ih _ d' (pre ++ i.amounts) (fun i hi => hl i (by simp [hi])) (many i.amounts d pre hd) h k
      rw [List.append_assoc] at this
      exact this
  have := gen items [] d [] hp (fun k => rfl) h k
  rw [List.nil_append] at this
  exact this

/-! ### text -/

/-- C214: text raises IndexError exactly if a row has no amount at all, or a name of fewer than two letters. -/
theorem text_raises (o : PyOrd String) (near : List String) (note : String) (datas : List (Dict String ℚ)) :
    textRow o near note datas = .error .indexError ↔
      (∀ d ∈ datas, d = []) ∨ ∃ d ∈ datas, ∃ k ∈ d.keys, k.length < 2 := by
  have hmem : ∀ k, k ∈ o.f (PySet.ofList (datas.flatMap fun d => d.keys)) ↔ ∃ d ∈ datas, k ∈ d.keys := by
    intro k; rw [o.mem, PySet.mem_ofList, List.mem_flatMap]
  have hlast : ∀ k : String, (lastButOne k).isSome = true ↔ 2 ≤ k.length := by
    intro k
    unfold lastButOne
    rw [← Option.ne_none_iff_isSome, ne_eq, List.getElem?_eq_none_iff]
    simp [← String.length_toList]
    omega
  unfold textRow sortKeys
  simp only
  by_cases hall : ((o.f (PySet.ofList (datas.flatMap fun d => d.keys))).all fun k => (lastButOne k).isSome) = true
  · rw [if_pos hall]
    simp only
    have hall' : ∀ d ∈ datas, ∀ k ∈ d.keys, 2 ≤ k.length := by
      intro d hd k hk
      rw [List.all_eq_true] at hall
      exact (hlast k).mp (hall k ((hmem k).mpr ⟨d, hd, hk⟩))
    constructor
    · intro h
      left
      intro d hd
      by_contra hne
      have : ∃ k, k ∈ d.keys := by
        cases d with
        | nil => exact absurd rfl hne
        | cons a d => exact ⟨a.1, by simp [Dict.keys]⟩
      obtain ⟨k, hk⟩ := this
      have hin : k ∈ (o.f (PySet.ofList (datas.flatMap fun d => d.keys))).insertionSort
          fun a b => (lastButOne a).getD ' ' ≤ (lastButOne b).getD ' ' := by
        rw [List.mem_insertionSort]; exact (hmem k).mpr ⟨d, hd, hk⟩
      split at h
      · rename_i hl
        revert hin hl
        generalize (o.f (PySet.ofList (datas.flatMap fun d => d.keys))).insertionSort
          (fun a b => (lastButOne a).getD ' ' ≤ (lastButOne b).getD ' ') = ks
        intro hin hl
        cases ks with
        | nil => cases hin
        | cons => simp [lines] at hl
      · cases h
    · rintro (h | ⟨d, hd, k, hk, hl⟩)
      · have : ((o.f (PySet.ofList (datas.flatMap fun d => d.keys))).insertionSort
          fun a b => (lastButOne a).getD ' ' ≤ (lastButOne b).getD ' ') = [] := by
          rw [List.eq_nil_iff_forall_not_mem]
          intro k hk
          rw [List.mem_insertionSort, hmem] at hk
          obtain ⟨d, hd, hk⟩ := hk
          rw [h d hd] at hk; cases hk
        rw [this]
        rfl
      · have := hall' d hd k hk; omega
  · rw [if_neg hall]
    simp only [true_iff]
    right
    rw [List.all_eq_true] at hall
    push Not at hall
    obtain ⟨k, hk, hn⟩ := hall
    obtain ⟨d, hd, hk⟩ := (hmem k).mp hk
    exact ⟨d, hd, k, hk, by
      by_contra hl
      exact hn ((hlast k).mpr (by omega))⟩

/-- C214 (fails): a row of exchanges without a value makes text raise. -/
theorem text_unvalued (o : PyOrd String) (near : List String) (note : String) (cells : List (List FItem))
    (hc : ∀ items ∈ cells, ∀ i ∈ items, ∃ key, i = .exchange key [] none) :
    ∃ datas, cells.mapM flowCell = some datas ∧ textRow o near note datas = .error .indexError := by
  have hcell : ∀ items : List FItem, (∀ i ∈ items, ∃ key, i = .exchange key [] none) → flowCell items = some [] := by
    intro items
    unfold flowCell
    induction items with
    | nil => intro _; rfl
    | cons i l ih =>
      intro h
      obtain ⟨key, rfl⟩ := h i (by simp)
      exact ih fun i hi => h i (by simp [hi])
  have hm : ∀ cells : List (List FItem), (∀ items ∈ cells, ∀ i ∈ items, ∃ key, i = .exchange key [] none) →
      cells.mapM flowCell = some (cells.map fun _ => ([] : Dict String ℚ)) := by
    intro cells
    induction cells with
    | nil => intro _; rfl
    | cons c cells ih =>
      intro h
      rw [List.mapM_cons, hcell c (h c (by simp)), ih fun x hx => h x (by simp [hx])]
      rfl
  refine ⟨_, hm cells hc, (text_raises o near note _).mpr (.inl ?_)⟩
  intro d hd
  rw [List.mem_map] at hd
  obtain ⟨_, -, rfl⟩ := hd
  rfl

/-- C214 (fails): whatever its columns, a FlowablesGrid cannot be printed: the header has one text less than the format asks for. -/
theorem text_flowables (cols : List String) : textHeader flowNear cols flowFar = .error .typeError := by
  unfold textHeader
  simp only
  rw [if_neg]
  simp [flowNear, flowFar]
  omega

/-- C213: the header of an AllocationGrid can be printed, whatever its columns. -/
theorem text_allocation (cols : List String) : textHeader allocNear cols allocFar = .ok (allocNear ++ cols ++ allocFar) := by
  unfold textHeader
  simp only
  rw [if_pos]
  simp [allocNear, allocFar]
  omega

/-! ### cases -/

example : flowCell [.factor "[kg] CO2" "CO2, fossil" [("GLO", 1), ("US", 2)], .factor "[kg] CO2" "CO2, land" [("GLO", 3), ("US", 2)],
    .factor "[kg] CO2" "CO2, land" [("GLO", 4)]] =
    some [("[kg] CO2", 1), ("US", 2), ("[GLO] CO2, land", 3), ("[GLO] CO2, land.", 4)] := by decide +kernel

example : flowCell [.exchange "[kg] CO2" [("Output: heat", 2)] (some 5), .exchange "[kg] CO2" [("Output: heat", 3)] none,
    .score "[kg] CO2" 4] = some [("Output: heat", 5), ("[kg] CO2", 9)] := by decide +kernel

end Tab
