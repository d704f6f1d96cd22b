import Verif.Model.Tables
import Mathlib.Tactic.Linarith
import Mathlib.Algebra.BigOperators.Group.List.Basic

/-!
C212, C213: allocation tables.
-/

namespace Tab

/-! ### Specification -/

/-- a value of a table: its row, the name it is shown under, and the amount -/
abbrev Entry := Row × String × ℚ

/-- what is shown of an exchange: nothing if it is a reference or has no value -/
def shown (x : Exch) : Option Entry :=
  match x.value with
  | none => none
  | some v => if x.isRef = true then none else some (⟨false, x.dir, x.comp, x.name⟩, x.key, v)

/-- the column of a process for a reference flow, or (`none`) without allocation: its exchanges, and the references, with 1 each -/
def colOf (p : Proc) (f : Option ℕ) : List Entry :=
  (p.inv f).filterMap shown ++
    (p.refs.filter fun r => decide (f = none ∨ f = some r.flow)).map fun r => (⟨true, r.dir, r.comp, r.name⟩, r.key, 1)

/-- the columns of a process, with its label: without allocation, if asked for, and for each reference; only those that show an
exchange -/
def colsOf (unalloc : Bool) (p : Proc) : List (String × List Entry) :=
  (((if unalloc then [none] else []) ++ p.refs.map fun r : Ref => some r.flow).filter
    fun f => decide ((p.inv f).filterMap shown ≠ [])).map fun f => (p.label, colOf p f)

/-- the columns of a table -/
def gridCols (unalloc : Bool) (ps : List Proc) : List (String × List Entry) := ps.flatMap (colsOf unalloc)

/-- the amounts of a column in a row under a name -/
def amounts (c : List Entry) (r : Row) (k : String) : List ℚ :=
  c.filterMap fun e => if e.1 = r ∧ e.2.1 = k then some e.2.2 else none

/-- the cell: the sum, if there is any amount -/
def cell (c : List Entry) (r : Row) (k : String) : Option ℚ :=
  if amounts c r k = [] then none else some (amounts c r k).sum

/-- the lines of a row, given the columns: each name once, in the order of the last letter but one, with the cells -/
structure IsRow (S : List (List Entry)) (r : Row) (ls : List Line) : Prop where
  nodup : (ls.map Line.key).Nodup
  keys : ∀ k, k ∈ ls.map Line.key ↔ ∃ c ∈ S, ∃ v, (r, k, v) ∈ c
  cells : ∀ l ∈ ls, l.cells = S.map fun c => cell c r l.key
  sorted : ls.Pairwise fun a b => ∃ x y, lastButOne a.key = some x ∧ lastButOne b.key = some y ∧ x ≤ y

/-! ### cells -/

/-- the amounts of the items, by name -/
def vals (l : List Item) : List (String × ℚ) := l.filterMap fun i => i.value.map fun v => (i.key, v)

/-- the part of a column in a row -/
def inRow (r : Row) (c : List Entry) : List (String × ℚ) := c.filterMap fun e => if e.1 = r then some e.2 else none

def under (k : String) (l : List (String × ℚ)) : List ℚ := l.filterMap fun e => if e.1 = k then some e.2 else none

theorem amounts_eq (c : List Entry) (r : Row) (k : String) : amounts c r k = under k (inRow r c) := by
  unfold amounts under inRow
  rw [List.filterMap_filterMap]
  congr 1
  funext e
  by_cases h : e.1 = r <;> simp [h]

theorem extract_spec (l : List Item) (k : String) :
    (extract l).get? k = if under k (vals l) = [] then none else some (under k (vals l)).sum := by
  unfold extract
  have gen : ∀ (l : List Item) (d : Dict String ℚ) (pre : List ℚ),
      (d.get? k = if pre = [] then none else some pre.sum) →
      (l.foldl (fun d i => match i.value with
        | none => d
        | some v => d.set i.key ((d.get? i.key).getD 0 + v)) d).get? k =
        if pre ++ under k (vals l) = [] then none else some (pre ++ under k (vals l)).sum := by
    intro l
    induction l with
    | nil => intro d pre h; simpa [vals, under] using h
    | cons i l ih =>
      intro d pre h
      rw [List.foldl_cons]
      cases hv : i.value with
      | none =>
        have : vals (i :: l) = vals l := by simp [vals, hv]
        rw [this]
        simp only
        exact ih d pre h
      | some v =>
        have : vals (i :: l) = (i.key, v) :: vals l := by simp [vals, hv]
        rw [this]
        simp only
        by_cases hk : i.key = k
        · have e : under k ((i.key, v) :: vals l) = v :: under k (vals l) := by simp [under, hk]
          rw [e, ih _ (pre ++ [v])]
          · simp
          · subst hk
            rw [Dict.get?_set_self, h]
            by_cases hp : pre = []
            · simp [hp]
            · simp [hp]
        · have e : under k ((i.key, v) :: vals l) = under k (vals l) := by simp [under, hk]
          rw [e]
          exact ih _ pre (by rw [Dict.get?_set_ne _ _ hk]; exact h)
  have := gen l [] [] rfl
  rw [List.nil_append] at this
  exact this

theorem under_ne_nil {k : String} {l : List (String × ℚ)} : under k l ≠ [] ↔ ∃ v, (k, v) ∈ l := by
  unfold under
  rw [ne_eq, List.filterMap_eq_nil_iff]
  constructor
  · intro h
    by_contra hc
    apply h
    intro e he
    by_cases hk : e.1 = k
    · exact absurd ⟨e.2, by rw [← hk]; exact he⟩ hc
    · simp [hk]
  · rintro ⟨v, hv⟩ h
    have := h _ hv
    simp at this

theorem inRow_mem {r : Row} {c : List Entry} {k : String} {v : ℚ} : (k, v) ∈ inRow r c ↔ (r, k, v) ∈ c := by
  unfold inRow
  rw [List.mem_filterMap]
  constructor
  · rintro ⟨⟨r', e⟩, he, h⟩
    by_cases hr : r' = r
    · simp [hr] at h; subst hr; subst h; exact he
    · simp [hr] at h
  · intro h
    exact ⟨_, h, by simp⟩

/-! ### what a table holds -/

/-- the table holds the columns -/
structure Rep (t : Table) (S : List (List Entry)) : Prop where
  d : ∀ (r : Row) (i : ℕ), vals ((t.d.get? (r, i)).getD []) = inRow r ((S[i]?).getD [])
  nodup : t.rows.Nodup
  rows : ∀ r, r ∈ t.rows ↔ ∃ c ∈ S, ∃ e ∈ c, e.1 = r

theorem rep_empty : Rep {} [] where
  d := by intro r i; rfl
  nodup := List.nodup_nil
  rows := by intro r; simp

theorem rep_open {t : Table} {S : List (List Entry)} : Rep t S ↔ Rep t (S ++ [[]]) := by
  have e : ∀ i : ℕ, ((S ++ [([] : List Entry)])[i]?).getD [] = (S[i]?).getD [] := by
    intro i
    rw [List.getElem?_append]
    split
    · rfl
    · rename_i h
      rw [List.getElem?_eq_none (Nat.le_of_not_lt h)]
      cases h2 : i - S.length <;> simp
  constructor
  · intro h
    refine ⟨fun r i => ?_, h.nodup, fun r => ?_⟩
    · rw [e]; exact h.d r i
    · rw [h.rows]; simp
  · intro h
    refine ⟨fun r i => ?_, h.nodup, fun r => ?_⟩
    · rw [← e]; exact h.d r i
    · rw [h.rows]; simp

theorem rep_add {t : Table} {S : List (List Entry)} {c : List Entry} (h : Rep t (S ++ [c])) (r : Row) (k : String) (v : ℚ)
    (n : String) : Rep (addRowitem S.length ⟨k, some v, n⟩ r t) (S ++ [c ++ [(r, k, v)]]) := by
  refine ⟨?_, PySet.nodup_add h.nodup, ?_⟩
  · intro r' i
    show vals (((t.d.set (r, S.length) _).get? (r', i)).getD []) = _
    rw [Dict.get?_set]
    by_cases hi : i = S.length
    · subst hi
      have h1 := h.d r' S.length
      rw [List.getElem?_append_right (Nat.le_refl _)] at h1 ⊢
      simp only [Nat.sub_self, List.getElem?_cons_zero, Option.getD_some] at h1 ⊢
      by_cases hr : r = r'
      · subst hr
        simp only [if_true, Option.getD_some]
        unfold vals inRow at *
        rw [List.filterMap_append, List.filterMap_append, h1]
        simp
      · have : ¬ ((r, S.length) = (r', S.length)) := by simp [hr]
        rw [if_neg this, h1]
        unfold inRow
        rw [List.filterMap_append]
        simp [hr]
    · have : ¬ ((r, S.length) = (r', i)) := by
        intro e; cases e; exact hi rfl
      rw [if_neg this]
      have h1 := h.d r' i
      rw [h1]
      congr 2
      rw [List.getElem?_append, List.getElem?_append]
      split
      · rfl
      · rename_i hlt
        have : i - S.length ≠ 0 := by omega
        cases h2 : i - S.length with
        | zero => exact absurd h2 this
        | succ m => simp
  · intro r'
    show r' ∈ PySet.add t.rows r ↔ _
    rw [PySet.mem_add, h.rows]
    simp only [List.mem_append, List.mem_singleton]
    constructor
    · rintro (⟨c', hc | hc, e, he, hr⟩ | hr)
      · exact ⟨c', .inl hc, e, he, hr⟩
      · subst hc; exact ⟨_, .inr rfl, e, by simp [he], hr⟩
      · subst hr; exact ⟨_, .inr rfl, (r', k, v), by simp, rfl⟩
    · rintro ⟨c', hc | hc, e, he, hr⟩
      · exact .inl ⟨c', .inl hc, e, he, hr⟩
      · subst hc
        rw [List.mem_append, List.mem_singleton] at he
        rcases he with he | he
        · exact .inl ⟨c, .inr rfl, e, he, hr⟩
        · subst he; exact .inr hr.symm

theorem addAlloc_spec (S : List (List Entry)) : ∀ (l : List Exch) (c : List Entry) (t : Table), Rep t (S ++ [c]) →
    ∃ t', addAlloc S.length l t = (decide (l.filterMap shown ≠ []), t') ∧ Rep t' (S ++ [c ++ l.filterMap shown]) ∧
      t'.columns = t.columns ∧ (l.filterMap shown = [] → t' = t)
  | [], c, t, h => ⟨t, rfl, by simpa using h, rfl, fun _ => rfl⟩
  | x :: l, c, t, h => by
    unfold addAlloc
    cases hv : x.value with
    | none =>
      obtain ⟨t', h1, h2, h3, h4⟩ := addAlloc_spec S l c t h
      have : shown x = none := by simp [shown, hv]
      refine ⟨t', ?_, ?_, h3, ?_⟩
      · simp [h1, this]
      · simpa [this] using h2
      · simpa [this] using h4
    | some v =>
      by_cases hr : x.isRef = true
      · obtain ⟨t', h1, h2, h3, h4⟩ := addAlloc_spec S l c t h
        have : shown x = none := by simp [shown, hv, hr]
        refine ⟨t', ?_, ?_, h3, ?_⟩
        · simp [h1, this, hr]
        · simpa [this] using h2
        · simpa [this] using h4
      · have hs : shown x = some (⟨false, x.dir, x.comp, x.name⟩, x.key, v) := by simp [shown, hv, hr]
        obtain ⟨t', h1, h2, h3, h4⟩ := addAlloc_spec S l _ _ (rep_add h ⟨false, x.dir, x.comp, x.name⟩ x.key v x.note)
        refine ⟨t', ?_, ?_, h3, ?_⟩
        · rw [if_pos (by simp [hr])]
          unfold rowOf
          rw [h1]; simp [hs]
        · simpa [hs, List.append_assoc] using h2
        · simp [hs]

theorem addRefs_spec (p : Proc) (f : Option ℕ) (S : List (List Entry)) (c : List Entry) (t : Table) (h : Rep t (S ++ [c]))
    (hc : t.columns.length = S.length) :
    Rep (addRefs p f t) (S ++ [c ++ (p.refs.filter fun r => decide (f = none ∨ f = some r.flow)).map
      fun r => (⟨true, r.dir, r.comp, r.name⟩, r.key, 1)]) ∧ (addRefs p f t).columns = t.columns ++ [p.label] := by
  have hf : references p f = p.refs.filter fun r => decide (f = none ∨ f = some r.flow) := by
    cases f with
    | none => simp [references]
    | some f => simp only [references]; congr 1; funext r; simp [eq_comm]
  unfold addRefs
  rw [hf]
  simp only
  rw [hc]
  generalize (p.refs.filter fun r => decide (f = none ∨ f = some r.flow)) = rs
  have gen : ∀ (rs : List Ref) (c : List Entry) (t : Table), Rep t (S ++ [c]) →
      Rep (rs.foldl (fun t r => addRowitem S.length ⟨r.key, some 1, r.note⟩ ⟨true, r.dir, r.comp, r.name⟩ t) t)
        (S ++ [c ++ rs.map fun r => (⟨true, r.dir, r.comp, r.name⟩, r.key, 1)]) ∧
      (rs.foldl (fun t r => addRowitem S.length ⟨r.key, some 1, r.note⟩ ⟨true, r.dir, r.comp, r.name⟩ t) t).columns = t.columns := by
    intro rs
    induction rs with
    | nil => intro c t h; simpa using h
    | cons r rs ih =>
      intro c t h
      obtain ⟨a, b⟩ := ih _ _ (rep_add h ⟨true, r.dir, r.comp, r.name⟩ r.key 1 r.note)
      exact ⟨by simpa [List.append_assoc] using a, b⟩
  obtain ⟨a, b⟩ := gen rs c t h
  exact ⟨⟨a.d, a.nodup, a.rows⟩, by rw [b]⟩

theorem addOne_spec (p : Proc) (f : Option ℕ) (S : List (String × List Entry)) (t : Table) (h : Rep t (S.map Prod.snd))
    (hc : t.columns = S.map Prod.fst) :
    ∃ S', S' = S ++ (if (p.inv f).filterMap shown ≠ [] then [(p.label, colOf p f)] else []) ∧
      Rep (addOne p f t) (S'.map Prod.snd) ∧ (addOne p f t).columns = S'.map Prod.fst := by
  refine ⟨_, rfl, ?_⟩
  have hlen : t.columns.length = (S.map Prod.snd).length := by rw [hc]; simp
  obtain ⟨t', h1, h2, h3, h4⟩ := addAlloc_spec (S.map Prod.snd) (p.inv f) [] t (rep_open.mp h)
  unfold addOne
  rw [hlen, h1]
  by_cases he : (p.inv f).filterMap shown = []
  · rw [he, h4 he]
    simpa using ⟨h, hc⟩
  · simp only [ne_eq, he, not_false_iff, decide_true, if_true]
    obtain ⟨a, b⟩ := addRefs_spec p f _ _ t' h2 (by rw [h3]; exact hlen)
    refine ⟨?_, ?_⟩
    · rw [List.map_append]
      simpa [colOf] using a
    · rw [b, h3, hc]; simp

theorem addColumn_spec (unalloc : Bool) (p : Proc) (S : List (String × List Entry)) (t : Table) (h : Rep t (S.map Prod.snd))
    (hc : t.columns = S.map Prod.fst) :
    Rep (addColumn unalloc t p) ((S ++ colsOf unalloc p).map Prod.snd) ∧
      (addColumn unalloc t p).columns = (S ++ colsOf unalloc p).map Prod.fst := by
  have gen : ∀ (fs : List (Option ℕ)) (S : List (String × List Entry)) (t : Table), Rep t (S.map Prod.snd) →
      t.columns = S.map Prod.fst →
      Rep (fs.foldl (fun t f => addOne p f t) t) ((S ++ (fs.filter fun f => decide ((p.inv f).filterMap shown ≠ [])).map
        fun f => (p.label, colOf p f)).map Prod.snd) ∧
      (fs.foldl (fun t f => addOne p f t) t).columns = (S ++ (fs.filter fun f => decide ((p.inv f).filterMap shown ≠ [])).map
        fun f => (p.label, colOf p f)).map Prod.fst := by
    intro fs
    induction fs with
    | nil => intro S t h hc; simpa using ⟨h, hc⟩
    | cons f fs ih =>
      intro S t h hc
      obtain ⟨S', rfl, h1, h2⟩ := addOne_spec p f S t h hc
      have := ih _ _ h1 h2
      rw [List.foldl_cons]
      by_cases he : (p.inv f).filterMap shown = []
      · rw [List.filter_cons_of_neg (by simpa using he)]
        rw [if_neg (by simpa using he), List.append_nil] at this
        exact this
      · rw [List.filter_cons_of_pos (by simpa using he)]
        rw [if_pos he, List.append_assoc] at this
        exact this
  have e : addColumn unalloc t p =
      ((if unalloc then [none] else []) ++ p.refs.map fun r : Ref => some r.flow).foldl (fun t f => addOne p f t) t := by
    unfold addColumn
    rw [List.foldl_append, List.foldl_map]
    cases unalloc <;> rfl
  rw [e]
  exact gen _ S t h hc

theorem grid_rep (unalloc : Bool) (ps : List Proc) :
    Rep (grid unalloc ps) ((gridCols unalloc ps).map Prod.snd) ∧ (grid unalloc ps).columns = (gridCols unalloc ps).map Prod.fst := by
  have gen : ∀ (ps : List Proc) (S : List (String × List Entry)) (t : Table), Rep t (S.map Prod.snd) → t.columns = S.map Prod.fst →
      Rep (ps.foldl (addColumn unalloc) t) ((S ++ gridCols unalloc ps).map Prod.snd) ∧
      (ps.foldl (addColumn unalloc) t).columns = (S ++ gridCols unalloc ps).map Prod.fst := by
    intro ps
    induction ps with
    | nil => intro S t h hc; simpa [gridCols] using ⟨h, hc⟩
    | cons p ps ih =>
      intro S t h hc
      obtain ⟨a, b⟩ := addColumn_spec unalloc p S t h hc
      have := ih _ _ a b
      rw [List.append_assoc] at this
      exact this
  simpa [grid] using gen ps [] {} rep_empty rfl

/-! ### the lines -/

theorem lines_keys (near : List String) (note : String) (datas : List (Dict String ℚ)) (ks : List String) :
    (lines near note datas ks).map Line.key = ks := by
  cases ks with
  | nil => rfl
  | cons k ks => simp [lines, Function.comp_def]

theorem lines_cells (near : List String) (note : String) (datas : List (Dict String ℚ)) (ks : List String) :
    ∀ l ∈ lines near note datas ks, l.cells = datas.map fun d => d.get? l.key := by
  cases ks with
  | nil => intro l h; cases h
  | cons k ks =>
    intro l h
    simp only [lines, List.mem_cons, List.mem_map] at h
    rcases h with rfl | ⟨k', -, rfl⟩ <;> rfl

/-- the names of a row -/
def Named (S : List (List Entry)) (r : Row) (k : String) : Prop := ∃ c ∈ S, ∃ v, (r, k, v) ∈ c

theorem buildRow_spec (o : PyOrd String) {t : Table} {S : List (List Entry)} (h : Rep t S) (hc : t.columns.length = S.length)
    (r : Row) (prev : Option Row) :
    ((∃ k, Named S r k ∧ k.length < 2) → buildRow o t r prev = .error .indexError) ∧
    ((∀ k, Named S r k → 2 ≤ k.length) → ∃ ks : List String, 
      ∃ ls, ls = lines (nearHeader r prev) ((t.notes.get? r).getD "")
        ((List.range t.columns.length).map fun i => extract ((t.d.get? (r, i)).getD [])) ks ∧
      buildRow o t r prev = .ok ls ∧ IsRow S r ls) := by
  have hdata : ∀ k, ((List.range t.columns.length).map fun i => extract ((t.d.get? (r, i)).getD [])).map (fun d => d.get? k) =
      S.map fun c => cell c r k := by
    intro k
    apply List.ext_getElem?
    intro i
    simp only [List.map_map, List.getElem?_map, Function.comp_def]
    rw [hc]
    by_cases hi : i < S.length
    · rw [List.getElem?_range hi, List.getElem?_eq_getElem hi]
      simp only [Option.map_some]
      rw [extract_spec, h.d r i, List.getElem?_eq_getElem hi]
      simp only [Option.getD_some, cell, amounts_eq]
    · rw [List.getElem?_eq_none (by simpa using hi), List.getElem?_eq_none (by simpa using hi)]
      rfl
  have hkeys : ∀ k, k ∈ (((List.range t.columns.length).map fun i => extract ((t.d.get? (r, i)).getD [])).flatMap
      fun d => d.keys) ↔ Named S r k := by
    intro k
    have e1 : k ∈ (((List.range t.columns.length).map fun i => extract ((t.d.get? (r, i)).getD [])).flatMap
        fun d => d.keys) ↔ ∃ x ∈ (((List.range t.columns.length).map fun i => extract ((t.d.get? (r, i)).getD [])).map
          (fun d => d.get? k)), x ≠ none := by
      simp only [List.mem_flatMap, Dict.mem_keys_iff, List.mem_map, exists_exists_and_eq_and]
      constructor
      · rintro ⟨i, hi, v, hv⟩; exact ⟨i, hi, by rw [hv]; simp⟩
      · rintro ⟨i, hi, hv⟩; exact ⟨i, hi, Option.ne_none_iff_exists'.mp hv⟩
    rw [e1, hdata]
    simp only [List.mem_map, exists_exists_and_eq_and, Named, cell]
    constructor
    · rintro ⟨c, hcs, hv⟩
      have : amounts c r k ≠ [] := by
        intro hn; rw [if_pos hn] at hv; exact hv rfl
      rw [amounts_eq] at this
      obtain ⟨v, hv⟩ := under_ne_nil.mp this
      exact ⟨c, hcs, v, inRow_mem.mp hv⟩
    · rintro ⟨c, hcs, v, hv⟩
      refine ⟨c, hcs, ?_⟩
      rw [if_neg]
      · simp
      · rw [amounts_eq]; exact under_ne_nil.mpr ⟨v, inRow_mem.mpr hv⟩
  have hlast : ∀ k : String, (lastButOne k).isSome = true ↔ 2 ≤ k.length := by
    intro k
    unfold lastButOne
    rw [← Option.ne_none_iff_isSome, ne_eq, List.getElem?_eq_none_iff]
    simp [← String.length_toList]
    omega
  have hmem : ∀ k, k ∈ o.f (PySet.ofList (((List.range t.columns.length).map fun i => extract ((t.d.get? (r, i)).getD [])).flatMap
      fun d => d.keys)) ↔ Named S r k := by
    intro k; rw [o.mem, PySet.mem_ofList, hkeys]
  unfold buildRow sortKeys
  simp only
  constructor
  · rintro ⟨k, hk, hl⟩
    have : ¬ ((o.f (PySet.ofList (((List.range t.columns.length).map fun i => extract ((t.d.get? (r, i)).getD [])).flatMap
        fun d => d.keys))).all fun k => (lastButOne k).isSome) = true := by
      rw [List.all_eq_true]
      intro hall
      have := (hlast k).mp (hall k ((hmem k).mpr hk))
      omega
    rw [if_neg this]
  · intro hall
    have : ((o.f (PySet.ofList (((List.range t.columns.length).map fun i => extract ((t.d.get? (r, i)).getD [])).flatMap
        fun d => d.keys))).all fun k => (lastButOne k).isSome) = true := by
      rw [List.all_eq_true]
      intro k hk
      exact (hlast k).mpr (hall k ((hmem k).mp hk))
    rw [if_pos this]
    refine ⟨_, _, rfl, rfl, ?_, ?_, ?_, ?_⟩
    · rw [lines_keys]
      refine (List.perm_insertionSort _ _).nodup_iff.mpr ?_
      exact (o.perm _).nodup_iff.mpr (PySet.nodup_ofList _)
    · intro k
      rw [lines_keys, List.mem_insertionSort, hmem]
      rfl
    · intro l hl
      rw [lines_cells _ _ _ _ l hl, hdata]
    · have hp : ∀ (ls : List Line), ls.Pairwise (fun a b => ∃ x y, lastButOne a.key = some x ∧ lastButOne b.key = some y ∧ x ≤ y) ↔
          (ls.map Line.key).Pairwise (fun a b => ∃ x y, lastButOne a = some x ∧ lastButOne b = some y ∧ x ≤ y) := by
        intro ls; rw [List.pairwise_map]
      rw [hp, lines_keys]
      have ht : Std.Total (fun a b : String => (lastButOne a).getD ' ' ≤ (lastButOne b).getD ' ') := ⟨fun a b => le_total _ _⟩
      have htr : IsTrans String (fun a b : String => (lastButOne a).getD ' ' ≤ (lastButOne b).getD ' ') := ⟨fun a b c => le_trans⟩
      have hs := List.pairwise_insertionSort (fun a b : String => (lastButOne a).getD ' ' ≤ (lastButOne b).getD ' ')
        (o.f (PySet.ofList (((List.range t.columns.length).map fun i => extract ((t.d.get? (r, i)).getD [])).flatMap
          fun d => d.keys)))
      refine List.Pairwise.imp_of_mem ?_ hs
      intro a b ha hb hab
      rw [List.mem_insertionSort, hmem] at ha hb
      obtain ⟨x, hx⟩ := Option.isSome_iff_exists.mp ((hlast a).mpr (hall a ha))
      obtain ⟨y, hy⟩ := Option.isSome_iff_exists.mp ((hlast b).mpr (hall b hb))
      refine ⟨x, y, hx, hy, ?_⟩
      rw [hx, hy] at hab
      exact hab

theorem buildAll_spec (o : PyOrd String) {t : Table} {S : List (List Entry)} (h : Rep t S) (hc : t.columns.length = S.length)
    (ditto : Bool) : ∀ (rs : List Row) (prev : Option Row),
    ((∃ r ∈ rs, ∃ k, Named S r k ∧ k.length < 2) → buildAll o t ditto prev rs = .error .indexError) ∧
    ((∀ r ∈ rs, ∀ k, Named S r k → 2 ≤ k.length) →
      ∃ lss, buildAll o t ditto prev rs = .ok lss ∧ List.Forall₂ (IsRow S) rs lss)
  | [], prev => ⟨(by rintro ⟨r, hr, -⟩; cases hr), fun _ => ⟨[], rfl, .nil⟩⟩
  | r :: rs, prev => by
    obtain ⟨a, b⟩ := buildAll_spec o h hc ditto rs (some r)
    obtain ⟨x, y⟩ := buildRow_spec o h hc r (if ditto then prev else none)
    unfold buildAll
    constructor
    · rintro ⟨r', hr', hk⟩
      rw [List.mem_cons] at hr'
      by_cases hx : ∃ k, Named S r k ∧ k.length < 2
      · rw [x hx]
      · obtain ⟨ks, ls, -, h1, -⟩ := y (fun k hk => by
          by_contra hn; exact hx ⟨k, hk, by omega⟩)
        rw [h1]
        rcases hr' with rfl | hr'
        · exact absurd hk hx
        · rw [a ⟨r', hr', hk⟩]
    · intro hall
      obtain ⟨ks, ls, -, h1, h2⟩ := y (hall r (by simp))
      obtain ⟨lss, h3, h4⟩ := b (fun r' hr' => hall r' (List.mem_cons_of_mem _ hr'))
      rw [h1, h3]
      exact ⟨_, rfl, .cons h2 h4⟩

/-! ### C212 -/

/-- a row before another in the table: references first, then by direction, compartment and name -/
def Before (a b : Row) : Prop :=
  (a.ref = true ∧ b.ref = false) ∨ (a.ref = b.ref ∧ (a.dir < b.dir ∨ (a.dir = b.dir ∧ (a.comp < b.comp ∨
    (a.comp = b.comp ∧ a.name < b.name)))))

theorem before_of_le {a b : Row} (h : rowKey a ≤ rowKey b) (hne : a ≠ b) : Before a b := by
  unfold rowKey at h
  simp only [Prod.Lex.toLex_le_toLex] at h
  unfold Before
  rcases h with h | ⟨h1, h | ⟨h2, h | ⟨h3, h⟩⟩⟩
  · left
    cases ha : a.ref <;> cases hb : b.ref <;> rw [ha, hb] at h <;> first | exact ⟨rfl, rfl⟩ | exact absurd h (by decide)
  · right; exact ⟨by simpa using h1, .inl h⟩
  · right; exact ⟨by simpa using h1, .inr ⟨h2, .inl h⟩⟩
  · right
    refine ⟨by simpa using h1, .inr ⟨h2, .inr ⟨h3, lt_of_le_of_ne h ?_⟩⟩⟩
    intro hn
    apply hne
    cases a; cases b; simp_all

/-- C212: an allocation table. Its columns are those specified. If all names have two letters or more, it has one group of lines for
each row of which a column has a value, in the order of the rows, and in it one line for each name, with in every column the sum
of the amounts of the exchanges in this row under this name, or nothing if there is none. -/
theorem grid_lines (oR : PyOrd Row) (o : PyOrd String) (ditto unalloc : Bool) (ps : List Proc)
    (hk : ∀ c ∈ gridCols unalloc ps, ∀ r k v, (r, k, v) ∈ c.2 → 2 ≤ k.length) :
    (grid unalloc ps).columns = (gridCols unalloc ps).map Prod.fst ∧
    ∃ rows lss, body oR o ditto (grid unalloc ps) = .ok lss ∧ rows.Pairwise Before ∧
      (∀ r, r ∈ rows ↔ ∃ c ∈ gridCols unalloc ps, ∃ k v, (r, k, v) ∈ c.2) ∧
      List.Forall₂ (IsRow ((gridCols unalloc ps).map Prod.snd)) rows lss := by
  obtain ⟨h, hc⟩ := grid_rep unalloc ps
  have hcl : (grid unalloc ps).columns.length = ((gridCols unalloc ps).map Prod.snd).length := by rw [hc]; simp
  refine ⟨hc, sortedRows oR (grid unalloc ps), ?_⟩
  obtain ⟨lss, h1, h2⟩ := (buildAll_spec o h hcl ditto (sortedRows oR (grid unalloc ps)) none).2 (by
    rintro r - k ⟨c, hcs, v, hv⟩
    rw [List.mem_map] at hcs
    obtain ⟨c', hc', rfl⟩ := hcs
    exact hk c' hc' r k v hv)
  refine ⟨lss, h1, ?_, ?_, h2⟩
  · have ht : Std.Total (fun a b : Row => rowKey a ≤ rowKey b) := ⟨fun a b => le_total _ _⟩
    have htr : IsTrans Row (fun a b : Row => rowKey a ≤ rowKey b) := ⟨fun a b c => le_trans⟩
    have hs := List.pairwise_insertionSort (fun a b : Row => rowKey a ≤ rowKey b) (oR.f (grid unalloc ps).rows)
    have hn : (sortedRows oR (grid unalloc ps)).Nodup :=
      (List.perm_insertionSort _ _).nodup_iff.mpr ((oR.perm _).nodup_iff.mpr h.nodup)
    exact (hs.and hn).imp fun ⟨x, y⟩ => before_of_le x y
  · intro r
    unfold sortedRows
    rw [List.mem_insertionSort, oR.mem, h.rows]
    simp only [List.mem_map, exists_exists_and_eq_and]
    constructor
    · rintro ⟨c, hc, ⟨r', k, v⟩, he, rfl⟩; exact ⟨c, hc, k, v, he⟩
    · rintro ⟨c, hc, k, v, he⟩; exact ⟨c, hc, _, he, rfl⟩

/-- C212: a name of fewer than two letters makes the table raise IndexError. -/
theorem grid_short (oR : PyOrd Row) (o : PyOrd String) (ditto unalloc : Bool) (ps : List Proc)
    (hk : ∃ c ∈ gridCols unalloc ps, ∃ r k v, (r, k, v) ∈ c.2 ∧ k.length < 2) :
    body oR o ditto (grid unalloc ps) = .error .indexError := by
  obtain ⟨h, hc⟩ := grid_rep unalloc ps
  have hcl : (grid unalloc ps).columns.length = ((gridCols unalloc ps).map Prod.snd).length := by rw [hc]; simp
  obtain ⟨c, hcm, r, k, v, he, hl⟩ := hk
  refine (buildAll_spec o h hcl ditto (sortedRows oR (grid unalloc ps)) none).1 ⟨r, ?_, k, ⟨c.2, ?_, v, he⟩, hl⟩
  · unfold sortedRows
    rw [List.mem_insertionSort, oR.mem, h.rows]
    exact ⟨c.2, List.mem_map_of_mem hcm, _, he, rfl⟩
  · exact List.mem_map_of_mem hcm

/-! ### totals -/

theorem sum_ite {α : Type} [DecidableEq α] (a : α) (v : ℚ) : ∀ ks : List α, ks.Nodup → a ∈ ks →
    (ks.map fun k => if a = k then v else 0).sum = v
  | [], _, h => by cases h
  | k :: ks, hn, h => by
    rw [List.nodup_cons] at hn
    by_cases hk : a = k
    · subst hk
      have : (ks.map fun k => if a = k then v else 0) = ks.map fun _ => (0 : ℚ) := by
        apply List.map_congr_left
        intro k hk
        rw [if_neg]; rintro rfl; exact hn.1 hk
      simp [this]
    · rw [List.mem_cons] at h
      have := sum_ite a v ks hn.2 (h.resolve_left hk)
      simp [hk, this]

theorem sum_split {α β : Type} [DecidableEq α] (f : β → α) (g : β → ℚ) (ks : List α) (hn : ks.Nodup) :
    ∀ c : List β, (∀ e ∈ c, f e ∈ ks) →
    (ks.map fun k => ((c.filter fun e => decide (f e = k)).map g).sum).sum = (c.map g).sum
  | [], _ => by simp
  | e :: c, h => by
    have e1 : (ks.map fun k => (((e :: c).filter fun e => decide (f e = k)).map g).sum) =
        ks.map fun k => (if f e = k then g e else 0) + ((c.filter fun e => decide (f e = k)).map g).sum := by
      apply List.map_congr_left
      intro k _
      by_cases hk : f e = k <;> simp [hk]
    rw [e1, List.sum_map_add, sum_ite _ _ _ hn (h e (by simp)), sum_split f g ks hn c (fun x hx => h x (by simp [hx]))]
    simp

theorem cell_getD (c : List Entry) (r : Row) (k : String) :
    (cell c r k).getD 0 = (((c.filter fun e => decide (e.1 = r)).filter fun e => decide (e.2.1 = k)).map fun e => e.2.2).sum := by
  have : amounts c r k = (((c.filter fun e => decide (e.1 = r)).filter fun e => decide (e.2.1 = k)).map fun e => e.2.2) := by
    unfold amounts
    induction c with
    | nil => rfl
    | cons e c ih => by_cases h1 : e.1 = r <;> by_cases h2 : e.2.1 = k <;> simp [h1, h2, ih]
  unfold cell
  rw [← this]
  split
  · rename_i h; simp [h]
  · rfl

/-- C212: nothing is lost: the cells of a column add up to the amounts of its exchanges and references. -/
theorem grid_total (oR : PyOrd Row) (o : PyOrd String) (ditto unalloc : Bool) (ps : List Proc) {lss : List (List Line)}
    (h : body oR o ditto (grid unalloc ps) = .ok lss) (j : ℕ) {c : String × List Entry} (hj : (gridCols unalloc ps)[j]? = some c) :
    (lss.map fun ls => (ls.map fun l => (l.cells[j]?.getD none).getD 0).sum).sum = (c.2.map fun e => e.2.2).sum := by
  have hk : ∀ c ∈ gridCols unalloc ps, ∀ r k v, (r, k, v) ∈ c.2 → 2 ≤ k.length := by
    intro c hc r k v hv
    by_contra hl
    rw [grid_short oR o ditto unalloc ps ⟨c, hc, r, k, v, hv, by omega⟩] at h
    cases h
  obtain ⟨-, rows, lss', h1, h2, h3, h4⟩ := grid_lines oR o ditto unalloc ps hk
  rw [h1] at h; cases h
  have hcm : c ∈ gridCols unalloc ps := List.mem_of_getElem? hj
  have hrow : ∀ r ls, IsRow ((gridCols unalloc ps).map Prod.snd) r ls →
      (ls.map fun l => (l.cells[j]?.getD none).getD 0).sum = ((c.2.filter fun e => decide (e.1 = r)).map fun e => e.2.2).sum := by
    intro r ls hr
    have e1 : (ls.map fun l => (l.cells[j]?.getD none).getD 0) =
        (ls.map Line.key).map fun k => (((c.2.filter fun e => decide (e.1 = r)).filter fun e => decide (e.2.1 = k)).map fun e => e.2.2).sum := by
      rw [List.map_map]
      apply List.map_congr_left
      intro l hl
      rw [hr.cells l hl]
      simp [List.getElem?_map, hj, cell_getD]
    rw [e1]
    refine sum_split (fun e : Entry => e.2.1) (fun e => e.2.2) _ hr.nodup _ ?_
    intro e he
    rw [List.mem_filter] at he
    have hr' : e.1 = r := by simpa using he.2
    refine (hr.keys e.2.1).mpr ⟨c.2, List.mem_map_of_mem hcm, e.2.2, ?_⟩
    rw [← hr']; exact he.1
  have e2 : ∀ (rows : List Row) (lss : List (List Line)), List.Forall₂ (IsRow ((gridCols unalloc ps).map Prod.snd)) rows lss →
      (lss.map fun ls => (ls.map fun l => (l.cells[j]?.getD none).getD 0).sum) =
      rows.map fun r => ((c.2.filter fun e => decide (e.1 = r)).map fun e => e.2.2).sum := by
    intro rows lss hf
    induction hf with
    | nil => rfl
    | cons a _ ih => rw [List.map_cons, List.map_cons, hrow _ _ a, ih]
  rw [e2 rows lss h4]
  refine sum_split (fun e : Entry => e.1) (fun e => e.2.2) rows (h2.imp ?_) c.2 ?_
  · rintro a b hab rfl
    unfold Before at hab
    rcases hab with ⟨h, h'⟩ | ⟨-, h | ⟨-, h | ⟨-, h⟩⟩⟩
    · rw [h] at h'; cases h'
    · exact lt_irrefl _ h
    · exact lt_irrefl _ h
    · exact lt_irrefl _ h
  · rintro ⟨r, k, v⟩ he
    exact (h3 r).mpr ⟨c, hcm, k, v, he⟩

/-! ### C213: the headings -/

/-- reading the directions down a printed table: a ditto mark stands for the direction above -/
def readDown : String → List String → List String
  | _, [] => []
  | prev, h :: hs => let d := if h = "\"\"" then prev else h; d :: readDown d hs

/-- the headings of the first line of each group -/
def heads (lss : List (List Line)) : List (List String) := lss.map fun ls => (ls.head?.map Line.near).getD []

theorem near_head {near : List String} {note : String} {datas : List (Dict String ℚ)} {ks : List String} (h : ks ≠ []) :
    (((lines near note datas ks).head?).map Line.near).getD [] = near := by
  cases ks with
  | nil => exact absurd rfl h
  | cons k ks => rfl

theorem buildAll_heads (o : PyOrd String) {t : Table} {S : List (List Entry)} (h : Rep t S) (hc : t.columns.length = S.length)
    (ditto : Bool) : ∀ (rs : List Row) (prev : Option Row) (lss : List (List Line)),
    (∀ r ∈ rs, ∃ k, Named S r k) → (∀ r ∈ rs, ∀ k, Named S r k → 2 ≤ k.length) → (∀ r ∈ rs, r.dir ≠ "\"\"") →
    buildAll o t ditto prev rs = .ok lss →
    (ditto = true → readDown ((prev.map Row.dir).getD "") ((heads lss).map fun n => n.headD "") = rs.map Row.dir) ∧
    (ditto = false → (heads lss).map (fun n => n.headD "") = rs.map Row.dir) ∧
    (heads lss).map (fun n => n.tail) = rs.map fun r => [if r.ref then "{*}" else ""]
  | [], prev, lss, _, _, _, hb => by cases hb; simp [heads, readDown]
  | r :: rs, prev, lss, hn, hall, hd, hb => by
    unfold buildAll at hb
    obtain ⟨ks, ls, hls, h1, h2⟩ := (buildRow_spec o h hc r (if ditto then prev else none)).2 (hall r (by simp))
    rw [h1] at hb
    simp only at hb
    cases hr : buildAll o t ditto (some r) rs with
    | error e => rw [hr] at hb; cases hb
    | ok lss' =>
      rw [hr] at hb; cases hb
      obtain ⟨a, b, c⟩ := buildAll_heads o h hc ditto rs (some r) lss' (fun r hr => hn r (by simp [hr]))
        (fun r hr => hall r (by simp [hr])) (fun r hr => hd r (by simp [hr])) hr
      have hks : ks ≠ [] := by
        rintro rfl
        obtain ⟨k, hk⟩ := hn r (by simp)
        have := (h2.keys k).mpr hk
        rw [hls] at this
        simp [lines] at this
      have hh : heads (ls :: lss') = nearHeader r (if ditto then prev else none) :: heads lss' := by
        unfold heads
        rw [List.map_cons, hls, near_head hks]
      rw [hh]
      refine ⟨?_, ?_, ?_⟩
      · intro hdt
        subst hdt
        have a := a rfl
        simp only [if_true, List.map_cons, readDown, nearHeader, List.headD_cons]
        cases prev with
        | none =>
          simp only [Option.map_some, Option.getD_some] at a ⊢
          rw [if_neg (hd r (by simp)), a]
        | some p =>
          simp only [Option.map_some, Option.getD_some] at a ⊢
          by_cases hpd : r.dir = p.dir
          · rw [if_pos hpd, if_pos rfl, ← hpd, a]
          · rw [if_neg hpd, if_neg (hd r (by simp)), a]
      · intro hdt
        subst hdt
        have b := b rfl
        rw [List.map_cons, List.map_cons, b]
        rfl
      · simp [nearHeader, c]

/-- C213: the headings tell the rows: reading down, with the ditto mark standing for the direction above (in a printed table), the
directions are those of the rows, and references are marked. -/
theorem grid_headings (oR : PyOrd Row) (o : PyOrd String) (ditto unalloc : Bool) (ps : List Proc) {lss : List (List Line)}
    (h : body oR o ditto (grid unalloc ps) = .ok lss)
    (hd : ∀ c ∈ gridCols unalloc ps, ∀ r k v, (r, k, v) ∈ c.2 → r.dir ≠ "\"\"") :
    ∃ rows : List Row, List.Forall₂ (IsRow ((gridCols unalloc ps).map Prod.snd)) rows lss ∧
      (ditto = true → readDown "" ((heads lss).map fun n => n.headD "") = rows.map Row.dir) ∧
      (ditto = false → (heads lss).map (fun n => n.headD "") = rows.map Row.dir) ∧
      (heads lss).map (fun n => n.tail) = rows.map fun r => [if r.ref then "{*}" else ""] := by
  have hk : ∀ c ∈ gridCols unalloc ps, ∀ r k v, (r, k, v) ∈ c.2 → 2 ≤ k.length := by
    intro c hc r k v hv
    by_contra hl
    rw [grid_short oR o ditto unalloc ps ⟨c, hc, r, k, v, hv, by omega⟩] at h
    cases h
  obtain ⟨hr, hc⟩ := grid_rep unalloc ps
  have hcl : (grid unalloc ps).columns.length = ((gridCols unalloc ps).map Prod.snd).length := by rw [hc]; simp
  have hmem : ∀ r ∈ sortedRows oR (grid unalloc ps), ∃ c ∈ gridCols unalloc ps, ∃ k v, (r, k, v) ∈ c.2 := by
    intro r hm
    unfold sortedRows at hm
    rw [List.mem_insertionSort, oR.mem, hr.rows] at hm
    obtain ⟨c, hc, ⟨r', k, v⟩, he, rfl⟩ := hm
    rw [List.mem_map] at hc
    obtain ⟨c', hc', rfl⟩ := hc
    exact ⟨c', hc', k, v, he⟩
  have hall : ∀ r ∈ sortedRows oR (grid unalloc ps), ∀ k, Named ((gridCols unalloc ps).map Prod.snd) r k → 2 ≤ k.length := by
    rintro r - k ⟨c, hcs, v, hv⟩
    rw [List.mem_map] at hcs
    obtain ⟨c', hc', rfl⟩ := hcs
    exact hk c' hc' r k v hv
  obtain ⟨lss', h1, h2⟩ := (buildAll_spec o hr hcl ditto (sortedRows oR (grid unalloc ps)) none).2 hall
  have h' := h
  unfold body at h'
  rw [h1] at h'; cases h'
  refine ⟨_, h2, ?_⟩
  refine buildAll_heads o hr hcl ditto _ none lss (fun r hm => ?_) hall (fun r hm => ?_) h1
  · obtain ⟨c, hc, k, v, he⟩ := hmem r hm
    exact ⟨k, c.2, List.mem_map_of_mem hc, v, he⟩
  · obtain ⟨c, hc, k, v, he⟩ := hmem r hm
    exact hd c hc r k v he

/-! ### cases -/

def exProc : Proc where
  label := "p"
  inv
    | none => [⟨true, "Output", "", "heat", "MJ heat", some 3, ""⟩, ⟨false, "Input", "", "gas", "m3 gas", some 5, "c"⟩,
        ⟨false, "Input", "", "gas", "m3 gas", some 2, ""⟩, ⟨false, "Output", "air", "CO2", "kg CO2", none, ""⟩]
    | some 1 => [⟨false, "Input", "", "gas", "m3 gas", some 4, ""⟩, ⟨false, "Input", "", "gas", "kg gas", some 1, ""⟩]
    | some _ => [⟨false, "Input", "", "gas", "m3 gas", none, ""⟩]
  refs := [⟨1, "Output", "", "heat", "MJ heat", ""⟩, ⟨2, "Output", "", "power", "kWh power", ""⟩]

def exRows : Option (List (List Line)) := (body (PyOrd.id _) (PyOrd.id _) true (grid true [exProc])).toOption

example : (grid true [exProc]).columns = ["p", "p"] := by decide +kernel

example : exRows = some
    [[⟨["Output", "{*}"], [some 1, some 1], "MJ heat", ""⟩], [⟨["\"\"", "{*}"], [some 1, none], "kWh power", ""⟩],
     [⟨["Input", ""], [some 7, some 4], "m3 gas", "c"⟩, ⟨["", ""], [none, some 1], "kg gas", ""⟩]] := by decide +kernel

example : ∀ c ∈ gridCols true [exProc], ∀ e ∈ c.2, 2 ≤ e.2.1.length ∧ e.1.dir ≠ "\"\"" := by decide +kernel

/-- the other order of a set -/
def revOrd (α : Type) : PyOrd α := ⟨List.reverse, fun l => List.reverse_perm l⟩

/-- C212 (fails): the order of the lines of a row is not determined by the table: names with the same last letter but one come in the
order in which Python goes through a set. -/
theorem lines_order_depends : ∃ ps, ∃ o o' : PyOrd String,
    body (PyOrd.id _) o true (grid true ps) ≠ body (PyOrd.id _) o' true (grid true ps) := by
  refine ⟨[exProc], PyOrd.id _, revOrd _, fun h => ?_⟩
  have : (body (PyOrd.id _) (PyOrd.id _) true (grid true [exProc])).toOption =
      (body (PyOrd.id _) (revOrd _) true (grid true [exProc])).toOption := by rw [h]
  revert this
  decide +kernel

end Tab
