import Mathlib.Tactic.Tauto
import Mathlib.Tactic.ByContra
import Verif.Model.EiSheet

/-!
C219–C220: loading an ecoinvent spreadsheet.
-/

namespace Eis

/-! ### the words of the claims -/

/-- the value a field has in the last row of the key that has the field -/
def lastValue (rows : List FRow) (k x : String) : Option String :=
  (rows.reverse.filter fun r => r.key = k).findSome? fun r => Dict.get? r.row.props x

/-- the first row of a key -/
def firstRow (rows : List FRow) (k : String) : Option FRow := rows.find? fun r => r.key = k

/-- a string is the unit of a row -/
def IsUnit (rows : List FRow) (u : String) : Prop := ∃ r ∈ rows, r.row.unit = u

/-- the rows give each field once -/
def Fields (rows : List FRow) : Prop := ∀ r ∈ rows, r.row.props.keys.Nodup

/-! ### lemmas -/

theorem get?_upd (e : Dict String String) : ∀ (d : Dict String String) (x : String), e.keys.Nodup →
    Dict.get? (upd d e) x = (Dict.get? e x).or (Dict.get? d x) := by
  induction e with
  | nil => intro d x _; rfl
  | cons p e ih =>
    intro d x hn
    obtain ⟨k, v⟩ := p
    simp only [Dict.keys, List.map_cons, List.nodup_cons] at hn
    have h1 := ih (d.set k v) x hn.2
    have h2 : upd d ((k, v) :: e) = upd (d.set k v) e := rfl
    rw [h2, h1, Dict.get?_set]
    rw [Dict.get?]
    by_cases hk : k = x
    · subst hk
      have h3 : Dict.get? e k = none := (Dict.not_mem_keys_iff _ _).mp hn.1
      simp [h3]
    · simp [hk]

theorem lastValue_snoc (rows : List FRow) (r : FRow) (k x : String) :
    lastValue (rows ++ [r]) k x = if r.key = k then (Dict.get? r.row.props x).or (lastValue rows k x) else lastValue rows k x := by
  unfold lastValue
  rw [List.reverse_append]
  simp only [List.reverse_singleton, List.singleton_append, List.filter_cons]
  by_cases h : r.key = k
  · rw [if_pos (by simpa using h), if_pos h, List.findSome?_cons]
    cases Dict.get? r.row.props x <;> simp
  · simp [h]

theorem lastValue_none {rows : List FRow} {k x : String} (h : ∀ r ∈ rows, r.key ≠ k) : lastValue rows k x = none := by
  unfold lastValue
  have : rows.reverse.filter (fun r => decide (r.key = k)) = [] := by
    rw [List.filter_eq_nil_iff]; intro r hr; simpa using h r (by simpa using hr)
  rw [this]; rfl

structure UInv (us : List String) (a : Arch) : Prop where
  unit : ∀ u ∈ us, a.get? (.ns u) = some (.qty u [])
  other : ∀ k, (∀ u ∈ us, k ≠ .ns u) → a.get? k = none

theorem units_inv (us : List String) : ∀ (vs : List String) {a : Arch}, UInv vs a →
    UInv (vs ++ us) (us.foldl (fun a u => createQuantity u a) a) := by
  induction us with
  | nil => intro vs a h; simpa using h
  | cons u us ih =>
    intro vs a h
    have h1 : UInv (vs ++ [u]) (createQuantity u a) := by
      unfold createQuantity
      cases hh : a.has (.ns u) with
      | true =>
        have hu : u ∈ vs := by
          by_contra hn
          have h2 := h.other (.ns u) (fun v hv e => hn (by simp at e; rw [e]; exact hv))
          have h3 := (Dict.has_iff _ _).mp hh
          obtain ⟨e, h3⟩ := (Dict.mem_keys_iff _ _).mp h3
          rw [h2] at h3; simp at h3
        refine ⟨fun v hv => ?_, fun k hk => h.other k (fun v hv => hk v (by simp [hv]))⟩
        simp at hv
        rcases hv with hv | rfl
        · exact h.unit v hv
        · exact h.unit v hu
      | false =>
        simp only [Bool.false_eq_true, if_false]
        refine ⟨fun v hv => ?_, fun k hk => ?_⟩
        · by_cases e : u = v
          · subst e; exact Dict.get?_set_self _ _ _
          · rw [Dict.get?_set_ne _ _ (by simpa using e)]
            simp at hv
            rcases hv with hv | rfl
            · exact h.unit v hv
            · exact absurd rfl e
        · rw [Dict.get?_set_ne _ _ (fun e => hk u (by simp) e.symm)]
          exact h.other k (fun v hv => hk v (by simp [hv]))
    have := ih (vs ++ [u]) h1
    simpa using this

theorem quantities_inv (o : PyOrd String) (rows : List FRow) :
    (∀ u, IsUnit rows u → (createQuantities o rows []).get? (.ns u) = some (.qty u [])) ∧
    (∀ k, ¬ IsUnit rows k → (createQuantities o rows []).get? (.ns k) = none) ∧
    ∀ u, (createQuantities o rows []).get? (.uu u) = none := by
  have h := units_inv (o.f (PySet.ofList (rows.map fun r => r.row.unit))) [] (a := []) ⟨by simp, fun _ _ => rfl⟩
  have hmem : ∀ u, u ∈ o.f (PySet.ofList (rows.map fun r => r.row.unit)) ↔ IsUnit rows u := by
    intro u; rw [o.mem, PySet.mem_ofList]; simp [IsUnit]
  rw [List.nil_append] at h
  refine ⟨fun u hu => h.unit u ((hmem u).mpr hu), fun k hk => h.other _ (fun u hu e => ?_), fun u => h.other _ (by simp)⟩
  simp at e
  exact hk ((hmem k).mp (e ▸ hu))

/-- what is in the archive after some rows -/
structure FInv (all rows : List FRow) (a : Arch) : Prop where
  unit : ∀ u, IsUnit all u → ∃ d, a.get? (.ns u) = some (.qty u d) ∧ ∀ x, Dict.get? d x = lastValue rows u x
  absent : ∀ k, ¬ IsUnit all k → firstRow rows k = none → a.get? (.ns k) = none
  flow : ∀ k r, ¬ IsUnit all k → firstRow rows k = some r →
    ∃ d, a.get? (.ns k) = some (.flow ⟨k, r.row.name, r.row.comp, r.row.unit, d⟩) ∧ ∀ x, Dict.get? d x = lastValue rows k x
  uu : ∀ u, a.get? (.uu u) = none

theorem firstRow_snoc (rows : List FRow) (r : FRow) (k : String) :
    firstRow (rows ++ [r]) k = (firstRow rows k).or (if r.key = k then some r else none) := by
  unfold firstRow
  rw [List.find?_append]
  congr 1
  by_cases h : r.key = k <;> simp [h]

theorem firstRow_none {rows : List FRow} {k : String} (h : firstRow rows k = none) : ∀ r ∈ rows, r.key ≠ k := by
  unfold firstRow at h
  rw [List.find?_eq_none] at h
  simpa using h

theorem flows_step {all rows : List FRow} {a : Arch} (h : FInv all rows a) {r : FRow} (hr : r ∈ all) (hn : r.row.props.keys.Nodup) :
    FInv all (rows ++ [r]) (createFlow r a) := by
  have hkeep : ∀ k, k ≠ r.key → firstRow (rows ++ [r]) k = firstRow rows k ∧ ∀ x, lastValue (rows ++ [r]) k x = lastValue rows k x := by
    intro k hk
    constructor
    · rw [firstRow_snoc, if_neg (Ne.symm hk)]; cases firstRow rows k <;> rfl
    · intro x; rw [lastValue_snoc, if_neg (Ne.symm hk)]
  have hself : ∀ x, lastValue (rows ++ [r]) r.key x = (Dict.get? r.row.props x).or (lastValue rows r.key x) := by
    intro x; rw [lastValue_snoc, if_pos rfl]
  -- the archive differs only at the key of the row
  have hother : ∀ k, k ≠ .ns r.key → (createFlow r a).get? k = a.get? k := by
    intro k hk
    unfold createFlow
    have hq : createQuantity r.row.unit a = a := by
      unfold createQuantity
      obtain ⟨d, hd, _⟩ := h.unit r.row.unit ⟨r, hr, rfl⟩
      rw [if_pos ((Dict.has_iff _ _).mpr ((Dict.mem_keys_iff _ _).mpr ⟨_, hd⟩))]
    cases a.get? (.ns r.key) with
    | some e => exact Dict.get?_set_ne _ _ (Ne.symm hk)
    | none => simp only [hq]; exact Dict.get?_set_ne _ _ (Ne.symm hk)
  have hset : ∀ e, a.get? (.ns r.key) = some e → (createFlow r a).get? (.ns r.key) = some (e.update r.row.props) := by
    intro e he
    unfold createFlow
    rw [he]
    exact Dict.get?_set_self _ _ _
  have hnew : a.get? (.ns r.key) = none → (createFlow r a).get? (.ns r.key) =
      some (.flow ⟨r.key, r.row.name, r.row.comp, r.row.unit, upd (upd [] r.row.props) r.row.props⟩) := by
    intro he
    unfold createFlow
    rw [he]
    exact Dict.get?_set_self _ _ _
  refine ⟨?_, ?_, ?_, ?_⟩
  · intro u hu
    obtain ⟨d, hd, hx⟩ := h.unit u hu
    by_cases e : u = r.key
    · subst e
      refine ⟨upd d r.row.props, hset _ hd, fun x => ?_⟩
      rw [get?_upd _ _ _ hn, hself, hx]
    · refine ⟨d, by rw [hother _ (by simpa using e)]; exact hd, fun x => ?_⟩
      rw [(hkeep u e).2, hx]
  · intro k hk hf
    have e : k ≠ r.key := by
      rintro rfl
      rw [firstRow_snoc, if_pos rfl] at hf
      cases h0 : firstRow rows r.key <;> simp [h0] at hf
    rw [hother _ (by simpa using e)]
    exact h.absent k hk (by rw [← (hkeep k e).1]; exact hf)
  · intro k r0 hk hf
    by_cases e : k = r.key
    · subst e
      rw [firstRow_snoc, if_pos rfl] at hf
      cases h0 : firstRow rows r.key with
      | none =>
        rw [h0] at hf
        simp at hf
        subst hf
        refine ⟨_, hnew (h.absent _ hk h0), fun x => ?_⟩
        rw [get?_upd _ _ _ hn, get?_upd _ _ _ hn, hself, lastValue_none (firstRow_none h0)]
        cases Dict.get? r.row.props x <;> rfl
      | some r1 =>
        rw [h0] at hf
        simp at hf
        subst hf
        obtain ⟨d, hd, hx⟩ := h.flow _ _ hk h0
        refine ⟨upd d r.row.props, hset _ hd, fun x => ?_⟩
        rw [get?_upd _ _ _ hn, hself, hx]
    · obtain ⟨d, hd, hx⟩ := h.flow k r0 hk (by rw [← (hkeep k e).1]; exact hf)
      refine ⟨d, by rw [hother _ (by simpa using e)]; exact hd, fun x => ?_⟩
      rw [(hkeep k e).2, hx]
  · intro u
    rw [hother _ (by simp)]
    exact h.uu u

theorem flows_inv (all : List FRow) (hf : Fields all) (rows : List FRow) : ∀ (pre : List FRow) {a : Arch}, FInv all pre a →
    (∀ r ∈ rows, r ∈ all) → FInv all (pre ++ rows) (rows.foldl (fun a r => createFlow r a) a) := by
  induction rows with
  | nil => intro pre a h _; simpa using h
  | cons r rows ih =>
    intro pre a h hsub
    have h1 := flows_step h (hsub r (by simp)) (hf r (hsub r (by simp)))
    have := ih (pre ++ [r]) h1 (fun x hx => hsub x (by simp [hx]))
    simpa using this

theorem loadFlows_inv (o : PyOrd String) (elem inter : List FRow) (hf : Fields (elem ++ inter)) :
    FInv (elem ++ inter) (elem ++ inter) (loadFlows o elem inter) := by
  obtain ⟨h1, h2, h3⟩ := quantities_inv o (elem ++ inter)
  have h := flows_inv (elem ++ inter) hf (elem ++ inter) [] (a := createQuantities o (elem ++ inter) []) ⟨
    fun u hu => ⟨[], h1 u hu, fun x => rfl⟩, fun k hk _ => h2 k hk, fun k r _ hr => (by simp [firstRow] at hr), h3⟩ (fun r hr => hr)
  rw [List.nil_append] at h
  exact h

/-! ### C219 -/

/-- C219. After the sheets of exchanges are read, a name that is not a unit names a flow exactly if it is the key of a row; the flow
has the name, the compartments and the unit of the first such row, and each other field from the last such row that has it. The
order in which the units are met does not matter. -/
theorem sheet_flows (o : PyOrd String) (elem inter : List FRow) (hf : Fields (elem ++ inter)) (k : String)
    (hk : ¬ IsUnit (elem ++ inter) k) :
    (firstRow (elem ++ inter) k = none → (loadFlows o elem inter).get? (.ns k) = none) ∧
    ∀ r, firstRow (elem ++ inter) k = some r → ∃ d, (loadFlows o elem inter).get? (.ns k) =
        some (.flow ⟨k, r.row.name, r.row.comp, r.row.unit, d⟩) ∧ ∀ x, Dict.get? d x = lastValue (elem ++ inter) k x :=
  ⟨(loadFlows_inv o elem inter hf).absent k hk, fun r hr => (loadFlows_inv o elem inter hf).flow k r hk hr⟩

/-- C219. Each unit becomes a quantity. It fails for a row whose key is the name of a unit: no flow is made, the fields of the row are
written into the quantity. -/
theorem sheet_units (o : PyOrd String) (elem inter : List FRow) (hf : Fields (elem ++ inter)) (u : String)
    (hu : IsUnit (elem ++ inter) u) :
    ∃ d, (loadFlows o elem inter).get? (.ns u) = some (.qty u d) ∧ ∀ x, Dict.get? d x = lastValue (elem ++ inter) u x :=
  (loadFlows_inv o elem inter hf).unit u hu

/-- C219 fails for rows that differ but have one key, in two ways: a later row with another unit keeps the first unit, and an
intermediate row whose name is made like the key of an elementary row gives no flow of its own. -/
theorem sheet_same_key (o : PyOrd String) (n c s u u' : String) (p p' : Dict String String)
    (hp : p.keys.Nodup) (hp' : p'.keys.Nodup) (h1 : u ≠ elementaryKey n c s) (h2 : u' ≠ elementaryKey n c s) :
    ∃ d, (loadFlows o [elementary n c s u p] [intermediate (elementaryKey n c s) u' p']).get? (.ns (elementaryKey n c s)) =
      some (.flow ⟨elementaryKey n c s, n, [c, s], u, d⟩) := by
  have hf : Fields ([elementary n c s u p] ++ [intermediate (elementaryKey n c s) u' p']) := by
    intro r hr
    simp at hr
    rcases hr with rfl | rfl
    · exact hp
    · exact hp'
  obtain ⟨d, hd, _⟩ := (sheet_flows o _ _ hf (elementaryKey n c s) (by
    rintro ⟨r, hr, e⟩
    simp at hr
    rcases hr with rfl | rfl
    · exact h1 e
    · exact h2 e)).2 (elementary n c s u p) (by simp [firstRow, elementary])
  exact ⟨d, hd⟩

/-! ### C220 -/

/-- a name that activities may refer to: the key of a row, or a unit -/
def Known (rows : List FRow) (k : String) : Prop := IsUnit rows k ∨ ∃ r ∈ rows, r.key = k

theorem known_get {o : PyOrd String} {elem inter : List FRow} (hf : Fields (elem ++ inter)) (k : String) :
    (Known (elem ++ inter) k → ∃ e, (loadFlows o elem inter).get? (.ns k) = some e ∧ e.ref = k) ∧
    (¬ Known (elem ++ inter) k → (loadFlows o elem inter).get? (.ns k) = none) := by
  by_cases hu : IsUnit (elem ++ inter) k
  · obtain ⟨d, hd, _⟩ := sheet_units o elem inter hf k hu
    exact ⟨fun _ => ⟨_, hd, rfl⟩, fun hn => absurd (Or.inl hu) hn⟩
  · obtain ⟨h1, h2⟩ := sheet_flows o elem inter hf k hu
    cases hfr : firstRow (elem ++ inter) k with
    | none =>
      refine ⟨fun hk => ?_, fun _ => h1 hfr⟩
      rcases hk with hk | ⟨r, hr, e⟩
      · exact absurd hk hu
      · exact absurd e (firstRow_none hfr r hr)
    | some r =>
      obtain ⟨d, hd, _⟩ := h2 r hfr
      refine ⟨fun _ => ⟨_, hd, rfl⟩, fun hn => absurd ?_ hn⟩
      have h3 := List.find?_some hfr
      exact Or.inr ⟨r, List.mem_of_find?_eq_some hfr, by simpa using h3⟩

/-- the rows of an activity -/
def rowsOf (canon : String → Option String) (acts : List ARow) (u : String) : List ARow :=
  acts.filter fun r => canon r.uuid = some u

/-- what is in the archive after some rows of activities -/
structure AInv (a0 : Arch) (canon : String → Option String) (rows : List ARow) (a : Arch) : Prop where
  ns : ∀ k, a.get? (.ns k) = a0.get? (.ns k)
  absent : ∀ u, rowsOf canon rows u = [] → a.get? (.uu u) = none
  proc : ∀ u r rs, rowsOf canon rows u = r :: rs → ∃ p, a.get? (.uu u) = some (.proc p) ∧ p.uuid = u ∧ p.name = r.name ∧ p.geo = r.geo ∧
    p.exch.Nodup ∧ p.refs.Nodup ∧
    (∀ f, f ∈ p.exch ↔ ∃ x ∈ r :: rs, x.product = f) ∧ (∀ f, f ∈ p.refs ↔ ∃ x ∈ r :: rs, x.product = f ∧ x.isRef = true)

theorem rowsOf_snoc (canon : String → Option String) (rows : List ARow) (r : ARow) (u : String) :
    rowsOf canon (rows ++ [r]) u = rowsOf canon rows u ++ if canon r.uuid = some u then [r] else [] := by
  unfold rowsOf
  rw [List.filter_append]
  congr 1
  by_cases h : canon r.uuid = some u <;> simp [h]

theorem addProduct_spec (p : ProcE) (f : String) (b : Bool) (h1 : p.exch.Nodup) (h2 : p.refs.Nodup) :
    (p.addProduct f b).exch.Nodup ∧ (p.addProduct f b).refs.Nodup ∧ (∀ g, g ∈ (p.addProduct f b).exch ↔ g ∈ p.exch ∨ g = f) ∧
    (∀ g, g ∈ (p.addProduct f b).refs ↔ g ∈ p.refs ∨ (g = f ∧ b = true)) := by
  refine ⟨PySet.nodup_add h1, ?_, fun g => PySet.mem_add, fun g => ?_⟩
  · unfold ProcE.addProduct
    cases b
    · exact h2
    · exact PySet.nodup_add h2
  · unfold ProcE.addProduct
    cases b
    · simp
    · simp

theorem activity_step {a0 a : Arch} {canon : String → Option String} {rows : List ARow} (h : AInv a0 canon rows a) (r : ARow) :
    (canon r.uuid = none → loadActivity canon r a = .err .value a) ∧
    (canon r.uuid ≠ none → a0.get? (.ns r.product) = none → ∃ a', loadActivity canon r a = .err .attribute a') ∧
    (canon r.uuid ≠ none → ∀ e, a0.get? (.ns r.product) = some e → e.ref = r.product →
      ∃ a', loadActivity canon r a = .ok () a' ∧ AInv a0 canon (rows ++ [r]) a') := by
  refine ⟨fun hc => by unfold loadActivity; rw [hc], fun hc hn => ?_, fun hc e he hr => ?_⟩
  · obtain ⟨u, hu⟩ := Option.ne_none_iff_exists'.mp hc
    unfold loadActivity
    rw [hu]
    simp only
    cases hg : a.get? (.uu u) with
    | none =>
      simp only
      rw [Dict.get?_set_ne _ _ (by simp), h.ns, hn]
      exact ⟨_, rfl⟩
    | some e =>
      simp only
      rw [h.ns, hn]
      exact ⟨_, rfl⟩
  · obtain ⟨u, hu⟩ := Option.ne_none_iff_exists'.mp hc
    have hother : ∀ u', u' ≠ u → rowsOf canon (rows ++ [r]) u' = rowsOf canon rows u' := by
      intro u' hne
      rw [rowsOf_snoc, if_neg (by rw [hu]; simpa using (Ne.symm hne))]; simp
    have hmine : rowsOf canon (rows ++ [r]) u = rowsOf canon rows u ++ [r] := by rw [rowsOf_snoc, if_pos hu]
    unfold loadActivity
    rw [hu]
    simp only
    cases hrs : rowsOf canon rows u with
    | nil =>
      rw [h.absent u hrs]
      simp only
      rw [Dict.get?_set_ne _ _ (by simp), h.ns, he]
      simp only
      rw [Dict.get?_set_self]
      refine ⟨_, rfl, ?_, ?_, ?_⟩
      · intro k
        rw [Dict.get?_set_ne _ _ (by simp), Dict.get?_set_ne _ _ (by simp)]
        exact h.ns k
      · intro u' hu'
        have hne : u' ≠ u := by rintro rfl; rw [hmine] at hu'; simp at hu'
        rw [Dict.get?_set_ne _ _ (by simpa using Ne.symm hne), Dict.get?_set_ne _ _ (by simpa using Ne.symm hne)]
        exact h.absent u' (by rw [← hother u' hne]; exact hu')
      · intro u' r' rs' hu'
        by_cases hne : u' = u
        · subst hne
          rw [hmine, hrs] at hu'
          simp at hu'
          obtain ⟨rfl, rfl⟩ := hu'
          obtain ⟨g1, g2, g3, g4⟩ := addProduct_spec { uuid := u', name := r.name, geo := r.geo } e.ref r.isRef (by simp) (by simp)
          refine ⟨_, Dict.get?_set_self _ _ _, rfl, rfl, rfl, g1, g2, fun f => ?_, fun f => ?_⟩
          · rw [g3, hr]
            constructor
            · rintro (h' | rfl)
              · simp at h'
              · exact ⟨r, by simp, rfl⟩
            · rintro ⟨x, hx, e'⟩
              simp at hx
              subst hx; exact Or.inr e'.symm
          · rw [g4, hr]
            constructor
            · rintro (h' | ⟨rfl, e2⟩)
              · simp at h'
              · exact ⟨r, by simp, rfl, e2⟩
            · rintro ⟨x, hx, e', e2⟩
              simp at hx
              subst hx; exact Or.inr ⟨e'.symm, e2⟩
        · obtain ⟨p, h1, h2⟩ := h.proc u' r' rs' (by rw [← hother u' hne]; exact hu')
          refine ⟨p, ?_, h2⟩
          rw [Dict.get?_set_ne _ _ (by simpa using Ne.symm hne), Dict.get?_set_ne _ _ (by simpa using Ne.symm hne)]
          exact h1
    | cons r0 rs =>
      obtain ⟨p, h1, hp1, hp2, hp3, hp4, hp5, hp6, hp7⟩ := h.proc u r0 rs hrs
      rw [h1]
      simp only
      rw [h.ns, he, h1]
      refine ⟨_, rfl, ?_, ?_, ?_⟩
      · intro k
        rw [Dict.get?_set_ne _ _ (by simp)]
        exact h.ns k
      · intro u' hu'
        have hne : u' ≠ u := by rintro rfl; rw [hmine] at hu'; simp at hu'
        rw [Dict.get?_set_ne _ _ (by simpa using Ne.symm hne)]
        exact h.absent u' (by rw [← hother u' hne]; exact hu')
      · intro u' r' rs' hu'
        by_cases hne : u' = u
        · subst hne
          rw [hmine, hrs] at hu'
          simp at hu'
          obtain ⟨rfl, rfl⟩ := hu'
          obtain ⟨g1, g2, g3, g4⟩ := addProduct_spec p e.ref r.isRef hp4 hp5
          refine ⟨_, Dict.get?_set_self _ _ _, hp1, hp2, hp3, g1, g2, fun f => ?_, fun f => ?_⟩
          · rw [g3, hp6, hr]
            constructor
            · rintro (⟨x, hx, e'⟩ | e')
              · exact ⟨x, by simp at hx ⊢; tauto, e'⟩
              · exact ⟨r, by simp, e'.symm⟩
            · rintro ⟨x, hx, e'⟩
              simp at hx
              rcases hx with hx | hx | hx
              · exact Or.inl ⟨x, by simp [hx], e'⟩
              · exact Or.inl ⟨x, by simp [hx], e'⟩
              · subst hx; exact Or.inr e'.symm
          · rw [g4, hp7, hr]
            constructor
            · rintro (⟨x, hx, e'⟩ | ⟨e', e2⟩)
              · exact ⟨x, by simp at hx ⊢; tauto, e'⟩
              · exact ⟨r, by simp, e'.symm, e2⟩
            · rintro ⟨x, hx, e', e2⟩
              simp at hx
              rcases hx with hx | hx | hx
              · exact Or.inl ⟨x, by simp [hx], e', e2⟩
              · exact Or.inl ⟨x, by simp [hx], e', e2⟩
              · subst hx; exact Or.inr ⟨e'.symm, e2⟩
        · obtain ⟨q, h3, h4⟩ := h.proc u' r' rs' (by rw [← hother u' hne]; exact hu')
          refine ⟨q, ?_, h4⟩
          rw [Dict.get?_set_ne _ _ (by simpa using Ne.symm hne)]
          exact h3

theorem activities_inv {a0 : Arch} {canon : String → Option String} (href : ∀ k e, a0.get? (.ns k) = some e → e.ref = k)
    (acts : List ARow) : ∀ (pre : List ARow) {a : Arch}, AInv a0 canon pre a →
    ((∀ r ∈ acts, canon r.uuid ≠ none ∧ a0.get? (.ns r.product) ≠ none) →
      ∃ a', loadActivities canon acts a = .ok () a' ∧ AInv a0 canon (pre ++ acts) a') ∧
    ((∃ r ∈ acts, canon r.uuid = none ∨ a0.get? (.ns r.product) = none) →
      ∃ e a', loadActivities canon acts a = .err e a') := by
  induction acts with
  | nil => intro pre a h; exact ⟨fun _ => ⟨a, rfl, by simpa using h⟩, by simp⟩
  | cons r acts ih =>
    intro pre a h
    obtain ⟨h1, h2, h3⟩ := activity_step h r
    constructor
    · intro hall
      obtain ⟨hc, hn⟩ := hall r (by simp)
      obtain ⟨e, he⟩ := Option.ne_none_iff_exists'.mp hn
      obtain ⟨a1, e1, hi⟩ := h3 hc e he (href _ _ he)
      obtain ⟨a2, e2, hi2⟩ := (ih (pre ++ [r]) hi).1 (fun x hx => hall x (by simp [hx]))
      refine ⟨a2, ?_, by simpa using hi2⟩
      rw [loadActivities, e1]; exact e2
    · rintro ⟨x, hx, hbad⟩
      rw [loadActivities]
      by_cases hc : canon r.uuid = none
      · rw [h1 hc]; exact ⟨_, _, rfl⟩
      · cases hn : a0.get? (.ns r.product) with
        | none =>
          obtain ⟨a', e'⟩ := h2 hc hn
          rw [e']; exact ⟨_, _, rfl⟩
        | some e =>
          obtain ⟨a1, e1, hi⟩ := h3 hc e hn (href _ _ hn)
          rw [e1]
          apply (ih (pre ++ [r]) hi).2
          rcases List.mem_cons.mp hx with rfl | hx
          · exfalso
            rcases hbad with hb | hb
            · exact hc hb
            · rw [hn] at hb; simp at hb
          · exact ⟨x, hx, hbad⟩

/-- C220. Loading returns exactly if every activity has a valid uuid and a product that is known. -/
theorem sheet_returns (o : PyOrd String) (canon : String → Option String) (elem inter : List FRow) (acts : List ARow)
    (hf : Fields (elem ++ inter)) :
    (∃ a, loadAll o canon elem inter acts = .ok () a) ↔ ∀ r ∈ acts, canon r.uuid ≠ none ∧ Known (elem ++ inter) r.product := by
  have hF := loadFlows_inv o elem inter hf
  have href : ∀ k e, (loadFlows o elem inter).get? (.ns k) = some e → e.ref = k := by
    intro k e he
    by_cases hk : Known (elem ++ inter) k
    · obtain ⟨e', h1, h2⟩ := (known_get (o := o) hf k).1 hk
      rw [h1] at he; simp at he; rw [← he]; exact h2
    · rw [(known_get (o := o) hf k).2 hk] at he; simp at he
  have hinit : AInv (loadFlows o elem inter) canon [] (loadFlows o elem inter) :=
    ⟨fun _ => rfl, fun u _ => hF.uu u, fun u r rs h => (by simp [rowsOf] at h)⟩
  obtain ⟨h1, h2⟩ := activities_inv href acts [] hinit
  constructor
  · rintro ⟨a, ha⟩ r hr
    by_contra hbad
    rw [Classical.not_and_iff_not_or_not] at hbad
    obtain ⟨e, a', he⟩ := h2 ⟨r, hr, by
      rcases hbad with hb | hb
      · exact Or.inl (by simpa using hb)
      · exact Or.inr ((known_get (o := o) hf r.product).2 hb)⟩
    unfold loadAll at ha
    rw [he] at ha
    simp at ha
  · intro hall
    obtain ⟨a, ha, _⟩ := h1 (fun r hr => ⟨(hall r hr).1, by
      obtain ⟨e, he, _⟩ := (known_get (o := o) hf r.product).1 (hall r hr).2
      rw [he]; simp⟩)
    exact ⟨a, ha⟩

/-- C220. If loading returns, the processes are exactly the activities in the sheet; each has the name and the place of its first row,
one output for each of its products, and those marked as reference products as references. The flows and quantities are those of
the sheets of exchanges. -/
theorem sheet_activities (o : PyOrd String) (canon : String → Option String) (elem inter : List FRow) (acts : List ARow)
    (hf : Fields (elem ++ inter)) {a : Arch} (ha : loadAll o canon elem inter acts = .ok () a) :
    (∀ k, a.get? (.ns k) = (loadFlows o elem inter).get? (.ns k)) ∧
    (∀ u, rowsOf canon acts u = [] → a.get? (.uu u) = none) ∧
    ∀ u r rs, rowsOf canon acts u = r :: rs → ∃ p, a.get? (.uu u) = some (.proc p) ∧ p.uuid = u ∧ p.name = r.name ∧ p.geo = r.geo ∧
      p.exch.Nodup ∧ p.refs.Nodup ∧
      (∀ f, f ∈ p.exch ↔ ∃ x ∈ r :: rs, x.product = f) ∧
      (∀ f, f ∈ p.refs ↔ ∃ x ∈ r :: rs, x.product = f ∧ x.isRef = true) := by
  have hF := loadFlows_inv o elem inter hf
  have href : ∀ k e, (loadFlows o elem inter).get? (.ns k) = some e → e.ref = k := by
    intro k e he
    by_cases hk : Known (elem ++ inter) k
    · obtain ⟨e', h1, h2⟩ := (known_get (o := o) hf k).1 hk
      rw [h1] at he; simp at he; rw [← he]; exact h2
    · rw [(known_get (o := o) hf k).2 hk] at he; simp at he
  have hinit : AInv (loadFlows o elem inter) canon [] (loadFlows o elem inter) :=
    ⟨fun _ => rfl, fun u _ => hF.uu u, fun u r rs h => (by simp [rowsOf] at h)⟩
  have hall := (sheet_returns o canon elem inter acts hf).mp ⟨a, ha⟩
  obtain ⟨a', ha', hi⟩ := (activities_inv href acts [] hinit).1 (fun r hr => ⟨(hall r hr).1, by
      obtain ⟨e, he, _⟩ := (known_get (o := o) hf r.product).1 (hall r hr).2
      rw [he]; simp⟩)
  unfold loadAll at ha
  rw [ha'] at ha
  simp at ha
  subst ha
  exact ⟨hi.ns, hi.absent, hi.proc⟩

/-! ### a concrete case -/

def exElem : List FRow := [elementary "Water" "water" "river" "m3" [("CasNumber", "7732-18-5")],
  elementary "Water" "air" "urban" "m3" [("CasNumber", ""), ("Formula", "H2O")]]
def exInter : List FRow := [intermediate "steel" "kg" [("Comment", "old")], intermediate "steel" "t" [("Comment", "new")]]
def exActs : List ARow := [⟨"A1", "making steel", "GLO", "steel", true⟩, ⟨"a1", "making steel again", "CH", "kg", false⟩]
def exCanon (s : String) : Option String := if s = "A1" ∨ s = "a1" then some "a1" else none

example : (loadFlows (PyOrd.id _) exElem exInter).get? (.ns "steel") =
    some (.flow ⟨"steel", "steel", ["Intermediate flow"], "kg", [("Comment", "new")]⟩) := by decide +kernel
example : ((loadFlows (PyOrd.id _) exElem exInter).get? (.ns "Water [air, urban]")).isSome = true := by decide +kernel
example : (loadFlows (PyOrd.id _) exElem exInter).get? (.ns "Water [air, river]") = none := by decide +kernel
example : (loadFlows (PyOrd.id _) exElem exInter).get? (.ns "t") = some (.qty "t" []) := by decide +kernel
/-- a flow named as a unit is swallowed -/
example : (loadFlows (PyOrd.id _) exElem [intermediate "kg" "kg" [("Comment", "x")]]).get? (.ns "kg") = some (.qty "kg" [("Comment", "x")]) := by
  decide +kernel
/-- both spellings of the uuid are one activity; the second product is a quantity -/
example : ((loadAll (PyOrd.id _) exCanon exElem exInter exActs).value?).isSome = true ∧
    (loadAll (PyOrd.id _) exCanon exElem exInter exActs).state.get? (.uu "a1") =
      some (.proc ⟨"a1", "making steel", "GLO", ["steel", "kg"], ["steel"]⟩) := by decide +kernel
/-- the hypotheses of the theorems are met -/
example : Fields (exElem ++ exInter) ∧ ¬ IsUnit (exElem ++ exInter) "steel" ∧ IsUnit (exElem ++ exInter) "kg" ∧
    (∀ r ∈ exActs, exCanon r.uuid ≠ none ∧ Known (exElem ++ exInter) r.product) := by
  refine ⟨?_, ?_, ?_, ?_⟩
  · unfold Fields; decide +kernel
  · unfold IsUnit; decide +kernel
  · unfold IsUnit; decide +kernel
  · unfold Known IsUnit; decide +kernel

end Eis
