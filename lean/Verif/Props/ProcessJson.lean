import Verif.Lemmas.ProcessJson
import Mathlib.Data.List.Perm.Basic
import Mathlib.Data.List.Sort

/-!
C100, C101: a process that is written to a JSON file and read again.
-/

namespace Proc
variable {F Q T : Type} [DecidableEq F] [DecidableEq T]

/-! ### specification -/

/-- two exchanges in JSON with the same content: the entries of `valueDict` may have another order (the file is written with sorted
keys) -/
structure SameX (a b : JX F T) : Prop where
  flow : a.flow = b.flow
  dir : a.dir = b.dir
  term : a.term = b.term
  isRef : a.isRef = b.isRef
  value : a.value = b.value
  vdict : (a.vdict = none ∧ b.vdict = none) ∨ ∃ v w, a.vdict = some v ∧ b.vdict = some w ∧ v.Perm w

/-- the file has the content of the process -/
structure SameP (a b : JP F Q T) : Prop where
  exchanges : List.Forall₂ SameX a.exchanges b.exchanges
  alloc : a.alloc = b.alloc

/-- every exchange but the references has a value or is allocated, and the amounts allocated are nonzero numbers -/
def Clean (p : State F Q T) : Prop :=
  ∀ k e, p.exchs.get? k = some e → e.isRef = false →
    (e.value ≠ none ∨ e.vdict ≠ []) ∧ ∀ r v, (r, v) ∈ e.vdict → ∃ w, v = some w ∧ w ≠ 0

/-- a flow to which something is allocated is a reference flow in one direction only -/
def OneWay (p : State F Q T) : Prop :=
  ∀ k e, p.exchs.get? k = some e → e.isRef = false → ∀ r v, (r, v) ∈ e.vdict → ∀ r' ∈ p.refs, r'.flow = r.flow → r' = r

/-! ### the reader makes a process -/

theorem reach_add {str : T → T} {p : State F Q T} (h : Reach str p) (f : F) (d : Dir) (r : Option (Key F T)) (v : Option ℚ)
    (t : Option T) (a : Bool) : Reach str (addExchange str f d r v t a p).state :=
  Reach.call (fun _ _ => none) (.addExchange f d r v t a) h

theorem reach_loadRefs {str : T → T} {cf : F → Q → Option ℚ} {has : F → Bool} (l : List (JX F T)) :
    ∀ (d : Dict F (Option (Key F T))) (p : State F Q T), Reach str p → Reach str (loadRefs str cf has l d p).state := by
  induction l with
  | nil => intro d p h; exact h
  | cons x l ih =>
    intro d p h
    rw [loadRefs]
    split
    · have h1 := reach_add h x.flow x.dir none x.value none false
      revert h1
      cases addExchange str x.flow x.dir none x.value none false p with
      | err e s => intro h1; exact h1
      | ok a s =>
        intro h1
        have h2 : Reach str (addReference cf x.flow x.dir s).state := Reach.call cf (.addReference x.flow x.dir) h1
        simp only [Out.bind]
        revert h2
        cases addReference cf x.flow x.dir s with
        | err e s => intro h2; exact h2
        | ok a s => intro h2; exact ih _ _ h2
    · exact h

theorem reach_loadVals {str : T → T} (d : Dict F (Option (Key F T))) (x : JX F T) (l : List ((Dir × F) × Option ℚ)) :
    ∀ (p : State F Q T), Reach str p → Reach str (loadVals str d x l p).state := by
  induction l with
  | nil => intro p h; exact h
  | cons kv l ih =>
    obtain ⟨⟨dr, f⟩, v⟩ := kv
    intro p h
    rw [loadVals]
    split
    · exact h
    · rename_i rx _
      have h1 := reach_add h x.flow x.dir rx v x.term false
      revert h1
      cases addExchange str x.flow x.dir rx v x.term false p with
      | err e s => intro h1; exact h1
      | ok a s => intro h1; exact ih _ h1

theorem reach_loadRest {str : T → T} {has : F → Bool} (d : Dict F (Option (Key F T))) (l : List (JX F T)) :
    ∀ (p : State F Q T), Reach str p → Reach str (loadRest str has d l p).state := by
  induction l with
  | nil => intro p h; exact h
  | cons x l ih =>
    intro p h
    rw [loadRest]
    split
    · have hv : ∀ s : State F Q T, Reach str s → Reach str ((match x.vdict with
            | some vd => loadVals str d x vd s
            | none => .ok () s).bind fun _ p2 => loadRest str has d l p2).state := by
        intro s hs
        cases x.vdict with
        | none => exact ih _ hs
        | some vd =>
          have h2 := reach_loadVals (str := str) d x vd s hs
          simp only
          revert h2
          cases loadVals str d x vd s with
          | err e s => intro h2; exact h2
          | ok a s => intro h2; exact ih _ h2
      cases x.value with
      | none => exact hv p h
      | some v =>
        have h1 := reach_add h x.flow x.dir none (some v) x.term false
        simp only
        revert h1
        cases addExchange str x.flow x.dir none (some v) x.term false p with
        | err e s => intro h1; exact h1
        | ok a s => intro h1; exact hv _ h1
    · exact h

/-! ### dicts of values -/

theorem serializeDict_acc (d : Dict (Key F T) (Option ℚ)) : ∀ (acc : Dict (Dir × F) (Option ℚ)),
    (acc.keys ++ d.map fun kv => (kv.1.dir, kv.1.flow)).Nodup →
    d.foldl (fun j kv => j.set (kv.1.dir, kv.1.flow) kv.2) acc = acc ++ d.map fun kv => ((kv.1.dir, kv.1.flow), kv.2) := by
  induction d with
  | nil => intro acc _; simp
  | cons kv d ih =>
    intro acc h
    have hn : (kv.1.dir, kv.1.flow) ∉ acc.keys := by
      intro hc
      exact (List.nodup_append.1 h).2.2 _ hc _ (by simp) rfl
    rw [List.foldl_cons, Dict.set_of_not_mem acc _ hn, ih]
    · simp
    · simpa [Dict.keys, List.append_assoc] using h

theorem serializeDict_eq (d : Dict (Key F T) (Option ℚ)) (hn : d.keys.Nodup) (ht : ∀ k ∈ d.keys, k.term = none) :
    serializeDict d = d.map fun kv => ((kv.1.dir, kv.1.flow), kv.2) := by
  unfold serializeDict
  rw [serializeDict_acc d []]
  · simp
  · have : (d.map fun kv => (kv.1.dir, kv.1.flow)) = d.keys.map fun k => (k.dir, k.flow) := by
      unfold Dict.keys; rw [List.map_map]; rfl
    simp only [Dict.keys, List.map_nil, List.nil_append]
    rw [this]
    refine hn.map_on ?_
    intro a ha b hb hab
    have h1 := ht a ha
    have h2 := ht b hb
    obtain ⟨f, dr, t⟩ := a
    obtain ⟨f', dr', t'⟩ := b
    simp only at h1 h2
    simp only [Prod.mk.injEq] at hab
    rw [h1, h2, hab.1, hab.2]

theorem serializeDict_toKey (d : Dict (Key F T) (Option ℚ)) (hn : d.keys.Nodup) (ht : ∀ k ∈ d.keys, k.term = none) :
    (serializeDict d).map toKey = d := by
  rw [serializeDict_eq d hn ht, List.map_map]
  conv_rhs => rw [← List.map_id d]
  apply List.map_congr_left
  rintro ⟨⟨f, dr, t⟩, v⟩ hkv
  have h1 := ht ⟨f, dr, t⟩ (List.mem_map.2 ⟨_, hkv, rfl⟩)
  simp only at h1
  simp [toKey, h1]

theorem get?_perm {K V : Type} [DecidableEq K] {d d' : Dict K V} (h : d.Perm d') (hn : d.keys.Nodup) (k : K) : d.get? k = d'.get? k := by
  have hn' : d'.keys.Nodup := (h.map Prod.fst).nodup_iff.1 hn
  cases hg : d.get? k with
  | some v => exact (Dict.get?_eq_some_of_mem d' hn' (h.mem_iff.1 (Dict.mem_of_get?_eq_some _ hg))).symm
  | none =>
    rw [eq_comm, ← Dict.not_mem_keys_iff]
    rw [← Dict.not_mem_keys_iff] at hg
    exact fun hc => hg ((h.map Prod.fst).mem_iff.2 hc)

theorem mem_iff_get? {K V : Type} [DecidableEq K] {d : Dict K V} (hn : d.keys.Nodup) (k : K) (v : V) : (k, v) ∈ d ↔ d.get? k = some v :=
  ⟨Dict.get?_eq_some_of_mem d hn, Dict.mem_of_get?_eq_some _⟩

/-! ### from a process to its file and back -/

theorem serializeP_perm [LinearOrder F] (values : Bool) (p : State F Q T) :
    (serializeP true values p).exchanges.Perm (p.exchs.map fun kx => serializeX values kx.1 kx.2) := by
  unfold serializeP
  simp only
  have : (p.exchs.filter fun kx => true || decide (kx.1 ∈ p.refs)) = p.exchs := by simp
  rw [this]
  exact List.perm_insertionSort _ _

theorem serializeX_key (values : Bool) (k : Key F T) (e : Exch F T) : (serializeX values k e).key = k := rfl

theorem sameX_key {a b : JX F T} (h : SameX a b) : b.key = a.key := by
  unfold JX.key; rw [h.flow, h.dir, h.term]

/-- what the reader makes of an exchange of the process: the same value and an equal dict -/
structure Back (e e' : Exch F T) : Prop where
  isRef : e'.isRef = e.isRef
  value : e'.value = e.val
  vdict : e.isRef = false → e'.vdict.Perm e.vdict
  none : e.isRef = true → e'.vdict = []

theorem val_single {e : Exch F T} {w : Option ℚ} {r : Key F T} (h : e.value = none) (h' : e.vdict = [(r, w)]) : e.val = w := by
  unfold Exch.val; rw [h, h']

theorem val_some {e : Exch F T} {w : ℚ} (h : e.value = some w) : e.val = some w := by
  unfold Exch.val; rw [h]

theorem val_nil {e : Exch F T} (h : e.vdict = []) : e.val = e.value := by
  unfold Exch.val; rw [h]; cases e.value <;> rfl

theorem val_many {e : Exch F T} (h : e.vdict.length ≠ 1) : e.val = e.value := by
  unfold Exch.val
  cases hv : e.value with
  | some v => rfl
  | none =>
    cases hd : e.vdict with
    | nil => rfl
    | cons a l =>
      cases l with
      | nil => rw [hd] at h; simp at h
      | cons b l => rfl

/-- the values are those of before -/
theorem back_val {e e' : Exch F T} (h : Back e e') (hc : e.isRef = false → ∀ r v, (r, v) ∈ e.vdict → ∃ w, v = some w ∧ w ≠ 0) : e'.val = e.val := by
  cases hv : e.val with
  | some w => exact val_some (h.value.trans hv)
  | none =>
    have hval : e'.value = none := h.value.trans hv
    cases hr : e.isRef with
    | true => rw [val_nil (h.none hr), hval]
    | false =>
      have hp := h.vdict hr
      by_cases hl : e.vdict.length = 1
      · exfalso
        obtain ⟨⟨r, v⟩, hrv⟩ := List.length_eq_one_iff.1 hl
        obtain ⟨w, rfl, -⟩ := hc hr r v (by rw [hrv]; exact List.mem_singleton.2 rfl)
        cases hev : e.value with
        | some u => rw [val_some hev] at hv; cases hv
        | none => rw [val_single hev hrv] at hv; cases hv
      · rw [val_many (by rw [hp.length_eq]; exact hl), hval]

/-- the loops of the reader, for the file of a process -/
theorem load_back [LinearOrder F] {str : T → T} (hstr : ∀ t, str (str t) = str t) {p : State F Q T} (hp : Reach str p) (hc : Clean p)
    (ho : OneWay p) (cf : F → Q → Option ℚ) (has : F → Bool) (hhas : ∀ k ∈ p.exchs.keys, has k.flow = true) (j : JP F Q T)
    (hj : SameP (serializeP true true p) j) :
    ∃ d p0 p1, loadRefs str cf has (j.exchanges.filter (·.isRef)) [] {} = .ok d p0 ∧
      loadRest str has d (j.exchanges.filter (!·.isRef)) p0 = .ok () p1 ∧ Reach str p1 ∧ p1.allocQ = none ∧ p1.allocSum = 0 ∧
      (∀ k, k ∈ p1.refs ↔ k ∈ p.refs) ∧
      (∀ k, p.exchs.get? k = none → p1.exchs.get? k = none) ∧
      ∀ k e, p.exchs.get? k = some e → ∃ e', p1.exchs.get? k = some e' ∧ Back e e' := by
  have hI := reach_inv hp
  have hI2 := reach_inv2 hp
  have hperm := serializeP_perm true p
  -- the exchanges of the file
  have hkeys : (j.exchanges.map JX.key).Perm p.exchs.keys := by
    have h1 : j.exchanges.map JX.key = (serializeP true true p).exchanges.map JX.key := by
      have := hj.exchanges
      generalize (serializeP true true p).exchanges = a at this
      generalize j.exchanges = b at this
      induction this with
      | nil => rfl
      | cons h _ ih => rw [List.map_cons, List.map_cons, ih, sameX_key h]
    rw [h1]
    have h2 := hperm.map JX.key
    rw [List.map_map] at h2
    exact h2
  have hnd : (j.exchanges.map JX.key).Nodup := hkeys.nodup_iff.2 hI.nodup
  have hfrom : ∀ x ∈ j.exchanges, ∃ e, p.exchs.get? x.key = some e ∧ SameX (serializeX true x.key e) x := by
    intro x hx
    have : ∃ y ∈ (serializeP true true p).exchanges, SameX y x := by
      have h := hj.exchanges
      generalize (serializeP true true p).exchanges = a at h
      revert hx
      generalize j.exchanges = b at h
      induction h with
      | nil => intro hx; simp at hx
      | cons h1 _ ih =>
        intro hx
        rcases List.mem_cons.1 hx with rfl | hx
        · exact ⟨_, List.mem_cons_self, h1⟩
        · obtain ⟨y, hy, hyx⟩ := ih hx
          exact ⟨y, List.mem_cons_of_mem _ hy, hyx⟩
    obtain ⟨y, hy, hyx⟩ := this
    obtain ⟨⟨k, e⟩, hke, rfl⟩ := List.mem_map.1 (hperm.mem_iff.1 hy)
    have hk : x.key = k := (sameX_key hyx).trans (serializeX_key _ _ _)
    rw [hk]
    exact ⟨e, Dict.get?_eq_some_of_mem _ hI.nodup hke, hyx⟩
  have hex : ∀ k e, p.exchs.get? k = some e → ∃ x ∈ j.exchanges, x.key = k := by
    intro k e hk
    have := hkeys.mem_iff.2 ((Dict.mem_keys_iff _ _).2 ⟨e, hk⟩)
    obtain ⟨x, hx, hxk⟩ := List.mem_map.1 this
    exact ⟨x, hx, hxk⟩
  -- the references
  have hR : ∀ x ∈ j.exchanges.filter (·.isRef), x.key ∈ p.refs ∧ has x.flow = true ∧ x.term = none ∧
      ∃ e, p.exchs.get? x.key = some e ∧ e.isRef = true ∧ x.value = e.val := by
    intro x hx
    obtain ⟨hx, hr⟩ := List.mem_filter.1 hx
    obtain ⟨e, he, hs⟩ := hfrom x hx
    have her : e.isRef = true := hs.isRef.trans hr
    have hm : x.key ∈ p.refs := (hI.refs _).2 ⟨e, he, her⟩
    refine ⟨hm, hhas _ ((Dict.mem_keys_iff _ _).2 ⟨e, he⟩), hI.term _ hm, e, he, her, ?_⟩
    rw [← hs.value]; simp [serializeX]
  have hRmem : ∀ r ∈ p.refs, ∃ x ∈ j.exchanges.filter (·.isRef), x.key = r := by
    intro r hr
    obtain ⟨e, he, her⟩ := (hI.refs r).1 hr
    obtain ⟨x, hx, hxk⟩ := hex r e he
    obtain ⟨e', he', hs⟩ := hfrom x hx
    rw [hxk, he] at he'
    cases he'
    refine ⟨x, List.mem_filter.2 ⟨hx, ?_⟩, hxk⟩
    rw [← hs.isRef]
    exact her
  obtain ⟨d, p0, h1, h2, h3, h4, h5, h6, h7, -⟩ := loadRefs_spec (str := str) (cf := cf) (has := has) (j.exchanges.filter (·.isRef)) []
    ({} : State F Q T) (fun x hx => ⟨(hR x hx).2.1, (hR x hx).2.2.1⟩) ((List.filter_sublist.map _).nodup hnd) (fun _ _ => rfl) rfl
  have hreach0 : Reach str p0 := by
    have := reach_loadRefs (str := str) (cf := cf) (has := has) (j.exchanges.filter (·.isRef)) [] ({} : State F Q T) .new
    rw [h1] at this
    exact this
  have hrefs0 : ∀ k, k ∈ p0.refs ↔ k ∈ p.refs := by
    intro k
    rw [h4]
    constructor
    · rintro (h | ⟨x, hx, rfl⟩)
      · simp at h
      · exact (hR x hx).1
    · intro h
      exact .inr (hRmem k h)
  -- the others
  have hN : ∀ x ∈ j.exchanges.filter (!·.isRef), ∃ e, p.exchs.get? x.key = some e ∧ e.isRef = false ∧ x.value = e.val ∧
      ((x.vdict.getD []).map (toKey (T := T))).Perm e.vdict := by
    intro x hx
    obtain ⟨hx, hr⟩ := List.mem_filter.1 hx
    obtain ⟨e, he, hs⟩ := hfrom x hx
    have her : e.isRef = false := by
      have := hs.isRef
      rw [show x.isRef = false by simpa using hr] at this
      exact this
    refine ⟨e, he, her, ?_, ?_⟩
    · rw [← hs.value]; simp [serializeX]
    · have hvt : ∀ k ∈ e.vdict.keys, k.term = none := fun k hk => hI.term k (hI2.vkeys _ _ he k hk)
      have hser : (serializeX true x.key e).vdict = if e.vdict.length > 0 then some (serializeDict e.vdict) else none := by
        simp [serializeX, her]
      rcases hs.vdict with ⟨hv1, hv2⟩ | ⟨v, w, hv1, hv2, hvw⟩
      · rw [hser] at hv1
        rw [hv2]
        split at hv1
        · cases hv1
        · rename_i hl
          have : e.vdict = [] := List.eq_nil_of_length_eq_zero (by omega)
          rw [this]
          exact .nil
      · rw [hser] at hv1
        rw [hv2]
        split at hv1
        · cases hv1
          have := hvw.symm.map (toKey (T := T))
          rw [serializeDict_toKey _ (hI.vdict _ _ he) hvt] at this
          exact this
        · cases hv1
  have hfine : ∀ x ∈ j.exchanges.filter (!·.isRef), Fine str has d p0.refs x := by
    intro x hx
    obtain ⟨e, he, her, hval, hvd⟩ := hN x hx
    have hcl := hc _ e he her
    have hent : ∀ kv ∈ x.vdict.getD [], (toKey kv : Key F T × Option ℚ) ∈ e.vdict := fun kv hkv => hvd.mem_iff.1 (List.mem_map.2 ⟨kv, hkv, rfl⟩)
    refine ⟨hhas _ ((Dict.mem_keys_iff _ _).2 ⟨e, he⟩), ?_, ?_, ?_, ?_, ?_⟩
    · cases ht : x.term with
      | none => rfl
      | some t =>
        obtain ⟨s, rfl⟩ := hI2.term _ e he t ht
        simp [hstr]
    · rcases hcl.1 with h | h
      · left
        rw [hval]
        cases hv : e.value with
        | none => exact absurd hv h
        | some w => rw [val_some hv]; simp
      · right
        intro hn
        rw [hn] at hvd
        exact h (List.nil_perm.1 hvd)
    · intro kv hkv
      have hm := hent kv hkv
      have hkr : (toKey kv : Key F T × Option ℚ).1 ∈ p.refs := hI2.vkeys _ _ he _ (List.mem_map.2 ⟨_, hm, rfl⟩)
      refine ⟨?_, (hrefs0 _).2 hkr⟩
      obtain ⟨y, hy, hyk⟩ := hRmem _ hkr
      have hyf : y.flow = kv.1.2 := congrArg Key.flow hyk
      have := h7 y hy (by
        intro y' hy' hf
        have e1 : y'.key = (toKey kv : Key F T × Option ℚ).1 := ho _ e he her _ _ hm _ (hR y' hy').1 (by
          show y'.flow = kv.1.2
          rw [hf, hyf])
        rw [e1, hyk])
      rw [hyf, hyk] at this
      exact this
    · intro kv hkv
      exact hcl.2 _ _ (hent kv hkv)
    · exact (hvd.map Prod.fst).nodup_iff.2 (hI.vdict _ _ he)
  have hfl : Flagged p0 := by
    intro r hr
    obtain ⟨e, he, her⟩ := ((reach_inv hreach0).refs r).1 hr
    unfold isRefOf
    rw [he]
    simpa using her
  have hfresh : ∀ x ∈ j.exchanges.filter (!·.isRef), p0.exchs.get? x.key = none := by
    intro x hx
    rw [h3]
    · rfl
    · intro y hy hc
      obtain ⟨e, he, her, -⟩ := hN x hx
      obtain ⟨-, -, -, e', he', her', -⟩ := hR y hy
      rw [hc, he] at he'
      cases he'
      rw [her] at her'
      cases her'
  obtain ⟨p1, g1, g2, g3, g4, g5, g6⟩ := loadRest_spec (str := str) (has := has) d (j.exchanges.filter (!·.isRef)) p0 hfine hfl
    ((List.filter_sublist.map _).nodup hnd) hfresh
  have hreach1 : Reach str p1 := by
    have := reach_loadRest (str := str) (has := has) d (j.exchanges.filter (!·.isRef)) p0 hreach0
    rw [g1] at this
    exact this
  refine ⟨d, p0, p1, h1, g1, hreach1, g3.trans h5, g4.trans h6, fun k => by rw [g2]; exact hrefs0 k, ?_, ?_⟩
  · intro k hk
    rw [g6 k, h3 k]
    · rfl
    · intro x hx hxk
      obtain ⟨-, -, -, e, he, -⟩ := hR x hx
      rw [hxk, hk] at he
      cases he
    · intro x hx hxk
      obtain ⟨e, he, -⟩ := hN x hx
      rw [hxk, hk] at he
      cases he
  · intro k e hk
    obtain ⟨x, hx, hxk⟩ := hex k e hk
    cases hr : x.isRef with
    | true =>
      have hxm : x ∈ j.exchanges.filter (·.isRef) := List.mem_filter.2 ⟨hx, hr⟩
      obtain ⟨-, -, -, e', he', her', hval⟩ := hR x hxm
      rw [hxk, hk] at he'
      cases he'
      refine ⟨{ value := x.value, isRef := true }, ?_, ⟨?_, ?_, ?_, ?_⟩⟩
      · rw [g6 k, ← hxk]
        · exact h2 x hxm
        · intro y hy hyk
          obtain ⟨e2, he2, her2, -⟩ := hN y hy
          rw [hyk, hk] at he2
          cases he2
          rw [her'] at her2
          cases her2
      · exact her'.symm
      · exact hval
      · intro h; rw [her'] at h; cases h
      · intro _; rfl
    | false =>
      have hxm : x ∈ j.exchanges.filter (!·.isRef) := List.mem_filter.2 ⟨hx, by simp [hr]⟩
      obtain ⟨e', he', her', hval, hvd⟩ := hN x hxm
      rw [hxk, hk] at he'
      cases he'
      refine ⟨x.exch, ?_, ⟨?_, ?_, ?_, ?_⟩⟩
      · rw [← hxk]; exact g5 x hxm
      · exact her'.symm
      · exact hval
      · intro _; exact hvd
      · intro h; rw [her'] at h; cases h

/-- the exchange relation reads the same -/
theorem back_getItem (cf : F → Q → Option ℚ) {p p' : State F Q T} (hI : Inv p) (hc : Clean p)
    (hnone : ∀ k, p.exchs.get? k = none → p'.exchs.get? k = none)
    (hback : ∀ k e, p.exchs.get? k = some e → ∃ e', p'.exchs.get? k = some e' ∧ Back e e')
    (hq : p'.allocQ = p.allocQ) (hs : p'.allocSum = p.allocSum) (x r : Key F T) (hr : r ∈ p.refs) :
    getItem cf p' x r = getItem cf p x r := by
  obtain ⟨it, hit, hitr⟩ := (hI.refs r).1 hr
  obtain ⟨it', hit', hbit⟩ := hback r it hit
  have hqty : p'.allocQty = p.allocQty := by unfold State.allocQty; rw [hq, hs]
  have hitv : it'.val = it.val := back_val hbit fun h => by rw [hitr] at h; cases h
  unfold getItem
  cases hx : p.exchs.get? x with
  | none => rw [hnone x hx, hit, hit']
  | some e =>
    obtain ⟨e', he', hb⟩ := hback x e hx
    rw [he', hit, hit']
    simp only [hbit.isRef, hitr, hb.isRef, if_true, hqty, hs, hitv]
    cases her : e.isRef with
    | true => rfl
    | false =>
      have hev : e'.val = e.val := back_val hb fun h => (hc x e hx h).2
      have hp := hb.vdict her
      rw [hev, hp.length_eq, get?_perm hp ((hp.map Prod.fst).nodup_iff.2 (hI.vdict _ _ hx))]
      by_cases hl : e.vdict.length > 0
      · simp only [hl, if_true]
      · have : e.vdict = [] := List.eq_nil_of_length_eq_zero (by omega)
        have hv : e'.value = e.value := by rw [hb.value, val_nil this]
        rw [hv]

theorem mapM_ok_iff {α β ε : Type} (f : α → Except ε β) (l : List α) (res : List β) :
    l.mapM f = .ok res ↔ List.Forall₂ (fun a b => f a = .ok b) l res := by
  induction l generalizing res with
  | nil => simp [List.mapM_nil, pure, Except.pure, eq_comm]
  | cons a l ih =>
    rw [List.mapM_cons]
    cases ha : f a with
    | error e =>
      simp only [bind, Except.bind]
      constructor
      · intro h; cases h
      · intro h; cases h; rename_i h1 _; rw [ha] at h1; cases h1
    | ok b =>
      simp only [bind, Except.bind]
      cases hl : l.mapM f with
      | error e =>
        constructor
        · intro h; cases h
        · intro h
          cases h
          rename_i h2
          rw [(ih _).2 h2] at hl
          cases hl
      | ok bs =>
        constructor
        · intro h
          have h : Except.ok (b :: bs) = Except.ok (ε := ε) res := h
          cases h
          exact .cons ha ((ih _).1 hl)
        · intro h
          cases h
          rename_i b' l' h1 h2
          rw [ha] at h1
          cases h1
          rw [(ih _).2 h2] at hl
          cases hl
          rfl

/-- a loop over a permutation gives a permutation -/
theorem mapM_perm {α β ε : Type} (f : α → Except ε β) {l l' : List α} (h : l.Perm l') (res : List β) (hr : l.mapM f = .ok res) :
    ∃ res', l'.mapM f = .ok res' ∧ res'.Perm res := by
  rw [mapM_ok_iff] at hr
  obtain ⟨res', h1, h2⟩ := List.perm_comp_forall₂ h.symm hr
  exact ⟨res', (mapM_ok_iff _ _ _).2 h1, h2⟩

/-- the inventory in terms of keys -/
theorem inventory_keys (cf : F → Q → Option ℚ) (p : State F Q T) (hI : Inv p) (r : Key F T) (hr : r ∈ p.refs) :
    inventory cf (some r) p = (p.exchs.keys.filter fun k => decide (k ∉ p.refs)).mapM fun k =>
      match getItem cf p k r with
      | .ok v => .ok (k, some v)
      | .error err => .error err := by
  obtain ⟨it, hit, hitr⟩ := (hI.refs r).1 hr
  have hf : isRefOf p r = true := by unfold isRefOf; rw [hit]; simpa using hitr
  unfold inventory
  simp only [hf, if_true]
  unfold Dict.keys
  rw [List.filter_map, List.mapM_map]
  rfl

/-- C100: a process with values (or allocated amounts) for all its exchanges is the same after it has been written completely to a
file and read again: it has the same exchanges with the same values, the same references and allocation, every exchange relation to
a reference gives the same, and so do the inventories. -/
theorem reload_partial [LinearOrder F] {str : T → T} (hstr : ∀ t, str (str t) = str t) {p : State F Q T} (hp : Reach str p)
    (hc : Clean p) (ho : OneWay p) (c : F → Q → ℚ) (hf : Fresh c p) (has : F → Bool) (hhas : ∀ k ∈ p.exchs.keys, has k.flow = true)
    (hasQ : Q → Option Q) (hhasQ : ∀ q, p.allocQ = some q → hasQ q = some q)
    (j : JP F Q T) (hj : SameP (serializeP true true p) j) :
    ∃ p', loadP str (known c) has hasQ j = .ok () p' ∧
      (∀ k, (p'.exchs.get? k).map (fun e => (e.isRef, e.val)) = (p.exchs.get? k).map fun e => (e.isRef, e.val)) ∧
      (∀ k, k ∈ p'.refs ↔ k ∈ p.refs) ∧ p'.allocQty = p.allocQty ∧
      (∀ x r, r ∈ p.refs → getItem (known c) p' x r = getItem (known c) p x r) ∧
      (∀ r ∈ p.refs, ∀ l, inventory (known c) (some r) p = .ok l → ∃ l', inventory (known c) (some r) p' = .ok l' ∧ l'.Perm l) ∧
      (∀ r ∈ p.refs, ∀ l', inventory (known c) (some r) p' = .ok l' → ∃ l, inventory (known c) (some r) p = .ok l ∧ l.Perm l') := by
  have hI := reach_inv hp
  obtain ⟨d, p0, p1, h1, h2, h3, h4, h5, h6, h7, h8⟩ := load_back hstr hp hc ho (known c) has hhas j hj
  have hI1 := reach_inv h3
  have hval : ∀ k e, p.exchs.get? k = some e → ∃ e', p1.exchs.get? k = some e' ∧ e'.isRef = e.isRef ∧ e'.val = e.val := by
    intro k e hk
    obtain ⟨e', he', hb⟩ := h8 k e hk
    exact ⟨e', he', hb.isRef, back_val hb fun h => (hc k e hk h).2⟩
  have hperm : p1.refs.Perm p.refs := (List.perm_ext_iff_of_nodup hI1.refsNodup hI.refsNodup).2 h6
  have htot : ∀ q, refTotal c q p1 = refTotal c q p := by
    intro q
    unfold refTotal
    rw [(hperm.map _).sum_eq]
    congr 1
    apply List.map_congr_left
    intro r hr
    obtain ⟨e, he, -⟩ := (hI.refs r).1 hr
    obtain ⟨e', he', -, hv⟩ := hval r e he
    unfold amount
    rw [he, he']
    simp [hv]
  have hload : ∃ p', loadP str (known c) has hasQ j = .ok () p' ∧ p'.exchs = p1.exchs ∧ p'.refs = p1.refs ∧ p'.allocQ = p.allocQ ∧
      p'.allocSum = p.allocSum := by
    unfold loadP
    simp only [h1, h2, Out.bind]
    have hja : j.alloc = p.allocQ := hj.alloc.symm
    rw [hja]
    cases hq : p.allocQ with
    | none =>
      refine ⟨p1, rfl, rfl, rfl, h4, ?_⟩
      -- without quantity the total is zero
      have : ∀ {p : State F Q T}, Reach str p → p.allocQ = none → p.allocSum = 0 := by
        intro p hp
        induction hp with
        | new => intro _; rfl
        | @call cf op p hp ih =>
          have hal : ∀ (q : Option Q) (p : State F Q T), (p.allocQ = none → p.allocSum = 0) →
              (allocate cf q p).state.allocQ = none → (allocate cf q p).state.allocSum = 0 := by
            intro q p ih
            unfold allocate
            split
            · intro _; rfl
            · split
              · exact ih
              · simp only
                split
                · exact ih
                · intro h; cases h
          cases op with
          | addExchange f d r v t a =>
            show (addExchange str f d r v t a p).state.allocQ = none → (addExchange str f d r v t a p).state.allocSum = 0
            rcases addExchange_cases str f d r v t a p with h' | ⟨e, e', w, _, _, _, _, h'⟩ | ⟨_, e', _, _, h'⟩
            · rw [h']; exact ih
            · rw [h']; exact ih
            · rw [h']; exact ih
          | addReference f d =>
            show (addReference cf f d p).state.allocQ = none → (addReference cf f d p).state.allocSum = 0
            obtain ⟨p1, ⟨r, hr, hst, _, _⟩, ha, hs, -⟩ := addReference_state cf f d p
            rw [hst]
            rcases hr with rfl | ⟨q, rfl, -⟩
            · intro h; exact hs.trans (ih (ha.symm.trans h))
            · exact hal _ _ fun h => hs.trans (ih (ha.symm.trans h))
          | removeReference f d =>
            show (removeReference cf f d p).state.allocQ = none → (removeReference cf f d p).state.allocSum = 0
            rcases removeReference_eq cf f d p with ⟨_, h2⟩ | ⟨e, hg, ⟨_, h2⟩ | ⟨q, _, h2⟩⟩
            · rw [h2]; exact ih
            · rw [h2]; exact ih
            · rw [h2]; exact hal _ _ ih
          | allocate q => exact hal q p ih
          | removeAllocation r => exact ih
      rw [h5, this hp hq]
    | some q =>
      have hs0 : p.allocSum ≠ 0 := (reach_inv2 hp).alloc (by rw [hq]; simp)
      have hqty : p.allocQty = some q := by unfold State.allocQty; rw [if_pos hs0, hq]
      have hsum := hf q hqty
      rw [show (some q : Option Q) = some q from rfl]
      simp only [hhasQ q hq]
      rw [allocate_spec hI1 c q, htot q, ← hsum, if_neg hs0]
      exact ⟨_, rfl, rfl, rfl, rfl, rfl⟩
  obtain ⟨p', g1, g2, g3, g4, g5⟩ := hload
  have hI' : Inv p' := inv_congr hI1 g2 g3
  have hqty : p'.allocQty = p.allocQty := by unfold State.allocQty; rw [g4, g5]
  have hitem : ∀ x r, r ∈ p.refs → getItem (known c) p' x r = getItem (known c) p x r := fun x r hr =>
    back_getItem (known c) hI hc (fun k hk => by rw [g2]; exact h7 k hk) (fun k e hk => by rw [g2]; exact h8 k e hk) g4 g5 x r hr
  have href : ∀ k, k ∈ p'.refs ↔ k ∈ p.refs := fun k => by rw [g3]; exact h6 k
  have hk : (p'.exchs.keys.filter fun k => decide (k ∉ p'.refs)).Perm (p.exchs.keys.filter fun k => decide (k ∉ p.refs)) := by
    have e1 : (fun k => decide (k ∉ p'.refs)) = fun k => decide (k ∉ p.refs) := by
      funext k; simp only [href]
    rw [e1]
    refine List.Perm.filter _ ((List.perm_ext_iff_of_nodup hI'.nodup hI.nodup).2 fun k => ?_)
    rw [Dict.mem_keys_iff, Dict.mem_keys_iff, g2]
    constructor
    · rintro ⟨e, he⟩
      cases hk : p.exchs.get? k with
      | none => rw [h7 k hk] at he; cases he
      | some e' => exact ⟨e', rfl⟩
    · rintro ⟨e, he⟩
      obtain ⟨e', he', -⟩ := h8 k e he
      exact ⟨e', he'⟩
  refine ⟨p', g1, ?_, href, hqty, hitem, ?_, ?_⟩
  · intro k
    rw [g2]
    cases hk : p.exchs.get? k with
    | none => rw [h7 k hk]
    | some e =>
      obtain ⟨e', he', h9, h10⟩ := hval k e hk
      rw [he']
      simp [h9, h10]
  · intro r hr l hl
    rw [inventory_keys _ _ hI r hr] at hl
    rw [inventory_keys _ _ hI' r ((href r).2 hr)]
    simp only [hitem _ r hr]
    exact mapM_perm _ hk.symm l hl
  · intro r hr l hl
    rw [inventory_keys _ _ hI' r ((href r).2 hr)] at hl
    rw [inventory_keys _ _ hI r hr]
    simp only [hitem _ r hr] at hl
    exact mapM_perm _ hk l hl

/-! ### what is lost -/

theorem loadRest_no_values {str : T → T} {has : F → Bool} (d : Dict F (Option (Key F T))) (l : List (JX F T))
    (hl : ∀ x ∈ l, x.value = none ∧ x.vdict = none ∧ has x.flow = true) (p : State F Q T) : loadRest str has d l p = .ok () p := by
  induction l with
  | nil => rfl
  | cons x l ih =>
    obtain ⟨h1, h2, h3⟩ := hl x (List.mem_cons_self ..)
    rw [loadRest, if_pos h3, h1, h2]
    exact ih fun y hy => hl y (List.mem_cons_of_mem _ hy)

theorem allocDict_none (cf : F → Q → Option ℚ) (q : Q) (p : State F Q T) (l : List (Key F T))
    (h : ∀ r ∈ l, ∃ e, p.exchs.get? r = some e ∧ e.val = none) : allocDict cf q p l = .ok [] := by
  induction l with
  | nil => rfl
  | cons r l ih =>
    obtain ⟨e, he, hv⟩ := h r List.mem_cons_self
    rw [allocDict, he]
    simp only [hv]
    exact ih fun r hr => h r (List.mem_cons_of_mem _ hr)

theorem forall₂_mem {α β : Type} {R : α → β → Prop} {a : List α} {b : List β} (h : List.Forall₂ R a b) :
    (∀ y ∈ b, ∃ x ∈ a, R x y) ∧ ∀ x ∈ a, ∃ y ∈ b, R x y := by
  induction h with
  | nil => simp
  | cons h1 _ ih =>
    refine ⟨fun y hy => ?_, fun x hx => ?_⟩
    · rcases List.mem_cons.1 hy with rfl | hy
      · exact ⟨_, List.mem_cons_self, h1⟩
      · obtain ⟨x, hx, h⟩ := ih.1 y hy
        exact ⟨x, List.mem_cons_of_mem _ hx, h⟩
    · rcases List.mem_cons.1 hx with rfl | hx
      · exact ⟨_, List.mem_cons_self, h1⟩
      · obtain ⟨y, hy, h⟩ := ih.2 x hx
        exact ⟨y, List.mem_cons_of_mem _ hy, h⟩

/-- C101: what is left of a process in a file without values, whether or not exchanges were asked for: the reference exchanges
without amounts; neither the other exchanges nor the allocation. -/
theorem reload_without_values [LinearOrder F] {str : T → T} {p : State F Q T} (hp : Reach str p) (exchanges : Bool)
    (cf : F → Q → Option ℚ) (has : F → Bool) (hhas : ∀ k ∈ p.exchs.keys, has k.flow = true) (hasQ : Q → Option Q)
    (j : JP F Q T) (hj : SameP (serializeP exchanges false p) j) :
    ∃ p', loadP str cf has hasQ j = .ok () p' ∧
      (∀ k, k ∈ p'.exchs.keys ↔ k ∈ p.refs) ∧ (∀ k, k ∈ p'.refs ↔ k ∈ p.refs) ∧
      (∀ k e, p'.exchs.get? k = some e → e.val = none) ∧ p'.allocQty = none := by
  have hI := reach_inv hp
  have hperm : (serializeP exchanges false p).exchanges.Perm
      ((p.exchs.filter fun kx => exchanges || decide (kx.1 ∈ p.refs)).map fun kx => serializeX false kx.1 kx.2) :=
    List.perm_insertionSort _ _
  have hsub : ((p.exchs.filter fun kx => exchanges || decide (kx.1 ∈ p.refs)).map Prod.fst).Nodup :=
    (List.filter_sublist.map Prod.fst).nodup hI.nodup
  have hnd : (j.exchanges.map JX.key).Nodup := by
    have h1 : j.exchanges.map JX.key = (serializeP exchanges false p).exchanges.map JX.key := by
      have := hj.exchanges
      generalize (serializeP exchanges false p).exchanges = a at this
      generalize j.exchanges = b at this
      induction this with
      | nil => rfl
      | cons h _ ih => rw [List.map_cons, List.map_cons, ih, sameX_key h]
    rw [h1, (hperm.map JX.key).nodup_iff, List.map_map]
    exact hsub
  have hfrom : ∀ x ∈ j.exchanges, ∃ e, p.exchs.get? x.key = some e ∧ x.isRef = e.isRef ∧ x.value = none ∧ x.vdict = none := by
    intro x hx
    obtain ⟨y, hy, hyx⟩ := (forall₂_mem hj.exchanges).1 x hx
    obtain ⟨⟨k, e⟩, hke, rfl⟩ := List.mem_map.1 (hperm.mem_iff.1 hy)
    have hk : x.key = k := (sameX_key hyx).trans (serializeX_key _ _ _)
    rw [hk]
    refine ⟨e, Dict.get?_eq_some_of_mem _ hI.nodup (List.mem_filter.1 hke).1, hyx.isRef.symm, ?_, ?_⟩
    · rw [← hyx.value]; rfl
    · rcases hyx.vdict with h | ⟨v, w, h, -⟩
      · exact h.2
      · simp [serializeX] at h
  have hR : ∀ x ∈ j.exchanges.filter (·.isRef), x.key ∈ p.refs ∧ has x.flow = true ∧ x.term = none := by
    intro x hx
    obtain ⟨hx, hr⟩ := List.mem_filter.1 hx
    obtain ⟨e, he, her, -⟩ := hfrom x hx
    have hm : x.key ∈ p.refs := (hI.refs _).2 ⟨e, he, her ▸ hr⟩
    exact ⟨hm, hhas _ ((Dict.mem_keys_iff _ _).2 ⟨e, he⟩), hI.term _ hm⟩
  have hRmem : ∀ r ∈ p.refs, ∃ x ∈ j.exchanges.filter (·.isRef), x.key = r := by
    intro r hr
    obtain ⟨e, he, her⟩ := (hI.refs r).1 hr
    obtain ⟨x, hx, hyx⟩ := (forall₂_mem hj.exchanges).2 (serializeX false r e)
      (hperm.mem_iff.2 (List.mem_map.2 ⟨(r, e), List.mem_filter.2 ⟨Dict.mem_of_get?_eq_some _ he, by simp [hr]⟩, rfl⟩))
    exact ⟨x, List.mem_filter.2 ⟨hx, hyx.isRef.symm.trans her⟩, (sameX_key hyx).trans (serializeX_key _ _ _)⟩
  obtain ⟨d, p0, h1, h2, h3, h4, h5, h6, -⟩ := loadRefs_spec (str := str) (cf := cf) (has := has) (j.exchanges.filter (·.isRef)) []
    ({} : State F Q T) (fun x hx => (hR x hx).2) ((List.filter_sublist.map _).nodup hnd) (fun _ _ => rfl) rfl
  have hrest := loadRest_no_values (str := str) (has := has) d (j.exchanges.filter (!·.isRef)) (fun x hx => by
    obtain ⟨e, he, -, hv, hd⟩ := hfrom x (List.mem_filter.1 hx).1
    exact ⟨hv, hd, hhas x.key ((Dict.mem_keys_iff _ _).2 ⟨e, he⟩)⟩) p0
  have hrefs : ∀ k, k ∈ p0.refs ↔ k ∈ p.refs := by
    intro k
    rw [h4]
    constructor
    · rintro (h | ⟨x, hx, rfl⟩)
      · cases h
      · exact (hR x hx).1
    · intro h; exact .inr (hRmem k h)
  have hget : ∀ k e, p0.exchs.get? k = some e → k ∈ p.refs ∧ e.val = none := by
    intro k e hk
    by_cases h : ∃ x ∈ j.exchanges.filter (·.isRef), x.key = k
    · obtain ⟨x, hx, rfl⟩ := h
      rw [h2 x hx] at hk
      obtain ⟨e', -, -, hv, -⟩ := hfrom x (List.mem_filter.1 hx).1
      cases hk
      exact ⟨(hR x hx).1, by rw [val_nil rfl]; exact hv⟩
    · rw [h3 k (fun x hx hc => h ⟨x, hx, hc⟩)] at hk
      cases hk
  have hget' : ∀ k ∈ p.refs, ∃ e, p0.exchs.get? k = some e := by
    intro k hk
    obtain ⟨x, hx, rfl⟩ := hRmem k hk
    exact ⟨_, h2 x hx⟩
  refine ⟨p0, ?_, ?_, hrefs, fun k e hk => (hget k e hk).2, ?_⟩
  · unfold loadP
    simp only [h1, hrest, Out.bind]
    cases j.alloc with
    | none => rfl
    | some q =>
      simp only
      unfold allocate
      cases hasQ q with
      | none =>
        have h6 : p0.allocSum = 0 := h6
        simp only
        congr 1
        rw [← h5, ← h6]
      | some q' =>
        simp only
        rw [allocDict_none cf q' p0 p0.refs]
        · simp
        · intro r hr
          obtain ⟨e, he⟩ := hget' r ((hrefs r).1 hr)
          exact ⟨e, he, (hget r e he).2⟩
  · intro k
    rw [Dict.mem_keys_iff]
    exact ⟨fun ⟨e, he⟩ => (hget k e he).1, hget' k⟩
  · unfold State.allocQty
    rw [show p0.allocSum = 0 from h6]
    simp

/-! ### concrete cases -/

/-- co-products 0 (amount 2) and 1 (amount 3), an input 2 from process 7 (amount 16), an emission 3 allocated by hand; then
allocation by the quantity -/
def exJ : State ℕ Unit ℕ := runOps id (known exC)
  [.addExchange 1 .output none (some 3) none false, .addExchange 0 .output none (some 2) none false, .addReference 0 .output,
   .addReference 1 .output, .addExchange 2 .input none (some 16) (some 7) false,
   .addExchange 3 .output (some ⟨1, .output, none⟩) (some 4) none false,
   .addExchange 3 .output (some ⟨0, .output, none⟩) (some 5) none false, .allocate (some ())] {}

theorem sameP_refl (j : JP F Q T) : SameP j j :=
  ⟨List.forall₂_same.2 fun x _ => ⟨rfl, rfl, rfl, rfl, rfl, by
    cases x.vdict with
    | none => exact .inl ⟨rfl, rfl⟩
    | some v => exact .inr ⟨v, v, rfl, rfl, .refl _⟩⟩, rfl⟩

/-- to check a property of the exchanges of a process -/
theorem forall_get {K V : Type} [DecidableEq K] {d : Dict K V} {P : K → V → Prop} (h : ∀ kv ∈ d, P kv.1 kv.2) :
    ∀ k v, d.get? k = some v → P k v := fun _ _ hk => h _ (Dict.mem_of_get?_eq_some _ hk)

example : Reach id exJ ∧ exJ.allocQty = some () ∧ exJ.refs.length = 2 ∧ exJ.exchs.keys.length = 4 ∧ Fresh exC exJ :=
  ⟨reach_runOps _ _ _ .new, by decide +kernel, by decide +kernel, by decide +kernel, by
    rintro ⟨⟩ _; decide +kernel⟩
theorem clean_of {p : State F Q T} (h : ∀ kx ∈ p.exchs, kx.2.isRef = false →
    (kx.2.value ≠ none ∨ kx.2.vdict.length ≠ 0) ∧ ∀ rv ∈ kx.2.vdict, rv.2 ≠ none ∧ rv.2 ≠ some 0) : Clean p := by
  intro k e hk hr
  have := h _ (Dict.mem_of_get?_eq_some _ hk) hr
  refine ⟨this.1.imp_right fun h hc => h (by simp only at hc ⊢; rw [hc]; rfl), fun r v hv => ?_⟩
  obtain ⟨h1, h2⟩ := this.2 _ hv
  cases v with
  | none => exact absurd rfl h1
  | some w => exact ⟨w, rfl, fun hc => h2 (congrArg some hc)⟩

theorem oneWay_of {p : State F Q T} (h : ∀ kx ∈ p.exchs, ∀ rv ∈ kx.2.vdict, ∀ r' ∈ p.refs, r'.flow = rv.1.flow → r' = rv.1) : OneWay p :=
  fun _ _ hk _ r v hv => h _ (Dict.mem_of_get?_eq_some _ hk) (r, v) hv

example : Clean exJ ∧ OneWay exJ := ⟨clean_of (by decide +kernel), oneWay_of (by decide +kernel)⟩
example : (serializeP true true exJ).exchanges =
    [⟨2, .input, some 7, false, some 16, none⟩, ⟨0, .output, none, true, some 2, none⟩, ⟨1, .output, none, true, some 3, none⟩,
     ⟨3, .output, none, false, none, some [((.output, 1), some 4), ((.output, 0), some 5)]⟩] := by decide +kernel
example : ((loadP id (known exC) (fun _ => true) some (serializeP true true exJ)).value?.isSome = true) ∧
    getItem (known exC) (loadP id (known exC) (fun _ => true) some (serializeP true true exJ)).state ⟨2, .input, some 7⟩ ⟨1, .output, none⟩ =
      .ok 4 := by decide +kernel
-- without values: two reference exchanges of four exchanges are left
example : (loadP id (known exC) (fun _ => true) some (serializeP true false exJ)).state.exchs.keys =
    [⟨0, .output, none⟩, ⟨1, .output, none⟩] := by decide +kernel

/-- what the reader makes of the complete file of a process -/
def again (hasQ : Unit → Option Unit) (p : State ℕ Unit ℕ) : Out (State ℕ Unit ℕ) Err Unit :=
  loadP id (known exC) (fun _ => true) hasQ (serializeP true true p)

/-- an exchange without a value is lost, in a complete file too -/
theorem reload_drops_unvalued : ∃ p : State ℕ Unit ℕ, Reach id p ∧ (p.exchs.get? ⟨1, .input, some 7⟩).isSome = true ∧
    (again some p).error? = none ∧ (again some p).state.exchs.get? ⟨1, .input, some 7⟩ = none :=
  ⟨runOps id (known exC) [.addExchange 0 .output none (some 2) none false, .addReference 0 .output,
      .addExchange 1 .input none none (some 7) false] {},
    reach_runOps _ _ _ .new, by decide +kernel, by decide +kernel, by decide +kernel⟩

/-- an amount zero allocated to a reference is lost, so that the unallocated value is used for it: 0 becomes 5/2 -/
theorem reload_loses_zero : ∃ p : State ℕ Unit ℕ, Reach id p ∧ (again some p).error? = none ∧
    getItem (known exC) p ⟨1, .input, none⟩ ⟨0, .output, none⟩ = .ok 0 ∧
    getItem (known exC) (again some p).state ⟨1, .input, none⟩ ⟨0, .output, none⟩ = .ok (5/2) :=
  ⟨runOps id (known exC) [.addExchange 0 .output none (some 2) none false, .addReference 0 .output,
      .addExchange 1 .input (some ⟨0, .output, none⟩) (some 0) none false, .addExchange 1 .input none (some 5) none false] {},
    reach_runOps _ _ _ .new, by decide +kernel, by decide +kernel, by decide +kernel⟩

/-- if a flow is a reference in both directions then what is allocated to the input is moved to the output -/
theorem reload_moves_allocation : ∃ p : State ℕ Unit ℕ, Reach id p ∧ Clean p ∧ (again some p).error? = none ∧
    getItem (known exC) p ⟨1, .input, none⟩ ⟨0, .input, none⟩ = .ok 5 ∧
    getItem (known exC) p ⟨1, .input, none⟩ ⟨0, .output, none⟩ = .ok 0 ∧
    getItem (known exC) (again some p).state ⟨1, .input, none⟩ ⟨0, .input, none⟩ = .ok 0 ∧
    getItem (known exC) (again some p).state ⟨1, .input, none⟩ ⟨0, .output, none⟩ = .ok 5 :=
  ⟨runOps id (known exC) [.addExchange 0 .output none (some 1) none false, .addReference 0 .output,
      .addExchange 0 .input none (some 1) none false, .addReference 0 .input,
      .addExchange 1 .input (some ⟨0, .input, none⟩) (some 5) none false] {},
    reach_runOps _ _ _ .new, clean_of (by decide +kernel), by decide +kernel, by decide +kernel, by decide +kernel, by decide +kernel,
    by decide +kernel⟩

/-- ... and if there are amounts for both then the file cannot be read -/
theorem reload_raises : ∃ p : State ℕ Unit ℕ, Reach id p ∧ Clean p ∧ (again some p).error? = some .duplicate :=
  ⟨runOps id (known exC) [.addExchange 0 .output none (some 1) none false, .addReference 0 .output,
      .addExchange 0 .input none (some 1) none false, .addReference 0 .input,
      .addExchange 1 .input (some ⟨0, .input, none⟩) (some 5) none false,
      .addExchange 1 .input (some ⟨0, .output, none⟩) (some 6) none false] {},
    reach_runOps _ _ _ .new, clean_of (by decide +kernel), by decide +kernel⟩

/-- an archive without the allocation quantity reads the process without allocation, and without an error -/
theorem reload_loses_allocation : ∃ p : State ℕ Unit ℕ, Reach id p ∧ Clean p ∧ OneWay p ∧ Fresh exC p ∧ p.allocQty = some () ∧
    (again (fun _ => none) p).error? = none ∧ (again (fun _ => none) p).state.allocQty = none :=
  ⟨exJ, reach_runOps _ _ _ .new, clean_of (by decide +kernel), oneWay_of (by decide +kernel), by rintro ⟨⟩ _; decide +kernel,
    by decide +kernel, by decide +kernel, by decide +kernel⟩

end Proc
