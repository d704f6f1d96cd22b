import Verif.Lemmas.Spold2
import Mathlib.Data.List.Nodup

/-!
Loading EcoSpold v2 datasets: C155 (linked archives), C156 (unlinked archives), C157 (failed loads and later requests).
-/

set_option linter.unusedSectionVars false

namespace Spold
open Proc (Dir Key)

variable {P F Q U T : Type} [DecidableEq P] [DecidableEq F] [DecidableEq T]

/-! ### C155 specification -/

/-- the element says that the process has the exchange `k`, of amount `v`, not zero. Reference products and allocatable by-products have no
activity link in a linked dataset -/
def Lists (e : El F U T) (k : Key F T) (v : ℚ) : Prop :=
  (e.kind = .inter ∨ e.kind = .elem) ∧ e.flow = k.flow ∧ e.amount = v ∧ v ≠ 0 ∧
  ((e.grp = .input ∧ k.dir = .input ∧ k.term = e.link) ∨
    ∃ n, e.grp = .output n ∧ k.dir = .output ∧ k.term = if n = 0 ∨ (n = 2 ∧ e.alloc = true) then none else e.link)

/-- some element of the dataset says so -/
def InFile (els : List (El F U T)) (k : Key F T) (v : ℚ) : Prop := ∃ e ∈ els, Lists e k v

/-- a sound linked dataset for the reference flow `r` of a process with reference flows `rs` -/
structure Sound (rs : List F) (r : F) (els : List (El F U T)) : Prop where
  readable : ∀ e ∈ els, e.kind = .param ∨ e.kind = .impact ∨ ((e.kind = .inter ∨ e.kind = .elem) ∧ e.grp ≠ .none)
  once : els.Pairwise fun e e' => ∀ k v v', Lists e k v → ¬ Lists e' k v'
  present : ∃ e ∈ els, e.kind = .inter ∧ e.flow = r
  amount : ∃ v, InFile els ⟨r, .output, none⟩ v
  others : ∀ r' ∈ rs, r' ≠ r → ∀ v, ¬ InFile els ⟨r', .output, none⟩ v

/-! ### C155 proofs -/

theorem lists_iff (e : El F U T) (k : Key F T) (v : ℚ) (h : Readable e) : Lists e k v ↔ lkey e = some (k, v) := by
  obtain ⟨kf, kd, kt⟩ := k
  unfold Lists lkey
  by_cases hp : e.kind = .param ∨ e.kind = .impact
  · simp only [hp, if_true]
    constructor
    · rintro ⟨h1, _⟩
      rcases hp with h | h <;> rw [h] at h1 <;> simp at h1
    · intro h; cases h
  · have he' : (e.kind = .inter ∨ e.kind = .elem) ∧ e.grp ≠ .none := by
      rcases h with h | h | h
      · exact absurd (Or.inl h) hp
      · exact absurd (Or.inr h) hp
      · exact h
    simp only [hp, if_false, he'.1, true_and]
    unfold collectOne
    cases hg : e.grp with
    | none => exact absurd hg he'.2
    | input =>
      simp only [xkey, reduceCtorEq, false_and, exists_false, or_false, true_and, Bool.false_eq_true, if_false]
      by_cases h0 : e.amount = 0
      · simp only [h0, if_true, reduceCtorEq, iff_false]
        rintro ⟨_, h1, h2, _⟩; exact h2 h1.symm
      · simp only [h0, if_false, Option.some.injEq, Prod.mk.injEq, Key.mk.injEq]
        constructor
        · rintro ⟨h1, h2, _, h3, h4⟩; exact ⟨⟨h1, h3.symm, h4.symm⟩, h2⟩
        · rintro ⟨⟨h1, h3, h4⟩, h2⟩; exact ⟨h1, h2, h2 ▸ h0, h3.symm, h4.symm⟩
    | output n =>
      simp only [xkey, reduceCtorEq, false_and, false_or, Grp.output.injEq]
      have hb : (decide (n = 0) || (decide (n = 2) && e.alloc)) = decide (n = 0 ∨ (n = 2 ∧ e.alloc = true)) := by
        by_cases a : n = 0 <;> by_cases b : n = 2 <;> cases e.alloc <;> simp [a, b]
      simp only [hb, decide_eq_true_eq]
      by_cases h0 : e.amount = 0
      · simp only [h0, if_true, reduceCtorEq, iff_false]
        rintro ⟨_, h1, h2, _⟩; exact h2 h1.symm
      · simp only [h0, if_false, Option.some.injEq, Prod.mk.injEq, Key.mk.injEq]
        constructor
        · rintro ⟨h1, h2, _, m, rfl, h3, h4⟩; exact ⟨⟨h1, h3.symm, h4.symm⟩, h2⟩
        · rintro ⟨⟨h1, h3, h4⟩, h2⟩; exact ⟨h1, h2, h2 ▸ h0, n, rfl, h3.symm, h4.symm⟩

/-- the amounts of a dataset -/
abbrev amts (els : List (El F U T)) : Dict (Key F T) ℚ := els.filterMap lkey

theorem mem_amts {els : List (El F U T)} (h : ∀ e ∈ els, Readable e) (k : Key F T) (v : ℚ) :
    (k, v) ∈ amts els ↔ InFile els k v := by
  unfold InFile
  rw [List.mem_filterMap]
  exact ⟨fun ⟨e, he, h1⟩ => ⟨e, he, (lists_iff e k v (h e he)).mpr h1⟩, fun ⟨e, he, h1⟩ => ⟨e, he, (lists_iff e k v (h e he)).mp h1⟩⟩

theorem amts_nodup {els : List (El F U T)} (h : ∀ e ∈ els, Readable e)
    (ho : els.Pairwise fun e e' => ∀ k v v', Lists e k v → ¬ Lists e' k v') : (amts els).keys.Nodup := by
  induction els with
  | nil => simp [amts, Dict.keys]
  | cons e es ih =>
    rw [List.pairwise_cons] at ho
    have ih := ih (fun e' he' => h e' (List.mem_cons_of_mem _ he')) ho.2
    unfold amts at ih ⊢
    rw [List.filterMap_cons]
    cases hl : lkey e with
    | none => exact ih
    | some kv =>
      obtain ⟨k, v⟩ := kv
      simp only [Dict.keys, List.map_cons, List.nodup_cons]
      refine ⟨?_, ih⟩
      intro hm
      obtain ⟨⟨k', v'⟩, hm', rfl⟩ := List.mem_map.mp hm
      obtain ⟨e', he', h'⟩ := List.mem_filterMap.mp hm'
      exact ho.1 e' he' k' v v' ((lists_iff e k' v (h e (by simp))).mpr hl)
        ((lists_iff e' k' v' (h e' (List.mem_cons_of_mem _ he'))).mpr h')

theorem amts_get? {rs : List F} {r : F} {els : List (El F U T)} (h : Sound rs r els) (k : Key F T) (v : ℚ) :
    (amts els).get? k = some v ↔ InFile els k v := by
  rw [← mem_amts h.readable]
  exact ⟨Dict.mem_of_get?_eq_some _, Dict.get?_eq_some_of_mem _ (amts_nodup h.readable h.once)⟩

theorem amts_none {rs : List F} {r : F} {els : List (El F U T)} (h : Sound rs r els) (k : Key F T) :
    (amts els).get? k = none ↔ ∀ v, ¬ InFile els k v := by
  constructor
  · intro h0 v hv
    rw [(amts_get? h k v).mpr hv] at h0; cases h0
  · intro h0
    cases hg : (amts els).get? k with
    | none => rfl
    | some v => exact absurd ((amts_get? h k v).mp hg) (h0 v)

/-- the amounts of an exchange in the datasets of some references -/
def dictOf (file : F → List (El F U T)) (k : Key F T) (done : List F) : Dict (Key F T) (Option ℚ) :=
  done.filterMap fun r => ((amts (file r)).get? k).map fun v => (rkey r, some v)

/-- the exchanges of a process after the datasets of some references have been loaded -/
def loaded (file : F → List (El F U T)) (done : List F) (k : Key F T) : Option (Proc.Exch F T) :=
  if k ∈ done.map rkey then some ⟨(amts (file k.flow)).get? k, [], true⟩
  else if dictOf file k done = [] then none
  else some ⟨none, dictOf file k done, false⟩

/-- the process after the datasets of some references have been loaded -/
structure Loaded (file : F → List (El F U T)) (done : List F) (st : Proc.State F Q T) : Prop where
  refs : st.refs = done.map rkey
  allocQ : st.allocQ = none
  allocSum : st.allocSum = 0
  exchs : ∀ k, st.exchs.get? k = loaded file done k

theorem dictOf_append (file : F → List (El F U T)) (k : Key F T) (done : List F) (r : F) :
    dictOf file k (done ++ [r]) = dictOf file k done ++ (((amts (file r)).get? k).map fun v => (rkey r, some v)).toList := by
  unfold dictOf
  rw [List.filterMap_append]
  cases hg : (amts (file r)).get? k <;> simp [hg]

theorem dictOf_keys {file : F → List (El F U T)} {k : Key F T} {done : List F} {r : F} (h : r ∉ done) :
    (dictOf file k done).get? (rkey r) = none := by
  rw [← Dict.not_mem_keys_iff]
  intro hm
  obtain ⟨⟨k', v⟩, hm, he⟩ := List.mem_map.mp hm
  obtain ⟨r', hr', h1⟩ := List.mem_filterMap.mp hm
  cases hg : (amts (file r')).get? k with
  | none => rw [hg] at h1; cases h1
  | some w =>
    rw [hg] at h1
    simp only [Option.map_some, Option.some.injEq, Prod.mk.injEq] at h1
    rw [← h1.1] at he
    simp only [rkey, Key.mk.injEq, and_true] at he
    exact h (he ▸ hr')

theorem rkey_mem {r : F} {l : List F} : (rkey r : Key F T) ∈ l.map rkey ↔ r ∈ l := by
  simp [rkey]

theorem hasReference_loaded {file : F → List (El F U T)} {done : List F} {st : Proc.State F Q T} (h : Loaded file done st) {r : F}
    (hr : r ∉ done) : hasReference st r = .ok false := by
  unfold hasReference
  have : (st.refs.filter fun k => decide (k.flow = r)) = [] := by
    rw [h.refs, List.filter_eq_nil_iff]
    intro k hk
    obtain ⟨r', hr', rfl⟩ := List.mem_map.mp hk
    simp only [rkey, decide_eq_true_eq]
    rintro rfl; exact hr hr'
  rw [this]

/-- loading one more dataset -/
theorem fill_loaded (env : Env P F Q U T) (hl : env.linked = true) (file : F → List (El F U T)) (p : P) (rs done : List F) (r : F)
    (hd : ∀ r' ∈ done, r' ∈ rs) (hr : r ∈ rs) (hn : r ∉ done) (hs : ∀ r' ∈ rs, Sound rs r' (file r')) (st : Proc.State F Q T)
    (h : Loaded file done st) (a : Ar P F Q U T) :
    ∃ a' st', fill env true p r (file r) st a = .ok () a' ∧ a'.procs = a.procs.set p st' ∧ Loaded file (done ++ [r]) st' := by
  have hS := hs r hr
  obtain ⟨u, hu⟩ := grab_ok r (file r) a.units hS.present
  -- the new reference is not an exchange yet
  have hnot : ∀ r' ∈ done, (amts (file r')).get? (rkey r) = none := by
    intro r' hr'
    rw [amts_none (hs r' (hd r' hr'))]
    exact (hs r' (hd r' hr')).others r hr (fun h => hn (h ▸ hr'))
  have hx : st.exchs.get? (rkey r) = none := by
    rw [h.exchs]
    unfold loaded
    have h1 : (rkey r : Key F T) ∉ done.map rkey := by rw [rkey_mem]; exact hn
    have h2 : dictOf file (rkey r) done = [] := by
      unfold dictOf
      rw [List.filterMap_eq_nil_iff]
      intro r' hr'
      rw [hnot r' hr']; rfl
    simp [h1, h2]
  have hrf : (rkey r : Key F T) ∉ st.refs := by rw [h.refs, rkey_mem]; exact hn
  obtain ⟨p1, e1, e2, e3, e4, e5⟩ := setRx_ok env r st h.allocSum hrf hx
  obtain ⟨xs, u', c1, c2⟩ := collect_ok (file r) u hS.readable
  obtain ⟨p2, f1, f2, f3, f4, f5⟩ := addKV_ok (rkey r) (amts (file r)) p1 (amts_nodup hS.readable hS.once)
    (by
      rintro ⟨k, v⟩ hkv
      obtain ⟨e, _, he⟩ := (mem_amts hS.readable k v).mp hkv
      exact he.2.2.2.1)
    (by rw [e2]; simp) (by simp [Proc.isRefOf, e5]) (by intro _; rw [e5]; simp)
    (by
      intro k hk hkr e he
      rw [e5, if_neg hkr, h.exchs] at he
      unfold loaded at he
      have h1 : k ∉ done.map rkey := by
        intro hm
        obtain ⟨r', hr', rfl⟩ := List.mem_map.mp hm
        rw [Dict.mem_keys_iff] at hk
        obtain ⟨v, hv⟩ := hk
        exact hS.others r' (hd r' hr') (fun h => hn (h ▸ hr')) v ((amts_get? hS _ v).mp hv)
      simp only [h1, if_false] at he
      split at he
      · cases he
      · cases he
        exact ⟨rfl, dictOf_keys hn⟩)
  refine ⟨⟨a.procs.set p p2, u'⟩, p2, ?_, rfl, ?_⟩
  · unfold fill
    simp only [hl, if_true, hu, e1]
    unfold loadXs
    rw [c1]
    simp only
    rw [addXs_eq env hl, c2, f1]
  · refine ⟨by rw [f2, e2, h.refs]; simp, by rw [f3, e3, h.allocQ], by rw [f4, e4], ?_⟩
    intro k
    rw [f5 k, e5 k]
    by_cases hk : k = rkey r
    · subst hk
      obtain ⟨v, hv⟩ := hS.amount
      have hv := (amts_get? hS _ v).mpr hv
      have hv' : (amts (file r)).get? (rkey r) = some v := hv
      simp [upd, hv', loaded]
    · simp only [hk, if_false]
      rw [h.exchs]
      by_cases hm : k ∈ done.map rkey
      · have hm' : k ∈ (done ++ [r]).map rkey := by rw [List.map_append]; exact List.mem_append_left _ hm
        have : (amts (file r)).get? k = none := by
          obtain ⟨r', hr', rfl⟩ := List.mem_map.mp hm
          rw [amts_none hS]
          exact hS.others r' (hd r' hr') (fun h => hn (h ▸ hr'))
        simp only [this, upd, loaded, hm, hm', if_true]
      · have hm' : k ∉ (done ++ [r]).map rkey := by
          rw [List.map_append, List.mem_append]
          rintro (h | h)
          · exact hm h
          · simp at h; exact hk h
        simp only [loaded, hm, hm', if_false, dictOf_append]
        cases hg : (amts (file r)).get? k with
        | none => simp [upd]
        | some v =>
          simp only [upd, hk, if_false, Option.map_some, Option.toList_some, List.append_eq_nil_iff, List.cons_ne_nil, and_false]
          by_cases hd0 : dictOf file k done = []
          · simp [hd0]
          · simp [hd0]

/-- loading more datasets -/
theorem fetch_loaded (env : Env P F Q U T) (hl : env.linked = true) (file : F → List (El F U T)) (p : P) (rs : List F)
    (hf : ∀ r ∈ rs, env.file p r = some (file r)) (hs : ∀ r ∈ rs, Sound rs r (file r)) (todo : List F) :
    ∀ (done : List F) (a : Ar P F Q U T), (done ++ todo).Nodup → (∀ r ∈ done ++ todo, r ∈ rs) →
      ((∃ st, a.procs.get? p = some st ∧ Loaded file done st) ∨ (a.procs.get? p = none ∧ done = [])) → (done ++ todo) ≠ [] →
      ∃ a' st, fetch env true p todo a = .ok () a' ∧ a'.procs.get? p = some st ∧ Loaded file (done ++ todo) st ∧
        ∀ p', p' ≠ p → a'.procs.get? p' = a.procs.get? p' := by
  induction todo with
  | nil =>
    intro done a hn _ ha hne
    rcases ha with ⟨st, h1, h2⟩ | ⟨_, rfl⟩
    · exact ⟨a, st, rfl, h1, by simpa using h2, fun _ _ => rfl⟩
    · exact absurd rfl hne
  | cons r todo ih =>
    intro done a hn hrs ha _
    have hr : r ∈ rs := hrs r (by simp)
    have hnd : r ∉ done := by
      intro h
      rw [List.nodup_append] at hn
      exact hn.2.2 r h r (by simp) rfl
    have hd : ∀ r' ∈ done, r' ∈ rs := fun r' h => hrs r' (by simp [h])
    have key : ∃ a' st', loadOne env true p r a = .ok () a' ∧ a'.procs = a.procs.set p st' ∧ Loaded file (done ++ [r]) st' := by
      unfold loadOne
      rcases ha with ⟨st, h1, h2⟩ | ⟨h1, rfl⟩
      · obtain ⟨a', st', g1, g2, g3⟩ := fill_loaded env hl file p rs done r hd hr hnd hs st h2 a
        refine ⟨a', st', ?_, g2, g3⟩
        simp only [h1, hasReference_loaded h2 hnd, hf r hr, g1]
      · obtain ⟨a', st', g1, g2, g3⟩ := fill_loaded env hl file p rs [] r hd hr hnd hs {}
          ⟨rfl, rfl, rfl, fun k => by simp [loaded, dictOf]⟩ a
        exact ⟨a', st', by simp only [h1, hf r hr, g1], g2, g3⟩
    obtain ⟨a1, st1, k1, k2, k3⟩ := key
    obtain ⟨a', st, g1, g2, g3, g4⟩ := ih (done ++ [r]) a1 (by simpa using hn) (by simpa using hrs)
      (Or.inl ⟨st1, by rw [k2]; exact Dict.get?_set_self _ _ _, k3⟩) (by simp)
    refine ⟨a', st, by rw [fetch, k1]; exact g1, g2, by simpa using g3, ?_⟩
    intro p' hp'
    rw [g4 p' hp', k2, Dict.get?_set_ne _ _ (Ne.symm hp')]

theorem dictOf_get? {file : F → List (El F U T)} {k : Key F T} {done : List F} (hn : done.Nodup) {r : F} (h : r ∈ done) :
    (dictOf file k done).get? (rkey r) = ((amts (file r)).get? k).map some := by
  induction done with
  | nil => cases h
  | cons r' done ih =>
    rw [List.nodup_cons] at hn
    unfold dictOf at ih ⊢
    rw [List.filterMap_cons]
    by_cases hr : r' = r
    · subst hr
      cases hg : (amts (file r')).get? k with
      | none => exact dictOf_keys hn.1
      | some v => simp [Dict.get?]
    · have h' : r ∈ done := (List.mem_cons.mp h).resolve_left (fun h => hr h.symm)
      cases hg : (amts (file r')).get? k with
      | none => exact ih hn.2 h'
      | some v =>
        have : (rkey r' : Key F T) ≠ rkey r := by simp [rkey, hr]
        simp only [Option.map_some]
        rw [Dict.get?, if_neg this]
        exact ih hn.2 h'

theorem dictOf_nil {file : F → List (El F U T)} {k : Key F T} {done : List F} :
    dictOf file k done = [] ↔ ∀ r ∈ done, (amts (file r)).get? k = none := by
  unfold dictOf
  rw [List.filterMap_eq_nil_iff]
  simp

/-- the answers of a loaded process -/
theorem loaded_answers {file : F → List (El F U T)} {rs : List F} {st : Proc.State F Q T} (h : Loaded file rs st) (hn : rs.Nodup)
    (hs : ∀ r ∈ rs, Sound rs r (file r)) :
    (∀ k, k ∈ st.refs ↔ ∃ r ∈ rs, k = ⟨r, .output, none⟩) ∧
    (∀ k, k ∈ st.exchs.keys ↔ ∃ r ∈ rs, ∃ v, InFile (file r) k v) ∧
    (∀ (cf : F → Q → Option ℚ) (r : F) (_ : r ∈ rs) (w : ℚ) (_ : InFile (file r) ⟨r, .output, none⟩ w) (k : Key F T) (_ : k ∉ st.refs),
      (∀ v, InFile (file r) k v → Proc.getItem cf st k ⟨r, .output, none⟩ = .ok (v / w)) ∧
      ((∀ v, ¬ InFile (file r) k v) → k ∈ st.exchs.keys → Proc.getItem cf st k ⟨r, .output, none⟩ = .ok 0)) := by
  have hrefs : ∀ k, k ∈ st.refs ↔ ∃ r ∈ rs, k = ⟨r, .output, none⟩ := by
    intro k
    rw [h.refs, List.mem_map]
    exact ⟨fun ⟨r, h1, h2⟩ => ⟨r, h1, h2.symm⟩, fun ⟨r, h1, h2⟩ => ⟨r, h1, h2.symm⟩⟩
  have hkeys : ∀ k, k ∈ st.exchs.keys ↔ ∃ r ∈ rs, ∃ v, InFile (file r) k v := by
    intro k
    rw [Dict.mem_keys_iff, h.exchs]
    unfold loaded
    by_cases hm : k ∈ rs.map rkey
    · simp only [hm, if_true, Option.some.injEq, exists_eq', true_iff]
      obtain ⟨r, hr, rfl⟩ := List.mem_map.mp hm
      exact ⟨r, hr, (hs r hr).amount⟩
    · simp only [hm, if_false]
      by_cases hd : dictOf file k rs = []
      · simp only [hd, if_true, reduceCtorEq, exists_false, false_iff]
        rintro ⟨r, hr, v, hv⟩
        have := dictOf_nil.mp hd r hr
        rw [(amts_get? (hs r hr) k v).mpr hv] at this; cases this
      · simp only [hd, if_false, Option.some.injEq, exists_eq', true_iff]
        rw [dictOf_nil] at hd
        push Not at hd
        obtain ⟨r, hr, hg⟩ := hd
        obtain ⟨v, hv⟩ := Option.ne_none_iff_exists'.mp hg
        exact ⟨r, hr, v, (amts_get? (hs r hr) k v).mp hv⟩
  refine ⟨hrefs, hkeys, ?_⟩
  intro cf r hr w hw k hk
  have hkm : k ∉ rs.map rkey := by rw [← h.refs]; exact hk
  have hrm : (rkey r : Key F T) ∈ rs.map rkey := rkey_mem.mpr hr
  have hit : st.exchs.get? ⟨r, .output, none⟩ = some ⟨some w, [], true⟩ := by
    have e : (⟨r, .output, none⟩ : Key F T) = rkey r := rfl
    rw [e, h.exchs]
    have hw' : (amts (file r)).get? (rkey r) = some w := (amts_get? (hs r hr) _ w).mpr hw
    simp only [loaded, hrm, if_true, hw']
  have hw0 : w ≠ 0 := by obtain ⟨e, _, he⟩ := hw; exact he.2.2.2.1
  have hq : st.allocQty = none := by simp [Proc.State.allocQty, h.allocSum]
  have hex : ∀ (_ : dictOf file k rs ≠ []), st.exchs.get? k = some ⟨none, dictOf file k rs, false⟩ := by
    intro hd; rw [h.exchs]; simp [loaded, hkm, hd]
  have hget : ∀ (_ : dictOf file k rs ≠ []), Proc.getItem cf st k ⟨r, .output, none⟩ =
      match ((amts (file r)).get? k).map some with
      | none => .ok 0
      | some v => Proc.pyDiv v (some w) := by
    intro hd
    have hlen : (dictOf file k rs).length > 0 := List.length_pos_iff.mpr hd
    have hd2 := dictOf_get? (file := file) (k := k) hn hr
    have hd3 : (dictOf file k rs).get? ⟨r, .output, none⟩ = ((amts (file r)).get? k).map some := hd2
    simp only [Proc.getItem, hex hd, hit, if_true, Bool.false_eq_true, if_false, hq, hlen, hd3]
    cases (amts (file r)).get? k <;> rfl
  constructor
  · intro v hv
    have hg := (amts_get? (hs r hr) k v).mpr hv
    have hd : dictOf file k rs ≠ [] := by
      intro hd; have := dictOf_nil.mp hd r hr; rw [hg] at this; cases this
    rw [hget hd, hg]
    simp [Proc.pyDiv, hw0]
  · intro hv hkk
    have hg := (amts_none (hs r hr) k).mpr hv
    have hd : dictOf file k rs ≠ [] := by
      intro hd
      obtain ⟨r', hr', v, hv'⟩ := (hkeys k).mp hkk
      have := dictOf_nil.mp hd r' hr'
      rw [(amts_get? (hs r' hr') k v).mpr hv'] at this; cases this
    rw [hget hd, hg]
    rfl

/-- **C155** a process whose datasets, one for each of its reference flows, are sound is loaded, in whatever order they are read, with exactly those
reference flows and exactly the exchanges of the datasets; the amount of an exchange per unit of a reference flow is the one in the dataset of that
flow, over the amount of that flow, and zero where the dataset does not have it; other processes are as they were -/
theorem linked_loaded (env : Env P F Q U T) (hl : env.linked = true) (p : P) (rs : List F) (hne : rs ≠ []) (hn : rs.Nodup)
    (file : F → List (El F U T)) (hf : ∀ r ∈ rs, env.file p r = some (file r)) (hs : ∀ r ∈ rs, Sound rs r (file r))
    (a : Ar P F Q U T) (ha : a.procs.get? p = none) :
    ∃ a' st, fetch env true p rs a = .ok () a' ∧ a'.procs.get? p = some st ∧
      (∀ k, k ∈ st.refs ↔ ∃ r ∈ rs, k = ⟨r, .output, none⟩) ∧
      (∀ k, k ∈ st.exchs.keys ↔ ∃ r ∈ rs, ∃ v, InFile (file r) k v) ∧
      (∀ (cf : F → Q → Option ℚ) (r : F) (_ : r ∈ rs) (w : ℚ) (_ : InFile (file r) ⟨r, .output, none⟩ w) (k : Key F T) (_ : k ∉ st.refs),
        (∀ v, InFile (file r) k v → Proc.getItem cf st k ⟨r, .output, none⟩ = .ok (v / w)) ∧
        ((∀ v, ¬ InFile (file r) k v) → k ∈ st.exchs.keys → Proc.getItem cf st k ⟨r, .output, none⟩ = .ok 0)) ∧
      (∀ p', p' ≠ p → a'.procs.get? p' = a.procs.get? p') := by
  obtain ⟨a', st, g1, g2, g3, g4⟩ := fetch_loaded env hl file p rs hf hs rs [] a (by simpa using hn) (by simp) (Or.inr ⟨ha, rfl⟩) (by simpa using hne)
  rw [List.nil_append] at g3
  obtain ⟨h1, h2, h3⟩ := loaded_answers g3 hn hs
  exact ⟨a', st, g1, g2, h1, h2, h3, g4⟩

/-- **C155** the order in which the datasets of a process are read does not matter: same references, same exchanges, same amounts -/
theorem linked_order (env : Env P F Q U T) (hl : env.linked = true) (p : P) (rs rs' : List F) (hp : rs'.Perm rs) (hne : rs ≠ []) (hn : rs.Nodup)
    (file : F → List (El F U T)) (hf : ∀ r ∈ rs, env.file p r = some (file r)) (hs : ∀ r ∈ rs, Sound rs r (file r))
    (a a' : Ar P F Q U T) (ha : a.procs.get? p = none) (ha' : a'.procs.get? p = none) :
    ∃ b b' st st', fetch env true p rs a = .ok () b ∧ b.procs.get? p = some st ∧ fetch env true p rs' a' = .ok () b' ∧
      b'.procs.get? p = some st' ∧ (∀ k, k ∈ st'.refs ↔ k ∈ st.refs) ∧ (∀ k, k ∈ st'.exchs.keys ↔ k ∈ st.exchs.keys) ∧
      ∀ (cf : F → Q → Option ℚ) (k : Key F T), k ∈ st.exchs.keys → k ∉ st.refs → ∀ r ∈ st.refs,
        Proc.getItem cf st' k r = Proc.getItem cf st k r := by
  have hs' : ∀ r ∈ rs', Sound rs' r (file r) := fun r hr =>
    let h := hs r (hp.mem_iff.mp hr)
    ⟨h.readable, h.once, h.present, h.amount, fun r' hr' => h.others r' (hp.mem_iff.mp hr')⟩
  obtain ⟨b, st, g1, g2, g3, g4, g5, _⟩ := linked_loaded env hl p rs hne hn file hf hs a ha
  obtain ⟨b', st', k1, k2, k3, k4, k5, _⟩ := linked_loaded env hl p rs' (fun h => hne (List.Perm.eq_nil (h ▸ hp.symm)))
    (hp.nodup_iff.mpr hn) file (fun r hr => hf r (hp.mem_iff.mp hr)) hs' a' ha'
  have e1 : ∀ k, k ∈ st'.refs ↔ k ∈ st.refs := by
    intro k; rw [g3, k3]; simp only [hp.mem_iff]
  have e2 : ∀ k, k ∈ st'.exchs.keys ↔ k ∈ st.exchs.keys := by
    intro k; rw [g4, k4]; simp only [hp.mem_iff]
  refine ⟨b, b', st, st', g1, g2, k1, k2, e1, e2, ?_⟩
  intro cf k hk hkr r hr
  obtain ⟨r, hr', rfl⟩ := (g3 r).mp hr
  obtain ⟨w, hw⟩ := (hs r hr').amount
  have q1 := g5 cf r hr' w hw k hkr
  have q2 := k5 cf r (hp.mem_iff.mpr hr') w hw k (fun h => hkr ((e1 k).mp h))
  by_cases hv : ∃ v, InFile (file r) k v
  · obtain ⟨v, hv⟩ := hv
    rw [q1.1 v hv, q2.1 v hv]
  · push Not at hv
    rw [q1.2 hv hk, q2.2 hv ((e2 k).mpr hk)]

end Spold
