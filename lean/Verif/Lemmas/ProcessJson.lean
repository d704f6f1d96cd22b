import Verif.Model.ProcessJson
import Verif.Props.Process

/-! Reading a process from JSON: further invariants of processes, and what the loops of the reader do. -/

namespace Proc
variable {F Q T : Type} [DecidableEq F] [DecidableEq T]

/-- more that holds of every process: values are allocated to references only, terminations are strings, and an allocation quantity
comes with a total -/
structure Inv2 (str : T → T) (p : State F Q T) : Prop where
  vkeys : ∀ k e, p.exchs.get? k = some e → ∀ r ∈ e.vdict.keys, r ∈ p.refs
  term : ∀ k e, p.exchs.get? k = some e → ∀ t, k.term = some t → ∃ s, t = str s
  alloc : p.allocQ ≠ none → p.allocSum ≠ 0

theorem isRefOf_mem {p : State F Q T} (h : Inv p) {r : Key F T} (hr : isRefOf p r = true) : r ∈ p.refs := by
  unfold isRefOf at hr
  cases hg : p.exchs.get? r with
  | none => rw [hg] at hr; simp at hr
  | some e => rw [hg] at hr; exact (h.refs r).2 ⟨e, hg, by simpa using hr⟩

theorem inv2_set {str : T → T} {p : State F Q T} (h : Inv2 str p) {k : Key F T} {e : Exch F T}
    (hv : ∀ r ∈ e.vdict.keys, r ∈ p.refs) (ht : ∀ t, k.term = some t → ∃ s, t = str s) :
    Inv2 str { p with exchs := p.exchs.set k e } := by
  refine ⟨?_, ?_, h.alloc⟩
  · intro k' e' hk
    simp only [Dict.get?_set] at hk
    split at hk
    · cases hk; exact hv
    · exact h.vkeys k' e' hk
  · intro k' e' hk
    simp only [Dict.get?_set] at hk
    split at hk
    · rename_i hh; subst hh; exact ht
    · exact h.term k' e' hk

theorem setItem_keys {p : State F Q T} (hI : Inv p) {x : Key F T} {e e' : Exch F T} {r : Key F T} {v : Option ℚ}
    (h : setItem x e r (isRefOf p r) v = .ok e') (he : ∀ r ∈ e.vdict.keys, r ∈ p.refs) : ∀ r ∈ e'.vdict.keys, r ∈ p.refs := by
  obtain ⟨h1, -, ⟨-, -, -, h2⟩ | ⟨-, -, -, h2⟩ | ⟨-, h2⟩⟩ := setItem_ok h
  · rw [h2]; exact he
  · rw [h2]; exact he
  · rw [h2]
    intro r' hr'
    rcases (Dict.mem_keys_set _ _ _ _).1 hr' with rfl | hr'
    · exact isRefOf_mem hI h1
    · exact he _ hr'

theorem inv2_addExchange {str : T → T} {p : State F Q T} (hI : Inv p) (h : Inv2 str p) (f : F) (d : Dir) (r : Option (Key F T))
    (v : Option ℚ) (t : Option T) (a : Bool) : Inv2 str (addExchange str f d r v t a p).state := by
  unfold addExchange
  simp only
  cases hg : p.exchs.get? ⟨f, d, t⟩ with
  | some e =>
    have hk := h.vkeys _ e hg
    have ht := h.term _ e hg
    cases v with
    | none => exact h
    | some v =>
      simp only
      by_cases hv : v = 0
      · rw [if_pos hv]; exact h
      · rw [if_neg hv]
        have hadd : ∀ rr e', addToValue e v rr = .ok e' → ∀ r ∈ e'.vdict.keys, r ∈ p.refs := by
          intro rr e' hh
          rcases addToValue_ok hh with ⟨-, w, -, h2⟩ | ⟨r', -, ⟨w, h1, h2⟩ | ⟨-, h2⟩⟩
          · rw [h2]; exact hk
          · rw [h2]
            intro r'' hr''
            rcases (Dict.mem_keys_set _ _ _ _).1 hr'' with rfl | hr''
            · exact hk _ ((Dict.mem_keys_iff _ _).2 ⟨_, h1⟩)
            · exact hk _ hr''
          · rw [h2]; exact hk
        cases r with
        | none =>
          simp only
          cases hs : setValue e (some v) with
          | ok e' => exact inv2_set h (by rw [(setValue_ok hs).2]; exact hk) ht
          | error err =>
            cases err with
            | duplicate =>
              simp only
              split
              · cases ha : addToValue e v none with
                | ok e' => exact inv2_set h (hadd _ _ ha) ht
                | error err => exact h
              · exact h
            | _ => exact h
        | some r =>
          simp only
          cases hs : setItem ⟨f, d, t⟩ e r (isRefOf p r) (some v) with
          | ok e' => exact inv2_set h (setItem_keys hI hs hk) ht
          | error err =>
            cases err with
            | duplicate =>
              simp only
              split
              · cases ha : addToValue e v (some r) with
                | ok e' => exact inv2_set h (hadd _ _ ha) ht
                | error err => exact h
              · exact h
            | _ => exact h
  | none =>
    simp only
    have ht : ∀ t', (⟨f, d, t.map str⟩ : Key F T).term = some t' → ∃ s, t' = str s := by
      intro t' h'
      simp only [Option.map_eq_some_iff] at h'
      obtain ⟨s, -, h'⟩ := h'
      exact ⟨s, h'.symm⟩
    cases r with
    | none => exact inv2_set h (by simp [Dict.keys]) ht
    | some r =>
      simp only
      split
      · exact h
      · cases hs : setItem ⟨f, d, t.map str⟩ {} r (isRefOf p r) v with
        | ok e' => exact inv2_set h (setItem_keys hI hs (by simp [Dict.keys])) ht
        | error err => exact h

theorem inv2_allocate {str : T → T} {p : State F Q T} (h : Inv2 str p) (cf : F → Q → Option ℚ) (q : Option Q) :
    Inv2 str (allocate cf q p).state := by
  unfold allocate
  split
  · exact ⟨h.vkeys, h.term, fun hh => absurd rfl hh⟩
  · split
    · exact h
    · simp only
      split
      · exact h
      · rename_i hne
        exact ⟨h.vkeys, h.term, fun _ => hne⟩

theorem inv2_addReference {str : T → T} {p : State F Q T} (h : Inv2 str p) (cf : F → Q → Option ℚ) (f : F) (d : Dir) :
    Inv2 str (addReference cf f d p).state := by
  obtain ⟨p1, ⟨r, hr, hst, _, _⟩, ha, hs, hp1⟩ := addReference_state cf f d p
  have hI1 : Inv2 str p1 := by
    rcases hp1 with ⟨_, rfl⟩ | ⟨e, hg, rfl⟩
    · exact h
    · refine ⟨?_, ?_, h.alloc⟩
      · intro k' e' hk r' hr'
        simp only [Dict.get?_set] at hk
        rw [PySet.mem_add]
        left
        split at hk
        · cases hk; exact h.vkeys _ _ hg r' hr'
        · exact h.vkeys k' e' hk r' hr'
      · intro k' e' hk
        simp only [Dict.get?_set] at hk
        split at hk
        · rename_i hh; subst hh; intro t ht; simp at ht
        · exact h.term k' e' hk
  rw [hst]
  rcases hr with rfl | ⟨q, rfl, _⟩
  · exact hI1
  · exact inv2_allocate hI1 cf (some q)

theorem mem_keys_del_ne {K V : Type} [DecidableEq K] {d : Dict K V} {k k' : K} (h : k' ∈ (d.del k).keys) : k' ≠ k ∧ k' ∈ d.keys := by
  rw [Dict.mem_keys_iff] at h
  obtain ⟨v, h⟩ := h
  rw [Dict.get?_del'] at h
  split at h
  · simp at h
  · rename_i hne; exact ⟨fun hh => hne hh.symm, (Dict.mem_keys_iff _ _).2 ⟨v, h⟩⟩

theorem inv2_removeAllocation {str : T → T} {p : State F Q T} (h : Inv2 str p) (r : Key F T) : Inv2 str (removeAllocation r p) := by
  unfold removeAllocation
  have hget : ∀ k', Dict.get? (p.exchs.map fun kx => (kx.1, { kx.2 with vdict := kx.2.vdict.del r })) k' =
      (p.exchs.get? k').map fun e => { e with vdict := e.vdict.del r } :=
    fun k' => get?_mapVals _ (fun e : Exch F T => { e with vdict := e.vdict.del r }) k'
  refine ⟨?_, ?_, h.alloc⟩
  · intro k e hk r' hr'
    simp only at hk ⊢
    rw [hget, Option.map_eq_some_iff] at hk
    obtain ⟨e0, h1, rfl⟩ := hk
    exact h.vkeys k e0 h1 r' (mem_keys_del_ne hr').2
  · intro k e hk
    simp only at hk
    rw [hget, Option.map_eq_some_iff] at hk
    obtain ⟨e0, h1, rfl⟩ := hk
    exact h.term k e0 h1

theorem inv2_dropRef {str : T → T} {p : State F Q T} (h : Inv2 str p) {k : Key F T} {e : Exch F T} (hg : p.exchs.get? k = some e) :
    Inv2 str (dropRef k e p) := by
  unfold dropRef removeAllocation
  have hget : ∀ k', Dict.get? ((p.exchs.set k { e with isRef := false }).map fun kx => (kx.1, { kx.2 with vdict := kx.2.vdict.del k })) k' =
      ((p.exchs.set k { e with isRef := false }).get? k').map fun e => { e with vdict := e.vdict.del k } :=
    fun k' => get?_mapVals _ (fun e : Exch F T => { e with vdict := e.vdict.del k }) k'
  refine ⟨?_, ?_, h.alloc⟩
  · intro k' e' hk r' hr'
    simp only at hk ⊢
    rw [hget, Option.map_eq_some_iff] at hk
    obtain ⟨e0, h1, rfl⟩ := hk
    obtain ⟨hne, hr'⟩ := mem_keys_del_ne hr'
    rw [List.mem_filter]
    refine ⟨?_, by simpa using hne⟩
    rw [Dict.get?_set] at h1
    split at h1
    · cases h1; exact h.vkeys _ _ hg r' hr'
    · exact h.vkeys _ _ h1 r' hr'
  · intro k' e' hk
    simp only at hk
    rw [hget, Option.map_eq_some_iff] at hk
    obtain ⟨e0, h1, rfl⟩ := hk
    rw [Dict.get?_set] at h1
    split at h1
    · rename_i hh; subst hh; exact h.term _ _ hg
    · exact h.term _ _ h1

theorem reach_inv2 {str : T → T} {p : State F Q T} (h : Reach str p) : Inv2 str p := by
  induction h with
  | new => exact ⟨fun k e h => by simp at h, fun k e h => by simp at h, fun h => absurd rfl h⟩
  | @call cf op p hp ih =>
    cases op with
    | addExchange f d r v t a => exact inv2_addExchange (reach_inv hp) ih f d r v t a
    | addReference f d => exact inv2_addReference ih cf f d
    | removeReference f d =>
      show Inv2 str (removeReference cf f d p).state
      rcases removeReference_eq cf f d p with ⟨_, h2⟩ | ⟨e, hg, ⟨_, h2⟩ | ⟨q, _, h2⟩⟩
      · rw [h2]; exact ih
      · rw [h2]; exact inv2_dropRef ih hg
      · rw [h2]; exact inv2_allocate (inv2_dropRef ih hg) cf (some q)
    | allocate q => exact inv2_allocate ih cf q
    | removeAllocation r => exact inv2_removeAllocation ih r

/-! ### the loops -/

/-- the key of an exchange in JSON -/
def JX.key (x : JX F T) : Key F T := ⟨x.flow, x.dir, x.term⟩

theorem addExchange_new {str : T → T} {p : State F Q T} {f : F} {d : Dir} {v : Option ℚ} {t : Option T} (a : Bool)
    (hn : p.exchs.get? ⟨f, d, t⟩ = none) (ht : t.map str = t) :
    addExchange str f d none v t a p = .ok () { p with exchs := p.exchs.set ⟨f, d, t⟩ { value := v } } := by
  unfold addExchange
  simp only [hn, ht]

/-- one reference exchange -/
theorem load_ref {str : T → T} {cf : F → Q → Option ℚ} {p : State F Q T} {f : F} {d : Dir} {v : Option ℚ}
    (hn : p.exchs.get? ⟨f, d, none⟩ = none) (hq : p.allocQ = none) :
    ∃ p', ((addExchange str f d none v none false p).bind fun _ p1 => addReference cf f d p1) = .ok () p' ∧
      (∀ k, p'.exchs.get? k = if k = ⟨f, d, none⟩ then some { value := v, isRef := true } else p.exchs.get? k) ∧
      (∀ k, k ∈ p'.refs ↔ k ∈ p.refs ∨ k = ⟨f, d, none⟩) ∧ p'.allocQ = none ∧ p'.allocSum = p.allocSum := by
  rw [addExchange_new false hn rfl]
  refine ⟨{ p with exchs := (p.exchs.set ⟨f, d, none⟩ { value := v }).set ⟨f, d, none⟩ { value := v, isRef := true },
                   refs := PySet.add p.refs ⟨f, d, none⟩ }, ?_, ?_, ?_, hq, rfl⟩
  · simp only [Out.bind]
    unfold addReference
    have : ∀ e r, ({ p with exchs := e, refs := r } : State F Q T).allocQty = none := by
      intro e r; unfold State.allocQty; simp [hq]
    simp only [Dict.get?_set_self, this, Out.bind, Option.isSome_some, if_true]
  · intro k
    simp only [Dict.get?_set]
    by_cases h : k = ⟨f, d, none⟩
    · simp [h]
    · simp [h, Ne.symm h]
  · intro k
    simp only [PySet.mem_add]

theorem loadRefs_spec {str : T → T} {cf : F → Q → Option ℚ} {has : F → Bool} (l : List (JX F T)) :
    ∀ (d : Dict F (Option (Key F T))) (p : State F Q T), (∀ x ∈ l, has x.flow = true ∧ x.term = none) → (l.map JX.key).Nodup →
      (∀ x ∈ l, p.exchs.get? x.key = none) → p.allocQ = none →
      ∃ d' p', loadRefs str cf has l d p = .ok d' p' ∧
        (∀ x ∈ l, p'.exchs.get? x.key = some { value := x.value, isRef := true }) ∧
        (∀ k, (∀ x ∈ l, x.key ≠ k) → p'.exchs.get? k = p.exchs.get? k) ∧
        (∀ k, k ∈ p'.refs ↔ k ∈ p.refs ∨ ∃ x ∈ l, x.key = k) ∧ p'.allocQ = none ∧ p'.allocSum = p.allocSum ∧
        (∀ x ∈ l, (∀ x' ∈ l, x'.flow = x.flow → x'.key = x.key) → d'.get? x.flow = some (some x.key)) ∧
        (∀ f, (∀ x ∈ l, x.flow ≠ f) → d'.get? f = d.get? f) := by
  induction l with
  | nil => intro d p _ _ _ hq; exact ⟨d, p, rfl, by simp, fun _ _ => rfl, by simp, hq, rfl, by simp, fun _ _ => rfl⟩
  | cons x l ih =>
    intro d p hh hn hf hq
    have hx := hh x List.mem_cons_self
    have hkey : x.key = ⟨x.flow, x.dir, none⟩ := by unfold JX.key; rw [hx.2]
    have hfx : p.exchs.get? ⟨x.flow, x.dir, none⟩ = none := hkey ▸ hf x List.mem_cons_self
    obtain ⟨p1, h1, h2, h3, h4, h5⟩ := load_ref (str := str) (cf := cf) (v := x.value) hfx hq
    have hn' := List.nodup_cons.1 (by simpa using hn : (x.key :: l.map JX.key).Nodup)
    have hfresh : ∀ y ∈ l, p1.exchs.get? y.key = none := by
      intro y hy
      rw [h2, if_neg]
      · exact hf y (List.mem_cons_of_mem _ hy)
      · intro hc
        exact hn'.1 (List.mem_map.2 ⟨y, hy, hc.trans hkey.symm⟩)
    obtain ⟨d', p', g1, g2, g3, g4, g5, g6, g7, g8⟩ := ih (d.set x.flow (returned str ⟨x.flow, x.dir, none⟩ x.value p)) p1
      (fun y hy => hh y (List.mem_cons_of_mem _ hy)) hn'.2 hfresh h4
    have hret : returned str ⟨x.flow, x.dir, none⟩ x.value p = some x.key := by
      unfold returned; rw [hfx, hkey]; rfl
    rw [hret] at g1 g8
    refine ⟨d', p', ?_, ?_, ?_, ?_, g5, g6.trans h5, ?_, ?_⟩
    · unfold loadRefs
      rw [if_pos hx.1, hret]
      revert h1
      cases addExchange str x.flow x.dir none x.value none false p with
      | err e s => intro h1; simp [Out.bind] at h1
      | ok a s =>
        intro h1
        simp only [Out.bind] at h1 ⊢
        rw [h1]
        exact g1
    · intro y hy
      rcases List.mem_cons.1 hy with rfl | hy
      · rw [g3, h2, if_pos hkey]
        intro z hz hc
        exact hn'.1 (List.mem_map.2 ⟨z, hz, hc⟩)
      · exact g2 y hy
    · intro k hk
      rw [g3 k fun z hz => hk z (List.mem_cons_of_mem _ hz), h2, if_neg]
      intro hc
      exact hk x List.mem_cons_self (hkey.trans hc.symm)
    · intro k
      rw [g4, h3, ← hkey]
      simp only [List.mem_cons, exists_eq_or_imp, or_assoc]
      constructor
      · rintro (h | h | h)
        · exact .inl h
        · exact .inr (.inl h.symm)
        · exact .inr (.inr h)
      · rintro (h | h | h)
        · exact .inl h
        · exact .inr (.inl h.symm)
        · exact .inr (.inr h)
    · intro y hy hone
      by_cases hex : ∃ z ∈ l, z.flow = y.flow
      · obtain ⟨z, hz, hzf⟩ := hex
        have hzy := hone z (List.mem_cons_of_mem _ hz) hzf
        have := g7 z hz fun z' hz' hf' => (hone z' (List.mem_cons_of_mem _ hz') (hf'.trans hzf)).trans hzy.symm
        rw [← hzf, this, hzy]
      · have hyx : y = x := by
          rcases List.mem_cons.1 hy with h | h
          · exact h
          · exact absurd ⟨y, h, rfl⟩ hex
        subst hyx
        rw [g8 _ fun z hz hc => hex ⟨z, hz, hc⟩, Dict.get?_set_self]
    · intro f hf'
      rw [g8 f fun z hz => hf' z (List.mem_cons_of_mem _ hz), Dict.get?_set_ne]
      exact hf' x List.mem_cons_self

/-- an entry of `valueDict` as an entry of the dict of values -/
def toKey (kv : (Dir × F) × Option ℚ) : Key F T × Option ℚ := (⟨kv.1.2, kv.1.1, none⟩, kv.2)

theorem loadVals_spec {str : T → T} (d : Dict F (Option (Key F T))) (x : JX F T) (l : List ((Dir × F) × Option ℚ)) :
    ∀ (p : State F Q T) (v0 : Option ℚ) (vd : Dict (Key F T) (Option ℚ)),
      p.exchs.get? x.key = some { value := v0, vdict := vd } →
      (∀ kv ∈ l, d.get? kv.1.2 = some (some ⟨kv.1.2, kv.1.1, none⟩)) → (∀ kv ∈ l, isRefOf p (⟨kv.1.2, kv.1.1, none⟩ : Key F T) = true) →
      (∀ kv ∈ l, ∃ w, kv.2 = some w ∧ w ≠ 0) → (vd.keys ++ Dict.keys (l.map (toKey (T := T)))).Nodup →
      ∃ p', loadVals str d x l p = .ok () p' ∧ p'.refs = p.refs ∧ p'.allocQ = p.allocQ ∧ p'.allocSum = p.allocSum ∧
        p'.exchs.get? x.key = some { value := v0, vdict := vd ++ l.map toKey } ∧
        (∀ k, k ≠ x.key → p'.exchs.get? k = p.exchs.get? k) := by
  induction l with
  | nil => intro p v0 vd hp _ _ _ _; exact ⟨p, rfl, rfl, rfl, rfl, by simpa using hp, fun _ _ => rfl⟩
  | cons kv l ih =>
    obtain ⟨⟨dr, f⟩, v⟩ := kv
    intro p v0 vd hp hd hr hv hn
    obtain ⟨w, hw, hw0⟩ := hv _ List.mem_cons_self
    simp only at hw
    subst hw
    have hdf := hd _ List.mem_cons_self
    have hrf := hr _ List.mem_cons_self
    simp only at hdf hrf
    have hnk : (⟨f, dr, none⟩ : Key F T) ∉ vd.keys := by
      intro hc
      have := List.nodup_append.1 hn
      exact this.2.2 _ hc _ (by simp [Dict.keys, toKey]) rfl
    have hxk : x.key = ⟨x.flow, x.dir, x.term⟩ := rfl
    have hadd : addExchange str x.flow x.dir (some ⟨f, dr, none⟩) (some w) x.term false p =
        .ok () { p with exchs := p.exchs.set x.key { value := v0, vdict := vd ++ [(⟨f, dr, none⟩, some w)] } } := by
      unfold addExchange
      rw [← hxk]
      simp only [hp, if_neg hw0]
      unfold setItem
      have hh : vd.has (⟨f, dr, none⟩ : Key F T) = false := by
        rw [Bool.eq_false_iff, Ne, Dict.has_iff]; exact hnk
      rw [hrf, Dict.set_of_not_mem vd (some w) hnk]
      simp [hh]
    have hp1 : ({ p with exchs := p.exchs.set x.key { value := v0, vdict := vd ++ [(⟨f, dr, none⟩, some w)] } } : State F Q T).exchs.get? x.key =
        some { value := v0, vdict := vd ++ [(⟨f, dr, none⟩, some w)] } := Dict.get?_set_self _ _ _
    have hpx : isRefOf p x.key = false := by unfold isRefOf; rw [hp]; rfl
    obtain ⟨p', g1, g2, g3, g4, g5, g6⟩ := ih { p with exchs := p.exchs.set x.key { value := v0, vdict := vd ++ [(⟨f, dr, none⟩, some w)] } }
      v0 _ hp1 (fun kv hkv => hd kv (List.mem_cons_of_mem _ hkv))
      (by
        intro kv hkv
        have := hr kv (List.mem_cons_of_mem _ hkv)
        unfold isRefOf at this ⊢
        simp only [Dict.get?_set]
        split
        · rename_i hc
          rw [← hc] at this
          unfold isRefOf at hpx
          rw [hpx] at this
          simp at this
        · exact this)
      (fun kv hkv => hv kv (List.mem_cons_of_mem _ hkv))
      (by simpa [Dict.keys, toKey, List.append_assoc] using hn)
    refine ⟨p', ?_, g2, g3, g4, ?_, ?_⟩
    · unfold loadVals
      simp only [hdf, hadd, Out.bind]
      exact g1
    · rw [g5]; simp [toKey]
    · intro k hk
      rw [g6 k hk]
      exact Dict.get?_set_ne _ _ (Ne.symm hk)

/-- what the reader makes of an exchange that is no reference -/
def JX.exch (x : JX F T) : Exch F T := { value := x.value, vdict := (x.vdict.getD []).map toKey }

/-- an exchange that is no reference, as the reader wants it: with a number, or a dict of nonzero numbers for reference flows -/
structure Fine (str : T → T) (has : F → Bool) (d : Dict F (Option (Key F T))) (refs : List (Key F T)) (x : JX F T) : Prop where
  has : has x.flow = true
  term : x.term.map str = x.term
  some : x.value ≠ none ∨ x.vdict.getD [] ≠ []
  ref : ∀ kv ∈ x.vdict.getD [], d.get? kv.1.2 = .some (.some ⟨kv.1.2, kv.1.1, none⟩) ∧ (⟨kv.1.2, kv.1.1, none⟩ : Key F T) ∈ refs
  num : ∀ kv ∈ x.vdict.getD [], ∃ w, kv.2 = .some w ∧ w ≠ 0
  nodup : (Dict.keys ((x.vdict.getD []).map (toKey (T := T)))).Nodup

/-- references are flagged -/
def Flagged (p : State F Q T) : Prop := ∀ r ∈ p.refs, isRefOf p r = true

theorem load_one {str : T → T} {has : F → Bool} (d : Dict F (Option (Key F T))) (x : JX F T) (p : State F Q T)
    (hx : Fine str has d p.refs x) (hfl : Flagged p) (hn : p.exchs.get? x.key = none) :
    ∃ p', ((match x.value with
        | some v => addExchange str x.flow x.dir none (some v) x.term false p
        | none => .ok () p).bind fun _ p1 =>
          match x.vdict with
            | some vd => loadVals str d x vd p1
            | none => .ok () p1) = .ok () p' ∧ p'.refs = p.refs ∧ p'.allocQ = p.allocQ ∧ p'.allocSum = p.allocSum ∧
      p'.exchs.get? x.key = some x.exch ∧ (∀ k, k ≠ x.key → p'.exchs.get? k = p.exchs.get? k) := by
  have hne : ∀ r ∈ p.refs, r ≠ x.key := by
    intro r hr hc
    have := hfl r hr
    rw [hc] at this
    unfold isRefOf at this
    rw [hn] at this
    simp at this
  have hxk : x.key = ⟨x.flow, x.dir, x.term⟩ := rfl
  cases hv : x.value with
  | some v =>
    dsimp only
    rw [addExchange_new false (hxk ▸ hn) hx.term]
    simp only [Out.bind]
    have hp1 : ({ p with exchs := p.exchs.set ⟨x.flow, x.dir, x.term⟩ { value := some v } } : State F Q T).exchs.get? x.key =
        some { value := some v, vdict := [] } := Dict.get?_set_self _ _ _
    have hfr : ∀ k, k ≠ x.key → ({ p with exchs := p.exchs.set ⟨x.flow, x.dir, x.term⟩ { value := some v } } : State F Q T).exchs.get? k =
        p.exchs.get? k := fun k hk => Dict.get?_set_ne _ _ (Ne.symm hk)
    cases hvd : x.vdict with
    | none =>
      refine ⟨_, rfl, rfl, rfl, rfl, ?_, hfr⟩
      rw [hp1]; unfold JX.exch; rw [hv, hvd]; rfl
    | some vd =>
      have hr := hx.ref
      have hnu := hx.num
      have hnd := hx.nodup
      rw [hvd] at hr hnu hnd
      obtain ⟨p', g1, g2, g3, g4, g5, g6⟩ := loadVals_spec (str := str) d x vd _ _ _ hp1 (fun kv hkv => (hr kv hkv).1)
        (by
          intro kv hkv
          have h1 := (hr kv hkv).2
          have h2 := hfl _ h1
          unfold isRefOf at h2 ⊢
          rw [hfr _ (hne _ h1)]
          exact h2) hnu (by simpa [Dict.keys] using hnd)
      refine ⟨p', g1, g2, g3, g4, ?_, ?_⟩
      · rw [g5]; unfold JX.exch; rw [hv, hvd]; rfl
      · intro k hk; rw [g6 k hk]; exact hfr k hk
  | none =>
    simp only [Out.bind]
    cases hvd : x.vdict with
    | none =>
      rcases hx.some with h | h
      · exact absurd hv h
      · rw [hvd] at h; exact absurd rfl h
    | some vd =>
      have hr := hx.ref
      have hnu := hx.num
      have hnd := hx.nodup
      have hso := hx.some
      rw [hvd] at hr hnu hnd hso
      simp only [Option.getD_some] at hr hnu hnd hso
      cases vd with
      | nil => simp [hv] at hso
      | cons kv l =>
        obtain ⟨⟨dr, f⟩, v⟩ := kv
        obtain ⟨hd, hrf⟩ := hr _ List.mem_cons_self
        obtain ⟨w, hw, hw0⟩ := hnu _ List.mem_cons_self
        simp only at hd hrf hw
        subst hw
        have hadd : addExchange str x.flow x.dir (some ⟨f, dr, none⟩) (some w) x.term false p =
            .ok () { p with exchs := p.exchs.set x.key { vdict := [(⟨f, dr, none⟩, some w)] } } := by
          unfold addExchange
          rw [← hxk]
          simp only [hn, hx.term]
          rw [← hxk]
          unfold setItem
          rw [hfl _ hrf]
          simp [hrf, Dict.set, Dict.has]
        have hp1 : ({ p with exchs := p.exchs.set x.key { vdict := [(⟨f, dr, none⟩, some w)] } } : State F Q T).exchs.get? x.key =
            some { value := none, vdict := [(⟨f, dr, none⟩, some w)] } := Dict.get?_set_self _ _ _
        have hfr : ∀ k, k ≠ x.key → ({ p with exchs := p.exchs.set x.key { vdict := [(⟨f, dr, none⟩, some w)] } } : State F Q T).exchs.get? k =
            p.exchs.get? k := fun k hk => Dict.get?_set_ne _ _ (Ne.symm hk)
        obtain ⟨p', g1, g2, g3, g4, g5, g6⟩ := loadVals_spec (str := str) d x l _ _ _ hp1
          (fun kv hkv => (hr kv (List.mem_cons_of_mem _ hkv)).1)
          (by
            intro kv hkv
            have h1 := (hr kv (List.mem_cons_of_mem _ hkv)).2
            have h2 := hfl _ h1
            unfold isRefOf at h2 ⊢
            rw [hfr _ (hne _ h1)]
            exact h2) (fun kv hkv => hnu kv (List.mem_cons_of_mem _ hkv)) (by simpa [Dict.keys, toKey] using hnd)
        refine ⟨p', ?_, g2, g3, g4, ?_, ?_⟩
        · show loadVals str d x (((dr, f), some w) :: l) p = _
          unfold loadVals
          simp only [hd, hadd, Out.bind]
          exact g1
        · rw [g5]; unfold JX.exch; rw [hv, hvd]; rfl
        · intro k hk; rw [g6 k hk]; exact hfr k hk

theorem out_bind_assoc {σ ε α β γ : Type} (r : Out σ ε α) (f : α → σ → Out σ ε β) (g : β → σ → Out σ ε γ) :
    (r.bind f).bind g = r.bind fun a s => (f a s).bind g := by
  cases r <;> rfl

theorem loadRest_spec {str : T → T} {has : F → Bool} (d : Dict F (Option (Key F T))) (l : List (JX F T)) :
    ∀ (p : State F Q T), (∀ x ∈ l, Fine str has d p.refs x) → Flagged p → (l.map JX.key).Nodup → (∀ x ∈ l, p.exchs.get? x.key = none) →
      ∃ p', loadRest str has d l p = .ok () p' ∧ p'.refs = p.refs ∧ p'.allocQ = p.allocQ ∧ p'.allocSum = p.allocSum ∧
        (∀ x ∈ l, p'.exchs.get? x.key = some x.exch) ∧ (∀ k, (∀ x ∈ l, x.key ≠ k) → p'.exchs.get? k = p.exchs.get? k) := by
  induction l with
  | nil => intro p _ _ _ _; exact ⟨p, rfl, rfl, rfl, rfl, by simp, fun _ _ => rfl⟩
  | cons x l ih =>
    intro p hx hfl hn hf
    have hn' := List.nodup_cons.1 (by simpa using hn : (x.key :: l.map JX.key).Nodup)
    obtain ⟨p1, h1, h2, h3, h4, h5, h6⟩ := load_one d x p (hx x List.mem_cons_self) hfl (hf x List.mem_cons_self)
    have hne : ∀ y ∈ l, y.key ≠ x.key := fun y hy hc => hn'.1 (List.mem_map.2 ⟨y, hy, hc⟩)
    have hfl1 : Flagged p1 := by
      intro r hr
      rw [h2] at hr
      have h7 := hfl r hr
      unfold isRefOf at h7 ⊢
      rw [h6 r]
      · exact h7
      · intro hc
        rw [hc, hf x List.mem_cons_self] at h7
        simp at h7
    obtain ⟨p', g1, g2, g3, g4, g5, g6⟩ := ih p1 (fun y hy => h2 ▸ hx y (List.mem_cons_of_mem _ hy)) hfl1 hn'.2
      (fun y hy => by rw [h6 _ (hne y hy)]; exact hf y (List.mem_cons_of_mem _ hy))
    refine ⟨p', ?_, g2.trans h2, g3.trans h3, g4.trans h4, ?_, ?_⟩
    · have hkey : loadRest str has d (x :: l) p = ((match x.value with
        | some v => addExchange str x.flow x.dir none (some v) x.term false p
        | none => .ok () p).bind fun _ p1 =>
          match x.vdict with
            | some vd => loadVals str d x vd p1
            | none => .ok () p1).bind fun _ p2 => loadRest str has d l p2 := by
        rw [loadRest, if_pos (hx x List.mem_cons_self).has, out_bind_assoc]
        cases x.value <;> cases x.vdict <;> rfl
      rw [hkey, h1]
      exact g1
    · intro y hy
      rcases List.mem_cons.1 hy with rfl | hy
      · rw [g6 _ hne, h5]
      · exact g5 y hy
    · intro k hk
      rw [g6 k fun y hy => hk y (List.mem_cons_of_mem _ hy), h6 k (Ne.symm (hk x List.mem_cons_self))]

end Proc
