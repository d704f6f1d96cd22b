import Verif.Props.FragmentEvs

/-!
C32: exchange values survive saving and loading.
-/

namespace Frg
set_option linter.unusedSectionVars false

variable {F Q : Type} [DecidableEq F] [DecidableEq Q]

theorem splitU_ne_nil (s acc : List Char) : splitU s acc ≠ [] := by
  fun_induction splitU s acc <;> simp_all

theorem intercalate_cons_cons (sep a b : List Char) (l : List (List Char)) :
    sep.intercalate (a :: b :: l) = a ++ sep ++ sep.intercalate (b :: l) := by
  simp [List.intercalate, List.intersperse]

theorem intercalate_cons_ne (sep a : List Char) (l : List (List Char)) (h : l ≠ []) :
    sep.intercalate (a :: l) = a ++ sep ++ sep.intercalate l := by
  cases l with
  | nil => exact absurd rfl h
  | cons b l => exact intercalate_cons_cons sep a b l

/-- joining the parts gives the string back -/
theorem join_split (s acc : List Char) : delim.intercalate (splitU s acc) = acc.reverse ++ s := by
  fun_induction splitU s acc with
  | case1 acc r ih => rw [intercalate_cons_ne _ _ _ (splitU_ne_nil _ _), ih]; simp [delim]
  | case2 acc c r _ ih => rw [ih]; simp
  | case3 acc => simp [List.intercalate]

/-! ### specification -/

/-- the names of scenarios in a table: no name is "0" or "1" or contains the delimiter; a tuple came from splitting a name -/
def WellNamed (evs : Dict Key (Option ℚ)) : Prop :=
  evs.keys.Nodup ∧ .cached ∈ evs.keys ∧ .observed ∈ evs.keys ∧
  ∀ k ∈ evs.keys, match k with
    | .str s => s ≠ "0" ∧ s ≠ "1" ∧ hasDelim s.toList = false
    | .tup l => ∃ s : String, hasDelim s.toList = true ∧ l = (splitU s.toList []).map String.ofList
    | _ => True

/-- a key as in a well-named table -/
def GoodKey : Key → Prop
  | .str s => s ≠ "0" ∧ s ≠ "1" ∧ hasDelim s.toList = false
  | .tup l => ∃ s : String, hasDelim s.toList = true ∧ l = (splitU s.toList []).map String.ofList
  | _ => True

theorem wellNamed_iff (evs : Dict Key (Option ℚ)) :
    WellNamed evs ↔ evs.keys.Nodup ∧ .cached ∈ evs.keys ∧ .observed ∈ evs.keys ∧ ∀ k ∈ evs.keys, GoodKey k := by
  refine and_congr_right fun _ => and_congr_right fun _ => and_congr_right fun _ => forall₂_congr fun k _ => ?_
  cases k <;> rfl

theorem keyName_split (s : String) : keyName (.tup ((splitU s.toList []).map String.ofList)) = s := by
  simp only [keyName, List.map_map]
  have : (String.toList ∘ String.ofList) = id := by funext l; simp
  rw [this, List.map_id, join_split]; simp

/-- the name of a scenario gives the scenario back -/
theorem nameKey_keyName (k : Key) (h : GoodKey k) (h0 : k ≠ .cached) (h1 : k ≠ .observed) : nameKey (keyName k) = k := by
  cases k with
  | cached => exact absurd rfl h0
  | observed => exact absurd rfl h1
  | str s => simp only [keyName, nameKey, h.2.2]; simp
  | tup l =>
    obtain ⟨s, hs, rfl⟩ := h
    rw [keyName_split, nameKey, if_pos hs]

theorem keyName_zero (k : Key) (h : GoodKey k) (hk : keyName k = "0") : k = .cached := by
  cases k with
  | cached => rfl
  | observed => exact absurd hk (by decide)
  | str s => exact absurd hk h.1
  | tup l =>
    obtain ⟨s, hs, rfl⟩ := h
    rw [keyName_split] at hk; subst hk; exact absurd hs (by decide)

theorem keyName_one (k : Key) (h : GoodKey k) (hk : keyName k = "1") : k = .observed := by
  cases k with
  | cached => exact absurd hk (by decide)
  | observed => rfl
  | str s => exact absurd hk h.2.1
  | tup l =>
    obtain ⟨s, hs, rfl⟩ := h
    rw [keyName_split] at hk; subst hk; exact absurd hs (by decide)

theorem keyName_inj (k k' : Key) (h : GoodKey k) (h' : GoodKey k') (hk : keyName k = keyName k') : k = k' := by
  by_cases h0 : k = .cached
  · subst h0; exact (keyName_zero k' h' hk.symm).symm
  by_cases h1 : k = .observed
  · subst h1; exact (keyName_one k' h' hk.symm).symm
  by_cases h0' : k' = .cached
  · subst h0'; exact keyName_zero k h hk
  by_cases h1' : k' = .observed
  · subst h1'; exact keyName_one k h hk
  rw [← nameKey_keyName k h h0 h1, hk, nameKey_keyName k' h' h0' h1']

/-- filling a table from another one, keys renamed by an injective function -/
theorem fold_rename {K K' V : Type} [DecidableEq K] [DecidableEq K'] (f : K → K') (d : Dict K V) (init : Dict K' V)
    (hn : d.keys.Nodup) (hf : ∀ k ∈ d.keys, ∀ k' ∈ d.keys, f k = f k' → k = k') (x : K') :
    (∀ k ∈ d.keys, f k = x → (d.foldl (fun a kv => a.set (f kv.1) kv.2) init).get? x = d.get? k) ∧
    ((∀ k ∈ d.keys, f k ≠ x) → (d.foldl (fun a kv => a.set (f kv.1) kv.2) init).get? x = init.get? x) := by
  induction d generalizing init with
  | nil => exact ⟨fun k hk => absurd hk List.not_mem_nil, fun _ => rfl⟩
  | cons kv d ih =>
    obtain ⟨k0, v0⟩ := kv
    have hn' : k0 ∉ Dict.keys d ∧ (Dict.keys d).Nodup := List.nodup_cons.1 hn
    have ih := ih (init.set (f k0) v0) hn'.2 fun k hk k' hk' => hf k (List.mem_cons_of_mem _ hk) k' (List.mem_cons_of_mem _ hk')
    simp only [List.foldl_cons]
    constructor
    · intro k hk hx
      rcases List.mem_cons.1 hk with rfl | hk
      · rw [ih.2, ← hx, Dict.get?_set_self]
        · simp [Dict.get?]
        · intro k' hk' h'
          have := hf k' (List.mem_cons_of_mem _ hk') k List.mem_cons_self (h'.trans hx.symm)
          subst this; exact hn'.1 hk'
      · rw [ih.1 k hk hx]
        have : k0 ≠ k := fun h => hn'.1 (h ▸ hk)
        simp [Dict.get?, this]
    · intro h
      rw [ih.2 fun k hk => h k (List.mem_cons_of_mem _ hk),
        Dict.get?_set_ne _ _ (h k0 List.mem_cons_self)]

theorem nodup_fold {K K' V : Type} [DecidableEq K] [DecidableEq K'] (f : K → K') (d : Dict K V) (init : Dict K' V)
    (hi : init.keys.Nodup) : (d.foldl (fun a kv => a.set (f kv.1) kv.2) init).keys.Nodup := by
  induction d generalizing init with
  | nil => exact hi
  | cons kv d ih => exact ih _ (Dict.nodup_keys_set _ _ _ hi)

theorem keys_fold {K K' V : Type} [DecidableEq K] [DecidableEq K'] (f : K → K') (d : Dict K V) (init : Dict K' V) (x : K') :
    x ∈ (d.foldl (fun a kv => a.set (f kv.1) kv.2) init).keys ↔ x ∈ init.keys ∨ ∃ k ∈ d.keys, f k = x := by
  induction d generalizing init with
  | nil => simp [Dict.keys]
  | cons kv d ih =>
    rw [List.foldl_cons, ih, Dict.mem_keys_set]
    constructor
    · rintro ((rfl | h) | ⟨k, hk, rfl⟩)
      · exact .inr ⟨kv.1, List.mem_cons_self, rfl⟩
      · exact .inl h
      · exact .inr ⟨k, List.mem_cons_of_mem _ hk, rfl⟩
    · rintro (h | ⟨k, hk, rfl⟩)
      · exact .inl (.inr h)
      · rcases List.mem_cons.1 hk with rfl | hk
        · exact .inl (.inl rfl)
        · exact .inr ⟨k, hk, rfl⟩

/-! ### loading -/

/-- the entry for a key after loading a saved table, whatever table `init` the others are put into -/
theorem load_get (evs init : Dict Key (Option ℚ)) (h : WellNamed evs) (k : Key) (h0 : k ≠ .cached) (h1 : k ≠ .observed)
    (hi : init.get? k = none) : (loadRest (((saveEvs evs).del "0").del "1") init).get? k = evs.get? k := by
  rw [wellNamed_iff] at h
  obtain ⟨hn, -, -, hg⟩ := h
  have hinj : ∀ k ∈ evs.keys, ∀ k' ∈ evs.keys, keyName k = keyName k' → k = k' :=
    fun k hk k' hk' => keyName_inj k k' (hg k hk) (hg k' hk')
  have hsn : (saveEvs evs).keys.Nodup := nodup_fold keyName evs [] (by simp [Dict.keys])
  have hdn : (((saveEvs evs).del "0").del "1").keys.Nodup := Dict.nodup_keys_del _ _ (Dict.nodup_keys_del _ _ hsn)
  have hmem : ∀ s, s ∈ (((saveEvs evs).del "0").del "1").keys ↔ s ≠ "0" ∧ s ≠ "1" ∧ ∃ k ∈ evs.keys, keyName k = s := by
    intro s
    rw [Dict.mem_keys_del _ (Dict.nodup_keys_del _ _ hsn), Dict.mem_keys_del _ hsn, saveEvs, keys_fold]
    simp only [Dict.keys, List.map_nil, List.not_mem_nil, false_or]
    tauto
  have hinj2 : ∀ s ∈ (((saveEvs evs).del "0").del "1").keys, ∀ s' ∈ (((saveEvs evs).del "0").del "1").keys,
      nameKey s = nameKey s' → s = s' := by
    intro s hs s' hs' he
    obtain ⟨a0, a1, k, hk, rfl⟩ := (hmem s).1 hs
    obtain ⟨b0, b1, k', hk', rfl⟩ := (hmem s').1 hs'
    rw [nameKey_keyName k (hg k hk) (by rintro rfl; exact a0 rfl) (by rintro rfl; exact a1 rfl),
      nameKey_keyName k' (hg k' hk') (by rintro rfl; exact b0 rfl) (by rintro rfl; exact b1 rfl)] at he
    rw [he]
  have hF := fold_rename nameKey (((saveEvs evs).del "0").del "1") init hdn hinj2 k
  by_cases hk : k ∈ evs.keys
  · have hs : keyName k ∈ (((saveEvs evs).del "0").del "1").keys :=
      (hmem _).2 ⟨fun h => h0 (keyName_zero k (hg k hk) h), fun h => h1 (keyName_one k (hg k hk) h), k, hk, rfl⟩
    rw [loadRest, hF.1 (keyName k) hs (nameKey_keyName k (hg k hk) h0 h1),
      Dict.get?_del _ (Dict.nodup_keys_del _ _ hsn), if_neg, Dict.get?_del _ hsn, if_neg, saveEvs,
      (fold_rename keyName evs [] hn hinj (keyName k)).1 k hk rfl]
    · exact fun h => h0 (keyName_zero k (hg k hk) h.symm)
    · exact fun h => h1 (keyName_one k (hg k hk) h.symm)
  · rw [loadRest, hF.2, hi, (Dict.not_mem_keys_iff evs k).1 hk]
    intro s hs he
    obtain ⟨a0, a1, k', hk', rfl⟩ := (hmem s).1 hs
    rw [nameKey_keyName k' (hg k' hk') (by rintro rfl; exact a0 rfl) (by rintro rfl; exact a1 rfl)] at he
    subst he; exact hk hk'

theorem save_get (evs : Dict Key (Option ℚ)) (h : WellNamed evs) :
    (saveEvs evs).get? "0" = evs.get? .cached ∧ ((saveEvs evs).del "0").get? "1" = evs.get? .observed := by
  rw [wellNamed_iff] at h
  obtain ⟨hn, hc, ho, hg⟩ := h
  have hinj : ∀ k ∈ evs.keys, ∀ k' ∈ evs.keys, keyName k = keyName k' → k = k' :=
    fun k hk k' hk' => keyName_inj k k' (hg k hk) (hg k' hk')
  have hsn : (saveEvs evs).keys.Nodup := nodup_fold keyName evs [] (by simp [Dict.keys])
  refine ⟨(fold_rename keyName evs [] hn hinj _).1 .cached hc rfl, ?_⟩
  rw [Dict.get?_del _ hsn, if_neg (by decide)]
  exact (fold_rename keyName evs [] hn hinj _).1 .observed ho rfl

/-- the fragment that is to be loaded can be made: its parent is another fragment whose default termination is not (yet) a
subfragment, and has no balance flow if this is one -/
def Loadable (H : Heap F Q) (k : ℕ) (parent : Option ℕ) (bal : Bool) : Prop :=
  match parent with
  | none => bal = false
  | some p => p ≠ k ∧ (∃ t, (H p).terms.get? none = some t ∧ (∀ j, t.target = .frag j → j = p)) ∧ (bal = true → (H p).cons = none)

@[simp] theorem put_self (H : Heap F Q) (i : ℕ) (n : Node F Q) : H.put i n i = n := Function.update_self ..
@[simp] theorem put_ne (H : Heap F Q) {i j : ℕ} (n : Node F Q) (h : j ≠ i) : H.put i n j = H j := Function.update_of_ne h ..

theorem termOf_none (n : Node F Q) (t : Term F) (h : n.terms.get? none = some t) :
    termOf n .none = .ok t ∧ termOf n (.one .cached) = .ok t := by
  constructor <;> simp [termOf, h]

/-- what is set when the constructor has set the parent, the balance and the empty tables: the cached value -/
theorem setCached_new (H : Heap F Q) (k : ℕ) (v : Option ℚ) (he : (H k).evs = newEvs) (ho : v = some 1 ∨ observable H k (.one .cached) = .ok true) :
    ∃ H', setCached H k v = .ok () H' ∧ (H' k).evs = [(.cached, v), (.observed, some 0)] ∧ H' k = { H k with evs := (H' k).evs } := by
  unfold setCached
  have hc : cachedEv (H k).evs = 1 := by rw [he]; simp [newEvs, cachedEv, Dict.get?]
  rw [if_neg (by simpa using hc)]
  by_cases hv : v = some 1
  · rw [if_pos hv]; subst hv; exact ⟨H, rfl, by rw [he]; rfl, rfl⟩
  · rw [if_neg hv]
    have ho := ho.resolve_left hv
    refine ⟨putEv H k .cached v, by simp [setEv, ho, singleKey, evKey], ?_, ?_⟩
    · rw [putEv_evs, if_pos rfl, he]; rfl
    · simp [putEv]

/-- **C32** (partial) A table of exchange values in which no scenario name contains the delimiter is the same after saving
and loading: the cached, observed and all scenario values. Partial: a balance flow must have the cached value 1
(see `balance_not_loaded`), and the parent must not be terminated to a subfragment yet. -/
theorem load_save_partial (E : Env F Q) (H : Heap F Q) (k : ℕ) (flow : F) (dir : Dir) (parent : Option ℕ) (bal bg : Bool)
    (evs : Dict Key (Option ℚ)) (hw : WellNamed evs) (hl : Loadable H k parent bal)
    (hb : bal = true → evs.get? .cached = some (some 1)) :
    ∃ H', fromJson E H k flow dir parent bal bg (saveEvs evs) = .ok () H' ∧
      ∀ key, (H' k).evs.get? key = evs.get? key := by
  obtain ⟨hs0, hs1⟩ := save_get evs hw
  obtain ⟨v0, hv0⟩ := (Dict.mem_keys_iff evs _).1 ((wellNamed_iff evs).1 hw).2.1
  obtain ⟨v1, hv1⟩ := (Dict.mem_keys_iff evs _).1 ((wellNamed_iff evs).1 hw).2.2.1
  have hcon : ∃ H1, construct E H k flow dir parent v0 bal bg = .ok () H1 ∧ (H1 k).evs = [(.cached, v0), (.observed, some 0)] := by
    unfold construct
    cases parent with
    | none =>
      have hbf : bal = false := hl
      subst hbf
      simp only [initRest, Bool.false_eq_true, if_false, Out.bind]
      obtain ⟨H1, h1, h2, -⟩ := setCached_new ((H.put k { flow := flow, dir := dir, evs := [], terms := [] }).put k
        { flow := flow, dir := dir, bg := bg, evs := newEvs, terms := [(none, { target := .null, flow := flow })] }) k v0
        (by simp) (.inr (by simp [observable]))
      refine ⟨H1, ?_, h2⟩
      simpa using h1
    | some p =>
      obtain ⟨hpk, ⟨t, ht, htt⟩, hcons⟩ := hl
      simp only [setParent, setRef, addChild, put_self, ne_eq, not_true_eq_false, if_false, Out.bind, put_ne _ _ hpk]
      cases bal with
      | false =>
        simp only [initRest, Bool.false_eq_true, if_false, Out.bind]
        refine (setCached_new _ k v0 ?_ ?_).imp fun H1 h => ⟨h.1, h.2.1⟩
        · simp
        · right
          have := (termOf_none (H p) t ht).2
          simp only [observable, put_self, put_ne _ _ hpk, put_ne _ _ hpk.symm]
          simp only [Bool.false_eq_true, if_false]
          have h2 : termOf { H p with kids := PySet.add (H p).kids k } (.one .cached) = .ok t := this
          rw [h2]
          simp only [Except.map, isSubfrag]
          cases htg : t.target with
          | null => rfl
          | process => rfl
          | frag j => simp [htt j htg]
      | true =>
        have hv : v0 = some 1 := by have := hb rfl; rw [hv0] at this; exact Option.some.inj this
        subst hv
        simp only [initRest, if_true, setBalance, setConserved, put_self, put_ne _ _ hpk.symm, hcons rfl, Bool.false_eq_true,
          if_false, ne_eq, not_true_eq_false, Option.isSome_none, Out.bind]
        refine (setCached_new _ k _ ?_ (.inl rfl)).imp fun H1 h => ⟨h.1, h.2.1⟩
        simp
  obtain ⟨H1, hc1, hc2⟩ := hcon
  refine ⟨H1.put k { H1 k with evs := loadRest (((saveEvs evs).del "0").del "1") ((H1 k).evs.set .observed v1) },
    by simp only [fromJson, hs0, hv0, hc1, Out.bind, hs1, hv1], ?_⟩
  intro key
  simp only [put_self, hc2]
  have hset : (Dict.set [(Key.cached, v0), (Key.observed, some (0 : ℚ))] .observed v1) = [(.cached, v0), (.observed, v1)] := rfl
  rw [hset]
  have hF : ∀ key, key = Key.cached ∨ key = .observed →
      (loadRest (((saveEvs evs).del "0").del "1") [(.cached, v0), (.observed, v1)]).get? key =
        Dict.get? [(Key.cached, v0), (.observed, v1)] key := by
    intro key hk
    have hne : ∀ s, nameKey s ≠ key := by
      intro s; unfold nameKey; rcases hk with rfl | rfl <;> split <;> simp
    have : ∀ (j : Dict String (Option ℚ)) (i : Dict Key (Option ℚ)), (loadRest j i).get? key = i.get? key := by
      intro j
      induction j with
      | nil => intro i; rfl
      | cons kv j ih => intro i; rw [loadRest, List.foldl_cons]; exact (ih _).trans (Dict.get?_set_ne _ _ (hne _))
    exact this _ _
  by_cases h0 : key = .cached
  · rw [hF key (.inl h0), h0, hv0]; rfl
  by_cases h1 : key = .observed
  · rw [hF key (.inr h1), h1, hv1]; rfl
  exact load_get evs _ hw key h0 h1 (by simp [Dict.get?, Ne.symm h0, Ne.symm h1])

/-! ### which tables are well-named -/

theorem wellNamed_new : WellNamed newEvs := by
  rw [wellNamed_iff]
  refine ⟨by decide +kernel, by decide +kernel, by decide +kernel, ?_⟩
  intro k hk
  have : k = .cached ∨ k = .observed := by simpa [newEvs, Dict.keys] using hk
  rcases this with rfl | rfl <;> trivial

theorem wellNamed_set {evs : Dict Key (Option ℚ)} (h : WellNamed evs) (k : Key) (v : Option ℚ) (hk : GoodKey k) :
    WellNamed (evs.set k v) := by
  rw [wellNamed_iff] at h ⊢
  refine ⟨Dict.nodup_keys_set _ _ _ h.1, (Dict.mem_keys_set ..).2 (.inr h.2.1), (Dict.mem_keys_set ..).2 (.inr h.2.2.1), ?_⟩
  intro k' hk'
  rcases (Dict.mem_keys_set ..).1 hk' with rfl | hk'
  · exact hk
  · exact h.2.2.2 k' hk'

/-- the call does not use a scenario name with the delimiter -/
def EvCall.plain : EvCall → Prop
  | .set _ (.one (.str s)) _ => hasDelim s.toList = false
  | _ => True

theorem singleKey_good {sc : Scen} {k : Key} (h : singleKey sc = .ok k)
    (hp : ∀ s, sc = .one (.str s) → hasDelim s.toList = false) : GoodKey k := by
  unfold singleKey at h
  split at h
  · rw [← Except.ok.inj h]; trivial
  · exact absurd h (by simp)
  · rename_i k0 hk0
    rw [← Except.ok.inj h]
    unfold evKey
    split
    · trivial
    · trivial
    · rename_i n0 n1
      cases k0 with
      | cached => trivial
      | observed => trivial
      | tup l => exact absurd rfl (hk0 l)
      | str s =>
        exact ⟨fun h => n0 (by rw [h]), fun h => n1 (by rw [h]), hp s rfl⟩
  · exact absurd h (by simp)

/-- **C32** every table reached by setting values under names without the delimiter is well-named, on whatever fragments,
calls returning or raising -/
theorem wellNamed_run (H : Heap F Q) (calls : List EvCall) (hp : ∀ c ∈ calls, c.plain) (i : ℕ) (h : WellNamed (H i).evs) :
    WellNamed (calls.foldl EvCall.run H i).evs := by
  induction calls generalizing H with
  | nil => exact h
  | cons c cs ih =>
    rw [List.foldl_cons]
    refine ih _ (fun c' hc' => hp c' (List.mem_cons_of_mem _ hc')) ?_
    have hput : ∀ (H : Heap F Q) (j : ℕ) (k : Key) (v : Option ℚ), WellNamed (H i).evs → GoodKey k →
        WellNamed ((putEv H j k v) i).evs := by
      intro H j k v h hk
      rw [putEv_evs]
      split
      · rename_i hij; subst hij; exact wellNamed_set h k v hk
      · exact h
    have hset : ∀ (j : ℕ) (sc : Scen) (v : Option ℚ), (∀ s, sc = .one (.str s) → hasDelim s.toList = false) →
        WellNamed ((setEv H j sc v).state i).evs := by
      intro j sc v hs
      unfold setEv
      cases observable H j sc with
      | error e => exact h
      | ok b =>
        cases b with
        | false => exact h
        | true =>
          cases hk : singleKey sc with
          | error e => exact h
          | ok k => exact hput H j k v h (singleKey_good hk hs)
    have hpc := hp c List.mem_cons_self
    cases c with
    | set j sc v => exact hset j sc v (by rintro s rfl; exact hpc)
    | cached j v =>
      simp only [EvCall.run, setCached]
      split
      · exact h
      · split
        · exact h
        · exact hset j _ v (by simp)
    | observed j v =>
      simp only [EvCall.run, setObserved]
      cases observable H j .none with
      | error e => exact h
      | ok b =>
        cases b with
        | false => exact h
        | true => exact hput H j _ v h trivial
    | reset j => exact hput H j _ _ h trivial
    | clear j =>
      simp only [EvCall.run, clearEvs, Heap.put]
      by_cases hij : i = j
      · subst hij; rw [Function.update_self]; exact wellNamed_new
      · rw [Function.update_of_ne hij]; exact h

/-- **C32** every table that was loaded is well-named, so loading and saving again gives it back -/
theorem wellNamed_load (E : Env F Q) (H H' : Heap F Q) (k : ℕ) (flow : F) (dir : Dir) (parent : Option ℕ) (bal bg : Bool)
    (hp : parent ≠ some k) (j : Dict String (Option ℚ)) (hj : j.keys.Nodup) (h : fromJson E H k flow dir parent bal bg j = .ok () H') :
    WellNamed (H' k).evs := by
  unfold fromJson at h
  cases h0 : j.get? "0" with
  | none => rw [h0] at h; simp at h
  | some v0 =>
    rw [h0] at h
    simp only at h
    cases hc : construct E H k flow dir parent v0 bal bg with
    | err e H1 => rw [hc] at h; simp [Out.bind] at h
    | ok u H1 =>
      rw [hc] at h
      simp only [Out.bind] at h
      cases h1 : (j.del "0").get? "1" with
      | none => rw [h1] at h; simp at h
      | some v1 =>
        rw [h1] at h
        injection h with _ h
        rw [← h, put_self]
        simp only
        have hW1 : WellNamed (H1 k).evs := by
          have hcw : ∀ (H : Heap F Q) (v : Option ℚ), (H k).evs = newEvs → ∀ H1, setCached H k v = .ok () H1 →
              WellNamed (H1 k).evs := by
            intro H v he H1 h
            have := wellNamed_run H [.cached k v] (by simp [EvCall.plain]) k (by rw [he]; exact wellNamed_new)
            simpa [EvCall.run, h, Out.state] using this
          have hir : ∀ (H : Heap F Q), ∀ H1, initRest E H k bal bg v0 = .ok () H1 → WellNamed (H1 k).evs := by
            intro H H1 h
            unfold initRest at h
            cases hb : (if bal then setBalance E H k else .ok () H) with
            | err e H2 => rw [hb] at h; simp [Out.bind] at h
            | ok u H2 =>
              rw [hb] at h
              exact hcw _ v0 (by simp) H1 h
          unfold construct at hc
          cases parent with
          | none => exact hir _ _ hc
          | some p =>
            simp only at hc
            cases hs : setParent (H.put k { flow := flow, dir := dir, evs := [], terms := [] }) k p with
            | err e H2 => rw [hs] at hc; simp [Out.bind] at hc
            | ok u H2 => rw [hs] at hc; exact hir _ _ hc
        have hl : ∀ (j : Dict String (Option ℚ)) (i : Dict Key (Option ℚ)), (∀ s ∈ j.keys, s ≠ "0" ∧ s ≠ "1") →
            WellNamed i → WellNamed (loadRest j i) := by
          intro j
          induction j with
          | nil => intro i _ h; exact h
          | cons kv j ih =>
            intro i hs hi
            rw [loadRest, List.foldl_cons]
            refine ih _ (fun s h => hs s (List.mem_cons_of_mem _ h)) (wellNamed_set hi _ _ ?_)
            obtain ⟨n0, n1⟩ := hs kv.1 List.mem_cons_self
            unfold nameKey
            split
            · rename_i hd; exact ⟨kv.1, hd, rfl⟩
            · rename_i hd; exact ⟨n0, n1, by simpa using hd⟩
        refine hl _ _ ?_ (wellNamed_set hW1 _ _ trivial)
        intro s hs
        rw [Dict.mem_keys_del _ (Dict.nodup_keys_del _ _ hj), Dict.mem_keys_del _ hj] at hs
        exact ⟨by tauto, by tauto⟩

/-! ### examples -/

/-- a table with scenarios, one of them a tuple from an earlier load -/
def exEvs : Dict Key (Option ℚ) :=
  [(.cached, some 2), (.observed, some (3/2)), (.str "high", some 5), (.tup ["a", "", "b_"], none), (.str "_", some 0)]

example : WellNamed exEvs := by
  rw [wellNamed_iff]
  refine ⟨by decide +kernel, by decide +kernel, by decide +kernel, ?_⟩
  intro k hk
  simp only [exEvs, Dict.keys, List.map_cons, List.map_nil, List.mem_cons, List.not_mem_nil, or_false] at hk
  rcases hk with rfl | rfl | rfl | rfl | rfl
  · trivial
  · trivial
  · exact ⟨by decide, by decide, by decide +kernel⟩
  · exact ⟨"a________b_", by decide +kernel, by decide +kernel⟩
  · exact ⟨by decide, by decide, by decide +kernel⟩

example : Loadable exH 20 (some 0) false := ⟨by decide, ⟨_, rfl, by intro j h; injection h with h; exact h.symm⟩, by simp⟩

example : (match fromJson exE exH 20 3 .input (some 0) false false (saveEvs exEvs) with
    | .ok _ H => some (H 20).evs
    | _ => none) = some [(.cached, some 2), (.observed, some (3/2)), (.str "high", some 5), (.tup ["a", "", "b_"], none),
      (.str "_", some 0)] := by decide +kernel

/-- **C32 fails** for a balance flow whose cached value was set before it was made the balance flow: it cannot be loaded -/
theorem balance_not_loaded : ∃ H1 H2 H3, construct exE exH 20 7 .input (some 4) (some 5) false false = .ok () H1 ∧
    setBalance exE H1 20 = .ok () H2 ∧ (H2 20).bal = true ∧
    (fromJson exE exH 20 7 .input (some 4) true false (saveEvs (H2 20).evs)) = .err .dependentFragment H3 :=
  ⟨_, _, _, rfl, rfl, rfl, rfl⟩

/-- **C32 fails** for names with the delimiter: the value is stored under a tuple, and not found under the name -/
theorem delimiter_lost : ∃ H1 H2, setEv exH 0 (.one (.str "a____b")) (some 7) = .ok () H1 ∧
    fromJson exE exH 20 1 .input none false false (saveEvs (H1 0).evs) = .ok () H2 ∧
    exchangeValue (H1 0) (.one (.str "a____b")) false = .ok 7 ∧ exchangeValue (H2 20) (.one (.str "a____b")) false = .ok 10 :=
  ⟨putEv exH 0 (.str "a____b") (some 7), _, rfl, rfl, by decide +kernel, by decide +kernel⟩

end Frg
