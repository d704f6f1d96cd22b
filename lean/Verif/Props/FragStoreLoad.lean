import Verif.Props.FragStoreSave
import Verif.Props.FragmentJson

/-!
C118: saving the fragments of a foreground and loading them gives the same fragments.
-/

namespace FgS
open Frg (Key Dir saveEvs loadRest WellNamed)

/-! ### specification -/

/-- a fragment in one of the trees of the foreground -/
def In (fg : Fore) (u : String) : Prop := ∃ r, Root fg r ∧ Below fg u r

/-- among the entities `base`, the key finds the flow and nothing else -/
def Finds (env : Env) (base : Ix) (key : String) (x : Flow) : Prop :=
  '/' ∉ key.toList ∧ ∃ w l, env.tu key = some w ∧ base.uuids.get? w = some [l] ∧ base.links.get? l = some (.flow x)

/-- a property table as assignments make it, all of whose names can be assigned again -/
structure GoodTags (env : Env) (tags : LDict.St String Val) : Prop extends PlainTags env tags where
  settable : ∀ kv ∈ tags, kv.1 ≠ "EntityType" ∧ env.lower kv.1 ∉ ["parent", "entityid", "entitytype", "externalid", "origin"]
  initial : ∀ k ∈ ["Name", "Comment", "StageName"], (LDict.getItem env.lower tags k).isSome = true

/-- a termination whose node and flow can be found again -/
structure GoodTerm (env : Env) (base : Ix) (fg : Fore) (f : Frag) (t : Term) : Prop where
  frag : ∀ v, t.node = .frag v → In fg v
  ent : ∀ e, t.node = .ent e → e.origin ≠ env.ref ∧ e.origin ≠ "foreground" ∧ env.fetch e.origin e.ext = .ok (.ent e)
  localFlow : ∀ v, t.node = .frag v → t.flow.eq f.flow = false → t.flow.origin = env.ref →
    Finds env base t.flow.ext t.flow ∧ ∀ v g, In fg v → fg.frags.get? v = some g → extOf v g ≠ t.flow.ext
  farFlow : t.node ≠ .null → t.flow.eq f.flow = false → ¬ ((∃ v, t.node = .frag v) ∧ t.flow.origin = env.ref) →
    env.fetch t.flow.origin t.flow.ext = .ok (.flow t.flow)

/-- the foreground can be saved and loaded: its names and uuids are unambiguous, its tables hold nothing that a file cannot -/
structure Good (env : Env) (base : Ix) (fg : Fore) : Prop where
  slash : ∀ l ∈ base.links.keys, '/' ∈ l.toList
  noNames : base.names = []
  notUuid : env.tu "None" = none
  uuid : ∀ u, In fg u → env.tu u = some u ∧ '/' ∉ u.toList ∧ u ∉ base.uuids.keys
  name : ∀ u f, In fg u → fg.frags.get? u = some f → '/' ∉ (extOf u f).toList ∧ extOf u f ≠ "None" ∧ f.ext ≠ some u ∧
    link env.ref (extOf u f) ∉ base.links.keys
  nameOnce : ∀ u f v g, In fg u → In fg v → fg.frags.get? u = some f → fg.frags.get? v = some g → extOf u f = extOf v g → u = v
  nameUuid : ∀ u f v, In fg u → In fg v → fg.frags.get? u = some f → extOf u f = v → u = v
  flow : ∀ u f, In fg u → fg.frags.get? u = some f → Finds env base f.flow.uuid f.flow ∧
    ∀ v g, In fg v → fg.frags.get? v = some g → extOf v g ≠ f.flow.uuid
  tags : ∀ u f, In fg u → fg.frags.get? u = some f → GoodTags env f.tags
  evs : ∀ u f, In fg u → fg.frags.get? u = some f → WellNamed f.evs ∧ (f.bal = true → f.evs.get? .cached = some (some 1))
  scenarios : ∀ u f, In fg u → fg.frags.get? u = some f → f.terms.keys.Nodup ∧ none ∈ f.terms.keys ∧
    ∀ s, some s ∈ f.terms.keys → s ≠ "default" ∧ s ≠ "null"
  terms : ∀ u f sc t, In fg u → fg.frags.get? u = some f → f.terms.get? sc = some t → GoodTerm env base fg f t
  balParent : ∀ u f, In fg u → fg.frags.get? u = some f → f.bal = true → f.parent ≠ none
  balOnce : ∀ c d p f g, Parent fg c p → Parent fg d p → fg.frags.get? c = some f → fg.frags.get? d = some g →
    f.bal = true → g.bal = true → c = d
  consBal : ∀ c p f g, Parent fg c p → fg.frags.get? c = some f → fg.frags.get? p = some g → f.bal = true → g.cons = f.flow.refQ
  consNone : ∀ p g, fg.frags.get? p = some g → (∀ c f, Parent fg c p → fg.frags.get? c = some f → f.bal = false) → g.cons = none

/-- the same termination: a flow that the library considers equal to the fragment's own is replaced by that -/
def SameTerm (f : Frag) (t t' : Term) : Prop :=
  t'.node = t.node ∧ (t.node ≠ .null → t'.dir = t.dir ∧ t'.descend = t.descend ∧
    (t'.flow = t.flow ∨ (t.flow.eq f.flow = true ∧ t'.flow = f.flow)))

/-- the same fragment in all but its terminations -/
structure Core (env : Env) (f f' : Frag) : Prop where
  ext : f'.ext = f.ext
  parent : f'.parent = f.parent
  flow : f'.flow = f.flow
  dir : f'.dir = f.dir
  priv : f'.priv = f.priv
  bg : f'.bg = f.bg
  bal : f'.bal = f.bal
  evs : ∀ k, f'.evs.get? k = f.evs.get? k
  tags : ∀ k, LDict.getItem env.lower f'.tags k = LDict.getItem env.lower f.tags k

/-- the same fragment -/
structure Same (env : Env) (f f' : Frag) : Prop extends Core env f f' where
  cons : f'.cons = f.cons
  kids : ∀ c, c ∈ f'.kids ↔ c ∈ f.kids
  terms : ∀ sc, (f.terms.get? sc = none → f'.terms.get? sc = none) ∧
    ∀ t, f.terms.get? sc = some t → ∃ t', f'.terms.get? sc = some t' ∧ SameTerm f t t'

/-! ### sorted tables -/

theorem sortK_perm {V : Type} (d : List (String × V)) : (sortK d).Perm d := List.perm_insertionSort _ _

theorem sortK_nodup {V : Type} {d : Dict String V} (h : d.keys.Nodup) : (Dict.keys (sortK d)).Nodup :=
  ((sortK_perm d).map Prod.fst).nodup_iff.2 h

theorem sortK_keys {V : Type} (d : Dict String V) (k : String) : k ∈ Dict.keys (sortK d) ↔ k ∈ d.keys :=
  ((sortK_perm d).map Prod.fst).mem_iff

theorem sortK_get {V : Type} {d : Dict String V} (h : d.keys.Nodup) (k : String) : Dict.get? (sortK d) k = d.get? k := by
  cases hk : d.get? k with
  | none =>
    rw [← Dict.not_mem_keys_iff, sortK_keys, Dict.not_mem_keys_iff, hk]
  | some v =>
    exact Dict.get?_eq_some_of_mem _ (sortK_nodup h) ((sortK_perm d).mem_iff.2 (Dict.mem_of_get?_eq_some _ hk))

/-! ### exchange values -/

theorem loadEvs_save (bal : Bool) (evs : Dict Key (Option ℚ)) (hw : WellNamed evs)
    (hb : bal = true → evs.get? .cached = some (some 1)) :
    ∃ d, loadEvs bal (saveEvs evs) = .ok d ∧ ∀ k, d.get? k = evs.get? k := by
  obtain ⟨hs0, hs1⟩ := Frg.save_get evs hw
  have hw' := (Frg.wellNamed_iff evs).1 hw
  obtain ⟨hn, hc, ho, hg⟩ := hw'
  obtain ⟨v0, hv0⟩ := (Dict.mem_keys_iff evs _).1 hc
  obtain ⟨v1, hv1⟩ := (Dict.mem_keys_iff evs _).1 ho
  rw [hv0] at hs0; rw [hv1] at hs1
  refine ⟨loadRest (sortK (((saveEvs evs).del "0").del "1")) [(.cached, v0), (.observed, v1)], ?_, ?_⟩
  · rw [loadEvs, hs0]
    simp only
    rw [if_neg, hs1]
    rintro ⟨hb1, hne⟩
    rw [hb hb1] at hv0
    exact hne (Option.some.inj hv0).symm
  intro key
  have hinj : ∀ k ∈ evs.keys, ∀ k' ∈ evs.keys, Frg.keyName k = Frg.keyName k' → k = k' :=
    fun k hk k' hk' => Frg.keyName_inj k k' (hg k hk) (hg k' hk')
  have hsn : (saveEvs evs).keys.Nodup := Frg.nodup_fold Frg.keyName evs [] (by simp [Dict.keys])
  have hdn : (((saveEvs evs).del "0").del "1").keys.Nodup := Dict.nodup_keys_del _ _ (Dict.nodup_keys_del _ _ hsn)
  have hmem : ∀ s, s ∈ Dict.keys (sortK (((saveEvs evs).del "0").del "1")) ↔
      s ≠ "0" ∧ s ≠ "1" ∧ ∃ k ∈ evs.keys, Frg.keyName k = s := by
    intro s
    rw [sortK_keys, Dict.mem_keys_del _ (Dict.nodup_keys_del _ _ hsn), Dict.mem_keys_del _ hsn, saveEvs, Frg.keys_fold]
    simp only [Dict.keys, List.map_nil, List.not_mem_nil, false_or]
    tauto
  have hback : ∀ k ∈ evs.keys, Frg.keyName k ≠ "0" → Frg.keyName k ≠ "1" → Frg.nameKey (Frg.keyName k) = k := by
    intro k hk h0 h1
    exact Frg.nameKey_keyName k (hg k hk) (by rintro rfl; exact h0 rfl) (by rintro rfl; exact h1 rfl)
  have hinj2 : ∀ s ∈ Dict.keys (sortK (((saveEvs evs).del "0").del "1")),
      ∀ s' ∈ Dict.keys (sortK (((saveEvs evs).del "0").del "1")), Frg.nameKey s = Frg.nameKey s' → s = s' := by
    intro s hs s' hs' he
    obtain ⟨a0, a1, k, hk, rfl⟩ := (hmem s).1 hs
    obtain ⟨b0, b1, k', hk', rfl⟩ := (hmem s').1 hs'
    rw [hback k hk a0 a1, hback k' hk' b0 b1] at he
    rw [he]
  have hF := Frg.fold_rename Frg.nameKey (sortK (((saveEvs evs).del "0").del "1")) [(.cached, v0), (.observed, v1)]
    (sortK_nodup hdn) hinj2 key
  by_cases h0 : key = .cached
  · subst h0
    rw [loadRest, hF.2 (by intro s _; unfold Frg.nameKey; split <;> simp), hv0]; rfl
  by_cases h1 : key = .observed
  · subst h1
    rw [loadRest, hF.2 (by intro s _; unfold Frg.nameKey; split <;> simp), hv1]; rfl
  by_cases hk : key ∈ evs.keys
  · have n0 : Frg.keyName key ≠ "0" := fun h => h0 (Frg.keyName_zero key (hg key hk) h)
    have n1 : Frg.keyName key ≠ "1" := fun h => h1 (Frg.keyName_one key (hg key hk) h)
    rw [loadRest, hF.1 (Frg.keyName key) ((hmem _).2 ⟨n0, n1, key, hk, rfl⟩) (hback key hk n0 n1), sortK_get hdn, Dict.get?_del',
      if_neg n1.symm, Dict.get?_del', if_neg n0.symm]
    exact (Frg.fold_rename Frg.keyName evs [] hn hinj (Frg.keyName key)).1 key hk rfl
  · rw [loadRest, hF.2]
    · rw [(Dict.not_mem_keys_iff evs key).1 hk]; simp [Dict.get?, Ne.symm h0, Ne.symm h1]
    · intro s hs he
      obtain ⟨a0, a1, k', hk', rfl⟩ := (hmem s).1 hs
      rw [hback k' hk' a0 a1] at he
      subst he; exact hk hk'

/-! ### properties -/

theorem getItem_iff {lower : String → String} {d : LDict.St String Val} (h : LDict.Distinct lower d) (x : String) (v : Val) :
    LDict.getItem lower d x = some v ↔ ∃ k, (k, v) ∈ d ∧ lower k = lower x := by
  induction d with
  | nil => simp [LDict.getItem]
  | cons p d ih =>
    obtain ⟨a, b⟩ := p
    have h' : lower a ∉ (d.map fun p => lower p.1) ∧ LDict.Distinct lower d := by
      simpa [LDict.Distinct] using h
    have ih := ih h'.2
    by_cases e : lower a = lower x
    · have : LDict.getItem lower ((a, b) :: d) x = some b := by simp [LDict.getItem, e]
      rw [this]
      constructor
      · rintro h1; exact ⟨a, by simp [Option.some.inj h1], e⟩
      · rintro ⟨k, hk, hx⟩
        rcases List.mem_cons.1 hk with he | hk
        · rw [(Prod.mk.inj he).2]
        · exact absurd (List.mem_map.2 ⟨(k, v), hk, by rw [hx, e]⟩) h'.1
    · have : LDict.getItem lower ((a, b) :: d) x = LDict.getItem lower d x := by simp [LDict.getItem, e]
      rw [this, ih]
      constructor
      · rintro ⟨k, hk, hx⟩; exact ⟨k, List.mem_cons_of_mem _ hk, hx⟩
      · rintro ⟨k, hk, hx⟩
        rcases List.mem_cons.1 hk with he | hk
        · exact absurd ((Prod.mk.inj he).1 ▸ hx) e
        · exact ⟨k, hk, hx⟩

theorem loadTags_spec (env : Env) (l d : LDict.St String Val) (hs : ∀ kv ∈ l, barred env kv.1 = false)
    (hd : LDict.Distinct env.lower l) :
    ∃ d', loadTags env l d = .ok d' ∧ ∀ x, LDict.getItem env.lower d' x =
      if (LDict.getItem env.lower l x).isSome then LDict.getItem env.lower l x else LDict.getItem env.lower d x := by
  induction l generalizing d with
  | nil => exact ⟨d, rfl, fun x => by simp [LDict.getItem]⟩
  | cons p l ih =>
    obtain ⟨a, b⟩ := p
    have h' : env.lower a ∉ (l.map fun p => env.lower p.1) ∧ LDict.Distinct env.lower l := by
      simpa [LDict.Distinct] using hd
    obtain ⟨d', h1, h2⟩ := ih (LDict.set env.lower d a b) (fun kv hkv => hs kv (List.mem_cons_of_mem _ hkv)) h'.2
    refine ⟨d', by rw [loadTags, hs (a, b) List.mem_cons_self]; exact h1, fun x => ?_⟩
    rw [h2, LDict.getItem_set]
    by_cases e : env.lower a = env.lower x
    · have hl : LDict.getItem env.lower l x = none := LDict.getItem_none (by rw [← e]; exact h'.1)
      have : LDict.getItem env.lower ((a, b) :: l) x = some b := by simp [LDict.getItem, e]
      simp [hl, this, e]
    · have : LDict.getItem env.lower ((a, b) :: l) x = LDict.getItem env.lower l x := by simp [LDict.getItem, e]
      simp [this, e]

theorem loadTags_save (env : Env) (tags : LDict.St String Val) (h : GoodTags env tags) :
    ∃ d, loadTags env (sortK tags) newTags = .ok d ∧ ∀ x, LDict.getItem env.lower d x = LDict.getItem env.lower tags x := by
  have hp := sortK_perm tags
  have hd : LDict.Distinct env.lower (sortK tags) := (hp.map _).nodup_iff.2 h.distinct
  obtain ⟨d, h1, h2⟩ := loadTags_spec env (sortK tags) newTags (by
    intro kv hkv
    obtain ⟨h1, h2⟩ := h.settable kv (hp.mem_iff.1 hkv)
    simp only [barred, Bool.or_eq_false_iff, beq_eq_false_iff_ne, List.contains_eq_mem, decide_eq_false_iff_not]
    exact ⟨h1, h2⟩) hd
  refine ⟨d, h1, fun x => ?_⟩
  rw [h2]
  have hs : LDict.getItem env.lower (sortK tags) x = LDict.getItem env.lower tags x := by
    apply Option.ext
    intro v
    rw [getItem_iff hd, getItem_iff h.distinct]
    simp [hp.mem_iff]
  rw [hs]
  split
  · rfl
  · rename_i hn
    have hn : LDict.getItem env.lower tags x = none := by simpa using hn
    rw [hn]
    apply LDict.getItem_none
    have key : ∀ k ∈ ["Name", "Comment", "StageName"], env.lower x ≠ env.lower k := by
      intro k hk e
      have := h.initial k hk
      rw [show LDict.getItem env.lower tags k = LDict.getItem env.lower tags x by simp [LDict.getItem, e], hn] at this
      simp at this
    have k1 := key "Name" (by simp)
    have k2 := key "Comment" (by simp)
    have k3 := key "StageName" (by simp)
    simp [newTags, k1, k2, k3]

/-! ### looking up while loading -/

/-- the state after the fragments `A` have been made -/
structure Mid (env : Env) (base : Ix) (fg : Fore) (A : List String) (st : Fore) : Prop where
  made : ∀ u f, u ∈ A → fg.frags.get? u = some f → ∃ f', st.frags.get? u = some f' ∧ Core env f f' ∧
    f'.terms = [(none, nullTerm f)] ∧ (∀ c, c ∈ f'.kids ↔ c ∈ f.kids ∧ c ∈ A) ∧
    ((∃ c g, c ∈ A ∧ Parent fg c u ∧ fg.frags.get? c = some g ∧ g.bal = true) → f'.cons = f.cons) ∧
    ((∀ c g, c ∈ A → Parent fg c u → fg.frags.get? c = some g → g.bal = false) → f'.cons = none)
  none : ∀ u, u ∉ A → st.frags.get? u = none
  link : ∀ u f, u ∈ A → fg.frags.get? u = some f → st.ix.links.get? (link env.ref (extOf u f)) = some (.frag u)
  linkB : ∀ l, (∀ u f, u ∈ A → fg.frags.get? u = some f → l ≠ FgS.link env.ref (extOf u f)) → st.ix.links.get? l = base.links.get? l
  name : ∀ u f x, u ∈ A → fg.frags.get? u = some f → f.ext = some x → st.ix.names.get? x = some (FgS.link env.ref x)
  nameB : ∀ x, (∀ u f, u ∈ A → fg.frags.get? u = some f → f.ext ≠ some x) → st.ix.names.get? x = .none
  uuid : ∀ u f, u ∈ A → fg.frags.get? u = some f → st.ix.uuids.get? u = some [FgS.link env.ref (extOf u f)]
  uuidB : ∀ w, w ∉ A → st.ix.uuids.get? w = base.uuids.get? w

theorem slash_link (o x : String) : '/' ∈ (link o x).toList := by simp [link]

theorem link_inj {o x y : String} (h : link o x = link o y) : x = y := by
  have := congrArg String.toList h
  simp only [link, String.toList_append, List.append_assoc] at this
  exact String.toList_inj.1 (List.append_cancel_left (List.append_cancel_left this))

theorem ordSingle (o : PyOrd String) (l : String) : (o.f [l]).head? = some l := by
  rw [List.perm_singleton.1 (o.perm [l])]; rfl

section
variable {env : Env} {o : PyOrd String} {base : Ix} {fg : Fore} {A : List String} {st : Fore}

theorem no_link (hg : Good env base fg) (hA : ∀ u ∈ A, In fg u) (hm : Mid env base fg A st) {key : String} (hk : '/' ∉ key.toList) :
    st.ix.links.has key = false := by
  rw [← Bool.not_eq_true, Dict.has_iff]
  intro h
  rw [Dict.mem_keys_iff] at h
  obtain ⟨v, hv⟩ := h
  rw [hm.linkB key (by rintro u f - - rfl; exact hk (slash_link _ _))] at hv
  exact hk (hg.slash key ((Dict.mem_keys_iff _ _).2 ⟨v, hv⟩))

theorem find_by_uuid (hg : Good env base fg) (hA : ∀ u ∈ A, In fg u) (hm : Mid env base fg A st) {u : String} {f : Frag} (hu : u ∈ A)
    (hf : fg.frags.get? u = some f) : getitem env o st.ix u = some (.frag u) := by
  obtain ⟨h1, h2, -⟩ := hg.uuid u (hA u hu)
  have hn : st.ix.names.get? u = none := by
    apply hm.nameB
    intro v g hv hgv he
    have : v = u := hg.nameUuid v g u (hA v hv) (hA u hu) hgv (by simp [extOf, he])
    subst this
    exact (hg.name v g (hA v hv) hgv).2.2.1 he
  simp only [getitem, keyToId, no_link hg hA hm h2, hn, h1, hm.uuid u f hu hf, ordSingle, Bool.false_eq_true, if_false,
    hm.link u f hu hf]

theorem find_by_name (hg : Good env base fg) (hA : ∀ u ∈ A, In fg u) (hm : Mid env base fg A st) {u : String} {f : Frag} (hu : u ∈ A)
    (hf : fg.frags.get? u = some f) : getitem env o st.ix (extOf u f) = some (.frag u) := by
  cases he : f.ext with
  | none => rw [extOf, he]; exact find_by_uuid hg hA hm hu hf
  | some x =>
    have hx : extOf u f = x := by simp [extOf, he]
    have hs := (hg.name u f (hA u hu) hf).1
    have hl := hm.link u f hu hf
    rw [hx] at hs hl ⊢
    simp only [getitem, keyToId, no_link hg hA hm hs, Bool.false_eq_true, if_false, hm.name u f x hu hf he, hl]

theorem find_None (hg : Good env base fg) (hA : ∀ u ∈ A, In fg u) (hm : Mid env base fg A st) : getitem env o st.ix "None" = none := by
  have hn : st.ix.names.get? "None" = none := by
    apply hm.nameB
    intro v g hv hgv he
    exact (hg.name v g (hA v hv) hgv).2.1 (by simp [extOf, he])
  simp only [getitem, keyToId, no_link hg hA hm (by decide : '/' ∉ "None".toList), hn, hg.notUuid, Bool.false_eq_true, if_false]

theorem find_flow (hg : Good env base fg) (hA : ∀ u ∈ A, In fg u) (hm : Mid env base fg A st) {key : String} {x : Flow}
    (hfd : Finds env base key x) (hne : ∀ v g, In fg v → fg.frags.get? v = some g → extOf v g ≠ key) :
    getitem env o st.ix key = some (.flow x) := by
  obtain ⟨hs, w, l, h1, h2, h3⟩ := hfd
  have hn : st.ix.names.get? key = none := by
    apply hm.nameB
    intro v g hv hgv he
    exact hne v g (hA v hv) hgv (by simp [extOf, he])
  have hw : w ∉ A := fun hw => (hg.uuid w (hA w hw)).2.2 ((Dict.mem_keys_iff _ _).2 ⟨_, h2⟩)
  have hl : st.ix.links.get? l = some (.flow x) := by
    rw [hm.linkB l, h3]
    rintro u f hu hf rfl
    exact (hg.name u f (hA u hu) hf).2.2.2 ((Dict.mem_keys_iff _ _).2 ⟨_, h3⟩)
  simp only [getitem, keyToId, no_link hg hA hm hs, hn, h1, hm.uuidB w hw, h2, ordSingle, Bool.false_eq_true, if_false, hl]

/-! ### making one fragment -/

theorem mid_step (hg : Good env base fg) (ht : Trees fg) (hA : ∀ u ∈ A, In fg u) (hm : Mid env base fg A st)
    (hcl : ∀ c p, c ∈ A → Parent fg c p → p ∈ A) {u : String} {f : Frag} (huA : u ∉ A) (hu : In fg u) (hf : fg.frags.get? u = some f)
    (hp : ∀ p, f.parent = some p → p ∈ A) {j : Rec} (hj : serialize env fg u f = .ok j) :
    ∃ st', loadOne env o st j = .ok st' ∧ Mid env base fg (u :: A) st' := by
  obtain ⟨j', hj', e1, e2, e3, e4, e5, e6, e7, e8, e9, e10, e11⟩ := serialize_spec env fg u f (hg.tags u f hu hf).toPlainTags
  rw [hj] at hj'; obtain rfl := Except.ok.inj hj'
  -- the parent
  have hpar : parentOf env o st (parentName fg f) = .ok f.parent := by
    cases hpp : f.parent with
    | none => simp [parentOf, parentName, hpp, find_None hg hA hm]
    | some p =>
      obtain ⟨g, hgp⟩ := ht.parent u p ⟨f, hf, hpp⟩
      simp [parentOf, parentName, hpp, hgp, find_by_name hg hA hm (hp p hpp) hgp]
  have hflow : flowOf env o st f.flow.uuid = .ok (f.flow, st.ix) := by
    obtain ⟨h1, h2⟩ := hg.flow u f hu hf
    simp [flowOf, find_flow hg hA hm h1 h2]
  obtain ⟨evs, he1, he2⟩ := loadEvs_save f.bal f.evs (hg.evs u f hu hf).1 (hg.evs u f hu hf).2
  obtain ⟨tags, ht1, ht2⟩ := loadTags_save env f.tags (hg.tags u f hu hf)
  obtain ⟨hn1, hn2, hn3, hn4⟩ := hg.name u f hu hf
  have hlk : st.ix.links.has (link env.ref (extOf u f)) = false := by
    rw [← Bool.not_eq_true, Dict.has_iff, Dict.mem_keys_iff]
    rintro ⟨v, hv⟩
    rw [hm.linkB _ (by
      intro w g hw hgw e
      have := hg.nameOnce u f w g hu (hA w hw) hf hgw (link_inj e)
      exact huA (this ▸ hw))] at hv
    exact hn4 ((Dict.mem_keys_iff _ _).2 ⟨v, hv⟩)
  have huu : ¬ Parent fg u u := by
    intro h; obtain ⟨rank, hr⟩ := ht.acyclic; exact absurd (hr _ _ h) (by omega)
  -- the parent's tables
  obtain ⟨fr, hfr1, hfr2⟩ : ∃ fr, adopt st u f.parent f.flow f.bal = .ok fr ∧
      ∀ v, fr.get? v = match f.parent with
        | none => st.frags.get? v
        | some p => if v = p then (st.frags.get? p).map fun g =>
            { g with kids := PySet.add g.kids u, cons := if f.bal then f.flow.refQ else g.cons } else st.frags.get? v := by
    cases hpp : f.parent with
    | none =>
      have hb : f.bal = false := by
        cases hb : f.bal with
        | false => rfl
        | true => exact absurd hpp (hg.balParent u f hu hf hb)
      exact ⟨st.frags, by simp [adopt, hb], fun v => rfl⟩
    | some p =>
      obtain ⟨g, hgp⟩ := ht.parent u p ⟨f, hf, hpp⟩
      obtain ⟨g', hg1, hcore, -, hkids, -, hcons⟩ := hm.made p g (hp p hpp) hgp
      cases hb : f.bal with
      | false =>
        refine ⟨_, by simp only [adopt, hg1, Bool.false_eq_true, if_false]; rfl, fun v => ?_⟩
        simp only [Dict.get?_set, hg1, Option.map_some]
        by_cases h : v = p
        · simp [h]
        · simp [h, Ne.symm h]
      | true =>
        have hcn : g'.cons = none := by
          apply hcons
          intro c g2 hc hpc hgc
          cases hb2 : g2.bal with
          | false => rfl
          | true =>
            have := hg.balOnce c u p g2 f hpc ⟨f, hf, hpp⟩ hgc hf hb2 hb
            exact absurd (this ▸ hc) huA
        refine ⟨_, by simp only [adopt, hg1, if_true, hcn, Option.isSome_none, Bool.false_eq_true, if_false]; rfl, fun v => ?_⟩
        simp only [Dict.get?_set, hg1, Option.map_some]
        by_cases h : v = p
        · simp [h]
        · simp [h, Ne.symm h]
  have hxu : (if extOf u f ≠ u then some (extOf u f) else none) = f.ext := by
    cases hx : f.ext with
    | none => simp [extOf, hx]
    | some x =>
      have : x ≠ u := by rintro rfl; exact hn3 hx
      simp [extOf, hx, this]
  refine ⟨_, by
    simp only [loadOne, str?, bool?, dir?, evs?, tags?, e1, e2, e3, e4, e5, e6, e7, e8, e9, e11, hpar, hflow, hfr1, he1, ht1, bind,
      Except.bind, hlk, Bool.false_eq_true, if_false]
    rfl, ?_⟩
  rw [hxu]
  have hpf : ∀ p, f.parent = some p → Parent fg u p := fun p hp => ⟨f, hf, hp⟩
  have hst : ∀ v ∈ A, v ≠ u := fun v hv e => huA (e ▸ hv)
  have hnames : (if extOf u f ≠ u then { st.ix with names := st.ix.names.set (extOf u f) (link env.ref (extOf u f)) } else st.ix) =
      { st.ix with names := match f.ext with | none => st.ix.names | some x => st.ix.names.set x (link env.ref x) } := by
    cases hx : f.ext with
    | none => simp [extOf, hx]
    | some x =>
      have : x ≠ u := by rintro rfl; exact hn3 hx
      simp [extOf, hx, this]
  rw [hnames]
  constructor
  case made =>
    intro v g hv hgv
    rcases List.mem_cons.1 hv with rfl | hv
    · rw [hf] at hgv; obtain rfl := Option.some.inj hgv
      refine ⟨_, Dict.get?_set_self _ _ _, ⟨rfl, rfl, rfl, rfl, rfl, rfl, rfl, he2, ht2⟩, rfl, ?_, ?_, ?_⟩
      · intro c
        simp only [List.not_mem_nil, false_iff, not_and]
        intro hc hcA
        have hpc := (ht.kids v f c hf).1 hc
        rcases List.mem_cons.1 hcA with rfl | hcA
        · exact huu hpc
        · exact huA (hcl c v hcA hpc)
      · rintro ⟨c, g, hc, hpc, -⟩
        rcases List.mem_cons.1 hc with rfl | hc
        · exact absurd hpc huu
        · exact absurd (hcl c v hc hpc) huA
      · intro _; rfl
    · obtain ⟨g', h1, h2, h3, h4, h5, h6⟩ := hm.made v g hv hgv
      have hvu := hst v hv
      have hkey : ∀ F : Frag, ¬ Parent fg u v → ∃ f', (fr.set u F).get? v = some f' ∧ Core env g f' ∧
          f'.terms = [(none, nullTerm g)] ∧ (∀ c, c ∈ f'.kids ↔ c ∈ g.kids ∧ c ∈ u :: A) ∧
          ((∃ c g, c ∈ u :: A ∧ Parent fg c v ∧ fg.frags.get? c = some g ∧ g.bal = true) → f'.cons = g.cons) ∧
          ((∀ c g, c ∈ u :: A → Parent fg c v → fg.frags.get? c = some g → g.bal = false) → f'.cons = none) := by
        intro F hnp
        refine ⟨g', ?_, h2, h3, ?_, ?_, ?_⟩
        · rw [Dict.get?_set_ne _ _ (Ne.symm hvu), hfr2]
          cases hpp : f.parent with
          | none => exact h1
          | some p =>
            simp only
            rw [if_neg, h1]
            rintro rfl; exact hnp (hpf _ hpp)
        · intro c
          rw [h4, List.mem_cons]
          constructor
          · rintro ⟨a, b⟩; exact ⟨a, .inr b⟩
          · rintro ⟨a, rfl | b⟩
            · exact absurd ((ht.kids v g c hgv).1 a) hnp
            · exact ⟨a, b⟩
        · rintro ⟨c, g2, hc, hpc, hr⟩
          rcases List.mem_cons.1 hc with rfl | hc
          · exact absurd hpc hnp
          · exact h5 ⟨c, g2, hc, hpc, hr⟩
        · intro h
          exact h6 fun c g2 hc => h c g2 (List.mem_cons_of_mem _ hc)
      by_cases hnp : Parent fg u v
      · obtain ⟨f2, hf2, hpv⟩ := hnp
        rw [hf] at hf2; obtain rfl := Option.some.inj hf2
        refine ⟨{ g' with kids := PySet.add g'.kids u, cons := if f.bal then f.flow.refQ else g'.cons }, ?_,
          ⟨h2.ext, h2.parent, h2.flow, h2.dir, h2.priv, h2.bg, h2.bal, h2.evs, h2.tags⟩, h3, ?_, ?_, ?_⟩
        · rw [Dict.get?_set_ne _ _ (Ne.symm hvu), hfr2, hpv]
          simp [h1]
        · intro c
          rw [PySet.mem_add, h4, List.mem_cons]
          constructor
          · rintro (⟨a, b⟩ | rfl)
            · exact ⟨a, .inr b⟩
            · exact ⟨(ht.kids v g c hgv).2 (hpf v hpv), .inl rfl⟩
          · rintro ⟨a, rfl | b⟩
            · exact .inr rfl
            · exact .inl ⟨a, b⟩
        · rintro ⟨c, g2, hc, hpc, hgc, hbc⟩
          rcases List.mem_cons.1 hc with rfl | hc
          · rw [hf] at hgc; obtain rfl := Option.some.inj hgc
            simp only [hbc, if_true]
            exact (hg.consBal c v f g (hpf v hpv) hf hgv hbc).symm
          · cases hb : f.bal with
            | false => simpa using h5 ⟨c, g2, hc, hpc, hgc, hbc⟩
            | true =>
              have := hg.balOnce c u v g2 f hpc (hpf v hpv) hgc hf hbc hb
              exact absurd (this ▸ hc) huA
        · intro h
          have hb := h u f List.mem_cons_self (hpf v hpv) hf
          simp only [hb, Bool.false_eq_true, if_false]
          exact h6 fun c g2 hc => h c g2 (List.mem_cons_of_mem _ hc)
      · exact hkey _ hnp
  case none =>
    intro v hv
    have hv' : v ≠ u ∧ v ∉ A := by simpa using hv
    rw [Dict.get?_set_ne _ _ (Ne.symm hv'.1), hfr2]
    cases hpp : f.parent with
    | none => exact hm.none v hv'.2
    | some p =>
      simp only
      rw [if_neg]
      · exact hm.none v hv'.2
      · rintro rfl; exact hv'.2 (hp v hpp)
  case link =>
    intro v g hv hgv
    simp only [insert, Dict.get?_set]
    rcases List.mem_cons.1 hv with rfl | hv
    · rw [hf] at hgv; obtain rfl := Option.some.inj hgv; simp
    · rw [if_neg]
      · exact hm.link v g hv hgv
      · intro e
        exact hst v hv (hg.nameOnce u f v g hu (hA v hv) hf hgv (link_inj e)).symm
  case linkB =>
    intro l hl
    simp only [insert]
    rw [Dict.get?_set_ne _ _ (hl u f List.mem_cons_self hf).symm]
    exact hm.linkB l fun v g hv => hl v g (List.mem_cons_of_mem _ hv)
  case name =>
    intro v g x hv hgv hx
    simp only [insert]
    rcases List.mem_cons.1 hv with rfl | hv
    · rw [hf] at hgv; obtain rfl := Option.some.inj hgv
      simp [hx]
    · have h1 := hm.name v g x hv hgv hx
      cases hfx : f.ext with
      | none => exact h1
      | some y =>
        simp only
        rw [Dict.get?_set_ne _ _ ?_, h1]
        rintro rfl
        have := hg.nameOnce u f v g hu (hA v hv) hf hgv (by simp [extOf, hfx, hx])
        exact hst v hv this.symm
  case nameB =>
    intro x hx
    simp only [insert]
    have h1 := hm.nameB x fun v g hv => hx v g (List.mem_cons_of_mem _ hv)
    cases hfx : f.ext with
    | none => exact h1
    | some y =>
      simp only
      rw [Dict.get?_set_ne _ _ ?_, h1]
      rintro rfl
      exact hx u f List.mem_cons_self hf hfx
  case uuid =>
    intro v g hv hgv
    simp only [insert, Dict.get?_set]
    rcases List.mem_cons.1 hv with rfl | hv
    · rw [hf] at hgv; obtain rfl := Option.some.inj hgv
      rw [hm.uuidB v huA, (Dict.not_mem_keys_iff _ _).1 (hg.uuid v hu).2.2]
      simp [PySet.add]
    · rw [if_neg (Ne.symm (hst v hv))]; exact hm.uuid v g hv hgv
  case uuidB =>
    intro w hw
    have hw' : w ≠ u ∧ w ∉ A := by simpa using hw
    simp only [insert]
    rw [Dict.get?_set_ne _ _ (Ne.symm hw'.1), hm.uuidB w hw'.2]

end

/-! ### the order of the records -/

/-- parents come first -/
def PF (fg : Fore) : List String → List String → Prop
  | _, [] => True
  | A, u :: us => (∀ p, Parent fg u p → p ∈ A) ∧ PF fg (u :: A) us

theorem PF.mono {fg : Fore} {A B us : List String} (h : PF fg A us) (hs : ∀ x ∈ A, x ∈ B) : PF fg B us := by
  induction us generalizing A B with
  | nil => trivial
  | cons u us ih =>
    refine ⟨fun p hp => hs p (h.1 p hp), ih h.2 ?_⟩
    intro x hx
    rcases List.mem_cons.1 hx with rfl | hx
    · exact List.mem_cons_self
    · exact List.mem_cons_of_mem _ (hs x hx)

theorem PF.append {fg : Fore} {A us vs : List String} (h : PF fg A us) (h' : PF fg A vs) : PF fg A (us ++ vs) := by
  induction us generalizing A with
  | nil => exact h'
  | cons u us ih => exact ⟨h.1, ih h.2 (h'.mono fun x hx => List.mem_cons_of_mem _ hx)⟩

theorem PF_mapCat {fg : Fore} {n : ℕ} {A cs l : List String}
    (hr : ∀ c l, recurse fg n c = .ok l → (∀ p, Parent fg c p → p ∈ A) → PF fg A l)
    (h : mapCat (recurse fg n) cs = .ok l) (hc : ∀ c ∈ cs, ∀ p, Parent fg c p → p ∈ A) : PF fg A l := by
  induction cs generalizing l with
  | nil => simp [mapCat] at h; subst h; trivial
  | cons c cs ih =>
    rw [mapCat] at h
    cases h1 : recurse fg n c with
    | error e => rw [h1] at h; simp at h
    | ok r =>
      rw [h1] at h
      cases h2 : mapCat (recurse fg n) cs with
      | error e => rw [h2] at h; simp at h
      | ok m =>
        rw [h2] at h
        have h : r ++ m = l := by simpa using h
        subst h
        exact (hr c r h1 (hc c List.mem_cons_self)).append (ih h2 fun x hx => hc x (List.mem_cons_of_mem _ hx))

theorem PF_recurse {fg : Fore} (ht : Trees fg) {n : ℕ} {u : String} {A l : List String} (h : recurse fg n u = .ok l)
    (hp : ∀ p, Parent fg u p → p ∈ A) : PF fg A l := by
  induction n generalizing u A l with
  | zero => simp [recurse] at h
  | succ n ih =>
    obtain ⟨f, l', hf, hm, rfl⟩ := recurse_succ h
    refine ⟨hp, PF_mapCat (fun c l hl hc => ih hl hc) hm ?_⟩
    intro c hc p hpc
    have := (ht.kids u f c hf).1 ((mem_children f c).1 hc)
    rw [parent_unique fg hpc this]; exact List.mem_cons_self

section
variable {env : Env} {o : PyOrd String} {base : Ix} {fg : Fore} {st : Fore}

theorem load_loop (hg : Good env base fg) (ht : Trees fg) {us : List String} {js : List Rec}
    (hs : List.Forall₂ (fun u j => ∃ f, fg.frags.get? u = some f ∧ serialize env fg u f = .ok j) us js) {A : List String} {st : Fore}
    (hA : ∀ u ∈ A, In fg u) (hus : ∀ u ∈ us, In fg u) (hn : us.Nodup) (hd : ∀ u ∈ us, u ∉ A) (hpf : PF fg A us)
    (hcl : ∀ c p, c ∈ A → Parent fg c p → p ∈ A) (hm : Mid env base fg A st) :
    ∃ st', loopE (loadOne env o) js st = .ok st' ∧ Mid env base fg (us.reverse ++ A) st' := by
  induction hs generalizing A st with
  | nil => exact ⟨st, rfl, by simpa using hm⟩
  | @cons u j us js hu _ ih =>
    obtain ⟨f, hf, hj⟩ := hu
    have hn' := List.nodup_cons.1 hn
    obtain ⟨st1, h1, h2⟩ := mid_step (o := o) hg ht hA hm hcl (hd u List.mem_cons_self) (hus u List.mem_cons_self) hf
      (fun p hp => hpf.1 p ⟨f, hf, hp⟩) hj
    obtain ⟨st2, h3, h4⟩ := ih (A := u :: A) (st := st1)
      (by
        intro x hx
        rcases List.mem_cons.1 hx with rfl | hx
        · exact hus _ List.mem_cons_self
        · exact hA x hx)
      (fun x hx => hus x (List.mem_cons_of_mem _ hx)) hn'.2
      (by
        intro x hx hm
        rcases List.mem_cons.1 hm with rfl | hm
        · exact hn'.1 hx
        · exact hd x (List.mem_cons_of_mem _ hx) hm)
      hpf.2
      (by
        intro c p hc hp
        rcases List.mem_cons.1 hc with rfl | hc
        · exact List.mem_cons_of_mem _ (hpf.1 p hp)
        · exact List.mem_cons_of_mem _ (hcl c p hc hp))
      h2
    refine ⟨st2, by rw [loopE, h1]; exact h3, ?_⟩
    simpa using h4

/-! ### the terminations -/

theorem loadTerm_ser (hg : Good env base fg) (ht : Trees fg) {A : List String} (hA : ∀ u, u ∈ A ↔ In fg u) (hm : Mid env base fg A st)
    {f f' : Frag} {t : Term} (u : String) (hflow : f'.flow = f.flow) (hdir : f'.dir = f.dir) (h : GoodTerm env base fg f t) :
    ∃ t', loadTerm env o st.ix u f' (serTerm env fg f t) = .ok t' ∧ SameTerm f t t' := by
  have hin : ∀ u ∈ A, In fg u := fun u => (hA u).1
  have hdd : ∀ d : Dir, (if t.dir = d then none else some t.dir : Option Dir).getD d = t.dir := by
    intro d; by_cases e : t.dir = d <;> simp [e]
  cases hn : t.node with
  | null =>
    refine ⟨nullTerm f', by simp [serTerm, nodeRef, hn, loadTerm], by simp [nullTerm, hn], ?_⟩
    rintro h; exact absurd hn h
  | frag v =>
    have hv := h.frag v hn
    obtain ⟨g, hgv⟩ : ∃ g, fg.frags.get? v = some g := by
      obtain ⟨r, hr, hb⟩ := hv
      rcases Relation.ReflTransGen.cases_head hb with rfl | ⟨q, ⟨g, hg1, -⟩, -⟩
      · exact hr.2.imp fun _ h => h.1
      · exact ⟨g, hg1⟩
    have hnode : termNode env o st.ix env.ref (extOf v g) = .ok (some (.frag v)) := by
      simp [termNode, find_by_name hg hin hm ((hA v).2 hv) hgv]
    by_cases hsame : t.flow.eq f.flow = true
    · refine ⟨{ node := .frag v, flow := f.flow, dir := t.dir, descend := t.descend }, ?_, by simp [hn], fun _ => ⟨rfl, rfl, .inr ⟨hsame, rfl⟩⟩⟩
      simp [serTerm, nodeRef, hn, hgv, loadTerm, hsame, termFlow, hnode, hdd, hflow, hdir, bind, Except.bind]
    · have hsame : t.flow.eq f.flow = false := by simpa using hsame
      refine ⟨{ node := .frag v, flow := t.flow, dir := t.dir, descend := t.descend }, ?_, by simp [hn], fun _ => ⟨rfl, rfl, .inl rfl⟩⟩
      by_cases ho : t.flow.origin = env.ref
      · obtain ⟨h1, h2⟩ := h.localFlow v hn hsame ho
        simp [serTerm, nodeRef, hn, hgv, loadTerm, hsame, termFlow, ho, find_flow hg hin hm h1 h2, hnode, hdd, hdir, bind,
          Except.bind]
      · have h1 := h.farFlow (by simp [hn]) hsame (fun h => ho h.2)
        simp [serTerm, nodeRef, hn, hgv, loadTerm, hsame, termFlow, ho, h1, hnode, hdd, hdir, bind, Except.bind]
  | ent e =>
    obtain ⟨e1, e2, e3⟩ := h.ent e hn
    have hnode : termNode env o st.ix e.origin e.ext = .ok (some (.ent e)) := by simp [termNode, e1, e3]
    by_cases hsame : t.flow.eq f.flow = true
    · refine ⟨{ node := .ent e, flow := f.flow, dir := t.dir, descend := t.descend }, ?_, by simp [hn], fun _ => ⟨rfl, rfl, .inr ⟨hsame, rfl⟩⟩⟩
      simp [serTerm, nodeRef, hn, loadTerm, hsame, termFlow, hnode, hdd, hflow, hdir, e2, bind, Except.bind]
    · have hsame : t.flow.eq f.flow = false := by simpa using hsame
      have h1 := h.farFlow (by simp [hn]) hsame (by simp [hn])
      refine ⟨{ node := .ent e, flow := t.flow, dir := t.dir, descend := t.descend }, ?_, by simp [hn], fun _ => ⟨rfl, rfl, .inl rfl⟩⟩
      by_cases ho : t.flow.origin = e.origin
      · rw [ho] at h1
        simp [serTerm, nodeRef, hn, loadTerm, hsame, termFlow, ho, e1, e2, h1, hnode, hdd, hdir, bind, Except.bind]
      · simp [serTerm, nodeRef, hn, loadTerm, hsame, termFlow, ho, h1, e2, hnode, hdd, hdir, bind, Except.bind]

theorem finishTerms_spec (ix : Ix) (u : String) (P : String → Term → Prop) (f0 : Frag) (l : Dict String (Option JTerm)) (hn : l.keys.Nodup)
    (hinj : ∀ k ∈ l.keys, ∀ k' ∈ l.keys, nameTerm k = nameTerm k' → k = k')
    (h : ∀ k j, (k, j) ∈ l → ∃ t, P k t ∧ ∀ f : Frag, f.flow = f0.flow → f.dir = f0.dir → loadTerm env o ix u f j = .ok t)
    (f : Frag) (hf1 : f.flow = f0.flow) (hf2 : f.dir = f0.dir) :
    ∃ T, finishTerms env o ix u l f = .ok { f with terms := T } ∧
      (∀ k ∈ l.keys, ∃ t, T.get? (nameTerm k) = some t ∧ P k t) ∧
      ∀ sc, (∀ k ∈ l.keys, nameTerm k ≠ sc) → T.get? sc = f.terms.get? sc := by
  induction l generalizing f with
  | nil => exact ⟨f.terms, rfl, fun k hk => absurd hk List.not_mem_nil, fun _ _ => rfl⟩
  | cons kj l ih =>
    obtain ⟨k, j⟩ := kj
    have hn' : k ∉ Dict.keys l ∧ (Dict.keys l).Nodup := List.nodup_cons.1 hn
    obtain ⟨t, ht, hl⟩ := h k j List.mem_cons_self
    have hinj' : ∀ a ∈ Dict.keys l, ∀ b ∈ Dict.keys l, nameTerm a = nameTerm b → a = b :=
      fun a ha b hb => hinj a (List.mem_cons_of_mem _ ha) b (List.mem_cons_of_mem _ hb)
    obtain ⟨T, h1, h2, h3⟩ := ih hn'.2 hinj' (fun k j hm => h k j (List.mem_cons_of_mem _ hm)) { f with terms := f.terms.set (nameTerm k) t } hf1 hf2
    refine ⟨T, by rw [finishTerms, hl f hf1 hf2]; exact h1, ?_, ?_⟩
    · intro k' hk'
      rcases List.mem_cons.1 hk' with rfl | hk'
      · refine ⟨t, ?_, ht⟩
        rw [h3, Dict.get?_set_self]
        intro a ha e
        have he : a = k' := hinj a (List.mem_cons_of_mem _ ha) k' List.mem_cons_self e
        exact hn'.1 (he ▸ ha)
      · exact h2 k' hk'
    · intro sc hsc
      rw [h3 sc fun k' hk' => hsc k' (List.mem_cons_of_mem _ hk'), Dict.get?_set_ne _ _ (hsc k List.mem_cons_self)]

theorem nameTerm_termName {sc : Option String} (h : ∀ s, sc = some s → s ≠ "default" ∧ s ≠ "null") : nameTerm (termName sc) = sc := by
  cases sc with
  | none => simp [termName, nameTerm]
  | some s => simp [termName, nameTerm, h s rfl]

theorem finish_ser (hg : Good env base fg) (ht : Trees fg) {A : List String} (hA : ∀ u, u ∈ A ↔ In fg u) (hm : Mid env base fg A st)
    {u : String} {f f' : Frag} (hu : In fg u) (hf : fg.frags.get? u = some f) (hflow : f'.flow = f.flow) (hdir : f'.dir = f.dir)
    (h0 : f'.terms = [(none, nullTerm f)]) :
    ∃ T, finishTerms env o st.ix u (sortK (serTerms env fg f)) f' = .ok { f' with terms := T } ∧
      ∀ sc, (f.terms.get? sc = none → T.get? sc = none) ∧
        ∀ t, f.terms.get? sc = some t → ∃ t', T.get? sc = some t' ∧ SameTerm f t t' := by
  obtain ⟨hn, hnone, hnames⟩ := hg.scenarios u f hu hf
  have hback : ∀ sc ∈ f.terms.keys, nameTerm (termName sc) = sc := by
    intro sc hsc
    apply nameTerm_termName
    rintro s rfl
    exact hnames s hsc
  have hinjT : ∀ a ∈ f.terms.keys, ∀ b ∈ f.terms.keys, termName a = termName b → a = b := by
    intro a ha b hb e
    rw [← hback a ha, e, hback b hb]
  -- the record is a renamed table
  let D : Dict (Option String) (Option JTerm) := f.terms.map fun kt => (kt.1, serTerm env fg f kt.2)
  have hDk : D.keys = f.terms.keys := by simp [D, Dict.keys, Function.comp_def]
  have hser : serTerms env fg f = D.foldl (fun (a : Dict String (Option JTerm)) kv => a.set (termName kv.1) kv.2) [] := by
    simp only [serTerms, D, List.foldl_map]
  have hsn : (serTerms env fg f).keys.Nodup := by
    rw [hser]; exact Frg.nodup_fold termName D [] (by simp [Dict.keys])
  have hsk : ∀ k, k ∈ (serTerms env fg f).keys ↔ ∃ sc ∈ f.terms.keys, termName sc = k := by
    intro k
    rw [hser, Frg.keys_fold, hDk]
    simp [Dict.keys]
  have hget : ∀ k j, (k, j) ∈ sortK (serTerms env fg f) → ∃ sc t, f.terms.get? sc = some t ∧ termName sc = k ∧ j = serTerm env fg f t := by
    intro k j hmem
    have hmem := (sortK_perm _).mem_iff.1 hmem
    have hk := Dict.get?_eq_some_of_mem _ hsn hmem
    obtain ⟨sc, hsc, hname⟩ := (hsk k).1 ((Dict.mem_keys_iff _ _).2 ⟨_, hk⟩)
    obtain ⟨t, htt⟩ := (Dict.mem_keys_iff _ _).1 hsc
    refine ⟨sc, t, htt, hname, ?_⟩
    have h1 := (Frg.fold_rename termName D [] (by rw [hDk]; exact hn) (by rw [hDk]; exact hinjT) k).1 sc (by rw [hDk]; exact hsc) hname
    rw [← hser, hk] at h1
    have h2 : D.get? sc = some (serTerm env fg f t) := by
      apply Dict.get?_eq_some_of_mem
      · rw [hDk]; exact hn
      · exact List.mem_map.2 ⟨(sc, t), Dict.mem_of_get?_eq_some _ htt, rfl⟩
    rw [h2] at h1
    exact Option.some.inj h1
  have hkk : ∀ k, k ∈ Dict.keys (sortK (serTerms env fg f)) ↔ ∃ sc ∈ f.terms.keys, termName sc = k := by
    intro k; rw [sortK_keys, hsk]
  obtain ⟨T, h1, h2, h3⟩ := finishTerms_spec (env := env) (o := o) st.ix u
    (fun k t' => ∀ t, f.terms.get? (nameTerm k) = some t → SameTerm f t t') f (sortK (serTerms env fg f)) (sortK_nodup hsn)
    (by
      intro a ha b hb e
      obtain ⟨x, hx, rfl⟩ := (hkk a).1 ha
      obtain ⟨y, hy, rfl⟩ := (hkk b).1 hb
      rw [hback x hx, hback y hy] at e
      rw [e])
    (by
      intro k j hkj
      obtain ⟨sc, t, htt, rfl, rfl⟩ := hget k j hkj
      obtain ⟨t', -, hs'⟩ := loadTerm_ser (o := o) hg ht hA hm (f' := f) u rfl rfl (hg.terms u f sc t hu hf htt)
      have hu1 : ∀ f1 : Frag, f1.flow = f.flow → f1.dir = f.dir →
          loadTerm env o st.ix u f1 (serTerm env fg f t) = loadTerm env o st.ix u f (serTerm env fg f t) := by
        intro f1 e1 e2
        cases serTerm env fg f t with
        | none => simp [loadTerm, nullTerm, e1, e2]
        | some j =>
          have : ∀ org, termFlow env o st.ix f1 org j.tflow = termFlow env o st.ix f org j.tflow := by
            intro org; cases j.tflow <;> simp [termFlow, e1]
          simp only [loadTerm, this, e1, e2]
      obtain ⟨t', hl', hs'⟩ := loadTerm_ser (o := o) hg ht hA hm (f' := f) u rfl rfl (hg.terms u f sc t hu hf htt)
      refine ⟨t', ?_, fun f1 e1 e2 => (hu1 f1 e1 e2).trans hl'⟩
      intro t2 ht2
      rw [hback sc ((Dict.mem_keys_iff _ _).2 ⟨t, htt⟩), htt] at ht2
      obtain rfl := Option.some.inj ht2
      exact hs')
    f' hflow hdir
  refine ⟨T, h1, fun sc => ⟨?_, ?_⟩⟩
  · intro hsc
    have hnm := (Dict.not_mem_keys_iff _ _).2 hsc
    rw [h3, h0]
    · have : sc ≠ none := fun e => hnm (e ▸ hnone)
      simp [Dict.get?, Ne.symm this]
    · intro k hk e
      obtain ⟨x, hx, rfl⟩ := (hkk k).1 hk
      rw [hback x hx] at e
      exact hnm (e ▸ hx)
  · intro t htt
    have hmem := (Dict.mem_keys_iff f.terms sc).2 ⟨t, htt⟩
    obtain ⟨t', h4, h5⟩ := h2 (termName sc) ((hkk _).2 ⟨sc, hmem, rfl⟩)
    rw [hback sc hmem] at h4 h5
    exact ⟨t', h4, h5 t htt⟩

/-! ### the second loop -/

/-- the state after the fragments not in `us` have got their terminations -/
structure Fin2 (env : Env) (base : Ix) (fg : Fore) (st0 : Fore) (us : List String) (st : Fore) : Prop where
  ix : st.ix = st0.ix
  todo : ∀ u ∈ us, st.frags.get? u = st0.frags.get? u
  keys : ∀ u, (∃ f, st.frags.get? u = some f) ↔ ∃ f, st0.frags.get? u = some f
  done : ∀ u f, In fg u → u ∉ us → fg.frags.get? u = some f → ∃ f', st.frags.get? u = some f' ∧ Same env f f'

theorem finish_loop (hg : Good env base fg) (ht : Trees fg) {A : List String} (hA : ∀ u, u ∈ A ↔ In fg u) {st0 : Fore}
    (hm : Mid env base fg A st0) {us : List String} {js : List Rec}
    (hs : List.Forall₂ (fun u j => ∃ f, fg.frags.get? u = some f ∧ serialize env fg u f = .ok j) us js)
    (hus : ∀ u ∈ us, In fg u) (hn : us.Nodup) (hfin : Fin2 env base fg st0 us st) :
    ∃ st', loopE (finishOne env o) js st = .ok st' ∧ Fin2 env base fg st0 [] st' := by
  have hin : ∀ u ∈ A, In fg u := fun u => (hA u).1
  induction hs generalizing st with
  | nil => exact ⟨st, rfl, hfin⟩
  | @cons u j us js hu _ ih =>
    obtain ⟨f, hf, hj⟩ := hu
    have hn' := List.nodup_cons.1 hn
    have hu := hus u List.mem_cons_self
    obtain ⟨j', hj', e1, -, -, -, -, -, -, -, -, e10, -⟩ := serialize_spec env fg u f (hg.tags u f hu hf).toPlainTags
    rw [hj] at hj'; obtain rfl := Except.ok.inj hj'
    obtain ⟨f', h1, h2, h3, h4, h5, h6⟩ := hm.made u f ((hA u).2 hu) hf
    obtain ⟨T, hT1, hT2⟩ := finish_ser (o := o) hg ht hA hm hu hf h2.flow h2.dir h3
    have hone : finishOne env o st j = .ok { st with frags := st.frags.set u { f' with terms := T } } := by
      simp only [finishOne, str?, e1, terms?, e10, bind, Except.bind, hfin.ix, find_by_uuid hg hin hm ((hA u).2 hu) hf,
        hfin.todo u List.mem_cons_self, h1, hT1]
    have hchild : ∀ c p, Parent fg c p → In fg p → c ∈ A := by
      rintro c p hcp ⟨r, hr, hb⟩
      exact (hA c).2 ⟨r, hr, .head hcp hb⟩
    obtain ⟨st', h7, h8⟩ := ih (st := { st with frags := st.frags.set u { f' with terms := T } })
      (fun x hx => hus x (List.mem_cons_of_mem _ hx)) hn'.2 (by
        constructor
        · exact hfin.ix
        · intro x hx
          have : u ≠ x := fun e => hn'.1 (e ▸ hx)
          rw [Dict.get?_set_ne _ _ this]
          exact hfin.todo x (List.mem_cons_of_mem _ hx)
        · intro x
          rw [Dict.get?_set]
          by_cases e : u = x
          · subst e; simp [h1]
          · simp only [if_neg e]; exact hfin.keys x
        · intro x g hx hxs hgx
          by_cases e : u = x
          · subst e
            rw [hf] at hgx; obtain rfl := Option.some.inj hgx
            refine ⟨_, Dict.get?_set_self _ _ _, ⟨⟨h2.ext, h2.parent, h2.flow, h2.dir, h2.priv, h2.bg, h2.bal, h2.evs, h2.tags⟩, ?_, ?_, hT2⟩⟩
            · by_cases hb : ∃ c g, Parent fg c u ∧ fg.frags.get? c = some g ∧ g.bal = true
              · obtain ⟨c, g, hcp, hgc, hbc⟩ := hb
                exact h5 ⟨c, g, hchild c u hcp hu, hcp, hgc, hbc⟩
              · have hb' : ∀ c g, Parent fg c u → fg.frags.get? c = some g → g.bal = false := by
                  intro c g hcp hgc
                  cases hbc : g.bal with
                  | false => rfl
                  | true => exact absurd ⟨c, g, hcp, hgc, hbc⟩ hb
                have := h6 fun c g _ => hb' c g
                rw [hg.consNone u f hf hb']
                exact this
            · intro c
              refine (h4 c).trans ⟨fun h => h.1, fun h => ⟨h, ?_⟩⟩
              exact hchild c u ((ht.kids u f c hf).1 h) hu
          · rw [Dict.get?_set_ne _ _ e]
            refine hfin.done x g hx ?_ hgx
            intro hm
            rcases List.mem_cons.1 hm with h | h
            · exact e h.symm
            · exact hxs h)
    exact ⟨st', by rw [loopE, hone]; exact h7, h8⟩

/-! ### C118 -/

theorem read_files {fuel : ℕ} {d' : Dir'} (hw : ∀ r, Root fg r → Written env fg fuel r (d'.get? (fileOf r))) (ns : List String)
    (hns : ∀ n ∈ ns, ∃ r, Root fg r ∧ n = fileOf r) :
    ∃ (R us : List String) (js : List Rec), ns = R.map fileOf ∧ (∀ r ∈ R, Root fg r) ∧ mapCat (recurse fg fuel) R = .ok us ∧
      serAll env fg us = .ok js ∧ readFiles d' ns = .ok js := by
  induction ns with
  | nil => exact ⟨[], [], [], rfl, by simp, rfl, rfl, rfl⟩
  | cons n ns ih =>
    obtain ⟨r, hr, rfl⟩ := hns n List.mem_cons_self
    obtain ⟨R, us, js, h1, h2, h3, h4, h5⟩ := ih fun n hn => hns n (List.mem_cons_of_mem _ hn)
    obtain ⟨vs, ks, k1, k2, -, k3⟩ := hw r hr
    refine ⟨r :: R, vs ++ us, ks ++ js, by simp [h1], ?_, ?_, serAll_append k2 h4, ?_⟩
    · intro x hx
      rcases List.mem_cons.1 hx with rfl | hx
      · exact hr
      · exact h2 x hx
    · simp [mapCat, k1, h3]
    · simp [readFiles, k3, h5]

theorem mid_nil (hg : Good env base fg) : Mid env base fg [] { ix := base } := by
  constructor
  case nameB => intro x _; simp [hg.noNames, Dict.get?]
  all_goals simp [Dict.get?]

/-- **C118** saving the fragments and loading the directory, in whatever order the files are listed, gives the same fragments: no
others, in the same trees, each with the same name, flow, direction, exchange values, properties and terminations, found again by
its uuid and by its name. -/
theorem load_save_partial (env : Env) (base : Ix) (fg : Fore) (hg : Good env base fg) (ht : Trees fg) (fuel : ℕ) (d d' : Dir')
    (hd : d.keys.Nodup) (hs : saveFragments env fg fuel d = .ok () d') (o lo : PyOrd String) :
    ∃ fg', loadFragments env o lo base d' = .ok fg' ∧
      (∀ u, (∃ f', fg'.frags.get? u = some f') ↔ In fg u) ∧
      ∀ u f, In fg u → fg.frags.get? u = some f → ∃ f', fg'.frags.get? u = some f' ∧ Same env f f' ∧
        getitem env o fg'.ix u = some (.frag u) ∧ getitem env o fg'.ix (extOf u f) = some (.frag u) := by
  obtain ⟨hw, hout, hdn⟩ := save_files env fg ht fuel d d' hs
  have hns : ∀ n ∈ lo.f d'.keys, ∃ r, Root fg r ∧ n = fileOf r := by
    intro n hn
    have hn := (lo.perm _).mem_iff.1 hn
    by_contra hno
    have : d'.get? n = none := hout n fun r hr e => hno ⟨r, hr, e⟩
    exact (Dict.not_mem_keys_iff _ _).2 this hn
  obtain ⟨R, us, js, h1, h2, h3, h4, h5⟩ := read_files (env := env) hw (lo.f d'.keys) hns
  have hRn : R.Nodup := by
    have : (lo.f d'.keys).Nodup := (lo.perm _).nodup_iff.2 (hdn hd)
    rw [h1] at this
    exact this.of_map fileOf
  have hRall : ∀ r, Root fg r → r ∈ R := by
    intro r hr
    obtain ⟨vs, ks, -, -, -, k3⟩ := hw r hr
    have : fileOf r ∈ lo.f d'.keys := (lo.perm _).mem_iff.2 ((Dict.mem_keys_iff _ _).2 ⟨_, k3⟩)
    rw [h1] at this
    obtain ⟨s, hs', e⟩ := List.mem_map.1 this
    rwa [fileOf_inj e] at hs'
  have hus : ∀ u, u ∈ us ↔ In fg u := by
    intro u
    rw [mapCat_mem h3]
    constructor
    · rintro ⟨r, hr, l, hl, hx⟩
      exact ⟨r, h2 r hr, (recurse_mem ht hl u).1 hx⟩
    · rintro ⟨r, hr, hb⟩
      obtain ⟨l, hl⟩ := mapCat_ok h3 r (hRall r hr)
      exact ⟨r, hRall r hr, l, hl, (recurse_mem ht hl u).2 hb⟩
  have hun : us.Nodup := by
    refine mapCat_nodup h3 hRn (fun r _ l hl => recurse_nodup ht hl) ?_
    intro r hr s hs' hne lr ls x hlr hls hx hx'
    exact root_disjoint (h2 r hr).2 (h2 s hs').2 hne ((recurse_mem ht hlr x).1 hx) ((recurse_mem ht hls x).1 hx')
  have hall := serAll_ok h4
  have hpf : PF fg [] us := by
    refine PF_mapCat (fun c l hl hc => PF_recurse ht hl hc) h3 ?_
    rintro r hr p ⟨f, hf, hp⟩
    obtain ⟨-, f2, hf2, hp2⟩ := h2 r hr
    rw [hf] at hf2; obtain rfl := Option.some.inj hf2
    rw [hp] at hp2; simp at hp2
  obtain ⟨st1, hl1, hm1⟩ := load_loop (o := o) hg ht hall (A := []) (st := { ix := base }) (by simp) (fun u hu => (hus u).1 hu) hun (by simp) hpf
    (by simp) (mid_nil hg)
  rw [List.append_nil] at hm1
  have hA : ∀ u, u ∈ us.reverse ↔ In fg u := fun u => by rw [List.mem_reverse, hus]
  have hin : ∀ u ∈ us.reverse, In fg u := fun u => (hA u).1
  have hstart : Fin2 env base fg st1 us st1 :=
    ⟨rfl, fun _ _ => rfl, fun _ => Iff.rfl, fun u f hu hnu _ => absurd ((hus u).2 hu) hnu⟩
  obtain ⟨st2, hl2, hf2⟩ := finish_loop (o := o) hg ht hA hm1 hall (fun u hu => (hus u).1 hu) hun hstart
  have hex : ∀ u, In fg u → ∃ f, fg.frags.get? u = some f := by
    rintro u ⟨r, hr, hb⟩
    rcases Relation.ReflTransGen.cases_head hb with rfl | ⟨q, ⟨g, hg1, -⟩, -⟩
    · exact hr.2.imp fun _ h => h.1
    · exact ⟨g, hg1⟩
  refine ⟨st2, ?_, ?_, ?_⟩
  · simp [loadFragments, h5, doLoad, hl1, hl2]
  · intro u
    rw [hf2.keys]
    constructor
    · rintro ⟨f', hf'⟩
      by_contra hno
      have := hm1.none u fun h => hno ((hA u).1 h)
      rw [hf'] at this; simp at this
    · intro hu
      obtain ⟨f, hf⟩ := hex u hu
      obtain ⟨f', h, -⟩ := hm1.made u f ((hA u).2 hu) hf
      exact ⟨f', h⟩
  · intro u f hu hf
    obtain ⟨f', h6, h7⟩ := hf2.done u f hu (by simp) hf
    refine ⟨f', h6, h7, ?_, ?_⟩
    · rw [hf2.ix]; exact find_by_uuid hg hin hm1 ((hA u).2 hu) hf
    · rw [hf2.ix]; exact find_by_name hg hin hm1 ((hA u).2 hu) hf

end

end FgS
