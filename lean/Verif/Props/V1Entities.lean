import Verif.Model.V1Client
import Mathlib.Tactic.Tauto
import Mathlib.Tactic.Linarith

/-!
Entities of an Antelope v1 client: retrieving (C206), listing (C207).
-/

set_option linter.unusedSimpArgs false

namespace Av1

/-! ### what is required -/

/-- the server answers with what was asked for -/
structure Consistent (srv : Server) : Prop where
  one : ∀ k n d, srv.one k n = some d → d.kind = k ∧ d.id = n
  all : ∀ k, ∀ d ∈ srv.all k, d.kind = k

/-- what is kept under a key was made from a document of that kind and id -/
def Sound (s : St) : Prop :=
  ∀ k o, s.cached.get? k = some o ∨ s.entities.get? k = some o → ∃ d, s.docs[o]? = some d ∧ (d.kind, d.id) = k

/-- `s'` comes after `s`: documents are only added, nothing is forgotten -/
structure After (s s' : St) : Prop where
  docs : ∃ l, s'.docs = s.docs ++ l
  entities : ∀ k o, s.entities.get? k = some o → s'.entities.get? k = some o
  cached : ∀ k, s.cached.get? k ≠ none → s'.cached.get? k ≠ none
  requests : s.requests ≤ s'.requests
  fetched : s'.fetched = s.fetched

theorem After.refl (s : St) : After s s := ⟨⟨[], by simp⟩, fun _ _ h => h, fun _ h => h, le_rfl, rfl⟩

theorem After.trans {a b c : St} (h : After a b) (h' : After b c) : After a c := by
  obtain ⟨l, hl⟩ := h.docs
  obtain ⟨l', hl'⟩ := h'.docs
  exact ⟨⟨l ++ l', by rw [hl', hl]; simp⟩, fun k o x => h'.entities k o (h.entities k o x),
    fun k x => h'.cached k (h.cached k x), h.requests.trans h'.requests, h'.fetched.trans h.fetched⟩

theorem After.sound {s s' : St} (h : After s s') {o : ℕ} {d : Doc} (hd : s.docs[o]? = some d) : s'.docs[o]? = some d := by
  obtain ⟨l, hl⟩ := h.docs
  rw [hl, List.getElem?_append_left]
  · exact hd
  · exact (List.getElem?_eq_some_iff.mp hd).1

/-! ### saving -/

theorem save_after (d : Doc) (s : St) : After s (save d s).2 := by
  refine ⟨⟨[d], rfl⟩, ?_, ?_, le_rfl, rfl⟩
  · intro k o h
    simp only [save]
    split
    · exact h
    · rename_i hh
      rw [Dict.get?_set_ne]
      · exact h
      · intro hk
        apply hh
        rw [Dict.has_iff, Dict.mem_keys_iff, hk, h]; simp
  · intro k h
    simp only [save]
    by_cases hk : k = (d.kind, d.id)
    · subst hk; rw [Dict.get?_set_self]; simp
    · rw [Dict.get?_set_ne _ _ (Ne.symm hk)]; exact h

theorem save_sound (d : Doc) (s : St) (h : Sound s) : Sound (save d s).2 := by
  intro k o hk
  have hd : (save d s).2.docs[s.docs.length]? = some d := by simp [save]
  have old : (s.cached.get? k = some o ∨ s.entities.get? k = some o) →
      ∃ d', (save d s).2.docs[o]? = some d' ∧ (d'.kind, d'.id) = k := by
    intro hh
    obtain ⟨d', h1, h2⟩ := h k o hh
    exact ⟨d', (save_after d s).sound h1, h2⟩
  by_cases hkk : k = (d.kind, d.id)
  · subst hkk
    rcases hk with hk | hk
    · simp only [save, Dict.get?_set_self, Option.some.injEq] at hk
      subst hk; exact ⟨d, hd, rfl⟩
    · simp only [save] at hk
      split at hk
      · exact old (.inr hk)
      · rw [Dict.get?_set_self] at hk; cases hk; exact ⟨d, hd, rfl⟩
  · apply old
    rcases hk with hk | hk
    · left; simpa only [save, Dict.get?_set_ne _ _ (Ne.symm hkk)] using hk
    · right
      simp only [save] at hk
      split at hk
      · exact hk
      · simpa only [Dict.get?_set_ne _ _ (Ne.symm hkk)] using hk

theorem save_known (d : Doc) (s : St) (k : Kind × ℕ) :
    (save d s).2.known k = if k = (d.kind, d.id) then some (save d s).1 else s.known k := by
  unfold St.known
  split
  · rename_i h; subst h; simp [save, Dict.get?_set_self]
  · rename_i h
    simp only [save, Dict.get?_set_ne _ _ (Ne.symm h)]
    split
    · rfl
    · rw [Dict.get?_set_ne _ _ (Ne.symm h)]

/-- what a step of the client may do when it makes an object of `d`: the object is new and is the one known for `d`; the others that
were known remain, and of those that were not only ones of other kinds may have been added -/
structure Makes (d : Doc) (s : St) (o : ℕ) (s' : St) : Prop where
  after : After s s'
  sound : Sound s → Sound s'
  fresh : s.docs.length ≤ o
  doc : s'.docs[o]? = some d
  cached : s'.cached.get? (d.kind, d.id) = some o
  others : ∀ k o', k ≠ (d.kind, d.id) → s.known k = some o' → s'.known k = some o'
  kind : ∀ n, n ≠ d.id → s'.known (d.kind, n) = s.known (d.kind, n)

theorem save_makes (d : Doc) (s : St) : Makes d s (save d s).1 (save d s).2 where
  after := save_after d s
  sound := save_sound d s
  fresh := le_rfl
  doc := by simp [save]
  cached := by simp [save, Dict.get?_set_self]
  others := by intro k o' hk h; rw [save_known, if_neg hk]; exact h
  kind := by
    intro n hn; rw [save_known, if_neg]
    intro h; exact hn (Prod.mk.inj h).2

/-- a state with the same things known -/
theorem Makes.of_count {d : Doc} {s s' : St} {o : ℕ} {n : ℕ} (hn : s.requests ≤ n) (h : Makes d { s with requests := n } o s') :
    Makes d s o s' where
  after := ⟨h.after.docs, h.after.entities, h.after.cached, hn.trans h.after.requests, h.after.fetched⟩
  sound := h.sound
  fresh := h.fresh
  doc := h.doc
  cached := h.cached
  others := h.others
  kind := h.kind

/-- a part that is fetched first: either it was known and nothing changes, or it is made -/
theorem retrieveWith_cases {parse : Doc → St → Except Err (ℕ × St)}
    {srv : Server} {k : Kind × ℕ} {s s' : St} {o : ℕ}
    (h : retrieveWith parse srv k s = .ok (o, s')) :
    (s.known k = some o ∧ s' = s) ∨
    (s.known k = none ∧ ∃ d, srv.one k.1 k.2 = some d ∧ parse d { s with requests := s.requests + 1 } = .ok (o, s')) := by
  unfold retrieveWith at h
  split at h
  · rename_i o' ho
    cases h; exact .inl ⟨ho, rfl⟩
  · rename_i hn
    split at h
    · cases h
    · rename_i d hd
      exact .inr ⟨hn, d, hd, h⟩

/-- what happens to a document after a part of another kind has been taken -/
theorem makes_after_part {d : Doc} {s s1 : St}
    (ha : After s s1) (hs : Sound s → Sound s1) (hk : ∀ k o', s.known k = some o' → s1.known k = some o')
    (hkind : ∀ n, s1.known (d.kind, n) = s.known (d.kind, n)) : Makes d s (save d s1).1 (save d s1).2 where
  after := ha.trans (save_after d s1)
  sound := fun h => save_sound d s1 (hs h)
  fresh := by
    obtain ⟨l, hl⟩ := ha.docs
    simp only [save, hl, List.length_append]; omega
  doc := (save_makes d s1).doc
  cached := (save_makes d s1).cached
  others := fun k o' hne h => (save_makes d s1).others k o' hne (hk k o' h)
  kind := fun n hn => by rw [(save_makes d s1).kind n hn, hkind]

/-- taking a part by its key: what was known remains -/
theorem part {parse : Doc → St → Except Err (ℕ × St)} {srv : Server} (hsrv : Consistent srv)
    (hp : ∀ d s o s', parse d s = .ok (o, s') → Makes d s o s')
    {k : Kind × ℕ} {s s' : St} {o : ℕ} (h : retrieveWith parse srv k s = .ok (o, s')) :
    After s s' ∧ (Sound s → Sound s') ∧ (∀ k o', s.known k = some o' → s'.known k = some o') ∧ s'.known k = some o := by
  rcases retrieveWith_cases h with ⟨h1, rfl⟩ | ⟨h1, d, hd, h2⟩
  · exact ⟨After.refl _, id, fun _ _ h => h, h1⟩
  · have hm := (hp _ _ _ _ h2).of_count (Nat.le_succ _)
    obtain ⟨e1, e2⟩ := hsrv.one _ _ _ hd
    have hk : (d.kind, d.id) = k := by rw [e1, e2]
    refine ⟨hm.after, hm.sound, ?_, ?_⟩
    · intro k' o' hko
      by_cases hkk : k' = (d.kind, d.id)
      · rw [hkk, hk, h1] at hko; cases hko
      · exact hm.others _ _ hkk hko
    · rw [← hk]; simp [St.known, hm.cached]

theorem parse0_makes {d : Doc} {s s' : St} {o : ℕ} (h : parse0 d s = .ok (o, s')) : Makes d s o s' := by
  unfold parse0 at h
  injection h with h
  have := save_makes d s
  rw [h] at this; exact this

theorem retrieveWith_parse0_kind {srv : Server} (hsrv : Consistent srv) {k : Kind × ℕ} {s s' : St} {o : ℕ}
    (h : retrieveWith parse0 srv k s = .ok (o, s')) (K : Kind) (hK : K ≠ k.1) (n : ℕ) : s'.known (K, n) = s.known (K, n) := by
  rcases retrieveWith_cases h with ⟨-, rfl⟩ | ⟨-, d, hd, h2⟩
  · rfl
  · unfold parse0 at h2
    injection h2 with h2
    have h3 : s' = (save d { s with requests := s.requests + 1 }).2 := by rw [h2]
    rw [h3, save_known, if_neg]
    · rfl
    · intro he
      exact hK ((Prod.mk.inj he).1.trans (hsrv.one _ _ _ hd).1)

theorem parseFlow_makes {srv : Server} (hsrv : Consistent srv) {d : Doc} {s s' : St} {o : ℕ} (hd : d.kind ≠ .flowproperty)
    (h : parseFlow srv d s = .ok (o, s')) :
    Makes d s o s' ∧ ∀ K, K ≠ .flowproperty → K ≠ d.kind → ∀ n, s'.known (K, n) = s.known (K, n) := by
  unfold parseFlow at h
  split at h
  · cases h
  · rename_i o1 s1 h1
    injection h with h
    obtain ⟨a, b, c, -⟩ := part hsrv (fun d s o s' h => parse0_makes h) h1
    have hkind := retrieveWith_parse0_kind hsrv h1
    have := makes_after_part (d := d) a b c (fun n => hkind _ hd n)
    rw [h] at this
    refine ⟨this, ?_⟩
    intro K hK hKd n
    have h3 : s' = (save d s1).2 := by rw [h]
    rw [h3, save_known, if_neg]
    · exact hkind K hK n
    · intro he; exact hKd (Prod.mk.inj he).1

theorem parseFragment_makes {srv : Server} (hsrv : Consistent srv) {d : Doc} {s s' : St} {o : ℕ} (hd : d.kind = .fragment)
    (h : parseFragment srv d s = .ok (o, s')) : Makes d s o s' := by
  unfold parseFragment at h
  split at h
  · cases h
  · rename_i o1 s1 h1
    injection h with h
    have key : After s s1 ∧ (Sound s → Sound s1) ∧ (∀ k o', s.known k = some o' → s1.known k = some o') ∧
        ∀ n, s1.known (.fragment, n) = s.known (.fragment, n) := by
      rcases retrieveWith_cases h1 with ⟨-, rfl⟩ | ⟨h0, d', hd', h2⟩
      · exact ⟨After.refl _, id, fun _ _ h => h, fun _ => rfl⟩
      · obtain ⟨e1, e2⟩ := hsrv.one _ _ _ hd'
        simp only at e1 e2
        obtain ⟨hm, hk⟩ := parseFlow_makes hsrv (by rw [e1]; decide) h2
        have hm' := hm.of_count (Nat.le_succ _)
        refine ⟨hm'.after, hm'.sound, ?_, ?_⟩
        · intro k' o' hko
          by_cases hkk : k' = (d'.kind, d'.id)
          · rw [hkk, e1, e2, h0] at hko; cases hko
          · exact hm'.others _ _ hkk hko
        · intro n
          rw [hk .fragment (by decide) (by rw [e1]; decide) n]; rfl
    have := makes_after_part (d := d) key.1 key.2.1 key.2.2.1 (by rw [hd]; exact key.2.2.2)
    rw [h] at this; exact this

theorem parse_makes {srv : Server} (hsrv : Consistent srv) {d : Doc} {s s' : St} {o : ℕ}
    (h : parse srv d s = .ok (o, s')) : Makes d s o s' := by
  unfold parse at h
  split at h
  · rename_i hd; exact (parseFlow_makes hsrv (by rw [hd]; decide) h).1
  · rename_i hd; exact parseFragment_makes hsrv hd h
  · exact parse0_makes h

/-! ### retrieving (C206) -/

/-- C206: what is retrieved under a key describes the entity of that kind and id. -/
theorem retrieve_describes {srv : Server} (hsrv : Consistent srv) {s s' : St} (hs : Sound s) {k : Kind} {n o : ℕ}
    (h : retrieve srv (.pair k n) s = .ok (o, s')) :
    Sound s' ∧ ∃ d, s'.docs[o]? = some d ∧ d.kind = k ∧ d.id = n := by
  obtain ⟨-, h2, -, h4⟩ := part hsrv (fun d s o s' h => parse_makes hsrv h) h
  refine ⟨h2 hs, ?_⟩
  have : s'.cached.get? (k, n) = some o ∨ s'.entities.get? (k, n) = some o := by
    unfold St.known at h4
    cases hc : s'.cached.get? (k, n) with
    | none => rw [hc] at h4; exact .inr h4
    | some x => rw [hc] at h4; exact .inl h4
  obtain ⟨d, h5, h6⟩ := h2 hs _ _ this
  exact ⟨d, h5, (Prod.mk.inj h6).1, (Prod.mk.inj h6).2⟩

/-- C206: retrieving it again gives the same object, without a request and without any change. -/
theorem retrieve_again {srv : Server} (hsrv : Consistent srv) {s s' : St} {k : Kind} {n o : ℕ}
    (h : retrieve srv (.pair k n) s = .ok (o, s')) : retrieve srv (.pair k n) s' = .ok (o, s') := by
  obtain ⟨-, -, -, h4⟩ := part hsrv (fun d s o s' h => parse_makes hsrv h) h
  simp [retrieve, retrieveWith, h4]

/-- C206: retrieving one entity does not change what is retrieved under other keys that were known. -/
theorem retrieve_others {srv : Server} (hsrv : Consistent srv) {s s' s2 : St} {k k' : Kind} {n n' o o' : ℕ}
    (h' : retrieve srv (.pair k' n') s = .ok (o', s')) (h : retrieve srv (.pair k n) s' = .ok (o, s2)) :
    retrieve srv (.pair k' n') s2 = .ok (o', s2) := by
  obtain ⟨-, -, -, h4⟩ := part hsrv (fun d s o s' h => parse_makes hsrv h) h'
  obtain ⟨-, -, h3, -⟩ := part hsrv (fun d s o s' h => parse_makes hsrv h) h
  simp [retrieve, retrieveWith, h3 _ _ h4]

/-- retrieving in turn -/
def retrieveAll (srv : Server) : List (Kind × ℕ) → St → Except Err (List ℕ × St)
  | [], s => .ok ([], s)
  | k :: l, s => match retrieve srv (.pair k.1 k.2) s with
    | .error e => .error e
    | .ok (o, s) => match retrieveAll srv l s with
      | .error e => .error e
      | .ok (os, s) => .ok (o :: os, s)

/-- C206: along any sequence of retrievals an entity is one object: once retrieved, it is the same one after all the others. -/
theorem retrieve_stable {srv : Server} (hsrv : Consistent srv) (l : List (Kind × ℕ)) : ∀ {s s' s2 : St} {k : Kind} {n o : ℕ}
    {os : List ℕ}, retrieve srv (.pair k n) s = .ok (o, s') → retrieveAll srv l s' = .ok (os, s2) →
    retrieve srv (.pair k n) s2 = .ok (o, s2) := by
  induction l with
  | nil => intro s s' s2 k n o os h h2; cases h2; exact retrieve_again hsrv h
  | cons k' l ih =>
    intro s s' s2 k n o os h h2
    unfold retrieveAll at h2
    split at h2
    · cases h2
    · rename_i o3 s3 h3
      split at h2
      · cases h2
      · rename_i os4 s4 h4
        cases h2
        exact ih (retrieve_others hsrv h h3) h4

/-- C206: a key that is not of the form "kind/id" raises, even the uuid of an entity the client has come across. -/
theorem retrieve_text (srv : Server) (t : String) (s : St) : retrieve srv (.text t) s = .error .keyError := rfl

/-! ### listing (C207) -/

/-- one after the other -/
theorem parseAll_makes {srv : Server} (hsrv : Consistent srv) (l : List Doc) : ∀ {s s' : St} {os : List ℕ},
    parseAll srv l s = .ok (os, s') →
    After s s' ∧ (Sound s → Sound s') ∧ List.Forall₂ (fun (o : ℕ) d => s.docs.length ≤ o ∧ s'.docs[o]? = some d) os l := by
  induction l with
  | nil => intro s s' os h; cases h; exact ⟨After.refl _, id, .nil⟩
  | cons d l ih =>
    intro s s' os h
    unfold parseAll at h
    split at h
    · cases h
    · rename_i o s1 h1
      split at h
      · cases h
      · rename_i os2 s2 h2
        cases h
        have hm := parse_makes hsrv h1
        obtain ⟨ha, hs, hf⟩ := ih h2
        refine ⟨hm.after.trans ha, fun h => hs (hm.sound h), .cons ⟨hm.fresh, ha.sound hm.doc⟩ ?_⟩
        apply hf.imp
        rintro o' d' ⟨x, y⟩
        obtain ⟨l', hl⟩ := hm.after.docs
        refine ⟨?_, y⟩
        rw [hl, List.length_append] at x; omega

/-- what is retrieved under the keys of listed documents afterwards is new -/
theorem parseAll_fresh {srv : Server} (hsrv : Consistent srv) (K : Kind) (l : List Doc) (hl : ∀ d ∈ l, d.kind = K) :
    ∀ {s s' : St} {os : List ℕ} (b : ℕ), b ≤ s.docs.length → parseAll srv l s = .ok (os, s') →
    ∀ n, (∃ d ∈ l, d.id = n) ∨ (∃ o, b ≤ o ∧ s.cached.get? (K, n) = some o) → ∃ o, b ≤ o ∧ s'.cached.get? (K, n) = some o := by
  induction l with
  | nil =>
    intro s s' os b hb h n hn
    cases h
    rcases hn with ⟨d, hd, -⟩ | hn
    · cases hd
    · exact hn
  | cons d l ih =>
    intro s s' os b hb h n hn
    unfold parseAll at h
    split at h
    · cases h
    · rename_i o s1 h1
      split at h
      · cases h
      · rename_i os2 s2 h2
        cases h
        have hm := parse_makes hsrv h1
        obtain ⟨l', hl'⟩ := hm.after.docs
        apply ih (fun d hd => hl d (List.mem_cons_of_mem _ hd)) b (by rw [hl', List.length_append]; omega) h2
        by_cases hnd : n = d.id
        · right
          refine ⟨o, hb.trans hm.fresh, ?_⟩
          have := hm.cached
          rw [hl d List.mem_cons_self] at this; rw [hnd]; exact this
        · rcases hn with ⟨d', hd', e⟩ | ⟨o', ho', hc⟩
          · rcases List.mem_cons.mp hd' with rfl | hd'
            · exact absurd e.symm hnd
            · exact .inl ⟨d', hd', e⟩
          · right
            have hk : s.known (K, n) = some o' := by simp [St.known, hc]
            have hk' : s1.known (K, n) = some o' := by
              have := hm.kind n hnd
              rw [hl d List.mem_cons_self] at this; rw [this]; exact hk
            have hne := hm.after.cached (K, n) (by rw [hc]; simp)
            refine ⟨o', ho', ?_⟩
            cases hcc : s1.cached.get? (K, n) with
            | none => exact absurd hcc hne
            | some x => simp [St.known, hcc] at hk'; rw [hk']

/-- C207: the first listing takes everything from the server: one new object for each document, in the server's order. -/
theorem listing_first {srv : Server} (hsrv : Consistent srv) {k : Kind} {s s' : St} {os : List ℕ} (hf : s.fetched k = false)
    (h : entitiesByType srv k s = .ok (os, s')) :
    s'.fetched k = true ∧
    List.Forall₂ (fun (o : ℕ) d => s.docs.length ≤ o ∧ s'.docs[o]? = some d) os (srv.all k) := by
  unfold entitiesByType at h
  simp only [hf, Bool.false_eq_true, if_false] at h
  split at h
  · cases h
  · rename_i os2 s2 h2
    cases h
    exact ⟨by simp, (parseAll_makes hsrv _ h2).2.2⟩

/-- C207: an entity that was retrieved before the first listing is another object after it, although it was known; the old one
stays in the archive's own table. -/
theorem listing_replaces {srv : Server} (hsrv : Consistent srv) {k : Kind} {s s' : St} {os : List ℕ} (hs : Sound s)
    (hf : s.fetched k = false) (h : entitiesByType srv k s = .ok (os, s')) {d : Doc} (hd : d ∈ srv.all k) {o : ℕ}
    (hk : retrieve srv (.pair k d.id) s = .ok (o, s)) :
    (∃ o', o' ≠ o ∧ retrieve srv (.pair k d.id) s' = .ok (o', s')) ∧
    (s.entities.get? (k, d.id) = some o → s'.entities.get? (k, d.id) = some o) := by
  have hold : o < s.docs.length := by
    obtain ⟨-, d', h1, -⟩ := retrieve_describes hsrv hs hk
    exact (List.getElem?_eq_some_iff.mp h1).1
  unfold entitiesByType at h
  simp only [hf, Bool.false_eq_true, if_false] at h
  split at h
  · cases h
  · rename_i os2 s2 h2
    cases h
    obtain ⟨o', ho', hc⟩ := parseAll_fresh (s := { s with requests := s.requests + 1 }) hsrv k _ (hsrv.all k) s.docs.length
      le_rfl h2 d.id (.inl ⟨d, hd, rfl⟩)
    refine ⟨⟨o', by omega, ?_⟩, ?_⟩
    · simp [retrieve, retrieveWith, St.known, hc]
    · intro he
      exact (parseAll_makes hsrv _ h2).1.entities _ _ he

/-- what a listing of a kind shows: of the flow properties those that are no methods, of the methods those that are -/
def Shown (k : Kind) (s : St) (o : ℕ) : Prop :=
  (k = .flowproperty → ∃ d, s.docs[o]? = some d ∧ d.indicator = false) ∧
  (k = .lciamethod → ∃ d, s.docs[o]? = some d ∧ d.indicator = true)

theorem listed_iff (k : Kind) (s : St) (o : ℕ) : listed k s o = true ↔ Shown k s o := by
  unfold listed Shown
  cases k <;> simp <;> cases s.docs[o]? <;> simp

/-- C207: a later listing makes no request and changes nothing; it gives the objects kept under keys of the kind, each once, those
of flow properties without and of methods with an indicator only, in the order of their ids as texts. -/
theorem listing_later (srv : Server) {k : Kind} {s : St} (hf : s.fetched k = true) :
    open Classical in
    ∃ ns : List (ℕ × ℕ), entitiesByType srv k s = .ok (ns.map Prod.snd, s) ∧
      ns.Pairwise (fun a b => a.1.repr ≤ b.1.repr) ∧
      ns.Perm (s.cached.filterMap fun kv => if kv.1.1 = k ∧ Shown k s kv.2 then some (kv.1.2, kv.2) else none) := by
  simp only [← listed_iff]
  let srt := ((s.cached.filter fun kv => decide (kv.1.1 = k)).insertionSort fun a b => a.1.2.repr ≤ b.1.2.repr)
  refine ⟨(srt.filter fun kv => listed k s kv.2).map fun kv => (kv.1.2, kv.2), ?_, ?_, ?_⟩
  · unfold entitiesByType
    simp only [hf, if_true]
    congr 2
    rw [List.map_map, List.filter_map]
    rfl
  · rw [List.pairwise_map]
    apply List.Pairwise.filter
    have : Std.Total (fun a b : (Kind × ℕ) × ℕ => a.1.2.repr ≤ b.1.2.repr) := ⟨fun a b => le_total _ _⟩
    have : IsTrans ((Kind × ℕ) × ℕ) (fun a b => a.1.2.repr ≤ b.1.2.repr) := ⟨fun a b c => le_trans⟩
    exact List.pairwise_insertionSort _ _
  · have h1 : srt.Perm (s.cached.filter fun kv => decide (kv.1.1 = k)) := List.perm_insertionSort _ _
    refine ((h1.filter _).map _).trans ?_
    apply List.Perm.of_eq
    generalize s.cached = l
    induction l with
    | nil => rfl
    | cons a l ih =>
      by_cases hk : a.1.1 = k
      · by_cases hl : listed k s a.2 = true
        · simp [hk, hl]; simpa using ih
        · simp [hk, hl]; simpa using ih
      · simp [hk]; simpa using ih

/-- C207: the same listing again gives the same objects. -/
theorem listing_repeat (srv : Server) {k : Kind} {s : St} (hf : s.fetched k = true) {os : List ℕ} {s' : St}
    (h : entitiesByType srv k s = .ok (os, s')) : entitiesByType srv k s' = .ok (os, s') := by
  obtain ⟨ns, h1, -⟩ := listing_later srv hf
  rw [h1] at h; cases h; exact h1

/-- C206, C207: the archive as it is made keeps what is required, and has all flow properties. -/
theorem init_sound {srv : Server} (hsrv : Consistent srv) {s : St} (h : init srv = .ok s) :
    Sound s ∧ s.fetched .flowproperty = true ∧ (∀ k, k ≠ .flowproperty → s.fetched k = false) ∧ s.requests ≥ 1 := by
  unfold init at h
  split at h
  · cases h
  · rename_i os s1 h1
    cases h
    obtain ⟨a, b, -⟩ := parseAll_makes hsrv _ h1
    refine ⟨?_, by simp, by intro k hk; simp [hk], a.requests⟩
    refine b ?_
    intro k o hk
    rcases hk with hk | hk <;> cases hk

/-! ### a case -/

/-- a server with a flow property, 11 flows of it and a fragment of flow 2 -/
def exServer : Server where
  one
    | .flowproperty, 1 => some ⟨.flowproperty, 1, 0, false⟩
    | .flow, n => if 1 ≤ n ∧ n ≤ 11 then some ⟨.flow, n, 1, false⟩ else none
    | .fragment, 1 => some ⟨.fragment, 1, 2, false⟩
    | _, _ => none
  all
    | .flowproperty => [⟨.flowproperty, 1, 0, false⟩]
    | .flow => [2, 10].map fun n => ⟨.flow, n, 1, false⟩
    | .fragment => [⟨.fragment, 1, 2, false⟩]
    | _ => []

theorem exServer_consistent : Consistent exServer where
  one := by
    intro k n d h
    unfold exServer at h
    simp only at h
    split at h
    · cases h; exact ⟨rfl, rfl⟩
    · split at h
      · cases h; exact ⟨rfl, rfl⟩
      · cases h
    · cases h; exact ⟨rfl, rfl⟩
    · cases h
  all := by
    intro k d hd
    cases k <;> simp [exServer] at hd
    · rcases hd with rfl | rfl <;> rfl
    · subst hd; rfl
    · subst hd; rfl

/-- the fragment is retrieved (with its flow), then the flow, then flows are listed, then the flow is retrieved again, and flows are
listed again: 10 comes before 2 -/
def exRun : Except Err (List ℕ × ℕ) := do
  let s0 ← init exServer
  let (f, s1) ← retrieve exServer (.pair .fragment 1) s0
  let (a, s2) ← retrieve exServer (.pair .flow 2) s1
  let (l, s3) ← entitiesByType exServer .flow s2
  let (b, s4) ← retrieve exServer (.pair .flow 2) s3
  let (l', s5) ← entitiesByType exServer .flow s4
  pure ([f, a, b] ++ l ++ l', s5.requests)

example : exRun.toOption = some ([2, 1, 3] ++ [3, 4] ++ [4, 3], 4) := by decide +kernel

end Av1
