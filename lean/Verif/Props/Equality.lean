import Mathlib.Data.Nat.Pairing
import Verif.Model.Equality

/-!
C102–C104: `==` is an equivalence and agrees with `hash`, so that entities, references, exchanges and terminations can be kept in
sets and dicts.
-/

namespace PyEq

/-! ### specification -/

/-- what == and hash must satisfy on a class of objects: no exceptions, an equivalence, and equal objects have equal hashes for
every hash function -/
structure Lawful {α : Type} (P : α → Prop) (eq : α → α → Except Err Bool) (hash : (HashIn → ℤ) → α → Except Err ℤ) : Prop where
  total : ∀ a b, P a → P b → ∃ r, eq a b = .ok r
  refl : ∀ a, P a → eq a a = .ok true
  symm : ∀ a b, P a → P b → eq a b = .ok true → eq b a = .ok true
  trans : ∀ a b c, P a → P b → P c → eq a b = .ok true → eq b c = .ok true → eq a c = .ok true
  hash : ∀ h a b, P a → P b → eq a b = .ok true → ∃ i, hash h a = .ok i ∧ hash h b = .ok i

def IsEntity : Ent → Prop
  | .entity .. => True
  | .ref .. => False

def IsRef : Ent → Prop
  | .entity .. => False
  | .ref .. => True

/-- the same type, origin and external reference -/
def Same (a b : Ent) : Prop := a.etype = b.etype ∧ a.origin = b.origin ∧ a.ext = b.ext

/-! ### strings -/

theorem startsWith_iff (s p : String) : startsWith s p = true ↔ p.toList <+: s.toList := by
  unfold startsWith; exact List.isPrefixOf_iff_prefix

theorem startsWith_refl (s : String) : startsWith s s = true := (startsWith_iff s s).2 (List.prefix_refl _)

/-! ### C102: entities and references -/

theorem entity_eq_iff {a : Ent} (ha : IsEntity a) (b : Ent) : eqE a b = .ok true ↔ Same a b := by
  cases a with
  | ref => exact ha.elim
  | entity t o e u =>
    simp only [eqE, Same, Ent.etype, Ent.origin, Ent.ext, Except.ok.injEq, Bool.and_eq_true, beq_iff_eq]
    constructor
    · rintro ⟨⟨h1, h2⟩, h3⟩; exact ⟨h3, h2, h1⟩
    · rintro ⟨h3, h2, h1⟩; exact ⟨⟨h1, h2⟩, h3⟩

theorem entity_total {a : Ent} (ha : IsEntity a) (b : Ent) : ∃ r, eqE a b = .ok r := by
  cases a with
  | ref => exact ha.elim
  | entity => exact ⟨_, rfl⟩

theorem hashE_congr (h : HashIn → ℤ) {a b : Ent} (ha : IsEntity a) (hb : IsEntity b) (ho : a.origin = b.origin) (hu : a.uuid = b.uuid)
    (hn : a.origin ≠ none) : ∃ i, hashE h a = .ok i ∧ hashE h b = .ok i := by
  cases a with
  | ref => exact ha.elim
  | entity t o e u =>
    cases b with
    | ref => exact hb.elim
    | entity t' o' e' u' =>
      simp only [Ent.origin, Ent.uuid] at ho hu hn
      subst ho hu
      cases o with
      | none => exact absurd rfl hn
      | some o => exact ⟨_, rfl, rfl⟩

/-- C102 for entities with an origin, as long as the external reference determines the uuid -/
theorem entity_lawful_partial (P : Ent → Prop) (hP : ∀ a, P a → IsEntity a ∧ a.origin ≠ none)
    (hu : ∀ a b, P a → P b → Same a b → a.uuid = b.uuid) : Lawful P eqE hashE where
  total a b ha _ := entity_total (hP a ha).1 b
  refl a ha := (entity_eq_iff (hP a ha).1 a).2 ⟨rfl, rfl, rfl⟩
  symm a b ha hb h := by
    obtain ⟨h1, h2, h3⟩ := (entity_eq_iff (hP a ha).1 b).1 h
    exact (entity_eq_iff (hP b hb).1 a).2 ⟨h1.symm, h2.symm, h3.symm⟩
  trans a b c ha hb _ h h' := by
    obtain ⟨h1, h2, h3⟩ := (entity_eq_iff (hP a ha).1 b).1 h
    obtain ⟨g1, g2, g3⟩ := (entity_eq_iff (hP b hb).1 c).1 h'
    exact (entity_eq_iff (hP a ha).1 c).2 ⟨h1.trans g1, h2.trans g2, h3.trans g3⟩
  hash h a b ha hb hab := by
    have hs := (entity_eq_iff (hP a ha).1 b).1 hab
    exact hashE_congr h (hP a ha).1 (hP b hb).1 hs.2.1 (hu a b ha hb hs) (hP a ha).2

/-- equality of entities is an equivalence without further conditions -/
theorem entity_equivalence (a b c : Ent) (ha : IsEntity a) (hb : IsEntity b) : eqE a a = .ok true ∧
    (eqE a b = .ok true → eqE b a = .ok true) ∧ (eqE a b = .ok true → eqE b c = .ok true → eqE a c = .ok true) := by
  simp only [entity_eq_iff ha, entity_eq_iff hb]
  refine ⟨⟨rfl, rfl, rfl⟩, fun ⟨h1, h2, h3⟩ => ⟨h1.symm, h2.symm, h3.symm⟩, fun ⟨h1, h2, h3⟩ ⟨g1, g2, g3⟩ =>
    ⟨h1.trans g1, h2.trans g2, h3.trans g3⟩⟩

-- entities of two kinds under one reference, both in the class
example : Lawful (fun a => a = .entity "flow" (some "x") "f" "u" ∨ a = .entity "flow" (some "x") "g" "v") eqE hashE := by
  refine entity_lawful_partial _ ?_ ?_
  · rintro a (rfl | rfl)
    · exact ⟨trivial, by decide⟩
    · exact ⟨trivial, by decide⟩
  · rintro a b (rfl | rfl) (rfl | rfl) h
    · rfl
    · exact absurd h.2.2 (by decide)
    · exact absurd h.2.2 (by decide)
    · rfl

/-- two entities with the same origin and external reference but different uuids are equal and have different hashes -/
theorem entity_hash_differs : ∃ a b : Ent, IsEntity a ∧ IsEntity b ∧ eqE a b = .ok true ∧
    ∀ h : HashIn → ℤ, Function.Injective h → hashE h a ≠ hashE h b ∧ inSet (hashE h) eqE a [b] = .ok false := by
  refine ⟨.entity "flow" (some "x") "f" "u", .entity "flow" (some "x") "f" "v", trivial, trivial, by decide, fun h hh => ?_⟩
  have : h (.pair (some "x") (some "u")) ≠ h (.pair (some "x") (some "v")) := fun hc => absurd (hh hc) (by decide)
  refine ⟨fun hc => this (Except.ok.inj hc), ?_⟩
  simp [inSet, hashE, this]

/-- an entity without origin cannot be hashed, and comparing a reference with it raises while the other order answers -/
theorem no_origin (t e u o u' : String) (h : HashIn → ℤ) :
    hashE h (.entity t none e u) = .error .attributeError ∧
    eqE (.ref t o e u') (.entity t none e u) = .error .typeError ∧ eqE (.entity t none e u) (.ref t o e u') = .ok false := by
  refine ⟨rfl, ?_, ?_⟩
  · simp [eqE, Ent.etype, Ent.ext, Ent.origin]
  · simp [eqE, Ent.etype, Ent.ext, Ent.origin]

theorem ref_eq_iff (t o e u t' o' e' u' : String) : eqE (.ref t o e u) (.ref t' o' e' u') = .ok true ↔
    t = t' ∧ e = e' ∧ (o'.toList <+: o.toList ∨ o.toList <+: o'.toList) := by
  have hd : eqE (.ref t o e u) (.ref t' o' e' u') =
      if decide (t = t') && decide (e = e') then .ok (startsWith o o' || startsWith o' o) else .ok false := rfl
  rw [hd]
  by_cases h : t = t' ∧ e = e'
  · rw [if_pos (by simp [h.1, h.2])]
    simp only [Except.ok.injEq, Bool.or_eq_true, startsWith_iff, h.1, h.2, true_and]
  · rw [if_neg (by simpa using h)]
    constructor
    · intro hc; cases hc
    · rintro ⟨h1, h2, -⟩; exact absurd ⟨h1, h2⟩ h

/-- C102 for references to one origin -/
theorem ref_lawful_partial (o : String) : Lawful (fun a => IsRef a ∧ a.origin = some o) eqE hashE where
  total := by
    rintro (_ | ⟨t, o1, e, u⟩) (_ | ⟨t', o2, e', u'⟩) ⟨ha, ho⟩ ⟨hb, ho'⟩
    · exact ha.elim
    · exact ha.elim
    · exact hb.elim
    · simp only [eqE, Ent.origin]
      split
      · exact ⟨_, rfl⟩
      · exact ⟨_, rfl⟩
  refl := by
    rintro (_ | ⟨t, o1, e, u⟩) ⟨ha, ho⟩
    · exact ha.elim
    · exact (ref_eq_iff ..).2 ⟨rfl, rfl, .inl (List.prefix_refl _)⟩
  symm := by
    rintro (_ | ⟨t, o1, e, u⟩) (_ | ⟨t', o2, e', u'⟩) ⟨ha, ho⟩ ⟨hb, ho'⟩ h
    · exact ha.elim
    · exact ha.elim
    · exact hb.elim
    · obtain ⟨h1, h2, h3⟩ := (ref_eq_iff ..).1 h
      exact (ref_eq_iff ..).2 ⟨h1.symm, h2.symm, h3.symm⟩
  trans := by
    rintro (_ | ⟨t, o1, e, u⟩) (_ | ⟨t', o2, e', u'⟩) (_ | ⟨t'', o3, e'', u''⟩) ⟨ha, ho⟩ ⟨hb, ho'⟩ ⟨hc, ho''⟩ h h'
    · exact ha.elim
    · exact ha.elim
    · exact ha.elim
    · exact ha.elim
    · exact hb.elim
    · exact hb.elim
    · exact hc.elim
    · obtain ⟨h1, h2, -⟩ := (ref_eq_iff ..).1 h
      obtain ⟨g1, g2, -⟩ := (ref_eq_iff ..).1 h'
      simp only [Ent.origin, Option.some.injEq] at ho ho''
      subst ho ho''
      exact (ref_eq_iff ..).2 ⟨h1.trans g1, h2.trans g2, .inl (List.prefix_refl _)⟩
  hash := by
    rintro h (_ | ⟨t, o1, e, u⟩) (_ | ⟨t', o2, e', u'⟩) ⟨ha, ho⟩ ⟨hb, ho'⟩ hab
    · exact ha.elim
    · exact ha.elim
    · exact hb.elim
    · obtain ⟨-, h2, -⟩ := (ref_eq_iff ..).1 hab
      simp only [Ent.origin, Option.some.injEq] at ho ho'
      subst ho ho' h2
      exact ⟨_, rfl, rfl⟩

example : IsRef (.ref "flow" "ecoinvent.3" "f" "u") ∧ (Ent.ref "flow" "ecoinvent.3" "f" "u").origin = some "ecoinvent.3" ∧
    eqE (.ref "flow" "ecoinvent.3" "f" "u") (.ref "flow" "ecoinvent.3" "f" "v") = .ok true ∧
    eqE (.ref "flow" "ecoinvent.3" "f" "u") (.ref "flow" "ecoinvent.3" "g" "u") = .ok false := by
  refine ⟨trivial, rfl, ?_, ?_⟩ <;> decide +kernel

/-- references to different origins: symmetric, and transitive unless the reference in the middle has the shortest origin -/
theorem ref_trans_partial (t o e u t' o' e' u' t'' o'' e'' u'' : String)
    (hl : o.toList.length ≤ o'.toList.length ∨ o''.toList.length ≤ o'.toList.length)
    (h : eqE (.ref t o e u) (.ref t' o' e' u') = .ok true) (h' : eqE (.ref t' o' e' u') (.ref t'' o'' e'' u'') = .ok true) :
    eqE (.ref t' o' e' u') (.ref t o e u) = .ok true ∧ eqE (.ref t o e u) (.ref t'' o'' e'' u'') = .ok true := by
  obtain ⟨h1, h2, h3⟩ := (ref_eq_iff ..).1 h
  obtain ⟨g1, g2, g3⟩ := (ref_eq_iff ..).1 h'
  refine ⟨(ref_eq_iff ..).2 ⟨h1.symm, h2.symm, h3.symm⟩, (ref_eq_iff ..).2 ⟨h1.trans g1, h2.trans g2, ?_⟩⟩
  -- prefixes of one list are comparable
  have key : ∀ {a b c : List Char}, a.length ≤ b.length → (b <+: a ∨ a <+: b) → (c <+: b ∨ b <+: c) → c <+: a ∨ a <+: c := by
    intro a b c hl h g
    have hab : a <+: b := by
      rcases h with h | h
      · rw [h.eq_of_length (by have := h.length_le; omega)]
      · exact h
    rcases g with g | g
    · rcases Nat.le_total c.length a.length with hc | hc
      · exact .inl (List.prefix_of_prefix_length_le g hab hc)
      · exact .inr (List.prefix_of_prefix_length_le hab g hc)
    · exact .inr (hab.trans g)
  rcases hl with hl | hl
  · exact key hl h3 g3
  · exact (key hl g3.symm h3.symm).symm

example : eqE (.ref "flow" "a" "f" "u") (.ref "flow" "a.b" "f" "u") = .ok true ∧
    eqE (.ref "flow" "a.b" "f" "u") (.ref "flow" "a.b.c" "f" "u") = .ok true := by constructor <;> decide +kernel

/-- not transitive: 'a.b' ~ 'a' ~ 'a.c', but 'a.b' and 'a.c' differ -/
theorem ref_not_transitive : ∃ a b c : Ent, IsRef a ∧ IsRef b ∧ IsRef c ∧ eqE a b = .ok true ∧ eqE b c = .ok true ∧ eqE a c = .ok false :=
  ⟨.ref "flow" "a.b" "f" "u", .ref "flow" "a" "f" "u", .ref "flow" "a.c" "f" "u", trivial, trivial, trivial, by decide +kernel,
    by decide +kernel, by decide +kernel⟩

/-- the prefix need not end at a dot: references to unrelated origins are equal -/
theorem ref_unrelated_equal : eqE (.ref "flow" "local.uslci" "f" "u") (.ref "flow" "local.uslci2" "f" "u") = .ok true := by decide +kernel

/-- equal references to different origins have different hashes -/
theorem ref_hash_differs (h : HashIn → ℤ) (hh : Function.Injective h) : ∃ a b, IsRef a ∧ IsRef b ∧ eqE a b = .ok true ∧
    hashE h a ≠ hashE h b ∧ inSet (hashE h) eqE a [b] = .ok false := by
  have : h (.str ("a" ++ "/" ++ "f")) ≠ h (.str ("a.b" ++ "/" ++ "f")) := fun hc => absurd (hh hc) (by decide +kernel)
  refine ⟨.ref "flow" "a" "f" "u", .ref "flow" "a.b" "f" "u", trivial, trivial, by decide +kernel, fun hc => this (Except.ok.inj hc), ?_⟩
  simp only [inSet, hashE]
  rw [if_neg this]

/-- an entity and the reference made from it are equal both ways, and neither is found in a set with the other: for every entity -/
theorem ref_of_entity_not_found (h : HashIn → ℤ) (hh : Function.Injective h) (t o e u : String) :
    eqE (.entity t (some o) e u) (makeRef o (.entity t (some o) e u)) = .ok true ∧
    eqE (makeRef o (.entity t (some o) e u)) (.entity t (some o) e u) = .ok true ∧
    inSet (hashE h) eqE (makeRef o (.entity t (some o) e u)) [.entity t (some o) e u] = .ok false ∧
    inSet (hashE h) eqE (.entity t (some o) e u) [makeRef o (.entity t (some o) e u)] = .ok false := by
  have h1 : h (.str (o ++ "/" ++ e)) ≠ h (.pair (some o) (some u)) := fun hc => by cases hh hc
  refine ⟨by simp [eqE, makeRef, Ent.ext, Ent.origin, Ent.etype], ?_, ?_, ?_⟩
  · simp [eqE, makeRef, Ent.ext, Ent.origin, Ent.etype, startsWith_refl]
  · simp [inSet, hashE, makeRef, h1]
  · simp [inSet, hashE, makeRef, h1.symm]

/-- an entity and a reference: the answer depends on the order -/
theorem entity_ref_asymmetric : ∃ a b : Ent, eqE a b = .ok false ∧ eqE b a = .ok true :=
  ⟨.entity "flow" (some "a") "f" "u", .ref "flow" "a.b" "f" "u", by decide +kernel, by decide +kernel⟩

/-! membership in a set -/

theorem inSet_spec {α : Type} {P : α → Prop} {eq : α → α → Except Err Bool} {hash : (HashIn → ℤ) → α → Except Err ℤ}
    (hl : Lawful P eq hash) (h : HashIn → ℤ) (x : α) (hx : P x) (s : List α) (hs : ∀ y ∈ s, P y) :
    ∃ r, inSet (hash h) eq x s = .ok r ∧ (r = true ↔ ∃ y ∈ s, eq y x = .ok true) := by
  induction s with
  | nil => exact ⟨false, rfl, by simp⟩
  | cons y s ih =>
    obtain ⟨r, hr, hr'⟩ := ih fun z hz => hs z (List.mem_cons_of_mem _ hz)
    obtain ⟨i, hi, -⟩ := hl.hash h x x hx hx (hl.refl x hx)
    have hy := hs y List.mem_cons_self
    obtain ⟨j, hj, -⟩ := hl.hash h y y hy hy (hl.refl y hy)
    obtain ⟨b, hb⟩ := hl.total y x hy hx
    simp only [inSet, hi, hj]
    by_cases hij : i = j
    · rw [if_pos hij, hb]
      cases b with
      | true => exact ⟨true, rfl, by simpa using .inl hb⟩
      | false =>
        refine ⟨r, hr, hr'.trans ?_⟩
        simp [hb]
    · rw [if_neg hij]
      refine ⟨r, hr, hr'.trans ?_⟩
      have : eq y x ≠ .ok true := by
        intro hc
        obtain ⟨k, h1, h2⟩ := hl.hash h y x hy hx hc
        rw [hi] at h2
        rw [hj] at h1
        cases h1
        cases h2
        exact hij rfl
      simp [this]

/-- a reference is found in a set of references to the same origin exactly if one of them has its type and external reference -/
theorem set_of_refs (h : HashIn → ℤ) (o t e u : String) (s : List Ent) (hs : ∀ y ∈ s, IsRef y ∧ y.origin = some o) :
    ∃ r, inSet (hashE h) eqE (.ref t o e u) s = .ok r ∧ (r = true ↔ ∃ y ∈ s, y.etype = t ∧ y.ext = e) := by
  obtain ⟨r, hr, hr'⟩ := inSet_spec (ref_lawful_partial o) h (.ref t o e u) ⟨trivial, rfl⟩ s hs
  refine ⟨r, hr, hr'.trans ?_⟩
  constructor
  · rintro ⟨y, hy, hyx⟩
    obtain ⟨h1, h2⟩ := hs y hy
    cases y with
    | entity => exact h1.elim
    | ref t' o' e' u' => obtain ⟨g1, g2, -⟩ := (ref_eq_iff ..).1 hyx; exact ⟨_, hy, g1, g2⟩
  · rintro ⟨y, hy, rfl, rfl⟩
    obtain ⟨h1, h2⟩ := hs y hy
    cases y with
    | entity => exact h1.elim
    | ref t' o' e' u' =>
      simp only [Ent.origin, Option.some.injEq] at h2
      subst h2
      exact ⟨_, hy, (ref_eq_iff ..).2 ⟨rfl, rfl, .inl (List.prefix_refl _)⟩⟩

example : ∃ r, inSet (hashE fun _ => 0) eqE (.ref "flow" "a" "f" "u") [.ref "flow" "a" "g" "v", .ref "flow" "a" "f" "w"] = .ok r ∧ r = true :=
  ⟨true, by decide +kernel, rfl⟩

/-! ### C103: exchanges -/

/-- the exchanges and reference exchanges of the process -/
def Xch.process : Xch → String
  | .exch p _ _ _ => p
  | .rx p _ _ => p

def Xch.flow : Xch → String
  | .exch _ f _ _ => f
  | .rx _ f _ => f

def Xch.dir : Xch → String
  | .exch _ _ d _ => d
  | .rx _ _ d => d

def Xch.term : Xch → Option String
  | .exch _ _ _ t => t
  | .rx _ _ _ => none

/-- flow, direction and termination -/
def SameX (a b : Xch) : Prop := a.flow = b.flow ∧ a.dir = b.dir ∧ a.term = b.term

theorem eqX_iff (h : HashIn → ℤ) (hh : Function.Injective h) (a b : Xch) (hp : a.process = b.process) : eqX h a b = true ↔ SameX a b := by
  unfold SameX
  cases a <;> cases b <;>
    simp_all [eqX, Xch.key, Xch.lkey, Xch.flow, Xch.dir, Xch.term, Xch.process, hh.eq_iff]

/-- C103 for exchanges and reference exchanges of one process, whatever the mixture, for a hash without collisions: equal exactly if
flow, direction and termination are the same -/
theorem exchange_lawful_partial (h : HashIn → ℤ) (hh : Function.Injective h) (a b c : Xch) (hp : a.process = b.process)
    (hq : b.process = c.process) :
    (eqX h a b = true ↔ SameX a b) ∧ eqX h a a = true ∧ eqX h a b = eqX h b a ∧
    (eqX h a b = true → eqX h b c = true → eqX h a c = true) ∧ (eqX h a b = true → hashX h a = hashX h b) := by
  refine ⟨eqX_iff h hh a b hp, (eqX_iff h hh a a rfl).2 ⟨rfl, rfl, rfl⟩, ?_, ?_, ?_⟩
  · rw [Bool.eq_iff_iff, eqX_iff h hh a b hp, eqX_iff h hh b a hp.symm]
    exact ⟨fun ⟨h1, h2, h3⟩ => ⟨h1.symm, h2.symm, h3.symm⟩, fun ⟨h1, h2, h3⟩ => ⟨h1.symm, h2.symm, h3.symm⟩⟩
  · rw [eqX_iff h hh a b hp, eqX_iff h hh b c hq, eqX_iff h hh a c (hp.trans hq)]
    exact fun ⟨h1, h2, h3⟩ ⟨g1, g2, g3⟩ => ⟨h1.trans g1, h2.trans g2, h3.trans g3⟩
  · rw [eqX_iff h hh a b hp]
    rintro ⟨h1, h2, h3⟩
    unfold hashX
    cases a <;> cases b <;> simp_all [Xch.key, Xch.flow, Xch.dir, Xch.term, Xch.process]

/-- an injective hash, for examples -/
theorem exists_injective : ∃ h : HashIn → ℤ, Function.Injective h := by
  -- strings are countable
  let enc : List Char → ℕ := fun l => l.foldr (fun c n => n * 1114112 + c.toNat + 1) 0
  have hlt : ∀ c : Char, c.toNat < 1114112 := by
    intro c
    have := c.valid
    have hv : c.toNat = c.val.toNat := rfl
    rw [hv]
    rcases this with h | ⟨-, h⟩ <;> omega
  have hinj : Function.Injective enc := by
    intro a
    induction a with
    | nil =>
      intro b hb
      cases b with
      | nil => rfl
      | cons c l => simp [enc] at hb
    | cons c l ih =>
      intro b hb
      cases b with
      | nil => simp [enc] at hb
      | cons c' l' =>
        have hb : enc l * 1114112 + c.toNat + 1 = enc l' * 1114112 + c'.toNat + 1 := hb
        have h1 := hlt c
        have h2 := hlt c'
        have h3 : enc l = enc l' := by omega
        have h4 : c.toNat = c'.toNat := by omega
        rw [ih h3, Char.toNat_inj.1 h4]
  let s : String → ℕ := fun x => enc x.toList
  have hs : Function.Injective s := fun a b hab => String.toList_inj.1 (hinj hab)
  let o : Option String → ℕ := fun x => match x with | none => 0 | some x => s x + 1
  have ho : Function.Injective o := by
    intro a b hab
    cases a <;> cases b <;> simp [o] at hab
    · rfl
    · rw [hs hab]
  let f : HashIn → ℕ := fun x => match x with
    | .str a => Nat.pair 0 (s a)
    | .pair a b => Nat.pair 1 (Nat.pair (o a) (o b))
    | .four a b c d => Nat.pair 2 (Nat.pair (s a) (Nat.pair (s b) (Nat.pair (s c) (o d))))
    | .three a b c => Nat.pair 3 (Nat.pair (s a) (Nat.pair (s b) (s c)))
  refine ⟨fun x => (f x : ℤ), fun a b hab => ?_⟩
  have hab : f a = f b := Int.ofNat.inj hab
  cases a <;> cases b <;> simp [f, Nat.pair_eq_pair, hs.eq_iff, ho.eq_iff] at hab ⊢ <;> exact hab

example : ∃ h : HashIn → ℤ, Function.Injective h ∧ eqX h (.rx "p" "f" "Output") (.exch "p" "f" "Output" none) = true ∧
    eqX h (.exch "p" "f" "Output" none) (.rx "p" "f" "Output") = true ∧
    eqX h (.exch "p" "f" "Output" none) (.exch "p" "f" "Output" (some "q")) = false := by
  obtain ⟨h, hh⟩ := exists_injective
  refine ⟨h, hh, by simp [eqX, Xch.lkey], by simp [eqX, Xch.key], ?_⟩
  simp [eqX, Xch.key, hh.eq_iff]

/-- exchanges proper: an equivalence that agrees with the hash for every hash function; without collisions equality means the same
process, flow, direction and termination -/
theorem exchange_proper (h : HashIn → ℤ) (p f d p' f' d' : String) (t t' : Option String) (c : Xch) :
    eqX h (.exch p f d t) (.exch p f d t) = true ∧
    (eqX h (.exch p f d t) (.exch p' f' d' t') = true ↔ hashX h (.exch p f d t) = hashX h (.exch p' f' d' t')) ∧
    (eqX h (.exch p f d t) (.exch p' f' d' t') = eqX h (.exch p' f' d' t') (.exch p f d t)) ∧
    (eqX h (.exch p f d t) (.exch p' f' d' t') = true → eqX h (.exch p' f' d' t') c = true → eqX h (.exch p f d t) c = true) ∧
    (Function.Injective h → (eqX h (.exch p f d t) (.exch p' f' d' t') = true ↔ p = p' ∧ f = f' ∧ d = d' ∧ t = t')) := by
  refine ⟨by simp [eqX], by simp [eqX, hashX], ?_, ?_, ?_⟩
  · simp only [eqX]; rw [Bool.eq_iff_iff]; simp only [decide_eq_true_eq]; exact eq_comm
  · simp only [eqX, decide_eq_true_eq]; exact fun h1 h2 => h1.trans h2
  · intro hh; simp [eqX, Xch.key, hh.eq_iff]

/-- reference exchanges of different processes are equal, with different hashes; compared with an exchange the answer depends on
the order -/
theorem rx_not_lawful (h : HashIn → ℤ) (hh : Function.Injective h) (p p' f d : String) (hp : p ≠ p') :
    eqX h (.rx p f d) (.rx p' f d) = true ∧ hashX h (.rx p f d) ≠ hashX h (.rx p' f d) ∧
    eqX h (.rx p f d) (.exch p' f d none) = true ∧ eqX h (.exch p' f d none) (.rx p f d) = false := by
  refine ⟨by simp [eqX, Xch.lkey], ?_, by simp [eqX, Xch.lkey], ?_⟩
  · simp [hashX, Xch.key, hh.eq_iff, hp]
  · simp [eqX, Xch.key, hh.eq_iff, Ne.symm hp]

/-! characterizations and details of results -/

/-- characterizations are equal exactly if flow and quantity are, and then have equal hashes -/
theorem char_lawful (h : HashIn → ℤ) (a b : Char2) : (eqChar a b = true ↔ a = b) ∧ (eqChar a b = true → hashChar h a = hashChar h b) := by
  have : eqChar a b = true ↔ a = b := by
    cases a; cases b; simp [eqChar]
  exact ⟨this, fun hab => by rw [this.1 hab]⟩

/-- details of results, with directions Input and Output -/
theorem detail_lawful (h : HashIn → ℤ) (a b : Detail) (ha : a.dir = "Input" ∨ a.dir = "Output") (hb : b.dir = "Input" ∨ b.dir = "Output") :
    (eqDetail a b = true ↔ a = b) ∧ (eqDetail a b = true → hashDetail h a = hashDetail h b) := by
  have : eqDetail a b = true ↔ a = b := by
    obtain ⟨p, d, f⟩ := a
    obtain ⟨p', d', f'⟩ := b
    simp only at ha hb
    rcases ha with rfl | rfl <;> rcases hb with rfl | rfl <;> simp [eqDetail]
  exact ⟨this, fun hab => by rw [this.1 hab]⟩

example : eqDetail ⟨"p", "Input", "f"⟩ ⟨"p", "Output", "f"⟩ = false := by decide +kernel

/-! ### C104: terminations and fragment flows -/

/-- C104 for terminations that are all null or all not null, with flows that are entities: an equivalence -/
theorem term_equivalence_partial (a b c : Term) (hn : a.node.isSome = b.node.isSome) (hn' : b.node.isSome = c.node.isSome)
    (ha : IsEntity a.flow) (hb : IsEntity b.flow) :
    eqT false a a = .ok true ∧ (∃ r, eqT false a b = .ok r) ∧ (eqT false a b = .ok true → eqT false b a = .ok true) ∧
    (eqT false a b = .ok true → eqT false b c = .ok true → eqT false a c = .ok true) := by
  obtain ⟨n, f, d⟩ := a
  obtain ⟨n', f', d'⟩ := b
  obtain ⟨n'', f'', d''⟩ := c
  simp only at hn hn' ha hb
  have key : ∀ {f f' : Ent} (n n' : Ent) (d d' : String), IsEntity f →
      (eqT false ⟨some n, f, d⟩ ⟨some n', f', d'⟩ = .ok true ↔ n.ext = n'.ext ∧ eqE f f' = .ok true ∧ d = d') := by
    intro f f' n n' d d' hf
    obtain ⟨r, hr⟩ := entity_total hf f'
    simp only [eqT, hr, Bool.false_eq_true, if_false]
    by_cases he : n.ext = n'.ext
    · rw [if_pos he]
      cases r <;> simp [he]
    · rw [if_neg he]
      simp [he]
  cases n with
  | none =>
    cases n' with
    | some => simp at hn
    | none =>
      cases n'' with
      | some => simp at hn'
      | none => exact ⟨rfl, ⟨_, rfl⟩, fun _ => rfl, fun _ _ => rfl⟩
  | some n =>
    cases n' with
    | none => simp at hn
    | some n' =>
      cases n'' with
      | none => simp at hn'
      | some n'' =>
        obtain ⟨e1, e2, e3⟩ := entity_equivalence f f' f'' ha hb
        refine ⟨(key _ _ _ _ ha).2 ?_, ?_, ?_, ?_⟩
        · exact ⟨rfl, e1, rfl⟩
        · obtain ⟨r, hr⟩ := entity_total ha f'
          simp only [eqT, hr, Bool.false_eq_true, if_false]
          split
          · cases r <;> exact ⟨_, rfl⟩
          · exact ⟨_, rfl⟩
        · rw [key _ _ _ _ ha, key _ _ _ _ hb]
          exact fun ⟨h1, h2, h3⟩ => ⟨h1.symm, e2 h2, h3.symm⟩
        · rw [key _ _ _ _ ha, key _ _ _ _ hb, key _ _ _ _ ha]
          exact fun ⟨h1, h2, h3⟩ ⟨g1, g2, g3⟩ => ⟨h1.trans g1, e3 h2 g2, h3.trans g3⟩

example : eqT false ⟨some (.ref "process" "a" "p" "u"), .entity "flow" (some "a") "f" "v", "Input"⟩
    ⟨some (.ref "process" "b" "p" "w"), .entity "flow" (some "a") "f" "v", "Input"⟩ = .ok true := by decide +kernel

/-- a termination is compared with a null termination: for every termination that is not null the comparison raises; the other
order answers False. So fragment flows of one fragment cannot be compared in scenarios where one of them is cut off. -/
theorem term_null_raises (n f f' : Ent) (d d' : String) :
    eqT false ⟨some n, f, d⟩ ⟨none, f', d'⟩ = .error .attributeError ∧ eqT false ⟨none, f', d'⟩ ⟨some n, f, d⟩ = .ok false ∧
    ∀ (t o e u : String) (m m' : ℤ), eqF ⟨.entity t (some o) e u, ⟨some n, f, d⟩, m⟩ ⟨.entity t (some o) e u, ⟨none, f', d'⟩, m'⟩ =
      .error .attributeError := by
  refine ⟨rfl, rfl, fun t o e u m m' => ?_⟩
  have : eqE (.entity t (some o) e u) (.entity t (some o) e u) = .ok true := (entity_eq_iff (a := .entity t (some o) e u) trivial _).2 ⟨rfl, rfl, rfl⟩
  simp only [eqF, this]
  rfl

/-- equality of terminations ignores the origin of the node: terminations in different databases are equal -/
theorem term_ignores_origin (t o e u o' u' : String) (f : Ent) (hf : IsEntity f) (d : String) :
    eqT false ⟨some (.ref t o e u), f, d⟩ ⟨some (.ref t o' e u'), f, d⟩ = .ok true := by
  have : eqE f f = .ok true := (entity_eq_iff hf _).2 ⟨rfl, rfl, rfl⟩
  simp only [eqT, Ent.ext, this]
  simp

/-- fragment flows that are equal have equal hashes if their fragments have the same uuid -/
theorem fflow_hash_partial (h : HashIn → ℤ) (a b : FFlow) (ha : IsEntity a.fragment) (hb : IsEntity b.fragment)
    (hn : a.fragment.origin ≠ none) (hu : a.fragment.uuid = b.fragment.uuid) (hab : eqF a b = .ok true) :
    ∃ i, hashF h a = .ok i ∧ hashF h b = .ok i := by
  have : eqE a.fragment b.fragment = .ok true := by
    revert hab
    unfold eqF
    split
    · rename_i h; intro _; exact h
    · exact id
  exact hashE_congr h ha hb ((entity_eq_iff ha _).1 this).2.1 hu hn

example : eqF ⟨.entity "fragment" (some "a") "g" "u", ⟨none, .entity "flow" (some "a") "f" "v", "Input"⟩, 3⟩
    ⟨.entity "fragment" (some "a") "g" "u", ⟨none, .entity "flow" (some "a") "h" "w", "Output"⟩, 3⟩ = .ok true := by decide +kernel

end PyEq
