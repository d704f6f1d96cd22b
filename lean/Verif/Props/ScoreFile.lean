import Mathlib.Algebra.BigOperators.Group.List.Basic
import Verif.Model.ScoreFile

/-!
C218: unit scores on file.
-/

namespace Scf

/-- the caches that come about by storing results and clearing -/
inductive Made : Cache → Prop
  | new : Made {}
  | set {c : Cache} (k : Txt) (r : Res) : Made c → Made (c.set k r)
  | clear {c : Cache} : Made c → Made c.clear

structure Ok (c : Cache) : Prop where
  idx : c.idx = c.ents.keys
  nd : c.ents.keys.Nodup

theorem ok_new : Ok {} := ⟨rfl, by simp [Dict.keys]⟩

theorem ok_set {c : Cache} (h : Ok c) (k : Txt) (r : Res) : Ok (c.set k r) := by
  unfold Cache.set
  constructor
  · simp only
    rw [h.idx]
    by_cases hk : k ∈ c.ents.keys
    · rw [if_pos hk, Dict.keys_set_of_mem _ _ hk]
    · rw [if_neg hk, Dict.set_of_not_mem _ _ hk]
      simp [Dict.keys]
  · exact Dict.nodup_keys_set _ _ _ h.nd

theorem made_ok {c : Cache} (h : Made c) : Ok c := by
  induction h with
  | new => exact ok_new
  | set k r _ ih => exact ok_set ih k r
  | clear _ _ => exact ok_new

/-- no key is the beginning of another: true of uuids, which are of one length -/
def Uniform (c : Cache) : Prop := ∀ a ∈ c.ents.keys, ∀ b ∈ c.ents.keys, a.isPrefixOf b = true → a = b

theorem get_eq {c : Cache} (h : Ok c) (hu : Uniform c) {k : Txt} (hk : k ∈ c.ents.keys) : c.get k = c.ents.get? k := by
  unfold Cache.get
  have : ∀ l : List (Txt × Res), (∀ p ∈ l, p ∈ c.ents) →
      (l.find? (fun p => k.isPrefixOf p.1)).map Prod.snd = Dict.get? l k := by
    intro l
    induction l with
    | nil => intro _; rfl
    | cons p l ih =>
      intro hl
      have hp : p.1 ∈ c.ents.keys := List.mem_map_of_mem (hl p (by simp))
      obtain ⟨a, r⟩ := p
      simp only [List.find?_cons]
      rw [Dict.get?]
      by_cases e : a = k
      · have := (List.isPrefixOf_iff_prefix (l₁ := k) (l₂ := k)).mpr (List.prefix_rfl)
        rw [if_pos e, e, this]; rfl
      · have h1 : k.isPrefixOf a = false := by
          cases h1 : k.isPrefixOf a with
          | false => rfl
          | true => exact absurd (hu k hk a hp h1).symm e
        rw [if_neg e, h1]
        exact ih (fun q hq => hl q (by simp [hq]))
  exact this c.ents (fun p hp => hp)

theorem mem_get {c : Cache} (h : Ok c) (hu : Uniform c) {k : Txt} (hk : k ∈ c.idx) : ∃ r, c.get k = some r ∧ c.ents.get? k = some r := by
  rw [h.idx] at hk
  obtain ⟨r, hr⟩ := (Dict.mem_keys_iff _ _).mp hk
  exact ⟨r, by rw [get_eq h hu hk, hr], hr⟩

/-- what saving gives -/
theorem save_eq {c : Cache} (h : Ok c) (hu : Uniform c) :
    save c = some (c.ents.map fun p => (⟨p.2.q.origin, p.2.q.ref, p.2.total⟩ : Rec)) := by
  have hgen : ∀ l : List (Txt × Res), (∀ p ∈ l, p ∈ c.ents) →
      (l.map Prod.fst).mapM (fun k => (c.get k).map fun r => (⟨r.q.origin, r.q.ref, r.total⟩ : Rec)) =
        some (l.map fun p => (⟨p.2.q.origin, p.2.q.ref, p.2.total⟩ : Rec)) := by
    intro l
    induction l with
    | nil => intro _; rfl
    | cons p l ih =>
      intro hl
      have hp := hl p (by simp)
      have hk : p.1 ∈ c.ents.keys := List.mem_map_of_mem hp
      have hg : c.get p.1 = some p.2 := by rw [get_eq h hu hk]; exact Dict.get?_eq_some_of_mem _ h.nd hp
      simp [hg, ih (fun q hq => hl q (by simp [hq]))]
  unfold save
  rw [h.idx]
  exact hgen c.ents (fun p hp => hp)

theorem load_eq {cat : Txt → Txt → Option Qty} (l : List (Txt × Res)) : ∀ {c : Cache}, Ok c →
    (∀ p ∈ l, ∃ q, cat p.2.q.origin p.2.q.ref = some q ∧ q.uuid = p.1) → (l.map Prod.fst).Nodup →
    (∀ p ∈ l, p.1 ∉ c.ents.keys) →
    ∃ c', load cat (l.map fun p => (⟨p.2.q.origin, p.2.q.ref, p.2.total⟩ : Rec)) c = some c' ∧ Ok c' ∧
      c'.idx = c.idx ++ l.map Prod.fst ∧
      (∀ k r, c.ents.get? k = some r → c'.ents.get? k = some r) ∧
      ∀ p ∈ l, ∃ q, cat p.2.q.origin p.2.q.ref = some q ∧ c'.ents.get? p.1 = some ⟨q, [(1, p.2.total)]⟩ := by
  induction l with
  | nil => intro c h _ _ _; exact ⟨c, rfl, h, by simp, fun k r h => h, by simp⟩
  | cons p l ih =>
    intro c h hq hn hnot
    obtain ⟨q, hcat, hu⟩ := hq p (by simp)
    simp only [List.map_cons, List.nodup_cons] at hn
    have hp := hnot p (by simp)
    have h1 := ok_set h p.1 ⟨q, [(1, p.2.total)]⟩
    have hkeys : (c.set p.1 ⟨q, [(1, p.2.total)]⟩).ents.keys = c.ents.keys ++ [p.1] := by
      unfold Cache.set
      simp only
      rw [Dict.set_of_not_mem _ _ hp]
      simp [Dict.keys]
    obtain ⟨c', e, h2, h3, h4, h5⟩ := ih (c := c.set p.1 ⟨q, [(1, p.2.total)]⟩) h1 (fun x hx => hq x (by simp [hx])) hn.2 (by
      intro x hx
      rw [hkeys]
      simp only [List.mem_append, List.mem_singleton, not_or]
      refine ⟨hnot x (by simp [hx]), fun e => hn.1 (by rw [← e]; exact List.mem_map_of_mem hx)⟩)
    refine ⟨c', ?_, h2, ?_, ?_, ?_⟩
    · simp only [List.map_cons, load]
      rw [hcat]
      simp only [addScore, hu]
      exact e
    · rw [h3, h1.idx, hkeys, h.idx]; simp
    · intro k r hr
      apply h4
      unfold Cache.set
      simp only
      rw [Dict.get?_set_ne _ _ (by
        intro e'
        subst e'
        exact hp ((Dict.mem_keys_iff _ _).mpr ⟨r, hr⟩))]
      exact hr
    · intro x hx
      rcases List.mem_cons.mp hx with rfl | hx
      · exact ⟨q, hcat, h4 _ _ (by unfold Cache.set; exact Dict.get?_set_self _ _ _)⟩
      · exact h5 x hx

/-- C218. Saving the unit scores of a background termination and loading them: the same quantities, in the same sequence, with the
same totals; provided the catalog gives, for the quantity of each result, one whose uuid is the key of the result. -/
theorem scores_round_trip {c : Cache} (h : Made c) (hu : Uniform c) (hne : c.ents ≠ []) {cat : Txt → Txt → Option Qty}
    (hq : ∀ k r, c.ents.get? k = some r → ∃ q, cat r.q.origin r.q.ref = some q ∧ q.uuid = k) :
    ∃ j c', saveTerm true true c = some (some j) ∧ loadTerm cat (some j) = some c' ∧ c'.idx = c.idx ∧
      ∀ k ∈ c.idx, ∃ r r', c.get k = some r ∧ c'.get k = some r' ∧ r'.total = r.total ∧ r'.q.uuid = k := by
  have ho := made_ok h
  have hmem : ∀ p ∈ c.ents, c.ents.get? p.1 = some p.2 := fun p hp => Dict.get?_eq_some_of_mem _ ho.nd hp
  obtain ⟨c', e, h2, h3, _, h5⟩ := load_eq (cat := cat) c.ents ok_new (fun p hp => hq p.1 p.2 (hmem p hp)) ho.nd
    (fun p _ => by simp [Dict.keys])
  refine ⟨_, c', ?_, e, ?_, ?_⟩
  · unfold saveTerm
    rw [save_eq ho hu]
    have : c.ents.isEmpty = false := by
      cases hc : c.ents with
      | nil => exact absurd hc hne
      | cons => rfl
    simp [this]
  · rw [h3, ho.idx]; rfl
  · intro k hk
    obtain ⟨r, hr, hr'⟩ := mem_get ho hu hk
    have hp := Dict.mem_of_get?_eq_some _ hr'
    obtain ⟨q, hcat, hget⟩ := h5 (k, r) hp
    obtain ⟨q', hcat', hq'⟩ := hq k r hr'
    rw [hcat] at hcat'
    simp at hcat'
    subst hcat'
    have hkeys : c'.ents.keys = c.ents.keys := by rw [← h2.idx, h3]; rfl
    have hu' : Uniform c' := by unfold Uniform; rw [hkeys]; exact hu
    refine ⟨r, ⟨q, [(1, r.total)]⟩, hr, ?_, ?_, hq'⟩
    · rw [get_eq h2 hu' (by rw [hkeys, ← ho.idx]; exact hk)]; exact hget
    · simp [Res.total]

/-- C218: nothing is written for a fragment that is not background, or if not asked for. -/
theorem scores_not_saved {bg s : Bool} (c : Cache) (h : bg = false ∨ s = false) : saveTerm bg s c = some none := by
  unfold saveTerm
  rcases h with rfl | rfl <;> simp

theorem load_idx_le {cat : Txt → Txt → Option Qty} (l : List Rec) : ∀ {c c' : Cache}, load cat l c = some c' →
    (∀ k ∈ c'.idx, k ∈ c.idx ∨ ∃ i ∈ l, ∃ q, cat i.origin i.ref = some q ∧ q.uuid = k) := by
  induction l with
  | nil => intro c c' h k hk; simp [load] at h; subst h; exact Or.inl hk
  | cons i l ih =>
    intro c c' h k hk
    rw [load] at h
    cases hc : cat i.origin i.ref with
    | none => rw [hc] at h; simp at h
    | some q =>
      rw [hc] at h
      simp only at h
      rcases ih h k hk with h1 | ⟨x, hx, y⟩
      · unfold addScore Cache.set at h1
        simp only at h1
        split at h1
        · exact Or.inl h1
        · rcases List.mem_append.mp h1 with h1 | h1
          · exact Or.inl h1
          · exact Or.inr ⟨i, by simp, q, hc, (List.mem_singleton.mp h1).symm⟩
      · exact Or.inr ⟨x, by simp [hx], y⟩

/-- C218 fails if the quantity of a cached result is not the one asked for, as when a Qdb answers for its canonical quantity: the
score is filed under the quantity of the result, and after loading nothing is known under the key asked for, whatever the catalog
gives, unless it has that uuid. -/
theorem scores_lost {c : Cache} (h : Made c) (hu : Uniform c) {cat : Txt → Txt → Option Qty} {k : Txt}
    (hk : ∀ k' r q, c.ents.get? k' = some r → cat r.q.origin r.q.ref = some q → q.uuid ≠ k) {j : List Rec} {c' : Cache}
    (hs : save c = some j) (hl : loadTerm cat (some j) = some c') : k ∉ c'.idx := by
  have ho := made_ok h
  rw [save_eq ho hu] at hs
  simp at hs
  subst hs
  intro hin
  rcases load_idx_le _ hl k hin with h1 | ⟨i, hi, q, h2, h3⟩
  · simp at h1
  · simp only [List.mem_map] at hi
    obtain ⟨p, hp, rfl⟩ := hi
    exact hk p.1 p.2 q (Dict.get?_eq_some_of_mem _ ho.nd hp) h2 h3

/-! ### examples -/

def gwp : Qty := ⟨"ipcc".toList, "GWP".toList, "aaaa-1".toList⟩
def ap : Qty := ⟨"traci".toList, "AP".toList, "bbbb-2".toList⟩
def gwpOther : Qty := ⟨"local".toList, "GWP".toList, "cccc-3".toList⟩

def exCache : Cache := ((({} : Cache).set ap.uuid ⟨ap, [(2, 3)]⟩).set gwp.uuid ⟨gwp, [(1, 5), (1/2, 4)]⟩)

def exCat (o r : Txt) : Option Qty :=
  if o = gwp.origin ∧ r = gwp.ref then some gwp else if o = ap.origin ∧ r = ap.ref then some ap else none

theorem exMade : Made exCache := .set _ _ (.set _ _ .new)

example : Made exCache ∧ Uniform exCache ∧ exCache.ents ≠ [] ∧
    (∀ p ∈ exCache.ents, (exCat p.2.q.origin p.2.q.ref).map Qty.uuid = some p.1) ∧
    ((saveTerm true true exCache).join.bind fun j => loadTerm exCat (some j)).map (fun c' => (c'.idx, c'.idx.map fun k => (c'.get k).map Res.total)) =
      some ([ap.uuid, gwp.uuid], [some 6, some 7]) :=
  ⟨exMade, by unfold Uniform; decide +kernel, by decide +kernel, by decide +kernel, by decide +kernel⟩

/-- the local GWP was asked for, the IPCC one answered -/
example : let c := ({} : Cache).set gwpOther.uuid ⟨gwp, [(1, 5)]⟩
    (∀ p ∈ c.ents, (exCat p.2.q.origin p.2.q.ref).map Qty.uuid ≠ some gwpOther.uuid) ∧ c.idx = [gwpOther.uuid] ∧
    ((save c).bind fun j => loadTerm exCat (some j)).map Cache.idx = some [gwp.uuid] := by decide +kernel

end Scf
