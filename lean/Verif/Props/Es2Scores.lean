import Verif.Model.Es2Scores
import Mathlib.Tactic.ByContra

/-!
C225: the LCIA scores in an Ecospold2 dataset.
-/

set_option linter.unusedSimpArgs false

namespace Es2Score

/-! ### the words of the claim -/

/-- the scores of a dataset under a name, in the order of the dataset -/
def scoresOf (name : String) (file : List Child) : List ℚ :=
  file.filterMap fun ch =>
    match ch with
    | .score m c i (some v) => if m ++ ", " ++ c ++ ", " ++ i = name then some v else none
    | _ => none

/-- each score is a number -/
def Legible (file : List Child) : Prop := ∀ m c i a, Child.score m c i a ∈ file → a ≠ none

/-- no two methods have one name -/
def Distinct (qs : List Qty) : Prop := ((qs.filter fun q => q.method).map fun q => q.name).Nodup

/-! ### lemmas -/

theorem resultOf_ok (x : Ctx) (v : ℚ) : ∃ r, resultOf x v = .ok r ∧ r.total = v ∧ r.scores.keys = [x.proc] := by
  unfold resultOf Lcia.Result.addScore Lcia.Result.addComponent
  simp only [Dict.has, Dict.get?, Option.isSome_none, Bool.false_eq_true, if_false]
  have h : Dict.get? (Dict.set ([] : Dict String (Lcia.Comp String String String)) x.proc (.agg x.proc [])) x.proc =
      some (.agg x.proc []) := Dict.get?_set_self _ _ _
  simp only [h]
  refine ⟨_, rfl, ?_, ?_⟩
  · simp [Lcia.Result.total, Dict.set, Lcia.totalL, Lcia.totalP, Lcia.Comp.cum, Lcia.Detail.make, Lcia.Detail.result, Lcia.Detail.val,
      Lcia.Detail.adjust, Lcia.Factor.at, Lcia.Factor.raw, Dict.has, Dict.get?]
  · simp [Dict.set, Dict.keys]

theorem uniq_of_nodup_map {A B : Type} {f : A → B} {l : List A} (h : (l.map f).Nodup) {a b : A} (ha : a ∈ l) (hb : b ∈ l)
    (he : f a = f b) : a = b := by
  induction l with
  | nil => cases ha
  | cons x l ih =>
    rw [List.map_cons, List.nodup_cons] at h
    rcases List.mem_cons.mp ha with ha' | ha' <;> rcases List.mem_cons.mp hb with hb' | hb'
    · rw [ha', hb']
    · exact absurd (List.mem_map.mpr ⟨b, hb', by rw [← he, ha']⟩) h.1
    · exact absurd (List.mem_map.mpr ⟨a, ha', by rw [he, hb']⟩) h.1
    · exact ih h.2 ha' hb'

theorem mkTags_spec (qs : List Qty) (d : Dict String Qty) :
    (∀ t, mkTags qs d = .ok t → (((qs.filter fun q => q.method).map fun q => q.name).Nodup ∧
      (∀ q ∈ qs, q.method = true → q.name ∉ d.keys)) ∧ ∀ n q, t.get? n = some q ↔ (d.get? n = some q ∨ q ∈ qs ∧ q.method = true ∧ q.name = n)) ∧
    ((((qs.filter fun q => q.method).map fun q => q.name).Nodup ∧ (∀ q ∈ qs, q.method = true → q.name ∉ d.keys)) →
      ∃ t, mkTags qs d = .ok t) := by
  induction qs generalizing d with
  | nil =>
    refine ⟨?_, fun _ => ⟨d, rfl⟩⟩
    intro t h
    cases h
    simp
  | cons q qs ih =>
    by_cases hm : q.method = true
    · by_cases hk : q.name ∈ d.keys
      · have hh : d.has q.name = true := (Dict.has_iff _ _).mpr hk
        refine ⟨?_, ?_⟩
        · intro t h
          rw [mkTags, if_pos hm, if_pos hh] at h
          cases h
        · intro h
          exact absurd hk (h.2 q (by simp) hm)
      · have hh : ¬ d.has q.name = true := fun h => hk ((Dict.has_iff _ _).mp h)
        rw [mkTags, if_pos hm, if_neg hh]
        obtain ⟨i1, i2⟩ := ih (d.set q.name q)
        have hkeys : ∀ n, n ∈ (d.set q.name q).keys ↔ n = q.name ∨ n ∈ d.keys := by
          intro n
          rw [Dict.mem_keys_set]
        simp only [List.filter_cons, hm, if_true, List.map_cons, List.nodup_cons]
        constructor
        · intro t h
          obtain ⟨⟨h1, h2⟩, h3⟩ := i1 t h
          refine ⟨⟨⟨?_, h1⟩, ?_⟩, ?_⟩
          · intro hin
            obtain ⟨q', hq', he⟩ := List.mem_map.mp hin
            obtain ⟨hq', hm'⟩ := List.mem_filter.mp hq'
            exact h2 q' hq' hm' ((hkeys _).mpr (.inl he))
          · intro q' hq' hm'
            rcases List.mem_cons.mp hq' with rfl | hq'
            · exact hk
            · exact fun h => h2 q' hq' hm' ((hkeys _).mpr (.inr h))
          · intro n q'
            rw [h3, Dict.get?_set]
            by_cases hn : q.name = n
            · subst hn
              have hnone : d.get? q.name = none := by
                cases hg : d.get? q.name with
                | none => rfl
                | some v => exact absurd ((Dict.mem_keys_iff _ _).mpr ⟨v, hg⟩) hk
              simp only [if_true, hnone]
              constructor
              · rintro (h | ⟨h, h', h''⟩)
                · cases h; exact .inr ⟨by simp, hm, rfl⟩
                · exact .inr ⟨List.mem_cons_of_mem _ h, h', h''⟩
              · rintro (h | ⟨h, h', h''⟩)
                · cases h
                · rcases List.mem_cons.mp h with rfl | h
                  · exact .inl rfl
                  · exact .inr ⟨h, h', h''⟩
            · rw [if_neg hn]
              constructor
              · rintro (h | ⟨h, h', h''⟩)
                · exact .inl h
                · exact .inr ⟨List.mem_cons_of_mem _ h, h', h''⟩
              · rintro (h | ⟨h, h', h''⟩)
                · exact .inl h
                · rcases List.mem_cons.mp h with rfl | h
                  · exact absurd h'' hn
                  · exact .inr ⟨h, h', h''⟩
        · rintro ⟨⟨h1, h2⟩, h3⟩
          refine i2 ⟨h2, ?_⟩
          intro q' hq' hm' hin
          rcases (hkeys _).mp hin with h | h
          · exact h1 (List.mem_map.mpr ⟨q', List.mem_filter.mpr ⟨hq', hm'⟩, h⟩)
          · exact h3 q' (List.mem_cons_of_mem _ hq') hm' h
    · rw [mkTags, if_neg hm]
      obtain ⟨i1, i2⟩ := ih d
      simp only [List.filter_cons, hm, if_false, Bool.false_eq_true]
      constructor
      · intro t h
        obtain ⟨⟨h1, h2⟩, h3⟩ := i1 t h
        refine ⟨⟨h1, ?_⟩, ?_⟩
        · intro q' hq' hm'
          rcases List.mem_cons.mp hq' with rfl | hq'
          · exact absurd hm' hm
          · exact h2 q' hq' hm'
        · intro n q'
          rw [h3]
          constructor
          · rintro (h | ⟨h, h', h''⟩)
            · exact .inl h
            · exact .inr ⟨List.mem_cons_of_mem _ h, h', h''⟩
          · rintro (h | ⟨h, h', h''⟩)
            · exact .inl h
            · rcases List.mem_cons.mp h with rfl | h
              · exact absurd h' hm
              · exact .inr ⟨h, h', h''⟩
      · rintro ⟨h1, h2⟩
        exact i2 ⟨h1, fun q' hq' => h2 q' (List.mem_cons_of_mem _ hq')⟩

theorem scoresOf_cons (name m c i : String) (v : ℚ) (l : List Child) :
    scoresOf name (.score m c i (some v) :: l) = if tag m c i = name then v :: scoresOf name l else scoresOf name l := by
  unfold scoresOf tag
  rw [List.filterMap_cons]
  by_cases h : m ++ ", " ++ c ++ ", " ++ i = name <;> simp [h]

theorem loop_ok (x : Ctx) (tags : Dict String Qty) (file : List Child) (d : Dict String (Lcia.Result String String String)) :
    (∃ r, loop x tags file d = .ok r) ↔ Legible file := by
  induction file generalizing d with
  | nil => exact ⟨fun _ m c i a h => (by cases h), fun _ => ⟨d, rfl⟩⟩
  | cons ch l ih =>
    have hcons : ∀ ch, Legible (ch :: l) ↔ (∀ m c i a, ch = .score m c i a → a ≠ none) ∧ Legible l := by
      intro ch
      constructor
      · intro h
        exact ⟨fun m c i a he => h m c i a (he ▸ List.mem_cons_self), fun m c i a hm => h m c i a (List.mem_cons_of_mem _ hm)⟩
      · rintro ⟨h1, h2⟩ m c i a hm
        rcases List.mem_cons.mp hm with h | h
        · exact h1 m c i a h.symm
        · exact h2 m c i a h
    rw [hcons]
    cases ch with
    | other =>
      rw [loop, ih]
      exact ⟨fun h => ⟨fun _ _ _ _ he => (by cases he), h⟩, fun h => h.2⟩
    | score m c i a =>
      cases a with
      | none =>
        rw [loop]
        constructor
        · rintro ⟨r, h⟩
          cases h
        · intro h
          exact absurd rfl (h.1 m c i none rfl)
      | some v =>
        have h1 : ∀ m' c' i' a, Child.score m c i (some v) = .score m' c' i' a → a ≠ none := by
          intro m' c' i' a he
          cases he
          simp
        rw [loop]
        cases ht : tags.get? (tag m c i) with
        | none => simp only; rw [ih]; exact ⟨fun h => ⟨h1, h⟩, fun h => h.2⟩
        | some q =>
          obtain ⟨r, hr, -⟩ := resultOf_ok x v
          simp only [hr]
          rw [ih]
          exact ⟨fun h => ⟨h1, h⟩, fun h => h.2⟩

theorem loop_spec (x : Ctx) (tags : Dict String Qty) (hinj : ∀ n n' q q', tags.get? n = some q → tags.get? n' = some q' → q.uuid = q'.uuid → n = n')
    (file : List Child) (d r : Dict String (Lcia.Result String String String)) (h : loop x tags file d = .ok r) :
    (d.keys.Nodup → r.keys.Nodup) ∧
    (∀ n q, tags.get? n = some q → (r.get? q.uuid).map (fun s => s.total) =
      (scoresOf n file).getLast?.or ((d.get? q.uuid).map fun s => s.total)) ∧
    (∀ k, k ∈ r.keys → k ∈ d.keys ∨ ∃ n q, tags.get? n = some q ∧ q.uuid = k) ∧
    ((∀ k s, d.get? k = some s → s.scores.keys = [x.proc]) → ∀ k s, r.get? k = some s → s.scores.keys = [x.proc]) := by
  induction file generalizing d with
  | nil =>
    rw [loop] at h
    cases h
    exact ⟨id, fun n q _ => by simp [scoresOf], fun k hk => .inl hk, id⟩
  | cons ch l ih =>
    cases ch with
    | other =>
      rw [loop] at h
      exact ih d h
    | score m c i a =>
      cases a with
      | none => rw [loop] at h; cases h
      | some v =>
        rw [loop] at h
        cases ht : tags.get? (tag m c i) with
        | none =>
          rw [ht] at h
          obtain ⟨i1, i2, i3, i4⟩ := ih d h
          refine ⟨i1, ?_, i3, i4⟩
          intro n q hq
          rw [scoresOf_cons, if_neg (by rintro rfl; rw [ht] at hq; cases hq)]
          exact i2 n q hq
        | some q =>
          obtain ⟨s, hs, htot, hkeys⟩ := resultOf_ok x v
          rw [ht] at h
          simp only [hs] at h
          obtain ⟨i1, i2, i3, i4⟩ := ih _ h
          refine ⟨fun hd => i1 (Dict.nodup_keys_set _ _ _ hd), ?_, ?_, ?_⟩
          · intro n q' hq'
            rw [i2 n q' hq', scoresOf_cons]
            by_cases hn : tag m c i = n
            · subst hn
              rw [ht] at hq'
              cases hq'
              rw [if_pos rfl, Dict.get?_set_self]
              cases hl : scoresOf (tag m c i) l with
              | nil => simp [htot]
              | cons a t => simp [List.getLast?_cons]
            · rw [if_neg hn, Dict.get?_set_ne]
              intro he
              exact hn (hinj _ _ q q' ht hq' he)
          · intro k hk
            rcases i3 k hk with h | h
            · rcases (Dict.mem_keys_set _ _ _ _).mp h with h | h
              · exact .inr ⟨_, q, ht, h.symm⟩
              · exact .inl h
            · exact .inr h
          · intro hd
            apply i4
            intro k s' hk
            rw [Dict.get?_set] at hk
            split at hk
            · cases hk; exact hkeys
            · exact hd k s' hk

/-! ### C225 -/

/-- C225. The call returns exactly if no two of the methods asked for have one name and each score of the dataset is a number. -/
theorem retrieve_returns (x : Ctx) (qs : List Qty) (file : List Child) :
    (∃ r, retrieve x qs file = .ok r) ↔ Distinct qs ∧ Legible file := by
  obtain ⟨h1, h2⟩ := mkTags_spec qs []
  unfold retrieve Distinct
  constructor
  · rintro ⟨r, h⟩
    cases ht : mkTags qs [] with
    | error e => rw [ht] at h; cases h
    | ok t =>
      rw [ht] at h
      exact ⟨(h1 t ht).1.1, (loop_ok x t file []).mp ⟨r, h⟩⟩
  · rintro ⟨hd, hl⟩
    obtain ⟨t, ht⟩ := h2 ⟨hd, fun q _ _ => by simp [Dict.keys]⟩
    rw [ht]
    exact (loop_ok x t file []).mpr hl

/-- C225. If the methods asked for have different uuids, there is one result for each that the dataset has a score of, stored under the
uuid of the method: its total is the (last) score in the dataset under the name of the method, and it is a score of the process. -/
theorem retrieve_scores (x : Ctx) (qs : List Qty) (file : List Child) (r : Dict String (Lcia.Result String String String))
    (h : retrieve x qs file = .ok r) (hu : ((qs.filter fun q => q.method).map fun q => q.uuid).Nodup) :
    r.keys.Nodup ∧
    (∀ q ∈ qs, q.method = true → (r.get? q.uuid).map (fun s => s.total) = (scoresOf q.name file).getLast?) ∧
    (∀ k ∈ r.keys, ∃ q ∈ qs, q.method = true ∧ q.uuid = k) ∧ (∀ k s, r.get? k = some s → s.scores.keys = [x.proc]) := by
  obtain ⟨h1, -⟩ := mkTags_spec qs []
  unfold retrieve at h
  cases ht : mkTags qs [] with
  | error e => rw [ht] at h; cases h
  | ok t =>
    rw [ht] at h
    obtain ⟨-, h3⟩ := h1 t ht
    have hget : ∀ n q, t.get? n = some q ↔ q ∈ qs ∧ q.method = true ∧ q.name = n := by
      intro n q
      rw [h3]
      simp [Dict.get?]
    obtain ⟨i1, i2, i3, i4⟩ := loop_spec x t (by
      intro n n' q q' hq hq' he
      obtain ⟨a1, a2, a3⟩ := (hget _ _).mp hq
      obtain ⟨b1, b2, b3⟩ := (hget _ _).mp hq'
      have := uniq_of_nodup_map hu (List.mem_filter.mpr ⟨a1, a2⟩) (List.mem_filter.mpr ⟨b1, b2⟩) he
      rw [← a3, ← b3, this]) file [] r h
    refine ⟨i1 (by simp [Dict.keys]), ?_, ?_, ?_⟩
    · intro q hq hm
      rw [i2 q.name q ((hget _ _).mpr ⟨hq, hm, rfl⟩)]
      simp [Dict.get?]
    · intro k hk
      rcases i3 k hk with h | ⟨n, q, hq, he⟩
      · simp [Dict.keys] at h
      · obtain ⟨a1, a2, a3⟩ := (hget _ _).mp hq
        exact ⟨q, a1, a2, he⟩
    · exact i4 (fun k s hk => by simp [Dict.get?] at hk)

/-- C225: the list of all scores of a dataset, one for each indicator -/
theorem collect_scores (file : List Child) (l : List Score) (h : collect file = .ok l) :
    (l.map fun s => Child.score s.method s.category s.indicator (some s.score)) = file.filter fun c => decide (c ≠ .other) := by
  induction file generalizing l with
  | nil => cases h; rfl
  | cons ch f ih =>
    cases ch with
    | other =>
      rw [collect] at h
      rw [ih l h]
      simp
    | score m c i a =>
      cases a with
      | none => rw [collect] at h; cases h
      | some v =>
        rw [collect] at h
        cases hc : collect f with
        | error e => rw [hc] at h; cases h
        | ok r =>
          rw [hc] at h
          cases h
          simp [ih r hc]

/-! ### examples and witnesses -/

def exX : Ctx := ⟨"p1", "CH", "f1"⟩
def exQs : List Qty := [⟨"u1", "CML, climate change, GWP 100a", true⟩, ⟨"u2", "ReCiPe, water, WDP", true⟩, ⟨"u3", "mass", false⟩]
def exFile : List Child := [.other, .score "CML" "climate change" "GWP 100a" (some 5), .score "EDIP" "ozone" "ODP" (some 2), .other]

example : ((retrieve exX exQs exFile).toOption.map fun d => d.map fun kr => (kr.1, kr.2.total)) = some [("u1", 5)] := by decide +kernel
example : Distinct exQs ∧ ((exQs.filter fun q => q.method).map fun q => q.uuid).Nodup ∧
    (scoresOf "CML, climate change, GWP 100a" exFile).getLast? = some 5 := by unfold Distinct; decide +kernel
example : ((collect exFile).toOption.map fun l => l.map fun s => (s.indicator, s.score)) = some [("GWP 100a", 5), ("ODP", 2)] := by
  decide +kernel

/-- C225: indicators of which the texts differ may have one name; the score of the other is reported then. -/
theorem retrieve_fails_commas :
    ((retrieve exX [⟨"u1", "a, b, c, d", true⟩] [.score "a" "b, c" "d" (some 5), .score "a" "b" "c, d" (some 3)]).toOption.map
        fun d => d.map fun kr => (kr.1, kr.2.total)) = some [("u1", 3)] := by
  decide +kernel

end Es2Score
