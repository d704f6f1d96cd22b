import Verif.Model.Scenarios
import Verif.Props.FragmentReverse
import Verif.Props.FragmentClone
import Mathlib.Logic.Relation

/-!
C177: the scenarios a fragment lists are the ones that its traversal depends on.
-/

namespace Frg

variable {F Q : Type} [DecidableEq F] [DecidableEq Q]

/-! ### specification -/

/-- a child flow, or a fragment that the flow is terminated to in some scenario, neither being background -/
inductive ScStep (H : Heap F Q) (i : ℕ) : ℕ → Prop
  | child {c : ℕ} : c ∈ (H i).kids → ScStep H i c
  | sub {key : Option Key} {t : Term F} {s : ℕ} : (key, t) ∈ (H i).terms → t.target = .frag s → s ≠ i → (H i).bg = false → (H s).bg = false → ScStep H i s

/-- the fragments below i, in subfragments too -/
def ScBelow (H : Heap F Q) : ℕ → ℕ → Prop := Relation.ReflTransGen (ScStep H)

/-- fragment j has a value or a termination for scenario k -/
def HasScen (H : Heap F Q) (j : ℕ) (k : Key) : Prop := k ∈ (H j).evs.keys ∨ some k ∈ (H j).terms.keys

/-- a scenario's name: not 0 (cached), not 1 (observed) -/
def Named (k : Key) : Prop := k ≠ .cached ∧ k ≠ .observed

/-! ### lemmas -/

theorem mem_strs (l : List Key) (s : String) : s ∈ strs l ↔ Key.str s ∈ l := by
  unfold strs
  rw [List.mem_filterMap]
  constructor
  · rintro ⟨k, hk, h⟩
    cases k <;> simp at h
    subst h; exact hk
  · exact fun h => ⟨_, h, rfl⟩

theorem mem_tups (l : List Key) (s : List String) : s ∈ tups l ↔ Key.tup s ∈ l := by
  unfold tups
  rw [List.mem_filterMap]
  constructor
  · rintro ⟨k, hk, h⟩
    cases k <;> simp at h
    subst h; exact hk
  · exact fun h => ⟨_, h, rfl⟩

theorem sortKeys_mem {l r : List Key} (h : sortKeys l = .ok r) (k : Key) : k ∈ r ↔ Named k ∧ k ∈ l := by
  unfold sortKeys at h
  have key : (∀ s, Key.str s ∈ r ↔ Key.str s ∈ l) ∧ (∀ s, Key.tup s ∈ r ↔ Key.tup s ∈ l) ∧ Key.cached ∉ r ∧ Key.observed ∉ r := by
    split at h
    · rename_i ht
      cases h
      refine ⟨?_, ?_, ?_, ?_⟩
      · intro s
        simp [List.mem_insertionSort, List.mem_dedup, mem_strs]
      · intro s
        rw [← mem_tups l, ht]; simp
      · simp
      · simp
    · rename_i hs _
      cases h
      refine ⟨?_, ?_, ?_, ?_⟩
      · intro s
        rw [← mem_strs l, hs]; simp
      · intro s
        simp [List.mem_insertionSort, List.mem_dedup, mem_tups]
      · simp
      · simp
    · cases h
  obtain ⟨h1, h2, h3, h4⟩ := key
  cases k with
  | cached => simp [h3, Named]
  | observed => simp [h4, Named]
  | str s => simp [h1, Named]
  | tup s => simp [h2, Named]

theorem mem_ownKeys (H : Heap F Q) (i : ℕ) (k : Key) : k ∈ ownKeys (H i) ↔ HasScen H i k := by
  unfold ownKeys HasScen
  simp [List.mem_filterMap]

theorem mem_subs (H : Heap F Q) (i j : ℕ) : j ∈ subs H i ↔ ScStep H i j := by
  unfold subs
  rw [List.mem_append, List.mem_filterMap]
  constructor
  · rintro (⟨⟨key, t⟩, hm, h⟩ | h)
    · unfold subfragOf at h
      split at h
      · rename_i s hs
        split at h
        · cases h
        · rename_i hn
          cases h
          simp only [not_or, Bool.not_eq_true] at hn
          exact .sub hm hs hn.1 hn.2.1 hn.2.2
      · cases h
    · exact .child ((mem_children _ _).1 h)
  · intro h
    cases h with
    | child h => exact .inr ((mem_children _ _).2 h)
    | sub hm hs h1 h2 h3 =>
      refine .inl ⟨_, hm, ?_⟩
      simp [subfragOf, hs, h1, h2, h3]

theorem collect_ok {v : ℕ → Except Err (List Key)} {js : List ℕ} {r : List Key} (h : collect v js = .ok r) :
    (∀ j ∈ js, ∃ l, v j = .ok l) ∧ ∀ k, k ∈ r ↔ ∃ j ∈ js, ∃ l, v j = .ok l ∧ k ∈ l := by
  induction js generalizing r with
  | nil => simp only [collect, Except.ok.injEq] at h; subst h; simp
  | cons j js ih =>
    unfold collect at h
    split at h
    · cases h
    · rename_i l hl
      split at h
      · cases h
      · rename_i l' hl'
        cases h
        obtain ⟨i1, i2⟩ := ih hl'
        refine ⟨?_, ?_⟩
        · intro x hx
          rcases List.mem_cons.mp hx with rfl | hx
          · exact ⟨l, hl⟩
          · exact i1 x hx
        · intro k
          rw [List.mem_append, i2]
          simp [hl]

theorem collect_total {v : ℕ → Except Err (List Key)} {js : List ℕ} (h : ∀ j ∈ js, ∃ l, v j = .ok l) : ∃ r, collect v js = .ok r := by
  induction js with
  | nil => exact ⟨[], rfl⟩
  | cons j js ih =>
    obtain ⟨l, hl⟩ := h j (by simp)
    obtain ⟨r, hr⟩ := ih fun x hx => h x (by simp [hx])
    exact ⟨l ++ r, by simp [collect, hl, hr]⟩

theorem scenarios_ok {H : Heap F Q} {fuel i : ℕ} {l : List Key} (h : scenarios H true (fuel + 1) i = .ok l) :
    (∀ j, ScStep H i j → ∃ l', scenarios H true fuel j = .ok l') ∧
    ∀ k, k ∈ l ↔ Named k ∧ (HasScen H i k ∨ ∃ j, ScStep H i j ∧ ∃ l', scenarios H true fuel j = .ok l' ∧ k ∈ l') := by
  unfold scenarios at h
  simp only [if_true] at h
  split at h
  · cases h
  · rename_i r hr
    obtain ⟨h1, h2⟩ := collect_ok hr
    refine ⟨fun j hj => h1 j ((mem_subs H i j).2 hj), ?_⟩
    intro k
    rw [sortKeys_mem h, List.mem_append, mem_ownKeys, h2]
    simp only [mem_subs]

/-- **C177** the scenarios listed are those that the fragment, or a fragment below it, has a value or a termination for -/
theorem scenarios_listed {H : Heap F Q} {fuel i : ℕ} {l : List Key} (h : scenarios H true fuel i = .ok l) (k : Key) :
    k ∈ l ↔ Named k ∧ ∃ j, ScBelow H i j ∧ HasScen H j k := by
  induction fuel generalizing i l with
  | zero => cases h
  | succ fuel ih =>
    obtain ⟨h1, h2⟩ := scenarios_ok h
    rw [h2]
    refine and_congr_right fun hn => ?_
    constructor
    · rintro (h | ⟨j, hj, l', hl', hk⟩)
      · exact ⟨i, .refl, h⟩
      · obtain ⟨-, x, hx, hxk⟩ := (ih hl').1 hk
        exact ⟨x, .head hj hx, hxk⟩
    · rintro ⟨x, hx, hxk⟩
      rcases Relation.ReflTransGen.cases_head hx with rfl | ⟨j, hj, hjx⟩
      · exact .inl hxk
      · obtain ⟨l', hl'⟩ := h1 j hj
        exact .inr ⟨j, hj, l', hl', (ih hl').2 ⟨hn, x, hjx, hxk⟩⟩

/-- **C177** without recursion, only the fragment's own -/
theorem scenarios_own {H : Heap F Q} {fuel i : ℕ} {l : List Key} (h : scenarios H false fuel i = .ok l) (k : Key) :
    k ∈ l ↔ Named k ∧ HasScen H i k := by
  cases fuel with
  | zero => cases h
  | succ fuel =>
    unfold scenarios at h
    simp only [Bool.false_eq_true, if_false] at h
    rw [sortKeys_mem h, List.append_nil, mem_ownKeys]

/-- **C177** each is listed once, in order -/
theorem scenarios_sorted {H : Heap F Q} {r : Bool} {fuel i : ℕ} {l : List Key} (h : scenarios H r fuel i = .ok l) :
    (∃ ss : List String, l = ss.map .str ∧ ss.Pairwise (· < ·)) ∨ ∃ ts : List (List String), l = ts.map .tup ∧ ts.Pairwise (· < ·) := by
  cases fuel with
  | zero => cases h
  | succ fuel =>
    unfold scenarios at h
    split at h
    · cases h
    · unfold sortKeys at h
      have go : ∀ {α : Type} [DecidableEq α] [LinearOrder α] (x : List α), (x.dedup.insertionSort (· ≤ ·)).Pairwise (· < ·) := by
        intro α _ _ x
        have h1 := List.pairwise_insertionSort (· ≤ · : α → α → Prop) x.dedup
        have h2 : (x.dedup.insertionSort (· ≤ ·)).Nodup := (List.perm_insertionSort _ _).nodup_iff.2 (List.nodup_dedup x)
        exact (h1.and h2).imp fun ⟨a, b⟩ => lt_of_le_of_ne a b
      split at h
      · cases h; exact .inl ⟨_, rfl, go _⟩
      · cases h; exact .inr ⟨_, rfl, go _⟩
      · cases h

/-! ### traversals that find the same values and terminations -/

/-- two scenario arguments that the fragments in V do not tell apart; V is closed as far as a traversal goes -/
structure ScAlike (H : Heap F Q) (sc sc' : Scen) (V : ℕ → Prop) : Prop where
  ev : ∀ j, V j → matchEv (H j).evs sc' = matchEv (H j).evs sc
  tm : ∀ j, V j → termOf (H j) sc' = termOf (H j) sc
  kids : ∀ j, V j → (H j).bg = false → ∀ c ∈ (H j).kids, V c
  target : ∀ j t k, V j → (H j).bg = false → termOf (H j) sc = .ok t → t.target = .frag k → k ≠ j →
    ((H k).bg = true → V k) ∧ ((H k).bg = false → ∀ n x, top H n k = .ok x → V x)

theorem travNode_alike (E : Env F Q) {H : Heap F Q} {sc sc' : Scen} {V : ℕ → Prop} (hA : ScAlike H sc sc' V) (obs : Bool) :
    ∀ (fuel : ℕ) (seen : List ℕ) (j : ℕ) (up : ℚ) (cq : Option Q) (bal : Option ℚ), V j →
      travNode E H sc' obs fuel seen j up cq bal = travNode E H sc obs fuel seen j up cq bal := by
  intro fuel
  induction fuel with
  | zero => intros; rfl
  | succ fuel ih =>
    intro seen j up cq bal hj
    have hxv : exchangeValue (H j) sc' obs = exchangeValue (H j) sc obs := by
      unfold exchangeValue; rw [hA.ev j hj]
    have henter : enter E H sc' obs seen j up cq bal = enter E H sc obs seen j up cq bal := by
      simp only [enter, evOf, hxv, hA.tm j hj]
    rw [travNode, travNode, henter]
    cases hen : enter E H sc obs seen j up cq bal with
    | error e => rfl
    | ok r =>
      obtain ⟨ff, cv⟩ := r
      simp only
      by_cases hleaf : ff.term.isNull = true ∨ (H j).bg = true ∨ ff.mag = 0
      · rw [if_pos hleaf, if_pos hleaf]
      · rw [if_neg hleaf, if_neg hleaf]
        have hbgj : (H j).bg = false := by
          simp only [not_or, Bool.not_eq_true] at hleaf; exact hleaf.2.1
        have hterm : termOf (H j) sc = .ok ff.term := by
          unfold enter at hen
          split at hen
          · cases hen
          · split at hen
            · cases hen
            · split at hen
              · cases hen
              · rename_i t htt
                split at hen
                · cases hen
                · split at hen
                  · cases hen
                  · cases hen; exact htt
        have hch : ∀ c ∈ children (H j), V c := fun c hc => hA.kids j hj hbgj c ((mem_children _ _).1 hc)
        suffices hx : ∀ s, expand E H sc' obs (top H fuel) (travNode E H sc' obs fuel) s j ff =
            expand E H sc obs (top H fuel) (travNode E H sc obs fuel) s j ff by rw [hx]
        intro s
        have hfg : ∀ b, fgFrom E H sc' obs (travNode E H sc' obs fuel) s j ff b = fgFrom E H sc obs (travNode E H sc obs fuel) s j ff b := by
          intro b
          unfold fgFrom
          have : stock0 (H j) sc' obs b = stock0 (H j) sc obs b := by unfold stock0; rw [hxv]
          rw [this]
          cases stock0 (H j) sc obs b with
          | error e => rfl
          | ok st =>
            simp only
            rw [fgNode_congr E H H j st st ff ff (fun c cq bal => travNode E H sc obs fuel s c ff.nw cq bal) _ rfl
              rfl rfl (fun b hb => rfl) (fun c hc cq b => ih s c ff.nw cq b (hch c hc)), fgNode_cons]
        unfold expand
        cases htt : ff.term.target with
        | null => rfl
        | process => exact hfg false
        | frag k =>
          simp only
          by_cases hkj : k = j
          · rw [if_pos hkj, if_pos hkj]; exact hfg true
          · rw [if_neg hkj, if_neg hkj]
            obtain ⟨hVk, hVt⟩ := hA.target j ff.term k hj hbgj hterm htt hkj
            by_cases hbg : (H k).bg = true
            · rw [if_pos hbg, if_pos hbg, ih [] k ff.nw none none (hVk hbg)]
            · rw [if_neg hbg, if_neg hbg]
              cases htop : top H fuel k with
              | error e => rfl
              | ok x =>
                have hVx := hVt (by simpa using hbg) fuel x htop
                simp only
                rw [ih [] x 1 none none hVx]
                cases travNode E H sc obs fuel [] x 1 none none with
                | error e => rfl
                | ok r =>
                  simp only
                  cases groupIos k (H x).flow (H x).dir r.1 true with
                  | error e => rfl
                  | ok g =>
                    simp only
                    rw [subNode_congr H H j ff ff _ _ (fun c w ev => travNode E H sc obs fuel s c w none (some ev)) _ rfl rfl
                      (by intro m; rfl) (fun b hb => rfl) (fun c hc w ev => ih s c w none (some ev) (hch c hc)), subNode_cons]

/-- fragments below i are terminated to reference fragments; if these are background, their scenarios are among l -/
def RefTargets (H : Heap F Q) (i : ℕ) (l : List Key) : Prop :=
  ∀ j, ScBelow H i j → (H j).bg = false → ∀ p ∈ (H j).terms, ∀ s, p.2.target = .frag s → s ≠ j →
    (H s).parent = none ∧ ((H s).bg = true → ∀ k, Named k → HasScen H s k → k ∈ l)

/-- the fragments a traversal of i meets -/
def Met (H : Heap F Q) (i : ℕ) (l : List Key) (j : ℕ) : Prop :=
  ScBelow H i j ∨ ((H j).bg = true ∧ ∀ k, Named k → HasScen H j k → k ∈ l)

theorem alike_of {H : Heap F Q} {i fuel : ℕ} {l : List Key} {sc sc' : Scen} (hl : scenarios H true fuel i = .ok l) (hr : RefTargets H i l)
    (he : ∀ j, (∀ k, Named k → HasScen H j k → k ∈ l) → matchEv (H j).evs sc' = matchEv (H j).evs sc ∧ termOf (H j) sc' = termOf (H j) sc) :
    ScAlike H sc sc' (Met H i l) := by
  have hm : ∀ j, Met H i l j → ∀ k, Named k → HasScen H j k → k ∈ l := by
    rintro j (h | ⟨-, h⟩) k hn hk
    · exact (scenarios_listed hl k).2 ⟨hn, j, h, hk⟩
    · exact h k hn hk
  have hb : ∀ j, Met H i l j → (H j).bg = false → ScBelow H i j := by
    rintro j (h | ⟨h, -⟩) hb
    · exact h
    · rw [h] at hb; cases hb
  refine ⟨fun j hj => (he j (hm j hj)).1, fun j hj => (he j (hm j hj)).2, ?_, ?_⟩
  · intro j hj hbg c hc
    exact .inl (.tail (hb j hj hbg) (.child hc))
  · intro j t k hj hbg ht htk hkj
    obtain ⟨key, hkey⟩ := termOf_get ht
    have hmem := Dict.mem_of_get?_eq_some _ hkey
    have hbl := hb j hj hbg
    obtain ⟨h1, h2⟩ := hr j hbl hbg _ hmem k htk hkj
    refine ⟨fun hk => .inr ⟨hk, h2 hk⟩, ?_⟩
    intro hk n x hx
    have : x = k := by
      cases n with
      | zero => cases hx
      | succ n => simp only [top, h1, Except.ok.injEq] at hx; exact hx.symm
    subst this
    exact .inl (.tail hbl (.sub hmem htk hkj hbg hk))

/-- **C177** (partial) a traversal depends only on the scenarios listed: others in a set of scenarios have no effect. For fragments whose subfragments are reference
fragments, and whose background fragments have no scenarios that are not listed -/
theorem traverse_listed_partial (E : Env F Q) {H : Heap F Q} {i fuel : ℕ} {l : List Key} (hl : scenarios H true fuel i = .ok l) (hr : RefTargets H i l)
    (ks : List Key) (hks : ∀ k ∈ ks, Named k) (obs : Bool) (n : ℕ) :
    traverse E H (.many ks) obs n i = traverse E H (.many (ks.filter (· ∈ l))) obs n i := by
  unfold traverse
  rw [travNode_alike E (sc := .many (ks.filter (· ∈ l))) (sc' := .many ks) (V := Met H i l) (alike_of hl hr ?_) obs n [] i 1 none none (.inl .refl)]
  intro j hj
  have h1 : ∀ p : Key → Bool, (∀ k, Named k → p k = true → k ∈ l) → ks.filter p = (ks.filter (· ∈ l)).filter p := by
    intro p hp
    rw [List.filter_filter]
    apply List.filter_congr
    intro k hk
    cases hpk : p k with
    | false => simp
    | true => simp [hp k (hks k hk) hpk]
  have e1 := h1 (H j).evs.has fun k hn hk => hj k hn (.inl ((Dict.has_iff _ _).1 hk))
  have e2 := h1 (fun k => (H j).terms.has (some k)) fun k hn hk => hj k hn (.inr ((Dict.has_iff _ _).1 hk))
  constructor
  · simp only [matchEv, e1]
  · simp only [termOf, e2]

/-- **C177** (partial) a scenario that is not listed has no effect on the traversal -/
theorem traverse_unlisted_partial (E : Env F Q) {H : Heap F Q} {i fuel : ℕ} {l : List Key} (hl : scenarios H true fuel i = .ok l) (hr : RefTargets H i l)
    {k : Key} (hn : Named k) (hk : k ∉ l) (obs : Bool) (n : ℕ) :
    traverse E H (.one k) obs n i = traverse E H .none obs n i := by
  unfold traverse
  rw [travNode_alike E (sc := .none) (sc' := .one k) (V := Met H i l) (alike_of hl hr ?_) obs n [] i 1 none none (.inl .refl)]
  intro j hj
  have h1 : (H j).evs.has k = false := by
    cases h : (H j).evs.has k with
    | false => rfl
    | true => exact absurd (hj k hn (.inl ((Dict.has_iff _ _).1 h))) hk
  have h2 : (H j).terms.has (some k) = false := by
    cases h : (H j).terms.has (some k) with
    | false => rfl
    | true => exact absurd (hj k hn (.inr ((Dict.has_iff _ _).1 h))) hk
  constructor
  · simp [matchEv, h1]
  · simp [termOf, h2]

/-! ### when there is a list -/

/-- **C177** (fails) if fragments form a loop there is no list, whatever the depth allowed -/
theorem scenarios_loop {H : Heap F Q} {i j : ℕ} (hi : ScBelow H i j) (hj : Relation.TransGen (ScStep H) j j) (fuel : ℕ) (l : List Key) :
    scenarios H true fuel i ≠ .ok l := by
  have long : ∀ n, ∃ p : ℕ → ℕ, p 0 = i ∧ ∀ m < n, ScStep H (p m) (p (m + 1)) := by
    have back : ∀ n x, (ScBelow H x j) → ∃ p : ℕ → ℕ, p 0 = x ∧ ∀ m < n, ScStep H (p m) (p (m + 1)) := by
      intro n
      induction n with
      | zero => exact fun x _ => ⟨fun _ => x, rfl, fun m hm => absurd hm (by omega)⟩
      | succ n ih =>
        intro x hx
        have : ∃ y, ScStep H x y ∧ ScBelow H y j := by
          rcases Relation.ReflTransGen.cases_head hx with rfl | h
          · rcases Relation.TransGen.head'_iff.1 hj with ⟨y, h1, h2⟩
            exact ⟨y, h1, h2⟩
          · exact h
        obtain ⟨y, h1, h2⟩ := this
        obtain ⟨p, hp0, hp⟩ := ih y h2
        refine ⟨fun m => if m = 0 then x else p (m - 1), by simp, ?_⟩
        intro m hm
        cases m with
        | zero => simpa [hp0] using h1
        | succ m => simpa using hp m (by omega)
    exact fun n => back n i hi
  have short : ∀ fuel x l, scenarios H true fuel x = .ok l → ∀ p : ℕ → ℕ, p 0 = x → (∀ m < fuel, ScStep H (p m) (p (m + 1))) → False := by
    intro fuel
    induction fuel with
    | zero => intro x l h; cases h
    | succ fuel ih =>
      intro x l h p hp0 hp
      obtain ⟨h1, -⟩ := scenarios_ok h
      obtain ⟨l', hl'⟩ := h1 (p 1) (by have := hp 0 (by omega); rwa [hp0] at this)
      exact ih (p 1) l' hl' (fun m => p (m + 1)) rfl fun m hm => hp (m + 1) (by omega)
  intro h
  obtain ⟨p, h1, h2⟩ := long fuel
  exact short fuel i l h p h1 h2

/-- **C177** without loops, and if scenarios are named by texts, there is a list -/
theorem scenarios_total {H : Heap F Q} (rank : ℕ → ℕ) (hr : ∀ i j, ScStep H i j → rank j < rank i) (hs : ∀ i ts, ¬ HasScen H i (.tup ts)) (i fuel : ℕ)
    (hf : rank i < fuel) : ∃ l, scenarios H true fuel i = .ok l := by
  suffices h : ∃ l, scenarios H true fuel i = .ok l ∧ ∀ ts, Key.tup ts ∉ l by
    obtain ⟨l, h, -⟩ := h; exact ⟨l, h⟩
  induction fuel generalizing i with
  | zero => omega
  | succ fuel ih =>
    have h1 : ∀ j ∈ subs H i, ∃ l, scenarios H true fuel j = .ok l := by
      intro j hj
      have := hr i j ((mem_subs H i j).1 hj)
      obtain ⟨l, hl, -⟩ := ih j (by omega)
      exact ⟨l, hl⟩
    obtain ⟨r, hc⟩ := collect_total h1
    have hnt : ∀ ts, Key.tup ts ∉ ownKeys (H i) ++ r := by
      intro ts hm
      rcases List.mem_append.1 hm with hm | hm
      · exact hs i ts ((mem_ownKeys H i _).1 hm)
      · obtain ⟨j, hj, l, hl, hk⟩ := ((collect_ok hc).2 _).1 hm
        have := hr i j ((mem_subs H i j).1 hj)
        obtain ⟨l', hl', hno⟩ := ih j (by omega)
        rw [hl] at hl'; cases hl'
        exact hno ts hk
    have ht : tups (ownKeys (H i) ++ r) = [] := by
      rw [List.eq_nil_iff_forall_not_mem]
      intro ts hts
      exact hnt ts ((mem_tups _ _).1 hts)
    have hx : ∃ l, sortKeys (ownKeys (H i) ++ r) = .ok l := by
      unfold sortKeys; rw [ht]; exact ⟨_, rfl⟩
    obtain ⟨l, hl⟩ := hx
    refine ⟨l, ?_, ?_⟩
    · unfold scenarios
      simp only [if_true, hc, hl]
    · intro ts hm
      exact hnt ts ((sortKeys_mem hl _).1 hm).2

/-! ### examples -/

namespace ScenEx

def E : Env ℕ ℕ := { cf := fun _ _ => 0, refQ := fun _ => 0 }

/-- fragment 0 has child 1, terminated in scenario b to the subfragment 2; flow 1 is cut off there in scenario c -/
def H : Heap ℕ ℕ := fun
  | 0 => { kids := [1], flow := 0, dir := .output, evs := [(.cached, some 1), (.observed, some 1)], terms := [(none, { target := .frag 0, flow := 0 })] }
  | 1 => { parent := some 0, flow := 1, dir := .input, evs := [(.cached, some 2), (.observed, some 2), (.str "a", some 3)],
           terms := [(none, { target := .null, flow := 1 }), (some (.str "b"), { target := .frag 2, flow := 1 })] }
  | 2 => { kids := [3], flow := 1, dir := .input, evs := [(.cached, some 1), (.observed, some 1)], terms := [(none, { target := .frag 2, flow := 1 })] }
  | _ => { parent := some 2, flow := 3, dir := .input, evs := [(.cached, some 5), (.observed, some 5), (.str "c", some 7)], terms := [(none, { target := .null, flow := 3 })] }

example : scenarios H true 5 0 = .ok [.str "a", .str "b", .str "c"] ∧ scenarios H false 5 1 = .ok [.str "a", .str "b"] := by
  constructor <;> rfl

example : ∃ l, scenarios H true 4 0 = .ok l := ⟨_, rfl⟩

theorem H_targets (i : ℕ) (l : List Key) : RefTargets H i l := by
  intro j _ _ p hp s hs hne
  match j with
  | 0 => simp [H] at hp; subst hp; simp at hs; exact absurd hs.symm hne
  | 1 =>
    simp [H] at hp
    rcases hp with rfl | rfl
    · simp at hs
    · simp at hs; subst hs; exact ⟨rfl, fun h => by cases h⟩
  | 2 => simp [H] at hp; subst hp; simp at hs; exact absurd hs.symm hne
  | n + 3 => simp [H] at hp; subst hp; simp at hs

/-- the scenario d has no effect; c has one together with b -/
example (obs : Bool) (n : ℕ) : traverse E H (.one (.str "d")) obs n 0 = traverse E H .none obs n 0 :=
  traverse_unlisted_partial E (fuel := 5) (l := [.str "a", .str "b", .str "c"]) rfl (H_targets _ _) ⟨by decide, by decide⟩ (by decide) obs n

example : (traverse E H (.many [.str "b", .str "c", .str "d"]) true 9 0).toOption.map (·.map FF.mag) = some [1, 2, 2, 14] ∧
    (traverse E H (.many [.str "b"]) true 9 0).toOption.map (·.map FF.mag) = some [1, 2, 2, 10] := by
  constructor <;> decide +kernel

/-- a child flow terminated to its parent -/
def Hloop : Heap ℕ ℕ := fun
  | 0 => { kids := [1], flow := 0, dir := .output, evs := [(.cached, some 1)], terms := [(none, { target := .frag 0, flow := 0 })] }
  | _ => { parent := some 0, flow := 0, dir := .input, evs := [(.cached, some 2)], terms := [(none, { target := .frag 0, flow := 0 })] }

/-- **C177** (fails) a fragment that uses itself has no list of scenarios -/
theorem loop_not_listed (fuel : ℕ) (l : List Key) : scenarios Hloop true fuel 0 ≠ .ok l := by
  apply scenarios_loop (j := 0) .refl
  exact .head (.child (c := 1) (by simp [Hloop])) (.single (.sub (key := none) (t := { target := .frag 0, flow := 0 }) (by simp [Hloop]) rfl (by decide) rfl rfl))

/-- fragment 0 has child 1, terminated to the background fragment 2, which has a value for scenario a -/
def Hbg : Heap ℕ ℕ := fun
  | 0 => { kids := [1], flow := 0, dir := .output, evs := [(.cached, some 1), (.observed, some 1)], terms := [(none, { target := .frag 0, flow := 0 })] }
  | 1 => { parent := some 0, flow := 1, dir := .input, evs := [(.cached, some 2), (.observed, some 2)], terms := [(none, { target := .frag 2, flow := 1 })] }
  | _ => { flow := 1, dir := .output, bg := true, evs := [(.cached, some 1), (.observed, some 1), (.str "a", some 3)], terms := [(none, { target := .process, flow := 1 })] }

/-- **C177** (fails) scenarios of background fragments are not listed, though amounts depend on them -/
theorem background_not_listed : scenarios Hbg true 5 0 = .ok [] ∧
    (traverse E Hbg .none true 9 0).toOption.map (·.map FF.mag) = some [1, 2] ∧ (traverse E Hbg (.one (.str "a")) true 9 0).toOption.map (·.map FF.mag) = some [1, 6] := by
  refine ⟨rfl, ?_, ?_⟩ <;> decide +kernel

/-- fragment 0 has child 1, terminated to fragment 3, a child of the fragment 2, which has another child, 4, with a value for scenario a -/
def Hup : Heap ℕ ℕ := fun
  | 0 => { kids := [1], flow := 0, dir := .output, evs := [(.cached, some 1), (.observed, some 1)], terms := [(none, { target := .frag 0, flow := 0 })] }
  | 1 => { parent := some 0, flow := 1, dir := .input, evs := [(.cached, some 2), (.observed, some 2)], terms := [(none, { target := .frag 3, flow := 1 })] }
  | 2 => { kids := [3, 4], flow := 1, dir := .input, evs := [(.cached, some 1), (.observed, some 1)], terms := [(none, { target := .frag 2, flow := 1 })] }
  | 3 => { parent := some 2, flow := 5, dir := .input, evs := [(.cached, some 1), (.observed, some 1)], terms := [(none, { target := .null, flow := 5 })] }
  | _ => { parent := some 2, flow := 6, dir := .input, evs := [(.cached, some 1), (.observed, some 1), (.str "a", some 3)], terms := [(none, { target := .null, flow := 6 })] }

/-- **C177** (fails) if a flow is terminated to a child flow, the whole fragment is traversed but only the scenarios below the child flow are listed -/
theorem upstream_not_listed : scenarios Hup true 5 0 = .ok [] ∧
    (traverse E Hup .none true 9 0).toOption.map (·.map FF.mag) = some [1, 2, 2, 2, 2] ∧ (traverse E Hup (.one (.str "a")) true 9 0).toOption.map (·.map FF.mag) = some [1, 2, 2, 2, 6] := by
  refine ⟨rfl, ?_, ?_⟩ <;> decide +kernel

/-- **C177** (fails) texts and tuples (which are read from files) cannot be listed together -/
theorem mixed_not_listed : scenarios (fun _ => ({ flow := 0, dir := .output, evs := [(.str "a", some 1), (.tup ["b", "c"], some 2)], terms := [] } : Node ℕ ℕ)) true 5 0 =
    .error .typeError := rfl

end ScenEx
end Frg
