import Verif.Props.Olca
import Mathlib.Algebra.BigOperators.Group.List.Basic

/-!
Loading OpenLCA processes: C161 (amounts and references), C162 (allocation), C163 (failures and names).
-/

set_option linter.unusedSectionVars false

namespace Olca
open Proc (Dir Key)
open Spold1 (Plain valOf)

variable {P F Q T : Type} [DecidableEq P] [DecidableEq F] [DecidableEq Q] [DecidableEq T]

/-- factors that are used -/
def AF.Counts (af : AF F) : Prop := af.value ≠ 0 ∧ af.typ ≠ "CAUSAL_ALLOCATION"

theorem allocKey_inj {n t t' : String} (h : allocKey n t = allocKey n t') : t = t' := by
  unfold allocKey at h
  have h2 := congrArg String.toList h
  simp only [String.toList_append] at h2
  exact String.toList_injective (List.append_cancel_left h2)

theorem mem_dirs (env : Env P F Q) (f : F) (c : Dir → Bool) (d : Dir) : d ∈ dirs env f c ↔ c d = true := by
  unfold dirs
  cases env.first f <;> cases d <;> simp

/-- what holds after the factors `done` -/
structure AInv (name : String) (vals : F → Dir → ℚ) (K : Key F T → Prop) (refs0 : List (Key F T)) (cfs0 : Dict (F × String) ℚ) (done : List (AF F))
    (s : Proc.State F String T × Dict (F × String) ℚ) : Prop where
  wf : Wf s.1
  vs : ∀ f d, valOf s.1 f d = vals f d
  keys : ∀ k, k ∈ s.1.exchs.keys ↔ K k
  old : ∀ k ∈ refs0, k ∈ s.1.refs
  src : ∀ k ∈ s.1.refs, k ∈ refs0 ∨ ∃ af ∈ done, af.Counts ∧ af.product = k.flow
  one : ∀ af ∈ done, af.Counts → (∃ d, K ⟨af.product, d, none⟩) →
    ∃ d, (⟨af.product, d, none⟩ : Key F T) ∈ s.1.refs ∧ (∀ d', (⟨af.product, d', none⟩ : Key F T) ∈ s.1.refs → d' = d) ∧ vals af.product d ≠ 0 ∧
      s.2.get? (af.product, allocKey name af.typ) = some (af.value / vals af.product d)
  cfs : ∀ f m c, s.2.get? (f, allocKey name m) = some c → cfs0.get? (f, allocKey name m) = some c ∨
    ∃ af ∈ done, af.Counts ∧ af.typ = m ∧ af.product = f

theorem AInv.skip {name : String} {vals : F → Dir → ℚ} {K : Key F T → Prop} {refs0 : List (Key F T)} {cfs0 : Dict (F × String) ℚ} {done : List (AF F)}
    {s : Proc.State F String T × Dict (F × String) ℚ} (h : AInv name vals K refs0 cfs0 done s) (af : AF F)
    (hs : af.Counts → ∀ d, ¬ K ⟨af.product, d, none⟩) : AInv name vals K refs0 cfs0 (done ++ [af]) s := by
  refine ⟨h.wf, h.vs, h.keys, h.old, ?_, ?_, ?_⟩
  · intro k hk
    rcases h.src k hk with h1 | ⟨af', h1, h2⟩
    · exact Or.inl h1
    · exact Or.inr ⟨af', List.mem_append_left _ h1, h2⟩
  · intro af' haf hc hK
    rcases List.mem_append.mp haf with h1 | h1
    · exact h.one af' h1 hc hK
    · simp only [List.mem_singleton] at h1
      subst h1
      obtain ⟨d, hd⟩ := hK
      exact absurd hd (hs hc d)
  · intro f m c hc
    rcases h.cfs f m c hc with h1 | ⟨af', h1, h2⟩
    · exact Or.inl h1
    · exact Or.inr ⟨af', List.mem_append_left _ h1, h2⟩

/-- characterizing a flow that is a reference in one direction -/
theorem characterize_inv {name : String} {vals : F → Dir → ℚ} {K : Key F T → Prop} {refs0 : List (Key F T)} {cfs0 : Dict (F × String) ℚ}
    {done : List (AF F)} {s s' : Proc.State F String T × Dict (F × String) ℚ} {af : AF F} {d : Dir} (hc : af.Counts)
    (wf : Wf s.1) (hv : ∀ f d, valOf s.1 f d = vals f d) (hK : ∀ k, k ∈ s.1.exchs.keys ↔ K k) (ho : ∀ k ∈ refs0, k ∈ s.1.refs)
    (hsrc : ∀ k ∈ s.1.refs, k ∈ refs0 ∨ (∃ af ∈ done, af.Counts ∧ af.product = k.flow) ∨ k.flow = af.product)
    (hone : ∀ af ∈ done, af.Counts → (∃ d, K ⟨af.product, d, none⟩) →
      ∃ d, (⟨af.product, d, none⟩ : Key F T) ∈ s.1.refs ∧ (∀ d', (⟨af.product, d', none⟩ : Key F T) ∈ s.1.refs → d' = d) ∧ vals af.product d ≠ 0 ∧
        s.2.get? (af.product, allocKey name af.typ) = some (af.value / vals af.product d))
    (hcf : ∀ f m c, s.2.get? (f, allocKey name m) = some c → cfs0.get? (f, allocKey name m) = some c ∨
      ∃ af ∈ done, af.Counts ∧ af.typ = m ∧ af.product = f)
    (hd : (⟨af.product, d, none⟩ : Key F T) ∈ s.1.refs) (hu : ∀ d', (⟨af.product, d', none⟩ : Key F T) ∈ s.1.refs → d' = d)
    (h : characterize name af d s = .ok () s') : AInv name vals K refs0 cfs0 (done ++ [af]) s' := by
  unfold characterize at h
  cases hx : (s.1.exchs.get? ⟨af.product, d, none⟩).bind (·.val) with
  | none => simp [hx] at h
  | some x =>
    simp only [hx] at h
    split at h
    · cases h
    · rename_i hx0
      split at h
      · cases h
      · rename_i hn
        cases h
        have hnone : s.2.get? (af.product, allocKey name af.typ) = none := by
          simpa [Dict.has] using hn
        have hval : vals af.product d = x := by
          rw [← hv]
          cases he : s.1.exchs.get? ⟨af.product, d, none⟩ with
          | none => simp [he] at hx
          | some e =>
            obtain ⟨_, q2, v, q3⟩ := wf.plain.exch _ _ he
            simp only [he, Option.bind_some, Proc.Exch.val, q2, q3] at hx
            simp only [valOf, he, Option.bind_some, q3, Option.getD_some]
            simpa using hx
        refine ⟨wf, hv, hK, ho, ?_, ?_, ?_⟩
        · intro k hk
          rcases hsrc k hk with h1 | ⟨af', h1, h2⟩ | h1
          · exact Or.inl h1
          · exact Or.inr ⟨af', List.mem_append_left _ h1, h2⟩
          · exact Or.inr ⟨af, by simp, hc, h1.symm⟩
        · intro af' haf hc' hK'
          rcases List.mem_append.mp haf with h1 | h1
          · obtain ⟨d', g1, g2, g3, g4⟩ := hone af' h1 hc' hK'
            refine ⟨d', g1, g2, g3, ?_⟩
            have hne : (af.product, allocKey name af.typ) ≠ (af'.product, allocKey name af'.typ) := by
              intro hh; rw [← hh, hnone] at g4; cases g4
            simp only [Dict.get?_set_ne _ _ hne]
            exact g4
          · simp only [List.mem_singleton] at h1
            subst h1
            exact ⟨d, hd, hu, by rw [hval]; exact hx0, by simp only [Dict.get?_set_self, hval]⟩
        · intro f m c hcc
          by_cases hkk : (af.product, allocKey name af.typ) = (f, allocKey name m)
          · simp only [Prod.mk.injEq] at hkk
            exact Or.inr ⟨af, by simp, hc, allocKey_inj hkk.2, hkk.1⟩
          · simp only [Dict.get?_set_ne _ _ hkk] at hcc
            rcases hcf f m c hcc with h1 | ⟨af', h1, h2⟩
            · exact Or.inl h1
            · exact Or.inr ⟨af', List.mem_append_left _ h1, h2⟩

theorem applyOne_inv {env : Env P F Q} {name : String} {vals : F → Dir → ℚ} {K : Key F T → Prop} {refs0 : List (Key F T)}
    {cfs0 : Dict (F × String) ℚ} {done : List (AF F)} {s s' : Proc.State F String T × Dict (F × String) ℚ} {af : AF F}
    (h : AInv name vals K refs0 cfs0 done s) (hx : applyOne env name af s = .ok () s') : AInv name vals K refs0 cfs0 (done ++ [af]) s' := by
  unfold applyOne at hx
  split at hx
  · rename_i h0
    cases hx
    exact h.skip af (fun hc => absurd h0 hc.1)
  · rename_i h0
    split at hx
    · rename_i h1
      cases hx
      exact h.skip af (fun hc => absurd h1 hc.2)
    · rename_i h1
      have hc : af.Counts := ⟨h0, h1⟩
      split at hx
      · cases hx
      · split at hx
        · rename_i d hd
          have hm : ∀ d', (⟨af.product, d', none⟩ : Key F T) ∈ s.1.refs ↔ d' = d := by
            intro d'
            have := mem_dirs env af.product (fun d => decide ((⟨af.product, d, none⟩ : Key F T) ∈ s.1.refs)) d'
            rw [hd] at this
            simpa using this.symm
          exact characterize_inv hc h.wf h.vs h.keys h.old (fun k hk => (h.src k hk).imp_right Or.inl) h.one h.cfs
            ((hm d).mpr rfl) (fun d' => (hm d').mp) hx
        · cases hx
        · rename_i hd
          have hno : ∀ d', (⟨af.product, d', none⟩ : Key F T) ∉ s.1.refs := by
            intro d' hd'
            have := (mem_dirs env af.product (fun d => decide ((⟨af.product, d, none⟩ : Key F T) ∈ s.1.refs)) d').mpr (by simpa using hd')
            rw [hd] at this
            cases this
          split at hx
          · rename_i hk
            cases hx
            refine h.skip af (fun _ d' hd' => ?_)
            have := (mem_dirs env af.product (fun d => s.1.exchs.has (⟨af.product, d, none⟩ : Key F T)) d').mpr
              ((Dict.has_iff _ _).mpr ((h.keys _).mpr hd'))
            rw [hk] at this
            cases this
          · rename_i d ds hk
            have hkey : (⟨af.product, d, none⟩ : Key F T) ∈ s.1.exchs.keys := by
              have := (mem_dirs env af.product (fun d => s.1.exchs.has (⟨af.product, d, none⟩ : Key F T)) d).mp (by rw [hk]; simp)
              exact (Dict.has_iff _ _).mp this
            obtain ⟨p1, r1, r2, r3, r4, r5⟩ := addReference_right (fun _ _ => none) h.wf hkey
            rw [r1] at hx
            simp only at hx
            refine characterize_inv (done := done) (s := (p1, s.2)) hc r2 (fun f d => by rw [r4, h.vs]) (fun k => by rw [r5, h.keys]) (fun k hk => (r3 k).mpr (Or.inl (h.old k hk)))
              ?_ ?_ h.cfs ((r3 _).mpr (Or.inr rfl)) ?_ hx
            · intro k hk
              rcases (r3 k).mp hk with h1 | rfl
              · exact (h.src k h1).imp_right Or.inl
              · exact Or.inr (Or.inr rfl)
            · intro af' haf hc' hK'
              obtain ⟨d', g1, g2, g3, g4⟩ := h.one af' haf hc' hK'
              refine ⟨d', (r3 _).mpr (Or.inl g1), ?_, g3, g4⟩
              intro d'' hd''
              rcases (r3 _).mp hd'' with h1 | h1
              · exact g2 d'' h1
              · simp only [Key.mk.injEq, and_true] at h1
                rw [h1.1] at g1
                exact absurd g1 (hno d')
            · intro d' hd'
              rcases (r3 _).mp hd' with h1 | h1
              · exact absurd h1 (hno d')
              · simpa using h1

theorem applyAll_inv {env : Env P F Q} {name : String} {vals : F → Dir → ℚ} {K : Key F T → Prop} {refs0 : List (Key F T)}
    {cfs0 : Dict (F × String) ℚ} {done : List (AF F)} {s s' : Proc.State F String T × Dict (F × String) ℚ} (afs : List (AF F))
    (h : AInv name vals K refs0 cfs0 done s) (hx : applyAll env name afs s = .ok () s') : AInv name vals K refs0 cfs0 (done ++ afs) s' := by
  induction afs generalizing s done with
  | nil => unfold applyAll at hx; cases hx; simpa using h
  | cons af afs ih =>
    unfold applyAll at hx
    cases h1 : applyOne env name af s with
    | err e s1 => simp [h1] at hx
    | ok u s1 =>
      simp only [h1] at hx
      have := ih (applyOne_inv h h1) hx
      simpa using this

/-- the loading of the exchanges, references and allocation factors of a process -/
theorem fill_before {env : Env P F Q} {w : Q → String → ℚ} (hw : Agrees env w) {pj : PJ F Q} {cfs : Dict (F × String) ℚ}
    {s' : Proc.State F String T × Dict (F × String) ℚ} (h : fill env pj cfs = .ok () s') :
    ∃ s, AInv (T := T) pj.name (fun f d => Total w f d pj.exchs) (fun k => ∃ f d, k = ⟨f, d, none⟩ ∧ ∃ ex ∈ pj.exchs, ex.Is f d)
        (s.1.refs.filter fun k => decide (∃ ex ∈ pj.exchs, ex.isRef = true ∧ ex.Is k.flow k.dir)) cfs pj.factors s ∧
      (∀ f d, (∃ ex ∈ pj.exchs, ex.isRef = true ∧ ex.Is f d) → (⟨f, d, none⟩ : Key F T) ∈ s.1.refs) ∧
      (match pj.default with
        | none => s' = s
        | some m => ∃ st, Proc.allocate (cfOf s.2) (some (allocKey pj.name m)) s.1 = .ok () st ∧ s' = (st, s.2)) := by
  unfold fill at h
  cases h1 : addExs env pj.exchs ({} : Proc.State F String T) with
  | err e st => simp [h1] at h
  | ok u st1 =>
    simp only [h1] at h
    obtain ⟨a1, a2, a3, a4, a5⟩ := addExs_right hw (p := ({} : Proc.State F String T)) ⟨(by intro k e h; cases h), rfl, rfl⟩ (by intro k e h; cases h) h1
    have hwf1 : Wf st1 := ⟨a1, (by intro k x hx; rw [a2 k x hx, a3]; simp), (by rw [a3]; simp), by rw [a3]; simp⟩
    obtain ⟨st2, b1, b2, b3, b4, b5⟩ := addRefs_right (exs := pj.exchs) hwf1 (by
      intro ex hex _
      rw [a5]
      exact Or.inr ⟨_, _, rfl, ex, hex, (dir_is _ _ _).mpr ⟨rfl, rfl⟩⟩)
    simp only [b1] at h
    unfold applyAlloc at h
    cases h2 : applyAll env pj.name pj.factors (st2, cfs) with
    | err e s => simp [h2] at h
    | ok u s =>
      simp only [h2] at h
      have hrefs : ∀ k, k ∈ st2.refs ↔ ∃ f d, k = ⟨f, d, none⟩ ∧ ∃ ex ∈ pj.exchs, ex.isRef = true ∧ ex.Is f d := by
        intro k; rw [b3, a3]; simp
      have h0 : AInv (T := T) pj.name (fun f d => Total w f d pj.exchs) (fun k => ∃ f d, k = ⟨f, d, none⟩ ∧ ∃ ex ∈ pj.exchs, ex.Is f d) st2.refs cfs []
          (st2, cfs) := by
        refine ⟨b2, ?_, ?_, fun k hk => hk, fun k hk => Or.inl hk, by simp, fun f m c hc => Or.inl hc⟩
        · intro f d
          rw [b4, a4]
          have : valOf ({} : Proc.State F String T) f d = 0 := rfl
          rw [this, zero_add]
        · intro k
          rw [b5, a5]
          constructor
          · rintro (h | h)
            · cases h
            · exact h
          · exact Or.inr
      have hinv := applyAll_inv pj.factors h0 h2
      rw [List.nil_append] at hinv
      refine ⟨s, ⟨hinv.wf, hinv.vs, hinv.keys, ?_, ?_, hinv.one, hinv.cfs⟩, ?_, ?_⟩
      · intro k hk
        exact (List.mem_filter.mp hk).1
      · intro k hk
        rcases hinv.src k hk with h3 | h3
        · left
          rw [List.mem_filter]
          refine ⟨hk, ?_⟩
          obtain ⟨f, d, rfl, h4⟩ := (hrefs k).mp h3
          simpa using h4
        · exact Or.inr h3
      · intro f d hfd
        exact hinv.old _ ((hrefs _).mpr ⟨f, d, rfl, hfd⟩)
      · cases hdm : pj.default with
        | none => simp only [hdm] at h; cases h; rfl
        | some m =>
          simp only [hdm] at h
          cases h3 : Proc.allocate (cfOf s.2) (some (allocKey pj.name m)) s.1 with
          | err e st => simp [h3] at h
          | ok u st =>
            simp only [h3, Out.ok.injEq, true_and] at h
            exact ⟨st, by simpa using h3, h.symm⟩

end Olca
