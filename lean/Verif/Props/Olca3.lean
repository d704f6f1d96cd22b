import Verif.Props.Olca2
import Mathlib.Tactic.FinCases

/-!
Loading OpenLCA processes: C161 (amounts and references), C162 (allocation), C163 (failures and names).
-/

set_option linter.unusedSectionVars false

namespace Olca
open Proc (Dir Key)
open Spold1 (Plain valOf)

variable {P F Q T : Type} [DecidableEq P] [DecidableEq F] [DecidableEq Q] [DecidableEq T]

theorem createProcess_fill {env : Env P F Q} {p : P} {a a' : Ar P F T} {pj : PJ F Q} (hf : env.proc p = some pj) (hn : a.procs.get? p = none)
    (h : createProcess env p a = .ok () a') : ∃ s, fill env pj a.cfs = .ok () s ∧ a' = ⟨a.procs.set p s.1, s.2⟩ := by
  unfold createProcess at h
  simp only [hn, hf] at h
  cases hx : fill (T := T) env pj a.cfs with
  | err e s => simp [hx] at h
  | ok u s =>
    simp only [hx, Out.ok.injEq, true_and] at h
    exact ⟨s, by simpa using hx, h.symm⟩

theorem allocate_frame {cf : F → String → Option ℚ} {q : Option String} {p p' : Proc.State F String T} (h : Proc.allocate cf q p = .ok () p') :
    p'.exchs = p.exchs ∧ p'.refs = p.refs := by
  unfold Proc.allocate at h
  split at h
  · cases h; exact ⟨rfl, rfl⟩
  · split at h
    · cases h
    · simp only at h
      split at h <;> cases h <;> exact ⟨rfl, rfl⟩

/-- **C161** a process that is loaded has exactly the exchanges of its file: the amount of a flow in a direction is the sum of the amounts listed, each
converted to the reference unit of its flow property; its references are the quantitative references of the file and the products of the allocation
factors that are not zero; other processes are as they were -/
theorem loaded {env : Env P F Q} {w : Q → String → ℚ} (hw : Agrees env w) {p : P} {a a' : Ar P F T} {pj : PJ F Q} (hf : env.proc p = some pj)
    (hn : a.procs.get? p = none) (h : createProcess env p a = .ok () a') :
    ∃ st, a'.procs.get? p = some st ∧
      (∀ k, k ∈ st.exchs.keys ↔ ∃ f d, k = ⟨f, d, none⟩ ∧ ∃ ex ∈ pj.exchs, ex.Is f d) ∧
      (∀ f d x, st.exchs.get? ⟨f, d, none⟩ = some x → x.value = some (Total w f d pj.exchs) ∧ x.vdict = []) ∧
      (∀ f d, (∃ ex ∈ pj.exchs, ex.isRef = true ∧ ex.Is f d) → (⟨f, d, none⟩ : Key F T) ∈ st.refs) ∧
      (∀ af ∈ pj.factors, af.value ≠ 0 → af.typ ≠ "CAUSAL_ALLOCATION" → (∃ d, ∃ ex ∈ pj.exchs, ex.Is af.product d) →
        ∃ d, (⟨af.product, d, none⟩ : Key F T) ∈ st.refs ∧ ∀ d', (⟨af.product, d', none⟩ : Key F T) ∈ st.refs → d' = d) ∧
      (∀ k ∈ st.refs, (∃ ex ∈ pj.exchs, ex.isRef = true ∧ ex.Is k.flow k.dir) ∨
        ∃ af ∈ pj.factors, af.value ≠ 0 ∧ af.typ ≠ "CAUSAL_ALLOCATION" ∧ af.product = k.flow) ∧
      (∀ p', p' ≠ p → a'.procs.get? p' = a.procs.get? p') := by
  obtain ⟨s', h1, rfl⟩ := createProcess_fill hf hn h
  obtain ⟨s, hi, hq, hd⟩ := fill_before hw h1
  have hs : s'.1.exchs = s.1.exchs ∧ s'.1.refs = s.1.refs := by
    cases hdm : pj.default with
    | none => simp only [hdm] at hd; rw [hd]; exact ⟨rfl, rfl⟩
    | some m =>
      simp only [hdm] at hd
      obtain ⟨st, h2, rfl⟩ := hd
      exact allocate_frame h2
  refine ⟨s'.1, Dict.get?_set_self _ _ _, ?_, ?_, ?_, ?_, ?_, fun p' hp => Dict.get?_set_ne _ _ (Ne.symm hp)⟩
  · rw [hs.1]; exact hi.keys
  · intro f d x hx
    rw [hs.1] at hx
    obtain ⟨_, q2, v, q3⟩ := hi.wf.plain.exch _ _ hx
    have := hi.vs f d
    simp only [valOf, hx, Option.bind_some, q3, Option.getD_some] at this
    exact ⟨by rw [q3, this], q2⟩
  · rw [hs.2]; exact hq
  · rw [hs.2]
    intro af haf h1 h2 ⟨d, hd⟩
    obtain ⟨d', g1, g2, _⟩ := hi.one af haf ⟨h1, h2⟩ ⟨d, _, _, rfl, hd⟩
    exact ⟨d', g1, g2⟩
  · rw [hs.2]
    intro k hk
    rcases hi.src k hk with h2 | ⟨af, h2, h3, h4⟩
    · left
      have := (List.mem_filter.mp h2).2
      simpa using this
    · exact Or.inr ⟨af, h2, h3.1, h3.2, h4⟩

theorem allocDict_sum {cf : F → String → Option ℚ} {q : String} {p : Proc.State F String T} (g : Key F T → ℚ) (refs : List (Key F T))
    (h : ∀ k ∈ refs, ∃ e v c, p.exchs.get? k = some e ∧ e.val = some v ∧ cf k.flow q = some c ∧ v * c = g k) :
    ∃ l, Proc.allocDict cf q p refs = .ok l ∧ (l.map (·.2)).sum = (refs.map g).sum := by
  induction refs with
  | nil => exact ⟨[], rfl, rfl⟩
  | cons k refs ih =>
    obtain ⟨l, h1, h2⟩ := ih (fun k' hk' => h k' (List.mem_cons_of_mem _ hk'))
    obtain ⟨e, v, c, e1, e2, e3, e4⟩ := h k (by simp)
    refine ⟨(k, v * c) :: l, ?_, ?_⟩
    · simp only [Proc.allocDict, e1, e2, e3, Proc.pyMul, h1]
    · simp only [List.map_cons, List.sum_cons, h2, e4]

/-- **C162** a process with a default allocation method is allocated by it: what an exchange is per unit of a reference is its amount times the share
of the factor of the reference in the sum of the factors of the references, over the amount of the reference -/
theorem allocated {env : Env P F Q} {w : Q → String → ℚ} (hw : Agrees env w) {p : P} {a a' : Ar P F T} {pj : PJ F Q} (hf : env.proc p = some pj)
    (hn : a.procs.get? p = none) (h : createProcess env p a = .ok () a') {m : String} (hm : pj.default = some m) (hmc : m ≠ "CAUSAL_ALLOCATION")
    (hfresh : ∀ g, a.cfs.get? (g, pj.name ++ "_" ++ m) = none) :
    ∃ st, a'.procs.get? p = some st ∧ st.refs.Nodup ∧
      ((st.refs.map fun r => factor pj m r.flow).sum ≠ 0 →
        ∀ k ∈ st.exchs.keys, k ∉ st.refs → ∀ r ∈ st.refs,
          Proc.getItem (cfOf a'.cfs) st k r = .ok (Total w k.flow k.dir pj.exchs *
            (factor pj m r.flow / (st.refs.map fun r => factor pj m r.flow).sum) / Total w r.flow r.dir pj.exchs)) := by
  obtain ⟨s', h1, rfl⟩ := createProcess_fill hf hn h
  obtain ⟨s, hi, hq, hd⟩ := fill_before hw h1
  simp only [hm] at hd
  obtain ⟨st, h2, rfl⟩ := hd
  obtain ⟨f1, f2⟩ := allocate_frame h2
  -- the factor of a reference
  have hcf : ∀ r ∈ s.1.refs, cfOf s.2 r.flow (allocKey pj.name m) = some (factor pj m r.flow / Total w r.flow r.dir pj.exchs) ∧
      (factor pj m r.flow ≠ 0 → Total w r.flow r.dir pj.exchs ≠ 0) := by
    intro r hr
    obtain ⟨e, he⟩ := (Dict.mem_keys_iff _ _).mp (hi.wf.sub r hr)
    have hrk : r = ⟨r.flow, r.dir, none⟩ := by
      have := (hi.wf.plain.exch _ _ he).1
      cases r; simp only at this; simp [this]
    unfold factor
    cases hfd : pj.factors.find? fun af => decide (af.typ = m ∧ af.product = r.flow ∧ af.value ≠ 0) with
    | some af =>
      have hmem := List.mem_of_find?_eq_some hfd
      have hp := List.find?_some hfd
      simp only [decide_eq_true_eq] at hp
      obtain ⟨p1, p2, p3⟩ := hp
      have hK := (hi.keys _).mp (hi.wf.sub r hr)
      rw [hrk] at hK
      obtain ⟨d, g1, g2, g3, g4⟩ := hi.one af hmem ⟨p3, by rw [p1]; exact hmc⟩ ⟨r.dir, by rw [p2]; exact hK⟩
      have hrd : r.dir = d := g2 r.dir (by rw [p2, ← hrk]; exact hr)
      simp only
      rw [p2, ← hrd] at g3 g4
      rw [p1] at g4
      refine ⟨by simp only [cfOf, g4, Option.getD_some], fun _ => g3⟩
    | none =>
      simp only [zero_div, ne_eq, not_true_eq_false, false_implies, and_true]
      unfold cfOf
      cases hc : s.2.get? (r.flow, allocKey pj.name m) with
      | none => rfl
      | some c =>
        exfalso
        rcases hi.cfs _ _ _ hc with h3 | ⟨af, h3, h4, h5, h6⟩
        · have := hfresh r.flow
          unfold allocKey at h3
          rw [this] at h3; cases h3
        · have := List.find?_eq_none.mp hfd af h3
          simp only [decide_eq_true_eq, not_and] at this
          exact this h5 h6 h4.1
  -- the values
  have hval : ∀ k ∈ s.1.exchs.keys, ∃ e, s.1.exchs.get? k = some e ∧ e.vdict = [] ∧ e.value = some (Total w k.flow k.dir pj.exchs) ∧
      e.val = some (Total w k.flow k.dir pj.exchs) := by
    intro k hk
    obtain ⟨e, he⟩ := (Dict.mem_keys_iff _ _).mp hk
    obtain ⟨q1, q2, v, q3⟩ := hi.wf.plain.exch _ _ he
    have hkk : k = ⟨k.flow, k.dir, none⟩ := by cases k; simp only at q1; simp [q1]
    have := hi.vs k.flow k.dir
    simp only [valOf] at this
    rw [← hkk, he] at this
    simp only [Option.bind_some, q3, Option.getD_some] at this
    refine ⟨e, he, q2, by rw [q3, this], ?_⟩
    simp only [Proc.Exch.val, q3, this]
  obtain ⟨l, l1, l2⟩ := allocDict_sum (cf := cfOf s.2) (q := allocKey pj.name m) (p := s.1) (fun r => factor pj m r.flow) s.1.refs (by
    intro r hr
    obtain ⟨e, e1, _, _, e4⟩ := hval r (hi.wf.sub r hr)
    obtain ⟨c1, c2⟩ := hcf r hr
    refine ⟨e, _, _, e1, e4, c1, ?_⟩
    by_cases h0 : factor pj m r.flow = 0
    · simp [h0]
    · have := c2 h0
      field_simp)
  refine ⟨st, Dict.get?_set_self _ _ _, by rw [f2]; exact hi.wf.nodup, ?_⟩
  rw [f2]
  intro hS k hk hkr r hr
  rw [f1] at hk
  have hst : st.allocQ = some (allocKey pj.name m) ∧ st.allocSum = (s.1.refs.map fun r => factor pj m r.flow).sum := by
    unfold Proc.allocate at h2
    simp only [l1, l2, hS, if_false, Out.ok.injEq, true_and] at h2
    rw [← h2]
    exact ⟨rfl, rfl⟩
  obtain ⟨e, e1, e2, e3, e4⟩ := hval k hk
  obtain ⟨er, r1, r2, r3, r4⟩ := hval r (hi.wf.sub r hr)
  have hfe : e.isRef = false := by
    rw [Bool.eq_false_iff]; intro hh; exact hkr ((hi.wf.flag _ _ e1).mp hh)
  have hfr : er.isRef = true := (hi.wf.flag _ _ r1).mpr hr
  simp only [Proc.getItem, f1, e1, r1, hfr, hfe, if_true, Bool.false_eq_true, if_false, Proc.State.allocQty, hst.2, hS, ne_eq, not_false_eq_true, hst.1,
    e4, Proc.pyDiv, (hcf r hr).1, Proc.pyMul, Except.ok.injEq]
  ring

/-! ### failures -/

/-- **C163** fails: a process whose loading failed stays in the archive, and is returned without error by every later query -/
theorem failed_kept {env env' : Env P F Q} {p : P} {a a' : Ar P F T} {e : Err} (h : createProcess env p a = .err e a') (he : env.proc p ≠ none)
    : ∃ st, a'.procs.get? p = some st ∧ retrieve env' p a' = .ok (some st) a' := by
  have : ∃ st, a'.procs.get? p = some st := by
    unfold createProcess at h
    split at h
    · cases h
    · split at h
      · rename_i hn; exact absurd hn he
      · split at h
        · cases h; exact ⟨_, Dict.get?_set_self _ _ _⟩
        · cases h
  obtain ⟨st, hst⟩ := this
  refine ⟨st, hst, ?_⟩
  unfold retrieve createProcess
  simp only [hst]

/-- **C161** an exchange in another flow property than the reference of its flow is never loaded: the process fails -/
theorem other_property_fails {env : Env P F Q} {p : P} {a : Ar P F T} {pj : PJ F Q} (hf : env.proc p = some pj) (hn : a.procs.get? p = none)
    {ex : Ex F Q} (hex : ex ∈ pj.exchs) {q : Q} (hq : getFlow env ex.flow = .ok q) (hne : ex.fp ≠ q) : ∃ e a', createProcess env p a = .err e a' := by
  have hv : ∃ e, exValue env ex = .error e := by
    unfold exValue
    simp only [hq]
    cases getQty env ex.fp with
    | error e => exact ⟨_, rfl⟩
    | ok qq =>
      simp only
      split
      · exact ⟨_, rfl⟩
      · rw [if_neg hne]; exact ⟨_, rfl⟩
  have hx : ∀ (exs : List (Ex F Q)) (st : Proc.State F String T), ex ∈ exs → ∃ e st', addExs env exs st = .err e st' := by
    intro exs
    induction exs with
    | nil => intro st h; cases h
    | cons ex' exs ih =>
      intro st h
      unfold addExs
      cases hv' : exValue env ex' with
      | error e => exact ⟨_, _, rfl⟩
      | ok v =>
        simp only
        cases Proc.addExchange id ex'.flow ex'.dir none (some v) none true st with
        | err e s => exact ⟨_, _, rfl⟩
        | ok u s =>
          rcases List.mem_cons.mp h with rfl | h
          · obtain ⟨e, he⟩ := hv; rw [he] at hv'; cases hv'
          · exact ih s h
  obtain ⟨e, st', h1⟩ := hx pj.exchs {} hex
  unfold createProcess
  simp only [hn, hf, fill, h1]
  exact ⟨_, _, rfl⟩

theorem applyAll_dup {env : Env P F Q} {name : String} {af : AF F} (hc : af.Counts) :
    ∀ (afs : List (AF F)) (vals : F → Dir → ℚ) (K : Key F T → Prop) (refs0 : List (Key F T)) (cfs0 : Dict (F × String) ℚ) (done : List (AF F))
      (s : Proc.State F String T × Dict (F × String) ℚ), AInv name vals K refs0 cfs0 done s → (∃ d, K ⟨af.product, d, none⟩) →
      s.2.has (af.product, allocKey name af.typ) = true → af ∈ afs → ∃ e s', applyAll env name afs s = .err e s' := by
  intro afs
  induction afs with
  | nil => intro _ _ _ _ _ _ _ _ _ h; cases h
  | cons af' afs ih =>
    intro vals K refs0 cfs0 done s hi hK hh hm
    unfold applyAll
    have hch : ∀ d (s : Proc.State F String T × Dict (F × String) ℚ), s.2.has (af.product, allocKey name af.typ) = true →
        ∃ e s', characterize name af d s = .err e s' := by
      intro d s hh
      unfold characterize
      split
      · exact ⟨_, _, rfl⟩
      · split
        · exact ⟨_, _, rfl⟩
        · exact ⟨_, _, rfl⟩
    cases hx : applyOne env name af' s with
    | err e s1 => exact ⟨_, _, rfl⟩
    | ok u s1 =>
      simp only
      rcases List.mem_cons.mp hm with rfl | hm
      · exfalso
        unfold applyOne at hx
        rw [if_neg hc.1, if_neg hc.2] at hx
        split at hx
        · cases hx
        · split at hx
          · rename_i d hd
            obtain ⟨e, s', he⟩ := hch d s hh
            rw [he] at hx; cases hx
          · cases hx
          · split at hx
            · rename_i hk
              obtain ⟨d', hd'⟩ := hK
              have := (mem_dirs env af.product (fun d => s.1.exchs.has (⟨af.product, d, none⟩ : Key F T)) d').mpr
                ((Dict.has_iff _ _).mpr ((hi.keys _).mpr hd'))
              rw [hk] at this
              cases this
            · split at hx
              · cases hx
              · rename_i d _ _ _ _ st _
                obtain ⟨e, s', he⟩ := hch d (st, s.2) hh
                rw [he] at hx; cases hx
      · have hi1 := applyOne_inv hi hx
        refine ih vals K refs0 cfs0 (done ++ [af']) s1 hi1 hK ?_ hm
        -- factors are never removed
        have mono : ∀ d (s s' : Proc.State F String T × Dict (F × String) ℚ), characterize name af' d s = .ok () s' →
            s.2.has (af.product, allocKey name af.typ) = true → s'.2.has (af.product, allocKey name af.typ) = true := by
          intro d s s' h hh
          unfold characterize at h
          split at h
          · cases h
          · split at h
            · cases h
            · split at h
              · cases h
              · cases h
                rw [Dict.has_iff] at hh ⊢
                rw [Dict.mem_keys_set]
                exact Or.inr hh
        unfold applyOne at hx
        split at hx
        · cases hx; exact hh
        · split at hx
          · cases hx; exact hh
          · split at hx
            · cases hx
            · split at hx
              · exact mono _ _ _ hx hh
              · cases hx
              · split at hx
                · cases hx; exact hh
                · split at hx
                  · cases hx
                  · exact mono _ _ _ hx hh

/-- **C162** fails: of two processes of the same name with the same product and an allocation factor for it by the same method (as are those of
different locations) the second is not loaded -/
theorem same_name_fails {env : Env P F Q} {w : Q → String → ℚ} (hw : Agrees env w) {p p' : P} (hp : p' ≠ p) {a a' : Ar P F T} {pj pj' : PJ F Q}
    (hf : env.proc p = some pj) (hf' : env.proc p' = some pj') (hn : a.procs.get? p = none) (hn' : a.procs.get? p' = none)
    (h : createProcess env p a = .ok () a') (hname : pj'.name = pj.name) {af af' : AF F} (haf : af ∈ pj.factors) (haf' : af' ∈ pj'.factors)
    (ht : af'.typ = af.typ) (hprod : af'.product = af.product) (hv : af.value ≠ 0) (hv' : af'.value ≠ 0) (hc : af.typ ≠ "CAUSAL_ALLOCATION")
    (hx : ∃ d, ∃ ex ∈ pj.exchs, ex.Is af.product d) (hx' : ∃ d, ∃ ex ∈ pj'.exchs, ex.Is af'.product d) :
    ∃ e a'', createProcess env p' a' = .err e a'' := by
  obtain ⟨s', h1, rfl⟩ := createProcess_fill hf hn h
  obtain ⟨s, hi, _, hd⟩ := fill_before hw h1
  have hs2 : s'.2 = s.2 := by
    cases hdm : pj.default with
    | none => simp only [hdm] at hd; rw [hd]
    | some m => simp only [hdm] at hd; obtain ⟨st, _, rfl⟩ := hd; rfl
  obtain ⟨d, hxd⟩ := hx
  obtain ⟨_, _, _, _, g4⟩ := hi.one af haf ⟨hv, hc⟩ ⟨d, _, _, rfl, hxd⟩
  have hhas : s'.2.has (af'.product, allocKey pj'.name af'.typ) = true := by
    rw [hs2, hname, ht, hprod]
    simp [Dict.has, g4]
  have hnew : (a.procs.set p s'.1).get? p' = none := by rw [Dict.get?_set_ne _ _ (Ne.symm hp)]; exact hn'
  unfold createProcess
  simp only [hnew, hf']
  unfold fill
  cases h2 : addExs env pj'.exchs ({} : Proc.State F String T) with
  | err e st => exact ⟨_, _, rfl⟩
  | ok u st1 =>
    simp only
    obtain ⟨a1, a2, a3, a4, a5⟩ := addExs_right hw (p := ({} : Proc.State F String T)) ⟨(by intro k e h; cases h), rfl, rfl⟩ (by intro k e h; cases h) h2
    have hwf1 : Wf st1 := ⟨a1, (by intro k x hx; rw [a2 k x hx, a3]; simp), (by rw [a3]; simp), by rw [a3]; simp⟩
    obtain ⟨st2, b1, b2, b3, b4, b5⟩ := addRefs_right (exs := pj'.exchs) hwf1 (by
      intro ex hex _
      rw [a5]
      exact Or.inr ⟨_, _, rfl, ex, hex, (dir_is _ _ _).mpr ⟨rfl, rfl⟩⟩)
    simp only [b1]
    have h0 : AInv (T := T) pj'.name (valOf st2) (fun k => k ∈ st2.exchs.keys) st2.refs s'.2 [] (st2, s'.2) :=
      ⟨b2, fun _ _ => rfl, fun _ => Iff.rfl, fun k hk => hk, fun k hk => Or.inl hk, by simp, fun f m c hc => Or.inl hc⟩
    obtain ⟨d', ex, hex, his⟩ := hx'
    obtain ⟨e, s2, he⟩ := applyAll_dup (env := env) (af := af') ⟨hv', by rw [ht]; exact hc⟩ pj'.factors _ _ _ _ _ _ h0
      ⟨d', (b5 _).mpr ((a5 _).mpr (Or.inr ⟨_, _, rfl, ex, hex, his⟩))⟩ hhas haf'
    simp only [applyAlloc, he]
    exact ⟨_, _, rfl⟩

/-! ### examples -/

namespace Ex

def mass : List Unit := [⟨"kg", 1, true⟩, ⟨"t", 1000, false⟩, ⟨"g", 1 / 1000, false⟩]
def energy : List Unit := [⟨"kWh", 36 / 10, false⟩, ⟨"MJ", 1, true⟩]

/-- a refinery: two products, crude in two entries, own use of one product -/
def refinery : PJ ℕ ℕ := ⟨"refinery", [⟨1, false, 3, 0, some "t", true⟩, ⟨2, false, 2000, 0, some "kg", false⟩, ⟨3, true, 4, 0, some "t", false⟩,
  ⟨3, true, 500, 0, none, false⟩, ⟨4, true, 10, 1, some "kWh", false⟩],
  [⟨"PHYSICAL_ALLOCATION", 1, 3 / 5⟩, ⟨"PHYSICAL_ALLOCATION", 2, 2 / 5⟩, ⟨"ECONOMIC_ALLOCATION", 1, 3 / 4⟩, ⟨"ECONOMIC_ALLOCATION", 2, 1 / 4⟩,
   ⟨"CAUSAL_ALLOCATION", 1, 1⟩, ⟨"PHYSICAL_ALLOCATION", 3, 0⟩], some "ECONOMIC_ALLOCATION"⟩

/-- the same elsewhere, and a process with an exchange in another flow property -/
def refinery2 : PJ ℕ ℕ := { refinery with exchs := [⟨1, false, 1, 0, some "t", true⟩, ⟨2, false, 9, 0, some "t", false⟩, ⟨3, true, 11, 0, some "t", false⟩] }
def odd : PJ ℕ ℕ := ⟨"odd", [⟨1, false, 1, 0, none, true⟩, ⟨4, true, 2, 1, none, false⟩, ⟨4, true, 1, 0, none, false⟩, ⟨3, true, 8, 0, none, false⟩], [], none⟩

def env : Env ℕ ℕ ℕ where
  qty q := if q = 0 then some mass else if q = 1 then some energy else none
  flow f := if f = 4 then some [⟨0, 5, false⟩, ⟨1, 1, true⟩] else some [⟨0, 1, true⟩]
  proc p := if p = 10 then some refinery else if p = 11 then some refinery2 else if p = 12 then some odd else none
  first _ := .output

def w (q : ℕ) (u : String) : ℚ :=
  if q = 0 then (if u = "kg" then 1 else if u = "t" then 1000 else 1 / 1000) else (if u = "kWh" then 36 / 10 else 1)

theorem agrees : Agrees env w := by
  intro q us h
  simp only [env] at h
  by_cases h0 : q = 0
  · subst h0
    simp only [if_true, Option.some.injEq] at h
    subst h
    decide +kernel
  · by_cases h1 : q = 1
    · subst h1
      simp only [one_ne_zero, if_false, if_true, Option.some.injEq] at h
      subst h
      decide +kernel
    · simp [h0, h1] at h

def a0 : Ar ℕ ℕ ℕ := ⟨[], []⟩
def a1 : Ar ℕ ℕ ℕ := (createProcess env 10 a0).state

theorem ok1 : createProcess env 10 a0 = .ok () a1 := by
  have h : (createProcess env 10 a0).error? = none := by decide +kernel
  unfold a1
  cases hx : createProcess env 10 a0 with
  | ok u s => rfl
  | err e s => rw [hx] at h; cases h

/-- the hypotheses of `loaded` and `allocated` are met: 4500 kg of crude, three quarters of it for 3000 kg of the first product -/
example : ∃ st, a1.procs.get? 10 = some st ∧ Proc.getItem (cfOf a1.cfs) st ⟨3, .input, none⟩ ⟨1, .output, none⟩ = .ok (4500 * (3 / 4) / 3000) ∧
    Proc.getItem (cfOf a1.cfs) st ⟨4, .input, none⟩ ⟨2, .output, none⟩ = .ok (36 * (1 / 4) / 2000) := by
  obtain ⟨st, h1, _, h3⟩ := allocated agrees (pj := refinery) rfl rfl ok1 (m := "ECONOMIC_ALLOCATION") rfl (by decide) (by intro g; rfl)
  have hst : a1.procs.get? 10 = some ((a1.procs.get? 10).getD {}) := by decide +kernel
  rw [hst] at h1
  cases h1
  have hr : ((a1.procs.get? 10).getD {}).refs = [⟨1, .output, none⟩, ⟨2, .output, none⟩] := by decide +kernel
  rw [hr] at h3
  have hS : (List.map (fun r : Key ℕ ℕ => factor refinery "ECONOMIC_ALLOCATION" r.flow) [⟨1, .output, none⟩, ⟨2, .output, none⟩]).sum = 1 := by
    decide +kernel
  rw [hS] at h3
  have h4 := h3 one_ne_zero
  refine ⟨_, hst, ?_, ?_⟩
  · rw [h4 ⟨3, .input, none⟩ (by decide +kernel) (by decide) ⟨1, .output, none⟩ (by decide)]
    congr 1
    decide +kernel
  · rw [h4 ⟨4, .input, none⟩ (by decide +kernel) (by decide) ⟨2, .output, none⟩ (by decide)]
    congr 1
    decide +kernel

example : ∃ st, a1.procs.get? 10 = some st ∧ (⟨2, .output, none⟩ : Key ℕ ℕ) ∈ st.refs ∧ ∀ x, st.exchs.get? ⟨3, .input, none⟩ = some x → x.value = some 4500 := by
  obtain ⟨st, h1, _, h3, _, h5, _⟩ := loaded agrees (pj := refinery) rfl rfl ok1
  refine ⟨st, h1, ?_, ?_⟩
  · obtain ⟨d, hd, _⟩ := h5 ⟨"PHYSICAL_ALLOCATION", 2, 2 / 5⟩ (by decide +kernel) (by decide +kernel) (by decide)
      ⟨.output, ⟨2, false, 2000, 0, some "kg", false⟩, by decide +kernel, by decide +kernel⟩
    have hst : a1.procs.get? 10 = some ((a1.procs.get? 10).getD {}) := by decide +kernel
    rw [hst] at h1
    cases h1
    decide +kernel
  · intro x hx
    rw [(h3 _ _ _ hx).1]
    decide +kernel

/-- the second refinery is not loaded, but is returned ever after, not allocated: 11 t of crude per t of product -/
theorem not_allocated : (createProcess env 11 a1).error? = some .duplicateCf ∧
    ((retrieve env 11 (createProcess env 11 a1).state).value?.map fun st => st.map fun st =>
      (Proc.getItem (cfOf (createProcess env 11 a1).state.cfs) st ⟨3, .input, none⟩ ⟨1, .output, none⟩)) = some (some (.ok 11)) := by decide +kernel

example : ∃ e a'', createProcess env 11 a1 = .err e a'' :=
  same_name_fails agrees (p := 10) (by decide) (pj := refinery) (pj' := refinery2) rfl rfl rfl rfl ok1 rfl
    (af := ⟨"PHYSICAL_ALLOCATION", 1, 3 / 5⟩) (af' := ⟨"PHYSICAL_ALLOCATION", 1, 3 / 5⟩) (by decide +kernel) (by decide +kernel) rfl rfl
    (by decide +kernel) (by decide +kernel) (by decide) ⟨.output, ⟨1, false, 3, 0, some "t", true⟩, by decide +kernel, by decide +kernel⟩
    ⟨.output, ⟨1, false, 1, 0, some "t", true⟩, by decide +kernel, by decide +kernel⟩

/-- a process with an exchange in mass of a flow that is kept in energy fails, and is returned without what follows -/
theorem truncated : (createProcess env 12 a0).error? = some .type ∧
    ((retrieve env 12 (createProcess env 12 a0).state).value?.map fun st => st.map fun st => (st.exchs.keys, st.refs)) =
      some (some ([⟨1, .output, none⟩, ⟨4, .input, none⟩], [])) := by decide +kernel

example : ∃ e a', createProcess env 12 a0 = .err e a' :=
  other_property_fails (pj := odd) rfl rfl (ex := ⟨4, true, 1, 0, none, false⟩) (by decide +kernel) (q := 1) (by decide +kernel) (by decide)

/-- the order in which a set is iterated decides which exchange of a product that is also an input becomes the reference -/
def own : PJ ℕ ℕ := ⟨"own", [⟨5, false, 1, 0, none, true⟩, ⟨1, false, 10, 0, none, false⟩, ⟨1, true, 1, 0, none, false⟩], [⟨"PHYSICAL_ALLOCATION", 1, 1⟩], none⟩

theorem own_use : ((createProcess { env with proc := fun _ => some own } 1 a0).state.procs.get? 1).map (·.refs) =
      some [⟨5, .output, none⟩, ⟨1, .output, none⟩] ∧
    ((createProcess { env with proc := fun _ => some own, first := fun _ => .input } 1 a0).state.procs.get? 1).map (·.refs) =
      some [⟨5, .output, none⟩, ⟨1, .input, none⟩] := by decide +kernel

end Ex

end Olca
