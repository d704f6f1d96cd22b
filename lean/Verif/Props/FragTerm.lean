import Verif.Model.FragTerm
import Verif.Props.FragmentObserve
import Verif.Props.FragmentCloneLemmas

/-!
C190–C192: `terminate_fragment`.
-/

namespace Fti
set_option linter.unusedSectionVars false

open Frg

variable {R F Q : Type} [DecidableEq R] [DecidableEq F] [DecidableEq Q]

/-! ### specification -/

/-- fragment j supplies x by the process t: its default termination is to t, with the flow of x, and it has the direction of x -/
def Supplies (s : St R F Q) (x : Ex R F) (t : R) (j : ℕ) : Prop :=
  ∃ tm, (s.heap j).terms.get? none = some tm ∧ tm.target = .process ∧ tm.flow = x.flow ∧ (s.heap j).dir = x.dir ∧ s.pids.get? j = some t

/-- r is the reference fragment f belongs to -/
inductive Root (H : Heap F Q) : ℕ → ℕ → Prop
  | top (f : ℕ) : (H f).parent = none → Root H f f
  | up (f p r : ℕ) : (H f).parent = some p → Root H p r → Root H f r

/-- what the child flow c is terminated to, given the exchange x -/
def Linked (s : St R F Q) (inBg : R → F → Bool) (f : ℕ) (x : Ex R F) (c : ℕ) : Prop :=
  let ends (tg : Target) : Prop := (s.heap c).terms = [(none, { target := tg, flow := x.flow })]
  if x.elem then ends (.frag c)
  else
    match x.term with
    | none => ends .null
    | some t =>
      if inBg t x.flow then ∃ j ∈ s.refs, (s.heap j).bg = true ∧ Supplies s x t j ∧ (ends (.frag j) ∨ ends .null ∧ Root s.heap f j)
      else
        (∃ j ∈ s.refs, (s.heap j).bg = false ∧ Supplies s x t j ∧ (ends (.frag j) ∨ ends .null ∧ Root s.heap f j)) ∨
          (∀ j ∈ s.refs, (s.heap j).bg = false → ¬ Supplies s x t j) ∧ ends .null ∧ s.tags.get? c = some t

/-- the child flow c is made from the exchange x -/
def Kid (s : St R F Q) (inBg : R → F → Bool) (f : ℕ) (x : Ex R F) (c : ℕ) : Prop :=
  (s.heap c).parent = some f ∧ (s.heap c).kids = [] ∧ (s.heap c).flow = x.flow ∧ (s.heap c).dir = x.dir ∧ (s.heap c).bg = false ∧ (s.heap c).bal = false ∧
    Linked s inBg f x c

/-- not yet drawn as a number of a new fragment -/
def Old (nm : ℕ → ℕ) (n : ℕ) (i : ℕ) : Prop := ∀ m, n ≤ m → i ≠ nm m

/-- numbers drawn are new: f, the reference fragments and their parents have others -/
structure Sound (nm : ℕ → ℕ) (f : ℕ) (s : St R F Q) : Prop where
  inj : Function.Injective nm
  self : Old nm s.made f
  refs : ∀ j ∈ s.refs, Old nm s.made j
  kids : ∀ c ∈ (s.heap f).kids, Old nm s.made c
  up : ∀ i p, Old nm s.made i → (s.heap i).parent = some p → Old nm s.made p

/-- f is a node by default: it is terminated to a process or to itself -/
def IsNode (s : St R F Q) (f : ℕ) : Prop :=
  ∃ tm, (s.heap f).terms.get? none = some tm ∧ (tm.target = .process ∨ tm.target = .frag f)

/-! ### what steps keep -/

/-- nothing that was there has changed, but the child flows of f; background fragments may have been added -/
structure Ext (nm : ℕ → ℕ) (f : ℕ) (s s' : St R F Q) : Prop where
  made : s.made ≤ s'.made
  heap : ∀ i, Old nm s.made i → i ≠ f → s'.heap i = s.heap i
  self : ∃ l, s'.heap f = { s.heap f with kids := (s.heap f).kids ++ l }
  refs : ∃ l, s'.refs = s.refs ++ l ∧ ∀ j ∈ l, (s'.heap j).bg = true
  pids : ∀ i, Old nm s.made i → s'.pids.get? i = s.pids.get? i
  tags : ∀ i, Old nm s.made i → s'.tags.get? i = s.tags.get? i

theorem Old.mono {nm : ℕ → ℕ} {n m i : ℕ} (h : Old nm n i) (hle : n ≤ m) : Old nm m i := fun k hk => h k (le_trans hle hk)

theorem Ext.refl (nm : ℕ → ℕ) (f : ℕ) (s : St R F Q) : Ext nm f s s :=
  ⟨le_rfl, fun _ _ _ => rfl, ⟨[], by simp⟩, ⟨[], by simp⟩, fun _ _ => rfl, fun _ _ => rfl⟩

theorem Ext.bg {nm : ℕ → ℕ} {f : ℕ} {s s' : St R F Q} (h : Ext nm f s s') (i : ℕ) (hi : Old nm s.made i) :
    (s'.heap i).bg = (s.heap i).bg ∧ (s'.heap i).terms = (s.heap i).terms ∧ (s'.heap i).dir = (s.heap i).dir ∧ (s'.heap i).parent = (s.heap i).parent := by
  by_cases he : i = f
  · subst he; obtain ⟨l, hl⟩ := h.self; rw [hl]; exact ⟨rfl, rfl, rfl, rfl⟩
  · rw [h.heap i hi he]; exact ⟨rfl, rfl, rfl, rfl⟩

/-- reference fragments of the first state stay sound in the second -/
theorem Ext.trans {nm : ℕ → ℕ} {f : ℕ} {s1 s2 s3 : St R F Q} (h1 : Ext nm f s1 s2) (h2 : Ext nm f s2 s3) (hr : ∀ j ∈ s2.refs, Old nm s2.made j) :
    Ext nm f s1 s3 where
  made := le_trans h1.made h2.made
  heap := fun i hi hf => by rw [h2.heap i (hi.mono h1.made) hf, h1.heap i hi hf]
  self := by
    obtain ⟨l1, e1⟩ := h1.self
    obtain ⟨l2, e2⟩ := h2.self
    exact ⟨l1 ++ l2, by rw [e2, e1]; simp⟩
  refs := by
    obtain ⟨l1, e1, b1⟩ := h1.refs
    obtain ⟨l2, e2, b2⟩ := h2.refs
    refine ⟨l1 ++ l2, by rw [e2, e1]; simp, ?_⟩
    intro j hj
    rcases List.mem_append.1 hj with hj | hj
    · rw [(h2.bg j (hr j (by rw [e1]; simp [hj]))).1]; exact b1 j hj
    · exact b2 j hj
  pids := fun i hi => by rw [h2.pids i (hi.mono h1.made), h1.pids i hi]
  tags := fun i hi => by rw [h2.tags i (hi.mono h1.made), h1.tags i hi]

theorem Ext.supplies {nm : ℕ → ℕ} {f : ℕ} {s s' : St R F Q} (h : Ext nm f s s') (x : Ex R F) (t : R) (j : ℕ) (hj : Old nm s.made j) :
    Supplies s' x t j ↔ Supplies s x t j := by
  obtain ⟨-, ht, hd, -⟩ := h.bg j hj
  unfold Supplies
  rw [ht, hd, h.pids j hj]

theorem Ext.root {nm : ℕ → ℕ} {f : ℕ} {s s' : St R F Q} (h : Ext nm f s s')
    (hup : ∀ i p, Old nm s.made i → (s.heap i).parent = some p → Old nm s.made p) {i r : ℕ} (hr : Root s.heap i r) (hi : Old nm s.made i) :
    Root s'.heap i r := by
  induction hr with
  | top i hp => exact .top i (by rw [(h.bg i hi).2.2.2, hp])
  | up i p r hp _ ih => exact .up i p r (by rw [(h.bg i hi).2.2.2, hp]) (ih (hup i p hi hp))

theorem Ext.kid {nm : ℕ → ℕ} {f : ℕ} {s s' : St R F Q} (h : Ext nm f s s') (hs : Sound nm f s) (inBg : R → F → Bool) (x : Ex R F) (c : ℕ)
    (hc : Old nm s.made c) (hcf : c ≠ f) (hk : Kid s inBg f x c) : Kid s' inBg f x c := by
  obtain ⟨k1, k2, k3, k4, k5, k6, k7⟩ := hk
  have e := h.heap c hc hcf
  refine ⟨by rw [e, k1], by rw [e, k2], by rw [e, k3], by rw [e, k4], by rw [e, k5], by rw [e, k6], ?_⟩
  unfold Linked at k7 ⊢
  simp only [e] at k7 ⊢
  obtain ⟨l, hl, hlb⟩ := h.refs
  have lift : ∀ (b : Bool) (t : R),
      (∃ j ∈ s.refs, (s.heap j).bg = b ∧ Supplies s x t j ∧
        ((s.heap c).terms = [(none, { target := .frag j, flow := x.flow })] ∨ (s.heap c).terms = [(none, { target := .null, flow := x.flow })] ∧ Root s.heap f j)) →
      (∃ j ∈ s'.refs, (s'.heap j).bg = b ∧ Supplies s' x t j ∧
        ((s.heap c).terms = [(none, { target := .frag j, flow := x.flow })] ∨ (s.heap c).terms = [(none, { target := .null, flow := x.flow })] ∧ Root s'.heap f j)) := by
    rintro b t ⟨j, hj, hb, hsup, hend⟩
    refine ⟨j, by rw [hl]; simp [hj], by rw [(h.bg j (hs.refs j hj)).1, hb], (h.supplies x t j (hs.refs j hj)).2 hsup, ?_⟩
    exact hend.imp id fun ⟨a, b⟩ => ⟨a, h.root hs.up b hs.self⟩
  split at k7
  · rename_i he
    rw [if_pos he]; exact k7
  · rename_i he
    rw [if_neg he]
    cases ht : x.term with
    | none => rw [ht] at k7; exact k7
    | some t =>
      rw [ht] at k7
      simp only at k7 ⊢
      split at k7
      · rename_i hb; rw [if_pos hb]; exact lift _ _ k7
      · rename_i hb
        rw [if_neg hb]
        rcases k7 with k7 | ⟨k7, k8, k9⟩
        · exact .inl (lift _ _ k7)
        · refine .inr ⟨?_, k8, by rw [h.tags c hc, k9]⟩
          intro j hj hjb
          rw [hl] at hj
          rcases List.mem_append.1 hj with hj | hj
          · rw [(h.bg j (hs.refs j hj)).1] at hjb
            rw [h.supplies x t j (hs.refs j hj)]
            exact k7 j hj hjb
          · rw [hlb j hj] at hjb; simp at hjb


/-! ### steps -/

theorem terminates_iff (s : St R F Q) (x : Ex R F) (t : R) (i : ℕ) : terminates s x t i = true ↔ Supplies s x t i := by
  have hc : ∀ a b : Dir, a.comp = b.comp ↔ a = b := by intro a b; cases a <;> cases b <;> simp [Dir.comp]
  unfold terminates Supplies
  cases h : (s.heap i).terms.get? none with
  | none => simp
  | some tm => cases htg : tm.target <;> simp [hc, htg] <;> tauto

theorem old_succ {nm : ℕ → ℕ} {n i : ℕ} (h : Old nm (n + 1) i) : i = nm n ∨ Old nm n i := by
  by_cases he : i = nm n
  · exact .inl he
  · refine .inr fun m hm => ?_
    rcases Nat.eq_or_lt_of_le hm with rfl | hm
    · exact he
    · exact h m hm

theorem old_new {nm : ℕ → ℕ} (hi : Function.Injective nm) (n : ℕ) : Old nm (n + 1) (nm n) := by
  intro m hm he
  have := hi he
  omega

theorem lift_ok {s s' : St R F Q} {r : Out (Heap F Q) Err Unit} (h : lift s r = .ok () s') : ∃ H, r = .ok () H ∧ s' = { s with heap := H } := by
  cases r with
  | ok u H => simp only [lift, Out.ok.injEq, true_and] at h; exact ⟨H, rfl, h.symm⟩
  | err e H => simp [lift] at h

theorem isNode_nonsub {s : St R F Q} {f : ℕ} (h : IsNode s f) :
    ∃ tm, (s.heap f).terms.get? none = some tm ∧ tm.isNull = false ∧ isSubfrag s.heap f tm = false := by
  obtain ⟨tm, h1, h2⟩ := h
  refine ⟨tm, h1, ?_, ?_⟩
  · unfold Term.isNull; rcases h2 with h2 | h2 <;> rw [h2]
  · unfold isSubfrag; rcases h2 with h2 | h2 <;> rw [h2]; simp

theorem Ext.isNode {nm : ℕ → ℕ} {f : ℕ} {s s' : St R F Q} (h : Ext nm f s s') (hf : Old nm s.made f) (hn : IsNode s f) : IsNode s' f := by
  unfold IsNode; rw [(h.bg f hf).2.1]; exact hn

theorem newChild_ok (E : Env F Q) (nm : ℕ → ℕ) (f : ℕ) (x : Ex R F) (s s' : St R F Q) (c : ℕ) (hs : Sound nm f s) (hn : IsNode s f)
    (h : newChild E nm f x s = .ok c s') :
    c = nm s.made ∧ Ext nm f s s' ∧ Sound nm f s' ∧ s'.made = s.made + 1 ∧ s'.refs = s.refs ∧ s'.pids = s.pids ∧ s'.tags = s.tags ∧
      (s'.heap f).kids = (s.heap f).kids ++ [c] ∧
      s'.heap c = { parent := some f, flow := x.flow, dir := x.dir, evs := [(.cached, some (x.value.getD 1)), (.observed, some 0)],
                    terms := [(none, { target := .null, flow := x.flow })] } := by
  obtain ⟨u, s1, h1, h2⟩ := bind_ok h
  obtain ⟨H, h3, rfl⟩ := lift_ok h1
  simp only [Out.ok.injEq] at h2
  obtain ⟨rfl, rfl⟩ := h2
  obtain ⟨tm, t1, t2, t3⟩ := isNode_nonsub hn
  have hfc : f ≠ nm s.made := hs.self _ le_rfl
  obtain ⟨e1, e2, e3⟩ := create_child E s.heap H (nm s.made) f x.flow x.dir _ false false hfc tm t1 t2 h3
  rw [t3] at e1
  simp only [Bool.or_self, Bool.false_eq_true, if_false] at e1 e2
  have hk : PySet.add (s.heap f).kids (nm s.made) = (s.heap f).kids ++ [nm s.made] := by
    unfold PySet.add
    rw [if_neg (fun hm => hs.kids _ hm _ le_rfl rfl)]
  rw [hk] at e2
  have hpar : ∀ i, i ≠ nm s.made → (H i).parent = (s.heap i).parent := by
    intro i hi
    by_cases hif : i = f
    · rw [hif, e2]
    · rw [e3 i hi hif]
  refine ⟨rfl, ⟨Nat.le_succ _, ?_, ⟨[nm s.made], e2⟩, ⟨[], by simp⟩, fun _ _ => rfl, fun _ _ => rfl⟩, ⟨hs.inj, hs.self.mono (Nat.le_succ _), ?_, ?_, ?_⟩, rfl, rfl,
    rfl, rfl, by simp [e2], e1⟩
  · intro i hi hif; exact e3 i (hi _ le_rfl) hif
  · intro j hj; exact (hs.refs j hj).mono (Nat.le_succ _)
  · intro c hc
    simp only [e2] at hc
    rcases List.mem_append.1 hc with hc | hc
    · exact (hs.kids c hc).mono (Nat.le_succ _)
    · rw [List.mem_singleton.1 hc]; exact old_new hs.inj _
  · intro i p hi hp
    rcases old_succ hi with rfl | hi
    · simp only [e1, Option.some.injEq] at hp; rw [← hp]; exact hs.self.mono (Nat.le_succ _)
    · simp only [hpar i (hi _ le_rfl)] at hp
      exact (hs.up i p hi hp).mono (Nat.le_succ _)

theorem top_root (H : Heap F Q) : ∀ n i r, top H n i = .ok r → Root H i r := by
  intro n
  induction n with
  | zero => intro i r h; simp [top] at h
  | succ n ih =>
    intro i r h
    rw [top] at h
    cases hp : (H i).parent with
    | none => rw [hp] at h; simp only [Except.ok.injEq] at h; subst h; exact .top i hp
    | some p => rw [hp] at h; exact .up i p r hp (ih p r h)

/-- terminating a child flow that is a cut-off -/
theorem terminate_kid (E : Env F Q) (fuel : ℕ) (H H' : Heap F Q) (c f j : ℕ) (tm : Term F) (fl : F) (ht : (H c).terms = [(none, tm)])
    (hp : (H c).parent = some f) (hjc : j ≠ c) (h : terminateTo E fuel H c none { target := .frag j, flow := fl } = .ok () H') :
    H' = H.put c { H c with terms := [(none, { target := .frag j, flow := fl })] } ∨
      H' = H.put c { H c with terms := [(none, { target := .null, flow := (H c).flow })] } ∧ Root H f j := by
  have hget : (H c).terms.get? none = some tm := by rw [ht]; simp [Dict.get?]
  have hset : ∀ t', (H c).terms.set none t' = [(none, t')] := by intro t'; rw [ht]; simp [Dict.set]
  unfold terminateTo at h
  simp only [hget, hset, if_neg hjc] at h
  cases hn : tm.isNull with
  | false => rw [hn] at h; simp at h
  | true =>
    rw [hn] at h
    simp only [Bool.not_true, Bool.false_eq_true, if_false] at h
    cases hx : top H fuel c with
    | error e => rw [hx] at h; simp at h
    | ok r =>
      rw [hx] at h
      simp only at h
      have hr : Root H f r := by
        cases top_root H _ _ _ hx with
        | top _ hp' => rw [hp] at hp'; simp at hp'
        | up _ p _ hp' hr => rw [hp] at hp'; simp only [Option.some.injEq] at hp'; subst hp'; exact hr
      by_cases hjr : j = r
      · rw [if_pos hjr] at h
        simp only [Out.ok.injEq, true_and] at h
        exact .inr ⟨h.symm, hjr ▸ hr⟩
      · rw [if_neg hjr] at h
        split at h
        · simp at h
        · split at h
          · simp at h
          · simp only [Out.ok.injEq, true_and] at h
            exact .inl h.symm

theorem findOrCreate_ok (E : Env F Q) (fuel : ℕ) (nm : ℕ → ℕ) (f : ℕ) (x : Ex R F) (t : R) (s s' : St R F Q) (j : ℕ) (hs : Sound nm f s)
    (h : findOrCreate E fuel nm x t s = .ok j s') :
    Ext nm f s s' ∧ Sound nm f s' ∧ j ∈ s'.refs ∧ (s'.heap j).bg = true ∧ Supplies s' x t j ∧ (s'.heap f).kids = (s.heap f).kids := by
  unfold findOrCreate at h
  split at h
  · rename_i i hi
    simp only [Out.ok.injEq] at h
    obtain ⟨rfl, rfl⟩ := h
    have h1 := List.find?_some hi
    simp only [Bool.and_eq_true] at h1
    exact ⟨.refl _ _ _, hs, List.mem_of_find?_eq_some hi, h1.1, (terminates_iff _ _ _ _).1 h1.2, rfl⟩
  · obtain ⟨u, s1, h1, h2⟩ := bind_ok h
    obtain ⟨H, h3, rfl⟩ := lift_ok h1
    obtain ⟨u', s2, h4, h5⟩ := bind_ok h2
    obtain ⟨H2, h6, rfl⟩ := lift_ok h4
    simp only [Out.ok.injEq] at h5
    obtain ⟨rfl, rfl⟩ := h5
    have e1 := create_root E s.heap H (nm s.made) x.flow x.dir.comp _ false true h3
    have hd : x.dir.comp.comp = x.dir := by cases x.dir <;> rfl
    rw [hd] at e1
    have e2 : H2 = H.put (nm s.made) { H (nm s.made) with terms := (H (nm s.made)).terms.set none { target := .process, flow := x.flow } } := by
      have hg : (H (nm s.made)).terms.get? none = some { target := .null, flow := x.flow } := by
        rw [e1, put_self]; simp [Dict.get?]
      unfold terminateTo at h6
      simp only [hg, Term.isNull, Bool.not_true, Bool.false_eq_true, if_false, Out.ok.injEq, true_and] at h6
      exact h6.symm
    have hnode : H2 (nm s.made) = { flow := x.flow, dir := x.dir, evs := [(.cached, some 1), (.observed, some 0)], terms := [(none, { target := .process, flow := x.flow })], bg := true } := by
      rw [e2, put_self, e1, put_self]; simp [Dict.set]
    have hother : ∀ i, i ≠ nm s.made → H2 i = s.heap i := by
      intro i hi; rw [e2, put_ne _ _ hi, e1, put_ne _ _ hi]
    have hf : H2 f = s.heap f := hother f (hs.self _ le_rfl)
    refine ⟨⟨Nat.le_succ _, fun i hi _ => hother i (hi _ le_rfl), ⟨[], by simp [hf]⟩, ⟨[nm s.made], rfl, ?_⟩, ?_, fun _ _ => rfl⟩,
      ⟨hs.inj, hs.self.mono (Nat.le_succ _), ?_, ?_, ?_⟩, by simp, by simp [hnode], ?_, by simp [hf]⟩
    · intro k hk; rw [List.mem_singleton.1 hk]; simp [hnode]
    · intro i hi; exact Dict.get?_set_ne _ _ (Ne.symm (hi _ le_rfl))
    · intro k hk
      rcases List.mem_append.1 hk with hk | hk
      · exact (hs.refs k hk).mono (Nat.le_succ _)
      · rw [List.mem_singleton.1 hk]; exact old_new hs.inj _
    · intro c hc; simp only [hf] at hc; exact (hs.kids c hc).mono (Nat.le_succ _)
    · intro i p hi hp
      rcases old_succ hi with rfl | hi
      · simp [hnode] at hp
      · simp only [hother i (hi _ le_rfl)] at hp
        exact (hs.up i p hi hp).mono (Nat.le_succ _)
    · refine ⟨{ target := .process, flow := x.flow }, ?_, rfl, rfl, ?_, Dict.get?_set_self _ _ _⟩
      · simp [hnode, Dict.get?]
      · simp [hnode]


theorem root_congr {H H' : Heap F Q} (hp : ∀ i, (H' i).parent = (H i).parent) {i r : ℕ} (h : Root H i r) : Root H' i r := by
  induction h with
  | top i h => exact .top i (by rw [hp, h])
  | up i p r h _ ih => exact .up i p r (by rw [hp, h]) ih

/-- a change of the new child flow -/
theorem tweak {nm : ℕ → ℕ} {f c : ℕ} {s s2 : St R F Q} (h : Ext nm f s s2) (hs : Sound nm f s2) (hc : c = nm s.made) (hcf : c ≠ f) (n : Node F Q)
    (tg : Dict ℕ R) (hb : n.bg = (s2.heap c).bg) (hp : n.parent = (s2.heap c).parent) (ht : ∀ i, i ≠ c → tg.get? i = s2.tags.get? i) :
    Ext nm f s { s2 with heap := s2.heap.put c n, tags := tg } ∧ Sound nm f { s2 with heap := s2.heap.put c n, tags := tg } := by
  have hpar : ∀ i, (s2.heap.put c n i).parent = (s2.heap i).parent := by
    intro i
    by_cases he : i = c
    · rw [he, put_self, hp]
    · rw [put_ne _ _ he]
  have hne : ∀ i, Old nm s.made i → i ≠ c := fun i hi => hc ▸ hi _ le_rfl
  refine ⟨⟨h.made, ?_, ?_, ?_, h.pids, ?_⟩, ⟨hs.inj, hs.self, hs.refs, ?_, ?_⟩⟩
  · intro i hi hif; simp only [put_ne _ _ (hne i hi)]; exact h.heap i hi hif
  · simp only [put_ne _ _ (Ne.symm hcf)]; exact h.self
  · obtain ⟨l, hl, hlb⟩ := h.refs
    refine ⟨l, hl, fun j hj => ?_⟩
    by_cases he : j = c
    · simp only [he, put_self, hb]; exact he ▸ hlb j hj
    · simp only [put_ne _ _ he]; exact hlb j hj
  · intro i hi; rw [ht i (hne i hi)]; exact h.tags i hi
  · simp only [put_ne _ _ (Ne.symm hcf)]; exact hs.kids
  · intro i p hi hip; simp only [hpar] at hip; exact hs.up i p hi hip

theorem child_ok (E : Env F Q) (fuel : ℕ) (nm : ℕ → ℕ) (inBg : R → F → Bool) (f : ℕ) (x : Ex R F) (s s' : St R F Q) (hs : Sound nm f s) (hn : IsNode s f)
    (h : child E fuel nm inBg f x s = .ok () s') :
    Ext nm f s s' ∧ Sound nm f s' ∧ s.made < s'.made ∧ (s'.heap f).kids = (s.heap f).kids ++ [nm s.made] ∧ Kid s' inBg f x (nm s.made) ∧
      (s'.heap (nm s.made)).evs = [(.cached, some (x.value.getD 1)), (.observed, some 0)] := by
  obtain ⟨c, s1, h1, h2⟩ := bind_ok h
  obtain ⟨rfl, x1, so1, m1, r1, p1, t1, k1, n1⟩ := newChild_ok E nm f x s s1 c hs hn h1
  have hcf : nm s.made ≠ f := Ne.symm (hs.self _ le_rfl)
  have hold : Old nm s1.made (nm s.made) := by rw [m1]; exact old_new hs.inj _
  -- the child flow gets a termination, in a later state
  have fin : ∀ (s2 : St R F Q) (tm : Term F) (tg : Dict ℕ R), Ext nm f s1 s2 → Sound nm f s2 → (s2.heap f).kids = (s1.heap f).kids →
      (∀ i, i ≠ nm s.made → tg.get? i = s2.tags.get? i) →
      s' = { s2 with heap := s2.heap.put (nm s.made) { s2.heap (nm s.made) with terms := [(none, tm)] }, tags := tg } →
      (Ext nm f s s' ∧ Sound nm f s' ∧ s.made < s'.made ∧ (s'.heap f).kids = (s.heap f).kids ++ [nm s.made] ∧
        ((s'.heap (nm s.made)).parent = some f ∧ (s'.heap (nm s.made)).kids = [] ∧ (s'.heap (nm s.made)).flow = x.flow ∧
          (s'.heap (nm s.made)).dir = x.dir ∧ (s'.heap (nm s.made)).bg = false ∧ (s'.heap (nm s.made)).bal = false) ∧
        (s'.heap (nm s.made)).evs = [(.cached, some (x.value.getD 1)), (.observed, some 0)]) ∧
      (s'.heap (nm s.made)).terms = [(none, tm)] ∧ (∀ j, j ≠ nm s.made → s'.heap j = s2.heap j) ∧
      (∀ r, Root s2.heap f r → Root s'.heap f r) := by
    intro s2 tm tg x2 so2 k2 htg hs'
    have hn2 : s2.heap (nm s.made) = s1.heap (nm s.made) := x2.heap _ hold hcf
    obtain ⟨a, b⟩ := tweak (x1.trans x2 so1.refs) so2 rfl hcf { s2.heap (nm s.made) with terms := [(none, tm)] } tg rfl rfl htg
    subst hs'
    refine ⟨⟨a, b, ?_, ?_, ?_, ?_⟩, ?_, ?_, ?_⟩
    · have := x2.made; simp only; omega
    · simp only [put_ne _ _ (Ne.symm hcf)]; rw [k2, k1]
    · simp only [put_self, hn2, n1, and_self]
    · simp only [put_self, hn2, n1]
    · simp only [put_self]
    · intro j hj; simp only [put_ne _ _ hj]
    · intro r hr
      refine root_congr (fun i => ?_) hr
      by_cases he : i = nm s.made
      · simp only [he, put_self]
      · simp only [put_ne _ _ he]
  have done : ∀ (s2 : St R F Q), ((Ext nm f s s' ∧ Sound nm f s' ∧ s.made < s'.made ∧ (s'.heap f).kids = (s.heap f).kids ++ [nm s.made] ∧
        ((s'.heap (nm s.made)).parent = some f ∧ (s'.heap (nm s.made)).kids = [] ∧ (s'.heap (nm s.made)).flow = x.flow ∧
          (s'.heap (nm s.made)).dir = x.dir ∧ (s'.heap (nm s.made)).bg = false ∧ (s'.heap (nm s.made)).bal = false) ∧
        (s'.heap (nm s.made)).evs = [(.cached, some (x.value.getD 1)), (.observed, some 0)])) → Linked s' inBg f x (nm s.made) →
      Ext nm f s s' ∧ Sound nm f s' ∧ s.made < s'.made ∧ (s'.heap f).kids = (s.heap f).kids ++ [nm s.made] ∧ Kid s' inBg f x (nm s.made) ∧
      (s'.heap (nm s.made)).evs = [(.cached, some (x.value.getD 1)), (.observed, some 0)] := by
    rintro _ ⟨a, b, c, d, ⟨e1, e2, e3, e4, e5, e6⟩, g⟩ hl
    exact ⟨a, b, c, d, ⟨e1, e2, e3, e4, e5, e6, hl⟩, g⟩
  have id1 : s1 = { s1 with heap := s1.heap.put (nm s.made) { s1.heap (nm s.made) with terms := [(none, { target := .null, flow := x.flow })] }, tags := s1.tags } := by
    have : ({ s1.heap (nm s.made) with terms := [(none, { target := .null, flow := x.flow })] } : Node F Q) = s1.heap (nm s.made) := by
      conv_rhs => rw [n1]
      rw [n1]
    rw [this, put_id]
  have sup : ∀ (s2 : St R F Q) (t : R) (j : ℕ), s'.heap j = s2.heap j → s'.pids = s2.pids → Supplies s2 x t j → Supplies s' x t j := by
    intro s2 t j e1 e2 hsup; unfold Supplies; rw [e1, e2]; exact hsup
  have hterms1 : (s1.heap (nm s.made)).terms = [(none, { target := .null, flow := x.flow })] := by rw [n1]
  by_cases hel : x.elem = true
  · rw [if_pos hel] at h2
    obtain ⟨H, h3, rfl⟩ := lift_ok h2
    have hH : H = s1.heap.put (nm s.made) { s1.heap (nm s.made) with terms := [(none, { target := .frag (nm s.made), flow := x.flow })] } := by
      have hg : (s1.heap (nm s.made)).terms.get? none = some { target := .null, flow := x.flow } := by rw [n1]; simp [Dict.get?]
      have hst : ∀ t', (s1.heap (nm s.made)).terms.set none t' = [(none, t')] := by intro t'; rw [n1]; simp [Dict.set]
      unfold toForeground at h3
      simp only [put_self, put_put, hg, hst, Term.isNull, if_true, Out.ok.injEq, true_and] at h3
      rw [← h3]
      congr 1
      simp only [n1]
    obtain ⟨a, b, -⟩ := fin s1 { target := .frag (nm s.made), flow := x.flow } s1.tags (.refl _ _ _) so1 rfl (fun _ _ => rfl) (by rw [hH])
    refine done s1 a ?_
    unfold Linked
    rw [if_pos hel]
    exact b
  · rw [if_neg hel] at h2
    unfold link at h2
    cases ht : x.term with
    | none =>
      rw [ht] at h2
      simp only [Out.ok.injEq, true_and] at h2
      obtain ⟨a, b, -⟩ := fin s1 { target := .null, flow := x.flow } s1.tags (.refl _ _ _) so1 rfl (fun _ _ => rfl) (by rw [← id1, h2])
      refine done s1 a ?_
      unfold Linked
      rw [if_neg hel, ht]
      exact b
    | some t =>
      rw [ht] at h2
      simp only at h2
      by_cases hb : inBg t x.flow = true
      · rw [if_pos hb] at h2
        obtain ⟨j, s2, h3, h4⟩ := bind_ok h2
        obtain ⟨x2, so2, jm, jb, js, k2⟩ := findOrCreate_ok E fuel nm f x t s1 s2 j so1 h3
        have hn2 : s2.heap (nm s.made) = s1.heap (nm s.made) := x2.heap _ hold hcf
        have hjc : j ≠ nm s.made := by
          rintro rfl
          rw [hn2, n1] at jb; simp at jb
        obtain ⟨H, h5, hs'⟩ := lift_ok h4
        rw [show (s2.heap (nm s.made)).flow = x.flow by rw [hn2, n1]] at h5
        rcases terminate_kid E fuel s2.heap H (nm s.made) f j _ x.flow (by rw [hn2, hterms1]) (by rw [hn2, n1]) hjc h5 with hH | ⟨hH, hr⟩
        · obtain ⟨a, b, c, d⟩ := fin s2 { target := .frag j, flow := x.flow } s2.tags x2 so2 k2 (fun _ _ => rfl) (by rw [hs', hH])
          refine done s2 a ?_
          unfold Linked
          rw [if_neg hel, ht]
          simp only [hb, if_true]
          exact ⟨j, by rw [hs']; exact jm, by rw [c j hjc]; exact jb, sup s2 t j (c j hjc) (by rw [hs']) js, .inl b⟩
        · rw [show (s2.heap (nm s.made)).flow = x.flow by rw [hn2, n1]] at hH
          obtain ⟨a, b, c, d⟩ := fin s2 { target := .null, flow := x.flow } s2.tags x2 so2 k2 (fun _ _ => rfl) (by rw [hs', hH])
          refine done s2 a ?_
          unfold Linked
          rw [if_neg hel, ht]
          simp only [hb, if_true]
          exact ⟨j, by rw [hs']; exact jm, by rw [c j hjc]; exact jb, sup s2 t j (c j hjc) (by rw [hs']) js, .inr ⟨b, d j hr⟩⟩
      · rw [if_neg hb] at h2
        have hb' : inBg t x.flow = false := by simpa using hb
        split at h2
        · rename_i j hj
          have hj2 := List.find?_some hj
          have jm := List.mem_of_find?_eq_some hj
          simp only [Bool.and_eq_true, Bool.not_eq_true'] at hj2
          have js := (terminates_iff _ _ _ _).1 hj2.2
          have hjc : j ≠ nm s.made := hs.refs j (r1 ▸ jm) _ le_rfl
          obtain ⟨H, h5, hs'⟩ := lift_ok h2
          rw [show (s1.heap (nm s.made)).flow = x.flow by rw [n1]] at h5
          rcases terminate_kid E fuel s1.heap H (nm s.made) f j _ x.flow hterms1 (by rw [n1]) hjc h5 with hH | ⟨hH, hr⟩
          · obtain ⟨a, b, c, d⟩ := fin s1 { target := .frag j, flow := x.flow } s1.tags (.refl _ _ _) so1 rfl (fun _ _ => rfl) (by rw [hs', hH])
            refine done s1 a ?_
            unfold Linked
            rw [if_neg hel, ht]
            simp only [hb', Bool.false_eq_true, if_false]
            exact .inl ⟨j, by rw [hs']; exact jm, by rw [c j hjc]; exact hj2.1, sup s1 t j (c j hjc) (by rw [hs']) js, .inl b⟩
          · rw [show (s1.heap (nm s.made)).flow = x.flow by rw [n1]] at hH
            obtain ⟨a, b, c, d⟩ := fin s1 { target := .null, flow := x.flow } s1.tags (.refl _ _ _) so1 rfl (fun _ _ => rfl) (by rw [hs', hH])
            refine done s1 a ?_
            unfold Linked
            rw [if_neg hel, ht]
            simp only [hb', Bool.false_eq_true, if_false]
            exact .inl ⟨j, by rw [hs']; exact jm, by rw [c j hjc]; exact hj2.1, sup s1 t j (c j hjc) (by rw [hs']) js, .inr ⟨b, d j hr⟩⟩
        · rename_i hnone
          simp only [Out.ok.injEq, true_and] at h2
          obtain ⟨a, b, c, d⟩ := fin s1 { target := .null, flow := x.flow } (s1.tags.set (nm s.made) t) (.refl _ _ _) so1 rfl
            (fun i hi => Dict.get?_set_ne _ _ (Ne.symm hi)) (by rw [← h2]; rw [show s1.heap.put (nm s.made) { s1.heap (nm s.made) with terms := [(none, { target := .null, flow := x.flow })] } = s1.heap from (congrArg St.heap id1).symm])
          refine done s1 a ?_
          unfold Linked
          rw [if_neg hel, ht]
          simp only [hb', Bool.false_eq_true, if_false]
          refine .inr ⟨?_, b, by rw [← h2]; exact Dict.get?_set_self _ _ _⟩
          intro j hj hjb hsup
          have hj1 : j ∈ s1.refs := by rw [← h2] at hj; exact hj
          have hjc : j ≠ nm s.made := hs.refs j (r1 ▸ hj1) _ le_rfl
          have := List.find?_eq_none.1 hnone j hj1
          apply this
          rw [c j hjc] at hjb
          simp only [hjb, Bool.not_false, Bool.true_and]
          rw [terminates_iff]
          obtain ⟨tm, q1, q2, q3, q4, q5⟩ := hsup
          rw [c j hjc] at q1 q4
          exact ⟨tm, q1, q2, q3, q4, by rw [← h2] at q5; exact q5⟩


/-- all child flows -/
theorem loop_ok (E : Env F Q) (fuel : ℕ) (nm : ℕ → ℕ) (inBg : R → F → Bool) (f : ℕ) : ∀ (xs : List (Ex R F)) (s s' : St R F Q), Sound nm f s → IsNode s f →
    loop E fuel nm inBg f xs s = .ok () s' →
    Ext nm f s s' ∧ Sound nm f s' ∧ ∃ cs, (s'.heap f).kids = (s.heap f).kids ++ cs ∧ cs.Nodup ∧ (∀ c ∈ cs, ∃ m, s.made ≤ m ∧ c = nm m) ∧
      List.Forall₂ (fun x c => Kid s' inBg f x c ∧ (s'.heap c).evs = [(.cached, some (x.value.getD 1)), (.observed, some 0)]) xs cs := by
  intro xs
  induction xs with
  | nil =>
    intro s s' hs hn h
    simp only [loop, Out.ok.injEq, true_and] at h
    subst h
    exact ⟨.refl _ _ _, hs, [], by simp, List.nodup_nil, by simp, .nil⟩
  | cons x xs ih =>
    intro s s' hs hn h
    obtain ⟨u, s1, h1, h2⟩ := bind_ok h
    obtain ⟨a, b, c, d, e, g⟩ := child_ok E fuel nm inBg f x s s1 hs hn h1
    obtain ⟨a', b', cs, d', nd, hm, f2⟩ := ih s1 s' b (a.isNode hs.self hn) h2
    have hc : Old nm s1.made (nm s.made) := by
      intro m hm he
      have := hs.inj he
      omega
    have hcf : nm s.made ≠ f := Ne.symm (hs.self _ le_rfl)
    refine ⟨a.trans a' b.refs, b', nm s.made :: cs, by rw [d', d]; simp, ?_, ?_, .cons ⟨a'.kid b inBg x _ hc hcf e, by rw [a'.heap _ hc hcf, g]⟩ f2⟩
    · refine List.nodup_cons.2 ⟨fun hmem => ?_, nd⟩
      obtain ⟨m, h1, h2⟩ := hm _ hmem
      have := hs.inj h2
      omega
    · intro y hy
      rcases List.mem_cons.1 hy with rfl | hy
      · exact ⟨s.made, le_rfl, rfl⟩
      · obtain ⟨m, h1, h2⟩ := hm y hy
        exact ⟨m, by omega, h2⟩

end Fti
