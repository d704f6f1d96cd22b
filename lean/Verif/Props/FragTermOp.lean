import Verif.Props.FragTerm

/-!
C190–C192: `terminate_fragment`, whole calls. The specification is in `Verif/Props/FragTerm.lean`.
-/

namespace Fti
set_option linter.unusedSectionVars false

open Frg

variable {R F Q : Type} [DecidableEq R] [DecidableEq F] [DecidableEq Q]

/-- the exchanges a child flow is wanted for: elementary ones if asked for, then the others -/
def Wanted (elementary : Bool) (l : List (Ex R F)) : List (Ex R F) :=
  if elementary then l.filter (fun x => x.elem = true) ++ l.filter (fun x => x.elem = false) else l.filter (fun x => x.elem = false)

theorem chosen_eq (elementary : Bool) (l : List (Ex R F)) : chosen elementary l = Wanted elementary l := by
  unfold chosen Wanted
  have h1 : (fun x : Ex R F => decide (x.elem = true)) = fun x => x.elem := by funext x; simp
  have h2 : (fun x : Ex R F => decide (x.elem = false)) = fun x => !x.elem := by funext x; cases x.elem <;> rfl
  rw [h1, h2]
  cases elementary <;> simp

/-- the key of a scenario argument -/
def scenOf : Option Key → Scen
  | none => .none
  | some k => .one k

theorem kid_evs {s s' : St R F Q} (hh : ∀ i, ∃ e, s'.heap i = { s.heap i with evs := e }) (hr : s'.refs = s.refs) (hp : s'.pids = s.pids)
    (ht : s'.tags = s.tags) (inBg : R → F → Bool) (f : ℕ) (x : Ex R F) (c : ℕ) (h : Kid s inBg f x c) : Kid s' inBg f x c := by
  have hroot : ∀ r, Root s.heap f r → Root s'.heap f r := fun r => root_congr fun i => by obtain ⟨e, he⟩ := hh i; rw [he]
  have hterms : ∀ i, (s'.heap i).terms = (s.heap i).terms := fun i => by obtain ⟨e, he⟩ := hh i; rw [he]
  have hdir : ∀ i, (s'.heap i).dir = (s.heap i).dir := fun i => by obtain ⟨e, he⟩ := hh i; rw [he]
  have hbg : ∀ i, (s'.heap i).bg = (s.heap i).bg := fun i => by obtain ⟨e, he⟩ := hh i; rw [he]
  have hsup : ∀ t j, Supplies s' x t j ↔ Supplies s x t j := fun t j => by unfold Supplies; rw [hterms, hdir, hp]
  obtain ⟨a, b, c1, d, e1, g, l⟩ := h
  obtain ⟨e, he⟩ := hh c
  refine ⟨by rw [he, a], by rw [he, b], by rw [he, c1], by rw [he, d], by rw [he, e1], by rw [he, g], ?_⟩
  unfold Linked at l ⊢
  simp only [hterms, hr, hbg, hsup, ht] at l ⊢
  split at l
  · rename_i hel; rw [if_pos hel]; exact l
  · rename_i hel
    rw [if_neg hel]
    cases htm : x.term with
    | none => rw [htm] at l; exact l
    | some t =>
      rw [htm] at l
      simp only at l ⊢
      split at l
      · rename_i hb
        rw [if_pos hb]
        obtain ⟨j, j1, j2, j3, j4⟩ := l
        exact ⟨j, j1, j2, j3, j4.imp id fun ⟨p, q⟩ => ⟨p, hroot j q⟩⟩
      · rename_i hb
        rw [if_neg hb]
        rcases l with ⟨j, j1, j2, j3, j4⟩ | l
        · exact .inl ⟨j, j1, j2, j3, j4.imp id fun ⟨p, q⟩ => ⟨p, hroot j q⟩⟩
        · exact .inr l

/-- terminating to a process only sets the termination -/
theorem terminateTo_process (E : Env F Q) (fuel : ℕ) (H H' : Heap F Q) (i : ℕ) (k : Option Key) (fl : F)
    (h : terminateTo E fuel H i k { target := .process, flow := fl } = .ok () H') :
    H' = H.put i { H i with terms := (H i).terms.set k { target := .process, flow := fl } } ∧ (∀ tm, (H i).terms.get? k = some tm → tm.isNull = true) := by
  unfold terminateTo at h
  simp only at h
  split at h
  · simp at h
  · cases hg : (H i).terms.get? k with
    | none =>
      rw [hg] at h
      simp only [Bool.false_eq_true, if_false, Out.ok.injEq, true_and] at h
      exact ⟨h.symm, fun tm htm => by simp at htm⟩
    | some t =>
      rw [hg] at h
      simp only at h
      cases hn : t.isNull with
      | false => simp [hn] at h
      | true =>
        simp only [hn, Bool.not_true, Bool.false_eq_true, if_false, Out.ok.injEq, true_and] at h
        exact ⟨h.symm, fun tm htm => by simp only [Option.some.injEq] at htm; rw [← htm, hn]⟩

theorem forall₂_right {α β : Type} {S : α → β → Prop} {xs : List α} {cs : List β} (h : List.Forall₂ S xs cs) {c : β} (hc : c ∈ cs) : ∃ x ∈ xs, S x c := by
  induction h with
  | nil => simp at hc
  | cons hab _ ih =>
    rcases List.mem_cons.1 hc with rfl | hc
    · exact ⟨_, by simp, hab⟩
    · obtain ⟨x, hx, hs⟩ := ih hc
      exact ⟨x, by simp [hx], hs⟩

theorem forall₂_mono {α β : Type} {S T : α → β → Prop} {xs : List α} {cs : List β} (h : List.Forall₂ S xs cs) (hm : ∀ x c, c ∈ cs → S x c → T x c) :
    List.Forall₂ T xs cs := by
  induction h with
  | nil => exact .nil
  | cons hab _ ih => exact .cons (hm _ _ (by simp) hab) (ih fun x c hc => hm x c (by simp [hc]))

/-- the steps of a call -/
theorem terminateProcess_steps {E : Env F Q} {fuel : ℕ} {nm : ℕ → ℕ} {inBg : R → F → Bool} {inv : F → Option (List (Ex R F))} {f : ℕ} {p : R}
    {tflow : Option F} {k : Option Key} {elementary : Bool} {s s' : St R F Q}
    (h : terminateProcess E fuel nm inBg inv f p tflow k elementary s = .ok () s') :
    ∃ l s2, inv (tflow.getD (s.heap f).flow) = some l ∧ (∀ tm, (s.heap f).terms.get? k = some tm → tm.isNull = true) ∧
      loop E fuel nm inBg f (Wanted elementary l)
        { s with heap := s.heap.put f { s.heap f with terms := (s.heap f).terms.set k { target := .process, flow := tflow.getD (s.heap f).flow } },
                 pids := if k = none then s.pids.set f p else s.pids } = .ok () s2 ∧
      observe E (scenOf k) fuel f s2.heap = .ok () s'.heap ∧ s' = { s2 with heap := s'.heap } := by
  unfold terminateProcess at h
  simp only at h
  obtain ⟨u, s1, h1, h2⟩ := bind_ok h
  obtain ⟨H, h3, rfl⟩ := lift_ok h1
  obtain ⟨rfl, hnull⟩ := terminateTo_process E fuel s.heap H f k _ h3
  split at h2
  · simp at h2
  · rename_i l hl
    obtain ⟨u', s2, h4, h5⟩ := bind_ok h2
    obtain ⟨H', h6, rfl⟩ := lift_ok h5
    refine ⟨l, s2, hl, hnull, ?_, ?_, rfl⟩
    · rw [← chosen_eq, ← h4]
      congr 1
      by_cases hk : k = none
      · simp only [hk, if_true]
      · simp only [hk, if_false]
    · cases k <;> exact h6

/-- observing, in a state that is left: what it sets for children of f -/
theorem observed_all {E : Env F Q} {fuel f : ℕ} {k : Option Key} {key : Key} {H H' : Heap F Q} (hk : obsKey (scenOf k) = some key)
    (h : observe E (scenOf k) fuel f H = .ok () H') :
    (∀ i, ∃ e, H' i = { H i with evs := e }) ∧
    (∀ i, ¬ InTree H f i → H' i = H i) ∧
    ∀ tm, termOf (H f) (scenOf k) = .ok tm → tm.target = .process → ∀ c ∈ (H f).kids, (H c).parent = some f → (H c).bal = false →
      H' c = { H c with evs := (H c).evs.set key (some (cachedEv (H c).evs)) } := by
  have hs := observe_sets E (scenOf k) key hk fuel f H H' h
  refine ⟨fun i => ?_, fun i hi => (hs i).2 fun hh => hi hh.1, ?_⟩
  · by_cases hc : InTree H f i ∧ OwnValue H (scenOf k) i
    · exact ⟨_, (hs i).1 hc⟩
    · exact ⟨(H i).evs, by rw [(hs i).2 hc]⟩
  · intro tm htm htg c hc hp hb
    exact (hs c).1 ⟨.child f c c hc (.self c), .inr ⟨f, tm, hp, hb, htm, .inr (.inl htg)⟩⟩

/-- the state after the termination is set is sound -/
theorem sound_set {nm : ℕ → ℕ} {f : ℕ} {s : St R F Q} (hs : Sound nm f s) (n : Node F Q) (hk : n.kids = (s.heap f).kids) (hp : n.parent = (s.heap f).parent)
    (pids : Dict ℕ R) : Sound nm f { s with heap := s.heap.put f n, pids := pids } := by
  refine ⟨hs.inj, hs.self, hs.refs, ?_, ?_⟩
  · simp only [put_self, hk]; exact hs.kids
  · intro i q hi hq
    by_cases he : i = f
    · subst he; simp only [put_self, hp] at hq; exact hs.up i q hi hq
    · simp only [put_ne _ _ he] at hq; exact hs.up i q hi hq

/-- the amount of an exchange as a child flow has it: 1 if there is none -/
def amount (x : Ex R F) : ℚ := x.value.getD 1

theorem cachedEv_new (v : ℚ) : cachedEv [(.cached, some v), (.observed, some 0)] = if v = 0 then 1 else v := by
  simp [cachedEv, Dict.get?]

/-- **C190** terminating a fragment to a process, by default: the fragment is terminated to the process, and has one new child flow for every product flow in
the inventory (and every elementary flow, if asked for), in order, with flow, direction and amount of the exchange, each terminated as it should be: see `Kid`.
Observed values are the amounts, but 1 where the amount is 0. Nothing else changes, but for background fragments that are added. -/
theorem terminate_children_partial (E : Env F Q) (fuel : ℕ) (nm : ℕ → ℕ) (inBg : R → F → Bool) (inv : F → Option (List (Ex R F))) (f : ℕ) (p : R)
    (tflow : Option F) (elementary : Bool) (s s' : St R F Q) (hs : Sound nm f s) (hk : (s.heap f).kids = [])
    (h : terminateProcess E fuel nm inBg inv f p tflow none elementary s = .ok () s') :
    ∃ l, inv (tflow.getD (s.heap f).flow) = some l ∧
      (s'.heap f).terms.get? none = some { target := .process, flow := tflow.getD (s.heap f).flow } ∧ s'.pids.get? f = some p ∧
      (s'.heap f).kids.Nodup ∧
      List.Forall₂ (fun x c => Kid s' inBg f x c ∧
        (s'.heap c).evs = [(.cached, some (amount x)), (.observed, some (if amount x = 0 then 1 else amount x))]) (Wanted elementary l) (s'.heap f).kids ∧
      (∀ i, Old nm s.made i → i ≠ f → s'.heap i = s.heap i) ∧
      (∃ new, s'.refs = s.refs ++ new ∧ ∀ j ∈ new, (s'.heap j).bg = true) := by
  obtain ⟨l, s2, hl, -, hloop, hobs, hs'⟩ := terminateProcess_steps h
  simp only [if_true] at hloop
  have hget : (((s.heap f).terms.set none { target := .process, flow := tflow.getD (s.heap f).flow }).get? none) =
      some ({ target := .process, flow := tflow.getD (s.heap f).flow } : Term F) := Dict.get?_set_self _ _ _
  obtain ⟨hx, hsound, cs, hkids, nd, hnew, f2⟩ := loop_ok E fuel nm inBg f _ _ s2 (sound_set hs
    { s.heap f with terms := (s.heap f).terms.set none { target := .process, flow := tflow.getD (s.heap f).flow } } rfl rfl (s.pids.set f p))
    ⟨{ target := .process, flow := tflow.getD (s.heap f).flow }, by simp only [put_self, hget], .inl rfl⟩ hloop
  simp only [put_self, hk, List.nil_append] at hkids
  obtain ⟨o1, o2, o3⟩ := observed_all (key := .observed) rfl hobs
  have hterms : (s2.heap f).terms = (s.heap f).terms.set none { target := .process, flow := tflow.getD (s.heap f).flow } := by
    rw [(hx.bg f hs.self).2.1]; simp only [put_self]
  have hkids' : (s'.heap f).kids = cs := by obtain ⟨e, he⟩ := o1 f; rw [he]; exact hkids
  have htree : ∀ i, InTree s2.heap f i → i = f ∨ i ∈ cs := by
    intro i hi
    cases hi with
    | self => exact .inl rfl
    | child _ c _ hc hi =>
      rw [hkids] at hc
      obtain ⟨x, -, hkid⟩ := forall₂_right f2 hc
      have hkid := hkid.1.2.1
      cases hi with
      | self => exact .inr hc
      | child _ d _ hd _ => rw [hkid] at hd; simp at hd
  refine ⟨l, hl, ?_, ?_, by rw [hkids']; exact nd, ?_, ?_, ?_⟩
  · obtain ⟨e, he⟩ := o1 f; rw [he]; simp only [hterms]; exact hget
  · rw [hs']; simp only; rw [hx.pids f hs.self]; exact Dict.get?_set_self _ _ _
  · rw [hkids']
    refine forall₂_mono f2 fun x c hc hx2 => ?_
    have hc' := o3 { target := .process, flow := tflow.getD (s.heap f).flow } (by simp only [scenOf, termOf, hterms, hget]) rfl c (by rw [hkids]; exact hc)
      hx2.1.1 hx2.1.2.2.2.2.2.1
    refine ⟨kid_evs o1 (by rw [hs']) (by rw [hs']) (by rw [hs']) inBg f x c hx2.1, ?_⟩
    rw [hc', hx2.2, cachedEv_new]
    by_cases hv : x.value.getD 1 = 0 <;> simp [Dict.set, amount, hv]
  · intro i hi hif
    rw [o2 i ?_, hx.heap i hi hif]
    · simp only [put_ne _ _ hif]
    · intro ht
      rcases htree i ht with h1 | h1
      · exact hif h1
      · obtain ⟨m, hm, he⟩ := hnew i h1
        exact hi m hm he
  · obtain ⟨new, e1, e2⟩ := hx.refs
    refine ⟨new, by rw [hs']; exact e1, fun j hj => ?_⟩
    obtain ⟨e, he⟩ := o1 j; rw [he]; exact e2 j hj


/-- the termination of f to itself, as making a child flow of a cut-off sets it -/
def asNode (s : St R F Q) (f : ℕ) : St R F Q :=
  { s with heap := s.heap.put f { s.heap f with bg := false, terms := (s.heap f).terms.set none { target := .frag f, flow := (s.heap f).flow } } }

/-- the first child flow makes the parent a node by default, if it is a cut-off by default -/
theorem loop_cutoff (E : Env F Q) (fuel : ℕ) (nm : ℕ → ℕ) (inBg : R → F → Bool) (f : ℕ) (x : Ex R F) (xs : List (Ex R F)) (s : St R F Q) (tm : Term F)
    (h0 : (s.heap f).terms.get? none = some tm) (hn : tm.isNull = true) :
    loop E fuel nm inBg f (x :: xs) s = loop E fuel nm inBg f (x :: xs) (asNode s f) := by
  have hc : ∀ (k : ℕ) (v : Option ℚ), createFragment E s.heap k x.flow x.dir (some f) v false false =
      createFragment E (asNode s f).heap k x.flow x.dir (some f) v false false := by
    intro k v
    have hset : (((s.heap f).terms.set none { target := .frag f, flow := (s.heap f).flow }).get? none) =
      some ({ target := .frag f, flow := (s.heap f).flow } : Term F) := Dict.get?_set_self _ _ _
    have hfn : Term.isNull ({ target := .frag f, flow := (s.heap f).flow } : Term F) = false := rfl
    simp only [createFragment, asNode, h0, hn, if_true, toForeground, put_self, put_put, hset, hfn, Bool.false_eq_true, if_false, Out.bind]
  have hnew : newChild E nm f x s = newChild E nm f x (asNode s f) := by
    unfold newChild
    rw [hc, show (asNode s f).made = s.made from rfl]
    cases createFragment E (asNode s f).heap (nm s.made) x.flow x.dir (some f) (some (x.value.getD 1)) false false <;> rfl
  rw [loop, loop, child, child, hnew]

/-- **C191** terminating a fragment to a process in a scenario, the fragment being a node by default: the default termination, those of other scenarios and all
other fragments stay as they are -/
theorem terminate_scenario_partial (E : Env F Q) (fuel : ℕ) (nm : ℕ → ℕ) (inBg : R → F → Bool) (inv : F → Option (List (Ex R F))) (f : ℕ) (p : R)
    (tflow : Option F) (sc : String) (h0 : sc ≠ "0") (h1 : sc ≠ "1") (elementary : Bool) (s s' : St R F Q) (hs : Sound nm f s) (hk : (s.heap f).kids = [])
    (hn : IsNode s f) (h : terminateProcess E fuel nm inBg inv f p tflow (some (.str sc)) elementary s = .ok () s') :
    ∃ l, inv (tflow.getD (s.heap f).flow) = some l ∧
      (s'.heap f).terms = (s.heap f).terms.set (some (.str sc)) { target := .process, flow := tflow.getD (s.heap f).flow } ∧
      (s'.heap f).kids.Nodup ∧
      List.Forall₂ (fun x c => Kid s' inBg f x c ∧
        (s'.heap c).evs = [(.cached, some (amount x)), (.observed, some 0), (.str sc, some (if amount x = 0 then 1 else amount x))])
        (Wanted elementary l) (s'.heap f).kids ∧
      (∀ i, Old nm s.made i → i ≠ f → s'.heap i = s.heap i) := by
  obtain ⟨l, s2, hl, -, hloop, hobs, hs'⟩ := terminateProcess_steps h
  simp only [reduceCtorEq, if_false] at hloop
  have hget : (((s.heap f).terms.set (some (.str sc)) { target := .process, flow := tflow.getD (s.heap f).flow }).get? (some (.str sc))) =
      some ({ target := .process, flow := tflow.getD (s.heap f).flow } : Term F) := Dict.get?_set_self _ _ _
  obtain ⟨tm0, n1, n2⟩ := hn
  obtain ⟨hx, hsound, cs, hkids, nd, hnew, f2⟩ := loop_ok E fuel nm inBg f _ _ s2 (sound_set hs
    { s.heap f with terms := (s.heap f).terms.set (some (.str sc)) { target := .process, flow := tflow.getD (s.heap f).flow } } rfl rfl s.pids)
    ⟨tm0, by simp only [put_self]; rw [Dict.get?_set_ne _ _ (by simp)]; exact n1, n2⟩ hloop
  simp only [put_self, hk, List.nil_append] at hkids
  have hkey : obsKey (scenOf (some (.str sc))) = some (.str sc) := by simp [obsKey, scenOf, h0, h1]
  obtain ⟨o1, o2, o3⟩ := observed_all (key := .str sc) hkey hobs
  have hterms : (s2.heap f).terms = (s.heap f).terms.set (some (.str sc)) { target := .process, flow := tflow.getD (s.heap f).flow } := by
    rw [(hx.bg f hs.self).2.1]; simp only [put_self]
  have hkids' : (s'.heap f).kids = cs := by obtain ⟨e, he⟩ := o1 f; rw [he]; exact hkids
  have htree : ∀ i, InTree s2.heap f i → i = f ∨ i ∈ cs := by
    intro i hi
    cases hi with
    | self => exact .inl rfl
    | child _ c _ hc hi =>
      rw [hkids] at hc
      obtain ⟨x, -, hkid⟩ := forall₂_right f2 hc
      have hkid := hkid.1.2.1
      cases hi with
      | self => exact .inr hc
      | child _ d _ hd _ => rw [hkid] at hd; simp at hd
  refine ⟨l, hl, ?_, by rw [hkids']; exact nd, ?_, ?_⟩
  · obtain ⟨e, he⟩ := o1 f; rw [he]; simp only [hterms]
  · rw [hkids']
    refine forall₂_mono f2 fun x c hc hx2 => ?_
    have hterm : termOf (s2.heap f) (scenOf (some (.str sc))) = .ok { target := .process, flow := tflow.getD (s.heap f).flow } := by
      have hhas : Dict.has ((s.heap f).terms.set (some (.str sc)) ({ target := .process, flow := tflow.getD (s.heap f).flow } : Term F)) (some (.str sc)) = true :=
        (Dict.has_iff _ _).2 ((Dict.mem_keys_iff _ _).2 ⟨_, hget⟩)
      simp only [scenOf, termOf, hterms, reduceCtorEq, Key.str.injEq, h0, or_self, if_false, hhas, if_true, hget]
    have hc' := o3 _ hterm rfl c (by rw [hkids]; exact hc) hx2.1.1 hx2.1.2.2.2.2.2.1
    refine ⟨kid_evs o1 (by rw [hs']) (by rw [hs']) (by rw [hs']) inBg f x c hx2.1, ?_⟩
    rw [hc', hx2.2, cachedEv_new]
    by_cases hv : x.value.getD 1 = 0 <;> simp [Dict.set, amount, hv]
  · intro i hi hif
    rw [o2 i ?_, hx.heap i hi hif]
    · simp only [put_ne _ _ hif]
    · intro ht
      rcases htree i ht with h1 | h1
      · exact hif h1
      · obtain ⟨m, hm, he⟩ := hnew i h1
        exact hi m hm he

/-- **C191 violated** a fragment that is a cut-off by default and is terminated to a process in a scenario only is no longer a cut-off by default: it has become
a node, and no background fragment any more; whatever child flows the process gave it are those of the default scenario also -/
theorem scenario_changes_default (E : Env F Q) (fuel : ℕ) (nm : ℕ → ℕ) (inBg : R → F → Bool) (inv : F → Option (List (Ex R F))) (f : ℕ) (p : R)
    (tflow : Option F) (sc : String) (elementary : Bool) (s s' : St R F Q) (hs : Sound nm f s) (tm : Term F)
    (hcut : (s.heap f).terms.get? none = some tm) (hnull : tm.target = .null) (l : List (Ex R F)) (hl : inv (tflow.getD (s.heap f).flow) = some l)
    (hne : Wanted elementary l ≠ []) (h0 : sc ≠ "0") (h1 : sc ≠ "1")
    (h : terminateProcess E fuel nm inBg inv f p tflow (some (.str sc)) elementary s = .ok () s') :
    (s'.heap f).terms.get? none = some { target := .frag f, flow := (s.heap f).flow } ∧ (s'.heap f).bg = false ∧
      (s.heap f).kids.length < (s'.heap f).kids.length := by
  obtain ⟨l', s2, hl', -, hloop, hobs, hs'⟩ := terminateProcess_steps h
  rw [hl] at hl'
  simp only [Option.some.injEq] at hl'
  subst hl'
  simp only [reduceCtorEq, if_false] at hloop
  cases hw : Wanted elementary l with
  | nil => exact absurd hw hne
  | cons x xs =>
    rw [hw] at hloop
    rw [loop_cutoff E fuel nm inBg f x xs _ tm (by simp only [put_self]; rw [Dict.get?_set_ne _ _ (by simp)]; exact hcut) (by simp [Term.isNull, hnull])] at hloop
    have hs1 := sound_set hs
      { s.heap f with terms := (s.heap f).terms.set (some (.str sc)) { target := .process, flow := tflow.getD (s.heap f).flow } } rfl rfl s.pids
    have hs2 := sound_set hs1 { s.heap f with
      bg := false
      terms := ((s.heap f).terms.set (some (.str sc)) { target := .process, flow := tflow.getD (s.heap f).flow }).set none { target := .frag f, flow := (s.heap f).flow } }
      (by simp) (by simp) s.pids
    simp only [asNode, put_self] at hloop
    obtain ⟨hx, -, cs, hkids, -, -, f2⟩ := loop_ok E fuel nm inBg f _ _ s2 hs2
      ⟨{ target := .frag f, flow := (s.heap f).flow }, by simp only [put_self]; exact Dict.get?_set_self _ _ _, .inr rfl⟩ hloop
    have hkey : obsKey (scenOf (some (.str sc))) = some (.str sc) := by simp [obsKey, scenOf, h0, h1]
    obtain ⟨o1, -, -⟩ := observed_all (key := .str sc) hkey hobs
    obtain ⟨e, he⟩ := o1 f
    obtain ⟨b1, b2, -, -⟩ := hx.bg f hs.self
    rw [he]
    refine ⟨by simp only [b2, put_self]; exact Dict.get?_set_self _ _ _, by simp only [b1, put_self], ?_⟩
    simp only [hkids, put_self, List.length_append]
    have := f2.length_eq
    simp only [List.length_cons] at this
    omega

/-- **C192** a fragment that is terminated already is left alone -/
theorem terminate_again (E : Env F Q) (fuel : ℕ) (nm : ℕ → ℕ) (inBg : R → F → Bool) (inv : F → Option (List (Ex R F))) (f : ℕ) (p : R)
    (tflow : Option F) (sc : Option String) (elementary : Bool) (s : St R F Q) (tm : Term F) (ht : (s.heap f).terms.get? (sc.map Key.str) = some tm)
    (hn : tm.target ≠ .null) : terminateProcess E fuel nm inBg inv f p tflow (sc.map Key.str) elementary s = .err .cacheAlreadySet s := by
  have hnull : tm.isNull = false := by
    unfold Term.isNull
    cases htg : tm.target with
    | null => exact absurd htg hn
    | _ => rfl
  have : terminateTo E fuel s.heap f (sc.map Key.str) { target := .process, flow := tflow.getD (s.heap f).flow } = .err .cacheAlreadySet s.heap := by
    unfold terminateTo
    cases sc <;> simp only [Option.map_none, Option.map_some] at ht ⊢ <;> simp [ht, hnull]
  unfold terminateProcess
  simp only [this, lift, Out.bind]

/-- **C192 violated** child flows a fragment has already are not recognized: after the termination is cleared and set again, every exchange has a further child
flow, and what was observed for the earlier ones is replaced by their cached value -/
theorem children_doubled (E : Env F Q) (fuel : ℕ) (nm : ℕ → ℕ) (inBg : R → F → Bool) (inv : F → Option (List (Ex R F))) (f : ℕ) (p : R)
    (tflow : Option F) (elementary : Bool) (s s' : St R F Q) (hs : Sound nm f s)
    (h : terminateProcess E fuel nm inBg inv f p tflow none elementary s = .ok () s') :
    ∃ l, inv (tflow.getD (s.heap f).flow) = some l ∧ (s'.heap f).kids.length = (s.heap f).kids.length + (Wanted elementary l).length ∧
      ∀ c ∈ (s.heap f).kids, c ≠ f → (s.heap c).parent = some f → (s.heap c).bal = false →
        c ∈ (s'.heap f).kids ∧ (s'.heap c).evs.get? .observed = some (some (cachedEv (s.heap c).evs)) := by
  obtain ⟨l, s2, hl, -, hloop, hobs, hs'⟩ := terminateProcess_steps h
  simp only [if_true] at hloop
  have hget : (((s.heap f).terms.set none { target := .process, flow := tflow.getD (s.heap f).flow }).get? none) =
      some ({ target := .process, flow := tflow.getD (s.heap f).flow } : Term F) := Dict.get?_set_self _ _ _
  obtain ⟨hx, hsound, cs, hkids, nd, hnew, f2⟩ := loop_ok E fuel nm inBg f _ _ s2 (sound_set hs
    { s.heap f with terms := (s.heap f).terms.set none { target := .process, flow := tflow.getD (s.heap f).flow } } rfl rfl (s.pids.set f p))
    ⟨{ target := .process, flow := tflow.getD (s.heap f).flow }, by simp only [put_self, hget], .inl rfl⟩ hloop
  simp only [put_self] at hkids
  obtain ⟨o1, o2, o3⟩ := observed_all (key := .observed) rfl hobs
  have hterms : (s2.heap f).terms = (s.heap f).terms.set none { target := .process, flow := tflow.getD (s.heap f).flow } := by
    rw [(hx.bg f hs.self).2.1]; simp only [put_self]
  have hkids' : (s'.heap f).kids = (s.heap f).kids ++ cs := by obtain ⟨e, he⟩ := o1 f; rw [he]; exact hkids
  refine ⟨l, hl, by rw [hkids', List.length_append, f2.length_eq], ?_⟩
  intro c hc hcf hp hb
  have hold : s2.heap c = s.heap c := by rw [hx.heap c (hs.kids c hc) hcf]; simp only [put_ne _ _ hcf]
  refine ⟨by rw [hkids']; simp [hc], ?_⟩
  rw [o3 { target := .process, flow := tflow.getD (s.heap f).flow } (by simp only [scenOf, termOf, hterms, hget]) rfl c (by rw [hkids]; simp [hc])
    (by rw [hold, hp]) (by rw [hold, hb]), hold]
  exact Dict.get?_set_self _ _ _

/-- **C192 violated** terminating to a fragment always raises -/
theorem terminate_frag_raises (E : Env F Q) (fuel : ℕ) (f j : ℕ) (tflow : Option F) (k : Option Key) (s : St R F Q) :
    ∃ e s', terminateFrag E fuel f j tflow k s = .err e s' := by
  unfold terminateFrag
  cases h : lift s (terminateTo E fuel s.heap f k { target := .frag j, flow := tflow.getD (s.heap f).flow }) with
  | err e s' => exact ⟨e, s', rfl⟩
  | ok u s' =>
    simp only [Out.bind]
    split
    · split
      · exact ⟨_, _, rfl⟩
      · exact ⟨_, _, rfl⟩
    · exact ⟨_, _, rfl⟩

/-- **C192 violated** where `terminate` itself would have succeeded, the exception is a TypeError or AttributeError, and the fragment stays as `terminate` has left it -/
theorem terminate_frag_sets (E : Env F Q) (fuel : ℕ) (f j : ℕ) (tflow : Option F) (k : Option Key) (s : St R F Q) (H : Heap F Q)
    (h : terminateTo E fuel s.heap f k { target := .frag j, flow := tflow.getD (s.heap f).flow } = .ok () H) (tm : Term F) (htm : (H f).terms.get? k = some tm) :
    terminateFrag E fuel f j tflow k s = .err (if tm.target = .null then .attributeError else .typeError) { s with heap := H } := by
  unfold terminateFrag
  simp only [h, lift, Out.bind, htm]
  unfold Term.isNull
  cases htg : tm.target <;> simp


/-- **C190 violated** an exchange of amount 0 is observed as 1 -/
theorem zero_observed_as_one (E : Env F Q) (fuel : ℕ) (nm : ℕ → ℕ) (inBg : R → F → Bool) (inv : F → Option (List (Ex R F))) (f : ℕ) (p : R)
    (tflow : Option F) (elementary : Bool) (s s' : St R F Q) (hs : Sound nm f s) (hk : (s.heap f).kids = [])
    (h : terminateProcess E fuel nm inBg inv f p tflow none elementary s = .ok () s') (l : List (Ex R F))
    (hl : inv (tflow.getD (s.heap f).flow) = some l) (x : Ex R F) (hx : x ∈ l) (hel : x.elem = false) (h0 : x.value = some 0) :
    ∃ c ∈ (s'.heap f).kids, (s'.heap c).flow = x.flow ∧ (s'.heap c).dir = x.dir ∧ exchangeValue (s'.heap c) .none true = .ok 1 := by
  obtain ⟨l', hl', -, -, -, hf, -, -⟩ := terminate_children_partial E fuel nm inBg inv f p tflow elementary s s' hs hk h
  rw [hl] at hl'
  simp only [Option.some.injEq] at hl'
  subst hl'
  have hmem : x ∈ Wanted elementary l := by
    unfold Wanted
    split
    · exact List.mem_append.2 (.inr (List.mem_filter.2 ⟨hx, by simp [hel]⟩))
    · exact List.mem_filter.2 ⟨hx, by simp [hel]⟩
  have left : ∀ {xs : List (Ex R F)} {cs : List ℕ} {S : Ex R F → ℕ → Prop}, List.Forall₂ S xs cs → x ∈ xs → ∃ c ∈ cs, S x c := by
    intro xs cs S h hx
    induction h with
    | nil => simp at hx
    | cons hab _ ih =>
      rcases List.mem_cons.1 hx with rfl | hx
      · exact ⟨_, by simp, hab⟩
      · obtain ⟨c, hc, hs⟩ := ih hx
        exact ⟨c, by simp [hc], hs⟩
  obtain ⟨c, hc, hkid, hev⟩ := left hf hmem
  refine ⟨c, hc, hkid.2.2.1, hkid.2.2.2.1, ?_⟩
  have : amount x = 0 := by simp [amount, h0]
  simp [exchangeValue, matchEv, hev, observedEv, this, Dict.get?]

end Fti

/-! ### examples -/

namespace Fti.Ex
open Frg Fti

def E : Env ℕ ℕ := ⟨fun _ _ => 0, fun _ => 0⟩
/-- 0: the fragment to terminate, a cut-off by default; 1: a background fragment for flow 11 from process 101; 2: a foreground fragment for flow 12 from 102 -/
def H : Heap ℕ ℕ := fun i =>
  match i with
  | 1 => { flow := 11, dir := .input, evs := newEvs, terms := [(none, { target := .process, flow := 11 })], bg := true }
  | 2 => { flow := 12, dir := .input, evs := newEvs, terms := [(none, { target := .process, flow := 12 })] }
  | _ => { flow := 10, dir := .output, evs := newEvs, terms := [(none, { target := .null, flow := 10 })] }
def st : St ℕ ℕ ℕ := ⟨H, [0, 1, 2], [(1, 101), (2, 102)], [], 0⟩
def nm (n : ℕ) : ℕ := n + 10
/-- in the background and there; in the background and new; in the foreground and there; nowhere; a cut-off; an emission -/
def l : List (Fti.Ex ℕ ℕ) :=
  [⟨11, .input, some 2, some 101, false⟩, ⟨15, .output, some 3, some 105, false⟩, ⟨12, .input, some (1/2), some 102, false⟩,
   ⟨13, .input, some 0, some 103, false⟩, ⟨14, .output, none, none, false⟩, ⟨20, .output, some 7, none, true⟩]
def inv (fl : ℕ) : Option (List (Fti.Ex ℕ ℕ)) := if fl = 10 then some l else none
def inBg (t _ : ℕ) : Bool := t = 101 ∨ t = 105
def run (k : Option Key) : Out (St ℕ ℕ ℕ) Err Unit := terminateProcess E 20 nm inBg inv 0 100 none k true st
def show? (s : St ℕ ℕ ℕ) (c : ℕ) : ℕ × Option (Term ℕ) × Option (Option ℚ) := ((s.heap c).flow, (s.heap c).terms.get? none, (s.heap c).evs.get? .observed)

theorem sound : Sound nm 0 st := by
  refine ⟨fun a b h => by simpa [nm] using h, fun m _ => by simp [nm], ?_, ?_, ?_⟩
  · intro j hj m _
    simp only [st, List.mem_cons, List.not_mem_nil, or_false] at hj
    simp only [nm]; omega
  · intro c hc; simp [st, H] at hc
  · intro i p _ hp
    have : (H i).parent = none := by unfold H; split <;> rfl
    rw [show st.heap = H from rfl, this] at hp
    simp at hp

example : (run none).error? = none ∧ ((run none).state.heap 0).kids = [10, 11, 12, 14, 15, 16] ∧ (run none).state.refs = [0, 1, 2, 13] ∧
    (run none).state.tags = [(15, 103)] ∧
    [10, 11, 12, 14, 15, 16].map (show? (run none).state) =
      [(20, some ⟨.frag 10, 20, true⟩, some (some 7)), (11, some ⟨.frag 1, 11, true⟩, some (some 2)), (15, some ⟨.frag 13, 15, true⟩, some (some 3)),
       (12, some ⟨.frag 2, 12, true⟩, some (some (1/2))), (13, some ⟨.null, 13, true⟩, some (some 1)), (14, some ⟨.null, 14, true⟩, some (some 1))] := by
  decide +kernel

/-- in a scenario the default termination changes from cut-off to node -/
example : (run (some (.str "s"))).error? = none ∧ (H 0).terms.get? none = some ⟨.null, 10, true⟩ ∧
    ((run (some (.str "s"))).state.heap 0).terms.get? none = some ⟨.frag 0, 10, true⟩ ∧
    ((run (some (.str "s"))).state.heap 0).terms.get? (some (.str "s")) = some ⟨.process, 10, true⟩ := by decide +kernel

/-- a fragment that is a node by default -/
example : (terminateProcess E 20 nm inBg inv 0 100 none (some (.str "s")) false
      { st with heap := Heap.put st.heap 0 { H 0 with terms := [(none, { target := .frag 0, flow := 10 })] } }).error? = none := by decide +kernel

example : (terminateProcess E 20 nm inBg inv 0 100 none none true (run none).state).error? = some .cacheAlreadySet := by decide +kernel

/-- cleared and terminated again -/
example : let s := (run none).state
    let s := { s with heap := Heap.put s.heap 0 { s.heap 0 with terms := [(none, { target := .null, flow := 10 })] } }
    (terminateProcess E 20 nm inBg inv 0 100 none none true s).error? = none ∧
    ((terminateProcess E 20 nm inBg inv 0 100 none none true s).state.heap 0).kids = [10, 11, 12, 14, 15, 16, 17, 18, 19, 20, 21, 22] := by decide +kernel

/-- terminated to a fragment: an exception, and a termination -/
example : (terminateFrag E 20 0 2 none none st).error? = some .typeError ∧
    ((terminateFrag E 20 0 2 none none st).state.heap 0).terms.get? none = some ⟨.frag 2, 10, true⟩ ∧
    (terminateTo E 20 H 0 none { target := .frag 2, flow := 10 }).error? = none := by decide +kernel

end Fti.Ex
