import Verif.Props.FragmentClone2

/-!
C127: what is lost when a fragment is cloned; examples; names, comments and origins.
-/

namespace Frg
set_option linter.unusedSectionVars false

variable {F Q : Type} [DecidableEq F] [DecidableEq Q]

/-! ### an example -/

theorem below_mem {H : Heap F Q} {f : ℕ} (S : List ℕ) (hf : f ∈ S) (hS : ∀ x ∈ S, ∀ c ∈ (H x).kids, c ∈ S) : ∀ x, InTree H f x → x ∈ S := by
  intro x hx
  induction hx with
  | self i => exact hf
  | child i c x hc _ ih => exact ih (hS i hf c hc)

def plainB : Key → Bool
  | .str s => decide (s ≠ "0" ∧ s ≠ "1")
  | .tup _ => false
  | _ => true

def Target.frag? : Target → Option ℕ
  | .frag j => some j
  | _ => none

/-- the conditions, by computation, when the new uuids are those from n on -/
def clonableB (E : Env F Q) (H : Heap F Q) (S : List ℕ) (φ : ℕ → ℕ) (n : ℕ) (d : ℕ → ℕ) : Prop :=
  ∀ x ∈ S, (n ≤ φ x ∧ x < n ∧ ∀ y ∈ S, φ x = φ y → x = y) ∧ ((H x).kids.Nodup ∧ ∀ c ∈ (H x).kids, c ∈ S ∧ (H c).parent = some x ∧ d c = d x + 1) ∧
    ((H x).evs.keys.Nodup ∧ Key.cached ∈ (H x).evs.keys ∧ Key.observed ∈ (H x).evs.keys) ∧
    (∀ k ∈ (H x).evs.keys, plainB k = true) ∧
    (H x).evs.get? .cached ≠ some (some 0) ∧ (H x).terms.keys.Nodup ∧
    ((H x).terms.get? none).any (fun t => (H x).kids.isEmpty || !t.isNull) = true ∧
    (∀ p ∈ (H x).terms, (p.2.target = .null → p.1 = none ∧ p.2.flow = (H x).flow ∧ p.2.descend = true) ∧
      (p.2.target = .frag x → p.2.flow = (H x).flow ∧ p.2.descend = true ∧ (H x).bg = false) ∧
      ∀ j ∈ p.2.target.frag?, j < n) ∧
    (∀ p ∈ (H x).terms, ∀ q ∈ (H x).terms, isSubfrag H x p.2 = isSubfrag H x q.2) ∧
    (∀ c ∈ (H x).kids, (H c).bal = true → (H x).cons = some (E.refQ (H c).flow)) ∧ ((H x).cons ≠ none → ∃ c ∈ (H x).kids, (H c).bal = true)

set_option synthInstance.maxSize 1000 in
set_option synthInstance.maxHeartbeats 200000 in
instance (E : Env F Q) (H : Heap F Q) (S : List ℕ) (φ : ℕ → ℕ) (n : ℕ) (d : ℕ → ℕ) : Decidable (clonableB E H S φ n d) := by
  unfold clonableB; infer_instance

theorem clonable_of (E : Env F Q) (H : Heap F Q) (S : List ℕ) (φ : ℕ → ℕ) (n : ℕ) (d : ℕ → ℕ) (h : clonableB E H S φ n d) (f : ℕ) (hf : f ∈ S)
    (hr : (H f).parent = none ∧ (H f).bal = false) (hb : ∀ y, n ≤ y → (H y).parent = none) : Clonable E H f φ (n ≤ ·) d := by
  have hS := below_mem (H := H) S hf fun x hx c hc => ((h x hx).2.1.2 c hc).1
  have hmem : ∀ x, ∀ key t, (H x).terms.get? key = some t → (key, t) ∈ (H x).terms := fun x key t ht => Dict.mem_of_get?_eq_some _ ht
  refine { root := hr, fresh := fun x hx => ?_, blank := hb, inj := fun x y hx hy => ?_, tree := fun x hx => ?_, evKeys := fun x hx => ?_,
           cached := fun x hx => ?_, termKeys := fun x hx => ?_, null := fun x hx key t ht => ?_, self := fun x hx key t ht => ?_,
           target := fun x hx key t j ht hj => ?_, uniform := fun x hx => ?_, cons := fun x hx => ?_ }
  · have := (h x (hS x hx)).1; exact ⟨this.1, by omega⟩
  · exact (h x (hS x hx)).1.2.2 y (hS y hy)
  · have := (h x (hS x hx)).2.1; exact ⟨this.1, fun c hc => (this.2 c hc).2⟩
  · have := (h x (hS x hx)).2.2
    refine ⟨this.1.1, this.1.2.1, this.1.2.2, fun k hk => ?_⟩
    have := this.2.1 k hk
    cases k <;> simp_all [Plain, plainB]
  · exact (h x (hS x hx)).2.2.2.2.1
  · have := (h x (hS x hx)).2.2.2.2.2
    refine ⟨this.1, ?_⟩
    have h2 := this.2.1
    cases ht : (H x).terms.get? none with
    | none => rw [ht] at h2; simp at h2
    | some t =>
      rw [ht] at h2
      simp only [Option.any_some, Bool.or_eq_true, List.isEmpty_iff] at h2
      exact ⟨t, rfl, fun hk => by rcases h2 with h2 | h2; exact absurd h2 hk; simpa using h2⟩
  · exact ((h x (hS x hx)).2.2.2.2.2.2.2.1 _ (hmem x key t ht)).1
  · exact ((h x (hS x hx)).2.2.2.2.2.2.2.1 _ (hmem x key t ht)).2.1
  · have := ((h x (hS x hx)).2.2.2.2.2.2.2.1 _ (hmem x key t ht)).2.2
    simp only [hj] at this
    have := this j rfl
    omega
  · have := (h x (hS x hx)).2.2.2.2.2.2.2.2.1
    have h2 := (h x (hS x hx)).2.2.2.2.2.2.1
    cases ht0 : (H x).terms.get? none with
    | none => rw [ht0] at h2; simp at h2
    | some t0 => exact ⟨isSubfrag H x t0, fun key t ht => this _ (hmem x key t ht) _ (hmem x none t0 ht0)⟩
  · exact (h x (hS x hx)).2.2.2.2.2.2.2.2.2

def exDepth : ℕ → ℕ
  | 0 => 0
  | 8 => 2
  | _ => 1

theorem exH_blank : ∀ y, 20 ≤ y → (exH y).parent = none := by
  intro y hy
  obtain ⟨n, rfl⟩ := Nat.exists_eq_add_of_le' hy
  rfl

theorem exH_clonable : Clonable exE exH 0 (· + 20) (20 ≤ ·) exDepth :=
  clonable_of exE exH [0, 1, 2, 3, 4, 8] _ 20 exDepth (by decide +kernel) 0 (by decide) ⟨rfl, rfl⟩ exH_blank

/-- `exH` with a clone of fragment 0 -/
def exClone : Heap ℕ ℕ := (clone exE (· + 20) 9 none 0 exH).state

/-- the hypotheses of `clone_copy_partial` and `clone_traverse_partial` are met, with a balance, a subfragment, a process and a scenario value in the tree -/
example : Clonable exE exH 0 (· + 20) (20 ≤ ·) exDepth ∧ clone exE (· + 20) 9 none 0 exH = .ok () exClone ∧
    Closed exH (.one (.str "a")) (· < 9) ∧
    view (traverse exE exH (.one (.str "a")) false 9 0) = .ok [(.frag 0, 10, 1), (.frag 1, 5, 5), (.frag 2, 4, 4), (.frag 5, 4, 2), (.frag 8, 14, 14),
      (.ghost 5, 6, 6), (.frag 4, 1, 3), (.frag 3, -2, -2)] ∧
    view (traverse exE exClone (.one (.str "a")) false 9 20) = .ok [(.frag 20, 10, 1), (.frag 21, 5, 5), (.frag 22, 4, 4), (.frag 5, 4, 2), (.frag 28, 14, 14),
      (.ghost 5, 6, 6), (.frag 24, 1, 3), (.frag 23, -2, -2)] :=
  ⟨exH_clonable, isOk_state (by decide +kernel), closed_of _ _ _ (by decide +kernel), by decide +kernel, by decide +kernel⟩

/-! ### what is lost -/

/-- **C127 fails**: a fragment with a value for a combination of scenarios (they come from JSON) cannot be cloned -/
theorem clone_combination (E : Env F Q) (φ : ℕ → ℕ) (fuel f : ℕ) (H H' : Heap F Q) (hne : f ≠ φ f) (l : List String) (hl : Key.tup l ∈ (H f).evs.keys) :
    clone E φ fuel none f H ≠ .ok () H' := by
  intro h
  cases fuel with
  | zero => simp [clone] at h
  | succ fuel =>
    rw [clone] at h
    obtain ⟨_, H1, h1, h⟩ := bind_ok h
    obtain ⟨_, H2, h2, h⟩ := bind_ok h
    have e1 := create_root E H H1 _ _ _ _ _ _ h1
    have hf1 : H1 f = H f := by rw [e1, put_ne _ _ hne]
    rw [transferEvs] at h2
    obtain ⟨_, H3, h3, h4⟩ := bind_ok h2
    have hp : ∀ (ks : List Key) (G G' : Heap F Q), Key.tup l ∈ ks → (G (φ f)).parent = none → transferLoop f (φ f) ks G ≠ .ok () G' := by
      intro ks
      induction ks with
      | nil => intro G G' h; simp at h
      | cons a ks ih =>
        intro G G' hmem hpar h
        rw [transferLoop] at h
        obtain ⟨_, G1, h5, h6⟩ := bind_ok h
        have hobs : ∀ sc, observable G (φ f) sc = .ok true := by intro sc; rw [observable, hpar]
        rcases List.mem_cons.1 hmem with rfl | hmem
        · rw [transferOne, if_neg (by simp), hobs] at h5
          simp only at h5
          split at h5
          · simp at h5
          · simp [setEv, hobs, singleKey] at h5
        · refine ih G1 G' hmem ?_ h6
          rw [transferOne] at h5
          split at h5
          · simp only [Out.ok.injEq, true_and] at h5; rw [← h5]; exact hpar
          · rw [hobs] at h5
            simp only at h5
            split at h5
            · simp at h5
            · rw [setEv, hobs] at h5
              simp only at h5
              split at h5
              · simp at h5
              · simp only [Out.ok.injEq, true_and] at h5
                rw [← h5, putEv, put_self]; exact hpar
    have hf3 : H3 f = H f ∧ (H3 (φ f)).parent = none := by
      split at h3
      · simp only [Out.ok.injEq, true_and] at h3
        rw [← h3]; exact ⟨hf1, by rw [e1, put_self]⟩
      · rw [setObserved, observable, show (H1 (φ f)).parent = none by rw [e1, put_self]] at h3
        simp only [Out.ok.injEq, true_and] at h3
        rw [← h3, putEv, put_self, put_ne _ _ hne]
        exact ⟨hf1, by rw [e1, put_self]⟩
    exact hp _ H3 H2 (by rw [hf3.1]; exact hl) hf3.2 h4

/-- `exH` with a value of fragment 0 for the scenarios "a" and "b" together -/
example : Key.tup ["a", "b"] ∈ ((exH.put 0 { exH 0 with evs := (exH 0).evs.set (.tup ["a", "b"]) (some 3) }) 0).evs.keys := by decide +kernel

/-- a fragment 0 with child flows 1 and 2, whose terminations are to be chosen -/
def clH (t0 : Dict (Option Key) (Term ℕ)) (k1 k2 : Node ℕ ℕ) : Heap ℕ ℕ
  | 0 => { kids := [1, 2], flow := 1, dir := .input, evs := [(.cached, some 1), (.observed, some 0)], terms := t0 }
  | 1 => { k1 with parent := some 0 }
  | 2 => { k2 with parent := some 0 }
  | 5 => { kids := [6], flow := 1, dir := .input, evs := [(.cached, some 1), (.observed, some 0)], terms := [(none, { target := .frag 5, flow := 1 })] }
  | 6 => { parent := some 5, flow := 6, dir := .input, evs := [(.cached, some 7), (.observed, some 0)], terms := [(none, nullT 6)] }
  | _ => { flow := 0, dir := .input, evs := [], terms := [] }

/-- a child flow with an amount -/
def clKid (flow : ℕ) (v : ℚ) (t : Dict (Option Key) (Term ℕ)) : Node ℕ ℕ :=
  { flow := flow, dir := .input, evs := [(.cached, some v), (.observed, some 0)], terms := t }

/-- what the traversals give, as flows and node weights -/
def amounts (r : Except Err (List (FF ℕ))) : Except Err (List (ℕ × ℚ × ℚ)) := r.map (List.map fun f => (f.flow, f.mag, f.nw))

/-- the traversal of fragment 0 of H, and of its clone -/
def both (H : Heap ℕ ℕ) (φ : ℕ → ℕ) (sc : Scen) : Except Err (List (ℕ × ℚ × ℚ)) × Except Err (List (ℕ × ℚ × ℚ)) × Bool :=
  (amounts (traverse exE H sc false 9 0), amounts (traverse exE (clone exE φ 9 none 0 H).state sc false 9 (φ 0)), isOk (clone exE φ 9 none 0 H))

/-- **C127 fails**: a termination that was cleared in a scenario is not cleared in the clone: there the default termination is used -/
theorem clone_cleared : both (clH [(none, { target := .frag 0, flow := 1 }), (some (.str "a"), nullT 1)] (clKid 2 3 [(none, nullT 2)]) (clKid 3 4 [(none, nullT 3)]))
    (· + 20) (.one (.str "a")) = (.ok [(1, 1, 1)], .ok [(1, 1, 1), (2, 3, 3), (3, 4, 4)], true) := by decide +kernel

/-- **C127 fails**: a foreground emission (a flow terminated to another flow) is terminated to its own flow in the clone: child 1, of flow 4, is
terminated to flow 12, with 3 units of that for one of its own; the clone is not converted -/
theorem clone_emission : both (clH [(none, { target := .frag 0, flow := 1 })] (clKid 4 2 [(none, { target := .frag 1, flow := 12 })]) (clKid 3 4 [(none, nullT 3)]))
    (· + 20) .none = (.ok [(1, 1, 1), (4, 2, 6), (3, 4, 4)], .ok [(1, 1, 1), (4, 2, 2), (3, 4, 4)], true) := by decide +kernel

/-- **C127 fails**: below a fragment terminated to a subfragment, the amounts of child flows are not copied; in a scenario in which the
fragment has another termination, where they count, the clone has 1 -/
theorem clone_scenario_amount : both (clH [(none, { target := .frag 5, flow := 1 }), (some (.str "a"), { target := .process, flow := 1 })]
      (clKid 6 3 [(none, nullT 6)]) (clKid 3 4 [(none, nullT 3)]))
    (· + 20) (.one (.str "a")) = (.ok [(1, 1, 1), (6, 3, 3), (3, 4, 4)], .ok [(1, 1, 1), (6, 1, 1), (3, 1, 1)], true) := by decide +kernel

/-- **C127 fails**: the uuids of a clone are new, so the child flows may come in another order, and that can matter: of two child flows for the same
flow of a subfragment, the first one gets all of it -/
theorem clone_order : both (clH [(none, { target := .frag 5, flow := 1 })] (clKid 6 1 [(none, { target := .process, flow := 6 })]) (clKid 6 1 [(none, nullT 6)]))
    (fun x => 40 - x) .none = (.ok [(1, 1, 1), (1, 1, 1), (6, 7, 7)], .ok [(1, 1, 1), (1, 1, 1), (6, 7, 7)], true) ∧
    (((traverse exE (clH [(none, { target := .frag 5, flow := 1 })] (clKid 6 1 [(none, { target := .process, flow := 6 })]) (clKid 6 1 [(none, nullT 6)])) .none false 9 0).map
      (List.map fun f => f.term.isNull)) = .ok [false, false, false]) ∧
    (((traverse exE (clone exE (fun x => 40 - x) 9 none 0
        (clH [(none, { target := .frag 5, flow := 1 })] (clKid 6 1 [(none, { target := .process, flow := 6 })]) (clKid 6 1 [(none, nullT 6)]))).state .none false 9 40).map
      (List.map fun f => f.term.isNull)) = .ok [false, false, true]) := by decide +kernel

/-! ### names, comments and origins -/

mutual
/-- the fragment and all below it have the origin o -/
def Meta.allOrigin (o : Option String) : Meta → Prop
  | .node _ _ o' ks => o' = o ∧ Meta.allOriginL o ks
def Meta.allOriginL (o : Option String) : List Meta → Prop
  | [] => True
  | k :: ks => Meta.allOrigin o k ∧ Meta.allOriginL o ks
end

mutual
theorem meta_same (o : Option String) : ∀ m : Meta, Meta.allOrigin o m → m.clone "" none none (some o) = .ok m
  | .node n c o' ks, h => by
    obtain ⟨rfl, h⟩ := h
    have := meta_sameL o' ks h
    simp only [Meta.clone, joinOrigin, Option.none_or, if_true, this, String.append_empty]
theorem meta_sameL (o : Option String) : ∀ l : List Meta, Meta.allOriginL o l → Meta.cloneKids (some o) l = .ok l
  | [], _ => rfl
  | k :: ks, h => by simp only [Meta.cloneKids, meta_same o k h.1, meta_sameL o ks h.2]
end

/-- **C127** without an origin, a tree of one origin is copied there; the suffix and the comment apply to the top only, and everything below keeps its
name and comment -/
theorem meta_clone (suffix : String) (comment : Option String) (m : Meta) (h : m.allOrigin m.origin) :
    m.clone suffix comment none none = .ok (.node (m.name ++ suffix)
      (match comment with | some "" => m.comment | some x => x | none => m.comment) m.origin m.kids) := by
  obtain ⟨n, c, o, ks⟩ := m
  simp only [Meta.clone, joinOrigin, Option.none_or, Meta.name, Meta.comment, Meta.origin, Meta.kids]
  simp only [Meta.allOrigin, Meta.origin] at h
  rw [meta_sameL o ks h.2]
  rfl

/-- **C127 fails**: a fragment with child flows cannot be cloned to another origin -/
theorem meta_other_origin (suffix : String) (comment : Option String) (o : String) (m k : Meta) (ks : List Meta) (hk : m.kids = k :: ks) (o' : String)
    (ho : k.origin = some o') (hne : o' ≠ o) : m.clone suffix comment (some o) none = .error .attributeError := by
  obtain ⟨n, c, o1, ks'⟩ := m
  obtain ⟨n', c', o2, ks2⟩ := k
  simp only [Meta.kids] at hk
  simp only [Meta.origin] at ho
  subst hk ho
  simp only [Meta.clone, joinOrigin, Option.some_or, Meta.cloneKids, Option.none_or, Option.some.injEq, hne, if_false, reduceCtorEq]

/-- a tree of one origin with two levels -/
def exMeta : Meta := .node "top" "c" (some "fg") [.node "kid" "k" (some "fg") [.node "grandkid" "g" (some "fg") []]]

example : exMeta.allOrigin exMeta.origin ∧ exMeta.kids ≠ [] := by simp [exMeta, Meta.allOrigin, Meta.allOriginL, Meta.origin, Meta.kids]

end Frg
