import Verif.Model.FragNode
import Mathlib.Logic.Relation
import Mathlib.Tactic.Tauto

/-!
C175: a fragment made from a process has the process's exchanges as its child flows, each terminated as it should be.
-/

set_option linter.unusedSectionVars false

namespace Fno
open Frg (Dir)
open Relation (ReflTransGen)

variable {O R F : Type} [DecidableEq O] [DecidableEq R] [DecidableEq F]

/-! ### specification -/

/-- process `p` has an exchange with process `t` that is not in the background -/
def Dep (w : World R F) (p t : R) : Prop :=
  ∃ rf l x, w.inv p rf = some l ∧ x ∈ l ∧ x.elem = false ∧ x.term = some t ∧ w.inBg t x.flow = some false

/-- the reference exchange of a process an exchange is terminated to is the exchange seen from the other side -/
def Matched (w : World R F) : Prop :=
  ∀ p rf l x t f d, w.inv p rf = some l → x ∈ l → x.elem = false → x.term = some t → w.ref t (some x.flow) = some (f, d) → f = x.flow ∧ d = x.dir.comp

/-- the fragment answers the exchange, which has the termination `t` -/
def Answers (g : Frag O R F) (x : X R F) (t : R) : Prop := g.flow = x.flow ∧ g.tdir = x.dir.comp ∧ ∃ o, g.term = some (o, t)

/-- the child flow is right for the exchange `x` of the process `p`: an exchange with a process in the background leads to a background fragment of it, any other
to a foreground fragment of it -/
structure KidOf (w : World R F) (o : O) (fs : List (Frag O R F)) (p : R) (x : X R F) (k : Kid F) : Prop where
  flow : k.flow = x.flow
  dir : k.dir = x.dir
  value : k.value = x.value.getD 1
  emission : x.elem = true → k.term = .emission
  cutoff : x.elem = false → x.term = none → k.term = .cutoff
  back : x.elem = false → ∀ t, x.term = some t → w.inBg t x.flow = some true → ∃ i g, k.term = .frag i ∧ fs[i]? = some g ∧ Answers g x t ∧ g.bg = true
  /-- exceptions: loops, and processes that have been made for another reference flow -/
  fore : x.elem = false → ∀ t, x.term = some t → w.inBg t x.flow = some false → ∃ i g, k.term = .frag i ∧ fs[i]? = some g ∧ Answers g x t ∧
    (g.bg = false ∨ ReflTransGen (Dep w) t p ∨ ∃ g' ∈ fs, g'.term = some (o, t) ∧ g'.bg = false ∧ (∃ rf, w.ref t rf = some (g'.flow, g'.tdir)) ∧ (g'.flow ≠ x.flow ∨ g'.tdir ≠ x.dir.comp))
  known : x.elem = false → ∀ t, x.term = some t → ∃ b, w.inBg t x.flow = some b

/-- the fragment at the place `j` is made from the process -/
structure Made (w : World R F) (o : O) (el : Bool) (fs : List (Frag O R F)) (j : ℕ) (p : R) (rf : Option F) (f : Frag O R F) : Prop where
  term : f.term = some (o, p)
  fg : f.bg = false
  ref : w.ref p rf = some (f.flow, f.tdir)
  kids : ∃ l, w.inv p rf = some l ∧ List.Forall₂ (KidOf w o fs p) ((if el then l.filter (fun x => x.elem) else []) ++ l.filter (fun x => !x.elem)) f.kids
  earlier : ∀ k ∈ f.kids, ∀ i, k.term = .frag i → i < j

/-- a fragment added: a background fragment of a process, or made from a process -/
def NewOk (w : World R F) (o : O) (el : Bool) (fs : List (Frag O R F)) (j : ℕ) (f : Frag O R F) : Prop :=
  (f.bg = true ∧ f.kids = [] ∧ ∃ r, f.term = some (o, r)) ∨ ∃ p rf, Made w o el fs j p rf f

/-- the processes of the foreground fragments -/
def nodes (fs : List (Frag O R F)) : List R := fs.filterMap fun f => if f.bg then none else f.term.map Prod.snd

/-! ### proof -/

/-- a foreground fragment has been made for the process -/
def Done (w : World R F) (o : O) (fs : List (Frag O R F)) (s : R) : Prop := ∃ g ∈ fs, g.term = some (o, s) ∧ g.bg = false ∧ ∃ rf, w.ref s rf = some (g.flow, g.tdir)

structure Ext (w : World R F) (o : O) (el : Bool) (st st' : St O R F) : Prop where
  new : ∃ new, st'.frags = st.frags ++ new ∧ (∀ j f, new[j]? = some f → NewOk w o el st'.frags (st.frags.length + j) f) ∧ (nodes new).Nodup ∧
    ∀ r ∈ nodes new, r ∈ st'.seen ∧ r ∉ st.seen
  seen : ∀ s ∈ st.seen, s ∈ st'.seen

theorem getElem?_mono {fs gs : List (Frag O R F)} {i : ℕ} {g : Frag O R F} (h : fs[i]? = some g) : (fs ++ gs)[i]? = some g := by
  rw [List.getElem?_append_left (List.getElem?_eq_some_iff.mp h).1]
  exact h

theorem KidOf.mono {w : World R F} {o : O} {fs gs : List (Frag O R F)} {p : R} {x : X R F} {k : Kid F} (h : KidOf w o fs p x k) : KidOf w o (fs ++ gs) p x k where
  flow := h.flow
  dir := h.dir
  value := h.value
  emission := h.emission
  cutoff := h.cutoff
  known := h.known
  back := by
    intro h1 t h2 h3
    obtain ⟨i, g, a, b, c⟩ := h.back h1 t h2 h3
    exact ⟨i, g, a, getElem?_mono b, c⟩
  fore := by
    intro h1 t h2 h3
    obtain ⟨i, g, a, b, c, d⟩ := h.fore h1 t h2 h3
    refine ⟨i, g, a, getElem?_mono b, c, ?_⟩
    rcases d with d | d | ⟨g', hg, d⟩
    · exact .inl d
    · exact .inr (.inl d)
    · exact .inr (.inr ⟨g', List.mem_append_left _ hg, d⟩)

theorem Made.mono {w : World R F} {o : O} {el : Bool} {fs gs : List (Frag O R F)} {j : ℕ} {p : R} {rf : Option F} {f : Frag O R F}
    (h : Made w o el fs j p rf f) : Made w o el (fs ++ gs) j p rf f := by
  obtain ⟨a, b, c, ⟨l, h1, h2⟩, e⟩ := h
  exact ⟨a, b, c, ⟨l, h1, h2.imp fun _ _ => KidOf.mono⟩, e⟩

theorem NewOk.mono {w : World R F} {o : O} {el : Bool} {fs gs : List (Frag O R F)} {j : ℕ} {f : Frag O R F} (h : NewOk w o el fs j f) : NewOk w o el (fs ++ gs) j f := by
  rcases h with h | ⟨p, rf, h⟩
  · exact .inl h
  · exact .inr ⟨p, rf, h.mono⟩

theorem Done.mono {w : World R F} {o : O} {fs gs : List (Frag O R F)} {s : R} (h : Done w o fs s) : Done w o (fs ++ gs) s := by
  obtain ⟨g, h1, h2⟩ := h
  exact ⟨g, List.mem_append_left _ h1, h2⟩

theorem Ext.refl {w : World R F} {o : O} {el : Bool} (st : St O R F) : Ext w o el st st :=
  ⟨⟨[], by simp, by simp, by simp [nodes], by simp [nodes]⟩, fun _ h => h⟩

theorem nodes_append (fs gs : List (Frag O R F)) : nodes (fs ++ gs) = nodes fs ++ nodes gs := by simp [nodes]

theorem Ext.trans {w : World R F} {o : O} {el : Bool} {a b c : St O R F} (h1 : Ext w o el a b) (h2 : Ext w o el b c) : Ext w o el a c := by
  obtain ⟨⟨n1, e1, k1, d1, s1⟩, m1⟩ := h1
  obtain ⟨⟨n2, e2, k2, d2, s2⟩, m2⟩ := h2
  refine ⟨⟨n1 ++ n2, by rw [e2, e1, List.append_assoc], ?_, ?_, ?_⟩, fun s hs => m2 s (m1 s hs)⟩
  · intro j f hf
    by_cases hj : j < n1.length
    · rw [List.getElem?_append_left hj] at hf
      rw [e2]
      exact (k1 j f hf).mono
    · push Not at hj
      rw [List.getElem?_append_right hj] at hf
      have := k2 _ f hf
      rw [e1, List.length_append] at this
      have e : a.frags.length + n1.length + (j - n1.length) = a.frags.length + j := by omega
      rwa [e] at this
  · rw [nodes_append, List.nodup_append]
    refine ⟨d1, d2, ?_⟩
    rintro r hr s hs rfl
    exact (s2 r hs).2 (s1 r hr).1
  · intro r hr
    rw [nodes_append] at hr
    rcases List.mem_append.mp hr with hr | hr
    · exact ⟨m2 _ (s1 r hr).1, (s1 r hr).2⟩
    · exact ⟨(s2 r hr).1, fun h => (s2 r hr).2 (m1 _ h)⟩

theorem Ext.done {w : World R F} {o : O} {el : Bool} {a b : St O R F} (h : Ext w o el a b) {s : R} (hd : Done w o a.frags s) : Done w o b.frags s := by
  obtain ⟨n, e, -⟩ := h.new
  rw [e]; exact hd.mono

theorem terminates_iff {f : Frag O R F} {x : X R F} {t : R} : terminates f x t = true ↔ Answers f x t := by
  unfold terminates Answers
  cases hf : f.term with
  | none => simp
  | some p =>
    obtain ⟨o, r⟩ := p
    simp only [Bool.and_eq_true, decide_eq_true_eq, Option.some.injEq, Prod.mk.injEq, exists_eq_left', and_assoc]
    constructor
    · rintro ⟨a, b, c⟩; exact ⟨a, b, c.symm⟩
    · rintro ⟨a, b, c⟩; exact ⟨a, b, c.symm⟩

theorem find_some {fs : List (Frag O R F)} {bg : Bool} {x : X R F} {t : R} {i : ℕ} (h : find fs bg x t = some i) : ∃ g, fs[i]? = some g ∧ Answers g x t ∧ g.bg = bg := by
  unfold find at h
  rw [List.findIdx?_eq_some_iff_getElem] at h
  obtain ⟨hi, h1, -⟩ := h
  simp only [Bool.and_eq_true, decide_eq_true_eq] at h1
  exact ⟨fs[i], List.getElem?_eq_getElem hi, terminates_iff.mp h1.2, h1.1⟩

theorem find_none {fs : List (Frag O R F)} {bg : Bool} {x : X R F} {t : R} (h : find fs bg x t = none) : ∀ g ∈ fs, g.bg = bg → ¬ Answers g x t := by
  intro g hg hb ha
  unfold find at h
  rw [List.findIdx?_eq_none_iff] at h
  have := h g hg
  simp [hb, terminates_iff.mpr ha] at this

theorem findOrCreate_spec {w : World R F} {o : O} {el : Bool} {x : X R F} {t : R} {st : St O R F} :
    Ext w o el st (findOrCreate o x t st).2 ∧ (findOrCreate o x t st).2.seen = st.seen ∧
      ∃ g, (findOrCreate o x t st).2.frags[(findOrCreate o x t st).1]? = some g ∧ Answers g x t ∧ g.bg = true := by
  unfold findOrCreate
  cases hf : find st.frags true x t with
  | some i => exact ⟨.refl _, rfl, find_some hf⟩
  | none =>
    refine ⟨⟨⟨[⟨some (o, t), x.flow, x.dir.comp, true, []⟩], rfl, ?_, by simp [nodes], by simp [nodes]⟩, fun _ h => h⟩, rfl, ⟨some (o, t), x.flow, x.dir.comp, true, []⟩, by simp,
      ⟨rfl, rfl, o, rfl⟩, rfl⟩
    intro j f hj
    cases j with
    | zero => cases hj; exact .inl ⟨rfl, rfl, t, rfl⟩
    | succ j => simp at hj

def Pre (w : World R F) (o : O) (st : St O R F) (p : R) : Prop := ∀ s ∈ st.seen, ReflTransGen (Dep w) s p ∨ Done w o st.frags s

/-- what making a fragment does -/
structure Spec (w : World R F) (o : O) (el : Bool) (p : R) (rf : Option F) (st : St O R F) (r : Out (St O R F) Err ℕ) : Prop where
  ext : Ext w o el st r.state
  ok : ∀ i st', r = .ok i st' → (∀ s ∈ st'.seen, s ∈ st.seen ∨ Done w o st'.frags s) ∧ i + 1 = st'.frags.length ∧ ∃ f, st'.frags[i]? = some f ∧ Made w o el st'.frags i p rf f
  loopErr : ∀ st', r = .err .recursion st' → st' = st ∧ p ∈ st.seen

theorem loop_spec {w : World R F} (hw : Matched w) {o : O} {el : Bool} {rec : R → Option F → St O R F → Out (St O R F) Err ℕ}
    (hrec : ∀ t rf st, Pre w o st t → Spec w o el t rf st (rec t rf st)) {p : R} {rf : Option F} {l : List (X R F)} (hl : w.inv p rf = some l)
    (xs : List (X R F)) (hx : ∀ x ∈ xs, x ∈ l ∧ x.elem = false) (st : St O R F) (hp : Pre w o st p) :
    Ext w o el st (loop w o rec xs st).state ∧ (∀ st', loop w o rec xs st ≠ .err .recursion st') ∧
      ∀ ks st', loop w o rec xs st = .ok ks st' → (∀ s ∈ st'.seen, s ∈ st.seen ∨ Done w o st'.frags s) ∧ List.Forall₂ (KidOf w o st'.frags p) xs ks ∧
        ∀ k ∈ ks, ∀ i, k.term = .frag i → i < st'.frags.length := by
  induction xs generalizing st with
  | nil =>
    refine ⟨.refl _, by simp [loop], ?_⟩
    intro ks st' h
    unfold loop at h
    cases h
    exact ⟨fun s hs => .inl hs, .nil, by simp⟩
  | cons x xs ih =>
    obtain ⟨hxl, hxe⟩ := hx x (by simp)
    -- the step
    have fin : ∀ (tm : Tm) (st1 : St O R F), Ext w o el st st1 → (∀ s ∈ st1.seen, s ∈ st.seen ∨ Done w o st1.frags s) →
        (∀ fs, KidOf w o (st1.frags ++ fs) p x ⟨x.flow, x.dir, x.value.getD 1, tm⟩) → (∀ i, tm = .frag i → i < st1.frags.length) →
        (r : Out (St O R F) Err (List (Kid F))) → r = (match loop w o rec xs st1 with
          | .err e st => .err e st
          | .ok ks st => .ok (⟨x.flow, x.dir, x.value.getD 1, tm⟩ :: ks) st) →
        Ext w o el st r.state ∧ (∀ st', r ≠ .err .recursion st') ∧
        ∀ ks st', r = .ok ks st' → (∀ s ∈ st'.seen, s ∈ st.seen ∨ Done w o st'.frags s) ∧ List.Forall₂ (KidOf w o st'.frags p) (x :: xs) ks ∧
          ∀ k ∈ ks, ∀ i, k.term = .frag i → i < st'.frags.length := by
      intro tm st1 h1 h2 h3 h4 r hr
      have hp1 : Pre w o st1 p := by
        intro s hs
        rcases h2 s hs with hs | hs
        · rcases hp s hs with h | h
          · exact .inl h
          · exact .inr (h1.done h)
        · exact .inr hs
      obtain ⟨i1, i2, i3⟩ := ih (fun y hy => hx y (List.mem_cons_of_mem _ hy)) st1 hp1
      cases hlp : loop w o rec xs st1 with
      | err e st2 =>
        rw [hlp] at hr i1 i2
        subst hr
        exact ⟨h1.trans i1, fun st' h => i2 st' (by cases h; rfl), by intro ks st' h; cases h⟩
      | ok ks st2 =>
        rw [hlp] at hr i1
        subst hr
        obtain ⟨j1, j2, j3⟩ := i3 ks st2 hlp
        refine ⟨h1.trans i1, (by intro st' h; cases h), ?_⟩
        intro ks' st' h
        cases h
        obtain ⟨n, e, -⟩ := i1.new
        simp only [Out.state] at e
        refine ⟨?_, .cons (by rw [e]; exact h3 n) j2, ?_⟩
        · intro s hs
          rcases j1 s hs with hs | hs
          · rcases h2 s hs with hs | hs
            · exact .inl hs
            · exact .inr (i1.done hs)
          · exact .inr hs
        · intro k hk i hki
          rcases List.mem_cons.mp hk with rfl | hk
          · have := h4 i hki
            rw [e, List.length_append]; omega
          · exact j3 k hk i hki
    have bad : ∀ (e : Err) (st1 : St O R F), e ≠ .recursion → Ext w o el st st1 → (r : Out (St O R F) Err (List (Kid F))) → r = .err e st1 →
        Ext w o el st r.state ∧ (∀ st', r ≠ .err .recursion st') ∧
        ∀ ks st', r = .ok ks st' → (∀ s ∈ st'.seen, s ∈ st.seen ∨ Done w o st'.frags s) ∧ List.Forall₂ (KidOf w o st'.frags p) (x :: xs) ks ∧
          ∀ k ∈ ks, ∀ i, k.term = .frag i → i < st'.frags.length := by
      rintro e st1 h1 h2 r rfl
      exact ⟨h2, fun st' h => by cases h; exact h1 rfl, fun ks st' h => by cases h⟩
    have lt : ∀ {fs : List (Frag O R F)} {i : ℕ} {g : Frag O R F}, fs[i]? = some g → i < fs.length := fun h => (List.getElem?_eq_some_iff.mp h).1
    unfold loop
    cases ht : x.term with
    | none =>
      refine fin .cutoff st (.refl _) (fun s hs => .inl hs) ?_ (by simp) _ rfl
      intro fs
      exact ⟨rfl, rfl, rfl, by simp [hxe], by simp, by simp [ht], by simp [ht], by simp [ht]⟩
    | some t =>
      simp only
      cases hb : w.inBg t x.flow with
      | none => exact bad .data st (by decide) (.refl _) _ rfl
      | some b =>
        cases b with
        | true =>
          simp only
          obtain ⟨f1, f2, g, f3, f4, f5⟩ := findOrCreate_spec (w := w) (o := o) (el := el) (x := x) (t := t) (st := st)
          refine fin _ _ f1 (by rw [f2]; exact fun s hs => .inl hs) ?_ (by rintro i ⟨⟩; exact lt f3) _ rfl
          intro fs
          refine ⟨rfl, rfl, rfl, by simp [hxe], by simp [ht], ?_, ?_, ?_⟩
          · intro _ t' ht' _
            rw [ht] at ht'; cases ht'
            exact ⟨_, g, rfl, getElem?_mono f3, f4, f5⟩
          · intro _ t' ht' h
            rw [ht] at ht'; cases ht'
            rw [hb] at h; cases h
          · intro _ t' ht'
            rw [ht] at ht'; cases ht'
            exact ⟨_, hb⟩
        | false =>
          simp only
          have known : x.elem = false → ∀ t, x.term = some t → ∃ b, w.inBg t x.flow = some b := by
            intro _ t' ht'
            rw [ht] at ht'; cases ht'
            exact ⟨_, hb⟩
          have noback : x.elem = false → ∀ t, x.term = some t → w.inBg t x.flow = some true → ∀ {A : Prop}, A := by
            intro _ t' ht' h
            rw [ht] at ht'; cases ht'
            rw [hb] at h; cases h
          cases hf : find st.frags false x t with
          | some i =>
            obtain ⟨g, g1, g2, g3⟩ := find_some hf
            refine fin (.frag i) st (.refl _) (fun s hs => .inl hs) ?_ (by rintro i ⟨⟩; exact lt g1) _ rfl
            intro fs
            refine ⟨rfl, rfl, rfl, by simp [hxe], by simp [ht], fun a t b c => noback a t b c, ?_, known⟩
            intro _ t' ht' h
            rw [ht] at ht'; cases ht'
            exact ⟨i, g, rfl, getElem?_mono g1, g2, .inl g3⟩
          | none =>
            simp only
            have hdep : Dep w p t := ⟨rf, l, x, hl, hxl, hxe, ht, hb⟩
            have hpt : Pre w o st t := by
              intro s hs
              rcases hp s hs with h | h
              · exact .inl (h.tail hdep)
              · exact .inr h
            obtain ⟨s1, s2, s3⟩ := hrec t (some x.flow) st hpt
            cases hr : rec t (some x.flow) st with
            | ok i st1 =>
              rw [hr] at s1
              obtain ⟨s4, s5, f, s6, s7⟩ := s2 i st1 hr
              refine fin (.frag i) st1 s1 s4 ?_ (by rintro i ⟨⟩; exact lt s6) _ rfl
              intro fs
              refine ⟨rfl, rfl, rfl, by simp [hxe], by simp [ht], fun a t b c => noback a t b c, ?_, known⟩
              intro _ t' ht' h
              rw [ht] at ht'; cases ht'
              obtain ⟨m1, m2⟩ := hw p rf l x t f.flow f.tdir hl hxl hxe ht s7.ref
              exact ⟨i, f, rfl, getElem?_mono s6, ⟨m1, m2, o, s7.term⟩, .inl s7.fg⟩
            | err e st1 =>
              rw [hr] at s1
              by_cases he : e = .recursion
              · subst he
                obtain ⟨rfl, hseen⟩ := s3 st1 hr
                simp only
                obtain ⟨f1, f2, g, f3, f4, f5⟩ := findOrCreate_spec (w := w) (o := o) (el := el) (x := x) (t := t) (st := st1)
                refine fin _ _ f1 (by rw [f2]; exact fun s hs => .inl hs) ?_ (by rintro i ⟨⟩; exact lt f3) _ rfl
                intro fs
                refine ⟨rfl, rfl, rfl, by simp [hxe], by simp [ht], fun a t b c => noback a t b c, ?_, known⟩
                intro _ t' ht' h
                rw [ht] at ht'; cases ht'
                refine ⟨_, g, rfl, getElem?_mono f3, f4, ?_⟩
                rcases hp t hseen with h | ⟨g', g1, g2, g3, g4⟩
                · exact .inr (.inl h)
                · refine .inr (.inr ⟨g', ?_, g2, g3, g4, ?_⟩)
                  · obtain ⟨n, e, -⟩ := f1.new
                    rw [e]
                    exact List.mem_append_left _ (List.mem_append_left _ g1)
                  · by_contra hh
                    push Not at hh
                    exact find_none hf g' g1 g3 ⟨hh.1, hh.2, o, g2⟩
              · cases e with
                | recursion => exact absurd rfl he
                | data => exact bad .data st1 he s1 _ rfl
                | fuel => exact bad .fuel st1 he s1 _ rfl

theorem make_spec {w : World R F} (hw : Matched w) {o : O} {el : Bool} (n : ℕ) (p : R) (rf : Option F) (st : St O R F) (hp : Pre w o st p) :
    Spec w o el p rf st (make w o el n p rf st) := by
  induction n generalizing p rf st with
  | zero => exact ⟨.refl _, (by intro i st' h; cases h), by intro st' h; cases h⟩
  | succ n ih =>
    unfold make
    by_cases hs : p ∈ st.seen
    · rw [if_pos hs]
      exact ⟨.refl _, (by intro i st' h; cases h), by intro st' h; cases h; exact ⟨rfl, hs⟩⟩
    · rw [if_neg hs]
      simp only
      have e1 : Ext w o el st { st with seen := p :: st.seen } :=
        ⟨⟨[], by simp, by simp, by simp [nodes], by simp [nodes]⟩, fun s h => List.mem_cons_of_mem _ h⟩
      cases hl : w.inv p rf with
      | none => exact ⟨e1, (by intro i st' h; cases h), by intro st' h; cases h⟩
      | some l =>
        cases hr : w.ref p rf with
        | none => exact ⟨e1, (by intro i st' h; cases h), by intro st' h; cases h⟩
        | some fd =>
          obtain ⟨f, d⟩ := fd
          simp only
          have hp1 : Pre w o { st with seen := p :: st.seen } p := by
            intro s hs
            rcases List.mem_cons.mp hs with rfl | hs
            · exact .inl .refl
            · exact hp s hs
          obtain ⟨i1, i2, i3⟩ := loop_spec hw (el := el) (rec := make w o el n) (fun t rf st => ih t rf st) hl (l.filter fun x => !x.elem)
            (by intro x hx; have := List.mem_filter.mp hx; exact ⟨this.1, by simpa using this.2⟩) _ hp1
          cases hlp : loop w o (make w o el n) (l.filter fun x => !x.elem) { st with seen := p :: st.seen } with
          | err e st2 =>
            rw [hlp] at i1 i2
            exact ⟨e1.trans i1, (by intro i st' h; cases h), by intro st' h; cases h; exact absurd rfl (i2 st2)⟩
          | ok ks st2 =>
            rw [hlp] at i1
            obtain ⟨j1, j2, j3⟩ := i3 ks st2 hlp
            simp only [Out.state] at i1
            have hm : Made w o el (st2.frags ++ [⟨some (o, p), f, d, false, (if el then emissions l else []) ++ ks⟩]) st2.frags.length p rf
                ⟨some (o, p), f, d, false, (if el then emissions l else []) ++ ks⟩ := by
              refine ⟨rfl, rfl, hr, ⟨l, hl, ?_⟩, ?_⟩
              · refine List.rel_append ?_ (j2.imp fun _ _ => KidOf.mono)
                cases el with
                | false => exact .nil
                | true =>
                  simp only [if_true, emissions]
                  rw [List.forall₂_map_right_iff, List.forall₂_same]
                  intro x hx
                  have hxe : x.elem = true := (List.mem_filter.mp hx).2
                  exact ⟨rfl, rfl, rfl, fun _ => rfl, by simp [hxe], by simp [hxe], by simp [hxe], by simp [hxe]⟩
              · intro k hk i hki
                rcases List.mem_append.mp hk with hk | hk
                · cases el with
                  | false => cases hk
                  | true =>
                    simp only [if_true, emissions, List.mem_map] at hk
                    obtain ⟨x, -, rfl⟩ := hk
                    cases hki
                · exact j3 k hk i hki
            refine ⟨?_, ?_, by intro st' h; cases h⟩
            · obtain ⟨⟨n1, q1, q2, q3, q4⟩, m1⟩ := i1
              refine ⟨⟨n1 ++ [⟨some (o, p), f, d, false, (if el then emissions l else []) ++ ks⟩], ?_, ?_, ?_, ?_⟩, fun s hs => m1 s (List.mem_cons_of_mem _ hs)⟩
              · simp only [Out.state, q1, List.append_assoc]
              · intro j g hg
                simp only [Out.state]
                by_cases hj : j < n1.length
                · rw [List.getElem?_append_left hj] at hg
                  exact (q2 j g hg).mono
                · push Not at hj
                  rw [List.getElem?_append_right hj] at hg
                  have hj0 : j = n1.length := by
                    by_contra hne
                    rw [List.getElem?_eq_none (by simp; omega)] at hg
                    cases hg
                  subst hj0
                  simp only [Nat.sub_self, List.getElem?_cons_zero, Option.some.injEq] at hg
                  subst hg
                  have : st2.frags.length = st.frags.length + n1.length := by rw [q1, List.length_append]
                  rw [← this]
                  exact .inr ⟨p, rf, hm⟩
              · rw [nodes_append, List.nodup_append]
                refine ⟨q3, by simp [nodes], ?_⟩
                rintro r hrn s hsn rfl
                have : r = p := by simpa [nodes] using hsn
                subst this
                exact (q4 r hrn).2 List.mem_cons_self
              · intro r hrn
                rw [nodes_append] at hrn
                rcases List.mem_append.mp hrn with hrn | hrn
                · exact ⟨(q4 r hrn).1, fun h => (q4 r hrn).2 (List.mem_cons_of_mem _ h)⟩
                · have : r = p := by simpa [nodes] using hrn
                  subst this
                  exact ⟨m1 _ List.mem_cons_self, hs⟩
            · intro i st' h
              simp only [Out.ok.injEq] at h
              obtain ⟨rfl, rfl⟩ := h
              refine ⟨?_, by simp, _, by simp, hm⟩
              intro s hs
              rcases j1 s hs with hs | hs
              · rcases List.mem_cons.mp hs with rfl | hs
                · exact .inr ⟨⟨some (o, s), f, d, false, (if el then emissions l else []) ++ ks⟩, by simp, rfl, rfl, rf, hr⟩
                · exact .inl hs
              · exact .inr hs.mono

/-! ### results -/

theorem pre_nil {w : World R F} {o : O} {fs : List (Frag O R F)} {p : R} : Pre w o (⟨fs, []⟩ : St O R F) p := by intro s hs; cases hs

/-- **C175** creating a fragment from a process leaves the fragments there are as they are and adds: the fragment returned, which is made from the process,
fragments made from processes it needs, one for each, and background fragments. Of each fragment made the child flows are the exchanges of the process, with their amounts and
terminations, which lead to fragments that are earlier in the list -/
theorem created {w : World R F} (hw : Matched w) {o : O} {el : Bool} {fuel : ℕ} {p : R} {rf : Option F} {fs fs' : List (Frag O R F)} {i : ℕ}
    (h : create w o el fuel p rf fs = .ok i fs') :
    ∃ new, fs' = fs ++ new ∧ i + 1 = fs'.length ∧ (∃ f, fs'[i]? = some f ∧ Made w o el fs' i p rf f) ∧
      (∀ j f, new[j]? = some f → NewOk w o el fs' (fs.length + j) f) ∧ (nodes new).Nodup := by
  have sp := make_spec hw (el := el) fuel p rf ⟨fs, []⟩ (pre_nil (o := o))
  unfold create at h
  cases hm : make w o el fuel p rf ⟨fs, []⟩ with
  | err e st => rw [hm] at h; cases h
  | ok j st =>
    rw [hm] at h sp
    cases h
    obtain ⟨new, e, h1, h2, -⟩ := sp.ext.new
    obtain ⟨-, h3, h4⟩ := sp.ok _ _ rfl
    exact ⟨new, e, h3, h4, h1, h2⟩

/-- **C175** also when it fails the fragments there were are left as they are, and what was added is complete -/
theorem failed_complete {w : World R F} (hw : Matched w) {o : O} {el : Bool} {fuel : ℕ} {p : R} {rf : Option F} {fs fs' : List (Frag O R F)} {e : Err}
    (h : create w o el fuel p rf fs = .err e fs') :
    ∃ new, fs' = fs ++ new ∧ (∀ j f, new[j]? = some f → NewOk w o el fs' (fs.length + j) f) ∧ (nodes new).Nodup := by
  have sp := make_spec hw (el := el) fuel p rf ⟨fs, []⟩ (pre_nil (o := o))
  unfold create at h
  cases hm : make w o el fuel p rf ⟨fs, []⟩ with
  | ok i st => rw [hm] at h; cases h
  | err e st =>
    rw [hm] at h sp
    cases h
    obtain ⟨new, e, h1, h2, -⟩ := sp.ext.new
    exact ⟨new, e, h1, h2⟩

/-- **C175** if processes have one reference flow each, an exchange with a process that is not in the background leads to a foreground fragment of it unless it closes a loop -/
theorem only_loops_cut {w : World R F} {o : O} {fs : List (Frag O R F)} {p : R} {x : X R F} {k : Kid F} (h : KidOf w o fs p x k) (he : x.elem = false) {t : R}
    (ht : x.term = some t) (hb : w.inBg t x.flow = some false) (hone : ∀ rf f d, w.ref t rf = some (f, d) → f = x.flow ∧ d = x.dir.comp) (hloop : ¬ ReflTransGen (Dep w) t p) :
    ∃ i g, k.term = .frag i ∧ fs[i]? = some g ∧ Answers g x t ∧ g.bg = false := by
  obtain ⟨i, g, h1, h2, h3, h4⟩ := h.fore he t ht hb
  refine ⟨i, g, h1, h2, h3, ?_⟩
  rcases h4 with h4 | h4 | ⟨g', -, -, -, ⟨rf, hr⟩, hne⟩
  · exact h4
  · exact absurd h4 hloop
  · obtain ⟨a, b⟩ := hone _ _ _ hr
    rcases hne with hne | hne
    · exact absurd a hne
    · exact absurd b hne

/-! ### it ends -/

/-- the number of processes of the list that have not been met -/
def unmet (ps seen : List R) : ℕ := (ps.filter fun r => decide (r ∉ seen)).length

theorem unmet_mono {ps s s' : List R} (h : ∀ r ∈ s, r ∈ s') : unmet ps s' ≤ unmet ps s := by
  unfold unmet
  apply List.Sublist.length_le
  apply List.monotone_filter_right
  intro r hr
  simp only [decide_eq_true_eq] at hr ⊢
  exact fun hm => hr (h r hm)

theorem unmet_lt {ps s : List R} {p : R} (hp : p ∈ ps) (hs : p ∉ s) : unmet ps (p :: s) < unmet ps s := by
  unfold unmet
  induction ps with
  | nil => cases hp
  | cons q ps ih =>
    have hle : (ps.filter fun r => decide (r ∉ p :: s)).length ≤ (ps.filter fun r => decide (r ∉ s)).length := unmet_mono (ps := ps) fun r hr => List.mem_cons_of_mem _ hr
    simp only [List.filter_cons]
    by_cases hq : q = p
    · subst hq
      simp only [List.mem_cons, true_or, not_true_eq_false, decide_false, Bool.false_eq_true, if_false, hs, not_false_eq_true, decide_true, if_true, List.length_cons]
      simp only [List.mem_cons] at hle
      exact Nat.lt_succ_of_le hle
    · have hp' : p ∈ ps := by
        rcases List.mem_cons.mp hp with h | h
        · exact absurd h.symm hq
        · exact h
      have hlt := ih hp'
      by_cases hqs : q ∈ s
      · simpa [hq, hqs] using hlt
      · simp only [List.mem_cons, hq, hqs, or_self, not_false_eq_true, decide_true, if_true, List.length_cons]
        simp only [List.mem_cons] at hlt
        exact Nat.succ_lt_succ hlt

theorem findOrCreate_seen {o : O} {x : X R F} {t : R} {st : St O R F} : (findOrCreate o x t st).2.seen = st.seen := by
  unfold findOrCreate; split <;> rfl

theorem loop_fuel {w : World R F} {o : O} {rec : R → Option F → St O R F → Out (St O R F) Err ℕ} {ps : List R} {m : ℕ}
    (hrec : ∀ t rf st, t ∈ ps → unmet ps st.seen ≤ m → (∀ st', rec t rf st ≠ .err .fuel st') ∧ ∀ s ∈ st.seen, s ∈ (rec t rf st).state.seen)
    (xs : List (X R F)) (hx : ∀ x ∈ xs, ∀ t, x.term = some t → w.inBg t x.flow = some false → t ∈ ps) (st : St O R F) (hm : unmet ps st.seen ≤ m) :
    (∀ st', loop w o rec xs st ≠ .err .fuel st') ∧ ∀ s ∈ st.seen, s ∈ (loop w o rec xs st).state.seen := by
  induction xs generalizing st with
  | nil => exact ⟨(by intro st' h; cases h), fun s hs => hs⟩
  | cons x xs ih =>
    have ih := ih (fun y hy => hx y (List.mem_cons_of_mem _ hy))
    have fin : ∀ (tm : Tm) (st1 : St O R F), (∀ s ∈ st.seen, s ∈ st1.seen) → (r : Out (St O R F) Err (List (Kid F))) → r = (match loop w o rec xs st1 with
          | .err e st => .err e st
          | .ok ks st => .ok (⟨x.flow, x.dir, x.value.getD 1, tm⟩ :: ks) st) → (∀ st', r ≠ .err .fuel st') ∧ ∀ s ∈ st.seen, s ∈ r.state.seen := by
      intro tm st1 h1 r hr
      obtain ⟨i1, i2⟩ := ih st1 (le_trans (unmet_mono h1) hm)
      cases hlp : loop w o rec xs st1 with
      | err e st2 =>
        rw [hlp] at hr i1 i2
        subst hr
        exact ⟨fun st' h => i1 st' (by cases h; rfl), fun s hs => i2 s (h1 s hs)⟩
      | ok ks st2 =>
        rw [hlp] at hr i2
        subst hr
        exact ⟨(by intro st' h; cases h), fun s hs => i2 s (h1 s hs)⟩
    unfold loop
    cases ht : x.term with
    | none => exact fin .cutoff st (fun s hs => hs) _ rfl
    | some t =>
      simp only
      cases hb : w.inBg t x.flow with
      | none => exact ⟨(by intro st' h; cases h), fun s hs => hs⟩
      | some b =>
        cases b with
        | true => exact fin _ _ (by rw [findOrCreate_seen]; exact fun s hs => hs) _ rfl
        | false =>
          simp only
          cases hf : find st.frags false x t with
          | some i => exact fin (.frag i) st (fun s hs => hs) _ rfl
          | none =>
            simp only
            obtain ⟨s1, s2⟩ := hrec t (some x.flow) st (hx x (by simp) t ht hb) hm
            cases hr : rec t (some x.flow) st with
            | ok i st1 => rw [hr] at s2; exact fin (.frag i) st1 s2 _ rfl
            | err e st1 =>
              rw [hr] at s1 s2
              cases e with
              | recursion => exact fin _ _ (by rw [findOrCreate_seen]; exact s2) _ rfl
              | data => exact ⟨(by intro st' h; cases h), s2⟩
              | fuel => exact absurd rfl (s1 st1)

theorem make_fuel {w : World R F} {o : O} {el : Bool} {ps : List R}
    (hc : ∀ p ∈ ps, ∀ rf l x t, w.inv p rf = some l → x ∈ l → x.term = some t → w.inBg t x.flow = some false → t ∈ ps)
    (n : ℕ) (p : R) (rf : Option F) (st : St O R F) (hp : p ∈ ps) (hn : unmet ps st.seen < n) :
    (∀ st', make w o el n p rf st ≠ .err .fuel st') ∧ ∀ s ∈ st.seen, s ∈ (make w o el n p rf st).state.seen := by
  induction n generalizing p rf st with
  | zero => omega
  | succ n ih =>
    unfold make
    by_cases hs : p ∈ st.seen
    · rw [if_pos hs]
      exact ⟨(by intro st' h; cases h), fun s hs => hs⟩
    · rw [if_neg hs]
      simp only
      have hlt := unmet_lt hp hs
      cases hl : w.inv p rf with
      | none => exact ⟨(by intro st' h; cases h), fun s hs => List.mem_cons_of_mem _ hs⟩
      | some l =>
        cases hr : w.ref p rf with
        | none => exact ⟨(by intro st' h; cases h), fun s hs => List.mem_cons_of_mem _ hs⟩
        | some fd =>
          obtain ⟨f, d⟩ := fd
          simp only
          obtain ⟨i1, i2⟩ := loop_fuel (w := w) (o := o) (rec := make w o el n) (ps := ps) (m := n - 1)
            (by
              intro t rf' st' ht hm
              by_cases h0 : n = 0
              · subst h0; exact absurd hn (by omega)
              · exact ih t rf' st' ht (by omega))
            (l.filter fun x => !x.elem) (by intro x hx t ht hb; exact hc p hp rf l x t hl (List.mem_filter.mp hx).1 ht hb) { st with seen := p :: st.seen } (by simp only; omega)
          cases hlp : loop w o (make w o el n) (l.filter fun x => !x.elem) { st with seen := p :: st.seen } with
          | err e st2 =>
            rw [hlp] at i1 i2
            exact ⟨fun st' h => i1 st' (by cases h; rfl), fun s hs => i2 s (List.mem_cons_of_mem _ hs)⟩
          | ok ks st2 =>
            rw [hlp] at i2
            exact ⟨(by intro st' h; cases h), fun s hs => i2 s (List.mem_cons_of_mem _ hs)⟩

/-- **C175** it ends: the depth is at most the number of processes in reach, plus one -/
theorem fuel_enough {w : World R F} {o : O} {el : Bool} {ps : List R} (hc : ∀ p ∈ ps, ∀ rf l x t, w.inv p rf = some l → x ∈ l → x.term = some t → w.inBg t x.flow = some false → t ∈ ps)
    {p : R} (hp : p ∈ ps) (rf : Option F) (fs : List (Frag O R F)) (fs' : List (Frag O R F)) : create w o el (ps.length + 1) p rf fs ≠ .err .fuel fs' := by
  have h := (make_fuel (o := o) (el := el) hc (ps.length + 1) p rf ⟨fs, []⟩ hp (Nat.lt_succ_of_le (List.length_filter_le _ _))).1
  unfold create
  intro hh
  cases hm : make w o el (ps.length + 1) p rf ⟨fs, []⟩ with
  | ok i st => rw [hm] at hh; cases hh
  | err e st => rw [hm] at hh; cases hh; exact h st hm

/-! ### what goes wrong -/

/-- **C175** (fails) the origin of fragments is not compared: if the archive has a foreground fragment that is terminated to a process of another origin with the same
external reference, flow and direction, the new child flow leads to the first such fragment -/
theorem other_origin_used {w : World R F} {o : O} {rec : R → Option F → St O R F → Out (St O R F) Err ℕ} {x : X R F} {t : R} {st : St O R F} {g : Frag O R F}
    (ht : x.term = some t) (hb : w.inBg t x.flow = some false) {i : ℕ} (hi : find st.frags false x t = some i) (hg : st.frags[i]? = some g) (ks : List (Kid F)) (st' : St O R F)
    (h : loop w o rec [x] st = .ok ks st') : st' = st ∧ ∃ k, ks = [k] ∧ k.term = .frag i ∧ st'.frags[i]? = some g := by
  simp only [loop, ht, hb, hi, Out.ok.injEq] at h
  obtain ⟨rfl, rfl⟩ := h
  exact ⟨rfl, _, rfl, rfl, hg⟩

/-! ### examples -/

namespace Ex

/-- process 1 needs 2 and 3 (3 from the background), and emits; 2 needs 1 (a loop) and has a cut-off; 4 has two products, 41 and 42, both used by 5 -/
def w : World ℕ ℕ where
  inv := fun p rf => match p, rf with
    | 1, _ => some [⟨20, .input, some 2, some 2, false⟩, ⟨30, .input, some 3, some 3, false⟩, ⟨90, .output, some 5, none, true⟩]
    | 2, _ => some [⟨10, .input, some (1/2), some 1, false⟩, ⟨80, .input, none, none, false⟩]
    | 4, _ => some [⟨80, .input, some 1, none, false⟩]
    | 5, _ => some [⟨41, .input, some 1, some 4, false⟩, ⟨42, .input, some 1, some 4, false⟩]
    | _, _ => none
  ref := fun p rf => match p, rf with
    | 1, _ => some (10, .output)
    | 2, _ => some (20, .output)
    | 4, some 42 => some (42, .output)
    | 4, _ => some (41, .output)
    | 5, _ => some (50, .output)
    | _, _ => none
  inBg := fun t _ => some (decide (t = 3))

def get (r : Out (List (Frag ℕ ℕ ℕ)) Err ℕ) : Option ℕ × List (Frag ℕ ℕ ℕ) := (r.value?, r.state)

/-- fragments for 1 and 2 and background fragments for 3 and, to cut the loop, for 1 -/
example : get (create w 7 true 5 1 none []) = (some 3,
    [⟨some (7, 1), 10, .output, true, []⟩,
     ⟨some (7, 2), 20, .output, false, [⟨10, .input, 1/2, .frag 0⟩, ⟨80, .input, 1, .cutoff⟩]⟩,
     ⟨some (7, 3), 30, .output, true, []⟩,
     ⟨some (7, 1), 10, .output, false, [⟨90, .output, 5, .emission⟩, ⟨20, .input, 2, .frag 1⟩, ⟨30, .input, 3, .frag 2⟩]⟩]) := by decide +kernel

/-- a second call finds what is there -/
example : (get (create w 7 true 5 2 none (create w 7 true 5 1 none []).state)).2.length = 5 := by decide +kernel

theorem matched : Matched w := by
  intro p rf l x t f d hi hx he ht hr
  simp only [w] at hi
  split at hi
  · cases hi
    simp only [List.mem_cons, List.not_mem_nil, or_false] at hx
    rcases hx with rfl | rfl | rfl
    · cases ht; simp only [w] at hr; cases hr; exact ⟨rfl, rfl⟩
    · cases ht; simp only [w] at hr; cases hr
    · cases ht
  · cases hi
    simp only [List.mem_cons, List.not_mem_nil, or_false] at hx
    rcases hx with rfl | rfl
    · cases ht; simp only [w] at hr; cases hr; exact ⟨rfl, rfl⟩
    · cases ht
  · cases hi
    simp only [List.mem_cons, List.not_mem_nil, or_false] at hx
    subst hx; cases ht
  · cases hi
    simp only [List.mem_cons, List.not_mem_nil, or_false] at hx
    rcases hx with rfl | rfl
    · cases ht; simp only [w] at hr; cases hr; exact ⟨rfl, rfl⟩
    · cases ht; simp only [w] at hr; cases hr; exact ⟨rfl, rfl⟩
  · cases hi

/-- **C175** (fails) the second product of process 4 is taken from a background fragment though nothing is in the background and there is no loop -/
theorem second_product_background : get (create w 7 true 5 5 none []) = (some 2,
    [⟨some (7, 4), 41, .output, false, [⟨80, .input, 1, .cutoff⟩]⟩, ⟨some (7, 4), 42, .output, true, []⟩,
     ⟨some (7, 5), 50, .output, false, [⟨41, .input, 1, .frag 0⟩, ⟨42, .input, 1, .frag 1⟩]⟩]) := by decide +kernel

/-- **C175** (fails) process 2 of another database, 6, is used for process 2 of database 7 -/
theorem wrong_database : (get (create w 7 false 5 1 none [⟨some (6, 2), 20, .output, false, []⟩])).2.getLast?.map Frag.kids =
    some [⟨20, .input, 2, .frag 0⟩, ⟨30, .input, 3, .frag 1⟩] := by decide +kernel

end Ex
end Fno
