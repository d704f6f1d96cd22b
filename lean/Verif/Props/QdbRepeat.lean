import Verif.Props.QdbConvert

/-!
C65: what `convert` leaves behind. It writes to no flow but the one it converts, never to the store; and asked again, at the
global location, it gives the same answer and writes nothing more. At another location it does not (witness).
-/

namespace Qdb
variable {Q : Type} [DecidableEq Q]

/-- nothing but the characterizations of the flow `f` differs -/
def Frame (f : Option ℕ) (s s' : St Q) : Prop :=
  s'.fq = s.fq ∧ s'.qd = s.qd ∧ s'.fd = s.fd ∧ (∀ x, some x ≠ f → s'.flows x = s.flows x) ∧
    ∀ x, (s'.flows x).uuid = (s.flows x).uuid ∧ (s'.flows x).inds = (s.flows x).inds ∧
      (s'.flows x).comp = (s.flows x).comp ∧ (s'.flows x).bio = (s.flows x).bio ∧
      (s'.flows x).st.ref = (s.flows x).st.ref ∧ (s'.flows x).st.hasComp = (s.flows x).st.hasComp

theorem Frame.refl (f : Option ℕ) (s : St Q) : Frame f s s :=
  ⟨rfl, rfl, rfl, fun _ _ => rfl, fun _ => ⟨rfl, rfl, rfl, rfl, rfl, rfl⟩⟩

theorem Frame.trans {f : Option ℕ} {s t u : St Q} (h : Frame f s t) (h' : Frame f t u) : Frame f s u := by
  obtain ⟨a, b, c, d, e⟩ := h
  obtain ⟨a', b', c', d', e'⟩ := h'
  refine ⟨a'.trans a, b'.trans b, c'.trans c, fun x hx => (d' x hx).trans (d x hx), fun x => ?_⟩
  obtain ⟨h1, h2, h3, h4, h5, h6⟩ := e x
  obtain ⟨k1, k2, k3, k4, k5, k6⟩ := e' x
  exact ⟨k1.trans h1, k2.trans h2, k3.trans h3, k4.trans h4, k5.trans h5, k6.trans h6⟩

theorem addFactor_keeps (q : Q) (v : Flo.Arg) (o : Bool) (l : Option Flo.Loc) (st : Flo.State Q) :
    (Flo.addFactor q v o l st).state.ref = st.ref ∧ (Flo.addFactor q v o l st).state.hasComp = st.hasComp := by
  unfold Flo.addFactor
  repeat' split
  all_goals simp [Out.state]

theorem onFlow_frame (s : St Q) (f : ℕ) (r : Out (Flo.State Q) Flo.Err Unit) (hr : r.state.ref = (s.flows f).st.ref)
    (hc : r.state.hasComp = (s.flows f).st.hasComp) : Frame (some f) s (onFlow s f r).state := by
  have key : Frame (some f) s
      { s with flows := fun x => if x = f then { s.flows f with st := r.state } else s.flows x } := by
    refine ⟨rfl, rfl, rfl, ?_, ?_⟩
    · intro x hx
      have : ¬ x = f := fun e => hx (by rw [e])
      simp [this]
    · intro x
      by_cases e : x = f
      · subst e; simp [hr, hc]
      · simp [e]
  unfold onFlow
  simp only
  split <;> exact key

theorem document_frame (s : St Q) (f : ℕ) (q : Option Q) (v : ℚ) (loc : Flo.Loc) :
    Frame (some f) s (document s f q v loc).state := by
  unfold document
  split
  · exact Frame.refl _ _
  · obtain ⟨h1, h2⟩ := addFactor_keeps (Q := Q) _ (.num v) false (some loc) (s.flows f).st
    exact onFlow_frame s f _ h1 h2

theorem convOne_frame (E : Env Q) (inds : List ℕ) (comp refQ : ℕ) (flow : Option ℕ) (loc : Flo.Loc) (cf : CF Q) (s : St Q) :
    Frame flow s (convOne E inds comp refQ flow loc cf s).state := by
  unfold convOne
  simp only
  split
  · split <;> exact Frame.refl _ _
  · split
    · split <;> exact Frame.refl _ _
    · split
      · exact Frame.refl _ _
      · exact Frame.refl _ _
      · exact Frame.refl _ _
      · rename_i r _
        split
        · cases flow with
          | none => exact Frame.refl _ _
          | some f =>
            simp only
            have := document_frame s f (s.flows cf.flow).st.ref r loc
            cases hd : document s f (s.flows cf.flow).st.ref r loc with
            | ok u s2 => rw [hd] at this; exact this
            | err e s2 => rw [hd] at this; exact this
        · exact Frame.refl _ _

theorem convLoop_frame (E : Env Q) (inds : List ℕ) (comp refQ : ℕ) (flow : Option ℕ) (loc : Flo.Loc) (cfs : List (CF Q)) :
    ∀ s : St Q, Frame flow s (convLoop E inds comp refQ flow loc cfs s).state := by
  induction cfs with
  | nil => intro s; exact Frame.refl _ _
  | cons cf cfs ih =>
    intro s
    simp only [convLoop]
    have h1 := convOne_frame E inds comp refQ flow loc cf s
    cases hc : convOne E inds comp refQ flow loc cf s with
    | err e s1 => rw [hc] at h1; exact h1
    | ok o s1 =>
      rw [hc] at h1
      have h2 := ih s1
      simp only [Out.bind]
      cases hl : convLoop E inds comp refQ flow loc cfs s1 with
      | err e s2 => rw [hl] at h2; exact Frame.trans h1 h2
      | ok r s2 =>
        rw [hl] at h2
        cases o <;> exact Frame.trans h1 h2

theorem convertCore_frame (E : Env Q) (flow : Option ℕ) (inds : List ℕ) (comp : Option ℕ) (bio : Bool) (refQ : Option ℕ)
    (q : ℕ) (loc : Flo.Loc) (quell : Option Bool) (s : St Q) :
    Frame flow s (convertCore E flow inds comp bio refQ q loc quell s).state := by
  unfold convertCore
  split
  · exact Frame.refl _ _
  · rename_i refQ
    split
    · exact Frame.refl _ _
    · split
      · exact Frame.refl _ _
      · rename_i comp
        split
        · exact Frame.refl _ _
        · unfold convertValues
          split
          · exact Frame.refl _ _
          · rename_i cfs _
            have h1 := convLoop_frame E inds comp refQ flow loc (E.ord.f cfs) s
            cases hl : convLoop E inds comp refQ flow loc (E.ord.f cfs) s with
            | err e s2 => rw [hl] at h1; exact h1
            | ok r s2 =>
              rw [hl] at h1
              have h1 : Frame flow s s2 := h1
              simp only [Out.bind]
              by_cases hb : (r.2 && r.1.isEmpty) = true
              · simp only [hb, if_true]; exact h1
              · simp only [hb, Bool.false_eq_true, if_false]
                repeat' split
                all_goals exact h1

/-- C65: `convert`, whether it returns or raises, writes to no flow but its own, and not to the store -/
theorem convert_frame (E : Env Q) (f q : ℕ) (loc : Flo.Loc) (quell : Option Bool) (s : St Q) :
    Frame (some f) s (convert E (.flow f) q loc quell s).state := convertCore_frame ..

/-- C65: without a flow it writes nothing at all -/
theorem convert_frame_flowable (E : Env Q) (i : Option ℕ) (bio : Bool) (comp ref : Option ℕ) (q : ℕ) (loc : Flo.Loc)
    (quell : Option Bool) (s : St Q) :
    Frame none s (convert E (.flowable i bio comp ref) q loc quell s).state := convertCore_frame ..

/-! ### asking again -/

/-- the own factor of a flow, when quantities have different positions -/
theorem convFromFlow_eq (E : Env Q) (hi : Function.Injective E.ind) (s : St Q) (f : ℕ) (q : Q) :
    convFromFlow E s f (some (E.ind q)) =
      match (s.flows f).st.chars.get? q with
      | some c => Flo.Char.getItem c .glo
      | none => .none := by
  unfold convFromFlow
  have : ∀ d : Dict Q Flo.Char, (match d.find? fun p => decide (some (E.ind p.1) = some (E.ind q)) with
      | some p => Flo.Char.getItem p.2 .glo
      | none => Flo.Val.none) = match d.get? q with
      | some c => Flo.Char.getItem c .glo
      | none => .none := by
    intro d
    induction d with
    | nil => rfl
    | cons p d ih =>
      by_cases e : p.1 = q
      · subst e
        simp [Dict.get?, List.find?]
      · have e' : ¬ E.ind p.1 = E.ind q := fun h => e (hi h)
        have hf : (List.find? (fun p => decide (some (E.ind p.1) = some (E.ind q))) (p :: d)) =
            List.find? (fun p => decide (some (E.ind p.1) = some (E.ind q))) d := by
          simp [List.find?, e']
        have hg : Dict.get? (p :: d) q = Dict.get? d q := by
          obtain ⟨a, b⟩ := p
          simp only at e
          simp [Dict.get?, e]
        rw [hf, hg]
        exact ih
  exact this _

theorem getItem_glo (c : Flo.Char) : c = [] ∨ ∃ v, Flo.Char.getItem c .glo = .num v := by
  cases c with
  | nil => exact .inl rfl
  | cons p c =>
    right
    unfold Flo.Char.getItem
    simp only
    cases Dict.get? (p :: c) Flo.Loc.glo with
    | some v => exact ⟨v, rfl⟩
    | none => exact ⟨0, by simp⟩

/-- the stored factors that a conversion of the flow may use belong to other flows -/
def Foreign (E : Env Q) (s : St Q) (inds : List ℕ) (comp f : ℕ) : Prop :=
  ∀ i ∈ inds, ∀ q d cf, Near E comp d → cf ∈ (s.lookup i (some q)).get d → cf.flow ≠ f

/-- `s'` comes from `s` by noting conversions on the flow `f` that are found in the store -/
structure Ext (E : Env Q) (inds : List ℕ) (comp refQ f : ℕ) (s s' : St Q) : Prop where
  frame : Frame (some f) s s'
  keep : ∀ i r, convFromFlow E s f (some i) = .num r → convFromFlow E s' f (some i) = .num r
  only : ∀ i r, convFromFlow E s' f (some i) = .num r → convFromFlow E s f (some i) = .num r ∨
    lookforConv E s inds comp (some i) (some refQ) .glo = .ok (.num r)

theorem Ext.refl (E : Env Q) (inds : List ℕ) (comp refQ f : ℕ) (s : St Q) : Ext E inds comp refQ f s s :=
  ⟨Frame.refl _ _, fun _ _ h => h, fun _ _ h => .inl h⟩

theorem frame_lookup {f : Option ℕ} {s s' : St Q} (h : Frame f s s') (i : ℕ) (q : Option ℕ) : s'.lookup i q = s.lookup i q := by
  unfold St.lookup; rw [h.1]

theorem frame_ref (E : Env Q) {f : Option ℕ} {s s' : St Q} (h : Frame f s s') (x : ℕ) : refInd E s' x = refInd E s x := by
  unfold refInd; rw [(h.2.2.2.2 x).2.2.2.2.1]

theorem frame_item {f : ℕ} {s s' : St Q} (h : Frame (some f) s s') {cf : CF Q} (hne : cf.flow ≠ f) (loc : Flo.Loc) :
    cfItem s' cf loc = cfItem s cf loc := by
  unfold cfItem; rw [h.2.2.2.1 cf.flow (by simpa using hne)]

theorem Foreign.frame {E : Env Q} {inds : List ℕ} {comp f : ℕ} {g : Option ℕ} {s s' : St Q} (h : Frame g s s')
    (hf : Foreign E s inds comp f) : Foreign E s' inds comp f := by
  intro i hi q d cf hd hm
  rw [frame_lookup h] at hm
  exact hf i hi q d cf hd hm

theorem convGen_frame (E : Env Q) {g : Option ℕ} {s s' : St Q} (h : Frame g s s') (comp : ℕ) (a b : Option ℕ)
    (inds : List ℕ) : convGen E s' comp a b inds = convGen E s comp a b inds := by
  induction inds with
  | nil => rfl
  | cons i inds ih =>
    simp only [convGen, frame_lookup h, ih]
    have : (fun cf : CF Q => decide (refInd E s' cf.flow = b)) = fun cf => decide (refInd E s cf.flow = b) := by
      funext cf; rw [frame_ref E h]
    rw [this]

theorem lookup_none (s : St Q) (i : ℕ) (d : ℕ) : (s.lookup i none).get d = [] := rfl

theorem lookforConv_frame (E : Env Q) {f : ℕ} {s s' : St Q} (h : Frame (some f) s s') {inds : List ℕ} {comp : ℕ}
    (hf : Foreign E s inds comp f) (a b : Option ℕ) (loc : Flo.Loc) :
    lookforConv E s' inds comp a b loc = lookforConv E s inds comp a b loc := by
  have key : ∀ a b cf, convGen E s comp a b inds = .ok (some cf) → cfItem s' cf loc = cfItem s cf loc := by
    intro a b cf hc
    obtain ⟨i, hi, d, hd, hm, _⟩ := convGen_mem inds hc
    cases a with
    | none => rw [lookup_none] at hm; simp at hm
    | some q => exact frame_item h (hf i hi q d cf hd hm) loc
  unfold lookforConv
  simp only [convGen_frame E h]
  cases h1 : convGen E s comp a b inds with
  | error e => rfl
  | ok o =>
    cases o with
    | some cf => simp only [key a b cf h1]
    | none =>
      simp only
      cases h2 : convGen E s comp b a inds with
      | error e => rfl
      | ok o =>
        cases o with
        | none => rfl
        | some cf => simp only [key b a cf h2]

theorem Ext.trans {E : Env Q} {inds : List ℕ} {comp refQ f : ℕ} {s t u : St Q} (hf : Foreign E s inds comp f)
    (h : Ext E inds comp refQ f s t) (h' : Ext E inds comp refQ f t u) : Ext E inds comp refQ f s u := by
  refine ⟨h.frame.trans h'.frame, fun i r hr => h'.keep i r (h.keep i r hr), fun i r hr => ?_⟩
  rcases h'.only i r hr with hr | hr
  · exact h.only i r hr
  · rw [lookforConv_frame E h.frame hf] at hr
    exact .inr hr

/-- noting a conversion that was found -/
theorem document_ext {E : Env Q} (hi : Function.Injective E.ind) {inds : List ℕ} {comp refQ f : ℕ} {s s2 : St Q} {q : Q} {r : ℚ}
    (hn : ∀ v, convFromFlow E s f (some (E.ind q)) ≠ .num v)
    (hl : lookforConv E s inds comp (some (E.ind q)) (some refQ) .glo = .ok (.num r))
    (h : document s f (some q) r .glo = .ok () s2) :
    Ext E inds comp refQ f s s2 ∧ convFromFlow E s2 f (some (E.ind q)) = .num r := by
  have hfr := document_frame s f (some q) r .glo
  rw [h] at hfr
  have hempty : ((s.flows f).st.chars.get? q).getD [] = [] := by
    rw [convFromFlow_eq E hi] at hn
    cases hg : (s.flows f).st.chars.get? q with
    | none => rfl
    | some c =>
      rw [hg] at hn
      rcases getItem_glo c with hc | ⟨v, hv⟩
      · simp [hc]
      · exact absurd hv (hn v)
  have hadd : Flo.addFactor q (.num r) false (some .glo) (s.flows f).st =
      .ok () { (s.flows f).st with chars := (s.flows f).st.chars.set q [(.glo, r)] } := by
    unfold Flo.addFactor
    simp only [hempty]
    rfl
  have hs2 : ∀ q', (s2.flows f).st.chars.get? q' = if q = q' then some [(.glo, r)] else (s.flows f).st.chars.get? q' := by
    intro q'
    unfold document at h
    simp only [hadd] at h
    unfold onFlow at h
    simp only [Out.state, Out.ok.injEq, true_and] at h
    rw [← h]
    simp only [if_true]
    rw [Dict.get?_set]
  have hval : convFromFlow E s2 f (some (E.ind q)) = .num r := by
    rw [convFromFlow_eq E hi, hs2 q]
    simp [Flo.Char.getItem, Dict.get?]
  have hother : ∀ i, i ≠ E.ind q → convFromFlow E s2 f (some i) = convFromFlow E s f (some i) := by
    intro i hne
    by_cases hex : ∃ q', E.ind q' = i
    · obtain ⟨q', rfl⟩ := hex
      have hq : ¬ q = q' := fun e => hne (by rw [e])
      rw [convFromFlow_eq E hi, convFromFlow_eq E hi, hs2 q', if_neg hq]
    · have : ∀ (t : St Q), convFromFlow E t f (some i) = .none := by
        intro t
        unfold convFromFlow
        cases hg : (t.flows f).st.chars.find? fun p => decide (some (E.ind p.1) = some i) with
        | none => rfl
        | some p =>
          have h1 := List.find?_some hg
          simp only [Option.some.injEq, decide_eq_true_eq] at h1
          exact absurd ⟨p.1, h1⟩ hex
      rw [this, this]
  refine ⟨⟨hfr, ?_, ?_⟩, hval⟩
  · intro i v hv
    by_cases e : i = E.ind q
    · subst e; exact absurd hv (hn v)
    · rw [hother i e]; exact hv
  · intro i v hv
    by_cases e : i = E.ind q
    · subst e
      rw [hval] at hv
      simp only [Flo.Val.num.injEq] at hv
      right
      rw [hl, hv]
    · rw [hother i e] at hv; exact .inl hv

theorem convFromFlow_none (E : Env Q) (s : St Q) (f : ℕ) : convFromFlow E s f none = .none := by
  have : (s.flows f).st.chars.find? (fun p => decide (some (E.ind p.1) = none)) = none := by simp
  unfold convFromFlow
  rw [this]

/-- one round of the loop, and again later -/
theorem convOne_again {E : Env Q} (hi : Function.Injective E.ind) {inds : List ℕ} {comp refQ f : ℕ} {s s2 : St Q} {cf : CF Q}
    (hne : cf.flow ≠ f) (hf : Foreign E s inds comp f) {o : Option ℚ}
    (h : convOne E inds comp refQ (some f) .glo cf s = .ok o s2) :
    Ext E inds comp refQ f s s2 ∧
      ∀ s3, Ext E inds comp refQ f s2 s3 → convOne E inds comp refQ (some f) .glo cf s3 = .ok o s3 := by
  unfold convOne at h
  simp only [Option.elim] at h
  by_cases e : refInd E s cf.flow = some refQ
  · simp only [e, if_true] at h
    cases hit : cfItem s cf .glo with
    | none => rw [hit] at h; simp at h
    | entity => rw [hit] at h; simp at h
    | num v =>
      rw [hit] at h
      simp only [Out.ok.injEq] at h
      obtain ⟨rfl, rfl⟩ := h
      refine ⟨Ext.refl .., fun s3 h3 => ?_⟩
      unfold convOne
      simp [frame_ref E h3.frame, e, frame_item h3.frame hne, hit]
  · simp only [e, if_false] at h
    cases hconv : convFromFlow E s f (refInd E s cf.flow) with
    | num r =>
      rw [hconv] at h
      cases hit : cfItem s cf .glo with
      | none => rw [hit] at h; simp at h
      | entity => rw [hit] at h; simp at h
      | num v =>
        rw [hit] at h
        simp only [Out.ok.injEq] at h
        obtain ⟨rfl, rfl⟩ := h
        refine ⟨Ext.refl .., fun s3 h3 => ?_⟩
        have hk : convFromFlow E s3 f (refInd E s cf.flow) = .num r := by
          cases hr : refInd E s cf.flow with
          | none => rw [hr, convFromFlow_none] at hconv; simp at hconv
          | some i => rw [hr] at hconv; exact h3.keep i r hconv
        unfold convOne
        simp [frame_ref E h3.frame, e, frame_item h3.frame hne, hit, hk]
    | _ =>
      rw [hconv] at h
      simp only at h
      cases hlook : lookforConv E s inds comp (refInd E s cf.flow) (some refQ) .glo with
      | error er => rw [hlook] at h; simp at h
      | ok w =>
        rw [hlook] at h
        cases w with
        | entity => simp at h
        | none =>
          simp only [Out.ok.injEq] at h
          obtain ⟨rfl, rfl⟩ := h
          refine ⟨Ext.refl .., fun s3 h3 => ?_⟩
          have hk : ∀ v, convFromFlow E s3 f (refInd E s cf.flow) ≠ .num v := by
            intro v hv
            cases hr : refInd E s cf.flow with
            | none => rw [hr, convFromFlow_none] at hv; simp at hv
            | some i =>
              rw [hr] at hv hconv hlook
              rcases h3.only i v hv with h' | h'
              · rw [hconv] at h'; simp at h'
              · rw [hlook] at h'; simp at h'
          unfold convOne
          simp only [frame_ref E h3.frame, e, if_false, Option.elim, lookforConv_frame E h3.frame hf, hlook]
        | num r =>
          simp only at h
          cases hit : cfItem s cf .glo with
          | none => rw [hit] at h; simp at h
          | entity => rw [hit] at h; simp at h
          | num v =>
            rw [hit] at h
            simp only at h
            cases hdoc : document s f (s.flows cf.flow).st.ref r .glo with
            | err er s3 => rw [hdoc] at h; simp [Out.bind] at h
            | ok u s3 =>
              rw [hdoc] at h
              simp only [Out.bind, Out.ok.injEq] at h
              obtain ⟨rfl, rfl⟩ := h
              cases hq : (s.flows cf.flow).st.ref with
              | none => rw [hq] at hdoc; simp [document] at hdoc
              | some q =>
                have hri : refInd E s cf.flow = some (E.ind q) := by simp [refInd, hq]
                rw [hq] at hdoc
                rw [hri] at hlook hconv
                have hn : ∀ v, convFromFlow E s f (some (E.ind q)) ≠ .num v := by
                  intro v hv; rw [hconv] at hv; simp at hv
                obtain ⟨hext, hval⟩ := document_ext hi hn hlook hdoc
                refine ⟨hext, fun s3 h3 => ?_⟩
                have hk := h3.keep _ _ hval
                have hfr := hext.frame.trans h3.frame
                rw [hri] at e
                unfold convOne
                simp [frame_ref E hfr, hri, e, frame_item hfr hne, hit, hk]

theorem convLoop_again {E : Env Q} (hi : Function.Injective E.ind) {inds : List ℕ} {comp refQ f : ℕ} (cfs : List (CF Q)) :
    ∀ {s s2 : St Q} {r : List ℚ × Bool}, (∀ cf ∈ cfs, cf.flow ≠ f) → Foreign E s inds comp f →
      convLoop E inds comp refQ (some f) .glo cfs s = .ok r s2 →
      Ext E inds comp refQ f s s2 ∧
        ∀ s3, Ext E inds comp refQ f s2 s3 → convLoop E inds comp refQ (some f) .glo cfs s3 = .ok r s3 := by
  induction cfs with
  | nil =>
    intro s s2 r _ _ h
    simp only [convLoop, Out.ok.injEq] at h
    obtain ⟨rfl, rfl⟩ := h
    exact ⟨Ext.refl .., fun s3 _ => rfl⟩
  | cons cf cfs ih =>
    intro s s2 r hne hf h
    simp only [convLoop] at h
    cases h1 : convOne E inds comp refQ (some f) .glo cf s with
    | err e s1 => rw [h1] at h; simp [Out.bind] at h
    | ok o s1 =>
      rw [h1] at h
      simp only [Out.bind] at h
      obtain ⟨e1, a1⟩ := convOne_again hi (hne cf (by simp)) hf h1
      cases h2 : convLoop E inds comp refQ (some f) .glo cfs s1 with
      | err e s2 => rw [h2] at h; simp at h
      | ok r1 s2' =>
        rw [h2] at h
        obtain ⟨e2, a2⟩ := ih (fun cf hc => hne cf (by simp [hc])) (hf.frame e1.frame) h2
        have hs : s2' = s2 := by cases o <;> simp at h <;> exact h.2
        subst hs
        refine ⟨e1.trans hf e2, fun s3 h3 => ?_⟩
        simp only [convLoop]
        rw [a1 s3 (e2.trans (hf.frame e1.frame) h3)]
        simp only [Out.bind]
        rw [a2 s3 h3]
        cases o with
        | some w => simp only [Out.ok.injEq, and_true] at h ⊢; exact h
        | none => simp only [Out.ok.injEq, and_true] at h ⊢; exact h

/-- C65: at the global location, asked again, `convert` gives the same answer and changes nothing more -/
theorem convert_repeat_partial (E : Env Q) (hi : Function.Injective E.ind) (s s' : St Q) (f comp q : ℕ) (quell : Option Bool)
    (hcomp : (s.flows f).comp = some comp) (hf : Foreign E s (s.flows f).inds comp f) (o : Option ℚ)
    (h : convert E (.flow f) q .glo quell s = .ok o s') : convert E (.flow f) q .glo quell s' = .ok o s' := by
  have hfr := convert_frame E f q .glo quell s
  rw [h] at hfr
  have hfr : Frame (some f) s s' := hfr
  obtain ⟨hu, hinds, hcomp', hbio, href, hhas⟩ := hfr.2.2.2.2 f
  unfold convert at h ⊢
  simp only [hcomp] at h
  simp only [hinds, hcomp', hbio, frame_ref E hfr, hcomp]
  unfold convertCore at h ⊢
  cases hr : refInd E s f with
  | none =>
    rw [hr] at h
    simp only [Out.ok.injEq] at h ⊢
    exact ⟨h.1, trivial⟩
  | some refQ =>
    rw [hr] at h
    simp only at h ⊢
    by_cases e : refQ = q
    · simp only [e, if_true, Out.ok.injEq] at h ⊢
      exact ⟨h.1, trivial⟩
    · simp only [e, if_false] at h ⊢
      by_cases hq : quelled E (s.flows f).inds comp (s.flows f).bio quell = true
      · simp only [hq, if_true, Out.ok.injEq] at h ⊢
        exact ⟨h.1, trivial⟩
      · simp only [hq, Bool.false_eq_true, if_false] at h ⊢
        have hl' : lookupCfs E s' (s.flows f).inds comp q = lookupCfs E s (s.flows f).inds comp q := by
          unfold lookupCfs
          simp only [frame_lookup hfr]
        unfold convertValues at h ⊢
        rw [hl']
        cases hl : lookupCfs E s (s.flows f).inds comp q with
        | error er => rw [hl] at h; simp [Out.bind] at h
        | ok cfs =>
          rw [hl] at h
          simp only at h ⊢
          cases h2 : convLoop E (s.flows f).inds comp refQ (some f) .glo (E.ord.f cfs) s with
          | err er s2 => rw [h2] at h; simp [Out.bind] at h
          | ok r s2 =>
            rw [h2] at h
            have hne : ∀ cf ∈ E.ord.f cfs, cf.flow ≠ f := by
              intro cf hm
              obtain ⟨i, hi', d, hd, hm'⟩ := lookupCfs_mem hl ((E.ord.mem cfs cf).mp hm)
              exact hf i hi' q d cf hd hm'
            obtain ⟨_, again⟩ := convLoop_again hi (E.ord.f cfs) hne hf h2
            simp only [Out.bind] at h
            have hs2 : s2 = s' := by
              by_cases hb : (r.2 && r.1.isEmpty) = true
              · simp [hb] at h
              · simp only [hb, Bool.false_eq_true, if_false] at h
                repeat' split at h
                all_goals simp only [Out.ok.injEq, reduceCtorEq] at h
                all_goals exact h.2
            subst hs2
            rw [again s2 (Ext.refl ..)]
            simp only [Out.bind]
            exact h

/-! ### examples -/

/-- the hypotheses are met: the first call notes a conversion on flow 20, the second uses it -/
example : Foreign wEnv cSt (cSt.flows 20).inds 2 20 ∧ Function.Injective wEnv.ind ∧
    (convert wEnv (.flow 20) 7 .glo none cSt).value? = some (some 6) ∧
    ((convert wEnv (.flow 20) 7 .glo none cSt).state.flows 20).st.chars = [(2, [(.glo, 1)]), (1, [(.glo, 2)])] := by
  refine ⟨?_, fun _ _ h => h, by decide +kernel, by decide +kernel⟩
  intro f hf q d cf _ hm
  have h1 := (stored_iff wEnv f q d cOps cFlows).1 cf hm
  simp only [added, cOps] at h1
  split at h1
  · rcases List.mem_cons.mp h1 with rfl | h1
    · decide
    · split at h1
      · rcases List.mem_cons.mp h1 with rfl | h1
        · decide
        · simp at h1
      · simp at h1
  · split at h1
    · rcases List.mem_cons.mp h1 with rfl | h1
      · decide
      · simp at h1
    · simp at h1

/-- C65 fails at other locations: the conversion is noted for the location, and then looked up for `GLO`: the second answer to
the same question is 0 -/
theorem convert_repeat_fails :
    let call := convert wEnv (.flow 20) 7 (.other "US") none
    (call cSt).value? = some (some 6) ∧ (call (call cSt).state).value? = some (some 0) := by decide +kernel

end Qdb
