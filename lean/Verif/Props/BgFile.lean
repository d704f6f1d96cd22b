import Verif.Props.BgImpl
import Mathlib.Data.List.Basic

/-!
C148 A flat background that is saved and loaded again is the same.
C149 The proxy background.
C150 Background queries of a process reference.
-/

namespace BgI
open Engine FlatBg
set_option linter.unusedSectionVars false
variable {F P : Type} [DecidableEq F] [DecidableEq P]

/-! ### C148 -/

/-- the entries of a sparse matrix of the shape (rows, cols), row by row, each place at most once -/
def RowMajor (rows cols : ℕ) (m : Sp) : Prop :=
  m.Pairwise (fun a b => a.1 < b.1 ∨ (a.1 = b.1 ∧ a.2.1 < b.2.1)) ∧ ∀ t ∈ m, t.1 < rows ∧ t.2.1 < cols

/-- a list sorted by `k` is put together again from its parts with equal `k` -/
theorem buckets {α : Type} (k : α → ℕ) : ∀ (n : ℕ) (l : List α), l.Pairwise (fun a b => k a ≤ k b) → (∀ a ∈ l, k a < n) →
    ((List.range n).flatMap fun i => l.filter fun a => decide (k a = i)) = l := by
  intro n
  induction n with
  | zero =>
    intro l _ h
    cases l with
    | nil => rfl
    | cons a l => exact absurd (h a (by simp)) (by omega)
  | succ n ih =>
    intro l hs h
    have hsplit : l = (l.filter fun a => decide (k a < n)) ++ l.filter fun a => decide (k a = n) := by
      clear ih
      induction l with
      | nil => rfl
      | cons a l ihl =>
        obtain ⟨h1, h2⟩ := List.pairwise_cons.mp hs
        have ih := ihl h2 fun x hx => h x (List.mem_cons_of_mem _ hx)
        by_cases ha : k a < n
        · rw [List.filter_cons_of_pos (by simpa using ha), List.filter_cons_of_neg (by simp; omega)]
          rw [List.cons_append, ← ih]
        · have ha' : k a = n := by have := h a (by simp); omega
          have hall : ∀ x ∈ l, k x = n := by
            intro x hx
            have := h1 x hx
            have := h x (List.mem_cons_of_mem _ hx)
            omega
          have e1 : l.filter (fun a => decide (k a < n)) = [] := by
            apply List.filter_eq_nil_iff.mpr
            intro x hx
            have := hall x hx
            simp; omega
          have e2 : l.filter (fun a => decide (k a = n)) = l := by
            apply List.filter_eq_self.mpr
            intro x hx
            simpa using hall x hx
          rw [List.filter_cons_of_neg (by simpa using ha), List.filter_cons_of_pos (by simpa using ha'), e1, e2]
          rfl
    rw [List.range_succ, List.flatMap_append]
    have hf := ih (l.filter fun a => decide (k a < n)) (hs.filter _) (by
      intro a ha
      simpa using (List.mem_filter.mp ha).2)
    have he : ((List.range n).flatMap fun i => l.filter fun a => decide (k a = i)) =
        (List.range n).flatMap fun i => (l.filter fun a => decide (k a < n)).filter fun a => decide (k a = i) := by
      apply List.flatMap_congr
      intro i hi
      have hi : i < n := List.mem_range.mp hi
      rw [List.filter_filter]
      apply List.filter_congr
      intro a _
      by_cases hk : k a = i
      · simp [hk, hi]
      · simp [hk]
    rw [he, hf]
    simp only [List.flatMap_singleton]
    exact hsplit.symm


theorem flatMap_filter_comm {α : Type} (l : List α) (n : ℕ) (k : α → ℕ) (p : α → Bool) :
    ((List.range n).flatMap fun c => l.filter fun t => decide (k t = c)).filter p =
      (List.range n).flatMap fun c => (l.filter p).filter fun t => decide (k t = c) := by
  rw [List.filter_flatMap]
  apply List.flatMap_congr
  intro c _
  rw [List.filter_filter, List.filter_filter]
  apply List.filter_congr
  intro a _
  exact Bool.and_comm _ _

/-- a matrix survives being stored by columns -/
theorem csc_roundtrip {rows cols : ℕ} {m : Sp} (h : RowMajor rows cols m) : toCsr (toCsc rows cols m) = m := by
  unfold toCsr toCsc
  simp only
  have hrow : ∀ r, ((List.range cols).flatMap fun c => m.filter fun t => decide (t.2.1 = c)).filter (fun t => decide (t.1 = r)) =
      m.filter fun t => decide (t.1 = r) := by
    intro r
    rw [flatMap_filter_comm m cols (fun t => t.2.1)]
    apply buckets (fun t : ℕ × ℕ × ℚ => t.2.1)
    · have hp := h.1.filter (fun t => decide (t.1 = r))
      apply hp.imp_of_mem
      intro a b ha hb hab
      have ha := (List.mem_filter.mp ha).2
      have hb := (List.mem_filter.mp hb).2
      simp only [decide_eq_true_eq] at ha hb
      rcases hab with hab | hab
      · omega
      · omega
    · intro t ht
      exact (h.2 t (List.mem_filter.mp ht).1).2
  rw [List.flatMap_congr fun r _ => hrow r]
  apply buckets (fun t : ℕ × ℕ × ℚ => t.1)
  · apply h.1.imp
    intro a b hab
    rcases hab with hab | hab <;> omega
  · intro t ht
    exact (h.2 t ht).1

theorem csr_rowMajor {rows cols : ℕ} {ts : List (Option ℕ × Option ℕ × ℚ)} {m : Sp} (h : csr rows cols ts = some m) : RowMajor rows cols m := by
  unfold csr at h
  split at h
  · cases h
    constructor
    · rw [List.pairwise_flatMap]
      constructor
      · intro r _
        rw [List.pairwise_filterMap]
        apply List.pairwise_lt_range.imp
        intro a b hab x hx y hy
        simp only [Option.ite_none_right_eq_some, Option.some.injEq] at hx hy
        obtain ⟨_, rfl⟩ := hx
        obtain ⟨_, rfl⟩ := hy
        exact Or.inr ⟨rfl, hab⟩
      · apply List.pairwise_lt_range.imp
        intro a b hab x hx y hy
        obtain ⟨c, _, hx⟩ := List.mem_filterMap.mp hx
        obtain ⟨d, _, hy⟩ := List.mem_filterMap.mp hy
        simp only [Option.ite_none_right_eq_some, Option.some.injEq] at hx hy
        obtain ⟨_, rfl⟩ := hx
        obtain ⟨_, rfl⟩ := hy
        exact Or.inl hab
    · intro t ht
      obtain ⟨r, hr, ht⟩ := List.mem_flatMap.mp ht
      obtain ⟨c, hc, ht⟩ := List.mem_filterMap.mp ht
      simp only [Option.ite_none_right_eq_some, Option.some.injEq] at ht
      obtain ⟨_, rfl⟩ := ht
      exact ⟨List.mem_range.mp hr, List.mem_range.mp hc⟩
  · cases h

theorem entry_roundtrip {F T S : Type} (t : TermRef F T S) : ofEntry (toEntry t) = .ok t := by
  obtain ⟨f, d, t, s⟩ := t
  cases d <;> cases s <;> rfl

theorem entries_roundtrip {F T S : Type} (l : List (TermRef F T S)) : (l.map toEntry).mapM ofEntry = .ok l := by
  induction l with
  | nil => rfl
  | cons t l ih =>
    rw [List.map_cons, List.mapM_cons, entry_roundtrip, ih]
    rfl

/-- the matrices of a flat background have the shapes of its lists -/
structure Shaped (fb : FB F P) : Prop where
  af : ∀ m, fb.af = some m → RowMajor fb.fg.length fb.fg.length m
  ad : ∀ m, fb.ad = some m → RowMajor fb.bg.length fb.fg.length m
  bf : ∀ m, fb.bf = some m → RowMajor fb.ex.length fb.fg.length m
  A : ∀ m, fb.A = some m → RowMajor fb.bg.length fb.bg.length m
  B : ∀ m, fb.B = some m → RowMajor fb.ex.length fb.bg.length m

/-- what is loaded from the files of a flat background -/
theorem save_load (fb : FB F P) (hs : Shaped fb) (hAB : fb.A = none ↔ fb.B = none) (complete : Bool) :
    ∃ file, write true fb complete = .ok file ∧
      load file = .ok { fb with af := some (fb.af.getD []), ad := some (fb.ad.getD []), bf := some (fb.bf.getD [])
                                A := if complete then fb.A else none, B := if complete then fb.B else none } := by
  refine ⟨_, rfl, ?_⟩
  simp only [load, entries_roundtrip]
  have hm : ∀ (r c : ℕ) (m : Option Sp), (∀ x, m = some x → RowMajor r c x) →
      toCsr (saveMat r c m) = m.getD [] := by
    intro r c m h
    cases m with
    | none => rfl
    | some m => exact csc_roundtrip (h m rfl)
  have h1 := hm _ _ _ hs.af
  have h2 := hm _ _ _ hs.ad
  have h3 := hm _ _ _ hs.bf
  rw [h1, h2, h3]
  cases hA : fb.A with
  | none =>
    have hB := hAB.mp hA
    simp only [hB]
    cases complete <;> rfl
  | some a =>
    cases hB : fb.B with
    | none => rw [hAB.mpr hB] at hA; cases hA
    | some b =>
      simp only [hA, hB]
      cases complete
      · rfl
      · have ha := csc_roundtrip (hs.A a hA)
        have hb := csc_roundtrip (hs.B b hB)
        simp only [if_pos, Option.map_some, ha, hb]
        rfl

theorem built_shaped {o : SetOrd F P} {db : DB F P} {comp : F → Option P} {strat : Strategy} {fuel : ℕ} {vs : List (F × P)} {fb : FB F P}
    (hr : fromIndex o db comp strat fuel vs = .ok fb) :
    Shaped fb ∧ fb.A ≠ none ∧ fb.B ≠ none ∧ ((fb.fg ≠ [] ∧ fb.af ≠ none ∧ fb.ad ≠ none ∧ fb.bf ≠ none) ∨ fb.fg = []) := by
  obtain ⟨e, s, he, hs, hb, hB⟩ := fromIndex_built hr
  have hg : GraphOK db strat s e.g := hB.ok.gok
  obtain ⟨names, hn, h1, h2⟩ := hB.names
  have l1 : fb.fg.length = e.g.fgProcs.length := by rw [h1]; simp
  have l2 : fb.bg.length = e.g.bgProcs.length := by rw [h2]; simp
  have l3 : fb.ex.length = s.emissions.length := by rw [hB.ex]; simp
  obtain ⟨a, b, ma, mb, hA, hBB, _, _, ca, cb⟩ := hB.lci
  have hl : (∀ m, fb.A = some m → RowMajor fb.bg.length fb.bg.length m) ∧ (∀ m, fb.B = some m → RowMajor fb.ex.length fb.bg.length m) := by
    constructor
    · intro m hm
      rw [hA] at hm; cases hm
      rw [l2]; exact csr_rowMajor ca
    · intro m hm
      rw [hBB] at hm; cases hm
      rw [l2, l3]; exact csr_rowMajor cb
  cases hm : makeForegroundAll { e with allAdded := false } with
  | none =>
    obtain ⟨n1, n2, n3⟩ := hB.noFg hm
    refine ⟨⟨?_, ?_, ?_, hl.1, hl.2⟩, by rw [hA]; simp, by rw [hBB]; simp, Or.inr ?_⟩
    · intro m h; rw [n1] at h; cases h
    · intro m h; rw [n2] at h; cases h
    · intro m h; rw [n3] at h; cases h
    · unfold makeForegroundAll at hm
      split at hm
      · rename_i h0
        have : e.g.fgProcs.length = 0 := by rw [← pdim_eq hg]; exact h0
        apply List.eq_nil_of_length_eq_zero
        omega
      · cases hm
  | some m =>
    obtain ⟨af, ad, bf, e1, e2, e3, c1, c2, c3⟩ := hB.af m hm
    refine ⟨⟨?_, ?_, ?_, hl.1, hl.2⟩, by rw [hA]; simp, by rw [hBB]; simp, Or.inl ⟨?_, by rw [e1]; simp, by rw [e2]; simp, by rw [e3]; simp⟩⟩
    · intro m h; rw [e1] at h; cases h; rw [l1]; exact csr_rowMajor c1
    · intro m h; rw [e2] at h; cases h; rw [l1, l2]; exact csr_rowMajor c2
    · intro m h; rw [e3] at h; cases h; rw [l1, l3]; exact csr_rowMajor c3
    · intro h0
      unfold makeForegroundAll at hm
      rw [if_pos] at hm
      · cases hm
      · have : pdim ({ e with allAdded := false } : Eng F P).g = e.g.fgProcs.length := pdim_eq hg
        rw [this, ← l1, h0]
        rfl

/-- **C148** the flat background of a database that is saved completely and loaded again is the same, if there is a foreground -/
theorem saved_same (o : SetOrd F P) (db : DB F P) (comp : F → Option P) (strat : Strategy) (fuel : ℕ) (vs : List (F × P)) (fb : FB F P)
    (hr : fromIndex o db comp strat fuel vs = .ok fb) (hf : fb.fg ≠ []) : ∃ file, write true fb true = .ok file ∧ load file = .ok fb := by
  obtain ⟨hs, hA, hB, h⟩ := built_shaped hr
  obtain ⟨file, h1, h2⟩ := save_load fb hs ⟨fun h => absurd h hA, fun h => absurd h hB⟩ true
  refine ⟨file, h1, ?_⟩
  rw [h2]
  rcases h with ⟨_, n1, n2, n3⟩ | h
  · obtain ⟨af, e1⟩ := Option.ne_none_iff_exists'.mp n1
    obtain ⟨ad, e2⟩ := Option.ne_none_iff_exists'.mp n2
    obtain ⟨bf, e3⟩ := Option.ne_none_iff_exists'.mp n3
    obtain ⟨fg, bg, ex, a1, a2, a3, a4, a5⟩ := fb
    simp only at e1 e2 e3
    subst e1 e2 e3
    rfl
  · exact absurd h hf

/-- **C148** if there is no foreground the loaded one gives the same answers: which product flows are in the background or in cycles, their
dependencies, emissions and foreground -/
theorem saved_same_answers (o : SetOrd F P) (db : DB F P) (comp : F → Option P) (strat : Strategy) (fuel : ℕ) (vs : List (F × P)) (fb : FB F P)
    (hr : fromIndex o db comp strat fuel vs = .ok fb) (hf : fb.fg = []) :
    ∃ file fb', write true fb true = .ok file ∧ load file = .ok fb' ∧ fb'.bg = fb.bg ∧ fb'.ex = fb.ex ∧ fb'.A = fb.A ∧ fb'.B = fb.B ∧ fb'.fg = [] ∧
      ∀ p f, FlatBg.isInBackground fb' p f = FlatBg.isInBackground fb p f ∧ FlatBg.isInScc fb' p f = FlatBg.isInScc fb p f ∧
        dependencies fb' p f = dependencies fb p f ∧ emissions fb' p f = emissions fb p f ∧
        ∀ n, FlatBg.foreground fb' n p f = FlatBg.foreground fb n p f := by
  obtain ⟨hs, hA, hB, _⟩ := built_shaped hr
  obtain ⟨file, h1, h2⟩ := save_load fb hs ⟨fun h => absurd h hA, fun h => absurd h hB⟩ true
  refine ⟨file, _, h1, h2, rfl, rfl, rfl, rfl, hf, fun p f => ?_⟩
  have hfi : ∀ fb : FB F P, fb.fg = [] → (fgIndex fb).get? (p, f) = none := by
    intro fb h
    unfold fgIndex
    rw [h]
    rfl
  have e1 := hfi fb hf
  have e2 := hfi { fb with af := some (fb.af.getD []), ad := some (fb.ad.getD []), bf := some (fb.bf.getD []) } hf
  refine ⟨rfl, ?_, ?_, ?_, ?_⟩
  · unfold FlatBg.isInScc; rfl
  · unfold dependencies
    simp only [if_pos]
    rw [e1, show (fgIndex _).get? (p, f) = none from e2]
    rfl
  · unfold emissions
    simp only [if_pos]
    rw [e1, show (fgIndex _).get? (p, f) = none from e2]
    rfl
  · intro n
    unfold FlatBg.foreground
    simp only [if_pos]
    rw [e1, show (fgIndex _).get? (p, f) = none from e2]

/-- **C148** saved without the LCI matrices, it is the same but for those; other file types are refused -/
theorem saved_incomplete (o : SetOrd F P) (db : DB F P) (comp : F → Option P) (strat : Strategy) (fuel : ℕ) (vs : List (F × P)) (fb : FB F P)
    (hr : fromIndex o db comp strat fuel vs = .ok fb) (hf : fb.fg ≠ []) :
    (∃ file, write true fb false = .ok file ∧ load file = .ok { fb with A := none, B := none }) ∧ ∀ c, write false fb c = .error .value := by
  obtain ⟨hs, hA, hB, h⟩ := built_shaped hr
  obtain ⟨file, h1, h2⟩ := save_load fb hs ⟨fun h => absurd h hA, fun h => absurd h hB⟩ false
  refine ⟨⟨file, h1, ?_⟩, fun _ => rfl⟩
  rw [h2]
  rcases h with ⟨_, n1, n2, n3⟩ | h
  · obtain ⟨af, e1⟩ := Option.ne_none_iff_exists'.mp n1
    obtain ⟨ad, e2⟩ := Option.ne_none_iff_exists'.mp n2
    obtain ⟨bf, e3⟩ := Option.ne_none_iff_exists'.mp n3
    obtain ⟨fg, bg, ex, a1, a2, a3, a4, a5⟩ := fb
    simp only at e1 e2 e3
    subst e1 e2 e3
    rfl
  · exact absurd h hf

/-- the example database of C58 has a foreground and all matrices are stored; a database that is all background has none -/
example : exFb = .ok exFb' ∧ exFb'.fg ≠ [] ∧ exFb'.A.any (fun m => decide (m ≠ [])) = true ∧
    (match write true exFb' true with | .ok f => decide (load f = .ok exFb') | .error _ => false) = true ∧
    (match fromIndex Ex.ord Ex.db (fun _ => none) .abort 10 [(1, 1)] with
      | .ok fb => decide (fb.fg = [] ∧ fb.af = none ∧ fb.bg ≠ []) | .error _ => false) = true := by decide +kernel

/-! ### C149 -/

/-- **C149** `background_flows` of the proxy lists every reference exchange of every process whose name the search finds, and nothing else -/
theorem proxy_background_flows (a : Arch F P) (hit : String → P → Bool) (search : Option String) (x : Rx F P) :
    x ∈ proxyBackgroundFlows a hit search ↔
      ∃ p ∈ a.procs, p.ext = x.process ∧ (x.flow, x.dir) ∈ p.refs ∧ ∀ s, search = some s → hit s x.process = true := by
  unfold proxyBackgroundFlows
  constructor
  · intro h
    obtain ⟨p, hp, h⟩ := List.mem_flatMap.mp h
    obtain ⟨rx, hrx, rfl⟩ := List.mem_map.mp h
    obtain ⟨h1, h2⟩ := List.mem_filter.mp hrx
    refine ⟨p, hp, rfl, h1, ?_⟩
    rintro s rfl
    simpa [searchSkip] using h2
  · rintro ⟨p, hp, h1, h2, h3⟩
    refine List.mem_flatMap.mpr ⟨p, hp, List.mem_map.mpr ⟨(x.flow, x.dir), List.mem_filter.mpr ⟨h2, ?_⟩, ?_⟩⟩
    · cases search with
      | none => rfl
      | some s => simp [searchSkip, h1, h3 s rfl]
    · rw [h1]

/-- **C149** `foreground` of the proxy is the reference exchange: the one with the flow, or the only one -/
theorem proxy_foreground (a : Arch F P) (e : Ent F P) (he : e ∈ a.procs) (hn : (a.procs.map Ent.ext).Nodup) (opt : Option F) (f : F) (d : Dir)
    (h : (opt = some f ∧ (f, d) ∈ e.refs ∧ (e.refs.filter fun x => decide (x.1 = f)).length = 1) ∨ (opt = none ∧ e.refs = [(f, d)])) :
    proxyForeground a e.ext opt = ([⟨e.ext, f, d⟩], none) := by
  have hfind : a.procs.find? (fun x => decide (x.ext = e.ext)) = some e := by
    have : ∀ l : List (Ent F P), (l.map Ent.ext).Nodup → e ∈ l → l.find? (fun x => decide (x.ext = e.ext)) = some e := by
      intro l
      induction l with
      | nil => intro _ h; cases h
      | cons b l ih =>
        intro hn hm
        obtain ⟨h1, h2⟩ := List.nodup_cons.mp hn
        rcases List.mem_cons.mp hm with rfl | hm
        · simp
        · have : b.ext ≠ e.ext := fun hh => h1 (hh ▸ List.mem_map_of_mem hm)
          rw [List.find?_cons_of_neg (by simpa using this)]
          exact ih h2 hm
    exact this _ hn he
  unfold proxyForeground
  rw [hfind]
  simp only [reference_named h]

/-- **C149** `is_in_background` of the proxy: with a catalog query as index it tells whether the process is known; with the archive's own index it
is true of everything -/
theorem proxy_in_background_partial (a : Arch F P) (p : P) :
    (proxyIsInBackground true a p = true ↔ ∃ e ∈ a.procs, e.ext = p) ∧ proxyIsInBackground false a p = true := by
  unfold proxyIsInBackground
  constructor
  · split
    · rename_i h
      simpa using h
    · rename_i h
      simpa using h
  · split <;> rfl

/-- **C149** `exterior_flows` of the proxy never yields anything: it raises AttributeError exactly if there is an exterior flow to list -/
theorem proxy_exterior_raises (a : Arch F P) (hit : String → F → Bool) (direction : Option Dir) (search : Option String) (l : List F) :
    (proxyExteriorFlows a hit direction search l).1 = [] ∧
    ((proxyExteriorFlows a hit direction search l).2 = some .attribute ↔
      ∃ f ∈ l, (∀ s, search = some s → hit s f = true) ∧
        ¬∃ p ∈ a.procs, ∃ rx ∈ p.refs, rx.1 = f ∧ ∀ d, direction = some d → rx.2 = d.comp) := by
  have hskip : ∀ f, searchSkip hit search f = false ↔ ∀ s, search = some s → hit s f = true := by
    intro f
    cases search <;> simp [searchSkip]
  have hterm : ∀ f, terminated a direction f = true ↔ ∃ p ∈ a.procs, ∃ rx ∈ p.refs, rx.1 = f ∧ ∀ d, direction = some d → rx.2 = d.comp := by
    intro f
    unfold terminated
    rw [List.any_eq_true]
    apply exists_congr; intro p
    apply and_congr_right; intro _
    rw [List.any_eq_true]
    apply exists_congr; intro rx
    apply and_congr_right; intro _
    cases direction with
    | none => simp
    | some d =>
      simp only [Option.isNone_some, Bool.false_or, Option.map_some, Option.some.injEq, Bool.and_eq_true, decide_eq_true_eq]
      constructor
      · rintro ⟨h1, h2⟩; exact ⟨h1, fun d' hd => by rw [← hd, ← h2]⟩
      · rintro ⟨h1, h2⟩; exact ⟨h1, (h2 d rfl).symm⟩
  induction l with
  | nil => simp [proxyExteriorFlows]
  | cons f l ih =>
    unfold proxyExteriorFlows
    by_cases h1 : searchSkip hit search f = true
    · rw [if_pos h1]
      refine ⟨ih.1, ih.2.trans ?_⟩
      constructor
      · rintro ⟨g, hg, h⟩; exact ⟨g, List.mem_cons_of_mem _ hg, h⟩
      · rintro ⟨g, hg, h⟩
        rcases List.mem_cons.mp hg with rfl | hg
        · rw [(hskip g).mpr h.1] at h1; cases h1
        · exact ⟨g, hg, h⟩
    · rw [if_neg h1]
      by_cases h2 : terminated a direction f = true
      · rw [if_pos h2]
        refine ⟨ih.1, ih.2.trans ?_⟩
        constructor
        · rintro ⟨g, hg, h⟩; exact ⟨g, List.mem_cons_of_mem _ hg, h⟩
        · rintro ⟨g, hg, h⟩
          rcases List.mem_cons.mp hg with rfl | hg
          · exact absurd ((hterm g).mp h2) h.2
          · exact ⟨g, hg, h⟩
      · rw [if_neg h2]
        refine ⟨rfl, ⟨fun _ => ⟨f, by simp, (hskip f).mp (by simpa using h1), fun h => h2 ((hterm f).mpr h)⟩, fun _ => rfl⟩⟩

def exArch : Arch ℕ String := { procs := [⟨"steel", [(1, .output)], false⟩, ⟨"waste", [(2, .input), (3, .output)], false⟩], flows := [1, 2, 3, 7] }

example : (proxyBackgroundFlows exArch (fun s p => decide (s = p)) none).length = 3 ∧
    proxyBackgroundFlows exArch (fun s p => decide (s = p)) (some "steel") = [⟨"steel", 1, .output⟩] ∧
    proxyForeground exArch "waste" (some 2) = ([⟨"waste", 2, .input⟩], none) ∧ proxyIsInBackground false exArch "nothing" = true ∧
    proxyExteriorFlows exArch (fun _ _ => true) none none exArch.flows = ([], some .attribute) := by decide +kernel

/-! ### C150 -/

/-- **C150** a query of a process reference is the query of the interface for the flow that is given as an entity or exchange, and without one for
the only reference -/
theorem ref_query_partial {R : Type} (q : Arg F P → Option F → R) (e : Ent F P) (f : F) :
    (∀ dflt, refQuery q e dflt (.flow f) = .ok (q (.str e.ext) (some f))) ∧ (∀ dflt, refQuery q e dflt (.exch f) = .ok (q (.str e.ext) (some f))) ∧
    (∀ d, e.refs = [(f, d)] → refQuery q e (defaultRx e) .none = .ok (q (.str e.ext) (some f))) ∧
    (e.refs.length ≠ 1 → refQuery q e (defaultRx e) .none = .ok (q (.str e.ext) none)) := by
  refine ⟨fun _ => rfl, fun _ => rfl, ?_, ?_⟩
  · intro d h
    simp [refQuery, useRefExch, defaultRx, h, RefFlow.opt]
  · intro h
    have : defaultRx e = none := by
      unfold defaultRx
      split
      · rename_i hr; rw [hr] at h; simp at h
      · rfl
    simp [refQuery, useRefExch, this, RefFlow.opt]

/-- **C150** it fails for every flow given by its id, whatever the process -/
theorem ref_query_string_raises {R : Type} (q : Arg F P → Option F → R) (e : Ent F P) (dflt : Option F) (f : F) :
    refQuery q e dflt (.str f) = .error .attribute := rfl

/-- **C150** and `exchange_relation` without a reference flow always raises -/
theorem ref_relation_none_raises {R : Type} (q : P → F → R) (e : Ent F P) (dflt : Option F) : refRelation q e dflt .none = .error .attribute := by
  cases dflt <;> rfl

/-- **C150** the default reference flow is always that of a reference, whatever it is set to -/
theorem default_is_reference (e : Ent F P) (sets : List F) : ∀ f, sets.foldl (setDefault e) (defaultRx e) = some f → ∃ d, (f, d) ∈ e.refs := by
  have key : ∀ (sets : List F) (old : Option F), (∀ f, old = some f → ∃ d, (f, d) ∈ e.refs) → ∀ f, sets.foldl (setDefault e) old = some f → ∃ d, (f, d) ∈ e.refs := by
    intro sets
    induction sets with
    | nil => intro old h f hf; exact h f hf
    | cons g l ih =>
      intro old h f hf
      refine ih _ ?_ f hf
      intro f' hf'
      unfold setDefault at hf'
      split at hf'
      · rename_i hany
        cases hf'
        obtain ⟨rx, h1, h2⟩ := List.any_eq_true.mp hany
        exact ⟨rx.2, by rw [← (of_decide_eq_true h2 : rx.1 = g)]; exact h1⟩
      · exact h f' hf'
  apply key
  intro f hf
  unfold defaultRx at hf
  split at hf
  · rename_i rx hr
    cases hf
    exact ⟨rx.2, by rw [hr]; simp⟩
  · cases hf

/-- **C150** a default that was set to a reference is used -/
theorem default_used {R : Type} (q : Arg F P → Option F → R) (e : Ent F P) (old : Option F) (f : F) (d : Dir) (h : (f, d) ∈ e.refs) :
    refQuery q e (setDefault e old f) .none = .ok (q (.str e.ext) (some f)) := by
  have : setDefault e old f = some f := by
    unfold setDefault
    rw [if_pos]
    exact List.any_eq_true.mpr ⟨(f, d), h, by simp⟩
  simp [refQuery, useRefExch, this, RefFlow.opt]

example : defaultRx (⟨"waste", [(2, .input), (3, .output)], true⟩ : Ent ℕ String) = none ∧
    [7, 3].foldl (setDefault (⟨"waste", [(2, .input), (3, .output)], true⟩ : Ent ℕ String)) none = some 3 := by decide

end BgI
