import Verif.Model.UnitScore
import Verif.Props.LciaAdd

/-!
Unit scores of terminations (C151–C154).
-/

set_option linter.unusedSectionVars false

namespace USc
open Frg (Dir)

variable {P F Q K En : Type} [DecidableEq F] [DecidableEq Q] [DecidableEq K] [DecidableEq En]

/-! ### specification -/

/-- The LCIA of a list of exchanges exists, and its total is the sum of the impacts of the exchanges (C34 says when). -/
def Linear (env : Env P F Q K En) (imp : String → X F → ℚ) : Prop :=
  ∀ loc xs, ∃ r, env.lcia loc xs = .ok r ∧ r.scale = 1 ∧ r.total = (xs.map (imp loc)).sum

/-- the exchange has flow and direction of a child flow, or of the terminating flow -/
def Represented (env : Env P F Q K En) (t : Term P F) (x : X F) : Prop :=
  (env.ext x.flow = env.ext t.flow ∧ x.dir = t.dir) ∨ ∃ c ∈ t.parent.kids, env.ext x.flow = env.ext c.1 ∧ x.dir = c.2

instance (env : Env P F Q K En) (t : Term P F) (x : X F) : Decidable (Represented env t x) :=
  inferInstanceAs (Decidable (_ ∨ ∃ c ∈ t.parent.kids, _))

theorem observed_iff (env : Env P F Q K En) (t : Term P F) (x : X F) : (env.ext x.flow, x.dir) ∈ t.observed env ↔ Represented env t x := by
  unfold Term.observed Represented
  simp only [List.mem_cons, Prod.mk.injEq, List.mem_map, Prod.exists]
  constructor
  · rintro (h | ⟨a, b, h1, h2, h3⟩)
    · exact Or.inl h
    · exact Or.inr ⟨a, b, h1, h2.symm, h3.symm⟩
  · rintro (h | ⟨a, b, h1, h2, h3⟩)
    · exact Or.inl h
    · exact Or.inr ⟨a, b, h1, h2.symm, h3.symm⟩

theorem sum_split {α : Type} (p : α → Prop) [DecidablePred p] (f : α → ℚ) : ∀ l : List α,
    ((l.filter fun x => decide (¬p x)).map f).sum + ((l.filter fun x => decide (p x)).map f).sum = (l.map f).sum
  | [] => by simp
  | a :: l => by
    have ih := sum_split p f l
    by_cases h : p a
    · simp only [List.filter_cons, h, not_true_eq_false, decide_false, decide_true, Bool.false_eq_true, if_false, if_true, List.map_cons, List.sum_cons]
      linarith
    · simp only [List.filter_cons, h, not_false_eq_true, decide_false, decide_true, Bool.false_eq_true, if_false, if_true, List.map_cons, List.sum_cons]
      linarith

/-! ### C151 processes -/

theorem unobserved_proc {env : Env P F Q K En} {t : Term P F} {p : P} (h : t.node = .proc p false) {xs : List (X F)}
    (hx : (if t.parent.bg then env.lci p t.flow else env.inventory p t.flow t.dir) = .ok xs) :
    t.unobserved env = .ok (xs.filter fun x => decide (¬Represented env t x)) := by
  have hne : t.nodeExchanges env = .ok xs := by simp only [Term.nodeExchanges, h, hx]
  simp only [Term.unobserved, Term.isFg, Term.termIsBg, h, Bool.false_eq_true, if_false, hne, Except.ok.injEq]
  apply List.filter_congr
  intro x _
  rw [decide_eq_decide, observed_iff]

theorem unitScore_proc {env : Env P F Q K En} {t : Term P F} {p : P} {b : Bool} (h : t.node = .proc p b) :
    t.unitScore env = t.compute env := by
  simp [Term.unitScore, Term.isSubfrag, Term.isFrag, h]

/-- **C151** the unit score of a node that is a process of another origin is the impact of its inventory (its LCI if the fragment is background),
per unit of the terminating flow, without the exchanges that a child flow or the terminating flow represents -/
theorem score_process (env : Env P F Q K En) (imp : String → X F → ℚ) (hl : Linear env imp) (t : Term P F) (p : P) (h : t.node = .proc p false)
    (xs : List (X F)) (hx : (if t.parent.bg then env.lci p t.flow else env.inventory p t.flow t.dir) = .ok xs) :
    ∃ r, t.unitScore env = .ok r ∧
      r.total + ((xs.filter fun x => decide (Represented env t x)).map (imp ((env.scope p).getD "GLO"))).sum =
        (xs.map (imp ((env.scope p).getD "GLO"))).sum := by
  obtain ⟨r, h1, _, h3⟩ := hl ((env.scope p).getD "GLO") (xs.filter fun x => decide (¬Represented env t x))
  refine ⟨r, ?_, ?_⟩
  · rw [unitScore_proc h]
    simp only [Term.compute, Term.doLcia, unobserved_proc h hx, Term.locale, h, h1]
  · rw [h3]; exact sum_split _ _ xs

/-- **C151** what one child flow represents is left out altogether: exchanges of its flow and direction, whatever their terminations and values,
do not change the score -/
theorem represented_irrelevant (env : Env P F Q K En) (t : Term P F) (p : P) (h : t.node = .proc p false)
    (xs ys : List (X F)) (hb : t.parent.bg = false) (inv : P → F → Dir → Except Err (List (X F)))
    (hx : env.inventory p t.flow t.dir = .ok xs) (hy : inv p t.flow t.dir = .ok ys)
    (he : (xs.filter fun x => decide (¬Represented env t x)) = ys.filter fun x => decide (¬Represented env t x)) :
    t.unitScore { env with inventory := inv } = t.unitScore env := by
  have h1 := unobserved_proc (env := env) h (xs := xs) (by simp [hb, hx])
  have h2 := unobserved_proc (env := { env with inventory := inv }) h (xs := ys) (by simp [hb, hy])
  rw [unitScore_proc h, unitScore_proc h]
  have h3 : (ys.filter fun x => decide (¬Represented { env with inventory := inv } t x)) = xs.filter fun x => decide (¬Represented env t x) := he.symm
  rw [h3] at h2
  unfold Term.compute Term.doLcia
  rw [h1, h2]
  simp only [Term.locale, h, hb, Bool.false_eq_true, if_false]

/-- **C151** fails for every process of the fragment's own origin: the score raises AttributeError -/
theorem local_process_raises (env : Env P F Q K En) (t : Term P F) (p : P) (h : t.node = .proc p true) :
    t.unitScore env = .error .attribute := by
  rw [unitScore_proc h]
  simp [Term.compute, Term.doLcia, Term.unobserved, Term.isFg, Term.termIsBg, h]

/-- **C151** fails for every process of a private database: although such databases can answer LCIA queries, the score raises AttributeError -/
theorem private_raises (env : Env P F Q K En) (t : Term P F) (p : P) (b : Bool) (h : t.node = .proc p b)
    (hx : (if t.parent.bg then env.lci p t.flow else env.inventory p t.flow t.dir) = .error .priv) :
    t.unitScore env = .error .attribute := by
  cases b with
  | true => exact local_process_raises env t p h
  | false =>
    have hne : t.nodeExchanges env = .error .priv := by simp only [Term.nodeExchanges, h, hx]
    rw [unitScore_proc h]
    simp only [Term.compute, Term.doLcia, Term.unobserved, Term.isFg, Term.termIsBg, h, Bool.false_eq_true, if_false, hne]
    cases t.parent.bg <;> simp [refLcia, BgI.useRefExch]

/-- **C151** fails for every background fragment terminated to another fragment: the score raises -/
theorem bg_fragment_raises (env : Env P F Q K En) (t : Term P F) (i : ℕ) (r b o : Bool) (h : t.node = .frag i r b o) (hb : t.parent.bg = true) :
    t.unitScore env = .error (if r then .type else .attribute) := by
  have : t.isSubfrag = .ok false := by simp [Term.isSubfrag, Term.isFrag, Term.isFg, h, hb]
  simp only [Term.unitScore, this, hb, if_true, h, bgLciaFrag]
  cases r <;> rfl

/-- **C151** subfragments: one that is followed has no score of its own, one that is aggregated has that of its flows -/
theorem score_subfragment (env : Env P F Q K En) (t : Term P F) (i : ℕ) (r b o : Bool) (h : t.node = .frag i r b o) (hb : t.parent.bg = false)
    (hn : b = false ∨ r = true ∨ o = false) : t.unitScore env = if t.descend then .ok {} else .error .subAggregation := by
  have : t.isSubfrag = .ok true := by
    rcases hn with hn | hn | hn <;> simp [Term.isSubfrag, Term.isFrag, Term.isFg, Term.termIsBg, h, hb, hn, Except.map]
  simp only [Term.unitScore, this]

/-! ### C152 foreground nodes -/

/-- **C152** the unit score of a foreground node is the impact of one exchange: the terminating flow, with the conversion as value -/
theorem fg_score (env : Env P F Q K En) (t : Term P F) (h : t.node = .self) (hb : t.parent.bg = false) (c : ℚ)
    (hc : Frg.conversion env.flows t.parent.flow t.flow = .ok c) (hp : ∀ loc xs, env.lcia loc xs ≠ .error .priv) :
    t.unitScore env = env.lcia "GLO" [⟨t.flow, t.dir, some c, none⟩] := by
  have : t.isSubfrag = .ok false := by simp [Term.isSubfrag, Term.isFrag, Term.isFg, h]
  simp only [Term.unitScore, this, hb, Bool.false_eq_true, if_false, Term.compute, Term.doLcia, Term.unobserved, Term.isFg, h, Term.multiplier, hc,
    if_true, Term.locale]
  have := hp "GLO" [⟨t.flow, t.dir, some c, none⟩]
  cases hl : env.lcia "GLO" [⟨t.flow, t.dir, some c, none⟩] with
  | ok r => rfl
  | error e => cases e <;> first | rfl | exact absurd hl this

/-- the impact of one unit of the flow in the direction -/
def Unital (imp : String → X F → ℚ) (u : F → Dir → ℚ) : Prop := ∀ f d v, imp "GLO" ⟨f, d, some v, none⟩ = v * u f d

/-- **C152** an inner foreground node counts its magnitude with the square of the flow conversion, since node weight and unit score both contain
it; this is right exactly if the conversion is 1 or 0 or there is nothing to count -/
theorem fg_conversion_squared (env : Env P F Q K En) (imp : String → X F → ℚ) (hl : Linear env imp) (u : F → Dir → ℚ) (hu : Unital imp u)
    (t : Term P F) (h : t.node = .self) (hb : t.parent.bg = false) (c : ℚ) (hc : Frg.conversion env.flows t.parent.flow t.flow = .ok c)
    (n : Frg.Node F Q) (hn : n.flow = t.parent.flow) (hp : n.parent ≠ none) (term : Frg.Term F) (ht : term.flow = t.flow) (h0 : term.isNull = false)
    (up mag : ℚ) :
    ∃ nw r, Frg.nodeWeight env.flows n term up mag = .ok nw ∧ t.unitScore env = .ok r ∧ nw * r.total = mag * c ^ 2 * u t.flow t.dir ∧
      (nw * r.total = mag * c * u t.flow t.dir ↔ c = 1 ∨ c = 0 ∨ mag = 0 ∨ u t.flow t.dir = 0) := by
  obtain ⟨r, h1, _, h3⟩ := hl "GLO" [⟨t.flow, t.dir, some c, none⟩]
  have hpr : ∀ loc xs, env.lcia loc xs ≠ .error .priv := fun loc xs => by
    obtain ⟨r, h, _⟩ := hl loc xs
    simp [h]
  have hr : r.total = c * u t.flow t.dir := by rw [h3]; simp [hu t.flow t.dir c]
  have key : mag * c * r.total = mag * c ^ 2 * u t.flow t.dir := by rw [hr]; ring
  refine ⟨mag * c, r, ?_, (fg_score env t h hb c hc hpr).trans h1, key, ?_⟩
  · simp [Frg.nodeWeight, hp, h0, hn, ht, hc, Except.map]
  · rw [key]
    constructor
    · intro he
      have : mag * u t.flow t.dir * (c * (c - 1)) = 0 := by linear_combination he
      rcases mul_eq_zero.mp this with h | h
      · rcases mul_eq_zero.mp h with h | h <;> tauto
      · rcases mul_eq_zero.mp h with h | h
        · tauto
        · exact Or.inl (by linarith)
    · rintro (h | h | h | h) <;> simp [h]

/-- **C152** a reference fragment that is a foreground node counts one unit of its flow, whatever its amount -/
theorem fg_reference_unit (env : Env P F Q K En) (imp : String → X F → ℚ) (hl : Linear env imp) (u : F → Dir → ℚ) (hu : Unital imp u)
    (t : Term P F) (h : t.node = .self) (hb : t.parent.bg = false) (c : ℚ) (hc : Frg.conversion env.flows t.parent.flow t.flow = .ok c)
    (n : Frg.Node F Q) (hp : n.parent = none) (term : Frg.Term F) (up mag : ℚ) :
    ∃ r, Frg.nodeWeight env.flows n term up mag = .ok up ∧ t.unitScore env = .ok r ∧ up * r.total = up * c * u t.flow t.dir := by
  obtain ⟨r, h1, _, h3⟩ := hl "GLO" [⟨t.flow, t.dir, some c, none⟩]
  have hpr : ∀ loc xs, env.lcia loc xs ≠ .error .priv := fun loc xs => by
    obtain ⟨r, h, _⟩ := hl loc xs
    simp [h]
  refine ⟨r, by simp [Frg.nodeWeight, hp], (fg_score env t h hb c hc hpr).trans h1, ?_⟩
  rw [h3]; simp [hu t.flow t.dir c]; ring

/-- **C152** the sign: if the factor of the flow has a natural direction (`Output` for emissions, `Input` for resources), a fragment that has this
direction, say an emission leaving the node, counts negatively, one against it positively: for both directions of the termination -/
theorem emission_negative (env : Env P F Q K En) (imp : String → X F → ℚ) (hl : Linear env imp) (nat : F → Dir) (k : F → ℚ)
    (hu : Unital imp fun f d => (if d = nat f then 1 else -1) * k f)
    (t : Term P F) (h : t.node = .self) (hb : t.parent.bg = false) (c : ℚ) (hc : Frg.conversion env.flows t.parent.flow t.flow = .ok c) (nw : ℚ) :
    ∃ r, t.unitScore env = .ok r ∧
      (if t.dir = t.parent.dir then -nw else nw) * r.total = (if t.parent.dir = nat t.flow then -1 else 1) * (nw * c * k t.flow) := by
  obtain ⟨r, h1, _, h3⟩ := hl "GLO" [⟨t.flow, t.dir, some c, none⟩]
  have hpr : ∀ loc xs, env.lcia loc xs ≠ .error .priv := fun loc xs => by
    obtain ⟨r, h, _⟩ := hl loc xs
    simp [h]
  refine ⟨r, (fg_score env t h hb c hc hpr).trans h1, ?_⟩
  rw [h3]
  simp only [List.map_cons, List.map_nil, List.sum_cons, List.sum_nil, hu t.flow t.dir c, add_zero]
  cases h1 : t.dir <;> cases h2 : t.parent.dir <;> cases h3 : nat t.flow <;> simp <;> ring

/-! ### the LCIA of `do_lcia` is linear -/

/-- directions of the model of LCIA results -/
def dirL : Dir → Lcia.Dir
  | .input => .input
  | .output => .output

/-- an exchange as `do_lcia` sees it, with the factor of its flow -/
def exchL (fac : F → Option Lcia.Factor) (loc : String) (x : X F) : Lcia.Exch F := ⟨x.flow, x.value, dirL x.dir, fac x.flow, loc⟩

/-- the LCIA by `do_lcia` of Model/Lcia -/
def byFactors (fac : F → Option Lcia.Factor) (key : F → K) (ent : F → En) (loc : String) (xs : List (X F)) : Except Err (Res K En F) :=
  match Lcia.doLcia key ent (xs.map (exchL fac loc)) {} with
  | .ok r => .ok r
  | .error e => .error (.lcia e)

/-- the hypothesis `Linear` holds for `do_lcia` with any factors that are nonzero globally or zero everywhere -/
theorem linear_byFactors (env : Env P F Q K En) (fac : F → Option Lcia.Factor) (key : F → K) (ent : F → En) (he : env.lcia = byFactors fac key ent)
    (hf : ∀ loc x, (exchL fac loc x).cf = some 0 → (exchL fac loc x).score = 0) :
    Linear env fun loc x => (exchL fac loc x).score := by
  intro loc xs
  obtain ⟨r, h1, h2⟩ := Lcia.lcia_total_partial key ent (xs.map (exchL fac loc)) (by
    intro x hx h
    obtain ⟨y, _, rfl⟩ := List.mem_map.mp hx
    exact hf loc y h)
  refine ⟨r, by simp [he, byFactors, h1], (Lcia.doLcia_total key ent _ _ _ h1).1, ?_⟩
  rw [h2, List.map_map]
  rfl

/-! ### examples -/

namespace Ex

/-- CO2 has the factor 2, natural direction Output; sulfur is a quantity of its own with conversion 3 to kg SO2, whose factor is 5 -/
def fac : String → Option Lcia.Factor
  | "co2" => some { locs := [("GLO", some 2)], nat := some .output }
  | "so2" => some { locs := [("GLO", some 5)] }
  | "elec" => some { locs := [("GLO", some 7)] }
  | _ => none

def env : Env ℕ String String String String where
  ext := id
  flows := { cf := fun f q => if f = "S" ∧ q = "kg SO2" then 3 else 0, refQ := fun f => if f = "S" then "kg S" else if f = "so2" then "kg SO2" else "kg" }
  lcia := byFactors fac id id
  inventory := fun p _ _ => if p = 9 then .error .priv else .ok [⟨"co2", .output, some 4, none⟩, ⟨"elec", .input, some 10, some "A"⟩, ⟨"elec", .input, some 20, some "B"⟩]
  lci := fun _ _ => .ok [⟨"co2", .output, some 100, none⟩]
  scope := fun _ => none
  dflt := fun _ => none
  fgLcia := fun _ _ => .ok {}
  bgLcia := fun _ _ => .ok {}
  remote := fun _ => .ok {}

theorem fac_ok : ∀ loc x, (exchL fac loc x).cf = some 0 → (exchL fac loc x).score = 0 := by
  intro loc x
  simp only [exchL, fac]
  split <;> simp [Lcia.Exch.cf, Lcia.Exch.score, Lcia.Factor.raw, Dict.get?]

theorem env_linear : Linear env fun loc x => (exchL fac loc x).score := linear_byFactors env fac id id rfl fac_ok

def term : Term ℕ String := { parent := ⟨"product", .output, false, [("elec", .input)]⟩, node := .proc 1 false, flow := "product", dir := .input, descend := true }

/-- the hypotheses of C151 are met: of CO2 8, electricity 70 and 140, only CO2 counts; **C151** fails: one child flow for electricity, and both
supplies are left out -/
theorem twin_lost : (term.unitScore env).map Lcia.Result.total = .ok 8 ∧
    env.inventory 1 "product" .input = .ok [⟨"co2", .output, some 4, none⟩, ⟨"elec", .input, some 10, some "A"⟩, ⟨"elec", .input, some 20, some "B"⟩] ∧
    ({ term with parent := { term.parent with kids := [] } }.unitScore env).map Lcia.Result.total = .ok 218 := by decide +kernel

example : ∃ r, term.unitScore env = .ok r ∧ r.total + 210 = 218 := by
  obtain ⟨r, h1, h2⟩ := score_process env _ env_linear term 1 rfl _ rfl
  refine ⟨r, h1, ?_⟩
  have e1 : (([⟨"co2", .output, some 4, none⟩, ⟨"elec", .input, some 10, some "A"⟩, ⟨"elec", .input, some 20, some "B"⟩] : List (X String)).filter
      fun x => decide (Represented env term x)).map (fun x => (exchL fac "GLO" x).score) = [70, 140] := by decide +kernel
  have e2 : ([⟨"co2", .output, some 4, none⟩, ⟨"elec", .input, some 10, some "A"⟩, ⟨"elec", .input, some 20, some "B"⟩] : List (X String)).map
      (fun x => (exchL fac "GLO" x).score) = [8, 70, 140] := by decide +kernel
  have e3 : (env.scope 1).getD "GLO" = "GLO" := rfl
  rw [e3] at h2
  erw [e1, e2] at h2
  norm_num at h2 ⊢
  exact h2

/-- a background fragment uses the LCI -/
example : ({ term with parent := { term.parent with bg := true } }.unitScore env).map Lcia.Result.total = .ok 200 := by decide +kernel

example : ({ term with node := .proc 1 true }).unitScore env = .error .attribute := local_process_raises env _ 1 rfl

example : ({ term with node := .proc 9 false }).unitScore env = .error .attribute := private_raises env _ 9 false rfl rfl

example : ({ term with node := .frag 3 false false true, parent := { term.parent with bg := true } }).unitScore env = .error .attribute :=
  bg_fragment_raises env _ 3 false false true rfl rfl

example : ({ term with node := .frag 3 false false true }).unitScore env = .ok {} := score_subfragment env _ 3 false false true rfl rfl (.inl rfl)

/-- sulfur emitted as SO2: 10 kg S are 30 kg SO2 with impact 150; 450 is counted -/
def sulfur : Term ℕ String := { parent := ⟨"S", .output, false, []⟩, node := .self, flow := "so2", dir := .input, descend := true }

theorem env_unital : Unital (fun loc x => (exchL fac loc x).score)
    fun f d => (exchL fac "GLO" ⟨f, d, some 1, none⟩).score := by
  intro f d v
  simp only [exchL, Lcia.Exch.score]
  split
  · simp
  · simp only [Option.getD_some]; rw [one_mul, mul_assoc]; rfl

example : ∃ nw r, Frg.nodeWeight env.flows { parent := some 0, flow := "S", dir := .output, evs := [], terms := [] } { target := .frag 1, flow := "so2" } 1 10 = .ok nw ∧
    sulfur.unitScore env = .ok r ∧ nw * r.total = 450 := by
  obtain ⟨nw, r, h1, h2, h3, _⟩ := fg_conversion_squared env _ env_linear _ env_unital sulfur rfl rfl 3 (by decide +kernel)
    { parent := some 0, flow := "S", dir := .output, evs := [], terms := [] } rfl (by simp) { target := .frag 1, flow := "so2" } rfl rfl 1 10
  refine ⟨nw, r, h1, h2, ?_⟩
  have e : (exchL fac "GLO" ⟨sulfur.flow, sulfur.dir, some 1, none⟩).score = 5 := by decide +kernel
  rw [h3, e]; norm_num

/-- an emission of CO2 leaving a node: 4 kg with factor 2 count as -8, with either direction of the termination -/
def co2 (d : Dir) : Term ℕ String := { parent := ⟨"co2", .output, false, []⟩, node := .self, flow := "co2", dir := d, descend := true }

example : ((co2 .input).unitScore env).map (fun r => 4 * r.total) = .ok (-8) ∧ ((co2 .output).unitScore env).map (fun r => -4 * r.total) = .ok (-8) := by
  decide +kernel

/-- every flow is an emission with factor 2 -/
def fac2 (_ : String) : Option Lcia.Factor := some { locs := [("GLO", some 2)], nat := some .output }

def env2 : Env ℕ String String String String := { env with lcia := byFactors fac2 id id }

theorem env2_linear : Linear env2 fun loc x => (exchL fac2 loc x).score :=
  linear_byFactors env2 fac2 id id rfl fun loc x => by simp [exchL, fac2, Lcia.Exch.cf, Lcia.Factor.raw, Dict.get?]

theorem env2_unital : Unital (fun loc x => (exchL fac2 loc x).score) fun f d => (if d = (fun _ => Dir.output) f then 1 else -1) * (fun _ => (2 : ℚ)) f := by
  intro f d v
  cases d <;> simp [exchL, fac2, Lcia.Exch.score, dirL, Dict.get?]

example : ∃ r, (co2 .input).unitScore env2 = .ok r ∧ (if (co2 .input).dir = .output then -4 else 4) * r.total = -8 := by
  obtain ⟨r, h1, h2⟩ := emission_negative env2 _ env2_linear _ _ env2_unital (co2 .input) rfl rfl 1 (by decide +kernel) 4
  refine ⟨r, h1, ?_⟩
  have e : (co2 .input).parent.dir = .output := rfl
  rw [e] at h2
  rw [h2]; norm_num

end Ex

end USc
