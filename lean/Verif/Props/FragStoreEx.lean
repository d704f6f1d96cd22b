import Verif.Props.FragStoreBad

/-!
C112-C118: a foreground that meets the hypotheses, and foregrounds that do not.
-/

namespace FgS
open Frg (Key Dir saveEvs loadRest WellNamed)

/-! ### a foreground -/

def exEnv : Env where
  ref := "fg.x"
  tu s := match s.toList with | 'u' :: _ => some s | _ => none
  lower := String.toLower
  fetch o x := if o = "eco" ∧ x = "p1" then .ok (.ent ⟨"process", "eco", "p1"⟩)
    else if o = "eco" ∧ x = "flow2" then .ok (.flow { isEnt := false, origin := "eco", ext := "flow2", uuid := "uf2" })
    else .error .entityNotFound

def flow1 : Flow := { origin := "fg.x", ext := "uf1", uuid := "uf1" }
def flow2 : Flow := { isEnt := false, origin := "eco", ext := "flow2", uuid := "uf2" }
def flow3 : Flow := { origin := "fg.x", ext := "uf3", uuid := "uf3" }

def exBase : Ix where
  links := [("fg.x/uf1", .flow flow1), ("eco/flow2", .flow flow2), ("fg.x/uf3", .flow flow3)]
  uuids := [("uf1", ["fg.x/uf1"]), ("uf2", ["eco/flow2"]), ("uf3", ["fg.x/uf3"])]

def exTags : LDict.St String Val := [("Name", .json "\"a\""), ("Comment", .json "\"\""), ("StageName", .json "\"use\""), ("data", .json "{}")]

/-- a reference fragment "root" with two child flows, one of them a balance -/
def fr1 : Frag where
  ext := some "root"
  kids := ["u3", "u2"]
  flow := flow1
  dir := .output
  cons := some "q"
  evs := [(.cached, some 1), (.observed, some 2)]
  terms := [(none, { node := .frag "u1", flow := flow1, dir := .input })]
  tags := exTags

/-- a child flow, terminated to the background fragment, and to a process in a scenario -/
def fr2 : Frag where
  parent := some "u1"
  flow := flow2
  dir := .input
  evs := [(.cached, some 3), (.observed, some 0), (.str "high", some 5)]
  terms := [(none, { node := .frag "u4", flow := flow3, dir := .output, descend := false }),
            (some "alt", { node := .ent ⟨"process", "eco", "p1"⟩, flow := flow2, dir := .output })]
  tags := exTags

/-- the balance, left a cutoff -/
def fr3 : Frag where
  parent := some "u1"
  flow := flow3
  dir := .output
  bal := true
  evs := [(.cached, some 1), (.observed, some 0)]
  terms := [(none, { node := .null, flow := flow3, dir := .input })]
  tags := exTags

/-- a background reference fragment -/
def fr4 : Frag where
  ext := some "grid"
  flow := flow3
  dir := .output
  bg := true
  evs := [(.cached, some 1), (.observed, some 0)]
  terms := [(none, { node := .ent ⟨"process", "eco", "p1"⟩, flow := flow2, dir := .input })]
  tags := exTags

def exFg : Fore where
  frags := [("u1", fr1), ("u2", fr2), ("u3", fr3), ("u4", fr4)]
  ix := { exBase with links := exBase.links ++ [("fg.x/root", .frag "u1"), ("fg.x/u2", .frag "u2"), ("fg.x/u3", .frag "u3"),
                                                ("fg.x/grid", .frag "u4")] }

theorem exCases {u : String} {f : Frag} (h : exFg.frags.get? u = some f) :
    (u = "u1" ∧ f = fr1) ∨ (u = "u2" ∧ f = fr2) ∨ (u = "u3" ∧ f = fr3) ∨ (u = "u4" ∧ f = fr4) := by
  have := Dict.mem_of_get?_eq_some _ h
  simpa [exFg] using this

theorem exParent {c p : String} (h : Parent exFg c p) : (c = "u2" ∨ c = "u3") ∧ p = "u1" := by
  obtain ⟨f, hf, hp⟩ := h
  rcases exCases hf with ⟨rfl, rfl⟩ | ⟨rfl, rfl⟩ | ⟨rfl, rfl⟩ | ⟨rfl, rfl⟩
  · simp [fr1] at hp
  · simp [fr2] at hp; simp [hp]
  · simp [fr3] at hp; simp [hp]
  · simp [fr4] at hp

theorem exG1 : exFg.frags.get? "u1" = some fr1 := rfl
theorem exG2 : exFg.frags.get? "u2" = some fr2 := rfl
theorem exG3 : exFg.frags.get? "u3" = some fr3 := rfl
theorem exG4 : exFg.frags.get? "u4" = some fr4 := rfl
theorem exP2 : Parent exFg "u2" "u1" := ⟨fr2, rfl, rfl⟩
theorem exP3 : Parent exFg "u3" "u1" := ⟨fr3, rfl, rfl⟩

theorem exLinks {l u : String} (h : exFg.ix.links.get? l = some (.frag u)) :
    (l = "fg.x/root" ∧ u = "u1") ∨ (l = "fg.x/u2" ∧ u = "u2") ∨ (l = "fg.x/u3" ∧ u = "u3") ∨ (l = "fg.x/grid" ∧ u = "u4") := by
  have := Dict.mem_of_get?_eq_some _ h
  simpa [exFg, exBase] using this

theorem exTrees : Trees exFg where
  nodup := by decide +kernel
  stored l u h := by
    rcases exLinks h with ⟨-, rfl⟩ | ⟨-, rfl⟩ | ⟨-, rfl⟩ | ⟨-, rfl⟩
    exacts [⟨_, exG1⟩, ⟨_, exG2⟩, ⟨_, exG3⟩, ⟨_, exG4⟩]
  once l l' u h h' := by
    rcases exLinks h with ⟨rfl, rfl⟩ | ⟨rfl, rfl⟩ | ⟨rfl, rfl⟩ | ⟨rfl, rfl⟩ <;>
      rcases exLinks h' with ⟨rfl, e⟩ | ⟨rfl, e⟩ | ⟨rfl, e⟩ | ⟨rfl, e⟩ <;> first | rfl | (simp at e)
  kids p g c h := by
    constructor
    · intro hc
      rcases exCases h with ⟨rfl, rfl⟩ | ⟨rfl, rfl⟩ | ⟨rfl, rfl⟩ | ⟨rfl, rfl⟩
      · simp [fr1] at hc
        rcases hc with rfl | rfl
        exacts [exP3, exP2]
      · simp [fr2] at hc
      · simp [fr3] at hc
      · simp [fr4] at hc
    · intro hc
      obtain ⟨h1, rfl⟩ := exParent hc
      rw [exG1] at h; obtain rfl := Option.some.inj h
      rcases h1 with rfl | rfl <;> simp [fr1]
  parent c p h := by obtain ⟨-, rfl⟩ := exParent h; exact ⟨_, exG1⟩
  kidsOnce p g h := by
    rcases exCases h with ⟨rfl, rfl⟩ | ⟨rfl, rfl⟩ | ⟨rfl, rfl⟩ | ⟨rfl, rfl⟩ <;> decide +kernel
  acyclic := ⟨fun u => if u = "u1" then 0 else 1, by
    intro c p h
    obtain ⟨h1, rfl⟩ := exParent h
    rcases h1 with rfl | rfl <;> decide⟩

theorem exRoot1 : Root exFg "u1" := ⟨⟨"fg.x/root", rfl⟩, fr1, rfl, rfl⟩
theorem exRoot4 : Root exFg "u4" := ⟨⟨"fg.x/grid", rfl⟩, fr4, rfl, rfl⟩
theorem exIn1 : In exFg "u1" := ⟨_, exRoot1, .refl⟩
theorem exIn2 : In exFg "u2" := ⟨_, exRoot1, .single exP2⟩
theorem exIn3 : In exFg "u3" := ⟨_, exRoot1, .single exP3⟩
theorem exIn4 : In exFg "u4" := ⟨_, exRoot4, .refl⟩

theorem exIn {u : String} (h : In exFg u) : u = "u1" ∨ u = "u2" ∨ u = "u3" ∨ u = "u4" := by
  obtain ⟨r, hr, hb⟩ := h
  rcases Relation.ReflTransGen.cases_head hb with rfl | ⟨q, hq, -⟩
  · obtain ⟨f, hf, -⟩ := hr.2
    rcases exCases hf with ⟨rfl, -⟩ | ⟨rfl, -⟩ | ⟨rfl, -⟩ | ⟨rfl, -⟩ <;> simp
  · rcases (exParent hq).1 with rfl | rfl <;> simp

theorem exGoodTags : GoodTags exEnv exTags where
  distinct := by show (exTags.map fun p => p.1.toLower).Nodup; decide +kernel
  free := by decide +kernel
  value := by decide +kernel
  settable := by
    have : ∀ kv ∈ exTags, kv.1 ≠ "EntityType" ∧ kv.1.toLower ∉ ["parent", "entityid", "entitytype", "externalid", "origin"] := by
      decide +kernel
    exact this
  initial := by
    have : ∀ k ∈ ["Name", "Comment", "StageName"], (LDict.getItem String.toLower exTags k).isSome = true := by decide +kernel
    exact this

theorem exFinds1 : Finds exEnv exBase "uf1" flow1 := ⟨by decide, "uf1", "fg.x/uf1", rfl, rfl, rfl⟩
theorem exFinds2 : Finds exEnv exBase "uf2" flow2 := ⟨by decide, "uf2", "eco/flow2", rfl, rfl, rfl⟩
theorem exFinds3 : Finds exEnv exBase "uf3" flow3 := ⟨by decide, "uf3", "fg.x/uf3", rfl, rfl, rfl⟩

theorem exNames {v : String} {g : Frag} (h : exFg.frags.get? v = some g) : extOf v g ∈ ["root", "u2", "u3", "grid"] := by
  rcases exCases h with ⟨rfl, rfl⟩ | ⟨rfl, rfl⟩ | ⟨rfl, rfl⟩ | ⟨rfl, rfl⟩ <;> decide +kernel

theorem exNot {k v : String} {g : Frag} (h : exFg.frags.get? v = some g) (hk : k ∉ ["root", "u2", "u3", "grid"]) : extOf v g ≠ k :=
  fun e => hk (e ▸ exNames h)

theorem exTerms {u : String} {f : Frag} {sc : Option String} {t : Term} (hf : exFg.frags.get? u = some f)
    (h : f.terms.get? sc = some t) : GoodTerm exEnv exBase exFg f t := by
  have hm := Dict.mem_of_get?_eq_some _ h
  have h3 : ∀ v g, In exFg v → exFg.frags.get? v = some g → extOf v g ≠ "uf3" := fun v g _ hg => exNot hg (by decide +kernel)
  rcases exCases hf with ⟨rfl, rfl⟩ | ⟨rfl, rfl⟩ | ⟨rfl, rfl⟩ | ⟨rfl, rfl⟩
  · have ht : t = { node := .frag "u1", flow := flow1, dir := .input } := by simp [fr1] at hm; exact hm.2
    subst ht
    have he : flow1.eq fr1.flow = true := by decide +kernel
    constructor
    · intro v hv; obtain rfl : "u1" = v := by simpa using hv
      exact exIn1
    · intro e he; simp at he
    · intro v _ h1; rw [he] at h1; simp at h1
    · intro _ h1; rw [he] at h1; simp at h1
  · have ht : t = { node := .frag "u4", flow := flow3, dir := .output, descend := false } ∨
        t = { node := .ent ⟨"process", "eco", "p1"⟩, flow := flow2, dir := .output } := by
      simp [fr2] at hm; exact hm.imp (fun h => h.2) fun h => h.2
    rcases ht with rfl | rfl
    · constructor
      · intro v hv; obtain rfl : "u4" = v := by simpa using hv
        exact exIn4
      · intro e he; simp at he
      · intro v _ _ _; exact ⟨exFinds3, h3⟩
      · intro _ _ h2; exact absurd ⟨⟨"u4", rfl⟩, rfl⟩ h2
    · have he : flow2.eq fr2.flow = true := by decide +kernel
      constructor
      · intro v hv; simp at hv
      · intro e he; obtain rfl : (⟨"process", "eco", "p1"⟩ : Ent) = e := by simpa using he
        exact ⟨by decide, by decide, rfl⟩
      · intro v hv; simp at hv
      · intro _ h1; rw [he] at h1; simp at h1
  · have ht : t = { node := .null, flow := flow3, dir := .input } := by simp [fr3] at hm; exact hm.2
    subst ht
    constructor
    · intro v hv; simp at hv
    · intro e he; simp at he
    · intro v hv; simp at hv
    · intro h; exact absurd rfl h
  · have ht : t = { node := .ent ⟨"process", "eco", "p1"⟩, flow := flow2, dir := .input } := by simp [fr4] at hm; exact hm.2
    subst ht
    constructor
    · intro v hv; simp at hv
    · intro e he; obtain rfl : (⟨"process", "eco", "p1"⟩ : Ent) = e := by simpa using he
      exact ⟨by decide, by decide, rfl⟩
    · intro v hv; simp at hv
    · intro _ _ _; rfl

theorem exGood : Good exEnv exBase exFg where
  slash := by decide +kernel
  noNames := rfl
  notUuid := by decide +kernel
  uuid u h := by rcases exIn h with rfl | rfl | rfl | rfl <;> decide +kernel
  name u f _ hf := by
    rcases exCases hf with ⟨rfl, rfl⟩ | ⟨rfl, rfl⟩ | ⟨rfl, rfl⟩ | ⟨rfl, rfl⟩ <;> decide +kernel
  nameOnce u f v g _ _ hf hg e := by
    rcases exCases hf with ⟨rfl, rfl⟩ | ⟨rfl, rfl⟩ | ⟨rfl, rfl⟩ | ⟨rfl, rfl⟩ <;>
      rcases exCases hg with ⟨rfl, rfl⟩ | ⟨rfl, rfl⟩ | ⟨rfl, rfl⟩ | ⟨rfl, rfl⟩ <;> revert e <;> decide +kernel
  nameUuid u f v _ hv hf e := by
    rcases exCases hf with ⟨rfl, rfl⟩ | ⟨rfl, rfl⟩ | ⟨rfl, rfl⟩ | ⟨rfl, rfl⟩ <;>
      rcases exIn hv with rfl | rfl | rfl | rfl <;> revert e <;> decide +kernel
  flow u f _ hf := by
    rcases exCases hf with ⟨rfl, rfl⟩ | ⟨rfl, rfl⟩ | ⟨rfl, rfl⟩ | ⟨rfl, rfl⟩
    · exact ⟨exFinds1, fun v g _ hg => exNot hg (by decide +kernel)⟩
    · exact ⟨exFinds2, fun v g _ hg => exNot hg (by decide +kernel)⟩
    · exact ⟨exFinds3, fun v g _ hg => exNot hg (by decide +kernel)⟩
    · exact ⟨exFinds3, fun v g _ hg => exNot hg (by decide +kernel)⟩
  tags u f _ hf := by
    rcases exCases hf with ⟨rfl, rfl⟩ | ⟨rfl, rfl⟩ | ⟨rfl, rfl⟩ | ⟨rfl, rfl⟩ <;> exact exGoodTags
  evs u f _ hf := by
    rcases exCases hf with ⟨rfl, rfl⟩ | ⟨rfl, rfl⟩ | ⟨rfl, rfl⟩ | ⟨rfl, rfl⟩
    · exact ⟨⟨by decide +kernel, by decide +kernel, by decide +kernel, by simp [fr1, Dict.keys]⟩, by simp [fr1]⟩
    · refine ⟨⟨by decide +kernel, by decide +kernel, by decide +kernel, ?_⟩, by simp [fr2]⟩
      simp only [fr2, Dict.keys, List.map_cons, List.map_nil, List.mem_cons, List.not_mem_nil, or_false]
      rintro k (rfl | rfl | rfl)
      · trivial
      · trivial
      · exact ⟨by decide, by decide, by decide +kernel⟩
    · exact ⟨⟨by decide +kernel, by decide +kernel, by decide +kernel, by simp [fr3, Dict.keys]⟩, fun _ => rfl⟩
    · exact ⟨⟨by decide +kernel, by decide +kernel, by decide +kernel, by simp [fr4, Dict.keys]⟩, by simp [fr4]⟩
  scenarios u f _ hf := by
    rcases exCases hf with ⟨rfl, rfl⟩ | ⟨rfl, rfl⟩ | ⟨rfl, rfl⟩ | ⟨rfl, rfl⟩
    · exact ⟨by decide +kernel, by decide +kernel, by simp [fr1, Dict.keys]⟩
    · exact ⟨by decide +kernel, by decide +kernel, by simp [fr2, Dict.keys]⟩
    · exact ⟨by decide +kernel, by decide +kernel, by simp [fr3, Dict.keys]⟩
    · exact ⟨by decide +kernel, by decide +kernel, by simp [fr4, Dict.keys]⟩
  terms u f sc t _ hf h := exTerms hf h
  balParent u f _ hf hb := by
    rcases exCases hf with ⟨rfl, rfl⟩ | ⟨rfl, rfl⟩ | ⟨rfl, rfl⟩ | ⟨rfl, rfl⟩ <;> revert hb <;> decide +kernel
  balOnce c d p f g _ _ hf hg hb hb' := by
    rcases exCases hf with ⟨rfl, rfl⟩ | ⟨rfl, rfl⟩ | ⟨rfl, rfl⟩ | ⟨rfl, rfl⟩ <;>
      rcases exCases hg with ⟨rfl, rfl⟩ | ⟨rfl, rfl⟩ | ⟨rfl, rfl⟩ | ⟨rfl, rfl⟩ <;> revert hb hb' <;> decide +kernel
  consBal c p f g hp hf hg hb := by
    obtain ⟨-, rfl⟩ := exParent hp
    rw [exG1] at hg; obtain rfl := Option.some.inj hg
    rcases exCases hf with ⟨rfl, rfl⟩ | ⟨rfl, rfl⟩ | ⟨rfl, rfl⟩ | ⟨rfl, rfl⟩ <;> revert hb <;> decide +kernel
  consNone p g hg h := by
    rcases exCases hg with ⟨rfl, rfl⟩ | ⟨rfl, rfl⟩ | ⟨rfl, rfl⟩ | ⟨rfl, rfl⟩
    · exact absurd (h "u3" fr3 exP3 exG3) (by decide)
    all_goals rfl

/-! ### what is computed -/

def okOf {α : Type} : Except Err α → Option α
  | .ok a => some a
  | .error _ => none

def errOf {α : Type} : Except Err α → Option Err
  | .ok _ => none
  | .error e => some e

theorem ok_of {α : Type} {x : Except Err α} {a : α} (h : okOf x = some a) : x = .ok a := by
  cases x with
  | ok b => simp [okOf] at h; rw [h]
  | error e => simp [okOf] at h

theorem exList : listFragments exFg 5 true none = .ok ["u1", "u2", "u3", "u4"] := ok_of (by decide +kernel)

-- C112
example := fragments_all exFg exTrees 5 none _ exList
example := fragments_refs exFg exTrees 5 (some true)
example : okOf (listFragments exFg 5 false (some false)) = some ["u1"] := by decide +kernel

-- C113
example := frag_strict exEnv exFg exTrees 5 "U2" _ exList
example : okOf (findFrag exEnv exFg 5 "U2" true) = some "u2" ∧ errOf (findFrag exEnv exFg 5 "u" true) = some .ambiguous ∧
    okOf (findFrag exEnv exFg 5 "u" false) = some "u1" ∧ errOf (findFrag exEnv exFg 5 "x" true) = some .stopIteration := by decide +kernel
example := frag_loose exEnv exFg exTrees 5 "u" _ exList

-- C114
theorem exLinked : linkedTerms exFg 5 "u4" = .ok [("u2", none)] := ok_of (by decide +kernel)
example := linked_terms exFg exTrees 5 "u4" _ exLinked

-- C116, C117, C118
def exDir : Dir' := [("old.json", some [])]

def exSaved : Dir' := (saveFragments exEnv exFg 5 exDir).state

theorem saved_of {fg : Fore} {d : Dir'} (h : (saveFragments exEnv fg 5 d).value? = some ()) :
    saveFragments exEnv fg 5 d = .ok () (saveFragments exEnv fg 5 d).state := by
  cases hs : saveFragments exEnv fg 5 d with
  | ok a d => rfl
  | err e d => rw [hs] at h; simp [Out.value?] at h

theorem exSave : saveFragments exEnv exFg 5 exDir = .ok () exSaved := saved_of (by decide +kernel)

theorem exPlain : ∀ u f, exFg.frags.get? u = some f → PlainTags exEnv f.tags := by
  intro u f hf
  rcases exCases hf with ⟨rfl, rfl⟩ | ⟨rfl, rfl⟩ | ⟨rfl, rfl⟩ | ⟨rfl, rfl⟩ <;> exact exGoodTags.toPlainTags

example := save_directory exEnv exFg exTrees 5 exDir exSaved exPlain exSave
example : exSaved.keys = ["u4.json", "u1.json"] := by decide +kernel
example := load_save_partial exEnv exBase exFg exGood exTrees 5 exDir exSaved (by decide) exSave

/-! ### foregrounds of one and of two fragments -/

def one (f : Frag) : Fore where
  frags := [("u1", f)]
  ix := { exBase with links := exBase.links ++ [("fg.x/u1", .frag "u1")] }

def two (f g : Frag) : Fore where
  frags := [("u1", f), ("u2", g)]
  ix := { exBase with links := exBase.links ++ [("fg.x/u1", .frag "u1"), ("fg.x/u2", .frag "u2")] }

theorem oneTrees {f : Frag} (hp : f.parent = none) (hk : f.kids = []) : Trees (one f) := by
  have hget : ∀ {u g}, (one f).frags.get? u = some g → u = "u1" ∧ g = f := by
    intro u g h; simpa [one] using Dict.mem_of_get?_eq_some _ h
  have hno : ∀ c p, ¬ Parent (one f) c p := by
    rintro c p ⟨g, hg, hgp⟩; obtain ⟨-, rfl⟩ := hget hg; rw [hp] at hgp; simp at hgp
  have hl : ∀ {l u}, (one f).ix.links.get? l = some (.frag u) → l = "fg.x/u1" ∧ u = "u1" := by
    intro l u h; simpa [one, exBase] using Dict.mem_of_get?_eq_some _ h
  refine ⟨by simp [one, exBase, Dict.keys], ?_, ?_, ?_, fun c p h => absurd h (hno c p), ?_, ⟨fun _ => 0, fun c p h => absurd h (hno c p)⟩⟩
  · intro l u h; obtain ⟨-, rfl⟩ := hl h; exact ⟨f, rfl⟩
  · intro l l' u h h'; rw [(hl h).1, (hl h').1]
  · intro p g c h; obtain ⟨-, rfl⟩ := hget h; rw [hk]; simp [hno]
  · intro p g h; obtain ⟨-, rfl⟩ := hget h; rw [hk]; simp

theorem twoTrees {f g : Frag} (hp : f.parent = none) (hk : f.kids = ["u2"]) (hp' : g.parent = some "u1") (hk' : g.kids = []) :
    Trees (two f g) := by
  have hget : ∀ {u x}, (two f g).frags.get? u = some x → (u = "u1" ∧ x = f) ∨ (u = "u2" ∧ x = g) := by
    intro u x h; simpa [two] using Dict.mem_of_get?_eq_some _ h
  have hpar : ∀ {c p}, Parent (two f g) c p → c = "u2" ∧ p = "u1" := by
    rintro c p ⟨x, hx, hxp⟩
    rcases hget hx with ⟨rfl, rfl⟩ | ⟨rfl, rfl⟩
    · rw [hp] at hxp; simp at hxp
    · rw [hp'] at hxp; exact ⟨rfl, (Option.some.inj hxp).symm⟩
  have h21 : Parent (two f g) "u2" "u1" := ⟨g, rfl, hp'⟩
  have hl : ∀ {l u}, (two f g).ix.links.get? l = some (.frag u) → (l = "fg.x/u1" ∧ u = "u1") ∨ (l = "fg.x/u2" ∧ u = "u2") := by
    intro l u h; simpa [two, exBase] using Dict.mem_of_get?_eq_some _ h
  refine ⟨by simp [two, exBase, Dict.keys], ?_, ?_, ?_, ?_, ?_, ⟨fun u => if u = "u1" then 0 else 1, ?_⟩⟩
  · intro l u h
    rcases hl h with ⟨-, rfl⟩ | ⟨-, rfl⟩
    exacts [⟨f, rfl⟩, ⟨g, rfl⟩]
  · intro l l' u h h'
    rcases hl h with ⟨rfl, rfl⟩ | ⟨rfl, rfl⟩ <;> rcases hl h' with ⟨rfl, e⟩ | ⟨rfl, e⟩ <;> first | rfl | (simp at e)
  · intro p x c h
    rcases hget h with ⟨rfl, rfl⟩ | ⟨rfl, rfl⟩
    · rw [hk, List.mem_singleton]
      exact ⟨fun e => e ▸ h21, fun h => (hpar h).1⟩
    · rw [hk']
      refine ⟨fun h => absurd h List.not_mem_nil, fun h => ?_⟩
      have := (hpar h).2
      simp at this
  · intro c p h; obtain ⟨-, rfl⟩ := hpar h; exact ⟨f, rfl⟩
  · intro p x h
    rcases hget h with ⟨rfl, rfl⟩ | ⟨rfl, rfl⟩
    · rw [hk]; simp
    · rw [hk']; simp
  · intro c p h; obtain ⟨rfl, rfl⟩ := hpar h; decide

theorem oneIn {f : Frag} (hp : f.parent = none) : In (one f) "u1" := ⟨"u1", ⟨⟨"fg.x/u1", rfl⟩, f, rfl, hp⟩, .refl⟩

theorem twoIn {f g : Frag} (hp : f.parent = none) (hp' : g.parent = some "u1") : In (two f g) "u2" :=
  ⟨"u1", ⟨⟨"fg.x/u1", rfl⟩, f, rfl, hp⟩, .single ⟨g, rfl, hp'⟩⟩

-- C115: a background fragment that nothing is terminated to
theorem oneList : listFragments (one fr4) 5 true none = .ok ["u1"] := ok_of (by decide +kernel)

example : delOrphans (one fr4) 5 true = .err .keyError (one fr4) :=
  (del_orphans_raises (one fr4) (oneTrees rfl rfl) 5 (by decide +kernel)
    (by
      rintro u ⟨-, f, hf, -⟩
      have h : u = "u1" ∧ f = fr4 := by simpa [one] using Dict.mem_of_get?_eq_some _ hf
      rw [h.1]; decide) _ oneList).2
    ⟨"u1", ⟨⟨"fg.x/u1", rfl⟩, fr4, rfl, rfl⟩, ⟨fr4, rfl, rfl⟩, by
      intro i f t sc _ hf hm
      obtain ⟨rfl, rfl⟩ : i = "u1" ∧ f = fr4 := by simpa [one] using Dict.mem_of_get?_eq_some _ hf
      have : t = { node := .ent ⟨"process", "eco", "p1"⟩, flow := flow2, dir := .input } := by simp [fr4] at hm; exact hm.2
      rw [this]; simp⟩

-- C117: a property that JSON cannot hold, in the second of two trees: the first file is written, the second is emptied
def frBad : Frag := { fr4 with tags := exTags ++ [("owner", .bad)] }
def exFgBad : Fore := { exFg with frags := exFg.frags.set "u1" { fr1 with tags := exTags ++ [("owner", .bad)] } }

theorem badErr : (saveFragments exEnv (one frBad) 5 exDir).error? = some .typeError := by decide +kernel

theorem badSave : saveFragments exEnv (one frBad) 5 exDir = .err .typeError (saveFragments exEnv (one frBad) 5 exDir).state := by
  have h := badErr
  cases hs : saveFragments exEnv (one frBad) 5 exDir with
  | ok a d => rw [hs] at h; simp [Out.error?] at h
  | err e d => rw [hs] at h; simp only [Out.error?, Option.some.injEq] at h; rw [h]; rfl

example := save_raises_partial exEnv (one frBad) (oneTrees rfl rfl) 5 exDir _ _ badSave
example := save_typeError_unloadable exEnv (one frBad) 5 exDir _ (PyOrd.id _) (PyOrd.id _) exBase badSave
example : (saveFragments exEnv exFgBad 5 exDir).state.map (fun nc => (nc.1, nc.2.isSome)) =
    [("old.json", true), ("u4.json", true), ("u1.json", false)] := by decide +kernel

def frNull : Frag := { fr4 with tags := exTags ++ [("owner", .null)] }
example := serialize_null exEnv (one frNull) "u1" frNull
  (by show (frNull.tags.map fun p => p.1.toLower).Nodup; decide +kernel) "owner" (by decide) (by decide)

-- C118: a property named 'flow'
def frFlow : Frag := { fr4 with tags := exTags ++ [("flow", .json "1")] }
example := reserved_property_unloadable exEnv (one frFlow) (oneTrees rfl rfl) 5 exDir _ (saved_of (fg := one frFlow) (d := exDir) (by decide +kernel)) "u1" frFlow (oneIn rfl) rfl
  (by show (frFlow.tags.map fun p => p.1.toLower).Nodup; decide +kernel) "flow" (by decide) (by decide)

-- C118: a balance flow with another cached value
def frPar : Frag := { fr1 with kids := ["u2"] }
def frBal : Frag := { fr3 with evs := [(.cached, some 2), (.observed, some 0)] }
example := balance_value_unloadable exEnv (two frPar frBal) (twoTrees rfl rfl rfl rfl) 5 exDir _ (saved_of (fg := two frPar frBal) (d := exDir) (by decide +kernel)) "u2" frBal (twoIn rfl rfl) rfl
  exGoodTags.toPlainTags ⟨by decide +kernel, by decide +kernel, by decide +kernel, by simp [frBal, Dict.keys]⟩ rfl (some 2) rfl (by decide +kernel)

-- C118: a process that the catalog does not find
def frFar : Frag := { fr4 with terms := [(none, { node := .ent ⟨"process", "gabi", "p"⟩, flow := flow3, dir := .input })] }
example := unreachable_unloadable exEnv (one frFar) (oneTrees rfl rfl) 5 exDir _ (saved_of (fg := one frFar) (d := exDir) (by decide +kernel)) "u1" frFar (oneIn rfl) rfl
  exGoodTags.toPlainTags (by decide +kernel) (by simp [frFar, Dict.keys]) none _ rfl _ rfl (by decide) (by decide) .entityNotFound rfl

/-! ### fragments that change -/

/-- two reference fragments; one is named 'None' -/
def exNone : Fore where
  frags := [("u1", { fr4 with ext := some "None" }), ("u2", { fr4 with ext := none })]
  ix := { exBase with links := exBase.links ++ [("fg.x/None", .frag "u1"), ("fg.x/u2", .frag "u2")] }

def reload (fg : Fore) : Except Err Fore :=
  loadFragments exEnv (PyOrd.id _) (PyOrd.id _) exBase (saveFragments exEnv fg 5 exDir).state

/-- **C118** needs its hypothesis that no fragment is named 'None': the parent of a reference fragment is saved as the text 'None',
and looked up like a name, so the fragment of that name becomes its parent. -/
theorem none_named_adopts : exNone.frags.map (fun uf => (uf.1, uf.2.parent)) = [("u1", none), ("u2", none)] ∧
    (okOf (reload exNone)).map (fun fg => fg.frags.map fun uf => (uf.1, uf.2.parent)) = some [("u1", none), ("u2", some "u1")] := by
  decide +kernel

/-- **C118** needs its hypothesis on the names of scenarios: what a fragment is terminated to in a scenario named 'null' becomes what
it is terminated to in all. -/
theorem null_scenario_overwrites :
    (okOf (reload (one { fr4 with terms := [(none, { node := .null, flow := flow3, dir := .input }),
      (some "null", { node := .ent ⟨"process", "eco", "p1"⟩, flow := flow3, dir := .input })] }))).map
      (fun fg => fg.frags.map fun uf => uf.2.terms.map fun kt => (kt.1, kt.2.node)) =
    some [[(none, .ent ⟨"process", "eco", "p1"⟩)]] := by
  decide +kernel

/-- **C118** needs its hypothesis on local flows: a termination flow of the foreground that is not found again is silently replaced by
the fragment's own flow. -/
theorem lost_flow_replaced :
    (okOf (reload (one { fr4 with terms := [(none, { node := .frag "u1", flow := { origin := "fg.x", ext := "x", uuid := "ux" }, dir := .input })] }))).map
      (fun fg => fg.frags.map fun uf => uf.2.terms.map fun kt => kt.2.flow) = some [[flow3]] := by
  decide +kernel

end FgS
