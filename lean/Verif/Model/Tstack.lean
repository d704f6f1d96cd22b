import Verif.Model.Engine

/-!
Model of the component graph of `antelope_background/engine/tarjan_stack.py` (everything but the stack,
which is in `Model/Engine.lean`) and of the matrices of `background_engine.py`.

Simplifications that hold for the whole file:
* Python sets of SCC ids and of product flows are duplicate-free lists; the order in which Python iterates
  over a set is the parameter `SetOrd`;
* a `defaultdict(set)` is a dict with default `[]`; that a lookup inserts the empty default is not modelled
  (nothing iterates over the keys of these dicts);
* a `ProductFlow` is represented by its key; its `index` attribute is `State.pfs` at the key (it is assigned
  from the same value in `_add_product_flow`, background_engine.py:186-190);
* a sparse matrix is the list of its (row, column, value) triples; an entry is the sum of the triples at
  its position, which is what `csr_matrix` does with duplicates.
-/

namespace Engine
variable {F P : Type} [DecidableEq F] [DecidableEq P]

/-- The order in which Python iterates over a set: any function that permutes the members. -/
structure SetOrd (F P : Type) where
  nat : List ℕ → List ℕ
  pf : List (F × P) → List (F × P)
  nat_perm : ∀ l, (nat l).Perm l
  pf_perm : ∀ l, (pf l).Perm l

/-- `set.add`. -/
def setAdd {α : Type} [DecidableEq α] (l : List α) (a : α) : List α :=
  if a ∈ l then l else l ++ [a]

/-- the graph attributes of `TarjanStack`, tarjan_stack.py:16-25. -/
structure TGraph (F P : Type) where
  cols : Dict ℕ (List ℕ) := []       -- _component_cols_by_row
  rows : Dict ℕ (List ℕ) := []       -- _component_rows_by_col
  background : Option ℕ := none      -- _background
  downstream : List ℕ := []          -- _downstream
  bgProcs : List (F × P) := []       -- _bg_processes
  fgProcs : List (F × P) := []       -- _fg_processes
  bgIndex : Dict ℕ ℕ := []           -- _bg_index
  fgIndex : Dict ℕ ℕ := []           -- _fg_index

/-- `defaultdict(set)[k]`. -/
def look (d : Dict ℕ (List ℕ)) (k : ℕ) : List ℕ := (d.get? k).getD []

/-- `ProductFlow.index`, product_flow.py:30, 95-97. -/
def pfIx (s : State F P) (v : F × P) : ℕ := (s.pfs.get? v).getD 0

/-- `scc`, tarjan_stack.py:285-286. -/
def sccMembers (s : State F P) (k : ℕ) : List (F × P) := (s.sccs.get? k).getD []

/-- the loop of `add_to_graph` over the interior exchanges, tarjan_stack.py:143-147.
`none`: `scc_id` raises KeyError. -/
def addEdges (s : State F P) : List ((F × P) × (F × P) × ℚ) → TGraph F P → Option (TGraph F P)
  | [], g => some g
  | (parent, term, _) :: is, g =>
    match s.sccOf.get? term, s.sccOf.get? parent with
    | some row, some col =>
      addEdges s is { g with cols := g.cols.set row (setAdd (look g.cols row) col),
                             rows := g.rows.set col (setAdd (look g.rows col) row) }
    | _, _ => none

/-- the loop of `_set_background`, tarjan_stack.py:63-68: size and id of the first largest SCC. -/
def largest : List (ℕ × List (F × P)) → ℕ × Option ℕ → ℕ × Option ℕ
  | [], r => r
  | (i, t) :: rest, (ml, ind) =>
    if t.length > ml then largest rest (t.length, some i) else largest rest (ml, ind)

/-- `_set_downstream`, tarjan_stack.py:74-88, with `fuel` stack frames: the new `_downstream`, or `none`
for RecursionError. -/
def setDownstream (o : SetOrd F P) (rows : Dict ℕ (List ℕ)) : ℕ → ℕ → List ℕ → Option (List ℕ)
  | 0, _, _ => none
  | fuel + 1, up, down =>
    (o.nat (look rows up)).foldlM (init := down) fun d dep =>
      if dep ≠ up then setDownstream o rows fuel dep (setAdd d dep) else some d

/-- `dict((pf.index, n) for n, pf in enumerate(l))`, tarjan_stack.py:103, 136. -/
def enumIndex (s : State F P) (l : List (F × P)) : Dict ℕ ℕ :=
  l.zipIdx.foldl (fun d pn => d.set (pfIx s pn.1) pn.2) []

/-- `_generate_bg_index`, tarjan_stack.py:90-103. -/
def generateBgIndex (o : SetOrd F P) (s : State F P) (g : TGraph F P) : TGraph F P :=
  match g.background with
  | none => { g with bgProcs := [], bgIndex := [] }
  | some b =>
    let bg := o.pf (sccMembers s b) ++ (o.nat g.downstream).flatMap fun i => o.pf (sccMembers s i)
    { g with bgProcs := bg, bgIndex := enumIndex s bg }

/-- `_set_background`, tarjan_stack.py:62-72. -/
def setBackground (o : SetOrd F P) (fuel : ℕ) (s : State F P) (g : TGraph F P) : Option (TGraph F P) :=
  match largest s.sccs (0, none) with
  | (ml, some i) =>
    if ml > 1 then
      match setDownstream o g.rows fuel i g.downstream with
      | none => none
      | some d => some (generateBgIndex o s { g with background := some i, downstream := d })
    else some g
  | (_, none) => some g

/-- `k != self._background and k not in self._downstream`, tarjan_stack.py:116. -/
def isFgScc (g : TGraph F P) (k : ℕ) : Bool := decide (some k ≠ g.background ∧ k ∉ g.downstream)

/-- the `while` loop of `_generate_foreground_index`, tarjan_stack.py:122-130, with `fuel` rounds left;
`none`: the loop has not ended. -/
def fgLoop (o : SetOrd F P) (cols : Dict ℕ (List ℕ)) : ℕ → List ℕ → List ℕ → Option (List ℕ)
  | _, [], ordering => some ordering
  | 0, _ :: _, _ => none
  | fuel + 1, n :: ns, ordering =>
    let news := (o.nat (n :: ns)).filter fun k =>
      (look cols k).all fun j => decide (j ∈ ordering ∨ j = k)
    fgLoop o cols fuel ((n :: ns).filter fun k => decide (k ∉ news)) (ordering ++ o.nat news)

/-- `_generate_foreground_index`, tarjan_stack.py:105-136. -/
def generateFgIndex (o : SetOrd F P) (fuel : ℕ) (s : State F P) (g : TGraph F P) :
    Option (TGraph F P) :=
  let fgKeys := s.sccs.keys.filter (isFgScc g)
  let outs := fgKeys.filter fun k => (look g.cols k).isEmpty
  let nodes := fgKeys.filter fun k => !(look g.cols k).isEmpty
  match fgLoop o g.cols fuel nodes outs with
  | none => none
  | some ordering =>
    let procs := ordering.flatMap fun k => o.pf (sccMembers s k)
    some { g with fgProcs := procs, fgIndex := enumIndex s procs }

/-- `add_to_graph`, tarjan_stack.py:138-149. -/
def addToGraph (o : SetOrd F P) (fuel : ℕ) (s : State F P) (is : List ((F × P) × (F × P) × ℚ))
    (g : TGraph F P) : Option (TGraph F P) :=
  match addEdges s is g with
  | none => none
  | some g1 =>
    match setBackground o fuel s g1 with
    | none => none
    | some g2 => generateFgIndex o fuel s g2

/-- `is_background`, tarjan_stack.py:258-267, of a product flow or SCC index. -/
def isBackground (g : TGraph F P) (ix : ℕ) : Bool := g.bgIndex.has ix

/-- `bg_dict`, tarjan_stack.py:227-236. -/
def bgDict (g : TGraph F P) (ix : ℕ) : Option ℕ := g.bgIndex.get? ix

/-- `fg_dict`, tarjan_stack.py:247-256. -/
def fgDict (g : TGraph F P) (ix : ℕ) : Option ℕ := g.fgIndex.get? ix

/-- `bg_node`, tarjan_stack.py:218-225 (non-negative argument). -/
def bgNode (g : TGraph F P) (n : ℕ) : Option (F × P) := g.bgProcs[n]?

/-- `fg_node`, tarjan_stack.py:238-245 (non-negative argument). -/
def fgNode (g : TGraph F P) (n : ℕ) : Option (F × P) := g.fgProcs[n]?

/-- `ndim`, `pdim`, tarjan_stack.py:159-161. -/
def ndim (g : TGraph F P) : ℕ := g.bgIndex.length
def pdim (g : TGraph F P) : ℕ := g.fgIndex.length

/-- the queue loop of `_foreground_components`, tarjan_stack.py:170-177, with `fuel` rounds left. -/
def fgComponents (o : SetOrd F P) (g : TGraph F P) : ℕ → List ℕ → List ℕ → Option (List ℕ)
  | _, [], fg => some fg
  | 0, _ :: _, _ => none
  | fuel + 1, current :: queue, fg =>
    if current ∈ fg then fgComponents o g fuel queue fg
    else fgComponents o g fuel
      (queue ++ (o.nat (look g.rows current)).filter fun k => !isBackground g k) (fg ++ [current])

/-- the sort key of `foreground`, tarjan_stack.py:195, compared as Python compares tuples. -/
def fgLe (s : State F P) (g : TGraph F P) (pf x y : F × P) : Bool :=
  let a := decide (pfIx s x ≠ pfIx s pf)
  let b := decide (pfIx s y ≠ pfIx s pf)
  if a = b then decide ((fgDict g (pfIx s x)).getD 0 ≤ (fgDict g (pfIx s y)).getD 0)
  else !a

/-- `foreground`, tarjan_stack.py:179-195. `none`: KeyError (unknown flow, or missing `_fg_index`). -/
def foreground (o : SetOrd F P) (fuel : ℕ) (s : State F P) (g : TGraph F P) (pf : F × P) :
    Option (List (F × P)) :=
  match s.sccOf.get? pf with
  | none => none
  | some index =>
    if some index = g.background ∨ index ∈ g.downstream then some []
    else
      match fgComponents o g fuel [index] [] with
      | none => none
      | some fg =>
        let l := fg.flatMap fun c => o.pf (sccMembers s c)
        if l.all fun x => (fgDict g (pfIx s x)).isSome then some (l.mergeSort (fgLe s g pf)) else none

/-- `foreground_flows`, tarjan_stack.py:197-208. -/
def foregroundFlows (s : State F P) (g : TGraph F P) (outputs : Bool) : List (F × P) :=
  if outputs then
    g.fgProcs.takeWhile fun pf => (look g.cols ((s.sccOf.get? pf).getD 0)).isEmpty
  else g.fgProcs

/-! ### the matrices -/

/-- The engine: traversal state, component graph, sorted exchanges and matrices,
background_engine.py:118-147.  Lists are in Python order. -/
structure Eng (F P : Type) where
  st : State F P := {}
  g : TGraph F P := {}
  interior : List ((F × P) × (F × P) × ℚ) := []     -- _interior
  foreground : List ((F × P) × (F × P) × ℚ) := []   -- _foreground
  bgEmission : List ((F × P) × (F × Dir) × ℚ) := [] -- _bg_emission
  cutoff : List ((F × P) × (F × Dir) × ℚ) := []     -- _cutoff
  aMatrix : Option (List (Option ℕ × Option ℕ × ℚ)) := none
  bMatrix : Option (List (ℕ × Option ℕ × ℚ)) := none
  allAdded : Bool := false

/-- `adjust_val`, background_engine.py:54-59, for all entries of a list, newest first (the entries are
popped from the end). Every entry is adjusted once, as it is in exactly one incoming list once.
`none`: ZeroDivisionError. -/
def adjustVals {A : Type} (s : State F P) : List ((F × P) × A × ℚ) → Option (List ((F × P) × A × ℚ))
  | [] => some []
  | (p, a, v) :: rest =>
    let ev := (s.ev.get? p).getD 0
    if ev = 0 then none
    else (adjustVals s rest).map fun r => (p, a, v / ev) :: r

/-- `_ef_index`/`_emissions`: the index of an emission, background_engine.py:259-268. -/
def emIx (s : State F P) (e : F × Dir) : ℕ := s.emissions.idxOf e

/-- `_construct_a_matrix`, background_engine.py:391-395: the triples. -/
def constructA (s : State F P) (g : TGraph F P) (l : List ((F × P) × (F × P) × ℚ)) :
    List (Option ℕ × Option ℕ × ℚ) :=
  l.map fun i => (bgDict g (pfIx s i.2.1), bgDict g (pfIx s i.1), i.2.2)

/-- `_construct_b_matrix`, background_engine.py:373-383: the triples. -/
def constructB (s : State F P) (g : TGraph F P) (l : List ((F × P) × (F × Dir) × ℚ)) :
    List (ℕ × Option ℕ × ℚ) :=
  l.map fun c => (emIx s c.2.1, bgDict g (pfIx s c.1), c.2.2)

/-- `_update_component_graph`, background_engine.py:514-540.  `_pad_b_matrix` (385-389) changes the number
of rows only, which the triples do not record. -/
def updateGraph (o : SetOrd F P) (fuel : ℕ) (e : Eng F P) : Option (Eng F P) :=
  match addToGraph o fuel e.st e.st.interior.reverse e.g with
  | none => none
  | some g =>
    match adjustVals e.st e.st.interior, adjustVals e.st e.st.cutoffs with
    | some is, some cs =>
      let isBg := fun p => isBackground g (pfIx e.st p)
      let e1 : Eng F P :=
        { e with st := { e.st with interior := [], cutoffs := [] }, g := g,
                 interior := e.interior ++ is.filter (fun i => isBg i.1),
                 foreground := e.foreground ++ is.filter (fun i => !isBg i.1),
                 bgEmission := e.bgEmission ++ cs.filter (fun c => isBg c.1),
                 cutoff := e.cutoff ++ cs.filter (fun c => !isBg c.1) }
      match g.background, e.aMatrix with
      | some _, none => some { e1 with aMatrix := some (constructA e1.st g e1.interior),
                                       bMatrix := some (constructB e1.st g e1.bgEmission) }
      | _, _ => some e1
    | _, _ => none

/-- `add_all_ref_products`, background_engine.py:544-553. `none`: some exception. -/
def addAllRefProducts (o : SetOrd F P) (db : DB F P) (strat : Strategy) (fuel : ℕ)
    (vs : List (F × P)) (e : Eng F P) : Option (Eng F P) :=
  if e.allAdded then some e
  else match addAll db strat fuel vs e.st with
    | .err _ _ => none
    | .ok () s => (updateGraph o fuel { e with st := s }).map fun e' => { e' with allAdded := true }

/-- `add_ref_product`, background_engine.py:555-576. -/
def addRefProduct (o : SetOrd F P) (db : DB F P) (strat : Strategy) (fuel : ℕ)
    (v : F × P) (e : Eng F P) : Option (Eng F P) :=
  match e.st.pfs.get? v with
  | some _ => some e
  | none =>
    match addRefProductRaw db strat fuel v e.st with
    | .err _ _ => none
    | .ok () s => updateGraph o fuel { e with st := s }

/-- The value of a sparse matrix at a position. -/
def entry {R C : Type} [DecidableEq R] [DecidableEq C] (m : List (R × C × ℚ)) (r : R) (c : C) : ℚ :=
  ((m.filter fun t => decide (t.1 = r ∧ t.2.1 = c)).map fun t => t.2.2).sum

/-- The triples of `af`, `ad` and `bf`. -/
structure Fg where
  pdim : ℕ
  af : List (Option ℕ × Option ℕ × ℚ)
  ad : List (Option ℕ × Option ℕ × ℚ)
  bf : List (ℕ × Option ℕ × ℚ)
  lost : ℕ   -- number of exchanges reported as 'Losing FG Cutoff'

/-- `make_foreground()` for the whole foreground, background_engine.py:459-474, 499-512;
`none`: the Python function returns None, None, None. -/
def makeForegroundAll (e : Eng F P) : Option Fg :=
  if pdim e.g = 0 then none
  else
    let isBg := fun p => isBackground e.g (pfIx e.st p)
    let ix := fun p => fgDict e.g (pfIx e.st p)
    some { pdim := pdim e.g
           af := (e.foreground.filter fun i => !isBg i.2.1).map fun i => (ix i.2.1, ix i.1, i.2.2)
           ad := (e.foreground.filter fun i => isBg i.2.1).map fun i =>
             (bgDict e.g (pfIx e.st i.2.1), ix i.1, i.2.2)
           bf := e.cutoff.map fun c => (emIx e.st c.2.1, ix c.1, c.2.2)
           lost := 0 }

/-- `make_foreground(product_flow)` for a product flow that is not in the background,
background_engine.py:482-512. `none`: an exception. -/
def makeForeground (o : SetOrd F P) (fuel : ℕ) (e : Eng F P) (pf : F × P) : Option Fg :=
  match foreground o fuel e.st e.g pf with
  | none => none
  | some pfs =>
    let d := enumIndex e.st pfs
    let ix := fun p => d.get? (pfIx e.st p)
    let isBg := fun p => isBackground e.g (pfIx e.st p)
    let mine := e.foreground.filter fun i => (ix i.1).isSome
    let af := mine.filter fun i => !isBg i.2.1 && (ix i.2.1).isSome
    let ad := mine.filter fun i => isBg i.2.1
    let lost := mine.filter fun i => !isBg i.2.1 && (ix i.2.1).isNone
    let bf := e.cutoff.filter fun c => (ix c.1).isSome
    some { pdim := pfs.length
           af := af.map fun i => (ix i.2.1, ix i.1, i.2.2)
           ad := ad.map fun i => (bgDict e.g (pfIx e.st i.2.1), ix i.1, i.2.2)
           bf := bf.map fun c => (emIx e.st c.2.1, ix c.1, c.2.2)
           lost := lost.length }

end Engine
