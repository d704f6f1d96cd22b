import Verif.Model.Tstack

/-!
Model of `FlatBackground` (`antelope_background/background/flat_background.py`): construction from an index
and the queries that read the matrices (the LCI computation itself is in `Model/Lci.lean`).

Simplifications:
* floats are rationals;
* a scipy sparse matrix is the list of its *stored* entries in CSR order; entries that sum to zero stay stored
  (`csr_matrix` adds up duplicates and does not drop zeros), slicing a row or column keeps them, and
  `nonzero()` skips them: that is scipy 1.3 and later;
* processes, compartments and flows are their string references; references are not empty, so
  `len(tr.scc_id) > 0` is "the id is not 0";
* a generator is the list of what it yields together with the exception that ends it, if any;
* `_FLATTEN_AF` is False (flat_background.py:21) and `CONTEXT_STATUS_` is 'compat'
  (lcatools/interfaces/__init__.py:88), as in the repository; files are not modelled.
-/

namespace FlatBg
open Engine

/-- the exceptions of the modelled code; `engine` stands for any exception of the engine itself -/
inductive Err | key | attribute | type | index | fuel | engine
  deriving DecidableEq, Repr

/-- `TermRef`, flat_background.py:28-72; `scc = none` is the id 0. -/
structure TermRef (F T S : Type) where
  flow : F
  dir : Dir
  term : T
  scc : Option S
  deriving DecidableEq, Repr

/-- `ExchDef`, flat_background.py:75. -/
structure ExchDef (F P : Type) where
  process : P
  flow : F
  dir : Dir
  term : Option P
  value : ℚ
  deriving DecidableEq, Repr

/-! ### sparse matrices -/

/-- stored entries (row, column, value) -/
abbrev Sp := List (ℕ × ℕ × ℚ)

/-- `csr_matrix((data, (rows, cols)), shape)`, background_engine.py:307-323: duplicates are added up.
`none`: an index is missing or does not fit the shape, which raises. -/
def csr (nrows ncols : ℕ) (ts : List (Option ℕ × Option ℕ × ℚ)) : Option Sp :=
  if ts.all fun t => (t.1.any fun r => decide (r < nrows)) && (t.2.1.any fun c => decide (c < ncols)) then
    some ((List.range nrows).flatMap fun r => (List.range ncols).filterMap fun c =>
      if ts.any fun t => decide (t.1 = some r ∧ t.2.1 = some c)
      then some (r, c, entry ts (some r) (some c)) else none)
  else none

/-- `m[:, j]`: stored (row, value) pairs -/
def Sp.col (m : Sp) (j : ℕ) : List (ℕ × ℚ) :=
  (m.filter fun t => decide (t.2.1 = j)).map fun t => (t.1, t.2.2)

/-- `m[i, :]`: stored (column, value) pairs -/
def Sp.row (m : Sp) (i : ℕ) : List (ℕ × ℚ) :=
  (m.filter fun t => decide (t.1 = i)).map fun t => (t.2.1, t.2.2)

/-- `v.nonzero()` of a one-column or one-row matrix: positions of the stored entries other than zero -/
def nonzero (v : List (ℕ × ℚ)) : List ℕ := (v.filter fun t => decide (t.2 ≠ 0)).map Prod.fst

/-- the pairs `rows[i]`, `data_vec.data[i]` for `i in range(len(rows))`, flat_background.py:369-389, 392-396:
the positions come from the nonzero entries, the values from all stored entries. -/
def pairs (v : List (ℕ × ℚ)) : List (ℕ × ℚ) := (nonzero v).zip (v.map Prod.snd)

/-! ### the object -/

/-- `FlatBackground`, flat_background.py:257-288. `None` matrices are `none`. -/
structure FB (F P : Type) where
  fg : List (TermRef F P P)
  bg : List (TermRef F P P)
  ex : List (TermRef F (Option P) P)
  af : Option Sp
  ad : Option Sp
  bf : Option Sp
  A : Option Sp
  B : Option Sp
  deriving DecidableEq

variable {F P : Type} [DecidableEq F] [DecidableEq P]

/-- `{key: i for i, key in enumerate(l)}` -/
def enumDict {K : Type} [DecidableEq K] (l : List K) : Dict K ℕ :=
  l.zipIdx.foldl (fun d kn => d.set kn.1 kn.2) []

/-- `_fg_index`, `_bg_index`, `_ex_index`, flat_background.py:286-288. -/
def fgIndex (fb : FB F P) : Dict (P × F) ℕ := enumDict (fb.fg.map fun k => (k.term, k.flow))
def bgIndex (fb : FB F P) : Dict (P × F) ℕ := enumDict (fb.bg.map fun k => (k.term, k.flow))
def exIndex (fb : FB F P) : Dict (Option P × F) ℕ := enumDict (fb.ex.map fun k => (k.term, k.flow))

/-- `index_of`, flat_background.py:292-301. -/
def indexOf (fb : FB F P) (term : P) (flow : F) : Except Err ℕ :=
  match (fgIndex fb).get? (term, flow) with
  | some i => .ok i
  | none =>
    match (bgIndex fb).get? (term, flow) with
    | some i => .ok i
    | none =>
      match (exIndex fb).get? (some term, flow) with
      | some i => .ok i
      | none => .error .key

/-- `is_in_background`, flat_background.py:334-335. -/
def isInBackground (fb : FB F P) (process : P) (flow : F) : Bool := (bgIndex fb).has (process, flow)

/-- `is_in_scc`, flat_background.py:327-332. -/
def isInScc (fb : FB F P) (process : P) (flow : F) : Except Err Bool :=
  let tr := match (bgIndex fb).get? (process, flow) with
    | some i => fb.bg[i]?
    | none => ((fgIndex fb).get? (process, flow)).bind fun i => fb.fg[i]?
  match tr with
  | some t => .ok t.scc.isSome
  | none => .error .key

/-- what a generator yields, and the exception that ends it -/
abbrev Gen (α : Type) := List α × Option Err

/-- run one generator after another, as `for x in a: yield x; for x in b: yield x` -/
def Gen.append {α : Type} (a b : Gen α) : Gen α :=
  match a.2 with
  | some e => (a.1, some e)
  | none => (a.1 ++ b.1, b.2)

/-- one exchange, flat_background.py:381-388 and 395-402. -/
def exchOf (node : P) (t : TermRef F P P) (dat : ℚ) : ExchDef F P :=
  if dat < 0 then ⟨node, t.flow, t.dir, some t.term, dat * -1⟩
  else ⟨node, t.flow, t.dir.comp, some t.term, dat⟩

/-- the loop of `_generate_exch_defs`, flat_background.py:392-402, over the pairs. -/
def genLoop (node : P) (enumeration : List (TermRef F P P)) : List (ℕ × ℚ) → Gen (ExchDef F P)
  | [] => ([], none)
  | (r, dat) :: rest =>
    match enumeration[r]? with
    | none => ([], some .index)
    | some t =>
      let g := genLoop node enumeration rest
      (exchOf node t dat :: g.1, g.2)

/-- `_generate_exch_defs`, flat_background.py:390-402. `none`: the argument is a list, which has no `nonzero`. -/
def genExchDefs (node : P) (v : Option (List (ℕ × ℚ))) (enumeration : List (TermRef F P P)) :
    Gen (ExchDef F P) :=
  match v with
  | none => ([], some .attribute)
  | some v => genLoop node enumeration (pairs v)

/-- the loop of `_generate_em_defs`, flat_background.py:413-423. -/
def emLoop (node : P) (enumeration : List (TermRef F (Option P) P)) : List (ℕ × ℚ) → Gen (ExchDef F P)
  | [] => ([], none)
  | (r, dat) :: rest =>
    match enumeration[r]? with
    | none => ([], some .index)
    | some t =>
      let g := emLoop node enumeration rest
      (⟨node, t.flow, t.dir.comp, none, dat⟩ :: g.1, g.2)

/-- `_generate_em_defs`, flat_background.py:404-423. -/
def genEmDefs (node : P) (v : List (ℕ × ℚ)) (enumeration : List (TermRef F (Option P) P)) :
    Gen (ExchDef F P) := emLoop node enumeration (pairs v)

/-- `dependencies`, flat_background.py:436-450: for a background flow `fg_deps` is the empty *list*. -/
def dependencies (fb : FB F P) (process : P) (flow : F) : Gen (ExchDef F P) :=
  match (bgIndex fb).get? (process, flow) with
  | some i =>
    match fb.A with
    | none => ([], some .type)
    | some a => (genExchDefs process none fb.fg).append (genExchDefs process (some (a.col i)) fb.bg)
  | none =>
    match (fgIndex fb).get? (process, flow), fb.af, fb.ad with
    | none, _, _ => ([], some .key)
    | some i, some af, some ad =>
      (genExchDefs process (some (af.col i)) fb.fg).append (genExchDefs process (some (ad.col i)) fb.bg)
    | some _, _, _ => ([], some .type)

/-- `emissions`, flat_background.py:452-461. -/
def emissions (fb : FB F P) (process : P) (flow : F) : Gen (ExchDef F P) :=
  match (bgIndex fb).get? (process, flow) with
  | some i =>
    match fb.B with
    | none => ([], some .type)
    | some b => genEmDefs process (b.col i) fb.ex
  | none =>
    match (fgIndex fb).get? (process, flow), fb.bf with
    | none, _ => ([], some .key)
    | some i, some bf => genEmDefs process (bf.col i) fb.ex
    | some _, none => ([], some .type)

/-- `for i in cols: yield enumeration[i]` -/
def yieldAt {T : Type} (enumeration : List T) : List ℕ → Gen T
  | [] => ([], none)
  | i :: is =>
    match enumeration[i]? with
    | none => ([], some .index)
    | some t => let g := yieldAt enumeration is; (t :: g.1, g.2)

/-- `consumers`, flat_background.py:425-435. -/
def consumers (fb : FB F P) (process : P) (flow : F) : Gen (TermRef F P P) :=
  match indexOf fb process flow with
  | .error e => ([], some e)
  | .ok i =>
    if isInBackground fb process flow then
      match fb.ad with
      | none => ([], some .type)
      | some ad =>
        (yieldAt fb.fg (nonzero (ad.row i))).append
          (match fb.A with
           | none => ([], some .type)
           | some a => yieldAt fb.bg (nonzero (a.row i)))
    else
      match fb.af with
      | none => ([], some .type)
      | some af => yieldAt fb.fg (nonzero (af.row i))

/-- the inner loop of `foreground` for one column, flat_background.py:370-388 (`traverse=False`): what is
yielded, the queue and `cols_seen` afterwards. -/
def fgColumn (fb : FB F P) (node : TermRef F P P) :
    List (ℕ × ℚ) → List ℕ → List ℕ → List (ExchDef F P) × List ℕ × List ℕ × Option Err
  | [], q, seen => ([], q, seen, none)
  | (r, dat) :: rest, q, seen =>
    let q' := if r ∈ seen then q else q ++ [r]
    let seen' := if r ∈ seen then seen else r :: seen
    match fb.fg[r]? with
    | none => ([], q', seen', some .index)
    | some t =>
      let g := fgColumn fb node rest q' seen'
      (exchOf node.term t dat :: g.1, g.2)

/-- the `while` loop of `foreground`, flat_background.py:365-388, with `fuel` rounds left. -/
def fgQueue (fb : FB F P) (af : Sp) : ℕ → List ℕ → List ℕ → Gen (ExchDef F P)
  | _, [], _ => ([], none)
  | 0, _ :: _, _ => ([], some .fuel)
  | fuel + 1, current :: q, seen =>
    match fb.fg[current]? with
    | none => ([], some .index)
    | some node =>
      match fgColumn fb node (pairs (af.col current)) q seen with
      | (l, _, _, some e) => (l, some e)
      | (l, q', seen', none) =>
        let g := fgQueue fb af fuel q' seen'
        (l ++ g.1, g.2)

/-- `foreground(process, ref_flow)`, flat_background.py:337-388. -/
def foreground (fb : FB F P) (fuel : ℕ) (process : P) (flow : F) : Gen (ExchDef F P) :=
  match (fgIndex fb).get? (process, flow) with
  | none => ([], some .key)
  | some i =>
    match fb.fg[i]?, fb.af with
    | none, _ => ([], some .index)
    | some t, none => ([⟨process, flow, t.dir, none, 1⟩], some .type)
    | some t, some af =>
      let g := fgQueue fb af fuel [i] [i]
      (⟨process, flow, t.dir, none, 1⟩ :: g.1, g.2)

/-! ### construction -/

/-- `_map_nontrivial_sccs`, flat_background.py:191, tarjan_stack.py:272-275: for every component with more
than one member, the process of the product flow whose index is the component id. `none`: IndexError. -/
def sccNames (s : State F P) : Option (Dict ℕ P) :=
  (s.sccs.filter fun kl => decide (1 < kl.2.length)).mapM fun kl =>
    (s.pfIndex[kl.1]?).map fun v => (kl.1, v.2)

/-- `_make_term_ref`, flat_background.py:193-198: `ProductFlow.direction` is the direction of the reference
exchange (product_flow.py:40-49). -/
def makeTermRef (db : DB F P) (s : State F P) (names : Dict ℕ P) (v : F × P) : TermRef F P P :=
  ⟨v.1, (db.refDir v).getD .output, v.2, (s.sccOf.get? v).bind names.get?⟩

/-- `_make_term_ext`, flat_background.py:200-205; `comp f` is `flow['Compartment'][-1]`, `none` if the list
is empty. -/
def makeTermExt (comp : F → Option P) (e : F × Dir) : TermRef F (Option P) P :=
  ⟨e.1, e.2.comp, comp e.1, none⟩

/-- `from_background_engine` and `__init__`, flat_background.py:184-212, 257-290. `be.lci_db` is a pair, so
when the engine has no background `lci_db[0].tocsr()` is called on None (276-281). -/
def fromEngine (db : DB F P) (comp : F → Option P) (e : Eng F P) : Except Err (FB F P) :=
  let m := makeForegroundAll e
  let pd := pdim e.g
  let nd := ndim e.g
  let md := e.st.emissions.length
  let em := fun (t : ℕ × Option ℕ × ℚ) => ((some t.1, t.2.1, t.2.2) : Option ℕ × Option ℕ × ℚ)
  -- make_foreground()
  let mats : Option (Option Sp × Option Sp × Option Sp) :=
    match m with
    | none => some (none, none, none)
    | some m =>
      match csr pd pd m.af, csr nd pd m.ad, csr md pd (m.bf.map em) with
      | some af, some ad, some bf => some (some af, some ad, some bf)
      | _, _, _ => none
  match mats, sccNames e.st with
  | none, _ => .error .engine
  | some _, none => .error .index
  | some (af, ad, bf), some names =>
    match e.aMatrix, e.bMatrix with
    | some a, some b =>
      match csr nd nd a, csr md nd (b.map em) with
      | some a, some b =>
        .ok { fg := e.g.fgProcs.map (makeTermRef db e.st names)
              bg := e.g.bgProcs.map (makeTermRef db e.st names)
              ex := e.st.emissions.map (makeTermExt comp)
              af := af, ad := ad, bf := bf, A := some a, B := some b }
      | _, _ => .error .engine
    | _, _ => .error .attribute

/-- `from_index`, flat_background.py:173-182. -/
def fromIndex (o : SetOrd F P) (db : DB F P) (comp : F → Option P) (strat : Strategy) (fuel : ℕ)
    (vs : List (F × P)) : Except Err (FB F P) :=
  match addAllRefProducts o db strat fuel vs {} with
  | none => .error .engine
  | some e => fromEngine db comp e

end FlatBg
