import Verif.Model.FlatBg

/-!
Model of the background interface: `TarjanBackgroundImplementation` (`antelope_background/background/implementation.py`) over a flat background,
the proxy `BackgroundImplementation` (`lcatools/implementations/background.py`), the background queries of a process reference
(`lcatools/entity_refs/process_ref.py`), and the files of a flat background (`antelope_background/background/flat_background.py`).

Simplifications:
* those of Model/FlatBg; a flow is its external reference, given as a string or as an entity (`x.flow == flow` of process_ref.py:78 is taken to
  compare external references);
* reference exchanges have no termination; a process given as an entity has them in the order in which `references` lists them;
* whether the index raises EntityNotFound (a catalog query) or returns None, which then raises AttributeError, is one exception, `notFound`;
  where the difference matters (the proxy's `is_in_background`) it is a parameter;
* no string is equal to an exchange, and no key of a dictionary is found by accident (hash collisions).
-/

namespace BgI
open Engine FlatBg

inductive Err
  | flat (e : FlatBg.Err)        -- raised by the flat background
  | key | stopIteration | runtime | noExchange | multiple | notFound | invalidRefFlow | value | type | attribute
  deriving DecidableEq, Repr

/-- a process as the index gives it: a catalog reference (`isRef`) or an LcProcess -/
structure Ent (F P : Type) where
  ext : P
  refs : List (F × Dir)
  isRef : Bool
  deriving DecidableEq

/-- the index interface: `get` of processes, and which flows it can get -/
structure Env (F P : Type) where
  proc : P → Option (Ent F P)
  flow : F → Bool

/-- the argument `process` of a query: a string, a process, an exchange, another entity, or something without type -/
inductive Arg (F P : Type)
  | str (p : P)
  | proc (e : Ent F P)
  | exch (p : P) (f : F) (isReference : Bool)
  | entity
  | thing

variable {F P : Type} [DecidableEq F] [DecidableEq P]

/-- `reference(flow)` of a process reference, process_ref.py:53-79, and of an LcProcess, processes.py:424-425, 362-400 -/
def reference (e : Ent F P) (flow : Option F) : Except Err (F × Dir) :=
  let found := match flow with
    | none => e.refs
    | some f => e.refs.filter fun x => decide (x.1 = f)
  if e.isRef then
    match found with
    | [] => .error .stopIteration
    | x :: _ => .ok x
  else
    match found with
    | [] => .error .noExchange
    | [x] => .ok x
    | _ => .error .multiple

/-- `_check_ref`, implementation.py:52-80: the process, and the flow; for a process that is not a string the second is the reference *exchange*
(line 65), which is modelled as `none` -/
def checkRef (env : Env F P) (arg : Arg F P) (opt : Option F) : Except Err (P × Option F) :=
  let r : Except Err (P × Option F) := match arg with
    | .str p =>
      match env.proc p with
      | none => .error .notFound
      | some e =>
        match reference e opt with
        | .error x => .error x
        | .ok rx => .ok (p, some rx.1)
    | .proc e =>
      match reference e opt with
      | .error x => .error x
      | .ok _ => .ok (e.ext, none)
    | .exch p f isReference => if isReference then .ok (p, some f) else .error .value
    | .entity => .error .type
    | .thing => .error .type
  match r with
  | .error .stopIteration => .error .invalidRefFlow
  | r => r

/-- `is_in_background`, implementation.py:111-113 -/
def isInBackground (env : Env F P) (fb : FB F P) (arg : Arg F P) (opt : Option F) : Except Err Bool :=
  match checkRef env arg opt with
  | .error e => .error e
  | .ok (_, none) => .ok false
  | .ok (p, some f) => .ok (FlatBg.isInBackground fb p f)

/-- `is_in_scc`, implementation.py:107-109 -/
def isInScc (env : Env F P) (fb : FB F P) (arg : Arg F P) (opt : Option F) : Except Err Bool :=
  match checkRef env arg opt with
  | .error e => .error e
  | .ok (_, none) => .error .key
  | .ok (p, some f) =>
    match FlatBg.isInScc fb p f with
    | .error e => .error (.flat e)
    | .ok b => .ok b

/-- what a generator yields, and the exception that ends it -/
abbrev IGen (α : Type) := List α × Option Err

/-- the end of the loop over a generator of the flat background -/
def ending : Option FlatBg.Err → Option Err
  | none => none
  | some e => some (.flat e)

/-- `_direct_exchanges`, implementation.py:120-122 -/
def direct (env : Env F P) (node : P) (last : Option FlatBg.Err) : List (ExchDef F P) → IGen (ExchDef F P)
  | [] => ([], ending last)
  | x :: l =>
    if env.flow x.flow then
      let g := direct env node last l
      (⟨node, x.flow, x.dir, x.term, x.value⟩ :: g.1, g.2)
    else ([], some .notFound)

/-- `dependencies`, `emissions`, `ad`, `bf`, `lci`, implementation.py:129-157, for the method `q` of the flat background -/
def directQuery (env : Env F P) (q : P → F → Gen (ExchDef F P)) (arg : Arg F P) (opt : Option F) : IGen (ExchDef F P) :=
  match checkRef env arg opt with
  | .error e => ([], some e)
  | .ok (p, f) =>
    match env.proc p with
    | none => ([], some .notFound)
    | some e =>
      match f with
      | none => ([], some .key)
      | some f => direct env e.ext (q p f).2 (q p f).1

/-- the loop of `foreground`, implementation.py:117-118 -/
def fgExchanges (env : Env F P) (last : Option FlatBg.Err) : List (ExchDef F P) → IGen (ExchDef F P)
  | [] => ([], ending last)
  | x :: l =>
    match env.proc x.process with
    | none => ([], some .notFound)
    | some e =>
      if env.flow x.flow then
        let g := fgExchanges env last l
        (⟨e.ext, x.flow, x.dir, x.term, x.value⟩ :: g.1, g.2)
      else ([], some .notFound)

/-- `foreground`, implementation.py:115-118 -/
def foreground (env : Env F P) (fb : FB F P) (fuel : ℕ) (arg : Arg F P) (opt : Option F) : IGen (ExchDef F P) :=
  match checkRef env arg opt with
  | .error e => ([], some e)
  | .ok (_, none) => ([], some .key)
  | .ok (p, some f) => fgExchanges env (FlatBg.foreground fb fuel p f).2 (FlatBg.foreground fb fuel p f).1

/-- a reference exchange: process, flow, direction -/
structure Rx (F P : Type) where
  process : P
  flow : F
  dir : Dir
  deriving DecidableEq

/-- the loops over `_exchange_from_term_ref`, implementation.py:89-91, 124-127; a StopIteration inside a generator becomes a RuntimeError -/
def termRefs (env : Env F P) (last : Option FlatBg.Err) : List (TermRef F P P) → IGen (Rx F P)
  | [] => ([], ending last)
  | t :: l =>
    match env.proc t.term with
    | none => ([], some .notFound)
    | some e =>
      match reference e (some t.flow) with
      | .error .stopIteration => ([], some .runtime)
      | .error x => ([], some x)
      | .ok rx =>
        let g := termRefs env last l
        (⟨e.ext, rx.1, rx.2⟩ :: g.1, g.2)

/-- `foreground_flows`, implementation.py:93-95; `search` is not used -/
def foregroundFlows (env : Env F P) (fb : FB F P) (_search : Option String) : IGen (Rx F P) := termRefs env none fb.fg

/-- `background_flows`, implementation.py:97-99; `search` is not used -/
def backgroundFlows (env : Env F P) (fb : FB F P) (_search : Option String) : IGen (Rx F P) := termRefs env none fb.bg

/-- `consumers`, implementation.py:124-127 -/
def consumers (env : Env F P) (fb : FB F P) (arg : Arg F P) (opt : Option F) : IGen (Rx F P) :=
  match checkRef env arg opt with
  | .error e => ([], some e)
  | .ok (_, none) => ([], some .key)
  | .ok (p, some f) => termRefs env (FlatBg.consumers fb p f).2 (FlatBg.consumers fb p f).1

/-- `bg_lcia`, inherited from the proxy, background.py:167-175: the process is looked up in the archive (`arch`) and passed to `lci` as an entity.
`lcia` stands for `do_lcia`, which reads the whole inventory. -/
def bgLcia {R : Type} (env : Env F P) (q : P → F → Gen (ExchDef F P)) (arch : P → Option (Ent F P)) (lcia : List (ExchDef F P) → R) (process : P)
    (opt : Option F) : Except Err R :=
  let p : Arg F P := match arch process with
    | some e => .proc e
    | none => .thing
  match directQuery env q p opt with
  | (_, some e) => .error e
  | (l, none) => .ok (lcia l)

/-! ### the proxy -/

/-- an archive behind the proxy: its processes and flows; `names`: what `search` is compared with -/
structure Arch (F P : Type) where
  procs : List (Ent F P)
  flows : List F

/-- `search_skip`, background.py:11-14; `hit search p`: `re.search` finds the pattern in the name -/
def searchSkip {α : Type} (hit : String → α → Bool) (search : Option String) (x : α) : Bool :=
  match search with
  | none => false
  | some s => !hit s x

/-- the proxy's `background_flows`, background.py:60-72: the reference exchanges, with the process as termination -/
def proxyBackgroundFlows (a : Arch F P) (hit : String → P → Bool) (search : Option String) : List (Rx F P) :=
  a.procs.flatMap fun p => (p.refs.filter fun _ => !searchSkip hit search p.ext).map fun rx => ⟨p.ext, rx.1, rx.2⟩

/-- whether `terminate(flow, direction)` yields something, index.py:85-106: `direction` is that of the exchange, the process's is the other one -/
def terminated (a : Arch F P) (direction : Option Dir) (f : F) : Bool :=
  a.procs.any fun p => p.refs.any fun rx => decide (rx.1 = f) && (direction.isNone || decide (direction.map Dir.comp = some rx.2))

/-- the proxy's `exterior_flows`, background.py:74-93. The implementation has no method `is_elementary` (abstract_query.py:76-85 is commented
out), so the first exterior flow raises AttributeError. -/
def proxyExteriorFlows (a : Arch F P) (hit : String → F → Bool) (direction : Option Dir) (search : Option String) : List F → IGen (F × Dir)
  | [] => ([], none)
  | f :: l =>
    if searchSkip hit search f then proxyExteriorFlows a hit direction search l
    else if terminated a direction f then proxyExteriorFlows a hit direction search l
    else ([], some .attribute)

/-- the proxy's `is_in_background`, background.py:144-150; `raises`: the index is a catalog query, which raises EntityNotFound, and not the
index of the archive, which returns None -/
def proxyIsInBackground (raises : Bool) (a : Arch F P) (p : P) : Bool :=
  if (a.procs.any fun e => decide (e.ext = p)) then true else !raises

/-- the proxy's `foreground`, background.py:128-132: the reference exchange. A StopIteration inside a generator becomes a RuntimeError. -/
def proxyForeground (a : Arch F P) (p : P) (refFlow : Option F) : IGen (Rx F P) :=
  match a.procs.find? fun e => decide (e.ext = p) with
  | none => ([], some .notFound)
  | some e =>
    match reference e refFlow with
    | .error .stopIteration => ([], some .runtime)
    | .error x => ([], some x)
    | .ok rx => ([⟨e.ext, rx.1, rx.2⟩], none)

/-! ### process references -/

/-- the argument `ref_flow` of a process reference's queries: None, a string, a flow, or an exchange -/
inductive RefFlow (F : Type)
  | none | str (f : F) | flow (f : F) | exch (f : F)

/-- `ProcessRef.__init__`, process_ref.py:14-24: the default reference flow -/
def defaultRx (e : Ent F P) : Option F :=
  match e.refs with
  | [rx] => some rx.1
  | _ => Option.none

/-- the setter of `default_rx`, process_ref.py:40-51, for a string, a flow or an exchange; an exchange has no `external_ref` and is its flow -/
def setDefault (e : Ent F P) (old : Option F) (f : F) : Option F :=
  if e.refs.any fun rx => decide (rx.1 = f) then some f else old

/-- `_use_ref_exch`, process_ref.py:94-100: the flow passed on, `.none` if None. A string has no `entity_type`. -/
def useRefExch (dflt : Option F) : RefFlow F → Except Err (RefFlow F)
  | .none => match dflt with
    | some f => .ok (.str f)
    | Option.none => .ok .none
  | .str _ => .error .attribute
  | .flow f => .ok (.flow f)
  | .exch f => .ok (.flow f)

/-- the flow as the implementation sees it -/
def RefFlow.opt : RefFlow F → Option F
  | .none => Option.none
  | .str f => some f
  | .flow f => some f
  | .exch f => some f

/-- the background queries of a process reference, process_ref.py:151-193: `q` is the query of the interface -/
def refQuery {R : Type} (q : Arg F P → Option F → R) (e : Ent F P) (dflt : Option F) (rf : RefFlow F) : Except Err R :=
  match useRefExch dflt rf with
  | .error x => .error x
  | .ok rf => .ok (q (.str e.ext) rf.opt)

/-- `exchange_relation` of a process reference, process_ref.py:118-122: `ref_flow.external_ref` -/
def refRelation {R : Type} (q : P → F → R) (e : Ent F P) (dflt : Option F) (rf : RefFlow F) : Except Err R :=
  match useRefExch dflt rf with
  | .error x => .error x
  | .ok (.flow f) => .ok (q e.ext f)
  | .ok _ => .error .attribute

/-! ### files -/

/-- an entry of the index file: flow, 0 or 1, term, and 0 or the name of the component, flat_background.py:68-72, 519-523 -/
abbrev Entry (F T S : Type) := F × ℕ × T × (Unit ⊕ S)

/-- `tuple(f)` of a TermRef, flat_background.py:68-72 -/
def toEntry {F T S : Type} (t : TermRef F T S) : Entry F T S :=
  (t.flow, (match t.dir with | .input => 0 | .output => 1), t.term, (match t.scc with | none => .inl () | some s => .inr s))

/-- `TermRef(*f)`, flat_background.py:29-42, 61-66: a direction other than 0 and 1 raises KeyError -/
def ofEntry {F T S : Type} (e : Entry F T S) : Except Err (TermRef F T S) :=
  match e.2.1 with
  | 0 => .ok ⟨e.1, .input, e.2.2.1, (match e.2.2.2 with | .inl _ => none | .inr s => some s)⟩
  | 1 => .ok ⟨e.1, .output, e.2.2.1, (match e.2.2.2 with | .inl _ => none | .inr s => some s)⟩
  | _ => .error .key

/-- a sparse matrix in a .mat file is stored by columns, with its shape (rows, columns) -/
structure Csc where
  rows : ℕ
  cols : ℕ
  entries : Sp
  deriving DecidableEq

/-- `savemat` of a matrix: `tocsc()` -/
def toCsc (rows cols : ℕ) (m : Sp) : Csc :=
  ⟨rows, cols, (List.range cols).flatMap fun c => m.filter fun t => decide (t.2.1 = c)⟩

/-- `tocsr()` of a loaded matrix -/
def toCsr (m : Csc) : Sp := (List.range m.rows).flatMap fun r => m.entries.filter fun t => decide (t.1 = r)

/-- the two files of a flat background -/
structure File (F P : Type) where
  fg : List (Entry F P P)
  bg : List (Entry F P P)
  ex : List (Entry F (Option P) P)
  af : Csc
  ad : Csc
  bf : Csc
  lci : Option (Csc × Csc)

/-- the three foreground matrices, flat_background.py:526-528: None is written as a matrix of shape (0, 0) -/
def saveMat (r c : ℕ) (m : Option Sp) : Csc :=
  match m with
  | none => ⟨0, 0, []⟩
  | some m => toCsc r c m

/-- `write_to_file`, flat_background.py:519-542, for a filename that ends in .mat or not -/
def write (isMat : Bool) (fb : FB F P) (complete : Bool) : Except Err (File F P) :=
  if isMat then
    let p := fb.fg.length
    let n := fb.bg.length
    let x := fb.ex.length
    .ok { fg := fb.fg.map toEntry, bg := fb.bg.map toEntry, ex := fb.ex.map toEntry
          af := saveMat p p fb.af, ad := saveMat n p fb.ad, bf := saveMat x p fb.bf
          lci := match fb.A, fb.B with
            | some a, some b => if complete then some (toCsc n n a, toCsc x n b) else none
            | _, _ => none }
  else .error .value

/-- `from_matfile`, flat_background.py:229-255 -/
def load (f : File F P) : Except Err (FB F P) := do
  let fg ← f.fg.mapM ofEntry
  let bg ← f.bg.mapM ofEntry
  let ex ← f.ex.mapM ofEntry
  pure { fg := fg, bg := bg, ex := ex, af := some (toCsr f.af), ad := some (toCsr f.ad), bf := some (toCsr f.bf)
         A := f.lci.map fun ab => toCsr ab.1, B := f.lci.map fun ab => toCsr ab.2 }

end BgI
