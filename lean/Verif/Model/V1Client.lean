import Verif.Model.Lcia
import Mathlib.Data.List.Sort
import Mathlib.Data.String.Basic

/-!
Model of the client of an Antelope v1 server, `antelope_catalog/providers/v1_client`: LCIA results
(`inventory.py`), entities kept by the archive (`antelope_v1.py`), fragment flows (`FragmentFlow.from_antelope_v1`,
`lcatools/fragment_flows.py`). LCIA results themselves are those of Model/Lcia.

Simplifications:
* the server is a table of documents, which does not change; ids are natural numbers; documents have all the fields
  the client takes out of them, among them a uuid;
* an object is a number; the impact categories of methods are left out;
* numbers are rationals.
-/

namespace Av1

inductive Err
  | indexError | keyError | valueError | typeError | v1Error | zeroDivision
  | lcia (e : Lcia.Err)
  deriving DecidableEq, Repr

/-! ### results -/

/-- the external references of components -/
inductive Ref | process (n : ℕ) | fragmentFlow (n : ℕ) | stage (name : String)
  deriving DecidableEq, Repr

/-- `lciaDetail` of a component -/
structure DetailDoc where
  flow : ℕ
  dir : Lcia.Dir
  quantity : ℚ
  factor : ℚ
  deriving DecidableEq

/-- `lciaScore` of a result -/
structure CompDoc where
  processID : Option ℕ := none
  fragmentFlowID : Option ℕ := none
  fragmentStageID : Option ℕ := none
  cumulative : ℚ
  detail : List DetailDoc := []
  deriving DecidableEq

abbrev Res := Lcia.Result Ref Ref ℕ

/-- `stgs[stage_id - 1]`: the last one for 0, inventory.py:38 -/
def pyIndex {α : Type} (l : List α) (n : ℕ) : Option α := if n = 0 then l.getLast? else l[n - 1]?

/-- `get_stage_name`, inventory.py:35-43; `stgs`: ids and names of all stages -/
def stageName (stgs : List (ℕ × String)) (id : ℕ) : Except Err String :=
  match pyIndex stgs id with
  | none => .error .indexError
  | some s =>
    if s.1 = id then .ok s.2
    else match stgs.find? fun s => s.1 = id with
      | some s => .ok s.2
      | none => .error .valueError

/-- the entity of a component, and its location, inventory.py:49-59 -/
def compEntity (scope : ℕ → String) (stgs : List (ℕ × String)) (c : CompDoc) : Except Err (Ref × String) :=
  match c.processID with
  | some p => .ok (.process p, scope p)
  | none => match c.fragmentFlowID with
    | some f => .ok (.fragmentFlow f, "GLO")
    | none => match c.fragmentStageID with
      | some s => match stageName stgs s with
        | .ok n => .ok (.stage n, "GLO")
        | .error e => .error e
      | none => .error .valueError

/-- `_add_lcia_detail`, inventory.py:70-74 -/
def addDetail (k : Ref) (loc : String) (r : Res) (d : DetailDoc) : Except Err Res :=
  match r.addScore k k (Lcia.Detail.make d.flow (some d.quantity) d.dir { locs := [(loc, some d.factor)] } loc) with
  | .ok r => .ok r
  | .error e => .error (.lcia e)

/-- `for d in component['lciaDetail']`, inventory.py:67-68 -/
def addDetails (k : Ref) (loc : String) : List DetailDoc → Res → Except Err Res
  | [], r => .ok r
  | d :: l, r => match addDetail k loc r d with
    | .ok r => addDetails k loc l r
    | .error e => .error e

def isProcess : Ref → Bool
  | .process _ => true
  | _ => false

/-- `add_lcia_component`, inventory.py:48-68 -/
def addComponent (scope : ℕ → String) (stgs : List (ℕ × String)) (r : Res) (c : CompDoc) : Except Err Res :=
  match compEntity scope stgs c with
  | .error e => .error e
  | .ok (k, loc) =>
    if c.detail = [] then
      match r.addSummary k k 1 (.num c.cumulative) with
      | .ok r => .ok r
      | .error e => .error (.lcia e)
    else if !isProcess k then .error .typeError
    else addDetails k loc c.detail (r.addComponent k k)

/-- `for component in lcia_r['lciaScore']`, inventory.py:170-171 -/
def addAll (scope : ℕ → String) (stgs : List (ℕ × String)) : List CompDoc → Res → Except Err Res
  | [], r => .ok r
  | c :: l, r => match addComponent scope stgs r c with
    | .ok r => addAll scope stgs l r
    | .error e => .error e

/-- `math.isclose(a, b, rel_tol=1e-8)` in `check_total`, inventory.py:77-79 -/
def isclose (a b : ℚ) : Bool := decide (|a - b| ≤ (1 / 100000000) * max |a| |b|)

/-- `lcia`, inventory.py:103-140, of the process `p`; `total`, `scores`: what the server answers -/
def lcia (scope : ℕ → String) (stgs : List (ℕ × String)) (p : ℕ) (total : ℚ) (scores : List CompDoc) : Except Err Res :=
  match scores with
  | [] => .error .indexError
  | c :: rest =>
    if rest ≠ [] then .error .v1Error
    else if !isclose c.cumulative total then .error .v1Error
    else match c.processID with
      | none => .error .keyError
      | some q =>
        if q ≠ p then .error .v1Error
        else match addComponent scope stgs {} c with
          | .error e => .error e
          | .ok r => if isclose r.total total then .ok r else .error .v1Error

/-- `fragment_lcia`, inventory.py:157-175; `none`: the server answers nothing -/
def fragmentLcia (scope : ℕ → String) (stgs : List (ℕ × String)) : Option (ℚ × List CompDoc) → Except Err Res
  | none => .ok {}
  | some (total, scores) => match addAll scope stgs scores {} with
    | .error e => .error e
    | .ok r => if isclose r.total total then .ok r else .error .v1Error

/-! ### entities -/

inductive Kind | process | flow | flowproperty | lciamethod | fragment
  deriving DecidableEq, Repr

/-- a document: its id, the flow property of a flow or the flow of a fragment, whether the indicator is not empty -/
structure Doc where
  kind : Kind
  id : ℕ
  dep : ℕ := 0
  indicator : Bool := false
  deriving DecidableEq

/-- the server: documents by kind and id, and the lists of all -/
structure Server where
  one : Kind → ℕ → Option Doc
  all : Kind → List Doc

/-- the archive: `_entities`, `_cached`, `_fetched_all`, the number of requests; objects are numbers, `docs` says what
each was made from; antelope_v1.py:64-93 -/
structure St where
  entities : Dict (Kind × ℕ) ℕ := []
  cached : Dict (Kind × ℕ) ℕ := []
  fetched : Kind → Bool := fun _ => false
  docs : List Doc := []
  requests : ℕ := 0

/-- a reference is made, cached, and added unless there is one; antelope_v1.py:232-302, basic_archive.py:152-157 -/
def save (d : Doc) (s : St) : ℕ × St :=
  let o := s.docs.length
  (o, { s with
        docs := s.docs ++ [d]
        cached := s.cached.set (d.kind, d.id) o
        entities := if s.entities.has (d.kind, d.id) then s.entities else s.entities.set (d.kind, d.id) o })

/-- what is known under a key: `_cached` before `_entities`, antelope_v1.py:217-226 -/
def St.known (s : St) (k : Kind × ℕ) : Option ℕ := (s.cached.get? k).or (s.entities.get? k)

/-- `_parse_and_save_entity` of a document that refers to nothing, antelope_v1.py:232-246 -/
def parse0 (d : Doc) (s : St) : Except Err (ℕ × St) := .ok (save d s)

/-- `retrieve_or_fetch_entity` with a key of two parts, antelope_v1.py:208-230, and `_fetch`, antelope_v1.py:173-175 -/
def retrieveWith (parse : Doc → St → Except Err (ℕ × St)) (srv : Server) (k : Kind × ℕ) (s : St) : Except Err (ℕ × St) :=
  match s.known k with
  | some o => .ok (o, s)
  | none => match srv.one k.1 k.2 with
    | none => .error .indexError
    | some d => parse d { s with requests := s.requests + 1 }

/-- `_parse_and_save_flow` takes the flow property first, antelope_v1.py:259-268 -/
def parseFlow (srv : Server) (d : Doc) (s : St) : Except Err (ℕ × St) :=
  match retrieveWith parse0 srv (.flowproperty, d.dep) s with
  | .error e => .error e
  | .ok (_, s) => .ok (save d s)

/-- `_parse_and_save_fragment` takes the flow first, antelope_v1.py:293-302 -/
def parseFragment (srv : Server) (d : Doc) (s : St) : Except Err (ℕ × St) :=
  match retrieveWith (parseFlow srv) srv (.flow, d.dep) s with
  | .error e => .error e
  | .ok (_, s) => .ok (save d s)

/-- `_parse_and_save_entity`, antelope_v1.py:232-246 -/
def parse (srv : Server) (d : Doc) (s : St) : Except Err (ℕ × St) :=
  match d.kind with
  | .flow => parseFlow srv d s
  | .fragment => parseFragment srv d s
  | _ => parse0 d s

/-- a key: kind and id, or a text that is not of this form (such as a uuid) -/
inductive Key | pair (k : Kind) (n : ℕ) | text (t : String)
  deriving DecidableEq

/-- `retrieve_or_fetch_entity`, antelope_v1.py:208-230: keys without a single '/' raise even if they are known -/
def retrieve (srv : Server) (k : Key) (s : St) : Except Err (ℕ × St) :=
  match k with
  | .pair k n => retrieveWith (parse srv) srv (k, n) s
  | .text _ => .error .keyError

/-- the loop over the list of the server, antelope_v1.py:132-133 -/
def parseAll (srv : Server) : List Doc → St → Except Err (List ℕ × St)
  | [], s => .ok ([], s)
  | d :: l, s => match parse srv d s with
    | .error e => .error e
    | .ok (o, s) => match parseAll srv l s with
      | .error e => .error e
      | .ok (os, s) => .ok (o :: os, s)

/-- whether an object is listed among the entities of a kind, antelope_v1.py:123-130 -/
def listed (k : Kind) (s : St) (o : ℕ) : Bool :=
  match k with
  | .flowproperty => match s.docs[o]? with | some d => !d.indicator | none => false
  | .lciamethod => match s.docs[o]? with | some d => d.indicator | none => false
  | _ => true

/-- `entities_by_type`, read to the end, antelope_v1.py:108-134: the first time from the server, then from the cache in
the order of the ids as texts -/
def entitiesByType (srv : Server) (k : Kind) (s : St) : Except Err (List ℕ × St) :=
  if s.fetched k then
    .ok ((((s.cached.filter fun kv => kv.1.1 = k).insertionSort fun a b => a.1.2.repr ≤ b.1.2.repr).map fun kv => kv.2).filter
      (listed k s), s)
  else
    match parseAll srv (srv.all k) { s with requests := s.requests + 1 } with
    | .error e => .error e
    | .ok (os, s) => .ok (os, { s with fetched := fun k' => if k' = k then true else s.fetched k' })

/-- the archive when it is made: all flow properties are fetched, antelope_v1.py:91-93 -/
def init (srv : Server) : Except Err St :=
  match parseAll srv (srv.all .flowproperty) { requests := 1 } with
  | .error e => .error e
  | .ok (_, s) => .ok { s with fetched := fun k => decide (k = .flowproperty) }

/-! ### fragment flows -/

/-- a fragment flow as the server has it: id, parent, flow, magnitude, node weight, and further magnitudes by flow
property -/
structure FlowDoc where
  id : ℕ
  parent : Option ℕ
  flow : ℕ
  magnitude : ℚ
  others : List (ℕ × ℚ)
  weight : ℚ
  deriving DecidableEq

/-- the order of `sorted(ffs, key=...)`, inventory.py:154-155 -/
def before (a b : FlowDoc) : Bool :=
  match a.parent.isSome, b.parent.isSome with
  | false, true => true
  | true, false => false
  | _, _ => decide (a.id ≤ b.id)

/-- the characterizations of flows: by flow and flow property -/
abbrev Chars := Dict (ℕ × ℕ) ℚ

/-- the other magnitudes of a fragment flow, fragment_flows.py:69-79 -/
def addChars (close : ℚ → ℚ → Bool) (flow : ℕ) (magnitude : ℚ) : List (ℕ × ℚ) → Chars → Except Err Chars
  | [], c => .ok c
  | (q, m) :: l, c =>
    if m ≠ 0 ∧ magnitude = 0 then .error .zeroDivision
    else
      let v := if m = 0 then 0 else m / magnitude
      match c.get? (flow, q) with
      | none => addChars close flow magnitude l (c.set (flow, q) v)
      | some w => if close w v then addChars close flow magnitude l c else .error .valueError

/-- `math.isclose(a, b)`, the `close` of fragment flows, fragment_flows.py:78 -/
def isclose9 (a b : ℚ) : Bool := decide (|a - b| ≤ (1 / 1000000000) * max |a| |b|)

/-- what is made of a fragment flow: id, magnitude, node weight and the inbound exchange value -/
structure Made where
  id : ℕ
  magnitude : ℚ
  weight : ℚ
  inbound : ℚ
  deriving DecidableEq

/-- `FragmentFlow.from_antelope_v1`, fragment_flows.py:52-109 -/
def fromV1 (close : ℚ → ℚ → Bool) (d : FlowDoc) (c : Chars) : Except Err (Made × Chars) :=
  match addChars close d.flow d.magnitude d.others c with
  | .error e => .error e
  | .ok c =>
    if d.magnitude = 0 then .ok (⟨d.id, d.magnitude, d.weight, 0⟩, c)
    else if d.weight = 0 then .error .zeroDivision
    else .ok (⟨d.id, d.magnitude, d.weight, d.magnitude / d.weight⟩, c)

/-- the list of fragment flows, inventory.py:154-155 -/
def makeAll (close : ℚ → ℚ → Bool) : List FlowDoc → Chars → Except Err (List Made × Chars)
  | [], c => .ok ([], c)
  | d :: l, c => match fromV1 close d c with
    | .error e => .error e
    | .ok (m, c) => match makeAll close l c with
      | .error e => .error e
      | .ok (ms, c) => .ok (m :: ms, c)

/-- `traverse`, inventory.py:142-155 -/
def traverse (close : ℚ → ℚ → Bool) (docs : List FlowDoc) (c : Chars) : Except Err (List Made × Chars) :=
  makeAll close (docs.insertionSort fun a b => before a b = true) c

end Av1
