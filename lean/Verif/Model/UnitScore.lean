import Verif.Model.Fragment
import Verif.Model.Lcia
import Verif.Model.BgImpl

/-!
Model of unit scores: the LCIA part of `lcatools/terminations.py`, with `frag_flow_lcia` (`lcatools/fragment_flows.py`) over terminations
that compute and cache their scores.

Simplifications:
* one quantity at a time: the cache of a termination (a dict by quantity) holds at most one result here;
* `Env` gives what is asked of others: the LCIA of a list of exchanges at a location (`do_lcia`), the inventory and the LCI of a process,
  its location, the answers of private databases, the answers of fragments that are asked remotely. These do not change caches;
* fragments are described by what their terminations read from them: flow, direction, background or not, child flows;
* printing, autorange and scenarios of results are left out. Numbers are rationals.
-/

namespace USc
open Frg (Dir)

/-- an exchange of an inventory -/
structure X (F : Type) where
  flow : F
  dir : Dir
  value : Option ℚ
  term : Option String := none     -- its termination
  deriving DecidableEq

/-- what a flow is terminated to; `here`: whether its origin is that of the fragment. For fragments: whether it is a reference (FragmentRef)
or a fragment (LcFragment), and `is_background` (false for references, fragment_ref.py:34-39) -/
inductive Node (P : Type)
  | null
  | self
  | proc (p : P) (here : Bool)
  | frag (i : ℕ) (isRef bg here : Bool)
  deriving DecidableEq

/-- the fragment a termination belongs to: fragments.py:133-188, 255-258 -/
structure Frag (F : Type) where
  flow : F
  dir : Dir
  bg : Bool
  kids : List (F × Dir)          -- flow and direction of the child flows
  deriving DecidableEq

/-- FlowTermination, terminations.py:42-174 -/
structure Term (P F : Type) where
  parent : Frag F
  node : Node P
  flow : F                       -- term_flow
  dir : Dir
  descend : Bool
  deriving DecidableEq

inductive Err
  | subAggregation | uncached | attribute | type | conversion | priv | notFound | lcia (e : Lcia.Err)
  deriving DecidableEq, Repr

variable {P F Q K En : Type} [DecidableEq F] [DecidableEq Q] [DecidableEq K] [DecidableEq En]

abbrev Res (K En F : Type) := Lcia.Result K En F

/-- what is asked of others -/
structure Env (P F Q K En : Type) where
  ext : F → String                                              -- external_ref
  flows : Frg.Env F Q
  lcia : String → List (X F) → Except Err (Res K En F)          -- quantity_ref.do_lcia
  inventory : P → F → Dir → Except Err (List (X F))
  lci : P → F → Except Err (List (X F))
  scope : P → Option String                                     -- term_node['SpatialScope']
  dflt : P → Option String                                      -- the default reference flow
  fgLcia : P → Option String → Except Err (Res K En F)          -- the query `lcia` for a reference flow
  bgLcia : P → Option String → Except Err (Res K En F)          -- the query `bg_lcia`
  remote : ℕ → Except Err (Res K En F)                          -- term_node.fragment_lcia

/-- `is_frag`, terminations.py:223-229 -/
def Term.isFrag (t : Term P F) : Bool :=
  match t.node with
  | .self => true
  | .frag .. => true
  | _ => false

/-- `is_fg`, terminations.py:247-253 -/
def Term.isFg (t : Term P F) : Bool :=
  match t.node with
  | .self => true
  | _ => false

def Term.isNull (t : Term P F) : Bool :=
  match t.node with
  | .null => true
  | _ => false

/-- `term_is_bg`, terminations.py:263-269: processes have no attribute `is_background` -/
def Term.termIsBg (t : Term P F) : Except Err Bool :=
  match t.node with
  | .null => .ok false
  | .self => .ok t.parent.bg
  | .proc _ here => if here then .error .attribute else .ok false
  | .frag _ isRef bg here => .ok (here && (!isRef && bg))

/-- `is_subfrag`, terminations.py:271-281 -/
def Term.isSubfrag (t : Term P F) : Except Err Bool :=
  if t.isFrag then
    if t.isFg || t.parent.bg then .ok false else t.termIsBg.map not
  else .ok false

/-- `node_weight_multiplier`, terminations.py:311-347, 364-366 -/
def Term.multiplier (env : Env P F Q K En) (t : Term P F) : Except Err ℚ :=
  match Frg.conversion env.flows t.parent.flow t.flow with
  | .ok c => .ok c
  | .error _ => .error .conversion

/-- flow and direction by which an exchange is found among the child flows, terminations.py:396-404 -/
def Term.observed (env : Env P F Q K En) (t : Term P F) : List (String × Dir) :=
  (env.ext t.flow, t.dir) :: t.parent.kids.map fun c => (env.ext c.1, c.2)

/-- the exchanges of the termination's node: `lci` or `inventory`, terminations.py:400-403. A fragment has an inventory only; it is called with
arguments it does not take (fragments.py:1000, fragment_ref.py:56) or, for the LCI, does not exist -/
def Term.nodeExchanges (env : Env P F Q K En) (t : Term P F) : Except Err (List (X F)) :=
  match t.node with
  | .null => .error .attribute
  | .self => .error .attribute
  | .proc p _ => if t.parent.bg then env.lci p t.flow else env.inventory p t.flow t.dir
  | .frag _ isRef _ _ => if t.parent.bg then .error .attribute else if isRef then .error .notFound else .error .type

/-- `_unobserved_exchanges`, terminations.py:376-403 -/
def Term.unobserved (env : Env P F Q K En) (t : Term P F) : Except Err (List (X F)) :=
  if t.isFg then
    match t.multiplier env with
    | .error e => .error e
    | .ok c => .ok [⟨t.flow, t.dir, some c, none⟩]
  else
    match t.termIsBg with
    | .error e => .error e
    | .ok true => .ok []
    | .ok false =>
      match t.nodeExchanges env with
      | .error e => .error e
      | .ok xs => .ok (xs.filter fun x => decide ((env.ext x.flow, x.dir) ∉ t.observed env))

/-- the location, terminations.py:432-435: a fragment has none -/
def Term.locale (env : Env P F Q K En) (t : Term P F) : String :=
  match t.node with
  | .proc p _ => (env.scope p).getD "GLO"
  | _ => "GLO"

/-- `fg_lcia`, `bg_lcia` of a process reference, process_ref.py:124-126, 185-193 -/
def refLcia (answer : Option String → Except Err (Res K En F)) (dflt : Option String) (rf : BgI.RefFlow String) : Except Err (Res K En F) :=
  match BgI.useRefExch dflt rf with
  | .error _ => .error .attribute
  | .ok rf => answer rf.opt

/-- the LCIA of the unobserved exchanges, terminations.py:436-438 -/
def Term.doLcia (env : Env P F Q K En) (t : Term P F) : Except Err (Res K En F) :=
  match t.unobserved env with
  | .error e => .error e
  | .ok xs => env.lcia (t.locale env) xs

/-- the last part of `compute_unit_score`, terminations.py:436-447 -/
def Term.compute (env : Env P F Q K En) (t : Term P F) : Except Err (Res K En F) :=
  match t.doLcia env with
  | .ok r => .ok r
  | .error .priv =>
    match t.node with
    | .proc p _ =>
      if t.parent.bg then refLcia (env.bgLcia p) (env.dflt p) (.str (env.ext t.flow))
      else refLcia (env.fgLcia p) (env.dflt p) (.str (env.ext t.flow))
    | _ => .error .attribute
  | .error e => .error e

/-- `bg_lcia` of a fragment, terminations.py:427-430: fragments have no such method; that of references passes an argument twice
(fragment_ref.py:70-71) -/
def bgLciaFrag (isRef : Bool) : Except Err (Res K En F) := if isRef then .error .type else .error .attribute

/-- `compute_unit_score`, terminations.py:407-447, of a termination that is not null -/
def Term.unitScore (env : Env P F Q K En) (t : Term P F) : Except Err (Res K En F) :=
  match t.isSubfrag with
  | .error e => .error e
  | .ok true => if t.descend then .ok {} else .error .subAggregation
  | .ok false =>
    if t.parent.bg then
      match t.node with
      | .self => .error .uncached
      | .frag _ isRef _ _ => bgLciaFrag isRef
      | _ => t.compute env
    else t.compute env

/-! ### the cache -/

/-- the caches of all terminations, each a result with the identity of the object; and the next identity -/
structure St (K En F : Type) where
  cache : Dict ℕ (ℕ × Res K En F)
  next : ℕ

/-- `score_cache`, terminations.py:449-464, of the termination with number `i` -/
def scoreCache (env : Env P F Q K En) (terms : ℕ → Term P F) (ignore refresh : Bool) (i : ℕ) (s : St K En F) :
    Out (St K En F) Err (ℕ × Res K En F) :=
  let store (r : Res K En F) : Out (St K En F) Err (ℕ × Res K En F) :=
    .ok (s.next, { r with scale := 1 }) { cache := s.cache.set i (s.next, { r with scale := 1 }), next := s.next + 1 }
  let fresh : Out (St K En F) Err (ℕ × Res K En F) :=
    match (terms i).unitScore env with
    | .ok r => store r
    | .error .uncached => if ignore then store {} else .err .uncached s
    | .error e => .err e s
  match s.cache.get? i with
  | some r => if refresh then fresh else .ok r s
  | none => fresh

/-- `clear_score_cache`, terminations.py:473-474 -/
def clearCache (i : ℕ) (s : St K En F) : St K En F := { s with cache := s.cache.del i }

/-- `clear_score_caches` of the foreground, foreground.py:305-308 -/
def clearAll (s : St K En F) : St K En F := { s with cache := [] }

/-- `add_lcia_score`, terminations.py:489-492: `k`, `e` are the uuid of the fragment and the fragment -/
def addScore (k : K) (e : En) (i : ℕ) (score : ℚ) (s : St K En F) : St K En F :=
  { cache := s.cache.set i (s.next, { scores := [(k, .static none e 1 score)] }), next := s.next + 1 }

/-! ### LCIA of fragment flows -/

/-- a fragment flow: key and entity of its fragment flow record, direction of the fragment, node weight, its termination by number, and the
aggregated flows of its subfragment -/
inductive FFl (K En : Type)
  | mk (frag : K) (ent : En) (dir : Dir) (nw : ℚ) (term : ℕ) (sub : Option (List (FFl K En)))

mutual
/-- the body of the loop of `frag_flow_lcia`, fragment_flows.py:310-333 -/
def lciaOne (env : Env P F Q K En) (terms : ℕ → Term P F) (ignore refresh : Bool) :
    FFl K En → St K En F → Res K En F → Out (St K En F) Err (Res K En F)
  | .mk k e d nw i sub, s, r =>
    let add (v : ℕ × Res K En F) (s : St K En F) : Out (St K En F) Err (Res K En F) :=
      if v.2.isNull then .ok r s
      else
        match r.addSummary k e (if (terms i).dir = d then -nw else nw) (.res v.1 v.2.scale v.2.priv v.2.scores) with
        | .ok r => .ok r s
        | .error e => .err (.lcia e) s
    if (terms i).isNull ∨ nw = 0 then .ok r s
    else
      match scoreCache env terms ignore refresh i s with
      | .ok v s => add v s
      | .err .subAggregation s =>
        match sub with
        | none => .err .type s
        | some [] =>
          match env.remote i with
          | .ok v => add (s.next, v) { s with next := s.next + 1 }
          | .error e => .err e s
        | some (f :: fs) =>
          match lciaMany env terms true refresh (f :: fs) s {} with
          | .ok v s => add (s.next, v) { s with next := s.next + 1 }
          | .err e s => .err e s
      | .err e s => .err e s
/-- `frag_flow_lcia`, fragment_flows.py:298-333 -/
def lciaMany (env : Env P F Q K En) (terms : ℕ → Term P F) (ignore refresh : Bool) :
    List (FFl K En) → St K En F → Res K En F → Out (St K En F) Err (Res K En F)
  | [], s, r => .ok r s
  | f :: fs, s, r =>
    match lciaOne env terms ignore refresh f s r with
    | .err e s => .err e s
    | .ok r s => lciaMany env terms ignore refresh fs s r
end

end USc
