import Verif.Model.Fragment
import Mathlib.Logic.Function.Basic

/-!
Model of how fragments are made, changed, saved and loaded: `lcatools/entities/fragments.py`,
`lcatools/entities/fragment_editor.py`.

Simplifications, besides those of `Verif/Model/Fragment.lean`: a fragment to be made is given as an unused number
(its uuid); names, comments and stage names are left out; a call that raises leaves the changes it made (`Out.err`).
-/

namespace Frg

variable {F Q : Type} [DecidableEq F] [DecidableEq Q]

/-- fragment i is now n -/
def Heap.put (H : Heap F Q) (i : ℕ) (n : Node F Q) : Heap F Q := Function.update H i n

/-! ### exchange values -/

/-- `_new_evs`, fragments.py:51-55 -/
def newEvs : Dict Key (Option ℚ) := [(.cached, some 1), (.observed, some 0)]

/-- `is_subfrag`, terminations.py:271-281, of a termination of fragment i -/
def isSubfrag (H : Heap F Q) (i : ℕ) (t : Term F) : Bool :=
  match t.target with
  | .frag j => decide (j ≠ i) && !(H i).bg && !(H j).bg
  | _ => false

/-- `_check_observability`, fragments.py:455-465 -/
def observable (H : Heap F Q) (i : ℕ) (sc : Scen) : Except Err Bool :=
  match (H i).parent with
  | none => .ok true
  | some p =>
    if (H i).bal then .ok false
    else (termOf (H p) sc).map fun t => !isSubfrag H p t

/-- the key of the table a scenario stands for, fragments.py:656-661 -/
def evKey : Key → Key
  | .str "0" => .cached
  | .str "1" => .observed
  | k => k

/-- `self._exchange_values[k] = v` -/
def putEv (H : Heap F Q) (i : ℕ) (k : Key) (v : Option ℚ) : Heap F Q := H.put i { H i with evs := (H i).evs.set k v }

/-- the key to set, or the exception, fragments.py:646-647, 656-661 -/
def singleKey : Scen → Except Err Key
  | .none => .ok .cached
  | .one (.tup _) => .error .scenarioConflict
  | .one k => .ok (evKey k)
  | .many _ => .error .scenarioConflict

/-- `set_exchange_value`, fragments.py:634-661 -/
def setEv (H : Heap F Q) (i : ℕ) (sc : Scen) (v : Option ℚ) : Out (Heap F Q) Err Unit :=
  match observable H i sc with
  | .error e => .err e H
  | .ok false => .err .dependentFragment H
  | .ok true =>
    match singleKey sc with
    | .error e => .err e H
    | .ok k => .ok () (putEv H i k v)

/-- setter of `cached_ev`, fragments.py:419-424 -/
def setCached (H : Heap F Q) (i : ℕ) (v : Option ℚ) : Out (Heap F Q) Err Unit :=
  if cachedEv (H i).evs ≠ 1 then .err .cacheAlreadySet H
  else if v = some 1 then .ok () H
  else setEv H i (.one .cached) v

/-- setter of `observed_ev`, fragments.py:467-470 -/
def setObserved (H : Heap F Q) (i : ℕ) (v : Option ℚ) : Out (Heap F Q) Err Unit :=
  match observable H i .none with
  | .error e => .err e H
  | .ok false => .ok () H
  | .ok true => .ok () (putEv H i .observed v)

/-- `reset_cache`, fragments.py:426-431 -/
def resetCache (H : Heap F Q) (i : ℕ) : Heap F Q := putEv H i .cached (some 1)

/-- `clear_evs`, fragments.py:442-443 -/
def clearEvs (H : Heap F Q) (i : ℕ) : Heap F Q := H.put i { H i with evs := newEvs }

/-! ### parents and children -/

/-- `add_child`, fragments.py:235-243 -/
def addChild (H : Heap F Q) (p c : ℕ) : Out (Heap F Q) Err Unit :=
  if (H c).parent ≠ some p then .err .invalidParentChild H
  else .ok () (H.put p { H p with kids := PySet.add (H p).kids c })

/-- `remove_child`, fragments.py:245-253; `set.remove` raises KeyError for a missing element -/
def removeChild (H : Heap F Q) (p c : ℕ) : Out (Heap F Q) Err Unit :=
  if (H c).parent ≠ some p then .err .invalidParentChild H
  else if c ∉ (H p).kids then .err .keyError H
  else .ok () (H.put p { H p with kids := (H p).kids.erase c })

/-- `self.reference_entity = x`, entities.py:190-197 -/
def setRef (H : Heap F Q) (i : ℕ) (p : Option ℕ) : Heap F Q := H.put i { H i with parent := p }

/-- `set_parent`, fragments.py:207-214, origins being equal -/
def setParent (H : Heap F Q) (i p : ℕ) : Out (Heap F Q) Err Unit := addChild (setRef H i (some p)) p i

/-- `unset_parent`, fragments.py:216-218 -/
def unsetParent (H : Heap F Q) (i : ℕ) : Out (Heap F Q) Err Unit :=
  match (H i).parent with
  | none => .err .attributeError H
  | some p =>
    match removeChild H p i with
    | .err e H => .err e H
    | .ok _ H => .ok () (setRef H i none)

/-- `set_conserved_quantity`, fragments.py:707-714 -/
def setConserved (E : Env F Q) (H : Heap F Q) (p c : ℕ) : Out (Heap F Q) Err Unit :=
  if (H c).parent ≠ some p then .err .invalidParentChild H
  else if (H p).cons.isSome then .err .balanceAlreadySet H
  else .ok () (H.put p { H p with cons := some (E.refQ (H c).flow) })

/-- `set_balance_flow`, fragments.py:693-700 -/
def setBalance (E : Env F Q) (H : Heap F Q) (i : ℕ) : Out (Heap F Q) Err Unit :=
  if (H i).bal then .ok () H
  else
    match (H i).parent with
    | none => .err .attributeError H
    | some p => (setConserved E H p i).bind fun _ H => .ok () (H.put i { H i with bal := true })

/-- `unset_balance_flow`, fragments.py:702-705, 720-721 -/
def unsetBalance (H : Heap F Q) (i : ℕ) : Out (Heap F Q) Err Unit :=
  if !(H i).bal then .ok () H
  else
    match (H i).parent with
    | none => .err .attributeError H
    | some p =>
      let H := H.put p { H p with cons := none }
      .ok () (H.put i { H i with bal := false })

/-! ### making fragments -/

/-- the part of the constructor after `set_parent` -/
def initRest (E : Env F Q) (H : Heap F Q) (k : ℕ) (bal bg : Bool) (value : Option ℚ) : Out (Heap F Q) Err Unit :=
  (if bal then setBalance E H k else .ok () H).bind fun _ H =>
    let H := H.put k { H k with bg := bg, evs := newEvs, terms := [(none, { target := .null, flow := (H k).flow })] }
    setCached H k value

/-- `__init__`, fragments.py:133-188, of fragment k, without a termination -/
def construct (E : Env F Q) (H : Heap F Q) (k : ℕ) (flow : F) (dir : Dir) (parent : Option ℕ) (value : Option ℚ)
    (bal bg : Bool) : Out (Heap F Q) Err Unit :=
  let H := H.put k { flow := flow, dir := dir, evs := [], terms := [] }
  match parent with
  | none => initRest E H k bal bg value
  | some p => (setParent H k p).bind fun _ H => initRest E H k bal bg value

/-- `to_foreground`, fragments.py:837-846, with the part of `terminate` (792-832) that applies -/
def toForeground (H : Heap F Q) (i : ℕ) : Out (Heap F Q) Err Unit :=
  let H := H.put i { H i with bg := false }
  match (H i).terms.get? none with
  | some t =>
    if t.isNull then .ok () (H.put i { H i with terms := (H i).terms.set none { target := .frag i, flow := (H i).flow } })
    else .err .cacheAlreadySet H
  | none => .ok () (H.put i { H i with terms := (H i).terms.set none { target := .frag i, flow := (H i).flow } })

/-- `create_fragment`, fragment_editor.py:11-80, not interactive, no units; `dir` is with respect to the fragment if there is
no parent -/
def createFragment (E : Env F Q) (H : Heap F Q) (k : ℕ) (flow : F) (dir : Dir) (parent : Option ℕ) (value : Option ℚ)
    (bal bg : Bool) : Out (Heap F Q) Err Unit :=
  match parent with
  | none => construct E H k flow dir.comp none value false bg
  | some p =>
    match (H p).terms.get? none with
    | none => .err .keyError H
    | some t =>
      (if t.isNull then toForeground H p else .ok () H).bind fun _ H =>
        match (H p).terms.get? none with
        | none => .err .keyError H
        | some t => construct E H k flow dir (some p) (if bal || isSubfrag H p t then some 1 else value) bal bg

/-! ### interposing and splitting -/

/-- one scenario of the loop of `transfer_evs`, fragment_editor.py:123-125 -/
def transferOne (frag new : ℕ) (H : Heap F Q) (k : Key) : Out (Heap F Q) Err Unit :=
  if k = .cached ∨ k = .observed then .ok () H
  else
    match observable H new (.one k) with
    | .error e => .err e H
    | .ok false => .ok () H
    | .ok true =>
      match exchangeValue (H frag) (.one k) false with
      | .error e => .err e H
      | .ok v => setEv H new (.one k) (some v)

/-- the loop of `transfer_evs`, fragment_editor.py:123-125 -/
def transferLoop (frag new : ℕ) : List Key → Heap F Q → Out (Heap F Q) Err Unit
  | [], H => .ok () H
  | k :: ks, H => (transferOne frag new H k).bind fun _ H => transferLoop frag new ks H

/-- `transfer_evs`, fragment_editor.py:119-125 -/
def transferEvs (H : Heap F Q) (frag new : ℕ) : Out (Heap F Q) Err Unit :=
  let ob := observedEv (H frag).parent.isNone (H frag).evs
  (if ob = some 0 then .ok () H else setObserved H new ob).bind fun _ H =>
    transferLoop frag new (H frag).evs.keys H

/-- `_fork_fragment`, fragment_editor.py:167-187: k is the new fragment -/
def fork (E : Env F Q) (H : Heap F Q) (f k : ℕ) : Out (Heap F Q) Err Unit :=
  (createFragment E H k (H f).flow (H f).dir (H f).parent (some (cachedEv (H f).evs)) (H f).bal false).bind fun _ H =>
    (transferEvs H f k).bind fun _ H => .ok () (clearEvs H f)

/-- `interpose`, fragment_editor.py:189-200 -/
def interpose (E : Env F Q) (H : Heap F Q) (f k : ℕ) : Out (Heap F Q) Err Unit :=
  (fork E H f k).bind fun _ H => (toForeground H k).bind fun _ H => setParent H f k

/-- `terminate`, fragments.py:792-832, to a fragment, in the default scenario and without further arguments -/
def terminate (E : Env F Q) (fuel : ℕ) (H : Heap F Q) (i j : ℕ) : Out (Heap F Q) Err Unit :=
  let set (t : Target) : Out (Heap F Q) Err Unit :=
    .ok () (H.put i { H i with terms := (H i).terms.set none { target := t, flow := (H i).flow } })
  if (match (H i).terms.get? none with
      | some t => !t.isNull
      | none => false) then .err .cacheAlreadySet H
  else if j = i then set (.frag j)
  else
    match top H fuel i with
    | .error e => .err e H
    | .ok t =>
      if j = t then set .null
      else
        match traverse E H .none false fuel j with
        | .error e => .err e H
        | .ok ffs => if ffs.any fun ff => decide (ff.who = .frag t) then .err .invalidParentChild H else set (.frag j)

/-- `split_subfragment`, fragment_editor.py:202-217 -/
def splitSubfragment (E : Env F Q) (fuel : ℕ) (H : Heap F Q) (f k : ℕ) : Out (Heap F Q) Err Unit :=
  (fork E H f k).bind fun _ H => (unsetParent H f).bind fun _ H => terminate E fuel H k f

/-! ### saving and loading exchange values -/

/-- the delimiter `'____'` -/
def delim : List Char := ['_', '_', '_', '_']

/-- `str.split('____')`; `acc` is the part read so far, reversed -/
def splitU : List Char → List Char → List (List Char)
  | '_' :: '_' :: '_' :: '_' :: r, acc => acc.reverse :: splitU r []
  | c :: r, acc => splitU r (c :: acc)
  | [], acc => [acc.reverse]

/-- `i.find('____') >= 0` -/
def hasDelim (s : List Char) : Bool := decide (delim <:+: s)

/-- the name of a key in JSON, `_serialize_evs`, fragments.py:281-292 -/
def keyName : Key → String
  | .cached => "0"
  | .observed => "1"
  | .str s => s
  | .tup l => String.ofList (delim.intercalate (l.map String.toList))

/-- the key for a name in JSON, fragments.py:98-101 -/
def nameKey (s : String) : Key := if hasDelim s.toList then .tup ((splitU s.toList []).map String.ofList) else .str s

/-- `_serialize_evs`, fragments.py:281-292 -/
def saveEvs (evs : Dict Key (Option ℚ)) : Dict String (Option ℚ) :=
  evs.foldl (fun d kv => d.set (keyName kv.1) kv.2) []

/-- the loop of `from_json`, fragments.py:98-102 -/
def loadRest (j : Dict String (Option ℚ)) (evs : Dict Key (Option ℚ)) : Dict Key (Option ℚ) :=
  j.foldl (fun d kv => d.set (nameKey kv.1) kv.2) evs

/-- `from_json`, fragments.py:80-105, for the fragment k: the constructor with the value of '0' (which is popped), then '1'
(popped), then the others -/
def fromJson (E : Env F Q) (H : Heap F Q) (k : ℕ) (flow : F) (dir : Dir) (parent : Option ℕ) (bal bg : Bool)
    (j : Dict String (Option ℚ)) : Out (Heap F Q) Err Unit :=
  match j.get? "0" with
  | none => .err .keyError H
  | some v0 =>
    (construct E H k flow dir parent v0 bal bg).bind fun _ H =>
      match (j.del "0").get? "1" with
      | none => .err .keyError H
      | some v1 =>
        .ok () (H.put k { H k with evs := loadRest ((j.del "0").del "1") ((H k).evs.set .observed v1) })

end Frg
