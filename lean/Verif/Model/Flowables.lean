import Verif.Model.SynList

/-!
Model of `synlist/flowables.py`: CAS numbers (on character lists) and the class Flowables.

Simplifications: as in Model/SynList; moreover `_get_index` (flowables.py:74-80) retries with the lower-cased
term, which `_sanitize` (ignore_case is always True here) maps to the same key, so the retry is left out.
-/

namespace Flw
open Syn

abbrev Str := List Char

/-- `-[0-9]{2}-[0-9]$`: `$` also matches before a final newline. flowables.py:13-14 -/
def casTail : Str → Bool
  | ['-', x, y, '-', z] => x.isDigit && y.isDigit && z.isDigit
  | ['-', x, y, '-', z, '\n'] => x.isDigit && y.isDigit && z.isDigit
  | _ => false

/-- `^[0-9]{,n}-[0-9]{2}-[0-9]$`; a digit cannot start the tail, so matching is deterministic. -/
def matchUpTo : ℕ → Str → Bool
  | _, [] => false
  | 0, c :: cs => casTail (c :: cs)
  | n + 1, c :: cs => if c.isDigit then matchUpTo n cs else casTail (c :: cs)

/-- `^[0-9]{n}-[0-9]{2}-[0-9]$` -/
def matchExact : ℕ → Str → Bool
  | 0, cs => casTail cs
  | _ + 1, [] => false
  | n + 1, c :: cs => c.isDigit && matchExact n cs

/-- `cas_regex.match`, flowables.py:13 -/
def isCas (s : Str) : Bool := matchUpTo 6 s

/-- `cas_strict.match`, flowables.py:14 -/
def isStrict (s : Str) : Bool := matchExact 6 s

/-- the loop of `pad_cas`, flowables.py:32-33. Out of fuel: `none`. -/
def padLoop : ℕ → Str → Option Str
  | 0, s => if isStrict s then some s else none
  | n + 1, s => if isStrict s then some s else padLoop n ('0' :: s)

/-- `pad_cas`, flowables.py:29-34: `none` is NotACas. The loop gets fuel 6; `pad_total` shows it is enough. -/
def pad (s : Str) : Option Str := if isCas s then padLoop 6 s else none

/-- `trim_cas`, flowables.py:37-38 -/
def trim (s : Str) : Str := s.dropWhile (· == '0')

/-- `find_cas`, flowables.py:17-27 -/
def findCas (syns : List Str) : Except Err (Option Str) :=
  match PySet.ofList ((syns.filter isCas).map trim) with
  | [] => .ok none
  | [c] => .ok (some c)
  | _ => .error .conflictingCas

/-- a CAS number recorded for an item conflicts with another, flowables.py:100, 173 -/
def conflicts (c0 : Option Str) (k : Str) : Bool :=
  match c0 with
  | none => false
  | some c => decide (trim c ≠ trim k)

/-- the end of `_new_term`, flowables.py:106-112 -/
def finish (term key : Str) (index : ℕ) (s : State Str) : Out (State Str) Err Unit :=
  match s.items[index]? with
  | none => .err .indexError s
  | some none => .err .attributeError s
  | some (some l) =>
    let s1 := { s with items := s.items.set index (some (PySet.add l term)), dict := s.dict.set key index }
    match s1.names[index]? with
    | some none => .ok () { s1 with names := s1.names.set index (some term) }
    | some (some n) =>
      if isCas n && !isCas term then .ok () { s1 with names := s1.names.set index (some term) } else .ok () s1
    | none => .err .indexError s1

/-- `Flowables._new_term`, flowables.py:91-112 -/
def newTermF (L : Lex Str) (term : Str) (index : ℕ) (s : State Str) : Out (State Str) Err Unit :=
  if term = L.blank then .ok () s
  else
    let key := L.san term
    match s.dict.get? key with
    | some j => if j = index then .ok () s else .err .termFound s
    | none =>
      if isCas key then
        match s.cas[index]? with
        | none => .err .indexError s
        | some c0 =>
          if conflicts c0 key then .err .conflictingCas s
          else
            match pad key with
            | none => .err .notACas s
            | some k =>
              (newTerm L (trim k) index { s with cas := s.cas.set index (some k) }).bind fun _ s2 =>
                finish term k index s2
      else finish term key index s

/-- `Flowables._merge_set_with_index`, flowables.py:170-176 -/
def mergeSetF (L : Lex Str) (it : List Str) (index : ℕ) (s : State Str) : Out (State Str) Err Unit :=
  match findCas it with
  | .error e => .err e s
  | .ok none => mergeSet (newTermF L) it index s
  | .ok (some c) =>
    match s.cas[index]? with
    | none => .err .indexError s
    | some c0 => if conflicts c0 c then .err .conflictingCas s else mergeSet (newTermF L) it index s

/-- `Flowables.merge`, flowables.py:118-141, with multi_cas=False -/
def mergeF (L : Lex Str) (o : PyOrd Str) (oN : PyOrd ℕ) (dominant : Str) (terms : List Str) (s : State Str) :
    Out (State Str) Err Unit :=
  match getIndex L s dominant, terms.mapM (getIndex L s) with
  | some dom, some ixs =>
    match (dom :: ixs).filterMap fun i => (s.cas[i]?).join with
    | [] => merge L o oN dominant terms s
    | [c] => (merge L o oN dominant terms s).bind fun _ s' => .ok () { s' with cas := s'.cas.set dom (some c) }
    | _ => .err .conflictingCas s
  | _, _ => .err .keyError s

/-- `Flowables._matches`, flowables.py:143-146 -/
def matchesF (L : Lex Str) (term : Str) (s : State Str) : Except Err (List Str) :=
  if isCas term then .error .cannotSplit else matchesOf L term s

/-- `cas`, flowables.py:55-56. `none`: KeyError. -/
def casOf (L : Lex Str) (s : State Str) (term : Str) : Option (Option Str) :=
  match getIndex L s term with
  | none => none
  | some i => s.cas[i]?

/-- One call on a Flowables: `add_term`, `add_set`, `add_synonym`, `set_name`, `split_term` are inherited
(synlist.py) and use the overridden methods above. -/
def stepF (L : Lex Str) (o : PyOrd Str) (oN : PyOrd ℕ) (op : Op Str) (s : State Str) : Option Err × State Str :=
  match op with
  | .addTerm t => let r := addTerm L (newTermF L) t s; (r.error?, r.state)
  | .addSet l m => let r := addSet L o (mergeSetF L) l m s; (r.error?, r.state)
  | .addSynonym i t => let r := newTermF L t i s; (r.error?, r.state)
  | .setName t => let r := setName L t s; (r.error?, r.state)
  | .merge d ts => let r := mergeF L o oN d ts s; (r.error?, r.state)
  | .splitTerm t => let r := splitTerm L o (matchesF L) (mergeSetF L) t s; (r.error?, r.state)

end Flw
