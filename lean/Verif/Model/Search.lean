import Verif.Model.Archive
import Verif.Model.LowerDict

/-!
Model of searching an archive (`search`, `_narrow_search`, `find_partial_id`) and of making an index of it (`index_archive`).

Simplifications:
* a regular expression is whatever it answers on a text: `rx p s` is `bool(re.search(p, s, flags=re.IGNORECASE))`; patterns that are not regular
  expressions are left out;
* the type of entity is given as the argument `etype` (the keyword `entity_type` is left out);
* a generator is the list of what it yields and the exception that ends it, if any;
* a value that is no text, list, dict or None raises TypeError when it is iterated over (a number does; entities as values are left out).
-/

namespace Srch
open Arc (Kind Heap Cfg State)

abbrev Txt := List Char

inductive Err | type
  deriving DecidableEq, Repr

/-- the value of a property of an entity; of a dict only the keys matter here -/
inductive Tag
  | none
  | str (s : Txt)
  | list (l : List Tag)
  | dict (keys : List Txt)
  | number

/-- `' '.join(l)` -/
def join : List Txt → Txt
  | [] => []
  | [s] => s
  | s :: l => s ++ ' ' :: join l

mutual
/-- `_recurse_expand_subtag`, basic_archive.py:297-303 -/
def Tag.text : Tag → Except Err Txt
  | .none => .ok []
  | .str s => .ok s
  | .list l => (Tag.texts l).map join
  | .dict ks => .ok (join ks)
  | .number => .error .type
/-- the comprehension of line 303 -/
def Tag.texts : List Tag → Except Err (List Txt)
  | [] => .ok []
  | t :: l =>
    match t.text with
    | .error e => .error e
    | .ok s => (Tag.texts l).map fun r => s :: r
end

/-- the value of a keyword argument of `search`: a text, a list of texts, or something that cannot be iterated over -/
inductive Crit (Pat : Type)
  | one (p : Pat)
  | many (ps : List Pat)
  | bad

variable {Pat Nm : Type} [DecidableEq Nm]

/-- the inner loop, basic_archive.py:310-311: once `keep` is False nothing is looked at -/
def narrowVals (rx : Pat → Txt → Bool) (t : Option Tag) : List Pat → Bool → Except Err Bool
  | [], keep => .ok keep
  | p :: ps, true =>
    match t with
    | none => .ok false            -- KeyError; not reached, the key is there
    | some t =>
      match t.text with
      | .error e => .error e
      | .ok s => narrowVals rx (some t) ps (rx p s)
  | _ :: ps, false => narrowVals rx t ps false

/-- `_narrow_search`, basic_archive.py:288-312. `k not in entity.keys()` compares spellings, `entity[k]` does not -/
def narrow (rx : Pat → Txt → Bool) (lower : Nm → Nm) (props : LDict.St Nm Tag) : List (Nm × Crit Pat) → Bool → Except Err Bool
  | [], keep => .ok keep
  | (k, c) :: r, keep =>
    if k ∈ LDict.keys props then
      match c with
      | .bad => .error .type
      | .one p =>
        match narrowVals rx (LDict.getItem lower props k) [p] keep with
        | .error e => .error e
        | .ok keep => narrow rx lower props r keep
      | .many ps =>
        match narrowVals rx (LDict.getItem lower props k) ps keep with
        | .error e => .error e
        | .ok keep => narrow rx lower props r keep
    else .ok false

/-- the loop over entities, basic_archive.py:326-332 -/
def searchIn {E : Type} (rx : Pat → Txt → Bool) (lower : Nm → Nm) (props : E → LDict.St Nm Tag) (kw : List (Nm × Crit Pat)) :
    List E → List E × Option Err
  | [] => ([], none)
  | e :: es =>
    match narrow rx lower (props e) kw true with
    | .error x => ([], some x)
    | .ok true => let r := searchIn rx lower props kw es; (e :: r.1, r.2)
    | .ok false => searchIn rx lower props kw es

variable {U E K R : Type} [DecidableEq U] [DecidableEq E] [DecidableEq K] [DecidableEq R]

/-- `search`, basic_archive.py:314-334, of the archive `st`; `upstream` are the archives upstream. In the last line the search of the upstream archive is
a generator that nobody runs -/
def search [LinearOrder U] (rx : Pat → Txt → Bool) (lower : Nm → Nm) (props : E → LDict.St Nm Tag) (st : State U E R) (upstream : Option (State U E R))
    (etype : Option Kind) (kw : List (Nm × Crit Pat)) : List E × Option Err :=
  let here := match etype with
    | some k => searchIn rx lower props kw ((Arc.entitiesByType st k).filterMap id)
    | none => searchIn rx lower props kw (st.ents.map Prod.snd)
  match upstream with
  | none => here
  | some _ => here

/-- `find_partial_id`, entity_store.py:486-502, of an archive and, if asked, its upstream archives; `test` is `startswith` or a regular expression -/
def findPartial (test : U → Bool) (upstream : Bool) : List (Dict U E) → List E
  | [] => []
  | a :: as => ((a.filter fun p => test p.1).map Prod.snd) ++ if upstream then findPartial test upstream as else []

/-- `index_archive`, archive_index.py:28-63: the entities of the new index. The origins are those of the entities, which both archives share -/
def indexEntities [LinearOrder U] (c : Cfg U K R) (H : Heap U E K) (st : State U E R) : Out (State U E R) Arc.Err Unit :=
  Arc.forEach (Arc.add c H) (c.kinds.flatMap fun k => (Arc.entitiesByType st k).filterMap id) { origin := st.origin }

end Srch
