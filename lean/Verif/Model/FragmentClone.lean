import Verif.Model.FragmentEdit

/-!
Model of observing and cloning fragments: `lcatools/entities/fragments.py` (`observe`, `terminate` in any scenario),
`lcatools/entities/fragment_editor.py` (`clone_fragment`).

Simplifications, besides those of `Verif/Model/FragmentEdit.lean`: `observe` with `accept_all`; the uuid drawn for the clone of
fragment i is `φ i`. What a clone takes of names, comments and origins is a model of its own (`Meta`).
-/

namespace Frg

variable {F Q : Type} [DecidableEq F] [DecidableEq Q]

/-! ### observing -/

/-- `_auto_observe`, fragments.py:504-508 -/
def autoObserve (H : Heap F Q) (i : ℕ) (sc : Scen) : Out (Heap F Q) Err Unit :=
  match sc with
  | .none => setObserved H i (some (cachedEv (H i).evs))
  | sc => setEv H i sc (some (cachedEv (H i).evs))

/-- a loop in which every step may raise -/
def each (f : ℕ → Heap F Q → Out (Heap F Q) Err Unit) : List ℕ → Heap F Q → Out (Heap F Q) Err Unit
  | [], H => .ok () H
  | c :: cs, H => (f c H).bind fun _ H => each f cs H

/-- `observe` with `accept_all`, without the traversal, fragments.py:522-530 -/
def observeTree (sc : Scen) : ℕ → ℕ → Heap F Q → Out (Heap F Q) Err Unit
  | 0, _, H => .err .recursion H
  | fuel + 1, i, H =>
    match observable H i sc with
    | .error e => .err e H
    | .ok b => (if b then autoObserve H i sc else .ok () H).bind fun _ H => each (observeTree sc fuel) (children (H i)) H

/-- `observe` with `accept_all`, fragments.py:510-533 -/
def observe (E : Env F Q) (sc : Scen) (fuel i : ℕ) (H : Heap F Q) : Out (Heap F Q) Err Unit :=
  (observeTree sc fuel i H).bind fun _ H =>
    match traverse E H sc true fuel i with
    | .error e => .err e H
    | .ok _ => .ok () H

/-! ### cloning -/

/-- `terminate`, fragments.py:792-832, in any single scenario -/
def terminateTo (E : Env F Q) (fuel : ℕ) (H : Heap F Q) (i : ℕ) (k : Option Key) (t : Term F) : Out (Heap F Q) Err Unit :=
  let set (t : Term F) : Out (Heap F Q) Err Unit := .ok () (H.put i { H i with terms := (H i).terms.set k t })
  match k with
  | some (.tup _) => .err .scenarioConflict H
  | _ =>
    if (match (H i).terms.get? k with
        | some t => !t.isNull
        | none => false) then .err .cacheAlreadySet H
    else
      match t.target with
      | .frag j =>
        if j = i then set t
        else
          match top H fuel i with
          | .error e => .err e H
          | .ok x =>
            if j = x then set { target := .null, flow := (H i).flow }
            else
              match traverse E H (match k with | none => .none | some k => .one k) false fuel j with
              | .error e => .err e H
              | .ok ffs => if ffs.any fun ff => decide (ff.who = .frag x) then .err .invalidParentChild H else set t
      | _ => set t

/-- one termination in the loop of `clone_fragment`, fragment_editor.py:155-163; `to_foreground` also unsets the background flag,
fragments.py:845-846 -/
def cloneTerm (E : Env F Q) (fuel : ℕ) (f k : ℕ) (H : Heap F Q) (key : Option Key) (t : Term F) : Out (Heap F Q) Err Unit :=
  match t.target with
  | .null => .ok () H
  | .frag j =>
    if j = f then terminateTo E fuel (H.put k { H k with bg := false }) k key { target := .frag k, flow := (H k).flow }
    else terminateTo E fuel H k key t
  | .process => terminateTo E fuel H k key t

/-- the loop over the terminations, fragment_editor.py:155-163 -/
def cloneTerms (E : Env F Q) (fuel : ℕ) (f k : ℕ) : List (Option Key × Term F) → Heap F Q → Out (Heap F Q) Err Unit
  | [], H => .ok () H
  | (key, t) :: l, H => (cloneTerm E fuel f k H key t).bind fun _ H => cloneTerms E fuel f k l H

/-- `clone_fragment`, fragment_editor.py:127-165 -/
def clone (E : Env F Q) (φ : ℕ → ℕ) : ℕ → Option ℕ → ℕ → Heap F Q → Out (Heap F Q) Err Unit
  | 0, _, _, H => .err .recursion H
  | fuel + 1, parent, f, H =>
    (createFragment E H (φ f) (H f).flow (if parent = none then (H f).dir.comp else (H f).dir) parent (some (cachedEv (H f).evs))
        (H f).bal (H f).bg).bind fun _ H =>
      (transferEvs H f (φ f)).bind fun _ H =>
        (cloneTerms E fuel f (φ f) (H f).terms H).bind fun _ H =>
          each (clone E φ fuel (some (φ f))) (children (H f)) H

/-! ### names, comments and origins of a clone -/

/-- a fragment with its child flows: name, comment, origin -/
inductive Meta
  | node (name comment : String) (origin : Option String) (kids : List Meta)

def Meta.name : Meta → String
  | .node n _ _ _ => n
def Meta.comment : Meta → String
  | .node _ c _ _ => c
def Meta.origin : Meta → Option String
  | .node _ _ o _ => o
def Meta.kids : Meta → List Meta
  | .node _ _ _ k => k

/-- the origin of a new child, `set_parent`, fragments.py:207-212; the parent, if any, has the origin `po` -/
def joinOrigin (parent : Option (Option String)) (o : Option String) : Except Err (Option String) :=
  match parent with
  | none => .ok o
  | some po => if o = po then .ok o else if o = none then .ok po else .error .attributeError

mutual
/-- `clone_fragment`, fragment_editor.py:127-165, names, comments and origins; `parent` is the origin of the parent, if there is one -/
def Meta.clone (suffix : String) (comment : Option String) (origin : Option String) (parent : Option (Option String)) : Meta → Except Err Meta
  | .node n c o ks =>
    match joinOrigin parent (origin.or o) with
    | .error e => .error e
    | .ok o' =>
      match Meta.cloneKids (some o') ks with
      | .error e => .error e
      | .ok ks' =>
        .ok (.node (n ++ suffix) (match comment with | some "" => c | some x => x | none => c) o' ks')
/-- the loop over the child flows, fragment_editor.py:164-165 -/
def Meta.cloneKids (parent : Option (Option String)) : List Meta → Except Err (List Meta)
  | [] => .ok []
  | k :: ks =>
    match Meta.clone "" none none parent k with
    | .error e => .error e
    | .ok k' =>
      match Meta.cloneKids parent ks with
      | .error e => .error e
      | .ok ks' => .ok (k' :: ks')
end

end Frg
