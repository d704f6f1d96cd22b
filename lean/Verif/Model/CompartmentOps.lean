import Verif.Model.Compartment

/-!
Model of the operations that rearrange compartment hierarchies, and of the local file and the interactive merge of the
`CompartmentManager`, `lcatools/flowdb/compartments.py`. Compartments, names and fuel as in `Model/Compartment.lean`.

Simplifications:
* an argument that may be a compartment or a name is a sum;
* `remove` on the set of subcompartments removes the object itself (`__eq__` and `__hash__` agree on it);
* the answers of the user to `_pick_list` are a function of the state, the compartment and the missing name;
* the content of the local file is the serialization (`Model/Compartment.lean`), not its JSON text; the name of a compartment
  that is looked for interactively has no None in it.
-/

namespace Cmp

variable {S : Type} [DecidableEq S]

/-- the exceptions -/
inductive Err
  | key
  | value
  | missing
  deriving DecidableEq

/-- `_ensure_comp`, compartments.py:389-392 -/
def ensureComp (ord : PyOrd ℕ) (H : Heap S) (c : ℕ) : S ⊕ ℕ → Option ℕ
  | .inl s => getSub ord H c s
  | .inr k => some k

/-- `self._subcompartments.remove(s1)` -/
def dropSub (H : Heap S) (c s1 : ℕ) : Heap S := put H c { H c with subs := (H c).subs.filter fun x => decide (x ≠ s1) }

/-- `delete`, compartments.py:485-489 -/
def delete (ord : PyOrd ℕ) (H : Heap S) (c : ℕ) (item : S ⊕ ℕ) : Except Err (Heap S) :=
  match ensureComp ord H c item with
  | none => .error .key
  | some s1 =>
    if (H s1).subs.length > 0 then .error .value
    else if s1 ∈ (H c).subs then .ok (dropSub H c s1)
    else .error .key

/-- `merge_subs`, compartments.py:513-536 -/
def mergeSubs (ord : PyOrd ℕ) (f : ℕ) (H : Heap S) (c : ℕ) (n1 n2 : S ⊕ ℕ) : Option (Except Err (Heap S)) :=
  match ensureComp ord H c n1 with
  | none => some (.error .key)
  | some s1 =>
    match ensureComp ord H c n2 with
    | none => some (.error .key)
    | some s2 =>
      if s1 = s2 then some (.ok H)
      else if (H s1).elem ≠ (H s2).elem then some (.error .value)
      else
        ((ord.f (H s1).subs).foldlM (fun H i => mergeSub ord f H s2 i) (put H s2 ((H s2).addSyns (H s1).names))).map
          fun H => .ok (if s1 ∈ (H c).subs then dropSub H c s1 else H)

/-- `_collapse`, compartments.py:550-558 -/
def collapseRec (ord : PyOrd ℕ) : ℕ → Heap S → ℕ → ℕ → Option (Heap S)
  | 0, _, _, _ => none
  | f + 1, H, self, sub =>
    ((ord.f (H sub).subs).foldlM (fun H x => collapseRec ord f H sub x) H).map fun H =>
      put H self ((H self).addSyns (H sub).names)

/-- `collapse`, compartments.py:560-570: the heap afterwards, and whether `remove` raises KeyError -/
def collapse (ord : PyOrd ℕ) (f : ℕ) (H : Heap S) (c : ℕ) (sub : S ⊕ ℕ) : Option (Heap S × Except Err Unit) :=
  match ensureComp ord H c sub with
  | none => some (H, .error .key)
  | some s1 =>
    (collapseRec ord f H c s1).map fun H =>
      if s1 ∈ (H c).subs then (dropSub H c s1, .ok ()) else (H, .error .key)

/-- `known_names`, compartments.py:421-432, without printing; `_names`, compartments.py:587-590 -/
def knownNames (N : Names S) (ord : PyOrd ℕ) (H : Heap S) : ℕ → ℕ → Option (List S)
  | 0, _ => none
  | f + 1, c =>
    ((sortBy (fun a b => N.le (H a).name (H b).name) (ord.f (H c).subs)).mapM fun x => knownNames N ord H f x).map fun l =>
      ((H c).name :: sortBy N.le (H c).syns) ++ l.flatten

/-! ### the local file -/

/-- one step of `_load_compartments`: `if local.has_subcompartment(n): local.uproot(n, self.compartments)`,
compartments.py:94-97 -/
def loadBranch (ord : PyOrd ℕ) (f : ℕ) (H : Heap S) (lcl root : ℕ) (n : S) : Option (Heap S) :=
  match getSub ord H lcl n with
  | none => some H
  | some s1 => uproot ord f H lcl s1 root

/-- `_load_compartments`, compartments.py:75-97: the root of the local hierarchy and the state afterwards; `inter` and `elem`
are 'Intermediate Flows' and 'Elementary Flows' -/
def loadLocal (N : Names S) (ord : PyOrd ℕ) (f : ℕ) (inter elem : S) (s : St S) (root : ℕ) (j : J S) : Option (ℕ × St S) :=
  match fromJson N ord f s j with
  | none => none
  | some (lcl, t) =>
    match loadBranch ord f (put t.H root ((t.H root).addSyns (t.H lcl).names)) lcl root inter with
    | none => none
    | some H => (loadBranch ord f H lcl root elem).map fun H => (lcl, { t with H := H })

/-! ### the interactive merge -/

/-- an answer of the user to `_pick_list`: merge, create, give up, or descend into a subcompartment -/
inductive Pick (S : Type)
  | merge
  | create
  | giveUp
  | sub (name : S)

/-- the loop of `_merge_compartment`, compartments.py:223-245 -/
def mergeComp (N : Names S) (ord : PyOrd ℕ) (f : ℕ) (pick : St S → ℕ → S → Pick S) :
    ℕ → St S → ℕ → List S → Option (Except Err ℕ × St S)
  | 0, _, _, _ => none
  | _ + 1, s, c, [] => some (.ok c, s)
  | g + 1, s, c, n :: p =>
    match crawl N ord false s.H f c [some n] with
    | none => none
    | some (some d, _) => mergeComp N ord f pick g s d p
    | some (none, _) =>
      if (s.H c).elem = false then (addSubs N ord f s c (n :: p)).map fun r => (.ok r.1, r.2)
      else
        match pick s c n with
        | .merge => mergeComp N ord f pick g { s with H := put s.H c ((s.H c).addSyn n) } c p
        | .create => (addSubs N ord f s c (n :: p)).map fun r => (.ok r.1, r.2)
        | .giveUp => some (.error .value, s)
        | .sub m =>
          match getSub ord s.H c m with
          | none => some (.error .key, s)
          | some d => mergeComp N ord f pick g s d (n :: p)

/-- a manager with its local file: whether it is writeable, and what `save` wrote last -/
structure LMgr (S Key : Type) where
  m : Mgr S Key
  writeable : Bool
  saved : Option (J S) := none

/-- `find_matching` with interaction and without `check_elem`, compartments.py:147-184; `_merge_compartment` refuses without a
writeable local file, compartments.py:221-222; `save`, compartments.py:99-110 -/
def findInteract {Key : Type} [DecidableEq Key] (N : Names S) (key : List S → Key) (ord : PyOrd ℕ) (f : ℕ)
    (pick : St S → ℕ → S → Pick S) (l : LMgr S Key) (name : List S) : Option (Except Err ℕ × LMgr S Key) :=
  match l.m.cache.get? (key name) with
  | some c => some (.ok c, l)
  | none =>
    match crawl N ord false l.m.st.H f l.m.root (name.map some) with
    | none => none
    | some (some c, _) => some (.ok c, { l with m := { l.m with cache := l.m.cache.set (key name) c } })
    | some (none, _) =>
      if l.writeable then
        match mergeComp N ord f pick f l.m.st l.m.root name with
        | none => none
        | some (.error e, t) => some (.error e, { l with m := { l.m with st := t } })
        | some (.ok c, t) =>
          match crawl N ord false t.H f l.m.root (name.map some) with
          | none => none
          | some (r, _) =>
            if r = some c then
              (serialize N ord t.H f l.m.root).map fun j =>
                (.ok c, { l with m := { l.m with st := t, cache := l.m.cache.set (key name) c }, saved := some j })
            else some (.error .missing, { l with m := { l.m with st := t } })
      else some (.error .missing, l)

end Cmp
