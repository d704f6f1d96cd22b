import Mathlib.Data.List.Sort
import Verif.Model.FlatBg

/-!
Model of the queries of `BackgroundManager`, `antelope_background/engine/background_manager.py`, that read one product flow:
`dependencies`, `emissions`, `inventory` and `foreground`. They answer from the engine (Model/Tstack).

Simplifications, besides those of Model/FlatBg:
* the product flow asked for is known to the engine, so that `_get_product_flow` (background_manager.py:30-36) changes nothing;
* an exchange is the record of its process, flow, direction, termination and value; printing is left out.
-/

namespace BgMgr
open Engine FlatBg
variable {F P : Type} [DecidableEq F] [DecidableEq P]

/-- `foreground_dependencies`, background_engine.py:415-418 -/
def fgDeps (e : Eng F P) (u : F × P) : List ((F × P) × (F × P) × ℚ) :=
  e.foreground.filter fun i => decide (pfIx e.st i.1 = pfIx e.st u)

/-- `foreground_emissions`, background_engine.py:420-423 -/
def fgEms (e : Eng F P) (u : F × P) : List ((F × P) × (F × Dir) × ℚ) :=
  e.cutoff.filter fun i => decide (pfIx e.st i.1 = pfIx e.st u)

/-- the column of a background matrix that `make_foreground` returns for a background product flow, background_engine.py:474-479 -/
def column (e : Eng F P) (rows : ℕ) (m : Option (List (Option ℕ × Option ℕ × ℚ))) (u : F × P) : Except FlatBg.Err (List (ℕ × ℚ)) :=
  match m with
  | none => .error .type
  | some ts =>
    match csr rows (ndim e.g) ts, bgDict e.g (pfIx e.st u) with
    | some a, some i => .ok (a.col i)
    | _, _ => .error .key

/-- the column of the matrix of dependencies -/
def colA (e : Eng F P) (u : F × P) : Except FlatBg.Err (List (ℕ × ℚ)) := column e (ndim e.g) e.aMatrix u

/-- the column of the matrix of emissions -/
def colB (e : Eng F P) (u : F × P) : Except FlatBg.Err (List (ℕ × ℚ)) :=
  column e e.st.emissions.length (e.bMatrix.map fun m => m.map fun t => (some t.1, t.2.1, t.2.2)) u

/-- a loop over `rows[i]`, `data[i]` that looks up what the row stands for: background_manager.py:129-134, 138-142 -/
def colLoop {T : Type} (mk : T → ℚ → ExchDef F P) (en : List T) : List (ℕ × ℚ) → Gen (ExchDef F P)
  | [] => ([], none)
  | (r, dat) :: rest =>
    match en[r]? with
    | none => ([], some .index)
    | some t =>
      let g := colLoop mk en rest
      (mk t dat :: g.1, g.2)

/-- `comp_dir(term.direction)`: the direction is that of the reference exchange -/
def compRef (db : DB F P) (w : F × P) : Dir := ((db.refDir w).getD .output).comp

/-- the position of the term of an entry, by which dependencies are sorted, background_manager.py:159 -/
def pos (e : Eng F P) (i : (F × P) × (F × P) × ℚ) : ℕ := (bgDict e.g (pfIx e.st i.2.1)).getD 0

/-- `dependencies`, background_manager.py:127-134, 144-163 -/
def dependencies (db : DB F P) (e : Eng F P) (u : F × P) : Gen (ExchDef F P) :=
  if isBackground e.g (pfIx e.st u) then
    match colA e u with
    | .error x => ([], some x)
    | .ok v => colLoop (fun w d => ⟨u.2, w.1, compRef db w, some w.2, d⟩) e.g.bgProcs (pairs v)
  else
    (((fgDeps e u).filter fun i => isBackground e.g (pfIx e.st i.2.1)).insertionSort (fun i j => pos e i ≤ pos e j) |>.map
      fun i => ⟨i.1.2, i.2.1.1, if i.2.2 < 0 then .output else .input, some i.2.1.2, |i.2.2|⟩, none)

/-- `emissions`, background_manager.py:136-142, 165-179 -/
def emissions (e : Eng F P) (u : F × P) : Gen (ExchDef F P) :=
  if isBackground e.g (pfIx e.st u) then
    match colB e u with
    | .error x => ([], some x)
    | .ok v => colLoop (fun a d => ⟨u.2, a.1, a.2, none, d⟩) e.st.emissions (pairs v)
  else ((fgEms e u).map fun i => ⟨i.1.2, i.2.1.1, i.2.1.2, none, i.2.2⟩, none)

/-- the reference exchange of an inventory, background_manager.py:193-195 -/
def refEx (db : DB F P) (u : F × P) : ExchDef F P := ⟨u.2, u.1, (db.refDir u).getD .output, none, 1⟩

/-- `inventory`, background_manager.py:181-232. Entries of `emissions` are `Emission`s, which have no attribute `emission`
(background_manager.py:208-212, emission.py:3-76). -/
def inventory (db : DB F P) (e : Eng F P) (u : F × P) : Except FlatBg.Err (List (ExchDef F P)) :=
  if isBackground e.g (pfIx e.st u) then
    match colA e u, colB e u with
    | .ok a, .ok b =>
      let g := colLoop (fun w d => ⟨u.2, w.1, if d < 0 then .output else .input, none, |d|⟩) e.g.bgProcs (pairs a)
      match g.2, nonzero b with
      | some x, _ => .error x
      | none, [] => .ok (refEx db u :: g.1)
      | none, _ :: _ => .error .attribute
    | .error x, _ => .error x
    | _, .error x => .error x
  else
    .ok (refEx db u :: (fgDeps e u).map (fun i => ⟨u.2, i.2.1.1, if i.2.2 < 0 then .output else .input, none, i.2.2⟩) ++
      (fgEms e u).map fun i => ⟨u.2, i.2.1.1, i.2.1.2, none, i.2.2⟩)

/-- the loop of `foreground` over the nonzero entries of `_af`, background_manager.py:94-98: the positions come from the nonzero entries,
the values from all stored entries, both row by row -/
def linkLoop (db : DB F P) (fg : List (F × P)) : List ((ℕ × ℕ) × ℚ) → Gen (ExchDef F P)
  | [] => ([], none)
  | ((r, c), dat) :: rest =>
    match fg[c]?, fg[r]? with
    | some node, some term =>
      let g := linkLoop db fg rest
      (⟨node.2, term.1, compRef db term, some term.2, dat⟩ :: g.1, g.2)
    | _, _ => ([], some .index)

/-- `foreground`, background_manager.py:80-103; the matrices are those of `make_foreground`, background_engine.py:474-512 -/
def foreground (db : DB F P) (o : SetOrd F P) (fuel : ℕ) (e : Eng F P) (u : F × P) : Gen (ExchDef F P) :=
  if isBackground e.g (pfIx e.st u) then
    match colA e u, colB e u with
    | .ok _, .ok _ => ([refEx db u], none)
    | .error x, _ => ([], some x)
    | _, .error x => ([], some x)
  else
    match Engine.foreground o fuel e.st e.g u, makeForeground o fuel e u with
    | some fg, some m =>
      match csr m.pdim m.pdim m.af, csr (ndim e.g) m.pdim m.ad,
          csr e.st.emissions.length m.pdim (m.bf.map fun t => (some t.1, t.2.1, t.2.2)) with
      | some af, some _, some _ =>
        let g := linkLoop db fg (((af.filter fun t => decide (t.2.2 ≠ 0)).map fun t => (t.1, t.2.1)).zip (af.map fun t => t.2.2))
        (refEx db u :: g.1, g.2)
      | _, _, _ => ([], some .index)
    | _, _ => ([], some .key)

end BgMgr
