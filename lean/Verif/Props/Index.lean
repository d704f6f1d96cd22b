import Mathlib.Data.List.Count
import Verif.Model.Index

/-!
C43: the terminations that the index yields are exactly the complementary references at the time of indexing.
-/

set_option linter.unusedSectionVars false

namespace Ix

variable {P F : Type} [DecidableEq P] [DecidableEq F]

/-! ### specification -/

/-- the process `pid` has a reference exchange of this flow and direction; with `cut`, it has an exchange of this flow and
direction that has no termination -/
def Has (procs : List (Proc P F)) (cut : Bool) (pid : P) (flow : F) (d : Dir) : Prop :=
  ∃ p ∈ procs, p.pid = pid ∧ if cut then ∃ x ∈ p.exchs, x.flow = flow ∧ x.dir = d ∧ x.cutoff = true else (flow, d) ∈ p.refs

/-- the processes at the time of the last indexing, and whether cut-offs were indexed: an implementation that is made indexes only
an archive that has no index yet -/
def lastIndexed : List (Proc P F) → Option (List (Proc P F) × Bool) → List (Op P F) → Option (List (Proc P F) × Bool)
  | _, snap, [] => snap
  | _, snap, .edit procs :: ops => lastIndexed procs snap ops
  | procs, none, .make c :: ops => lastIndexed procs (some (procs, c)) ops
  | procs, some s, .make _ :: ops => lastIndexed procs (some s) ops
  | procs, _, .reindex c :: ops => lastIndexed procs (some (procs, c)) ops
  | procs, snap, .ask _ _ _ :: ops => lastIndexed procs snap ops

/-- what a caller may give for a direction -/
def Means (a : DArg) (d : Dir) : Prop :=
  match d with
  | .input => a = .num 0 ∨ ∃ s, a = .str ('i' :: s) ∨ a = .str ('I' :: s)
  | .output => a = .num 1 ∨ ∃ s, a = .str ('o' :: s) ∨ a = .str ('O' :: s)

def flip : Dir → Dir
  | .input => .output
  | .output => .input

open Classical in
/-- 1 if it holds, else 0 -/
noncomputable def one (p : Prop) : ℕ := if p then 1 else 0

theorem one_congr (p q : Prop) (h : p ↔ q) : one p = one q := by rw [propext h]

theorem one_false (p : Prop) (h : ¬ p) : one p = 0 := by simp [one, h]

/-! ### directions -/

theorem toLower_i (c : Char) : c.toLower = 'i' ↔ c = 'i' ∨ c = 'I' := by
  constructor
  · intro h
    unfold Char.toLower at h
    split at h
    · right
      rename_i hr
      apply Char.ext
      have h1 := congrArg Char.val h
      simp only at h1
      have h2 := congrArg UInt32.toNat h1
      have h3 := hr.1
      have h4 := hr.2
      apply UInt32.toNat.inj
      simp [UInt32.le_iff_toNat_le] at h2 h3 h4 ⊢
      omega
    · exact Or.inl h
  · rintro (rfl | rfl) <;> rfl

theorem toLower_o (c : Char) : c.toLower = 'o' ↔ c = 'o' ∨ c = 'O' := by
  constructor
  · intro h
    unfold Char.toLower at h
    split at h
    · right
      rename_i hr
      apply Char.ext
      have h1 := congrArg Char.val h
      simp only at h1
      have h2 := congrArg UInt32.toNat h1
      have h3 := hr.1
      have h4 := hr.2
      apply UInt32.toNat.inj
      simp [UInt32.le_iff_toNat_le] at h2 h3 h4 ⊢
      omega
    · exact Or.inl h
  · rintro (rfl | rfl) <;> rfl

/-- a direction is understood exactly if it is 0, 1, or a string that begins with i, I, o or O -/
theorem check_direction_iff (a : DArg) (d : Dir) : checkDirection a = .ok d ↔ Means a d := by
  cases a with
  | num n =>
    unfold checkDirection numDir Means
    cases d <;> simp <;> split <;> simp_all
  | str s =>
    cases s with
    | nil => unfold checkDirection Means; cases d <;> simp
    | cons c s =>
      unfold checkDirection letterDir Means
      cases d
      · simp only [reduceCtorEq, false_or, DArg.str.injEq, List.cons.injEq]
        constructor
        · intro h
          split at h
          · rename_i hc
            rcases (toLower_i c).1 hc with rfl | rfl
            · exact ⟨s, Or.inl ⟨rfl, rfl⟩⟩
            · exact ⟨s, Or.inr ⟨rfl, rfl⟩⟩
          · split at h <;> simp at h
        · rintro ⟨t, ⟨rfl, -⟩ | ⟨rfl, -⟩⟩ <;> rfl
      · simp only [reduceCtorEq, false_or, DArg.str.injEq, List.cons.injEq]
        constructor
        · intro h
          split at h
          · simp at h
          · split at h
            · rename_i hc
              rcases (toLower_o c).1 hc with rfl | rfl
              · exact ⟨s, Or.inl ⟨rfl, rfl⟩⟩
              · exact ⟨s, Or.inr ⟨rfl, rfl⟩⟩
            · simp at h
        · rintro ⟨t, ⟨rfl, -⟩ | ⟨rfl, -⟩⟩ <;> rfl

theorem opposite_eq (d : Dir) : opposite d = flip d := by cases d <;> rfl

theorem compDir_some (a : DArg) (d : Dir) (h : Means a d) : compDir (some a) = .ok (some (flip d)) := by
  rw [← check_direction_iff] at h
  simp only [compDir, h, opposite_eq]

/-- every other direction is refused: InvalidDirection, or IndexError for the empty string -/
theorem compDir_invalid (a : DArg) (h : ∀ d, ¬ Means a d) :
    compDir (some a) = .error (if a = .str [] then .indexError else .invalidDirection) := by
  have h1 : ∀ d, checkDirection a ≠ .ok d := fun d hd => h d ((check_direction_iff a d).1 hd)
  cases a with
  | num n =>
    rw [if_neg (by simp)]
    simp only [compDir]
    have : checkDirection (.num n) = .error .keyError := by
      have h2 := h1 .input
      have h3 := h1 .output
      simp only [checkDirection, numDir] at *
      by_cases hn : n = 0
      · simp [hn] at h2
      · by_cases hn1 : n = 1
        · simp [hn1] at h3
        · simp [hn, hn1]
    rw [this]
  | str s =>
    cases s with
    | nil => rw [if_pos rfl]; rfl
    | cons c s =>
      rw [if_neg (by simp)]
      simp only [compDir]
      have : checkDirection (.str (c :: s)) = .error .keyError := by
        have h2 := h1 .input
        have h3 := h1 .output
        simp only [checkDirection, letterDir] at *
        by_cases hn : c.toLower = 'i'
        · simp [hn] at h2
        · by_cases hn1 : c.toLower = 'o'
          · simp [hn1] at h3
          · simp [hn, hn1]
      rw [this]

/-! ### the index -/

theorem mem_addTerm (p : P) (ti : Dict F (List (Dir × P))) (fd : F × Dir) (f : F) (x : Dir × P) :
    x ∈ ((addTerm p ti fd).get? f).getD [] ↔ x ∈ (ti.get? f).getD [] ∨ (f = fd.1 ∧ x = (fd.2, p)) := by
  unfold addTerm
  by_cases h : f = fd.1
  · subst h
    simp
  · simp [Dict.get?_set_ne _ _ (Ne.symm h), h]

theorem mem_addTerms (p : P) (l : List (F × Dir)) : ∀ (ti : Dict F (List (Dir × P))) (f : F) (x : Dir × P),
    x ∈ ((l.foldl (addTerm p) ti).get? f).getD [] ↔ x ∈ (ti.get? f).getD [] ∨ ((f, x.1) ∈ l ∧ x.2 = p) := by
  induction l with
  | nil => simp
  | cons fd l ih =>
    intro ti f x
    rw [List.foldl_cons, ih, mem_addTerm]
    obtain ⟨d, q⟩ := x
    obtain ⟨g, e⟩ := fd
    simp only [Prod.mk.injEq, List.mem_cons]
    tauto

theorem mem_indexAll (ctx c : Bool) (procs : List (Proc P F)) : ∀ (ti : Dict F (List (Dir × P))) (f : F) (x : Dir × P),
    x ∈ ((indexAll ctx c procs ti).get? f).getD [] ↔
      x ∈ (ti.get? f).getD [] ∨ ∃ p ∈ procs, p.pid = x.2 ∧ (f, x.1) ∈ p.indexed ctx c := by
  induction procs with
  | nil => simp [indexAll]
  | cons p l ih =>
    intro ti f x
    have : indexAll ctx c (p :: l) ti = indexAll ctx c l ((p.indexed ctx c).foldl (addTerm p.pid) ti) := rfl
    rw [this, ih, mem_addTerms]
    simp only [List.mem_cons, exists_eq_or_imp]
    constructor
    · rintro ((h | ⟨h1, h2⟩) | h)
      · exact Or.inl h
      · exact Or.inr (Or.inl ⟨h2.symm, h1⟩)
      · exact Or.inr (Or.inr h)
    · rintro (h | ⟨h1, h2⟩ | h)
      · exact Or.inl (Or.inl h)
      · exact Or.inl (Or.inr ⟨h2, h1.symm⟩)
      · exact Or.inr h

/-- the sets of the index are sets -/
def AllNodup (ti : Dict F (List (Dir × P))) : Prop := ∀ f, ((ti.get? f).getD []).Nodup

theorem nodup_addTerm (p : P) (ti : Dict F (List (Dir × P))) (fd : F × Dir) (h : AllNodup ti) : AllNodup (addTerm p ti fd) := by
  intro f
  unfold addTerm
  by_cases hf : f = fd.1
  · subst hf
    simpa using PySet.nodup_add (h fd.1)
  · simpa [Dict.get?_set_ne _ _ (Ne.symm hf)] using h f

theorem nodup_indexAll (ctx c : Bool) (procs : List (Proc P F)) :
    ∀ ti : Dict F (List (Dir × P)), AllNodup ti → AllNodup (indexAll ctx c procs ti) := by
  have h1 : ∀ (p : P) (l : List (F × Dir)) (ti : Dict F (List (Dir × P))), AllNodup ti → AllNodup (l.foldl (addTerm p) ti) := by
    intro p l
    induction l with
    | nil => intro ti h; exact h
    | cons fd l ih => intro ti h; exact ih _ (nodup_addTerm p ti fd h)
  induction procs with
  | nil => intro ti h; exact h
  | cons p l ih => intro ti h; exact ih _ (h1 _ _ ti h)

theorem indexed_iff (ctx c : Bool) (p : Proc P F) (f : F) (d : Dir) :
    (f, d) ∈ p.indexed ctx c ↔
      if c && ctx then ∃ x ∈ p.exchs, x.flow = f ∧ x.dir = d ∧ x.cutoff = true else (f, d) ∈ p.refs := by
  unfold Proc.indexed
  split
  · simp only [List.mem_map, List.mem_filter, Prod.mk.injEq]
    constructor
    · rintro ⟨x, ⟨h1, h2⟩, h3, h4⟩; exact ⟨x, h1, h3, h4, h2⟩
    · rintro ⟨x, h1, h3, h4, h2⟩; exact ⟨x, ⟨h1, h2⟩, h3, h4⟩
  · rfl

/-- the index stands for the processes `s` -/
def Stands (ctx : Bool) (ti : Option (Dict F (List (Dir × P)))) (snap : Option (List (Proc P F) × Bool)) : Prop :=
  match ti, snap with
  | none, none => True
  | some ti, some (procs, c) => AllNodup ti ∧ ∀ f d pid, (d, pid) ∈ (ti.get? f).getD [] ↔ Has procs (c && ctx) pid f d
  | _, _ => False

theorem stands_reIndex (ctx c : Bool) (a : Arch P F) : Stands ctx (reIndex ctx c a).ti (some (a.procs, c)) := by
  refine ⟨nodup_indexAll _ _ _ _ (by intro f; simp), ?_⟩
  intro f d pid
  rw [mem_indexAll]
  simp only [Dict.get?_nil, Option.getD_none, List.not_mem_nil, false_or]
  unfold Has
  simp only [indexed_iff]

theorem stands_ask (ctx : Bool) (o : PyOrd (Dir × P)) (a : Arch P F) (f : F) (d : Option DArg)
    (snap : Option (List (Proc P F) × Bool)) (h : Stands ctx a.ti snap) :
    Stands ctx (terminate o a f d).state.ti snap ∧ (terminate o a f d).state.procs = a.procs := by
  unfold terminate
  cases hc : compDir d with
  | error e => exact ⟨h, rfl⟩
  | ok cd =>
    dsimp only
    split
    · dsimp only [Out.state]; exact ⟨h, rfl⟩
    · rename_i ti ht
      dsimp only [Out.state]
      refine ⟨?_, rfl⟩
      rw [ht] at h
      by_cases hh : ti.has f = true
      · rw [if_pos hh]; exact h
      · rw [if_neg hh]
        have hg : ∀ g, ((ti.set f []).get? g).getD [] = (ti.get? g).getD [] := by
          intro g
          by_cases hgf : g = f
          · subst hgf
            have : ti.get? g = none := by
              rw [Dict.has] at hh
              simpa using hh
            simp [this]
          · simp [Dict.get?_set_ne _ _ (Ne.symm hgf)]
        cases snap with
        | none => exact h
        | some s =>
          obtain ⟨h1, h2⟩ := h
          exact ⟨fun g => by rw [hg]; exact h1 g, fun g d pid => by rw [hg]; exact h2 g d pid⟩

theorem stands_run (ctx : Bool) (ops : List (Op P F)) : ∀ (a : Arch P F) (snap : Option (List (Proc P F) × Bool)),
    Stands ctx a.ti snap → Stands ctx (run ctx a ops).ti (lastIndexed a.procs snap ops) := by
  induction ops with
  | nil => intro a snap h; exact h
  | cons op ops ih =>
    intro a snap h
    have hr : run ctx a (op :: ops) = run ctx (step ctx a op) ops := rfl
    rw [hr]
    cases op with
    | edit procs => exact ih _ _ h
    | make c =>
      cases hs : snap with
      | none =>
        subst hs
        cases ht : a.ti with
        | some ti => rw [ht] at h; exact absurd h (by simp [Stands])
        | none =>
          have h1 : step ctx a (.make c) = reIndex ctx c a := by simp [step, mkIndex, ht]
          rw [h1]
          exact ih (reIndex ctx c a) _ (stands_reIndex ctx c a)
      | some s =>
        subst hs
        cases ht : a.ti with
        | none => rw [ht] at h; exact absurd h (by simp [Stands])
        | some ti =>
          have h1 : step ctx a (.make c) = a := by simp [step, mkIndex, ht]
          rw [h1]
          exact ih a _ h
    | reindex c =>
      have h2 : lastIndexed a.procs snap (.reindex c :: ops) = lastIndexed a.procs (some (a.procs, c)) ops := by
        cases snap <;> rfl
      rw [h2]
      exact ih (reIndex ctx c a) _ (stands_reIndex ctx c a)
    | ask o f d =>
      obtain ⟨h1, h2⟩ := stands_ask ctx o a f d snap h
      have h3 : lastIndexed a.procs snap (.ask o f d :: ops) = lastIndexed a.procs snap ops := by
        cases snap <;> rfl
      rw [h3, ← h2]
      exact ih _ _ h1

theorem count_snd (l : List (Dir × P)) (hn : l.Nodup) (pid : P) :
    (l.map Prod.snd).count pid = one ((Dir.input, pid) ∈ l) + one ((Dir.output, pid) ∈ l) := by
  induction l with
  | nil => simp [one]
  | cons x l ih =>
    obtain ⟨hx, hn⟩ := List.nodup_cons.1 hn
    have ih := ih hn
    obtain ⟨d, q⟩ := x
    rw [List.map_cons, List.count_cons, ih]
    by_cases hq : q = pid
    · subst hq
      have h1 : one ((d, q) ∈ (d, q) :: l) = 1 := by simp [one]
      have h3 : one ((d, q) ∈ l) = 0 := by simp [one, hx]
      cases d
      · have h2 := one_congr ((Dir.output, q) ∈ (Dir.input, q) :: l) ((Dir.output, q) ∈ l) (by simp)
        rw [h1, h2, h3]
        simp
        omega
      · have h2 := one_congr ((Dir.input, q) ∈ (Dir.output, q) :: l) ((Dir.input, q) ∈ l) (by simp)
        rw [h1, h2, h3]
        simp
    · have : ¬ pid = q := fun h => hq h.symm
      simp [hq, this]

/-- **Terminations without a direction.** Whatever has happened to the archive since, asking for a flow yields each process once
for every direction in which it had a reference of that flow when the archive was last indexed. -/
theorem terminate_all (ctx : Bool) (procs0 : List (Proc P F)) (ops : List (Op P F)) (o : PyOrd (Dir × P)) (f : F)
    (procs : List (Proc P F)) (c : Bool) (h : lastIndexed procs0 none ops = some (procs, c)) :
    ∃ l, (terminate o (run ctx ⟨procs0, none⟩ ops) f none).value? = some l ∧
      ∀ pid, l.count pid = one (Has procs (c && ctx) pid f .input) + one (Has procs (c && ctx) pid f .output) := by
  have hs := stands_run ctx ops ⟨procs0, none⟩ none (by simp [Stands])
  dsimp only at hs
  rw [h] at hs
  cases ht : (run ctx (⟨procs0, none⟩ : Arch P F) ops).ti with
  | none => rw [ht] at hs; exact absurd hs (by simp [Stands])
  | some ti =>
    rw [ht] at hs
    obtain ⟨h1, h2⟩ := hs
    unfold terminate
    simp only [compDir]
    rw [ht]
    refine ⟨_, rfl, ?_⟩
    intro pid
    rw [count_snd _ ((o.perm _).nodup_iff.2 (h1 f))]
    simp only [o.mem, h2]

/-- **Terminations with a direction.** Only the complementary references count. -/
theorem terminate_direction (ctx : Bool) (procs0 : List (Proc P F)) (ops : List (Op P F)) (o : PyOrd (Dir × P)) (f : F)
    (a : DArg) (d : Dir) (hd : Means a d)
    (procs : List (Proc P F)) (c : Bool) (h : lastIndexed procs0 none ops = some (procs, c)) :
    ∃ l, (terminate o (run ctx ⟨procs0, none⟩ ops) f (some a)).value? = some l ∧
      ∀ pid, l.count pid = one (Has procs (c && ctx) pid f (flip d)) := by
  have hs := stands_run ctx ops ⟨procs0, none⟩ none (by simp [Stands])
  dsimp only at hs
  rw [h] at hs
  cases ht : (run ctx (⟨procs0, none⟩ : Arch P F) ops).ti with
  | none => rw [ht] at hs; exact absurd hs (by simp [Stands])
  | some ti =>
    rw [ht] at hs
    obtain ⟨h1, h2⟩ := hs
    unfold terminate
    rw [compDir_some a d hd, ht]
    refine ⟨_, rfl, ?_⟩
    intro pid
    rw [count_snd _ (((o.perm _).nodup_iff.2 (h1 f)).filter _)]
    simp only [List.mem_filter, o.mem, h2, decide_eq_true_eq]
    cases d
    · rw [one_false _ (by simp [flip]), Nat.zero_add]
      exact one_congr _ _ (by simp [flip])
    · rw [one_false (_ ∧ flip Dir.output = Dir.output) (by simp [flip]), Nat.add_zero]
      exact one_congr _ _ (by simp [flip])

/-- **A direction that is none of them is refused**, whatever the index holds. -/
theorem terminate_invalid (o : PyOrd (Dir × P)) (arch : Arch P F) (f : F) (a : DArg) (h : ∀ d, ¬ Means a d) :
    terminate o arch f (some a) = .err (if a = .str [] then .indexError else .invalidDirection) arch := by
  unfold terminate
  rw [compDir_invalid a h]

/-! ### concrete cases -/

def pA : Proc ℕ ℕ := ⟨1, [(7, .output), (7, .input), (8, .output)], [⟨9, .input, true⟩]⟩
def pB : Proc ℕ ℕ := ⟨2, [(7, .output)], []⟩

example : (terminate (PyOrd.id _) (run false ⟨[pA, pB], none⟩ [.make false]) 7 none).value? = some [1, 1, 2] ∧
    (terminate (PyOrd.id _) (run false ⟨[pA, pB], none⟩ [.make false]) 7 (some (.str "Input".toList))).value? = some [1, 2] ∧
    (terminate (PyOrd.id _) (run true ⟨[pA, pB], none⟩ [.make true]) 9 (some (.num 1))).value? = some [1] ∧
    (terminate (PyOrd.id _) (run false ⟨[pA, pB], none⟩ [.make true]) 9 (some (.num 1))).value? = some [] := by
  decide +kernel

example : Means (.str "Output".toList) .output ∧ (∀ d, ¬ Means (.num 2) d) ∧
    lastIndexed [pA] none [.edit [pB], .make false, .edit [pA], .make false] = some ([pB], false) := by
  refine ⟨Or.inr ⟨"utput".toList, Or.inr rfl⟩, ?_, rfl⟩
  intro d
  cases d <;> simp [Means]

/-- **The index is not kept up to date**: a process added after the first implementation was made is not found, not even through an
implementation made after that. -/
theorem stale_index :
    (terminate (PyOrd.id _) (run false ⟨[pA], none⟩ [.make false, .edit [pA, pB], .make false]) 7 (some (.str ['i']))).value? =
      some [1] ∧
    Has [pA, pB] false 2 7 .output ∧
    (terminate (PyOrd.id _) (run false ⟨[pA], none⟩ [.make false, .edit [pA, pB], .reindex false]) 7 (some (.str ['i']))).value? =
      some [1, 2] := by
  refine ⟨by decide +kernel, ⟨pB, by simp, rfl, by simp [pB]⟩, by decide +kernel⟩

end Ix
