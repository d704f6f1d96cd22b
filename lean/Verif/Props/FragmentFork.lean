import Verif.Props.FragmentTree

/-!
C45: interposing and splitting.
-/

namespace Frg
set_option linter.unusedSectionVars false

/-- **C45 fails** for `interpose`: the fragment is traversed twice, under its former parent and under the new node. In `exH`,
fragment 1 has the amount 2; after `interpose` it has the amounts 1 and 2. -/
theorem interpose_twice : ∃ H', interpose exE exH 1 20 = .ok () H' ∧
    ((traverse exE exH .none false 9 0).map fun l => (l.filter fun x => x.who = .frag 1).map FF.mag) = .ok [2] ∧
    ((traverse exE H' .none false 9 0).map fun l => (l.filter fun x => x.who = .frag 1).map FF.mag) = .ok [1, 2] :=
  ⟨_, rfl, by decide +kernel, by decide +kernel⟩

/-- **C45 fails** for `interpose` with observed values: the exchange values of the fragment are cleared, so its observed
value is 0 and it is not reached any more -/
theorem interpose_observed : ∃ H0 H', setEv exH 1 (.one .observed) (some 6) = .ok () H0 ∧ interpose exE H0 1 20 = .ok () H' ∧
    ((traverse exE H0 .none true 9 0).map fun l => (l.filter fun x => x.who = .frag 1).map FF.mag) = .ok [6] ∧
    ((traverse exE H' .none true 9 0).map fun l => (l.filter fun x => x.who = .frag 1).map FF.mag) = .ok [0, 0] :=
  ⟨_, _, rfl, rfl, by decide +kernel, by decide +kernel⟩

/-- **C45 fails** for a balance flow: both raise (its parent has a balance flow: itself), leaving a half-made fragment -/
theorem fork_balance : ∃ H', interpose exE exH 3 20 = .err .balanceAlreadySet H' ∧ 20 ∈ children (H' 0) ∧
    ∃ H'', splitSubfragment exE 9 exH 3 20 = .err .balanceAlreadySet H'' :=
  ⟨_, rfl, by decide +kernel, _, rfl⟩

/-- a tree for splitting: 0 is a foreground node with the child 1 (amount 4 of flow 2), a foreground node with the cut-offs 2
(3 of flow 3) and 4 (5 of flow 3), and the child 3 (terminated to a process) -/
def splitH (t : Target) (tf : ℕ) : Heap ℕ ℕ
  | 0 => { kids := [1], flow := 1, dir := .input, evs := newEvs, terms := [(none, { target := .frag 0, flow := 1 })] }
  | 1 => { parent := some 0, kids := [2, 3, 4], flow := 4, dir := .input,
           evs := [(.cached, some 4), (.observed, some 0), (.str "a", some 5)], terms := [(none, { target := t, flow := tf })] }
  | 2 => { parent := some 1, flow := 3, dir := .input, evs := [(.cached, some 3), (.observed, some 0)], terms := [(none, nullT 3)] }
  | 3 => { parent := some 1, flow := 5, dir := .output, evs := [(.cached, some 7), (.observed, some 0)],
           terms := [(none, { target := .process, flow := 5 })] }
  | 4 => { parent := some 1, flow := 3, dir := .output, evs := [(.cached, some 5), (.observed, some 0)], terms := [(none, nullT 3)] }
  | _ => { flow := 0, dir := .input, evs := [], terms := [] }

/-- how splitting off fragment 1 works: the fragments 1 and 3 keep their amounts, the cut-offs 2 and 4 of the same flow are
joined to one (an output of 8, that is, an input of -8) -/
example : (splitSubfragment exE 9 (splitH (.frag 1) 4) 1 20).error? = none ∧
    view (traverse exE (splitH (.frag 1) 4) .none false 9 0) = .ok
      [(.frag 0, 1, 1), (.frag 1, 4, 4), (.frag 2, 12, 12), (.frag 3, 28, 28), (.frag 4, 20, 20)] ∧
    view (traverse exE (splitSubfragment exE 9 (splitH (.frag 1) 4) 1 20).state .none false 9 0) = .ok
      [(.frag 0, 1, 1), (.frag 20, 4, 4), (.frag 1, 4, 4), (.frag 3, 28, 28), (.ghost 1, 8, 8)] ∧
    view (traverse exE (splitSubfragment exE 9 (splitH (.frag 1) 4) 1 20).state (.one (.str "a")) false 9 0) = .ok
      [(.frag 0, 1, 1), (.frag 20, 5, 5), (.frag 1, 5, 5), (.frag 3, 35, 35), (.ghost 1, 10, 10)] :=
  ⟨by decide +kernel, by decide +kernel, by decide +kernel, by decide +kernel⟩

/-- **C45 fails** for `split_subfragment` of a fragment terminated to a process through another quantity: the flow
conversion (here 3) is dropped, and the amounts below change -/
theorem split_conversion : (splitSubfragment exE 9 (splitH .process 12) 1 20).error? = none ∧
    view (traverse exE (splitH .process 12) .none false 9 0) = .ok
      [(.frag 0, 1, 1), (.frag 1, 4, 12), (.frag 2, 36, 36), (.frag 3, 84, 84), (.frag 4, 60, 60)] ∧
    view (traverse exE (splitSubfragment exE 9 (splitH .process 12) 1 20).state .none false 9 0) = .ok
      [(.frag 0, 1, 1), (.frag 20, 4, 4), (.frag 1, 4, 4), (.frag 3, 28, 28), (.ghost 1, 8, 8)] :=
  ⟨by decide +kernel, by decide +kernel, by decide +kernel⟩

end Frg
