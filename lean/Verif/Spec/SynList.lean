import Verif.Model.SynList

/-!
Vocabulary for the SynList properties: histories of calls.
-/

namespace Syn
variable {T : Type} [DecidableEq T]

/-- Calls outside the three known defects of SynList: `add_synonym` that raises TermFound (the term has
already been listed), `merge` of the dominant item into itself (the item is erased), and `split_term`
that returns (the split-off terms are no longer listed).  All other calls, and any other exception, are
included. -/
def Sound (L : Lex T) (s : State T) : Op T → Prop
  | .addSynonym i t => (addSynonym L i t s).error? ≠ some .termFound
  | .merge d ts => ∀ t ∈ ts, getIndex L s t = none ∨ getIndex L s t ≠ getIndex L s d
  | .splitTerm t => ∃ o, (splitTerm L o (matchesOf L) (mergeSet (newTerm L)) t s).error? ≠ none
  | _ => True

/-- States reached from an empty list by sound calls. Set iteration orders may differ from call to call. -/
inductive Reach (L : Lex T) : State T → Prop
  | init : Reach L {}
  | call {s : State T} (op : Op T) (o : PyOrd T) (oN : PyOrd ℕ) : Reach L s → Sound L s op → Reach L (step L o oN op s).2

/-- States reached from an empty list by any calls. -/
inductive ReachAny (L : Lex T) : State T → Prop
  | init : ReachAny L {}
  | call {s : State T} (op : Op T) (o : PyOrd T) (oN : PyOrd ℕ) : ReachAny L s → ReachAny L (step L o oN op s).2

end Syn
