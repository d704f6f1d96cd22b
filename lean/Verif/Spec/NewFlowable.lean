import Verif.Props.Cas

/-!
The words in which C215–C217 are stated.
-/

namespace NewF
open Syn Flw

/-- a term that is not a half-padded CAS number: '50-00-0' and '000050-00-0' are whole, '0050-00-0' is not -/
def Whole (L : Lex Str) (t : Str) : Prop := ∀ p, pad (L.san t) = some p → L.san t = p ∨ L.san t = trim p

/-- a CAS number is written without blanks around it, and in lower case -/
def Clean (L : Lex Str) (t : Str) : Prop := isCas (L.san t) = true → L.san t = t

/-- two of the CAS numbers in the list differ, or one differs from the given one -/
def Clash (c0 : Option Str) (ts : List Str) : Prop :=
  ∃ a ∈ ts, CasShape a ∧ ((∃ b ∈ ts, CasShape b ∧ trim a ≠ trim b) ∨ ∃ c, c0 = some c ∧ trim c ≠ trim a)

/-- the terms of a list that the Qdb does not know -/
def unknown (L : Lex Str) (s : State Str) (terms : List Str) : List Str := terms.filter fun t => (getIndex L s t).isNone

end NewF
