import Verif.Model.Wire
/-
Specification: when two canonical messages agree on everything but the time.
-/
namespace Horcrux.Spec
open Horcrux

/-- Two canonical votes agree on type, height, round, block ID and chain ID. -/
def SameVoteExceptTime (a b : CVote) : Prop :=
  a.type = b.type ∧ a.height = b.height ∧ a.round = b.round ∧ a.blockID = b.blockID ∧ a.chainID = b.chainID

/-- Two canonical proposals agree on type, height, round, POL round, block ID and chain ID. -/
def SameProposalExceptTime (a b : CProposal) : Prop :=
  a.type = b.type ∧ a.height = b.height ∧ a.round = b.round ∧ a.polRound = b.polRound ∧
  a.blockID = b.blockID ∧ a.chainID = b.chainID

/-- Two byte strings, both read as the message kind of `step` (1 proposal, 2 and 3 votes), describe messages that
differ in nothing but the timestamp. -/
def DifferOnlyByTime (step : Int) (a b : Bytes) : Prop :=
  (step = 1 ∧ ∃ p q, decodeProposal a = some p ∧ decodeProposal b = some q ∧ SameProposalExceptTime p q) ∨
  ((step = 2 ∨ step = 3) ∧ ∃ p q, decodeVote a = some p ∧ decodeVote b = some q ∧ SameVoteExceptTime p q)

end Horcrux.Spec
