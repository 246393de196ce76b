import Verif.Model.Remote
/-
What a chain node may expect of the signer (C47, C48).
-/
namespace Horcrux.Spec
open Horcrux

/-- The reply to a request, given what the validator does with it. -/
inductive Replies (text : Err → Bytes) (pv : PV) : PMsg → PMsg → Prop where
  | vote {v : Option Vote} {c : Bytes} {v' : Vote} (h : pv.signVote v = .ret v' none) :
      Replies text pv (.signVoteRequest v c) (.signedVoteResponse v' none)
  | voteFailed {v : Option Vote} {c : Bytes} {v' : Vote} {e : Err} (h : pv.signVote v = .ret v' (some e)) :
      Replies text pv (.signVoteRequest v c) (.signedVoteResponse .zero (some ⟨0, text e⟩))
  | proposal {p : Option Proposal} {c : Bytes} {p' : Proposal} (h : pv.signProposal p = .ret p' none) :
      Replies text pv (.signProposalRequest p c) (.signedProposalResponse p' none)
  | proposalFailed {p : Option Proposal} {c : Bytes} {p' : Proposal} {e : Err}
      (h : pv.signProposal p = .ret p' (some e)) :
      Replies text pv (.signProposalRequest p c) (.signedProposalResponse .zero (some ⟨0, text e⟩))
  | pubKey {c : Bytes} {k : PPubKey} (h : pv.pubKey = .ok k) : Replies text pv (.pubKeyRequest c) (.pubKeyResponse k none)
  | pubKeyFailed {c : Bytes} {e : Err} (h : pv.pubKey = .error e) :
      Replies text pv (.pubKeyRequest c) (.pubKeyResponse .unset (some ⟨0, text e⟩))
  | ping : Replies text pv .pingRequest .pingResponse
  /-- not a request -/
  | other {m : PMsg} (h1 : ∀ v c, m ≠ .signVoteRequest v c) (h2 : ∀ p c, m ≠ .signProposalRequest p c)
      (h3 : ∀ c, m ≠ .pubKeyRequest c) (h4 : m ≠ .pingRequest) : Replies text pv m .empty

/-- Nothing is read from or written to the node. -/
def Silent (acts : List Act) : Prop := ∀ a ∈ acts, a = .dialFailed ∨ a = .connect ∨ a = .close

/-- Both hashes are absent or have 32 bytes. -/
def HashesOk (b : BlockID) : Prop :=
  (b.hash.length = 0 ∨ b.hash.length = 32) ∧ (b.pshHash.length = 0 ∨ b.pshHash.length = 32)

/-- A request without its message, with a vote that is neither prevote nor precommit, or with a hash of a wrong size. -/
def Malformed : PMsg → Prop
  | .signVoteRequest none _ => True
  | .signVoteRequest (some v) _ => ¬ (v.type = 1 ∨ v.type = 2) ∨ ¬ HashesOk v.blockID
  | .signProposalRequest none _ => True
  | .signProposalRequest (some p) _ => ¬ HashesOk p.blockID
  | _ => False

end Horcrux.Spec
