import Verif.Model.Single
import Verif.Spec.Node
/-
Vocabulary for the single signer.
-/
namespace Horcrux.Spec

/-- `m` is a message a chain node was given: for the block `k`, with the bytes to be signed and the signature. -/
inductive SignedMsg (chainID : Bytes) : PMsg → HRS → Bytes → Bytes → Prop where
  | vote (v : Vote) (bs sig : Bytes) (hw : v.WF chainID) (ht : v.type = 1 ∨ v.type = 2) (hb : voteSignBytes chainID v = .ok bs)
      (hs : v.signature = some sig) :
      SignedMsg chainID (.signedVoteResponse v none) ⟨v.height, v.round, if v.type = 1 then 2 else 3⟩ bs sig
  | proposal (p : Proposal) (bs sig : Bytes) (hw : p.WF chainID) (hb : proposalSignBytes chainID p = .ok bs)
      (hs : p.signature = some sig) :
      SignedMsg chainID (.signedProposalResponse p none) ⟨p.height, p.round, 1⟩ bs sig

/-- `r` refuses the request `m`: an empty message with an error. -/
inductive Refuses (text : Err → Bytes) : PMsg → PMsg → Prop where
  | vote (v : Option Vote) (c : Bytes) (e : Err) :
      Refuses text (.signVoteRequest v c) (.signedVoteResponse .zero (some ⟨0, text e⟩))
  | proposal (p : Option Proposal) (c : Bytes) (e : Err) :
      Refuses text (.signProposalRequest p c) (.signedProposalResponse .zero (some ⟨0, text e⟩))

/-- Where the next message of the loop for node `j` comes from: it has a connection; or it dials, and what the node sends on
the new connection begins with the message. `pre` is what the loop does before. -/
inductive NextFor (s : Single) (j : Nat) (i : Meets) (stream : Bytes) : List Act → Prop where
  | connected (h : s.loops j = .live (some stream)) : NextFor s j i stream []
  | dials (h : s.loops j = .live none) (hs : i.stream = stream) :
      NextFor s j i stream (List.replicate i.dialFailures .dialFailed ++ [.connect])

end Horcrux.Spec
