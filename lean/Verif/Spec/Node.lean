import Verif.Model.Node
import Verif.Spec.System
import Verif.Lemmas.Unpack
import Verif.Lemmas.Remote
/-
Vocabulary for requests of chain nodes to the cluster.
-/
namespace Horcrux.Spec

/-- `Asks chainID m k bs reply`: `m` is a request of a chain node of the chain to sign a prevote, precommit or proposal;
`k` is its height, round and step, `bs` the bytes to be signed, and `reply sig` the answer that returns the message with
the signature `sig`. The fields have values of their Go types and fit into memory; the vote of C06's exception is left
out. -/
inductive Asks (chainID : Bytes) : PMsg → HRS → Bytes → (Bytes → PMsg) → Prop where
  | vote (v : Vote) (c bs : Bytes) (hwf : v.WF chainID) (hp : v.PWF) (hc : c.length < 2 ^ 62)
      (ht : v.type = 1 ∨ v.type = 2) (hm : ¬ v.MistakenForProposal chainID) (hbs : voteSignBytes chainID v = .ok bs)
      (hsmall : bs.length < 2 ^ 61)
      (hfits : v.blockID.hash.length + v.blockID.pshHash.length + v.validatorAddress.length < 2 ^ 61) :
      Asks chainID (.signVoteRequest (some v) c) ⟨v.height, v.round, if v.type = 1 then 2 else 3⟩ bs
        (fun sig => .signedVoteResponse { v with signature := some sig } none)
  | proposal (p : Proposal) (c bs : Bytes) (hwf : p.WF chainID) (hp : p.PWF) (hc : c.length < 2 ^ 62)
      (hbs : proposalSignBytes chainID p = .ok bs) (hsmall : bs.length < 2 ^ 61)
      (hfits : p.blockID.hash.length + p.blockID.pshHash.length < 2 ^ 61) :
      Asks chainID (.signProposalRequest (some p) c) ⟨p.height, p.round, 1⟩ bs
        (fun sig => .signedProposalResponse { p with signature := some sig } none)

/-- The validator address in a request to sign a vote. -/
def voterAddress : PMsg → Bytes
  | .signVoteRequest (some v) _ => v.validatorAddress
  | _ => []

/-- A way on which the cluster `1..n` with threshold `t` is able to serve requests: as in `Servable`, and no call number is
used twice. -/
structure OpenWay (n t : Nat) (w : Way) : Prop where
  nodup : w.ps.Nodup
  ids : ∀ p ∈ w.ps, 1 ≤ p ∧ p ≤ n
  quorum : t ≤ w.ps.length
  leads : w.leader ∈ w.ps
  order : ∀ p, (w.order p).Perm ((List.range' 1 n).map (fun i : Nat => (i : Int)))
  mapOrder : ∀ p, (w.mapOrder p).Perm w.ps
  random : ∀ p i, ∃ sec, (w.rnd1 p i).secret = some sec ∧ sec.length = 32
  calls : ((w.leader, w.id) :: w.hops).Nodup

/-- What the chain nodes and the others do: a chain node sends a message (and perhaps more afterwards), or anything else
happens. -/
inductive Doing where
  | ask (m : PMsg) (k : HRS) (bs : Bytes) (reply : Bytes → PMsg) (rest : Bytes) (way : Way)
  | sys (e : SysEv)

/-- The bytes that arrive. -/
def Doing.ev : Doing → NodeEv
  | .ask m _ _ _ rest way => .bytes (writeMsg m ++ rest) way
  | .sys e => .sys e

/-- In order: the requests are for blocks above `w`, each above the one before, sent to any node; in between there may be
anything that does not concern a later block than the last one. -/
def DoneInOrder (chainID : Bytes) (n t : Nat) : HRS → List Doing → Prop
  | _, [] => True
  | w, .ask m k bs reply _ way :: ds => w ≺ k ∧ Asks chainID m k bs reply ∧
      (encPMsg m).length ≤ maxRemoteSignerMsgSize ∧ OpenWay n t way ∧ DoneInOrder chainID n t k ds
  | _, .sys (.sign _) :: _ => False
  | w, .sys (.deliver _ r) :: ds => r.hrs ≼ w ∧ DoneInOrder chainID n t w ds
  | w, .sys (.other _ op) :: ds => NotAbove w op ∧ DoneInOrder chainID n t w ds
  | w, .sys (.restart _ lv lc) :: ds => lv.hrs ≼ w ∧ lc.hrs ≼ w ∧ DoneInOrder chainID n t w ds

/-- The requests of the chain nodes. -/
def asked : List Doing → List (PMsg × Bytes × (Bytes → PMsg) × Bytes)
  | [] => []
  | .ask m _ bs reply rest _ :: ds => (m, bs, reply, rest) :: asked ds
  | .sys _ :: ds => asked ds

end Horcrux.Spec
