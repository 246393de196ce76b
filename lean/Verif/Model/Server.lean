import Verif.Model.Grpc
import Verif.Model.Round
import Verif.Model.Membership
/-
What a node does with the bytes of a call to its gRPC port: `signer/grpc_server.go:36-88` (and the same code again in
`signer/cosigner_grpc_server.go:37-89`, which is used nowhere). The library decodes the request, calls the method, and
encodes its answer; it does not recover from panics, so a panic of the method ends the process.

The fourth method, `SignBlock`, is in `Verif.Model.Proxy`.
-/
namespace Horcrux

/-- `message CosignerGRPCTransferLeadershipRequest`. -/
def transferReqHandler : Handler Bytes where
  wireType n := if n = 1 then some 2 else none
  set _ n v := match n, v with
    | 1, .len bs => if utf8Valid bs then some bs else none
    | _, _ => none

/-- The methods of the service that the cosigner and the raft store of a node serve. -/
inductive Method where
  | setSign
  | get
  | transfer
  deriving DecidableEq

/-- What the methods need besides the state: the iteration order of the peer map, the randomness, and what
`TransferLeadership` looks at. -/
structure ServeEnv where
  order : List Int
  rnd : Nat → Rand
  urlHost : Str → Option Str
  peers : List CosignerPeer

/-- A call with the given bytes: the bytes of the answer, or an error. Line 50: the time stamp of the answer is never set
(`local_cosigner.go:247-250`). -/
def serve (C : Crypto) (cfg : CosignerCfg) (e : ServeEnv) (m : Method) (bs : Bytes) (s : CState) : Out Bytes × CState :=
  match m with
  | .setSign =>
    match recvSetSign bs with
    | none => (.err .external, s)
    | some (parts, hrst, signBytes) =>
      let r := setPartsAndSign C cfg hrst signBytes parts e.rnd s
      (r.1.map fun a => sendSetSignRes a.ephemeralPublic .zero a.signature, r.2)
  | .get =>
    match recvGet bs with
    | none => (.err .external, s)
    | some hrst =>
      let r := getParts C cfg hrst e.order e.rnd s
      (r.1.map sendGetRes, r.2)
  | .transfer =>
    match gDecode transferReqHandler [] bs with
    | none => (.err .external, s)
    | some leaderID =>
      let a := (transferLeadership e.urlHost e.peers leaderID).2
      (.ok (encBytesField 0x0a a.1 ++ (encBytesField 0x12 a.2 ++ [])), s)

/-- The second call to participant `p` in a round, see `roundShares`. -/
def roundCall (C : Crypto) (cfg : Nat → CosignerCfg) (k : HRST) (bs : Bytes) (order : Nat → List Int)
    (mapOrder : Nat → List Nat) (rnd1 rnd2 : Nat → Nat → Rand) (st : Nat → CState) (p : Nat) : Out SignRes × CState :=
  setPartsAndSign C (cfg p) k bs
    (partsFor ((mapOrder p).map fun q : Nat => ((q : Int), okParts (getParts C (cfg q) k (order q) (rnd1 q) (st q)).1)) (p : Int))
    (rnd2 p) (getParts C (cfg p) k (order p) (rnd1 p) (st p)).2

end Horcrux
