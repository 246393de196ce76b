import Verif.Model.Membership
/-
`horcrux elect` from the call to its end: `cmd/horcrux/cmd/leader_election.go:45-106` with the retries of
github.com/grpc-ecosystem/go-grpc-middleware/retry, `signer/grpc_server.go:69-88` on the node that gets the call, and what raft
does with it.

From knowledge of the libraries: `UnaryClientInterceptor` makes the call up to `WithMax` times (leader_election.go:48), again
after an error with one of the codes `Unavailable` and `ResourceExhausted`; the health check (line 45) lets the call go to a node
that says it leads. `LeadershipTransfer` and `LeadershipTransferToServer` return a future that `TransferLeadership` does not
look at; on a node that does not lead they do nothing, and on the leader the transfer may come about or not.

Simplified: the leadership does not change by itself meanwhile, and a transfer is over before the next attempt.
-/
namespace Horcrux

/-- What the caller gets for an attempt. -/
inductive Reply where
  | answered     -- the response
  | retriable    -- an error with a code that is tried again
  | final        -- any other error, or the 30 seconds of line 94 are over
  deriving DecidableEq, Repr

/-- One attempt of the call. -/
structure Attempt where
  node : Option Nat   -- the cosigner that handles it
  moves : Bool        -- raft completes the transfer it is asked for
  next : Nat          -- whom raft picks if it is asked for any other server
  reply : Reply
  deriving DecidableEq, Repr

/-- The cosigners as raft and each other know them: `cfgs i` is the configuration of cosigner `i`, of `n`, and `addr i` its raft
address. -/
structure ElectNet where
  n : Nat
  urlHost : Str → Option Str
  cfgs : Nat → CosignerConfig
  addr : Nat → Bytes

/-- The server that raft knows under an ID and an address. -/
def ElectNet.server (c : ElectNet) (id addr : Bytes) : Option Nat :=
  (List.range' 1 c.n).find? fun i => decInt i = id ∧ c.addr i = addr

/-- Who leads after a transfer that the leader `l` is asked for. -/
def ElectNet.transfer (c : ElectNet) (l : Nat) (a : Attempt) (t : Transfer) : Nat :=
  if a.moves then
    match t with
    | .toServer id addr => (c.server id addr).getD l
    | .toAny => if 1 ≤ a.next ∧ a.next ≤ c.n then a.next else l
  else l

/-- `grpc_server.go:69-88`: who leads after an attempt. -/
def ElectNet.handle (c : ElectNet) (arg : Bytes) (l : Nat) (a : Attempt) : Nat :=
  match a.node with
  | none => l
  | some m => if m = l then c.transfer l a (transferLeadership c.urlHost (c.cfgs m).peers arg).1 else l

/-- How `elect` ends: whether it reports success, the attempts made (each with the leader before it), and who leads then. -/
structure Elected where
  ok : Bool
  made : List (Nat × Attempt)
  leader : Nat

/-- The loop of `UnaryClientInterceptor` with the attempts that are left. An attempt that nobody handles is not answered. -/
def ElectNet.tries (c : ElectNet) (arg : Bytes) : Nat → Nat → List Attempt → Elected
  | 0, l, _ => ⟨false, [], l⟩
  | _ + 1, l, [] => ⟨false, [], l⟩
  | k + 1, l, a :: as =>
    let l' := c.handle arg l a
    match a.reply with
    | .answered => ⟨a.node.isSome, [(l, a)], l'⟩
    | .final => ⟨false, [(l, a)], l'⟩
    | .retriable =>
      let r := c.tries arg k l' as
      ⟨r.ok, (l, a) :: r.made, r.leader⟩

/-- `leader_election.go:45-106`: `elect arg` (without argument: the empty string, line 88) while `l` leads; `as` is what becomes
of the attempts. -/
def ElectNet.elect (c : ElectNet) (arg : Bytes) (l : Nat) (as : List Attempt) : Elected := c.tries arg 5 l as

end Horcrux
