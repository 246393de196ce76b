import Verif.Model.Admin
import Verif.Model.Wire
import Verif.Spec.Raft
/-
Vocabulary for the raft administration service.
-/
namespace Horcrux.Spec

/-- What anyone writes to have the leader put `data` into the raft log. -/
def applyLogBytes (data : Bytes) : Bytes := encBytesField 0x0a data ++ []

/-- The raft log entry that carries the record. -/
def entryOf (r : SSC) : Bytes := encodeCommand ⟨opSet, keyLSS, encodeSSC r⟩

/-- A record at the last height there is, with an empty signature. -/
def lastRecord : SSC := ⟨2 ^ 63 - 1, 0, 0, none, some []⟩

/-- What anyone writes to have the leader add a voter, or remove a server. -/
def addVoterBytes (id address : Bytes) : Bytes := encBytesField 0x0a id ++ (encBytesField 0x12 address ++ [])
def removeServerBytes (id : Bytes) : Bytes := encBytesField 0x0a id ++ []

/-- A string that fits into a message. -/
def Sendable (s : Bytes) : Prop := utf8Valid s = true ∧ s.length < 2 ^ 64

/-- What is written to call the method, with the index `prev` of the configuration that the caller expects, or 0. -/
def adminBytes (m : AdminMethod) (id address : Bytes) (prev : Nat) : Bytes :=
  match m with
  | .addVoter => encBytesField 0x0a id ++ (encBytesField 0x12 address ++ (encVarintField 0x18 prev ++ []))
  | .addNonvoter => encBytesField 0x0a id ++ (encBytesField 0x12 address ++ (encVarintField 0x18 prev ++ []))
  | .demoteVoter => encBytesField 0x0a id ++ (encVarintField 0x10 prev ++ [])
  | .removeServer => encBytesField 0x0a id ++ (encVarintField 0x10 prev ++ [])

/-- The members as the method asks for: the member with the ID gets the address (and becomes a voter, if one is asked for), or
joins; is a voter no longer; leaves. -/
def membersAsked (m : AdminMethod) (id address : Bytes) (cfg : List Server) : List Server :=
  match m with
  | .addVoter => if id ∈ cfg.map Server.id then cfg.map fun s => if s.id = id then ⟨true, id, address⟩ else s
    else cfg ++ [⟨true, id, address⟩]
  | .addNonvoter => if id ∈ cfg.map Server.id then cfg.map fun s => if s.id = id then ⟨s.voter, id, address⟩ else s
    else cfg ++ [⟨false, id, address⟩]
  | .demoteVoter => cfg.map fun s => if s.id = id then ⟨false, s.id, s.addr⟩ else s
  | .removeServer => cfg.filter fun s => s.id ≠ id

end Horcrux.Spec
