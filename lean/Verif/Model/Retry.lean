import Verif.Model.Round
/-
Repeated attempts at one block: `SignBlock` (`signer/threshold_validator.go:363-425`) can stop anywhere (a peer does not
answer, a timeout, a leader that loses its role), and another attempt, by the same or another leader, follows or runs at
the same time.
-/
namespace Horcrux

/-- What the attempts have led to: the cosigners, and all the answers to get-parts calls for the block. -/
structure TryState where
  cs : Nat → CState
  answers : Nat → List (List SecretPart)

/-- A step of some attempt at the block `k` with sign bytes `bs` and participants `ps`. -/
inductive TryEv where
  /-- lines 172-183, 384: a cosigner is asked for its parts; its answer may get lost afterwards -/
  | ask (p : Nat) (order : List Int) (rnd : Nat → Rand)
  /-- lines 205-233: a participant is sent, out of the answers `ans` collected in some attempt, the parts for it -/
  | sign (p : Nat) (mapOrder : List Nat) (ans : Nat → List SecretPart) (rnd : Nat → Rand)
  /-- `raft_events.go:26`: a record made known by raft -/
  | event (p : Nat) (r : SSC)

/-- One step. -/
def TryState.step (C : Crypto) (cfg : Nat → CosignerCfg) (k : HRST) (bs : Bytes) (s : TryState) : TryEv → TryState
  | .ask p order rnd =>
    let r := getParts C (cfg p) k order rnd (s.cs p)
    { cs := fun q => if q = p then r.2 else s.cs q
      answers := fun q => if q = p then okParts r.1 :: s.answers q else s.answers q }
  | .sign p mapOrder ans rnd =>
    let r := setPartsAndSign C (cfg p) k bs (partsFor (mapOrder.map fun q : Nat => ((q : Int), ans q)) (p : Int)) rnd
      (s.cs p)
    { s with cs := fun q => if q = p then r.2 else s.cs q }
  | .event p r => { s with cs := fun q => if q = p then { s.cs p with lss := ((s.cs p).lss.save r).2 } else s.cs q }

end Horcrux
