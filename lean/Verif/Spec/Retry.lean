import Verif.Model.Retry
import Verif.Spec.Order
/-
What the attempts at a block before the last one may have done.
-/
namespace Horcrux.Spec

/-- A step of an attempt at the block `k` in the cluster `1..n`: a cosigner is asked for its parts; one of the participants
`ps` is sent an answer of each participant; a record of an earlier block becomes known. -/
def Attempt (n : Nat) (ps : List Nat) (k : HRST) (s : TryState) : TryEv → Prop
  | .ask p order rnd => (1 ≤ p ∧ p ≤ n) ∧ order.Perm ((List.range' 1 n).map (fun i : Nat => (i : Int))) ∧
      ∀ i, ∃ sec, (rnd i).secret = some sec ∧ sec.length = 32
  | .sign p mapOrder ans _ => p ∈ ps ∧ mapOrder.Perm ps ∧ ∀ q ∈ ps, ans q ∈ s.answers q
  | .event _ r => r.hrs ≺ k.hrs

/-- Any number of steps of any number of attempts, one after the other or at the same time. -/
inductive Tries (C : Crypto) (cfg : Nat → CosignerCfg) (n : Nat) (ps : List Nat) (k : HRST) (bs : Bytes) :
    TryState → TryState → Prop where
  | refl (s : TryState) : Tries C cfg n ps k bs s s
  | snoc {s s1 : TryState} (h : Tries C cfg n ps k bs s s1) (ev : TryEv) (hev : Attempt n ps k s1 ev) :
      Tries C cfg n ps k bs s (s1.step C cfg k bs ev)

/-- As `Attempt`, with any participants: one of them is sent an answer of each, itself included. -/
def AnyAttempt (n : Nat) (k : HRST) (s : TryState) : TryEv → Prop
  | .ask p order rnd => (1 ≤ p ∧ p ≤ n) ∧ order.Perm ((List.range' 1 n).map (fun i : Nat => (i : Int))) ∧
      ∀ i, ∃ sec, (rnd i).secret = some sec ∧ sec.length = 32
  | .sign p mapOrder ans _ => p ∈ mapOrder ∧ mapOrder.Nodup ∧ ∀ q ∈ mapOrder, (1 ≤ q ∧ q ≤ n) ∧ ans q ∈ s.answers q
  | .event _ r => r.hrs ≺ k.hrs

/-- Any number of steps of any number of attempts, each with its own participants. -/
inductive AnyTries (C : Crypto) (cfg : Nat → CosignerCfg) (n : Nat) (k : HRST) (bs : Bytes) :
    TryState → TryState → Prop where
  | refl (s : TryState) : AnyTries C cfg n k bs s s
  | snoc {s s1 : TryState} (h : AnyTries C cfg n k bs s s1) (ev : TryEv) (hev : AnyAttempt n k s1 ev) :
      AnyTries C cfg n k bs s (s1.step C cfg k bs ev)

/-- The cosigner holds the nonce `sec`, split with the randomness `r`, for the block `k`. -/
def Dealt (C : Crypto) (n t : Nat) (k : HRST) (s : CState) (sec r : Bytes) : Prop :=
  ∃ ref m, s.hrsMeta k = some ref ∧ s.heap[ref]? = some m ∧ m.secret = sec ∧ m.dealtShares = C.dealShares sec r t n

/-- The randomness of a step of signing, should a cosigner have to make a nonce in it, is there. -/
def SignRandom : TryEv → Prop
  | .sign _ _ _ rnd => ∀ i, ∃ sec, (rnd i).secret = some sec ∧ sec.length = 32
  | _ => True

/-- As `AnyTries`, with restarts: a cosigner comes back with what it has on disk, and without its nonces. On disk is its last
record of the block, or nothing of the block. -/
inductive RestartTries (C : Crypto) (cfg : Nat → CosignerCfg) (n : Nat) (k : HRST) (bs : Bytes) :
    TryState → TryState → Prop where
  | refl (s : TryState) : RestartTries C cfg n k bs s s
  | snoc {s s1 : TryState} (h : RestartTries C cfg n k bs s s1) (ev : TryEv) (hev : AnyAttempt n k s1 ev)
      (hrnd : SignRandom ev) : RestartTries C cfg n k bs s (s1.step C cfg k bs ev)
  | restart {s s1 : TryState} (h : RestartTries C cfg n k bs s s1) (p : Nat) (l : SignState)
      (hl : l.hrs ≺ k.hrs ∨ l.hrs = (s1.cs p).lss.hrs ∧ l.signBytes = (s1.cs p).lss.signBytes ∧
        l.signature = (s1.cs p).lss.signature ∧ l.ephemeralPublic = (s1.cs p).lss.ephemeralPublic) :
      RestartTries C cfg n k bs s { s1 with cs := fun q => if q = p then CState.start l else s1.cs q }

end Horcrux.Spec
