import Verif.Model.Overlap
import Verif.Spec.Order
/-
Vocabulary for a signing round that goes on while the cluster does other things.
-/
namespace Horcrux.Spec

/-- A sign request: the call `id` of the leader for a block, and the cosigners that take part in its round. -/
structure Signing where
  block : Block
  leader : Nat
  id : Nat
  ps : List Nat

/-- A call of a cosigner is about a block below `h`. -/
def Lower (h : HRS) : CosOp → Prop
  | .getPart req _ => ⟨req.height, req.round, req.step⟩ ≺ h
  | .setPart req _ => ⟨req.height, req.round, req.step⟩ ≺ h
  | .sign bs => ∀ k, unpackHRST bs = .ok k → k.hrs ≺ h
  | .saveLSS r => r.hrs ≺ h

/-- How far the round is: the parts that each cosigner has handed out for the block, and the cosigners whose parts each of them has
been sent. -/
structure Progress where
  parts : Nat → List SecretPart
  had : Nat → List Nat

/-- Nothing has been done. -/
def Progress.none : Progress := ⟨fun _ => [], fun _ => []⟩

/-- What an event adds. -/
def Progress.next (C : Crypto) (cfg : Nat → CosignerCfg) (q : Signing) (s : Net) (g : Progress) : NetEv → Progress
  | .cos p (.getPart req rnd) =>
    match getPart C (cfg p) (s.cs p) req rnd with
    | (.ok part, _) =>
      if req.key = q.block.key then { g with parts := fun j => if j = p then part :: g.parts j else g.parts j } else g
    | _ => g
  | .cos p (.setPart req _) =>
    if req.key = q.block.key then { g with had := fun j => if j = p then req.sourceID.toNat :: g.had j else g.had j } else g
  | _ => g

/-- A call in the round of `q` to the cosigner of `p`: it is asked for a part for one of the cosigners `1..n`, and the random number
generator works; or it is sent a part that another participant has handed out for it, after it has handed out parts itself; or it is
asked to sign, after it has been sent the parts of all other participants. -/
inductive InRound (n : Nat) (q : Signing) (g : Progress) (p : Nat) : CosOp → Prop where
  | get (i : Nat) (rnd : Rand) (h1 : 1 ≤ i) (h2 : i ≤ n) (hr : ∃ sec, rnd.secret = some sec ∧ sec.length = 32) :
      InRound n q g p (.getPart ⟨i, q.block.height, q.block.round, q.block.step, GoTime.ofUnixNano q.block.key.timestamp⟩ rnd)
  | set (j : Nat) (x : SecretPart) (rnd : Rand) (hj : j ∈ q.ps) (hne : j ≠ p) (hx : x ∈ g.parts j) (hd : x.destinationID = p)
      (hown : g.parts p ≠ []) : InRound n q g p (.setPart (x.toSetReq q.block.key) rnd)
  | sign (hown : g.parts p ≠ []) (hall : ∀ j ∈ q.ps, j ≠ p → j ∈ g.had p) : InRound n q g p (.sign q.block.signBytes)

/-- What may happen while the round of `q` goes on. Whatever the leader and the participants do besides is about lower blocks; the
participants are honest and do not start again; the leader does not give the round up, assembles when all participants have
answered, and takes the answers of participants only. Other nodes may do anything. -/
def Allowed (chainID : Bytes) (n : Nat) (q : Signing) (s : Net) (g : Progress) : NetEv → Prop
  | .call p id b _ => p = q.leader → id ≠ q.id ∧ b.hrs ≺ q.block.hrs
  | .passOn p id l id' _ => l = q.leader → id' ≠ q.id ∧ ∀ b b' c, (s.vs p).calls id = some (b, .proxy) →
      recvSignBlock (sendSignBlock chainID b) = some (c, b') → b'.hrs ≺ q.block.hrs
  | .answer p id i => p = q.leader → id = q.id → ∀ j bs r, s.sent[i]? = some (j, bs, r) → j ∈ q.ps
  | .assemble p id => p = q.leader → id = q.id → ∀ j ∈ q.ps, s.table p id j ≠ none
  | .giveUp p id _ => ¬ (p = q.leader ∧ id = q.id)
  | .cos p op => p ∈ q.ps → Lower q.block.hrs op ∨ InRound n q g p op
  | .lie p _ _ => p ∉ q.ps
  | .deliver p r => p = q.leader → r.hrs ≺ q.block.hrs
  | .restart p _ _ => p ∉ q.ps
  | _ => True

/-- Any number of such events. -/
inductive Serving (C : Crypto) (vcfg : ValidatorCfg) (cfg : Nat → CosignerCfg) (n : Nat) (chainID : Bytes) (q : Signing) (s0 : Net)
    (g0 : Progress) : Net → Progress → Prop where
  | refl : Serving C vcfg cfg n chainID q s0 g0 s0 g0
  | step {s s' : Net} {g : Progress} (e : NetEv) (h : Serving C vcfg cfg n chainID q s0 g0 s g) (ha : Allowed chainID n q s g e)
      (hs : s.step C vcfg cfg n chainID e = some s') : Serving C vcfg cfg n chainID q s0 g0 s' (g.next C cfg q s e)

/-- A round for the block can start: the leader and the participants know nothing of it nor of later blocks, and whatever else the
leader is doing is about lower blocks. -/
structure Ready (q : Signing) (s : Net) : Prop where
  lss : ∀ p ∈ q.ps, (s.cs p).lss.hrs ≺ q.block.hrs
  recs : ∀ p ∈ q.ps, ∀ k, k.hrs = q.block.hrs → (s.cs p).hrsMeta k = none
  sent : ∀ p ∈ q.ps, ∀ r, (p, q.block.signBytes, r) ∉ s.sent
  vlss : (s.vs q.leader).lss.hrs ≺ q.block.hrs
  init : (s.vs q.leader).init.hrs ≺ q.block.hrs
  free : (s.vs q.leader).calls q.id = none
  calls : ∀ id b ph, (s.vs q.leader).calls id = some (b, ph) → b.hrs ≺ q.block.hrs

/-- The cluster `1..n` with threshold `t` is able to serve the request. -/
structure Able (n t : Nat) (q : Signing) : Prop where
  bytes : unpackHRST q.block.signBytes = .ok q.block.key
  nodup : q.ps.Nodup
  ids : ∀ p ∈ q.ps, 1 ≤ p ∧ p ≤ n
  quorum : t ≤ q.ps.length
  leads : q.leader ∈ q.ps

end Horcrux.Spec
