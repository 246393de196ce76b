import Verif.Spec.Node
import Verif.Props.Proxy
import Verif.Props.Remote
/-
Property C73: from the bytes of a chain node to the bytes of the answer.
-/
namespace Horcrux
open Spec

/-- What a request comes to: the block to sign, and the answer for any result. -/
theorem asks_block {chainID : Bytes} {m : PMsg} {k : HRS} {bs : Bytes} {reply : Bytes → PMsg}
    (h : Asks chainID m k bs reply) :
    m.WF ∧ ∃ b : Block, m.block chainID = some b ∧ b.hrs = k ∧ b.signBytes = bs ∧ b.Typed ∧ unpackHRST b.signBytes = .ok b.key ∧
      (∀ text key sig, handleRequest text (.threshold chainID key (fun _ => (some sig, b.timestamp, none))) m
        = some (reply sig)) ∧ ∀ sig, sig.length = 64 → (reply sig).WF := by
  cases h with
  | vote v c bs hwf hp hc ht hm hbs hsmall hfits =>
    have hst : ∃ st, voteTypeToStep v.type = .ok st ∧ st = (if v.type = 1 then 2 else 3) ∧ IsI8 st := by
      rcases ht with h | h <;> rw [h]
      · exact ⟨2, by decide, by decide, by decide⟩
      · exact ⟨3, by decide, by decide, by decide⟩
    obtain ⟨st, h1, h2, h3⟩ := hst
    have hb : voteBlock chainID v = .ok ⟨v.height, v.round, st, bs, v.timestamp⟩ := by
      unfold voteBlock; rw [h1]; simp only; rw [hbs]
    refine ⟨⟨by intro x hx; cases hx; exact hp, hc⟩, ⟨v.height, v.round, st, bs, v.timestamp⟩, ?_, ?_, rfl, ?_, ?_, ?_, ?_⟩
    · simp only [PMsg.block, hb]
    · simp only [Block.hrs, h2]
    · refine ⟨hp.height, ?_, h3, Nat.lt_of_lt_of_le hsmall (by decide)⟩
      have := hp.round
      unfold IsI32 at this; unfold IsI64; simp only; omega
    · exact C63_vote chainID v _ hwf hm hb
    · intro text key sig
      simp only [handleRequest, handleSignVote, PV.threshold, hb, finishVote]
    · intro sig hsig
      refine ⟨⟨hp.type, hp.height, hp.round, hp.block, hp.time, hp.index, ?_, ?_⟩, by intro x hx; cases hx⟩
      · simp only [ne_eq, Option.some.injEq]; rintro rfl; cases hsig
      · show _ + _ + sig.length < 2 ^ 62
        rw [hsig]
        refine Nat.lt_of_lt_of_le (Nat.add_lt_add_right hfits 64) (by decide)
  | proposal p c bs hwf hp hc hbs hsmall hfits =>
    have hb : proposalBlock chainID p = .ok ⟨p.height, p.round, stepPropose, bs, p.timestamp⟩ := by
      unfold proposalBlock; rw [hbs]
    refine ⟨⟨by intro x hx; cases hx; exact hp, hc⟩, ⟨p.height, p.round, stepPropose, bs, p.timestamp⟩, ?_, rfl, rfl, ?_, ?_, ?_, ?_⟩
    · simp only [PMsg.block, hb]
    · refine ⟨hp.height, ?_, by show IsI8 1; decide, Nat.lt_of_lt_of_le hsmall (by decide)⟩
      have := hp.round
      unfold IsI32 at this; unfold IsI64; simp only; omega
    · exact C63_proposal chainID p _ hwf hb
    · intro text key sig
      simp only [handleRequest, handleSignProposal, PV.threshold, hb, finishProposal]
    · intro sig hsig
      refine ⟨⟨hp.type, hp.height, hp.round, hp.polRound, hp.block, hp.time, ?_, ?_⟩, by intro x hx; cases hx⟩
      · simp only [ne_eq, Option.some.injEq]; rintro rfl; cases hsig
      · show _ + _ + sig.length < 2 ^ 62
        rw [hsig]
        refine Nat.lt_of_lt_of_le (Nat.add_lt_add_right hfits 64) (by decide)

theorem valid_hashes {b : BlockID} {c : Option CBlockID} (h : canonicalizeBlockID b = .ok c) :
    b.hash.length ≤ 32 ∧ b.pshHash.length ≤ 32 := by
  unfold canonicalizeBlockID at h
  split at h
  · cases h
  · rename_i hv
    simp only [BlockID.valid, Bool.and_eq_true, Bool.or_eq_true, decide_eq_true_eq, not_not] at hv
    omega

/-- The answer is short: block IDs with longer hashes than 32 bytes have no sign bytes. -/
theorem asks_reply_length {chainID : Bytes} {m : PMsg} {k : HRS} {bs : Bytes} {reply : Bytes → PMsg}
    (h : Asks chainID m k bs reply) (ha : (voterAddress m).length ≤ 9000) {sig : Bytes} (hsig : sig.length = 64) :
    (encPMsg (reply sig)).length ≤ maxRemoteSignerMsgSize := by
  cases h with
  | vote v c bs hwf hp hc ht hm hbs hsmall hfits =>
    have hv : v.blockID.hash.length ≤ 32 ∧ v.blockID.pshHash.length ≤ 32 := by
      unfold voteSignBytes at hbs
      split at hbs
      · cases hbs
      · cases hbs
      · exact valid_hashes ‹_›
    have h1 := encVarintField_le 0x08 v.type
    have h2 := encVarintField_le 0x10 v.height
    have h3 := encVarintField_le 0x18 v.round
    have h4 := encLen_le 0x22 (encBlockID v.blockID.toC)
    have h5 := encBlockID_le v.blockID.toC
    have h6 := encLen_le 0x2a (encTime v.timestamp)
    have h7 := encTime_le v.timestamp
    have h8 := encBytesField_le 0x32 v.validatorAddress
    have h9 := encVarintField_le 0x38 v.validatorIndex
    have h10 := encBytesField_le 0x42 sig
    have h11 := encLen_le 0x0a (encPVote { v with signature := some sig })
    have h12 : (encPVote { v with signature := some sig }).length ≤ 9500 := by
      simp only [voterAddress] at ha
      simp only [encPVote, Slice.bytes, Option.getD_some, BlockID.toC, List.length_append, List.length_nil] at *
      omega
    have h13 := encLen_le 0x22 (encLen 0x0a (encPVote { v with signature := some sig }) ++ (encMsgField 0x12 none ++ []))
    simp only [encPMsg, Option.map_none, maxRemoteSignerMsgSize]
    simp only [encMsgField, List.append_nil] at h13 ⊢
    omega
  | proposal p c bs hwf hp hc hbs hsmall hfits =>
    have hv : p.blockID.hash.length ≤ 32 ∧ p.blockID.pshHash.length ≤ 32 := by
      unfold proposalSignBytes at hbs
      split at hbs
      · cases hbs
      · cases hbs
      · exact valid_hashes ‹_›
    have h1 := encVarintField_le 0x08 p.type
    have h2 := encVarintField_le 0x10 p.height
    have h3 := encVarintField_le 0x18 p.round
    have h8 := encVarintField_le 0x20 p.polRound
    have h4 := encLen_le 0x2a (encBlockID p.blockID.toC)
    have h5 := encBlockID_le p.blockID.toC
    have h6 := encLen_le 0x32 (encTime p.timestamp)
    have h7 := encTime_le p.timestamp
    have h10 := encBytesField_le 0x3a sig
    have h11 := encLen_le 0x0a (encPProposal { p with signature := some sig })
    have h12 : (encPProposal { p with signature := some sig }).length ≤ 9500 := by
      simp only [encPProposal, Slice.bytes, Option.getD_some, BlockID.toC, List.length_append, List.length_nil] at *
      omega
    have h13 := encLen_le 0x32 (encLen 0x0a (encPProposal { p with signature := some sig }) ++ (encMsgField 0x12 none ++ []))
    simp only [encPMsg, Option.map_none, maxRemoteSignerMsgSize]
    simp only [encMsgField, List.append_nil] at h13 ⊢
    omega

/-- One request, given the answer of the cluster. -/
theorem serve_signed {C : Crypto} {vcfg : ValidatorCfg} {cfg : Nat → CosignerCfg} {n : Nat} {s s' : Sys} (text : Err → Bytes)
    {chainID : Bytes} {m : PMsg} (hwf : m.WF) (hl : (encPMsg m).length ≤ maxRemoteSignerMsgSize) {b : Block}
    (hb : m.block chainID = some b) {reply : Bytes → PMsg}
    (hr : ∀ text key sig, handleRequest text (.threshold chainID key (fun _ => (some sig, b.timestamp, none))) m
        = some (reply sig)) {way : Way} {id : Nat} {sig : Bytes}
    (h : s.signVia C vcfg cfg n chainID way.hops (way.req b) = (.ret id b (some sig) b.timestamp none, s')) (rest : Bytes) :
    s.serve text C vcfg cfg n chainID (writeMsg m ++ rest) way =
        (some ([.read m, .write (writeMsg (reply sig))], .live (some rest)), s') := by
  unfold Sys.serve
  simp only [readMsg_writeMsg m rest hwf hl, hb, h, VOut.result, Option.map_some, loopIter, dialPhase, servePhase, if_true]
  rw [hr text _ sig]
  simp

theorem Spec.OpenWay.servable {n t : Nat} {way : Way} (ho : OpenWay n t way) {b : Block} (hb : unpackHRST b.signBytes = .ok b.key) :
    Servable n t (way.req b) :=
  ⟨hb, ho.nodup, ho.ids, ho.quorum, ho.leads, ho.order, ho.mapOrder, ho.random⟩

/-- One request. -/
theorem serve_ok {C : Crypto} {F G : Type} [Field F] [AddCommGroup G] [Module F G] {L : Lawful C F G}
    {pair : Bytes → Bytes → Prop} {n t : Nat} {cfg : Nat → CosignerCfg} {x : F} {kc : List F} {rsaPub : Nat → Bytes}
    (hS : Setup C L pair n t cfg x kc rsaPub) (hn : 2 ≤ n)
    (h64 : ∀ pk m sig, C.verify pk m sig = true → sig.length = 64) (text : Err → Bytes) {chainID : Bytes}
    (hc : Sent chainID) {w : HRS} {s : Sys} (hs : SysBelow w s) {m : PMsg} {k : HRS} {bs : Bytes}
    {reply : Bytes → PMsg} (h : Asks chainID m k bs reply) (hw : w ≺ k) (hl : (encPMsg m).length ≤ maxRemoteSignerMsgSize)
    {way : Way} (ho : OpenWay n t way) (rest : Bytes) :
    ∃ sig s', s.serve text C ⟨t, L.pt (x • L.B)⟩ cfg n chainID (writeMsg m ++ rest) way =
        (some ([.read m, .write (writeMsg (reply sig))], .live (some rest)), s') ∧
      C.verify (L.pt (x • L.B)) bs sig = true ∧ (reply sig).WF ∧ SysBelow k s' := by
  obtain ⟨hwf, b, h1, h2, h3, h4, h5, h6, h7⟩ := asks_block h
  obtain ⟨id, sig, s', e1, e2, e3⟩ := signVia_ok hS hn h64 hs (ho.servable h5) (show w ≺ b.hrs by rw [h2]; exact hw) hc
    (show (way.req b).block.Typed from h4) ho.calls
  exact ⟨sig, s', serve_signed text hwf hl h1 h6 e1 rest, h3 ▸ e2, h7 sig (h64 _ _ _ e2), h2 ▸ e3⟩

/-- C73: the cosigners `1..n` hold the shares of one key. Chain nodes send requests to sign prevotes, precommits and
proposals, as bytes, to any nodes of the cluster, each for a later block than the one before; they reach the leader of the
time on any way, and any cosigners, at least `t`, take part; in between nodes restart, raft records arrive and cosigners are
called, for blocks up to the last one. Then every request is answered with the message it asked to sign, with nothing
changed but the signature, which verifies over the sign bytes of the message under the public key; and the chain node can read
the answer, unless the validator address in its vote (20 bytes in Tendermint) makes that longer than the 10 KB that both sides
accept. -/
theorem C73_answers {C : Crypto} {F G : Type} [Field F] [AddCommGroup G] [Module F G] {L : Lawful C F G}
    {pair : Bytes → Bytes → Prop} {n t : Nat} {cfg : Nat → CosignerCfg} {x : F} {kc : List F} {rsaPub : Nat → Bytes}
    (hS : Setup C L pair n t cfg x kc rsaPub) (hn : 2 ≤ n)
    (h64 : ∀ pk m sig, C.verify pk m sig = true → sig.length = 64) (text : Err → Bytes) (chainID : Bytes)
    (hc : Sent chainID) (w : HRS) (lv lc : Nat → SignState)
    (hv : ∀ p, (lv p).hrs ≼ w) (hcs : ∀ p, (lc p).hrs ≼ w) (ds : List Doing) (hd : DoneInOrder chainID n t w ds) :
    List.Forall₂ (fun (q : PMsg × Bytes × (Bytes → PMsg) × Bytes) a => ∃ sig,
        a = some ([.read q.1, .write (writeMsg (q.2.2.1 sig))], .live (some q.2.2.2)) ∧
        C.verify (L.pt (x • L.B)) q.2.1 sig = true ∧
        ((voterAddress q.1).length ≤ 9000 →
          ∀ more, readMsg (writeMsg (q.2.2.1 sig) ++ more) = some (q.2.2.1 sig, more)))
      (asked ds) ((Sys.start lv lc).runNode text C ⟨t, L.pt (x • L.B)⟩ cfg n chainID (ds.map Doing.ev)).1 := by
  have key : ∀ (ds : List Doing) (w : HRS) (s : Sys), SysBelow w s → DoneInOrder chainID n t w ds →
      List.Forall₂ (fun (q : PMsg × Bytes × (Bytes → PMsg) × Bytes) a => ∃ sig,
        a = some ([.read q.1, .write (writeMsg (q.2.2.1 sig))], .live (some q.2.2.2)) ∧
        C.verify (L.pt (x • L.B)) q.2.1 sig = true ∧
        ((voterAddress q.1).length ≤ 9000 →
          ∀ more, readMsg (writeMsg (q.2.2.1 sig) ++ more) = some (q.2.2.1 sig, more)))
      (asked ds) (s.runNode text C ⟨t, L.pt (x • L.B)⟩ cfg n chainID (ds.map Doing.ev)).1 := by
    intro ds
    induction ds with
    | nil => intro w s _ _; exact List.Forall₂.nil
    | cons d ds ih =>
      intro w s hs hd
      have hq := hs.quiet (C := C) (vcfg := ⟨t, L.pt (x • L.B)⟩) (cfg := cfg) (n := n)
      cases d with
      | ask m k bs reply rest way =>
        obtain ⟨h1, h2, h3, h4, h5⟩ := hd
        obtain ⟨sig, s', e1, e2, e3, e4⟩ := serve_ok hS hn h64 text hc hs h2 h1 h3 h4 rest
        simp only [asked, List.map_cons, Doing.ev, Sys.runNode, e1]
        exact List.Forall₂.cons ⟨sig, rfl, e2, fun hl more =>
          readMsg_writeMsg _ _ e3 (asks_reply_length h2 hl (h64 _ _ _ e2))⟩ (ih _ _ e4 h5)
      | sys e =>
        cases e with
        | sign q => exact absurd hd (by simp [DoneInOrder])
        | deliver p r => exact ih w _ (hq.1 p r hd.1) hd.2
        | other p op => exact ih w _ (hq.2.1 p op hd.1) hd.2
        | restart p a b => exact ih w _ (hq.2.2 p a b hd.1 hd.2.1) hd.2.2
  exact key ds w _ (SysBelow.start hv hcs) hd

/-- The answer to a request that is refused: an empty message and the text of the error. -/
inductive Spec.Refusal (reason : Bytes) : PMsg → PMsg → Prop where
  | vote (v : Option Vote) (c : Bytes) :
    Refusal reason (.signVoteRequest v c) (.signedVoteResponse .zero (some ⟨0, reason⟩))
  | proposal (p : Option Proposal) (c : Bytes) :
    Refusal reason (.signProposalRequest p c) (.signedProposalResponse .zero (some ⟨0, reason⟩))

/-- C73, a request that the cluster refuses: whatever the state of the cluster, if the call made for the request ends with
an error then the chain node is told the error and gets no signature, and the connection stays open. -/
theorem C73_refused (C : Crypto) (vcfg : ValidatorCfg) (cfg : Nat → CosignerCfg) (n : Nat) (text : Err → Bytes)
    (chainID : Bytes) (s s' : Sys) (m : PMsg) (k : HRS) (bs : Bytes) (reply : Bytes → PMsg) (h : Asks chainID m k bs reply)
    (hl : (encPMsg m).length ≤ maxRemoteSignerMsgSize) (way : Way) (rest : Bytes) (id : Nat) (b b' : Block) (sig : Slice)
    (ts : GoTime) (e : Err) (hb : m.block chainID = some b)
    (hr : s.signVia C vcfg cfg n chainID way.hops (way.req b) = (.ret id b' sig ts (some e), s')) :
    ∃ r, Refusal (text e) m r ∧ s.serve text C vcfg cfg n chainID (writeMsg m ++ rest) way =
      (some ([.read m, .write (writeMsg r)], .live (some rest)), s') := by
  obtain ⟨hwf, _⟩ := asks_block h
  cases h with
  | vote v c bs =>
    refine ⟨_, .vote (some v) c, ?_⟩
    have hv : ∃ b, voteBlock chainID v = .ok b := by
      simp only [PMsg.block] at hb
      split at hb
      · exact ⟨_, by assumption⟩
      · cases hb
    obtain ⟨b2, hv⟩ := hv
    unfold Sys.serve
    simp only [readMsg_writeMsg _ rest hwf hl, hb, hr, VOut.result, Option.map_some, loopIter, dialPhase, servePhase, if_true,
      handleRequest, handleSignVote, PV.threshold, hv, remoteSignerError]
    simp
  | proposal p c bs =>
    refine ⟨_, .proposal (some p) c, ?_⟩
    have hv : ∃ b, proposalBlock chainID p = .ok b := by
      simp only [PMsg.block] at hb
      split at hb
      · exact ⟨_, by assumption⟩
      · cases hb
    obtain ⟨b2, hv⟩ := hv
    unfold Sys.serve
    simp only [readMsg_writeMsg _ rest hwf hl, hb, hr, VOut.result, Option.map_some, loopIter, dialPhase, servePhase, if_true,
      handleRequest, handleSignProposal, PV.threshold, hv, remoteSignerError]
    simp

/-- C73, other requests: pings and requests for the public key are answered at once, and bytes that are no message end the
connection; none of them touches the cluster. -/
theorem C73_others (C : Crypto) (vcfg : ValidatorCfg) (cfg : Nat → CosignerCfg) (n : Nat) (text : Err → Bytes)
    (chainID : Bytes) (s : Sys) (way : Way) (rest : Bytes) :
    s.serve text C vcfg cfg n chainID (writeMsg .pingRequest ++ rest) way =
        (some ([.read .pingRequest, .write (writeMsg .pingResponse)], .live (some rest)), s) ∧
    (∀ c, c.length < 2 ^ 62 → (encPMsg (.pubKeyRequest c)).length ≤ maxRemoteSignerMsgSize →
      s.serve text C vcfg cfg n chainID (writeMsg (.pubKeyRequest c) ++ rest) way =
        (some ([.read (.pubKeyRequest c), .write (writeMsg (.pubKeyResponse (.ed25519 vcfg.pubKey) none))],
          .live (some rest)), s)) ∧
    (∀ stream, readMsg stream = none →
      s.serve text C vcfg cfg n chainID stream way = (some ([.close], .live none), s)) := by
  refine ⟨?_, fun c hc hl => ?_, fun stream h => ?_⟩
  · unfold Sys.serve
    simp only [readMsg_writeMsg .pingRequest rest (by trivial) (by decide +kernel), PMsg.block, loopIter, dialPhase,
      servePhase, if_true, handleRequest]
    simp
  · unfold Sys.serve
    simp only [readMsg_writeMsg (.pubKeyRequest c) rest hc hl, PMsg.block, loopIter, dialPhase,
      servePhase, if_true, handleRequest, handlePubKey, PV.threshold]
    simp
  · unfold Sys.serve
    simp only [h, loopIter, dialPhase, servePhase, if_true]
    simp

/-- Concretely: a chain node asks node 2 of the 2-of-3 cluster to sign a precommit; node 2 passes the request on to the
leader 3, who signs with 1. Then node 1 restarts with an old sign state, and another chain node asks the leader 2 for a
proposal. -/
def fway (hops : List (Nat × Nat)) (id leader : Nat) (ps : List Nat) : Way :=
  ⟨hops, id, leader, ps, fun _ => [2, 1, 3], fun _ => ps, trnd, fun _ => trnd 9⟩

def fprop : Proposal := ⟨32, 9, 0, -1, ⟨List.replicate 32 5, 1, List.replicate 32 6⟩, ⟨1600000003, 7⟩, none⟩

def fpropBytes : Bytes := match proposalSignBytes [97] fprop with | .ok b => b | _ => []

def fdoing : List Doing :=
  [.ask (.signVoteRequest (some vote1) [97]) ⟨7, 1, 3⟩ b1 (fun sig => .signedVoteResponse { vote1 with signature := some sig } none)
      [1, 2, 3] (fway [(2, 5)] 0 3 [3, 1]),
    .sys (.restart 1 .empty .empty),
    .ask (.signProposalRequest (some fprop) []) ⟨9, 0, 1⟩ fpropBytes
      (fun sig => .signedProposalResponse { fprop with signature := some sig } none) [] (fway [] 1 2 [2, 1])]

theorem fway_open (hops : List (Nat × Nat)) (id leader : Nat) (ps : List Nat)
    (h1 : ps.Nodup) (h2 : ∀ p ∈ ps, 1 ≤ p ∧ p ≤ 3) (h3 : 2 ≤ ps.length) (h4 : leader ∈ ps)
    (h5 : ((leader, id) :: hops).Nodup) : OpenWay 3 2 (fway hops id leader ps) :=
  ⟨h1, h2, h3, h4, fun _ => show ([2, 1, 3] : List Int).Perm ((List.range' 1 3).map (fun i : Nat => (i : Int))) by decide,
    fun _ => List.Perm.refl _, fun p _ => ⟨UInt8.ofNat p :: List.replicate 31 0, rfl, by simp⟩, h5⟩

example : DoneInOrder [97] 3 2 ⟨0, 0, 0⟩ fdoing := by
  refine ⟨by decide, ?_, by decide +kernel, fway_open _ _ _ _ (by decide) (by decide) (by decide) (by decide) (by decide),
    by decide, by decide, by decide, ?_, by decide +kernel,
    fway_open _ _ _ _ (by decide) (by decide) (by decide) (by decide) (by decide), trivial⟩
  · exact .vote vote1 [97] b1 sampleVote_wf
      ⟨by decide, by decide, by decide, by decide, by decide, by decide, by decide, by decide⟩ (by decide) (.inr rfl)
      (by simp [Vote.MistakenForProposal, vote1, sampleVote]) rfl (by decide +kernel) (by decide +kernel)
  · exact .proposal fprop [] fpropBytes ⟨by decide, by decide, by decide, by decide, by decide⟩
      ⟨by decide, by decide, by decide, by decide, by decide, by decide, by decide, by decide⟩ (by decide)
      (by decide +kernel) (by decide +kernel) (by decide +kernel)

example : ((Sys.start (fun _ => .empty) (fun _ => .empty)).runNode (fun _ => []) ftoy ⟨2, fsc (42 • 1)⟩ fcfg 3 [97]
    (fdoing.map Doing.ev)).1.map (fun a => a.map fun x => (x.1.length, x.2)) =
    [some (2, .live (some [1, 2, 3])), some (2, .live (some []))] := by
  decide +kernel

/-- Concretely: after a proposal at height 9 was signed, a precommit at height 7, asked of node 1, is refused. -/
example : ((Sys.start (fun _ => .empty) (fun _ => .empty)).runNode (fun _ => [33]) ftoy ⟨2, fsc (42 • 1)⟩ fcfg 3 [97]
    [.bytes (writeMsg (.signProposalRequest (some fprop) [])) (fway [] 1 2 [2, 1]),
      .bytes (writeMsg (.signVoteRequest (some vote1) [97]) ++ [7]) (fway [(1, 4)] 2 2 [2, 1])]).1[1]? =
    some (some ([.read (.signVoteRequest (some vote1) [97]), .write (writeMsg (.signedVoteResponse .zero (some ⟨0, [33]⟩)))],
      .live (some [7]))) := by
  decide +kernel

end Horcrux
