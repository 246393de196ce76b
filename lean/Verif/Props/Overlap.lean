import Verif.Lemmas.Overlap
/-
Property C105: what chain nodes get when everything overlaps.
-/
namespace Horcrux
open Spec

section
variable {C : Crypto} {vcfg : ValidatorCfg} {cfg : Nat → CosignerCfg} {n : Nat}

/-- C105: the requests of chain nodes are for blocks whose sign bytes are for their own height, round, step and time. -/
theorem C105_requests (chainID : Bytes) (hc : ChainOk chainID) (stream rest : Bytes) (m : PMsg)
    (hm : readMsg stream = some (m, rest)) (b : Block) (hb : m.block chainID = some b) :
    b.Typed ∧ unpackHRST b.signBytes = .ok b.key :=
  have h := read_block hc (readMsg_readOk hm) hb
  ⟨h.1, h.2.1⟩

/-- What is given out in a state of the invariant. -/
theorem NSafe.given {t : Nat} {faulty : Finset Nat} {k : HRS} {s : Net} (h : NSafe C vcfg.pubKey n t faulty k s)
    (h64 : ∀ pk m sig, C.verify pk m sig = true → sig.length = 64) {text : Err → Bytes}
    (htext : ∀ e, (text e).length < 2 ^ 62) {chainID : Bytes} (hc : ChainOk chainID) {m : PMsg}
    (hg : Gets text vcfg.pubKey chainID s m) :
    ∃ outs, Reads outs m ∧ GivenTo C vcfg.pubKey chainID k (fun bs => ForBlock k bs ∧ SharedBy n t s bs) outs := by
  obtain ⟨stream, req, rest, b, p, id, sig, stamp, err, h1, h2, h3, h4⟩ := hg
  refine ⟨_, h4, ?_⟩
  refine given_of_ret (vcfg := vcfg) h64 htext hc h1 h2 (.ret id b sig stamp err) ?_
  intro id' b' sig' stamp' he
  simp only [VOut.ret.injEq] at he
  obtain ⟨rfl, rfl, rfl, rfl, rfl⟩ := he
  obtain ⟨g1, g2⟩ := h.outs _ _ _ _ _ h3
  exact ⟨g1, g2⟩

/-- **C105**: as `C102_votes`, in clusters in which everything overlaps: any number of calls on all nodes at once, whichever nodes
take themselves for the leader, the steps of all cosigners in any order, answers that arrive late or are lost, requests that are
passed on from node to node, raft records in any order, restarts at any time (`Verif.Model.Overlap`). Up to `f` of the `n`
cosigners are `faulty`: their files may hold anything whenever they start, and anything may be answered in their name. If
`n + f < 2t`, then no two answers that chain nodes read hold signed votes of one type for one height and round and two
blocks. -/
theorem C105_votes (t f : Nat) (hnt : n + f < 2 * t) (hV : vcfg.threshold = t) (faulty : Finset Nat) (hf : faulty.card ≤ f)
    (h64 : ∀ pk m sig, C.verify pk m sig = true → sig.length = 64) (text : Err → Bytes)
    (htext : ∀ e, (text e).length < 2 ^ 62) (chainID : Bytes) (hc : ChainOk chainID)
    (v v' : Vote) (htype : v.type = v'.type) (hheight : v.height = v'.height) (hround : v.round = v'.round)
    (old : List SSC) (lv lc : Nat → SignState)
    (hold : ∀ r ∈ old, ∀ sig, r.signature = some sig → C.verify vcfg.pubKey r.signBytes.bytes sig = true ∧
      r.hrs ≠ ⟨v.height, v.round, if v.type = 1 then 2 else 3⟩)
    (hlv : ∀ p h r, (lv p).cache h = some r → r.hrs = h ∧ r ∈ old) (es : List NetEv) (s : Net)
    (hr : Runs C vcfg cfg n chainID faulty ⟨v.height, v.round, if v.type = 1 then 2 else 3⟩ (Net.start lv lc old) es s)
    (hv : Gets text vcfg.pubKey chainID s (.signedVoteResponse v none))
    (hv' : Gets text vcfg.pubKey chainID s (.signedVoteResponse v' none))
    (hs : v.signature ≠ none) (hs' : v'.signature ≠ none) : v.blockID = v'.blockID := by
  have h := NSafe.runs hr (t := t) (NSafe.start hold hlv) hV h64 (Nat.lt_of_lt_of_le hc.1 (by decide))
  obtain ⟨outs, a1, a2⟩ := h.given h64 htext hc hv
  obtain ⟨outs', b1, b2⟩ := h.given h64 htext hc hv'
  exact a2.same_vote b2 (fun bs bs' h1 h2 => h.agree hnt hf h1.1 h2.1 h1.2 h2.2) htype hheight hround a1 b1 hs hs'

/-- C105: every signed vote that a chain node reads has a signature that verifies. -/
theorem C105_verify (t : Nat) (hV : vcfg.threshold = t) (faulty : Finset Nat)
    (h64 : ∀ pk m sig, C.verify pk m sig = true → sig.length = 64) (text : Err → Bytes)
    (htext : ∀ e, (text e).length < 2 ^ 62) (chainID : Bytes) (hc : ChainOk chainID) (k : HRS)
    (old : List SSC) (lv lc : Nat → SignState)
    (hold : ∀ r ∈ old, ∀ sig, r.signature = some sig → C.verify vcfg.pubKey r.signBytes.bytes sig = true ∧ r.hrs ≠ k)
    (hlv : ∀ p h r, (lv p).cache h = some r → r.hrs = h ∧ r ∈ old) (es : List NetEv) (s : Net)
    (hr : Runs C vcfg cfg n chainID faulty k (Net.start lv lc old) es s) (v : Vote)
    (hv : Gets text vcfg.pubKey chainID s (.signedVoteResponse v none)) (hs : v.signature ≠ none) :
    ∃ bs sig, voteSignBytes chainID v = .ok bs ∧ v.signature = some sig ∧ C.verify vcfg.pubKey bs sig = true := by
  have h := NSafe.runs hr (t := t) (NSafe.start hold hlv) hV h64 (Nat.lt_of_lt_of_le hc.1 (by decide))
  obtain ⟨outs, a1, a2⟩ := h.given h64 htext hc hv
  obtain ⟨st, bs, sig, b1, b2, b3, b4, b5, b6⟩ := a2.votes v a1 hs
  exact ⟨bs, sig, b2, b3, b4⟩

/-- C105: a signature for the block `k` that a chain node reads in a vote was made of the share signatures of at least a threshold
of cosigners over the sign bytes of that vote. -/
theorem C105_shared (t : Nat) (hV : vcfg.threshold = t) (faulty : Finset Nat)
    (h64 : ∀ pk m sig, C.verify pk m sig = true → sig.length = 64) (text : Err → Bytes)
    (htext : ∀ e, (text e).length < 2 ^ 62) (chainID : Bytes) (hc : ChainOk chainID) (v : Vote)
    (old : List SSC) (lv lc : Nat → SignState)
    (hold : ∀ r ∈ old, ∀ sig, r.signature = some sig → C.verify vcfg.pubKey r.signBytes.bytes sig = true ∧
      r.hrs ≠ ⟨v.height, v.round, if v.type = 1 then 2 else 3⟩)
    (hlv : ∀ p h r, (lv p).cache h = some r → r.hrs = h ∧ r ∈ old) (es : List NetEv) (s : Net)
    (hr : Runs C vcfg cfg n chainID faulty ⟨v.height, v.round, if v.type = 1 then 2 else 3⟩ (Net.start lv lc old) es s)
    (hv : Gets text vcfg.pubKey chainID s (.signedVoteResponse v none)) (hs : v.signature ≠ none) :
    ∃ bs, voteSignBytes chainID v = .ok bs ∧ SharedBy n t s bs := by
  have h := NSafe.runs hr (t := t) (NSafe.start hold hlv) hV h64 (Nat.lt_of_lt_of_le hc.1 (by decide))
  obtain ⟨outs, a1, a2⟩ := h.given h64 htext hc hv
  obtain ⟨st, bs, sig, b1, b2, b3, b4, b5, b6⟩ := a2.votes v a1 hs
  have hst : st = if v.type = 1 then 2 else 3 := by
    unfold voteTypeToStep at b1
    split at b1
    · next h1 => simp only [Out.ok.injEq] at b1; subst b1; rw [if_pos h1]; rfl
    · next h1 =>
      split at b1
      · simp only [Out.ok.injEq] at b1; subst b1; rw [if_neg h1]; rfl
      · cases b1
  exact ⟨bs, b2, (b6 (by rw [hst])).2⟩

/-- C105 for proposals, as `C102_proposals`. -/
theorem C105_proposals (t f : Nat) (hnt : n + f < 2 * t) (hV : vcfg.threshold = t) (faulty : Finset Nat) (hf : faulty.card ≤ f)
    (h64 : ∀ pk m sig, C.verify pk m sig = true → sig.length = 64) (text : Err → Bytes)
    (htext : ∀ e, (text e).length < 2 ^ 62) (chainID : Bytes) (hc : ChainOk chainID)
    (p p' : Proposal) (hheight : p.height = p'.height) (hround : p.round = p'.round)
    (old : List SSC) (lv lc : Nat → SignState)
    (hold : ∀ r ∈ old, ∀ sig, r.signature = some sig → C.verify vcfg.pubKey r.signBytes.bytes sig = true ∧
      r.hrs ≠ ⟨p.height, p.round, 1⟩)
    (hlv : ∀ q h r, (lv q).cache h = some r → r.hrs = h ∧ r ∈ old) (es : List NetEv) (s : Net)
    (hr : Runs C vcfg cfg n chainID faulty ⟨p.height, p.round, 1⟩ (Net.start lv lc old) es s)
    (hp : Gets text vcfg.pubKey chainID s (.signedProposalResponse p none))
    (hp' : Gets text vcfg.pubKey chainID s (.signedProposalResponse p' none))
    (sig sig' bs bs' : Bytes) (hs : p.signature = some sig) (hs' : p'.signature = some sig')
    (hbs : proposalSignBytes chainID p = .ok bs) (hbs' : proposalSignBytes chainID p' = .ok bs')
    (hver : C.verify vcfg.pubKey bs sig = true) (hver' : C.verify vcfg.pubKey bs' sig' = true) :
    (p.blockID = p'.blockID ∧ p.polRound = p'.polRound) ∨ ForTwoMessages C vcfg.pubKey sig ∨
      ForTwoMessages C vcfg.pubKey sig' := by
  have h := NSafe.runs hr (t := t) (NSafe.start hold hlv) hV h64 (Nat.lt_of_lt_of_le hc.1 (by decide))
  obtain ⟨outs, a1, a2⟩ := h.given h64 htext hc hp
  obtain ⟨outs', b1, b2⟩ := h.given h64 htext hc hp'
  exact a2.same_proposal b2 (fun bs bs' h1 h2 => h.agree hnt hf h1.1 h2.1 h1.2 h2.2) hheight hround a1 b1 hs hs' hbs hbs'
    hver hver'

end

/-! ### A run with two leaders -/

/-- The calls for secret parts, at the cosigner of `p`. -/
def ogets (p : Nat) (k : HRST) : List NetEv :=
  ([1, 2, 3] : List Int).filterMap fun i => if i = (p : Int) then none else
    some (.cos p (.getPart ⟨i, k.height, k.round, k.step, GoTime.ofUnixNano k.timestamp⟩ (trnd p 0)))

/-- The part of `q` for `p` comes to `p`. -/
def osets (p q : Nat) (k : HRST) : List NetEv :=
  match getParts ftoy (fcfg q) k [1, 2, 3] (trnd q) (CState.start .empty) with
  | (.ok l, _) => l.filterMap fun x => if x.destinationID = (p : Int) then some (.cos p (.setPart (x.toSetReq k) (trnd 9 0))) else none
  | _ => []

/-- Node 2 is asked for the block `b` and passes it on to node 3, which takes itself for the leader. At the same time node 1, which
takes itself for the leader too, is asked for the block `b'`. Their rounds use the same nonces. Cosigner 3 signs `b`, cosigner 2
signs `b'`, and cosigner 1 is asked for both, for `b` first. So the round of node 1 fails. The answer of node 3 is passed back to
node 2, and node 3 is asked for `b` and for `b'` again. -/
def oevs (b b' : Block) : List NetEv :=
  [.call 2 5 b .follower, .passOn 2 5 3 0 .leader, .call 1 0 b' .leader] ++
  ogets 3 b.key ++ ogets 1 b.key ++ ogets 2 b.key ++
  osets 3 1 b.key ++ [.cos 3 (.sign b.signBytes), .answer 3 0 0] ++
  osets 1 3 b.key ++ osets 2 1 b.key ++
  [.cos 2 (.sign b'.signBytes), .answer 1 0 1,
   .cos 1 (.sign b.signBytes), .cos 1 (.sign b'.signBytes), .assemble 1 0,
   .answer 3 0 2, .assemble 3 0, .save 3 0, .emit 3 0, .reply 2 5 1,
   .call 3 1 b .leader, .poll 3 1, .call 3 2 b' .leader, .poll 3 2]

def ostart : Net := Net.start (fun _ => .empty) (fun _ => .empty) []

def oend (b b' : Block) : Option Net := ostart.run ftoy ⟨2, fsc (42 • 1)⟩ fcfg 3 [97] (oevs b b')

/-- The block of a request. -/
def blockOf (m : PMsg) : Block := (m.block [97]).getD ⟨0, 0, 0, [], .zero⟩

/-- What a chain node that sent `m` reads of the answer number `i`. -/
def oread (s : Net) (m : PMsg) (i : Nat) : Option PMsg :=
  match s.outs[i]? with
  | some (_, .ret _ b sig stamp err) =>
    if m.block [97] = some b ∧ readMsg (writeMsg m) = some (m, []) then
      (signedIn [some (loopIter (fun _ => []) ⟨true, 0, [], true, .threshold [97] (fsc (42 • 1)) (fun _ => (sig, stamp, err)), true⟩
        (.live (some (writeMsg m))))]).head?
    else none
  | _ => none

theorem oread_gets {s : Net} {m m' : PMsg} {i : Nat} (h : oread s m i = some m') :
    Gets (fun _ => []) (fsc (42 • 1)) [97] s m' := by
  unfold oread at h
  split at h
  · next p id b sig stamp err ho =>
    split at h
    · next hb =>
      exact ⟨writeMsg m, m, [], b, p, id, sig, stamp, err, hb.2, hb.1, List.mem_of_getElem? ho,
        signedIn_reads (List.mem_of_head? h)⟩
    · cases h
  · cases h

/-- Runs without lies and restarts, with calls for proper blocks. -/
theorem runs_of {C : Crypto} {vcfg : ValidatorCfg} {cfg : Nat → CosignerCfg} {n : Nat} {chainID : Bytes} {faulty : Finset Nat} {k : HRS}
    {s0 s1 : Net} {es0 : List NetEv} (h0 : Runs C vcfg cfg n chainID faulty k s0 es0 s1) : ∀ (es : List NetEv) (s2 : Net),
    s1.run C vcfg cfg n chainID es = some s2 → (∀ e ∈ es, ∀ s, Granted faulty k s e) →
      Runs C vcfg cfg n chainID faulty k s0 (es0 ++ es) s2 := by
  intro es
  induction es generalizing s1 es0 with
  | nil =>
    intro s2 h _
    simp only [Net.run, Option.some.injEq] at h
    subst h
    rw [List.append_nil]
    exact h0
  | cons e es ih =>
    intro s2 h hg
    simp only [Net.run] at h
    cases hs : s1.step C vcfg cfg n chainID e with
    | none => rw [hs] at h; cases h
    | some s' =>
      rw [hs, Option.bind_some] at h
      have := ih (h0.snoc (hg e (List.mem_cons_self ..) s1) hs) s2 h fun e' he => hg e' (List.mem_cons_of_mem _ he)
      rwa [List.append_assoc] at this

theorem oevs_granted (b b' : Block) (hb : b.Typed ∧ unpackHRST b.signBytes = .ok b.key)
    (hb' : b'.Typed ∧ unpackHRST b'.signBytes = .ok b'.key) (faulty : Finset Nat) (k : HRS) :
    ∀ e ∈ oevs b b', ∀ s, Granted faulty k s e := by
  have hset : ∀ p q k', ∀ e ∈ osets p q k', ∀ s, Granted faulty k s e := by
    intro p q k' e he s
    unfold osets at he
    split at he
    · obtain ⟨x, _, hx⟩ := List.mem_filterMap.1 he
      split at hx
      · rw [← Option.some.inj hx]; trivial
      · cases hx
    · cases he
  have hget : ∀ p k', ∀ e ∈ ogets p k', ∀ s, Granted faulty k s e := by
    intro p k' e he s
    obtain ⟨x, _, hx⟩ := List.mem_filterMap.1 he
    split at hx
    · cases hx
    · rw [← Option.some.inj hx]; trivial
  intro e he s
  simp only [oevs, List.mem_append] at he
  rcases he with (((((((he | he) | he) | he) | he) | he) | he) | he) | he
  · simp only [List.mem_cons, List.not_mem_nil, or_false] at he
    rcases he with rfl | rfl | rfl <;> trivial
  · exact hget _ _ _ he s
  · exact hget _ _ _ he s
  · exact hget _ _ _ he s
  · exact hset _ _ _ _ he s
  · simp only [List.mem_cons, List.not_mem_nil, or_false] at he
    rcases he with rfl | rfl <;> trivial
  · exact hset _ _ _ _ he s
  · exact hset _ _ _ _ he s
  · simp only [List.mem_cons, List.not_mem_nil, or_false] at he
    rcases he with rfl | rfl | rfl | rfl | rfl | rfl | rfl | rfl | rfl | rfl | rfl | rfl | rfl | rfl <;>
      trivial

/-- After that node 2 ends and starts again, with what it wrote. -/
theorem oruns (b b' : Block) (hb : b.Typed ∧ unpackHRST b.signBytes = .ok b.key)
    (hb' : b'.Typed ∧ unpackHRST b'.signBytes = .ok b'.key) (k : HRS) (s : Net) (h : oend b b' = some s) :
    ∃ s', Runs ftoy ⟨2, fsc (42 • 1)⟩ fcfg 3 [97] ∅ k ostart (oevs b b' ++ [.restart 2 .empty (s.cs 2).lss]) s' ∧
      s'.outs = s.outs ∧ s'.sent = s.sent := by
  have h1 := runs_of (Runs.nil (C := ftoy) (vcfg := ⟨2, fsc (42 • 1)⟩) (cfg := fcfg) (n := 3) (chainID := [97]) (faulty := ∅) (k := k)
    ostart) (oevs b b') s h (oevs_granted b b' hb hb' ∅ k)
  refine ⟨_, h1.snoc (e := .restart 2 .empty (s.cs 2).lss) ⟨(by intro h r hr; cases hr), fun _ hk => ?_⟩ rfl, rfl, rfl⟩
  rcases hk with hk | hk
  · exact Or.inr ⟨hk.symm, hk.symm, rfl⟩
  · exact Or.inl hk

theorem proper (m : PMsg) (h : ((m.block [97]).isSome && decide (readMsg (writeMsg m) = some (m, []))) = true) :
    (blockOf m).Typed ∧ unpackHRST (blockOf m).signBytes = .ok (blockOf m).key := by
  simp only [Bool.and_eq_true, decide_eq_true_eq] at h
  obtain ⟨b, hb⟩ := Option.isSome_iff_exists.1 h.1
  have : blockOf m = b := by unfold blockOf; rw [hb]; rfl
  rw [this]
  exact C105_requests [97] ⟨by decide, by decide, by decide⟩ _ _ _ h.2 b hb

/-- The answers: node 1 fails; nodes 3 and 2 sign; node 3 signs again, and refuses the other block. Every cosigner signed once. -/
example : (oend (blockOf (.signVoteRequest (some vote1) [97])) (blockOf (.signVoteRequest (some vote1x) [97]))).map (fun s =>
    (s.outs.map fun o => match o.2 with | .ret id _ sig _ e => (o.1, id, sig.isSome, e.isSome) | _ => (0, 0, false, false),
     s.sent.map fun x => (x.1, x.2.1 == b1))) =
    some ([(1, 0, false, true), (3, 0, true, false), (2, 5, true, false), (3, 1, true, false), (3, 2, false, true)],
      [(3, true), (2, false), (1, true)]) := by
  decide +kernel

/-- And so the votes that the chain nodes read are for one block; it was signed by a threshold. -/
example : ∃ es s v v', Runs ftoy ⟨2, fsc (42 • 1)⟩ fcfg 3 [97] ∅ ⟨7, 1, 3⟩ ostart es s ∧
    Gets (fun _ => []) (fsc (42 • 1)) [97] s (.signedVoteResponse v none) ∧
    Gets (fun _ => []) (fsc (42 • 1)) [97] s (.signedVoteResponse v' none) ∧ v.blockID = v'.blockID ∧
    (∃ bs sig, voteSignBytes [97] v = .ok bs ∧ v.signature = some sig ∧ ftoy.verify (fsc (42 • 1)) bs sig = true) ∧
    ∃ bs, voteSignBytes [97] v = .ok bs ∧ SharedBy 3 2 s bs := by
  have pick : ∀ i : Nat, ((oend (blockOf (.signVoteRequest (some vote1) [97])) (blockOf (.signVoteRequest (some vote1x) [97]))).elim false
      fun s => match oread s (.signVoteRequest (some vote1) [97]) i with
        | some (.signedVoteResponse v none) => v.signature.isSome && decide (v.type = 2 ∧ v.height = 7 ∧ v.round = 1)
        | _ => false) = true →
      ∀ s, oend (blockOf (.signVoteRequest (some vote1) [97])) (blockOf (.signVoteRequest (some vote1x) [97])) = some s →
      ∃ v, oread s (.signVoteRequest (some vote1) [97]) i = some (.signedVoteResponse v none) ∧ v.signature ≠ none ∧ v.type = 2 ∧
        v.height = 7 ∧ v.round = 1 := by
    intro i h s hs
    rw [hs] at h
    simp only [Option.elim_some] at h
    split at h
    · next v hv =>
      simp only [Bool.and_eq_true, decide_eq_true_eq] at h
      refine ⟨v, hv, ?_, h.2.1, h.2.2.1, h.2.2.2⟩
      intro hn; rw [hn] at h; simp at h
    · cases h
  obtain ⟨s, hs⟩ := Option.isSome_iff_exists.1 (show (oend (blockOf (.signVoteRequest (some vote1) [97]))
    (blockOf (.signVoteRequest (some vote1x) [97]))).isSome = true by decide +kernel)
  obtain ⟨v, h1, h2, h3, h4, h5⟩ := pick 1 (by decide +kernel) s hs
  obtain ⟨v', g1, g2, g3, g4, g5⟩ := pick 2 (by decide +kernel) s hs
  obtain ⟨s', hr, e1, e2⟩ := oruns _ _ (proper _ (by decide +kernel)) (proper _ (by decide +kernel)) ⟨7, 1, 3⟩ s hs
  have h1' : oread s' (.signVoteRequest (some vote1) [97]) 1 = some (.signedVoteResponse v none) := by
    unfold oread at h1 ⊢; rw [e1]; exact h1
  have g1' : oread s' (.signVoteRequest (some vote1) [97]) 2 = some (.signedVoteResponse v' none) := by
    unfold oread at g1 ⊢; rw [e1]; exact g1
  refine ⟨_, s', v, v', hr, oread_gets h1', oread_gets g1', ?_, ?_, ?_⟩
  · exact C105_votes (C := ftoy) (vcfg := ⟨2, fsc (42 • 1)⟩) (cfg := fcfg) (n := 3) 2 0 (by decide) rfl ∅ (by decide) ftoy64 (fun _ => []) (by intro; simp) [97] ⟨by decide, by decide, by decide⟩
      v v' (h3.trans g3.symm) (h4.trans g4.symm) (h5.trans g5.symm) [] (fun _ => .empty) (fun _ => .empty) (by simp) (by intro p h r hc; cases hc) _ s'
      (by rw [h3, h4, h5]; exact hr) (oread_gets h1') (oread_gets g1') h2 g2
  · exact C105_verify 2 rfl ∅ ftoy64 (fun _ => []) (by intro; simp) [97] ⟨by decide, by decide, by decide⟩ ⟨7, 1, 3⟩ [] (fun _ => .empty) (fun _ => .empty) (by simp)
      (by intro p h r hc; cases hc) _ s' hr v (oread_gets h1') h2
  · exact C105_shared 2 rfl ∅ ftoy64 (fun _ => []) (by intro; simp) [97] ⟨by decide, by decide, by decide⟩ v [] (fun _ => .empty) (fun _ => .empty) (by simp)
      (by intro p h r hc; cases hc) _ s' (by rw [h3, h4, h5]; exact hr) (oread_gets h1') h2

/-- The same with proposals. -/
example : ∃ es s p p' sig sig', Runs ftoy ⟨2, fsc (42 • 1)⟩ fcfg 3 [97] ∅ ⟨9, 0, 1⟩ ostart es s ∧
    Gets (fun _ => []) (fsc (42 • 1)) [97] s (.signedProposalResponse p none) ∧
    Gets (fun _ => []) (fsc (42 • 1)) [97] s (.signedProposalResponse p' none) ∧ p.signature = some sig ∧ p'.signature = some sig' ∧
    ((p.blockID = p'.blockID ∧ p.polRound = p'.polRound) ∨ ForTwoMessages ftoy (fsc (42 • 1)) sig ∨
      ForTwoMessages ftoy (fsc (42 • 1)) sig') := by
  have pick : ∀ i : Nat, ((oend (blockOf (.signProposalRequest (some fprop) [97]))
      (blockOf (.signProposalRequest (some { fprop with blockID := vote1x.blockID }) [97]))).elim false
      fun s => match oread s (.signProposalRequest (some fprop) [97]) i with
        | some (.signedProposalResponse p none) => (match p.signature with
          | some sig => decide (p.height = 9 ∧ p.round = 0) && decide (proposalSignBytes [97] p = .ok fpropBytes) &&
              ftoy.verify (fsc (42 • 1)) fpropBytes sig
          | none => false)
        | _ => false) = true →
      ∀ s, oend (blockOf (.signProposalRequest (some fprop) [97]))
        (blockOf (.signProposalRequest (some { fprop with blockID := vote1x.blockID }) [97])) = some s →
      ∃ p sig, oread s (.signProposalRequest (some fprop) [97]) i = some (.signedProposalResponse p none) ∧ p.signature = some sig ∧
        p.height = 9 ∧ p.round = 0 ∧ proposalSignBytes [97] p = .ok fpropBytes ∧ ftoy.verify (fsc (42 • 1)) fpropBytes sig = true := by
    intro i h s hs
    rw [hs] at h
    simp only [Option.elim_some] at h
    split at h
    · next p hp =>
      split at h
      · next sig hsig =>
        simp only [Bool.and_eq_true, decide_eq_true_eq] at h
        exact ⟨p, sig, hp, hsig, h.1.1.1, h.1.1.2, h.1.2, h.2⟩
      · cases h
    · cases h
  obtain ⟨s, hs⟩ := Option.isSome_iff_exists.1 (show (oend (blockOf (.signProposalRequest (some fprop) [97]))
    (blockOf (.signProposalRequest (some { fprop with blockID := vote1x.blockID }) [97]))).isSome = true by decide +kernel)
  obtain ⟨p, sig, h1, h2, h3, h4, h5, h6⟩ := pick 1 (by decide +kernel) s hs
  obtain ⟨p', sig', g1, g2, g3, g4, g5, g6⟩ := pick 2 (by decide +kernel) s hs
  obtain ⟨s', hr, e1, e2⟩ := oruns _ _ (proper _ (by decide +kernel)) (proper _ (by decide +kernel)) ⟨9, 0, 1⟩ s hs
  have h1' : oread s' (.signProposalRequest (some fprop) [97]) 1 = some (.signedProposalResponse p none) := by
    unfold oread at h1 ⊢; rw [e1]; exact h1
  have g1' : oread s' (.signProposalRequest (some fprop) [97]) 2 = some (.signedProposalResponse p' none) := by
    unfold oread at g1 ⊢; rw [e1]; exact g1
  refine ⟨_, s', p, p', sig, sig', hr, oread_gets h1', oread_gets g1', h2, g2, ?_⟩
  exact C105_proposals (C := ftoy) (vcfg := ⟨2, fsc (42 • 1)⟩) (cfg := fcfg) (n := 3) 2 0 (by decide) rfl ∅ (by decide) ftoy64 (fun _ => []) (by intro; simp) [97] ⟨by decide, by decide, by decide⟩
    p p' (h3.trans g3.symm) (h4.trans g4.symm) [] (fun _ => .empty) (fun _ => .empty) (by simp) (by intro p h r hc; cases hc) _ s'
    (by rw [h3, h4]; exact hr) (oread_gets h1') (oread_gets g1') sig sig' fpropBytes fpropBytes h2 g2 h5 g5 h6 g6

section
variable {C : Crypto} {vcfg : ValidatorCfg} {cfg : Nat → CosignerCfg} {n : Nat}

/-! ### Requests one after the other are among these runs -/

/-- Another state of a cosigner. -/
def Net.setC (s : Net) (p : Nat) (c : CState) : Net := { s with cs := fun j => if j = p then c else s.cs j }

/-- Another state of a validator. -/
def Net.setV (s : Net) (p : Nat) (v : VState) : Net := { s with vs := fun j => if j = p then v else s.vs j }

theorem setC_self (s : Net) (p : Nat) : s.setC p (s.cs p) = s := by
  unfold Net.setC
  congr 1
  funext j
  split
  · next h => rw [h]
  · rfl

theorem setV_self (s : Net) (p : Nat) : s.setV p (s.vs p) = s := by
  unfold Net.setV
  congr 1
  funext j
  split
  · next h => rw [h]
  · rfl

theorem setC_setC (s : Net) (p : Nat) (c c' : CState) : (s.setC p c).setC p c' = s.setC p c' := by
  unfold Net.setC
  congr 1
  funext j
  by_cases h : j = p <;> simp [h]

theorem setV_setV (s : Net) (p : Nat) (c c' : VState) : (s.setV p c).setV p c' = s.setV p c' := by
  unfold Net.setV
  congr 1
  funext j
  by_cases h : j = p <;> simp [h]

theorem setC_cs (s : Net) (p : Nat) (c : CState) : (s.setC p c).cs p = c := by simp [Net.setC]
theorem setV_vs (s : Net) (p : Nat) (v : VState) : (s.setV p v).vs p = v := by simp [Net.setV]

variable {chainID : Bytes}

theorem net_run_append (s : Net) (es es' : List NetEv) : s.run C vcfg cfg n chainID (es ++ es') =
    (s.run C vcfg cfg n chainID es).bind fun s' => s'.run C vcfg cfg n chainID es' := by
  induction es generalizing s with
  | nil => rfl
  | cons e es ih =>
    simp only [List.cons_append, Net.run]
    cases s.step C vcfg cfg n chainID e with
    | none => rfl
    | some s1 => simp only [Option.bind_some]; exact ih s1

/-- `s'` is reached from `s`. -/
def Reaches (C : Crypto) (vcfg : ValidatorCfg) (cfg : Nat → CosignerCfg) (n : Nat) (chainID : Bytes) (s s' : Net) : Prop :=
  ∃ es, s.run C vcfg cfg n chainID es = some s'

theorem Reaches.refl (s : Net) : Reaches C vcfg cfg n chainID s s := ⟨[], rfl⟩

theorem Reaches.trans {s s1 s2 : Net} (h : Reaches C vcfg cfg n chainID s s1) (h' : Reaches C vcfg cfg n chainID s1 s2) :
    Reaches C vcfg cfg n chainID s s2 := by
  obtain ⟨es, h⟩ := h
  obtain ⟨es', h'⟩ := h'
  exact ⟨es ++ es', by rw [net_run_append, h]; exact h'⟩

theorem Reaches.step {s s' : Net} {e : NetEv} (h : s.step C vcfg cfg n chainID e = some s') : Reaches C vcfg cfg n chainID s s' :=
  ⟨[e], by simp [Net.run, h]⟩

theorem cos_other (s : Net) (p : Nat) (op : CosOp) (h : ∀ bs, op ≠ .sign bs) :
    s.step C vcfg cfg n chainID (.cos p op) = some (s.setC p ((s.cs p).step C (cfg p) op).2) := by
  simp only [Net.step]
  split
  · next bs _ _ => exact absurd rfl (h bs)
  · rfl

theorem reaches_getParts (p : Nat) (k : HRST) : ∀ (order : List Int) (rnd : Nat → Rand) (acc : List SecretPart) (s : Net),
    Reaches C vcfg cfg n chainID s (s.setC p (getPartsLoop C (cfg p) k order rnd (s.cs p) acc).2) := by
  intro order
  induction order with
  | nil => intro rnd acc s; simp only [getPartsLoop]; rw [setC_self]; exact .refl s
  | cons i order ih =>
    intro rnd acc s
    simp only [getPartsLoop]
    split
    · exact ih _ _ s
    · have hstep := cos_other (C := C) (vcfg := vcfg) (cfg := cfg) (n := n) (chainID := chainID) s p
        (.getPart ⟨i, k.height, k.round, k.step, GoTime.ofUnixNano k.timestamp⟩ (rnd 0)) (by simp)
      simp only [CState.step] at hstep
      have hr := Reaches.step hstep
      generalize hx : getPart C (cfg p) (s.cs p) ⟨i, k.height, k.round, k.step, GoTime.ofUnixNano k.timestamp⟩ (rnd 0) = x at hr
      obtain ⟨o, c'⟩ := x
      cases o with
      | ok part =>
        simp only
        have := ih (fun n => rnd (n + 1)) (acc ++ [part]) (s.setC p c')
        rw [setC_cs, setC_setC] at this
        exact hr.trans this
      | err e => exact hr
      | panic => exact hr

/-- The answer to a call to sign, if there is one. -/
def answerOf (p : Nat) (bs : Bytes) : Out SignRes → List (Nat × Bytes × SignRes)
  | .ok r => [(p, bs, r)]
  | _ => []

theorem reaches_setParts (p : Nat) (k : HRST) (bs : Bytes) : ∀ (parts : List SecretPart) (rnd : Nat → Rand) (s : Net),
    Reaches C vcfg cfg n chainID s { s.setC p (setPartsAndSign C (cfg p) k bs parts rnd (s.cs p)).2 with
      sent := s.sent ++ answerOf p bs (setPartsAndSign C (cfg p) k bs parts rnd (s.cs p)).1 } := by
  intro parts
  induction parts with
  | nil =>
    intro rnd s
    apply Reaches.step (e := .cos p (.sign bs))
    simp only [Net.step, CState.step, setPartsAndSign]
    generalize sign C (cfg p) (s.cs p) bs = x
    obtain ⟨o, c'⟩ := x
    cases o with
    | ok r => rfl
    | err e => simp [Out.map, answerOf, Net.setC]
    | panic => simp [Out.map, answerOf, Net.setC]
  | cons part parts ih =>
    intro rnd s
    have hstep := cos_other (C := C) (vcfg := vcfg) (cfg := cfg) (n := n) (chainID := chainID) s p
      (.setPart (part.toSetReq k) (rnd 0)) (by simp)
    simp only [CState.step] at hstep
    have hr := Reaches.step hstep
    simp only [setPartsAndSign]
    generalize setPart C (cfg p) (s.cs p) (part.toSetReq k) (rnd 0) = x at hr
    obtain ⟨o, c'⟩ := x
    cases o with
    | ok u =>
      simp only
      have := ih (fun n => rnd (n + 1)) (s.setC p c')
      rw [setC_cs, setC_setC] at this
      exact hr.trans this
    | err e => simpa [answerOf, Net.setC] using hr
    | panic => simpa [answerOf, Net.setC] using hr

/-- The participants of a round, one after the other. -/
theorem reaches_participants {L id : Nat} {b : Block} (F : Nat → CState → Out SignRes × CState)
    (hF : ∀ p (s : Net), Reaches C vcfg cfg n chainID s { s.setC p (F p (s.cs p)).2 with
      sent := s.sent ++ answerOf p b.signBytes (F p (s.cs p)).1 }) :
    ∀ (l : List Nat) (s : Net), l.Nodup → (s.vs L).calls id = some (b, .round) →
      ∃ s', Reaches C vcfg cfg n chainID s s' ∧ s'.vs = s.vs ∧ s'.outs = s.outs ∧ s'.made = s.made ∧
        (∀ p, s'.cs p = if p ∈ l then (F p (s.cs p)).2 else s.cs p) ∧
        ∀ p, s'.table L id p = if p ∈ l then (match (F p (s.cs p)).1 with | .ok r => some r | _ => s.table L id p)
          else s.table L id p := by
  intro l
  induction l with
  | nil => intro s _ _; exact ⟨s, .refl s, rfl, rfl, rfl, by simp, by simp⟩
  | cons p l ih =>
    intro s hnd hc
    obtain ⟨hp, hnd⟩ := List.nodup_cons.1 hnd
    -- it answers
    have h1 := hF p s
    obtain ⟨s1, h1, e1, e2, e3, e4, e5⟩ : ∃ s1, Reaches C vcfg cfg n chainID s s1 ∧ s1.vs = s.vs ∧ s1.outs = s.outs ∧
        s1.made = s.made ∧ (∀ j, s1.cs j = if j = p then (F p (s.cs p)).2 else s.cs j) ∧
        ∀ j, s1.table L id j = if j = p then (match (F p (s.cs p)).1 with | .ok r => some r | _ => s.table L id j) else s.table L id j := by
      cases hx : (F p (s.cs p)).1 with
      | ok r =>
        rw [hx] at h1
        refine ⟨{ s.setC p (F p (s.cs p)).2 with
          sent := s.sent ++ [(p, b.signBytes, r)],
          table := fun j i q => if j = L ∧ i = id ∧ q = p then some r else s.table j i q },
          h1.trans (Reaches.step (e := .answer L id s.sent.length) ?_), ?_, ?_, ?_, ?_, ?_⟩
        · simp only [Net.step, Net.setC, answerOf, hc]
          rw [List.getElem?_append_right (Nat.le_refl _)]
          simp only [Nat.sub_self, List.getElem?_cons_zero, if_true]
        · rfl
        · rfl
        · rfl
        · intro j; rfl
        · intro j
          simp only [true_and]
      | err e => rw [hx] at h1; exact ⟨_, h1, rfl, rfl, rfl, fun j => rfl, fun j => by simp [Net.setC]⟩
      | panic => rw [hx] at h1; exact ⟨_, h1, rfl, rfl, rfl, fun j => rfl, fun j => by simp [Net.setC]⟩
    obtain ⟨s2, h2, d1, d2, d3, d4, d5⟩ := ih s1 hnd (by rw [e1]; exact hc)
    refine ⟨s2, h1.trans h2, d1.trans e1, d2.trans e2, d3.trans e3, ?_, ?_⟩
    · intro j
      rw [d4, e4]
      by_cases hj : j = p
      · subst hj; simp [hp]
      · simp [hj]
    · intro j
      rw [d5, e5, e4]
      by_cases hj : j = p
      · subst hj; simp [hp]
      · simp [hj]

theorem act_tau {s : Net} {p : Nat} {ev : VEv} {v : VState} (h : (s.vs p).step C vcfg ev = (.tau, v)) :
    s.act C vcfg p ev = s.setV p v := by
  unfold Net.act Net.setV
  rw [h]

theorem act_ret {s : Net} {p : Nat} {ev : VEv} {v : VState} {id : Nat} {b : Block} {sig : Slice} {stamp : GoTime} {e : Option Err}
    (h : (s.vs p).step C vcfg ev = (.ret id b sig stamp e, v)) :
    s.act C vcfg p ev = { s.setV p v with outs := s.outs ++ [(p, .ret id b sig stamp e)] } := by
  unfold Net.act Net.setV
  rw [h]

theorem act_start {s : Net} {p : Nat} {ev : VEv} {v : VState} {id : Nat} {b : Block} {again : Bool}
    (h : (s.vs p).step C vcfg ev = (.startRound id b again, v)) :
    s.act C vcfg p ev = { s.setV p v with table := fun j i q => if j = p ∧ i = id then none else s.table j i q } := by
  unfold Net.act Net.setV
  rw [h]

/-- `s'` is `s` after the validator of `p` got into state `v` and the call `id` showed `o`. -/
structure After (p id : Nat) (o : VOut) (v : VState) (s s' : Net) : Prop where
  vs : s'.vs = (s.setV p v).vs
  cs : s'.cs = s.cs
  ret : ∀ id b sig stamp e, o = .ret id b sig stamp e → (p, o) ∈ s'.outs
  start : ∀ id' b again, o = .startRound id' b again → id' = id → ∀ q, s'.table p id q = none

theorem after_act {s : Net} {p id : Nat} {ev : VEv} {o : VOut} {v : VState} (h : (s.vs p).step C vcfg ev = (o, v)) :
    After p id o v s (s.act C vcfg p ev) := by
  cases o with
  | tau => rw [act_tau h]; exact ⟨rfl, rfl, by simp, by simp⟩
  | ret i b sig stamp e =>
    rw [act_ret h]
    exact ⟨rfl, rfl, fun _ _ _ _ _ _ => by simp, by simp⟩
  | startRound i b again =>
    rw [act_start h]
    refine ⟨rfl, rfl, by simp, ?_⟩
    intro id' b' again' he hid q
    simp only [VOut.startRound.injEq] at he
    simp [he.1, hid]

theorem reaches_wait {L id : Nat} : ∀ (k : Nat) (s : Net),
    ∃ s', Reaches C vcfg cfg n chainID s s' ∧
      After L id ((s.vs L).wait C vcfg id k).1 ((s.vs L).wait C vcfg id k).2 s s' := by
  intro k
  induction k with
  | zero =>
    intro s
    refine ⟨s, .refl s, ?_⟩
    simp only [VState.wait]
    exact ⟨by rw [setV_self], rfl, by simp, by simp⟩
  | succ k ih =>
    intro s
    simp only [VState.wait]
    cases hc : (s.vs L).calls id with
    | none =>
      refine ⟨s, .refl s, by rw [setV_self], rfl, by simp, by simp⟩
    | some x =>
      obtain ⟨b, ph⟩ := x
      cases ph with
      | poll i =>
        simp only
        have hstep : s.step C vcfg cfg n chainID (.poll L id) = some (s.act C vcfg L (.poll id)) := rfl
        generalize hx : (s.vs L).step C vcfg (.poll id) = x
        obtain ⟨o, v⟩ := x
        cases o with
        | tau =>
          rw [act_tau hx] at hstep
          obtain ⟨s', h1, h2⟩ := ih (s.setV L v)
          rw [setV_vs] at h2
          exact ⟨s', (Reaches.step hstep).trans h1, by rw [h2.vs, setV_setV], h2.cs, h2.ret, h2.start⟩
        | ret _ _ _ _ _ => exact ⟨_, Reaches.step hstep, after_act hx⟩
        | startRound _ _ _ => exact ⟨_, Reaches.step hstep, after_act hx⟩
      | lookup =>
        exact ⟨_, Reaches.step (e := .lookup L id) rfl, after_act rfl⟩
      | proxy => exact ⟨s, .refl s, by rw [setV_self], rfl, by simp, by simp⟩
      | round => exact ⟨s, .refl s, by rw [setV_self], rfl, by simp, by simp⟩
      | save sig => exact ⟨s, .refl s, by rw [setV_self], rfl, by simp, by simp⟩
      | emit sig => exact ⟨s, .refl s, by rw [setV_self], rfl, by simp, by simp⟩

theorem reaches_begin {L id : Nat} {b : Block} (s : Net) : ∃ s', Reaches C vcfg cfg n chainID s s' ∧
    After L id ((s.vs L).begin C vcfg id b).1 ((s.vs L).begin C vcfg id b).2 s s' := by
  simp only [VState.begin]
  split
  · exact ⟨s, .refl s, by rw [setV_self], rfl, by simp, by simp⟩
  · have hstep : s.step C vcfg cfg n chainID (.call L id b .leader) = some (s.act C vcfg L (.call id b .leader)) := rfl
    generalize hx : (s.vs L).step C vcfg (.call id b .leader) = x
    obtain ⟨o, v⟩ := x
    cases o with
    | tau =>
      rw [act_tau hx] at hstep
      obtain ⟨s', h1, h2⟩ := reaches_wait (cfg := cfg) (n := n) (chainID := chainID) 100 (s.setV L v)
      rw [setV_vs] at h2
      exact ⟨s', (Reaches.step hstep).trans h1, by rw [h2.vs, setV_setV], h2.cs, h2.ret, h2.start⟩
    | ret _ _ _ _ _ => exact ⟨_, Reaches.step hstep, after_act hx⟩
    | startRound _ _ _ => exact ⟨_, Reaches.step hstep, after_act hx⟩

/-- The end of a call that has the share signatures. -/
theorem reaches_end {L id : Nat} {b : Block} (s : Net) (hc : (s.vs L).calls id = some (b, .round)) :
    ∃ s', Reaches C vcfg cfg n chainID s s' ∧
      After L id ((s.vs L).assembleAndSave C vcfg id (s.shares n L id).1 (s.shares n L id).2).1
        ((s.vs L).assembleAndSave C vcfg id (s.shares n L id).1 (s.shares n L id).2).2 s s' := by
  have h1 : s.step C vcfg cfg n chainID (.assemble L id) = some (s.act C vcfg L (.roundDone id (.sigs (s.shares n L id).1
    (s.shares n L id).2))) := rfl
  unfold VState.assembleAndSave
  generalize hx : (s.vs L).step C vcfg (.roundDone id (.sigs (s.shares n L id).1 (s.shares n L id).2)) = x
  obtain ⟨o, v⟩ := x
  cases o with
  | ret _ _ _ _ _ => exact ⟨_, Reaches.step h1, after_act hx⟩
  | startRound _ _ _ => exact ⟨_, Reaches.step h1, after_act hx⟩
  | tau =>
    rw [act_tau hx] at h1
    simp only
    -- the phase is now `save`
    obtain ⟨sig, hv⟩ : ∃ sig, v.calls id = some (b, .save sig) := by
      simp only [VState.step, hc] at hx
      split at hx
      · next sig _ =>
        simp only [Prod.mk.injEq, true_and] at hx
        exact ⟨sig, by rw [← hx]; simp [VState.setPhase]⟩
      · simp at hx
      · next h => exact absurd h (assemble_no_panic _ _ _ _ _ _)
    have h2 : (s.setV L v).step C vcfg cfg n chainID (.save L id) =
        some { (s.setV L v).act C vcfg L (.save id) with made := (s.setV L v).made ++ [b.record sig] } := by
      simp only [Net.step, setV_vs, hv]
    generalize hy : v.step C vcfg (.save id) = y
    obtain ⟨o, v'⟩ := y
    have hy' : ((s.setV L v).vs L).step C vcfg (.save id) = (o, v') := by rw [setV_vs]; exact hy
    have ha := after_act (id := id) hy'
    cases o with
    | ret _ _ _ _ _ =>
      refine ⟨_, (Reaches.step h1).trans (Reaches.step h2), ?_, ha.cs, ha.ret, ha.start⟩
      show ((s.setV L v).act C vcfg L (.save id)).vs = _
      rw [ha.vs, setV_setV]
    | startRound _ _ _ =>
      refine ⟨_, (Reaches.step h1).trans (Reaches.step h2), ?_, ha.cs, ha.ret, ha.start⟩
      show ((s.setV L v).act C vcfg L (.save id)).vs = _
      rw [ha.vs, setV_setV]
    | tau =>
      simp only
      rw [act_tau hy', setV_setV] at h2
      have hz : (({ s.setV L v' with made := (s.setV L v).made ++ [b.record sig] } : Net).vs L).step C vcfg (.emit id) =
          (((v'.step C vcfg (.emit id)).1, (v'.step C vcfg (.emit id)).2)) := by
        show ((s.setV L v').vs L).step C vcfg (.emit id) = _
        rw [setV_vs]
      have hb := after_act (id := id) hz
      refine ⟨_, (Reaches.step h1).trans ((Reaches.step h2).trans (Reaches.step (e := .emit L id) rfl)), ?_, hb.cs, hb.ret, hb.start⟩
      rw [hb.vs]
      show ((s.setV L v').setV L _).vs = _
      rw [setV_setV]

/-- C105: requests that are served one after the other, as in C102, are among these runs. Whatever a request does in the cluster
of `Verif.Model.System` happens in a run of the cluster in which everything overlaps, from the same states to the same states,
with the same answer. -/
theorem C105_covers (chainID : Bytes) (s : Net) (q : Req) (hnd : q.ps.Nodup) (hl : q.leader ∈ q.ps) :
    ∃ es s', s.run C vcfg cfg n chainID es = some s' ∧
      (⟨s'.vs, s'.cs⟩ : Sys) = ((⟨s.vs, s.cs⟩ : Sys).signBlock C vcfg cfg n q).2 ∧
      ∀ id b sig stamp e, ((⟨s.vs, s.cs⟩ : Sys).signBlock C vcfg cfg n q).1 = .ret id b sig stamp e →
        (q.leader, .ret id b sig stamp e) ∈ s'.outs := by
  suffices h : ∃ s', Reaches C vcfg cfg n chainID s s' ∧
      (⟨s'.vs, s'.cs⟩ : Sys) = ((⟨s.vs, s.cs⟩ : Sys).signBlock C vcfg cfg n q).2 ∧
      ∀ id b sig stamp e, ((⟨s.vs, s.cs⟩ : Sys).signBlock C vcfg cfg n q).1 = .ret id b sig stamp e →
        (q.leader, .ret id b sig stamp e) ∈ s'.outs by
    obtain ⟨s', ⟨es, h1⟩, h2, h3⟩ := h
    exact ⟨es, s', h1, h2, h3⟩
  obtain ⟨s1, h1, ha⟩ := reaches_begin (C := C) (vcfg := vcfg) (cfg := cfg) (n := n) (chainID := chainID) (L := q.leader) (id := q.id)
    (b := q.block) s
  have hb := begin_begun (C := C) (vcfg := vcfg) (s.vs q.leader) q.id q.block
  unfold Sys.signBlock
  generalize (s.vs q.leader).begin C vcfg q.id q.block = x at ha hb
  have idle : ∀ (o : VOut) (v : VState), After q.leader q.id o v s s1 → (⟨s1.vs, s1.cs⟩ : Sys) =
      { (⟨s.vs, s.cs⟩ : Sys) with vs := fun p => if p = q.leader then v else s.vs p } := by
    intro o v h
    rw [h.vs, h.cs]
    rfl
  cases hb with
  | tau v' hlss => exact ⟨s1, h1, idle _ _ ha, by simp⟩
  | refused e v' hlss => exact ⟨s1, h1, idle _ _ ha, fun _ _ _ _ _ he => by rw [← he]; exact ha.ret _ _ _ _ _ he⟩
  | known sig v' hlss he => exact ⟨s1, h1, idle _ _ ha, fun _ _ _ _ _ he => by rw [← he]; exact ha.ret _ _ _ _ _ he⟩
  | start again v' hlss hc =>
    have ev : s1.vs q.leader = v' := by rw [ha.vs, setV_vs]
    simp only
    -- the participants
    obtain ⟨s2, h2, d1, d2, d3, d4, d5⟩ := reaches_participants (C := C) (vcfg := vcfg) (cfg := cfg) (n := n) (chainID := chainID)
      (L := q.leader) (id := q.id) (b := q.block)
      (fun p c => setPartsAndSign C (cfg p) q.block.key q.block.signBytes
        (partsFor ((q.mapOrder p).map fun j : Nat => ((j : Int), okParts (getParts C (cfg j) q.block.key (q.order j) (q.rnd1 j) (s.cs j)).1))
          (p : Int)) (q.rnd2 p) (getParts C (cfg p) q.block.key (q.order p) (q.rnd1 p) c).2)
      (by
        intro p s0
        have g1 : Reaches C vcfg cfg n chainID s0 (s0.setC p (getParts C (cfg p) q.block.key (q.order p) (q.rnd1 p) (s0.cs p)).2) := by
          unfold getParts
          split
          · rw [setC_self]; exact .refl _
          · exact reaches_getParts p q.block.key _ _ _ s0
        have g2 := reaches_setParts (C := C) (vcfg := vcfg) (cfg := cfg) (n := n) (chainID := chainID) p q.block.key q.block.signBytes
          (partsFor ((q.mapOrder p).map fun j : Nat => ((j : Int), okParts (getParts C (cfg j) q.block.key (q.order j) (q.rnd1 j) (s.cs j)).1))
          (p : Int)) (q.rnd2 p) (s0.setC p (getParts C (cfg p) q.block.key (q.order p) (q.rnd1 p) (s0.cs p)).2)
        rw [setC_cs, setC_setC] at g2
        exact g1.trans g2) q.ps s1 hnd (by rw [ev]; exact hc)
    have etab : ∀ j, s1.table q.leader q.id j = none := ha.start _ _ _ rfl rfl
    have ecs : ∀ j, s1.cs j = s.cs j := fun j => by rw [ha.cs]
    simp only [etab, ecs] at d4 d5
    -- the shares
    have eshares : s2.shares n q.leader q.id = (roundShares C cfg q.ps q.leader n q.block.key q.block.signBytes q.order q.mapOrder
        q.rnd1 q.rnd2 s.cs).1 := by
      unfold Net.shares roundShares shareArray
      refine Prod.ext ?_ ?_
      · refine List.map_congr_left fun j _ => ?_
        simp only [d5]
        by_cases hj : j + 1 ∈ q.ps
        · simp only [hj, if_true]
          split <;> split <;> simp_all
        · simp only [hj, if_false]
      · simp only [d5, hl, if_true]
        split <;> split <;> simp_all
    obtain ⟨s3, h3, hb⟩ := reaches_end (C := C) (vcfg := vcfg) (cfg := cfg) (n := n) (chainID := chainID) (L := q.leader) (id := q.id)
      (b := q.block) s2 (by rw [d1, ev]; exact hc)
    rw [eshares, d1, ev] at hb
    refine ⟨s3, h1.trans (h2.trans h3), ?_, fun _ _ _ _ _ he => by rw [← he]; exact hb.ret _ _ _ _ _ he⟩
    rw [hb.vs, hb.cs]
    refine congrArg₂ Sys.mk ?_ ?_
    · funext p
      simp only [Net.setV]
      split
      · rfl
      · next hp => rw [d1, ha.vs]; simp [Net.setV, hp]
    · funext p
      rw [d4]
      unfold roundShares
      simp only

end

/-- Concretely: a vote, led by node 3 with cosigner 1. -/
example : ∃ es s', ostart.run ftoy ⟨2, fsc (42 • 1)⟩ fcfg 3 [97] es = some s' ∧
    (s'.outs.map fun o => match o.2 with | .ret id b sig _ e => (o.1, id, b.signBytes == b1, sig.isSome, e.isSome) | _ => (0, 0, false, false, false)).contains
      (3, 0, true, true, false) = true := by
  obtain ⟨es, s', h1, _, h3⟩ := C105_covers (C := ftoy) (vcfg := ⟨2, fsc (42 • 1)⟩) (cfg := fcfg) (n := 3) [97] ostart
    (freq 0 blk1 3 [3, 1]) (by decide) (by decide)
  have hd : (match ((⟨ostart.vs, ostart.cs⟩ : Sys).signBlock ftoy ⟨2, fsc (42 • 1)⟩ fcfg 3 (freq 0 blk1 3 [3, 1])).1 with
      | .ret id b sig _ e => decide (id = 0) && (b.signBytes == b1) && sig.isSome && !e.isSome
      | _ => false) = true := by decide +kernel
  split at hd
  · next id b sig stamp e ho =>
    simp only [Bool.and_eq_true, decide_eq_true_eq, Bool.not_eq_true'] at hd
    refine ⟨es, s', h1, ?_⟩
    rw [List.contains_iff_mem]
    refine List.mem_map.2 ⟨_, h3 _ _ _ _ _ ho, ?_⟩
    simp [hd, freq]
  · cases hd

end Horcrux
