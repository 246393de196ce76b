import Verif.Lemmas.NoConflict
import Verif.Lemmas.Received
import Verif.Props.Node
/-
Property C102: what chain nodes get over the whole life of a cluster.
-/
namespace Horcrux
open Spec

/-! ### What is written is what is read -/

theorem encPMsg_lt {m : PMsg} (h : m.WF) : (encPMsg m).length < 2 ^ 64 := by
  have herr : ∀ e : Option RSErr, (∀ x, e = some x → x.WF) → (encMsgField 0x12 (e.map encRSErr)).length < 2 ^ 62 + 100 := by
    intro e he
    cases e with
    | none => simp [encMsgField]
    | some x =>
      have h1 := encRSErr_le x
      have h2 := (he x rfl).size
      have h3 := encLen_le 0x12 (encRSErr x)
      simp only [Option.map_some, encMsgField]
      omega
  cases m with
  | empty => simp [encPMsg]
  | pubKeyRequest c =>
    have h1 := encBytesField_le 0x0a c
    have h2 := encLen_le 0x0a (encBytesField 0x0a c)
    have h3 : c.length < 2 ^ 62 := h
    simp only [encPMsg]
    omega
  | pubKeyResponse k e =>
    have h1 := encPPubKey_le k h.1
    have h2 := encLen_le 0x0a (encPPubKey k)
    have h3 := herr e h.2
    have h4 := encLen_le 0x12 (encLen 0x0a (encPPubKey k) ++ (encMsgField 0x12 (e.map encRSErr) ++ []))
    simp only [List.length_append, List.length_nil] at h4
    simp only [encPMsg]
    omega
  | signVoteRequest v c =>
    have h1 := encBytesField_le 0x12 c
    have h2 := h.2
    have h3 : (encMsgField 0x0a (v.map encPVote)).length < 2 ^ 62 + 200 := by
      cases v with
      | none => simp [encMsgField]
      | some v =>
        have := encPVote_le v
        have := (h.1 v rfl).size
        have := encLen_le 0x0a (encPVote v)
        simp only [Option.map_some, encMsgField]
        omega
    have h4 := encLen_le 0x1a (encMsgField 0x0a (v.map encPVote) ++ (encBytesField 0x12 c ++ []))
    simp only [List.length_append, List.length_nil] at h4
    simp only [encPMsg]
    omega
  | signedVoteResponse v e =>
    have h1 := encPVote_le v
    have h2 := h.1.size
    have h3 := herr e h.2
    have h4 := encLen_le 0x0a (encPVote v)
    have h5 := encLen_le 0x22 (encLen 0x0a (encPVote v) ++ (encMsgField 0x12 (e.map encRSErr) ++ []))
    simp only [List.length_append, List.length_nil] at h5
    simp only [encPMsg]
    omega
  | signProposalRequest p c =>
    have h1 := encBytesField_le 0x12 c
    have h2 := h.2
    have h3 : (encMsgField 0x0a (p.map encPProposal)).length < 2 ^ 62 + 200 := by
      cases p with
      | none => simp [encMsgField]
      | some v =>
        have := encPProposal_le v
        have := (h.1 v rfl).size
        have := encLen_le 0x0a (encPProposal v)
        simp only [Option.map_some, encMsgField]
        omega
    have h4 := encLen_le 0x2a (encMsgField 0x0a (p.map encPProposal) ++ (encBytesField 0x12 c ++ []))
    simp only [List.length_append, List.length_nil] at h4
    simp only [encPMsg]
    omega
  | signedProposalResponse v e =>
    have h1 := encPProposal_le v
    have h2 := h.1.size
    have h3 := herr e h.2
    have h4 := encLen_le 0x0a (encPProposal v)
    have h5 := encLen_le 0x32 (encLen 0x0a (encPProposal v) ++ (encMsgField 0x12 (e.map encRSErr) ++ []))
    simp only [List.length_append, List.length_nil] at h5
    simp only [encPMsg]
    omega
  | pingRequest => simp [encPMsg, encLen, encodeVarint, encodeVarintAux]
  | pingResponse => simp [encPMsg, encLen, encodeVarint, encodeVarintAux]

/-- Whoever can read a written message reads that message. -/
theorem read_written {r m : PMsg} {rest : Bytes} (hr : r.WF) (h : readMsg (writeMsg r) = some (m, rest)) : m = r := by
  by_cases hl : (encPMsg r).length ≤ maxRemoteSignerMsgSize
  · have := readMsg_writeMsg r [] hr hl
    rw [List.append_nil] at this
    rw [this] at h
    simp only [Option.some.injEq, Prod.mk.injEq] at h
    exact h.1.symm
  · unfold readMsg writeMsg delimit at h
    rw [readUvarint_encode _ _ (encPMsg_lt hr)] at h
    simp only at h
    rw [if_pos (by omega)] at h
    cases h

/-! ### One request -/

section
variable {C : Crypto} {vcfg : ValidatorCfg} {cfg : Nat → CosignerCfg} {n : Nat}

theorem delimit_le (x : Bytes) : (delimit x).length ≤ 10 + x.length := by
  unfold delimit
  have := encodeVarint_length x.length
  simp only [List.length_append]
  omega

/-- The block of a request that was read. -/
theorem read_block {chainID : Bytes} (hc : ChainOk chainID) {L : Nat} {m : PMsg} (hr : m.ReadOk L) {b : Block}
    (hb : m.block chainID = some b) :
    b.Typed ∧ unpackHRST b.signBytes = .ok b.key ∧
    ((∃ v c, m = .signVoteRequest (some v) c ∧ voteBlock chainID v = .ok b ∧ v.Read L) ∨
      ∃ p c, m = .signProposalRequest (some p) c ∧ proposalBlock chainID p = .ok b ∧ p.Read) := by
  unfold PMsg.block at hb
  split at hb
  · next v c =>
    have hv : v.Read L := hr
    have hw := hv.wf hc.1
    cases hvb : voteBlock chainID v with
    | err e => rw [hvb] at hb; cases hb
    | panic => rw [hvb] at hb; cases hb
    | ok b' =>
      rw [hvb] at hb
      simp only [Option.some.injEq] at hb
      subst hb
      have hm : ¬ v.MistakenForProposal chainID := by
        rintro ⟨_, _, h | h⟩
        · exact hc.2.1 h
        · exact h hc.2.2
      refine ⟨?_, C63_vote chainID v _ hw hm hvb, .inl ⟨v, c, rfl, hvb, hv⟩⟩
      unfold voteBlock at hvb
      cases hst : voteTypeToStep v.type with
      | err e => rw [hst] at hvb; cases hvb
      | panic => rw [hst] at hvb; cases hvb
      | ok st =>
        rw [hst] at hvb
        simp only at hvb
        cases hsb : voteSignBytes chainID v with
        | err e => rw [hsb] at hvb; cases hvb
        | panic => rw [hsb] at hvb; cases hvb
        | ok bs =>
          rw [hsb] at hvb
          simp only [Out.ok.injEq] at hvb
          subst hvb
          refine ⟨hv.height, isI64_of_isI32 hv.round, ?_, ?_⟩
          · unfold voteTypeToStep at hst
            split at hst
            · simp only [Out.ok.injEq] at hst; subst hst; show IsI8 2; decide
            · split at hst
              · simp only [Out.ok.injEq] at hst; subst hst; show IsI8 3; decide
              · cases hst
          · obtain ⟨cb, hcb, rfl, _, _⟩ := voteSignBytes_ok hw hsb
            have h1 := encVote_le ⟨v.type, v.height, v.round, cb, v.timestamp, chainID⟩ 64 (by
              intro c hc'
              have := (canonicalizeBlockID_ok hcb).2.1 c hc'
              subst this; exact BlockID.valid_len (canonicalizeBlockID_ok hcb).2.2)
            have h2 := delimit_le (encVote ⟨v.type, v.height, v.round, cb, v.timestamp, chainID⟩)
            have := hc.1
            simp only at h1 ⊢
            omega
  · next p c =>
    have hv : p.Read := hr
    have hw := hv.wf hc.1
    cases hvb : proposalBlock chainID p with
    | err e => rw [hvb] at hb; cases hb
    | panic => rw [hvb] at hb; cases hb
    | ok b' =>
      rw [hvb] at hb
      simp only [Option.some.injEq] at hb
      subst hb
      refine ⟨?_, C63_proposal chainID p _ hw hvb, .inr ⟨p, c, rfl, hvb, hv⟩⟩
      unfold proposalBlock at hvb
      cases hsb : proposalSignBytes chainID p with
      | err e => rw [hsb] at hvb; cases hvb
      | panic => rw [hsb] at hvb; cases hvb
      | ok bs =>
        rw [hsb] at hvb
        simp only [Out.ok.injEq] at hvb
        subst hvb
        refine ⟨hv.height, isI64_of_isI32 hv.round, by show IsI8 1; decide, ?_⟩
        obtain ⟨cb, hcb, rfl, _, _⟩ := proposalSignBytes_ok hw hsb
        have h1 := encProposal_le ⟨32, p.height, p.round, p.polRound, cb, p.timestamp, chainID⟩ 64 (by
          intro c hc'
          have := (canonicalizeBlockID_ok hcb).2.1 c hc'
          subst this; exact BlockID.valid_len (canonicalizeBlockID_ok hcb).2.2)
        have h2 := delimit_le (encProposal ⟨32, p.height, p.round, p.polRound, cb, p.timestamp, chainID⟩)
        have := hc.1
        simp only at h1 ⊢
        omega
  · cases hb

theorem Safe.idle {t : Nat} {pub : Bytes} {faulty : Finset Nat} {k : HRS} {M : Bytes → Prop} {K : SSC → Prop} {s : Sys}
    (h : Safe C pub n t faulty k M K s) : Safe C pub n t faulty k M (fun r => K r ∨ ∃ p, r ∈ (s.vs p).emitted) s := by
  refine ⟨h.bound, h.agree, ?_, h.knows.weaken (fun _ => .inl)⟩
  rintro r (hr | ⟨p, hr⟩)
  · exact h.recs r hr
  · exact h.recs r ((h.knows p).2 r hr)

/-- A request on any way. -/
theorem Safe.via {t f : Nat} (hnt : n + f < 2 * t) (hV : vcfg.threshold = t) {faulty : Finset Nat} (hf : faulty.card ≤ f)
    {k : HRS} (h64 : ∀ pk m sig, C.verify pk m sig = true → sig.length = 64) {M : Bytes → Prop} {K : SSC → Prop} {s : Sys}
    (h : Safe C vcfg.pubKey n t faulty k M K s) {chainID : Bytes} (hc : chainID.length < 2 ^ 63) {b : Block} (hb : b.Typed)
    (hu : unpackHRST b.signBytes = .ok b.key) {way : Way} (hnd : ((way.leader, way.id) :: way.hops).Nodup)
    (hfree : ∀ h ∈ way.hops, (s.vs h.1).calls h.2 = none) :
    let x := s.signVia C vcfg cfg n chainID way.hops (way.req b)
    ∃ M' : Bytes → Prop, (∀ bs, M bs → M' bs) ∧
      Safe C vcfg.pubKey n t faulty k M' (fun r => K r ∨ ∃ p, r ∈ (x.2.vs p).emitted) x.2 ∧
      ∀ id b' sig stamp, x.1 = .ret id b' sig stamp none → stamp = b.timestamp ∧ (sig.bytes ≠ [] →
        ∃ bs, C.verify vcfg.pubKey bs sig.bytes = true ∧ (b.hrs = k → M' bs) ∧ (b.step ≠ stepPropose → bs = b.signBytes)) := by
  intro x
  obtain ⟨k1, k2, k3⟩ := atLeader_key way.hops b
  have hu' : unpackHRST (atLeader way.hops b).signBytes = .ok (atLeader way.hops b).key := by rw [k1, k2]; exact hu
  have hd := signBlock_did (C := C) (vcfg := vcfg) (cfg := cfg) (n := n) hV s (way.req (atLeader way.hops b)) hu'
  obtain ⟨M', h1, h2, h3⟩ := h.sign hnt hf hu' hd
  have hstep : (atLeader way.hops b).step = b.step := by unfold atLeader; split <;> rfl
  have hstamp : ∀ id b' sig stamp, (s.signBlock C vcfg cfg n (way.req (atLeader way.hops b))).1 = .ret id b' sig stamp none →
      stamp = (atLeader way.hops b).timestamp := by
    intro id b' sig stamp hr
    generalize s.signBlock C vcfg cfg n (way.req (atLeader way.hops b)) = y at hd hr
    cases hd with
    | old o s' hl he hcs ho => exact (ho _ _ _ _ hr).1
    | new sg s' S hv hS ht hcs hb hl he hp =>
      simp only [VOut.ret.injEq] at hr
      exact hr.2.2.2.1.symm
  have hgiven : ∀ id b' sig stamp, (s.signBlock C vcfg cfg n (way.req (atLeader way.hops b))).1 = .ret id b' sig stamp none →
      sig.bytes ≠ [] → ∃ bs, C.verify vcfg.pubKey bs sig.bytes = true ∧ (b.hrs = k → M' bs) ∧
        (b.step ≠ stepPropose → bs = b.signBytes) := by
    intro id b' sig stamp hr hne
    cases sig with
    | none => exact absurd rfl hne
    | some z =>
      obtain ⟨_, bs, e1, e2, e3⟩ := h3 _ _ _ _ hr
      refine ⟨bs, e1, fun hk => e2 (k3.trans hk), fun hne => ?_⟩
      rw [← k2]
      exact e3 (by rw [show (way.req (atLeader way.hops b)).block = atLeader way.hops b from rfl, hstep]; exact hne)
  have hsmall : (s.signBlock C vcfg cfg n (way.req (atLeader way.hops b))).1.SigSmall := by
    cases ho : (s.signBlock C vcfg cfg n (way.req (atLeader way.hops b))).1 with
    | ret id b' sig stamp e =>
      cases e with
      | some e => trivial
      | none =>
        show sig.bytes.length < 2 ^ 63
        by_cases he : sig.bytes = []
        · rw [he]; decide
        · obtain ⟨bs, e1, _⟩ := hgiven _ _ _ _ ho he
          rw [h64 _ _ _ e1]; decide
    | _ => trivial
  cases hh : way.hops with
  | nil =>
    have ex : x = s.signBlock C vcfg cfg n (way.req (atLeader way.hops b)) := by
      show s.signVia C vcfg cfg n chainID way.hops (way.req b) = _
      rw [hh]; rfl
    rw [ex]
    refine ⟨M', h1, h2, fun id b' sig stamp hr => ⟨?_, hgiven _ _ _ _ hr⟩⟩
    have := hstamp _ _ _ _ hr
    rw [hh] at this
    exact this
  | cons y hops =>
    obtain ⟨p, id0⟩ := y
    rw [hh] at hnd hfree
    have ea : atLeader way.hops b = b.received := by unfold atLeader; rw [hh]; rfl
    by_cases hT : IsText chainID
    case neg =>
      have ex := C67_not_text (C := C) (vcfg := vcfg) (cfg := cfg) (n := n) chainID hc hT s p id0 hops (way.req b)
        (hfree _ (List.mem_cons_self ..))
      rw [← hh] at ex
      change x = _ at ex
      refine ⟨M, fun _ h => h, ?_, fun id b' sig stamp hr => ?_⟩
      · rw [ex]; exact h.idle
      · rw [ex] at hr; simp at hr
    have hsm := C67_same (C := C) (vcfg := vcfg) (cfg := cfg) (n := n) chainID ⟨hc, hT⟩ s p id0 hops (way.req b) hb hfree
      (List.nodup_cons.1 hnd).2 (List.nodup_cons.1 hnd).1 (by rw [ea] at hsmall; exact hsmall)
    have ex : x = s.signVia C vcfg cfg n chainID ((p, id0) :: hops) (way.req b) := by
      show s.signVia C vcfg cfg n chainID way.hops (way.req b) = _
      rw [hh]
    rw [← ex] at hsm
    obtain ⟨f1, f2⟩ := hsm
    have eq : ({ way.req b with block := (way.req b).block.received } : Req) = way.req (atLeader way.hops b) := by
      rw [ea]; rfl
    rw [eq] at f1 f2
    refine ⟨M', h1, f1 ▸ h2, fun id b' sig stamp hr => ?_⟩
    generalize hx : x.1 = o at f2 hr
    generalize ho : (s.signBlock C vcfg cfg n (way.req (atLeader way.hops b))).1 = o0 at f2
    cases f2 with
    | sig lid lb ts sg sg' he =>
      simp only [VOut.ret.injEq] at hr
      obtain ⟨_, _, rfl, rfl, _⟩ := hr
      refine ⟨rfl, fun hne => ?_⟩
      rw [he] at hne ⊢
      exact hgiven _ _ _ _ ho hne
    | err _ h' => simp at hr

/-- What chain nodes read: every signed vote verifies, and those for the block `k` are over bytes in `M`; every signed
proposal for `k` has a signature over bytes in `M`. -/
structure GivenTo (C : Crypto) (pub chainID : Bytes) (k : HRS) (M : Bytes → Prop) (outs : List (Option (List Act × Loop))) :
    Prop where
  votes : ∀ v, Reads outs (.signedVoteResponse v none) → v.signature ≠ none →
    ∃ st bs sig, voteTypeToStep v.type = .ok st ∧ voteSignBytes chainID v = .ok bs ∧ v.signature = some sig ∧
      C.verify pub bs sig = true ∧ v.WF chainID ∧ (⟨v.height, v.round, st⟩ = k → M bs)
  proposals : ∀ p, Reads outs (.signedProposalResponse p none) → p.signature ≠ none →
    ∃ bs sig, p.signature = some sig ∧ C.verify pub bs sig = true ∧ p.WF chainID ∧
      (⟨p.height, p.round, stepPropose⟩ = k → M bs)

/-- A written answer that is not a signed message. -/
theorem read_none {acts : List Act} {out : Bytes} {m : PMsg} (hw : Act.write out ∈ acts) {text : Err → Bytes} {i : Iter}
    {stream : Bytes} {r0 : PMsg × Bytes} (hs : readMsg stream = some r0)
    (ha : (loopIter text i (.live (some stream))).1 = acts) (hr : i.running = true) (hsr : i.stillRunning = true)
    (_hm : readMsg out = some (m, [])) : ∃ r, handleRequest text i.pv r0.1 = some r ∧ out = writeMsg r := by
  subst ha
  simp only [loopIter, hr, hsr, if_true, dialPhase, servePhase, hs] at hw
  cases hh : handleRequest text i.pv r0.1 with
  | none => rw [hh] at hw; simp at hw
  | some r =>
    rw [hh] at hw
    refine ⟨r, rfl, ?_⟩
    simp only at hw
    split at hw <;> simpa using hw

theorem wireSig_ne (x : Bytes) : Slice.ofWire x ≠ some [] := by
  unfold Slice.ofWire
  split
  · simp
  · next h => simp [h]

/-- What a chain node reads after a call of `SignBlock` has returned for the block of its request. -/
theorem given_of_ret {k : HRS} (h64 : ∀ pk m sig, C.verify pk m sig = true → sig.length = 64) {text : Err → Bytes}
    (htext : ∀ e, (text e).length < 2 ^ 62) {chainID : Bytes} (hc : ChainOk chainID) {M : Bytes → Prop}
    {stream rest : Bytes} {m : PMsg} (hm : readMsg stream = some (m, rest)) {b : Block} (hb : m.block chainID = some b)
    (o : VOut) (h3 : ∀ id b' sig stamp, o = .ret id b' sig stamp none → stamp = b.timestamp ∧ (sig.bytes ≠ [] →
      ∃ bs, C.verify vcfg.pubKey bs sig.bytes = true ∧ (b.hrs = k → M bs) ∧ (b.step ≠ stepPropose → bs = b.signBytes))) :
    GivenTo C vcfg.pubKey chainID k M [o.result.map fun res => loopIter text ⟨true, 0, [], true,
      .threshold chainID vcfg.pubKey (fun _ => res), true⟩ (.live (some stream))] := by
  obtain ⟨hty, hu, hkind⟩ := read_block hc (readMsg_readOk hm) hb
  -- an answer with a signature
  have key : ∀ acts l out m', some (acts, l) ∈ [o.result.map fun res => loopIter text ⟨true, 0, [], true,
        .threshold chainID vcfg.pubKey (fun _ => res), true⟩ (.live (some stream))] →
      Act.write out ∈ acts → readMsg out = some (m', []) → ∃ sig stamp e, o.result = some (sig, stamp, e) ∧
        ∃ r, handleRequest text (.threshold chainID vcfg.pubKey (fun _ => (sig, stamp, e))) m = some r ∧
          out = writeMsg r := by
    intro acts l out m' ha hw hr
    simp only [List.mem_singleton] at ha
    cases hres : o.result with
    | none => rw [hres] at ha; cases ha
    | some res =>
      rw [hres] at ha
      simp only [Option.map_some, Option.some.injEq] at ha
      obtain ⟨r, hh, hout⟩ := read_none hw hm (congrArg Prod.fst ha).symm rfl rfl hr
      exact ⟨res.1, res.2.1, res.2.2, rfl, r, hh, hout⟩
  have ret : ∀ sig stamp, o.result = some (sig, stamp, none) → ∃ id b', o = .ret id b' sig stamp none := by
    intro sig stamp hres
    cases o with
    | ret id b' sg st e =>
      simp only [VOut.result, Option.some.injEq, Prod.mk.injEq] at hres
      obtain ⟨rfl, rfl, rfl⟩ := hres
      exact ⟨id, b', rfl⟩
    | _ => cases hres
  rcases hkind with ⟨v, c, rfl, hvb, hv⟩ | ⟨p, c, rfl, hvb, hv⟩
  · -- a vote
    have main : ∀ acts l out m', some (acts, l) ∈ [o.result.map fun res => loopIter text ⟨true, 0, [], true,
          .threshold chainID vcfg.pubKey (fun _ => res), true⟩ (.live (some stream))] →
        Act.write out ∈ acts → readMsg out = some (m', []) → (∃ e, m' = .signedVoteResponse .zero (some e)) ∨
          ∃ st sig, m' = .signedVoteResponse { v with signature := Slice.ofWire sig } none ∧
            voteTypeToStep v.type = .ok st ∧ voteSignBytes chainID v = .ok b.signBytes ∧
            (sig ≠ [] → C.verify vcfg.pubKey b.signBytes sig = true ∧ (⟨v.height, v.round, st⟩ = k → M b.signBytes)) := by
      intro acts l out m' ha hw hr
      obtain ⟨sig, stamp, e, hres, r, hh, rfl⟩ := key _ _ _ _ ha hw hr
      cases handle_replies hh with
      | @voteFailed _ _ v2 e' h' =>
        have := read_written (r := .signedVoteResponse .zero (some ⟨0, text e'⟩))
          ⟨⟨by decide, by decide, by decide, by decide, by decide, by decide, by decide, by decide⟩,
            by rintro x hx'; rw [← Option.some.inj hx']; exact ⟨by show IsI32 0; decide, htext e'⟩⟩ hr
        exact .inl ⟨_, this⟩
      | other h' _ _ _ => exact absurd rfl (h' _ _)
      | @vote _ _ v2 h' =>
        right
        simp only [PV.threshold, hvb, Ret.ret.injEq] at h'
        obtain ⟨rfl, rfl⟩ := h'
        obtain ⟨id, b', hret⟩ := ret _ _ hres
        obtain ⟨hst, hsig⟩ := h3 _ _ _ _ hret
        obtain ⟨⟨st, g1, g2, g3, g4⟩, hbt⟩ : (∃ st, voteTypeToStep v.type = .ok st ∧ b.step = st ∧
            b.hrs = ⟨v.height, v.round, st⟩ ∧ voteSignBytes chainID v = .ok b.signBytes) ∧ b.timestamp = v.timestamp := by
          unfold voteBlock at hvb
          split at hvb
          · cases hvb
          · cases hvb
          · next st hst1 =>
            split at hvb
            · cases hvb
            · cases hvb
            · next bs hbs =>
              simp only [Out.ok.injEq] at hvb
              subst hvb
              exact ⟨⟨st, hst1, rfl, rfl, hbs⟩, rfl⟩
        have hns : b.step ≠ stepPropose := by
          rw [g2]
          unfold voteTypeToStep at g1
          split at g1
          · simp only [Out.ok.injEq] at g1; subst g1; decide
          · split at g1
            · simp only [Out.ok.injEq] at g1; subst g1; decide
            · cases g1
        rw [hst, hbt] at hr
        have hlen : sig.bytes.length ≤ 64 := by
          by_cases he : sig.bytes = []
          · rw [he]; decide
          · obtain ⟨bs, e1, _⟩ := hsig he
            rw [h64 _ _ _ e1]
        have hval : v.blockID.hash.length + v.blockID.pshHash.length ≤ 64 := by
          obtain ⟨cb, hcb, _⟩ := voteSignBytes_ok (hv.wf hc.1) g4
          exact BlockID.valid_len (canonicalizeBlockID_ok hcb).2.2
        have hwr : writeMsg (.signedVoteResponse (finishVote v sig v.timestamp) none) =
            writeMsg (.signedVoteResponse { v with signature := Slice.ofWire sig.bytes } none) := by
          simp only [writeMsg, encPMsg, encPVote, finishVote, ofWire_bytes]
        rw [hwr] at hr
        have haddr := hv.addr
        have := read_written (r := .signedVoteResponse { v with signature := Slice.ofWire sig.bytes } none)
          ⟨⟨hv.type, hv.height, hv.round, hv.total, hv.time, hv.index, wireSig_ne _, by
            simp only [ofWire_bytes]
            have : maxRemoteSignerMsgSize = 10240 := rfl
            omega⟩, by simp⟩ hr
        refine ⟨st, sig.bytes, this, g1, g4, fun hne' => ?_⟩
        obtain ⟨bs, e1, e2, e3⟩ := hsig hne'
        have := e3 hns
        subst this
        exact ⟨e1, fun hk => e2 (g3.trans hk)⟩
    refine ⟨?_, ?_⟩
    · rintro v' ⟨acts, l, out, ha, hw, hr⟩ hne
      rcases main _ _ _ _ ha hw hr with ⟨e, he⟩ | ⟨st, sig, he, g1, g4, g5⟩
      · cases he
      · simp only [PMsg.signedVoteResponse.injEq, and_true] at he
        subst he
        have hne' : sig ≠ [] := by
          intro he
          apply hne
          simp [he, Slice.ofWire]
        obtain ⟨e1, e2⟩ := g5 hne'
        exact ⟨st, b.signBytes, sig, g1, g4, by simp [Slice.ofWire, hne'], e1,
          ⟨hv.type, hv.height, hv.round, hv.total, hc.1⟩, e2⟩
    · rintro p' ⟨acts, l, out, ha, hw, hr⟩ hne
      rcases main _ _ _ _ ha hw hr with ⟨e, he⟩ | ⟨st, sig, he, g1, g4, g5⟩ <;> cases he
  · -- a proposal
    have main : ∀ acts l out m', some (acts, l) ∈ [o.result.map fun res => loopIter text ⟨true, 0, [], true,
          .threshold chainID vcfg.pubKey (fun _ => res), true⟩ (.live (some stream))] →
        Act.write out ∈ acts → readMsg out = some (m', []) → (∃ e, m' = .signedProposalResponse .zero (some e)) ∨
          ∃ sig, m' = .signedProposalResponse { p with signature := Slice.ofWire sig } none ∧
            (sig ≠ [] → ∃ bs, C.verify vcfg.pubKey bs sig = true ∧ (⟨p.height, p.round, stepPropose⟩ = k → M bs)) := by
      intro acts l out m' ha hw hr
      obtain ⟨sig, stamp, e, hres, r, hh, rfl⟩ := key _ _ _ _ ha hw hr
      cases handle_replies hh with
      | @proposalFailed _ _ v2 e' h' =>
        have := read_written (r := .signedProposalResponse .zero (some ⟨0, text e'⟩))
          ⟨⟨by decide, by decide, by decide, by decide, by decide, by decide, by decide, by decide⟩,
            by rintro x hx'; rw [← Option.some.inj hx']; exact ⟨by show IsI32 0; decide, htext e'⟩⟩ hr
        exact .inl ⟨_, this⟩
      | other _ h' _ _ => exact absurd rfl (h' _ _)
      | @proposal _ _ v2 h' =>
        right
        simp only [PV.threshold, hvb, Ret.ret.injEq] at h'
        obtain ⟨rfl, rfl⟩ := h'
        obtain ⟨id, b', hret⟩ := ret _ _ hres
        obtain ⟨hst, hsig⟩ := h3 _ _ _ _ hret
        obtain ⟨g3, g4, hbt⟩ : b.hrs = ⟨p.height, p.round, stepPropose⟩ ∧ proposalSignBytes chainID p = .ok b.signBytes ∧
            b.timestamp = p.timestamp := by
          unfold proposalBlock at hvb
          split at hvb
          · cases hvb
          · cases hvb
          · next bs hbs =>
            simp only [Out.ok.injEq] at hvb
            subst hvb
            exact ⟨rfl, hbs, rfl⟩
        rw [hst, hbt] at hr
        have hlen : sig.bytes.length ≤ 64 := by
          by_cases he : sig.bytes = []
          · rw [he]; decide
          · obtain ⟨bs, e1, _⟩ := hsig he
            rw [h64 _ _ _ e1]
        have hval : p.blockID.hash.length + p.blockID.pshHash.length ≤ 64 := by
          obtain ⟨cb, hcb, _⟩ := proposalSignBytes_ok (hv.wf hc.1) g4
          exact BlockID.valid_len (canonicalizeBlockID_ok hcb).2.2
        have hwr : writeMsg (.signedProposalResponse (finishProposal p sig p.timestamp) none) =
            writeMsg (.signedProposalResponse { p with signature := Slice.ofWire sig.bytes } none) := by
          simp only [writeMsg, encPMsg, encPProposal, finishProposal, ofWire_bytes]
        rw [hwr] at hr
        have := read_written (r := .signedProposalResponse { p with signature := Slice.ofWire sig.bytes } none)
          ⟨⟨hv.type, hv.height, hv.round, hv.polRound, hv.total, hv.time, wireSig_ne _, by
            simp only [ofWire_bytes]
            omega⟩, by simp⟩ hr
        refine ⟨sig.bytes, this, fun hne' => ?_⟩
        obtain ⟨bs, e1, e2, _⟩ := hsig hne'
        exact ⟨bs, e1, fun hk => e2 (g3.trans hk)⟩
    refine ⟨?_, ?_⟩
    · rintro p' ⟨acts, l, out, ha, hw, hr⟩ hne
      rcases main _ _ _ _ ha hw hr with ⟨e, he⟩ | ⟨sig, he, g5⟩ <;> cases he
    · rintro v' ⟨acts, l, out, ha, hw, hr⟩ hne
      rcases main _ _ _ _ ha hw hr with ⟨e, he⟩ | ⟨sig, he, g5⟩
      · cases he
      · simp only [PMsg.signedProposalResponse.injEq, and_true] at he
        subst he
        have hne' : sig ≠ [] := by
          intro he
          apply hne
          simp [he, Slice.ofWire]
        obtain ⟨bs, e1, e2⟩ := g5 hne'
        exact ⟨bs, sig, by simp [Slice.ofWire, hne'], e1,
          ⟨hv.height, hv.round, hv.polRound, hv.total, hc.1⟩, e2⟩

/-- Bytes from a chain node. -/
theorem Safe.serve {t f : Nat} (hnt : n + f < 2 * t) (hV : vcfg.threshold = t) {faulty : Finset Nat} (hf : faulty.card ≤ f)
    {k : HRS} (h64 : ∀ pk m sig, C.verify pk m sig = true → sig.length = 64) {text : Err → Bytes}
    (htext : ∀ e, (text e).length < 2 ^ 62) (hkey : vcfg.pubKey.length < 2 ^ 62) {chainID : Bytes} (hc : ChainOk chainID)
    {M : Bytes → Prop} {K : SSC → Prop} {s : Sys} (h : Safe C vcfg.pubKey n t faulty k M K s) (stream : Bytes) {way : Way}
    (hnd : ((way.leader, way.id) :: way.hops).Nodup) (hfree : ∀ h ∈ way.hops, (s.vs h.1).calls h.2 = none) :
    let x := s.serve text C vcfg cfg n chainID stream way
    ∃ M' : Bytes → Prop, (∀ bs, M bs → M' bs) ∧
      Safe C vcfg.pubKey n t faulty k M' (fun r => K r ∨ ∃ p, r ∈ (x.2.vs p).emitted) x.2 ∧
      GivenTo C vcfg.pubKey chainID k M' [x.1] := by
  intro x
  have hx : s.serve text C vcfg cfg n chainID stream way = x := rfl
  unfold Sys.serve at hx
  simp only at hx
  cases hm : readMsg stream with
  | none =>
    rw [hm] at hx
    simp only at hx
    rw [← hx]
    refine ⟨M, fun _ h => h, h.idle, ?_, ?_⟩
    · rintro v ⟨acts, l, out, ha, hw, _⟩
      simp only [List.mem_singleton, Option.some.injEq] at ha
      simp only [loopIter, if_true, dialPhase, servePhase, hm] at ha
      rw [(Prod.mk.inj ha).1] at hw
      simp at hw
    · rintro v ⟨acts, l, out, ha, hw, _⟩
      simp only [List.mem_singleton, Option.some.injEq] at ha
      simp only [loopIter, if_true, dialPhase, servePhase, hm] at ha
      rw [(Prod.mk.inj ha).1] at hw
      simp at hw
  | some mr =>
    obtain ⟨m, rest⟩ := mr
    rw [hm] at hx
    simp only at hx
    have hro := readMsg_readOk hm
    cases hb : m.block chainID with
    | none =>
      rw [hb] at hx
      simp only at hx
      rw [← hx]
      -- the answers to requests without a block
      have key : ∀ acts l out m', some (acts, l) ∈ [some (loopIter text ⟨true, 0, [], true, .threshold chainID vcfg.pubKey
            (fun _ : Block => ((none : Slice), GoTime.zero, (none : Option Err))), true⟩ (.live (some stream)))] →
          Act.write out ∈ acts → readMsg out = some (m', []) →
          (∀ v, m' ≠ .signedVoteResponse v none) ∧ ∀ p, m' ≠ .signedProposalResponse p none := by
        intro acts l out m' ha hw hr
        simp only [List.mem_singleton, Option.some.injEq] at ha
        obtain ⟨r, hh, rfl⟩ := read_none hw hm (congrArg Prod.fst ha).symm rfl rfl hr
        cases handle_replies hh with
        | @vote v c v' h' =>
          exfalso
          cases v with
          | none => simp [PV.threshold] at h'
          | some v =>
            simp only [PMsg.block] at hb
            simp only [PV.threshold] at h'
            cases hvb : voteBlock chainID v with
            | ok b => rw [hvb] at hb; cases hb
            | err e => rw [hvb] at h'; cases h'
            | panic => rw [hvb] at h'; cases h'
        | @voteFailed v c v' e h' =>
          have := read_written (r := .signedVoteResponse .zero (some ⟨0, text e⟩))
            ⟨⟨by decide, by decide, by decide, by decide, by decide, by decide, by decide, by decide⟩,
              by rintro x hx'; rw [← Option.some.inj hx']; exact ⟨by show IsI32 0; decide, htext e⟩⟩ hr
          subst this
          exact ⟨by simp, by simp⟩
        | @proposal v c v' h' =>
          exfalso
          cases v with
          | none => simp [PV.threshold] at h'
          | some v =>
            simp only [PMsg.block] at hb
            simp only [PV.threshold] at h'
            cases hvb : proposalBlock chainID v with
            | ok b => rw [hvb] at hb; cases hb
            | err e => rw [hvb] at h'; cases h'
            | panic => rw [hvb] at h'; cases h'
        | @proposalFailed v c v' e h' =>
          have := read_written (r := .signedProposalResponse .zero (some ⟨0, text e⟩))
            ⟨⟨by decide, by decide, by decide, by decide, by decide, by decide, by decide, by decide⟩,
              by rintro x hx'; rw [← Option.some.inj hx']; exact ⟨by show IsI32 0; decide, htext e⟩⟩ hr
          subst this
          exact ⟨by simp, by simp⟩
        | @pubKey c k' h' =>
          simp only [PV.threshold, Except.ok.injEq] at h'
          subst h'
          have := read_written (r := .pubKeyResponse (.ed25519 vcfg.pubKey) none) ⟨hkey, by simp⟩ hr
          subst this
          exact ⟨by simp, by simp⟩
        | pubKeyFailed h' => simp [PV.threshold] at h'
        | ping =>
          have := read_written (r := .pingResponse) trivial hr
          subst this
          exact ⟨by simp, by simp⟩
        | other _ _ _ _ =>
          have := read_written (r := .empty) trivial hr
          subst this
          exact ⟨by simp, by simp⟩
      refine ⟨M, fun _ h => h, h.idle, ?_, ?_⟩
      · rintro v ⟨acts, l, out, ha, hw, hr⟩
        exact absurd rfl ((key _ _ _ _ ha hw hr).1 v)
      · rintro v ⟨acts, l, out, ha, hw, hr⟩
        exact absurd rfl ((key _ _ _ _ ha hw hr).2 v)
    | some b =>
      rw [hb] at hx
      simp only at hx
      obtain ⟨hty, hu, _⟩ := read_block hc hro hb
      obtain ⟨M', h1, h2, h3⟩ := h.via (cfg := cfg) (chainID := chainID) hnt hV hf h64
        (Nat.lt_of_lt_of_le hc.1 (by decide)) hty hu hnd hfree
      rw [← hx]
      refine ⟨M', h1, h2, ?_⟩
      simp only
      exact given_of_ret h64 htext hc hm hb _ (by
        intro id b' sig stamp hr
        exact h3 id b' sig stamp hr)

/-- Everything that happens. -/
theorem Safe.runNode {t f : Nat} (hnt : n + f < 2 * t) (hV : vcfg.threshold = t) {faulty : Finset Nat} (hf : faulty.card ≤ f)
    {k : HRS} (h64 : ∀ pk m sig, C.verify pk m sig = true → sig.length = 64) {text : Err → Bytes}
    (htext : ∀ e, (text e).length < 2 ^ 62) (hkey : vcfg.pubKey.length < 2 ^ 62) {chainID : Bytes} (hc : ChainOk chainID) :
    ∀ (es : List NodeEv) (M : Bytes → Prop) (K : SSC → Prop) (s : Sys), Safe C vcfg.pubKey n t faulty k M K s →
      Bears text C vcfg cfg n chainID faulty k K s es →
      ∃ M' : Bytes → Prop, (∀ bs, M bs → M' bs) ∧ (∀ bs bs', M' bs → M' bs' → DifferOnlyByTime k.step bs bs') ∧
        GivenTo C vcfg.pubKey chainID k M' (s.runNode text C vcfg cfg n chainID es).1 := by
  intro es
  induction es with
  | nil =>
    intro M K s h _
    refine ⟨M, fun _ h => h, h.agree, ?_, ?_⟩ <;> rintro _ ⟨_, _, _, ha, _⟩ <;> simp [Sys.runNode] at ha
  | cons e es ih =>
    intro M K s h hB
    cases e with
    | bytes stream way =>
      obtain ⟨hnd, hfree, hB⟩ := hB
      obtain ⟨M1, a1, a2, a3⟩ := h.serve hnt hV hf h64 htext hkey hc stream hnd hfree
      obtain ⟨M2, b1, b2, b3⟩ := ih M1 _ _ a2 hB
      refine ⟨M2, fun bs h => b1 bs (a1 bs h), b2, ?_, ?_⟩
      · rintro v ⟨acts, l, out, ha, hw, hr⟩ hne
        simp only [Sys.runNode, List.mem_cons] at ha
        rcases ha with ha | ha
        · obtain ⟨st, bs, sig, c1, c2, c3, c4, c5, c6⟩ := a3.votes v ⟨acts, l, out, by simp [ha], hw, hr⟩ hne
          exact ⟨st, bs, sig, c1, c2, c3, c4, c5, fun hk => b1 _ (c6 hk)⟩
        · exact b3.votes v ⟨acts, l, out, ha, hw, hr⟩ hne
      · rintro p ⟨acts, l, out, ha, hw, hr⟩ hne
        simp only [Sys.runNode, List.mem_cons] at ha
        rcases ha with ha | ha
        · obtain ⟨bs, sig, c3, c4, c5, c6⟩ := a3.proposals p ⟨acts, l, out, by simp [ha], hw, hr⟩ hne
          exact ⟨bs, sig, c3, c4, c5, fun hk => b1 _ (c6 hk)⟩
        · exact b3.proposals p ⟨acts, l, out, ha, hw, hr⟩ hne
    | sys e =>
      obtain ⟨hob, hdel, hres, hB⟩ := hB
      simp only [Sys.runNode]
      by_cases hs : ∃ q, e = .sign q
      · obtain ⟨q, rfl⟩ := hs
        have hu : unpackHRST q.block.signBytes = .ok q.block.key := hob
        obtain ⟨M1, a1, a2, a3⟩ := h.sign hnt hf hu (signBlock_did (C := C) (vcfg := vcfg) (cfg := cfg) (n := n) hV s q hu)
        obtain ⟨M2, b1, b2, b3⟩ := ih M1 _ _ a2 hB
        exact ⟨M2, fun bs h => b1 bs (a1 bs h), b2, b3⟩
      · have a2 := h.other (C := C) (vcfg := vcfg) (cfg := cfg) (fun q hq => hs ⟨q, hq⟩) hdel hres
        exact ih M _ _ a2 hB

/-- A cluster that starts with genuine records, none of them for the block `k`. -/
theorem Safe.start {t : Nat} {pub : Bytes} {faulty : Finset Nat} {k : HRS} {K : SSC → Prop} {lv lc : Nat → SignState}
    (hK : ∀ r, K r → ∀ sig, r.signature = some sig → C.verify pub r.signBytes.bytes sig = true ∧ r.hrs ≠ k)
    (hlv : ∀ p h r, (lv p).cache h = some r → r.hrs = h ∧ K r) :
    Safe C pub n t faulty k (fun _ => False) K (Sys.start lv lc) := by
  refine ⟨fun _ h => h.elim, fun _ _ h => h.elim, fun r hr sig hs => ?_, fun p => ⟨?_, ?_⟩⟩
  · exact ⟨(hK r hr sig hs).1, fun h => absurd h (hK r hr sig hs).2⟩
  · exact hlv p
  · simp [Sys.start, VState.start]

/-- Signed votes of one type for one height and round that were given out. -/
theorem GivenTo.same_vote {pub chainID : Bytes} {M : Bytes → Prop} {outs outs' : List (Option (List Act × Loop))} {v v' : Vote}
    (hG : GivenTo C pub chainID ⟨v.height, v.round, if v.type = 1 then 2 else 3⟩ M outs)
    (hG' : GivenTo C pub chainID ⟨v.height, v.round, if v.type = 1 then 2 else 3⟩ M outs')
    (hag : ∀ bs bs', M bs → M bs' → DifferOnlyByTime (if v.type = 1 then 2 else 3) bs bs') (htype : v.type = v'.type)
    (hheight : v.height = v'.height) (hround : v.round = v'.round) (hv : Reads outs (.signedVoteResponse v none))
    (hv' : Reads outs' (.signedVoteResponse v' none)) (hs : v.signature ≠ none) (hs' : v'.signature ≠ none) :
    v.blockID = v'.blockID := by
  have step : ∀ {ty st : Int}, voteTypeToStep ty = .ok st → st = if ty = 1 then 2 else 3 := by
    intro ty st h
    unfold voteTypeToStep at h
    split at h
    · next h1 => simp only [Out.ok.injEq] at h; subst h; rw [if_pos h1]; rfl
    · next h1 =>
      split at h
      · simp only [Out.ok.injEq] at h; subst h; rw [if_neg h1]; rfl
      · cases h
  obtain ⟨st, bs, sig, a1, a2, a3, a4, a5, a6⟩ := hG.votes v hv hs
  obtain ⟨st', bs', sig', b1, b2, b3, b4, b5, b6⟩ := hG'.votes v' hv' hs'
  have m1 := a6 (by rw [step a1])
  have m2 := b6 (by rw [step b1, ← htype, ← hheight, ← hround])
  obtain ⟨c, c1, c2⟩ := decodeVote_signBytes a5 a2
  obtain ⟨d, d1, d2⟩ := decodeVote_signBytes b5 b2
  rcases hag _ _ m1 m2 with ⟨hst, _⟩ | ⟨_, x, y, e1, e2, e3⟩
  · split at hst <;> cases hst
  · rw [c2] at e1; rw [d2] at e2
    simp only [Option.some.injEq] at e1 e2
    subst e1; subst e2
    have := e3.2.2.2.1
    simp only at this
    subst this
    exact canonicalizeBlockID_inj c1 d1

/-- Signed proposals for one height and round that were given out. -/
theorem GivenTo.same_proposal {pub chainID : Bytes} {M : Bytes → Prop} {outs outs' : List (Option (List Act × Loop))}
    {p p' : Proposal} (hG : GivenTo C pub chainID ⟨p.height, p.round, 1⟩ M outs)
    (hG' : GivenTo C pub chainID ⟨p.height, p.round, 1⟩ M outs')
    (hag : ∀ bs bs', M bs → M bs' → DifferOnlyByTime 1 bs bs') (hheight : p.height = p'.height) (hround : p.round = p'.round)
    (hp : Reads outs (.signedProposalResponse p none)) (hp' : Reads outs' (.signedProposalResponse p' none))
    {sig sig' bs bs' : Bytes} (hs : p.signature = some sig) (hs' : p'.signature = some sig')
    (hbs : proposalSignBytes chainID p = .ok bs) (hbs' : proposalSignBytes chainID p' = .ok bs')
    (hver : C.verify pub bs sig = true) (hver' : C.verify pub bs' sig' = true) :
    (p.blockID = p'.blockID ∧ p.polRound = p'.polRound) ∨ ForTwoMessages C pub sig ∨ ForTwoMessages C pub sig' := by
  obtain ⟨x, sg, a1, a2, a3, a4⟩ := hG.proposals p hp (by simp [hs])
  obtain ⟨y, sg', b1, b2, b3, b4⟩ := hG'.proposals p' hp' (by simp [hs'])
  rw [hs] at a1; rw [hs'] at b1
  simp only [Option.some.injEq] at a1 b1
  subst a1; subst b1
  by_cases hx : x = bs
  · by_cases hy : y = bs'
    · subst hx; subst hy
      left
      have m1 := a4 rfl
      have m2 := b4 (by rw [← hheight, ← hround]; rfl)
      obtain ⟨c, c1, c2⟩ := decodeProposal_signBytes a3 hbs
      obtain ⟨d, d1, d2⟩ := decodeProposal_signBytes b3 hbs'
      rcases hag _ _ m1 m2 with ⟨_, x, y, e1, e2, e3⟩ | ⟨hst, _⟩
      · rw [c2] at e1; rw [d2] at e2
        simp only [Option.some.injEq] at e1 e2
        subst e1; subst e2
        have := e3.2.2.2.2.1
        simp only at this
        subst this
        exact ⟨canonicalizeBlockID_inj c1 d1, e3.2.2.2.1⟩
      · simp at hst
    · exact .inr (.inr ⟨_, _, hy, b2, hver'⟩)
  · exact .inr (.inl ⟨_, _, hx, a2, hver⟩)

/-- C102: up to `f` of the `n` cosigners are `faulty`: their files may hold anything whenever they start; the files of the
others hold what was written. Chain nodes send any bytes to any nodes; their requests go on any ways, answered by any
cosigners; other nodes make sign requests, deliver raft records and start again at any time, as in `Bears`. If `n + f < 2t`
then no two answers that chain nodes read hold signed votes of one type for one height and round and two blocks: whichever
nodes they asked, and whatever was sent. -/
theorem C102_votes (t f : Nat) (hnt : n + f < 2 * t) (hV : vcfg.threshold = t) (faulty : Finset Nat) (hf : faulty.card ≤ f)
    (h64 : ∀ pk m sig, C.verify pk m sig = true → sig.length = 64) (text : Err → Bytes)
    (htext : ∀ e, (text e).length < 2 ^ 62) (hkey : vcfg.pubKey.length < 2 ^ 62) (chainID : Bytes) (hc : ChainOk chainID)
    (v v' : Vote) (htype : v.type = v'.type) (hheight : v.height = v'.height) (hround : v.round = v'.round)
    (K : SSC → Prop) (lv lc : Nat → SignState)
    (hK : ∀ r, K r → ∀ sig, r.signature = some sig → C.verify vcfg.pubKey r.signBytes.bytes sig = true ∧
      r.hrs ≠ ⟨v.height, v.round, if v.type = 1 then 2 else 3⟩)
    (hlv : ∀ p h r, (lv p).cache h = some r → r.hrs = h ∧ K r) (es : List NodeEv)
    (hB : Bears text C vcfg cfg n chainID faulty ⟨v.height, v.round, if v.type = 1 then 2 else 3⟩ K (Sys.start lv lc) es)
    (hv : Reads ((Sys.start lv lc).runNode text C vcfg cfg n chainID es).1 (.signedVoteResponse v none))
    (hv' : Reads ((Sys.start lv lc).runNode text C vcfg cfg n chainID es).1 (.signedVoteResponse v' none))
    (hs : v.signature ≠ none) (hs' : v'.signature ≠ none) : v.blockID = v'.blockID := by
  obtain ⟨M, _, hag, hG⟩ := Safe.runNode hnt hV hf h64 htext hkey hc es _ K _ (Safe.start (n := n) (t := t) (faulty := faulty) hK hlv) hB
  exact hG.same_vote hG hag htype hheight hround hv hv' hs hs'

/-- C102, that it is a signature: every signed vote that a chain node reads verifies over its own sign bytes. -/
theorem C102_verify (t f : Nat) (hnt : n + f < 2 * t) (hV : vcfg.threshold = t) (faulty : Finset Nat) (hf : faulty.card ≤ f)
    (h64 : ∀ pk m sig, C.verify pk m sig = true → sig.length = 64) (text : Err → Bytes)
    (htext : ∀ e, (text e).length < 2 ^ 62) (hkey : vcfg.pubKey.length < 2 ^ 62) (chainID : Bytes) (hc : ChainOk chainID)
    (k : HRS) (K : SSC → Prop) (lv lc : Nat → SignState)
    (hK : ∀ r, K r → ∀ sig, r.signature = some sig → C.verify vcfg.pubKey r.signBytes.bytes sig = true ∧ r.hrs ≠ k)
    (hlv : ∀ p h r, (lv p).cache h = some r → r.hrs = h ∧ K r) (es : List NodeEv)
    (hB : Bears text C vcfg cfg n chainID faulty k K (Sys.start lv lc) es) (v : Vote)
    (hv : Reads ((Sys.start lv lc).runNode text C vcfg cfg n chainID es).1 (.signedVoteResponse v none))
    (hs : v.signature ≠ none) :
    ∃ bs sig, voteSignBytes chainID v = .ok bs ∧ v.signature = some sig ∧ C.verify vcfg.pubKey bs sig = true := by
  obtain ⟨M, _, hag, hG⟩ := Safe.runNode hnt hV hf h64 htext hkey hc es _ K _ (Safe.start (n := n) (t := t) (faulty := faulty) hK hlv) hB
  obtain ⟨st, bs, sig, a1, a2, a3, a4, a5, a6⟩ := hG.votes v hv hs
  exact ⟨bs, sig, a2, a3, a4⟩

/-- C102 for proposals: two answers hold proposals for one height and round, each with a signature that verifies over the
sign bytes of the proposal. Then they are for one block and one POL round, or a signature verifies over two messages. -/
theorem C102_proposals (t f : Nat) (hnt : n + f < 2 * t) (hV : vcfg.threshold = t) (faulty : Finset Nat) (hf : faulty.card ≤ f)
    (h64 : ∀ pk m sig, C.verify pk m sig = true → sig.length = 64) (text : Err → Bytes)
    (htext : ∀ e, (text e).length < 2 ^ 62) (hkey : vcfg.pubKey.length < 2 ^ 62) (chainID : Bytes) (hc : ChainOk chainID)
    (p p' : Proposal) (hheight : p.height = p'.height) (hround : p.round = p'.round)
    (K : SSC → Prop) (lv lc : Nat → SignState)
    (hK : ∀ r, K r → ∀ sig, r.signature = some sig → C.verify vcfg.pubKey r.signBytes.bytes sig = true ∧
      r.hrs ≠ ⟨p.height, p.round, 1⟩)
    (hlv : ∀ q h r, (lv q).cache h = some r → r.hrs = h ∧ K r) (es : List NodeEv)
    (hB : Bears text C vcfg cfg n chainID faulty ⟨p.height, p.round, 1⟩ K (Sys.start lv lc) es)
    (hp : Reads ((Sys.start lv lc).runNode text C vcfg cfg n chainID es).1 (.signedProposalResponse p none))
    (hp' : Reads ((Sys.start lv lc).runNode text C vcfg cfg n chainID es).1 (.signedProposalResponse p' none))
    (sig sig' bs bs' : Bytes) (hs : p.signature = some sig) (hs' : p'.signature = some sig')
    (hbs : proposalSignBytes chainID p = .ok bs) (hbs' : proposalSignBytes chainID p' = .ok bs')
    (hver : C.verify vcfg.pubKey bs sig = true) (hver' : C.verify vcfg.pubKey bs' sig' = true) :
    (p.blockID = p'.blockID ∧ p.polRound = p'.polRound) ∨ ForTwoMessages C vcfg.pubKey sig ∨
      ForTwoMessages C vcfg.pubKey sig' := by
  obtain ⟨M, _, hag, hG⟩ := Safe.runNode hnt hV hf h64 htext hkey hc es _ K _ (Safe.start (n := n) (t := t) (faulty := faulty) hK hlv) hB
  exact hG.same_proposal hG hag hheight hround hp hp' hs hs' hbs hbs' hver hver'

end

/-! ### A concrete cluster -/

/-- The signed messages in what was written. -/
def signedIn (outs : List (Option (List Act × Loop))) : List PMsg :=
  outs.flatMap fun o => match o with
    | none => []
    | some (acts, _) => acts.filterMap fun a => match a with
      | .write out => match readMsg out with
        | some (m, []) => some m
        | _ => none
      | _ => none

theorem signedIn_reads {outs : List (Option (List Act × Loop))} {m : PMsg} (h : m ∈ signedIn outs) : Reads outs m := by
  unfold signedIn at h
  rw [List.mem_flatMap] at h
  obtain ⟨o, ho, h⟩ := h
  split at h
  · cases h
  · next acts l =>
    rw [List.mem_filterMap] at h
    obtain ⟨a, ha, h⟩ := h
    split at h
    · next out =>
      split at h
      · next m' hr => simp only [Option.some.injEq] at h; subst h; exact ⟨acts, l, out, ho, ha, hr⟩
      · cases h
    · cases h

/-- The same vote for another block. -/
def vote1x : Vote := { vote1 with blockID := ⟨List.replicate 32 7, 1, List.replicate 32 6⟩ }

/-- A vote is asked of node 2, led by 3, signed with 1. -/
def nev1 : NodeEv := .bytes (writeMsg (.signVoteRequest (some vote1) [97])) (fway [(2, 5)] 0 3 [3, 1])

/-- The cluster after that. -/
def nst1 : Sys :=
  ((Sys.start (fun _ => .empty) (fun _ => .empty)).serve (fun _ => []) ftoy ⟨2, fsc (42 • 1)⟩ fcfg 3 [97]
    (writeMsg (.signVoteRequest (some vote1) [97])) (fway [(2, 5)] 0 3 [3, 1])).2

/-- Node 3 starts again, with nothing in its validator's file; node 1 leads and is asked for another block; node 3 leads and
is asked for the vote with another time; node 1 is asked for the first vote once more. -/
def nevs : List NodeEv :=
  [nev1, .sys (.restart 3 .empty (nst1.cs 3).lss),
   .bytes (writeMsg (.signVoteRequest (some vote1x) [97])) (fway [(3, 1)] 1 1 [1, 2]),
   .bytes (writeMsg (.signVoteRequest (some vote2) [97])) (fway [(1, 8)] 1 3 [3, 1]),
   .bytes (writeMsg (.signVoteRequest (some vote1) [97])) (fway [] 2 1 [1, 3])]

/-- What chain nodes read. -/
def nread (es : List NodeEv) : List PMsg :=
  signedIn ((Sys.start (fun _ => .empty) (fun _ => .empty)).runNode (fun _ => []) ftoy ⟨2, fsc (42 • 1)⟩ fcfg 3 [97] es).1

theorem nevs_bears : Bears (fun _ => []) ftoy ⟨2, fsc (42 • 1)⟩ fcfg 3 [97] ∅ ⟨7, 1, 3⟩ (fun _ => False)
    (Sys.start (fun _ => .empty) (fun _ => .empty)) nevs := by
  have free : ∀ {o : Option (Block × Phase)}, o.isNone = true → o = none := fun h => Option.isNone_iff_eq_none.1 h
  refine ⟨by decide, ?_, trivial, by simp, ?_, by decide, ?_, by decide, ?_, by decide, by simp [fway], trivial⟩
  · intro h hh
    simp only [fway, List.mem_singleton] at hh
    subst hh
    exact free (by decide +kernel)
  · intro p lv lc he
    simp only [SysEv.restart.injEq] at he
    obtain ⟨rfl, rfl, rfl⟩ := he
    refine ⟨(by intro h r hr; cases hr), fun _ => ?_⟩
    have : (nst1.cs 3).lss.hrs = ⟨7, 1, 3⟩ := by decide +kernel
    rw [← nst1]
    exact fun _ => .inr ⟨this, this, rfl⟩
  · intro h hh
    simp only [fway, List.mem_singleton] at hh
    subst hh
    exact free (by decide +kernel)
  · intro h hh
    simp only [fway, List.mem_singleton] at hh
    subst hh
    exact free (by decide +kernel)

/-- Concretely: the vote is signed; the vote for another block is refused; the vote with another time is signed; and the last
request is refused. -/
example : (nread nevs).map (fun m => match m with
      | .signedVoteResponse v e => some (v.blockID.hash.take 1, v.timestamp.sec, v.signature.isSome, e.isSome)
      | _ => none) =
    [some ([5], 1600000000, true, false), some ([], -62135596800, false, true), some ([5], 1600000001, true, false),
     some ([], -62135596800, false, true)] := by
  decide +kernel

/-- And so both signed votes are for one block. -/
example : ∃ v v', Reads ((Sys.start (fun _ => .empty) (fun _ => .empty)).runNode (fun _ => []) ftoy ⟨2, fsc (42 • 1)⟩ fcfg 3
      [97] nevs).1 (.signedVoteResponse v none) ∧
    Reads ((Sys.start (fun _ => .empty) (fun _ => .empty)).runNode (fun _ => []) ftoy ⟨2, fsc (42 • 1)⟩ fcfg 3
      [97] nevs).1 (.signedVoteResponse v' none) ∧
    v.timestamp ≠ v'.timestamp ∧ v.blockID = v'.blockID ∧
    ∃ bs sig, voteSignBytes [97] v = .ok bs ∧ v.signature = some sig ∧ ftoy.verify (fsc (42 • 1)) bs sig = true := by
  have pick : ∀ i : Nat, ((nread nevs)[i]?.elim false fun (m : PMsg) => match m with
        | .signedVoteResponse v none => v.signature.isSome && decide (v.type = 2 ∧ v.height = 7 ∧ v.round = 1) &&
            decide (v.timestamp.sec = 1600000000 + if i = 0 then 0 else 1)
        | _ => false) = true →
      ∃ v, Reads ((Sys.start (fun _ => .empty) (fun _ => .empty)).runNode (fun _ => []) ftoy ⟨2, fsc (42 • 1)⟩ fcfg 3
        [97] nevs).1 (.signedVoteResponse v none) ∧ v.signature ≠ none ∧ v.type = 2 ∧ v.height = 7 ∧ v.round = 1 ∧
        v.timestamp.sec = 1600000000 + if i = 0 then 0 else 1 := by
    intro i h
    cases hm : (nread nevs)[i]? with
    | none => rw [hm] at h; cases h
    | some m =>
      rw [hm] at h
      simp only [Option.elim_some] at h
      split at h
      · next v =>
        simp only [Bool.and_eq_true, decide_eq_true_eq] at h
        refine ⟨v, signedIn_reads (List.mem_of_getElem? hm), ?_, h.1.2.1, h.1.2.2.1, h.1.2.2.2, h.2⟩
        intro hn; rw [hn] at h; simp at h
      · cases h
  obtain ⟨v, h1, h2, h3, h4, h5, h6⟩ := pick 0 (by decide +kernel)
  obtain ⟨v', g1, g2, g3, g4, g5, g6⟩ := pick 2 (by decide +kernel)
  refine ⟨v, v', h1, g1, ?_, ?_, ?_⟩
  · intro h; rw [h, g6] at h6; exact absurd h6 (by decide)
  · exact C102_votes 2 0 (by decide) rfl ∅ (by decide) ftoy64 (fun _ => []) (by intro; simp) (by decide +kernel) [97]
      ⟨by decide, by decide, by decide⟩ v v' (h3.trans g3.symm) (h4.trans g4.symm) (h5.trans g5.symm) (fun _ => False) _ _
      (by intro r h; exact h.elim) (by intro p h r hr; cases hr) nevs (by rw [h3, h4, h5]; exact nevs_bears) h1 g1 h2 g2
  · exact C102_verify 2 0 (by decide) rfl ∅ (by decide) ftoy64 (fun _ => []) (by intro; simp) (by decide +kernel) [97]
      ⟨by decide, by decide, by decide⟩ ⟨7, 1, 3⟩ (fun _ => False) _ _ (by intro r h; exact h.elim)
      (by intro p h r hr; cases hr) nevs nevs_bears v h1 h2

/-- A proposal is asked of node 2, led by 3; then one for another block; then the first once more. -/
def npevs : List NodeEv :=
  [.bytes (writeMsg (.signProposalRequest (some fprop) [97])) (fway [(2, 5)] 0 3 [3, 1]),
   .bytes (writeMsg (.signProposalRequest (some { fprop with blockID := vote1x.blockID }) [97])) (fway [] 1 1 [1, 2]),
   .bytes (writeMsg (.signProposalRequest (some fprop) [97])) (fway [] 2 3 [3, 1])]

/-- The first and the last are answered with a signature that verifies over the sign bytes, and are for one block; the other
is refused. -/
example : ∃ p p' sig sig', Reads ((Sys.start (fun _ => .empty) (fun _ => .empty)).runNode (fun _ => []) ftoy ⟨2, fsc (42 • 1)⟩
      fcfg 3 [97] npevs).1 (.signedProposalResponse p none) ∧
    Reads ((Sys.start (fun _ => .empty) (fun _ => .empty)).runNode (fun _ => []) ftoy ⟨2, fsc (42 • 1)⟩
      fcfg 3 [97] npevs).1 (.signedProposalResponse p' none) ∧ p.signature = some sig ∧ p'.signature = some sig' ∧
    ((p.blockID = p'.blockID ∧ p.polRound = p'.polRound) ∨ ForTwoMessages ftoy (fsc (42 • 1)) sig ∨
      ForTwoMessages ftoy (fsc (42 • 1)) sig') := by
  have pick : ∀ i : Nat, ((nread npevs)[i]?.elim false fun (m : PMsg) => match m with
        | .signedProposalResponse p none => (match p.signature with
          | some sig => decide (p.height = 9 ∧ p.round = 0) && decide (proposalSignBytes [97] p = .ok fpropBytes) &&
              ftoy.verify (fsc (42 • 1)) fpropBytes sig
          | none => false)
        | _ => false) = true →
      ∃ p sig, Reads ((Sys.start (fun _ => .empty) (fun _ => .empty)).runNode (fun _ => []) ftoy ⟨2, fsc (42 • 1)⟩ fcfg 3
        [97] npevs).1 (.signedProposalResponse p none) ∧ p.signature = some sig ∧ p.height = 9 ∧ p.round = 0 ∧
        proposalSignBytes [97] p = .ok fpropBytes ∧ ftoy.verify (fsc (42 • 1)) fpropBytes sig = true := by
    intro i h
    cases hm : (nread npevs)[i]? with
    | none => rw [hm] at h; cases h
    | some m =>
      rw [hm] at h
      simp only [Option.elim_some] at h
      split at h
      · next p =>
        split at h
        · next sig hs =>
          simp only [Bool.and_eq_true, decide_eq_true_eq] at h
          exact ⟨p, sig, signedIn_reads (List.mem_of_getElem? hm), hs, h.1.1.1, h.1.1.2, h.1.2, h.2⟩
        · cases h
      · cases h
  obtain ⟨p, sig, h1, h2, h3, h4, h5, h6⟩ := pick 0 (by decide +kernel)
  obtain ⟨p', sig', g1, g2, g3, g4, g5, g6⟩ := pick 2 (by decide +kernel)
  refine ⟨p, p', sig, sig', h1, g1, h2, g2, ?_⟩
  refine C102_proposals 2 0 (by decide) rfl ∅ (by decide) ftoy64 (fun _ => []) (by intro; simp) (by decide +kernel) [97]
      ⟨by decide, by decide, by decide⟩ p p' (h3.trans g3.symm) (h4.trans g4.symm) (fun _ => False) _ _
      (by intro r h; exact h.elim) (by intro p h r hr; cases hr) npevs ?_ h1 g1 sig sig' _ _ h2 g2 h5 g5 h6 g6
  refine ⟨by decide, ?_, by decide, by simp [fway], by decide, by simp [fway], trivial⟩
  intro h hh
  simp only [fway, List.mem_singleton] at hh
  subst hh
  exact Option.isNone_iff_eq_none.1 (by decide +kernel)

/-- Node 3 loses its file after the first vote, and the others are asked for a vote for another block. -/
def nlost : List NodeEv :=
  [nev1, .sys (.restart 3 .empty .empty),
   .bytes (writeMsg (.signVoteRequest (some vote1x) [97])) (fway [] 1 3 [3, 2])]

/-- C102 needs `n + f < 2t`: in a 2-of-3 cluster one lost file (`n + f = 2t`) is enough for two signed precommits for two
blocks at one height and round, with everything else as in `C102_votes`. -/
theorem C102_lost_file_fails : ∃ (v v' : Vote) (es : List NodeEv),
    Bears (fun _ => []) ftoy ⟨2, fsc (42 • 1)⟩ fcfg 3 [97] {3} ⟨v.height, v.round, if v.type = 1 then 2 else 3⟩ (fun _ => False)
      (Sys.start (fun _ => .empty) (fun _ => .empty)) es ∧
    Reads ((Sys.start (fun _ => .empty) (fun _ => .empty)).runNode (fun _ => []) ftoy ⟨2, fsc (42 • 1)⟩ fcfg 3 [97] es).1
      (.signedVoteResponse v none) ∧
    Reads ((Sys.start (fun _ => .empty) (fun _ => .empty)).runNode (fun _ => []) ftoy ⟨2, fsc (42 • 1)⟩ fcfg 3 [97] es).1
      (.signedVoteResponse v' none) ∧
    v.signature ≠ none ∧ v'.signature ≠ none ∧ v.type = v'.type ∧ v.height = v'.height ∧ v.round = v'.round ∧
    v.blockID ≠ v'.blockID := by
  have pick : ∀ (i : Nat) (b : BlockID), ((nread nlost)[i]?.elim false fun (m : PMsg) => match m with
        | .signedVoteResponse v none => v.signature.isSome && decide (v.type = 2 ∧ v.height = 7 ∧ v.round = 1) &&
            decide (v.blockID = b)
        | _ => false) = true →
      ∃ v, Reads ((Sys.start (fun _ => .empty) (fun _ => .empty)).runNode (fun _ => []) ftoy ⟨2, fsc (42 • 1)⟩ fcfg 3
        [97] nlost).1 (.signedVoteResponse v none) ∧ v.signature ≠ none ∧ v.type = 2 ∧ v.height = 7 ∧ v.round = 1 ∧
        v.blockID = b := by
    intro i b h
    cases hm : (nread nlost)[i]? with
    | none => rw [hm] at h; cases h
    | some m =>
      rw [hm] at h
      simp only [Option.elim_some] at h
      split at h
      · next v =>
        simp only [Bool.and_eq_true, decide_eq_true_eq] at h
        refine ⟨v, signedIn_reads (List.mem_of_getElem? hm), ?_, h.1.2.1, h.1.2.2.1, h.1.2.2.2, h.2⟩
        intro hn; rw [hn] at h; simp at h
      · cases h
  obtain ⟨v, h1, h2, h3, h4, h5, h6⟩ := pick 0 vote1.blockID (by decide +kernel)
  obtain ⟨v', g1, g2, g3, g4, g5, g6⟩ := pick 1 vote1x.blockID (by decide +kernel)
  refine ⟨v, v', nlost, ?_, h1, g1, h2, g2, h3.trans g3.symm, h4.trans g4.symm, h5.trans g5.symm, ?_⟩
  · rw [h3, h4, h5]
    refine ⟨by decide, ?_, trivial, by simp, ?_, by decide, by simp [fway], trivial⟩
    · intro h hh
      simp only [fway, List.mem_singleton] at hh
      subst hh
      exact Option.isNone_iff_eq_none.1 (by decide +kernel)
    · intro p lv lc he
      simp only [SysEv.restart.injEq] at he
      obtain ⟨rfl, rfl, rfl⟩ := he
      exact ⟨(by intro h r hr; cases hr), fun h => absurd (by simp) h⟩
  · rw [h6, g6]; decide

end Horcrux
