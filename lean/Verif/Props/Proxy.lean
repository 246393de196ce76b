import Verif.Lemmas.Proxy
import Verif.Props.Grpc
import Verif.Props.System
/-
Property C67: a request to any node is answered as by the leader.
-/
namespace Horcrux
open Spec

/-- A block with Go's field types. -/
structure Block.Typed (b : Block) : Prop where
  height : IsI64 b.height
  round : IsI64 b.round
  step : IsI8 b.step
  size : b.signBytes.length < 2 ^ 63

theorem recv_block (chainID : Bytes) (b : Block) (h : b.Typed) (hc : Sent chainID) :
    recvSignBlock (sendSignBlock chainID b) = some (chainID, b.received) := by
  unfold recvSignBlock sendSignBlock
  have h32 : IsI32 b.step := by have := h.step; unfold IsI8 at this; unfold IsI32; omega
  rw [decode_signBlockReq chainID b.toProto ⟨h.height, h.round, h32, unixNano_is _, h.size⟩ hc]
  simp only [Option.map_some, Option.getD_some, Block.toProto, blockFromProto, i8_of_is h.step]
  rfl

theorem recv_block_none (chainID : Bytes) (b : Block) (hl : chainID.length < 2 ^ 63) (hT : ¬ IsText chainID) :
    recvSignBlock (sendSignBlock chainID b) = none := by
  have hu : utf8Valid chainID = false := by
    cases h : utf8Valid chainID with
    | false => rfl
    | true => exact absurd ((utf8Valid_iff _).1 h) hT
  have h0 : chainID ≠ [] := by rintro rfl; exact hT ⟨[], rfl⟩
  unfold recvSignBlock sendSignBlock encSignBlockReq
  rw [gdec_bytes_none signBlockReqHandler _ 0x0a chainID _ 1 rfl (by decide) (by decide) rfl rfl (by omega) h0
    (by simp [signBlockReqHandler, hu])]
  rfl

section
variable {C : Crypto} {vcfg : ValidatorCfg} {cfg : Nat → CosignerCfg} {n : Nat}

/-- The answer of a node that passed a request for `b` on and got `o`. -/
def passedOn (id : Nat) (b : Block) (o : VOut) : VOut :=
  match remoteAnswer o with
  | .ok sig => .ret id b sig b.timestamp none
  | .error e => .ret id b none b.timestamp (some e)

theorem setV_step_mark (s : Sys) (p id p' id' : Nat) (c : Option (Block × Phase)) (ev : VEv)
    (ha : ev.actor = some id') (h : (p, id) ≠ (p', id')) :
    (((s.mark p id c).vs p').step C vcfg ev).1 = ((s.vs p').step C vcfg ev).1 ∧
    (s.mark p id c).setV p' (((s.mark p id c).vs p').step C vcfg ev).2 =
      (s.setV p' ((s.vs p').step C vcfg ev).2).mark p id c := by
  by_cases hp : p' = p
  · subst hp
    have hid : ev.actor ≠ some id := by
      rw [ha]; intro h0; exact h (by rw [Option.some.inj h0])
    have e1 : (s.mark p' id c).vs p' = (s.vs p').mark id c := by simp [Sys.mark, Sys.setV]
    rw [e1, step_mark C vcfg _ ev id c hid]
    refine ⟨rfl, Sys.ext' (fun j => ?_) rfl⟩
    simp only [Sys.mark, Sys.setV, if_true]
    split <;> rfl
  · have e1 : (s.mark p id c).vs p' = s.vs p' := by simp [Sys.mark, Sys.setV, hp]
    rw [e1]
    refine ⟨rfl, Sys.ext' (fun j => ?_) rfl⟩
    simp only [Sys.mark, Sys.setV]
    by_cases h1 : j = p'
    · subst h1; simp [hp]
    · by_cases h2 : j = p
      · subst h2; simp [h1]
      · simp [h1, h2]

theorem signVia_mark (p id : Nat) (c : Option (Block × Phase)) :
    ∀ (hops : List (Nat × Nat)) (s : Sys) (chainID : Bytes) (q : Req), (p, id) ∉ hops →
      (p, id) ≠ (q.leader, q.id) →
      (s.mark p id c).signVia C vcfg cfg n chainID hops q =
        ((s.signVia C vcfg cfg n chainID hops q).1, (s.signVia C vcfg cfg n chainID hops q).2.mark p id c) := by
  intro hops
  induction hops with
  | nil => intro s chainID q _ h; exact signBlock_mark C vcfg cfg n s q p id c h
  | cons x hops ih =>
    intro s chainID q h0 h
    obtain ⟨p', id'⟩ := x
    have hx : (p, id) ≠ (p', id') := fun h1 => h0 (by rw [h1]; exact List.mem_cons_self ..)
    have hr : (p, id) ∉ hops := fun h1 => h0 (List.mem_cons_of_mem _ h1)
    simp only [Sys.signVia]
    rw [(setV_step_mark (C := C) (vcfg := vcfg) s p id p' id' c (.call id' q.block .follower) rfl hx).2]
    generalize s.setV p' ((s.vs p').step C vcfg (.call id' q.block .follower)).2 = s1
    cases hrec : recvSignBlock (sendSignBlock chainID q.block) with
    | none =>
      simp only
      have e := setV_step_mark (C := C) (vcfg := vcfg) s1 p id p' id' c (.proxyDone id' (.error .external)) rfl hx
      exact Prod.ext e.1 e.2
    | some cb =>
      simp only
      rw [ih s1 cb.1 { q with block := cb.2 } hr h]
      generalize s1.signVia C vcfg cfg n cb.1 hops { q with block := cb.2 } = r
      have e := setV_step_mark (C := C) (vcfg := vcfg) r.2 p id p' id' c (.proxyDone id' (remoteAnswer r.1)) rfl hx
      exact Prod.ext e.1 e.2

/-- One hop. -/
theorem signVia_cons (s : Sys) (chainID : Bytes) (p id : Nat) (hops : List (Nat × Nat)) (q : Req)
    (hb : q.block.Typed) (hc : Sent chainID) (hfree : (s.vs p).calls id = none) (hh : (p, id) ∉ hops)
    (hl : (p, id) ≠ (q.leader, q.id)) :
    s.signVia C vcfg cfg n chainID ((p, id) :: hops) q =
      (passedOn id q.block (s.signVia C vcfg cfg n chainID hops { q with block := q.block.received }).1,
        (s.signVia C vcfg cfg n chainID hops { q with block := q.block.received }).2) := by
  have e1 : ((s.vs p).step C vcfg (.call id q.block .follower)).2 = (s.vs p).mark id (some (q.block, .proxy)) := by
    simp only [VState.step, hfree]; rfl
  simp only [Sys.signVia, e1, recv_block chainID q.block hb hc]
  rw [show s.setV p ((s.vs p).mark id (some (q.block, .proxy))) = s.mark p id (some (q.block, .proxy)) from rfl,
    signVia_mark p id _ hops s chainID { q with block := q.block.received } hh hl]
  have e2 := signVia_mark (C := C) (vcfg := vcfg) (cfg := cfg) (n := n) p id none hops s chainID
    { q with block := q.block.received } hh hl
  rw [show s.mark p id none = s by rw [← hfree]; exact sysMark_self s p id] at e2
  have e3 : (s.signVia C vcfg cfg n chainID hops { q with block := q.block.received }).2 =
      (s.signVia C vcfg cfg n chainID hops { q with block := q.block.received }).2.mark p id none :=
    congrArg Prod.snd e2
  generalize s.signVia C vcfg cfg n chainID hops { q with block := q.block.received } = r at e3
  obtain ⟨o, s'⟩ := r
  simp only at e3 ⊢
  have e4 : (s'.mark p id (some (q.block, .proxy))).vs p = (s'.vs p).mark id (some (q.block, .proxy)) := by
    simp [Sys.mark, Sys.setV]
  have e5 : ((s'.vs p).mark id (some (q.block, .proxy))).calls id = some (q.block, .proxy) := by simp [mark_calls]
  have e6 : (s'.mark p id (some (q.block, .proxy))).setV p (((s'.vs p).mark id (some (q.block, .proxy))).finish id) = s' := by
    have := sysMark_mark s' p id (some (q.block, .proxy)) none
    rw [← e3] at this
    rw [finish_mark]
    rw [← e4]
    exact this
  rw [e4]
  simp only [VState.step, e5, passedOn]
  cases remoteAnswer o with
  | ok sig => simp only; rw [e6]
  | error e => simp only; rw [e6]

end

/-- What the sender of a request for `b` to the node with call `id` gets, given what the leader answers itself. -/
inductive Spec.SameAnswer (id : Nat) (b : Block) : (leader got : VOut) → Prop where
  /-- the leader's signature, with the time the request came with -/
  | sig (lid : Nat) (lb : Block) (ts : GoTime) (sig sig' : Slice) (h : sig'.bytes = sig.bytes) :
    SameAnswer id b (.ret lid lb sig ts none) (.ret id b sig' b.timestamp none)
  /-- an error, if the leader has no signature -/
  | err (o : VOut) (h : ∀ lid lb sig ts, o ≠ .ret lid lb sig ts none) :
    SameAnswer id b o (.ret id b none b.timestamp (some .external))

/-- The signature in an answer can be sent. -/
def VOut.SigSmall : VOut → Prop
  | .ret _ _ sig _ none => sig.bytes.length < 2 ^ 63
  | _ => True

theorem passedOn_same (id : Nat) (b : Block) (o : VOut) (h : o.SigSmall) : SameAnswer id b o (passedOn id b o) := by
  by_cases ho : ∃ lid lb sig ts, o = .ret lid lb sig ts none
  · obtain ⟨lid, lb, sig, ts, rfl⟩ := ho
    obtain ⟨sig', h1, h2⟩ := C35_signature sig h
    simp only [passedOn, remoteAnswer, h1]
    exact .sig lid lb ts sig sig' h2
  · have : remoteAnswer o = .error .external := by
      unfold remoteAnswer
      split
      · rename_i lid lb sig ts
        exact absurd ⟨lid, lb, sig, ts, rfl⟩ ho
      · rfl
    simp only [passedOn, this]
    exact .err o (fun lid lb sig ts h0 => ho ⟨lid, lb, sig, ts, h0⟩)

/-- C67: whatever state the cluster is in, a request for any block that enters at any node, and takes any way over nodes
that are not or no longer the leader until it reaches the leader, leaves every node in the state it would have if the
leader had been asked itself; the sender gets the leader's signature with the time it asked for, or an error if the
leader gives no signature. (Each node on the way serves the request as a call of its own. The leader sees the time with
the precision of the nanosecond count.) -/
theorem C67_same {C : Crypto} {vcfg : ValidatorCfg} {cfg : Nat → CosignerCfg} {n : Nat} (chainID : Bytes)
    (hc : Sent chainID) (s : Sys) (p id : Nat) (hops : List (Nat × Nat)) (q : Req) (hb : q.block.Typed)
    (hfree : ∀ h ∈ (p, id) :: hops, (s.vs h.1).calls h.2 = none) (hnd : ((p, id) :: hops).Nodup)
    (hl : (q.leader, q.id) ∉ (p, id) :: hops)
    (hsmall : (s.signBlock C vcfg cfg n { q with block := q.block.received }).1.SigSmall) :
    (s.signVia C vcfg cfg n chainID ((p, id) :: hops) q).2 =
        (s.signBlock C vcfg cfg n { q with block := q.block.received }).2 ∧
      SameAnswer id q.block (s.signBlock C vcfg cfg n { q with block := q.block.received }).1
        (s.signVia C vcfg cfg n chainID ((p, id) :: hops) q).1 := by
  induction hops generalizing p id q with
  | nil =>
    rw [signVia_cons s chainID p id [] q hb hc (hfree _ (List.mem_cons_self ..)) (by simp)
      (fun h => hl (by rw [h]; exact List.mem_cons_self ..))]
    exact ⟨rfl, passedOn_same id q.block _ hsmall⟩
  | cons x hops ih =>
    obtain ⟨p', id'⟩ := x
    rw [signVia_cons s chainID p id _ q hb hc (hfree _ (List.mem_cons_self ..)) (List.nodup_cons.1 hnd).1
      (fun h => hl (by rw [h]; exact List.mem_cons_self ..))]
    have hrr : ({ ({ q with block := q.block.received } : Req) with block := q.block.received.received } : Req) =
        { q with block := q.block.received } := by rw [received_received]
    have ih' := ih p' id' { q with block := q.block.received } ⟨hb.height, hb.round, hb.step, hb.size⟩
      (fun h hh => hfree h (List.mem_cons_of_mem _ hh)) (List.nodup_cons.1 hnd).2
      (fun h => hl (List.mem_cons_of_mem _ h))
    simp only at ih'
    rw [received_received] at ih'
    obtain ⟨h1, h2⟩ := ih' hsmall
    refine ⟨h1, ?_⟩
    generalize (s.signBlock C vcfg cfg n { q with block := q.block.received }).1 = o at h2 hsmall
    generalize (s.signVia C vcfg cfg n chainID ((p', id') :: hops) { q with block := q.block.received }).1 = o' at h2
    cases h2 with
    | sig lid lb ts sig sig' h =>
      have := passedOn_same id q.block (.ret id' q.block.received sig' q.block.received.timestamp none)
        (show sig'.bytes.length < 2 ^ 63 by rw [h]; exact hsmall)
      generalize passedOn id q.block (.ret id' q.block.received sig' q.block.received.timestamp none) = y at this
      cases this with
      | sig _ _ _ _ sig'' h' => exact .sig lid lb ts sig sig'' (h'.trans h)
      | err _ h' => exact absurd rfl (h' _ _ _ _)
    | err _ h =>
      exact .err o h

/-- C67: if the chain ID is not text, a request that is passed on gets an error, and no node is left in another state. -/
theorem C67_not_text {C : Crypto} {vcfg : ValidatorCfg} {cfg : Nat → CosignerCfg} {n : Nat} (chainID : Bytes)
    (hl : chainID.length < 2 ^ 63) (hT : ¬ IsText chainID) (s : Sys) (p id : Nat) (hops : List (Nat × Nat)) (q : Req)
    (hfree : (s.vs p).calls id = none) :
    s.signVia C vcfg cfg n chainID ((p, id) :: hops) q = (.ret id q.block none q.block.timestamp (some .external), s) := by
  have e1 : ((s.vs p).step C vcfg (.call id q.block .follower)).2 = (s.vs p).mark id (some (q.block, .proxy)) := by
    simp only [VState.step, hfree]; rfl
  have e2 : (s.setV p ((s.vs p).mark id (some (q.block, .proxy)))).vs p = (s.vs p).mark id (some (q.block, .proxy)) := by
    simp [Sys.setV]
  have e3 : ((s.vs p).mark id (some (q.block, .proxy))).calls id = some (q.block, .proxy) := by simp [mark_calls]
  simp only [Sys.signVia, e1, recv_block_none chainID q.block hl hT, e2]
  simp only [VState.step, e3]
  refine Prod.ext rfl ?_
  have := sysMark_mark s p id (some (q.block, .proxy)) none
  rw [show s.mark p id none = s by rw [← hfree]; exact sysMark_self s p id] at this
  rw [finish_mark]
  simpa [Sys.mark, e2] using this

/-- Concretely: a chain ID of one byte that is no character. -/
example : ¬ IsText [0xff] := by
  rw [← utf8Valid_iff]
  decide

/-- The block as the leader sees it. -/
def atLeader (hops : List (Nat × Nat)) (b : Block) : Block := if hops = [] then b else b.received

theorem atLeader_key (hops : List (Nat × Nat)) (b : Block) :
    (atLeader hops b).key = b.key ∧ (atLeader hops b).signBytes = b.signBytes ∧ (atLeader hops b).hrs = b.hrs := by
  unfold atLeader
  split
  · exact ⟨rfl, rfl, rfl⟩
  · exact ⟨received_key b, rfl, rfl⟩

theorem atLeader_servable {n t : Nat} {q : Req} (hops : List (Nat × Nat)) (hq : Servable n t q) :
    Servable n t { q with block := atLeader hops q.block } := by
  refine ⟨?_, hq.nodup, hq.ids, hq.quorum, hq.leads, hq.order, hq.mapOrder, hq.random⟩
  show unpackHRST (atLeader hops q.block).signBytes = .ok (atLeader hops q.block).key
  rw [(atLeader_key hops _).1, (atLeader_key hops _).2.1]; exact hq.bytes

/-- A request on any way to a leader that answers it with a signature. -/
theorem signVia_signed {C : Crypto} {vcfg : ValidatorCfg} {cfg : Nat → CosignerCfg} {n : Nat} {s s' : Sys}
    (hidle : ∀ p id, (s.vs p).calls id = none) {q : Req} {chainID : Bytes} (hc : Sent chainID)
    (hb : q.block.Typed) {hops : List (Nat × Nat)} (hnd : ((q.leader, q.id) :: hops).Nodup) {sig : Bytes}
    (hsl : sig.length = 64)
    (h : s.signBlock C vcfg cfg n { q with block := atLeader hops q.block } =
      (.ret q.id (atLeader hops q.block) (some sig) (atLeader hops q.block).timestamp none, s')) :
    ∃ id, s.signVia C vcfg cfg n chainID hops q = (.ret id q.block (some sig) q.block.timestamp none, s') := by
  cases hops with
  | nil => exact ⟨q.id, h⟩
  | cons y hops =>
    obtain ⟨p, id⟩ := y
    have e1 : s.signBlock C vcfg cfg n { q with block := q.block.received } =
      (.ret q.id q.block.received (some sig) q.block.received.timestamp none, s') := h
    have hsame := C67_same (C := C) (vcfg := vcfg) (cfg := cfg) (n := n) chainID hc s p id hops q hb
      (fun h _ => hidle h.1 h.2) (List.nodup_cons.1 hnd).2 (List.nodup_cons.1 hnd).1
      (by rw [e1]; show sig.length < 2 ^ 63; omega)
    rw [e1] at hsame
    obtain ⟨f1, f2⟩ := hsame
    refine ⟨id, Prod.ext ?_ f1⟩
    show (s.signVia C vcfg cfg n chainID ((p, id) :: hops) q).1 = _
    generalize (s.signVia C vcfg cfg n chainID ((p, id) :: hops) q).1 = o at f2
    cases f2 with
    | sig _ _ _ _ sig' h =>
      have : sig' = some sig := by
        cases sig' with
        | none =>
          have h0 : ([] : Bytes).length = sig.length := congrArg List.length h
          rw [hsl] at h0; exact absurd h0 (by decide)
        | some z => exact congrArg some h
      rw [this]
    | err _ h => exact absurd rfl (h _ _ _ _)

/-- A request on any way to the leader of a cluster below the block. -/
theorem signVia_ok {C : Crypto} {F G : Type} [Field F] [AddCommGroup G] [Module F G] {L : Lawful C F G}
    {pair : Bytes → Bytes → Prop} {n t : Nat} {cfg : Nat → CosignerCfg} {x : F} {kc : List F} {rsaPub : Nat → Bytes}
    (hS : Setup C L pair n t cfg x kc rsaPub) (hn : 2 ≤ n)
    (h64 : ∀ pk m sig, C.verify pk m sig = true → sig.length = 64) {w : HRS} {s : Sys} (hs : SysBelow w s) {q : Req}
    (hq : Servable n t q) (hw : w ≺ q.block.hrs) {chainID : Bytes} (hc : Sent chainID) (hb : q.block.Typed)
    {hops : List (Nat × Nat)} (hnd : ((q.leader, q.id) :: hops).Nodup) :
    ∃ id sig s', s.signVia C ⟨t, L.pt (x • L.B)⟩ cfg n chainID hops q =
        (.ret id q.block (some sig) q.block.timestamp none, s') ∧
      C.verify (L.pt (x • L.B)) q.block.signBytes sig = true ∧ SysBelow q.block.hrs s' := by
  obtain ⟨k1, k2, k3⟩ := atLeader_key hops q.block
  obtain ⟨sig, s', e1, e2, e3, _⟩ := signBlock_ok hS hn hs (atLeader_servable hops hq) (by rw [k3]; exact hw)
  simp only [k2, k3] at e2 e3
  obtain ⟨id, e4⟩ := signVia_signed hs.idle hc hb hnd (h64 _ _ _ e2) e1
  exact ⟨id, sig, s', e4, e2, e3⟩

/-- C67: so the requests of C63 may come to any nodes: if every sign request enters anywhere and takes any way to the node
that leads, every one is answered with a signature that verifies under the public key for the requested sign bytes, with
the requested time, and no error. -/
theorem C67_signs {C : Crypto} {F G : Type} [Field F] [AddCommGroup G] [Module F G] {L : Lawful C F G}
    {pair : Bytes → Bytes → Prop} {n t : Nat} {cfg : Nat → CosignerCfg} {x : F} {kc : List F} {rsaPub : Nat → Bytes}
    (hS : Setup C L pair n t cfg x kc rsaPub) (hn : 2 ≤ n)
    (h64 : ∀ pk m sig, C.verify pk m sig = true → sig.length = 64) (w : HRS) (lv lc : Nat → SignState)
    (hv : ∀ p, (lv p).hrs ≼ w) (hc : ∀ p, (lc p).hrs ≼ w) (evs : List (Bytes × List (Nat × Nat) × SysEv))
    (hev : InOrder n t w (evs.map (·.2.2)))
    (hways : ∀ e ∈ evs, ∀ q, e.2.2 = .sign q → Sent e.1 ∧ q.block.Typed ∧ ((q.leader, q.id) :: e.2.1).Nodup) :
    List.Forall₂ (fun q a => a.1 = q ∧ ∃ id sig, a.2 = .ret id q.block (some sig) q.block.timestamp none ∧
        C.verify (L.pt (x • L.B)) q.block.signBytes sig = true)
      (requests (evs.map (·.2.2))) ((Sys.start lv lc).runVia C ⟨t, L.pt (x • L.B)⟩ cfg n evs).1 := by
  have key : ∀ (evs : List (Bytes × List (Nat × Nat) × SysEv)) (w : HRS) (s : Sys), SysBelow w s →
      InOrder n t w (evs.map (·.2.2)) →
      (∀ e ∈ evs, ∀ q, e.2.2 = .sign q → Sent e.1 ∧ q.block.Typed ∧ ((q.leader, q.id) :: e.2.1).Nodup) →
      List.Forall₂ (fun q a => a.1 = q ∧ ∃ id sig, a.2 = .ret id q.block (some sig) q.block.timestamp none ∧
        C.verify (L.pt (x • L.B)) q.block.signBytes sig = true)
      (requests (evs.map (·.2.2))) (s.runVia C ⟨t, L.pt (x • L.B)⟩ cfg n evs).1 := by
    intro evs
    induction evs with
    | nil => intro w s _ _ _; exact List.Forall₂.nil
    | cons e evs ih =>
      intro w s hs he hw
      have hq := hs.quiet (C := C) (vcfg := ⟨t, L.pt (x • L.B)⟩) (cfg := cfg) (n := n)
      have hw' := fun e' (h : e' ∈ evs) => hw e' (List.mem_cons_of_mem _ h)
      obtain ⟨chainID, hops, e⟩ := e
      cases e with
      | sign q =>
        obtain ⟨h1, h2, h3⟩ := he
        obtain ⟨g1, g2, g3⟩ := hw _ (List.mem_cons_self ..) q rfl
        simp only at g1 g3
        obtain ⟨id, sig, s', e1, e2, e3⟩ := signVia_ok hS hn h64 hs h2 h1 g1 g2 g3
        simp only [List.map_cons, requests, Sys.runVia, e1]
        exact List.Forall₂.cons ⟨rfl, id, sig, rfl, e2⟩ (ih _ _ e3 h3 hw')
      | deliver p r => exact ih w _ (hq.1 p r he.1) he.2 hw'
      | other p op => exact ih w _ (hq.2.1 p op he.1) he.2 hw'
      | restart p a b => exact ih w _ (hq.2.2 p a b he.1 he.2.1) he.2.2 hw'
  exact key evs w _ (SysBelow.start hv hc) hev hways

/-- The verification of the examples asks for 64 bytes, as Ed25519's. -/
theorem ftoy64 (pk m sig : Bytes) (h : ftoy.verify pk m sig = true) : sig.length = 64 := by
  unfold ftoy at h
  simp only [Bool.and_eq_true, beq_iff_eq] at h
  exact h.1

/-- Concretely: a request enters at node 2, which takes 1 for the leader, which passes it on to 3. Then one enters at the
leader 2 itself. -/
def viaEvs : List (Bytes × List (Nat × Nat) × SysEv) :=
  [([7], [(2, 5), (1, 8)], .sign (freq 0 blk1 3 [3, 1])), ([], [], .deliver 2 (blk1.record [1])),
    ([7], [], .sign (freq 1 blk3 2 [2, 1]))]

example : InOrder 3 2 ⟨0, 0, 0⟩ (viaEvs.map (·.2.2)) ∧ Sent [7] ∧ blk1.Typed ∧ blk3.Typed ∧
    ((3, 0) :: [(2, 5), (1, 8)] : List (Nat × Nat)).Nodup := by
  refine ⟨⟨by decide, fservable _ _ _ _ (by decide +kernel) (by decide) (by decide) (by decide) (by decide), by decide,
    by decide,
    fservable _ _ _ _ (by decide +kernel) (by decide) (by decide) (by decide) (by decide), trivial⟩,
    ⟨by decide, ['\x07'], by decide⟩,
    ⟨by decide, by decide, by decide, by decide +kernel⟩, ⟨by decide, by decide, by decide, by decide +kernel⟩, by decide⟩

example : ((Sys.start (fun _ => .empty) (fun _ => .empty)).runVia ftoy ⟨2, fsc (42 • 1)⟩ fcfg 3 viaEvs).1.map
    (fun a => fanswer a.2) = [some (5, true, none), some (1, true, none)] := by
  decide +kernel

/-- Concretely: a request that the leader cannot serve (it has signed a later block) is answered with an error. -/
example : fanswer (((Sys.start (fun _ => .empty) (fun _ => .empty)).signBlock ftoy ⟨2, fsc (42 • 1)⟩ fcfg 3
      (freq 0 blk3 3 [3, 1])).2.signVia ftoy ⟨2, fsc (42 • 1)⟩ fcfg 3 [7] [(2, 5)] (freq 1 blk1 3 [3, 1])).1 =
    some (5, false, some .external) := by
  decide +kernel

end Horcrux
