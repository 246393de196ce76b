import Verif.Lemmas.Mislabel
import Verif.Props.Node
/-
Property C81: blocks whose sign bytes are for another height, round or step.
-/
namespace Horcrux
open Spec

/-- The sign bytes of a block are not for the height, round and step that the block says. -/
def Spec.Mislabelled (b : Block) : Prop := ∀ k, unpackHRST b.signBytes = .ok k → k.hrs ≠ b.hrs

/-- C81: the requests of chain nodes do not lead to such blocks. -/
theorem C81_nodes (chainID : Bytes) (m : PMsg) (k : HRS) (bs : Bytes) (reply : Bytes → PMsg)
    (h : Asks chainID m k bs reply) (b : Block) (hb : m.block chainID = some b) : ¬ Mislabelled b := by
  obtain ⟨_, b', h1, _, _, _, h5, _⟩ := asks_block h
  rw [h1, Option.some.injEq] at hb
  subst hb
  intro hm
  exact hm _ h5 rfl

/-- C81: but over the network any block can be handed to a node: the fields and the sign bytes are independent. -/
theorem C81_anyone (chainID : Bytes) (hc : Sent chainID) (b : Block) (h : b.Typed) :
    ∃ request b', recvSignBlock request = some (chainID, b') ∧ b'.hrs = b.hrs ∧ b'.signBytes = b.signBytes ∧ b'.key = b.key :=
  ⟨_, _, recv_block chainID b h hc, rfl, rfl, by
    unfold Block.key; rw [received_nano]; rfl⟩

/-- C81, partial: in every cluster, whatever its keys and state: a mislabelled block for which a node, as leader, starts a
round is refused if no participant holds nonces for the height, round, step and time of the sign bytes, and none has signed
at their height, round and step last. Then no sign state of any node changes and nothing is put into the raft log.
Missing for the full property: participants that have signed the sign bytes (see `C81_replay_fails`), what becomes of
later requests (see `C81_started_fails`), and sign bytes that end the processes (see `C103_leader_fails`). -/
theorem C81_refused_partial (C : Crypto) (vcfg : ValidatorCfg) (ht : 1 ≤ vcfg.threshold) (cfg : Nat → CosignerCfg) (n : Nat)
    (s : Sys) (q : Req) (hm : Mislabelled q.block) (_hnp : unpackHRST q.block.signBytes ≠ .panic) (hfree : (s.vs q.leader).calls q.id = none)
    (hi : (s.vs q.leader).init.hrs ≺ q.block.hrs)
    (h : ∀ p ∈ q.ps, ∀ k, unpackHRST q.block.signBytes = .ok k → (s.cs p).hrsMeta k = none ∧ (s.cs p).lss.hrs ≠ k.hrs) :
    ∃ s', s.signBlock C vcfg cfg n q =
        (.ret q.id q.block none q.block.timestamp (some .notEnoughCosigners), s') ∧
      ∀ p, (s'.cs p).lss = (s.cs p).lss ∧ (s'.vs p).lss = (s.vs p).lss ∧ (s'.vs p).emitted = (s.vs p).emitted := by
  obtain ⟨init', hinit⟩ : ∃ init', (s.vs q.leader).init.save (SSC.new q.block.height q.block.round q.block.step) =
      (none, init') := ⟨_, SignState.save_ok _ _ hi⟩
  obtain ⟨h1, h2⟩ := round_unknown (C := C) (cfg := cfg) (ps := q.ps) (leader := q.leader) (n := n) (k := q.block.key)
    (bs := q.block.signBytes) (order := q.order) (mapOrder := q.mapOrder) (rnd1 := q.rnd1) (rnd2 := q.rnd2) (st := s.cs)
    hm h
  unfold Sys.signBlock
  simp only [VState.begin, VState.assembleAndSave, VState.step, hfree, hinit, VState.setPhase, if_true, assemble_none ht h1, VState.finish]
  refine ⟨_, rfl, fun p => ⟨(h2 p).lss, ?_⟩⟩
  by_cases hp : p = q.leader
  · subst hp; simp
  · simp [hp]

/-- C81 is false: a refused block bars the leader from all blocks below its height, round and step, which may be any. From
then on, whatever happens, a request for a lower block that has no record starts no round on this node and is refused. -/
theorem C81_started_fails (C : Crypto) (vcfg : ValidatorCfg) (cfg : Nat → CosignerCfg) (n : Nat)
    (s : Sys) (q : Req) (hfree : (s.vs q.leader).calls q.id = none) (hi : (s.vs q.leader).init.hrs ≺ q.block.hrs)
    (v v1 v2 : VState) (hv : v = (s.signBlock C vcfg cfg n q).2.vs q.leader) (tr tr' : List (VEv × VOut))
    (hrun : VRun C vcfg v tr v1) (id : Nat) (b : Block) (hid : v1.calls id = none) (hlow : b.hrs ≺ q.block.hrs)
    (hrun' : VRun C vcfg (v1.step C vcfg (.call id b .leader)).2 tr' v2) (hother : ∀ x ∈ tr', x.1.actor ≠ some id)
    (hno : v2.lss.cache b.hrs = none) :
    (v1.step C vcfg (.call id b .leader)).1 = .tau ∧
    v2.step C vcfg (.lookup id) = (.ret id b none b.timestamp (some .beyondBlock), v2.finish id) ∧
    ∀ ev, ev.actor = some id → ev ≠ .lookup id → v2.step C vcfg ev = (.tau, v2) := by
  have hinit : v.init.hrs = q.block.hrs := by
    subst hv
    obtain ⟨init', hinit, hih⟩ : ∃ init', (s.vs q.leader).init.save (SSC.new q.block.height q.block.round q.block.step) =
      (none, init') ∧ init'.hrs = q.block.hrs := ⟨_, SignState.save_ok _ _ hi, rfl⟩
    have hst : (s.vs q.leader).step C vcfg (.call q.id q.block .leader) =
        (.startRound q.id q.block false, ({ s.vs q.leader with init := init' } : VState).setPhase q.id q.block .round) := by
      simp only [VState.step, hfree, hinit]
    unfold Sys.signBlock VState.begin
    simp only [hfree, hst, if_true]
    have keep : ∀ u : VState, ∀ sh eph, (u.assembleAndSave C vcfg q.id sh eph).2.init = u.init := by
      intro u sh eph
      have one : ∀ (u : VState) (ev : VEv), (∀ i b r, ev ≠ .call i b r) → (u.step C vcfg ev).2.init = u.init := by
        intro u ev hne
        have hx : u.step C vcfg ev = ((u.step C vcfg ev).1, (u.step C vcfg ev).2) := rfl
        generalize (u.step C vcfg ev).1 = o at hx
        generalize (u.step C vcfg ev).2 = u' at hx ⊢
        cases vstep_inv hx with
        | fresh i b _ _ => exact absurd rfl (hne i b _)
        | _ => rfl
      unfold VState.assembleAndSave
      have h1 := one u (.roundDone q.id (.sigs sh eph)) (by simp)
      generalize u.step C vcfg (.roundDone q.id (.sigs sh eph)) = x at h1
      obtain ⟨o, u2⟩ := x
      cases o with
      | tau =>
        simp only at h1 ⊢
        have h2 := one u2 (.save q.id) (by simp)
        generalize u2.step C vcfg (.save q.id) = y at h2
        obtain ⟨o, u3⟩ := y
        cases o with
        | tau =>
          simp only at h2 ⊢
          rw [one u3 (.emit q.id) (by simp), h2, h1]
        | _ => exact h2.trans h1
      | _ => exact h1
    rw [keep]
    exact hih
  have hle := (C34_watermarks C vcfg v v1 tr hrun).2
  rw [hinit] at hle
  obtain ⟨a, _, _, _, b1, b2⟩ := C30_refused C vcfg v1 _ v2 tr' id b _ hid (HRS.lt_of_lt_of_le hlow hle) rfl hrun' hother hno
  exact ⟨a, b1, b2⟩

section
variable {C : Crypto} {F G : Type} [Field F] [AddCommGroup G] [Module F G] {L : Lawful C F G}
  {pair : Bytes → Bytes → Prop} {n t : Nat} {cfg : Nat → CosignerCfg} {x : F} {kc : List F} {rsaPub : Nat → Bytes}

/-- C81 is false: let a cluster sign a block for a chain node (`q`). Then a request for any later height, round and step
with the same sign bytes, with the same participants, is answered with the signature of the old message. The leader
records it as the signature for the new height, round and step, and puts the record into the raft log; every cosigner the
record is delivered to will never again sign below. -/
theorem C81_replay_fails (hS : Setup C L pair n t cfg x kc rsaPub) (hn : 2 ≤ n) (w : HRS) (lv lc : Nat → SignState)
    (hv : ∀ p, (lv p).hrs ≼ w) (hc : ∀ p, (lc p).hrs ≼ w) (q q' : Req) (hq : Servable n t q) (hw : w ≺ q.block.hrs)
    (hps : q'.ps = q.ps) (hq' : Servable n t { q' with block := q.block })
    (hbs : q'.block.signBytes = q.block.signBytes) (hlater : q.block.hrs ≺ q'.block.hrs) :
    Mislabelled q'.block ∧ ∃ sig s',
      (((Sys.start lv lc).signBlock C ⟨t, L.pt (x • L.B)⟩ cfg n q).2).signBlock C ⟨t, L.pt (x • L.B)⟩ cfg n q' =
        (.ret q'.id q'.block (some sig) q'.block.timestamp none, s') ∧
      C.verify (L.pt (x • L.B)) q.block.signBytes sig = true ∧
      (s'.vs q'.leader).lss.hrs = q'.block.hrs ∧ q'.block.record sig ∈ (s'.vs q'.leader).emitted ∧
      ∀ p s1, s1 = (s'.step C ⟨t, L.pt (x • L.B)⟩ cfg n (.deliver p (q'.block.record sig))).2 →
        (s1.cs p).lss.hrs = q'.block.hrs ∧
        ∀ tr tr' s2 bs r k, Run C (cfg p) (s1.cs p) (tr ++ (.sign bs, .ok (.signed r)) :: tr') s2 →
          unpackHRST bs = .ok k → q'.block.hrs ≼ k.hrs := by
  have hstart := SysBelow.start hv hc
  generalize Sys.start lv lc = s at hstart
  refine ⟨?_, ?_⟩
  · intro k hk h
    rw [hbs, hq.bytes, Out.ok.injEq] at hk
    rw [← h, ← hk] at hlater
    exact HRS.lt_irrefl _ hlater
  obtain ⟨sig0, s1, h1, _, hb1, _⟩ := signBlock_ok hS hn hstart hq hw
  have hinv : TryInv L n t cfg x kc rsaPub q.ps q.block.key q.block.signBytes (fun _ => []) (fun _ => []) []
      ⟨s.cs, fun _ => []⟩ := by
    refine TryInv.start (fun p _ _ => HRS.lt_of_le_of_lt (hstart.cs p).lss hw) (fun p _ _ => ?_)
    cases hm : (s.cs p).hrsMeta q.block.key with
    | none => rfl
    | some ref => exact absurd (HRS.lt_of_le_of_lt ((hstart.cs p).recs _ _ hm) hw) (HRS.lt_irrefl _)
  obtain ⟨_, s1', _, _, g1, _, g3, _⟩ := signBlock_again hS hn hq hinv (hstart.idle _ _)
    (HRS.lt_of_le_of_lt (hstart.init q.leader) hw) (HRS.lt_of_le_of_lt (hstart.lss q.leader) hw)
  have hsame : s1' = s1 := by rw [h1] at g1; simp only [Prod.mk.injEq] at g1; exact g1.2.symm
  subst hsame
  have hord : ∀ p, ∃ o : List Nat, o.Perm (List.range' 1 n) ∧ q.order p = o.map (fun i : Nat => (i : Int)) :=
    fun p => perm_cast (hq.order p)
  choose ord hord1 hord2 using hord
  obtain ⟨_, _, st', _, r1, _, _, _, sec, r, _, r7, _⟩ := round_full hS hn hq.nodup hq.ids hq.quorum hq.leads
    (k := q.block.key) (unixNano_isI64 _) hq.bytes hord1 hq.mapOrder (rnd2 := q.rnd2) hq.random hinv
  have hord3 : q.order = fun p => (ord p).map (fun i : Nat => (i : Int)) := funext hord2
  rw [← hord3] at r1
  have hcs : s1'.cs = st' := by rw [g3]; exact congrArg Prod.snd r1
  have hordq : ∀ p, ∃ o : List Nat, o.Perm (List.range' 1 n) ∧ q'.order p = o.map (fun i : Nat => (i : Int)) :=
    fun p => perm_cast (hq'.order p)
  choose ord' hord1' hord2' using hordq
  have hord3' : q'.order = fun p => (ord' p).map (fun i : Nat => (i : Int)) := funext hord2'
  have hkd : q'.block.key.hrs = q'.block.hrs := rfl
  obtain ⟨shares, eph, st2, sig, e1, e2, e3, e4⟩ := round_relabelled hS hn hq'.nodup hq'.ids hq'.quorum hq'.leads
    (k := q.block.key) (kd := q'.block.key) (unixNano_isI64 _) hq.bytes hord1' hq'.mapOrder (rnd2 := q'.rnd2)
    hq'.random (st := s1'.cs) (fun p _ _ => by rw [hkd]; exact HRS.lt_of_le_of_lt (hb1.cs p).lss hlater)
    (fun p _ _ => by
      cases hm : (s1'.cs p).hrsMeta q'.block.key with
      | none => rfl
      | some ref => exact absurd (HRS.lt_of_le_of_lt ((hb1.cs p).recs _ _ hm) hlater) (HRS.lt_irrefl _))
    (sec := sec) (r := r) (by
      show ∀ p ∈ q'.ps, SignedAs L n t sec r q'.ps x kc q.block.key q.block.signBytes p (s1'.cs p)
      rw [hcs, hps]; exact r7)
  rw [← hord3'] at e1
  simp only at e1
  obtain ⟨init', hinit, hih⟩ : ∃ init', (s1'.vs q'.leader).init.save (SSC.new q'.block.height q'.block.round q'.block.step) =
      (none, init') ∧ init'.hrs = q'.block.hrs :=
    ⟨_, SignState.save_ok _ _ (HRS.lt_of_le_of_lt (hb1.init q'.leader) hlater), rfl⟩
  obtain ⟨lss', hlss, hlh⟩ : ∃ lss', (s1'.vs q'.leader).lss.save (q'.block.record sig) = (none, lss') ∧
      lss'.hrs = q'.block.hrs := ⟨_, SignState.save_ok _ _ (HRS.lt_of_le_of_lt (hb1.lss q'.leader) hlater), rfl⟩
  rw [h1]
  simp only
  refine ⟨sig, ?_⟩
  unfold Sys.signBlock
  rw [hbs]
  simp only [VState.begin, VState.assembleAndSave, VState.step, hb1.idle, hinit, e1, VState.setPhase, if_true, hbs, e2, hlss, VState.finish]
  refine ⟨_, rfl, e3, ?_, ?_, ?_⟩
  · simp only [if_true]; exact hlh
  · simp
  · intro p s2 hs2
    have hcos : (s2.cs p).lss.hrs = q'.block.hrs := by
      rw [hs2]
      simp only [Sys.step, if_true, CState.step]
      have hsv : ((st2 p).lss.save (q'.block.record sig)).1 = none := by
        rw [SignState.save_ok_iff, e4 p]
        exact HRS.lt_of_le_of_lt (hb1.cs p).lss hlater
      have hh : ((st2 p).lss.save (q'.block.record sig)).2.hrs = q'.block.hrs := by
        rw [SignState.save_hrs, if_pos ((SignState.save_ok_iff _ _).1 hsv)]; rfl
      generalize (st2 p).lss.save (q'.block.record sig) = y at hsv hh
      obtain ⟨a, b⟩ := y
      simp only at hsv
      subst hsv
      exact hh
    refine ⟨hcos, fun tr tr' s3 bs r k hrun hu => ?_⟩
    rw [← hcos]
    exact (C11_no_regress C (cfg p) _ _ tr tr' bs r k hrun hu).1

end

/-- C81 is false: once such a record is there, a chain node that asks the leader for a proposal at that height and round
gets the recorded signature, whatever the proposal, although it is the signature of another message. -/
theorem C81_answer_fails (C : Crypto) (vcfg : ValidatorCfg) (v : VState) (id : Nat) (b b' : Block) (sig : Bytes)
    (hfree : v.calls id = none) (hc : v.lss.cache b.hrs = some (b'.record sig)) (hi : v.init.hrs = b.hrs)
    (hp : b.step = 1) :
    returns (vexec C vcfg v [.call id b .leader, .poll id]).1 = [(id, some sig, none)] := by
  obtain ⟨k, hs⟩ : ∃ k, v.init.save (SSC.new b.height b.round b.step) = (some (.sameHRS k), v.init) := by
    rcases save_cases v.init (SSC.new b.height b.round b.step) with ⟨h1, _, _⟩ | ⟨_, k, h2⟩ | ⟨h1, _⟩
    · rw [hi] at h1; exact absurd h1 (HRS.lt_irrefl _)
    · exact ⟨k, h2⟩
    · rw [hi] at h1; exact absurd h1 (HRS.lt_irrefl _)
  have hex : existingSignature v.lss b = .ok (some sig) := by
    unfold existingSignature SignState.getFromCache
    simp only [hc]
    rw [if_pos (.inl hp)]
    rfl
  simp only [vexec, VState.step, hfree, hs, VState.setPhase, if_true, hex, returns]
  simp

/-! ### Concretely -/

/-- The precommit `b1` of 7.1.3, said to be the proposal of 9.0; and said to be a precommit at the last height. -/
def relabelled : Block := ⟨9, 0, 1, b1, ⟨1600000003, 7⟩⟩
def lastBlock : Block := ⟨9223372036854775807, 0, 3, b1, ⟨1600000003, 7⟩⟩

example : Mislabelled relabelled ∧ Mislabelled lastBlock ∧ lastBlock.Typed := by
  refine ⟨?_, ?_, by decide, by decide, by decide, by decide +kernel⟩ <;> intro k hk <;>
    rw [← Out.ok.inj (unpack_b1.symm.trans hk)] <;> decide

/-- No one has signed yet: the block is refused; afterwards the leader refuses every lower block. -/
example :
    let s := (Sys.start (fun _ => .empty) (fun _ => .empty)).signBlock ftoy ⟨2, fsc (42 • 1)⟩ fcfg 3 (freq 0 lastBlock 3 [3, 1])
    fanswer s.1 = some (0, false, some .notEnoughCosigners) ∧
    returns (vexec ftoy ⟨2, fsc (42 • 1)⟩ (s.2.vs 3) [.call 1 blk1 .leader, .lookup 1]).1 =
      [(1, none, some .beyondBlock)] := by
  decide +kernel

/-- The precommit of 7.1.3 is signed; then it is signed again as the proposal of 9.0; then the chain node asks for its
proposal of 9.0, and gets a signature that is not valid for it. -/
def relabelledRun : VOut × Sys :=
  ((Sys.start (fun _ => .empty) (fun _ => .empty)).signBlock ftoy ⟨2, fsc (42 • 1)⟩ fcfg 3 (freq 0 blk1 3 [3, 1])).2.signBlock
    ftoy ⟨2, fsc (42 • 1)⟩ fcfg 3 (freq 1 relabelled 3 [3, 1])

theorem C81_concrete_fails :
    Servable 3 2 (freq 0 blk1 3 [3, 1]) ∧ Servable 3 2 { freq 1 relabelled 3 [3, 1] with block := blk1 } ∧
    blk1.hrs ≺ relabelled.hrs ∧ proposalBlock [97] fprop = .ok ⟨9, 0, 1, fpropBytes, ⟨1600000003, 7⟩⟩ ∧
    ∃ sig, relabelledRun.1 = .ret 1 relabelled (some sig) relabelled.timestamp none ∧
      ftoy.verify (fsc (42 • 1)) b1 sig = true ∧ ftoy.verify (fsc (42 • 1)) fpropBytes sig = false ∧
      returns (vexec ftoy ⟨2, fsc (42 • 1)⟩ (relabelledRun.2.vs 3)
        [.call 2 ⟨9, 0, 1, fpropBytes, ⟨1600000003, 7⟩⟩ .leader, .poll 2]).1 = [(2, some sig, none)] := by
  refine ⟨fservable _ _ _ _ (by decide +kernel) (by decide) (by decide) (by decide) (by decide),
    fservable 1 blk1 _ _ (by decide +kernel) (by decide) (by decide) (by decide) (by decide), by decide, by decide +kernel, ?_⟩
  have h : ∃ sig, relabelledRun.1 = .ret 1 relabelled (some sig) relabelled.timestamp none := by
    have : (match relabelledRun.1 with
      | .ret 1 b (some _) ts none => decide (b = relabelled ∧ ts = relabelled.timestamp)
      | _ => false) = true := by decide +kernel
    split at this
    · rename_i b sig ts heq
      rw [decide_eq_true_eq] at this
      obtain ⟨rfl, rfl⟩ := this
      exact ⟨sig, heq⟩
    · cases this
  obtain ⟨sig, hs⟩ := h
  refine ⟨sig, hs, ?_⟩
  have h2 : (match relabelledRun.1 with
      | .ret _ _ (some sig) _ _ => decide (ftoy.verify (fsc (42 • 1)) b1 sig = true) &&
          decide (ftoy.verify (fsc (42 • 1)) fpropBytes sig = false) &&
          decide (returns (vexec ftoy ⟨2, fsc (42 • 1)⟩ (relabelledRun.2.vs 3)
            [.call 2 ⟨9, 0, 1, fpropBytes, ⟨1600000003, 7⟩⟩ .leader, .poll 2]).1 = [(2, some sig, none)])
      | _ => false) = true := by decide +kernel
  rw [hs] at h2
  simp only [Bool.and_eq_true, decide_eq_true_eq] at h2
  exact ⟨h2.1.1, h2.1.2, h2.2⟩

end Horcrux
