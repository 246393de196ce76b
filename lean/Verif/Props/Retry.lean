import Verif.Spec.Retry
import Verif.Props.System
/-
Property C64: trying a block again.
-/
namespace Horcrux
open Spec

section
variable {C : Crypto} {F G : Type} [Field F] [AddCommGroup G] [Module F G] {L : Lawful C F G}
  {pair : Bytes → Bytes → Prop} {n t : Nat} {cfg : Nat → CosignerCfg} {x : F} {kc : List F} {rsaPub : Nat → Bytes}

theorem tryInv_of_tries (hS : Setup C L pair n t cfg x kc rsaPub) (hn : 2 ≤ n) {ps : List Nat}
    (hps : ∀ p ∈ ps, 1 ≤ p ∧ p ≤ n) {k : HRST} (hk : IsI64 k.timestamp) {bs : Bytes} (hu : unpackHRST bs = .ok k)
    {st : Nat → CState} (hlow : ∀ p, 1 ≤ p → p ≤ n → (st p).lss.hrs ≺ k.hrs)
    (hnew : ∀ p, 1 ≤ p → p ≤ n → (st p).hrsMeta k = none) {s : TryState}
    (h : Tries C cfg n ps k bs ⟨st, fun _ => []⟩ s) : ∃ sec r H, TryInv L n t cfg x kc rsaPub ps k bs sec r H s := by
  generalize hs0 : (⟨st, fun _ => []⟩ : TryState) = s0 at h
  induction h with
  | refl => subst hs0; exact ⟨_, _, _, TryInv.start hlow hnew⟩
  | snoc h ev hev ih =>
    obtain ⟨sec, r, H, hi⟩ := ih
    cases ev with
    | ask p order rnd =>
      obtain ⟨⟨h1, h2⟩, h3, h4⟩ := hev
      obtain ⟨o, ho, rfl⟩ := perm_cast h3
      obtain ⟨sec', r', _, h5, _⟩ := hi.ask hS hn hk h1 h2 ho h4
      exact ⟨sec', r', _, h5⟩
    | sign p mapOrder ans rnd => exact ⟨_, _, _, (hi.sign hS hps hk hu hev.1 hev.2.1 hev.2.2 rnd).1⟩
    | event p ssc => exact ⟨_, _, _, hi.event p ssc hev⟩

/-- C64, partial: let any number of attempts at a block have been made and given up anywhere — cosigners asked for their
parts, their answers lost or used later, some participants already having signed — with one set `ps` of participants. Then
a request served by a leader that has not itself started the block, with the same participants, is answered with a
signature that verifies, and all participants hold the record. Missing for the full property: other participants, and the
same leader (see `C64_quorum_fails`, `C64_restart_fails` and `C64_leader_fails`). -/
theorem C64_retry_partial (hS : Setup C L pair n t cfg x kc rsaPub) (hn : 2 ≤ n) (q : Req) (hq : Servable n t q)
    (st : Nat → CState) (hlow : ∀ p, 1 ≤ p → p ≤ n → (st p).lss.hrs ≺ q.block.hrs)
    (hnew : ∀ p, 1 ≤ p → p ≤ n → (st p).hrsMeta q.block.key = none) (s : TryState)
    (hs : Tries C cfg n q.ps q.block.key q.block.signBytes ⟨st, fun _ => []⟩ s)
    (vs : Nat → VState) (hidle : (vs q.leader).calls q.id = none) (hi : (vs q.leader).init.hrs ≺ q.block.hrs)
    (hl : (vs q.leader).lss.hrs ≺ q.block.hrs) :
    ∃ sig s', (⟨vs, s.cs⟩ : Sys).signBlock C ⟨t, L.pt (x • L.B)⟩ cfg n q =
        (.ret q.id q.block (some sig) q.block.timestamp none, s') ∧
      C.verify (L.pt (x • L.B)) q.block.signBytes sig = true ∧
      (∀ p ∈ q.ps, (s'.cs p).lss.hrs = q.block.hrs) ∧ (s'.vs q.leader).lss.hrs = q.block.hrs := by
  obtain ⟨sec, r, H, hinv⟩ := tryInv_of_tries hS hn hq.ids (unixNano_isI64 _) hq.bytes hlow hnew hs
  obtain ⟨sig, s', i', l', h1, h2, _, h4, _, _, h7, h8⟩ := signBlock_again (s := ⟨vs, s.cs⟩) hS hn hq
    (ans := s.answers) hinv hidle hi hl
  exact ⟨sig, s', h1, h2, h4, by rw [h8]; simp only [if_true]; exact h7⟩

/-- C64: as long as no participant was asked to sign, any participants will do. -/
theorem C64_asked (hS : Setup C L pair n t cfg x kc rsaPub) (hn : 2 ≤ n) (q : Req) (hq : Servable n t q)
    (st : Nat → CState) (hlow : ∀ p, 1 ≤ p → p ≤ n → (st p).lss.hrs ≺ q.block.hrs)
    (hnew : ∀ p, 1 ≤ p → p ≤ n → (st p).hrsMeta q.block.key = none) (s : TryState)
    (hs : Tries C cfg n [] q.block.key q.block.signBytes ⟨st, fun _ => []⟩ s)
    (vs : Nat → VState) (hidle : (vs q.leader).calls q.id = none) (hi : (vs q.leader).init.hrs ≺ q.block.hrs)
    (hl : (vs q.leader).lss.hrs ≺ q.block.hrs) :
    ∃ sig s', (⟨vs, s.cs⟩ : Sys).signBlock C ⟨t, L.pt (x • L.B)⟩ cfg n q =
        (.ret q.id q.block (some sig) q.block.timestamp none, s') ∧
      C.verify (L.pt (x • L.B)) q.block.signBytes sig = true := by
  have hs' : Tries C cfg n q.ps q.block.key q.block.signBytes ⟨st, fun _ => []⟩ s := by
    generalize (⟨st, fun _ => []⟩ : TryState) = s0 at hs
    induction hs with
    | refl => exact .refl _
    | snoc h ev hev ih =>
      refine .snoc ih ev ?_
      cases ev with
      | ask p order rnd => exact hev
      | sign p mapOrder ans rnd => exact absurd hev.1 (by simp)
      | event p r => exact hev
  obtain ⟨sig, s', h1, h2, _⟩ := C64_retry_partial hS hn q hq st hlow hnew s hs' vs hidle hi hl
  exact ⟨sig, s', h1, h2⟩

end

/-! ### What goes wrong -/

/-- A failed attempt of cosigners 1 and 2 at the precommit `b1` in the 2-of-3 cluster: both were asked for their parts, 1
has signed, the call to 2 was lost. -/
def tries12 : List TryEv :=
  [.ask 1 [1, 2, 3] (trnd 1), .ask 2 [1, 2, 3] (trnd 2)]

/-- Run steps. -/
def tryExec (s : TryState) (evs : List TryEv) : TryState := evs.foldl (TryState.step ftoy fcfg blk1.key b1) s

/-- After both were asked. -/
def asked12 : TryState := tryExec ⟨fun _ => CState.start .empty, fun _ => []⟩ tries12

/-- After 1 has signed. -/
def signed12 : TryState :=
  asked12.step ftoy fcfg blk1.key b1 (.sign 1 [1, 2] (fun q => (asked12.answers q).headD []) (trnd 9))

theorem signed12_tries : Tries ftoy fcfg 3 [1, 2] blk1.key b1 ⟨fun _ => CState.start .empty, fun _ => []⟩ signed12 := by
  have hr : ∀ p : Nat, ∀ i, ∃ sec, (trnd p i).secret = some sec ∧ sec.length = 32 :=
    fun p i => ⟨UInt8.ofNat p :: List.replicate 31 0, rfl, by simp⟩
  have h1 := Tries.snoc (C := ftoy) (cfg := fcfg) (n := 3) (ps := [1, 2]) (k := blk1.key) (bs := b1)
    (.refl ⟨fun _ => CState.start .empty, fun _ => []⟩) (.ask 1 [1, 2, 3] (trnd 1)) ⟨by decide, by decide, hr 1⟩
  have h2 := h1.snoc (.ask 2 [1, 2, 3] (trnd 2)) ⟨by decide, by decide, hr 2⟩
  refine h2.snoc (.sign 1 [1, 2] (fun q => (asked12.answers q).headD []) (trnd 9)) ⟨by decide, by decide, ?_⟩
  show ∀ q ∈ [1, 2], (asked12.answers q).headD [] ∈ asked12.answers q
  decide +kernel

/-- The answer of the round `ps` led by its first member. -/
def again (ps : List Nat) (st : Nat → CState) : Option (Nat × Bool × Option Err) :=
  fanswer ((⟨fun _ => VState.start .empty, st⟩ : Sys).signBlock ftoy ⟨2, fsc (42 • 1)⟩ fcfg 3
    (freq 7 blk1 (ps.headD 0) ps)).1

/-- The same participants succeed, led by 2 or by 1 after a restart. -/
example : again [2, 1] signed12.cs = some (7, true, none) ∧ again [1, 2] signed12.cs = some (7, true, none) := by
  decide +kernel

/-- C64 is false for other participants: a cosigner that has signed the block once answers from its record, which belongs
to the first attempt's participants. So after a failed attempt of cosigners 1 and 2 that only 1 has signed, 1 and 3 — with
3 as a fresh leader — cannot sign the block any more, although both are up, honest and within the threshold. -/
theorem C64_quorum_fails : ∃ s : TryState,
    Tries ftoy fcfg 3 [1, 2] blk1.key b1 ⟨fun _ => CState.start .empty, fun _ => []⟩ s ∧
    Servable 3 2 (freq 7 blk1 3 [3, 1]) ∧
    fanswer ((⟨fun _ => VState.start .empty, s.cs⟩ : Sys).signBlock ftoy ⟨2, fsc (42 • 1)⟩ fcfg 3
      (freq 7 blk1 3 [3, 1])).1 = some (7, false, some .combinedInvalid) :=
  ⟨signed12, signed12_tries,
    fservable _ _ _ _ (by decide +kernel) (by decide) (by decide) (by decide) (by decide), by decide +kernel⟩

/-- C64 is false for the same participants too when one that has not signed yet restarts in between: it has lost its
nonce, deals another one, and does not fit the share the first one signed. -/
theorem C64_restart_fails : ∃ s : TryState,
    Tries ftoy fcfg 3 [1, 2] blk1.key b1 ⟨fun _ => CState.start .empty, fun _ => []⟩ s ∧
    ∃ q : Req, q.block = blk1 ∧ q.ps = [2, 1] ∧ Servable 3 2 q ∧
      fanswer ((⟨fun _ => VState.start .empty, fun p => if p = 2 then CState.start .empty else s.cs p⟩ : Sys).signBlock
        ftoy ⟨2, fsc (42 • 1)⟩ fcfg 3 q).1 = some (7, false, some .combinedInvalid) :=
  ⟨signed12, signed12_tries, { freq 7 blk1 2 [2, 1] with rnd1 := fun p => trnd (p + 3) }, rfl, rfl,
    ⟨by decide +kernel, by decide, by decide, by decide, by decide,
      fun _ => show ([2, 1, 3] : List Int).Perm ((List.range' 1 3).map (fun i : Nat => (i : Int))) by decide,
      fun _ => List.Perm.refl _, fun p _ => ⟨UInt8.ofNat (p + 3) :: List.replicate 31 0, rfl, by simp⟩⟩,
    by decide +kernel⟩

/-- C64 is false for a leader that tries a second time, in every case: once its attempt at a block has failed (with whatever
error), a second call for the block on the same leader, as long as no record of the block arrives, waits for a signature
that nobody makes and times out after a hundred looks. -/
theorem C64_leader_fails (C : Crypto) (cfg : ValidatorCfg) (v : VState) (b : Block) (id id' : Nat) (e : Err)
    (hidle : v.calls id = none) (hidle' : v.calls id' = none) (hi : v.init.hrs ≺ b.hrs) (hl : v.lss.hrs ≺ b.hrs)
    (hc : v.lss.cache b.hrs = none) :
    ∃ v1 v2, vexec C cfg v [.call id b .leader, .roundDone id (.failed e)] =
      ([(.call id b .leader, .startRound id b false),
        (.roundDone id (.failed e), .ret id b none b.timestamp (some e))], v1) ∧
    (vexec C cfg v1 (.call id' b .leader :: List.replicate 100 (.poll id'))) =
      ((.call id' b .leader, .tau) :: List.replicate 99 (.poll id', .tau) ++
        [(.poll id', .ret id' b none b.timestamp (some .timedOutWaitingForBlock))], v2) := by
  have hsave : v.init.save (SSC.new b.height b.round b.step) = _ := SignState.save_ok _ _ hi
  have hstill : existingSignature v.lss b = .error .stillWaiting := by
    have hlt := hl
    unfold HRS.lt SignState.hrs Block.hrs at hlt
    unfold existingSignature SignState.getFromCache
    simp only [hc]
    rw [if_neg]
    simp only at hlt ⊢
    omega
  have hpolls : ∀ (m i : Nat) (u : VState), i + m = 99 → u.lss = v.lss → u.calls id' = some (b, .poll i) →
      ∃ v2, vexec C cfg u (List.replicate (m + 1) (.poll id')) =
        (List.replicate m (.poll id', .tau) ++
          [(.poll id', .ret id' b none b.timestamp (some .timedOutWaitingForBlock))], v2) := by
    intro m
    induction m with
    | zero =>
      intro i u hi hu hcall
      have : u.step C cfg (.poll id') = (.ret id' b none b.timestamp (some .timedOutWaitingForBlock), u.finish id') := by
        simp only [VState.step, hcall, hu, hstill]
        rw [if_neg (by omega)]
      simp only [List.replicate, vexec, this]
      exact ⟨_, rfl⟩
    | succ m ih =>
      intro i u hi hu hcall
      have : u.step C cfg (.poll id') = (.tau, u.setPhase id' b (.poll (i + 1))) := by
        simp only [VState.step, hcall, hu, hstill]
        rw [if_pos (by omega)]
      obtain ⟨v2, h2⟩ := ih (i + 1) (u.setPhase id' b (.poll (i + 1))) (by omega) hu (by simp [VState.setPhase])
      rw [List.replicate_succ (n := m + 1)]
      simp only [vexec, this, h2]
      exact ⟨_, rfl⟩
  let w : VState := { v with init := (v.init.save (SSC.new b.height b.round b.step)).2 }
  have h1 : v.step C cfg (.call id b .leader) = (.startRound id b false, w.setPhase id b .round) := by
    simp only [VState.step, hidle, hsave, w]
  have h2 : (w.setPhase id b .round).step C cfg (.roundDone id (.failed e)) =
      (.ret id b none b.timestamp (some e), (w.setPhase id b .round).finish id) := by
    simp [VState.step, VState.setPhase]
  let u := (w.setPhase id b .round).finish id
  have hucalls : u.calls id' = none := by
    show (if id' = id then none else if id' = id then _ else v.calls id') = none
    by_cases h : id' = id <;> simp [h, hidle']
  have huinit : u.init.getErrorIfLessOrEqual b.height b.round b.step = some (.sameHRS ⟨b.height, b.round, b.step⟩) := by
    have : u.init = _ := congrArg Prod.snd hsave
    rw [this]
    simp [SignState.getErrorIfLessOrEqual, SSC.new]
  have h3 : u.step C cfg (.call id' b .leader) = (.tau, u.setPhase id' b (.poll 0)) := by
    have : u.init.save (SSC.new b.height b.round b.step) = (some (.sameHRS ⟨b.height, b.round, b.step⟩), u.init) := by
      unfold SignState.save
      rw [show u.init.getErrorIfLessOrEqual (SSC.new b.height b.round b.step).height (SSC.new b.height b.round b.step).round
        (SSC.new b.height b.round b.step).step = _ from huinit]
    simp only [VState.step, hucalls, this]
  obtain ⟨v2, h4⟩ := hpolls 99 0 (u.setPhase id' b (.poll 0)) rfl rfl (by simp [VState.setPhase])
  refine ⟨u, v2, ?_, ?_⟩
  · simp only [vexec, h1, h2]; rfl
  · simp only [vexec, h3, h4]; rfl

/-- Concretely: the precommit of the toy cluster, with a timeout while waiting for the peers' parts. -/
example : (VState.start .empty).calls 0 = none ∧ (VState.start .empty).init.hrs ≺ blk1.hrs ∧
    (VState.start .empty).lss.hrs ≺ blk1.hrs ∧ (VState.start .empty).lss.cache blk1.hrs = none :=
  ⟨rfl, by decide, by decide, rfl⟩

end Horcrux
