import Verif.Props.Validator
/-
Property C29: exactly when a request for a recorded block is answered from the cache.
-/
namespace Horcrux
open Spec

variable (C : Crypto) (cfg : ValidatorCfg)

/-- C29: let a validator have a record with a signature for an HRS, by whatever way it came, and let a request for that HRS
with the same sign bytes arrive at the leader. If the block lies above everything this process has started, a signing round
starts; otherwise none does, and whatever else happens in between, as long as the watermark is at most three heights above,
the only thing the call can do is return the recorded signature with the request's time. So the condition is exact. -/
theorem C29_exact (l : SignState) (s1 s2 : VState) (tr1 : List (VEv × VOut)) (r : SSC) (sig : Bytes) (id : Nat) (b : Block)
    (out : VOut) (hl : l.CacheLe) (hrun1 : VRun C cfg (VState.start l) tr1 s1) (hk : s1.lss.cache b.hrs = some r)
    (hsig : r.signature = some sig) (hfree : s1.calls id = none) (hbytes : b.signBytes = r.signBytes.bytes)
    (hcall : s1.step C cfg (.call id b .leader) = (out, s2)) (h0 : -(2 ^ 63) + 3 ≤ b.height) (h64 : IsI64 b.height) :
    (s1.init.hrs ≺ b.hrs ∧ out = .startRound id b false ∧ s2.init.hrs = b.hrs ∧ s2.lss = s1.lss) ∨
    (b.hrs ≼ s1.init.hrs ∧ out = .tau ∧ s2.init = s1.init ∧ s2.lss = s1.lss ∧
      ∀ tr2 s3, VRun C cfg s2 tr2 s3 → (∀ x ∈ tr2, x.1.actor ≠ some id) → s3.lss.height ≤ b.height + 3 →
        (∃ ev s4, s3.step C cfg ev = (.ret id b (some sig) b.timestamp none, s4)) ∧
        (∀ ev, ev.actor = some id → s3.step C cfg ev = (.tau, s3) ∨
          ∃ s4, s3.step C cfg ev = (.ret id b (some sig) b.timestamp none, s4) ∧ s4.lss = s3.lss ∧
            s4.emitted = s3.emitted)) := by
  have hpart : b.hrs ≼ s1.init.hrs → ∀ tr2 s3, VRun C cfg s2 tr2 s3 → (∀ x ∈ tr2, x.1.actor ≠ some id) →
      s3.lss.height ≤ b.height + 3 → _ := fun hle tr2 s3 h2 ho hw =>
    (C29_partial C cfg l s1 s1 s2 s3 tr1 [] tr2 b.hrs r sig id b out hl hrun1 hk hsig (.inl hle) (.nil _) hfree rfl hbytes
      hcall h2 ho h0 h64 hw).2
  have hb : (SSC.new b.height b.round b.step).hrs = b.hrs := rfl
  rcases save_cases s1.init (SSC.new b.height b.round b.step) with ⟨h1, i', h2⟩ | ⟨h1, _, h2⟩ | ⟨h1, e, hne, h2⟩
  · left
    rw [hb] at h1
    have hi : i'.hrs = b.hrs := by
      have := SignState.save_hrs s1.init (SSC.new b.height b.round b.step)
      rw [h2, hb, if_pos h1] at this
      exact this
    simp only [VState.step, hfree, h2] at hcall
    injection hcall with ho hs
    subst ho hs
    exact ⟨h1, rfl, hi, rfl⟩
  · right
    rw [hb] at h1
    refine ⟨.inl h1.symm, ?_⟩
    have hp := hpart (.inl h1.symm)
    simp only [VState.step, hfree, h2] at hcall
    injection hcall with ho hs
    refine ⟨ho.symm, ?_, ?_, hp⟩ <;> subst hs <;> rfl
  · right
    rw [hb] at h1
    refine ⟨.inr h1, ?_⟩
    have hp := hpart (.inr h1)
    simp only [VState.step, hfree, h2] at hcall
    cases e with
    | sameHRS k => exact absurd rfl (hne k)
    | _ =>
      injection hcall with ho hs
      refine ⟨ho.symm, ?_, ?_, hp⟩ <;> subst hs <;> rfl

/-- A record brought by raft is used for a block that the process has started or passed, and not for one above. -/
example :
    let s := (vexec vtoy vcfg (VState.start .empty) (signNow 0 blk3 ++ [.lss (blk1.record (42 :: b1))])).2
    let s' := (vexec vtoy vcfg (VState.start .empty) (signNow 0 blk1 ++ [.lss (blk3.record (42 :: b3))])).2
    blk3.hrs ≼ s.init.hrs ∧ s.lss.cache blk3.hrs = some (blk3.record (42 :: b3)) ∧
    (s.step vtoy vcfg (.call 0 blk3 .leader)).1 = .tau ∧
    s'.init.hrs ≺ blk3.hrs ∧ s'.lss.cache blk3.hrs = some (blk3.record (42 :: b3)) ∧
    (s'.step vtoy vcfg (.call 0 blk3 .leader)).1 = .startRound 0 blk3 false := by
  refine ⟨.inl (by decide +kernel), ?_⟩
  decide +kernel

end Horcrux
