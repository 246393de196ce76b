import Verif.Props.Validator
/-
Property C26: when the leader answers from its records, for every state.
-/
namespace Horcrux
open Spec

theorem save_lower {s : SignState} {b : Block} (h : b.hrs ≺ s.hrs) :
    ∃ e, s.save (SSC.new b.height b.round b.step) = (some e, s) ∧ ∀ k, e ≠ .sameHRS k := by
  unfold HRS.lt SignState.hrs Block.hrs at h
  simp only at h
  have key : ∃ e, s.getErrorIfLessOrEqual b.height b.round b.step = some e ∧ ∀ k, e ≠ .sameHRS k := by
    unfold SignState.getErrorIfLessOrEqual
    split
    · exact ⟨_, rfl, by simp⟩
    · split
      · omega
      · split
        · exact ⟨_, rfl, by simp⟩
        · split
          · omega
          · split
            · exact ⟨_, rfl, by simp⟩
            · omega
  obtain ⟨e, h1, h2⟩ := key
  refine ⟨e, ?_, h2⟩
  unfold SignState.save
  rw [show s.getErrorIfLessOrEqual (SSC.new b.height b.round b.step).height (SSC.new b.height b.round b.step).round
    (SSC.new b.height b.round b.step).step = some e from h1]

theorem save_equal {s : SignState} {b : Block} (h : b.hrs = s.hrs) :
    ∃ k, s.save (SSC.new b.height b.round b.step) = (some (.sameHRS k), s) := by
  unfold SignState.hrs Block.hrs at h
  simp only [HRS.mk.injEq] at h
  obtain ⟨h1, h2, h3⟩ := h
  have key : s.getErrorIfLessOrEqual b.height b.round b.step = some (.sameHRS ⟨b.height, b.round, b.step⟩) := by
    unfold SignState.getErrorIfLessOrEqual
    rw [if_neg (by omega), if_neg (by omega), if_neg (by omega), if_neg (by omega), if_neg (by omega), if_pos h3]
  refine ⟨⟨b.height, b.round, b.step⟩, ?_⟩
  unfold SignState.save
  rw [show s.getErrorIfLessOrEqual (SSC.new b.height b.round b.step).height (SSC.new b.height b.round b.step).round
    (SSC.new b.height b.round b.step).step = _ from key]

/-- The output of the last step. -/
def lastOut (r : List (VEv × VOut) × VState) : Option VOut := r.1.getLast?.map (·.2)

theorem call_lookup (C : Crypto) (cfg : ValidatorCfg) (v : VState) (id : Nat) (b : Block) (hidle : v.calls id = none)
    (hlow : b.hrs ≺ v.init.hrs) : lastOut (vexec C cfg v [.call id b .leader, .lookup id]) =
      some (match existingSignature v.lss b with
        | .ok sig => .ret id b sig b.timestamp none
        | .error _ => .ret id b none b.timestamp (some .beyondBlock)) := by
  obtain ⟨e, h1, h2⟩ := save_lower hlow
  have h3 : v.step C cfg (.call id b .leader) = (.tau, v.setPhase id b .lookup) := by
    simp only [VState.step, hidle, h1]
  have h4 : (v.setPhase id b .lookup).calls id = some (b, .lookup) := by simp [VState.setPhase]
  have h5 : (v.setPhase id b .lookup).lss = v.lss := rfl
  simp only [vexec, h3, lastOut, List.getLast?_cons_cons, List.getLast?_singleton, Option.map_some]
  simp only [VState.step, h4, h5]
  cases existingSignature v.lss b <;> rfl

/-- C26 is false exactly so: a call for a block below the watermark of started blocks, in any state of the leader, is answered
with success and no signature just if there is a record of the block that differs from the request by the time only, or that
has no signature and is the same message or one of a proposal. -/
theorem C26_no_signature (C : Crypto) (cfg : ValidatorCfg) (v : VState) (id : Nat) (b : Block) (hidle : v.calls id = none)
    (hlow : b.hrs ≺ v.init.hrs) :
    lastOut (vexec C cfg v [.call id b .leader, .lookup id]) = some (.ret id b none b.timestamp none) ↔
      ∃ r, v.lss.cache b.hrs = some r ∧
        ((b.step ≠ 1 ∧ b.signBytes ≠ r.signBytes.bytes ∧ DifferOnlyByTime r.step r.signBytes.bytes b.signBytes) ∨
         (r.signature = none ∧ (b.step = 1 ∨ b.signBytes = r.signBytes.bytes))) := by
  rw [call_lookup C cfg v id b hidle hlow]
  unfold existingSignature SignState.getFromCache
  cases hc : v.lss.cache b.hrs with
  | none =>
    simp only [Option.some.injEq, reduceCtorEq, false_and, exists_false, iff_false]
    split
    · next h => split at h <;> cases h
    · simp
  | some r =>
    simp only [Option.some.injEq, exists_eq_left']
    by_cases hs : b.step = stepPropose ∨ b.signBytes = r.signBytes.bytes
    · rw [if_pos hs]
      simp only [VOut.ret.injEq, true_and, and_true]
      constructor
      · intro h; exact .inr ⟨h, hs⟩
      · rintro (⟨h1, h2, _⟩ | ⟨h, _⟩)
        · rcases hs with h | h
          · exact absurd h h1
          · exact absurd h h2
        · exact h
    · rw [if_neg hs]
      have hs' : b.step ≠ 1 ∧ b.signBytes ≠ r.signBytes.bytes := not_or.1 hs
      have hd := onlyDiffer_iff r.step r.signBytes.bytes b.signBytes
      cases ho : onlyDifferByTimestamp r.step r.signBytes.bytes b.signBytes with
      | none => simp only [true_iff]; exact .inl ⟨hs'.1, hs'.2, hd.1 ho⟩
      | some e =>
        simp only [VOut.ret.injEq, reduceCtorEq, and_false, false_iff]
        rintro (⟨_, _, h⟩ | ⟨_, h | h⟩)
        · rw [hd.2 h] at ho; cases ho
        · exact hs'.1 h
        · exact hs'.2 h

/-- Met in the toy cluster: 7.1.3 and 8.1.3 are signed, `blk2` is 7.1.3 with another time. -/
example : let v := (vexec vtoy vcfg (VState.start .empty) (signNow 0 blk1 ++ signNow 1 blk3)).2
    v.calls 2 = none ∧ blk2.hrs ≺ v.init.hrs ∧ blk2.step ≠ 1 ∧ (v.lss.cache blk2.hrs).isSome = true ∧
    lastOut (vexec vtoy vcfg v [.call 2 blk2 .leader, .lookup 2]) = some (.ret 2 blk2 none blk2.timestamp none) := by
  decide +kernel

/-- C26 is false in every state of the leader: a proposal for a height and round for which it has a record with a signature is
answered with that signature, whatever it proposes. -/
theorem C26_any_proposal (C : Crypto) (cfg : ValidatorCfg) (v : VState) (id : Nat) (b : Block) (hidle : v.calls id = none)
    (hp : b.step = 1) (hle : b.hrs ≼ v.init.hrs) (r : SSC) (hr : v.lss.cache b.hrs = some r) (sig : Bytes)
    (hsig : r.signature = some sig) :
    ∃ ev, (ev = .poll id ∨ ev = .lookup id) ∧
      lastOut (vexec C cfg v [.call id b .leader, ev]) = some (.ret id b (some sig) b.timestamp none) := by
  have hex : existingSignature v.lss b = .ok (some sig) := by
    unfold existingSignature SignState.getFromCache
    simp only [hr]
    rw [if_pos (.inl hp), hsig]
  rcases hle with hle | hle
  · obtain ⟨k, h1⟩ := save_equal hle
    have h3 : v.step C cfg (.call id b .leader) = (.tau, v.setPhase id b (.poll 0)) := by
      simp only [VState.step, hidle, h1]
    have h4 : (v.setPhase id b (.poll 0)).calls id = some (b, .poll 0) := by simp [VState.setPhase]
    have h5 : (v.setPhase id b (.poll 0)).lss = v.lss := rfl
    refine ⟨.poll id, .inl rfl, ?_⟩
    simp only [vexec, h3, lastOut, List.getLast?_cons_cons, List.getLast?_singleton, Option.map_some]
    simp only [VState.step, h4, h5, hex]
  · refine ⟨.lookup id, .inr rfl, ?_⟩
    rw [call_lookup C cfg v id b hidle hle, hex]

/-- Met in the toy cluster by two proposals for one round. -/
example : let v := (vexec vtoy vcfg (VState.start .empty) (signNow 0 prp1)).2
    v.calls 1 = none ∧ prp2.step = 1 ∧ prp2.hrs = v.init.hrs ∧ prp2.signBytes ≠ prp1.signBytes ∧
    ((v.lss.cache prp2.hrs).bind (·.signature)) = some (42 :: prp1.signBytes) := by
  decide +kernel

end Horcrux
