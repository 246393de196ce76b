import Verif.Spec.Sequence
import Verif.Lemmas.Cluster
import Verif.Lemmas.Mislabel
import Verif.Lemmas.CosignerTrace
import Verif.Lemmas.Validator
/-
What a sign request does to the watermarks of the cosigners and to the signatures a leader remembers.
-/
namespace Horcrux
open Spec

variable {C : Crypto} {vcfg : ValidatorCfg} {cfg : Nat → CosignerCfg} {n : Nat}

theorem setPartsAndSign_mono (c : CosignerCfg) (k : HRST) (bs : Bytes) (parts : List SecretPart) (rnd : Nat → Rand) (s : CState) :
    s.lss.hrs ≼ (setPartsAndSign C c k bs parts rnd s).2.lss.hrs := by
  obtain ⟨s1, h1, h2 | ⟨h2, _⟩⟩ := setPartsAndSign_dealt (C := C) (cfg := c) (k := k) (bs := bs) parts rnd s
  · rw [h2, ← h1.lss]
    exact (step_lss (C := C) (cfg := c) (s := s1) (op := .sign bs) (out := _) rfl).1
  · rw [h2, h1.lss]; exact HRS.le_refl _

theorem setPartsAndSign_signed {c : CosignerCfg} {k k' : HRST} {bs : Bytes} {parts : List SecretPart} {rnd : Nat → Rand}
    {s : CState} {r : SignRes} (h : (setPartsAndSign C c k bs parts rnd s).1 = .ok r) (hu : unpackHRST bs = .ok k') :
    s.lss.hrs ≼ k'.hrs ∧ (setPartsAndSign C c k bs parts rnd s).2.lss.hrs = k'.hrs := by
  obtain ⟨s1, h1, h2 | ⟨_, h2⟩⟩ := setPartsAndSign_dealt (C := C) (cfg := c) (k := k) (bs := bs) parts rnd s
  · rw [h2] at h ⊢
    rw [← h1.lss]
    exact sign_ge (C := C) (cfg := c) (Prod.ext h rfl) hu
  · exact absurd h (h2 r)

/-- No cosigner's watermark goes back in a round. -/
theorem roundShares_mono (ps : List Nat) (leader : Nat) (k : HRST) (bs : Bytes) (order : Nat → List Int)
    (mapOrder : Nat → List Nat) (rnd1 rnd2 : Nat → Nat → Rand) (st : Nat → CState) (p : Nat) :
    (st p).lss.hrs ≼ ((roundShares C cfg ps leader n k bs order mapOrder rnd1 rnd2 st).2 p).lss.hrs := by
  unfold roundShares
  simp only
  split
  · have h1 := (getParts_dealt (C := C) (cfg := cfg p) (k := k) (order p) (rnd1 p) (st p)).lss
    rw [← h1]
    exact setPartsAndSign_mono _ _ _ _ _ _
  · exact HRS.le_refl _

/-- A round that gives a signature moved the watermarks of at least a threshold of cosigners to the block. -/
theorem roundShares_signed {t : Nat} {ps : List Nat} {leader : Nat} {k k' : HRST} {bs pub : Bytes} {order : Nat → List Int}
    {mapOrder : Nat → List Nat} {rnd1 rnd2 : Nat → Nat → Rand} {st : Nat → CState} {sig : Bytes}
    (h : assemble C t pub bs (roundShares C cfg ps leader n k bs order mapOrder rnd1 rnd2 st).1.1
      (roundShares C cfg ps leader n k bs order mapOrder rnd1 rnd2 st).1.2 = .ok sig) (hu : unpackHRST bs = .ok k') :
    ∃ S : Finset Nat, S ⊆ Finset.Icc 1 n ∧ t ≤ S.card ∧ ∀ p ∈ S, (st p).lss.hrs ≼ k'.hrs ∧
      ((roundShares C cfg ps leader n k bs order mapOrder rnd1 rnd2 st).2 p).lss.hrs = k'.hrs := by
  have key : ∀ i ∈ (collectSigs 0 (roundShares C cfg ps leader n k bs order mapOrder rnd1 rnd2 st).1.1).1, 1 ≤ i ∧ i ≤ n ∧
      (st i).lss.hrs ≼ k'.hrs ∧
      ((roundShares C cfg ps leader n k bs order mapOrder rnd1 rnd2 st).2 i).lss.hrs = k'.hrs := by
    intro i hi
    obtain ⟨h1, b, hb, hb0⟩ := (collectSigs_ids _ 0).2 i hi
    simp only [roundShares, shareArray, Nat.sub_zero, List.getElem?_map] at hb
    cases hr : (List.range n)[i - 1]? with
    | none => rw [hr] at hb; cases hb
    | some j =>
      obtain ⟨hj, hj'⟩ := List.getElem?_eq_some_iff.1 hr
      simp only [List.length_range] at hj
      simp only [List.getElem_range] at hj'
      subst hj'
      rw [hr] at hb
      simp only [Option.map_some, Option.some.injEq] at hb
      have e : i - 1 + 1 = i := by omega
      rw [e] at hb
      refine ⟨by omega, by omega, ?_⟩
      split at hb
      · next hp =>
        have h2 := (getParts_dealt (C := C) (cfg := cfg i) (k := k) (order i) (rnd1 i) (st i)).lss
        split at hb
        · next r hr' =>
          obtain ⟨h3, h4⟩ := setPartsAndSign_signed hr' hu
          rw [h2] at h3
          refine ⟨h3, ?_⟩
          simp only [roundShares, if_pos hp]
          exact h4
        · subst hb; exact absurd rfl hb0
      · subst hb; exact absurd rfl hb0
  unfold assemble at h
  simp only at h
  split at h
  · cases h
  · next hlen =>
    refine ⟨(collectSigs 0 (roundShares C cfg ps leader n k bs order mapOrder rnd1 rnd2 st).1.1).1.toFinset, ?_, ?_, ?_⟩
    · intro i hi
      obtain ⟨h1, h2, _⟩ := key i (List.mem_toFinset.1 hi)
      exact Finset.mem_Icc.2 ⟨h1, h2⟩
    · rw [List.toFinset_card_of_nodup (collectSigs_ids _ 0).1]
      omega
    · intro i hi
      exact (key i (List.mem_toFinset.1 hi)).2.2

/-! ### The leader -/

/-- How the first part of a call ends. -/
inductive Begun (v : VState) (id : Nat) (b : Block) : VOut × VState → Prop where
  | tau (v' : VState) (hl : v'.lss = v.lss) : Begun v id b (.tau, v')
  | start (again : Bool) (v' : VState) (hl : v'.lss = v.lss) (hc : v'.calls id = some (b, .round)) :
      Begun v id b (.startRound id b again, v')
  | known (sig : Slice) (v' : VState) (hl : v'.lss = v.lss) (he : existingSignature v.lss b = .ok sig) :
      Begun v id b (.ret id b sig b.timestamp none, v')
  | refused (e : Err) (v' : VState) (hl : v'.lss = v.lss) : Begun v id b (.ret id b none b.timestamp (some e), v')

theorem wait_begun (v0 : VState) (id : Nat) (b : Block) : ∀ (k : Nat) (v : VState), v.lss = v0.lss →
    (∃ ph, v.calls id = some (b, ph)) → Begun v0 id b (v.wait C vcfg id k) := by
  intro k
  induction k with
  | zero => intro v hl _; exact .tau v hl
  | succ k ih =>
    intro v hl ⟨ph, hc⟩
    unfold VState.wait
    rw [hc]
    cases ph with
    | poll i =>
      simp only [VState.step, hc]
      cases he : existingSignature v.lss b with
      | ok sig =>
        cases sig with
        | none => exact .start _ _ hl (by simp [VState.setPhase])
        | some sig => exact .known _ _ hl (by rw [← hl]; exact he)
      | error e =>
        cases e
        case stillWaiting =>
          simp only
          by_cases hi : i + 1 < 100
          · simp only [if_pos hi]
            exact ih _ hl ⟨.poll (i + 1), by simp [VState.setPhase]⟩
          · simp only [if_neg hi]
            exact .refused _ _ hl
        all_goals exact .refused _ _ hl
    | lookup =>
      simp only [VState.step, hc]
      cases he : existingSignature v.lss b with
      | ok sig => exact .known _ _ hl (by rw [← hl]; exact he)
      | error e => exact .refused _ _ hl
    | proxy => exact .tau v hl
    | round => exact .tau v hl
    | save s => exact .tau v hl
    | emit s => exact .tau v hl

theorem begin_begun (v : VState) (id : Nat) (b : Block) : Begun v id b (v.begin C vcfg id b) := by
  unfold VState.begin
  cases hc : v.calls id with
  | some x => exact .tau v rfl
  | none =>
    simp only [VState.step, hc]
    rcases hs : v.init.save (SSC.new b.height b.round b.step) with ⟨e, init'⟩
    cases e with
    | none => exact .start _ _ rfl (by simp [VState.setPhase])
    | some e =>
      cases e
      case sameHRS => exact wait_begun v id b 100 _ rfl ⟨.poll 0, by simp [VState.setPhase]⟩
      all_goals exact wait_begun v id b 100 _ rfl ⟨.lookup, by simp [VState.setPhase]⟩

theorem existing_cached {l : SignState} {b : Block} {sig : Bytes} (h : existingSignature l b = .ok (some sig)) :
    ∃ r, l.cache b.hrs = some r ∧ r.signature = some sig := by
  unfold existingSignature SignState.getFromCache at h
  cases hc : l.cache b.hrs with
  | none =>
    rw [hc] at h
    simp only at h
    split at h <;> cases h
  | some r =>
    rw [hc] at h
    simp only at h
    split at h
    · simp only [Except.ok.injEq] at h
      exact ⟨r, rfl, h⟩
    · split at h <;> cases h

theorem save_cache_from {l : SignState} {r r' : SSC} {h : HRS} (hc : (l.save r).2.cache h = some r') :
    l.cache h = some r' ∨ (h = r.hrs ∧ r' = r) := by
  unfold SignState.save at hc
  split at hc
  · exact .inl hc
  · simp only at hc
    split at hc
    · cases hc
    · split at hc
      · next he => simp only [Option.some.injEq] at hc; exact .inr ⟨he, hc.symm⟩
      · exact .inl hc

/-- What a sign request does. -/
inductive Signed (C : Crypto) (t : Nat) (n : Nat) (s : Sys) (q : Req) : VOut × Sys → Prop where
  /-- no round: nothing is made, and a signature that is given was remembered -/
  | idle (o : VOut) (s' : Sys) (hcs : s'.cs = s.cs) (hl : ∀ p, (s'.vs p).lss = (s.vs p).lss)
      (ho : ∀ id b sig stamp, o = .ret id b (some sig) stamp none → InFile q.block.hrs sig (s.vs q.leader).lss) :
      Signed C t n s q (o, s')
  /-- a round without success -/
  | failed (o : VOut) (s' : Sys) (hcs : ∀ p, (s.cs p).lss.hrs ≼ (s'.cs p).lss.hrs)
      (hl : ∀ p, (s'.vs p).lss = (s.vs p).lss) (ho : ∀ id b sig stamp, o ≠ .ret id b (some sig) stamp none) :
      Signed C t n s q (o, s')
  /-- a round with success -/
  | made (sig : Bytes) (s' : Sys) (S : Finset Nat) (hS : S ⊆ Finset.Icc 1 n) (ht : t ≤ S.card)
      (hcs : ∀ p, (s.cs p).lss.hrs ≼ (s'.cs p).lss.hrs)
      (hsg : ∀ p ∈ S, (s.cs p).lss.hrs ≼ q.block.hrs ∧ (s'.cs p).lss.hrs = q.block.hrs)
      (hl : ∀ p h sg, InFile h sg (s'.vs p).lss → InFile h sg (s.vs p).lss ∨ (h = q.block.hrs ∧ sg = sig)) :
      Signed C t n s q (.ret q.id q.block (some sig) q.block.timestamp none, s')

theorem assembleAndSave_lss (v : VState) (id : Nat) (b : Block) (hc : v.calls id = some (b, .round)) (shares : List Bytes)
    (eph : Bytes) :
    (∃ sig, assemble C vcfg.threshold vcfg.pubKey b.signBytes shares eph = .ok sig ∧
      (v.assembleAndSave C vcfg id shares eph).1 = .ret id b (some sig) b.timestamp none ∧
      (v.assembleAndSave C vcfg id shares eph).2.lss = (v.lss.save (b.record sig)).2) ∨
    ((∀ id' b' sig stamp, (v.assembleAndSave C vcfg id shares eph).1 ≠ .ret id' b' (some sig) stamp none) ∧
      (v.assembleAndSave C vcfg id shares eph).2.lss = v.lss) := by
  unfold VState.assembleAndSave
  simp only [VState.step, hc]
  cases ha : assemble C vcfg.threshold vcfg.pubKey b.signBytes shares eph with
  | err e => exact .inr ⟨by simp, rfl⟩
  | panic => right; simp [hc]
  | ok sig =>
    simp only [VState.setPhase, if_true]
    rcases hs : v.lss.save (b.record sig) with ⟨e, l'⟩
    cases e with
    | none => left; exact ⟨sig, rfl, by simp, by simp [VState.finish, hs]⟩
    | some e =>
      have hl' : l' = v.lss := by
        have := congrArg Prod.fst hs
        unfold SignState.save at hs this
        split at hs
        · exact (congrArg Prod.snd hs).symm
        · cases hs
      cases e
      case sameHRS => left; exact ⟨sig, rfl, by simp, by simp [VState.finish, hs]⟩
      all_goals right; exact ⟨by simp, hl'⟩

theorem signBlock_signed {t : Nat} (hV : vcfg.threshold = t) (s : Sys) (q : Req)
    (hq : unpackHRST q.block.signBytes = .ok q.block.key) : Signed C t n s q (s.signBlock C vcfg cfg n q) := by
  have hb := begin_begun (C := C) (vcfg := vcfg) (s.vs q.leader) q.id q.block
  unfold Sys.signBlock
  generalize (s.vs q.leader).begin C vcfg q.id q.block = x at hb
  have hvs : ∀ v' : VState, v'.lss = (s.vs q.leader).lss → ∀ p,
      (if p = q.leader then v' else s.vs p).lss = (s.vs p).lss := by
    intro v' hv p
    split
    · next hp => rw [hp]; exact hv
    · rfl
  cases hb with
  | tau v' hl => exact .idle _ _ rfl (hvs v' hl) (by simp)
  | refused e v' hl => exact .idle _ _ rfl (hvs v' hl) (by simp)
  | known sig v' hl he =>
    refine .idle _ _ rfl (hvs v' hl) ?_
    intro id b sg stamp ho
    simp only [VOut.ret.injEq] at ho
    obtain ⟨_, _, hs, _⟩ := ho
    rw [hs] at he
    exact existing_cached he
  | start again v' hl hc =>
    simp only
    have hm := roundShares_mono (C := C) (cfg := cfg) (n := n) q.ps q.leader q.block.key q.block.signBytes q.order q.mapOrder
      q.rnd1 q.rnd2 s.cs
    rcases assembleAndSave_lss (C := C) (vcfg := vcfg) v' q.id q.block hc
        (roundShares C cfg q.ps q.leader n q.block.key q.block.signBytes q.order q.mapOrder q.rnd1 q.rnd2 s.cs).1.1
        (roundShares C cfg q.ps q.leader n q.block.key q.block.signBytes q.order q.mapOrder q.rnd1 q.rnd2 s.cs).1.2 with
      ⟨sig, ha, ho, hl'⟩ | ⟨ho, hl'⟩
    · rw [ho]
      rw [hV] at ha
      obtain ⟨S, hS, ht, hsg⟩ := roundShares_signed ha hq
      refine .made sig _ S hS ht hm hsg ?_
      intro p h sg ⟨r, hr, hrs⟩
      simp only at hr
      split at hr
      · next hp =>
        rw [hl'] at hr
        rcases save_cache_from hr with h1 | ⟨h1, h2⟩
        · rw [hl] at h1; subst hp; exact .inl ⟨r, h1, hrs⟩
        · right
          subst h2
          simp only [Block.record, Option.some.injEq] at hrs
          exact ⟨h1, hrs.symm⟩
      · exact .inl ⟨r, hr, hrs⟩
    · exact .failed _ _ hm (hvs _ (hl'.trans hl)) ho

end Horcrux
