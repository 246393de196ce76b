import Verif.Lemmas.Validator
import Verif.Props.Cosigner
/-
C26–C30, C33, C34: the threshold validator under arbitrary interleavings of sign calls and raft events.
-/
namespace Horcrux
open Spec

variable (C : Crypto) (cfg : ValidatorCfg)

/-! ### Concrete material for the examples -/

/-- A signature is valid if it is the key followed by the message. -/
def vtoy : Crypto :=
  { toy with verify := fun pub m sig => decide (sig = pub ++ m), combineShares := fun _ _ sh => sh.headD [] }

def vcfg : ValidatorCfg := ⟨2, [42]⟩

/-- Run a list of events. -/
def vexec (C : Crypto) (cfg : ValidatorCfg) (s : VState) : List VEv → List (VEv × VOut) × VState
  | [] => ([], s)
  | ev :: evs =>
    let r := s.step C cfg ev
    let rest := vexec C cfg r.2 evs
    ((ev, r.1) :: rest.1, rest.2)

theorem vexec_run (s : VState) (evs : List VEv) : VRun C cfg s (vexec C cfg s evs).1 (vexec C cfg s evs).2 := by
  induction evs generalizing s with
  | nil => exact .nil _
  | cons ev evs ih =>
    have h1 : VRun C cfg s ([] ++ [(ev, (s.step C cfg ev).1)]) (s.step C cfg ev).2 := .snoc (.nil s) rfl
    exact VRun.append h1 (ih _)

/-- The precommits of `vote1` and `vote2` (same vote, later time), and one a height up. -/
def blk1 : Block := ⟨7, 1, 3, b1, ⟨1600000000, 5⟩⟩
def blk2 : Block := ⟨7, 1, 3, b2, ⟨1600000001, 0⟩⟩
def blk3 : Block := ⟨8, 1, 3, b3, ⟨1600000000, 5⟩⟩
/-- Two proposals for the same height and round. -/
def prp1 : Block := ⟨9, 0, 1, [1, 1], ⟨1, 0⟩⟩
def prp2 : Block := ⟨9, 0, 1, [2, 2], ⟨1, 0⟩⟩

/-- Sign a block in one go. -/
def signNow (id : Nat) (b : Block) : List VEv :=
  [.call id b .leader, .roundDone id (.sigs [b.signBytes, b.signBytes] [42]), .save id, .emit id]

/-- What the calls of a run returned. -/
def returns (tr : List (VEv × VOut)) : List (Nat × Slice × Option Err) :=
  tr.filterMap fun x => match x.2 with
    | .ret id _ sig _ e => some (id, sig, e)
    | _ => none

/-! ### C33 -/

/-- A record that verifies under the validator key. -/
def Verified (pub : Bytes) (r : SSC) : Prop := C.verify pub r.signBytes.bytes r.signature.bytes = true

/-- C33, one round: whatever share signatures there are, a signing round records and emits nothing by itself; the call
returns an error and no signature, or holds a signature that verifies over the requested bytes. -/
theorem C33_round (s s' : VState) (id : Nat) (b : Block) (r : RoundRes) (out : VOut)
    (hc : s.calls id = some (b, .round)) (h : s.step C cfg (.roundDone id r) = (out, s')) :
    s'.lss = s.lss ∧ s'.emitted = s.emitted ∧
    ((∃ e, out = .ret id b none b.timestamp (some e) ∧ s'.calls id = none) ∨
     (out = .tau ∧ ∃ sig, s'.calls id = some (b, .save sig) ∧ C.verify cfg.pubKey b.signBytes sig = true)) := by
  have hi := vstep_inv h
  generalize hev : VEv.roundDone id r = ev at hi
  cases hi with
  | idle =>
    exfalso
    rw [← hev] at *
    simp only [VState.step, hc] at h
    cases r with
    | failed e => simp at h
    | sigs sh eph =>
      simp only at h
      split at h
      · next sig ha =>
        have := congrArg (fun x : VOut × VState => x.2.calls id) h
        simp [VState.setPhase, hc] at this
      · simp at h
      · next ha => exact assemble_no_panic _ _ _ _ _ _ ha
  | roundFail id' b' e h' =>
    cases hev
    rw [hc] at h'; simp at h'; subst h'
    exact ⟨rfl, rfl, .inl ⟨e, rfl, by simp [VState.finish]⟩⟩
  | roundBad id' b' sh eph e h' ha =>
    cases hev
    rw [hc] at h'; simp at h'; subst h'
    exact ⟨rfl, rfl, .inl ⟨e, rfl, by simp [VState.finish]⟩⟩
  | roundOk id' b' sh eph sig h' ha =>
    cases hev
    rw [hc] at h'; simp at h'; subst h'
    exact ⟨rfl, rfl, .inr ⟨rfl, sig, by simp [VState.setPhase], assemble_verifies ha⟩⟩
  | _ => cases hev

/-- The share signatures that are there, each with the ID of its cosigner: the one at position `i` is from cosigner
`i + 1`. -/
def signers (shares : List Bytes) : List (Bytes × Nat) := (shares.zipIdx 1).filter (fun x => decide (x.1 ≠ []))

theorem collectSigs_eq (l : List Bytes) (i : Nat) :
    collectSigs i l = (((l.zipIdx (i + 1)).filter (fun x => decide (x.1 ≠ []))).map (·.2),
      ((l.zipIdx (i + 1)).filter (fun x => decide (x.1 ≠ []))).map (·.1)) := by
  induction l generalizing i with
  | nil => rfl
  | cons x l ih =>
    unfold collectSigs
    rw [List.zipIdx_cons, List.filter_cons]
    simp only [ih, List.length_eq_zero_iff]
    by_cases h0 : x = []
    · simp [h0]
    · simp [h0]

/-- C33, one round: the call returns an error, and no signature, exactly if too few cosigners signed or the combination of
their share signatures does not verify; otherwise it goes on with the combination. -/
theorem C33_refused (s : VState) (id : Nat) (b : Block) (shares : List Bytes) (eph : Bytes)
    (hc : s.calls id = some (b, .round)) :
    ((∃ e, s.step C cfg (.roundDone id (.sigs shares eph)) = (.ret id b none b.timestamp (some e), s.finish id)) ↔
      ((signers shares).length : Int) < cfg.threshold ∨
      C.verify cfg.pubKey b.signBytes
        (eph ++ C.combineShares shares.length ((signers shares).map (·.2)) ((signers shares).map (·.1))) = false) ∧
    ((∀ e, s.step C cfg (.roundDone id (.sigs shares eph)) ≠ (.ret id b none b.timestamp (some e), s.finish id)) →
      s.step C cfg (.roundDone id (.sigs shares eph)) = (.tau, s.setPhase id b (.save
        (eph ++ C.combineShares shares.length ((signers shares).map (·.2)) ((signers shares).map (·.1)))))) := by
  simp only [VState.step, hc]
  unfold assemble
  rw [collectSigs_eq]
  simp only [List.length_map, Nat.zero_add]
  generalize hg : (shares.zipIdx 1).filter (fun x => decide (x.1 ≠ [])) = g
  have hg' : signers shares = g := hg
  rw [hg']
  by_cases h1 : (g.length : Int) < cfg.threshold
  · rw [if_pos h1]
    simp [h1]
  · rw [if_neg h1]
    split <;> rename_i hv <;> split at hv <;> rename_i h2 <;> simp_all

/-- One share signature of two, a combination that verifies, and one that does not. -/
example : signers [[], [7], [8]] = [([7], 2), ([8], 3)] ∧
    ((signers [[], [7]]).length : Int) < vcfg.threshold ∧ ¬ ((signers [[], [7], [8]]).length : Int) < vcfg.threshold ∧
    vtoy.verify vcfg.pubKey [7] ([42] ++ vtoy.combineShares 3 [2, 3] [[7], [8]]) = true ∧
    vtoy.verify vcfg.pubKey [9] ([42] ++ vtoy.combineShares 3 [2, 3] [[7], [8]]) = false := by
  decide

/-- Calls that are past their round hold a verified signature, and everything emitted is verified. -/
def VState.Sound (C : Crypto) (pub : Bytes) (s : VState) : Prop :=
  (∀ id b sig, s.calls id = some (b, .save sig) ∨ s.calls id = some (b, .emit sig) → C.verify pub b.signBytes sig = true) ∧
  ∀ r ∈ s.emitted, Verified C pub r

theorem sound_step {s s' : VState} {ev : VEv} {out : VOut} (h : s.step C cfg ev = (out, s'))
    (hs : s.Sound C cfg.pubKey) : s'.Sound C cfg.pubKey := by
  obtain ⟨h1, h2⟩ := hs
  have hset : ∀ (id : Nat) (b : Block) (p : Phase) (t : VState), t.calls = s.calls →
      (∀ sig, p = .save sig ∨ p = .emit sig → C.verify cfg.pubKey b.signBytes sig = true) →
      ∀ id' b' sig, (t.setPhase id b p).calls id' = some (b', .save sig) ∨ (t.setPhase id b p).calls id' = some (b', .emit sig) →
        C.verify cfg.pubKey b'.signBytes sig = true := by
    intro id b p t ht hp id' b' sig hc
    by_cases he : id' = id
    · subst he
      simp only [VState.setPhase, if_true, Option.some.injEq, Prod.mk.injEq] at hc
      rcases hc with ⟨rfl, hc⟩ | ⟨rfl, hc⟩
      · exact hp sig (.inl hc)
      · exact hp sig (.inr hc)
    · simp only [VState.setPhase, if_neg he, ht] at hc
      exact h1 id' b' sig hc
  have hfin : ∀ (id : Nat) (t : VState), t.calls = s.calls →
      ∀ id' b' sig, (t.finish id).calls id' = some (b', .save sig) ∨ (t.finish id).calls id' = some (b', .emit sig) →
        C.verify cfg.pubKey b'.signBytes sig = true := by
    intro id t ht id' b' sig hc
    by_cases he : id' = id
    · subst he; simp [VState.finish] at hc
    · simp only [VState.finish, if_neg he, ht] at hc
      exact h1 id' b' sig hc
  cases vstep_inv h with
  | idle => exact ⟨h1, h2⟩
  | notReady => exact ⟨h1, h2⟩
  | proxied id b _ => exact ⟨hset id b _ s rfl (by simp), h2⟩
  | fresh id b _ _ => exact ⟨hset id b _ _ rfl (by simp), h2⟩
  | same id b _ _ => exact ⟨hset id b _ s rfl (by simp), h2⟩
  | below id b _ _ => exact ⟨hset id b _ s rfl (by simp), h2⟩
  | proxyErr id b e _ => exact ⟨hfin id s rfl, h2⟩
  | proxyOk id b e _ => exact ⟨hfin id s rfl, h2⟩
  | pollAgain id b i _ _ => exact ⟨hset id b _ s rfl (by simp), h2⟩
  | pollHit id b i sig _ _ => exact ⟨hfin id s rfl, h2⟩
  | pollWait id b i _ _ _ => exact ⟨hset id b _ s rfl (by simp), h2⟩
  | pollTimeout id b i _ _ _ => exact ⟨hfin id s rfl, h2⟩
  | pollErr id b i e _ _ _ => exact ⟨hfin id s rfl, h2⟩
  | lookupOk id b sig _ _ => exact ⟨hfin id s rfl, h2⟩
  | lookupErr id b e _ _ => exact ⟨hfin id s rfl, h2⟩
  | roundFail id b e _ => exact ⟨hfin id s rfl, h2⟩
  | roundBad id b sh eph e _ _ => exact ⟨hfin id s rfl, h2⟩
  | roundOk id b sh eph sig hc ha =>
    refine ⟨hset id b _ s rfl ?_, h2⟩
    intro sig' hs
    rcases hs with hs | hs
    · simp at hs; subst hs; exact assemble_verifies ha
    · simp at hs
  | saveOk id b sig hc _ =>
    refine ⟨hset id b _ _ rfl ?_, h2⟩
    intro sig' hs
    rcases hs with hs | hs
    · simp at hs
    · simp at hs; subst hs; exact h1 id b sig (.inl hc)
  | saveErr id b sig e _ _ => exact ⟨hfin id s rfl, h2⟩
  | emit id b sig hc =>
    refine ⟨hfin id _ rfl, ?_⟩
    intro r hr
    rcases List.mem_append.1 hr with hr | hr
    · exact h2 r hr
    · simp at hr; subst hr; exact h1 id b sig (.inr hc)
  | lss r => exact ⟨h1, h2⟩

theorem sound_run {s s' : VState} {tr : List (VEv × VOut)} (h : VRun C cfg s tr s') (hs : s.Sound C cfg.pubKey) :
    s'.Sound C cfg.pubKey := by
  induction h with
  | nil => exact hs
  | snoc _ hst ih => exact sound_step C cfg hst ih

theorem sound_start (l : SignState) (pub : Bytes) : (VState.start l).Sound C pub := by
  refine ⟨?_, ?_⟩
  · intro id b sig h; simp [VState.start] at h
  · intro r h; cases h

/-- C33, whole runs: everything a validator ever emits to raft verifies, and every record in its cache was loaded at the
start, came by a raft event, or verifies. -/
theorem C33_emitted_and_recorded (l : SignState) (s : VState) (tr : List (VEv × VOut))
    (h : VRun C cfg (VState.start l) tr s) :
    (∀ r ∈ s.emitted, Verified C cfg.pubKey r) ∧
    (∀ k r, s.lss.cache k = some r → l.cache k = some r ∨ (∃ o, (VEv.lss r, o) ∈ tr) ∨ Verified C cfg.pubKey r) := by
  refine ⟨(sound_run C cfg h (sound_start C l _)).2, ?_⟩
  generalize hs0 : VState.start l = s0 at h
  induction h with
  | nil => intro k r hk; subst hs0; exact .inl hk
  | @snoc s1 s2 tr ev out hr hst ih =>
    have hsd := sound_run C cfg hr (hs0 ▸ sound_start C l cfg.pubKey)
    have old : ∀ k r, s1.lss.cache k = some r →
        l.cache k = some r ∨ (∃ o, (VEv.lss r, o) ∈ tr ++ [(ev, out)]) ∨ Verified C cfg.pubKey r := by
      intro k r hk
      rcases ih k r hk with h | ⟨o, h⟩ | h
      · exact .inl h
      · exact .inr (.inl ⟨o, List.mem_append_left _ h⟩)
      · exact .inr (.inr h)
    have sv : ∀ (r0 : SSC), ((∃ o, (VEv.lss r0, o) ∈ tr ++ [(ev, out)]) ∨ Verified C cfg.pubKey r0) →
        ∀ k r, (s1.lss.save r0).2.cache k = some r →
        l.cache k = some r ∨ (∃ o, (VEv.lss r, o) ∈ tr ++ [(ev, out)]) ∨ Verified C cfg.pubKey r := by
      intro r0 hr0 k r hk
      by_cases hlt : s1.lss.hrs ≺ r0.hrs
      · rw [SignState.save_ok _ _ hlt] at hk
        simp only at hk
        split at hk
        · cases hk
        · split at hk
          · simp at hk; subst hk; exact .inr hr0
          · exact old k r hk
      · rw [SignState.save_err _ _ hlt] at hk; exact old k r hk
    intro k r hk
    rcases vstep_lss hst with h | ⟨r0, rfl, h⟩ | ⟨id, b, sig, rfl, hc, h⟩
    · rw [h] at hk; exact old k r hk
    · rw [h] at hk
      exact sv r0 (.inl ⟨out, List.mem_append_right _ (by simp)⟩) k r hk
    · rw [h] at hk
      have hv : Verified C cfg.pubKey (b.record sig) := hsd.1 id b sig (.inl hc)
      exact sv _ (.inr hv) k r hk

/-- A round with a bad share is refused and leaves no trace; a good one is recorded and emitted. -/
example :
    let bad := vexec vtoy vcfg (VState.start .empty) [.call 0 blk1 .leader, .roundDone 0 (.sigs [[1], b1] [42]), .save 0, .emit 0]
    let good := vexec vtoy vcfg (VState.start .empty) (signNow 0 blk1)
    returns bad.1 = [(0, none, some .combinedInvalid)] ∧ bad.2.emitted = [] ∧ bad.2.lss.hrs = ⟨0, 0, 0⟩ ∧
    returns good.1 = [(0, some (42 :: b1), none)] ∧ good.2.emitted = [⟨7, 1, 3, some (42 :: b1), some b1⟩] ∧
    good.2.lss.hrs = ⟨7, 1, 3⟩ := by decide +kernel

/-! ### C34 -/

/-- C34: over any run the recorded watermark and the watermark of started blocks never decrease. -/
theorem C34_watermarks (s s' : VState) (tr : List (VEv × VOut)) (h : VRun C cfg s tr s') :
    s.lss.hrs ≼ s'.lss.hrs ∧ s.init.hrs ≼ s'.init.hrs := by
  induction h with
  | nil => exact ⟨Or.inl rfl, Or.inl rfl⟩
  | @snoc s1 s2 tr ev out hr hst ih =>
    constructor
    · refine HRS.le_trans ih.1 ?_
      rcases vstep_lss hst with h | ⟨r0, _, h⟩ | ⟨id, b, sig, _, hc, h⟩ <;> rw [h]
      · exact Or.inl rfl
      · exact SignState.save_mono _ _
      · exact SignState.save_mono _ _
    · refine HRS.le_trans ih.2 ?_
      cases vstep_inv hst with
      | fresh id b _ _ => exact SignState.save_mono _ _
      | _ => exact Or.inl rfl

theorem cacheLe_run {s s' : VState} {tr : List (VEv × VOut)} (h : VRun C cfg s tr s') (hc : s.lss.CacheLe) :
    s'.lss.CacheLe := by
  induction h with
  | nil => exact hc
  | snoc _ hst ih => exact cacheLe_step hst ih

/-- C34: a record in the cache of a validator (whose loaded cache lies below its watermark, as any loaded one does) is
never replaced: later the same record is there, or none. -/
theorem C34_record_stable (s s' : VState) (tr : List (VEv × VOut)) (h : VRun C cfg s tr s') (hc : s.lss.CacheLe)
    (k : HRS) (r : SSC) (hk : s.lss.cache k = some r) :
    (s'.lss.cache k = some r ∨ s'.lss.cache k = none) ∧ k ≼ s'.lss.hrs := by
  refine ⟨?_, HRS.le_trans (hc k r hk).2 (C34_watermarks C cfg s s' tr h).1⟩
  induction h with
  | nil => exact .inl hk
  | @snoc s1 s2 tr ev out hr hst ih =>
    have hc1 := cacheLe_run C cfg hr hc
    have hle : k ≼ s1.lss.hrs := HRS.le_trans (hc k r hk).2 (C34_watermarks C cfg s s1 tr hr).1
    have sv : ∀ r0, (s1.lss.save r0).2.cache k = some r ∨ (s1.lss.save r0).2.cache k = none := by
      intro r0
      rcases ih with ih | ih
      · rcases save_cache_stable hc1 r0 r k ih with h | ⟨_, _, h⟩
        · exact .inl h
        · exact .inr h
      · right
        by_cases hlt : s1.lss.hrs ≺ r0.hrs
        · rw [SignState.save_ok _ _ hlt]
          simp only
          split
          · rfl
          · rw [if_neg]
            · exact ih
            · intro he
              rw [he] at hle
              exact HRS.lt_irrefl _ (HRS.lt_of_lt_of_le hlt hle)
        · rw [SignState.save_err _ _ hlt]; exact ih
    rcases vstep_lss hst with h | ⟨r0, _, h⟩ | ⟨id, b, sig, _, hcs, h⟩
    · rw [h]; exact ih
    · rw [h]; exact sv r0
    · rw [h]; exact sv _

/-- C34: while the watermark stays at an HRS, the signature and sign bytes recorded with it stay too. -/
theorem C34_current_stable (s s' : VState) (tr : List (VEv × VOut)) (h : VRun C cfg s tr s')
    (he : s'.lss.hrs = s.lss.hrs) : s'.lss.signature = s.lss.signature ∧ s'.lss.signBytes = s.lss.signBytes := by
  induction h with
  | nil => exact ⟨rfl, rfl⟩
  | @snoc s1 s2 tr ev out hr hst ih =>
    have h1 := (C34_watermarks C cfg s s1 tr hr).1
    have sv : ∀ r0, (s1.lss.save r0).2.hrs = s.lss.hrs →
        (s1.lss.save r0).2.signature = s.lss.signature ∧ (s1.lss.save r0).2.signBytes = s.lss.signBytes := by
      intro r0 he
      by_cases hlt : s1.lss.hrs ≺ r0.hrs
      · exfalso
        rw [SignState.save_hrs, if_pos hlt] at he
        rw [he] at hlt
        exact HRS.lt_irrefl _ (HRS.lt_of_lt_of_le hlt h1)
      · rw [SignState.save_err _ _ hlt] at he ⊢
        exact ih he
    rcases vstep_lss hst with h | ⟨r0, _, h⟩ | ⟨id, b, sig, _, hcs, h⟩
    · rw [h] at he ⊢; exact ih he
    · rw [h] at he ⊢; exact sv _ he
    · rw [h] at he ⊢; exact sv _ he

theorem cacheLe_empty : SignState.empty.CacheLe := by intro k r h; cases h

theorem cacheLe_loaded (h r st : Int) (eph sg sb : Slice) : (SignState.ofLoaded h r st eph sg sb).CacheLe := by
  intro k rec hk
  simp only [SignState.ofLoaded] at hk
  split at hk
  · next he => simp at hk; subst hk; exact ⟨he.symm, Or.inl he⟩
  · cases hk

/-- The record of block 7.1.3 is still there after 8.1.3 was signed and an older raft event arrived. -/
example :
    let s := (vexec vtoy vcfg (VState.start .empty) (signNow 0 blk1)).2
    let s' := (vexec vtoy vcfg s (signNow 0 blk3 ++ [.lss ⟨7, 1, 3, some [1], some [2]⟩, .lss ⟨6, 0, 1, some [1], some [2]⟩])).2
    s.lss.cache ⟨7, 1, 3⟩ = some ⟨7, 1, 3, some (42 :: b1), some b1⟩ ∧ s'.lss.cache ⟨7, 1, 3⟩ = s.lss.cache ⟨7, 1, 3⟩ ∧
    s'.lss.hrs = ⟨8, 1, 3⟩ := by decide +kernel

/-! ### C28 -/

/-- Blocks for which a run starts signing rounds. -/
def started (tr : List (VEv × VOut)) : List Block :=
  tr.filterMap fun x => match x.2 with
    | .startRound _ b _ => some b
    | _ => none

/-- Every call that is past its start, and every started round, lies at or below the watermark of started blocks. -/
theorem started_le {s0 s : VState} {tr : List (VEv × VOut)} (h : VRun C cfg s0 tr s)
    (h0 : ∀ id b p, s0.calls id = some (b, p) → p = .proxy ∨ b.hrs ≼ s0.init.hrs) :
    (∀ b ∈ started tr, b.hrs ≼ s.init.hrs) ∧ (∀ id b p, s.calls id = some (b, p) → p = .proxy ∨ b.hrs ≼ s.init.hrs) := by
  induction h with
  | nil => exact ⟨by simp [started], h0⟩
  | @snoc s1 s2 tr ev out hr hst ih =>
    obtain ⟨ih1, ih2⟩ := ih
    have hm : s1.init.hrs ≼ s2.init.hrs := (C34_watermarks C cfg _ _ _ (VRun.snoc (.nil s1) hst)).2
    have happ : started (tr ++ [(ev, out)]) = started tr ++ started [(ev, out)] := by simp [started]
    have up : ∀ b, b ∈ started tr → b.hrs ≼ s2.init.hrs := fun b hb => HRS.le_trans (ih1 b hb) hm
    have hset : ∀ (id : Nat) (b : Block) (p : Phase) (t : VState), t.calls = s1.calls → t.init = s2.init →
        (p = .proxy ∨ b.hrs ≼ s2.init.hrs) →
        ∀ id' b' p', (t.setPhase id b p).calls id' = some (b', p') → p' = .proxy ∨ b'.hrs ≼ s2.init.hrs := by
      intro id b p t ht hi hp id' b' p' hc
      by_cases he : id' = id
      · subst he
        simp only [VState.setPhase, if_true, Option.some.injEq, Prod.mk.injEq] at hc
        obtain ⟨rfl, rfl⟩ := hc
        exact hp
      · simp only [VState.setPhase, if_neg he, ht] at hc
        rcases ih2 id' b' p' hc with h | h
        · exact .inl h
        · exact .inr (HRS.le_trans h hm)
    have hfin : ∀ (id : Nat) (t : VState), t.calls = s1.calls →
        ∀ id' b' p', (t.finish id).calls id' = some (b', p') → p' = .proxy ∨ b'.hrs ≼ s2.init.hrs := by
      intro id t ht id' b' p' hc
      by_cases he : id' = id
      · subst he; simp [VState.finish] at hc
      · simp only [VState.finish, if_neg he, ht] at hc
        rcases ih2 id' b' p' hc with h | h
        · exact .inl h
        · exact .inr (HRS.le_trans h hm)
    have no : started [(ev, out)] = [] → ∀ b ∈ started (tr ++ [(ev, out)]), b.hrs ≼ s2.init.hrs := by
      intro he b hb
      rw [happ, he, List.append_nil] at hb
      exact up b hb
    cases vstep_inv hst with
    | idle => exact ⟨no rfl, ih2⟩
    | notReady => exact ⟨no rfl, ih2⟩
    | proxied id b _ => exact ⟨no rfl, hset id b _ s1 rfl rfl (.inl rfl)⟩
    | fresh id b _ hlt =>
      have hb : b.hrs ≼ (s1.init.save (SSC.new b.height b.round b.step)).2.hrs := by
        have hlt' : s1.init.hrs ≺ (SSC.new b.height b.round b.step).hrs := hlt
        rw [SignState.save_hrs, if_pos hlt']; exact Or.inl rfl
      refine ⟨?_, hset id b _ _ rfl rfl (.inr hb)⟩
      intro b' hb'
      rw [happ, List.mem_append] at hb'
      rcases hb' with hb' | hb'
      · exact up b' hb'
      · simp [started] at hb'; subst hb'; exact hb
    | same id b _ heq => exact ⟨no rfl, hset id b _ s1 rfl rfl (.inr (Or.inl heq.symm))⟩
    | below id b _ hlt => exact ⟨no rfl, hset id b _ s1 rfl rfl (.inr (Or.inr hlt))⟩
    | proxyErr id b e _ => exact ⟨no rfl, hfin id s1 rfl⟩
    | proxyOk id b e _ => exact ⟨no rfl, hfin id s1 rfl⟩
    | pollAgain id b i hc _ =>
      have hb : b.hrs ≼ s1.init.hrs := by
        rcases ih2 id b _ hc with h | h
        · simp at h
        · exact h
      refine ⟨?_, hset id b _ s1 rfl rfl (.inr hb)⟩
      intro b' hb'
      rw [happ, List.mem_append] at hb'
      rcases hb' with hb' | hb'
      · exact up b' hb'
      · simp [started] at hb'; subst hb'; exact hb
    | pollHit id b i sig _ _ => exact ⟨no rfl, hfin id s1 rfl⟩
    | pollWait id b i hc _ _ =>
      have hb : b.hrs ≼ s1.init.hrs := by
        rcases ih2 id b _ hc with h | h
        · simp at h
        · exact h
      exact ⟨no rfl, hset id b _ s1 rfl rfl (.inr hb)⟩
    | pollTimeout id b i _ _ _ => exact ⟨no rfl, hfin id s1 rfl⟩
    | pollErr id b i e _ _ _ => exact ⟨no rfl, hfin id s1 rfl⟩
    | lookupOk id b sig _ _ => exact ⟨no rfl, hfin id s1 rfl⟩
    | lookupErr id b e _ _ => exact ⟨no rfl, hfin id s1 rfl⟩
    | roundFail id b e _ => exact ⟨no rfl, hfin id s1 rfl⟩
    | roundBad id b sh eph e _ _ => exact ⟨no rfl, hfin id s1 rfl⟩
    | roundOk id b sh eph sig hc ha =>
      have hb : b.hrs ≼ s1.init.hrs := by
        rcases ih2 id b _ hc with h | h
        · simp at h
        · exact h
      exact ⟨no rfl, hset id b _ s1 rfl rfl (.inr hb)⟩
    | saveOk id b sig hc _ =>
      have hb : b.hrs ≼ s1.init.hrs := by
        rcases ih2 id b _ hc with h | h
        · simp at h
        · exact h
      exact ⟨no rfl, hset id b _ _ rfl rfl (.inr hb)⟩
    | saveErr id b sig e _ _ => exact ⟨no rfl, hfin id s1 rfl⟩
    | emit id b sig hc => exact ⟨no rfl, hfin id _ rfl⟩
    | lss r => exact ⟨no rfl, ih2⟩

theorem existing_ok_none {l : SignState} {b : Block} (h : existingSignature l b = .ok none) :
    ∃ r, l.cache b.hrs = some r ∧
      ((b.step ≠ stepPropose ∧ b.signBytes ≠ r.signBytes.bytes ∧ DifferOnlyByTime r.step r.signBytes.bytes b.signBytes) ∨
       (r.signature = none ∧ (b.step = stepPropose ∨ b.signBytes = r.signBytes.bytes))) := by
  unfold existingSignature SignState.getFromCache at h
  split at h
  · next r heq =>
    simp only [Prod.mk.injEq] at heq
    refine ⟨r, heq.2, ?_⟩
    split at h
    · next hp => simp at h; exact .inr ⟨h, hp⟩
    · next hp =>
      split at h
      · simp at h
      · next hd =>
        rw [not_or] at hp
        exact .inl ⟨hp.1, hp.2, (onlyDiffer_iff _ _ _).1 hd⟩
  · split at h <;> simp at h

/-- C28: when a run from the start of a process starts a signing round, then either it is the first for its HRS and lies
above every round started before and above the loaded watermark; or the cache has a record for that HRS, and the new
sign bytes differ from it only by timestamp or it has no signature. -/
theorem C28_one_attempt (l : SignState) (s s' : VState) (tr : List (VEv × VOut)) (ev : VEv) (id : Nat) (b : Block)
    (again : Bool) (hrun : VRun C cfg (VState.start l) tr s) (h : s.step C cfg ev = (.startRound id b again, s')) :
    (again = false ∧ l.hrs ≺ b.hrs ∧ ∀ b' ∈ started tr, b'.hrs ≺ b.hrs) ∨
    (again = true ∧ ∃ r, s.lss.cache b.hrs = some r ∧
      (DifferOnlyByTime r.step r.signBytes.bytes b.signBytes ∨ r.signature = none)) := by
  have hle := (started_le C cfg hrun (by intro id b p h; simp [VState.start] at h)).1
  have hl : l.hrs ≼ s.init.hrs := (C34_watermarks C cfg _ _ _ hrun).2
  have hi := vstep_inv h
  generalize hout : VOut.startRound id b again = out at hi
  cases hi with
  | fresh id' b' hc hlt =>
    simp only [VOut.startRound.injEq] at hout
    obtain ⟨rfl, rfl, rfl⟩ := hout
    exact .inl ⟨rfl, HRS.lt_of_le_of_lt hl hlt, fun b' hb' => HRS.lt_of_le_of_lt (hle b' hb') hlt⟩
  | pollAgain id' b' i hc he =>
    simp only [VOut.startRound.injEq] at hout
    obtain ⟨rfl, rfl, rfl⟩ := hout
    obtain ⟨r, hr, h⟩ := existing_ok_none he
    refine .inr ⟨rfl, r, hr, ?_⟩
    rcases h with ⟨_, _, h⟩ | ⟨h, _⟩
    · exact .inl h
    · exact .inr h
  | _ => cases hout

/-- The HRSs of the rounds a run starts for the first time. -/
def startedFresh (tr : List (VEv × VOut)) : List HRS :=
  tr.filterMap fun x => match x.2 with
    | .startRound _ b false => some b.hrs
    | _ => none

/-- C28: the HRSs of newly started rounds are strictly increasing. -/
theorem C28_increasing (l : SignState) (s : VState) (tr : List (VEv × VOut))
    (hrun : VRun C cfg (VState.start l) tr s) : (startedFresh tr).Pairwise (· ≺ ·) := by
  generalize hs0 : VState.start l = s0 at hrun
  induction hrun with
  | nil => exact .nil
  | @snoc s1 s2 tr ev out hr hst ih =>
    have happ : startedFresh (tr ++ [(ev, out)]) = startedFresh tr ++ startedFresh [(ev, out)] := by
      simp [startedFresh]
    rw [happ, List.pairwise_append]
    refine ⟨ih, ?_, ?_⟩
    · rcases out with _ | ⟨id, b, ag⟩ | _
      · exact .nil
      · cases ag <;> simp [startedFresh]
      · exact .nil
    · intro a ha c hc
      rcases out with _ | ⟨id, b, ag⟩ | _
      · simp [startedFresh] at hc
      · cases ag
        · simp [startedFresh] at hc
          subst hc
          subst hs0
          rcases C28_one_attempt C cfg l s1 s2 tr ev id b false hr hst with ⟨_, _, h⟩ | ⟨h, _⟩
          · unfold startedFresh at ha
            rw [List.mem_filterMap] at ha
            obtain ⟨x, hx, he⟩ := ha
            split at he
            · next i b' ho =>
              simp at he
              subst he
              refine h b' ?_
              unfold started
              rw [List.mem_filterMap]
              exact ⟨x, hx, by rw [ho]⟩
            · simp at he
          · simp at h
        · simp [startedFresh] at hc
      · simp [startedFresh] at hc

/-- The same block twice, then the re-timed vote, then a conflicting vote: one round, an answer from the cache, a second
round, a refusal. -/
example :
    let t := (vexec vtoy vcfg (VState.start .empty) (signNow 0 blk1 ++ [.call 1 blk1 .leader, .poll 1, .call 2 blk2 .leader, .poll 2,
      .call 3 { blk1 with signBytes := b3 } .leader, .poll 3])).1
    started t = [blk1, blk2] ∧ startedFresh t = [⟨7, 1, 3⟩] ∧
    returns t = [(0, some (42 :: b1), none), (1, some (42 :: b1), none), (3, none, some .conflictingData)] := by
  decide +kernel

/-! ### C27 -/

/-- C27: whatever a sign call returns, the time is the request's own, and with an error there is no signature. -/
theorem C27_returns (s s' : VState) (ev : VEv) (id : Nat) (b : Block) (sig : Slice) (stamp : GoTime) (err : Option Err)
    (h : s.step C cfg ev = (.ret id b sig stamp err, s')) : stamp = b.timestamp ∧ (err ≠ none → sig = none) := by
  have hi := vstep_inv h
  generalize hout : VOut.ret id b sig stamp err = out at hi
  cases hi <;> simp at hout
  all_goals obtain ⟨rfl, rfl, rfl, rfl, rfl⟩ := hout; simp

/-- C27: a sign call returns for the block it was called with. -/
theorem C27_own_block (l : SignState) (s s' : VState) (tr : List (VEv × VOut)) (ev : VEv) (id : Nat) (b : Block)
    (sig : Slice) (stamp : GoTime) (err : Option Err) (hrun : VRun C cfg (VState.start l) tr s)
    (h : s.step C cfg ev = (.ret id b sig stamp err, s')) :
    ev = .call id b .notInitialized ∨ ∃ role o, (VEv.call id b role, o) ∈ tr := by
  have inv : ∀ id b p, s.calls id = some (b, p) → ∃ role o, (VEv.call id b role, o) ∈ tr := by
    clear h
    generalize hs0 : VState.start l = s0 at hrun
    induction hrun with
    | nil => intro id b p hc; subst hs0; simp [VState.start] at hc
    | @snoc s1 s2 tr ev out hr hst ih =>
      have old : ∀ id b p, s1.calls id = some (b, p) → ∃ role o, (VEv.call id b role, o) ∈ tr ++ [(ev, out)] := by
        intro id b p hc
        obtain ⟨role, o, h⟩ := ih id b p hc
        exact ⟨role, o, List.mem_append_left _ h⟩
      have hset : ∀ (id : Nat) (b : Block) (p : Phase) (t : VState), t.calls = s1.calls →
          (∃ role o, (VEv.call id b role, o) ∈ tr ++ [(ev, out)]) →
          ∀ id' b' p', (t.setPhase id b p).calls id' = some (b', p') →
            ∃ role o, (VEv.call id' b' role, o) ∈ tr ++ [(ev, out)] := by
        intro id b p t ht hp id' b' p' hc
        by_cases he : id' = id
        · subst he
          simp only [VState.setPhase, if_true, Option.some.injEq, Prod.mk.injEq] at hc
          obtain ⟨rfl, rfl⟩ := hc
          exact hp
        · simp only [VState.setPhase, if_neg he, ht] at hc
          exact old _ _ _ hc
      have hfin : ∀ (id : Nat) (t : VState), t.calls = s1.calls →
          ∀ id' b' p', (t.finish id).calls id' = some (b', p') →
            ∃ role o, (VEv.call id' b' role, o) ∈ tr ++ [(ev, out)] := by
        intro id t ht id' b' p' hc
        by_cases he : id' = id
        · subst he; simp [VState.finish] at hc
        · simp only [VState.finish, if_neg he, ht] at hc
          exact old _ _ _ hc
      cases vstep_inv hst with
      | idle => exact old
      | notReady => exact old
      | proxied id b _ => exact hset id b _ s1 rfl ⟨_, _, List.mem_append_right _ (List.mem_singleton.2 rfl)⟩
      | fresh id b _ _ => exact hset id b _ _ rfl ⟨_, _, List.mem_append_right _ (List.mem_singleton.2 rfl)⟩
      | same id b _ _ => exact hset id b _ s1 rfl ⟨_, _, List.mem_append_right _ (List.mem_singleton.2 rfl)⟩
      | below id b _ _ => exact hset id b _ s1 rfl ⟨_, _, List.mem_append_right _ (List.mem_singleton.2 rfl)⟩
      | proxyErr id b e _ => exact hfin id s1 rfl
      | proxyOk id b e _ => exact hfin id s1 rfl
      | pollAgain id b i hc _ => exact hset id b _ s1 rfl (old _ _ _ hc)
      | pollHit id b i sig _ _ => exact hfin id s1 rfl
      | pollWait id b i hc _ _ => exact hset id b _ s1 rfl (old _ _ _ hc)
      | pollTimeout id b i _ _ _ => exact hfin id s1 rfl
      | pollErr id b i e _ _ _ => exact hfin id s1 rfl
      | lookupOk id b sig _ _ => exact hfin id s1 rfl
      | lookupErr id b e _ _ => exact hfin id s1 rfl
      | roundFail id b e _ => exact hfin id s1 rfl
      | roundBad id b sh eph e _ _ => exact hfin id s1 rfl
      | roundOk id b sh eph sig hc ha => exact hset id b _ s1 rfl (old _ _ _ hc)
      | saveOk id b sig hc _ => exact hset id b _ _ rfl (old _ _ _ hc)
      | saveErr id b sig e _ _ => exact hfin id s1 rfl
      | emit id b sig hc => exact hfin id _ rfl
      | lss r => exact old
  have hi := vstep_inv h
  generalize hout : VOut.ret id b sig stamp err = out at hi
  cases hi <;> simp at hout
  case notReady => obtain ⟨rfl, rfl, _⟩ := hout; exact .inl rfl
  all_goals
    obtain ⟨rfl, rfl, _⟩ := hout
    exact .inr (inv _ _ _ (by assumption))

/-- C27: `SignVote` changes nothing in the vote but its signature. -/
theorem C27_vote (chainID : Bytes) (v : Vote) (s s' : VState) (ev : VEv) (id : Nat) (b : Block) (sig : Slice)
    (stamp : GoTime) (err : Option Err) (hb : voteBlock chainID v = .ok b)
    (h : s.step C cfg ev = (.ret id b sig stamp err, s')) :
    finishVote v sig stamp = { v with signature := sig } ∧ (err ≠ none → (finishVote v sig stamp).signature = none) := by
  obtain ⟨h1, h2⟩ := C27_returns C cfg s s' ev id b sig stamp err h
  have hts : b.timestamp = v.timestamp := by
    unfold voteBlock at hb
    split at hb
    · simp at hb
    · simp at hb
    · split at hb
      · simp at hb
      · simp at hb
      · simp at hb; rw [← hb]
  refine ⟨?_, h2⟩
  rw [h1, hts]; rfl

/-- C27: `SignProposal` changes nothing in the proposal but its signature. -/
theorem C27_proposal (chainID : Bytes) (p : Proposal) (s s' : VState) (ev : VEv) (id : Nat) (b : Block) (sig : Slice)
    (stamp : GoTime) (err : Option Err) (hb : proposalBlock chainID p = .ok b)
    (h : s.step C cfg ev = (.ret id b sig stamp err, s')) :
    finishProposal p sig stamp = { p with signature := sig } ∧
      (err ≠ none → (finishProposal p sig stamp).signature = none) := by
  obtain ⟨h1, h2⟩ := C27_returns C cfg s s' ev id b sig stamp err h
  have hts : b.timestamp = p.timestamp := by
    unfold proposalBlock at hb
    split at hb
    · simp at hb
    · simp at hb
    · simp at hb; rw [← hb]
  refine ⟨?_, h2⟩
  rw [h1, hts]; rfl

/-- A vote that carried another signature, and its answer. -/
example :
    voteBlock [97] { vote1 with signature := some [9] } = .ok blk1 ∧
    returns (vexec vtoy vcfg (VState.start .empty) (signNow 0 blk1)).1 = [(0, some (42 :: b1), none)] ∧
    finishVote { vote1 with signature := some [9] } (some (42 :: b1)) blk1.timestamp = { vote1 with signature := some (42 :: b1) } := by
  decide +kernel

/-! ### C26 -/

/-- A record without a signature, or with one that verifies over the record's own sign bytes. -/
def GoodRecord (pub : Bytes) (r : SSC) : Prop := r.signature = none ∨ Verified C pub r

theorem existing_ok_some {l : SignState} {b : Block} {sig : Bytes} (h : existingSignature l b = .ok (some sig)) :
    ∃ r, l.cache b.hrs = some r ∧ r.signature = some sig ∧ (b.step = stepPropose ∨ b.signBytes = r.signBytes.bytes) := by
  unfold existingSignature SignState.getFromCache at h
  split at h
  · next r heq =>
    simp only [Prod.mk.injEq] at heq
    refine ⟨r, heq.2, ?_⟩
    split at h
    · next hp => simp at h; exact ⟨h, hp⟩
    · split at h <;> simp at h
  · split at h <;> simp at h

/-- What C26 comes down to in a state: good cache and good signatures in flight. -/
theorem good_return {s s' : VState} {ev : VEv} {id : Nat} {b : Block} {sig : Slice} {stamp : GoTime}
    (hgood : ∀ k r, s.lss.cache k = some r → GoodRecord C cfg.pubKey r) (hs : s.Sound C cfg.pubKey)
    (h : s.step C cfg ev = (.ret id b sig stamp none, s')) (hlead : ∀ i r, ev ≠ .proxyDone i r) :
    (∃ bs, sig = some bs ∧ C.verify cfg.pubKey b.signBytes bs = true) ∨
    (ev = .lookup id ∧ sig = none ∧ ∃ r, s.lss.cache b.hrs = some r ∧
      (DifferOnlyByTime r.step r.signBytes.bytes b.signBytes ∨ r.signature = none)) ∨
    (b.step = stepPropose ∧ ∃ r bs, s.lss.cache b.hrs = some r ∧ sig = some bs ∧ r.signBytes.bytes ≠ b.signBytes ∧
      C.verify cfg.pubKey r.signBytes.bytes bs = true) := by
  have hit : ∀ bs, existingSignature s.lss b = .ok (some bs) →
      C.verify cfg.pubKey b.signBytes bs = true ∨
      (b.step = stepPropose ∧ ∃ r bs', s.lss.cache b.hrs = some r ∧ some bs = some bs' ∧ r.signBytes.bytes ≠ b.signBytes ∧
        C.verify cfg.pubKey r.signBytes.bytes bs' = true) := by
    intro bs he
    obtain ⟨r, hr, hsig, hp⟩ := existing_ok_some he
    have hv : C.verify cfg.pubKey r.signBytes.bytes bs = true := by
      rcases hgood _ _ hr with h | h
      · rw [h] at hsig; cases hsig
      · unfold Verified at h; rw [hsig] at h; exact h
    by_cases hb : b.signBytes = r.signBytes.bytes
    · left; rw [hb]; exact hv
    · right
      rcases hp with hp | hp
      · exact ⟨hp, r, bs, hr, rfl, fun h => hb h.symm, hv⟩
      · exact absurd hp hb
  have hi := vstep_inv h
  generalize hout : VOut.ret id b sig stamp none = out at hi
  cases hi <;> simp at hout
  case proxyOk id' b' sig' hc => exact absurd rfl (hlead _ _)
  case pollHit id' b' i sig' hc he =>
    obtain ⟨rfl, rfl, rfl, rfl⟩ := hout
    rcases hit _ he with h | h
    · exact .inl ⟨_, rfl, h⟩
    · exact .inr (.inr h)
  case lookupOk id' b' sig' hc he =>
    obtain ⟨rfl, rfl, rfl, rfl⟩ := hout
    cases sig with
    | none =>
      obtain ⟨r, hr, h⟩ := existing_ok_none he
      refine .inr (.inl ⟨rfl, rfl, r, hr, ?_⟩)
      rcases h with ⟨_, _, h⟩ | ⟨h, _⟩
      · exact .inl h
      · exact .inr h
    | some bs =>
      rcases hit _ he with h | h
      · exact .inl ⟨_, rfl, h⟩
      · exact .inr (.inr h)
  case emit id' b' sig' hc =>
    obtain ⟨rfl, rfl, rfl, rfl⟩ := hout
    exact .inl ⟨_, rfl, hs.1 id b sig' (.inr hc)⟩

/-- C26, as far as it holds. If the records of the loaded state and of the raft events are good, then on a leader a
successful sign call returns a signature that verifies over the requested sign bytes, with two exceptions: a request
below the watermark of started blocks for which there is a record that differs only by timestamp (or has no signature)
returns no signature and no error; and a proposal for which another one was recorded returns that one's signature. -/
theorem C26_partial (l : SignState) (s s' : VState) (tr : List (VEv × VOut)) (ev : VEv) (id : Nat) (b : Block)
    (sig : Slice) (stamp : GoTime) (hrun : VRun C cfg (VState.start l) tr s)
    (hl : ∀ k r, l.cache k = some r → GoodRecord C cfg.pubKey r)
    (hraft : ∀ r o, (VEv.lss r, o) ∈ tr → GoodRecord C cfg.pubKey r)
    (h : s.step C cfg ev = (.ret id b sig stamp none, s')) (hlead : ∀ i r, ev ≠ .proxyDone i r) :
    (∃ bs, sig = some bs ∧ C.verify cfg.pubKey b.signBytes bs = true) ∨
    (ev = .lookup id ∧ sig = none ∧ ∃ r, s.lss.cache b.hrs = some r ∧
      (DifferOnlyByTime r.step r.signBytes.bytes b.signBytes ∨ r.signature = none)) ∨
    (b.step = stepPropose ∧ ∃ r bs, s.lss.cache b.hrs = some r ∧ sig = some bs ∧ r.signBytes.bytes ≠ b.signBytes ∧
      C.verify cfg.pubKey r.signBytes.bytes bs = true) := by
  refine good_return C cfg ?_ (sound_run C cfg hrun (sound_start C l _)) h hlead
  intro k r hk
  rcases (C33_emitted_and_recorded C cfg l s tr hrun).2 k r hk with h | ⟨o, h⟩ | h
  · exact hl k r h
  · exact hraft r o h
  · exact .inr h

/-- C26 for votes: a successful `SignVote` on a leader that is not a lookup of an old block leaves in the vote a
non-empty signature that verifies over the sign bytes of the vote as returned. -/
theorem C26_vote_partial (chainID : Bytes) (v : Vote) (l : SignState) (s s' : VState) (tr : List (VEv × VOut)) (ev : VEv)
    (id : Nat) (b : Block) (sig : Slice) (stamp : GoTime) (hrun : VRun C cfg (VState.start l) tr s)
    (hl : ∀ k r, l.cache k = some r → GoodRecord C cfg.pubKey r)
    (hraft : ∀ r o, (VEv.lss r, o) ∈ tr → GoodRecord C cfg.pubKey r)
    (hne : ∀ bs, C.verify cfg.pubKey bs [] = false) (hb : voteBlock chainID v = .ok b)
    (h : s.step C cfg ev = (.ret id b sig stamp none, s')) (hlead : ∀ i r, ev ≠ .proxyDone i r) (hlook : ev ≠ .lookup id) :
    ∃ bs, voteSignBytes chainID (finishVote v sig stamp) = .ok bs ∧
      C.verify cfg.pubKey bs (finishVote v sig stamp).signature.bytes = true ∧
      (finishVote v sig stamp).signature.bytes ≠ [] := by
  have hts := (C27_vote C cfg chainID v s s' ev id b sig stamp none hb h).1
  have hbs : voteSignBytes chainID v = .ok b.signBytes ∧ b.step ≠ stepPropose := by
    unfold voteBlock at hb
    split at hb
    · simp at hb
    · simp at hb
    · next st hst =>
      split at hb
      · simp at hb
      · simp at hb
      · next bs hv =>
        simp at hb
        rw [← hb]
        refine ⟨hv, ?_⟩
        simp only
        unfold voteTypeToStep at hst
        intro he
        split at hst
        · simp at hst; rw [← hst] at he; revert he; decide
        · split at hst
          · simp at hst; rw [← hst] at he; revert he; decide
          · simp at hst
  have hsame : voteSignBytes chainID (finishVote v sig stamp) = voteSignBytes chainID v := by
    rw [hts]; rfl
  refine ⟨b.signBytes, by rw [hsame]; exact hbs.1, ?_⟩
  rcases C26_partial C cfg l s s' tr ev id b sig stamp hrun hl hraft h hlead with ⟨bs, rfl, hv⟩ | ⟨he, _⟩ | ⟨hp, _⟩
  · refine ⟨hv, ?_⟩
    intro h0
    have h0' : bs = [] := h0
    rw [h0'] at hv
    rw [hne] at hv; cases hv
  · exact absurd he hlook
  · exact absurd hp hbs.2

/-- A vote signed and returned. -/
example :
    voteBlock [97] vote1 = .ok blk1 ∧ (∀ bs, vtoy.verify vcfg.pubKey bs [] = false) ∧
    ((vexec vtoy vcfg (VState.start .empty) ((signNow 0 blk1).take 3)).2.step vtoy vcfg (.emit 0)).1
      = .ret 0 blk1 (some (42 :: b1)) blk1.timestamp none :=
  ⟨by decide +kernel, fun _ => rfl, by decide +kernel⟩

/-- C26 is false (1): after 7.1.3 and 8.1.3 have been signed, a re-timed vote for 7.1.3 is answered with success and no
signature. -/
theorem C26_no_signature_fails :
    let r := vexec vtoy vcfg (VState.start .empty) (signNow 0 blk1 ++ signNow 1 blk3 ++ [.call 2 blk2 .leader])
    voteBlock [97] vote2 = .ok blk2 ∧
    (r.2.step vtoy vcfg (.lookup 2)).1 = .ret 2 blk2 none blk2.timestamp none := by decide +kernel

/-- C26 is false (2): a second, different proposal for the same height and round is answered with success and the
signature of the first, which does not verify over it. -/
theorem C26_other_proposal_fails :
    let r := vexec vtoy vcfg (VState.start .empty) (signNow 0 prp1 ++ [.call 1 prp2 .leader])
    (r.2.step vtoy vcfg (.poll 1)).1 = .ret 1 prp2 (some (42 :: prp1.signBytes)) prp2.timestamp none ∧
    vtoy.verify vcfg.pubKey prp2.signBytes (42 :: prp1.signBytes) = false := by decide +kernel

/-! ### C29, C30 -/

/-- The call a step belongs to. -/
def VEv.actor : VEv → Option Nat
  | .call id _ _ => some id
  | .proxyDone id _ => some id
  | .poll id => some id
  | .lookup id => some id
  | .roundDone id _ => some id
  | .save id => some id
  | .emit id => some id
  | .lss _ => none

theorem calls_other {s s' : VState} {ev : VEv} {out : VOut} (h : s.step C cfg ev = (out, s')) (id : Nat)
    (hne : ev.actor ≠ some id) : s'.calls id = s.calls id := by
  cases vstep_inv h <;> first
    | rfl
    | (simp only [VEv.actor, ne_eq, Option.some.injEq] at hne
       have hne' : ¬ id = _ := fun h => hne (Eq.symm h)
       simp only [VState.setPhase, VState.finish, if_neg hne'])

theorem calls_other_run {s s' : VState} {tr : List (VEv × VOut)} (h : VRun C cfg s tr s') (id : Nat)
    (hne : ∀ x ∈ tr, x.1.actor ≠ some id) : s'.calls id = s.calls id := by
  induction h with
  | nil => rfl
  | snoc _ hst ih =>
    rw [calls_other C cfg hst id (hne (_, _) (List.mem_append_right _ (List.mem_singleton.2 rfl)))]
    exact ih (fun x hx => hne x (List.mem_append_left _ hx))

/-- A call waiting in the poll or lookup phase can do nothing but that. -/
theorem waiting_only {s : VState} {id : Nat} {b : Block} {p : Phase} (hc : s.calls id = some (b, p)) (ev : VEv)
    (ha : ev.actor = some id) (h1 : (∃ i, p = .poll i) → ev ≠ .poll id) (h2 : p = .lookup → ev ≠ .lookup id)
    (hp : (∃ i, p = .poll i) ∨ p = .lookup) : s.step C cfg ev = (.tau, s) := by
  have hp' : p ≠ .proxy ∧ p ≠ .round ∧ (∀ sig, p ≠ .save sig) ∧ (∀ sig, p ≠ .emit sig) := by
    rcases hp with ⟨i, rfl⟩ | rfl <;> simp
  cases ev <;> simp only [VEv.actor, Option.some.injEq, reduceCtorEq] at ha <;> subst ha <;> simp only [VState.step, hc]
  case poll => cases p <;> simp_all
  case lookup => cases p <;> simp_all
  all_goals (cases p <;> simp_all)

/-- Within the cache window a record stays. -/
theorem record_stays {s s' : VState} {tr : List (VEv × VOut)} (h : VRun C cfg s tr s') (hc : s.lss.CacheLe)
    {k : HRS} {r : SSC} (hk : s.lss.cache k = some r) (h0 : -(2 ^ 63) + 3 ≤ k.height) (h64 : IsI64 k.height)
    (hw : s'.lss.height ≤ k.height + 3) : s'.lss.cache k = some r := by
  induction h with
  | nil => exact hk
  | @snoc s1 s2 tr ev out hr hst ih =>
    have hle : ∀ {x y : HRS}, x ≼ y → x.height ≤ y.height := by
      intro x y hxy
      rcases hxy with rfl | hxy
      · exact Int.le_refl _
      · rcases hxy with h | ⟨h, _⟩
        · omega
        · omega
    have hm := (C34_watermarks C cfg _ _ _ (VRun.snoc (.nil s1) hst)).1
    have hm' : s1.lss.height ≤ s2.lss.height := hle hm
    have ih' := ih (by omega)
    have hc1 := cacheLe_run C cfg hr hc
    have hk1 : k.height ≤ s1.lss.height := hle (hc1 k r ih').2
    have sv : ∀ r0, s2.lss = (s1.lss.save r0).2 → s2.lss.cache k = some r := by
      intro r0 he
      rw [he]
      rcases save_cache_stable hc1 r0 r k ih' with h | ⟨hlt, hev, _⟩
      · exact h
      · exfalso
        have hh : s2.lss.height = r0.height := by
          have := congrArg HRS.height (SignState.save_hrs s1.lss r0)
          rw [if_pos hlt, ← he] at this
          exact this
        have h3 : s1.lss.height ≤ r0.height := by omega
        unfold IsI64 at h64
        have hid : i64 (r0.height - blocksToCache) = r0.height - blocksToCache := by
          apply i64_of_is
          unfold IsI64 blocksToCache
          omega
        rw [hid] at hev
        unfold blocksToCache at hev
        omega
    rcases vstep_lss hst with h | ⟨r0, _, h⟩ | ⟨id, b, sig, _, hcs, h⟩
    · rw [h]; exact ih'
    · exact sv _ h
    · exact sv _ h

/-- A record that did not come by a raft event belongs to a block this process has started, or loaded. -/
theorem own_le (l : SignState) (s : VState) (tr : List (VEv × VOut)) (hrun : VRun C cfg (VState.start l) tr s)
    (hl : l.CacheLe) (k : HRS) (r : SSC) (hk : s.lss.cache k = some r) :
    k ≼ s.init.hrs ∨ ∃ o, (VEv.lss r, o) ∈ tr := by
  generalize hs0 : VState.start l = s0 at hrun
  induction hrun with
  | nil => subst hs0; exact .inl (hl k r hk).2
  | @snoc s1 s2 tr ev out hr hst ih =>
    have hm : s1.init.hrs ≼ s2.init.hrs := (C34_watermarks C cfg _ _ _ (VRun.snoc (.nil s1) hst)).2
    have old : s1.lss.cache k = some r → k ≼ s2.init.hrs ∨ ∃ o, (VEv.lss r, o) ∈ tr ++ [(ev, out)] := by
      intro hk
      rcases ih hk with h | ⟨o, h⟩
      · exact .inl (HRS.le_trans h hm)
      · exact .inr ⟨o, List.mem_append_left _ h⟩
    have sv : ∀ r0, s2.lss = (s1.lss.save r0).2 →
        ((s1.lss.cache k = some r) ∨ (r = r0 ∧ k = r0.hrs)) := by
      intro r0 he
      rw [he] at hk
      by_cases hlt : s1.lss.hrs ≺ r0.hrs
      · rw [SignState.save_ok _ _ hlt] at hk
        simp only at hk
        split at hk
        · cases hk
        · split at hk
          · next hkk => simp at hk; exact .inr ⟨hk.symm, hkk⟩
          · exact .inl hk
      · rw [SignState.save_err _ _ hlt] at hk; exact .inl hk
    rcases vstep_lss hst with h | ⟨r0, hev, h⟩ | ⟨id, b, sig, _, hcs, h⟩
    · rw [h] at hk; exact old hk
    · rcases sv r0 h with h | ⟨rfl, _⟩
      · exact old h
      · subst hev; exact .inr ⟨out, List.mem_append_right _ (List.mem_singleton.2 rfl)⟩
    · rcases sv _ h with h | ⟨_, hkk⟩
      · exact old h
      · left
        have := (started_le C cfg hr (by intro id b p h; rw [← hs0] at h; simp [VState.start] at h)).2 id b _ hcs
        rcases this with h | h
        · simp at h
        · rw [hkk]; exact HRS.le_trans h hm

/-- C29, as far as it holds: a block whose record was not brought by raft (or whose HRS this process has started
itself). Any later request for the HRS with the same sign bytes starts no round; and whatever else happens in between,
as long as the watermark is at most three heights above, the only thing the call can do is return the recorded signature
with the request's time. Missing: records brought by raft for blocks this process has not started. -/
theorem C29_partial (l : SignState) (s0 s1 s2 s3 : VState) (tr0 tr1 tr2 : List (VEv × VOut)) (k : HRS) (r : SSC)
    (sig : Bytes) (id : Nat) (b : Block) (out : VOut) (hl : l.CacheLe)
    (hrun0 : VRun C cfg (VState.start l) tr0 s0) (hk : s0.lss.cache k = some r) (hsig : r.signature = some sig)
    (hown : k ≼ s0.init.hrs ∨ ∀ o, (VEv.lss r, o) ∉ tr0)
    (hrun1 : VRun C cfg s0 tr1 s1) (hfree : s1.calls id = none)
    (hb : b.hrs = k) (hbytes : b.signBytes = r.signBytes.bytes)
    (hcall : s1.step C cfg (.call id b .leader) = (out, s2))
    (hrun2 : VRun C cfg s2 tr2 s3) (hother : ∀ x ∈ tr2, x.1.actor ≠ some id)
    (h0 : -(2 ^ 63) + 3 ≤ k.height) (h64 : IsI64 k.height) (hw : s3.lss.height ≤ k.height + 3) :
    out = .tau ∧
    (∃ ev s4, s3.step C cfg ev = (.ret id b (some sig) b.timestamp none, s4)) ∧
    (∀ ev, ev.actor = some id → s3.step C cfg ev = (.tau, s3) ∨
      ∃ s4, s3.step C cfg ev = (.ret id b (some sig) b.timestamp none, s4) ∧ s4.lss = s3.lss ∧ s4.emitted = s3.emitted) := by
  have hown' : k ≼ s0.init.hrs := by
    rcases hown with h | h
    · exact h
    · rcases own_le C cfg l s0 tr0 hrun0 hl k r hk with h' | ⟨o, h'⟩
      · exact h'
      · exact absurd h' (h o)
  have hinit : b.hrs ≼ s1.init.hrs := by rw [hb]; exact HRS.le_trans hown' (C34_watermarks C cfg _ _ _ hrun1).2
  have hc0 := cacheLe_run C cfg hrun0 (s := VState.start l) hl
  have hk3 : s3.lss.cache k = some r :=
    record_stays C cfg (VRun.append hrun1 (VRun.append (VRun.snoc (.nil s1) hcall) hrun2)) hc0 hk h0 h64 hw
  have hex : existingSignature s3.lss b = .ok (some sig) := by
    unfold existingSignature SignState.getFromCache
    rw [hb, hk3]
    simp only
    rw [if_pos (.inr hbytes), hsig]
  have hph : out = .tau ∧ ∃ p, s2.calls id = some (b, p) ∧ (p = .poll 0 ∨ p = .lookup) := by
    have hi := vstep_inv hcall
    generalize hev : VEv.call id b .leader = ev at hi
    cases hi with
    | idle =>
      exfalso
      subst hev
      rcases save_cases s1.init (SSC.new b.height b.round b.step) with ⟨_, _, h2⟩ | ⟨_, _, h2⟩ | ⟨_, e, hne, h2⟩
      · simp [VState.step, hfree, h2] at hcall
      · have := congrArg (fun x : VOut × VState => x.2.calls id) hcall
        simp [VState.step, hfree, h2, VState.setPhase] at this
      · have := congrArg (fun x : VOut × VState => x.2.calls id) hcall
        simp only [VState.step, hfree, h2] at this
        cases e with
        | sameHRS k => exact absurd rfl (hne k)
        | _ => simp [VState.setPhase] at this
    | fresh id' b' _ hlt =>
      cases hev
      exact absurd (HRS.lt_of_lt_of_le hlt hinit) (HRS.lt_irrefl _)
    | same id' b' _ _ => cases hev; exact ⟨rfl, .poll 0, by simp [VState.setPhase], .inl rfl⟩
    | below id' b' _ _ => cases hev; exact ⟨rfl, .lookup, by simp [VState.setPhase], .inr rfl⟩
    | _ => cases hev
  obtain ⟨hout, p, hp, hpp⟩ := hph
  have hc3 : s3.calls id = some (b, p) := by rw [calls_other_run C cfg hrun2 id hother]; exact hp
  have hstep : (p = .poll 0 → s3.step C cfg (.poll id) = (.ret id b (some sig) b.timestamp none, s3.finish id)) ∧
      (p = .lookup → s3.step C cfg (.lookup id) = (.ret id b (some sig) b.timestamp none, s3.finish id)) := by
    constructor <;> (rintro rfl; simp only [VState.step, hc3, hex])
  refine ⟨hout, ?_, ?_⟩
  · rcases hpp with h | h
    · exact ⟨_, _, hstep.1 h⟩
    · exact ⟨_, _, hstep.2 h⟩
  · intro ev ha
    rcases hpp with h | h
    · by_cases he : ev = .poll id
      · right; rw [he]; exact ⟨_, hstep.1 h, rfl, rfl⟩
      · left
        exact waiting_only C cfg hc3 ev ha (fun _ => he) (fun h' => by rw [h] at h'; cases h') (.inl ⟨0, h⟩)
    · by_cases he : ev = .lookup id
      · right; rw [he]; exact ⟨_, hstep.2 h, rfl, rfl⟩
      · left
        exact waiting_only C cfg hc3 ev ha (fun ⟨i, h'⟩ => by rw [h] at h'; cases h') (fun _ => he) (.inr h)

/-- 7.1.3 signed, then 8.1.3 signed, then 7.1.3 asked again: the recorded signature. -/
example :
    let t := vexec vtoy vcfg (VState.start .empty) (signNow 0 blk1 ++ signNow 0 blk3 ++ [.call 0 blk1 .leader, .lookup 0])
    returns t.1 = [(0, some (42 :: b1), none), (0, some (42 :: b3), none), (0, some (42 :: b1), none)] ∧
    started t.1 = [blk1, blk3] := by decide +kernel

/-- C29 (full statement) is false: a record that came by raft for a block this process has not started is not used; a
request for the block with the same sign bytes starts a signing round. -/
theorem C29_raft_record_fails :
    let s := (vexec vtoy vcfg (VState.start .empty) [.lss (blk1.record (42 :: b1))]).2
    s.lss.cache blk1.hrs = some (blk1.record (42 :: b1)) ∧
    (s.step vtoy vcfg (.call 0 blk1 .leader)).1 = .startRound 0 blk1 false := by decide +kernel

/-- C30: a request below the watermark of started blocks starts no round and changes nothing; and as long as there is no
record for it, whatever else happens, all it can do is return the beyond-block error, and this changes nothing either. -/
theorem C30_refused (s s' s3 : VState) (tr : List (VEv × VOut)) (id : Nat) (b : Block) (out : VOut)
    (hfree : s.calls id = none) (hlow : b.hrs ≺ s.init.hrs)
    (hcall : s.step C cfg (.call id b .leader) = (out, s')) (hrun : VRun C cfg s' tr s3)
    (hother : ∀ x ∈ tr, x.1.actor ≠ some id) (hno : s3.lss.cache b.hrs = none) :
    out = .tau ∧ s'.lss = s.lss ∧ s'.init = s.init ∧ s'.emitted = s.emitted ∧
    s3.step C cfg (.lookup id) = (.ret id b none b.timestamp (some .beyondBlock), s3.finish id) ∧
    (∀ ev, ev.actor = some id → ev ≠ .lookup id → s3.step C cfg ev = (.tau, s3)) := by
  have hst : s.step C cfg (.call id b .leader) = (.tau, s.setPhase id b .lookup) := by
    rcases save_cases s.init (SSC.new b.height b.round b.step) with ⟨h1, _, _⟩ | ⟨h1, _, _⟩ | ⟨_, e, hne, h2⟩
    · exact absurd (HRS.lt_trans hlow h1) (HRS.lt_irrefl _)
    · rw [h1] at hlow; exact absurd hlow (HRS.lt_irrefl _)
    · simp only [VState.step, hfree, h2]
  rw [hst] at hcall
  simp only [Prod.mk.injEq] at hcall
  obtain ⟨rfl, rfl⟩ := hcall
  have hc3 : s3.calls id = some (b, .lookup) := by
    rw [calls_other_run C cfg hrun id hother]; simp [VState.setPhase]
  refine ⟨rfl, rfl, rfl, rfl, ?_, ?_⟩
  · have : ∃ e, existingSignature s3.lss b = .error e := by
      unfold existingSignature SignState.getFromCache
      rw [hno]
      simp only
      split
      · exact ⟨_, rfl⟩
      · exact ⟨_, rfl⟩
    obtain ⟨e, he⟩ := this
    simp only [VState.step, hc3, he]
  · intro ev ha hne
    exact waiting_only C cfg hc3 ev ha (fun ⟨i, h'⟩ => by cases h') (fun _ => hne) (.inr rfl)

/-- 8.1.3 is being signed; a vote for 7.1.3 is refused. -/
example :
    let s := (vexec vtoy vcfg (VState.start .empty) [.call 0 blk3 .leader]).2
    blk1.hrs ≺ s.init.hrs ∧ s.lss.cache blk1.hrs = none ∧
    returns (vexec vtoy vcfg s [.call 1 blk1 .leader, .lookup 1]).1 = [(1, none, some .beyondBlock)] := by
  refine ⟨?_, ?_, ?_⟩
  · exact Or.inl (by decide)
  · rfl
  · decide +kernel

/-- C30: a call that waits for another one to sign its block looks at the saved watermark: while there is no record of the
block, it gives up with the beyond-block error exactly if the watermark has passed the block; otherwise it waits on, and
times out at the hundredth look. -/
theorem C30_waiting (s : VState) (id : Nat) (b : Block) (i : Nat) (hw : s.calls id = some (b, .poll i))
    (hno : s.lss.cache b.hrs = none) :
    (b.hrs ≺ s.lss.hrs → s.step C cfg (.poll id) = (.ret id b none b.timestamp (some .beyondBlock), s.finish id)) ∧
    (¬ b.hrs ≺ s.lss.hrs → i < 99 → s.step C cfg (.poll id) = (.tau, s.setPhase id b (.poll (i + 1)))) ∧
    (¬ b.hrs ≺ s.lss.hrs → 99 ≤ i →
      s.step C cfg (.poll id) = (.ret id b none b.timestamp (some .timedOutWaitingForBlock), s.finish id)) := by
  have hex : existingSignature s.lss b = if b.hrs ≺ s.lss.hrs then .error .beyondBlock else .error .stillWaiting := by
    unfold existingSignature SignState.getFromCache
    rw [hno]
    simp only
    have hiff : b.hrs ≺ s.lss.hrs ↔ s.lss.height > b.height ∨ (s.lss.height = b.height ∧ s.lss.round > b.round) ∨
        (s.lss.height = b.height ∧ s.lss.round = b.round ∧ s.lss.step > b.step) := by
      unfold HRS.lt SignState.hrs Block.hrs
      simp only
      omega
    by_cases h : b.hrs ≺ s.lss.hrs
    · rw [if_pos h, if_pos (hiff.1 h)]
    · rw [if_neg h, if_neg (fun h' => h (hiff.2 h'))]
  refine ⟨fun h => ?_, fun h hi => ?_, fun h hi => ?_⟩
  · rw [if_pos h] at hex
    simp only [VState.step, hw, hex]
  · rw [if_neg h] at hex
    simp only [VState.step, hw, hex]
    rw [if_pos (by omega)]
  · rw [if_neg h] at hex
    simp only [VState.step, hw, hex]
    rw [if_neg (by omega)]

/-- 7.1.3 is being signed and waited for, then 8.1.3 is recorded. -/
example :
    let s := (vexec vtoy vcfg (VState.start .empty) [.call 0 blk1 .leader, .call 1 blk1 .leader, .poll 1]).2
    s.calls 1 = some (blk1, .poll 1) ∧ s.lss.cache blk1.hrs = none ∧ ¬ blk1.hrs ≺ s.lss.hrs ∧
    returns (vexec vtoy vcfg s [.poll 1, .lss (blk3.record [9]), .poll 1]).1 = [(1, none, some .beyondBlock)] := by
  refine ⟨by decide +kernel, rfl, ?_, by decide +kernel⟩
  unfold HRS.lt
  decide +kernel

end Horcrux
