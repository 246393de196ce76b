import Verif.Props.Cosigner
/-
Properties C14, C16 and C58: the exact conditions.
-/
namespace Horcrux
open Spec

variable {C : Crypto} {cfg : CosignerCfg}

/-! ### C14 -/

/-- Where a share in a record for `h` comes from: a part that was submitted for `h`, or the cosigner itself, when it was asked
for a part for `h`. -/
def ShareFrom (C : Crypto) (cfg : CosignerCfg) (tr : List (CosOp × Out CosResp)) (h : HRS) (x : Bytes) : Prop :=
  (∃ req rnd out, (CosOp.getPart req rnd, out) ∈ tr ∧ req.key.hrs = h) ∨
  ∃ req rnd, (CosOp.setPart req rnd, Out.ok CosResp.unit) ∈ tr ∧ req.key.hrs = h ∧
    C.rsaDecrypt cfg.rsaKey req.encrypted.bytes = some x

theorem ShareFrom.mono {tr tr' : List (CosOp × Out CosResp)} {h : HRS} {x : Bytes} (hf : ShareFrom C cfg tr h x) :
    ShareFrom C cfg (tr ++ tr') h x := by
  rcases hf with ⟨req, rnd, out, h1, h2⟩ | ⟨req, rnd, h1, h2, h3⟩
  · exact .inl ⟨req, rnd, out, List.mem_append_left _ h1, h2⟩
  · exact .inr ⟨req, rnd, List.mem_append_left _ h1, h2, h3⟩

/-- The records of a state, each with the height, round and step it is for, and the shares in it. -/
def Sourced (C : Crypto) (cfg : CosignerCfg) (tr : List (CosOp × Out CosResp)) (s : CState) (f : Nat → HRS) : Prop :=
  (∀ k ref, s.hrsMeta k = some ref → f ref = k.hrs) ∧
  ∀ ref m, s.heap[ref]? = some m → ∀ p ∈ m.peers, p.share ≠ [] → ShareFrom C cfg tr (f ref) p.share

theorem PartStep.sourced {s s' : CState} {k kd : HRST} {rnd : Rand} {W : Meta → Int → PeerMeta → Prop}
    (h : PartStep C cfg s k kd rnd W s') (hok : s.Ok) (hkd : kd.hrs = k.hrs) {tr tr' : List (CosOp × Out CosResp)}
    (hW : ∀ m i p, W m i p → ShareFrom C cfg (tr ++ tr') k.hrs p.share) {f : Nat → HRS} (hf : Sourced C cfg tr s f) :
    ∃ f', Sourced C cfg (tr ++ tr') s' f' := by
  rcases h with rfl | ⟨ref, s1, hm, h⟩
  · exact ⟨f, hf.1, fun ref m hm p hp hne => (hf.2 ref m hm p hp hne).mono⟩
  have key : ∃ f', Sourced C cfg (tr ++ tr') s1 f' ∧ f' ref = k.hrs := by
    rcases metaFor_spec hm with ⟨h1, rfl⟩ | ⟨h1, h2, rfl⟩ | ⟨h1, h2, rfl, sec, h3, rfl⟩
    · exact ⟨f, ⟨hf.1, fun ref m hm p hp hne => (hf.2 ref m hm p hp hne).mono⟩, hf.1 _ _ h1⟩
    · refine ⟨f, ⟨fun k' r' hk => ?_, fun ref m hm p hp hne => (hf.2 ref m hm p hp hne).mono⟩, ?_⟩
      · simp only [CState.setMeta] at hk
        split at hk
        · next e => simp only [Option.some.injEq] at hk; subst hk e; rw [hf.1 _ _ h2, hkd]
        · exact hf.1 _ _ hk
      · rw [hf.1 _ _ h2, hkd]
    · refine ⟨fun r => if r = s.heap.length then k.hrs else f r, ⟨fun k' r' hk => ?_, fun ref m hm p hp hne => ?_⟩, by simp⟩
      · simp only [CState.setMeta] at hk
        split at hk
        · next e => simp only [Option.some.injEq] at hk; subst hk e; simp
        · split at hk
          · next e => simp only [Option.some.injEq] at hk; subst hk e; simp [hkd]
          · have := hok _ _ hk
            show (if r' = s.heap.length then k.hrs else f r') = _
            rw [if_neg (by omega)]; exact hf.1 _ _ hk
      · simp only [CState.setMeta] at hm
        by_cases hr : ref < s.heap.length
        · rw [List.getElem?_append_left hr] at hm
          show ShareFrom C cfg _ (if ref = s.heap.length then k.hrs else f ref) _
          rw [if_neg (by omega)]
          exact (hf.2 ref m hm p hp hne).mono
        · rw [List.getElem?_append_right (by omega)] at hm
          have hm1 := List.mem_singleton.1 (List.mem_of_getElem? hm)
          subst hm1
          rw [List.eq_of_mem_replicate hp] at hne
          exact absurd rfl hne
  obtain ⟨f', hs1, hr⟩ := key
  refine ⟨f', ?_⟩
  rcases h with rfl | ⟨m, i, p, hm1, hw, hset⟩
  · exact hs1
  · obtain ⟨e1, _, _, e4, m', hm', _, _, e5⟩ := setSlot_maps hset
    refine ⟨fun k' r' hk => hs1.1 k' r' (by rw [← e1]; exact hk), fun r' m2 hm2 p2 hp2 hne => ?_⟩
    by_cases h0 : r' = ref
    · subst h0
      rw [e5] at hm2
      simp only [Option.some.injEq] at hm2
      subst hm2
      rcases List.mem_or_eq_of_mem_set hp2 with h1 | rfl
      · exact hs1.2 _ _ hm' p2 h1 hne
      · rw [hr]; exact hW _ _ _ hw
    · rw [e4 r' h0] at hm2; exact hs1.2 _ _ hm2 p2 hp2 hne

theorem sourced_inv {l : SignState} {s : CState} {tr : List (CosOp × Out CosResp)}
    (h : Run C cfg (CState.start l) tr s) : ∃ f, Sourced C cfg tr s f := by
  refine h.snoc_induction (P := fun tr s => ∃ f, Sourced C cfg tr s f) ?_ ?_
  · refine ⟨fun _ => ⟨0, 0, 0⟩, ?_, ?_⟩
    · intro k ref h; cases h
    · intro ref m h; simp [CState.start] at h
  · rintro tr s op out s' hrun ⟨f, hf⟩ hstep _
    have hok := run_ok hrun (start_ok l)
    have keep : s'.heap = s.heap → (∀ k ref, s'.hrsMeta k = some ref → s.hrsMeta k = some ref) →
        ∃ f', Sourced C cfg (tr ++ [(op, out)]) s' f' := fun h1 h2 =>
      ⟨f, fun k ref hk => hf.1 k ref (h2 k ref hk), fun ref m hm p hp hne => by
        rw [h1] at hm; exact (hf.2 ref m hm p hp hne).mono⟩
    rcases step_cases hstep with ⟨req, rnd, rfl, hp⟩ | ⟨req, rnd, rfl, _, hp⟩ | ⟨_, _, _, _, _, _, _, hf'⟩ |
      ⟨_, _, _, _, _, hc⟩ | ⟨_, _, _, rfl⟩ | ⟨_, _, rfl, _⟩
    · exact hp.sourced hok rfl (fun _ _ _ _ => .inl ⟨req, rnd, out, by simp, rfl⟩) hf
    · exact hp.sourced hok rfl (fun _ _ _ hw => .inr ⟨req, rnd, by rw [hw.2.2.2]; simp, rfl, hw.2.2.1⟩) hf
    · refine keep hf'.heap (fun k ref hk => ?_)
      rw [hf'.pruned] at hk
      split at hk
      · cases hk
      · exact hk
    · exact keep (by rw [hc.state]) (fun k ref hk => by rw [hc.state] at hk; exact hk)
    · exact keep rfl (fun _ _ h => h)
    · exact keep rfl (fun _ _ h => h)

/-- C14: the condition of `C14_own_share_partial` is needed, whatever the cluster and the history. If the cosigner was not asked
for a part for the height, round and step before, then the nonce share that it signs with is the sum of shares that others have
sent it, and nothing else: they know it. -/
theorem C14_needed (l : SignState) (s : CState) (tr tr' : List (CosOp × Out CosResp))
    (bs : Bytes) (r : SignRes) (k : HRST) (ref : Nat) (e : Bytes)
    (hrun : Run C cfg (CState.start l) (tr ++ (CosOp.sign bs, Out.ok (CosResp.signed r)) :: tr') s)
    (hu : unpackHRST bs = .ok k) (hn : r.nonce = some (ref, e))
    (hno : ∀ req rnd out, (CosOp.getPart req rnd, out) ∈ tr → req.key.hrs ≠ k.hrs) :
    ∃ shares, e = C.addScalars shares ∧ ∀ x ∈ shares, ∃ req rnd, (CosOp.setPart req rnd, Out.ok CosResp.unit) ∈ tr ∧
      req.key.hrs = k.hrs ∧ C.rsaDecrypt cfg.rsaKey req.encrypted.bytes = some x := by
  obtain ⟨s1, hr1, hr2⟩ := hrun.split
  cases hr2 with
  | cons hstep hnp htail =>
    rcases sign_ok_cases (step_sign hstep) with ⟨k', hc⟩ | ⟨k', ref', m, hf⟩
    · rw [hc.res] at hn; cases hn
    have := hf.unpack; rw [hu] at this; cases this
    rw [hf.nonce] at hn
    simp only [Option.some.injEq, Prod.mk.injEq] at hn
    obtain ⟨rfl, rfl⟩ := hn
    obtain ⟨f, hs⟩ := sourced_inv hr1
    refine ⟨_, rfl, fun x hx => ?_⟩
    obtain ⟨p, hp, rfl⟩ := List.mem_map.1 hx
    unfold Meta.used at hp
    obtain ⟨hp, hne⟩ := List.mem_filter.1 hp
    rcases hs.2 _ _ hf.record p hp (by simpa using hne) with ⟨req, rnd, out, h1, h2⟩ | ⟨req, rnd, h1, h2, h3⟩
    · exact absurd (h2.trans (hs.1 _ _ hf.entry)) (hno req rnd out h1)
    · exact ⟨req, rnd, h1, h2.trans (hs.1 _ _ hf.entry), h3⟩

/-- In the run of `C14_set_only_fails` the nonce share is the one share that was submitted. -/
example : (relAt (exec toy toyCfg (CState.start .empty) [.setPart (part2 5) (toyRnd 7), .sign b1]).1 1).map (·.2.nonce) =
    some (some (0, toy.addScalars [List.replicate 32 5])) ∧
    toy.rsaDecrypt toyCfg.rsaKey (part2 5).encrypted.bytes = some (List.replicate 32 5) := by decide +kernel

/-! ### C16 -/

theorem metaFor_some (s : CState) (k kd : HRST) (rnd : Rand) :
    (∃ x, metaFor C cfg s k kd rnd = some x) ↔ s.hrsMeta k ≠ none ∨ s.hrsMeta kd ≠ none ∨ rnd.secret ≠ none := by
  unfold metaFor dealSharesFor
  cases s.hrsMeta k <;> cases s.hrsMeta kd <;> cases rnd.secret <;> simp

/-- C16, the exact condition: after any history, a part is accepted if and only if the configured key of the source verifies its
signature, it can be decrypted, the source has a number of the cluster, and randomness can be had if it is the first thing about
this block. None of this but the last depends on the block that it is submitted for. -/
theorem C16_exact (l : SignState) (s : CState) (tr : List (CosOp × Out CosResp)) (hrun : Run C cfg (CState.start l) tr s)
    (req : SetPartReq) (rnd : Rand) :
    (setPart C cfg s req rnd).1 = .ok () ↔
      (∃ sig pub, req.sourceSig = some sig ∧ cfg.peers req.sourceID = some pub ∧
        C.rsaVerify pub ⟨req.sourceID, req.ephemeralPublic, req.encrypted⟩ sig = true) ∧
      (∃ share, C.rsaDecrypt cfg.rsaKey req.encrypted.bytes = some share) ∧
      1 ≤ req.sourceID ∧ req.sourceID ≤ cfg.total ∧
      (s.hrsMeta req.key ≠ none ∨ s.hrsMeta ⟨req.height, req.round, req.step, GoTime.zero.unixNano⟩ ≠ none ∨
        rnd.secret ≠ none) := by
  have hok := run_ok hrun (start_ok l)
  have hsl := run_slots hrun (start_slots l cfg.total)
  rw [← metaFor_some (C := C) (cfg := cfg)]
  unfold setPart
  cases hs : req.sourceSig with
  | none => simp
  | some sig =>
    cases hp : cfg.peers req.sourceID with
    | none => simp
    | some pub =>
      simp only
      by_cases hv : C.rsaVerify pub ⟨req.sourceID, req.ephemeralPublic, req.encrypted⟩ sig = false
      · simp [hv]
      · rw [if_neg hv]
        have hv' : C.rsaVerify pub ⟨req.sourceID, req.ephemeralPublic, req.encrypted⟩ sig = true := by simpa using hv
        cases hm : metaFor C cfg s req.key ⟨req.height, req.round, req.step, GoTime.zero.unixNano⟩ rnd with
        | none => simp
        | some x =>
          obtain ⟨ref, s1⟩ := x
          simp only
          cases hd : C.rsaDecrypt cfg.rsaKey req.encrypted.bytes with
          | none => simp
          | some share =>
            have hmem : ∃ m, s1.heap[ref]? = some m ∧ m.peers.length = cfg.total := by
              rcases metaFor_spec hm with ⟨h1, rfl⟩ | ⟨h1, h2, rfl⟩ | ⟨h1, h2, rfl, sec, h3, rfl⟩
              · have hg := List.getElem?_eq_getElem (hok _ _ h1)
                exact ⟨_, hg, hsl _ (List.mem_of_getElem? hg)⟩
              · have hg := List.getElem?_eq_getElem (hok _ _ h2)
                exact ⟨_, hg, hsl _ (List.mem_of_getElem? hg)⟩
              · refine ⟨newMeta C cfg sec rnd, by simp [CState.setMeta, newMeta], by simp [newMeta]⟩
            obtain ⟨m, hm1, hm2⟩ := hmem
            simp only [CState.setSlot, hm1, goIndex]
            by_cases hi : req.sourceID - 1 < 0
            · simp only [hi, if_true]
              constructor
              · intro h; cases h
              · rintro ⟨_, _, h, _⟩; omega
            · simp only [hi, if_false]
              by_cases hl : (req.sourceID - 1).toNat < m.peers.length
              · rw [List.getElem?_eq_getElem hl]
                simp [hv']
                omega
              · rw [List.getElem?_eq_none (by omega)]
                constructor
                · intro h; cases h
                · rintro ⟨_, _, _, h, _⟩; omega

/-- The part of the examples is accepted for any block, without randomness only for one that is known. -/
example : (setPart toy toyCfg (CState.start .empty) { part2 5 with height := 1000 } (toyRnd 7)).1 = .ok () ∧
    (setPart toy toyCfg (CState.start .empty) (part2 5) { toyRnd 7 with secret := none }).1 = .err .external := by
  decide +kernel

/-! ### C58 -/

/-- As long as an entry is used its record stays. -/
theorem nonce_kept_inv {l : SignState} {s : CState} {tr : List (CosOp × Out CosResp)}
    (h : Run C cfg (CState.start l) tr s) : ∀ bs r k ref e, (CosOp.sign bs, Out.ok (CosResp.signed r)) ∈ tr →
      unpackHRST bs = .ok k → r.nonce = some (ref, e) → s.hrsMeta k = some ref ∨ k.hrs ≺ s.lss.hrs := by
  refine h.snoc_induction (P := fun tr s => ∀ bs r k ref e, (CosOp.sign bs, Out.ok (CosResp.signed r)) ∈ tr →
      unpackHRST bs = .ok k → r.nonce = some (ref, e) → s.hrsMeta k = some ref ∨ k.hrs ≺ s.lss.hrs) ?_ ?_
  · intro bs r k ref e h; cases h
  · intro tr s op out s' hrun ih hstep _ bs r k ref e hm hu hn
    rcases mem_snoc hm with hm | hm
    · rcases ih bs r k ref e hm hu hn with h1 | h1
      · exact step_entry_kept hstep h1
      · exact .inr (HRS.lt_of_lt_of_le h1 (step_lss hstep).1)
    · simp only [Prod.mk.injEq] at hm
      obtain ⟨rfl, rfl⟩ := hm
      rcases sign_ok_cases (step_sign hstep) with ⟨k', hc⟩ | ⟨k', ref', m, hf⟩
      · rw [hc.res] at hn; cases hn
      · have := hf.unpack; rw [hu] at this; cases this
        rw [hf.nonce] at hn
        simp only [Option.some.injEq, Prod.mk.injEq] at hn
        obtain ⟨rfl, _⟩ := hn
        left
        rw [hf.pruned, if_neg]
        · exact hf.entry
        · rw [less_iff]; exact HRS.lt_irrefl _

/-- Fresh signatures for the same height, round, step and nanoseconds use the same record. -/
theorem same_key_same_record {l : SignState} {s : CState} {tr : List (CosOp × Out CosResp)}
    (h : Run C cfg (CState.start l) tr s) : ∀ bs bs' r r' k ref ref' e e',
      (CosOp.sign bs, Out.ok (CosResp.signed r)) ∈ tr → (CosOp.sign bs', Out.ok (CosResp.signed r')) ∈ tr →
      unpackHRST bs = .ok k → unpackHRST bs' = .ok k → r.nonce = some (ref, e) → r'.nonce = some (ref', e') → ref = ref' := by
  refine h.snoc_induction (P := fun tr s => ∀ bs bs' r r' k ref ref' e e',
      (CosOp.sign bs, Out.ok (CosResp.signed r)) ∈ tr → (CosOp.sign bs', Out.ok (CosResp.signed r')) ∈ tr →
      unpackHRST bs = .ok k → unpackHRST bs' = .ok k → r.nonce = some (ref, e) → r'.nonce = some (ref', e') →
      ref = ref') ?_ ?_
  · intro bs bs' r r' k ref ref' e e' h; cases h
  · intro tr s op out s' hrun ih hstep _ bs bs' r r' k ref ref' e e' hm hm' hu hu' hn hn'
    have last : ∀ bs r ref e, (op, out) = (CosOp.sign bs, Out.ok (CosResp.signed r)) → unpackHRST bs = .ok k →
        r.nonce = some (ref, e) → s.hrsMeta k = some ref ∧ s.lss.hrs ≼ k.hrs := by
      intro bs r ref e hm hu hn
      simp only [Prod.mk.injEq] at hm
      obtain ⟨rfl, rfl⟩ := hm
      rcases sign_ok_cases (step_sign hstep) with ⟨k', hc⟩ | ⟨k', ref', m, hf⟩
      · rw [hc.res] at hn; cases hn
      · have := hf.unpack; rw [hu] at this; cases this
        rw [hf.nonce] at hn
        simp only [Option.some.injEq, Prod.mk.injEq] at hn
        obtain ⟨rfl, _⟩ := hn
        exact ⟨hf.entry, hf.le⟩
    have both : ∀ bs r ref e ref', (CosOp.sign bs, Out.ok (CosResp.signed r)) ∈ tr → unpackHRST bs = .ok k →
        r.nonce = some (ref, e) → s.hrsMeta k = some ref' ∧ s.lss.hrs ≼ k.hrs → ref = ref' := by
      intro bs r ref e ref' hm hu hn ⟨h1, h2⟩
      rcases nonce_kept_inv hrun bs r k ref e hm hu hn with h3 | h3
      · rw [h1] at h3; exact (Option.some.inj h3).symm
      · exact absurd (HRS.lt_of_lt_of_le h3 h2) (HRS.lt_irrefl _)
    rcases mem_snoc hm with hm | hm <;> rcases mem_snoc hm' with hm' | hm'
    · exact ih bs bs' r r' k ref ref' e e' hm hm' hu hu' hn hn'
    · exact both bs r ref e ref' hm hu hn (last bs' r' ref' e' hm'.symm hu' hn')
    · exact (both bs' r' ref' e' ref hm' hu' hn' (last bs r ref e hm.symm hu hn)).symm
    · have a := last bs r ref e hm.symm hu hn
      have b := last bs' r' ref' e' hm'.symm hu' hn'
      rw [a.1] at b; exact Option.some.inj b.1

/-- C58, the exact condition under the protocol's schedule, for all times: fresh signatures at the same height, round and step use
one nonce record if and only if their times are a multiple of 2^64 nanoseconds (584 years) apart. -/
theorem C58_exact (l : SignState) (s : CState) (tr : List (CosOp × Out CosResp))
    (hrun : Run C cfg (CState.start l) tr s) (hsched : PartsAfterGet tr)
    (bs bs' : Bytes) (r r' : SignRes) (k k' : HRST) (ref ref' : Nat) (e e' : Bytes)
    (h : (CosOp.sign bs, Out.ok (CosResp.signed r)) ∈ tr)
    (h' : (CosOp.sign bs', Out.ok (CosResp.signed r')) ∈ tr)
    (hu : unpackHRST bs = .ok k) (hu' : unpackHRST bs' = .ok k') (hk : k.hrs = k'.hrs)
    (hn : r.nonce = some (ref, e)) (hn' : r'.nonce = some (ref', e'))
    (t t' : GoTime) (hkt : k.timestamp = t.unixNano) (hkt' : k'.timestamp = t'.unixNano) :
    ref = ref' ↔ ∃ q : Int, (t.sec * 1000000000 + t.nsec) - (t'.sec * 1000000000 + t'.nsec) = q * 2 ^ 64 := by
  have hiff : t.unixNano = t'.unixNano ↔
      ∃ q : Int, (t.sec * 1000000000 + t.nsec) - (t'.sec * 1000000000 + t'.nsec) = q * 2 ^ 64 := by
    unfold GoTime.unixNano i64
    constructor
    · intro h
      have h1 := Int.emod_emod_of_dvd (t.sec * 1000000000 + t.nsec) (Int.dvd_refl (2 ^ 64))
      have a := Int.bmod_def (t.sec * 1000000000 + t.nsec) (2 ^ 64)
      have b := Int.bmod_def (t'.sec * 1000000000 + t'.nsec) (2 ^ 64)
      refine ⟨((t.sec * 1000000000 + t.nsec) - (t'.sec * 1000000000 + t'.nsec)) / 2 ^ 64, ?_⟩
      omega
    · rintro ⟨q, hq⟩
      have a := Int.bmod_def (t.sec * 1000000000 + t.nsec) (2 ^ 64)
      have b := Int.bmod_def (t'.sec * 1000000000 + t'.nsec) (2 ^ 64)
      omega
  rw [← hiff, ← hkt, ← hkt']
  constructor
  · rintro rfl
    obtain ⟨f, _, _, hf⟩ := nonce_key_inv hrun hsched
    rw [← (hf bs r k ref e h hu hn).2, ← (hf bs' r' k' ref e' h' hu' hn').2]
  · intro ht
    have : k = k' := by
      obtain ⟨a, b, c, d⟩ := k
      obtain ⟨a', b', c', d'⟩ := k'
      simp only [HRST.hrs, HRS.mk.injEq] at hk
      simp only at ht
      obtain ⟨rfl, rfl, rfl⟩ := hk
      rw [ht]
    subst this
    exact same_key_same_record hrun bs bs' r r' k ref ref' e e' h h' hu hu' hn hn'

/-- The times of `vote1` and `vote1l` are 2^64 nanoseconds apart, those of `vote1` and `vote2` are not. -/
example : (vote1l.timestamp.sec * 1000000000 + vote1l.timestamp.nsec) -
      (vote1.timestamp.sec * 1000000000 + vote1.timestamp.nsec) = 1 * 2 ^ 64 ∧
    ¬ ∃ q : Int, (vote2.timestamp.sec * 1000000000 + vote2.timestamp.nsec) -
      (vote1.timestamp.sec * 1000000000 + vote1.timestamp.nsec) = q * 2 ^ 64 := by
  refine ⟨by decide +kernel, ?_⟩
  rintro ⟨q, hq⟩
  simp only [vote1, vote2, sampleVote] at hq
  omega

end Horcrux
