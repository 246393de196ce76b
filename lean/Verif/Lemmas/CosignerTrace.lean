import Verif.Lemmas.CosignerInv
/-
Facts about whole runs of a cosigner, used by the property theorems.
-/
namespace Horcrux
open Spec

variable {C : Crypto} {cfg : CosignerCfg}

/-- A step's effect on the watermark record. -/
theorem mem_snoc {α : Type} {x y : α} {l : List α} (h : x ∈ l ++ [y]) : x ∈ l ∨ x = y := by
  simpa using h

/-- What is known about everything released so far, relative to the current watermark record. -/
def ReleasedInv (tr : List (CosOp × Out CosResp)) (s : CState) : Prop :=
  ∀ bs r k, (CosOp.sign bs, Out.ok (CosResp.signed r)) ∈ tr → unpackHRST bs = .ok k →
    k.hrs ≼ s.lss.hrs ∧
    (k.hrs = s.lss.hrs → ∃ b0, s.lss.signBytes = some b0 ∧ DifferOnlyByTime k.step b0 bs)

theorem released_inv {s0 s : CState} {tr : List (CosOp × Out CosResp)} (h : Run C cfg s0 tr s) :
    ReleasedInv tr s := by
  refine h.snoc_induction (P := ReleasedInv) ?_ ?_
  · intro bs r k hm; cases hm
  · intro tr s op out s' _ ih hstep hnp bs r k hm hu
    obtain ⟨hmono, hsame⟩ := step_lss hstep
    rcases mem_snoc hm with hm | hm
    · obtain ⟨h1, h2⟩ := ih bs r k hm hu
      refine ⟨HRS.le_trans h1 hmono, fun he => ?_⟩
      have he' : k.hrs = s.lss.hrs := HRS.le_antisymm h1 (he ▸ hmono)
      rw [(hsame (he.symm.trans he')).1]
      exact h2 he'
    · simp only [Prod.mk.injEq] at hm
      obtain ⟨rfl, rfl⟩ := hm
      rcases sign_ok_cases (step_sign hstep) with ⟨k', hc⟩ | ⟨k', ref, m, hf⟩
      · have := hc.unpack; rw [hu] at this; cases this
        rw [hc.state]
        exact ⟨.inl hc.hrs.symm, fun _ => ⟨bs, hc.bytes, .refl_of_unpack hu⟩⟩
      · have := hf.unpack; rw [hu] at this; cases this
        refine ⟨.inl hf.hrs.symm, fun _ => ?_⟩
        rcases hf.le with he | hlt
        · obtain ⟨h1, b0, h2, _, h3⟩ := hf.again he
          exact ⟨b0, by rw [h1]; exact h2, h3⟩
        · exact ⟨bs, (hf.advance hlt).1, .refl_of_unpack hu⟩

/-- A release is never below the watermark it finds. -/
theorem sign_ge {s s' : CState} {bs : Bytes} {r : SignRes} {k : HRST} (h : sign C cfg s bs = (.ok r, s'))
    (hu : unpackHRST bs = .ok k) : s.lss.hrs ≼ k.hrs ∧ s'.lss.hrs = k.hrs := by
  rcases sign_ok_cases h with ⟨k', hc⟩ | ⟨k', ref, m, hf⟩
  · have := hc.unpack; rw [hu] at this; cases this
    rw [hc.state]; exact ⟨.inl hc.hrs, hc.hrs⟩
  · have := hf.unpack; rw [hu] at this; cases this
    exact ⟨hf.le, hf.hrs⟩

/-- Nonce records stay with one height/round/step. -/
theorem nonce_tag_inv {l : SignState} {s : CState} {tr : List (CosOp × Out CosResp)}
    (h : Run C cfg (CState.start l) tr s) :
    ∃ f : Nat → HRS, (∀ k ref, s.hrsMeta k = some ref → f ref = k.hrs) ∧
      ∀ bs r k ref e, (CosOp.sign bs, Out.ok (CosResp.signed r)) ∈ tr → unpackHRST bs = .ok k →
        r.nonce = some (ref, e) → ref < s.heap.length ∧ f ref = k.hrs := by
  refine h.snoc_induction (P := fun tr s => ∃ f : Nat → HRS,
      (∀ k ref, s.hrsMeta k = some ref → f ref = k.hrs) ∧
      ∀ bs r k ref e, (CosOp.sign bs, Out.ok (CosResp.signed r)) ∈ tr → unpackHRST bs = .ok k →
        r.nonce = some (ref, e) → ref < s.heap.length ∧ f ref = k.hrs) ?_ ?_
  · refine ⟨fun _ => ⟨0, 0, 0⟩, ?_, ?_⟩
    · intro k ref h; cases h
    · intro bs r k ref e h; cases h
  · rintro tr s op out s' hrun ⟨f, hf1, hf2⟩ hstep hnp
    have hok := run_ok hrun (start_ok l)
    have hlen := (step_heapExt hstep).length
    -- the key of a record created by this step
    by_cases hnew : s'.heap.length = s.heap.length + 1
    · -- a part step; all new entries carry one hrs
      have hk0 : ∃ h0 : HRS, ∀ k ref, s'.hrsMeta k = some ref → ref = s.heap.length → k.hrs = h0 := by
        rcases step_cases hstep with ⟨req, rnd, rfl, hp⟩ | ⟨req, rnd, rfl, _, hp⟩ | ⟨_, _, _, _, _, _, _, hf⟩ |
          ⟨_, _, _, _, _, hc⟩ | ⟨_, _, _, rfl⟩ | ⟨_, _, rfl, _⟩
        · refine ⟨req.key.hrs, fun k ref hk hr => ?_⟩
          rcases hp.maps.2.1 k ref hk with h1 | ⟨rfl, h1, h2⟩ | ⟨h1, _⟩
          · have := hok _ _ h1; omega
          · rfl
          · rcases h1 with rfl | rfl <;> rfl
        · refine ⟨req.key.hrs, fun k ref hk hr => ?_⟩
          rcases hp.maps.2.1 k ref hk with h1 | ⟨rfl, h1, h2⟩ | ⟨h1, _⟩
          · have := hok _ _ h1; omega
          · rfl
          · rcases h1 with rfl | rfl <;> rfl
        · rw [hf.heap] at hnew; omega
        · rw [hc.state] at hnew; omega
        · omega
        · simp at hnew
      obtain ⟨h0, hh0⟩ := hk0
      refine ⟨fun ref => if ref = s.heap.length then h0 else f ref, ?_, ?_⟩
      · intro k ref hk
        by_cases hr : ref = s.heap.length
        · simp only [hr, if_true]; exact (hh0 k ref hk hr).symm
        · simp only [hr, if_false]
          exact step_tag hstep (T := fun k ref => ref ≠ s.heap.length → f ref = k.hrs)
            (fun k ref h1 _ => hf1 k ref h1)
            (fun k kd ref _ h1 h2 _ _ => by rw [h1]; exact hf1 kd ref h2)
            (fun _ _ _ _ _ h => absurd rfl h) k ref hk hr
      · intro bs r k ref e hm hu hn
        rcases mem_snoc hm with hm | hm
        · obtain ⟨h1, h2⟩ := hf2 bs r k ref e hm hu hn
          refine ⟨by omega, ?_⟩
          have : ref ≠ s.heap.length := by omega
          simp only [this, if_false]; exact h2
        · simp only [Prod.mk.injEq] at hm
          obtain ⟨rfl, rfl⟩ := hm
          exfalso
          rcases sign_ok_cases (step_sign hstep) with ⟨k', hc⟩ | ⟨k', ref', m, hf⟩
          · rw [hc.state] at hnew; omega
          · rw [hf.heap] at hnew; omega
    · refine ⟨f, ?_, ?_⟩
      · exact step_tag hstep (T := fun k ref => f ref = k.hrs) hf1
          (fun k kd ref _ h1 h2 _ => by rw [h1]; exact hf1 kd ref h2)
          (fun _ _ _ _ h => absurd h hnew)
      · intro bs r k ref e hm hu hn
        rcases mem_snoc hm with hm | hm
        · obtain ⟨h1, h2⟩ := hf2 bs r k ref e hm hu hn
          exact ⟨by omega, h2⟩
        · simp only [Prod.mk.injEq] at hm
          obtain ⟨rfl, rfl⟩ := hm
          rcases sign_ok_cases (step_sign hstep) with ⟨k', hc⟩ | ⟨k', ref', m, hf⟩
          · rw [hc.res] at hn; cases hn
          · have := hf.unpack; rw [hu] at this; cases this
            rw [hf.nonce] at hn
            simp only [Option.some.injEq, Prod.mk.injEq] at hn
            obtain ⟨rfl, _⟩ := hn
            exact ⟨by have := hok _ _ hf.entry; omega, hf1 _ _ hf.entry⟩

/-- The schedule the protocol follows: the cosigner has handed out its own parts for a block before it is given
other cosigners' parts for it (`threshold_validator.go:356-417`: the leader first collects parts, then has them set). -/
def PartsAfterGet (tr : List (CosOp × Out CosResp)) : Prop :=
  ∀ l1 l2 req rnd out, tr = l1 ++ (CosOp.setPart req rnd, out) :: l2 →
    (out = .ok .unit ∨ out = .err .decryptFailed) →
    ∃ req' rnd' p, (CosOp.getPart req' rnd', Out.ok (CosResp.part p)) ∈ l1 ∧ req'.key = req.key

theorem PartsAfterGet.init {tr t2 : List (CosOp × Out CosResp)} (h : PartsAfterGet (tr ++ t2)) : PartsAfterGet tr := by
  intro l1 l2 req rnd out he ho
  exact h l1 (l2 ++ t2) req rnd out (by rw [he]; simp) ho

theorem getPart_ok_entry {s s' : CState} {req : GetPartReq} {rnd : Rand} {p : SecretPart}
    (h : getPart C cfg s req rnd = (.ok p, s')) :
    ∃ ref s1 m own enc sig pub share, metaFor C cfg s req.key req.key rnd = some (ref, s1) ∧ s1.heap[ref]? = some m ∧
      goIndex m.dealtShares (cfg.id - 1) = some own ∧
      s1.setSlot ref (cfg.id - 1) ⟨own, C.scalarMultiplyBase m.secret⟩ = some s' ∧
      cfg.peers req.id = some pub ∧ goIndex m.dealtShares (req.id - 1) = some share ∧
      C.rsaEncrypt pub rnd.enc share = some enc ∧
      C.rsaSign cfg.rsaKey rnd.sig ⟨cfg.id, some (C.scalarMultiplyBase m.secret), some enc⟩ = some sig ∧
      p = ⟨cfg.id, req.id, some (C.scalarMultiplyBase m.secret), some enc, some sig⟩ := by
  unfold getPart at h
  simp only at h
  split at h
  · simp at h
  next ref s1 hm =>
  split at h
  · simp at h
  next m hmm =>
  split at h
  · simp at h
  next own hown =>
  split at h
  · simp at h
  next s2 hs2 =>
  split at h
  · simp at h
  next pub hpub =>
  split at h
  · simp at h
  next share hsh =>
  split at h
  · simp at h
  next enc henc =>
  split at h
  · simp at h
  next sig hsig =>
  simp only [Prod.mk.injEq, Out.ok.injEq] at h
  obtain ⟨rfl, rfl⟩ := h
  exact ⟨ref, s1, m, own, enc, sig, pub, share, hm, hmm, hown, hs2, hpub, hsh, henc, hsig, rfl⟩

theorem getPart_ok_hrsMeta {s s' : CState} {req : GetPartReq} {rnd : Rand} {p : SecretPart}
    (h : getPart C cfg s req rnd = (.ok p, s')) : ∃ ref, s'.hrsMeta req.key = some ref := by
  obtain ⟨ref, s1, _, _, _, _, _, _, hm, _, _, hs, _⟩ := getPart_ok_entry h
  exact ⟨ref, by rw [(setSlot_maps hs).1]; exact (metaFor_maps hm).1⟩

theorem step_getPart {s s' : CState} {req : GetPartReq} {rnd : Rand} {p : SecretPart}
    (h : s.step C cfg (.getPart req rnd) = (.ok (.part p), s')) : getPart C cfg s req rnd = (.ok p, s') := by
  simp only [CState.step] at h
  generalize getPart C cfg s req rnd = x at h
  obtain ⟨o, s1⟩ := x
  cases o with
  | ok r' =>
    simp only [Out.map, Prod.mk.injEq, Out.ok.injEq, CosResp.part.injEq] at h
    rw [h.1, h.2]
  | err e => simp [Out.map] at h
  | panic => simp [Out.map] at h

theorem step_setPart {s s' : CState} {req : SetPartReq} {rnd : Rand}
    (h : s.step C cfg (.setPart req rnd) = (.ok .unit, s')) : setPart C cfg s req rnd = (.ok (), s') := by
  simp only [CState.step] at h
  generalize setPart C cfg s req rnd = x at h
  obtain ⟨o, s1⟩ := x
  cases o with
  | ok r' =>
    simp only [Out.map, Prod.mk.injEq] at h
    rw [h.2]
  | err e => simp [Out.map] at h
  | panic => simp [Out.map] at h

/-- The entry of a key disappears only when the watermark passes it. -/
theorem step_entry_kept {s s' : CState} {op : CosOp} {out : Out CosResp} (h : s.step C cfg op = (out, s'))
    {k : HRST} {ref : Nat} (hk : s.hrsMeta k = some ref) : s'.hrsMeta k = some ref ∨ k.hrs ≺ s'.lss.hrs := by
  rcases step_cases h with ⟨req, rnd, rfl, hp⟩ | ⟨req, rnd, rfl, _, hp⟩ | ⟨_, _, k', _, _, _, _, hf⟩ |
    ⟨_, _, _, _, _, hc⟩ | ⟨_, _, _, rfl⟩ | ⟨_, _, rfl, _⟩
  · exact .inl (hp.maps.1 k ref hk)
  · exact .inl (hp.maps.1 k ref hk)
  · rw [hf.pruned]
    by_cases hl : k.less k' = true
    · right; rw [hf.hrs]; exact (less_iff _ _).1 hl
    · left; simp only [hl]; exact hk
  · rw [hc.state]; exact .inl hk
  · exact .inl hk
  · exact .inl hk

/-- Under the protocol's schedule every nonce record still in use belongs to one HRST key. -/
theorem nonce_key_inv {l : SignState} {s : CState} {tr : List (CosOp × Out CosResp)}
    (h : Run C cfg (CState.start l) tr s) (hsched : PartsAfterGet tr) :
    ∃ f : Nat → HRST, (∀ k ref, s.hrsMeta k = some ref → f ref = k ∨ k.hrs ≺ s.lss.hrs) ∧
      (∀ req rnd p, (CosOp.getPart req rnd, Out.ok (CosResp.part p)) ∈ tr →
        (∃ ref, s.hrsMeta req.key = some ref) ∨ req.key.hrs ≺ s.lss.hrs) ∧
      ∀ bs r k ref e, (CosOp.sign bs, Out.ok (CosResp.signed r)) ∈ tr → unpackHRST bs = .ok k →
        r.nonce = some (ref, e) → ref < s.heap.length ∧ f ref = k := by
  revert hsched
  refine h.snoc_induction (P := fun tr s => PartsAfterGet tr → ∃ f : Nat → HRST,
      (∀ k ref, s.hrsMeta k = some ref → f ref = k ∨ k.hrs ≺ s.lss.hrs) ∧
      (∀ req rnd p, (CosOp.getPart req rnd, Out.ok (CosResp.part p)) ∈ tr →
        (∃ ref, s.hrsMeta req.key = some ref) ∨ req.key.hrs ≺ s.lss.hrs) ∧
      ∀ bs r k ref e, (CosOp.sign bs, Out.ok (CosResp.signed r)) ∈ tr → unpackHRST bs = .ok k →
        r.nonce = some (ref, e) → ref < s.heap.length ∧ f ref = k) ?_ ?_
  · intro _
    refine ⟨fun _ => ⟨0, 0, 0, 0⟩, ?_, ?_, ?_⟩
    · intro k ref h; cases h
    · intro _ _ _ h; cases h
    · intro bs r k ref e h; cases h
  · intro tr s op out s' hrun ih hstep hnp hsched
    obtain ⟨f, hf1, hf2, hf3⟩ := ih hsched.init
    have hok := run_ok hrun (start_ok l)
    have hlen := (step_heapExt hstep).length
    obtain ⟨hmono, _⟩ := step_lss hstep
    -- an authenticated set-part at a key without an entry is below the watermark
    have hset : ∀ req rnd k0, op = .setPart req rnd → k0 = req.key →
        (out = .ok .unit ∨ out = .err .decryptFailed ∨ out = .panic) → s.hrsMeta k0 = none →
        k0.hrs ≺ s'.lss.hrs := by
      rintro req rnd k0 rfl rfl ho hnone
      have ho' : out = .ok .unit ∨ out = .err .decryptFailed := by
        rcases ho with ho | ho | ho
        · exact .inl ho
        · exact .inr ho
        · exact absurd ho hnp
      obtain ⟨req', rnd', p, hmem, hkey⟩ := hsched tr [] req rnd out rfl ho'
      rcases hf2 req' rnd' p hmem with ⟨ref, hr⟩ | hlt
      · rw [hkey, hnone] at hr; cases hr
      · rw [hkey] at hlt; exact HRS.lt_of_lt_of_le hlt hmono
    -- get-parts clause
    have hget : ∀ req rnd p, (CosOp.getPart req rnd, Out.ok (CosResp.part p)) ∈ tr ++ [(op, out)] →
        (∃ ref, s'.hrsMeta req.key = some ref) ∨ req.key.hrs ≺ s'.lss.hrs := by
      intro req rnd p hm
      rcases mem_snoc hm with hm | hm
      · rcases hf2 req rnd p hm with ⟨ref, hr⟩ | hlt
        · rcases step_entry_kept hstep hr with h1 | h1
          · exact .inl ⟨ref, h1⟩
          · exact .inr h1
        · exact .inr (HRS.lt_of_lt_of_le hlt hmono)
      · simp only [Prod.mk.injEq] at hm
        obtain ⟨rfl, rfl⟩ := hm
        exact .inl (getPart_ok_hrsMeta (step_getPart hstep))
    by_cases hnew : s'.heap.length = s.heap.length + 1
    · -- the new record is entered under one key, or below the watermark
      have hk0 : ∃ h0 : HRST, ∀ k ref, s'.hrsMeta k = some ref → ref = s.heap.length → k = h0 ∨ k.hrs ≺ s'.lss.hrs := by
        rcases step_cases hstep with ⟨req, rnd, rfl, hp⟩ | ⟨req, rnd, rfl, ho, hp⟩ | ⟨_, _, _, _, _, _, _, hf⟩ |
          ⟨_, _, _, _, _, hc⟩ | ⟨_, _, _, rfl⟩ | ⟨_, _, rfl, _⟩
        · refine ⟨req.key, fun k ref hk hr => ?_⟩
          rcases hp.maps.2.1 k ref hk with h1 | ⟨rfl, h1, h2⟩ | ⟨h1, _⟩
          · have := hok _ _ h1; omega
          · exact .inl rfl
          · rcases h1 with rfl | rfl <;> exact .inl rfl
        · have ho' : out = .ok .unit ∨ out = .err .decryptFailed ∨ out = .panic := by
            rcases ho with ho | ho
            · subst ho; omega
            · exact ho
          refine ⟨req.key, fun k ref hk hr => ?_⟩
          rcases hp.maps.2.1 k ref hk with h1 | ⟨rfl, h1, h2⟩ | ⟨h1, h2, _⟩
          · have := hok _ _ h1; omega
          · exact .inl rfl
          · have := hset req rnd req.key rfl rfl ho' h2
            rcases h1 with rfl | rfl
            · exact .inl rfl
            · exact .inr this
        · rw [hf.heap] at hnew; omega
        · rw [hc.state] at hnew; omega
        · omega
        · simp at hnew
      obtain ⟨h0, hh0⟩ := hk0
      refine ⟨fun ref => if ref = s.heap.length then h0 else f ref, ?_, hget, ?_⟩
      · intro k ref hk
        by_cases hr : ref = s.heap.length
        · simp only [hr, if_true]
          rcases hh0 k ref hk hr with h1 | h1
          · exact .inl h1.symm
          · exact .inr h1
        · simp only [hr, if_false]
          exact step_tag hstep (T := fun k ref => ref ≠ s.heap.length → f ref = k ∨ k.hrs ≺ s'.lss.hrs)
            (fun k ref h1 _ => by
              rcases hf1 k ref h1 with h | h
              · exact .inl h
              · exact .inr (HRS.lt_of_lt_of_le h hmono))
            (fun k kd ref hn _ _ ⟨req, rnd, e1, e2, e3⟩ _ => .inr (hset req rnd k e1 e2 e3 hn))
            (fun _ _ _ _ _ h => absurd rfl h) k ref hk hr
      · intro bs r k ref e hm hu hn
        rcases mem_snoc hm with hm | hm
        · obtain ⟨h1, h2⟩ := hf3 bs r k ref e hm hu hn
          refine ⟨by omega, ?_⟩
          have : ref ≠ s.heap.length := by omega
          simp only [this, if_false]; exact h2
        · simp only [Prod.mk.injEq] at hm
          obtain ⟨rfl, rfl⟩ := hm
          exfalso
          rcases sign_ok_cases (step_sign hstep) with ⟨k', hc⟩ | ⟨k', ref', m, hf⟩
          · rw [hc.state] at hnew; omega
          · rw [hf.heap] at hnew; omega
    · refine ⟨f, ?_, hget, ?_⟩
      · exact step_tag hstep (T := fun k ref => f ref = k ∨ k.hrs ≺ s'.lss.hrs)
          (fun k ref h1 => by
              rcases hf1 k ref h1 with h | h
              · exact .inl h
              · exact .inr (HRS.lt_of_lt_of_le h hmono))
          (fun k kd ref hn _ _ ⟨req, rnd, e1, e2, e3⟩ => .inr (hset req rnd k e1 e2 e3 hn))
          (fun _ _ _ _ h => absurd h hnew)
      · intro bs r k ref e hm hu hn
        rcases mem_snoc hm with hm | hm
        · obtain ⟨h1, h2⟩ := hf3 bs r k ref e hm hu hn
          exact ⟨by omega, h2⟩
        · simp only [Prod.mk.injEq] at hm
          obtain ⟨rfl, rfl⟩ := hm
          rcases sign_ok_cases (step_sign hstep) with ⟨k', hc⟩ | ⟨k', ref', m, hf⟩
          · rw [hc.res] at hn; cases hn
          · have := hf.unpack; rw [hu] at this; cases this
            rw [hf.nonce] at hn
            simp only [Option.some.injEq, Prod.mk.injEq] at hn
            obtain ⟨rfl, _⟩ := hn
            refine ⟨by have := hok _ _ hf.entry; omega, ?_⟩
            rcases hf1 _ _ hf.entry with h | h
            · exact h
            · exact absurd (HRS.lt_of_lt_of_le h hf.le) (HRS.lt_irrefl _)

end Horcrux
