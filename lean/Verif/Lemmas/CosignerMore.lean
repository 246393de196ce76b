import Verif.Lemmas.CosignerTrace
/-
More facts about runs of a cosigner: trailing bytes, honest sign bytes, own contributions, parts of one deal.
-/
namespace Horcrux
open Spec

variable {C : Crypto} {cfg : CosignerCfg}

/-! ### Trailing bytes -/

theorem readUvarintAux_append {n acc v : Nat} {bs rest t : Bytes} (h : readUvarintAux n acc bs = some (v, rest)) :
    readUvarintAux n acc (bs ++ t) = some (v, rest ++ t) := by
  induction bs generalizing n acc with
  | nil => simp [readUvarintAux] at h
  | cons b bs ih =>
    simp only [readUvarintAux, List.cons_append] at h ⊢
    split at h
    · simp at h
    · next h1 =>
      rw [if_neg h1]
      split at h
      · next h2 =>
        rw [if_pos h2]
        split at h
        · simp at h
        · next h3 =>
          rw [if_neg h3]
          simp only [Option.some.injEq, Prod.mk.injEq] at h
          simp [h.1, h.2]
      · next h2 => rw [if_neg h2]; exact ih h

theorem undelimit_append {bs p : Bytes} (h : undelimit bs = some p) (t : Bytes) : undelimit (bs ++ t) = some p := by
  unfold undelimit at *
  cases hr : readUvarint bs with
  | none => rw [hr] at h; simp at h
  | some x =>
    obtain ⟨n, rest⟩ := x
    rw [hr] at h
    have : readUvarint (bs ++ t) = some (n, rest ++ t) := readUvarintAux_append hr
    rw [this]
    simp only at h ⊢
    split at h
    · simp at h
    next h1 =>
    split at h
    · simp at h
    next h2 =>
    split at h
    · simp at h
    next h3 =>
    rw [if_neg h1, if_neg (by simp only [List.length_append]; omega),
      if_neg (by simp only [List.length_append]; omega)]
    simp only [Option.some.injEq] at h ⊢
    rw [List.take_append_of_le_length (by omega)]
    exact h

theorem unpackHRST_undelimit {bs : Bytes} {k : HRST} (h : unpackHRST bs = .ok k) : ∃ p, undelimit bs = some p := by
  cases hu : undelimit bs with
  | some p => exact ⟨p, rfl⟩
  | none =>
    exfalso
    simp [unpackHRST, decodeProposal, decodeVote, hu] at h

theorem decode_append {bs : Bytes} {k : HRST} (h : unpackHRST bs = .ok k) (t : Bytes) :
    decodeProposal (bs ++ t) = decodeProposal bs ∧ decodeVote (bs ++ t) = decodeVote bs := by
  obtain ⟨p, hp⟩ := unpackHRST_undelimit h
  simp only [decodeProposal, decodeVote, hp, undelimit_append hp t, and_self]

theorem unpackHRST_append {bs : Bytes} {k : HRST} (h : unpackHRST bs = .ok k) (t : Bytes) :
    unpackHRST (bs ++ t) = .ok k := by
  obtain ⟨h1, h2⟩ := decode_append h t
  unfold unpackHRST at *
  rw [h1, h2]; exact h

theorem differ_append {bs : Bytes} {k : HRST} (h : unpackHRST bs = .ok k) (t : Bytes) :
    DifferOnlyByTime k.step bs (bs ++ t) := by
  obtain ⟨h1, h2⟩ := decode_append h t
  have := Spec.DifferOnlyByTime.refl_of_unpack h
  unfold DifferOnlyByTime at *
  rw [h1, h2]; exact this

/-! ### Honest sign bytes -/

/-- The time can be expressed as an `int64` number of Unix nanoseconds. -/
def GoTime.InRange (t : GoTime) : Prop := IsI64 (t.sec * 1000000000 + t.nsec)

/-- Bytes a validator process produces: sign bytes of a prevote, precommit or proposal, with a time that Unix
nanoseconds can express; votes are not of the kind mistaken for proposals (C08). -/
def HonestBytes (bs : Bytes) : Prop :=
  (∃ c v, Vote.WF c v ∧ (v.type = 1 ∨ v.type = 2) ∧ voteSignBytes c v = .ok bs ∧
    ¬ v.MistakenForProposal c ∧ v.timestamp.InRange) ∨
  (∃ c p, Proposal.WF c p ∧ proposalSignBytes c p = .ok bs ∧ p.timestamp.InRange)

theorem unixNano_inj {a b : GoTime} (ha : a.valid = true) (hb : b.valid = true) (ra : a.InRange) (rb : b.InRange)
    (h : a.unixNano = b.unixNano) : a = b := by
  rw [GoTime.valid_iff] at ha hb
  unfold GoTime.unixNano at h
  rw [i64_of_is ra, i64_of_is rb] at h
  obtain ⟨as, an⟩ := a
  obtain ⟨bs, bn⟩ := b
  simp only at *
  have : as = bs := by omega
  subst this
  have : an = bn := by omega
  rw [this]

/-- Honest bytes with the same key that differ at most by time are identical. -/
theorem honest_same_key {a b : Bytes} {k : HRST} (ha : HonestBytes a) (hb : HonestBytes b)
    (ua : unpackHRST a = .ok k) (ub : unpackHRST b = .ok k) (hd : DifferOnlyByTime k.step a b) : a = b := by
  have nv : ∀ {c v x}, Vote.WF c v → voteSignBytes c v = .ok x → ¬ v.MistakenForProposal c →
      decodeProposal x = none := by
    intro c v x hw hv hm
    by_cases hn : decodeProposal x = none
    · exact hn
    · exact absurd ((decodeProposal_voteSignBytes hw hv).1 hn) hm
  rcases ha with ⟨c, v, hw, ht, hv, hm, hr⟩ | ⟨c, p, hw, hv, hr⟩ <;>
  rcases hb with ⟨c', v', hw', ht', hv', hm', hr'⟩ | ⟨c', p', hw', hv', hr'⟩
  · -- two votes
    have n1 := nv hw hv hm
    have n2 := nv hw' hv' hm'
    obtain ⟨bi, hbi, hbs, hwf, hl⟩ := voteSignBytes_ok hw hv
    obtain ⟨bi', hbi', hbs', hwf', hl'⟩ := voteSignBytes_ok hw' hv'
    have d1 := decodeVote_encode _ [] hwf hl
    have d2 := decodeVote_encode _ [] hwf' hl'
    rw [List.append_nil, ← hbs] at d1
    rw [List.append_nil, ← hbs'] at d2
    rcases unpackHRST_ok ua with ⟨p, hp, _⟩ | ⟨_, v1, hv1, ht1, e1⟩
    · rw [n1] at hp; cases hp
    rcases unpackHRST_ok ub with ⟨p, hp, _⟩ | ⟨_, v2, hv2, ht2, e2⟩
    · rw [n2] at hp; cases hp
    have hs : k.step ≠ 1 := by
      rw [e1]; rcases ht1 with h | h <;> simp [h]
    rcases hd with ⟨h, _⟩ | ⟨_, x, y, hx, hy, h1, h2, h3, h4, h5⟩
    · exact absurd h hs
    rw [hv1] at hx; cases hx
    rw [hv2] at hy; cases hy
    rw [hv1] at d1; cases d1
    rw [hv2] at d2; cases d2
    simp only at h1 h2 h3 h4 h5
    have htime : v.timestamp = v'.timestamp := by
      refine unixNano_inj hwf.time hwf'.time hr hr' ?_
      rw [e1] at e2
      exact congrArg HRST.timestamp e2
    rw [hbs, hbs', h1, h2, h3, h4, h5, htime]
  · exfalso
    have n1 := nv hw hv hm
    obtain ⟨bi', hbi', hbs', hwf', hl'⟩ := proposalSignBytes_ok hw' hv'
    have d2 := decodeProposal_encode _ [] hwf' hl'
    rw [List.append_nil, ← hbs'] at d2
    rcases unpackHRST_ok ua with ⟨p, hp, _⟩ | ⟨_, v1, hv1, ht1, e1⟩
    · rw [n1] at hp; cases hp
    rcases unpackHRST_ok ub with ⟨p, hp, e2⟩ | ⟨h, _⟩
    · rw [e1] at e2
      have := congrArg HRST.step e2
      simp only at this
      rcases ht1 with h | h <;> rw [h] at this <;> simp at this
    · rw [d2] at h; cases h
  · exfalso
    have n1 := nv hw' hv' hm'
    obtain ⟨bi', hbi', hbs', hwf', hl'⟩ := proposalSignBytes_ok hw hv
    have d2 := decodeProposal_encode _ [] hwf' hl'
    rw [List.append_nil, ← hbs'] at d2
    rcases unpackHRST_ok ub with ⟨p, hp, _⟩ | ⟨_, v1, hv1, ht1, e1⟩
    · rw [n1] at hp; cases hp
    rcases unpackHRST_ok ua with ⟨p, hp, e2⟩ | ⟨h, _⟩
    · rw [e1] at e2
      have := congrArg HRST.step e2
      simp only at this
      rcases ht1 with h | h <;> rw [h] at this <;> simp at this
    · rw [d2] at h; cases h
  · obtain ⟨bi, hbi, hbs, hwf, hl⟩ := proposalSignBytes_ok hw hv
    obtain ⟨bi', hbi', hbs', hwf', hl'⟩ := proposalSignBytes_ok hw' hv'
    have d1 := decodeProposal_encode _ [] hwf hl
    have d2 := decodeProposal_encode _ [] hwf' hl'
    rw [List.append_nil, ← hbs] at d1
    rw [List.append_nil, ← hbs'] at d2
    rcases unpackHRST_ok ua with ⟨q1, hq1, e1⟩ | ⟨h, _⟩
    rotate_left
    · rw [d1] at h; cases h
    rcases unpackHRST_ok ub with ⟨q2, hq2, e2⟩ | ⟨h, _⟩
    rotate_left
    · rw [d2] at h; cases h
    have hs : k.step = 1 := by rw [e1]
    rcases hd with ⟨_, x, y, hx, hy, h1, h2, h3, h4, h5, h6⟩ | ⟨h, _⟩
    rotate_left
    · omega
    rw [hq1] at hx; cases hx
    rw [hq2] at hy; cases hy
    rw [hq1] at d1; cases d1
    rw [hq2] at d2; cases d2
    simp only at h1 h2 h3 h4 h5 h6
    have htime : p.timestamp = p'.timestamp := by
      refine unixNano_inj hwf.time hwf'.time hr hr' ?_
      rw [e1] at e2
      exact congrArg HRST.timestamp e2
    rw [hbs, hbs', h2, h3, h4, h5, h6, htime]

/-! ### Own contributions -/

/-- The cosigner's own slot of a record holds its own dealt share and public key. -/
def OwnFilled (C : Crypto) (cfg : CosignerCfg) (m : Meta) : Prop :=
  ∃ own, goIndex m.dealtShares (cfg.id - 1) = some own ∧
    goIndex m.peers (cfg.id - 1) = some ⟨own, C.scalarMultiplyBase m.secret⟩

theorem goIndex_set_ne {α : Type} {l : List α} {i j : Int} {p : α} (hi : 0 ≤ i) (h : i ≠ j) :
    goIndex (l.set i.toNat p) j = goIndex l j := by
  unfold goIndex
  split
  · rfl
  · have : i.toNat ≠ j.toNat := by omega
    simp [this]

theorem goIndex_set_eq {α : Type} {l : List α} {i : Int} {p : α} (hi : 0 ≤ i) (h : i.toNat < l.length) :
    goIndex (l.set i.toNat p) i = some p := by
  unfold goIndex
  rw [if_neg (by omega)]
  simp [h]

theorem PartStep.ownFilled {s s' : CState} {k kd : HRST} {rnd : Rand} {W : Meta → Int → PeerMeta → Prop}
    (h : PartStep C cfg s k kd rnd W s') (hok : s.Ok)
    (hW : ∀ m i p, W m i p → i ≠ cfg.id - 1 ∨ ownSlot C cfg m p)
    {ref : Nat} {m : Meta} (hm : s.heap[ref]? = some m) (ho : OwnFilled C cfg m) :
    ∃ m', s'.heap[ref]? = some m' ∧ m'.secret = m.secret ∧ m'.dealtShares = m.dealtShares ∧ OwnFilled C cfg m' := by
  rcases h with rfl | ⟨ref', s1, hmf, h⟩
  · exact ⟨m, hm, rfl, rfl, ho⟩
  · have h1 : s1.heap[ref]? = some m := by
      obtain ⟨_, _, _, h4⟩ := metaFor_maps hmf
      rcases h4 with h4 | ⟨sec, _, _, h4⟩
      · rw [h4]; exact hm
      · have : ref < s.heap.length := (List.getElem?_eq_some_iff.1 hm).1
        rw [h4, List.getElem?_append_left this]; exact hm
    rcases h with rfl | ⟨m2, i, p, hm2, hw, hs⟩
    · exact ⟨m, h1, rfl, rfl, ho⟩
    · obtain ⟨_, _, _, hne, m3, hm3, hi, hl, heq⟩ := setSlot_maps hs
      rw [hm2] at hm3; cases hm3
      by_cases hr : ref = ref'
      · subst hr
        rw [h1] at hm2; cases hm2
        refine ⟨_, heq, rfl, rfl, ?_⟩
        obtain ⟨own, ho1, ho2⟩ := ho
        refine ⟨own, ho1, ?_⟩
        by_cases hii : i = cfg.id - 1
        · rcases hW _ _ _ hw with h | h
          · exact absurd hii h
          · subst hii
            rw [goIndex_set_eq hi hl]
            obtain ⟨g1, g2⟩ := h
            rw [ho1] at g1
            simp only [Option.some.injEq] at g1
            obtain ⟨ps, pe⟩ := p
            simp only at g1 g2
            rw [g1, g2]
        · show goIndex (m.peers.set i.toNat p) (cfg.id - 1) = _
          rw [goIndex_set_ne hi hii]; exact ho2
      · exact ⟨m, by rw [hne ref hr]; exact h1, rfl, rfl, ho⟩

theorem step_ownFilled {s s' : CState} {op : CosOp} {out : Out CosResp} (h : s.step C cfg op = (out, s'))
    (hok : s.Ok) (hself : ∀ req rnd, op = .setPart req rnd → out = .ok .unit → req.sourceID ≠ cfg.id)
    {ref : Nat} {m : Meta} (hm : s.heap[ref]? = some m) (ho : OwnFilled C cfg m) :
    ∃ m', s'.heap[ref]? = some m' ∧ m'.secret = m.secret ∧ m'.dealtShares = m.dealtShares ∧ OwnFilled C cfg m' := by
  rcases step_cases h with ⟨req, rnd, rfl, hp⟩ | ⟨req, rnd, rfl, _, hp⟩ | ⟨_, _, _, _, _, _, _, hf⟩ |
    ⟨_, _, _, _, _, hc⟩ | ⟨_, _, _, rfl⟩ | ⟨_, _, rfl, _⟩
  · exact hp.ownFilled hok (fun _ _ _ hw => .inr hw.2) hm ho
  · refine hp.ownFilled hok (fun _ i _ hw => .inl ?_) hm ho
    have := hself req rnd rfl hw.2.2.2
    rw [hw.1]; omega
  · exact ⟨m, by rw [hf.heap]; exact hm, rfl, rfl, ho⟩
  · exact ⟨m, by rw [hc.state]; exact hm, rfl, rfl, ho⟩
  · exact ⟨m, hm, rfl, rfl, ho⟩
  · exact ⟨m, hm, rfl, rfl, ho⟩

/-- The entry of a key disappears only by a signature above it. -/
theorem step_entry_kept' {s s' : CState} {op : CosOp} {out : Out CosResp} (h : s.step C cfg op = (out, s'))
    {k : HRST} {ref : Nat} (hk : s.hrsMeta k = some ref) : s'.hrsMeta k = some ref ∨
      ∃ bs r k', op = .sign bs ∧ out = .ok (.signed r) ∧ unpackHRST bs = .ok k' ∧ k.hrs ≺ k'.hrs := by
  rcases step_cases h with ⟨req, rnd, rfl, hp⟩ | ⟨req, rnd, rfl, _, hp⟩ | ⟨bs, r, k', _, _, e1, e2, hf⟩ |
    ⟨_, _, _, _, _, hc⟩ | ⟨_, _, _, rfl⟩ | ⟨_, _, rfl, _⟩
  · exact .inl (hp.maps.1 k ref hk)
  · exact .inl (hp.maps.1 k ref hk)
  · rw [hf.pruned]
    by_cases hl : k.less k' = true
    · right; exact ⟨bs, r, k', e1, e2, hf.unpack, (less_iff _ _).1 hl⟩
    · left; simp only [hl]; exact hk
  · rw [hc.state]; exact .inl hk
  · exact .inl hk
  · exact .inl hk

theorem getPart_ok_own {s s' : CState} {req : GetPartReq} {rnd : Rand} {p : SecretPart}
    (h : getPart C cfg s req rnd = (.ok p, s')) :
    ∃ ref m, s'.hrsMeta req.key = some ref ∧ s'.heap[ref]? = some m ∧ OwnFilled C cfg m := by
  obtain ⟨ref, s1, m, own, _, _, _, _, hm, hmm, hown, hs, _⟩ := getPart_ok_entry h
  obtain ⟨e1, _, _, _, m', hm', hi, hl, heq⟩ := setSlot_maps hs
  rw [hmm] at hm'; cases hm'
  refine ⟨ref, _, by rw [e1]; exact (metaFor_maps hm).1, heq, own, hown, ?_⟩
  exact goIndex_set_eq hi hl

/-- Where the secret and the deal of a record come from: randomness drawn by an earlier step of the run. -/
def DrawnIn (C : Crypto) (cfg : CosignerCfg) (tr : List (CosOp × Out CosResp)) (m : Meta) : Prop :=
  ∃ op out rnd, (op, out) ∈ tr ∧ ((∃ req, op = .getPart req rnd) ∨ ∃ req, op = .setPart req rnd) ∧
    rnd.secret = some m.secret ∧ m.dealtShares = C.dealShares m.secret rnd.deal cfg.threshold cfg.total

theorem PartStep.drawn {s s' : CState} {k kd : HRST} {rnd : Rand} {W : Meta → Int → PeerMeta → Prop}
    (h : PartStep C cfg s k kd rnd W s') {m : Meta} (hm : m ∈ s'.heap) :
    (∃ m0 ∈ s.heap, m.secret = m0.secret ∧ m.dealtShares = m0.dealtShares) ∨
    (rnd.secret = some m.secret ∧ m.dealtShares = C.dealShares m.secret rnd.deal cfg.threshold cfg.total) := by
  rcases h with rfl | ⟨ref', s1, hmf, h⟩
  · exact .inl ⟨m, hm, rfl, rfl⟩
  · have h1 : ∀ m ∈ s1.heap, (∃ m0 ∈ s.heap, m.secret = m0.secret ∧ m.dealtShares = m0.dealtShares) ∨
        (rnd.secret = some m.secret ∧ m.dealtShares = C.dealShares m.secret rnd.deal cfg.threshold cfg.total) := by
      intro m hm
      obtain ⟨_, _, _, h4⟩ := metaFor_maps hmf
      rcases h4 with h4 | ⟨sec, hsec, _, h4⟩
      · rw [h4] at hm; exact .inl ⟨m, hm, rfl, rfl⟩
      · rw [h4, List.mem_append, List.mem_singleton] at hm
        rcases hm with hm | rfl
        · exact .inl ⟨m, hm, rfl, rfl⟩
        · exact .inr ⟨hsec, rfl⟩
    rcases h with rfl | ⟨m2, i, p, hm2, hw, hs⟩
    · exact h1 m hm
    · obtain ⟨m3, hm3, _, _, rfl⟩ := setSlot_spec hs
      rcases List.mem_or_eq_of_mem_set hm with h | rfl
      · exact h1 m h
      · exact h1 m3 (List.mem_of_getElem? hm3)

theorem drawn_inv {l : SignState} {s : CState} {tr : List (CosOp × Out CosResp)}
    (h : Run C cfg (CState.start l) tr s) : ∀ m ∈ s.heap, DrawnIn C cfg tr m := by
  refine h.snoc_induction (P := fun tr s => ∀ m ∈ s.heap, DrawnIn C cfg tr m) ?_ ?_
  · intro m hm; cases hm
  · intro tr s op out s' _ ih hstep _ m hm
    have old : ∀ m m0 : Meta, m0 ∈ s.heap → m.secret = m0.secret → m.dealtShares = m0.dealtShares →
        DrawnIn C cfg (tr ++ [(op, out)]) m := by
      intro m m0 hm0 e1 e2
      obtain ⟨op', out', rnd, h1, h2, h3, h4⟩ := ih m0 hm0
      exact ⟨op', out', rnd, List.mem_append_left _ h1, h2, by rw [e1]; exact h3, by rw [e1, e2]; exact h4⟩
    rcases step_cases hstep with ⟨req, rnd, rfl, hp⟩ | ⟨req, rnd, rfl, _, hp⟩ | ⟨_, _, _, _, _, _, _, hf⟩ |
      ⟨_, _, _, _, _, hc⟩ | ⟨_, _, _, rfl⟩ | ⟨_, _, rfl, _⟩
    · rcases hp.drawn hm with ⟨m0, h1, h2, h3⟩ | ⟨h1, h2⟩
      · exact old m m0 h1 h2 h3
      · exact ⟨_, _, rnd, List.mem_append_right _ (List.mem_singleton.2 rfl), .inl ⟨req, rfl⟩, h1, h2⟩
    · rcases hp.drawn hm with ⟨m0, h1, h2, h3⟩ | ⟨h1, h2⟩
      · exact old m m0 h1 h2 h3
      · exact ⟨_, _, rnd, List.mem_append_right _ (List.mem_singleton.2 rfl), .inr ⟨req, rfl⟩, h1, h2⟩
    · rw [hf.heap] at hm; exact old m m hm rfl rfl
    · rw [hc.state] at hm; exact old m m hm rfl rfl
    · exact old m m hm rfl rfl
    · exact old m m hm rfl rfl

/-- After handing out a part for a key, the own slot of that key's record stays filled with the own share until a
signature above it is released, as long as nobody submits a part in this cosigner's own name. -/
theorem own_inv {l : SignState} {s : CState} {tr : List (CosOp × Out CosResp)}
    (h : Run C cfg (CState.start l) tr s)
    (hself : ∀ req rnd, (CosOp.setPart req rnd, Out.ok CosResp.unit) ∈ tr → req.sourceID ≠ cfg.id)
    (req : GetPartReq) (rnd : Rand) (p : SecretPart)
    (hg : (CosOp.getPart req rnd, Out.ok (CosResp.part p)) ∈ tr) :
    (∃ ref m, s.hrsMeta req.key = some ref ∧ s.heap[ref]? = some m ∧ OwnFilled C cfg m) ∨
      req.key.hrs ≺ s.lss.hrs := by
  revert hself hg
  refine h.snoc_induction (P := fun tr s =>
    (∀ req rnd, (CosOp.setPart req rnd, Out.ok CosResp.unit) ∈ tr → req.sourceID ≠ cfg.id) →
    (CosOp.getPart req rnd, Out.ok (CosResp.part p)) ∈ tr →
    (∃ ref m, s.hrsMeta req.key = some ref ∧ s.heap[ref]? = some m ∧ OwnFilled C cfg m) ∨
      req.key.hrs ≺ s.lss.hrs) ?_ ?_
  · intro _ hm; cases hm
  · intro tr s op out s' hrun ih hstep _ hself hm
    rcases mem_snoc hm with hm | hm
    · rcases ih (fun r rn h => hself r rn (List.mem_append_left _ h)) hm with ⟨ref, m, h1, h2, h3⟩ | hlt
      · rcases step_entry_kept hstep h1 with h4 | h4
        · obtain ⟨m', h5, _, _, h6⟩ := step_ownFilled hstep (run_ok hrun (start_ok l)) (by
            rintro r rn rfl rfl
            exact hself r rn (List.mem_append_right _ (List.mem_singleton.2 rfl))) h2 h3
          exact .inl ⟨ref, m', h4, h5, h6⟩
        · exact .inr h4
      · exact .inr (HRS.lt_of_lt_of_le hlt (step_lss hstep).1)
    · simp only [Prod.mk.injEq] at hm
      obtain ⟨rfl, rfl⟩ := hm
      exact .inl (getPart_ok_own (step_getPart hstep))

/-! ### Parts of one deal -/

/-- The cosigner holds, under key `k`, a record with this secret and this deal. -/
def RecordAt (s : CState) (k : HRST) (secret : Bytes) (dealt : List Bytes) : Prop :=
  ∃ ref m, s.hrsMeta k = some ref ∧ s.heap[ref]? = some m ∧ m.secret = secret ∧ m.dealtShares = dealt

/-- `p` is a part of the deal `dealt` of `secret`, made by this cosigner for peer `p.destinationID`, encrypted to that
peer's key and signed with this cosigner's key. -/
def PartOf (C : Crypto) (cfg : CosignerCfg) (secret : Bytes) (dealt : List Bytes) (p : SecretPart) : Prop :=
  p.sourceID = cfg.id ∧ p.ephemeralPublic = some (C.scalarMultiplyBase secret) ∧
  ∃ pub share enc sig r1 r2, cfg.peers p.destinationID = some pub ∧
    goIndex dealt (p.destinationID - 1) = some share ∧
    C.rsaEncrypt pub r1 share = some enc ∧ p.encrypted = some enc ∧
    C.rsaSign cfg.rsaKey r2 ⟨cfg.id, p.ephemeralPublic, p.encrypted⟩ = some sig ∧ p.sourceSig = some sig

theorem getPart_partOf {s s' : CState} {req : GetPartReq} {rnd : Rand} {p : SecretPart}
    (h : getPart C cfg s req rnd = (.ok p, s')) :
    p.destinationID = req.id ∧ ∃ secret dealt, RecordAt s' req.key secret dealt ∧ PartOf C cfg secret dealt p ∧
      ∀ secret0 dealt0, RecordAt s req.key secret0 dealt0 → secret0 = secret ∧ dealt0 = dealt := by
  obtain ⟨ref, s1, m, own, enc, sig, pub, share, hm, hmm, hown, hs, h1, h2, h3, h4, rfl⟩ := getPart_ok_entry h
  obtain ⟨e1, _, _, _, m', hm', hi, hl, heq⟩ := setSlot_maps hs
  rw [hmm] at hm'; cases hm'
  refine ⟨rfl, m.secret, m.dealtShares, ⟨ref, _, by rw [e1]; exact (metaFor_maps hm).1, heq, rfl, rfl⟩,
    ⟨rfl, rfl, pub, share, enc, sig, rnd.enc, rnd.sig, h1, h2, h3, rfl, h4, rfl⟩, ?_⟩
  rintro sec0 d0 ⟨ref0, m0, g1, g2, rfl, rfl⟩
  have : ref0 = ref ∧ s1 = s := by
    rcases metaFor_spec hm with ⟨a, b⟩ | ⟨a, _⟩ | ⟨a, _⟩
    · rw [g1] at a; simp only [Option.some.injEq] at a; exact ⟨a, b⟩
    · rw [g1] at a; cases a
    · rw [g1] at a; cases a
  obtain ⟨rfl, rfl⟩ := this
  rw [g2] at hmm; cases hmm
  exact ⟨rfl, rfl⟩

theorem step_recordAt {s s' : CState} {op : CosOp} {out : Out CosResp} (h : s.step C cfg op = (out, s'))
    {k : HRST} {sec : Bytes} {d : List Bytes} (hr : RecordAt s k sec d) : RecordAt s' k sec d ∨
      ∃ bs r k', op = .sign bs ∧ out = .ok (.signed r) ∧ unpackHRST bs = .ok k' ∧ k.hrs ≺ k'.hrs := by
  obtain ⟨ref, m, h1, h2, h3, h4⟩ := hr
  rcases step_entry_kept' h h1 with h5 | h5
  · obtain ⟨m', g1, g2, g3, _⟩ := step_heapExt h ref m h2
    exact .inl ⟨ref, m', h5, g1, g2.trans h3, g3.trans h4⟩
  · exact .inr h5

theorem RecordAt.unique {s : CState} {k : HRST} {a b : Bytes} {c d : List Bytes} (h : RecordAt s k a c)
    (h' : RecordAt s k b d) : a = b ∧ c = d := by
  obtain ⟨ref, m, h1, h2, rfl, rfl⟩ := h
  obtain ⟨ref', m', g1, g2, rfl, rfl⟩ := h'
  rw [h1] at g1; cases g1
  rw [h2] at g2; cases g2
  exact ⟨rfl, rfl⟩

theorem ofUnixNano_unixNano {n : Int} (h : IsI64 n) : (GoTime.ofUnixNano n).unixNano = n := by
  unfold GoTime.ofUnixNano GoTime.unixNano
  have : n / 1000000000 * 1000000000 + n % 1000000000 = n := by omega
  simp only [this]
  exact i64_of_is h

theorem getPartsLoop_ok {k : HRST} (hk : IsI64 k.timestamp) {order : List Int} {rnd : Nat → Rand} {s s' : CState}
    {acc parts : List SecretPart} (h : getPartsLoop C cfg k order rnd s acc = (.ok parts, s'))
    (hacc : acc = [] ∨ ∃ sec d, RecordAt s k sec d ∧ ∀ p ∈ acc, PartOf C cfg sec d p) :
    s'.lss = s.lss ∧ parts.map (·.destinationID) = acc.map (·.destinationID) ++ order.filter (fun i => i ≠ cfg.id) ∧
    (parts = [] ∧ s' = s ∨ ∃ sec d, RecordAt s' k sec d ∧ (∀ p ∈ parts, PartOf C cfg sec d p) ∧
      ∀ sec0 d0, RecordAt s k sec0 d0 → sec0 = sec ∧ d0 = d) := by
  induction order generalizing rnd s acc with
  | nil =>
    simp only [getPartsLoop, Prod.mk.injEq, Out.ok.injEq] at h
    obtain ⟨rfl, rfl⟩ := h
    refine ⟨rfl, by simp, ?_⟩
    rcases hacc with rfl | ⟨sec, d, h1, h2⟩
    · exact .inl ⟨rfl, rfl⟩
    · exact .inr ⟨sec, d, h1, h2, fun a b h => h.unique h1⟩
  | cons i order ih =>
    simp only [getPartsLoop] at h
    split at h
    · next e =>
      obtain ⟨a, b, c⟩ := ih h hacc
      exact ⟨a, by rw [b]; simp [e], c⟩
    · next e =>
      split at h
      · next part s1 hg =>
        have hkey : (⟨i, k.height, k.round, k.step, GoTime.ofUnixNano k.timestamp⟩ : GetPartReq).key = k := by
          simp only [GetPartReq.key, ofUnixNano_unixNano hk]
        obtain ⟨hdest, sec, d, h1, h2, h3⟩ := getPart_partOf hg
        rw [hkey] at h1 h3
        have hl := getPart_lss hg
        obtain ⟨a, b, c⟩ := ih h (.inr ⟨sec, d, h1, by
          intro p hp
          rcases List.mem_append.1 hp with hp | hp
          · rcases hacc with rfl | ⟨sec', d', g1, g2⟩
            · cases hp
            · obtain ⟨rfl, rfl⟩ := h3 _ _ g1
              exact g2 p hp
          · rw [List.mem_singleton] at hp; subst hp; exact h2⟩)
        refine ⟨a.trans hl, ?_, ?_⟩
        · rw [b]; simp [e, hdest]
        · right
          rcases c with ⟨c, _⟩ | ⟨sec', d', g1, g2, g3⟩
          · have hlen := congrArg List.length b
            rw [c] at hlen
            simp at hlen
          · refine ⟨sec', d', g1, g2, ?_⟩
            intro a b hab
            obtain ⟨rfl, rfl⟩ := h3 _ _ hab
            exact g3 _ _ h1
      · simp at h
      · simp at h

end Horcrux
