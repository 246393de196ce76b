import Verif.Lemmas.Cosigner
/-
Invariants of cosigner runs: how nonce records are created, entered and filled.
-/
namespace Horcrux
open Spec

variable {C : Crypto} {cfg : CosignerCfg}

/-- Records are only added; the secret, the deal and the number of slots of a record never change. -/
def HeapExt (s s' : CState) : Prop :=
  ∀ (ref : Nat) (m : Meta), s.heap[ref]? = some m →
    ∃ m' : Meta, s'.heap[ref]? = some m' ∧ m'.secret = m.secret ∧ m'.dealtShares = m.dealtShares ∧
      m'.peers.length = m.peers.length

theorem HeapExt.refl (s : CState) : HeapExt s s := fun _ m h => ⟨m, h, rfl, rfl, rfl⟩

theorem HeapExt.trans {a b c : CState} (h : HeapExt a b) (h' : HeapExt b c) : HeapExt a c := by
  intro ref m hm
  obtain ⟨m1, h1, h2, h3, h4⟩ := h ref m hm
  obtain ⟨m2, g1, g2, g3, g4⟩ := h' ref m1 h1
  exact ⟨m2, g1, g2.trans h2, g3.trans h3, g4.trans h4⟩

theorem HeapExt.length {a b : CState} (h : HeapExt a b) : a.heap.length ≤ b.heap.length := by
  by_cases hz : a.heap.length = 0
  · omega
  · have hlt : a.heap.length - 1 < a.heap.length := by omega
    obtain ⟨m', h1, _⟩ := h (a.heap.length - 1) _ (List.getElem?_eq_getElem hlt)
    have := (List.getElem?_eq_some_iff.1 h1).1
    omega

theorem HeapExt.of_eq {a b : CState} (h : b.heap = a.heap) : HeapExt a b := by
  intro ref m hm
  exact ⟨m, by rw [h]; exact hm, rfl, rfl, rfl⟩

/-- Effect of looking up or creating a record. -/
theorem metaFor_maps {s s1 : CState} {k kd : HRST} {rnd : Rand} {ref : Nat}
    (h : metaFor C cfg s k kd rnd = some (ref, s1)) :
    s1.hrsMeta k = some ref ∧
    (∀ k' r', s.hrsMeta k' = some r' → s1.hrsMeta k' = some r') ∧
    (∀ k' r', s1.hrsMeta k' = some r' → s.hrsMeta k' = some r' ∨
      (k' = k ∧ s.hrsMeta k = none ∧ s.hrsMeta kd = some r') ∨
      ((k' = k ∨ k' = kd) ∧ s.hrsMeta k = none ∧ s.hrsMeta kd = none ∧ r' = s.heap.length ∧
        s1.heap.length = s.heap.length + 1)) ∧
    (s1.heap = s.heap ∨ ∃ secret, rnd.secret = some secret ∧ ref = s.heap.length ∧
      s1.heap = s.heap ++ [newMeta C cfg secret rnd]) := by
  rcases metaFor_spec h with ⟨h1, rfl⟩ | ⟨h1, h2, rfl⟩ | ⟨h1, h2, rfl, sec, h3, rfl⟩
  · exact ⟨h1, fun _ _ h => h, fun _ _ h => .inl h, .inl rfl⟩
  · refine ⟨by simp [CState.setMeta], ?_, ?_, .inl rfl⟩
    · intro k' r' hk
      simp only [CState.setMeta]
      split
      · next e => subst e; rw [h1] at hk; cases hk
      · exact hk
    · intro k' r' hk
      simp only [CState.setMeta] at hk
      split at hk
      · next e => simp only [Option.some.injEq] at hk; subst hk; exact .inr (.inl ⟨e, h1, h2⟩)
      · exact .inl hk
  · refine ⟨by simp [CState.setMeta], ?_, ?_, .inr ⟨sec, h3, rfl, rfl⟩⟩
    · intro k' r' hk
      simp only [CState.setMeta]
      split
      · next e => subst e; rw [h1] at hk; cases hk
      · split
        · next e => subst e; rw [h2] at hk; cases hk
        · exact hk
    · intro k' r' hk
      simp only [CState.setMeta] at hk
      split at hk
      · next e =>
        simp only [Option.some.injEq] at hk; subst hk
        exact .inr (.inr ⟨.inl e, h1, h2, rfl, by simp [CState.setMeta]⟩)
      · split at hk
        · next e =>
          simp only [Option.some.injEq] at hk; subst hk
          exact .inr (.inr ⟨.inr e, h1, h2, rfl, by simp [CState.setMeta]⟩)
        · exact .inl hk

theorem setSlot_maps {s s' : CState} {ref : Nat} {i : Int} {p : PeerMeta} (h : s.setSlot ref i p = some s') :
    s'.hrsMeta = s.hrsMeta ∧ s'.heap.length = s.heap.length ∧ HeapExt s s' ∧
    (∀ r, r ≠ ref → s'.heap[r]? = s.heap[r]?) ∧
    ∃ m, s.heap[ref]? = some m ∧ 0 ≤ i ∧ i.toNat < m.peers.length ∧
      s'.heap[ref]? = some { m with peers := m.peers.set i.toNat p } := by
  obtain ⟨m, hm, h0, hl, rfl⟩ := setSlot_spec h
  have hr : ref < s.heap.length := (List.getElem?_eq_some_iff.1 hm).1
  refine ⟨rfl, by simp, ?_, ?_, m, hm, h0, hl, by simp [hr]⟩
  · intro r m' hm'
    by_cases e : ref = r
    · subst e
      rw [hm] at hm'; cases hm'
      refine ⟨{ m with peers := m.peers.set i.toNat p }, by simp [hr], rfl, rfl, by simp⟩
    · exact ⟨m', by simp [e, hm'], rfl, rfl, rfl⟩
  · intro r hr'
    simp [Ne.symm hr']

theorem metaFor_heapExt {s s1 : CState} {k kd : HRST} {rnd : Rand} {ref : Nat}
    (h : metaFor C cfg s k kd rnd = some (ref, s1)) : HeapExt s s1 := by
  obtain ⟨_, _, _, h4⟩ := metaFor_maps h
  rcases h4 with h4 | ⟨sec, _, _, h4⟩
  · exact .of_eq h4
  · intro r m hm
    have : r < s.heap.length := (List.getElem?_eq_some_iff.1 hm).1
    exact ⟨m, by rw [h4, List.getElem?_append_left this]; exact hm, rfl, rfl, rfl⟩

/-- Effect of a secret-part call on the map and the heap. -/
theorem PartStep.maps {s s' : CState} {k kd : HRST} {rnd : Rand} {W : Meta → Int → PeerMeta → Prop}
    (h : PartStep C cfg s k kd rnd W s') :
    (∀ k' r', s.hrsMeta k' = some r' → s'.hrsMeta k' = some r') ∧
    (∀ k' r', s'.hrsMeta k' = some r' → s.hrsMeta k' = some r' ∨
      (k' = k ∧ s.hrsMeta k = none ∧ s.hrsMeta kd = some r') ∨
      ((k' = k ∨ k' = kd) ∧ s.hrsMeta k = none ∧ s.hrsMeta kd = none ∧ r' = s.heap.length ∧
        s'.heap.length = s.heap.length + 1)) ∧
    HeapExt s s' := by
  rcases h with rfl | ⟨ref, s1, hm, h⟩
  · exact ⟨fun _ _ h => h, fun _ _ h => .inl h, .refl _⟩
  · obtain ⟨_, h2, h3, _⟩ := metaFor_maps hm
    rcases h with rfl | ⟨_, _, _, _, _, hs⟩
    · exact ⟨h2, h3, metaFor_heapExt hm⟩
    · obtain ⟨e1, e2, e3, _⟩ := setSlot_maps hs
      refine ⟨?_, ?_, (metaFor_heapExt hm).trans e3⟩
      · rw [e1]; exact h2
      · rw [e1, e2]; exact h3

/-- What a fresh share signature does. -/
structure FreshSign (C : Crypto) (cfg : CosignerCfg) (s : CState) (bs : Bytes) (k : HRST) (r : SignRes)
    (s' : CState) (ref : Nat) (m : Meta) : Prop where
  unpack : unpackHRST bs = .ok k
  le : s.lss.hrs ≼ k.hrs
  entry : s.hrsMeta k = some ref
  record : s.heap[ref]? = some m
  nonce : r.nonce = some (ref, C.addScalars (m.used.map (·.share)))
  eph : r.ephemeralPublic = some (C.addElements (m.used.map (·.ephemeralSecretPublicKey)))
  sig : r.signature = some (C.signWithShare bs cfg.shareKey (C.addScalars (m.used.map (·.share)))
        cfg.pubKeyBytes (C.addElements (m.used.map (·.ephemeralSecretPublicKey))))
  heap : s'.heap = s.heap
  pruned : ∀ k', s'.hrsMeta k' = if k'.less k then none else s.hrsMeta k'
  hrs : s'.lss.hrs = k.hrs
  lssEph : s'.lss.ephemeralPublic = r.ephemeralPublic
  advance : s.lss.hrs ≺ k.hrs → s'.lss.signBytes = some bs ∧ s'.lss.signature = r.signature
  again : s.lss.hrs = k.hrs → s'.lss = { s.lss with ephemeralPublic := r.ephemeralPublic } ∧
    ∃ b0, s.lss.signBytes = some b0 ∧ bs ≠ b0 ∧ DifferOnlyByTime k.step b0 bs

/-- What an answer from the record does. -/
structure CachedSign (s : CState) (bs : Bytes) (k : HRST) (r : SignRes) (s' : CState) : Prop where
  unpack : unpackHRST bs = .ok k
  hrs : s.lss.hrs = k.hrs
  bytes : s.lss.signBytes = some bs
  sigSome : s.lss.signature ≠ none
  state : s' = s
  res : r = ⟨s.lss.ephemeralPublic, s.lss.signature, none⟩

theorem sign_ok_cases {s s' : CState} {bs : Bytes} {r : SignRes} (h : sign C cfg s bs = (.ok r, s')) :
    (∃ k, CachedSign s bs k r s') ∨ (∃ k ref m, FreshSign C cfg s bs k r s' ref m) := by
  obtain ⟨k, hu, ⟨h1, h2, h3, h4, h5⟩ | ⟨hlt, hf⟩ | ⟨heq, ⟨b0, hb0, hne, hd⟩, hf⟩⟩ := sign_ok C cfg h
  · exact .inl ⟨k, hu, h1, h2, h3, h4, h5⟩
  · obtain ⟨ref, m, a1, a2, a3, a4, a5, a6, a7, a8, a9, a10, a11⟩ := signFresh_ok C cfg (Or.inr hlt) hf
    refine .inr ⟨k, ref, m, ⟨hu, .inr hlt, a1, a2, a3, a4, a5, a6, a7, a8, a9, a10, ?_⟩⟩
    intro he; rw [he] at hlt; exact absurd hlt (HRS.lt_irrefl _)
  · obtain ⟨ref, m, a1, a2, a3, a4, a5, a6, a7, a8, a9, a10, a11⟩ := signFresh_ok C cfg (Or.inl heq) hf
    exact .inr ⟨k, ref, m, ⟨hu, .inl heq, a1, a2, a3, a4, a5, a6, a7, a8, a9, a10,
      fun he => ⟨a11 he, b0, hb0, hne, hd⟩⟩⟩

/-- Every step is one of: a get-part, a set-part, a fresh signature, or something that leaves all nonce records
alone. -/
theorem step_cases {s s' : CState} {op : CosOp} {out : Out CosResp} (h : s.step C cfg op = (out, s')) :
    (∃ req rnd, op = .getPart req rnd ∧
      PartStep C cfg s req.key req.key rnd (fun m i p => i = cfg.id - 1 ∧ ownSlot C cfg m p) s') ∨
    (∃ req rnd, op = .setPart req rnd ∧
      (s' = s ∨ out = .ok .unit ∨ out = .err .decryptFailed ∨ out = .panic) ∧
      PartStep C cfg s req.key ⟨req.height, req.round, req.step, GoTime.zero.unixNano⟩ rnd
      (fun _ i p => i = req.sourceID - 1 ∧ p.ephemeralSecretPublicKey = req.ephemeralPublic.bytes ∧
        C.rsaDecrypt cfg.rsaKey req.encrypted.bytes = some p.share ∧ out = .ok .unit) s') ∨
    (∃ bs r k ref m, op = .sign bs ∧ out = .ok (.signed r) ∧ FreshSign C cfg s bs k r s' ref m) ∨
    (∃ bs r k, op = .sign bs ∧ out = .ok (.signed r) ∧ CachedSign s bs k r s') ∨
    (∃ bs, op = .sign bs ∧ (∀ r, out ≠ .ok r) ∧ s' = s) ∨
    (∃ ssc, op = .saveLSS ssc ∧ s' = { s with lss := (s.lss.save ssc).2 } ∧
      (out = .ok .unit ↔ (s.lss.save ssc).1 = none) ∧ (∀ r, out ≠ .ok (.signed r))) := by
  cases op with
  | getPart req rnd =>
    simp only [CState.step, Prod.mk.injEq] at h
    exact .inl ⟨req, rnd, rfl, h.2 ▸ getPart_step rfl⟩
  | setPart req rnd =>
    right; left
    refine ⟨req, rnd, rfl, ?_⟩
    simp only [CState.step, Prod.mk.injEq] at h
    generalize hx : setPart C cfg s req rnd = x at h
    obtain ⟨o, s1⟩ := x
    obtain ⟨h1, h2⟩ := setPart_step hx
    simp only at h
    obtain ⟨rfl, rfl⟩ := h
    refine ⟨?_, ?_⟩
    · rcases h1 with h1 | rfl | rfl | rfl
      · exact .inl h1
      · exact .inr (.inl rfl)
      · exact .inr (.inr (.inl rfl))
      · exact .inr (.inr (.inr rfl))
    · rcases h2 with h2 | ⟨ref, s1', hm, h2 | ⟨m, i, p, hm2, ⟨a, b, c, d⟩, hs⟩⟩
      · exact .inl h2
      · exact .inr ⟨ref, s1', hm, .inl h2⟩
      · exact .inr ⟨ref, s1', hm, .inr ⟨m, i, p, hm2, ⟨a, b, c, by rw [d]; rfl⟩, hs⟩⟩
  | sign bs =>
    right; right
    simp only [CState.step, Prod.mk.injEq] at h
    generalize hsg : sign C cfg s bs = x at h
    obtain ⟨o, s1⟩ := x
    simp only at h
    obtain ⟨rfl, rfl⟩ := h
    by_cases ho : ∃ r, o = .ok r
    · obtain ⟨r, rfl⟩ := ho
      rcases sign_ok_cases hsg with ⟨k, hc⟩ | ⟨k, ref, m, hf⟩
      · exact .inr (.inl ⟨bs, r, k, rfl, rfl, hc⟩)
      · exact .inl ⟨bs, r, k, ref, m, rfl, rfl, hf⟩
    · refine .inr (.inr (.inl ⟨bs, rfl, ?_, sign_not_ok C cfg hsg (fun r hr => ho ⟨r, hr⟩)⟩))
      intro r hr
      cases o with
      | ok r' => exact ho ⟨r', rfl⟩
      | err e => simp [Out.map] at hr
      | panic => simp [Out.map] at hr
  | saveLSS ssc =>
    right; right; right; right; right
    refine ⟨ssc, rfl, ?_⟩
    simp only [CState.step] at h
    generalize s.lss.save ssc = x at h
    obtain ⟨e, l⟩ := x
    cases e <;> simp only [Prod.mk.injEq] at h <;> obtain ⟨rfl, rfl⟩ := h <;> simp

theorem less_iff (a b : HRST) : a.less b = true ↔ a.hrs ≺ b.hrs := by
  unfold HRST.less Spec.HRS.lt HRST.hrs
  simp only
  (repeat' split) <;> simp <;> omega

/-- References are valid. -/
def CState.Ok (s : CState) : Prop := ∀ k ref, s.hrsMeta k = some ref → ref < s.heap.length

theorem step_heapExt {s s' : CState} {op : CosOp} {out : Out CosResp} (h : s.step C cfg op = (out, s')) :
    HeapExt s s' := by
  rcases step_cases h with ⟨_, _, _, hp⟩ | ⟨_, _, _, _, hp⟩ | ⟨_, _, _, _, _, _, _, hf⟩ | ⟨_, _, _, _, _, hc⟩ |
    ⟨_, _, _, rfl⟩ | ⟨_, _, rfl, _⟩
  · exact hp.maps.2.2
  · exact hp.maps.2.2
  · exact .of_eq hf.heap
  · exact .of_eq (by rw [hc.state])
  · exact .refl _
  · exact .of_eq rfl

theorem run_heapExt {s s' : CState} {tr : List (CosOp × Out CosResp)} (h : Run C cfg s tr s') : HeapExt s s' := by
  induction h with
  | nil => exact .refl _
  | cons hs _ _ ih => exact (step_heapExt hs).trans ih

/-- A relation between keys and references that every part step must respect, and every step preserves. -/
theorem step_tag {s s' : CState} {op : CosOp} {out : Out CosResp} (h : s.step C cfg op = (out, s'))
    {T : HRST → Nat → Prop}
    (hT : ∀ k ref, s.hrsMeta k = some ref → T k ref)
    (hnew : ∀ k kd ref, s.hrsMeta k = none → k.hrs = kd.hrs → s.hrsMeta kd = some ref →
      (∃ req rnd, op = .setPart req rnd ∧ k = req.key ∧ (out = .ok .unit ∨ out = .err .decryptFailed ∨ out = .panic)) →
      T k ref)
    (hfresh : ∀ k k0, (k = k0 ∨ (k.hrs = k0.hrs ∧
        ∃ req rnd, op = .setPart req rnd ∧ k0 = req.key ∧ (out = .ok .unit ∨ out = .err .decryptFailed ∨ out = .panic))) →
      s.hrsMeta k0 = none → s'.heap.length = s.heap.length + 1 → T k s.heap.length) :
    ∀ k ref, s'.hrsMeta k = some ref → T k ref := by
  intro k ref hk
  rcases step_cases h with ⟨req, rnd, rfl, hp⟩ | ⟨req, rnd, rfl, ho, hp⟩ | ⟨_, _, _, _, _, _, _, hf⟩ |
    ⟨_, _, _, _, _, hc⟩ | ⟨_, _, _, rfl⟩ | ⟨_, _, rfl, _⟩
  · rcases hp.maps.2.1 k ref hk with h1 | ⟨_, h1, h2⟩ | ⟨h1, h2, _, rfl, h3⟩
    · exact hT k ref h1
    · rw [h1] at h2; cases h2
    · have : k = req.key := by rcases h1 with h1 | h1 <;> exact h1
      exact hfresh k _ (.inl this) h2 h3
  · by_cases hs : s' = s
    · subst hs; exact hT k ref hk
    · have ho' : out = .ok .unit ∨ out = .err .decryptFailed ∨ out = .panic := by
        rcases ho with ho | ho
        · exact absurd ho hs
        · exact ho
      rcases hp.maps.2.1 k ref hk with h1 | ⟨rfl, h1, h2⟩ | ⟨h1, h2, h4, rfl, h3⟩
      · exact hT k ref h1
      · exact hnew _ ⟨req.height, req.round, req.step, GoTime.zero.unixNano⟩ ref h1 rfl h2 ⟨req, rnd, rfl, rfl, ho'⟩
      · rcases h1 with h1 | h1
        · exact hfresh k _ (.inl h1) h2 h3
        · exact hfresh k req.key (.inr ⟨by rw [h1]; rfl, req, rnd, rfl, rfl, ho'⟩) h2 h3
  · rw [hf.pruned] at hk
    split at hk
    · cases hk
    · exact hT k ref hk
  · rw [hc.state] at hk; exact hT k ref hk
  · exact hT k ref hk
  · exact hT k ref hk

theorem step_ok {s s' : CState} {op : CosOp} {out : Out CosResp} (h : s.step C cfg op = (out, s')) (hok : s.Ok) :
    s'.Ok := by
  have hl := (step_heapExt h).length
  intro k ref hk
  exact step_tag h (T := fun _ ref => ref < s'.heap.length)
    (fun k ref h1 => Nat.lt_of_lt_of_le (hok k ref h1) hl)
    (fun k kd ref _ _ h2 _ => Nat.lt_of_lt_of_le (hok kd ref h2) hl)
    (fun k k0 _ _ h3 => by omega) k ref hk

theorem start_ok (l : SignState) : (CState.start l).Ok := by intro k ref h; cases h

theorem run_ok {s s' : CState} {tr : List (CosOp × Out CosResp)} (h : Run C cfg s tr s') (hok : s.Ok) : s'.Ok := by
  induction h with
  | nil => exact hok
  | cons hs _ _ ih => exact ih (step_ok hs hok)

/-- Every record has one slot per cosigner. -/
def CState.Slots (n : Nat) (s : CState) : Prop := ∀ m ∈ s.heap, m.peers.length = n

theorem PartStep.slots {s s' : CState} {k kd : HRST} {rnd : Rand} {W : Meta → Int → PeerMeta → Prop}
    (h : PartStep C cfg s k kd rnd W s') (hs : s.Slots cfg.total) : s'.Slots cfg.total := by
  rcases h with rfl | ⟨ref, s1, hm, h⟩
  · exact hs
  · have h1 : s1.Slots cfg.total := by
      obtain ⟨_, _, _, h4⟩ := metaFor_maps hm
      rcases h4 with h4 | ⟨sec, _, _, h4⟩
      · intro m hmm; rw [h4] at hmm; exact hs m hmm
      · intro m hmm
        rw [h4, List.mem_append] at hmm
        rcases hmm with hmm | hmm
        · exact hs m hmm
        · simp only [List.mem_singleton] at hmm; subst hmm; simp [newMeta]
    rcases h with rfl | ⟨_, _, _, _, _, hss⟩
    · exact h1
    · obtain ⟨m, hmm, _, _, rfl⟩ := setSlot_spec hss
      intro m' hm'
      rcases List.mem_or_eq_of_mem_set hm' with h | rfl
      · exact h1 m' h
      · simp only [List.length_set]
        exact h1 m (List.mem_of_getElem? hmm)

theorem step_slots {s s' : CState} {op : CosOp} {out : Out CosResp} (h : s.step C cfg op = (out, s'))
    (hs : s.Slots cfg.total) : s'.Slots cfg.total := by
  rcases step_cases h with ⟨_, _, _, hp⟩ | ⟨_, _, _, _, hp⟩ | ⟨_, _, _, _, _, _, _, hf⟩ | ⟨_, _, _, _, _, hc⟩ |
    ⟨_, _, _, rfl⟩ | ⟨_, _, rfl, _⟩
  · exact hp.slots hs
  · exact hp.slots hs
  · intro m hm; rw [hf.heap] at hm; exact hs m hm
  · rw [hc.state]; exact hs
  · exact hs
  · exact hs

theorem run_slots {s s' : CState} {tr : List (CosOp × Out CosResp)} (h : Run C cfg s tr s')
    (hs : s.Slots cfg.total) : s'.Slots cfg.total := by
  induction h with
  | nil => exact hs
  | cons h _ _ ih => exact ih (step_slots h hs)

theorem start_slots (l : SignState) (n : Nat) : (CState.start l).Slots n := by
  intro m hm; cases hm

end Horcrux
