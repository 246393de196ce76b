import Verif.Spec.Meanwhile
import Verif.Lemmas.Overlap
import Verif.Lemmas.Retime
import Verif.Lemmas.System
/-
A signing round that goes on while the cluster does other things: what the participants and the leader keep.
-/
namespace Horcrux
open Spec

/-! ### One cosigner -/

section
variable {C : Crypto} {cfg : CosignerCfg}

/-- The record of `s` under `k`, which is under no other key. -/
def RecOnly (s : CState) (k : HRST) (m : Meta) : Prop :=
  ∃ ref, s.hrsMeta k = some ref ∧ s.heap[ref]? = some m ∧ ∀ k', s.hrsMeta k' = some ref → k' = k

theorem RecOnly.rec {s : CState} {k : HRST} {m : Meta} (h : RecOnly s k m) : Rec s k m := by
  obtain ⟨ref, a, b, _⟩ := h
  exact ⟨ref, a, b⟩

theorem ne_of_lower {k k' : HRST} {h : HRS} (hk : k.hrs = h) (hk' : k'.hrs ≺ h) : k' ≠ k := by
  intro e
  rw [e, hk] at hk'
  exact HRS.lt_irrefl _ hk'

theorem part_keeps {s s' : CState} {k0 kd : HRST} {rnd : Rand} {W : Meta → Int → PeerMeta → Prop} {h : HRS}
    (hp : PartStep C cfg s k0 kd rnd W s') (h0 : k0.hrs ≺ h) (hd : kd.hrs ≺ h) (hok : s.Ok) :
    (∀ k, k.hrs = h → s'.hrsMeta k = s.hrsMeta k) ∧ (∀ k m, k.hrs = h → RecOnly s k m → RecOnly s' k m) := by
  have hmaps := hp.maps
  constructor
  · intro k hk
    cases hs : s.hrsMeta k with
    | some ref => exact hmaps.1 k ref hs
    | none =>
      cases hs' : s'.hrsMeta k with
      | none => rfl
      | some ref =>
        rcases hmaps.2.1 k ref hs' with h1 | ⟨h1, _⟩ | ⟨h1 | h1, _⟩
        · rw [hs] at h1; cases h1
        · exact absurd h1.symm (ne_of_lower hk h0)
        · exact absurd h1.symm (ne_of_lower hk h0)
        · exact absurd h1.symm (ne_of_lower hk hd)
  · rintro k m hk ⟨ref, e1, e2, e3⟩
    have hlt : ref < s.heap.length := hok k ref e1
    refine ⟨ref, hmaps.1 k ref e1, ?_, ?_⟩
    · rcases hp with rfl | ⟨ref', s1, hm, hp⟩
      · exact e2
      · obtain ⟨m1, _, m3, m4⟩ := metaFor_maps hm
        have hs1 : s1.heap[ref]? = some m := by
          rcases m4 with m4 | ⟨_, _, _, m4⟩
          · rw [m4]; exact e2
          · rw [m4, List.getElem?_append_left hlt]; exact e2
        rcases hp with rfl | ⟨_, i, p, _, _, hset⟩
        · exact hs1
        · obtain ⟨_, _, _, f, _⟩ := setSlot_maps hset
          rw [f ref]
          · exact hs1
          · rintro rfl
            rcases m3 k0 ref m1 with h1 | ⟨_, _, h1⟩ | ⟨_, _, _, h1, _⟩
            · exact ne_of_lower hk h0 (e3 _ h1)
            · exact ne_of_lower hk hd (e3 _ h1)
            · omega
    · intro k' hk'
      rcases hmaps.2.1 k' ref hk' with h1 | ⟨_, _, h1⟩ | ⟨_, _, _, h1, _⟩
      · exact e3 k' h1
      · exact absurd (e3 _ h1) (ne_of_lower hk hd)
      · omega

/-- A call about a lower block leaves what there is for the height, round and step `h` alone. -/
theorem lower_keeps {s s' : CState} {op : CosOp} {out : Out CosResp} {h : HRS} (hs : s.step C cfg op = (out, s'))
    (hop : Lower h op) (hok : s.Ok) :
    (∀ k, k.hrs = h → s'.hrsMeta k = s.hrsMeta k) ∧ (∀ k m, k.hrs = h → RecOnly s k m → RecOnly s' k m) ∧
    (s.lss.hrs ≺ h → s'.lss.hrs ≺ h) ∧ (s.lss.hrs = h → s'.lss = s.lss) := by
  rcases step_cases hs with ⟨req, rnd, rfl, hp⟩ | ⟨req, rnd, rfl, _, hp⟩ | ⟨bs, r, k, ref, m, rfl, _, hf⟩ |
    ⟨_, _, _, _, _, hc⟩ | ⟨_, _, _, rfl⟩ | ⟨ssc, rfl, rfl, _⟩
  · obtain ⟨a, b⟩ := part_keeps hp (h := h) hop hop hok
    exact ⟨a, b, fun e => by rw [hp.lss]; exact e, fun _ => hp.lss⟩
  · obtain ⟨a, b⟩ := part_keeps hp (h := h) hop hop hok
    exact ⟨a, b, fun e => by rw [hp.lss]; exact e, fun _ => hp.lss⟩
  · have hk := hop k hf.unpack
    have keep : ∀ k', k'.hrs = h → s'.hrsMeta k' = s.hrsMeta k' := by
      intro k' hk'
      rw [hf.pruned, if_neg]
      rw [less_iff, hk']
      exact fun hlt => HRS.lt_irrefl _ (HRS.lt_trans hk hlt)
    refine ⟨keep, ?_, fun _ => by rw [hf.hrs]; exact hk, fun he => ?_⟩
    · rintro k' m' hk' ⟨ref', e1, e2, e3⟩
      refine ⟨ref', by rw [keep k' hk']; exact e1, by rw [hf.heap]; exact e2, fun k2 h2 => ?_⟩
      rw [hf.pruned] at h2
      split at h2
      · cases h2
      · exact e3 k2 h2
    · have := hf.le
      rw [he] at this
      rcases this with e | e
      · rw [← e] at hk; exact absurd hk (HRS.lt_irrefl _)
      · exact absurd (HRS.lt_trans hk e) (HRS.lt_irrefl _)
  · rw [hc.state]; exact ⟨fun _ _ => rfl, fun _ _ _ h => h, id, fun _ => rfl⟩
  · exact ⟨fun _ _ => rfl, fun _ _ _ h => h, id, fun _ => rfl⟩
  · refine ⟨fun _ _ => rfl, fun _ _ _ h => h, fun e => ?_, fun e => ?_⟩
    · show (s.lss.save ssc).2.hrs ≺ h
      rw [SignState.save_hrs]
      split
      · exact hop
      · exact e
    · refine SignState.save_err _ _ ?_
      rw [e]
      exact fun hlt => HRS.lt_irrefl _ (HRS.lt_trans (show ssc.hrs ≺ h from hop) hlt)

end

section
variable {C : Crypto} {F G : Type} [Field F] [AddCommGroup G] [Module F G] {L : Lawful C F G}
  {pair : Bytes → Bytes → Prop} {n t : Nat} {cfg : Nat → CosignerCfg} {x : F} {kc : List F} {rsaPub : Nat → Bytes}
  {q : Signing}

/-- What is known of a participant; `H` are the participants with nonces for the block. -/
structure CosInv (L : Lawful C F G) (n t : Nat) (cfg : Nat → CosignerCfg) (x : F) (kc : List F) (rsaPub : Nat → Bytes) (q : Signing)
    (sec r : Nat → Bytes) (H : List Nat) (p : Nat) (c : CState) (parts : List SecretPart) (had : List Nat) : Prop where
  ok : c.Ok
  handed : ∀ a ∈ parts, ∃ j, 1 ≤ j ∧ j ≤ n ∧ PartFrom L cfg rsaPub (sec p) (L.coeffs (r p) t) p j a
  state : (p ∉ H ∧ (∀ k, k.hrs = q.block.hrs → c.hrsMeta k = none) ∧ c.lss.hrs ≺ q.block.hrs ∧ parts = [] ∧ had = []) ∨
    (p ∈ H ∧ ∃ D, p ∈ D ∧ (∀ j ∈ D, j ∈ H) ∧ (∀ j ∈ had, j ∈ D) ∧ RecOnly c q.block.key (fullRecord L n t p sec r D) ∧
      (c.lss.hrs ≺ q.block.hrs ∨ (∀ j ∈ q.ps, j ∈ H) ∧ SignedAs L n t sec r q.ps x kc q.block.key q.block.signBytes p c))

/-- The right answer of participant `p`. -/
structure GoodRes (L : Lawful C F G) (n t : Nat) (x : F) (kc : List F) (q : Signing) (sec r : Nat → Bytes) (H : List Nat) (p : Nat)
    (res : SignRes) : Prop where
  all : ∀ j ∈ q.ps, j ∈ H
  sig : res.signature = some (L.sc (shareSig L n t sec r q.ps x kc q.block.signBytes p))
  eph : res.ephemeralPublic = some (L.pt (jointR L n sec q.ps))

theorem SignedAs.congr {sec r sec' r' : Nat → Bytes} {ps : List Nat} {k : HRST} {bs : Bytes} {p : Nat} {s : CState}
    (h : SignedAs L n t sec r ps x kc k bs p s) (ha : ∀ j ∈ ps, sec j = sec' j ∧ r j = r' j) :
    SignedAs L n t sec' r' ps x kc k bs p s := by
  obtain ⟨h1, h2⟩ := shareSig_congr (L := L) (n := n) (t := t) (x := x) (kc := kc) (p := p) (bs := bs) (D := ps) (D' := ps)
    (fun _ => Iff.rfl) ha
  exact ⟨h.hrs, h.signBytes, by rw [← h1]; exact h.signature, by rw [← h2]; exact h.ephemeral⟩

theorem GoodRes.mono {sec r sec' r' : Nat → Bytes} {H H' : List Nat} {p : Nat} {res : SignRes}
    (h : GoodRes L n t x kc q sec r H p res) (hH : ∀ j ∈ H, j ∈ H') (ha : ∀ j ∈ H, sec' j = sec j ∧ r' j = r j) :
    GoodRes L n t x kc q sec' r' H' p res := by
  obtain ⟨h1, h2⟩ := shareSig_congr (L := L) (n := n) (t := t) (x := x) (kc := kc) (p := p) (bs := q.block.signBytes)
    (D := q.ps) (D' := q.ps) (fun _ => Iff.rfl) (fun j hj => ⟨(ha j (h.all j hj)).1.symm, (ha j (h.all j hj)).2.symm⟩)
  exact ⟨fun j hj => hH j (h.all j hj), by rw [← h1]; exact h.sig, by rw [← h2]; exact h.eph⟩

theorem CosInv.mono {sec r sec' r' : Nat → Bytes} {H H' : List Nat} {p : Nat} {c : CState} {parts : List SecretPart}
    {had : List Nat} (h : CosInv L n t cfg x kc rsaPub q sec r H p c parts had) (hH : ∀ j ∈ H, j ∈ H')
    (ha : ∀ j ∈ H, sec' j = sec j ∧ r' j = r j) (hp : p ∈ H' → p ∈ H) :
    CosInv L n t cfg x kc rsaPub q sec' r' H' p c parts had := by
  refine ⟨h.ok, ?_, ?_⟩
  · intro a hm
    rcases h.state with ⟨_, _, _, e, _⟩ | ⟨hpH, _⟩
    · rw [e] at hm; cases hm
    · obtain ⟨j, h1, h2, h3⟩ := h.handed a hm
      rw [← (ha p hpH).1, ← (ha p hpH).2] at h3
      exact ⟨j, h1, h2, h3⟩
  · rcases h.state with ⟨h1, h2⟩ | ⟨hpH, D, h1, h2, h3, h4, h5⟩
    · exact .inl ⟨fun e => h1 (hp e), h2⟩
    · refine .inr ⟨hH p hpH, D, h1, fun j hj => hH j (h2 j hj), h3, ?_, ?_⟩
      · rw [← fullRecord_congr (L := L) (n := n) (t := t) (sec := sec) (r := r) (D := D)
          ⟨(ha p hpH).1.symm, (ha p hpH).2.symm⟩ (fun _ => Iff.rfl)
          (fun j hj => ⟨(ha j (h2 j hj)).1.symm, (ha j (h2 j hj)).2.symm⟩)]
        exact h4
      · rcases h5 with h5 | ⟨h5, h6⟩
        · exact .inl h5
        · exact .inr ⟨fun j hj => hH j (h5 j hj),
            h6.congr fun j hj => ⟨(ha j (h5 j hj)).1.symm, (ha j (h5 j hj)).2.symm⟩⟩

theorem CosInv.lower {sec r : Nat → Bytes} {H : List Nat} {p : Nat} {c c' : CState} {parts : List SecretPart}
    {had : List Nat} (h : CosInv L n t cfg x kc rsaPub q sec r H p c parts had) {op : CosOp} {out : Out CosResp}
    (hs : c.step C (cfg p) op = (out, c')) (hop : Lower q.block.hrs op) :
    CosInv L n t cfg x kc rsaPub q sec r H p c' parts had := by
  obtain ⟨k1, k2, k3, k4⟩ := lower_keeps hs hop h.ok
  refine ⟨step_ok hs h.ok, h.handed, ?_⟩
  rcases h.state with ⟨h1, h2, h3, h4⟩ | ⟨hpH, D, h1, h2, h3, h4, h5⟩
  · exact .inl ⟨h1, fun k hk => by rw [k1 k hk]; exact h2 k hk, k3 h3, h4⟩
  · refine .inr ⟨hpH, D, h1, h2, h3, k2 _ _ rfl h4, ?_⟩
    rcases h5 with h5 | ⟨h5, h6⟩
    · exact .inl (k3 h5)
    · have := k4 h6.hrs
      exact .inr ⟨h5, by rw [this]; exact h6.hrs, by rw [this]; exact h6.signBytes, by rw [this]; exact h6.signature,
        by rw [this]; exact h6.ephemeral⟩

theorem getKey (i : Nat) :
    GetPartReq.key ⟨i, q.block.height, q.block.round, q.block.step, GoTime.ofUnixNano q.block.key.timestamp⟩ = q.block.key := by
  unfold GetPartReq.key
  simp only [ofUnixNano_unixNano (show IsI64 q.block.key.timestamp from unixNano_isI64 _)]
  rfl

/-- Parts are handed out. -/
theorem CosInv.get (hS : Setup C L pair n t cfg x kc rsaPub) {sec r : Nat → Bytes} {H : List Nat} {p : Nat} (hp1 : 1 ≤ p) (hp2 : p ≤ n)
    {c : CState} {parts : List SecretPart} {had : List Nat} (h : CosInv L n t cfg x kc rsaPub q sec r H p c parts had)
    (hlen : ∀ j ∈ H, (sec j).length = 32) {i : Nat} (hi1 : 1 ≤ i) (hi2 : i ≤ n) {rnd : Rand}
    (hr : ∃ s0, rnd.secret = some s0 ∧ s0.length = 32) :
    ∃ sec' r' part c', getPart C (cfg p) c
        ⟨i, q.block.height, q.block.round, q.block.step, GoTime.ofUnixNano q.block.key.timestamp⟩ rnd = (.ok part, c') ∧
      (∀ j ∈ H, sec' j = sec j ∧ r' j = r j) ∧ (sec' p).length = 32 ∧ part.destinationID = (i : Int) ∧
      CosInv L n t cfg x kc rsaPub q sec' r' (p :: H) p c' (part :: parts) had := by
  have hkI : IsI64 q.block.key.timestamp := unixNano_isI64 _
  have fin : ∀ (sec' r' : Nat → Bytes) (D : List Nat) (s1 : CState) (ref : Nat),
      metaFor C (cfg p) c q.block.key q.block.key rnd = some (ref, s1) → s1.lss = c.lss →
      (sec' p).length = 32 → (∀ j ∈ H, sec' j = sec j ∧ r' j = r j) → (∀ j ∈ D, j ∈ H) → (∀ j ∈ had, j ∈ D) →
      s1.heap[ref]? = some (fullRecord L n t p sec' r' D) → (∀ k', s1.hrsMeta k' = some ref → k' = q.block.key) →
      (p ∈ H ∨ parts = []) →
      (c.lss.hrs ≺ q.block.hrs ∨ (∀ j ∈ q.ps, j ∈ H) ∧ SignedAs L n t sec' r' q.ps x kc q.block.key q.block.signBytes p c) →
      ∃ sec' r' part c', getPart C (cfg p) c
        ⟨i, q.block.height, q.block.round, q.block.step, GoTime.ofUnixNano q.block.key.timestamp⟩ rnd = (.ok part, c') ∧
      (∀ j ∈ H, sec' j = sec j ∧ r' j = r j) ∧ (sec' p).length = 32 ∧ part.destinationID = (i : Int) ∧
      CosInv L n t cfg x kc rsaPub q sec' r' (p :: H) p c' (part :: parts) had := by
    intro sec' r' D s1 ref hm hl1 hl ha hD hhad hrec honly hpp hlss
    have hentry := (metaFor_maps hm).1
    obtain ⟨part, c', g1, g2, g3, g4⟩ := getPart_held hS hp1 hp2 hi1 hi2 hkI hl hm hentry hrec
    have g1' : getPart C (cfg p) c
      ⟨i, q.block.height, q.block.round, q.block.step, GoTime.ofUnixNano q.block.key.timestamp⟩ rnd = (.ok part, c') := g1
    have hstep : c.step C (cfg p) (.getPart
        ⟨i, q.block.height, q.block.round, q.block.step, GoTime.ofUnixNano q.block.key.timestamp⟩ rnd) =
        ((Out.ok part).map .part, c') := by
      simp only [CState.step, g1']
    have hps := getPart_step g1'
    rw [getKey] at hps
    refine ⟨sec', r', part, c', g1', ha, hl, g2.dest, step_ok hstep h.ok, ?_, .inr ⟨by simp, p :: D, by simp, ?_, ?_, ?_, ?_⟩⟩
    · intro a hm'
      rcases List.mem_cons.1 hm' with rfl | hm'
      · exact ⟨i, hi1, hi2, g2⟩
      · rcases hpp with hpp | hpp
        · obtain ⟨j, a1, a2, a3⟩ := h.handed a hm'
          rw [← (ha p hpp).1, ← (ha p hpp).2] at a3
          exact ⟨j, a1, a2, a3⟩
        · rw [hpp] at hm'; cases hm'
    · intro j hj
      rcases List.mem_cons.1 hj with rfl | hj
      · simp
      · simp [hD j hj]
    · intro j hj; simp [hhad j hj]
    · obtain ⟨ref', e1, e2⟩ := g4
      refine ⟨ref', e1, e2, fun k' hk' => ?_⟩
      have hmap : c'.hrsMeta = s1.hrsMeta := by
        rcases hps with rfl | ⟨ref2, s2, hm2, hps⟩
        · rcases metaFor_spec hm with ⟨_, rfl⟩ | ⟨a, b, _⟩ | ⟨a, _⟩
          · rfl
          · rw [a] at b; cases b
          · rw [a] at e1; cases e1
        · rw [hm] at hm2
          simp only [Option.some.injEq, Prod.mk.injEq] at hm2
          obtain ⟨rfl, rfl⟩ := hm2
          rcases hps with rfl | ⟨_, _, _, _, _, hset⟩
          · rfl
          · exact (setSlot_maps hset).1
      rw [hmap] at hk' e1
      rw [hentry] at e1
      cases e1
      exact honly k' hk'
    · rw [show c'.lss = c.lss from g3.trans hl1]
      rcases hlss with hlss | ⟨a, b⟩
      · exact .inl hlss
      · have e : c'.lss = c.lss := g3.trans hl1
        exact .inr ⟨fun j hj => by simp [a j hj], by rw [e]; exact b.hrs, by rw [e]; exact b.signBytes,
          by rw [e]; exact b.signature, by rw [e]; exact b.ephemeral⟩
  rcases h.state with ⟨h1, h2, h3, h4, h5⟩ | ⟨hpH, D, h1, h2, h3, ⟨ref, e1, e2, e3⟩, h5⟩
  · obtain ⟨s0, hs0, hl0⟩ := hr
    have hnone := h2 q.block.key rfl
    obtain ⟨s1, hm, hl1, hh1, ho⟩ : ∃ s1, metaFor C (cfg p) c q.block.key q.block.key rnd = some (c.heap.length, s1) ∧
        s1.lss = c.lss ∧ s1.heap[c.heap.length]? = some ⟨s0, C.dealShares s0 rnd.deal t n, List.replicate n ⟨[], []⟩⟩ ∧
        (∀ k', s1.hrsMeta k' = some c.heap.length → k' = q.block.key) := by
      unfold metaFor dealSharesFor
      rw [hnone]
      simp only
      rw [hs0]
      simp only
      refine ⟨_, rfl, rfl, by simp [CState.setMeta, hS.total p hp1 hp2, hS.threshold p hp1 hp2], ?_⟩
      intro k' hk'
      by_cases hk : k' = q.block.key
      · exact hk
      · simp only [CState.setMeta, if_neg hk] at hk'
        exact absurd (h.ok k' _ hk') (Nat.lt_irrefl _)
    have hne : ∀ j ∈ H, j ≠ p := fun j hj e => h1 (e ▸ hj)
    refine fin (fun j => if j = p then s0 else sec j) (fun j => if j = p then rnd.deal else r j) [] s1 _ hm hl1 (by simp [hl0])
      (fun j hj => by simp [hne j hj]) (by simp) (by simp [h5]) ?_ ho (.inr h4) (.inl h3)
    rw [hh1]
    unfold fullRecord
    rw [slotsOf_nil]
    simp
  · have hm : metaFor C (cfg p) c q.block.key q.block.key rnd = some (ref, c) := by unfold metaFor; rw [e1]
    exact fin sec r D c ref hm rfl (hlen p hpH) (fun _ _ => ⟨rfl, rfl⟩) h2 h3 e2 e3 (.inl hpH) h5

/-- A part of another participant arrives. -/
theorem CosInv.set (hS : Setup C L pair n t cfg x kc rsaPub) {sec r : Nat → Bytes} {H : List Nat} {p : Nat} (hp1 : 1 ≤ p) (hp2 : p ≤ n)
    {c : CState} {parts : List SecretPart} {had : List Nat} (h : CosInv L n t cfg x kc rsaPub q sec r H p c parts had)
    (hown : parts ≠ []) {j : Nat} (hj1 : 1 ≤ j) (hj2 : j ≤ n) (hjH : j ∈ H) {a : SecretPart}
    (ha : PartFrom L cfg rsaPub (sec j) (L.coeffs (r j) t) j p a) (rnd : Rand) :
    ∃ c', setPart C (cfg p) c (a.toSetReq q.block.key) rnd = (.ok (), c') ∧
      CosInv L n t cfg x kc rsaPub q sec r H p c' parts (j :: had) := by
  have hkI : IsI64 q.block.key.timestamp := unixNano_isI64 _
  rcases h.state with ⟨_, _, _, h4, _⟩ | ⟨hpH, D, h1, h2, h3, h4, h5⟩
  · exact absurd h4 hown
  · obtain ⟨ref, e1, e2, e3⟩ := h4
    obtain ⟨c', g1, g2, ref', g3, g4⟩ := setPart_honest hS hp1 hp2 hj1 hj2 hkI (rnd := rnd) ha ⟨ref, e1, e2⟩
    have hstep : c.step C (cfg p) (.setPart (a.toSetReq q.block.key) rnd) = ((Out.ok ()).map fun _ => .unit, c') := by
      simp only [CState.step, g1]
    have hkey : SetPartReq.key (a.toSetReq q.block.key) = q.block.key := by
      unfold SetPartReq.key SecretPart.toSetReq
      simp only [ofUnixNano_unixNano hkI]
    have hmap : c'.hrsMeta = c.hrsMeta := by
      rcases (setPart_step g1).2 with rfl | ⟨ref2, s2, hm2, hps⟩
      · rfl
      · rw [hkey] at hm2
        unfold metaFor at hm2
        rw [e1] at hm2
        simp only [Option.some.injEq, Prod.mk.injEq] at hm2
        obtain ⟨rfl, rfl⟩ := hm2
        rcases hps with rfl | ⟨_, _, _, _, _, hset⟩
        · rfl
        · exact (setSlot_maps hset).1
    refine ⟨c', g1, step_ok hstep h.ok, h.handed, .inr ⟨hpH, j :: D, by simp [h1], ?_, ?_, ⟨ref', g3, g4, ?_⟩, ?_⟩⟩
    · intro i hi
      rcases List.mem_cons.1 hi with rfl | hi
      · exact hjH
      · exact h2 i hi
    · intro i hi
      rcases List.mem_cons.1 hi with rfl | hi
      · simp
      · simp [h3 i hi]
    · intro k' hk'
      rw [hmap] at hk' g3
      rw [e1] at g3
      cases g3
      exact e3 k' hk'
    · rcases h5 with h5 | ⟨a1, b⟩
      · left; rw [g2]; exact h5
      · exact .inr ⟨a1, by rw [g2]; exact b.hrs, by rw [g2]; exact b.signBytes, by rw [g2]; exact b.signature,
          by rw [g2]; exact b.ephemeral⟩

/-- The block is signed. -/
theorem CosInv.sign (hS : Setup C L pair n t cfg x kc rsaPub) (hu : unpackHRST q.block.signBytes = .ok q.block.key)
    {sec r : Nat → Bytes} {H : List Nat} (hH : ∀ j ∈ H, j ∈ q.ps) {p : Nat} (hp1 : 1 ≤ p) (hp2 : p ≤ n)
    {c : CState} {parts : List SecretPart} {had : List Nat} (h : CosInv L n t cfg x kc rsaPub q sec r H p c parts had)
    (hown : parts ≠ []) (hall : ∀ j ∈ q.ps, j ≠ p → j ∈ had) :
    ∃ res c', sign C (cfg p) c q.block.signBytes = (.ok res, c') ∧ GoodRes L n t x kc q sec r H p res ∧
      CosInv L n t cfg x kc rsaPub q sec r H p c' parts had := by
  rcases h.state with ⟨_, _, _, h4, _⟩ | ⟨hpH, D, h1, h2, h3, h4, h5⟩
  · exact absurd h4 hown
  · have hDps : ∀ j, j ∈ D ↔ j ∈ q.ps := by
      refine fun j => ⟨fun hj => hH j (h2 j hj), fun hj => ?_⟩
      by_cases e : j = p
      · rw [e]; exact h1
      · exact h3 j (hall j hj e)
    have hallH : ∀ j ∈ q.ps, j ∈ H := fun j hj => h2 j ((hDps j).2 hj)
    rcases h5 with h5 | ⟨_, b⟩
    · obtain ⟨ref, e1, e2, e3⟩ := h4
      have hcong : fullRecord L n t p sec r D = fullRecord L n t p sec r q.ps :=
        fullRecord_congr ⟨rfl, rfl⟩ hDps (fun _ _ => ⟨rfl, rfl⟩)
      obtain ⟨res, c', g1, g2, ⟨ref', g3, g4⟩, g5, g6⟩ := sign_fresh hS hp1 hp2 hu h5 (D := q.ps) ⟨ref, e1, by rw [← hcong]; exact e2⟩
      have hstep : c.step C (cfg p) (.sign q.block.signBytes) = ((Out.ok res).map .signed, c') := by
        simp only [CState.step, g1]
      refine ⟨res, c', g1, ⟨hallH, g5, g6⟩, step_ok hstep h.ok, h.handed,
        .inr ⟨hpH, D, h1, h2, h3, ⟨ref', g3, by rw [hcong]; exact g4, ?_⟩, .inr ⟨hallH, g2⟩⟩⟩
      intro k' hk'
      rcases sign_ok_cases g1 with ⟨_, hc⟩ | ⟨_, _, _, hf⟩
      · rw [hc.state] at hk' g3
        rw [e1] at g3; cases g3
        exact e3 k' hk'
      · rw [hf.pruned] at hk' g3
        split at hk'
        · cases hk'
        · split at g3
          · cases g3
          · rw [e1] at g3; cases g3
            exact e3 k' hk'
    · exact ⟨_, c, sign_signedAs p hu b, ⟨hallH, rfl, rfl⟩, h⟩

end

/-! ### The leader -/

section
variable {C : Crypto} {vcfg : ValidatorCfg} {q : Signing} {pub : Bytes}

theorem vout_actor {v v' : VState} {ev : VEv} {out : VOut} (h : v.step C vcfg ev = (out, v')) (id : Nat) :
    ((∃ b sig stamp e, out = .ret id b sig stamp e) ∨ ∃ b again, out = .startRound id b again) → ev.actor = some id := by
  cases vstep_inv h <;> rintro (⟨_, _, _, _, e⟩ | ⟨_, _, e⟩) <;> cases e <;> rfl

/-- What is known of the call: it is in its round; or it has a signature; or it is over. -/
def CallInv (C : Crypto) (pub : Bytes) (q : Signing) (v : VState) : Prop :=
  v.calls q.id = some (q.block, .round) ∨
  (∃ sig, C.verify pub q.block.signBytes sig = true ∧
    (v.calls q.id = some (q.block, .save sig) ∨ v.calls q.id = some (q.block, .emit sig))) ∨
  v.calls q.id = none

/-- What is known of the leader. -/
structure LeadInv (C : Crypto) (pub : Bytes) (q : Signing) (v : VState) : Prop where
  lss : v.lss.hrs ≼ q.block.hrs
  calls : ∀ j b ph, j ≠ q.id → v.calls j = some (b, ph) → b.hrs ≺ q.block.hrs
  call : CallInv C pub q v

/-- A call of the leader for the block that ended well. -/
def GoodRet (C : Crypto) (pub : Bytes) (q : Signing) (o : VOut) : Prop :=
  ∃ sig, o = .ret q.id q.block (some sig) q.block.timestamp none ∧ C.verify pub q.block.signBytes sig = true

/-- What the validator of the leader may do. -/
def VAllowed (C : Crypto) (vcfg : ValidatorCfg) (pub : Bytes) (q : Signing) (v : VState) : VEv → Prop
  | .call id b _ => id ≠ q.id ∧ b.hrs ≺ q.block.hrs
  | .lss r => r.hrs ≺ q.block.hrs
  | .roundDone id (.failed _) => id ≠ q.id
  | .roundDone id (.sigs sh eph) => id = q.id → v.calls q.id = some (q.block, .round) →
      ∃ sig, assemble C vcfg.threshold vcfg.pubKey q.block.signBytes sh eph = .ok sig ∧ C.verify pub q.block.signBytes sig = true
  | _ => True

theorem lead_step {v v' : VState} {ev : VEv} {out : VOut} (h : v.step C vcfg ev = (out, v')) (hi : LeadInv C pub q v)
    (ha : VAllowed C vcfg pub q v ev) :
    LeadInv C pub q v' ∧ (v'.calls q.id = none → v.calls q.id = none ∨ GoodRet C pub q out) ∧
    (∀ b sig stamp e, out = .ret q.id b sig stamp e → GoodRet C pub q out) ∧
    (∀ b again, out ≠ .startRound q.id b again) := by
  have hout : out = (v.step C vcfg ev).1 := by rw [h]
  have hv : v' = (v.step C vcfg ev).2 := by rw [h]
  have hrec : ∀ id b sig, v.calls id = some (b, .save sig) → (b.record sig).hrs ≼ q.block.hrs := by
    intro id b sig hc
    by_cases e : id = q.id
    · subst e
      rcases hi.call with h1 | ⟨_, _, h1 | h1⟩ | h1 <;> rw [h1] at hc <;> cases hc
      exact HRS.le_refl _
    · exact HRS.le_of_lt (hi.calls id b _ e hc)
  have hlss : v'.lss.hrs ≼ q.block.hrs := by
    rw [hv]
    rcases nstep_lss (C := C) (vcfg := vcfg) v ev with e | ⟨r, e, hr⟩
    · rw [e]; exact hi.lss
    · rw [e, SignState.save_hrs]
      split
      · rcases hr with rfl | ⟨id, b, sig, _, hc, rfl⟩
        · exact HRS.le_of_lt ha
        · exact hrec id b sig hc
      · exact hi.lss
  have hcalls : ∀ j b ph, j ≠ q.id → v'.calls j = some (b, ph) → b.hrs ≺ q.block.hrs := by
    intro j b ph hj hc
    rw [hv] at hc
    cases nstep_calls (C := C) (vcfg := vcfg) v ev j b ph hc with
    | same _ h1 => exact hi.calls j b _ hj h1
    | begun _ role he => subst he; exact ha.2
    | round _ _ he =>
      rcases he with ⟨role, he⟩ | ⟨ph, h1⟩
      · subst he; exact ha.2
      · exact hi.calls j b _ hj h1
    | poll _ _ h1 => exact hi.calls j b _ hj h1
    | save _ _ _ _ h1 => exact hi.calls j b _ hj h1
    | emit _ h1 => exact hi.calls j b _ hj h1
  by_cases hact : ev.actor = some q.id
  · have idle : v.step C vcfg ev = (.tau, v) →
        LeadInv C pub q v' ∧ (v'.calls q.id = none → v.calls q.id = none ∨ GoodRet C pub q out) ∧
        (∀ b sig stamp e, out = .ret q.id b sig stamp e → GoodRet C pub q out) ∧
        (∀ b again, out ≠ .startRound q.id b again) := by
      intro e
      rw [h] at e
      simp only [Prod.mk.injEq] at e
      obtain ⟨rfl, rfl⟩ := e
      exact ⟨hi, .inl, fun _ _ _ _ e => (by cases e), fun _ _ e => (by cases e)⟩
    cases ev with
    | call id b role =>
      simp only [VEv.actor, Option.some.injEq] at hact
      exact absurd hact ha.1
    | lss r => cases hact
    | proxyDone id r =>
      simp only [VEv.actor, Option.some.injEq] at hact
      subst hact
      refine idle ?_
      rcases hi.call with h1 | ⟨_, _, h1 | h1⟩ | h1 <;> simp only [VState.step, h1]
    | poll id =>
      simp only [VEv.actor, Option.some.injEq] at hact
      subst hact
      refine idle ?_
      rcases hi.call with h1 | ⟨_, _, h1 | h1⟩ | h1 <;> simp only [VState.step, h1]
    | lookup id =>
      simp only [VEv.actor, Option.some.injEq] at hact
      subst hact
      refine idle ?_
      rcases hi.call with h1 | ⟨_, _, h1 | h1⟩ | h1 <;> simp only [VState.step, h1]
    | roundDone id r =>
      simp only [VEv.actor, Option.some.injEq] at hact
      subst hact
      cases r with
      | failed e => exact absurd rfl ha
      | sigs sh eph =>
        rcases hi.call with h1 | ⟨_, _, h1 | h1⟩ | h1
        · obtain ⟨sig, e1, e2⟩ := ha rfl h1
          simp only [VState.step, h1, e1, Prod.mk.injEq] at h
          obtain ⟨rfl, rfl⟩ := h
          refine ⟨⟨hlss, hcalls, .inr (.inl ⟨sig, e2, .inl (by simp [VState.setPhase])⟩)⟩, ?_, fun _ _ _ _ e => (by cases e),
            fun _ _ e => (by cases e)⟩
          intro e
          simp [VState.setPhase] at e
        all_goals exact idle (by simp only [VState.step, h1])
    | save id =>
      simp only [VEv.actor, Option.some.injEq] at hact
      subst hact
      rcases hi.call with h1 | ⟨sig, hver, h1 | h1⟩ | h1
      · exact idle (by simp only [VState.step, h1])
      · have hle := save_le (l := v.lss) (r := q.block.record sig) hi.lss
        obtain ⟨lss', hst⟩ : ∃ lss', v.step C vcfg (.save q.id) = (.tau, ({ v with lss := lss' } : VState).setPhase q.id q.block (.emit sig)) := by
          simp only [VState.step, h1]
          generalize v.lss.save (q.block.record sig) = y at hle
          obtain ⟨e, l⟩ := y
          rcases hle with hle | ⟨z, hle⟩ <;> simp only at hle <;> subst hle <;> exact ⟨l, rfl⟩
        rw [hst] at h
        simp only [Prod.mk.injEq] at h
        obtain ⟨rfl, rfl⟩ := h
        refine ⟨⟨hlss, hcalls, .inr (.inl ⟨sig, hver, .inr (by simp [VState.setPhase])⟩)⟩, ?_, fun _ _ _ _ e => (by cases e),
            fun _ _ e => (by cases e)⟩
        intro e
        simp [VState.setPhase] at e
      all_goals exact idle (by simp only [VState.step, h1])
    | emit id =>
      simp only [VEv.actor, Option.some.injEq] at hact
      subst hact
      rcases hi.call with h1 | ⟨sig, hver, h1 | h1⟩ | h1
      · exact idle (by simp only [VState.step, h1])
      · exact idle (by simp only [VState.step, h1])
      · simp only [VState.step, h1, Prod.mk.injEq] at h
        obtain ⟨rfl, rfl⟩ := h
        have hg : GoodRet C pub q (.ret q.id q.block (some sig) q.block.timestamp none) := ⟨sig, rfl, hver⟩
        exact ⟨⟨hlss, hcalls, .inr (.inr (by simp [VState.finish]))⟩, fun _ => .inr hg, fun _ _ _ _ _ => hg,
          fun _ _ e => (by cases e)⟩
      · exact idle (by simp only [VState.step, h1])
  · have hc := calls_other C vcfg h q.id hact
    refine ⟨⟨hlss, hcalls, ?_⟩, ?_, ?_, ?_⟩
    · unfold CallInv; rw [hc]; exact hi.call
    · rw [hc]; exact .inl
    · intro b sig stamp e he
      exact absurd (vout_actor h q.id (.inl ⟨b, sig, stamp, e, he⟩)) hact
    · intro b again he
      exact hact (vout_actor h q.id (.inr ⟨b, again, he⟩))

end

/-! ### The cluster -/

section
variable {C : Crypto} {F G : Type} [Field F] [AddCommGroup G] [Module F G] {L : Lawful C F G}
  {pair : Bytes → Bytes → Prop} {n t : Nat} {cfg : Nat → CosignerCfg} {x : F} {kc : List F} {rsaPub : Nat → Bytes}
  {q : Signing}

/-- The returned calls: those of before, and of the call of `q` only good ones. -/
def OutsInv (C : Crypto) (pub : Bytes) (q : Signing) (base : List (Nat × VOut)) (v : VState) (outs : List (Nat × VOut)) : Prop :=
  ∃ new, outs = base ++ new ∧
    (∀ o, (q.leader, o) ∈ new → ∀ b sig stamp e, o = .ret q.id b sig stamp e → GoodRet C pub q o) ∧
    (v.calls q.id = none → ∃ o, (q.leader, o) ∈ new ∧ GoodRet C pub q o)

/-- What holds while the round of `q` goes on. -/
structure MInv (L : Lawful C F G) (n t : Nat) (cfg : Nat → CosignerCfg) (x : F) (kc : List F) (rsaPub : Nat → Bytes) (q : Signing)
    (base : List (Nat × VOut)) (sec r : Nat → Bytes) (H : List Nat) (s : Net) (g : Progress) : Prop where
  sub : ∀ p ∈ H, p ∈ q.ps ∧ (sec p).length = 32
  cos : ∀ p ∈ q.ps, CosInv L n t cfg x kc rsaPub q sec r H p (s.cs p) (g.parts p) (g.had p)
  sent : ∀ p ∈ q.ps, ∀ res, (p, q.block.signBytes, res) ∈ s.sent → GoodRes L n t x kc q sec r H p res
  table : ∀ p res, s.table q.leader q.id p = some res → p ∈ q.ps ∧ GoodRes L n t x kc q sec r H p res
  lead : LeadInv C (L.pt (x • L.B)) q (s.vs q.leader)
  outs : OutsInv C (L.pt (x • L.B)) q base (s.vs q.leader) s.outs

theorem act_outs (C : Crypto) (vcfg : ValidatorCfg) (s : Net) (p : Nat) (ev : VEv) :
    (s.act C vcfg p ev).outs = s.outs ∧ (∀ id b sig stamp e, ((s.vs p).step C vcfg ev).1 ≠ .ret id b sig stamp e) ∨
    (s.act C vcfg p ev).outs = s.outs ++ [(p, ((s.vs p).step C vcfg ev).1)] := by
  unfold Net.act
  simp only
  split
  · next h => exact .inl ⟨rfl, by simp [h]⟩
  · next h => exact .inl ⟨rfl, by simp [h]⟩
  · next h => exact .inr rfl

/-- A step of a validator. -/
theorem MInv.act {vcfg : ValidatorCfg} {base : List (Nat × VOut)} {sec r : Nat → Bytes} {H : List Nat} {s : Net} {g : Progress}
    (h : MInv L n t cfg x kc rsaPub q base sec r H s g) (p : Nat) (ev : VEv)
    (ha : p = q.leader → VAllowed C vcfg (L.pt (x • L.B)) q (s.vs q.leader) ev) :
    MInv L n t cfg x kc rsaPub q base sec r H (s.act C vcfg p ev) g := by
  obtain ⟨f1, f2, _, f4, _, f6⟩ := act_fields (C := C) (vcfg := vcfg) s p ev
  have hvs : p ≠ q.leader → (s.act C vcfg p ev).vs q.leader = s.vs q.leader := by
    intro hp; rw [f4]; simp only [if_neg (Ne.symm hp)]
  have htab : ∀ j res, (s.act C vcfg p ev).table q.leader q.id j = some res →
      j ∈ q.ps ∧ GoodRes L n t x kc q sec r H j res := fun j res hj => h.table j res (f6 _ _ _ _ hj).1
  have hcos : ∀ p' ∈ q.ps, CosInv L n t cfg x kc rsaPub q sec r H p' ((s.act C vcfg p ev).cs p') (g.parts p') (g.had p') := by
    rw [f1]; exact h.cos
  have hsent : ∀ p' ∈ q.ps, ∀ res, (p', q.block.signBytes, res) ∈ (s.act C vcfg p ev).sent →
      GoodRes L n t x kc q sec r H p' res := by
    rw [f2]; exact h.sent
  obtain ⟨new, o1, o2, o3⟩ := h.outs
  by_cases hp : p = q.leader
  · subst hp
    generalize hst : (s.vs q.leader).step C vcfg ev = y
    obtain ⟨out, v'⟩ := y
    obtain ⟨l1, l2, l3, _⟩ := lead_step hst h.lead (ha rfl)
    have hv : (s.act C vcfg q.leader ev).vs q.leader = v' := by rw [f4]; simp [hst]
    refine ⟨h.sub, hcos, hsent, htab, by rw [hv]; exact l1, ?_⟩
    rw [hv]
    rcases act_outs C vcfg s q.leader ev with ⟨e1, e2⟩ | e1
    · rw [e1]
      refine ⟨new, o1, o2, fun hn => ?_⟩
      rcases l2 hn with hn | ⟨sig, hg, _⟩
      · exact o3 hn
      · exact absurd (by rw [hst]; exact hg) (e2 _ _ _ _ _)
    · rw [hst] at e1
      rw [e1]
      refine ⟨new ++ [(q.leader, out)], by rw [o1, List.append_assoc], ?_, ?_⟩
      · intro o ho b sig stamp e he
        rcases List.mem_append.1 ho with ho | ho
        · exact o2 o ho b sig stamp e he
        · simp only [List.mem_singleton, Prod.mk.injEq, true_and] at ho
          subst ho
          exact l3 b sig stamp e he
      · intro hn
        rcases l2 hn with hn | hg
        · obtain ⟨o, a, b⟩ := o3 hn
          exact ⟨o, List.mem_append_left _ a, b⟩
        · exact ⟨out, by simp, hg⟩
  · refine ⟨h.sub, hcos, hsent, htab, by rw [hvs hp]; exact h.lead, ?_⟩
    rw [hvs hp]
    rcases act_outs C vcfg s p ev with ⟨e1, _⟩ | e1
    · rw [e1]; exact ⟨new, o1, o2, o3⟩
    · rw [e1]
      refine ⟨new ++ [_], by rw [o1, List.append_assoc], ?_, fun hn => ?_⟩
      · intro o ho b sig stamp e he
        rcases List.mem_append.1 ho with ho | ho
        · exact o2 o ho b sig stamp e he
        · simp only [List.mem_singleton, Prod.mk.injEq] at ho
          exact absurd ho.1.symm hp
      · obtain ⟨o, a, b⟩ := o3 hn
        exact ⟨o, List.mem_append_left _ a, b⟩

/-- With all answers the leader gets a signature. -/
theorem MInv.assemble (hS : Setup C L pair n t cfg x kc rsaPub) (hq : Able n t q) {base : List (Nat × VOut)}
    {sec r : Nat → Bytes} {H : List Nat} {s : Net} {g : Progress} (h : MInv L n t cfg x kc rsaPub q base sec r H s g)
    (hall : ∀ j ∈ q.ps, s.table q.leader q.id j ≠ none) :
    ∃ sig, assemble C t (L.pt (x • L.B)) q.block.signBytes (s.shares n q.leader q.id).1 (s.shares n q.leader q.id).2 = .ok sig ∧
      C.verify (L.pt (x • L.B)) q.block.signBytes sig = true := by
  have h1 : (s.shares n q.leader q.id).1 = (List.range n).map fun i =>
      if i + 1 ∈ q.ps then L.sc (shareSig L n t sec r q.ps x kc q.block.signBytes (i + 1)) else [] := by
    unfold Net.shares
    refine List.map_congr_left fun i _ => ?_
    by_cases hi : i + 1 ∈ q.ps
    · obtain ⟨res, hres⟩ := Option.ne_none_iff_exists'.1 (hall _ hi)
      rw [if_pos hi, hres]
      simp only [(h.table _ _ hres).2.sig, Slice.bytes, Option.getD_some]
    · rw [if_neg hi]
      cases hres : s.table q.leader q.id (i + 1) with
      | none => rfl
      | some res => exact absurd (h.table _ _ hres).1 hi
  have h2 : (s.shares n q.leader q.id).2 = L.pt (jointR L n sec q.ps) := by
    unfold Net.shares
    obtain ⟨res, hres⟩ := Option.ne_none_iff_exists'.1 (hall _ hq.leads)
    simp only [hres, (h.table _ _ hres).2.eph, Slice.bytes, Option.getD_some]
  rw [h1, h2]
  have := assemble_honest hS hq.nodup hq.ids hq.quorum (sec := sec) (r := r) (bs := q.block.signBytes)
  exact ⟨_, this, assemble_verifies this⟩

/-- New nonces for one more participant. -/
theorem MInv.mono {base : List (Nat × VOut)} {sec r sec' r' : Nat → Bytes} {H : List Nat} {s : Net} {g : Progress}
    (h : MInv L n t cfg x kc rsaPub q base sec r H s g) {p : Nat} (hp : p ∈ q.ps) (hl : (sec' p).length = 32)
    (ha : ∀ j ∈ H, sec' j = sec j ∧ r' j = r j) {c : CState} {parts had}
    (hc : CosInv L n t cfg x kc rsaPub q sec' r' (p :: H) p c parts had) :
    MInv L n t cfg x kc rsaPub q base sec' r' (p :: H) { s with cs := fun j => if j = p then c else s.cs j }
      ⟨fun j => if j = p then parts else g.parts j, fun j => if j = p then had else g.had j⟩ := by
  have hH : ∀ j ∈ H, j ∈ p :: H := fun j hj => List.mem_cons_of_mem _ hj
  refine ⟨?_, ?_, fun j hj res hr => (h.sent j hj res hr).mono hH ha,
    fun j res hr => ⟨(h.table j res hr).1, (h.table j res hr).2.mono hH ha⟩, h.lead, h.outs⟩
  · intro j hj
    by_cases e : j = p
    · subst e; exact ⟨hp, hl⟩
    · rcases List.mem_cons.1 hj with hj | hj
      · exact absurd hj e
      · rw [(ha j hj).1]; exact h.sub j hj
  · intro j hj
    by_cases e : j = p
    · subst e; simp only [if_true]; exact hc
    · simp only [if_neg e]
      refine (h.cos j hj).mono hH ha fun hm => ?_
      rcases List.mem_cons.1 hm with hm | hm
      · exact absurd hm e
      · exact hm

/-- The state of one cosigner changes. -/
theorem MInv.cosigner {base : List (Nat × VOut)} {sec r : Nat → Bytes} {H : List Nat} {s : Net} {g : Progress}
    (h : MInv L n t cfg x kc rsaPub q base sec r H s g) {p : Nat} {c : CState} {parts had}
    (hc : p ∈ q.ps → CosInv L n t cfg x kc rsaPub q sec r H p c parts had)
    (sent : List (Nat × Bytes × SignRes))
    (hsent : ∀ e ∈ sent, e ∈ s.sent ∨ (e.1 = p ∧ (p ∈ q.ps → e.2.1 = q.block.signBytes → GoodRes L n t x kc q sec r H p e.2.2))) :
    MInv L n t cfg x kc rsaPub q base sec r H { s with cs := fun j => if j = p then c else s.cs j, sent := sent }
      ⟨fun j => if j = p then parts else g.parts j, fun j => if j = p then had else g.had j⟩ := by
  refine ⟨h.sub, ?_, ?_, h.table, h.lead, h.outs⟩
  · intro j hj
    by_cases e : j = p
    · subst e; simp only [if_true]; exact hc hj
    · simp only [if_neg e]; exact h.cos j hj
  · intro j hj res hr
    rcases hsent _ hr with hr | ⟨rfl, hr⟩
    · exact h.sent j hj res hr
    · exact hr hj rfl

theorem progress_self (g : Progress) (p : Nat) :
    (⟨fun j => if j = p then g.parts p else g.parts j, fun j => if j = p then g.had p else g.had j⟩ : Progress) = g := by
  obtain ⟨a, b⟩ := g
  simp only [Progress.mk.injEq]
  constructor <;> funext j <;> by_cases e : j = p <;> simp [e]

/-- Everything that may happen keeps the invariant. -/
theorem MInv.step (hS : Setup C L pair n t cfg x kc rsaPub) (hq : Able n t q) {chainID : Bytes} {base : List (Nat × VOut)}
    {sec r : Nat → Bytes} {H : List Nat} {s s' : Net} {g : Progress} (h : MInv L n t cfg x kc rsaPub q base sec r H s g) {e : NetEv}
    (ha : Allowed chainID n q s g e) (hs : s.step C ⟨t, L.pt (x • L.B)⟩ cfg n chainID e = some s') :
    ∃ sec' r' H', MInv L n t cfg x kc rsaPub q base sec' r' H' s' (g.next C cfg q s e) := by
  cases e with
  | call p id b role =>
    simp only [Net.step, Option.some.injEq] at hs
    subst hs
    exact ⟨sec, r, H, h.act p _ ha⟩
  | passOn p id l id' role =>
    simp only [Net.step] at hs
    split at hs
    · next b hc =>
      split at hs
      · next c b' hr =>
        simp only [Option.some.injEq] at hs
        subst hs
        exact ⟨sec, r, H, h.act l _ fun hl => ⟨(ha hl).1, (ha hl).2 b b' c hc hr⟩⟩
      · cases hs
    · cases hs
  | reply p id i =>
    simp only [Net.step] at hs
    split at hs
    · split at hs
      · split at hs
        · simp only [Option.some.injEq] at hs
          subst hs
          exact ⟨sec, r, H, h.act p _ fun _ => trivial⟩
        · cases hs
      · cases hs
    · cases hs
  | lost p id e =>
    simp only [Net.step, Option.some.injEq] at hs
    subst hs
    exact ⟨sec, r, H, h.act p _ fun _ => trivial⟩
  | poll p id =>
    simp only [Net.step, Option.some.injEq] at hs
    subst hs
    exact ⟨sec, r, H, h.act p _ fun _ => trivial⟩
  | lookup p id =>
    simp only [Net.step, Option.some.injEq] at hs
    subst hs
    exact ⟨sec, r, H, h.act p _ fun _ => trivial⟩
  | answer p id i =>
    simp only [Net.step] at hs
    split at hs
    · next b p' bs res hc hi =>
      split at hs
      · next hb =>
        simp only [Option.some.injEq] at hs
        subst hs
        refine ⟨sec, r, H, h.sub, h.cos, h.sent, ?_, h.lead, h.outs⟩
        intro j res' hj
        simp only at hj
        split at hj
        · next e =>
          obtain ⟨e1, e2, rfl⟩ := e
          cases hj
          have hps := ha e1.symm e2.symm j bs res hi
          refine ⟨hps, h.sent j hps _ ?_⟩
          have hbk : b = q.block := by
            rw [← e1, ← e2] at hc
            rcases h.lead.call with h1 | ⟨_, _, h1 | h1⟩ | h1 <;> rw [h1] at hc <;> cases hc
            rfl
          rw [← hbk, ← hb]
          exact List.mem_of_getElem? hi
        · exact h.table j res' hj
      · cases hs
    · cases hs
  | assemble p id =>
    simp only [Net.step, Option.some.injEq] at hs
    subst hs
    refine ⟨sec, r, H, h.act p _ fun hp hid _ => ?_⟩
    subst hp
    subst hid
    exact h.assemble hS hq (ha rfl rfl)
  | giveUp p id e =>
    simp only [Net.step, Option.some.injEq] at hs
    subst hs
    exact ⟨sec, r, H, h.act p _ fun hp hid => ha ⟨hp, hid⟩⟩
  | save p id =>
    simp only [Net.step] at hs
    split at hs
    · simp only [Option.some.injEq] at hs
      subst hs
      have := h.act (vcfg := ⟨t, L.pt (x • L.B)⟩) p (.save id) fun _ => trivial
      exact ⟨sec, r, H, this.sub, this.cos, this.sent, this.table, this.lead, this.outs⟩
    · cases hs
  | emit p id =>
    simp only [Net.step, Option.some.injEq] at hs
    subst hs
    exact ⟨sec, r, H, h.act p _ fun _ => trivial⟩
  | lie p bs res =>
    simp only [Net.step, Option.some.injEq] at hs
    subst hs
    refine ⟨sec, r, H, h.sub, h.cos, ?_, h.table, h.lead, h.outs⟩
    intro j hj res' hm
    rcases List.mem_append.1 hm with hm | hm
    · exact h.sent j hj res' hm
    · simp only [List.mem_singleton, Prod.mk.injEq] at hm
      exact absurd (hm.1 ▸ hj) ha
  | deliver p r' =>
    simp only [Net.step] at hs
    split at hs
    · simp only [Option.some.injEq] at hs
      subst hs
      exact ⟨sec, r, H, h.act p _ ha⟩
    · cases hs
  | restart p lv lc =>
    simp only [Net.step, Option.some.injEq] at hs
    subst hs
    have hne : ∀ j ∈ q.ps, j ≠ p := fun j hj e => ha (e ▸ hj)
    refine ⟨sec, r, H, h.sub, fun j hj => ?_, h.sent, h.table, ?_, ?_⟩
    · simp only [if_neg (hne j hj)]; exact h.cos j hj
    · simp only [if_neg (hne _ hq.leads)]; exact h.lead
    · simp only [if_neg (hne _ hq.leads)]; exact h.outs
  | cos p op =>
    by_cases hp : p ∈ q.ps
    · obtain ⟨hp1, hp2⟩ := hq.ids p hp
      have hc := h.cos p hp
      rcases ha hp with hlow | hin
      · -- a lower block
        have hc' := hc.lower (c' := ((s.cs p).step C (cfg p) op).2) (out := ((s.cs p).step C (cfg p) op).1) rfl hlow
        have hnext : g.next C cfg q s (.cos p op) = g := by
          cases op with
          | getPart req rnd =>
            have hk : req.key ≠ q.block.key := ne_of_lower (h := q.block.hrs) rfl hlow
            simp only [Progress.next]
            split
            · rw [if_neg hk]
            · rfl
          | setPart req rnd =>
            have hk : req.key ≠ q.block.key := ne_of_lower (h := q.block.hrs) rfl hlow
            simp only [Progress.next, if_neg hk]
          | sign bs => rfl
          | saveLSS r => rfl
        rw [hnext]
        refine ⟨sec, r, H, ?_⟩
        simp only [Net.step] at hs
        split at hs
        · next _ bs y _ =>
          simp only [Option.some.injEq] at hs
          subst hs
          have := h.cosigner (p := p) (fun _ => hc') (s.sent ++ [(p, bs, y)]) (by
            intro e he
            rcases List.mem_append.1 he with he | he
            · exact .inl he
            · simp only [List.mem_singleton] at he
              subst he
              refine .inr ⟨rfl, fun _ hbs => ?_⟩
              simp only at hbs
              subst hbs
              exact absurd (hlow _ hq.bytes) (HRS.lt_irrefl _))
          rw [progress_self] at this
          exact this
        · simp only [Option.some.injEq] at hs
          subst hs
          have := h.cosigner (p := p) (fun _ => hc') s.sent (fun e he => .inl he)
          rw [progress_self] at this
          exact this
      · cases hin with
        | get i rnd h1 h2 hr =>
          obtain ⟨sec', r', part, c', g1, g2, g3, _, g5⟩ := hc.get hS hp1 hp2 (fun j hj => (h.sub j hj).2) h1 h2 hr
          simp only [Net.step, CState.step, g1, Option.some.injEq] at hs
          subst hs
          refine ⟨sec', r', p :: H, ?_⟩
          have := h.mono hp g3 g2 g5
          simp only [Progress.next, g1, getKey, if_true]
          convert this using 2
          · funext j; by_cases e : j = p <;> simp [e]
          · funext j; by_cases e : j = p <;> simp [e]
        | set j a rnd hj hne hx hd hown =>
          obtain ⟨i, h1, h2, hpart⟩ := (h.cos j hj).handed a hx
          have hip : i = p := by have := hpart.dest; rw [hd] at this; exact_mod_cast this.symm
          subst hip
          have hjH : j ∈ H := by
            rcases (h.cos j hj).state with ⟨_, _, _, e, _⟩ | ⟨hjH, _⟩
            · rw [e] at hx; cases hx
            · exact hjH
          obtain ⟨c', g1, g2⟩ := hc.set hS hp1 hp2 hown (hq.ids j hj).1 (hq.ids j hj).2 hjH hpart rnd
          simp only [Net.step, CState.step, g1, Option.some.injEq] at hs
          subst hs
          refine ⟨sec, r, H, ?_⟩
          have := h.cosigner (p := i) (fun _ => g2) s.sent (fun e he => .inl he)
          have hkey : SetPartReq.key (a.toSetReq q.block.key) = q.block.key := by
            unfold SetPartReq.key SecretPart.toSetReq
            simp only [ofUnixNano_unixNano (show IsI64 q.block.key.timestamp from unixNano_isI64 _)]
          have hsrc : (a.toSetReq q.block.key).sourceID.toNat = j := by
            have : (a.toSetReq q.block.key).sourceID = (j : Int) := hpart.source
            rw [this]; rfl
          simp only [Progress.next, hkey, if_true, hsrc]
          convert this using 2
          · funext j; by_cases e : j = i <;> simp [e]
          · funext j; by_cases e : j = i <;> simp [e]
        | sign hown hall =>
          obtain ⟨res, c', g1, g2, g3⟩ := hc.sign hS hq.bytes (fun j hj => (h.sub j hj).1) hp1 hp2 hown hall
          simp only [Net.step, CState.step, g1, Out.map, Option.some.injEq] at hs
          subst hs
          refine ⟨sec, r, H, ?_⟩
          have := h.cosigner (p := p) (fun _ => g3) (s.sent ++ [(p, q.block.signBytes, res)]) (by
            intro e he
            rcases List.mem_append.1 he with he | he
            · exact .inl he
            · simp only [List.mem_singleton] at he
              subst he
              exact .inr ⟨rfl, fun _ _ => g2⟩)
          rw [progress_self] at this
          exact this
    · -- another cosigner
      refine ⟨sec, r, H, ?_⟩
      have key : ∀ (g' : Progress), (∀ j, j ≠ p → g'.parts j = g.parts j ∧ g'.had j = g.had j) →
          MInv L n t cfg x kc rsaPub q base sec r H s' g' := by
        intro g' hg'
        have hne : ∀ j ∈ q.ps, j ≠ p := fun j hj e => hp (e ▸ hj)
        simp only [Net.step] at hs
        split at hs
        · next _ bs y _ =>
          simp only [Option.some.injEq] at hs
          subst hs
          refine ⟨h.sub, fun j hj => ?_, fun j hj res hm => ?_, h.table, h.lead, h.outs⟩
          · simp only [if_neg (hne j hj)]; rw [(hg' j (hne j hj)).1, (hg' j (hne j hj)).2]; exact h.cos j hj
          · rcases List.mem_append.1 hm with hm | hm
            · exact h.sent j hj res hm
            · simp only [List.mem_singleton, Prod.mk.injEq] at hm
              exact absurd hm.1 (hne j hj)
        · simp only [Option.some.injEq] at hs
          subst hs
          refine ⟨h.sub, fun j hj => ?_, h.sent, h.table, h.lead, h.outs⟩
          simp only [if_neg (hne j hj)]; rw [(hg' j (hne j hj)).1, (hg' j (hne j hj)).2]; exact h.cos j hj
      refine key _ fun j hj => ?_
      cases op with
      | getPart req rnd =>
        simp only [Progress.next]
        split
        · split
          · simp only [if_neg hj, and_self]
          · exact ⟨rfl, rfl⟩
        · exact ⟨rfl, rfl⟩
      | setPart req rnd =>
        simp only [Progress.next]
        split
        · simp only [if_neg hj, and_self]
        · exact ⟨rfl, rfl⟩
      | sign bs => exact ⟨rfl, rfl⟩
      | saveLSS r => exact ⟨rfl, rfl⟩

theorem MInv.serving (hS : Setup C L pair n t cfg x kc rsaPub) (hq : Able n t q) {chainID : Bytes} {base : List (Nat × VOut)}
    {s0 s : Net} {g0 g : Progress} (h0 : ∃ sec r H, MInv L n t cfg x kc rsaPub q base sec r H s0 g0)
    (hs : Serving C ⟨t, L.pt (x • L.B)⟩ cfg n chainID q s0 g0 s g) :
    ∃ sec r H, MInv L n t cfg x kc rsaPub q base sec r H s g := by
  induction hs with
  | refl => exact h0
  | step e _ ha hs ih =>
    obtain ⟨sec, r, H, ih⟩ := ih
    exact ih.step hS hq ha hs

/-- Cosigners of reachable states have valid references. -/
theorem net_ok {vcfg : ValidatorCfg} {chainID : Bytes} {s s' : Net} {e : NetEv} (h : ∀ p, (s.cs p).Ok)
    (hs : s.step C vcfg cfg n chainID e = some s') : ∀ p, (s'.cs p).Ok := by
  have hact : ∀ p ev, ∀ j, ((s.act C vcfg p ev).cs j).Ok := by
    intro p ev j
    rw [(act_fields (C := C) (vcfg := vcfg) s p ev).1]
    exact h j
  cases e with
  | cos p op =>
    intro j
    have hj : (((s.cs p).step C (cfg p) op).2).Ok := step_ok rfl (h p)
    simp only [Net.step] at hs
    split at hs <;> simp only [Option.some.injEq] at hs <;> subst hs <;> simp only <;> by_cases e : j = p <;>
      simp only [e, if_true, if_false] <;> first | exact hj | exact h j
  | restart p lv lc =>
    intro j
    simp only [Net.step, Option.some.injEq] at hs
    subst hs
    by_cases e : j = p <;> simp only [e, if_true, if_false]
    · exact start_ok _
    · exact h j
  | _ =>
    simp only [Net.step] at hs
    (repeat' split at hs) <;> first
      | (simp only [Option.some.injEq] at hs; subst hs; first | exact hact _ _ | exact h)
      | cases hs

theorem net_run_ok {vcfg : ValidatorCfg} {chainID : Bytes} {es : List NetEv} : ∀ {s s' : Net}, (∀ p, (s.cs p).Ok) →
    s.run C vcfg cfg n chainID es = some s' → ∀ p, (s'.cs p).Ok := by
  induction es with
  | nil => intro s s' h hr; simp only [Net.run, Option.some.injEq] at hr; subst hr; exact h
  | cons e es ih =>
    intro s s' h hr
    simp only [Net.run, Option.bind_eq_some_iff] at hr
    obtain ⟨s1, h1, h2⟩ := hr
    exact ih (net_ok h h1) h2

/-- The call starts a round. -/
theorem MInv.start {vcfg : ValidatorCfg} {s : Net} (hok : ∀ p, (s.cs p).Ok) (hr : Ready q s) :
    MInv L n t cfg x kc rsaPub q s.outs (fun _ => []) (fun _ => []) [] (s.act C vcfg q.leader (.call q.id q.block .leader)) .none := by
  have hst : (s.vs q.leader).step C vcfg (.call q.id q.block .leader) =
      (.startRound q.id q.block false, ({ s.vs q.leader with
        init := ((s.vs q.leader).init.save (SSC.new q.block.height q.block.round q.block.step)).2 } : VState).setPhase q.id q.block .round) := by
    simp only [VState.step, hr.free]
    have hsv := SignState.save_ok (s.vs q.leader).init (SSC.new q.block.height q.block.round q.block.step) hr.init
    rw [hsv]
  obtain ⟨f1, f2, _, f4, _, f6⟩ := act_fields (C := C) (vcfg := vcfg) s q.leader (.call q.id q.block .leader)
  have hvs : (s.act C vcfg q.leader (.call q.id q.block .leader)).vs q.leader = ({ s.vs q.leader with
        init := ((s.vs q.leader).init.save (SSC.new q.block.height q.block.round q.block.step)).2 } : VState).setPhase q.id q.block .round := by
    rw [f4]; simp [hst]
  refine ⟨by simp, ?_, ?_, ?_, ?_, ?_⟩
  · intro p hp
    rw [f1]
    exact ⟨hok p, by simp [Progress.none], .inl ⟨by simp, hr.recs p hp, hr.lss p hp, rfl, rfl⟩⟩
  · intro p hp res hm
    rw [f2] at hm
    exact absurd hm (hr.sent p hp res)
  · intro p res hm
    exact absurd ⟨rfl, q.block, false, by rw [hst]⟩ (f6 _ _ _ _ hm).2
  · rw [hvs]
    refine ⟨HRS.le_of_lt hr.vlss, ?_, .inl (by simp [VState.setPhase])⟩
    intro j b ph hj hc
    simp only [VState.setPhase, if_neg hj] at hc
    exact hr.calls j b ph hc
  · rw [hvs]
    refine ⟨[], ?_, by simp, ?_⟩
    · unfold Net.act
      simp only [hst, List.append_nil]
    · intro hn
      simp [VState.setPhase] at hn

end
end Horcrux
