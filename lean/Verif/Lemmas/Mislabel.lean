import Verif.Lemmas.System
/-
A round for a block whose sign bytes are for another height, round or step.
-/
namespace Horcrux
open Spec

/-- Parts were dealt and set for `h` only; nothing was signed. -/
structure DealtFor (h : HRS) (s s' : CState) : Prop where
  lss : s'.lss = s.lss
  recs : ∀ k, k.hrs ≠ h → s.hrsMeta k = none → s'.hrsMeta k = none

theorem DealtFor.refl (h : HRS) (s : CState) : DealtFor h s s := ⟨rfl, fun _ _ h => h⟩

theorem DealtFor.trans {h : HRS} {s s1 s2 : CState} (a : DealtFor h s s1) (b : DealtFor h s1 s2) : DealtFor h s s2 :=
  ⟨b.lss.trans a.lss, fun k hk h0 => b.recs k hk (a.recs k hk h0)⟩

theorem getPart_dealt {C : Crypto} {cfg : CosignerCfg} {s : CState} {req : GetPartReq} {rnd : Rand} :
    DealtFor ⟨req.height, req.round, req.step⟩ s (getPart C cfg s req rnd).2 := by
  have hp := getPart_step (C := C) (cfg := cfg) (s := s) (req := req) (rnd := rnd) rfl
  refine ⟨hp.lss, fun k hk h0 => ?_⟩
  cases h1 : (getPart C cfg s req rnd).2.hrsMeta k with
  | none => rfl
  | some ref =>
    rcases hp.maps.2.1 k ref h1 with h2 | ⟨h2, _⟩ | ⟨h2, _⟩
    · rw [h0] at h2; cases h2
    · rw [h2] at hk; exact absurd rfl hk
    · rcases h2 with h2 | h2 <;> rw [h2] at hk <;> exact absurd rfl hk

theorem setPart_dealt {C : Crypto} {cfg : CosignerCfg} {s : CState} {req : SetPartReq} {rnd : Rand} :
    DealtFor ⟨req.height, req.round, req.step⟩ s (setPart C cfg s req rnd).2 := by
  have hp := (setPart_step (C := C) (cfg := cfg) (s := s) (req := req) (rnd := rnd) rfl).2
  refine ⟨hp.lss, fun k hk h0 => ?_⟩
  cases h1 : (setPart C cfg s req rnd).2.hrsMeta k with
  | none => rfl
  | some ref =>
    rcases hp.maps.2.1 k ref h1 with h2 | ⟨h2, _⟩ | ⟨h2, _⟩
    · rw [h0] at h2; cases h2
    · rw [h2] at hk; exact absurd rfl hk
    · rcases h2 with h2 | h2 <;> rw [h2] at hk <;> exact absurd rfl hk

theorem getPartsLoop_dealt {C : Crypto} {cfg : CosignerCfg} {k : HRST} :
    ∀ (order : List Int) (rnd : Nat → Rand) (s : CState) (acc : List SecretPart),
      DealtFor k.hrs s (getPartsLoop C cfg k order rnd s acc).2 := by
  intro order
  induction order with
  | nil => intro rnd s acc; exact .refl _ _
  | cons p order ih =>
    intro rnd s acc
    simp only [getPartsLoop]
    split
    · exact ih _ _ _
    · have h1 : DealtFor k.hrs s
          (getPart C cfg s ⟨p, k.height, k.round, k.step, GoTime.ofUnixNano k.timestamp⟩ (rnd 0)).2 :=
        getPart_dealt (req := ⟨p, k.height, k.round, k.step, GoTime.ofUnixNano k.timestamp⟩)
      generalize getPart C cfg s ⟨p, k.height, k.round, k.step, GoTime.ofUnixNano k.timestamp⟩ (rnd 0) = x at h1
      obtain ⟨o, s'⟩ := x
      cases o with
      | ok part => exact h1.trans (ih _ _ _)
      | err e => exact h1
      | panic => exact h1

theorem getParts_dealt {C : Crypto} {cfg : CosignerCfg} {k : HRST} (order : List Int) (rnd : Nat → Rand) (s : CState) :
    DealtFor k.hrs s (getParts C cfg k order rnd s).2 := by
  unfold getParts
  split
  · exact .refl _ _
  · exact getPartsLoop_dealt _ _ _ _

/-- Either setting a part fails, or the sign bytes are signed afterwards. -/
theorem setPartsAndSign_dealt {C : Crypto} {cfg : CosignerCfg} {k : HRST} {bs : Bytes} :
    ∀ (parts : List SecretPart) (rnd : Nat → Rand) (s : CState), ∃ s1, DealtFor k.hrs s s1 ∧
      (setPartsAndSign C cfg k bs parts rnd s = sign C cfg s1 bs ∨
        (setPartsAndSign C cfg k bs parts rnd s).2 = s1 ∧ ∀ r, (setPartsAndSign C cfg k bs parts rnd s).1 ≠ .ok r) := by
  intro parts
  induction parts with
  | nil => intro rnd s; exact ⟨s, .refl _ _, .inl rfl⟩
  | cons p parts ih =>
    intro rnd s
    simp only [setPartsAndSign]
    have h1 : DealtFor k.hrs s (setPart C cfg s (p.toSetReq k) (rnd 0)).2 :=
      setPart_dealt (req := p.toSetReq k)
    generalize setPart C cfg s (p.toSetReq k) (rnd 0) = x at h1
    obtain ⟨o, s'⟩ := x
    cases o with
    | ok part =>
      obtain ⟨s1, h2, h3⟩ := ih (fun n => rnd (n + 1)) s'
      exact ⟨s1, h1.trans h2, h3⟩
    | err e => exact ⟨s', h1, .inr ⟨rfl, by simp⟩⟩
    | panic => exact ⟨s', h1, .inr ⟨rfl, by simp⟩⟩

/-- A cosigner does not sign what it has no record for. -/
theorem sign_unknown {C : Crypto} {cfg : CosignerCfg} {s : CState} {bs : Bytes}
    (h : ∀ k, unpackHRST bs = .ok k → s.hrsMeta k = none ∧ s.lss.hrs ≠ k.hrs) :
    (∀ r, (sign C cfg s bs).1 ≠ .ok r) ∧ (sign C cfg s bs).2 = s := by
  unfold sign
  cases hu : unpackHRST bs with
  | panic => simp
  | err e => simp
  | ok k =>
    obtain ⟨h1, h2⟩ := h k hu
    simp only
    cases hc : s.lss.checkHRS k with
    | panic => simp
    | err e => simp
    | ok b =>
      cases b with
      | false => simp [signFresh, h1]
      | true =>
        refine absurd ?_ h2
        unfold SignState.checkHRS at hc
        unfold SignState.hrs HRST.hrs
        (repeat' split at hc) <;> simp_all

theorem collectSigs_none : ∀ (l : List Bytes) (i : Nat), (∀ b ∈ l, b = []) → collectSigs i l = ([], []) := by
  intro l
  induction l with
  | nil => intro i _; rfl
  | cons b l ih =>
    intro i h
    unfold collectSigs
    simp only [h b (by simp), List.length_nil, if_true]
    exact ih _ fun c hc => h c (by simp [hc])

/-- Nobody signs, so there are not enough share signatures. -/
theorem assemble_none {C : Crypto} {t : Int} (ht : 1 ≤ t) {pub bs eph : Bytes} {l : List Bytes} (h : ∀ b ∈ l, b = []) :
    assemble C t pub bs l eph = .err .notEnoughCosigners := by
  unfold assemble
  simp only [collectSigs_none l 0 h, List.length_nil]
  rw [if_pos (by simp; omega)]

/-- A round for a mislabelled block that nobody has nonces for. -/
theorem round_unknown {C : Crypto} {cfg : Nat → CosignerCfg} {ps : List Nat} {leader n : Nat} {k : HRST} {bs : Bytes}
    {order : Nat → List Int} {mapOrder : Nat → List Nat} {rnd1 rnd2 : Nat → Nat → Rand} {st : Nat → CState}
    (hk : ∀ k', unpackHRST bs = .ok k' → k'.hrs ≠ k.hrs)
    (h : ∀ p ∈ ps, ∀ k', unpackHRST bs = .ok k' → (st p).hrsMeta k' = none ∧ (st p).lss.hrs ≠ k'.hrs) :
    (∀ b ∈ (roundShares C cfg ps leader n k bs order mapOrder rnd1 rnd2 st).1.1, b = []) ∧
    ∀ p, DealtFor k.hrs (st p) ((roundShares C cfg ps leader n k bs order mapOrder rnd1 rnd2 st).2 p) := by
  have key : ∀ p ∈ ps, ∀ parts rnd, (∀ r, (setPartsAndSign C (cfg p) k bs parts rnd
        (getParts C (cfg p) k (order p) (rnd1 p) (st p)).2).1 ≠ .ok r) ∧
      DealtFor k.hrs (st p) (setPartsAndSign C (cfg p) k bs parts rnd
        (getParts C (cfg p) k (order p) (rnd1 p) (st p)).2).2 := by
    intro p hp parts rnd
    have h0 := getParts_dealt (C := C) (cfg := cfg p) (k := k) (order p) (rnd1 p) (st p)
    obtain ⟨s1, h1, h2⟩ := setPartsAndSign_dealt (C := C) (cfg := cfg p) (k := k) (bs := bs) parts rnd
      (getParts C (cfg p) k (order p) (rnd1 p) (st p)).2
    have h01 := h0.trans h1
    rcases h2 with h2 | ⟨h2, h3⟩
    · have hs := sign_unknown (C := C) (cfg := cfg p) (s := s1) (bs := bs) fun k' hu =>
        ⟨h01.recs k' (hk k' hu) (h p hp k' hu).1, by rw [h01.lss]; exact (h p hp k' hu).2⟩
      rw [h2]
      exact ⟨hs.1, by rw [hs.2]; exact h01⟩
    · exact ⟨h3, by rw [h2]; exact h01⟩
  unfold roundShares
  refine ⟨?_, fun p => ?_⟩
  · intro b hb
    simp only [shareArray, List.mem_map] at hb
    obtain ⟨i, _, hb⟩ := hb
    split at hb
    · rename_i hi
      split at hb
      · rename_i r hr
        exact absurd hr ((key (i + 1) hi _ _).1 r)
      · exact hb.symm
    · exact hb.symm
  · simp only
    split
    · rename_i hp
      exact (key p hp _ _).2
    · exact .refl _ _

section
variable {C : Crypto} {F G : Type} [Field F] [AddCommGroup G] [Module F G] {L : Lawful C F G}
  {pair : Bytes → Bytes → Prop} {n t : Nat} {cfg : Nat → CosignerCfg} {x : F} {kc : List F} {rsaPub : Nat → Bytes}

/-- A round under the key `kd` for sign bytes that the participants have signed before, for the earlier block `k`. -/
theorem round_relabelled (hS : Setup C L pair n t cfg x kc rsaPub) (hn : 2 ≤ n) {ps : List Nat} (hnd : ps.Nodup)
    (hps : ∀ p ∈ ps, 1 ≤ p ∧ p ≤ n) (hlen : t ≤ ps.length) {leader : Nat} (hleader : leader ∈ ps)
    {k kd : HRST} (hkd : IsI64 kd.timestamp) {bs : Bytes} (hu : unpackHRST bs = .ok k)
    {ord : Nat → List Nat} (hord : ∀ p, (ord p).Perm (List.range' 1 n))
    {mapOrder : Nat → List Nat} (hmap : ∀ p, (mapOrder p).Perm ps)
    {rnd1 rnd2 : Nat → Nat → Rand} (hrnd : ∀ p i, ∃ sec, (rnd1 p i).secret = some sec ∧ sec.length = 32)
    {st : Nat → CState} (hlow : ∀ p, 1 ≤ p → p ≤ n → (st p).lss.hrs ≺ kd.hrs)
    (hnew : ∀ p, 1 ≤ p → p ≤ n → (st p).hrsMeta kd = none) {sec r : Nat → Bytes}
    (hsigned : ∀ p ∈ ps, SignedAs L n t sec r ps x kc k bs p (st p)) :
    ∃ shares eph st' sig, roundShares C cfg ps leader n kd bs
        (fun p => (ord p).map (fun q : Nat => (q : Int))) mapOrder rnd1 rnd2 st = ((shares, eph), st') ∧
      assemble C t (L.pt (x • L.B)) bs shares eph = .ok sig ∧ C.verify (L.pt (x • L.B)) bs sig = true ∧
      ∀ p, (st' p).lss = (st p).lss := by
  have h0 : TryInv L n t cfg x kc rsaPub ps kd bs (fun _ => []) (fun _ => []) [] ⟨st, fun _ => []⟩ := TryInv.start hlow hnew
  obtain ⟨sec2, r2, H2, s2, e1, e2, e3, _, e5, _⟩ := h0.askAll hS hn hkd hord hrnd ps _ _ _ _ hnd hps
  have hres : ∀ p ∈ ps, ∃ s', setPartsAndSign C (cfg p) kd bs
        (partsFor ((mapOrder p).map fun q : Nat => ((q : Int),
          okParts (getParts C (cfg q) kd ((ord q).map (fun q : Nat => (q : Int))) (rnd1 q) (st q)).1)) (p : Int)) (rnd2 p)
          (getParts C (cfg p) kd ((ord p).map (fun q : Nat => (q : Int))) (rnd1 p) (st p)).2 =
        (.ok ⟨some (L.pt (jointR L n sec ps)), some (L.sc (shareSig L n t sec r ps x kc bs p)), none⟩, s') ∧
      s'.lss = (st p).lss := by
    intro p hp
    have hm : ∀ q, q ∈ mapOrder p ↔ q ∈ ps := fun q => (hmap p).mem_iff
    have hall : ∀ q ∈ ps, q ∈ H2 := by
      intro q hq
      by_contra hc
      have := (e1.new q (hps q hq).1 (hps q hq).2 hc).2.2
      have h2 := (e3 q hq).2
      rw [this] at h2; cases h2
    obtain ⟨D, hpD, hD, hrec, _⟩ := e1.held p (hps p hp).1 (hps p hp).2 (hall p hp)
    have hAns : ∀ q, ∃ ds : List Nat, q ∈ ps → (∀ q', 1 ≤ q' → q' ≤ n → q' ≠ q → q' ∈ ds) ∧
      List.Forall₂ (fun q' part => PartFrom L cfg rsaPub (sec2 q) (L.coeffs (r2 q) t) q q' part) (ds.filter (fun q' => q' ≠ q))
        (okParts (getParts C (cfg q) kd ((ord q).map (fun q : Nat => (q : Int))) (rnd1 q) (st q)).1) := by
      intro q
      by_cases hq : q ∈ ps
      · obtain ⟨ds, d1, d2⟩ := e1.answers q (hps q hq).1 (hps q hq).2 _ (e3 q hq).2
        exact ⟨ds, fun _ => ⟨d1, d2⟩⟩
      · exact ⟨[], fun h => absurd h hq⟩
    choose order horder using hAns
    have hroute := partsFor_honest (L := L) (cfg := cfg) (rsaPub := rsaPub) (p := p) (ps := mapOrder p)
      (parts := fun q => okParts (getParts C (cfg q) kd ((ord q).map (fun q : Nat => (q : Int))) (rnd1 q) (st q)).1)
      (order := order) (sec := sec2) (co := fun q => L.coeffs (r2 q) t)
      (fun q hq => (horder q ((hm q).1 hq)).2)
      (fun q hq hne => (horder q ((hm q).1 hq)).1 p (hps p hp).1 (hps p hp).2 (Ne.symm hne))
    rw [(e3 p hp).1] at hrec
    obtain ⟨s1, a1, a2, _⟩ := setParts_held hS (hps p hp).1 (hps p hp).2 hkd (bs := bs)
      ((mapOrder p).filter (fun q => q ≠ p)) _ (rnd2 p) _ D
      (fun q hq => hps q ((hm q).1 (List.mem_filter.1 hq).1)) hroute hrec
    have a2' : s1.lss = (st p).lss := a2.trans (getParts_dealt _ _ _).lss
    have hl := hsigned p hp
    have hl1 : SignedAs L n t sec r ps x kc k bs p s1 :=
      ⟨by rw [a2']; exact hl.hrs, by rw [a2']; exact hl.signBytes, by rw [a2']; exact hl.signature,
        by rw [a2']; exact hl.ephemeral⟩
    exact ⟨s1, by rw [a1, sign_signedAs (cfg := cfg) p hu hl1], a2'⟩
  obtain ⟨sL, l1, l2⟩ := hres leader hleader
  have harr : shareArray n ps (fun p => (setPartsAndSign C (cfg p) kd bs
        (partsFor ((mapOrder p).map fun q : Nat => ((q : Int),
          okParts (getParts C (cfg q) kd ((ord q).map (fun q : Nat => (q : Int))) (rnd1 q) (st q)).1)) (p : Int)) (rnd2 p)
          (getParts C (cfg p) kd ((ord p).map (fun q : Nat => (q : Int))) (rnd1 p) (st p)).2).1) =
      (List.range n).map fun i => if i + 1 ∈ ps then L.sc (shareSig L n t sec r ps x kc bs (i + 1)) else [] := by
    unfold shareArray
    refine List.map_congr_left fun i _ => ?_
    by_cases hi : i + 1 ∈ ps
    · rw [if_pos hi, if_pos hi]
      obtain ⟨s', a1, _⟩ := hres (i + 1) hi
      simp only [a1]
      rfl
    · rw [if_neg hi, if_neg hi]
  have hass := assemble_honest hS hnd hps hlen (sec := sec) (r := r) (bs := bs)
  unfold roundShares
  simp only
  rw [harr, l1]
  refine ⟨_, _, _, _, rfl, hass, ?_, ?_⟩
  · have h := hass
    unfold assemble at h
    simp only at h
    split at h
    · cases h
    split at h
    · next hv =>
      simp only [Out.ok.injEq] at h
      rw [← h]; exact hv
    · cases h
  · intro p
    split
    · rename_i hp
      obtain ⟨s', a1, a2⟩ := hres p hp
      rw [a1]; exact a2
    · rfl

end
end Horcrux
