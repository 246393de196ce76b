import Verif.Lemmas.Round
/-
Rounds of cosigners whose key shares are any values and whose public key is any point (C124): what the leader assembles.
-/
namespace Horcrux
open Spec

/-- `Setup` with arbitrary key shares `kf`, public key `A` and thresholds `tn p` in the configurations: only the IDs and the
RSA keys fit together. -/
structure Wired (C : Crypto) {F G : Type} [Field F] [AddCommGroup G] [Module F G] (L : Lawful C F G)
    (pair : Bytes → Bytes → Prop) (n : Nat) (tn : Nat → Nat) (cfg : Nat → CosignerCfg) (kf : Nat → F) (A : G)
    (rsaPub : Nat → Bytes) : Prop where
  rsa : LawfulRSA C pair
  t_pos : ∀ p, 1 ≤ p → p ≤ n → 1 ≤ tn p
  t_le : ∀ p, 1 ≤ p → p ≤ n → tn p ≤ n
  n_le : n ≤ 255
  id : ∀ p, 1 ≤ p → p ≤ n → (cfg p).id = p
  shareKey : ∀ p, 1 ≤ p → p ≤ n → (cfg p).shareKey = L.sc (kf p)
  pub : ∀ p, 1 ≤ p → p ≤ n → (cfg p).pubKeyBytes = L.pt A
  total : ∀ p, 1 ≤ p → p ≤ n → (cfg p).total = n
  threshold : ∀ p, 1 ≤ p → p ≤ n → (cfg p).threshold = tn p
  rsaKey : ∀ p, 1 ≤ p → p ≤ n → pair (rsaPub p) (cfg p).rsaKey
  peers : ∀ p q : Nat, 1 ≤ p → p ≤ n → 1 ≤ q → q ≤ n → (cfg p).peers (q : Int) = some (rsaPub q)

section
variable {C : Crypto} {F G : Type} [Field F] [AddCommGroup G] [Module F G] {L : Lawful C F G}
  {pair : Bytes → Bytes → Prop} {n t : Nat} {tn : Nat → Nat} {cfg : Nat → CosignerCfg} {kf : Nat → F} {A : G}
  {rsaPub : Nat → Bytes}

/-- The same cosigners with other key shares and public key, and the threshold of `p0`. -/
def rekey (L : Lawful C F G) (cfg : Nat → CosignerCfg) (p0 p : Nat) : CosignerCfg :=
  { cfg p with shareKey := L.sc (shareOf 0 (List.replicate ((cfg p0).threshold - 1) 0) p),
               pubKeyBytes := L.pt ((0 : F) • L.B), threshold := (cfg p0).threshold }

theorem Wired.setup (h : Wired C L pair n tn cfg kf A rsaPub) {p0 : Nat} (h1 : 1 ≤ p0) (h2 : p0 ≤ n) :
    Setup C L pair n (tn p0) (rekey L cfg p0) 0 (List.replicate (tn p0 - 1) 0) rsaPub where
  rsa := h.rsa
  t_pos := h.t_pos p0 h1 h2
  t_le := h.t_le p0 h1 h2
  n_le := h.n_le
  kc_length := by rw [List.length_replicate]; have := h.t_pos p0 h1 h2; omega
  id := h.id
  shareKey := fun p _ _ => by rw [← h.threshold p0 h1 h2]; rfl
  pub := fun _ _ _ => rfl
  total := h.total
  threshold := fun _ _ _ => h.threshold p0 h1 h2
  rsaKey := h.rsaKey
  peers := h.peers

theorem getPartsLoop_rekey (p : Nat) (k : HRST) : ∀ (order : List Int) (rnd : Nat → Rand) (s : CState)
    (acc : List SecretPart), getPartsLoop C (rekey L cfg p p) k order rnd s acc = getPartsLoop C (cfg p) k order rnd s acc
  | [], _, _, _ => rfl
  | q :: order, rnd, s, acc => by
    have h : ∀ r, getPart C (rekey L cfg p p) s r (rnd 0) = getPart C (cfg p) s r (rnd 0) := fun _ => rfl
    simp only [getPartsLoop, h, getPartsLoop_rekey p k order]
    rfl

theorem getParts_rekey (p : Nat) (k : HRST) (order : List Int) (rnd : Nat → Rand) (s : CState) :
    getParts C (rekey L cfg p p) k order rnd s = getParts C (cfg p) k order rnd s := by
  simp only [getParts, getPartsLoop_rekey]

/-- The record of `p` (with the shares `deal` it dealt itself) when the cosigners in `D` have contributed. -/
def mixRecord (L : Lawful C F G) (n : Nat) (p : Nat) (sec : Nat → Bytes) (deal : List Bytes) (co : Nat → List F)
    (D : List Nat) : Meta := ⟨sec p, deal, slotsOf L n sec co p D⟩

theorem used_mixRecord (p : Nat) (sec : Nat → Bytes) (deal : List Bytes) (co : Nat → List F) (D : List Nat) :
    (mixRecord L n p sec deal co D).used = (idsOf n D).map (slotOf L sec co p) := by
  have hne : ∀ q, (slotOf L sec co p q).share ≠ [] := by
    intro q h
    have := L.sc_length (shareOf (L.val (sec q)) (co q) p)
    unfold slotOf at h
    simp only at h
    rw [h] at this
    simp at this
  unfold mixRecord Meta.used slotsOf idsOf
  simp only
  rw [List.filter_map, List.map_map]
  have hf : (List.range n).filter ((fun p => decide (p.share ≠ [])) ∘ fun i =>
      if i + 1 ∈ D then slotOf L sec co p (i + 1) else ⟨[], []⟩)
      = (List.range n).filter (fun i => decide (i + 1 ∈ D)) := by
    refine List.filter_congr fun i _ => ?_
    simp only [Function.comp]
    by_cases h : i + 1 ∈ D
    · simp [hne, h]
    · simp [h]
  rw [hf]
  refine List.map_congr_left fun i hi => ?_
  rw [List.mem_filter] at hi
  have : i + 1 ∈ D := by simpa using hi.2
  simp only [Function.comp, if_pos this]

theorem setPart_wired (hW : Wired C L pair n tn cfg kf A rsaPub) {p q : Nat} (hp1 : 1 ≤ p) (hp2 : p ≤ n)
    (hq1 : 1 ≤ q) (hq2 : q ≤ n) {s : CState} {k : HRST} (hk : IsI64 k.timestamp) {rnd : Rand}
    {sec : Nat → Bytes} {deal : List Bytes} {co : Nat → List F} {D : List Nat} {part : SecretPart}
    (hpart : PartFrom L cfg rsaPub (sec q) (co q) q p part)
    (hrec : Rec s k (mixRecord L n p sec deal co D)) :
    ∃ s', setPart C (cfg p) s (part.toSetReq k) rnd = (.ok (), s') ∧ s'.lss = s.lss ∧
      Rec s' k (mixRecord L n p sec deal co (q :: D)) := by
  obtain ⟨ref, e1, e2⟩ := hrec
  obtain ⟨c, hc1, hc2⟩ := hpart.enc
  obtain ⟨g, hg1, hg2⟩ := hpart.sig
  have hkey : SetPartReq.key (part.toSetReq k) = k := by
    unfold SetPartReq.key SecretPart.toSetReq
    simp only [ofUnixNano_unixNano hk]
  have hm : ∀ kd, metaFor C (cfg p) s k kd rnd = some (ref, s) := by intro kd; unfold metaFor; rw [e1]
  have hidx : goIndex (slotsOf L n sec co p D) ((q : Int) - 1) ≠ none := by
    unfold goIndex
    rw [if_neg (by omega), List.getElem?_eq_getElem (by rw [slotsOf_length]; omega)]
    simp
  obtain ⟨old, hold⟩ := Option.ne_none_iff_exists'.1 hidx
  unfold setPart
  simp only [hkey, hm]
  have e3 : (part.toSetReq k).sourceSig = some g := hg1
  have e4 : (part.toSetReq k).sourceID = (q : Int) := hpart.source
  have e5 : (part.toSetReq k).encrypted = some c := hc1
  have e6 : (part.toSetReq k).ephemeralPublic = some (L.pt (L.val (sec q) • L.B)) := hpart.eph
  rw [hpart.source, hpart.eph, hc1] at hg2
  simp only [e3, e4, e5, e6, hW.peers p q hp1 hp2 hq1 hq2, hg2, Slice.bytes, hc2, Option.getD_some]
  unfold CState.setSlot
  rw [e2]
  unfold mixRecord
  simp only [hold, Bool.true_eq_false, if_false]
  refine ⟨_, rfl, rfl, ref, e1, ?_⟩
  simp only
  rw [List.getElem?_set, if_pos rfl, if_pos (List.getElem?_eq_some_iff.1 e2).1]
  have h1 : ((q : Int) - 1).toNat = q - 1 := by omega
  have h2 := slotsOf_set L n sec co p q D hq1
  unfold slotOf at h2
  rw [h1, h2]

/-- The share signature of `p`. -/
def wiredSig (L : Lawful C F G) (n : Nat) (sec : Nat → Bytes) (co : Nat → List F) (D : List Nat) (kf : Nat → F) (A : G)
    (bs : Bytes) (p : Nat) : F :=
  ((idsOf n D).map (fun q => shareOf (L.val (sec q)) (co q) p)).sum +
    L.chal (L.pt (jointR L n sec D)) (L.pt A) bs * kf p

theorem sign_wired (hW : Wired C L pair n tn cfg kf A rsaPub) {p : Nat} (hp1 : 1 ≤ p) (hp2 : p ≤ n)
    {s : CState} {k : HRST} {bs : Bytes} (hu : unpackHRST bs = .ok k) (hlt : s.lss.hrs ≺ k.hrs)
    {sec : Nat → Bytes} {deal : List Bytes} {co : Nat → List F} {D : List Nat}
    (hrec : Rec s k (mixRecord L n p sec deal co D)) :
    ∃ res s', sign C (cfg p) s bs = (.ok res, s') ∧ s'.lss.hrs = k.hrs ∧
      res.signature = some (L.sc (wiredSig L n sec co D kf A bs p)) ∧
      res.ephemeralPublic = some (L.pt (jointR L n sec D)) := by
  obtain ⟨ref, e1, e2⟩ := hrec
  have hES : C.addScalars ((mixRecord L n p sec deal co D).used.map (·.share))
      = L.sc ((idsOf n D).map (fun q => shareOf (L.val (sec q)) (co q) p)).sum := by
    rw [used_mixRecord, List.map_map, ← L.addScalars, List.map_map]
    rfl
  have hEP : C.addElements ((mixRecord L n p sec deal co D).used.map (·.ephemeralSecretPublicKey))
      = L.pt (jointR L n sec D) := by
    unfold jointR
    rw [used_mixRecord, List.map_map, ← L.addElements, List.map_map]
    rfl
  have hc : s.lss.checkHRS k = .ok false := by
    unfold HRS.lt SignState.hrs HRST.hrs at hlt
    simp only at hlt
    unfold SignState.checkHRS
    rcases hlt with h | ⟨h, h' | ⟨h', h''⟩⟩
    · rw [if_neg (by omega), if_neg (by omega)]
    · rw [if_neg (by omega), if_pos h, if_neg (by omega), if_neg (by omega)]
    · rw [if_neg (by omega), if_pos h, if_neg (by omega), if_pos h', if_neg (by omega), if_neg (by omega)]
  have hs : sign C (cfg p) s bs = signFresh C (cfg p) s bs k := by
    unfold sign
    rw [hu]; simp only; rw [hc]
  rw [hs]
  unfold signFresh
  rw [e1]; simp only; rw [e2]; simp only
  rw [hES, hEP, L.sc_length, L.sc_minimal]
  simp only [ne_eq, not_true_eq_false, if_false, Bool.true_eq_false]
  rw [hW.shareKey p hp1 hp2, hW.pub p hp1 hp2, L.sign]
  have hget : SignState.getErrorIfLessOrEqual { s.lss with ephemeralPublic := some (L.pt (jointR L n sec D)) }
      k.height k.round k.step = none := by
    unfold HRS.lt SignState.hrs HRST.hrs at hlt
    simp only at hlt
    unfold SignState.getErrorIfLessOrEqual
    simp only
    rcases hlt with h | ⟨h, h' | ⟨h', h''⟩⟩
    · rw [if_neg (by omega), if_pos (by omega)]
    · rw [if_neg (by omega), if_neg (by omega), if_neg (by omega), if_pos (by omega)]
    · rw [if_neg (by omega), if_neg (by omega), if_neg (by omega), if_neg (by omega), if_neg (by omega),
        if_neg (by omega)]
  unfold SignState.save
  simp only [hget]
  exact ⟨_, _, rfl, rfl, rfl, rfl⟩

theorem setPartsAndSign_wired (hW : Wired C L pair n tn cfg kf A rsaPub) {p : Nat} (hp1 : 1 ≤ p) (hp2 : p ≤ n)
    {k : HRST} (hk : IsI64 k.timestamp) {bs : Bytes} (hu : unpackHRST bs = .ok k) {sec : Nat → Bytes} {deal : List Bytes}
    {co : Nat → List F} :
    ∀ (qs : List Nat) (parts : List SecretPart) (rnd : Nat → Rand) (s : CState) (D : List Nat),
      (∀ q ∈ qs, 1 ≤ q ∧ q ≤ n) →
      List.Forall₂ (fun q part => PartFrom L cfg rsaPub (sec q) (co q) q p part) qs parts →
      s.lss.hrs ≺ k.hrs → Rec s k (mixRecord L n p sec deal co D) →
      ∃ res s', setPartsAndSign C (cfg p) k bs parts rnd s = (.ok res, s') ∧ s'.lss.hrs = k.hrs ∧
        res.signature = some (L.sc (wiredSig L n sec co (qs.reverse ++ D) kf A bs p)) ∧
        res.ephemeralPublic = some (L.pt (jointR L n sec (qs.reverse ++ D))) := by
  intro qs parts rnd s D hqs hf
  induction hf generalizing rnd s D with
  | nil =>
    intro hlt hrec
    simp only [setPartsAndSign, List.reverse_nil, List.nil_append]
    exact sign_wired hW hp1 hp2 hu hlt hrec
  | @cons q part qs parts hq _ ih =>
    intro hlt hrec
    obtain ⟨h1, h2⟩ := hqs q (List.mem_cons_self ..)
    obtain ⟨s1, g1, g2, g3⟩ := setPart_wired hW hp1 hp2 h1 h2 hk (rnd := rnd 0) hq hrec
    simp only [setPartsAndSign, g1]
    obtain ⟨res, s', a1, a2, a3, a4⟩ := ih (fun n => rnd (n + 1)) s1 (q :: D)
      (fun q' h => hqs q' (List.mem_cons_of_mem _ h)) (by rw [g2]; exact hlt) g3
    exact ⟨res, s', a1, a2, by simpa using a3, by simpa using a4⟩

theorem combine_wired (hn : CastInj F n) (ids : List Nat) (hnd : ids.Nodup) (hids : ∀ i ∈ ids, 1 ≤ i ∧ i ≤ n)
    (qs : List Nat) (a : Nat → F) (co : Nat → List F) (hco : ∀ q ∈ qs, (co q).length + 1 ≤ ids.length)
    (h1 : 1 ≤ ids.length) (c : F) (kf : Nat → F) :
    combineF ids (ids.map fun p => (qs.map fun q => shareOf (a q) (co q) p).sum + c * kf p)
      = (qs.map a).sum + c * combineF ids (ids.map kf) := by
  have h := combine_linear hn ids hnd hids qs a (fun q => if q ∈ qs then co q else []) (by
    intro q
    split
    · next h => exact hco q h
    · exact h1) 0 0 [] (by simpa using h1)
  have hcongr : ∀ p : Nat, (qs.map fun q => shareOf (a q) (if q ∈ qs then co q else []) p) =
      qs.map fun q => shareOf (a q) (co q) p := fun p => List.map_congr_left fun q hq => by rw [if_pos hq]
  simp only [hcongr, zero_mul, add_zero] at h
  rw [← h, combine_map ids hnd, combine_map ids hnd, combine_map ids hnd, Finset.mul_sum, ← Finset.sum_add_distrib]
  exact Finset.sum_congr rfl fun i _ => by ring

theorem combine_add (ids : List Nat) (hnd : ids.Nodup) (f g : Nat → F) (c : F) :
    combineF ids (ids.map fun p => f p + c * g p) = combineF ids (ids.map f) + c * combineF ids (ids.map g) := by
  rw [combine_map ids hnd, combine_map ids hnd, combine_map ids hnd, Finset.mul_sum, ← Finset.sum_add_distrib]
  exact Finset.sum_congr rfl fun i _ => by ring

theorem combine_perm {ids ids' : List Nat} (hnd : ids.Nodup) (hp : ids.Perm ids') (f : Nat → F) :
    combineF ids (ids.map f) = combineF ids' (ids'.map f) := by
  rw [combine_map ids hnd, combine_map ids' (hp.nodup_iff.1 hnd), List.toFinset_eq_of_perm _ _ hp]
  refine Finset.sum_congr rfl fun i _ => ?_
  rw [prod_filter_list ids hnd, prod_filter_list ids' (hp.nodup_iff.1 hnd), List.toFinset_eq_of_perm _ _ hp]

theorem idsOf_perm {ps : List Nat} (hnd : ps.Nodup) (hps : ∀ p ∈ ps, 1 ≤ p ∧ p ≤ n) : (idsOf n ps).Perm ps := by
  refine (List.perm_ext_iff_of_nodup (idsOf_nodup n ps) hnd).2 fun i => ?_
  rw [mem_idsOf]
  exact ⟨fun h => h.1, fun h => ⟨h, hps i h⟩⟩

/-- What the leader makes of the share signatures when the joint nonce is `r` and they combine to `z`. -/
def wiredOut (C : Crypto) (L : Lawful C F G) (r z : F) : Bytes := L.pt (r • L.B) ++ L.sc z

theorem jointR_smul (sec : Nat → Bytes) (D : List Nat) :
    jointR L n sec D = ((idsOf n D).map fun q => L.val (sec q)).sum • L.B := by
  unfold jointR
  generalize idsOf n D = l
  induction l with
  | nil => simp
  | cons q l ih => simp only [List.map_cons, List.sum_cons, add_smul, ih]

theorem assemble_wired (hn : n ≤ 255) {ps : List Nat} (hnd : ps.Nodup)
    (hps : ∀ p ∈ ps, 1 ≤ p ∧ p ≤ n) (hlen : t ≤ ps.length) {sec : Nat → Bytes} (pub bs : Bytes) (z : Nat → F) :
    assemble C t pub bs ((List.range n).map fun i => if i + 1 ∈ ps then L.sc (z (i + 1)) else [])
      (L.pt (jointR L n sec ps)) =
    if C.verify pub bs (wiredOut C L ((idsOf n ps).map fun q => L.val (sec q)).sum (combineF ps (ps.map z)))
    then .ok (wiredOut C L ((idsOf n ps).map fun q => L.val (sec q)).sum (combineF ps (ps.map z)))
    else .err .combinedInvalid := by
  have hcol := collectSigs_range (fun i => L.sc (z (i + 1))) ps (fun i _ => by rw [L.sc_length]; decide) n 0
  rw [← List.range_eq_range'] at hcol
  have hl := idsOf_length hnd hps
  have hids : ∀ i ∈ idsOf n ps, 1 ≤ i ∧ i ≤ n := fun i hi => (mem_idsOf.1 hi).2
  unfold assemble
  simp only [hcol]
  have e1 : ((List.range n).filter (fun i => decide (i + 1 ∈ ps))).map (· + 1) = idsOf n ps := rfl
  have e2 : ((List.range n).filter (fun i => decide (i + 1 ∈ ps))).map (fun i => L.sc (z (i + 1)))
      = ((idsOf n ps).map z).map L.sc := by
    unfold idsOf
    rw [List.map_map, List.map_map]
    rfl
  rw [e1, e2, if_neg (by rw [hl]; omega), L.combine _ _ _ (by simp) (idsOf_nodup n ps) (by
      rw [List.length_map, List.length_range]; exact hids) (by rw [List.length_map, List.length_range]; exact hn),
    combine_perm (idsOf_nodup n ps) (idsOf_perm hnd hps) z]
  unfold wiredOut
  rw [jointR_smul]

/-- The share signature of `p`, over the participants themselves. -/
def roundSig (L : Lawful C F G) (ps : List Nat) (sec : Nat → Bytes) (co : Nat → List F) (kf : Nat → F) (A : G)
    (bs : Bytes) (p : Nat) : F :=
  (ps.map fun q => shareOf (L.val (sec q)) (co q) p).sum +
    L.chal (L.pt ((ps.map fun q => L.val (sec q)).sum • L.B)) (L.pt A) bs * kf p

/-- A round of such cosigners, at least as many as the leader waits for: it comes to one string, and that is given back if
it verifies. -/
theorem round_wired (hW : Wired C L pair n tn cfg kf A rsaPub) {ps : List Nat} (hnd : ps.Nodup)
    (hps : ∀ p ∈ ps, 1 ≤ p ∧ p ≤ n) (hlen : t ≤ ps.length) {leader : Nat} (hleader : leader ∈ ps)
    {k : HRST} (hk : IsI64 k.timestamp) {bs : Bytes} (hu : unpackHRST bs = .ok k)
    {order : Nat → List Nat} (hord : ∀ p ∈ ps, ∀ q ∈ order p, 1 ≤ q ∧ q ≤ n)
    (hall : ∀ p ∈ ps, ∀ q ∈ ps, q ≠ p → q ∈ order p) (hother : ∀ p ∈ ps, ∃ q ∈ order p, q ≠ p)
    {mapOrder : Nat → List Nat} (hmap : ∀ p ∈ ps, (mapOrder p).Perm ps)
    {rnd1 rnd2 : Nat → Nat → Rand} (hrnd : ∀ p ∈ ps, ∀ i, ∃ sec, (rnd1 p i).secret = some sec ∧ sec.length = 32)
    {st : Nat → CState} (hlow : ∀ p ∈ ps, (st p).lss.hrs ≺ k.hrs) (hnew : ∀ p ∈ ps, (st p).hrsMeta k = none) :
    ∃ (sec r : Nat → Bytes) (st' : Nat → CState),
      (∀ p ∈ ps, ∃ i, (rnd1 p i).secret = some (sec p) ∧ (rnd1 p i).deal = r p) ∧
      signRound C cfg ps leader t n (L.pt A) k bs
        (fun p => (order p).map (fun q : Nat => (q : Int))) mapOrder rnd1 rnd2 st =
        (if C.verify (L.pt A) bs (wiredOut C L (ps.map fun q => L.val (sec q)).sum
            (combineF ps (ps.map (roundSig L ps sec (fun q => L.coeffs (r q) (tn q)) kf A bs))))
          then .ok (wiredOut C L (ps.map fun q => L.val (sec q)).sum
            (combineF ps (ps.map (roundSig L ps sec (fun q => L.coeffs (r q) (tn q)) kf A bs))))
          else .err .combinedInvalid, st') ∧
      ∀ p ∈ ps, (st' p).lss.hrs = k.hrs := by
  -- first phase
  have h1 : ∀ p, ∃ sec r parts s', p ∈ ps → (getParts C (cfg p) k ((order p).map (fun q : Nat => (q : Int))) (rnd1 p) (st p)
        = (.ok parts, s') ∧ s'.lss = (st p).lss ∧
      List.Forall₂ (fun q part => PartFrom L cfg rsaPub sec (L.coeffs r (tn p)) p q part)
        ((order p).filter (fun q => q ≠ p)) parts ∧ Rec s' k (ownRecord L n (tn p) p sec r) ∧
      ∃ i, (rnd1 p i).secret = some sec ∧ (rnd1 p i).deal = r) := by
    intro p
    by_cases hp : p ∈ ps
    · obtain ⟨sec, r, parts, s', _, ⟨i0, hi0, hi1⟩, g1, g2, g3, g4⟩ := getPartsLoop_fresh
        (hW.setup (hps p hp).1 (hps p hp).2) (hps p hp).1 (hps p hp).2 hk
        (order p) (rnd1 p) (st p) (hord p hp) (hother p hp) (hnew p hp) (hrnd p hp)
      refine ⟨sec, r, parts, s', fun _ => ⟨?_, g2, ?_, g4, i0, hi0, hi1⟩⟩
      · rw [← getParts_rekey (L := L)]
        unfold getParts
        obtain ⟨q, hq, _⟩ := hother p hp
        rw [if_neg, g1]
        intro h
        rw [List.map_eq_nil_iff] at h
        rw [h] at hq; cases hq
      · exact g3.imp fun q part h => ⟨h.source, h.dest, h.eph, h.enc, h.sig⟩
    · exact ⟨[], [], [], st p, fun h => absurd h hp⟩
  choose sec r parts s1 hgot using h1
  -- second phase
  have hres : ∀ p ∈ ps, ∃ res s', setPartsAndSign C (cfg p) k bs
        (partsFor ((mapOrder p).map fun q : Nat => ((q : Int),
          okParts (getParts C (cfg q) k ((order q).map (fun q : Nat => (q : Int))) (rnd1 q) (st q)).1)) (p : Int)) (rnd2 p)
          (getParts C (cfg p) k ((order p).map (fun q : Nat => (q : Int))) (rnd1 p) (st p)).2 = (.ok res, s') ∧
      s'.lss.hrs = k.hrs ∧ res.signature = some (L.sc (wiredSig L n sec (fun q => L.coeffs (r q) (tn q)) ps kf A bs p)) ∧
      res.ephemeralPublic = some (L.pt (jointR L n sec ps)) := by
    intro p hp
    have hmem : ∀ q, q ∈ mapOrder p ↔ q ∈ ps := fun q => (hmap p hp).mem_iff
    have hroute := partsFor_honest (L := L) (cfg := cfg) (rsaPub := rsaPub) (p := p) (ps := mapOrder p)
      (parts := parts) (order := order) (sec := sec) (co := fun q => L.coeffs (r q) (tn q))
      (fun q hq => (hgot q ((hmem q).1 hq)).2.2.1) (fun q hq hne => hall q ((hmem q).1 hq) p hp (Ne.symm hne))
    have hrec : Rec (s1 p) k (mixRecord L n p sec (C.dealShares (sec p) (r p) (tn p) n)
        (fun q => L.coeffs (r q) (tn q)) [p]) := by
      have := (hgot p hp).2.2.2.1
      unfold ownRecord at this
      unfold mixRecord
      rw [slotsOf_congr L n sec (fun _ => sec p) (fun q => L.coeffs (r q) (tn q)) (fun _ => L.coeffs (r p) (tn p)) p [p]
        (by intro q hq; rw [List.mem_singleton.1 hq]; exact ⟨rfl, rfl⟩)]
      exact this
    obtain ⟨res, s', a1, a2, a3, a4⟩ := setPartsAndSign_wired hW (hps p hp).1 (hps p hp).2 hk hu
      ((mapOrder p).filter (fun q => q ≠ p)) _ (rnd2 p) (s1 p) [p]
      (fun q hq => hps q ((hmem q).1 (List.mem_filter.1 hq).1)) hroute
      (by rw [(hgot p hp).2.1]; exact hlow p hp) hrec
    have hD : idsOf n (((mapOrder p).filter (fun q => q ≠ p)).reverse ++ [p]) = idsOf n ps := by
      refine idsOf_congr fun q => ?_
      rw [List.mem_append, List.mem_reverse, List.mem_filter, List.mem_singleton, hmem]
      by_cases h : q = p
      · subst h; simp [hp]
      · simp [h]
    refine ⟨res, s', ?_, a2, ?_, ?_⟩
    · rw [(hgot p hp).1, ← a1]
      congr 1
      congr 1
      refine List.map_congr_left fun q hq => ?_
      rw [(hgot q ((hmap p hp).mem_iff.1 hq)).1]
      rfl
    · rw [a3]; unfold wiredSig jointR; rw [hD]
    · rw [a4]; unfold jointR; rw [hD]
  unfold signRound roundShares
  simp only
  obtain ⟨resL, sL, l1, l2, l3, l4⟩ := hres leader hleader
  have harr : shareArray n ps (fun p => (setPartsAndSign C (cfg p) k bs
        (partsFor ((mapOrder p).map fun q : Nat => ((q : Int),
          okParts (getParts C (cfg q) k ((order q).map (fun q : Nat => (q : Int))) (rnd1 q) (st q)).1)) (p : Int)) (rnd2 p)
          (getParts C (cfg p) k ((order p).map (fun q : Nat => (q : Int))) (rnd1 p) (st p)).2).1) =
      (List.range n).map fun i => if i + 1 ∈ ps then L.sc (wiredSig L n sec (fun q => L.coeffs (r q) (tn q)) ps kf A bs (i + 1)) else [] := by
    unfold shareArray
    refine List.map_congr_left fun i _ => ?_
    by_cases hi : i + 1 ∈ ps
    · rw [if_pos hi, if_pos hi]
      obtain ⟨res, s', a1, a2, a3, a4⟩ := hres (i + 1) hi
      simp only [a1]
      rw [a3]; rfl
    · rw [if_neg hi, if_neg hi]
  rw [harr, l1]
  simp only
  rw [l4]
  have hsum : ∀ f : Nat → F, ((idsOf n ps).map f).sum = (ps.map f).sum :=
    fun f => ((idsOf_perm hnd hps).map f).sum_eq
  have hass := assemble_wired (C := C) (L := L) hW.n_le hnd hps hlen (sec := sec) (L.pt A) bs
    (wiredSig L n sec (fun q => L.coeffs (r q) (tn q)) ps kf A bs)
  have hz : wiredSig L n sec (fun q => L.coeffs (r q) (tn q)) ps kf A bs =
      roundSig L ps sec (fun q => L.coeffs (r q) (tn q)) kf A bs := by
    funext p
    unfold wiredSig roundSig
    rw [hsum, jointR_smul, hsum]
  rw [hsum] at hass
  refine ⟨sec, r, _, fun p hp => (hgot p hp).2.2.2.2, Prod.ext (hass.trans (by rw [hz])) rfl, ?_⟩
  intro p hp
  simp only [if_pos hp]
  obtain ⟨res, s', a1, a2, _⟩ := hres p hp
  rw [a1]; exact a2

/-- When that string verifies. -/
theorem wiredOut_verify (x : F) (bs : Bytes) (r z : F) :
    C.verify (L.pt (x • L.B)) bs (wiredOut C L r z) = true ↔
      z = r + L.chal (L.pt (r • L.B)) (L.pt (x • L.B)) bs * x ∨ L.B = 0 := by
  unfold wiredOut
  rw [L.verify, ← mul_smul, ← add_smul, ← sub_eq_zero, ← sub_smul, smul_eq_zero, sub_eq_zero]

theorem horner_snoc_zero (l : List F) (m : Nat) (y : F) : horner (l ++ List.replicate m 0) y = horner l y := by
  induction l with
  | nil =>
    induction m with
    | zero => rfl
    | succ m ih =>
      simp only [List.nil_append] at ih
      simp [List.replicate_succ, horner, ih]
  | cons a l ih => simp [horner, ih]

theorem horner_zip : ∀ (l l' : List F), l.length = l'.length → ∀ y : F,
    horner (List.zipWith (· + ·) l l') y = horner l y + horner l' y
  | [], [], _, _ => by simp [horner]
  | a :: l, b :: l', h, y => by
    simp only [List.zipWith_cons_cons, horner]
    rw [horner_zip l l' (by simpa using h) y]
    ring
  | [], _ :: _, h, _ => by simp at h
  | _ :: _, [], h, _ => by simp at h

/-- The sum of dealings is a dealing of the sum; `m + 1` bounds the number of coefficients. -/
theorem shares_sum (m : Nat) (qs : List Nat) (a : Nat → F) (co : Nat → List F) (hco : ∀ q ∈ qs, (co q).length ≤ m + 1) :
    ∃ l : List F, l.length = m ∧ ∀ p : Nat, (qs.map fun q => shareOf (a q) (co q) p).sum =
      shareOf (qs.map a).sum (l ++ [(qs.map fun q => (co q).getD m 0).sum]) p := by
  induction qs with
  | nil =>
    refine ⟨List.replicate m 0, List.length_replicate, fun p => ?_⟩
    simp only [List.map_nil, List.sum_nil]
    unfold shareOf
    rw [← List.replicate_succ']
    show (0 : F) = horner ([0] ++ List.replicate (m + 1) 0) _
    rw [horner_snoc_zero]
    simp [horner]
  | cons q qs ih =>
    obtain ⟨l, hl, h⟩ := ih fun q' hq' => hco q' (List.mem_cons_of_mem _ hq')
    have hq := hco q (List.mem_cons_self ..)
    have hpad : ∃ l' : List F, l'.length = m ∧ ∀ p : Nat, shareOf (a q) (co q) p =
        shareOf (a q) (l' ++ [(co q).getD m 0]) p := by
      by_cases hlt : (co q).length ≤ m
      · refine ⟨co q ++ List.replicate (m - (co q).length) 0, by simp; omega, fun p => ?_⟩
        have h0 : (co q).getD m 0 = 0 := by
          rw [List.getD_eq_getElem?_getD, List.getElem?_eq_none hlt]; rfl
        unfold shareOf
        rw [h0, List.append_assoc, ← List.replicate_succ', ← List.cons_append, horner_snoc_zero]
      · have hm : (co q).length = m + 1 := by omega
        refine ⟨(co q).take m, by simp; omega, fun p => ?_⟩
        have h1 : co q = (co q).take m ++ [(co q).getD m 0] := by
          conv_lhs => rw [← List.take_append_drop m (co q)]
          congr 1
          rw [List.drop_eq_getElem_cons (by omega), List.drop_eq_nil_of_le (by omega),
            List.getD_eq_getElem?_getD, List.getElem?_eq_getElem (by omega)]
          rfl
        rw [← h1]
    obtain ⟨l', hl', h'⟩ := hpad
    refine ⟨List.zipWith (· + ·) l' l, by simp [hl, hl'], fun p => ?_⟩
    simp only [List.map_cons, List.sum_cons]
    rw [h p, h' p]
    unfold shareOf
    rw [← horner_zip _ _ (by simp [hl, hl'])]
    congr 1
    rw [List.zipWith_cons_cons, List.zipWith_append (by rw [hl, hl'])]
    rfl

/-- With a threshold at least that of the dealing, such a cluster is one with the shares of a dealing with the threshold
of the configurations. -/
theorem Wired.padded {x : F} {kc : List F} (h : Wired C L pair n (fun _ => t) cfg (shareOf x kc) (x • L.B) rsaPub)
    (hn : 1 ≤ n) (hkc : kc.length + 1 ≤ t) :
    Setup C L pair n t cfg x (kc ++ List.replicate (t - 1 - kc.length) 0) rsaPub where
  rsa := h.rsa
  t_pos := h.t_pos 1 (le_refl _) hn
  t_le := h.t_le 1 (le_refl _) hn
  n_le := h.n_le
  kc_length := by rw [List.length_append, List.length_replicate]; omega
  id := h.id
  shareKey := fun p h1 h2 => by
    rw [h.shareKey p h1 h2]
    unfold shareOf
    rw [← List.cons_append, horner_snoc_zero]
  pub := h.pub
  total := h.total
  threshold := h.threshold
  rsaKey := h.rsaKey
  peers := h.peers

/-! ### Which quorums recover the key -/

/-- The interpolation over `ids` recovers the secret just if the shares of `ids` are those of a dealing of that secret with
threshold `ids.length`. -/
theorem combine_lucky (hn : CastInj F n) {ids : List Nat} (hnd : ids.Nodup) (hids : ∀ i ∈ ids, 1 ≤ i ∧ i ≤ n)
    (h1 : 1 ≤ ids.length) (f : Nat → F) (x : F) :
    combineF ids (ids.map f) = x ↔ ∃ l : List F, l.length + 1 = ids.length ∧ ∀ i ∈ ids, f i = shareOf x l i := by
  have hinj : Set.InjOn (fun i : Nat => (i : F)) (ids.toFinset : Set Nat) := by
    intro i hi j hj h
    simp only [Finset.mem_coe, List.mem_toFinset] at hi hj
    exact hn i j (hids i hi).2 (hids j hj).2 h
  constructor
  · intro h
    have hdeg := Lagrange.degree_interpolate_lt f hinj
    rw [List.toFinset_card_of_nodup hnd] at hdeg
    obtain ⟨l, hl, hp⟩ := exists_polyOf ids.length _ hdeg
    have hev : ∀ i ∈ ids, f i = horner l (i : F) := by
      intro i hi
      rw [← eval_polyOf, hp]
      exact (Lagrange.eval_interpolate_at_node f hinj (by simpa using hi)).symm
    have hmap : ids.map f = ids.map fun i : Nat => horner l (i : F) := List.map_congr_left hev
    rw [hmap, combine_eval n hn ids hnd hids l (le_of_eq hl)] at h
    cases l with
    | nil => simp at hl; omega
    | cons a l =>
      have ha : a = x := by simpa [horner] using h
      subst ha
      exact ⟨l, by simpa using hl, hev⟩
  · rintro ⟨l, hl, h⟩
    have hmap : ids.map f = ids.map fun i : Nat => horner (x :: l) (i : F) := List.map_congr_left h
    rw [hmap, combine_eval n hn ids hnd hids (x :: l) (by simpa using le_of_eq hl)]
    simp [horner]

/-- Two dealings of one secret that agree on as many shares as the longer has coefficients are the same up to zeros. -/
theorem deal_unique (hn : CastInj F n) {ids : List Nat} (hnd : ids.Nodup) (hids : ∀ i ∈ ids, 1 ≤ i ∧ i ≤ n) (x : F)
    (l l' : List F) (h1 : l.length ≤ ids.length) (h2 : l'.length ≤ l.length)
    (h : ∀ i ∈ ids, shareOf x l i = shareOf x l' i) : l = l' ++ List.replicate (l.length - l'.length) 0 := by
  have h0 : 0 ∉ ids := fun h => by have := (hids 0 h).1; omega
  let s : Finset Nat := insert 0 ids.toFinset
  have hcard : s.card = ids.length + 1 := by
    rw [Finset.card_insert_of_notMem (by simpa using h0), List.toFinset_card_of_nodup hnd]
  have hinj : Set.InjOn (fun i : Nat => (i : F)) (s : Set Nat) := by
    have hb : ∀ i ∈ s, i ≤ n := by
      intro i hi
      rcases Finset.mem_insert.1 hi with rfl | hi
      · exact Nat.zero_le _
      · exact (hids i (by simpa using hi)).2
    intro i hi j hj h
    exact hn i j (hb i hi) (hb j hj) h
  set l'' := l' ++ List.replicate (l.length - l'.length) (0 : F) with hl''
  have hlen : l.length = l''.length := by rw [hl'', List.length_append, List.length_replicate]; omega
  have hpoly : polyOf (x :: l) = polyOf (x :: l'') := by
    refine Polynomial.eq_of_degrees_lt_of_eval_index_eq s hinj ?_ ?_ ?_
    · rw [hcard]; exact lt_of_lt_of_le (degree_polyOf _) (by rw [List.length_cons]; exact_mod_cast by omega)
    · rw [hcard]; exact lt_of_lt_of_le (degree_polyOf _) (by rw [List.length_cons]; exact_mod_cast by omega)
    · intro i hi
      rw [eval_polyOf, eval_polyOf]
      rcases Finset.mem_insert.1 hi with rfl | hi
      · simp [horner]
      · have hi' : i ∈ ids := by simpa using hi
        have := h i hi'
        unfold shareOf at this
        rw [this, hl'', ← List.cons_append, horner_snoc_zero]
  exact (List.cons.inj (polyOf_injective (by simp [hlen]) hpoly)).2

end
end Horcrux
