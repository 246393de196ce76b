import Verif.Model.Retry
import Verif.Lemmas.Round
/-
Attempts at one block with one set of participants do not get into each other's way.
-/
namespace Horcrux
open Spec

section
variable {C : Crypto} {F G : Type} [Field F] [AddCommGroup G] [Module F G] {L : Lawful C F G}
  {pair : Bytes → Bytes → Prop} {n t : Nat} {cfg : Nat → CosignerCfg} {x : F} {kc : List F} {rsaPub : Nat → Bytes}

/-- Handing out a part for `q` from an existing record. -/
theorem getPart_held (hS : Setup C L pair n t cfg x kc rsaPub) {p q : Nat} (hp1 : 1 ≤ p) (hp2 : p ≤ n)
    (hq1 : 1 ≤ q) (hq2 : q ≤ n) {s s1 : CState} {k : HRST} (hk : IsI64 k.timestamp) {rnd : Rand} {ref : Nat}
    {sec r : Nat → Bytes} {D : List Nat} (hsec : (sec p).length = 32)
    (hm : metaFor C (cfg p) s k k rnd = some (ref, s1)) (hentry : s1.hrsMeta k = some ref)
    (hrec : s1.heap[ref]? = some (fullRecord L n t p sec r D)) :
    ∃ part s', getPart C (cfg p) s ⟨q, k.height, k.round, k.step, GoTime.ofUnixNano k.timestamp⟩ rnd = (.ok part, s') ∧
      PartFrom L cfg rsaPub (sec p) (L.coeffs (r p) t) p q part ∧ s'.lss = s1.lss ∧
      Rec s' k (fullRecord L n t p sec r (p :: D)) := by
  have hkey : GetPartReq.key ⟨q, k.height, k.round, k.step, GoTime.ofUnixNano k.timestamp⟩ = k := by
    unfold GetPartReq.key
    simp only [ofUnixNano_unixNano hk]
  obtain ⟨c, hc1, hc2⟩ := hS.rsa.encrypt (rsaPub q) (cfg q).rsaKey rnd.enc
    (L.sc (shareOf (L.val (sec p)) (L.coeffs (r p) t) q)) (hS.rsaKey q hq1 hq2) (L.sc_length _)
  obtain ⟨g, hg1, hg2⟩ := hS.rsa.sign (rsaPub p) (cfg p).rsaKey rnd.sig
    ⟨(p : Int), some (L.pt (L.val (sec p) • L.B)), some c⟩ (hS.rsaKey p hp1 hp2)
  unfold getPart
  simp only [hkey, hm, hrec]
  have e1 : (fullRecord L n t p sec r D).dealtShares = C.dealShares (sec p) (r p) t n := rfl
  have e2 : (fullRecord L n t p sec r D).secret = sec p := rfl
  have e3 : (fullRecord L n t p sec r D).peers = slotsOf L n sec (fun q => L.coeffs (r q) t) p D := rfl
  rw [e1, e2, hS.id p hp1 hp2, deal_get hS hsec hp1 hp2, deal_get hS hsec hq1 hq2, L.base _ hsec]
  simp only
  have hidx : goIndex (slotsOf L n sec (fun q => L.coeffs (r q) t) p D) ((p : Int) - 1) ≠ none := by
    unfold goIndex
    rw [if_neg (by omega), List.getElem?_eq_getElem (by rw [slotsOf_length]; omega)]
    simp
  obtain ⟨old, hold⟩ := Option.ne_none_iff_exists'.1 hidx
  unfold CState.setSlot
  rw [hrec]
  simp only
  rw [e3, hold]
  simp only [hS.peers p q hp1 hp2 hq1 hq2, hc1, hg1]
  refine ⟨_, _, rfl, ⟨rfl, rfl, rfl, ⟨c, rfl, hc2⟩, ⟨g, rfl, hg2⟩⟩, rfl, ref, hentry, ?_⟩
  rw [List.getElem?_set, if_pos rfl, if_pos (List.getElem?_eq_some_iff.1 hrec).1]
  have h1 : ((p : Int) - 1).toNat = p - 1 := by omega
  have h2 := slotsOf_set L n sec (fun q => L.coeffs (r q) t) p p D hp1
  unfold slotOf at h2
  rw [h1, h2]
  rfl

theorem fullRecord_idem (p q : Nat) (sec r : Nat → Bytes) (D : List Nat) (hq : q ∈ D) :
    fullRecord L n t p sec r (q :: D) = fullRecord L n t p sec r D := by
  unfold fullRecord
  rw [slotsOf_idem _ _ _ _ _ _ _ hq]

/-- The get-parts loop of a cosigner that has a record. -/
theorem getPartsLoop_held (hS : Setup C L pair n t cfg x kc rsaPub) {p : Nat} (hp1 : 1 ≤ p) (hp2 : p ≤ n)
    {k : HRST} (hk : IsI64 k.timestamp) {sec r : Nat → Bytes} (hsec : (sec p).length = 32) :
    ∀ (order : List Nat) (rnd : Nat → Rand) (s : CState) (acc : List SecretPart) (D : List Nat),
      (∀ q ∈ order, 1 ≤ q ∧ q ≤ n) → Rec s k (fullRecord L n t p sec r D) →
      ∃ parts s' D', getPartsLoop C (cfg p) k (order.map (fun q : Nat => (q : Int))) rnd s acc = (.ok (acc ++ parts), s') ∧
        s'.lss = s.lss ∧
        List.Forall₂ (fun q part => PartFrom L cfg rsaPub (sec p) (L.coeffs (r p) t) p q part)
          (order.filter (fun q => q ≠ p)) parts ∧
        (∀ q ∈ D', q ∈ D ∨ q = p) ∧ ((∃ q ∈ order, q ≠ p) → p ∈ D') ∧ (p ∈ D → p ∈ D') ∧
        Rec s' k (fullRecord L n t p sec r D') := by
  intro order
  induction order with
  | nil => intro rnd s acc D _ hrec; exact ⟨[], s, D, by simp [getPartsLoop], rfl, by simp, fun q h => .inl h, by simp, id, hrec⟩
  | cons q order ih =>
    intro rnd s acc D hord hrec
    simp only [List.map_cons, getPartsLoop]
    rw [hS.id p hp1 hp2]
    by_cases hqp : q = p
    · subst hqp
      rw [if_pos rfl]
      obtain ⟨parts, s', D', h1, h2, h3, h4, h5, h6, h7⟩ := ih (fun n => rnd (n + 1)) s acc D
        (fun q' h => hord q' (List.mem_cons_of_mem _ h)) hrec
      refine ⟨parts, s', D', h1, h2, by simpa using h3, h4, ?_, h6, h7⟩
      rintro ⟨q', hq', hne⟩
      rcases List.mem_cons.1 hq' with rfl | hq'
      · exact absurd rfl hne
      · exact h5 ⟨q', hq', hne⟩
    · rw [if_neg (by exact_mod_cast hqp)]
      obtain ⟨ref, e1, e2⟩ := hrec
      have hm : metaFor C (cfg p) s k k (rnd 0) = some (ref, s) := by unfold metaFor; rw [e1]
      obtain ⟨part, s1, g1, g2, g3, g4⟩ := getPart_held hS hp1 hp2 (hord q (List.mem_cons_self ..)).1
        (hord q (List.mem_cons_self ..)).2 hk hsec hm e1 e2
      rw [g1]
      simp only
      obtain ⟨parts, s', D', h1, h2, h3, h4, h5, h6, h7⟩ := ih (fun n => rnd (n + 1)) s1 (acc ++ [part]) (p :: D)
        (fun q' h => hord q' (List.mem_cons_of_mem _ h)) g4
      refine ⟨part :: parts, s', D', by simpa using h1, by rw [h2, g3], ?_, ?_, fun _ => h6 (by simp), fun _ => h6 (by simp), h7⟩
      · rw [List.filter_cons_of_pos (by simpa using hqp)]
        exact .cons g2 h3
      · intro q' hq'
        rcases h4 q' hq' with h | h
        · rcases List.mem_cons.1 h with h | h
          · exact .inr h
          · exact .inl h
        · exact .inr h

/-- The signed state of participant `p`. -/
structure SignedAs (L : Lawful C F G) (n t : Nat) (sec r : Nat → Bytes) (ps : List Nat) (x : F) (kc : List F) (k : HRST)
    (bs : Bytes) (p : Nat) (s : CState) : Prop where
  hrs : s.lss.hrs = k.hrs
  signBytes : s.lss.signBytes = some bs
  signature : s.lss.signature = some (L.sc (shareSig L n t sec r ps x kc bs p))
  ephemeral : s.lss.ephemeralPublic = some (L.pt (jointR L n sec ps))

theorem sign_signedAs (p : Nat) {sec r : Nat → Bytes} {ps : List Nat} {k : HRST} {bs : Bytes} {s : CState}
    (hu : unpackHRST bs = .ok k) (h : SignedAs L n t sec r ps x kc k bs p s) :
    sign C (cfg p) s bs = (.ok ⟨some (L.pt (jointR L n sec ps)), some (L.sc (shareSig L n t sec r ps x kc bs p)), none⟩, s) := by
  have hh := h.hrs
  unfold SignState.hrs HRST.hrs at hh
  simp only [HRS.mk.injEq] at hh
  obtain ⟨h1, h2, h3⟩ := hh
  have hc : s.lss.checkHRS k = .ok true := by
    unfold SignState.checkHRS
    rw [if_neg (by omega), if_pos h1, if_neg (by omega), if_pos h2, if_neg (by omega), if_pos h3, h.signBytes, h.signature]
  unfold sign
  rw [hu]; simp only; rw [hc]; simp only
  rw [h.signBytes, h.signature, h.ephemeral]
  simp [Slice.bytes]

theorem sign_fresh (hS : Setup C L pair n t cfg x kc rsaPub) {p : Nat} (hp1 : 1 ≤ p) (hp2 : p ≤ n)
    {s : CState} {k : HRST} {bs : Bytes} (hu : unpackHRST bs = .ok k) (hlt : s.lss.hrs ≺ k.hrs)
    {sec r : Nat → Bytes} {D : List Nat} (hrec : Rec s k (fullRecord L n t p sec r D)) :
    ∃ res s', sign C (cfg p) s bs = (.ok res, s') ∧ SignedAs L n t sec r D x kc k bs p s' ∧
      Rec s' k (fullRecord L n t p sec r D) ∧
      res.signature = some (L.sc (shareSig L n t sec r D x kc bs p)) ∧
      res.ephemeralPublic = some (L.pt (jointR L n sec D)) := by
  obtain ⟨ref, e1, e2⟩ := hrec
  have hES : C.addScalars ((fullRecord L n t p sec r D).used.map (·.share))
      = L.sc ((idsOf n D).map (fun q => shareOf (L.val (sec q)) (L.coeffs (r q) t) p)).sum := by
    rw [used_fullRecord, List.map_map, ← L.addScalars, List.map_map]
    rfl
  have hEP : C.addElements ((fullRecord L n t p sec r D).used.map (·.ephemeralSecretPublicKey))
      = L.pt (jointR L n sec D) := by
    unfold jointR
    rw [used_fullRecord, List.map_map, ← L.addElements, List.map_map]
    rfl
  have hc : s.lss.checkHRS k = .ok false := by
    unfold HRS.lt SignState.hrs HRST.hrs at hlt
    simp only at hlt
    unfold SignState.checkHRS
    rcases hlt with h | ⟨h, h' | ⟨h', h''⟩⟩
    · rw [if_neg (by omega), if_neg (by omega)]
    · rw [if_neg (by omega), if_pos h, if_neg (by omega), if_neg (by omega)]
    · rw [if_neg (by omega), if_pos h, if_neg (by omega), if_pos h', if_neg (by omega), if_neg (by omega)]
  have hs : sign C (cfg p) s bs = signFresh C (cfg p) s bs k := by
    unfold sign
    rw [hu]; simp only; rw [hc]
  rw [hs]
  unfold signFresh
  rw [e1]; simp only; rw [e2]; simp only
  rw [hES, hEP, L.sc_length, L.sc_minimal]
  simp only [ne_eq, not_true_eq_false, if_false, Bool.true_eq_false]
  rw [hS.shareKey p hp1 hp2, hS.pub p hp1 hp2, L.sign]
  have hsv := SignState.save_ok { s.lss with ephemeralPublic := some (L.pt (jointR L n sec D)) }
    ⟨k.height, k.round, k.step, some (L.sc (((idsOf n D).map (fun q => shareOf (L.val (sec q)) (L.coeffs (r q) t) p)).sum +
      L.chal (L.pt (jointR L n sec D)) (L.pt (x • L.B)) bs * shareOf x kc p)), some bs⟩ hlt
  rw [hsv]
  simp only
  refine ⟨_, _, rfl, ⟨rfl, rfl, rfl, rfl⟩, ⟨ref, ?_, e2⟩, rfl, rfl⟩
  unfold CState.prune
  simp only
  rw [if_neg, e1]
  rw [Bool.not_eq_true, HRST.less]
  simp

/-- Setting parts that go with the record. -/
theorem setParts_held (hS : Setup C L pair n t cfg x kc rsaPub) {p : Nat} (hp1 : 1 ≤ p) (hp2 : p ≤ n)
    {k : HRST} (hk : IsI64 k.timestamp) {bs : Bytes} {sec r : Nat → Bytes} :
    ∀ (qs : List Nat) (parts : List SecretPart) (rnd : Nat → Rand) (s : CState) (D : List Nat),
      (∀ q ∈ qs, 1 ≤ q ∧ q ≤ n) →
      List.Forall₂ (fun q part => PartFrom L cfg rsaPub (sec q) (L.coeffs (r q) t) q p part) qs parts →
      Rec s k (fullRecord L n t p sec r D) →
      ∃ s1, setPartsAndSign C (cfg p) k bs parts rnd s = sign C (cfg p) s1 bs ∧ s1.lss = s.lss ∧
        Rec s1 k (fullRecord L n t p sec r (qs.reverse ++ D)) := by
  intro qs parts rnd s D hqs hf
  induction hf generalizing rnd s D with
  | nil =>
    intro hrec
    exact ⟨s, by simp only [setPartsAndSign], rfl, by simpa using hrec⟩
  | @cons q part qs parts hq _ ih =>
    intro hrec
    obtain ⟨h1, h2⟩ := hqs q (List.mem_cons_self ..)
    obtain ⟨s1, g1, g2, g3⟩ := setPart_honest hS hp1 hp2 h1 h2 hk (rnd := rnd 0) hq hrec
    simp only [setPartsAndSign, g1]
    obtain ⟨s2, a1, a2, a3⟩ := ih (fun n => rnd (n + 1)) s1 (q :: D)
      (fun q' h => hqs q' (List.mem_cons_of_mem _ h)) g3
    exact ⟨s2, a1, a2.trans g2, by simpa using a3⟩

theorem fullRecord_congr {p : Nat} {sec sec' r r' : Nat → Bytes} {D D' : List Nat} (hp : sec p = sec' p ∧ r p = r' p)
    (hD : ∀ q, q ∈ D ↔ q ∈ D') (h : ∀ q ∈ D, sec q = sec' q ∧ r q = r' q) :
    fullRecord L n t p sec r D = fullRecord L n t p sec' r' D' := by
  unfold fullRecord
  rw [hp.1, hp.2]
  congr 1
  rw [slotsOf_congr L n sec sec' _ (fun q => L.coeffs (r' q) t) p D (fun q hq => ⟨(h q hq).1, by simp only [(h q hq).2]⟩)]
  unfold slotsOf
  simp only [hD]

theorem shareSig_congr {p : Nat} {sec sec' r r' : Nat → Bytes} {D D' : List Nat} {bs : Bytes}
    (hD : ∀ q, q ∈ D ↔ q ∈ D') (h : ∀ q ∈ D, sec q = sec' q ∧ r q = r' q) :
    shareSig L n t sec r D x kc bs p = shareSig L n t sec' r' D' x kc bs p ∧ jointR L n sec D = jointR L n sec' D' := by
  have h2 : jointR L n sec D = jointR L n sec' D' := by
    unfold jointR
    rw [idsOf_congr hD]
    congr 1
    refine List.map_congr_left fun q hq => ?_
    rw [(h q ((hD q).2 (mem_idsOf.1 hq).1)).1]
  refine ⟨?_, h2⟩
  unfold shareSig
  rw [h2, idsOf_congr hD]
  congr 2
  refine List.map_congr_left fun q hq => ?_
  have := h q ((hD q).2 (mem_idsOf.1 hq).1)
  rw [this.1, this.2]

/-- Parts for everybody else. -/
def AnswerOf (L : Lawful C F G) (cfg : Nat → CosignerCfg) (rsaPub : Nat → Bytes) (n t : Nat) (sec r : Nat → Bytes) (p : Nat)
    (a : List SecretPart) : Prop :=
  ∃ ds : List Nat, (∀ q, 1 ≤ q → q ≤ n → q ≠ p → q ∈ ds) ∧
    List.Forall₂ (fun q part => PartFrom L cfg rsaPub (sec p) (L.coeffs (r p) t) p q part) (ds.filter (fun q => q ≠ p)) a

/-- What holds while attempts with participants `ps` are being made; `H` are the cosigners with nonces for the block. -/
structure TryInv (L : Lawful C F G) (n t : Nat) (cfg : Nat → CosignerCfg) (x : F) (kc : List F) (rsaPub : Nat → Bytes)
    (ps : List Nat) (k : HRST) (bs : Bytes) (sec r : Nat → Bytes) (H : List Nat) (s : TryState) : Prop where
  new : ∀ p, 1 ≤ p → p ≤ n → p ∉ H → (s.cs p).hrsMeta k = none ∧ (s.cs p).lss.hrs ≺ k.hrs ∧ s.answers p = []
  secret : ∀ p ∈ H, (sec p).length = 32
  held : ∀ p, 1 ≤ p → p ≤ n → p ∈ H → ∃ D, p ∈ D ∧ (∀ q ∈ D, q ∈ H ∧ (q ∈ ps ∨ q = p)) ∧
    Rec (s.cs p) k (fullRecord L n t p sec r D) ∧
    ((s.cs p).lss.hrs ≺ k.hrs ∨ (∀ q ∈ ps, q ∈ H) ∧ SignedAs L n t sec r ps x kc k bs p (s.cs p))
  answers : ∀ p, 1 ≤ p → p ≤ n → ∀ a ∈ s.answers p, AnswerOf L cfg rsaPub n t sec r p a

theorem TryInv.start {ps : List Nat} {k : HRST} {bs : Bytes} {st : Nat → CState}
    (hlow : ∀ p, 1 ≤ p → p ≤ n → (st p).lss.hrs ≺ k.hrs) (hnew : ∀ p, 1 ≤ p → p ≤ n → (st p).hrsMeta k = none) :
    TryInv L n t cfg x kc rsaPub ps k bs (fun _ => []) (fun _ => []) [] ⟨st, fun _ => []⟩ where
  new := fun p h1 h2 _ => ⟨hnew p h1 h2, hlow p h1 h2, rfl⟩
  secret := by simp
  held := by simp
  answers := by simp

/-- A cosigner is asked for its parts. -/
theorem TryInv.ask (hS : Setup C L pair n t cfg x kc rsaPub) (hn : 2 ≤ n) {ps : List Nat} {k : HRST}
    (hk : IsI64 k.timestamp) {bs : Bytes} {sec r : Nat → Bytes} {H : List Nat} {s : TryState}
    (h : TryInv L n t cfg x kc rsaPub ps k bs sec r H s) {p : Nat} (hp1 : 1 ≤ p) (hp2 : p ≤ n) {ord : List Nat}
    (hord : ord.Perm (List.range' 1 n)) {rnd : Nat → Rand}
    (hrnd : ∀ i, ∃ sec, (rnd i).secret = some sec ∧ sec.length = 32) :
    ∃ sec' r', (∀ q ∈ H, sec' q = sec q ∧ r' q = r q) ∧
      TryInv L n t cfg x kc rsaPub ps k bs sec' r' (p :: H)
        (s.step C cfg k bs (.ask p (ord.map (fun q : Nat => (q : Int))) rnd)) ∧
      (∃ a s', getParts C (cfg p) k (ord.map (fun q : Nat => (q : Int))) rnd (s.cs p) = (.ok a, s')) ∧
      (p ∉ H → ∃ i, (rnd i).secret = some (sec' p)) := by
  have hmem : ∀ q, q ∈ ord ↔ 1 ≤ q ∧ q ≤ n := by
    intro q; rw [hord.mem_iff, List.mem_range'_1]; omega
  have hother : ∃ q ∈ ord, q ≠ p := by
    by_cases h : p = 1
    · exact ⟨2, (hmem 2).2 ⟨by omega, hn⟩, by omega⟩
    · exact ⟨1, (hmem 1).2 ⟨le_refl _, by omega⟩, Ne.symm h⟩
  have hne : ord.map (fun q : Nat => (q : Int)) ≠ [] := by
    intro h0
    rw [List.map_eq_nil_iff] at h0
    obtain ⟨q, hq, _⟩ := hother
    rw [h0] at hq; cases hq
  by_cases hpH : p ∈ H
  · obtain ⟨D, hpD, hD, hrec, hl⟩ := h.held p hp1 hp2 hpH
    obtain ⟨parts, s', D', g1, g2, g3, g4, _, g6, g7⟩ := getPartsLoop_held hS hp1 hp2 hk (h.secret p hpH) ord rnd (s.cs p) []
      D (fun q hq => (hmem q).1 hq) hrec
    have hg : getParts C (cfg p) k (ord.map (fun q : Nat => (q : Int))) rnd (s.cs p) = (.ok parts, s') := by
      unfold getParts; rw [if_neg hne, g1]; simp
    refine ⟨sec, r, fun _ _ => ⟨rfl, rfl⟩, ?_, ⟨parts, s', hg⟩, fun h => absurd hpH h⟩
    simp only [TryState.step, hg]
    constructor
    · intro q h1 h2 hq
      have hqp : q ≠ p := fun e => hq (by simp [e])
      have hqH : q ∉ H := fun e => hq (by simp [e])
      simp only [if_neg hqp]
      exact h.new q h1 h2 hqH
    · intro q hq
      rcases List.mem_cons.1 hq with rfl | hq
      · exact h.secret _ hpH
      · exact h.secret _ hq
    · intro q h1 h2 hq
      by_cases hqp : q = p
      · subst hqp
        simp only [if_true]
        refine ⟨D', g6 hpD, ?_, g7, ?_⟩
        · intro q' hq'
          rcases g4 q' hq' with h' | h'
          · exact ⟨by simp [(hD q' h').1], (hD q' h').2⟩
          · exact ⟨by simp [h'], .inr h'⟩
        · rcases hl with hl | ⟨hl, hs⟩
          · left; rw [g2]; exact hl
          · right
            refine ⟨fun q' hq' => by simp [hl q' hq'], ?_⟩
            exact ⟨by rw [g2]; exact hs.hrs, by rw [g2]; exact hs.signBytes, by rw [g2]; exact hs.signature,
              by rw [g2]; exact hs.ephemeral⟩
      · have hqH : q ∈ H := by
          rcases List.mem_cons.1 hq with e | e
          · exact absurd e hqp
          · exact e
        simp only [if_neg hqp]
        obtain ⟨D2, a0, a1, a2, a3⟩ := h.held q h1 h2 hqH
        refine ⟨D2, a0, fun q' hq' => ⟨by simp [(a1 q' hq').1], (a1 q' hq').2⟩, a2, ?_⟩
        rcases a3 with a3 | ⟨a3, a4⟩
        · exact .inl a3
        · exact .inr ⟨fun q' hq' => by simp [a3 q' hq'], a4⟩
    · intro q h1 h2 a ha
      by_cases hqp : q = p
      · subst hqp
        simp only [if_true, okParts, List.mem_cons] at ha
        rcases ha with rfl | ha
        · exact ⟨ord, fun q' a b _ => (hmem q').2 ⟨a, b⟩, g3⟩
        · exact h.answers _ h1 h2 a ha
      · simp only [if_neg hqp] at ha
        exact h.answers q h1 h2 a ha
  · obtain ⟨b1, b2, b3⟩ := h.new p hp1 hp2 hpH
    obtain ⟨sc, rr, parts, s', hsc, ⟨i, hi, _⟩, g1, g2, g3, g4⟩ := getPartsLoop_fresh hS hp1 hp2 hk ord rnd (s.cs p)
      (fun q hq => (hmem q).1 hq) hother b1 hrnd
    have hg : getParts C (cfg p) k (ord.map (fun q : Nat => (q : Int))) rnd (s.cs p) = (.ok parts, s') := by
      unfold getParts; rw [if_neg hne, g1]
    refine ⟨fun q => if q = p then sc else sec q, fun q => if q = p then rr else r q, ?_, ?_,
      ⟨parts, s', hg⟩, fun _ => ⟨i, by simpa using hi⟩⟩
    · intro q hq
      have : q ≠ p := fun e => hpH (e ▸ hq)
      simp [this]
    simp only [TryState.step, hg]
    have hagree : ∀ q ∈ H, sec q = (fun q => if q = p then sc else sec q) q ∧ r q = (fun q => if q = p then rr else r q) q := by
      intro q hq
      have : q ≠ p := fun e => hpH (e ▸ hq)
      simp [this]
    constructor
    · intro q h1 h2 hq
      have hqp : q ≠ p := fun e => hq (by simp [e])
      have hqH : q ∉ H := fun e => hq (by simp [e])
      simp only [if_neg hqp]
      exact h.new q h1 h2 hqH
    · intro q hq
      rcases List.mem_cons.1 hq with rfl | hq
      · simpa using hsc
      · have : q ≠ p := fun e => hpH (e ▸ hq)
        simpa [this] using h.secret _ hq
    · intro q h1 h2 hq
      by_cases hqp : q = p
      · subst hqp
        simp only [if_true]
        refine ⟨[q], by simp, by simp, ?_, .inl (by rw [g2]; exact b2)⟩
        have : ownRecord L n t q sc rr = fullRecord L n t q (fun q' => if q' = q then sc else sec q')
            (fun q' => if q' = q then rr else r q') [q] := by
          have := fullRecord_congr (L := L) (n := n) (t := t) (p := q) (sec := fun _ => sc) (r := fun _ => rr)
            (sec' := fun q' => if q' = q then sc else sec q') (r' := fun q' => if q' = q then rr else r q') (D := [q]) (D' := [q])
            (by simp) (fun _ => Iff.rfl) (by simp)
          rw [← this]; rfl
        rw [← this]; exact g4
      · have hqH : q ∈ H := by
          rcases List.mem_cons.1 hq with e | e
          · exact absurd e hqp
          · exact e
        simp only [if_neg hqp]
        obtain ⟨D2, a0, a1, a2, a3⟩ := h.held q h1 h2 hqH
        refine ⟨D2, a0, fun q' hq' => ⟨by simp [(a1 q' hq').1], (a1 q' hq').2⟩, ?_, ?_⟩
        · rw [← fullRecord_congr (hagree q hqH) (fun _ => Iff.rfl) (fun q' hq' => hagree q' (a1 q' hq').1)]
          exact a2
        rcases a3 with a3 | ⟨a3, a4⟩
        · exact .inl a3
        · have hc := shareSig_congr (L := L) (n := n) (t := t) (x := x) (kc := kc) (bs := bs) (p := q) (D := ps) (D' := ps)
            (fun _ => Iff.rfl) (fun q' hq' => hagree q' (a3 q' hq'))
          exact .inr ⟨fun q' hq' => by simp [a3 q' hq'], a4.hrs, a4.signBytes, by rw [← hc.1]; exact a4.signature,
            by rw [← hc.2]; exact a4.ephemeral⟩
    · intro q h1 h2 a ha
      by_cases hqp : q = p
      · subst hqp
        simp only [if_true, okParts, b3, List.mem_singleton] at ha
        subst ha
        exact ⟨ord, fun q' a b _ => (hmem q').2 ⟨a, b⟩, by simpa using g3⟩
      · simp only [if_neg hqp] at ha
        obtain ⟨ds, d1, d2⟩ := h.answers q h1 h2 a ha
        refine ⟨ds, d1, ?_⟩
        simpa only [if_neg hqp] using d2

/-- A participant is sent parts out of the answers given for the block. -/
theorem TryInv.sign (hS : Setup C L pair n t cfg x kc rsaPub) {ps : List Nat} (hps : ∀ p ∈ ps, 1 ≤ p ∧ p ≤ n)
    {k : HRST} (hk : IsI64 k.timestamp) {bs : Bytes} (hu : unpackHRST bs = .ok k) {sec r : Nat → Bytes} {H : List Nat}
    {s : TryState} (h : TryInv L n t cfg x kc rsaPub ps k bs sec r H s) {p : Nat} (hp : p ∈ ps) {mapOrder : List Nat}
    (hmap : mapOrder.Perm ps) {ans : Nat → List SecretPart} (hans : ∀ q ∈ ps, ans q ∈ s.answers q) (rnd : Nat → Rand) :
    TryInv L n t cfg x kc rsaPub ps k bs sec r H (s.step C cfg k bs (.sign p mapOrder ans rnd)) ∧
    ∃ res s', setPartsAndSign C (cfg p) k bs (partsFor (mapOrder.map fun q : Nat => ((q : Int), ans q)) (p : Int)) rnd
      (s.cs p) = (.ok res, s') ∧ SignedAs L n t sec r ps x kc k bs p s' ∧
      res.signature = some (L.sc (shareSig L n t sec r ps x kc bs p)) ∧
      res.ephemeralPublic = some (L.pt (jointR L n sec ps)) ∧
      ∃ D', (∀ q, q ∈ D' ↔ q ∈ ps) ∧ Rec s' k (fullRecord L n t p sec r D') := by
  have hall : ∀ q ∈ ps, q ∈ H := by
    intro q hq
    by_contra hc
    have := (h.new q (hps q hq).1 (hps q hq).2 hc).2.2
    have h2 := hans q hq
    rw [this] at h2; cases h2
  have hm : ∀ q, q ∈ mapOrder ↔ q ∈ ps := fun q => hmap.mem_iff
  obtain ⟨D, hpD, hD, hrec, hl⟩ := h.held p (hps p hp).1 (hps p hp).2 (hall p hp)
  have hAns : ∀ q, ∃ ds : List Nat, q ∈ ps → (∀ q', 1 ≤ q' → q' ≤ n → q' ≠ q → q' ∈ ds) ∧
    List.Forall₂ (fun q' part => PartFrom L cfg rsaPub (sec q) (L.coeffs (r q) t) q q' part) (ds.filter (fun q' => q' ≠ q)) (ans q) := by
    intro q
    by_cases hq : q ∈ ps
    · obtain ⟨ds, d1, d2⟩ := h.answers q (hps q hq).1 (hps q hq).2 _ (hans q hq)
      exact ⟨ds, fun _ => ⟨d1, d2⟩⟩
    · exact ⟨[], fun h => absurd h hq⟩
  choose order horder using hAns
  have hroute := partsFor_honest (L := L) (cfg := cfg) (rsaPub := rsaPub) (p := p) (ps := mapOrder) (parts := ans)
    (order := order) (sec := sec) (co := fun q => L.coeffs (r q) t)
    (fun q hq => (horder q ((hm q).1 hq)).2)
    (fun q hq hne => (horder q ((hm q).1 hq)).1 p (hps p hp).1 (hps p hp).2 (Ne.symm hne))
  obtain ⟨s1, a1, a2, a3⟩ := setParts_held hS (hps p hp).1 (hps p hp).2 hk (bs := bs) (mapOrder.filter (fun q => q ≠ p)) _ rnd
    (s.cs p) D (fun q hq => hps q ((hm q).1 (List.mem_filter.1 hq).1)) hroute hrec
  -- the finished step, from the result
  have fin : ∀ res s', setPartsAndSign C (cfg p) k bs (partsFor (mapOrder.map fun q : Nat => ((q : Int), ans q)) (p : Int)) rnd
      (s.cs p) = (.ok res, s') → SignedAs L n t sec r ps x kc k bs p s' →
      (∃ D', p ∈ D' ∧ (∀ q ∈ D', q ∈ ps) ∧ Rec s' k (fullRecord L n t p sec r D')) →
      TryInv L n t cfg x kc rsaPub ps k bs sec r H (s.step C cfg k bs (.sign p mapOrder ans rnd)) := by
    intro res s' hres hsig hex
    simp only [TryState.step, hres]
    constructor
    · intro q h1 h2 hq
      have hqp : q ≠ p := fun e => hq (e ▸ hall p hp)
      simp only [if_neg hqp]
      exact h.new q h1 h2 hq
    · exact h.secret
    · intro q h1 h2 hq
      by_cases hqp : q = p
      · subst hqp
        simp only [if_true]
        obtain ⟨D', d0, d1, d2⟩ := hex
        exact ⟨D', d0, fun q' hq' => ⟨hall q' (d1 q' hq'), .inl (d1 q' hq')⟩, d2, .inr ⟨hall, hsig⟩⟩
      · simp only [if_neg hqp]
        exact h.held q h1 h2 hq
    · exact h.answers
  have hsub : ∀ q ∈ (mapOrder.filter (fun q => q ≠ p)).reverse ++ D, q ∈ ps := by
    intro q hq
    rw [List.mem_append, List.mem_reverse, List.mem_filter, hm] at hq
    rcases hq with hq | hq
    · exact hq.1
    · rcases (hD q hq).2 with h | h
      · exact h
      · exact h ▸ hp
  have hset : ∀ q, q ∈ (mapOrder.filter (fun q => q ≠ p)).reverse ++ D ↔ q ∈ ps := by
    intro q
    refine ⟨hsub q, fun hq => ?_⟩
    rw [List.mem_append, List.mem_reverse, List.mem_filter, hm]
    by_cases e : q = p
    · exact .inr (e ▸ hpD)
    · exact .inl ⟨hq, by simpa using e⟩
  rcases hl with hl | ⟨_, hl⟩
  · obtain ⟨res, s', b1, b2, b3, b4, b5⟩ := sign_fresh hS (hps p hp).1 (hps p hp).2 hu (by rw [a2]; exact hl) a3
    have hc := shareSig_congr (L := L) (n := n) (t := t) (x := x) (kc := kc) (bs := bs) (p := p) (sec := sec) (sec' := sec)
      (r := r) (r' := r) hset (fun _ _ => ⟨rfl, rfl⟩)
    rw [hc.1] at b4
    rw [hc.2] at b5
    have b2' : SignedAs L n t sec r ps x kc k bs p s' :=
      ⟨b2.hrs, b2.signBytes, by rw [b2.signature, hc.1], by rw [b2.ephemeral, hc.2]⟩
    exact ⟨fin res s' (by rw [a1, b1]) b2' ⟨_, List.mem_append_right _ hpD, hsub, b3⟩, res, s', by rw [a1, b1], b2', b4, b5, _, hset, b3⟩
  · have hl1 : SignedAs L n t sec r ps x kc k bs p s1 :=
      ⟨by rw [a2]; exact hl.hrs, by rw [a2]; exact hl.signBytes, by rw [a2]; exact hl.signature, by rw [a2]; exact hl.ephemeral⟩
    have b1 := sign_signedAs (cfg := cfg) p hu hl1
    exact ⟨fin _ s1 (by rw [a1, b1]) hl1 ⟨_, List.mem_append_right _ hpD, hsub, a3⟩, _, s1, by rw [a1, b1], hl1, rfl, rfl, _, hset, a3⟩

/-- A record below the block made known by raft. -/
theorem TryInv.event {ps : List Nat} {k : HRST} {bs : Bytes} {sec r : Nat → Bytes} {H : List Nat} {s : TryState}
    (h : TryInv L n t cfg x kc rsaPub ps k bs sec r H s) (p : Nat) (ssc : SSC) (hlow : ssc.hrs ≺ k.hrs) :
    TryInv L n t cfg x kc rsaPub ps k bs sec r H (s.step C cfg k bs (.event p ssc)) := by
  have hl : ∀ l : SignState, l.hrs ≺ k.hrs → (l.save ssc).2.hrs ≺ k.hrs := by
    intro l h
    rw [SignState.save_hrs]
    split
    · exact hlow
    · exact h
  simp only [TryState.step]
  constructor
  · intro q h1 h2 hq
    obtain ⟨a, b, c⟩ := h.new q h1 h2 hq
    by_cases hqp : q = p
    · subst hqp; simp only [if_true]; exact ⟨a, hl _ b, c⟩
    · simp only [if_neg hqp]; exact ⟨a, b, c⟩
  · exact h.secret
  · intro q h1 h2 hq
    obtain ⟨D, d0, d1, d2, d3⟩ := h.held q h1 h2 hq
    by_cases hqp : q = p
    · subst hqp
      simp only [if_true]
      refine ⟨D, d0, d1, d2, ?_⟩
      rcases d3 with d3 | ⟨d3, d4⟩
      · exact .inl (hl _ d3)
      · refine .inr ⟨d3, ?_⟩
        have he : ((s.cs q).lss.save ssc).2 = (s.cs q).lss := by
          refine SignState.save_err _ _ ?_
          rw [d4.hrs, HRS.not_lt]
          exact HRS.le_of_lt hlow
        rw [he]
        exact d4
    · simp only [if_neg hqp]; exact ⟨D, d0, d1, d2, d3⟩
  · exact h.answers

/-- All of `qs` are asked for their parts. -/
theorem TryInv.askAll (hS : Setup C L pair n t cfg x kc rsaPub) (hn : 2 ≤ n) {ps : List Nat} {k : HRST}
    (hk : IsI64 k.timestamp) {bs : Bytes} {ord : Nat → List Nat} (hord : ∀ p, (ord p).Perm (List.range' 1 n))
    {rnd : Nat → Nat → Rand} (hrnd : ∀ p i, ∃ sec, (rnd p i).secret = some sec ∧ sec.length = 32) :
    ∀ (qs : List Nat) (sec r : Nat → Bytes) (H : List Nat) (s : TryState), qs.Nodup → (∀ p ∈ qs, 1 ≤ p ∧ p ≤ n) →
      TryInv L n t cfg x kc rsaPub ps k bs sec r H s →
      ∃ sec' r' H' s', TryInv L n t cfg x kc rsaPub ps k bs sec' r' H' s' ∧ (∀ p, p ∉ qs → s'.cs p = s.cs p) ∧
        (∀ p ∈ qs, s'.cs p = (getParts C (cfg p) k ((ord p).map (fun q : Nat => (q : Int))) (rnd p) (s.cs p)).2 ∧
          okParts (getParts C (cfg p) k ((ord p).map (fun q : Nat => (q : Int))) (rnd p) (s.cs p)).1 ∈ s'.answers p) ∧
        (∀ p, ∀ a ∈ s.answers p, a ∈ s'.answers p) ∧ (∀ q ∈ H, sec' q = sec q ∧ r' q = r q) ∧
        (∀ p ∈ qs, p ∉ H → ∃ i, (rnd p i).secret = some (sec' p)) := by
  intro qs
  induction qs with
  | nil => intro sec r H s _ _ h; exact ⟨sec, r, H, s, h, fun _ _ => rfl, by simp, fun _ _ h => h, fun _ _ => ⟨rfl, rfl⟩, by simp⟩
  | cons p qs ih =>
    intro sec r H s hnd hqs h
    obtain ⟨hp, hnd⟩ := List.nodup_cons.1 hnd
    obtain ⟨sec1, r1, h0, h1, _, h2⟩ := h.ask hS hn hk (hqs p (by simp)).1 (hqs p (by simp)).2 (hord p) (hrnd p)
    obtain ⟨sec2, r2, H2, s2, e1, e2, e3, e4, e5, e6⟩ := ih sec1 r1 _ _ hnd (fun q hq => hqs q (by simp [hq])) h1
    refine ⟨sec2, r2, H2, s2, e1, ?_, ?_, ?_, fun q hq => ?_, fun q hq hqH => ?_⟩
    · intro q hq
      have hqp : q ≠ p := fun e => hq (by simp [e])
      rw [e2 q (fun e => hq (by simp [e]))]
      simp [TryState.step, hqp]
    · intro q hq
      by_cases hqp : q = p
      · subst hqp
        rw [e2 q hp]
        refine ⟨by simp [TryState.step], e4 q _ ?_⟩
        simp [TryState.step]
      · have hq' : q ∈ qs := by
          rcases List.mem_cons.1 hq with e | e
          · exact absurd e hqp
          · exact e
        have := e3 q hq'
        simpa [TryState.step, hqp] using this
    · intro q a ha
      refine e4 q a ?_
      simp only [TryState.step]
      split
      · exact List.mem_cons_of_mem _ ha
      · exact ha
    · have a := e5 q (List.mem_cons_of_mem _ hq)
      have b := h0 q hq
      exact ⟨a.1.trans b.1, a.2.trans b.2⟩
    · by_cases hqp : q = p
      · subst hqp
        rw [(e5 q (by simp)).1]
        exact h2 hqH
      · have hq' : q ∈ qs := by
          rcases List.mem_cons.1 hq with e | e
          · exact absurd e hqp
          · exact e
        exact e6 q hq' (by simp [hqp, hqH])

/-- A complete round after any attempts, and that it can be done again. -/
theorem round_full (hS : Setup C L pair n t cfg x kc rsaPub) (hn : 2 ≤ n) {ps : List Nat} (hnd : ps.Nodup)
    (hps : ∀ p ∈ ps, 1 ≤ p ∧ p ≤ n) (hlen : t ≤ ps.length) {leader : Nat} (hleader : leader ∈ ps)
    {k : HRST} (hk : IsI64 k.timestamp) {bs : Bytes} (hu : unpackHRST bs = .ok k)
    {ord : Nat → List Nat} (hord : ∀ p, (ord p).Perm (List.range' 1 n))
    {mapOrder : Nat → List Nat} (hmap : ∀ p, (mapOrder p).Perm ps)
    {rnd1 rnd2 : Nat → Nat → Rand} (hrnd : ∀ p i, ∃ sec, (rnd1 p i).secret = some sec ∧ sec.length = 32)
    {sec r : Nat → Bytes} {H : List Nat} {s : TryState} (h : TryInv L n t cfg x kc rsaPub ps k bs sec r H s) :
    ∃ shares eph st' sig, roundShares C cfg ps leader n k bs
        (fun p => (ord p).map (fun q : Nat => (q : Int))) mapOrder rnd1 rnd2 s.cs = ((shares, eph), st') ∧
      assemble C t (L.pt (x • L.B)) bs shares eph = .ok sig ∧ C.verify (L.pt (x • L.B)) bs sig = true ∧
      (∀ p, p ∉ ps → st' p = s.cs p) ∧ ∃ sec' r', (∀ q ∈ H, sec' q = sec q ∧ r' q = r q) ∧
      (∀ p ∈ ps, SignedAs L n t sec' r' ps x kc k bs p (st' p)) ∧
      shares = ((List.range n).map fun i => if i + 1 ∈ ps then L.sc (shareSig L n t sec' r' ps x kc bs (i + 1)) else []) ∧
      eph = L.pt (jointR L n sec' ps) ∧
      (∀ st'' : Nat → CState, (∀ p ∈ ps, st'' p = st' p) →
        (∀ p, 1 ≤ p → p ≤ n → p ∉ ps → (st'' p).hrsMeta k = none ∧ (st'' p).lss.hrs ≺ k.hrs) →
        ∃ ans, TryInv L n t cfg x kc rsaPub ps k bs sec' r' ps ⟨st'', ans⟩) ∧
      (∀ p ∈ ps, ∃ D, (∀ q, q ∈ D ↔ q ∈ ps) ∧ Rec (st' p) k (fullRecord L n t p sec' r' D)) ∧
      ∀ p ∈ ps, p ∉ H → ∃ i, (rnd1 p i).secret = some (sec' p) := by
  obtain ⟨sec2, r2, H2, s2, e1, e2, e3, _, e5, e6⟩ := h.askAll hS hn hk hord hrnd ps _ _ _ _ hnd hps
  have hres : ∀ p ∈ ps, ∃ res s', setPartsAndSign C (cfg p) k bs
        (partsFor ((mapOrder p).map fun q : Nat => ((q : Int),
          okParts (getParts C (cfg q) k ((ord q).map (fun q : Nat => (q : Int))) (rnd1 q) (s.cs q)).1)) (p : Int)) (rnd2 p)
          (getParts C (cfg p) k ((ord p).map (fun q : Nat => (q : Int))) (rnd1 p) (s.cs p)).2 = (.ok res, s') ∧
      SignedAs L n t sec2 r2 ps x kc k bs p s' ∧ res.signature = some (L.sc (shareSig L n t sec2 r2 ps x kc bs p)) ∧
      res.ephemeralPublic = some (L.pt (jointR L n sec2 ps)) ∧
      ∃ D, (∀ q, q ∈ D ↔ q ∈ ps) ∧ Rec s' k (fullRecord L n t p sec2 r2 D) := by
    intro p hp
    obtain ⟨_, res, s', a1, a2, a3, a4, D, d1, d2⟩ := e1.sign hS hps hk hu hp (hmap p)
      (ans := fun q => okParts (getParts C (cfg q) k ((ord q).map (fun q : Nat => (q : Int))) (rnd1 q) (s.cs q)).1)
      (fun q hq => (e3 q hq).2) (rnd2 p)
    rw [(e3 p hp).1] at a1
    exact ⟨res, s', a1, a2, a3, a4, D, d1, d2⟩
  obtain ⟨resL, sL, l1, l2, l3, l4, _⟩ := hres leader hleader
  have harr : shareArray n ps (fun p => (setPartsAndSign C (cfg p) k bs
        (partsFor ((mapOrder p).map fun q : Nat => ((q : Int),
          okParts (getParts C (cfg q) k ((ord q).map (fun q : Nat => (q : Int))) (rnd1 q) (s.cs q)).1)) (p : Int)) (rnd2 p)
          (getParts C (cfg p) k ((ord p).map (fun q : Nat => (q : Int))) (rnd1 p) (s.cs p)).2).1) =
      (List.range n).map fun i => if i + 1 ∈ ps then L.sc (shareSig L n t sec2 r2 ps x kc bs (i + 1)) else [] := by
    unfold shareArray
    refine List.map_congr_left fun i _ => ?_
    by_cases hi : i + 1 ∈ ps
    · rw [if_pos hi, if_pos hi]
      obtain ⟨res, s', a1, a2, a3, a4, _⟩ := hres (i + 1) hi
      simp only [a1]
      rw [a3]; rfl
    · rw [if_neg hi, if_neg hi]
  have hass := assemble_honest hS hnd hps hlen (sec := sec2) (r := r2) (bs := bs)
  unfold roundShares
  simp only
  rw [harr, l1]
  simp only
  rw [l4]
  refine ⟨_, _, _, _, rfl, hass, ?_, ?_, sec2, r2, e5, ?_, rfl, rfl, ?_, ?_, e6⟩
  · have h := hass
    unfold assemble at h
    simp only at h
    split at h
    · cases h
    split at h
    · next hv =>
      simp only [Out.ok.injEq] at h
      rw [← h]; exact hv
    · cases h
  · intro p hp
    simp only [if_neg hp]
  · intro p hp
    simp only [if_pos hp]
    obtain ⟨res, s', a1, a2, _⟩ := hres p hp
    rw [a1]; exact a2
  · intro st'' hst hfresh
    refine ⟨fun p => if p ∈ ps then s2.answers p else [], ?_, ?_, ?_, ?_⟩
    · intro p h1 h2 hp
      exact ⟨(hfresh p h1 h2 hp).1, (hfresh p h1 h2 hp).2, by simp only [if_neg hp]⟩
    · intro p hp
      refine e1.secret p ?_
      by_contra hc
      have := (e1.new p (hps p hp).1 (hps p hp).2 hc).2.2
      have h2 := (e3 p hp).2
      rw [this] at h2; cases h2
    · intro p h1 h2 hp
      obtain ⟨res, s', a1, a2, _, _, D, d1, d2⟩ := hres p hp
      have e := hst p hp
      simp only [if_pos hp, a1] at e
      dsimp only
      rw [e]
      exact ⟨D, (d1 p).2 hp, fun q hq => ⟨(d1 q).1 hq, .inl ((d1 q).1 hq)⟩, d2, .inr ⟨fun _ h => h, a2⟩⟩
    · intro p h1 h2 a ha
      by_cases hp : p ∈ ps
      · simp only [if_pos hp] at ha
        exact e1.answers p h1 h2 a ha
      · simp only [if_neg hp] at ha
        cases ha
  · intro p hp
    simp only [if_pos hp]
    obtain ⟨res, s', a1, _, _, _, D, d1, d2⟩ := hres p hp
    rw [a1]; exact ⟨D, d1, d2⟩

/-- A complete round after any attempts. -/
theorem round_again (hS : Setup C L pair n t cfg x kc rsaPub) (hn : 2 ≤ n) {ps : List Nat} (hnd : ps.Nodup)
    (hps : ∀ p ∈ ps, 1 ≤ p ∧ p ≤ n) (hlen : t ≤ ps.length) {leader : Nat} (hleader : leader ∈ ps)
    {k : HRST} (hk : IsI64 k.timestamp) {bs : Bytes} (hu : unpackHRST bs = .ok k)
    {ord : Nat → List Nat} (hord : ∀ p, (ord p).Perm (List.range' 1 n))
    {mapOrder : Nat → List Nat} (hmap : ∀ p, (mapOrder p).Perm ps)
    {rnd1 rnd2 : Nat → Nat → Rand} (hrnd : ∀ p i, ∃ sec, (rnd1 p i).secret = some sec ∧ sec.length = 32)
    {sec r : Nat → Bytes} {H : List Nat} {s : TryState} (h : TryInv L n t cfg x kc rsaPub ps k bs sec r H s) :
    ∃ shares eph st' sig, roundShares C cfg ps leader n k bs
        (fun p => (ord p).map (fun q : Nat => (q : Int))) mapOrder rnd1 rnd2 s.cs = ((shares, eph), st') ∧
      assemble C t (L.pt (x • L.B)) bs shares eph = .ok sig ∧ C.verify (L.pt (x • L.B)) bs sig = true ∧
      (∀ p ∈ ps, (st' p).lss.hrs = k.hrs) ∧ (∀ p, p ∉ ps → st' p = s.cs p) := by
  obtain ⟨shares, eph, st', sig, h1, h2, h3, h4, _, _, _, h5, _⟩ := round_full hS hn hnd hps hlen hleader hk hu hord hmap hrnd h
    (rnd2 := rnd2)
  exact ⟨shares, eph, st', sig, h1, h2, h3, fun p hp => (h5 p hp).hrs, h4⟩

end
end Horcrux
