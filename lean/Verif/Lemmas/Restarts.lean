import Verif.Lemmas.Requorum
/-
Attempts at one block, each with its own participants, with restarts of cosigners in between.
-/
namespace Horcrux
open Spec

section
variable {C : Crypto} {F G : Type} [Field F] [AddCommGroup G] [Module F G] {L : Lawful C F G}
  {pair : Bytes → Bytes → Prop} {n t : Nat} {cfg : Nat → CosignerCfg} {x : F} {kc : List F} {rsaPub : Nat → Bytes}

theorem slotsOf_set_new (L : Lawful C F G) (n : Nat) (sec sec' : Nat → Bytes) (co co' : Nat → List F) (p q : Nat) (D : List Nat)
    (hq : 1 ≤ q) (h : ∀ i, i ≠ q → sec' i = sec i ∧ co' i = co i) :
    (slotsOf L n sec co p D).set (q - 1) (slotOf L sec' co' p q) = slotsOf L n sec' co' p (q :: D) := by
  refine List.ext_getElem? fun i => ?_
  unfold slotsOf
  rw [List.getElem?_set]
  simp only [List.getElem?_map, List.length_map, List.length_range]
  by_cases hi : i < n
  · rw [List.getElem?_range hi]
    simp only [Option.map_some]
    by_cases h' : q - 1 = i
    · subst h'
      rw [if_pos rfl, if_pos hi, Nat.sub_add_cancel hq, if_pos (List.mem_cons_self ..)]
    · rw [if_neg h']
      have hne : i + 1 ≠ q := by omega
      simp only [List.mem_cons, hne, false_or, slotOf, (h _ hne).1, (h _ hne).2]
  · have : (List.range n)[i]? = none := by rw [List.getElem?_eq_none]; simp; omega
    rw [this]
    split
    · next h => rw [if_neg (by omega)]; simp
    · rfl

/-- Setting a part of `q`, whatever is in the slot for `q`, in a record that may have just been made. -/
theorem setPart_over (hS : Setup C L pair n t cfg x kc rsaPub) {p q : Nat} (hp1 : 1 ≤ p) (hp2 : p ≤ n)
    (hq1 : 1 ≤ q) (hq2 : q ≤ n) (hpq : p ≠ q) {s s0 : CState} {k : HRST} (hk : IsI64 k.timestamp) {rnd : Rand} {ref : Nat}
    {sec r sec' r' : Nat → Bytes} {D : List Nat} {part : SecretPart}
    (hpart : PartFrom L cfg rsaPub (sec' q) (L.coeffs (r' q) t) q p part)
    (hagree : ∀ i, i ≠ q → sec' i = sec i ∧ r' i = r i)
    (hm : metaFor C (cfg p) s k ⟨k.height, k.round, k.step, GoTime.zero.unixNano⟩ rnd = some (ref, s0))
    (e1 : s0.hrsMeta k = some ref) (e2 : s0.heap[ref]? = some (fullRecord L n t p sec r D)) :
    ∃ s', setPart C (cfg p) s (part.toSetReq k) rnd = (.ok (), s') ∧ s'.lss = s0.lss ∧
      Rec s' k (fullRecord L n t p sec' r' (q :: D)) := by
  obtain ⟨c, hc1, hc2⟩ := hpart.enc
  obtain ⟨g, hg1, hg2⟩ := hpart.sig
  have hkey : SetPartReq.key (part.toSetReq k) = k := by
    unfold SetPartReq.key SecretPart.toSetReq
    simp only [ofUnixNano_unixNano hk]
  have hidx : goIndex (slotsOf L n sec (fun q => L.coeffs (r q) t) p D) ((q : Int) - 1) ≠ none := by
    unfold goIndex
    rw [if_neg (by omega), List.getElem?_eq_getElem (by rw [slotsOf_length]; omega)]
    simp
  obtain ⟨old, hold⟩ := Option.ne_none_iff_exists'.1 hidx
  have hm' : metaFor C (cfg p) s k ⟨(part.toSetReq k).height, (part.toSetReq k).round, (part.toSetReq k).step,
      GoTime.zero.unixNano⟩ rnd = some (ref, s0) := hm
  unfold setPart
  simp only [hkey, hm']
  have e3 : (part.toSetReq k).sourceSig = some g := hg1
  have e4 : (part.toSetReq k).sourceID = (q : Int) := hpart.source
  have e5 : (part.toSetReq k).encrypted = some c := hc1
  have e6 : (part.toSetReq k).ephemeralPublic = some (L.pt (L.val (sec' q) • L.B)) := hpart.eph
  rw [hpart.source, hpart.eph, hc1] at hg2
  simp only [e3, e4, e5, e6, hS.peers p q hp1 hp2 hq1 hq2, hg2, Slice.bytes, hc2, Option.getD_some]
  unfold CState.setSlot
  rw [e2]
  unfold fullRecord
  simp only [hold, Bool.true_eq_false, if_false]
  refine ⟨_, rfl, rfl, ref, e1, ?_⟩
  simp only
  rw [List.getElem?_set, if_pos rfl, if_pos (List.getElem?_eq_some_iff.1 e2).1]
  have h1 : ((q : Int) - 1).toNat = q - 1 := by omega
  have h2 := slotsOf_set_new L n sec sec' (fun q => L.coeffs (r q) t) (fun q => L.coeffs (r' q) t) p q D hq1
    (fun i hi => ⟨(hagree i hi).1, by rw [(hagree i hi).2]⟩)
  unfold slotOf at h2
  rw [h1, h2, (hagree p hpq).1, (hagree p hpq).2]

/-- The values of `f` on `qs`, of `g` elsewhere. -/
def over (qs : List Nat) (f g : Nat → Bytes) : Nat → Bytes := fun i => if i ∈ qs then f i else g i

theorem over_cons (q : Nat) (qs : List Nat) (f g : Nat → Bytes) : over qs f (over [q] f g) = over (q :: qs) f g := by
  funext i
  unfold over
  by_cases h : i ∈ qs
  · simp [h]
  · by_cases h' : i = q <;> simp [h, h']

/-- Setting parts from any dealings in a record. -/
theorem setParts_over (hS : Setup C L pair n t cfg x kc rsaPub) {p : Nat} (hp1 : 1 ≤ p) (hp2 : p ≤ n)
    {k : HRST} (hk : IsI64 k.timestamp) {bs : Bytes} {sec r : Nat → Bytes} :
    ∀ (qs : List Nat) (parts : List SecretPart) (rnd : Nat → Rand) (s : CState) (sv rv : Nat → Bytes) (D : List Nat),
      (∀ q ∈ qs, (1 ≤ q ∧ q ≤ n) ∧ q ≠ p) →
      List.Forall₂ (fun q part => PartFrom L cfg rsaPub (sec q) (L.coeffs (r q) t) q p part) qs parts →
      Rec s k (fullRecord L n t p sv rv D) →
      ∃ s1, setPartsAndSign C (cfg p) k bs parts rnd s = sign C (cfg p) s1 bs ∧ s1.lss = s.lss ∧
        Rec s1 k (fullRecord L n t p (over qs sec sv) (over qs r rv) (qs.reverse ++ D)) := by
  intro qs parts rnd s sv rv D hqs hf
  induction hf generalizing rnd s sv rv D with
  | nil =>
    intro hrec
    refine ⟨s, by simp only [setPartsAndSign], rfl, ?_⟩
    have e : ∀ f g : Nat → Bytes, over [] f g = g := fun f g => by funext i; simp [over]
    rw [e, e]
    simpa using hrec
  | @cons q part qs parts hq _ ih =>
    intro hrec
    obtain ⟨⟨h1, h2⟩, h3⟩ := hqs q (List.mem_cons_self ..)
    obtain ⟨ref, e1, e2⟩ := hrec
    obtain ⟨s1, g1, g2, g3⟩ := setPart_over hS hp1 hp2 h1 h2 (Ne.symm h3) hk (rnd := rnd 0) (s := s) (s0 := s) (ref := ref)
      (sec := sv) (r := rv) (sec' := over [q] sec sv) (r' := over [q] r rv) (D := D) (part := part)
      (by simpa [over] using hq) (fun i hi => by simp [over, hi]) (by unfold metaFor; rw [e1]) e1 e2
    simp only [setPartsAndSign, g1]
    obtain ⟨s2, a1, a2, a3⟩ := ih (fun n => rnd (n + 1)) s1 _ _ (q :: D)
      (fun q' h => hqs q' (List.mem_cons_of_mem _ h)) g3
    rw [over_cons, over_cons] at a3
    exact ⟨s2, a1, a2.trans g2, by simpa using a3⟩

/-- Setting at least one part in a cosigner that has no nonces. -/
theorem setParts_lost (hS : Setup C L pair n t cfg x kc rsaPub) {p : Nat} (hp1 : 1 ≤ p) (hp2 : p ≤ n)
    {k : HRST} (hk : IsI64 k.timestamp) {bs : Bytes} {sec r : Nat → Bytes} {q : Nat} {qs : List Nat} {part : SecretPart}
    {parts : List SecretPart} {rnd : Nat → Rand} {s : CState} (hqs : ∀ i ∈ q :: qs, (1 ≤ i ∧ i ≤ n) ∧ i ≠ p)
    (hf : List.Forall₂ (fun q part => PartFrom L cfg rsaPub (sec q) (L.coeffs (r q) t) q p part) (q :: qs) (part :: parts))
    (hrnd : ∀ i, ∃ sec, (rnd i).secret = some sec ∧ sec.length = 32) (hnone : ∀ k, s.hrsMeta k = none) :
    ∃ s1 sv rv D, setPartsAndSign C (cfg p) k bs (part :: parts) rnd s = sign C (cfg p) s1 bs ∧ s1.lss = s.lss ∧
        (sv p).length = 32 ∧ Rec s1 k (fullRecord L n t p sv rv D) := by
  obtain ⟨hq, hf⟩ := List.forall₂_cons.1 hf
  obtain ⟨⟨h1, h2⟩, h3⟩ := hqs q (List.mem_cons_self ..)
  obtain ⟨sc, hsc, hlen⟩ := hrnd 0
  obtain ⟨s0, hm, e1, hl, e2⟩ : ∃ s0, metaFor C (cfg p) s k ⟨k.height, k.round, k.step, GoTime.zero.unixNano⟩ (rnd 0) =
      some (s.heap.length, s0) ∧ s0.hrsMeta k = some s.heap.length ∧ s0.lss = s.lss ∧
      s0.heap[s.heap.length]? = some (fullRecord L n t p (fun _ => sc) (fun _ => (rnd 0).deal) []) := by
    unfold metaFor dealSharesFor
    rw [hnone, hnone, hsc]
    refine ⟨_, rfl, ?_, rfl, ?_⟩
    · simp [CState.setMeta]
    · simp [CState.setMeta, fullRecord, slotsOf_nil, hS.total p hp1 hp2, hS.threshold p hp1 hp2]
  obtain ⟨s1, g1, g2, g3⟩ := setPart_over hS hp1 hp2 h1 h2 (Ne.symm h3) hk (rnd := rnd 0) (s := s) (s0 := s0)
    (ref := s.heap.length)
    (sec := fun _ => sc) (r := fun _ => (rnd 0).deal) (sec' := over [q] sec fun _ => sc)
    (r' := over [q] r fun _ => (rnd 0).deal) (D := []) (part := part)
    (by simpa [over] using hq) (fun i hi => by simp [over, hi]) hm e1 e2
  simp only [setPartsAndSign, g1]
  obtain ⟨s2, a1, a2, a3⟩ := setParts_over hS hp1 hp2 hk (bs := bs) qs parts (fun n => rnd (n + 1)) s1 _ _ [q]
    (fun q' h => hqs q' (List.mem_cons_of_mem _ h)) hf g3
  refine ⟨s2, _, _, _, a1, by rw [a2, g2, hl], ?_, a3⟩
  have hp : p ∉ qs := fun h => (hqs p (List.mem_cons_of_mem _ h)).2 rfl
  simpa [over, hp, Ne.symm h3] using hlen

/-- The cosigner has signed with the answer `z`, `ρ`. -/
structure SignedWith (L : Lawful C F G) (k : HRST) (bs : Bytes) (z ρ : F) (l : SignState) : Prop where
  hrs : l.hrs = k.hrs
  signBytes : l.signBytes = some bs
  signature : l.signature = some (L.sc z)
  ephemeral : l.ephemeralPublic = some (L.pt (ρ • L.B))

theorem sign_signedWith (c : CosignerCfg) {k : HRST} {bs : Bytes} {s : CState} {z ρ : F}
    (hu : unpackHRST bs = .ok k) (h : SignedWith L k bs z ρ s.lss) :
    sign C c s bs = (.ok ⟨some (L.pt (ρ • L.B)), some (L.sc z), none⟩, s) := by
  have hh := h.hrs
  unfold SignState.hrs HRST.hrs at hh
  simp only [HRS.mk.injEq] at hh
  obtain ⟨h1, h2, h3⟩ := hh
  have hc : s.lss.checkHRS k = .ok true := by
    unfold SignState.checkHRS
    rw [if_neg (by omega), if_pos h1, if_neg (by omega), if_pos h2, if_neg (by omega), if_pos h3, h.signBytes, h.signature]
  unfold sign
  rw [hu]; simp only; rw [hc]; simp only
  rw [h.signBytes, h.signature, h.ephemeral]
  simp [Slice.bytes]

theorem sign_nothing (c : CosignerCfg) {k : HRST} {bs : Bytes} {s : CState}
    (hu : unpackHRST bs = .ok k) (hlt : s.lss.hrs ≺ k.hrs) (hnone : s.hrsMeta k = none) :
    sign C c s bs = (.err .noMetadata, s) := by
  have hc : s.lss.checkHRS k = .ok false := by
    unfold HRS.lt SignState.hrs HRST.hrs at hlt
    simp only at hlt
    unfold SignState.checkHRS
    rcases hlt with h | ⟨h, h' | ⟨h', h''⟩⟩
    · rw [if_neg (by omega), if_neg (by omega)]
    · rw [if_neg (by omega), if_pos h, if_neg (by omega), if_neg (by omega)]
    · rw [if_neg (by omega), if_pos h, if_neg (by omega), if_pos h', if_neg (by omega), if_neg (by omega)]
  unfold sign
  rw [hu]; simp only; rw [hc]; simp only
  unfold signFresh
  rw [hnone]

theorem SignedAs.with {k : HRST} {bs : Bytes} {sec r : Nat → Bytes} {D : List Nat} {p : Nat} {s : CState}
    (h : SignedAs L n t sec r D x kc k bs p s) :
    SignedWith L k bs (shareSig L n t sec r D x kc bs p) ((idsOf n D).map fun q => L.val (sec q)).sum s.lss :=
  ⟨h.hrs, h.signBytes, h.signature, by rw [h.ephemeral, jointR_smul]⟩

/-- The cosigner has a record for the block, made of `sec` and `r`; if it has not signed, with no contribution of others. -/
def HoldsNonces (L : Lawful C F G) (n t : Nat) (k : HRST) (p : Nat) (sec r : Bytes) (s : CState) : Prop :=
  sec.length = 32 ∧ ∃ (sv rv : Nat → Bytes) (D : List Nat), sv p = sec ∧ rv p = r ∧ Rec s k (fullRecord L n t p sv rv D) ∧
    (s.lss.hrs ≺ k.hrs → ∀ q ∈ D, q = p)

/-- What the cosigner may have of the block: nothing, having been asked for nothing; nothing after a restart; or a record. -/
def KeptNonces (L : Lawful C F G) (n t : Nat) (k : HRST) (p : Nat) (never : Prop) (s : CState) : Prop :=
  (never ∧ s.hrsMeta k = none) ∨ (∀ k', s.hrsMeta k' = none) ∨ ∃ sec r, HoldsNonces L n t k p sec r s

/-- What holds while attempts with any participants are being made and cosigners restart. -/
structure LifeInv (L : Lawful C F G) (n t : Nat) (cfg : Nat → CosignerCfg) (rsaPub : Nat → Bytes)
    (k : HRST) (bs : Bytes) (s : TryState) : Prop where
  kept : ∀ p, 1 ≤ p → p ≤ n → KeptNonces L n t k p (s.answers p = []) (s.cs p)
  lss : ∀ p, 1 ≤ p → p ≤ n → (s.cs p).lss.hrs ≺ k.hrs ∨ ∃ z ρ : F, SignedWith L k bs z ρ (s.cs p).lss
  answers : ∀ p, 1 ≤ p → p ≤ n → ∀ a ∈ s.answers p, ∃ sec r, AnswerOf L cfg rsaPub n t sec r p a

/-- A cosigner is asked for its parts. -/
theorem KeptNonces.ask (hS : Setup C L pair n t cfg x kc rsaPub) (hn : 2 ≤ n) {k : HRST} (hk : IsI64 k.timestamp) {p : Nat}
    (hp1 : 1 ≤ p) (hp2 : p ≤ n) {ord : List Nat} (hord : ord.Perm (List.range' 1 n)) {rnd : Nat → Rand}
    (hrnd : ∀ i, ∃ sec, (rnd i).secret = some sec ∧ sec.length = 32) {never : Prop} {s : CState} (h : KeptNonces L n t k p never s) :
    ∃ (a : List SecretPart) (s' : CState) (sv rv : Nat → Bytes) (D : List Nat),
      getParts C (cfg p) k (ord.map (fun q : Nat => (q : Int))) rnd s = (.ok a, s') ∧ s'.lss = s.lss ∧
      AnswerOf L cfg rsaPub n t sv rv p a ∧ (sv p).length = 32 ∧ p ∈ D ∧ Rec s' k (fullRecord L n t p sv rv D) ∧
      (s.lss.hrs ≺ k.hrs → ∀ q ∈ D, q = p) := by
  have hmem : ∀ q, q ∈ ord ↔ 1 ≤ q ∧ q ≤ n := by
    intro q; rw [hord.mem_iff, List.mem_range'_1]; omega
  have hother : ∃ q ∈ ord, q ≠ p := by
    by_cases h : p = 1
    · exact ⟨2, (hmem 2).2 ⟨by omega, hn⟩, by omega⟩
    · exact ⟨1, (hmem 1).2 ⟨le_refl _, by omega⟩, Ne.symm h⟩
  have hne : ord.map (fun q : Nat => (q : Int)) ≠ [] := by
    intro h0
    rw [List.map_eq_nil_iff] at h0
    obtain ⟨q, hq, _⟩ := hother
    rw [h0] at hq; cases hq
  have fresh : s.hrsMeta k = none → ∃ (a : List SecretPart) (s' : CState) (sv rv : Nat → Bytes) (D : List Nat),
      getParts C (cfg p) k (ord.map (fun q : Nat => (q : Int))) rnd s = (.ok a, s') ∧ s'.lss = s.lss ∧
      AnswerOf L cfg rsaPub n t sv rv p a ∧ (sv p).length = 32 ∧ p ∈ D ∧ Rec s' k (fullRecord L n t p sv rv D) ∧
      (s.lss.hrs ≺ k.hrs → ∀ q ∈ D, q = p) := by
    intro b1
    obtain ⟨sc, rr, parts, s', hsc, _, g1, g2, g3, g4⟩ := getPartsLoop_fresh hS hp1 hp2 hk ord rnd s
      (fun q hq => (hmem q).1 hq) hother b1 hrnd
    refine ⟨parts, s', fun _ => sc, fun _ => rr, [p], ?_, g2, ⟨ord, fun q' a b _ => (hmem q').2 ⟨a, b⟩, g3⟩, hsc, by simp, g4,
      by simp⟩
    unfold getParts; rw [if_neg hne, g1]
  rcases h with ⟨_, h⟩ | h | ⟨_, _, hsec, sv, rv, D, rfl, rfl, hrec, hD⟩
  · exact fresh h
  · exact fresh (h k)
  · obtain ⟨parts, s', D', g1, g2, g3, g4, g5, _, g7⟩ := getPartsLoop_held hS hp1 hp2 hk hsec ord rnd s [] D
      (fun q hq => (hmem q).1 hq) hrec
    refine ⟨parts, s', sv, rv, D', ?_, g2, ⟨ord, fun q' a b _ => (hmem q').2 ⟨a, b⟩, g3⟩, hsec, g5 hother, g7, ?_⟩
    · unfold getParts; rw [if_neg hne, g1]; simp
    · intro hl q hq
      rcases g4 q hq with h | h
      · exact hD hl q h
      · exact h

/-- The answers used in a step of signing, with the dealings they are made of. -/
theorem answers_choice {s : TryState} (h : ∀ p, 1 ≤ p → p ≤ n → ∀ a ∈ s.answers p, ∃ sec r, AnswerOf L cfg rsaPub n t sec r p a)
    {qs : List Nat} (hqs : ∀ q ∈ qs, 1 ≤ q ∧ q ≤ n) {ans : Nat → List SecretPart} (hans : ∀ q ∈ qs, ans q ∈ s.answers q) :
    ∃ sec r : Nat → Bytes, ∀ q ∈ qs, AnswerOf L cfg rsaPub n t sec r q (ans q) := by
  have : ∀ q, ∃ v : Bytes × Bytes, q ∈ qs → AnswerOf L cfg rsaPub n t (fun _ => v.1) (fun _ => v.2) q (ans q) := by
    intro q
    by_cases hq : q ∈ qs
    · obtain ⟨sec, r, ds, d1, d2⟩ := h q (hqs q hq).1 (hqs q hq).2 _ (hans q hq)
      exact ⟨(sec q, r q), fun _ => ⟨ds, d1, d2⟩⟩
    · exact ⟨([], []), fun h => absurd h hq⟩
  choose v hv using this
  exact ⟨fun q => (v q).1, fun q => (v q).2, fun q hq => hv q hq⟩

theorem route_answers {p : Nat} (hp1 : 1 ≤ p) (hp2 : p ≤ n) {mapOrder : List Nat} {ans : Nat → List SecretPart}
    {sec r : Nat → Bytes} (h : ∀ q ∈ mapOrder, AnswerOf L cfg rsaPub n t sec r q (ans q)) :
    List.Forall₂ (fun q part => PartFrom L cfg rsaPub (sec q) (L.coeffs (r q) t) q p part) (mapOrder.filter (fun q => q ≠ p))
      (partsFor (mapOrder.map fun q : Nat => ((q : Int), ans q)) (p : Int)) := by
  have hAns : ∀ q, ∃ ds : List Nat, q ∈ mapOrder → (∀ q', 1 ≤ q' → q' ≤ n → q' ≠ q → q' ∈ ds) ∧
    List.Forall₂ (fun q' part => PartFrom L cfg rsaPub (sec q) (L.coeffs (r q) t) q q' part) (ds.filter (fun q' => q' ≠ q)) (ans q) := by
    intro q
    by_cases hq : q ∈ mapOrder
    · obtain ⟨ds, d1, d2⟩ := h q hq
      exact ⟨ds, fun _ => ⟨d1, d2⟩⟩
    · exact ⟨[], fun h => absurd h hq⟩
  choose order horder using hAns
  exact partsFor_honest (L := L) (cfg := cfg) (rsaPub := rsaPub) (p := p) (ps := mapOrder) (parts := ans)
    (order := order) (sec := sec) (co := fun q => L.coeffs (r q) t)
    (fun q hq => (horder q hq).2) (fun q hq hne => (horder q hq).1 p hp1 hp2 (Ne.symm hne))

/-- A participant with a record is sent parts: what it answers, and what it has then. -/
theorem sign_holding (hS : Setup C L pair n t cfg x kc rsaPub) {k : HRST} (hk : IsI64 k.timestamp) {bs : Bytes}
    (hu : unpackHRST bs = .ok k) {p : Nat} (hp1 : 1 ≤ p) (hp2 : p ≤ n) {sec r sv rv : Nat → Bytes} {D qs : List Nat}
    {parts : List SecretPart} {rnd : Nat → Rand} {s : CState} (hqs : ∀ i ∈ qs, (1 ≤ i ∧ i ≤ n) ∧ i ≠ p)
    (hf : List.Forall₂ (fun q part => PartFrom L cfg rsaPub (sec q) (L.coeffs (r q) t) q p part) qs parts)
    (hrec : Rec s k (fullRecord L n t p sv rv D))
    (hlss : s.lss.hrs ≺ k.hrs ∨ ∃ z ρ : F, SignedWith L k bs z ρ s.lss) :
    ∃ res s' z ρ, setPartsAndSign C (cfg p) k bs parts rnd s = (.ok res, s') ∧ SignedWith L k bs z ρ s'.lss ∧
      Rec s' k (fullRecord L n t p (over qs sec sv) (over qs r rv) (qs.reverse ++ D)) ∧
      res.signature = some (L.sc z) ∧ res.ephemeralPublic = some (L.pt (ρ • L.B)) ∧
      (s.lss.hrs ≺ k.hrs ∧ z = shareSig L n t (over qs sec sv) (over qs r rv) (qs.reverse ++ D) x kc bs p ∧
          ρ = ((idsOf n (qs.reverse ++ D)).map fun q => L.val (over qs sec sv q)).sum ∨
        SignedWith L k bs z ρ s.lss) := by
  obtain ⟨s1, a1, a2, a3⟩ := setParts_over hS hp1 hp2 hk (bs := bs) qs parts rnd s sv rv D hqs hf hrec
  rcases hlss with hl | ⟨z, ρ, hl⟩
  · obtain ⟨res, s', b1, b2, b3, b4, b5⟩ := sign_fresh hS hp1 hp2 hu (by rw [a2]; exact hl) a3
    exact ⟨res, s', _, _, by rw [a1, b1], b2.with, b3, b4, by rw [b5, jointR_smul], .inl ⟨hl, rfl, rfl⟩⟩
  · have b1 := sign_signedWith (C := C) (cfg p) hu (s := s1) (z := z) (ρ := ρ) (L := L) (by rw [a2]; exact hl)
    exact ⟨_, s1, z, ρ, by rw [a1, b1], by rw [a2]; exact hl, a3, rfl, rfl, .inr hl⟩

theorem LifeInv.start {k : HRST} {bs : Bytes} {st : Nat → CState}
    (hlow : ∀ p, 1 ≤ p → p ≤ n → (st p).lss.hrs ≺ k.hrs) (hnew : ∀ p, 1 ≤ p → p ≤ n → (st p).hrsMeta k = none) :
    LifeInv L n t cfg rsaPub k bs ⟨st, fun _ => []⟩ where
  kept := fun p h1 h2 => .inl ⟨rfl, hnew p h1 h2⟩
  lss := fun p h1 h2 => .inl (hlow p h1 h2)
  answers := by simp

theorem LifeInv.ask (hS : Setup C L pair n t cfg x kc rsaPub) (hn : 2 ≤ n) {k : HRST}
    (hk : IsI64 k.timestamp) {bs : Bytes} {s : TryState}
    (h : LifeInv L n t cfg rsaPub k bs s) {p : Nat} (hp1 : 1 ≤ p) (hp2 : p ≤ n) {ord : List Nat}
    (hord : ord.Perm (List.range' 1 n)) {rnd : Nat → Rand}
    (hrnd : ∀ i, ∃ sec, (rnd i).secret = some sec ∧ sec.length = 32) :
    LifeInv L n t cfg rsaPub k bs (s.step C cfg k bs (.ask p (ord.map (fun q : Nat => (q : Int))) rnd)) := by
  obtain ⟨a, s', sv, rv, D, g1, g2, g3, g4, g5, g6, g7⟩ := (h.kept p hp1 hp2).ask hS hn hk hp1 hp2 hord hrnd
  simp only [TryState.step, g1]
  constructor
  · intro q h1 h2
    by_cases hqp : q = p
    · subst hqp
      simp only [if_true]
      exact .inr (.inr ⟨_, _, g4, sv, rv, D, rfl, rfl, g6, by rw [g2]; exact g7⟩)
    · simp only [if_neg hqp]; exact h.kept q h1 h2
  · intro q h1 h2
    by_cases hqp : q = p
    · subst hqp
      simp only [if_true, g2]
      exact h.lss q h1 h2
    · simp only [if_neg hqp]; exact h.lss q h1 h2
  · intro q h1 h2 a' ha
    by_cases hqp : q = p
    · subst hqp
      simp only [if_true, okParts, List.mem_cons] at ha
      rcases ha with rfl | ha
      · exact ⟨sv, rv, g3⟩
      · exact h.answers _ h1 h2 a' ha
    · simp only [if_neg hqp] at ha
      exact h.answers q h1 h2 a' ha

theorem LifeInv.sign (hS : Setup C L pair n t cfg x kc rsaPub)
    {k : HRST} (hk : IsI64 k.timestamp) {bs : Bytes} (hu : unpackHRST bs = .ok k)
    {s : TryState} (h : LifeInv L n t cfg rsaPub k bs s) {p : Nat} {mapOrder : List Nat} (hp : p ∈ mapOrder)
    (hqs : ∀ q ∈ mapOrder, 1 ≤ q ∧ q ≤ n)
    {ans : Nat → List SecretPart} (hans : ∀ q ∈ mapOrder, ans q ∈ s.answers q) {rnd : Nat → Rand}
    (hrnd : ∀ i, ∃ sec, (rnd i).secret = some sec ∧ sec.length = 32) :
    LifeInv L n t cfg rsaPub k bs (s.step C cfg k bs (.sign p mapOrder ans rnd)) := by
  obtain ⟨hp1, hp2⟩ := hqs p hp
  obtain ⟨sec, r, hsr⟩ := answers_choice h.answers hqs hans
  have hroute := route_answers hp1 hp2 hsr
  have hfil : ∀ i ∈ mapOrder.filter (fun q => q ≠ p), (1 ≤ i ∧ i ≤ n) ∧ i ≠ p := by
    intro i hi
    rw [List.mem_filter] at hi
    exact ⟨hqs i hi.1, by simpa using hi.2⟩
  -- the finished step, from the state of the participant after it
  have fin : ∀ res s', setPartsAndSign C (cfg p) k bs (partsFor (mapOrder.map fun q : Nat => ((q : Int), ans q)) (p : Int)) rnd
      (s.cs p) = (res, s') → KeptNonces L n t k p (s.answers p = []) s' →
      (s'.lss.hrs ≺ k.hrs ∨ ∃ z ρ : F, SignedWith L k bs z ρ s'.lss) →
      LifeInv L n t cfg rsaPub k bs (s.step C cfg k bs (.sign p mapOrder ans rnd)) := by
    intro res s' hres hk' hl'
    simp only [TryState.step, hres]
    constructor
    · intro q h1 h2
      by_cases hqp : q = p
      · subst hqp; simp only [if_true]; exact hk'
      · simp only [if_neg hqp]; exact h.kept q h1 h2
    · intro q h1 h2
      by_cases hqp : q = p
      · subst hqp; simp only [if_true]; exact hl'
      · simp only [if_neg hqp]; exact h.lss q h1 h2
    · exact h.answers
  have hlss := h.lss p hp1 hp2
  rcases h.kept p hp1 hp2 with ⟨h0, _⟩ | hnone | ⟨_, _, hsec, sv, rv, D, rfl, rfl, hrec, _⟩
  · have := hans p hp
    rw [h0] at this; cases this
  · generalize hq' : mapOrder.filter (fun q => q ≠ p) = qs at hroute hfil
    generalize hpt : partsFor (mapOrder.map fun q : Nat => ((q : Int), ans q)) (p : Int) = parts at hroute fin
    cases hroute with
    | nil =>
      rcases hlss with hl | ⟨z, ρ, hl⟩
      · exact fin _ _ (by simp only [setPartsAndSign]; exact sign_nothing (cfg p) hu hl (hnone k)) (.inr (.inl hnone)) (.inl hl)
      · exact fin _ _ (by simp only [setPartsAndSign]; exact sign_signedWith (cfg p) hu hl) (.inr (.inl hnone)) (.inr ⟨z, ρ, hl⟩)
    | @cons q part qs parts hq hf =>
      obtain ⟨s1, sv, rv, D, a1, a2, a3, a4⟩ := setParts_lost hS hp1 hp2 hk (bs := bs) hfil (.cons hq hf) hrnd hnone
      obtain ⟨res, s', z, ρ, b1, b2, b3, _⟩ := sign_holding hS hk hu hp1 hp2 (sec := sv) (r := rv) (rnd := rnd) (parts := [])
        (qs := []) (by simp) (.nil) a4 (by rw [a2]; exact hlss)
      rw [setPartsAndSign] at b1
      have e : ∀ f g : Nat → Bytes, over [] f g = g := fun f g => by funext i; simp [over]
      rw [e, e] at b3
      exact fin _ _ (by rw [a1, b1]) (.inr (.inr ⟨_, _, a3, sv, rv, _, rfl, rfl, b3,
        fun hlt => absurd (b2.hrs ▸ hlt) (HRS.lt_irrefl _)⟩)) (.inr ⟨z, ρ, b2⟩)
  · obtain ⟨res, s', z, ρ, b1, b2, b3, _⟩ := sign_holding hS hk hu hp1 hp2 (rnd := rnd) hfil hroute hrec hlss
    have hpo : ∀ f : Nat → Bytes, ∀ g : Nat → Bytes, over (mapOrder.filter (fun q => q ≠ p)) f g p = g p :=
      fun f g => by simp [over]
    exact fin _ _ b1 (.inr (.inr ⟨_, _, hsec, _, _, _, hpo _ _, hpo _ _, b3,
        fun hlt => absurd (b2.hrs ▸ hlt) (HRS.lt_irrefl _)⟩)) (.inr ⟨z, ρ, b2⟩)

theorem LifeInv.event {k : HRST} {bs : Bytes} {s : TryState}
    (h : LifeInv L n t cfg rsaPub k bs s) (p : Nat) (ssc : SSC) (hlow : ssc.hrs ≺ k.hrs) :
    LifeInv L n t cfg rsaPub k bs (s.step C cfg k bs (.event p ssc)) := by
  simp only [TryState.step]
  have key : ∀ l : SignState, (l.hrs ≺ k.hrs ∨ ∃ z ρ : F, SignedWith L k bs z ρ l) →
      ((l.save ssc).2.hrs ≺ k.hrs ∧ l.hrs ≺ k.hrs) ∨ ((l.save ssc).2 = l ∧ ∃ z ρ : F, SignedWith L k bs z ρ l) := by
    rintro l (hl | ⟨z, ρ, hl⟩)
    · left
      rw [SignState.save_hrs]
      split
      · exact ⟨hlow, hl⟩
      · exact ⟨hl, hl⟩
    · refine .inr ⟨SignState.save_err _ _ ?_, z, ρ, hl⟩
      rw [hl.hrs, HRS.not_lt]
      exact HRS.le_of_lt hlow
  constructor
  · intro q h1 h2
    by_cases hqp : q = p
    · subst hqp
      simp only [if_true]
      rcases h.kept q h1 h2 with a | a | ⟨sec, r, a1, sv, rv, D, a2, a3, a4, a5⟩
      · exact .inl a
      · exact .inr (.inl a)
      · refine .inr (.inr ⟨sec, r, a1, sv, rv, D, a2, a3, a4, fun hlt => ?_⟩)
        rcases key _ (h.lss q h1 h2) with b | ⟨b, c⟩
        · exact a5 b.2
        · exact a5 (by simpa only [b] using hlt)
    · simp only [if_neg hqp]; exact h.kept q h1 h2
  · intro q h1 h2
    by_cases hqp : q = p
    · subst hqp
      simp only [if_true]
      rcases key _ (h.lss q h1 h2) with b | ⟨b, c⟩
      · exact .inl b.1
      · right; rw [b]; exact c
    · simp only [if_neg hqp]; exact h.lss q h1 h2
  · exact h.answers

theorem LifeInv.restart {k : HRST} {bs : Bytes} {s : TryState} (h : LifeInv L n t cfg rsaPub k bs s) (p : Nat) (l : SignState)
    (hl : l.hrs ≺ k.hrs ∨ l.hrs = (s.cs p).lss.hrs ∧ l.signBytes = (s.cs p).lss.signBytes ∧
        l.signature = (s.cs p).lss.signature ∧ l.ephemeralPublic = (s.cs p).lss.ephemeralPublic) :
    LifeInv L n t cfg rsaPub k bs { s with cs := fun q => if q = p then CState.start l else s.cs q } := by
  constructor
  · intro q h1 h2
    by_cases hqp : q = p
    · subst hqp
      simp only [if_true]
      exact .inr (.inl fun _ => rfl)
    · simp only [if_neg hqp]; exact h.kept q h1 h2
  · intro q h1 h2
    by_cases hqp : q = p
    · subst hqp
      simp only [if_true]
      rcases hl with hl | ⟨e1, e2, e3, e4⟩
      · exact .inl hl
      · rcases h.lss q h1 h2 with a | ⟨z, ρ, a⟩
        · exact .inl (by rw [← e1] at a; exact a)
        · exact .inr ⟨z, ρ, e1.trans a.hrs, e2.trans a.signBytes, e3.trans a.signature, e4.trans a.ephemeral⟩
    · simp only [if_neg hqp]; exact h.lss q h1 h2
  · exact h.answers

theorem lifeInv_of_tries (hS : Setup C L pair n t cfg x kc rsaPub) (hn : 2 ≤ n) {k : HRST} (hk : IsI64 k.timestamp) {bs : Bytes}
    (hu : unpackHRST bs = .ok k) {st : Nat → CState} (hlow : ∀ p, 1 ≤ p → p ≤ n → (st p).lss.hrs ≺ k.hrs)
    (hnew : ∀ p, 1 ≤ p → p ≤ n → (st p).hrsMeta k = none) {s : TryState}
    (h : RestartTries C cfg n k bs ⟨st, fun _ => []⟩ s) : LifeInv L n t cfg rsaPub k bs s := by
  generalize hs0 : (⟨st, fun _ => []⟩ : TryState) = s0 at h
  induction h with
  | refl => subst hs0; exact LifeInv.start hlow hnew
  | snoc h ev hev hrnd ih =>
    have hi := ih
    cases ev with
    | ask p order rnd =>
      obtain ⟨⟨h1, h2⟩, h3, h4⟩ := hev
      obtain ⟨o, ho, rfl⟩ := perm_cast h3
      exact hi.ask hS hn hk h1 h2 ho h4
    | sign p mapOrder ans rnd =>
      obtain ⟨h1, h2, h3⟩ := hev
      exact hi.sign hS hk hu h1 (fun q hq => (h3 q hq).1) (fun q hq => (h3 q hq).2) hrnd
    | event p ssc => exact hi.event p ssc hev
  | restart h p l hl ih => exact ih.restart p l hl

/-- A complete round after any attempts with any participants and any restarts. -/
theorem round_life (hS : Setup C L pair n t cfg x kc rsaPub) (hn : 2 ≤ n) {ps : List Nat} (hnd : ps.Nodup)
    (hps : ∀ p ∈ ps, 1 ≤ p ∧ p ≤ n) (hlen : t ≤ ps.length) {leader : Nat} (hleader : leader ∈ ps)
    {k : HRST} (hk : IsI64 k.timestamp) {bs : Bytes} (hu : unpackHRST bs = .ok k)
    {ord : Nat → List Nat} (hord : ∀ p, (ord p).Perm (List.range' 1 n))
    {mapOrder : Nat → List Nat} (hmap : ∀ p, (mapOrder p).Perm ps)
    {rnd1 rnd2 : Nat → Nat → Rand} (hrnd : ∀ p i, ∃ sec, (rnd1 p i).secret = some sec ∧ sec.length = 32)
    {s : TryState} (h : LifeInv L n t cfg rsaPub k bs s) :
    ∃ (sec r : Nat → Bytes) (z ρ : Nat → F) (shares : List Bytes) (eph : Bytes) (st' : Nat → CState),
      (∀ p ∈ ps, (s.cs p).lss.hrs ≺ k.hrs ∧ z p = partialSig L t sec r x kc bs ps p ∧
          ρ p = (ps.map fun q => L.val (sec q)).sum ∨ SignedWith L k bs (z p) (ρ p) (s.cs p).lss) ∧
      roundShares C cfg ps leader n k bs (fun p => (ord p).map (fun q : Nat => (q : Int))) mapOrder rnd1 rnd2 s.cs =
        ((shares, eph), st') ∧
      (assemble C t (L.pt (x • L.B)) bs shares eph =
        let sig := wiredOut C L (ρ leader) (combineF ps (ps.map z))
        if C.verify (L.pt (x • L.B)) bs sig then .ok sig else .err .combinedInvalid) ∧
      (∀ p ∈ ps, SignedWith L k bs (z p) (ρ p) (st' p).lss) ∧ (∀ p, p ∉ ps → st' p = s.cs p) ∧
      ∀ i ∈ ps, Dealt C n t k (st' i) (sec i) (r i) := by
  have hask : ∀ p, ∃ (sv rv : Nat → Bytes) (D : List Nat), p ∈ ps → ∃ (a : List SecretPart) (s' : CState),
      getParts C (cfg p) k ((ord p).map (fun q : Nat => (q : Int))) (rnd1 p) (s.cs p) = (.ok a, s') ∧ s'.lss = (s.cs p).lss ∧
      AnswerOf L cfg rsaPub n t sv rv p a ∧ p ∈ D ∧ Rec s' k (fullRecord L n t p sv rv D) ∧
      ((s.cs p).lss.hrs ≺ k.hrs → ∀ q ∈ D, q = p) := by
    intro p
    by_cases hp : p ∈ ps
    · obtain ⟨a, s', sv, rv, D, g1, g2, g3, _, g5, g6, g7⟩ := (h.kept p (hps p hp).1 (hps p hp).2).ask hS hn hk
        (hps p hp).1 (hps p hp).2 (hord p) (hrnd p)
      exact ⟨sv, rv, D, fun _ => ⟨a, s', g1, g2, g3, g5, g6, g7⟩⟩
    · exact ⟨fun _ => [], fun _ => [], [], fun h => absurd h hp⟩
  choose sv rv D hask using hask
  -- the dealing of each participant
  obtain ⟨sec, hsec⟩ : ∃ sec : Nat → Bytes, sec = fun q => sv q q := ⟨_, rfl⟩
  obtain ⟨r, hr⟩ : ∃ r : Nat → Bytes, r = fun q => rv q q := ⟨_, rfl⟩
  have hans : ∀ q ∈ ps, AnswerOf L cfg rsaPub n t sec r q
      (okParts (getParts C (cfg q) k ((ord q).map (fun q : Nat => (q : Int))) (rnd1 q) (s.cs q)).1) := by
    intro q hq
    obtain ⟨a, s', g1, _, ⟨ds, d1, d2⟩, _⟩ := hask q hq
    rw [g1]
    exact ⟨ds, d1, by simpa only [hsec, hr, okParts] using d2⟩
  have hres : ∀ p, ∃ (res : SignRes) (s' : CState) (z ρ : F), p ∈ ps → setPartsAndSign C (cfg p) k bs
        (partsFor ((mapOrder p).map fun q : Nat => ((q : Int),
          okParts (getParts C (cfg q) k ((ord q).map (fun q : Nat => (q : Int))) (rnd1 q) (s.cs q)).1)) (p : Int)) (rnd2 p)
          (getParts C (cfg p) k ((ord p).map (fun q : Nat => (q : Int))) (rnd1 p) (s.cs p)).2 = (.ok res, s') ∧
      SignedWith L k bs z ρ s'.lss ∧ ((s.cs p).lss.hrs ≺ k.hrs ∧ z = partialSig L t sec r x kc bs ps p ∧
          ρ = (ps.map fun q => L.val (sec q)).sum ∨ SignedWith L k bs z ρ (s.cs p).lss) ∧
      Dealt C n t k s' (sec p) (r p) ∧
      res.signature = some (L.sc z) ∧ res.ephemeralPublic = some (L.pt (ρ • L.B)) := by
    intro p
    by_cases hp : p ∈ ps
    · obtain ⟨hp1, hp2⟩ := hps p hp
      have hm : ∀ q, q ∈ mapOrder p ↔ q ∈ ps := fun q => (hmap p).mem_iff
      obtain ⟨a, s0, g1, g2, _, g5, g6, g7⟩ := hask p hp
      have hroute := route_answers hp1 hp2 (fun q hq => hans q ((hm q).1 hq))
      have hfil : ∀ i ∈ (mapOrder p).filter (fun q => q ≠ p), (1 ≤ i ∧ i ≤ n) ∧ i ≠ p := by
        intro i hi
        rw [List.mem_filter, hm] at hi
        exact ⟨hps i hi.1, by simpa using hi.2⟩
      obtain ⟨res, s', z, ρ, b1, b2, ⟨ref, b3, b4⟩, b5, b6, b7⟩ := sign_holding hS hk hu hp1 hp2 (rnd := rnd2 p) hfil hroute g6
        (by rw [g2]; exact h.lss p hp1 hp2)
      have hpo : ∀ f : Nat → Bytes, ∀ g : Nat → Bytes, over ((mapOrder p).filter (fun q => q ≠ p)) f g p = g p :=
        fun f g => by simp [over]
      refine ⟨res, s', z, ρ, fun _ => ⟨by rw [g1]; exact b1, b2, ?_, ⟨ref, _, b3, b4, ?_, ?_⟩, b5, b6⟩⟩
      · rw [g2] at b7
        rcases b7 with ⟨c1, c2, c3⟩ | c
        · left
          have hset : ∀ q, q ∈ ((mapOrder p).filter (fun q => q ≠ p)).reverse ++ D p ↔ q ∈ ps := by
            intro q
            rw [List.mem_append, List.mem_reverse, List.mem_filter, hm]
            by_cases e : q = p
            · subst e
              exact ⟨fun _ => hp, fun _ => .inr g5⟩
            · refine ⟨?_, fun hq => .inl ⟨hq, by simpa using e⟩⟩
              rintro (hq | hq)
              · exact hq.1
              · exact absurd (g7 c1 q hq) e
          have hv : ∀ q ∈ ((mapOrder p).filter (fun q => q ≠ p)).reverse ++ D p,
              over ((mapOrder p).filter (fun q => q ≠ p)) sec (sv p) q = sec q ∧
              over ((mapOrder p).filter (fun q => q ≠ p)) r (rv p) q = r q := by
            intro q hq
            by_cases e : q = p
            · subst e
              rw [hpo, hpo, hsec, hr]; exact ⟨rfl, rfl⟩
            · have : q ∈ (mapOrder p).filter (fun q => q ≠ p) :=
                List.mem_filter.2 ⟨(hm q).2 ((hset q).1 hq), by simpa using e⟩
              simp only [over, if_pos this, and_self]
          obtain ⟨hc1, _⟩ := shareSig_congr (L := L) (n := n) (t := t) (x := x) (kc := kc) (bs := bs) (p := p) hset hv
          obtain ⟨hd1, _⟩ := shareSig_sum (L := L) (t := t) (x := x) (kc := kc) hnd hps sec r bs p
          refine ⟨c1, by rw [c2, hc1, hd1], ?_⟩
          rw [c3, idsOf_congr hset]
          rw [List.map_congr_left (g := fun q => L.val (sec q))
            (fun q hq => by rw [(hv q ((hset q).2 (mem_idsOf.1 hq).1)).1])]
          exact ((idsOf_perm hnd hps).map fun q => L.val (sec q)).sum_eq
        · exact .inr c
      · simp only [fullRecord, hpo, hsec]
      · simp only [fullRecord, hpo, hsec, hr]
    · exact ⟨⟨none, none, none⟩, s.cs p, 0, 0, fun h => absurd h hp⟩
  choose res s' z ρ hres using hres
  have harr : shareArray n ps (fun p => (setPartsAndSign C (cfg p) k bs
        (partsFor ((mapOrder p).map fun q : Nat => ((q : Int),
          okParts (getParts C (cfg q) k ((ord q).map (fun q : Nat => (q : Int))) (rnd1 q) (s.cs q)).1)) (p : Int)) (rnd2 p)
          (getParts C (cfg p) k ((ord p).map (fun q : Nat => (q : Int))) (rnd1 p) (s.cs p)).2).1) =
      (List.range n).map fun i => if i + 1 ∈ ps then L.sc (z (i + 1)) else [] := by
    unfold shareArray
    refine List.map_congr_left fun i _ => ?_
    by_cases hi : i + 1 ∈ ps
    · rw [if_pos hi, if_pos hi]
      obtain ⟨a1, _, _, _, a3, _⟩ := hres (i + 1) hi
      simp only [a1]
      rw [a3]; rfl
    · rw [if_neg hi, if_neg hi]
  obtain ⟨l1, _, _, _, _, l4⟩ := hres leader hleader
  have hass := assemble_any (C := C) (L := L) hS.n_le hnd hps hlen (ρ leader) (L.pt (x • L.B)) bs z
  unfold roundShares
  simp only
  rw [harr, l1]
  simp only
  rw [l4]
  refine ⟨sec, r, z, ρ, _, _, _, fun p hp => (hres p hp).2.2.1, rfl, hass, fun p hp => ?_, fun p hp => ?_, fun i hi => ?_⟩
  · simp only [if_pos hp]
    obtain ⟨a1, a2, _⟩ := hres p hp
    rw [a1]; exact a2
  · simp only [if_neg hp]
  · simp only [if_pos hi]
    obtain ⟨a1, _, _, a2, _⟩ := hres i hi
    rw [a1]; exact a2

end
end Horcrux
