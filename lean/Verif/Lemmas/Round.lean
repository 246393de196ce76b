import Verif.Model.Round
import Verif.Lemmas.CosignerMore
import Verif.Lemmas.Lawful
/-
A round among honest cosigners succeeds.
-/
namespace Horcrux
open Spec

/-- The condition under which the theorems on honest rounds hold: cosigners `1..n` with the shares of one key split
`t`-of-`n`, and working RSA keys. -/
structure Setup (C : Crypto) {F G : Type} [Field F] [AddCommGroup G] [Module F G] (L : Lawful C F G)
    (pair : Bytes → Bytes → Prop) (n t : Nat) (cfg : Nat → CosignerCfg) (x : F) (kc : List F)
    (rsaPub : Nat → Bytes) : Prop where
  rsa : LawfulRSA C pair
  t_pos : 1 ≤ t
  t_le : t ≤ n
  n_le : n ≤ 255
  kc_length : kc.length + 1 = t
  id : ∀ p, 1 ≤ p → p ≤ n → (cfg p).id = p
  shareKey : ∀ p, 1 ≤ p → p ≤ n → (cfg p).shareKey = L.sc (shareOf x kc p)
  pub : ∀ p, 1 ≤ p → p ≤ n → (cfg p).pubKeyBytes = L.pt (x • L.B)
  total : ∀ p, 1 ≤ p → p ≤ n → (cfg p).total = n
  threshold : ∀ p, 1 ≤ p → p ≤ n → (cfg p).threshold = t
  rsaKey : ∀ p, 1 ≤ p → p ≤ n → pair (rsaPub p) (cfg p).rsaKey
  peers : ∀ p q : Nat, 1 ≤ p → p ≤ n → 1 ≤ q → q ≤ n → (cfg p).peers (q : Int) = some (rsaPub q)

section
variable {C : Crypto} {F G : Type} [Field F] [AddCommGroup G] [Module F G] {L : Lawful C F G}
  {pair : Bytes → Bytes → Prop} {n t : Nat} {cfg : Nat → CosignerCfg} {x : F} {kc : List F} {rsaPub : Nat → Bytes}

/-- The record of state `s` under key `k`. -/
def Rec (s : CState) (k : HRST) (m : Meta) : Prop := ∃ ref, s.hrsMeta k = some ref ∧ s.heap[ref]? = some m

/-- The part cosigner `q` makes for cosigner `p` out of the nonce secret `sec` dealt with coefficients `co`. -/
structure PartFrom (L : Lawful C F G) (cfg : Nat → CosignerCfg) (rsaPub : Nat → Bytes) (sec : Bytes) (co : List F)
    (q p : Nat) (part : SecretPart) : Prop where
  source : part.sourceID = (q : Int)
  dest : part.destinationID = (p : Int)
  eph : part.ephemeralPublic = some (L.pt (L.val sec • L.B))
  enc : ∃ c, part.encrypted = some c ∧ C.rsaDecrypt (cfg p).rsaKey c = some (L.sc (shareOf (L.val sec) co p))
  sig : ∃ g, part.sourceSig = some g ∧
    C.rsaVerify (rsaPub q) ⟨part.sourceID, part.ephemeralPublic, part.encrypted⟩ g = true

/-- The slot for cosigner `i` in the record of `p`. -/
def slotOf (L : Lawful C F G) (sec : Nat → Bytes) (co : Nat → List F) (p q : Nat) : PeerMeta :=
  ⟨L.sc (shareOf (L.val (sec q)) (co q) p), L.pt (L.val (sec q) • L.B)⟩

/-- The slots of the record of `p` when the cosigners in `D` have contributed. -/
def slotsOf (L : Lawful C F G) (n : Nat) (sec : Nat → Bytes) (co : Nat → List F) (p : Nat) (D : List Nat) :
    List PeerMeta :=
  (List.range n).map fun i => if i + 1 ∈ D then slotOf L sec co p (i + 1) else ⟨[], []⟩

theorem slotsOf_nil (L : Lawful C F G) (n : Nat) (sec : Nat → Bytes) (co : Nat → List F) (p : Nat) :
    slotsOf L n sec co p [] = List.replicate n ⟨[], []⟩ := by
  unfold slotsOf
  simp

theorem slotsOf_length (L : Lawful C F G) (n : Nat) (sec : Nat → Bytes) (co : Nat → List F) (p : Nat) (D : List Nat) :
    (slotsOf L n sec co p D).length = n := by simp [slotsOf]

theorem slotsOf_set (L : Lawful C F G) (n : Nat) (sec : Nat → Bytes) (co : Nat → List F) (p q : Nat) (D : List Nat)
    (hq : 1 ≤ q) :
    (slotsOf L n sec co p D).set (q - 1) (slotOf L sec co p q) = slotsOf L n sec co p (q :: D) := by
  refine List.ext_getElem? fun i => ?_
  unfold slotsOf
  rw [List.getElem?_set]
  simp only [List.getElem?_map, List.length_map, List.length_range]
  by_cases hi : i < n
  · rw [List.getElem?_range hi]
    simp only [Option.map_some]
    by_cases h : q - 1 = i
    · subst h
      rw [if_pos rfl, if_pos hi, Nat.sub_add_cancel hq, if_pos (List.mem_cons_self ..)]
    · rw [if_neg h]
      have : i + 1 ≠ q := by omega
      simp only [List.mem_cons, this, false_or]
  · have : (List.range n)[i]? = none := by rw [List.getElem?_eq_none]; simp; omega
    rw [this]
    split
    · next h => rw [if_neg (by omega)]; simp
    · rfl

theorem deal_get (hS : Setup C L pair n t cfg x kc rsaPub) {sec r : Bytes} (hsec : sec.length = 32) {q : Nat}
    (h1 : 1 ≤ q) (h2 : q ≤ n) :
    goIndex (C.dealShares sec r t n) ((q : Int) - 1) = some (L.sc (shareOf (L.val sec) (L.coeffs r t) q)) := by
  rw [L.deal sec r t n hsec hS.t_pos hS.t_le hS.n_le]
  unfold goIndex dealF
  rw [if_neg (by omega)]
  have : ((q : Int) - 1).toNat = q - 1 := by omega
  rw [this, List.getElem?_map, List.getElem?_map, List.getElem?_range (by omega)]
  simp only [Option.map_some]
  rw [Nat.sub_add_cancel h1]

/-- The record of `p` before other contributions. -/
def ownRecord (L : Lawful C F G) (n t : Nat) (p : Nat) (sec r : Bytes) : Meta :=
  ⟨sec, C.dealShares sec r t n, slotsOf L n (fun _ => sec) (fun _ => L.coeffs r t) p [p]⟩

theorem slotsOf_idem (L : Lawful C F G) (n : Nat) (sec : Nat → Bytes) (co : Nat → List F) (p q : Nat) (D : List Nat)
    (hq : q ∈ D) : slotsOf L n sec co p (q :: D) = slotsOf L n sec co p D := by
  unfold slotsOf
  refine List.map_congr_left fun i _ => ?_
  by_cases h : i + 1 = q
  · simp [h, hq]
  · simp [h]

theorem slotsOf_congr (L : Lawful C F G) (n : Nat) (sec sec' : Nat → Bytes) (co co' : Nat → List F) (p : Nat)
    (D : List Nat) (h : ∀ q ∈ D, sec q = sec' q ∧ co q = co' q) :
    slotsOf L n sec co p D = slotsOf L n sec' co' p D := by
  unfold slotsOf
  refine List.map_congr_left fun i _ => ?_
  by_cases hi : i + 1 ∈ D
  · rw [if_pos hi, if_pos hi]; unfold slotOf; rw [(h _ hi).1, (h _ hi).2]
  · rw [if_neg hi, if_neg hi]

/-- Handing out a part for `q` when the record (new or not) has the secret `sec`. -/
theorem getPart_honest (hS : Setup C L pair n t cfg x kc rsaPub) {p q : Nat} (hp1 : 1 ≤ p) (hp2 : p ≤ n)
    (hq1 : 1 ≤ q) (hq2 : q ≤ n) {s s1 : CState} {k : HRST} (hk : IsI64 k.timestamp) {rnd : Rand} {ref : Nat}
    {sec r : Bytes} {D : List Nat} (hsec : sec.length = 32) (hD : D = [] ∨ D = [p])
    (hm : metaFor C (cfg p) s k k rnd = some (ref, s1)) (hentry : s1.hrsMeta k = some ref)
    (hrec : s1.heap[ref]? = some ⟨sec, C.dealShares sec r t n,
      slotsOf L n (fun _ => sec) (fun _ => L.coeffs r t) p D⟩) :
    ∃ part s', getPart C (cfg p) s ⟨q, k.height, k.round, k.step, GoTime.ofUnixNano k.timestamp⟩ rnd = (.ok part, s') ∧
      PartFrom L cfg rsaPub sec (L.coeffs r t) p q part ∧ s'.lss = s1.lss ∧
      Rec s' k (ownRecord L n t p sec r) := by
  have hkey : GetPartReq.key ⟨q, k.height, k.round, k.step, GoTime.ofUnixNano k.timestamp⟩ = k := by
    unfold GetPartReq.key
    simp only [ofUnixNano_unixNano hk]
  obtain ⟨c, hc1, hc2⟩ := hS.rsa.encrypt (rsaPub q) (cfg q).rsaKey rnd.enc
    (L.sc (shareOf (L.val sec) (L.coeffs r t) q)) (hS.rsaKey q hq1 hq2) (L.sc_length _)
  obtain ⟨g, hg1, hg2⟩ := hS.rsa.sign (rsaPub p) (cfg p).rsaKey rnd.sig
    ⟨(p : Int), some (L.pt (L.val sec • L.B)), some c⟩ (hS.rsaKey p hp1 hp2)
  unfold getPart
  simp only [hkey, hm, hrec]
  rw [hS.id p hp1 hp2, deal_get hS hsec hp1 hp2, deal_get hS hsec hq1 hq2, L.base _ hsec]
  simp only
  have hidx : goIndex (slotsOf L n (fun _ => sec) (fun _ => L.coeffs r t) p D) ((p : Int) - 1) ≠ none := by
    unfold goIndex
    rw [if_neg (by omega), List.getElem?_eq_getElem (by rw [slotsOf_length]; omega)]
    simp
  obtain ⟨old, hold⟩ := Option.ne_none_iff_exists'.1 hidx
  unfold CState.setSlot
  rw [hrec]
  simp only
  rw [hold]
  simp only [hS.peers p q hp1 hp2 hq1 hq2, hc1, hg1]
  refine ⟨_, _, rfl, ⟨rfl, rfl, rfl, ⟨c, rfl, hc2⟩, ⟨g, rfl, hg2⟩⟩, rfl, ref, hentry, ?_⟩
  rw [List.getElem?_set, if_pos rfl, if_pos (List.getElem?_eq_some_iff.1 hrec).1]
  have h1 : ((p : Int) - 1).toNat = p - 1 := by omega
  have h2 := slotsOf_set L n (fun _ => sec) (fun _ => L.coeffs r t) p p D hp1
  unfold slotOf at h2
  rw [h1, h2]
  unfold ownRecord
  rcases hD with rfl | rfl
  · rfl
  · rw [slotsOf_idem _ _ _ _ _ _ _ (List.mem_singleton.2 rfl)]

/-- The get-parts loop of an honest cosigner, once it has a record. -/
theorem getPartsLoop_rec (hS : Setup C L pair n t cfg x kc rsaPub) {p : Nat} (hp1 : 1 ≤ p) (hp2 : p ≤ n)
    {k : HRST} (hk : IsI64 k.timestamp) {sec r : Bytes} (hsec : sec.length = 32) :
    ∀ (order : List Nat) (rnd : Nat → Rand) (s : CState) (acc : List SecretPart),
      (∀ q ∈ order, 1 ≤ q ∧ q ≤ n) → Rec s k (ownRecord L n t p sec r) →
      ∃ parts s', getPartsLoop C (cfg p) k (order.map (fun q : Nat => (q : Int))) rnd s acc = (.ok (acc ++ parts), s') ∧
        s'.lss = s.lss ∧
        List.Forall₂ (fun q part => PartFrom L cfg rsaPub sec (L.coeffs r t) p q part)
          (order.filter (fun q => q ≠ p)) parts ∧
        Rec s' k (ownRecord L n t p sec r) := by
  intro order
  induction order with
  | nil => intro rnd s acc _ hrec; exact ⟨[], s, by simp [getPartsLoop], rfl, by simp, hrec⟩
  | cons q order ih =>
    intro rnd s acc hord hrec
    simp only [List.map_cons, getPartsLoop]
    rw [hS.id p hp1 hp2]
    by_cases hqp : q = p
    · subst hqp
      rw [if_pos rfl]
      obtain ⟨parts, s', h1, h2, h3, h4⟩ := ih (fun n => rnd (n + 1)) s acc
        (fun q' h => hord q' (List.mem_cons_of_mem _ h)) hrec
      exact ⟨parts, s', h1, h2, by simpa using h3, h4⟩
    · rw [if_neg (by exact_mod_cast hqp)]
      obtain ⟨ref, e1, e2⟩ := hrec
      have hm : metaFor C (cfg p) s k k (rnd 0) = some (ref, s) := by unfold metaFor; rw [e1]
      obtain ⟨part, s1, g1, g2, g3, g4⟩ := getPart_honest hS hp1 hp2 (hord q (List.mem_cons_self ..)).1
        (hord q (List.mem_cons_self ..)).2 hk hsec (.inr rfl) hm e1 e2
      rw [g1]
      simp only
      obtain ⟨parts, s', h1, h2, h3, h4⟩ := ih (fun n => rnd (n + 1)) s1 (acc ++ [part])
        (fun q' h => hord q' (List.mem_cons_of_mem _ h)) g4
      refine ⟨part :: parts, s', by simpa using h1, by rw [h2, g3], ?_, h4⟩
      rw [List.filter_cons_of_pos (by simpa using hqp)]
      exact .cons g2 h3

/-- The get-parts loop of an honest cosigner that has no record yet. -/
theorem getPartsLoop_fresh (hS : Setup C L pair n t cfg x kc rsaPub) {p : Nat} (hp1 : 1 ≤ p) (hp2 : p ≤ n)
    {k : HRST} (hk : IsI64 k.timestamp) :
    ∀ (order : List Nat) (rnd : Nat → Rand) (s : CState),
      (∀ q ∈ order, 1 ≤ q ∧ q ≤ n) → (∃ q ∈ order, q ≠ p) → s.hrsMeta k = none →
      (∀ i, ∃ sec, (rnd i).secret = some sec ∧ sec.length = 32) →
      ∃ sec r parts s', sec.length = 32 ∧ (∃ i, (rnd i).secret = some sec ∧ (rnd i).deal = r) ∧
        getPartsLoop C (cfg p) k (order.map (fun q : Nat => (q : Int))) rnd s [] = (.ok parts, s') ∧
        s'.lss = s.lss ∧
        List.Forall₂ (fun q part => PartFrom L cfg rsaPub sec (L.coeffs r t) p q part)
          (order.filter (fun q => q ≠ p)) parts ∧
        Rec s' k (ownRecord L n t p sec r) := by
  intro order
  induction order with
  | nil => rintro rnd s _ ⟨q, h, _⟩; cases h
  | cons q order ih =>
    intro rnd s hord hex hnone hrnd
    simp only [List.map_cons, getPartsLoop]
    rw [hS.id p hp1 hp2]
    by_cases hqp : q = p
    · subst hqp
      rw [if_pos rfl]
      obtain ⟨sec, r, parts, s', h0, ⟨i, hi⟩, h1, h2, h3, h4⟩ := ih (fun n => rnd (n + 1)) s
        (fun q' h => hord q' (List.mem_cons_of_mem _ h)) (by
          obtain ⟨q', h, hne⟩ := hex
          rcases List.mem_cons.1 h with rfl | h
          · exact absurd rfl hne
          · exact ⟨q', h, hne⟩) hnone (fun i => hrnd (i + 1))
      exact ⟨sec, r, parts, s', h0, ⟨i + 1, hi⟩, h1, h2, by simpa using h3, h4⟩
    · rw [if_neg (by exact_mod_cast hqp)]
      obtain ⟨sec, hsec, hlen⟩ := hrnd 0
      have hm : ∃ s1, metaFor C (cfg p) s k k (rnd 0) = some (s.heap.length, s1) ∧ s1.hrsMeta k = some s.heap.length ∧
          s1.lss = s.lss ∧ s1.heap[s.heap.length]? = some ⟨sec, C.dealShares sec (rnd 0).deal t n,
            slotsOf L n (fun _ => sec) (fun _ => L.coeffs (rnd 0).deal t) p []⟩ := by
        unfold metaFor dealSharesFor
        rw [hnone]
        simp only
        rw [hsec]
        simp only
        refine ⟨_, rfl, ?_, rfl, ?_⟩
        · simp [CState.setMeta]
        · simp [CState.setMeta, slotsOf_nil, hS.total p hp1 hp2, hS.threshold p hp1 hp2]
      obtain ⟨s1, hm, he, hlss, hr⟩ := hm
      obtain ⟨part, s2, g1, g2, g3, g4⟩ := getPart_honest hS hp1 hp2 (hord q (List.mem_cons_self ..)).1
        (hord q (List.mem_cons_self ..)).2 hk hlen (.inl rfl) hm he hr
      rw [g1]
      simp only
      obtain ⟨parts, s', h1, h2, h3, h4⟩ := getPartsLoop_rec hS hp1 hp2 hk hlen order (fun n => rnd (n + 1)) s2
        ([] ++ [part]) (fun q' h => hord q' (List.mem_cons_of_mem _ h)) g4
      refine ⟨sec, (rnd 0).deal, part :: parts, s', hlen, ⟨0, hsec, rfl⟩, by simpa using h1, by rw [h2, g3, hlss], ?_, h4⟩
      rw [List.filter_cons_of_pos (by simpa using hqp)]
      exact .cons g2 h3

/-! ### Routing among honest cosigners -/

theorem find_forall₂ {sec : Bytes} {co : List F} {q p : Nat} {ds : List Nat} {parts : List SecretPart}
    (h : List.Forall₂ (fun d part => PartFrom L cfg rsaPub sec co q d part) ds parts) :
    (p ∈ ds → ∃ part, parts.find? (fun x => decide (x.destinationID = (p : Int))) = some part ∧
      PartFrom L cfg rsaPub sec co q p part) ∧
    (p ∉ ds → parts.find? (fun x => decide (x.destinationID = (p : Int))) = none) := by
  induction h with
  | nil => simp
  | @cons d part ds parts hd _ ih =>
    by_cases hdp : d = p
    · subst hdp
      refine ⟨fun _ => ⟨part, ?_, hd⟩, fun hn => absurd (List.mem_cons_self ..) hn⟩
      rw [List.find?_cons_of_pos (by simpa using hd.dest)]
    · have hne : ¬ part.destinationID = (p : Int) := by rw [hd.dest]; exact_mod_cast hdp
      rw [List.find?_cons_of_neg (by simpa using hne)]
      refine ⟨fun hm => ?_, fun hm => ih.2 (fun h => hm (List.mem_cons_of_mem _ h))⟩
      rcases List.mem_cons.1 hm with h | h
      · exact absurd h.symm hdp
      · exact ih.1 h

theorem partsFor_honest {p : Nat} {ps : List Nat} {parts : Nat → List SecretPart} {order : Nat → List Nat}
    {sec : Nat → Bytes} {co : Nat → List F}
    (hparts : ∀ q ∈ ps, List.Forall₂ (fun d part => PartFrom L cfg rsaPub (sec q) (co q) q d part)
      ((order q).filter (fun d => d ≠ q)) (parts q))
    (hin : ∀ q ∈ ps, q ≠ p → p ∈ order q) :
    List.Forall₂ (fun q part => PartFrom L cfg rsaPub (sec q) (co q) q p part) (ps.filter (fun q => q ≠ p))
      (partsFor (ps.map fun q : Nat => ((q : Int), parts q)) (p : Int)) := by
  unfold partsFor
  rw [List.filterMap_map]
  have key : ∀ all : List (Int × List SecretPart), (∀ q ∈ ps, all.any (fun e' => decide (e'.1 = (q : Int))) = true) →
      List.Forall₂ (fun q part => PartFrom L cfg rsaPub (sec q) (co q) q p part) (ps.filter (fun q => q ≠ p))
      (ps.filterMap ((fun e : Int × List SecretPart =>
        match e.2.find? (fun x => decide (x.destinationID = (p : Int))) with
        | none => none
        | some x => if all.any (fun e' => decide (e'.1 = x.sourceID)) then some x else none) ∘
          fun q : Nat => ((q : Int), parts q))) := by
    intro all hall
    induction ps with
    | nil => simp
    | cons q ps ih =>
      have ih' := ih (fun q' h => hparts q' (List.mem_cons_of_mem _ h)) (fun q' h => hin q' (List.mem_cons_of_mem _ h))
        (fun q' h => hall q' (List.mem_cons_of_mem _ h))
      have hq := hparts q (List.mem_cons_self ..)
      by_cases hqp : q = p
      · subst hqp
        have hnone := (find_forall₂ (p := q) hq).2 (by simp)
        rw [List.filterMap_cons_none (by simp only [Function.comp]; rw [hnone])]
        simpa using ih'
      · have hmem : p ∈ (order q).filter (fun d => d ≠ q) := by
          rw [List.mem_filter]
          exact ⟨hin q (List.mem_cons_self ..) hqp, by simpa using Ne.symm hqp⟩
        obtain ⟨part, hf, hp⟩ := (find_forall₂ hq).1 hmem
        rw [List.filter_cons_of_pos (by simpa using hqp),
          List.filterMap_cons_some (b := part) (by
            simp only [Function.comp]
            rw [hf]
            simp only
            rw [if_pos]
            rw [hp.source]
            exact hall q (List.mem_cons_self ..))]
        exact .cons hp ih'
  refine key _ ?_
  intro q hq
  rw [List.any_eq_true]
  exact ⟨((q : Int), parts q), List.mem_map.2 ⟨q, hq, rfl⟩, by simp⟩

/-! ### Setting the parts and signing -/

/-- The record of `p` with the contributions of `D`. -/
def fullRecord (L : Lawful C F G) (n t : Nat) (p : Nat) (sec r : Nat → Bytes) (D : List Nat) : Meta :=
  ⟨sec p, C.dealShares (sec p) (r p) t n, slotsOf L n sec (fun q => L.coeffs (r q) t) p D⟩

theorem setPart_honest (hS : Setup C L pair n t cfg x kc rsaPub) {p q : Nat} (hp1 : 1 ≤ p) (hp2 : p ≤ n)
    (hq1 : 1 ≤ q) (hq2 : q ≤ n) {s : CState} {k : HRST} (hk : IsI64 k.timestamp) {rnd : Rand}
    {sec r : Nat → Bytes} {D : List Nat} {part : SecretPart}
    (hpart : PartFrom L cfg rsaPub (sec q) (L.coeffs (r q) t) q p part)
    (hrec : Rec s k (fullRecord L n t p sec r D)) :
    ∃ s', setPart C (cfg p) s (part.toSetReq k) rnd = (.ok (), s') ∧ s'.lss = s.lss ∧
      Rec s' k (fullRecord L n t p sec r (q :: D)) := by
  obtain ⟨ref, e1, e2⟩ := hrec
  obtain ⟨c, hc1, hc2⟩ := hpart.enc
  obtain ⟨g, hg1, hg2⟩ := hpart.sig
  have hkey : SetPartReq.key (part.toSetReq k) = k := by
    unfold SetPartReq.key SecretPart.toSetReq
    simp only [ofUnixNano_unixNano hk]
  have hm : ∀ kd, metaFor C (cfg p) s k kd rnd = some (ref, s) := by intro kd; unfold metaFor; rw [e1]
  have hidx : goIndex (slotsOf L n sec (fun q => L.coeffs (r q) t) p D) ((q : Int) - 1) ≠ none := by
    unfold goIndex
    rw [if_neg (by omega), List.getElem?_eq_getElem (by rw [slotsOf_length]; omega)]
    simp
  obtain ⟨old, hold⟩ := Option.ne_none_iff_exists'.1 hidx
  unfold setPart
  simp only [hkey, hm]
  have e3 : (part.toSetReq k).sourceSig = some g := hg1
  have e4 : (part.toSetReq k).sourceID = (q : Int) := hpart.source
  have e5 : (part.toSetReq k).encrypted = some c := hc1
  have e6 : (part.toSetReq k).ephemeralPublic = some (L.pt (L.val (sec q) • L.B)) := hpart.eph
  rw [hpart.source, hpart.eph, hc1] at hg2
  simp only [e3, e4, e5, e6, hS.peers p q hp1 hp2 hq1 hq2, hg2, Slice.bytes, hc2, Option.getD_some]
  unfold CState.setSlot
  rw [e2]
  unfold fullRecord
  simp only [hold, Bool.true_eq_false, if_false]
  refine ⟨_, rfl, rfl, ref, e1, ?_⟩
  simp only
  rw [List.getElem?_set, if_pos rfl, if_pos (List.getElem?_eq_some_iff.1 e2).1]
  have h1 : ((q : Int) - 1).toNat = q - 1 := by omega
  have h2 := slotsOf_set L n sec (fun q => L.coeffs (r q) t) p q D hq1
  unfold slotOf at h2
  rw [h1, h2]

/-- The IDs of the participants in increasing order. -/
def idsOf (n : Nat) (D : List Nat) : List Nat := ((List.range n).filter (fun i => decide (i + 1 ∈ D))).map (· + 1)

theorem mem_idsOf {n : Nat} {D : List Nat} {i : Nat} : i ∈ idsOf n D ↔ i ∈ D ∧ 1 ≤ i ∧ i ≤ n := by
  unfold idsOf
  simp only [List.mem_map, List.mem_filter, List.mem_range, decide_eq_true_eq]
  constructor
  · rintro ⟨j, ⟨h1, h2⟩, rfl⟩; exact ⟨h2, by omega, by omega⟩
  · rintro ⟨h1, h2, h3⟩; exact ⟨i - 1, ⟨by omega, by rw [Nat.sub_add_cancel h2]; exact h1⟩, by omega⟩

theorem idsOf_nodup (n : Nat) (D : List Nat) : (idsOf n D).Nodup :=
  (List.nodup_range.filter _).map (fun a b h => by simpa using h)

theorem idsOf_congr {n : Nat} {D D' : List Nat} (h : ∀ i, i ∈ D ↔ i ∈ D') : idsOf n D = idsOf n D' := by
  unfold idsOf
  simp only [h]

theorem idsOf_length {n : Nat} {D : List Nat} (hnd : D.Nodup) (hD : ∀ i ∈ D, 1 ≤ i ∧ i ≤ n) :
    (idsOf n D).length = D.length := by
  refine List.Perm.length_eq ((List.perm_ext_iff_of_nodup (idsOf_nodup n D) hnd).2 fun i => ?_)
  rw [mem_idsOf]
  exact ⟨fun h => h.1, fun h => ⟨h, hD i h⟩⟩

theorem used_fullRecord (sec r : Nat → Bytes) (p : Nat) (D : List Nat) :
    (fullRecord L n t p sec r D).used = (idsOf n D).map (slotOf L sec (fun q => L.coeffs (r q) t) p) := by
  have hne : ∀ q, (slotOf L sec (fun q => L.coeffs (r q) t) p q).share ≠ [] := by
    intro q h
    have := L.sc_length (shareOf (L.val (sec q)) (L.coeffs (r q) t) p)
    unfold slotOf at h
    simp only at h
    rw [h] at this
    simp at this
  unfold fullRecord Meta.used slotsOf idsOf
  simp only
  rw [List.filter_map, List.map_map]
  have hf : (List.range n).filter ((fun p => decide (p.share ≠ [])) ∘ fun i =>
      if i + 1 ∈ D then slotOf L sec (fun q => L.coeffs (r q) t) p (i + 1) else ⟨[], []⟩)
      = (List.range n).filter (fun i => decide (i + 1 ∈ D)) := by
    refine List.filter_congr fun i _ => ?_
    simp only [Function.comp]
    by_cases h : i + 1 ∈ D
    · simp [hne, h]
    · simp [h]
  rw [hf]
  refine List.map_congr_left fun i hi => ?_
  rw [List.mem_filter] at hi
  have : i + 1 ∈ D := by simpa using hi.2
  simp only [Function.comp, if_pos this]

/-- The joint nonce point. -/
def jointR (L : Lawful C F G) (n : Nat) (sec : Nat → Bytes) (D : List Nat) : G :=
  ((idsOf n D).map (fun q => L.val (sec q) • L.B)).sum

/-- The share signature of `p`. -/
def shareSig (L : Lawful C F G) (n t : Nat) (sec r : Nat → Bytes) (D : List Nat) (x : F) (kc : List F) (bs : Bytes)
    (p : Nat) : F :=
  ((idsOf n D).map (fun q => shareOf (L.val (sec q)) (L.coeffs (r q) t) p)).sum +
    L.chal (L.pt (jointR L n sec D)) (L.pt (x • L.B)) bs * shareOf x kc p

theorem sign_honest (hS : Setup C L pair n t cfg x kc rsaPub) {p : Nat} (hp1 : 1 ≤ p) (hp2 : p ≤ n)
    {s : CState} {k : HRST} {bs : Bytes} (hu : unpackHRST bs = .ok k) (hlt : s.lss.hrs ≺ k.hrs)
    {sec r : Nat → Bytes} {D : List Nat} (hrec : Rec s k (fullRecord L n t p sec r D)) :
    ∃ res s', sign C (cfg p) s bs = (.ok res, s') ∧ s'.lss.hrs = k.hrs ∧
      res.signature = some (L.sc (shareSig L n t sec r D x kc bs p)) ∧
      res.ephemeralPublic = some (L.pt (jointR L n sec D)) := by
  obtain ⟨ref, e1, e2⟩ := hrec
  have hES : C.addScalars ((fullRecord L n t p sec r D).used.map (·.share))
      = L.sc ((idsOf n D).map (fun q => shareOf (L.val (sec q)) (L.coeffs (r q) t) p)).sum := by
    rw [used_fullRecord, List.map_map, ← L.addScalars, List.map_map]
    rfl
  have hEP : C.addElements ((fullRecord L n t p sec r D).used.map (·.ephemeralSecretPublicKey))
      = L.pt (jointR L n sec D) := by
    unfold jointR
    rw [used_fullRecord, List.map_map, ← L.addElements, List.map_map]
    rfl
  have hc : s.lss.checkHRS k = .ok false := by
    unfold HRS.lt SignState.hrs HRST.hrs at hlt
    simp only at hlt
    unfold SignState.checkHRS
    rcases hlt with h | ⟨h, h' | ⟨h', h''⟩⟩
    · rw [if_neg (by omega), if_neg (by omega)]
    · rw [if_neg (by omega), if_pos h, if_neg (by omega), if_neg (by omega)]
    · rw [if_neg (by omega), if_pos h, if_neg (by omega), if_pos h', if_neg (by omega), if_neg (by omega)]
  have hs : sign C (cfg p) s bs = signFresh C (cfg p) s bs k := by
    unfold sign
    rw [hu]; simp only; rw [hc]
  rw [hs]
  unfold signFresh
  rw [e1]; simp only; rw [e2]; simp only
  rw [hES, hEP, L.sc_length, L.sc_minimal]
  simp only [ne_eq, not_true_eq_false, if_false, Bool.true_eq_false]
  rw [hS.shareKey p hp1 hp2, hS.pub p hp1 hp2, L.sign]
  have hget : SignState.getErrorIfLessOrEqual { s.lss with ephemeralPublic := some (L.pt (jointR L n sec D)) }
      k.height k.round k.step = none := by
    unfold HRS.lt SignState.hrs HRST.hrs at hlt
    simp only at hlt
    unfold SignState.getErrorIfLessOrEqual
    simp only
    rcases hlt with h | ⟨h, h' | ⟨h', h''⟩⟩
    · rw [if_neg (by omega), if_pos (by omega)]
    · rw [if_neg (by omega), if_neg (by omega), if_neg (by omega), if_pos (by omega)]
    · rw [if_neg (by omega), if_neg (by omega), if_neg (by omega), if_neg (by omega), if_neg (by omega),
        if_neg (by omega)]
  unfold SignState.save
  simp only [hget]
  refine ⟨_, _, rfl, rfl, rfl, rfl⟩

theorem setPartsAndSign_honest (hS : Setup C L pair n t cfg x kc rsaPub) {p : Nat} (hp1 : 1 ≤ p) (hp2 : p ≤ n)
    {k : HRST} (hk : IsI64 k.timestamp) {bs : Bytes} (hu : unpackHRST bs = .ok k) {sec r : Nat → Bytes} :
    ∀ (qs : List Nat) (parts : List SecretPart) (rnd : Nat → Rand) (s : CState) (D : List Nat),
      (∀ q ∈ qs, 1 ≤ q ∧ q ≤ n) →
      List.Forall₂ (fun q part => PartFrom L cfg rsaPub (sec q) (L.coeffs (r q) t) q p part) qs parts →
      s.lss.hrs ≺ k.hrs → Rec s k (fullRecord L n t p sec r D) →
      ∃ res s', setPartsAndSign C (cfg p) k bs parts rnd s = (.ok res, s') ∧ s'.lss.hrs = k.hrs ∧
        res.signature = some (L.sc (shareSig L n t sec r (qs.reverse ++ D) x kc bs p)) ∧
        res.ephemeralPublic = some (L.pt (jointR L n sec (qs.reverse ++ D))) := by
  intro qs parts rnd s D hqs hf
  induction hf generalizing rnd s D with
  | nil =>
    intro hlt hrec
    simp only [setPartsAndSign, List.reverse_nil, List.nil_append]
    exact sign_honest hS hp1 hp2 hu hlt hrec
  | @cons q part qs parts hq _ ih =>
    intro hlt hrec
    obtain ⟨h1, h2⟩ := hqs q (List.mem_cons_self ..)
    obtain ⟨s1, g1, g2, g3⟩ := setPart_honest hS hp1 hp2 h1 h2 hk (rnd := rnd 0) hq hrec
    simp only [setPartsAndSign, g1]
    obtain ⟨res, s', a1, a2, a3, a4⟩ := ih (fun n => rnd (n + 1)) s1 (q :: D)
      (fun q' h => hqs q' (List.mem_cons_of_mem _ h)) (by rw [g2]; exact hlt) g3
    exact ⟨res, s', a1, a2, by simpa using a3, by simpa using a4⟩

/-! ### Assembling -/

theorem collectSigs_range (f : Nat → Bytes) (D : List Nat) (hf : ∀ i, i + 1 ∈ D → (f i).length ≠ 0) :
    ∀ (m j : Nat), collectSigs j ((List.range' j m).map (fun i => if i + 1 ∈ D then f i else [])) =
      (((List.range' j m).filter (fun i => decide (i + 1 ∈ D))).map (· + 1),
       ((List.range' j m).filter (fun i => decide (i + 1 ∈ D))).map f) := by
  intro m
  induction m with
  | zero => intro j; simp [collectSigs]
  | succ m ih =>
    intro j
    rw [List.range'_succ, List.map_cons, collectSigs, ih (j + 1)]
    by_cases h : j + 1 ∈ D
    · rw [if_pos h, if_neg (hf j h), List.filter_cons_of_pos (by simpa using h)]
      rfl
    · rw [if_neg h, if_pos List.length_nil, List.filter_cons_of_neg (by simpa using h)]

theorem combine_linear (hn : CastInj F n) (ids : List Nat) (hnd : ids.Nodup) (hids : ∀ i ∈ ids, 1 ≤ i ∧ i ≤ n)
    (qs : List Nat) (a : Nat → F) (co : Nat → List F) (hco : ∀ q, (co q).length + 1 ≤ ids.length)
    (c x : F) (kc : List F) (hkc : kc.length + 1 ≤ ids.length) :
    combineF ids (ids.map fun p => (qs.map fun q => shareOf (a q) (co q) p).sum + c * shareOf x kc p)
      = (qs.map a).sum + c * x := by
  have hone : ∀ (y : F) (l : List F), l.length + 1 ≤ ids.length →
      combineF ids (ids.map fun p => shareOf y l p) = y := by
    intro y l hl
    have := combine_eval n hn ids hnd hids (y :: l) (by simpa using hl)
    unfold shareOf
    rw [this]
    simp [horner]
  have hadd : ∀ f g : Nat → F, combineF ids (ids.map fun p => f p + g p)
      = combineF ids (ids.map f) + combineF ids (ids.map g) := by
    intro f g
    rw [combine_map ids hnd, combine_map ids hnd, combine_map ids hnd, ← Finset.sum_add_distrib]
    exact Finset.sum_congr rfl fun i _ => mul_add _ _ _
  have hmul : ∀ f : Nat → F, combineF ids (ids.map fun p => c * f p) = c * combineF ids (ids.map f) := by
    intro f
    rw [combine_map ids hnd, combine_map ids hnd, Finset.mul_sum]
    exact Finset.sum_congr rfl fun i _ => by ring
  rw [hadd, hmul, hone x kc hkc]
  congr 1
  induction qs with
  | nil =>
    simp only [List.map_nil, List.sum_nil]
    rw [combine_map ids hnd]
    simp
  | cons q qs ih =>
    simp only [List.map_cons, List.sum_cons]
    rw [hadd, ih, hone _ _ (hco q)]

theorem assemble_honest (hS : Setup C L pair n t cfg x kc rsaPub) {ps : List Nat} (hnd : ps.Nodup)
    (hps : ∀ p ∈ ps, 1 ≤ p ∧ p ≤ n) (hlen : t ≤ ps.length) {sec r : Nat → Bytes} {bs : Bytes} :
    assemble C t (L.pt (x • L.B)) bs
      ((List.range n).map fun i => if i + 1 ∈ ps then L.sc (shareSig L n t sec r ps x kc bs (i + 1)) else [])
      (L.pt (jointR L n sec ps)) =
    .ok (L.pt (jointR L n sec ps) ++ L.sc (((idsOf n ps).map fun q => L.val (sec q)).sum +
      L.chal (L.pt (jointR L n sec ps)) (L.pt (x • L.B)) bs * x)) := by
  have hcol := collectSigs_range (fun i => L.sc (shareSig L n t sec r ps x kc bs (i + 1))) ps
    (fun i _ => by rw [L.sc_length]; decide) n 0
  rw [← List.range_eq_range'] at hcol
  have hl := idsOf_length hnd hps
  have hids : ∀ i ∈ idsOf n ps, 1 ≤ i ∧ i ≤ n := fun i hi => (mem_idsOf.1 hi).2
  have hcomb : combineF (idsOf n ps) ((idsOf n ps).map fun p => shareSig L n t sec r ps x kc bs p) =
      ((idsOf n ps).map fun q => L.val (sec q)).sum +
        L.chal (L.pt (jointR L n sec ps)) (L.pt (x • L.B)) bs * x :=
    combine_linear (L.castInj.mono hS.n_le) (idsOf n ps) (idsOf_nodup n ps) hids (idsOf n ps)
      (fun q => L.val (sec q)) (fun q => L.coeffs (r q) t)
      (fun q => by rw [L.coeffs_length _ _ hS.t_pos, hl]; exact hlen) _ x kc
      (by rw [hS.kc_length, hl]; exact hlen)
  unfold assemble
  simp only [hcol]
  have e1 : ((List.range n).filter (fun i => decide (i + 1 ∈ ps))).map (· + 1) = idsOf n ps := rfl
  have e2 : ((List.range n).filter (fun i => decide (i + 1 ∈ ps))).map
      (fun i => L.sc (shareSig L n t sec r ps x kc bs (i + 1)))
      = ((idsOf n ps).map fun p => shareSig L n t sec r ps x kc bs p).map L.sc := by
    unfold idsOf
    rw [List.map_map, List.map_map]
    rfl
  rw [e1, e2, if_neg (by rw [hl]; omega), L.combine _ _ _ (by simp) (idsOf_nodup n ps) (by
      rw [List.length_map, List.length_range]; exact hids) (by rw [List.length_map, List.length_range]; exact hS.n_le), hcomb]
  rw [if_pos]
  rw [L.verify]
  unfold jointR
  rw [add_smul, mul_smul]
  congr 1
  generalize idsOf n ps = l
  induction l with
  | nil => simp
  | cons q l ih => simp only [List.map_cons, List.sum_cons, add_smul, ih]

/-- C21 in one statement, see `Verif.Props.Round`. -/
theorem round_honest (hS : Setup C L pair n t cfg x kc rsaPub) {ps : List Nat} (hnd : ps.Nodup)
    (hps : ∀ p ∈ ps, 1 ≤ p ∧ p ≤ n) (hlen : t ≤ ps.length) {leader : Nat} (hleader : leader ∈ ps)
    {k : HRST} (hk : IsI64 k.timestamp) {bs : Bytes} (hu : unpackHRST bs = .ok k)
    {order : Nat → List Nat} (hord : ∀ p ∈ ps, ∀ q ∈ order p, 1 ≤ q ∧ q ≤ n)
    (hall : ∀ p ∈ ps, ∀ q ∈ ps, q ≠ p → q ∈ order p) (hother : ∀ p ∈ ps, ∃ q ∈ order p, q ≠ p)
    {mapOrder : Nat → List Nat} (hmap : ∀ p ∈ ps, (mapOrder p).Perm ps)
    {rnd1 rnd2 : Nat → Nat → Rand} (hrnd : ∀ p ∈ ps, ∀ i, ∃ sec, (rnd1 p i).secret = some sec ∧ sec.length = 32)
    {st : Nat → CState} (hlow : ∀ p ∈ ps, (st p).lss.hrs ≺ k.hrs) (hnew : ∀ p ∈ ps, (st p).hrsMeta k = none) :
    ∃ sig st', signRound C cfg ps leader t n (L.pt (x • L.B)) k bs
        (fun p => (order p).map (fun q : Nat => (q : Int))) mapOrder rnd1 rnd2 st = (.ok sig, st') ∧
      C.verify (L.pt (x • L.B)) bs sig = true ∧ (∀ p ∈ ps, (st' p).lss.hrs = k.hrs) ∧
      (∀ p, p ∉ ps → st' p = st p) := by
  -- first phase
  have h1 : ∀ p ∈ ps, ∃ sec r parts s', getParts C (cfg p) k ((order p).map (fun q : Nat => (q : Int))) (rnd1 p) (st p)
        = (.ok parts, s') ∧ s'.lss = (st p).lss ∧
      List.Forall₂ (fun q part => PartFrom L cfg rsaPub sec (L.coeffs r t) p q part)
        ((order p).filter (fun q => q ≠ p)) parts ∧ Rec s' k (ownRecord L n t p sec r) := by
    intro p hp
    obtain ⟨sec, r, parts, s', _, _, g1, g2, g3, g4⟩ := getPartsLoop_fresh hS (hps p hp).1 (hps p hp).2 hk
      (order p) (rnd1 p) (st p) (hord p hp) (hother p hp) (hnew p hp) (hrnd p hp)
    refine ⟨sec, r, parts, s', ?_, g2, g3, g4⟩
    unfold getParts
    obtain ⟨q, hq, _⟩ := hother p hp
    rw [if_neg, g1]
    intro h
    rw [List.map_eq_nil_iff] at h
    rw [h] at hq; cases hq
  have h1' : ∀ p, ∃ sec r parts s', p ∈ ps → (getParts C (cfg p) k ((order p).map (fun q : Nat => (q : Int))) (rnd1 p) (st p)
        = (.ok parts, s') ∧ s'.lss = (st p).lss ∧
      List.Forall₂ (fun q part => PartFrom L cfg rsaPub sec (L.coeffs r t) p q part)
        ((order p).filter (fun q => q ≠ p)) parts ∧ Rec s' k (ownRecord L n t p sec r)) := by
    intro p
    by_cases hp : p ∈ ps
    · obtain ⟨a, b, c, d, h⟩ := h1 p hp; exact ⟨a, b, c, d, fun _ => h⟩
    · exact ⟨[], [], [], st p, fun h => absurd h hp⟩
  choose sec r parts s1 hgot using h1'
  -- second phase
  have h2 : ∀ p ∈ ps, ∃ res s', setPartsAndSign C (cfg p) k bs
        (partsFor ((mapOrder p).map fun q : Nat => ((q : Int), parts q)) (p : Int)) (rnd2 p) (s1 p) = (.ok res, s') ∧
      s'.lss.hrs = k.hrs ∧ res.signature = some (L.sc (shareSig L n t sec r ps x kc bs p)) ∧
      res.ephemeralPublic = some (L.pt (jointR L n sec ps)) := by
    intro p hp
    have hmem : ∀ q, q ∈ mapOrder p ↔ q ∈ ps := fun q => (hmap p hp).mem_iff
    have hroute := partsFor_honest (L := L) (cfg := cfg) (rsaPub := rsaPub) (p := p) (ps := mapOrder p) (parts := parts)
      (order := order) (sec := sec) (co := fun q => L.coeffs (r q) t)
      (fun q hq => (hgot q ((hmem q).1 hq)).2.2.1) (fun q hq hne => hall q ((hmem q).1 hq) p hp (Ne.symm hne))
    have hrec : Rec (s1 p) k (fullRecord L n t p sec r [p]) := by
      have := (hgot p hp).2.2.2
      unfold ownRecord at this
      unfold fullRecord
      rw [slotsOf_congr L n sec (fun _ => sec p) (fun q => L.coeffs (r q) t) (fun _ => L.coeffs (r p) t) p [p]
        (by intro q hq; rw [List.mem_singleton.1 hq]; exact ⟨rfl, rfl⟩)]
      exact this
    obtain ⟨res, s', a1, a2, a3, a4⟩ := setPartsAndSign_honest hS (hps p hp).1 (hps p hp).2 hk hu
      ((mapOrder p).filter (fun q => q ≠ p)) _ (rnd2 p) (s1 p) [p]
      (fun q hq => hps q ((hmem q).1 (List.mem_filter.1 hq).1)) hroute
      (by rw [(hgot p hp).2.1]; exact hlow p hp) hrec
    have hD : idsOf n (((mapOrder p).filter (fun q => q ≠ p)).reverse ++ [p]) = idsOf n ps := by
      refine idsOf_congr fun q => ?_
      rw [List.mem_append, List.mem_reverse, List.mem_filter, List.mem_singleton, hmem]
      by_cases h : q = p
      · subst h; simp [hp]
      · simp [h]
    refine ⟨res, s', a1, a2, ?_, ?_⟩
    · rw [a3]; unfold shareSig jointR; rw [hD]
    · rw [a4]; unfold jointR; rw [hD]
  -- what the definition of the round computes
  have hres : ∀ p ∈ ps, ∃ res s', setPartsAndSign C (cfg p) k bs
        (partsFor ((mapOrder p).map fun q : Nat => ((q : Int),
          okParts (getParts C (cfg q) k ((order q).map (fun q : Nat => (q : Int))) (rnd1 q) (st q)).1)) (p : Int)) (rnd2 p)
          (getParts C (cfg p) k ((order p).map (fun q : Nat => (q : Int))) (rnd1 p) (st p)).2 = (.ok res, s') ∧
      s'.lss.hrs = k.hrs ∧ res.signature = some (L.sc (shareSig L n t sec r ps x kc bs p)) ∧
      res.ephemeralPublic = some (L.pt (jointR L n sec ps)) := by
    intro p hp
    obtain ⟨res, s', a1, a2⟩ := h2 p hp
    refine ⟨res, s', ?_, a2⟩
    rw [(hgot p hp).1, ← a1]
    congr 1
    congr 1
    refine List.map_congr_left fun q hq => ?_
    rw [(hgot q ((hmap p hp).mem_iff.1 hq)).1]
    rfl
  unfold signRound roundShares
  simp only
  obtain ⟨resL, sL, l1, l2, l3, l4⟩ := hres leader hleader
  have harr : shareArray n ps (fun p => (setPartsAndSign C (cfg p) k bs
        (partsFor ((mapOrder p).map fun q : Nat => ((q : Int),
          okParts (getParts C (cfg q) k ((order q).map (fun q : Nat => (q : Int))) (rnd1 q) (st q)).1)) (p : Int)) (rnd2 p)
          (getParts C (cfg p) k ((order p).map (fun q : Nat => (q : Int))) (rnd1 p) (st p)).2).1) =
      (List.range n).map fun i => if i + 1 ∈ ps then L.sc (shareSig L n t sec r ps x kc bs (i + 1)) else [] := by
    unfold shareArray
    refine List.map_congr_left fun i _ => ?_
    by_cases hi : i + 1 ∈ ps
    · rw [if_pos hi, if_pos hi]
      obtain ⟨res, s', a1, a2, a3, a4⟩ := hres (i + 1) hi
      simp only [a1]
      rw [a3]; rfl
    · rw [if_neg hi, if_neg hi]
  rw [harr, l1]
  simp only
  rw [l4]
  have hass := assemble_honest hS hnd hps hlen (sec := sec) (r := r) (bs := bs)
  refine ⟨_, _, Prod.ext hass rfl, ?_, ?_, ?_⟩
  · have h := hass
    unfold assemble at h
    simp only at h
    split at h
    · cases h
    split at h
    · next hv =>
      simp only [Out.ok.injEq] at h
      rw [← h]; exact hv
    · cases h
  · intro p hp
    simp only [if_pos hp]
    obtain ⟨res, s', a1, a2, _⟩ := hres p hp
    rw [a1]; exact a2
  · intro p hp
    simp only [if_neg hp]

end
end Horcrux
