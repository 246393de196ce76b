import Verif.Lemmas.Retry
import Verif.Lemmas.Mixed
import Verif.Lemmas.Retime
import Verif.Spec.Retry
/-
Attempts at one block, each with its own participants.
-/
namespace Horcrux
open Spec

section
variable {C : Crypto} {F G : Type} [Field F] [AddCommGroup G] [Module F G] {L : Lawful C F G}
  {pair : Bytes → Bytes → Prop} {n t : Nat} {cfg : Nat → CosignerCfg} {x : F} {kc : List F} {rsaPub : Nat → Bytes}

/-- What holds while attempts with any participants are being made; `H` are the cosigners with nonces for the block. Who has
signed has done so for some participants `qs`; who has not has only its own contribution in its record. -/
structure AnyInv (L : Lawful C F G) (n t : Nat) (cfg : Nat → CosignerCfg) (x : F) (kc : List F) (rsaPub : Nat → Bytes)
    (k : HRST) (bs : Bytes) (sec r : Nat → Bytes) (H : List Nat) (s : TryState) : Prop where
  new : ∀ p, 1 ≤ p → p ≤ n → p ∉ H → (s.cs p).hrsMeta k = none ∧ (s.cs p).lss.hrs ≺ k.hrs ∧ s.answers p = []
  secret : ∀ p ∈ H, (sec p).length = 32
  held : ∀ p, 1 ≤ p → p ≤ n → p ∈ H → ∃ D, p ∈ D ∧ (∀ q ∈ D, q ∈ H) ∧ Rec (s.cs p) k (fullRecord L n t p sec r D) ∧
    (((s.cs p).lss.hrs ≺ k.hrs ∧ ∀ q ∈ D, q = p) ∨
      ∃ qs : List Nat, qs.Nodup ∧ (∀ q ∈ qs, (1 ≤ q ∧ q ≤ n) ∧ q ∈ H) ∧ SignedAs L n t sec r qs x kc k bs p (s.cs p))
  answers : ∀ p, 1 ≤ p → p ≤ n → ∀ a ∈ s.answers p, AnswerOf L cfg rsaPub n t sec r p a

theorem AnyInv.start {k : HRST} {bs : Bytes} {st : Nat → CState}
    (hlow : ∀ p, 1 ≤ p → p ≤ n → (st p).lss.hrs ≺ k.hrs) (hnew : ∀ p, 1 ≤ p → p ≤ n → (st p).hrsMeta k = none) :
    AnyInv L n t cfg x kc rsaPub k bs (fun _ => []) (fun _ => []) [] ⟨st, fun _ => []⟩ where
  new := fun p h1 h2 _ => ⟨hnew p h1 h2, hlow p h1 h2, rfl⟩
  secret := by simp
  held := by simp
  answers := by simp

/-- A cosigner is asked for its parts. -/
theorem AnyInv.ask (hS : Setup C L pair n t cfg x kc rsaPub) (hn : 2 ≤ n) {k : HRST}
    (hk : IsI64 k.timestamp) {bs : Bytes} {sec r : Nat → Bytes} {H : List Nat} {s : TryState}
    (h : AnyInv L n t cfg x kc rsaPub k bs sec r H s) {p : Nat} (hp1 : 1 ≤ p) (hp2 : p ≤ n) {ord : List Nat}
    (hord : ord.Perm (List.range' 1 n)) {rnd : Nat → Rand}
    (hrnd : ∀ i, ∃ sec, (rnd i).secret = some sec ∧ sec.length = 32) :
    ∃ sec' r', (∀ q ∈ H, sec' q = sec q ∧ r' q = r q) ∧
      AnyInv L n t cfg x kc rsaPub k bs sec' r' (p :: H)
        (s.step C cfg k bs (.ask p (ord.map (fun q : Nat => (q : Int))) rnd)) ∧
      (∃ a s', getParts C (cfg p) k (ord.map (fun q : Nat => (q : Int))) rnd (s.cs p) = (.ok a, s')) ∧
      (p ∉ H → ∃ i, (rnd i).secret = some (sec' p)) := by
  have hmem : ∀ q, q ∈ ord ↔ 1 ≤ q ∧ q ≤ n := by
    intro q; rw [hord.mem_iff, List.mem_range'_1]; omega
  have hother : ∃ q ∈ ord, q ≠ p := by
    by_cases h : p = 1
    · exact ⟨2, (hmem 2).2 ⟨by omega, hn⟩, by omega⟩
    · exact ⟨1, (hmem 1).2 ⟨le_refl _, by omega⟩, Ne.symm h⟩
  have hne : ord.map (fun q : Nat => (q : Int)) ≠ [] := by
    intro h0
    rw [List.map_eq_nil_iff] at h0
    obtain ⟨q, hq, _⟩ := hother
    rw [h0] at hq; cases hq
  by_cases hpH : p ∈ H
  · obtain ⟨D, hpD, hD, hrec, hl⟩ := h.held p hp1 hp2 hpH
    obtain ⟨parts, s', D', g1, g2, g3, g4, _, g6, g7⟩ := getPartsLoop_held hS hp1 hp2 hk (h.secret p hpH) ord rnd (s.cs p) []
      D (fun q hq => (hmem q).1 hq) hrec
    have hg : getParts C (cfg p) k (ord.map (fun q : Nat => (q : Int))) rnd (s.cs p) = (.ok parts, s') := by
      unfold getParts; rw [if_neg hne, g1]; simp
    refine ⟨sec, r, fun _ _ => ⟨rfl, rfl⟩, ?_, ⟨parts, s', hg⟩, fun h => absurd hpH h⟩
    simp only [TryState.step, hg]
    constructor
    · intro q h1 h2 hq
      have hqp : q ≠ p := fun e => hq (by simp [e])
      have hqH : q ∉ H := fun e => hq (by simp [e])
      simp only [if_neg hqp]
      exact h.new q h1 h2 hqH
    · intro q hq
      rcases List.mem_cons.1 hq with rfl | hq
      · exact h.secret _ hpH
      · exact h.secret _ hq
    · intro q h1 h2 hq
      by_cases hqp : q = p
      · subst hqp
        simp only [if_true]
        refine ⟨D', g6 hpD, ?_, g7, ?_⟩
        · intro q' hq'
          rcases g4 q' hq' with h' | h'
          · simp [hD q' h']
          · simp [h']
        · rcases hl with ⟨hl, hl'⟩ | ⟨qs, hq1, hl, hs⟩
          · left; rw [g2]
            refine ⟨hl, fun q' hq' => ?_⟩
            rcases g4 q' hq' with h' | h'
            · exact hl' q' h'
            · exact h'
          · right
            refine ⟨qs, hq1, fun q' hq' => ⟨(hl q' hq').1, by simp [(hl q' hq').2]⟩, ?_⟩
            exact ⟨by rw [g2]; exact hs.hrs, by rw [g2]; exact hs.signBytes, by rw [g2]; exact hs.signature,
              by rw [g2]; exact hs.ephemeral⟩
      · have hqH : q ∈ H := by
          rcases List.mem_cons.1 hq with e | e
          · exact absurd e hqp
          · exact e
        simp only [if_neg hqp]
        obtain ⟨D2, a0, a1, a2, a3⟩ := h.held q h1 h2 hqH
        refine ⟨D2, a0, fun q' hq' => by simp [a1 q' hq'], a2, ?_⟩
        rcases a3 with a3 | ⟨a5, a6, a3, a4⟩
        · exact .inl a3
        · exact .inr ⟨a5, a6, fun q' hq' => ⟨(a3 q' hq').1, by simp [(a3 q' hq').2]⟩, a4⟩
    · intro q h1 h2 a ha
      by_cases hqp : q = p
      · subst hqp
        simp only [if_true, okParts, List.mem_cons] at ha
        rcases ha with rfl | ha
        · exact ⟨ord, fun q' a b _ => (hmem q').2 ⟨a, b⟩, g3⟩
        · exact h.answers _ h1 h2 a ha
      · simp only [if_neg hqp] at ha
        exact h.answers q h1 h2 a ha
  · obtain ⟨b1, b2, b3⟩ := h.new p hp1 hp2 hpH
    obtain ⟨sc, rr, parts, s', hsc, ⟨i, hi, _⟩, g1, g2, g3, g4⟩ := getPartsLoop_fresh hS hp1 hp2 hk ord rnd (s.cs p)
      (fun q hq => (hmem q).1 hq) hother b1 hrnd
    have hg : getParts C (cfg p) k (ord.map (fun q : Nat => (q : Int))) rnd (s.cs p) = (.ok parts, s') := by
      unfold getParts; rw [if_neg hne, g1]
    refine ⟨fun q => if q = p then sc else sec q, fun q => if q = p then rr else r q, ?_, ?_,
      ⟨parts, s', hg⟩, fun _ => ⟨i, by simpa using hi⟩⟩
    · intro q hq
      have : q ≠ p := fun e => hpH (e ▸ hq)
      simp [this]
    simp only [TryState.step, hg]
    have hagree : ∀ q ∈ H, sec q = (fun q => if q = p then sc else sec q) q ∧ r q = (fun q => if q = p then rr else r q) q := by
      intro q hq
      have : q ≠ p := fun e => hpH (e ▸ hq)
      simp [this]
    constructor
    · intro q h1 h2 hq
      have hqp : q ≠ p := fun e => hq (by simp [e])
      have hqH : q ∉ H := fun e => hq (by simp [e])
      simp only [if_neg hqp]
      exact h.new q h1 h2 hqH
    · intro q hq
      rcases List.mem_cons.1 hq with rfl | hq
      · simpa using hsc
      · have : q ≠ p := fun e => hpH (e ▸ hq)
        simpa [this] using h.secret _ hq
    · intro q h1 h2 hq
      by_cases hqp : q = p
      · subst hqp
        simp only [if_true]
        refine ⟨[q], by simp, by simp, ?_, .inl ⟨by rw [g2]; exact b2, by simp⟩⟩
        have : ownRecord L n t q sc rr = fullRecord L n t q (fun q' => if q' = q then sc else sec q')
            (fun q' => if q' = q then rr else r q') [q] := by
          have := fullRecord_congr (L := L) (n := n) (t := t) (p := q) (sec := fun _ => sc) (r := fun _ => rr)
            (sec' := fun q' => if q' = q then sc else sec q') (r' := fun q' => if q' = q then rr else r q') (D := [q]) (D' := [q])
            (by simp) (fun _ => Iff.rfl) (by simp)
          rw [← this]; rfl
        rw [← this]; exact g4
      · have hqH : q ∈ H := by
          rcases List.mem_cons.1 hq with e | e
          · exact absurd e hqp
          · exact e
        simp only [if_neg hqp]
        obtain ⟨D2, a0, a1, a2, a3⟩ := h.held q h1 h2 hqH
        refine ⟨D2, a0, fun q' hq' => by simp [a1 q' hq'], ?_, ?_⟩
        · rw [← fullRecord_congr (hagree q hqH) (fun _ => Iff.rfl) (fun q' hq' => hagree q' (a1 q' hq'))]
          exact a2
        rcases a3 with a3 | ⟨a5, a6, a3, a4⟩
        · exact .inl a3
        · have hc := shareSig_congr (L := L) (n := n) (t := t) (x := x) (kc := kc) (bs := bs) (p := q) (D := a5) (D' := a5)
            (fun _ => Iff.rfl) (fun q' hq' => hagree q' (a3 q' hq').2)
          exact .inr ⟨a5, a6, fun q' hq' => ⟨(a3 q' hq').1, by simp [(a3 q' hq').2]⟩, a4.hrs, a4.signBytes, by rw [← hc.1]; exact a4.signature,
            by rw [← hc.2]; exact a4.ephemeral⟩
    · intro q h1 h2 a ha
      by_cases hqp : q = p
      · subst hqp
        simp only [if_true, okParts, b3, List.mem_singleton] at ha
        subst ha
        exact ⟨ord, fun q' a b _ => (hmem q').2 ⟨a, b⟩, by simpa using g3⟩
      · simp only [if_neg hqp] at ha
        obtain ⟨ds, d1, d2⟩ := h.answers q h1 h2 a ha
        refine ⟨ds, d1, ?_⟩
        simpa only [if_neg hqp] using d2

/-- A participant is sent parts out of the answers given for the block. -/
theorem AnyInv.sign (hS : Setup C L pair n t cfg x kc rsaPub)
    {k : HRST} (hk : IsI64 k.timestamp) {bs : Bytes} (hu : unpackHRST bs = .ok k) {sec r : Nat → Bytes} {H : List Nat}
    {s : TryState} (h : AnyInv L n t cfg x kc rsaPub k bs sec r H s) {p : Nat} {qs : List Nat} (hp : p ∈ qs)
    (hnd : qs.Nodup) (hqs : ∀ q ∈ qs, 1 ≤ q ∧ q ≤ n)
    {mapOrder : List Nat} (hmap : mapOrder.Perm qs)
    {ans : Nat → List SecretPart} (hans : ∀ q ∈ qs, ans q ∈ s.answers q) (rnd : Nat → Rand) :
    AnyInv L n t cfg x kc rsaPub k bs sec r H (s.step C cfg k bs (.sign p mapOrder ans rnd)) ∧
    ∃ res s', setPartsAndSign C (cfg p) k bs (partsFor (mapOrder.map fun q : Nat => ((q : Int), ans q)) (p : Int)) rnd
      (s.cs p) = (.ok res, s') ∧ s'.lss.hrs = k.hrs ∧
      ∃ qs' : List Nat, ((s.cs p).lss.hrs ≺ k.hrs ∧ qs' = qs ∨
          SignedAs L n t sec r qs' x kc k bs p (s.cs p)) ∧ qs'.Nodup ∧ (∀ q ∈ qs', (1 ≤ q ∧ q ≤ n) ∧ q ∈ H) ∧
        res.signature = some (L.sc (shareSig L n t sec r qs' x kc bs p)) ∧
        res.ephemeralPublic = some (L.pt (jointR L n sec qs')) := by
  have hall : ∀ q ∈ qs, q ∈ H := by
    intro q hq
    by_contra hc
    have := (h.new q (hqs q hq).1 (hqs q hq).2 hc).2.2
    have h2 := hans q hq
    rw [this] at h2; cases h2
  have hm : ∀ q, q ∈ mapOrder ↔ q ∈ qs := fun q => hmap.mem_iff
  obtain ⟨D, hpD, hD, hrec, hl⟩ := h.held p (hqs p hp).1 (hqs p hp).2 (hall p hp)
  have hAns : ∀ q, ∃ ds : List Nat, q ∈ qs → (∀ q', 1 ≤ q' → q' ≤ n → q' ≠ q → q' ∈ ds) ∧
    List.Forall₂ (fun q' part => PartFrom L cfg rsaPub (sec q) (L.coeffs (r q) t) q q' part) (ds.filter (fun q' => q' ≠ q)) (ans q) := by
    intro q
    by_cases hq : q ∈ qs
    · obtain ⟨ds, d1, d2⟩ := h.answers q (hqs q hq).1 (hqs q hq).2 _ (hans q hq)
      exact ⟨ds, fun _ => ⟨d1, d2⟩⟩
    · exact ⟨[], fun h => absurd h hq⟩
  choose order horder using hAns
  have hroute := partsFor_honest (L := L) (cfg := cfg) (rsaPub := rsaPub) (p := p) (ps := mapOrder) (parts := ans)
    (order := order) (sec := sec) (co := fun q => L.coeffs (r q) t)
    (fun q hq => (horder q ((hm q).1 hq)).2)
    (fun q hq hne => (horder q ((hm q).1 hq)).1 p (hqs p hp).1 (hqs p hp).2 (Ne.symm hne))
  obtain ⟨s1, a1, a2, a3⟩ := setParts_held hS (hqs p hp).1 (hqs p hp).2 hk (bs := bs) (mapOrder.filter (fun q => q ≠ p)) _ rnd
    (s.cs p) D (fun q hq => hqs q ((hm q).1 (List.mem_filter.1 hq).1)) hroute hrec
  -- the finished step, from the result
  have fin : ∀ res s' qs', setPartsAndSign C (cfg p) k bs (partsFor (mapOrder.map fun q : Nat => ((q : Int), ans q)) (p : Int)) rnd
      (s.cs p) = (.ok res, s') → qs'.Nodup → (∀ q ∈ qs', (1 ≤ q ∧ q ≤ n) ∧ q ∈ H) → SignedAs L n t sec r qs' x kc k bs p s' →
      (∃ D', p ∈ D' ∧ (∀ q ∈ D', q ∈ H) ∧ Rec s' k (fullRecord L n t p sec r D')) →
      AnyInv L n t cfg x kc rsaPub k bs sec r H (s.step C cfg k bs (.sign p mapOrder ans rnd)) := by
    intro res s' qs' hres hqs1 hqs2 hsig hex
    simp only [TryState.step, hres]
    constructor
    · intro q h1 h2 hq
      have hqp : q ≠ p := fun e => hq (e ▸ hall p hp)
      simp only [if_neg hqp]
      exact h.new q h1 h2 hq
    · exact h.secret
    · intro q h1 h2 hq
      by_cases hqp : q = p
      · subst hqp
        simp only [if_true]
        obtain ⟨D', d0, d1, d2⟩ := hex
        exact ⟨D', d0, d1, d2, .inr ⟨qs', hqs1, hqs2, hsig⟩⟩
      · simp only [if_neg hqp]
        exact h.held q h1 h2 hq
    · exact h.answers
  have hsub : ∀ q ∈ (mapOrder.filter (fun q => q ≠ p)).reverse ++ D, q ∈ H := by
    intro q hq
    rw [List.mem_append, List.mem_reverse, List.mem_filter, hm] at hq
    rcases hq with hq | hq
    · exact hall q hq.1
    · exact hD q hq
  rcases hl with ⟨hl, hone⟩ | ⟨qs', hn1, hn2, hl⟩
  · have hset : ∀ q, q ∈ (mapOrder.filter (fun q => q ≠ p)).reverse ++ D ↔ q ∈ qs := by
      intro q
      rw [List.mem_append, List.mem_reverse, List.mem_filter, hm]
      by_cases e : q = p
      · subst e
        exact ⟨fun _ => hp, fun _ => .inr hpD⟩
      · refine ⟨?_, fun hq => .inl ⟨hq, by simpa using e⟩⟩
        rintro (hq | hq)
        · exact hq.1
        · exact absurd (hone q hq) e
    obtain ⟨res, s', b1, b2, b3, b4, b5⟩ := sign_fresh hS (hqs p hp).1 (hqs p hp).2 hu (by rw [a2]; exact hl) a3
    have hc := shareSig_congr (L := L) (n := n) (t := t) (x := x) (kc := kc) (bs := bs) (p := p) (sec := sec) (sec' := sec)
      (r := r) (r' := r) hset (fun _ _ => ⟨rfl, rfl⟩)
    rw [hc.1] at b4
    rw [hc.2] at b5
    have b2' : SignedAs L n t sec r qs x kc k bs p s' :=
      ⟨b2.hrs, b2.signBytes, by rw [b2.signature, hc.1], by rw [b2.ephemeral, hc.2]⟩
    exact ⟨fin res s' qs (by rw [a1, b1]) hnd (fun q hq => ⟨hqs q hq, hall q hq⟩) b2'
        ⟨_, List.mem_append_right _ hpD, hsub, b3⟩,
      res, s', by rw [a1, b1], b2'.hrs, qs, .inl ⟨hl, rfl⟩, hnd, fun q hq => ⟨hqs q hq, hall q hq⟩, b4, b5⟩
  · have hl1 : SignedAs L n t sec r qs' x kc k bs p s1 :=
      ⟨by rw [a2]; exact hl.hrs, by rw [a2]; exact hl.signBytes, by rw [a2]; exact hl.signature, by rw [a2]; exact hl.ephemeral⟩
    have b1 := sign_signedAs (cfg := cfg) p hu hl1
    exact ⟨fin _ s1 qs' (by rw [a1, b1]) hn1 hn2 hl1 ⟨_, List.mem_append_right _ hpD, hsub, a3⟩,
      _, s1, by rw [a1, b1], hl1.hrs, qs', .inr hl, hn1, hn2, rfl, rfl⟩

/-- A record below the block made known by raft. -/
theorem AnyInv.event {k : HRST} {bs : Bytes} {sec r : Nat → Bytes} {H : List Nat} {s : TryState}
    (h : AnyInv L n t cfg x kc rsaPub k bs sec r H s) (p : Nat) (ssc : SSC) (hlow : ssc.hrs ≺ k.hrs) :
    AnyInv L n t cfg x kc rsaPub k bs sec r H (s.step C cfg k bs (.event p ssc)) := by
  have hl : ∀ l : SignState, l.hrs ≺ k.hrs → (l.save ssc).2.hrs ≺ k.hrs := by
    intro l h
    rw [SignState.save_hrs]
    split
    · exact hlow
    · exact h
  simp only [TryState.step]
  constructor
  · intro q h1 h2 hq
    obtain ⟨a, b, c⟩ := h.new q h1 h2 hq
    by_cases hqp : q = p
    · subst hqp; simp only [if_true]; exact ⟨a, hl _ b, c⟩
    · simp only [if_neg hqp]; exact ⟨a, b, c⟩
  · exact h.secret
  · intro q h1 h2 hq
    obtain ⟨D, d0, d1, d2, d3⟩ := h.held q h1 h2 hq
    by_cases hqp : q = p
    · subst hqp
      simp only [if_true]
      refine ⟨D, d0, d1, d2, ?_⟩
      rcases d3 with ⟨d3, d5⟩ | ⟨qs, d5, d3, d4⟩
      · exact .inl ⟨hl _ d3, d5⟩
      · refine .inr ⟨qs, d5, d3, ?_⟩
        have he : ((s.cs q).lss.save ssc).2 = (s.cs q).lss := by
          refine SignState.save_err _ _ ?_
          rw [d4.hrs, HRS.not_lt]
          exact HRS.le_of_lt hlow
        rw [he]
        exact d4
    · simp only [if_neg hqp]; exact ⟨D, d0, d1, d2, d3⟩
  · exact h.answers

/-- All of `qs` are asked for their parts. -/
theorem AnyInv.askAll (hS : Setup C L pair n t cfg x kc rsaPub) (hn : 2 ≤ n) {k : HRST}
    (hk : IsI64 k.timestamp) {bs : Bytes} {ord : Nat → List Nat} (hord : ∀ p, (ord p).Perm (List.range' 1 n))
    {rnd : Nat → Nat → Rand} (hrnd : ∀ p i, ∃ sec, (rnd p i).secret = some sec ∧ sec.length = 32) :
    ∀ (qs : List Nat) (sec r : Nat → Bytes) (H : List Nat) (s : TryState), qs.Nodup → (∀ p ∈ qs, 1 ≤ p ∧ p ≤ n) →
      AnyInv L n t cfg x kc rsaPub k bs sec r H s →
      ∃ sec' r' H' s', AnyInv L n t cfg x kc rsaPub k bs sec' r' H' s' ∧ (∀ p, p ∉ qs → s'.cs p = s.cs p) ∧
        (∀ p ∈ qs, s'.cs p = (getParts C (cfg p) k ((ord p).map (fun q : Nat => (q : Int))) (rnd p) (s.cs p)).2 ∧
          okParts (getParts C (cfg p) k ((ord p).map (fun q : Nat => (q : Int))) (rnd p) (s.cs p)).1 ∈ s'.answers p) ∧
        (∀ p, ∀ a ∈ s.answers p, a ∈ s'.answers p) ∧ (∀ q ∈ H, sec' q = sec q ∧ r' q = r q) ∧
        (∀ p ∈ qs, p ∉ H → ∃ i, (rnd p i).secret = some (sec' p)) := by
  intro qs
  induction qs with
  | nil => intro sec r H s _ _ h; exact ⟨sec, r, H, s, h, fun _ _ => rfl, by simp, fun _ _ h => h, fun _ _ => ⟨rfl, rfl⟩, by simp⟩
  | cons p qs ih =>
    intro sec r H s hnd hqs h
    obtain ⟨hp, hnd⟩ := List.nodup_cons.1 hnd
    obtain ⟨sec1, r1, h0, h1, _, h2⟩ := h.ask hS hn hk (hqs p (by simp)).1 (hqs p (by simp)).2 (hord p) (hrnd p)
    obtain ⟨sec2, r2, H2, s2, e1, e2, e3, e4, e5, e6⟩ := ih sec1 r1 _ _ hnd (fun q hq => hqs q (by simp [hq])) h1
    refine ⟨sec2, r2, H2, s2, e1, ?_, ?_, ?_, fun q hq => ?_, fun q hq hqH => ?_⟩
    · intro q hq
      have hqp : q ≠ p := fun e => hq (by simp [e])
      rw [e2 q (fun e => hq (by simp [e]))]
      simp [TryState.step, hqp]
    · intro q hq
      by_cases hqp : q = p
      · subst hqp
        rw [e2 q hp]
        refine ⟨by simp [TryState.step], e4 q _ ?_⟩
        simp [TryState.step]
      · have hq' : q ∈ qs := by
          rcases List.mem_cons.1 hq with e | e
          · exact absurd e hqp
          · exact e
        have := e3 q hq'
        simpa [TryState.step, hqp] using this
    · intro q a ha
      refine e4 q a ?_
      simp only [TryState.step]
      split
      · exact List.mem_cons_of_mem _ ha
      · exact ha
    · have a := e5 q (List.mem_cons_of_mem _ hq)
      have b := h0 q hq
      exact ⟨a.1.trans b.1, a.2.trans b.2⟩
    · by_cases hqp : q = p
      · subst hqp
        rw [(e5 q (by simp)).1]
        exact h2 hqH
      · have hq' : q ∈ qs := by
          rcases List.mem_cons.1 hq with e | e
          · exact absurd e hqp
          · exact e
        exact e6 q hq' (by simp [hqp, hqH])


theorem getParts_lss (C : Crypto) (c : CosignerCfg) (k : HRST) (order : List Int) (rnd : Nat → Rand) (s : CState) :
    (getParts C c k order rnd s).2.lss = s.lss := by
  have h := getParts_withLss C c k s.lss order rnd s
  rw [withLss_self] at h
  exact (congrArg (fun x => x.2.lss) h).trans rfl

/-- The share signature of `p` in a round of the participants `qs`. -/
def partialSig (L : Lawful C F G) (t : Nat) (sec r : Nat → Bytes) (x : F) (kc : List F) (bs : Bytes) (qs : List Nat) (p : Nat) : F :=
  (qs.map fun q => shareOf (L.val (sec q)) (L.coeffs (r q) t) p).sum +
    L.chal (L.pt ((qs.map fun q => L.val (sec q)).sum • L.B)) (L.pt (x • L.B)) bs * shareOf x kc p

theorem shareSig_sum {qs : List Nat} (hnd : qs.Nodup) (hqs : ∀ q ∈ qs, 1 ≤ q ∧ q ≤ n) (sec r : Nat → Bytes) (bs : Bytes) (p : Nat) :
    shareSig L n t sec r qs x kc bs p = partialSig L t sec r x kc bs qs p ∧
    jointR L n sec qs = (qs.map fun q => L.val (sec q)).sum • L.B := by
  have hsum : ∀ f : Nat → F, ((idsOf n qs).map f).sum = (qs.map f).sum :=
    fun f => ((idsOf_perm hnd hqs).map f).sum_eq
  have hj : jointR L n sec qs = (qs.map fun q => L.val (sec q)).sum • L.B := by rw [jointR_smul, hsum]
  refine ⟨?_, hj⟩
  unfold shareSig partialSig
  rw [hsum, hj]

theorem assemble_any (hn : n ≤ 255) {ps : List Nat} (hnd : ps.Nodup)
    (hps : ∀ p ∈ ps, 1 ≤ p ∧ p ≤ n) (hlen : t ≤ ps.length) (ρ : F) (pub bs : Bytes) (z : Nat → F) :
    assemble C t pub bs ((List.range n).map fun i => if i + 1 ∈ ps then L.sc (z (i + 1)) else []) (L.pt (ρ • L.B)) =
    if C.verify pub bs (wiredOut C L ρ (combineF ps (ps.map z)))
    then .ok (wiredOut C L ρ (combineF ps (ps.map z)))
    else .err .combinedInvalid := by
  have hcol := collectSigs_range (fun i => L.sc (z (i + 1))) ps (fun i _ => by rw [L.sc_length]; decide) n 0
  rw [← List.range_eq_range'] at hcol
  have hl := idsOf_length hnd hps
  have hids : ∀ i ∈ idsOf n ps, 1 ≤ i ∧ i ≤ n := fun i hi => (mem_idsOf.1 hi).2
  unfold assemble
  simp only [hcol]
  have e1 : ((List.range n).filter (fun i => decide (i + 1 ∈ ps))).map (· + 1) = idsOf n ps := rfl
  have e2 : ((List.range n).filter (fun i => decide (i + 1 ∈ ps))).map (fun i => L.sc (z (i + 1)))
      = ((idsOf n ps).map z).map L.sc := by
    unfold idsOf
    rw [List.map_map, List.map_map]
    rfl
  rw [e1, e2, if_neg (by rw [hl]; omega), L.combine _ _ _ (by simp) (idsOf_nodup n ps) (by
      rw [List.length_map, List.length_range]; exact hids) (by rw [List.length_map, List.length_range]; exact hn),
    combine_perm (idsOf_nodup n ps) (idsOf_perm hnd hps) z]
  rfl

/-- A complete round after any attempts with any participants. -/
theorem round_any (hS : Setup C L pair n t cfg x kc rsaPub) (hn : 2 ≤ n) {ps : List Nat} (hnd : ps.Nodup)
    (hps : ∀ p ∈ ps, 1 ≤ p ∧ p ≤ n) (hlen : t ≤ ps.length) {leader : Nat} (hleader : leader ∈ ps)
    {k : HRST} (hk : IsI64 k.timestamp) {bs : Bytes} (hu : unpackHRST bs = .ok k)
    {ord : Nat → List Nat} (hord : ∀ p, (ord p).Perm (List.range' 1 n))
    {mapOrder : Nat → List Nat} (hmap : ∀ p, (mapOrder p).Perm ps)
    {rnd1 rnd2 : Nat → Nat → Rand} (hrnd : ∀ p i, ∃ sec, (rnd1 p i).secret = some sec ∧ sec.length = 32)
    {sec r : Nat → Bytes} {H : List Nat} {s : TryState} (h : AnyInv L n t cfg x kc rsaPub k bs sec r H s) :
    ∃ (sec' r' : Nat → Bytes) (qs : Nat → List Nat) (shares : List Bytes) (eph : Bytes) (st' : Nat → CState),
      (∀ p ∈ ps, (qs p).Nodup ∧ (∀ q ∈ qs p, 1 ≤ q ∧ q ≤ n) ∧
        ((s.cs p).lss.hrs ≺ k.hrs ∧ qs p = ps ∨ SignedAs L n t sec' r' (qs p) x kc k bs p (s.cs p))) ∧
      roundShares C cfg ps leader n k bs (fun p => (ord p).map (fun q : Nat => (q : Int))) mapOrder rnd1 rnd2 s.cs =
        ((shares, eph), st') ∧
      (assemble C t (L.pt (x • L.B)) bs shares eph =
        let sig := wiredOut C L ((qs leader).map fun q => L.val (sec' q)).sum
          (combineF ps (ps.map fun p => partialSig L t sec' r' x kc bs (qs p) p))
        if C.verify (L.pt (x • L.B)) bs sig then .ok sig else .err .combinedInvalid) ∧
      (∀ p ∈ ps, (st' p).lss.hrs = k.hrs) ∧ (∀ p, p ∉ ps → st' p = s.cs p) ∧
      ∀ i, (i ∈ ps ∨ ∃ p ∈ ps, i ∈ qs p) → Dealt C n t k (st' i) (sec' i) (r' i) := by
  obtain ⟨sec2, r2, H2, s2, e1, e2, e3, _, e5, e6⟩ := h.askAll hS hn hk hord hrnd ps _ _ _ _ hnd hps
  have hlss : ∀ p ∈ ps, (s2.cs p).lss = (s.cs p).lss := fun p hp => by rw [(e3 p hp).1, getParts_lss]
  have hasked : ∀ p ∈ ps, p ∈ H2 := by
    intro p hp
    by_contra hc
    have h1 := (e1.new p (hps p hp).1 (hps p hp).2 hc).2.2
    have h2 := (e3 p hp).2
    rw [h1] at h2; cases h2
  have hres : ∀ p, ∃ (res : SignRes) (s' : CState) (qs' : List Nat), p ∈ ps → setPartsAndSign C (cfg p) k bs
        (partsFor ((mapOrder p).map fun q : Nat => ((q : Int),
          okParts (getParts C (cfg q) k ((ord q).map (fun q : Nat => (q : Int))) (rnd1 q) (s.cs q)).1)) (p : Int)) (rnd2 p)
          (getParts C (cfg p) k ((ord p).map (fun q : Nat => (q : Int))) (rnd1 p) (s.cs p)).2 = (.ok res, s') ∧
      s'.lss.hrs = k.hrs ∧ ((s.cs p).lss.hrs ≺ k.hrs ∧ qs' = ps ∨ SignedAs L n t sec2 r2 qs' x kc k bs p (s.cs p)) ∧
      qs'.Nodup ∧ (∀ q ∈ qs', (1 ≤ q ∧ q ≤ n) ∧ q ∈ H2) ∧ Dealt C n t k s' (sec2 p) (r2 p) ∧
      res.signature = some (L.sc (partialSig L t sec2 r2 x kc bs qs' p)) ∧
      res.ephemeralPublic = some (L.pt ((qs'.map fun q => L.val (sec2 q)).sum • L.B)) := by
    intro p
    by_cases hp : p ∈ ps
    · obtain ⟨a0, res, s', a1, a2, qs', a3, a4, a5, a6, a7⟩ := e1.sign hS hk hu hp hnd hps (hmap p)
        (ans := fun q => okParts (getParts C (cfg q) k ((ord q).map (fun q : Nat => (q : Int))) (rnd1 q) (s.cs q)).1)
        (fun q hq => (e3 q hq).2) (rnd2 p)
      have hH := hasked p hp
      obtain ⟨D, _, _, ⟨ref, b1, b2⟩, _⟩ := a0.held p (hps p hp).1 (hps p hp).2 hH
      simp only [TryState.step, if_true, a1] at b1 b2
      rw [(e3 p hp).1] at a1
      obtain ⟨c1, c2⟩ := shareSig_sum (L := L) (t := t) (x := x) (kc := kc) a4 (fun q hq => (a5 q hq).1) sec2 r2 bs p
      rw [c1] at a6
      rw [c2] at a7
      refine ⟨res, s', qs', fun _ => ⟨a1, a2, ?_, a4, a5, ⟨ref, _, b1, b2, rfl, rfl⟩, a6, a7⟩⟩
      rcases a3 with a3 | a3
      · rw [hlss p hp] at a3; exact .inl a3
      · refine .inr ⟨?_, ?_, ?_, ?_⟩ <;> rw [← hlss p hp]
        · exact a3.hrs
        · exact a3.signBytes
        · exact a3.signature
        · exact a3.ephemeral
    · exact ⟨⟨none, none, none⟩, s.cs p, [], fun h => absurd h hp⟩
  choose res s' qs hres using hres
  have harr : shareArray n ps (fun p => (setPartsAndSign C (cfg p) k bs
        (partsFor ((mapOrder p).map fun q : Nat => ((q : Int),
          okParts (getParts C (cfg q) k ((ord q).map (fun q : Nat => (q : Int))) (rnd1 q) (s.cs q)).1)) (p : Int)) (rnd2 p)
          (getParts C (cfg p) k ((ord p).map (fun q : Nat => (q : Int))) (rnd1 p) (s.cs p)).2).1) =
      (List.range n).map fun i => if i + 1 ∈ ps then L.sc (partialSig L t sec2 r2 x kc bs (qs (i + 1)) (i + 1)) else [] := by
    unfold shareArray
    refine List.map_congr_left fun i _ => ?_
    by_cases hi : i + 1 ∈ ps
    · rw [if_pos hi, if_pos hi]
      obtain ⟨a1, _, _, _, _, _, a3, _⟩ := hres (i + 1) hi
      simp only [a1]
      rw [a3]; rfl
    · rw [if_neg hi, if_neg hi]
  obtain ⟨l1, _, _, _, _, _, _, l4⟩ := hres leader hleader
  have hass := assemble_any (C := C) (L := L) hS.n_le hnd hps hlen ((qs leader).map fun q => L.val (sec2 q)).sum
    (L.pt (x • L.B)) bs (fun p => partialSig L t sec2 r2 x kc bs (qs p) p)
  unfold roundShares
  simp only
  rw [harr, l1]
  simp only
  rw [l4]
  refine ⟨sec2, r2, qs, _, _, _, fun p hp => ?_, rfl, hass, fun p hp => ?_, fun p hp => ?_, fun i hi => ?_⟩
  · obtain ⟨_, _, a, b, c, _⟩ := hres p hp
    exact ⟨b, fun q hq => (c q hq).1, a⟩
  · simp only [if_pos hp]
    obtain ⟨a1, a2, _⟩ := hres p hp
    rw [a1]; exact a2
  · simp only [if_neg hp]
  · by_cases hi' : i ∈ ps
    · simp only [if_pos hi']
      obtain ⟨a1, _, _, _, _, a2, _⟩ := hres i hi'
      rw [a1]; exact a2
    · simp only [if_neg hi']
      rcases hi with hi | ⟨p, hp, hi⟩
      · exact absurd hi hi'
      · obtain ⟨_, _, _, _, c, _⟩ := hres p hp
        obtain ⟨D, _, _, ⟨ref, b1, b2⟩, _⟩ := e1.held i (c i hi).1.1 (c i hi).1.2 (c i hi).2
        rw [e2 i hi'] at b1 b2
        exact ⟨ref, _, b1, b2, rfl, rfl⟩

end
end Horcrux
