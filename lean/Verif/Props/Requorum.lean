import Verif.Lemmas.Requorum
import Verif.Props.Retry
import Verif.Props.Mixed
/-
Property C64, exactly: trying a block again with any participants after attempts with any participants.
-/
namespace Horcrux
open Spec

section
variable {C : Crypto} {F G : Type} [Field F] [AddCommGroup G] [Module F G] {L : Lawful C F G}
  {pair : Bytes → Bytes → Prop} {n t : Nat} {cfg : Nat → CosignerCfg} {x : F} {kc : List F} {rsaPub : Nat → Bytes}

theorem anyInv_of_tries (hS : Setup C L pair n t cfg x kc rsaPub) (hn : 2 ≤ n) {k : HRST} (hk : IsI64 k.timestamp) {bs : Bytes}
    (hu : unpackHRST bs = .ok k) {st : Nat → CState} (hlow : ∀ p, 1 ≤ p → p ≤ n → (st p).lss.hrs ≺ k.hrs)
    (hnew : ∀ p, 1 ≤ p → p ≤ n → (st p).hrsMeta k = none) {s : TryState}
    (h : AnyTries C cfg n k bs ⟨st, fun _ => []⟩ s) : ∃ sec r H, AnyInv L n t cfg x kc rsaPub k bs sec r H s := by
  generalize hs0 : (⟨st, fun _ => []⟩ : TryState) = s0 at h
  induction h with
  | refl => subst hs0; exact ⟨_, _, _, AnyInv.start hlow hnew⟩
  | snoc h ev hev ih =>
    obtain ⟨sec, r, H, hi⟩ := ih
    cases ev with
    | ask p order rnd =>
      obtain ⟨⟨h1, h2⟩, h3, h4⟩ := hev
      obtain ⟨o, ho, rfl⟩ := perm_cast h3
      obtain ⟨sec', r', _, h5, _⟩ := hi.ask hS hn hk h1 h2 ho h4
      exact ⟨sec', r', _, h5⟩
    | sign p mapOrder ans rnd =>
      obtain ⟨h1, h2, h3⟩ := hev
      exact ⟨_, _, _, (hi.sign hS hk hu h1 h2 (fun q hq => (h3 q hq).1) (List.Perm.refl _) (fun q hq => (h3 q hq).2) rnd).1⟩
    | event p ssc => exact ⟨_, _, _, hi.event p ssc hev⟩

/-- C64, exact condition: let any number of attempts at a block have been made and given up anywhere, each with its own
participants, and let a leader that has not itself started the block be asked for it, with any quorum. A participant that has
signed before answers with the share signature it made for the participants `qs p` of that attempt; the others sign for those
of this one. With `sec i` and `r i` the nonces that cosigner `i` holds for the block in the end, the request is answered with a
signature, which verifies, just if these share signatures fit a split of the
response to the leader's challenge; otherwise with an error. Either way all participants are at the block then. -/
theorem C64_exact (hS : Setup C L pair n t cfg x kc rsaPub) (hB : L.B ≠ 0) (hn : 2 ≤ n) (q : Req) (hq : Servable n t q)
    (st : Nat → CState) (hlow : ∀ p, 1 ≤ p → p ≤ n → (st p).lss.hrs ≺ q.block.hrs)
    (hnew : ∀ p, 1 ≤ p → p ≤ n → (st p).hrsMeta q.block.key = none) (s : TryState)
    (hs : AnyTries C cfg n q.block.key q.block.signBytes ⟨st, fun _ => []⟩ s)
    (vs : Nat → VState) (hidle : (vs q.leader).calls q.id = none) (hi : (vs q.leader).init.hrs ≺ q.block.hrs)
    (hl : (vs q.leader).lss.hrs ≺ q.block.hrs) :
    ∃ (sec r : Nat → Bytes) (qs : Nat → List Nat) (s' : Sys),
      (∀ p ∈ q.ps, (s.cs p).lss.hrs ≺ q.block.hrs ∧ qs p = q.ps ∨
        (s.cs p).lss.hrs = q.block.hrs ∧ (qs p).Nodup ∧ (∀ i ∈ qs p, 1 ≤ i ∧ i ≤ n) ∧
        (s.cs p).lss.signature = some (L.sc (partialSig L t sec r x kc q.block.signBytes (qs p) p)) ∧
        (s.cs p).lss.ephemeralPublic = some (L.pt (((qs p).map fun i => L.val (sec i)).sum • L.B))) ∧
      ((∃ sig, (⟨vs, s.cs⟩ : Sys).signBlock C ⟨t, L.pt (x • L.B)⟩ cfg n q =
          (.ret q.id q.block (some sig) q.block.timestamp none, s') ∧
          C.verify (L.pt (x • L.B)) q.block.signBytes sig = true) ↔
        FitsThreshold (((qs q.leader).map fun i => L.val (sec i)).sum +
            L.chal (L.pt (((qs q.leader).map fun i => L.val (sec i)).sum • L.B)) (L.pt (x • L.B)) q.block.signBytes * x)
          (fun p => partialSig L t sec r x kc q.block.signBytes (qs p) p) q.ps) ∧
      ((∃ sig, (⟨vs, s.cs⟩ : Sys).signBlock C ⟨t, L.pt (x • L.B)⟩ cfg n q =
          (.ret q.id q.block (some sig) q.block.timestamp none, s') ∧
          C.verify (L.pt (x • L.B)) q.block.signBytes sig = true) ∨
        (⟨vs, s.cs⟩ : Sys).signBlock C ⟨t, L.pt (x • L.B)⟩ cfg n q =
          (.ret q.id q.block none q.block.timestamp (some .combinedInvalid), s')) ∧
      (∀ i, (i ∈ q.ps ∨ ∃ p ∈ q.ps, i ∈ qs p) → Dealt C n t q.block.key (s'.cs i) (sec i) (r i)) ∧
      ∀ p ∈ q.ps, (s'.cs p).lss.hrs = q.block.hrs := by
  obtain ⟨sec0, r0, H, hinv⟩ := anyInv_of_tries hS hn (unixNano_isI64 _) hq.bytes hlow hnew hs
  have hord : ∀ p, ∃ o : List Nat, o.Perm (List.range' 1 n) ∧ q.order p = o.map (fun i : Nat => (i : Int)) :=
    fun p => perm_cast (hq.order p)
  choose ord hord1 hord2 using hord
  obtain ⟨sec, r, qs, shares, eph, st', h1, h2, h3, h4, _, h5⟩ := round_any hS hn hq.nodup hq.ids hq.quorum hq.leads
    (k := q.block.key) (unixNano_isI64 _) hq.bytes hord1 hq.mapOrder (rnd2 := q.rnd2) hq.random hinv
  have hord3 : q.order = fun p => (ord p).map (fun i : Nat => (i : Int)) := funext hord2
  rw [← hord3] at h2
  have hfit := combine_lucky (L.castInj.mono hS.n_le) hq.nodup hq.ids (List.length_pos_of_mem hq.leads)
    (fun p => partialSig L t sec r x kc q.block.signBytes (qs p) p)
    (((qs q.leader).map fun i => L.val (sec i)).sum +
      L.chal (L.pt (((qs q.leader).map fun i => L.val (sec i)).sum • L.B)) (L.pt (x • L.B)) q.block.signBytes * x)
  have hv := wiredOut_verify (C := C) (L := L) x q.block.signBytes ((qs q.leader).map fun i => L.val (sec i)).sum
    (combineF q.ps (q.ps.map fun p => partialSig L t sec r x kc q.block.signBytes (qs p) p))
  rw [or_iff_left hB, hfit] at hv
  have hparts : ∀ p ∈ q.ps, (s.cs p).lss.hrs ≺ q.block.hrs ∧ qs p = q.ps ∨
        (s.cs p).lss.hrs = q.block.hrs ∧ (qs p).Nodup ∧ (∀ i ∈ qs p, 1 ≤ i ∧ i ≤ n) ∧
        (s.cs p).lss.signature = some (L.sc (partialSig L t sec r x kc q.block.signBytes (qs p) p)) ∧
        (s.cs p).lss.ephemeralPublic = some (L.pt (((qs p).map fun i => L.val (sec i)).sum • L.B)) := by
    intro p hp
    obtain ⟨a, b, c | c⟩ := h1 p hp
    · exact .inl c
    · obtain ⟨e1, e2⟩ := shareSig_sum (L := L) (t := t) (x := x) (kc := kc) a b sec r q.block.signBytes p
      exact .inr ⟨c.hrs, a, b, by rw [c.signature, e1], by rw [c.ephemeral, e2]⟩
  obtain ⟨init', hinit⟩ : ∃ init', (vs q.leader).init.save (SSC.new q.block.height q.block.round q.block.step) =
      (none, init') := ⟨_, SignState.save_ok _ _ hi⟩
  simp only at h3
  by_cases hc : C.verify (L.pt (x • L.B)) q.block.signBytes (wiredOut C L ((qs q.leader).map fun i => L.val (sec i)).sum
    (combineF q.ps (q.ps.map fun p => partialSig L t sec r x kc q.block.signBytes (qs p) p))) = true
  · rw [if_pos hc] at h3
    obtain ⟨lss', hlss⟩ : ∃ lss', (vs q.leader).lss.save (q.block.record (wiredOut C L ((qs q.leader).map fun i => L.val (sec i)).sum
      (combineF q.ps (q.ps.map fun p => partialSig L t sec r x kc q.block.signBytes (qs p) p)))) = (none, lss') :=
      ⟨_, SignState.save_ok _ _ hl⟩
    have key : ∃ s', (⟨vs, s.cs⟩ : Sys).signBlock C ⟨t, L.pt (x • L.B)⟩ cfg n q =
        (.ret q.id q.block (some (wiredOut C L ((qs q.leader).map fun i => L.val (sec i)).sum
          (combineF q.ps (q.ps.map fun p => partialSig L t sec r x kc q.block.signBytes (qs p) p)))) q.block.timestamp none, s') ∧
        s'.cs = st' := by
      unfold Sys.signBlock
      simp only [VState.begin, VState.assembleAndSave, VState.step, hidle, hinit, h2, VState.setPhase, if_true, h3, hlss,
        VState.finish]
      exact ⟨_, rfl, rfl⟩
    obtain ⟨s', k1, k2⟩ := key
    exact ⟨sec, r, qs, s', hparts, ⟨fun _ => hv.1 hc, fun _ => ⟨_, k1, hc⟩⟩, .inl ⟨_, k1, hc⟩, by rw [k2]; exact h5, by rw [k2]; exact h4⟩
  · rw [if_neg hc] at h3
    have key : ∃ s', (⟨vs, s.cs⟩ : Sys).signBlock C ⟨t, L.pt (x • L.B)⟩ cfg n q =
        (.ret q.id q.block none q.block.timestamp (some .combinedInvalid), s') ∧ s'.cs = st' := by
      unfold Sys.signBlock
      simp only [VState.begin, VState.assembleAndSave, VState.step, hidle, hinit, h2, VState.setPhase, if_true, h3,
        VState.finish]
      exact ⟨_, rfl, rfl⟩
    obtain ⟨s', k1, k2⟩ := key
    refine ⟨sec, r, qs, s', hparts, ⟨fun ⟨_, h, _⟩ => ?_, fun h => absurd (hv.2 h) hc⟩, .inr k1, by rw [k2]; exact h5, by rw [k2]; exact h4⟩
    rw [k1] at h
    cases h

theorem partialSig_fits (hS : Setup C L pair n t cfg x kc rsaPub) {ps : List Nat} (hnd : ps.Nodup)
    (hps : ∀ p ∈ ps, 1 ≤ p ∧ p ≤ n) (hlen : t ≤ ps.length) (sec r : Nat → Bytes) (bs : Bytes) :
    combineF ps (ps.map (partialSig L t sec r x kc bs ps)) = (ps.map fun i => L.val (sec i)).sum +
      L.chal (L.pt ((ps.map fun i => L.val (sec i)).sum • L.B)) (L.pt (x • L.B)) bs * x :=
  combine_linear (L.castInj.mono hS.n_le) ps hnd hps ps (fun q => L.val (sec q)) (fun q => L.coeffs (r q) t)
    (fun q => by rw [L.coeffs_length _ _ hS.t_pos]; exact hlen) _ x kc (by rw [hS.kc_length]; exact hlen)

/-- C64, partial: whatever attempts were made before with whatever participants, if none of the participants of the new one
has signed, the request is answered with a signature that verifies. -/
theorem C64_unsigned (hS : Setup C L pair n t cfg x kc rsaPub) (hB : L.B ≠ 0) (hn : 2 ≤ n) (q : Req) (hq : Servable n t q)
    (st : Nat → CState) (hlow : ∀ p, 1 ≤ p → p ≤ n → (st p).lss.hrs ≺ q.block.hrs)
    (hnew : ∀ p, 1 ≤ p → p ≤ n → (st p).hrsMeta q.block.key = none) (s : TryState)
    (hs : AnyTries C cfg n q.block.key q.block.signBytes ⟨st, fun _ => []⟩ s)
    (hun : ∀ p ∈ q.ps, (s.cs p).lss.hrs ≺ q.block.hrs)
    (vs : Nat → VState) (hidle : (vs q.leader).calls q.id = none) (hi : (vs q.leader).init.hrs ≺ q.block.hrs)
    (hl : (vs q.leader).lss.hrs ≺ q.block.hrs) :
    ∃ sig s', (⟨vs, s.cs⟩ : Sys).signBlock C ⟨t, L.pt (x • L.B)⟩ cfg n q =
        (.ret q.id q.block (some sig) q.block.timestamp none, s') ∧
      C.verify (L.pt (x • L.B)) q.block.signBytes sig = true := by
  obtain ⟨sec, r, qs, s', h1, h2, _⟩ := C64_exact hS hB hn q hq st hlow hnew s hs vs hidle hi hl
  have hqs : ∀ p ∈ q.ps, qs p = q.ps := by
    intro p hp
    rcases h1 p hp with h | h
    · exact h.2
    · exact absurd (h.1 ▸ hun p hp) (HRS.lt_irrefl _)
  have hfit := combine_lucky (L.castInj.mono hS.n_le) hq.nodup hq.ids (List.length_pos_of_mem hq.leads)
    (fun p => partialSig L t sec r x kc q.block.signBytes (qs p) p)
    (((qs q.leader).map fun i => L.val (sec i)).sum +
      L.chal (L.pt (((qs q.leader).map fun i => L.val (sec i)).sum • L.B)) (L.pt (x • L.B)) q.block.signBytes * x)
  obtain ⟨sig, k1, k2⟩ := h2.2 (hfit.1 (by
    rw [hqs _ hq.leads, List.map_congr_left (g := partialSig L t sec r x kc q.block.signBytes q.ps)
      (fun p hp => by rw [hqs p hp])]
    exact partialSig_fits hS hq.nodup hq.ids hq.quorum sec r _))
  exact ⟨sig, s', k1, k2⟩

theorem lagrangeAt_ne_zero (hn : CastInj F n) {ids : List Nat} (hids : ∀ i ∈ ids, 1 ≤ i ∧ i ≤ n) {i : Nat} (hi : i ∈ ids) :
    (lagrangeAt ids i : F) ≠ 0 := by
  unfold lagrangeAt
  intro h
  rw [List.prod_eq_zero_iff, List.mem_map] at h
  obtain ⟨j, hj, h⟩ := h
  rw [List.mem_filter, decide_eq_true_eq] at hj
  have hj1 := hids j hj.1
  have hi1 := hids i hi
  rcases div_eq_zero_iff.1 h with h | h
  · have := hn j 0 hj1.2 (by omega) (by simpa using h)
    omega
  · exact hj.2 (hn j i hj1.2 hi1.2 (sub_eq_zero.1 h))

/-- C64 is false for other participants, in every honest cluster: if just one of the participants, not the leader, has signed
before, in an attempt with the participants `qs`, the request is answered with a signature only if its share signature of then
happens to be the one it would make now; otherwise with an error. -/
theorem C64_one_signed (hS : Setup C L pair n t cfg x kc rsaPub) (hB : L.B ≠ 0) (hn : 2 ≤ n) (q : Req) (hq : Servable n t q)
    (st : Nat → CState) (hlow : ∀ p, 1 ≤ p → p ≤ n → (st p).lss.hrs ≺ q.block.hrs)
    (hnew : ∀ p, 1 ≤ p → p ≤ n → (st p).hrsMeta q.block.key = none) (s : TryState)
    (hs : AnyTries C cfg n q.block.key q.block.signBytes ⟨st, fun _ => []⟩ s) (p0 : Nat) (hp0 : p0 ∈ q.ps) (hne : p0 ≠ q.leader)
    (hsigned : (s.cs p0).lss.hrs = q.block.hrs) (hun : ∀ p ∈ q.ps, p ≠ p0 → (s.cs p).lss.hrs ≺ q.block.hrs)
    (vs : Nat → VState) (hidle : (vs q.leader).calls q.id = none) (hi : (vs q.leader).init.hrs ≺ q.block.hrs)
    (hl : (vs q.leader).lss.hrs ≺ q.block.hrs) :
    ∃ (sec r : Nat → Bytes) (qs : List Nat) (s' : Sys), qs.Nodup ∧ (∀ i ∈ qs, 1 ≤ i ∧ i ≤ n) ∧
      (s.cs p0).lss.signature = some (L.sc (partialSig L t sec r x kc q.block.signBytes qs p0)) ∧
      (∀ i, i ∈ q.ps ∨ i ∈ qs → Dealt C n t q.block.key (s'.cs i) (sec i) (r i)) ∧
      (partialSig L t sec r x kc q.block.signBytes qs p0 = partialSig L t sec r x kc q.block.signBytes q.ps p0 →
        ∃ sig, (⟨vs, s.cs⟩ : Sys).signBlock C ⟨t, L.pt (x • L.B)⟩ cfg n q =
          (.ret q.id q.block (some sig) q.block.timestamp none, s') ∧
          C.verify (L.pt (x • L.B)) q.block.signBytes sig = true) ∧
      (partialSig L t sec r x kc q.block.signBytes qs p0 ≠ partialSig L t sec r x kc q.block.signBytes q.ps p0 →
        (⟨vs, s.cs⟩ : Sys).signBlock C ⟨t, L.pt (x • L.B)⟩ cfg n q =
          (.ret q.id q.block none q.block.timestamp (some .combinedInvalid), s')) := by
  obtain ⟨sec, r, qs, s', h1, h2, h3, h4, _⟩ := C64_exact hS hB hn q hq st hlow hnew s hs vs hidle hi hl
  have hqs : ∀ p ∈ q.ps, p ≠ p0 → qs p = q.ps := by
    intro p hp hpp
    rcases h1 p hp with h | h
    · exact h.2
    · exact absurd (h.1 ▸ hun p hp hpp) (HRS.lt_irrefl _)
  have h0 : (qs p0).Nodup ∧ (∀ i ∈ qs p0, 1 ≤ i ∧ i ≤ n) ∧
      (s.cs p0).lss.signature = some (L.sc (partialSig L t sec r x kc q.block.signBytes (qs p0) p0)) := by
    rcases h1 p0 hp0 with h | h
    · exact absurd (hsigned ▸ h.1) (HRS.lt_irrefl _)
    · exact ⟨h.2.1, h.2.2.1, h.2.2.2.1⟩
  have hcast := L.castInj.mono hS.n_le
  have hfit := combine_lucky hcast hq.nodup hq.ids (List.length_pos_of_mem hq.leads)
    (fun p => partialSig L t sec r x kc q.block.signBytes (qs p) p)
    (((qs q.leader).map fun i => L.val (sec i)).sum +
      L.chal (L.pt (((qs q.leader).map fun i => L.val (sec i)).sum • L.B)) (L.pt (x • L.B)) q.block.signBytes * x)
  have hdiff : combineF q.ps (q.ps.map fun p => partialSig L t sec r x kc q.block.signBytes (qs p) p) =
      combineF q.ps (q.ps.map (partialSig L t sec r x kc q.block.signBytes q.ps)) +
        lagrangeAt q.ps p0 * (partialSig L t sec r x kc q.block.signBytes (qs p0) p0 -
          partialSig L t sec r x kc q.block.signBytes q.ps p0) := by
    rw [combine_map _ hq.nodup, combine_map _ hq.nodup]
    have hmem : p0 ∈ q.ps.toFinset := List.mem_toFinset.2 hp0
    rw [← Finset.add_sum_erase _ _ hmem, ← Finset.add_sum_erase _ _ hmem]
    have : ∑ i ∈ q.ps.toFinset.erase p0, lagrangeAt q.ps i * partialSig L t sec r x kc q.block.signBytes (qs i) i =
        ∑ i ∈ q.ps.toFinset.erase p0, lagrangeAt q.ps i * partialSig L t sec r x kc q.block.signBytes q.ps i := by
      refine Finset.sum_congr rfl fun i hi => ?_
      rw [Finset.mem_erase, List.mem_toFinset] at hi
      rw [hqs i hi.2 hi.1]
    rw [this]
    ring
  rw [hqs _ hq.leads (Ne.symm hne), hdiff, partialSig_fits hS hq.nodup hq.ids hq.quorum, add_eq_left, mul_eq_zero,
    or_iff_right (lagrangeAt_ne_zero hcast hq.ids hp0), sub_eq_zero] at hfit
  rw [hqs _ hq.leads (Ne.symm hne)] at h2
  refine ⟨sec, r, qs p0, s', h0.1, h0.2.1, h0.2.2, fun i hi => h4 i (hi.imp_right fun h => ⟨p0, hp0, h⟩), fun h => h2.2 (hfit.1 h), fun h => ?_⟩
  rcases h3 with h3 | h3
  · exact absurd (hfit.2 (h2.1 h3)) h
  · exact h3

end

theorem anyTries_of_tries {C : Crypto} {cfg : Nat → CosignerCfg} {n : Nat} {ps : List Nat} {k : HRST} {bs : Bytes}
    (hnd : ps.Nodup) (hps : ∀ p ∈ ps, 1 ≤ p ∧ p ≤ n) {s s1 : TryState} (h : Tries C cfg n ps k bs s s1) :
    AnyTries C cfg n k bs s s1 := by
  induction h with
  | refl => exact .refl _
  | snoc h ev hev ih =>
    refine .snoc ih ev ?_
    cases ev with
    | ask p order rnd => exact hev
    | sign p mapOrder ans rnd =>
      obtain ⟨h1, h2, h3⟩ := hev
      exact ⟨h2.mem_iff.2 h1, h2.nodup_iff.2 hnd, fun q hq => ⟨hps q (h2.mem_iff.1 hq), h3 q (h2.mem_iff.1 hq)⟩⟩
    | event p r => exact hev

/-- In the toy cluster, after the failed attempt of 1 and 2 that 1 has signed, with 3 as a fresh leader: 1 is the only one of the
participants 1 and 3 that has signed (so `C64_one_signed` applies, and `C64_quorum_fails` is the error), and 2 and 3 have not
(so `C64_unsigned` applies). -/
example : AnyTries ftoy fcfg 3 blk1.key b1 ⟨fun _ => CState.start .empty, fun _ => []⟩ signed12 ∧
    Servable 3 2 (freq 7 blk1 3 [3, 1]) ∧ (signed12.cs 1).lss.hrs = blk1.hrs ∧ (signed12.cs 3).lss.hrs ≺ blk1.hrs ∧
    Servable 3 2 (freq 7 blk1 3 [3, 2]) ∧ (signed12.cs 2).lss.hrs ≺ blk1.hrs ∧ again [3, 2] signed12.cs = some (7, true, none) :=
  ⟨anyTries_of_tries (by decide) (by decide) signed12_tries,
    fservable _ _ _ _ (by decide +kernel) (by decide) (by decide) (by decide) (by decide), by decide +kernel, by decide +kernel,
    fservable _ _ _ _ (by decide +kernel) (by decide) (by decide) (by decide) (by decide), by decide +kernel, by decide +kernel⟩

end Horcrux
