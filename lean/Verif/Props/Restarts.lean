import Verif.Lemmas.Restarts
import Verif.Props.Requorum
/-
Property C64, exactly, with restarts: trying a block again after attempts with any participants and restarts of cosigners.
-/
namespace Horcrux
open Spec

section
variable {C : Crypto} {F G : Type} [Field F] [AddCommGroup G] [Module F G] {L : Lawful C F G}
  {pair : Bytes → Bytes → Prop} {n t : Nat} {cfg : Nat → CosignerCfg} {x : F} {kc : List F} {rsaPub : Nat → Bytes}

/-- C64, exact condition with restarts: let any number of attempts at a block have been made and given up anywhere, each with
its own participants, let cosigners have been restarted in between as often as one likes, without their nonces and with what
they had on disk, and let a leader that has not itself started the block be asked for it, with any quorum. A participant with a
record of the block answers with the share signature `z p` and the nonce point of `ρ p` recorded; the others make theirs from
the nonces `sec i`, split with `r i`, that the participants hold for the block in the end. The request is answered with a
signature, which verifies, just if these share signatures fit a split of the response to the leader's challenge; otherwise with
an error. Either way all participants have these as their records of the block then. -/
theorem C64_restarts (hS : Setup C L pair n t cfg x kc rsaPub) (hB : L.B ≠ 0) (hn : 2 ≤ n) (q : Req) (hq : Servable n t q)
    (st : Nat → CState) (hlow : ∀ p, 1 ≤ p → p ≤ n → (st p).lss.hrs ≺ q.block.hrs)
    (hnew : ∀ p, 1 ≤ p → p ≤ n → (st p).hrsMeta q.block.key = none) (s : TryState)
    (hs : RestartTries C cfg n q.block.key q.block.signBytes ⟨st, fun _ => []⟩ s)
    (vs : Nat → VState) (hidle : (vs q.leader).calls q.id = none) (hi : (vs q.leader).init.hrs ≺ q.block.hrs)
    (hl : (vs q.leader).lss.hrs ≺ q.block.hrs) :
    ∃ (sec r : Nat → Bytes) (z ρ : Nat → F) (s' : Sys),
      (∀ p ∈ q.ps, (s.cs p).lss.hrs ≺ q.block.hrs ∧ z p = partialSig L t sec r x kc q.block.signBytes q.ps p ∧
          ρ p = (q.ps.map fun i => L.val (sec i)).sum ∨
        (s.cs p).lss.hrs = q.block.hrs ∧ (s.cs p).lss.signature = some (L.sc (z p)) ∧
        (s.cs p).lss.ephemeralPublic = some (L.pt (ρ p • L.B))) ∧
      ((∃ sig, (⟨vs, s.cs⟩ : Sys).signBlock C ⟨t, L.pt (x • L.B)⟩ cfg n q =
          (.ret q.id q.block (some sig) q.block.timestamp none, s') ∧
          C.verify (L.pt (x • L.B)) q.block.signBytes sig = true) ↔
        FitsThreshold (ρ q.leader + L.chal (L.pt (ρ q.leader • L.B)) (L.pt (x • L.B)) q.block.signBytes * x) z q.ps) ∧
      ((∃ sig, (⟨vs, s.cs⟩ : Sys).signBlock C ⟨t, L.pt (x • L.B)⟩ cfg n q =
          (.ret q.id q.block (some sig) q.block.timestamp none, s') ∧
          C.verify (L.pt (x • L.B)) q.block.signBytes sig = true) ∨
        (⟨vs, s.cs⟩ : Sys).signBlock C ⟨t, L.pt (x • L.B)⟩ cfg n q =
          (.ret q.id q.block none q.block.timestamp (some .combinedInvalid), s')) ∧
      (∀ i ∈ q.ps, Dealt C n t q.block.key (s'.cs i) (sec i) (r i)) ∧
      ∀ p ∈ q.ps, (s'.cs p).lss.hrs = q.block.hrs ∧ (s'.cs p).lss.signature = some (L.sc (z p)) ∧
        (s'.cs p).lss.ephemeralPublic = some (L.pt (ρ p • L.B)) := by
  have hinv : LifeInv L n t cfg rsaPub q.block.key q.block.signBytes s :=
    lifeInv_of_tries hS hn (unixNano_isI64 _) hq.bytes hlow hnew hs
  have hord : ∀ p, ∃ o : List Nat, o.Perm (List.range' 1 n) ∧ q.order p = o.map (fun i : Nat => (i : Int)) :=
    fun p => perm_cast (hq.order p)
  choose ord hord1 hord2 using hord
  obtain ⟨sec, r, z, ρ, shares, eph, st', h1, h2, h3, h4, _, h5⟩ := round_life hS hn hq.nodup hq.ids hq.quorum hq.leads
    (k := q.block.key) (unixNano_isI64 _) hq.bytes hord1 hq.mapOrder (rnd2 := q.rnd2) hq.random hinv
  have hord3 : q.order = fun p => (ord p).map (fun i : Nat => (i : Int)) := funext hord2
  rw [← hord3] at h2
  have hfit := combine_lucky (L.castInj.mono hS.n_le) hq.nodup hq.ids (List.length_pos_of_mem hq.leads) z
    (ρ q.leader + L.chal (L.pt (ρ q.leader • L.B)) (L.pt (x • L.B)) q.block.signBytes * x)
  have hv := wiredOut_verify (C := C) (L := L) x q.block.signBytes (ρ q.leader) (combineF q.ps (q.ps.map z))
  rw [or_iff_left hB, hfit] at hv
  have hparts : ∀ p ∈ q.ps, (s.cs p).lss.hrs ≺ q.block.hrs ∧ z p = partialSig L t sec r x kc q.block.signBytes q.ps p ∧
          ρ p = (q.ps.map fun i => L.val (sec i)).sum ∨
        (s.cs p).lss.hrs = q.block.hrs ∧ (s.cs p).lss.signature = some (L.sc (z p)) ∧
        (s.cs p).lss.ephemeralPublic = some (L.pt (ρ p • L.B)) :=
    fun p hp => (h1 p hp).imp_right fun c => ⟨c.hrs, c.signature, c.ephemeral⟩
  have hrecs : ∀ p ∈ q.ps, (st' p).lss.hrs = q.block.hrs ∧ (st' p).lss.signature = some (L.sc (z p)) ∧
        (st' p).lss.ephemeralPublic = some (L.pt (ρ p • L.B)) :=
    fun p hp => ⟨(h4 p hp).hrs, (h4 p hp).signature, (h4 p hp).ephemeral⟩
  obtain ⟨init', hinit⟩ : ∃ init', (vs q.leader).init.save (SSC.new q.block.height q.block.round q.block.step) =
      (none, init') := ⟨_, SignState.save_ok _ _ hi⟩
  simp only at h3
  by_cases hc : C.verify (L.pt (x • L.B)) q.block.signBytes (wiredOut C L (ρ q.leader) (combineF q.ps (q.ps.map z))) = true
  · rw [if_pos hc] at h3
    obtain ⟨lss', hlss⟩ : ∃ lss', (vs q.leader).lss.save (q.block.record (wiredOut C L (ρ q.leader)
      (combineF q.ps (q.ps.map z)))) = (none, lss') := ⟨_, SignState.save_ok _ _ hl⟩
    have key : ∃ s', (⟨vs, s.cs⟩ : Sys).signBlock C ⟨t, L.pt (x • L.B)⟩ cfg n q =
        (.ret q.id q.block (some (wiredOut C L (ρ q.leader) (combineF q.ps (q.ps.map z)))) q.block.timestamp none, s') ∧
        s'.cs = st' := by
      unfold Sys.signBlock
      simp only [VState.begin, VState.assembleAndSave, VState.step, hidle, hinit, h2, VState.setPhase, if_true, h3, hlss,
        VState.finish]
      exact ⟨_, rfl, rfl⟩
    obtain ⟨s', k1, k2⟩ := key
    exact ⟨sec, r, z, ρ, s', hparts, ⟨fun _ => hv.1 hc, fun _ => ⟨_, k1, hc⟩⟩, .inl ⟨_, k1, hc⟩, by rw [k2]; exact h5,
      by rw [k2]; exact hrecs⟩
  · rw [if_neg hc] at h3
    have key : ∃ s', (⟨vs, s.cs⟩ : Sys).signBlock C ⟨t, L.pt (x • L.B)⟩ cfg n q =
        (.ret q.id q.block none q.block.timestamp (some .combinedInvalid), s') ∧ s'.cs = st' := by
      unfold Sys.signBlock
      simp only [VState.begin, VState.assembleAndSave, VState.step, hidle, hinit, h2, VState.setPhase, if_true, h3,
        VState.finish]
      exact ⟨_, rfl, rfl⟩
    obtain ⟨s', k1, k2⟩ := key
    refine ⟨sec, r, z, ρ, s', hparts, ⟨fun ⟨_, h, _⟩ => ?_, fun h => absurd (hv.2 h) hc⟩, .inr k1, by rw [k2]; exact h5,
      by rw [k2]; exact hrecs⟩
    rw [k1] at h
    cases h

/-- C64, partial: whatever attempts were made before with whatever participants, and whichever cosigners were restarted, if
none of the participants of the new one has a record of the block, the request is answered with a signature that verifies. -/
theorem C64_restarts_unsigned (hS : Setup C L pair n t cfg x kc rsaPub) (hB : L.B ≠ 0) (hn : 2 ≤ n) (q : Req)
    (hq : Servable n t q) (st : Nat → CState) (hlow : ∀ p, 1 ≤ p → p ≤ n → (st p).lss.hrs ≺ q.block.hrs)
    (hnew : ∀ p, 1 ≤ p → p ≤ n → (st p).hrsMeta q.block.key = none) (s : TryState)
    (hs : RestartTries C cfg n q.block.key q.block.signBytes ⟨st, fun _ => []⟩ s)
    (hun : ∀ p ∈ q.ps, (s.cs p).lss.hrs ≺ q.block.hrs)
    (vs : Nat → VState) (hidle : (vs q.leader).calls q.id = none) (hi : (vs q.leader).init.hrs ≺ q.block.hrs)
    (hl : (vs q.leader).lss.hrs ≺ q.block.hrs) :
    ∃ sig s', (⟨vs, s.cs⟩ : Sys).signBlock C ⟨t, L.pt (x • L.B)⟩ cfg n q =
        (.ret q.id q.block (some sig) q.block.timestamp none, s') ∧
      C.verify (L.pt (x • L.B)) q.block.signBytes sig = true := by
  obtain ⟨sec, r, z, ρ, s', h1, h2, _⟩ := C64_restarts hS hB hn q hq st hlow hnew s hs vs hidle hi hl
  have hz : ∀ p ∈ q.ps, z p = partialSig L t sec r x kc q.block.signBytes q.ps p ∧
      ρ p = (q.ps.map fun i => L.val (sec i)).sum := by
    intro p hp
    rcases h1 p hp with h | h
    · exact h.2
    · exact absurd (h.1 ▸ hun p hp) (HRS.lt_irrefl _)
  have hfit := combine_lucky (L.castInj.mono hS.n_le) hq.nodup hq.ids (List.length_pos_of_mem hq.leads) z
    (ρ q.leader + L.chal (L.pt (ρ q.leader • L.B)) (L.pt (x • L.B)) q.block.signBytes * x)
  obtain ⟨sig, k1, k2⟩ := h2.2 (hfit.1 (by
    rw [(hz _ hq.leads).2, List.map_congr_left (fun p hp => (hz p hp).1)]
    exact partialSig_fits hS hq.nodup hq.ids hq.quorum sec r _))
  exact ⟨sig, s', k1, k2⟩

/-- C64 is false with restarts, in every honest cluster: if just one of the participants, not the leader, has a record of the
block, with the share signature `z`, the request is answered with a signature only if `z` happens to be the share signature it
would make now, from the nonces the participants hold; otherwise with an error. In particular after a restart of another
participant, which makes a new nonce (`C64_restart_fails`). -/
theorem C64_restarts_one_signed (hS : Setup C L pair n t cfg x kc rsaPub) (hB : L.B ≠ 0) (hn : 2 ≤ n) (q : Req)
    (hq : Servable n t q) (st : Nat → CState) (hlow : ∀ p, 1 ≤ p → p ≤ n → (st p).lss.hrs ≺ q.block.hrs)
    (hnew : ∀ p, 1 ≤ p → p ≤ n → (st p).hrsMeta q.block.key = none) (s : TryState)
    (hs : RestartTries C cfg n q.block.key q.block.signBytes ⟨st, fun _ => []⟩ s)
    (p0 : Nat) (hp0 : p0 ∈ q.ps) (hne : p0 ≠ q.leader)
    (hsigned : (s.cs p0).lss.hrs = q.block.hrs) (hun : ∀ p ∈ q.ps, p ≠ p0 → (s.cs p).lss.hrs ≺ q.block.hrs)
    (vs : Nat → VState) (hidle : (vs q.leader).calls q.id = none) (hi : (vs q.leader).init.hrs ≺ q.block.hrs)
    (hl : (vs q.leader).lss.hrs ≺ q.block.hrs) :
    ∃ (sec r : Nat → Bytes) (z : F) (s' : Sys), (s.cs p0).lss.signature = some (L.sc z) ∧
      (∀ i ∈ q.ps, Dealt C n t q.block.key (s'.cs i) (sec i) (r i)) ∧
      (z = partialSig L t sec r x kc q.block.signBytes q.ps p0 →
        ∃ sig, (⟨vs, s.cs⟩ : Sys).signBlock C ⟨t, L.pt (x • L.B)⟩ cfg n q =
          (.ret q.id q.block (some sig) q.block.timestamp none, s') ∧
          C.verify (L.pt (x • L.B)) q.block.signBytes sig = true) ∧
      (z ≠ partialSig L t sec r x kc q.block.signBytes q.ps p0 →
        (⟨vs, s.cs⟩ : Sys).signBlock C ⟨t, L.pt (x • L.B)⟩ cfg n q =
          (.ret q.id q.block none q.block.timestamp (some .combinedInvalid), s')) := by
  obtain ⟨sec, r, z, ρ, s', h1, h2, h3, h4, _⟩ := C64_restarts hS hB hn q hq st hlow hnew s hs vs hidle hi hl
  have hz : ∀ p ∈ q.ps, p ≠ p0 → z p = partialSig L t sec r x kc q.block.signBytes q.ps p ∧
      ρ p = (q.ps.map fun i => L.val (sec i)).sum := by
    intro p hp hpp
    rcases h1 p hp with h | h
    · exact h.2
    · exact absurd (h.1 ▸ hun p hp hpp) (HRS.lt_irrefl _)
  have h0 : (s.cs p0).lss.signature = some (L.sc (z p0)) := by
    rcases h1 p0 hp0 with h | h
    · exact absurd (hsigned ▸ h.1) (HRS.lt_irrefl _)
    · exact h.2.1
  have hcast := L.castInj.mono hS.n_le
  have hfit := combine_lucky hcast hq.nodup hq.ids (List.length_pos_of_mem hq.leads) z
    (ρ q.leader + L.chal (L.pt (ρ q.leader • L.B)) (L.pt (x • L.B)) q.block.signBytes * x)
  have hdiff : combineF q.ps (q.ps.map z) =
      combineF q.ps (q.ps.map (partialSig L t sec r x kc q.block.signBytes q.ps)) +
        lagrangeAt q.ps p0 * (z p0 - partialSig L t sec r x kc q.block.signBytes q.ps p0) := by
    rw [combine_map _ hq.nodup, combine_map _ hq.nodup]
    have hmem : p0 ∈ q.ps.toFinset := List.mem_toFinset.2 hp0
    rw [← Finset.add_sum_erase _ _ hmem, ← Finset.add_sum_erase _ _ hmem]
    have : ∑ i ∈ q.ps.toFinset.erase p0, lagrangeAt q.ps i * z i =
        ∑ i ∈ q.ps.toFinset.erase p0, lagrangeAt q.ps i * partialSig L t sec r x kc q.block.signBytes q.ps i := by
      refine Finset.sum_congr rfl fun i hi => ?_
      rw [Finset.mem_erase, List.mem_toFinset] at hi
      rw [(hz i hi.2 hi.1).1]
    rw [this]
    ring
  rw [(hz _ hq.leads (Ne.symm hne)).2, hdiff, partialSig_fits hS hq.nodup hq.ids hq.quorum, add_eq_left, mul_eq_zero,
    or_iff_right (lagrangeAt_ne_zero hcast hq.ids hp0), sub_eq_zero] at hfit
  rw [(hz _ hq.leads (Ne.symm hne)).2] at h2
  refine ⟨sec, r, z p0, s', h0, h4, fun h => h2.2 (hfit.1 h), fun h => ?_⟩
  rcases h3 with h3 | h3
  · exact absurd (hfit.2 (h2.1 h3)) h
  · exact h3

end

/-- In the toy cluster: 1 and 2 are asked, 1 signs, then 2 restarts with an empty record, 1 with what it has on disk. -/
def restarted12 : TryState :=
  { signed12 with cs := fun q => if q = 1 then CState.start (signed12.cs 1).lss else
      if q = 2 then CState.start .empty else signed12.cs q }

theorem restarted12_tries :
    RestartTries ftoy fcfg 3 blk1.key b1 ⟨fun _ => CState.start .empty, fun _ => []⟩ restarted12 := by
  have hr : ∀ p : Nat, ∀ i, ∃ sec, (trnd p i).secret = some sec ∧ sec.length = 32 :=
    fun p i => ⟨UInt8.ofNat p :: List.replicate 31 0, rfl, by simp⟩
  have h1 := RestartTries.snoc (C := ftoy) (cfg := fcfg) (n := 3) (k := blk1.key) (bs := b1)
    (.refl ⟨fun _ => CState.start .empty, fun _ => []⟩) (.ask 1 [1, 2, 3] (trnd 1)) ⟨by decide, by decide, hr 1⟩ trivial
  have h2 := h1.snoc (.ask 2 [1, 2, 3] (trnd 2)) ⟨by decide, by decide, hr 2⟩ trivial
  have h3 : RestartTries ftoy fcfg 3 blk1.key b1 ⟨fun _ => CState.start .empty, fun _ => []⟩ signed12 := by
    refine h2.snoc (.sign 1 [1, 2] (fun q => (asked12.answers q).headD []) (trnd 9)) ⟨by decide, by decide, ?_⟩ (hr 9)
    show ∀ q ∈ [1, 2], (1 ≤ q ∧ q ≤ 3) ∧ (asked12.answers q).headD [] ∈ asked12.answers q
    decide +kernel
  have h4 := h3.restart 2 .empty (.inl (by decide +kernel))
  exact h4.restart 1 (signed12.cs 1).lss (.inr (by simp))

/-- The request for `ps`, led by the first, with other randomness than before. -/
def freshReq (ps : List Nat) : Req := { freq 7 blk1 (ps.headD 0) ps with rnd1 := fun p => trnd (p + 3) }

def afresh (ps : List Nat) (st : Nat → CState) : Option (Nat × Bool × Option Err) :=
  fanswer ((⟨fun _ => VState.start .empty, st⟩ : Sys).signBlock ftoy ⟨2, fsc (42 • 1)⟩ fcfg 3 (freshReq ps)).1

/-- There, `C64_restarts_unsigned` applies to the participants 3 and 2, which sign; `C64_restarts_one_signed` to 2 and 1, which do
not, the record of 1 being from the lost nonce of 2; and 1 alone has a record of the block. -/
example : Servable 3 2 (freshReq [3, 2]) ∧ Servable 3 2 (freshReq [2, 1]) ∧
    (restarted12.cs 1).lss.hrs = blk1.hrs ∧ (restarted12.cs 2).lss.hrs ≺ blk1.hrs ∧ (restarted12.cs 3).lss.hrs ≺ blk1.hrs ∧
    afresh [3, 2] restarted12.cs = some (7, true, none) ∧
    afresh [2, 1] restarted12.cs = some (7, false, some .combinedInvalid) := by
  have h : ∀ p : Nat, ∀ i, ∃ sec, (trnd (p + 3) i).secret = some sec ∧ sec.length = 32 :=
    fun p _ => ⟨UInt8.ofNat (p + 3) :: List.replicate 31 0, rfl, by simp⟩
  refine ⟨⟨by decide +kernel, by decide, by decide, by decide, by decide,
      fun _ => show ([2, 1, 3] : List Int).Perm ((List.range' 1 3).map (fun i : Nat => (i : Int))) by decide,
      fun _ => List.Perm.refl _, h⟩,
    ⟨by decide +kernel, by decide, by decide, by decide, by decide,
      fun _ => show ([2, 1, 3] : List Int).Perm ((List.range' 1 3).map (fun i : Nat => (i : Int))) by decide,
      fun _ => List.Perm.refl _, h⟩,
    by decide +kernel, by decide +kernel, by decide +kernel, by decide +kernel, by decide +kernel⟩

end Horcrux
