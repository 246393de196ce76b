import Verif.Props.Torn
import Verif.Props.Forgets
import Verif.Props.Existing
/-
Properties C26, C36 and C37: what a file leads to that mixes two states.
-/
namespace Horcrux
open Spec

section
variable {C : Crypto} {F G : Type} [Field F] [AddCommGroup G] [Module F G] {L : Lawful C F G}
  {pair : Bytes → Bytes → Prop} {n t : Nat} {cfg : Nat → CosignerCfg} {x : F} {kc : List F} {rsaPub : Nat → Bytes}

/-- C36 (full statement) is false of every cosigner even if it is killed long after all its goroutines have finished without an
error: let it have signed for a block and then for one of the next height with a lower round or step. The schedule may have left
a file from which it signs any sign bytes for the first block. -/
theorem C36_mixed_fails (hS : Setup C L pair n t cfg x kc rsaPub) (p q : Nat) (hp1 : 1 ≤ p) (hp2 : p ≤ n) (hq1 : 1 ≤ q)
    (hq2 : q ≤ n) (hpq : q ≠ p) (mem file : PFile) (r r' : SSC) (h : mem.hrs ≺ r.hrs) (hh : r.height < r'.height)
    (hr : r'.round < r.round ∨ r'.round = r.round ∧ r'.step < r.step) (k : HRST) (bs sec : Bytes) (rnd : Rand)
    (hu : unpackHRST bs = .ok k) (hk : k.hrs = r.hrs) (hsec : rnd.secret = some sec) (hlen : sec.length = 32) :
    ∃ s, TRun (fun _ _ => True) ⟨mem, [], [], file⟩ (overtaken r r') s ∧ AllFinished s ∧ s.mem.hrs = r'.hrs ∧
      ∃ part s1 res s2,
        (CState.start s.file.load).step C (cfg p)
          (.getPart ⟨q, k.height, k.round, k.step, GoTime.ofUnixNano k.timestamp⟩ rnd) = (.ok (.part part), s1) ∧
        s1.step C (cfg p) (.sign bs) = (.ok (.signed res), s2) ∧ s2.lss.signBytes = some bs := by
  obtain ⟨s, h1, h2, h3, h4⟩ := C38_below_fails mem file r r' h hh hr
  obtain ⟨part, s1, res, s2, g1, g2, _, g4⟩ := boot_signs hS hp1 hp2 hq1 hq2 hpq (f := s.file) (unpack_time_i64 hu) hu
    (by rw [hk]; exact h4) hsec hlen
  exact ⟨s, h1, h2, h3, part, s1, res, s2, g1, g2, g4⟩

end

/-- The third cosigner has signed the precommit `b1` and then a prevote of the next height; all has been written. Killed, it
signs `b1x`, which conflicts with `b1`. -/
example : (∃ s, TRun (fun _ _ => True) ⟨emptyFile, [], [], emptyFile⟩
      (overtaken ⟨7, 1, 3, some [1], some b1⟩ ⟨8, 0, 2, some [3], some [4]⟩) s ∧ AllFinished s ∧ s.mem.hrs = ⟨8, 0, 2⟩ ∧
      ∃ part s1 res s2, (CState.start s.file.load).step ftoy (fcfg 3) part = s1 ∧
        s1.2.step ftoy (fcfg 3) (.sign b1x) = (.ok (.signed res), s2) ∧ s2.lss.signBytes = some b1x) ∧
    ¬ DifferOnlyByTime 3 b1 b1x := by
  constructor
  · obtain ⟨s, h1, h2, h3, part, s1, res, s2, g1, g2, g3⟩ := C36_mixed_fails fsetup 3 1 (by omega) (by omega) (by omega)
      (by omega) (by omega) emptyFile emptyFile ⟨7, 1, 3, some [1], some b1⟩ ⟨8, 0, 2, some [3], some [4]⟩ (by decide)
      (by decide) (.inl (by decide)) _ b1x (List.replicate 32 5) ⟨some (List.replicate 32 5), [], [], []⟩ unpack_b1x
      rfl rfl (by simp)
    exact ⟨s, h1, h2, h3, _, _, res, s2, g1, g2, g3⟩
  · intro h
    have hn : onlyDifferByTimestamp 3 b1 b1x ≠ none := by decide +kernel
    exact hn ((onlyDiffer_iff 3 b1 b1x).2 h)

/-- Two saves; the goroutine of the first reads the watermark and the signature when the second save has assigned just the
former, and the sign bytes when it has finished; it writes last. -/
def swapped (r r' : SSC) : List TMove :=
  [.save r] ++ List.replicate 5 .assign ++ [.save r'] ++ List.replicate 3 .assign ++ List.replicate 5 (.read 0) ++
    List.replicate 2 .assign ++ [.read 0] ++ List.replicate 6 (.read 1) ++ [.write 1, .write 0]

/-- C37 (full statement) is false of every state and every two saves, even of files with the watermark in memory (compare
`C37_exact`, where marshalling is one step): when all goroutines have finished, the file can hold the watermark and the sign bytes
of the second with the signature of the first. A cosigner that is started from it answers the request to sign the second block
again with the signature of the first. -/
theorem C37_swapped_fails (C : Crypto) (cfg : CosignerCfg) (mem file : PFile) (r r' : SSC) (h : mem.hrs ≺ r.hrs)
    (h' : r.hrs ≺ r'.hrs) :
    ∃ s, TRun (fun _ _ => True) ⟨mem, [], [], file⟩ (swapped r r') s ∧ AllFinished s ∧
      s.mem = ⟨r'.height, r'.round, r'.step, mem.ephemeralPublic, r'.signature, r'.signBytes⟩ ∧
      s.file = ⟨r'.height, r'.round, r'.step, mem.ephemeralPublic, r.signature, r'.signBytes⟩ ∧
      ∀ bs k sig, r'.signBytes = some bs → r.signature = some sig → unpackHRST bs = .ok k → k.hrs = r'.hrs →
        (CState.start s.file.load).step C cfg (.sign bs) =
          (.ok (.signed ⟨mem.ephemeralPublic, some sig, none⟩), CState.start s.file.load) := by
  have g : mem.height < r.height ∨ mem.height = r.height ∧ (mem.round < r.round ∨ mem.round = r.round ∧ mem.step < r.step) := h
  have g' : r.height < r'.height ∨ r.height = r'.height ∧ (r.round < r'.round ∨ r.round = r'.round ∧ r.step < r'.step) := h'
  refine ⟨⟨⟨r'.height, r'.round, r'.step, mem.ephemeralPublic, r'.signature, r'.signBytes⟩, [], [],
    ⟨r'.height, r'.round, r'.step, mem.ephemeralPublic, r.signature, r'.signBytes⟩⟩, ?_, ⟨rfl, rfl⟩, rfl, rfl, ?_⟩
  · have s1 : TState.step ⟨mem, [], [], file⟩ (.save r) = some ⟨mem, saveAssigns r, [], file⟩ := by
      simp only [TState.step]
      rw [if_pos ⟨trivial, g⟩]
    have s2 : TState.step ⟨⟨r.height, r.round, r.step, mem.ephemeralPublic, r.signature, r.signBytes⟩, [], [.new], file⟩
        (.save r') = some ⟨⟨r.height, r.round, r.step, mem.ephemeralPublic, r.signature, r.signBytes⟩, saveAssigns r',
          [.new], file⟩ := by
      simp only [TState.step]
      rw [if_pos ⟨trivial, g'⟩]
    have r1 : TRun (fun _ _ => True) ⟨mem, [], [], file⟩ [.save r] _ := .snoc (ms := []) .nil trivial s1
    have r2 := trun_run (ms' := List.replicate 5 .assign) (t := ⟨⟨r.height, r.round, r.step, mem.ephemeralPublic, r.signature,
      r.signBytes⟩, [], [.new], file⟩) r1 rfl
    have r3 := r2.snoc trivial s2
    have r4 := trun_run (ms' := List.replicate 3 .assign) (t := ⟨⟨r'.height, r'.round, r'.step, mem.ephemeralPublic, r.signature,
      r.signBytes⟩, [.signature r'.signature, .signBytes r'.signBytes], [.new], file⟩) r3 rfl
    have r5 := trun_run (ms' := List.replicate 5 (.read 0)) (t := ⟨⟨r'.height, r'.round, r'.step, mem.ephemeralPublic,
      r.signature, r.signBytes⟩, [.signature r'.signature, .signBytes r'.signBytes],
      [⟨5, ⟨r'.height, r'.round, r'.step, mem.ephemeralPublic, r.signature, none⟩⟩], file⟩) r4 rfl
    have r6 := trun_run (ms' := List.replicate 2 .assign) (t := ⟨⟨r'.height, r'.round, r'.step, mem.ephemeralPublic,
      r'.signature, r'.signBytes⟩, [],
      [⟨5, ⟨r'.height, r'.round, r'.step, mem.ephemeralPublic, r.signature, none⟩⟩, .new], file⟩) r5 rfl
    have r7 := trun_run (ms' := [.read 0]) (t := ⟨⟨r'.height, r'.round, r'.step, mem.ephemeralPublic,
      r'.signature, r'.signBytes⟩, [],
      [⟨6, ⟨r'.height, r'.round, r'.step, mem.ephemeralPublic, r.signature, r'.signBytes⟩⟩, .new], file⟩) r6 rfl
    have r8 := trun_run (ms' := List.replicate 6 (.read 1)) (t := ⟨⟨r'.height, r'.round, r'.step, mem.ephemeralPublic,
      r'.signature, r'.signBytes⟩, [],
      [⟨6, ⟨r'.height, r'.round, r'.step, mem.ephemeralPublic, r.signature, r'.signBytes⟩⟩,
        ⟨6, ⟨r'.height, r'.round, r'.step, mem.ephemeralPublic, r'.signature, r'.signBytes⟩⟩], file⟩) r7 rfl
    exact trun_run (ms' := [.write 1, .write 0]) r8 rfl
  · intro bs k sig hb hsig hu hk
    simp only [HRST.hrs, SSC.hrs, HRS.mk.injEq] at hk
    obtain ⟨k1, k2, k3⟩ := hk
    have hc : (PFile.load ⟨r'.height, r'.round, r'.step, mem.ephemeralPublic, r.signature, r'.signBytes⟩).checkHRS k =
        .ok true := by
      simp [SignState.checkHRS, PFile.load, SignState.ofLoaded, k1, k2, k3, hb, hsig]
    have hs : sign C cfg (CState.start (PFile.load ⟨r'.height, r'.round, r'.step, mem.ephemeralPublic, r.signature, r'.signBytes⟩)) bs =
        (.ok ⟨mem.ephemeralPublic, some sig, none⟩,
          CState.start (PFile.load ⟨r'.height, r'.round, r'.step, mem.ephemeralPublic, r.signature, r'.signBytes⟩)) := by
      unfold sign
      simp only [hu, CState.start, hc]
      simp [PFile.load, SignState.ofLoaded, hb, hsig, Slice.bytes]
    simp only [CState.step, hs, Out.map]

/-- The conditions, of `b1` after an older block. -/
example : ∃ s, TRun (fun _ _ => True) ⟨emptyFile, [], [], emptyFile⟩
      (swapped ⟨6, 0, 3, some [1], some [2]⟩ ⟨7, 1, 3, some [3], some b1⟩) s ∧ AllFinished s ∧ s.file.hrs = s.mem.hrs ∧
    (CState.start s.file.load).step ftoy (fcfg 3) (.sign b1) =
      (.ok (.signed ⟨emptyFile.ephemeralPublic, some [1], none⟩), CState.start s.file.load) := by
  obtain ⟨s, h1, h2, h3, h4, h5⟩ := C37_swapped_fails ftoy (fcfg 3) emptyFile emptyFile ⟨6, 0, 3, some [1], some [2]⟩
    ⟨7, 1, 3, some [3], some b1⟩ (by decide) (by decide)
  exact ⟨s, h1, h2, by rw [h3, h4]; rfl, h5 b1 _ [1] rfl rfl unpack_b1 rfl⟩

/-- C26 (full statement) is false: let the leader have saved any two blocks. When all goroutines have finished, its file may be
one from which, after a restart, a repeated request for the second block succeeds with the signature of the first (so that, if
that does not verify over the second, the chain node gets an invalid one). -/
theorem C26_swapped_fails (C : Crypto) (cfg : ValidatorCfg) (mem file : PFile) (r r' : SSC) (h : mem.hrs ≺ r.hrs)
    (h' : r.hrs ≺ r'.hrs) (b : Block) (sig : Bytes) (hb : b.hrs = r'.hrs) (hbs : r'.signBytes = some b.signBytes)
    (hsig : r.signature = some sig) :
    ∃ s, TRun (fun _ _ => True) ⟨mem, [], [], file⟩ (swapped r r') s ∧ AllFinished s ∧ s.file.hrs = s.mem.hrs ∧
      ∀ id, lastOut (vexec C cfg (VState.start s.file.load) [.call id b .leader, .poll id]) =
        some (.ret id b (some sig) b.timestamp none) := by
  obtain ⟨s, h1, h2, h3, h4, _⟩ := C37_swapped_fails C ⟨0, [], [], [], 0, 0, fun _ => none⟩ mem file r r' h h'
  refine ⟨s, h1, h2, by rw [h3, h4]; rfl, fun id => ?_⟩
  have hex : existingSignature (VState.start s.file.load).lss b = .ok (some sig) := by
    unfold existingSignature SignState.getFromCache
    have hc : (VState.start s.file.load).lss.cache b.hrs =
        some ⟨r'.height, r'.round, r'.step, some sig, some b.signBytes⟩ := by
      rw [h4, hb]
      simp [VState.start, PFile.load, SignState.ofLoaded, SSC.hrs, hbs, hsig]
    simp only [hc]
    rw [if_pos (.inr rfl)]
  obtain ⟨k, g1⟩ := save_equal (s := (VState.start s.file.load).init) (b := b) (by rw [hb, h4]; rfl)
  have g3 : (VState.start s.file.load).step C cfg (.call id b .leader) =
      (.tau, (VState.start s.file.load).setPhase id b (.poll 0)) := by
    have hidle : (VState.start s.file.load).calls id = none := rfl
    simp only [VState.step, hidle, g1]
  have g4 : ((VState.start s.file.load).setPhase id b (.poll 0)).calls id = some (b, .poll 0) := by simp [VState.setPhase]
  have g5 : ((VState.start s.file.load).setPhase id b (.poll 0)).lss = (VState.start s.file.load).lss := rfl
  simp only [vexec, g3, lastOut, List.getLast?_cons_cons, List.getLast?_singleton, Option.map_some]
  simp only [VState.step, g4, g5, hex]

/-- Two votes with valid signatures were saved; after the restart the second comes with a signature that does not verify. -/
example : vtoy.verify vcfg.pubKey [2] [42, 2] = true ∧ vtoy.verify vcfg.pubKey blk1.signBytes (42 :: b1) = true ∧
    vtoy.verify vcfg.pubKey blk1.signBytes [42, 2] = false ∧
    ∃ s, TRun (fun _ _ => True) ⟨emptyFile, [], [], emptyFile⟩
      (swapped ⟨6, 0, 3, some [42, 2], some [2]⟩ ⟨7, 1, 3, some (42 :: b1), some b1⟩) s ∧ AllFinished s ∧
      s.file.hrs = s.mem.hrs ∧ ∀ id, lastOut (vexec vtoy vcfg (VState.start s.file.load) [.call id blk1 .leader, .poll id]) =
        some (.ret id blk1 (some [42, 2]) blk1.timestamp none) :=
  ⟨by decide +kernel, by decide +kernel, by decide +kernel, C26_swapped_fails vtoy vcfg emptyFile emptyFile
    ⟨6, 0, 3, some [42, 2], some [2]⟩ ⟨7, 1, 3, some (42 :: b1), some b1⟩ (by decide) (by decide) blk1 [42, 2] rfl rfl rfl⟩

end Horcrux
