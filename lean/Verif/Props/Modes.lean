import Verif.Spec.Modes
import Verif.Props.KeyFile
/-
Property C87: who can read the files with the key shares.
-/
namespace Horcrux
open Spec

theorem public_bit (m : FileMode) : m &&& 0o004#9 = 0 ↔ m.getLsbD 2 = false := by
  revert m; decide +kernel

theorem newMode_getLsbD (umask perm : FileMode) (i : Nat) (hi : i < 9) :
    (newMode umask perm).getLsbD i = (perm.getLsbD i && !umask.getLsbD i) := by
  simp [newMode, hi]

/-- C87, exactly: after `create-shares` a key share file can be read by others if and only if it was there before and could
be read by others, or it was not there and the umask does not forbid it; and the same for the group. -/
theorem C87_partial (R : RSACodec) (E : SplitEnv) (readPriv : Bytes → Option PrivFile) (umask : FileMode) (d : MDir)
    (args : List Str) (f : Str) :
    (OthersRead ((createSharesModes R E readPriv umask d args).2.mode f) ↔
      match d.modeOf f with
      | some m => OthersRead m
      | none => umask.getLsbD 2 = false) ∧
    (GroupReads ((createSharesModes R E readPriv umask d args).2.mode f) ↔
      match d.modeOf f with
      | some m => GroupReads m
      | none => umask.getLsbD 5 = false) := by
  unfold createSharesModes OthersRead GroupReads
  simp only [writeFileMode]
  cases d.modeOf f with
  | some m => exact ⟨Iff.rfl, Iff.rfl⟩
  | none =>
    simp only
    rw [newMode_getLsbD _ _ _ (by decide), newMode_getLsbD _ _ _ (by decide)]
    constructor <;> cases umask.getLsbD _ <;> decide

/-- C87 for a umask that forbids everything to group and others (077): the files that the command makes are for their owner
only. -/
theorem C87_umask_partial (R : RSACodec) (E : SplitEnv) (readPriv : Bytes → Option PrivFile) (umask : FileMode) (d : MDir)
    (args : List Str) (hu : ∀ i, i < 6 → umask.getLsbD i = true) (f : Str) (hf : d.dir.files f = none) :
    OwnerOnly ((createSharesModes R E readPriv umask d args).2.mode f) := by
  intro i hi
  have : d.modeOf f = none := by simp [MDir.modeOf, hf]
  simp only [createSharesModes, this, writeFileMode]
  rw [newMode_getLsbD _ _ _ (by omega), hu i hi]
  simp

/-- C87 for the state files: whatever the umask and the bits of an earlier file, nobody but the owner has access. -/
theorem C87_state_files (umask : FileMode) (before : Option FileMode) : OwnerOnly (stateFileMode umask before) := by
  intro i hi
  unfold stateFileMode writeAtomicMode
  rw [newMode_getLsbD _ _ _ (by omega)]
  have : (0o600#9 : FileMode).getLsbD i = false := by
    have h : ∀ i : Fin 6, (0o600#9 : FileMode).getLsbD i = false := by decide
    exact h ⟨i, hi⟩
  rw [this]; rfl

/-- C87 is false: `create-shares` asks for no protection. With a umask that leaves reading to others (022, as usual) and no
files of these names before, everybody on the machine can read all the key share files, and what they can read gives the
validator's private key: any `t` of the shares in the readable files combine to it. -/
theorem C87_fails (R : RSACodec) (E : SplitEnv) {F G : Type} [Field F] [AddCommGroup G] [Module F G]
    (L : Lawful E.C F G) (pair : Bytes → Bytes → Prop) (hR : R.Lawful pair)
    (hgen : GenOk pair E.gen) (readPriv : Bytes → Option PrivFile) (d : MDir) (file ts ns : Str) (t n : Nat)
    (ht : parseInt ts = some (t : Int)) (hn : parseInt ns = some (n : Int)) (h1t : 1 ≤ t) (htn : t ≤ n) (hn' : n ≤ 255)
    (content : Bytes) (hf : d.dir.files file = some content) (pv : PrivFile) (hpv : readPriv content = some pv)
    (priv : Bytes) (hpriv : pv.priv = some priv) (hlen : 32 ≤ priv.length) (hpub : pv.pub.Sized)
    (hexp : (E.expand (priv.take 32)).length = 32)
    (hw : ∀ i : Nat, 1 ≤ i → i ≤ n → d.dir.writable (keyFileName i) = true)
    (hnew : ∀ i : Nat, 1 ≤ i → i ≤ n → d.dir.files (keyFileName i) = none)
    (umask : FileMode) (hu : umask.getLsbD 2 = false) :
    ∃ d' share, createSharesModes R E readPriv umask d [file, ts, ns] = (.done, d') ∧
      ShareKeys R n (MDir.public d') share ∧
      ∀ ids : List Nat, ids.Nodup → (∀ i ∈ ids, 1 ≤ i ∧ i ≤ n) → t ≤ ids.length →
        E.C.combineShares n ids (ids.map share) = L.sc (L.val (E.expand (priv.take 32))) := by
  obtain ⟨d', share, h1, _, h3, _, h5⟩ := C54_recover R E L pair hR hgen readPriv d.dir file ts ns t n ht hn h1t htn hn' content hf
    pv hpv priv hpriv hlen hpub hexp hw
  refine ⟨(createSharesModes R E readPriv umask d [file, ts, ns]).2, share, ?_, ?_, h5⟩
  · refine Prod.ext ?_ rfl
    simp only [createSharesModes, h1]
  · intro i hi1 hi2
    obtain ⟨bs, k, e1, e2⟩ := h3 i hi1 hi2
    refine ⟨bs, k, ?_, e2⟩
    have hm := (C87_partial R E readPriv umask d [file, ts, ns] (keyFileName i)).1
    have hnone : d.modeOf (keyFileName i) = none := by simp [MDir.modeOf, hnew i hi1 hi2]
    rw [hnone] at hm
    have hr := hm.2 hu
    unfold MDir.public
    rw [if_neg]
    · simp only [createSharesModes, h1]; exact e1
    · rw [public_bit]
      unfold OthersRead at hr
      rw [hr]; simp

/-- The directory of `toyDir`, with a private key that only its owner can read. -/
def toyMDir : MDir := ⟨toyDir, fun _ => 0o600#9⟩

/-- Concretely: `create-shares k 2 3` with the umask 022; the key file is for its owner only, and everybody can combine shares
3 and 1 to the private key 42. -/
example : MDir.public toyMDir [107] = none ∧
    ∃ d' share, createSharesModes toyCodec toySplit (fun _ => some toyPriv) 0o022#9 toyMDir [[107], [50], [51]] = (.done, d') ∧
      ShareKeys toyCodec 3 (MDir.public d') share ∧ ftoy.combineShares 3 [3, 1] [share 3, share 1] = fsc 42 := by
  refine ⟨by decide, ?_⟩
  obtain ⟨d', share, h1, h3, h5⟩ := C87_fails toyCodec toySplit ftoyLawful _ toyCodec_lawful toySplit_gen
    (fun _ => some toyPriv) toyMDir [107] [50] [51] 2 3 (by decide) (by decide) (by decide) (by decide) (by decide) []
    rfl toyPriv rfl (fsc 42) rfl (by rw [fsc_length]) (fsc_length _)
    (by show ((fsc 42).take 32).length = 32; rw [List.length_take, fsc_length]; rfl) (fun _ _ _ => rfl)
    (fun i _ _ => by simp [toyMDir, toyDir, keyFileName, sharePrefix]) 0o022#9 (by decide)
  refine ⟨d', share, h1, h3, ?_⟩
  have := h5 [3, 1] (by decide) (by decide) (by decide)
  have he : toySplit.expand ((fsc 42).take 32) = fsc 42 := by
    show (fsc 42).take 32 = _
    rw [List.take_of_length_le (by rw [fsc_length])]
  rw [he] at this
  exact this.trans (by show fsc (fval (fsc 42)) = _; rw [fval_fsc'])

/-- With the umask 077 they are for their owner only, and a state file is in any case. -/
example : OwnerOnly ((createSharesModes toyCodec toySplit (fun _ => some toyPriv) 0o077#9 toyMDir [[107], [50], [51]]).2.mode
      (keyFileName 1)) ∧ OwnerOnly (stateFileMode 0 (some 0o666#9)) :=
  ⟨C87_umask_partial _ _ _ _ _ _ (by decide) _ (by simp [toyMDir, toyDir, keyFileName, sharePrefix]), C87_state_files _ _⟩

end Horcrux
