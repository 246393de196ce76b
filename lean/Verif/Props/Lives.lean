import Verif.Model.Lives
import Verif.Props.Disk
import Verif.Props.Cluster
import Verif.Props.System
/-
Property C66: no conflicting full signatures over all lives of the cosigners.
-/
namespace Horcrux
open Spec

/-- The history of one node. -/
def ofNode (i : Nat) (tr : List LivesEv) : List (DEv × Option (Out CosResp)) :=
  (tr.filter fun e => e.node = i).map fun e => (e.ev, e.out)

theorem lives_proj {C : Crypto} {cfg : Nat → CosignerCfg} {ok : Nat → DState → DEv → Prop} {c0 c : Nat → DState}
    {tr : List LivesEv} (h : Lives C cfg ok c0 tr c) (i : Nat) :
    DRun C (cfg i) (ok i) (c0 i) (ofNode i tr) (c i) := by
  induction h with
  | nil => exact .nil
  | @snoc tr c h j e he ih =>
    by_cases hij : j = i
    · subst hij
      have : ofNode j (tr ++ [⟨j, e, ((c j).step C (cfg j) e).1⟩]) = ofNode j tr ++ [(e, ((c j).step C (cfg j) e).1)] := by
        simp [ofNode]
      rw [this]
      simp only [if_true]
      exact ih.snoc e he
    · have : ofNode i (tr ++ [⟨j, e, ((c j).step C (cfg j) e).1⟩]) = ofNode i tr := by
        simp [ofNode, hij]
      rw [this]
      simp only [if_neg (Ne.symm hij)]
      exact ih

/-- In the history some leader obtained the full signature `sig` over `bs` under the public key `pub`
(`threshold_validator.go:405-453`): it combined an array with one entry per cosigner in which the non-empty entry of a
cosigner outside `faulty` is a share signature over `bs` that this cosigner released in one of its lives. -/
def FullSignatureEver (C : Crypto) (n t : Nat) (faulty : Finset Nat) (tr : List LivesEv) (pub bs sig : Bytes) : Prop :=
  ∃ (eph : Bytes) (shares : List Bytes), shares.length = n ∧
    (∀ (i : Nat) (b : Bytes), shares[i]? = some b → b.length ≠ 0 → i + 1 ∉ faulty →
      ∃ r, (⟨i + 1, .op (.sign bs), some (.ok (.signed r))⟩ : LivesEv) ∈ tr ∧ r.signature.bytes = b) ∧
    assemble C t pub bs shares eph = .ok sig

/-- Two full signatures: some cosigner outside `faulty` released a share of each. -/
theorem full_common {C : Crypto} {n t f : Nat} (h : n + f < 2 * t) {faulty : Finset Nat} (hf : faulty.card ≤ f)
    {tr : List LivesEv} {pub pub' bs bs' sig sig' : Bytes}
    (hfull : FullSignatureEver C n t faulty tr pub bs sig) (hfull' : FullSignatureEver C n t faulty tr pub' bs' sig') :
    ∃ i, i ∉ faulty ∧ ∃ r r', (DEv.op (.sign bs), some (Out.ok (CosResp.signed r))) ∈ ofNode i tr ∧
      (DEv.op (.sign bs'), some (Out.ok (CosResp.signed r'))) ∈ ofNode i tr := by
  have key : ∀ p b s, FullSignatureEver C n t faulty tr p b s → ∃ S : Finset Nat, S ⊆ Finset.Icc 1 n ∧ t ≤ S.card ∧
      ∀ i ∈ S, i ∉ faulty → ∃ r, (⟨i, .op (.sign b), some (.ok (.signed r))⟩ : LivesEv) ∈ tr := by
    rintro p b s ⟨eph, shares, hl, hrel, has⟩
    obtain ⟨hnd, hids⟩ := collectSigs_ids shares 0
    refine ⟨(collectSigs 0 shares).1.toFinset, ?_, ?_, ?_⟩
    · intro i hi
      obtain ⟨h1, x, h2, _⟩ := hids i (List.mem_toFinset.1 hi)
      have := (List.getElem?_eq_some_iff.1 h2).1
      rw [Finset.mem_Icc]; omega
    · rw [List.toFinset_card_of_nodup hnd]
      unfold assemble at has
      simp only at has
      split at has
      · cases has
      · next hlt => exact_mod_cast Int.not_lt.1 hlt
    · intro i hi hnf
      obtain ⟨h1, x, h2, h3⟩ := hids i (List.mem_toFinset.1 hi)
      rw [Nat.sub_zero] at h2
      obtain ⟨r, hr, _⟩ := hrel (i - 1) x h2 h3 (by rwa [Nat.sub_add_cancel h1])
      rw [Nat.sub_add_cancel h1] at hr
      exact ⟨r, hr⟩
  obtain ⟨S, a1, a2, a3⟩ := key pub bs sig hfull
  obtain ⟨S', b1, b2, b3⟩ := key pub' bs' sig' hfull'
  obtain ⟨i, h1, h2, h3⟩ := quorum_intersect n t f h S S' faulty a1 b1 hf a2 b2
  obtain ⟨r, hr⟩ := a3 i h1 h3
  obtain ⟨r', hr'⟩ := b3 i h2 h3
  have hmem : ∀ (b : Bytes) (q : SignRes), (⟨i, .op (.sign b), some (.ok (.signed q))⟩ : LivesEv) ∈ tr →
      (DEv.op (.sign b), some (Out.ok (CosResp.signed q))) ∈ ofNode i tr := by
    intro b q hq
    exact List.mem_map.2 ⟨_, List.mem_filter.2 ⟨hq, by simp⟩, rfl⟩
  exact ⟨i, h3, r, r', hmem _ _ hr, hmem _ _ hr'⟩

/-- C66, partial: `n` cosigners of which at most `f` are faulty, where besides arbitrary behaviour it counts as faulty to
die, ever, while the state file does not hold the record in memory. With `2t > n + f`, over any number of lives of all
processes, from any files, with any requests and any scheduling of background writes, two full signatures for one height,
round and step are over sign bytes that differ in nothing but the time. Missing: deaths before the newest record has
reached the file; then one death is enough to make it false (`C66_fails`). -/
theorem C66_partial (C : Crypto) (cfg : Nat → CosignerCfg) (n t f : Nat) (h : n + f < 2 * t) (faulty : Finset Nat)
    (hf : faulty.card ≤ f) (file : Nat → PFile) (c : Nat → DState) (tr : List LivesEv)
    (hrun : Lives C cfg (fun i s e => i ∉ faulty → CrashesWhenRecorded s e) (fun i => DState.boot (file i)) tr c)
    (pub pub' bs bs' sig sig' : Bytes) (k k' : HRST) (hu : unpackHRST bs = .ok k) (hu' : unpackHRST bs' = .ok k')
    (hsame : k.height = k'.height ∧ k.round = k'.round ∧ k.step = k'.step)
    (hfull : FullSignatureEver C n t faulty tr pub bs sig) (hfull' : FullSignatureEver C n t faulty tr pub' bs' sig') :
    DifferOnlyByTime k.step bs bs' := by
  obtain ⟨i, hi, r, r', hr, hr'⟩ := full_common h hf hfull hfull'
  exact C36_partial C (cfg i) (file i) (c i) (ofNode i tr)
    ((lives_proj hrun i).mono (fun _ _ hok => hok hi)) bs bs' r r' k k' hr hr' hu hu' hsame

/-- C66, partial, in terms of what an operator can arrange: processes are only killed while no background write is
outstanding, and no write overwrites a newer file. -/
theorem C66_idle_partial (C : Crypto) (cfg : Nat → CosignerCfg) (n t : Nat) (h : n < 2 * t)
    (file : Nat → PFile) (c : Nat → DState) (tr : List LivesEv)
    (hrun : Lives C cfg (fun _ s e => CrashesWhenIdle s e ∧ WritesInOrder s e) (fun i => DState.boot (file i)) tr c)
    (pub pub' bs bs' sig sig' : Bytes) (k k' : HRST) (hu : unpackHRST bs = .ok k) (hu' : unpackHRST bs' = .ok k')
    (hsame : k.height = k'.height ∧ k.round = k'.round ∧ k.step = k'.step)
    (hfull : FullSignatureEver C n t ∅ tr pub bs sig) (hfull' : FullSignatureEver C n t ∅ tr pub' bs' sig') :
    DifferOnlyByTime k.step bs bs' := by
  have hrun' : Lives C cfg (fun i s e => i ∉ (∅ : Finset Nat) → CrashesWhenRecorded s e) (fun i => DState.boot (file i)) tr c ∧
      Lives C cfg (fun _ s e => CrashesWhenRecorded s e ∧ WritesInOrder s e) (fun i => DState.boot (file i)) tr c := by
    clear hfull hfull'
    induction hrun with
    | nil => exact ⟨.nil, .nil⟩
    | @snoc tr c h i e he ih =>
      have hrec : CrashesWhenRecorded (c i) e := by
        intro hre
        obtain ⟨ha, hj⟩ := he.1 hre
        exact idle_related kept_record (fun _ _ h => h.2) (lives_proj ih.2 i) ha hj
      exact ⟨ih.1.snoc i e (fun _ => hrec), ih.2.snoc i e ⟨hrec, he.2⟩⟩
  exact C66_partial C cfg n t 0 (by omega) ∅ (by simp) file c tr hrun'.1 pub pub' bs bs' sig sig' k k' hu hu' hsame
    hfull hfull'

/-! ### A concrete cluster -/

/-- Run events, with a condition that is evaluated on the way. -/
def lexec (C : Crypto) (cfg : Nat → CosignerCfg) (c : Nat → DState) (acc : List LivesEv) :
    List (Nat × DEv) → List LivesEv × (Nat → DState)
  | [] => (acc, c)
  | (i, e) :: es =>
    lexec C cfg (fun j => if j = i then ((c i).step C (cfg i) e).2 else c j) (acc ++ [⟨i, e, ((c i).step C (cfg i) e).1⟩]) es

def lcheck (C : Crypto) (cfg : Nat → CosignerCfg) (q : DState → DEv → Bool) (c : Nat → DState) : List (Nat × DEv) → Bool
  | [] => true
  | (i, e) :: es =>
    q (c i) e && lcheck C cfg q (fun j => if j = i then ((c i).step C (cfg i) e).2 else c j) es

theorem lexec_run {C : Crypto} {cfg : Nat → CosignerCfg} {ok : Nat → DState → DEv → Prop} {q : DState → DEv → Bool}
    (hq : ∀ i s e, q s e = true → ok i s e) {c0 c : Nat → DState} {acc : List LivesEv} (h0 : Lives C cfg ok c0 acc c)
    (es : List (Nat × DEv)) (hc : lcheck C cfg q c es = true) :
    Lives C cfg ok c0 (lexec C cfg c acc es).1 (lexec C cfg c acc es).2 := by
  induction es generalizing acc c with
  | nil => exact h0
  | cons x es ih =>
    obtain ⟨i, e⟩ := x
    simp only [lcheck, Bool.and_eq_true] at hc
    exact ih (h0.snoc i e (hq _ _ _ hc.1)) hc.2

/-- Cosigner `p` of the 2-of-3 cluster is asked for its parts for `b1`'s height, round, step and time. -/
def askEvs (p : Nat) (rnd : Nat → Rand) (k : HRST) : List (Nat × DEv) :=
  ([1, 2, 3].filter (· ≠ p)).map fun q : Nat =>
    (p, .op (.getPart ⟨q, k.height, k.round, k.step, GoTime.ofUnixNano k.timestamp⟩ (rnd q)))

/-- The parts it then answers with, if it has no nonce for the block yet. -/
def askParts (p : Nat) (rnd : Nat → Rand) (k : HRST) : List SecretPart :=
  okParts (getParts ftoy (fcfg p) k [1, 2, 3] rnd (CState.start .empty)).1

/-- Participants `p`, `q` get the parts and sign `bs`. -/
def signEvs (p q : Nat) (rp rq : Nat → Rand) (k : HRST) (bs : Bytes) : List (Nat × DEv) :=
  let entries : List (Int × List SecretPart) := [((p : Int), askParts p rp k), ((q : Int), askParts q rq k)]
  let one := fun x : Nat => (partsFor entries (x : Int)).map (fun s => (x, DEv.op (.setPart (s.toSetReq k) (trnd 9 0)))) ++
    [(x, .op (.sign bs))]
  one p ++ one q

/-- A whole round of two participants. -/
def roundEvs (p q : Nat) (rp rq : Nat → Rand) (k : HRST) (bs : Bytes) : List (Nat × DEv) :=
  askEvs p rp k ++ askEvs q rq k ++ signEvs p q rp rq k bs

def fboot : Nat → DState := fun _ => DState.boot emptyFile

/-- The share signature cosigner `i` released over `bs`, and its ephemeral key. -/
def shareOver (tr : List LivesEv) (i : Nat) (bs : Bytes) : Bytes × Bytes :=
  match tr.find? (fun e => decide (e.node = i ∧ e.ev = .op (.sign bs))) with
  | some ⟨_, _, some (.ok (.signed r))⟩ => (r.signature.bytes, r.ephemeralPublic.bytes)
  | _ => ([], [])

theorem shareOver_spec {tr : List LivesEv} {i : Nat} {bs b : Bytes} (h : (shareOver tr i bs).1 = b) (hb : b.length ≠ 0) :
    ∃ r, (⟨i, .op (.sign bs), some (.ok (.signed r))⟩ : LivesEv) ∈ tr ∧ r.signature.bytes = b := by
  unfold shareOver at h
  split at h
  · next heq =>
    have hm := List.mem_of_find?_eq_some heq
    have hp := List.find?_some heq
    simp only [decide_eq_true_eq] at hp
    obtain ⟨rfl, rfl⟩ := hp
    exact ⟨_, hm, h⟩
  · subst h; simp at hb

theorem fullSignature_of {tr : List LivesEv} {bs sig : Bytes} (S : List Nat) (leader : Nat)
    (h : assemble ftoy 2 (fsc 42) bs ((List.range 3).map fun i => if i + 1 ∈ S then (shareOver tr (i + 1) bs).1 else [])
      (shareOver tr leader bs).2 = .ok sig) : FullSignatureEver ftoy 3 2 ∅ tr (fsc 42) bs sig := by
  refine ⟨_, _, by simp, ?_, h⟩
  intro i b hb hl _
  rw [List.getElem?_map] at hb
  cases hr : (List.range 3)[i]? with
  | none => rw [hr] at hb; cases hb
  | some j =>
    rw [hr] at hb
    obtain rfl : j = i := by
      have := List.getElem?_eq_some_iff.1 hr
      obtain ⟨_, h2⟩ := this
      simpa using h2.symm
    simp only [Option.map_some, Option.some.injEq] at hb
    split at hb
    · exact shareOver_spec hb hl
    · subst hb; simp at hl

/-- 1 and 2 sign `b1`, the files are written, 2 restarts, 3 and 2 sign the re-timed `b2`. -/
def goodLives : List (Nat × DEv) :=
  roundEvs 1 2 (trnd 1) (trnd 2) blk1.key b1 ++ [(1, .marshal 0), (2, .marshal 0), (2, .write 0), (2, .restart)] ++
  roundEvs 3 2 (trnd 3) (trnd 5) blk2.key b2

def isOkSig : Out Bytes → Bool
  | .ok _ => true
  | _ => false

theorem isOkSig_spec {o : Out Bytes} (h : isOkSig o = true) : ∃ s, o = .ok s := by
  cases o <;> simp [isOkSig] at h ⊢

/-- The hypotheses of C66 are met by two full signatures in different lives. -/
example : ∃ tr c sig sig', Lives ftoy fcfg (fun _ s e => CrashesWhenIdle s e ∧ WritesInOrder s e) fboot tr c ∧
    FullSignatureEver ftoy 3 2 ∅ tr (fsc 42) b1 sig ∧ FullSignatureEver ftoy 3 2 ∅ tr (fsc 42) b2 sig' := by
  have hr := lexec_run (C := ftoy) (cfg := fcfg) (ok := fun _ s e => CrashesWhenIdle s e ∧ WritesInOrder s e) (q := idleB)
    (fun _ s e h => idleB_spec s e h) (.nil (c0 := fboot)) goodLives (by decide +kernel)
  obtain ⟨s1, h1⟩ := isOkSig_spec (o := assemble ftoy 2 (fsc 42) b1
    ((List.range 3).map fun i => if i + 1 ∈ [1, 2] then (shareOver (lexec ftoy fcfg fboot [] goodLives).1 (i + 1) b1).1 else [])
      (shareOver (lexec ftoy fcfg fboot [] goodLives).1 1 b1).2) (by decide +kernel)
  obtain ⟨s2, h2⟩ := isOkSig_spec (o := assemble ftoy 2 (fsc 42) b2
    ((List.range 3).map fun i => if i + 1 ∈ [2, 3] then (shareOver (lexec ftoy fcfg fboot [] goodLives).1 (i + 1) b2).1 else [])
      (shareOver (lexec ftoy fcfg fboot [] goodLives).1 3 b2).2) (by decide +kernel)
  exact ⟨_, _, _, _, hr, fullSignature_of _ _ h1, fullSignature_of _ _ h2⟩

/-- 1 and 2 sign `b1`; 2 dies before its file is written; 3 and 2 sign another block of that height, round and step. -/
def badLives : List (Nat × DEv) :=
  roundEvs 1 2 (trnd 1) (trnd 2) blk1.key b1 ++ [(1, .marshal 0), (1, .write 0), (2, .marshal 0), (2, .restart)] ++
  roundEvs 3 2 (trnd 3) (trnd 5) blk1.key b1x

/-- C66 (full statement) is false: in an honest 2-of-3 cluster, with a correctly dealt key, one process killed once, after
answering and before its background write, is enough for two valid full signatures over different blocks at one height,
round and step. -/
theorem C66_fails : ∃ tr c sig sig', Lives ftoy fcfg (fun _ _ _ => True) fboot tr c ∧
    (tr.filter fun e => e.ev = .restart).map (·.node) = [2] ∧
    FullSignatureEver ftoy 3 2 ∅ tr (fsc 42) b1 sig ∧ FullSignatureEver ftoy 3 2 ∅ tr (fsc 42) b1x sig' ∧
    ftoy.verify (fsc 42) b1 sig = true ∧ ftoy.verify (fsc 42) b1x sig' = true ∧
    unpackHRST b1 = .ok ⟨7, 1, 3, 1600000000000000005⟩ ∧ unpackHRST b1x = .ok ⟨7, 1, 3, 1600000000000000005⟩ ∧
    ¬ DifferOnlyByTime 3 b1 b1x := by
  have hr := lexec_run (C := ftoy) (cfg := fcfg) (ok := fun _ _ _ => True) (q := fun _ _ => true)
    (fun _ _ _ _ => trivial) (.nil (c0 := fboot)) badLives (by decide +kernel)
  obtain ⟨s1, h1⟩ := isOkSig_spec (o := assemble ftoy 2 (fsc 42) b1
    ((List.range 3).map fun i => if i + 1 ∈ [1, 2] then (shareOver (lexec ftoy fcfg fboot [] badLives).1 (i + 1) b1).1 else [])
      (shareOver (lexec ftoy fcfg fboot [] badLives).1 1 b1).2) (by decide +kernel)
  obtain ⟨s2, h2⟩ := isOkSig_spec (o := assemble ftoy 2 (fsc 42) b1x
    ((List.range 3).map fun i => if i + 1 ∈ [2, 3] then (shareOver (lexec ftoy fcfg fboot [] badLives).1 (i + 1) b1x).1 else [])
      (shareOver (lexec ftoy fcfg fboot [] badLives).1 3 b1x).2) (by decide +kernel)
  have hv : ∀ bs shares eph sig, assemble ftoy 2 (fsc 42) bs shares eph = .ok sig → ftoy.verify (fsc 42) bs sig = true := by
    intro bs shares eph sig h
    unfold assemble at h
    simp only at h
    split at h
    · cases h
    · split at h
      · next hok => cases h; exact hok
      · cases h
  refine ⟨_, _, _, _, hr, by decide +kernel, fullSignature_of _ _ h1, fullSignature_of _ _ h2, hv _ _ _ _ h1, hv _ _ _ _ h2,
    unpack_b1, unpack_b1x, fun hd => ?_⟩
  have hn : onlyDifferByTimestamp 3 b1 b1x ≠ none := by decide +kernel
  exact hn ((onlyDiffer_iff 3 b1 b1x).2 hd)

end Horcrux
