import Verif.Lemmas.Cluster
import Verif.Props.Cosigner
/-
Property C24: no conflicting full signatures.
-/
namespace Horcrux
open Spec

/-- In the history `tr`, cosigner `i` released a share signature over `bs`. -/
def Released (tr : List ClusterEv) (i : Nat) (bs : Bytes) : Prop :=
  ∃ r, (⟨i, .sign bs, .ok (.signed r)⟩ : ClusterEv) ∈ tr

/-- In the history `tr` some leader obtained the full signature `sig` over `bs` (`threshold_validator.go:405-453`): it
combined an array with one entry per cosigner `1..n` in which the non-empty entry of a cosigner outside `faulty` is a
share signature over `bs` released by that cosigner. Nothing is assumed about entries of faulty cosigners. -/
def FullSignature (C : Crypto) (n t : Nat) (faulty : Finset Nat) (tr : List ClusterEv) (bs sig : Bytes) : Prop :=
  ∃ (pub eph : Bytes) (shares : List Bytes), shares.length = n ∧
    (∀ (i : Nat) (b : Bytes), shares[i]? = some b → b.length ≠ 0 → i + 1 ∉ faulty →
      ∃ r, (⟨i + 1, .sign bs, .ok (.signed r)⟩ : ClusterEv) ∈ tr ∧ r.signature.bytes = b) ∧
    assemble C t pub bs shares eph = .ok sig

/-- C24 in general: with `n` cosigners of which at most `f` are faulty (arbitrary behaviour) and `2t > n + f`, in any
joint run of the others from any states, under any schedule and any number of leaders, two blocks at the same height,
round and step that each got share signatures from `t` cosigners are the same up to the timestamp. -/
theorem C24_quorum (C : Crypto) (cfg : Nat → CosignerCfg) (n t f : Nat) (h : n + f < 2 * t) (faulty : Finset Nat)
    (hf : faulty.card ≤ f) (c c' : Cluster) (tr : List ClusterEv) (hrun : Cluster.Run C cfg c tr c')
    (hstart : ∀ i, 1 ≤ i → i ≤ n → i ∉ faulty → c i ≠ none)
    (bs bs' : Bytes) (k k' : HRST) (hu : unpackHRST bs = .ok k) (hu' : unpackHRST bs' = .ok k')
    (hsame : k.height = k'.height ∧ k.round = k'.round ∧ k.step = k'.step)
    (S S' : Finset Nat) (hS : S ⊆ Finset.Icc 1 n) (hS' : S' ⊆ Finset.Icc 1 n)
    (hc : t ≤ S.card) (hc' : t ≤ S'.card) (hr : ∀ i ∈ S, i ∉ faulty → Released tr i bs)
    (hr' : ∀ i ∈ S', i ∉ faulty → Released tr i bs') :
    DifferOnlyByTime k.step bs bs' := by
  obtain ⟨i, h1, h2, h3⟩ := quorum_intersect n t f h S S' faulty hS hS' hf hc hc'
  have hi := Finset.mem_Icc.1 (hS h1)
  obtain ⟨s, hs⟩ := Option.ne_none_iff_exists'.1 (hstart i hi.1 hi.2 h3)
  obtain ⟨t', s', hrun', hmem⟩ := cluster_proj hrun hs
  obtain ⟨r, hr1⟩ := hr i h1 h3
  obtain ⟨r', hr2⟩ := hr' i h2 h3
  exact C10_no_conflict C (cfg i) s s' t' hrun' bs bs' r r' k k'
    (hmem _ hr1 rfl (by simp)) (hmem _ hr2 rfl (by simp)) hu hu' hsame

/-- C24 in terms of the signatures leaders obtain: at one height, round and step, any two full signatures of a joint
run are over sign bytes that differ only by timestamp. -/
theorem C24_full_signatures (C : Crypto) (cfg : Nat → CosignerCfg) (n t f : Nat) (h : n + f < 2 * t)
    (faulty : Finset Nat) (hf : faulty.card ≤ f) (c c' : Cluster) (tr : List ClusterEv)
    (hrun : Cluster.Run C cfg c tr c') (hstart : ∀ i, 1 ≤ i → i ≤ n → i ∉ faulty → c i ≠ none)
    (bs bs' sig sig' : Bytes) (k k' : HRST) (hu : unpackHRST bs = .ok k) (hu' : unpackHRST bs' = .ok k')
    (hsame : k.height = k'.height ∧ k.round = k'.round ∧ k.step = k'.step)
    (hfull : FullSignature C n t faulty tr bs sig) (hfull' : FullSignature C n t faulty tr bs' sig') :
    DifferOnlyByTime k.step bs bs' := by
  have key : ∀ b s, FullSignature C n t faulty tr b s → ∃ S : Finset Nat, S ⊆ Finset.Icc 1 n ∧ t ≤ S.card ∧
      ∀ i ∈ S, i ∉ faulty → Released tr i b := by
    rintro b s ⟨pub, eph, shares, hl, hrel, has⟩
    obtain ⟨hnd, hids⟩ := collectSigs_ids shares 0
    refine ⟨(collectSigs 0 shares).1.toFinset, ?_, ?_, ?_⟩
    · intro i hi
      obtain ⟨h1, x, h2, _⟩ := hids i (List.mem_toFinset.1 hi)
      have := (List.getElem?_eq_some_iff.1 h2).1
      rw [Finset.mem_Icc]; omega
    · rw [List.toFinset_card_of_nodup hnd]
      unfold assemble at has
      simp only at has
      split at has
      · cases has
      · next hlt => exact_mod_cast Int.not_lt.1 hlt
    · intro i hi hnf
      obtain ⟨h1, x, h2, h3⟩ := hids i (List.mem_toFinset.1 hi)
      rw [Nat.sub_zero] at h2
      obtain ⟨r, hr, _⟩ := hrel (i - 1) x h2 h3 (by rwa [Nat.sub_add_cancel h1])
      rw [Nat.sub_add_cancel h1] at hr
      exact ⟨r, hr⟩
  obtain ⟨S, a1, a2, a3⟩ := key bs sig hfull
  obtain ⟨S', b1, b2, b3⟩ := key bs' sig' hfull'
  exact C24_quorum C cfg n t f h faulty hf c c' tr hrun hstart bs bs' k k' hu hu' hsame S S' a1 b1 a2 b2 a3 b3

/-- C24 as stated, with no faulty cosigner: `2t > n`. -/
theorem C24_no_conflict (C : Crypto) (cfg : Nat → CosignerCfg) (n t : Nat) (h : n < 2 * t) (c c' : Cluster)
    (tr : List ClusterEv) (hrun : Cluster.Run C cfg c tr c') (hstart : ∀ i, 1 ≤ i → i ≤ n → c i ≠ none)
    (bs bs' sig sig' : Bytes) (k k' : HRST) (hu : unpackHRST bs = .ok k) (hu' : unpackHRST bs' = .ok k')
    (hsame : k.height = k'.height ∧ k.round = k'.round ∧ k.step = k'.step)
    (hfull : FullSignature C n t ∅ tr bs sig) (hfull' : FullSignature C n t ∅ tr bs' sig') :
    DifferOnlyByTime k.step bs bs' :=
  C24_full_signatures C cfg n t 0 (by omega) ∅ (by simp) c c' tr hrun (fun i h1 h2 _ => hstart i h1 h2)
    bs bs' sig sig' k k' hu hu' hsame hfull hfull'

/-- Run a list of operations on a cluster. -/
def execCluster (C : Crypto) (cfg : Nat → CosignerCfg) (c : Cluster) : List (Nat × CosOp) → List ClusterEv × Cluster
  | [] => ([], c)
  | (i, op) :: ops =>
    match c i with
    | none => execCluster C cfg c ops
    | some s =>
      let r := s.step C (cfg i) op
      let rest := execCluster C cfg (fun j => if j = i then (if r.1 = .panic then none else some r.2) else c j) ops
      (⟨i, op, r.1⟩ :: rest.1, rest.2)

theorem execCluster_run (C : Crypto) (cfg : Nat → CosignerCfg) (ops : List (Nat × CosOp)) (c : Cluster) :
    Cluster.Run C cfg c (execCluster C cfg c ops).1 (execCluster C cfg c ops).2 := by
  induction ops generalizing c with
  | nil => exact .nil _
  | cons x ops ih =>
    obtain ⟨i, op⟩ := x
    unfold execCluster
    cases hi : c i with
    | none => simp only; exact ih c
    | some s =>
      simp only
      exact .cons hi rfl (ih _)

/-- Three cosigners with threshold 2: all hand out parts, 1 and 2 sign `b1`, 3 and 1 sign the re-timed `b2`, while 3
aborts on a malformed request in the end. -/
def clusterDemo : List ClusterEv × Cluster :=
  execCluster toy (fun i => { toyCfg with id := i, total := 3 }) (fun _ => some toyStart)
    [(1, .getPart get1 (toyRnd 1)), (2, .getPart { get1 with id := 1 } (toyRnd 2)), (1, .getPart get2 (toyRnd 3)),
     (3, .getPart { get2 with id := 1 } (toyRnd 4)), (1, .sign b1), (2, .sign b1), (3, .sign b2), (1, .sign b2),
     (3, .sign [2, 34, 0])]

/-- Whether event `j` is a release of a non-empty share signature over `bs` by cosigner `i`; the signature. -/
def relSig (tr : List ClusterEv) (j i : Nat) (bs : Bytes) : Bytes :=
  match tr[j]? with
  | some ⟨i', .sign bs', .ok (.signed r)⟩ => if i' = i ∧ bs' = bs then r.signature.bytes else []
  | _ => []

theorem relSig_spec {tr : List ClusterEv} {j i : Nat} {bs b : Bytes} (h : relSig tr j i bs = b) (hb : b.length ≠ 0) :
    ∃ r, (⟨i, .sign bs, .ok (.signed r)⟩ : ClusterEv) ∈ tr ∧ r.signature.bytes = b := by
  unfold relSig at h
  split at h
  · next heq =>
    split at h
    · next hc =>
      obtain ⟨rfl, rfl⟩ := hc
      exact ⟨_, List.mem_of_getElem? heq, h⟩
    · subst h; simp at hb
  · subst h; simp at hb

/-- The hypotheses of C24 are met by two different full signatures, over `b1` and `b2`. -/
example : ∃ sig sig', FullSignature toy 3 2 ∅ clusterDemo.1 b1 sig ∧ FullSignature toy 3 2 ∅ clusterDemo.1 b2 sig' ∧
    b1 ≠ b2 ∧ DifferOnlyByTime 3 b1 b2 := by
  have hrun : Cluster.Run toy (fun i => { toyCfg with id := i, total := 3 }) (fun _ => some toyStart)
      clusterDemo.1 clusterDemo.2 := execCluster_run _ _ _ _
  have h1 : FullSignature toy 3 2 ∅ clusterDemo.1 b1
      (toy.combineShares 3 [1, 2] [relSig clusterDemo.1 4 1 b1, relSig clusterDemo.1 5 2 b1]) := by
    refine ⟨[], [], [relSig clusterDemo.1 4 1 b1, relSig clusterDemo.1 5 2 b1, []], rfl, ?_, by decide +kernel⟩
    rintro (_ | _ | _ | i) b hb hl _
    · exact relSig_spec (j := 4) (Option.some.inj hb) hl
    · exact relSig_spec (j := 5) (Option.some.inj hb) hl
    · exact absurd (Option.some.inj hb) (by rintro rfl; simp at hl)
    · simp at hb
  have h2 : FullSignature toy 3 2 ∅ clusterDemo.1 b2
      (toy.combineShares 3 [1, 3] [relSig clusterDemo.1 7 1 b2, relSig clusterDemo.1 6 3 b2]) := by
    refine ⟨[], [], [relSig clusterDemo.1 7 1 b2, [], relSig clusterDemo.1 6 3 b2], rfl, ?_, by decide +kernel⟩
    rintro (_ | _ | _ | i) b hb hl _
    · exact relSig_spec (j := 7) (Option.some.inj hb) hl
    · exact absurd (Option.some.inj hb) (by rintro rfl; simp at hl)
    · exact relSig_spec (j := 6) (Option.some.inj hb) hl
    · simp at hb
  exact ⟨_, _, h1, h2, by decide +kernel, C24_no_conflict toy _ 3 2 (by decide) _ _ _ hrun (by simp) b1 b2 _ _ _ _
    unpack_b1 unpack_b2 ⟨rfl, rfl, rfl⟩ h1 h2⟩

/-- The bound is needed: with `n = 2`, `t = 1` two conflicting full signatures are possible. -/
example : ∃ (tr : List ClusterEv) (c' : Cluster) (bs bs' sig sig' : Bytes),
    Cluster.Run toy (fun i => { toyCfg with id := i }) (fun _ => some toyStart) tr c' ∧
    FullSignature toy 2 1 ∅ tr bs sig ∧ FullSignature toy 2 1 ∅ tr bs' sig' ∧
    unpackHRST bs = .ok ⟨7, 1, 3, 1600000000000000005⟩ ∧ unpackHRST bs' = .ok ⟨7, 1, 3, 1600000000000000005⟩ ∧
    onlyDifferByTimestamp 3 bs bs' = some .differingBlockIDs := by
  let bs' := bytesOf (voteSignBytes [97] { vote1 with blockID := ⟨List.replicate 32 6, 1, List.replicate 32 6⟩ })
  let d := execCluster toy (fun i => { toyCfg with id := i }) (fun _ => some toyStart)
    [(1, .getPart get1 (toyRnd 1)), (2, .getPart { get1 with id := 1 } (toyRnd 2)), (1, .sign b1), (2, .sign bs')]
  refine ⟨d.1, d.2, b1, bs', relSig d.1 2 1 b1, relSig d.1 3 2 bs', execCluster_run _ _ _ _, ?_, ?_, unpack_b1,
    by decide +kernel, by decide +kernel⟩
  · refine ⟨[], [], [relSig d.1 2 1 b1, []], rfl, ?_, by decide +kernel⟩
    rintro (_ | _ | i) b hb hl _
    · exact relSig_spec (j := 2) (Option.some.inj hb) hl
    · exact absurd (Option.some.inj hb) (by rintro rfl; simp at hl)
    · simp at hb
  · refine ⟨[], [], [[], relSig d.1 3 2 bs'], rfl, ?_, by decide +kernel⟩
    rintro (_ | _ | i) b hb hl _
    · exact absurd (Option.some.inj hb) (by rintro rfl; simp at hl)
    · exact relSig_spec (j := 3) (Option.some.inj hb) hl
    · simp at hb

end Horcrux
