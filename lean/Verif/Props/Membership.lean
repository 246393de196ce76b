import Verif.Spec.Membership
import Verif.Lemmas.Raft
import Verif.Lemmas.KeyFile
import Verif.Props.Start
/-
Properties C68 and C69: who takes part in raft, and `elect`.
-/
namespace Horcrux
open Spec

theorem raftAddr_eq (urlHost : Str → Option Str) (u : Str) : raftAddr urlHost u = (urlHost u).getD u := by
  unfold raftAddr
  cases urlHost u <;> rfl

theorem decInt_ne_nil (x : Int) : decInt x ≠ [] := by
  have := (decNat_spec x.natAbs).1
  unfold decInt
  split
  · simp
  · exact this

/-! ### C68 -/

/-- C68: if the configurations agree, every node bootstraps with the same servers: one voter for each cosigner, under its
ID and the host of the URL it listens on. -/
theorem C68_members (urlHost : Str → Option Str) (n : Nat) (url : Nat → Str) (cfgs : Nat → CosignerConfig)
    (h : Agree n url cfgs) (i : Nat) (h1 : 1 ≤ i) (hn : i ≤ n) :
    (bootServers urlHost i (cfgs i)).Perm (members urlHost n url) := by
  obtain ⟨hl, hp⟩ := h i h1 hn
  unfold bootServers members
  have e1 := hp.map fun p : CosignerPeer => (⟨true, decInt p.shareID, raftAddr urlHost p.p2pAddr⟩ : Server)
  rw [List.map_map] at e1
  have e2 : (List.range' 1 n).Perm (i :: (List.range' 1 n).filter fun j => j ≠ i) := by
    have hm : i ∈ List.range' 1 n := List.mem_range'_1.2 ⟨h1, by omega⟩
    have := List.perm_cons_erase hm
    rw [List.Nodup.erase_eq_filter List.nodup_range'] at this
    refine this.trans (List.Perm.of_eq (congrArg (i :: ·) (List.filter_congr fun j _ => ?_)))
    simp [bne, Bool.beq_eq_decide_eq]
  have e3 := (e2.map fun j : Nat => (⟨true, decInt j, (urlHost (url j)).getD (url j)⟩ : Server)).symm
  refine List.Perm.trans ?_ e3
  rw [List.map_cons, hl, raftAddr_eq]
  refine List.Perm.cons _ (e1.trans (List.Perm.of_eq (List.map_congr_left fun j _ => ?_)))
  simp only [Function.comp, raftAddr_eq]

theorem configOk_perm {a b : List Server} (h : a.Perm b) : configOk a = configOk b := by
  have : configOk a = true ↔ configOk b = true := by
    rw [configOk_iff, configOk_iff, (h.map (·.id)).nodup_iff, (h.map (·.addr)).nodup_iff]
    simp only [h.mem_iff]
  exact Bool.eq_iff_iff.2 this

/-- C68, partial: if the configurations agree and the hosts are distinct and not empty, every node that starts for the
first time gets a raft configuration with exactly the configured cosigners, the same on all nodes. Missing: hosts that
are empty or occur twice, a node that lists itself, and nodes with a raft directory; see the theorems below. -/
theorem C68_partial (urlHost : Str → Option Str) (n : Nat) (hn : n < 2 ^ 63) (url : Nat → Str) (cfgs : Nat → CosignerConfig)
    (h : Agree n url cfgs) (hne : ∀ j, 1 ≤ j → j ≤ n → (urlHost (url j)).getD (url j) ≠ [])
    (hinj : ∀ j k, 1 ≤ j → j ≤ n → 1 ≤ k → k ≤ n → (urlHost (url j)).getD (url j) = (urlHost (url k)).getD (url k) → j = k)
    (i : Nat) (h1 : 1 ≤ i) (h2 : i ≤ n) :
    ∃ c, bootstrap none (bootServers urlHost i (cfgs i)) = some c ∧ c.Perm (members urlHost n url) := by
  have hp := C68_members urlHost n url cfgs h i h1 h2
  refine ⟨_, ?_, hp⟩
  have hok : configOk (members urlHost n url) = true := by
    rw [configOk_iff]
    unfold members
    simp only [List.mem_map, List.mem_range'_1, List.map_map]
    refine ⟨?_, ?_, ?_, ?_⟩
    · rintro s ⟨j, hj, rfl⟩
      exact ⟨show decInt (j : Int) ≠ [] from decInt_ne_nil _, hne j hj.1 (by omega)⟩
    · refine List.Nodup.map_on ?_ List.nodup_range'
      intro j hj k hk e
      rw [List.mem_range'_1] at hj hk
      have := decInt_inj (a := j) (b := k) ⟨by omega, by omega⟩ ⟨by omega, by omega⟩ e
      omega
    · refine List.Nodup.map_on ?_ List.nodup_range'
      intro j hj k hk e
      rw [List.mem_range'_1] at hj hk
      exact hinj j k hj.1 (by omega) hk.1 (by omega) e
    · exact ⟨_, ⟨i, ⟨h1, by omega⟩, rfl⟩, rfl⟩
  unfold bootstrap
  rw [configOk_perm hp, hok]
  rfl

/-- C68, partial: exactly when a first start from an accepted configuration gives a raft configuration: the node does not
list itself, and the hosts of all URLs are distinct and not empty. -/
theorem C68_accepted_partial (lib : Lib) (urlHost : Str → Option Str) (cfg : Config) (key : CosignerKey) (cc : CosignerCfg)
    (c : CosignerConfig) (hs : startCfg lib cfg key = some cc) (hc : cfg.cosigner = some c) (hkey : IsI64 key.id)
    (hids : ∀ p ∈ c.peers, IsI64 p.shareID) :
    (∃ r, bootstrap none (bootServers urlHost key.id c) = some r) ↔
      ((∀ p ∈ c.peers, p.shareID ≠ key.id) ∧
        (c.p2pListen :: c.peers.map (·.p2pAddr)).Pairwise
          (fun u v => (urlHost u).getD u ≠ (urlHost v).getD v) ∧
        ∀ u ∈ c.p2pListen :: c.peers.map (·.p2pAddr), (urlHost u).getD u ≠ []) := by
  obtain ⟨c', hacc, -⟩ := startCfg_spec hs
  have hcc : c' = c := Option.some.inj (hacc.1.symm.trans hc)
  subst hcc
  have hdup : (c'.peers.map (·.shareID)).Nodup :=
    ((validateCosignerPeers_iff _ _).1 ((accepted_iff lib cfg c').1 hacc).2.2.2.2.2.1).1
  have hboot : (∃ r, bootstrap none (bootServers urlHost key.id c') = some r) ↔
      configOk (bootServers urlHost key.id c') = true := by
    unfold bootstrap
    by_cases h : configOk (bootServers urlHost key.id c') = true <;> simp [h]
  rw [hboot, configOk_iff]
  unfold bootServers
  simp only [List.map_cons, List.map_map, List.nodup_cons, List.mem_cons, forall_eq_or_imp, List.mem_map,
    Function.comp, forall_exists_index, and_imp, forall_apply_eq_imp_iff₂, List.pairwise_cons, raftAddr_eq,
    exists_eq_or_imp, true_or, and_true]
  have hidn : (c'.peers.map ((fun x : Server => x.id) ∘ fun p =>
      ⟨true, decInt p.shareID, (urlHost p.p2pAddr).getD p.p2pAddr⟩)).Nodup := by
    have : (c'.peers.map ((fun x : Server => x.id) ∘ fun p =>
      ⟨true, decInt p.shareID, (urlHost p.p2pAddr).getD p.p2pAddr⟩)) = (c'.peers.map (·.shareID)).map decInt := by
      rw [List.map_map]; rfl
    rw [this]
    refine List.Nodup.map_on ?_ hdup
    intro a ha b hb e
    obtain ⟨p, hp, rfl⟩ := List.mem_map.1 ha
    obtain ⟨q, hq, rfl⟩ := List.mem_map.1 hb
    exact decInt_inj (hids p hp) (hids q hq) e
  have hpw : (c'.peers.map ((fun x : Server => x.addr) ∘ fun p =>
      ⟨true, decInt p.shareID, (urlHost p.p2pAddr).getD p.p2pAddr⟩)).Nodup ↔
      (c'.peers.map (·.p2pAddr)).Pairwise (fun u v => (urlHost u).getD u ≠ (urlHost v).getD v) := by
    rw [List.Nodup, List.pairwise_map, List.pairwise_map]
    rfl
  rw [hpw]
  constructor
  · rintro ⟨⟨a1, a2⟩, ⟨b1, -⟩, ⟨c1, c2⟩⟩
    refine ⟨fun p hp e => b1 ⟨p, hp, by rw [e]⟩, ⟨fun p hp e => c1 ⟨p, hp, e.symm⟩, c2⟩, a1.2, fun p hp => (a2 p hp).2⟩
  · rintro ⟨a, ⟨b1, b2⟩, c1, c2⟩
    refine ⟨⟨⟨decInt_ne_nil _, c1⟩, fun p hp => ⟨decInt_ne_nil _, c2 p hp⟩⟩, ⟨?_, hidn⟩, ⟨?_, b2⟩⟩
    · rintro ⟨p, hp, e⟩
      exact a p hp (decInt_inj (hids p hp) hkey e)
    · rintro ⟨p, hp, e⟩
      exact b1 p hp e.symm

example : ∃ cc c, startCfg demoLib demoConfig demoKey = some cc ∧ demoConfig.cosigner = some c ∧ IsI64 demoKey.id ∧
    (∀ p ∈ c.peers, IsI64 p.shareID) ∧
    bootstrap none (bootServers some demoKey.id c) =
      some [⟨true, [49], [108]⟩, ⟨true, [50], [97]⟩, ⟨true, [51], [98]⟩] :=
  ⟨_, _, rfl, rfl, by decide, by decide, by decide +kernel⟩

/-- The cosigners listen on `1` … `9`, and the host of an URL is the URL. -/
def demoUrl (j : Nat) : Str := [UInt8.ofNat (48 + j)]

/-- Agreeing configurations of three cosigners. -/
def demoCluster (i : Nat) : CosignerConfig :=
  ⟨2, 3, demoUrl i, ((List.range' 1 3).filter fun j : Nat => j ≠ i).map fun j : Nat => ⟨(j : Int), demoUrl j⟩, [49]⟩

example : Agree 3 demoUrl demoCluster ∧
    (∀ j, 1 ≤ j → j ≤ 3 → ((fun u => some u : Str → Option Str) (demoUrl j)).getD (demoUrl j) ≠ []) ∧
    bootstrap none (bootServers some 2 (demoCluster 2)) =
      some [⟨true, [50], [50]⟩, ⟨true, [49], [49]⟩, ⟨true, [51], [51]⟩] ∧
    members some 3 demoUrl = [⟨true, [49], [49]⟩, ⟨true, [50], [50]⟩, ⟨true, [51], [51]⟩] :=
  ⟨fun _ _ _ => ⟨rfl, .refl _⟩, fun _ _ _ => by simp [demoUrl], by decide +kernel, by decide +kernel⟩

/-- Three shares, with this node's ID among the peers. -/
def selfConfig : Config :=
  { demoConfig with cosigner := some ⟨2, 3, [108], [⟨1, [97]⟩, ⟨2, [98]⟩], [49]⟩ }

/-- C68 fails of the code when a node lists itself: the start is accepted, and the node silently gets no raft
configuration. -/
theorem C68_own_id_fails : ∃ cc c, startCfg demoLib selfConfig demoKey = some cc ∧ selfConfig.cosigner = some c ∧
    (∀ p ∈ c.peers, (some p.p2pAddr).getD p.p2pAddr ≠ []) ∧ (c.peers.map (·.p2pAddr)).Nodup ∧
    bootstrap none (bootServers some demoKey.id c) = none :=
  ⟨_, _, rfl, rfl, by decide +kernel, by decide +kernel, by decide +kernel⟩

/-- Three shares, two peers with one address. -/
def sameHostConfig : Config :=
  { demoConfig with cosigner := some ⟨2, 3, [108], [⟨2, [97]⟩, ⟨3, [97]⟩], [49]⟩ }

/-- C68 fails of the code when an address occurs twice: the start is accepted, and the node silently gets no raft
configuration. -/
theorem C68_same_host_fails : ∃ cc c, startCfg demoLib sameHostConfig demoKey = some cc ∧
    sameHostConfig.cosigner = some c ∧ (∀ p ∈ c.peers, p.shareID ≠ demoKey.id) ∧
    bootstrap none (bootServers some demoKey.id c) = none :=
  ⟨_, _, rfl, rfl, by decide +kernel, by decide +kernel⟩

/-- C68 fails of the code on a restart: whatever the configurations say by then, the node keeps the raft configuration
of its first start. -/
theorem C68_stored_fails (urlHost : Str → Option Str) (old : List Server) (id : Int) (c : CosignerConfig) :
    bootstrap (some old) (bootServers urlHost id c) = some old := rfl

/-- C68 fails of the code on a restart: the address of cosigner 3 changes in all three configurations, which agree before
and after, and node 1 still has the old address in its raft configuration. -/
theorem C68_stale_fails : ∃ (url url' : Nat → Str) (cfgs cfgs' : Nat → CosignerConfig) (r : List Server),
    Agree 3 url cfgs ∧ Agree 3 url' cfgs' ∧
    bootstrap none (bootServers some 1 (cfgs 1)) = some r ∧
    bootstrap (some r) (bootServers some 1 (cfgs' 1)) = some r ∧ ¬ r.Perm (members some 3 url') := by
  let url' : Nat → Str := fun j => if j = 3 then [97] else demoUrl j
  refine ⟨demoUrl, url', demoCluster,
    fun i => ⟨2, 3, url' i, ((List.range' 1 3).filter fun j : Nat => j ≠ i).map fun j : Nat => ⟨(j : Int), url' j⟩, [49]⟩,
    [⟨true, [49], [49]⟩, ⟨true, [50], [50]⟩, ⟨true, [51], [51]⟩],
    fun _ _ _ => ⟨rfl, .refl _⟩, fun _ _ _ => ⟨rfl, .refl _⟩, by decide +kernel, rfl, ?_⟩
  intro h
  have : (⟨true, [51], [51]⟩ : Server) ∈ members some 3 url' := h.mem_iff.1 (by simp)
  revert this
  decide +kernel

/-! ### C69 -/

theorem transferLoop_eq (urlHost : Str → Option Str) (l : Bytes) (peers : List CosignerPeer) :
    transferLoop urlHost l peers = (peers.find? fun p => decInt p.shareID = l).map
      fun p => (l, (urlHost p.p2pAddr).getD p.p2pAddr) := by
  induction peers with
  | nil => rfl
  | cons p ps ih =>
    rw [transferLoop, List.find?_cons]
    by_cases h : decInt p.shareID = l
    · simp [h, raftAddr_eq]
    · simp [h, ih]

/-- C69, partial: `elect` with the ID of a cosigner listed by the leader asks raft to hand over to that cosigner, at the
host of its URL, and the answer names it. Missing: all other arguments; see `C69_fails`. -/
theorem C69_partial (urlHost : Str → Option Str) (peers : List CosignerPeer) (p : CosignerPeer)
    (hids : ∀ q ∈ peers, IsI64 q.shareID) (hd : (peers.map (·.shareID)).Nodup) (hp : p ∈ peers) :
    transferLeadership urlHost peers (decInt p.shareID) =
      (.toServer (decInt p.shareID) ((urlHost p.p2pAddr).getD p.p2pAddr),
        (decInt p.shareID, (urlHost p.p2pAddr).getD p.p2pAddr)) := by
  unfold transferLeadership
  rw [if_pos (decInt_ne_nil _), transferLoop_eq]
  cases hf : peers.find? fun q => decide (decInt q.shareID = decInt p.shareID) with
  | none => simpa using List.find?_eq_none.1 hf p hp
  | some q =>
    have hq := List.mem_of_find?_eq_some hf
    have he := decInt_inj (hids q hq) (hids p hp) (by simpa using List.find?_some hf)
    have : q = p := List.inj_on_of_nodup_map hd hq hp he
    subst this
    rfl

/-- C69, partial: whatever the argument, a request for a particular server names that ID, and it is one the leader lists
with that host; the answer tells the same server. -/
theorem C69_exact_partial (urlHost : Str → Option Str) (peers : List CosignerPeer) (l : Bytes) (i a : Bytes)
    (h : (transferLeadership urlHost peers l).1 = .toServer i a) :
    i = l ∧ (transferLeadership urlHost peers l).2 = (i, a) ∧
      ∃ p ∈ peers, decInt p.shareID = l ∧ (urlHost p.p2pAddr).getD p.p2pAddr = a := by
  unfold transferLeadership at h ⊢
  rw [transferLoop_eq] at h ⊢
  cases hf : peers.find? fun q => decide (decInt q.shareID = l) with
  | none => rw [hf] at h; simp at h
  | some q =>
    rw [hf] at h
    by_cases hl : l = []
    · simp [hl] at h
    · simp only [ne_eq, hl, not_false_eq_true, if_true, Option.map_some, Transfer.toServer.injEq] at h ⊢
      obtain ⟨rfl, rfl⟩ := h
      exact ⟨rfl, rfl, q, List.mem_of_find?_eq_some hf, by simpa using List.find?_some hf, rfl⟩

/-- C69, partial: if the configurations agree, what raft is asked to hand over to is a voter of the raft configuration,
other than the leader. -/
theorem C69_member_partial (urlHost : Str → Option Str) (n : Nat) (hn : n < 2 ^ 63) (url : Nat → Str)
    (cfgs : Nat → CosignerConfig) (h : Agree n url cfgs) (i : Nat) (h1 : 1 ≤ i) (h2 : i ≤ n) (j : Nat) (h3 : 1 ≤ j)
    (h4 : j ≤ n) (hij : j ≠ i) :
    ∃ s ∈ members urlHost n url, s.voter = true ∧ s.id = decInt j ∧ s.addr = (urlHost (url j)).getD (url j) ∧
      (transferLeadership urlHost (cfgs i).peers (decInt j)).1 = .toServer s.id s.addr := by
  have hp := (h i h1 h2).2
  refine ⟨⟨true, decInt j, (urlHost (url j)).getD (url j)⟩, ?_, rfl, rfl, rfl, ?_⟩
  · exact List.mem_map.2 ⟨j, List.mem_range'_1.2 ⟨h3, by omega⟩, rfl⟩
  · have hm : (⟨(j : Int), url j⟩ : CosignerPeer) ∈ (cfgs i).peers :=
      hp.mem_iff.2 (List.mem_map.2 ⟨j, List.mem_filter.2 ⟨List.mem_range'_1.2 ⟨h3, by omega⟩, by simpa using hij⟩, rfl⟩)
    have hids : ∀ q ∈ (cfgs i).peers, IsI64 q.shareID := by
      intro q hq
      obtain ⟨k, hk, rfl⟩ := List.mem_map.1 (hp.mem_iff.1 hq)
      have := List.mem_range'_1.1 (List.mem_filter.1 hk).1
      exact ⟨by simp only []; omega, by simp only []; omega⟩
    have hd : ((cfgs i).peers.map (·.shareID)).Nodup := by
      rw [(hp.map (·.shareID)).nodup_iff, List.map_map]
      refine List.Nodup.map_on ?_ (List.Nodup.filter _ List.nodup_range')
      intro a _ b _ e
      exact Int.ofNat.inj e
    rw [C69_partial urlHost _ _ hids hd hm]

/-- C69: with no argument, raft is asked to hand over to any other server. -/
theorem C69_any_partial (urlHost : Str → Option Str) (peers : List CosignerPeer) :
    transferLeadership urlHost peers [] = (.toAny, ([], [])) := rfl

example : (transferLeadership some (demoCluster 1).peers [51]).1 = .toServer [51] [51] := by decide +kernel

/-- C69 fails of the code: when the argument is an ID that the leader does not list, among them its own, there is no
error, and raft is asked to hand over to any other server. -/
theorem C69_unlisted_fails (urlHost : Str → Option Str) (peers : List CosignerPeer) (l : Bytes)
    (h : ∀ p ∈ peers, decInt p.shareID ≠ l) : transferLeadership urlHost peers l = (.toAny, ([], [])) := by
  unfold transferLeadership
  rw [transferLoop_eq, List.find?_eq_none.2 (by simpa using h)]
  split <;> rfl

/-- C69 fails of the code: `elect 1` while cosigner 1 is the leader, in a cluster with agreeing configurations, asks raft
to move the leadership away from cosigner 1. -/
theorem C69_fails : ∃ (n : Nat) (url : Nat → Str) (cfgs : Nat → CosignerConfig), Agree n url cfgs ∧ 1 < n ∧
    (∃ c, bootstrap none (bootServers some 1 (cfgs 1)) = some c) ∧
    transferLeadership some (cfgs 1).peers (decInt 1) = (.toAny, ([], [])) :=
  ⟨3, demoUrl, demoCluster, fun _ _ _ => ⟨rfl, .refl _⟩, by decide, ⟨_, rfl⟩, by decide +kernel⟩

end Horcrux
