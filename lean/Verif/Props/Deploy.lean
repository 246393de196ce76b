import Verif.Lemmas.Mixed
import Verif.Props.KeyFile
import Verif.Props.Round
import Verif.Props.Start
/-
C61: a cluster set up with `create-shares` and matching configurations signs for the original key.
-/
namespace Horcrux
open Spec

theorem enterPeers_all {keys : List Bytes} : ∀ (ps : List CosignerPeer) (m : Int → Option Bytes),
    (∀ p ∈ ps, 1 ≤ p.shareID ∧ p.shareID ≤ keys.length) →
    ∃ m', enterPeers keys ps m = some m' ∧ ∀ i, m' i = if ∃ p ∈ ps, p.shareID = i then keys[(i - 1).toNat]? else m i
  | [], m, _ => ⟨m, rfl, fun i => by simp⟩
  | p :: ps, m, h => by
    obtain ⟨h1, h2⟩ := h p (by simp)
    have hk : keys[(p.shareID - 1).toNat]? = some keys[(p.shareID - 1).toNat] := List.getElem?_eq_getElem (by omega)
    obtain ⟨m', e1, e2⟩ := enterPeers_all ps (mapSet m p.shareID keys[(p.shareID - 1).toNat])
      (fun q hq => h q (by simp [hq]))
    refine ⟨m', ?_, fun i => ?_⟩
    · rw [enterPeers, if_neg (by omega)]
      simp only [hk, e1]
    · rw [e2 i]
      by_cases hi : ∃ q ∈ ps, q.shareID = i
      · rw [if_pos hi, if_pos (by obtain ⟨q, hq, he⟩ := hi; exact ⟨q, by simp [hq], he⟩)]
      · rw [if_neg hi]
        unfold mapSet
        by_cases hp : i = p.shareID
        · rw [if_pos hp, if_pos ⟨p, by simp, hp.symm⟩, hp, hk]
        · rw [if_neg hp, if_neg]
          rintro ⟨q, hq, he⟩
          rcases List.mem_cons.1 hq with rfl | hq
          · exact hp he.symm
          · exact hi ⟨q, hq, he⟩

/-- The configuration of cosigner `p` in a `t`-of-`n` cluster: accepted, with the threshold and all other cosigners as
peers. -/
def Spec.ClusterConfig (lib : Lib) (n t p : Nat) (conf : Config) : Prop :=
  validateCosignerConfig lib conf = .ok () ∧ ∃ c, conf.cosigner = some c ∧ c.threshold = t ∧
    (c.peers.map (·.shareID)).Perm (((List.range' 1 n).filter (· ≠ p)).map fun i : Nat => (i : Int))

/-- The setting of C61 and C124: if `create-shares file t n` (threshold and number of shares within a byte) is run on a key
whose public key matches, and cosigner `p` is started with the key file `p` and a configuration listing the others, with a
threshold `tc p`, then all of them start, and they hold the shares of the key split with threshold `t`. -/
theorem cluster_wired (R : RSACodec) (E : SplitEnv) {F G : Type} [Field F] [AddCommGroup G] [Module F G]
    (L : Lawful E.C F G) (pair : Bytes → Bytes → Prop) (hR : R.Lawful pair) (hrsa : LawfulRSA E.C pair)
    (hgen : GenOk pair E.gen) (readPriv : Bytes → Option PrivFile) (d : Dir) (file ts ns : Str) (t n : Nat)
    (ht : parseInt ts = some (t : Int)) (hn : parseInt ns = some (n : Int)) (h1t : 1 ≤ t) (htn : t ≤ n) (hn' : n ≤ 255)
    (content : Bytes) (hf : d.files file = some content) (pv : PrivFile) (hpv : readPriv content = some pv)
    (priv : Bytes) (hpriv : pv.priv = some priv) (hlen : 32 ≤ priv.length) (hpub : pv.pub.Sized)
    (hexp : (E.expand (priv.take 32)).length = 32)
    (hmatch : pv.pub.raw = L.pt (L.val (E.expand (priv.take 32)) • L.B))
    (hw : ∀ i : Nat, 1 ≤ i → i ≤ n → d.writable (keyFileName i) = true)
    (lib : Lib) (conf : Nat → Config) (tc : Nat → Nat) (h1c : ∀ p, 1 ≤ p → p ≤ n → 1 ≤ tc p)
    (hcn : ∀ p, 1 ≤ p → p ≤ n → tc p ≤ n) (hconf : ∀ p, 1 ≤ p → p ≤ n → ClusterConfig lib n (tc p) p (conf p)) :
    ∃ d' cfg rsaPub, createSharesCmd R E readPriv d [file, ts, ns] = (.done, d') ∧
      (∀ p : Nat, 1 ≤ p → p ≤ n → ∃ bs k, d'.files (keyFileName p) = some bs ∧ loadKey R bs = .ok k ∧
        startCfg lib (conf p) k.toKey = some (cfg p)) ∧
      Wired E.C L pair n tc cfg (shareOf (L.val (E.expand (priv.take 32))) (L.coeffs E.rand t))
        (L.val (E.expand (priv.take 32)) • L.B) rsaPub := by
  obtain ⟨d', share, h1, ⟨_, pubs, hpl, h2⟩, h3, h4, _⟩ := C54_recover R E L pair hR hgen readPriv d file ts ns t n ht hn
    h1t htn hn' content hf pv hpv priv hpriv hlen hpub hexp hw
  have key : ∀ p : Nat, ∃ cc : CosignerCfg, (1 ≤ p → p ≤ n → ∃ bs k rp, d'.files (keyFileName p) = some bs ∧
      loadKey R bs = .ok k ∧ startCfg lib (conf p) k.toKey = some cc ∧ cc.id = p ∧
      cc.shareKey = share p ∧ cc.pubKeyBytes = pv.pub.raw ∧ cc.total = n ∧ cc.threshold = tc p ∧
      pubs[p - 1]? = some rp ∧ pair rp cc.rsaKey ∧
      ∀ q : Nat, 1 ≤ q → q ≤ n → cc.peers (q : Int) = pubs[q - 1]?) := by
    intro p
    by_cases hp : 1 ≤ p ∧ p ≤ n
    · obtain ⟨bs, k, a1, a2, a3, a4, a5, a6, a7⟩ := h2 p hp.1 hp.2
      obtain ⟨bs', k', b1, b2, b3⟩ := h3 p hp.1 hp.2
      rw [a1] at b1; cases b1
      rw [a2] at b2; cases b2
      obtain ⟨hv, c, c1, c2, c3⟩ := hconf p hp.1 hp.2
      have hmem : ∀ i : Int, (∃ x ∈ c.peers, x.shareID = i) ↔ ∃ q : Nat, 1 ≤ q ∧ q ≤ n ∧ q ≠ p ∧ (q : Int) = i := by
        intro i
        have := c3.mem_iff (a := i)
        simp only [List.mem_map, List.mem_filter, List.mem_range'_1, decide_eq_true_eq] at this
        rw [this]
        constructor
        · rintro ⟨q, ⟨hq, hne⟩, he⟩; exact ⟨q, hq.1, by omega, by simpa using hne, he⟩
        · rintro ⟨q, e1, e2, e3, e4⟩; exact ⟨q, ⟨⟨e1, by omega⟩, by simpa using e3⟩, e4⟩
      have hlen' : c.peers.length + 1 = n := by
        have := c3.length_eq
        simp only [List.length_map] at this
        rw [this]
        have hf : (List.range' 1 n).filter (fun x => decide (x ≠ p)) = (List.range' 1 n).erase p := by
          rw [List.Nodup.erase_eq_filter List.nodup_range']
          refine List.filter_congr fun x _ => ?_
          by_cases hx : x = p <;> simp [hx]
        rw [hf, List.length_erase_of_mem (by rw [List.mem_range'_1]; omega), List.length_range']
        omega
      obtain ⟨m', m1, m2⟩ := enterPeers_all (keys := pubs) c.peers (mapSet (fun _ => none) k.id k.rsaPub) (by
        intro x hx
        obtain ⟨q, e1, e2, _, e4⟩ := (hmem x.shareID).1 ⟨x, hx, rfl⟩
        omega)
      refine ⟨⟨k.id, k.shareKey.bytes, k.pubKey.raw, k.rsaKey, u8 (c.peers.length + 1), u8 c.threshold, m'⟩,
        fun _ _ => ⟨bs, k, k.rsaPub, a1, a2, ?_, a3, ?_, ?_, ?_, ?_, a6, a7, ?_⟩⟩
      · unfold startCfg
        rw [hv, c1]
        simp only [KeyFile.toKey, a5, m1]
      · show k.shareKey.bytes = _; rw [b3]; rfl
      · show k.pubKey.raw = _; rw [a4]
      · show u8 ((c.peers.length : Int) + 1) = n; unfold u8; omega
      · show u8 c.threshold = tc p; rw [c2]; have := hcn p hp.1 hp.2; unfold u8; omega
      · intro q hq1 hq2
        show m' q = _
        rw [m2 q]
        by_cases hqp : q = p
        · subst hqp
          rw [if_neg (by rw [hmem]; rintro ⟨q', _, _, e3, e4⟩; omega), mapSet, if_pos a3.symm, a6]
        · rw [if_pos ((hmem q).2 ⟨q, hq1, hq2, hqp, rfl⟩)]
          congr 1
          omega
    · exact ⟨⟨0, [], [], [], 0, 0, fun _ => none⟩, fun h h' => absurd ⟨h, h'⟩ hp⟩
  choose cfg hcfg using key
  refine ⟨d', cfg, fun p => pubs.getD (p - 1) [], h1, ?_, ?_⟩
  · intro p hp1 hp2
    obtain ⟨bs, k, _, e1, e2, e3, _⟩ := hcfg p hp1 hp2
    exact ⟨bs, k, e1, e2, e3⟩
  · refine ⟨hrsa, h1c, hcn, hn', ?_, ?_, ?_, ?_, ?_, ?_, ?_⟩
    · intro p hp1 hp2; obtain ⟨_, _, _, _, _, _, e, _⟩ := hcfg p hp1 hp2; exact e
    · intro p hp1 hp2; obtain ⟨_, _, _, _, _, _, _, e, _⟩ := hcfg p hp1 hp2; rw [e, h4 p hp1 hp2]
    · intro p hp1 hp2; obtain ⟨_, _, _, _, _, _, _, _, e, _⟩ := hcfg p hp1 hp2; rw [e, hmatch]
    · intro p hp1 hp2; obtain ⟨_, _, _, _, _, _, _, _, _, e, _⟩ := hcfg p hp1 hp2; exact e
    · intro p hp1 hp2; obtain ⟨_, _, _, _, _, _, _, _, _, _, e, _⟩ := hcfg p hp1 hp2; exact e
    · intro p hp1 hp2
      obtain ⟨_, _, rp, _, _, _, _, _, _, _, _, e, e', _⟩ := hcfg p hp1 hp2
      rw [List.getD_eq_getElem?_getD, e]
      exact e'
    · intro p q hp1 hp2 hq1 hq2
      obtain ⟨_, _, _, _, _, _, _, _, _, _, _, _, _, e⟩ := hcfg p hp1 hp2
      rw [e q hq1 hq2, List.getD_eq_getElem?_getD, List.getElem?_eq_getElem (by omega)]
      rfl

/-- C61, the setting: the same with the threshold of the dealing in the configurations. -/
theorem cluster_setup (R : RSACodec) (E : SplitEnv) {F G : Type} [Field F] [AddCommGroup G] [Module F G]
    (L : Lawful E.C F G) (pair : Bytes → Bytes → Prop) (hR : R.Lawful pair) (hrsa : LawfulRSA E.C pair)
    (hgen : GenOk pair E.gen) (readPriv : Bytes → Option PrivFile) (d : Dir) (file ts ns : Str) (t n : Nat)
    (ht : parseInt ts = some (t : Int)) (hn : parseInt ns = some (n : Int)) (h1t : 1 ≤ t) (htn : t ≤ n) (hn' : n ≤ 255)
    (content : Bytes) (hf : d.files file = some content) (pv : PrivFile) (hpv : readPriv content = some pv)
    (priv : Bytes) (hpriv : pv.priv = some priv) (hlen : 32 ≤ priv.length) (hpub : pv.pub.Sized)
    (hexp : (E.expand (priv.take 32)).length = 32)
    (hmatch : pv.pub.raw = L.pt (L.val (E.expand (priv.take 32)) • L.B))
    (hw : ∀ i : Nat, 1 ≤ i → i ≤ n → d.writable (keyFileName i) = true)
    (lib : Lib) (conf : Nat → Config) (hconf : ∀ p, 1 ≤ p → p ≤ n → ClusterConfig lib n t p (conf p)) :
    ∃ d' cfg kc rsaPub, createSharesCmd R E readPriv d [file, ts, ns] = (.done, d') ∧
      (∀ p : Nat, 1 ≤ p → p ≤ n → ∃ bs k, d'.files (keyFileName p) = some bs ∧ loadKey R bs = .ok k ∧
        startCfg lib (conf p) k.toKey = some (cfg p)) ∧
      Setup E.C L pair n t cfg (L.val (E.expand (priv.take 32))) kc rsaPub := by
  obtain ⟨d', cfg, rsaPub, h1, h2, h3⟩ := cluster_wired R E L pair hR hrsa hgen readPriv d file ts ns t n ht hn h1t
    htn hn' content hf pv hpv priv hpriv hlen hpub hexp hmatch hw lib conf (fun _ => t) (fun _ _ _ => h1t) (fun _ _ _ => htn) hconf
  exact ⟨d', cfg, _, rsaPub, h1, h2, h3.padded (by omega) (le_of_eq (L.coeffs_length _ _ h1t))⟩

/-- C61: split a key with `create-shares file t n` (`n ≥ 2`, both within a byte), start cosigner `p` with key file `p` and
a configuration with threshold `t` and the others as peers. Whichever at least `t` of them take part in a round, whoever
leads, whatever the iteration orders and the randomness: if none of them has a record at or above the block nor nonce
material for it, they sign it, and the signature verifies under the original public key. -/
theorem C61_signs (R : RSACodec) (E : SplitEnv) {F G : Type} [Field F] [AddCommGroup G] [Module F G]
    (L : Lawful E.C F G) (pair : Bytes → Bytes → Prop) (hR : R.Lawful pair) (hrsa : LawfulRSA E.C pair)
    (hgen : GenOk pair E.gen) (readPriv : Bytes → Option PrivFile) (d : Dir) (file ts ns : Str) (t n : Nat)
    (ht : parseInt ts = some (t : Int)) (hn : parseInt ns = some (n : Int)) (h1t : 1 ≤ t) (htn : t ≤ n)
    (h2n : 2 ≤ n) (hn' : n ≤ 255)
    (content : Bytes) (hf : d.files file = some content) (pv : PrivFile) (hpv : readPriv content = some pv)
    (priv : Bytes) (hpriv : pv.priv = some priv) (hlen : 32 ≤ priv.length) (hpub : pv.pub.Sized)
    (hexp : (E.expand (priv.take 32)).length = 32)
    (hmatch : pv.pub.raw = L.pt (L.val (E.expand (priv.take 32)) • L.B))
    (hw : ∀ i : Nat, 1 ≤ i → i ≤ n → d.writable (keyFileName i) = true)
    (lib : Lib) (conf : Nat → Config) (hconf : ∀ p, 1 ≤ p → p ≤ n → ClusterConfig lib n t p (conf p)) :
    ∃ d' cfg, createSharesCmd R E readPriv d [file, ts, ns] = (.done, d') ∧
      (∀ p : Nat, 1 ≤ p → p ≤ n → ∃ bs k, d'.files (keyFileName p) = some bs ∧ loadKey R bs = .ok k ∧
        startCfg lib (conf p) k.toKey = some (cfg p)) ∧
      ∀ (ps : List Nat), ps.Nodup → (∀ p ∈ ps, 1 ≤ p ∧ p ≤ n) → t ≤ ps.length → ∀ leader ∈ ps,
      ∀ (k : HRST) (bs : Bytes), IsI64 k.timestamp → unpackHRST bs = .ok k →
      ∀ (order mapOrder : Nat → List Nat), (∀ p, (order p).Perm (List.range' 1 n)) → (∀ p, (mapOrder p).Perm ps) →
      ∀ (rnd1 rnd2 : Nat → Nat → Rand), (∀ p i, ∃ sec, (rnd1 p i).secret = some sec ∧ sec.length = 32) →
      ∀ (st : Nat → CState), (∀ p ∈ ps, (st p).lss.hrs ≺ k.hrs) → (∀ p ∈ ps, (st p).hrsMeta k = none) →
      ∃ sig st', signRound E.C cfg ps leader t n pv.pub.raw k bs
          (fun p => (order p).map (fun q : Nat => (q : Int))) mapOrder rnd1 rnd2 st = (.ok sig, st') ∧
        E.C.verify pv.pub.raw bs sig = true := by
  obtain ⟨d', cfg, kc, rsaPub, h1, h2, hS⟩ := cluster_setup R E L pair hR hrsa hgen readPriv d file ts ns t n ht hn h1t
    htn hn' content hf pv hpv priv hpriv hlen hpub hexp hmatch hw lib conf hconf
  refine ⟨d', cfg, h1, h2, ?_⟩
  intro ps hnd hps hlen' leader hleader k bs hk hu order mapOrder hord hmap rnd1 rnd2 hrnd st hlow hnew
  obtain ⟨sig, st', e1, e2, _⟩ := C21_round hS h2n ps hnd hps hlen' leader hleader k hk bs hu order hord mapOrder hmap
    rnd1 rnd2 hrnd st hlow hnew
  rw [hmatch]
  exact ⟨sig, st', e1, e2⟩

/-- The configuration of cosigner `p` of three, threshold 2. -/
def deployConf (p : Nat) : Config :=
  ⟨[], [], [99], some ⟨2, 3, [], ((List.range' 1 3).filter (· ≠ p)).map fun i : Nat => ⟨i, [97]⟩, []⟩, []⟩

theorem deployConf_ok (p : Nat) (h1 : 1 ≤ p) (h3 : p ≤ 3) : ClusterConfig demoLib 3 2 p (deployConf p) := by
  have : p = 1 ∨ p = 2 ∨ p = 3 := by omega
  rcases this with rfl | rfl | rfl <;> exact ⟨by decide, _, rfl, rfl, by decide⟩

/-- Concretely: the key 42 split 2-of-3; cosigners 3 and 1 sign the precommit `b1`, led by 3. -/
example : ∃ d' cfg, createSharesCmd toyCodec toySplit (fun _ => some toyPriv) toyDir [[107], [50], [51]] = (.done, d') ∧
    ∃ sig st', signRound ftoy cfg [3, 1] 3 2 3 (fsc 42) ⟨7, 1, 3, 1600000000000000005⟩ b1
      (fun _ => [2, 1, 3]) (fun _ => [1, 3]) (fun p _ => toyRnd (UInt8.ofNat p)) (fun _ _ => toyRnd 9)
      (fun _ => CState.start .empty) = (.ok sig, st') ∧ ftoy.verify (fsc 42) b1 sig = true := by
  have he : toySplit.expand ((fsc 42).take 32) = fsc 42 := by
    show (fsc 42).take 32 = _
    rw [List.take_of_length_le (by rw [fsc_length])]
  obtain ⟨d', cfg, h1, _, h3⟩ := C61_signs toyCodec toySplit ftoyLawful _ toyCodec_lawful ftoyRSA toySplit_gen
    (fun _ => some toyPriv) toyDir [107] [50] [51] 2 3 (by decide) (by decide) (by decide) (by decide) (by decide)
    (by decide) [] rfl toyPriv rfl (fsc 42) rfl (by rw [fsc_length]) (fsc_length _) (by rw [he, fsc_length])
    (by
      rw [he]
      show fsc 42 = fsc (fval (fsc 42) • (1 : ZMod 257))
      rw [fval_fsc', smul_eq_mul, mul_one])
    (fun _ _ _ => rfl) demoLib deployConf deployConf_ok
  refine ⟨d', cfg, h1, ?_⟩
  obtain ⟨sig, st', e1, e2⟩ := h3 [3, 1] (by decide) (by decide) (by decide) 3 (by decide)
    ⟨7, 1, 3, 1600000000000000005⟩ b1 (by decide) unpack_b1 (fun _ => [2, 1, 3]) (fun _ => [1, 3])
    (fun _ => by decide) (fun _ => by decide) (fun p _ => toyRnd (UInt8.ofNat p)) (fun _ _ => toyRnd 9)
    (fun p i => ⟨List.replicate 32 (UInt8.ofNat p), rfl, by simp⟩) (fun _ => CState.start .empty)
    (fun p _ => show (⟨0, 0, 0⟩ : HRS) ≺ ⟨7, 1, 3⟩ by decide) (fun _ _ => rfl)
  exact ⟨sig, st', e1, e2⟩

end Horcrux
