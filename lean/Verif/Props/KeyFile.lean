import Verif.Spec.KeyFile
import Verif.Lemmas.KeyFile
import Verif.Lemmas.ToyField
/-
Properties C54 and C55: splitting a key, and the key files.
-/
namespace Horcrux
open Spec

/-! ### C55 -/

/-- C55: every key with a usable public key (32 bytes for ed25519, 33 for secp256k1), RSA keys that the library can
encode and an ID in the range of `int` is written, and loading the file gives the same key. -/
theorem C55_round_trip (R : RSACodec) (pair : Bytes → Bytes → Prop) (hR : R.Lawful pair) (k : KeyFile)
    (hpub : k.pubKey.Sized) (hid : IsI64 k.id) (hrsa : pair k.rsaPub k.rsaKey)
    (hpubs : ∀ p ∈ k.cosignerKeys, ∃ priv, pair p priv) :
    ∃ bs, marshalKey R k = some bs ∧ loadKey R bs = .ok k := by
  refine ⟨(keyJson R k (encPPubKey k.pubKey)).print, ?_, ?_⟩
  · unfold marshalKey
    cases h : k.pubKey with
    | unset => rw [h] at hpub; exact hpub.elim
    | ed25519 _ => rfl
    | secp256k1 _ => rfl
  · rw [loadKey_json R k _ hid]
    have h1 : R.decPriv (R.encPriv k.rsaKey) = some (k.rsaKey, k.rsaPub) := hR.priv _ _ hrsa
    have h2 : decodePubKey (encPPubKey k.pubKey) = some k.pubKey := decodePubKey_proto _ hpub
    have h3 : decodePubs R (k.cosignerKeys.map fun p => some (R.encPub p)) = some k.cosignerKeys :=
      decodePubs_enc _ fun p hp => by obtain ⟨priv, h⟩ := hpubs p hp; exact hR.pub _ _ h
    simp only [finishKey, Slice.bytes, Option.getD_some, h1, h2, h3]

/-- C55: a file of the same shape with the public key in the older amino encoding (the prefix bytes 16 24 DE 64, the
length 32 and the key) gives the key with that ed25519 public key. -/
theorem C55_amino (R : RSACodec) (pair : Bytes → Bytes → Prop) (hR : R.Lawful pair) (k : KeyFile) (pk : Bytes)
    (hpk : pk.length = 32) (hid : IsI64 k.id) (hrsa : pair k.rsaPub k.rsaKey)
    (hpubs : ∀ p ∈ k.cosignerKeys, ∃ priv, pair p priv) :
    loadKey R (keyJson R k ([0x16, 0x24, 0xDE, 0x64, 0x20] ++ pk)).print = .ok { k with pubKey := .ed25519 pk } := by
  rw [loadKey_json R k _ hid]
  have h1 : R.decPriv (R.encPriv k.rsaKey) = some (k.rsaKey, k.rsaPub) := hR.priv _ _ hrsa
  have h2 : decodePubKey ([0x16, 0x24, 0xDE, 0x64, 0x20] ++ pk) = some (.ed25519 pk) := decodePubKey_amino _ hpk
  have h3 : decodePubs R (k.cosignerKeys.map fun p => some (R.encPub p)) = some k.cosignerKeys :=
    decodePubs_enc _ fun p hp => by obtain ⟨priv, h⟩ := hpubs p hp; exact hR.pub _ _ h
  simp only [finishKey, Slice.bytes, Option.getD_some, h1, h2, h3]

/-- C55: a key with a public key of any other kind is not written. -/
theorem C55_unknown_kind (R : RSACodec) (k : KeyFile) : marshalKey R k = none ↔ k.pubKey = .unset := by
  unfold marshalKey
  cases k.pubKey <;> simp

/-- C55: whatever the file contains, a key that loads has an ID in the range of `int`. -/
theorem C55_range (R : RSACodec) (bs : Bytes) (k : KeyFile) (h : loadKey R bs = .ok k) : IsI64 k.id := by
  have step : ∀ (a a' : KeyAux) (f : Bytes) (v : JVal), setKeyField a f v = some a' → IsI64 a.id → IsI64 a'.id := by
    intro a a' f v h h0
    unfold setKeyField at h
    (repeat' split at h) <;> (try simp only [Option.map_eq_some_iff] at h) <;> (try obtain ⟨x, hx, rfl⟩ := h)
    · exact h0
    · exact h0
    · exact h0
    · exact h0
    · unfold IsI64 at h0 ⊢
      simp only
      unfold setInt at hx
      (repeat' split at hx) <;> simp only [reduceCtorEq, Option.some.injEq] at hx <;> omega
    · exact h0
  unfold loadKey at h
  split at h
  · split at h
    · next a ha =>
      have hid := decodeFields_keeps (P := fun a : KeyAux => IsI64 a.id) step _ _ _ ha ⟨by decide, by decide⟩
      unfold finishKey at h
      (repeat' split at h) <;> simp only [reduceCtorEq, KeyRes.ok.injEq] at h
      subst h; exact hid
    · cases h
  · cases h
  · cases h

/-- A toy codec: keys are their own encodings, followed by a marker byte. -/
def toyCodec : RSACodec where
  encPriv b := b ++ [1]
  decPriv b := if b.getLast? = some 1 then some (b.dropLast, b.dropLast) else none
  encPub b := b ++ [2]
  decPub b := if b.getLast? = some 2 then some b.dropLast else none

theorem toyCodec_lawful : toyCodec.Lawful (fun pub priv => pub = priv) where
  priv := by intro pub priv h; subst h; simp [toyCodec]
  pub := by intro pub priv h; subst h; simp [toyCodec]

def toyKeyFile : KeyFile :=
  ⟨.ed25519 (List.replicate 32 7), some [1, 2, 3, 4], [9, 9], [9, 9], 2, [[8, 8], [9, 9]]⟩

example : ∃ bs, marshalKey toyCodec toyKeyFile = some bs ∧ loadKey toyCodec bs = .ok toyKeyFile :=
  C55_round_trip toyCodec _ toyCodec_lawful toyKeyFile rfl (by decide) rfl (fun p _ => ⟨p, rfl⟩)

example : loadKey toyCodec (keyJson toyCodec toyKeyFile ([0x16, 0x24, 0xDE, 0x64, 0x20] ++ List.replicate 32 5)).print =
    .ok { toyKeyFile with pubKey := .ed25519 (List.replicate 32 5) } :=
  C55_amino toyCodec _ toyCodec_lawful toyKeyFile _ (by decide) (by decide) rfl (fun p _ => ⟨p, rfl⟩)

/-- A public key of a wrong length is refused, whatever the encoding says; `null` crashes the loader. -/
example : decodePubKey (encPPubKey (.ed25519 [1, 2, 3])) = none ∧ loadKey toyCodec [110, 117, 108, 108] = .crash := by
  decide +kernel

/-! ### C54 -/

theorem u8_lt (x : Int) : u8 x < 256 := by unfold u8; omega

/-- The command with everything in order, for all numbers that are accepted. -/
theorem create_general {R : RSACodec} {E : SplitEnv} {pair : Bytes → Bytes → Prop} (hR : R.Lawful pair)
    (hgen : GenOk pair E.gen) {readPriv : Bytes → Option PrivFile} {d : Dir} {file ts ns : Str} {t n : Int}
    (ht : parseInt ts = some t) (hn : parseInt ns = some n) {content : Bytes} (hf : d.files file = some content)
    {pv : PrivFile} (hpv : readPriv content = some pv) {priv : Bytes} (hpriv : pv.priv = some priv)
    (hlen : 32 ≤ priv.length) (hpub : pv.pub.Sized)
    (hdeal : (E.C.dealShares (E.expand (priv.take 32)) E.rand (u8 t) (u8 n)).length = u8 n)
    (hw : ∀ i : Nat, 1 ≤ i → i ≤ u8 n → d.writable (keyFileName i) = true) :
    ∃ d', createSharesCmd R E readPriv d [file, ts, ns] = (.done, d') ∧
      KeyFiles R pair pv.pub (u8 n) d.files d'.files ∧
      ShareKeys R (u8 n) d'.files (fun i =>
        (E.C.dealShares (E.expand (priv.take 32)) E.rand (u8 t) (u8 n)).getD (i - 1) []) := by
  generalize hsh : E.C.dealShares (E.expand (priv.take 32)) E.rand (u8 t) (u8 n) = shares at hdeal ⊢
  have hn256 := u8_lt n
  -- the RSA keys
  obtain ⟨rs, hrs⟩ : ∃ rs, makeRSAKeys E.gen shares.length = some rs := by
    have : ∀ l : List Nat, ∃ rs, l.mapM E.gen = some rs := by
      intro l
      induction l with
      | nil => exact ⟨[], rfl⟩
      | cons a l ih =>
        obtain ⟨rs, h⟩ := ih
        obtain ⟨x, y, h', _⟩ := hgen a
        exact ⟨(x, y) :: rs, by rw [List.mapM_cons, h', h]; rfl⟩
    exact this _
  obtain ⟨hl, hg⟩ := makeRSAKeys_spec hrs
  have hpairs : ∀ (i : Nat) (r : Bytes × Bytes), rs[i]? = some r → pair r.2 r.1 := by
    intro i r hr
    obtain ⟨x, y, h1, h2⟩ := hgen i
    rw [hg i r hr] at h1
    cases h1
    exact h2
  have hcreate : createShares E pv t n = .ok (some (keysFrom pv.pub (rs.map (·.2)) 0 shares rs)) := by
    unfold createShares
    rw [hpriv]
    simp only [show ¬ priv.length < 32 by omega, if_false, hsh, hrs]
  generalize hks : keysFrom pv.pub (rs.map (·.2)) 0 shares rs = ks at hcreate
  obtain ⟨hkl, hk⟩ := keysFrom_spec pv.pub (rs.map (·.2)) 0 shares rs hl.symm
  rw [hks] at hkl hk
  -- every key of the list
  have hmem : ∀ k ∈ ks, ∃ (i : Nat) (s : Bytes) (r : Bytes × Bytes), ks[i]? = some k ∧ i < u8 n ∧ shares[i]? = some s ∧
      rs[i]? = some r ∧ k = ⟨pv.pub, some s, r.1, r.2, (i : Int) + 1, rs.map (·.2)⟩ := by
    intro k hkm
    obtain ⟨i, hi, he⟩ := List.mem_iff_getElem.1 hkm
    have he' : ks[i]? = some k := by rw [List.getElem?_eq_getElem hi, he]
    obtain ⟨s, r, h1, h2, h3⟩ := hk i k he'
    exact ⟨i, s, r, he', by omega, h1, h2, by rw [h3]; simp⟩
  have hload : ∀ k ∈ ks, ∃ bs, marshalKey R k = some bs ∧ loadKey R bs = .ok k := by
    intro k hkm
    obtain ⟨i, s, r, h0, hi, h1, h2, h3⟩ := hmem k hkm
    refine C55_round_trip R pair hR k ?_ ?_ ?_ ?_
    · rw [h3]; exact hpub
    · rw [h3]; show IsI64 ((i : Int) + 1); unfold IsI64; omega
    · rw [h3]; exact hpairs i r h2
    · rw [h3]
      intro p hp
      obtain ⟨r', hr', rfl⟩ := List.mem_map.1 hp
      obtain ⟨j, hj, he⟩ := List.mem_iff_getElem.1 hr'
      exact ⟨_, hpairs j r' (by rw [List.getElem?_eq_getElem hj, he])⟩
  have hids : (ks.map (·.id)).Nodup := by
    rw [List.nodup_iff_getElem?_ne_getElem?]
    intro i j hij hj
    rw [List.length_map] at hj
    rw [List.getElem?_map, List.getElem?_map, List.getElem?_eq_getElem (by omega : i < ks.length),
      List.getElem?_eq_getElem hj]
    obtain ⟨_, _, _, _, e1⟩ := hk i ks[i] (List.getElem?_eq_getElem _)
    obtain ⟨_, _, _, _, e2⟩ := hk j ks[j] (List.getElem?_eq_getElem _)
    simp only [Option.map_some, ne_eq, Option.some.injEq]
    rw [e1, e2]
    simp only
    omega
  obtain ⟨d', h1, h2, h3, h4⟩ := writeShares_spec R ks d
    (fun k hkm => by
      obtain ⟨i, s, r, _, hi, _, _, e⟩ := hmem k hkm
      rw [e]; show IsI64 ((i : Int) + 1); unfold IsI64; omega)
    hids (fun k hkm => (hload k hkm).imp fun _ h => h.1)
    (fun k hkm => by
      obtain ⟨i, s, r, _, hi, _, _, e⟩ := hmem k hkm
      rw [e]
      exact_mod_cast hw (i + 1) (by omega) (by omega))
  have hat : ∀ i : Nat, 1 ≤ i → i ≤ u8 n → ∃ bs k s r, d'.files (keyFileName i) = some bs ∧ loadKey R bs = .ok k ∧
      shares[i - 1]? = some s ∧ rs[i - 1]? = some r ∧ k = ⟨pv.pub, some s, r.1, r.2, (i : Int), rs.map (·.2)⟩ := by
    intro i hi1 hi2
    have hi : i - 1 < ks.length := by omega
    obtain ⟨s, r, e1, e2, e3⟩ := hk (i - 1) ks[i - 1] (List.getElem?_eq_getElem hi)
    have hcast : ((0 : Nat) : Int) + ((i - 1 : Nat) : Int) + 1 = i := by omega
    rw [hcast] at e3
    obtain ⟨bs, hb, hb'⟩ := hload ks[i - 1] (List.getElem_mem hi)
    refine ⟨bs, ks[i - 1], s, r, ?_, hb', e1, e2, e3⟩
    have := h3 ks[i - 1] (List.getElem_mem hi)
    rw [hb] at this
    rw [e3] at this
    exact this
  refine ⟨d', ?_, ⟨?_, rs.map (·.2), ?_, ?_⟩, ?_⟩
  · unfold createSharesCmd
    simp only [hf, ht, hn, hpv, hcreate, h1]
  · intro f hfn
    refine h4 f fun k hkm => ?_
    obtain ⟨i, s, r, _, hi, _, _, e⟩ := hmem k hkm
    rw [e]
    exact_mod_cast hfn (i + 1) (by omega) (by omega)
  · simp [hl, hdeal]
  · intro i hi1 hi2
    obtain ⟨bs, k, s, r, e1, e2, e3, e4, e5⟩ := hat i hi1 hi2
    refine ⟨bs, k, e1, e2, by rw [e5], by rw [e5], by rw [e5], ?_, ?_⟩
    · rw [e5, List.getElem?_map, e4]; rfl
    · rw [e5]; exact hpairs _ r e4
  · intro i hi1 hi2
    obtain ⟨bs, k, s, r, e1, e2, e3, e4, e5⟩ := hat i hi1 hi2
    refine ⟨bs, k, e1, e2, ?_⟩
    rw [e5]
    simp only [List.getD_eq_getElem?_getD, e3, Option.getD_some]

/-- C54 for the numbers of shares that fit into a byte (what is missing: larger and negative numbers, see `C54_fails`):
if the private key can be read, RSA keys can be made, the library deals the shares and the files can be written, then
`create-shares file t n` succeeds and leaves exactly the key files of the cosigners `1..n`. -/
theorem C54_partial (R : RSACodec) (E : SplitEnv) (pair : Bytes → Bytes → Prop) (hR : R.Lawful pair)
    (hgen : GenOk pair E.gen) (readPriv : Bytes → Option PrivFile) (d : Dir) (file ts ns : Str) (t : Int) (n : Nat)
    (ht : parseInt ts = some t) (hn : parseInt ns = some (n : Int)) (hn' : n ≤ 255)
    (content : Bytes) (hf : d.files file = some content) (pv : PrivFile) (hpv : readPriv content = some pv)
    (priv : Bytes) (hpriv : pv.priv = some priv) (hlen : 32 ≤ priv.length) (hpub : pv.pub.Sized)
    (hdeal : (E.C.dealShares (E.expand (priv.take 32)) E.rand (u8 t) n).length = n)
    (hw : ∀ i : Nat, 1 ≤ i → i ≤ n → d.writable (keyFileName i) = true) :
    ∃ d', createSharesCmd R E readPriv d [file, ts, ns] = (.done, d') ∧ KeyFiles R pair pv.pub n d.files d'.files := by
  have hu : u8 (n : Int) = n := by unfold u8; omega
  obtain ⟨d', h1, h2, _⟩ := create_general hR hgen ht hn hf hpv hpriv hlen hpub (by rw [hu]; exact hdeal)
    (by rw [hu]; exact hw)
  rw [hu] at h2
  exact ⟨d', h1, h2⟩

/-- C54, with a threshold in range: the share keys in the files are a dealing with threshold `t` of the expanded secret,
so any `t` of the files together give it back. -/
theorem C54_recover (R : RSACodec) (E : SplitEnv) {F G : Type} [Field F] [AddCommGroup G] [Module F G]
    (L : Lawful E.C F G) (pair : Bytes → Bytes → Prop) (hR : R.Lawful pair)
    (hgen : GenOk pair E.gen) (readPriv : Bytes → Option PrivFile) (d : Dir) (file ts ns : Str) (t n : Nat)
    (ht : parseInt ts = some (t : Int)) (hn : parseInt ns = some (n : Int)) (h1t : 1 ≤ t) (htn : t ≤ n) (hn' : n ≤ 255)
    (content : Bytes) (hf : d.files file = some content) (pv : PrivFile) (hpv : readPriv content = some pv)
    (priv : Bytes) (hpriv : pv.priv = some priv) (hlen : 32 ≤ priv.length) (hpub : pv.pub.Sized)
    (hexp : (E.expand (priv.take 32)).length = 32)
    (hw : ∀ i : Nat, 1 ≤ i → i ≤ n → d.writable (keyFileName i) = true) :
    ∃ d' share, createSharesCmd R E readPriv d [file, ts, ns] = (.done, d') ∧
      KeyFiles R pair pv.pub n d.files d'.files ∧ ShareKeys R n d'.files share ∧
      (∀ i : Nat, 1 ≤ i → i ≤ n →
        share i = L.sc (shareOf (L.val (E.expand (priv.take 32))) (L.coeffs E.rand t) i)) ∧
      ∀ ids : List Nat, ids.Nodup → (∀ i ∈ ids, 1 ≤ i ∧ i ≤ n) → t ≤ ids.length →
        E.C.combineShares n ids (ids.map share) = L.sc (L.val (E.expand (priv.take 32))) := by
  have hu : u8 (n : Int) = n := by unfold u8; omega
  have hut : u8 (t : Int) = t := by unfold u8; omega
  have hd := L.deal (E.expand (priv.take 32)) E.rand t n hexp h1t htn hn'
  obtain ⟨d', h1, h2, h3⟩ := create_general hR hgen ht hn hf hpv hpriv hlen hpub
    (by rw [hu, hut, hd]; simp [dealF]) (by rw [hu]; exact hw)
  rw [hu] at h2 h3
  rw [hut, hd] at h3
  have hshare : ∀ i : Nat, 1 ≤ i → i ≤ n →
      ((dealF (L.val (E.expand (priv.take 32))) (L.coeffs E.rand t) n).map L.sc).getD (i - 1) [] =
        L.sc (shareOf (L.val (E.expand (priv.take 32))) (L.coeffs E.rand t) i) := by
    intro i hi1 hi2
    unfold dealF
    rw [List.getD_eq_getElem?_getD, List.getElem?_map, List.getElem?_map, List.getElem?_range (by omega)]
    simp only [Option.map_some, Option.getD_some, Nat.sub_add_cancel hi1]
  refine ⟨d', _, h1, h2, h3, hshare, ?_⟩
  intro ids hnd hids hl
  have : ids.map (fun i => ((dealF (L.val (E.expand (priv.take 32))) (L.coeffs E.rand t) n).map L.sc).getD (i - 1) []) =
      (ids.map fun i => shareOf (L.val (E.expand (priv.take 32))) (L.coeffs E.rand t) i).map L.sc := by
    rw [List.map_map]
    exact List.map_congr_left fun i hi => hshare i (hids i hi).1 (hids i hi).2
  rw [this, L.combine n ids _ (by simp) hnd hids hn']
  congr 1
  have hinj : CastInj F n := fun a b ha hb => L.castInj a b (by omega) (by omega)
  refine (combine_eval n hinj ids hnd hids (_ :: L.coeffs E.rand t)
    (by have := L.coeffs_length E.rand t h1t; simp; omega)).trans ?_
  simp [horner]

/-- C54 is false for other numbers of shares: the number is cut to a byte. Asked for `m + 256 * j` shares (`j` may be
negative), the command succeeds with the files of `m` cosigners, in a common list of `m`. -/
theorem C54_truncates (R : RSACodec) (E : SplitEnv) (pair : Bytes → Bytes → Prop) (hR : R.Lawful pair)
    (hgen : GenOk pair E.gen) (readPriv : Bytes → Option PrivFile) (d : Dir) (file ts ns : Str) (t : Int) (m : Nat)
    (j : Int) (hm : m ≤ 255) (ht : parseInt ts = some t) (hn : parseInt ns = some (m + 256 * j))
    (content : Bytes) (hf : d.files file = some content) (pv : PrivFile) (hpv : readPriv content = some pv)
    (priv : Bytes) (hpriv : pv.priv = some priv) (hlen : 32 ≤ priv.length) (hpub : pv.pub.Sized)
    (hdeal : (E.C.dealShares (E.expand (priv.take 32)) E.rand (u8 t) m).length = m)
    (hw : ∀ i : Nat, 1 ≤ i → i ≤ m → d.writable (keyFileName i) = true) :
    ∃ d', createSharesCmd R E readPriv d [file, ts, ns] = (.done, d') ∧ KeyFiles R pair pv.pub m d.files d'.files := by
  have hu : u8 ((m : Int) + 256 * j) = m := by unfold u8; omega
  obtain ⟨d', h1, h2, _⟩ := create_general hR hgen ht hn hf hpv hpriv hlen hpub (by rw [hu]; exact hdeal)
    (by rw [hu]; exact hw)
  rw [hu] at h2
  exact ⟨d', h1, h2⟩

/-- The threshold is cut to a byte as well: with threshold `1 + 256 * j` every single file holds the whole (expanded)
secret. -/
theorem C54_threshold_fails (R : RSACodec) (E : SplitEnv) {F G : Type} [Field F] [AddCommGroup G] [Module F G]
    (L : Lawful E.C F G) (pair : Bytes → Bytes → Prop) (hR : R.Lawful pair)
    (hgen : GenOk pair E.gen) (readPriv : Bytes → Option PrivFile) (d : Dir) (file ts ns : Str) (j : Int) (n : Nat)
    (ht : parseInt ts = some (1 + 256 * j)) (hn : parseInt ns = some (n : Int)) (h1n : 1 ≤ n) (hn' : n ≤ 255)
    (content : Bytes) (hf : d.files file = some content) (pv : PrivFile) (hpv : readPriv content = some pv)
    (priv : Bytes) (hpriv : pv.priv = some priv) (hlen : 32 ≤ priv.length) (hpub : pv.pub.Sized)
    (hexp : (E.expand (priv.take 32)).length = 32)
    (hw : ∀ i : Nat, 1 ≤ i → i ≤ n → d.writable (keyFileName i) = true) :
    ∃ d', createSharesCmd R E readPriv d [file, ts, ns] = (.done, d') ∧
      KeyFiles R pair pv.pub n d.files d'.files ∧
      ShareKeys R n d'.files (fun _ => L.sc (L.val (E.expand (priv.take 32)))) := by
  have hu : u8 (n : Int) = n := by unfold u8; omega
  have hut : u8 (1 + 256 * j) = 1 := by unfold u8; omega
  have hd := L.deal (E.expand (priv.take 32)) E.rand 1 n hexp (le_refl 1) h1n hn'
  obtain ⟨d', h1, h2, h3⟩ := create_general hR hgen ht hn hf hpv hpriv hlen hpub
    (by rw [hu, hut, hd]; simp [dealF]) (by rw [hu]; exact hw)
  rw [hu] at h2 h3
  rw [hut, hd] at h3
  refine ⟨d', h1, h2, fun i hi1 hi2 => ?_⟩
  obtain ⟨bs, k, e1, e2, e3⟩ := h3 i hi1 hi2
  refine ⟨bs, k, e1, e2, e3.trans ?_⟩
  have hc : L.coeffs E.rand 1 = [] := List.eq_nil_of_length_eq_zero (by have := L.coeffs_length E.rand 1 (le_refl 1); omega)
  simp only [List.getD_eq_getElem?_getD]
  unfold dealF
  rw [List.getElem?_map, List.getElem?_map, List.getElem?_range (by omega), hc]
  simp [shareOf, horner]

/-- A toy environment: the secret is not expanded, cosigner `i` gets the RSA key `[i]`. -/
def toySplit : SplitEnv := ⟨ftoy, fun b => b, [3], fun i => some ([UInt8.ofNat i], [UInt8.ofNat i])⟩

theorem toySplit_gen : GenOk (fun pub priv => pub = priv) toySplit.gen := fun _ => ⟨_, _, rfl, rfl⟩

/-- The private key 42 with its public key. -/
def toyPriv : PrivFile := ⟨some (fsc 42), .ed25519 (fsc 42)⟩

/-- A directory with the private key in the file `k`. -/
def toyDir : Dir := ⟨fun f => if f = [107] then some [] else none, fun _ => true⟩

/-- Three shares with threshold 2 (`create-shares k 2 3`). -/
example : ∃ d' share, createSharesCmd toyCodec toySplit (fun _ => some toyPriv) toyDir [[107], [50], [51]] =
      (.done, d') ∧ KeyFiles toyCodec (fun pub priv => pub = priv) toyPriv.pub 3 toyDir.files d'.files ∧
    ShareKeys toyCodec 3 d'.files share ∧ ftoy.combineShares 3 [3, 1] [share 3, share 1] = fsc 42 := by
  obtain ⟨d', share, h1, h2, h3, _, h5⟩ := C54_recover toyCodec toySplit ftoyLawful _ toyCodec_lawful toySplit_gen
    (fun _ => some toyPriv) toyDir [107] [50] [51] 2 3 (by decide) (by decide) (by decide) (by decide) (by decide) []
    rfl toyPriv rfl (fsc 42) rfl (by rw [fsc_length]) (fsc_length _)
    (by show ((fsc 42).take 32).length = 32; rw [List.length_take, fsc_length]; rfl) (fun _ _ _ => rfl)
  refine ⟨d', share, h1, h2, h3, ?_⟩
  have := h5 [3, 1] (by decide) (by decide) (by decide)
  have he : toySplit.expand ((fsc 42).take 32) = fsc 42 := by
    show (fsc 42).take 32 = _
    rw [List.take_of_length_le (by rw [fsc_length])]
  rw [he] at this
  exact this.trans (by show fsc (fval (fsc 42)) = _; rw [fval_fsc'])

/-- C54 is false as stated: `create-shares k 1 257` succeeds without making 257 key files. -/
theorem C54_fails : ¬ ∀ (R : RSACodec) (E : SplitEnv) (pair : Bytes → Bytes → Prop) (readPriv : Bytes → Option PrivFile)
    (d d' : Dir) (file ts ns content : Str) (t : Int) (n : Nat) (pv : PrivFile), R.Lawful pair → GenOk pair E.gen →
    d.files file = some content → readPriv content = some pv → parseInt ts = some t → parseInt ns = some (n : Int) →
    createSharesCmd R E readPriv d [file, ts, ns] = (.done, d') → KeyFiles R pair pv.pub n d.files d'.files := by
  intro H
  obtain ⟨d', h1, h2, _⟩ := C54_truncates toyCodec toySplit _ toyCodec_lawful toySplit_gen (fun _ => some toyPriv) toyDir
    [107] [49] [50, 53, 55] 1 1 1 (by decide) (by decide) (by decide) [] rfl toyPriv rfl (fsc 42) rfl
    (by rw [fsc_length]) (fsc_length _) (by simp [toySplit, ftoy, dealF]) (fun _ _ _ => rfl)
  obtain ⟨_, _, _, h3⟩ := H toyCodec toySplit _ (fun _ => some toyPriv) toyDir d' [107] [49] [50, 53, 55] [] 1 257 toyPriv
    toyCodec_lawful toySplit_gen rfl rfl (by decide) (by decide) h1
  obtain ⟨bs, _, h4, _⟩ := h3 2 (by decide) (by decide)
  rw [h2 (keyFileName (2 : Nat)) (fun i _ hi h => ?_)] at h4
  · simp [toyDir, keyFileName, sharePrefix] at h4
  · have : ((2 : Nat) : Int) = (i : Int) := keyFileName_inj (by decide) (by unfold IsI64; omega) h
    omega

end Horcrux
