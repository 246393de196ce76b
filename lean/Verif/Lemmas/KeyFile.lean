import Verif.Model.KeyFile
import Verif.Lemmas.Remote
import Verif.Lemmas.Raft
/-
Reading back what `MarshalJSON` of a cosigner key wrote.
-/
namespace Horcrux
open Spec

/-- RSA keys read back as they were written: `pair pub priv` are the keys the library makes. -/
structure RSACodec.Lawful (R : RSACodec) (pair : (pub priv : Bytes) → Prop) : Prop where
  priv : ∀ pub priv, pair pub priv → R.decPriv (R.encPriv priv) = some (priv, pub)
  pub : ∀ pub priv, pair pub priv → R.decPub (R.encPub pub) = some pub

theorem bytesJson_numsOk (s : Slice) : (bytesJson s).numsOk := by cases s <;> exact trivial

theorem ofList_numsOk : ∀ (l : List JVal), (∀ v ∈ l, v.numsOk) → (JArr.ofList l).numsOk
  | [], _ => trivial
  | v :: l, h => ⟨h v (by simp), ofList_numsOk l fun x hx => h x (by simp [hx])⟩

theorem ofList_depth : ∀ (l : List JVal), (∀ v ∈ l, v.depth = 0) → (JArr.ofList l).depth = 0
  | [], _ => rfl
  | v :: l, h => by
    simp [JArr.ofList, JArr.depth, h v (by simp), ofList_depth l fun x hx => h x (by simp [hx])]

theorem ofList_clean : ∀ (l : List JVal), (JArr.ofList l).clean = .ofList (l.map JVal.clean)
  | [] => rfl
  | v :: l => by simp only [JArr.ofList, JArr.clean, List.map_cons, ofList_clean l]

theorem setByteElems_bytes (f : α → Bytes) : ∀ (l : List α),
    setByteElems (.ofList ((l.map fun p => bytesJson (some (f p))).map JVal.clean)) = some (l.map fun p => some (f p))
  | [] => rfl
  | v :: l => by
    simp only [List.map_cons, JArr.ofList, setByteElems, bytesJson_set, setByteElems_bytes f l]

theorem decodePubs_enc {R : RSACodec} : ∀ (l : List Bytes), (∀ p ∈ l, R.decPub (R.encPub p) = some p) →
    decodePubs R (l.map fun p => some (R.encPub p)) = some l
  | [], _ => rfl
  | p :: l, h => by
    have ih := decodePubs_enc l fun x hx => h x (by simp [hx])
    simp only [List.map_cons, decodePubs, Slice.bytes]
    rw [show R.decPub ((some (R.encPub p)).getD []) = some p from h p (by simp)]
    simp only [ih]

/-- What `LoadCosignerKey` makes of the JSON of a key. -/
theorem loadKey_json (R : RSACodec) (k : KeyFile) (pub : Bytes) (hid : IsI64 k.id) :
    loadKey R (keyJson R k pub).print =
      finishKey R ⟨some (R.encPriv k.rsaKey), some pub, k.cosignerKeys.map (fun p => some (R.encPub p)), k.shareKey,
        k.id⟩ := by
  have hn : (keyJson R k pub).numsOk := by
    refine ⟨bytesJson_numsOk _, bytesJson_numsOk _, ?_, bytesJson_numsOk _, decInt_numOk _, trivial⟩
    unfold JVal.numsOk
    refine ofList_numsOk _ fun v hv => ?_
    obtain ⟨p, _, rfl⟩ := List.mem_map.1 hv
    exact bytesJson_numsOk _
  have hd : (keyJson R k pub).depth ≤ maxNesting := by
    have := ofList_depth (k.cosignerKeys.map fun p => bytesJson (some (R.encPub p))) fun v hv => by
      obtain ⟨p, _, rfl⟩ := List.mem_map.1 hv
      exact bytesJson_depth _
    simp [keyJson, JVal.depth, JObj.depth, bytesJson_depth, this, maxNesting]
  unfold loadKey
  rw [parseJson_print _ hn hd]
  unfold keyJson
  simp only [JVal.clean, JObj.clean, show sanitize nRsaKey = nRsaKey from rfl, show sanitize nPubKey = nPubKey from rfl,
    show sanitize nRsaPubs = nRsaPubs from rfl, show sanitize nSecretShare = nSecretShare from rfl,
    show sanitize nId = nId from rfl, ofList_clean]
  have e1 : ∀ m : KeyAux, setKeyField m (foldKey nRsaKey) (bytesJson (some (R.encPriv k.rsaKey))).clean =
      some { m with rsaKey := some (R.encPriv k.rsaKey) } := by
    intro m
    rw [setKeyField, if_pos (by decide), bytesJson_set]
    rfl
  have e2 : ∀ m : KeyAux, setKeyField m (foldKey nPubKey) (bytesJson (some pub)).clean =
      some { m with pubKey := some pub } := by
    intro m
    rw [setKeyField, if_neg (by decide), if_pos (by decide), bytesJson_set]
    rfl
  have e3 : ∀ m : KeyAux, setKeyField m (foldKey nRsaPubs)
      (.arr (.ofList ((k.cosignerKeys.map fun p => bytesJson (some (R.encPub p))).map JVal.clean))) =
      some { m with rsaPubs := k.cosignerKeys.map fun p => some (R.encPub p) } := by
    intro m
    rw [setKeyField, if_neg (by decide), if_neg (by decide), if_pos (by decide), setByteLists, setByteElems_bytes]
    rfl
  have e4 : ∀ m : KeyAux, setKeyField m (foldKey nSecretShare) (bytesJson k.shareKey).clean =
      some { m with share := k.shareKey } := by
    intro m
    rw [setKeyField, if_neg (by decide), if_neg (by decide), if_neg (by decide), if_pos (by decide), bytesJson_set]
    rfl
  have e5 : ∀ m : KeyAux, setKeyField m (foldKey nId) (.num (decInt k.id)) = some { m with id := k.id } := by
    intro m
    rw [setKeyField, if_neg (by decide), if_neg (by decide), if_neg (by decide), if_neg (by decide), if_pos (by decide),
      setInt_dec hid hid.1 (by have := hid.2; omega)]
    rfl
  rw [decodeFields_cons (e1 _), decodeFields_cons (e2 _), decodeFields_cons (e3 _), decodeFields_cons (e4 _),
    decodeFields_cons (e5 _)]
  rfl

/-- A usable public key: 32 or 33 bytes. -/
def PPubKey.Sized : PPubKey → Prop
  | .unset => False
  | .ed25519 k => k.length = 32
  | .secp256k1 k => k.length = 33

theorem decodePubKey_proto (p : PPubKey) (h : p.Sized) : decodePubKey (encPPubKey p) = some p := by
  have hw : p.WF := by
    cases p with
    | unset => exact h.elim
    | ed25519 k => simp only [PPubKey.Sized] at h; simp only [PPubKey.WF]; omega
    | secp256k1 k => simp only [PPubKey.Sized] at h; simp only [PPubKey.WF]; omega
  rw [decodePubKey, decode_ppubKey p hw]
  cases p with
  | unset => exact h.elim
  | ed25519 k => simp only [PPubKey.Sized] at h; simp only [pubKeyFromProto, h, if_true]
  | secp256k1 k => simp only [PPubKey.Sized] at h; simp only [pubKeyFromProto, h, if_true]

/-- The amino encoding of a public key (tendermint before 0.34): prefix, length 32, the key. -/
def aminoEnc (pk : Bytes) : Bytes := [0x16, 0x24, 0xDE, 0x64, 0x20] ++ pk

theorem decodePubKey_amino (pk : Bytes) (h : pk.length = 32) : decodePubKey (aminoEnc pk) = some (.ed25519 pk) := by
  have h1 : decodeMsg ppubKeyHandler .unset (aminoEnc pk) = none := by
    have hv : ∀ l, readVarint (0x16 :: l) = some (0x16, l) := fun _ => rfl
    rw [decodeMsg, show (aminoEnc pk).length = (pk.length + 4) + 1 from by simp [aminoEnc]]
    simp only [aminoEnc, List.cons_append, decodeLoop, hv, show i32 ((0x16 / 8 : Nat) : Int) = 2 from by decide,
      show (2 : Int).toNat = 2 from rfl, show ppubKeyHandler.wireType 2 = some 2 from rfl]
    rfl
  have h2 : aminoPubKey (aminoEnc pk) = some pk := by
    have : readVarint (0x20 :: pk) = some (32, pk) := rfl
    simp only [aminoEnc, List.cons_append, List.nil_append, aminoPubKey, this, h, if_true]
  rw [decodePubKey, h1]
  simp only [h2]
  rfl

/-! ### The list of keys -/

theorem keysFrom_spec (pub : PPubKey) (pubs : List Bytes) : ∀ (idx : Nat) (shares : List Bytes)
    (rs : List (Bytes × Bytes)), shares.length = rs.length →
    (keysFrom pub pubs idx shares rs).length = shares.length ∧
    ∀ (i : Nat) (k : KeyFile), (keysFrom pub pubs idx shares rs)[i]? = some k → ∃ s r, shares[i]? = some s ∧ rs[i]? = some r ∧
      k = ⟨pub, some s, r.1, r.2, (idx : Int) + i + 1, pubs⟩
  | idx, [], [], _ => ⟨rfl, fun i k h => by simp [keysFrom] at h⟩
  | idx, s :: ss, r :: rs, h => by
    obtain ⟨h1, h2⟩ := keysFrom_spec pub pubs (idx + 1) ss rs (by simpa using h)
    refine ⟨by simp [keysFrom, h1], ?_⟩
    intro i k hk
    cases i with
    | zero =>
      simp only [keysFrom, List.getElem?_cons_zero, Option.some.injEq] at hk
      exact ⟨s, r, rfl, rfl, by rw [← hk]; simp⟩
    | succ i =>
      simp only [keysFrom, List.getElem?_cons_succ] at hk
      obtain ⟨s', r', h3, h4, h5⟩ := h2 i k hk
      refine ⟨s', r', by simpa using h3, by simpa using h4, ?_⟩
      rw [h5]
      congr 1
      push_cast
      omega

theorem makeRSAKeys_spec {gen : Nat → Option (Bytes × Bytes)} {n : Nat} {rs : List (Bytes × Bytes)}
    (h : makeRSAKeys gen n = some rs) : rs.length = n ∧ ∀ i r, rs[i]? = some r → gen i = some r := by
  have h' : (List.range n).map gen = rs.map some := by
    rw [makeRSAKeys] at h
    revert rs
    induction List.range n with
    | nil => intro rs h; simp at h; subst h; rfl
    | cons a l ih =>
      intro rs h
      rw [List.mapM_cons] at h
      simp only [Option.bind_eq_bind, Option.pure_def] at h
      cases hg : gen a with
      | none => rw [hg] at h; simp at h
      | some x =>
        cases hl : l.mapM gen with
        | none => rw [hg, hl] at h; simp at h
        | some xs =>
          rw [hg, hl] at h
          simp only [Option.bind_some, Option.some.injEq] at h
          subst h
          simp [hg, ih hl]
  have hl : rs.length = n := by have := congrArg List.length h'; simpa using this.symm
  refine ⟨hl, fun i r hr => ?_⟩
  have h2 := congrArg (·[i]?) h'
  simp only [List.getElem?_map, hr, Option.map_some] at h2
  have hi : i < n := by rw [← hl]; exact (List.getElem?_eq_some_iff.1 hr).1
  rw [List.getElem?_range hi] at h2
  simpa using h2

/-! ### File names -/

theorem decInt_inj {a b : Int} (ha : IsI64 a) (hb : IsI64 b) (h : decInt a = decInt b) : a = b := by
  have h1 := decInt_parseInt ha
  rw [h, decInt_parseInt hb] at h1
  exact (Option.some.inj h1).symm

theorem keyFileName_inj {a b : Int} (ha : IsI64 a) (hb : IsI64 b) (h : keyFileName a = keyFileName b) : a = b := by
  unfold keyFileName at h
  have h1 := List.append_cancel_left h
  exact decInt_inj ha hb (List.append_cancel_right h1)

/-- Writing the files of keys with different IDs, all writable: exactly these files change. -/
theorem writeShares_spec (R : RSACodec) : ∀ (ks : List KeyFile) (d : Dir),
    (∀ k ∈ ks, IsI64 k.id) → (ks.map (·.id)).Nodup → (∀ k ∈ ks, ∃ bs, marshalKey R k = some bs) →
    (∀ k ∈ ks, d.writable (keyFileName k.id) = true) →
    ∃ d', writeShares R ks d = (.done, d') ∧ d'.writable = d.writable ∧
      (∀ k ∈ ks, d'.files (keyFileName k.id) = marshalKey R k) ∧
      (∀ f, (∀ k ∈ ks, f ≠ keyFileName k.id) → d'.files f = d.files f)
  | [], d, _, _, _, _ => ⟨d, rfl, rfl, by simp, fun _ _ => rfl⟩
  | k :: ks, d, hid, hnd, hm, hw => by
    obtain ⟨bs, hb⟩ := hm k (by simp)
    simp only [List.map_cons, List.nodup_cons] at hnd
    obtain ⟨d', h1, h2, h3, h4⟩ := writeShares_spec R ks
      { d with files := fun f => if f = keyFileName k.id then some bs else d.files f }
      (fun x hx => hid x (by simp [hx])) hnd.2 (fun x hx => hm x (by simp [hx])) (fun x hx => hw x (by simp [hx]))
    refine ⟨d', ?_, h2, ?_, ?_⟩
    · simp only [writeShares, hb, hw k (by simp), if_true, h1]
    · intro x hx
      rcases List.mem_cons.1 hx with rfl | hx
      · rw [h4 _ (fun y hy he => hnd.1 ?_)]
        · simp only [if_true, hb]
        · rw [keyFileName_inj (hid x (by simp)) (hid y (by simp [hy])) he]
          exact List.mem_map_of_mem (f := (·.id)) hy
      · exact h3 x hx
    · intro f hf
      rw [h4 f fun y hy => hf y (by simp [hy])]
      simp only [hf k (by simp), if_false]

end Horcrux
