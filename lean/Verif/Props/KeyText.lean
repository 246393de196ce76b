import Verif.Lemmas.KeyText
import Verif.Props.KeyFile
/-
C80: exactly the JSON texts of a key share are taken for one.
-/
namespace Horcrux
open Spec

/-- A key is what a file says, the RSA keys and the public key decoded. -/
structure Decoded (R : RSACodec) (r : RawKey) (k : KeyFile) : Prop where
  priv : R.decPriv r.rsaKey.bytes = some (k.rsaKey, k.rsaPub)
  pubs : r.rsaPubs.map (fun b => R.decPub b.bytes) = k.cosignerKeys.map some
  share : k.shareKey = r.share
  id : k.id = r.id

theorem decodePubs_map {R : RSACodec} : ∀ {l : List Slice} {ps : List Bytes},
    decodePubs R l = some ps ↔ l.map (fun b => R.decPub b.bytes) = ps.map some
  | [], ps => by cases ps <;> simp [decodePubs]
  | b :: l, ps => by
    rw [decodePubs]
    cases hb : R.decPub b.bytes with
    | none =>
      simp only [List.map_cons, hb]
      cases ps <;> simp
    | some p =>
      simp only [List.map_cons, hb]
      cases hl : decodePubs R l with
      | none =>
        simp only [reduceCtorEq, false_iff]
        intro h
        cases ps with
        | nil => simp at h
        | cons q qs =>
          simp only [List.map_cons, List.cons.injEq] at h
          rw [decodePubs_map.2 h.2] at hl
          cases hl
      | some qs =>
        have e := decodePubs_map.1 hl
        simp only [Option.some.injEq]
        constructor
        · rintro rfl
          simp [e]
        · intro h
          cases ps with
          | nil => simp at h
          | cons q qs' =>
            simp only [List.map_cons, List.cons.injEq, Option.some.injEq] at h
            have := decodePubs_map.2 h.2
            rw [hl] at this
            rw [h.1, Option.some.inj this]

theorem finishKey_iff {R : RSACodec} {r : RawKey} {k : KeyFile} :
    finishKey R r.aux = .ok k ↔ Decoded R r k ∧ decodePubKey r.pubKey.bytes = some k.pubKey := by
  constructor
  · intro h
    unfold finishKey at h
    split at h
    · cases h
    · rename_i priv pub hp
      split at h
      · cases h
      · rename_i p hq
        split at h
        · cases h
        · rename_i ps hs
          cases h
          exact ⟨⟨hp, decodePubs_map.1 hs, rfl, rfl⟩, hq⟩
  · rintro ⟨⟨h1, h2, h3, h4⟩, h5⟩
    have h2' : decodePubs R r.aux.rsaPubs = some k.cosignerKeys := decodePubs_map.2 h2
    unfold finishKey
    rw [show R.decPriv r.aux.rsaKey.bytes = _ from h1]
    simp only
    rw [show decodePubKey r.aux.pubKey.bytes = _ from h5]
    simp only [h2']
    show KeyRes.ok ⟨k.pubKey, r.share, k.rsaKey, k.rsaPub, r.id, k.cosignerKeys⟩ = _
    rw [← h3, ← h4]

/-- C80: a file that is accepted, if no name is in it twice, is a JSON text for an object that says the key that was loaded.
Missing: files with a name in them twice (`C80_twice_fails`); which encodings of the public key are accepted besides those of
`PubKeyText` (`C80_exact` says which). -/
theorem C80_accepted_partial (R : RSACodec) (bs : Bytes) (k : KeyFile) (h : loadKey R bs = .ok k) (h2 : NoneTwice bs) :
    ∃ r, KeyText r bs ∧ Decoded R r k := by
  unfold loadKey at h
  split at h
  · rename_i l hp
    have hj := parseJson_iff.1 hp
    split at h
    · rename_i a ha
      have one : ∀ name ∈ ["rsa_key", "pub_key", "rsa_pubs", "secret_share", "id"],
          (∀ c ∈ text name, NameChar c) → ∃ m, OneMember l name m := by
        intro name hn hc
        have hv := (named_iff (l := l) hc).2 rfl
        obtain ⟨m, hm⟩ := toList_of_short _ (h2 l hj name hn _ hv)
        exact ⟨m, by unfold OneMember; rw [hm]; exact hv⟩
      obtain ⟨m1, n1⟩ := one "rsa_key" (by simp) (by decide +kernel)
      obtain ⟨m2, n2⟩ := one "pub_key" (by simp) (by decide +kernel)
      obtain ⟨m3, n3⟩ := one "rsa_pubs" (by simp) (by decide +kernel)
      obtain ⟨m4, n4⟩ := one "secret_share" (by simp) (by decide +kernel)
      obtain ⟨m5, n5⟩ := one "id" (by simp) (by decide +kernel)
      have e : a = (RawKey.mk a.rsaKey a.pubKey a.rsaPubs a.share a.id).aux := rfl
      rw [e] at ha h
      obtain ⟨q1, q2, q3, q4, q5⟩ := (keyText_iff hj n1 n2 n3 n4 n5).1 ha
      exact ⟨_, ⟨hj, n1, q1, n2, q2, n3, q3, n4, q4, n5, q5⟩, (finishKey_iff.1 h).1⟩
    · cases h
  · cases h
  · cases h

theorem pubKeyText_decode {p : PPubKey} {b : Bytes} (h : PubKeyText p b) : decodePubKey b = some p := by
  cases h with
  | @ed25519 k hk =>
    have := decodePubKey_proto (.ed25519 k) hk
    rw [← this]
    congr 1
    simp only [encPPubKey, encLen, hk]
    rfl
  | @secp256k1 k hk =>
    have := decodePubKey_proto (.secp256k1 k) hk
    rw [← this]
    congr 1
    simp only [encPPubKey, encLen, hk]
    rfl
  | @amino k hk => exact decodePubKey_amino k hk

theorem loadKey_text {R : RSACodec} {r : RawKey} {bs : Bytes} (h : KeyText r bs) : loadKey R bs = finishKey R r.aux := by
  obtain ⟨hj, n1, q1, n2, q2, n3, q3, n4, q4, n5, q5⟩ := h
  unfold loadKey
  rw [parseJson_iff.2 hj]
  simp only
  rw [(keyText_iff hj n1 n2 n3 n4 n5).2 ⟨q1, q2, q3, q4, q5⟩]

/-- C80: every such text is accepted, whatever its layout, the case and order of the names, and what it contains besides. -/
theorem C80_readable (R : RSACodec) (bs : Bytes) (r : RawKey) (k : KeyFile) (h : KeyText r bs) (hk : Decoded R r k)
    (hp : PubKeyText k.pubKey r.pubKey.bytes) : loadKey R bs = .ok k := by
  rw [loadKey_text h]
  exact finishKey_iff.2 ⟨hk, pubKeyText_decode hp⟩

/-- A share edited by hand: capitals, the Kelvin sign (written as an escape) for `k`, another order and layout, a member that is
not known, arrays of numbers. -/
def editedKey : Bytes :=
  text "{ \"ID\":2 ,\n\"comment\":{\"id\":3}, \"Secret_Share\":[1,2, 3,4],\"RSA_\\u212aEY\":[9,9,1], \"pub_key\":\"CiAHBwcHBwcHBwcHBwcHBwcHBwcHBwcHBwcHBwcHBwcHBw==\",\"rsa_Pubs\" : [\"CAgC\",[9,9,2]]}"

def editedRaw : RawKey :=
  ⟨some [9, 9, 1], some ([0x0a, 0x20] ++ List.replicate 32 7), [some [8, 8, 2], some [9, 9, 2]], some [1, 2, 3, 4], 2⟩

theorem editedKey_text : KeyText editedRaw editedKey := by
  obtain ⟨l, hl⟩ : ∃ l, parseJson editedKey = some (.obj l) := by
    have : (match parseJson editedKey with | some (.obj _) => true | _ => false) = true := by decide +kernel
    cases h : parseJson editedKey with
    | none => rw [h] at this; cases this
    | some v => cases v <;> first | exact ⟨_, rfl⟩ | (rw [h] at this; cases this)
  have hj := parseJson_iff.1 hl
  have len : ∀ n ∈ [nRsaKey, nPubKey, nRsaPubs, nSecretShare, nId], (valuesOf n l).length ≤ 1 := by
    have : (match parseJson editedKey with
      | some (.obj l) => [nRsaKey, nPubKey, nRsaPubs, nSecretShare, nId].all fun n => decide ((valuesOf n l).length ≤ 1)
      | _ => false) = true := by decide +kernel
    rw [hl] at this
    simpa using this
  obtain ⟨m1, n1⟩ := toList_of_short _ (len nRsaKey (by simp))
  obtain ⟨m2, n2⟩ := toList_of_short _ (len nPubKey (by simp))
  obtain ⟨m3, n3⟩ := toList_of_short _ (len nRsaPubs (by simp))
  obtain ⟨m4, n4⟩ := toList_of_short _ (len nSecretShare (by simp))
  obtain ⟨m5, n5⟩ := toList_of_short _ (len nId (by simp))
  have t1 : text "rsa_key" = nRsaKey := by decide +kernel
  have t2 : text "pub_key" = nPubKey := by decide +kernel
  have t3 : text "rsa_pubs" = nRsaPubs := by decide +kernel
  have t4 : text "secret_share" = nSecretShare := by decide +kernel
  have t5 : text "id" = nId := by decide +kernel
  have o1 : OneMember l "rsa_key" m1 := (named_iff (by decide +kernel)).2 (by rw [t1, n1])
  have o2 : OneMember l "pub_key" m2 := (named_iff (by decide +kernel)).2 (by rw [t2, n2])
  have o3 : OneMember l "rsa_pubs" m3 := (named_iff (by decide +kernel)).2 (by rw [t3, n3])
  have o4 : OneMember l "secret_share" m4 := (named_iff (by decide +kernel)).2 (by rw [t4, n4])
  have o5 : OneMember l "id" m5 := (named_iff (by decide +kernel)).2 (by rw [t5, n5])
  have hd : decodeFields setKeyField ⟨none, none, [], none, 0⟩ l = some editedRaw.aux := by
    have : (match parseJson editedKey with
      | some (.obj l) =>
        match decodeFields setKeyField ⟨none, none, [], none, 0⟩ l with
        | some a => decide (a.rsaKey = editedRaw.rsaKey) && (decide (a.pubKey = editedRaw.pubKey) &&
            (decide (a.rsaPubs = editedRaw.rsaPubs) && (decide (a.share = editedRaw.share) && decide (a.id = editedRaw.id))))
        | none => false
      | _ => false) = true := by
      decide +kernel
    rw [hl] at this
    simp only at this
    cases hd : decodeFields setKeyField ⟨none, none, [], none, 0⟩ l with
    | none => rw [hd] at this; cases this
    | some a =>
      rw [hd] at this
      simp only [Bool.and_eq_true, decide_eq_true_eq] at this
      obtain ⟨h1, h2, h3, h4, h5⟩ := this
      cases a
      simp only at h1 h2 h3 h4 h5
      subst h1 h2 h3 h4 h5
      rfl
  obtain ⟨q1, q2, q3, q4, q5⟩ := (keyText_iff hj o1 o2 o3 o4 o5).1 hd
  exact ⟨hj, o1, q1, o2, q2, o3, q3, o4, q4, o5, q5⟩

example : loadKey toyCodec editedKey = .ok toyKeyFile :=
  C80_readable toyCodec editedKey editedRaw toyKeyFile editedKey_text
    ⟨by decide +kernel, by decide +kernel, rfl, rfl⟩ (.ed25519 (by decide))

/-- Nothing else with such names in it is the same: a `c` is no long s, and a byte more is another name. -/
example : ¬ SameName (text "iD ") (text "id") ∧ ¬ SameName (text "secret_chare") (text "secret_share") ∧
    SameName (utf8 '\u017f' ++ text "ECRET_share") (text "secret_share") := by
  refine ⟨fun h => ?_, fun h => ?_, ?_⟩
  · exact absurd (foldKey_of_same h (by decide +kernel)) (by decide +kernel)
  · exact absurd (foldKey_of_same h (by decide +kernel)) (by decide +kernel)
  · exact (foldKey_iff (by decide +kernel)).1 (by decide +kernel)

/-- C80: a text says one thing only. -/
theorem C80_unique (bs : Bytes) (r r' : RawKey) (h : KeyText r bs) (h' : KeyText r' bs) : r = r' := by
  obtain ⟨hj, n1, q1, n2, q2, n3, q3, n4, q4, n5, q5⟩ := h
  obtain ⟨hj', n1', q1', n2', q2', n3', q3', n4', q4', n5', q5'⟩ := h'
  have e := parseJson_iff.2 hj
  rw [parseJson_iff.2 hj'] at e
  cases e
  have a := (keyText_iff hj n1 n2 n3 n4 n5).2 ⟨q1, q2, q3, q4, q5⟩
  rw [(keyText_iff hj' n1' n2' n3' n4' n5').2 ⟨q1', q2', q3', q4', q5'⟩] at a
  cases r
  cases r'
  simp only [RawKey.aux, Option.some.injEq, KeyAux.mk.injEq] at a
  obtain ⟨rfl, rfl, rfl, rfl, rfl⟩ := a
  rfl

/-- C80: a text that does not say a key that can be decoded is refused. -/
theorem C80_refused (R : RSACodec) (bs : Bytes) (h2 : NoneTwice bs) (h : ¬ ∃ r k, KeyText r bs ∧ Decoded R r k) (k : KeyFile) :
    loadKey R bs ≠ .ok k := fun hk => by
  obtain ⟨r, h3, h4⟩ := C80_accepted_partial R bs k hk h2
  exact h ⟨r, k, h3, h4⟩

/-- C80 is false of the text `null`, in any layout: it crashes the process instead of being refused. No other text does. -/
theorem C80_null_fails (R : RSACodec) (bs : Bytes) : loadKey R bs = .crash ↔ JsonText .null bs := by
  rw [← parseJson_iff]
  unfold loadKey
  cases parseJson bs with
  | none => simp
  | some v =>
    cases v <;> simp
    split
    · unfold finishKey
      (repeat' split) <;> simp
    · simp

example : loadKey toyCodec (text " null\n") = .crash :=
  (C80_null_fails toyCodec _).2 (parseJson_iff.1 (by rfl))

example : ∀ t ∈ ["{\"id\":2.0}", "{\"id\":\"2\"}", "{\"secret_share\":\"AQ\"}", "[]", "{\"id\":9223372036854775808}"],
    loadKey toyCodec (text t) = .error := by decide +kernel

/-- The members of the JSON of a key. -/
def keyMembers (R : RSACodec) (k : KeyFile) (pub : Bytes) (share id : Bool) : JObj :=
  .cons nRsaKey (bytesJson (some (R.encPriv k.rsaKey))) (.cons nPubKey (bytesJson (some pub))
    (.cons nRsaPubs (.arr (.ofList (k.cosignerKeys.map fun p => bytesJson (some (R.encPub p)))))
      (if share then .cons nSecretShare (bytesJson k.shareKey) (if id then .cons nId (.num (decInt k.id)) .nil else .nil)
       else if id then .cons nId (.num (decInt k.id)) .nil else .nil)))

/-- What such a file says. -/
def keySays (R : RSACodec) (k : KeyFile) (pub : Bytes) (share id : Bool) : RawKey :=
  ⟨some (R.encPriv k.rsaKey), some pub, k.cosignerKeys.map fun p => some (R.encPub p), if share then k.shareKey else none,
    if id then k.id else 0⟩

theorem keyMembers_depth (R : RSACodec) (k : KeyFile) (pub : Bytes) (share id : Bool) : (keyMembers R k pub share id).depth = 1 := by
  have := ofList_depth (k.cosignerKeys.map fun p => bytesJson (some (R.encPub p))) fun v hv => by
    obtain ⟨p, _, rfl⟩ := List.mem_map.1 hv
    exact bytesJson_depth _
  cases share <;> cases id <;> simp [keyMembers, JVal.depth, JObj.depth, bytesJson_depth, this]

theorem keyMembers_text (R : RSACodec) (k : KeyFile) (pub : Bytes) (share id : Bool) (hid : IsI64 k.id) :
    KeyText (keySays R k pub share id) (JVal.obj (keyMembers R k pub share id)).print := by
  have hl : (JArr.ofList (k.cosignerKeys.map fun p => bytesJson (some (R.encPub p)))).numsOk :=
    ofList_numsOk _ fun v hv => by
      obtain ⟨p, _, rfl⟩ := List.mem_map.1 hv
      exact bytesJson_numsOk _
  have hn : (JVal.obj (keyMembers R k pub share id)).numsOk := by
    cases share <;> cases id
    · exact ⟨bytesJson_numsOk _, bytesJson_numsOk _, hl, trivial⟩
    · exact ⟨bytesJson_numsOk _, bytesJson_numsOk _, hl, decInt_numOk _, trivial⟩
    · exact ⟨bytesJson_numsOk _, bytesJson_numsOk _, hl, bytesJson_numsOk _, trivial⟩
    · exact ⟨bytesJson_numsOk _, bytesJson_numsOk _, hl, bytesJson_numsOk _, decInt_numOk _, trivial⟩
  have hj := parseJson_iff.1 (parseJson_print _ hn (by simp [JVal.depth, keyMembers_depth, maxNesting]))
  have t1 : text "rsa_key" = nRsaKey := by decide +kernel
  have t2 : text "pub_key" = nPubKey := by decide +kernel
  have t3 : text "rsa_pubs" = nRsaPubs := by decide +kernel
  have t4 : text "secret_share" = nSecretShare := by decide +kernel
  have t5 : text "id" = nId := by decide +kernel
  have n1 : OneMember (keyMembers R k pub share id).clean "rsa_key" (some (bytesJson (some (R.encPriv k.rsaKey))).clean) :=
    (named_iff (by decide +kernel)).2 (by rw [t1]; cases share <;> cases id <;> rfl)
  have n2 : OneMember (keyMembers R k pub share id).clean "pub_key" (some (bytesJson (some pub)).clean) :=
    (named_iff (by decide +kernel)).2 (by rw [t2]; cases share <;> cases id <;> rfl)
  have n3 : OneMember (keyMembers R k pub share id).clean "rsa_pubs"
      (some (.arr (JArr.ofList (k.cosignerKeys.map fun p => bytesJson (some (R.encPub p)))).clean)) :=
    (named_iff (by decide +kernel)).2 (by rw [t3]; cases share <;> cases id <;> rfl)
  have n4 : OneMember (keyMembers R k pub share id).clean "secret_share"
      (if share then some (bytesJson k.shareKey).clean else none) :=
    (named_iff (by decide +kernel)).2 (by rw [t4]; cases share <;> cases id <;> rfl)
  have n5 : OneMember (keyMembers R k pub share id).clean "id" (if id then some (.num (decInt k.id)) else none) :=
    (named_iff (by decide +kernel)).2 (by rw [t5]; cases share <;> cases id <;> rfl)
  have hd : ∀ v ∈ valuesOf nId (keyMembers R k pub share id).clean, ∃ t, Json v t := valuesOf_json (obj_members hj)
  obtain ⟨q1, q2, q3, q4, q5⟩ := (keyText_iff (r := keySays R k pub share id) hj n1 n2 n3 n4 n5).1 (by
    rw [decodeKey_iff]
    refine ⟨?_, ?_, ?_, ?_, ?_⟩
    · rw [← t1, (named_iff (by decide +kernel)).1 n1]
      simp only [Option.toList_some, List.foldlM_cons, List.foldlM_nil, bytesJson_set]
      rfl
    · rw [← t2, (named_iff (by decide +kernel)).1 n2]
      simp only [Option.toList_some, List.foldlM_cons, List.foldlM_nil, bytesJson_set]
      rfl
    · rw [← t3, (named_iff (by decide +kernel)).1 n3]
      simp only [Option.toList_some, List.foldlM_cons, List.foldlM_nil, setByteLists, ofList_clean, setByteElems_bytes]
      rfl
    · rw [← t4, (named_iff (by decide +kernel)).1 n4]
      cases share
      · rfl
      · simp only [if_true, Option.toList_some, List.foldlM_cons, List.foldlM_nil, bytesJson_set]
        rfl
    · rw [← t5, (named_iff (by decide +kernel)).1 n5]
      cases id
      · rfl
      · simp only [if_true, Option.toList_some, List.foldlM_cons, List.foldlM_nil,
          setInt_dec hid hid.1 (show k.id ≤ 2 ^ 63 - 1 by have := hid.2; omega)]
        rfl)
  exact ⟨hj, n1, q1, n2, q2, n3, q3, n4, q4, n5, q5⟩

/-- C80: what has been written by the program is such a text. -/
theorem C80_written (R : RSACodec) (k : KeyFile) (bs : Bytes) (hid : IsI64 k.id) (h : marshalKey R k = some bs) :
    ∃ r, KeyText r bs ∧ r.share = k.shareKey ∧ r.id = k.id ∧ r.rsaKey = some (R.encPriv k.rsaKey) ∧
      r.rsaPubs = k.cosignerKeys.map fun p => some (R.encPub p) := by
  refine ⟨keySays R k (encPPubKey k.pubKey) true true, ?_, rfl, rfl, rfl, rfl⟩
  have e : bs = (JVal.obj (keyMembers R k (encPPubKey k.pubKey) true true)).print := by
    unfold marshalKey at h
    split at h
    · cases h
    · cases h
      rfl
  rw [e]
  exact keyMembers_text R k _ true true hid

/-- C80 is false of files that do not say the share or the ID: with every configuration with which the whole file starts a
cosigner, the file without these members starts one, which takes itself for cosigner 0, with no share. -/
theorem C80_silent_fails (R : RSACodec) (pair : Bytes → Bytes → Prop) (hR : R.Lawful pair) (k : KeyFile)
    (hpub : k.pubKey.Sized) (hid : IsI64 k.id) (hrsa : pair k.rsaPub k.rsaKey)
    (hpubs : ∀ p ∈ k.cosignerKeys, ∃ priv, pair p priv) :
    ∃ bs r k', KeyText r bs ∧ r.share = none ∧ (∃ l, JsonText (.obj l) bs ∧ OneMember l "secret_share" none ∧
        OneMember l "id" none) ∧ loadKey R bs = .ok k' ∧
      ∀ lib conf cc, startCfg lib conf k.toKey = some cc → ∃ cc', startCfg lib conf k'.toKey = some cc' ∧ cc'.id = 0 ∧
        cc'.shareKey = [] := by
  have ht := keyMembers_text R k (encPPubKey k.pubKey) false false hid
  refine ⟨_, _, { k with shareKey := none, id := 0 }, ht, rfl, ?_, ?_, ?_⟩
  · have hl : (JArr.ofList (k.cosignerKeys.map fun p => bytesJson (some (R.encPub p)))).numsOk :=
      ofList_numsOk _ fun v hv => by
        obtain ⟨p, _, rfl⟩ := List.mem_map.1 hv
        exact bytesJson_numsOk _
    refine ⟨_, parseJson_iff.1 (parseJson_print (.obj (keyMembers R k (encPPubKey k.pubKey) false false))
      ⟨bytesJson_numsOk _, bytesJson_numsOk _, hl, trivial⟩ (by simp [JVal.depth, keyMembers_depth, maxNesting])), ?_, ?_⟩
    · exact (named_iff (by decide +kernel)).2 rfl
    · exact (named_iff (by decide +kernel)).2 rfl
  · rw [loadKey_text ht]
    refine finishKey_iff.2 ⟨⟨?_, ?_, rfl, rfl⟩, decodePubKey_proto _ hpub⟩
    · exact hR.priv _ _ hrsa
    · refine decodePubs_map.1 (decodePubs_enc _ fun p hp => ?_)
      obtain ⟨priv, h⟩ := hpubs p hp
      exact hR.pub _ _ h
  · intro lib conf cc h
    have key : ∀ (ps : List CosignerPeer) (m m' : Int → Option Bytes), (enterPeers k.cosignerKeys ps m).isSome →
        (enterPeers k.cosignerKeys ps m').isSome := by
      intro ps
      induction ps with
      | nil => intro m m' _; rfl
      | cons p ps ih =>
        intro m m' h
        rw [enterPeers] at h ⊢
        split at h
        · cases h
        · rename_i hp
          rw [if_neg hp]
          split at h
          · cases h
          · exact ih _ _ h
    unfold startCfg at h ⊢
    split at h
    · rename_i c hv hc
      split at h
      · cases h
      · rename_i peers hp
        have := key c.peers _ (mapSet (fun _ => none) 0 k.rsaPub) (by rw [show enterPeers k.cosignerKeys c.peers _ = _ from hp]; rfl)
        obtain ⟨peers', hp'⟩ := Option.isSome_iff_exists.1 this
        simp only [KeyFile.toKey, hp']
        exact ⟨_, rfl, rfl, rfl⟩
    · cases h

/-- Concretely, for the toy key. -/
example : ∃ bs k', loadKey toyCodec bs = .ok k' ∧ k'.id = 0 ∧ k'.shareKey = none := by
  have ht := keyMembers_text toyCodec toyKeyFile (encPPubKey toyKeyFile.pubKey) false false (by decide)
  refine ⟨(JVal.obj (keyMembers toyCodec toyKeyFile (encPPubKey toyKeyFile.pubKey) false false)).print,
    { toyKeyFile with shareKey := none, id := 0 }, ?_, rfl, rfl⟩
  · rw [loadKey_text ht]
    decide +kernel

/-- C80 is false of files with a name in them twice: the member that comes last counts, whatever the first says. -/
theorem C80_twice_fails (R : RSACodec) (pair : Bytes → Bytes → Prop) (hR : R.Lawful pair) (k : KeyFile) (s : Slice)
    (hpub : k.pubKey.Sized) (hid : IsI64 k.id) (hrsa : pair k.rsaPub k.rsaKey)
    (hpubs : ∀ p ∈ k.cosignerKeys, ∃ priv, pair p priv) :
    ∃ bs l, JsonText (.obj l) bs ∧ Named "secret_share" l [(bytesJson s).clean, (bytesJson k.shareKey).clean] ∧
      loadKey R bs = .ok k := by
  have hl : (JArr.ofList (k.cosignerKeys.map fun p => bytesJson (some (R.encPub p)))).numsOk :=
    ofList_numsOk _ fun v hv => by
      obtain ⟨p, _, rfl⟩ := List.mem_map.1 hv
      exact bytesJson_numsOk _
  have hp := parseJson_print (.obj (.cons nSecretShare (bytesJson s) (keyMembers R k (encPPubKey k.pubKey) true true)))
    ⟨bytesJson_numsOk _, bytesJson_numsOk _, bytesJson_numsOk _, hl, bytesJson_numsOk _, decInt_numOk _, trivial⟩
    (by simp [JVal.depth, JObj.depth, keyMembers_depth, bytesJson_depth, maxNesting])
  refine ⟨_, _, parseJson_iff.1 hp, ?_, ?_⟩
  · exact (named_iff (by decide +kernel)).2 rfl
  · unfold loadKey
    rw [hp]
    simp only [JVal.clean]
    have hd : decodeFields setKeyField ⟨none, none, [], none, 0⟩
        (JObj.cons nSecretShare (bytesJson s) (keyMembers R k (encPPubKey k.pubKey) true true)).clean =
        some (keySays R k (encPPubKey k.pubKey) true true).aux := by
      rw [decodeKey_iff]
      refine ⟨?_, ?_, ?_, ?_, ?_⟩
      · show List.foldlM _ _ [(bytesJson (some (R.encPriv k.rsaKey))).clean] = _
        simp only [List.foldlM_cons, List.foldlM_nil, bytesJson_set]
        rfl
      · show List.foldlM _ _ [(bytesJson (some (encPPubKey k.pubKey))).clean] = _
        simp only [List.foldlM_cons, List.foldlM_nil, bytesJson_set]
        rfl
      · show List.foldlM _ _ [JVal.arr (JArr.ofList (k.cosignerKeys.map fun p => bytesJson (some (R.encPub p)))).clean] = _
        simp only [List.foldlM_cons, List.foldlM_nil, setByteLists, ofList_clean, setByteElems_bytes]
        rfl
      · show List.foldlM _ _ [(bytesJson s).clean, (bytesJson k.shareKey).clean] = _
        simp only [List.foldlM_cons, List.foldlM_nil, bytesJson_set]
        rfl
      · show List.foldlM _ _ [JVal.num (decInt k.id)] = _
        simp only [List.foldlM_cons, List.foldlM_nil,
          setInt_dec hid hid.1 (show k.id ≤ 2 ^ 63 - 1 by have := hid.2; omega)]
        rfl
    rw [hd]
    refine finishKey_iff.2 ⟨⟨?_, ?_, rfl, rfl⟩, decodePubKey_proto _ hpub⟩
    · exact hR.priv _ _ hrsa
    · refine decodePubs_map.1 (decodePubs_enc _ fun p hp => ?_)
      obtain ⟨priv, h⟩ := hpubs p hp
      exact hR.pub _ _ h

example : ∃ bs l, JsonText (.obj l) bs ∧ Named "secret_share" l [(bytesJson (some [5])).clean, (bytesJson (some [1, 2, 3, 4])).clean] ∧
    loadKey toyCodec bs = .ok toyKeyFile :=
  C80_twice_fails toyCodec _ toyCodec_lawful toyKeyFile (some [5]) rfl (by decide) rfl fun p _ => ⟨p, rfl⟩

example : ∃ bs r, marshalKey toyCodec toyKeyFile = some bs ∧ KeyText r bs ∧ r.share = some [1, 2, 3, 4] := by
  obtain ⟨bs, h, -⟩ := C55_round_trip toyCodec _ toyCodec_lawful toyKeyFile rfl (by decide) rfl (fun p _ => ⟨p, rfl⟩)
  obtain ⟨r, h1, h2, -⟩ := C80_written toyCodec toyKeyFile bs (by decide) h
  exact ⟨bs, r, h, h1, h2⟩

end Horcrux
