import Verif.Lemmas.PrivFile
import Verif.Props.Deploy
/-
Property C77: `create-shares` from the key file of a chain node.
-/
namespace Horcrux
open Spec

/-! ### Reading the file -/

theorem text_ascii_clean : sanitize (text "address") = nAddress ∧ sanitize (text "pub_key") = nPubKey ∧
    sanitize (text "priv_key") = nPrivKey ∧ sanitize (text "type") = nTypeField ∧ sanitize (text "value") = nValueField ∧
    sanitize (text "tendermint/PubKeyEd25519") = tPubEd ∧ sanitize (text "tendermint/PrivKeyEd25519") = tPrivEd ∧
    sanitize (text "tendermint/PubKeySecp256k1") = tPubSecp ∧ sanitize (text "tendermint/PrivKeySecp256k1") = tPrivSecp := by
  decide +kernel

/-- A key object is read as its key. -/
theorem readKey_typed {α : Type} (kind : Bytes → Option (Bytes → α)) (type : String) (key : Bytes) (mk : Bytes → α)
    (h : kind (sanitize (text type)) = some mk) : readKey kind (some (typedKey type key).clean) = some (some (mk key)) := by
  obtain ⟨_, _, _, e4, e5, _⟩ := text_ascii_clean
  have e6 : sanitize (b64Enc key) = b64Enc key := b64Enc_valid key
  have d1 : foldKey nTypeField = nTypeField := by decide +kernel
  have d2 : foldKey nValueField = nValueField := by decide +kernel
  have d3 : nValueField ≠ nTypeField := by decide +kernel
  simp only [typedKey, object, object.go, JVal.clean, JObj.clean, e4, e5, e6, readKey, decodeFields, d1, d2, setWrapperField,
    if_true, setString, Option.map_some, d3, if_false, h, setBytes, b64Dec_enc, Slice.bytes]
  rfl

theorem read_file {pubType privType : String} {addr pub priv bs : Bytes} {mk : Bytes → PPubKey} {mk' : Bytes → Bytes}
    (h : ValidatorKeyFile pubType privType addr pub priv bs) (h1 : pubKind (sanitize (text pubType)) = some mk)
    (h2 : privKind (sanitize (text privType)) = some mk') : readPrivFile bs = some ⟨some (mk' priv), mk pub⟩ := by
  obtain ⟨w, t, w', hw, hw', rfl, hr⟩ := h
  obtain ⟨e1, e2, e3, _⟩ := text_ascii_clean
  have e4 : sanitize (hexEnc addr) = hexEnc addr := hexEnc_valid addr
  have d12 : nAddress ≠ nPubKey := by decide +kernel
  have d13 : nAddress ≠ nPrivKey := by decide +kernel
  have d23 : nPubKey ≠ nPrivKey := by decide +kernel
  have c : (object [("address", .str (hexEnc addr) false), ("pub_key", typedKey pubType pub), ("priv_key", typedKey privType priv)]).clean =
      .obj (.cons nAddress (.str (hexEnc addr) false) (.cons nPubKey (typedKey pubType pub).clean
        (.cons nPrivKey (typedKey privType priv).clean .nil))) := by
    simp only [object, object.go, JVal.clean, JObj.clean, e1, e2, e3, e4, hexEnc_escaped]
  have m1 : (JObj.cons nAddress (.str (hexEnc addr) false) (.cons nPubKey (typedKey pubType pub).clean
        (.cons nPrivKey (typedKey privType priv).clean .nil))).member nAddress = some (.str (hexEnc addr) false) := by
    simp [JObj.member, d12.symm, d13.symm]
  have m2 : (JObj.cons nAddress (.str (hexEnc addr) false) (.cons nPubKey (typedKey pubType pub).clean
        (.cons nPrivKey (typedKey privType priv).clean .nil))).member nPubKey = some (typedKey pubType pub).clean := by
    simp [JObj.member, d23.symm]
  have m3 : (JObj.cons nAddress (.str (hexEnc addr) false) (.cons nPubKey (typedKey pubType pub).clean
        (.cons nPrivKey (typedKey privType priv).clean .nil))).member nPrivKey = some (typedKey privType priv).clean := by
    simp [JObj.member]
  unfold readPrivFile
  rw [renders_json hr hw hw' (by
      simp [object, object.go, typedKey, JVal.depth, JObj.depth, maxNesting]), c]
  simp only [m1, m2, m3, readKey_typed pubKind pubType pub mk h1, readKey_typed privKind privType priv mk' h2, tmHex, setHex,
    hexDec_enc, Option.map_some, Option.getD_some]

/-- C77: the key file of a chain node, in any layout, is read as its keys. -/
theorem C77_reads (addr pub priv bs : Bytes)
    (h : ValidatorKeyFile "tendermint/PubKeyEd25519" "tendermint/PrivKeyEd25519" addr pub priv bs) :
    readPrivFile bs = some ⟨some priv, .ed25519 pub⟩ := by
  obtain ⟨_, _, _, _, _, e6, e7, _⟩ := text_ascii_clean
  exact read_file h (mk := .ed25519) (mk' := id) (by rw [e6]; simp [pubKind]) (by rw [e7]; simp [privKind])

/-- A file as a chain node writes it: indented by two spaces. -/
def indentedKeyFile (addr pub priv : Bytes) : Bytes :=
  text "{\n  \"address\": \"" ++ hexEnc addr ++
  text "\",\n  \"pub_key\": {\n    \"type\": \"tendermint/PubKeyEd25519\",\n    \"value\": \"" ++ b64Enc pub ++
  text "\"\n  },\n  \"priv_key\": {\n    \"type\": \"tendermint/PrivKeyEd25519\",\n    \"value\": \"" ++ b64Enc priv ++
  text "\"\n  }\n}"

/-- A byte that a JSON string holds as it is. -/
def PlainByte (c : UInt8) : Prop := c < 0x80 ∧ escAscii c = [c]

instance (c : UInt8) : Decidable (PlainByte c) := inferInstanceAs (Decidable (_ ∧ _))

theorem printStr_plain {s : Bytes} (h : ∀ c ∈ s, PlainByte c) : printStr s = [34] ++ s ++ [34] := by
  rw [printStr, encodeStrAux_plain _ s h (Nat.le_refl _)]; rfl

theorem b64Char_plain {n : Nat} (h : n < 64) : PlainByte (b64Char n) := by
  have key : ∀ n : Fin 64, PlainByte (b64Char n.val) := by decide +kernel
  exact key ⟨n, h⟩

theorem b64Enc_plain : ∀ bs : Bytes, ∀ x ∈ b64Enc bs, PlainByte x
  | [], x, hx => by simp [b64Enc] at hx
  | [a], x, hx => by
    have ha : a.toNat < 256 := a.toNat_lt
    simp only [b64Enc, List.mem_cons, List.not_mem_nil, or_false] at hx
    rcases hx with rfl | rfl | rfl | rfl
    · exact b64Char_plain (by omega)
    · exact b64Char_plain (by omega)
    · decide
    · decide
  | [a, b], x, hx => by
    have ha : a.toNat < 256 := a.toNat_lt
    have hb : b.toNat < 256 := b.toNat_lt
    simp only [b64Enc, List.mem_cons, List.not_mem_nil, or_false] at hx
    rcases hx with rfl | rfl | rfl | rfl
    · exact b64Char_plain (by omega)
    · exact b64Char_plain (by omega)
    · exact b64Char_plain (by omega)
    · decide
  | a :: b :: c :: rest, x, hx => by
    have ha : a.toNat < 256 := a.toNat_lt
    have hb : b.toNat < 256 := b.toNat_lt
    have hc : c.toNat < 256 := c.toNat_lt
    simp only [b64Enc, List.mem_cons] at hx
    rcases hx with rfl | rfl | rfl | rfl | hx
    · exact b64Char_plain (by omega)
    · exact b64Char_plain (by omega)
    · exact b64Char_plain (by omega)
    · exact b64Char_plain (by omega)
    · exact b64Enc_plain rest x hx

theorem hexEnc_plain : ∀ bs : Bytes, ∀ x ∈ hexEnc bs, PlainByte x
  | [], x, hx => by simp [hexEnc] at hx
  | b :: bs, x, hx => by
    have key : ∀ n : Fin 16, PlainByte (hexUpper n.val) := by decide +kernel
    have hb : b.toNat < 256 := b.toNat_lt
    simp only [hexEnc, List.mem_cons] at hx
    rcases hx with rfl | rfl | hx
    · exact key ⟨b.toNat / 16, by omega⟩
    · exact key ⟨b.toNat % 16, by omega⟩
    · exact hexEnc_plain bs x hx

theorem blank_replicate (n : Nat) : Blank (10 :: List.replicate n 32) := by
  intro c hc
  rcases List.mem_cons.1 hc with rfl | hc
  · exact .inr (.inr (.inl rfl))
  · exact .inl (List.eq_of_mem_replicate hc)

theorem blank_nil : Blank [] := fun _ h => by cases h

theorem blank_space : Blank [32] := fun c h => .inl (by simpa using h)

/-- The text of a key, indented. -/
theorem renders_typed (type : String) (key : Bytes) (ht : ∀ c ∈ text type, PlainByte c) :
    Renders (typedKey type key) (text "{\n    \"type\": \"" ++ text type ++ text "\",\n    \"value\": \"" ++ b64Enc key ++
      text "\"\n  }") := by
  have h := Renders.obj (.cons (10 :: List.replicate 4 32) [] [32] [] (blank_replicate 4) blank_nil blank_space blank_nil
    (.str (text type)) (.one (k := text "value") (10 :: List.replicate 4 32) [] [32] (10 :: List.replicate 2 32)
      (blank_replicate 4) blank_nil blank_space (blank_replicate 2) (.str (b64Enc key)))) (k := text "type")
  rw [printStr_plain ht, printStr_plain (b64Enc_plain key)] at h
  have e1 : printStr (text "type") = text "\"type\"" := by decide +kernel
  have e2 : printStr (text "value") = text "\"value\"" := by decide +kernel
  rw [e1, e2] at h
  have c1 : text "{\n    \"type\": \"" = [123] ++ (10 :: List.replicate 4 32) ++ text "\"type\"" ++ [] ++ [58] ++ [32] ++ [34] := by
    decide +kernel
  have c2 : text "\",\n    \"value\": \"" = [34] ++ [] ++ [44] ++ (10 :: List.replicate 4 32) ++ text "\"value\"" ++ [] ++ [58] ++
      [32] ++ [34] := by
    decide +kernel
  have c3 : text "\"\n  }" = [34] ++ (10 :: List.replicate 2 32) ++ [125] := by decide +kernel
  rw [c1, c2, c3]
  simp only [typedKey, object, object.go]
  simpa only [List.append_assoc] using h

/-- It is one of the files meant here. -/
theorem indented_valid (addr pub priv : Bytes) :
    ValidatorKeyFile "tendermint/PubKeyEd25519" "tendermint/PrivKeyEd25519" addr pub priv (indentedKeyFile addr pub priv) := by
  refine ⟨[], indentedKeyFile addr pub priv, [], blank_nil, blank_nil, by simp, ?_⟩
  have h := Renders.obj (.cons (k := text "address") (10 :: List.replicate 2 32) [] [32] [] (blank_replicate 2) blank_nil blank_space
    blank_nil (.str (hexEnc addr)) (.cons (k := text "pub_key") (10 :: List.replicate 2 32) [] [32] [] (blank_replicate 2) blank_nil
      blank_space blank_nil (renders_typed "tendermint/PubKeyEd25519" pub (by decide +kernel))
      (.one (k := text "priv_key") (10 :: List.replicate 2 32) [] [32] [10] (blank_replicate 2) blank_nil blank_space
        (blank_replicate 0) (renders_typed "tendermint/PrivKeyEd25519" priv (by decide +kernel)))))
  rw [printStr_plain (hexEnc_plain addr)] at h
  have e1 : printStr (text "address") = text "\"address\"" := by decide +kernel
  have e2 : printStr (text "pub_key") = text "\"pub_key\"" := by decide +kernel
  have e3 : printStr (text "priv_key") = text "\"priv_key\"" := by decide +kernel
  rw [e1, e2, e3] at h
  have c1 : text "{\n  \"address\": \"" = [123] ++ (10 :: List.replicate 2 32) ++ text "\"address\"" ++ [] ++ [58] ++ [32] ++ [34] := by
    decide +kernel
  have c2 : text "\",\n  \"pub_key\": {\n    \"type\": \"tendermint/PubKeyEd25519\",\n    \"value\": \"" =
      [34] ++ [] ++ [44] ++ (10 :: List.replicate 2 32) ++ text "\"pub_key\"" ++ [] ++ [58] ++ [32] ++
      text "{\n    \"type\": \"" ++ text "tendermint/PubKeyEd25519" ++ text "\",\n    \"value\": \"" := by
    decide +kernel
  have c3 : text "\"\n  },\n  \"priv_key\": {\n    \"type\": \"tendermint/PrivKeyEd25519\",\n    \"value\": \"" =
      text "\"\n  }" ++ [] ++ [44] ++ (10 :: List.replicate 2 32) ++ text "\"priv_key\"" ++ [] ++ [58] ++ [32] ++
      text "{\n    \"type\": \"" ++ text "tendermint/PrivKeyEd25519" ++ text "\",\n    \"value\": \"" := by
    decide +kernel
  have c4 : text "\"\n  }\n}" = text "\"\n  }" ++ [10] ++ [125] := by decide +kernel
  unfold indentedKeyFile
  rw [c1, c2, c3, c4]
  simp only [object, object.go]
  simpa only [List.append_assoc] using h

/-- The file as a chain node writes it is read as its keys. -/
example (addr pub priv : Bytes) : readPrivFile (indentedKeyFile addr pub priv) = some ⟨some priv, .ed25519 pub⟩ :=
  C77_reads addr pub priv _ (indented_valid addr pub priv)

/-! ### Splitting it -/

/-- C77: the key file of a chain node, split with threshold `t` into `n` files, gives a cluster that signs for the key of
the chain node: every cosigner starts from its file; whichever at least `t` of them take part in a round, they sign any
block they have no record at or above and no nonces for, and the signature verifies under the public key in the file. -/
theorem C77_signs (R : RSACodec) (E : SplitEnv) {F G : Type} [Field F] [AddCommGroup G] [Module F G]
    (L : Lawful E.C F G) (pair : Bytes → Bytes → Prop) (hR : R.Lawful pair) (hrsa : LawfulRSA E.C pair)
    (hgen : GenOk pair E.gen) (d : Dir) (file ts ns : Str) (t n : Nat)
    (ht : parseInt ts = some (t : Int)) (hn : parseInt ns = some (n : Int)) (h1t : 1 ≤ t) (htn : t ≤ n)
    (h2n : 2 ≤ n) (hn' : n ≤ 255) (addr pub priv content : Bytes) (hf : d.files file = some content)
    (hkey : ValidatorKeyFile "tendermint/PubKeyEd25519" "tendermint/PrivKeyEd25519" addr pub priv content)
    (hlen : priv.length = 64) (hpub : pub.length = 32) (hexp : (E.expand (priv.take 32)).length = 32)
    (hmatch : pub = L.pt (L.val (E.expand (priv.take 32)) • L.B))
    (hw : ∀ i : Nat, 1 ≤ i → i ≤ n → d.writable (keyFileName i) = true)
    (lib : Lib) (conf : Nat → Config) (hconf : ∀ p, 1 ≤ p → p ≤ n → ClusterConfig lib n t p (conf p)) :
    ∃ d' cfg, createSharesCmd R E readPrivFile d [file, ts, ns] = (.done, d') ∧
      (∀ p : Nat, 1 ≤ p → p ≤ n → ∃ bs k, d'.files (keyFileName p) = some bs ∧ loadKey R bs = .ok k ∧
        startCfg lib (conf p) k.toKey = some (cfg p)) ∧
      ∀ (ps : List Nat), ps.Nodup → (∀ p ∈ ps, 1 ≤ p ∧ p ≤ n) → t ≤ ps.length → ∀ leader ∈ ps,
      ∀ (k : HRST) (bs : Bytes), IsI64 k.timestamp → unpackHRST bs = .ok k →
      ∀ (order mapOrder : Nat → List Nat), (∀ p, (order p).Perm (List.range' 1 n)) → (∀ p, (mapOrder p).Perm ps) →
      ∀ (rnd1 rnd2 : Nat → Nat → Rand), (∀ p i, ∃ sec, (rnd1 p i).secret = some sec ∧ sec.length = 32) →
      ∀ (st : Nat → CState), (∀ p ∈ ps, (st p).lss.hrs ≺ k.hrs) → (∀ p ∈ ps, (st p).hrsMeta k = none) →
      ∃ sig st', signRound E.C cfg ps leader t n pub k bs
          (fun p => (order p).map (fun q : Nat => (q : Int))) mapOrder rnd1 rnd2 st = (.ok sig, st') ∧
        E.C.verify pub bs sig = true :=
  C61_signs R E L pair hR hrsa hgen readPrivFile d file ts ns t n ht hn h1t htn h2n hn' content hf ⟨some priv, .ed25519 pub⟩
    (C77_reads addr pub priv content hkey) priv rfl (by omega) hpub hexp hmatch hw lib conf hconf

/-- A directory with the given file under the name `k`. -/
def keyDir (content : Bytes) : Dir := ⟨fun f => if f = [107] then some content else none, fun _ => true⟩

/-- The key of a chain node: the secret, then the public key. -/
theorem toy_take : toySplit.expand ((fsc 42 ++ fsc 42).take 32) = fsc 42 := by
  show (fsc 42 ++ fsc 42).take 32 = _
  rw [← fsc_length 42, List.take_left]

/-- Concretely: the file with the key 42 as a chain node writes it, split 2-of-3; cosigners 3 and 1 sign the precommit `b1`. -/
example : ∃ d' cfg, createSharesCmd toyCodec toySplit readPrivFile
      (keyDir (indentedKeyFile [1, 2] (fsc 42) (fsc 42 ++ fsc 42))) [[107], [50], [51]] = (.done, d') ∧
    ∃ sig st', signRound ftoy cfg [3, 1] 3 2 3 (fsc 42) ⟨7, 1, 3, 1600000000000000005⟩ b1
      (fun _ => [2, 1, 3]) (fun _ => [1, 3]) (fun p _ => toyRnd (UInt8.ofNat p)) (fun _ _ => toyRnd 9)
      (fun _ => CState.start .empty) = (.ok sig, st') ∧ ftoy.verify (fsc 42) b1 sig = true := by
  obtain ⟨d', cfg, h1, _, h3⟩ := C77_signs toyCodec toySplit ftoyLawful _ toyCodec_lawful ftoyRSA toySplit_gen
    (keyDir (indentedKeyFile [1, 2] (fsc 42) (fsc 42 ++ fsc 42))) [107] [50] [51] 2 3 (by decide) (by decide) (by decide)
    (by decide) (by decide) (by decide) [1, 2] (fsc 42) (fsc 42 ++ fsc 42) _ rfl (indented_valid _ _ _)
    (by rw [List.length_append, fsc_length]) (fsc_length _) (by rw [toy_take, fsc_length])
    (by
      rw [toy_take]
      show fsc 42 = fsc (fval (fsc 42) • (1 : ZMod 257))
      rw [fval_fsc', smul_eq_mul, mul_one])
    (fun _ _ _ => rfl) demoLib deployConf deployConf_ok
  refine ⟨d', cfg, h1, ?_⟩
  obtain ⟨sig, st', e1, e2⟩ := h3 [3, 1] (by decide) (by decide) (by decide) 3 (by decide)
    ⟨7, 1, 3, 1600000000000000005⟩ b1 (by decide) unpack_b1 (fun _ => [2, 1, 3]) (fun _ => [1, 3])
    (fun _ => by decide) (fun _ => by decide) (fun p _ => toyRnd (UInt8.ofNat p)) (fun _ _ => toyRnd 9)
    (fun p i => ⟨List.replicate 32 (UInt8.ofNat p), rfl, by simp⟩) (fun _ => CState.start .empty)
    (fun p _ => show (⟨0, 0, 0⟩ : HRS) ≺ ⟨7, 1, 3⟩ by decide) (fun _ _ => rfl)
  exact ⟨sig, st', e1, e2⟩

/-- C77: whatever the two keys in the file, the key files carry the public key of the file and the shares are shares of its
private key: nothing checks that they belong together. -/
theorem C77_unchecked (R : RSACodec) (E : SplitEnv) {F G : Type} [Field F] [AddCommGroup G] [Module F G]
    (L : Lawful E.C F G) (pair : Bytes → Bytes → Prop) (hR : R.Lawful pair)
    (hgen : GenOk pair E.gen) (d : Dir) (file ts ns : Str) (t n : Nat)
    (ht : parseInt ts = some (t : Int)) (hn : parseInt ns = some (n : Int)) (h1t : 1 ≤ t) (htn : t ≤ n) (hn' : n ≤ 255)
    (addr pub priv content : Bytes) (hf : d.files file = some content)
    (hkey : ValidatorKeyFile "tendermint/PubKeyEd25519" "tendermint/PrivKeyEd25519" addr pub priv content)
    (hlen : priv.length = 64) (hpub : pub.length = 32) (hexp : (E.expand (priv.take 32)).length = 32)
    (hw : ∀ i : Nat, 1 ≤ i → i ≤ n → d.writable (keyFileName i) = true) :
    ∃ d' share, createSharesCmd R E readPrivFile d [file, ts, ns] = (.done, d') ∧
      KeyFiles R pair (.ed25519 pub) n d.files d'.files ∧ ShareKeys R n d'.files share ∧
      ∀ ids : List Nat, ids.Nodup → (∀ i ∈ ids, 1 ≤ i ∧ i ≤ n) → t ≤ ids.length →
        E.C.combineShares n ids (ids.map share) = L.sc (L.val (E.expand (priv.take 32))) := by
  obtain ⟨d', share, h1, h2, h3, _, h5⟩ := C54_recover R E L pair hR hgen readPrivFile d file ts ns t n ht hn h1t htn hn'
    content hf ⟨some priv, .ed25519 pub⟩ (C77_reads addr pub priv content hkey) priv rfl (by omega) hpub hexp hw
  exact ⟨d', share, h1, h2, h3, h5⟩

/-- C77 is false of files in general: `create-shares` succeeds on a file whose public key is not the one of its private key,
and every key file then carries that public key. -/
theorem C77_mismatch_fails : ¬ ∀ (R : RSACodec) (E : SplitEnv) (L : Lawful E.C (ZMod 257) (ZMod 257))
    (pair : Bytes → Bytes → Prop) (d d' : Dir) (file ts ns addr pub priv content : Bytes), R.Lawful pair → GenOk pair E.gen →
    d.files file = some content →
    ValidatorKeyFile "tendermint/PubKeyEd25519" "tendermint/PrivKeyEd25519" addr pub priv content →
    createSharesCmd R E readPrivFile d [file, ts, ns] = (.done, d') →
    KeyFiles R pair (.ed25519 pub) 3 d.files d'.files →
    pub = L.pt (L.val (E.expand (priv.take 32)) • L.B) := by
  intro H
  obtain ⟨d', share, h1, h2, _⟩ := C77_unchecked toyCodec toySplit ftoyLawful _ toyCodec_lawful toySplit_gen
    (keyDir (indentedKeyFile [1, 2] (fsc 41) (fsc 42 ++ fsc 42))) [107] [50] [51] 2 3 (by decide) (by decide) (by decide)
    (by decide) (by decide) [1, 2] (fsc 41) (fsc 42 ++ fsc 42) _ rfl (indented_valid _ _ _)
    (by rw [List.length_append, fsc_length]) (fsc_length _) (by rw [toy_take, fsc_length]) (fun _ _ _ => rfl)
  have := H toyCodec toySplit ftoyLawful _ _ d' [107] [50] [51] _ _ _ _ toyCodec_lawful toySplit_gen rfl (indented_valid _ _ _)
    h1 h2
  rw [toy_take] at this
  have e : ftoyLawful.pt (ftoyLawful.val (fsc 42) • ftoyLawful.B) = fsc (fval (fsc 42) • (1 : ZMod 257)) := rfl
  rw [e, fval_fsc', smul_eq_mul, mul_one] at this
  have := congrArg fval this
  rw [fval_fsc', fval_fsc'] at this
  exact absurd this (by decide)

/-- C77: the kind of key is not checked either. A file with a secp256k1 key, which this signer cannot sign with, is split as
if it were an ed25519 key, and the key files carry the secp256k1 public key. -/
theorem C77_kind (R : RSACodec) (E : SplitEnv) {F G : Type} [Field F] [AddCommGroup G] [Module F G]
    (L : Lawful E.C F G) (pair : Bytes → Bytes → Prop) (hR : R.Lawful pair)
    (hgen : GenOk pair E.gen) (d : Dir) (file ts ns : Str) (t n : Nat)
    (ht : parseInt ts = some (t : Int)) (hn : parseInt ns = some (n : Int)) (h1t : 1 ≤ t) (htn : t ≤ n) (hn' : n ≤ 255)
    (addr pub priv content : Bytes) (hf : d.files file = some content)
    (hkey : ValidatorKeyFile "tendermint/PubKeySecp256k1" "tendermint/PrivKeySecp256k1" addr pub priv content)
    (hlen : priv.length = 32) (hpub : pub.length = 33) (hexp : (E.expand (priv.take 32)).length = 32)
    (hw : ∀ i : Nat, 1 ≤ i → i ≤ n → d.writable (keyFileName i) = true) :
    ∃ d' share, createSharesCmd R E readPrivFile d [file, ts, ns] = (.done, d') ∧
      KeyFiles R pair (.secp256k1 pub) n d.files d'.files ∧ ShareKeys R n d'.files share ∧
      ∀ ids : List Nat, ids.Nodup → (∀ i ∈ ids, 1 ≤ i ∧ i ≤ n) → t ≤ ids.length →
        E.C.combineShares n ids (ids.map share) = L.sc (L.val (E.expand (priv.take 32))) := by
  obtain ⟨_, _, _, _, _, _, _, e8, e9⟩ := text_ascii_clean
  have n1 : tPubSecp ≠ tPubEd := by decide +kernel
  have n2 : tPrivSecp ≠ tPrivEd := by decide +kernel
  have hread := read_file hkey (mk := .secp256k1) (mk' := id) (by rw [e8]; simp [pubKind, n1]) (by rw [e9]; simp [privKind, n2])
  obtain ⟨d', share, h1, h2, h3, _, h5⟩ := C54_recover R E L pair hR hgen readPrivFile d file ts ns t n ht hn h1t htn hn'
    content hf ⟨some priv, .secp256k1 pub⟩ hread priv rfl (by omega) hpub hexp hw
  exact ⟨d', share, h1, h2, h3, h5⟩

/-- Such a file, without white space. -/
example : ValidatorKeyFile "tendermint/PubKeySecp256k1" "tendermint/PrivKeySecp256k1" [1] [2, 3] [4]
    (text ("{\"address\":\"01\",\"pub_key\":{\"type\":\"tendermint/PubKeySecp256k1\",\"value\":\"AgM=\"}," ++
      "\"priv_key\":{\"type\":\"tendermint/PrivKeySecp256k1\",\"value\":\"BA==\"}}")) := by
  refine ⟨[], _, [], blank_nil, blank_nil, by rw [List.nil_append, List.append_nil], ?_⟩
  have k : ∀ (type : String) (key : Bytes), Renders (typedKey type key)
      ([123] ++ ([] ++ printStr (text "type") ++ [] ++ [58] ++ [] ++ printStr (text type) ++ [] ++ [44] ++
        ([] ++ printStr (text "value") ++ [] ++ [58] ++ [] ++ printStr (b64Enc key) ++ [])) ++ [125]) := fun type key =>
    .obj (.cons [] [] [] [] blank_nil blank_nil blank_nil blank_nil (.str (text type))
      (.one [] [] [] [] blank_nil blank_nil blank_nil blank_nil (.str (b64Enc key))))
  have h := Renders.obj (.cons (k := text "address") [] [] [] [] blank_nil blank_nil blank_nil blank_nil (.str (hexEnc [1]))
    (.cons (k := text "pub_key") [] [] [] [] blank_nil blank_nil blank_nil blank_nil (k "tendermint/PubKeySecp256k1" [2, 3])
    (.one (k := text "priv_key") [] [] [] [] blank_nil blank_nil blank_nil blank_nil (k "tendermint/PrivKeySecp256k1" [4]))))
  have e : ∀ {v : JVal} {a b : Bytes}, Renders v a → a = b → Renders v b := fun h e => e ▸ h
  exact e h (by decide +kernel)

/-! ### Files without a private key -/

/-- C77: on a file without `priv_key` the command crashes instead of saying what is wrong. -/
theorem C77_panics (R : RSACodec) (E : SplitEnv) (d : Dir) (file ts ns : Str) (t n : Int)
    (ht : parseInt ts = some t) (hn : parseInt ns = some n) (w text' w' : Bytes) (hw : Blank w) (hw' : Blank w')
    (hf : d.files file = some (w ++ text' ++ w')) (addr pub : Bytes)
    (hr : Renders (object [("address", .str (hexEnc addr) false), ("pub_key", typedKey "tendermint/PubKeyEd25519" pub)]) text') :
    createSharesCmd R E readPrivFile d [file, ts, ns] = (.panic, d) := by
  obtain ⟨e1, e2, _, _, _, e6, _⟩ := text_ascii_clean
  have e4 : sanitize (hexEnc addr) = hexEnc addr := hexEnc_valid addr
  have d12 : nAddress ≠ nPubKey := by decide +kernel
  have d13 : nAddress ≠ nPrivKey := by decide +kernel
  have d23 : nPubKey ≠ nPrivKey := by decide +kernel
  have hread : readPrivFile (w ++ text' ++ w') = some ⟨none, .ed25519 pub⟩ := by
    have c : (object [("address", .str (hexEnc addr) false), ("pub_key", typedKey "tendermint/PubKeyEd25519" pub)]).clean =
        .obj (.cons nAddress (.str (hexEnc addr) false) (.cons nPubKey (typedKey "tendermint/PubKeyEd25519" pub).clean .nil)) := by
      simp only [object, object.go, JVal.clean, JObj.clean, e1, e2, e4, hexEnc_escaped]
    have m1 : (JObj.cons nAddress (.str (hexEnc addr) false) (.cons nPubKey (typedKey "tendermint/PubKeyEd25519" pub).clean
        .nil)).member nAddress = some (.str (hexEnc addr) false) := by
      simp [JObj.member, d12.symm]
    have m2 : (JObj.cons nAddress (.str (hexEnc addr) false) (.cons nPubKey (typedKey "tendermint/PubKeyEd25519" pub).clean
        .nil)).member nPubKey = some (typedKey "tendermint/PubKeyEd25519" pub).clean := by
      simp [JObj.member]
    have m3 : (JObj.cons nAddress (.str (hexEnc addr) false) (.cons nPubKey (typedKey "tendermint/PubKeyEd25519" pub).clean
        .nil)).member nPrivKey = none := by
      simp [JObj.member, d13, d23]
    unfold readPrivFile
    rw [renders_json hr hw hw' (by
      simp [object, object.go, typedKey, JVal.depth, JObj.depth, maxNesting]), c]
    simp only [m1, m2, m3, readKey_typed pubKind "tendermint/PubKeyEd25519" pub .ed25519 (by rw [e6]; simp [pubKind]), tmHex,
      setHex, hexDec_enc, Option.map_some]
    rfl
  simp only [createSharesCmd, hf, ht, hn, hread, createShares]

/-- Concretely: the public part of a key file, or the file `{}`. -/
example : (createSharesCmd toyCodec toySplit readPrivFile (keyDir (text "{}")) [[107], [50], [51]]).1 = .panic ∧
    (createSharesCmd toyCodec toySplit readPrivFile (keyDir (text ("{\"address\":\"0102\",\"pub_key\":" ++
      "{\"type\":\"tendermint/PubKeyEd25519\",\"value\":\"AQID\"}}"))) [[107], [50], [51]]).1 = .panic := by
  decide +kernel

end Horcrux
