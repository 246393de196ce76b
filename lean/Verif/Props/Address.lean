import Verif.Lemmas.Address
import Verif.Props.KeyFile
import Verif.Props.Config
/-
Property C76: `cosigner address` prints the addresses of the validator key.
-/
namespace Horcrux
open Spec

/-! ### Bech32 -/

theorem bech32_eq (hrp data : Bytes) : bech32 hrp data =
    hrp ++ text "1" ++ (toGroups 0 0 data ++ bech32Checksum hrp (toGroups 0 0 data)).map bechChar := by
  unfold bech32
  simp only
  rw [List.append_assoc, show text "1" = [49] from rfl, List.singleton_append]
  congr 2

theorem flatMap_bits_length {α : Type} (w : Nat) (f : α → Nat) : ∀ l : List α,
    (l.flatMap fun x => bits w (f x)).length = w * l.length
  | [] => rfl
  | x :: l => by
    rw [List.flatMap_cons, List.length_append, bits_length, flatMap_bits_length w f l, List.length_cons, Nat.mul_succ]
    omega

/-- The length of a Bech32 string. -/
theorem isBech32_length {limit : Nat} {hrp data s : Bytes} (h : IsBech32 limit hrp data s) :
    s.length = hrp.length + 7 + (8 * data.length + 4) / 5 := by
  obtain ⟨_, _, _, _, vals, sum, _, h6, hs, _, pad, hp, hb⟩ := h
  have hl := congrArg List.length hb
  rw [List.length_append, List.length_replicate, flatMap_bits_length 5 (fun x => x) vals,
    flatMap_bits_length 8 (fun b : UInt8 => b.toNat) data] at hl
  rw [hs]
  simp only [List.length_append, List.length_map, show (text "1").length = 1 from rfl, h6]
  omega

/-- C76: what the program makes of a human-readable part (with a lower-case letter, as all its have) and some bytes is a
Bech32 string for them, exactly if that part is printable and without capital letters and the limit for the length is
kept. -/
theorem C76_bech32 (limit : Nat) (hrp data : Bytes) (hlow : ∃ c ∈ hrp, 97 ≤ c ∧ c ≤ 122) :
    IsBech32 limit hrp data (bech32 hrp data) ↔
      (∀ c ∈ hrp, 33 ≤ c ∧ c ≤ 126 ∧ ¬ (65 ≤ c ∧ c ≤ 90)) ∧ hrp.length + 7 + (8 * data.length + 4) / 5 ≤ limit := by
  constructor
  · intro h
    refine ⟨fun c hc => ⟨(h.2.1 c hc).1, (h.2.1 c hc).2, fun hu => ?_⟩, by rw [← isBech32_length h]; exact h.2.2.1⟩
    obtain ⟨d, hd, hd'⟩ := hlow
    have mem : ∀ x ∈ hrp, x ∈ bech32 hrp data := by intro x hx; simp [bech32, hx]
    exact h.2.2.2.1 ⟨⟨c, mem c hc, hu⟩, d, mem d hd, hd'⟩
  · rintro ⟨hc, hl⟩
    obtain ⟨hg, pad, hp, hbits⟩ := toGroups_spec data 0 0 (by omega) (by omega)
    obtain ⟨hs, hrem⟩ := checksum_ok hrp _ hg
    have hlt : ∀ v ∈ toGroups 0 0 data ++ bech32Checksum hrp (toGroups 0 0 data), v < 32 := by
      intro v hv
      rcases List.mem_append.1 hv with hv | hv
      · exact hg v hv
      · exact hs.lt v hv
    have hbits' : (toGroups 0 0 data).flatMap (bits 5) = data.flatMap (fun b => bits 8 b.toNat) ++ List.replicate pad false := by
      rw [hbits]; rfl
    refine ⟨?_, fun c h => ⟨(hc c h).1, (hc c h).2.1⟩, ?_, ?_, _, _, hlt, hs.len, bech32_eq hrp data, ?_, pad, hp, hbits'⟩
    · obtain ⟨c, h, _⟩ := hlow
      intro he; rw [he] at h; cases h
    · rw [bech32_eq]
      have hl' := congrArg List.length hbits'
      rw [List.length_append, List.length_replicate, flatMap_bits_length 5 (fun x => x) (toGroups 0 0 data),
        flatMap_bits_length 8 (fun b : UInt8 => b.toNat) data] at hl'
      simp only [List.length_append, List.length_map, show (text "1").length = 1 from rfl, hs.len]
      omega
    · rintro ⟨⟨c, h, hu⟩, -⟩
      rw [bech32_eq] at h
      simp only [List.mem_append, List.mem_map] at h
      rcases h with (h | h) | ⟨v, hv, rfl⟩
      · exact (hc c h).2.2 hu
      · rw [show text "1" = [49] from rfl, List.mem_singleton] at h
        subst h
        revert hu; decide
      · exact (bechChar_facts (hlt v (List.mem_append.2 hv))).2.1 hu
    · have e : hrp.map (fun c => c.toNat / 32) ++ [0] ++ hrp.map (fun c => c.toNat % 32) = hrpExpand hrp := by
        unfold hrpExpand
        rw [List.append_assoc, List.singleton_append]
        congr 1
        · refine List.map_congr_left fun c _ => ?_
          rw [Nat.shiftRight_eq_div_pow]
        · congr 1
          refine List.map_congr_left fun c _ => ?_
          rw [show (31 : Nat) = 2 ^ 5 - 1 from rfl, Nat.and_two_pow_sub_one_eq_mod]
      rw [e]
      exact hrem

/-- A Bech32 string stands for one human-readable part and one byte string. -/
theorem C76_unique {limit limit' : Nat} {hrp hrp' data data' s : Bytes} (h : IsBech32 limit hrp data s)
    (h' : IsBech32 limit' hrp' data' s) : hrp = hrp' ∧ data = data' := by
  obtain ⟨_, _, _, _, vals, sum, hlt, h6, hs, _, pad, hp, hb⟩ := h
  obtain ⟨_, _, _, _, vals', sum', hlt', h6', hs', _, pad', hp', hb'⟩ := h'
  have hno : ∀ l : List Nat, (∀ v ∈ l, v < 32) → (49 : UInt8) ∉ l.map bechChar := by
    intro l hl hm
    obtain ⟨v, hv, he⟩ := List.mem_map.1 hm
    exact (bechChar_facts (hl v hv)).1 he
  rw [hs, show text "1" = [49] from rfl, List.append_assoc, List.append_assoc] at hs'
  obtain ⟨e1, e2⟩ := split_last (hno _ hlt) (hno _ hlt') hs'
  have e3 := groups_inj _ _ hlt hlt' e2
  obtain ⟨e4, _⟩ := List.append_inj' e3 (by rw [h6, h6'])
  refine ⟨e1, ?_⟩
  subst e4
  rw [hb] at hb'
  exact bytes_of_bits data data' pad pad' hp hp' hb'

/-- The test vectors of BIP-173 for a short part, in lower case; the prefix that validators know. -/
example : bech32 (text "a") [] = text "a12uel5l" ∧
    bech32 (text "cosmosvalcons") [0, 1, 2, 3, 4, 5, 6, 7, 8, 9, 10, 11, 12, 13, 14, 15, 16, 17, 18, 19] =
      text "cosmosvalcons1qqqsyqcyq5rqwzqfpg9scrgwpugpzysnj3kn3t" := by decide +kernel

/-! ### The command -/

/-- The command finds a usable key. -/
structure HasKey (hash : Bytes → Bytes) (R : RSACodec) (lib : Lib) (shareFile : Str → Str) (files : Str → Option Bytes)
    (cfg : Config) (pk : Bytes) : Prop where
  accepted : validateCosignerConfig lib cfg = .ok ()
  key : ∃ content k, files (if cfg.privValKeyFile = [] then shareFile cfg.homeDir else cfg.privValKeyFile) = some content ∧
    loadKey R content = .ok k ∧ k.pubKey = .ed25519 pk
  len : pk.length = 32
  hashed : (hash pk).length = 20

variable {hash : Bytes → Bytes} {R : RSACodec} {lib : Lib} {shareFile : Str → Str} {files : Str → Option Bytes} {cfg : Config}
  {pk : Bytes}

theorem HasKey.run (h : HasKey hash R lib shareFile files cfg pk) {args : List Str} (ha : args.length ≤ 1) :
    addressCmd hash R lib shareFile files cfg args = .printed ((addressJson (hash pk) pk args).print ++ [10]) := by
  obtain ⟨hc, ⟨content, k, hf, hk, hp⟩, hl, _⟩ := h
  unfold addressCmd
  rw [if_neg (by omega), hc]
  simp only [hf, hk, hp, hl, if_true]

theorem addressJson_depth (addr pk : Bytes) (args : List Str) : (addressJson addr pk args).depth = 1 := by
  unfold addressJson
  split <;> simp [JVal.depth, JObj.depth]

theorem parse_line {addr pk : Bytes} {args : List Str} (h : (addressJson addr pk args).numsOk) :
    parseJson ((addressJson addr pk args).print ++ [10]) = some (addressJson addr pk args).clean := by
  have := parseVal_print _ h [10] (by simp [Term])
  unfold parseJson
  rw [this]
  simp [skipWs, JVal.clean_depth, addressJson_depth, maxNesting]

theorem ascii_valid {s : Bytes} (h : ∀ c ∈ s, c < 0x80) : sanitize s = s := validUtf8_ascii s h

theorem clean_address (addr : Bytes) (args : List Str) : ∃ a p x y z u, (addressJson addr pk args).numsOk ∧
    (addressJson addr pk args).clean =
      .obj (.cons nHexAddress (.str (hexEnc addr) x) (.cons nOutPubKey (.str (pubKeyText [] pk) y)
        (.cons nValCons (.str (sanitize a) z) (.cons nValConsPub (.str (sanitize p) u) .nil)))) ∧
    (∀ base, args = [base] → a = bech32 (base ++ valconsSuffix) addr ∧ p = pubKeyText base pk) ∧
    (args = [] → a = bech32Hint ∧ p = bech32Hint) := by
  have e1 : sanitize (hexEnc addr) = hexEnc addr := hexEnc_valid addr
  have e2 : sanitize (pubKeyText [] pk) = pubKeyText [] pk := by
    refine ascii_valid fun c hc => ?_
    simp only [pubKeyText, ne_eq, not_true_eq_false, if_false, JVal.print, JObj.print] at hc
    have hb : ∀ c ∈ b64Enc pk, c < 0x80 := fun c hc => (b64Enc_mem pk c hc).2.2
    have enc : ∀ (f : Nat) (s : Bytes), (∀ c ∈ s, c < 0x80) → ∀ c ∈ encodeStrAux f s, c < 0x80 := by
      intro f
      induction f with
      | zero => intro s _ c hc; cases hc
      | succ f ih =>
        intro s hs c hc
        cases s with
        | nil => cases hc
        | cons x s =>
          have hx := hs x (by simp)
          unfold encodeStrAux at hc
          rw [if_pos hx] at hc
          rcases List.mem_append.1 hc with hc | hc
          · have : ∀ x : Fin 128, ∀ c ∈ escAscii (UInt8.ofNat x), c < 0x80 := by decide +kernel
            have e : UInt8.ofNat x.toNat = x := UInt8.ofNat_toNat
            exact this ⟨x.toNat, hx⟩ c (by rw [e]; exact hc)
          · exact ih s (fun y hy => hs y (by simp [hy])) c hc
    have pr : ∀ s : Bytes, (∀ c ∈ s, c < 0x80) → ∀ c ∈ printStr s, c < 0x80 := by
      intro s hs c hc
      unfold printStr at hc
      rcases List.mem_cons.1 hc with rfl | hc
      · decide
      · rcases List.mem_append.1 hc with hc | hc
        · exact enc _ s hs c hc
        · rw [List.mem_singleton] at hc; subst hc; decide
    simp only [if_true, List.nil_append, List.cons_append, List.append_nil, List.append_assoc, List.mem_cons, List.mem_append,
      List.not_mem_nil, or_false, Bool.false_eq_true, if_false] at hc
    rcases hc with rfl | hc | rfl | hc | rfl | hc | rfl | hc | rfl
    · decide
    · exact pr _ (by decide) c hc
    · decide
    · exact pr _ (by decide) c hc
    · decide
    · exact pr _ (by decide) c hc
    · decide
    · exact pr _ hb c hc
    · decide
  have k1 : sanitize nHexAddress = nHexAddress := by decide +kernel
  have k2 : sanitize nOutPubKey = nOutPubKey := by decide +kernel
  have k3 : sanitize nValCons = nValCons := by decide +kernel
  have k4 : sanitize nValConsPub = nValConsPub := by decide +kernel
  match args with
  | [base] =>
    refine ⟨bech32 (base ++ valconsSuffix) addr, pubKeyText base pk, escaped (hexEnc addr), escaped (pubKeyText [] pk),
      escaped (bech32 (base ++ valconsSuffix) addr), escaped (pubKeyText base pk), ?_, ?_, ?_, ?_⟩
    · exact ⟨trivial, trivial, trivial, trivial, trivial⟩
    · simp only [addressJson, JVal.clean, JObj.clean, e1, e2, k1, k2, k3, k4]
    · intro b hb; cases hb; exact ⟨rfl, rfl⟩
    · intro h; cases h
  | [] =>
    refine ⟨bech32Hint, bech32Hint, escaped (hexEnc addr), escaped (pubKeyText [] pk), escaped bech32Hint,
      escaped bech32Hint, ?_, ?_, ?_, ?_⟩
    · exact ⟨trivial, trivial, trivial, trivial, trivial⟩
    · simp only [addressJson, JVal.clean, JObj.clean, e1, e2, k1, k2, k3, k4]
    · intro b hb; cases hb
    · intro _; exact ⟨rfl, rfl⟩
  | a :: b :: l =>
    refine ⟨bech32Hint, bech32Hint, escaped (hexEnc addr), escaped (pubKeyText [] pk), escaped bech32Hint,
      escaped bech32Hint, ?_, ?_, ?_, ?_⟩
    · exact ⟨trivial, trivial, trivial, trivial, trivial⟩
    · simp only [addressJson, JVal.clean, JObj.clean, e1, e2, k1, k2, k3, k4]
    · intro b hb; cases hb
    · intro h; cases h

theorem members_address (h p a q : Bytes) (x y z u : Bool) :
    let j := JVal.obj (.cons nHexAddress (.str h x) (.cons nOutPubKey (.str p y) (.cons nValCons (.str a z)
      (.cons nValConsPub (.str q u) .nil))))
    jmember j "HexAddress" = some h ∧ jmember j "PubKey" = some p ∧ jmember j "ValConsAddress" = some a ∧
      jmember j "ValConsPubAddress" = some q := by
  have e1 : nHexAddress = text "HexAddress" := by decide +kernel
  have e2 : nOutPubKey = text "PubKey" := by decide +kernel
  have e3 : nValCons = text "ValConsAddress" := by decide +kernel
  have e4 : nValConsPub = text "ValConsPubAddress" := by decide +kernel
  have d12 : text "HexAddress" ≠ text "PubKey" := by decide +kernel
  have d13 : text "HexAddress" ≠ text "ValConsAddress" := by decide +kernel
  have d14 : text "HexAddress" ≠ text "ValConsPubAddress" := by decide +kernel
  have d23 : text "PubKey" ≠ text "ValConsAddress" := by decide +kernel
  have d24 : text "PubKey" ≠ text "ValConsPubAddress" := by decide +kernel
  have d34 : text "ValConsAddress" ≠ text "ValConsPubAddress" := by decide +kernel
  simp [jmember, jmember.go, e1, e2, e3, e4, d12, d13, d14, d23, d24, d34]

theorem hexEnc_upper : ∀ (bs : Bytes), ∀ c ∈ hexEnc bs, ¬ (97 ≤ c ∧ c ≤ 122)
  | [], _, hc => by cases hc
  | b :: bs, c, hc => by
    have : ∀ n : Fin 16, ¬ (97 ≤ hexUpper n ∧ hexUpper n ≤ 122) := by decide +kernel
    have hb := b.toNat_lt
    unfold hexEnc at hc
    rcases List.mem_cons.1 hc with rfl | hc
    · exact this ⟨b.toNat / 16, by omega⟩
    · rcases List.mem_cons.1 hc with rfl | hc
      · exact this ⟨b.toNat % 16, by omega⟩
      · exact hexEnc_upper bs c hc

theorem pubKeyText_json (pk : Bytes) : ∃ k b, parseJson (pubKeyText [] pk) = some k ∧
    jmember k "@type" = some (text "/cosmos.crypto.ed25519.PubKey") ∧ jmember k "key" = some b ∧ b64Dec b = some pk := by
  have e1 : nAtType = text "@type" := by decide +kernel
  have e2 : nJsonKey = text "key" := by decide +kernel
  have e3 : edTypeUrl = text "/cosmos.crypto.ed25519.PubKey" := by decide +kernel
  have d : text "@type" ≠ text "key" := by decide +kernel
  have k1 : sanitize (text "@type") = text "@type" := by decide +kernel
  have k2 : sanitize (text "key") = text "key" := by decide +kernel
  have k3 : sanitize (text "/cosmos.crypto.ed25519.PubKey") = text "/cosmos.crypto.ed25519.PubKey" := by decide +kernel
  have k4 : sanitize (b64Enc pk) = b64Enc pk := b64Enc_valid pk
  refine ⟨(JVal.obj (.cons nAtType (.str edTypeUrl false) (.cons nJsonKey (.str (b64Enc pk) false) .nil))).clean, b64Enc pk, ?_, ?_, ?_,
    b64Dec_enc pk⟩
  · unfold pubKeyText
    rw [if_neg (by simp)]
    exact parseJson_print _ ⟨trivial, trivial, trivial⟩ (by simp [JVal.depth, JObj.depth, maxNesting])
  · simp [JVal.clean, JObj.clean, jmember, jmember.go, e1, e3, k1, k3]
  · simp [JVal.clean, JObj.clean, jmember, jmember.go, e1, e2, d, k1, k2, k4]

/-- C76: with a usable key, the command shows the address and the key, with and without an argument. -/
theorem C76_key (h : HasKey hash R lib shareFile files cfg pk) (args : List Str) (ha : args.length ≤ 1) :
    ∃ out, addressCmd hash R lib shareFile files cfg args = .printed out ∧ ShowsKey (hash pk) pk out := by
  refine ⟨_, h.run ha, ?_⟩
  obtain ⟨a, p, x, y, z, u, hn, hc, _, _⟩ := clean_address (pk := pk) (hash pk) args
  obtain ⟨k, b, h1, h2, h3, h4⟩ := pubKeyText_json pk
  obtain ⟨m1, m2, _, _⟩ := members_address (hexEnc (hash pk)) (pubKeyText [] pk) (sanitize a) (sanitize p) x y z u
  exact ⟨_, _, _, k, b, parse_line hn, by rw [hc]; exact m1, hexDec_enc _, hexEnc_upper _, by rw [hc]; exact m2, h1, h2, h3, h4⟩

/-- C76: something is printed only for at most one argument and a usable key; in particular more arguments are refused. -/
theorem C76_only (hash : Bytes → Bytes) (hh : ∀ bs, (hash bs).length = 20) (R : RSACodec) (lib : Lib) (shareFile : Str → Str)
    (files : Str → Option Bytes) (cfg : Config) (args : List Str) (out : Bytes)
    (h : addressCmd hash R lib shareFile files cfg args = .printed out) :
    args.length ≤ 1 ∧ ∃ pk, HasKey hash R lib shareFile files cfg pk := by
  unfold addressCmd at h
  split at h
  · cases h
  · refine ⟨by omega, ?_⟩
    split at h
    · cases h
    · next hc =>
      split at h
      · cases h
      · next content hf =>
        split at h
        · cases h
        · cases h
        · next k hk =>
          split at h
          · next pk hp =>
            split at h
            · next hl => exact ⟨pk, hc, ⟨content, k, hf, hk, hp⟩, hl, hh pk⟩
            · cases h
          · cases h

/-- C76: with more than one argument the command fails, whatever else is there. -/
theorem C76_args (hash : Bytes → Bytes) (R : RSACodec) (lib : Lib) (shareFile : Str → Str) (files : Str → Option Bytes)
    (cfg : Config) (a b : Str) (more : List Str) :
    addressCmd hash R lib shareFile files cfg (a :: b :: more) = .failed := by
  unfold addressCmd
  exact if_pos (by simp)

/-- Without an argument, the other two members say what to do. -/
theorem C76_hint (h : HasKey hash R lib shareFile files cfg pk) :
    ∃ out j, addressCmd hash R lib shareFile files cfg [] = .printed out ∧ parseJson out = some j ∧
      jmember j "ValConsAddress" = some (text "Pass bech32 base prefix as argument to generate (e.g. cosmos)") ∧
      jmember j "ValConsPubAddress" = some (text "Pass bech32 base prefix as argument to generate (e.g. cosmos)") := by
  obtain ⟨a, p, x, y, z, u, hn, hc, _, h0⟩ := clean_address (pk := pk) (hash pk) []
  obtain ⟨rfl, rfl⟩ := h0 rfl
  have e : sanitize bech32Hint = text "Pass bech32 base prefix as argument to generate (e.g. cosmos)" := by decide +kernel
  obtain ⟨_, _, m3, m4⟩ := members_address (hexEnc (hash pk)) (pubKeyText [] pk) (sanitize bech32Hint) (sanitize bech32Hint) x y z u
  exact ⟨_, _, h.run (by simp), parse_line hn, by rw [hc, m3, e], by rw [hc, m4, e]⟩

/-- The texts that can be the base of an address: at least one character, printable ones only, no capital letters. -/
def GoodBase (base : Str) : Prop := base ≠ [] ∧ ∀ c ∈ base, 33 ≤ c ∧ c ≤ 126 ∧ ¬ (65 ≤ c ∧ c ≤ 90)

instance (base : Str) : Decidable (GoodBase base) := by unfold GoodBase; infer_instance

theorem good_append {base suf : Str} (h : GoodBase base) (hs : GoodBase suf) :
    ∀ c ∈ base ++ suf, 33 ≤ c ∧ c ≤ 126 ∧ ¬ (65 ≤ c ∧ c ≤ 90) := by
  intro c hc
  rcases List.mem_append.1 hc with hc | hc
  · exact h.2 c hc
  · exact hs.2 c hc

/-- C76, partial: the command shows the consensus address and the consensus key for its argument exactly if that is at
least one character, all of them printable and none a capital letter, and at most `limit - 77` of them. Missing: it does
not refuse other arguments (`C76_fails`), and for them it prints something else. -/
theorem C76_cons_partial (h : HasKey hash R lib shareFile files cfg pk) (limit : Nat) (base : Str) :
    ∃ out, addressCmd hash R lib shareFile files cfg [base] = .printed out ∧
      (ShowsCons limit base (hash pk) pk out ↔ GoodBase base ∧ base.length + 77 ≤ limit) := by
  refine ⟨_, h.run (by simp), ?_⟩
  obtain ⟨a, p, x, y, z, u, hn, hc, hb, _⟩ := clean_address (pk := pk) (hash pk) [base]
  obtain ⟨ha, hp⟩ := hb base rfl
  obtain ⟨_, _, m3, m4⟩ := members_address (hexEnc (hash pk)) (pubKeyText [] pk) (sanitize a) (sanitize p) x y z u
  have e1 : valconsSuffix = text "valcons" := by decide +kernel
  have e2 : valconspubSuffix = text "valconspub" := by decide +kernel
  have e3 : aminoKey pk = aminoEd25519 pk := by
    unfold aminoKey aminoEd25519
    rw [h.len]; rfl
  have hlen3 : (aminoEd25519 pk).length = 37 := by unfold aminoEd25519; simp [h.len]
  constructor
  · rintro ⟨j, a', p', hj, h3, h4, b3, b4⟩
    rw [parse_line hn, hc] at hj
    injection hj with hj
    subst hj
    rw [m3] at h3; rw [m4] at h4
    injection h3 with h3
    injection h4 with h4
    refine ⟨⟨?_, fun c hcb => ?_⟩, ?_⟩
    · rintro rfl
      -- the key is shown as JSON
      have hs : ∃ r, p = 123 :: r := by
        rw [hp]
        exact ⟨_, rfl⟩
      obtain ⟨r, hr⟩ := hs
      have hs2 : sanitize p = 123 :: sanitize r := by rw [hr]; exact sanitize_cons_ascii (by decide)
      obtain ⟨_, _, _, _, vals, sum, _, _, hs', _⟩ := b4
      rw [← h4, hs2, List.nil_append] at hs'
      have : ∃ r, text "valconspub" = 118 :: r := ⟨_, rfl⟩
      obtain ⟨r', hr'⟩ := this
      rw [hr'] at hs'
      simp only [List.cons_append, List.cons.injEq] at hs'
      exact absurd hs'.1 (by decide)
    · have hmem : c ∈ base ++ text "valcons" := List.mem_append_left _ hcb
      refine ⟨(b3.2.1 c hmem).1, (b3.2.1 c hmem).2, fun hu => ?_⟩
      obtain ⟨_, _, _, hmix, vals, sum, _, _, hs', _⟩ := b3
      refine hmix ⟨⟨c, ?_, hu⟩, 118, ?_, by decide⟩
      · rw [hs']; simp [hcb]
      · have : (118 : UInt8) ∈ text "valcons" := by decide +kernel
        rw [hs']; simp [this]
    · have hl := isBech32_length b4
      have := b4.2.2.1
      rw [hlen3, List.length_append, show (text "valconspub").length = 10 from by decide +kernel] at hl
      omega
  · rintro ⟨hg, hl⟩
    have g1 : GoodBase (text "valcons") := by decide +kernel
    have g2 : GoodBase (text "valconspub") := by decide +kernel
    have b3 : IsBech32 limit (base ++ text "valcons") (hash pk) (bech32 (base ++ text "valcons") (hash pk)) := by
      refine (C76_bech32 limit _ _ ⟨118, ?_, by decide⟩).2 ⟨good_append hg g1, ?_⟩
      · have : (118 : UInt8) ∈ text "valcons" := by decide +kernel
        simp [this]
      · rw [h.hashed, List.length_append, show (text "valcons").length = 7 from by decide +kernel]
        omega
    have b4 : IsBech32 limit (base ++ text "valconspub") (aminoEd25519 pk)
        (bech32 (base ++ text "valconspub") (aminoEd25519 pk)) := by
      refine (C76_bech32 limit _ _ ⟨118, ?_, by decide⟩).2 ⟨good_append hg g2, ?_⟩
      · have : (118 : UInt8) ∈ text "valconspub" := by decide +kernel
        simp [this]
      · rw [hlen3, List.length_append, show (text "valconspub").length = 10 from by decide +kernel]
        omega
    have asc : ∀ {n : Nat} {hrp d s : Bytes}, IsBech32 n hrp d s → sanitize s = s := by
      rintro n hrp d s ⟨_, hr, _, _, vals, sum, hlt, _, hs, _⟩
      refine ascii_valid fun c hc' => ?_
      rw [hs] at hc'
      simp only [List.mem_append, List.mem_map] at hc'
      rcases hc' with (hc' | hc') | ⟨v, hv, rfl⟩
      · exact Nat.lt_of_le_of_lt (hr c hc').2 (by decide)
      · rw [show text "1" = [49] from rfl, List.mem_singleton] at hc'
        subst hc'; decide
      · exact (bechChar_facts (hlt v (List.mem_append.2 hv))).2.2.1
    have ea : sanitize a = bech32 (base ++ text "valcons") (hash pk) := by rw [ha, e1, asc b3]
    have ep : sanitize p = bech32 (base ++ text "valconspub") (aminoEd25519 pk) := by
      rw [hp, pubKeyText, if_pos hg.1, e2, e3, asc b4]
    exact ⟨_, _, _, parse_line hn, by rw [hc, m3, ea], by rw [hc, m4, ep], b3, b4⟩

/-- What is shown stands for one key: two runs of the command with the same output and good arguments are about the same
base and the same key. -/
theorem C76_identifies {hash' : Bytes → Bytes} {R' : RSACodec} {lib' : Lib} {shareFile' : Str → Str}
    {files' : Str → Option Bytes} {cfg' : Config} {pk' : Bytes} (h : HasKey hash R lib shareFile files cfg pk)
    (h' : HasKey hash' R' lib' shareFile' files' cfg' pk') (base base' : Str) (hg : GoodBase base) (hg' : GoodBase base')
    (he : addressCmd hash R lib shareFile files cfg [base] = addressCmd hash' R' lib' shareFile' files' cfg' [base']) :
    base = base' ∧ pk = pk' := by
  obtain ⟨out, ho, hs⟩ := C76_cons_partial h (base.length + 77) base
  obtain ⟨out', ho', hs'⟩ := C76_cons_partial h' (base'.length + 77) base'
  rw [ho, ho'] at he
  injection he with he
  subst he
  obtain ⟨j, a, p, hj, _, hp, _, b⟩ := hs.2 ⟨hg, Nat.le_refl _⟩
  obtain ⟨j', a', p', hj', _, hp', _, b'⟩ := hs'.2 ⟨hg', Nat.le_refl _⟩
  rw [hj] at hj'
  injection hj' with hj'
  subst hj'
  rw [hp] at hp'
  injection hp' with hp'
  subst hp'
  obtain ⟨e1, e2⟩ := C76_unique b b'
  refine ⟨List.append_cancel_right e1, ?_⟩
  unfold aminoEd25519 at e2
  exact (List.append_inj' e2 (by rw [h.len, h'.len])).2

/-- A directory with a key file. -/
def demoKeys : Str → Option Bytes := fun f => if f = [115] then marshalKey toyCodec toyKeyFile else none

/-- The first 20 bytes, for a hash. -/
def demoHash (b : Bytes) : Bytes := b.take 20

theorem demo_hasKey : HasKey demoHash toyCodec demoLib (fun _ => [115]) demoKeys demoConfig (List.replicate 32 7) where
  accepted := by decide +kernel
  key := by
    obtain ⟨bs, h1, h2⟩ := C55_round_trip toyCodec _ toyCodec_lawful toyKeyFile rfl (by decide) rfl (fun p _ => ⟨p, rfl⟩)
    exact ⟨bs, toyKeyFile, h1, h2, rfl⟩
  len := by decide
  hashed := by decide

/-- A prefix that works, within the limit of 90 characters of the standard. -/
example : ∃ out, addressCmd demoHash toyCodec demoLib (fun _ => [115]) demoKeys demoConfig [text "cosmos"] = .printed out ∧
    ShowsKey (List.replicate 20 7) (List.replicate 32 7) out ∧
    ShowsCons 90 (text "cosmos") (List.replicate 20 7) (List.replicate 32 7) out := by
  obtain ⟨out, h1, h2⟩ := C76_key demo_hasKey [text "cosmos"] (by simp)
  obtain ⟨out', h1', h3⟩ := C76_cons_partial demo_hasKey 90 (text "cosmos")
  rw [h1] at h1'
  injection h1' with e
  subst e
  exact ⟨out, h1, h2, h3.2 (by decide +kernel)⟩

/-- C76 is false for other arguments: they are not refused. The empty one gets JSON for the key, one with a capital
letter a string in mixed case. -/
theorem C76_fails : ¬ ∀ (hash : Bytes → Bytes) (R : RSACodec) (lib : Lib) (shareFile : Str → Str)
    (files : Str → Option Bytes) (cfg : Config) (pk : Bytes) (base : Str) (out : Bytes),
    HasKey hash R lib shareFile files cfg pk → addressCmd hash R lib shareFile files cfg [base] = .printed out →
    ∃ limit, ShowsCons limit base (hash pk) pk out := by
  intro h
  obtain ⟨out, ho, _⟩ := C76_cons_partial demo_hasKey 90 (text "Cosmos")
  obtain ⟨limit, hs⟩ := h _ _ _ _ _ _ _ _ _ demo_hasKey ho
  obtain ⟨out', ho', hi⟩ := C76_cons_partial demo_hasKey limit (text "Cosmos")
  rw [ho] at ho'
  injection ho' with e
  subst e
  exact absurd (hi.1 hs).1 (by decide +kernel)

/-- C76 is false for the argument that the documentation gives (`docs/migrating.md:208`: the `valcons` prefix of the
chain, such as `cosmosvalcons`): whatever the chain, the address that is shown does not have that prefix. -/
theorem C76_doc_fails (h : HasKey hash R lib shareFile files cfg pk) (chain : Str) (hg : GoodBase chain) :
    ∃ out j a, addressCmd hash R lib shareFile files cfg [chain ++ text "valcons"] = .printed out ∧
      parseJson out = some j ∧ jmember j "ValConsAddress" = some a ∧
      ¬ ∃ limit addr, IsBech32 limit (chain ++ text "valcons") addr a := by
  have hg2 : GoodBase (chain ++ text "valcons") :=
    ⟨by intro he; exact hg.1 (List.append_eq_nil_iff.1 he).1, good_append hg (by decide +kernel)⟩
  obtain ⟨out, ho, hs⟩ := C76_cons_partial h ((chain ++ text "valcons").length + 77) (chain ++ text "valcons")
  obtain ⟨j, a, p, hj, ha, _, b, _⟩ := hs.2 ⟨hg2, Nat.le_refl _⟩
  refine ⟨out, j, a, ho, hj, ha, ?_⟩
  rintro ⟨limit, addr, b'⟩
  have := congrArg List.length (C76_unique b b').1
  rw [List.length_append (bs := text "valcons"), show (text "valcons").length = 7 from by decide +kernel] at this
  omega

/-- `cosmosvalcons` -/
example : ∃ out j, addressCmd demoHash toyCodec demoLib (fun _ => [115]) demoKeys demoConfig [text "cosmosvalcons"] =
      .printed out ∧ parseJson out = some j ∧
    (jmember j "ValConsAddress").map (List.take 21) = some (text "cosmosvalconsvalcons1") := by
  obtain ⟨a, p, x, y, z, u, hn, hc, hb, _⟩ := clean_address (pk := List.replicate 32 7) (demoHash (List.replicate 32 7)) [text "cosmosvalcons"]
  refine ⟨_, _, demo_hasKey.run (by simp), parse_line hn, ?_⟩
  rw [hc, (members_address _ _ _ _ _ _ _ _).2.2.1, (hb _ rfl).1]
  decide +kernel

/-- A key of a wrong length, which is accepted in the older encoding, crashes the command. -/
theorem C76_panics (hc : validateCosignerConfig lib cfg = .ok ()) {content : Bytes} {k : KeyFile}
    (hf : files (if cfg.privValKeyFile = [] then shareFile cfg.homeDir else cfg.privValKeyFile) = some content)
    (hk : loadKey R content = .ok k) (hp : k.pubKey = .ed25519 pk) (hl : pk.length ≠ 32) (args : List Str)
    (ha : args.length ≤ 1) : addressCmd hash R lib shareFile files cfg args = .panic := by
  unfold addressCmd
  rw [if_neg (by omega), hc]
  simp only [hf, hk, hp, hl, if_false]

example : decodePubKey [0x16, 0x24, 0xDE, 0x64, 1, 5] = some (.ed25519 [5]) := by decide +kernel

end Horcrux
