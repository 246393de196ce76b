import Verif.Lemmas.Encodings
import Verif.Props.Node
import Verif.Props.Fields
/-
Property C101: requests of chain nodes are read whatever their encoding.
-/
namespace Horcrux
open Spec

/-- **C101** (`Serialization.go:12-18`, `remote_signer.go:105-107`). Whatever the encoding of a request, also with the fields in
another order, several times, or unknown to horcrux, with numbers in more bytes than needed, and with messages in pieces: the
request is read, and the stream after it is what is left. -/
theorem C101_read {m : PMsg} {l bs : Bytes} (h : RequestText m bs) (hl : Varint64 bs.length l) (hs : bs.length ≤ 10240)
    (rest : Bytes) : readMsg (l ++ bs ++ rest) = some (m, rest) := by
  unfold readMsg
  rw [List.append_assoc, readUvarint_varint hl]
  have h1 : ¬ (bs.length > maxRemoteSignerMsgSize) := by unfold maxRemoteSignerMsgSize; omega
  have h2 : ¬ ((bs ++ rest).length < bs.length) := by simp only [List.length_append]; omega
  simp only [h1, h2, if_false, List.take_left, List.drop_left, decode_request h, Option.map_some]

/-- **C101** (`remote_signer.go:105-121`). Two encodings of the same request get the same answer and lead to the same cluster. -/
theorem C101_served (text : Err → Bytes) (C : Crypto) (vcfg : ValidatorCfg) (cfg : Nat → CosignerCfg) (n : Nat) (chainID : Bytes)
    (s : Sys) (way : Way) {m : PMsg} {l bs l' bs' : Bytes} (h : RequestText m bs) (hl : Varint64 bs.length l)
    (hs : bs.length ≤ 10240) (h' : RequestText m bs') (hl' : Varint64 bs'.length l') (hs' : bs'.length ≤ 10240) (rest : Bytes) :
    s.serve text C vcfg cfg n chainID (l ++ bs ++ rest) way = s.serve text C vcfg cfg n chainID (l' ++ bs' ++ rest) way := by
  have e := C101_read h hl hs rest
  have e' := C101_read h' hl' hs' rest
  unfold Sys.serve loopIter dialPhase servePhase
  simp only [e, e', if_true]

/-! ### The encodings that tendermint writes are among them -/

/-- A number that is left out if it is zero. -/
def optNum (n : Nat) (x : Int) : List FVal := if x = 0 then [] else [.num n (toU64 x)]

/-- Bytes that are left out if there are none. -/
def optBytes (n : Nat) (x : Bytes) : List FVal := if x = [] then [] else [.bytes n x]

theorem nums_append (n : Nat) (a b : List FVal) : nums n (a ++ b) = nums n a ++ nums n b := by
  unfold nums; rw [List.filterMap_append]
theorem lens_append (n : Nat) (a b : List FVal) : lens n (a ++ b) = lens n a ++ lens n b := by
  unfold lens; rw [List.filterMap_append]
theorem nums_optNum (n k : Nat) (x : Int) : nums n (optNum k x) = if k = n ∧ x ≠ 0 then [toU64 x] else [] := by
  unfold optNum nums
  by_cases h : x = 0 <;> by_cases h' : k = n <;> simp [h, h']
theorem nums_optBytes (n k : Nat) (x : Bytes) : nums n (optBytes k x) = [] := by
  unfold optBytes nums
  split <;> rfl
theorem lens_optNum (n k : Nat) (x : Int) : lens n (optNum k x) = [] := by
  unfold optNum lens
  split <;> rfl
theorem lens_optBytes (n k : Nat) (x : Bytes) : lens n (optBytes k x) = if k = n ∧ x ≠ [] then [x] else [] := by
  unfold optBytes lens
  by_cases h : x = [] <;> by_cases h' : k = n <;> simp [h, h']
theorem nums_bytes (n k : Nat) (x : Bytes) : nums n [.bytes k x] = [] := rfl
theorem lens_bytes (n k : Nat) (x : Bytes) : lens n [.bytes k x] = if k = n then [x] else [] := by
  unfold lens
  by_cases h' : k = n <;> simp [h']

section
variable {ns ls : List Nat}

theorem encodes_append {fs gs : List FVal} {a b : Bytes} (ha : Encodes ns ls fs a) (hb : Encodes ns ls gs b) :
    Encodes ns ls (fs ++ gs) (a ++ b) := by
  induction ha with
  | nil => exact hb
  | num hn ht hx _ ih => rw [List.append_assoc]; exact .num hn ht hx ih
  | bytes hn ht hl _ ih => rw [List.append_assoc]; exact .bytes hn ht hl ih
  | other hn hf _ ih => rw [List.append_assoc]; exact .other hn hf ih

theorem encodes_num (b : UInt8) (k : Nat) (hk : k ∈ ns) (h1 : 1 ≤ k) (h : b.toNat = 8 * k) (hb : b.toNat < 128) (x : Int) :
    Encodes ns ls (optNum k x) (encVarintField b x) := by
  unfold optNum encVarintField
  split
  · exact .nil
  · have := Encodes.num (lens := ls) hk (tag_byte b k 0 h1 h hb) (varint64_encode (toU64_lt x)) .nil
    rwa [List.append_nil] at this

theorem encodes_len (b : UInt8) (k : Nat) (hk : k ∈ ls) (h1 : 1 ≤ k) (h : b.toNat = 8 * k + 2) (hb : b.toNat < 128) (x : Bytes)
    (hx : x.length < 2 ^ 64) : Encodes ns ls [.bytes k x] (encLen b x) := by
  have := Encodes.bytes (nums := ns) hk (tag_byte b k 2 h1 h hb) (varint64_encode hx) .nil
  rw [List.append_nil] at this
  exact this

theorem encodes_bytes (b : UInt8) (k : Nat) (hk : k ∈ ls) (h1 : 1 ≤ k) (h : b.toNat = 8 * k + 2) (hb : b.toNat < 128) (x : Bytes)
    (hx : x.length < 2 ^ 64) : Encodes ns ls (optBytes k x) (encBytesField b x) := by
  unfold optBytes encBytesField
  split
  · exact .nil
  · exact encodes_len b k hk h1 h hb x hx
end

theorem says_optNum (x : Int) (h : IsI64 x) {n : Nat} {fs : List FVal} (hf : nums n fs = if x ≠ 0 then [toU64 x] else []) :
    SaysInt n fs x := by
  unfold SaysInt
  rw [hf]
  split
  · next h0 =>
    simp only [List.getLast?_singleton, Option.getD_some]
    unfold toU64
    rw [Int.toNat_of_nonneg (Int.emod_nonneg _ (by decide))]
  · next h0 =>
    simp only [ne_eq, not_not] at h0
    subst h0; rfl

theorem psh_text (total : Nat) (hash : Bytes) (ht : total < 2 ^ 32) (hs : hash.length < 2 ^ 62) :
    PSHText total hash (encPSH ⟨total, hash⟩) := by
  refine ⟨ht, optNum 1 total ++ optBytes 2 hash, ?_, says_optNum _ (by unfold IsI64; omega) ?_, ?_⟩
  · exact encodes_append (encodes_num _ 1 (by decide) (by decide) (by decide) (by decide) _)
      (encodes_bytes _ 2 (by decide) (by decide) (by decide) (by decide) _ (by omega))
  · simp only [nums_append, nums_optNum, nums_optBytes, true_and, List.append_nil]
  · unfold SaysBytes
    simp only [lens_append, lens_optNum, lens_optBytes, List.nil_append, true_and]
    by_cases h : hash = [] <;> simp [h]

theorem blockID_text (b : BlockID) (ht : b.pshTotal < 2 ^ 32) (hs : b.hash.length + b.pshHash.length < 2 ^ 62) :
    BlockIDText b (encBlockID b.toC) := by
  have hp := psh_text b.pshTotal b.pshHash ht (by omega)
  have hl := encPBlockID_le b
  have hl' := encLen_length 0x12 (encPSH ⟨b.pshTotal, b.pshHash⟩)
  have hl'' : (encLen 0x12 (encPSH ⟨b.pshTotal, b.pshHash⟩)).length ≤ (encBlockID b.toC).length := by
    unfold encBlockID BlockID.toC; simp only [List.length_append]; omega
  obtain ⟨fs, hfs⟩ := hp.2
  refine ⟨optBytes 1 b.hash ++ [.bytes 2 (encPSH ⟨b.pshTotal, b.pshHash⟩)], ?_, ?_, ?_, ?_⟩
  · exact encodes_append (encodes_bytes _ 1 (by decide) (by decide) (by decide) (by decide) _ (by omega))
      (encodes_len _ 2 (by decide) (by decide) (by decide) (by decide) _ (by omega))
  · unfold SaysBytes
    simp only [lens_append, lens_bytes, lens_optBytes, true_and]
    by_cases h : b.hash = [] <;> simp [h]
  · simp only [lens_append, lens_bytes, lens_optBytes]
    simp
    exact encodes_fields hfs.1
  · simp only [lens_append, lens_bytes, lens_optBytes]
    simpa using hp

theorem time_text (t : GoTime) (h : t.valid = true) : TimeText t (encTime t) := by
  have h' : -62135596800 ≤ t.sec ∧ t.sec < 253402300800 ∧ 0 ≤ t.nsec ∧ t.nsec < 1000000000 := by
    simpa [GoTime.valid, timestampValid, and_assoc] using h
  obtain ⟨h1, h2, h3, h4⟩ := h'
  refine ⟨h1, h2, h3, h4, optNum 1 t.sec ++ optNum 2 t.nsec, ?_, says_optNum _ (by unfold IsI64; omega) ?_,
    says_optNum _ (by unfold IsI64; omega) ?_⟩
  · exact encodes_append (encodes_num _ 1 (by decide) (by decide) (by decide) (by decide) _)
      (encodes_num _ 2 (by decide) (by decide) (by decide) (by decide) _)
  · simp [nums_append, nums_optNum]
  · simp [nums_append, nums_optNum]

theorem isI64_of_i32 {x : Int} (h : IsI32 x) : IsI64 x := by unfold IsI32 at h; unfold IsI64; omega

theorem vote_text (v : Vote) (h : v.PWF) : VoteText v (encPVote v) := by
  have hsz := h.size
  have h1 := encPBlockID_le v.blockID
  have h2 := encTime_le v.timestamp
  have hb := blockID_text v.blockID h.block (by omega)
  have ht := time_text v.timestamp h.time
  obtain ⟨fb, hfb⟩ := hb
  refine ⟨h.type, h.height, h.round, h.index,
    optNum 1 v.type ++ (optNum 2 v.height ++ (optNum 3 v.round ++ ([.bytes 4 (encBlockID v.blockID.toC)] ++
      ([.bytes 5 (encTime v.timestamp)] ++ (optBytes 6 v.validatorAddress ++ (optNum 7 v.validatorIndex ++
        (optBytes 8 v.signature.bytes ++ []))))))), ?_, says_optNum _ (isI64_of_i32 h.type) ?_, says_optNum _ h.height ?_,
    says_optNum _ (isI64_of_i32 h.round) ?_, ⟨?_, ?_⟩, ⟨[], encTime v.timestamp, ?_, ht, by simp⟩, ?_,
    says_optNum _ (isI64_of_i32 h.index) ?_, ?_⟩
  · unfold encPVote
    refine encodes_append ?_ (encodes_append ?_ (encodes_append ?_ (encodes_append ?_ (encodes_append ?_ (encodes_append ?_
      (encodes_append ?_ (encodes_append ?_ .nil)))))))
    · exact encodes_num _ _ (by decide) (by decide) (by decide) (by decide) _
    · exact encodes_num _ _ (by decide) (by decide) (by decide) (by decide) _
    · exact encodes_num _ _ (by decide) (by decide) (by decide) (by decide) _
    · exact encodes_len _ _ (by decide) (by decide) (by decide) (by decide) _ (by omega)
    · exact encodes_len _ _ (by decide) (by decide) (by decide) (by decide) _ (by omega)
    · exact encodes_bytes _ _ (by decide) (by decide) (by decide) (by decide) _ (by omega)
    · exact encodes_num _ _ (by decide) (by decide) (by decide) (by decide) _
    · exact encodes_bytes _ _ (by decide) (by decide) (by decide) (by decide) _ (by omega)
  all_goals simp only [SaysBytes, nums_append, lens_append, nums_optNum, nums_optBytes, lens_optNum, lens_optBytes, nums_bytes,
    lens_bytes]
  · simp [nums]
  · simp [nums]
  · simp [nums]
  · simp [lens]; exact encodes_fields hfb.1
  · simp [lens]; exact ⟨fb, hfb⟩
  · simp [lens]
  · by_cases h : v.validatorAddress = [] <;> simp [h, lens]
  · simp [nums]
  · by_cases h0 : v.signature.bytes = []
    · simp [lens, sig_empty h.sig h0, Slice.bytes]
    · simp [h0, lens, sig_some h0]

theorem proposal_text (p : Proposal) (h : p.PWF) : ProposalText p (encPProposal p) := by
  have hsz := h.size
  have h1 := encPBlockID_le p.blockID
  have h2 := encTime_le p.timestamp
  have hb := blockID_text p.blockID h.block (by omega)
  have ht := time_text p.timestamp h.time
  obtain ⟨fb, hfb⟩ := hb
  refine ⟨h.type, h.height, h.round, h.polRound,
    optNum 1 p.type ++ (optNum 2 p.height ++ (optNum 3 p.round ++ (optNum 4 p.polRound ++
      ([.bytes 5 (encBlockID p.blockID.toC)] ++ ([.bytes 6 (encTime p.timestamp)] ++
        (optBytes 7 p.signature.bytes ++ [])))))), ?_, says_optNum _ (isI64_of_i32 h.type) ?_, says_optNum _ h.height ?_,
    says_optNum _ (isI64_of_i32 h.round) ?_, says_optNum _ (isI64_of_i32 h.polRound) ?_, ⟨?_, ?_⟩,
    ⟨[], encTime p.timestamp, ?_, ht, by simp⟩, ?_⟩
  · unfold encPProposal
    refine encodes_append ?_ (encodes_append ?_ (encodes_append ?_ (encodes_append ?_ (encodes_append ?_ (encodes_append ?_
      (encodes_append ?_ .nil))))))
    · exact encodes_num _ _ (by decide) (by decide) (by decide) (by decide) _
    · exact encodes_num _ _ (by decide) (by decide) (by decide) (by decide) _
    · exact encodes_num _ _ (by decide) (by decide) (by decide) (by decide) _
    · exact encodes_num _ _ (by decide) (by decide) (by decide) (by decide) _
    · exact encodes_len _ _ (by decide) (by decide) (by decide) (by decide) _ (by omega)
    · exact encodes_len _ _ (by decide) (by decide) (by decide) (by decide) _ (by omega)
    · exact encodes_bytes _ _ (by decide) (by decide) (by decide) (by decide) _ (by omega)
  all_goals simp only [nums_append, lens_append, nums_optNum, nums_optBytes, lens_optNum, lens_optBytes, nums_bytes,
    lens_bytes]
  · simp [nums]
  · simp [nums]
  · simp [nums]
  · simp [nums]
  · simp [lens]; exact encodes_fields hfb.1
  · simp [lens]; exact ⟨fb, hfb⟩
  · simp [lens]
  · by_cases h0 : p.signature.bytes = []
    · simp [lens, sig_empty h.sig h0, Slice.bytes]
    · simp [h0, lens, sig_some h0]

/-- A request to sign, as tendermint writes it. -/
theorem sign_text {text : Bytes → Prop} (x c : Bytes) (hx : Fields x) (ht : text x) (hs : x.length + c.length < 2 ^ 64) :
    SignText text c (encLen 0x0a x ++ (encBytesField 0x12 c ++ [])) := by
  refine ⟨[.bytes 1 x] ++ (optBytes 2 c ++ []), encodes_append ?_ (encodes_append ?_ .nil), ?_, ⟨?_, ?_⟩, ?_⟩
  · exact encodes_len _ _ (by decide) (by decide) (by decide) (by decide) _ (by omega)
  · exact encodes_bytes _ _ (by decide) (by decide) (by decide) (by decide) _ (by omega)
  all_goals simp only [SaysBytes, lens_append, lens_optBytes, lens_bytes]
  · simp
  · simp [lens]; exact hx
  · simp [lens]; exact ht
  · by_cases h : c = [] <;> simp [h, lens]

/-- **C101**. The encodings that tendermint itself writes are among those of `RequestText`: all requests for the public key, all
pings, and all requests to sign with a vote or a proposal. -/
theorem C101_own {m : PMsg} (h : m.WF) (hs : (encPMsg m).length < 2 ^ 63)
    (hm : m = .pingRequest ∨ (∃ c, m = .pubKeyRequest c) ∨ (∃ v c, m = .signVoteRequest (some v) c) ∨
      ∃ p c, m = .signProposalRequest (some p) c) : RequestText m (encPMsg m) := by
  rcases hm with rfl | ⟨c, rfl⟩ | ⟨v, c, rfl⟩ | ⟨p, c, rfl⟩
  · exact .ping (x := []) (encodes_len _ 7 (by decide) (by decide) (by decide) (by decide) _ (by decide)) .nil
  · have := encLen_length 0x0a (encBytesField 0x0a c)
    simp only [encPMsg] at hs
    have h' : c.length < 2 ^ 62 := h
    refine .pubKey (x := encBytesField 0x0a c)
      (encodes_len _ 1 (by decide) (by decide) (by decide) (by decide) _ (by omega))
      (encodes_bytes _ 1 (by decide) (by decide) (by decide) (by decide) _ (by omega)) ?_
    unfold SaysBytes
    rw [lens_optBytes]
    by_cases h : c = [] <;> simp [h]
  · have hv := vote_text v (h.1 v rfl)
    obtain ⟨fs, hfs⟩ := hv.2.2.2.2
    simp only [encPMsg, Option.map_some, encMsgField] at hs ⊢
    have := encLen_length 0x1a (encLen 0x0a (encPVote v) ++ (encBytesField 0x12 c ++ []))
    have := encLen_length 0x0a (encPVote v)
    have h' := h.2
    simp only [List.length_append] at *
    refine .vote (encodes_len _ 3 (by decide) (by decide) (by decide) (by decide) _ ?_)
      (sign_text _ c (encodes_fields hfs.1) hv (by omega))
    simp only [List.length_append]; omega
  · have hv := proposal_text p (h.1 p rfl)
    obtain ⟨fs, hfs⟩ := hv.2.2.2.2
    simp only [encPMsg, Option.map_some, encMsgField] at hs ⊢
    have := encLen_length 0x2a (encLen 0x0a (encPProposal p) ++ (encBytesField 0x12 c ++ []))
    have := encLen_length 0x0a (encPProposal p)
    have h' := h.2
    simp only [List.length_append] at *
    refine .proposal (encodes_len _ 5 (by decide) (by decide) (by decide) (by decide) _ ?_)
      (sign_text _ c (encodes_fields hfs.1) hv (by omega))
    simp only [List.length_append]; omega

/-! ### An odd encoding -/

/-- The first piece of a vote: its height, in more bytes than needed, and a type. -/
def oddPiece1 : Bytes := [0x10, 0x87, 0x00] ++ [0x08, 0x02]
/-- The second piece: the time, another type, which counts, and a field that votes do not have. -/
def oddPiece2 : Bytes := [0x2a, 0x02, 0x08, 0x05] ++ ([0x08, 0x01] ++ [0x48, 0x63])
/-- A request to sign this vote: two chain IDs, of which the last counts, then the pieces. -/
def oddSign : Bytes := [0x12, 0x01, 0x78] ++ ([0x12, 0x01, 0x63] ++ ([0x0a, 0x05] ++ oddPiece1 ++ ([0x0a, 0x08] ++ oddPiece2)))
/-- The message: a field that messages do not have, then the request, with a tag in more bytes than needed. -/
def oddRequest : Bytes := [0x48, 0x01] ++ ([0x9a, 0x00] ++ [0x17] ++ oddSign)
/-- What it says. -/
def oddVote : Vote := { Vote.zero with type := 1, height := 7, timestamp := ⟨5, 0⟩ }

instance (n : Nat) (fs : List FVal) (x : Int) : Decidable (SaysInt n fs x) := by unfold SaysInt; infer_instance

theorem varint1 (b : UInt8) (hb : b.toNat < 128) : Varint64 b.toNat [b] := ⟨.last b hb, by omega, by simp⟩

theorem oddVote_fields : Encodes [1, 2, 3, 7] [4, 5, 6, 8]
    [.num 2 7, .num 1 2, .bytes 5 [0x08, 0x05], .num 1 1] (oddPiece1 ++ oddPiece2) := by
  refine .num (t := [0x10]) (x := [0x87, 0x00]) (by decide) (tag_byte 0x10 2 0 (by decide) (by decide) (by decide))
    ⟨.more 0x87 (by decide) (.last 0x00 (by decide)), by decide, by decide⟩ ?_
  refine .num (t := [0x08]) (x := [0x02]) (by decide) (tag_byte 0x08 1 0 (by decide) (by decide) (by decide))
    (varint1 0x02 (by decide)) ?_
  refine .bytes (t := [0x2a]) (l := [0x02]) (x := [0x08, 0x05]) (by decide) (tag_byte 0x2a 5 2 (by decide) (by decide) (by decide))
    (varint1 0x02 (by decide)) ?_
  refine .num (t := [0x08]) (x := [0x01]) (by decide) (tag_byte 0x08 1 0 (by decide) (by decide) (by decide))
    (varint1 0x01 (by decide)) ?_
  exact .other (n := 9) (f := [0x48] ++ [0x63]) (bs := []) (by decide)
    (.varint (tag_byte 0x48 9 0 (by decide) (by decide) (by decide)) (varint1 0x63 (by decide))) .nil

theorem oddTime : TimeText ⟨5, 0⟩ [0x08, 0x05] := by
  refine ⟨by decide, by decide, by decide, by decide, [.num 1 5], ?_, by decide, by decide⟩
  exact .num (t := [0x08]) (x := [0x05]) (bs := []) (by decide) (tag_byte 0x08 1 0 (by decide) (by decide) (by decide))
    (varint1 0x05 (by decide)) .nil

theorem oddVote_text : VoteText oddVote (oddPiece1 ++ oddPiece2) :=
  ⟨by decide, by decide, by decide, by decide, _, oddVote_fields, by decide, by decide, by decide,
    ⟨by simp [lens], [], .nil, rfl, by simp [lens], by decide, [], .nil, by decide, rfl⟩,
    ⟨[], [0x08, 0x05], rfl, oddTime, by simp⟩, rfl, by decide, rfl⟩

theorem oddPieces : Fields oddPiece1 ∧ Fields oddPiece2 := by
  constructor
  · refine .cons (f := [0x10] ++ [0x87, 0x00]) (.varint (tag_byte 0x10 2 0 (by decide) (by decide) (by decide))
      (v := 7) ⟨.more 0x87 (by decide) (.last 0x00 (by decide)), by decide, by decide⟩) ?_
    exact .cons (f := [0x08] ++ [0x02]) (fs := []) (.varint (tag_byte 0x08 1 0 (by decide) (by decide) (by decide))
      (varint1 0x02 (by decide))) .nil
  · refine .cons (f := [0x2a] ++ [0x02] ++ [0x08, 0x05]) (.bytes (tag_byte 0x2a 5 2 (by decide) (by decide) (by decide))
      (varint1 0x02 (by decide))) ?_
    refine .cons (f := [0x08] ++ [0x01]) (.varint (tag_byte 0x08 1 0 (by decide) (by decide) (by decide))
      (varint1 0x01 (by decide))) ?_
    exact .cons (f := [0x48] ++ [0x63]) (fs := []) (.varint (tag_byte 0x48 9 0 (by decide) (by decide) (by decide))
      (varint1 0x63 (by decide))) .nil

theorem odd_text : RequestText (.signVoteRequest (some oddVote) [0x63]) oddRequest := by
  refine .vote (x := oddSign) ?_ ⟨[.bytes 2 [0x78], .bytes 2 [0x63], .bytes 1 oddPiece1, .bytes 1 oddPiece2], ?_, by decide,
    ⟨?_, ?_⟩, rfl⟩
  · refine .other (n := 9) (f := [0x48] ++ [0x01]) (by decide)
      (.varint (tag_byte 0x48 9 0 (by decide) (by decide) (by decide)) (varint1 0x01 (by decide))) ?_
    exact .bytes (t := [0x9a, 0x00]) (l := [0x17]) (x := oddSign) (bs := []) (by decide)
      ⟨by decide, by decide, .more 0x9a (by decide) (.last 0x00 (by decide)), by decide, by decide⟩ (varint1 0x17 (by decide)) .nil
  · refine .bytes (t := [0x12]) (l := [0x01]) (x := [0x78]) (by decide) (tag_byte 0x12 2 2 (by decide) (by decide) (by decide))
      (varint1 0x01 (by decide)) ?_
    refine .bytes (t := [0x12]) (l := [0x01]) (x := [0x63]) (by decide) (tag_byte 0x12 2 2 (by decide) (by decide) (by decide))
      (varint1 0x01 (by decide)) ?_
    refine .bytes (t := [0x0a]) (l := [0x05]) (x := oddPiece1) (by decide) (tag_byte 0x0a 1 2 (by decide) (by decide) (by decide))
      (varint1 0x05 (by decide)) ?_
    exact .bytes (t := [0x0a]) (l := [0x08]) (x := oddPiece2) (bs := []) (by decide)
      (tag_byte 0x0a 1 2 (by decide) (by decide) (by decide)) (varint1 0x08 (by decide)) .nil
  · intro y hy
    have : y = oddPiece1 ∨ y = oddPiece2 := by simpa [lens] using hy
    rcases this with rfl | rfl
    · exact oddPieces.1
    · exact oddPieces.2
  · exact oddVote_text

/-- The odd encoding of a request and the one that tendermint writes, which is another one. -/
example (rest : Bytes) : readMsg ([0x9c, 0x00] ++ oddRequest ++ rest) = some (.signVoteRequest (some oddVote) [0x63], rest) :=
  C101_read odd_text ⟨.more 0x9c (by decide) (.last 0x00 (by decide)), by decide, by decide⟩ (by decide) rest

example : oddRequest ≠ encPMsg (.signVoteRequest (some oddVote) [0x63]) ∧
    RequestText (.signVoteRequest (some oddVote) [0x63]) (encPMsg (.signVoteRequest (some oddVote) [0x63])) := by
  refine ⟨by decide, C101_own ⟨?_, by decide⟩ (by decide) (.inr (.inr (.inl ⟨_, _, rfl⟩)))⟩
  intro x hx
  cases hx
  exact ⟨by decide, by decide, by decide, by decide, by decide, by decide, by decide, by decide⟩

end Horcrux
