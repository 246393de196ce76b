import Verif.Model.Grpc
import Verif.Lemmas.WireRoundTrip
import Verif.Lemmas.Protowire
namespace Horcrux
open Spec

variable {α : Type}

/-- Varints are written as such. -/
theorem varint_encodeAux (f : Nat) : ∀ v : Nat, v < 128 * 2 ^ (7 * f) → Varint v (encodeVarintAux f v) ∧
    (encodeVarintAux f v).length ≤ f + 1 := by
  induction f with
  | zero =>
    intro v hv
    have h1 : (UInt8.ofNat v).toNat = v := u8_toNat_ofNat (by omega)
    have := Varint.last (UInt8.ofNat v) (by rw [h1]; omega)
    rw [h1] at this
    exact ⟨this, by simp [encodeVarintAux]⟩
  | succ f ih =>
    intro v hv
    unfold encodeVarintAux
    split
    · next h =>
      have h1 : (UInt8.ofNat v).toNat = v := u8_toNat_ofNat (by omega)
      have := Varint.last (UInt8.ofNat v) (by rw [h1]; omega)
      rw [h1] at this
      exact ⟨this, by simp⟩
    · next h =>
      have h1 : (UInt8.ofNat (v % 128 + 128)).toNat = v % 128 + 128 := u8_toNat_ofNat (by omega)
      have hp : 2 ^ (7 * (f + 1)) = 128 * 2 ^ (7 * f) := by
        rw [show 7 * (f + 1) = 7 * f + 7 by omega, Nat.pow_add]; omega
      obtain ⟨e1, e2⟩ := ih (v / 128) (by omega)
      have := Varint.more (UInt8.ofNat (v % 128 + 128)) (by rw [h1]; omega) e1
      rw [h1, show v % 128 + 128 - 128 + 128 * (v / 128) = v by omega] at this
      exact ⟨this, by simp only [List.length_cons]; omega⟩

theorem varint64_encode {v : Nat} (h : v < 2 ^ 64) : Varint64 v (encodeVarint v) := by
  obtain ⟨h1, h2⟩ := varint_encodeAux 9 v (by omega)
  exact ⟨h1, h, h2⟩

theorem tag_of_byte {tag : UInt8} {n wt : Nat} (hn : tag.toNat / 8 = n) (h0 : 0 < n) (htag : tag.toNat < 128)
    (hwt : tag.toNat % 8 = wt) : Tag n wt [tag] := by
  refine ⟨h0, by omega, ?_, by omega, by simp⟩
  have := Varint.last tag htag
  rwa [show tag.toNat = 8 * n + wt by omega] at this

/-- Decoding past a varint field. -/
theorem gdec_varint (h : Handler α) (m m' : α) (tag : UInt8) (x : Int) (rest : Bytes) (n : Nat)
    (hn : tag.toNat / 8 = n) (h0 : 0 < n) (htag : tag.toNat < 128) (hwt : tag.toNat % 8 = 0)
    (hk : h.wireType n = some 0) (hz : x = 0 → m' = m) (hs : h.set m n (.varint (toU64 x)) = some m') :
    gDecode h m (encVarintField tag x ++ rest) = gDecode h m' rest := by
  by_cases hx : x = 0
  · rw [hx, encVarintField_zero, hz hx]; rfl
  · have := gDecode_known h m (tag_of_byte hn h0 htag hwt) (by decide) hk (p := encodeVarint (toU64 x)) (r := rest)
      (v := .varint (toU64 x)) (by simp [gVal, readUvarint_varint (varint64_encode (toU64_lt x))])
    rw [hs, Option.bind_some] at this
    rw [← this]
    simp [encVarintField, hx]

/-- Decoding past a message field. -/
theorem gdec_len (h : Handler α) (m m' : α) (tag : UInt8) (bs rest : Bytes) (n : Nat)
    (hn : tag.toNat / 8 = n) (h0 : 0 < n) (htag : tag.toNat < 128) (hwt : tag.toNat % 8 = 2)
    (hk : h.wireType n = some 2) (hl : bs.length < 2 ^ 64) (hs : h.set m n (.len bs) = some m') :
    gDecode h m (encLen tag bs ++ rest) = gDecode h m' rest := by
  have hlt : ¬ ((bs ++ rest).length < bs.length) := by simp only [List.length_append]; omega
  have := gDecode_known h m (tag_of_byte hn h0 htag hwt) (by decide) hk (p := encodeVarint bs.length ++ bs) (r := rest)
    (v := .len bs) (by
      simp only [gVal, if_false, if_true, Nat.reduceEqDiff, List.append_assoc, readUvarint_varint (varint64_encode hl), hlt,
        List.take_left, List.drop_left])
  rw [hs, Option.bind_some] at this
  rw [← this]
  simp [encLen]

/-- A bytes field that is refused. -/
theorem gdec_bytes_none (h : Handler α) (m : α) (tag : UInt8) (bs rest : Bytes) (n : Nat)
    (hn : tag.toNat / 8 = n) (h0 : 0 < n) (htag : tag.toNat < 128) (hwt : tag.toNat % 8 = 2)
    (hk : h.wireType n = some 2) (hl : bs.length < 2 ^ 64) (hz : bs ≠ [])
    (hs : h.set m n (.len bs) = none) : gDecode h m (encBytesField tag bs ++ rest) = none := by
  have hlt : ¬ ((bs ++ rest).length < bs.length) := by simp only [List.length_append]; omega
  have := gDecode_known h m (tag_of_byte hn h0 htag hwt) (by decide) hk (p := encodeVarint bs.length ++ bs) (r := rest)
    (v := .len bs) (by
      simp only [gVal, if_false, if_true, Nat.reduceEqDiff, List.append_assoc, readUvarint_varint (varint64_encode hl), hlt,
        List.take_left, List.drop_left])
  rw [hs, Option.bind_none] at this
  rw [← this]
  simp [encBytesField, encLen, hz]

/-- Decoding past a bytes field. -/
theorem gdec_bytes (h : Handler α) (m m' : α) (tag : UInt8) (bs rest : Bytes) (n : Nat)
    (hn : tag.toNat / 8 = n) (h0 : 0 < n) (htag : tag.toNat < 128) (hwt : tag.toNat % 8 = 2)
    (hk : h.wireType n = some 2) (hl : bs.length < 2 ^ 64) (hz : bs = [] → m' = m)
    (hs : h.set m n (.len bs) = some m') :
    gDecode h m (encBytesField tag bs ++ rest) = gDecode h m' rest := by
  by_cases hx : bs = []
  · rw [hx, encBytesField_nil, hz hx]; rfl
  · rw [encBytesField_ne hx]
    exact gdec_len h m m' tag bs rest n hn h0 htag hwt hk hl hs

/-- Field values of the Go types, with sizes that fit in memory. -/
structure PBlock.WF (b : PBlock) : Prop where
  height : IsI64 b.height
  round : IsI64 b.round
  step : IsI32 b.step
  timestamp : IsI64 b.timestamp
  size : b.signBytes.length < 2 ^ 63

structure PPart.WF (p : PPart) : Prop where
  sourceID : IsI32 p.sourceID
  destinationID : IsI32 p.destinationID
  size : p.publicKey.length + p.encrypted.length + p.sourceSig.length < 2 ^ 63

structure PHRST.WF (k : PHRST) : Prop where
  height : IsI64 k.height
  round : IsI64 k.round
  step : IsI32 k.step
  timestamp : IsI64 k.timestamp

theorem decode_pblock (b : PBlock) (h : b.WF) : gDecode pblockHandler .zero (encPBlock b) = some b := by
  have hsz := h.size
  unfold encPBlock
  rw [gdec_varint pblockHandler .zero ⟨b.height, 0, 0, [], 0⟩ 0x08 b.height _ 1 rfl (by decide) (by decide) rfl rfl
    (by intro h0; rw [h0]; rfl) (by simp only [pblockHandler, i64_toU64 h.height]; rfl)]
  rw [gdec_varint pblockHandler _ ⟨b.height, b.round, 0, [], 0⟩ 0x10 b.round _ 2 rfl (by decide) (by decide) rfl rfl
    (by intro h0; rw [h0]) (by simp only [pblockHandler, i64_toU64 h.round])]
  rw [gdec_varint pblockHandler _ ⟨b.height, b.round, b.step, [], 0⟩ 0x18 b.step _ 3 rfl (by decide) (by decide) rfl rfl
    (by intro h0; rw [h0]) (by simp only [pblockHandler, i32_toU64 h.step])]
  rw [gdec_bytes pblockHandler _ ⟨b.height, b.round, b.step, b.signBytes, 0⟩ 0x22 b.signBytes _ 4 rfl (by decide)
    (by decide) rfl rfl (by omega) (by intro h0; rw [h0]) (by simp only [pblockHandler])]
  rw [gdec_varint pblockHandler _ b 0x28 b.timestamp _ 5 rfl (by decide) (by decide) rfl rfl
    (by intro h0; cases b; simp at h0; rw [h0]) (by simp only [pblockHandler, i64_toU64 h.timestamp])]
  rfl

theorem decode_ppart (p : PPart) (h : p.WF) : gDecode ppartHandler .zero (encPPart p) = some p := by
  have hsz := h.size
  unfold encPPart
  rw [gdec_varint ppartHandler .zero ⟨p.sourceID, 0, [], [], []⟩ 0x08 p.sourceID _ 1 rfl (by decide) (by decide) rfl rfl
    (by intro h0; rw [h0]; rfl) (by simp only [ppartHandler, i32_toU64 h.sourceID]; rfl)]
  rw [gdec_varint ppartHandler _ ⟨p.sourceID, p.destinationID, [], [], []⟩ 0x10 p.destinationID _ 2 rfl (by decide)
    (by decide) rfl rfl (by intro h0; rw [h0]) (by simp only [ppartHandler, i32_toU64 h.destinationID])]
  rw [gdec_bytes ppartHandler _ ⟨p.sourceID, p.destinationID, p.publicKey, [], []⟩ 0x1a p.publicKey _ 3 rfl (by decide)
    (by decide) rfl rfl (by omega) (by intro h0; rw [h0]) (by simp only [ppartHandler])]
  rw [gdec_bytes ppartHandler _ ⟨p.sourceID, p.destinationID, p.publicKey, p.encrypted, []⟩ 0x22 p.encrypted _ 4 rfl
    (by decide) (by decide) rfl rfl (by omega) (by intro h0; rw [h0]) (by simp only [ppartHandler])]
  rw [gdec_bytes ppartHandler _ p 0x2a p.sourceSig _ 5 rfl
    (by decide) (by decide) rfl rfl (by omega) (by intro h0; cases p; simp at h0; rw [h0])
    (by simp only [ppartHandler])]
  rfl

theorem decode_phrst (k : PHRST) (h : k.WF) : gDecode phrstHandler .zero (encPHRST k) = some k := by
  unfold encPHRST
  rw [gdec_varint phrstHandler .zero ⟨k.height, 0, 0, 0⟩ 0x08 k.height _ 1 rfl (by decide) (by decide) rfl rfl
    (by intro h0; rw [h0]; rfl) (by simp only [phrstHandler, i64_toU64 h.height]; rfl)]
  rw [gdec_varint phrstHandler _ ⟨k.height, k.round, 0, 0⟩ 0x10 k.round _ 2 rfl (by decide) (by decide) rfl rfl
    (by intro h0; rw [h0]) (by simp only [phrstHandler, i64_toU64 h.round])]
  rw [gdec_varint phrstHandler _ ⟨k.height, k.round, k.step, 0⟩ 0x18 k.step _ 3 rfl (by decide) (by decide) rfl rfl
    (by intro h0; rw [h0]) (by simp only [phrstHandler, i32_toU64 h.step])]
  rw [gdec_varint phrstHandler _ k 0x20 k.timestamp _ 4 rfl (by decide) (by decide) rfl rfl
    (by intro h0; cases k; simp at h0; rw [h0]) (by simp only [phrstHandler, i64_toU64 h.timestamp])]
  rfl

theorem encPBlock_le (b : PBlock) : (encPBlock b).length ≤ 55 + b.signBytes.length := by
  have h1 := encVarintField_le 0x08 b.height
  have h2 := encVarintField_le 0x10 b.round
  have h3 := encVarintField_le 0x18 b.step
  have h4 := encBytesField_le 0x22 b.signBytes
  have h5 := encVarintField_le 0x28 b.timestamp
  simp only [encPBlock, List.length_append, List.length_nil]
  omega

theorem encPPart_le (p : PPart) :
    (encPPart p).length ≤ 55 + (p.publicKey.length + p.encrypted.length + p.sourceSig.length) := by
  have h1 := encVarintField_le 0x08 p.sourceID
  have h2 := encVarintField_le 0x10 p.destinationID
  have h3 := encBytesField_le 0x1a p.publicKey
  have h4 := encBytesField_le 0x22 p.encrypted
  have h5 := encBytesField_le 0x2a p.sourceSig
  simp only [encPPart, List.length_append, List.length_nil]
  omega

theorem encPHRST_le (k : PHRST) : (encPHRST k).length ≤ 44 := by
  have h1 := encVarintField_le 0x08 k.height
  have h2 := encVarintField_le 0x10 k.round
  have h3 := encVarintField_le 0x18 k.step
  have h4 := encVarintField_le 0x20 k.timestamp
  simp only [encPHRST, List.length_append, List.length_nil]
  omega

theorem decode_signBlockReq (c : Bytes) (b : PBlock) (h : b.WF) (hc : Sent c) :
    gDecode signBlockReqHandler ⟨[], none⟩ (encSignBlockReq ⟨c, some b⟩) = some ⟨c, some b⟩ := by
  have h1 := encPBlock_le b
  have h2 := h.size
  have hu := (utf8Valid_iff c).2 hc.2
  have hl := hc.1
  unfold encSignBlockReq
  rw [gdec_bytes signBlockReqHandler _ ⟨c, none⟩ 0x0a c _ 1 rfl (by decide) (by decide) rfl rfl (by omega)
    (by intro h0; rw [h0]) (by simp only [signBlockReqHandler, hu, if_true])]
  simp only [Option.map_some, encMsgField]
  rw [gdec_len signBlockReqHandler _ ⟨c, some b⟩ 0x12 _ _ 2 rfl (by decide) (by decide) rfl rfl (by omega)
    (by simp only [signBlockReqHandler, Option.getD_none, decode_pblock b h, Option.map_some])]
  rfl

/-- Decoding past a repeated field of secret parts. -/
theorem gdec_parts (h : Handler α) (add : α → PPart → α) (tag : UInt8) (n : Nat)
    (hn : tag.toNat / 8 = n) (h0 : 0 < n) (htag : tag.toNat < 128) (hwt : tag.toNat % 8 = 2)
    (hk : h.wireType n = some 2)
    (hs : ∀ m p, p.WF → h.set m n (.len (encPPart p)) = some (add m p)) (ps : List PPart) (m : α) (rest : Bytes)
    (hps : ∀ p ∈ ps, p.WF) :
    gDecode h m (encParts tag ps ++ rest) = gDecode h (ps.foldl add m) rest := by
  induction ps generalizing m with
  | nil => rfl
  | cons p ps ih =>
    have hp := hps p (List.mem_cons_self ..)
    have h1 := encPPart_le p
    have h2 := hp.size
    rw [encParts, List.append_assoc,
      gdec_len h m (add m p) tag _ _ n hn h0 htag hwt hk (by omega) (hs m p hp),
      ih _ (fun q hq => hps q (List.mem_cons_of_mem _ hq))]
    rfl

theorem foldl_parts (ps : List PPart) (m : PSetSignReq) :
    ps.foldl (fun m p => { m with parts := m.parts ++ [p] }) m = { m with parts := m.parts ++ ps } := by
  induction ps generalizing m with
  | nil => simp
  | cons p ps ih => rw [List.foldl_cons, ih]; simp

theorem decode_setSignReq (ps : List PPart) (k : PHRST) (sb : Bytes) (hps : ∀ p ∈ ps, p.WF) (hk : k.WF)
    (hsb : sb.length < 2 ^ 63) :
    gDecode setSignReqHandler ⟨[], none, []⟩ (encSetSignReq ⟨ps, some k, sb⟩) = some ⟨ps, some k, sb⟩ := by
  have h1 := encPHRST_le k
  unfold encSetSignReq
  rw [gdec_parts setSignReqHandler (fun m p => { m with parts := m.parts ++ [p] }) 0x0a 1 rfl (by decide) (by decide)
    rfl rfl (by intro m p hp; simp only [setSignReqHandler, decode_ppart p hp, Option.map_some]) ps _ _ hps,
    foldl_parts]
  simp only [Option.map_some, encMsgField, List.nil_append]
  rw [gdec_len setSignReqHandler _ ⟨ps, some k, []⟩ 0x12 _ _ 2 rfl (by decide) (by decide) rfl rfl (by omega)
    (by simp only [setSignReqHandler, Option.getD_none, decode_phrst k hk, Option.map_some])]
  rw [gdec_bytes setSignReqHandler _ ⟨ps, some k, sb⟩ 0x1a sb _ 3 rfl (by decide) (by decide) rfl rfl (by omega)
    (by intro h0; rw [h0]) (by simp only [setSignReqHandler])]
  rfl

theorem decode_getReq (k : PHRST) (hk : k.WF) : gDecode getReqHandler none (encGetReq (some k)) = some (some k) := by
  have h1 := encPHRST_le k
  unfold encGetReq
  simp only [Option.map_some, encMsgField]
  rw [gdec_len getReqHandler _ (some k) 0x0a _ _ 1 rfl (by decide) (by decide) rfl rfl (by omega)
    (by simp only [getReqHandler, Option.getD_none, decode_phrst k hk, Option.map_some])]
  rfl

theorem decode_getRes (ps : List PPart) (hps : ∀ p ∈ ps, p.WF) :
    gDecode getResHandler [] (encGetRes ps) = some ps := by
  unfold encGetRes
  rw [gdec_parts getResHandler (fun m p => m ++ [p]) 0x0a 1 rfl (by decide) (by decide)
    rfl rfl (by intro m p hp; simp only [getResHandler, decode_ppart p hp, Option.map_some]) ps _ _ hps]
  have : ∀ (ps m : List PPart), ps.foldl (fun m p => m ++ [p]) m = m ++ ps := by
    intro ps
    induction ps with
    | nil => simp
    | cons p ps ih => intro m; rw [List.foldl_cons, ih]; simp
  rw [this]; rfl

theorem decode_setSignRes (r : PSetSignRes) (h1 : r.ephemeralPublic.length < 2 ^ 63) (h2 : IsI64 r.timestamp)
    (h3 : r.signature.length < 2 ^ 63) :
    gDecode setSignResHandler ⟨[], 0, []⟩ (encSetSignRes r) = some r := by
  unfold encSetSignRes
  rw [gdec_bytes setSignResHandler _ ⟨r.ephemeralPublic, 0, []⟩ 0x0a _ _ 1 rfl (by decide) (by decide) rfl rfl (by omega)
    (by intro h0; rw [h0]) (by simp only [setSignResHandler])]
  rw [gdec_varint setSignResHandler _ ⟨r.ephemeralPublic, r.timestamp, []⟩ 0x10 _ _ 2 rfl (by decide) (by decide) rfl rfl
    (by intro h0; rw [h0]) (by simp only [setSignResHandler, i64_toU64 h2])]
  rw [gdec_bytes setSignResHandler _ r 0x1a _ _ 3 rfl (by decide) (by decide) rfl rfl (by omega)
    (by intro h0; cases r; simp at h0; rw [h0]) (by simp only [setSignResHandler])]
  rfl

/-- A time that `UnixNano` represents. -/
def GoTime.Nano (t : GoTime) : Prop := IsI64 (t.sec * 1000000000 + t.nsec) ∧ 0 ≤ t.nsec ∧ t.nsec < 1000000000

theorem unixNano_roundTrip {t : GoTime} (h : t.Nano) : GoTime.ofUnixNano t.unixNano = t := by
  obtain ⟨h1, h2, h3⟩ := h
  unfold GoTime.unixNano GoTime.ofUnixNano
  rw [i64_of_is h1]
  have e1 : (t.sec * 1000000000 + t.nsec) / 1000000000 = t.sec := by omega
  have e2 : (t.sec * 1000000000 + t.nsec) % 1000000000 = t.nsec := by omega
  rw [e1, e2]

theorem unixNano_is (t : GoTime) : IsI64 t.unixNano := by
  unfold GoTime.unixNano i64 IsI64
  have h1 := Int.le_bmod (x := t.sec * 1000000000 + t.nsec) (m := 2 ^ 64) (by decide)
  have h2 := Int.bmod_lt (x := t.sec * 1000000000 + t.nsec) (m := 2 ^ 64) (by decide)
  constructor <;> omega

theorem ofWire_bytes (s : Slice) : (Slice.ofWire s.bytes).bytes = s.bytes := by
  unfold Slice.ofWire
  split
  · next h => rw [h]; rfl
  · rfl

theorem ofWire_eq {s : Slice} (h : s ≠ some []) : Slice.ofWire s.bytes = s := by
  unfold Slice.ofWire
  cases s with
  | none => rfl
  | some bs =>
    have : bs ≠ [] := fun h' => h (by rw [h'])
    rw [if_neg (by simpa [Slice.bytes] using this)]; rfl

end Horcrux
