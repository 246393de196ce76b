import Verif.Model.Wire
import Verif.Lemmas.Prim
namespace Horcrux

/-! ### Every read consumes input -/

theorem readVarintAux_lt {n acc : Nat} {bs rest : Bytes} {v : Nat}
    (h : readVarintAux n acc bs = some (v, rest)) : rest.length < bs.length := by
  induction bs generalizing n acc with
  | nil => simp [readVarintAux] at h
  | cons b bs ih =>
    unfold readVarintAux at h
    split at h
    · simp at h
    · simp only at h
      split at h
      · simp at h; simp [h.2]
      · have := ih h; simp; omega

theorem readVarint_lt {bs rest : Bytes} {v : Nat}
    (h : readVarint bs = some (v, rest)) : rest.length < bs.length := readVarintAux_lt h

theorem readVal_le {wt : Nat} {bs rest : Bytes} {v : WireVal}
    (h : readVal wt bs = some (v, rest)) : rest.length ≤ bs.length := by
  unfold readVal at h
  split at h
  · split at h
    · simp at h
    · next h' => have := readVarint_lt h'; simp at h; rw [← h.2]; omega
  split at h
  · split at h
    · simp at h
    · simp at h; rw [← h.2]; simp
  split at h
  · split at h
    · simp at h
    · next h' =>
      have := readVarint_lt h'
      split at h
      · simp at h
      · simp at h; rw [← h.2]; simp; omega
  · simp at h

theorem skipAux_lt {f d : Nat} {bs rest : Bytes} (h : skipAux f d bs = some rest) :
    rest.length < bs.length := by
  induction f generalizing d bs with
  | zero => simp [skipAux] at h
  | succ f ih =>
    cases bs with
    | nil => simp [skipAux] at h
    | cons b bs =>
      unfold skipAux at h
      split at h
      · simp at h
      · next wire r1 hr =>
        have hl := readVarint_lt hr
        simp only at h
        split at h
        · split at h
          · simp at h
          · next r2 hr2 =>
            have hl2 := readVarint_lt hr2
            split at h
            · simp at h; subst h; omega
            · have := ih h; omega
        split at h
        · split at h
          · simp at h
          split at h
          · simp at h; subst h; simp; simp at hl; omega
          · have := ih h; simp at this hl; simp; omega
        split at h
        · split at h
          · simp at h
          · next r2 hr2 =>
            have hl2 := readVarint_lt hr2
            split at h
            · simp at h
            split at h
            · simp at h; subst h; simp; simp at hl; omega
            · have := ih h; simp at this hl; simp; omega
        split at h
        · have := ih h; omega
        split at h
        · split at h
          · simp at h
          split at h
          · simp at h; subst h; omega
          · have := ih h; omega
        split at h
        · split at h
          · simp at h
          split at h
          · simp at h; subst h; simp; simp at hl; omega
          · have := ih h; simp at this hl; simp; omega
        · simp at h

/-! ### The fuel of the decode loop is irrelevant -/

theorem decodeLoop_fuel {α : Type} (h : Handler α) (f : Nat) (m : α) (bs : Bytes) (hf : bs.length ≤ f) :
    decodeLoop h f m bs = decodeLoop h bs.length m bs := by
  suffices H : ∀ n f g m bs, bs.length ≤ n → bs.length ≤ f → bs.length ≤ g →
      decodeLoop h f m bs = decodeLoop h g m bs from H bs.length f bs.length m bs (Nat.le_refl _) hf (Nat.le_refl _)
  clear hf
  intro n
  induction n with
  | zero =>
    intro f g m bs hn _ _
    have : bs = [] := by cases bs <;> simp_all
    subst this
    cases f <;> cases g <;> rfl
  | succ n ih =>
    intro f g m bs hn hf hg
    cases bs with
    | nil => cases f <;> cases g <;> rfl
    | cons b bs =>
      cases f with
      | zero => simp at hf
      | succ f =>
        cases g with
        | zero => simp at hg
        | succ g =>
          simp only [List.length_cons] at hn hf hg
          unfold decodeLoop
          split
          · rfl
          · next wire rest hr =>
            have hl := readVarint_lt hr
            simp only [List.length_cons] at hl
            simp only
            split
            · rfl
            split
            · rfl
            split
            · split
              · rfl
              split
              · rfl
              · next v rest' hv =>
                have := readVal_le hv
                split
                · rfl
                · exact ih _ _ _ _ (by omega) (by omega) (by omega)
            · split
              · rfl
              · next rest' hs =>
                have := skipAux_lt hs
                simp only [List.length_cons] at this
                exact ih _ _ _ _ (by omega) (by omega) (by omega)

/-! ### Varint and little-endian round trips -/

theorem u8_toNat_ofNat {n : Nat} (h : n < 256) : (UInt8.ofNat n).toNat = n := by
  simp [Nat.mod_eq_of_lt h]

theorem readVarintAux_last (n acc v : Nat) (rest : Bytes) (hn : n < 10) (h : v < 128)
    (hlt : acc + v * 2 ^ (7 * n) < 2 ^ 64) :
    readVarintAux n acc (UInt8.ofNat v :: rest) = some (acc + v * 2 ^ (7 * n), rest) := by
  unfold readVarintAux
  have : ¬ n ≥ 10 := by omega
  simp only [this, if_false, u8_toNat_ofNat (show v < 256 by omega), h, if_true, Nat.mod_eq_of_lt h,
    Nat.mod_eq_of_lt hlt]

theorem readVarintAux_encode (f n acc v : Nat) (rest : Bytes) (hfn : f + n = 9)
    (hacc : acc < 2 ^ (7 * n)) (hv : v * 2 ^ (7 * n) < 2 ^ 64) :
    readVarintAux n acc (encodeVarintAux f v ++ rest) = some (acc + v * 2 ^ (7 * n), rest) := by
  have hpow : (0:Nat) < 2 ^ (7 * n) := Nat.pow_pos (by decide)
  have hlt : acc + v * 2 ^ (7 * n) < 2 ^ 64 := by
    have hdvd : 2 ^ (7 * n) ∣ 2 ^ 64 := Nat.pow_dvd_pow 2 (by omega)
    obtain ⟨c, hc⟩ := hdvd
    rw [hc] at hv ⊢
    rw [Nat.mul_comm v] at hv ⊢
    have : v < c := Nat.lt_of_mul_lt_mul_left hv
    calc acc + 2 ^ (7 * n) * v < 2 ^ (7 * n) + 2 ^ (7 * n) * v := by omega
      _ = 2 ^ (7 * n) * (v + 1) := by rw [Nat.mul_add]; omega
      _ ≤ 2 ^ (7 * n) * c := Nat.mul_le_mul_left _ this
  induction f generalizing n acc v with
  | zero =>
    have hn : n = 9 := by omega
    subst hn
    simp only [encodeVarintAux, List.cons_append, List.nil_append]
    exact readVarintAux_last _ _ _ _ (by omega) (by omega) hlt
  | succ f ih =>
    unfold encodeVarintAux
    split
    · next h => simpa using readVarintAux_last _ _ _ rest (by omega) h hlt
    · next h =>
      simp only [List.cons_append]
      unfold readVarintAux
      have h1 : (UInt8.ofNat (v % 128 + 128)).toNat = v % 128 + 128 := u8_toNat_ofNat (by omega)
      have h2 : ¬ n ≥ 10 := by omega
      have h3 : ¬ (v % 128 + 128 < 128) := by omega
      have h4 : (v % 128 + 128) % 128 = v % 128 := by omega
      simp only [h1, h2, if_false, h3, h4]
      have h5 : 2 ^ (7 * (n + 1)) = 128 * 2 ^ (7 * n) := by
        rw [show 7 * (n + 1) = 7 * n + 7 by omega, Nat.pow_add]; omega
      have hsplit : v * 2 ^ (7 * n) = v % 128 * 2 ^ (7 * n) + v / 128 * 2 ^ (7 * (n + 1)) := by
        rw [h5, ← Nat.mul_assoc, ← Nat.add_mul]; congr 1; omega
      have h6 : acc + v % 128 * 2 ^ (7 * n) < 2 ^ (7 * (n + 1)) := by
        rw [h5]
        have : v % 128 * 2 ^ (7 * n) ≤ 127 * 2 ^ (7 * n) := Nat.mul_le_mul_right _ (by omega)
        omega
      have h7 : (acc + v % 128 * 2 ^ (7 * n)) % 2 ^ 64 = acc + v % 128 * 2 ^ (7 * n) :=
        Nat.mod_eq_of_lt (by omega)
      rw [h7]
      have hpow' : (0:Nat) < 2 ^ (7 * (n + 1)) := Nat.pow_pos (by decide)
      rw [ih (n + 1) _ (v / 128) (by omega) h6 (by omega) hpow' (by omega)]
      congr 2; omega

theorem readVarint_encode (v : Nat) (rest : Bytes) (hv : v < 2 ^ 64) :
    readVarint (encodeVarint v ++ rest) = some (v, rest) := by
  unfold readVarint encodeVarint
  rw [readVarintAux_encode 9 0 0 v rest rfl (by simp) (by simpa using hv)]
  simp

theorem readUvarintAux_encode (f n acc v : Nat) (rest : Bytes) (hfn : f + n = 9)
    (hv : v * 2 ^ (7 * n) < 2 ^ 64) :
    readUvarintAux n acc (encodeVarintAux f v ++ rest) = some (acc + v * 2 ^ (7 * n), rest) := by
  induction f generalizing n acc v with
  | zero =>
    have hn : n = 9 := by omega
    subst hn
    simp only [encodeVarintAux, List.cons_append, List.nil_append]
    unfold readUvarintAux
    have h1 : (UInt8.ofNat v).toNat = v := u8_toNat_ofNat (by omega)
    have h2 : v < 128 := by omega
    have h3 : ¬ (v > 1) := by omega
    simp [h1, h2, h3]
  | succ f ih =>
    unfold encodeVarintAux
    split
    · next h =>
      simp only [List.cons_append, List.nil_append]
      unfold readUvarintAux
      have h1 : (UInt8.ofNat v).toNat = v := u8_toNat_ofNat (by omega)
      have h2 : ¬ n ≥ 10 := by omega
      have h3 : ¬ (n = 9) := by omega
      simp only [h1, h2, h3, h, if_true, if_false, false_and]
    · next h =>
      simp only [List.cons_append]
      unfold readUvarintAux
      have h1 : (UInt8.ofNat (v % 128 + 128)).toNat = v % 128 + 128 := u8_toNat_ofNat (by omega)
      have h2 : ¬ n ≥ 10 := by omega
      have h3 : ¬ (v % 128 + 128 < 128) := by omega
      have h4 : (v % 128 + 128) % 128 = v % 128 := by omega
      simp only [h1, h2, if_false, h3, h4]
      have h5 : 2 ^ (7 * (n + 1)) = 128 * 2 ^ (7 * n) := by
        rw [show 7 * (n + 1) = 7 * n + 7 by omega, Nat.pow_add]; omega
      have hsplit : v * 2 ^ (7 * n) = v % 128 * 2 ^ (7 * n) + v / 128 * 2 ^ (7 * (n + 1)) := by
        rw [h5, ← Nat.mul_assoc, ← Nat.add_mul]; congr 1; omega
      rw [ih (n + 1) _ (v / 128) (by omega) (by omega)]
      congr 2; omega

theorem readUvarint_encode (v : Nat) (rest : Bytes) (hv : v < 2 ^ 64) :
    readUvarint (encodeVarint v ++ rest) = some (v, rest) := by
  unfold readUvarint encodeVarint
  rw [readUvarintAux_encode 9 0 0 v rest rfl (by simpa using hv)]
  simp

theorem leBytes_length (k v : Nat) : (leBytes k v).length = k := by
  induction k generalizing v with
  | zero => rfl
  | succ k ih => simp [leBytes, ih]

theorem leNat_leBytes (k v : Nat) (h : v < 256 ^ k) : leNat (leBytes k v) = v := by
  induction k generalizing v with
  | zero => simp at h; subst h; rfl
  | succ k ih =>
    have : v / 256 < 256 ^ k := by
      rw [Nat.pow_succ] at h
      exact Nat.div_lt_of_lt_mul (by rw [Nat.mul_comm]; exact h)
    simp only [leBytes, leNat, ih _ this, u8_toNat_ofNat (show v % 256 < 256 by omega)]
    omega

theorem toU64_lt (x : Int) : toU64 x < 2 ^ 64 := by unfold toU64; omega

theorem i64_toU64 {x : Int} (h : IsI64 x) : i64 (toU64 x : Nat) = x := by
  unfold i64 toU64
  rw [Int.toNat_of_nonneg (by omega)]
  have e : (2:Int)^64 = ((2^64 : Nat) : Int) := by norm_cast
  rw [e, Int.emod_bmod]
  exact i64_of_is h

theorem i32_toU64 {x : Int} (h : IsI32 x) : i32 (toU64 x : Nat) = x := by
  unfold toU64
  rw [Int.toNat_of_nonneg (by omega)]
  unfold i32
  have : Int.bmod (x % 2 ^ 64) (2 ^ 32) = Int.bmod (x % 2^64 % ((2^32 : Nat) : Int)) (2^32) := by
    rw [Int.emod_bmod]
  rw [this]
  have e : x % 2 ^ 64 % ((2 ^ 32 : Nat) : Int) = x % ((2^32 : Nat) : Int) := by
    rw [Int.emod_emod_of_dvd]; exact ⟨2^32, by norm_cast⟩
  rw [e, Int.emod_bmod]
  exact i32_of_is h

theorem encodeVarint_ne_nil (v : Nat) : encodeVarint v ≠ [] := by
  unfold encodeVarint encodeVarintAux; split <;> simp

/-! ### One decode step on an encoded field -/

/-- Decode from an arbitrary start, the form used by the field lemmas. -/
theorem decodeMsg_nil {α : Type} (h : Handler α) (m : α) : decodeMsg h m [] = some m := rfl

/-- A one-byte tag. -/
theorem readVarint_tag (tag : UInt8) (rest : Bytes) (h : tag.toNat < 128) :
    readVarint (tag :: rest) = some (tag.toNat, rest) := by
  unfold readVarint readVarintAux
  have h2 : tag.toNat < 2 ^ 64 := by omega
  simp [h, Nat.mod_eq_of_lt h, Nat.mod_eq_of_lt h2]

/-- One iteration of the decode loop at a known field with a one-byte tag. -/
theorem decodeMsg_known {α : Type} (h : Handler α) (m : α) (tag : UInt8) (rest : Bytes)
    (wt : Nat) (htag : tag.toNat < 128) (hf : 0 < tag.toNat / 8)
    (hk : h.wireType (tag.toNat / 8) = some wt) (hwt : tag.toNat % 8 = wt) (hwt4 : wt ≠ 4) :
    decodeMsg h m (tag :: rest) =
      (readVal wt rest).bind fun p => (h.set m (tag.toNat / 8) p.1).bind fun m' => decodeMsg h m' p.2 := by
  unfold decodeMsg
  rw [List.length_cons]
  rw [decodeLoop]
  simp only [readVarint_tag tag rest htag]
  have hi : i32 ((tag.toNat / 8 : Nat) : Int) = (tag.toNat / 8 : Nat) := by
    apply i32_of_is; unfold IsI32; omega
  have h1 : ¬ (tag.toNat % 8 = 4) := by omega
  have h2 : ¬ (((tag.toNat / 8 : Nat) : Int) ≤ 0) := by omega
  simp only [hi, h1, h2, if_false, Int.toNat_natCast, hk]
  simp only [hwt, ne_eq, not_true_eq_false, if_false]
  cases hr : readVal wt rest with
  | none => rfl
  | some p =>
    obtain ⟨v, rest'⟩ := p
    have := readVal_le hr
    cases hs : h.set m (tag.toNat / 8) v with
    | none => simp [hs]
    | some m' =>
      simp only [Option.bind_some, hs]
      rw [decodeLoop_fuel h rest.length m' rest' this]

/-- A known field whose tag carries the wrong wire type is a decode error. -/
theorem decodeMsg_wrongType {α : Type} (h : Handler α) (m : α) (tag : UInt8) (rest : Bytes)
    (wt : Nat) (htag : tag.toNat < 128) (hf : 0 < tag.toNat / 8)
    (hk : h.wireType (tag.toNat / 8) = some wt) (hwt : tag.toNat % 8 ≠ wt) :
    decodeMsg h m (tag :: rest) = none := by
  unfold decodeMsg
  rw [List.length_cons]
  rw [decodeLoop]
  simp only [readVarint_tag tag rest htag]
  have hi : i32 ((tag.toNat / 8 : Nat) : Int) = (tag.toNat / 8 : Nat) := by
    apply i32_of_is; unfold IsI32; omega
  have h2 : ¬ (((tag.toNat / 8 : Nat) : Int) ≤ 0) := by omega
  simp only [hi, h2, if_false, Int.toNat_natCast, hk, hwt, ne_eq, not_false_eq_true, if_true]
  split <;> rfl

theorem readVal_varint (x : Nat) (rest : Bytes) (hx : x < 2 ^ 64) :
    readVal 0 (encodeVarint x ++ rest) = some (.varint x, rest) := by
  simp [readVal, readVarint_encode x rest hx]

theorem readVal_fixed (x : Nat) (rest : Bytes) (hx : x < 2 ^ 64) :
    readVal 1 (leBytes 8 x ++ rest) = some (.fixed64 x, rest) := by
  have h1 : ¬ ((leBytes 8 x ++ rest).length < 8) := by simp [leBytes_length]
  have h2 : (leBytes 8 x ++ rest).take 8 = leBytes 8 x := by
    rw [List.take_append_of_le_length (by simp [leBytes_length])]
    exact List.take_of_length_le (by simp [leBytes_length])
  have h3 : (leBytes 8 x ++ rest).drop 8 = rest := by
    rw [List.drop_append_of_le_length (by simp [leBytes_length])]
    rw [List.drop_of_length_le (by simp [leBytes_length])]; rfl
  simp only [readVal, h1, h2, h3, leNat_leBytes 8 x (by simpa using hx)]
  simp

theorem readVal_len (bs rest : Bytes) (hx : bs.length < 2 ^ 64) :
    readVal 2 (encodeVarint bs.length ++ (bs ++ rest)) = some (.len bs, rest) := by
  simp [readVal, readVarint_encode bs.length _ hx]

theorem decodeMsg_varintField {α : Type} (h : Handler α) (m : α) (tag : UInt8) (x : Int) (rest : Bytes)
    (htag : tag.toNat < 128) (hf : 0 < tag.toNat / 8)
    (hk : h.wireType (tag.toNat / 8) = some 0) (hwt : tag.toNat % 8 = 0) (hx : x ≠ 0) :
    decodeMsg h m (encVarintField tag x ++ rest) =
      (h.set m (tag.toNat / 8) (.varint (toU64 x))).bind fun m' => decodeMsg h m' rest := by
  simp only [encVarintField, hx, if_false, List.cons_append]
  rw [decodeMsg_known h m tag _ 0 htag hf hk hwt (by decide), readVal_varint _ _ (toU64_lt x)]
  rfl

theorem decodeMsg_fixedField {α : Type} (h : Handler α) (m : α) (tag : UInt8) (x : Int) (rest : Bytes)
    (htag : tag.toNat < 128) (hf : 0 < tag.toNat / 8)
    (hk : h.wireType (tag.toNat / 8) = some 1) (hwt : tag.toNat % 8 = 1) (hx : x ≠ 0) :
    decodeMsg h m (encFixedField tag x ++ rest) =
      (h.set m (tag.toNat / 8) (.fixed64 (toU64 x))).bind fun m' => decodeMsg h m' rest := by
  simp only [encFixedField, hx, if_false, List.cons_append]
  rw [decodeMsg_known h m tag _ 1 htag hf hk hwt (by decide), readVal_fixed _ _ (toU64_lt x)]
  rfl

theorem decodeMsg_lenField {α : Type} (h : Handler α) (m : α) (tag : UInt8) (bs rest : Bytes)
    (htag : tag.toNat < 128) (hf : 0 < tag.toNat / 8)
    (hk : h.wireType (tag.toNat / 8) = some 2) (hwt : tag.toNat % 8 = 2) (hx : bs.length < 2 ^ 64) :
    decodeMsg h m (encLen tag bs ++ rest) =
      (h.set m (tag.toNat / 8) (.len bs)).bind fun m' => decodeMsg h m' rest := by
  simp only [encLen, List.cons_append, List.append_assoc]
  rw [decodeMsg_known h m tag _ 2 htag hf hk hwt (by decide), readVal_len _ _ hx]
  rfl

end Horcrux
