import Verif.Spec.JsonText
/-
Lemmas: what the model's decoders take for a rune is the UTF-8 encoding of a character.
-/
namespace Horcrux
open Spec

theorem u8_toNat {n : Nat} (h : n < 256) : (UInt8.ofNat n).toNat = n := by
  simp [UInt8.toNat_ofNat']; omega

theorem inRange_iff {lo hi b : UInt8} : inRange lo hi b = true ↔ lo.toNat ≤ b.toNat ∧ b.toNat ≤ hi.toNat := by
  simp [inRange, UInt8.le_iff_toNat_le]

theorem char_valid (c : Char) : c.toNat < 0xd800 ∨ 0xdfff < c.toNat ∧ c.toNat < 0x110000 := c.valid

/-- The encodings, by length. -/
theorem utf8_cases (c : Char) :
    (c.toNat < 0x80 ∧ utf8 c = [UInt8.ofNat c.toNat]) ∨
    (0x80 ≤ c.toNat ∧ c.toNat < 0x800 ∧
      utf8 c = [UInt8.ofNat (0xc0 + c.toNat / 64), UInt8.ofNat (0x80 + c.toNat % 64)]) ∨
    (0x800 ≤ c.toNat ∧ c.toNat < 0x10000 ∧
      utf8 c = [UInt8.ofNat (0xe0 + c.toNat / 4096), UInt8.ofNat (0x80 + c.toNat / 64 % 64),
        UInt8.ofNat (0x80 + c.toNat % 64)]) ∨
    (0x10000 ≤ c.toNat ∧ c.toNat < 0x110000 ∧
      utf8 c = [UInt8.ofNat (0xf0 + c.toNat / 262144), UInt8.ofNat (0x80 + c.toNat / 4096 % 64),
        UInt8.ofNat (0x80 + c.toNat / 64 % 64), UInt8.ofNat (0x80 + c.toNat % 64)]) := by
  have hv := char_valid c
  have e : c.val.toNat = c.toNat := rfl
  unfold utf8 String.utf8EncodeChar
  simp only [e]
  generalize c.toNat = v at hv ⊢
  by_cases h1 : v ≤ 127
  · left; exact ⟨by omega, by rw [if_pos h1]⟩
  right
  rw [if_neg h1]
  by_cases h2 : v ≤ 2047
  · left
    refine ⟨by omega, by omega, ?_⟩
    rw [if_pos h2, Nat.mod_eq_of_lt (by omega : v / 64 < 32), Nat.add_comm (v / 64), Nat.add_comm (v % 64)]
  right
  rw [if_neg h2]
  by_cases h3 : v ≤ 65535
  · left
    refine ⟨by omega, by omega, ?_⟩
    rw [if_pos h3, Nat.mod_eq_of_lt (by omega : v / 4096 < 16), Nat.add_comm (v / 4096), Nat.add_comm (v / 64 % 64),
      Nat.add_comm (v % 64)]
  right
  refine ⟨by omega, by omega, ?_⟩
  rw [if_neg h3, Nat.mod_eq_of_lt (by omega : v / 262144 < 8), Nat.add_comm (v / 262144), Nat.add_comm (v / 4096 % 64),
    Nat.add_comm (v / 64 % 64), Nat.add_comm (v % 64)]

theorem encodeRune_char (c : Char) : encodeRune c.toNat = utf8 c := by
  have hv := char_valid c
  rcases utf8_cases c with ⟨h, e⟩ | ⟨h, h', e⟩ | ⟨h, h', e⟩ | ⟨h, h', e⟩ <;> rw [e] <;> unfold encodeRune
  · rw [if_pos h]
  · rw [if_neg (by omega), if_pos h']
  · rw [if_neg (by omega), if_neg (by omega), if_neg (by omega), if_pos h']
  · rw [if_neg (by omega), if_neg (by omega), if_neg (by omega), if_neg (by omega)]

theorem char_of_nat {r : Nat} (h : r < 0xd800 ∨ 0xdfff < r ∧ r < 0x110000) : ∃ c : Char, c.toNat = r := by
  refine ⟨⟨UInt32.ofNatLT r (by have : UInt32.size = 4294967296 := rfl; omega), ?_⟩, ?_⟩
  · simpa [UInt32.isValidChar, Nat.isValidChar] using h
  · simp [Char.toNat]

theorem utf8_fffd : utf8 '�' = replacement := by decide

/-- A character beyond ASCII is taken whole. -/
theorem runeLen_utf8 (c : Char) (h : 0x80 ≤ c.toNat) (t : Bytes) :
    runeLen (utf8 c ++ t) = (utf8 c).length ∧ 2 ≤ (utf8 c).length ∧ ∀ b ∈ utf8 c, 0x80 ≤ b.toNat := by
  have hv := char_valid c
  rcases utf8_cases c with ⟨h, e⟩ | ⟨h, h', e⟩ | ⟨h, h', e⟩ | ⟨h, h', e⟩
  · omega
  · rw [e]
    have n1 := u8_toNat (n := 0xc0 + c.toNat / 64) (by omega)
    have n2 := u8_toNat (n := 0x80 + c.toNat % 64) (by omega)
    generalize UInt8.ofNat (0xc0 + c.toNat / 64) = a at *
    generalize UInt8.ofNat (0x80 + c.toNat % 64) = b at *
    have i1 : inRange 0xc2 0xdf a = true := by rw [inRange_iff]; simp; omega
    have i2 : inRange 0x80 0xbf b = true := by rw [inRange_iff]; simp; omega
    refine ⟨by simp [runeLen, i1, i2], by simp, ?_⟩
    intro x hx
    simp only [List.mem_cons, List.not_mem_nil, or_false] at hx
    rcases hx with rfl | rfl <;> omega
  · rw [e]
    have n1 := u8_toNat (n := 0xe0 + c.toNat / 4096) (by omega)
    have n2 := u8_toNat (n := 0x80 + c.toNat / 64 % 64) (by omega)
    have n3 := u8_toNat (n := 0x80 + c.toNat % 64) (by omega)
    generalize UInt8.ofNat (0xe0 + c.toNat / 4096) = a at *
    generalize UInt8.ofNat (0x80 + c.toNat / 64 % 64) = b at *
    generalize UInt8.ofNat (0x80 + c.toNat % 64) = d at *
    have i0 : inRange 0xc2 0xdf a = false := by rw [Bool.eq_false_iff, Ne, inRange_iff]; simp; omega
    have i1 : inRange 0xe0 0xef a = true := by rw [inRange_iff]; simp; omega
    have i2 : tail3 a b d = true := by
      simp only [tail3, Bool.and_eq_true, inRange_iff]
      refine ⟨⟨?_, ?_⟩, by simp; omega, by simp; omega⟩
      · split
        · rename_i ha; rw [ha] at n1; simp at n1 ⊢; omega
        · simp; omega
      · split
        · rename_i ha; rw [ha] at n1; simp at n1 ⊢; omega
        · simp; omega
    refine ⟨by simp [runeLen, i0, i1, i2], by simp, ?_⟩
    intro x hx
    simp only [List.mem_cons, List.not_mem_nil, or_false] at hx
    rcases hx with rfl | rfl | rfl <;> omega
  · rw [e]
    have n1 := u8_toNat (n := 0xf0 + c.toNat / 262144) (by omega)
    have n2 := u8_toNat (n := 0x80 + c.toNat / 4096 % 64) (by omega)
    have n3 := u8_toNat (n := 0x80 + c.toNat / 64 % 64) (by omega)
    have n4 := u8_toNat (n := 0x80 + c.toNat % 64) (by omega)
    generalize UInt8.ofNat (0xf0 + c.toNat / 262144) = a at *
    generalize UInt8.ofNat (0x80 + c.toNat / 4096 % 64) = b at *
    generalize UInt8.ofNat (0x80 + c.toNat / 64 % 64) = d at *
    generalize UInt8.ofNat (0x80 + c.toNat % 64) = k at *
    have i0 : inRange 0xc2 0xdf a = false := by rw [Bool.eq_false_iff, Ne, inRange_iff]; simp; omega
    have i0' : inRange 0xe0 0xef a = false := by rw [Bool.eq_false_iff, Ne, inRange_iff]; simp; omega
    have i1 : inRange 0xf0 0xf4 a = true := by rw [inRange_iff]; simp; omega
    have i2 : tail4 a b d k = true := by
      simp only [tail4, Bool.and_eq_true, inRange_iff]
      refine ⟨⟨⟨?_, ?_⟩, by simp; omega, by simp; omega⟩, by simp; omega, by simp; omega⟩
      · split
        · rename_i ha; rw [ha] at n1; simp at n1 ⊢; omega
        · simp; omega
      · split
        · rename_i ha; rw [ha] at n1; simp at n1 ⊢; omega
        · simp; omega
    refine ⟨by simp [runeLen, i0, i0', i1, i2], by simp, ?_⟩
    intro x hx
    simp only [List.mem_cons, List.not_mem_nil, or_false] at hx
    rcases hx with rfl | rfl | rfl | rfl <;> omega

theorem u8_eq {a : UInt8} {n : Nat} (h : n = a.toNat) : UInt8.ofNat n = a := by subst h; simp

/-- What is taken for a rune is the encoding of a character beyond ASCII. -/
theorem runeLen_char {bs : Bytes} {n : Nat} (h : runeLen bs = n + 1) :
    ∃ c : Char, 0x80 ≤ c.toNat ∧ utf8 c = bs.take (n + 1) ∧ bs = utf8 c ++ bs.drop (n + 1) := by
  suffices hs : ∃ c : Char, 0x80 ≤ c.toNat ∧ utf8 c = bs.take (n + 1) by
    obtain ⟨c, h1, h2⟩ := hs
    exact ⟨c, h1, h2, by rw [h2, List.take_append_drop]⟩
  have two : ∀ (a b : UInt8), inRange 0xc2 0xdf a = true → inRange 0x80 0xbf b = true →
      ∃ c : Char, 0x80 ≤ c.toNat ∧ utf8 c = [a, b] := by
    intro a b h1 h2
    rw [inRange_iff] at h1 h2
    simp at h1 h2
    obtain ⟨c, hc⟩ := char_of_nat (r := (a.toNat - 0xc0) * 64 + (b.toNat - 0x80)) (by omega)
    refine ⟨c, by omega, ?_⟩
    rcases utf8_cases c with ⟨h, e⟩ | ⟨h, h', e⟩ | ⟨h, h', e⟩ | ⟨h, h', e⟩
    · omega
    · rw [e, u8_eq (a := a) (by omega), u8_eq (a := b) (by omega)]
    · omega
    · omega
  have three : ∀ (a b d : UInt8), inRange 0xe0 0xef a = true → tail3 a b d = true →
      ∃ c : Char, 0x80 ≤ c.toNat ∧ utf8 c = [a, b, d] := by
    intro a b d h1 h2
    simp only [tail3, Bool.and_eq_true] at h2
    obtain ⟨h2, h3⟩ := h2
    rw [inRange_iff] at h1 h2 h3
    have l1 : a.toNat = 0xe0 → 0xa0 ≤ b.toNat := fun ha => by
      rw [if_pos (UInt8.toNat_inj.1 ha)] at h2; simpa using h2.1
    have l2 : a.toNat = 0xed → b.toNat ≤ 0x9f := fun ha => by
      rw [if_pos (UInt8.toNat_inj.1 ha : a = 0xed)] at h2; simpa using h2.2
    have l3 : 0x80 ≤ b.toNat ∧ b.toNat ≤ 0xbf := by
      refine ⟨?_, ?_⟩
      · have := h2.1; split at this <;> simp at this <;> omega
      · have := h2.2; split at this <;> simp at this <;> omega
    simp at h1 h3
    obtain ⟨c, hc⟩ := char_of_nat (r := (a.toNat - 0xe0) * 4096 + (b.toNat - 0x80) * 64 + (d.toNat - 0x80)) (by omega)
    refine ⟨c, by omega, ?_⟩
    rcases utf8_cases c with ⟨h, e⟩ | ⟨h, h', e⟩ | ⟨h, h', e⟩ | ⟨h, h', e⟩
    · omega
    · omega
    · rw [e, u8_eq (a := a) (by omega), u8_eq (a := b) (by omega), u8_eq (a := d) (by omega)]
    · omega
  have four : ∀ (a b d k : UInt8), inRange 0xf0 0xf4 a = true → tail4 a b d k = true →
      ∃ c : Char, 0x80 ≤ c.toNat ∧ utf8 c = [a, b, d, k] := by
    intro a b d k h1 h2
    simp only [tail4, Bool.and_eq_true] at h2
    obtain ⟨⟨h2, h3⟩, h4⟩ := h2
    rw [inRange_iff] at h1 h2 h3 h4
    have l1 : a.toNat = 0xf0 → 0x90 ≤ b.toNat := fun ha => by
      rw [if_pos (UInt8.toNat_inj.1 ha)] at h2; simpa using h2.1
    have l2 : a.toNat = 0xf4 → b.toNat ≤ 0x8f := fun ha => by
      rw [if_pos (UInt8.toNat_inj.1 ha : a = 0xf4)] at h2; simpa using h2.2
    have l3 : 0x80 ≤ b.toNat ∧ b.toNat ≤ 0xbf := by
      refine ⟨?_, ?_⟩
      · have := h2.1; split at this <;> simp at this <;> omega
      · have := h2.2; split at this <;> simp at this <;> omega
    simp at h1 h3 h4
    obtain ⟨c, hc⟩ := char_of_nat (r := (a.toNat - 0xf0) * 262144 + (b.toNat - 0x80) * 4096 + (d.toNat - 0x80) * 64 +
      (k.toNat - 0x80)) (by omega)
    refine ⟨c, by omega, ?_⟩
    rcases utf8_cases c with ⟨h, e⟩ | ⟨h, h', e⟩ | ⟨h, h', e⟩ | ⟨h, h', e⟩
    · omega
    · omega
    · omega
    · rw [e, u8_eq (a := a) (by omega), u8_eq (a := b) (by omega), u8_eq (a := d) (by omega), u8_eq (a := k) (by omega)]
  match bs with
  | [] => simp [runeLen] at h
  | [a] => simp [runeLen] at h
  | [a, b] =>
    simp only [runeLen] at h
    split at h
    · rename_i h1
      split at h
      · rename_i h2; cases h; exact two a b h1 h2
      · cases h
    · cases h
  | [a, b, d] =>
    simp only [runeLen] at h
    split at h
    · rename_i h1
      split at h
      · rename_i h2; cases h; exact two a b h1 h2
      · cases h
    · split at h
      · rename_i h1
        split at h
        · rename_i h2; cases h; exact three a b d h1 h2
        · cases h
      · cases h
  | a :: b :: d :: k :: r =>
    simp only [runeLen] at h
    split at h
    · rename_i h1
      split at h
      · rename_i h2; cases h; exact two a b h1 h2
      · cases h
    · split at h
      · rename_i h1
        split at h
        · rename_i h2; cases h; exact three a b d h1 h2
        · cases h
      · split at h
        · rename_i h1
          split at h
          · rename_i h2; cases h; exact four a b d k h1 h2
          · cases h
        · cases h

end Horcrux
