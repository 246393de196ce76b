import Verif.Lemmas.Utf8
import Verif.Lemmas.PrivFile
/-
The model's JSON reader accepts exactly the texts of the grammar in Spec/JsonText, with the values given there.
-/
namespace Horcrux
open Spec

/-! ### Hexadecimal digits -/

theorem hexVal_spec (c : UInt8) : ∀ n, hexVal c = some n → HexDigit c n := by
  suffices h : (hexVal c).all (fun n => decide ((text "0123456789abcdef")[n]? = some c ∨
      (text "0123456789ABCDEF")[n]? = some c)) = true by
    intro n hn; rw [hn] at h; simpa [HexDigit] using h
  revert c
  apply u8_forall
  decide +kernel

theorem hexVal_of_digit {c : UInt8} {n : Nat} (h : HexDigit c n) : hexVal c = some n ∧ n < 16 := by
  have hl : n < 16 := by
    rcases h with h | h
    · exact (List.getElem?_eq_some_iff.1 h).1
    · exact (List.getElem?_eq_some_iff.1 h).1
  refine ⟨?_, hl⟩
  have key : ∀ n : Fin 16, (text "0123456789abcdef")[n.val]?.bind hexVal = some n.val ∧
      (text "0123456789ABCDEF")[n.val]?.bind hexVal = some n.val := by decide +kernel
  obtain ⟨k1, k2⟩ := key ⟨n, hl⟩
  rcases h with h | h
  · simpa [h] using k1
  · simpa [h] using k2

theorem hexVal_iff {c : UInt8} {n : Nat} : hexVal c = some n ↔ HexDigit c n :=
  ⟨hexVal_spec c n, fun h => (hexVal_of_digit h).1⟩

theorem hex4_of {d : Bytes} {r : Nat} (h : Hex4 d r) (rest : Bytes) : hex4 (d ++ rest) = some (r, rest) := by
  cases h with
  | mk ha hb hc hd =>
    simp only [List.cons_append, List.nil_append, hex4, hexVal_iff.2 ha, hexVal_iff.2 hb, hexVal_iff.2 hc, hexVal_iff.2 hd]
    simp only [Option.some.injEq, Prod.mk.injEq, and_true]
    omega

theorem hex4_spec {bs rest : Bytes} {r : Nat} (h : hex4 bs = some (r, rest)) : ∃ d, bs = d ++ rest ∧ Hex4 d r := by
  unfold hex4 at h
  split at h
  · rename_i a b c d rest'
    split at h
    · rename_i x y z w ha hb hc hd
      simp only [Option.some.injEq, Prod.mk.injEq] at h
      obtain ⟨rfl, rfl⟩ := h
      refine ⟨[a, b, c, d], rfl, ?_⟩
      have := Hex4.mk (hexVal_iff.1 ha) (hexVal_iff.1 hb) (hexVal_iff.1 hc) (hexVal_iff.1 hd)
      have e : x * 16 ^ 3 + y * 16 ^ 2 + z * 16 + w = ((x * 16 + y) * 16 + z) * 16 + w := by omega
      rw [← e]
      exact this
    · cases h
  · cases h

theorem hex4_lt {d : Bytes} {r : Nat} (h : Hex4 d r) : r < 65536 ∧ d.length = 4 := by
  cases h with
  | mk ha hb hc hd =>
    have := (hexVal_of_digit ha).2
    have := (hexVal_of_digit hb).2
    have := (hexVal_of_digit hc).2
    have := (hexVal_of_digit hd).2
    exact ⟨by omega, rfl⟩

/-! ### Strings -/

theorem text_u : text "\\u" = [92, 117] := by decide +kernel
theorem text_bs : text "\\" = [92] := by decide +kernel
theorem text_quote : text "\"" = [34] := by decide +kernel

/-- The letters after a backslash. -/
theorem unescape_of {e c : Char} (h : (e, c) ∈ escapes) :
    ∃ x y, utf8 e = [x] ∧ utf8 c = [y] ∧ x ≠ 117 ∧ unescape x = some y := by
  have : ∀ p ∈ escapes, ∃ x y, utf8 p.1 = [x] ∧ utf8 p.2 = [y] ∧ x ≠ 117 ∧ unescape x = some y := by
    intro p hp
    simp only [escapes, List.mem_cons, List.not_mem_nil, or_false] at hp
    rcases hp with rfl | rfl | rfl | rfl | rfl | rfl | rfl | rfl <;> exact ⟨_, _, rfl, rfl, by decide, by decide⟩
  exact this _ h

theorem unescape_spec {x y : UInt8} (h : unescape x = some y) : ∃ e c, (e, c) ∈ escapes ∧ utf8 e = [x] ∧ utf8 c = [y] := by
  unfold unescape at h
  repeat' split at h
  all_goals first
    | (cases h; done)
    | (rename_i hx; subst hx; cases h
       first
         | exact ⟨'"', '"', by decide, rfl, rfl⟩
         | exact ⟨'\\', '\\', by decide, rfl, rfl⟩
         | exact ⟨'/', '/', by decide, rfl, rfl⟩
         | exact ⟨'b', '\x08', by decide, rfl, rfl⟩
         | exact ⟨'f', '\x0c', by decide, rfl, rfl⟩
         | exact ⟨'n', '\n', by decide, rfl, rfl⟩
         | exact ⟨'r', '\r', by decide, rfl, rfl⟩
         | exact ⟨'t', '\t', by decide, rfl, rfl⟩)

theorem consStr_eq {a s rest : Bytes} {o : Option (Bytes × Bytes)} (h : consStr a o = some (s, rest)) :
    ∃ s', o = some (s', rest) ∧ s = a ++ s' := by
  cases o with
  | none => cases h
  | some p =>
    obtain ⟨s', r⟩ := p
    simp only [consStr, Option.some.injEq, Prod.mk.injEq] at h
    obtain ⟨rfl, rfl⟩ := h
    exact ⟨s', rfl, rfl⟩

theorem chars_sound : ∀ (f : Nat) (bs s rest : Bytes), parseStrAux f bs = some (s, rest) →
    ∃ t, bs = t ++ 34 :: rest ∧ Chars t s
  | 0, _, _, _, h => by simp [parseStrAux] at h
  | f + 1, [], _, _, h => by simp [parseStrAux] at h
  | f + 1, c :: bs, s, rest, h => by
    simp only [parseStrAux] at h
    split at h
    · rename_i hc
      simp only [Option.some.injEq, Prod.mk.injEq] at h
      obtain ⟨rfl, rfl⟩ := h
      exact ⟨[], by simp [hc], .nil⟩
    rename_i hq
    split at h
    · rename_i hc
      subst hc
      split at h
      · cases h
      rename_i e bs'
      split at h
      · rename_i he
        subst he
        split at h
        · cases h
        rename_i r bs'' hr
        obtain ⟨s', h1, rfl⟩ := consStr_eq h
        obtain ⟨t, h2, h3⟩ := chars_sound f _ _ _ h1
        obtain ⟨d, rfl, hd⟩ := hex4_spec hr
        have hlt := (hex4_lt hd).1
        have other : 0xdc00 ≤ r → r < 0xe000 → encodeRune r = utf8 '�' := by
          intro a b
          rw [utf8_fffd, encodeRune, if_neg (by omega), if_neg (by omega), if_pos (by omega)]
        unfold uEscape at h2 ⊢
        by_cases hhi : 0xd800 ≤ r ∧ r < 0xdc00
        · rw [if_pos hhi] at h2 ⊢
          have single : (bs'' = t ++ 34 :: rest) → ¬ StartsLow t →
              ∃ t', 92 :: 117 :: (d ++ bs'') = t' ++ 34 :: rest ∧ Chars t' (replacement ++ s') := by
            intro hb hn
            refine ⟨text "\\u" ++ d ++ t, by simp [text_u, hb], ?_⟩
            rw [← utf8_fffd]
            exact .alone hd (Or.inl ⟨⟨hhi.1, by omega⟩, hn⟩) h3
          have nolow : ∀ t', StartsLow t' → ∀ rest', (∃ (x : Bytes) (y : Nat × Bytes), t' ++ rest' = 92 :: 117 :: x ∧ hex4 x = some (y.1, y.2) ∧
              0xdc00 ≤ y.1 ∧ y.1 < 0xe000) := by
            rintro t' ⟨d', r', t'', rfl, hd', hl⟩ rest'
            refine ⟨d' ++ (t'' ++ rest'), (r', t'' ++ rest'), by simp [text_u], hex4_of hd' _, hl.1, by have := hl.2; omega⟩
          split at h2
          · rename_i bs3
            split at h2
            · rename_i r2 bs4 hr2
              split at h2
              · rename_i hlo
                obtain ⟨d', rfl, hd'⟩ := hex4_spec hr2
                simp only at h2
                simp only [if_pos hlo]
                obtain ⟨ch, hch⟩ := char_of_nat (r := 0x10000 + (r - 0xd800) * 1024 + (r2 - 0xdc00)) (by omega)
                rw [← hch, encodeRune_char]
                refine ⟨text "\\u" ++ d ++ text "\\u" ++ d' ++ t, by simp [text_u, h2], ?_⟩
                exact .pair hd hd' ⟨hhi.1, by omega⟩ ⟨hlo.1, by omega⟩ (by rw [hch]) h3
              · rename_i hlo
                simp only at h2
                simp only [if_neg hlo]
                refine single h2 fun hl => ?_
                obtain ⟨x, y, e1, e2, e3⟩ := nolow t hl (34 :: rest)
                rw [← h2] at e1
                simp only [List.cons.injEq, true_and] at e1
                subst e1
                rw [hr2] at e2
                simp only [Option.some.injEq, Prod.mk.injEq] at e2
                rw [← e2.1] at e3
                exact hlo e3
            · rename_i hr2
              simp only at h2
              simp only
              refine single h2 fun hl => ?_
              obtain ⟨x, y, e1, e2, e3⟩ := nolow t hl (34 :: rest)
              rw [← h2] at e1
              simp only [List.cons.injEq, true_and] at e1
              subst e1
              rw [hr2] at e2
              cases e2
          · rename_i hno
            simp only at h2
            simp only
            refine single h2 fun hl => ?_
            obtain ⟨x, y, e1, e2, e3⟩ := nolow t hl (34 :: rest)
            exact hno x (by rw [h2, e1])
        · rw [if_neg hhi] at h2 ⊢
          simp only at h2 ⊢
          refine ⟨text "\\u" ++ d ++ t, by simp [text_u, h2], ?_⟩
          by_cases hl : 0xdc00 ≤ r ∧ r < 0xe000
          · rw [other hl.1 hl.2]
            exact .alone hd (Or.inr ⟨hl.1, by omega⟩) h3
          · obtain ⟨ch, hch⟩ := char_of_nat (r := r) (by omega)
            rw [← hch, encodeRune_char]
            exact .unicode (by rw [hch]; exact hd) h3
      · rename_i he
        split at h
        · cases h
        rename_i y hy
        obtain ⟨s', h1, rfl⟩ := consStr_eq h
        obtain ⟨t, rfl, h3⟩ := chars_sound f _ _ _ h1
        obtain ⟨e', c', h4, h5, h6⟩ := unescape_spec hy
        refine ⟨text "\\" ++ utf8 e' ++ t, by simp [text_bs, h5], ?_⟩
        rw [← h6]
        exact .escape h4 h3
    rename_i hb
    split at h
    · cases h
    rename_i h32
    split at h
    · rename_i h80
      obtain ⟨s', h1, rfl⟩ := consStr_eq h
      obtain ⟨t, rfl, h3⟩ := chars_sound f _ _ _ h1
      have n80 : c.toNat < 0x80 := h80
      have n32 : ¬ c.toNat < 32 := h32
      obtain ⟨ch, hch⟩ := char_of_nat (r := c.toNat) (by omega)
      have hu : utf8 ch = [c] := by
        rcases utf8_cases ch with ⟨h, e⟩ | ⟨h, h', e⟩ | ⟨h, h', e⟩ | ⟨h, h', e⟩
        · rw [e, u8_eq (a := c) hch]
        · omega
        · omega
        · omega
      refine ⟨utf8 ch ++ t, by simp [hu], ?_⟩
      rw [show [c] ++ s' = utf8 ch ++ s' by rw [hu]]
      refine .char ch ?_ ?_ ?_ h3
      · show (32 : Nat) ≤ ch.toNat
        omega
      · rintro rfl
        exact hq (by rw [← u8_eq (a := c) hch]; rfl)
      · rintro rfl
        exact hb (by rw [← u8_eq (a := c) hch]; rfl)
    rename_i h80
    have n80 : ¬ c.toNat < 0x80 := h80
    split at h
    · rename_i h0
      obtain ⟨s', h1, rfl⟩ := consStr_eq h
      obtain ⟨t, rfl, h3⟩ := chars_sound f _ _ _ h1
      refine ⟨c :: t, by simp, ?_⟩
      rw [← utf8_fffd]
      refine .invalid (by show (0x80 : UInt8).toNat ≤ c.toNat; simpa using n80) ?_ h3
      rintro ⟨ch, t', ht⟩
      rw [← List.cons_append, ht, List.append_assoc] at h0
      have hch : 0x80 ≤ ch.toNat := by
        refine Nat.le_of_not_lt fun hlt => ?_
        rcases utf8_cases ch with ⟨h, e⟩ | ⟨h, h', e⟩ | ⟨h, h', e⟩ | ⟨h, h', e⟩
        · rw [e] at ht
          simp only [List.cons_append, List.cons.injEq] at ht
          have := u8_toNat (n := ch.toNat) (by omega)
          rw [← ht.1] at this
          omega
        · omega
        · omega
        · omega
      obtain ⟨a1, a2, -⟩ := runeLen_utf8 ch hch (t' ++ 34 :: rest)
      omega
    · rename_i n hn
      obtain ⟨s', h1, rfl⟩ := consStr_eq h
      obtain ⟨t, h2, h3⟩ := chars_sound f _ _ _ h1
      obtain ⟨ch, c1, c2, c3⟩ := runeLen_char hn
      rw [List.drop_succ_cons, h2] at c3
      refine ⟨utf8 ch ++ t, by rw [List.append_assoc]; exact c3, ?_⟩
      rw [← c2]
      refine .char ch ?_ ?_ ?_ h3
      · show (32 : Nat) ≤ ch.toNat
        omega
      · rintro rfl; exact absurd c1 (by decide)
      · rintro rfl; exact absurd c1 (by decide)

theorem parse_ascii {c : UInt8} (h1 : c ≠ 34) (h2 : c ≠ 92) (h3 : 32 ≤ c.toNat) (h4 : c.toNat < 0x80) (g : Nat) (t : Bytes) :
    parseStrAux (g + 1) (c :: t) = consStr [c] (parseStrAux g t) := by
  have a : ¬ c < 32 := by show ¬ c.toNat < 32; omega
  have b : c < 0x80 := h4
  simp only [parseStrAux, h1, h2, a, b, if_true, if_false]

theorem chars_complete {t s : Bytes} (h : Chars t s) : ∀ (f : Nat) (rest : Bytes), t.length + 1 ≤ f →
    parseStrAux f (t ++ 34 :: rest) = some (s, rest) := by
  induction h with
  | nil =>
    intro f rest hf
    cases f with
    | zero => omega
    | succ f => simp [parseStrAux]
  | @char t s c h hq hb hs ih =>
    intro f rest hf
    have h32 : (32 : Nat) ≤ c.toNat := h
    cases f with
    | zero => omega
    | succ f =>
      by_cases h80 : c.toNat < 0x80
      · have hu : utf8 c = [UInt8.ofNat c.toNat] := by
          rcases utf8_cases c with ⟨h, e⟩ | ⟨h, h', e⟩ | ⟨h, h', e⟩ | ⟨h, h', e⟩
          · exact e
          · omega
          · omega
          · omega
        have hn := u8_toNat (n := c.toNat) (by omega)
        have key : ∀ d : Char, c ≠ d → d.toNat < 256 → UInt8.ofNat c.toNat ≠ UInt8.ofNat d.toNat := by
          intro d hne hd he
          have := congrArg UInt8.toNat he
          rw [hn, u8_toNat hd] at this
          exact hne (Char.ext (UInt32.toNat_inj.1 this))
        rw [hu] at hf ⊢
        simp only [List.cons_append, List.nil_append, List.length_cons] at hf ⊢
        rw [parse_ascii (key '"' hq (by decide)) (key '\\' hb (by decide)) (by omega) (by omega), ih f rest (by omega)]
        rfl
      · have hr := runeLen_utf8 c (by omega) (t ++ 34 :: rest)
        obtain ⟨r1, r2, r3⟩ := hr
        obtain ⟨n, hn⟩ : ∃ n, (utf8 c).length = n + 1 := ⟨(utf8 c).length - 1, by omega⟩
        obtain ⟨x, u, hxu⟩ : ∃ x u, utf8 c = x :: u := by
          cases hcu : utf8 c with
          | nil => rw [hcu] at r2; simp at r2
          | cons x u => exact ⟨x, u, rfl⟩
        have hx : ¬ x < 0x80 := by
          have := r3 x (by simp [hxu])
          show ¬ x.toNat < 0x80
          omega
        have := parse_rune (c := x) (s := u ++ (t ++ 34 :: rest)) (n := n) hx
          (by rw [← List.cons_append, ← hxu, r1, hn]) f (t ++ 34 :: rest)
        have htake : (x :: (u ++ (t ++ 34 :: rest))).take (n + 1) = utf8 c := by
          rw [← List.cons_append, ← hxu, ← hn, List.take_left]
        rw [htake] at this
        rw [List.append_assoc, this, ih f rest (by simp only [List.length_append] at hf; omega)]
        rfl
  | @escape t s e c h hs ih =>
    intro f rest hf
    obtain ⟨x, y, e1, e2, e3, e4⟩ := unescape_of h
    cases f with
    | zero => omega
    | succ f =>
      rw [e1, e2, text_bs] at *
      simp only [List.cons_append, List.nil_append, List.length_cons] at hf ⊢
      simp only [parseStrAux, e3, e4, if_false, if_true, show ¬ (92 : UInt8) = 34 by decide, ih f rest (by omega)]
      rfl
  | @unicode t s d c h hs ih =>
    intro f rest hf
    have hl := hex4_lt h
    cases f with
    | zero => omega
    | succ f =>
      rw [text_u] at *
      simp only [List.cons_append, List.nil_append, List.length_cons, List.length_append, List.append_assoc] at hf ⊢
      have hu : uEscape c.toNat (t ++ 34 :: rest) = (utf8 c, t ++ 34 :: rest) := by
        have := char_valid c
        unfold uEscape
        rw [if_neg (by omega), encodeRune_char]
      simp only [parseStrAux, if_false, if_true, show ¬ (92 : UInt8) = 34 by decide, hex4_of h, hu, ih f rest (by omega)]
      rfl
  | @pair t s d d' hi lo c hd hd' hh hl hc hs ih =>
    intro f rest hf
    have := hex4_lt hd
    cases f with
    | zero => omega
    | succ f =>
      rw [text_u] at *
      simp only [List.cons_append, List.nil_append, List.length_cons, List.length_append, List.append_assoc] at hf ⊢
      have hu : uEscape hi (92 :: 117 :: (d' ++ (t ++ 34 :: rest))) = (utf8 c, t ++ 34 :: rest) := by
        unfold HighSurrogate at hh
        unfold LowSurrogate at hl
        rw [uEscape, if_pos (by omega)]
        simp only [hex4_of hd']
        rw [if_pos (by omega)]
        have hc' : 0x10000 + (hi - 0xd800) * 1024 + (lo - 0xdc00) = c.toNat := hc.symm
        rw [hc', encodeRune_char]
      simp only [parseStrAux, if_false, if_true, show ¬ (92 : UInt8) = 34 by decide, hex4_of hd, hu, ih f rest (by omega)]
      rfl
  | @alone t s d r hd hr hs ih =>
    intro f rest hf
    have hlt := hex4_lt hd
    cases f with
    | zero => omega
    | succ f =>
      have hu : uEscape r (t ++ 34 :: rest) = (utf8 '�', t ++ 34 :: rest) := by
        rw [utf8_fffd]
        rcases hr with ⟨hh, hn⟩ | hl
        · unfold HighSurrogate at hh
          unfold uEscape
          rw [if_pos (by omega)]
          split
          · rename_i x hx
            split
            · rename_i r2 x' hx'
              split
              · rename_i hlo
                exfalso
                apply hn
                obtain ⟨d', rfl, hd'⟩ := hex4_spec hx'
                have hl4 := (hex4_lt hd').2
                cases hd' with
                | mk ha hb hc hd'' =>
                  rename_i a b c e x y z w
                  have nq : ∀ {c : UInt8} {n : Nat}, HexDigit c n → c ≠ 34 := by
                    intro c n h he
                    have := (hexVal_of_digit h).1
                    rw [he] at this
                    exact absurd this (by rw [show hexVal 34 = none by decide]; simp)
                  match t with
                  | [] => simp at hx
                  | [t1] => simp at hx
                  | [t1, t2] =>
                    simp only [List.cons_append, List.nil_append, List.cons.injEq] at hx
                    exact absurd hx.2.2.1.symm (nq ha)
                  | [t1, t2, t3] =>
                    simp only [List.cons_append, List.nil_append, List.cons.injEq] at hx
                    exact absurd hx.2.2.2.1.symm (nq hb)
                  | [t1, t2, t3, t4] =>
                    simp only [List.cons_append, List.nil_append, List.cons.injEq] at hx
                    exact absurd hx.2.2.2.2.1.symm (nq hc)
                  | [t1, t2, t3, t4, t5] =>
                    simp only [List.cons_append, List.nil_append, List.cons.injEq] at hx
                    exact absurd hx.2.2.2.2.2.1.symm (nq hd'')
                  | t1 :: t2 :: t3 :: t4 :: t5 :: t6 :: t' =>
                    simp only [List.cons_append, List.nil_append, List.cons.injEq] at hx
                    obtain ⟨rfl, rfl, rfl, rfl, rfl, rfl, -⟩ := hx
                    exact ⟨_, _, t', by rw [text_u]; rfl, Hex4.mk ha hb hc hd'', hlo.1, by omega⟩
              · rfl
            · rfl
          · rfl
        · unfold LowSurrogate at hl
          unfold uEscape
          rw [if_neg (by omega), encodeRune, if_neg (by omega), if_neg (by omega), if_pos (by omega)]
      rw [text_u] at *
      simp only [List.cons_append, List.nil_append, List.length_cons, List.length_append, List.append_assoc] at hf ⊢
      simp only [parseStrAux, if_false, if_true, show ¬ (92 : UInt8) = 34 by decide, hex4_of hd, hu, ih f rest (by omega)]
      rfl
  | @invalid t s b hb h hs ih =>
    intro f rest hf
    have nb : (0x80 : Nat) ≤ b.toNat := hb
    cases f with
    | zero => omega
    | succ f =>
      have h0 : runeLen (b :: (t ++ 34 :: rest)) = 0 := by
        rcases Nat.eq_zero_or_pos (runeLen (b :: (t ++ 34 :: rest))) with h0 | hpos
        · exact h0
        exfalso
        obtain ⟨n, hn⟩ : ∃ n, runeLen (b :: (t ++ 34 :: rest)) = n + 1 := ⟨_, (Nat.succ_pred_eq_of_pos hpos).symm⟩
        obtain ⟨c, c1, c2, c3⟩ := runeLen_char hn
        have hall := (runeLen_utf8 c c1 []).2.2
        apply h
        by_cases hlen : n + 1 ≤ (b :: t).length
        · refine ⟨c, (b :: t).drop (n + 1), ?_⟩
          rw [c2, ← List.cons_append, List.take_append_of_le_length hlen, List.take_append_drop]
        · have : (34 : UInt8) ∈ utf8 c := by
            rw [c2, ← List.cons_append, List.take_append]
            apply List.mem_append_right
            obtain ⟨m, hm⟩ : ∃ m, n + 1 - (b :: t).length = m + 1 := ⟨n - (b :: t).length, by omega⟩
            rw [hm, List.take_succ_cons]
            simp
          have := hall _ this
          exact absurd this (by decide)
      have q1 : ¬ b = 34 := by rintro rfl; exact absurd nb (by decide)
      have q2 : ¬ b = 92 := by rintro rfl; exact absurd nb (by decide)
      have q3 : ¬ b < 32 := by show ¬ b.toNat < 32; omega
      have q4 : ¬ b < 0x80 := by show ¬ b.toNat < 0x80; omega
      simp only [List.cons_append, List.length_cons] at hf ⊢
      simp only [parseStrAux, if_false, q1, q2, q3, q4, h0, ih f rest (by omega), utf8_fffd]
      rfl

theorem parseStr_iff {bs s rest : Bytes} : parseStr bs = some (s, rest) ↔ ∃ t, bs = t ++ 34 :: rest ∧ Chars t s := by
  refine ⟨chars_sound _ _ _ _, ?_⟩
  rintro ⟨t, rfl, h⟩
  exact chars_complete h _ _ (by simp)

/-! ### Numbers -/

theorem isDigit_iff {c : UInt8} : isDigit c = true ↔ c ∈ text "0123456789" := by
  revert c
  apply u8_forall
  decide +kernel

theorem nonzero_iff {c : UInt8} : (isDigit c = true ∧ c ≠ 48) ↔ c ∈ text "123456789" := by
  revert c
  apply u8_forall
  decide +kernel

/-- What may follow a number. -/
def Stop : Bytes → Prop
  | [] => True
  | c :: _ => isDigit c = false ∧ c ≠ 46 ∧ c ≠ 101 ∧ c ≠ 69

theorem spanDigits_spec : ∀ (s : Bytes), s = (spanDigits s).1 ++ (spanDigits s).2 ∧ Digits (spanDigits s).1
  | [] => ⟨rfl, by simp [spanDigits, Digits]⟩
  | c :: s => by
    rw [spanDigits]
    split
    · rename_i hc
      obtain ⟨h1, h2⟩ := spanDigits_spec s
      refine ⟨by simp [← h1], ?_⟩
      intro x hx
      simp only [List.mem_cons] at hx
      rcases hx with rfl | hx
      · exact isDigit_iff.1 hc
      · exact h2 x hx
    · exact ⟨rfl, by simp [Digits]⟩

theorem spanDigits_of {ds rest : Bytes} (h : Digits ds) (hr : ∀ c s, rest = c :: s → isDigit c = false) :
    spanDigits (ds ++ rest) = (ds, rest) := by
  induction ds with
  | nil =>
    cases rest with
    | nil => rfl
    | cons c s => simp [spanDigits, hr c s rfl]
  | cons d ds ih =>
    simp only [List.cons_append, spanDigits, isDigit_iff.2 (h d (by simp)), if_true, ih fun c hc => h c (by simp [hc])]

theorem text_minus : [45] = text "-" := by decide +kernel
theorem text_plus : [43] = text "+" := by decide +kernel

theorem num_sound {bs raw rest : Bytes} (h : parseNum bs = some (raw, rest)) : bs = raw ++ rest ∧ NumText raw := by
  unfold parseNum at h
  have hm : bs = (minusPart bs).1 ++ (minusPart bs).2 ∧ ((minusPart bs).1 = [] ∨ (minusPart bs).1 = text "-") := by
    unfold minusPart
    split
    · exact ⟨rfl, Or.inr text_minus⟩
    · exact ⟨rfl, Or.inl rfl⟩
  generalize minusPart bs = m at h hm
  split at h
  · cases h
  rename_i i s1 hi
  have hi' : m.2 = i ++ s1 ∧ IntText i := by
    unfold intPart at hi
    split at hi
    · cases hi
    rename_i c s hms
    split at hi
    · rename_i hc
      simp only [Option.some.injEq, Prod.mk.injEq] at hi
      obtain ⟨rfl, rfl⟩ := hi
      subst hc
      exact ⟨hms, IntText.zero⟩
    rename_i hc
    split at hi
    · rename_i hd
      obtain ⟨e1, e2⟩ := spanDigits_spec s
      simp only [Option.some.injEq, spanDigits, hd, if_true, Prod.mk.injEq] at hi
      obtain ⟨rfl, rfl⟩ := hi
      refine ⟨?_, IntText.pos (nonzero_iff.1 ⟨hd, hc⟩) e2⟩
      rw [hms, List.cons_append, ← e1]
    · cases hi
  split at h
  · cases h
  rename_i fr s2 hf
  have hf' : s1 = fr ++ s2 ∧ FracText fr := by
    unfold fracPart at hf
    split at hf
    · rename_i s
      split at hf
      · cases hf
      rename_i hne
      simp only [Option.some.injEq, Prod.mk.injEq] at hf
      obtain ⟨rfl, rfl⟩ := hf
      obtain ⟨e1, e2⟩ := spanDigits_spec s
      exact ⟨by rw [List.cons_append, ← e1], .some hne e2⟩
    · simp only [Option.some.injEq, Prod.mk.injEq] at hf
      obtain ⟨rfl, rfl⟩ := hf
      exact ⟨rfl, .none⟩
  split at h
  · cases h
  rename_i ex s3 he
  have he' : s2 = ex ++ s3 ∧ ExpText ex := by
    unfold expPart at he
    split at he
    · simp only [Option.some.injEq, Prod.mk.injEq] at he
      obtain ⟨rfl, rfl⟩ := he
      exact ⟨rfl, .none⟩
    rename_i c s
    split at he
    · rename_i hc
      split at he
      · cases he
      rename_i hne
      simp only [Option.some.injEq, Prod.mk.injEq] at he
      obtain ⟨rfl, rfl⟩ := he
      have hs : s = (signPart s).1 ++ (signPart s).2 ∧ ((signPart s).1 = [] ∨ (signPart s).1 = text "+" ∨
          (signPart s).1 = text "-") := by
        unfold signPart
        split
        · exact ⟨rfl, Or.inl rfl⟩
        · split
          · rename_i hc
            refine ⟨rfl, Or.inr ?_⟩
            rcases hc with rfl | rfl
            · exact Or.inl text_plus
            · exact Or.inr text_minus
          · exact ⟨rfl, Or.inl rfl⟩
      generalize signPart s = sg at hs hne ⊢
      obtain ⟨e1, e2⟩ := spanDigits_spec sg.2
      refine ⟨?_, ?_⟩
      · rw [List.cons_append, List.append_assoc, ← e1, ← hs.1]
      · have := ExpText.some (e := [c]) (sign := sg.1) (s := (spanDigits sg.2).1)
          (by rcases hc with rfl | rfl
              · left; decide +kernel
              · right; decide +kernel) hs.2 hne e2
        simpa using this
    · simp only [Option.some.injEq, Prod.mk.injEq] at he
      obtain ⟨rfl, rfl⟩ := he
      exact ⟨rfl, .none⟩
  simp only [Option.some.injEq, Prod.mk.injEq] at h
  obtain ⟨rfl, rfl⟩ := h
  refine ⟨?_, .mk hm.2 hi'.2 hf'.2 he'.2⟩
  rw [hm.1, hi'.1, hf'.1, he'.1]
  simp

theorem int_head {i : Bytes} (h : IntText i) : ∃ c s, i = c :: s ∧ isDigit c = true := by
  cases h with
  | zero => exact ⟨48, [], by decide +kernel, by decide⟩
  | pos hc hs => exact ⟨_, _, rfl, (nonzero_iff.2 hc).1⟩

theorem text_dot : text "." = [46] := by decide +kernel

theorem num_complete {raw : Bytes} (h : NumText raw) (rest : Bytes) (hr : Stop rest) :
    parseNum (raw ++ rest) = some (raw, rest) := by
  cases h with
  | @mk m i f e hm hi hf he =>
  have step : ∀ s, minusPart (m ++ (i ++ s)) = (m, i ++ s) := by
    intro s
    rcases hm with rfl | rfl
    · obtain ⟨c, i', rfl, hd⟩ := int_head hi
      have hne : c ≠ 45 := by rintro rfl; exact absurd hd (by decide)
      rw [List.nil_append]
      unfold minusPart
      split
      · rename_i h; simp only [List.cons_append, List.cons.injEq] at h; exact absurd h.1 hne
      · rfl
    · rw [← text_minus]; rfl
  have nd : ∀ c s, rest = c :: s → isDigit c = false := by
    rintro c s rfl; exact hr.1
  -- what may follow a fraction
  have hexp : expPart (e ++ rest) = some (e, rest) ∧ (∀ c s, e ++ rest = c :: s → isDigit c = false ∧ c ≠ 46) := by
    cases he with
    | none =>
      refine ⟨?_, ?_⟩
      · cases rest with
        | nil => rfl
        | cons c s =>
          obtain ⟨-, -, h1, h2⟩ := hr
          simp only [List.nil_append, expPart, h1, h2, or_self, if_false]
      · rintro c s hc
        rw [List.nil_append] at hc
        subst hc
        exact ⟨hr.1, hr.2.1⟩
    | @some ee sign s he hsign hne hs =>
      obtain ⟨c, rfl, hc⟩ : ∃ c, ee = [c] ∧ (c = 101 ∨ c = 69) := by
        rcases he with rfl | rfl
        · exact ⟨101, by decide +kernel, Or.inl rfl⟩
        · exact ⟨69, by decide +kernel, Or.inr rfl⟩
      have hsp := spanDigits_of hs nd
      have hsg : signPart (sign ++ (s ++ rest)) = (sign, s ++ rest) := by
        rcases hsign with rfl | rfl | rfl
        · cases s with
          | nil => exact absurd rfl hne
          | cons d s =>
            have hd : isDigit d = true := isDigit_iff.2 (hs d (by simp))
            have h1 : ¬ d = 43 := by rintro rfl; exact absurd hd (by decide)
            have h2 : ¬ d = 45 := by rintro rfl; exact absurd hd (by decide)
            simp only [List.nil_append, List.cons_append, signPart, h1, h2, or_self, if_false]
        · rw [← text_plus]; rfl
        · rw [← text_minus]; rfl
      refine ⟨?_, ?_⟩
      · simp only [List.cons_append, List.nil_append, List.append_assoc, expPart, hc, if_true, hsg, hsp, hne, if_false]
      · intro c' s' hcs
        simp only [List.cons_append, List.nil_append, List.cons.injEq] at hcs
        rw [← hcs.1]
        rcases hc with rfl | rfl <;> decide
  have hfrac : fracPart (f ++ (e ++ rest)) = some (f, e ++ rest) ∧
      (∀ c s, f ++ (e ++ rest) = c :: s → isDigit c = false) := by
    cases hf with
    | none =>
      refine ⟨?_, fun c s h => (hexp.2 c s h).1⟩
      rw [List.nil_append]
      unfold fracPart
      split
      · rename_i h; exact absurd rfl (hexp.2 _ _ h).2
      · rfl
    | @some s hne hs =>
      have hsp := spanDigits_of hs fun c s h => (hexp.2 c s h).1
      rw [text_dot]
      refine ⟨?_, ?_⟩
      · simp only [List.cons_append, List.nil_append, fracPart, hsp, hne, if_false]
      · intro c' s' hcs
        simp only [List.cons_append, List.nil_append, List.cons.injEq] at hcs
        rw [← hcs.1]
        decide
  have hint : intPart (i ++ (f ++ (e ++ rest))) = some (i, f ++ (e ++ rest)) := by
    cases hi with
    | zero => rw [show text "0" = [48] by decide +kernel]; rfl
    | @pos c s hc hs =>
      obtain ⟨h1, h2⟩ := nonzero_iff.2 hc
      simp only [List.cons_append, intPart, h2, h1, if_false, if_true, spanDigits, spanDigits_of hs hfrac.2]
  simp only [List.append_assoc, parseNum, step, hint, hfrac.1, hexp.1]

/-! ### Values -/

theorem skipWs_spec : ∀ s : Bytes, ∃ w, Blank w ∧ s = w ++ skipWs s
  | [] => ⟨[], by simp [Blank], rfl⟩
  | c :: s => by
    rw [skipWs]
    split
    · rename_i hc
      obtain ⟨w, h1, h2⟩ := skipWs_spec s
      refine ⟨c :: w, ?_, by rw [List.cons_append, ← h2]⟩
      intro x hx
      simp only [List.mem_cons] at hx
      rcases hx with rfl | hx
      · exact hc
      · exact h1 x hx
    · exact ⟨[], by simp [Blank], rfl⟩

theorem skipWs_nil {s : Bytes} : skipWs s = [] ↔ Blank s := by
  constructor
  · intro h
    obtain ⟨w, h1, h2⟩ := skipWs_spec s
    rw [h, List.append_nil] at h2
    rwa [h2]
  · intro h
    have := skipWs_blank s [] h
    rw [List.append_nil] at this
    rw [this]; rfl

theorem text_null : text "null" = [110, 117, 108, 108] := by decide +kernel
theorem text_true : text "true" = [116, 114, 117, 101] := by decide +kernel
theorem text_false : text "false" = [102, 97, 108, 115, 101] := by decide +kernel
theorem text_lbracket : text "[" = [91] := by decide +kernel
theorem text_rbracket : text "]" = [93] := by decide +kernel
theorem text_lbrace : text "{" = [123] := by decide +kernel
theorem text_rbrace : text "}" = [125] := by decide +kernel
theorem text_comma : text "," = [44] := by decide +kernel
theorem text_colon : text ":" = [58] := by decide +kernel

theorem blank_append {w w' : Bytes} (h : Blank w) (h' : Blank w') : Blank (w ++ w') := by
  intro c hc
  rcases List.mem_append.1 hc with h1 | h1
  · exact h c h1
  · exact h' c h1

/-- White space in front of members or elements belongs to the first. -/
theorem members_blank {l : JObj} {t w : Bytes} (hw : Blank w) (h : JsonMembers l t) : JsonMembers l (w ++ t) := by
  cases h with
  | one h1 h2 h3 h4 hk hv =>
    have := JsonMembers.one (blank_append hw h1) h2 h3 h4 hk hv
    simpa only [List.append_assoc] using this
  | cons h1 h2 h3 h4 hk hv hl =>
    have := JsonMembers.cons (blank_append hw h1) h2 h3 h4 hk hv hl
    simpa only [List.append_assoc] using this

theorem elems_blank {l : JArr} {t w : Bytes} (hw : Blank w) (h : JsonElems l t) : JsonElems l (w ++ t) := by
  cases h with
  | one h1 h2 hv =>
    have := JsonElems.one (blank_append hw h1) h2 hv
    simpa only [List.append_assoc] using this
  | cons h1 h2 hv hl =>
    have := JsonElems.cons (blank_append hw h1) h2 hv hl
    simpa only [List.append_assoc] using this

theorem json_sound : ∀ f : Nat,
    (∀ bs v rest, parseVal f bs = some (v, rest) → ∃ w t, Blank w ∧ bs = w ++ t ++ rest ∧ Json v t) ∧
    (∀ bs l rest, parseElems f bs = some (l, rest) → ∃ t, bs = t ++ 93 :: rest ∧ JsonElems l t) ∧
    (∀ bs l rest, parseMembers f bs = some (l, rest) → ∃ t, bs = t ++ 125 :: rest ∧ JsonMembers l t) := by
  intro f
  induction f with
  | zero => exact ⟨by simp [parseVal], by simp [parseElems], by simp [parseMembers]⟩
  | succ f ih =>
    obtain ⟨ihv, ihe, ihm⟩ := ih
    refine ⟨?_, ?_, ?_⟩
    · intro bs v rest h
      obtain ⟨w, hw, hbs⟩ := skipWs_spec bs
      rw [parseVal] at h
      split at h
      · cases h
      rename_i c s hcs
      rw [hcs] at hbs
      suffices hs : ∃ t, c :: s = t ++ rest ∧ Json v t by
        obtain ⟨t, e, ht⟩ := hs
        exact ⟨w, t, hw, by rw [hbs, e, List.append_assoc], ht⟩
      obtain ⟨w', hw', hs'⟩ := skipWs_spec s
      split at h
      · rename_i hc
        subst hc
        split at h
        · rename_i r hr
          simp only [Option.some.injEq, Prod.mk.injEq] at h
          obtain ⟨rfl, rfl⟩ := h
          refine ⟨_, ?_, .noMembers hw'⟩
          rw [text_lbrace, text_rbrace, hs', hr]
          simp
        · split at h
          · cases h
          rename_i l r hr
          simp only [Option.some.injEq, Prod.mk.injEq] at h
          obtain ⟨rfl, rfl⟩ := h
          obtain ⟨t, e, ht⟩ := ihm _ _ _ hr
          refine ⟨_, ?_, .obj (members_blank hw' ht)⟩
          rw [text_lbrace, text_rbrace, hs', e]
          simp
      split at h
      · rename_i hc
        subst hc
        split at h
        · rename_i r hr
          simp only [Option.some.injEq, Prod.mk.injEq] at h
          obtain ⟨rfl, rfl⟩ := h
          refine ⟨_, ?_, .noElems hw'⟩
          rw [text_lbracket, text_rbracket, hs', hr]
          simp
        · split at h
          · cases h
          rename_i l r hr
          simp only [Option.some.injEq, Prod.mk.injEq] at h
          obtain ⟨rfl, rfl⟩ := h
          obtain ⟨t, e, ht⟩ := ihe _ _ _ hr
          refine ⟨_, ?_, .arr (elems_blank hw' ht)⟩
          rw [text_lbracket, text_rbracket, hs', e]
          simp
      split at h
      · rename_i hc
        subst hc
        split at h
        · cases h
        rename_i s' r hr
        simp only [Option.some.injEq, Prod.mk.injEq] at h
        obtain ⟨rfl, rfl⟩ := h
        obtain ⟨t, rfl, ht⟩ := parseStr_iff.1 hr
        refine ⟨_, ?_, .str ht (by rw [take_str]; simp)⟩
        rw [text_quote]
        simp
      split at h
      · rename_i hc
        subst hc
        split at h
        · simp only [Option.some.injEq, Prod.mk.injEq] at h
          obtain ⟨rfl, rfl⟩ := h
          exact ⟨_, by rw [text_null]; rfl, .null⟩
        · cases h
      split at h
      · rename_i hc
        subst hc
        split at h
        · simp only [Option.some.injEq, Prod.mk.injEq] at h
          obtain ⟨rfl, rfl⟩ := h
          exact ⟨_, by rw [text_true]; rfl, .true⟩
        · cases h
      split at h
      · rename_i hc
        subst hc
        split at h
        · simp only [Option.some.injEq, Prod.mk.injEq] at h
          obtain ⟨rfl, rfl⟩ := h
          exact ⟨_, by rw [text_false]; rfl, .false⟩
        · cases h
      split at h
      · cases h
      rename_i n r hr
      simp only [Option.some.injEq, Prod.mk.injEq] at h
      obtain ⟨rfl, rfl⟩ := h
      obtain ⟨e, hn⟩ := num_sound hr
      exact ⟨_, e, .num hn⟩
    · intro bs l rest h
      rw [parseElems] at h
      split at h
      · cases h
      rename_i v r hr
      obtain ⟨w, t, hw, rfl, ht⟩ := ihv _ _ _ hr
      obtain ⟨w', hw', hr'⟩ := skipWs_spec r
      split at h
      · rename_i r' hsk
        split at h
        · cases h
        rename_i l' r'' hl
        simp only [Option.some.injEq, Prod.mk.injEq] at h
        obtain ⟨rfl, rfl⟩ := h
        obtain ⟨t', rfl, ht'⟩ := ihe _ _ _ hl
        refine ⟨_, ?_, .cons hw hw' ht ht'⟩
        rw [hr', hsk, text_comma]
        simp
      · rename_i r' hsk
        simp only [Option.some.injEq, Prod.mk.injEq] at h
        obtain ⟨rfl, rfl⟩ := h
        refine ⟨_, ?_, .one hw hw' ht⟩
        rw [hr', hsk]
        simp
      · cases h
    · intro bs l rest h
      obtain ⟨w, hw, hbs⟩ := skipWs_spec bs
      rw [parseMembers] at h
      split at h
      · rename_i s hs
        rw [hs] at hbs
        split at h
        · cases h
        rename_i k s1 hk
        obtain ⟨kt, rfl, hkt⟩ := parseStr_iff.1 hk
        obtain ⟨w2, hw2, hs1⟩ := skipWs_spec s1
        split at h
        · rename_i s2 hs2
          rw [hs2] at hs1
          split at h
          · cases h
          rename_i v r hr
          obtain ⟨w3, t, hw3, rfl, ht⟩ := ihv _ _ _ hr
          obtain ⟨w4, hw4, hr'⟩ := skipWs_spec r
          split at h
          · rename_i r' hsk
            split at h
            · cases h
            rename_i l' r'' hl
            simp only [Option.some.injEq, Prod.mk.injEq] at h
            obtain ⟨rfl, rfl⟩ := h
            obtain ⟨t', rfl, ht'⟩ := ihm _ _ _ hl
            refine ⟨_, ?_, .cons hw hw2 hw3 hw4 hkt ht ht'⟩
            rw [hsk] at hr'
            rw [hbs, hs1, hr', text_comma, text_quote, text_colon]
            simp
          · rename_i r' hsk
            simp only [Option.some.injEq, Prod.mk.injEq] at h
            obtain ⟨rfl, rfl⟩ := h
            refine ⟨_, ?_, .one hw hw2 hw3 hw4 hkt ht⟩
            rw [hsk] at hr'
            rw [hbs, hs1, hr', text_quote, text_colon]
            simp
          · cases h
        · cases h
      · cases h

theorem blank_stop {w : Bytes} (hw : Blank w) {c : UInt8} {s : Bytes} (hc : c = 44 ∨ c = 93 ∨ c = 125) : Stop (w ++ c :: s) := by
  cases w with
  | nil => rcases hc with rfl | rfl | rfl <;> exact ⟨by decide, by decide, by decide, by decide⟩
  | cons x w => rcases hw x (by simp) with rfl | rfl | rfl | rfl <;> exact ⟨by decide, by decide, by decide, by decide⟩

theorem blank_stop' {w : Bytes} (hw : Blank w) : Stop w := by
  cases w with
  | nil => trivial
  | cons x w => rcases hw x (by simp) with rfl | rfl | rfl | rfl <;> exact ⟨by decide, by decide, by decide, by decide⟩

/-- The first byte of a value is none of white space, closing brackets, and closing braces. -/
theorem json_head {v : JVal} {t : Bytes} (h : Json v t) : ∃ c s, t = c :: s ∧ ¬ (c = 32 ∨ c = 9 ∨ c = 10 ∨ c = 13) ∧ c ≠ 93 := by
  cases h with
  | null => exact ⟨_, _, text_null, by decide, by decide⟩
  | true => exact ⟨_, _, text_true, by decide, by decide⟩
  | false => exact ⟨_, _, text_false, by decide, by decide⟩
  | num h =>
    cases h with
    | mk hm hi hf he =>
      rcases hm with rfl | rfl
      · obtain ⟨c, s, rfl, hd⟩ := int_head hi
        refine ⟨c, _, rfl, ?_, ?_⟩
        · rintro (rfl | rfl | rfl | rfl) <;> exact absurd hd (by decide)
        · rintro rfl; exact absurd hd (by decide)
      · rw [← text_minus]
        exact ⟨45, _, rfl, by decide, by decide⟩
  | str h => rw [text_quote]; exact ⟨_, _, rfl, by decide, by decide⟩
  | noElems hw => rw [text_lbracket]; exact ⟨_, _, rfl, by decide, by decide⟩
  | arr h => rw [text_lbracket]; exact ⟨_, _, rfl, by decide, by decide⟩
  | noMembers hw => rw [text_lbrace]; exact ⟨_, _, rfl, by decide, by decide⟩
  | obj h => rw [text_lbrace]; exact ⟨_, _, rfl, by decide, by decide⟩

theorem elems_head {l : JArr} {t : Bytes} (h : JsonElems l t) (rest : Bytes) : ∃ c s, skipWs (t ++ rest) = c :: s ∧ c ≠ 93 := by
  cases h with
  | one hw hw' hv =>
    obtain ⟨c, s, rfl, h1, h2⟩ := json_head hv
    simp only [List.append_assoc, List.cons_append]
    rw [skipWs_blank _ _ hw, skipWs_of h1]
    exact ⟨_, _, rfl, h2⟩
  | cons hw hw' hv hl =>
    obtain ⟨c, s, rfl, h1, h2⟩ := json_head hv
    simp only [List.append_assoc, List.cons_append]
    rw [skipWs_blank _ _ hw, skipWs_of h1]
    exact ⟨_, _, rfl, h2⟩

theorem jmembers_head {l : JObj} {t : Bytes} (h : JsonMembers l t) (rest : Bytes) : ∃ s, skipWs (t ++ rest) = 34 :: s := by
  cases h with
  | one h1 h2 h3 h4 hk hv =>
    simp only [List.append_assoc, text_quote, List.cons_append, List.nil_append]
    rw [skipWs_blank _ _ h1, skipWs_of (by decide)]
    exact ⟨_, rfl⟩
  | cons h1 h2 h3 h4 hk hv hl =>
    simp only [List.append_assoc, text_quote, List.cons_append, List.nil_append]
    rw [skipWs_blank _ _ h1, skipWs_of (by decide)]
    exact ⟨_, rfl⟩

theorem parseElems_skip (f : Nat) (s : Bytes) : parseElems f (skipWs s) = parseElems f s := by
  cases f with
  | zero => rfl
  | succ f =>
    have : parseVal f (skipWs s) = parseVal f s := by
      cases f with
      | zero => rfl
      | succ f => simp only [parseVal, skipWs_idem]
    simp only [parseElems, this]

theorem wsOf {c : UInt8} (h : ¬ (c = 32 ∨ c = 9 ∨ c = 10 ∨ c = 13)) (t : Bytes) : skipWs (c :: t) = c :: t := skipWs_of h

theorem num_head {raw : Bytes} (h : NumText raw) : ∃ c s, raw = c :: s ∧ (c = 45 ∨ isDigit c = true) := by
  cases h with
  | mk hm hi hf he =>
    rcases hm with rfl | rfl
    · obtain ⟨c, s, rfl, hd⟩ := int_head hi
      exact ⟨c, _, rfl, Or.inr hd⟩
    · rw [← text_minus]
      exact ⟨45, _, rfl, Or.inl rfl⟩

mutual
theorem json_complete : ∀ {v : JVal} {t : Bytes}, Json v t → ∀ (f : Nat) (rest : Bytes), ((∃ raw, v = .num raw) → Stop rest) →
    v.fuel ≤ f →
    parseVal f (t ++ rest) = some (v, rest)
  | _, _, .null, f, rest, _, hf => by
    cases f with
    | zero => simp [JVal.fuel] at hf
    | succ f => rw [text_null]; rfl
  | _, _, .true, f, rest, _, hf => by
    cases f with
    | zero => simp [JVal.fuel] at hf
    | succ f => rw [text_true]; rfl
  | _, _, .false, f, rest, _, hf => by
    cases f with
    | zero => simp [JVal.fuel] at hf
    | succ f => rw [text_false]; rfl
  | _, _, .num h, f, rest, hr, hf => by
    cases f with
    | zero => simp [JVal.fuel] at hf
    | succ f =>
      have hp := num_complete h rest (hr ⟨_, rfl⟩)
      obtain ⟨c, s, rfl, hc⟩ := num_head h
      have := StartByte.digit_facts hc
      rw [List.cons_append] at hp ⊢
      rw [parseVal, skipWs_of (by
        rcases hc with rfl | hc
        · decide
        · rintro (rfl | rfl | rfl | rfl) <;> exact absurd hc (by decide))]
      have h1 : ∀ x : UInt8, (x ≠ 45 ∧ isDigit x = false) → ¬ c = x := by
        rintro x ⟨hx, hx'⟩ rfl
        rcases hc with rfl | hc
        · exact hx rfl
        · rw [hx'] at hc; cases hc
      simp only [h1 123 (by decide), h1 91 (by decide), h1 34 (by decide), h1 110 (by decide), h1 116 (by decide),
        h1 102 (by decide), if_false, hp]
  | _, _, .str (t := t) (e := e) h he, f, rest, _, hf => by
    cases f with
    | zero => simp [JVal.fuel] at hf
    | succ f =>
      have he' : t.contains 92 = e := by rw [Bool.eq_iff_iff, he]; simp
      have hp := (parseStr_iff (rest := rest)).2 ⟨_, rfl, h⟩
      simp only [text_quote, List.cons_append, List.nil_append, List.append_assoc, parseVal, wsOf (c := 34) (by decide),
        hp, take_str, he', if_true, if_false, show ¬ (34 : UInt8) = 123 by decide, show ¬ (34 : UInt8) = 91 by decide]
  | _, _, .noElems hw, f, rest, _, hf => by
    cases f with
    | zero => simp [JVal.fuel] at hf
    | succ f =>
      simp only [text_lbracket, text_rbracket, List.cons_append, List.nil_append, List.append_assoc, parseVal,
        wsOf (c := 91) (by decide), wsOf (c := 93) (by decide), skipWs_blank _ _ hw, if_true, if_false,
        show ¬ (91 : UInt8) = 123 by decide]
  | _, _, .noMembers hw, f, rest, _, hf => by
    cases f with
    | zero => simp [JVal.fuel] at hf
    | succ f =>
      simp only [text_lbrace, text_rbrace, List.cons_append, List.nil_append, List.append_assoc, parseVal,
        wsOf (c := 123) (by decide), wsOf (c := 125) (by decide), skipWs_blank _ _ hw, if_true]
  | _, _, .arr h, f, rest, _, hf => by
    cases f with
    | zero => simp [JVal.fuel] at hf
    | succ f =>
      simp only [JVal.fuel] at hf
      have hp := jelems_complete h f rest (by omega)
      obtain ⟨c, s, hs, hc⟩ := elems_head h (93 :: rest)
      rw [← parseElems_skip, hs] at hp
      simp only [text_lbracket, text_rbracket, List.cons_append, List.nil_append, List.append_assoc, parseVal,
        wsOf (c := 91) (by decide), hs, if_true, if_false, show ¬ (91 : UInt8) = 123 by decide]
      split
      · rename_i h; simp only [List.cons.injEq] at h; exact absurd h.1 hc
      · simp only [hp]
  | _, _, .obj h, f, rest, _, hf => by
    cases f with
    | zero => simp [JVal.fuel] at hf
    | succ f =>
      simp only [JVal.fuel] at hf
      have hp := jmembers_complete h f rest (by omega)
      obtain ⟨s, hs⟩ := jmembers_head h (125 :: rest)
      rw [← parseMembers_skip, hs] at hp
      simp only [text_lbrace, text_rbrace, List.cons_append, List.nil_append, List.append_assoc, parseVal,
        wsOf (c := 123) (by decide), hs, if_true]
      split
      · rename_i h; simp only [List.cons.injEq] at h; exact absurd h.1 (by decide)
      · simp only [hp]
theorem jelems_complete : ∀ {l : JArr} {t : Bytes}, JsonElems l t → ∀ (f : Nat) (rest : Bytes), l.fuel ≤ f →
    parseElems f (t ++ 93 :: rest) = some (l, rest)
  | _, _, .one (w := w) (t := t) (w' := w') hw hw' hv, f, rest, hf => by
    cases f with
    | zero => simp [JArr.fuel] at hf
    | succ f =>
      simp only [JArr.fuel] at hf
      have hp := json_complete hv f (w' ++ 93 :: rest) (fun _ => blank_stop hw' (by decide)) (by omega)
      simp only [List.append_assoc, parseElems, parseVal_blank f w _ hw, hp, skipWs_blank _ _ hw', wsOf (c := 93) (by decide)]
  | _, _, .cons (w := w) (t := t) (w' := w') (t' := t') hw hw' hv hl, f, rest, hf => by
    cases f with
    | zero => simp [JArr.fuel] at hf
    | succ f =>
      simp only [JArr.fuel] at hf
      have hp := json_complete hv f (w' ++ 44 :: (t' ++ 93 :: rest)) (fun _ => blank_stop hw' (by decide)) (by omega)
      have hp' := jelems_complete hl f rest (by omega)
      simp only [List.append_assoc, text_comma, List.cons_append, List.nil_append, parseElems, parseVal_blank f w _ hw, hp,
        skipWs_blank _ _ hw', wsOf (c := 44) (by decide), hp']
theorem jmembers_complete : ∀ {l : JObj} {t : Bytes}, JsonMembers l t → ∀ (f : Nat) (rest : Bytes), l.fuel ≤ f →
    parseMembers f (t ++ 125 :: rest) = some (l, rest)
  | _, _, .one (kt := kt) (t := t) (w1 := w1) (w2 := w2) (w3 := w3) (w4 := w4) h1 h2 h3 h4 hk hv, f, rest, hf => by
    cases f with
    | zero => simp [JObj.fuel] at hf
    | succ f =>
      simp only [JObj.fuel] at hf
      have hp := json_complete hv f (w4 ++ 125 :: rest) (fun _ => blank_stop h4 (by decide)) (by omega)
      have hs := (parseStr_iff (rest := w2 ++ (58 :: (w3 ++ (t ++ (w4 ++ 125 :: rest)))))).2 ⟨_, rfl, hk⟩
      simp only [List.append_assoc, text_quote, text_colon, List.cons_append, List.nil_append]
      rw [parseMembers_blank _ _ _ h1]
      simp only [parseMembers, wsOf (c := 34) (by decide), hs, skipWs_blank _ _ h2, wsOf (c := 58) (by decide),
        parseVal_blank f _ _ h3, hp, skipWs_blank _ _ h4, wsOf (c := 125) (by decide)]
  | _, _, .cons (kt := kt) (t := t) (t' := t') (w1 := w1) (w2 := w2) (w3 := w3) (w4 := w4) h1 h2 h3 h4 hk hv hl, f, rest,
      hf => by
    cases f with
    | zero => simp [JObj.fuel] at hf
    | succ f =>
      simp only [JObj.fuel] at hf
      have hp := json_complete hv f (w4 ++ 44 :: (t' ++ 125 :: rest)) (fun _ => blank_stop h4 (by decide)) (by omega)
      have hp' := jmembers_complete hl f rest (by omega)
      have hs := (parseStr_iff (rest := w2 ++ (58 :: (w3 ++ (t ++ (w4 ++ 44 :: (t' ++ 125 :: rest))))))).2 ⟨_, rfl, hk⟩
      simp only [List.append_assoc, text_quote, text_colon, text_comma, List.cons_append, List.nil_append]
      rw [parseMembers_blank _ _ _ h1]
      simp only [parseMembers, wsOf (c := 34) (by decide), hs, skipWs_blank _ _ h2, wsOf (c := 58) (by decide),
        parseVal_blank f _ _ h3, hp, skipWs_blank _ _ h4, wsOf (c := 44) (by decide), hp']
end

mutual
theorem json_fuel : ∀ {v : JVal} {t : Bytes}, Json v t → v.fuel + 1 ≤ 2 * t.length
  | _, _, .null => by simp [text_null, JVal.fuel]
  | _, _, .true => by simp [text_true, JVal.fuel]
  | _, _, .false => by simp [text_false, JVal.fuel]
  | _, _, .num h => by
    obtain ⟨c, s, rfl, -⟩ := num_head h
    simp only [JVal.fuel, List.length_cons]
    omega
  | _, _, .str h _ => by
    simp only [text_quote, JVal.fuel, List.length_append, List.length_cons]
    omega
  | _, _, .noElems hw => by
    simp only [text_lbracket, text_rbracket, JVal.fuel, JArr.fuel, List.length_append, List.length_cons]
    omega
  | _, _, .noMembers hw => by
    simp only [text_lbrace, text_rbrace, JVal.fuel, JObj.fuel, List.length_append, List.length_cons]
    omega
  | _, _, .arr h => by
    have := jelems_fuel h
    simp only [text_lbracket, text_rbracket, JVal.fuel, List.length_append, List.length_cons]
    omega
  | _, _, .obj h => by
    have := jmembers_fuel h
    simp only [text_lbrace, text_rbrace, JVal.fuel, List.length_append, List.length_cons]
    omega
theorem jelems_fuel : ∀ {l : JArr} {t : Bytes}, JsonElems l t → l.fuel ≤ 2 * t.length
  | _, _, .one hw hw' hv => by
    have := json_fuel hv
    simp only [JArr.fuel, List.length_append]
    omega
  | _, _, .cons hw hw' hv hl => by
    have := json_fuel hv
    have := jelems_fuel hl
    simp only [JArr.fuel, text_comma, List.length_append, List.length_cons]
    omega
theorem jmembers_fuel : ∀ {l : JObj} {t : Bytes}, JsonMembers l t → l.fuel ≤ 2 * t.length
  | _, _, .one h1 h2 h3 h4 hk hv => by
    have := json_fuel hv
    simp only [JObj.fuel, text_quote, text_colon, List.length_append, List.length_cons]
    omega
  | _, _, .cons h1 h2 h3 h4 hk hv hl => by
    have := json_fuel hv
    have := jmembers_fuel hl
    simp only [JObj.fuel, text_quote, text_colon, text_comma, List.length_append, List.length_cons]
    omega
end

mutual
theorem nested_iff : ∀ (v : JVal) (n : Nat), Nested n v ↔ v.depth ≤ n
  | .null, n => ⟨fun _ => Nat.zero_le _, fun _ => .null n⟩
  | .bool b, n => ⟨fun _ => Nat.zero_le _, fun _ => .bool n b⟩
  | .num raw, n => ⟨fun _ => Nat.zero_le _, fun _ => .num n raw⟩
  | .str s e, n => ⟨fun _ => Nat.zero_le _, fun _ => .str n s e⟩
  | .arr l, 0 => ⟨(fun h => nomatch h), (fun h => by simp [JVal.depth] at h)⟩
  | .arr l, n + 1 => by
    have := nestedArr_iff l n
    simp only [JVal.depth, Nat.add_le_add_iff_right, ← this]
    exact ⟨fun h => by cases h; assumption, .arr⟩
  | .obj l, 0 => ⟨(fun h => nomatch h), (fun h => by simp [JVal.depth] at h)⟩
  | .obj l, n + 1 => by
    have := nestedObj_iff l n
    simp only [JVal.depth, Nat.add_le_add_iff_right, ← this]
    exact ⟨fun h => by cases h; assumption, .obj⟩
theorem nestedArr_iff : ∀ (l : JArr) (n : Nat), NestedArr n l ↔ l.depth ≤ n
  | .nil, n => ⟨fun _ => Nat.zero_le _, fun _ => .nil n⟩
  | .cons v l, n => by
    have h1 := nested_iff v n
    have h2 := nestedArr_iff l n
    simp only [JArr.depth, Nat.max_le, ← h1, ← h2]
    exact ⟨fun h => by cases h; constructor <;> assumption, fun h => .cons h.1 h.2⟩
theorem nestedObj_iff : ∀ (l : JObj) (n : Nat), NestedObj n l ↔ l.depth ≤ n
  | .nil, n => ⟨fun _ => Nat.zero_le _, fun _ => .nil n⟩
  | .cons k v l, n => by
    have h1 := nested_iff v n
    have h2 := nestedObj_iff l n
    simp only [JObj.depth, Nat.max_le, ← h1, ← h2]
    exact ⟨fun h => by cases h; constructor <;> assumption, fun h => .cons h.1 h.2⟩
end

/-- `json.Unmarshal` accepts exactly the JSON texts, with the value that the grammar gives. -/
theorem parseJson_iff {bs : Bytes} {v : JVal} : parseJson bs = some v ↔ JsonText v bs := by
  constructor
  · intro h
    unfold parseJson at h
    split at h
    · cases h
    rename_i v' rest hv
    split at h
    · rename_i hw
      cases h
      obtain ⟨w, t, h1, h2, h3⟩ := (json_sound _).1 _ _ _ hv
      exact ⟨⟨w, t, rest, h1, skipWs_nil.1 hw.1, h2, h3⟩, (nested_iff _ _).2 hw.2⟩
    · cases h
  · rintro ⟨⟨w, t, w', hw, hw', rfl, ht⟩, hd⟩
    have hd' : v.depth ≤ maxNesting := (nested_iff _ _).1 hd
    have hf := json_fuel ht
    have := json_complete ht (2 * (w ++ t ++ w').length + 2) w' (fun _ => blank_stop' hw') (by simp only [List.length_append]; omega)
    unfold parseJson
    rw [List.append_assoc] at this ⊢
    rw [parseVal_blank _ _ _ hw, this]
    simp only [skipWs_nil.2 hw', hd', and_self, if_true]

/-! ### Integers, hexadecimal and base64 -/

theorem hexDec_sound : ∀ (t s : Bytes), hexDec t = some s → HexText t s
  | [], s, h => by
    simp only [hexDec, Option.some.injEq] at h
    subst h
    exact .nil
  | [a], s, h => by simp [hexDec] at h
  | a :: b :: t, s, h => by
    rw [hexDec] at h
    split at h
    · rename_i x y r hx hy hr
      simp only [Option.some.injEq] at h
      subst h
      rw [Nat.mul_comm x 16]
      exact .cons (hexVal_iff.1 hx) (hexVal_iff.1 hy) (hexDec_sound t r hr)
    · cases h

theorem hexDec_iff {t s : Bytes} : hexDec t = some s ↔ HexText t s := by
  refine ⟨hexDec_sound t s, fun h => ?_⟩
  induction h with
  | nil => rfl
  | @cons a b x y t s ha hb _ ih =>
    simp only [hexDec, hexVal_iff.2 ha, hexVal_iff.2 hb, ih]
    rw [Nat.mul_comm x 16]

theorem b64Val_sound (c : UInt8) : ∀ n, b64Val c = some n → B64Digit c n := by
  suffices h : (b64Val c).all (fun n => decide
      ((text "ABCDEFGHIJKLMNOPQRSTUVWXYZabcdefghijklmnopqrstuvwxyz0123456789+/")[n]? = some c)) = true by
    intro n hn; rw [hn] at h; simpa [B64Digit] using h
  revert c
  apply u8_forall
  decide +kernel

theorem b64Val_of_digit {c : UInt8} {n : Nat} (h : B64Digit c n) : b64Val c = some n ∧ n < 64 ∧ c ≠ 61 := by
  have hl : n < 64 := (List.getElem?_eq_some_iff.1 h).1
  have key : ∀ n : Fin 64, (text "ABCDEFGHIJKLMNOPQRSTUVWXYZabcdefghijklmnopqrstuvwxyz0123456789+/")[n.val]?.bind b64Val =
      some n.val := by decide +kernel
  have := key ⟨n, hl⟩
  unfold B64Digit at h
  rw [h] at this
  refine ⟨this, hl, ?_⟩
  rintro rfl
  cases this

theorem b64Val_iff {c : UInt8} {n : Nat} : b64Val c = some n ↔ B64Digit c n :=
  ⟨b64Val_sound c n, fun h => (b64Val_of_digit h).1⟩

theorem text_eq1 : text "=" = [61] := by decide +kernel
theorem text_eq2 : text "==" = [61, 61] := by decide +kernel

theorem b64Quads_sound : ∀ (t s : Bytes), b64DecQuads t = some s → B64Groups t s
  | [], s, h => by
    simp only [b64DecQuads, Option.some.injEq] at h
    subst h
    exact .nil
  | [a], s, h => by simp [b64DecQuads] at h
  | [a, b], s, h => by simp [b64DecQuads] at h
  | [a, b, c], s, h => by simp [b64DecQuads] at h
  | p :: q :: r :: d :: t, s, h => by
    rw [b64DecQuads] at h
    split at h
    · rename_i x y hx hy
      have hx' := b64Val_iff.1 hx
      have hy' := b64Val_iff.1 hy
      have lx := (b64Val_of_digit hx').2.1
      have ly := (b64Val_of_digit hy').2.1
      split at h
      · rename_i hr
        split at h
        · rename_i hd
          simp only [Option.some.injEq] at h
          subst h
          obtain ⟨rfl, rfl⟩ := hd
          subst hr
          have := B64Groups.two (a := UInt8.ofNat (x * 4 + y / 16)) hx' hy' (by rw [u8_toNat (by omega)]; omega)
          rw [text_eq2] at this
          exact this
        · cases h
      · split at h
        · cases h
        rename_i z hz
        have hz' := b64Val_iff.1 hz
        have lz := (b64Val_of_digit hz').2.1
        split at h
        · rename_i hd
          split at h
          · rename_i ht
            simp only [Option.some.injEq] at h
            subst h ht hd
            have := B64Groups.three (a := UInt8.ofNat (x * 4 + y / 16)) (b := UInt8.ofNat (y % 16 * 16 + z / 4)) hx' hy' hz'
              (by rw [u8_toNat (by omega), u8_toNat (by omega)]; omega)
            rw [text_eq1] at this
            exact this
          · cases h
        · split at h
          · cases h
          rename_i w hw
          have hw' := b64Val_iff.1 hw
          have lw := (b64Val_of_digit hw').2.1
          cases ht : b64DecQuads t with
          | none => rw [ht] at h; cases h
          | some u =>
            rw [ht] at h
            simp only [Option.map_some, Option.some.injEq] at h
            subst h
            exact .four hx' hy' hz' hw' (by rw [u8_toNat (by omega), u8_toNat (by omega), u8_toNat (by omega)]; omega)
              (b64Quads_sound t u ht)
    · cases h

theorem b64Quads_iff {t s : Bytes} : b64DecQuads t = some s ↔ B64Groups t s := by
  refine ⟨b64Quads_sound t s, fun h => ?_⟩
  induction h with
  | nil => rfl
  | @four p q r s a b c x y z w t u hp hq hr hs h _ ih =>
    obtain ⟨p1, p2, -⟩ := b64Val_of_digit hp
    obtain ⟨q1, q2, -⟩ := b64Val_of_digit hq
    obtain ⟨r1, r2, r3⟩ := b64Val_of_digit hr
    obtain ⟨s1, s2, s3⟩ := b64Val_of_digit hs
    have := a.toNat_lt
    have := b.toNat_lt
    have := c.toNat_lt
    simp only [b64DecQuads, p1, q1, r1, s1, r3, s3, if_false, ih, Option.map_some]
    rw [u8_eq (a := a) (by omega), u8_eq (a := b) (by omega), u8_eq (a := c) (by omega)]
  | @three p q r a b x y z hp hq hr h =>
    obtain ⟨p1, p2, -⟩ := b64Val_of_digit hp
    obtain ⟨q1, q2, -⟩ := b64Val_of_digit hq
    obtain ⟨r1, r2, r3⟩ := b64Val_of_digit hr
    have := a.toNat_lt
    have := b.toNat_lt
    rw [text_eq1]
    simp only [List.cons_append, List.nil_append, b64DecQuads, p1, q1, r1, r3, if_false, if_true]
    rw [u8_eq (a := a) (by omega), u8_eq (a := b) (by omega)]
  | @two p q a x y hp hq h =>
    obtain ⟨p1, p2, -⟩ := b64Val_of_digit hp
    obtain ⟨q1, q2, -⟩ := b64Val_of_digit hq
    have := a.toNat_lt
    rw [text_eq2]
    simp only [List.cons_append, List.nil_append, b64DecQuads, p1, q1, if_true, and_self]
    rw [u8_eq (a := a) (by omega)]

theorem b64Dec_iff {t s : Bytes} : b64Dec t = some s ↔ B64Text t s := by
  have : (fun c : UInt8 => decide (c ≠ 10 ∧ c ≠ 13)) = fun c => !(text "\r\n").contains c := by
    funext c
    revert c
    apply u8_forall
    decide +kernel
  unfold b64Dec B64Text
  rw [b64Quads_iff, this]

theorem digits_iff : ∀ (s : Bytes) (n m : Nat), digits n s = some m ↔
    Digits s ∧ m = s.foldl (fun n c => 10 * n + (c.toNat - 48)) n
  | [], n, m => by simp [digits, Digits, eq_comm]
  | c :: s, n, m => by
    rw [digits]
    have hd : (48 ≤ c ∧ c ≤ 57) ↔ c ∈ text "0123456789" := by
      rw [← isDigit_iff]; simp [isDigit]
    by_cases hc : 48 ≤ c ∧ c ≤ 57
    · rw [if_pos hc, digits_iff s, List.foldl_cons, Nat.mul_comm 10 n]
      constructor
      · rintro ⟨h1, h2⟩
        refine ⟨?_, h2⟩
        intro x hx
        simp only [List.mem_cons] at hx
        rcases hx with rfl | hx
        · exact hd.1 hc
        · exact h1 x hx
      · rintro ⟨h1, h2⟩
        exact ⟨fun x hx => h1 x (by simp [hx]), h2⟩
    · rw [if_neg hc]
      constructor
      · intro h; cases h
      · rintro ⟨h1, -⟩
        exact absurd (hd.2 (h1 c (by simp))) hc

theorem int_digits {i : Bytes} (h : IntText i) : Digits i := by
  cases h with
  | zero =>
    rw [show text "0" = [48] by decide +kernel]
    intro x hx
    simp only [List.mem_cons, List.not_mem_nil, or_false] at hx
    subst hx
    decide +kernel
  | pos hc hs =>
    intro x hx
    simp only [List.mem_cons] at hx
    rcases hx with rfl | hx
    · exact isDigit_iff.1 (nonzero_iff.2 hc).1
    · exact hs x hx

/-- Only an integer part consists of digits. -/
theorem num_digits {i f e : Bytes} (hf : FracText f) (he : ExpText e) (h : Digits (i ++ f ++ e)) : f = [] ∧ e = [] := by
  refine ⟨?_, ?_⟩
  · cases hf with
    | none => rfl
    | some _ _ =>
      rw [text_dot] at h
      have := h 46 (by simp)
      exact absurd (isDigit_iff.2 this) (by decide)
  · cases he with
    | none => rfl
    | @some ee sign s he hsign hne hs =>
      exfalso
      rcases he with rfl | rfl
      · have := h 101 (by rw [show text "e" = [101] by decide +kernel]; simp)
        exact absurd (isDigit_iff.2 this) (by decide)
      · have := h 69 (by rw [show text "E" = [69] by decide +kernel]; simp)
        exact absurd (isDigit_iff.2 this) (by decide)

/-- Digits are read as the number they are. -/
theorem parseInt_digits {c : UInt8} {s : Bytes} (h : Digits (c :: s)) (n : Int) :
    parseInt (c :: s) = some n ↔ n = intValue (c :: s) ∧ n < 2 ^ 63 := by
  have hd : isDigit c = true := isDigit_iff.2 (h c (by simp))
  have h1 : ¬ c = 43 := by rintro rfl; exact absurd hd (by decide)
  have h2 : ¬ c = 45 := by rintro rfl; exact absurd hd (by decide)
  have hv : digits 0 (c :: s) = some (intValue (c :: s)) := (digits_iff _ _ _).2 ⟨h, rfl⟩
  simp only [parseInt, h1, h2, or_self, if_false, hv, if_neg (List.cons_ne_nil c s)]
  generalize intValue (c :: s) = m
  by_cases hm : m < 2 ^ 63
  · rw [if_pos hm]
    simp only [Option.some.injEq]
    constructor
    · rintro rfl; exact ⟨rfl, by omega⟩
    · rintro ⟨rfl, -⟩; rfl
  · rw [if_neg hm]
    constructor
    · intro h; cases h
    · rintro ⟨rfl, h⟩; exfalso; omega

theorem parseInt_minus {c : UInt8} {s : Bytes} (h : Digits (c :: s)) (n : Int) :
    parseInt (45 :: c :: s) = some n ↔ n = -(intValue (c :: s) : Int) ∧ -(2 ^ 63) ≤ n := by
  have hv : digits 0 (c :: s) = some (intValue (c :: s)) := (digits_iff _ _ _).2 ⟨h, rfl⟩
  simp only [parseInt, or_true, if_true, hv, if_neg (List.cons_ne_nil c s)]
  generalize intValue (c :: s) = m
  by_cases hm : m ≤ 2 ^ 63
  · rw [if_pos hm]
    simp only [Option.some.injEq]
    constructor
    · rintro rfl; exact ⟨rfl, by omega⟩
    · rintro ⟨rfl, -⟩; rfl
  · rw [if_neg hm]
    constructor
    · intro h; cases h
    · rintro ⟨rfl, h⟩; exfalso; omega

theorem parseInt_num {raw : Bytes} (h : NumText raw) (n : Int) : parseInt raw = some n ↔ Decimal raw n ∧ IsI64 n := by
  unfold IsI64
  constructor
  · intro hp
    cases h with
    | @mk m i f e hm hi hf he =>
    obtain ⟨c, i', rfl, hd⟩ := int_head hi
    have key : ∀ b : Bytes, parseInt b = some n → (∃ s, b = c :: s ∧ Digits (c :: s)) ∨ (∃ s, b = 45 :: c :: s ∧ Digits (c :: s)) ∨
        ¬ (∃ s, b = c :: s ∨ b = 45 :: c :: s) := by
      intro b hb
      by_cases hex : ∃ s, b = c :: s ∨ b = 45 :: c :: s
      · obtain ⟨s, rfl | rfl⟩ := hex
        · left
          refine ⟨s, rfl, ?_⟩
          have h1 : ¬ c = 43 := by rintro rfl; exact absurd hd (by decide)
          have h2 : ¬ c = 45 := by rintro rfl; exact absurd hd (by decide)
          simp only [parseInt, h1, h2, or_self, if_false, if_neg (List.cons_ne_nil c s)] at hb
          cases hdg : digits 0 (c :: s) with
          | none => rw [hdg] at hb; cases hb
          | some k => exact ((digits_iff _ _ _).1 hdg).1
        · right; left
          refine ⟨s, rfl, ?_⟩
          simp only [parseInt, or_true, if_true, if_neg (List.cons_ne_nil c s)] at hb
          cases hdg : digits 0 (c :: s) with
          | none => rw [hdg] at hb; cases hb
          | some k => exact ((digits_iff _ _ _).1 hdg).1
      · exact Or.inr (Or.inr hex)
    rcases hm with rfl | rfl
    · simp only [List.nil_append] at hp ⊢
      have hD : Digits (c :: i' ++ f ++ e) := by
        rcases key _ hp with ⟨s, hs, hD⟩ | ⟨s, hs, hD⟩ | hno
        · rw [hs]; exact hD
        · simp only [List.cons_append, List.cons.injEq] at hs
          obtain ⟨rfl, -⟩ := hs
          exact absurd hd (by decide)
        · exact absurd ⟨_, Or.inl rfl⟩ hno
      obtain ⟨rfl, rfl⟩ := num_digits hf he hD
      simp only [List.append_nil] at hp hD ⊢
      obtain ⟨h1, h2⟩ := (parseInt_digits hD n).1 hp
      exact ⟨Or.inl ⟨hi, h1⟩, by omega, h2⟩
    · rw [← text_minus] at hp
      simp only [List.cons_append, List.nil_append, ← text_minus] at hp ⊢
      have hD : Digits (c :: i' ++ f ++ e) := by
        rcases key _ hp with ⟨s, hs, hD⟩ | ⟨s, hs, hD⟩ | hno
        · simp only [List.cons.injEq] at hs
          obtain ⟨rfl, -⟩ := hs
          exact absurd hd (by decide)
        · simp only [List.cons.injEq] at hs
          obtain ⟨-, -, rfl⟩ := hs
          exact hD
        · exact absurd ⟨_, Or.inr rfl⟩ hno
      obtain ⟨rfl, rfl⟩ := num_digits hf he hD
      simp only [List.append_nil] at hp hD ⊢
      obtain ⟨h1, h2⟩ := (parseInt_minus hD n).1 hp
      exact ⟨Or.inr ⟨_, hi, by rw [← text_minus]; rfl, h1⟩, h2, by omega⟩
  · rintro ⟨hD, h1, h2⟩
    rcases hD with ⟨hi, rfl⟩ | ⟨d, hi, rfl, rfl⟩
    · obtain ⟨c, s, rfl, -⟩ := int_head hi
      exact (parseInt_digits (int_digits hi) _).2 ⟨rfl, h2⟩
    · obtain ⟨c, s, rfl, -⟩ := int_head hi
      rw [← text_minus]
      exact (parseInt_minus (int_digits hi) _).2 ⟨rfl, h1⟩

theorem decimal_num {raw : Bytes} {n : Int} (h : Decimal raw n) : NumText raw := by
  rcases h with ⟨hi, -⟩ | ⟨d, hi, rfl, -⟩
  · have := NumText.mk (m := []) (Or.inl rfl) hi .none .none
    simpa using this
  · have := NumText.mk (Or.inr rfl) hi .none .none
    simpa using this

theorem setInt_iff {lo hi old n : Int} {v : JVal} {t : Bytes} (hv : Json v t) (hlo : -(2 ^ 63) ≤ lo) (hhi : hi < 2 ^ 63) :
    setInt lo hi old v = some n ↔ (v = .null ∧ n = old) ∨ ∃ raw, v = .num raw ∧ Decimal raw n ∧ lo ≤ n ∧ n ≤ hi := by
  cases hv with
  | num h =>
    have hp := parseInt_num h
    unfold IsI64 at hp
    rw [setInt]
    constructor
    · intro hs
      split at hs
      · rename_i k hk
        split at hs
        · rename_i hr
          cases hs
          exact Or.inr ⟨_, rfl, ((hp n).1 hk).1, hr⟩
        · cases hs
      · cases hs
    · rintro (⟨h0, -⟩ | ⟨raw', h0, h1, h2⟩)
      · cases h0
      · cases h0
        rw [(hp n).2 ⟨h1, by omega, by omega⟩]
        simp only [h2, and_self, if_true]
  | null =>
    simp only [setInt, Option.some.injEq]
    constructor
    · rintro rfl; exact Or.inl ⟨trivial, rfl⟩
    · rintro (⟨-, rfl⟩ | ⟨raw, h, -⟩)
      · rfl
      · cases h
  | true => simp [setInt]
  | false => simp [setInt]
  | str h => simp [setInt]
  | noElems h => simp [setInt]
  | arr h => simp [setInt]
  | noMembers h => simp [setInt]
  | obj h => simp [setInt]

end Horcrux
