import Verif.Model.Json
/-
Reading JSON back: what `json.Marshal` writes, `json.Unmarshal` reads, up to invalid UTF-8 in strings.
-/
namespace Horcrux

/-! ### UTF-8 -/

theorem runeLen_le {bs : Bytes} {n : Nat} (h : runeLen bs = n) : n ≤ bs.length := by
  unfold runeLen at h
  split at h
  · split at h
    · split at h <;> (simp only [List.length_cons]; omega)
    · split at h
      · omega
      · split at h
        · split at h <;> (simp only [List.length_cons]; omega)
        · split at h
          · omega
          · split at h
            · split at h <;> (simp only [List.length_cons]; omega)
            · omega
  · omega

theorem runeLen_append {bs : Bytes} {n : Nat} (h : runeLen bs = n + 1) (t : Bytes) :
    runeLen (bs.take (n + 1) ++ t) = n + 1 := by
  match bs with
  | [] => simp [runeLen] at h
  | [a] => simp [runeLen] at h
  | [a, b] =>
    simp only [runeLen] at h
    split at h
    · rename_i h1
      split at h
      · rename_i h2
        cases h
        simp [runeLen, h1, h2]
      · cases h
    · cases h
  | [a, b, c] =>
    simp only [runeLen] at h
    split at h
    · rename_i h1
      split at h
      · rename_i h2
        cases h
        simp [runeLen, h1, h2]
      · cases h
    · rename_i h1
      split at h
      · rename_i h2
        split at h
        · rename_i h3
          cases h
          simp only [List.take, List.cons_append, List.nil_append, runeLen, h1, h2, h3, if_true]
          rfl
        · cases h
      · cases h
  | a :: b :: c :: d :: r =>
    simp only [runeLen] at h
    split at h
    · rename_i h1
      split at h
      · rename_i h2
        cases h
        simp [runeLen, h1, h2]
      · cases h
    · rename_i h1
      split at h
      · rename_i h2
        split at h
        · rename_i h3
          cases h
          simp only [List.take, List.cons_append, List.nil_append, runeLen, h1, h2, h3, if_true]
          rfl
        · cases h
      · rename_i h2
        split at h
        · rename_i h3
          split at h
          · rename_i h4
            cases h
            simp only [List.take, List.cons_append, List.nil_append, runeLen, h1, h2, h3, h4, if_true]
            rfl
          · cases h
        · cases h

/-- Strings that are valid UTF-8 survive. -/
def ValidUtf8 (s : Bytes) : Prop := sanitize s = s

theorem sanitizeAux_fuel : ∀ (f : Nat) (s : Bytes), s.length ≤ f → sanitizeAux f s = sanitizeAux s.length s := by
  intro f
  induction f using Nat.strongRecOn with
  | _ f ih =>
    intro s h
    match f, s with
    | 0, [] => rfl
    | 0, _ :: _ => simp at h
    | f + 1, [] => rfl
    | f + 1, c :: s =>
      have hs : s.length ≤ f := by simpa using h
      have hf := ih f (by omega)
      simp only [sanitizeAux, List.length_cons]
      rw [hf s hs]
      split
      · rfl
      · split
        · rfl
        · rename_i n hn
          have hd : (s.drop n).length ≤ s.length := by simp
          rw [hf _ (by omega)]
          by_cases hlt : s.length < f + 1
          · rw [ih s.length hlt _ hd]
          · omega

theorem sanitize_cons_ascii {c : UInt8} {s : Bytes} (h : c < 0x80) : sanitize (c :: s) = c :: sanitize s := by
  simp only [sanitize, List.length_cons, sanitizeAux, h, if_true]

/-- ASCII strings are valid. -/
theorem validUtf8_ascii : ∀ (s : Bytes), (∀ c ∈ s, c < 0x80) → ValidUtf8 s
  | [], _ => rfl
  | c :: s, h => by
    unfold ValidUtf8
    rw [sanitize_cons_ascii (h c (by simp)), show sanitize s = s from
      validUtf8_ascii s fun x hx => h x (by simp [hx])]

theorem sanitize_append_rune {c : UInt8} {s t : Bytes} {n : Nat} (hc : ¬ c < 0x80) (h : runeLen (c :: s) = n + 1) :
    sanitize ((c :: s).take (n + 1) ++ t) = (c :: s).take (n + 1) ++ sanitize t := by
  have hr := runeLen_append h t
  have hle := runeLen_le h
  simp only [List.take_succ_cons, List.cons_append, List.length_cons] at hr hle ⊢
  simp only [sanitize, List.length_cons, sanitizeAux, hc, if_false, hr]
  have hl : (s.take n).length = n := by simp; omega
  have h1 : (c :: (s.take n ++ t)).take (n + 1) = c :: s.take n := by
    rw [List.take_succ_cons, List.take_append_of_le_length (by omega), List.take_of_length_le (by omega)]
  have h2 : (s.take n ++ t).drop n = t := by rw [List.drop_append_of_le_length (by omega),
    List.drop_of_length_le (by omega), List.nil_append]
  rw [h1, h2, sanitizeAux_fuel _ t (by simp)]
  rfl

theorem runeLen_replacement (t : Bytes) : runeLen (replacement ++ t) = 3 := rfl

theorem sanitize_append_replacement (t : Bytes) : sanitize (replacement ++ t) = replacement ++ sanitize t := by
  have h := sanitize_append_rune (c := 0xef) (s := [0xbf, 0xbd]) (t := t) (n := 2) (by decide) rfl
  exact h

/-- What comes out of JSON is valid. -/
theorem sanitizeAux_valid : ∀ (f : Nat) (s : Bytes), ValidUtf8 (sanitizeAux f s)
  | 0, _ => rfl
  | _ + 1, [] => rfl
  | f + 1, c :: s => by
    unfold ValidUtf8 sanitizeAux
    split
    · rename_i hc
      rw [sanitize_cons_ascii hc, show sanitize _ = _ from sanitizeAux_valid f s]
    · rename_i hc
      split
      · rw [sanitize_append_replacement, show sanitize _ = _ from sanitizeAux_valid f s]
      · rename_i n hn
        rw [sanitize_append_rune hc hn, show sanitize _ = _ from sanitizeAux_valid f (s.drop n)]

theorem sanitize_valid (s : Bytes) : ValidUtf8 (sanitize s) := sanitizeAux_valid _ s

/-! ### Strings -/

theorem hexVal_hexDigit : ∀ n : Fin 16, hexVal (hexDigit n) = some n.val := by decide

theorem hexVal_hexDigit' {n : Nat} (h : n < 16) : hexVal (hexDigit n) = some n := hexVal_hexDigit ⟨n, h⟩

theorem parse_esc {c : UInt8} (hc : c < 0x80) (g : Nat) (t : Bytes) :
    parseStrAux (g + 1) (escAscii c ++ t) = consStr [c] (parseStrAux g t) := by
  unfold escAscii
  split
  · next h => subst h; rfl
  split
  · next h => subst h; rfl
  split
  · next h => subst h; rfl
  split
  · next h => subst h; rfl
  split
  · next h => subst h; rfl
  rename_i h34 h92 _ _ _
  have hlt : c.toNat < 128 := hc
  split
  · have h1 := hexVal_hexDigit' (n := c.toNat / 16) (by omega)
    have h2 := hexVal_hexDigit' (n := c.toNat % 16) (by omega)
    have h0 : hexVal 48 = some 0 := rfl
    have hx : hex4 (48 :: 48 :: hexDigit (c.toNat / 16) :: hexDigit (c.toNat % 16) :: t) = some (c.toNat, t) := by
      simp only [hex4, h0, h1, h2]
      congr 2
      omega
    have hu : uEscape c.toNat t = ([c], t) := by
      unfold uEscape
      rw [if_neg (by omega)]
      simp [encodeRune, hlt]
    simp only [escHex, List.cons_append, List.nil_append, parseStrAux]
    rw [if_neg (by decide), if_pos trivial, if_pos trivial, hx]
    simp only [hu]
  · next h =>
    simp only [List.cons_append, List.nil_append, parseStrAux]
    rw [if_neg h34, if_neg h92, if_neg (fun h' => h (Or.inl h')), if_pos hc]

theorem parse_fffd (g : Nat) (t : Bytes) :
    parseStrAux (g + 1) ([92, 117, 102, 102, 102, 100] ++ t) = consStr replacement (parseStrAux g t) := rfl

theorem parse_2028 (g : Nat) (t : Bytes) :
    parseStrAux (g + 1) ([92, 117, 50, 48, 50, 56] ++ t) = consStr [0xe2, 0x80, 0xa8] (parseStrAux g t) := rfl

theorem parse_2029 (g : Nat) (t : Bytes) :
    parseStrAux (g + 1) ([92, 117, 50, 48, 50, 57] ++ t) = consStr [0xe2, 0x80, 0xa9] (parseStrAux g t) := rfl

theorem parse_rune {c : UInt8} {s : Bytes} {n : Nat} (hc : ¬ c < 0x80) (h : runeLen (c :: s) = n + 1) (g : Nat)
    (t : Bytes) :
    parseStrAux (g + 1) ((c :: s).take (n + 1) ++ t) = consStr ((c :: s).take (n + 1)) (parseStrAux g t) := by
  have hr := runeLen_append h t
  have hle := runeLen_le h
  have hc' : ¬ c.toNat < 128 := hc
  simp only [List.take_succ_cons, List.cons_append, List.length_cons] at hr hle ⊢
  have hl : (s.take n).length = n := by simp; omega
  have h1 : (c :: (s.take n ++ t)).take (n + 1) = c :: s.take n := by
    rw [List.take_succ_cons, List.take_append_of_le_length (by omega), List.take_of_length_le (by omega)]
  have h2 : (s.take n ++ t).drop n = t := by rw [List.drop_append_of_le_length (by omega),
    List.drop_of_length_le (by omega), List.nil_append]
  have n34 : ¬ c = 34 := by rintro rfl; exact hc' (by decide)
  have n92 : ¬ c = 92 := by rintro rfl; exact hc' (by decide)
  have n32 : ¬ c < 32 := fun h => hc' (Nat.lt_trans (show c.toNat < 32 from h) (by decide))
  simp only [parseStrAux, n34, n92, n32, hc, if_false, hr, h1, h2]

theorem consStr_some (a s r : Bytes) : consStr a (some (s, r)) = some (a ++ s, r) := rfl

theorem encodeStrAux_ne (f : Nat) (c : UInt8) (s : Bytes) : encodeStrAux (f + 1) (c :: s) ≠ [] := by
  unfold encodeStrAux
  split
  · unfold escAscii escHex
    intro h
    have := (List.append_eq_nil_iff.1 h).1
    repeat' split at this
    all_goals cases this
  · split
    · intro h; cases h
    · intro h
      have := (List.append_eq_nil_iff.1 h).1
      split at this
      · cases this
      · split at this
        · cases this
        · simp at this

/-- A written string reads back as its sanitised form. -/
theorem parseStrAux_print : ∀ (f : Nat) (s : Bytes) (g : Nat) (rest : Bytes), s.length ≤ f →
    (encodeStrAux f s).length + 1 ≤ g →
    parseStrAux g (encodeStrAux f s ++ 34 :: rest) = some (sanitizeAux f s, rest)
  | f, [], g, rest, _, hg => by
    cases g with
    | zero => omega
    | succ g => cases f <;> rfl
  | 0, _ :: _, _, _, h, _ => by simp at h
  | f + 1, c :: s, g, rest, h, hg => by
    have hs : s.length ≤ f := by simpa using h
    cases g with
    | zero => omega
    | succ g =>
      have hne := encodeStrAux_ne f c s
      by_cases hc : c < 0x80
      · have he : encodeStrAux (f + 1) (c :: s) = escAscii c ++ encodeStrAux f s := by simp [encodeStrAux, hc]
        have hz : sanitizeAux (f + 1) (c :: s) = c :: sanitizeAux f s := by simp [sanitizeAux, hc]
        have hl : 0 < (escAscii c).length := by
          unfold escAscii escHex
          repeat' split
          all_goals simp
        rw [he, hz, List.append_assoc, parse_esc hc, parseStrAux_print f s g rest hs (by
          rw [he, List.length_append] at hg; omega)]
        rfl
      · cases hn : runeLen (c :: s) with
        | zero =>
          have he : encodeStrAux (f + 1) (c :: s) = [92, 117, 102, 102, 102, 100] ++ encodeStrAux f s := by
            simp [encodeStrAux, hc, hn]
          have hz : sanitizeAux (f + 1) (c :: s) = replacement ++ sanitizeAux f s := by
            simp [sanitizeAux, hc, hn]
          rw [he, hz, List.append_assoc, parse_fffd, parseStrAux_print f s g rest hs (by
            rw [he, List.length_append] at hg; simp at hg; omega)]
          rfl
        | succ n =>
          have hz : sanitizeAux (f + 1) (c :: s) = (c :: s).take (n + 1) ++ sanitizeAux f (s.drop n) := by
            simp [sanitizeAux, hc, hn]
          have hd : (s.drop n).length ≤ f := by simp; omega
          by_cases h8 : (c :: s).take (n + 1) = [0xe2, 0x80, 0xa8]
          · have he : encodeStrAux (f + 1) (c :: s) = [92, 117, 50, 48, 50, 56] ++ encodeStrAux f (s.drop n) := by
              simp only [encodeStrAux, hc, hn, h8, if_true, if_false]
            rw [he, hz, List.append_assoc, parse_2028, parseStrAux_print f _ g rest hd (by
              rw [he, List.length_append] at hg; simp at hg; omega), h8]
            rfl
          · by_cases h9 : (c :: s).take (n + 1) = [0xe2, 0x80, 0xa9]
            · have he : encodeStrAux (f + 1) (c :: s) = [92, 117, 50, 48, 50, 57] ++ encodeStrAux f (s.drop n) := by
                simp only [encodeStrAux, hc, hn, h9, if_true, if_false]
                rfl
              rw [he, hz, List.append_assoc, parse_2029, parseStrAux_print f _ g rest hd (by
                rw [he, List.length_append] at hg; simp at hg; omega), h9]
              rfl
            · have he : encodeStrAux (f + 1) (c :: s) = (c :: s).take (n + 1) ++ encodeStrAux f (s.drop n) := by
                simp only [encodeStrAux, hc, hn, h8, h9, if_false]
              rw [he, hz, List.append_assoc, parse_rune hc hn, parseStrAux_print f _ g rest hd (by
                rw [he, List.length_append, List.take_succ_cons, List.length_cons] at hg; omega)]
              rfl

theorem parseStr_print (s rest : Bytes) :
    parseStr (encodeStrAux s.length s ++ 34 :: rest) = some (sanitize s, rest) :=
  parseStrAux_print _ s _ rest (Nat.le_refl _) (by simp)

/-! ### Numbers -/

theorem isDigit_ofNat {k : Nat} (h : k < 10) : isDigit (UInt8.ofNat (48 + k)) = true := by
  have : ∀ k : Fin 10, isDigit (UInt8.ofNat (48 + k.val)) = true := by decide
  exact this ⟨k, h⟩

/-- The digits of `n`: all digits, the value comes back, and the first is `0` only for `0`. -/
theorem decAux_spec : ∀ (f n : Nat) (acc : Bytes), n < f → ∃ ds, decAux f n acc = ds ++ acc ∧ ds ≠ [] ∧
    (∀ c ∈ ds, isDigit c = true) ∧ (∀ a t, ∃ k, digits a (ds ++ t) = digits (a * k + n) t) ∧
    (ds.head? = some 48 → ds = [48])
  | 0, _, _, h => absurd h (by omega)
  | f + 1, n, acc, h => by
    by_cases hn : n < 10
    · refine ⟨[UInt8.ofNat (48 + n)], by simp [decAux, hn], by simp, ?_, ?_, ?_⟩
      · intro c hc
        rw [List.mem_singleton] at hc
        rw [hc]; exact isDigit_ofNat hn
      · intro a t
        refine ⟨10, ?_⟩
        have h48 : (48 : UInt8) ≤ UInt8.ofNat (48 + n) ∧ UInt8.ofNat (48 + n) ≤ 57 := by
          have := isDigit_ofNat hn
          simpa [isDigit] using this
        have hv : (UInt8.ofNat (48 + n)).toNat - 48 = n := by
          have : (UInt8.ofNat (48 + n)).toNat = 48 + n := by simp; omega
          omega
        simp only [List.cons_append, List.nil_append, digits, h48, and_self, if_true, hv]
      · intro hh
        simp only [List.head?_cons, Option.some.injEq] at hh
        rw [hh]
    · obtain ⟨ds, h1, h2, h3, h4, h5⟩ := decAux_spec f (n / 10) (UInt8.ofNat (48 + n % 10) :: acc) (by omega)
      have hk : n % 10 < 10 := by omega
      refine ⟨ds ++ [UInt8.ofNat (48 + n % 10)], by rw [decAux, if_neg hn, h1, List.append_assoc]; rfl, by simp, ?_, ?_, ?_⟩
      · intro c hc
        rcases List.mem_append.1 hc with hc | hc
        · exact h3 c hc
        · rw [List.mem_singleton] at hc
          rw [hc]; exact isDigit_ofNat hk
      · intro a t
        obtain ⟨k, hk'⟩ := h4 a (UInt8.ofNat (48 + n % 10) :: t)
        refine ⟨k * 10, ?_⟩
        have h48 : (48 : UInt8) ≤ UInt8.ofNat (48 + n % 10) ∧ UInt8.ofNat (48 + n % 10) ≤ 57 := by
          have := isDigit_ofNat hk
          simpa [isDigit] using this
        have hv : (UInt8.ofNat (48 + n % 10)).toNat - 48 = n % 10 := by
          have : (UInt8.ofNat (48 + n % 10)).toNat = 48 + n % 10 := by simp; omega
          omega
        rw [List.append_assoc, List.cons_append, List.nil_append, hk']
        simp only [digits, h48, and_self, if_true, hv]
        congr 1
        rw [Nat.add_mul, Nat.mul_assoc]
        omega
      · intro hh
        cases ds with
        | nil => exact absurd rfl h2
        | cons d ds' =>
          simp only [List.cons_append, List.head?_cons, Option.some.injEq] at hh
          have := h5 (by simp [hh])
          simp only [List.cons.injEq] at this
          obtain ⟨rfl, rfl⟩ := this
          -- the value of [48] is 0, but n / 10 > 0
          obtain ⟨k, hk'⟩ := h4 0 []
          simp [digits] at hk'
          omega

theorem decNat_spec (n : Nat) : decNat n ≠ [] ∧ (∀ c ∈ decNat n, isDigit c = true) ∧
    digits 0 (decNat n) = some n ∧ ((decNat n).head? = some 48 → decNat n = [48]) := by
  obtain ⟨ds, h1, h2, h3, h4, h5⟩ := decAux_spec (n + 1) n [] (by omega)
  rw [List.append_nil] at h1
  obtain ⟨k, hk⟩ := h4 0 []
  rw [List.append_nil] at hk
  unfold decNat
  rw [h1]
  refine ⟨h2, h3, ?_, h5⟩
  rw [hk]; simp [digits]

theorem decInt_parseInt {x : Int} (h : IsI64 x) : parseInt (decInt x) = some x := by
  obtain ⟨h1, h2, h3, _⟩ := decNat_spec x.natAbs
  obtain ⟨hl, hu⟩ := h
  unfold decInt
  split
  · rename_i hx
    simp only [parseInt, or_true, if_true]
    rw [if_neg h1, h3]
    simp only
    rw [if_pos (by omega)]
    congr 1; omega
  · rename_i hx
    revert h1 h2 h3
    generalize decNat x.natAbs = ds
    intro h1 h2 h3
    cases ds with
    | nil => exact absurd rfl h1
    | cons c s =>
      have hd : isDigit c = true := h2 c (by simp)
      have hc : ¬ (c = 43 ∨ c = 45) := by
        rintro (rfl | rfl) <;> exact absurd hd (by decide)
      have hn : ¬ c = 45 := fun h => hc (Or.inr h)
      have hn' : ¬ c = 43 := fun h => hc (Or.inl h)
      simp only [parseInt, hn', hn, or_self, if_false, h3]
      rw [if_neg (by simp), if_pos (by omega)]
      congr 1; omega

/-- What may follow a number. -/
def Term : Bytes → Prop
  | [] => True
  | c :: _ => c = 44 ∨ c = 93 ∨ c = 125 ∨ c = 10

theorem spanDigits_append {ds rest : Bytes} (h : ∀ c ∈ ds, isDigit c = true) (hr : Term rest) :
    spanDigits (ds ++ rest) = (ds, rest) := by
  induction ds with
  | nil =>
    cases rest with
    | nil => rfl
    | cons c s =>
      have : isDigit c = false := by
        rcases hr with rfl | rfl | rfl | rfl <;> rfl
      simp [spanDigits, this]
  | cons d ds ih =>
    simp only [List.cons_append, spanDigits, h d (by simp), if_true, ih fun c hc => h c (by simp [hc])]

theorem frac_term {rest : Bytes} (hr : Term rest) : fracPart rest = some ([], rest) := by
  cases rest with
  | nil => rfl
  | cons c s => rcases hr with rfl | rfl | rfl | rfl <;> rfl

theorem exp_term {rest : Bytes} (hr : Term rest) : expPart rest = some ([], rest) := by
  cases rest with
  | nil => rfl
  | cons c s => rcases hr with rfl | rfl | rfl | rfl <;> rfl

/-- A raw number that the scanner takes as it is. -/
structure NumOk (raw : Bytes) : Prop where
  parse : ∀ rest, Term rest → parseNum (raw ++ rest) = some (raw, rest)
  head : ∃ c s, raw = c :: s ∧ (c = 45 ∨ isDigit c = true)

theorem decInt_numOk (x : Int) : NumOk (decInt x) := by
  obtain ⟨h1, h2, _, h4⟩ := decNat_spec x.natAbs
  have key : ∀ rest, Term rest → intPart (decNat x.natAbs ++ rest) = some (decNat x.natAbs, rest) := by
    intro rest hr
    revert h1 h2 h4
    generalize decNat x.natAbs = ds
    intro h1 h2 h4
    cases ds with
    | nil => exact absurd rfl h1
    | cons c s =>
      by_cases hc : c = 48
      · have := h4 (by simp [hc])
        simp only [List.cons.injEq] at this
        obtain ⟨rfl, rfl⟩ := this
        rfl
      · have := spanDigits_append h2 hr
        simp only [List.cons_append] at this ⊢
        simp only [intPart, hc, if_false, h2 c (by simp), if_true, this]
  have hminus : ∀ s : Bytes, minusPart (45 :: s) = ([45], s) := fun _ => rfl
  unfold decInt
  split
  · refine ⟨fun rest hr => ?_, ⟨45, _, rfl, Or.inl rfl⟩⟩
    simp only [parseNum, List.cons_append, hminus, key rest hr, frac_term hr, exp_term hr, List.append_nil,
      List.nil_append]
  · obtain ⟨c, s, hcs⟩ := List.exists_cons_of_ne_nil h1
    have hd : isDigit c = true := h2 c (by simp [hcs])
    refine ⟨fun rest hr => ?_, ⟨c, s, hcs, Or.inr hd⟩⟩
    have hm : minusPart (decNat x.natAbs ++ rest) = ([], decNat x.natAbs ++ rest) := by
      rw [hcs]
      have hne : c ≠ 45 := by rintro rfl; exact absurd hd (by decide)
      unfold minusPart
      split
      · rename_i h; simp only [List.cons_append, List.cons.injEq] at h; exact absurd h.1 hne
      · rfl
    simp only [parseNum, hm, key rest hr, frac_term hr, exp_term hr, List.append_nil, List.nil_append]

/-! ### Values -/

mutual
/-- Every number is one the scanner takes as it is. -/
def JVal.numsOk : JVal → Prop
  | .num raw => NumOk raw
  | .arr l => l.numsOk
  | .obj l => l.numsOk
  | _ => True
def JArr.numsOk : JArr → Prop
  | .nil => True
  | .cons v l => v.numsOk ∧ l.numsOk
def JObj.numsOk : JObj → Prop
  | .nil => True
  | .cons _ v l => v.numsOk ∧ l.numsOk
end

theorem u8_forall {P : UInt8 → Prop} (h : ∀ n : Fin 256, P (UInt8.ofNat n.val)) (c : UInt8) : P c := by
  have := h ⟨c.toNat, c.toNat_lt⟩
  simpa using this

/-- The text of a string up to and with the closing quote has a backslash when the text between the quotes has one. -/
theorem take_str (a rest : Bytes) :
    ((a ++ 34 :: rest).take ((a ++ 34 :: rest).length - rest.length)).contains 92 = a.contains 92 := by
  have : (a ++ 34 :: rest).length - rest.length = (a ++ [34]).length := by
    simp only [List.length_append, List.length_cons, List.length_nil]; omega
  rw [this, show a ++ 34 :: rest = (a ++ [34]) ++ rest by simp, List.take_left]
  simp only [List.contains_eq_mem, List.mem_append, List.mem_singleton]
  congr 1
  simp

/-- Whether an escape sequence is used to write `s`. -/
def escaped (s : Bytes) : Bool := (encodeStrAux s.length s).contains 92

theorem encodeStrAux_plain : ∀ (f : Nat) (s : Bytes), (∀ c ∈ s, c < 0x80 ∧ escAscii c = [c]) → s.length ≤ f →
    encodeStrAux f s = s
  | f, [], _, _ => by cases f <;> rfl
  | 0, _ :: _, _, h => by simp at h
  | f + 1, c :: s, h, hl => by
    have hc := h c (by simp)
    have := encodeStrAux_plain f s (fun d hd => h d (by simp [hd])) (by simpa using hl)
    simp only [encodeStrAux, hc.1, if_true, hc.2, this, List.cons_append, List.nil_append]

theorem escaped_plain {s : Bytes} (h : ∀ c ∈ s, c < 0x80 ∧ escAscii c = [c]) : escaped s = false := by
  unfold escaped
  rw [encodeStrAux_plain _ _ h (Nat.le_refl _), Bool.eq_false_iff]
  intro hc
  have := (h 92 (by simpa using hc)).2
  exact absurd this (by decide)

mutual
/-- The value with all strings sanitised. -/
def JVal.clean : JVal → JVal
  | .str s _ => .str (sanitize s) (escaped s)
  | .arr l => .arr l.clean
  | .obj l => .obj l.clean
  | v => v
def JArr.clean : JArr → JArr
  | .nil => .nil
  | .cons v l => .cons v.clean l.clean
def JObj.clean : JObj → JObj
  | .nil => .nil
  | .cons k v l => .cons (sanitize k) v.clean l.clean
end

mutual
/-- The fuel a value needs. -/
def JVal.fuel : JVal → Nat
  | .arr l => l.fuel + 1
  | .obj l => l.fuel + 1
  | _ => 1
def JArr.fuel : JArr → Nat
  | .nil => 0
  | .cons v l => max v.fuel l.fuel + 1
def JObj.fuel : JObj → Nat
  | .nil => 0
  | .cons _ v l => max v.fuel l.fuel + 1
end

theorem printStr_append (s rest : Bytes) : printStr s ++ rest = 34 :: (encodeStrAux s.length s ++ 34 :: rest) := by
  simp [printStr]

theorem skipWs_of {c : UInt8} {s : Bytes} (h : ¬ (c = 32 ∨ c = 9 ∨ c = 10 ∨ c = 13)) : skipWs (c :: s) = c :: s := by
  simp only [skipWs, h, if_false]

/-- The first byte of a printed value. -/
def StartByte (c : UInt8) : Prop :=
  c = 123 ∨ c = 91 ∨ c = 34 ∨ c = 110 ∨ c = 116 ∨ c = 102 ∨ c = 45 ∨ isDigit c = true

theorem JVal.print_start (v : JVal) (h : v.numsOk) : ∃ c s, v.print = c :: s ∧ StartByte c := by
  cases v with
  | null => exact ⟨_, _, rfl, by unfold StartByte; simp⟩
  | bool b => cases b <;> exact ⟨_, _, rfl, by unfold StartByte; simp⟩
  | num raw =>
    simp only [JVal.numsOk] at h
    obtain ⟨c, s, h1, h2⟩ := h.head
    refine ⟨c, s, by simp [JVal.print, h1], ?_⟩
    unfold StartByte
    rcases h2 with h2 | h2 <;> simp [h2]
  | str s _ => exact ⟨34, _, by rw [JVal.print, printStr], by unfold StartByte; simp⟩
  | arr l => exact ⟨91, _, by rw [JVal.print], by unfold StartByte; simp⟩
  | obj l => exact ⟨123, _, by rw [JVal.print], by unfold StartByte; simp⟩

theorem StartByte.digit_facts {c : UInt8} (h : c = 45 ∨ isDigit c = true) :
    ¬ (c = 32 ∨ c = 9 ∨ c = 10 ∨ c = 13) ∧ c ≠ 123 ∧ c ≠ 91 ∧ c ≠ 34 ∧ c ≠ 110 ∧ c ≠ 116 ∧ c ≠ 102 := by
  rcases h with rfl | h
  · decide
  · have : ∀ k : UInt8, isDigit k = true → ¬ (k = 32 ∨ k = 9 ∨ k = 10 ∨ k = 13) ∧ k ≠ 123 ∧ k ≠ 91 ∧ k ≠ 34 ∧
        k ≠ 110 ∧ k ≠ 116 ∧ k ≠ 102 := by
      intro k hk
      simp only [isDigit, Bool.and_eq_true, decide_eq_true_eq] at hk
      have h1 : 48 ≤ k.toNat := hk.1
      have h2 : k.toNat ≤ 57 := hk.2
      refine ⟨?_, ?_, ?_, ?_, ?_, ?_, ?_⟩
      · rintro (rfl | rfl | rfl | rfl) <;> exact absurd h1 (by decide)
      all_goals (rintro rfl; first | exact absurd h2 (by decide) | exact absurd h1 (by decide))
    exact this c h

theorem StartByte.not_ws {c : UInt8} (h : StartByte c) : ¬ (c = 32 ∨ c = 9 ∨ c = 10 ∨ c = 13) ∧ c ≠ 93 := by
  rcases h with rfl | rfl | rfl | rfl | rfl | rfl | h
  · decide
  · decide
  · decide
  · decide
  · decide
  · decide
  · refine ⟨(digit_facts h).1, ?_⟩
    rcases h with rfl | h
    · decide
    · rintro rfl; exact absurd h (by decide)

mutual
theorem JVal.parse_print : ∀ (v : JVal) (f : Nat) (rest : Bytes), v.numsOk → Term rest → v.fuel ≤ f →
    parseVal f (v.print ++ rest) = some (v.clean, rest)
  | .null, f, rest, _, _, hf => by
    cases f with
    | zero => simp [JVal.fuel] at hf
    | succ f => rfl
  | .bool true, f, rest, _, _, hf => by
    cases f with
    | zero => simp [JVal.fuel] at hf
    | succ f => rfl
  | .bool false, f, rest, _, _, hf => by
    cases f with
    | zero => simp [JVal.fuel] at hf
    | succ f => rfl
  | .num raw, f, rest, hn, hr, hf => by
    cases f with
    | zero => simp [JVal.fuel] at hf
    | succ f =>
      simp only [JVal.numsOk] at hn
      obtain ⟨c, s, h1, h2⟩ := hn.head
      obtain ⟨d1, d2, d3, d4, d5, d6, d7⟩ := StartByte.digit_facts h2
      have hp := hn.parse rest hr
      simp only [JVal.print]
      rw [h1] at hp ⊢
      simp only [List.cons_append] at hp ⊢
      simp only [parseVal, skipWs_of d1, d2, d3, d4, d5, d6, d7, if_false, hp, JVal.clean]
  | .str s _, f, rest, _, _, hf => by
    cases f with
    | zero => simp [JVal.fuel] at hf
    | succ f =>
      simp only [JVal.print, printStr_append]
      have : skipWs (34 :: (encodeStrAux s.length s ++ 34 :: rest)) = 34 :: (encodeStrAux s.length s ++ 34 :: rest) :=
        skipWs_of (by decide)
      simp only [parseVal, this, parseStr_print, JVal.clean, take_str]
      rfl
  | .arr l, f, rest, hn, _, hf => by
    cases f with
    | zero => simp [JVal.fuel] at hf
    | succ f =>
      simp only [JVal.fuel] at hf
      simp only [JVal.numsOk] at hn
      have hw : ∀ t, skipWs (91 :: t) = 91 :: t := fun t => skipWs_of (by decide)
      have hp' := JArr.parse_print l f rest hn (by omega)
      cases l with
      | nil => rfl
      | cons v l =>
        have hp := hp' (by intro h; cases h)
        have hv := (show v.numsOk ∧ l.numsOk by simpa [JArr.numsOk] using hn).1
        obtain ⟨c, s, h1, h2⟩ := v.print_start hv
        obtain ⟨d1, d2⟩ := h2.not_ws
        simp only [JVal.print, JArr.print, if_true, List.nil_append, List.cons_append, List.append_assoc,
          JVal.clean] at hp ⊢
        simp only [h1, List.cons_append] at hp ⊢
        simp only [parseVal, hw, skipWs_of d1]
        rw [if_neg (by decide), if_pos trivial]
        split
        · rename_i h; simp only [List.cons.injEq] at h; exact absurd h.1 d2
        · simp only [hp]
  | .obj l, f, rest, hn, _, hf => by
    cases f with
    | zero => simp [JVal.fuel] at hf
    | succ f =>
      simp only [JVal.fuel] at hf
      simp only [JVal.numsOk] at hn
      have hw : ∀ t, skipWs (123 :: t) = 123 :: t := fun t => skipWs_of (by decide)
      have hw' : ∀ t, skipWs (34 :: t) = 34 :: t := fun t => skipWs_of (by decide)
      have hp' := JObj.parse_print l f rest hn (by omega)
      cases l with
      | nil => rfl
      | cons k v l =>
        have hp := hp' (by intro h; cases h)
        simp only [JVal.print, JObj.print, if_true, List.nil_append, List.cons_append, List.append_assoc,
          JVal.clean, printStr_append] at hp ⊢
        simp only [parseVal, hw, hw', if_true]
        split
        · rename_i h; simp only [List.cons.injEq] at h; exact absurd h.1 (by decide)
        · simp only [hp]
theorem JArr.parse_print : ∀ (l : JArr) (f : Nat) (rest : Bytes), l.numsOk → l.fuel ≤ f → l ≠ .nil →
    parseElems f (l.print true ++ (93 :: rest)) = some (l.clean, rest)
  | .nil, _, _, _, _, h => absurd rfl h
  | .cons v l, f, rest, hn, hf, _ => by
    cases f with
    | zero => simp [JArr.fuel] at hf
    | succ f =>
      have hn' : v.numsOk ∧ l.numsOk := by simpa [JArr.numsOk] using hn
      have hf' : v.fuel ≤ f ∧ l.fuel ≤ f := by simp only [JArr.fuel] at hf; omega
      have hl' := JArr.parse_print l f rest hn'.2 hf'.2
      cases l with
      | nil =>
        have hv := JVal.parse_print v f (93 :: rest) hn'.1 (by simp [Term]) hf'.1
        simp only [JArr.print, if_true, List.nil_append, List.append_nil]
        simp only [parseElems, hv]
        rfl
      | cons w l' =>
        have hv := JVal.parse_print v f (44 :: ((JArr.cons w l').print true ++ 93 :: rest)) hn'.1 (by simp [Term]) hf'.1
        have hl := hl' (by intro h; cases h)
        have hpr : (JArr.cons v (JArr.cons w l')).print true ++ 93 :: rest =
            v.print ++ (44 :: ((JArr.cons w l').print true ++ 93 :: rest)) := by simp [JArr.print]
        have hw : ∀ t, skipWs (44 :: t) = 44 :: t := fun t => skipWs_of (by decide)
        rw [hpr]
        simp only [parseElems, hv, hw, hl]
        rfl
theorem JObj.parse_print : ∀ (l : JObj) (f : Nat) (rest : Bytes), l.numsOk → l.fuel ≤ f → l ≠ .nil →
    parseMembers f (l.print true ++ (125 :: rest)) = some (l.clean, rest)
  | .nil, _, _, _, _, h => absurd rfl h
  | .cons k v l, f, rest, hn, hf, _ => by
    cases f with
    | zero => simp [JObj.fuel] at hf
    | succ f =>
      have hn' : v.numsOk ∧ l.numsOk := by simpa [JObj.numsOk] using hn
      have hf' : v.fuel ≤ f ∧ l.fuel ≤ f := by simp only [JObj.fuel] at hf; omega
      have hw34 : ∀ t, skipWs (34 :: t) = 34 :: t := fun t => skipWs_of (by decide)
      have hw58 : ∀ t, skipWs (58 :: t) = 58 :: t := fun t => skipWs_of (by decide)
      have hl' := JObj.parse_print l f rest hn'.2 hf'.2
      cases l with
      | nil =>
        have hv := JVal.parse_print v f (125 :: rest) hn'.1 (by simp [Term]) hf'.1
        simp only [JObj.print, if_true, List.nil_append, List.append_nil, List.append_assoc, List.cons_append,
          printStr_append]
        simp only [parseMembers, hw34, parseStr_print, hw58, hv]
        rfl
      | cons k' w l' =>
        have hv := JVal.parse_print v f (44 :: ((JObj.cons k' w l').print true ++ 125 :: rest)) hn'.1 (by simp [Term])
          hf'.1
        have hl := hl' (by intro h; cases h)
        have hpr : (JObj.cons k v (JObj.cons k' w l')).print true ++ 125 :: rest =
            printStr k ++ (58 :: (v.print ++ (44 :: ((JObj.cons k' w l').print true ++ 125 :: rest)))) := by
          simp [JObj.print]
        have hw : ∀ t, skipWs (44 :: t) = 44 :: t := fun t => skipWs_of (by decide)
        rw [hpr, printStr_append]
        simp only [parseMembers, hw34, parseStr_print, hw58, hv, hw, hl]
        rfl
end

mutual
theorem JVal.fuel_le : ∀ (v : JVal), v.numsOk → v.fuel + 1 ≤ 2 * v.print.length
  | .null, _ => by simp [JVal.fuel, JVal.print]
  | .bool true, _ => by simp [JVal.fuel, JVal.print]
  | .bool false, _ => by simp [JVal.fuel, JVal.print]
  | .num raw, h => by
    simp only [JVal.numsOk] at h
    obtain ⟨c, s, h1, _⟩ := h.head
    simp only [JVal.fuel, JVal.print, h1, List.length_cons]
    omega
  | .str s _, _ => by
    simp only [JVal.fuel, JVal.print, printStr, List.length_cons]
    omega
  | .arr l, h => by
    have := JArr.fuel_le l true (by simpa [JVal.numsOk] using h)
    simp only [JVal.fuel, JVal.print, List.length_cons, List.length_append, List.length_nil]
    omega
  | .obj l, h => by
    have := JObj.fuel_le l true (by simpa [JVal.numsOk] using h)
    simp only [JVal.fuel, JVal.print, List.length_cons, List.length_append, List.length_nil]
    omega
theorem JArr.fuel_le : ∀ (l : JArr) (b : Bool), l.numsOk → l.fuel ≤ 2 * (l.print b).length + 1
  | .nil, _, _ => by simp [JArr.fuel]
  | .cons v l, b, h => by
    have h' : v.numsOk ∧ l.numsOk := by simpa [JArr.numsOk] using h
    have h1 := JVal.fuel_le v h'.1
    have h2 := JArr.fuel_le l false h'.2
    simp only [JArr.fuel, JArr.print, List.length_append]
    omega
theorem JObj.fuel_le : ∀ (l : JObj) (b : Bool), l.numsOk → l.fuel ≤ 2 * (l.print b).length + 1
  | .nil, _, _ => by simp [JObj.fuel]
  | .cons k v l, b, h => by
    have h' : v.numsOk ∧ l.numsOk := by simpa [JObj.numsOk] using h
    have h1 := JVal.fuel_le v h'.1
    have h2 := JObj.fuel_le l false h'.2
    simp only [JObj.fuel, JObj.print, List.length_append, List.length_cons]
    omega
end

theorem parseVal_print (v : JVal) (h : v.numsOk) (rest : Bytes) (hr : Term rest) :
    parseVal (2 * (v.print ++ rest).length + 2) (v.print ++ rest) = some (v.clean, rest) :=
  v.parse_print _ rest h hr (by have := v.fuel_le h; simp only [List.length_append]; omega)

mutual
theorem JVal.clean_depth : ∀ v : JVal, v.clean.depth = v.depth
  | .null => rfl
  | .bool _ => rfl
  | .num _ => rfl
  | .str _ _ => rfl
  | .arr l => by simp only [JVal.clean, JVal.depth, JArr.clean_depth l]
  | .obj l => by simp only [JVal.clean, JVal.depth, JObj.clean_depth l]
theorem JArr.clean_depth : ∀ l : JArr, l.clean.depth = l.depth
  | .nil => rfl
  | .cons v l => by simp only [JArr.clean, JArr.depth, JVal.clean_depth v, JArr.clean_depth l]
theorem JObj.clean_depth : ∀ l : JObj, l.clean.depth = l.depth
  | .nil => rfl
  | .cons _ v l => by simp only [JObj.clean, JObj.depth, JVal.clean_depth v, JObj.clean_depth l]
end

/-- `json.Unmarshal` reads what `json.Marshal` wrote, if it is not nested too deep. -/
theorem parseJson_print (v : JVal) (h : v.numsOk) (hd : v.depth ≤ maxNesting) : parseJson v.print = some v.clean := by
  have := parseVal_print v h [] trivial
  rw [List.append_nil] at this
  simp [parseJson, this, skipWs, v.clean_depth, hd]

theorem parseFirst_print (v : JVal) (h : v.numsOk) (hd : v.depth ≤ maxNesting) : parseFirst v.print = some v.clean := by
  have := parseVal_print v h [] trivial
  rw [List.append_nil] at this
  simp [parseFirst, this, v.clean_depth, hd]

/-! ### base64 and hex -/

theorem b64Val_char : ∀ n : Fin 64, b64Val (b64Char n) = some n.val ∧ b64Char n ≠ 61 ∧ b64Char n ≠ 10 ∧
    b64Char n ≠ 13 ∧ b64Char n < 0x80 := by decide +kernel

theorem b64_facts {n : Nat} (h : n < 64) : b64Val (b64Char n) = some n ∧ b64Char n ≠ 61 ∧ b64Char n ≠ 10 ∧
    b64Char n ≠ 13 ∧ b64Char n < 0x80 := b64Val_char ⟨n, h⟩

theorem b64DecQuads_enc : ∀ bs : Bytes, b64DecQuads (b64Enc bs) = some bs
  | [] => rfl
  | [a] => by
    have ha := a.toNat_lt
    have h1 := b64_facts (n := a.toNat / 4) (by omega)
    have h2 := b64_facts (n := a.toNat % 4 * 16) (by omega)
    simp only [b64Enc, b64DecQuads, h1.1, h2.1, if_true, and_self]
    rw [show a.toNat / 4 * 4 + a.toNat % 4 * 16 / 16 = a.toNat by omega, UInt8.ofNat_toNat]
  | [a, b] => by
    have ha := a.toNat_lt
    have hb := b.toNat_lt
    have h1 := b64_facts (n := a.toNat / 4) (by omega)
    have h2 := b64_facts (n := a.toNat % 4 * 16 + b.toNat / 16) (by omega)
    have h3 := b64_facts (n := b.toNat % 16 * 4) (by omega)
    simp only [b64Enc, b64DecQuads, h1.1, h2.1, h3.1, h3.2.1, if_false, if_true]
    rw [show a.toNat / 4 * 4 + (a.toNat % 4 * 16 + b.toNat / 16) / 16 = a.toNat by omega,
      show (a.toNat % 4 * 16 + b.toNat / 16) % 16 * 16 + b.toNat % 16 * 4 / 4 = b.toNat by omega, UInt8.ofNat_toNat,
      UInt8.ofNat_toNat]
  | a :: b :: c :: rest => by
    have ha := a.toNat_lt
    have hb := b.toNat_lt
    have hc := c.toNat_lt
    have h1 := b64_facts (n := a.toNat / 4) (by omega)
    have h2 := b64_facts (n := a.toNat % 4 * 16 + b.toNat / 16) (by omega)
    have h3 := b64_facts (n := b.toNat % 16 * 4 + c.toNat / 64) (by omega)
    have h4 := b64_facts (n := c.toNat % 64) (by omega)
    simp only [b64Enc, b64DecQuads, h1.1, h2.1, h3.1, h3.2.1, h4.1, h4.2.1, if_false, b64DecQuads_enc rest,
      Option.map_some]
    rw [show a.toNat / 4 * 4 + (a.toNat % 4 * 16 + b.toNat / 16) / 16 = a.toNat by omega,
      show (a.toNat % 4 * 16 + b.toNat / 16) % 16 * 16 + (b.toNat % 16 * 4 + c.toNat / 64) / 4 = b.toNat by omega,
      show (b.toNat % 16 * 4 + c.toNat / 64) % 4 * 64 + c.toNat % 64 = c.toNat by omega, UInt8.ofNat_toNat,
      UInt8.ofNat_toNat, UInt8.ofNat_toNat]

theorem b64Enc_mem : ∀ (bs : Bytes) (c : UInt8), c ∈ b64Enc bs → c ≠ 10 ∧ c ≠ 13 ∧ c < 0x80
  | [], c, h => by simp [b64Enc] at h
  | [a], c, h => by
    have ha := a.toNat_lt
    have h1 := b64_facts (n := a.toNat / 4) (by omega)
    have h2 := b64_facts (n := a.toNat % 4 * 16) (by omega)
    simp only [b64Enc, List.mem_cons, List.not_mem_nil, or_false] at h
    rcases h with rfl | rfl | rfl | rfl
    · exact h1.2.2
    · exact h2.2.2
    · decide
    · decide
  | [a, b], c, h => by
    have ha := a.toNat_lt
    have hb := b.toNat_lt
    have h1 := b64_facts (n := a.toNat / 4) (by omega)
    have h2 := b64_facts (n := a.toNat % 4 * 16 + b.toNat / 16) (by omega)
    have h3 := b64_facts (n := b.toNat % 16 * 4) (by omega)
    simp only [b64Enc, List.mem_cons, List.not_mem_nil, or_false] at h
    rcases h with rfl | rfl | rfl | rfl
    · exact h1.2.2
    · exact h2.2.2
    · exact h3.2.2
    · decide
  | a :: b :: c :: rest, d, h => by
    have ha := a.toNat_lt
    have hb := b.toNat_lt
    have hc := c.toNat_lt
    have h1 := b64_facts (n := a.toNat / 4) (by omega)
    have h2 := b64_facts (n := a.toNat % 4 * 16 + b.toNat / 16) (by omega)
    have h3 := b64_facts (n := b.toNat % 16 * 4 + c.toNat / 64) (by omega)
    have h4 := b64_facts (n := c.toNat % 64) (by omega)
    simp only [b64Enc, List.mem_cons] at h
    rcases h with rfl | rfl | rfl | rfl | h
    · exact h1.2.2
    · exact h2.2.2
    · exact h3.2.2
    · exact h4.2.2
    · exact b64Enc_mem rest d h

/-- base64 reads back. -/
theorem b64Dec_enc (bs : Bytes) : b64Dec (b64Enc bs) = some bs := by
  unfold b64Dec
  rw [List.filter_eq_self.2, b64DecQuads_enc]
  intro c hc
  have := b64Enc_mem bs c hc
  simp [this.1, this.2.1]

theorem b64Enc_valid (bs : Bytes) : ValidUtf8 (b64Enc bs) := validUtf8_ascii _ fun c hc => (b64Enc_mem bs c hc).2.2

theorem hexUpper_plain : ∀ n : Fin 16, hexUpper n < 0x80 ∧ escAscii (hexUpper n) = [hexUpper n] := by decide

theorem hexEnc_escaped (bs : Bytes) : escaped (hexEnc bs) = false := by
  apply escaped_plain
  induction bs with
  | nil => intro c h; simp [hexEnc] at h
  | cons b bs ih =>
    have hb := b.toNat_lt
    intro c h
    simp only [hexEnc, List.mem_cons] at h
    rcases h with rfl | rfl | h
    · exact hexUpper_plain ⟨b.toNat / 16, by omega⟩
    · exact hexUpper_plain ⟨b.toNat % 16, by omega⟩
    · exact ih c h

theorem hexVal_upper : ∀ n : Fin 16, hexVal (hexUpper n) = some n.val ∧ hexUpper n < 0x80 := by decide

/-- hex reads back. -/
theorem hexDec_enc : ∀ bs : Bytes, hexDec (hexEnc bs) = some bs
  | [] => rfl
  | b :: bs => by
    have hb := b.toNat_lt
    have h1 := hexVal_upper ⟨b.toNat / 16, by omega⟩
    have h2 := hexVal_upper ⟨b.toNat % 16, by omega⟩
    simp only [hexEnc, hexDec, h1.1, h2.1, hexDec_enc bs]
    rw [show b.toNat / 16 * 16 + b.toNat % 16 = b.toNat by omega, UInt8.ofNat_toNat]

theorem hexEnc_valid (bs : Bytes) : ValidUtf8 (hexEnc bs) := by
  apply validUtf8_ascii
  induction bs with
  | nil => intro c h; simp [hexEnc] at h
  | cons b bs ih =>
    have hb := b.toNat_lt
    intro c h
    simp only [hexEnc, List.mem_cons] at h
    rcases h with rfl | rfl | h
    · exact (hexVal_upper ⟨b.toNat / 16, by omega⟩).2
    · exact (hexVal_upper ⟨b.toNat % 16, by omega⟩).2
    · exact ih c h

/-- What every member keeps, the whole object keeps. -/
theorem decodeFields_keeps {α : Type} {set : α → Bytes → JVal → Option α} {P : α → Prop}
    (hset : ∀ m m' k v, set m k v = some m' → P m → P m') :
    ∀ (l : JObj) (m m' : α), decodeFields set m l = some m' → P m → P m'
  | .nil, m, m', h, h0 => by
    unfold decodeFields at h
    rw [Option.some.injEq] at h; subst h; exact h0
  | .cons k v l, m, m', h, h0 => by
    unfold decodeFields at h
    split at h
    · cases h
    · next m1 hm => exact decodeFields_keeps hset l m1 m' h (hset _ _ _ _ hm h0)

theorem setInt_range {lo hi old x : Int} {v : JVal} (h : setInt lo hi old v = some x) (h0 : lo ≤ old ∧ old ≤ hi) :
    lo ≤ x ∧ x ≤ hi := by
  unfold setInt at h
  split at h
  · split at h
    · split at h
      · next hr => rw [Option.some.injEq] at h; subst h; exact hr
      · cases h
    · cases h
  · rw [Option.some.injEq] at h; subst h; exact h0
  · cases h

end Horcrux
