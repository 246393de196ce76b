import Verif.Model.Url
import Verif.Spec.Url
import Verif.Lemmas.JsonText
/-
Lemmas about the model of `net/url` and `net.SplitHostPort`.
-/
namespace Horcrux
open Spec

theorem cutFirst_none {c : UInt8} {s : Bytes} : cutFirst c s = none ↔ c ∉ s := by
  induction s with
  | nil => simp [cutFirst]
  | cons b s ih =>
    simp only [cutFirst]
    by_cases h : b = c
    · simp [h]
    · have : ¬ c = b := fun e => h e.symm
      simp [h, ih, this]

theorem cutFirst_some {c : UInt8} {s a b : Bytes} : cutFirst c s = some (a, b) ↔ s = a ++ c :: b ∧ c ∉ a := by
  induction s generalizing a b with
  | nil => simp [cutFirst]
  | cons d s ih =>
    simp only [cutFirst]
    by_cases h : d = c
    · subst h
      rw [if_pos rfl]
      constructor
      · intro e; cases e; simp
      · rintro ⟨h1, h2⟩
        cases a with
        | nil => simp at h1; simp [h1]
        | cons x a => simp only [List.cons_append, List.cons.injEq] at h1; exact absurd (by simp [h1.1]) h2
    · rw [if_neg h]
      cases a with
      | nil =>
        simp only [Option.map_eq_some_iff, Prod.mk.injEq, List.nil_append, List.cons.injEq]
        constructor
        · rintro ⟨_, _, h3, _⟩; cases h3
        · rintro ⟨⟨h1, _⟩, _⟩; exact absurd h1 h
      | cons x a =>
        simp only [Option.map_eq_some_iff, Prod.mk.injEq, List.cons_append, List.cons.injEq, Prod.exists]
        constructor
        · rintro ⟨y, z, h1, ⟨rfl, rfl⟩, rfl⟩
          obtain ⟨h2, h3⟩ := ih.1 h1
          exact ⟨⟨rfl, h2⟩, by simp [h3]; exact fun e => h e.symm⟩
        · rintro ⟨⟨rfl, h1⟩, h2⟩
          exact ⟨a, b, ih.2 ⟨h1, fun m => h2 (by simp [m])⟩, ⟨rfl, rfl⟩, rfl⟩

theorem cutLast_none {c : UInt8} {s : Bytes} : cutLast c s = none ↔ c ∉ s := by
  induction s with
  | nil => simp [cutLast]
  | cons b s ih =>
    simp only [cutLast]
    cases h : cutLast c s with
    | some p =>
      have : c ∈ s := Classical.byContradiction fun hn => by rw [ih.2 hn] at h; cases h
      simp [this]
    | none =>
      have := ih.1 h
      by_cases e : b = c
      · simp [e]
      · have e' : ¬ c = b := fun x => e x.symm
        simp [e, e', this]

theorem cutLast_some {c : UInt8} {s a b : Bytes} : cutLast c s = some (a, b) ↔ s = a ++ c :: b ∧ c ∉ b := by
  induction s generalizing a b with
  | nil => simp [cutLast]
  | cons d s ih =>
    simp only [cutLast]
    cases h : cutLast c s with
    | some p =>
      obtain ⟨p1, p2⟩ := p
      obtain ⟨h1, h2⟩ := ih.1 h
      simp only [Option.some.injEq, Prod.mk.injEq]
      constructor
      · rintro ⟨rfl, rfl⟩
        exact ⟨by simp [h1], h2⟩
      · rintro ⟨h3, h4⟩
        cases a with
        | nil =>
          simp only [List.nil_append, List.cons.injEq] at h3
          rw [← h3.2, h1] at h4
          exact absurd (by simp) h4
        | cons x a =>
          simp only [List.cons_append, List.cons.injEq] at h3
          have := ih.2 ⟨h3.2, h4⟩
          rw [h] at this
          cases this
          exact ⟨by rw [h3.1], rfl⟩
    | none =>
      have hn := cutLast_none.1 h
      by_cases e : d = c
      · subst e
        rw [if_pos rfl]
        constructor
        · intro e; cases e; exact ⟨rfl, hn⟩
        · rintro ⟨h3, h4⟩
          cases a with
          | nil => simp only [List.nil_append, List.cons.injEq, true_and] at h3; simp [h3]
          | cons x a =>
            simp only [List.cons_append, List.cons.injEq] at h3
            exact absurd (by rw [h3.2]; simp) hn
      · rw [if_neg e]
        constructor
        · intro e; cases e
        · rintro ⟨h3, h4⟩
          cases a with
          | nil => simp only [List.nil_append, List.cons.injEq] at h3; exact absurd h3.1 e
          | cons x a =>
            simp only [List.cons_append, List.cons.injEq] at h3
            exact absurd (by rw [h3.2]; simp) hn

/-- Text in which nothing is escaped is left as it is. -/
theorem urlUnescape_id (m : Esc) (s : Bytes) (h : ∀ c ∈ s, c ≠ 37 ∧ plainOk m c = true) : urlUnescape m s = some s := by
  fun_induction urlUnescape m s <;> simp_all

theorem urlUnescape_plain (s : Bytes) (h : (37 : UInt8) ∉ s) : urlUnescape .other s = some s :=
  urlUnescape_id _ _ fun _ hc => ⟨fun e => h (e ▸ hc), rfl⟩

theorem letter_iff (c : UInt8) : isAlpha c = true ↔ Letter c := by
  unfold isAlpha Letter; simp

theorem digit_iff (c : UInt8) : isDigit c = true ↔ Digit c := by
  unfold isDigit Digit; simp

theorem hostByte_facts : ∀ c : UInt8, hostByte c = true →
    c ≠ 35 ∧ c ≠ 37 ∧ c ≠ 47 ∧ c ≠ 63 ∧ c ≠ 64 ∧ ¬ c < 32 ∧ c ≠ 127 := by
  apply u8_forall
  decide +kernel

theorem letter_facts : ∀ c : UInt8, isAlpha c = true →
    isDigit c = false ∧ c ≠ 35 ∧ c ≠ 37 ∧ c ≠ 42 ∧ c ≠ 43 ∧ c ≠ 45 ∧ c ≠ 46 ∧ c ≠ 47 ∧ c ≠ 58 ∧ c ≠ 63 ∧ c ≠ 91 ∧ c ≠ 93 ∧ ¬ c < 32 ∧ c ≠ 127 ∧
      hostByte c = true := by
  apply u8_forall
  decide +kernel

theorem digit_facts : ∀ c : UInt8, isDigit c = true →
    isAlpha c = false ∧ c ≠ 35 ∧ c ≠ 37 ∧ c ≠ 47 ∧ c ≠ 58 ∧ c ≠ 63 ∧ c ≠ 91 ∧ c ≠ 93 ∧ ¬ c < 32 ∧ c ≠ 127 ∧ hostByte c = true := by
  apply u8_forall
  decide +kernel

theorem unescape_host (s : Bytes) (h : ∀ c ∈ s, hostByte c = true) : urlUnescape .host s = some s :=
  urlUnescape_id _ _ fun c hc => ⟨(hostByte_facts c (h c hc)).2.1, by simp [plainOk, h c hc]⟩

/-- The characters of a scheme after the first. -/
def schemeByte (d : UInt8) : Bool := isAlpha d || isDigit d || d == 43 || d == 45 || d == 46

theorem schemeByte_iff (d : UInt8) : schemeByte d = true ↔ (Letter d ∨ Digit d ∨ d = 43 ∨ d = 45 ∨ d = 46) := by
  simp [schemeByte, letter_iff, digit_iff, or_assoc]

theorem schemeByte_facts : ∀ c : UInt8, schemeByte c = true → c ≠ 35 ∧ c ≠ 58 ∧ ¬ c < 32 ∧ c ≠ 127 ∧ c ≠ 47 := by
  apply u8_forall
  decide +kernel

theorem getScheme_more (w pre t rest : Bytes) (hp : pre ≠ []) (h : ∀ d ∈ t, schemeByte d = true) :
    getScheme w pre (t ++ 58 :: rest) = some (pre ++ t, rest) := by
  induction t generalizing pre with
  | nil =>
    simp only [List.nil_append, getScheme]
    have e1 : isAlpha 58 = false := by decide +kernel
    have e2 : isDigit 58 = false := by decide +kernel
    simp [e1, e2, hp]
  | cons d t ih =>
    have hd := h d (by simp)
    have ht : ∀ x ∈ t, schemeByte x = true := fun x hx => h x (by simp [hx])
    simp only [List.cons_append, getScheme]
    by_cases ha : isAlpha d = true
    · rw [if_pos ha, ih _ (by simp) ht]; simp
    · rw [if_neg ha]
      have : (isDigit d || d == 43 || d == 45 || d == 46) = true := by
        simpa [schemeByte, ha] using hd
      rw [if_pos this, if_neg hp, ih _ (by simp) ht]; simp

theorem getScheme_word (w s rest : Bytes) (h : SchemeWord s) : getScheme w [] (s ++ 58 :: rest) = some (s, rest) := by
  obtain ⟨c, t, rfl, hc, ht⟩ := h
  simp only [List.cons_append, getScheme]
  rw [if_pos ((letter_iff c).2 hc), getScheme_more _ _ _ _ (by simp) fun d hd => (schemeByte_iff d).2 (ht d hd)]
  rfl

/-- The host of `scheme://a`. -/
theorem urlHost_of (s a : Bytes) (hs : SchemeWord s) (ha : ∀ c ∈ a, hostByte c = true) :
    urlHost (s ++ [58, 47, 47] ++ a) = parseHost a := by
  have hsb : ∀ c ∈ s, schemeByte c = true := by
    obtain ⟨c, t, rfl, hc, ht⟩ := hs
    intro d hd
    rcases List.mem_cons.1 hd with rfl | hd
    · exact (schemeByte_iff _).2 (.inl hc)
    · exact (schemeByte_iff _).2 (ht d hd)
  have hne : s ≠ [] := by obtain ⟨c, t, rfl, _⟩ := hs; simp
  have h35 : (35 : UInt8) ∉ s ++ [58, 47, 47] ++ a := by
    simp only [List.append_assoc, List.mem_append, List.mem_cons]
    rintro (h | (h | h | h | h) | h)
    · exact (schemeByte_facts _ (hsb _ h)).1 rfl
    · cases h
    · cases h
    · cases h
    · cases h
    · exact (hostByte_facts _ (ha _ h)).1 rfl
  unfold urlHost
  rw [cutFirst_none.2 h35]
  show parseUrl _ = _
  have hctl : (s ++ [58, 47, 47] ++ a).any (fun c => decide (c < 32) || c == 127) = false := by
    rw [List.any_eq_false]
    intro c hc
    simp only [List.append_assoc, List.mem_append] at hc
    rcases hc with h | h | h
    · have := schemeByte_facts _ (hsb _ h); simp [this.2.2.1, this.2.2.2.1]
    · simp only [List.mem_cons, List.not_mem_nil, or_false] at h
      rcases h with rfl | rfl | rfl <;> decide +kernel
    · have := hostByte_facts _ (ha _ h); simp [this.2.2.2.2.2.1, this.2.2.2.2.2.2]
  have hstar : s ++ [58, 47, 47] ++ a ≠ [42] := by
    intro e
    have := congrArg List.length e
    simp at this
    omega
  have h63 : (63 : UInt8) ∉ (47 : UInt8) :: 47 :: a := by
    simp only [List.mem_cons]
    rintro (h | h | h)
    · cases h
    · cases h
    · exact (hostByte_facts _ (ha _ h)).2.2.2.1 rfl
  have h47 : (47 : UInt8) ∉ a := fun h => (hostByte_facts _ (ha _ h)).2.2.1 rfl
  have h64 : (64 : UInt8) ∉ a := fun h => (hostByte_facts _ (ha _ h)).2.2.2.2.1 rfl
  unfold parseUrl
  rw [hctl, if_neg (by simp), if_neg hstar]
  have hsch : getScheme (s ++ [58, 47, 47] ++ a) [] (s ++ [58, 47, 47] ++ a) = some (s, 47 :: 47 :: a) := by
    have := getScheme_word (s ++ [58, 47, 47] ++ a) s (47 :: 47 :: a) hs
    simpa using this
  rw [hsch]
  simp only
  rw [cutFirst_none.2 h63]
  simp only [List.head?_cons, ne_eq, not_true_eq_false, false_and, if_false, List.take_succ_cons, List.take_zero, hne,
    not_false_eq_true, true_or, and_true, if_true, List.drop_succ_cons, List.drop_zero]
  rw [cutFirst_none.2 h47]
  simp only
  unfold parseAuthority
  rw [cutLast_none.2 h64]
  cases parseHost a <;> rfl

theorem hostName_byte {h : Str} (hh : HostName h) : ∀ c ∈ h, hostByte c = true ∧ c ≠ 58 ∧ c ≠ 91 ∧ c ≠ 93 := by
  have key : ∀ c : UInt8, (isAlpha c || isDigit c || c == 45 || c == 46 || c == 95 || c == 126) = true →
      hostByte c = true ∧ c ≠ 58 ∧ c ≠ 91 ∧ c ≠ 93 := by
    apply u8_forall; decide +kernel
  intro c hc
  apply key
  have := hh.2 c hc
  simp only [← letter_iff, ← digit_iff] at this
  simp only [Bool.or_eq_true, beq_iff_eq, or_assoc]
  exact this

theorem v6Name_byte {h : Str} (hh : V6Name h) : ∀ c ∈ h, hostByte c = true ∧ c ≠ 91 ∧ c ≠ 93 ∧ c ≠ 37 := by
  have key : ∀ c : UInt8, (isAlpha c || isDigit c || c == 58 || c == 46) = true →
      hostByte c = true ∧ c ≠ 91 ∧ c ≠ 93 ∧ c ≠ 37 := by
    apply u8_forall; decide +kernel
  intro c hc
  apply key
  have := hh.2 c hc
  simp only [← letter_iff, ← digit_iff] at this
  simp only [Bool.or_eq_true, beq_iff_eq, or_assoc]
  exact this

theorem port_digit {p : Str} (hp : PortNo p) : ∀ c ∈ p, isDigit c = true := fun c hc => (digit_iff c).2 (hp.2 c hc)

theorem validPort_of {p : Str} (hp : ∀ c ∈ p, isDigit c = true) : validOptionalPort (58 :: p) = true := by
  simpa [validOptionalPort] using hp

theorem port_noColon {p : Str} (hp : PortNo p) : (58 : UInt8) ∉ p ∧ (91 : UInt8) ∉ p ∧ (93 : UInt8) ∉ p :=
  ⟨fun h => (digit_facts _ (port_digit hp _ h)).2.2.2.2.1 rfl, fun h => (digit_facts _ (port_digit hp _ h)).2.2.2.2.2.2.1 rfl,
    fun h => (digit_facts _ (port_digit hp _ h)).2.2.2.2.2.2.2.1 rfl⟩

theorem cutZone_none {s : Bytes} (h : (37 : UInt8) ∉ s) : cutZone s = none := by
  induction s with
  | nil => rfl
  | cons b s ih =>
    simp only [cutZone]
    have hb : b ≠ 37 := fun e => h (by simp [e])
    rw [if_neg (by simp [hb]), ih fun hm => h (by simp [hm])]
    rfl

theorem urlHost_names {u host port : Str} (h : Names u host port) : urlHost u = some (host ++ 58 :: port) := by
  obtain ⟨s, hs, hh, hp, rfl⟩ := h
  have hb : ∀ c ∈ host ++ 58 :: port, hostByte c = true := by
    intro c hc
    rcases List.mem_append.1 hc with h | h
    · exact (hostName_byte hh c h).1
    · rcases List.mem_cons.1 h with rfl | h
      · decide +kernel
      · exact (digit_facts _ (port_digit hp _ h)).2.2.2.2.2.2.2.2.2.2
  have e : s ++ [58, 47, 47] ++ host ++ [58] ++ port = s ++ [58, 47, 47] ++ (host ++ 58 :: port) := by simp
  rw [e, urlHost_of s _ hs hb]
  unfold parseHost
  have hne : (host ++ 58 :: port).head? ≠ some 91 := by
    cases host with
    | nil => exact absurd rfl hh.1
    | cons c t => simpa using (hostName_byte hh c (by simp)).2.2.1
  rw [if_neg hne, cutLast_some.2 ⟨rfl, (port_noColon hp).1⟩]
  simp only
  rw [validPort_of (port_digit hp), if_neg (by simp), unescape_host _ hb]

theorem urlHost_v6 {u host port : Str} (h : NamesV6 u host port) : urlHost u = some (91 :: (host ++ 93 :: 58 :: port)) := by
  obtain ⟨s, hs, hh, hp, rfl⟩ := h
  have hb : ∀ c ∈ 91 :: (host ++ 93 :: 58 :: port), hostByte c = true := by
    intro c hc
    rcases List.mem_cons.1 hc with rfl | hc
    · decide +kernel
    rcases List.mem_append.1 hc with h | h
    · exact (v6Name_byte hh c h).1
    · rcases List.mem_cons.1 h with rfl | h
      · decide +kernel
      rcases List.mem_cons.1 h with rfl | h
      · decide +kernel
      · exact (digit_facts _ (port_digit hp _ h)).2.2.2.2.2.2.2.2.2.2
  have e : s ++ [58, 47, 47] ++ [91] ++ host ++ [93, 58] ++ port =
      s ++ [58, 47, 47] ++ (91 :: (host ++ 93 :: 58 :: port)) := by simp
  rw [e, urlHost_of s _ hs hb]
  unfold parseHost
  rw [if_pos (by rfl)]
  have hc : cutLast 93 (91 :: (host ++ 93 :: 58 :: port)) = some (91 :: host, 58 :: port) := by
    apply cutLast_some.2
    refine ⟨by simp, ?_⟩
    simp only [List.mem_cons, not_or]
    exact ⟨by decide +kernel, (port_noColon hp).2.2⟩
  rw [hc]
  simp only
  rw [validPort_of (port_digit hp), if_neg (by simp)]
  have hz : (37 : UInt8) ∉ 91 :: host := by
    intro hm
    rcases List.mem_cons.1 hm with h | h
    · cases h
    · exact (v6Name_byte hh _ h).2.2.2 rfl
  rw [cutZone_none hz]
  exact unescape_host _ hb

/-- `net.SplitHostPort` in one statement. -/
theorem splitHostPort_iff {s h p : Str} : splitHostPort s = some (h, p) ↔
    58 ∉ p ∧ 91 ∉ p ∧ 93 ∉ p ∧ 91 ∉ h ∧ 93 ∉ h ∧ ((58 ∉ h ∧ s = h ++ 58 :: p) ∨ s = 91 :: (h ++ 93 :: 58 :: p)) := by
  unfold splitHostPort
  cases hc : cutLast 58 s with
  | none =>
    have := cutLast_none.1 hc
    simp only [reduceCtorEq, false_iff]
    rintro ⟨_, _, _, _, _, ⟨_, rfl⟩ | rfl⟩ <;> exact this (by simp)
  | some q =>
    obtain ⟨pre, port⟩ := q
    obtain ⟨hs, hport⟩ := cutLast_some.1 hc
    simp only
    by_cases hb : s.head? = some 91
    · rw [if_pos hb]
      obtain ⟨t, rfl⟩ : ∃ t, s = 91 :: t := by
        cases s with
        | nil => simp at hb
        | cons x t => simp at hb; exact ⟨t, by rw [hb]⟩
      rw [List.drop_one, List.tail_cons]
      cases hf : cutFirst 93 t with
      | none =>
        have hn := cutFirst_none.1 hf
        simp only [reduceCtorEq, false_iff]
        rintro ⟨_, _, _, h91, _, ⟨_, e⟩ | e⟩
        · cases h with
          | nil => cases e
          | cons x t => cases e; exact h91 (by simp)
        · cases e; exact hn (by simp)
      | some q =>
        obtain ⟨i, rest⟩ := q
        obtain ⟨hs2, hin⟩ := cutFirst_some.1 hf
        simp only
        constructor
        · intro hr
          split at hr
          · rename_i hrest
            split at hr
            · cases hr
            · rename_i hk
              cases hr
              simp only [Bool.or_eq_true, List.contains_iff_mem, not_or, hrest] at hk
              obtain ⟨⟨k1, k2⟩, k3⟩ := hk
              refine ⟨hport, fun m => k2 (by simp [m]), fun m => k3 (by simp [m]), k1, hin, .inr ?_⟩
              rw [hs2, hrest]
          · cases hr
        · rintro ⟨h1, h2, h3, h4, h5, ⟨_, e⟩ | e⟩
          · exfalso
            cases h with
            | nil => cases e
            | cons x t => cases e; exact h4 (by simp)
          · have e' := (List.cons.inj e).2
            have e1 := (cutFirst_some (c := 93) (s := t)).2 ⟨e', h5⟩
            rw [hf] at e1
            cases e1
            have e2 := (cutLast_some (c := 58) (s := 91 :: t)).2
              ⟨show 91 :: t = (91 :: (h ++ [93])) ++ 58 :: p by simp [e'], h1⟩
            rw [hc] at e2
            cases e2
            rw [if_pos rfl, if_neg]
            simp only [Bool.or_eq_true, List.contains_iff_mem, not_or, List.mem_cons]
            exact ⟨⟨h4, by decide +kernel, h2⟩, by decide +kernel, h3⟩
    · rw [if_neg hb]
      constructor
      · intro hr
        split at hr
        · cases hr
        · rename_i hk
          cases hr
          simp only [Bool.or_eq_true, List.contains_iff_mem, not_or, hs, List.mem_append, List.mem_cons] at hk
          obtain ⟨⟨k1, k2, -, k3⟩, k4, -, k5⟩ := hk
          exact ⟨hport, k3, k5, k2, k4, .inl ⟨k1, hs⟩⟩
      · rintro ⟨h1, h2, h3, h4, h5, ⟨h6, e⟩ | e⟩
        · have e2 := (cutLast_some (c := 58) (s := s)).2 ⟨e, h1⟩
          rw [hc] at e2
          cases e2
          rw [if_neg]
          simp only [Bool.or_eq_true, List.contains_iff_mem, not_or, hs, List.mem_append, List.mem_cons]
          exact ⟨⟨h6, h4, by decide +kernel, h2⟩, h5, by decide +kernel, h3⟩
        · rw [e] at hb; simp at hb

theorem split_names {u host port : Str} (h : Names u host port) : splitHostPort (host ++ 58 :: port) = some (host, port) := by
  obtain ⟨s, hs, hh, hp, rfl⟩ := h
  have hb := hostName_byte hh
  exact splitHostPort_iff.2 ⟨(port_noColon hp).1, (port_noColon hp).2.1, (port_noColon hp).2.2,
    fun m => (hb _ m).2.2.1 rfl, fun m => (hb _ m).2.2.2 rfl, .inl ⟨fun m => (hb _ m).2.1 rfl, rfl⟩⟩

theorem split_v6 {u host port : Str} (h : NamesV6 u host port) :
    splitHostPort (91 :: (host ++ 93 :: 58 :: port)) = some (host, port) := by
  obtain ⟨s, hs, hh, hp, rfl⟩ := h
  have hb := v6Name_byte hh
  exact splitHostPort_iff.2 ⟨(port_noColon hp).1, (port_noColon hp).2.1, (port_noColon hp).2.2,
    fun m => (hb _ m).2.1 rfl, fun m => (hb _ m).2.2.1 rfl, .inr rfl⟩

end Horcrux
