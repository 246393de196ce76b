import Verif.Lemmas.Url
import Verif.Spec.UrlText
/-
The model of `url.Parse` accepts exactly the URLs of the grammar, with the hosts of the grammar.
-/
namespace Horcrux
open Spec

theorem hostByte_iff : ∀ c : UInt8, hostByte c = true ↔ HostByte c := by
  have : ∀ c : UInt8, hostByte c = true ↔ Letter c ∨ Digit c ∨ c ∈ text "-_.~!$&'()*+,;=:[]<>\"" := by
    apply u8_forall
    decide +kernel
  exact this

/-- What may stand plain and what may be escaped, by mode. -/
def plainP : Esc → UInt8 → Prop
  | .other, _ => True
  | _, c => 128 ≤ c ∨ HostByte c

def escapedP : Esc → UInt8 → Prop
  | .host, c => 128 ≤ c ∨ c = 37
  | .zone, c => c = 37 ∨ c = 32 ∨ HostByte c
  | .other, _ => True

theorem plainOk_iff (m : Esc) (c : UInt8) : plainOk m c = true ↔ plainP m c := by
  cases m <;> simp [plainOk, plainP, hostByte_iff]

theorem hex25 : ∀ c : UInt8, (hexVal c = some 2 ↔ c = 50) ∧ (hexVal c = some 5 ↔ c = 53) := by
  apply u8_forall
  decide +kernel

theorem pctOk_iff {m : Esc} {a b : UInt8} {x y : Nat} (ha : hexVal a = some x) (hb : hexVal b = some y) :
    pctOk m a b x y = true ↔ escapedP m (UInt8.ofNat (x * 16 + y)) := by
  have hx := (hexVal_of_digit (hexVal_iff.1 ha)).2
  have hy := (hexVal_of_digit (hexVal_iff.1 hb)).2
  have hv : (UInt8.ofNat (x * 16 + y)).toNat = x * 16 + y := by
    rw [UInt8.toNat_ofNat']; omega
  have e25 : (a = 50 ∧ b = 53) ↔ UInt8.ofNat (x * 16 + y) = 37 := by
    rw [← (hex25 a).1, ← (hex25 b).2, ha, hb, ← UInt8.toNat_inj, hv]
    have t37 : (37 : UInt8).toNat = 37 := rfl
    rw [t37]
    simp only [Option.some.injEq]
    omega
  cases m with
  | host =>
    simp only [pctOk, escapedP, Bool.or_eq_true, decide_eq_true_eq, Prod.mk.injEq, e25]
    have t128 : (128 : UInt8).toNat = 128 := rfl
    rw [UInt8.le_iff_toNat_le, hv, t128]
    constructor
    · rintro (h | h)
      · left; omega
      · exact .inr h
    · rintro (h | h)
      · left; omega
      · exact .inr h
  | zone =>
    simp only [pctOk, escapedP, Bool.or_eq_true, decide_eq_true_eq, Prod.mk.injEq, e25, hostByte_iff, or_assoc]
    have : UInt8.ofNat (x * 16 + y) = 32 ↔ x * 16 + y = 32 := by
      rw [← UInt8.toNat_inj, hv]
      rfl
    rw [this]
  | other => simp [pctOk, escapedP]

theorem urlUnescape_iff (m : Esc) (s t : Bytes) : urlUnescape m s = some t ↔ Decodes (plainP m) (escapedP m) s t := by
  fun_induction urlUnescape m s generalizing t with
  | case1 =>
    constructor
    · intro h; cases h; exact .nil
    · intro h; cases h; rfl
  | case2 =>
    simp only [reduceCtorEq, false_iff]
    intro hd
    cases hd with
    | plain h1 _ _ => exact h1 rfl
  | case3 c h1 h2 =>
    constructor
    · intro h; cases h; exact .plain h1 ((plainOk_iff m c).1 h2) .nil
    · intro h
      cases h with
      | plain _ _ h3 => cases h3; rfl
  | case4 c h1 h2 =>
    simp only [reduceCtorEq, false_iff]
    intro h
    cases h with
    | plain _ h3 _ => exact h2 ((plainOk_iff m c).2 h3)
  | case5 a =>
    simp only [reduceCtorEq, false_iff]
    intro hd
    cases hd with
    | plain h1 _ _ => exact h1 rfl
  | case6 c a h1 h2 ih =>
    simp only [Option.map_eq_some_iff]
    constructor
    · rintro ⟨t', h3, rfl⟩
      exact .plain h1 ((plainOk_iff m c).1 h2) ((ih t').1 h3)
    · intro h
      cases h with
      | plain _ _ h3 => exact ⟨_, (ih _).2 h3, rfl⟩
  | case7 c a h1 h2 =>
    simp only [reduceCtorEq, false_iff]
    intro h
    cases h with
    | plain _ h3 _ => exact h2 ((plainOk_iff m c).2 h3)
  | case8 a b s x y hb ha h1 ih =>
    simp only [Option.map_eq_some_iff]
    constructor
    · rintro ⟨t', h2, rfl⟩
      exact .pct (hexVal_iff.1 ha) (hexVal_iff.1 hb) ((pctOk_iff ha hb).1 h1) ((ih t').1 h2)
    · intro h
      cases h with
      | plain h3 _ _ => exact absurd rfl h3
      | pct h3 h4 _ h6 =>
        have e1 := hexVal_iff.2 h3
        have e2 := hexVal_iff.2 h4
        rw [ha] at e1; rw [hb] at e2; cases e1; cases e2
        exact ⟨_, (ih _).2 h6, rfl⟩
  | case9 a b s x y hb ha h1 =>
    simp only [reduceCtorEq, false_iff]
    intro h
    cases h with
    | plain h3 _ _ => exact absurd rfl h3
    | pct h3 h4 h5 _ =>
      have e1 := hexVal_iff.2 h3
      have e2 := hexVal_iff.2 h4
      rw [ha] at e1; rw [hb] at e2; cases e1; cases e2
      exact h1 ((pctOk_iff ha hb).2 h5)
  | case10 a b s h1 =>
    simp only [reduceCtorEq, false_iff]
    intro h
    cases h with
    | plain h3 _ _ => exact absurd rfl h3
    | pct h3 h4 _ _ => exact h1 _ _ (hexVal_iff.2 h3) (hexVal_iff.2 h4)
  | case11 c a b s h1 h2 ih =>
    simp only [Option.map_eq_some_iff]
    constructor
    · rintro ⟨t', h3, rfl⟩
      exact .plain h1 ((plainOk_iff m c).1 h2) ((ih t').1 h3)
    · intro h
      cases h with
      | plain _ _ h3 => exact ⟨_, (ih _).2 h3, rfl⟩
      | pct _ _ _ _ => exact absurd rfl h1
  | case12 c a b s h1 h2 =>
    simp only [reduceCtorEq, false_iff]
    intro h
    cases h with
    | plain _ h3 _ => exact h2 ((plainOk_iff m c).2 h3)
    | pct _ _ _ _ => exact absurd rfl h1

theorem unescape_host_iff {s t : Bytes} : urlUnescape .host s = some t ↔ HostDecodes s t := urlUnescape_iff .host s t
theorem unescape_zone_iff {s t : Bytes} : urlUnescape .zone s = some t ↔ ZoneDecodes s t := urlUnescape_iff .zone s t
theorem wellEscaped_iff {s : Bytes} : (urlUnescape .other s).isSome = true ↔ WellEscaped s := by
  rw [Option.isSome_iff_exists]
  exact exists_congr fun t => urlUnescape_iff .other s t

theorem wellEscaped_cons {c : UInt8} {s : Bytes} (h : c ≠ 37) : WellEscaped (c :: s) ↔ WellEscaped s := by
  constructor
  · rintro ⟨t, hd⟩
    cases hd with
    | plain _ _ h3 => exact ⟨_, h3⟩
    | pct _ _ _ _ => exact absurd rfl h
  · rintro ⟨t, hd⟩; exact ⟨_, .plain h trivial hd⟩

/-! ### The scheme -/

theorem getScheme_stuck (w : Bytes) {pre s : Bytes} (hp : pre ≠ [])
    (h : ∀ t r, s = t ++ 58 :: r → ¬ ∀ d ∈ t, schemeByte d = true) : getScheme w pre s = some ([], w) := by
  induction s generalizing pre with
  | nil => simp [getScheme]
  | cons c s ih =>
    have hc : c ≠ 58 := by
      rintro rfl
      exact h [] s rfl (by simp)
    simp only [getScheme]
    by_cases hb : schemeByte c = true
    · have ih' : ∀ {pre : Bytes}, pre ≠ [] → getScheme w pre s = some ([], w) := fun hp =>
        ih hp fun t r e hall => h (c :: t) r (by rw [e]; rfl) (by
          intro d hd
          rcases List.mem_cons.1 hd with rfl | hd
          · exact hb
          · exact hall d hd)
      by_cases ha : isAlpha c = true
      · rw [if_pos ha]; exact ih' (by simp)
      · rw [if_neg ha]
        have : (isDigit c || c == 43 || c == 45 || c == 46) = true := by simpa [schemeByte, ha] using hb
        rw [if_pos this, if_neg hp]; exact ih' (by simp)
    · have ha : ¬ isAlpha c = true := fun e => hb (by simp [schemeByte, e])
      have hd : ¬ (isDigit c || c == 43 || c == 45 || c == 46) = true := by
        intro e
        simp only [Bool.or_eq_true] at e
        apply hb
        simp only [schemeByte, Bool.or_eq_true]
        rcases e with ((e | e) | e) | e <;> simp [e]
      rw [if_neg ha, if_neg hd, if_neg hc]

theorem schemeWord_ne {s : Bytes} (h : SchemeWord s) : s ≠ [] := by
  obtain ⟨c, t, rfl, _⟩ := h; simp

theorem getScheme_iff {v sc r : Bytes} : getScheme v [] v = some (sc, r) ↔
    (SchemeWord sc ∧ v = sc ++ 58 :: r) ∨
    (sc = [] ∧ r = v ∧ ∀ s b, v = s ++ 58 :: b → s ≠ [] ∧ ¬ SchemeWord s) := by
  by_cases hex : ∃ s b, SchemeWord s ∧ v = s ++ 58 :: b
  · obtain ⟨s, b, hs, rfl⟩ := hex
    rw [getScheme_word _ s b hs]
    constructor
    · intro e; cases e; exact .inl ⟨hs, rfl⟩
    · rintro (⟨h1, h2⟩ | ⟨rfl, rfl, h3⟩)
      · have := getScheme_word (s ++ 58 :: b) sc r h1
        rw [← h2, getScheme_word _ s b hs] at this
        exact this
      · exact absurd hs (h3 s b rfl).2
  · have hex' : ∀ s b, v = s ++ 58 :: b → ¬ SchemeWord s := fun s b e hs => hex ⟨s, b, hs, e⟩
    cases v with
    | nil =>
      simp only [getScheme, Option.some.injEq, Prod.mk.injEq]
      constructor
      · rintro ⟨rfl, rfl⟩; exact .inr ⟨rfl, rfl, fun s b e => by simp at e⟩
      · rintro (⟨h1, h2⟩ | ⟨rfl, rfl, _⟩)
        · simp at h2
        · exact ⟨rfl, rfl⟩
    | cons c s =>
      by_cases hc : c = 58
      · subst hc
        have e1 : isAlpha 58 = false := by decide +kernel
        have e2 : isDigit 58 = false := by decide +kernel
        have : getScheme (58 :: s) [] (58 :: s) = none := by simp [getScheme, e1, e2]
        rw [this]
        simp only [reduceCtorEq, false_iff]
        rintro (⟨h1, h2⟩ | ⟨_, _, h3⟩)
        · exact hex' sc r h2 h1
        · exact (h3 [] s rfl).1 rfl
      · have key : getScheme (c :: s) [] (c :: s) = some ([], c :: s) := by
          by_cases ha : isAlpha c = true
          · simp only [getScheme, if_pos ha]
            refine getScheme_stuck _ (by simp) fun t r e hall => ?_
            exact hex' (c :: t) r (by rw [e]; rfl)
              ⟨c, t, rfl, (letter_iff c).1 ha, fun d hd => (schemeByte_iff d).1 (hall d hd)⟩
          · simp only [getScheme, if_neg ha, if_true, if_neg hc]
            split <;> rfl
        rw [key]
        simp only [Option.some.injEq, Prod.mk.injEq]
        constructor
        · rintro ⟨rfl, rfl⟩
          refine .inr ⟨rfl, rfl, fun s' b e => ⟨?_, hex' s' b e⟩⟩
          rintro rfl
          exact hc (List.cons.inj e).1
        · rintro (⟨h1, h2⟩ | ⟨rfl, rfl, _⟩)
          · exact absurd h1 (hex' sc r h2)
          · exact ⟨rfl, rfl⟩

/-! ### The host -/

theorem text25 : text "%25" = [37, 50, 53] := by decide +kernel

theorem take25 {s : Bytes} : s.take 3 = [37, 50, 53] ↔ text "%25" <+: s := by
  rw [text25, List.prefix_iff_eq_take]
  exact eq_comm

theorem cutZone_none_iff {s : Bytes} : cutZone s = none ↔ ¬ text "%25" <:+: s := by
  induction s with
  | nil => simp [cutZone, text25]
  | cons b s ih =>
    rw [List.infix_cons_iff, ← take25]
    simp only [cutZone]
    split
    · next h => simp [h]
    · next h =>
      rw [Option.map_eq_none_iff, ih]
      simp only [h, false_or]

theorem cutZone_some {s a z : Bytes} : cutZone s = some (a, z) ↔
    ∃ y, z = text "%25" ++ y ∧ s = a ++ z ∧ ¬ text "%25" <:+: a := by
  induction s generalizing a z with
  | nil =>
    simp only [cutZone, reduceCtorEq, false_iff]
    rintro ⟨y, rfl, e, _⟩
    rw [text25] at e
    simp at e
  | cons b s ih =>
    simp only [cutZone]
    split
    · next h =>
      obtain ⟨y, hy⟩ := take25.1 h
      constructor
      · intro e; cases e
        exact ⟨y, hy.symm, rfl, by simp [text25]⟩
      · rintro ⟨y', rfl, e, hn⟩
        have : a = [] := by
          rw [text25] at e hn
          rcases a with _ | ⟨x1, _ | ⟨x2, _ | ⟨x3, a⟩⟩⟩
          · rfl
          · rw [e] at h; simp at h
          · rw [e] at h; simp at h
          · rw [e] at h
            simp at h
            obtain ⟨rfl, rfl, rfl⟩ := h
            exact absurd ⟨[], a, rfl⟩ hn
        subst this
        simp at e
        simp [e]
    · next h =>
      simp only [Option.map_eq_some_iff, Prod.mk.injEq, Prod.exists]
      constructor
      · rintro ⟨a', z', h1, rfl, rfl⟩
        obtain ⟨y, h2, h3, h4⟩ := ih.1 h1
        refine ⟨y, h2, by rw [h3]; rfl, ?_⟩
        rw [List.infix_cons_iff]
        rintro (h5 | h5)
        · apply h
          rw [take25, h3]
          exact h5.trans (List.prefix_append (b :: a') z')
        · exact h4 h5
      · rintro ⟨y, h2, h3, h4⟩
        cases a with
        | nil =>
          exfalso; apply h
          rw [take25, h3, h2]
          exact List.prefix_append _ _
        | cons x a =>
          obtain ⟨rfl, h6⟩ := List.cons.inj h3
          exact ⟨a, z, ih.2 ⟨y, h2, h6, fun h5 => h4 (List.infix_cons_iff.2 (.inr h5))⟩, rfl, rfl⟩

theorem optionalPort_iff {s : Bytes} : validOptionalPort s = true ↔ OptionalPort s := by
  unfold OptionalPort
  cases s with
  | nil => simp [validOptionalPort]
  | cons c s =>
    simp only [validOptionalPort, Bool.and_eq_true, beq_iff_eq, List.all_eq_true, reduceCtorEq, false_or, List.cons.injEq,
      digit_iff]
    constructor
    · rintro ⟨h1, h2⟩; exact ⟨s, ⟨h1, rfl⟩, h2⟩
    · rintro ⟨p, ⟨h1, rfl⟩, h2⟩; exact ⟨h1, h2⟩

theorem digits_no {p : Bytes} (h : ∀ d ∈ p, Digit d) {c : UInt8} (hc : ¬ Digit c) : c ∉ p := fun m => hc (h c m)

theorem optionalPort_no {p : Bytes} (h : OptionalPort p) : (93 : UInt8) ∉ p := by
  rcases h with rfl | ⟨q, rfl, hq⟩
  · simp
  · intro m
    rcases List.mem_cons.1 m with e | m
    · cases e
    · exact digits_no hq (by decide) m

theorem parseHost_iff {s h : Bytes} : parseHost s = some h ↔ HostText s h := by
  unfold parseHost
  by_cases hb : s.head? = some 91
  · rw [if_pos hb]
    obtain ⟨t, rfl⟩ : ∃ t, s = 91 :: t := by
      cases s with
      | nil => simp at hb
      | cons x t => simp at hb; exact ⟨t, by rw [hb]⟩
    constructor
    · intro hr
      split at hr
      · cases hr
      · next pre post hc =>
        obtain ⟨he, hno⟩ := cutLast_some.1 hc
        obtain ⟨a, rfl⟩ : ∃ a, pre = 91 :: a := by
          cases pre with
          | nil => cases he
          | cons x a => cases he; exact ⟨a, rfl⟩
        obtain rfl : t = a ++ 93 :: post := by simpa using he
        split at hr
        · cases hr
        · next hv =>
          have hv' := optionalPort_iff.1 (by simpa using hv)
          split at hr
          · next x z hz =>
            obtain ⟨y, rfl, h1, h2⟩ := cutZone_some.1 hz
            obtain ⟨x', rfl⟩ : ∃ x', x = 91 :: x' := by
              cases x with
              | nil => rw [text25] at h1; cases h1
              | cons x x' => cases h1; exact ⟨x', rfl⟩
            obtain rfl : a = x' ++ (text "%25" ++ y) := by simpa using h1
            split at hr
            · next u1 u2 u3 g1 g2 g3 =>
              cases hr
              exact .zone hv' (fun g => h2 (List.infix_cons_iff.2 (.inr g))) (unescape_host_iff.1 g1) (unescape_zone_iff.1 g2)
                (unescape_host_iff.1 g3)
            · cases hr
          · next hz =>
            exact .literal hv' (fun g => cutZone_none_iff.1 hz (List.infix_cons_iff.2 (.inr g))) (unescape_host_iff.1 hr)
    · intro hh
      have hpre : ∀ {a : Bytes}, ¬ text "%25" <:+: a → ¬ text "%25" <:+: (91 :: a) := by
        intro a ha hc
        rcases List.infix_cons_iff.1 hc with hc | hc
        · rw [text25] at hc
          obtain ⟨_, hc⟩ := hc
          cases hc
        · exact ha hc
      generalize hs : (91 :: t : Bytes) = s at hh
      cases hh with
      | @name n p h h1 h2 h3 =>
        rw [hs] at hb; exact absurd hb h1
      | @literal a p h h1 h2 h3 =>
        have hcl : cutLast 93 (91 :: (a ++ 93 :: p)) = some (91 :: a, p) := cutLast_some.2 ⟨rfl, optionalPort_no h1⟩
        rw [hcl]
        simp only [optionalPort_iff.2 h1, Bool.true_eq_false, if_false, cutZone_none_iff.2 (hpre h2)]
        exact unescape_host_iff.2 h3
      | @zone a z p x y w h1 h2 h3 h4 h5 =>
        have hcl : cutLast 93 (91 :: (a ++ (text "%25" ++ z) ++ 93 :: p)) = some (91 :: (a ++ (text "%25" ++ z)), p) :=
          cutLast_some.2 ⟨rfl, optionalPort_no h1⟩
        have hz : cutZone (91 :: (a ++ (text "%25" ++ z))) = some (91 :: a, text "%25" ++ z) :=
          cutZone_some.2 ⟨z, rfl, rfl, hpre h2⟩
        rw [hcl]
        simp only [optionalPort_iff.2 h1, Bool.true_eq_false, if_false, hz, unescape_host_iff.2 h3, unescape_zone_iff.2 h4,
          unescape_host_iff.2 h5]
  · rw [if_neg hb]
    constructor
    · intro hr
      split at hr
      · next pre port hc =>
        obtain ⟨rfl, hno⟩ := cutLast_some.1 hc
        split at hr
        · cases hr
        · next hv =>
          refine .name hb (.inr ?_) (unescape_host_iff.1 hr)
          rcases (optionalPort_iff (s := 58 :: port)).1 (by simpa using hv) with e | ⟨q, e, hq⟩
          · cases e
          · exact ⟨q, e, hq⟩
      · next hc =>
        have := HostText.name (n := s) (p := []) (h := h) (by simpa using hb) (.inl ⟨cutLast_none.1 hc, rfl⟩)
          (by simpa using unescape_host_iff.1 hr)
        simpa using this
    · intro hh
      cases hh with
      | @name n p h h1 h2 h3 =>
        rcases h2 with ⟨h2, rfl⟩ | ⟨q, rfl, hq⟩
        · rw [List.append_nil] at h3 ⊢
          rw [cutLast_none.2 h2]
          exact unescape_host_iff.2 h3
        · have hcl : cutLast 58 (n ++ 58 :: q) = some (n, q) := cutLast_some.2 ⟨rfl, digits_no hq (by decide)⟩
          rw [hcl]
          have : validOptionalPort (58 :: q) = true := optionalPort_iff.2 (.inr ⟨q, rfl, hq⟩)
          simp only [this, Bool.true_eq_false, if_false]
          exact unescape_host_iff.2 h3
      | literal _ _ _ => simp at hb
      | zone _ _ _ _ _ => simp at hb

theorem userByte_iff : ∀ c : UInt8, (isAlpha c || isDigit c ||
    [45, 46, 95, 58, 126, 33, 36, 38, 39, 40, 41, 42, 43, 44, 59, 61, 37, 64].contains c) = true ↔ UserByte c := by
  have : ∀ c : UInt8, (isAlpha c || isDigit c ||
      [45, 46, 95, 58, 126, 33, 36, 38, 39, 40, 41, 42, 43, 44, 59, 61, 37, 64].contains c) = true ↔
      Letter c ∨ Digit c ∨ c ∈ text "-._:~!$&'()*+,;=%@" := by
    apply u8_forall
    decide +kernel
  exact this

theorem validUserinfo_iff {s : Bytes} : validUserinfo s = true ↔ ∀ c ∈ s, UserByte c := by
  unfold validUserinfo
  rw [List.all_eq_true]
  exact forall_congr' fun c => imp_congr_right fun _ => userByte_iff c

theorem parseAuthority_iff {s h : Bytes} : parseAuthority s = some h ↔ AuthorityText s h := by
  unfold parseAuthority
  constructor
  · intro hr
    split at hr
    · next hc => exact .host (cutLast_none.1 hc) (parseHost_iff.1 hr)
    · next user host hc =>
      obtain ⟨rfl, hno⟩ := cutLast_some.1 hc
      split at hr
      · cases hr
      · next x hx =>
        split at hr
        · next hv =>
          cases hr
          rw [Bool.and_eq_true] at hv
          exact .user hno (validUserinfo_iff.1 hv.1) (wellEscaped_iff.1 hv.2) (parseHost_iff.1 hx)
        · cases hr
  · intro hh
    cases hh with
    | host h1 h2 =>
      rw [cutLast_none.2 h1]
      exact parseHost_iff.2 h2
    | @user u s h h1 h2 h3 h4 =>
      have hcl : cutLast 64 (u ++ 64 :: s) = some (u, s) := cutLast_some.2 ⟨rfl, h1⟩
      rw [hcl]
      simp only [parseHost_iff.2 h4, validUserinfo_iff.2 h2, wellEscaped_iff.2 h3, Bool.and_self, if_true]

/-! ### The whole -/

/-- What is done with the part after the scheme and before the query. -/
theorem hier_iff (sc r h : Bytes) :
    (if r.head? ≠ some 47 ∧ sc ≠ [] then some []
      else if r.head? ≠ some 47 ∧ (match cutFirst 47 r with | some p => p.1 | none => r).contains 58 then none
      else if r.take 2 = [47, 47] ∧ (sc ≠ [] ∨ r.take 3 ≠ [47, 47, 47]) then
        match cutFirst 47 (r.drop 2) with
        | some (auth, p) => (parseAuthority auth).bind fun h => if (urlUnescape .other (47 :: p)).isSome then some h else none
        | none => (parseAuthority (r.drop 2)).bind fun h => if (urlUnescape .other []).isSome then some h else none
      else if (urlUnescape .other r).isSome then some [] else none) = some h ↔
    HierText (decide (sc ≠ [])) r h := by
  by_cases h47 : r.head? = some 47
  · obtain ⟨s, rfl⟩ : ∃ s, r = 47 :: s := by
      cases r with
      | nil => simp at h47
      | cons x s => simp at h47; exact ⟨s, by rw [h47]⟩
    rw [if_neg (by simp), if_neg (by simp)]
    by_cases h2 : s.head? = some 47
    · obtain ⟨w, rfl⟩ : ∃ w, s = 47 :: w := by
        cases s with
        | nil => simp at h2
        | cons x s => simp at h2; exact ⟨s, by rw [h2]⟩
      by_cases hc : sc ≠ [] ∨ (47 :: 47 :: w).take 3 ≠ [47, 47, 47]
      · rw [if_pos ⟨by simp, hc⟩]
        simp only [List.drop_succ_cons, List.drop_zero]
        constructor
        · intro hr
          split at hr
          · next a p hf =>
            obtain ⟨rfl, hno⟩ := cutFirst_some.1 hf
            rw [Option.bind_eq_some_iff] at hr
            obtain ⟨x, hx, hy⟩ := hr
            split at hy
            · next hw =>
              cases hy
              refine .authority hno (.inr rfl) ?_ (parseAuthority_iff.1 hx) (wellEscaped_iff.1 hw)
              rcases hc with hc | hc
              · exact .inl (by simpa using hc)
              · refine .inr (.inl ?_)
                rintro rfl
                exact hc rfl
            · cases hy
          · next hf =>
            have hno := cutFirst_none.1 hf
            rw [Option.bind_eq_some_iff] at hr
            obtain ⟨x, hx, hy⟩ := hr
            split at hy
            · next hw =>
              cases hy
              have := HierText.authority (b := decide (sc ≠ [])) (p := []) hno (.inl rfl) (.inr (.inr rfl))
                (parseAuthority_iff.1 hx) (wellEscaped_iff.1 hw)
              simpa using this
            · cases hy
        · intro hh
          generalize hb : decide (sc ≠ []) = b at hh
          generalize hs : (47 :: 47 :: w : Bytes) = s at hh
          cases hh with
          | bare h1 => subst hs; simp at h1
          | relative h1 => subst hs; simp at h1
          | rooted h1 => cases hs; simp at h1
          | slashes h1 =>
            cases hs
            rcases hc with hc | hc
            · simp [hc] at hb
            · simp at hc
          | @authority b a p h h1 h3 h4 h5 h6 =>
            cases hs
            cases p with
            | nil =>
              rw [List.append_nil, cutFirst_none.2 h1]
              simp only [parseAuthority_iff.2 h5, Option.bind_some, wellEscaped_iff.2 h6, if_true]
            | cons x p =>
              obtain rfl : x = 47 := by simpa using h3
              rw [cutFirst_some.2 ⟨rfl, h1⟩]
              simp only [parseAuthority_iff.2 h5, Option.bind_some, wellEscaped_iff.2 h6, if_true]
      · rw [if_neg (fun e => hc e.2)]
        rw [not_or, Decidable.not_not, Decidable.not_not] at hc
        obtain ⟨rfl, hc⟩ := hc
        obtain ⟨v, rfl⟩ : ∃ v, w = 47 :: v := by
          cases w with
          | nil => simp at hc
          | cons x s => simp at hc; exact ⟨s, by rw [hc]⟩
        constructor
        · intro hr
          split at hr
          · next hw =>
            cases hr
            rw [wellEscaped_iff, wellEscaped_cons (by decide), wellEscaped_cons (by decide), wellEscaped_cons (by decide)] at hw
            exact .slashes hw
          · cases hr
        · intro hh
          generalize hs : (47 :: 47 :: 47 :: v : Bytes) = s at hh
          cases hh with
          | relative h1 => subst hs; simp at h1
          | rooted h1 => cases hs; simp at h1
          | slashes h1 =>
            cases hs
            rw [if_pos]
            rw [wellEscaped_iff, wellEscaped_cons (by decide), wellEscaped_cons (by decide), wellEscaped_cons (by decide)]
            exact h1
          | @authority b a p h h1 h3 h4 h5 h6 =>
            exfalso
            cases a with
            | nil =>
              rcases h4 with h4 | h4 | rfl
              · simp at h4
              · exact h4 rfl
              · cases hs
            | cons x a =>
              cases hs
              simp at h1
    · rw [if_neg (by
        rintro ⟨e, _⟩
        cases s with
        | nil => simp at e
        | cons x s => simp at e h2; exact h2 e)]
      constructor
      · intro hr
        split at hr
        · next hw =>
          cases hr
          rw [wellEscaped_iff, wellEscaped_cons (by decide)] at hw
          exact .rooted h2 hw
        · cases hr
      · intro hh
        generalize decide (sc ≠ []) = b at hh
        generalize hs : (47 :: s : Bytes) = s' at hh
        cases hh with
        | bare h1 => subst hs; simp at h1
        | relative h1 => subst hs; simp at h1
        | rooted h1 h3 =>
          cases hs
          rw [if_pos]
          rw [wellEscaped_iff, wellEscaped_cons (by decide)]
          exact h3
        | slashes => cases hs; simp at h2
        | authority => cases hs; simp at h2
  · by_cases hsc : sc = []
    · subst hsc
      rw [if_neg (by simp)]
      have hcol : (r.head? ≠ some 47 ∧ (match cutFirst 47 r with | some p => p.1 | none => r).contains 58 = true) ↔
          ¬ ∀ a b, r = a ++ 58 :: b → 47 ∈ a := by
        constructor
        · rintro ⟨-, hc⟩ hall
          cases hf : cutFirst 47 r with
          | none =>
            rw [hf] at hc
            simp only [List.contains_iff_mem] at hc
            obtain ⟨a, b, rfl⟩ := List.append_of_mem hc
            exact cutFirst_none.1 hf (List.mem_append_left _ (hall a b rfl))
          | some q =>
            obtain ⟨a, b⟩ := q
            rw [hf] at hc
            simp only [List.contains_iff_mem] at hc
            obtain ⟨rfl, hno⟩ := cutFirst_some.1 hf
            obtain ⟨a1, a2, rfl⟩ := List.append_of_mem hc
            exact hno (List.mem_append_left _ (hall a1 (a2 ++ 47 :: b) (by simp)))
        · intro hn
          refine ⟨h47, ?_⟩
          simp only [Classical.not_forall] at hn
          obtain ⟨a, b, rfl, hno⟩ := hn
          cases hf : cutFirst 47 (a ++ 58 :: b) with
          | none => simp
          | some q =>
            obtain ⟨c, d⟩ := q
            simp only [List.contains_iff_mem]
            obtain ⟨e, -⟩ := cutFirst_some.1 hf
            rcases List.append_eq_append_iff.1 e with ⟨x, rfl, e2⟩ | ⟨x, rfl, e2⟩
            · cases x with
              | nil => cases e2
              | cons y x => cases e2; simp
            · cases x with
              | nil => cases e2
              | cons y x =>
                cases e2
                exact absurd (by simp) hno
      have ht : ¬ (r.take 2 = [47, 47] ∧ (([] : Bytes) ≠ [] ∨ r.take 3 ≠ [47, 47, 47])) := by
        rintro ⟨e, _⟩
        cases r with
        | nil => simp at e
        | cons x s => simp at h47; simp at e; exact h47 e.1
      rw [if_neg ht]
      by_cases hc : ∀ a b, r = a ++ 58 :: b → 47 ∈ a
      · rw [if_neg (fun e => hcol.1 e hc)]
        constructor
        · intro hr
          split at hr
          · next hw => cases hr; exact .relative h47 hc (wellEscaped_iff.1 hw)
          · cases hr
        · intro hh
          cases hh with
          | relative _ _ h3 => rw [if_pos (wellEscaped_iff.2 h3)]
          | rooted => simp at h47
          | slashes => simp at h47
          | authority => simp at h47
      · rw [if_pos (hcol.2 hc)]
        simp only [reduceCtorEq, false_iff]
        intro hh
        cases hh with
        | relative _ h2 _ => exact hc h2
        | rooted => simp at h47
        | slashes => simp at h47
        | authority => simp at h47
    · rw [if_pos ⟨h47, hsc⟩]
      have hd : decide (sc ≠ []) = true := by simpa using hsc
      rw [hd]
      constructor
      · intro hr; cases hr; exact .bare h47
      · intro hh
        cases hh with
        | bare _ => rfl
        | rooted => simp at h47
        | authority => simp at h47

/-- What is before the query. -/
def beforeQuery (s : Bytes) : Bytes := match cutFirst 63 s with | some p => p.1 | none => s

theorem query_cut (rest : Bytes) : ∃ q, rest = beforeQuery rest ++ q ∧
    63 ∉ beforeQuery rest ∧ (q = [] ∨ q.head? = some 63) := by
  unfold beforeQuery
  cases hf : cutFirst 63 rest with
  | none => exact ⟨[], by simp, cutFirst_none.1 hf, .inl rfl⟩
  | some p =>
    obtain ⟨a, b⟩ := p
    obtain ⟨e, hno⟩ := cutFirst_some.1 hf
    exact ⟨63 :: b, e, hno, .inr rfl⟩

theorem query_cut_eq {r q : Bytes} (h1 : 63 ∉ r) (h2 : q = [] ∨ q.head? = some 63) :
    beforeQuery (r ++ q) = r := by
  unfold beforeQuery
  cases q with
  | nil => rw [List.append_nil, cutFirst_none.2 h1]
  | cons x q =>
    obtain rfl : x = 63 := by simpa using h2
    rw [cutFirst_some.2 ⟨rfl, h1⟩]

theorem parseUrl_iff {v h : Bytes} : parseUrl v = some h ↔ (∀ c ∈ v, 32 ≤ c ∧ c ≠ 127) ∧ NoFragment v h := by
  have hany : v.any (fun c => decide (c < 32) || c == 127) = true ↔ ¬ ∀ c ∈ v, 32 ≤ c ∧ c ≠ 127 := by
    rw [List.any_eq_true]
    constructor
    · rintro ⟨c, hc, hb⟩ hall
      obtain ⟨h1, h2⟩ := hall c hc
      simp only [Bool.or_eq_true, decide_eq_true_eq, beq_iff_eq] at hb
      rcases hb with hb | hb
      · exact absurd hb (UInt8.not_lt.2 h1)
      · exact h2 hb
    · intro hn
      simp only [Classical.not_forall] at hn
      obtain ⟨c, hc, hb⟩ := hn
      refine ⟨c, hc, ?_⟩
      simp only [Bool.or_eq_true, decide_eq_true_eq, beq_iff_eq]
      rcases Classical.em (c = 127) with e | e
      · exact .inr e
      · exact .inl (UInt8.not_le.1 fun e' => hb ⟨e', e⟩)
  unfold parseUrl
  by_cases hctl : ∀ c ∈ v, 32 ≤ c ∧ c ≠ 127
  · rw [if_neg (fun e => hany.1 e hctl)]
    rw [and_iff_right hctl]
    by_cases hst : v = [42]
    · subst hst
      rw [if_pos rfl]
      constructor
      · intro e; cases e
        refine .noScheme (r := [42]) (q := []) (by decide) (.inl rfl) (fun s b e => ?_)
          (.relative (by decide) (fun a b e => ?_) ⟨[42], .plain (by decide) trivial .nil⟩)
        · rcases s with _ | ⟨x, _ | ⟨y, s⟩⟩ <;> cases e
        · rcases a with _ | ⟨x, _ | ⟨y, s⟩⟩ <;> cases e
      · intro hh
        generalize hs : ([42] : Bytes) = s at hh
        cases hh with
        | @scheme s r q h h1 =>
          exfalso
          obtain ⟨c, t, rfl, hl, -⟩ := h1
          obtain rfl : (42 : UInt8) = c := (List.cons.inj hs).1
          revert hl; unfold Letter; decide
        | @noScheme r q h h1 h2 h3 h4 =>
          have : r = [42] := by
            cases r with
            | nil => simp at hs; rw [← hs] at h2; simp at h2
            | cons x r =>
              simp only [List.cons_append, List.cons.injEq] at hs
              obtain ⟨rfl, e⟩ := hs
              rw [(List.append_eq_nil_iff.1 e.symm).1]
          subst this
          cases h4 with
          | relative => rfl
    · rw [if_neg hst]
      constructor
      · intro hr
        split at hr
        · cases hr
        · next sc rest hg =>
          obtain ⟨q, e1, e2, e3⟩ := query_cut rest
          have hh := (hier_iff sc (beforeQuery rest) h).1 hr
          rcases getScheme_iff.1 hg with ⟨hw, rfl⟩ | ⟨rfl, rfl, hn⟩
          · rw [e1]
            refine .scheme hw e2 e3 ?_
            simpa [schemeWord_ne hw] using hh
          · rw [e1] at hn ⊢
            exact .noScheme e2 e3 hn (by simpa using hh)
      · intro hh
        cases hh with
        | @scheme s r q h h1 h2 h3 h4 =>
          rw [getScheme_iff.2 (.inl ⟨h1, rfl⟩)]
          exact (hier_iff s (beforeQuery (r ++ q)) h).2 (by simpa [schemeWord_ne h1, query_cut_eq h2 h3] using h4)
        | @noScheme r q h h1 h2 h3 h4 =>
          rw [getScheme_iff.2 (.inr ⟨rfl, rfl, h3⟩)]
          exact (hier_iff [] (beforeQuery (r ++ q)) h).2 (by simpa [query_cut_eq h1 h2] using h4)
  · rw [if_pos (hany.2 hctl)]
    simp [hctl]

theorem urlHost_iff {u h : Bytes} : urlHost u = some h ↔ UrlText u h := by
  unfold urlHost
  constructor
  · intro hr
    split at hr
    · next hf =>
      obtain ⟨h1, h2⟩ := parseUrl_iff.1 hr
      exact ⟨u, [], by simp, cutFirst_none.1 hf, h1, h2, .inl rfl⟩
    · next v f hf =>
      obtain ⟨e, hno⟩ := cutFirst_some.1 hf
      rw [Option.bind_eq_some_iff] at hr
      obtain ⟨x, hx, hy⟩ := hr
      split at hy
      · next hw =>
        cases hy
        obtain ⟨h1, h2⟩ := parseUrl_iff.1 hx
        exact ⟨v, 35 :: f, e, hno, h1, h2, .inr ⟨f, rfl, wellEscaped_iff.1 hw⟩⟩
      · cases hy
  · rintro ⟨v, f, rfl, hno, h1, h2, rfl | ⟨g, rfl, h3⟩⟩
    · rw [List.append_nil, cutFirst_none.2 hno]
      exact parseUrl_iff.2 ⟨h1, h2⟩
    · rw [cutFirst_some.2 ⟨rfl, hno⟩]
      simp only [parseUrl_iff.2 ⟨h1, h2⟩, Option.bind_some, wellEscaped_iff.2 h3, if_true]

end Horcrux
