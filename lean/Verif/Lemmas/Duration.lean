import Verif.Model.Duration
import Verif.Spec.Duration
/-
The model of `time.ParseDuration` reads exactly the texts of durations.
-/
namespace Horcrux
open Spec

theorem durDigit_iff (c : UInt8) : isDigit c = true ↔ Digit c := by simp [isDigit, Digit]

theorem unitOf_iff (u : Str) (n : Nat) : unitOf u = some n ↔ UnitName u n := by
  constructor
  · intro h
    unfold unitOf at h
    split at h
    · rename_i e; cases h; subst e; exact .nano
    split at h
    · rename_i _ e
      cases h
      rcases e with rfl | rfl | rfl
      · exact .us
      · exact .micro
      · exact .mu
    split at h
    · rename_i e; cases h; subst e; exact .milli
    split at h
    · rename_i e; cases h; subst e; exact .second
    split at h
    · rename_i e; cases h; subst e; exact .minute
    split at h
    · rename_i e; cases h; subst e; exact .hour
    · cases h
  · intro h
    cases h <;> decide +kernel

theorem unit_size {u : Str} {n : Nat} (h : UnitName u n) : 0 < n := by cases h <;> decide

theorem unit_bytes {u : Str} {n : Nat} (h : UnitName u n) : u ≠ [] ∧ ∀ c ∈ u, numByte c = false := by
  cases h <;> decide +kernel

/-- The value of digits, continuing from `x`. -/
def decFrom (x : Nat) (ds : Str) : Nat := ds.foldl (fun a c => a * 10 + (c.toNat - 48)) x

theorem decFrom_zero (ds : Str) : decFrom 0 ds = decValue ds := rfl

theorem decFrom_le (ds : Str) : ∀ x, x ≤ decFrom x ds := by
  induction ds with
  | nil => intro x; exact Nat.le_refl _
  | cons c ds ih =>
    intro x
    have := ih (x * 10 + (c.toNat - 48))
    simp only [decFrom, List.foldl_cons] at this ⊢
    omega

/-- Does not begin with a digit. -/
def NoDigit (s : Str) : Prop := ∀ c, s.head? = some c → isDigit c = false

theorem leadingInt_eq (rest : Str) (hr : NoDigit rest) : ∀ (ds : Str) (x : Nat), (∀ c ∈ ds, Digit c) → x < 2 ^ 63 →
    leadingInt x (ds ++ rest) = if decFrom x ds < 2 ^ 63 then some (decFrom x ds, rest) else none := by
  intro ds
  induction ds with
  | nil =>
    intro x _ hx
    rw [List.nil_append, show decFrom x [] = x from rfl, if_pos hx]
    cases rest with
    | nil => rfl
    | cons c s => simp [leadingInt, hr c rfl]
  | cons c ds ih =>
    intro x hd hx
    have hc := (durDigit_iff c).2 (hd c (by simp))
    have hle := decFrom_le ds (x * 10 + (c.toNat - 48))
    have hcons : decFrom x (c :: ds) = decFrom (x * 10 + (c.toNat - 48)) ds := rfl
    simp only [List.cons_append, leadingInt, hc, if_true, hcons]
    split
    · rw [if_neg (by omega)]
    · split
      · rw [if_neg (by omega)]
      · exact ih _ (fun d h => hd d (by simp [h])) (by omega)

theorem leadingFraction_over (rest : Str) (hr : NoDigit rest) : ∀ (ds : Str) (x k : Nat), (∀ c ∈ ds, Digit c) →
    leadingFraction x k true (ds ++ rest) = (x, k, rest) := by
  intro ds
  induction ds with
  | nil =>
    intro x k _
    cases rest with
    | nil => rfl
    | cons c s => simp [leadingFraction, hr c rfl]
  | cons c ds ih =>
    intro x k hd
    simp only [List.cons_append, leadingFraction, (durDigit_iff c).2 (hd c (by simp)), if_true]
    exact ih x k fun d h => hd d (by simp [h])

/-- `p` is the longest beginning of `ds` that continues `x` to a 64-bit integer. -/
def KeptFrom (x : Nat) (ds p : Str) : Prop :=
  p <+: ds ∧ decFrom x p < 2 ^ 63 ∧ ∀ q, q <+: ds → decFrom x q < 2 ^ 63 → q.length ≤ p.length

theorem leadingFraction_eq (rest : Str) (hr : NoDigit rest) : ∀ (ds : Str) (x k : Nat), (∀ c ∈ ds, Digit c) → x < 2 ^ 63 →
    ∃ p, KeptFrom x ds p ∧ leadingFraction x k false (ds ++ rest) = (decFrom x p, k + p.length, rest) := by
  intro ds
  induction ds with
  | nil =>
    intro x k _ hx
    refine ⟨[], ⟨List.prefix_refl _, hx, fun q hq _ => by simp [List.prefix_nil.1 hq]⟩, ?_⟩
    cases rest with
    | nil => rfl
    | cons c s => simp [leadingFraction, hr c rfl, decFrom]
  | cons c ds ih =>
    intro x k hd hx
    have hc := (durDigit_iff c).2 (hd c (by simp))
    have hds : ∀ d ∈ ds, Digit d := fun d h => hd d (by simp [h])
    have stop : 2 ^ 63 ≤ x * 10 + (c.toNat - 48) → KeptFrom x (c :: ds) [] := by
      intro hbig
      refine ⟨List.nil_prefix, hx, fun q hq hv => ?_⟩
      cases q with
      | nil => exact Nat.le_refl _
      | cons d q =>
        obtain ⟨rfl, _⟩ := List.cons_prefix_cons.1 hq
        have := decFrom_le q (x * 10 + (d.toNat - 48))
        have e : decFrom x (d :: q) = decFrom (x * 10 + (d.toNat - 48)) q := rfl
        omega
    simp only [List.cons_append, leadingFraction, hc, if_true, Bool.false_eq_true, if_false]
    split
    · exact ⟨[], stop (by omega), by rw [leadingFraction_over rest hr ds x k hds]; rfl⟩
    · split
      · exact ⟨[], stop (by omega), by rw [leadingFraction_over rest hr ds x k hds]; rfl⟩
      · obtain ⟨p, ⟨h1, h2, h3⟩, h4⟩ := ih (x * 10 + (c.toNat - 48)) (k + 1) hds (by omega)
        refine ⟨c :: p, ⟨List.cons_prefix_cons.2 ⟨rfl, h1⟩, h2, fun q hq hv => ?_⟩, ?_⟩
        · cases q with
          | nil => simp
          | cons d q =>
            obtain ⟨rfl, hq'⟩ := List.cons_prefix_cons.1 hq
            have := h3 q hq' hv
            simpa using this
        · rw [h4, List.length_cons, show k + 1 + p.length = k + (p.length + 1) by omega]
          rfl

theorem kept_unique {ds p q : Str} (hp : Kept ds p) (hq : Kept ds q) : p = q := by
  have h : p.length = q.length := Nat.le_antisymm (hq.2.2 p hp.1 hp.2.1) (hp.2.2 q hq.1 hq.2.1)
  exact (List.prefix_of_prefix_length_le hp.1 hq.1 (by omega)).eq_of_length h

/-- The text of the part after the point. -/
def partText : Option Str → Str
  | none => []
  | some p => 46 :: p

/-- The part after the point, the way `durTerm` takes it: value, digits, whether there are any. -/
def PartIs : Option Str → Nat → Nat → Bool → Prop
  | none, f, k, post => f = 0 ∧ k = 0 ∧ post = false
  | some ds, f, k, post => ∃ p, Kept ds p ∧ f = decValue p ∧ k = p.length ∧ post = decide (ds ≠ [])

theorem fraction_eq (part : Option Str) (tail : Str) (hp : ∀ p, part = some p → ∀ c ∈ p, Digit c) (ht : NoDigit tail)
    (hd : part = none → tail.head? ≠ some 46) :
    ∃ f k post, PartIs part f k post ∧ fraction (partText part ++ tail) = (f, k, post, tail) := by
  cases part with
  | none =>
    refine ⟨0, 0, false, ⟨rfl, rfl, rfl⟩, ?_⟩
    cases tail with
    | nil => rfl
    | cons c s =>
      have : c ≠ 46 := fun e => hd rfl (by rw [e]; rfl)
      simp [partText, fraction, this]
  | some ds =>
    obtain ⟨p, h1, h2⟩ := leadingFraction_eq tail ht ds 0 0 (hp ds rfl) (by decide)
    refine ⟨decValue p, p.length, decide (ds ≠ []), ⟨p, h1, rfl, rfl, rfl⟩, ?_⟩
    simp only [partText, List.cons_append, fraction, if_true, h2, decFrom_zero, Nat.zero_add, List.length_append]
    congr 3
    have : (ds.length + tail.length ≠ tail.length) ↔ ds ≠ [] := by
      rw [ne_eq, ne_eq, ← List.length_eq_zero_iff]
      omega
    simp only [this]

/-- The pass of the loop on a text taken apart. -/
theorem durTerm_eq (fr : Nat → Nat → Nat → Nat) (whole : Str) (part : Option Str) (tail : Str) (hw : ∀ c ∈ whole, Digit c)
    (hp : ∀ p, part = some p → ∀ c ∈ p, Digit c) (ht : NoDigit tail) (hd : part = none → tail.head? ≠ some 46) (w : Nat)
    (rest : Str) :
    durTerm fr (whole ++ (partText part ++ tail)) = some (w, rest) ↔
    ∃ f k post, PartIs part f k post ∧ (whole ≠ [] ∨ post = true) ∧ ∃ n, UnitName (tail.takeWhile fun c => !numByte c) n ∧
      w = decValue whole * n + (if f = 0 then 0 else fr f n k) ∧ w < 2 ^ 63 ∧ rest = tail.dropWhile fun c => !numByte c := by
  obtain ⟨f, k, post, hP, hf⟩ := fraction_eq part tail hp ht hd
  have huniq : ∀ f' k' post', PartIs part f' k' post' → f' = f ∧ k' = k ∧ post' = post := by
    intro f' k' post' h
    cases part with
    | none =>
      obtain ⟨rfl, rfl, rfl⟩ := h
      obtain ⟨rfl, rfl, rfl⟩ := hP
      exact ⟨rfl, rfl, rfl⟩
    | some ds =>
      obtain ⟨p, h1, rfl, rfl, rfl⟩ := h
      obtain ⟨q, h2, rfl, rfl, rfl⟩ := hP
      rw [kept_unique h1 h2]
      exact ⟨rfl, rfl, rfl⟩
  have hnd : NoDigit (partText part ++ tail) := by
    cases part with
    | none => exact ht
    | some p => intro c hc; simp [partText] at hc; subst hc; decide
  have hhead : (whole ≠ [] ∨ post = true) →
      ((whole ++ (partText part ++ tail)).head?.map numByte).getD false = true := by
    intro h
    cases whole with
    | cons c s => simp [numByte, (durDigit_iff c).2 (hw c (by simp))]
    | nil =>
      cases part with
      | none => obtain ⟨_, _, rfl⟩ := hP; simp at h
      | some p => simp [partText, numByte]
  have hlen : (whole ++ (partText part ++ tail)).length = (partText part ++ tail).length ↔ whole = [] := by
    rw [List.length_append, ← List.length_eq_zero_iff]
    omega
  have hli := leadingInt_eq (partText part ++ tail) hnd whole 0 hw (by decide)
  rw [decFrom_zero] at hli
  constructor
  · intro h
    unfold durTerm at h
    split at h
    · cases h
    rw [hli] at h
    split at h
    · cases h
    rename_i v s1 hv
    split at hv
    · cases hv
      simp only [hf] at h
      split at h
      · cases h
      rename_i hdig
      split at h
      · cases h
      split at h
      · cases h
      rename_i unit hu
      split at h
      · cases h
      rw [show (if f > 0 then fr f unit k else 0) = if f = 0 then 0 else fr f unit k by
        by_cases h0 : f = 0
        · simp [h0]
        · simp [h0, Nat.pos_of_ne_zero h0]] at h
      generalize hW : decValue whole * unit + (if f = 0 then 0 else fr f unit k) = W at h
      by_cases hlt : W ≥ 2 ^ 63
      · rw [if_pos hlt] at h; cases h
      rw [if_neg hlt] at h
      cases h
      refine ⟨f, k, post, hP, ?_, unit, (unitOf_iff _ _).1 hu, hW.symm, by omega, rfl⟩
      · by_cases hw0 : whole = []
        · right
          cases post with
          | true => rfl
          | false => exact absurd ⟨hlen.2 hw0, rfl⟩ hdig
        · exact .inl hw0
    · cases hv
  · rintro ⟨f', k', post', hP', hdig, n, hu, rfl, hlt, rfl⟩
    obtain ⟨rfl, rfl, rfl⟩ := huniq f' k' post' hP'
    have hn := unit_size hu
    have hvn : decValue whole * n < 2 ^ 63 := Nat.lt_of_le_of_lt (Nat.le_add_right _ _) hlt
    have hv : decValue whole < 2 ^ 63 := Nat.lt_of_le_of_lt (Nat.le_mul_of_pos_right _ hn) hvn
    unfold durTerm
    rw [if_neg (by rw [hhead hdig]; simp), hli, if_pos hv]
    simp only [hf]
    rw [if_neg (by rintro ⟨h1, h2⟩; rcases hdig with h | h; exact h (hlen.1 h1); rw [h2] at h; cases h),
      if_neg (unit_bytes hu).1, (unitOf_iff _ _).2 hu]
    simp only
    have h1 : ¬ decValue whole > (2 ^ 63 - 1) / n := by
      intro h
      have := (Nat.div_lt_iff_lt_mul hn).1 h
      omega
    have h2 : (if f' > 0 then fr f' n k' else 0) = if f' = 0 then 0 else fr f' n k' := by
      by_cases h0 : f' = 0
      · simp [h0]
      · simp [h0, Nat.pos_of_ne_zero h0]
    rw [if_neg h1, h2, if_neg (by omega)]

/-- Is empty or begins with a digit or a point. -/
def NumHead (s : Str) : Prop := ∀ c, s.head? = some c → numByte c = true

theorem dropWhile_head (p : UInt8 → Bool) (s : Str) : ∀ c, (s.dropWhile p).head? = some c → p c = false := by
  induction s with
  | nil => simp
  | cons d s ih =>
    intro c hc
    rw [List.dropWhile_cons] at hc
    split at hc
    · exact ih c hc
    · rename_i h
      simp at hc
      subst hc
      simpa using h

theorem takeWhile_mem (p : UInt8 → Bool) (s : Str) : ∀ c ∈ s.takeWhile p, p c = true := by
  induction s with
  | nil => simp
  | cons d s ih =>
    intro c hc
    rw [List.takeWhile_cons] at hc
    split at hc
    · rcases List.mem_cons.1 hc with rfl | h
      · assumption
      · exact ih c h
    · cases hc

/-- Every text can be taken apart. -/
theorem split_text (s : Str) : ∃ whole part tail, s = whole ++ (partText part ++ tail) ∧ (∀ c ∈ whole, Digit c) ∧
    (∀ p, part = some p → ∀ c ∈ p, Digit c) ∧ NoDigit tail ∧ (part = none → tail.head? ≠ some 46) := by
  have hmem : ∀ (s : Str), ∀ c ∈ s.takeWhile isDigit, Digit c := fun s c hc => (durDigit_iff c).1 (takeWhile_mem isDigit s c hc)
  have hs : s = s.takeWhile isDigit ++ s.dropWhile isDigit := List.takeWhile_append_dropWhile.symm
  cases hr : s.dropWhile isDigit with
  | nil => exact ⟨s.takeWhile isDigit, none, [], by rw [hr] at hs; simpa [partText] using hs, hmem s, by simp, by simp [NoDigit], by simp⟩
  | cons c r =>
    by_cases hc : c = 46
    · refine ⟨s.takeWhile isDigit, some (r.takeWhile isDigit), r.dropWhile isDigit, ?_, hmem s, ?_, dropWhile_head _ _, by simp⟩
      · simp only [partText, List.cons_append, List.takeWhile_append_dropWhile]
        rw [← hc, ← hr]
        exact hs
      · intro p hp
        cases hp
        exact hmem r
    · refine ⟨s.takeWhile isDigit, none, c :: r, by rw [hr] at hs; simpa [partText] using hs, hmem s, by simp, ?_, by simp [hc]⟩
      rw [← hr]
      exact dropWhile_head _ _

theorem value_iff (fr : Nat → Nat → Nat → Nat) (t : DurTerm) (v : Nat) :
    t.Value fr v ↔ ∃ f k post, PartIs t.part f k post ∧ v = decValue t.whole * t.size + if f = 0 then 0 else fr f t.size k := by
  unfold DurTerm.Value
  cases t.part with
  | none =>
    simp only [PartIs]
    constructor
    · rintro rfl
      exact ⟨0, 0, false, ⟨rfl, rfl, rfl⟩, by simp⟩
    · rintro ⟨_, _, _, ⟨rfl, rfl, rfl⟩, h⟩
      simpa using h
  | some ds =>
    simp only [PartIs]
    constructor
    · rintro ⟨p, h1, h2⟩
      exact ⟨_, _, _, ⟨p, h1, rfl, rfl, rfl⟩, h2⟩
    · rintro ⟨_, _, _, ⟨p, h1, rfl, rfl, rfl⟩, h2⟩
      exact ⟨p, h1, h2⟩

theorem durDigits_iff {t : DurTerm} {f k : Nat} {post : Bool} (h : PartIs t.part f k post) :
    post = true ↔ ∃ p, t.part = some p ∧ p ≠ [] := by
  cases hp : t.part with
  | none => rw [hp] at h; obtain ⟨_, _, rfl⟩ := h; simp
  | some ds => rw [hp] at h; obtain ⟨_, _, _, _, rfl⟩ := h; simp

/-- A pass of the loop reads exactly one term. -/
theorem durTerm_iff (fr : Nat → Nat → Nat → Nat) (s : Str) (w : Nat) (rest : Str) :
    durTerm fr s = some (w, rest) ↔ ∃ t : DurTerm, t.Ok ∧ t.Value fr w ∧ w < 2 ^ 63 ∧ s = t.text ++ rest ∧ NumHead rest := by
  constructor
  · intro h
    obtain ⟨whole, part, tail, rfl, hw, hp, ht, hd⟩ := split_text s
    obtain ⟨f, k, post, hP, hdig, n, hu, hv, hlt, rfl⟩ := (durTerm_eq fr whole part tail hw hp ht hd w rest).1 h
    refine ⟨⟨whole, part, tail.takeWhile fun c => !numByte c, n⟩, ⟨hw, hp, ?_, hu⟩, (value_iff fr _ w).2 ⟨f, k, post, hP, hv⟩, hlt,
      ?_, ?_⟩
    · rcases hdig with h | h
      · exact .inl h
      · exact .inr ((durDigits_iff (t := ⟨whole, part, [], n⟩) hP).1 h)
    · cases part <;> simp [DurTerm.text, partText, List.takeWhile_append_dropWhile]
    · intro c hc
      simpa using dropWhile_head _ _ c hc
  · rintro ⟨t, ⟨hw, hp, hdig, hu⟩, hv, hlt, rfl, hr⟩
    obtain ⟨f, k, post, hP, hv⟩ := (value_iff fr t w).1 hv
    obtain ⟨hne, hub⟩ := unit_bytes hu
    have htake : (t.unit ++ rest).takeWhile (fun c => !numByte c) = t.unit := by
      rw [List.takeWhile_append_of_pos (fun c hc => by simp [hub c hc])]
      cases rest with
      | nil => simp
      | cons c r => simp [hr c rfl]
    have hdrop : (t.unit ++ rest).dropWhile (fun c => !numByte c) = rest := by
      rw [List.dropWhile_append_of_pos (fun c hc => by simp [hub c hc])]
      cases rest with
      | nil => simp
      | cons c r => simp [hr c rfl]
    have hhead : ∀ c, (t.unit ++ rest).head? = some c → numByte c = false := by
      intro c hc
      cases hu' : t.unit with
      | nil => exact absurd hu' hne
      | cons d u =>
        rw [hu'] at hc
        simp at hc
        subst hc
        exact hub _ (by simp [hu'])
    have htext : t.text ++ rest = t.whole ++ (partText t.part ++ (t.unit ++ rest)) := by
      unfold DurTerm.text
      cases t.part <;> simp [partText]
    rw [htext]
    refine (durTerm_eq fr t.whole t.part (t.unit ++ rest) hw hp ?_ ?_ w rest).2
      ⟨f, k, post, hP, ?_, t.size, by rw [htake]; exact hu, hv, hlt, hdrop.symm⟩
    · intro c hc
      have := hhead c hc
      simp [numByte] at this
      exact this.2
    · intro _ hc
      have := hhead 46 hc
      simp [numByte] at this
    · rcases hdig with h | h
      · exact .inl h
      · exact .inr ((durDigits_iff hP).2 h)

theorem text_head {t : DurTerm} (h : t.Ok) (s : Str) : t.text ++ s ≠ [] ∧ NumHead (t.text ++ s) := by
  obtain ⟨hw, hp, hdig, hu⟩ := h
  unfold DurTerm.text
  cases hwh : t.whole with
  | cons c w =>
    refine ⟨by simp, ?_⟩
    intro d hd
    simp at hd
    subst hd
    simp [numByte, (durDigit_iff c).2 (hw c (by simp [hwh]))]
  | nil =>
    rcases hdig with h | ⟨p, h, _⟩
    · exact absurd hwh h
    · rw [h]
      refine ⟨by simp, ?_⟩
      intro d hd
      simp at hd
      subst hd
      rfl

theorem durText_head {fr : Nat → Nat → Nat → Nat} {s : Str} {d : Nat} (h : DurText fr s d) : s ≠ [] ∧ NumHead s := by
  cases h with
  | one t v h1 _ => simpa using text_head h1 []
  | more t v s d h1 _ _ => exact text_head h1 s

theorem term_length {t : DurTerm} (h : t.Ok) : 0 < t.text.length := by
  have := (text_head h []).1
  simp at this
  exact List.length_pos_iff.2 this

theorem durTerms_iff (fr : Nat → Nat → Nat → Nat) : ∀ (fuel : Nat) (s : Str) (d e : Nat), s.length ≤ fuel → s ≠ [] →
    (durTerms fr fuel d s = some e ↔ ∃ n, DurText fr s n ∧ e = d + n ∧ e < 2 ^ 63) := by
  intro fuel
  induction fuel with
  | zero => intro s d e h hne; exact absurd (List.length_eq_zero_iff.1 (Nat.le_zero.1 h)) hne
  | succ fuel ih =>
    intro s d e hlen hne
    cases s with
    | nil => exact absurd rfl hne
    | cons c s =>
      have key : ∀ (t : DurTerm) (w : Nat) (rest : Str), t.Ok → c :: s = t.text ++ rest → rest.length ≤ fuel := by
        intro t w rest hok he
        have h1 := congrArg List.length he
        have h2 := term_length hok
        simp at h1
        simp at hlen
        omega
      constructor
      · intro h
        rw [durTerms] at h
        split at h
        · cases h
        · rename_i w rest hw
          split at h
          · cases h
          · rename_i hlt
            obtain ⟨t, hok, hv, _, he, _⟩ := (durTerm_iff fr _ w rest).1 hw
            cases rest with
            | nil =>
              have : e = d + w := by
                cases fuel <;> simp [durTerms] at h <;> exact h.symm
              rw [List.append_nil] at he
              rw [he]
              exact ⟨w, .one t w hok hv, this, by omega⟩
            | cons b r =>
              obtain ⟨n, h1, h2, h3⟩ := (ih (b :: r) (d + w) e (key t w _ hok he) (by simp)).1 h
              rw [he]
              exact ⟨w + n, .more t w _ n hok hv h1, by omega, h3⟩
      · rintro ⟨n, hn, rfl, hlt⟩
        rw [durTerms]
        generalize hcs : c :: s = cs at hn
        cases hn with
        | one t v hok hv =>
          have hterm := (durTerm_iff fr (c :: s) n []).2 ⟨t, hok, hv, by omega, by simpa using hcs, by simp [NumHead]⟩
          rw [hcs] at hterm
          rw [hterm]
          simp only
          rw [if_neg (by omega)]
          cases fuel <;> rfl
        | more t v r m hok hv hr =>
          have hh := durText_head hr
          have hterm := (durTerm_iff fr (c :: s) v r).2 ⟨t, hok, hv, by omega, hcs, hh.2⟩
          rw [hcs] at hterm
          rw [hterm]
          simp only
          rw [if_neg (by omega)]
          exact (ih r (d + v) _ (key t v r hok hcs) hh.1).2 ⟨m, hr, by omega, hlt⟩

theorem parseUnsigned_iff (fr : Nat → Nat → Nat → Nat) (u : Str) (n : Nat) :
    parseUnsigned fr u = some n ↔ (u = text "0" ∧ n = 0) ∨ (DurText fr u n ∧ n < 2 ^ 63) := by
  have h0 : text "0" = [48] := by decide +kernel
  have hno : ∀ m, ¬ DurText fr [48] m := by
    intro m h
    generalize hz : ([48] : Str) = z at h
    have hunit : ∀ t : DurTerm, t.Ok → ∀ r, [48] = t.text ++ r → False := by
      intro t ⟨hw, hp, hdig, hu⟩ r he
      have hne := (unit_bytes hu).1
      have hb := (unit_bytes hu).2
      have hl := congrArg List.length he
      have hmem : ∀ c ∈ t.unit, c = 48 := by
        intro c hc
        have : c ∈ ([48] : Str) := by
          rw [he]
          simp [DurTerm.text, hc]
        simpa using this
      cases hu' : t.unit with
      | nil => exact hne hu'
      | cons c u =>
        have hc := hmem c (by simp [hu'])
        have := hb c (by simp [hu'])
        rw [hc] at this
        simp [numByte, isDigit] at this
    cases h with
    | one t v hok _ => exact hunit t hok [] (by simpa using hz)
    | more t v r d hok _ _ => exact hunit t hok r hz
  unfold parseUnsigned
  rw [h0]
  by_cases h1 : u = [48]
  · subst h1
    simp only [if_true, Option.some.injEq, true_and]
    constructor
    · rintro rfl; exact .inl rfl
    · rintro (h | ⟨h, _⟩)
      · exact h.symm
      · exact absurd h (hno n)
  · rw [if_neg h1]
    by_cases h2 : u = []
    · rw [if_pos h2]
      constructor
      · intro h; cases h
      · rintro (⟨h, _⟩ | ⟨h, _⟩)
        · exact absurd h h1
        · exact absurd h2 (durText_head h).1
    · rw [if_neg h2, durTerms_iff fr u.length u 0 n (Nat.le_refl _) h2]
      constructor
      · rintro ⟨m, h, rfl, hlt⟩
        exact .inr ⟨by simpa using h, hlt⟩
      · rintro (⟨h, _⟩ | ⟨h, hlt⟩)
        · exact absurd h h1
        · exact ⟨n, h, by simp, hlt⟩

end Horcrux
