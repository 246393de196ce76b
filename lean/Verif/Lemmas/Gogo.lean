import Verif.Spec.Gogo
import Verif.Lemmas.Encodings
/-
Lemmas: the generated decoder reads exactly what `FieldsRead` says.
-/
namespace Horcrux
open Spec

/-! ### Numbers -/

theorem readVarintAux_loose {v : Nat} {bs : Bytes} (h : Varint v bs) (rest : Bytes) : ∀ n acc : Nat, n + bs.length ≤ 10 →
    readVarintAux n acc (bs ++ rest) = some ((acc + v * 2 ^ (7 * n)) % 2 ^ 64, rest) := by
  induction h with
  | last b hb =>
    intro n acc hn
    simp only [List.length_cons, List.length_nil] at hn
    have h1 : ¬ (n ≥ 10) := by omega
    simp only [List.cons_append, List.nil_append, readVarintAux, h1, if_false, Nat.mod_eq_of_lt hb, hb, if_true]
  | @more b hb v bs hv ih =>
    intro n acc hn
    simp only [List.length_cons] at hn
    have h1 : ¬ (n ≥ 10) := by omega
    have hb' : b.toNat < 256 := b.toNat_lt
    have h2 : b.toNat % 128 = b.toNat - 128 := by omega
    have h3 : ¬ (b.toNat < 128) := by omega
    have hp : 2 ^ (7 * (n + 1)) = 128 * 2 ^ (7 * n) := by
      rw [show 7 * (n + 1) = 7 * n + 7 by omega, Nat.pow_add]; omega
    have he : acc + (b.toNat - 128 + 128 * v) * 2 ^ (7 * n) =
        acc + (b.toNat - 128) * 2 ^ (7 * n) + v * 2 ^ (7 * (n + 1)) := by
      rw [hp, Nat.add_mul, Nat.mul_comm 128 v, Nat.mul_assoc, Nat.add_assoc]
    rw [he]
    simp only [List.cons_append, readVarintAux, h1, if_false, h2, h3]
    rw [ih (n + 1) _ (by omega), Nat.mod_add_mod]

theorem readVarintAux_sound (bs rest : Bytes) (w : Nat) : ∀ n acc : Nat, readVarintAux n acc bs = some (w, rest) →
    ∃ v x, bs = x ++ rest ∧ Varint v x ∧ n + x.length ≤ 10 := by
  induction bs with
  | nil => intro n acc h; simp [readVarintAux] at h
  | cons b bs ih =>
    intro n acc h
    unfold readVarintAux at h
    split at h
    · cases h
    simp only at h
    split at h
    · next hn hb =>
      simp only [Option.some.injEq, Prod.mk.injEq] at h
      exact ⟨b.toNat, [b], by rw [h.2]; rfl, .last b hb, by simp only [List.length_cons, List.length_nil]; omega⟩
    · next hn hb =>
      obtain ⟨v, x, e1, e2, e3⟩ := ih _ _ h
      exact ⟨_, b :: x, by rw [e1]; rfl, .more b (by omega) e2, by simp only [List.length_cons]; omega⟩

/-- The generated code reads exactly these numbers. -/
theorem readVarint_iff {bs rest : Bytes} {v : Nat} :
    readVarint bs = some (v, rest) ↔ ∃ x, bs = x ++ rest ∧ LooseVarint v x := by
  constructor
  · intro h
    obtain ⟨w, x, e1, e2, e3⟩ := readVarintAux_sound bs rest v 0 0 h
    refine ⟨x, e1, w, e2, by omega, ?_⟩
    have := readVarintAux_loose e2 rest 0 0 e3
    rw [← e1] at this
    unfold readVarint at h
    rw [this] at h
    simp only [Option.some.injEq, Prod.mk.injEq, Nat.mul_zero, Nat.pow_zero, Nat.mul_one, Nat.zero_add] at h
    exact h.1.symm
  · rintro ⟨x, rfl, w, h1, h2, rfl⟩
    have := readVarintAux_loose h1 rest 0 0 (by omega)
    simpa [readVarint] using this

theorem readVarint_loose {v : Nat} {x : Bytes} (h : LooseVarint v x) (rest : Bytes) :
    readVarint (x ++ rest) = some (v, rest) := readVarint_iff.2 ⟨x, rfl, h⟩

theorem loose_pos {v : Nat} {x : Bytes} (h : LooseVarint v x) : 1 ≤ x.length := by
  obtain ⟨w, h, _⟩ := h
  have := varint_ne_nil h
  cases x with
  | nil => exact absurd rfl this
  | cons _ _ => simp

theorem loose_ne {v : Nat} {x : Bytes} (h : LooseVarint v x) (rest : Bytes) : x ++ rest ≠ [] := by
  have := loose_pos h
  intro e
  have := congrArg List.length e
  simp only [List.length_append, List.length_nil] at this
  omega

theorem loose_of {v : Nat} {x : Bytes} (h : Varint64 v x) : LooseVarint v x :=
  ⟨v, h.1, h.2.2, (Nat.mod_eq_of_lt h.2.1).symm⟩

theorem looseTag_some {num wt : Nat} {t : Bytes} (h : LooseTag num wt t) : SomeTag wt t := by
  obtain ⟨_, _, v, h1, h2, _⟩ := h
  exact ⟨v, h1, h2⟩

theorem looseTag_of {num wt : Nat} {t : Bytes} (h : Tag num wt t) (hw : wt < 8) : LooseTag num wt t := by
  obtain ⟨h1, h2, h3⟩ := h
  exact ⟨h1, by omega, _, loose_of h3, by omega, by omega⟩

/-! ### Skipping -/

mutual
theorem skip_skipped {wt : Nat} {t v : Bytes} (ht : SomeTag wt t) (h : Skipped wt v) (rest : Bytes) (fuel : Nat)
    (hf : (t ++ v ++ rest).length ≤ fuel) : skipAux fuel 0 (t ++ v ++ rest) = some rest ∧
      ∀ d, 0 < d → ∃ fuel', rest.length ≤ fuel' ∧ skipAux fuel d (t ++ v ++ rest) = skipAux fuel' d rest := by
  obtain ⟨w, hw, e⟩ := ht
  have hp := loose_pos hw
  simp only [List.length_append] at hf
  obtain ⟨fuel, rfl⟩ : ∃ g, fuel = g + 1 := ⟨fuel - 1, by omega⟩
  have key := fun d => skipAux_eq fuel d (t ++ (v ++ rest)) (loose_ne hw _)
  simp only [readVarint_loose hw, e] at key
  rw [List.append_assoc]
  match h with
  | .varint hx =>
    simp only [if_true, readVarint_loose hx] at key
    refine ⟨by rw [key 0]; rfl, fun d hd => ⟨fuel, by omega, ?_⟩⟩
    rw [key d, if_neg (by omega)]
  | .fixed64 hx =>
    have hl : ¬ ((v ++ rest).length < 8) := by simp only [List.length_append]; omega
    have hd8 : (v ++ rest).drop 8 = rest := by rw [← hx, List.drop_left]
    simp only [hl, if_false, hd8, if_true, Nat.one_ne_zero] at key
    refine ⟨by rw [key 0]; rfl, fun d hd => ⟨fuel, by omega, ?_⟩⟩
    rw [key d, if_neg (by omega)]
  | .bytes (l := l) (x := x) hx =>
    have hl : ¬ ((x ++ rest).length < x.length) := by simp only [List.length_append]; omega
    have hd8 : (x ++ rest).drop x.length = rest := List.drop_left
    simp only [List.length_append] at hf
    simp only [List.append_assoc, readVarint_loose hx, hl, if_false, hd8, if_true, Nat.reduceEqDiff] at key ⊢
    refine ⟨by rw [key 0]; rfl, fun d hd => ⟨fuel, by omega, ?_⟩⟩
    rw [key d, if_neg (by omega)]
  | .group (x := x) (t := t') hx ht' =>
    obtain ⟨w', hw', e'⟩ := ht'
    have hp' := loose_pos hw'
    simp only [List.length_append] at hf
    simp only [List.append_assoc, if_false, if_true, Nat.reduceEqDiff] at key ⊢
    have inner := fun d (hd : 0 < d) => skip_group hx (t' ++ rest) fuel (by simp only [List.length_append]; omega) d hd
    refine ⟨?_, fun d hd => ?_⟩
    · rw [key 0]
      obtain ⟨g, hg, he⟩ := inner 1 (by omega)
      simp only [List.length_append] at hg
      obtain ⟨g, rfl⟩ : ∃ k, g = k + 1 := ⟨g - 1, by omega⟩
      rw [he, skipAux_eq g 1 _ (loose_ne hw' _)]
      simp only [readVarint_loose hw', e', if_false, if_true, Nat.reduceEqDiff]
    · rw [key d]
      obtain ⟨g, hg, he⟩ := inner (d + 1) (by omega)
      simp only [List.length_append] at hg
      obtain ⟨g, rfl⟩ : ∃ k, g = k + 1 := ⟨g - 1, by omega⟩
      refine ⟨g, by omega, ?_⟩
      rw [he, skipAux_eq g (d + 1) _ (loose_ne hw' _)]
      have d0 : ¬ (d + 1 = 0) := by omega
      have d1 : ¬ (d + 1 = 1) := by omega
      simp only [readVarint_loose hw', e', if_false, if_true, Nat.reduceEqDiff, d0, d1, Nat.add_sub_cancel]
  | .fixed32 hx =>
    have hl : ¬ ((v ++ rest).length < 4) := by simp only [List.length_append]; omega
    have hd8 : (v ++ rest).drop 4 = rest := by rw [← hx, List.drop_left]
    simp only [hl, if_false, hd8, if_true, Nat.reduceEqDiff] at key
    refine ⟨by rw [key 0]; rfl, fun d hd => ⟨fuel, by omega, ?_⟩⟩
    rw [key d, if_neg (by omega)]
theorem skip_group {x : Bytes} (h : SkippedFields x) (rest : Bytes) (fuel : Nat) (hf : (x ++ rest).length ≤ fuel) (d : Nat)
    (hd : 0 < d) : ∃ fuel', rest.length ≤ fuel' ∧ skipAux fuel d (x ++ rest) = skipAux fuel' d rest := by
  match h with
  | .nil => exact ⟨fuel, by simpa using hf, rfl⟩
  | .cons ht hx hxs =>
    rw [List.append_assoc] at hf ⊢
    obtain ⟨g, hg, he⟩ := (skip_skipped ht hx _ fuel hf).2 d hd
    obtain ⟨g', hg', he'⟩ := skip_group hxs rest g hg d hd
    exact ⟨g', hg', he.trans he'⟩
end

/-- The rest of some groups, one in the other. -/
inductive Closes : Nat → Bytes → Prop where
  | nil : Closes 0 []
  | cons {d : Nat} {x t bs : Bytes} (hx : SkippedFields x) (ht : SomeTag 4 t) (h : Closes d bs) : Closes (d + 1) (x ++ t ++ bs)

theorem Closes.item {d wt : Nat} {t v bs : Bytes} (ht : SomeTag wt t) (hv : Skipped wt v) (h : Closes (d + 1) bs) :
    Closes (d + 1) (t ++ v ++ bs) := by
  cases h with
  | @cons _ x t' bs hx ht' h =>
    have := Closes.cons (.cons ht hv hx) ht' h
    simpa only [List.append_assoc] using this

theorem skip_sound : ∀ (fuel d : Nat) (bs rest : Bytes), skipAux fuel d bs = some rest →
    (d = 0 → ∃ wt t v, bs = t ++ v ++ rest ∧ SomeTag wt t ∧ Skipped wt v) ∧ (0 < d → ∃ x, bs = x ++ rest ∧ Closes d x) := by
  intro fuel
  induction fuel with
  | zero => intro d bs rest h; cases bs <;> simp [skipAux] at h
  | succ fuel ih =>
    intro d bs rest h
    have hne : bs ≠ [] := by rintro rfl; simp [skipAux] at h
    rw [skipAux_eq fuel d bs hne] at h
    cases hr : readVarint bs with
    | none => rw [hr] at h; cases h
    | some p =>
      obtain ⟨wire, r⟩ := p
      rw [hr] at h
      simp only at h
      obtain ⟨t, e, ht⟩ := readVarint_iff.1 hr
      subst e
      -- a payload, after which it goes on
      have pay : ∀ {wt : Nat} {v r' : Bytes}, wire % 8 = wt → r = v ++ r' → Skipped wt v →
          (if d = 0 then some r' else skipAux fuel d r') = some rest →
          (d = 0 → ∃ wt t' v, t ++ r = t' ++ v ++ rest ∧ SomeTag wt t' ∧ Skipped wt v) ∧
            (0 < d → ∃ x, t ++ r = x ++ rest ∧ Closes d x) := by
        intro wt v r' hw e hv hh
        clear h hr
        subst e
        constructor
        · intro h0
          rw [if_pos h0] at hh
          cases hh
          exact ⟨wt, t, v, by rw [List.append_assoc], ⟨_, ht, hw⟩, hv⟩
        · intro h0
          rw [if_neg (by omega)] at hh
          obtain ⟨x, e, hx⟩ := (ih _ _ _ hh).2 h0
          obtain ⟨d, rfl⟩ : ∃ k, d = k + 1 := ⟨d - 1, by omega⟩
          exact ⟨t ++ v ++ x, by rw [e]; simp only [List.append_assoc], hx.item ⟨_, ht, hw⟩ hv⟩
      split at h
      · next hw =>
        cases hr' : readVarint r with
        | none => rw [hr'] at h; cases h
        | some q =>
          obtain ⟨n, r'⟩ := q
          rw [hr'] at h
          obtain ⟨x, e, hx⟩ := readVarint_iff.1 hr'
          exact pay hw e (.varint hx) h
      split at h
      · next hw =>
        split at h
        · cases h
        · exact pay hw (List.take_append_drop 8 r).symm (.fixed64 (by rw [List.length_take]; omega)) h
      split at h
      · next hw =>
        cases hr' : readVarint r with
        | none => rw [hr'] at h; cases h
        | some q =>
          obtain ⟨n, r'⟩ := q
          rw [hr'] at h
          simp only at h
          split at h
          · cases h
          · obtain ⟨x, e, hx⟩ := readVarint_iff.1 hr'
            refine pay hw (v := x ++ r'.take n) ?_ (.bytes ?_) h
            · rw [List.append_assoc, List.take_append_drop, e]
            · rw [List.length_take, Nat.min_eq_left (by omega)]; exact hx
      split at h
      · next hw =>
        obtain ⟨x, e, hx⟩ := (ih _ _ _ h).2 (by omega)
        cases hx with
        | @cons _ g t' bs hg ht' hc =>
          constructor
          · rintro rfl
            cases hc
            exact ⟨3, t, g ++ t', by rw [e]; simp only [List.append_assoc, List.nil_append], ⟨_, ht, hw⟩, .group hg ht'⟩
          · intro h0
            obtain ⟨d, rfl⟩ : ∃ k, d = k + 1 := ⟨d - 1, by omega⟩
            exact ⟨t ++ (g ++ t') ++ bs, by rw [e]; simp only [List.append_assoc], hc.item ⟨_, ht, hw⟩ (.group hg ht')⟩
      split at h
      · next hw =>
        split at h
        · cases h
        split at h
        · next h1 =>
          cases h
          refine ⟨fun h0 => absurd h0 (by omega), fun _ => ⟨t, rfl, ?_⟩⟩
          subst h1
          have := Closes.cons .nil ⟨_, ht, hw⟩ .nil
          simpa using this
        · obtain ⟨x, e, hx⟩ := (ih _ _ _ h).2 (by omega)
          obtain ⟨d, rfl⟩ : ∃ k, d = k + 1 := ⟨d - 1, by omega⟩
          rw [Nat.add_sub_cancel] at hx
          refine ⟨fun h0 => absurd h0 (by omega), fun _ => ⟨t ++ x, by rw [e, List.append_assoc], ?_⟩⟩
          have := Closes.cons .nil ⟨_, ht, hw⟩ hx
          simpa using this
      split at h
      · next hw =>
        split at h
        · cases h
        · exact pay hw (List.take_append_drop 4 r).symm (.fixed32 (by rw [List.length_take]; omega)) h
      · cases h

/-! ### The loop -/

variable {α : Type}

/-- What the decode loop does with a field. -/
def gput (h : Handler α) (m : α) : GVal → Option α
  | .num n v => h.set m n (.varint v)
  | .fix n v => h.set m n (.fixed64 v)
  | .bytes n x => h.set m n (.len x)

/-- The message type has these fields. -/
def Handler.Kind (h : Handler α) (k : Kinds) : Prop :=
  (∀ n, n ∈ k.nums ↔ h.wireType n = some 0) ∧ (∀ n, n ∈ k.fixs ↔ h.wireType n = some 1) ∧
  (∀ n, n ∈ k.lens ↔ h.wireType n = some 2) ∧ ∀ n, h.wireType n = none ↔ n ∉ k.nums ∧ n ∉ k.fixs ∧ n ∉ k.lens

theorem little_iff {v : Nat} {x : Bytes} : LittleEndian v x ↔ v = leNat x := by
  constructor
  · intro h
    induction h with
    | nil => rfl
    | cons b _ ih => rw [leNat, ih]
  · rintro rfl
    induction x with
    | nil => exact .nil
    | cons b bs ih => exact .cons b ih

theorem i32_field {v n : Nat} (hn : 1 ≤ n) (hn' : n < 2 ^ 31) (h : v / 8 % 2 ^ 32 = n) : i32 ((v / 8 : Nat) : Int) = (n : Int) := by
  unfold i32 Int.bmod
  simp only [Nat.reducePow] at *
  omega

theorem field_i32 {v : Nat} (h : ¬ (i32 ((v / 8 : Nat) : Int) ≤ 0)) :
    1 ≤ (i32 ((v / 8 : Nat) : Int)).toNat ∧ (i32 ((v / 8 : Nat) : Int)).toNat < 2 ^ 31 ∧
      v / 8 % 2 ^ 32 = (i32 ((v / 8 : Nat) : Int)).toNat := by
  unfold i32 Int.bmod at *
  simp only [Nat.reducePow] at *
  omega

theorem decode_cons (h : Handler α) (m : α) {bs : Bytes} (hb : bs ≠ []) : decodeMsg h m bs =
    match readVarint bs with
    | none => none
    | some (wire, rest) =>
      if wire % 8 = 4 then none
      else if i32 (wire / 8 : Nat) ≤ 0 then none
      else match h.wireType (i32 (wire / 8 : Nat)).toNat with
        | some wt =>
          if wire % 8 ≠ wt then none
          else match readVal wt rest with
            | none => none
            | some (v, rest') => (h.set m (i32 (wire / 8 : Nat)).toNat v).bind fun m' => decodeMsg h m' rest'
        | none => (skipField bs).bind fun rest' => decodeMsg h m rest' := by
  cases bs with
  | nil => exact absurd rfl hb
  | cons b bs =>
    rw [decodeMsg, List.length_cons, decodeLoop]
    cases hr : readVarint (b :: bs) with
    | none => rfl
    | some p =>
      obtain ⟨wire, r⟩ := p
      obtain ⟨t, e, ht⟩ := readVarint_iff.1 hr
      have hp := loose_pos ht
      have hl : bs.length + 1 = t.length + r.length := by
        have := congrArg List.length e
        simpa only [List.length_cons, List.length_append] using this
      simp only
      split
      · rfl
      split
      · rfl
      cases hw : h.wireType (i32 (wire / 8 : Nat)).toNat with
      | none =>
        simp only
        cases hs : skipField (b :: bs) with
        | none => rfl
        | some r' =>
          simp only [Option.bind_some]
          obtain ⟨wt, t', v, e', ht', _⟩ := (skip_sound _ _ _ _ hs).1 rfl
          obtain ⟨_, ht', _⟩ := ht'
          have hp' := loose_pos ht'
          have hl' : bs.length + 1 = t'.length + v.length + r'.length := by
            have := congrArg List.length e'
            simpa only [List.length_cons, List.length_append] using this
          exact decodeLoop_fuel h bs.length m r' (by omega)
      | some wt =>
        simp only
        split
        · rfl
        cases hv : readVal wt r with
        | none => rfl
        | some q =>
          obtain ⟨v, r'⟩ := q
          have hle := readVal_le hv
          simp only
          cases h.set m (i32 (wire / 8 : Nat)).toNat v with
          | none => rfl
          | some m' => exact decodeLoop_fuel h bs.length m' r' (by omega)

theorem decode_reads (h : Handler α) {k : Kinds} (hk : h.Kind k) {fs : List GVal} {bs : Bytes} (hr : FieldsRead k fs bs) :
    ∀ m, decodeMsg h m bs = fs.foldlM (gput h) m := by
  induction hr with
  | nil => intro m; rfl
  | @num n v t x bs fs hn ht hx _ ih =>
    intro m
    obtain ⟨h1, h2, w, hw, e1, e2⟩ := ht
    rw [List.append_assoc, decode_cons h m (loose_ne hw _), List.foldlM_cons]
    have h0 : ¬ ((n : Int) ≤ 0) := by omega
    have hv : readVal 0 (x ++ bs) = some (.varint v, bs) := by simp [readVal, readVarint_loose hx]
    simp only [readVarint_loose hw, e1, i32_field h1 h2 e2, h0, Int.toNat_natCast, (hk.1 n).1 hn, hv, gput, ih, ne_eq,
      not_true, if_false, Nat.reduceEqDiff]
    rfl
  | @fix n v t x bs fs hn ht hx h8 _ ih =>
    intro m
    obtain ⟨h1, h2, w, hw, e1, e2⟩ := ht
    rw [List.append_assoc, decode_cons h m (loose_ne hw _), List.foldlM_cons]
    have h0 : ¬ ((n : Int) ≤ 0) := by omega
    have hv : readVal 1 (x ++ bs) = some (.fixed64 v, bs) := by
      have hl : ¬ ((x ++ bs).length < 8) := by simp only [List.length_append]; omega
      have hd8 : (x ++ bs).drop 8 = bs := by rw [← h8, List.drop_left]
      have ht8 : (x ++ bs).take 8 = x := by rw [← h8, List.take_left]
      simp only [readVal, Nat.one_ne_zero, if_false, if_true, hl, hd8, ht8, little_iff.1 hx]
    simp only [readVarint_loose hw, e1, i32_field h1 h2 e2, h0, Int.toNat_natCast, (hk.2.1 n).1 hn, hv, gput, ih, ne_eq,
      not_true, if_false, Nat.reduceEqDiff]
    rfl
  | @bytes n t l x bs fs hn ht hl _ ih =>
    intro m
    obtain ⟨h1, h2, w, hw, e1, e2⟩ := ht
    rw [List.append_assoc, decode_cons h m (loose_ne hw _), List.foldlM_cons]
    have h0 : ¬ ((n : Int) ≤ 0) := by omega
    have hv : readVal 2 (l ++ x ++ bs) = some (.len x, bs) := by
      have : ¬ ((x ++ bs).length < x.length) := by simp only [List.length_append]; omega
      rw [List.append_assoc]
      simp only [readVal, if_false, if_true, Nat.reduceEqDiff, readVarint_loose hl, this, List.take_left, List.drop_left]
    simp only [readVarint_loose hw, e1, i32_field h1 h2 e2, h0, Int.toNat_natCast, (hk.2.2.1 n).1 hn, hv, gput, ih, ne_eq,
      not_true, if_false, Nat.reduceEqDiff]
    rfl
  | @other n wt t v bs fs hn ht hv _ ih =>
    intro m
    obtain ⟨h1, h2, w, hw, e1, e2⟩ := ht
    have hs : skipField (t ++ v ++ bs) = some bs := (skip_skipped ⟨w, hw, e1⟩ hv bs _ (Nat.le_refl _)).1
    rw [decode_cons h m (by rw [List.append_assoc]; exact loose_ne hw _), hs, List.append_assoc]
    have h0 : ¬ ((n : Int) ≤ 0) := by omega
    have h4 : ¬ (wt = 4) := by rintro rfl; cases hv
    simp only [readVarint_loose hw, e1, i32_field h1 h2 e2, h0, Int.toNat_natCast, (hk.2.2.2 n).2 hn, h4, if_false,
      Option.bind_some, ih]

theorem readVal_sound {wt : Nat} {bs rest : Bytes} {v : WireVal} (h : readVal wt bs = some (v, rest)) :
    (wt = 0 ∧ ∃ n x, v = .varint n ∧ bs = x ++ rest ∧ LooseVarint n x) ∨
    (wt = 1 ∧ ∃ n x, v = .fixed64 n ∧ bs = x ++ rest ∧ LittleEndian n x ∧ x.length = 8) ∨
    (wt = 2 ∧ ∃ l x, v = .len x ∧ bs = l ++ x ++ rest ∧ LooseVarint x.length l) := by
  unfold readVal at h
  split at h
  · next hw =>
    left
    cases hr : readVarint bs with
    | none => rw [hr] at h; cases h
    | some q =>
      rw [hr] at h
      obtain ⟨n, r⟩ := q
      simp only [Option.some.injEq, Prod.mk.injEq] at h
      obtain ⟨x, e, hx⟩ := readVarint_iff.1 hr
      exact ⟨hw, n, x, h.1.symm, by rw [← h.2, e], hx⟩
  split at h
  · next hw =>
    right; left
    split at h
    · cases h
    simp only [Option.some.injEq, Prod.mk.injEq] at h
    exact ⟨hw, _, bs.take 8, h.1.symm, by rw [← h.2, List.take_append_drop], little_iff.2 rfl, by rw [List.length_take]; omega⟩
  split at h
  · next hw =>
    right; right
    cases hr : readVarint bs with
    | none => rw [hr] at h; cases h
    | some q =>
      rw [hr] at h
      obtain ⟨n, r⟩ := q
      simp only at h
      split at h
      · cases h
      simp only [Option.some.injEq, Prod.mk.injEq] at h
      obtain ⟨x, e, hx⟩ := readVarint_iff.1 hr
      refine ⟨hw, x, r.take n, h.1.symm, by rw [← h.2, e, List.append_assoc, List.take_append_drop], ?_⟩
      rw [List.length_take, Nat.min_eq_left (by omega)]; exact hx
  · cases h

theorem reads_sound (h : Handler α) {k : Kinds} (hk : h.Kind k) : ∀ (l : Nat) (bs : Bytes), bs.length ≤ l → ∀ m m' : α,
    decodeMsg h m bs = some m' → ∃ fs, FieldsRead k fs bs ∧ fs.foldlM (gput h) m = some m' := by
  intro l
  induction l with
  | zero =>
    intro bs hl m m' hd
    have : bs = [] := List.length_eq_zero_iff.1 (by omega)
    subst this
    exact ⟨[], .nil, hd⟩
  | succ l ih =>
    intro bs hl m m' hd
    by_cases hb : bs = []
    · subst hb; exact ⟨[], .nil, hd⟩
    rw [decode_cons h m hb] at hd
    cases hr : readVarint bs with
    | none => rw [hr] at hd; cases hd
    | some p =>
      obtain ⟨wire, r⟩ := p
      rw [hr] at hd
      simp only at hd
      obtain ⟨t, e, ht⟩ := readVarint_iff.1 hr
      have hp := loose_pos ht
      split at hd
      · cases hd
      split at hd
      · cases hd
      next h4 h0 =>
      obtain ⟨n1, n2, n3⟩ := field_i32 h0
      generalize (i32 (wire / 8 : Nat)).toNat = n at n1 n2 n3 hd
      cases hw : h.wireType n with
      | none =>
        rw [hw] at hd
        simp only at hd
        obtain ⟨r', hs, hd'⟩ := Option.bind_eq_some_iff.1 hd
        obtain ⟨wt, t', v, e', ht', hv⟩ := (skip_sound _ _ _ _ hs).1 rfl
        have tt : LooseTag n wt t' := by
          obtain ⟨w', hw', e1⟩ := ht'
          rw [e', List.append_assoc, readVarint_loose hw'] at hr
          simp only [Option.some.injEq, Prod.mk.injEq] at hr
          rw [hr.1] at hw' e1
          exact ⟨n1, n2, wire, hw', e1, n3⟩
        have hp' : 1 ≤ t'.length := by obtain ⟨w', hw', e1⟩ := ht'; exact loose_pos hw'
        subst e'
        simp only [List.length_append] at hl
        obtain ⟨fs, f1, f2⟩ := ih r' (by omega) m m' hd'
        exact ⟨fs, .other ((hk.2.2.2 n).1 hw) tt hv f1, f2⟩
      | some wt =>
        rw [hw] at hd
        simp only at hd
        split at hd
        · cases hd
        next hwt =>
        have hwt : wire % 8 = wt := Classical.not_not.1 hwt
        have tt : LooseTag n wt t := ⟨n1, n2, wire, ht, hwt, n3⟩
        cases hv : readVal wt r with
        | none => rw [hv] at hd; cases hd
        | some q =>
          obtain ⟨v, r'⟩ := q
          rw [hv] at hd
          simp only at hd
          obtain ⟨m1, hs, hd'⟩ := Option.bind_eq_some_iff.1 hd
          subst e
          simp only [List.length_append] at hl
          rcases readVal_sound hv with ⟨rfl, v', x, rfl, rfl, hx⟩ | ⟨rfl, v', x, rfl, rfl, hx, h8⟩ | ⟨rfl, l', x, rfl, rfl, hx⟩
          · simp only [List.length_append] at hl
            obtain ⟨fs, f1, f2⟩ := ih r' (by omega) m1 m' hd'
            refine ⟨.num n v' :: fs, ?_, ?_⟩
            · rw [← List.append_assoc]; exact .num ((hk.1 n).2 hw) tt hx f1
            · rw [List.foldlM_cons]; simp only [gput, hs]; exact f2
          · simp only [List.length_append] at hl
            obtain ⟨fs, f1, f2⟩ := ih r' (by omega) m1 m' hd'
            refine ⟨.fix n v' :: fs, ?_, ?_⟩
            · rw [← List.append_assoc]; exact .fix ((hk.2.1 n).2 hw) tt hx h8 f1
            · rw [List.foldlM_cons]; simp only [gput, hs]; exact f2
          · simp only [List.length_append] at hl
            obtain ⟨fs, f1, f2⟩ := ih r' (by omega) m1 m' hd'
            refine ⟨.bytes n x :: fs, ?_, ?_⟩
            · rw [← List.append_assoc]; exact .bytes ((hk.2.2.1 n).2 hw) tt hx f1
            · rw [List.foldlM_cons]; simp only [gput, hs]; exact f2

/-- **What the generated decoder reads.** -/
theorem decode_iff (h : Handler α) {k : Kinds} (hk : h.Kind k) {m m' : α} {bs : Bytes} :
    decodeMsg h m bs = some m' ↔ ∃ fs, FieldsRead k fs bs ∧ fs.foldlM (gput h) m = some m' :=
  ⟨reads_sound h hk _ bs (Nat.le_refl _) m m', fun ⟨_, h1, h2⟩ => (decode_reads h hk h1 m).trans h2⟩

end Horcrux
