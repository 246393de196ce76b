import Verif.Model.Protowire
import Verif.Spec.Protowire
import Verif.Lemmas.Fields
import Verif.Lemmas.Utf8
/-
Lemmas: the gRPC library's decoder reads exactly what `TakenFor` says.
-/
namespace Horcrux
open Spec

variable {α : Type}

/-- What the decode loop does with a field. -/
def putField (h : Handler α) (m : α) : FVal → Option α
  | .num n v => h.set m n (.varint v)
  | .bytes n x => h.set m n (.len x)

/-- The message type has these fields. -/
def Handler.Has (h : Handler α) (ns ls : List Nat) : Prop :=
  (∀ n ∈ ns, h.wireType n = some 0) ∧ (∀ n ∈ ls, h.wireType n = some 2) ∧ ∀ n, n ∉ ns ∧ n ∉ ls → h.wireType n = none

/-! ### Numbers -/

theorem readUvarintAux_varint {v : Nat} {bs : Bytes} (h : Varint v bs) (rest : Bytes) : ∀ n acc : Nat,
    n + bs.length ≤ 10 → v * 2 ^ (7 * n) < 2 ^ 64 →
    readUvarintAux n acc (bs ++ rest) = some (acc + v * 2 ^ (7 * n), rest) := by
  induction h with
  | last b hb =>
    intro n acc hn ha
    simp only [List.length_cons, List.length_nil] at hn
    have h1 : ¬ (n ≥ 10) := by omega
    have h2 : ¬ (n = 9 ∧ b.toNat > 1) := by
      rintro ⟨rfl, h⟩
      have : 2 * 2 ^ (7 * 9) ≤ b.toNat * 2 ^ (7 * 9) := Nat.mul_le_mul_right _ h
      omega
    simp only [List.cons_append, List.nil_append, readUvarintAux, h1, if_false, hb, if_true, h2]
  | @more b hb v bs hv ih =>
    intro n acc hn ha
    simp only [List.length_cons] at hn
    have h1 : ¬ (n ≥ 10) := by omega
    have hb' : b.toNat < 256 := b.toNat_lt
    have h2 : b.toNat % 128 = b.toNat - 128 := by omega
    have h3 : ¬ (b.toNat < 128) := by omega
    have hp : 2 ^ (7 * (n + 1)) = 128 * 2 ^ (7 * n) := by
      rw [show 7 * (n + 1) = 7 * n + 7 by omega, Nat.pow_add]; omega
    have he : (b.toNat - 128 + 128 * v) * 2 ^ (7 * n) =
        (b.toNat - 128) * 2 ^ (7 * n) + v * 2 ^ (7 * (n + 1)) := by
      rw [hp, Nat.add_mul, Nat.mul_comm 128 v, Nat.mul_assoc]
    rw [he] at ha ⊢
    simp only [List.cons_append, readUvarintAux, h1, if_false, h2, h3]
    rw [ih (n + 1) _ (by omega) (by omega), Nat.add_assoc]

theorem readUvarintAux_sound (bs rest : Bytes) (w : Nat) : ∀ n acc : Nat, readUvarintAux n acc bs = some (w, rest) →
    ∃ v x, bs = x ++ rest ∧ Varint v x ∧ n + x.length ≤ 10 ∧ v * 2 ^ (7 * n) < 2 ^ 64 ∧ w = acc + v * 2 ^ (7 * n) := by
  induction bs with
  | nil => intro n acc h; simp [readUvarintAux] at h
  | cons b bs ih =>
    intro n acc h
    have hb' : b.toNat < 256 := b.toNat_lt
    unfold readUvarintAux at h
    split at h
    · cases h
    · next h1 =>
      split at h
      · next h2 =>
        split at h
        · cases h
        · next h3 =>
          simp only [Option.some.injEq, Prod.mk.injEq] at h
          obtain ⟨rfl, rfl⟩ := h
          refine ⟨b.toNat, [b], rfl, .last b h2, by simp only [List.length_cons, List.length_nil]; omega, ?_, rfl⟩
          rcases Nat.lt_or_ge n 9 with hn | hn
          · have e1 : b.toNat * 2 ^ (7 * n) ≤ 127 * 2 ^ (7 * n) := Nat.mul_le_mul_right _ (by omega)
            have e2 : 2 ^ (7 * n) ≤ 2 ^ 56 := Nat.pow_le_pow_right (by decide) (by omega)
            omega
          · have hn : n = 9 := by omega
            subst hn
            have : b.toNat ≤ 1 := by
              rcases Nat.lt_or_ge 1 b.toNat with h | h
              · exact absurd ⟨rfl, h⟩ h3
              · exact h
            have : b.toNat * 2 ^ (7 * 9) ≤ 1 * 2 ^ (7 * 9) := Nat.mul_le_mul_right _ this
            omega
      · next h2 =>
        obtain ⟨v, x, e1, e2, e3, e4, e5⟩ := ih _ _ h
        have hp : 2 ^ (7 * (n + 1)) = 128 * 2 ^ (7 * n) := by
          rw [show 7 * (n + 1) = 7 * n + 7 by omega, Nat.pow_add]; omega
        have he : (b.toNat - 128 + 128 * v) * 2 ^ (7 * n) =
            (b.toNat - 128) * 2 ^ (7 * n) + v * 2 ^ (7 * (n + 1)) := by
          rw [hp, Nat.add_mul, Nat.mul_comm 128 v, Nat.mul_assoc]
        have hm : b.toNat % 128 = b.toNat - 128 := by omega
        refine ⟨b.toNat - 128 + 128 * v, b :: x, by rw [e1]; rfl, .more b (by omega) e2,
          by simp only [List.length_cons]; omega, ?_, ?_⟩
        · -- the value fits because its last digit does
          rw [he]
          have hx := varint_ne_nil e2
          have hx1 : 1 ≤ x.length := by
            cases x with
            | nil => exact absurd rfl hx
            | cons _ _ => simp
          have hn : n + 1 ≤ 9 := by omega
          have hd : b.toNat - 128 ≤ 127 := by omega
          have e6 : (b.toNat - 128) * 2 ^ (7 * n) ≤ 127 * 2 ^ (7 * n) := Nat.mul_le_mul_right _ hd
          -- v * 128 * 2^(7n) is a multiple of 128 * 2^(7n) below 2^64, which is a multiple of it too
          have e7 : ∃ c, 2 ^ 64 = c * 2 ^ (7 * (n + 1)) := by
            refine ⟨2 ^ (64 - 7 * (n + 1)), ?_⟩
            rw [← Nat.pow_add]; congr 1; omega
          obtain ⟨c, hc⟩ := e7
          have e8 : v < c := by
            rw [hc] at e4
            exact Nat.lt_of_mul_lt_mul_right e4
          have e9 : (v + 1) * 2 ^ (7 * (n + 1)) ≤ c * 2 ^ (7 * (n + 1)) := Nat.mul_le_mul_right _ e8
          rw [← hc, Nat.add_mul, hp] at e9
          rw [hp]
          have : 0 < 2 ^ (7 * n) := Nat.pow_pos (by decide)
          omega
        · rw [e5, he, hm]; omega

/-- The decoder reads exactly the encodings of 64-bit numbers. -/
theorem readUvarint_iff {bs rest : Bytes} {v : Nat} :
    readUvarint bs = some (v, rest) ↔ ∃ x, bs = x ++ rest ∧ Varint64 v x := by
  constructor
  · intro h
    obtain ⟨w, x, h1, h2, h3, h4, h5⟩ := readUvarintAux_sound bs rest v 0 0 h
    simp only [Nat.mul_zero, Nat.pow_zero, Nat.mul_one, Nat.zero_add] at *
    subst h5
    exact ⟨x, h1, h2, h4, h3⟩
  · rintro ⟨x, rfl, h1, h2, h3⟩
    have := readUvarintAux_varint h1 rest 0 0 (by omega) (by omega)
    simpa [readUvarint] using this

theorem readUvarint_varint {v : Nat} {x : Bytes} (h : Varint64 v x) (rest : Bytes) :
    readUvarint (x ++ rest) = some (v, rest) := readUvarint_iff.2 ⟨x, rfl, h⟩

/-! ### Unknown fields -/

theorem varint64_pos {v : Nat} {x : Bytes} (h : Varint64 v x) : 1 ≤ x.length := by
  have := varint_ne_nil h.1
  cases x with
  | nil => exact absurd rfl this
  | cons _ _ => simp

mutual
theorem gSkip_value {num wt : Nat} {v : Bytes} (h : Value num wt v) (rest : Bytes) (fuel : Nat)
    (hf : 2 * v.length + 2 ≤ fuel) : gSkipAux fuel num wt (v ++ rest) = some rest := by
  obtain ⟨f, rfl⟩ : ∃ f, fuel = f + 1 := ⟨fuel - 1, by omega⟩
  cases h with
  | varint hx => simp [gSkipAux, readUvarint_varint hx]
  | fixed64 hx =>
    have : ¬ ((v ++ rest).length < 8) := by simp only [List.length_append]; omega
    simp only [gSkipAux, this, if_false, if_true, Nat.reduceEqDiff, Nat.one_ne_zero]
    rw [← hx, List.drop_left]
  | @bytes _ l x hl =>
    have : ¬ ((x ++ rest).length < x.length) := by simp only [List.length_append]; omega
    simp only [gSkipAux, if_false, if_true, Nat.reduceEqDiff, List.append_assoc, readUvarint_varint hl, this, List.drop_left]
  | @group _ x t hx ht =>
    simp only [gSkipAux, if_false, if_true, Nat.reduceEqDiff]
    exact gGroup_fields hx ht rest f (by omega)
  | fixed32 hx =>
    have : ¬ ((v ++ rest).length < 4) := by simp only [List.length_append]; omega
    simp only [gSkipAux, this, if_false, if_true, Nat.reduceEqDiff]
    rw [← hx, List.drop_left]
termination_by fuel
theorem gGroup_fields {num : Nat} {x t : Bytes} (h : GroupFields x) (ht : InnerTag num 4 t) (rest : Bytes) (fuel : Nat)
    (hf : 2 * (x ++ t).length + 1 ≤ fuel) : gGroupAux fuel num (x ++ t ++ rest) = some rest := by
  obtain ⟨f, rfl⟩ : ∃ f, fuel = f + 1 := ⟨fuel - 1, by omega⟩
  cases h with
  | nil =>
    have h1 : (8 * num + 4) / 8 = num := by omega
    have h2 : (8 * num + 4) % 8 = 4 := by omega
    have h3 : ¬ (num < 1 ∨ 2 ^ 31 - 1 < num) := by have := ht.1; have := ht.2.1; omega
    simp only [gGroupAux, List.nil_append, readUvarint_varint ht.2.2, h1, h2, h3, if_false, if_true]
  | @cons n wt t' v fs ht' hv hfs =>
    have hp := varint64_pos ht'.2.2
    have hwt : wt < 8 ∧ wt ≠ 4 := by cases hv <;> decide
    have h1 : (8 * n + wt) / 8 = n := by omega
    have h2 : (8 * n + wt) % 8 = wt := by omega
    have h3 : ¬ (n < 1 ∨ 2 ^ 31 - 1 < n) := by have := ht'.1; have := ht'.2.1; omega
    simp only [List.length_append] at hf
    simp only [gGroupAux, List.append_assoc, readUvarint_varint ht'.2.2, h1, h2, h3, hwt.2, if_false]
    rw [gSkip_value hv (fs ++ (t ++ rest)) f (by omega)]
    simp only
    have := gGroup_fields hfs ht rest f (by simp only [List.length_append]; omega)
    rwa [List.append_assoc] at this
termination_by fuel
end

theorem gSkip_sound : ∀ f : Nat,
    (∀ num wt bs rest, gSkipAux f num wt bs = some rest → ∃ v, bs = v ++ rest ∧ Value num wt v) ∧
    (∀ num bs rest, gGroupAux f num bs = some rest → ∃ x t, bs = x ++ t ++ rest ∧ GroupFields x ∧ InnerTag num 4 t) := by
  intro f
  induction f with
  | zero => exact ⟨by intro _ _ _ _ h; simp [gSkipAux] at h, by intro _ _ _ h; simp [gGroupAux] at h⟩
  | succ f ih =>
    constructor
    · intro num wt bs rest h
      unfold gSkipAux at h
      split at h
      · next h0 =>
        subst h0
        cases hr : readUvarint bs with
        | none => rw [hr] at h; cases h
        | some p =>
          obtain ⟨v, r⟩ := p
          rw [hr] at h
          simp only [Option.map_some, Option.some.injEq] at h
          subst h
          obtain ⟨x, h1, h2⟩ := readUvarint_iff.1 hr
          exact ⟨x, h1, .varint h2⟩
      split at h
      · next h0 =>
        subst h0
        split at h
        · cases h
        · next hl =>
          simp only [Option.some.injEq] at h
          subst h
          exact ⟨bs.take 8, (List.take_append_drop 8 bs).symm, .fixed64 (by rw [List.length_take]; omega)⟩
      split at h
      · next h0 =>
        subst h0
        cases hr : readUvarint bs with
        | none => rw [hr] at h; cases h
        | some p =>
          obtain ⟨v, r⟩ := p
          rw [hr] at h
          simp only at h
          split at h
          · cases h
          · next hl =>
            simp only [Option.some.injEq] at h
            subst h
            obtain ⟨l, h1, h2⟩ := readUvarint_iff.1 hr
            have e : (r.take v).length = v := by rw [List.length_take]; omega
            refine ⟨l ++ r.take v, by rw [h1, List.append_assoc, List.take_append_drop], .bytes (by rw [e]; exact h2)⟩
      split at h
      · next h0 =>
        subst h0
        obtain ⟨x, t, h1, h2, h3⟩ := ih.2 _ _ _ h
        exact ⟨x ++ t, h1, .group h2 h3⟩
      split at h
      · next h0 =>
        subst h0
        split at h
        · cases h
        · next hl =>
          simp only [Option.some.injEq] at h
          subst h
          exact ⟨bs.take 4, (List.take_append_drop 4 bs).symm, .fixed32 (by rw [List.length_take]; omega)⟩
      cases h
    · intro num bs rest h
      unfold gGroupAux at h
      cases hr : readUvarint bs with
      | none => rw [hr] at h; cases h
      | some p =>
        obtain ⟨tag, r⟩ := p
        rw [hr] at h
        obtain ⟨t, h1, h2⟩ := readUvarint_iff.1 hr
        simp only at h
        split at h
        · cases h
        next hn =>
        have hin : InnerTag (tag / 8) (tag % 8) t := ⟨by omega, by omega, by rwa [Nat.div_add_mod]⟩
        split at h
        · next h4 =>
          split at h
          · next he =>
            simp only [Option.some.injEq] at h
            subst h
            rw [he, h4] at hin
            exact ⟨[], t, by rw [h1]; rfl, .nil, hin⟩
          · cases h
        · cases hs : gSkipAux f (tag / 8) (tag % 8) r with
          | none => rw [hs] at h; cases h
          | some r' =>
            rw [hs] at h
            simp only at h
            obtain ⟨v, e1, e2⟩ := ih.1 _ _ _ _ hs
            obtain ⟨x, t', e3, e4, e5⟩ := ih.2 _ _ _ h
            exact ⟨t ++ v ++ x, t', by rw [h1, e1, e3]; simp only [List.append_assoc], .cons hin e2 e4, e5⟩

/-! ### Messages -/

theorem gLoop_taken (h : Handler α) {ns ls : List Nat} (hh : h.Has ns ls) {fs : List FVal} {bs : Bytes}
    (he : TakenFor ns ls fs bs) : ∀ (m : α) (fuel : Nat), bs.length ≤ fuel →
      gLoop h fuel m bs = fs.foldlM (putField h) m := by
  have step : ∀ {n wt : Nat} {t r : Bytes} (m : α) (fuel : Nat), Tag n wt t → (t ++ r).length ≤ fuel → wt < 8 → wt ≠ 4 →
      ∃ f, r.length ≤ f ∧ gLoop h fuel m (t ++ r) =
        (if h.wireType n = some wt then
          match gVal wt r with
          | none => none
          | some (v, rest') =>
            match h.set m n v with
            | none => none
            | some m' => gLoop h f m' rest'
        else
          match gSkip n wt r with
          | none => none
          | some rest' => gLoop h f m rest') := by
    intro n wt t r m fuel ht hl hw h4
    have hp := tag_pos ht
    simp only [List.length_append] at hl
    obtain ⟨f, rfl⟩ : ∃ f, fuel = f + 1 := ⟨fuel - 1, by omega⟩
    refine ⟨f, by omega, ?_⟩
    have hr := readUvarint_varint ht.2.2 r
    have h1 : (8 * n + wt) / 8 = n := by omega
    have h2 : (8 * n + wt) % 8 = wt := by omega
    have h3 : ¬ (n < 1 ∨ 2 ^ 29 - 1 < n) := by have := ht.1; have := ht.2.1; omega
    cases hc : t ++ r with
    | nil =>
      have : (t ++ r).length = 0 := by rw [hc]; rfl
      simp only [List.length_append] at this; omega
    | cons b bs =>
      rw [hc] at hr
      rw [gLoop]
      simp only [hr, h1, h2, h3, h4, if_false]
      rfl
  induction he with
  | nil => intro m fuel _; cases fuel <;> rfl
  | @num n v t x bs fs hn ht hx _ ih =>
    intro m fuel hf
    rw [List.append_assoc] at hf ⊢
    obtain ⟨f, h1, h2⟩ := step m fuel ht hf (by decide) (by decide)
    rw [h2, if_pos (hh.1 n hn), List.foldlM_cons]
    simp only [List.length_append] at h1
    simp only [gVal, if_true, readUvarint_varint hx, putField]
    cases h.set m n (.varint v) with
    | none => rfl
    | some m' => exact ih m' f (by omega)
  | @bytes n t l x bs fs hn ht hl _ ih =>
    intro m fuel hf
    rw [List.append_assoc] at hf ⊢
    obtain ⟨f, h1, h2⟩ := step m fuel ht hf (by decide) (by decide)
    rw [h2, if_pos (hh.2.1 n hn), List.foldlM_cons]
    simp only [List.length_append] at h1
    have : ¬ ((x ++ bs).length < x.length) := by simp only [List.length_append]; omega
    simp only [gVal, if_false, if_true, Nat.reduceEqDiff, List.append_assoc, readUvarint_varint hl, this, List.take_left,
      List.drop_left, putField]
    cases h.set m n (.len x) with
    | none => rfl
    | some m' => exact ih m' f (by omega)
  | @other n wt t v bs fs hn ht hv _ ih =>
    intro m fuel hf
    rw [List.append_assoc] at hf ⊢
    have hwt : wt < 8 ∧ wt ≠ 4 := by cases hv <;> decide
    obtain ⟨f, h1, h2⟩ := step m fuel ht hf hwt.1 hwt.2
    have hk : ¬ (h.wireType n = some wt) := by
      intro hw
      by_cases h0 : n ∈ ns
      · rw [hh.1 n h0, Option.some.injEq] at hw
        exact hn.1 ⟨h0, hw.symm⟩
      · by_cases h1 : n ∈ ls
        · rw [hh.2.1 n h1, Option.some.injEq] at hw
          exact hn.2 ⟨h1, hw.symm⟩
        · rw [hh.2.2 n ⟨h0, h1⟩] at hw; cases hw
    rw [h2, if_neg hk]
    simp only [List.length_append] at h1
    unfold gSkip
    rw [gSkip_value hv bs _ (by simp only [List.length_append]; omega)]
    exact ih m f (by omega)

theorem gLoop_sound (h : Handler α) {ns ls : List Nat} (hh : h.Has ns ls) : ∀ (fuel : Nat) (m m' : α) (bs : Bytes),
    gLoop h fuel m bs = some m' → ∃ fs, TakenFor ns ls fs bs ∧ fs.foldlM (putField h) m = some m' := by
  intro fuel
  induction fuel with
  | zero =>
    intro m m' bs hd
    cases bs with
    | nil => exact ⟨[], .nil, hd⟩
    | cons b bs => simp [gLoop] at hd
  | succ f ih =>
    intro m m' bs hd
    cases bs with
    | nil => exact ⟨[], .nil, hd⟩
    | cons b bs =>
      rw [gLoop] at hd
      cases hr : readUvarint (b :: bs) with
      | none => rw [hr] at hd; cases hd
      | some p =>
        obtain ⟨tag, r⟩ := p
        rw [hr] at hd
        obtain ⟨t, h1, h2⟩ := readUvarint_iff.1 hr
        simp only at hd
        split at hd
        · cases hd
        next hn =>
        split at hd
        · cases hd
        next h4 =>
        have hin : Tag (tag / 8) (tag % 8) t := ⟨by omega, by omega, by rwa [Nat.div_add_mod]⟩
        rw [h1]
        split at hd
        · next hk =>
          cases hv : gVal (tag % 8) r with
          | none => rw [hv] at hd; cases hd
          | some q =>
            obtain ⟨v, r'⟩ := q
            rw [hv] at hd
            simp only at hd
            cases hs : h.set m (tag / 8) v with
            | none => rw [hs] at hd; cases hd
            | some m1 =>
              rw [hs] at hd
              simp only at hd
              obtain ⟨fs, f1, f2⟩ := ih _ _ _ hd
              unfold gVal at hv
              split at hv
              · next h0 =>
                rw [h0] at hin hk
                cases hr' : readUvarint r with
                | none => rw [hr'] at hv; cases hv
                | some q =>
                  obtain ⟨w, r2⟩ := q
                  rw [hr'] at hv
                  simp only [Option.some.injEq, Prod.mk.injEq] at hv
                  obtain ⟨rfl, rfl⟩ := hv
                  obtain ⟨x, x1, x2⟩ := readUvarint_iff.1 hr'
                  have hmem : tag / 8 ∈ ns := by
                    rcases Decidable.em (tag / 8 ∈ ns) with h | h
                    · exact h
                    · rcases Decidable.em (tag / 8 ∈ ls) with h' | h'
                      · rw [hh.2.1 _ h'] at hk; cases hk
                      · rw [hh.2.2 _ ⟨h, h'⟩] at hk; cases hk
                  refine ⟨.num (tag / 8) w :: fs, ?_, ?_⟩
                  · rw [x1, ← List.append_assoc]
                    exact .num hmem hin x2 f1
                  · rw [List.foldlM_cons]
                    simp only [putField, hs]
                    exact f2
              split at hv
              · next h0 =>
                rw [h0] at hin hk
                cases hr' : readUvarint r with
                | none => rw [hr'] at hv; cases hv
                | some q =>
                  obtain ⟨w, r2⟩ := q
                  rw [hr'] at hv
                  simp only at hv
                  split at hv
                  · cases hv
                  next hl =>
                  simp only [Option.some.injEq, Prod.mk.injEq] at hv
                  obtain ⟨rfl, rfl⟩ := hv
                  obtain ⟨x, x1, x2⟩ := readUvarint_iff.1 hr'
                  have hmem : tag / 8 ∈ ls := by
                    rcases Decidable.em (tag / 8 ∈ ls) with h | h
                    · exact h
                    · rcases Decidable.em (tag / 8 ∈ ns) with h' | h'
                      · rw [hh.1 _ h'] at hk; cases hk
                      · rw [hh.2.2 _ ⟨h', h⟩] at hk; cases hk
                  have hlen : (r2.take w).length = w := by rw [List.length_take]; omega
                  refine ⟨.bytes (tag / 8) (r2.take w) :: fs, ?_, ?_⟩
                  · have := TakenFor.bytes (nums := ns) hmem hin (x := r2.take w) (l := x) (by rw [hlen]; exact x2) f1
                    rw [x1]
                    have e : t ++ (x ++ r2) = t ++ (x ++ r2.take w) ++ r2.drop w := by
                      rw [List.append_assoc, List.append_assoc, List.take_append_drop]
                    rw [e]; exact this
                  · rw [List.foldlM_cons]
                    simp only [putField, hs]
                    exact f2
              cases hv
        · next hk =>
          cases hs : gSkip (tag / 8) (tag % 8) r with
          | none => rw [hs] at hd; cases hd
          | some r' =>
            rw [hs] at hd
            simp only at hd
            obtain ⟨fs, f1, f2⟩ := ih _ _ _ hd
            obtain ⟨v, v1, v2⟩ := (gSkip_sound _).1 _ _ _ _ hs
            refine ⟨fs, ?_, f2⟩
            rw [v1, ← List.append_assoc]
            refine .other ⟨?_, ?_⟩ hin v2 f1
            · rintro ⟨a, b⟩; exact hk (by rw [hh.1 _ a, b])
            · rintro ⟨a, b⟩; exact hk (by rw [hh.2.1 _ a, b])

theorem gVal_shorter {wt : Nat} {bs rest : Bytes} {v : WireVal} (h : gVal wt bs = some (v, rest)) : rest.length ≤ bs.length := by
  unfold gVal at h
  split at h
  · cases hr : readUvarint bs with
    | none => rw [hr] at h; cases h
    | some q =>
      rw [hr] at h
      simp only [Option.some.injEq, Prod.mk.injEq] at h
      obtain ⟨x, x1, _⟩ := readUvarint_iff.1 hr
      rw [← h.2, x1, List.length_append]; omega
  split at h
  · cases hr : readUvarint bs with
    | none => rw [hr] at h; cases h
    | some q =>
      rw [hr] at h
      simp only at h
      split at h
      · cases h
      simp only [Option.some.injEq, Prod.mk.injEq] at h
      obtain ⟨x, x1, _⟩ := readUvarint_iff.1 hr
      rw [← h.2, x1, List.length_append, List.length_drop]; omega
  cases h

theorem gLoop_fuel (h : Handler α) : ∀ (f f' : Nat) (m : α) (bs : Bytes), bs.length ≤ f → bs.length ≤ f' →
    gLoop h f m bs = gLoop h f' m bs := by
  intro f
  induction f with
  | zero =>
    intro f' m bs h1 _
    cases bs with
    | nil => cases f' <;> rfl
    | cons _ _ => simp at h1
  | succ f ih =>
    intro f' m bs h1 h2
    cases bs with
    | nil => cases f' <;> rfl
    | cons b bs =>
      obtain ⟨g, rfl⟩ : ∃ g, f' = g + 1 := ⟨f' - 1, by simp only [List.length_cons] at h2; omega⟩
      rw [gLoop, gLoop]
      cases hr : readUvarint (b :: bs) with
      | none => rfl
      | some p =>
        obtain ⟨tag, r⟩ := p
        simp only
        obtain ⟨t, t1, t2⟩ := readUvarint_iff.1 hr
        have hp := varint64_pos t2
        have hl : (b :: bs).length = t.length + r.length := by rw [t1, List.length_append]
        split
        · rfl
        split
        · rfl
        split
        · cases hv : gVal (tag % 8) r with
          | none => rfl
          | some q =>
            obtain ⟨v, r'⟩ := q
            have := gVal_shorter hv
            simp only
            cases h.set m (tag / 8) v with
            | none => rfl
            | some m' => exact ih _ _ _ (by omega) (by omega)
        · cases hs : gSkip (tag / 8) (tag % 8) r with
          | none => rfl
          | some r' =>
            obtain ⟨v, v1, _⟩ := (gSkip_sound _).1 _ _ _ _ hs
            have : r'.length ≤ r.length := by rw [v1, List.length_append]; omega
            exact ih _ _ _ (by omega) (by omega)

/-- Reading past a known field. -/
theorem gDecode_known (h : Handler α) (m : α) {num wt : Nat} {t p : Bytes} (ht : Tag num wt t) (h4 : wt < 4)
    (hw : h.wireType num = some wt) {v : WireVal} {r : Bytes} (hv : gVal wt (p ++ r) = some (v, r)) :
    gDecode h m (t ++ (p ++ r)) = (h.set m num v).bind fun m' => gDecode h m' r := by
  have hp := tag_pos ht
  have hr := readUvarint_varint ht.2.2 (p ++ r)
  have h1 : (8 * num + wt) / 8 = num := by omega
  have h2 : (8 * num + wt) % 8 = wt := by omega
  have h3 : ¬ (num < 1 ∨ 2 ^ 29 - 1 < num) := by have := ht.1; have := ht.2.1; omega
  have h4' : ¬ (wt = 4) := by omega
  unfold gDecode
  cases hc : t ++ (p ++ r) with
  | nil =>
    have : (t ++ (p ++ r)).length = 0 := by rw [hc]; rfl
    simp only [List.length_append] at this; omega
  | cons b bs =>
    have hl : (b :: bs).length = t.length + (p.length + r.length) := by
      rw [← hc]; simp only [List.length_append]
    rw [hc] at hr
    simp only [List.length_cons] at hl ⊢
    rw [gLoop]
    simp only [hr, h1, h2, h3, h4', if_false, hw, if_true, hv]
    cases h.set m num v with
    | none => rfl
    | some m' => exact gLoop_fuel h _ _ _ _ (by omega) (Nat.le_refl _)

theorem gDecode_nil (h : Handler α) (m : α) : gDecode h m [] = some m := rfl

/-- Reading is putting the fields one after the other. -/
theorem gDecode_taken (h : Handler α) {ns ls : List Nat} (hh : h.Has ns ls) {fs : List FVal} {bs : Bytes}
    (he : TakenFor ns ls fs bs) (m : α) : gDecode h m bs = fs.foldlM (putField h) m :=
  gLoop_taken h hh he m _ (Nat.le_refl _)

/-- The decoder reads exactly what is taken for an encoding. -/
theorem gDecode_iff (h : Handler α) {ns ls : List Nat} (hh : h.Has ns ls) {m m' : α} {bs : Bytes} :
    gDecode h m bs = some m' ↔ ∃ fs, TakenFor ns ls fs bs ∧ fs.foldlM (putField h) m = some m' := by
  constructor
  · exact gLoop_sound h hh _ _ _ _
  · rintro ⟨fs, h1, h2⟩
    rw [gDecode_taken h hh h1, h2]

/-! ### Strings -/

theorem isText_cons (c : Char) {s : Bytes} (h : IsText s) : IsText (utf8 c ++ s) := by
  obtain ⟨cs, rfl⟩ := h
  exact ⟨c :: cs, rfl⟩

theorem isText_uncons {s : Bytes} (h : IsText s) (h0 : s ≠ []) : ∃ c t, s = utf8 c ++ t ∧ IsText t := by
  obtain ⟨cs, rfl⟩ := h
  cases cs with
  | nil => exact absurd rfl h0
  | cons c cs => exact ⟨c, cs.flatMap utf8, rfl, cs, rfl⟩

theorem utf8ValidAux_iff : ∀ (f : Nat) (s : Bytes), s.length ≤ f → (utf8ValidAux f s = true ↔ IsText s) := by
  intro f
  induction f with
  | zero =>
    intro s hs
    cases s with
    | nil => exact ⟨fun _ => ⟨[], rfl⟩, fun _ => rfl⟩
    | cons _ _ => simp at hs
  | succ f ih =>
    intro s hs
    cases s with
    | nil => exact ⟨fun _ => ⟨[], rfl⟩, fun _ => rfl⟩
    | cons x s =>
      simp only [List.length_cons] at hs
      rw [utf8ValidAux]
      by_cases hx : x < 0x80
      · rw [if_pos hx, ih s (by omega)]
        have hx' : x.toNat < 0x80 := hx
        constructor
        · intro h
          obtain ⟨c, hc⟩ := char_of_nat (r := x.toNat) (.inl (by omega))
          rcases utf8_cases c with ⟨_, e⟩ | ⟨_, _, e⟩ | ⟨_, _, e⟩ | ⟨_, _, e⟩
          · have := isText_cons c h
            rw [e, hc, UInt8.ofNat_toNat] at this
            exact this
          all_goals omega
        · intro h
          obtain ⟨c, t, ht, hT⟩ := isText_uncons h (by simp)
          by_cases h8 : 0x80 ≤ c.toNat
          · obtain ⟨-, r2, r3⟩ := runeLen_utf8 c h8 t
            cases hcu : utf8 c with
            | nil => rw [hcu] at r2; simp at r2
            | cons y u =>
              rw [hcu, List.cons_append, List.cons.injEq] at ht
              have := r3 y (by simp [hcu])
              rw [← ht.1] at this
              omega
          · rcases utf8_cases c with ⟨_, e⟩ | ⟨_, _, e⟩ | ⟨_, _, e⟩ | ⟨_, _, e⟩
            · rw [e, List.cons_append, List.cons.injEq] at ht
              rw [ht.2]
              exact hT
            all_goals omega
      · rw [if_neg hx]
        have hx' : 0x80 ≤ x.toNat := Nat.le_of_not_lt hx
        constructor
        · intro h
          split at h
          · simp at h
          · rename_i n hn
            obtain ⟨c, -, -, c3⟩ := runeLen_char hn
            rw [c3]
            refine isText_cons c ?_
            rw [List.drop_succ_cons]
            exact (ih _ (by simp only [List.length_drop]; omega)).1 h
        · intro h
          obtain ⟨c, t, ht, hT⟩ := isText_uncons h (by simp)
          have h8 : 0x80 ≤ c.toNat := by
            refine Nat.le_of_not_lt fun hlt => ?_
            rcases utf8_cases c with ⟨_, e⟩ | ⟨_, _, e⟩ | ⟨_, _, e⟩ | ⟨_, _, e⟩
            · rw [e, List.cons_append, List.cons.injEq] at ht
              have := u8_toNat (n := c.toNat) (by omega)
              rw [← ht.1] at this
              omega
            all_goals omega
          obtain ⟨r1, r2, -⟩ := runeLen_utf8 c h8 t
          obtain ⟨n, hn⟩ : ∃ n, (utf8 c).length = n + 1 := ⟨(utf8 c).length - 1, by omega⟩
          rw [ht, r1, hn]
          have hd : s.drop n = t := by
            have : (x :: s).drop (n + 1) = t := by rw [ht, ← hn, List.drop_left]
            simpa using this
          simp only [hd]
          refine (ih _ ?_).2 hT
          rw [← hd]
          simp only [List.length_drop]
          omega

theorem utf8Valid_iff (s : Bytes) : utf8Valid s = true ↔ IsText s := utf8ValidAux_iff _ _ (Nat.le_refl _)

end Horcrux
