import Verif.Lemmas.Wire
import Verif.Lemmas.CosignerMore
import Verif.Spec.Fields
/-
Lemmas for C78: the generated decoder on the protobuf wire format.
-/
namespace Horcrux
open Spec

theorem varint_ne_nil {v : Nat} {bs : Bytes} (h : Varint v bs) : bs ≠ [] := by cases h <;> simp

theorem readVarintAux_varint {v : Nat} {bs : Bytes} (h : Varint v bs) (rest : Bytes) : ∀ n acc : Nat,
    n + bs.length ≤ 10 → acc + v * 2 ^ (7 * n) < 2 ^ 64 →
    readVarintAux n acc (bs ++ rest) = some (acc + v * 2 ^ (7 * n), rest) := by
  induction h with
  | last b hb =>
    intro n acc hn ha
    simp only [List.length_cons, List.length_nil] at hn
    have h1 : ¬ (n ≥ 10) := by omega
    simp only [List.cons_append, List.nil_append, readVarintAux, h1, if_false, Nat.mod_eq_of_lt hb, hb, if_true]
    rw [Nat.mod_eq_of_lt ha]
  | @more b hb v bs hv ih =>
    intro n acc hn ha
    simp only [List.length_cons] at hn
    have h1 : ¬ (n ≥ 10) := by omega
    have hb' : b.toNat < 256 := b.toNat_lt
    have h2 : b.toNat % 128 = b.toNat - 128 := by omega
    have h3 : ¬ (b.toNat < 128) := by omega
    have hp : 2 ^ (7 * (n + 1)) = 128 * 2 ^ (7 * n) := by
      rw [show 7 * (n + 1) = 7 * n + 7 by omega, Nat.pow_add]; omega
    have he : acc + (b.toNat - 128 + 128 * v) * 2 ^ (7 * n) =
        acc + (b.toNat - 128) * 2 ^ (7 * n) + v * 2 ^ (7 * (n + 1)) := by
      rw [hp, Nat.add_mul, Nat.mul_comm 128 v, Nat.mul_assoc, Nat.add_assoc]
    rw [he] at ha ⊢
    have h4 : acc + (b.toNat - 128) * 2 ^ (7 * n) < 2 ^ 64 := by omega
    simp only [List.cons_append, readVarintAux, h1, if_false, h2, h3]
    rw [Nat.mod_eq_of_lt h4]
    exact ih (n + 1) _ (by omega) ha

/-- The decoder reads every encoding of a number. -/
theorem readVarint_varint {v : Nat} {bs : Bytes} (h : Varint64 v bs) (rest : Bytes) :
    readVarint (bs ++ rest) = some (v, rest) := by
  have := readVarintAux_varint h.1 rest 0 0 (by have := h.2.2; omega) (by have := h.2.1; omega)
  simpa [readVarint] using this

theorem skipAux_eq (f d : Nat) (bs : Bytes) (h : bs ≠ []) : skipAux (f + 1) d bs =
    match readVarint bs with
    | none => none
    | some (wire, rest) =>
      let wt := wire % 8
      if wt = 0 then
        match readVarint rest with
        | none => none
        | some (_, rest') => if d = 0 then some rest' else skipAux f d rest'
      else if wt = 1 then
        if rest.length < 8 then none else
        if d = 0 then some (rest.drop 8) else skipAux f d (rest.drop 8)
      else if wt = 2 then
        match readVarint rest with
        | none => none
        | some (n, rest') =>
          if rest'.length < n then none else
          if d = 0 then some (rest'.drop n) else skipAux f d (rest'.drop n)
      else if wt = 3 then skipAux f (d + 1) rest
      else if wt = 4 then
        if d = 0 then none
        else if d = 1 then some rest else skipAux f (d - 1) rest
      else if wt = 5 then
        if rest.length < 4 then none else
        if d = 0 then some (rest.drop 4) else skipAux f d (rest.drop 4)
      else none := by
  cases bs with
  | nil => exact absurd rfl h
  | cons b bs =>
    rw [skipAux]
    · rfl
    · simp

theorem tag_read {num wt : Nat} {t : Bytes} (h : Tag num wt t) (rest : Bytes) :
    readVarint (t ++ rest) = some (8 * num + wt, rest) := readVarint_varint h.2.2 rest

theorem tag_ne {num wt : Nat} {t : Bytes} (h : Tag num wt t) (rest : Bytes) : t ++ rest ≠ [] := by
  have := varint_ne_nil h.2.2.1
  simp [this]

theorem tag_pos {num wt : Nat} {t : Bytes} (h : Tag num wt t) : 1 ≤ t.length := by
  have := varint_ne_nil h.2.2.1
  cases t with
  | nil => exact absurd rfl this
  | cons _ _ => simp

theorem field_pos {num : Nat} {f : Bytes} (h : Field num f) : 1 ≤ f.length := by
  match h with
  | .varint ht _ | .fixed64 ht _ | .bytes ht _ | .group ht _ _ | .fixed32 ht _ =>
    have := tag_pos ht
    simp only [List.length_append]; omega

mutual
/-- Skipping one field. -/
theorem skip_field {num : Nat} {f : Bytes} (h : Field num f) (rest : Bytes) (fuel : Nat)
    (hf : (f ++ rest).length ≤ fuel) : skipAux fuel 0 (f ++ rest) = some rest ∧
      ∀ d, 0 < d → ∃ fuel', rest.length ≤ fuel' ∧ skipAux fuel d (f ++ rest) = skipAux fuel' d rest := by
  match h with
  | .varint (v := v) (t := t) (x := x) ht hx =>
    have hp := tag_pos ht
    simp only [List.length_append] at hf
    obtain ⟨fuel, rfl⟩ : ∃ g, fuel = g + 1 := ⟨fuel - 1, by omega⟩
    rw [List.append_assoc]
    have e : (8 * num + 0) % 8 = 0 := by omega
    have key := fun d => skipAux_eq fuel d (t ++ (x ++ rest)) (tag_ne ht _)
    simp only [tag_read ht, e, if_true, readVarint_varint hx] at key
    refine ⟨by rw [key 0]; rfl, fun d hd => ⟨fuel, by omega, ?_⟩⟩
    rw [key d, if_neg (by omega)]
  | .fixed64 (t := t) (x := x) ht hx =>
    have hp := tag_pos ht
    simp only [List.length_append] at hf
    obtain ⟨fuel, rfl⟩ : ∃ g, fuel = g + 1 := ⟨fuel - 1, by omega⟩
    rw [List.append_assoc]
    have e : (8 * num + 1) % 8 = 1 := by omega
    have hl : ¬ ((x ++ rest).length < 8) := by simp only [List.length_append]; omega
    have hd8 : (x ++ rest).drop 8 = rest := by rw [← hx, List.drop_left]
    have key := fun d => skipAux_eq fuel d (t ++ (x ++ rest)) (tag_ne ht _)
    simp only [tag_read ht, e, hl, if_false, hd8, if_true, Nat.one_ne_zero] at key
    refine ⟨by rw [key 0]; rfl, fun d hd => ⟨fuel, by omega, ?_⟩⟩
    rw [key d, if_neg (by omega)]
  | .bytes (t := t) (l := l) (x := x) ht hx =>
    have hp := tag_pos ht
    simp only [List.length_append] at hf
    obtain ⟨fuel, rfl⟩ : ∃ g, fuel = g + 1 := ⟨fuel - 1, by omega⟩
    rw [List.append_assoc, List.append_assoc]
    have e : (8 * num + 2) % 8 = 2 := by omega
    have hl : ¬ ((x ++ rest).length < x.length) := by simp only [List.length_append]; omega
    have hd8 : (x ++ rest).drop x.length = rest := List.drop_left
    have key := fun d => skipAux_eq fuel d (t ++ (l ++ (x ++ rest))) (tag_ne ht _)
    simp only [tag_read ht, e, readVarint_varint hx, hl, if_false, hd8, if_true, Nat.reduceEqDiff] at key
    refine ⟨by rw [key 0]; rfl, fun d hd => ⟨fuel, by omega, ?_⟩⟩
    rw [key d, if_neg (by omega)]
  | .group (t := t) (x := x) (t' := t') ht hx ht' =>
    have hp := tag_pos ht
    have hp' := tag_pos ht'
    simp only [List.length_append] at hf
    obtain ⟨fuel, rfl⟩ : ∃ g, fuel = g + 1 := ⟨fuel - 1, by omega⟩
    rw [List.append_assoc, List.append_assoc]
    have e : (8 * num + 3) % 8 = 3 := by omega
    have e' : (8 * num + 4) % 8 = 4 := by omega
    have key := fun d => skipAux_eq fuel d (t ++ (x ++ (t' ++ rest))) (tag_ne ht _)
    simp only [tag_read ht, e, if_false, if_true, Nat.reduceEqDiff] at key
    have inner := fun d (hd : 0 < d) => skip_fields hx (t' ++ rest) fuel (by simp only [List.length_append]; omega) d hd
    refine ⟨?_, fun d hd => ?_⟩
    · rw [key 0]
      obtain ⟨g, hg, he⟩ := inner 1 (by omega)
      simp only [List.length_append] at hg
      obtain ⟨g, rfl⟩ : ∃ k, g = k + 1 := ⟨g - 1, by omega⟩
      rw [he, skipAux_eq g 1 _ (tag_ne ht' _)]
      simp only [tag_read ht', e', if_false, if_true, Nat.reduceEqDiff]
    · rw [key d]
      obtain ⟨g, hg, he⟩ := inner (d + 1) (by omega)
      simp only [List.length_append] at hg
      obtain ⟨g, rfl⟩ : ∃ k, g = k + 1 := ⟨g - 1, by omega⟩
      refine ⟨g, by omega, ?_⟩
      rw [he, skipAux_eq g (d + 1) _ (tag_ne ht' _)]
      have d0 : ¬ (d + 1 = 0) := by omega
      have d1 : ¬ (d + 1 = 1) := by omega
      simp only [tag_read ht', e', if_false, if_true, Nat.reduceEqDiff, d0, d1, Nat.add_sub_cancel]
  | .fixed32 (t := t) (x := x) ht hx =>
    have hp := tag_pos ht
    simp only [List.length_append] at hf
    obtain ⟨fuel, rfl⟩ : ∃ g, fuel = g + 1 := ⟨fuel - 1, by omega⟩
    rw [List.append_assoc]
    have e : (8 * num + 5) % 8 = 5 := by omega
    have hl : ¬ ((x ++ rest).length < 4) := by simp only [List.length_append]; omega
    have hd8 : (x ++ rest).drop 4 = rest := by rw [← hx, List.drop_left]
    have key := fun d => skipAux_eq fuel d (t ++ (x ++ rest)) (tag_ne ht _)
    simp only [tag_read ht, e, hl, if_false, hd8, if_true, Nat.reduceEqDiff] at key
    refine ⟨by rw [key 0]; rfl, fun d hd => ⟨fuel, by omega, ?_⟩⟩
    rw [key d, if_neg (by omega)]
/-- Skipping the inside of a group. -/
theorem skip_fields {x : Bytes} (h : Fields x) (rest : Bytes) (fuel : Nat) (hf : (x ++ rest).length ≤ fuel) (d : Nat)
    (hd : 0 < d) : ∃ fuel', rest.length ≤ fuel' ∧ skipAux fuel d (x ++ rest) = skipAux fuel' d rest := by
  match h with
  | .nil => exact ⟨fuel, by simpa using hf, rfl⟩
  | .cons hx hxs =>
    rw [List.append_assoc] at hf ⊢
    obtain ⟨g, hg, he⟩ := (skip_field hx _ fuel hf).2 d hd
    obtain ⟨g', hg', he'⟩ := skip_fields hxs rest g hg d hd
    exact ⟨g', hg', he.trans he'⟩
end

/-! ### The decode loop -/

/-- One iteration at a field: what it does to the message does not depend on what follows. -/
theorem decode_field {α : Type} (h : Handler α) (m : α) {num : Nat} {f : Bytes} (hf : Field num f) :
    ∃ act : Option α, (h.wireType num = none → act = some m) ∧
      ∀ r, decodeMsg h m (f ++ r) = act.bind fun m' => decodeMsg h m' r := by
  -- the tag, and what follows it
  obtain ⟨wt, t, p, ht, rfl, hwt, hp⟩ : ∃ (wt : Nat) (t p : Bytes), Tag num wt t ∧ f = t ++ p ∧
      (wt = 0 ∨ wt = 1 ∨ wt = 2 ∨ wt = 3 ∨ wt = 5) ∧
      (∃ v : Option WireVal, ∀ r, readVal wt (p ++ r) = v.map fun v => (v, r)) := by
    match hf with
    | .varint (v := v) (t := t) (x := x) ht hx =>
      exact ⟨0, t, x, ht, rfl, by omega, some (.varint v), fun r => by simp [readVal, readVarint_varint hx]⟩
    | .fixed64 (t := t) (x := x) ht hx =>
      refine ⟨1, t, x, ht, rfl, by omega, some (.fixed64 (leNat x)), fun r => ?_⟩
      have hl : ¬ ((x ++ r).length < 8) := by simp only [List.length_append]; omega
      have hd8 : (x ++ r).drop 8 = r := by rw [← hx, List.drop_left]
      have ht8 : (x ++ r).take 8 = x := by rw [← hx, List.take_left]
      simp only [readVal, Nat.one_ne_zero, if_false, if_true, hl, hd8, ht8, Option.map_some]
    | .bytes (t := t) (l := l) (x := x) ht hx =>
      refine ⟨2, t, l ++ x, ht, by rw [List.append_assoc], by omega, some (.len x), fun r => ?_⟩
      have hl : ¬ ((x ++ r).length < x.length) := by simp only [List.length_append]; omega
      rw [List.append_assoc]
      simp only [readVal, if_false, if_true, Nat.reduceEqDiff, readVarint_varint hx, hl, List.take_left, List.drop_left,
        Option.map_some]
    | .group (t := t) (x := x) (t' := t') ht hx ht' =>
      exact ⟨3, t, x ++ t', ht, by rw [List.append_assoc], by omega, none, fun r => by simp [readVal]⟩
    | .fixed32 (t := t) (x := x) ht hx =>
      exact ⟨5, t, x, ht, rfl, by omega, none, fun r => by simp [readVal]⟩
  obtain ⟨v, hv⟩ := hp
  have hn := ht.1
  have hn' := ht.2.1
  have hi : i32 (((8 * num + wt) / 8 : Nat) : Int) = (num : Int) := by
    have : (8 * num + wt) / 8 = num := by omega
    rw [this]; apply i32_of_is; unfold IsI32; omega
  have hm : (8 * num + wt) % 8 = wt := by omega
  have h4 : ¬ (wt = 4) := by omega
  have h0 : ¬ ((num : Int) ≤ 0) := by omega
  -- one iteration
  have step : ∀ r, decodeMsg h m (t ++ p ++ r) =
      match h.wireType num with
      | some wt' =>
        if wt ≠ wt' then none
        else match readVal wt' (p ++ r) with
          | none => none
          | some (v, rest') =>
            match h.set m num v with
            | none => none
            | some m' => decodeMsg h m' rest'
      | none => decodeMsg h m r := by
    intro r
    have hsk := (skip_field hf r (t ++ p ++ r).length (Nat.le_refl _)).1
    have hrd := tag_read ht (p ++ r)
    have hpos := tag_pos ht
    rw [← List.append_assoc] at hrd
    have hlen : (t ++ p ++ r).length = t.length + p.length + r.length := by simp only [List.length_append]
    cases hc : t ++ p ++ r with
    | nil => rw [hc] at hlen; simp at hlen; omega
    | cons b bs =>
      rw [hc] at hsk hrd hlen
      simp only [List.length_cons] at hlen
      unfold decodeMsg
      rw [List.length_cons, decodeLoop]
      simp only [hrd, hm, h4, hi, h0, if_false, Int.toNat_natCast]
      cases hw : h.wireType num with
      | none =>
        simp only
        have : skipField (b :: bs) = some r := hsk
        rw [this]
        simp only
        rw [decodeLoop_fuel h bs.length m r (by omega)]
      | some wt' =>
        simp only
        split
        · rfl
        · cases hr : readVal wt' (p ++ r) with
          | none => rfl
          | some q =>
            obtain ⟨v', rest'⟩ := q
            simp only
            have hle := readVal_le hr
            simp only [List.length_append] at hle
            cases hs : h.set m num v' with
            | none => rfl
            | some m' =>
              simp only
              rw [decodeLoop_fuel h bs.length m' rest' (by omega)]
  cases hw : h.wireType num with
  | none =>
    refine ⟨some m, fun _ => rfl, fun r => ?_⟩
    rw [step r, hw]; rfl
  | some wt' =>
    refine ⟨if wt ≠ wt' then none else v.bind fun v => h.set m num v, fun e => by simp at e, fun r => ?_⟩
    rw [step r, hw]
    simp only
    by_cases hww : wt ≠ wt'
    · rw [if_pos hww, if_pos hww]; rfl
    · rw [if_neg hww, if_neg hww]
      have : wt = wt' := Classical.not_not.1 hww
      rw [← this, hv r]
      cases v with
      | none => rfl
      | some v =>
        simp only [Option.map_some, Option.bind_some]
        cases h.set m num v <;> rfl

/-- Decoding fields one after the other. -/
theorem decode_append_fields {α : Type} (h : Handler α) {a : Bytes} (ha : Fields a) : ∀ (m : α) (r : Bytes),
    decodeMsg h m (a ++ r) = (decodeMsg h m a).bind fun m' => decodeMsg h m' r := by
  induction a using (measure List.length).wf.induction with
  | _ a ih =>
    intro m r
    cases ha with
    | nil => rfl
    | @cons num f fs hf hfs =>
      obtain ⟨act, _, hact⟩ := decode_field h m hf
      have hlen : fs.length < (f ++ fs).length := by
        have := field_pos hf
        simp only [List.length_append]; omega
      rw [List.append_assoc, hact, hact fs]
      cases act with
      | none => rfl
      | some m' =>
        simp only [Option.bind_some]
        exact ih fs hlen hfs m' r

theorem decode_new {α : Type} (h : Handler α) (hk : ∀ n, 8 ≤ n → h.wireType n = none) {u : Bytes} (hu : NewFields u)
    (m : α) (r : Bytes) : decodeMsg h m (u ++ r) = decodeMsg h m r := by
  induction hu with
  | nil => rfl
  | @cons num f fs hn hf hfs ih =>
    obtain ⟨act, hact0, hact⟩ := decode_field h m hf
    rw [List.append_assoc, hact, hact0 (hk num hn)]
    exact ih

/-- Fields of other numbers, between fields, are ignored. -/
theorem decode_insert {α : Type} (h : Handler α) (hk : ∀ n, 8 ≤ n → h.wireType n = none) {a u : Bytes} (ha : Fields a)
    (hu : NewFields u) (m : α) (b : Bytes) : decodeMsg h m (a ++ u ++ b) = decodeMsg h m (a ++ b) := by
  rw [List.append_assoc, decode_append_fields h ha m (u ++ b), decode_append_fields h ha m b]
  congr 1
  funext m'
  exact decode_new h hk hu m' b

theorem undelimit_delimit_short {p : Bytes} (h : p.length < 2 ^ 63 - 1) (t : Bytes) : undelimit (delimit p ++ t) = some p := by
  unfold undelimit delimit
  rw [List.append_assoc, readUvarint_encode p.length (p ++ t) (by omega)]
  simp only
  have h1 : ¬ (p.length ≥ 2 ^ 63 - 1) := by omega
  have h2 : ¬ (p.length > (encodeVarint p.length ++ (p ++ t)).length) := by simp only [List.length_append]; omega
  have h3 : ¬ ((p ++ t).length < p.length) := by simp only [List.length_append]; omega
  simp only [h1, h2, h3, if_false, List.take_left]

/-- Extended sign bytes read the same. -/
theorem extended_decode {bs bs' : Bytes} (h : Extended bs bs') :
    decodeProposal bs' = decodeProposal bs ∧ decodeVote bs' = decodeVote bs := by
  obtain ⟨a, u, b, t, ha, hu, hl, rfl, rfl⟩ := h
  have h1 := undelimit_delimit_short hl t
  have h2 : undelimit (delimit (a ++ b)) = some (a ++ b) := by
    have := undelimit_delimit_short (p := a ++ b) (by simp only [List.length_append] at hl ⊢; omega) []
    simpa using this
  have kp : ∀ n, 8 ≤ n → proposalHandler.wireType n = none := by
    intro n hn
    simp only [proposalHandler]
    rw [if_neg (by omega), if_neg (by omega), if_neg (by omega)]
  have kv : ∀ n, 8 ≤ n → voteHandler.wireType n = none := by
    intro n hn
    simp only [voteHandler]
    rw [if_neg (by omega), if_neg (by omega), if_neg (by omega)]
  simp only [decodeProposal, decodeVote, h1, h2, Option.bind_some, decode_insert _ kp ha hu, decode_insert _ kv ha hu,
    and_self]

end Horcrux
