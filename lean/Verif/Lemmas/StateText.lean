import Verif.Spec.StateText
import Verif.Lemmas.JsonText
/-
The model's reader of sign state files accepts exactly the texts of Spec/StateText.
-/
namespace Horcrux
open Spec

theorem member_text (name : String) : ∀ l : JObj,
    l.member (text name) = (((membersOf l).filter fun m => m.1 = text name).getLast?).map Prod.snd
  | .nil => rfl
  | .cons k v l => by
    rw [JObj.member, member_text name l, membersOf, List.filter_cons]
    by_cases hk : k = text name
    · simp only [hk, decide_true, if_true]
      cases hl : (membersOf l).filter (fun m => decide (m.1 = text name)) with
      | nil => rfl
      | cons x xs =>
        rw [List.getLast?_cons_cons]
        cases hx : (x :: xs).getLast? with
        | none => simp at hx
        | some y => rfl
    · simp only [hk, decide_false, if_false, Bool.false_eq_true]
      cases ((membersOf l).filter (fun m => decide (m.1 = text name))).getLast?.map Prod.snd <;> rfl

theorem member_eq (l : JObj) (name : String) (f : Bytes) (hf : f = text name) : l.member f = lastNamed l name := by
  subst hf
  exact member_text name l

theorem members_json : ∀ {l : JObj} {t : Bytes}, JsonMembers l t → ∀ m ∈ membersOf l, ∃ t', Json m.2 t'
  | _, _, .one _ _ _ _ _ hv, m, hm => by
    simp only [membersOf, List.mem_cons, List.not_mem_nil, or_false] at hm
    subst hm
    exact ⟨_, hv⟩
  | _, _, .cons _ _ _ _ _ hv hl, m, hm => by
    simp only [membersOf, List.mem_cons] at hm
    rcases hm with rfl | hm
    · exact ⟨_, hv⟩
    · exact members_json hl m hm

theorem lastNamed_json {l : JObj} {bs : Bytes} {name : String} {v : JVal} (h : JsonText (.obj l) bs)
    (hl : lastNamed l name = some v) : ∃ t, Json v t := by
  obtain ⟨⟨w, t, w', -, -, -, ht⟩, -⟩ := h
  unfold lastNamed at hl
  rw [Option.map_eq_some_iff] at hl
  obtain ⟨m, hm, rfl⟩ := hl
  have hm' := List.mem_of_getLast? hm
  have := (List.mem_filter.1 hm').1
  cases ht with
  | noMembers _ => simp [membersOf] at this
  | obj h => exact members_json h m this

theorem tmInt64_iff (m : Option JVal) (n : Int) : tmInt64 m = some n ↔ Int64Member m n := by
  constructor
  · intro h
    unfold tmInt64 at h
    split at h
    · cases h; exact .absent (Or.inl rfl)
    · cases h; exact .absent (Or.inr rfl)
    · rename_i s
      cases hp : parseJson s with
      | none => rw [hp] at h; cases h
      | some v =>
        rw [hp] at h
        have hj := parseJson_iff.1 hp
        obtain ⟨⟨w, t, w', -, -, -, ht⟩, -⟩ := hj
        rcases (setInt_iff ht (by decide) (by decide)).1 h with ⟨rfl, rfl⟩ | ⟨raw, rfl, h1, h2, h3⟩
        · exact .quotedNull (parseJson_iff.1 hp)
        · exact .quoted (parseJson_iff.1 hp) h1 ⟨h2, by omega⟩
    · cases h
  · intro h
    cases h with
    | absent h => rcases h with rfl | rfl <;> rfl
    | quoted h hn hr =>
      obtain ⟨⟨w, t, w', -, -, -, ht⟩, -⟩ := id h
      show (parseJson _).bind _ = _
      rw [parseJson_iff.2 h]
      exact (setInt_iff (old := 0) ht (by decide) (by decide)).2 (Or.inr ⟨_, rfl, hn, hr.1, by have := hr.2; omega⟩)
    | quotedNull h =>
      show (parseJson _).bind _ = _
      rw [parseJson_iff.2 h]
      rfl

/-- A value as it is in some text, or nothing. -/
def FromText (m : Option JVal) : Prop := ∀ v, m = some v → ∃ t, Json v t

theorem tmInt8_iff (m : Option JVal) (n : Int) (hm : FromText m) :
    tmInt8 m = some n ↔ Int8Member m n := by
  cases m with
  | none =>
    simp only [tmInt8, Option.some.injEq]
    constructor
    · rintro rfl; exact .absent (Or.inl rfl)
    · intro h; cases h; rfl
  | some v =>
    obtain ⟨t, ht⟩ := hm v rfl
    rw [tmInt8, setInt_iff ht (by decide) (by decide)]
    constructor
    · rintro (⟨rfl, rfl⟩ | ⟨raw, rfl, h1, h2, h3⟩)
      · exact .absent (Or.inr rfl)
      · exact .plain h1 ⟨h2, by omega⟩
    · intro h
      cases h with
      | absent h =>
        rcases h with h | h
        · cases h
        · cases h; exact Or.inl ⟨rfl, rfl⟩
      | plain hn hr => exact Or.inr ⟨_, rfl, hn, hr.1, by have := hr.2; omega⟩

theorem elems_json : ∀ {l : JArr} {t : Bytes}, JsonElems l t → ∀ {raw : Bytes} {k : JArr}, l = .cons (.num raw) k → NumText raw
  | _, _, .one _ _ hv, _, _, h => by
    cases h
    cases hv
    assumption
  | _, _, .cons _ _ hv _, _, _, h => by
    cases h
    cases hv
    assumption

theorem elems_tail {v : JVal} {l : JArr} {t : Bytes} (h : JsonElems (.cons v l) t) : l = .nil ∨ ∃ t', JsonElems l t' := by
  cases h with
  | one _ _ _ => exact Or.inl rfl
  | cons _ _ _ hl => exact Or.inr ⟨_, hl⟩

theorem num_of_digits {raw : Bytes} (h : NumText raw) {n : Nat} (hd : digits 0 raw = some n) : IntText raw ∧ intValue raw = n := by
  obtain ⟨h1, h2⟩ := (digits_iff _ _ _).1 hd
  refine ⟨?_, h2.symm⟩
  cases h with
  | @mk m i f e hm hi hf he =>
    rcases hm with rfl | rfl
    · simp only [List.nil_append] at h1 ⊢
      obtain ⟨rfl, rfl⟩ := num_digits hf he h1
      simpa using hi
    · have := h1 45 (by rw [← text_minus]; simp)
      exact absurd (isDigit_iff.2 this) (by decide)

theorem setByteList_iff : ∀ (l : JArr) (b : Bytes), (l = .nil ∨ ∃ t, JsonElems l t) → (setByteList l = some b ↔ ByteList l b)
  | .nil, b, _ => by
    simp only [setByteList, Option.some.injEq]
    constructor
    · rintro rfl; exact .nil
    · intro h; cases h; rfl
  | .cons v l, b, h => by
    obtain ⟨t, ht⟩ : ∃ t, JsonElems (.cons v l) t := by
      rcases h with h | h
      · cases h
      · exact h
    have ih := fun b => setByteList_iff l b (elems_tail ht)
    rw [setByteList]
    constructor
    · intro hs
      split at hs
      · rename_i c bs hc hb
        cases hs
        have hl := (ih bs).1 hb
        unfold setByte at hc
        split at hc
        · rename_i raw
          split at hc
          · rename_i n hn
            split at hc
            · rename_i hle
              cases hc
              obtain ⟨h1, h2⟩ := num_of_digits (elems_json ht rfl) hn
              exact .num h1 (by rw [h2, u8_toNat (by omega)]) hl
            · cases hc
          · cases hc
        · cases hc; exact .null hl
        · cases hc
      · cases hs
    · intro hs
      cases hs with
      | @num raw c _ b hi hc hl =>
        have hd : digits 0 raw = some c.toNat := (digits_iff _ _ _).2 ⟨int_digits hi, hc.symm⟩
        have := c.toNat_lt
        simp only [setByte, hd, (ih _).2 hl, if_pos (show c.toNat ≤ 255 by omega)]
        simp
      | null hl => simp only [setByte, (ih _).2 hl]

theorem tmBytes_iff (m : Option JVal) (s : Slice) (hm : FromText m) : tmBytes m = some s ↔ BytesMember m s := by
  have harr : ∀ l, m = some (.arr l) → (l = .nil ∨ ∃ t, JsonElems l t) := by
    intro l hl
    obtain ⟨t, ht⟩ := hm _ hl
    cases ht with
    | noElems _ => exact Or.inl rfl
    | arr h => exact Or.inr ⟨_, h⟩
  constructor
  · intro h
    unfold tmBytes at h
    split at h
    · cases h; exact .absent (Or.inl rfl)
    · rename_i v
      cases hv : setBytes v with
      | none => rw [hv] at h; cases h
      | some u =>
        rw [hv] at h
        simp only [Option.map_some, Option.some.injEq] at h
        subst h
        unfold setBytes at hv
        split at hv
        · rename_i t _
          cases hb : b64Dec t with
          | none => rw [hb] at hv; cases hv
          | some b =>
            rw [hb] at hv
            simp only [Option.map_some, Option.some.injEq] at hv
            subst hv
            have := b64Dec_iff.1 hb
            cases b with
            | nil => exact .empty this
            | cons x b => exact .base64 this (by simp)
        · rename_i l
          cases hb : setByteList l with
          | none => rw [hb] at hv; cases hv
          | some b =>
            rw [hb] at hv
            simp only [Option.map_some, Option.some.injEq] at hv
            subst hv
            have := (setByteList_iff l b (harr l rfl)).1 hb
            cases b with
            | nil => exact .emptyList this
            | cons x b => exact .list this (by simp)
        · cases hv; exact .absent (Or.inr rfl)
        · cases hv
  · intro h
    cases h with
    | absent h => rcases h with rfl | rfl <;> rfl
    | empty h =>
      show (setBytes _).map _ = _
      rw [setBytes, b64Dec_iff.2 h]
      rfl
    | @base64 t b e h hb =>
      show (setBytes _).map _ = _
      rw [setBytes, b64Dec_iff.2 h]
      cases b with
      | nil => exact absurd rfl hb
      | cons x b => rfl
    | @emptyList l h =>
      show (setBytes _).map _ = _
      rw [setBytes, (setByteList_iff l _ (harr l rfl)).2 h]
      rfl
    | @list l b h hb =>
      show (setBytes _).map _ = _
      rw [setBytes, (setByteList_iff l _ (harr l rfl)).2 h]
      cases b with
      | nil => exact absurd rfl hb
      | cons x b => rfl

theorem tmHex_iff (m : Option JVal) (s : Slice) : tmHex m = some s ↔ HexMember m s := by
  constructor
  · intro h
    unfold tmHex at h
    split at h
    · cases h; exact .absent (Or.inl rfl)
    · cases h; exact .absent (Or.inr rfl)
    · rename_i v _
      unfold setHex at h
      split at h
      · rename_i t _
        cases hb : hexDec t with
        | none => rw [hb] at h; cases h
        | some b =>
          rw [hb] at h
          simp only [Option.map_some, Option.some.injEq] at h
          subst h
          exact .hex (hexDec_iff.1 hb)
      · cases h
  · intro h
    cases h with
    | absent h => rcases h with rfl | rfl <;> rfl
    | hex h =>
      simp [tmHex, setHex, hexDec_iff.2 h]

/-- The reader and the specification agree. -/
theorem readState_iff {bs : Bytes} {f : PFile} : readState bs = some f ↔ StateText f bs := by
  have e1 := fun l => member_eq l "height" fHeight (by decide +kernel)
  have e2 := fun l => member_eq l "round" fRound (by decide +kernel)
  have e3 := fun l => member_eq l "step" fStep (by decide +kernel)
  have e4 := fun l => member_eq l "ephemeral_public" fEphemeral (by decide +kernel)
  have e5 := fun l => member_eq l "signature" fSignature (by decide +kernel)
  have e6 := fun l => member_eq l "signbytes" fSignBytes (by decide +kernel)
  constructor
  · intro h
    unfold readState at h
    split at h
    · rename_i hp
      cases h
      exact .null (parseJson_iff.1 hp)
    · rename_i l hp
      have hj := parseJson_iff.1 hp
      split at h
      · rename_i a1 a2 a3 a4 a5 a6
        cases h
        rw [e1] at a1
        rw [e2] at a2
        rw [e3] at a3
        rw [e4] at a4
        rw [e5] at a5
        rw [e6] at a6
        exact .obj hj ((tmInt64_iff _ _).1 a1) ((tmInt64_iff _ _).1 a2)
          ((tmInt8_iff _ _ fun v hv => lastNamed_json hj hv).1 a3) ((tmBytes_iff _ _ fun v hv => lastNamed_json hj hv).1 a4)
          ((tmBytes_iff _ _ fun v hv => lastNamed_json hj hv).1 a5)
          ((tmHex_iff _ _).1 a6)
      · cases h
    · cases h
  · intro h
    cases h with
    | null h =>
      unfold readState
      rw [parseJson_iff.2 h]
    | obj h hh hr hs he hg hb =>
      unfold readState
      rw [parseJson_iff.2 h]
      simp only [e1, e2, e3, e4, e5, e6, (tmInt64_iff _ _).2 hh, (tmInt64_iff _ _).2 hr,
        (tmInt8_iff _ _ fun v hv => lastNamed_json h hv).2 hs, (tmBytes_iff _ _ fun v hv => lastNamed_json h hv).2 he,
        (tmBytes_iff _ _ fun v hv => lastNamed_json h hv).2 hg,
        (tmHex_iff _ _).2 hb]

/-- An object or `null` ends where it ends: of a text and a longer one, the longer one only adds white space. -/
theorem json_prefix {v v' : JVal} {p q : Bytes} (hv : ¬ ∃ raw, v = .num raw) (h : JsonText v p) (h' : JsonText v' (p ++ q)) :
    v' = v ∧ Blank q := by
  obtain ⟨⟨w, t, w1, hw, hw1, rfl, ht⟩, _⟩ := h
  have hf := json_fuel ht
  have hp := json_complete ht (2 * (w ++ t ++ w1 ++ q).length + 2) (w1 ++ q) (fun hn => absurd hn hv)
    (by simp only [List.length_append]; omega)
  have h2 := parseJson_iff.2 h'
  unfold parseJson at h2
  have e : w ++ t ++ w1 ++ q = w ++ (t ++ (w1 ++ q)) := by simp
  rw [e] at hp h2
  rw [parseVal_blank _ _ _ hw, hp] at h2
  simp only at h2
  split at h2
  · rename_i hb
    cases h2
    refine ⟨rfl, fun c hc => skipWs_nil.1 hb.1 c (by simp [hc])⟩
  · cases h2

end Horcrux
