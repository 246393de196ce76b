import Verif.Spec.KeyText
import Verif.Lemmas.StateText
import Verif.Lemmas.KeyFile
/-
The model's reader of key shares accepts exactly the texts of Spec/KeyText.
-/
namespace Horcrux
open Spec

/-- The characters of the names of the members. -/
def NameChar (c : UInt8) : Prop := (97 ≤ c ∧ c ≤ 122) ∨ c = 95

instance (c : UInt8) : Decidable (NameChar c) := by unfold NameChar; infer_instance

theorem foldKey_plain (c : UInt8) (s : Bytes) (h1 : c ≠ 0xe2) (h2 : c ≠ 0xc5) :
    foldKey (c :: s) = (if 65 ≤ c ∧ c ≤ 90 then c + 32 else c) :: foldKey s := by
  rw [foldKey]
  · intro s' h; exact absurd h h1
  · intro s' h; exact absurd h h2

theorem nameChar_same : ∀ c : UInt8, NameChar c → c ≠ 0xe2 ∧ c ≠ 0xc5 ∧ ¬ (65 ≤ c ∧ c ≤ 90) := by
  apply u8_forall
  decide +kernel

theorem nameChar_capital : ∀ c : UInt8, 97 ≤ c ∧ c ≤ 122 → c - 32 ≠ 0xe2 ∧ c - 32 ≠ 0xc5 ∧ (65 ≤ c - 32 ∧ c - 32 ≤ 90) ∧
    c - 32 + 32 = c := by
  apply u8_forall
  decide +kernel

theorem capital_char : ∀ c : UInt8, (65 ≤ c ∧ c ≤ 90) → (97 ≤ c + 32 ∧ c + 32 ≤ 122) ∧ c + 32 - 32 = c := by
  apply u8_forall
  decide +kernel

theorem foldKey_of_same {k n : Bytes} (h : SameName k n) (hn : ∀ c ∈ n, NameChar c) : foldKey k = n := by
  induction h with
  | nil => rfl
  | same c h ih =>
    obtain ⟨h1, h2, h3⟩ := nameChar_same c (hn c (by simp))
    rw [foldKey_plain c _ h1 h2, if_neg h3, ih fun c hc => hn c (by simp [hc])]
  | @capital c k n hc h ih =>
    obtain ⟨h1, h2, h3, h4⟩ := nameChar_capital c hc
    rw [foldKey_plain _ _ h1 h2, if_pos h3, h4, ih fun c hc => hn c (by simp [hc])]
  | kelvin h ih =>
    have e : utf8 '\u212a' = [0xe2, 0x84, 0xaa] := by decide +kernel
    rw [e]
    simp only [List.cons_append, List.nil_append, foldKey]
    rw [ih fun c hc => hn c (by simp [hc])]
  | longS h ih =>
    have e : utf8 '\u017f' = [0xc5, 0xbf] := by decide +kernel
    rw [e]
    simp only [List.cons_append, List.nil_append, foldKey]
    rw [ih fun c hc => hn c (by simp [hc])]

theorem same_foldKey (k : Bytes) : SameName k (foldKey k) := by
  have e1 : utf8 '\u212a' = [0xe2, 0x84, 0xaa] := by decide +kernel
  have e2 : utf8 '\u017f' = [0xc5, 0xbf] := by decide +kernel
  fun_induction foldKey k with
  | case1 s ih =>
    have := SameName.kelvin ih
    rw [e1] at this
    exact this
  | case2 s ih =>
    have := SameName.longS ih
    rw [e2] at this
    exact this
  | case3 c s _ _ ih =>
    split
    · rename_i h
      obtain ⟨h1, h2⟩ := capital_char c h
      have := SameName.capital h1 ih
      rw [h2] at this
      exact this
    · exact .same c ih
  | case4 => exact .nil

theorem foldKey_iff {k n : Bytes} (hn : ∀ c ∈ n, NameChar c) : foldKey k = n ↔ SameName k n :=
  ⟨fun h => h ▸ same_foldKey k, fun h => foldKey_of_same h hn⟩

/-- The values of the members with a name. -/
def valuesOf (n : Bytes) : JObj → List JVal
  | .nil => []
  | .cons k v l => if foldKey k = n then v :: valuesOf n l else valuesOf n l

theorem named_iff {name : String} (hn : ∀ c ∈ text name, NameChar c) : ∀ {l : JObj} {vs : List JVal},
    Named name l vs ↔ valuesOf (text name) l = vs
  | .nil, vs => by
    constructor
    · intro h; cases h; rfl
    · rintro rfl; exact .nil
  | .cons k v l, vs => by
    rw [valuesOf]
    constructor
    · intro h
      cases h with
      | hit hk h => rw [if_pos ((foldKey_iff hn).2 hk), named_iff hn |>.1 h]
      | miss hk h => rw [if_neg fun e => hk ((foldKey_iff hn).1 e), named_iff hn |>.1 h]
    · intro h
      split at h
      · rename_i hk
        subst h
        exact .hit ((foldKey_iff hn).1 hk) ((named_iff hn).2 rfl)
      · rename_i hk
        exact .miss (fun e => hk ((foldKey_iff hn).2 e)) ((named_iff hn).2 h)

/-- The fields of the struct are set one by one. -/
theorem decodeKey_iff : ∀ (l : JObj) (a a' : KeyAux), decodeFields setKeyField a l = some a' ↔
    (valuesOf nRsaKey l).foldlM (fun _ v => setBytes v) a.rsaKey = some a'.rsaKey ∧
    (valuesOf nPubKey l).foldlM (fun _ v => setBytes v) a.pubKey = some a'.pubKey ∧
    (valuesOf nRsaPubs l).foldlM (fun _ v => setByteLists v) a.rsaPubs = some a'.rsaPubs ∧
    (valuesOf nSecretShare l).foldlM (fun _ v => setBytes v) a.share = some a'.share ∧
    (valuesOf nId l).foldlM (fun old v => setInt (-(2 ^ 63)) (2 ^ 63 - 1) old v) a.id = some a'.id
  | .nil, a, a' => by
    simp only [decodeFields, valuesOf, List.foldlM_nil, Option.pure_def, Option.some.injEq]
    constructor
    · rintro rfl; exact ⟨rfl, rfl, rfl, rfl, rfl⟩
    · rintro ⟨h1, h2, h3, h4, h5⟩
      cases a; cases a'
      simp only at h1 h2 h3 h4 h5
      subst h1 h2 h3 h4 h5
      rfl
  | .cons k v l, a, a' => by
    have ih := fun b => decodeKey_iff l b a'
    have d12 : nRsaKey ≠ nPubKey := by decide
    have d13 : nRsaKey ≠ nRsaPubs := by decide
    have d14 : nRsaKey ≠ nSecretShare := by decide
    have d15 : nRsaKey ≠ nId := by decide
    have d23 : nPubKey ≠ nRsaPubs := by decide
    have d24 : nPubKey ≠ nSecretShare := by decide
    have d25 : nPubKey ≠ nId := by decide
    have d34 : nRsaPubs ≠ nSecretShare := by decide
    have d35 : nRsaPubs ≠ nId := by decide
    have d45 : nSecretShare ≠ nId := by decide
    simp only [decodeFields, valuesOf, setKeyField]
    by_cases h1 : foldKey k = nRsaKey
    · simp only [h1, d12, d13, d14, d15, if_true, if_false, List.foldlM_cons]
      cases setBytes v with
      | none => simp
      | some x => simp only [Option.map_some, ih, Option.bind_eq_bind, Option.bind_some]
    by_cases h2 : foldKey k = nPubKey
    · simp only [h2, d12.symm, d23, d24, d25, if_true, if_false, List.foldlM_cons]
      cases setBytes v with
      | none => simp
      | some x => simp only [Option.map_some, ih, Option.bind_eq_bind, Option.bind_some]
    by_cases h3 : foldKey k = nRsaPubs
    · simp only [h3, d13.symm, d23.symm, d34, d35, if_true, if_false, List.foldlM_cons]
      cases setByteLists v with
      | none => simp
      | some x => simp only [Option.map_some, ih, Option.bind_eq_bind, Option.bind_some]
    by_cases h4 : foldKey k = nSecretShare
    · simp only [h4, d14.symm, d24.symm, d34.symm, d45, if_true, if_false, List.foldlM_cons]
      cases setBytes v with
      | none => simp
      | some x => simp only [Option.map_some, ih, Option.bind_eq_bind, Option.bind_some]
    by_cases h5 : foldKey k = nId
    · simp only [h5, d15.symm, d25.symm, d35.symm, d45.symm, if_true, if_false, List.foldlM_cons]
      cases setInt (-(2 ^ 63)) (2 ^ 63 - 1) a.id v with
      | none => simp
      | some x => simp only [Option.map_some, ih, Option.bind_eq_bind, Option.bind_some]
    simp only [h1, h2, h3, h4, h5, if_false, ih]

theorem valuesOf_json {n : Bytes} : ∀ {l : JObj}, (∀ m ∈ membersOf l, ∃ t, Json m.2 t) → ∀ v ∈ valuesOf n l, ∃ t, Json v t
  | .nil, _, v, hv => by simp [valuesOf] at hv
  | .cons k w l, h, v, hv => by
    rw [valuesOf] at hv
    split at hv
    · rcases List.mem_cons.1 hv with rfl | hv
      · exact h (k, v) (by simp [membersOf])
      · exact valuesOf_json (fun m hm => h m (by simp [membersOf, hm])) v hv
    · exact valuesOf_json (fun m hm => h m (by simp [membersOf, hm])) v hv

theorem obj_members {l : JObj} {bs : Bytes} (h : JsonText (.obj l) bs) : ∀ m ∈ membersOf l, ∃ t, Json m.2 t := by
  obtain ⟨⟨w, t, w', -, -, -, ht⟩, -⟩ := h
  cases ht with
  | noMembers _ => simp [membersOf]
  | obj h => exact members_json h

theorem arr_elems {l : JArr} {t : Bytes} (h : Json (.arr l) t) : l = .nil ∨ ∃ t, JsonElems l t := by
  cases h with
  | noElems _ => exact Or.inl rfl
  | arr h => exact Or.inr ⟨_, h⟩

theorem setBytes_iff {v : JVal} {t : Bytes} {x : Slice} (ht : Json v t) : setBytes v = some x ↔ KeyBytes (some v) x := by
  constructor
  · intro h
    unfold setBytes at h
    split at h
    · rw [Option.map_eq_some_iff] at h
      obtain ⟨b, hb, rfl⟩ := h
      exact .base64 (b64Dec_iff.1 hb)
    · rw [Option.map_eq_some_iff] at h
      obtain ⟨b, hb, rfl⟩ := h
      exact .list ((setByteList_iff _ _ (arr_elems ht)).1 hb)
    · cases h; exact .absent (.inr rfl)
    · cases h
  · intro h
    cases h with
    | absent h => rcases h with h | h <;> cases h; rfl
    | base64 h => rw [setBytes, b64Dec_iff.2 h]; rfl
    | list h => rw [setBytes, (setByteList_iff _ _ (arr_elems ht)).2 h]; rfl

theorem elem_head {v : JVal} {l : JArr} {t : Bytes} (h : JsonElems (.cons v l) t) : ∃ t', Json v t' := by
  cases h with
  | one _ _ hv => exact ⟨_, hv⟩
  | cons _ _ hv _ => exact ⟨_, hv⟩

theorem setByteElems_iff : ∀ {l : JArr} {xs : List Slice}, (l = .nil ∨ ∃ t, JsonElems l t) →
    (setByteElems l = some xs ↔ KeyElems l xs)
  | .nil, xs, _ => by
    simp only [setByteElems, Option.some.injEq]
    constructor
    · rintro rfl; exact .nil
    · intro h; cases h; rfl
  | .cons v l, xs, h => by
    obtain ⟨t, ht⟩ : ∃ t, JsonElems (.cons v l) t := by
      rcases h with h | h
      · cases h
      · exact h
    obtain ⟨t', hv⟩ := elem_head ht
    have ih := fun xs => setByteElems_iff (l := l) (xs := xs) (elems_tail ht)
    rw [setByteElems]
    constructor
    · intro hs
      split at hs
      · rename_i x xs' hx hxs
        cases hs
        exact .cons ((setBytes_iff hv).1 hx) ((ih _).1 hxs)
      · cases hs
    · intro hs
      cases hs with
      | cons hx hl => rw [(setBytes_iff hv).2 hx, (ih _).2 hl]

theorem setByteLists_iff {v : JVal} {t : Bytes} {xs : List Slice} (ht : Json v t) :
    setByteLists v = some xs ↔ KeyList (some v) xs := by
  constructor
  · intro h
    unfold setByteLists at h
    split at h
    · exact .arr ((setByteElems_iff (arr_elems ht)).1 h)
    · cases h; exact .absent (.inr rfl)
    · cases h
  · intro h
    cases h with
    | absent h => rcases h with h | h <;> cases h; rfl
    | arr h => rw [setByteLists, (setByteElems_iff (arr_elems ht)).2 h]

theorem setId_iff {v : JVal} {t : Bytes} {n : Int} (ht : Json v t) :
    setInt (-(2 ^ 63)) (2 ^ 63 - 1) 0 v = some n ↔ KeyInt (some v) n := by
  rw [setInt_iff ht (by decide) (by decide)]
  constructor
  · rintro (⟨rfl, rfl⟩ | ⟨raw, rfl, h1, h2, h3⟩)
    · exact .absent (.inr rfl)
    · exact .plain h1 ⟨h2, by omega⟩
  · intro h
    cases h with
    | absent h =>
      rcases h with h | h <;> cases h
      exact .inl ⟨rfl, rfl⟩
    | plain hn hr => exact .inr ⟨_, rfl, hn, hr.1, by have := hr.2; omega⟩

/-- At most one member: set once or not at all. -/
theorem fold_one {α : Type} {f : α → JVal → Option α} {a x : α} {P : Option JVal → α → Prop} (m : Option JVal)
    (h0 : ∀ y, P none y ↔ y = a) (hf : ∀ v, m = some v → (f a v = some x ↔ P (some v) x)) :
    m.toList.foldlM f a = some x ↔ P m x := by
  cases m with
  | none =>
    simp only [Option.toList_none, List.foldlM_nil, Option.pure_def, Option.some.injEq, h0]
    exact eq_comm
  | some v =>
    simp only [Option.toList_some, List.foldlM_cons, List.foldlM_nil]
    rw [← hf v rfl]
    cases f a v <;> simp

theorem toList_of_short {α : Type} (l : List α) (h : l.length ≤ 1) : ∃ m : Option α, m.toList = l := by
  match l, h with
  | [], _ => exact ⟨none, rfl⟩
  | [a], _ => exact ⟨some a, rfl⟩

theorem keyBytes_none (y : Slice) : KeyBytes none y ↔ y = none := by
  constructor
  · intro h; cases h; rfl
  · rintro rfl; exact .absent (.inl rfl)

theorem keyList_none (y : List Slice) : KeyList none y ↔ y = [] := by
  constructor
  · intro h; cases h; rfl
  · rintro rfl; exact .absent (.inl rfl)

theorem keyInt_none (y : Int) : KeyInt none y ↔ y = 0 := by
  constructor
  · intro h; cases h; rfl
  · rintro rfl; exact .absent (.inl rfl)

/-- The struct that a key share is read into. -/
def Spec.RawKey.aux (r : RawKey) : KeyAux := ⟨r.rsaKey, r.pubKey, r.rsaPubs, r.share, r.id⟩

theorem keyText_iff {l : JObj} {bs : Bytes} {r : RawKey} {m1 m2 m3 m4 m5 : Option JVal} (h : JsonText (.obj l) bs)
    (n1 : OneMember l "rsa_key" m1) (n2 : OneMember l "pub_key" m2) (n3 : OneMember l "rsa_pubs" m3)
    (n4 : OneMember l "secret_share" m4) (n5 : OneMember l "id" m5) :
    decodeFields setKeyField ⟨none, none, [], none, 0⟩ l = some r.aux ↔
      KeyBytes m1 r.rsaKey ∧ KeyBytes m2 r.pubKey ∧ KeyList m3 r.rsaPubs ∧ KeyBytes m4 r.share ∧ KeyInt m5 r.id := by
  have t1 : text "rsa_key" = nRsaKey := by decide +kernel
  have t2 : text "pub_key" = nPubKey := by decide +kernel
  have t3 : text "rsa_pubs" = nRsaPubs := by decide +kernel
  have t4 : text "secret_share" = nSecretShare := by decide +kernel
  have t5 : text "id" = nId := by decide +kernel
  have e1 := (named_iff (by decide +kernel)).1 n1
  have e2 := (named_iff (by decide +kernel)).1 n2
  have e3 := (named_iff (by decide +kernel)).1 n3
  have e4 := (named_iff (by decide +kernel)).1 n4
  have e5 := (named_iff (by decide +kernel)).1 n5
  rw [t1] at e1
  rw [t2] at e2
  rw [t3] at e3
  rw [t4] at e4
  rw [t5] at e5
  have hj : ∀ {n : Bytes} {m : Option JVal}, valuesOf n l = m.toList → ∀ v, m = some v → ∃ t, Json v t := by
    intro n m e v hv
    exact valuesOf_json (obj_members h) v (by rw [e, hv]; simp)
  rw [decodeKey_iff, e1, e2, e3, e4, e5]
  rw [fold_one (P := KeyBytes) m1 keyBytes_none fun v hv => setBytes_iff (hj e1 v hv).choose_spec,
    fold_one (P := KeyBytes) m2 keyBytes_none fun v hv => setBytes_iff (hj e2 v hv).choose_spec,
    fold_one (P := KeyList) m3 keyList_none fun v hv => setByteLists_iff (hj e3 v hv).choose_spec,
    fold_one (P := KeyBytes) m4 keyBytes_none fun v hv => setBytes_iff (hj e4 v hv).choose_spec,
    fold_one (P := KeyInt) m5 keyInt_none fun v hv => setId_iff (hj e5 v hv).choose_spec]
  rfl

end Horcrux
