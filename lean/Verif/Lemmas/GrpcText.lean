import Verif.Spec.GrpcText
import Verif.Lemmas.Encodings
import Verif.Lemmas.Grpc
import Verif.Model.Server
/-
Lemmas: the gRPC messages between cosigners are read as `Spec/GrpcText.lean` says.
-/
namespace Horcrux
open Spec

variable {α : Type}

/-! ### Fields -/

theorem taken_typed {ns ls : List Nat} {fs : List FVal} {bs : Bytes} (he : TakenFor ns ls fs bs) : Typed ns ls fs := by
  unfold Typed
  induction he with
  | nil => simp
  | num hn _ _ _ ih =>
    intro f hf
    rcases List.mem_cons.1 hf with rfl | hf
    · exact .inl ⟨_, hn, _, rfl⟩
    · exact ih f hf
  | bytes hn _ _ _ ih =>
    intro f hf
    rcases List.mem_cons.1 hf with rfl | hf
    · exact .inr ⟨_, hn, _, rfl⟩
    · exact ih f hf
  | other _ _ _ _ ih => exact ih

theorem pieces_typed {ns ls : List Nat} {xs : List Bytes} {gs : List FVal} (h : Pieces ns ls xs gs) : Typed ns ls gs := by
  induction h with
  | nil => intro f hf; simp at hf
  | cons h _ ih =>
    intro f hf
    rcases List.mem_append.1 hf with hf | hf
    · exact taken_typed h f hf
    · exact ih f hf

/-- Pieces are read one after the other. -/
theorem gpieces_iff (h : Handler α) {ns ls : List Nat} (hh : h.Has ns ls) {xs : List Bytes} : ∀ {m m' : α},
    xs.foldlM (gDecode h) m = some m' ↔ ∃ gs, Pieces ns ls xs gs ∧ gs.foldlM (putField h) m = some m' := by
  induction xs with
  | nil =>
    intro m m'
    constructor
    · intro e; exact ⟨[], .nil, e⟩
    · rintro ⟨gs, hp, e⟩; cases hp; exact e
  | cons x xs ih =>
    intro m m'
    rw [List.foldlM_cons]
    constructor
    · intro e
      cases hd : gDecode h m x with
      | none => rw [hd] at e; simp at e
      | some m1 =>
        rw [hd] at e
        obtain ⟨fs, h1, h2⟩ := (gDecode_iff h hh).1 hd
        obtain ⟨gs, h3, h4⟩ := ih.1 e
        refine ⟨fs ++ gs, .cons h1 h3, ?_⟩
        rw [List.foldlM_append, h2]
        exact h4
    · rintro ⟨gs, hp, e⟩
      cases hp with
      | cons h1 h2 =>
        rw [List.foldlM_append] at e
        rw [gDecode_taken h hh h1]
        rename_i fs gs
        cases hd : fs.foldlM (putField h) m with
        | none => rw [hd] at e; simp at e
        | some m1 =>
          rw [hd] at e
          exact ih.2 ⟨_, h2, e⟩

/-! ### Values -/

theorem i64_bits {n : Nat} {fs : List FVal} {x : Int} : i64 (lastNum n fs : Nat) = x ↔ SaysBits 64 n fs x := by
  unfold SaysBits i64 Int.bmod
  change _ ↔ _ ∧ _ ∧ ∃ q : Int, ((lastNum n fs : Nat) : Int) = _
  generalize ((lastNum n fs : Nat) : Int) = v
  simp only [Nat.reduceSub, Nat.reducePow, Int.reducePow]
  constructor
  · intro h
    refine ⟨by omega, by omega, (v - x) / 18446744073709551616, by omega⟩
  · rintro ⟨h1, h2, q, h3⟩; omega

theorem i32_bits {n : Nat} {fs : List FVal} {x : Int} : i32 (lastNum n fs : Nat) = x ↔ SaysBits 32 n fs x := by
  unfold SaysBits i32 Int.bmod
  change _ ↔ _ ∧ _ ∧ ∃ q : Int, ((lastNum n fs : Nat) : Int) = _
  generalize ((lastNum n fs : Nat) : Int) = v
  simp only [Nat.reduceSub, Nat.reducePow, Int.reducePow]
  constructor
  · intro h
    refine ⟨by omega, by omega, (v - x) / 4294967296, by omega⟩
  · rintro ⟨h1, h2, q, h3⟩; omega

theorem i8_bits {n : Nat} {fs : List FVal} {x : Int} : i8 (i32 (lastNum n fs : Nat)) = x ↔ SaysBits 8 n fs x := by
  unfold SaysBits i8 i32 Int.bmod
  change _ ↔ _ ∧ _ ∧ ∃ q : Int, ((lastNum n fs : Nat) : Int) = _
  generalize ((lastNum n fs : Nat) : Int) = v
  simp only [Nat.reduceSub, Nat.reducePow, Int.reducePow]
  constructor
  · intro h
    refine ⟨by omega, by omega, (v - x) / 256, by omega⟩
  · rintro ⟨h1, h2, q, h3⟩; omega

theorem moment_bits {n : Nat} {fs : List FVal} {t : GoTime} :
    GoTime.ofUnixNano (i64 (lastNum n fs : Nat)) = t ↔ SaysMoment n fs t := by
  unfold SaysMoment
  rw [← i64_bits]
  generalize i64 ((lastNum n fs : Nat) : Int) = v
  obtain ⟨sec, nsec⟩ := t
  unfold GoTime.ofUnixNano
  simp only [GoTime.mk.injEq]
  omega

theorem slice_says {n : Nat} {fs : List FVal} {x : Slice} : Slice.ofWire (lastLen n fs) = x ↔ SaysSlice n fs x := by
  unfold SaysSlice SaysBytes Slice.ofWire
  change _ ↔ (_ ∧ lastLen n fs = []) ∨ ∃ bs, _ ∧ _ ∧ lastLen n fs = bs
  constructor
  · rintro rfl
    split
    · exact .inl ⟨rfl, by assumption⟩
    · exact .inr ⟨_, rfl, by assumption, rfl⟩
  · rintro (⟨rfl, h⟩ | ⟨bs, rfl, h1, rfl⟩)
    · rw [if_pos h]
    · rw [if_neg h1]

theorem i64_self (n : Nat) (fs : List FVal) : SaysBits 64 n fs (i64 (lastNum n fs : Nat)) := i64_bits.1 (Eq.refl _)
theorem i32_self (n : Nat) (fs : List FVal) : SaysBits 32 n fs (i32 (lastNum n fs : Nat)) := i32_bits.1 (Eq.refl _)
theorem i8_self (n : Nat) (fs : List FVal) : SaysBits 8 n fs (i8 (i32 (lastNum n fs : Nat))) := i8_bits.1 (Eq.refl _)
theorem moment_self (n : Nat) (fs : List FVal) : SaysMoment n fs (GoTime.ofUnixNano (i64 (lastNum n fs : Nat))) :=
  moment_bits.1 (Eq.refl _)
theorem slice_self (n : Nat) (fs : List FVal) : SaysSlice n fs (Slice.ofWire (lastLen n fs)) := slice_says.1 (Eq.refl _)

/-! ### Messages -/

theorem pblock_fold (fs : List FVal) (ht : Typed [1, 2, 3, 5] [4] fs) :
    fs.foldlM (putField pblockHandler) .zero = some ⟨i64 (lastNum 1 fs : Nat), i64 (lastNum 2 fs : Nat),
      i32 (lastNum 3 fs : Nat), lastLen 4 fs, i64 (lastNum 5 fs : Nat)⟩ := by
  induction fs using snoc_ind with
  | h0 => rfl
  | h1 fs f ih =>
    obtain ⟨h1, h2⟩ := ht.snoc
    rw [foldlM_snoc, ih h1]
    rcases h2 with ⟨n, hn, v, rfl⟩ | ⟨n, hn, x, rfl⟩
    · simp only [List.mem_cons, List.not_mem_nil, or_false] at hn
      rcases hn with rfl | rfl | rfl | rfl <;> simp [putField, pblockHandler, lastNum_num, lastLen_num]
    · simp only [List.mem_singleton] at hn
      subst hn
      simp [putField, pblockHandler, lastNum_bytes, lastLen_bytes]

theorem phrst_fold (fs : List FVal) (ht : Typed [1, 2, 3, 4] [] fs) :
    fs.foldlM (putField phrstHandler) .zero = some ⟨i64 (lastNum 1 fs : Nat), i64 (lastNum 2 fs : Nat),
      i32 (lastNum 3 fs : Nat), i64 (lastNum 4 fs : Nat)⟩ := by
  induction fs using snoc_ind with
  | h0 => rfl
  | h1 fs f ih =>
    obtain ⟨h1, h2⟩ := ht.snoc
    rw [foldlM_snoc, ih h1]
    rcases h2 with ⟨n, hn, v, rfl⟩ | ⟨n, hn, x, rfl⟩
    · simp only [List.mem_cons, List.not_mem_nil, or_false] at hn
      rcases hn with rfl | rfl | rfl | rfl <;> simp [putField, phrstHandler, lastNum_num]
    · simp at hn

theorem ppart_fold (fs : List FVal) (ht : Typed [1, 2] [3, 4, 5] fs) :
    fs.foldlM (putField ppartHandler) .zero = some ⟨i32 (lastNum 1 fs : Nat), i32 (lastNum 2 fs : Nat),
      lastLen 3 fs, lastLen 4 fs, lastLen 5 fs⟩ := by
  induction fs using snoc_ind with
  | h0 => rfl
  | h1 fs f ih =>
    obtain ⟨h1, h2⟩ := ht.snoc
    rw [foldlM_snoc, ih h1]
    rcases h2 with ⟨n, hn, v, rfl⟩ | ⟨n, hn, x, rfl⟩
    · simp only [List.mem_cons, List.not_mem_nil, or_false] at hn
      rcases hn with rfl | rfl <;> simp [putField, ppartHandler, lastNum_num, lastLen_num]
    · simp only [List.mem_cons, List.not_mem_nil, or_false] at hn
      rcases hn with rfl | rfl | rfl <;> simp [putField, ppartHandler, lastNum_bytes, lastLen_bytes]

theorem setSignRes_fold (fs : List FVal) (ht : Typed [2] [1, 3] fs) :
    fs.foldlM (putField setSignResHandler) ⟨[], 0, []⟩ =
      some ⟨lastLen 1 fs, i64 (lastNum 2 fs : Nat), lastLen 3 fs⟩ := by
  induction fs using snoc_ind with
  | h0 => rfl
  | h1 fs f ih =>
    obtain ⟨h1, h2⟩ := ht.snoc
    rw [foldlM_snoc, ih h1]
    rcases h2 with ⟨n, hn, v, rfl⟩ | ⟨n, hn, x, rfl⟩
    · simp only [List.mem_singleton] at hn
      subst hn
      simp [putField, setSignResHandler, lastNum_num, lastLen_num]
    · simp only [List.mem_cons, List.not_mem_nil, or_false] at hn
      rcases hn with rfl | rfl <;> simp [putField, setSignResHandler, lastNum_bytes, lastLen_bytes]

theorem signBlockRes_fold (fs : List FVal) (ht : Typed [] [1] fs) :
    fs.foldlM (putField signBlockResHandler) [] = some (lastLen 1 fs) := by
  induction fs using snoc_ind with
  | h0 => rfl
  | h1 fs f ih =>
    obtain ⟨h1, h2⟩ := ht.snoc
    rw [foldlM_snoc, ih h1]
    rcases h2 with ⟨n, hn, v, rfl⟩ | ⟨n, hn, x, rfl⟩
    · simp at hn
    · simp only [List.mem_singleton] at hn
      subst hn
      simp [putField, signBlockResHandler, lastLen_bytes]

theorem pblock_has : pblockHandler.Has [1, 2, 3, 5] [4] := by
  refine ⟨?_, ?_, ?_⟩ <;> intro n hn
  · simp only [List.mem_cons, List.not_mem_nil, or_false] at hn; rcases hn with rfl | rfl | rfl | rfl <;> rfl
  · simp only [List.mem_singleton] at hn; subst hn; rfl
  · simp_all [pblockHandler]

theorem phrst_has : phrstHandler.Has [1, 2, 3, 4] [] := by
  refine ⟨?_, ?_, ?_⟩ <;> intro n hn
  · simp only [List.mem_cons, List.not_mem_nil, or_false] at hn; rcases hn with rfl | rfl | rfl | rfl <;> rfl
  · simp at hn
  · simp_all [phrstHandler]

theorem ppart_has : ppartHandler.Has [1, 2] [3, 4, 5] := by
  refine ⟨?_, ?_, ?_⟩ <;> intro n hn
  · simp only [List.mem_cons, List.not_mem_nil, or_false] at hn; rcases hn with rfl | rfl <;> rfl
  · simp only [List.mem_cons, List.not_mem_nil, or_false] at hn; rcases hn with rfl | rfl | rfl <;> rfl
  · simp_all [ppartHandler]

theorem setSignRes_has : setSignResHandler.Has [2] [1, 3] := by
  refine ⟨?_, ?_, ?_⟩ <;> intro n hn
  · simp only [List.mem_singleton] at hn; subst hn; rfl
  · simp only [List.mem_cons, List.not_mem_nil, or_false] at hn; rcases hn with rfl | rfl <;> rfl
  · simp_all [setSignResHandler]

theorem signBlockReq_has : signBlockReqHandler.Has [] [1, 2] := by
  refine ⟨?_, ?_, ?_⟩ <;> intro n hn <;> simp_all [signBlockReqHandler]

theorem signBlockRes_has : signBlockResHandler.Has [] [1] := by
  refine ⟨?_, ?_, ?_⟩ <;> intro n hn <;> simp_all [signBlockResHandler]

theorem getReq_has : getReqHandler.Has [] [1] := by
  refine ⟨?_, ?_, ?_⟩ <;> intro n hn <;> simp_all [getReqHandler]

theorem getRes_has : getResHandler.Has [] [1] := by
  refine ⟨?_, ?_, ?_⟩ <;> intro n hn <;> simp_all [getResHandler]

theorem transferReq_has : transferReqHandler.Has [] [1] := by
  refine ⟨?_, ?_, ?_⟩ <;> intro n hn <;> simp_all [transferReqHandler]

theorem setSignReq_has : setSignReqHandler.Has [] [1, 2, 3] := by
  refine ⟨?_, ?_, ?_⟩ <;> intro n hn
  · simp at hn
  · simp only [List.mem_cons, List.not_mem_nil, or_false] at hn; rcases hn with rfl | rfl | rfl <;> rfl
  · simp_all [setSignReqHandler]

/-! ### Messages within messages -/

theorem Typed.cons {ns ls : List Nat} {fs : List FVal} {f : FVal} (h : Typed ns ls (f :: fs)) :
    Typed ns ls fs ∧ ((∃ n ∈ ns, ∃ v, f = .num n v) ∨ ∃ n ∈ ls, ∃ x, f = .bytes n x) :=
  ⟨fun g hg => h g (by simp [hg]), h f (by simp)⟩

theorem lens_cons (n k : Nat) (x : Bytes) (fs : List FVal) :
    lens n (.bytes k x :: fs) = if k = n then x :: lens n fs else lens n fs := by
  unfold lens
  rw [List.filterMap_cons]
  split <;> simp_all

theorem getLastD_cons (x : Bytes) (xs : List Bytes) (d : Bytes) :
    (x :: xs).getLast?.getD d = xs.getLast?.getD x := by
  rw [List.getLast?_cons]; rfl

theorem signBlockReq_fold (fs : List FVal) (ht : Typed [] [1, 2] fs) : ∀ m : PSignBlockReq,
    (fs.foldlM (putField signBlockReqHandler) m).map (fun r => (r.chainID, r.block.getD .zero)) =
      if (lens 1 fs).all utf8Valid then
        ((lens 2 fs).foldlM (gDecode pblockHandler) (m.block.getD .zero)).map ((lens 1 fs).getLast?.getD m.chainID, ·)
      else none := by
  induction fs with
  | nil => intro m; rfl
  | cons f fs ih =>
    intro m
    obtain ⟨h1, h2⟩ := ht.cons
    rcases h2 with ⟨n, hn, v, rfl⟩ | ⟨n, hn, x, rfl⟩
    · simp at hn
    · simp only [List.mem_cons, List.not_mem_nil, or_false] at hn
      rw [List.foldlM_cons]
      rcases hn with rfl | rfl
      · simp only [lens_cons, if_true, Nat.reduceEqDiff, if_false, List.all_cons, Bool.and_eq_true, getLastD_cons]
        cases hu : utf8Valid x with
        | false => simp [putField, signBlockReqHandler, hu]
        | true =>
          have : putField signBlockReqHandler m (.bytes 1 x) = some { m with chainID := x } := by
            simp [putField, signBlockReqHandler, hu]
          rw [this]
          simpa using ih h1 { m with chainID := x }
      · simp only [lens_cons, if_true, Nat.reduceEqDiff, if_false, List.foldlM_cons]
        cases hd : gDecode pblockHandler (m.block.getD .zero) x with
        | none => simp [putField, signBlockReqHandler, hd]
        | some b =>
          have : putField signBlockReqHandler m (.bytes 2 x) = some { m with block := some b } := by
            simp [putField, signBlockReqHandler, hd]
          rw [this]
          simpa using ih h1 { m with block := some b }

theorem getReq_fold (fs : List FVal) (ht : Typed [] [1] fs) : ∀ m : Option PHRST,
    (fs.foldlM (putField getReqHandler) m).map (fun r => r.getD .zero) =
      (lens 1 fs).foldlM (gDecode phrstHandler) (m.getD .zero) := by
  induction fs with
  | nil => intro m; rfl
  | cons f fs ih =>
    intro m
    obtain ⟨h1, h2⟩ := ht.cons
    rcases h2 with ⟨n, hn, v, rfl⟩ | ⟨n, hn, x, rfl⟩
    · simp at hn
    · simp only [List.mem_singleton] at hn
      subst hn
      rw [List.foldlM_cons]
      simp only [lens_cons, if_true, List.foldlM_cons]
      cases hd : gDecode phrstHandler (m.getD .zero) x with
      | none => simp [putField, getReqHandler, hd]
      | some b =>
        have : putField getReqHandler m (.bytes 1 x) = some (some b) := by
          simp [putField, getReqHandler, hd]
        rw [this]
        simpa using ih h1 (some b)

theorem getRes_fold (fs : List FVal) (ht : Typed [] [1] fs) : ∀ m : List PPart,
    fs.foldlM (putField getResHandler) m = ((lens 1 fs).mapM (gDecode ppartHandler .zero)).map (m ++ ·) := by
  induction fs with
  | nil => intro m; simp [lens]
  | cons f fs ih =>
    intro m
    obtain ⟨h1, h2⟩ := ht.cons
    rcases h2 with ⟨n, hn, v, rfl⟩ | ⟨n, hn, x, rfl⟩
    · simp at hn
    · simp only [List.mem_singleton] at hn
      subst hn
      rw [List.foldlM_cons]
      simp only [lens_cons, if_true, List.mapM_cons]
      cases hd : gDecode ppartHandler .zero x with
      | none => simp [putField, getResHandler, hd]
      | some b =>
        have : putField getResHandler m (.bytes 1 x) = some (m ++ [b]) := by
          simp [putField, getResHandler, hd]
        rw [this]
        simp only [Option.bind_eq_bind, Option.bind_some]
        rw [ih h1]
        cases (lens 1 fs).mapM (gDecode ppartHandler .zero) <;> simp

theorem setSignReq_fold (fs : List FVal) (ht : Typed [] [1, 2, 3] fs) : ∀ m : PSetSignReq,
    (fs.foldlM (putField setSignReqHandler) m).map (fun r => (r.parts, r.hrst.getD .zero, r.signBytes)) =
      (((lens 1 fs).mapM (gDecode ppartHandler .zero)).bind fun ps =>
        ((lens 2 fs).foldlM (gDecode phrstHandler) (m.hrst.getD .zero)).map fun k =>
          (m.parts ++ ps, k, (lens 3 fs).getLast?.getD m.signBytes)) := by
  induction fs with
  | nil => intro m; simp [lens]
  | cons f fs ih =>
    intro m
    obtain ⟨h1, h2⟩ := ht.cons
    rcases h2 with ⟨n, hn, v, rfl⟩ | ⟨n, hn, x, rfl⟩
    · simp at hn
    · simp only [List.mem_cons, List.not_mem_nil, or_false] at hn
      rw [List.foldlM_cons]
      rcases hn with rfl | rfl | rfl
      · simp only [lens_cons, if_true, Nat.reduceEqDiff, if_false, List.mapM_cons]
        cases hd : gDecode ppartHandler .zero x with
        | none => simp [putField, setSignReqHandler, hd]
        | some b =>
          have : putField setSignReqHandler m (.bytes 1 x) = some { m with parts := m.parts ++ [b] } := by
            simp [putField, setSignReqHandler, hd]
          rw [this]
          simp only [Option.bind_eq_bind, Option.bind_some]
          rw [ih h1]
          cases (lens 1 fs).mapM (gDecode ppartHandler .zero) <;> simp
      · simp only [lens_cons, if_true, Nat.reduceEqDiff, if_false, List.foldlM_cons]
        cases hd : gDecode phrstHandler (m.hrst.getD .zero) x with
        | none =>
          simp only [putField, setSignReqHandler, hd]
          cases (lens 1 fs).mapM (gDecode ppartHandler .zero) <;> simp
        | some b =>
          have : putField setSignReqHandler m (.bytes 2 x) = some { m with hrst := some b } := by
            simp [putField, setSignReqHandler, hd]
          rw [this]
          simp only [Option.bind_eq_bind, Option.bind_some]
          rw [ih h1]
          simp
      · simp only [lens_cons, if_true, Nat.reduceEqDiff, if_false, getLastD_cons]
        have : putField setSignReqHandler m (.bytes 3 x) = some { m with signBytes := x } := by
          simp [putField, setSignReqHandler]
        rw [this]
        simp only [Option.bind_eq_bind, Option.bind_some]
        rw [ih h1]

theorem transferReq_fold (fs : List FVal) (ht : Typed [] [1] fs) : ∀ m : Bytes,
    fs.foldlM (putField transferReqHandler) m =
      if (lens 1 fs).all utf8Valid then some ((lens 1 fs).getLast?.getD m) else none := by
  induction fs with
  | nil => intro m; rfl
  | cons f fs ih =>
    intro m
    obtain ⟨h1, h2⟩ := ht.cons
    rcases h2 with ⟨n, hn, v, rfl⟩ | ⟨n, hn, x, rfl⟩
    · simp at hn
    · simp only [List.mem_singleton] at hn
      subst hn
      rw [List.foldlM_cons]
      simp only [lens_cons, if_true, List.all_cons, Bool.and_eq_true, getLastD_cons]
      cases hu : utf8Valid x with
      | false => simp [putField, transferReqHandler, hu]
      | true =>
        have : putField transferReqHandler m (.bytes 1 x) = some x := by
          simp [putField, transferReqHandler, hu]
        rw [this]
        simpa using ih h1 x

/-! ### What the messages say -/

theorem all_text (xs : List Bytes) : xs.all utf8Valid = true ↔ ∀ y ∈ xs, IsText y := by
  rw [List.all_eq_true]
  exact forall₂_congr fun y _ => utf8Valid_iff y

theorem says_block {n : Nat} {fs : List FVal} {b : Block} :
    ((lens n fs).foldlM (gDecode pblockHandler) .zero).map blockFromProto = some b ↔ SaysBlock n fs b := by
  rw [Option.map_eq_some_iff]
  unfold SaysBlock
  constructor
  · rintro ⟨p, h1, rfl⟩
    obtain ⟨gs, hg, hf⟩ := (gpieces_iff _ pblock_has).1 h1
    rw [pblock_fold gs (pieces_typed hg)] at hf
    obtain rfl := Option.some.inj hf
    simp only [blockFromProto]
    exact ⟨gs, hg, i64_self _ gs, i64_self _ gs, i8_self _ gs, rfl, moment_self _ gs⟩
  · rintro ⟨gs, hg, h1, h2, h3, h4, h5⟩
    refine ⟨_, (gpieces_iff _ pblock_has).2 ⟨gs, hg, pblock_fold gs (pieces_typed hg)⟩, ?_⟩
    obtain ⟨a, b, c, d, e⟩ := b
    unfold blockFromProto
    simp only [Block.mk.injEq]
    exact ⟨i64_bits.2 h1, i64_bits.2 h2, i8_bits.2 h3, h4, moment_bits.2 h5⟩

theorem says_hrst {n : Nat} {fs : List FVal} {k : HRST} :
    ((lens n fs).foldlM (gDecode phrstHandler) .zero).map hrstFromProto = some k ↔ SaysHRST n fs k := by
  rw [Option.map_eq_some_iff]
  unfold SaysHRST
  constructor
  · rintro ⟨p, h1, rfl⟩
    obtain ⟨gs, hg, hf⟩ := (gpieces_iff _ phrst_has).1 h1
    rw [phrst_fold gs (pieces_typed hg)] at hf
    obtain rfl := Option.some.inj hf
    simp only [hrstFromProto]
    exact ⟨gs, hg, i64_self _ gs, i64_self _ gs, i8_self _ gs, i64_self _ gs⟩
  · rintro ⟨gs, hg, h1, h2, h3, h4⟩
    refine ⟨_, (gpieces_iff _ phrst_has).2 ⟨gs, hg, phrst_fold gs (pieces_typed hg)⟩, ?_⟩
    obtain ⟨a, b, c, d⟩ := k
    unfold hrstFromProto
    simp only [HRST.mk.injEq]
    exact ⟨i64_bits.2 h1, i64_bits.2 h2, i8_bits.2 h3, i64_bits.2 h4⟩

theorem part_text {p : SecretPart} {bs : Bytes} :
    (gDecode ppartHandler .zero bs).map partFromProto = some p ↔ PartText p bs := by
  rw [Option.map_eq_some_iff]
  unfold PartText
  constructor
  · rintro ⟨p, h1, rfl⟩
    obtain ⟨gs, hg, hf⟩ := (gDecode_iff _ ppart_has).1 h1
    rw [ppart_fold gs (taken_typed hg)] at hf
    obtain rfl := Option.some.inj hf
    simp only [partFromProto]
    exact ⟨gs, hg, i32_self _ gs, i32_self _ gs, slice_self _ gs, slice_self _ gs, slice_self _ gs⟩
  · rintro ⟨gs, hg, h1, h2, h3, h4, h5⟩
    refine ⟨_, (gDecode_iff _ ppart_has).2 ⟨gs, hg, ppart_fold gs (taken_typed hg)⟩, ?_⟩
    obtain ⟨a, b, c, d, e⟩ := p
    unfold partFromProto
    simp only [SecretPart.mk.injEq]
    exact ⟨i32_bits.2 h1, i32_bits.2 h2, slice_says.2 h3, slice_says.2 h4, slice_says.2 h5⟩

theorem says_parts (xs : List Bytes) : ∀ ps : List SecretPart,
    ((xs.mapM (gDecode ppartHandler .zero)).map (List.map partFromProto) = some ps ↔ PartsText ps xs) := by
  induction xs with
  | nil =>
    intro ps
    constructor
    · intro h
      obtain rfl : [] = ps := by simpa using h
      exact .nil
    · intro h; cases h; rfl
  | cons x xs ih =>
    intro ps
    rw [List.mapM_cons]
    constructor
    · intro h
      cases hd : gDecode ppartHandler .zero x with
      | none => rw [hd] at h; simp at h
      | some p =>
        rw [hd] at h
        cases hm : xs.mapM (gDecode ppartHandler .zero) with
        | none => rw [hm] at h; simp at h
        | some qs =>
          rw [hm] at h
          obtain rfl : partFromProto p :: qs.map partFromProto = ps := by simpa using h
          exact .cons (part_text.1 (by rw [hd]; rfl)) ((ih _).1 (by rw [hm]; rfl))
    · intro h
      cases h with
      | cons h1 h2 =>
        obtain ⟨p, hp, rfl⟩ := Option.map_eq_some_iff.1 (part_text.2 h1)
        obtain ⟨qs, hq, rfl⟩ := Option.map_eq_some_iff.1 ((ih _).2 h2)
        rw [hp, hq]
        rfl

/-! ### Encodings -/

theorem inner_of_tag {n wt : Nat} {t : Bytes} (h : Tag n wt t) : InnerTag n wt t :=
  ⟨h.1, Nat.lt_of_lt_of_le h.2.1 (by decide), h.2.2⟩

/-- A field is a tag with a value. -/
theorem field_value {n : Nat} {f : Bytes} (h : Field n f) : ∃ wt t v, Tag n wt t ∧ Value n wt v ∧ f = t ++ v := by
  refine Field.rec (motive_1 := fun n f _ => ∃ wt t v, Tag n wt t ∧ Value n wt v ∧ f = t ++ v)
    (motive_2 := fun f _ => GroupFields f) ?_ ?_ ?_ ?_ ?_ ?_ ?_ h
  · intro _ _ _ _ ht hx; exact ⟨_, _, _, ht, .varint hx, rfl⟩
  · intro _ _ _ ht hx; exact ⟨_, _, _, ht, .fixed64 hx, rfl⟩
  · intro _ _ _ _ ht hl; exact ⟨_, _, _, ht, .bytes hl, by simp⟩
  · intro _ _ _ _ ht _ ht' ih; exact ⟨_, _, _, ht, .group ih (inner_of_tag ht'), by simp⟩
  · intro _ _ _ ht hx; exact ⟨_, _, _, ht, .fixed32 hx, rfl⟩
  · exact .nil
  · intro _ _ _ _ _ h1 h2
    obtain ⟨wt, t, v, h1, h3, rfl⟩ := h1
    exact .cons (inner_of_tag h1) h3 h2

/-- Whatever protobuf allows is taken. -/
theorem encodes_taken {ns ls : List Nat} {fs : List FVal} {bs : Bytes} (h : Encodes ns ls fs bs) : TakenFor ns ls fs bs := by
  induction h with
  | nil => exact .nil
  | num hn ht hx _ ih => exact .num hn ht hx ih
  | bytes hn ht hl _ ih =>
    have := TakenFor.bytes hn ht hl ih
    simpa using this
  | other hn hf _ ih =>
    obtain ⟨wt, t, v, h1, h2, rfl⟩ := field_value hf
    exact .other ⟨fun h => hn.1 h.1, fun h => hn.2 h.1⟩ h1 h2 ih

/-- A message type that keeps all its fields. -/
def collectHandler (ns ls : List Nat) : Handler (List FVal) where
  wireType n := if n ∈ ns then some 0 else if n ∈ ls then some 2 else none
  set m n v := match v with
    | .varint x => some (m ++ [.num n x])
    | .len bs => some (m ++ [.bytes n bs])
    | .fixed64 _ => none

theorem collect_has {ns ls : List Nat} (hd : ∀ n ∈ ns, n ∉ ls) : (collectHandler ns ls).Has ns ls := by
  refine ⟨fun n hn => if_pos hn, fun n hn => ?_, fun n hn => ?_⟩
  · have : n ∉ ns := fun h => hd n h hn
    simp [collectHandler, this, hn]
  · simp [collectHandler, hn.1, hn.2]

theorem collect_fold {ns ls : List Nat} (fs : List FVal) : ∀ m, fs.foldlM (putField (collectHandler ns ls)) m = some (m ++ fs) := by
  induction fs with
  | nil => intro m; simp
  | cons f fs ih =>
    intro m
    rw [List.foldlM_cons]
    cases f with
    | num n v => rw [List.append_cons]; exact ih (m ++ [.num n v])
    | bytes n x => rw [List.append_cons]; exact ih (m ++ [.bytes n x])

/-- Bytes are taken for one list of fields. -/
theorem taken_unique {ns ls : List Nat} (hd : ∀ n ∈ ns, n ∉ ls) {fs gs : List FVal} {bs : Bytes} (h1 : TakenFor ns ls fs bs)
    (h2 : TakenFor ns ls gs bs) : fs = gs := by
  have e1 := gDecode_taken _ (collect_has hd) h1 []
  have e2 := gDecode_taken _ (collect_has hd) h2 []
  rw [collect_fold] at e1 e2
  simpa using e1.symm.trans e2

end Horcrux
