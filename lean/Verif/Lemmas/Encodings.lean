import Verif.Spec.Encodings
import Verif.Lemmas.Fields
import Verif.Lemmas.Remote
import Verif.Lemmas.Protowire
/-
Lemmas: reading encodings.
-/
namespace Horcrux
open Spec

variable {α : Type}

theorem decode_known_tag (h : Handler α) (m : α) {num wt : Nat} {t p : Bytes} (ht : Tag num wt t) (h4 : wt < 4)
    (hw : h.wireType num = some wt) {v : WireVal} {r : Bytes} (hv : readVal wt (p ++ r) = some (v, r)) :
    decodeMsg h m (t ++ p ++ r) = (h.set m num v).bind fun m' => decodeMsg h m' r := by
  have hn := ht.1
  have hn' := ht.2.1
  have hi : i32 (((8 * num + wt) / 8 : Nat) : Int) = (num : Int) := by
    have : (8 * num + wt) / 8 = num := by omega
    rw [this]; apply i32_of_is; unfold IsI32; omega
  have hm : (8 * num + wt) % 8 = wt := by omega
  have h4 : ¬ (wt = 4) := by omega
  have h0 : ¬ ((num : Int) ≤ 0) := by omega
  have hrd := tag_read ht (p ++ r)
  have hpos := tag_pos ht
  rw [← List.append_assoc] at hrd
  have hlen : (t ++ p ++ r).length = t.length + p.length + r.length := by simp only [List.length_append]
  cases hc : t ++ p ++ r with
  | nil => rw [hc] at hlen; simp at hlen; omega
  | cons b bs =>
    rw [hc] at hrd hlen
    simp only [List.length_cons] at hlen
    unfold decodeMsg
    rw [List.length_cons, decodeLoop]
    simp only [hrd, hm, h4, hi, h0, if_false, Int.toNat_natCast, hw, ne_eq, not_true, hv]
    cases hs : h.set m num v with
    | none => rfl
    | some m' =>
      simp only [Option.bind_some]
      rw [decodeLoop_fuel h bs.length m' r (by omega)]

/-- Reading an encoding is putting its fields one after the other. -/
theorem decode_encodes (h : Handler α) {ns ls : List Nat} (hh : h.Has ns ls) {fs : List FVal} {bs : Bytes}
    (he : Encodes ns ls fs bs) : ∀ m, decodeMsg h m bs = fs.foldlM (putField h) m := by
  induction he with
  | nil => intro m; rfl
  | @num n v t x bs fs hn ht hx _ ih =>
    intro m
    rw [decode_known_tag h m ht (by omega) (hh.1 n hn) (v := .varint v)
      (by simp [readVal, readVarint_varint hx]), List.foldlM_cons]
    simp only [putField, ih]
    rfl
  | @bytes n t l x bs fs hn ht hl _ ih =>
    intro m
    rw [List.append_assoc t l x, decode_known_tag h m ht (by omega) (hh.2.1 n hn) (v := .len x), List.foldlM_cons]
    · simp only [putField, ih]
      rfl
    · have : ¬ ((x ++ bs).length < x.length) := by simp only [List.length_append]; omega
      rw [List.append_assoc]
      simp only [readVal, if_false, if_true, Nat.reduceEqDiff, readVarint_varint hl, this, List.take_left, List.drop_left]
  | @other n f bs fs hn hf _ ih =>
    intro m
    obtain ⟨act, h0, h1⟩ := decode_field h m hf
    rw [h1, h0 (hh.2.2 n hn)]
    exact ih m

/-- The fields of an encoding are fields. -/
theorem encodes_typed {ns ls : List Nat} {fs : List FVal} {bs : Bytes} (he : Encodes ns ls fs bs) :
    ∀ f ∈ fs, (∃ n ∈ ns, ∃ v, f = .num n v) ∨ ∃ n ∈ ls, ∃ x, f = .bytes n x := by
  induction he with
  | nil => simp
  | num hn _ _ _ ih =>
    intro f hf
    rcases List.mem_cons.1 hf with rfl | hf
    · exact .inl ⟨_, hn, _, rfl⟩
    · exact ih f hf
  | bytes hn _ _ _ ih =>
    intro f hf
    rcases List.mem_cons.1 hf with rfl | hf
    · exact .inr ⟨_, hn, _, rfl⟩
    · exact ih f hf
  | other _ _ _ ih => exact ih

theorem encodes_fields {ns ls : List Nat} {fs : List FVal} {bs : Bytes} (he : Encodes ns ls fs bs) : Fields bs := by
  induction he with
  | nil => exact .nil
  | num _ ht hx _ ih => exact .cons (.varint ht hx) ih
  | bytes _ ht hl _ ih => exact .cons (.bytes ht hl) ih
  | other _ hf _ ih => exact .cons hf ih

/-! ### Values -/

theorem nums_snoc_num (n k v : Nat) (fs : List FVal) : nums n (fs ++ [.num k v]) = if k = n then nums n fs ++ [v] else nums n fs := by
  unfold nums
  rw [List.filterMap_append]
  split <;> simp_all

theorem nums_snoc_bytes (n k : Nat) (x : Bytes) (fs : List FVal) : nums n (fs ++ [.bytes k x]) = nums n fs := by
  unfold nums
  rw [List.filterMap_append]
  simp

theorem lens_snoc_bytes (n k : Nat) (x : Bytes) (fs : List FVal) :
    lens n (fs ++ [.bytes k x]) = if k = n then lens n fs ++ [x] else lens n fs := by
  unfold lens
  rw [List.filterMap_append]
  split <;> simp_all

theorem lens_snoc_num (n k v : Nat) (fs : List FVal) : lens n (fs ++ [.num k v]) = lens n fs := by
  unfold lens
  rw [List.filterMap_append]
  simp

/-- Pieces of a message are read one after the other. -/
theorem decode_pieces (h : Handler α) (m : α) {xs : List Bytes} (hx : ∀ x ∈ xs, Fields x) (y : Bytes) :
    decodeMsg h m (xs.flatten ++ y) = (decodeMsg h m xs.flatten).bind fun m' => decodeMsg h m' y := by
  induction xs generalizing m with
  | nil => rfl
  | cons x xs ih =>
    simp only [List.flatten_cons, List.append_assoc]
    rw [decode_append_fields h (hx x (by simp)), decode_append_fields h (hx x (by simp)), Option.bind_assoc]
    congr 1
    funext m'
    exact ih m' (fun z hz => hx z (by simp [hz]))

theorem i64_says {n : Nat} {fs : List FVal} {x : Int} (h : SaysInt n fs x) (hx : IsI64 x) :
    i64 (((nums n fs).getLast?.getD 0 : Nat) : Int) = x := by
  unfold SaysInt at h
  rw [h]
  unfold i64 Int.bmod
  unfold IsI64 at hx
  simp only [Nat.reducePow, Int.reducePow] at *
  omega

theorem i32_says {n : Nat} {fs : List FVal} {x : Int} (h : SaysInt n fs x) (hx : IsI32 x) :
    i32 (((nums n fs).getLast?.getD 0 : Nat) : Int) = x := by
  unfold SaysInt at h
  rw [h]
  unfold i32 Int.bmod
  unfold IsI32 at hx
  simp only [Nat.reducePow, Int.reducePow] at *
  omega

/-! ### The messages -/

/-- Fields from the left. -/
theorem snoc_ind {P : List FVal → Prop} (h0 : P []) (h1 : ∀ fs f, P fs → P (fs ++ [f])) : ∀ fs, P fs := by
  intro fs
  have : ∀ l : List FVal, P l.reverse := by
    intro l
    induction l with
    | nil => exact h0
    | cons a l ih => rw [List.reverse_cons]; exact h1 _ _ ih
  have := this fs.reverse
  rwa [List.reverse_reverse] at this

theorem foldlM_snoc (h : Handler α) (m : α) (fs : List FVal) (f : FVal) :
    (fs ++ [f]).foldlM (putField h) m = (fs.foldlM (putField h) m).bind fun m' => putField h m' f := by
  rw [List.foldlM_append]
  simp only [List.foldlM_cons, List.foldlM_nil, bind_pure]
  rfl

/-- The last number, and the last bytes. -/
def lastNum (n : Nat) (fs : List FVal) : Nat := (nums n fs).getLast?.getD 0
def lastLen (n : Nat) (fs : List FVal) : Bytes := (lens n fs).getLast?.getD []

theorem lastNum_num (n k v : Nat) (fs : List FVal) : lastNum n (fs ++ [.num k v]) = if k = n then v else lastNum n fs := by
  unfold lastNum
  rw [nums_snoc_num]
  split <;> simp

theorem lastNum_bytes (n k : Nat) (x : Bytes) (fs : List FVal) : lastNum n (fs ++ [.bytes k x]) = lastNum n fs := by
  unfold lastNum
  rw [nums_snoc_bytes]

theorem lastLen_bytes (n k : Nat) (x : Bytes) (fs : List FVal) :
    lastLen n (fs ++ [.bytes k x]) = if k = n then x else lastLen n fs := by
  unfold lastLen
  rw [lens_snoc_bytes]
  split <;> simp

theorem lastLen_num (n k v : Nat) (fs : List FVal) : lastLen n (fs ++ [.num k v]) = lastLen n fs := by
  unfold lastLen
  rw [lens_snoc_num]

/-- All fields are of the types of the message. -/
def Typed (ns ls : List Nat) (fs : List FVal) : Prop :=
  ∀ f ∈ fs, (∃ n ∈ ns, ∃ v, f = .num n v) ∨ ∃ n ∈ ls, ∃ x, f = .bytes n x

theorem Typed.snoc {ns ls : List Nat} {fs : List FVal} {f : FVal} (h : Typed ns ls (fs ++ [f])) :
    Typed ns ls fs ∧ ((∃ n ∈ ns, ∃ v, f = .num n v) ∨ ∃ n ∈ ls, ∃ x, f = .bytes n x) :=
  ⟨fun g hg => h g (by simp [hg]), h f (by simp)⟩

theorem psh_fold (fs : List FVal) (ht : Typed [1] [2] fs) :
    fs.foldlM (putField pshHandler) ⟨0, []⟩ = some ⟨lastNum 1 fs % 2 ^ 32, lastLen 2 fs⟩ := by
  induction fs using snoc_ind with
  | h0 => rfl
  | h1 fs f ih =>
    obtain ⟨h1, h2⟩ := ht.snoc
    rw [foldlM_snoc, ih h1]
    rcases h2 with ⟨n, hn, v, rfl⟩ | ⟨n, hn, x, rfl⟩
    · simp only [List.mem_singleton] at hn
      subst hn
      simp [putField, pshHandler, lastNum_num, lastLen_num]
    · simp only [List.mem_singleton] at hn
      subst hn
      simp [putField, pshHandler, lastNum_bytes, lastLen_bytes]

theorem time_fold (fs : List FVal) (ht : Typed [1, 2] [] fs) :
    fs.foldlM (putField timestampHandler) ⟨0, 0⟩ = some ⟨i64 (lastNum 1 fs : Nat), i32 (lastNum 2 fs : Nat)⟩ := by
  induction fs using snoc_ind with
  | h0 => rfl
  | h1 fs f ih =>
    obtain ⟨h1, h2⟩ := ht.snoc
    rw [foldlM_snoc, ih h1]
    rcases h2 with ⟨n, hn, v, rfl⟩ | ⟨n, hn, x, rfl⟩
    · simp only [List.mem_cons, List.not_mem_nil, or_false] at hn
      rcases hn with rfl | rfl <;> simp [putField, timestampHandler, lastNum_num]
    · simp at hn

theorem psh_has : pshHandler.Has [1] [2] := by
  refine ⟨?_, ?_, ?_⟩ <;> intro n hn <;> simp_all [pshHandler]

theorem time_has : timestampHandler.Has [1, 2] [] := by
  refine ⟨?_, ?_, ?_⟩ <;> intro n hn <;> simp_all [timestampHandler]

theorem blockID_has : blockIDHandler.Has [] [1, 2] := by
  refine ⟨?_, ?_, ?_⟩ <;> intro n hn <;> simp_all [blockIDHandler]

theorem pvote_has : pvoteHandler.Has [1, 2, 3, 7] [4, 5, 6, 8] := by
  refine ⟨?_, ?_, ?_⟩ <;> intro n hn
  · simp only [List.mem_cons, List.not_mem_nil, or_false] at hn; rcases hn with rfl | rfl | rfl | rfl <;> rfl
  · simp only [List.mem_cons, List.not_mem_nil, or_false] at hn; rcases hn with rfl | rfl | rfl | rfl <;> rfl
  · simp_all [pvoteHandler]

theorem pproposal_has : pproposalHandler.Has [1, 2, 3, 4] [5, 6, 7] := by
  refine ⟨?_, ?_, ?_⟩ <;> intro n hn
  · simp only [List.mem_cons, List.not_mem_nil, or_false] at hn; rcases hn with rfl | rfl | rfl | rfl <;> rfl
  · simp only [List.mem_cons, List.not_mem_nil, or_false] at hn; rcases hn with rfl | rfl | rfl <;> rfl
  · simp_all [pproposalHandler]

theorem pmsg_has : pmsgHandler.Has [] [1, 2, 3, 4, 5, 6, 7, 8] := by
  refine ⟨?_, ?_, ?_⟩ <;> intro n hn
  · simp at hn
  · simp only [List.mem_cons, List.not_mem_nil, or_false] at hn
    have : 1 ≤ n ∧ n ≤ 8 := by omega
    simp only [pmsgHandler, this, and_self, if_true]
  · simp only [List.mem_cons, List.not_mem_nil, or_false] at hn
    have : ¬ (1 ≤ n ∧ n ≤ 8) := by omega
    simp only [pmsgHandler, this, if_false]

theorem signReq_has (h : Handler α) (zero : α) : (signReqHandler h zero).Has [] [1, 2] := by
  refine ⟨?_, ?_, ?_⟩ <;> intro n hn <;> simp_all [signReqHandler]

theorem pubKeyReq_has : pubKeyReqHandler.Has [] [1] := by
  refine ⟨?_, ?_, ?_⟩ <;> intro n hn <;> simp_all [pubKeyReqHandler]

theorem decode_psh {total : Nat} {hash bs : Bytes} (h : PSHText total hash bs) :
    decodeMsg pshHandler ⟨0, []⟩ bs = some ⟨total, hash⟩ := by
  obtain ⟨h1, fs, h2, h3, h4⟩ := h
  rw [decode_encodes _ psh_has h2, psh_fold fs (encodes_typed h2)]
  have : lastNum 1 fs % 2 ^ 32 = total := by
    unfold SaysInt at h3
    unfold lastNum
    omega
  rw [this]
  unfold SaysBytes at h4
  unfold lastLen
  rw [h4]

theorem decode_time {t : GoTime} {bs : Bytes} (h : TimeText t bs) : decodeTime bs = some t := by
  obtain ⟨h1, h2, h3, h4, fs, h5, h6, h7⟩ := h
  unfold decodeTime
  rw [decode_encodes _ time_has h5, time_fold fs (encodes_typed h5)]
  have e1 : i64 (lastNum 1 fs : Nat) = t.sec := i64_says h6 (by unfold IsI64; omega)
  have e2 : i32 (lastNum 2 fs : Nat) = t.nsec := i32_says h7 (by unfold IsI32; omega)
  simp only [e1, e2]
  rw [if_pos]
  simp [timestampValid, h1, h2, h3, h4]

/-- Messages in a message: what is put is the rest of the message. -/
theorem lens_pieces {n : Nat} {fs : List FVal} {x : Bytes} (hx : ∀ y ∈ lens n (fs ++ [.bytes n x]), Fields y) (h : Handler α)
    (m : α) {m' : α} (hd : decodeMsg h m (lens n (fs ++ [.bytes n x])).flatten = some m') :
    ∃ m1, decodeMsg h m (lens n fs).flatten = some m1 ∧ decodeMsg h m1 x = some m' := by
  rw [lens_snoc_bytes, if_pos rfl] at hx hd
  rw [List.flatten_append] at hd
  simp only [List.flatten_cons, List.flatten_nil, List.append_nil] at hd
  rw [decode_pieces h m (fun y hy => hx y (by simp [hy])), Option.bind_eq_some_iff] at hd
  exact hd

theorem pieces_other {n : Nat} {fs : List FVal} {f : FVal} (hx : ∀ y ∈ lens n (fs ++ [f]), Fields y) :
    ∀ y ∈ lens n fs, Fields y := by
  intro y hy
  apply hx
  cases f with
  | num k v => rw [lens_snoc_num]; exact hy
  | bytes k x => rw [lens_snoc_bytes]; split <;> simp [hy]

theorem blockID_fold (fs : List FVal) (ht : Typed [] [1, 2] fs) (hx : ∀ y ∈ lens 2 fs, Fields y) {p : CPSH}
    (hp : decodeMsg pshHandler ⟨0, []⟩ (lens 2 fs).flatten = some p) :
    fs.foldlM (putField blockIDHandler) ⟨[], ⟨0, []⟩⟩ = some ⟨lastLen 1 fs, p⟩ := by
  induction fs using snoc_ind generalizing p with
  | h0 => simp [lens, decodeMsg_nil] at hp; subst hp; rfl
  | h1 fs f ih =>
    obtain ⟨h1, h2⟩ := ht.snoc
    have hx' := pieces_other hx
    rcases h2 with ⟨n, hn, v, rfl⟩ | ⟨n, hn, x, rfl⟩
    · simp at hn
    · simp only [List.mem_cons, List.not_mem_nil, or_false] at hn
      rcases hn with rfl | rfl
      · rw [lens_snoc_bytes, if_neg (by decide)] at hp
        rw [foldlM_snoc, ih h1 hx' hp]
        simp [putField, blockIDHandler, lastLen_bytes]
      · obtain ⟨p1, k1, k2⟩ := lens_pieces hx _ _ hp
        rw [foldlM_snoc, ih h1 hx' k1]
        simp [putField, blockIDHandler, lastLen_bytes, k2]

theorem decode_blockID {b : BlockID} {bs : Bytes} (h : BlockIDText b bs) :
    decodeMsg blockIDHandler ⟨[], ⟨0, []⟩⟩ bs = some b.toC := by
  obtain ⟨fs, h1, h2, h3, h4⟩ := h
  rw [decode_encodes _ blockID_has h1, blockID_fold fs (encodes_typed h1) h3 (decode_psh h4)]
  unfold SaysBytes at h2
  unfold lastLen BlockID.toC
  rw [h2]

/-- The last of some times. -/
def lastTime (n : Nat) (fs : List FVal) : Option GoTime := (lens n fs).getLast?.elim (some .zero) decodeTime

theorem lastTime_num (n k v : Nat) (fs : List FVal) : lastTime n (fs ++ [.num k v]) = lastTime n fs := by
  unfold lastTime
  rw [lens_snoc_num]

theorem lastTime_bytes (n k : Nat) (x : Bytes) (fs : List FVal) :
    lastTime n (fs ++ [.bytes k x]) = if k = n then decodeTime x else lastTime n fs := by
  unfold lastTime
  rw [lens_snoc_bytes]
  split <;> simp

theorem times_other {n : Nat} {fs : List FVal} {f : FVal} (hx : ∀ y ∈ lens n (fs ++ [f]), (decodeTime y).isSome) :
    ∀ y ∈ lens n fs, (decodeTime y).isSome := by
  intro y hy
  apply hx
  cases f with
  | num k v => rw [lens_snoc_num]; exact hy
  | bytes k x => rw [lens_snoc_bytes]; split <;> simp [hy]

theorem lastTime_isSome {n : Nat} {fs : List FVal} (hx : ∀ y ∈ lens n fs, (decodeTime y).isSome) : (lastTime n fs).isSome := by
  unfold lastTime
  cases h : (lens n fs).getLast? with
  | none => rfl
  | some y => exact hx y (List.mem_of_getLast? h)

theorem ofC_toC (b : BlockID) : BlockID.ofC b.toC = b := rfl
theorem toC_ofC (b : CBlockID) : (BlockID.ofC b).toC = b := rfl

theorem pvote_fold (fs : List FVal) (ht : Typed [1, 2, 3, 7] [4, 5, 6, 8] fs) (hx : ∀ y ∈ lens 4 fs, Fields y)
    (htm : ∀ y ∈ lens 5 fs, (decodeTime y).isSome) {b : CBlockID}
    (hb : decodeMsg blockIDHandler ⟨[], ⟨0, []⟩⟩ (lens 4 fs).flatten = some b) {t : GoTime} (hti : lastTime 5 fs = some t) :
    fs.foldlM (putField pvoteHandler) .zero = some ⟨i32 (lastNum 1 fs : Nat), i64 (lastNum 2 fs : Nat), i32 (lastNum 3 fs : Nat),
      .ofC b, t, lastLen 6 fs, i32 (lastNum 7 fs : Nat), (lens 8 fs).getLast?⟩ := by
  induction fs using snoc_ind generalizing b t with
  | h0 =>
    simp [lens, decodeMsg_nil] at hb
    simp [lastTime, lens] at hti
    subst hb hti
    rfl
  | h1 fs f ih =>
    obtain ⟨h1, h2⟩ := ht.snoc
    have hx' := pieces_other hx
    have htm' := times_other htm
    obtain ⟨t0, ht0⟩ := Option.isSome_iff_exists.1 (lastTime_isSome htm')
    rcases h2 with ⟨n, hn, v, rfl⟩ | ⟨n, hn, x, rfl⟩
    · rw [lens_snoc_num] at hb
      rw [lastTime_num] at hti
      rw [foldlM_snoc, ih h1 hx' htm' hb hti]
      simp only [List.mem_cons, List.not_mem_nil, or_false] at hn
      rcases hn with rfl | rfl | rfl | rfl <;> simp [putField, pvoteHandler, lastNum_num, lastLen_num, lens_snoc_num]
    · simp only [List.mem_cons, List.not_mem_nil, or_false] at hn
      rcases hn with rfl | rfl | rfl | rfl
      · obtain ⟨b1, k1, k2⟩ := lens_pieces hx _ _ hb
        rw [lastTime_bytes, if_neg (by decide)] at hti
        rw [foldlM_snoc, ih h1 hx' htm' k1 hti]
        simp [putField, pvoteHandler, setPBlockID, toC_ofC, k2, lastNum_bytes, lastLen_bytes, lens_snoc_bytes]
      · rw [lens_snoc_bytes, if_neg (by decide)] at hb
        rw [lastTime_bytes, if_pos rfl] at hti
        rw [foldlM_snoc, ih h1 hx' htm' hb ht0]
        simp [putField, pvoteHandler, hti, lastNum_bytes, lastLen_bytes, lens_snoc_bytes]
      · rw [lens_snoc_bytes, if_neg (by decide)] at hb
        rw [lastTime_bytes, if_neg (by decide)] at hti
        rw [foldlM_snoc, ih h1 hx' htm' hb hti]
        simp [putField, pvoteHandler, lastNum_bytes, lastLen_bytes, lens_snoc_bytes]
      · rw [lens_snoc_bytes, if_neg (by decide)] at hb
        rw [lastTime_bytes, if_neg (by decide)] at hti
        rw [foldlM_snoc, ih h1 hx' htm' hb hti]
        simp [putField, pvoteHandler, lastNum_bytes, lastLen_bytes, lens_snoc_bytes]

theorem says_time {n : Nat} {fs : List FVal} {t : GoTime} (h : SaysTime n fs t) :
    (∀ y ∈ lens n fs, (decodeTime y).isSome) ∧ lastTime n fs = some t := by
  obtain ⟨before, x, h1, h2, h3⟩ := h
  unfold lastTime
  rw [h1]
  refine ⟨fun y hy => ?_, by simp [decode_time h2]⟩
  rcases List.mem_append.1 hy with hy | hy
  · obtain ⟨t', h⟩ := h3 y hy
    simp [decode_time h]
  · simp only [List.mem_singleton] at hy
    subst hy
    simp [decode_time h2]

theorem decode_voteText {v : Vote} {bs : Bytes} (h : VoteText v bs) : decodeMsg pvoteHandler .zero bs = some v := by
  obtain ⟨h1, h2, h3, h4, fs, h5, e1, e2, e3, ⟨e4, e4'⟩, e5, e6, e7, e8⟩ := h
  obtain ⟨t1, t2⟩ := says_time e5
  rw [decode_encodes _ pvote_has h5, pvote_fold fs (encodes_typed h5) e4 t1 (decode_blockID e4') t2]
  unfold lastNum
  rw [i32_says e1 h1, i64_says e2 h2, i32_says e3 h3, i32_says e7 h4, e8]
  unfold SaysBytes at e6
  unfold lastLen
  rw [e6]
  rfl

theorem pproposal_fold (fs : List FVal) (ht : Typed [1, 2, 3, 4] [5, 6, 7] fs) (hx : ∀ y ∈ lens 5 fs, Fields y)
    (htm : ∀ y ∈ lens 6 fs, (decodeTime y).isSome) {b : CBlockID}
    (hb : decodeMsg blockIDHandler ⟨[], ⟨0, []⟩⟩ (lens 5 fs).flatten = some b) {t : GoTime} (hti : lastTime 6 fs = some t) :
    fs.foldlM (putField pproposalHandler) .zero = some ⟨i32 (lastNum 1 fs : Nat), i64 (lastNum 2 fs : Nat),
      i32 (lastNum 3 fs : Nat), i32 (lastNum 4 fs : Nat), .ofC b, t, (lens 7 fs).getLast?⟩ := by
  induction fs using snoc_ind generalizing b t with
  | h0 =>
    simp [lens, decodeMsg_nil] at hb
    simp [lastTime, lens] at hti
    subst hb hti
    rfl
  | h1 fs f ih =>
    obtain ⟨h1, h2⟩ := ht.snoc
    have hx' := pieces_other hx
    have htm' := times_other htm
    obtain ⟨t0, ht0⟩ := Option.isSome_iff_exists.1 (lastTime_isSome htm')
    rcases h2 with ⟨n, hn, v, rfl⟩ | ⟨n, hn, x, rfl⟩
    · rw [lens_snoc_num] at hb
      rw [lastTime_num] at hti
      rw [foldlM_snoc, ih h1 hx' htm' hb hti]
      simp only [List.mem_cons, List.not_mem_nil, or_false] at hn
      rcases hn with rfl | rfl | rfl | rfl <;> simp [putField, pproposalHandler, lastNum_num, lens_snoc_num]
    · simp only [List.mem_cons, List.not_mem_nil, or_false] at hn
      rcases hn with rfl | rfl | rfl
      · obtain ⟨b1, k1, k2⟩ := lens_pieces hx _ _ hb
        rw [lastTime_bytes, if_neg (by decide)] at hti
        rw [foldlM_snoc, ih h1 hx' htm' k1 hti]
        simp [putField, pproposalHandler, setPBlockID, toC_ofC, k2, lastNum_bytes, lens_snoc_bytes]
      · rw [lens_snoc_bytes, if_neg (by decide)] at hb
        rw [lastTime_bytes, if_pos rfl] at hti
        rw [foldlM_snoc, ih h1 hx' htm' hb ht0]
        simp [putField, pproposalHandler, hti, lastNum_bytes, lens_snoc_bytes]
      · rw [lens_snoc_bytes, if_neg (by decide)] at hb
        rw [lastTime_bytes, if_neg (by decide)] at hti
        rw [foldlM_snoc, ih h1 hx' htm' hb hti]
        simp [putField, pproposalHandler, lastNum_bytes, lens_snoc_bytes]

theorem decode_proposalText {p : Proposal} {bs : Bytes} (h : ProposalText p bs) :
    decodeMsg pproposalHandler .zero bs = some p := by
  obtain ⟨h1, h2, h3, h4, fs, h5, e1, e2, e3, e4, ⟨e5, e5'⟩, e6, e7⟩ := h
  obtain ⟨t1, t2⟩ := says_time e6
  rw [decode_encodes _ pproposal_has h5, pproposal_fold fs (encodes_typed h5) e5 t1 (decode_blockID e5') t2]
  unfold lastNum
  rw [i32_says e1 h1, i64_says e2 h2, i32_says e3 h3, i32_says e4 h4, e7]
  rfl

theorem signReq_fold (h : Handler α) (zero : α) (fs : List FVal) (ht : Typed [] [1, 2] fs) (hx : ∀ y ∈ lens 1 fs, Fields y)
    {a : α} (ha : decodeMsg h zero (lens 1 fs).flatten = some a) :
    fs.foldlM (putField (signReqHandler h zero)) (none, []) =
      some (if lens 1 fs = [] then none else some a, lastLen 2 fs) := by
  induction fs using snoc_ind generalizing a with
  | h0 => rfl
  | h1 fs f ih =>
    obtain ⟨h1, h2⟩ := ht.snoc
    have hx' := pieces_other hx
    rcases h2 with ⟨n, hn, v, rfl⟩ | ⟨n, hn, x, rfl⟩
    · simp at hn
    · simp only [List.mem_cons, List.not_mem_nil, or_false] at hn
      rcases hn with rfl | rfl
      · obtain ⟨a1, k1, k2⟩ := lens_pieces hx _ _ ha
        have hz : ((if lens 1 fs = [] then none else some a1).getD zero : α) = a1 := by
          split
          · next he =>
            rw [he, List.flatten_nil, decodeMsg_nil] at k1
            exact Option.some.inj k1
          · rfl
        rw [foldlM_snoc, ih h1 hx' k1]
        simp [putField, signReqHandler, hz, k2, lastLen_bytes, lens_snoc_bytes]
      · rw [lens_snoc_bytes, if_neg (by decide)] at ha
        rw [foldlM_snoc, ih h1 hx' ha]
        simp [putField, signReqHandler, lastLen_bytes, lens_snoc_bytes]

theorem decode_signText (h : Handler α) (zero : α) {text : Bytes → Prop} {c bs : Bytes} {a : α}
    (ht : ∀ x, text x → decodeMsg h zero x = some a) (hs : SignText text c bs) :
    decodeMsg (signReqHandler h zero) (none, []) bs = some (some a, c) := by
  obtain ⟨fs, h1, h2, ⟨h3, h4⟩, h5⟩ := hs
  rw [decode_encodes _ (signReq_has h zero) h1, signReq_fold h zero fs (encodes_typed h1) h3 (ht _ h4), if_neg h2]
  unfold SaysBytes at h5
  unfold lastLen
  rw [h5]

theorem pubKeyReq_fold (fs : List FVal) (ht : Typed [] [1] fs) :
    fs.foldlM (putField pubKeyReqHandler) [] = some (lastLen 1 fs) := by
  induction fs using snoc_ind with
  | h0 => rfl
  | h1 fs f ih =>
    obtain ⟨h1, h2⟩ := ht.snoc
    rw [foldlM_snoc, ih h1]
    rcases h2 with ⟨n, hn, v, rfl⟩ | ⟨n, hn, x, rfl⟩
    · simp at hn
    · simp only [List.mem_singleton] at hn
      subst hn
      simp [putField, pubKeyReqHandler, lastLen_bytes]

theorem decode_noFields {bs : Bytes} (h : Fields bs) : decodeMsg noFieldsHandler () bs = some () := by
  induction bs using (measure List.length).wf.induction with
  | _ bs ih =>
    cases h with
    | nil => rfl
    | @cons num f fs hf hfs =>
      obtain ⟨act, h0, h1⟩ := decode_field noFieldsHandler () hf
      rw [h1, h0 rfl]
      have := field_pos hf
      exact ih fs (by show fs.length < (f ++ fs).length; simp only [List.length_append]; omega) hfs

theorem decode_request {m : PMsg} {bs : Bytes} (h : RequestText m bs) : decodeMsg pmsgHandler .empty bs = some m := by
  cases h with
  | @pubKey c x _ fs h hx hc =>
    rw [decode_encodes _ pmsg_has h]
    simp only [List.foldlM_cons, List.foldlM_nil, putField, pmsgHandler, decode_encodes _ pubKeyReq_has hx,
      pubKeyReq_fold fs (encodes_typed hx), bind_pure]
    unfold SaysBytes at hc
    unfold lastLen
    rw [hc]
    rfl
  | vote h hx =>
    rw [decode_encodes _ pmsg_has h]
    simp only [List.foldlM_cons, List.foldlM_nil, putField, pmsgHandler, bind_pure,
      decode_signText pvoteHandler .zero (fun _ => decode_voteText) hx]
    rfl
  | proposal h hx =>
    rw [decode_encodes _ pmsg_has h]
    simp only [List.foldlM_cons, List.foldlM_nil, putField, pmsgHandler, bind_pure,
      decode_signText pproposalHandler .zero (fun _ => decode_proposalText) hx]
    rfl
  | ping h hx =>
    rw [decode_encodes _ pmsg_has h]
    simp only [List.foldlM_cons, List.foldlM_nil, putField, pmsgHandler, bind_pure, decode_noFields hx]
    rfl

end Horcrux
