import Verif.Lemmas.Gogo
import Verif.Lemmas.KeyFile
/-
Lemmas: what the generated code reads as the messages of tendermint.
-/
namespace Horcrux
open Spec

variable {α β γ : Type}

/-! ### Fields -/

section
variable (n k v : Nat) (x : Bytes) (fs : List GVal)

theorem numsOf_num : numsOf n (.num k v :: fs) = if k = n then v :: numsOf n fs else numsOf n fs := by
  unfold numsOf; rw [List.filterMap_cons]; split <;> simp_all
theorem numsOf_fix : numsOf n (.fix k v :: fs) = numsOf n fs := rfl
theorem numsOf_bytes : numsOf n (.bytes k x :: fs) = numsOf n fs := rfl
theorem fixsOf_fix : fixsOf n (.fix k v :: fs) = if k = n then v :: fixsOf n fs else fixsOf n fs := by
  unfold fixsOf; rw [List.filterMap_cons]; split <;> simp_all
theorem fixsOf_num : fixsOf n (.num k v :: fs) = fixsOf n fs := rfl
theorem fixsOf_bytes : fixsOf n (.bytes k x :: fs) = fixsOf n fs := rfl
theorem bytesOf_bytes : bytesOf n (.bytes k x :: fs) = if k = n then x :: bytesOf n fs else bytesOf n fs := by
  unfold bytesOf; rw [List.filterMap_cons]; split <;> simp_all
theorem bytesOf_num : bytesOf n (.num k v :: fs) = bytesOf n fs := rfl
theorem bytesOf_fix : bytesOf n (.fix k v :: fs) = bytesOf n fs := rfl
end

/-- All fields are of the kinds of the message type. -/
def Spec.GVal.In (k : Kinds) : GVal → Prop
  | .num n _ => n ∈ k.nums
  | .fix n _ => n ∈ k.fixs
  | .bytes n _ => n ∈ k.lens

theorem reads_in {k : Kinds} {fs : List GVal} {bs : Bytes} (h : FieldsRead k fs bs) : ∀ f ∈ fs, f.In k := by
  induction h with
  | nil => simp
  | num hn _ _ _ ih => intro f hf; exact (List.mem_cons.1 hf).elim (fun e => e ▸ hn) (ih f)
  | fix hn _ _ _ _ ih => intro f hf; exact (List.mem_cons.1 hf).elim (fun e => e ▸ hn) (ih f)
  | bytes hn _ _ _ ih => intro f hf; exact (List.mem_cons.1 hf).elim (fun e => e ▸ hn) (ih f)
  | other _ _ _ _ ih => exact ih

theorem pieces_in {k : Kinds} {l : List Bytes} {fs : List GVal} (h : Chunks k l fs) : ∀ f ∈ fs, f.In k := by
  induction h with
  | nil => simp
  | cons hx _ ih => intro f hf; exact (List.mem_append.1 hf).elim (fun e => reads_in hx f e) (ih f)

/-- A value that the last one replaces. -/
def lastOr (f : β → γ) (d : γ) (l : List β) : γ := l.foldl (fun _ x => f x) d

theorem lastOr_nil (f : β → γ) (d : γ) : lastOr f d [] = d := rfl
theorem lastOr_cons (f : β → γ) (d : γ) (x : β) (l : List β) : lastOr f d (x :: l) = lastOr f (f x) l := rfl

theorem lastOr_eq (f : β → γ) (l : List β) : ∀ d, lastOr f d l = (l.getLast?.map f).getD d := by
  induction l with
  | nil => intro d; rfl
  | cons x l ih =>
    intro d
    rw [lastOr_cons, ih]
    cases l with
    | nil => rfl
    | cons y l => rw [List.getLast?_cons_cons]; cases h : (y :: l).getLast? <;> simp_all

theorem isI32_i32_eq {v x : Int} : (IsI32 x ∧ (v - x) % 2 ^ 32 = 0) ↔ i32 v = x := by
  unfold IsI32 i32 Int.bmod
  simp only [Nat.reducePow, Int.reducePow]
  omega

theorem isI64_i64_eq {v x : Int} : (IsI64 x ∧ (v - x) % 2 ^ 64 = 0) ↔ i64 v = x := by
  unfold IsI64 i64 Int.bmod
  simp only [Nat.reducePow, Int.reducePow]
  omega

theorem lastOr_map (f : Nat → γ) (d : γ) (h : f 0 = d) (l : List Nat) : lastOr f d l = f (l.getLast?.getD 0) := by
  rw [lastOr_eq]
  cases l.getLast? with
  | none => exact h.symm
  | some v => rfl

theorem says32_iff {l : List Nat} {x : Int} : Says32 l x ↔ lastOr (fun v : Nat => i32 v) 0 l = x := by
  unfold Says32
  rw [isI32_i32_eq, lastOr_map _ _ (i32_of_is (by unfold IsI32; omega))]

theorem says64_iff {l : List Nat} {x : Int} : Says64 l x ↔ lastOr (fun v : Nat => i64 v) 0 l = x := by
  unfold Says64
  rw [isI64_i64_eq, lastOr_map _ _ (i64_of_is (by unfold IsI64; omega))]

theorem saysLast_iff {l : List Bytes} {x : Bytes} : SaysLast l x ↔ lastOr id [] l = x := by
  unfold SaysLast
  rw [lastOr_eq, Option.map_id]
  rfl

theorem last?_eq (l : List Bytes) : lastOr some none l = l.getLast? := by
  rw [lastOr_eq]
  cases l.getLast? <;> rfl

/-! ### Messages in messages -/

theorem chunks_iff (h : Handler α) {k : Kinds} (hk : h.Kind k) (l : List Bytes) : ∀ m m' : α,
    l.foldlM (decodeMsg h) m = some m' ↔ ∃ fs, Chunks k l fs ∧ fs.foldlM (gput h) m = some m' := by
  induction l with
  | nil =>
    intro m m'
    constructor
    · intro e; exact ⟨[], .nil, e⟩
    · rintro ⟨fs, h1, h2⟩; cases h1; exact h2
  | cons x l ih =>
    intro m m'
    rw [List.foldlM_cons]
    constructor
    · intro e
      obtain ⟨m1, e1, e2⟩ := Option.bind_eq_some_iff.1 e
      obtain ⟨fs, f1, f2⟩ := (decode_iff h hk).1 e1
      obtain ⟨gs, g1, g2⟩ := (ih m1 m').1 e2
      refine ⟨fs ++ gs, .cons f1 g1, ?_⟩
      rw [List.foldlM_append, f2]
      exact g2
    · rintro ⟨fs, h1, h2⟩
      cases h1 with
      | @cons _ _ fs gs f1 g1 =>
        rw [List.foldlM_append] at h2
        obtain ⟨m1, e1, e2⟩ := Option.bind_eq_some_iff.1 h2
        exact Option.bind_eq_some_iff.2 ⟨m1, (decode_iff h hk).2 ⟨fs, f1, e1⟩, (ih m1 m').2 ⟨gs, g1, e2⟩⟩

/-- Decode into a message that may not be there yet. -/
def setOpt (h : Handler α) (zero : α) (old : Option α) (x : Bytes) : Option (Option α) := (decodeMsg h (old.getD zero) x).map some

theorem setOpt_some (h : Handler α) (zero : α) (l : List Bytes) : ∀ (a : α) (r : Option α),
    l.foldlM (setOpt h zero) (some a) = some r ↔ ∃ b, r = some b ∧ l.foldlM (decodeMsg h) a = some b := by
  induction l with
  | nil =>
    intro a r
    simp only [List.foldlM_nil, pure, Option.some.injEq]
    constructor
    · rintro rfl; exact ⟨a, rfl, rfl⟩
    · rintro ⟨b, rfl, rfl⟩; rfl
  | cons x l ih =>
    intro a r
    simp only [List.foldlM_cons, setOpt, Option.getD_some]
    cases decodeMsg h a x with
    | none => simp
    | some b => exact ih b r

theorem setOpt_iff (h : Handler α) (zero : α) (l : List Bytes) (r : Option α) :
    l.foldlM (setOpt h zero) none = some r ↔
      (l = [] ∧ r = none) ∨ (l ≠ [] ∧ ∃ b, r = some b ∧ l.foldlM (decodeMsg h) zero = some b) := by
  cases l with
  | nil => simp [eq_comm]
  | cons x l =>
    simp only [List.foldlM_cons, setOpt, Option.getD_none, reduceCtorEq, false_and, ne_eq, not_false_eq_true, true_and, false_or]
    cases decodeMsg h zero x with
    | none => simp
    | some b => exact setOpt_some h zero l b r

/-! ### Kinds -/

theorem time_kind : timestampHandler.Kind ⟨[1, 2], [], []⟩ := by
  refine ⟨?_, ?_, ?_, ?_⟩ <;> intro n <;> simp only [timestampHandler] <;> grind
theorem psh_kind : pshHandler.Kind ⟨[1], [], [2]⟩ := by
  refine ⟨?_, ?_, ?_, ?_⟩ <;> intro n <;> simp only [pshHandler] <;> grind
theorem blockID_kind : blockIDHandler.Kind ⟨[], [], [1, 2]⟩ := by
  refine ⟨?_, ?_, ?_, ?_⟩ <;> intro n <;> simp only [blockIDHandler] <;> grind
theorem cvote_kind : voteHandler.Kind ⟨[1], [2, 3], [4, 5, 6]⟩ := by
  refine ⟨?_, ?_, ?_, ?_⟩ <;> intro n <;> simp only [voteHandler] <;> grind
theorem cproposal_kind : proposalHandler.Kind ⟨[1, 4], [2, 3], [5, 6, 7]⟩ := by
  refine ⟨?_, ?_, ?_, ?_⟩ <;> intro n <;> simp only [proposalHandler] <;> grind
theorem pvote_kind : pvoteHandler.Kind voteKinds := by
  refine ⟨?_, ?_, ?_, ?_⟩ <;> intro n <;> simp only [pvoteHandler, voteKinds] <;> grind
theorem pproposal_kind : pproposalHandler.Kind proposalKinds := by
  refine ⟨?_, ?_, ?_, ?_⟩ <;> intro n <;> simp only [pproposalHandler, proposalKinds] <;> grind
theorem rsErr_kind : rsErrHandler.Kind errorKinds := by
  refine ⟨?_, ?_, ?_, ?_⟩ <;> intro n <;> simp only [rsErrHandler, errorKinds] <;> grind
theorem ppubKey_kind : ppubKeyHandler.Kind pubKeyKinds := by
  refine ⟨?_, ?_, ?_, ?_⟩ <;> intro n <;> simp only [ppubKeyHandler, pubKeyKinds] <;> grind
theorem pubKeyReq_kind : pubKeyReqHandler.Kind ⟨[], [], [1]⟩ := by
  refine ⟨?_, ?_, ?_, ?_⟩ <;> intro n <;> simp only [pubKeyReqHandler] <;> grind
theorem signReq_kind (h : Handler α) (zero : α) : (signReqHandler h zero).Kind ⟨[], [], [1, 2]⟩ := by
  refine ⟨?_, ?_, ?_, ?_⟩ <;> intro n <;> simp only [signReqHandler] <;> grind
theorem resp_kind (h : Handler α) : (respHandler h).Kind ⟨[], [], [1, 2]⟩ := by
  refine ⟨?_, ?_, ?_, ?_⟩ <;> intro n <;> simp only [respHandler] <;> grind
theorem noFields_kind : noFieldsHandler.Kind ⟨[], [], []⟩ := by
  refine ⟨?_, ?_, ?_, ?_⟩ <;> intro n <;> simp only [noFieldsHandler] <;> grind
theorem pmsg_kind : pmsgHandler.Kind ⟨[], [], [1, 2, 3, 4, 5, 6, 7, 8]⟩ := by
  refine ⟨?_, ?_, ?_, ?_⟩ <;> intro n <;> simp only [pmsgHandler, List.mem_cons, List.not_mem_nil, or_false] <;> grind

/-! ### Folding the fields -/

theorem gcons {h : Handler α} {m m' : α} {f : GVal} (fs : List GVal) (e : gput h m f = some m') :
    (f :: fs).foldlM (gput h) m = fs.foldlM (gput h) m' := by
  rw [List.foldlM_cons, e]; rfl

attribute [local irreducible] i32 i64

section
variable {fs : List GVal}

theorem time_gfold (fs : List GVal) : ∀ (_ : ∀ f ∈ fs, f.In ⟨[1, 2], [], []⟩) (m : PTimestamp),
    fs.foldlM (gput timestampHandler) m = some ⟨lastOr (fun v : Nat => i64 v) m.seconds (numsOf 1 fs),
      lastOr (fun v : Nat => i32 v) m.nanos (numsOf 2 fs)⟩ := by
  induction fs with
  | nil => intro _ m; rfl
  | cons f fs ih =>
    intro ht m
    have h1 := ht f (by simp)
    have h2 := ih fun g hg => ht g (by simp [hg])
    cases f with
    | num n v =>
      simp only [GVal.In, List.mem_cons, List.not_mem_nil, or_false] at h1
      rcases h1 with rfl | rfl <;> (rw [gcons (h := timestampHandler) fs rfl, h2]; simp [numsOf_num, lastOr_cons])
    | fix n v => simp [GVal.In] at h1
    | bytes n x => simp [GVal.In] at h1

theorem psh_gfold (fs : List GVal) : ∀ (_ : ∀ f ∈ fs, f.In ⟨[1], [], [2]⟩) (m : CPSH),
    fs.foldlM (gput pshHandler) m = some ⟨lastOr (fun v : Nat => v % 2 ^ 32) m.total (numsOf 1 fs),
      lastOr id m.hash (bytesOf 2 fs)⟩ := by
  induction fs with
  | nil => intro _ m; rfl
  | cons f fs ih =>
    intro ht m
    have h1 := ht f (by simp)
    have h2 := ih fun g hg => ht g (by simp [hg])
    cases f with
    | num n v =>
      simp only [GVal.In, List.mem_cons, List.not_mem_nil, or_false] at h1
      subst h1
      (rw [gcons (h := pshHandler) fs rfl, h2]; simp [numsOf_num, bytesOf_num, lastOr_cons])
    | fix n v => simp [GVal.In] at h1
    | bytes n x =>
      simp only [GVal.In, List.mem_cons, List.not_mem_nil, or_false] at h1
      subst h1
      (rw [gcons (h := pshHandler) fs rfl, h2]; simp [numsOf_bytes, bytesOf_bytes, lastOr_cons])

theorem rsErr_gfold (fs : List GVal) : ∀ (_ : ∀ f ∈ fs, f.In errorKinds) (m : RSErr),
    fs.foldlM (gput rsErrHandler) m = some ⟨lastOr (fun v : Nat => i32 v) m.code (numsOf 1 fs),
      lastOr id m.description (bytesOf 2 fs)⟩ := by
  induction fs with
  | nil => intro _ m; rfl
  | cons f fs ih =>
    intro ht m
    have h1 := ht f (by simp)
    have h2 := ih fun g hg => ht g (by simp [hg])
    cases f with
    | num n v =>
      simp only [GVal.In, errorKinds, List.mem_cons, List.not_mem_nil, or_false] at h1
      subst h1
      (rw [gcons (h := rsErrHandler) fs rfl, h2]; simp [numsOf_num, bytesOf_num, lastOr_cons])
    | fix n v => simp [GVal.In, errorKinds] at h1
    | bytes n x =>
      simp only [GVal.In, errorKinds, List.mem_cons, List.not_mem_nil, or_false] at h1
      subst h1
      (rw [gcons (h := rsErrHandler) fs rfl, h2]; simp [numsOf_bytes, bytesOf_bytes, lastOr_cons])

theorem blockID_gfold (fs : List GVal) : ∀ (_ : ∀ f ∈ fs, f.In ⟨[], [], [1, 2]⟩) (m : CBlockID),
    fs.foldlM (gput blockIDHandler) m = ((bytesOf 2 fs).foldlM (decodeMsg pshHandler) m.psh).map fun p =>
      ⟨lastOr id m.hash (bytesOf 1 fs), p⟩ := by
  induction fs with
  | nil => intro _ m; rfl
  | cons f fs ih =>
    intro ht m
    have h1 := ht f (by simp)
    have h2 := ih fun g hg => ht g (by simp [hg])
    cases f with
    | num n v => simp [GVal.In] at h1
    | fix n v => simp [GVal.In] at h1
    | bytes n x =>
      simp only [GVal.In, List.mem_cons, List.not_mem_nil, or_false] at h1
      rcases h1 with rfl | rfl
      · (rw [gcons (h := blockIDHandler) fs rfl, h2]; simp [bytesOf_bytes, lastOr_cons])
      · simp only [gput, blockIDHandler, bytesOf_bytes, if_true, Nat.reduceEqDiff, if_false, List.foldlM_cons]
        cases decodeMsg pshHandler m.psh x with
        | none => rfl
        | some p => exact h2 _

theorem pubKeyReq_gfold (fs : List GVal) : ∀ (_ : ∀ f ∈ fs, f.In ⟨[], [], [1]⟩) (m : Bytes),
    fs.foldlM (gput pubKeyReqHandler) m = some (lastOr id m (bytesOf 1 fs)) := by
  induction fs with
  | nil => intro _ m; rfl
  | cons f fs ih =>
    intro ht m
    have h1 := ht f (by simp)
    have h2 := ih fun g hg => ht g (by simp [hg])
    cases f with
    | num n v => simp [GVal.In] at h1
    | fix n v => simp [GVal.In] at h1
    | bytes n x =>
      simp only [GVal.In, List.mem_cons, List.not_mem_nil, or_false] at h1
      subst h1
      (rw [gcons (h := pubKeyReqHandler) fs rfl, h2]; simp [bytesOf_bytes, lastOr_cons])

theorem signReq_gfold (h : Handler α) (zero : α) (fs : List GVal) : ∀ (_ : ∀ f ∈ fs, f.In ⟨[], [], [1, 2]⟩) (m : Option α × Bytes),
    fs.foldlM (gput (signReqHandler h zero)) m =
      ((bytesOf 1 fs).foldlM (setOpt h zero) m.1).map fun a => (a, lastOr id m.2 (bytesOf 2 fs)) := by
  induction fs with
  | nil => intro _ m; rfl
  | cons f fs ih =>
    intro ht m
    have h1 := ht f (by simp)
    have h2 := ih fun g hg => ht g (by simp [hg])
    cases f with
    | num n v => simp [GVal.In] at h1
    | fix n v => simp [GVal.In] at h1
    | bytes n x =>
      simp only [GVal.In, List.mem_cons, List.not_mem_nil, or_false] at h1
      rcases h1 with rfl | rfl
      · simp only [gput, signReqHandler, bytesOf_bytes, if_true, Nat.reduceEqDiff, if_false, List.foldlM_cons, setOpt]
        cases decodeMsg h (m.1.getD zero) x with
        | none => rfl
        | some p => exact h2 _
      · simp only [gput, signReqHandler, bytesOf_bytes, if_true, Nat.reduceEqDiff, if_false]
        exact h2 _

theorem resp_gfold (h : Handler α) (fs : List GVal) : ∀ (_ : ∀ f ∈ fs, f.In ⟨[], [], [1, 2]⟩) (m : α × Option RSErr),
    fs.foldlM (gput (respHandler h)) m =
      ((bytesOf 1 fs).foldlM (decodeMsg h) m.1).bind fun a =>
        ((bytesOf 2 fs).foldlM (setOpt rsErrHandler ⟨0, []⟩) m.2).map fun e => (a, e) := by
  induction fs with
  | nil => intro _ m; rfl
  | cons f fs ih =>
    intro ht m
    have h1 := ht f (by simp)
    have h2 := ih fun g hg => ht g (by simp [hg])
    cases f with
    | num n v => simp [GVal.In] at h1
    | fix n v => simp [GVal.In] at h1
    | bytes n x =>
      simp only [GVal.In, List.mem_cons, List.not_mem_nil, or_false] at h1
      rcases h1 with rfl | rfl
      · simp only [gput, respHandler, bytesOf_bytes, if_true, Nat.reduceEqDiff, if_false, List.foldlM_cons]
        cases decodeMsg h m.1 x with
        | none => rfl
        | some p => exact h2 _
      · simp only [gput, respHandler, bytesOf_bytes, if_true, Nat.reduceEqDiff, if_false, List.foldlM_cons, setOpt]
        cases decodeMsg rsErrHandler (m.2.getD ⟨0, []⟩) x with
        | none => cases (bytesOf 1 fs).foldlM (decodeMsg h) m.1 <;> rfl
        | some p => exact h2 _

theorem pvote_gfold (fs : List GVal) : ∀ (_ : ∀ f ∈ fs, f.In voteKinds) (m : Vote),
    fs.foldlM (gput pvoteHandler) m = ((bytesOf 4 fs).foldlM setPBlockID m.blockID).bind fun b =>
      ((bytesOf 5 fs).foldlM (fun _ x => decodeTime x) m.timestamp).map fun t =>
        ⟨lastOr (fun v : Nat => i32 v) m.type (numsOf 1 fs), lastOr (fun v : Nat => i64 v) m.height (numsOf 2 fs),
          lastOr (fun v : Nat => i32 v) m.round (numsOf 3 fs), b, t, lastOr id m.validatorAddress (bytesOf 6 fs),
          lastOr (fun v : Nat => i32 v) m.validatorIndex (numsOf 7 fs), lastOr some m.signature (bytesOf 8 fs)⟩ := by
  induction fs with
  | nil => intro _ m; rfl
  | cons f fs ih =>
    intro ht m
    have h1 := ht f (by simp)
    have h2 := ih fun g hg => ht g (by simp [hg])
    cases f with
    | num n v =>
      simp only [GVal.In, voteKinds, List.mem_cons, List.not_mem_nil, or_false] at h1
      rcases h1 with rfl | rfl | rfl | rfl <;>
        (rw [gcons (h := pvoteHandler) fs rfl, h2]; simp [numsOf_num, bytesOf_num, lastOr_cons])
    | fix n v => simp [GVal.In, voteKinds] at h1
    | bytes n x =>
      simp only [GVal.In, voteKinds, List.mem_cons, List.not_mem_nil, or_false] at h1
      rcases h1 with rfl | rfl | rfl | rfl
      · simp only [gput, pvoteHandler, numsOf_bytes, bytesOf_bytes, if_true, Nat.reduceEqDiff, if_false, List.foldlM_cons]
        cases setPBlockID m.blockID x with
        | none => rfl
        | some b => exact h2 _
      · simp only [gput, pvoteHandler, numsOf_bytes, bytesOf_bytes, if_true, Nat.reduceEqDiff, if_false, List.foldlM_cons]
        cases decodeTime x with
        | none => cases (bytesOf 4 fs).foldlM setPBlockID m.blockID <;> rfl
        | some b => exact h2 _
      all_goals
        rw [gcons (h := pvoteHandler) fs rfl, h2]
        simp [numsOf_bytes, bytesOf_bytes, lastOr_cons]

theorem pproposal_gfold (fs : List GVal) : ∀ (_ : ∀ f ∈ fs, f.In proposalKinds) (m : Proposal),
    fs.foldlM (gput pproposalHandler) m = ((bytesOf 5 fs).foldlM setPBlockID m.blockID).bind fun b =>
      ((bytesOf 6 fs).foldlM (fun _ x => decodeTime x) m.timestamp).map fun t =>
        ⟨lastOr (fun v : Nat => i32 v) m.type (numsOf 1 fs), lastOr (fun v : Nat => i64 v) m.height (numsOf 2 fs),
          lastOr (fun v : Nat => i32 v) m.round (numsOf 3 fs), lastOr (fun v : Nat => i32 v) m.polRound (numsOf 4 fs), b, t,
          lastOr some m.signature (bytesOf 7 fs)⟩ := by
  induction fs with
  | nil => intro _ m; rfl
  | cons f fs ih =>
    intro ht m
    have h1 := ht f (by simp)
    have h2 := ih fun g hg => ht g (by simp [hg])
    cases f with
    | num n v =>
      simp only [GVal.In, proposalKinds, List.mem_cons, List.not_mem_nil, or_false] at h1
      rcases h1 with rfl | rfl | rfl | rfl <;>
        (rw [gcons (h := pproposalHandler) fs rfl, h2]; simp [numsOf_num, bytesOf_num, lastOr_cons])
    | fix n v => simp [GVal.In, proposalKinds] at h1
    | bytes n x =>
      simp only [GVal.In, proposalKinds, List.mem_cons, List.not_mem_nil, or_false] at h1
      rcases h1 with rfl | rfl | rfl
      · simp only [gput, pproposalHandler, numsOf_bytes, bytesOf_bytes, if_true, Nat.reduceEqDiff, if_false, List.foldlM_cons]
        cases setPBlockID m.blockID x with
        | none => rfl
        | some b => exact h2 _
      · simp only [gput, pproposalHandler, numsOf_bytes, bytesOf_bytes, if_true, Nat.reduceEqDiff, if_false, List.foldlM_cons]
        cases decodeTime x with
        | none => cases (bytesOf 5 fs).foldlM setPBlockID m.blockID <;> rfl
        | some b => exact h2 _
      · rw [gcons (h := pproposalHandler) fs rfl, h2]
        simp [numsOf_bytes, bytesOf_bytes, lastOr_cons]

theorem cvote_gfold (fs : List GVal) : ∀ (_ : ∀ f ∈ fs, f.In ⟨[1], [2, 3], [4, 5, 6]⟩) (m : CVote),
    fs.foldlM (gput voteHandler) m = ((bytesOf 4 fs).foldlM setBlockID m.blockID).bind fun b =>
      ((bytesOf 5 fs).foldlM (fun _ x => decodeTime x) m.timestamp).map fun t =>
        ⟨lastOr (fun v : Nat => i32 v) m.type (numsOf 1 fs), lastOr (fun v : Nat => i64 v) m.height (fixsOf 2 fs),
          lastOr (fun v : Nat => i64 v) m.round (fixsOf 3 fs), b, t, lastOr id m.chainID (bytesOf 6 fs)⟩ := by
  induction fs with
  | nil => intro _ m; rfl
  | cons f fs ih =>
    intro ht m
    have h1 := ht f (by simp)
    have h2 := ih fun g hg => ht g (by simp [hg])
    cases f with
    | num n v =>
      simp only [GVal.In, List.mem_cons, List.not_mem_nil, or_false] at h1
      subst h1
      rw [gcons (h := voteHandler) fs rfl, h2]
      simp [numsOf_num, fixsOf_num, bytesOf_num, lastOr_cons]
    | fix n v =>
      simp only [GVal.In, List.mem_cons, List.not_mem_nil, or_false] at h1
      rcases h1 with rfl | rfl <;>
        (rw [gcons (h := voteHandler) fs rfl, h2]; simp [numsOf_fix, fixsOf_fix, bytesOf_fix, lastOr_cons])
    | bytes n x =>
      simp only [GVal.In, List.mem_cons, List.not_mem_nil, or_false] at h1
      rcases h1 with rfl | rfl | rfl
      · simp only [gput, voteHandler, numsOf_bytes, fixsOf_bytes, bytesOf_bytes, if_true, Nat.reduceEqDiff, if_false, List.foldlM_cons]
        cases setBlockID m.blockID x with
        | none => rfl
        | some b => exact h2 _
      · simp only [gput, voteHandler, numsOf_bytes, fixsOf_bytes, bytesOf_bytes, if_true, Nat.reduceEqDiff, if_false, List.foldlM_cons]
        cases decodeTime x with
        | none => cases (bytesOf 4 fs).foldlM setBlockID m.blockID <;> rfl
        | some b => exact h2 _
      · rw [gcons (h := voteHandler) fs rfl, h2]
        simp [numsOf_bytes, fixsOf_bytes, bytesOf_bytes, lastOr_cons]

theorem cproposal_gfold (fs : List GVal) : ∀ (_ : ∀ f ∈ fs, f.In ⟨[1, 4], [2, 3], [5, 6, 7]⟩) (m : CProposal),
    fs.foldlM (gput proposalHandler) m = ((bytesOf 5 fs).foldlM setBlockID m.blockID).bind fun b =>
      ((bytesOf 6 fs).foldlM (fun _ x => decodeTime x) m.timestamp).map fun t =>
        ⟨lastOr (fun v : Nat => i32 v) m.type (numsOf 1 fs), lastOr (fun v : Nat => i64 v) m.height (fixsOf 2 fs),
          lastOr (fun v : Nat => i64 v) m.round (fixsOf 3 fs), lastOr (fun v : Nat => i64 v) m.polRound (numsOf 4 fs), b, t,
          lastOr id m.chainID (bytesOf 7 fs)⟩ := by
  induction fs with
  | nil => intro _ m; rfl
  | cons f fs ih =>
    intro ht m
    have h1 := ht f (by simp)
    have h2 := ih fun g hg => ht g (by simp [hg])
    cases f with
    | num n v =>
      simp only [GVal.In, List.mem_cons, List.not_mem_nil, or_false] at h1
      rcases h1 with rfl | rfl <;>
        (rw [gcons (h := proposalHandler) fs rfl, h2]; simp [numsOf_num, fixsOf_num, bytesOf_num, lastOr_cons])
    | fix n v =>
      simp only [GVal.In, List.mem_cons, List.not_mem_nil, or_false] at h1
      rcases h1 with rfl | rfl <;>
        (rw [gcons (h := proposalHandler) fs rfl, h2]; simp [numsOf_fix, fixsOf_fix, bytesOf_fix, lastOr_cons])
    | bytes n x =>
      simp only [GVal.In, List.mem_cons, List.not_mem_nil, or_false] at h1
      rcases h1 with rfl | rfl | rfl
      · simp only [gput, proposalHandler, numsOf_bytes, fixsOf_bytes, bytesOf_bytes, if_true, Nat.reduceEqDiff, if_false,
          List.foldlM_cons]
        cases setBlockID m.blockID x with
        | none => rfl
        | some b => exact h2 _
      · simp only [gput, proposalHandler, numsOf_bytes, fixsOf_bytes, bytesOf_bytes, if_true, Nat.reduceEqDiff, if_false,
          List.foldlM_cons]
        cases decodeTime x with
        | none => cases (bytesOf 5 fs).foldlM setBlockID m.blockID <;> rfl
        | some b => exact h2 _
      · rw [gcons (h := proposalHandler) fs rfl, h2]
        simp [numsOf_bytes, fixsOf_bytes, bytesOf_bytes, lastOr_cons]
end

/-! ### The messages -/

theorem timeRead_iff {t : GoTime} {bs : Bytes} : decodeTime bs = some t ↔ TimeRead t bs := by
  unfold decodeTime TimeRead
  constructor
  · intro h
    cases hd : decodeMsg timestampHandler ⟨0, 0⟩ bs with
    | none => rw [hd] at h; cases h
    | some p =>
      rw [hd] at h
      simp only at h
      split at h
      · next hv =>
        cases h
        obtain ⟨fs, h1, h2⟩ := (decode_iff _ time_kind).1 hd
        rw [time_gfold fs (reads_in h1)] at h2
        have hv : -62135596800 ≤ p.seconds ∧ p.seconds < 253402300800 ∧ 0 ≤ p.nanos ∧ p.nanos < 1000000000 := by
          simpa [timestampValid, and_assoc] using hv
        cases h2
        exact ⟨hv.1, hv.2.1, hv.2.2.1, hv.2.2.2, fs, h1, says64_iff.2 rfl, says32_iff.2 rfl⟩
      · cases h
  · rintro ⟨h1, h2, h3, h4, fs, h5, h6, h7⟩
    rw [(decode_iff _ time_kind).2 ⟨fs, h5, time_gfold fs (reads_in h5) _⟩]
    simp only [says64_iff.1 h6, says32_iff.1 h7]
    rw [if_pos]
    simp [timestampValid, h1, h2, h3, h4]

theorem lastTime_fold (l : List Bytes) : ∀ t0 t : GoTime, l.foldlM (fun _ x => decodeTime x) t0 = some t ↔
    (∀ x ∈ l, ∃ t', TimeRead t' x) ∧ ((l = [] ∧ t = t0) ∨ ∃ x, l.getLast? = some x ∧ TimeRead t x) := by
  induction l with
  | nil => intro t0 t; simp [eq_comm]
  | cons y l ih =>
    intro t0 t
    rw [List.foldlM_cons]
    constructor
    · intro h
      obtain ⟨t1, e1, e2⟩ := Option.bind_eq_some_iff.1 h
      obtain ⟨h1, h2⟩ := (ih t1 t).1 e2
      refine ⟨fun x hx => ?_, .inr ?_⟩
      · rcases List.mem_cons.1 hx with rfl | hx
        · exact ⟨t1, timeRead_iff.1 e1⟩
        · exact h1 x hx
      · rcases h2 with ⟨rfl, rfl⟩ | ⟨x, hx, h2⟩
        · exact ⟨y, rfl, timeRead_iff.1 e1⟩
        · refine ⟨x, ?_, h2⟩
          cases l with
          | nil => simp at hx
          | cons z l => rw [List.getLast?_cons_cons]; exact hx
    · rintro ⟨h1, h2⟩
      obtain ⟨t1, e1⟩ := h1 y (by simp)
      refine Option.bind_eq_some_iff.2 ⟨t1, timeRead_iff.2 e1, (ih t1 t).2 ⟨fun x hx => h1 x (by simp [hx]), ?_⟩⟩
      rcases h2 with ⟨h, _⟩ | ⟨x, hx, h2⟩
      · cases h
      · cases l with
        | nil =>
          left
          cases hx
          have := (timeRead_iff.2 e1).symm.trans (timeRead_iff.2 h2)
          cases this
          exact ⟨rfl, rfl⟩
        | cons z l => right; rw [List.getLast?_cons_cons] at hx; exact ⟨x, hx, h2⟩

theorem saysLastTime_iff {l : List Bytes} {t : GoTime} : l.foldlM (fun _ x => decodeTime x) .zero = some t ↔ SaysLastTime l t :=
  lastTime_fold l _ t

theorem saysBlockID_iff {l : List Bytes} {b : CBlockID} :
    l.foldlM (decodeMsg blockIDHandler) ⟨[], ⟨0, []⟩⟩ = some b ↔ SaysBlockID l b.hash b.psh.total b.psh.hash := by
  rw [chunks_iff _ blockID_kind]
  unfold SaysBlockID
  constructor
  · rintro ⟨fs, h1, h2⟩
    rw [blockID_gfold fs (pieces_in h1)] at h2
    obtain ⟨p, hp, h2⟩ := Option.map_eq_some_iff.1 h2
    obtain ⟨gs, g1, g2⟩ := (chunks_iff _ psh_kind _ _ _).1 hp
    rw [psh_gfold gs (pieces_in g1)] at g2
    cases g2
    subst h2
    refine ⟨fs, h1, saysLast_iff.2 rfl, gs, g1, ?_, saysLast_iff.2 rfl⟩
    exact lastOr_map _ _ rfl _
  · rintro ⟨fs, h1, h2, gs, g1, g2, g3⟩
    refine ⟨fs, h1, ?_⟩
    rw [blockID_gfold fs (pieces_in h1), (chunks_iff _ psh_kind _ _ _).2 ⟨gs, g1, psh_gfold gs (pieces_in g1) _⟩]
    rw [saysLast_iff] at h2 g3
    have : lastOr (fun v : Nat => v % 2 ^ 32) 0 (numsOf 1 gs) = b.psh.total := by
      rw [g2]; exact lastOr_map _ _ rfl _
    simp only [Option.map_some, h2, g3, this]

theorem setPBlockID_fold (l : List Bytes) : ∀ b : BlockID,
    l.foldlM setPBlockID b = (l.foldlM (decodeMsg blockIDHandler) b.toC).map .ofC := by
  induction l with
  | nil => intro b; rfl
  | cons x l ih =>
    intro b
    simp only [List.foldlM_cons, setPBlockID]
    cases decodeMsg blockIDHandler b.toC x with
    | none => rfl
    | some c => exact ih _

theorem saysPBlockID_iff {l : List Bytes} {b : BlockID} :
    l.foldlM setPBlockID ⟨[], 0, []⟩ = some b ↔ SaysBlockID l b.hash b.pshTotal b.pshHash := by
  rw [setPBlockID_fold, Option.map_eq_some_iff]
  constructor
  · rintro ⟨c, h, rfl⟩; exact saysBlockID_iff.1 h
  · intro h; exact ⟨b.toC, saysBlockID_iff.2 h, rfl⟩

theorem saysBlockID?_iff {l : List Bytes} {b? : Option CBlockID} : l.foldlM setBlockID none = some b? ↔ SaysBlockID? l b? := by
  have := setOpt_iff blockIDHandler ⟨[], ⟨0, []⟩⟩ l b?
  rw [show l.foldlM setBlockID none = l.foldlM (setOpt blockIDHandler ⟨[], ⟨0, []⟩⟩) none from rfl, this]
  cases b? with
  | none => simp [SaysBlockID?]
  | some b => simp [SaysBlockID?, saysBlockID_iff]

theorem cvoteRead_iff {v : CVote} {bs : Bytes} : decodeMsg voteHandler .zero bs = some v ↔ CVoteRead v bs := by
  rw [decode_iff _ cvote_kind]
  unfold CVoteRead
  constructor
  · rintro ⟨fs, h1, h2⟩
    rw [cvote_gfold fs (reads_in h1)] at h2
    obtain ⟨b, hb, h2⟩ := Option.bind_eq_some_iff.1 h2
    obtain ⟨t, ht, rfl⟩ := Option.map_eq_some_iff.1 h2
    exact ⟨fs, h1, says32_iff.2 rfl, says64_iff.2 rfl, says64_iff.2 rfl, saysBlockID?_iff.1 hb, saysLastTime_iff.1 ht, saysLast_iff.2 rfl⟩
  · rintro ⟨fs, h1, e1, e2, e3, e4, e5, e6⟩
    refine ⟨fs, h1, ?_⟩
    rw [cvote_gfold fs (reads_in h1)]
    simp only [CVote.zero, saysBlockID?_iff.2 e4, saysLastTime_iff.2 e5, says32_iff.1 e1, says64_iff.1 e2, says64_iff.1 e3,
      saysLast_iff.1 e6, Option.bind_some, Option.map_some]

theorem cproposalRead_iff {p : CProposal} {bs : Bytes} : decodeMsg proposalHandler .zero bs = some p ↔ CProposalRead p bs := by
  rw [decode_iff _ cproposal_kind]
  unfold CProposalRead
  constructor
  · rintro ⟨fs, h1, h2⟩
    rw [cproposal_gfold fs (reads_in h1)] at h2
    obtain ⟨b, hb, h2⟩ := Option.bind_eq_some_iff.1 h2
    obtain ⟨t, ht, rfl⟩ := Option.map_eq_some_iff.1 h2
    exact ⟨fs, h1, says32_iff.2 rfl, says64_iff.2 rfl, says64_iff.2 rfl, says64_iff.2 rfl, saysBlockID?_iff.1 hb, saysLastTime_iff.1 ht,
      saysLast_iff.2 rfl⟩
  · rintro ⟨fs, h1, e1, e2, e3, e7, e4, e5, e6⟩
    refine ⟨fs, h1, ?_⟩
    rw [cproposal_gfold fs (reads_in h1)]
    simp only [CProposal.zero, saysBlockID?_iff.2 e4, saysLastTime_iff.2 e5, says32_iff.1 e1, says64_iff.1 e2, says64_iff.1 e3,
      says64_iff.1 e7, saysLast_iff.1 e6, Option.bind_some, Option.map_some]

theorem saysVote_iff {fs : List GVal} (hf : ∀ f ∈ fs, f.In voteKinds) {v : Vote} :
    fs.foldlM (gput pvoteHandler) .zero = some v ↔ SaysVote fs v := by
  rw [pvote_gfold fs hf]
  unfold SaysVote
  constructor
  · intro h2
    obtain ⟨b, hb, h2⟩ := Option.bind_eq_some_iff.1 h2
    obtain ⟨t, ht, rfl⟩ := Option.map_eq_some_iff.1 h2
    exact ⟨says32_iff.2 rfl, says64_iff.2 rfl, says32_iff.2 rfl, saysPBlockID_iff.1 hb, saysLastTime_iff.1 ht, saysLast_iff.2 rfl,
      says32_iff.2 rfl, (last?_eq _).symm⟩
  · rintro ⟨e1, e2, e3, e4, e5, e6, e7, e8⟩
    simp only [Vote.zero, saysPBlockID_iff.2 e4, saysLastTime_iff.2 e5, says32_iff.1 e1, says64_iff.1 e2, says32_iff.1 e3,
      says32_iff.1 e7, saysLast_iff.1 e6, last?_eq, e8, Option.bind_some, Option.map_some]

theorem saysProposal_iff {fs : List GVal} (hf : ∀ f ∈ fs, f.In proposalKinds) {p : Proposal} :
    fs.foldlM (gput pproposalHandler) .zero = some p ↔ SaysProposal fs p := by
  rw [pproposal_gfold fs hf]
  unfold SaysProposal
  constructor
  · intro h2
    obtain ⟨b, hb, h2⟩ := Option.bind_eq_some_iff.1 h2
    obtain ⟨t, ht, rfl⟩ := Option.map_eq_some_iff.1 h2
    exact ⟨says32_iff.2 rfl, says64_iff.2 rfl, says32_iff.2 rfl, says32_iff.2 rfl, saysPBlockID_iff.1 hb, saysLastTime_iff.1 ht,
      (last?_eq _).symm⟩
  · rintro ⟨e1, e2, e3, e7, e4, e5, e8⟩
    simp only [Proposal.zero, saysPBlockID_iff.2 e4, saysLastTime_iff.2 e5, says32_iff.1 e1, says64_iff.1 e2, says32_iff.1 e3,
      says32_iff.1 e7, last?_eq, e8, Option.bind_some, Option.map_some]

theorem saysError?_iff {l : List Bytes} {e? : Option RSErr} :
    l.foldlM (setOpt rsErrHandler ⟨0, []⟩) none = some e? ↔ SaysError? l e? := by
  rw [setOpt_iff]
  have key : ∀ e, l.foldlM (decodeMsg rsErrHandler) ⟨0, []⟩ = some e ↔
      ∃ fs, Chunks errorKinds l fs ∧ Says32 (numsOf 1 fs) e.code ∧ SaysLast (bytesOf 2 fs) e.description := by
    intro e
    rw [chunks_iff _ rsErr_kind]
    constructor
    · rintro ⟨fs, h1, h2⟩
      rw [rsErr_gfold fs (pieces_in h1)] at h2
      cases h2
      exact ⟨fs, h1, says32_iff.2 rfl, saysLast_iff.2 rfl⟩
    · rintro ⟨fs, h1, h2, h3⟩
      refine ⟨fs, h1, ?_⟩
      rw [rsErr_gfold fs (pieces_in h1)]
      simp only [says32_iff.1 h2, saysLast_iff.1 h3]
  cases e? with
  | none => simp [SaysError?]
  | some e => simp [SaysError?, key]

/-- A handler that replaces what was there. -/
theorem replace_gfold (h : Handler α) (hr : ∀ m m' f, gput h m f = gput h m' f) (m0 : α) (fs : List GVal) : ∀ m1 m : α,
    fs.foldlM (gput h) m1 = some m ↔ (∀ f ∈ fs, ∃ m', gput h m0 f = some m') ∧
      ((fs = [] ∧ m = m1) ∨ ∃ before f, fs = before ++ [f] ∧ gput h m0 f = some m) := by
  induction fs with
  | nil =>
    intro m1 m
    constructor
    · intro e; cases e; exact ⟨by simp, .inl ⟨rfl, rfl⟩⟩
    · rintro ⟨_, ⟨_, rfl⟩ | ⟨before, f, e, _⟩⟩
      · rfl
      · simp at e
  | cons g fs ih =>
    intro m1 m
    rw [List.foldlM_cons]
    constructor
    · intro e
      obtain ⟨m2, e1, e2⟩ := Option.bind_eq_some_iff.1 e
      rw [hr m1 m0] at e1
      obtain ⟨h1, h2⟩ := (ih m2 m).1 e2
      refine ⟨fun f hf => ?_, .inr ?_⟩
      · rcases List.mem_cons.1 hf with rfl | hf
        · exact ⟨m2, e1⟩
        · exact h1 f hf
      · rcases h2 with ⟨rfl, rfl⟩ | ⟨before, f, rfl, h2⟩
        · exact ⟨[], g, rfl, e1⟩
        · exact ⟨g :: before, f, rfl, h2⟩
    · rintro ⟨h1, h2⟩
      obtain ⟨m2, e1⟩ := h1 g (by simp)
      refine Option.bind_eq_some_iff.2 ⟨m2, (hr m1 m0 g).trans e1, (ih m2 m).2 ⟨fun f hf => h1 f (by simp [hf]), ?_⟩⟩
      rcases h2 with ⟨h, _⟩ | ⟨before, f, e, h2⟩
      · cases h
      · cases before with
        | nil =>
          left
          simp only [List.nil_append, List.cons.injEq] at e
          obtain ⟨rfl, rfl⟩ := e
          exact ⟨rfl, Option.some.inj (h2.symm.trans e1)⟩
        | cons b before =>
          right
          simp only [List.cons_append, List.cons.injEq] at e
          exact ⟨before, f, e.2, h2⟩

theorem saysPubKey_iff {fs : List GVal} (hf : ∀ f ∈ fs, f.In pubKeyKinds) {p : PPubKey} :
    fs.foldlM (gput ppubKeyHandler) .unset = some p ↔ SaysPubKey fs p := by
  have hput : ∀ f : GVal, f.In pubKeyKinds → ∃ x, (f = .bytes 1 x ∧ gput ppubKeyHandler .unset f = some (.ed25519 x)) ∨
      (f = .bytes 2 x ∧ gput ppubKeyHandler .unset f = some (.secp256k1 x)) := by
    intro f hf
    cases f with
    | num n v => simp [GVal.In, pubKeyKinds] at hf
    | fix n v => simp [GVal.In, pubKeyKinds] at hf
    | bytes n x =>
      simp only [GVal.In, pubKeyKinds, List.mem_cons, List.not_mem_nil, or_false] at hf
      rcases hf with rfl | rfl
      · exact ⟨x, .inl ⟨rfl, rfl⟩⟩
      · exact ⟨x, .inr ⟨rfl, rfl⟩⟩
  rw [replace_gfold ppubKeyHandler (fun _ _ f => by cases f <;> rfl) .unset]
  have all : ∀ f ∈ fs, ∃ m', gput ppubKeyHandler .unset f = some m' := by
    intro f hm
    obtain ⟨x, ⟨_, h⟩ | ⟨_, h⟩⟩ := hput f (hf f hm)
    · exact ⟨_, h⟩
    · exact ⟨_, h⟩
  constructor
  · rintro ⟨_, ⟨rfl, rfl⟩ | ⟨before, f, rfl, h⟩⟩
    · rfl
    · obtain ⟨x, ⟨rfl, h'⟩ | ⟨rfl, h'⟩⟩ := hput f (hf f (by simp)) <;> cases h.symm.trans h' <;> exact ⟨before, rfl⟩
  · intro h
    refine ⟨all, ?_⟩
    cases p with
    | unset => exact .inl ⟨h, rfl⟩
    | ed25519 k => obtain ⟨before, rfl⟩ := h; exact .inr ⟨before, _, rfl, rfl⟩
    | secp256k1 k => obtain ⟨before, rfl⟩ := h; exact .inr ⟨before, _, rfl, rfl⟩

theorem requestRead_iff {h : Handler α} {k : Kinds} (hk : h.Kind k) {zero : α} {says : List GVal → α → Prop}
    (hs : ∀ fs, (∀ f ∈ fs, f.In k) → ∀ a, fs.foldlM (gput h) zero = some a ↔ says fs a) {a? : Option α} {c bs : Bytes} :
    decodeMsg (signReqHandler h zero) (none, []) bs = some (a?, c) ↔ RequestRead k says a? c bs := by
  have key : ∀ l a, l.foldlM (decodeMsg h) zero = some a ↔ ∃ gs, Chunks k l gs ∧ says gs a := by
    intro l a
    rw [chunks_iff _ hk]
    constructor
    · rintro ⟨gs, g1, g2⟩; exact ⟨gs, g1, (hs gs (pieces_in g1) a).1 g2⟩
    · rintro ⟨gs, g1, g2⟩; exact ⟨gs, g1, (hs gs (pieces_in g1) a).2 g2⟩
  rw [decode_iff _ (signReq_kind h zero)]
  unfold RequestRead
  constructor
  · rintro ⟨fs, h1, h2⟩
    rw [signReq_gfold h zero fs (reads_in h1)] at h2
    obtain ⟨a, ha, h2⟩ := Option.map_eq_some_iff.1 h2
    cases h2
    refine ⟨fs, h1, saysLast_iff.2 rfl, ?_⟩
    rcases (setOpt_iff _ _ _ _).1 ha with ⟨e, rfl⟩ | ⟨e, b, rfl, hb⟩
    · exact e
    · exact ⟨e, (key _ _).1 hb⟩
  · rintro ⟨fs, h1, h2, h3⟩
    refine ⟨fs, h1, ?_⟩
    rw [signReq_gfold h zero fs (reads_in h1)]
    refine Option.map_eq_some_iff.2 ⟨a?, (setOpt_iff _ _ _ _).2 ?_, by rw [saysLast_iff.1 h2]⟩
    cases a? with
    | none => exact .inl ⟨h3, rfl⟩
    | some a => exact .inr ⟨h3.1, a, rfl, (key _ _).2 h3.2⟩

theorem responseRead_iff {h : Handler α} {k : Kinds} (hk : h.Kind k) {zero : α} {says : List GVal → α → Prop}
    (hs : ∀ fs, (∀ f ∈ fs, f.In k) → ∀ a, fs.foldlM (gput h) zero = some a ↔ says fs a) {a : α} {e? : Option RSErr} {bs : Bytes} :
    decodeMsg (respHandler h) (zero, none) bs = some (a, e?) ↔ ResponseRead k says a e? bs := by
  rw [decode_iff _ (resp_kind h)]
  unfold ResponseRead
  constructor
  · rintro ⟨fs, h1, h2⟩
    rw [resp_gfold h fs (reads_in h1)] at h2
    obtain ⟨a', ha, h2⟩ := Option.bind_eq_some_iff.1 h2
    obtain ⟨e', he, h2⟩ := Option.map_eq_some_iff.1 h2
    cases h2
    obtain ⟨gs, g1, g2⟩ := (chunks_iff _ hk _ _ _).1 ha
    exact ⟨fs, h1, ⟨gs, g1, (hs gs (pieces_in g1) _).1 g2⟩, saysError?_iff.1 he⟩
  · rintro ⟨fs, h1, ⟨gs, g1, g2⟩, h3⟩
    refine ⟨fs, h1, ?_⟩
    rw [resp_gfold h fs (reads_in h1)]
    refine Option.bind_eq_some_iff.2 ⟨a, (chunks_iff _ hk _ _ _).2 ⟨gs, g1, (hs gs (pieces_in g1) _).2 g2⟩, ?_⟩
    exact Option.map_eq_some_iff.2 ⟨e?, saysError?_iff.2 h3, rfl⟩

theorem noFields_iff {bs : Bytes} : decodeMsg noFieldsHandler () bs = some () ↔ FieldsRead ⟨[], [], []⟩ [] bs := by
  rw [decode_iff _ noFields_kind]
  constructor
  · rintro ⟨fs, h1, _⟩
    cases fs with
    | nil => exact h1
    | cons f fs => have := reads_in h1 f (by simp); cases f <;> simp [GVal.In] at this
  · intro h; exact ⟨[], h, rfl⟩

theorem pubKeyReq_iff {c bs : Bytes} : decodeMsg pubKeyReqHandler [] bs = some c ↔
    ∃ fs, FieldsRead ⟨[], [], [1]⟩ fs bs ∧ SaysLast (bytesOf 1 fs) c := by
  rw [decode_iff _ pubKeyReq_kind]
  constructor
  · rintro ⟨fs, h1, h2⟩
    rw [pubKeyReq_gfold fs (reads_in h1)] at h2
    exact ⟨fs, h1, saysLast_iff.2 (Option.some.inj h2)⟩
  · rintro ⟨fs, h1, h2⟩
    exact ⟨fs, h1, by rw [pubKeyReq_gfold fs (reads_in h1), saysLast_iff.1 h2]⟩

theorem memberRead_iff {n : Nat} (hn : n ∈ [1, 2, 3, 4, 5, 6, 7, 8]) {x : Bytes} {m0 m : PMsg} :
    pmsgHandler.set m0 n (.len x) = some m ↔ MemberRead n x m := by
  have hv := fun fs hf v => @saysVote_iff fs hf v
  have hp := fun fs hf v => @saysProposal_iff fs hf v
  have hk := fun fs hf v => @saysPubKey_iff fs hf v
  simp only [List.mem_cons, List.not_mem_nil, or_false] at hn
  rcases hn with rfl | rfl | rfl | rfl | rfl | rfl | rfl | rfl <;>
    simp only [pmsgHandler, Option.map_eq_some_iff]
  · cases m <;> simp [MemberRead, pubKeyReq_iff]
  · cases m with
    | pubKeyResponse k e => simp [MemberRead, ← responseRead_iff ppubKey_kind hk]
    | _ => simp [MemberRead]
  · cases m with
    | signVoteRequest v c => simp [MemberRead, ← requestRead_iff pvote_kind hv]
    | _ => simp [MemberRead]
  · cases m with
    | signedVoteResponse v c => simp [MemberRead, ← responseRead_iff pvote_kind hv]
    | _ => simp [MemberRead]
  · cases m with
    | signProposalRequest v c => simp [MemberRead, ← requestRead_iff pproposal_kind hp]
    | _ => simp [MemberRead]
  · cases m with
    | signedProposalResponse v c => simp [MemberRead, ← responseRead_iff pproposal_kind hp]
    | _ => simp [MemberRead]
  · cases m with
    | pingRequest => simp only [MemberRead, ← noFields_iff, and_true, true_and]; exact ⟨fun ⟨_, h⟩ => h, fun h => ⟨(), h⟩⟩
    | _ => simp [MemberRead]
  · cases m with
    | pingResponse => simp only [MemberRead, ← noFields_iff, and_true, true_and]; exact ⟨fun ⟨_, h⟩ => h, fun h => ⟨(), h⟩⟩
    | _ => simp [MemberRead]

theorem messageRead_iff {m : PMsg} {bs : Bytes} : decodeMsg pmsgHandler .empty bs = some m ↔ MessageRead m bs := by
  rw [decode_iff _ pmsg_kind]
  unfold MessageRead
  have hput : ∀ f : GVal, f.In ⟨[], [], [1, 2, 3, 4, 5, 6, 7, 8]⟩ → ∃ n x, f = .bytes n x ∧
      ∀ m, gput pmsgHandler .empty f = some m ↔ MemberRead n x m := by
    intro f hf
    cases f with
    | num n v => simp [GVal.In] at hf
    | fix n v => simp [GVal.In] at hf
    | bytes n x => exact ⟨n, x, rfl, fun m => memberRead_iff hf⟩
  refine exists_congr fun fs => and_congr_right fun h1 => ?_
  have hin := reads_in h1
  rw [replace_gfold pmsgHandler (fun _ _ f => by cases f <;> rfl) .empty]
  constructor
  · rintro ⟨h2, h3⟩
    refine ⟨fun n x hx => ?_, ?_⟩
    · obtain ⟨m', e⟩ := h2 _ hx
      obtain ⟨n', x', e', h⟩ := hput _ (hin _ hx)
      cases e'
      exact ⟨m', (h m').1 e⟩
    · rcases h3 with h3 | ⟨before, f, rfl, h3⟩
      · exact .inl h3
      · obtain ⟨n', x', rfl, h⟩ := hput f (hin f (by simp))
        exact .inr ⟨before, n', x', rfl, (h m).1 h3⟩
  · rintro ⟨h2, h3⟩
    refine ⟨fun f hf => ?_, ?_⟩
    · obtain ⟨n', x', rfl, h⟩ := hput f (hin f hf)
      obtain ⟨m', e⟩ := h2 n' x' hf
      exact ⟨m', (h m').2 e⟩
    · rcases h3 with h3 | ⟨before, n, x, rfl, h3⟩
      · exact .inl h3
      · obtain ⟨n', x', e', h⟩ := hput (.bytes n x) (hin _ (by simp))
        cases e'
        exact .inr ⟨before, _, rfl, (h m).2 h3⟩

end Horcrux
