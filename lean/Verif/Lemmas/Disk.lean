import Verif.Lemmas.CosignerTrace
import Verif.Spec.Disk
/-
Invariants of the state file.
-/
namespace Horcrux
open Spec

variable {C : Crypto} {cfg : CosignerCfg} {ok : DState → DEv → Prop}

@[simp] theorem Slice.norm_bytes (s : Slice) : s.norm.bytes = s.bytes := by
  unfold Slice.norm; split <;> rfl

theorem Slice.eq_of_bytes {a b : Slice} {x : UInt8} {l : Bytes} (h : a.bytes = b.bytes) (hb : b = some (x :: l)) :
    a = b := by
  subst hb
  cases a with
  | none => cases h
  | some a => simp only [Slice.bytes, Option.getD_some] at h; rw [h]

theorem holds_persist (l : SignState) : Holds l.persist l :=
  ⟨rfl, rfl, rfl, by simp [SignState.persist], by simp [SignState.persist], by simp [SignState.persist]⟩

theorem holds_load (f : PFile) : Holds f f.load := ⟨rfl, rfl, rfl, rfl, rfl, rfl⟩

theorem Spec.Holds.record {f : PFile} {l : SignState} (h : Holds f l) : HoldsRecord f l :=
  ⟨h.height, h.round, h.step, h.signature, h.signBytes⟩

theorem load_hrs (f : PFile) : f.load.hrs = f.hrs := rfl
theorem persist_hrs (l : SignState) : l.persist.hrs = l.hrs := rfl

theorem Spec.HoldsRecord.hrs {f : PFile} {l : SignState} (h : HoldsRecord f l) : f.hrs = l.hrs := by
  unfold PFile.hrs SignState.hrs; rw [h.height, h.round, h.step]

theorem decodeProposal_nil : decodeProposal [] = none := by decide +kernel
theorem decodeVote_nil : decodeVote [] = none := by decide +kernel

theorem Spec.DifferOnlyByTime.left_ne {st : Int} {a b : Bytes} (h : DifferOnlyByTime st a b) : a ≠ [] := by
  rintro rfl
  rcases h with ⟨_, p, q, hp, _⟩ | ⟨_, p, q, hp, _⟩
  · rw [decodeProposal_nil] at hp; cases hp
  · rw [decodeVote_nil] at hp; cases hp

theorem step_lss' (m : CState) (o : CosOp) :
    m.lss.hrs ≼ (m.step C cfg o).2.lss.hrs ∧
    ((m.step C cfg o).2.lss.hrs = m.lss.hrs → (m.step C cfg o).2.lss.signBytes = m.lss.signBytes ∧
      (m.step C cfg o).2.lss.signature = m.lss.signature) :=
  step_lss (C := C) (cfg := cfg) (s := m) (op := o) (out := (m.step C cfg o).1) rfl

/-- The effect of an operation. -/
theorem dstep_op (s : DState) (o : CosOp) :
    (s.alive = false ∧ s.step C cfg (.op o) = (none, s)) ∨
    (s.alive = true ∧ (s.mem.step C cfg o).1 = .panic ∧
      s.step C cfg (.op o) = (some .panic, { s with alive := false, jobs := [] })) ∨
    (s.alive = true ∧ (s.mem.step C cfg o).1 ≠ .panic ∧
      s.step C cfg (.op o) = (some (s.mem.step C cfg o).1,
        { s with mem := (s.mem.step C cfg o).2, jobs := spawn s.mem (s.mem.step C cfg o).2 s.jobs })) := by
  by_cases ha : s.alive = false
  · exact .inl ⟨ha, by simp [DState.step, ha]⟩
  · have ha' : s.alive = true := by simpa using ha
    refine .inr ?_
    simp only [DState.step, ha', Bool.true_eq_false, if_false]
    generalize s.mem.step C cfg o = x
    obtain ⟨a, m⟩ := x
    cases a <;> simp

/-! ### What was released -/

/-- The release of a share signature in a history. -/
def DReleased (tr : List (DEv × Option (Out CosResp))) (bs : Bytes) (r : SignRes) : Prop :=
  (DEv.op (.sign bs), some (Out.ok (CosResp.signed r))) ∈ tr

def DReleasedInv (tr : List (DEv × Option (Out CosResp))) (s : DState) : Prop :=
  ∀ bs r k, DReleased tr bs r → unpackHRST bs = .ok k →
    k.hrs ≼ s.mem.lss.hrs ∧
    (k.hrs = s.mem.lss.hrs → ∃ b0, s.mem.lss.signBytes = some b0 ∧ DifferOnlyByTime k.step b0 bs)

theorem dreleased_snoc {tr : List (DEv × Option (Out CosResp))} {e : DEv} {a : Option (Out CosResp)} {bs : Bytes}
    {r : SignRes} (h : DReleased (tr ++ [(e, a)]) bs r) :
    DReleased tr bs r ∨ (e = .op (.sign bs) ∧ a = some (.ok (.signed r))) := by
  rcases mem_snoc h with h | h
  · exact .inl h
  · simp only [Prod.mk.injEq] at h; exact .inr ⟨h.1.symm, h.2.symm⟩

theorem dreleasedInv_step {s : DState} {tr : List (DEv × Option (Out CosResp))} {e : DEv} (he : e ≠ .restart)
    (ih : DReleasedInv tr s) : DReleasedInv (tr ++ [(e, (s.step C cfg e).1)]) (s.step C cfg e).2 := by
  cases e with
  | op o =>
    intro bs r k hm hu
    rcases dstep_op (C := C) (cfg := cfg) s o with ⟨_, hs⟩ | ⟨_, _, hs⟩ | ⟨_, hnp, hs⟩
    · rw [hs] at hm ⊢
      rcases dreleased_snoc hm with hm | ⟨_, hm⟩
      · exact ih bs r k hm hu
      · cases hm
    · rw [hs] at hm ⊢
      rcases dreleased_snoc hm with hm | ⟨_, hm⟩
      · exact ih bs r k hm hu
      · cases hm
    · rw [hs] at hm ⊢
      have hstep : s.mem.step C cfg o = ((s.mem.step C cfg o).1, (s.mem.step C cfg o).2) := rfl
      obtain ⟨hmono, hsame⟩ := step_lss hstep
      rcases dreleased_snoc hm with hm | ⟨ho, hm⟩
      · obtain ⟨h1, h2⟩ := ih bs r k hm hu
        refine ⟨HRS.le_trans h1 hmono, fun heq => ?_⟩
        have he' : k.hrs = s.mem.lss.hrs := HRS.le_antisymm h1 (heq ▸ hmono)
        show ∃ b0, (s.mem.step C cfg o).2.lss.signBytes = some b0 ∧ _
        rw [(hsame (heq.symm.trans he')).1]
        exact h2 he'
      · cases ho
        have hr : (s.mem.step C cfg (.sign bs)).1 = .ok (.signed r) := by simpa using hm
        rw [hr] at hstep
        show k.hrs ≼ (s.mem.step C cfg (.sign bs)).2.lss.hrs ∧ (k.hrs = (s.mem.step C cfg (.sign bs)).2.lss.hrs →
          ∃ b0, (s.mem.step C cfg (.sign bs)).2.lss.signBytes = some b0 ∧ DifferOnlyByTime k.step b0 bs)
        rcases sign_ok_cases (step_sign hstep) with ⟨k', hc⟩ | ⟨k', ref, m, hf⟩
        · have := hc.unpack; rw [hu] at this; cases this
          rw [hc.state]
          exact ⟨.inl hc.hrs.symm, fun _ => ⟨bs, hc.bytes, .refl_of_unpack hu⟩⟩
        · have := hf.unpack; rw [hu] at this; cases this
          refine ⟨.inl hf.hrs.symm, fun _ => ?_⟩
          rcases hf.le with he | hlt
          · obtain ⟨h1, b0, h2, _, h3⟩ := hf.again he
            exact ⟨b0, by rw [h1]; exact h2, h3⟩
          · exact ⟨bs, (hf.advance hlt).1, .refl_of_unpack hu⟩
  | marshal i =>
    intro bs r k hm hu
    have hmem : (s.step C cfg (.marshal i)).2.mem = s.mem := by
      simp only [DState.step]; split <;> rfl
    rw [hmem]
    rcases dreleased_snoc hm with hm | ⟨hm, _⟩
    · exact ih bs r k hm hu
    · cases hm
  | write i =>
    intro bs r k hm hu
    have hmem : (s.step C cfg (.write i)).2.mem = s.mem := by
      simp only [DState.step]; split <;> rfl
    rw [hmem]
    rcases dreleased_snoc hm with hm | ⟨hm, _⟩
    · exact ih bs r k hm hu
    · cases hm
  | restart => exact absurd rfl he

theorem dreleased_inv {s0 s : DState} {tr : List (DEv × Option (Out CosResp))}
    (hok : ∀ s e, ok s e → CrashesWhenRecorded s e) (h : DRun C cfg ok s0 tr s) : DReleasedInv tr s := by
  induction h with
  | nil => intro bs r k hm; cases hm
  | @snoc tr s h e he ih =>
    by_cases hre : e = .restart
    · subst hre
      intro bs r k hm hu
      have hrec := hok _ _ he rfl
      rcases dreleased_snoc hm with hm | ⟨hm, _⟩
      · obtain ⟨h1, h2⟩ := ih bs r k hm hu
        have hh : (s.step C cfg .restart).2.mem.lss.hrs = s.mem.lss.hrs := by
          show s.file.hrs = _; exact hrec.hrs
        rw [hh]
        refine ⟨h1, fun heq => ?_⟩
        obtain ⟨b0, hb, hd⟩ := h2 heq
        have hne := hd.left_ne
        obtain ⟨x, l, rfl⟩ : ∃ x l, b0 = x :: l := by
          cases b0 with
          | nil => exact absurd rfl hne
          | cons x l => exact ⟨x, l, rfl⟩
        refine ⟨_, ?_, hd⟩
        show s.file.signBytes = _
        rw [Slice.eq_of_bytes hrec.signBytes hb, hb]
      · cases hm
    · exact dreleasedInv_step hre ih

/-- At the moment of a release the watermark is at the released block. -/
theorem released_at {s : DState} {c : Bytes} {q : SignRes} {j : HRST} (hj : unpackHRST c = .ok j)
    (ha : (s.step C cfg (.op (.sign c))).1 = some (.ok (.signed q))) :
    (s.step C cfg (.op (.sign c))).2.mem.lss.hrs = j.hrs := by
  rcases dstep_op (C := C) (cfg := cfg) s (.sign c) with ⟨_, hs⟩ | ⟨_, _, hs⟩ | ⟨_, hnp, hs⟩
  · rw [hs] at ha; cases ha
  · rw [hs] at ha; cases ha
  · rw [hs] at ha ⊢
    have hr' : (s.mem.step C cfg (.sign c)).1 = .ok (.signed q) := by simpa using ha
    have hstep : s.mem.step C cfg (.sign c) = (.ok (.signed q), (s.mem.step C cfg (.sign c)).2) := by
      rw [← hr']
    exact (sign_ge (step_sign hstep) hj).2

/-- One more event: no conflicting signatures before it, and the watermark accounts for all after it. -/
theorem no_conflict_snoc {s : DState} {tr : List (DEv × Option (Out CosResp))} {e : DEv}
    (hinv : DReleasedInv (tr ++ [(e, (s.step C cfg e).1)]) (s.step C cfg e).2)
    {bs bs' : Bytes} {r r' : SignRes} {k k' : HRST}
    (ih : DReleased tr bs r → DReleased tr bs' r' → DifferOnlyByTime k.step bs bs')
    (h : DReleased (tr ++ [(e, (s.step C cfg e).1)]) bs r) (h' : DReleased (tr ++ [(e, (s.step C cfg e).1)]) bs' r')
    (hu : unpackHRST bs = .ok k) (hu' : unpackHRST bs' = .ok k') (hk : k.hrs = k'.hrs) :
    DifferOnlyByTime k.step bs bs' := by
  have hst : k.step = k'.step := by
    have := congrArg HRS.step hk; exact this
  have fin : (s.step C cfg e).2.mem.lss.hrs = k.hrs → DifferOnlyByTime k.step bs bs' := by
    intro hw
    obtain ⟨c1, e1, d1⟩ := (hinv bs r k h hu).2 hw.symm
    obtain ⟨c2, e2, d2⟩ := (hinv bs' r' k' h' hu').2 (by rw [hw, hk])
    rw [e1] at e2; cases e2
    rw [← hst] at d2
    exact d1.symm.trans d2
  rcases dreleased_snoc h with h1 | ⟨h1, h1'⟩
  · rcases dreleased_snoc h' with h2 | ⟨h2, h2'⟩
    · exact ih h1 h2
    · subst h2; exact fin (by rw [released_at hu' h2', hk])
  · subst h1; exact fin (released_at hu h1')

theorem drun_no_conflict {s0 s : DState} {tr : List (DEv × Option (Out CosResp))}
    (hok : ∀ s e, ok s e → CrashesWhenRecorded s e) (hrun : DRun C cfg ok s0 tr s)
    {bs bs' : Bytes} {r r' : SignRes} {k k' : HRST} (h : DReleased tr bs r) (h' : DReleased tr bs' r')
    (hu : unpackHRST bs = .ok k) (hu' : unpackHRST bs' = .ok k') (hk : k.hrs = k'.hrs) :
    DifferOnlyByTime k.step bs bs' := by
  induction hrun with
  | nil => cases h
  | @snoc tr s hr e he ih => exact no_conflict_snoc (dreleased_inv hok (hr.snoc e he)) ih h h' hu hu' hk

/-! ### What the file holds -/

/-- The files in play: the one on disk and those the goroutines are about to write. -/
def DState.Pending (s : DState) (f : PFile) : Prop := f = s.file ∨ Job.marshalled f ∈ s.jobs

/-- `A` is a relation between a file and a state which marshalling establishes and operations at the same watermark
keep. -/
structure Kept (C : Crypto) (cfg : CosignerCfg) (ok : DState → DEv → Prop) (A : PFile → SignState → Prop) : Prop where
  persist : ∀ l, A l.persist l
  load : ∀ f, A f f.load
  op : ∀ s o f, ok s (.op o) → (s.mem.step C cfg o).2.lss.hrs = s.mem.lss.hrs → A f s.mem.lss →
    A f (s.mem.step C cfg o).2.lss

theorem kept_record : Kept C cfg ok HoldsRecord where
  persist l := (holds_persist l).record
  load f := (holds_load f).record
  op s o f _ h hA := by
    obtain ⟨h1, h2⟩ := (step_lss' (C := C) (cfg := cfg) s.mem o).2 h
    unfold SignState.hrs at h
    simp only [HRS.mk.injEq] at h
    exact ⟨hA.height.trans h.1.symm, hA.round.trans h.2.1.symm, hA.step.trans h.2.2.symm, by rw [h2]; exact hA.signature,
      by rw [h1]; exact hA.signBytes⟩

theorem kept_holds (hok : ∀ s e, ok s e → NoResign C cfg s e) : Kept C cfg ok Holds where
  persist := holds_persist
  load := holds_load
  op s o f hs h hA := by
    have he := hok _ _ hs o rfl h
    obtain ⟨h1, h2⟩ := (step_lss' (C := C) (cfg := cfg) s.mem o).2 h
    unfold SignState.hrs at h
    simp only [HRS.mk.injEq] at h
    exact ⟨hA.height.trans h.1.symm, hA.round.trans h.2.1.symm, hA.step.trans h.2.2.symm, by rw [he]; exact hA.ephemeralPublic,
      by rw [h2]; exact hA.signature, by rw [h1]; exact hA.signBytes⟩

/-- No file in play is ahead of memory; one with the same watermark is related to it. -/
def FileInv (A : PFile → SignState → Prop) (s : DState) : Prop :=
  ∀ f, s.Pending f → f.hrs ≼ s.mem.lss.hrs ∧ (f.hrs = s.mem.lss.hrs → A f s.mem.lss)

theorem marshalled_spawn {a b : CState} {jobs : List Job} {f : PFile} :
    Job.marshalled f ∈ spawn a b jobs ↔ Job.marshalled f ∈ jobs := by
  unfold spawn; split <;> simp

theorem pending_marshal {s : DState} {i : Nat} {f : PFile} (h : (s.step C cfg (.marshal i)).2.Pending f) :
    s.Pending f ∨ f = s.mem.lss.persist := by
  simp only [DState.step] at h
  split at h
  · rcases h with h | h
    · exact .inl (.inl h)
    · rcases List.mem_or_eq_of_mem_set h with h | h
      · exact .inl (.inr h)
      · cases h; exact .inr rfl
  · exact .inl h

theorem pending_write {s : DState} {i : Nat} {f : PFile} (h : (s.step C cfg (.write i)).2.Pending f) :
    s.Pending f := by
  simp only [DState.step] at h
  split at h
  · next g hg =>
    rcases h with h | h
    · cases h; exact .inr (List.mem_of_getElem? hg)
    · exact .inr (List.mem_of_mem_eraseIdx h)
  · exact h

theorem fileInv_step {A : PFile → SignState → Prop} (hA : Kept C cfg ok A) {s : DState} {e : DEv} (he : ok s e)
    (h : FileInv A s) : FileInv A (s.step C cfg e).2 := by
  cases e with
  | op o =>
    rcases dstep_op (C := C) (cfg := cfg) s o with ⟨_, hs⟩ | ⟨_, _, hs⟩ | ⟨_, hnp, hs⟩
    · rw [hs]; exact h
    · rw [hs]
      intro f hf
      rcases hf with hf | hf
      · exact h f (.inl hf)
      · cases hf
    · rw [hs]
      intro f hf
      have hf' : s.Pending f := by
        rcases hf with hf | hf
        · exact .inl hf
        · exact .inr (marshalled_spawn.1 hf)
      obtain ⟨h1, h2⟩ := h f hf'
      obtain ⟨hmono, _⟩ := step_lss' (C := C) (cfg := cfg) s.mem o
      refine ⟨HRS.le_trans h1 hmono, fun heq => ?_⟩
      have heq' : f.hrs = (s.mem.step C cfg o).2.lss.hrs := heq
      have e1 : f.hrs = s.mem.lss.hrs := HRS.le_antisymm h1 (heq' ▸ hmono)
      exact hA.op s o f he (heq'.symm.trans e1) (h2 e1)
  | marshal i =>
    intro f hf
    have hmem : (s.step C cfg (.marshal i)).2.mem = s.mem := by
      simp only [DState.step]; split <;> rfl
    rw [hmem]
    rcases pending_marshal hf with hf | rfl
    · exact h f hf
    · exact ⟨.inl (persist_hrs _), fun _ => hA.persist _⟩
  | write i =>
    intro f hf
    have hmem : (s.step C cfg (.write i)).2.mem = s.mem := by
      simp only [DState.step]; split <;> rfl
    rw [hmem]
    exact h f (pending_write hf)
  | restart =>
    intro f hf
    rcases hf with hf | hf
    · cases hf
      exact ⟨.inl rfl, fun _ => hA.load s.file⟩
    · cases hf

theorem fileInv_run {A : PFile → SignState → Prop} (hA : Kept C cfg ok A) {s0 s : DState}
    {tr : List (DEv × Option (Out CosResp))} (h0 : FileInv A s0) (h : DRun C cfg ok s0 tr s) : FileInv A s := by
  induction h with
  | nil => exact h0
  | snoc _ e he ih => exact fileInv_step hA he ih

theorem fileInv_boot {A : PFile → SignState → Prop} (hA : Kept C cfg ok A) (f : PFile) :
    FileInv A (DState.boot f) := by
  rintro g (hg | hg)
  · subst hg; exact ⟨.inl rfl, fun _ => hA.load _⟩
  · cases hg

/-- The newest state is in the file, or about to be. -/
def CurrentInv (s : DState) : Prop :=
  s.alive = true → Job.started ∈ s.jobs ∨ ∃ f, s.Pending f ∧ f.hrs = s.mem.lss.hrs

theorem writesInOrder_le {s : DState} {i : Nat} {f : PFile} (h : WritesInOrder s (.write i))
    (hj : s.jobs[i]? = some (.marshalled f)) : s.file.hrs ≼ f.hrs := by
  have := h i f rfl hj
  exact HRS.not_lt.1 this

theorem mem_set_ne {α : Type} {l : List α} {i j : Nat} {x y : α} (h : l[j]? = some y) (hij : j ≠ i) :
    y ∈ l.set i x := by
  apply List.mem_of_getElem? (i := j)
  rw [List.getElem?_set_ne (Ne.symm hij)]; exact h

theorem currentInv_step (hok : ∀ s e, ok s e → WritesInOrder s e) {s : DState} {e : DEv} (he : ok s e)
    (hf : FileInv HoldsRecord s) (h : CurrentInv s) : CurrentInv (s.step C cfg e).2 := by
  cases e with
  | op o =>
    rcases dstep_op (C := C) (cfg := cfg) s o with ⟨_, hs⟩ | ⟨_, _, hs⟩ | ⟨ha, hnp, hs⟩
    · rw [hs]; exact h
    · rw [hs]; intro ha; cases ha
    · rw [hs]
      intro _
      by_cases heq : (s.mem.step C cfg o).2.lss.hrs = s.mem.lss.hrs
      · have hj : spawn s.mem (s.mem.step C cfg o).2 s.jobs = s.jobs := by simp [spawn, heq]
        simp only [hj]
        rcases h ha with h | ⟨f, hp, hh⟩
        · exact .inl h
        · exact .inr ⟨f, hp, by rw [hh]; exact heq.symm⟩
      · left
        show Job.started ∈ spawn s.mem (s.mem.step C cfg o).2 s.jobs
        simp [spawn, heq]
  | marshal i =>
    simp only [DState.step]
    split
    · next hi =>
      intro _
      right
      exact ⟨_, .inr (List.mem_set (List.getElem?_eq_some_iff.1 hi).1 _), rfl⟩
    · exact h
  | write i =>
    simp only [DState.step]
    split
    · next f hi =>
      intro ha
      have hle := writesInOrder_le (hok _ _ he) hi
      rcases h ha with h | ⟨g, hp, hh⟩
      · left
        obtain ⟨j, hj⟩ := List.getElem?_of_mem h
        refine List.mem_eraseIdx_iff_getElem?.2 ⟨j, ?_, hj⟩
        rintro rfl; rw [hi] at hj; cases hj
      · right
        rcases hp with rfl | hp
        · have hle2 := (hf f (.inr (List.mem_of_getElem? hi))).1
          exact ⟨f, .inl rfl, HRS.le_antisymm hle2 (hh ▸ hle)⟩
        · obtain ⟨j, hj⟩ := List.getElem?_of_mem hp
          by_cases hij : j = i
          · subst hij; rw [hi] at hj; cases hj
            exact ⟨_, .inl rfl, hh⟩
          · exact ⟨g, .inr (List.mem_eraseIdx_iff_getElem?.2 ⟨j, hij, hj⟩), hh⟩
    · exact h
  | restart => intro _; exact .inr ⟨s.file, .inl rfl, rfl⟩

theorem currentInv_run (hok : ∀ s e, ok s e → WritesInOrder s e) {f : PFile} {s : DState}
    {tr : List (DEv × Option (Out CosResp))} (h : DRun C cfg ok (DState.boot f) tr s) : CurrentInv s := by
  induction h with
  | nil => intro _; exact .inr ⟨f, .inl rfl, rfl⟩
  | snoc h e he ih =>
    exact currentInv_step hok he (fileInv_run kept_record (fileInv_boot (kept_record (C := C) (cfg := cfg) (ok := ok)) f) h) ih

theorem idle_related {A : PFile → SignState → Prop} (hA : Kept C cfg ok A)
    (hok : ∀ s e, ok s e → WritesInOrder s e) {f : PFile} {s : DState}
    {tr : List (DEv × Option (Out CosResp))} (h : DRun C cfg ok (DState.boot f) tr s) (ha : s.alive = true)
    (hj : s.jobs = []) : A s.file s.mem.lss := by
  rcases currentInv_run hok h ha with h1 | ⟨g, hg, hh⟩
  · rw [hj] at h1; cases h1
  · rcases hg with rfl | hg
    · exact (fileInv_run hA (fileInv_boot hA f) h _ (.inl rfl)).2 hh
    · rw [hj] at hg; cases hg

/-- More schedules allowed. -/
theorem DRun.mono {ok' : DState → DEv → Prop} (hok : ∀ s e, ok s e → ok' s e) {s0 s : DState}
    {tr : List (DEv × Option (Out CosResp))} (h : DRun C cfg ok s0 tr s) : DRun C cfg ok' s0 tr s := by
  induction h with
  | nil => exact .nil
  | snoc _ e he ih => exact ih.snoc e (hok _ _ he)

/-- A condition that holds of every event in reachable states can be added. -/
theorem DRun.strengthen {ok' : DState → DEv → Prop} {s0 s : DState} {tr : List (DEv × Option (Out CosResp))}
    (hok : ∀ tr s e, DRun C cfg ok' s0 tr s → ok s e → ok' s e)
    (h : DRun C cfg ok s0 tr s) : DRun C cfg ok' s0 tr s := by
  induction h with
  | nil => exact .nil
  | snoc _ e he ih => exact ih.snoc e (hok _ _ _ ih he)

/-! ### One goroutine at a time -/

/-- Only the first goroutine has marshalled. -/
def FirstOnly (s : DState) : Prop := ∀ i f, s.jobs[i]? = some (.marshalled f) → i = 0 ∧ s.file.hrs ≼ f.hrs

theorem firstOnly_step (hok : ∀ s e, ok s e → OneAtATime s e) {s : DState} {e : DEv} (he : ok s e)
    (hf : FileInv HoldsRecord s) (h : FirstOnly s) : FirstOnly (s.step C cfg e).2 := by
  cases e with
  | op o =>
    rcases dstep_op (C := C) (cfg := cfg) s o with ⟨_, hs⟩ | ⟨_, _, hs⟩ | ⟨ha, hnp, hs⟩
    · rw [hs]; exact h
    · rw [hs]; intro i f hi; simp at hi
    · rw [hs]
      intro i f hi
      have hi' : (spawn s.mem (s.mem.step C cfg o).2 s.jobs)[i]? = some (.marshalled f) := hi
      unfold spawn at hi'
      split at hi'
      · exact h i f hi'
      · rw [List.getElem?_append] at hi'
        split at hi'
        · exact h i f hi'
        · rw [List.getElem?_singleton] at hi'
          split at hi' <;> cases hi'
  | marshal i =>
    have hi0 : i = 0 := hok _ _ he i (.inl rfl)
    subst hi0
    simp only [DState.step]
    split
    · intro i f hi
      cases i with
      | zero =>
        refine ⟨rfl, ?_⟩
        have hlen : 0 < s.jobs.length := by
          rcases hl : s.jobs with _ | ⟨a, l⟩
          · simp [hl] at hi
          · simp
        have : f = s.mem.lss.persist := by
          have h0 : (s.jobs.set 0 (Job.marshalled s.mem.lss.persist))[0]? = some (.marshalled f) := hi
          rw [List.getElem?_set_self hlen] at h0
          cases h0; rfl
        subst this
        exact (hf _ (.inl rfl)).1
      | succ n =>
        have h1 : (s.jobs.set 0 (Job.marshalled s.mem.lss.persist))[n + 1]? = some (.marshalled f) := hi
        rw [List.getElem?_set_ne (by omega)] at h1
        exact absurd (h _ _ h1).1 (by omega)
    · exact h
  | write i =>
    have hi0 : i = 0 := hok _ _ he i (.inr rfl)
    subst hi0
    simp only [DState.step]
    split
    · next g hg =>
      intro i f hi
      have h1 : (s.jobs.eraseIdx 0)[i]? = some (.marshalled f) := hi
      rw [List.getElem?_eraseIdx] at h1
      simp only [Nat.not_lt_zero, if_false] at h1
      exact absurd (h _ _ h1).1 (by omega)
    · exact h
  | restart => intro i f hi; simp [DState.step, DState.boot] at hi

theorem oneAtATime_ordered (hok : ∀ s e, ok s e → OneAtATime s e) {f : PFile} {s : DState}
    {tr : List (DEv × Option (Out CosResp))} (h : DRun C cfg ok (DState.boot f) tr s) :
    DRun C cfg (fun s e => ok s e ∧ WritesInOrder s e) (DState.boot f) tr s := by
  have hfo : ∀ {tr s}, DRun C cfg ok (DState.boot f) tr s → FirstOnly s := by
    intro tr s h
    induction h with
    | nil => intro i f hi; simp [DState.boot] at hi
    | snoc h e he ih =>
      exact firstOnly_step hok he (fileInv_run kept_record (fileInv_boot (kept_record (C := C) (cfg := cfg) (ok := ok)) f) h) ih
  refine h.strengthen (fun tr s e hr he => ⟨he, ?_⟩)
  intro i g hei hj
  have := (hfo (hr.mono (fun _ _ h => h.1)) i g hj).2
  exact HRS.not_lt.2 this

end Horcrux
