import Verif.Model.FilePV
import Verif.Props.Disk
/-
Property C59: single-signer mode.
-/
namespace Horcrux
open Spec

/-- What was answered, relative to the last sign state. -/
def FInv (tr : List (FEv × Option (Out (Bytes × Slice)))) (s : FilePV) : Prop :=
  ∀ b bs sig, (FEv.sign b, some (Out.ok (bs, sig))) ∈ tr →
    b.hrs ≼ s.lss.hrs ∧ (b.hrs = s.lss.hrs → s.lss.signBytes = some bs ∧ s.lss.signature = sig)

theorem checkHRS_above {l : SignState} {k : HRST} (h : l.hrs ≺ k.hrs) : l.checkHRS k = .ok false := by
  rcases l with ⟨sh, sr, ss, eph, sg, sb, c⟩
  rcases k with ⟨kh, kr, ks, kt⟩
  unfold SignState.hrs HRST.hrs HRS.lt at h
  unfold SignState.checkHRS
  simp only at h ⊢
  rw [if_neg (by omega)]
  split
  · rw [if_neg (by omega)]
    split
    · rw [if_neg (by omega), if_neg (by omega)]
    · rfl
  · rfl

/-- The cases of an answered request. -/
theorem filePV_sign_ok {sigOf : Bytes → Bytes} {s : FilePV} {b : Block} {bs : Bytes} {sig : Slice}
    (h : (s.sign sigOf b).1 = .ok (bs, sig)) :
    (b.hrs = s.lss.hrs ∧ s.lss.signBytes = some bs ∧ s.lss.signature = sig ∧ (s.sign sigOf b).2 = s) ∨
    (s.lss.hrs ≺ b.hrs ∧ bs = b.signBytes ∧ sig = some (sigOf b.signBytes) ∧ (s.sign sigOf b).2.lss.hrs = b.hrs ∧
      (s.sign sigOf b).2.lss.signBytes = some bs ∧ (s.sign sigOf b).2.lss.signature = sig ∧
      (s.sign sigOf b).2.file = ⟨b.height, b.round, b.step, s.lss.ephemeralPublic.norm, sig.norm, Slice.norm (some bs)⟩) := by
  unfold FilePV.sign at h ⊢
  cases hc : s.lss.checkHRS ⟨b.height, b.round, b.step, 0⟩ with
  | panic => rw [hc] at h; cases h
  | err e => rw [hc] at h; cases h
  | ok t =>
    rw [hc] at h
    cases t with
    | true =>
      obtain ⟨h1, h2⟩ := checkHRS_true hc
      obtain ⟨b0, hb0⟩ : ∃ b0, s.lss.signBytes = some b0 := by
        cases hb : s.lss.signBytes with
        | none => exact absurd hb h2.1
        | some x => exact ⟨x, rfl⟩
      have hbytes : s.lss.signBytes.bytes = b0 := by rw [hb0]; rfl
      left
      simp only at h ⊢
      by_cases he : b.signBytes = s.lss.signBytes.bytes
      · simp only [he, if_true] at h ⊢
        simp only [Out.ok.injEq, Prod.mk.injEq] at h
        exact ⟨h1.symm, by rw [← h.1, hbytes, hb0], h.2, trivial⟩
      · simp only [he, if_false] at h ⊢
        generalize onlyDifferByTimestamp s.lss.step s.lss.signBytes.bytes b.signBytes = o at h ⊢
        cases o with
        | none =>
          simp only [Out.ok.injEq, Prod.mk.injEq] at h
          exact ⟨h1.symm, by rw [← h.1, hbytes, hb0], h.2, rfl⟩
        | some e => cases h
    | false =>
      right
      simp only [Out.ok.injEq, Prod.mk.injEq] at h
      obtain ⟨rfl, rfl⟩ := h
      exact ⟨checkHRS_false hc, rfl, rfl, rfl, rfl, rfl, rfl⟩

theorem filePV_sign_other {sigOf : Bytes → Bytes} {s : FilePV} {b : Block} (h : ∀ x, (s.sign sigOf b).1 ≠ .ok x) :
    (s.sign sigOf b).2 = s := by
  unfold FilePV.sign at h ⊢
  generalize s.lss.checkHRS ⟨b.height, b.round, b.step, 0⟩ = c at h ⊢
  cases c with
  | panic => rfl
  | err e => rfl
  | ok t =>
    cases t with
    | true =>
      simp only at h ⊢
      split
      · rfl
      · generalize onlyDifferByTimestamp s.lss.step s.lss.signBytes.bytes b.signBytes = o
        cases o <;> rfl
    | false => exact absurd rfl (h _)

theorem finv_run {sigOf : Bytes → Bytes} {s0 s : FilePV} {tr : List (FEv × Option (Out (Bytes × Slice)))}
    (h : FRun sigOf s0 tr s) (hno : ∀ x ∈ tr, x.1 ≠ .restart) : FInv tr s := by
  induction h with
  | nil => intro b bs sig hm; cases hm
  | @snoc tr s h e ih =>
    have ih := ih (fun x hx => hno x (List.mem_append_left _ hx))
    cases e with
    | restart => exact absurd rfl (hno _ (List.mem_append_right _ (List.mem_singleton.2 rfl)))
    | sign b =>
      intro b' bs sig hm
      simp only [FilePV.step] at hm ⊢
      cases ho : (s.sign sigOf b).1 with
      | ok x =>
        obtain ⟨bs1, sig1⟩ := x
        rw [ho] at hm
        have hcases := filePV_sign_ok ho
        rcases List.mem_append.1 hm with hm | hm
        · obtain ⟨h1, h2⟩ := ih b' bs sig hm
          rcases hcases with ⟨_, _, _, he⟩ | ⟨hlt, _, _, hh, _⟩
          · rw [he]; exact ⟨h1, h2⟩
          · rw [hh]
            refine ⟨HRS.le_trans h1 (.inr hlt), fun heq => ?_⟩
            rw [heq] at h1
            exact absurd (HRS.lt_of_lt_of_le hlt h1) (HRS.lt_irrefl _)
        · simp only [List.mem_singleton, Prod.mk.injEq, FEv.sign.injEq, Option.some.injEq, Out.ok.injEq] at hm
          obtain ⟨rfl, rfl, rfl⟩ := hm
          rcases hcases with ⟨h1, h2, h3, he⟩ | ⟨_, _, _, hh, h5, h6, _⟩
          · rw [he]; exact ⟨.inl h1, fun _ => ⟨h2, h3⟩⟩
          · exact ⟨.inl hh.symm, fun _ => ⟨h5, h6⟩⟩
      | err er =>
        rw [ho] at hm
        rw [filePV_sign_other (by intro x hx; rw [ho] at hx; cases hx)]
        rcases List.mem_append.1 hm with hm | hm
        · exact ih b' bs sig hm
        · simp at hm
      | panic =>
        rw [ho] at hm
        rw [filePV_sign_other (by intro x hx; rw [ho] at hx; cases hx)]
        rcases List.mem_append.1 hm with hm | hm
        · exact ih b' bs sig hm
        · simp at hm

/-- C59, partial: from whatever state, a single signer that is not restarted gives out, for one height, round and step, always the same
signature over the same sign bytes. Missing: restarts; across them it is false (`C59_fails`). -/
theorem C59_partial (sigOf : Bytes → Bytes) (s0 s : FilePV) (tr : List (FEv × Option (Out (Bytes × Slice))))
    (hrun : FRun sigOf s0 tr s) (hno : ∀ x ∈ tr, x.1 ≠ .restart)
    (b b' : Block) (bs bs' : Bytes) (sig sig' : Slice)
    (h : (FEv.sign b, some (Out.ok (bs, sig))) ∈ tr) (h' : (FEv.sign b', some (Out.ok (bs', sig'))) ∈ tr)
    (hsame : b.height = b'.height ∧ b.round = b'.round ∧ b.step = b'.step) : bs = bs' ∧ sig = sig' := by
  have hk : b.hrs = b'.hrs := by unfold Block.hrs; rw [hsame.1, hsame.2.1, hsame.2.2]
  induction hrun with
  | nil => cases h
  | @snoc tr s hr e ih =>
    have hinv := finv_run (hr.snoc e) hno
    have hno' : ∀ x ∈ tr, x.1 ≠ .restart := fun x hx => hno x (List.mem_append_left _ hx)
    have key : ∀ {c : Block} {cs : Bytes} {cg : Slice}, e = .sign c → (s.step sigOf e).1 = some (.ok (cs, cg)) →
        (s.step sigOf e).2.lss.hrs = c.hrs := by
      intro c cs cg he ha
      subst he
      simp only [FilePV.step, Option.some.injEq] at ha ⊢
      rcases filePV_sign_ok ha with ⟨h1, _, _, h4⟩ | ⟨_, _, _, h4, _⟩
      · rw [h4, h1]
      · exact h4
    have fin : (s.step sigOf e).2.lss.hrs = b.hrs → bs = bs' ∧ sig = sig' := by
      intro hw
      obtain ⟨a1, a2⟩ := (hinv b bs sig h).2 hw.symm
      obtain ⟨c1, c2⟩ := (hinv b' bs' sig' h').2 (by rw [hw, hk])
      rw [a1] at c1; cases c1
      exact ⟨rfl, a2.symm.trans c2⟩
    have new : ∀ {c : Block} {cs : Bytes} {cg : Slice},
        (FEv.sign c, some (Out.ok (cs, cg))) ∈ tr ++ [(e, (s.step sigOf e).1)] →
        (FEv.sign c, some (Out.ok (cs, cg))) ∈ tr ∨ (e = .sign c ∧ (s.step sigOf e).1 = some (.ok (cs, cg))) := by
      intro c cs cg hm
      rcases List.mem_append.1 hm with hm | hm
      · exact .inl hm
      · simp only [List.mem_singleton, Prod.mk.injEq] at hm
        exact .inr ⟨hm.1.symm, hm.2.symm⟩
    rcases new h with h1 | ⟨h1, h1'⟩
    · rcases new h' with h2 | ⟨h2, h2'⟩
      · exact ih hno' h1 h2
      · exact fin (by rw [key h2 h2', hk])
    · exact fin (key h1 h1')

theorem FRun.split {sigOf : Bytes → Bytes} {s0 s : FilePV} {tr a b : List (FEv × Option (Out (Bytes × Slice)))}
    (h : FRun sigOf s0 tr s) (ht : tr = a ++ b) : ∃ s1, FRun sigOf s0 a s1 ∧ FRun sigOf s1 b s := by
  induction h generalizing b with
  | nil =>
    obtain ⟨rfl, rfl⟩ := List.append_eq_nil_iff.1 ht.symm
    exact ⟨_, .nil, .nil⟩
  | @snoc tr s h e ih =>
    rcases List.eq_nil_or_concat b with rfl | ⟨b', x, rfl⟩
    · rw [List.append_nil] at ht
      subst ht
      exact ⟨_, h.snoc e, .nil⟩
    · rw [List.concat_eq_append, ← List.append_assoc] at ht
      obtain ⟨h1, h2⟩ := List.append_inj' ht rfl
      simp only [List.cons.injEq, and_true] at h2
      obtain ⟨s1, g1, g2⟩ := ih h1
      refine ⟨s1, g1, ?_⟩
      rw [List.concat_eq_append, ← h2]
      exact g2.snoc e

/-- C59, what it takes: in every history, if the single signer gives out different signatures, or over different sign bytes,
for one height, round and step, it was restarted between the two. -/
theorem C59_needed (sigOf : Bytes → Bytes) (s0 s : FilePV) (l m r : List (FEv × Option (Out (Bytes × Slice))))
    (b b' : Block) (bs bs' : Bytes) (sig sig' : Slice)
    (hrun : FRun sigOf s0 (l ++ (FEv.sign b, some (Out.ok (bs, sig))) :: (m ++ (FEv.sign b', some (Out.ok (bs', sig'))) :: r)) s)
    (hsame : b.height = b'.height ∧ b.round = b'.round ∧ b.step = b'.step) (hdiff : bs ≠ bs' ∨ sig ≠ sig') :
    ∃ x ∈ m, x.1 = .restart := by
  obtain ⟨s1, _, h1⟩ := hrun.split rfl
  obtain ⟨s2, h2, _⟩ := h1.split (a := (FEv.sign b, some (Out.ok (bs, sig))) :: (m ++ [(FEv.sign b', some (Out.ok (bs', sig')))]))
    (b := r) (by simp)
  by_contra hc
  have := C59_partial sigOf s1 s2 _ h2 (by
    intro x hx
    simp only [List.mem_cons, List.mem_append, List.not_mem_nil, or_false] at hx
    rcases hx with rfl | hx | rfl
    · simp
    · exact fun he => hc ⟨x, hx, he⟩
    · simp) b b' bs bs' sig sig' (by simp) (by simp) hsame
  rcases hdiff with h | h
  · exact h this.1
  · exact h this.2

/-- C59 (full statement) is false: after a restart the state file is not looked at, and whatever was signed before, any
block above height, round and step 0 is signed, conflicting or not. -/
theorem C59_fails (sigOf : Bytes → Bytes) (s : FilePV) (b : Block) (h : (⟨0, 0, 0⟩ : HRS) ≺ b.hrs) :
    ((s.step sigOf .restart).2.sign sigOf b).1 = .ok (b.signBytes, some (sigOf b.signBytes)) := by
  have hc : SignState.empty.checkHRS ⟨b.height, b.round, b.step, 0⟩ = .ok false := checkHRS_above h
  simp only [FilePV.step, FilePV.boot, FilePV.sign, hc]

/-- Two conflicting precommits. -/
def blkA : Block := ⟨7, 1, 3, b1, ⟨1600000000, 5⟩⟩
def blkB : Block := ⟨7, 1, 3, b1x, ⟨1600000000, 5⟩⟩

/-- C59 (full statement) is false, as a history: sign, restart, sign a conflicting vote. -/
theorem C59_history_fails : ∃ (sigOf : Bytes → Bytes) (s : FilePV) (tr : List (FEv × Option (Out (Bytes × Slice)))),
    FRun sigOf (.boot emptyFile) tr s ∧
    (FEv.sign blkA, some (Out.ok (b1, some (sigOf b1)))) ∈ tr ∧ (FEv.sign blkB, some (Out.ok (b1x, some (sigOf b1x)))) ∈ tr ∧
    ¬ DifferOnlyByTime 3 b1 b1x := by
  refine ⟨id, _, _, ((FRun.nil.snoc (.sign blkA)).snoc .restart).snoc (.sign blkB), ?_, ?_, fun hd => ?_⟩
  · simp only [List.nil_append, List.cons_append, List.mem_cons, Prod.mk.injEq, FEv.sign.injEq]
    left
    refine ⟨trivial, ?_⟩
    simp only [FilePV.step, FilePV.boot, FilePV.sign]
    rw [checkHRS_above (by decide)]
    rfl
  · simp only [List.mem_append, List.mem_singleton, Prod.mk.injEq, FEv.sign.injEq]
    right
    refine ⟨trivial, ?_⟩
    simp only [FilePV.step, FilePV.boot, FilePV.sign]
    rw [checkHRS_above (k := ⟨blkB.height, blkB.round, blkB.step, 0⟩) (by decide)]
    rfl
  · have hn : onlyDifferByTimestamp 3 b1 b1x ≠ none := by decide +kernel
    exact hn ((onlyDiffer_iff 3 b1 b1x).2 hd)

/-- Within one life the second of these votes is refused, and a later time is answered with the first signature. -/
def blkLater : Block := ⟨7, 1, 3, b2, ⟨1600000001, 0⟩⟩

example : (((FilePV.boot emptyFile).sign id blkA).2.sign id blkB).1 ≠ .ok (b1x, some b1x) ∧
    (((FilePV.boot emptyFile).sign id blkA).2.sign id blkLater).1 = .ok (b1, some b1) := by decide +kernel

end Horcrux
