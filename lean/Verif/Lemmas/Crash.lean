import Verif.Lemmas.Disk
/-
What a cosigner remembers after a crash, if the file was not below anything it had released.
-/
namespace Horcrux
open Spec

variable {C : Crypto} {cfg : CosignerCfg}

/-- A history determines the state it leads to. -/
theorem drun_det {ok ok2 : DState → DEv → Prop} {s0 s s2 : DState} {tr : List (DEv × Option (Out CosResp))}
    (h : DRun C cfg ok s0 tr s) (h2 : DRun C cfg ok2 s0 tr s2) : s = s2 := by
  induction h generalizing s2 with
  | nil =>
    generalize htr : ([] : List (DEv × Option (Out CosResp))) = tr at h2
    cases h2 with
    | nil => rfl
    | snoc _ _ _ => simp at htr
  | @snoc tr s h e he ih =>
    generalize htr : tr ++ [(e, (s.step C cfg e).1)] = tr2 at h2
    cases h2 with
    | nil => simp at htr
    | snoc h2 e2 _ =>
      obtain ⟨h3, h4⟩ := List.append_inj' htr rfl
      simp only [List.cons.injEq, Prod.mk.injEq, and_true] at h4
      subst h3
      rw [ih h2, h4.1]

theorem drun_anything {ok : DState → DEv → Prop} {s0 s : DState} {tr : List (DEv × Option (Out CosResp))}
    (h : DRun C cfg ok s0 tr s) : DRun C cfg (fun _ _ => True) s0 tr s := by
  induction h with
  | nil => exact .nil
  | snoc _ e _ ih => exact ih.snoc e trivial

/-- Every file in play agrees with what was released at its watermark. -/
def AgreeInv (tr : List (DEv × Option (Out CosResp))) (s : DState) : Prop :=
  ∀ g, s.Pending g → ∀ bs r k, DReleased tr bs r → unpackHRST bs = .ok k → k.hrs = g.hrs →
    DifferOnlyByTime k.step g.signBytes.bytes bs

theorem agree_persist {tr : List (DEv × Option (Out CosResp))} {s : DState} {g : PFile} (hg : HoldsRecord g s.mem.lss)
    (h : DReleasedInv tr s) : ∀ bs r k, DReleased tr bs r → unpackHRST bs = .ok k → k.hrs = g.hrs →
    DifferOnlyByTime k.step g.signBytes.bytes bs := by
  intro bs r k hr hu hk
  obtain ⟨b0, e0, hd⟩ := (h bs r k hr hu).2 (hk.trans hg.hrs)
  rw [hg.signBytes, e0]
  exact hd

theorem agreeInv_step {s0 s : DState} {tr : List (DEv × Option (Out CosResp))} {e : DEv}
    (hr : DRun C cfg (fun _ _ => True) s0 tr s) (h0 : FileInv HoldsRecord s0)
    (hA : AgreeInv tr s) (hI : DReleasedInv tr s)
    (hI' : DReleasedInv (tr ++ [(e, (s.step C cfg e).1)]) (s.step C cfg e).2) :
    AgreeInv (tr ++ [(e, (s.step C cfg e).1)]) (s.step C cfg e).2 := by
  have hF := fileInv_run (kept_record (C := C) (cfg := cfg) (ok := fun _ _ => True)) h0 hr
  intro g hg bs r k hrel hu hk
  rcases dreleased_snoc hrel with hold | ⟨he, hnew⟩
  · cases e with
    | op o =>
      refine hA g ?_ bs r k hold hu hk
      rcases dstep_op (C := C) (cfg := cfg) s o with ⟨_, hs⟩ | ⟨_, _, hs⟩ | ⟨_, hnp, hs⟩
      · rw [hs] at hg; exact hg
      · rw [hs] at hg
        rcases hg with hg | hg
        · exact .inl hg
        · cases hg
      · rw [hs] at hg
        rcases hg with hg | hg
        · exact .inl hg
        · exact .inr (marshalled_spawn.1 hg)
    | marshal i =>
      rcases pending_marshal hg with hg | rfl
      · exact hA g hg bs r k hold hu hk
      · exact agree_persist (holds_persist _).record hI bs r k hold hu hk
    | write i => exact hA g (pending_write hg) bs r k hold hu hk
    | restart =>
      rcases hg with hg | hg
      · exact hA g (.inl hg) bs r k hold hu hk
      · cases hg
  · subst he
    -- the record of the new signature is the one in memory; a file at its watermark holds that record
    have hF' := fileInv_step (e := .op (.sign bs)) (kept_record (C := C) (cfg := cfg) (ok := fun _ _ => True)) trivial hF
    obtain ⟨_, hrec⟩ := hF' g hg
    exact agree_persist (hrec (hk.symm.trans (released_at hu hnew).symm)) hI' bs r k hrel hu hk

theorem covered_inv {f : PFile} {s : DState} {tr : List (DEv × Option (Out CosResp))}
    (hrun : DRun C cfg (fun _ _ => True) (DState.boot f) tr s) (hc : CrashesCovered C cfg (DState.boot f) tr) :
    DReleasedInv tr s ∧ AgreeInv tr s := by
  induction hrun with
  | nil => exact ⟨(by intro bs r k h; cases h), (by intro g _ bs r k h; cases h)⟩
  | @snoc tr s hr e _ ih =>
    have hc' : CrashesCovered C cfg (DState.boot f) tr := by
      intro tr1 a tr2 s1 htr
      exact hc tr1 a (tr2 ++ [(e, (s.step C cfg e).1)]) s1 (by rw [htr]; simp)
    obtain ⟨hI, hA⟩ := ih hc'
    have hI' : DReleasedInv (tr ++ [(e, (s.step C cfg e).1)]) (s.step C cfg e).2 := by
      by_cases hre : e = .restart
      · subst hre
        intro bs r k hm hu
        rcases dreleased_snoc hm with hm | ⟨hm, _⟩
        · have hnot := hc tr _ [] s rfl hr bs r k hm hu
          have hle : k.hrs ≼ s.file.hrs := HRS.not_lt.1 hnot
          refine ⟨hle, fun heq => ?_⟩
          have hd := hA s.file (.inl rfl) bs r k hm hu heq
          have hne := hd.left_ne
          cases hb : s.file.signBytes with
          | none => rw [hb] at hne; exact absurd rfl hne
          | some b => rw [hb] at hd; exact ⟨b, hb, hd⟩
        · cases hm
      · exact dreleasedInv_step hre hI
    exact ⟨hI', agreeInv_step hr (fileInv_boot (kept_record (C := C) (cfg := cfg) (ok := fun _ _ => True)) f) hA hI hI'⟩

theorem covered_no_conflict {f : PFile} {s : DState} {tr : List (DEv × Option (Out CosResp))}
    (hrun : DRun C cfg (fun _ _ => True) (DState.boot f) tr s) (hc : CrashesCovered C cfg (DState.boot f) tr)
    {bs bs' : Bytes} {r r' : SignRes} {k k' : HRST} (h : DReleased tr bs r) (h' : DReleased tr bs' r')
    (hu : unpackHRST bs = .ok k) (hu' : unpackHRST bs' = .ok k') (hk : k.hrs = k'.hrs) :
    DifferOnlyByTime k.step bs bs' := by
  induction hrun with
  | nil => cases h
  | @snoc tr s hr e he ih =>
    have hc' : CrashesCovered C cfg (DState.boot f) tr := by
      intro tr1 a tr2 s1 htr
      exact hc tr1 a (tr2 ++ [(e, (s.step C cfg e).1)]) s1 (by rw [htr]; simp)
    exact no_conflict_snoc (covered_inv (hr.snoc e trivial) hc).1 (ih hc') h h' hu hu' hk

/-- One more event. -/
theorem covered_snoc {s0 s : DState} {tr : List (DEv × Option (Out CosResp))} {e : DEv}
    (hr : DRun C cfg (fun _ _ => True) s0 tr s) (ih : CrashesCovered C cfg s0 tr)
    (he : e = .restart → ∀ bs r k, DReleased tr bs r → unpackHRST bs = .ok k → ¬ s.file.hrs ≺ k.hrs) :
    CrashesCovered C cfg s0 (tr ++ [(e, (s.step C cfg e).1)]) := by
  intro tr1 a tr2 s1 htr hr1 bs r k hm hu
  have last : tr1 = tr → e = .restart → ¬ (s1.file.height < k.height ∨ s1.file.height = k.height ∧
      (s1.file.round < k.round ∨ s1.file.round = k.round ∧ s1.file.step < k.step)) := by
    intro h1 h2
    subst h1
    have hs : s1 = s := drun_det hr1 hr
    subst hs
    exact he h2 bs r k hm hu
  rcases List.append_eq_append_iff.1 htr with ⟨l, h1, h2⟩ | ⟨l, h1, h2⟩
  · cases l with
    | nil =>
      simp only [List.append_nil, List.nil_append, List.cons.injEq, Prod.mk.injEq] at h1 h2
      exact last h1 h2.1.1
    | cons x l => simp at h2
  · cases l with
    | nil =>
      simp only [List.append_nil, List.nil_append, List.cons.injEq, Prod.mk.injEq] at h1 h2
      exact last h1.symm h2.1.1.symm
    | cons x l =>
      simp only [List.cons_append, List.cons.injEq] at h2
      exact ih tr1 a l s1 (by rw [h1, h2.1]) hr1 bs r k hm hu

/-- The condition is implied by the one on the whole record. -/
theorem recorded_covered {f : PFile} {s : DState} {tr : List (DEv × Option (Out CosResp))}
    (hrun : DRun C cfg CrashesWhenRecorded (DState.boot f) tr s) : CrashesCovered C cfg (DState.boot f) tr := by
  induction hrun with
  | nil => intro tr1 a tr2 s1 h; simp at h
  | @snoc tr s hr e he ih =>
    refine covered_snoc (drun_anything hr) ih fun hre bs r k hm hu => ?_
    have := (dreleased_inv (fun _ _ h => h) hr bs r k hm hu).1
    rw [← (he hre).hrs] at this
    exact HRS.not_lt.2 this

end Horcrux
