import Verif.Model.Torn
import Verif.Props.Disk
/-
Property C38: goroutines that marshal the state at the same time.
-/
namespace Horcrux
open Spec

/-- No goroutine replaces a file by one with a lower watermark. -/
def Spec.NeverLowers (s : TState) (m : TMove) : Prop :=
  ∀ i j, m = .write i → s.jobs[i]? = some j → s.file.hrs ≼ j.buf.hrs

/-- A process in which nothing is going on. -/
def Spec.AllFinished (s : TState) : Prop := s.todo = [] ∧ s.jobs = []

/-- Steps one after the other. -/
def TState.run (s : TState) : List TMove → Option TState
  | [] => some s
  | m :: ms => (s.step m).bind (·.run ms)

theorem trun_run {s0 s t : TState} {ms ms' : List TMove} (h : TRun (fun _ _ => True) s0 ms s) (hr : s.run ms' = some t) :
    TRun (fun _ _ => True) s0 (ms ++ ms') t := by
  induction ms' generalizing ms s with
  | nil => simp only [TState.run, Option.some.injEq] at hr; subst hr; simpa using h
  | cons m ms' ih =>
    simp only [TState.run, Option.bind_eq_some_iff] at hr
    obtain ⟨s1, h1, h2⟩ := hr
    have := ih (.snoc h trivial h1) h2
    simpa [List.append_assoc] using this

/-- Two saves; the goroutine of the first reads the height before the second save and everything else after it, and writes
last. -/
def overtaken (r r' : SSC) : List TMove :=
  [.save r] ++ (List.replicate 5 .assign ++ [.read 0]) ++ [.save r'] ++
    (List.replicate 5 .assign ++ List.replicate 6 (.read 1) ++ [.write 1] ++ List.replicate 5 (.read 0) ++ [.write 0])

/-- C38 (full statement) is false for good, of every state and every two saves: when all goroutines have finished, the file
can hold the height of the first with everything else of the second. -/
theorem C38_mixed_fails (mem file : PFile) (r r' : SSC) (h : mem.hrs ≺ r.hrs) (h' : r.hrs ≺ r'.hrs) :
    ∃ s, TRun (fun _ _ => True) ⟨mem, [], [], file⟩ (overtaken r r') s ∧ AllFinished s ∧
      s.mem = ⟨r'.height, r'.round, r'.step, mem.ephemeralPublic, r'.signature, r'.signBytes⟩ ∧
      s.file = ⟨r.height, r'.round, r'.step, mem.ephemeralPublic, r'.signature, r'.signBytes⟩ := by
  have g : mem.height < r.height ∨ mem.height = r.height ∧ (mem.round < r.round ∨ mem.round = r.round ∧ mem.step < r.step) := h
  have g' : r.height < r'.height ∨ r.height = r'.height ∧ (r.round < r'.round ∨ r.round = r'.round ∧ r.step < r'.step) := h'
  refine ⟨⟨⟨r'.height, r'.round, r'.step, mem.ephemeralPublic, r'.signature, r'.signBytes⟩, [], [],
    ⟨r.height, r'.round, r'.step, mem.ephemeralPublic, r'.signature, r'.signBytes⟩⟩, ?_, ⟨rfl, rfl⟩, rfl, rfl⟩
  have s1 : TState.step ⟨mem, [], [], file⟩ (.save r) = some ⟨mem, saveAssigns r, [], file⟩ := by
    simp only [TState.step]
    rw [if_pos ⟨trivial, g⟩]
  have s2 : TState.step ⟨⟨r.height, r.round, r.step, mem.ephemeralPublic, r.signature, r.signBytes⟩, [],
      [⟨1, ⟨r.height, 0, 0, none, none, none⟩⟩], file⟩ (.save r') =
      some ⟨⟨r.height, r.round, r.step, mem.ephemeralPublic, r.signature, r.signBytes⟩, saveAssigns r',
        [⟨1, ⟨r.height, 0, 0, none, none, none⟩⟩], file⟩ := by
    simp only [TState.step]
    rw [if_pos ⟨trivial, g'⟩]
  have r1 : TRun (fun _ _ => True) ⟨mem, [], [], file⟩ [.save r] _ := .snoc (ms := []) .nil trivial s1
  have r2 := trun_run (ms' := List.replicate 5 .assign ++ [.read 0]) r1 rfl
  have r3 := r2.snoc trivial s2
  exact trun_run r3 rfl

/-- C38 fails: with a new height and a lower round or step, as always when the precommit of a height is followed by the first
proposal or prevote of the next, the file is then below both blocks, with nothing outstanding: a cosigner that is killed now
signs for the first again (`C36_mixed_fails`). -/
theorem C38_below_fails (mem file : PFile) (r r' : SSC) (h : mem.hrs ≺ r.hrs) (hh : r.height < r'.height)
    (hr : r'.round < r.round ∨ r'.round = r.round ∧ r'.step < r.step) :
    ∃ s, TRun (fun _ _ => True) ⟨mem, [], [], file⟩ (overtaken r r') s ∧ AllFinished s ∧ s.mem.hrs = r'.hrs ∧ s.file.hrs ≺ r.hrs := by
  obtain ⟨s, h1, h2, h3, h4⟩ := C38_mixed_fails mem file r r' h (.inl hh)
  refine ⟨s, h1, h2, ?_, ?_⟩
  · rw [h3]; rfl
  · rw [h4]; exact .inr ⟨rfl, hr⟩

/-- What is left of the height in a running `Save`. -/
def heightTodo (mem : PFile) (todo : List Assign) : Prop :=
  ∀ v, Assign.height v ∈ todo → mem.height ≤ v

/-- Only the height is assigned first. -/
def TInv (s : TState) : Prop :=
  heightTodo s.mem s.todo ∧ (∀ a b, s.todo = a :: b → ∀ v, Assign.height v ∉ b) ∧
  s.file.height ≤ s.mem.height ∧ ∀ j ∈ s.jobs, j.read ≤ 6 ∧ (0 < j.read → j.buf.height ≤ s.mem.height)

theorem apply_height_le {mem : PFile} {a : Assign} (h : ∀ v, a = .height v → mem.height ≤ v) :
    mem.height ≤ (a.apply mem).height := by
  cases a with
  | height v => exact h v rfl
  | _ => exact Int.le_refl _

theorem tinv_step {s t : TState} {m : TMove} (h : TInv s) (hs : s.step m = some t) : TInv t := by
  obtain ⟨h1, h2, h3, h4⟩ := h
  cases m with
  | save r =>
    simp only [TState.step] at hs
    split at hs
    · next hc =>
      simp only [Option.some.injEq] at hs; subst hs
      refine ⟨fun v hv => ?_, fun a b hab v hv => ?_, h3, h4⟩
      · simp only [saveAssigns, List.mem_cons, Assign.height.injEq, reduceCtorEq, List.not_mem_nil, or_false] at hv
        subst hv
        simp only
        omega
      · simp only [saveAssigns, List.cons.injEq] at hab
        rw [← hab.2] at hv
        simp at hv
    · cases hs
  | assign =>
    simp only [TState.step] at hs
    split at hs
    · cases hs
    · next a ha =>
      simp only [Option.some.injEq] at hs; subst hs
      have hle := apply_height_le (mem := s.mem) (a := a) (fun v hv => h1 v (by rw [ha, hv]; simp))
      refine ⟨fun v hv => by simp at hv, fun a b hab => by simp at hab, Int.le_trans h3 hle, fun j hj => ?_⟩
      rcases List.mem_append.1 hj with hj | hj
      · exact ⟨(h4 j hj).1, fun hr => Int.le_trans ((h4 j hj).2 hr) hle⟩
      · rw [List.mem_singleton.1 hj]; exact ⟨by simp [TJob.new], by simp [TJob.new]⟩
    · next a rest _ ha =>
      simp only [Option.some.injEq] at hs; subst hs
      have hle := apply_height_le (mem := s.mem) (a := a) (fun v hv => h1 v (by rw [ha, hv]; simp))
      have hno := h2 a rest ha
      refine ⟨fun v hv => absurd hv (hno v), fun b c hbc v hv => hno v (by rw [show rest = b :: c from hbc]; simp [hv]),
        Int.le_trans h3 hle, fun j hj => ⟨(h4 j hj).1, fun hr => Int.le_trans ((h4 j hj).2 hr) hle⟩⟩
  | read i =>
    simp only [TState.step] at hs
    split at hs
    · cases hs
    · next j hj =>
      split at hs
      · next hlt =>
        simp only [Option.some.injEq] at hs; subst hs
        refine ⟨h1, h2, h3, fun y hy => ?_⟩
        rcases List.mem_or_eq_of_mem_set hy with hy | rfl
        · exact h4 y hy
        · refine ⟨by simp only; omega, fun _ => ?_⟩
          have hj4 := h4 j (List.mem_of_getElem? hj)
          simp only
          match hr : j.read, hlt with
          | 0, _ => simp [readField, Assign.apply]
          | 1, _ => simpa [readField, Assign.apply] using hj4.2 (by omega)
          | 2, _ => simpa [readField, Assign.apply] using hj4.2 (by omega)
          | 3, _ => simpa [readField, Assign.apply] using hj4.2 (by omega)
          | 4, _ => simpa [readField, Assign.apply] using hj4.2 (by omega)
          | 5, _ => simpa [readField, Assign.apply] using hj4.2 (by omega)
      · cases hs
  | write i =>
    simp only [TState.step] at hs
    split at hs
    · cases hs
    · next j hj =>
      split at hs
      · next h6 =>
        simp only [Option.some.injEq] at hs; subst hs
        exact ⟨h1, h2, (h4 j (List.mem_of_getElem? hj)).2 (by omega), fun y hy => h4 y (List.mem_of_mem_eraseIdx hy)⟩
      · cases hs

/-- C38: however many goroutines marshal at the same time and in whatever order they write, the height in the file is never
above the one in memory. (The round can be, for the same height: `C38_torn_fails`.) -/
theorem C38_height (mem : PFile) (ok : TState → TMove → Prop) (ms : List TMove) (s : TState)
    (h : TRun ok ⟨mem, [], [], mem⟩ ms s) : s.file.height ≤ s.mem.height := by
  have : TInv s := by
    induction h with
    | nil => exact ⟨fun v hv => by simp at hv, fun a b hab => by simp at hab, Int.le_refl _, fun j hj => by simp at hj⟩
    | snoc _ _ hs ih => exact tinv_step ih hs
  exact this.2.2.1

/-- A goroutine that has only read fields of the memory as it is. -/
def TJob.fresh (j : TJob) (mem : PFile) : Prop :=
  (0 < j.read → j.buf.height = mem.height) ∧ (1 < j.read → j.buf.round = mem.round) ∧ (2 < j.read → j.buf.step = mem.step)

/-- While no `Save` runs, the file has come up, or a goroutine will bring it up. -/
def UpInv (s : TState) : Prop := s.todo = [] → s.mem.hrs ≼ s.file.hrs ∨ ∃ j ∈ s.jobs, j.fresh s.mem

theorem upInv_step {s t : TState} {m : TMove} (h : UpInv s) (hok : NeverLowers s m) (hs : s.step m = some t) : UpInv t := by
  cases m with
  | save r =>
    simp only [TState.step] at hs
    split at hs
    · simp only [Option.some.injEq] at hs; subst hs
      intro ht; simp [saveAssigns] at ht
    · cases hs
  | assign =>
    simp only [TState.step] at hs
    split at hs
    · cases hs
    · simp only [Option.some.injEq] at hs; subst hs
      intro _
      exact .inr ⟨.new, by simp, by simp [TJob.fresh, TJob.new]⟩
    · next a rest hne ha =>
      simp only [Option.some.injEq] at hs; subst hs
      intro ht
      exact absurd (show rest = [] from ht) (by intro h0; subst h0; exact hne rfl)
  | read i =>
    simp only [TState.step] at hs
    split at hs
    · cases hs
    · next j hj =>
      split at hs
      · next hlt =>
        simp only [Option.some.injEq] at hs; subst hs
        intro ht
        rcases h ht with h | ⟨y, hy, hf⟩
        · exact .inl h
        · obtain ⟨l, hl⟩ := List.mem_iff_getElem?.1 hy
          obtain ⟨hlt', _⟩ := List.getElem?_eq_some_iff.1 hl
          by_cases hil : i = l
          · subst hil
            rw [hj] at hl
            simp only [Option.some.injEq] at hl
            subst hl
            refine .inr ⟨_, List.mem_of_getElem? (i := i) (by simp [hlt']; rfl), ?_⟩
            obtain ⟨f1, f2, f3⟩ := hf
            unfold TJob.fresh
            simp only
            match hr : j.read, hlt with
            | 0, _ => simp [readField, Assign.apply]
            | 1, _ => simp [readField, Assign.apply, f1 (by omega)]
            | 2, _ => simp [readField, Assign.apply, f1 (by omega), f2 (by omega)]
            | 3, _ => simp [readField, Assign.apply, f1 (by omega), f2 (by omega), f3 (by omega)]
            | 4, _ => simp [readField, Assign.apply, f1 (by omega), f2 (by omega), f3 (by omega)]
            | 5, _ => simp [readField, Assign.apply, f1 (by omega), f2 (by omega), f3 (by omega)]
          · exact .inr ⟨y, List.mem_of_getElem? (i := l) (by rw [List.getElem?_set_ne hil]; exact hl), hf⟩
      · cases hs
  | write i =>
    simp only [TState.step] at hs
    split at hs
    · cases hs
    · next j hj =>
      split at hs
      · next h6 =>
        simp only [Option.some.injEq] at hs; subst hs
        intro ht
        have hup := hok i j rfl hj
        rcases h ht with h | ⟨y, hy, hf⟩
        · exact .inl (HRS.le_trans h hup)
        · obtain ⟨l, hl⟩ := List.mem_iff_getElem?.1 hy
          by_cases hil : i = l
          · subst hil
            rw [hj] at hl
            simp only [Option.some.injEq] at hl
            subst hl
            left; left
            obtain ⟨f1, f2, f3⟩ := hf
            simp only [PFile.hrs, f1 (by omega), f2 (by omega), f3 (by omega)]
          · exact .inr ⟨y, List.mem_eraseIdx_iff_getElem?.2 ⟨l, fun h => hil h.symm, hl⟩, hf⟩
      · cases hs

/-- C38, partial: if no goroutine replaces a file by one with a lower watermark, then, however their readings overlap with
saves and with one another, when all have finished the file is at or above the watermark in memory, and so everything released,
with the same height. Missing: nothing orders the goroutines' writes (`C38_below_fails`), and the file need not be a state that
was saved (`C38_torn_fails`). -/
theorem C38_covers_partial (mem : PFile) (ms : List TMove) (s : TState) (h : TRun NeverLowers ⟨mem, [], [], mem⟩ ms s)
    (hrest : AllFinished s) : s.mem.hrs ≼ s.file.hrs ∧ s.file.height = s.mem.height := by
  have hinv : UpInv s := by
    clear hrest
    induction h with
    | nil => exact fun _ => .inl (HRS.le_refl _)
    | snoc _ hok hs ih => exact upInv_step ih hok hs
  have h1 : s.mem.hrs ≼ s.file.hrs := by
    rcases hinv hrest.1 with h | ⟨j, hj, _⟩
    · exact h
    · rw [hrest.2] at hj; cases hj
  have h2 := C38_height mem _ ms s h
  refine ⟨h1, ?_⟩
  have h3 : s.mem.height ≤ s.file.height := by
    rcases h1 with h1 | h1
    · exact Int.le_of_eq (congrArg HRS.height h1)
    · rcases h1 with h1 | h1
      · exact Int.le_of_lt h1
      · exact Int.le_of_eq h1.1
  omega

/-- The hypotheses of `C38_below_fails` hold of an ordinary pair: the precommit of round 9 of height 5, then the proposal of
height 6; and of the precommit of round 0 and the prevote of the next height. -/
example : ∃ s, TRun (fun _ _ => True) ⟨⟨5, 9, 2, none, none, none⟩, [], [], ⟨5, 9, 2, none, none, none⟩⟩
    (overtaken ⟨5, 9, 3, some [1], some [2]⟩ ⟨6, 0, 1, some [3], some [4]⟩) s ∧ AllFinished s ∧ s.mem.hrs = ⟨6, 0, 1⟩ ∧
    s.file.hrs ≺ ⟨5, 9, 3⟩ :=
  C38_below_fails _ _ ⟨5, 9, 3, some [1], some [2]⟩ ⟨6, 0, 1, some [3], some [4]⟩ (.inr ⟨rfl, .inr ⟨rfl, by decide⟩⟩)
    (by decide) (.inl (by decide))

example : ∃ s, TRun (fun _ _ => True) ⟨⟨5, 0, 2, none, none, none⟩, [], [], ⟨5, 0, 2, none, none, none⟩⟩
    (overtaken ⟨5, 0, 3, some [1], some [2]⟩ ⟨6, 0, 2, some [3], some [4]⟩) s ∧ AllFinished s ∧ s.mem.hrs = ⟨6, 0, 2⟩ ∧
    s.file.hrs ≺ ⟨5, 0, 3⟩ :=
  C38_below_fails _ _ ⟨5, 0, 3, some [1], some [2]⟩ ⟨6, 0, 2, some [3], some [4]⟩ (.inr ⟨rfl, .inr ⟨rfl, by decide⟩⟩)
    (by decide) (.inr ⟨rfl, by decide⟩)

/-- Steps one after the other, as long as none lowers the watermark of the file. -/
def TState.runUp (s : TState) : List TMove → Option TState
  | [] => some s
  | m :: ms => (s.step m).bind fun t => if t.file.hrs ≺ s.file.hrs then none else t.runUp ms

theorem runUp_trun {s0 s t : TState} {ms ms' : List TMove} (h : TRun NeverLowers s0 ms s) (hr : s.runUp ms' = some t) :
    TRun NeverLowers s0 (ms ++ ms') t := by
  induction ms' generalizing ms s with
  | nil => simp only [TState.runUp, Option.some.injEq] at hr; subst hr; simpa using h
  | cons m ms' ih =>
    simp only [TState.runUp, Option.bind_eq_some_iff] at hr
    obtain ⟨s1, h1, h2⟩ := hr
    split at h2
    · cases h2
    · next hn =>
      have hok : NeverLowers s m := by
        intro i j hm hj
        subst hm
        simp only [TState.step, hj] at h1
        split at h1
        · simp only [Option.some.injEq] at h1; subst h1; exact HRS.not_lt.1 hn
        · cases h1
      have := ih (.snoc h hok h1) h2
      simpa [List.append_assoc] using this

/-- Two goroutines at the same time, the first overtaken between two fields, that write in order: the first writes a mixture of
the two blocks, the second the second block. -/
def mixedInOrder : List TMove :=
  [.save ⟨5, 9, 3, some [1], some [2]⟩] ++ List.replicate 5 .assign ++ [.read 0, .read 0, .save ⟨6, 0, 1, some [3], some [4]⟩] ++
    List.replicate 5 .assign ++ List.replicate 6 (.read 1) ++ List.replicate 4 (.read 0) ++ [.write 0, .write 0]

/-- The first goroutine's file is below the block it was started for, and so this is not such a run; from a lower file it is. -/
example : (TState.runUp ⟨⟨5, 9, 2, none, none, none⟩, [], [], ⟨5, 9, 2, none, none, none⟩⟩ mixedInOrder).isNone ∧
    ∃ s, TRun NeverLowers ⟨⟨5, 8, 3, none, none, none⟩, [], [], ⟨5, 8, 3, none, none, none⟩⟩ mixedInOrder s ∧ AllFinished s ∧
      s.mem.hrs ≼ s.file.hrs ∧ s.file.height = s.mem.height := by
  refine ⟨by decide +kernel, ⟨⟨6, 0, 1, none, some [3], some [4]⟩, [], [], ⟨6, 0, 1, none, some [3], some [4]⟩⟩, ?_⟩
  have h : TRun NeverLowers ⟨⟨5, 8, 3, none, none, none⟩, [], [], ⟨5, 8, 3, none, none, none⟩⟩ mixedInOrder
      ⟨⟨6, 0, 1, none, some [3], some [4]⟩, [], [], ⟨6, 0, 1, none, some [3], some [4]⟩⟩ :=
    runUp_trun (ms := []) (ms' := mixedInOrder) .nil (by decide +kernel)
  exact ⟨h, ⟨rfl, rfl⟩, C38_covers_partial _ _ _ h ⟨rfl, rfl⟩⟩

/-- Goroutines one after the other: what they leave when the last has finished. -/
def SettleInv (s : MState) : Prop :=
  (s.jobs = 0 → s.read = 0) ∧ (s.todo = [] → s.jobs = 0 → s.file = s.mem) ∧ (s.todo = [] → s.jobs = 1 → ReadUpTo s.read s.buf s.mem)

theorem settleInv_step {s t : MState} {m : MMove} (h : SettleInv s) (hs : s.step m = some t) : SettleInv t := by
  obtain ⟨h1, h2, h3⟩ := h
  cases m with
  | save r =>
    simp only [MState.step] at hs
    split at hs
    · simp only [Option.some.injEq] at hs; subst hs
      exact ⟨h1, fun ht => by simp [saveAssigns] at ht, fun ht => by simp [saveAssigns] at ht⟩
    · cases hs
  | assign =>
    simp only [MState.step] at hs
    split at hs
    · cases hs
    · simp only [Option.some.injEq] at hs; subst hs
      refine ⟨fun h => by simp at h, fun _ h => by simp at h, fun _ h => ?_⟩
      have h0 : s.jobs = 0 := by simpa using h
      simp only [h1 h0]
      simp [ReadUpTo]
    · next a rest hne ha =>
      simp only [Option.some.injEq] at hs; subst hs
      have hr : rest ≠ [] := by intro h0; subst h0; exact hne rfl
      exact ⟨h1, fun ht => absurd ht hr, fun ht => absurd ht hr⟩
  | read =>
    simp only [MState.step] at hs
    split at hs
    · next hc =>
      simp only [Option.some.injEq] at hs; subst hs
      refine ⟨fun h => ?_, h2, fun ht hj => readUpTo_step _ _ _ hc.2 (h3 ht hj)⟩
      simp only at h
      omega
    · cases hs
  | write =>
    simp only [MState.step] at hs
    split at hs
    · next hc =>
      simp only [Option.some.injEq] at hs; subst hs
      refine ⟨fun _ => rfl, fun ht hj => ?_, fun _ _ => by simp [ReadUpTo]⟩
      simp only at ht hj ⊢
      have hb := h3 ht (by omega)
      rw [hc.2] at hb
      obtain ⟨b0, b1, b2, b3, b4, b5⟩ := hb
      cases hbuf : s.buf
      cases hmem : s.mem
      simp only [hbuf, hmem] at b0 b1 b2 b3 b4 b5
      simp only [PFile.mk.injEq]
      exact ⟨b0 (by omega), b1 (by omega), b2 (by omega), b3 (by omega), b4 (by omega), b5 (by omega)⟩
    · cases hs

/-- C38, partial: if the goroutines marshal and write one after the other, then, however they overlap with saves, a mixture
does not stay: when the last has finished the file holds exactly the state in memory. Missing: nothing keeps one goroutine from
overtaking another (`C38_mixed_fails`). -/
theorem C38_settles_partial (mem buf : PFile) (ms : List MMove) (s : MState)
    (h : MState.run ⟨mem, [], 0, 0, buf, mem⟩ ms = some s) (ht : s.todo = []) (hj : s.jobs = 0) : s.file = s.mem := by
  have key : ∀ (ms : List MMove) (s0 : MState), SettleInv s0 → s0.run ms = some s → SettleInv s := by
    intro ms
    induction ms with
    | nil => intro s0 h0 h; simp only [MState.run, Option.some.injEq] at h; subst h; exact h0
    | cons m ms ih =>
      intro s0 h0 h
      simp only [MState.run, Option.bind_eq_some_iff] at h
      obtain ⟨s1, h1, h2⟩ := h
      exact ih s1 (settleInv_step h0 h1) h2
  exact (key ms _ ⟨fun _ => rfl, fun _ _ => rfl, fun _ h => by simp at h⟩ h).2.1 ht hj

/-- A goroutine is overtaken by a save after it has read the height and writes a mixture, which the second goroutine replaces. -/
def mixedThenSettled : List MMove :=
  [.save ⟨5, 9, 3, some [1], some [2]⟩] ++ List.replicate 5 .assign ++ [.read, .save ⟨6, 0, 1, some [3], some [4]⟩] ++
    List.replicate 5 .assign ++ List.replicate 5 .read ++ [.write]

example : ((MState.run ⟨⟨5, 9, 2, none, none, none⟩, [], 0, 0, ⟨0, 0, 0, none, none, none⟩, ⟨5, 9, 2, none, none, none⟩⟩
      mixedThenSettled).map (·.file)) = some ⟨5, 0, 1, none, some [3], some [4]⟩ ∧
    ((MState.run ⟨⟨5, 9, 2, none, none, none⟩, [], 0, 0, ⟨0, 0, 0, none, none, none⟩, ⟨5, 9, 2, none, none, none⟩⟩
      (mixedThenSettled ++ List.replicate 6 .read ++ [.write])).map fun s => (s.todo, s.jobs, s.file)) =
      some ([], 0, ⟨6, 0, 1, none, some [3], some [4]⟩) := by decide +kernel

end Horcrux
