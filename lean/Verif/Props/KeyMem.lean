import Verif.Model.KeyMem
import Verif.Lemmas.Json
/-
C125: a signature once made keeps its bytes, although it is made by appending to a slice that others hold.
-/
namespace Horcrux

/-- What the library does: the keys it makes have room for less than 32 further bytes (they are slices of a whole
32-byte array), and combined share signatures have 32 bytes. -/
def Spec.Tight : KeyEv → Prop
  | .fresh _ spare => spare.length < 32
  | .assemble _ combined _ => combined.length = 32
  | _ => True

/-- A state file has the key as Go writes it. -/
def Spec.WrittenKey (text : Option Bytes) : Prop := ∀ t, text = some t → ∃ key, t = b64Enc key

open Spec

/-- The slice lies within its array. -/
def Arrays.Valid (m : Arrays) (g : GoSlice) : Prop := ∃ a, m[g.arr]? = some a ∧ g.len ≤ a.length

/-- … which has room for less than 32 further bytes. -/
def Arrays.Full (m : Arrays) (g : GoSlice) : Prop := ∃ a, m[g.arr]? = some a ∧ g.len ≤ a.length ∧ a.length < g.len + 32

/-- The keys are full. -/
def KeyMem.AllFull (s : KeyMem) : Prop :=
  (∀ g, s.record = some g → s.mem.Full g) ∧ (∀ g, some g ∈ s.held → s.mem.Full g) ∧ ∀ g ∈ s.sigs, s.mem.Valid g

theorem Arrays.valid_append {m : Arrays} {g : GoSlice} (x : Arrays) (h : m.Valid g) : Arrays.Valid (m ++ x) g := by
  obtain ⟨a, h1, h2⟩ := h
  have := (List.getElem?_eq_some_iff.1 h1).1
  exact ⟨a, by rw [List.getElem?_append_left this]; exact h1, h2⟩

theorem Arrays.full_append {m : Arrays} {g : GoSlice} (x : Arrays) (h : m.Full g) : Arrays.Full (m ++ x) g := by
  obtain ⟨a, h1, h2⟩ := h
  have := (List.getElem?_eq_some_iff.1 h1).1
  exact ⟨a, by rw [List.getElem?_append_left this]; exact h1, h2⟩

theorem Arrays.Full.valid {m : Arrays} {g : GoSlice} (h : m.Full g) : m.Valid g := by
  obtain ⟨a, h1, h2, _⟩ := h
  exact ⟨a, h1, h2⟩

theorem Arrays.read_append {m : Arrays} {g : GoSlice} (x : Arrays) (h : m.Valid g) : Arrays.read (m ++ x) g = m.read g := by
  obtain ⟨a, h1, h2⟩ := h
  have := (List.getElem?_eq_some_iff.1 h1).1
  simp only [Arrays.read, List.getElem?_append_left this]

theorem Arrays.alloc_valid (m : Arrays) (bs spare : Bytes) : Arrays.Valid (m.alloc bs spare).2 (m.alloc bs spare).1 :=
  ⟨bs ++ spare, by simp [Arrays.alloc], by simp [Arrays.alloc]⟩

theorem Arrays.alloc_read (m : Arrays) (bs spare : Bytes) : Arrays.read (m.alloc bs spare).2 (m.alloc bs spare).1 = bs := by
  simp [Arrays.alloc, Arrays.read]

/-- A full slice is never appended to in place. -/
theorem Arrays.append_full {m : Arrays} {k : Option GoSlice} {c : Bytes} (spare : Bytes)
    (h : ∀ g, k = some g → m.Full g) (hc : c.length = 32) :
    m.append k c spare = m.alloc ((k.map m.read).getD [] ++ c) spare := by
  cases k with
  | none => simp [Arrays.append]
  | some g =>
    obtain ⟨a, h1, h2, h3⟩ := h g rfl
    simp only [Arrays.append, h1, Option.getD_some, hc, Option.map_some]
    rw [if_neg (by omega)]

/-- A step with full keys only adds arrays. -/
theorem KeyMem.step_full {s s' : KeyMem} {e : KeyEv} (hs : s.AllFull) (ht : Tight e) (h : s.step e = some s') :
    s'.AllFull ∧ ∃ x hx gx, s'.mem = s.mem ++ x ∧ s'.held = s.held ++ hx ∧ s'.sigs = s.sigs ++ gx := by
  obtain ⟨h1, h2, h3⟩ := hs
  cases e with
  | fresh key spare =>
    simp only [KeyMem.step, Option.some.injEq] at h
    subst h
    have hf : Arrays.Full (s.mem ++ [key ++ spare]) ⟨s.mem.length, key.length⟩ :=
      ⟨key ++ spare, by simp, by simp, by simp only [Tight] at ht; simp only [List.length_append]; omega⟩
    refine ⟨⟨fun g hg => ?_, fun g hg => ?_, fun g hg => ?_⟩, [key ++ spare], _, [], rfl, rfl, by simp⟩
    · simp only [Arrays.alloc, Option.some.injEq] at hg
      subst hg
      exact hf
    · simp only [Arrays.alloc, List.mem_append, List.mem_singleton, Option.some.injEq] at hg
      rcases hg with hg | hg
      · exact Arrays.full_append _ (h2 g hg)
      · subst hg
        exact hf
    · exact Arrays.valid_append _ (h3 g hg)
  | again =>
    simp only [KeyMem.step, Option.some.injEq] at h
    subst h
    refine ⟨⟨h1, fun g hg => ?_, h3⟩, [], _, [], by simp, rfl, by simp⟩
    simp only [List.mem_append, List.mem_singleton] at hg
    rcases hg with hg | hg
    · exact h2 g hg
    · exact h1 g hg.symm
  | nothing =>
    simp only [KeyMem.step, Option.some.injEq] at h
    subst h
    refine ⟨⟨h1, fun g hg => ?_, h3⟩, [], _, [], by simp, rfl, by simp⟩
    simp only [List.mem_append, List.mem_singleton, reduceCtorEq, or_false] at hg
    exact h2 g hg
  | assemble i c spare =>
    simp only [KeyMem.step] at h
    split at h
    · simp at h
    · rename_i k hk
      simp only [Option.some.injEq] at h
      subst h
      have hk' : ∀ g, k = some g → s.mem.Full g := fun g hg => h2 g (hg ▸ List.mem_of_getElem? hk)
      rw [Arrays.append_full spare hk' ht]
      refine ⟨⟨fun g hg => Arrays.full_append _ (h1 g hg), fun g hg => Arrays.full_append _ (h2 g hg), fun g hg => ?_⟩,
        [(k.map s.mem.read).getD [] ++ c ++ spare], [], _, rfl, by simp, rfl⟩
      simp only [List.mem_append, List.mem_singleton] at hg
      rcases hg with hg | hg
      · exact Arrays.valid_append _ (h3 g hg)
      · subst hg
        exact Arrays.alloc_valid _ _ _

theorem KeyMem.run_full {s s' : KeyMem} {es : List KeyEv} (hs : s.AllFull) (ht : ∀ e ∈ es, Tight e)
    (h : s.run es = some s') :
    s'.AllFull ∧ ∃ x hx gx, s'.mem = s.mem ++ x ∧ s'.held = s.held ++ hx ∧ s'.sigs = s.sigs ++ gx := by
  induction es generalizing s with
  | nil =>
    simp only [KeyMem.run, Option.some.injEq] at h
    subst h
    exact ⟨hs, [], [], [], by simp, by simp, by simp⟩
  | cons e es ih =>
    simp only [KeyMem.run, Option.bind_eq_some_iff] at h
    obtain ⟨s1, h1, h2⟩ := h
    obtain ⟨ha, x, hx, gx, e1, e2, e3⟩ := KeyMem.step_full hs (ht e (by simp)) h1
    obtain ⟨hb, y, hy, gy, f1, f2, f3⟩ := ih ha (fun e he => ht e (by simp [he])) h2
    exact ⟨hb, x ++ y, hx ++ hy, gx ++ gy, by rw [f1, e1, List.append_assoc], by rw [f2, e2, List.append_assoc],
      by rw [f3, e3, List.append_assoc]⟩

/-- The room that Go leaves in the array of a key it has read. -/
theorem decodedLen_enc : ∀ key : Bytes, key.length ≤ decodedLen (b64Enc key) ∧ decodedLen (b64Enc key) ≤ key.length + 2
  | a :: b :: c :: rest => by
    have ih := decodedLen_enc rest
    simp only [decodedLen, b64Enc, List.length_cons] at ih ⊢
    omega
  | [a, b] => by simp [decodedLen, b64Enc]
  | [a] => by simp [decodedLen, b64Enc]
  | [] => by simp [decodedLen, b64Enc]

/-- A loaded key is full. -/
theorem KeyMem.load_full {text : Option Bytes} (ht : WrittenKey text) : (KeyMem.load text).AllFull := by
  cases text with
  | none => simp [KeyMem.load, KeyMem.AllFull]
  | some t =>
    obtain ⟨key, rfl⟩ := ht t rfl
    have hd := decodedLen_enc key
    simp only [KeyMem.load, b64Dec_enc]
    refine ⟨fun g hg => ?_, by simp, by simp⟩
    simp only [Option.some.injEq] at hg
    subst hg
    exact ⟨key ++ List.replicate (decodedLen (b64Enc key) - key.length) 0, by simp [Arrays.alloc], by simp [Arrays.alloc],
      by simp only [Arrays.alloc, List.length_append, List.length_replicate]; omega⟩

/-! ## C125 -/

/-- **C125.** Whatever happens on a node after a signature was made, the signature, the recorded key and the keys of the
rounds keep their bytes. -/
theorem C125_kept (text : Option Bytes) (es es' : List KeyEv) (s s' : KeyMem) (hw : WrittenKey text)
    (ht : ∀ e ∈ es ++ es', Tight e) (h : (KeyMem.load text).run es = some s) (h' : s.run es' = some s') :
    (∀ g ∈ s.sigs, s'.mem.read g = s.mem.read g) ∧ (∀ g, s.record = some g → s'.mem.read g = s.mem.read g) ∧
      ∀ g, some g ∈ s.held → s'.mem.read g = s.mem.read g := by
  obtain ⟨ha, -⟩ := KeyMem.run_full (KeyMem.load_full hw) (fun e he => ht e (by simp [he])) h
  obtain ⟨-, x, -, -, hx, -⟩ := KeyMem.run_full ha (fun e he => ht e (by simp [he])) h'
  rw [hx]
  exact ⟨fun g hg => Arrays.read_append x (ha.2.2 g hg), fun g hg => Arrays.read_append x (ha.1 g hg).valid,
    fun g hg => Arrays.read_append x (ha.2.1 g hg).valid⟩

/-- **C125.** At any later time, the signature made in a round is the key the round received, with the bytes it had when
it was received, followed by the combined share signature. -/
theorem C125_signature (text : Option Bytes) (es1 es2 es3 : List KeyEv) (i : Nat) (c spare : Bytes) (k : Option GoSlice)
    (s1 s2 s3 s4 : KeyMem) (hw : WrittenKey text) (ht : ∀ e ∈ es1 ++ es2 ++ es3, Tight e) (hc : c.length = 32)
    (h1 : (KeyMem.load text).run es1 = some s1) (hk : s1.held[i]? = some k) (h2 : s1.run es2 = some s2)
    (h3 : s2.step (.assemble i c spare) = some s3) (h4 : s3.run es3 = some s4) :
    ∃ g, s3.sigs = s2.sigs ++ [g] ∧ g ∈ s4.sigs ∧ s4.mem.read g = (k.map s1.mem.read).getD [] ++ c := by
  obtain ⟨a1, -⟩ := KeyMem.run_full (KeyMem.load_full hw) (fun e he => ht e (by simp [he])) h1
  obtain ⟨a2, x, hx, gx, e1, e2, -⟩ := KeyMem.run_full a1 (fun e he => ht e (by simp [he])) h2
  obtain ⟨a3, -⟩ := KeyMem.step_full a2 (e := .assemble i c spare) hc h3
  obtain ⟨-, y, -, gy, f1, -, f3⟩ := KeyMem.run_full a3 (fun e he => ht e (by simp [he])) h4
  have hk2 : s2.held[i]? = some k := by
    rw [e2, List.getElem?_append_left (List.getElem?_eq_some_iff.1 hk).1]
    exact hk
  have hf : ∀ g, k = some g → s2.mem.Full g := fun g hg => a2.2.1 g (hg ▸ List.mem_of_getElem? hk2)
  have hr : (k.map s2.mem.read).getD [] = (k.map s1.mem.read).getD [] := by
    cases k with
    | none => rfl
    | some g =>
      simp only [Option.map_some, Option.getD_some, e1]
      exact Arrays.read_append x (a1.2.1 g (List.mem_of_getElem? hk)).valid
  simp only [KeyMem.step, hk2, Arrays.append_full spare hf hc, Option.some.injEq] at h3
  subst h3
  refine ⟨_, rfl, by rw [f3]; simp, ?_⟩
  rw [f1, Arrays.read_append y (Arrays.alloc_valid _ _ _), Arrays.alloc_read, hr]

/-- **C125.** What the rounds receive: a key just made, with its bytes, or the slice of the record; the record is only
changed by making a key. -/
theorem C125_received (s : KeyMem) (key spare : Bytes) :
    (∃ s' g, s.step (.fresh key spare) = some s' ∧ s'.record = some g ∧ s'.held = s.held ++ [some g] ∧
      s'.mem.read g = key) ∧
    (∃ s', s.step .again = some s' ∧ s'.record = s.record ∧ s'.mem = s.mem ∧ s'.held = s.held ++ [s.record]) ∧
    (∃ s', s.step .nothing = some s' ∧ s'.record = s.record ∧ s'.mem = s.mem ∧ s'.held = s.held ++ [none]) ∧
    ∀ i c s', s.step (.assemble i c spare) = some s' → s'.record = s.record ∧ s'.held = s.held := by
  refine ⟨⟨_, _, rfl, rfl, rfl, Arrays.alloc_read _ _ _⟩, ⟨_, rfl, rfl, rfl, rfl⟩, ⟨_, rfl, rfl, rfl, rfl⟩,
    fun i c s' h => ?_⟩
  simp only [KeyMem.step] at h
  split at h
  · simp at h
  · simp only [Option.some.injEq] at h
    subst h
    exact ⟨rfl, rfl⟩

/-- **C125.** A node that starts has the key of its state file in its record. -/
theorem C125_loaded (key : Bytes) :
    ∃ g, (KeyMem.load (some (b64Enc key))).record = some g ∧ (KeyMem.load (some (b64Enc key))).mem.read g = key := by
  simp only [KeyMem.load, b64Dec_enc]
  exact ⟨_, rfl, Arrays.alloc_read _ _ _⟩

/-- **C125.** The room matters: if a key has room for the combined signature, then of two signatures made with it the
second overwrites the first. -/
theorem C125_needed (s s1 s2 : KeyMem) (i j : Nat) (g : GoSlice) (a c c' spare spare' : Bytes)
    (hi : s.held[i]? = some (some g)) (hj : s.held[j]? = some (some g)) (ha : s.mem[g.arr]? = some a)
    (hroom : g.len + c.length ≤ a.length) (hl : c'.length = c.length)
    (h1 : s.step (.assemble i c spare) = some s1) (h2 : s1.step (.assemble j c' spare') = some s2) :
    ∃ g1, s1.sigs = s.sigs ++ [g1] ∧ s1.mem.read g1 = s.mem.read g ++ c ∧ s2.mem.read g1 = s.mem.read g ++ c' := by
  have hlt := (List.getElem?_eq_some_iff.1 ha).1
  have hg : g.len ≤ a.length := by omega
  simp only [KeyMem.step, hi, Arrays.append, ha, Option.getD_some, if_pos hroom, Option.some.injEq] at h1
  subst h1
  have hroom' : g.len + c'.length ≤ (a.take g.len ++ c ++ a.drop (g.len + c.length)).length := by
    simp only [List.length_append, List.length_take, List.length_drop]
    omega
  simp only [KeyMem.step, hj, Arrays.append, List.getElem?_set, hlt, if_true, Option.getD_some, if_pos hroom',
    Option.some.injEq] at h2
  subst h2
  have ht : (a.take g.len).length = g.len := by simp [hg]
  refine ⟨_, rfl, ?_, ?_⟩
  · simp only [Arrays.read, ha, Option.getD_some, List.getElem?_set, hlt, if_true]
    rw [List.take_append_of_le_length (by simp [ht]), List.take_of_length_le (by simp [ht])]
  · simp only [Arrays.read, ha, Option.getD_some, List.getElem?_set, List.length_set, hlt, if_true]
    rw [List.take_append_of_le_length (by simp [hg, hl]),
      List.take_of_length_le (by simp [hg, hl])]
    congr 1
    rw [List.append_assoc, List.take_append_of_le_length (by simp [hg]), List.take_take, Nat.min_self]

/-- A node with a key in its state file makes two signatures with it (the second at another timestamp is made with a key
just made), while a third round without the own cosigner's answer makes one. -/
def keyRun : List KeyEv :=
  [.again, .again, .assemble 0 (List.replicate 32 7) [0], .fresh (List.replicate 32 5) [], .nothing,
   .assemble 1 (List.replicate 32 8) [], .assemble 2 (List.replicate 32 9) [], .assemble 3 (List.replicate 32 6) []]

example : ∃ s, (KeyMem.load (some (b64Enc (List.replicate 32 4)))).run keyRun = some s ∧ (∀ e ∈ keyRun, Tight e) ∧
    s.sigs.map s.mem.read = [List.replicate 32 4 ++ List.replicate 32 7, List.replicate 32 4 ++ List.replicate 32 8,
      List.replicate 32 5 ++ List.replicate 32 9, List.replicate 32 6] := by
  refine ⟨_, rfl, ?_, by decide +kernel⟩
  simp [keyRun, Tight]

/-- A state file whose key has 44 line breaks behind it (such as Go does not write) is read with room for 34 bytes. -/
def looseKey : Bytes := b64Enc (List.replicate 32 4) ++ List.replicate 44 10

example : ∃ s s1 s2 a g, (KeyMem.load (some looseKey)).run [.again, .again] = some s ∧ s.held = [some g, some g] ∧
    s.mem[g.arr]? = some a ∧ g.len + 32 ≤ a.length ∧
    s.step (.assemble 0 (List.replicate 32 7) []) = some s1 ∧ s1.step (.assemble 1 (List.replicate 32 8) []) = some s2 ∧
    s1.sigs.map s1.mem.read = [List.replicate 32 4 ++ List.replicate 32 7] ∧
    s1.sigs.map s2.mem.read = [List.replicate 32 4 ++ List.replicate 32 8] := by
  refine ⟨((KeyMem.load (some looseKey)).run [.again, .again]).get (by decide +kernel), _, _, _, ⟨0, 32⟩,
    by decide +kernel, by decide +kernel, rfl, by decide +kernel, rfl, rfl, by decide +kernel, by decide +kernel⟩

end Horcrux
