import Verif.Props.Cosigner
import Verif.Props.Round
import Verif.Lemmas.Retime
/-
Property C94: how many nonce records a cosigner keeps.
-/
namespace Horcrux
open Spec

/-! ### Vocabulary -/

/-- The blocks (with time) a call is about; a received part may be entered under the zero time too. -/
def CosOp.keys : CosOp → List HRST
  | .getPart req _ => [⟨req.height, req.round, req.step, req.timestamp.unixNano⟩]
  | .setPart req _ => [⟨req.height, req.round, req.step, req.timestamp.unixNano⟩,
      ⟨req.height, req.round, req.step, GoTime.zero.unixNano⟩]
  | .sign _ => []
  | .saveLSS _ => []

/-- The step released a new share signature for a block above `h`. -/
def SignsAbove (h : HRS) (x : CosOp × Out CosResp) : Prop :=
  ∃ bs r k, x = (.sign bs, .ok (.signed r)) ∧ r.nonce ≠ none ∧ unpackHRST bs = .ok k ∧ h ≺ k.hrs

/-- A number of calls for secret parts from outside (`grpc_server.go:56-67`), for the blocks `ks`: the answers, and the
state after them. -/
def askAll (C : Crypto) (cfg : CosignerCfg) (order : List Int) :
    List HRST → (Nat → Nat → Rand) → CState → List (Out (List SecretPart)) × CState
  | [], _, s => ([], s)
  | k :: ks, rnd, s =>
    let r := getParts C cfg k order (rnd 0) s
    let rest := askAll C cfg order ks (fun i => rnd (i + 1)) r.2
    (r.1 :: rest.1, rest.2)

section
variable {C : Crypto} {cfg : CosignerCfg}

/-! ### One step -/

theorem step_kept {s s' : CState} {op : CosOp} {out : Out CosResp} (h : s.step C cfg op = (out, s')) {k : HRST} {ref : Nat}
    (hk : s'.hrsMeta k = some ref) :
    k ∈ op.keys ∨ (s.hrsMeta k ≠ none ∧ ¬ SignsAbove k.hrs (op, out)) := by
  rcases step_cases h with ⟨req, rnd, rfl, hp⟩ | ⟨req, rnd, rfl, ho, hp⟩ | ⟨bs, r, k2, _, _, rfl, rfl, hf⟩ |
    ⟨bs, r, k2, rfl, rfl, hc⟩ | ⟨bs, rfl, hn, rfl⟩ | ⟨ssc, rfl, rfl, _⟩
  · rcases hp.maps.2.1 k ref hk with h1 | ⟨h0, _⟩ | ⟨h1, _⟩
    · exact .inr ⟨by rw [h1]; simp, by rintro ⟨_, _, _, h, _⟩; cases h⟩
    · exact .inl (by rw [h0]; exact List.mem_singleton.2 rfl)
    · exact .inl (by rcases h1 with h1 | h1 <;> rw [h1] <;> exact List.mem_singleton.2 rfl)
  · rcases hp.maps.2.1 k ref hk with h1 | ⟨h0, _⟩ | ⟨h1, _⟩
    · exact .inr ⟨by rw [h1]; simp, by rintro ⟨_, _, _, h, _⟩; cases h⟩
    · exact .inl (by rw [h0]; exact List.mem_cons_self ..)
    · rcases h1 with h1 | h1
      · exact .inl (by rw [h1]; exact List.mem_cons_self ..)
      · exact .inl (by rw [h1]; exact List.mem_cons_of_mem _ (List.mem_singleton.2 rfl))
  · right
    rw [hf.pruned] at hk
    split at hk
    · cases hk
    · next hl =>
      refine ⟨by rw [hk]; simp, ?_⟩
      rintro ⟨bs', r', k', h1, _, h2, h3⟩
      simp only [Prod.mk.injEq, CosOp.sign.injEq] at h1
      rw [← h1.1, hf.unpack] at h2
      cases h2
      exact hl ((less_iff _ _).2 h3)
  · right
    rw [hc.state] at hk
    refine ⟨by rw [hk]; simp, ?_⟩
    rintro ⟨bs', r', k', h1, h2, _⟩
    simp only [Prod.mk.injEq, Out.ok.injEq, CosResp.signed.injEq] at h1
    rw [← h1.2, hc.res] at h2
    exact h2 rfl
  · right
    refine ⟨by rw [hk]; simp, ?_⟩
    rintro ⟨bs', r', k', h1, _⟩
    simp only [Prod.mk.injEq] at h1
    exact hn _ h1.2
  · right
    refine ⟨by rw [show s.hrsMeta k = some ref from hk]; simp, ?_⟩
    rintro ⟨bs', r', k', h1, _⟩
    cases h1

theorem step_stays {s s' : CState} {op : CosOp} {out : Out CosResp} (h : s.step C cfg op = (out, s')) {k : HRST} {ref : Nat}
    (hk : s.hrsMeta k = some ref) (hno : ¬ SignsAbove k.hrs (op, out)) : s'.hrsMeta k = some ref := by
  rcases step_cases h with ⟨req, rnd, rfl, hp⟩ | ⟨req, rnd, rfl, ho, hp⟩ | ⟨bs, r, k2, _, _, rfl, rfl, hf⟩ |
    ⟨bs, r, k2, rfl, rfl, hc⟩ | ⟨bs, rfl, hn, rfl⟩ | ⟨ssc, rfl, rfl, _⟩
  · exact hp.maps.1 _ _ hk
  · exact hp.maps.1 _ _ hk
  · rw [hf.pruned, if_neg, hk]
    intro hl
    exact hno ⟨bs, r, k2, rfl, by rw [hf.nonce]; simp, hf.unpack, (less_iff _ _).1 hl⟩
  · rw [hc.state]; exact hk
  · exact hk
  · exact hk

/-! ### C94 -/

/-- C94: a nonce record stays, whatever is called, until a new share signature for a higher block is released. -/
theorem C94_stays (s s' : CState) (tr : List (CosOp × Out CosResp)) (h : Run C cfg s tr s') (k : HRST) (ref : Nat)
    (hk : s.hrsMeta k = some ref) (hno : ∀ x ∈ tr, ¬ SignsAbove k.hrs x) : s'.hrsMeta k = some ref := by
  induction h with
  | nil => exact hk
  | cons hs _ _ ih =>
    exact ih (step_stays hs hk (hno _ (List.mem_cons_self ..))) (fun x hx => hno x (List.mem_cons_of_mem _ hx))

/-- C94: and a process holds a nonce record only for a block it was called about with no new share signature for a higher
block since. -/
theorem C94_kept (l : SignState) (s : CState) (tr : List (CosOp × Out CosResp)) (h : Run C cfg (CState.start l) tr s)
    (k : HRST) (hk : s.hrsMeta k ≠ none) :
    ∃ pre op out post, tr = pre ++ (op, out) :: post ∧ k ∈ op.keys ∧ ∀ x ∈ post, ¬ SignsAbove k.hrs x := by
  have gen : ∀ {s0 s : CState} {tr : List (CosOp × Out CosResp)}, Run C cfg s0 tr s → s.hrsMeta k ≠ none →
      (s0.hrsMeta k ≠ none ∧ ∀ x ∈ tr, ¬ SignsAbove k.hrs x) ∨
      ∃ pre op out post, tr = pre ++ (op, out) :: post ∧ k ∈ op.keys ∧ ∀ x ∈ post, ¬ SignsAbove k.hrs x := by
    intro s0 s tr h hk
    induction h with
    | nil => exact .inl ⟨hk, by simp⟩
    | @cons s0 s1 s2 op out tr hs _ _ ih =>
      rcases ih hk with ⟨h1, h2⟩ | ⟨pre, op', out', post, e, h1, h2⟩
      · obtain ⟨ref, h1⟩ := Option.ne_none_iff_exists'.1 h1
        rcases step_kept hs h1 with h3 | ⟨h3, h4⟩
        · exact .inr ⟨[], op, out, tr, rfl, h3, h2⟩
        · refine .inl ⟨h3, fun x hx => ?_⟩
          rcases List.mem_cons.1 hx with rfl | hx
          · exact h4
          · exact h2 x hx
      · exact .inr ⟨(op, out) :: pre, op', out', post, by rw [e]; rfl, h1, h2⟩
  rcases gen h hk with ⟨h1, _⟩ | h
  · exact absurd rfl h1
  · exact h

theorem keys_length (op : CosOp) : op.keys.length ≤ 2 := by cases op <;> simp [CosOp.keys]

theorem keys_flat (l : List (CosOp × Out CosResp)) : (l.flatMap (·.1.keys)).length ≤ 2 * l.length := by
  induction l with
  | nil => simp
  | cons x l ih =>
    have := keys_length x.1
    simp only [List.flatMap_cons, List.length_append, List.length_cons]
    omega

theorem keys_hrs {op : CosOp} {k k' : HRST} (h : k ∈ op.keys) (h' : k' ∈ op.keys) : k.hrs = k'.hrs := by
  cases op <;> simp only [CosOp.keys, List.mem_cons, List.not_mem_nil, or_false] at h h'
  · rw [h, h']
  · rcases h with rfl | rfl <;> rcases h' with rfl | rfl <;> rfl

/-- C94, partial: if the calls come in order, what was done for lower blocks takes no room. When a new share signature for a
block has been released and no call so far was about a higher block, the nonce records kept at any later time number at
most two for each call about that very block before and two for each call after. Missing: calls about blocks that are not
signed, which anyone can make (`C94_fails`). -/
theorem C94_partial (l : SignState) (s : CState) (pre post : List (CosOp × Out CosResp)) (bs : Bytes) (r : SignRes) (k : HRST)
    (h : Run C cfg (CState.start l) (pre ++ (.sign bs, .ok (.signed r)) :: post) s) (hfresh : r.nonce ≠ none)
    (hu : unpackHRST bs = .ok k) (hord : ∀ x ∈ pre, ∀ k' ∈ x.1.keys, ¬ k.hrs ≺ k'.hrs)
    (ks : List HRST) (hnd : ks.Nodup) (hks : ∀ k' ∈ ks, s.hrsMeta k' ≠ none) :
    ks.length ≤ 2 * (pre.filter fun x => x.1.keys.any fun k' => k'.hrs = k.hrs).length + 2 * post.length := by
  have hsub : ks ⊆ ((pre.filter fun x => x.1.keys.any fun k' => k'.hrs = k.hrs) ++ post).flatMap (·.1.keys) := by
    intro k' hk'
    rw [List.mem_flatMap]
    obtain ⟨pre', op, out, post', e, h1, h2⟩ := C94_kept l s _ h k' (hks k' hk')
    rcases List.append_eq_append_iff.1 e with ⟨c, e1, e2⟩ | ⟨c, e1, e2⟩
    · cases c with
      | nil =>
        simp only [List.nil_append, List.cons.injEq, Prod.mk.injEq] at e2
        rw [← e2.1.1] at h1
        cases h1
      | cons y c =>
        simp only [List.cons_append, List.cons.injEq] at e2
        exact ⟨(op, out), by rw [e2.2]; simp, h1⟩
    · cases c with
      | nil =>
        simp only [List.nil_append, List.cons.injEq, Prod.mk.injEq] at e2
        rw [e2.1.1] at h1
        cases h1
      | cons y c =>
        simp only [List.cons_append, List.cons.injEq] at e2
        obtain ⟨e3, e4⟩ := e2
        have hmem : (op, out) ∈ pre := by rw [e1, ← e3]; simp
        have hle : ¬ k.hrs ≺ k'.hrs := hord _ hmem k' h1
        have hge : ¬ k'.hrs ≺ k.hrs := fun hlt =>
          h2 (.sign bs, .ok (.signed r)) (by rw [e4]; simp) ⟨bs, r, k, rfl, hfresh, hu, hlt⟩
        have heq : k'.hrs = k.hrs := HRS.le_antisymm (HRS.not_lt.1 hle) (HRS.not_lt.1 hge)
        refine ⟨(op, out), List.mem_append_left _ (List.mem_filter.2 ⟨hmem, ?_⟩), h1⟩
        exact List.any_eq_true.2 ⟨k', h1, by simpa using heq⟩
  have h1 := (List.subperm_of_subset hnd hsub).length_le
  have h2 := keys_flat ((pre.filter fun x => x.1.keys.any fun k' => k'.hrs = k.hrs) ++ post)
  rw [List.length_append] at h2
  omega

/-- A block signed after one call for its parts and one part received, then a call for a later block: two records. -/
def growDemo : List (CosOp × Out CosResp) × CState :=
  exec toy toyCfg toyStart [.getPart get1 (toyRnd 1), .setPart (part2 5) (toyRnd 7), .sign b1, .getPart get3 (toyRnd 3)]

def growRes : SignRes :=
  match (sign toy toyCfg (exec toy toyCfg toyStart [.getPart get1 (toyRnd 1), .setPart (part2 5) (toyRnd 7)]).2 b1).1 with
  | .ok r => r
  | _ => ⟨none, none, none⟩

example : ∃ pre post, Run toy toyCfg (CState.start .empty) (pre ++ (.sign b1, .ok (.signed growRes)) :: post) growDemo.2 ∧
    growRes.nonce ≠ none ∧ unpackHRST b1 = .ok ⟨7, 1, 3, 1600000000000000005⟩ ∧
    (∀ x ∈ pre, ∀ k' ∈ x.1.keys, ¬ (⟨7, 1, 3⟩ : HRS) ≺ k'.hrs) ∧ pre.length = 2 ∧ post.length = 1 ∧
    (∀ k' ∈ [get1.key, get3.key], growDemo.2.hrsMeta k' ≠ none) := by
  have he : growDemo.1 = growDemo.1.take 2 ++ (.sign b1, .ok (.signed growRes)) :: growDemo.1.drop 3 := by decide +kernel
  refine ⟨growDemo.1.take 2, growDemo.1.drop 3, ?_, by decide +kernel, unpack_b1, by decide +kernel, by decide +kernel,
    by decide +kernel, by decide +kernel⟩
  rw [← he]
  exact exec_run _ _ _ _ (by decide +kernel)

/-! Where it fails -/

theorem getPartsLoop_mono {k : HRST} : ∀ (order : List Int) (rnd : Nat → Rand) (s : CState) (acc : List SecretPart)
    (k' : HRST) (ref : Nat), s.hrsMeta k' = some ref → (getPartsLoop C cfg k order rnd s acc).2.hrsMeta k' = some ref := by
  intro order
  induction order with
  | nil => intro rnd s acc k' ref h; exact h
  | cons p order ih =>
    intro rnd s acc k' ref h
    simp only [getPartsLoop]
    split
    · exact ih _ _ _ _ _ h
    · have h1 : (getPart C cfg s ⟨p, k.height, k.round, k.step, GoTime.ofUnixNano k.timestamp⟩ (rnd 0)).2.hrsMeta k' =
          some ref := (getPart_step rfl).maps.1 _ _ h
      generalize getPart C cfg s ⟨p, k.height, k.round, k.step, GoTime.ofUnixNano k.timestamp⟩ (rnd 0) = x at h1
      obtain ⟨o, s'⟩ := x
      cases o with
      | ok part => exact ih _ _ _ _ _ h1
      | err e => exact h1
      | panic => exact h1

theorem askAll_mono (order : List Int) : ∀ (ks : List HRST) (rnd : Nat → Nat → Rand) (s : CState) (k' : HRST) (ref : Nat),
    s.hrsMeta k' = some ref → (askAll C cfg order ks rnd s).2.hrsMeta k' = some ref := by
  intro ks
  induction ks with
  | nil => intro rnd s k' ref h; exact h
  | cons k ks ih =>
    intro rnd s k' ref h
    simp only [askAll]
    refine ih _ _ _ _ ?_
    unfold getParts
    split
    · exact h
    · exact getPartsLoop_mono _ _ _ _ _ _ h
end

section
variable {C : Crypto} {F G : Type} [Field F] [AddCommGroup G] [Module F G] {L : Lawful C F G}
  {pair : Bytes → Bytes → Prop} {n t : Nat} {cfg : Nat → CosignerCfg} {x : F} {kc : List F} {rsaPub : Nat → Bytes}

theorem askAll_all (hS : Setup C L pair n t cfg x kc rsaPub) {p : Nat} (hp : 1 ≤ p ∧ p ≤ n) (order : List Nat)
    (hmem : ∀ q ∈ order, 1 ≤ q ∧ q ≤ n) (hex : ∃ q ∈ order, q ≠ p) :
    ∀ (ks : List HRST) (rnd : Nat → Nat → Rand) (s : CState),
      (∀ j i, ∃ sec, (rnd j i).secret = some sec ∧ sec.length = 32) → ks.Nodup →
      (∀ k ∈ ks, IsI64 k.timestamp ∧ s.hrsMeta k = none) →
      (askAll C (cfg p) (order.map (fun q : Nat => (q : Int))) ks rnd s).1.length = ks.length ∧
      (∀ o ∈ (askAll C (cfg p) (order.map (fun q : Nat => (q : Int))) ks rnd s).1, ∃ parts, o = .ok parts) ∧
      ∀ k ∈ ks, (askAll C (cfg p) (order.map (fun q : Nat => (q : Int))) ks rnd s).2.hrsMeta k ≠ none := by
  intro ks
  induction ks with
  | nil => intro rnd s _ _ _; exact ⟨rfl, by simp [askAll], by simp⟩
  | cons k ks ih =>
    intro rnd s hrnd hnd hks
    obtain ⟨hi, hnone⟩ := hks k (List.mem_cons_self ..)
    have hne : order.map (fun q : Nat => (q : Int)) ≠ [] := by
      obtain ⟨q, hq, _⟩ := hex
      intro h; rw [List.map_eq_nil_iff] at h; rw [h] at hq; cases hq
    obtain ⟨sec, r, parts, s1, _, _, g1, _, _, ref, g2, _⟩ :=
      getPartsLoop_fresh hS hp.1 hp.2 hi order (rnd 0) s hmem hex hnone (hrnd 0)
    have hg : getParts C (cfg p) k (order.map (fun q : Nat => (q : Int))) (rnd 0) s = (.ok parts, s1) := by
      unfold getParts; rw [if_neg hne, g1]
    have hk1 : ∀ k' ref, s1.hrsMeta k' = some ref → k' ∉ ks := by
      have := getParts_keys (C := C) (cfg := cfg p) hi (P := fun k' => k' ∉ ks) (List.nodup_cons.1 hnd).1
        (order.map (fun q : Nat => (q : Int))) (rnd 0) s (fun k' ref h hm => by
          rw [(hks k' (List.mem_cons_of_mem _ hm)).2] at h; cases h)
      rw [hg] at this
      exact this
    obtain ⟨i1, i2, i3⟩ := ih (fun i => rnd (i + 1)) s1 (fun j => hrnd (j + 1)) (List.nodup_cons.1 hnd).2
      (fun k' hk' => ⟨(hks k' (List.mem_cons_of_mem _ hk')).1, by
        cases hm : s1.hrsMeta k' with
        | none => rfl
        | some ref => exact absurd hk' (hk1 k' ref hm)⟩)
    simp only [askAll, hg]
    refine ⟨by simp [i1], ?_, ?_⟩
    · intro o ho
      rcases List.mem_cons.1 ho with rfl | ho
      · exact ⟨parts, rfl⟩
      · exact i2 o ho
    · intro k' hk'
      rcases List.mem_cons.1 hk' with rfl | hk'
      · rw [askAll_mono _ _ _ _ _ _ g2]; simp
      · exact i3 k' hk'

/-- C94 fails: whatever state a cosigner of a working cluster is in, and whatever blocks it is asked for parts of — any
number of them, however far off — it answers every call and keeps a nonce record for each. The records are still there after
any further run in which it signs for no block above them: signing does not clear them, the watermark does not keep them
out, and nothing but a restart does. -/
theorem C94_fails (hS : Setup C L pair n t cfg x kc rsaPub) (p : Nat) (hp : 1 ≤ p ∧ p ≤ n) (order : List Nat)
    (hmem : ∀ q ∈ order, 1 ≤ q ∧ q ≤ n) (hex : ∃ q ∈ order, q ≠ p) (ks : List HRST) (hnd : ks.Nodup)
    (rnd : Nat → Nat → Rand) (hrnd : ∀ j i, ∃ sec, (rnd j i).secret = some sec ∧ sec.length = 32) (s : CState)
    (hks : ∀ k ∈ ks, IsI64 k.timestamp ∧ s.hrsMeta k = none) :
    ∃ outs s', askAll C (cfg p) (order.map (fun q : Nat => (q : Int))) ks rnd s = (outs, s') ∧
      outs.length = ks.length ∧ (∀ o ∈ outs, ∃ parts, o = .ok parts) ∧
      ∀ tr s'', Run C (cfg p) s' tr s'' → (∀ y ∈ tr, ∀ k ∈ ks, ¬ SignsAbove k.hrs y) → ∀ k ∈ ks, s''.hrsMeta k ≠ none := by
  obtain ⟨h1, h2, h3⟩ := askAll_all hS hp order hmem hex ks rnd s hrnd hnd hks
  refine ⟨_, _, rfl, h1, h2, fun tr s'' hr hno k hk => ?_⟩
  obtain ⟨ref, e⟩ := Option.ne_none_iff_exists'.1 (h3 k hk)
  rw [C94_stays _ _ tr hr k ref e (fun y hy => hno y hy k hk)]
  simp

end

/-- Any number of calls for a height far ahead: as many records. -/
example (N : Nat) (hN : N < 2 ^ 63) : ∃ s, ∀ tr s'', Run ftoy (fcfg 2) s tr s'' →
    (∀ y ∈ tr, ¬ SignsAbove ⟨1000000000, 0, 3⟩ y) →
    ∃ ks : List HRST, ks.Nodup ∧ ks.length = N ∧ ∀ k ∈ ks, s''.hrsMeta k ≠ none := by
  have hnd : ((List.range N).map fun i : Nat => (⟨1000000000, 0, 3, (i : Int)⟩ : HRST)).Nodup :=
    List.nodup_range.map (fun a b h => by simpa using h)
  obtain ⟨outs, s, _, _, _, h⟩ := C94_fails fsetup 2 (by decide) [1, 2, 3] (by decide) ⟨1, by decide, by decide⟩ _ hnd
    (fun _ _ => toyRnd 1) (fun _ _ => ⟨List.replicate 32 1, rfl, rfl⟩) (CState.start .empty) (fun k hk => by
      obtain ⟨i, hi, rfl⟩ := List.mem_map.1 hk
      rw [List.mem_range] at hi
      exact ⟨by unfold IsI64; simp only; omega, rfl⟩)
  refine ⟨s, fun tr s'' hr hno => ⟨_, hnd, by simp, h tr s'' hr fun y hy k hk => ?_⟩⟩
  obtain ⟨i, _, rfl⟩ := List.mem_map.1 hk
  exact hno y hy

end Horcrux
