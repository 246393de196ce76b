import Verif.Props.Cosigner
/-
Property C17 for calls that overlap: which deal the parts of a call come from.
-/
namespace Horcrux
open Spec

variable {C : Crypto} {cfg : CosignerCfg}

theorem recordAt_kept {s s' : CState} {op : CosOp} {out : Out CosResp} (h : s.step C cfg op = (out, s'))
    {k : HRST} {sec : Bytes} {d : List Bytes} (hr : RecordAt s k sec d) : RecordAt s' k sec d ∨
      ∃ bs r k', op = .sign bs ∧ out = .ok (.signed r) ∧ r.nonce ≠ none ∧ unpackHRST bs = .ok k' ∧ k.hrs ≺ k'.hrs := by
  obtain ⟨ref, m, h1, h2, h3, h4⟩ := hr
  obtain ⟨m', g1, g2, g3, _⟩ := step_heapExt h ref m h2
  have keep : s'.hrsMeta k = some ref → RecordAt s' k sec d := fun h5 => ⟨ref, m', h5, g1, g2.trans h3, g3.trans h4⟩
  rcases step_cases h with ⟨req, rnd, rfl, hp⟩ | ⟨req, rnd, rfl, _, hp⟩ | ⟨bs, r, k', _, _, e1, e2, hf⟩ |
    ⟨_, _, _, _, _, hc⟩ | ⟨_, _, _, rfl⟩ | ⟨_, _, rfl, _⟩
  · exact .inl (keep (hp.maps.1 k ref h1))
  · exact .inl (keep (hp.maps.1 k ref h1))
  · by_cases hl : k.less k' = true
    · exact .inr ⟨bs, r, k', e1, e2, by rw [hf.nonce]; simp, hf.unpack, (less_iff _ _).1 hl⟩
    · exact .inl (keep (by rw [hf.pruned]; simp only [hl]; exact h1))
  · exact .inl (keep (by rw [hc.state]; exact h1))
  · exact .inl (keep h1)
  · exact .inl (keep h1)

/-- C17 with other calls in between, partial: two parts handed out for the same block in one run come from the same
deal if nothing above that block was signed in between (answers from the record do not count). Missing: a signature in
between, where it is false (`C17_interleaved_fails`; in general `C17_new_deal`). -/
theorem C17_interleaved_partial (s0 s : CState) (l1 l2 l3 : List (CosOp × Out CosResp))
    (req req' : GetPartReq) (rnd rnd' : Rand) (p p' : SecretPart) (hk : req'.key = req.key)
    (hrun : Run C cfg s0 (l1 ++ (CosOp.getPart req rnd, Out.ok (CosResp.part p)) :: (l2 ++
      (CosOp.getPart req' rnd', Out.ok (CosResp.part p')) :: l3)) s)
    (hno : ∀ bs r k, (CosOp.sign bs, Out.ok (CosResp.signed r)) ∈ l2 → r.nonce ≠ none → unpackHRST bs = .ok k →
      ¬ req.key.hrs ≺ k.hrs) :
    ∃ secret dealt, PartOf C cfg secret dealt p ∧ PartOf C cfg secret dealt p' := by
  obtain ⟨s1, _, hr⟩ := hrun.split
  cases hr with
  | cons hst _ hr =>
    obtain ⟨s3, hr2, hr3⟩ := hr.split
    cases hr3 with
    | cons hst' _ _ =>
      obtain ⟨_, sec, d, h1, h2, _⟩ := getPart_partOf (step_getPart hst)
      obtain ⟨_, sec', d', h1', h2', h3'⟩ := getPart_partOf (step_getPart hst')
      have : RecordAt s3 req.key sec d := by
        clear hst hst' h1' h2' h3' hr h2 hrun
        induction hr2 with
        | nil => exact h1
        | cons hs _ _ ih =>
          rcases recordAt_kept hs h1 with h | ⟨bs, r, k', rfl, rfl, e0, e3, e4⟩
          · exact ih (fun bs r k hm => hno bs r k (List.mem_cons_of_mem _ hm)) h
          · exact absurd e4 (hno bs r k' (List.mem_cons_self ..) e0 e3)
      rw [hk] at h3'
      obtain ⟨rfl, rfl⟩ := h3' _ _ this
      exact ⟨sec, d, h2, h2'⟩

/-- Two parts for one block with a part for and a signature of a lower block in between. -/
example : ∃ tr s, Run toy toyCfg (CState.start .empty) tr s ∧ tr.map (·.1) =
      [.getPart get3 (toyRnd 1), .getPart get1 (toyRnd 2), .sign b1, .getPart get3 (toyRnd 3)] ∧
    ∀ bs r k, (CosOp.sign bs, Out.ok (CosResp.signed r)) ∈ tr → r.nonce ≠ none → unpackHRST bs = .ok k →
      ¬ get3.key.hrs ≺ k.hrs := by
  refine ⟨_, _, exec_run toy toyCfg (CState.start .empty)
    [.getPart get3 (toyRnd 1), .getPart get1 (toyRnd 2), .sign b1, .getPart get3 (toyRnd 3)] (by decide +kernel),
    by decide +kernel, ?_⟩
  intro bs r k hm _ hu
  have : bs = b1 := by
    have h2 : (CosOp.sign bs) ∈ (exec toy toyCfg (CState.start .empty)
      [.getPart get3 (toyRnd 1), .getPart get1 (toyRnd 2), .sign b1, .getPart get3 (toyRnd 3)]).1.map (·.1) :=
      List.mem_map.2 ⟨_, hm, rfl⟩
    rw [show (exec toy toyCfg (CState.start .empty)
      [.getPart get3 (toyRnd 1), .getPart get1 (toyRnd 2), .sign b1, .getPart get3 (toyRnd 3)]).1.map (·.1) =
      [.getPart get3 (toyRnd 1), .getPart get1 (toyRnd 2), .sign b1, .getPart get3 (toyRnd 3)] by decide +kernel] at h2
    simpa using h2
  subst this
  have h3 : unpackHRST b1 = .ok get1.key := by decide +kernel
  rw [h3] at hu; cases hu
  decide +kernel

/-- The randomness of a call. -/
def CosOp.rnd? : CosOp → Option Rand
  | .getPart _ r => some r
  | .setPart _ r => some r
  | _ => none

/-- Every record for this height, round and step was made by one of the calls. -/
def MadeBy (C : Crypto) (cfg : CosignerCfg) (b : HRS) (calls : List (CosOp × Out CosResp)) (s : CState) : Prop :=
  ∀ k ref m, k.hrs = b → s.hrsMeta k = some ref → s.heap[ref]? = some m →
    ∃ c ∈ calls, ∃ r, c.1.rnd? = some r ∧ r.secret = some m.secret ∧
      m.dealtShares = C.dealShares m.secret r.deal cfg.threshold cfg.total

theorem MadeBy.mono {b : HRS} {l l' : List (CosOp × Out CosResp)} {s : CState} (h : MadeBy C cfg b l s)
    (hs : ∀ c ∈ l, c ∈ l') : MadeBy C cfg b l' s := fun k ref m h1 h2 h3 =>
  let ⟨c, hc, r, g⟩ := h k ref m h1 h2 h3
  ⟨c, hs c hc, r, g⟩

theorem part_made {s s' : CState} {k kd : HRST} {rnd : Rand} {W : Meta → Int → PeerMeta → Prop} (hok : s.Ok)
    (h : PartStep C cfg s k kd rnd W s') (hkd : kd.hrs = k.hrs) {b : HRS} {l : List (CosOp × Out CosResp)}
    {c : CosOp × Out CosResp} (hc : c.1.rnd? = some rnd) (hm : MadeBy C cfg b l s) : MadeBy C cfg b (c :: l) s' := by
  have old : ∀ k' ref m', k'.hrs = b → s.hrsMeta k' = some ref → s'.heap[ref]? = some m' →
      ∃ c' ∈ c :: l, ∃ r, c'.1.rnd? = some r ∧ r.secret = some m'.secret ∧
        m'.dealtShares = C.dealShares m'.secret r.deal cfg.threshold cfg.total := by
    intro k' ref m' h1 h2 h3
    have hr := hok k' ref h2
    obtain ⟨m'', g1, g2, g3, _⟩ := h.maps.2.2 ref _ (List.getElem?_eq_getElem hr)
    rw [h3] at g1; cases g1
    obtain ⟨c', hc', r, e1, e2, e3⟩ := hm k' ref _ h1 h2 (List.getElem?_eq_getElem hr)
    exact ⟨c', List.mem_cons_of_mem _ hc', r, e1, by rw [g2]; exact e2, by rw [g3, g2]; exact e3⟩
  intro k' ref m' h1 h2 h3
  rcases h.maps.2.1 k' ref h2 with g | ⟨rfl, _, g⟩ | ⟨_, g0, g1, rfl, g2⟩
  · exact old k' ref m' h1 g h3
  · exact old kd ref m' (hkd.trans h1) g h3
  · refine ⟨c, List.mem_cons_self .., rnd, hc, ?_⟩
    rcases h with rfl | ⟨ref, s1, hmf, h⟩
    · omega
    obtain ⟨_, _, _, h4⟩ := metaFor_maps hmf
    have hlen : s'.heap.length = s1.heap.length := by
      rcases h with rfl | ⟨_, _, _, _, _, hs⟩
      · rfl
      · exact (setSlot_maps hs).2.1
    rcases h4 with h4 | ⟨sec, e1, e2, e3⟩
    · rw [h4] at hlen; omega
    have hs1 : s1.heap[s.heap.length]? = some (newMeta C cfg sec rnd) := by rw [e3]; simp
    have : m'.secret = sec ∧ m'.dealtShares = (newMeta C cfg sec rnd).dealtShares := by
      rcases h with rfl | ⟨_, _, _, _, _, hs⟩
      · rw [hs1] at h3; cases h3; exact ⟨rfl, rfl⟩
      · obtain ⟨m2, q1, q2, q3, _⟩ := (setSlot_maps hs).2.2.1 _ _ hs1
        rw [h3] at q1; cases q1; exact ⟨q2, q3⟩
    rw [this.1, this.2]
    exact ⟨e1, rfl⟩

theorem step_made {s s' : CState} {op : CosOp} {out : Out CosResp} (hok : s.Ok) (h : s.step C cfg op = (out, s')) {b : HRS}
    {l : List (CosOp × Out CosResp)} (hm : MadeBy C cfg b l s) : MadeBy C cfg b ((op, out) :: l) s' := by
  have keep : ∀ c : CosOp × Out CosResp, MadeBy C cfg b (c :: l) s := fun c => hm.mono fun _ => List.mem_cons_of_mem _
  rcases step_cases h with ⟨req, rnd, rfl, hp⟩ | ⟨req, rnd, rfl, _, hp⟩ | ⟨bs, r, k', _, _, e1, e2, hf⟩ |
    ⟨_, _, _, _, _, hc⟩ | ⟨_, _, _, rfl⟩ | ⟨_, _, rfl, _⟩
  · exact part_made hok hp rfl rfl hm
  · exact part_made hok hp rfl rfl hm
  · intro k ref m h1 h2 h3
    rw [hf.pruned] at h2
    rw [hf.heap] at h3
    split at h2
    · cases h2
    · exact keep _ k ref m h1 h2 h3
  · rw [hc.state]; exact keep _
  · exact keep _
  · exact keep _

theorem run_made {s s' : CState} {tr : List (CosOp × Out CosResp)} (h : Run C cfg s tr s') (hok : s.Ok) {b : HRS} :
    ∀ l, MadeBy C cfg b l s → MadeBy C cfg b (tr.reverse ++ l) s' := by
  induction h with
  | nil => intro l hl; simpa using hl
  | cons hs _ _ ih =>
    intro l hl
    simpa using ih (step_ok hs hok) _ (step_made hok hs hl)

/-- C17, why not in general: once something above the block is signed, the parts asked for after that come from a deal that a
call after the signature has made, with its own randomness. -/
theorem C17_new_deal (l : SignState) (s : CState) (l1 l2 l3 : List (CosOp × Out CosResp)) (bs : Bytes) (r : SignRes) (k : HRST)
    (req : GetPartReq) (rnd : Rand) (p : SecretPart)
    (hrun : Run C cfg (CState.start l) (l1 ++ (CosOp.sign bs, Out.ok (CosResp.signed r)) :: (l2 ++
      (CosOp.getPart req rnd, Out.ok (CosResp.part p)) :: l3)) s)
    (hu : unpackHRST bs = .ok k) (hfresh : r.nonce ≠ none) (hk : req.key.hrs ≺ k.hrs) :
    ∃ c ∈ l2 ++ [(CosOp.getPart req rnd, Out.ok (CosResp.part p))], ∃ r0 secret, c.1.rnd? = some r0 ∧
      r0.secret = some secret ∧ PartOf C cfg secret (C.dealShares secret r0.deal cfg.threshold cfg.total) p := by
  obtain ⟨s1, hr1, hr⟩ := hrun.split
  have hok1 : s1.Ok := run_ok hr1 (start_ok l)
  cases hr with
  | @cons _ s2 _ _ _ _ hst hne hr =>
    obtain ⟨s3, hr2, hr3⟩ := hr.split
    have hok2 := step_ok hst hok1
    cases hr3 with
    | cons hst' _ _ =>
      have h0 : MadeBy C cfg req.key.hrs [] s2 := by
        intro k' ref m h1 h2 h3
        exfalso
        have hsg : sign C cfg s1 bs = (.ok r, s2) := step_sign hst
        have := (C18_prune C cfg s1 s2 bs r k hsg hu hfresh k').1 (by rw [h1]; exact hk)
        rw [this] at h2; cases h2
      have h3 := run_made hr2 hok2 [] h0
      have hok3 := run_ok hr2 hok2
      have h4 := step_made hok3 hst' h3
      obtain ⟨_, sec, d, ⟨ref, m, g1, g2, rfl, rfl⟩, g4, _⟩ := getPart_partOf (step_getPart hst')
      obtain ⟨c, hc, r0, q1, q2, q3⟩ := h4 req.key ref m rfl g1 g2
      refine ⟨c, ?_, r0, m.secret, q1, q2, by rw [← q3]; exact g4⟩
      simp only [List.append_nil, List.mem_cons, List.mem_reverse, List.mem_append, List.not_mem_nil, or_false] at hc ⊢
      exact hc.symm

/-- The run of `C17_interleaved_fails` has such a signature. -/
example : ((exec toy toyCfg (CState.start .empty)
      [.getPart get1 (toyRnd 1), .getPart get3 (toyRnd 9), .sign b3, .getPart get1 (toyRnd 2)]).1[2]?.any fun
        | (.sign b, .ok (.signed r)) => b = b3 && r.nonce.isSome
        | _ => false) = true ∧ unpackHRST b3 = .ok get3.key ∧ get1.key.hrs ≺ get3.key.hrs :=
  ⟨by decide +kernel, by decide +kernel, by decide +kernel⟩

/-- C17 with other calls in between (full statement) is false: a signature one height up in the middle of a get-parts
call makes the remaining parts come from a second deal. -/
theorem C17_interleaved_fails : ∃ tr s p p', Run toy toyCfg (CState.start .empty) tr s ∧
    (CosOp.getPart get1 (toyRnd 1), Out.ok (CosResp.part p)) ∈ tr ∧
    (CosOp.getPart get1 (toyRnd 2), Out.ok (CosResp.part p')) ∈ tr ∧
    p.ephemeralPublic ≠ p'.ephemeralPublic := by
  have hrun := exec_run toy toyCfg (CState.start .empty)
      [.getPart get1 (toyRnd 1), .getPart get3 (toyRnd 9), .sign b3, .getPart get1 (toyRnd 2)] (by decide +kernel)
  generalize hx : exec toy toyCfg (CState.start .empty)
      [.getPart get1 (toyRnd 1), .getPart get3 (toyRnd 9), .sign b3, .getPart get1 (toyRnd 2)] = x at hrun
  obtain ⟨p, h1, h2⟩ := partCheck_spec (tr := x.1) (i := 0) (req := get1) (rnd := toyRnd 1)
    (q := fun p => decide (p.ephemeralPublic = some (List.replicate 32 1))) (by rw [← hx]; decide +kernel)
  obtain ⟨p', h1', h2'⟩ := partCheck_spec (tr := x.1) (i := 3) (req := get1) (rnd := toyRnd 2)
    (q := fun p => decide (p.ephemeralPublic = some (List.replicate 32 2))) (by rw [← hx]; decide +kernel)
  simp only [decide_eq_true_eq] at h2 h2'
  exact ⟨_, _, p, p', hrun, h1, h1', by rw [h2, h2']; decide⟩

end Horcrux
