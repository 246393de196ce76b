import Verif.Spec.NoConflict
import Verif.Lemmas.Sequence
import Verif.Props.Known
/-
What a sign request does to the cosigners' records and to the records that the validators know.
-/
namespace Horcrux
open Spec

variable {C : Crypto} {vcfg : ValidatorCfg} {cfg : Nat → CosignerCfg} {n : Nat}

/-- `b` is `a` or a later one, with the same bytes if for the same block. -/
def Later (a b : SignState) : Prop := a.hrs ≼ b.hrs ∧ (b.hrs = a.hrs → b.signBytes = a.signBytes)

theorem Later.refl (a : SignState) : Later a a := ⟨HRS.le_refl _, fun _ => rfl⟩

/-- A cosigner that has signed `bs` for the block `k`: it does not sign anything else for it. -/
def Bound (k : HRS) (bs : Bytes) (l : SignState) : Prop :=
  k ≼ l.hrs ∧ (l.hrs = k → ∃ b0, l.signBytes = some b0 ∧ DifferOnlyByTime k.step b0 bs)

theorem Bound.later {k : HRS} {bs : Bytes} {l l' : SignState} (h : Bound k bs l) (hl : Later l l') : Bound k bs l' := by
  refine ⟨HRS.le_trans h.1 hl.1, fun he => ?_⟩
  have h1 : l.hrs = k := HRS.le_antisymm (he ▸ hl.1) h.1
  rw [hl.2 (he.trans h1.symm)]
  exact h.2 h1

theorem step_later (c : CosignerCfg) (s : CState) (op : CosOp) : Later s.lss (s.step C c op).2.lss :=
  have h := step_lss (C := C) (cfg := c) (s := s) (op := op) (out := _) rfl
  ⟨h.1, fun e => (h.2 e).1⟩

theorem setPartsAndSign_later (c : CosignerCfg) (k : HRST) (bs : Bytes) (parts : List SecretPart) (rnd : Nat → Rand) (s : CState) :
    Later s.lss (setPartsAndSign C c k bs parts rnd s).2.lss := by
  obtain ⟨s1, h1, h2 | ⟨h2, _⟩⟩ := setPartsAndSign_dealt (C := C) (cfg := c) (k := k) (bs := bs) parts rnd s
  · rw [h2, ← h1.lss]
    exact step_later c s1 (.sign bs)
  · rw [h2, h1.lss]; exact .refl _

theorem setPartsAndSign_bound {c : CosignerCfg} {k k' : HRST} {bs : Bytes} {parts : List SecretPart} {rnd : Nat → Rand}
    {s : CState} {r : SignRes} (h : (setPartsAndSign C c k bs parts rnd s).1 = .ok r) (hu : unpackHRST bs = .ok k') :
    (setPartsAndSign C c k bs parts rnd s).2.lss.hrs = k'.hrs ∧
      Bound k'.hrs bs (setPartsAndSign C c k bs parts rnd s).2.lss := by
  obtain ⟨s1, h1, h2 | ⟨_, h2⟩⟩ := setPartsAndSign_dealt (C := C) (cfg := c) (k := k) (bs := bs) parts rnd s
  · rw [h2] at h ⊢
    have hs : sign C c s1 bs = (.ok r, (sign C c s1 bs).2) := Prod.ext h rfl
    rcases sign_ok_cases hs with ⟨k2, hc⟩ | ⟨k2, ref, m, hf⟩
    · have := hc.unpack; rw [hu] at this; cases this
      rw [hc.state]
      exact ⟨hc.hrs, .inl hc.hrs.symm, fun _ => ⟨bs, hc.bytes, .refl_of_unpack hu⟩⟩
    · have := hf.unpack; rw [hu] at this; cases this
      refine ⟨hf.hrs, .inl hf.hrs.symm, fun _ => ?_⟩
      rcases hf.le with he | hlt
      · obtain ⟨h1, b0, h2, _, h3⟩ := hf.again he
        exact ⟨b0, by rw [h1]; exact h2, h3⟩
      · exact ⟨bs, (hf.advance hlt).1, .refl_of_unpack hu⟩
  · exact absurd h (h2 r)

theorem roundShares_later (ps : List Nat) (leader : Nat) (k : HRST) (bs : Bytes) (order : Nat → List Int)
    (mapOrder : Nat → List Nat) (rnd1 rnd2 : Nat → Nat → Rand) (st : Nat → CState) (p : Nat) :
    Later (st p).lss ((roundShares C cfg ps leader n k bs order mapOrder rnd1 rnd2 st).2 p).lss := by
  unfold roundShares
  simp only
  split
  · have h1 := (getParts_dealt (C := C) (cfg := cfg p) (k := k) (order p) (rnd1 p) (st p)).lss
    rw [← h1]
    exact setPartsAndSign_later _ _ _ _ _ _
  · exact .refl _

/-- A round that gives a signature over `bs` binds at least a threshold of cosigners to `bs`. -/
theorem roundShares_bound {t : Nat} {ps : List Nat} {leader : Nat} {k k' : HRST} {bs pub : Bytes} {order : Nat → List Int}
    {mapOrder : Nat → List Nat} {rnd1 rnd2 : Nat → Nat → Rand} {st : Nat → CState} {sig : Bytes}
    (h : assemble C t pub bs (roundShares C cfg ps leader n k bs order mapOrder rnd1 rnd2 st).1.1
      (roundShares C cfg ps leader n k bs order mapOrder rnd1 rnd2 st).1.2 = .ok sig) (hu : unpackHRST bs = .ok k') :
    ∃ S : Finset Nat, S ⊆ Finset.Icc 1 n ∧ t ≤ S.card ∧ ∀ p ∈ S,
      ((roundShares C cfg ps leader n k bs order mapOrder rnd1 rnd2 st).2 p).lss.hrs = k'.hrs ∧
      Bound k'.hrs bs ((roundShares C cfg ps leader n k bs order mapOrder rnd1 rnd2 st).2 p).lss := by
  have key : ∀ i ∈ (collectSigs 0 (roundShares C cfg ps leader n k bs order mapOrder rnd1 rnd2 st).1.1).1, 1 ≤ i ∧ i ≤ n ∧
      ((roundShares C cfg ps leader n k bs order mapOrder rnd1 rnd2 st).2 i).lss.hrs = k'.hrs ∧
      Bound k'.hrs bs ((roundShares C cfg ps leader n k bs order mapOrder rnd1 rnd2 st).2 i).lss := by
    intro i hi
    obtain ⟨h1, b, hb, hb0⟩ := (collectSigs_ids _ 0).2 i hi
    simp only [roundShares, shareArray, Nat.sub_zero, List.getElem?_map] at hb
    cases hr : (List.range n)[i - 1]? with
    | none => rw [hr] at hb; cases hb
    | some j =>
      obtain ⟨hj, hj'⟩ := List.getElem?_eq_some_iff.1 hr
      simp only [List.length_range] at hj
      simp only [List.getElem_range] at hj'
      subst hj'
      rw [hr] at hb
      simp only [Option.map_some, Option.some.injEq] at hb
      have e : i - 1 + 1 = i := by omega
      rw [e] at hb
      refine ⟨by omega, by omega, ?_⟩
      split at hb
      · next hp =>
        split at hb
        · next r hr' =>
          have := setPartsAndSign_bound hr' hu
          simp only [roundShares, if_pos hp]
          exact this
        · subst hb; exact absurd rfl hb0
      · subst hb; exact absurd rfl hb0
  unfold assemble at h
  simp only at h
  split at h
  · cases h
  · next hlen =>
    refine ⟨(collectSigs 0 (roundShares C cfg ps leader n k bs order mapOrder rnd1 rnd2 st).1.1).1.toFinset, ?_, ?_, ?_⟩
    · intro i hi
      obtain ⟨h1, h2, _⟩ := key i (List.mem_toFinset.1 hi)
      exact Finset.mem_Icc.2 ⟨h1, h2⟩
    · rw [List.toFinset_card_of_nodup (collectSigs_ids _ 0).1]
      omega
    · intro i hi
      exact (key i (List.mem_toFinset.1 hi)).2.2

/-- What a sign request does. -/
inductive Did (C : Crypto) (pub : Bytes) (t n : Nat) (s : Sys) (q : Req) : VOut × Sys → Prop where
  /-- nothing is made; a success is the record of the block -/
  | old (o : VOut) (s' : Sys) (hl : ∀ p, (s'.vs p).lss = (s.vs p).lss) (he : ∀ p, (s'.vs p).emitted = (s.vs p).emitted)
      (hcs : ∀ p, Later (s.cs p).lss (s'.cs p).lss)
      (ho : ∀ id b sig stamp, o = .ret id b sig stamp none →
        stamp = q.block.timestamp ∧ existingSignature (s.vs q.leader).lss q.block = .ok sig) :
      Did C pub t n s q (o, s')
  /-- a signature is made -/
  | new (sig : Bytes) (s' : Sys) (S : Finset Nat) (hv : C.verify pub q.block.signBytes sig = true)
      (hS : S ⊆ Finset.Icc 1 n) (ht : t ≤ S.card) (hcs : ∀ p, Later (s.cs p).lss (s'.cs p).lss)
      (hb : ∀ p ∈ S, (s'.cs p).lss.hrs = q.block.hrs ∧ Bound q.block.hrs q.block.signBytes (s'.cs p).lss)
      (hl : (s'.vs q.leader).lss = ((s.vs q.leader).lss.save (q.block.record sig)).2)
      (he : (s'.vs q.leader).emitted = (s.vs q.leader).emitted ++ [q.block.record sig])
      (hp : ∀ p, p ≠ q.leader → s'.vs p = s.vs p) :
      Did C pub t n s q (.ret q.id q.block (some sig) q.block.timestamp none, s')

theorem signBlock_did {t : Nat} (hV : vcfg.threshold = t) (s : Sys) (q : Req)
    (hq : unpackHRST q.block.signBytes = .ok q.block.key) :
    Did C vcfg.pubKey t n s q (s.signBlock C vcfg cfg n q) := by
  have hb := begin_begun (C := C) (vcfg := vcfg) (s.vs q.leader) q.id q.block
  obtain ⟨hem, _, _⟩ := begin_quiet (C := C) (vcfg := vcfg) (s.vs q.leader) q.id q.block
  unfold Sys.signBlock
  generalize (s.vs q.leader).begin C vcfg q.id q.block = x at hb hem
  have same : ∀ v' : VState, v'.lss = (s.vs q.leader).lss → v'.emitted = (s.vs q.leader).emitted →
      (∀ p, (if p = q.leader then v' else s.vs p).lss = (s.vs p).lss) ∧
      ∀ p, (if p = q.leader then v' else s.vs p).emitted = (s.vs p).emitted := by
    intro v' h1 h2
    constructor <;> intro p <;> split
    · next hp => rw [hp]; exact h1
    · rfl
    · next hp => rw [hp]; exact h2
    · rfl
  cases hb with
  | tau v' hl => exact .old _ _ (same v' hl hem).1 (same v' hl hem).2 (fun p => .refl _) (by simp)
  | refused e v' hl => exact .old _ _ (same v' hl hem).1 (same v' hl hem).2 (fun p => .refl _) (by simp)
  | known sig v' hl he =>
    refine .old _ _ (same v' hl hem).1 (same v' hl hem).2 (fun p => .refl _) ?_
    intro id b sg stamp ho
    simp only [VOut.ret.injEq] at ho
    obtain ⟨_, _, rfl, rfl, _⟩ := ho
    exact ⟨rfl, he⟩
  | start again v' hl hc =>
    simp only
    have hm := roundShares_later (C := C) (cfg := cfg) (n := n) q.ps q.leader q.block.key q.block.signBytes q.order q.mapOrder
      q.rnd1 q.rnd2 s.cs
    obtain ⟨_, _, h3⟩ := assembleAndSave_cases (C := C) (vcfg := vcfg) v' q.id q.block hc
        (roundShares C cfg q.ps q.leader n q.block.key q.block.signBytes q.order q.mapOrder q.rnd1 q.rnd2 s.cs).1.1
        (roundShares C cfg q.ps q.leader n q.block.key q.block.signBytes q.order q.mapOrder q.rnd1 q.rnd2 s.cs).1.2
    have h4 := assembleAndSave_lss (C := C) (vcfg := vcfg) v' q.id q.block hc
        (roundShares C cfg q.ps q.leader n q.block.key q.block.signBytes q.order q.mapOrder q.rnd1 q.rnd2 s.cs).1.1
        (roundShares C cfg q.ps q.leader n q.block.key q.block.signBytes q.order q.mapOrder q.rnd1 q.rnd2 s.cs).1.2
    rcases h3 with ⟨sig, hv, ho, hl', he⟩ | ⟨ho, hl', he⟩
    · rcases h4 with ⟨sig', ha, ho', _⟩ | ⟨ho', _⟩
      · rw [ho] at ho'
        simp only [VOut.ret.injEq, Option.some.injEq] at ho'
        obtain ⟨_, _, rfl, _⟩ := ho'
        rw [hV] at ha
        obtain ⟨S, hS, ht, hsg⟩ := roundShares_bound ha hq
        rw [ho]
        refine .new sig _ S hv hS ht hm hsg ?_ ?_ ?_
        · simp only [if_true]; rw [hl', hl]
        · simp only [if_true]; rw [he]; exact congrArg (· ++ _) hem
        · intro p hp; simp [hp]
      · exact absurd ho (ho' _ _ _ _)
    · refine .old _ _ (same _ (hl'.trans hl) (he.trans hem)).1 (same _ (hl'.trans hl) (he.trans hem)).2 hm ?_
      intro id b sg stamp h
      exact absurd h (ho _ _ _ _)

/-- The state of a cluster in which `M` is what was signed for the block `k`, and `K` are the records in use. -/
structure Safe (C : Crypto) (pub : Bytes) (n t : Nat) (faulty : Finset Nat) (k : HRS) (M : Bytes → Prop) (K : SSC → Prop)
    (s : Sys) : Prop where
  bound : ∀ bs, M bs → ∃ S : Finset Nat, S ⊆ Finset.Icc 1 n ∧ t ≤ S.card ∧ ∀ p ∈ S, p ∉ faulty → Bound k bs (s.cs p).lss
  agree : ∀ bs bs', M bs → M bs' → DifferOnlyByTime k.step bs bs'
  recs : ∀ r, K r → ∀ sig, r.signature = some sig →
    C.verify pub r.signBytes.bytes sig = true ∧ (r.hrs = k → M r.signBytes.bytes)
  knows : Knows K s

theorem Knows.weaken {K K' : SSC → Prop} {s : Sys} (h : Knows K s) (hK : ∀ r, K r → K' r) : Knows K' s :=
  fun p => ⟨fun a r hc => ⟨((h p).1 a r hc).1, hK _ ((h p).1 a r hc).2⟩, fun r hr => hK _ ((h p).2 r hr)⟩

/-- What was given as the answer to a request for the block `b`. -/
def GivenFor (C : Crypto) (pub : Bytes) (k : HRS) (M : Bytes → Prop) (b : Block) (o : VOut) : Prop :=
  ∀ id b' sig stamp, o = .ret id b' (some sig) stamp none →
    stamp = b.timestamp ∧ ∃ bs, C.verify pub bs sig = true ∧ (b.hrs = k → M bs) ∧ (b.step ≠ stepPropose → bs = b.signBytes)

theorem Safe.sign {t f : Nat} (hnt : n + f < 2 * t) {pub : Bytes} {faulty : Finset Nat} (hf : faulty.card ≤ f) {k : HRS}
    {M : Bytes → Prop} {K : SSC → Prop} {s : Sys} (h : Safe C pub n t faulty k M K s) {q : Req}
    (hq : unpackHRST q.block.signBytes = .ok q.block.key) {x : VOut × Sys} (hx : Did C pub t n s q x) :
    ∃ M' : Bytes → Prop, (∀ bs, M bs → M' bs) ∧
      Safe C pub n t faulty k M' (fun r => K r ∨ ∃ p, r ∈ (x.2.vs p).emitted) x.2 ∧ GivenFor C pub k M' q.block x.1 := by
  have keep : ∀ s' : Sys, (∀ p, Later (s.cs p).lss (s'.cs p).lss) → ∀ bs, M bs →
      ∃ S : Finset Nat, S ⊆ Finset.Icc 1 n ∧ t ≤ S.card ∧ ∀ p ∈ S, p ∉ faulty → Bound k bs (s'.cs p).lss := by
    intro s' hl bs hb
    obtain ⟨S, h1, h2, h3⟩ := h.bound bs hb
    exact ⟨S, h1, h2, fun p hp hpf => (h3 p hp hpf).later (hl p)⟩
  cases hx with
  | old o s' hl he hcs ho =>
    have hk : Knows K s' := fun p => by rw [hl, he]; exact h.knows p
    refine ⟨M, fun _ h => h, ⟨keep s' hcs, h.agree, ?_, hk.weaken (fun _ => .inl)⟩, ?_⟩
    · rintro r (hr | ⟨p, hr⟩)
      · exact h.recs r hr
      · exact h.recs r ((hk p).2 r hr)
    · intro id b' sig stamp hr
      obtain ⟨h1, h2⟩ := ho _ _ _ _ hr
      obtain ⟨r, hc, hsig, hor⟩ := existing_ok_some h2
      obtain ⟨hrs, hkr⟩ := (h.knows _).1 _ _ hc
      obtain ⟨hv, hm⟩ := h.recs r hkr sig hsig
      refine ⟨h1, _, hv, fun hk => hm (hrs.trans hk), fun hne => ?_⟩
      rcases hor with h | h
      · exact absurd h hne
      · exact h.symm
  | new sig s' S hv hS ht hcs hb hl he hp =>
    refine ⟨fun bs => M bs ∨ (q.block.hrs = k ∧ bs = q.block.signBytes), fun _ => .inl, ⟨?_, ?_, ?_, ?_⟩, ?_⟩
    · rintro bs (h1 | ⟨rfl, rfl⟩)
      · exact keep s' hcs bs h1
      · exact ⟨S, hS, ht, fun p hp _ => (hb p hp).2⟩
    · have key : ∀ bs, M bs → q.block.hrs = k → DifferOnlyByTime k.step bs q.block.signBytes := by
        rintro bs h1 rfl
        obtain ⟨S1, g1, g2, g3⟩ := keep s' hcs bs h1
        obtain ⟨i, i1, i2, i3⟩ := quorum_intersect n t f hnt S1 S faulty g1 hS hf g2 ht
        obtain ⟨he', _, hb'⟩ := hb i i2
        obtain ⟨b0, e1, e2⟩ := hb' he'
        obtain ⟨b1, e3, e4⟩ := (g3 i i1 i3).2 he'
        rw [e1] at e3
        cases e3
        exact e4.symm.trans e2
      rintro bs bs' (h1 | ⟨h1, rfl⟩) (h2 | ⟨h2, rfl⟩)
      · exact h.agree _ _ h1 h2
      · exact key bs h1 h2
      · exact (key bs' h2 h1).symm
      · subst h1; exact .refl_of_unpack hq
    · rintro r (hr | ⟨p, hr⟩)
      · intro sg hsg
        exact ⟨(h.recs r hr sg hsg).1, fun e => .inl ((h.recs r hr sg hsg).2 e)⟩
      · by_cases h' : p = q.leader
        · subst h'
          simp only at hr
          rw [he, List.mem_append, List.mem_singleton] at hr
          rcases hr with hr | rfl
          · intro sg hsg
            have := h.recs r ((h.knows _).2 r hr) sg hsg
            exact ⟨this.1, fun e => .inl (this.2 e)⟩
          · intro sg hsg
            simp only [Block.record, Option.some.injEq] at hsg
            subst hsg
            exact ⟨hv, fun e => .inr ⟨e, rfl⟩⟩
        · simp only at hr
          rw [hp p h'] at hr
          intro sg hsg
          have := h.recs r ((h.knows _).2 r hr) sg hsg
          exact ⟨this.1, fun e => .inl (this.2 e)⟩
    · intro p
      by_cases h' : p = q.leader
      · subst h'
        refine ⟨?_, fun r h => .inr ⟨_, h⟩⟩
        simp only
        rw [hl]
        refine save_knows (fun a r hc => ⟨((h.knows _).1 a r hc).1, .inl ((h.knows _).1 a r hc).2⟩) (.inr ⟨q.leader, ?_⟩)
        rw [he]; simp
      · simp only
        rw [hp p h']
        exact ⟨fun a r hc => ⟨((h.knows p).1 a r hc).1, .inl ((h.knows p).1 a r hc).2⟩, fun r hr => .inl ((h.knows p).2 r hr)⟩
    · intro id b' sg stamp hr
      simp only [VOut.ret.injEq, Option.some.injEq] at hr
      obtain ⟨_, _, rfl, rfl, _⟩ := hr
      exact ⟨rfl, _, hv, fun e => .inr ⟨e, rfl⟩, fun _ => rfl⟩

/-- Everything else that happens. -/
theorem Safe.other {t : Nat} {pub : Bytes} {faulty : Finset Nat} {k : HRS} {M : Bytes → Prop} {K : SSC → Prop} {s : Sys}
    (h : Safe C pub n t faulty k M K s) {e : SysEv} (hs : ∀ q, e ≠ .sign q) (hd : ∀ p r, e = .deliver p r → K r)
    (hr : ∀ p lv lc, e = .restart p lv lc →
      (∀ h r, lv.cache h = some r → r.hrs = h ∧ K r) ∧ (p ∉ faulty → FileHolds k (s.cs p).lss lc)) :
    Safe C pub n t faulty k M (fun r => K r ∨ ∃ p, r ∈ ((s.step C vcfg cfg n e).2.vs p).emitted) (s.step C vcfg cfg n e).2 := by
  have hk : Knows K (s.step C vcfg cfg n e).2 := by
    intro p
    cases e with
    | sign q => exact absurd rfl (hs q)
    | deliver j r =>
      simp only [Sys.step]
      split
      · next h' => subst h'; exact ⟨save_knows (h.knows p).1 (hd _ _ rfl), (h.knows p).2⟩
      · exact h.knows p
    | other j op => exact h.knows p
    | restart j lv lc =>
      simp only [Sys.step]
      split
      · exact ⟨(hr _ _ _ rfl).1, by simp [VState.start]⟩
      · exact h.knows p
  refine ⟨?_, h.agree, ?_, hk.weaken (fun _ => .inl)⟩
  · intro bs hb
    obtain ⟨S, h1, h2, h3⟩ := h.bound bs hb
    refine ⟨S, h1, h2, fun p hp hpf => ?_⟩
    have h4 := h3 p hp hpf
    cases e with
    | sign q => exact absurd rfl (hs q)
    | deliver j r =>
      simp only [Sys.step]
      split
      · next h' => subst h'; exact h4.later (step_later _ _ _)
      · exact h4
    | other j op =>
      simp only [Sys.step]
      split
      · next h' => subst h'; exact h4.later (step_later _ _ _)
      · exact h4
    | restart j lv lc =>
      simp only [Sys.step]
      split
      · next h' =>
        subst h'
        rcases (hr _ _ _ rfl).2 hpf h4.1 with h5 | ⟨h5, h6, h7⟩
        · refine ⟨.inr h5, fun he => ?_⟩
          change lc.hrs = k at he
          rw [he] at h5; exact absurd h5 (HRS.lt_irrefl _)
        · refine ⟨.inl h5.symm, fun _ => ?_⟩
          obtain ⟨b0, e1, e2⟩ := h4.2 h6
          exact ⟨b0, h7.trans e1, e2⟩
      · exact h4
  · rintro r (hr' | ⟨p, hr'⟩)
    · exact h.recs r hr'
    · exact h.recs r ((hk p).2 r hr')

end Horcrux
