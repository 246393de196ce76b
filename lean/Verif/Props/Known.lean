import Verif.Spec.Known
import Verif.Lemmas.Sequence
import Verif.Props.Sequence
/-
Property C86.
-/
namespace Horcrux
open Spec

section
variable {C : Crypto} {vcfg : ValidatorCfg} {cfg : Nat → CosignerCfg} {n : Nat}

theorem wait_quiet (id : Nat) : ∀ (k : Nat) (v : VState), (v.wait C vcfg id k).2.emitted = v.emitted ∧
    (v.wait C vcfg id k).2.init = v.init ∧ ∀ i, i ≠ id → (v.wait C vcfg id k).2.calls i = v.calls i := by
  intro k
  induction k with
  | zero => intro v; exact ⟨rfl, rfl, fun _ _ => rfl⟩
  | succ k ih =>
    intro v
    unfold VState.wait
    cases hc : v.calls id with
    | none => exact ⟨rfl, rfl, fun _ _ => rfl⟩
    | some x =>
      obtain ⟨b, ph⟩ := x
      cases ph with
      | poll i =>
        simp only [VState.step, hc]
        cases he : existingSignature v.lss b with
        | ok sig =>
          cases sig with
          | none => exact ⟨rfl, rfl, fun i hi => by simp [VState.setPhase, hi]⟩
          | some sig => exact ⟨rfl, rfl, fun i hi => by simp [VState.finish, hi]⟩
        | error e =>
          cases e
          case stillWaiting =>
            simp only
            by_cases hi : i + 1 < 100
            · simp only [if_pos hi]
              obtain ⟨h1, h2, h3⟩ := ih (v.setPhase id b (.poll (i + 1)))
              exact ⟨h1, h2, fun j hj => (h3 j hj).trans (by simp [VState.setPhase, hj])⟩
            · simp only [if_neg hi]
              exact ⟨rfl, rfl, fun i hi => by simp [VState.finish, hi]⟩
          all_goals exact ⟨rfl, rfl, fun i hi => by simp [VState.finish, hi]⟩
      | lookup =>
        simp only [VState.step, hc]
        cases he : existingSignature v.lss b with
        | ok sig => exact ⟨rfl, rfl, fun i hi => by simp [VState.finish, hi]⟩
        | error e => exact ⟨rfl, rfl, fun i hi => by simp [VState.finish, hi]⟩
      | proxy => exact ⟨rfl, rfl, fun _ _ => rfl⟩
      | round => exact ⟨rfl, rfl, fun _ _ => rfl⟩
      | save s => exact ⟨rfl, rfl, fun _ _ => rfl⟩
      | emit s => exact ⟨rfl, rfl, fun _ _ => rfl⟩

theorem begin_quiet (v : VState) (id : Nat) (b : Block) : (v.begin C vcfg id b).2.emitted = v.emitted ∧
    (v.calls id = none → (v.begin C vcfg id b).2.init = (v.init.save (SSC.new b.height b.round b.step)).2) ∧
    ∀ i, i ≠ id → (v.begin C vcfg id b).2.calls i = v.calls i := by
  unfold VState.begin
  cases hc : v.calls id with
  | some x => exact ⟨rfl, by simp, fun _ _ => rfl⟩
  | none =>
    simp only [VState.step, hc]
    rcases hs : v.init.save (SSC.new b.height b.round b.step) with ⟨e, init'⟩
    cases e with
    | none => exact ⟨rfl, fun _ => rfl, fun i hi => by simp [VState.setPhase, hi]⟩
    | some e =>
      cases e
      case sameHRS =>
        obtain ⟨h1, h2, h3⟩ := wait_quiet (C := C) (vcfg := vcfg) id 100 ({ v with init := init' }.setPhase id b (.poll 0))
        exact ⟨h1, fun _ => h2, fun i hi => (h3 i hi).trans (by simp [VState.setPhase, hi])⟩
      all_goals
        obtain ⟨h1, h2, h3⟩ := wait_quiet (C := C) (vcfg := vcfg) id 100 ({ v with init := init' }.setPhase id b .lookup)
        exact ⟨h1, fun _ => h2, fun i hi => (h3 i hi).trans (by simp [VState.setPhase, hi])⟩

/-- The end of a round: a verified signature is given, recorded and sent to raft, or nothing of that. -/
theorem assembleAndSave_cases (v : VState) (id : Nat) (b : Block) (hc : v.calls id = some (b, .round)) (shares : List Bytes)
    (eph : Bytes) :
    (v.assembleAndSave C vcfg id shares eph).2.init = v.init ∧
    (∀ i, i ≠ id → (v.assembleAndSave C vcfg id shares eph).2.calls i = v.calls i) ∧
    ((∃ sig, C.verify vcfg.pubKey b.signBytes sig = true ∧
      (v.assembleAndSave C vcfg id shares eph).1 = .ret id b (some sig) b.timestamp none ∧
      (v.assembleAndSave C vcfg id shares eph).2.lss = (v.lss.save (b.record sig)).2 ∧
      (v.assembleAndSave C vcfg id shares eph).2.emitted = v.emitted ++ [b.record sig]) ∨
    ((∀ id' b' sig stamp, (v.assembleAndSave C vcfg id shares eph).1 ≠ .ret id' b' sig stamp none) ∧
      (v.assembleAndSave C vcfg id shares eph).2.lss = v.lss ∧
      (v.assembleAndSave C vcfg id shares eph).2.emitted = v.emitted)) := by
  unfold VState.assembleAndSave
  simp only [VState.step, hc]
  cases ha : assemble C vcfg.threshold vcfg.pubKey b.signBytes shares eph with
  | err e =>
    exact ⟨rfl, fun i hi => by simp [VState.finish, hi], .inr ⟨by simp, rfl, rfl⟩⟩
  | panic => simp [hc]
  | ok sig =>
    simp only [VState.setPhase, if_true]
    rcases hs : v.lss.save (b.record sig) with ⟨e, l'⟩
    cases e with
    | none =>
      refine ⟨by simp [VState.finish], fun i hi => by simp [VState.finish, hi], .inl ⟨sig, assemble_verifies ha, ?_⟩⟩
      simp [VState.finish, hs]
    | some e =>
      have hl' : l' = v.lss := by
        unfold SignState.save at hs
        split at hs
        · exact (congrArg Prod.snd hs).symm
        · cases hs
      cases e
      case sameHRS =>
        refine ⟨by simp [VState.finish], fun i hi => by simp [VState.finish, hi], .inl ⟨sig, assemble_verifies ha, ?_⟩⟩
        simp [VState.finish, hs]
      all_goals
        refine ⟨by simp [VState.finish], fun i hi => by simp [VState.finish, hi], .inr ⟨by simp, ?_⟩⟩
        simp [VState.finish, hl']

/-- A sign request at the node `q.leader`, whose validator was `v` and is now `v'`. -/
inductive Answered (C : Crypto) (pub : Bytes) (q : Req) (v v' : VState) (o : VOut) : Prop where
  /-- nothing new; a success is the record of the block -/
  | old (hl : v'.lss = v.lss) (he : v'.emitted = v.emitted)
      (ho : ∀ id b sig stamp, o = .ret id b sig stamp none → id = q.id ∧ b = q.block ∧ existingSignature v.lss q.block = .ok sig)
  /-- a new signature -/
  | new (sig : Bytes) (hv : C.verify pub q.block.signBytes sig = true)
      (ho : o = .ret q.id q.block (some sig) q.block.timestamp none) (hl : v'.lss = (v.lss.save (q.block.record sig)).2)
      (he : v'.emitted = v.emitted ++ [q.block.record sig])

theorem signBlock_answered (s : Sys) (q : Req) :
    Answered C vcfg.pubKey q (s.vs q.leader) ((s.signBlock C vcfg cfg n q).2.vs q.leader) (s.signBlock C vcfg cfg n q).1 ∧
    (∀ p, p ≠ q.leader → (s.signBlock C vcfg cfg n q).2.vs p = s.vs p) ∧
    ((s.vs q.leader).calls q.id = none → ((s.signBlock C vcfg cfg n q).2.vs q.leader).init =
      ((s.vs q.leader).init.save (SSC.new q.block.height q.block.round q.block.step)).2) ∧
    ∀ i, i ≠ q.id → ((s.signBlock C vcfg cfg n q).2.vs q.leader).calls i = (s.vs q.leader).calls i := by
  have hb := begin_begun (C := C) (vcfg := vcfg) (s.vs q.leader) q.id q.block
  obtain ⟨hq, hi, hcs⟩ := begin_quiet (C := C) (vcfg := vcfg) (s.vs q.leader) q.id q.block
  unfold Sys.signBlock
  generalize (s.vs q.leader).begin C vcfg q.id q.block = x at hb hq hi hcs
  cases hb with
  | tau v' hl =>
    simp only [if_true]
    exact ⟨.old hl hq (by simp), fun p hp => by simp [hp], hi, hcs⟩
  | refused e v' hl =>
    simp only [if_true]
    exact ⟨.old hl hq (by simp), fun p hp => by simp [hp], hi, hcs⟩
  | known sig v' hl he =>
    simp only [if_true]
    refine ⟨.old hl hq ?_, fun p hp => by simp [hp], hi, hcs⟩
    intro id b sg stamp ho
    simp only [VOut.ret.injEq] at ho
    obtain ⟨rfl, rfl, rfl, _⟩ := ho
    exact ⟨rfl, rfl, he⟩
  | start again v' hl hc =>
    simp only [if_true]
    obtain ⟨h1, h2, h3⟩ := assembleAndSave_cases (C := C) (vcfg := vcfg) v' q.id q.block hc
        (roundShares C cfg q.ps q.leader n q.block.key q.block.signBytes q.order q.mapOrder q.rnd1 q.rnd2 s.cs).1.1
        (roundShares C cfg q.ps q.leader n q.block.key q.block.signBytes q.order q.mapOrder q.rnd1 q.rnd2 s.cs).1.2
    refine ⟨?_, fun p hp => by simp [hp], fun h => h1.trans (hi h), fun i hi' => (h2 i hi').trans (hcs i hi')⟩
    rcases h3 with ⟨sig, hv, ho, hl', he⟩ | ⟨ho, hl', he⟩
    · exact .new sig hv ho (by rw [hl', hl]) (by rw [he]; exact congrArg (· ++ _) hq)
    · exact .old (hl'.trans hl) (he.trans hq) (fun id b sig stamp h => absurd h (ho id b sig stamp))

/-- The validators hold nothing but records in `K`, under their own blocks, and have sent nothing else to raft. -/
def Knows (K : SSC → Prop) (s : Sys) : Prop :=
  ∀ p, (∀ h r, (s.vs p).lss.cache h = some r → r.hrs = h ∧ K r) ∧ ∀ r ∈ (s.vs p).emitted, K r

theorem save_knows {K : SSC → Prop} {l : SignState} {r : SSC} (hl : ∀ h r, l.cache h = some r → r.hrs = h ∧ K r) (hr : K r) :
    ∀ h r', (l.save r).2.cache h = some r' → r'.hrs = h ∧ K r' := by
  intro h r' hc
  rcases save_cache_from hc with h1 | ⟨h1, h2⟩
  · exact hl h r' h1
  · subst h2; exact ⟨h1.symm, hr⟩

theorem step_knows {K : SSC → Prop} (hK : ∀ r, K r → GenuineRecord C vcfg.pubKey r) {s : Sys} (hs : Knows K s) {e : SysEv}
    (ho : OwnBytes e) (hd : ∀ p r, e = .deliver p r → K r)
    (hr : ∀ p lv lc, e = .restart p lv lc → ∀ h r, lv.cache h = some r → r.hrs = h ∧ K r) :
    (∀ r, (∃ p, r ∈ ((s.step C vcfg cfg n e).2.vs p).emitted) → GenuineRecord C vcfg.pubKey r) ∧
    Knows (fun r => K r ∨ ∃ p, r ∈ ((s.step C vcfg cfg n e).2.vs p).emitted) (s.step C vcfg cfg n e).2 := by
  cases e with
  | sign q =>
    obtain ⟨ha, hp, _, _⟩ := signBlock_answered (C := C) (vcfg := vcfg) (cfg := cfg) (n := n) s q
    simp only [Sys.step]
    generalize s.signBlock C vcfg cfg n q = x at ha hp
    have other : ∀ p, p ≠ q.leader → (∀ h r, (x.2.vs p).lss.cache h = some r → r.hrs = h ∧ K r) ∧
        ∀ r ∈ (x.2.vs p).emitted, K r := by
      intro p hne
      rw [hp p hne]
      exact hs p
    cases ha with
    | old hl he ho =>
      have all : Knows K x.2 := by
        intro p
        by_cases h : p = q.leader
        · subst h; rw [hl, he]; exact hs _
        · exact other p h
      exact ⟨fun r ⟨p, h⟩ => hK r ((all p).2 r h),
        fun p => ⟨fun h r hc => ⟨((all p).1 h r hc).1, .inl ((all p).1 h r hc).2⟩, fun r h => .inl ((all p).2 r h)⟩⟩
    | new sig hv ho' hl he =>
      constructor
      · rintro r ⟨p, h⟩
        by_cases h' : p = q.leader
        · subst h'
          rw [he, List.mem_append, List.mem_singleton] at h
          rcases h with h | rfl
          · exact hK r ((hs _).2 r h)
          · intro sg hsg
            simp only [Block.record, Option.some.injEq] at hsg
            subst hsg
            exact ⟨hv, _, ho, rfl⟩
        · exact hK r ((other p h').2 r h)
      · intro p
        by_cases h' : p = q.leader
        · subst h'
          refine ⟨?_, fun r h => .inr ⟨_, h⟩⟩
          rw [hl]
          refine save_knows (fun h r hc => ⟨((hs _).1 h r hc).1, .inl ((hs _).1 h r hc).2⟩) (.inr ⟨q.leader, ?_⟩)
          rw [he]; simp
        · exact ⟨fun h r hc => ⟨((other p h').1 h r hc).1, .inl ((other p h').1 h r hc).2⟩, fun r h => .inl ((other p h').2 r h)⟩
  | deliver j r =>
    have all : Knows K (s.step C vcfg cfg n (.deliver j r)).2 := by
      intro p
      simp only [Sys.step]
      split
      · next h => subst h; exact ⟨save_knows (hs p).1 (hd _ _ rfl), (hs p).2⟩
      · exact hs p
    exact ⟨fun r ⟨p, h⟩ => hK r ((all p).2 r h),
      fun p => ⟨fun h r hc => ⟨((all p).1 h r hc).1, .inl ((all p).1 h r hc).2⟩, fun r h => .inl ((all p).2 r h)⟩⟩
  | other j op =>
    exact ⟨fun r ⟨p, h⟩ => hK r ((hs p).2 r h),
      fun p => ⟨fun h r hc => ⟨((hs p).1 h r hc).1, .inl ((hs p).1 h r hc).2⟩, fun r h => .inl ((hs p).2 r h)⟩⟩
  | restart j lv lc =>
    have all : Knows K (s.step C vcfg cfg n (.restart j lv lc)).2 := by
      intro p
      simp only [Sys.step]
      split
      · exact ⟨hr _ _ _ rfl, by simp [VState.start]⟩
      · exact hs p
    exact ⟨fun r ⟨p, h⟩ => hK r ((all p).2 r h),
      fun p => ⟨fun h r hc => ⟨((all p).1 h r hc).1, .inl ((all p).1 h r hc).2⟩, fun r h => .inl ((all p).2 r h)⟩⟩

/-- What an answer with a signature says. -/
def SoundAnswer (C : Crypto) (pub : Bytes) (a : Req × VOut) : Prop :=
  ∀ id b sig stamp, a.2 = .ret id b (some sig) stamp none →
    ∃ bs k, C.verify pub bs sig = true ∧ unpackHRST bs = .ok k ∧ k.hrs = a.1.block.hrs ∧
      (a.1.block.step ≠ stepPropose → bs = a.1.block.signBytes)

theorem run_sound : ∀ (evs : List SysEv) (K : SSC → Prop) (s : Sys), (∀ r, K r → GenuineRecord C vcfg.pubKey r) → Knows K s →
    (∀ e ∈ evs, OwnBytes e) → OnlyBrings C vcfg cfg n K s evs → ∀ a ∈ (s.run C vcfg cfg n evs).1, SoundAnswer C vcfg.pubKey a
  | [], K, s, _, _, _, _ => by simp [Sys.run]
  | e :: evs, K, s, hK, hs, ho, hb => by
    obtain ⟨hd, hr, hb'⟩ := hb
    obtain ⟨h1, h2⟩ := step_knows (cfg := cfg) (n := n) hK hs (ho e (by simp)) hd hr
    have ih := run_sound evs _ _ (fun r h => h.elim (hK r) (h1 r)) h2 (fun e' he => ho e' (by simp [he])) hb'
    intro a ha
    simp only [Sys.run, List.mem_append, Option.mem_toList] at ha
    rcases ha with ha | ha
    · cases e with
      | sign q =>
        simp only [Sys.step, Option.some.injEq] at ha
        subst ha
        obtain ⟨ha, _⟩ := signBlock_answered (C := C) (vcfg := vcfg) (cfg := cfg) (n := n) s q
        generalize s.signBlock C vcfg cfg n q = x at ha
        intro id b sig stamp hx
        simp only at hx
        cases ha with
        | old hl he hold =>
          obtain ⟨_, _, he⟩ := hold _ _ _ _ hx
          obtain ⟨r, hc, hsig, hor⟩ := existing_ok_some he
          obtain ⟨hrs, hk⟩ := (hs _).1 _ _ hc
          obtain ⟨hv, k, hu, hk'⟩ := hK r hk sig hsig
          refine ⟨_, k, hv, hu, hk'.trans hrs, fun hne => ?_⟩
          rcases hor with h | h
          · exact absurd h hne
          · exact h.symm
        | new sg hv hnew hl he =>
          rw [hnew] at hx
          simp only [VOut.ret.injEq, Option.some.injEq] at hx
          obtain ⟨_, _, rfl, _⟩ := hx
          exact ⟨_, _, hv, (ho (.sign q) (by simp) : unpackHRST _ = _), rfl, fun _ => rfl⟩
      | deliver j r => simp [Sys.step] at ha
      | other j op => simp [Sys.step] at ha
      | restart j lv lc => simp [Sys.step] at ha
    · exact ih a ha

/-- C86, partial: in a cluster whose raft log and files bring nothing but genuine records and records that its nodes have
sent to raft themselves, every signature that is given verifies under the validator's public key over a message for the block
asked for, and for votes over the very bytes asked for. Missing: a raft log with other records (`C86_fails`). -/
theorem C86_partial (lv lc : Nat → SignState) (K : SSC → Prop) (hK : ∀ r, K r → GenuineRecord C vcfg.pubKey r)
    (hl : ∀ p h r, (lv p).cache h = some r → r.hrs = h ∧ K r) (evs : List SysEv) (ho : ∀ e ∈ evs, OwnBytes e)
    (hb : OnlyBrings C vcfg cfg n K (Sys.start lv lc) evs) (q : Req) (id : Nat) (b : Block) (sig : Bytes) (stamp : GoTime)
    (ha : (q, VOut.ret id b (some sig) stamp none) ∈ ((Sys.start lv lc).run C vcfg cfg n evs).1) :
    ∃ bs k, C.verify vcfg.pubKey bs sig = true ∧ unpackHRST bs = .ok k ∧ k.hrs = q.block.hrs ∧
      (q.block.step ≠ stepPropose → bs = q.block.signBytes) :=
  run_sound evs K _ hK (fun p => ⟨hl p, by simp [Sys.start, VState.start]⟩) ho hb _ ha _ _ _ _ rfl

/-- C86 is false: whatever bytes a raft event brings as the signature of a block above the watermark of a node, that node
gives them as the block's signature from the second request on. Nothing is checked, so this needs no assumption about the
bytes. -/
theorem C86_fails (lv lc : Nat → SignState) (b : Block) (junk : Bytes) (q1 q2 : Req) (h1 : q1.block = b) (h2 : q2.block = b)
    (hl : q1.leader = q2.leader) (hid : q1.id ≠ q2.id) (hw : (lv q2.leader).hrs ≺ b.hrs) (hb : -(2 ^ 63) + 3 ≤ b.height)
    (hb' : IsI64 b.height) :
    (q2, VOut.ret q2.id b (some junk) b.timestamp none) ∈
      ((Sys.start lv lc).run C vcfg cfg n
        [.deliver q2.leader ⟨b.height, b.round, b.step, some junk, some b.signBytes⟩, .sign q1, .sign q2]).1 := by
  set r : SSC := ⟨b.height, b.round, b.step, some junk, some b.signBytes⟩ with hr
  set s1 := ((Sys.start lv lc).step C vcfg cfg n (.deliver q2.leader r)).2 with hs1
  have e1 : (s1.vs q2.leader).lss = ((lv q2.leader).save r).2 := by simp [hs1, Sys.step, Sys.start, VState.start, VState.step]
  have e2 : (s1.vs q2.leader).init.hrs = (lv q2.leader).hrs := by simp [hs1, Sys.step, Sys.start, VState.start, VState.step, SignState.hrs]
  have e3 : ∀ i, (s1.vs q2.leader).calls i = none := by simp [hs1, Sys.step, Sys.start, VState.start, VState.step]
  have hsave := SignState.save_ok (lv q2.leader) r hw
  have e4 : (s1.vs q2.leader).lss.hrs = b.hrs := by rw [e1, hsave]; rfl
  have e5 : (s1.vs q2.leader).lss.cache b.hrs = some r := by
    rw [e1, hsave]
    have : ¬ b.height < i64 (b.height - blocksToCache) := by
      rw [i64_of_is]
      · unfold blocksToCache; omega
      · unfold IsI64 blocksToCache at *; omega
    simp [this, hr, Block.hrs, SSC.hrs]
  obtain ⟨ha, _, hi, hc⟩ := signBlock_answered (C := C) (vcfg := vcfg) (cfg := cfg) (n := n) s1 q1
  set s2 := (s1.signBlock C vcfg cfg n q1).2 with hs2
  rw [hl] at ha hi hc
  have f1 : (s2.vs q2.leader).lss = (s1.vs q2.leader).lss := by
    cases ha with
    | old h _ _ => exact h
    | new sig _ _ h _ =>
      rw [h]
      refine SignState.save_err _ _ ?_
      rw [e4, ← h1]
      exact HRS.lt_irrefl _
  have f2 : (s2.vs q2.leader).init.hrs = b.hrs := by
    rw [hi (e3 _), h1]
    have : (s1.vs q2.leader).init.hrs ≺ (SSC.new b.height b.round b.step).hrs := by rw [e2]; exact hw
    rw [SignState.save_ok _ _ this]; rfl
  have f3 : (s2.vs q2.leader).calls q2.id = none := by rw [hc _ (Ne.symm hid)]; exact e3 _
  have f4 : existingSignature (s2.vs q2.leader).lss b = .ok (some junk) := by
    unfold existingSignature SignState.getFromCache
    rw [f1, e5]
    simp [hr, Slice.bytes]
  have hx : ∃ k, (s2.vs q2.leader).init.save (SSC.new b.height b.round b.step) = (some (.sameHRS k), (s2.vs q2.leader).init) := by
    rcases save_cases (s2.vs q2.leader).init (SSC.new b.height b.round b.step) with ⟨h, _⟩ | ⟨_, h⟩ | ⟨h, _⟩
    · rw [f2] at h; exact absurd h (HRS.lt_irrefl _)
    · exact h
    · rw [f2] at h; exact absurd h (HRS.lt_irrefl _)
  obtain ⟨k, hx⟩ := hx
  have g : (s2.signBlock C vcfg cfg n q2).1 = .ret q2.id b (some junk) b.timestamp none := by
    have : ((s2.vs q2.leader).begin C vcfg q2.id q2.block).1 = .ret q2.id b (some junk) b.timestamp none := by
      unfold VState.begin
      rw [f3, h2]
      simp only [VState.step, f3, hx]
      unfold VState.wait
      simp [VState.setPhase, VState.step, f4]
    unfold Sys.signBlock
    generalize (s2.vs q2.leader).begin C vcfg q2.id q2.block = x at this
    obtain ⟨o, v⟩ := x
    simp only at this
    subst this
    rfl
  have : (Sys.start lv lc).run C vcfg cfg n [.deliver q2.leader r, .sign q1, .sign q2] =
      ([(q1, (s1.signBlock C vcfg cfg n q1).1), (q2, (s2.signBlock C vcfg cfg n q2).1)], (s2.signBlock C vcfg cfg n q2).2) := rfl
  rw [this, g]
  simp

end

/-- Concretely: a raft event says that the bytes 1, 2, 3 are the signature of the precommit of height 7. The first request for
it fails; the second is answered with the bytes 1, 2, 3, which are no signature. -/
example :
    ((Sys.start (fun _ => .empty) (fun _ => .empty)).run ftoy ⟨2, fsc (42 • 1)⟩ fcfg 3
      [.deliver 2 ⟨7, 1, 3, some [1, 2, 3], some b1⟩, .sign (freq 0 blk1 2 [2, 1]), .sign (freq 1 blk1 2 [2, 1])]).1.map
        (fun a => match a.2 with | .ret _ _ sig _ err => (sig, err) | _ => (none, none)) =
      [(none, some .combinedInvalid), (some [1, 2, 3], none)] ∧
    ftoy.verify (fsc (42 • 1)) b1 [1, 2, 3] = false := by
  decide +kernel

/-- The record of the precommit of height 7, as node 2 sends it to raft when it has been signed. -/
def rec1 : SSC :=
  ((((Sys.start (fun _ => .empty) (fun _ => .empty)).run ftoy ⟨2, fsc (42 • 1)⟩ fcfg 3 [.sign (freq 0 blk1 2 [2, 1])]).2.vs 2).emitted[0]?).getD
    ⟨0, 0, 0, none, none⟩

/-- Concretely: the precommit of height 7 is signed at node 2, its record goes through raft to node 1, and node 1 starts again
with the record in its file and is asked for the same vote: the answer is the recorded signature, and it verifies. -/
example : ∃ sig, (freq 1 blk1 1 [1, 3], VOut.ret 1 blk1 (some sig) blk1.timestamp none) ∈
      ((Sys.start (fun _ => .empty) (fun _ => .empty)).run ftoy ⟨2, fsc (42 • 1)⟩ fcfg 3
        [.sign (freq 0 blk1 2 [2, 1]), .deliver 1 rec1, .restart 1 (SignState.empty.save rec1).2 .empty,
         .sign (freq 1 blk1 1 [1, 3])]).1 ∧
    rec1.signature = some sig ∧ ftoy.verify (fsc (42 • 1)) b1 sig = true := by
  have hin : (freq 1 blk1 1 [1, 3], VOut.ret 1 blk1 rec1.signature blk1.timestamp none) ∈
      ((Sys.start (fun _ => .empty) (fun _ => .empty)).run ftoy ⟨2, fsc (42 • 1)⟩ fcfg 3
        [.sign (freq 0 blk1 2 [2, 1]), .deliver 1 rec1, .restart 1 (SignState.empty.save rec1).2 .empty,
         .sign (freq 1 blk1 1 [1, 3])]).1 := by
    have : ∀ (x : VOut) (l : List (Req × VOut)) (a : Req × VOut), l = [a, (freq 1 blk1 1 [1, 3], x)] →
        (freq 1 blk1 1 [1, 3], x) ∈ l := by rintro x l a rfl; simp
    refine this _ _ (freq 0 blk1 2 [2, 1], _) (congrArg₂ _ rfl (congrArg₂ _ (congrArg _ ?_) rfl))
    decide +kernel
  obtain ⟨sig, hs⟩ : ∃ sig, rec1.signature = some sig := Option.isSome_iff_exists.1 (by decide +kernel)
  rw [hs] at hin
  refine ⟨sig, hin, hs, ?_⟩
  have hrec : ∀ h r, (SignState.empty.save rec1).2.cache h = some r → r.hrs = h ∧ r = rec1 := by
    intro h r hc
    rcases save_cache_from hc with h' | ⟨h1, h2⟩
    · cases h'
    · exact ⟨h2 ▸ h1.symm, h2⟩
  have hem : rec1 ∈ ((((Sys.start (fun _ => .empty) (fun _ => .empty)).step ftoy ⟨2, fsc (42 • 1)⟩ fcfg 3
      (.sign (freq 0 blk1 2 [2, 1]))).2).vs 2).emitted := by
    refine List.mem_of_getElem? (i := 0) ?_
    decide +kernel
  have hob : ∀ e ∈ [SysEv.sign (freq 0 blk1 2 [2, 1]), .deliver 1 rec1, .restart 1 (SignState.empty.save rec1).2 .empty,
      .sign (freq 1 blk1 1 [1, 3])], OwnBytes e := by
    intro e he
    simp only [List.mem_cons, List.not_mem_nil, or_false] at he
    rcases he with rfl | rfl | rfl | rfl
    · exact (by decide +kernel : unpackHRST blk1.signBytes = .ok blk1.key)
    · trivial
    · trivial
    · exact (by decide +kernel : unpackHRST blk1.signBytes = .ok blk1.key)
  have hbr : OnlyBrings ftoy ⟨2, fsc (42 • 1)⟩ fcfg 3 (fun _ => False) (Sys.start (fun _ => .empty) (fun _ => .empty))
      [SysEv.sign (freq 0 blk1 2 [2, 1]), .deliver 1 rec1, .restart 1 (SignState.empty.save rec1).2 .empty,
        .sign (freq 1 blk1 1 [1, 3])] := by
    refine ⟨by simp, by simp, ?_, by simp, by simp, ?_, by simp, by simp, trivial⟩
    · rintro p r h
      simp only [SysEv.deliver.injEq] at h
      obtain ⟨rfl, rfl⟩ := h
      exact Or.inr ⟨2, hem⟩
    · rintro p lv lc h
      simp only [SysEv.restart.injEq] at h
      obtain ⟨rfl, rfl, rfl⟩ := h
      intro h r hc
      obtain ⟨h1, h2⟩ := hrec h r hc
      rw [h2]
      exact ⟨h2 ▸ h1, Or.inl (Or.inr ⟨2, hem⟩)⟩
  obtain ⟨bs, k, hv, _, _, hb⟩ := C86_partial (C := ftoy) (vcfg := ⟨2, fsc (42 • 1)⟩) (cfg := fcfg) (n := 3)
    (fun _ => .empty) (fun _ => .empty) (fun _ => False) (by simp) (by rintro p h r hc; cases hc) _ hob hbr _ _ _ _ _ hin
  rw [hb (by decide)] at hv
  exact hv

end Horcrux
