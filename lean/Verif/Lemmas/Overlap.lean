import Verif.Spec.Overlap
import Verif.Props.NoConflict
/-
An invariant of clusters in which everything overlaps.
-/
namespace Horcrux
open Spec

/-! ### One step of a validator -/

section
variable {C : Crypto} {vcfg : ValidatorCfg}

theorem setPhase_calls (v : VState) (id : Nat) (b : Block) (ph : Phase) (j : Nat) :
    (v.setPhase id b ph).calls j = if j = id then some (b, ph) else v.calls j := rfl

theorem finish_calls (v : VState) (id j : Nat) : (v.finish id).calls j = if j = id then none else v.calls j := rfl

/-- What a step leaves as the sign state. -/
theorem nstep_lss (v : VState) (ev : VEv) :
    (v.step C vcfg ev).2.lss = v.lss ∨ ∃ r, (v.step C vcfg ev).2.lss = (v.lss.save r).2 ∧
      (ev = .lss r ∨ ∃ id b sig, ev = .save id ∧ v.calls id = some (b, .save sig) ∧ r = b.record sig) := by
  cases ev with
  | lss r => exact .inr ⟨r, rfl, .inl rfl⟩
  | call id b role =>
    left
    simp only [VState.step]
    split
    · rfl
    · split
      · rfl
      · rfl
      · split <;> rfl
  | proxyDone id r =>
    left
    simp only [VState.step]
    split
    · split <;> rfl
    · rfl
  | poll id =>
    left
    simp only [VState.step]
    split
    · split
      · rfl
      · rfl
      · split <;> rfl
      · rfl
    · rfl
  | lookup id =>
    left
    simp only [VState.step]
    split
    · split <;> rfl
    · rfl
  | roundDone id r =>
    left
    simp only [VState.step]
    split
    · split
      · rfl
      · split <;> rfl
    · rfl
  | save id =>
    simp only [VState.step]
    split
    · next b sig hc =>
      right
      refine ⟨b.record sig, ?_, .inr ⟨id, b, sig, rfl, hc, rfl⟩⟩
      generalize hx : v.lss.save (b.record sig) = x
      obtain ⟨e, l⟩ := x
      cases e with
      | none => rfl
      | some e => cases e <;> rfl
    · exact .inl rfl
  | emit id =>
    left
    simp only [VState.step]
    split <;> rfl

/-- Where a call comes from. -/
inductive CameFrom (C : Crypto) (vcfg : ValidatorCfg) (v : VState) (ev : VEv) (out : VOut) (j : Nat) (b : Block) : Phase → Prop where
  | same (ph : Phase) (h : v.calls j = some (b, ph)) : CameFrom C vcfg v ev out j b ph
  | begun (ph : Phase) (role : Role) (he : ev = .call j b role) (h1 : ∀ sig, ph ≠ .save sig) (h2 : ∀ sig, ph ≠ .emit sig)
      (h3 : ph ≠ .round) : CameFrom C vcfg v ev out j b ph
  | round (again : Bool) (ho : out = .startRound j b again) (he : (∃ role, ev = .call j b role) ∨ ∃ ph, v.calls j = some (b, ph)) :
      CameFrom C vcfg v ev out j b .round
  | poll (i i' : Nat) (h : v.calls j = some (b, .poll i')) : CameFrom C vcfg v ev out j b (.poll i)
  | save (sh : List Bytes) (eph sig : Bytes) (he : ev = .roundDone j (.sigs sh eph)) (h : v.calls j = some (b, .round))
      (ha : assemble C vcfg.threshold vcfg.pubKey b.signBytes sh eph = .ok sig) : CameFrom C vcfg v ev out j b (.save sig)
  | emit (sig : Bytes) (h : v.calls j = some (b, .save sig)) : CameFrom C vcfg v ev out j b (.emit sig)

theorem nstep_calls (v : VState) (ev : VEv) (j : Nat) (b : Block) (ph : Phase)
    (h : (v.step C vcfg ev).2.calls j = some (b, ph)) : CameFrom C vcfg v ev (v.step C vcfg ev).1 j b ph := by
  have put : ∀ (w : VState) (id : Nat) (b' : Block) (ph' : Phase), w.calls = v.calls →
      (w.setPhase id b' ph').calls j = some (b, ph) → (j = id ∧ b' = b ∧ ph' = ph) ∨ v.calls j = some (b, ph) := by
    intro w id b' ph' hw h
    rw [setPhase_calls] at h
    split at h
    · next hj => simp only [Option.some.injEq, Prod.mk.injEq] at h; exact .inl ⟨hj, h.1, h.2⟩
    · rw [hw] at h; exact .inr h
  have fin : ∀ (w : VState) (id : Nat), w.calls = v.calls → (w.finish id).calls j = some (b, ph) → v.calls j = some (b, ph) := by
    intro w id hw h
    rw [finish_calls] at h
    split at h
    · cases h
    · rw [hw] at h; exact h
  cases ev with
  | lss r => exact .same _ h
  | call id b' role =>
    simp only [VState.step] at h ⊢
    split at h
    · exact .same _ h
    · next hfree =>
      cases role with
      | notInitialized => exact .same _ h
      | follower =>
        simp only at h ⊢
        rcases put _ _ _ _ rfl h with ⟨rfl, rfl, rfl⟩ | h
        · exact .begun _ .follower rfl (by simp) (by simp) (by simp)
        · exact .same _ h
      | leader =>
        simp only at h ⊢
        generalize hx : v.init.save (SSC.new b'.height b'.round b'.step) = x at h
        obtain ⟨e, l⟩ := x
        cases e with
        | none =>
          simp only at h ⊢
          rcases put { v with init := l } _ _ _ rfl h with ⟨rfl, rfl, rfl⟩ | h
          · exact .round false rfl (.inl ⟨_, rfl⟩)
          · exact .same _ h
        | some e =>
          have : ∃ ph', (ph' = .poll 0 ∨ ph' = .lookup) ∧ (({ v with init := l } : VState).setPhase id b' ph').calls j = some (b, ph) := by
            cases e <;> first | exact ⟨_, .inl rfl, h⟩ | exact ⟨_, .inr rfl, h⟩
          obtain ⟨ph', hp, h⟩ := this
          rcases put { v with init := l } _ _ _ rfl h with ⟨rfl, rfl, rfl⟩ | h
          · rcases hp with rfl | rfl <;> exact .begun _ .leader rfl (by simp) (by simp) (by simp)
          · exact .same _ h
  | proxyDone id r =>
    simp only [VState.step] at h
    split at h
    · cases r <;> exact .same _ (fin _ _ rfl h)
    · exact .same _ h
  | poll id =>
    simp only [VState.step] at h ⊢
    split at h
    · next b' i hc =>
      generalize existingSignature v.lss b' = x at h
      match x, h with
      | .ok none, h =>
        simp only at h ⊢
        rcases put _ _ _ _ rfl h with ⟨rfl, rfl, rfl⟩ | h
        · exact .round true rfl (.inr ⟨_, hc⟩)
        · exact .same _ h
      | .ok (some sig), h => exact .same _ (fin _ _ rfl h)
      | .error e, h =>
        by_cases he : e = .stillWaiting
        · subst he
          simp only at h ⊢
          split at h
          · rcases put _ _ _ _ rfl h with ⟨rfl, rfl, rfl⟩ | h
            · exact .poll _ _ hc
            · exact .same _ h
          · exact .same _ (fin _ _ rfl h)
        · have : (v.finish id).calls j = some (b, ph) := by
            cases e <;> first | exact h | exact absurd rfl he
          exact .same _ (fin _ _ rfl this)
    · exact .same _ h
  | lookup id =>
    simp only [VState.step] at h
    split at h
    · split at h <;> exact .same _ (fin _ _ rfl h)
    · exact .same _ h
  | roundDone id r =>
    simp only [VState.step] at h
    split at h
    · next b' hc =>
      cases r with
      | failed e => exact .same _ (fin _ _ rfl h)
      | sigs sh eph =>
        simp only at h
        split at h
        · next sig ha =>
          rcases put _ _ _ _ rfl h with ⟨rfl, rfl, rfl⟩ | h
          · exact .save _ _ _ rfl hc ha
          · exact .same _ h
        · exact .same _ (fin _ _ rfl h)
        · exact .same _ h
    · exact .same _ h
  | save id =>
    simp only [VState.step] at h
    split at h
    · next b' sig hc =>
      generalize v.lss.save (b'.record sig) = x at h
      obtain ⟨e, l⟩ := x
      have : (({ v with lss := l } : VState).setPhase id b' (.emit sig)).calls j = some (b, ph) ∨
          (({ v with lss := l } : VState).finish id).calls j = some (b, ph) := by
        cases e with
        | none => exact .inl h
        | some e => cases e <;> first | exact .inl h | exact .inr h
      rcases this with h | h
      · rcases put { v with lss := l } _ _ _ rfl h with ⟨rfl, rfl, rfl⟩ | h
        · exact .emit _ hc
        · exact .same _ h
      · exact .same _ (fin { v with lss := l } _ rfl h)
    · exact .same _ h
  | emit id =>
    simp only [VState.step] at h
    split at h
    · next b' sig hc => exact .same _ (fin { v with emitted := v.emitted ++ [b'.record sig] } _ rfl h)
    · exact .same _ h

/-- Why a call returns without an error. -/
theorem nstep_ret (v : VState) (ev : VEv) (id : Nat) (b : Block) (sig : Slice) (stamp : GoTime)
    (h : (v.step C vcfg ev).1 = .ret id b sig stamp none) :
    stamp = b.timestamp ∧ ((∃ ph, v.calls id = some (b, ph)) ∧ (existingSignature v.lss b = .ok sig ∨
      (ev = .proxyDone id (.ok sig) ∧ v.calls id = some (b, .proxy)) ∨
      ∃ sg, sig = some sg ∧ v.calls id = some (b, .emit sg))) := by
  cases ev with
  | lss r => simp [VState.step] at h
  | call j b' role =>
    simp only [VState.step] at h
    split at h
    · cases h
    · split at h
      · simp at h
      · cases h
      · split at h <;> cases h
  | proxyDone j r =>
    simp only [VState.step] at h
    split at h
    · next b' hc =>
      cases r with
      | error e => simp at h
      | ok s =>
        simp only [VOut.ret.injEq, and_true] at h
        obtain ⟨rfl, rfl, rfl, rfl⟩ := h
        exact ⟨rfl, ⟨_, hc⟩, .inr (.inl ⟨rfl, hc⟩)⟩
    · cases h
  | poll j =>
    simp only [VState.step] at h
    split at h
    · next b' i hc =>
      split at h
      · cases h
      · next s he =>
        simp only [VOut.ret.injEq, and_true] at h
        obtain ⟨rfl, rfl, rfl, rfl⟩ := h
        exact ⟨rfl, ⟨_, hc⟩, .inl he⟩
      · split at h
        · cases h
        · simp at h
      · simp at h
    · cases h
  | lookup j =>
    simp only [VState.step] at h
    split at h
    · next b' hc =>
      split at h
      · next s he =>
        simp only [VOut.ret.injEq, and_true] at h
        obtain ⟨rfl, rfl, rfl, rfl⟩ := h
        exact ⟨rfl, ⟨_, hc⟩, .inl he⟩
      · simp at h
    · cases h
  | roundDone j r =>
    simp only [VState.step] at h
    split at h
    · cases r with
      | failed e => simp at h
      | sigs sh eph =>
        simp only at h
        split at h
        · cases h
        · simp at h
        · cases h
    · cases h
  | save j =>
    simp only [VState.step] at h
    split at h
    · split at h
      · cases h
      · cases h
      · simp at h
    · cases h
  | emit j =>
    simp only [VState.step] at h
    split at h
    · next b' s hc =>
      simp only [VOut.ret.injEq, and_true] at h
      obtain ⟨rfl, rfl, rfl, rfl⟩ := h
      exact ⟨rfl, ⟨_, hc⟩, .inr (.inr ⟨s, rfl, hc⟩)⟩
    · cases h

end

/-! ### The invariant -/

/-- The bytes are read as a message for the block `k`. -/
def ForBlock (k : HRS) (bs : Bytes) : Prop := ∃ k', unpackHRST bs = .ok k' ∧ k'.hrs = k

/-- A signature for the block `b`. -/
def GoodFor (C : Crypto) (pub : Bytes) (n t : Nat) (k : HRS) (s : Net) (b : Block) (sig : Bytes) : Prop :=
  ∃ bs, C.verify pub bs sig = true ∧ (b.hrs = k → ForBlock k bs ∧ SharedBy n t s bs) ∧ (b.step ≠ stepPropose → bs = b.signBytes)

/-- What is true in every run, for a given block `k`. -/
structure NSafe (C : Crypto) (pub : Bytes) (n t : Nat) (faulty : Finset Nat) (k : HRS) (s : Net) : Prop where
  bound : ∀ p bs r, (p, bs, r) ∈ s.sent → p ∉ faulty → ForBlock k bs → Bound k bs (s.cs p).lss
  pair : ∀ p bs r bs' r', (p, bs, r) ∈ s.sent → (p, bs', r') ∈ s.sent → p ∉ faulty → ForBlock k bs → ForBlock k bs' →
    DifferOnlyByTime k.step bs bs'
  recs : ∀ r ∈ s.made, ∀ sig, r.signature = some sig → C.verify pub r.signBytes.bytes sig = true ∧
    (r.hrs = k → ForBlock k r.signBytes.bytes ∧ SharedBy n t s r.signBytes.bytes)
  cache : ∀ p h r, (s.vs p).lss.cache h = some r → r.hrs = h ∧ r ∈ s.made
  calls : ∀ p id b ph, (s.vs p).calls id = some (b, ph) → b.Typed ∧ unpackHRST b.signBytes = .ok b.key
  rounds : ∀ p id b, (s.vs p).calls id = some (b, .round) → ∀ q r, s.table p id q = some r → (q, b.signBytes, r) ∈ s.sent
  held : ∀ p id b sig, (s.vs p).calls id = some (b, .save sig) ∨ (s.vs p).calls id = some (b, .emit sig) →
    C.verify pub b.signBytes sig = true ∧ SharedBy n t s b.signBytes
  outs : ∀ p id b sig stamp, (p, .ret id b sig stamp none) ∈ s.outs → stamp = b.timestamp ∧
    (sig.bytes ≠ [] → GoodFor C pub n t k s b sig.bytes)

variable {C : Crypto} {vcfg : ValidatorCfg} {cfg : Nat → CosignerCfg} {n : Nat} {chainID : Bytes} {t : Nat} {faulty : Finset Nat}
  {k : HRS}

theorem Spec.SharedBy.more {s s' : Net} {bs : Bytes} (h : SharedBy n t s bs) (hs : ∀ x ∈ s.sent, x ∈ s'.sent) : SharedBy n t s' bs := by
  obtain ⟨S, h1, h2, h3⟩ := h
  exact ⟨S, h1, h2, fun p hp => (h3 p hp).imp fun r hr => hs _ hr⟩

theorem GoodFor.more {pub : Bytes} {s s' : Net} {b : Block} {sig : Bytes} (h : GoodFor C pub n t k s b sig)
    (hs : ∀ x ∈ s.sent, x ∈ s'.sent) : GoodFor C pub n t k s' b sig := by
  obtain ⟨bs, h1, h2, h3⟩ := h
  exact ⟨bs, h1, fun e => ⟨(h2 e).1, (h2 e).2.more hs⟩, h3⟩

theorem own_forBlock {b : Block} (h : unpackHRST b.signBytes = .ok b.key) (hk : b.hrs = k) : ForBlock k b.signBytes :=
  ⟨b.key, h, hk⟩

/-- What a record gives. -/
theorem NSafe.existing {pub : Bytes} {s : Net} (h : NSafe C pub n t faulty k s) {p : Nat} {b : Block} {sig : Slice}
    (he : existingSignature (s.vs p).lss b = .ok sig) (hne : sig.bytes ≠ []) : GoodFor C pub n t k s b sig.bytes := by
  cases sig with
  | none => exact absurd rfl hne
  | some sg =>
    obtain ⟨r, hc, hsig, hor⟩ := existing_ok_some he
    obtain ⟨hrs, hm⟩ := h.cache _ _ _ hc
    obtain ⟨hv, hr⟩ := h.recs r hm sg hsig
    refine ⟨_, hv, fun hk => hr (hrs.trans hk), fun hns => ?_⟩
    rcases hor with h | h
    · exact absurd h hns
    · exact h.symm

theorem act_fields (s : Net) (p : Nat) (ev : VEv) :
    (s.act C vcfg p ev).cs = s.cs ∧ (s.act C vcfg p ev).sent = s.sent ∧ (s.act C vcfg p ev).made = s.made ∧
    (s.act C vcfg p ev).vs = (fun j => if j = p then ((s.vs p).step C vcfg ev).2 else s.vs j) ∧
    (∀ x ∈ (s.act C vcfg p ev).outs, x ∈ s.outs ∨ x = (p, ((s.vs p).step C vcfg ev).1)) ∧
    (∀ j i q r, (s.act C vcfg p ev).table j i q = some r → s.table j i q = some r ∧
      ¬ (j = p ∧ ∃ b again, ((s.vs p).step C vcfg ev).1 = .startRound i b again)) := by
  unfold Net.act
  simp only
  split
  · next h => exact ⟨rfl, rfl, rfl, rfl, fun x hx => .inl hx, fun j i q r hr => ⟨hr, by simp [h]⟩⟩
  · next id b again h =>
    refine ⟨rfl, rfl, rfl, rfl, fun x hx => .inl hx, fun j i q r hr => ?_⟩
    simp only at hr
    split at hr
    · cases hr
    · next hn =>
      refine ⟨hr, ?_⟩
      rintro ⟨rfl, b', again', he⟩
      rw [h] at he
      simp only [VOut.startRound.injEq] at he
      exact hn ⟨rfl, he.1.symm⟩
  · next h =>
    refine ⟨rfl, rfl, rfl, rfl, fun x hx => ?_, fun j i q r hr => ⟨hr, by simp [h]⟩⟩
    simp only [List.mem_append, List.mem_singleton] at hx
    exact hx

/-- A step of a validator. -/
theorem NSafe.act {s : Net} (h : NSafe C vcfg.pubKey n t faulty k s) (p : Nat) (ev : VEv)
    (hcall : ∀ id b role, ev = .call id b role → b.Typed ∧ unpackHRST b.signBytes = .ok b.key)
    (hround : ∀ id sh eph b sig, ev = .roundDone id (.sigs sh eph) → (s.vs p).calls id = some (b, .round) →
      assemble C vcfg.threshold vcfg.pubKey b.signBytes sh eph = .ok sig → SharedBy n t s b.signBytes)
    (hlss : ∀ r, ev = .lss r → r ∈ s.made)
    (hsave : ∀ id b sig, ev = .save id → (s.vs p).calls id = some (b, .save sig) → b.record sig ∈ s.made)
    (hproxy : ∀ id sig b, ev = .proxyDone id (.ok sig) → (s.vs p).calls id = some (b, .proxy) → sig.bytes ≠ [] →
      GoodFor C vcfg.pubKey n t k s b sig.bytes) : NSafe C vcfg.pubKey n t faulty k (s.act C vcfg p ev) := by
  obtain ⟨f1, f2, f3, f4, f5, f6⟩ := act_fields (C := C) (vcfg := vcfg) s p ev
  have sm : ∀ {bs}, SharedBy n t s bs → SharedBy n t (s.act C vcfg p ev) bs := fun h => h.more (by rw [f2]; exact fun _ h => h)
  have gm : ∀ {b sig}, GoodFor C vcfg.pubKey n t k s b sig → GoodFor C vcfg.pubKey n t k (s.act C vcfg p ev) b sig :=
    fun h => h.more (by rw [f2]; exact fun _ h => h)
  -- the calls
  have came : ∀ j id b ph, ((s.act C vcfg p ev).vs j).calls id = some (b, ph) → (s.vs j).calls id = some (b, ph) ∨
      (j = p ∧ CameFrom C vcfg (s.vs p) ev ((s.vs p).step C vcfg ev).1 id b ph) := by
    intro j id b ph hc
    rw [f4] at hc
    simp only at hc
    split at hc
    · next hj => exact .inr ⟨hj, nstep_calls _ _ _ _ _ hc⟩
    · exact .inl hc
  refine ⟨?_, ?_, ?_, ?_, ?_, ?_, ?_, ?_⟩
  · rw [f1, f2]; exact h.bound
  · rw [f2]; exact h.pair
  · rw [f3]
    intro r hr sig hs
    obtain ⟨h1, h2⟩ := h.recs r hr sig hs
    exact ⟨h1, fun e => ⟨(h2 e).1, sm (h2 e).2⟩⟩
  · rw [f3, f4]
    intro j a r hc
    simp only at hc
    split at hc
    · next hj =>
      subst hj
      rcases nstep_lss (C := C) (vcfg := vcfg) (s.vs j) ev with he | ⟨r', he, hev⟩
      · rw [he] at hc; exact h.cache _ _ _ hc
      · rw [he] at hc
        refine save_knows (K := fun r => r ∈ s.made) (h.cache j) ?_ a r hc
        rcases hev with hv | ⟨id, b, sig, hv, hb, rfl⟩
        · exact hlss _ hv
        · exact hsave _ _ _ hv hb
    · exact h.cache _ _ _ hc
  · intro j id b ph hc
    rcases came _ _ _ _ hc with hc | ⟨rfl, hc⟩
    · exact h.calls _ _ _ _ hc
    · cases hc with
      | same _ h' => exact h.calls _ _ _ _ h'
      | begun _ role he => exact hcall _ _ _ he
      | round again ho he =>
        rcases he with ⟨role, he⟩ | ⟨ph, he⟩
        · exact hcall _ _ _ he
        · exact h.calls _ _ _ _ he
      | poll _ _ h' => exact h.calls _ _ _ _ h'
      | save _ _ _ _ h' => exact h.calls _ _ _ _ h'
      | emit _ h' => exact h.calls _ _ _ _ h'
  · intro j id b hc q r ht
    obtain ⟨ht', hn⟩ := f6 _ _ _ _ ht
    rw [f2]
    rcases came _ _ _ _ hc with hc | ⟨rfl, hc⟩
    · exact h.rounds _ _ _ hc _ _ ht'
    · cases hc with
      | same _ h' => exact h.rounds _ _ _ h' _ _ ht'
      | begun _ role he _ _ h3 => exact absurd rfl h3
      | round again ho he => exact absurd ⟨rfl, _, _, ho⟩ hn
  · intro j id b sig hc
    have old : ∀ ph, ph = .save sig ∨ ph = .emit sig → (s.vs j).calls id = some (b, ph) →
        C.verify vcfg.pubKey b.signBytes sig = true ∧ SharedBy n t (s.act C vcfg p ev) b.signBytes := by
      intro ph hp hc
      have := h.held j id b sig (by rcases hp with rfl | rfl <;> simp [hc])
      exact ⟨this.1, sm this.2⟩
    rcases hc with hc | hc
    · rcases came _ _ _ _ hc with hc | ⟨rfl, hc⟩
      · exact old _ (.inl rfl) hc
      · cases hc with
        | same _ h' => exact old _ (.inl rfl) h'
        | begun _ role he h1 => exact absurd rfl (h1 _)
        | save sh eph _ he h' ha => exact ⟨assemble_verifies ha, sm (hround _ _ _ _ _ he h' ha)⟩
    · rcases came _ _ _ _ hc with hc | ⟨rfl, hc⟩
      · exact old _ (.inr rfl) hc
      · cases hc with
        | same _ h' => exact old _ (.inr rfl) h'
        | begun _ role he _ h2 => exact absurd rfl (h2 _)
        | emit _ h' => exact old _ (.inl rfl) h'
  · intro j id b sig stamp ho
    rcases f5 _ ho with ho | ho
    · obtain ⟨h1, h2⟩ := h.outs _ _ _ _ _ ho
      exact ⟨h1, fun hne => gm (h2 hne)⟩
    · simp only [Prod.mk.injEq] at ho
      obtain ⟨rfl, ho⟩ := ho
      obtain ⟨h1, ⟨ph, hph⟩, h2⟩ := nstep_ret _ _ _ _ _ _ ho.symm
      refine ⟨h1, fun hne => gm ?_⟩
      rcases h2 with he | ⟨he, hc⟩ | ⟨sg, rfl, hc⟩
      · exact h.existing he hne
      · exact hproxy _ _ _ he hc hne
      · obtain ⟨g1, g2⟩ := h.held j id b sg (.inr hc)
        exact ⟨_, g1, fun hk => ⟨own_forBlock (h.calls _ _ _ _ hc).2 hk, g2⟩, fun _ => rfl⟩

/-- The entries of the array of a round are answers to it. -/
theorem shares_ids (s : Net) (p id : Nat) : ∀ i ∈ (collectSigs 0 (s.shares n p id).1).1, 1 ≤ i ∧ i ≤ n ∧ ∃ r, s.table p id i = some r := by
  intro i hi
  obtain ⟨h1, b, hb, hb0⟩ := (collectSigs_ids _ 0).2 i hi
  simp only [Net.shares, Nat.sub_zero, List.getElem?_map] at hb
  cases hr : (List.range n)[i - 1]? with
  | none => rw [hr] at hb; cases hb
  | some j =>
    obtain ⟨hj, hj'⟩ := List.getElem?_eq_some_iff.1 hr
    simp only [List.length_range] at hj
    simp only [List.getElem_range] at hj'
    subst hj'
    rw [hr] at hb
    have e : i - 1 + 1 = i := by omega
    simp only [Option.map_some, Option.some.injEq, e] at hb
    refine ⟨by omega, by omega, ?_⟩
    cases ht : s.table p id i with
    | none => rw [ht] at hb; rw [← hb] at hb0; exact absurd rfl hb0
    | some r => exact ⟨r, rfl⟩

theorem NSafe.assembled {s : Net} (h : NSafe C vcfg.pubKey n t faulty k s) (hV : vcfg.threshold = t) {p id : Nat} {b : Block}
    {sig : Bytes} (hc : (s.vs p).calls id = some (b, .round))
    (ha : assemble C vcfg.threshold vcfg.pubKey b.signBytes (s.shares n p id).1 (s.shares n p id).2 = .ok sig) :
    SharedBy n t s b.signBytes := by
  have key := shares_ids (n := n) s p id
  unfold assemble at ha
  simp only at ha
  split at ha
  · cases ha
  · next hlen =>
    refine ⟨(collectSigs 0 (s.shares n p id).1).1.toFinset, ?_, ?_, ?_⟩
    · intro i hi
      obtain ⟨h1, h2, _⟩ := key i (List.mem_toFinset.1 hi)
      exact Finset.mem_Icc.2 ⟨h1, h2⟩
    · rw [List.toFinset_card_of_nodup (collectSigs_ids _ 0).1]
      omega
    · intro i hi
      obtain ⟨_, _, r, hr⟩ := key i (List.mem_toFinset.1 hi)
      exact ⟨r, h.rounds _ _ _ hc _ _ hr⟩

/-- What a cosigner that signs is bound to. -/
theorem sign_bound {c : CosignerCfg} {s : CState} {bs : Bytes} {r : SignRes} (h : (s.step C c (.sign bs)).1 = .ok (.signed r))
    (hf : ForBlock k bs) :
    (s.step C c (.sign bs)).2.lss.hrs = k ∧ Bound k bs (s.step C c (.sign bs)).2.lss := by
  obtain ⟨k', hu, rfl⟩ := hf
  have h0 : (sign C c s bs).1 = .ok r := by
    simp only [CState.step] at h
    cases hx : (sign C c s bs).1 with
    | ok y => rw [hx] at h; simpa [Out.map] using h
    | err e => rw [hx] at h; simp [Out.map] at h
    | panic => rw [hx] at h; simp [Out.map] at h
  show (sign C c s bs).2.lss.hrs = k'.hrs ∧ Bound k'.hrs bs (sign C c s bs).2.lss
  have hs : sign C c s bs = (.ok r, (sign C c s bs).2) := Prod.ext h0 rfl
  rcases sign_ok_cases hs with ⟨k2, hc⟩ | ⟨k2, ref, m, hf⟩
  · have := hc.unpack; rw [hu] at this; cases this
    rw [hc.state]
    exact ⟨hc.hrs, .inl hc.hrs.symm, fun _ => ⟨bs, hc.bytes, .refl_of_unpack hu⟩⟩
  · have := hf.unpack; rw [hu] at this; cases this
    refine ⟨hf.hrs, .inl hf.hrs.symm, fun _ => ?_⟩
    rcases hf.le with he | hlt
    · obtain ⟨h1, b0, h2, _, h3⟩ := hf.again he
      exact ⟨b0, by rw [h1]; exact h2, h3⟩
    · exact ⟨bs, (hf.advance hlt).1, .refl_of_unpack hu⟩

/-- A change to cosigners and their answers only. -/
theorem NSafe.answers {pub : Bytes} {s s' : Net} (h : NSafe C pub n t faulty k s) (hv : s'.vs = s.vs) (ht : s'.table = s.table)
    (hm : s'.made = s.made) (ho : s'.outs = s.outs) (hsent : ∀ x ∈ s.sent, x ∈ s'.sent)
    (hb : ∀ p bs r, (p, bs, r) ∈ s'.sent → p ∉ faulty → ForBlock k bs → Bound k bs (s'.cs p).lss)
    (hp : ∀ p bs r bs' r', (p, bs, r) ∈ s'.sent → (p, bs', r') ∈ s'.sent → p ∉ faulty → ForBlock k bs → ForBlock k bs' →
      DifferOnlyByTime k.step bs bs') : NSafe C pub n t faulty k s' := by
  refine ⟨hb, hp, ?_, ?_, ?_, ?_, ?_, ?_⟩
  · rw [hm]
    intro r hr sig hs
    obtain ⟨h1, h2⟩ := h.recs r hr sig hs
    exact ⟨h1, fun e => ⟨(h2 e).1, (h2 e).2.more hsent⟩⟩
  · rw [hv, hm]; exact h.cache
  · rw [hv]; exact h.calls
  · rw [hv, ht]
    intro p id b hc q r hr
    exact hsent _ (h.rounds _ _ _ hc _ _ hr)
  · rw [hv]
    intro p id b sig hc
    obtain ⟨h1, h2⟩ := h.held p id b sig hc
    exact ⟨h1, h2.more hsent⟩
  · rw [ho]
    intro p id b sig stamp hx
    obtain ⟨h1, h2⟩ := h.outs _ _ _ _ _ hx
    exact ⟨h1, fun hne => (h2 hne).more hsent⟩

theorem NSafe.cos {pub : Bytes} {s s' : Net} (h : NSafe C pub n t faulty k s) (p : Nat) (op : CosOp)
    (hs : s.step C vcfg cfg n chainID (.cos p op) = some s') : NSafe C pub n t faulty k s' := by
  simp only [Net.step] at hs
  have hl : ∀ j, Later (s.cs j).lss ((if j = p then ((s.cs p).step C (cfg p) op).2 else s.cs j)).lss := by
    intro j
    split
    · next hj => subst hj; exact step_later _ _ _
    · exact .refl _
  split at hs
  · next bs x hx =>
    simp only [Option.some.injEq] at hs
    subst hs
    have hbs := fun hf => sign_bound (C := C) (k := k) hx hf
    have old : ∀ j bs' r', (j, bs', r') ∈ s.sent → j ∉ faulty → ForBlock k bs' →
        Bound k bs' ((if j = p then ((s.cs p).step C (cfg p) (.sign bs)).2 else s.cs j)).lss :=
      fun j bs' r' hm hj hf => (h.bound _ _ _ hm hj hf).later (hl j)
    have agree : ∀ bs' r', (p, bs', r') ∈ s.sent → p ∉ faulty → ForBlock k bs' → ForBlock k bs → DifferOnlyByTime k.step bs' bs := by
      intro bs' r' hm hp hf' hf
      obtain ⟨e1, _, e3⟩ := hbs hf
      obtain ⟨b0, e4, e5⟩ := e3 e1
      have := old _ _ _ hm hp hf'
      simp only [if_true] at this
      obtain ⟨b1, e6, e7⟩ := this.2 e1
      rw [e4] at e6
      cases e6
      exact e7.symm.trans e5
    refine h.answers rfl rfl rfl rfl (fun x hx => List.mem_append_left _ hx) ?_ ?_
    · intro j bs' r' hm hj hf
      simp only [List.mem_append, List.mem_singleton, Prod.mk.injEq] at hm
      rcases hm with hm | ⟨rfl, rfl, rfl⟩
      · exact old _ _ _ hm hj hf
      · simp only [if_true]; exact (hbs hf).2
    · intro j bs1 r1 bs2 r2 h1 h2 hj hf1 hf2
      simp only [List.mem_append, List.mem_singleton, Prod.mk.injEq] at h1 h2
      rcases h1 with h1 | ⟨rfl, rfl, rfl⟩
      · rcases h2 with h2 | ⟨rfl, rfl, rfl⟩
        · exact h.pair _ _ _ _ _ h1 h2 hj hf1 hf2
        · exact agree _ _ h1 hj hf1 hf2
      · rcases h2 with h2 | ⟨_, rfl, rfl⟩
        · exact (agree _ _ h2 hj hf2 hf1).symm
        · obtain ⟨k', hu, rfl⟩ := hf1
          exact .refl_of_unpack hu
  · simp only [Option.some.injEq] at hs
    subst hs
    exact h.answers rfl rfl rfl rfl (fun x hx => hx)
      (fun j bs' r' hm hj hf => (h.bound _ _ _ hm hj hf).later (hl j)) h.pair

/-- A block that is passed on. -/
theorem passed_block {b b' : Block} {c : Bytes} (hc : chainID.length < 2 ^ 63) (hb : b.Typed)
    (h : recvSignBlock (sendSignBlock chainID b) = some (c, b')) : b' = b.received := by
  by_cases hT : IsText chainID
  · rw [recv_block chainID b hb ⟨hc, hT⟩] at h
    simp only [Option.some.injEq, Prod.mk.injEq] at h
    exact h.2.symm
  · rw [recv_block_none chainID b hc hT] at h
    cases h

/-- Every step. -/
theorem NSafe.step {s s' : Net} (h : NSafe C vcfg.pubKey n t faulty k s) (hV : vcfg.threshold = t)
    (h64 : ∀ pk m sig, C.verify pk m sig = true → sig.length = 64) (hc : chainID.length < 2 ^ 63) {e : NetEv}
    (ho : Granted faulty k s e) (hs : s.step C vcfg cfg n chainID e = some s') : NSafe C vcfg.pubKey n t faulty k s' := by
  cases e with
  | call p id b role =>
    simp only [Net.step, Option.some.injEq] at hs
    subst hs
    refine h.act p _ ?_ (by simp) (by simp) (by simp) (by simp)
    intro id' b' role' he
    simp only [VEv.call.injEq] at he
    obtain ⟨_, rfl, _⟩ := he
    exact ho
  | passOn p id l id' role =>
    simp only [Net.step] at hs
    split at hs
    · next b hcall =>
      split at hs
      · next c b' hrecv =>
        simp only [Option.some.injEq] at hs
        subst hs
        obtain ⟨hty, hu⟩ := h.calls _ _ _ _ hcall
        have := passed_block hc hty hrecv
        subst this
        refine h.act l _ ?_ (by simp) (by simp) (by simp) (by simp)
        intro id2 b2 role2 he
        simp only [VEv.call.injEq] at he
        obtain ⟨_, rfl, _⟩ := he
        exact ⟨⟨hty.height, hty.round, hty.step, hty.size⟩, by rw [received_key]; exact hu⟩
      · cases hs
    · cases hs
  | reply p id i =>
    simp only [Net.step] at hs
    split at hs
    · next b l id' b'' sig stamp e hcall hout =>
      split at hs
      · next c b' hrecv =>
        split at hs
        · next hb =>
          simp only [Option.some.injEq] at hs
          subst hs
          obtain ⟨hty, hu⟩ := h.calls _ _ _ _ hcall
          have := passed_block hc hty hrecv
          subst this
          subst hb
          refine h.act p _ (by simp) (by simp) (by simp) (by simp) ?_
          intro id2 sig2 b2 he hc2 hne
          simp only [VEv.proxyDone.injEq] at he
          obtain ⟨rfl, he⟩ := he
          rw [hcall] at hc2
          simp only [Option.some.injEq, Prod.mk.injEq, and_true] at hc2
          subst hc2
          cases e with
          | some e => simp [remoteAnswer] at he
          | none =>
            obtain ⟨_, hg⟩ := h.outs _ _ _ _ _ (List.mem_of_getElem? hout)
            have hlen : sig.bytes.length < 2 ^ 63 := by
              by_cases h0 : sig.bytes = []
              · rw [h0]; decide
              · obtain ⟨bs, h1, _⟩ := hg h0
                rw [h64 _ _ _ h1]; decide
            obtain ⟨sig', e1, e2⟩ := C35_signature sig hlen
            simp only [remoteAnswer, e1, Except.ok.injEq] at he
            subst he
            rw [e2] at hne ⊢
            obtain ⟨bs, h1, h2, h3⟩ := hg hne
            exact ⟨bs, h1, h2, h3⟩
        · cases hs
      · cases hs
    · cases hs
  | lost p id e =>
    simp only [Net.step, Option.some.injEq] at hs
    subst hs
    exact h.act p _ (by simp) (by simp) (by simp) (by simp) (by simp)
  | poll p id =>
    simp only [Net.step, Option.some.injEq] at hs
    subst hs
    exact h.act p _ (by simp) (by simp) (by simp) (by simp) (by simp)
  | lookup p id =>
    simp only [Net.step, Option.some.injEq] at hs
    subst hs
    exact h.act p _ (by simp) (by simp) (by simp) (by simp) (by simp)
  | answer p id i =>
    simp only [Net.step] at hs
    split at hs
    · next b q bs r hcall hsent =>
      split at hs
      · next hb =>
        simp only [Option.some.injEq] at hs
        subst hs
        subst hb
        refine ⟨h.bound, h.pair, h.recs, h.cache, h.calls, ?_, h.held, h.outs⟩
        intro j id' b' hc' x r' ht
        simp only at ht hc'
        split at ht
        · next he =>
          obtain ⟨rfl, rfl, rfl⟩ := he
          rw [hcall] at hc'
          simp only [Option.some.injEq, Prod.mk.injEq, and_true] at hc' ht
          subst hc'
          subst ht
          exact List.mem_of_getElem? hsent
        · exact h.rounds _ _ _ hc' _ _ ht
      · cases hs
    · cases hs
  | assemble p id =>
    simp only [Net.step, Option.some.injEq] at hs
    subst hs
    refine h.act p _ (by simp) ?_ (by simp) (by simp) (by simp)
    intro id' sh eph b sig he hcall ha
    simp only [VEv.roundDone.injEq, RoundRes.sigs.injEq] at he
    obtain ⟨rfl, rfl, rfl⟩ := he
    exact h.assembled hV hcall ha
  | giveUp p id e =>
    simp only [Net.step, Option.some.injEq] at hs
    subst hs
    exact h.act p _ (by simp) (by simp) (by simp) (by simp) (by simp)
  | save p id =>
    simp only [Net.step] at hs
    split at hs
    · next b sig hcall =>
      simp only [Option.some.injEq] at hs
      obtain ⟨g1, g2⟩ := h.held p id b sig (.inl hcall)
      have h1 : NSafe C vcfg.pubKey n t faulty k { s with made := s.made ++ [b.record sig] } := by
        refine ⟨h.bound, h.pair, ?_, fun p a r hr => ⟨(h.cache p a r hr).1, List.mem_append_left _ (h.cache p a r hr).2⟩, h.calls, h.rounds,
          h.held, h.outs⟩
        intro r hr sg hsg
        simp only [List.mem_append, List.mem_singleton] at hr
        rcases hr with hr | rfl
        · exact h.recs r hr sg hsg
        · simp only [Block.record, Option.some.injEq] at hsg
          subst hsg
          exact ⟨g1, fun hk => ⟨own_forBlock (h.calls _ _ _ _ hcall).2 hk, g2⟩⟩
      have h2 := h1.act p (.save id) (by simp) (by simp) (by simp) (by
        intro id' b' sg he hc'
        simp only [VEv.save.injEq] at he
        subst he
        simp only at hc'
        rw [hcall] at hc'
        simp only [Option.some.injEq, Prod.mk.injEq, Phase.save.injEq] at hc'
        obtain ⟨rfl, rfl⟩ := hc'
        simp) (by simp)
      have e : ({ s with made := s.made ++ [b.record sig] } : Net).act C vcfg p (.save id) = s' := by
        rw [← hs]
        unfold Net.act
        simp only
        split <;> rfl
      rw [← e]
      exact h2
    · cases hs
  | emit p id =>
    simp only [Net.step, Option.some.injEq] at hs
    subst hs
    exact h.act p _ (by simp) (by simp) (by simp) (by simp) (by simp)
  | cos p op => exact h.cos p op hs
  | lie p bs r =>
    simp only [Net.step, Option.some.injEq] at hs
    subst hs
    have ho : p ∈ faulty := ho
    refine h.answers rfl rfl rfl rfl (fun x hx => List.mem_append_left _ hx) ?_ ?_
    · intro j bs' r' hm hj hf
      simp only [List.mem_append, List.mem_singleton, Prod.mk.injEq] at hm
      rcases hm with hm | ⟨rfl, _⟩
      · exact h.bound _ _ _ hm hj hf
      · exact absurd ho hj
    · intro j bs1 r1 bs2 r2 h1 h2 hj hf1 hf2
      simp only [List.mem_append, List.mem_singleton, Prod.mk.injEq] at h1 h2
      rcases h1 with h1 | ⟨rfl, _⟩
      · rcases h2 with h2 | ⟨rfl, _⟩
        · exact h.pair _ _ _ _ _ h1 h2 hj hf1 hf2
        · exact absurd ho hj
      · exact absurd ho hj
  | deliver p r =>
    simp only [Net.step] at hs
    split at hs
    · next hr =>
      simp only [Option.some.injEq] at hs
      subst hs
      refine h.act p _ (by simp) (by simp) ?_ (by simp) (by simp)
      intro r' he
      simp only [VEv.lss.injEq] at he
      subst he
      exact hr
    · cases hs
  | restart p lv lc =>
    simp only [Net.step, Option.some.injEq] at hs
    subst hs
    obtain ⟨ho1, ho2⟩ := ho
    have calls : ∀ j id b ph, ((if j = p then VState.start lv else s.vs j).calls id) = some (b, ph) → (s.vs j).calls id = some (b, ph) := by
      intro j id b ph hx
      split at hx
      · simp [VState.start] at hx
      · exact hx
    refine ⟨?_, h.pair, h.recs, ?_, fun j id b ph hx => h.calls _ _ _ _ (calls _ _ _ _ hx),
      fun j id b hx => h.rounds _ _ _ (calls _ _ _ _ hx), ?_, h.outs⟩
    · intro j bs r hm hj hf
      have h4 := h.bound _ _ _ hm hj hf
      simp only
      split
      · next hp =>
        subst hp
        rcases ho2 hj h4.1 with h5 | ⟨h5, h6, h7⟩
        · refine ⟨.inr h5, fun he => ?_⟩
          change lc.hrs = k at he
          rw [he] at h5; exact absurd h5 (HRS.lt_irrefl _)
        · refine ⟨.inl h5.symm, fun _ => ?_⟩
          obtain ⟨b0, e1, e2⟩ := h4.2 h6
          exact ⟨b0, h7.trans e1, e2⟩
      · exact h4
    · intro j a r hr
      simp only at hr
      split at hr
      · exact ho1 a r hr
      · exact h.cache _ _ _ hr
    · intro j id b sig hx
      exact h.held j id b sig (hx.imp (calls _ _ _ _) (calls _ _ _ _))

/-- Every run. -/
theorem NSafe.runs {s s' : Net} {es : List NetEv} (hr : Runs C vcfg cfg n chainID faulty k s es s')
    (h : NSafe C vcfg.pubKey n t faulty k s) (hV : vcfg.threshold = t)
    (h64 : ∀ pk m sig, C.verify pk m sig = true → sig.length = 64) (hc : chainID.length < 2 ^ 63) :
    NSafe C vcfg.pubKey n t faulty k s' := by
  induction hr with
  | nil => exact h
  | snoc _ ho hs ih => exact ih.step hV h64 hc ho hs

theorem NSafe.start {pub : Bytes} {lv lc : Nat → SignState} {old : List SSC}
    (hold : ∀ r ∈ old, ∀ sig, r.signature = some sig → C.verify pub r.signBytes.bytes sig = true ∧ r.hrs ≠ k)
    (hlv : ∀ p h r, (lv p).cache h = some r → r.hrs = h ∧ r ∈ old) :
    NSafe C pub n t faulty k (Net.start lv lc old) := by
  refine ⟨by simp [Net.start], by simp [Net.start], ?_, hlv, ?_, ?_, ?_, by simp [Net.start]⟩
  · intro r hr sig hs
    exact ⟨(hold r hr sig hs).1, fun e => absurd e (hold r hr sig hs).2⟩
  · intro p id b ph h; simp [Net.start, VState.start] at h
  · intro p id b h; simp [Net.start, VState.start] at h
  · intro p id b sig h; simp [Net.start, VState.start] at h

/-- Two messages for the block that are each shared by a quorum differ only by time. -/
theorem NSafe.agree {pub : Bytes} {s : Net} (h : NSafe C pub n t faulty k s) {f : Nat} (hnt : n + f < 2 * t)
    (hf : faulty.card ≤ f) {bs bs' : Bytes} (h1 : ForBlock k bs) (h2 : ForBlock k bs') (hs : SharedBy n t s bs)
    (hs' : SharedBy n t s bs') : DifferOnlyByTime k.step bs bs' := by
  obtain ⟨S, a1, a2, a3⟩ := hs
  obtain ⟨S', b1, b2, b3⟩ := hs'
  obtain ⟨i, i1, i2, i3⟩ := quorum_intersect n t f hnt S S' faulty a1 b1 hf a2 b2
  obtain ⟨r, hr⟩ := a3 i i1
  obtain ⟨r', hr'⟩ := b3 i i2
  exact h.pair _ _ _ _ _ hr hr' i3 h1 h2

end Horcrux
