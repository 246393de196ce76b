import Verif.Model.Proxy
import Verif.Lemmas.System
import Verif.Lemmas.Grpc
import Verif.Props.Validator
/-
A sign request over several hops.
-/
namespace Horcrux
open Spec

/-- What a node gets to sign when the request comes from another node: only the time may be a different one, with the same
nanosecond count. -/
def Block.received (b : Block) : Block := { b with timestamp := GoTime.ofUnixNano b.timestamp.unixNano }

theorem i64_mod_nano (x : Int) : i64 (i64 x / 1000000000 * 1000000000 + i64 x % 1000000000) = i64 x := by
  rw [Int.ediv_mul_add_emod]
  exact i64_of_is (isI64_i64 x)

theorem received_nano (b : Block) : b.received.timestamp.unixNano = b.timestamp.unixNano := by
  unfold Block.received GoTime.ofUnixNano GoTime.unixNano
  exact i64_mod_nano _

theorem received_key (b : Block) : b.received.key = b.key := by
  unfold Block.key
  rw [received_nano]
  rfl

theorem received_hrs (b : Block) : b.received.hrs = b.hrs := rfl

theorem received_received (b : Block) : b.received.received = b.received := by
  unfold Block.received
  rw [show (GoTime.ofUnixNano (GoTime.ofUnixNano b.timestamp.unixNano).unixNano) = GoTime.ofUnixNano b.timestamp.unixNano by
    rw [show (GoTime.ofUnixNano b.timestamp.unixNano).unixNano = b.timestamp.unixNano from received_nano b]]

/-! ### Calls of one number do not see those of others -/

/-- Put the call `id` into some state. -/
def VState.mark (v : VState) (id : Nat) (c : Option (Block × Phase)) : VState :=
  { v with calls := fun i => if i = id then c else v.calls i }

theorem mark_calls (v : VState) (id j : Nat) (c : Option (Block × Phase)) :
    (v.mark id c).calls j = if j = id then c else v.calls j := rfl

theorem mark_self (v : VState) (id : Nat) : v.mark id (v.calls id) = v := by
  unfold VState.mark
  congr 1
  funext i
  split
  · next h => rw [h]
  · rfl

theorem mark_mark (v : VState) (id : Nat) (c c' : Option (Block × Phase)) : (v.mark id c).mark id c' = v.mark id c' := by
  unfold VState.mark
  congr 1
  funext i
  by_cases h : i = id <;> simp [h]

theorem mark_comm (v : VState) {id id' : Nat} (h : id ≠ id') (c c' : Option (Block × Phase)) :
    (v.mark id c).mark id' c' = (v.mark id' c').mark id c := by
  unfold VState.mark
  congr 1
  funext i
  by_cases h1 : i = id' <;> by_cases h2 : i = id <;> simp [h1, h2]
  · exact absurd (h2.symm.trans h1) h
  all_goals (try (intro h3; first | exact absurd h3 h | exact absurd h3.symm h))

theorem setPhase_mark (v : VState) (id : Nat) (b : Block) (p : Phase) : v.setPhase id b p = v.mark id (some (b, p)) := rfl
theorem finish_mark (v : VState) (id : Nat) : v.finish id = v.mark id none := rfl

theorem step_mark (C : Crypto) (cfg : ValidatorCfg) (v : VState) (ev : VEv) (id : Nat) (c : Option (Block × Phase))
    (h : ev.actor ≠ some id) :
    (v.mark id c).step C cfg ev = ((v.step C cfg ev).1, (v.step C cfg ev).2.mark id c) := by
  have key : ∀ j, j ≠ id → (v.mark id c).calls j = v.calls j := fun j hj => by rw [mark_calls, if_neg hj]
  have hl : (v.mark id c).lss = v.lss := rfl
  have hi : (v.mark id c).init = v.init := rfl
  cases ev with
  | lss r => rfl
  | call j b role =>
    have hj : j ≠ id := fun h0 => h (by rw [h0]; rfl)
    simp only [VState.step, key j hj, hi]
    cases v.calls j with
    | some x => rfl
    | none =>
      cases role with
      | notInitialized => rfl
      | follower => simp only [setPhase_mark]; rw [mark_comm _ hj.symm]
      | leader =>
        simp only
        generalize v.init.save (SSC.new b.height b.round b.step) = x
        obtain ⟨e, i'⟩ := x
        have hc : ∀ p : Phase, ({ v.mark id c with init := i' } : VState).setPhase j b p =
            (({ v with init := i' } : VState).setPhase j b p).mark id c := fun p => by
          simp only [setPhase_mark]
          rw [← mark_comm _ hj.symm]; rfl
        cases e with
        | none => simp only [hc]
        | some e => cases e <;> simp only [hc]
  | proxyDone j r =>
    have hj : j ≠ id := fun h0 => h (by rw [h0]; rfl)
    simp only [VState.step, key j hj]
    rcases v.calls j with _ | ⟨b, _ | _ | _ | _ | _ | _⟩ <;> try rfl
    cases r <;> simp only [finish_mark] <;> rw [mark_comm _ hj.symm]
  | poll j =>
    have hj : j ≠ id := fun h0 => h (by rw [h0]; rfl)
    simp only [VState.step, key j hj, hl]
    rcases v.calls j with _ | ⟨b, _ | i | _ | _ | _ | _⟩ <;> try rfl
    simp only
    cases existingSignature v.lss b with
    | ok o => cases o <;> simp only [finish_mark, setPhase_mark] <;> rw [mark_comm _ hj.symm]
    | error e =>
      cases e <;> simp only [finish_mark, setPhase_mark] <;> (try split) <;> (try simp only []) <;> rw [mark_comm _ hj.symm]
  | lookup j =>
    have hj : j ≠ id := fun h0 => h (by rw [h0]; rfl)
    simp only [VState.step, key j hj, hl]
    rcases v.calls j with _ | ⟨b, _ | i | _ | _ | _ | _⟩ <;> try rfl
    simp only
    cases existingSignature v.lss b <;> simp only [finish_mark] <;> rw [mark_comm _ hj.symm]
  | roundDone j r =>
    have hj : j ≠ id := fun h0 => h (by rw [h0]; rfl)
    simp only [VState.step, key j hj]
    rcases v.calls j with _ | ⟨b, _ | i | _ | _ | _ | _⟩ <;> try rfl
    cases r with
    | failed e => simp only [finish_mark]; rw [mark_comm _ hj.symm]
    | sigs sh eph =>
      simp only
      cases assemble C cfg.threshold cfg.pubKey b.signBytes sh eph <;> simp only [finish_mark, setPhase_mark] <;>
        rw [mark_comm _ hj.symm]
  | save j =>
    have hj : j ≠ id := fun h0 => h (by rw [h0]; rfl)
    simp only [VState.step, key j hj, hl]
    rcases v.calls j with _ | ⟨b, _ | i | _ | _ | sig | _⟩ <;> try rfl
    simp only
    generalize v.lss.save (b.record sig) = x
    obtain ⟨e, l'⟩ := x
    have hc : ∀ y, ({ v.mark id c with lss := l' } : VState).mark j y = (({ v with lss := l' } : VState).mark j y).mark id c :=
      fun y => by rw [← mark_comm _ hj.symm]; rfl
    cases e with
    | none => simp only [setPhase_mark, hc]
    | some e => cases e <;> simp only [setPhase_mark, finish_mark, hc]
  | emit j =>
    have hj : j ≠ id := fun h0 => h (by rw [h0]; rfl)
    simp only [VState.step, key j hj]
    rcases v.calls j with _ | ⟨b, _ | i | _ | _ | _ | sig⟩ <;> try rfl
    simp only [finish_mark]
    rw [← mark_comm _ hj.symm]; rfl

theorem assembleAndSave_mark (C : Crypto) (cfg : ValidatorCfg) (v : VState) (j : Nat) (sh : List Bytes) (eph : Bytes)
    (id : Nat) (c : Option (Block × Phase)) (hj : j ≠ id) :
    (v.mark id c).assembleAndSave C cfg j sh eph =
      ((v.assembleAndSave C cfg j sh eph).1, (v.assembleAndSave C cfg j sh eph).2.mark id c) := by
  have hne : some j ≠ some id := fun h => hj (Option.some.inj h)
  unfold VState.assembleAndSave
  rw [step_mark C cfg v (.roundDone j (.sigs sh eph)) id c hne]
  generalize v.step C cfg (.roundDone j (.sigs sh eph)) = x
  obtain ⟨o, v2⟩ := x
  cases o with
  | tau =>
    simp only
    rw [step_mark C cfg v2 (.save j) id c hne]
    generalize v2.step C cfg (.save j) = y
    obtain ⟨o, v3⟩ := y
    cases o with
    | tau => simp only; rw [step_mark C cfg v3 (.emit j) id c hne]
    | _ => rfl
  | _ => rfl

/-- The same in the cluster. -/
def Sys.mark (s : Sys) (p id : Nat) (c : Option (Block × Phase)) : Sys := s.setV p ((s.vs p).mark id c)

theorem Sys.ext' {s s' : Sys} (h1 : ∀ p, s.vs p = s'.vs p) (h2 : s.cs = s'.cs) : s = s' := by
  cases s; cases s'
  simp only at h1 h2
  rw [funext h1, h2]

theorem sysMark_self (s : Sys) (p id : Nat) : s.mark p id ((s.vs p).calls id) = s := by
  refine Sys.ext' (fun j => ?_) rfl
  simp only [Sys.mark, Sys.setV, mark_self]
  split
  · next h => rw [h]
  · rfl

theorem sysMark_mark (s : Sys) (p id : Nat) (c c' : Option (Block × Phase)) :
    (s.mark p id c).mark p id c' = s.mark p id c' := by
  refine Sys.ext' (fun j => ?_) rfl
  simp only [Sys.mark, Sys.setV, if_true, mark_mark]
  split <;> rfl

theorem sysMark_comm (s : Sys) {p id p' id' : Nat} (h : (p, id) ≠ (p', id')) (c c' : Option (Block × Phase)) :
    (s.mark p id c).mark p' id' c' = (s.mark p' id' c').mark p id c := by
  refine Sys.ext' (fun j => ?_) rfl
  simp only [Sys.mark, Sys.setV]
  by_cases hp : p = p'
  · subst hp
    have hid : id ≠ id' := fun h0 => h (by rw [h0])
    simp only [if_true]
    split
    · exact mark_comm _ hid _ _
    · rfl
  · by_cases h1 : j = p'
    · subst h1
      have : ¬ j = p := fun h => hp h.symm
      simp [this]
    · by_cases h2 : j = p
      · subst h2; simp [h1]
      · simp [h1, h2]

theorem wait_mark (C : Crypto) (cfg : ValidatorCfg) (j id : Nat) (c : Option (Block × Phase)) (hj : j ≠ id) :
    ∀ (k : Nat) (v : VState), (v.mark id c).wait C cfg j k = ((v.wait C cfg j k).1, (v.wait C cfg j k).2.mark id c) := by
  have hne : some j ≠ some id := fun h => hj (Option.some.inj h)
  intro k
  induction k with
  | zero => intro v; rfl
  | succ k ih =>
    intro v
    have hc : (v.mark id c).calls j = v.calls j := by simp [VState.mark, hj]
    unfold VState.wait
    rw [hc, step_mark C cfg v (.poll j) id c hne, step_mark C cfg v (.lookup j) id c hne]
    generalize v.step C cfg (.poll j) = x
    obtain ⟨o, v1⟩ := x
    cases v.calls j with
    | none => rfl
    | some bp =>
      obtain ⟨b, p⟩ := bp
      cases p <;> simp only
      cases o <;> simp only [ih]

theorem begin_mark (C : Crypto) (cfg : ValidatorCfg) (v : VState) (j id : Nat) (b : Block) (c : Option (Block × Phase))
    (hj : j ≠ id) : (v.mark id c).begin C cfg j b = ((v.begin C cfg j b).1, (v.begin C cfg j b).2.mark id c) := by
  have hne : some j ≠ some id := fun h => hj (Option.some.inj h)
  have hc : (v.mark id c).calls j = v.calls j := by simp [VState.mark, hj]
  unfold VState.begin
  rw [hc, step_mark C cfg v (.call j b .leader) id c hne]
  generalize v.step C cfg (.call j b .leader) = x
  obtain ⟨o, v1⟩ := x
  cases v.calls j with
  | some _ => rfl
  | none => cases o <;> simp only [wait_mark C cfg j id c hj]

theorem signBlock_mark (C : Crypto) (vcfg : ValidatorCfg) (cfg : Nat → CosignerCfg) (n : Nat) (s : Sys) (q : Req)
    (p id : Nat) (c : Option (Block × Phase)) (h : (p, id) ≠ (q.leader, q.id)) :
    (s.mark p id c).signBlock C vcfg cfg n q =
      ((s.signBlock C vcfg cfg n q).1, (s.signBlock C vcfg cfg n q).2.mark p id c) := by
  by_cases hp : p = q.leader
  · subst hp
    have hid : q.id ≠ id := fun h0 => h (by rw [h0])
    unfold Sys.signBlock
    have e1 : (s.mark q.leader id c).vs q.leader = (s.vs q.leader).mark id c := by simp [Sys.mark, Sys.setV]
    rw [e1, begin_mark C vcfg _ _ id _ c hid]
    generalize (s.vs q.leader).begin C vcfg q.id q.block = x
    obtain ⟨o, v1⟩ := x
    have hcs : (s.mark q.leader id c).cs = s.cs := rfl
    cases o with
    | startRound a b d =>
      simp only [hcs, assembleAndSave_mark _ _ _ _ _ _ _ _ hid]
      refine Prod.ext rfl (Sys.ext' (fun j => ?_) rfl)
      simp only [Sys.mark, Sys.setV, if_true]
      split <;> simp_all
    | _ =>
      simp only
      refine Prod.ext rfl (Sys.ext' (fun j => ?_) rfl)
      simp only [Sys.mark, Sys.setV, if_true]
      split <;> simp_all
  · unfold Sys.signBlock
    have e1 : (s.mark p id c).vs q.leader = s.vs q.leader := by simp [Sys.mark, Sys.setV, Ne.symm hp]
    rw [e1]
    generalize (s.vs q.leader).begin C vcfg q.id q.block = x
    obtain ⟨o, v1⟩ := x
    have hcs : (s.mark p id c).cs = s.cs := rfl
    cases o with
    | startRound a b d =>
      simp only [hcs]
      refine Prod.ext rfl (Sys.ext' (fun j => ?_) rfl)
      simp only [Sys.mark, Sys.setV]
      by_cases h1 : j = q.leader
      · have : ¬ j = p := fun h0 => hp (h0.symm.trans h1)
        simp [h1, Ne.symm hp]
      · by_cases h2 : j = p
        · simp [h2, hp]
        · simp [h1, h2]
    | _ =>
      simp only
      refine Prod.ext rfl (Sys.ext' (fun j => ?_) rfl)
      simp only [Sys.mark, Sys.setV]
      by_cases h1 : j = q.leader
      · have : ¬ j = p := fun h0 => hp (h0.symm.trans h1)
        simp [h1, Ne.symm hp]
      · by_cases h2 : j = p
        · simp [h2, hp]
        · simp [h1, h2]

end Horcrux
