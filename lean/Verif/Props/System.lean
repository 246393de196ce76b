import Verif.Lemmas.System
import Verif.Props.Round
import Verif.Props.Validator
/-
Property C63: the cluster keeps signing.
-/
namespace Horcrux
open Spec

/-- C63: cosigners `1..n` (`n ≥ 2`) hold the shares of one key split with threshold `t`; their nodes start from whatever
sign states not above `w`. Then come any number of sign requests for blocks each above the one before, every one served
by whatever node as leader with whatever `t` or more participants, in whatever iteration order and with whatever
randomness; in between, raft events about blocks signed already are delivered, lost, repeated and reordered, cosigners
serve any other calls about such blocks, and nodes restart from sign states that are not ahead. Then every request is
answered with a signature that verifies under the public key for the requested sign bytes, with the requested time, and
no error. -/
theorem C63_signs {C : Crypto} {F G : Type} [Field F] [AddCommGroup G] [Module F G] {L : Lawful C F G}
    {pair : Bytes → Bytes → Prop} {n t : Nat} {cfg : Nat → CosignerCfg} {x : F} {kc : List F} {rsaPub : Nat → Bytes}
    (hS : Setup C L pair n t cfg x kc rsaPub) (hn : 2 ≤ n) (w : HRS) (lv lc : Nat → SignState)
    (hv : ∀ p, (lv p).hrs ≼ w) (hc : ∀ p, (lc p).hrs ≼ w) (evs : List SysEv) (hev : InOrder n t w evs) :
    List.Forall₂ (fun q a => a.1 = q ∧ ∃ sig, a.2 = .ret q.id q.block (some sig) q.block.timestamp none ∧
        C.verify (L.pt (x • L.B)) q.block.signBytes sig = true)
      (requests evs) ((Sys.start lv lc).run C ⟨t, L.pt (x • L.B)⟩ cfg n evs).1 := by
  have key : ∀ (evs : List SysEv) (w : HRS) (s : Sys), SysBelow w s → InOrder n t w evs →
      List.Forall₂ (fun q a => a.1 = q ∧ ∃ sig, a.2 = .ret q.id q.block (some sig) q.block.timestamp none ∧
        C.verify (L.pt (x • L.B)) q.block.signBytes sig = true)
      (requests evs) (s.run C ⟨t, L.pt (x • L.B)⟩ cfg n evs).1 := by
    intro evs
    induction evs with
    | nil => intro w s _ _; exact List.Forall₂.nil
    | cons e evs ih =>
      intro w s hs he
      have hq := hs.quiet (C := C) (vcfg := ⟨t, L.pt (x • L.B)⟩) (cfg := cfg) (n := n)
      cases e with
      | sign q =>
        obtain ⟨h1, h2, h3⟩ := he
        obtain ⟨sig, s', e1, e2, e3, _⟩ := signBlock_ok hS hn hs h2 h1
        simp only [requests, Sys.run, Sys.step, e1]
        exact List.Forall₂.cons ⟨rfl, sig, rfl, e2⟩ (ih _ _ e3 h3)
      | deliver p r => exact ih w _ (hq.1 p r he.1) he.2
      | other p op => exact ih w _ (hq.2.1 p op he.1) he.2
      | restart p a b => exact ih w _ (hq.2.2 p a b he.1 he.2.1) he.2.2
  exact key evs w _ (SysBelow.start hv hc) hev

/-- C63: what a request leaves behind: the watermark of the leader's validator and of every participant's cosigner is the
signed block, and the record is put into the raft log. -/
theorem C63_recorded {C : Crypto} {F G : Type} [Field F] [AddCommGroup G] [Module F G] {L : Lawful C F G}
    {pair : Bytes → Bytes → Prop} {n t : Nat} {cfg : Nat → CosignerCfg} {x : F} {kc : List F} {rsaPub : Nat → Bytes}
    (hS : Setup C L pair n t cfg x kc rsaPub) (hn : 2 ≤ n) (w : HRS) (lv lc : Nat → SignState)
    (hv : ∀ p, (lv p).hrs ≼ w) (hc : ∀ p, (lc p).hrs ≼ w) (q : Req) (hq : Servable n t q) (hw : w ≺ q.block.hrs) :
    ∃ sig, ((Sys.start lv lc).signBlock C ⟨t, L.pt (x • L.B)⟩ cfg n q).1 =
        .ret q.id q.block (some sig) q.block.timestamp none ∧
      (∀ p ∈ q.ps, (((Sys.start lv lc).signBlock C ⟨t, L.pt (x • L.B)⟩ cfg n q).2.cs p).lss.hrs = q.block.hrs) ∧
      (((Sys.start lv lc).signBlock C ⟨t, L.pt (x • L.B)⟩ cfg n q).2.vs q.leader).lss.hrs = q.block.hrs ∧
      (((Sys.start lv lc).signBlock C ⟨t, L.pt (x • L.B)⟩ cfg n q).2.vs q.leader).emitted = [q.block.record sig] := by
  obtain ⟨sig, s', e1, _, _, e4, e5, e6⟩ := signBlock_ok hS hn (SysBelow.start hv hc) hq hw
  rw [e1]
  exact ⟨sig, rfl, e4, e5, e6⟩

/-- C63: the blocks of the chain node's proposals have sign bytes as asked for in `Servable`. -/
theorem C63_proposal (chainID : Bytes) (p : Proposal) (b : Block) (hw : p.WF chainID)
    (h : proposalBlock chainID p = .ok b) : unpackHRST b.signBytes = .ok b.key := by
  unfold proposalBlock at h
  split at h
  · cases h
  · cases h
  · rename_i bs hbs
    rw [Out.ok.injEq] at h
    subst h
    exact C06_proposal chainID p bs hw hbs

/-- C63: so have the blocks of its votes, but for the vote of C06's exception. -/
theorem C63_vote (chainID : Bytes) (v : Vote) (b : Block) (hw : v.WF chainID) (hm : ¬ v.MistakenForProposal chainID)
    (h : voteBlock chainID v = .ok b) : unpackHRST b.signBytes = .ok b.key := by
  unfold voteBlock at h
  split at h
  · cases h
  · cases h
  · rename_i step hstep
    split at h
    · cases h
    · cases h
    · rename_i bs hbs
      rw [Out.ok.injEq] at h
      subst h
      unfold voteTypeToStep at hstep
      (repeat' split at hstep) <;> simp only [Out.ok.injEq, reduceCtorEq] at hstep
      · rename_i ht
        rw [C06_vote_partial chainID v bs hw (.inl ht) hbs hm, if_pos ht, ← hstep]; rfl
      · rename_i h1 ht
        rw [C06_vote_partial chainID v bs hw (.inr ht) hbs hm, if_neg h1, ← hstep]; rfl

/-- Randomness of cosigner `p` in the examples. -/
def trnd (p : Nat) : Nat → Rand :=
  fun _ => ⟨some (UInt8.ofNat p :: List.replicate 31 0), [UInt8.ofNat (10 * p), 0], [], []⟩

/-- A request to the 2-of-3 cluster. -/
def freq (id : Nat) (b : Block) (leader : Nat) (ps : List Nat) : Req :=
  ⟨id, b, leader, ps, fun _ => [2, 1, 3], fun _ => ps, trnd, fun _ => trnd 9⟩

/-- Concretely: cosigner 3 leads with 1; the event reaches 2; 1 restarts with an old sign state; 2 leads with 1. -/
def fevs : List SysEv :=
  [.sign (freq 0 blk1 3 [3, 1]), .deliver 2 (blk1.record [1]), .restart 1 .empty .empty, .sign (freq 1 blk3 2 [2, 1])]

theorem fservable (id : Nat) (b : Block) (leader : Nat) (ps : List Nat) (h : unpackHRST b.signBytes = .ok b.key)
    (h1 : ps.Nodup) (h2 : ∀ p ∈ ps, 1 ≤ p ∧ p ≤ 3) (h3 : 2 ≤ ps.length) (h4 : leader ∈ ps) :
    Servable 3 2 (freq id b leader ps) :=
  ⟨h, h1, h2, h3, h4,
    fun _ => show ([2, 1, 3] : List Int).Perm ((List.range' 1 3).map (fun i : Nat => (i : Int))) by decide, fun _ => List.Perm.refl _,
    fun p _ => ⟨UInt8.ofNat p :: List.replicate 31 0, rfl, by simp⟩⟩

example : InOrder 3 2 ⟨0, 0, 0⟩ fevs ∧ (requests fevs).map (·.id) = [0, 1] := by
  refine ⟨⟨by decide, fservable _ _ _ _ (by decide +kernel) (by decide) (by decide) (by decide) (by decide), by decide,
    by decide, by decide, by decide,
    fservable _ _ _ _ (by decide +kernel) (by decide) (by decide) (by decide) (by decide), trivial⟩, rfl⟩

/-- Call, whether there is a signature, error. -/
def fanswer : VOut → Option (Nat × Bool × Option Err)
  | .ret id _ sig _ e => some (id, sig.isSome, e)
  | _ => none

example : ((Sys.start (fun _ => .empty) (fun _ => .empty)).run ftoy ⟨2, fsc (42 • 1)⟩ fcfg 3 fevs).1.map
    (fun a => fanswer a.2) = [some (0, true, none), some (1, true, none)] := by
  decide +kernel

end Horcrux
