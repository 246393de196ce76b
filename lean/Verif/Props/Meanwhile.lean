import Verif.Lemmas.Meanwhile
import Verif.Props.Overlap
/-
C106: a block above everything else is signed whatever else the cluster does meanwhile.
-/
namespace Horcrux
open Spec

theorem Spec.Serving.trans {C : Crypto} {vcfg : ValidatorCfg} {cfg : Nat → CosignerCfg} {n : Nat} {chainID : Bytes} {q : Signing}
    {s0 s1 s2 : Net} {g0 g1 g2 : Progress} (h : Serving C vcfg cfg n chainID q s0 g0 s1 g1)
    (h' : Serving C vcfg cfg n chainID q s1 g1 s2 g2) : Serving C vcfg cfg n chainID q s0 g0 s2 g2 := by
  induction h' with
  | refl => exact h
  | step e _ ha hs ih => exact .step e ih ha hs

section
variable {C : Crypto} {F G : Type} [Field F] [AddCommGroup G] [Module F G] {L : Lawful C F G}
  {pair : Bytes → Bytes → Prop} {n t : Nat} {cfg : Nat → CosignerCfg} {x : F} {kc : List F} {rsaPub : Nat → Bytes}
  {q : Signing} {chainID : Bytes}

/-- C106 (1): in a cluster that has run in any way, a call of `SignBlock` on the leader for a block above all that the leader and the
participants know; then anything that is about lower blocks or concerns other nodes, in between the steps of the round and in any
order. When the call is over, it has returned a signature that verifies; and it returns nothing else. -/
theorem C106_signs (hS : Setup C L pair n t cfg x kc rsaPub) (hq : Able n t q) (lv lc : Nat → SignState) (old : List SSC)
    (es : List NetEv) (s : Net) (h0 : (Net.start lv lc old).run C ⟨t, L.pt (x • L.B)⟩ cfg n chainID es = some s) (hr : Ready q s)
    (s' : Net) (g : Progress) (h : Serving C ⟨t, L.pt (x • L.B)⟩ cfg n chainID q
      (s.act C ⟨t, L.pt (x • L.B)⟩ q.leader (.call q.id q.block .leader)) .none s' g) :
    ∃ new, s'.outs = s.outs ++ new ∧
      ((s'.vs q.leader).calls q.id = none → ∃ sig, (q.leader, .ret q.id q.block (some sig) q.block.timestamp none) ∈ new ∧
        C.verify (L.pt (x • L.B)) q.block.signBytes sig = true) ∧
      (∀ b sig stamp e, (q.leader, .ret q.id b sig stamp e) ∈ new →
        b = q.block ∧ stamp = q.block.timestamp ∧ e = none ∧ ∃ sg, sig = some sg ∧ C.verify (L.pt (x • L.B)) b.signBytes sg = true) := by
  have hok := net_run_ok (fun p => start_ok _) h0
  obtain ⟨_, _, _, hm⟩ := MInv.serving hS hq ⟨_, _, _, MInv.start hok hr⟩ h
  obtain ⟨new, h1, h2, h3⟩ := hm.outs
  refine ⟨new, h1, fun hn => ?_, fun b sig stamp e ho => ?_⟩
  · obtain ⟨o, ho, sig, rfl, hv⟩ := h3 hn
    exact ⟨sig, ho, hv⟩
  · obtain ⟨sg, he, hv⟩ := h2 _ ho b sig stamp e rfl
    simp only [VOut.ret.injEq, true_and] at he
    obtain ⟨rfl, rfl, rfl, rfl⟩ := he
    exact ⟨rfl, rfl, rfl, sg, rfl, hv⟩

/-! ### Progress -/

variable {vcfg : ValidatorCfg}

/-- One thing after the other. -/
theorem serve_all {α : Type} (Q : Net → Progress → Prop) (P : α → Net → Progress → Prop) (l : List α)
    (h : ∀ a ∈ l, ∀ s g, Q s g → ∃ s' g', Serving C vcfg cfg n chainID q s g s' g' ∧ Q s' g' ∧ P a s' g' ∧
      ∀ a', P a' s g → P a' s' g') :
    ∀ s g, Q s g → ∃ s' g', Serving C vcfg cfg n chainID q s g s' g' ∧ Q s' g' ∧ (∀ a ∈ l, P a s' g') ∧
      ∀ a', P a' s g → P a' s' g' := by
  induction l with
  | nil => intro s g hQ; exact ⟨s, g, .refl, hQ, by simp, fun _ h => h⟩
  | cons a l ih =>
    intro s g hQ
    obtain ⟨s1, g1, a1, a2, a3, a4⟩ := h a (List.mem_cons_self ..) s g hQ
    obtain ⟨s2, g2, b1, b2, b3, b4⟩ := ih (fun a' ha' => h a' (List.mem_cons_of_mem _ ha')) s1 g1 a2
    refine ⟨s2, g2, a1.trans b1, b2, ?_, fun a' ha' => b4 a' (a4 a' ha')⟩
    intro a' ha'
    rcases List.mem_cons.1 ha' with rfl | ha'
    · exact b4 _ a3
    · exact b3 a' ha'

/-- The invariant, and the call is in its round. -/
def InCall (L : Lawful C F G) (n t : Nat) (cfg : Nat → CosignerCfg) (x : F) (kc : List F) (rsaPub : Nat → Bytes) (q : Signing)
    (base : List (Nat × VOut)) (s : Net) (g : Progress) : Prop :=
  (∃ sec r H, MInv L n t cfg x kc rsaPub q base sec r H s g) ∧ (s.vs q.leader).calls q.id = some (q.block, .round)

theorem serve_get (hS : Setup C L pair n t cfg x kc rsaPub) (hq : Able n t q) (base : List (Nat × VOut)) (s : Net) (g : Progress)
    (h : InCall L n t cfg x kc rsaPub q base s g) :
    ∃ s' g', Serving C ⟨t, L.pt (x • L.B)⟩ cfg n chainID q s g s' g' ∧ InCall L n t cfg x kc rsaPub q base s' g' ∧
      ∀ a ∈ q.ps.product q.ps, ∃ y ∈ g'.parts a.1, y.destinationID = (a.2 : Int) := by
  obtain ⟨s', g', h1, h2, h3, _⟩ := serve_all (C := C) (vcfg := ⟨t, L.pt (x • L.B)⟩) (cfg := cfg) (n := n) (chainID := chainID) (q := q)
    (InCall L n t cfg x kc rsaPub q base) (fun (a : Nat × Nat) _ g => ∃ y ∈ g.parts a.1, y.destinationID = (a.2 : Int))
    (q.ps.product q.ps) (by
      rintro ⟨p, i⟩ ha s g ⟨⟨sec, r, H, hm⟩, hc⟩
      obtain ⟨hp, hi⟩ := List.mem_product.1 ha
      have hok : InRound n q g p (.getPart ⟨i, q.block.height, q.block.round, q.block.step,
          GoTime.ofUnixNano q.block.key.timestamp⟩ ⟨some (List.replicate 32 0), [], [], []⟩) :=
        .get i _ (hq.ids i hi).1 (hq.ids i hi).2 ⟨_, rfl, by simp⟩
      obtain ⟨_, _, part, c', g1, _, _, g4, _⟩ := (hm.cos p hp).get hS (hq.ids p hp).1 (hq.ids p hp).2
        (fun j hj => (hm.sub j hj).2) (hq.ids i hi).1 (hq.ids i hi).2 (rnd := ⟨some (List.replicate 32 0), [], [], []⟩)
        ⟨_, rfl, by simp⟩
      have hst : s.step C ⟨t, L.pt (x • L.B)⟩ cfg n chainID (.cos p (.getPart ⟨i, q.block.height, q.block.round, q.block.step,
          GoTime.ofUnixNano q.block.key.timestamp⟩ ⟨some (List.replicate 32 0), [], [], []⟩)) =
          some { s with cs := fun j => if j = p then c' else s.cs j } := by
        simp only [Net.step, CState.step, g1]
      have hal : Allowed chainID n q s g (.cos p _) := fun _ => .inr hok
      refine ⟨_, _, .step _ .refl hal hst, ⟨hm.step hS hq hal hst, hc⟩, ?_, ?_⟩
      · simp only [Progress.next, g1, getKey, if_true]
        exact ⟨part, List.mem_cons_self .., g4⟩
      · rintro ⟨p', i'⟩ ⟨y, hy, hd⟩
        refine ⟨y, ?_, hd⟩
        simp only [Progress.next, g1, getKey, if_true]
        split
        · exact List.mem_cons_of_mem _ hy
        · exact hy) s g h
  exact ⟨s', g', h1, h2, h3⟩

theorem serve_set (hS : Setup C L pair n t cfg x kc rsaPub) (hq : Able n t q) (base : List (Nat × VOut)) (s : Net) (g : Progress)
    (h : InCall L n t cfg x kc rsaPub q base s g)
    (hparts : ∀ a ∈ q.ps.product q.ps, ∃ y ∈ g.parts a.1, y.destinationID = (a.2 : Int)) :
    ∃ s' g', Serving C ⟨t, L.pt (x • L.B)⟩ cfg n chainID q s g s' g' ∧ InCall L n t cfg x kc rsaPub q base s' g' ∧
      (∀ p ∈ q.ps, g'.parts p ≠ []) ∧ ∀ p ∈ q.ps, ∀ j ∈ q.ps, j ≠ p → j ∈ g'.had p := by
  have hown : ∀ {g : Progress}, (∀ a ∈ q.ps.product q.ps, ∃ y ∈ g.parts a.1, y.destinationID = (a.2 : Int)) →
      ∀ p ∈ q.ps, g.parts p ≠ [] := by
    intro g hg p hp e
    obtain ⟨y, hy, _⟩ := hg (p, p) (List.mem_product.2 ⟨hp, hp⟩)
    change y ∈ g.parts p at hy
    rw [e] at hy
    cases hy
  obtain ⟨s', g', h1, ⟨h2, h2'⟩, h3, _⟩ := serve_all (C := C) (vcfg := ⟨t, L.pt (x • L.B)⟩) (cfg := cfg) (n := n) (chainID := chainID)
    (q := q) (fun s g => InCall L n t cfg x kc rsaPub q base s g ∧
      ∀ a ∈ q.ps.product q.ps, ∃ y ∈ g.parts a.1, y.destinationID = (a.2 : Int))
    (fun (a : Nat × Nat) _ g => a.2 ≠ a.1 → a.2 ∈ g.had a.1) (q.ps.product q.ps) (by
      rintro ⟨p, j⟩ ha s g ⟨⟨⟨sec, r, H, hm⟩, hc⟩, hg⟩
      obtain ⟨hp, hj⟩ := List.mem_product.1 ha
      by_cases hne : j = p
      · exact ⟨s, g, .refl, ⟨⟨⟨sec, r, H, hm⟩, hc⟩, hg⟩, fun h => absurd hne h, fun _ h => h⟩
      · obtain ⟨y, hy, hd⟩ := hg (j, p) (List.mem_product.2 ⟨hj, hp⟩)
        simp only at hy hd
        obtain ⟨i, _, _, hpart⟩ := (hm.cos j hj).handed y hy
        have hip : i = p := by have := hpart.dest; rw [hd] at this; exact_mod_cast this.symm
        subst hip
        have hjH : j ∈ H := by
          rcases (hm.cos j hj).state with ⟨_, _, _, e, _⟩ | ⟨hjH, _⟩
          · rw [e] at hy; cases hy
          · exact hjH
        obtain ⟨c', g1, _⟩ := (hm.cos i hp).set hS (hq.ids i hp).1 (hq.ids i hp).2 (hown hg i hp) (hq.ids j hj).1 (hq.ids j hj).2 hjH
          hpart ⟨none, [], [], []⟩
        have hok : InRound n q g i (.setPart (y.toSetReq q.block.key) ⟨none, [], [], []⟩) := .set j y _ hj hne hy hd (hown hg i hp)
        have hst : s.step C ⟨t, L.pt (x • L.B)⟩ cfg n chainID (.cos i (.setPart (y.toSetReq q.block.key) ⟨none, [], [], []⟩)) =
            some { s with cs := fun j => if j = i then c' else s.cs j } := by
          simp only [Net.step, CState.step, g1]
        have hkey : SetPartReq.key (y.toSetReq q.block.key) = q.block.key := by
          unfold SetPartReq.key SecretPart.toSetReq
          simp only [ofUnixNano_unixNano (show IsI64 q.block.key.timestamp from unixNano_isI64 _)]
        have hsrc : (y.toSetReq q.block.key).sourceID.toNat = j := by
          have : (y.toSetReq q.block.key).sourceID = (j : Int) := hpart.source
          rw [this]; rfl
        have hal : Allowed chainID n q s g (.cos i _) := fun _ => .inr hok
        refine ⟨_, _, .step _ .refl hal hst, ⟨⟨hm.step hS hq hal hst, hc⟩, ?_⟩, ?_, ?_⟩
        · simp only [Progress.next, hkey, if_true]
          exact hg
        · intro _
          simp only [Progress.next, hkey, if_true, hsrc]
          exact List.mem_cons_self ..
        · rintro ⟨p', j'⟩ h' hne'
          simp only [Progress.next, hkey, if_true]
          split
          · exact List.mem_cons_of_mem _ (h' hne')
          · exact h' hne') s g ⟨h, hparts⟩
  exact ⟨s', g', h1, h2, hown h2', fun p hp j hj hne => h3 (p, j) (List.mem_product.2 ⟨hp, hj⟩) hne⟩

theorem serve_sign (hS : Setup C L pair n t cfg x kc rsaPub) (hq : Able n t q) (base : List (Nat × VOut)) (s : Net) (g : Progress)
    (h : InCall L n t cfg x kc rsaPub q base s g) (hown : ∀ p ∈ q.ps, g.parts p ≠ [])
    (hall : ∀ p ∈ q.ps, ∀ j ∈ q.ps, j ≠ p → j ∈ g.had p) :
    ∃ s' g', Serving C ⟨t, L.pt (x • L.B)⟩ cfg n chainID q s g s' g' ∧ InCall L n t cfg x kc rsaPub q base s' g' ∧
      ∀ p ∈ q.ps, ∃ res, (p, q.block.signBytes, res) ∈ s'.sent := by
  obtain ⟨s', g', h1, ⟨h2, _⟩, h3, _⟩ := serve_all (C := C) (vcfg := ⟨t, L.pt (x • L.B)⟩) (cfg := cfg) (n := n) (chainID := chainID)
    (q := q) (fun s g => InCall L n t cfg x kc rsaPub q base s g ∧ (∀ p ∈ q.ps, g.parts p ≠ []) ∧
      ∀ p ∈ q.ps, ∀ j ∈ q.ps, j ≠ p → j ∈ g.had p)
    (fun (p : Nat) s _ => ∃ res, (p, q.block.signBytes, res) ∈ s.sent) q.ps (by
      rintro p hp s g ⟨⟨⟨sec, r, H, hm⟩, hc⟩, hown, hall⟩
      obtain ⟨res, c', g1, _, _⟩ := (hm.cos p hp).sign hS hq.bytes (fun j hj => (hm.sub j hj).1) (hq.ids p hp).1 (hq.ids p hp).2
        (hown p hp) (hall p hp)
      have hok : InRound n q g p (.sign q.block.signBytes) := .sign (hown p hp) (hall p hp)
      have hst : s.step C ⟨t, L.pt (x • L.B)⟩ cfg n chainID (.cos p (.sign q.block.signBytes)) =
          some { s with cs := fun j => if j = p then c' else s.cs j, sent := s.sent ++ [(p, q.block.signBytes, res)] } := by
        simp only [Net.step, CState.step, g1, Out.map]
      have hal : Allowed chainID n q s g (.cos p _) := fun _ => .inr hok
      refine ⟨_, _, .step _ .refl hal hst, ⟨⟨hm.step hS hq hal hst, hc⟩, hown, hall⟩, ?_, ?_⟩
      · exact ⟨res, by simp⟩
      · rintro p' ⟨res', h'⟩
        exact ⟨res', List.mem_append_left _ h'⟩) s g ⟨h, hown, hall⟩
  exact ⟨s', g', h1, h2, h3⟩

theorem serve_answer (hS : Setup C L pair n t cfg x kc rsaPub) (hq : Able n t q) (base : List (Nat × VOut)) (s : Net) (g : Progress)
    (h : InCall L n t cfg x kc rsaPub q base s g) (hsent : ∀ p ∈ q.ps, ∃ res, (p, q.block.signBytes, res) ∈ s.sent) :
    ∃ s' g', Serving C ⟨t, L.pt (x • L.B)⟩ cfg n chainID q s g s' g' ∧ InCall L n t cfg x kc rsaPub q base s' g' ∧
      ∀ p ∈ q.ps, s'.table q.leader q.id p ≠ none := by
  obtain ⟨s', g', h1, ⟨h2, _⟩, h3, _⟩ := serve_all (C := C) (vcfg := ⟨t, L.pt (x • L.B)⟩) (cfg := cfg) (n := n) (chainID := chainID)
    (q := q) (fun s g => InCall L n t cfg x kc rsaPub q base s g ∧ ∀ p ∈ q.ps, ∃ res, (p, q.block.signBytes, res) ∈ s.sent)
    (fun (p : Nat) s _ => s.table q.leader q.id p ≠ none) q.ps (by
      rintro p hp s g ⟨⟨⟨sec, r, H, hm⟩, hc⟩, hsent⟩
      obtain ⟨res, hres⟩ := hsent p hp
      obtain ⟨i, hi⟩ := List.getElem?_of_mem hres
      have ha : Allowed chainID n q s g (.answer q.leader q.id i) := by
        intro _ _ j bs r' hj
        rw [hi] at hj
        cases hj
        exact hp
      have hst : s.step C ⟨t, L.pt (x • L.B)⟩ cfg n chainID (.answer q.leader q.id i) =
          some { s with table := fun j i' y => if j = q.leader ∧ i' = q.id ∧ y = p then some res else s.table j i' y } := by
        simp only [Net.step, hc, hi, if_true]
      refine ⟨_, _, .step _ .refl ha hst, ⟨⟨hm.step hS hq ha hst, hc⟩, hsent⟩, ?_, ?_⟩
      · simp
      · intro p' h'
        simp only
        split
        · simp
        · exact h') s g ⟨h, hsent⟩
  exact ⟨s', g', h1, h2, h3⟩

/-- A call that has a signature can end. -/
theorem serve_end {base : List (Nat × VOut)} {sec r : Nat → Bytes} {H : List Nat}
    {s : Net} {g : Progress} (hm : MInv L n t cfg x kc rsaPub q base sec r H s g) {sig : Bytes}
    (hc : (s.vs q.leader).calls q.id = some (q.block, .save sig) ∨ (s.vs q.leader).calls q.id = some (q.block, .emit sig)) :
    ∃ s' g', Serving C ⟨t, L.pt (x • L.B)⟩ cfg n chainID q s g s' g' ∧ (s'.vs q.leader).calls q.id = none := by
  have emit : ∀ (s : Net) (g : Progress), (s.vs q.leader).calls q.id = some (q.block, .emit sig) →
      ∃ s' g', Serving C ⟨t, L.pt (x • L.B)⟩ cfg n chainID q s g s' g' ∧ (s'.vs q.leader).calls q.id = none := by
    intro s g hc
    refine ⟨_, _, .step (.emit q.leader q.id) .refl trivial rfl, ?_⟩
    rw [(act_fields (C := C) (vcfg := ⟨t, L.pt (x • L.B)⟩) s q.leader (.emit q.id)).2.2.2.1]
    simp only [if_true, VState.step, hc, VState.finish]
  rcases hc with hc | hc
  · have hle := save_le (l := (s.vs q.leader).lss) (r := q.block.record sig) hm.lead.lss
    have hst : s.step C ⟨t, L.pt (x • L.B)⟩ cfg n chainID (.save q.leader q.id) =
        some { s.act C ⟨t, L.pt (x • L.B)⟩ q.leader (.save q.id) with made := s.made ++ [q.block.record sig] } := by
      simp only [Net.step, hc]
    obtain ⟨s', g', h1, h2⟩ := emit { s.act C ⟨t, L.pt (x • L.B)⟩ q.leader (.save q.id) with made := s.made ++ [q.block.record sig] }
      (g.next C cfg q s (.save q.leader q.id)) (by
        rw [show ({ s.act C ⟨t, L.pt (x • L.B)⟩ q.leader (.save q.id) with made := s.made ++ [q.block.record sig] } : Net).vs =
          (s.act C ⟨t, L.pt (x • L.B)⟩ q.leader (.save q.id)).vs from rfl,
          (act_fields (C := C) (vcfg := ⟨t, L.pt (x • L.B)⟩) s q.leader (.save q.id)).2.2.2.1]
        simp only [if_true, VState.step, hc]
        generalize (s.vs q.leader).lss.save (q.block.record sig) = y at hle
        obtain ⟨e, l⟩ := y
        rcases hle with hle | ⟨z, hle⟩ <;> simp only at hle <;> subst hle <;> simp [VState.setPhase])
    exact ⟨s', g', (Serving.step (.save q.leader q.id) .refl trivial hst).trans h1, h2⟩
  · exact emit s g hc

/-- C106 (2): at every moment of that, whatever has happened so far, the round can be completed: there is a way to go on after which
the call is over. -/
theorem C106_progress (hS : Setup C L pair n t cfg x kc rsaPub) (hq : Able n t q) (lv lc : Nat → SignState) (old : List SSC)
    (es : List NetEv) (s : Net) (h0 : (Net.start lv lc old).run C ⟨t, L.pt (x • L.B)⟩ cfg n chainID es = some s) (hr : Ready q s)
    (s' : Net) (g : Progress) (h : Serving C ⟨t, L.pt (x • L.B)⟩ cfg n chainID q
      (s.act C ⟨t, L.pt (x • L.B)⟩ q.leader (.call q.id q.block .leader)) .none s' g) :
    ∃ s'' g', Serving C ⟨t, L.pt (x • L.B)⟩ cfg n chainID q s' g s'' g' ∧ (s''.vs q.leader).calls q.id = none := by
  have hok := net_run_ok (fun p => start_ok _) h0
  obtain ⟨sec, r, H, hm⟩ := MInv.serving hS hq ⟨_, _, _, MInv.start hok hr⟩ h
  rcases hm.lead.call with hc | ⟨sig, _, hc⟩ | hc
  · obtain ⟨s1, g1, a1, a2, a3⟩ := serve_get (chainID := chainID) hS hq s.outs s' g ⟨⟨sec, r, H, hm⟩, hc⟩
    obtain ⟨s2, g2, b1, b2, b3, b4⟩ := serve_set (chainID := chainID) hS hq s.outs s1 g1 a2 a3
    obtain ⟨s3, g3, c1, c2, c3⟩ := serve_sign (chainID := chainID) hS hq s.outs s2 g2 b2 b3 b4
    obtain ⟨s4, g4, d1, ⟨⟨sec4, r4, H4, hm4⟩, hc4⟩, d3⟩ := serve_answer (chainID := chainID) hS hq s.outs s3 g3 c2 c3
    obtain ⟨sig, e1, e2⟩ := hm4.assemble hS hq d3
    have ha : Allowed chainID n q s4 g4 (.assemble q.leader q.id) := fun _ _ => d3
    have hst : s4.step C ⟨t, L.pt (x • L.B)⟩ cfg n chainID (.assemble q.leader q.id) = some (s4.act C ⟨t, L.pt (x • L.B)⟩ q.leader
      (.roundDone q.id (.sigs (s4.shares n q.leader q.id).1 (s4.shares n q.leader q.id).2))) := rfl
    obtain ⟨_, _, _, hm5⟩ := hm4.step hS hq ha hst
    obtain ⟨s6, g6, f1, f2⟩ := serve_end (chainID := chainID) hm5 (sig := sig) (.inl (by
      rw [(act_fields (C := C) (vcfg := ⟨t, L.pt (x • L.B)⟩) s4 q.leader _).2.2.2.1]
      simp only [if_true, VState.step, hc4, e1, VState.setPhase]))
    exact ⟨s6, g6, (((a1.trans b1).trans c1).trans d1).trans ((Serving.step _ .refl ha hst).trans f1), f2⟩
  · exact serve_end hm hc
  · exact ⟨s', g, .refl, hc⟩

end

/-! ### Concretely -/

/-- Cosigners 3 and 1 are to sign the block of height 8; the leader is node 3. -/
def msigning : Signing := ⟨blk3, 3, 1, [3, 1]⟩

theorem msigning_able : Able 3 2 msigning :=
  ⟨by decide +kernel, by decide, by decide, by decide, by decide⟩

/-- Before: node 3 has begun a round for the block of height 7, and node 2 is asked for the block of height 8. -/
def mbefore : List NetEv := [.call 3 0 blk1 .leader, .call 2 5 blk3 .follower]

def mstate : Net := (ostart.act ftoy ⟨2, fsc (42 • 1)⟩ 3 (.call 0 blk1 .leader)).act ftoy ⟨2, fsc (42 • 1)⟩ 2 (.call 5 blk3 .follower)

theorem mstate_run : ostart.run ftoy ⟨2, fsc (42 • 1)⟩ fcfg 3 [97] mbefore = some mstate := rfl

theorem mstate_ready : Ready msigning mstate where
  lss := fun p _ => show (⟨0, 0, 0⟩ : HRS) ≺ ⟨8, 1, 3⟩ by decide
  recs := fun _ _ _ _ => rfl
  sent := fun _ _ _ h => nomatch h
  vlss := by decide +kernel
  init := by decide +kernel
  free := by decide +kernel
  calls := by
    intro id b ph h
    by_cases hid : id = 0
    · subst hid
      have : (mstate.vs 3).calls 0 = some (blk1, .round) := by decide +kernel
      rw [show msigning.leader = 3 from rfl, this] at h
      cases h
      decide +kernel
    · have : (mstate.vs 3).calls id = none := by
        show (if id = 0 then some (blk1, Phase.round) else none) = none
        rw [if_neg hid]
      rw [show msigning.leader = 3 from rfl, this] at h
      cases h

/-- What happens first: node 3 gives a part for the lower block, then one for this block, cosigner 2 lies and starts again, the leader
gives the lower block up, and the cosigner of node 1 sees a record of a lower block. -/
def mmeanwhile : List NetEv :=
  [.cos 3 (.getPart ⟨1, 7, 1, 3, GoTime.ofUnixNano blk1.key.timestamp⟩ (trnd 3 0)),
   .cos 3 (.getPart ⟨1, 8, 1, 3, GoTime.ofUnixNano blk3.key.timestamp⟩ (trnd 3 1)),
   .lie 2 blk3.signBytes ⟨some [1], some [2], none⟩, .restart 2 .empty .empty, .giveUp 3 0 .stillWaiting,
   .cos 1 (.saveLSS ⟨7, 1, 3, some [9], some b1⟩)]

/-- The events of a list, when each of them may happen. -/
theorem serving_of {C : Crypto} {vcfg : ValidatorCfg} {cfg : Nat → CosignerCfg} {n : Nat} {chainID : Bytes} {q : Signing} {s0 s1 : Net}
    {g0 g1 : Progress} (h : Serving C vcfg cfg n chainID q s0 g0 s1 g1) (e : NetEv) (ha : Allowed chainID n q s1 g1 e)
    (hs : (s1.step C vcfg cfg n chainID e).isSome = true) :
    ∃ s2 g2, s1.step C vcfg cfg n chainID e = some s2 ∧ Serving C vcfg cfg n chainID q s0 g0 s2 g2 := by
  obtain ⟨s2, h2⟩ := Option.isSome_iff_exists.1 hs
  exact ⟨s2, _, h2, .step e h ha h2⟩

theorem mserving : ∃ s g, Serving ftoy ⟨2, fsc (42 • 1)⟩ fcfg 3 [97] msigning
      (mstate.act ftoy ⟨2, fsc (42 • 1)⟩ 3 (.call 1 blk3 .leader)) .none s g ∧
    (mstate.act ftoy ⟨2, fsc (42 • 1)⟩ 3 (.call 1 blk3 .leader)).run ftoy ⟨2, fsc (42 • 1)⟩ fcfg 3 [97] mmeanwhile = some s := by
  have h0 := Serving.refl (C := ftoy) (vcfg := ⟨2, fsc (42 • 1)⟩) (cfg := fcfg) (n := 3) (chainID := [97]) (q := msigning)
    (s0 := mstate.act ftoy ⟨2, fsc (42 • 1)⟩ 3 (.call 1 blk3 .leader)) (g0 := .none)
  obtain ⟨s1, _, e1, h1⟩ := serving_of h0 (mmeanwhile[0]) (fun _ => .inl (show (⟨7, 1, 3⟩ : HRS) ≺ ⟨8, 1, 3⟩ by decide)) rfl
  obtain ⟨s2, _, e2, h2⟩ := serving_of h1 (mmeanwhile[1]) (fun _ => .inr (.get 1 _ (by decide) (by decide) ⟨_, rfl, by simp⟩)) rfl
  obtain ⟨s3, _, e3, h3⟩ := serving_of h2 (mmeanwhile[2]) (show 2 ∉ [3, 1] by decide) rfl
  obtain ⟨s4, _, e4, h4⟩ := serving_of h3 (mmeanwhile[3]) (show 2 ∉ [3, 1] by decide) rfl
  obtain ⟨s5, _, e5, h5⟩ := serving_of h4 (mmeanwhile[4]) (show ¬ (3 = 3 ∧ 0 = 1) by decide) rfl
  obtain ⟨s6, g6, e6, h6⟩ := serving_of h5 (mmeanwhile[5]) (fun _ => .inl (show (⟨7, 1, 3⟩ : HRS) ≺ ⟨8, 1, 3⟩ by decide)) rfl
  refine ⟨s6, g6, h6, ?_⟩
  show Net.run _ _ _ _ _ _ [mmeanwhile[0], mmeanwhile[1], mmeanwhile[2], mmeanwhile[3], mmeanwhile[4], mmeanwhile[5]] = _
  simp only [Net.run, e1, e2, e3, e4, e5, e6, Option.bind_some]

/-- Concretely: the round can be completed after that, and then the call has returned a signature that verifies. -/
example : ∃ s g s' g' sig, (mstate.act ftoy ⟨2, fsc (42 • 1)⟩ 3 (.call 1 blk3 .leader)).run ftoy ⟨2, fsc (42 • 1)⟩ fcfg 3 [97] mmeanwhile = some s ∧
    Serving ftoy ⟨2, fsc (42 • 1)⟩ fcfg 3 [97] msigning s g s' g' ∧
    (3, VOut.ret 1 blk3 (some sig) blk3.timestamp none) ∈ s'.outs ∧ ftoy.verify (fsc (42 • 1)) blk3.signBytes sig = true := by
  obtain ⟨s, g, h1, h2⟩ := mserving
  obtain ⟨s', g', h3, h4⟩ := C106_progress fsetup msigning_able (fun _ => .empty) (fun _ => .empty) [] mbefore mstate mstate_run
    mstate_ready s g h1
  obtain ⟨new, h5, h6, _⟩ := C106_signs fsetup msigning_able (fun _ => .empty) (fun _ => .empty) [] mbefore mstate mstate_run
    mstate_ready s' g' (h1.trans h3)
  obtain ⟨sig, h7, h8⟩ := h6 h4
  exact ⟨s, g, s', g', sig, h2, h3, by rw [h5]; exact List.mem_append_right _ h7, h8⟩

end Horcrux
