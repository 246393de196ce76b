import Verif.Spec.Halt
import Verif.Props.Proxy
import Verif.Props.Admin
import Verif.Props.GrpcText
/-
Property C123: the `Shutdown` method of the raft administration service.
-/
namespace Horcrux
open Spec

section
variable {C : Crypto} {vcfg : ValidatorCfg} {cfg : Nat → CosignerCfg} {n : Nat}

theorem proxyError_unsigned (v : VState) (id : Nat) (e : Err) : Unsigned (v.step C vcfg (.proxyDone id (.error e))).1 := by
  intro id' b sig ts err h
  simp only [VState.step] at h
  split at h
  · simp only [VOut.ret.injEq] at h
    obtain ⟨-, -, h3, -, h5⟩ := h
    exact ⟨h3.symm, by rw [← h5]; simp⟩
  · cases h

theorem remoteAnswer_unsigned {o : VOut} (h : Unsigned o) : ∃ e, remoteAnswer o = .error e := by
  cases o with
  | ret id b sig ts e =>
    obtain ⟨h1, h2⟩ := h id b sig ts e rfl
    cases e with
    | none => exact absurd rfl h2
    | some e => exact ⟨_, rfl⟩
  | _ => exact ⟨_, rfl⟩

/-- Some node on the way does not know the leader. -/
theorem haltVia_unsigned : ∀ (hops : List (Nat × Nat)) (h : Halt) (chainID : Bytes) (q : Req),
    (h.elects n = false ∨ h.up q.leader = false ∨ ∃ x ∈ hops, h.up x.1 = false) →
    Unsigned (h.signVia C vcfg cfg n chainID hops q).1 := by
  intro hops
  induction hops with
  | nil =>
    intro h chainID q hd
    have : (h.elects n && h.up q.leader) = false := by
      rcases hd with hd | hd | ⟨x, hx, _⟩
      · simp [hd]
      · simp [hd]
      · simp at hx
    simp only [Halt.signVia, this]
    exact proxyError_unsigned _ _ _
  | cons x hops ih =>
    obtain ⟨p, id⟩ := x
    intro h chainID q hd
    simp only [Halt.signVia]
    by_cases hp : (h.elects n && h.up p) = true
    · rw [if_pos hp]
      simp only [Bool.and_eq_true] at hp
      cases hrec : recvSignBlock (sendSignBlock chainID q.block) with
      | none => exact proxyError_unsigned _ _ _
      | some cb =>
        obtain ⟨c, b⟩ := cb
        simp only
        have hd' : h.elects n = false ∨ h.up q.leader = false ∨ ∃ x ∈ hops, h.up x.1 = false := by
          rcases hd with hd | hd | ⟨x, hx, hd⟩
          · exact .inl hd
          · exact .inr (.inl hd)
          · rcases List.mem_cons.1 hx with rfl | hx
            · rw [hp.2] at hd; cases hd
            · exact .inr (.inr ⟨x, hx, hd⟩)
        obtain ⟨e, he⟩ := remoteAnswer_unsigned
          (ih { h with sys := h.sys.setV p ((h.sys.vs p).step C vcfg (.call id q.block .follower)).2 } c
            { q with block := b } hd')
        rw [he]
        exact proxyError_unsigned _ _ _
    · rw [if_neg hp]
      exact proxyError_unsigned _ _ _

/-- All nodes on the way run raft, and most of the cluster. -/
theorem haltVia_up : ∀ (hops : List (Nat × Nat)) (h : Halt) (chainID : Bytes) (q : Req),
    h.elects n = true → h.up q.leader = true → (∀ x ∈ hops, h.up x.1 = true) →
    h.signVia C vcfg cfg n chainID hops q = h.sys.signVia C vcfg cfg n chainID hops q := by
  intro hops
  induction hops with
  | nil => intro h chainID q h1 h2 _; simp [Halt.signVia, Sys.signVia, h1, h2]
  | cons x hops ih =>
    obtain ⟨p, id⟩ := x
    intro h chainID q h1 h2 h3
    have hp : h.up p = true := h3 _ (List.mem_cons_self ..)
    simp only [Halt.signVia, Sys.signVia, h1, hp, Bool.and_self, if_true]
    cases hrec : recvSignBlock (sendSignBlock chainID q.block) with
    | none => rfl
    | some cb =>
      simp only
      rw [ih { h with sys := h.sys.setV p ((h.sys.vs p).step C vcfg (.call id q.block .follower)).2 } cb.1
        { q with block := cb.2 } h1 h2 (fun x hx => h3 x (List.mem_cons_of_mem _ hx))]

theorem filter_range_card (n : Nat) (f : Nat → Bool) :
    ((List.range' 1 n).filter f).length = ((Finset.Icc 1 n).filter (fun p => f p = true)).card := by
  rw [← List.toFinset_card_of_nodup ((List.nodup_range' (step := 1)).filter _)]
  congr 1
  ext p
  simp only [List.mem_toFinset, List.mem_filter, List.mem_range'_1, Finset.mem_filter, Finset.mem_Icc]
  constructor <;> rintro ⟨⟨a, b⟩, c⟩ <;> exact ⟨⟨a, by omega⟩, c⟩

/-- With half of the members down there is no leader. -/
theorem no_election {h : Halt} {S : Finset Nat} (hS : S ⊆ Finset.Icc 1 n) (hq : n ≤ 2 * S.card)
    (hd : ∀ p ∈ S, h.up p = false) : h.elects n = false := by
  unfold Halt.elects
  rw [filter_range_card, decide_eq_false_iff_not]
  have h1 : (Finset.Icc 1 n).filter (fun p => h.up p = true) ⊆ Finset.Icc 1 n \ S := by
    intro p hp
    obtain ⟨a, b⟩ := Finset.mem_filter.1 hp
    exact Finset.mem_sdiff.2 ⟨a, fun hs => by rw [hd p hs] at b; cases b⟩
  have h2 := Finset.card_le_card h1
  rw [Finset.card_sdiff_of_subset hS, Nat.card_Icc] at h2
  omega

/-- With fewer than half of them down there is one. -/
theorem election {h : Halt} {S : Finset Nat} (hq : 2 * (S ∩ Finset.Icc 1 n).card < n)
    (hd : ∀ p, h.up p = false → p ∈ S) : h.elects n = true := by
  unfold Halt.elects
  rw [filter_range_card, decide_eq_true_iff]
  have h1 : Finset.Icc 1 n \ (S ∩ Finset.Icc 1 n) ⊆ (Finset.Icc 1 n).filter (fun p => h.up p = true) := by
    intro p hp
    obtain ⟨a, b⟩ := Finset.mem_sdiff.1 hp
    refine Finset.mem_filter.2 ⟨a, ?_⟩
    cases hu : h.up p with
    | true => rfl
    | false => exact absurd (Finset.mem_inter.2 ⟨hd p hu, a⟩) b
  have h2 := Finset.card_le_card h1
  rw [Finset.card_sdiff_of_subset Finset.inter_subset_right, Nat.card_Icc] at h2
  omega

/-- A node that is down stays so until it is started again. -/
theorem halt_down (h : Halt) (e : HaltEv) (p : Nat) (hd : h.up p = false) (hr : ¬ Restarts p e) :
    (h.step C vcfg cfg n e).2.up p = false := by
  cases e with
  | shutdown j bs =>
    simp only [Halt.step]
    cases gDecode shutdownHandler () bs with
    | none => exact hd
    | some _ => simp only; split <;> first | rfl | exact hd
  | sys chainID hops e =>
    cases e with
    | sign q => exact hd
    | deliver j r => simp only [Halt.step]; split <;> exact hd
    | other j op => exact hd
    | restart j lv lc =>
      have : ¬ p = j := fun h0 => hr h0.symm
      simp only [Halt.step, if_neg this]; exact hd

/-- The answers given while `S` is down and this blocks the requests that come to a node with `P`. -/
theorem halt_run_unsigned (S : Finset Nat) (P : Nat → Prop)
    (hP : ∀ h : Halt, (∀ p ∈ S, h.up p = false) → ∀ hops q, P (entryNode hops q) →
      h.elects n = false ∨ h.up q.leader = false ∨ ∃ x ∈ hops, h.up x.1 = false) :
    ∀ (evs : List HaltEv) (h : Halt), (∀ p ∈ S, h.up p = false) → (∀ e ∈ evs, ∀ p ∈ S, ¬ Restarts p e) →
      ∀ a ∈ (h.run C vcfg cfg n evs).1, P a.1 → Unsigned a.2.2 := by
  intro evs
  induction evs with
  | nil => intro h _ _ a ha; simp [Halt.run] at ha
  | cons e evs ih =>
    intro h hd hr a ha hPa
    simp only [Halt.run, List.mem_append] at ha
    rcases ha with ha | ha
    · cases e with
      | shutdown j bs =>
        simp only [Halt.step] at ha
        cases hg : gDecode shutdownHandler () bs <;> simp [hg] at ha
      | sys chainID hops e =>
        cases e with
        | sign q =>
          simp only [Halt.step, Option.toList_some, List.mem_singleton] at ha
          subst ha
          exact haltVia_unsigned hops h chainID q (hP h hd hops q hPa)
        | deliver j r => simp only [Halt.step] at ha; split at ha <;> simp at ha
        | other j op => simp [Halt.step] at ha
        | restart j lv lc => simp [Halt.step] at ha
    · exact ih _ (fun p hp => halt_down h e p (hd p hp) (hr e (List.mem_cons_self ..) p hp))
        (fun e' he' => hr e' (List.mem_cons_of_mem _ he')) a ha hPa

theorem shutdown_run : ∀ (ps : List Nat) (h : Halt),
    (h.run C vcfg cfg n (ps.map (.shutdown · []))).1 = [] ∧
    (h.run C vcfg cfg n (ps.map (.shutdown · []))).2.sys = h.sys ∧
    (∀ p ∈ ps, (h.run C vcfg cfg n (ps.map (.shutdown · []))).2.up p = false) ∧
    (∀ p ∉ ps, (h.run C vcfg cfg n (ps.map (.shutdown · []))).2.up p = h.up p) := by
  intro ps
  induction ps with
  | nil => intro h; exact ⟨rfl, rfl, by simp, fun _ _ => rfl⟩
  | cons p ps ih =>
    intro h
    have e : gDecode shutdownHandler () [] = some () := rfl
    simp only [List.map_cons, Halt.run, Halt.step, e, Option.toList_none, List.nil_append]
    obtain ⟨i1, i2, i3, i4⟩ := ih { h with up := fun j => if j = p then false else h.up j }
    refine ⟨i1, i2, fun j hj => ?_, fun j hj => ?_⟩
    · by_cases hm : j ∈ ps
      · exact i3 j hm
      · rw [i4 j hm]
        rcases List.mem_cons.1 hj with rfl | hj
        · simp
        · exact absurd hj hm
    · have h1 : ¬ j = p := fun h0 => hj (h0 ▸ List.mem_cons_self ..)
      rw [i4 j (fun h0 => hj (List.mem_cons_of_mem _ h0))]; simp [h1]

theorem haltNoLeader_lss (s : Sys) (j id : Nat) (b : Block) (p : Nat) :
    ((s.noLeader C vcfg j id b).2.vs p).lss = (s.vs p).lss := by
  have h1 : ((s.vs j).step C vcfg (.call id b .follower)).2.lss = (s.vs j).lss := by
    simp only [VState.step]; split <;> rfl
  have h2 : ∀ v : VState, (v.step C vcfg (.proxyDone id (.error .external))).2.lss = v.lss := by
    intro v; simp only [VState.step]; split <;> rfl
  by_cases hp : p = j
  · subst hp
    simp only [Sys.noLeader, Sys.setV, if_true]
    rw [h2, h1]
  · simp only [Sys.noLeader, Sys.setV, if_neg hp]

theorem signBlock_else (s : Sys) (q : Req) (p : Nat) (hp : p ≠ q.leader) :
    (s.signBlock C vcfg cfg n q).2.vs p = s.vs p := by
  unfold Sys.signBlock
  split
  · simp only [if_neg hp]
  · simp only [if_neg hp]

/-- A request moves no watermark of a validator that is down. -/
theorem haltVia_lss (p : Nat) : ∀ (hops : List (Nat × Nat)) (h : Halt) (chainID : Bytes) (q : Req), h.up p = false →
    ((h.signVia C vcfg cfg n chainID hops q).2.vs p).lss = (h.sys.vs p).lss := by
  intro hops
  induction hops with
  | nil =>
    intro h chainID q hd
    simp only [Halt.signVia]
    split
    · next hu =>
      rw [signBlock_else _ _ _ (fun h0 => by rw [← h0, hd] at hu; simp at hu)]
    · exact haltNoLeader_lss _ _ _ _ _
  | cons y hops ih =>
    obtain ⟨j, id⟩ := y
    intro h chainID q hd
    simp only [Halt.signVia]
    split
    · next hu =>
      have hj : p ≠ j := fun h0 => by rw [← h0, hd] at hu; simp at hu
      cases hrec : recvSignBlock (sendSignBlock chainID q.block) with
      | none => simp only [Sys.setV, if_neg hj]
      | some cb =>
        have := ih { h with sys := h.sys.setV j ((h.sys.vs j).step C vcfg (.call id q.block .follower)).2 } cb.1
          { q with block := cb.2 } hd
        simp only [Sys.setV, if_neg hj] at this ⊢
        exact this
    · exact haltNoLeader_lss _ _ _ _ _

theorem halt_run_lss : ∀ (evs : List HaltEv) (h : Halt) (p : Nat), h.up p = false → (∀ e ∈ evs, ¬ Restarts p e) →
    ((h.run C vcfg cfg n evs).2.sys.vs p).lss = (h.sys.vs p).lss := by
  intro evs
  induction evs with
  | nil => intro h p _ _; rfl
  | cons e evs ih =>
    intro h p hd hr
    have hre := hr e (List.mem_cons_self ..)
    simp only [Halt.run]
    rw [ih _ p (halt_down h e p hd hre) (fun e' he' => hr e' (List.mem_cons_of_mem _ he'))]
    cases e with
    | shutdown j bs => simp only [Halt.step]; split <;> rfl
    | sys chainID hops e =>
      cases e with
      | sign q => exact haltVia_lss p hops h chainID q hd
      | deliver j r =>
        simp only [Halt.step]
        split
        · next hu =>
          have hj : ¬ p = j := fun h0 => by rw [← h0, hd] at hu; cases hu
          simp only [Sys.step, if_neg hj]
        · rfl
      | other j op => rfl
      | restart j lv lc =>
        have hj : ¬ p = j := fun h0 => hre h0.symm
        simp only [Halt.step, Sys.step, if_neg hj]

end

theorem shutdown_has : shutdownHandler.Has [] [] := by
  refine ⟨?_, ?_, ?_⟩ <;> intro n hn <;> simp_all [shutdownHandler]

theorem Spec.TakenFor.empty {fs : List FVal} {bs : Bytes} (h : TakenFor [] [] fs bs) : fs = [] := by
  induction h with
  | nil => rfl
  | num hn => simp at hn
  | bytes hn => simp at hn
  | other _ _ _ _ ih => exact ih

/-- C123 is false: anyone who reaches the ports of half of the nodes stops the cluster with one empty request to each. Whatever
the state, and whatever happens afterwards, as long as none of these nodes is started again, no request for a signature gets
one, at any node. -/
theorem C123_fails (C : Crypto) (vcfg : ValidatorCfg) (cfg : Nat → CosignerCfg) (n : Nat) (h : Halt) (ps : List Nat)
    (hnd : ps.Nodup) (hid : ∀ p ∈ ps, 1 ≤ p ∧ p ≤ n) (hq : n ≤ 2 * ps.length) (evs : List HaltEv)
    (hr : ∀ e ∈ evs, ∀ p ∈ ps, ¬ Restarts p e) :
    ∀ a ∈ ((h.run C vcfg cfg n (ps.map (.shutdown · []))).2.run C vcfg cfg n evs).1, Unsigned a.2.2 := by
  intro a ha
  have hd := (shutdown_run (C := C) (vcfg := vcfg) (cfg := cfg) (n := n) ps h).2.2.1
  refine halt_run_unsigned ps.toFinset (fun _ => True) (fun h' hd' _ _ _ => .inl ?_) evs _
    (fun p hp => hd p (List.mem_toFinset.1 hp)) (fun e he p hp => hr e he p (List.mem_toFinset.1 hp)) a ha trivial
  refine no_election (fun p hp => Finset.mem_Icc.2 (hid p (List.mem_toFinset.1 hp))) ?_ hd'
  rw [List.toFinset_card_of_nodup hnd]; exact hq

/-- C123, a single node: one empty request to a node, and the chain nodes connected to it get no signature any more until it is
started again, although everything else in the cluster works. -/
theorem C123_node_fails (C : Crypto) (vcfg : ValidatorCfg) (cfg : Nat → CosignerCfg) (n : Nat) (h : Halt) (p : Nat)
    (evs : List HaltEv) (hr : ∀ e ∈ evs, ¬ Restarts p e) :
    ∀ a ∈ (h.run C vcfg cfg n (.shutdown p [] :: evs)).1, a.1 = p → Unsigned a.2.2 := by
  intro a ha hp
  have hd := shutdown_run (C := C) (vcfg := vcfg) (cfg := cfg) (n := n) [p] h
  have hd' : (h.step C vcfg cfg n (.shutdown p [])).2.up p = false := hd.2.2.1 p (List.mem_singleton.2 rfl)
  refine halt_run_unsigned (C := C) (vcfg := vcfg) (cfg := cfg) (n := n) {p} (fun e => e = p) (fun h' h1 hops q h2 => ?_) evs
    (h.step C vcfg cfg n (.shutdown p [])).2 (fun j hj => by rw [Finset.mem_singleton.1 hj]; exact hd')
    (fun e he j hj => by rw [Finset.mem_singleton.1 hj]; exact hr e he) a ?_ hp
  · have h3 := h1 p (Finset.mem_singleton_self p)
    cases hops with
    | nil => exact .inr (.inl (by rw [← h2] at h3; exact h3))
    | cons x hops => exact .inr (.inr ⟨x, List.mem_cons_self .., by rw [← h2] at h3; exact h3⟩)
  · have e : gDecode shutdownHandler () [] = some () := rfl
    simp only [Halt.run, Halt.step, e, Option.toList_none, List.nil_append] at ha ⊢
    exact ha

/-- C123, exactly: in a cluster that has signed nothing above `w`, a request for a higher block gets a signature, and then a
valid one, just if more than half of the members and all nodes on its way run raft. -/
theorem C123_exact {C : Crypto} {F G : Type} [Field F] [AddCommGroup G] [Module F G] {L : Lawful C F G}
    {pair : Bytes → Bytes → Prop} {n t : Nat} {cfg : Nat → CosignerCfg} {x : F} {kc : List F} {rsaPub : Nat → Bytes}
    (hS : Setup C L pair n t cfg x kc rsaPub) (hn : 2 ≤ n)
    (h64 : ∀ pk m sig, C.verify pk m sig = true → sig.length = 64) (w : HRS) (lv lc : Nat → SignState)
    (hv : ∀ p, (lv p).hrs ≼ w) (hc : ∀ p, (lc p).hrs ≼ w) (up : Nat → Bool) (chainID : Bytes) (hops : List (Nat × Nat))
    (q : Req) (hq : Servable n t q) (hw : w ≺ q.block.hrs) (hcid : Sent chainID) (hb : q.block.Typed)
    (hnd : ((q.leader, q.id) :: hops).Nodup) :
    let o := ((⟨Sys.start lv lc, up⟩ : Halt).signVia C ⟨t, L.pt (x • L.B)⟩ cfg n chainID hops q).1
    ((∃ id sig, o = .ret id q.block (some sig) q.block.timestamp none ∧
        C.verify (L.pt (x • L.B)) q.block.signBytes sig = true) ↔
      n < 2 * ((Finset.Icc 1 n).filter (fun p => up p = true)).card ∧ up q.leader = true ∧ ∀ h ∈ hops, up h.1 = true) ∧
    (Unsigned o ∨ ∃ id sig, o = .ret id q.block (some sig) q.block.timestamp none) := by
  intro o
  have he : (⟨Sys.start lv lc, up⟩ : Halt).elects n = true ↔
      n < 2 * ((Finset.Icc 1 n).filter (fun p => up p = true)).card := by
    unfold Halt.elects; rw [filter_range_card, decide_eq_true_iff]
  by_cases hup : (⟨Sys.start lv lc, up⟩ : Halt).elects n = true ∧ up q.leader = true ∧ ∀ h ∈ hops, up h.1 = true
  · obtain ⟨id, sig, s', e1, e2, _⟩ := signVia_ok hS hn h64 (SysBelow.start hv hc) hq hw hcid hb hnd
    have e0 : o = .ret id q.block (some sig) q.block.timestamp none := by
      show ((⟨Sys.start lv lc, up⟩ : Halt).signVia C ⟨t, L.pt (x • L.B)⟩ cfg n chainID hops q).1 = _
      rw [haltVia_up hops _ chainID q hup.1 hup.2.1 hup.2.2]
      show ((Sys.start lv lc).signVia C ⟨t, L.pt (x • L.B)⟩ cfg n chainID hops q).1 = _
      rw [e1]
    exact ⟨⟨fun _ => ⟨he.1 hup.1, hup.2⟩, fun _ => ⟨id, sig, e0, e2⟩⟩, .inr ⟨id, sig, e0⟩⟩
  · have hu : Unsigned o := by
      refine haltVia_unsigned hops _ chainID q ?_
      by_contra hcon
      simp only [not_or, Bool.not_eq_false, not_exists, not_and] at hcon
      exact hup hcon
    refine ⟨⟨?_, fun h => absurd ⟨he.2 h.1, h.2⟩ hup⟩, .inl hu⟩
    rintro ⟨id, sig, h1, _⟩
    exact absurd (hu _ _ _ _ _ h1).1 (by simp)

/-- C123, partial: calls of `Shutdown` with any bytes at fewer than half of the nodes, and not at those a request passes, do no
harm: the requests of C67 are all answered with valid signatures. Nodes that were called may still take part, and are as good
as new after a restart. Missing: calls at more nodes, and at the nodes on the way. -/
theorem C123_partial {C : Crypto} {F G : Type} [Field F] [AddCommGroup G] [Module F G] {L : Lawful C F G}
    {pair : Bytes → Bytes → Prop} {n t : Nat} {cfg : Nat → CosignerCfg} {x : F} {kc : List F} {rsaPub : Nat → Bytes}
    (hS : Setup C L pair n t cfg x kc rsaPub) (hn : 2 ≤ n)
    (h64 : ∀ pk m sig, C.verify pk m sig = true → sig.length = 64) (w : HRS) (lv lc : Nat → SignState)
    (hv : ∀ p, (lv p).hrs ≼ w) (hc : ∀ p, (lc p).hrs ≼ w) (evs : List HaltEv)
    (hev : Untouched (fun chainID hops q => Sent chainID ∧ q.block.Typed ∧ ((q.leader, q.id) :: hops).Nodup) n t w ∅ evs) :
    List.Forall₂ (fun q a => a.2.1 = q ∧ ∃ id sig, a.2.2 = .ret id q.block (some sig) q.block.timestamp none ∧
        C.verify (L.pt (x • L.B)) q.block.signBytes sig = true)
      (haltRequests evs)
      ((⟨Sys.start lv lc, fun _ => true⟩ : Halt).run C ⟨t, L.pt (x • L.B)⟩ cfg n evs).1 := by
  have key : ∀ (evs : List HaltEv) (w : HRS) (called : Finset Nat) (h : Halt), SysBelow w h.sys →
      (∀ p, h.up p = false → p ∈ called) →
      Untouched (fun chainID hops q => Sent chainID ∧ q.block.Typed ∧ ((q.leader, q.id) :: hops).Nodup) n t w called evs →
      List.Forall₂ (fun q a => a.2.1 = q ∧ ∃ id sig, a.2.2 = .ret id q.block (some sig) q.block.timestamp none ∧
        C.verify (L.pt (x • L.B)) q.block.signBytes sig = true)
      (haltRequests evs) (h.run C ⟨t, L.pt (x • L.B)⟩ cfg n evs).1 := by
    intro evs
    induction evs with
    | nil => intro w called h _ _ _; exact List.Forall₂.nil
    | cons e evs ih =>
      intro w called h hs hd he
      have hq := hs.quiet (C := C) (vcfg := ⟨t, L.pt (x • L.B)⟩) (cfg := cfg) (n := n)
      cases e with
      | shutdown p bs =>
        simp only [haltRequests, Halt.run, Halt.step]
        cases gDecode shutdownHandler () bs with
        | none => exact ih w _ h hs (fun j hj => Finset.mem_insert_of_mem (hd j hj)) he
        | some _ =>
          refine ih w _ _ hs (fun j hj => ?_) he
          by_cases hjp : j = p
          · exact Finset.mem_insert.2 (.inl hjp)
          · simp only [if_neg hjp] at hj
            exact Finset.mem_insert_of_mem (hd j hj)
      | sys chainID hops e =>
        cases e with
        | sign q =>
          obtain ⟨h1, h2, ⟨g1, g2, g3⟩, h4, h5, h6, h7⟩ := he
          obtain ⟨id, sig, s', e1, e2, e3⟩ := signVia_ok hS hn h64 hs h2 h1 g1 g2 g3
          have hu : ∀ p, p ∉ called → h.up p = true := fun p hp => by
            cases hu : h.up p with
            | true => rfl
            | false => exact absurd (hd p hu) hp
          have e0 := haltVia_up (C := C) (vcfg := ⟨t, L.pt (x • L.B)⟩) (cfg := cfg) hops h chainID q
            (election h4 hd) (hu _ h5) (fun y hy => hu _ (h6 y hy))
          simp only [haltRequests, Halt.run, Halt.step, e0, e1]
          exact List.Forall₂.cons ⟨rfl, id, sig, rfl, e2⟩ (ih _ _ _ e3 hd h7)
        | deliver p r =>
          simp only [haltRequests, Halt.run, Halt.step]
          split
          · exact ih w _ _ (hq.1 p r he.1) hd he.2
          · exact ih w _ _ hs hd he.2
        | other p op => exact ih w _ _ (hq.2.1 p op he.1) hd he.2
        | restart p a b =>
          refine ih w _ _ (hq.2.2 p a b he.1 he.2.1) (fun j hj => ?_) he.2.2
          by_cases hjp : j = p
          · simp [Halt.step, hjp] at hj
          · simp only [Halt.step, if_neg hjp] at hj
            exact Finset.mem_erase.2 ⟨hjp, hd j hj⟩
  exact key evs w ∅ _ (SysBelow.start hv hc) (by simp) hev

/-- C123, what it takes: a call shuts raft down exactly if the bytes are any protobuf message; there is nothing in them that
would have to be known. -/
theorem C123_shuts (C : Crypto) (vcfg : ValidatorCfg) (cfg : Nat → CosignerCfg) (n : Nat) (h : Halt) (p : Nat) (bs : Bytes) :
    ((∃ fs, TakenFor [] [] fs bs) → (h.step C vcfg cfg n (.shutdown p bs)).2.up p = false) ∧
    ((¬ ∃ fs, TakenFor [] [] fs bs) → (h.step C vcfg cfg n (.shutdown p bs)).2 = h) ∧
    ∀ j, j ≠ p → (h.step C vcfg cfg n (.shutdown p bs)).2.up j = h.up j := by
  have key : (∃ fs, TakenFor [] [] fs bs) ↔ gDecode shutdownHandler () bs = some () := by
    constructor
    · rintro ⟨fs, hf⟩
      refine (gDecode_iff _ shutdown_has).2 ⟨fs, hf, ?_⟩
      cases fs with
      | nil => rfl
      | cons f fs => exact absurd hf.empty (by simp)
    · intro hg
      obtain ⟨fs, hf, _⟩ := (gDecode_iff _ shutdown_has).1 hg
      exact ⟨fs, hf⟩
  refine ⟨fun hf => ?_, fun hf => ?_, fun j hj => ?_⟩
  · simp [Halt.step, key.1 hf]
  · simp only [Halt.step]
    cases hg : gDecode shutdownHandler () bs with
    | none => rfl
    | some u => exact absurd (key.2 hg) hf
  · simp only [Halt.step]
    cases hg : gDecode shutdownHandler () bs with
    | none => rfl
    | some u => simp [hj]

/-- An unknown field 5 with the number 1. -/
example : ∃ fs, TakenFor [] [] fs [0x28, 0x01] :=
  ⟨[], by
    have h1 : Tag 5 0 [0x28] := ⟨by decide, by decide, .last 0x28 (by decide), by decide, by decide⟩
    exact TakenFor.other (v := [1]) (bs := []) ⟨by simp, by simp⟩ h1 (.varint ⟨.last 1 (by decide), by decide, by decide⟩) .nil⟩

example : ¬ ∃ fs, TakenFor [] [] fs [0x0a] := by
  rintro ⟨fs, hf⟩
  have := (gDecode_iff shutdownHandler shutdown_has (m := ()) (m' := ()) (bs := [0x0a])).2 ⟨fs, hf, by
    cases fs with
    | nil => rfl
    | cons f fs => exact absurd hf.empty (by simp)⟩
  exact absurd this (by decide +kernel)

/-- C123, what the node learns: once it was called and until it is started again, the watermark of its validator stays where it
was, whatever the cluster signs; whereas a node that runs raft is at or above every record that comes. -/
theorem C123_behind (C : Crypto) (vcfg : ValidatorCfg) (cfg : Nat → CosignerCfg) (n : Nat) (h : Halt) (p : Nat) :
    (∀ evs : List HaltEv, (∀ e ∈ evs, ¬ Restarts p e) →
      ((h.run C vcfg cfg n (.shutdown p [] :: evs)).2.sys.vs p).lss = (h.sys.vs p).lss) ∧
    ∀ chainID hops r, h.up p = true →
      r.hrs ≼ ((h.step C vcfg cfg n (.sys chainID hops (.deliver p r))).2.sys.vs p).lss.hrs ∧
      r.hrs ≼ ((h.step C vcfg cfg n (.sys chainID hops (.deliver p r))).2.sys.cs p).lss.hrs := by
  refine ⟨fun evs hr => ?_, fun chainID hops r hu => ?_⟩
  · have hd := shutdown_run (C := C) (vcfg := vcfg) (cfg := cfg) (n := n) [p] h
    have hd' : (h.step C vcfg cfg n (.shutdown p [])).2.up p = false := hd.2.2.1 p (List.mem_singleton.2 rfl)
    have hs' : (h.step C vcfg cfg n (.shutdown p [])).2.sys = h.sys := hd.2.1
    simp only [Halt.run]
    rw [halt_run_lss evs _ p hd' hr, hs']
  · have key : ∀ s : SignState, r.hrs ≼ (s.save r).2.hrs := by
      intro s
      rw [SignState.save_hrs]
      split
      · exact HRS.le_refl _
      · next hn => exact HRS.not_lt.1 hn
    simp only [Halt.step, hu, if_true, Sys.step]
    refine ⟨key _, ?_⟩
    have h1 := key (h.sys.cs p).lss
    simp only [CState.step]
    split <;> next he => rw [he] at h1; exact h1

/-- Node 1 is called; the block that 2 and 3 sign then never reaches its validator, and it does reach that of node 2. -/
example : (((⟨Sys.start (fun _ => .empty) (fun _ => .empty), fun _ => true⟩ : Halt).run ftoy ⟨2, fsc (42 • 1)⟩ fcfg 3
      [.shutdown 1 [], .sys [7] [] (.sign (freq 0 blk1 3 [3, 2])), .sys [] [] (.deliver 1 (blk1.record [9])),
        .sys [] [] (.deliver 2 (blk1.record [9]))]).2.sys.vs ·) |> fun v => (v 1).lss.hrs = ⟨0, 0, 0⟩ ∧ (v 2).lss.hrs = blk1.hrs := by
  decide +kernel

/-- What the callers of `haltEvs` get: whether there is a signature, and an error. -/
def haltAnswers (evs : List HaltEv) : List (Nat × Bool × Bool) :=
  ((⟨Sys.start (fun _ => .empty) (fun _ => .empty), fun _ => true⟩ : Halt).run ftoy ⟨2, fsc (42 • 1)⟩ fcfg 3 evs).1.map
    fun a => match a.2.2 with | .ret _ _ sig _ err => (a.1, sig.isSome, err.isSome) | _ => (a.1, false, false)

/-- In a cluster of three with threshold 2: after a call at node 1, node 3 leads, 1 takes part and 2 passes the request on; but
the chain node at 1 gets an error. -/
def haltEvs : List HaltEv :=
  [.shutdown 1 [], .sys [7] [(2, 5)] (.sign (freq 0 blk1 3 [3, 1])), .sys [7] [(1, 5)] (.sign (freq 1 blk3 3 [3, 1]))]

example : haltAnswers haltEvs = [(2, true, false), (1, false, true)] := by decide +kernel

example : Untouched (fun chainID hops q => Sent chainID ∧ q.block.Typed ∧ ((q.leader, q.id) :: hops).Nodup) 3 2 ⟨0, 0, 0⟩ ∅
    (haltEvs.take 2) :=
  ⟨by decide, fservable _ _ _ _ (by decide +kernel) (by decide) (by decide) (by decide) (by decide),
    ⟨⟨by decide, ['\x07'], by decide⟩, ⟨by decide, by decide, by decide, by decide +kernel⟩, by decide⟩, by decide,
    by decide, by decide, trivial⟩

/-- After calls at 1 and 2 there is no leader, whoever is asked; after a restart of 2 there is one again. Bytes that are no
message do nothing. -/
example : haltAnswers [.shutdown 1 [], .shutdown 3 [0x0a], .shutdown 2 [], .sys [7] [] (.sign (freq 0 blk1 3 [3, 1])),
      .sys [7] [(2, 5)] (.sign (freq 1 blk1 3 [3, 1])), .sys [] [] (.restart 2 .empty .empty),
      .sys [7] [(2, 5)] (.sign (freq 2 blk3 3 [3, 1]))] =
    [(3, false, true), (2, false, true), (2, true, false)] := by decide +kernel

end Horcrux
