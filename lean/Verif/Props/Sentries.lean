import Verif.Props.Failover
import Verif.Props.Retime
/-
Property C116: several chain nodes ask the leader for one block.
-/
namespace Horcrux
open Spec

theorem differ_waits (step : Int) (a b : Bytes) : onlyDifferByTimestamp step a b ≠ some .stillWaiting := by
  unfold onlyDifferByTimestamp checkProposalOnlyDifferByTimestamp checkVoteOnlyDifferByTimestamp
  dsimp only
  (repeat' split) <;> simp only [ne_eq, reduceCtorEq, not_false_eq_true, Option.some.injEq]

/-- The answer to a request for a height, round and step for which the leader has a record: its signature or an error. -/
theorem again_answered {C : Crypto} {V : ValidatorCfg} {cfg : Nat → CosignerCfg} {n : Nat} (s : Sys) (b : Block) (sig : Bytes)
    (q : Req) (h1 : (s.vs q.leader).init.hrs = b.hrs) (h2 : (s.vs q.leader).calls q.id = none)
    (h3 : (s.vs q.leader).lss.cache b.hrs = some (b.record sig)) (hb : q.block.hrs = b.hrs)
    (hd : b.step ≠ 1 → q.block.signBytes ≠ b.signBytes → ¬DifferOnlyByTime b.step b.signBytes q.block.signBytes) :
    ∃ o e, s.signBlock C V cfg n q = (.ret q.id q.block o q.block.timestamp e, s) ∧
      (o = some sig ∧ e = none ∧ (b.step = 1 ∨ q.block.signBytes = b.signBytes) ∨
       o = none ∧ e ≠ none ∧ b.step ≠ 1 ∧ q.block.signBytes ≠ b.signBytes) := by
  have hst : q.block.step = b.step := by
    simp only [Block.hrs, HRS.mk.injEq] at hb; exact hb.2.2
  obtain ⟨k, a4⟩ := save_same (l := (s.vs q.leader).init) (r := SSC.new q.block.height q.block.round q.block.step)
    (by rw [h1, ← hb]; rfl)
  have hex : ((b.step = 1 ∨ q.block.signBytes = b.signBytes) ∧
        existingSignature (s.vs q.leader).lss q.block = .ok (some sig)) ∨
      ((b.step ≠ 1 ∧ q.block.signBytes ≠ b.signBytes) ∧ ∃ e, e ≠ Err.stillWaiting ∧
        existingSignature (s.vs q.leader).lss q.block = .error e) := by
    unfold existingSignature SignState.getFromCache
    rw [hb, h3, hst]
    simp only [Block.record, Slice.bytes, Option.getD_some, stepPropose]
    by_cases h : b.step = 1 ∨ q.block.signBytes = b.signBytes
    · exact .inl ⟨h, if_pos h⟩
    · refine .inr ⟨not_or.1 h, ?_⟩
      simp only [h, if_false]
      rw [not_or] at h
      cases ho : onlyDifferByTimestamp b.step b.signBytes q.block.signBytes with
      | none => exact absurd ((onlyDiffer_iff _ _ _).1 ho) (hd h.1 h.2)
      | some e =>
        refine ⟨e, ?_, rfl⟩
        rintro rfl
        exact differ_waits _ _ _ ho
  have hv : ∀ ph, ((s.vs q.leader).setPhase q.id q.block ph).finish q.id = s.vs q.leader := by
    intro ph
    have : (fun i => if i = q.id then none else if i = q.id then some (q.block, ph) else (s.vs q.leader).calls i) =
        (s.vs q.leader).calls := by
      funext i
      by_cases hi : i = q.id
      · subst hi; simp [h2]
      · simp [hi]
    simp only [VState.finish, VState.setPhase, this]
  have hs : (fun p => if p = q.leader then s.vs q.leader else s.vs p) = s.vs := by
    funext p; by_cases hp : p = q.leader
    · subst hp; simp
    · simp [hp]
  have hcall : (s.vs q.leader).step C V (.call q.id q.block .leader) = (.tau, (s.vs q.leader).setPhase q.id q.block (.poll 0)) := by
    simp only [VState.step, h2, a4]
  have hcalls : ((s.vs q.leader).setPhase q.id q.block (.poll 0)).calls q.id = some (q.block, .poll 0) := by
    simp [VState.setPhase]
  rcases hex with ⟨h, he⟩ | ⟨h, e, hne, he⟩
  · have hpoll : ((s.vs q.leader).setPhase q.id q.block (.poll 0)).step C V (.poll q.id) =
        (.ret q.id q.block (some sig) q.block.timestamp none, s.vs q.leader) := by
      simp only [VState.step, hcalls]
      rw [show ((s.vs q.leader).setPhase q.id q.block (.poll 0)).lss = (s.vs q.leader).lss from rfl, he]
      simp only [hv]
    refine ⟨some sig, none, ?_, .inl ⟨rfl, rfl, h⟩⟩
    unfold Sys.signBlock VState.begin
    simp only [h2, hcall, VState.wait, hcalls, hpoll, hs]
  · have hpoll : ((s.vs q.leader).setPhase q.id q.block (.poll 0)).step C V (.poll q.id) =
        (.ret q.id q.block none q.block.timestamp (some e), s.vs q.leader) := by
      simp only [VState.step, hcalls]
      rw [show ((s.vs q.leader).setPhase q.id q.block (.poll 0)).lss = (s.vs q.leader).lss from rfl, he]
      cases e <;> first | (exact absurd rfl hne) | simp only [hv]
    refine ⟨none, some e, ?_, .inr ⟨rfl, by simp, h⟩⟩
    unfold Sys.signBlock VState.begin
    simp only [h2, hcall, VState.wait, hcalls, hpoll, hs]

section
variable {C : Crypto} {F G : Type} [Field F] [AddCommGroup G] [Module F G] {L : Lawful C F G}
  {pair : Bytes → Bytes → Prop} {n t : Nat} {cfg : Nat → CosignerCfg} {x : F} {kc : List F} {rsaPub : Nat → Bytes}

/-- C116, partial: in an honest cluster, after any events in order (as in C63), a block is requested from the leader and
signed; raft makes the record known to whomever, and the nodes that did not take part do whatever they like. Then, however
often the leader is asked for something at the same height, round and step, in whatever order: the request with the same
sign bytes, and any proposal, gets the first signature; everything else gets an error; and nothing changes on any node, so
no cosigner is asked for anything. Missing: votes that differ only in the time, see `C116_fails`. -/
theorem C116_partial (hS : Setup C L pair n t cfg x kc rsaPub) (hn : 2 ≤ n) (w : HRS) (lv lc : Nat → SignState)
    (hv : ∀ p, (lv p).hrs ≼ w) (hc : ∀ p, (lc p).hrs ≼ w) (evs : List SysEv) (q : Req)
    (hev : InOrder n t w (evs ++ [.sign q])) (h0 : -(2 ^ 63) + 3 ≤ q.block.height) (h64 : IsI64 q.block.height)
    (evs' : List SysEv) (hevs' : ∀ e ∈ evs', Elsewhere q.ps q.block.hrs e) (qs : List Req)
    (hqs : ∀ q' ∈ qs, q'.leader = q.leader ∧ q'.block.hrs = q.block.hrs ∧
      (q.block.step ≠ 1 → q'.block.signBytes ≠ q.block.signBytes →
        ¬DifferOnlyByTime q.block.step q.block.signBytes q'.block.signBytes)) :
    let V : ValidatorCfg := ⟨t, L.pt (x • L.B)⟩
    let s := ((Sys.start lv lc).run C V cfg n evs).2
    let s2 := ((s.signBlock C V cfg n q).2.run C V cfg n evs').2
    ∃ sig, (s.signBlock C V cfg n q).1 = .ret q.id q.block (some sig) q.block.timestamp none ∧
      C.verify (L.pt (x • L.B)) q.block.signBytes sig = true ∧
      (s2.run C V cfg n (qs.map .sign)).2 = s2 ∧
      List.Forall₂ (fun q' a => a.1 = q' ∧ ∃ o e, a.2 = .ret q'.id q'.block o q'.block.timestamp e ∧
          (o = some sig ∧ e = none ∧ (q.block.step = 1 ∨ q'.block.signBytes = q.block.signBytes) ∨
           o = none ∧ e ≠ none ∧ q.block.step ≠ 1 ∧ q'.block.signBytes ≠ q.block.signBytes))
        qs (s2.run C V cfg n (qs.map .sign)).1 := by
  intro V s s2
  obtain ⟨w', hs, hw, hq⟩ := below_run hS hn q evs w _ (SysBelow.start hv hc) hev
  obtain ⟨sig, s1, e1, e2, e3, e4, e5, _, e9, e6, e7⟩ := signBlock_twice hS hn hs hq hw
  have hsv := SignState.save_ok (s.vs q.leader).lss (q.block.record sig) (HRS.lt_of_le_of_lt (hs.lss _) hw)
  have hlss : (s1.vs q.leader).lss.hrs = q.block.hrs := by rw [e6, hsv]; rfl
  have hA : Awaits q.ps q.block.hrs s1 (s1.run C V cfg n evs').2 := by
    refine awaits_run evs' s1 s1 hevs' e3 ⟨fun _ _ => rfl, fun _ _ => rfl, fun _ _ => rfl, ?_, fun _ _ _ => rfl⟩
    intro p hp
    by_cases h : p = q.leader
    · subst h; rw [hlss]; exact HRS.le_refl _
    · rw [e5 p h]; exact HRS.le_of_lt (HRS.lt_of_le_of_lt (hs.lss p) hw)
  have hdef : s2 = (s1.run C V cfg n evs').2 := by
    show ((s.signBlock C V cfg n q).2.run C V cfg n evs').2 = _
    rw [show (s.signBlock C V cfg n q).2 = s1 from congrArg Prod.snd e1]
  have a1 : (s2.vs q.leader).init.hrs = q.block.hrs := by rw [hdef, hA.init _ hq.leads]; exact e4
  have a2 : ∀ id, (s2.vs q.leader).calls id = none := by
    intro id; rw [hdef, hA.calls _ hq.leads]; exact e9 id (hs.idle _ _)
  have a3 : (s2.vs q.leader).lss.cache q.block.hrs = some (q.block.record sig) := by
    rw [hdef, hA.same _ hq.leads hlss, e6, hsv]
    have : i64 (q.block.height - blocksToCache) = q.block.height - blocksToCache := by
      refine i64_of_is ?_
      unfold IsI64 at h64 ⊢
      unfold blocksToCache
      omega
    show (if q.block.height < i64 (q.block.height - blocksToCache) then none else if q.block.hrs = q.block.hrs then _ else _) = _
    rw [this, if_neg (by unfold blocksToCache; omega), if_pos rfl]
  refine ⟨sig, congrArg Prod.fst e1, e2, ?_⟩
  clear hdef
  induction qs with
  | nil => exact ⟨rfl, List.Forall₂.nil⟩
  | cons q' qs ih =>
    obtain ⟨i1, i2, i3⟩ := hqs q' (by simp)
    obtain ⟨o, e, j1, j2⟩ := again_answered (C := C) (V := V) (cfg := cfg) (n := n) s2 q.block sig q' (by rw [i1]; exact a1)
      (by rw [i1]; exact a2 _) (by rw [i1]; exact a3) i2 i3
    obtain ⟨k1, k2⟩ := ih (fun q'' h => hqs q'' (by simp [h]))
    simp only [List.map_cons, Sys.run, Sys.step, j1]
    exact ⟨k1, List.Forall₂.cons ⟨rfl, o, e, rfl, j2⟩ k2⟩

/-- C116 fails of the code: chain nodes ask for a vote that none has asked for before, each with its own time. However many
they are, and whoever leads and takes part for each of them, each request is acted upon: each gets a signature that
verifies over its own sign bytes, so there are as many signed votes as requests. -/
theorem C116_fails (hS : Setup C L pair n t cfg x kc rsaPub) (hn : 2 ≤ n) (w k : HRS) (lv lc : Nat → SignState)
    (hv : ∀ p, (lv p).hrs ≼ w) (hc : ∀ p, (lc p).hrs ≼ w) (hk : w ≺ k) (hstep : k.step = 2 ∨ k.step = 3)
    (h0 : -(2 ^ 63) + 3 ≤ k.height) (qs : List Req)
    (hqs : ∀ q ∈ qs, Servable n t q ∧ q.block.hrs = k ∧ q.block.timestamp.unixNano ≠ GoTime.zero.unixNano)
    (hdiff : qs.Pairwise fun q q' => DifferOnlyByTime k.step q.block.signBytes q'.block.signBytes ∧
      q.block.timestamp.unixNano ≠ q'.block.timestamp.unixNano) :
    List.Forall₂ (fun q a => a.1 = q ∧ ∃ sig, a.2 = .ret q.id q.block (some sig) q.block.timestamp none ∧
        C.verify (L.pt (x • L.B)) q.block.signBytes sig = true)
      qs ((Sys.start lv lc).run C ⟨t, L.pt (x • L.B)⟩ cfg n (qs.map .sign)).1 ∧
    (qs.map (·.block.signBytes)).Nodup := by
  have hreq : ∀ l : List Req, requests (l.map .sign) = l := by
    intro l; induction l with
    | nil => rfl
    | cons a l ih => simp [requests, ih]
  have hin : ∀ (l : List Req) (prev : List Block), prev ≠ [] →
      (∀ q ∈ l, Servable n t q ∧ q.block.hrs = k ∧ q.block.timestamp.unixNano ≠ GoTime.zero.unixNano) →
      l.Pairwise (fun q q' => DifferOnlyByTime k.step q.block.signBytes q'.block.signBytes ∧
        q.block.timestamp.unixNano ≠ q'.block.timestamp.unixNano) →
      (∀ b ∈ prev, ∀ q ∈ l, DifferOnlyByTime k.step b.signBytes q.block.signBytes ∧
        b.timestamp.unixNano ≠ q.block.timestamp.unixNano) →
      InOrderTimes n t k prev (l.map .sign) := by
    intro l
    induction l with
    | nil => intros; trivial
    | cons a l ih =>
      intro prev hp h1 h2 h3
      rw [List.pairwise_cons] at h2
      refine ⟨(h1 a (by simp)).1, .inr ⟨(h1 a (by simp)).2.1, hp, hstep, h0, (h1 a (by simp)).2.2,
        fun b hb => h3 b hb a (by simp), ih _ (by simp) (fun q hq => h1 q (by simp [hq])) h2.2 ?_⟩⟩
      intro b hb q hq
      rcases List.mem_cons.1 hb with rfl | hb
      · exact h2.1 q hq
      · exact h3 b hb q (by simp [hq])
  constructor
  · have h := C82_signs hS hn w lv lc hv hc (qs.map .sign) ?_
    · rwa [hreq] at h
    · cases qs with
      | nil => trivial
      | cons a l =>
        rw [List.pairwise_cons] at hdiff
        obtain ⟨i1, i2, _⟩ := hqs a (by simp)
        refine ⟨i1, .inl ⟨by rw [i2]; exact hk, ?_⟩⟩
        rw [i2]
        refine hin l _ (by simp) (fun q hq => hqs q (by simp [hq])) hdiff.2 ?_
        intro b hb q hq
        rw [List.mem_singleton] at hb; subst hb
        exact hdiff.1 q hq
  · rw [List.Nodup, List.pairwise_map]
    refine (List.Pairwise.and_mem.1 hdiff).imp ?_
    rintro q q' ⟨m1, m2, _, hne⟩ he
    have u1 := (hqs q m1).1.bytes
    have u2 := (hqs q' m2).1.bytes
    rw [he, u2] at u1
    refine hne ?_
    have := congrArg HRST.timestamp (Out.ok.inj u1)
    exact this.symm

end

/-- Concretely: three chain nodes ask for one vote at three times; cosigner 3 leads. All three get a signature. -/
def sentryReqs : List Req := [freq 0 blk1 3 [3, 1], freq 1 blk2 3 [3, 2], freq 2 blk1c 3 [3, 1]]

example : (∀ q ∈ sentryReqs, Servable 3 2 q ∧ q.block.hrs = ⟨7, 1, 3⟩ ∧
      q.block.timestamp.unixNano ≠ GoTime.zero.unixNano) ∧
    sentryReqs.Pairwise (fun q q' => DifferOnlyByTime 3 q.block.signBytes q'.block.signBytes ∧
      q.block.timestamp.unixNano ≠ q'.block.timestamp.unixNano) := by
  have d12 : DifferOnlyByTime 3 blk1.signBytes blk2.signBytes := (onlyDiffer_iff _ _ _).1 (by decide +kernel)
  have d13 : DifferOnlyByTime 3 blk1.signBytes blk1c.signBytes := (onlyDiffer_iff _ _ _).1 (by decide +kernel)
  have d23 : DifferOnlyByTime 3 blk2.signBytes blk1c.signBytes := (onlyDiffer_iff _ _ _).1 (by decide +kernel)
  constructor
  · intro q hq
    simp only [sentryReqs, List.mem_cons, List.not_mem_nil, or_false] at hq
    rcases hq with rfl | rfl | rfl
    all_goals
      exact ⟨fservable _ _ _ _ (by decide +kernel) (by decide) (by decide) (by decide) (by decide), rfl, by decide +kernel⟩
  · simp only [sentryReqs, List.pairwise_cons, List.mem_cons, List.not_mem_nil, or_false, forall_eq_or_imp, forall_eq]
    refine ⟨⟨⟨d12, by decide⟩, d13, by decide⟩, ⟨d23, by decide⟩, ?_⟩
    simp

example : ((Sys.start (fun _ => .empty) (fun _ => .empty)).run ftoy ⟨2, fsc (42 • 1)⟩ fcfg 3 (sentryReqs.map .sign)).1.map
    (fun a => fanswer a.2) = [some (0, true, none), some (1, true, none), some (2, true, none)] := by
  decide +kernel

/-- A vote for another block. -/
def blk1x : Block :=
  ⟨7, 1, 3, bytesOf (voteSignBytes [97] { vote1 with blockID := ⟨List.replicate 32 7, 1, List.replicate 32 6⟩ }),
    vote1.timestamp⟩

/-- Concretely for `C116_partial`: the vote again, and a vote for another block. -/
example : ¬DifferOnlyByTime 3 blk1.signBytes blk1x.signBytes ∧ blk1x.hrs = blk1.hrs ∧
    ((Sys.start (fun _ => .empty) (fun _ => .empty)).run ftoy ⟨2, fsc (42 • 1)⟩ fcfg 3
      ([freq 0 blk1 3 [3, 1], freq 1 blk1 3 [3, 2], freq 2 blk1x 3 [3, 2]].map .sign)).1.map (fun a => fanswer a.2) =
      [some (0, true, none), some (1, true, none), some (2, false, some .differingBlockIDs)] := by
  refine ⟨?_, rfl, by decide +kernel⟩
  rw [← onlyDiffer_iff]
  decide +kernel

end Horcrux
