import Verif.Lemmas.Round
import Verif.Lemmas.Collect
import Verif.Lemmas.ToyField
import Verif.Props.Cosigner
/-
Properties C21, C31, C32: one signing round.
-/
namespace Horcrux
open Spec

/-! ### C21 -/

/-- C21: cosigners `1..n` (`n ≥ 2`) hold the shares of one key split with threshold `t` (`Setup`). Whatever at least `t`
of them take part, whoever of them leads, in whatever order the peers maps (`order`) and the map of participants
(`mapOrder`) are iterated, whatever the nonce randomness and the message: if none of them has a record at or above the
requested block nor nonce material for it, the round succeeds, the signature verifies under the public key, every
participant's watermark becomes the signed block, and the other cosigners are unaffected. -/
theorem C21_round {C : Crypto} {F G : Type} [Field F] [AddCommGroup G] [Module F G] {L : Lawful C F G}
    {pair : Bytes → Bytes → Prop} {n t : Nat} {cfg : Nat → CosignerCfg} {x : F} {kc : List F} {rsaPub : Nat → Bytes}
    (hS : Setup C L pair n t cfg x kc rsaPub) (hn : 2 ≤ n)
    (ps : List Nat) (hnd : ps.Nodup) (hps : ∀ p ∈ ps, 1 ≤ p ∧ p ≤ n) (hlen : t ≤ ps.length)
    (leader : Nat) (hleader : leader ∈ ps) (k : HRST) (hk : IsI64 k.timestamp) (bs : Bytes)
    (hu : unpackHRST bs = .ok k)
    (order : Nat → List Nat) (hord : ∀ p, (order p).Perm (List.range' 1 n))
    (mapOrder : Nat → List Nat) (hmap : ∀ p, (mapOrder p).Perm ps)
    (rnd1 rnd2 : Nat → Nat → Rand) (hrnd : ∀ p i, ∃ sec, (rnd1 p i).secret = some sec ∧ sec.length = 32)
    (st : Nat → CState) (hlow : ∀ p ∈ ps, (st p).lss.hrs ≺ k.hrs) (hnew : ∀ p ∈ ps, (st p).hrsMeta k = none) :
    ∃ sig st', signRound C cfg ps leader t n (L.pt (x • L.B)) k bs
        (fun p => (order p).map (fun q : Nat => (q : Int))) mapOrder rnd1 rnd2 st = (.ok sig, st') ∧
      C.verify (L.pt (x • L.B)) bs sig = true ∧ (∀ p ∈ ps, (st' p).lss.hrs = k.hrs) ∧
      (∀ p, p ∉ ps → st' p = st p) := by
  have hmem : ∀ p q, q ∈ order p ↔ 1 ≤ q ∧ q ≤ n := by
    intro p q
    rw [(hord p).mem_iff, List.mem_range'_1]
    omega
  refine round_honest hS hnd hps hlen hleader hk hu (fun p _ q hq => (hmem p q).1 hq)
    (fun p hp q hq _ => (hmem p q).2 (hps q hq)) ?_ (fun p _ => hmap p) (fun p _ => hrnd p) hlow hnew
  intro p hp
  by_cases h : p = 1
  · exact ⟨2, (hmem p 2).2 ⟨by omega, hn⟩, by omega⟩
  · exact ⟨1, (hmem p 1).2 ⟨le_refl _, by omega⟩, Ne.symm h⟩

/-- A cosigner alone (one share, its peers map holds only itself) never makes nonce material by handing out parts, so a
signing round with it alone fails: this is why C21 asks for two cosigners. -/
theorem C21_alone (C : Crypto) (cfg : CosignerCfg) (k : HRST) (rnd : Nat → Rand) (s : CState) (bs : Bytes)
    (hu : unpackHRST bs = .ok k) (hlow : s.lss.hrs ≺ k.hrs) (hnew : s.hrsMeta k = none) :
    getParts C cfg k [cfg.id] rnd s = (.ok [], s) ∧
    setPartsAndSign C cfg k bs [] rnd s = (.err .noMetadata, s) := by
  refine ⟨by simp [getParts, getPartsLoop], ?_⟩
  have hc : s.lss.checkHRS k = .ok false := by
    unfold HRS.lt SignState.hrs HRST.hrs at hlow
    simp only at hlow
    unfold SignState.checkHRS
    (repeat' split) <;> simp_all <;> omega
  unfold setPartsAndSign sign
  rw [hu]
  simp only
  rw [hc]
  simp only
  unfold signFresh
  rw [hnew]

/-- A 2-of-3 cluster over the toy field: key 42, one coefficient 7. -/
def fcfg (p : Nat) : CosignerCfg :=
  { id := p, shareKey := fsc (shareOf 42 [7] p), pubKeyBytes := fsc 42, rsaKey := [UInt8.ofNat p], total := 3,
    threshold := 2, peers := fun q => some [UInt8.ofNat q.toNat] }

theorem fsetup : Setup ftoy ftoyLawful (fun pub priv => pub = priv) 3 2 fcfg 42 [7] (fun p => [UInt8.ofNat p]) where
  rsa := ftoyRSA
  t_pos := by decide
  t_le := by decide
  n_le := by decide
  kc_length := rfl
  id := fun _ _ _ => rfl
  shareKey := fun _ _ _ => rfl
  pub := fun _ _ _ => by
    show fsc 42 = fsc ((42 : ZMod 257) • (1 : ZMod 257))
    rw [smul_eq_mul, mul_one]
  total := fun _ _ _ => rfl
  threshold := fun _ _ _ => rfl
  rsaKey := fun _ _ _ => rfl
  peers := fun p q _ _ _ _ => by simp [fcfg]

/-- Concretely: cosigners 3 and 1 sign the precommit `b1`, led by 3. -/
example : ∃ sig st', signRound ftoy fcfg [3, 1] 3 2 3 (fsc (42 • 1)) ⟨7, 1, 3, 1600000000000000005⟩ b1
    (fun _ => [2, 1, 3]) (fun p => if p = 1 then [1, 3] else [3, 1]) (fun p _ => toyRnd (UInt8.ofNat p))
    (fun _ _ => toyRnd 9) (fun _ => CState.start .empty) = (.ok sig, st') ∧
    ftoy.verify (fsc (42 • 1)) b1 sig = true := by
  obtain ⟨sig, st', h1, h2, _⟩ := C21_round fsetup (by decide) [3, 1] (by decide) (by decide) (by decide) 3 (by decide)
    ⟨7, 1, 3, 1600000000000000005⟩ (by decide) b1 unpack_b1 (fun _ => [2, 1, 3]) (fun _ => by decide)
    (fun p => if p = 1 then [1, 3] else [3, 1]) (fun p => by by_cases h : p = 1 <;> simp only [h, if_true, if_false] <;> decide)
    (fun p _ => toyRnd (UInt8.ofNat p)) (fun _ _ => toyRnd 9)
    (fun p i => ⟨List.replicate 32 (UInt8.ofNat p), rfl, by simp⟩) (fun _ => CState.start .empty)
    (fun p _ => show (⟨0, 0, 0⟩ : HRS) ≺ ⟨7, 1, 3⟩ by decide) (fun _ _ => rfl)
  exact ⟨sig, st', h1, h2⟩

/-! ### C31 -/

/-- C31: for every threshold `t ≥ 1` and every schedule of answers, failures, deferred `Done`s and the main goroutine,
nothing crashes; the peers that joined are the first `t - 1` that answered (as many as there are), followed by the
leader once it has proceeded; it has proceeded only if `t - 1` peers answered, and then exactly `t` different
cosigners take part. -/
theorem C31_participants (t : Nat) (ht : 1 ≤ t) (me : Nat) (es : List CollectEv) (hes : Schedule me es) :
    ∃ s0 s, Collect.start t = .ok s0 ∧ Collect.run t s0 es = .ok s ∧
      s.joined = (answersOf es).take (t - 1) ++ (if s.proceeded then [me] else []) ∧
      (s.proceeded = true → t - 1 ≤ (answersOf es).length ∧ s.joined.length = t ∧ s.joined.Nodup) ∧
      ((answersOf es).length < t - 1 → s.proceeded = false) := by
  obtain ⟨s0, h0, hi, _⟩ := collectInv_start t ht me
  obtain ⟨s, hr, h⟩ := collectInv_run t ht me es [] s0 hi (by simpa using hes.once) hes.main
  rw [List.nil_append] at h
  refine ⟨s0, s, h0, hr, h.joined, ?_, ?_⟩
  · intro hp
    have hl := (h.enough hp).1
    refine ⟨hl, ?_, ?_⟩
    · rw [h.joined, hp, List.length_append, List.length_take]; simp; omega
    · rw [h.joined, hp, if_pos rfl]
      refine List.nodup_append.2 ⟨hes.once.sublist (List.take_sublist _ _), by simp, ?_⟩
      intro a ha b hb hab
      rw [List.mem_singleton] at hb
      subst hb; subst hab
      exact hes.other (List.mem_of_mem_take ha)
  · intro hlt
    by_contra hc
    have := (h.enough (by simpa using hc)).1
    omega

/-- C31: once the leader has proceeded, no answer joins. -/
theorem C31_late_answers (t : Nat) (ht : 1 ≤ t) (me : Nat) (es es' : List CollectEv)
    (hes : Schedule me (es ++ es')) (s0 s s' : Collect) (h0 : Collect.start t = .ok s0)
    (hr : Collect.run t s0 es = .ok s) (hr' : Collect.run t s es' = .ok s') (hp : s.proceeded = true) :
    s'.joined = s.joined ∧ s'.proceeded = true := by
  have happ : ∀ a b : List CollectEv, answersOf (a ++ b) = answersOf a ++ answersOf b := by
    intro a b
    induction a with
    | nil => rfl
    | cons e a ih => rw [List.cons_append, answersOf_cons, answersOf_cons e a, ih, List.append_assoc]
  obtain ⟨s0', h0', hi, _⟩ := collectInv_start t ht me
  rw [h0] at h0'; cases h0'
  have hnd := hes.once
  rw [happ] at hnd
  obtain ⟨s1, hr1, h1⟩ := collectInv_run t ht me es [] s0 hi (by simpa using (List.nodup_append.1 hnd).1)
    (fun x hx => hes.main x (List.mem_append_left _ hx))
  rw [hr] at hr1; cases hr1
  obtain ⟨s2, hr2, h2⟩ := collectInv_run t ht me es' ([] ++ answersOf es) s h1 (by simpa using hnd)
    (fun x hx => hes.main x (List.mem_append_right _ hx))
  rw [hr'] at hr2; cases hr2
  have hmono : ∀ (l : List CollectEv) (a b : Collect), Collect.run t a l = .ok b → a.proceeded = true →
      b.proceeded = true := by
    intro l
    induction l with
    | nil => intro a b h ha; simp only [Collect.run, Out.ok.injEq] at h; rw [← h]; exact ha
    | cons e l ih =>
      intro a b h ha
      unfold Collect.run at h
      cases hst : a.step t e with
      | ok a' =>
        rw [hst] at h
        refine ih a' b h ?_
        cases e <;> simp only [Collect.step] at hst <;> (repeat' split at hst) <;> simp_all <;>
          (subst hst; simp)
      | err _ => rw [hst] at h; cases h
      | panic => rw [hst] at h; cases h
  have hp' := hmono es' s s' hr' hp
  refine ⟨?_, hp'⟩
  rw [h1.joined, h2.joined, hp, hp', if_pos rfl]
  rw [List.take_append_of_le_length (h1.enough hp).1]

/-- C31: the completion counter is never negative; it is `t - 1` minus the number of joined peers whose `Done` has run,
each counted once (`s.due` are those whose `Done` is outstanding). -/
theorem C31_counter (t : Nat) (ht : 1 ≤ t) (me : Nat) (es : List CollectEv) (hes : Schedule me es) :
    ∃ s0 s, Collect.start t = .ok s0 ∧ Collect.run t s0 es = .ok s ∧ 0 ≤ s.counter ∧ s.due.Nodup ∧
      (∀ p ∈ s.due, p ∈ (answersOf es).take (t - 1)) ∧
      s.counter = (t - 1 : Nat) - (((answersOf es).take (t - 1)).filter (fun p => p ∉ s.due)).length := by
  obtain ⟨s0, h0, hi, _⟩ := collectInv_start t ht me
  obtain ⟨s, hr, h⟩ := collectInv_run t ht me es [] s0 hi (by simpa using hes.once) hes.main
  rw [List.nil_append] at h
  have hA : ((answersOf es).take (t - 1)).Nodup := hes.once.sublist (List.take_sublist _ _)
  have hcount : (((answersOf es).take (t - 1)).filter (fun p => p ∉ s.due)).length + s.due.length
      = ((answersOf es).take (t - 1)).length := by
    have h1 : (((answersOf es).take (t - 1)).filter (fun p => p ∈ s.due)).Perm s.due := by
      refine (List.perm_ext_iff_of_nodup (hA.filter _) h.due_nodup).2 fun p => ?_
      rw [List.mem_filter]
      simp only [decide_eq_true_eq]
      exact ⟨fun h => h.2, fun hp => ⟨h.due_sub p hp, hp⟩⟩
    have h2 := List.length_eq_length_filter_add (l := (answersOf es).take (t - 1)) (fun p => decide (p ∈ s.due))
    rw [h1.length_eq] at h2
    have h3 : ((answersOf es).take (t - 1)).filter (fun p => !decide (p ∈ s.due))
        = ((answersOf es).take (t - 1)).filter (fun p => decide (p ∉ s.due)) :=
      List.filter_congr fun p _ => by simp
    rw [h3] at h2
    omega
  have hl : ((answersOf es).take (t - 1)).length ≤ t - 1 := by rw [List.length_take]; omega
  refine ⟨s0, s, h0, hr, ?_, h.due_nodup, h.due_sub, ?_⟩
  · have := h.counter; omega
  · have := h.counter; omega

/-- A threshold of zero (which validation accepts, see C25) crashes the leader on its first signing round. -/
theorem C31_threshold_zero : Collect.start 0 = .panic := by decide

/-- Concretely: threshold 3, five peers; 4 and 2 answer first, 5 fails, 3 answers late. -/
example : Schedule 1 [.answered 4, .failed 5, .answered 2, .answered 3, .done 2, .done 4, .proceed 1, .answered 6] ∧
    Collect.run 3 ⟨[], 2, [], false⟩
      [.answered 4, .failed 5, .answered 2, .answered 3, .done 2, .done 4, .proceed 1, .answered 6]
      = .ok ⟨[4, 2, 1], 0, [], true⟩ :=
  ⟨⟨by decide, by intro x hx; simpa using hx, by decide⟩, by decide⟩

/-! ### C32 -/

/-- C32, whatever the participants answered: a participant is only sent parts addressed to it whose source is a
participant, at most one out of the answer of each. -/
theorem C32_addressed (entries : List (Int × List SecretPart)) (peerID : Int) :
    (∀ p ∈ partsFor entries peerID, p.destinationID = peerID ∧ p.sourceID ∈ entries.map (·.1) ∧
      ∃ e ∈ entries, p ∈ e.2) ∧
    (partsFor entries peerID).length ≤ entries.length := by
  constructor
  · intro p hp
    unfold partsFor at hp
    rw [List.mem_filterMap] at hp
    obtain ⟨e, he, h⟩ := hp
    split at h
    · cases h
    · next q hq =>
      split at h
      · next hany =>
        cases h
        have h1 := List.find?_some hq
        simp only [decide_eq_true_eq] at h1
        rw [List.any_eq_true] at hany
        obtain ⟨e', he', h2⟩ := hany
        simp only [decide_eq_true_eq] at h2
        exact ⟨h1, List.mem_map.2 ⟨e', he', h2⟩, e, he, List.mem_of_find?_eq_some hq⟩
      · cases h
  · exact List.length_filterMap_le _ _

/-- The answer of participant `id`: parts it dealt itself, at most one per destination (as C17 shows for the answers of
the code). -/
def ProperAnswer (id : Int) (parts : List SecretPart) : Prop :=
  (∀ p ∈ parts, p.sourceID = id) ∧ (parts.map (·.destinationID)).Nodup

/-- C32: if the participants (with different IDs) gave proper answers, then `peerID` is sent every part dealt for it by
a participant, nothing else, and each exactly once; so exactly one from each participant that dealt one. -/
theorem C32_exactly (entries : List (Int × List SecretPart)) (peerID : Int)
    (hids : (entries.map (·.1)).Nodup) (hproper : ∀ e ∈ entries, ProperAnswer e.1 e.2) :
    (∀ p, p ∈ partsFor entries peerID ↔ p.destinationID = peerID ∧ ∃ e ∈ entries, p ∈ e.2) ∧
    ((partsFor entries peerID).map (·.sourceID)).Nodup ∧
    (∀ e ∈ entries, ∀ p ∈ e.2, p.destinationID = peerID →
      (partsFor entries peerID).filter (fun q => q.sourceID = e.1) = [p]) := by
  have hfind : ∀ (l : List SecretPart), (l.map (·.destinationID)).Nodup → ∀ p ∈ l, p.destinationID = peerID →
      l.find? (fun q => decide (q.destinationID = peerID)) = some p := by
    intro l
    induction l with
    | nil => intro _ p hp; cases hp
    | cons q l ih =>
      intro hnd p hp hd
      rw [List.map_cons, List.nodup_cons] at hnd
      by_cases hq : q.destinationID = peerID
      · rw [List.find?_cons_of_pos (by simpa using hq)]
        rcases List.mem_cons.1 hp with rfl | hp
        · rfl
        · exact absurd (List.mem_map.2 ⟨p, hp, by rw [hd, hq]⟩) hnd.1
      · rw [List.find?_cons_of_neg (by simpa using hq)]
        rcases List.mem_cons.1 hp with rfl | hp
        · exact absurd hd hq
        · exact ih hnd.2 p hp hd
  have hmem : ∀ p, p ∈ partsFor entries peerID ↔ p.destinationID = peerID ∧ ∃ e ∈ entries, p ∈ e.2 := by
    intro p
    constructor
    · intro hp
      obtain ⟨h1, _, h3⟩ := (C32_addressed entries peerID).1 p hp
      exact ⟨h1, h3⟩
    · rintro ⟨hd, e, he, hp⟩
      unfold partsFor
      rw [List.mem_filterMap]
      refine ⟨e, he, ?_⟩
      rw [hfind e.2 (hproper e he).2 p hp hd]
      simp only
      rw [if_pos]
      rw [List.any_eq_true]
      exact ⟨e, he, by simpa using ((hproper e he).1 p hp).symm⟩
  have hnd : ((partsFor entries peerID).map (·.sourceID)).Nodup := by
    unfold partsFor
    generalize hall : entries = all at *
    have key : ∀ es : List (Int × List SecretPart), (∀ e ∈ es, ProperAnswer e.1 e.2) → (es.map (·.1)).Nodup →
        ((es.filterMap fun e : Int × List SecretPart =>
          match e.2.find? (fun p => decide (p.destinationID = peerID)) with
          | none => none
          | some p => if all.any (fun e' => decide (e'.1 = p.sourceID)) then some p else none).map (·.sourceID)).Sublist
            (es.map (·.1)) := by
      intro es
      induction es with
      | nil => intro _ _; simp
      | cons e es ih =>
        intro hpr hn
        rw [List.map_cons, List.nodup_cons] at hn
        have ih' := ih (fun e' h => hpr e' (List.mem_cons_of_mem _ h)) hn.2
        rw [List.filterMap_cons]
        split
        · exact ih'.cons _
        · next q hq =>
          rw [List.map_cons, List.map_cons]
          have : q.sourceID = e.1 := by
            split at hq
            · cases hq
            · next q' hq' =>
              split at hq
              · cases hq
                exact (hpr e (List.mem_cons_self ..)).1 q (List.mem_of_find?_eq_some hq')
              · cases hq
          rw [this]
          exact ih'.cons_cons _
    exact hids.sublist (key all hproper hids)
  refine ⟨hmem, hnd, ?_⟩
  intro e he p hp hd
  have hin := (hmem p).2 ⟨hd, e, he, hp⟩
  have hsrc := (hproper e he).1 p hp
  generalize partsFor entries peerID = l at hin hnd
  clear hmem
  induction l with
  | nil => cases hin
  | cons q l ih =>
    rw [List.map_cons, List.nodup_cons] at hnd
    rcases List.mem_cons.1 hin with rfl | hin
    · rw [List.filter_cons_of_pos (by simpa using hsrc)]
      congr 1
      rw [List.filter_eq_nil_iff]
      intro q hq
      simp only [decide_eq_true_eq]
      intro h
      exact hnd.1 (List.mem_map.2 ⟨q, hq, by rw [h, hsrc]⟩)
    · rw [List.filter_cons_of_neg]
      · exact ih hin hnd.2
      · simp only [decide_eq_true_eq]
        intro h
        exact hnd.1 (List.mem_map.2 ⟨p, hin, by rw [hsrc, h]⟩)

/-- C32: the iteration order of the map does not change which parts are sent. -/
theorem C32_order (entries entries' : List (Int × List SecretPart)) (h : entries.Perm entries') (peerID : Int) :
    (partsFor entries peerID).Perm (partsFor entries' peerID) := by
  unfold partsFor
  have hany : ∀ p : SecretPart, entries.any (fun e' => decide (e'.1 = p.sourceID))
      = entries'.any (fun e' => decide (e'.1 = p.sourceID)) := by
    intro p
    rw [Bool.eq_iff_iff, List.any_eq_true, List.any_eq_true]
    simp only [h.mem_iff]
  simp only [hany]
  exact h.filterMap _

/-- Concretely: participants 1, 2, 3 of 4; participant 1 receives the parts of 2 and 3. -/
example :
    let pt := fun (a b : Int) => (⟨a, b, none, none, none⟩ : SecretPart)
    let entries := [((2 : Int), [pt 2 1, pt 2 3, pt 2 4]), (3, [pt 3 4, pt 3 1, pt 3 2]), (1, [pt 1 2, pt 1 3, pt 1 4])]
    (entries.map (·.1)).Nodup ∧ (∀ e ∈ entries, ProperAnswer e.1 e.2) ∧ partsFor entries 1 = [pt 2 1, pt 3 1] := by
  refine ⟨by decide, ?_, by decide⟩
  unfold ProperAnswer
  decide

end Horcrux
