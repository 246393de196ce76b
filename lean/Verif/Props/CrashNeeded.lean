import Verif.Props.Crash
import Verif.Props.Whole
/-
Property C66 again: the bound on the number of cosigners that die in the wrong moment is exact.
-/
namespace Horcrux
open Spec

section
variable {C : Crypto} {cfg : Nat → CosignerCfg}

/-! ### Calls of many steps as histories -/

theorem getPartsLoop_run {c : CosignerCfg} {k : HRST} : ∀ (order : List Int) (rnd : Nat → Rand) (s : CState)
    (acc : List SecretPart), (getPartsLoop C c k order rnd s acc).1 ≠ .panic →
    ∃ tr, Run C c s tr (getPartsLoop C c k order rnd s acc).2
  | [], _, s, _, _ => ⟨[], .nil s⟩
  | p :: ps, rnd, s, acc, h => by
    simp only [getPartsLoop] at h ⊢
    split
    · next e => rw [if_pos e] at h; exact getPartsLoop_run ps _ s acc h
    · next e =>
      rw [if_neg e] at h
      rcases hg : getPart C c s ⟨p, k.height, k.round, k.step, GoTime.ofUnixNano k.timestamp⟩ (rnd 0) with ⟨o, s1⟩
      rw [hg] at h
      have hst : s.step C c (.getPart ⟨p, k.height, k.round, k.step, GoTime.ofUnixNano k.timestamp⟩ (rnd 0)) =
          (o.map .part, s1) := by simp only [CState.step, hg]
      cases o with
      | ok part =>
        obtain ⟨tr, ht⟩ := getPartsLoop_run ps _ s1 _ h
        exact ⟨_, .cons hst (by simp [Out.map]) ht⟩
      | err e => exact ⟨_, .cons hst (by simp [Out.map]) (.nil _)⟩
      | panic => exact absurd rfl h

theorem getParts_run {c : CosignerCfg} {k : HRST} {order : List Int} {rnd : Nat → Rand} {s : CState}
    (h : (getParts C c k order rnd s).1 ≠ .panic) : ∃ tr, Run C c s tr (getParts C c k order rnd s).2 := by
  unfold getParts at h ⊢
  split
  · next e => rw [if_pos e] at h; exact absurd rfl h
  · next e => rw [if_neg e] at h; exact getPartsLoop_run order rnd s [] h

/-- A call to sign that is answered, as a history that ends with the signature. -/
theorem setPartsAndSign_run {c : CosignerCfg} {k : HRST} {bs : Bytes} : ∀ (parts : List SecretPart) (rnd : Nat → Rand)
    (s : CState) (r : SignRes), (setPartsAndSign C c k bs parts rnd s).1 = .ok r →
    ∃ tr, Run C c s (tr ++ [(.sign bs, .ok (.signed r))]) (setPartsAndSign C c k bs parts rnd s).2
  | [], _, s, r, h => by
    simp only [setPartsAndSign] at h ⊢
    refine ⟨[], .cons (s1 := (sign C c s bs).2) ?_ (by simp) (.nil _)⟩
    simp only [CState.step, h, Out.map]
  | p :: ps, rnd, s, r, h => by
    simp only [setPartsAndSign] at h ⊢
    rcases hg : setPart C c s (p.toSetReq k) (rnd 0) with ⟨o, s1⟩
    rw [hg] at h
    have hst : s.step C c (.setPart (p.toSetReq k) (rnd 0)) = (o.map fun _ => .unit, s1) := by simp only [CState.step, hg]
    cases o with
    | ok u =>
      obtain ⟨tr, ht⟩ := setPartsAndSign_run ps _ s1 r h
      exact ⟨_ :: tr, .cons hst (by simp [Out.map]) ht⟩
    | err e => cases h
    | panic => cases h

/-- The events of a history of one node. -/
def onNode (p : Nat) (tr : List (CosOp × Out CosResp)) : List LivesEv := tr.map fun x => ⟨p, .op x.1, some x.2⟩

/-- What a node that goes through a history of its cosigner does among the others. -/
theorem lives_run {c0 : Nat → DState} {p : Nat} : ∀ {s s' : CState} {t1 : List (CosOp × Out CosResp)},
    Run C (cfg p) s t1 s' → ∀ {tr : List LivesEv} {c : Nat → DState}, Lives C cfg (fun _ _ _ => True) c0 tr c →
    (c p).mem = s → (c p).alive = true →
    ∃ c', Lives C cfg (fun _ _ _ => True) c0 (tr ++ onNode p t1) c' ∧ (∀ j, j ≠ p → c' j = c j) ∧ (c' p).mem = s' ∧
      (c' p).alive = true ∧ (c' p).file = (c p).file := by
  intro s s' t1 h
  induction h with
  | nil s => intro tr c hl hm ha; exact ⟨c, by simpa [onNode] using hl, fun _ _ => rfl, hm, ha, rfl⟩
  | @cons s s1 s2 op out t1 hstep hnp _ ih =>
    intro tr c hl hm ha
    obtain ⟨d, hd, hd2, hd3, hd4⟩ : ∃ d, (c p).step C (cfg p) (.op op) = (some out, d) ∧ d.mem = s1 ∧ d.alive = true ∧
        d.file = (c p).file := by
      simp only [DState.step, ha, Bool.true_eq_false, if_false, hm, hstep]
      cases out with
      | ok a => exact ⟨_, rfl, rfl, rfl, rfl⟩
      | err a => exact ⟨_, rfl, rfl, rfl, rfl⟩
      | panic => exact absurd rfl hnp
    have hl' := hl.snoc p (.op op) trivial
    rw [hd] at hl'
    obtain ⟨c', g1, g2, g3, g4, g5⟩ := ih hl' (by simpa using hd2) (by simpa using hd3)
    refine ⟨c', by simpa [onNode] using g1, fun j hj => ?_, g3, g4, ?_⟩
    · rw [g2 j hj]; simp [hj]
    · rw [g5]; simpa using hd4

/-- Several nodes, one after the other. -/
theorem lives_runs {c0 : Nat → DState} (f : Nat → CState) (g : Nat → CState) (ev : Nat → List (CosOp × Out CosResp)) :
    ∀ (l : List Nat), l.Nodup →
    (∀ p ∈ l, Run C (cfg p) (f p) (ev p) (g p)) → ∀ {tr : List LivesEv} {c : Nat → DState},
    Lives C cfg (fun _ _ _ => True) c0 tr c → (∀ p ∈ l, (c p).mem = f p ∧ (c p).alive = true) →
    ∃ c', Lives C cfg (fun _ _ _ => True) c0 (tr ++ l.flatMap fun p => onNode p (ev p)) c' ∧ (∀ j, j ∉ l → c' j = c j) ∧
      ∀ p ∈ l, (c' p).mem = g p ∧ (c' p).alive = true ∧ (c' p).file = (c p).file
  | [], _, _, tr, c, hl, _ => ⟨c, by simpa using hl, fun _ _ => rfl, by simp⟩
  | p :: l, hnd, hr, tr, c, hl, hs => by
    obtain ⟨hp, hnd⟩ := List.nodup_cons.1 hnd
    obtain ⟨c1, g1, g2, g3, g4, g5⟩ := lives_run (hr p (by simp)) hl (hs p (by simp)).1 (hs p (by simp)).2
    obtain ⟨c2, k1, k2, k3⟩ := lives_runs f g ev l hnd (fun q hq => hr q (by simp [hq])) g1 (fun q hq => by
      have hne : q ≠ p := by rintro rfl; exact hp hq
      rw [g2 q hne]; exact hs q (by simp [hq]))
    refine ⟨c2, by simpa using k1, fun j hj => ?_, fun q hq => ?_⟩
    · simp only [List.mem_cons, not_or] at hj
      rw [k2 j hj.2, g2 j hj.1]
    · rcases List.mem_cons.1 hq with rfl | hq'
      · rw [k2 q hp]; exact ⟨g3, g4, g5⟩
      · have hne : q ≠ p := by rintro rfl; exact hp hq'
        obtain ⟨a, b, e⟩ := k3 q hq'
        exact ⟨a, b, by rw [e, g2 q hne]⟩

/-- Nodes that die. -/
theorem lives_restarts {c0 : Nat → DState} : ∀ (l : List Nat), l.Nodup → ∀ {tr : List LivesEv} {c : Nat → DState},
    Lives C cfg (fun _ _ _ => True) c0 tr c →
    ∃ c', Lives C cfg (fun _ _ _ => True) c0 (tr ++ l.map fun p => ⟨p, .restart, none⟩) c' ∧ (∀ j, j ∉ l → c' j = c j) ∧
      ∀ p ∈ l, c' p = DState.boot (c p).file
  | [], _, tr, c, hl => ⟨c, by simpa using hl, fun _ _ => rfl, by simp⟩
  | p :: l, hnd, tr, c, hl => by
    obtain ⟨hp, hnd⟩ := List.nodup_cons.1 hnd
    have hl' := hl.snoc p .restart trivial
    obtain ⟨c2, k1, k2, k3⟩ := lives_restarts l hnd hl'
    refine ⟨c2, by simpa [DState.step] using k1, fun j hj => ?_, fun q hq => ?_⟩
    · simp only [List.mem_cons, not_or] at hj
      rw [k2 j hj.2]; simp [hj.1]
    · rcases List.mem_cons.1 hq with rfl | hq'
      · rw [k2 q hp]; simp [DState.step]
      · have hne : q ≠ p := by rintro rfl; exact hp hq'
        rw [k3 q hq']; simp [hne]

theorem FullSignatureEver.mono {n t : Nat} {faulty : Finset Nat} {tr tr' : List LivesEv} {pub bs sig : Bytes}
    (h : FullSignatureEver C n t faulty tr pub bs sig) (hsub : ∀ e ∈ tr, e ∈ tr') :
    FullSignatureEver C n t faulty tr' pub bs sig := by
  obtain ⟨eph, shares, h1, h2, h3⟩ := h
  refine ⟨eph, shares, h1, fun i b hb hl hf => ?_, h3⟩
  obtain ⟨r, hr, e⟩ := h2 i b hb hl hf
  exact ⟨r, hsub _ hr, e⟩

end

section
variable {C : Crypto} {F G : Type} [Field F] [AddCommGroup G] [Module F G] {L : Lawful C F G}
  {pair : Bytes → Bytes → Prop} {n t : Nat} {cfg : Nat → CosignerCfg} {x : F} {kc : List F} {rsaPub : Nat → Bytes}

/-- Cosigners that have not signed the block yet sign it together, whatever has happened before. -/
theorem lives_round (hS : Setup C L pair n t cfg x kc rsaPub) (hn : 2 ≤ n) {ps : List Nat} (hnd : ps.Nodup)
    (hps : ∀ p ∈ ps, 1 ≤ p ∧ p ≤ n) (hlen : ps.length = t) {k : HRST} {bs : Bytes} (hu : unpackHRST bs = .ok k)
    {c0 c : Nat → DState} {tr : List LivesEv} (hl : Lives C cfg (fun _ _ _ => True) c0 tr c)
    (hst : ∀ p ∈ ps, (c p).alive = true ∧ (c p).mem.lss.hrs ≺ k.hrs ∧ (c p).mem.hrsMeta k = none) :
    ∃ tr' c' sig, Lives C cfg (fun _ _ _ => True) c0 (tr ++ tr') c' ∧ (∀ e ∈ tr', e.ev ≠ .restart) ∧
      (∀ j, j ∉ ps → c' j = c j) ∧ (∀ p ∈ ps, (c' p).file = (c p).file) ∧
      (∀ p ∈ ps, ∃ r, (⟨p, .op (.sign bs), some (.ok (.signed r))⟩ : LivesEv) ∈ tr') ∧
      FullSignatureEver C n t ∅ tr' (L.pt (x • L.B)) bs sig ∧ C.verify (L.pt (x • L.B)) bs sig = true := by
  have ht := hS.t_pos
  have hk : IsI64 k.timestamp := unpack_time_i64 hu
  obtain ⟨leader, hleader⟩ : ∃ p, p ∈ ps := List.exists_mem_of_length_pos (by omega)
  let order : Nat → List Nat := fun _ => List.range' 1 n
  let rnd : Nat → Nat → Rand := fun _ _ => ⟨some (List.replicate 32 0), [], [], []⟩
  have hrnd : ∀ p i, ∃ sec, (rnd p i).secret = some sec ∧ sec.length = 32 := fun _ _ => ⟨_, rfl, by simp⟩
  let st : Nat → CState := fun p => (c p).mem
  have hlow : ∀ p ∈ ps, (st p).lss.hrs ≺ k.hrs := fun p hp => (hst p hp).2.1
  have hnew : ∀ p ∈ ps, (st p).hrsMeta k = none := fun p hp => (hst p hp).2.2
  obtain ⟨sig, st', h1, h2, _, _⟩ := C21_round hS hn ps hnd hps (by omega) leader hleader k hk bs hu order
    (fun _ => .refl _) (fun _ => ps) (fun _ => .refl _) rnd rnd hrnd st hlow hnew
  have hans := fun p (hp : p ∈ ps) => honest_answers hS hn hnd hps hlen hleader hk hu (order := order)
    (fun _ => .refl _) (mapOrder := fun _ => ps) (fun _ => .refl _) (rnd1 := rnd) (rnd2 := rnd) hrnd hlow hnew hp
  -- the two halves
  have hgot : ∀ p, p ∈ ps → ∃ t1, Run C (cfg p) (st p) t1
      (getParts C (cfg p) k ((order p).map fun q : Nat => (q : Int)) (rnd p) (st p)).2 := by
    intro p hp
    refine getParts_run ?_
    obtain ⟨q, hq, hqp⟩ : ∃ q ∈ order p, q ≠ p := by
      by_cases h : p = 1
      · exact ⟨2, by simp only [order, List.mem_range'_1]; omega, by omega⟩
      · exact ⟨1, by simp only [order, List.mem_range'_1]; omega, Ne.symm h⟩
    obtain ⟨_, _, _, _, _, _, g1, _⟩ := getPartsLoop_fresh hS (hps p hp).1 (hps p hp).2 hk
      (order p) (rnd p) (st p) (by intro q hq; simp only [order, List.mem_range'_1] at hq; omega) ⟨q, hq, hqp⟩ (hnew p hp)
      (hrnd p)
    unfold getParts
    rw [if_neg, g1]
    · simp
    · intro h
      rw [List.map_eq_nil_iff] at h
      rw [h] at hq
      simp at hq
  choose! ev1 hev1 using hgot
  have : Nonempty SignRes := ⟨⟨none, none, none⟩⟩
  choose! r hr using hans
  have hsgn := fun p (hp : p ∈ ps) => setPartsAndSign_run _ _ _ _ (hr p hp)
  choose! ev2 hev2 using hsgn
  obtain ⟨c1, k1, k2, k3⟩ := lives_runs _ _ ev1 ps hnd hev1 hl (fun p hp => ⟨rfl, (hst p hp).1⟩)
  obtain ⟨c2, m1, m2, m3⟩ := lives_runs _ _ _ ps hnd hev2 k1 (fun p hp => ⟨(k3 p hp).1, (k3 p hp).2.1⟩)
  have hin : ∀ p ∈ ps, (⟨p, .op (.sign bs), some (.ok (.signed (r p)))⟩ : LivesEv) ∈
      ps.flatMap fun p => onNode p (ev2 p ++ [(.sign bs, .ok (.signed (r p)))]) := by
    intro p hp
    rw [List.mem_flatMap]
    exact ⟨p, hp, by simp [onNode]⟩
  rw [List.append_assoc] at m1
  refine ⟨_, c2, sig, m1, ?_, fun j hj => by rw [m2 j hj, k2 j hj], fun p hp => by rw [(m3 p hp).2.2, (k3 p hp).2.2],
    fun p hp => ⟨r p, List.mem_append_right _ (hin p hp)⟩, ?_, h2⟩
  · intro e he
    simp only [List.mem_append, List.mem_flatMap, onNode, List.mem_map] at he
    rcases he with ⟨p, _, y, _, rfl⟩ | ⟨p, _, y, _, rfl⟩ <;> simp
  · have h3 := congrArg Prod.fst h1
    simp only [signRound] at h3
    refine ⟨_, _, by simp [roundShares, shareArray], ?_, h3⟩
    intro i b hb hne _
    simp only [roundShares, shareArray, List.getElem?_map] at hb
    cases hi : (List.range n)[i]? with
    | none => rw [hi] at hb; cases hb
    | some j =>
      obtain ⟨hlt, hj⟩ := List.getElem?_eq_some_iff.1 hi
      rw [List.getElem_range] at hj
      subst hj
      rw [hi] at hb
      simp only [Option.map_some, Option.some.injEq] at hb
      by_cases hip : i + 1 ∈ ps
      · rw [if_pos hip] at hb
        refine ⟨r (i + 1), List.mem_append_right _ (hin _ hip), ?_⟩
        rw [← hb]
        rw [hr (i + 1) hip]
      · rw [if_neg hip] at hb
        subst hb
        simp at hne

/-- C66: the bound is needed. In every cluster of honest cosigners with a correctly dealt key, of any size and threshold
from any state files, if `2t ≤ n + f` then `f` cosigners that die once each, at a time when the watermark in the file is
below what they have released, are enough: for any two sign bytes for the same height, round and step above the files,
conflicting or not, there is a history in which nobody else dies, everybody is honest, and there are full signatures over
both that verify. So the condition `n + f < 2t` of `C66_covered_partial` cannot be weakened. -/
theorem C66_needed (hS : Setup C L pair n t cfg x kc rsaPub) (hn : 2 ≤ n) (f : Nat) (hf : 2 * t ≤ n + f)
    (file : Nat → PFile) (bs bs' : Bytes) (k k' : HRST) (hu : unpackHRST bs = .ok k) (hu' : unpackHRST bs' = .ok k')
    (hsame : k.height = k'.height ∧ k.round = k'.round ∧ k.step = k'.step)
    (hlow : ∀ p, 1 ≤ p → p ≤ n → (file p).hrs ≺ k.hrs) :
    ∃ (faulty : Finset Nat) (tr : List LivesEv) (c : Nat → DState) (sig sig' : Bytes), faulty.card ≤ f ∧
      Lives C cfg (fun _ _ _ => True) (fun i => DState.boot (file i)) tr c ∧
      (∀ e ∈ tr, e.ev = .restart → e.node ∈ faulty) ∧ (∀ p, ((ofNode p tr).filter fun e => e.1 = .restart).length ≤ 1) ∧
      FullSignatureEver C n t ∅ tr (L.pt (x • L.B)) bs sig ∧ FullSignatureEver C n t ∅ tr (L.pt (x • L.B)) bs' sig' ∧
      C.verify (L.pt (x • L.B)) bs sig = true ∧ C.verify (L.pt (x • L.B)) bs' sig' = true := by
  have ht := hS.t_pos
  have htn := hS.t_le
  have hk : k'.hrs = k.hrs := by unfold HRST.hrs; rw [hsame.1, hsame.2.1, hsame.2.2]
  have hboot : ∀ p k0, (DState.boot (file p)).mem.lss.hrs = (file p).hrs ∧ (DState.boot (file p)).mem.hrsMeta k0 = none :=
    fun _ _ => ⟨rfl, rfl⟩
  -- the first quorum signs
  obtain ⟨t1, c1, sig, a1, a2, a3, a4, _, a6, a7⟩ := lives_round hS hn (ps := List.range' 1 t) List.nodup_range'
    (by intro p hp; rw [List.mem_range'_1] at hp; omega) List.length_range' hu
    (Lives.nil (C := C) (cfg := cfg) (ok := fun _ _ _ => True) (c0 := fun i => DState.boot (file i)))
    (by intro p hp; rw [List.mem_range'_1] at hp; exact ⟨rfl, hlow p (by omega) (by omega), rfl⟩)
  rw [List.nil_append] at a1
  -- those that are in both die
  obtain ⟨c2, b1, b2, b3⟩ := lives_restarts (List.range' (n - t + 1) (2 * t - n)) List.nodup_range' a1
  -- the second quorum signs
  have hst : ∀ p ∈ List.range' (n - t + 1) t, c2 p = DState.boot (file p) := by
    intro p hp
    rw [List.mem_range'_1] at hp
    by_cases h : p ∈ List.range' (n - t + 1) (2 * t - n)
    · rw [b3 p h, a4 p (by rw [List.mem_range'_1] at h ⊢; omega)]; rfl
    · rw [b2 p h, a3 p (by rw [List.mem_range'_1] at h ⊢; omega)]
  obtain ⟨t2, c3, sig', d1, d2, _, _, _, d6, d7⟩ := lives_round hS hn (ps := List.range' (n - t + 1) t) List.nodup_range'
    (by intro p hp; rw [List.mem_range'_1] at hp; omega) List.length_range' hu' b1
    (by
      intro p hp
      rw [hst p hp, hk]
      rw [List.mem_range'_1] at hp
      exact ⟨rfl, hlow p (by omega) (by omega), rfl⟩)
  refine ⟨(List.range' (n - t + 1) (2 * t - n)).toFinset, _, c3, sig, sig', ?_, d1, ?_, ?_,
    a6.mono (by intro e he; simp [he]), d6.mono (by intro e he; simp [he]), a7, d7⟩
  · rw [List.toFinset_card_of_nodup List.nodup_range', List.length_range']; omega
  · intro e he hr
    simp only [List.mem_append, List.mem_map] at he
    rcases he with (he | ⟨p, hp, rfl⟩) | he
    · exact absurd hr (a2 e he)
    · exact List.mem_toFinset.2 hp
    · exact absurd hr (d2 e he)
  · intro p
    have hno : ∀ l : List LivesEv, (∀ e ∈ l, e.ev ≠ .restart) → (ofNode p l).filter (fun e => e.1 = .restart) = [] := by
      intro l hl
      rw [List.filter_eq_nil_iff]
      intro e he
      simp only [ofNode, List.mem_map, List.mem_filter] at he
      obtain ⟨y, ⟨hy, _⟩, rfl⟩ := he
      simpa using hl y hy
    have happ : ∀ a b : List LivesEv, ofNode p (a ++ b) = ofNode p a ++ ofNode p b := by
      intro a b; simp [ofNode]
    rw [happ, happ, List.filter_append, List.filter_append, hno _ a2, hno _ d2, List.nil_append, List.append_nil]
    refine (List.length_filter_le _ _).trans ?_
    have h1 := List.nodup_iff_count_le_one.1 (List.nodup_range' (s := n - t + 1) (n := 2 * t - n)) p
    simp only [ofNode, List.length_map, List.filter_map]
    rw [List.count_eq_length_filter] at h1
    refine le_trans (le_of_eq ?_) h1
    congr 1

/-- The 2-of-3 cluster of the examples with new state files and one such death: both precommits of height 7 for different
blocks get a full signature. -/
example : ∃ (faulty : Finset Nat) (tr : List LivesEv) (c : Nat → DState) (sig sig' : Bytes), faulty.card ≤ 1 ∧
    Lives ftoy fcfg (fun _ _ _ => True) (fun _ => DState.boot emptyFile) tr c ∧
    (∀ e ∈ tr, e.ev = .restart → e.node ∈ faulty) ∧
    FullSignatureEver ftoy 3 2 ∅ tr (ftoyLawful.pt ((42 : ZMod 257) • ftoyLawful.B)) b1 sig ∧
    FullSignatureEver ftoy 3 2 ∅ tr (ftoyLawful.pt ((42 : ZMod 257) • ftoyLawful.B)) b1x sig' ∧ ¬ DifferOnlyByTime 3 b1 b1x := by
  obtain ⟨fa, tr, c, sig, sig', h1, h2, h3, _, h5, h6, _⟩ := C66_needed fsetup (by decide) 1 (by decide) (fun _ => emptyFile)
    b1 b1x _ _ unpack_b1 unpack_b1x ⟨rfl, rfl, rfl⟩ (fun _ _ _ => by decide)
  refine ⟨fa, tr, c, sig, sig', h1, h2, h3, h5, h6, fun hd => ?_⟩
  have hn : onlyDifferByTimestamp 3 b1 b1x ≠ none := by decide +kernel
  exact hn ((onlyDiffer_iff 3 b1 b1x).2 hd)

end
end Horcrux
