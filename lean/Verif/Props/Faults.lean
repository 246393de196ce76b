import Verif.Props.SignPhase
import Verif.Lemmas.Cluster
import Verif.Props.System
import Verif.Props.Retry
/-
Property C93: signing with cosigners that do not work.
-/
namespace Horcrux
open Spec

/-! ### Vocabulary -/

/-- What the cosigner `p` says when it is asked to sign in the round of request `q` (`Model/Round`, `roundShares`): it has
made its own parts and gets those of the participants that are meant for it. -/
def signAnswer (C : Crypto) (cfg : Nat → CosignerCfg) (q : Req) (st : Nat → CState) (p : Nat) : Out SignRes :=
  (setPartsAndSign C (cfg p) q.block.key q.block.signBytes
    (partsFor ((q.mapOrder p).map fun j : Nat =>
      ((j : Int), okParts (getParts C (cfg j) q.block.key (q.order j) (q.rnd1 j) (st j)).1)) (p : Int)) (q.rnd2 p)
    (getParts C (cfg p) q.block.key (q.order p) (q.rnd1 p) (st p)).2).1

/-! ### Counting -/

/-- Only participants that answered count. -/
theorem table_ids (t total me : Nat) (ps : List Nat) (hnd : ps.Nodup) (hlen : ps.length = t)
    (hps : ∀ p ∈ ps, 1 ≤ p ∧ p ≤ total) (es : List SignEv) (s0 s : SignPhase)
    (h0 : SignPhase.start t total ps = .ok s0) (hr : SignPhase.run me s0 es = .ok s) (hen : s.ended = some true) :
    ∀ i ∈ (collectSigs 0 s.sigs).1, i ∈ ps ∧ sigIn (outcomeOf i es) ≠ [] := by
  obtain ⟨s0', s', e0, er, h⟩ := C71_table t total me ps hnd hlen hps es
  rw [h0] at e0; cases e0
  rw [hr] at er; cases er
  obtain ⟨_, h2, h3, h4, _⟩ := h hen
  intro i hi
  obtain ⟨g1, b, g2, g3⟩ := (collectSigs_ids s.sigs 0).2 i hi
  simp only [Nat.sub_zero] at g2
  have hlt : i - 1 < total := by
    rw [← h2]
    by_contra hc
    rw [List.getElem?_eq_none (by omega)] at g2
    cases g2
  have hip : i ∈ ps := by
    by_contra hc
    have := h4 (i - 1) hlt (by rwa [Nat.sub_add_cancel g1])
    rw [this] at g2; cases g2
    exact g3 rfl
  refine ⟨hip, fun hc => ?_⟩
  rw [h3 i hip, hc] at g2
  cases g2
  exact g3 rfl

/-! ### C93 -/

/-- C93: what a round needs. Whatever happens in a round of any length, if one of the first `t - 1` peers that answered the
call for secret parts then fails to sign, or answers without a signature, there is no signature: the table has fewer than
`t` entries, although others could have taken its place. -/
theorem C93_needs_all (C : Crypto) (pub bs : Bytes) (t total me : Nat) (ht : 1 ≤ t) (hme : 1 ≤ me ∧ me ≤ total)
    (es : List CollectEv) (hes : Schedule me es) (hids : ∀ p ∈ (answersOf es).take (t - 1), 1 ≤ p ∧ p ≤ total)
    (es' : List SignEv) (ph : SignPhase) (hr : leaderRound t total me es es' = .ok (some ph)) (hen : ph.ended = some true)
    (bad : Nat) (hbad : bad ∈ (answersOf es).take (t - 1) ++ [me]) (hfail : sigIn (outcomeOf bad es') = []) :
    assemble C t pub bs ph.sigs ph.eph = .err .notEnoughCosigners := by
  obtain ⟨s0, s, g1, g2, g3, g4, _⟩ := C31_participants t ht me es hes
  simp only [leaderRound, g1, g2] at hr
  by_cases hp : s.proceeded = false
  · rw [if_pos hp] at hr; simp at hr
  · rw [if_neg hp] at hr
    have hp' : s.proceeded = true := by simpa using hp
    obtain ⟨_, g5, g6⟩ := g4 hp'
    rw [hp', if_pos rfl] at g3
    have hps : ∀ p ∈ s.joined, 1 ≤ p ∧ p ≤ total := by
      intro p hpj
      rw [g3] at hpj
      rcases List.mem_append.1 hpj with hpj | hpj
      · exact hids p hpj
      · rw [List.mem_singleton] at hpj; subst hpj; exact hme
    cases hst : SignPhase.start t total s.joined with
    | err _ => rw [hst] at hr; cases hr
    | panic => rw [hst] at hr; cases hr
    | ok p0 =>
      rw [hst] at hr
      simp only at hr
      cases hrun : SignPhase.run me p0 es' with
      | err _ => rw [hrun] at hr; cases hr
      | panic => rw [hrun] at hr; cases hr
      | ok p1 =>
        rw [hrun] at hr
        simp only [Out.ok.injEq, Option.some.injEq] at hr
        subst hr
        have hsub := table_ids t total me s.joined g6 g5 hps es' p0 p1 hst hrun hen
        have hb : bad ∈ s.joined := by rw [g3]; exact hbad
        have hle : (collectSigs 0 p1.sigs).1.length ≤ (s.joined.erase bad).length := by
          refine (List.subperm_of_subset (collectSigs_ids p1.sigs 0).1 ?_).length_le
          intro i hi
          obtain ⟨k1, k2⟩ := hsub i hi
          refine (g6.mem_erase_iff).2 ⟨?_, k1⟩
          rintro rfl
          exact k2 hfail
        rw [List.length_erase_of_mem hb, g5] at hle
        unfold assemble
        rw [if_pos (by omega)]

/-- After events in order everything is below the next request. -/
theorem inOrder_last {C : Crypto} {F G : Type} [Field F] [AddCommGroup G] [Module F G] {L : Lawful C F G}
    {pair : Bytes → Bytes → Prop} {n t : Nat} {cfg : Nat → CosignerCfg} {x : F} {kc : List F} {rsaPub : Nat → Bytes}
    (hS : Setup C L pair n t cfg x kc rsaPub) (hn : 2 ≤ n) (evs : List SysEv) : ∀ (w : HRS) (s : Sys) (q : Req), SysBelow w s →
      InOrder n t w (evs ++ [.sign q]) →
      ∃ w', SysBelow w' (s.run C ⟨t, L.pt (x • L.B)⟩ cfg n evs).2 ∧ Servable n t q ∧ w' ≺ q.block.hrs := by
  induction evs with
  | nil => intro w s q hs he; exact ⟨w, hs, he.2.1, he.1⟩
  | cons e evs ih =>
    intro w s q hs he
    have hq := hs.quiet (C := C) (vcfg := ⟨t, L.pt (x • L.B)⟩) (cfg := cfg) (n := n)
    cases e with
    | sign q0 =>
      obtain ⟨h1, h2, h3⟩ := he
      obtain ⟨sig, s', e1, e2, e3, _⟩ := signBlock_ok hS hn hs h2 h1
      simp only [Sys.run, Sys.step, e1]
      exact ih _ _ q e3 h3
    | deliver p r => exact ih w _ q (hq.1 p r he.1) he.2
    | other p op => exact ih w _ q (hq.2.1 p op he.1) he.2
    | restart p a b => exact ih w _ q (hq.2.2 p a b he.1 he.2.1) he.2.2

/-- C93, partial: the leader and `t - 1` peers suffice if the peers that do not work do not answer the call for secret
parts either. In a cluster that has run as in C63 (`evs`), let the peers answer this call or not, in any order and at any
time (`es`), let the participants be the first `t - 1` that answered and the leader, and let their answers to the call to sign, which arrive in
any order (`es'`), be those of their cosigners, with no call failing that the cosigner served. If both waits end in
time, the leader's call returns a signature that verifies for the requested sign bytes. Missing: peers that answer the
first call and not the second (`C93_needs_all`, `C93_fails`). -/
theorem C93_partial {C : Crypto} {F G : Type} [Field F] [AddCommGroup G] [Module F G] {L : Lawful C F G}
    {pair : Bytes → Bytes → Prop} {n t : Nat} {cfg : Nat → CosignerCfg} {x : F} {kc : List F} {rsaPub : Nat → Bytes}
    (hS : Setup C L pair n t cfg x kc rsaPub) (hn : 2 ≤ n) (w : HRS) (lv lc : Nat → SignState)
    (hv : ∀ p, (lv p).hrs ≼ w) (hc : ∀ p, (lc p).hrs ≼ w) (evs : List SysEv) (q : Req)
    (hev : InOrder n t w (evs ++ [.sign q])) (s : Sys) (hs : ((Sys.start lv lc).run C ⟨t, L.pt (x • L.B)⟩ cfg n evs).2 = s)
    (es : List CollectEv) (hes : Schedule q.leader es) (hps : q.ps = (answersOf es).take (t - 1) ++ [q.leader])
    (es' : List SignEv) (ph : SignPhase) (hr : leaderRound t n q.leader es es' = .ok (some ph))
    (hen : ph.ended = some true)
    (hok : ∀ p r, SignEv.answered p r ∈ es' → signAnswer C cfg q s.cs p = .ok r)
    (hfail : ∀ p, SignEv.failed p ∈ es' → ∀ r, signAnswer C cfg q s.cs p ≠ .ok r) :
    ∃ v1 v2 sig again, (s.vs q.leader).begin C ⟨t, L.pt (x • L.B)⟩ q.id q.block =
        (.startRound q.id q.block again, v1) ∧
      v1.assembleAndSave C ⟨t, L.pt (x • L.B)⟩ q.id ph.sigs ph.eph =
        (.ret q.id q.block (some sig) q.block.timestamp none, v2) ∧
      C.verify (L.pt (x • L.B)) q.block.signBytes sig = true := by
  have ht : 1 ≤ t := hS.t_pos
  obtain ⟨w', hb', hq, hw⟩ := inOrder_last hS hn evs w _ q (SysBelow.start hv hc) hev
  rw [hs] at hb'
  obtain ⟨s0, sc, g1, g2, g3, g4, _⟩ := C31_participants t ht q.leader es hes
  have hr' := hr
  simp only [leaderRound, g1, g2] at hr'
  by_cases hp : sc.proceeded = false
  · rw [if_pos hp] at hr'; simp at hr'
  · rw [if_neg hp] at hr'
    have hp' : sc.proceeded = true := by simpa using hp
    obtain ⟨_, g5, g6⟩ := g4 hp'
    rw [hp', if_pos rfl, ← hps] at g3
    rw [g3] at hr' g5 g6
    cases hst : SignPhase.start t n q.ps with
    | err _ => rw [hst] at hr'; cases hr'
    | panic => rw [hst] at hr'; cases hr'
    | ok p0 =>
      rw [hst] at hr'
      simp only at hr'
      cases hrun : SignPhase.run q.leader p0 es' with
      | err _ => rw [hrun] at hr'; cases hr'
      | panic => rw [hrun] at hr'; cases hr'
      | ok p1 =>
        rw [hrun] at hr'
        simp only [Out.ok.injEq, Option.some.injEq] at hr'
        subst hr'
        obtain ⟨k1, k2⟩ := C71_shareArray t n q.leader q.ps g6 g5 hq.ids es'
          (signAnswer C cfg q s.cs) hok hfail p0 p1 hst hrun hen
        have k2 := k2 hq.leads
        obtain ⟨sig, s', e1, e2, _⟩ := signBlock_ok hS hn hb' hq hw
        have hinit : (s.vs q.leader).init.hrs ≺ q.block.hrs := HRS.lt_of_le_of_lt (hb'.init q.leader) hw
        have hsave : (s.vs q.leader).init.save (SSC.new q.block.height q.block.round q.block.step) = _ :=
          SignState.save_ok _ _ hinit
        obtain ⟨v1, hb⟩ : ∃ v1, (s.vs q.leader).begin C ⟨t, L.pt (x • L.B)⟩ q.id q.block =
            (.startRound q.id q.block false, v1) := by
          unfold VState.begin
          simp only [VState.step, hsave, hb'.idle]
          exact ⟨_, rfl⟩
        have e1' := e1
        unfold Sys.signBlock at e1'
        rw [hb] at e1'
        simp only at e1'
        have hsh : (roundShares C cfg q.ps q.leader n q.block.key q.block.signBytes q.order q.mapOrder q.rnd1 q.rnd2
            s.cs).1 = (p1.sigs, p1.eph) := by
          rw [k1, k2]; rfl
        rw [hsh] at e1'
        refine ⟨v1, (v1.assembleAndSave C ⟨t, L.pt (x • L.B)⟩ q.id p1.sigs p1.eph).2, sig, false, hb, ?_, e2⟩
        have e3 := congrArg Prod.fst e1'
        exact Prod.ext e3 rfl

/-- Leader 1 of three, threshold 2: peer 2 fails, peer 3 and the leader sign. -/
def faultReq : Req := freq 7 blk1 1 [3, 1]

def faultAnswer (p : Nat) : SignRes :=
  match signAnswer ftoy fcfg faultReq (fun _ => CState.start .empty) p with
  | .ok r => r
  | _ => ⟨none, none, none⟩

def faultFirst : List CollectEv := [.failed 2, .answered 3, .done 3, .proceed 1]

def faultSecond : List SignEv := [.answered 1 (faultAnswer 1), .done 1, .answered 3 (faultAnswer 3), .done 3, .proceed]

example : Servable 3 2 faultReq ∧ Schedule 1 faultFirst ∧ faultReq.ps = (answersOf faultFirst).take (2 - 1) ++ [1] ∧
    (∃ ph, leaderRound 2 3 1 faultFirst faultSecond = .ok (some ph) ∧ ph.ended = some true) ∧
    (∀ p r, SignEv.answered p r ∈ faultSecond → signAnswer ftoy fcfg faultReq (fun _ => CState.start .empty) p = .ok r) ∧
    (∀ p, SignEv.failed p ∉ faultSecond) := by
  have h1 : signAnswer ftoy fcfg faultReq (fun _ => CState.start .empty) 1 = .ok (faultAnswer 1) := by decide +kernel
  have h3 : signAnswer ftoy fcfg faultReq (fun _ => CState.start .empty) 3 = .ok (faultAnswer 3) := by decide +kernel
  refine ⟨fservable _ _ _ _ (by decide +kernel) (by decide) (by decide) (by decide) (by decide),
    ⟨by decide, by intro x hx; simpa [faultFirst] using hx, by decide⟩, rfl, ⟨_, rfl, rfl⟩, ?_, by simp [faultSecond]⟩
  intro p r hp
  simp only [faultSecond, List.mem_cons, SignEv.answered.injEq, reduceCtorEq, false_or, or_false, List.not_mem_nil] at hp
  rcases hp with ⟨e1, e2⟩ | ⟨e1, e2⟩
  · rw [e1, e2]; exact h1
  · rw [e1, e2]; exact h3

/-- C93, exactly: in a cluster that has run as in C63, whatever fails in the round, the leader's call returns a signature
that verifies iff every one of the first `t - 1` peers that answered the call for secret parts, and the leader, answered
the call to sign; otherwise it reports that there are not enough cosigners, however many others could have signed. Calls
may fail although the cosigner served them. -/
theorem C93_exact {C : Crypto} {F G : Type} [Field F] [AddCommGroup G] [Module F G] {L : Lawful C F G}
    {pair : Bytes → Bytes → Prop} {n t : Nat} {cfg : Nat → CosignerCfg} {x : F} {kc : List F} {rsaPub : Nat → Bytes}
    (hS : Setup C L pair n t cfg x kc rsaPub) (hn : 2 ≤ n) (w : HRS) (lv lc : Nat → SignState)
    (hv : ∀ p, (lv p).hrs ≼ w) (hc : ∀ p, (lc p).hrs ≼ w) (evs : List SysEv) (q : Req)
    (hev : InOrder n t w (evs ++ [.sign q])) (s : Sys) (hs : ((Sys.start lv lc).run C ⟨t, L.pt (x • L.B)⟩ cfg n evs).2 = s)
    (es : List CollectEv) (hes : Schedule q.leader es) (hps : q.ps = (answersOf es).take (t - 1) ++ [q.leader])
    (es' : List SignEv) (ph : SignPhase) (hr : leaderRound t n q.leader es es' = .ok (some ph))
    (hen : ph.ended = some true)
    (hok : ∀ p r, SignEv.answered p r ∈ es' → signAnswer C cfg q s.cs p = .ok r) :
    ∃ v1 v2 again sig e, (s.vs q.leader).begin C ⟨t, L.pt (x • L.B)⟩ q.id q.block =
        (.startRound q.id q.block again, v1) ∧
      v1.assembleAndSave C ⟨t, L.pt (x • L.B)⟩ q.id ph.sigs ph.eph =
        (.ret q.id q.block sig q.block.timestamp e, v2) ∧
      ((∀ p ∈ (answersOf es).take (t - 1) ++ [q.leader], ∃ r, outcomeOf p es' = some (some r)) →
        e = none ∧ ∃ b, sig = some b ∧ C.verify (L.pt (x • L.B)) q.block.signBytes b = true) ∧
      (∀ p ∈ (answersOf es).take (t - 1) ++ [q.leader], (∀ r, outcomeOf p es' ≠ some (some r)) →
        sig = none ∧ e = some .notEnoughCosigners) := by
  have ht : 1 ≤ t := hS.t_pos
  obtain ⟨w', hb', hq, hw⟩ := inOrder_last hS hn evs w _ q (SysBelow.start hv hc) hev
  rw [hs] at hb'
  obtain ⟨s0, sc, g1, g2, g3, g4, _⟩ := C31_participants t ht q.leader es hes
  have hinit : (s.vs q.leader).init.hrs ≺ q.block.hrs := HRS.lt_of_le_of_lt (hb'.init q.leader) hw
  have hsave : (s.vs q.leader).init.save (SSC.new q.block.height q.block.round q.block.step) = _ :=
    SignState.save_ok _ _ hinit
  obtain ⟨v1, hb, hcall⟩ : ∃ v1, (s.vs q.leader).begin C ⟨t, L.pt (x • L.B)⟩ q.id q.block =
      (.startRound q.id q.block false, v1) ∧ v1.calls q.id = some (q.block, .round) := by
    unfold VState.begin
    simp only [VState.step, hsave, hb'.idle]
    exact ⟨_, rfl, by simp [VState.setPhase]⟩
  by_cases hall : ∀ p ∈ (answersOf es).take (t - 1) ++ [q.leader], ∃ r, outcomeOf p es' = some (some r)
  · have hr' := hr
    simp only [leaderRound, g1, g2] at hr'
    by_cases hp : sc.proceeded = false
    · rw [if_pos hp] at hr'; simp at hr'
    · rw [if_neg hp] at hr'
      have hp' : sc.proceeded = true := by simpa using hp
      obtain ⟨_, g5, g6⟩ := g4 hp'
      rw [hp', if_pos rfl, ← hps] at g3
      rw [g3] at hr' g5 g6
      cases hst : SignPhase.start t n q.ps with
      | err _ => rw [hst] at hr'; cases hr'
      | panic => rw [hst] at hr'; cases hr'
      | ok p0 =>
        rw [hst] at hr'
        simp only at hr'
        cases hrun : SignPhase.run q.leader p0 es' with
        | err _ => rw [hrun] at hr'; cases hr'
        | panic => rw [hrun] at hr'; cases hr'
        | ok p1 =>
          rw [hrun] at hr'
          simp only [Out.ok.injEq, Option.some.injEq] at hr'
          subst hr'
          obtain ⟨k1, k2⟩ := table_shareArray t n q.leader q.ps g6 g5 hq.ids es' (signAnswer C cfg q s.cs) (by
            intro p hp _
            rw [hps] at hp
            obtain ⟨r, e⟩ := hall p hp
            exact .inl ⟨r, e, hok p r (answered_of_outcome e)⟩) p0 p1 hst hrun hen
          have k2 := k2 hq.leads
          obtain ⟨sig, s', e1, e2, _⟩ := signBlock_ok hS hn hb' hq hw
          have e1' := e1
          unfold Sys.signBlock at e1'
          rw [hb] at e1'
          simp only at e1'
          have hsh : (roundShares C cfg q.ps q.leader n q.block.key q.block.signBytes q.order q.mapOrder q.rnd1 q.rnd2
              s.cs).1 = (p1.sigs, p1.eph) := by
            rw [k1, k2]; rfl
          rw [hsh] at e1'
          have e3 := congrArg Prod.fst e1'
          refine ⟨v1, (v1.assembleAndSave C ⟨t, L.pt (x • L.B)⟩ q.id p1.sigs p1.eph).2, false, some sig, none, hb,
            Prod.ext e3 rfl, fun _ => ⟨rfl, sig, rfl, e2⟩, fun p hp hno => ?_⟩
          obtain ⟨r, e⟩ := hall p hp
          exact absurd e (hno r)
  · obtain ⟨bad, hbad, hno⟩ : ∃ p ∈ (answersOf es).take (t - 1) ++ [q.leader], ∀ r, outcomeOf p es' ≠ some (some r) := by
      by_contra hc'
      refine hall fun p hp => ?_
      by_contra hc''
      exact hc' ⟨p, hp, fun r hr => hc'' ⟨r, hr⟩⟩
    have hmem : ∀ p ∈ (answersOf es).take (t - 1), 1 ≤ p ∧ p ≤ n :=
      fun p hp => hq.ids p (by rw [hps]; exact List.mem_append_left _ hp)
    have herr := C93_needs_all C (L.pt (x • L.B)) q.block.signBytes t n q.leader ht (hq.ids _ hq.leads) es hes hmem es'
      ph hr hen bad hbad (by
        cases ho : outcomeOf bad es' with
        | none => rfl
        | some o => cases o with
          | none => rfl
          | some r => exact absurd ho (hno r))
    refine ⟨v1, _, false, none, some .notEnoughCosigners, hb, Prod.ext (x := v1.assembleAndSave C _ q.id ph.sigs ph.eph) ?_ rfl,
      fun h => absurd h hall, fun _ _ _ => ⟨rfl, rfl⟩⟩
    unfold VState.assembleAndSave
    simp only [VState.step, hcall, herr]

/-- Peer 3 signs, but its answer is lost. -/
def faultLost : List SignEv := [.answered 1 (faultAnswer 1), .done 1, .failed 3, .done 3, .proceed]

/-- The request is the one above. -/
example : Schedule 1 faultFirst ∧ (∃ ph, leaderRound 2 3 1 faultFirst faultLost = .ok (some ph) ∧ ph.ended = some true) ∧
    (∀ p r, SignEv.answered p r ∈ faultLost → signAnswer ftoy fcfg faultReq (fun _ => CState.start .empty) p = .ok r) ∧
    3 ∈ (answersOf faultFirst).take (2 - 1) ++ [1] ∧ (∀ r, outcomeOf 3 faultLost ≠ some (some r)) ∧
    ∃ r, outcomeOf 1 faultLost = some (some r) := by
  have h1 : signAnswer ftoy fcfg faultReq (fun _ => CState.start .empty) 1 = .ok (faultAnswer 1) := by decide +kernel
  refine ⟨⟨by decide, by intro x hx; simpa [faultFirst] using hx, by decide⟩, ⟨_, rfl, rfl⟩, ?_, by decide,
    by simp [faultLost, outcomeOf], _, rfl⟩
  intro p r hp
  simp only [faultLost, List.mem_cons, SignEv.answered.injEq, reduceCtorEq, or_false, List.not_mem_nil] at hp
  obtain ⟨e1, e2⟩ := hp
  rw [e1, e2]; exact h1

/-! A schedule in which everyone answers. -/

theorem collect_late (t : Nat) : ∀ (l j d : List Nat) (c : Int), t ≤ j.length + 1 →
    Collect.run t ⟨j, c, d, false⟩ (l.map CollectEv.answered) = .ok ⟨j, c, d, false⟩ := by
  intro l
  induction l with
  | nil => intro j d c _; simp [Collect.run]
  | cons p l ih =>
    intro j d c h
    simp only [List.map_cons, Collect.run, Collect.step]
    rw [if_neg (by omega)]
    exact ih j d c h

/-- The peers `l` answer first, then the peers `late`, and the leader proceeds. -/
def allAnswer (me : Nat) (l late : List Nat) : List CollectEv :=
  l.map .answered ++ (late.map .answered ++ (l.map .done ++ [.proceed me]))

theorem allAnswer_answers (me : Nat) (l late : List Nat) : answersOf (allAnswer me l late) = l ++ late := by
  unfold allAnswer
  rw [answersOf_append, answersOf_append, answersOf_append, answersOf_map, answersOf_map, answersOf_done]
  simp [answersOf]

theorem allAnswer_run (t me : Nat) (l late : List Nat) (hl : l.length + 1 = t) :
    ∃ s0, Collect.start t = .ok s0 ∧ Collect.run t s0 (allAnswer me l late) = .ok ⟨l ++ [me], 0, [], true⟩ := by
  refine ⟨⟨[], (t : Int) - 1, [], false⟩, ?_, ?_⟩
  · unfold Collect.start
    rw [if_neg (by omega)]
  · unfold allAnswer
    rw [collect_run_append _ _ _ _ _ (collect_answers t l [] [] _ (by simp; omega))]
    have : (t : Int) - 1 = l.length := by omega
    rw [this]
    simp only [List.nil_append]
    rw [collect_run_append _ _ _ _ _ (collect_late t late l l _ (by omega))]
    rw [collect_run_append _ _ _ _ _ (collect_dones t l l)]
    simp [Collect.run, Collect.step]

/-- Of the participants `ps`, all but `bad` sign as `ans` says. -/
def oneFails (bad : Nat) (ps : List Nat) (ans : Nat → SignRes) : List SignEv :=
  .failed bad :: ((ps.filter (· ≠ bad)).map (fun p => .answered p (ans p)) ++ ps.map .done)

theorem outcomeOf_answered (p : Nat) (ans : Nat → SignRes) : ∀ l : List Nat, p ∈ l →
    ∀ r, outcomeOf p (l.map (fun p => SignEv.answered p (ans p)) ++ r) ≠ none := by
  intro l
  induction l with
  | nil => intro h; simp at h
  | cons q l ih =>
    intro h r
    simp only [List.map_cons, List.cons_append, outcomeOf]
    by_cases hq : q = p
    · simp [hq]
    · rw [if_neg hq]
      refine ih ?_ r
      rcases List.mem_cons.1 h with h | h
      · exact absurd h.symm hq
      · exact h

theorem oneFails_done (bad : Nat) (ps : List Nat) (ans : Nat → SignRes) :
    ∀ p ∈ ps, ∃ a b, oneFails bad ps ans = a ++ .done p :: b ∧ outcomeOf p a ≠ none := by
  intro p hp
  obtain ⟨a, b, h⟩ := List.append_of_mem hp
  refine ⟨.failed bad :: ((ps.filter (· ≠ bad)).map (fun p => .answered p (ans p)) ++ a.map .done), b.map .done, ?_, ?_⟩
  · unfold oneFails
    rw [show ps.map SignEv.done = a.map SignEv.done ++ SignEv.done p :: b.map SignEv.done by rw [h]; simp]
    simp
  · simp only [outcomeOf]
    by_cases hb : bad = p
    · simp [hb]
    · rw [if_neg hb]
      exact outcomeOf_answered p ans _ (List.mem_filter.2 ⟨hp, by simpa using Ne.symm hb⟩) _

/-- C93 (full statement) is false: in a cluster of any size with any threshold from 2, a single peer that is the first to
answer the call for secret parts and then does not sign keeps the leader from signing any block. All other peers answer
all calls, with whatever they like (`ans`), and nothing takes long; yet of any number of blocks not one is signed. -/
theorem C93_fails (C : Crypto) (pub : Bytes) (t n me bad : Nat) (ht : 2 ≤ t) (htn : t ≤ n) (hme : 1 ≤ me ∧ me ≤ n)
    (hbad : 1 ≤ bad ∧ bad ≤ n) (hne : bad ≠ me) (ans : Block → Nat → SignRes) (v : VState) (id : Nat)
    (hidle : v.calls id = none) (bs : List Block) (hasc : List.IsChain HRS.lt (v.init.hrs :: bs.map Block.hrs)) :
    ∃ (es : List CollectEv) (es' : Block → List SignEv) (ph : Block → SignPhase),
      Schedule me es ∧ (∀ p, 1 ≤ p → p ≤ n → p ≠ me → p ∈ answersOf es) ∧ (∀ p, CollectEv.failed p ∉ es) ∧
      (∀ b, leaderRound t n me es (es' b) = .ok (some (ph b)) ∧ (ph b).ended = some true ∧ SignEv.timeout ∉ es' b ∧
        (∀ p, SignEv.failed p ∈ es' b → p = bad) ∧ (∀ p r, SignEv.answered p r ∈ es' b → r = ans b p)) ∧
      (vexec C ⟨t, pub⟩ v (bs.flatMap fun b => [.call id b .leader, .roundDone id (.sigs (ph b).sigs (ph b).eph)])).1 =
        bs.flatMap fun b => [(.call id b .leader, .startRound id b false),
          (.roundDone id (.sigs (ph b).sigs (ph b).eph), .ret id b none b.timestamp (some .notEnoughCosigners))] := by
  -- the peers
  let others := (List.range' 1 n).filter (fun p => p ≠ me ∧ p ≠ bad)
  have hond : others.Nodup := (List.nodup_range').filter _
  have homem : ∀ p, p ∈ others ↔ (1 ≤ p ∧ p ≤ n) ∧ p ≠ me ∧ p ≠ bad := by
    intro p
    simp only [others, List.mem_filter, List.mem_range'_1, decide_eq_true_eq]
    constructor
    · rintro ⟨h1, h2⟩; exact ⟨⟨by omega, by omega⟩, h2⟩
    · rintro ⟨h1, h2⟩; exact ⟨⟨by omega, by omega⟩, h2⟩
  have holen : t - 2 ≤ others.length := by
    have hsub : (List.range' 1 n).length ≤ (me :: bad :: others).length := by
      refine (List.subperm_of_subset List.nodup_range' ?_).length_le
      intro p hp
      simp only [List.mem_range'_1] at hp
      by_cases h1 : p = me
      · simp [h1]
      · by_cases h2 : p = bad
        · simp [h2]
        · exact List.mem_cons_of_mem _ (List.mem_cons_of_mem _ ((homem p).2 ⟨⟨by omega, by omega⟩, h1, h2⟩))
    simp only [List.length_range', List.length_cons] at hsub
    omega
  let l := bad :: others.take (t - 2)
  let late := others.drop (t - 2)
  have hll : l.length + 1 = t := by simp only [l, List.length_cons, List.length_take]; omega
  have hllate : l ++ late = bad :: others := by simp [l, late]
  have hbo : bad ∉ others := fun h => ((homem bad).1 h).2.2 rfl
  have hnd : (l ++ late).Nodup := by rw [hllate]; exact List.nodup_cons.2 ⟨hbo, hond⟩
  have hmo : me ∉ l ++ late := by
    rw [hllate]
    intro h
    rcases List.mem_cons.1 h with h | h
    · exact hne h.symm
    · exact ((homem me).1 h).2.1 rfl
  have hes : Schedule me (allAnswer me l late) :=
    ⟨by rw [allAnswer_answers]; exact hnd, by intro x hx; simpa [allAnswer] using hx, by rw [allAnswer_answers]; exact hmo⟩
  have hlps : ∀ p ∈ l ++ [me], 1 ≤ p ∧ p ≤ n := by
    intro p hp
    rcases List.mem_append.1 hp with hp | hp
    · rcases List.mem_cons.1 hp with rfl | hp
      · exact hbad
      · exact ((homem p).1 (List.mem_of_mem_take hp)).1
    · rw [List.mem_singleton] at hp; subst hp; exact hme
  have hlnd : (l ++ [me]).Nodup := by
    refine List.nodup_append.2 ⟨(List.nodup_append.1 hnd).1, by simp, ?_⟩
    intro a ha b hb hab
    rw [List.mem_singleton] at hb
    subst hb; subst hab
    exact hmo (List.mem_append_left _ ha)
  have hllen : (l ++ [me]).length = t := by simpa using hll
  -- the second half
  have hround : ∀ b, ∃ ph, leaderRound t n me (allAnswer me l late) (oneFails bad (l ++ [me]) (ans b) ++ [.proceed]) =
      .ok (some ph) ∧ ph.ended = some true := by
    intro b
    obtain ⟨s0, e1, e2⟩ := allAnswer_run t me l late hll
    obtain ⟨p0, p1, e3, e4, e5⟩ := C71_completes t n me (l ++ [me]) hlnd hllen hlps (oneFails bad (l ++ [me]) (ans b))
      (by simp [oneFails]) (oneFails_done bad (l ++ [me]) (ans b))
    refine ⟨p1, ?_, e5⟩
    simp only [leaderRound, e1, e2, Bool.true_eq_false, if_false, e3, e4]
  choose ph hph using hround
  refine ⟨allAnswer me l late, fun b => oneFails bad (l ++ [me]) (ans b) ++ [.proceed], ph, hes, ?_, ?_, ?_, ?_⟩
  · intro p h1 h2 h3
    rw [allAnswer_answers, hllate]
    by_cases h4 : p = bad
    · simp [h4]
    · exact List.mem_cons_of_mem _ ((homem p).2 ⟨⟨h1, h2⟩, h3, h4⟩)
  · intro p hp
    simp [allAnswer] at hp
  · intro b
    refine ⟨(hph b).1, (hph b).2, by simp [oneFails], ?_, ?_⟩
    · intro p hp
      simpa [oneFails] using hp
    · intro p r hp
      simp only [oneFails, List.cons_append, List.append_assoc, List.mem_cons, List.mem_append, List.mem_map,
        reduceCtorEq, and_false, exists_false, false_or, or_false, SignEv.answered.injEq, List.not_mem_nil] at hp
      obtain ⟨q, _, rfl, rfl⟩ := hp
      rfl
  · have hasm : ∀ b, assemble C t pub b.signBytes (ph b).sigs (ph b).eph = .err .notEnoughCosigners := by
      intro b
      refine C93_needs_all C pub b.signBytes t n me (by omega) hme _ hes ?_ _ (ph b) (hph b).1 (hph b).2 bad ?_ ?_
      · intro p hp
        rw [allAnswer_answers, hllate] at hp
        rcases List.mem_cons.1 (List.mem_of_mem_take hp) with rfl | hp
        · exact hbad
        · exact ((homem p).1 hp).1
      · rw [allAnswer_answers, hllate]
        refine List.mem_append_left _ ?_
        obtain ⟨m, hm⟩ : ∃ m, t - 1 = m + 1 := ⟨t - 2, by omega⟩
        rw [hm, List.take_succ_cons]
        exact List.mem_cons_self ..
      · simp [oneFails, outcomeOf, sigIn]
    have key : ∀ (bs : List Block) (v : VState), v.calls id = none →
        List.IsChain HRS.lt (v.init.hrs :: bs.map Block.hrs) →
        (vexec C ⟨t, pub⟩ v (bs.flatMap fun b => [.call id b .leader, .roundDone id (.sigs (ph b).sigs (ph b).eph)])).1 =
        bs.flatMap fun b => [(.call id b .leader, .startRound id b false),
          (.roundDone id (.sigs (ph b).sigs (ph b).eph), .ret id b none b.timestamp (some .notEnoughCosigners))] := by
      intro bs
      induction bs with
      | nil => intro v _ _; rfl
      | cons b bs ih =>
        intro v hc hasc
        rw [List.map_cons, List.isChain_cons_cons] at hasc
        obtain ⟨i', hsave, hi'⟩ : ∃ i', v.init.save (SSC.new b.height b.round b.step) = (none, i') ∧ i'.hrs = b.hrs :=
          ⟨_, SignState.save_ok _ _ hasc.1, rfl⟩
        simp only [List.flatMap_cons, List.cons_append, List.nil_append, vexec]
        have h1 : v.step C ⟨t, pub⟩ (.call id b .leader) =
            (.startRound id b false, { v with init := i' }.setPhase id b .round) := by
          simp only [VState.step, hc, hsave]
        rw [h1]
        simp only
        have h2 : ∀ u : VState, u.calls id = some (b, .round) →
            u.step C ⟨t, pub⟩ (.roundDone id (.sigs (ph b).sigs (ph b).eph)) =
              (.ret id b none b.timestamp (some .notEnoughCosigners), u.finish id) := by
          intro u hu
          simp only [VState.step, hu, hasm b]
        rw [h2 _ (by simp [VState.setPhase])]
        simp only
        refine congrArg _ (congrArg _ (ih _ ?_ ?_))
        · simp [VState.finish]
        · show List.IsChain HRS.lt (i'.hrs :: bs.map Block.hrs)
          rw [hi']; exact hasc.2
    exact key bs v hidle hasc

/-- Two blocks in a row in a cluster of three with threshold 2. -/
example : List.IsChain HRS.lt ((VState.start .empty).init.hrs :: [blk1, blk3].map Block.hrs) ∧
    (VState.start .empty).calls 7 = none := ⟨by decide +kernel, rfl⟩

end Horcrux
