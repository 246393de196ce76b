import Verif.Model.Prim
/-
`signer/sign_state.go`: the high watermark. The wire-level check `OnlyDifferByTimestamp` is in
`Verif.Model.Wire`; persistence (`save`, `LoadSignState`) is in `Verif.Model.Disk`.
-/
namespace Horcrux

/-- `sign_state.go:20-22`. -/
def stepPropose : Int := 1
def stepPrevote : Int := 2
def stepPrecommit : Int := 3

/-- `sign_state.go:23`. -/
def blocksToCache : Int := 3

/-- `sign_state.go:65-71` `SignStateConsensus`. -/
structure SSC where
  height : Int
  round : Int
  step : Int
  signature : Slice
  signBytes : Slice
  deriving DecidableEq, Repr

/-- The key under which a record is cached (`sign_state.go:124`). -/
def SSC.hrs (s : SSC) : HRS := ⟨s.height, s.round, s.step⟩

/-- `sign_state.go:73-79` `NewSignStateConsensus`. -/
def SSC.new (height round step : Int) : SSC := ⟨height, round, step, none, none⟩

/-- `sign_state.go:53-63` `SignState`. The cache map is a function to `Option`; `filePath` is left out
(it only matters for `save`, see `Verif.Model.Disk`). -/
structure SignState where
  height : Int
  round : Int
  step : Int
  ephemeralPublic : Slice
  signature : Slice
  signBytes : Slice
  cache : HRS → Option SSC

/-- The current watermark of a sign state. -/
def SignState.hrs (s : SignState) : HRS := ⟨s.height, s.round, s.step⟩

/-- `sign_state.go:94-108` `GetFromCache`: the current watermark and the cached record, if any. -/
def SignState.getFromCache (s : SignState) (k : HRS) : HRS × Option SSC :=
  (⟨s.height, s.round, s.step⟩, s.cache k)

/-- `sign_state.go:209-242` `GetErrorIfLessOrEqual` (`none` is a nil error). -/
def SignState.getErrorIfLessOrEqual (s : SignState) (height round step : Int) : Option Err :=
  if height < s.height then some .heightRegression
  else if height > s.height then none
  else if round < s.round then some .roundRegression
  else if round > s.round then none
  else if step < s.step then some .stepRegression
  else if step = s.step then some (.sameHRS ⟨height, round, step⟩)
  else none

/-- `sign_state.go:110-141` `Save`, without the background write it starts on success
(`sign_state.go:136-138`; see `Verif.Model.Disk`). Returns the error (if any) and the new state.
The eviction bound `ssc.Height-blocksToCache` is `int64` arithmetic. -/
def SignState.save (s : SignState) (ssc : SSC) : Option Err × SignState :=
  match s.getErrorIfLessOrEqual ssc.height ssc.round ssc.step with
  | some e => (some e, s)
  | none =>
    -- line 124: insert
    let inserted : HRS → Option SSC := fun k => if k = ssc.hrs then some ssc else s.cache k
    -- lines 125-129: evict
    let evicted : HRS → Option SSC := fun k =>
      if k.height < i64 (ssc.height - blocksToCache) then none else inserted k
    (none, { s with
      cache := evicted
      height := ssc.height
      round := ssc.round
      step := ssc.step
      signature := ssc.signature
      signBytes := ssc.signBytes })

/-- `sign_state.go:168-195` `CheckHRS`. -/
def SignState.checkHRS (s : SignState) (k : HRST) : Out Bool :=
  if s.height > k.height then .err .checkHeight
  else if s.height = k.height then
    if s.round > k.round then .err .checkRound
    else if s.round = k.round then
      if s.step > k.step then .err .checkStep
      else if s.step = k.step then
        match s.signBytes with
        | some _ =>
          match s.signature with
          | none => .panic
          | some _ => .ok true
        | none => .err .noSignBytes
      else .ok false
    else .ok false
  else .ok false

/-- The empty sign state of `sign_state.go:279-281`. -/
def SignState.empty : SignState := ⟨0, 0, 0, none, none, none, fun _ => none⟩

/-- The sign state built by `LoadSignState` from the decoded file fields (`sign_state.go:246-265`):
the cache holds exactly the loaded block. -/
def SignState.ofLoaded (height round step : Int) (eph sig sb : Slice) : SignState :=
  { height := height, round := round, step := step, ephemeralPublic := eph, signature := sig,
    signBytes := sb,
    cache := fun k => if k = ⟨height, round, step⟩ then some ⟨height, round, step, sig, sb⟩ else none }

/-- A sequence of saves, as performed by any mix of signing, raft events and CLI commands. -/
def SignState.saves (s : SignState) : List SSC → SignState
  | [] => s
  | r :: rs => (s.save r).2.saves rs

end Horcrux
