import Verif.Model.Gather
/-
`signer/threshold_validator.go:172-261` and `363-447`: the goroutines of a signing round, one access to shared memory, lock
or wait group operation at a time. `Gather` and `SignPhase` treat what happens under a lock as one step; here nothing is
taken together. The memory that goroutines of one round share is the map of parts (line 373; only its keys matter here), the
entries of the table of share signatures (line 405) and the ephemeral public key (line 410), with the mutexes of lines 374
and 408 and the wait groups of lines 365 and 399.
-/
namespace Horcrux

/-! ### First half -/

/-- Where the goroutine of a peer is (`waitForPeerEphemeralShares`). -/
inductive PeerAt where
  /-- line 179 -/
  | calling
  /-- line 185 -/
  | locks
  /-- line 186: it holds the lock and reads the number of entries -/
  | tests
  /-- line 187: it holds the lock and enters the parts -/
  | writes
  /-- line 190: it unlocks; whether a `Done` is deferred -/
  | unlocks (joined : Bool)
  /-- line 188: the deferred `Done` -/
  | finishes
  | ended
  deriving DecidableEq, Repr

/-- Where the main goroutine is in the first half. -/
inductive LeadAt where
  /-- line 381 -/
  | making
  /-- lines 249-261, 389 -/
  | waiting
  /-- line 384 -/
  | failed
  /-- line 390 -/
  | timedOut
  /-- line 393 -/
  | locks
  /-- line 394 -/
  | writes
  /-- line 395 -/
  | unlocks
  /-- line 397 -/
  | past
  deriving DecidableEq, Repr

/-- The memory of the first half: the keys of the map, the wait group, the mutex, the goroutines of the peers, the main
goroutine, and whether the goroutine of lines 251-254 still waits. -/
structure GetMem where
  map : List Nat
  counter : Int
  locked : Bool
  peer : Nat → PeerAt
  lead : LeadAt
  waiter : Bool

/-- Lines 363-379. -/
def GetMem.start (threshold : Int) (peers : List Nat) : Out GetMem :=
  if threshold - 1 < 0 then .panic
  else .ok ⟨[], threshold - 1, false, fun p => if p ∈ peers then .calling else .ended, .making, false⟩

/-- What can happen. -/
inductive GetEv where
  /-- line 179: the call to a peer returns -/
  | call (p : Nat) (ok : Bool)
  /-- the goroutine of a peer takes its next step -/
  | peer (p : Nat)
  /-- line 381: the leader's own cosigner returns -/
  | own (ok : Bool)
  /-- lines 252-253 -/
  | woken
  /-- line 256 -/
  | select
  /-- line 258 -/
  | timeout
  /-- the main goroutine takes its next step -/
  | lead
  deriving DecidableEq, Repr

/-- The goroutine of peer `p` goes on to `a`. -/
def GetMem.at (s : GetMem) (p : Nat) (a : PeerAt) : GetMem := { s with peer := fun q => if q = p then a else s.peer q }

/-- The next step of the goroutine of peer `p`; waiting for the lock leaves the state unchanged. -/
def GetMem.peerStep (threshold : Int) (s : GetMem) (p : Nat) : Out GetMem :=
  match s.peer p with
  | .locks => if s.locked then .ok s else .ok { s.at p .tests with locked := true }
  | .tests => if (s.map.length : Int) < threshold - 1 then .ok (s.at p .writes) else .ok (s.at p (.unlocks false))
  | .writes => .ok { s.at p (.unlocks true) with map := s.map ++ [p] }
  | .unlocks b => .ok { s.at p (if b then .finishes else .ended) with locked := false }
  | .finishes => if s.counter - 1 < 0 then .panic else .ok { s.at p .ended with counter := s.counter - 1 }
  | _ => .ok s

/-- One step. Events that are not possible leave the state unchanged. -/
def GetMem.step (threshold : Int) (me : Nat) (s : GetMem) : GetEv → Out GetMem
  | .call p ok => if s.peer p = .calling then .ok (s.at p (if ok then .locks else .ended)) else .ok s
  | .peer p => s.peerStep threshold p
  | .own ok =>
    if s.lead = .making then
      if ok then .ok { s with lead := .waiting, waiter := true } else .ok { s with lead := .failed }
    else .ok s
  | .woken => if s.waiter = true ∧ s.counter = 0 then .ok { s with waiter := false } else .ok s
  | .select => if s.lead = .waiting ∧ s.waiter = false then .ok { s with lead := .locks } else .ok s
  | .timeout => if s.lead = .waiting then .ok { s with lead := .timedOut } else .ok s
  | .lead =>
    match s.lead with
    | .locks => if s.locked then .ok s else .ok { s with lead := .writes, locked := true }
    | .writes => .ok { s with lead := .unlocks, map := s.map ++ [me] }
    | .unlocks => .ok { s with lead := .past, locked := false }
    | _ => .ok s

/-! ### Second half -/

/-- Where the goroutine of a participant is (`waitForPeerSetEphemeralSharesAndSign`). -/
inductive SignAt where
  /-- not started yet -/
  | absent
  /-- lines 205-220: it reads the map -/
  | reads
  /-- line 225 -/
  | calling
  /-- line 238 -/
  | locks (r : SignRes)
  /-- lines 242-243: it holds the lock and enters the share signature -/
  | writesTable (r : SignRes)
  /-- line 245: it holds the lock and enters the ephemeral public key -/
  | writesEph (r : SignRes)
  /-- line 239: the deferred unlock, which runs before the `Done` deferred earlier -/
  | unlocks
  /-- line 204: the deferred `Done` -/
  | finishes
  | ended
  deriving DecidableEq, Repr

/-- Where the main goroutine is in the second half. -/
inductive Lead2At where
  /-- lines 412-416: it goes through the map and starts goroutines; these participants are left -/
  | spawns (rest : List Nat)
  /-- lines 249-261, 420 -/
  | waiting
  /-- line 421 -/
  | timedOut
  /-- lines 427-447: it reads the table and the ephemeral public key -/
  | reads
  | past
  deriving DecidableEq, Repr

/-- The memory of the second half. -/
structure SignMem where
  sigs : List Bytes
  eph : Bytes
  counter : Int
  locked : Bool
  signer : Nat → SignAt
  lead : Lead2At
  waiter : Bool

/-- Lines 399-412; `ord` is the order in which the main goroutine goes through the map. -/
def SignMem.start (threshold : Int) (total : Nat) (ord : List Nat) : Out SignMem :=
  if threshold < 0 then .panic
  else .ok ⟨List.replicate total [], [], threshold, false, fun _ => .absent, .spawns ord, false⟩

/-- What can happen. -/
inductive SignMemEv where
  /-- lines 225-234: the call to a participant returns -/
  | call (p : Nat) (r : Option SignRes)
  /-- the goroutine of a participant takes its next step -/
  | signer (p : Nat)
  /-- lines 252-253 -/
  | woken
  /-- line 256 -/
  | select
  /-- line 258 -/
  | timeout
  /-- the main goroutine takes its next step -/
  | lead
  deriving DecidableEq, Repr

/-- The goroutine of participant `p` goes on to `a`. -/
def SignMem.at (s : SignMem) (p : Nat) (a : SignAt) : SignMem :=
  { s with signer := fun q => if q = p then a else s.signer q }

/-- The next step of the goroutine of participant `p`. -/
def SignMem.signerStep (me : Nat) (s : SignMem) (p : Nat) : Out SignMem :=
  match s.signer p with
  | .reads => .ok (s.at p .calling)
  | .locks r => if s.locked then .ok s else .ok { s.at p (.writesTable r) with locked := true }
  | .writesTable r =>
    match goIndex s.sigs ((p : Int) - 1) with
    | none => .panic
    | some _ => .ok { s.at p (if p = me then .writesEph r else .unlocks) with sigs := s.sigs.set (p - 1) r.signature.bytes }
  | .writesEph r => .ok { s.at p .unlocks with eph := r.ephemeralPublic.bytes }
  | .unlocks => .ok { s.at p .finishes with locked := false }
  | .finishes => if s.counter - 1 < 0 then .panic else .ok { s.at p .ended with counter := s.counter - 1 }
  | _ => .ok s

/-- One step. Events that are not possible leave the state unchanged. -/
def SignMem.step (me : Nat) (s : SignMem) : SignMemEv → Out SignMem
  | .call p r =>
    if s.signer p = .calling then
      match r with
      | some r => .ok (s.at p (.locks r))
      | none => .ok (s.at p .finishes)
    else .ok s
  | .signer p => s.signerStep me p
  | .woken => if s.waiter = true ∧ s.counter = 0 then .ok { s with waiter := false } else .ok s
  | .select => if s.lead = .waiting ∧ s.waiter = false then .ok { s with lead := .reads } else .ok s
  | .timeout => if s.lead = .waiting then .ok { s with lead := .timedOut } else .ok s
  | .lead =>
    match s.lead with
    | .spawns [] => .ok { s with lead := .waiting, waiter := true }
    | .spawns (p :: rest) => .ok { s.at p .reads with lead := .spawns rest }
    | .reads => .ok { s with lead := .past }
    | _ => .ok s

/-! ### The round -/

/-- Both halves; goroutines of the first half may still run in the second. -/
structure RoundMem where
  first : GetMem
  second : Option SignMem

/-- `threshold_validator.go:363-379`. -/
def RoundMem.start (threshold : Int) (peers : List Nat) : Out RoundMem :=
  match GetMem.start threshold peers with
  | .ok m => .ok ⟨m, none⟩
  | .err x => .err x
  | .panic => .panic

/-- What can happen. -/
inductive RoundMemEv where
  | first (e : GetEv)
  /-- lines 397-412 -/
  | begin (ord : List Nat)
  | second (e : SignMemEv)
  deriving DecidableEq, Repr

/-- One step. -/
def RoundMem.step (threshold : Int) (total me : Nat) (s : RoundMem) : RoundMemEv → Out RoundMem
  | .first e =>
    match s.first.step threshold me e with
    | .ok m => .ok { s with first := m }
    | .err x => .err x
    | .panic => .panic
  | .begin ord =>
    if s.first.lead = .past ∧ s.second.isNone = true ∧ ord.Perm s.first.map then
      match SignMem.start threshold total ord with
      | .ok m => .ok { s with second := some m }
      | .err x => .err x
      | .panic => .panic
    else .ok s
  | .second e =>
    match s.second with
    | none => .ok s
    | some m =>
      match m.step me e with
      | .ok m' => .ok { s with second := some m' }
      | .err x => .err x
      | .panic => .panic

/-- A schedule of steps. -/
def RoundMem.run (threshold : Int) (total me : Nat) : RoundMem → List RoundMemEv → Out RoundMem
  | s, [] => .ok s
  | s, e :: es =>
    match s.step threshold total me e with
    | .ok s' => RoundMem.run threshold total me s' es
    | .err x => .err x
    | .panic => .panic

/-! ### Accesses -/

/-- The goroutines of a round that access shared memory. -/
inductive RoundThread where
  | lead
  | peer (p : Nat)
  | signer (p : Nat)
  deriving DecidableEq, Repr

/-- The memory they share. -/
inductive RoundLoc where
  | map
  | entry (p : Nat)
  | eph
  deriving DecidableEq, Repr

/-- The next step of the goroutine accesses the location; `write`: it writes. -/
def RoundMem.accesses (s : RoundMem) : RoundThread → RoundLoc → (write : Bool) → Prop
  | .peer p, .map, false => s.first.peer p = .tests
  | .peer p, .map, true => s.first.peer p = .writes
  | .lead, .map, true => s.first.lead = .writes
  | .lead, .map, false => ∃ m rest, s.second = some m ∧ m.lead = .spawns rest
  | .lead, .entry _, false => ∃ m, s.second = some m ∧ m.lead = .reads
  | .lead, .eph, false => ∃ m, s.second = some m ∧ m.lead = .reads
  | .signer p, .map, false => ∃ m, s.second = some m ∧ m.signer p = .reads
  | .signer p, .entry q, true => p = q ∧ ∃ m r, s.second = some m ∧ m.signer p = .writesTable r
  | .signer p, .eph, true => ∃ m r, s.second = some m ∧ m.signer p = .writesEph r
  | _, _, _ => False

end Horcrux
