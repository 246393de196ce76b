import Verif.Model.Raft
/-
The raft stores of all nodes over one committed log, with snapshots that are written while entries are applied, that fail,
that replace the beginning of a node's log, and from which nodes start again or catch up: `signer/raft_store.go:34-36,137-194`
(`Open`), 291-390 (`Apply`, `Snapshot`, `Restore`, `Persist`).

Of the raft library: which entries are committed is given (`commit`); a node applies committed entries in order; a snapshot
counts only if `Persist` returns no error; the library then keeps the newest `retainSnapshotCount` snapshots and cuts the
log somewhere below the newest; a node starts from its newest snapshot; a node that lags behind may be given the newest
snapshot of another. Simplified: snapshots on disk stay readable.
-/
namespace Horcrux

/-- `raft_store.go:35`. -/
def retainSnapshotCount : Nat := 2

/-- Which methods of the sink work. -/
structure Sink where
  write : Bool
  close : Bool
  deriving DecidableEq

/-- `raft_store.go:364-390` `Persist`: what is in the snapshot afterwards; `none` is an error, and the sink is cancelled. -/
def persist (sink : Sink) (store : KV) : Option Bytes :=
  if ¬ sink.write then none
  else if ¬ sink.close then none
  else some (snapshotKV store)

/-- A node: what it has in memory, how many entries it has applied, the map that is being written to a snapshot and the
number of entries it is made of, the finished snapshots (newest first), and the first entry that is left of its log. -/
structure Replica where
  fsm : Fsm
  applied : Nat
  pending : Option (Nat × KV)
  snaps : List (Nat × Bytes)
  first : Nat
  /-- the process has ended because it could not restore its snapshot -/
  down : Bool

structure Replicas where
  log : List Bytes
  node : Nat → Replica

inductive RepEv where
  /-- an entry is committed -/
  | commit (e : Bytes)
  /-- node `p` applies its next entry -/
  | apply (p : Nat)
  /-- a snapshot of node `p` begins -/
  | snapshot (p : Nat)
  /-- it is written; if that works the log is cut before entry `cut` -/
  | persist (p : Nat) (sink : Sink) (cut : Nat)
  /-- node `p` is given the newest snapshot of node `q` -/
  | install (p q : Nat)
  /-- node `p` starts again, with the sign states of its files -/
  | restart (p : Nat) (lv lc : SignState)

/-- A finished snapshot joins the others; the newest `retainSnapshotCount` are kept. -/
def insertSnap (x : Nat × Bytes) : List (Nat × Bytes) → List (Nat × Bytes)
  | [] => [x]
  | y :: ys => if y.1 ≤ x.1 then x :: y :: ys else y :: insertSnap x ys

def addSnap (x : Nat × Bytes) (l : List (Nat × Bytes)) : List (Nat × Bytes) := (insertSnap x l).take retainSnapshotCount

def Replicas.set (c : Replicas) (p : Nat) (r : Replica) : Replicas := { c with node := fun j => if j = p then r else c.node j }

/-- A node that has just started: `raft_store.go:137-194`, with the map of line 74. -/
def Replica.boot (r : Replica) (lv lc : SignState) : Replica :=
  match r.snaps.head? with
  | none => { r with fsm := ⟨[], lv, lc⟩, applied := 0, pending := none }
  | some (i, bs) =>
    match restoreKV bs with
    | none => { r with down := true }
    | some m => { r with fsm := ⟨m, lv, lc⟩, applied := i, pending := none }

/-- One event; `none` if it cannot happen. -/
def Replicas.step (c : Replicas) : RepEv → Option Replicas
  | .commit e => some { c with log := c.log ++ [e] }
  | .apply p =>
    let r := c.node p
    if r.down ∨ r.applied < r.first then none
    else match c.log[r.applied]? with
      | none => none
      | some e => some (c.set p { r with fsm := r.fsm.apply e, applied := r.applied + 1 })
  | .snapshot p =>
    let r := c.node p
    if r.down ∨ r.pending.isSome then none
    else some (c.set p { r with pending := some (r.applied, r.fsm.m) })
  | .persist p sink cut =>
    let r := c.node p
    match r.pending with
    | none => none
    | some (i, m) =>
      if r.down ∨ i < cut then none
      else match Horcrux.persist sink m with
        | none => some (c.set p { r with pending := none })
        | some bs =>
          some (c.set p { r with pending := none, snaps := addSnap (i, bs) r.snaps, first := max r.first cut })
  | .install p q =>
    let r := c.node p
    match (c.node q).snaps.head? with
    | none => none
    | some (i, bs) =>
      if r.down ∨ i ≤ r.applied then none
      else match restoreKV bs with
        | none => some c
        | some m => some (c.set p { r with
            fsm := { r.fsm with m := m }, applied := i,
            snaps := addSnap (i, bs) r.snaps, first := max r.first i })
  | .restart p lv lc =>
    let r := c.node p
    if r.down then none else some (c.set p (r.boot lv lc))

def Replicas.run : Replicas → List RepEv → Option Replicas
  | c, [] => some c
  | c, e :: es => (c.step e).bind fun c' => c'.run es

/-- Nodes that start for the first time. -/
def Replicas.start (lv lc : Nat → SignState) : Replicas :=
  ⟨[], fun p => ⟨⟨[], lv p, lc p⟩, 0, none, [], 0, false⟩⟩

end Horcrux
