import Verif.Model.Crypto
import Verif.Model.Time
import Verif.Model.SignState
import Verif.Model.Wire
/-
`signer/local_cosigner.go`: the local cosigner as a state machine. Every method that takes `lastSignStateMutex` is
one atomic step (the verification part of `setEphemeralSecretPart`, before the lock, only reads immutable data).
-/
namespace Horcrux

/-- `local_cosigner.go:74-77` `PeerMetadata`. Only lengths and contents of these slices are observed. -/
structure PeerMeta where
  share : Bytes
  ephemeralSecretPublicKey : Bytes
  deriving DecidableEq, Repr

/-- `local_cosigner.go:79-84` `HrsMetadata`. -/
structure Meta where
  secret : Bytes
  dealtShares : List Bytes
  peers : List PeerMeta
  deriving DecidableEq, Repr

/-- The immutable part of `LocalCosigner` (`local_cosigner.go:90-109`) set by `NewLocalCosigner` (115-141).
`peers` is the map from peer ID to RSA public key; `cmd/cosigner.go:176-180` also enters the cosigner itself. -/
structure CosignerCfg where
  id : Int
  shareKey : Bytes
  pubKeyBytes : Bytes
  rsaKey : Bytes
  total : Nat
  threshold : Nat
  peers : Int → Option Bytes

/-- The mutable part of `LocalCosigner`. `HrsMetadata` values are copied between map entries but share their
`Peers` slice, so map entries hold references into `heap`; records are never freed from `heap` (only map entries
are deleted). -/
structure CState where
  lss : SignState
  hrsMeta : HRST → Option Nat
  heap : List Meta

/-- A process that has just started (`local_cosigner.go:120`): no nonce records. -/
def CState.start (lss : SignState) : CState := ⟨lss, fun _ => none, []⟩

/-- `CosignerEphemeralSecretPart` (`Cosigner.go:52-58`). -/
structure SecretPart where
  sourceID : Int
  destinationID : Int
  ephemeralPublic : Slice
  encrypted : Slice
  sourceSig : Slice
  deriving DecidableEq, Repr

/-- `CosignerSetEphemeralSecretPartRequest` (`Cosigner.go:97-106`). -/
structure SetPartReq where
  sourceID : Int
  ephemeralPublic : Slice
  encrypted : Slice
  sourceSig : Slice
  height : Int
  round : Int
  step : Int
  timestamp : GoTime
  deriving DecidableEq, Repr

/-- `CosignerGetEphemeralSecretPartRequest` (`local_cosigner.go:55-61`). -/
structure GetPartReq where
  id : Int
  height : Int
  round : Int
  step : Int
  timestamp : GoTime
  deriving DecidableEq, Repr

/-- Randomness drawn by one operation: the nonce secret (`rand.Read`, `none` if it fails), the randomness of the
dealing, of the encryption and of the signature. -/
structure Rand where
  secret : Option Bytes
  deal : Bytes
  enc : Bytes
  sig : Bytes
  deriving DecidableEq, Repr

/-- The key of a request (`local_cosigner.go:323-328, 432-437`). -/
def SetPartReq.key (r : SetPartReq) : HRST := ⟨r.height, r.round, r.step, r.timestamp.unixNano⟩
def GetPartReq.key (r : GetPartReq) : HRST := ⟨r.height, r.round, r.step, r.timestamp.unixNano⟩

/-- `hrsMeta[k] = ref`. -/
def CState.setMeta (s : CState) (k : HRST) (ref : Nat) : CState :=
  { s with hrsMeta := fun k' => if k' = k then some ref else s.hrsMeta k' }

/-- `local_cosigner.go:253-285` `dealShares`: the existing record under the request's key, or a new one. Returns
the reference, or `none` if reading randomness failed. -/
def dealSharesFor (C : Crypto) (cfg : CosignerCfg) (s : CState) (k : HRST) (rnd : Rand) :
    Option (Nat × CState) :=
  match s.hrsMeta k with
  | some ref => some (ref, s)
  | none =>
    match rnd.secret with
    | none => none
    | some secret =>
      let m : Meta :=
        { secret := secret
          dealtShares := C.dealShares secret rnd.deal cfg.threshold cfg.total
          peers := List.replicate cfg.total ⟨[], []⟩ }
      some (s.heap.length, { s with heap := s.heap ++ [m] }.setMeta k s.heap.length)

/-- `local_cosigner.go:330-346` and `439-454`: the record under key `k`; if there is none, the record dealt under key
`kd` is also entered under `k`. -/
def metaFor (C : Crypto) (cfg : CosignerCfg) (s : CState) (k kd : HRST) (rnd : Rand) : Option (Nat × CState) :=
  match s.hrsMeta k with
  | some ref => some (ref, s)
  | none =>
    match dealSharesFor C cfg s kd rnd with
    | none => none
    | some (ref, s') => some (ref, s'.setMeta k ref)

/-- Go slice index with bounds check: `none` is an index-out-of-range panic. -/
def goIndex {α : Type} (l : List α) (i : Int) : Option α :=
  if i < 0 then none else l[i.toNat]?

/-- Write to a slot of the shared `Peers` slice of record `ref`; `none` is an index-out-of-range panic. -/
def CState.setSlot (s : CState) (ref : Nat) (i : Int) (p : PeerMeta) : Option CState :=
  match s.heap[ref]? with
  | none => none
  | some m =>
    match goIndex m.peers i with
    | none => none
    | some _ => some { s with heap := s.heap.set ref { m with peers := m.peers.set i.toNat p } }

/-- `local_cosigner.go:315-393` `getEphemeralSecretPart`. -/
def getPart (C : Crypto) (cfg : CosignerCfg) (s : CState) (req : GetPartReq) (rnd : Rand) :
    Out SecretPart × CState :=
  let k := req.key
  -- lines 330-346
  match metaFor C cfg s k k rnd with
  | none => (.err .external, s)
  | some (ref, s1) =>
    match s1.heap[ref]? with
    | none => (.panic, s1)   -- unreachable: references are always valid (`CState.Ok`)
    | some m =>
      -- line 348
      let ourPub := C.scalarMultiplyBase m.secret
      -- lines 351-352 (the right-hand side is indexed too)
      match goIndex m.dealtShares (cfg.id - 1) with
      | none => (.panic, s1)
      | some ourShare =>
        match s1.setSlot ref (cfg.id - 1) ⟨ourShare, ourPub⟩ with
        | none => (.panic, s1)
        | some s2 =>
          -- lines 355-358
          match cfg.peers req.id with
          | none => (.err .unknownPeerID, s2)
          | some peerPub =>
            -- line 360
            match goIndex m.dealtShares (req.id - 1) with
            | none => (.panic, s2)
            | some sharePart =>
              -- lines 363-366
              match C.rsaEncrypt peerPub rnd.enc sharePart with
              | none => (.err .encryptFailed, s2)
              | some enc =>
                -- lines 368-388
                match C.rsaSign cfg.rsaKey rnd.sig ⟨cfg.id, some ourPub, some enc⟩ with
                | none => (.err .rsaSignFailed, s2)
                | some sig =>
                  (.ok { sourceID := cfg.id, destinationID := req.id, ephemeralPublic := some ourPub,
                         encrypted := some enc, sourceSig := some sig }, s2)

/-- `local_cosigner.go:396-466` `setEphemeralSecretPart`. -/
def setPart (C : Crypto) (cfg : CosignerCfg) (s : CState) (req : SetPartReq) (rnd : Rand) :
    Out Unit × CState :=
  -- lines 400-402
  match req.sourceSig with
  | none => (.err .sourceSigRequired, s)
  | some sig =>
    -- lines 415-419
    match cfg.peers req.sourceID with
    | none => (.err .unknownCosigner, s)
    | some peerPub =>
      -- lines 421-425
      if C.rsaVerify peerPub ⟨req.sourceID, req.ephemeralPublic, req.encrypted⟩ sig = false then
        (.err .badSourceSig, s)
      else
        let k := req.key
        -- lines 439-454: note that the record is dealt under the zero time, then entered under `k`
        match metaFor C cfg s k ⟨req.height, req.round, req.step, GoTime.zero.unixNano⟩ rnd with
        | none => (.err .external, s)
        | some (ref, s1) =>
          -- lines 457-460
          match C.rsaDecrypt cfg.rsaKey req.encrypted.bytes with
          | none => (.err .decryptFailed, s1)
          | some share =>
            -- lines 463-464
            match s1.setSlot ref (req.sourceID - 1) ⟨share, req.ephemeralPublic.bytes⟩ with
            | none => (.panic, s1)
            | some s2 => (.ok (), s2)

/-- The slots used for signing: those with a non-empty share (`local_cosigner.go:198-204`). -/
def Meta.used (m : Meta) : List PeerMeta := m.peers.filter (fun p => p.share ≠ [])

/-- Ghost information about a released share signature: `none` if answered from the record, otherwise the nonce
record it used and the sum of its shares. -/
abbrev NonceUse := Option (Nat × Bytes)

/-- `CosignerSignResponse` (`Cosigner.go:46-50`), plus the ghost field `nonce`. -/
structure SignRes where
  ephemeralPublic : Slice
  signature : Slice
  nonce : NonceUse
  deriving DecidableEq, Repr

/-- `local_cosigner.go:240-246`: delete all records with a key less than `k`. -/
def CState.prune (s : CState) (k : HRST) : CState :=
  { s with hrsMeta := fun k' => if k'.less k then none else s.hrsMeta k' }

/-- `local_cosigner.go:189-250`: the fresh-signature part of `sign`. -/
def signFresh (C : Crypto) (cfg : CosignerCfg) (s : CState) (bs : Bytes) (k : HRST) :
    Out SignRes × CState :=
  match s.hrsMeta k with
  | none => (.err .noMetadata, s)
  | some ref =>
    match s.heap[ref]? with
    | none => (.panic, s)   -- unreachable: references are always valid (`CState.Ok`)
    | some m =>
      let ephShare := C.addScalars (m.used.map (·.share))
      let ephPub := C.addElements (m.used.map (·.ephemeralSecretPublicKey))
      if ephShare.length ≠ 32 then (.err .ephemeralOutOfBounds, s)
      else if C.scMinimal ephShare = false then (.err .ephemeralOutOfBounds, s)
      else
        let sig := C.signWithShare bs cfg.shareKey ephShare cfg.pubKeyBytes ephPub
        -- line 225: set before (and regardless of) the save
        let lss1 := { s.lss with ephemeralPublic := some ephPub }
        match lss1.save ⟨k.height, k.round, k.step, some sig, some bs⟩ with
        | (e, lss2) =>
          let s1 := { s with lss := lss2 }
          match e with
          | none => (.ok ⟨some ephPub, some sig, some (ref, ephShare)⟩, s1.prune k)
          | some (.sameHRS _) => (.ok ⟨some ephPub, some sig, some (ref, ephShare)⟩, s1.prune k)
          | some e => (.err e, s1)

/-- `local_cosigner.go:158-251` `sign`. -/
def sign (C : Crypto) (cfg : CosignerCfg) (s : CState) (bs : Bytes) : Out SignRes × CState :=
  match unpackHRST bs with
  | .panic => (.panic, s)
  | .err e => (.err e, s)
  | .ok k =>
    match s.lss.checkHRS k with
    | .panic => (.panic, s)
    | .err e => (.err e, s)
    | .ok true =>
      if bs = s.lss.signBytes.bytes then
        (.ok ⟨s.lss.ephemeralPublic, s.lss.signature, none⟩, s)
      else
        match onlyDifferByTimestamp s.lss.step s.lss.signBytes.bytes bs with
        | some e => (.err e, s)
        | none => signFresh C cfg s bs k
    | .ok false => signFresh C cfg s bs k

/-- The atomic steps of a running cosigner: the two secret-part calls, signing, and the raft watermark event
(`local_cosigner.go:111-113` `SaveLastSignedState`, called from `raft_events.go:26`). -/
inductive CosOp where
  | getPart (req : GetPartReq) (rnd : Rand)
  | setPart (req : SetPartReq) (rnd : Rand)
  | sign (bs : Bytes)
  | saveLSS (r : SSC)
  deriving DecidableEq

/-- What a step answers. -/
inductive CosResp where
  | part (p : SecretPart)
  | unit
  | signed (r : SignRes)
  deriving DecidableEq

/-- Map over the value of an outcome. -/
def Out.map {α β : Type} (f : α → β) : Out α → Out β
  | .ok a => .ok (f a)
  | .err e => .err e
  | .panic => .panic

/-- One atomic step. -/
def CState.step (C : Crypto) (cfg : CosignerCfg) (s : CState) : CosOp → Out CosResp × CState
  | .getPart req rnd => let r := Horcrux.getPart C cfg s req rnd; (r.1.map .part, r.2)
  | .setPart req rnd => let r := Horcrux.setPart C cfg s req rnd; (r.1.map (fun _ => .unit), r.2)
  | .sign bs => let r := Horcrux.sign C cfg s bs; (r.1.map .signed, r.2)
  | .saveLSS ssc =>
    match s.lss.save ssc with
    | (none, l) => (.ok .unit, { s with lss := l })
    | (some e, l) => (.err e, { s with lss := l })

/-- `Run C cfg s tr s'`: from state `s` the steps of `tr` (each with the answer it gave, none a panic) lead to `s'`.
A panic ends the process, so nothing follows it. -/
inductive Run (C : Crypto) (cfg : CosignerCfg) : CState → List (CosOp × Out CosResp) → CState → Prop where
  | nil (s : CState) : Run C cfg s [] s
  | cons {s s1 s2 : CState} {op : CosOp} {out : Out CosResp} {tr : List (CosOp × Out CosResp)}
      (hstep : s.step C cfg op = (out, s1)) (hnp : out ≠ .panic) (htail : Run C cfg s1 tr s2) :
      Run C cfg s ((op, out) :: tr) s2

/-- `local_cosigner.go:287-311` `GetEphemeralSecretParts`; `order` is the iteration order of the `peers` map (its
keys), `rnd` the stream of randomness used by the successive calls. -/
def getPartsLoop (C : Crypto) (cfg : CosignerCfg) (hrst : HRST) :
    List Int → (Nat → Rand) → CState → List SecretPart → Out (List SecretPart) × CState
  | [], _, s, acc => (.ok acc, s)
  | p :: ps, rnd, s, acc =>
    if p = cfg.id then getPartsLoop C cfg hrst ps (fun n => rnd (n + 1)) s acc
    else
      match getPart C cfg s ⟨p, hrst.height, hrst.round, hrst.step, GoTime.ofUnixNano hrst.timestamp⟩ (rnd 0) with
      | (.ok part, s') => getPartsLoop C cfg hrst ps (fun n => rnd (n + 1)) s' (acc ++ [part])
      | (.err e, s') => (.err e, s')
      | (.panic, s') => (.panic, s')

/-- See `getPartsLoop`. Line 290: `make(…, 0, len(peers)-1)` panics when the map is empty. -/
def getParts (C : Crypto) (cfg : CosignerCfg) (hrst : HRST) (order : List Int) (rnd : Nat → Rand) (s : CState) :
    Out (List SecretPart) × CState :=
  if order = [] then (.panic, s) else getPartsLoop C cfg hrst order rnd s []

/-- The request `SetEphemeralSecretPartsAndSign` builds for one part (`local_cosigner.go:471-480`). -/
def SecretPart.toSetReq (p : SecretPart) (hrst : HRST) : SetPartReq :=
  ⟨p.sourceID, p.ephemeralPublic, p.encrypted, p.sourceSig, hrst.height, hrst.round, hrst.step,
    GoTime.ofUnixNano hrst.timestamp⟩

/-- `local_cosigner.go:468-488` `SetEphemeralSecretPartsAndSign`, as one uninterrupted run of its atomic steps. -/
def setPartsAndSign (C : Crypto) (cfg : CosignerCfg) (hrst : HRST) (bs : Bytes) :
    List SecretPart → (Nat → Rand) → CState → Out SignRes × CState
  | [], _, s => sign C cfg s bs
  | p :: ps, rnd, s =>
    match setPart C cfg s (p.toSetReq hrst) (rnd 0) with
    | (.ok (), s') => setPartsAndSign C cfg hrst bs ps (fun n => rnd (n + 1)) s'
    | (.err e, s') => (.err e, s')
    | (.panic, s') => (.panic, s')

end Horcrux
