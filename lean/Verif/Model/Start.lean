import Verif.Model.Config
import Verif.Model.Cosigner
/-
`cmd/horcrux/cmd/cosigner.go:106-206`: from the configuration and the key file to the local cosigner.
-/
namespace Horcrux

/-- `signer/cosigner_key.go:16-23` `CosignerKey`: `cosignerKeys` are the RSA public keys of all cosigners, `rsaPub` the
public part of the own RSA key. -/
structure CosignerKey where
  pubKey : Bytes
  shareKey : Bytes
  rsaKey : Bytes
  rsaPub : Bytes
  id : Int
  cosignerKeys : List Bytes
  deriving DecidableEq, Repr

/-- `m[k] = v` on a map. -/
def mapSet {α : Type} (m : Int → Option α) (k : Int) (v : α) : Int → Option α := fun i => if i = k then some v else m i

/-- `cosigner.go:182-195` with `local_cosigner.go:127-129`: enter the configured peers into the map; `none` is
`log.Fatalf("Unexpected cosigner ID")`. (`config.go:551-556` `CosignerPeers` copies the list.) -/
def enterPeers (keys : List Bytes) : List CosignerPeer → (Int → Option Bytes) → Option (Int → Option Bytes)
  | [], m => some m
  | p :: ps, m =>
    if p.shareID < 1 ∨ p.shareID > keys.length then none
    else
      match keys[(p.shareID - 1).toNat]? with
      | none => none   -- unreachable after the check
      | some k => enterPeers keys ps (mapSet m p.shareID k)

/-- `cosigner.go:174-208`: the local cosigner's immutable data for an accepted configuration; `none` if the start is
refused. `uint8(…)` truncates total and threshold. -/
def startCfg (lib : Lib) (cfg : Config) (key : CosignerKey) : Option CosignerCfg :=
  match validateCosignerConfig lib cfg, cfg.cosigner with
  | .ok (), some c =>
    match enterPeers key.cosignerKeys c.peers (mapSet (fun _ => none) key.id key.rsaPub) with
    | none => none
    | some peers =>
      some { id := key.id, shareKey := key.shareKey, pubKeyBytes := key.pubKey, rsaKey := key.rsaKey,
             total := u8 (c.peers.length + 1), threshold := u8 c.threshold, peers := peers }
  | _, _ => none

end Horcrux
