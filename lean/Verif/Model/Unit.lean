import Verif.Model.Services
/-
The service of the documentation: `docs/horcrux.service`, with which `docs/migrating.md` has every cosigner run. systemd
starts `/usr/bin/horcrux cosigner start` (line 9) and, because of `Restart=on-failure` (line 10), again three seconds
(line 11) after it has ended with a status other than 0.

Simplified: the three seconds are not modelled, and neither is systemd's limit of five starts in ten seconds, which
starts three seconds apart never reach. A process that cannot start (a missing or damaged file, an address in use) ends
with status 1 (`root.go:62-67`, `log.Fatal`) or 2 (panics) and is started again too; here every start succeeds. Killing
with other signals than SIGTERM and SIGINT is left out.
-/
namespace Horcrux

/-- The status with which a process ends: 0 by `os.Exit(0)` of tendermint's `TrapSignal` or the return of `main`
(`cmd/horcrux/main.go:20-22`, `cosigner.go:250-252`), 2 by a panic (`services.go:18` or elsewhere; nothing recovers). -/
def End.status : End → Nat
  | .exited => 0
  | .stopFailed => 2
  | .crashed => 2

/-- `Restart=on-failure` (`docs/horcrux.service:10`). -/
def restartOnFailure (status : Nat) : Bool := status != 0

/-- Events under systemd: the process is started only if it has ended and systemd starts it again. -/
def Supervised (p : Proc) (e : PEv) : Prop :=
  e = .restart → ∃ x, p.ended = some x ∧ restartOnFailure x.status = true

end Horcrux
