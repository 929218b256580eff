import Verif.Model.DaemonMain

/-!
# Specification of the life of the daemon
-/

namespace Mctp

/-- Every step of the start-up that the settings ask for, up to the binding, succeeds. -/
def Boot.capturesWork (boot : Boot) (s : Settings) : Prop :=
  (s.capBinding.isSome ∨ s.capSocket.isSome → boot.pcapInit = true) ∧
  (s.capBinding.isSome → boot.openDead false = true ∧ boot.dumpOpen false = true) ∧
  (s.capSocket.isSome → boot.openDead true = true ∧ boot.dumpOpen true = true)

/-- The steps after the binding succeed: the listening socket is inherited or made, and signals can be blocked. -/
def Boot.socketWorks (boot : Boot) : Prop :=
  (boot.listenFds ≤ 0 → boot.socket = true ∧ boot.bind = true ∧ boot.listen = true) ∧ boot.sigmask = true

instance (boot : Boot) (s : Settings) : Decidable (boot.capturesWork s) := by unfold Boot.capturesWork; exact inferInstance
instance (boot : Boot) : Decidable boot.socketWorks := by unfold Boot.socketWorks; exact inferInstance

/-- The process opened this capture file, closed it, in these events. -/
def opened (sock : Bool) (evs : List LifeEv) : Nat := evs.count (.dumpOpened sock)
def shut (sock : Bool) (evs : List LifeEv) : Nat := evs.count (.dumpClosed sock)

/-- The core with the capture handler that `main` sets if asked to. -/
def withCapture {β : Type} (s : Settings) (c : Core β) : Core β := if s.capBinding.isSome then c.setCapture true else c

end Mctp
