import Verif.Props.Crc
import Verif.Props.Daemon
import Verif.Props.DaemonCapture

/-!
# More concrete cases that meet the hypotheses of theorems
-/

namespace Mctp

open Spec

/-- C36: three flipped bits; C37: a flipped bit, two flipped bits in different bytes, and a burst of 32 bits over byte boundaries. -/
example : (diffBits [1, 2, 3] [0, 0, 2]).count true % 2 = 1 ∧ (diffBits [1, 2, 3] [1, 0, 3]).count true = 1 ∧
    (diffBits [1, 2, 3, 4, 5] [1, 0, 3, 4, 4]).count true = 2 ∧
    Burst 32 (diffBits [0x00, 0xff, 0x00, 0xaa, 0x01] [0x80, 0x0f, 0x12, 0xab, 0x41]) :=
  ⟨by decide, by decide, by decide, 7, (diffBits [0x00, 0xff, 0x00, 0xaa, 0x01] [0x80, 0x0f, 0x12, 0xab, 0x41]).drop 7 |>.take 32, 1, by decide, by decide,
    by decide⟩

/-- Two clients connect and register, and the first leaves: its socket is reported, read from, and closed. -/
def DaemonDemo.leaves : List SockEv :=
  [.polled [] [], .accepted 10, .polled [10] [], .accepted 11, .polled [10, 11] [10, 11], .readByte 10 1 5, .readByte 11 1 6, .polled [10, 11] [10],
    .peeked 10 0, .received 10 0 []]

/-- C75 and C76: the hypotheses are met by this record. -/
example : ∃ d, (DaemonDemo.start { accepts := [10, 11], reads := [(1, 5), (1, 6)], peeks := [0], recvs := [[]] }).run
    DaemonDemo.net Demo.ops DaemonDemo.proc [DaemonDemo.connect, DaemonDemo.connect, DaemonDemo.clients [0, 1], DaemonDemo.clients [0]] = .ok d ∧
    d.log = DaemonDemo.leaves ++ .closed 10 :: [] ∧ Each FreshAccept [] d.log ∧ NoFailedSend DaemonDemo.leaves ∧
    (∃ e ∈ since 10 DaemonDemo.leaves, badOn 10 e) ∧ lastReported DaemonDemo.leaves = [10] ∧ (∀ w, (DaemonDemo.net.junk w).1 = false) := by
  obtain ⟨d, h1, h2⟩ := DaemonDemo.logOf_ok (w := { accepts := [10, 11], reads := [(1, 5), (1, 6)], peeks := [0], recvs := [[]] })
    (rs := [DaemonDemo.connect, DaemonDemo.connect, DaemonDemo.clients [0, 1], DaemonDemo.clients [0]])
    (l := DaemonDemo.leaves ++ .closed 10 :: []) (by decide +kernel)
  have hf : Each FreshAccept [] d.log := by
    rw [h2]
    simp only [DaemonDemo.leaves, List.cons_append, List.nil_append, Each, FreshAccept, and_true]
    refine ⟨?_, ?_, ?_, ?_, ?_, ?_, ?_, ?_, ?_, ?_, ?_⟩ <;> intro fd h0 _ <;> cases h0 <;> rfl
  exact ⟨d, h1, h2, hf, by simp [NoFailedSend, failedSend, DaemonDemo.leaves], C75_reason h1 hf h2, rfl, fun _ => rfl⟩

/-- C77: the hypotheses are met before that client leaves: both clients are active, and the first is registered and gone. -/
example : ∃ d, (DaemonDemo.start { accepts := [10, 11], reads := [(1, 5), (1, 6)], peeks := [0], recvs := [[]] }).run
    DaemonDemo.net Demo.ops DaemonDemo.proc [DaemonDemo.connect, DaemonDemo.connect, DaemonDemo.clients [0, 1]] = .ok d ∧
    d.clients = [⟨true, 10, 5⟩, ⟨true, 11, 6⟩] ∧ Gone DaemonDemo.net d 10 :=
  ⟨_, rfl, rfl, .inr ⟨rfl, by decide⟩⟩

/-- C78: a binding whose `process` function fails ends the daemon. -/
example : ∃ d d', (DaemonDemo.start {}).poll { binding := some (), client := fun _ => false, sock := false } = .ok d ∧
    d.react DaemonDemo.net Demo.ops (fun _ c => .ok (c, [], -1)) { binding := some (), client := fun _ => false, sock := false } = .ok (d', true) :=
  ⟨_, _, rfl, rfl⟩

end Mctp
