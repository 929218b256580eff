import Verif.Model.DaemonCapture
import Verif.Props.DaemonTrace
import Verif.Props.Util

/-!
# The capture of the clients' messages (C103)
-/

namespace Mctp

open Spec

variable {W β π : Type}

/-- A call that succeeds leaves the behaviour of the allocator as it was. -/
theorem captureSocket_mem {clock : Bool} {fill : Nat → Byte} {mem mem' : Mem} {msg : List Byte} {o : Bool} {eid : Byte} {r : List CapRec}
    (h : captureSocket clock fill mem msg o eid = .ok (r, mem')) : mem'.ok = mem.ok := by
  unfold captureSocket at h
  split at h
  · simp only [Except.ok.injEq, Prod.mk.injEq] at h; rw [h.2]
  · simp only [Mem.alloc] at h
    split at h
    · next heq =>
      split at heq
      · cases heq
      · simp only [Except.ok.injEq, Prod.mk.injEq] at h heq; rw [← h.2, ← heq.2]
    · next id m heq =>
      split at heq
      · simp only [Prod.mk.injEq, Option.some.injEq] at heq
        obtain ⟨b1, -, h⟩ := Res.bind_eq_ok.mp h
        obtain ⟨b2, -, h⟩ := Res.bind_eq_ok.mp h
        obtain ⟨b3, -, h⟩ := Res.bind_eq_ok.mp h
        obtain ⟨b4, -, h⟩ := Res.bind_eq_ok.mp h
        obtain ⟨b5, -, h⟩ := Res.bind_eq_ok.mp h
        obtain ⟨b6, hf, h⟩ := Res.bind_eq_ok.mp h
        simp only [Except.ok.injEq, Prod.mk.injEq] at h
        rw [← h.2]
        unfold Mem.free at hf
        simp only at hf
        split at hf
        · simp only [Except.ok.injEq] at hf
          rw [← hf, ← heq.2]
        · cases hf
      · cases heq

/-- **C103**, as far as it is true: with a working clock and memory, the capture file of a daemon has exactly one record for each message it gets from a client, whatever
it does with it, in order, outgoing, with the EID and the bytes of the message, and one more (uninitialised) byte, see C69; nothing is leaked. -/
theorem C103_from_clients_partial {net : Net W} {ops : Ops β} {proc : π → Core β → Res (Core β × List Event × Int)} {rs : List (Ready π)}
    {w : W} {core : Core β} {eid : Int} {d : Daemon W β} (_h : (Daemon.init w core eid).run net ops proc rs = .ok d)
    (fill : Nat → Byte) {mem : Mem} (hmem : ∀ n, mem.ok n = true) :
    ∃ mem', captureClients true fill mem d.log = .ok (((d.log.filterMap traffic).filter (·.1)).map
        (fun p => messageRecord true p.2.1 p.2.2 ++ [fill (24 + p.2.2.length)]), mem') ∧ ∀ i, mem'.live.count i = mem.live.count i := by
  generalize d.log = l
  induction l generalizing mem with
  | nil => exact ⟨mem, rfl, fun _ => rfl⟩
  | cons e rest ih =>
    cases e with
    | received fd rc bs =>
      cases bs with
      | nil => exact ih hmem
      | cons eid payload =>
        obtain ⟨m1, h1, h2⟩ := C69_record_partial fill (hmem _) true eid eid payload
        obtain ⟨m2, h3, h4⟩ := ih (mem := m1) (by rw [captureSocket_mem h1]; exact hmem)
        refine ⟨m2, ?_, fun i => (h4 i).trans (h2 i)⟩
        simp only [captureClients, h1, h3, Res.bind_ok]
        rfl
    | sent fd bs rc =>
      cases bs with
      | nil => exact ih hmem
      | cons a b => exact ih hmem
    | _ => exact ih hmem

/-- **C103** is false of the code: a client gets a message, and the capture file has no record of it. -/
theorem C103_refuted (fill : Nat → Byte) : ∃ (w : DaemonDemo.Script) (rs : List (Ready Unit)) (d : Daemon DaemonDemo.Script Unit) (file : List CapRec) (mem : Mem),
    (DaemonDemo.start w).run DaemonDemo.net Demo.ops DaemonDemo.proc rs = .ok d ∧ captureClients true fill {} d.log = .ok (file, mem) ∧
    (false, 8, [5, 7]) ∈ d.log.filterMap traffic ∧ ∀ r ∈ file, ¬ messageRecord false 8 [5, 7] <+: r := by
  obtain ⟨d, h1, h2⟩ := DaemonDemo.logOf_ok (w := { accepts := [10, 11], reads := [(1, 5), (1, 5)], peeks := [3], recvs := [[8, 5, 7]], sends := [3, 3] })
    (rs := [DaemonDemo.connect, DaemonDemo.connect, DaemonDemo.clients [0, 1], DaemonDemo.clients [0]])
    (l := [.polled [] [], .accepted 10, .polled [10] [], .accepted 11, .polled [10, 11] [10, 11], .readByte 10 1 5, .readByte 11 1 5,
      .polled [10, 11] [10], .peeked 10 3, .received 10 3 [8, 5, 7], .arrived 8 [5, 7], .sent 10 [8, 5, 7] 3, .sent 11 [8, 5, 7] 3]) (by decide +kernel)
  obtain ⟨m, h3, -⟩ := C103_from_clients_partial h1 fill (mem := {}) (fun _ => rfl)
  refine ⟨_, _, d, _, m, h1, h3, by rw [h2]; simp [traffic], ?_⟩
  rw [h2]
  intro r hr
  simp only [List.filterMap_cons, traffic, List.filterMap_nil, List.filter_cons, List.filter_nil, if_true, Bool.false_eq_true, if_false, List.map_cons, List.map_nil,
    List.mem_singleton] at hr
  subst hr
  rintro ⟨t, ht⟩
  simp [messageRecord, sll2Header] at ht

end Mctp
