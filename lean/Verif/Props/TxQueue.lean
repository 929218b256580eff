import Verif.Proofs.TxQueue
import Verif.Props.Mem

/-!
# C79: the linked list of the transmit queue
-/

namespace Mctp

variable {β : Type}

/-- **C79** An endpoint whose transmit queue is the linked list of the C code (`tx_queue_head`, `tx_queue_tail`, `next`)
behaves, call by call, like the endpoint of `Core.lean`, whose queue is a list: for every history of calls whose
preconditions hold, whatever the binding answers, there is no access through a dangling or null pointer, every loop
ends, and all events and return values are the same; at the end, following the pointers from `tx_queue_head` gives
exactly the packets of the queue, in order, everything else is equal, and `mctp_destroy` releases the same memory.
So the properties proved of the queue as a list (C18-C25, C28) hold of the linked list. -/
theorem C79_linked_list {ops : Ops β} (K : Contract ops) {eid : Byte} {mem : Mem} {c0 : Core β} {heap : Nat → Option Node}
    (hreg : Registered ops eid mem c0) (hcl : Clean mem) (hsz : SizesOk K c0) {hist : List (Op β)}
    (hok : HistOk K c0 hist) :
    ∃ c p log b m, c0.run ops hist = .ok (c, log) ∧
      (PCore.mk c0 ⟨none, none, heap⟩).run ops hist = .ok (p, log) ∧
      c.busses = [b] ∧
      (∀ n, b.queue.length ≤ n → p.q.walk n p.q.head = b.queue) ∧
      c = p.core.setBus 0 b ∧
      c.destroy = .ok m ∧ p.destroy = .ok m ∧ ∀ id, m.live.count id = mem.live.count id := by
  obtain ⟨b0, hb0⟩ : ∃ b0, c0.busses = [b0] := by
    obtain ⟨fill, c, b, rc, hi, hr, hrc⟩ := hreg
    obtain ⟨id, m, bus, ha, rfl, h1, h2, h3⟩ := registerBus_ok hr hrc
    exact ⟨bus, rfl⟩
  have hq0 : b0.queue = [] := by
    obtain ⟨fill, c, b, rc, hi, hr, hrc⟩ := hreg
    obtain ⟨id, m, bus, ha, rfl, h1, h2, h3⟩ := registerBus_ok hr hrc
    simp only [List.cons.injEq, and_true] at hb0
    subst hb0
    exact h2
  have hs0 : QSame c0 ⟨c0, ⟨none, none, heap⟩⟩ b0 [] := by
    refine ⟨hb0, ?_, ⟨⟨rfl, by simp⟩, fun _ => rfl⟩, hreg.epInv.noBridge⟩
    have : ({ b0 with queue := [] } : Bus β) = b0 := by cases b0; simp_all
    rw [this]
    cases c0; simp_all [Core.setBus]
  obtain ⟨c, p, log, pb, q, h1, h2, h3, h4⟩ := runP_eq hs0 (hreg.memInv hcl hsz) hok
  obtain ⟨m, h5, h6, h7⟩ := h4.destroy h3
  have hcb : c.busses = [{ pb with queue := q }] := by rw [h4.same]; simp [Core.setBus, h4.one]
  exact ⟨c, p, log, _, m, h1, h2, hcb, fun n hn => h4.list.chain.walk hn, h4.same, h5, h6, h7.cnt⟩

/-- A history in which packets are queued, sent in part and queued again. -/
def linkedHist : List (Op Unit) :=
  [.send 9 true 1 [1, 2, 3], .enable 0 false, .send 9 true 1 (List.replicate 150 7), .send 9 false 2 [4],
   .recv 0 (Demo.pkt 9 8 0xc0 [1, 2]), .enable 0 true, .enable 0 false, .send 9 true 3 [5], .send 9 true 4 [6]]

example : HistOk Demo.K { Demo.core with hasRx := false } linkedHist := Demo.histOk (by decide +kernel)

/-- The run of the linked list on that history: the packet buffers left in the queue, by allocation number, following
the pointers, and the pointers themselves. -/
example : (do
    let (p, log) ← (PCore.mk { Demo.core with hasRx := false } ⟨none, none, fun _ => none⟩).run Demo.ops linkedHist
    .ok ((p.q.walk 10 p.q.head).map Pktbuf.id, p.q.head, p.q.tail, log.map (·.evs.length)) : Res _)
    = .ok ([8, 9], some 8, some 9, [1, 0, 0, 0, 1, 4, 0, 0, 0]) := by decide +kernel

end Mctp
