import Verif.Proofs.MemFail
import Verif.Props.Bridge

/-!
# C28 to C34: memory
-/

namespace Mctp

open Spec

variable {β : Type}

/-! ## C28 -/

/-- **C28** (endpoint) While allocations succeed, no history of calls whose preconditions hold commits a
memory fault or fails an assertion, and a final `mctp_destroy` leaves exactly the allocations that were
live before `mctp_init`. -/
theorem C28_endpoint_safe {ops : Ops β} (K : Contract ops) {eid : Byte} {mem : Mem} {c0 : Core β}
    (hreg : Registered ops eid mem c0) (hcl : Clean mem) (hsz : SizesOk K c0) {hist : List (Op β)}
    (hok : HistOk K c0 hist) :
    ∃ c log m, c0.run ops hist = .ok (c, log) ∧ c.destroy = .ok m ∧
      ∀ id, m.live.count id = mem.live.count id := by
  obtain ⟨c, log, h1, h2⟩ := run_total K (hreg.memInv hcl hsz) hok
  obtain ⟨m, h3, h4⟩ := destroy_total h2
  exact ⟨c, log, m, h1, h3, h4.cnt⟩

/-- **C28** (bridge) The same for a bridge. -/
theorem C28_bridge_safe {ops : Ops β} (K : Contract ops) {mx : Nat} (hmx : mx < 2 ^ 64) {mem : Mem}
    {c0 : Core β} (hbr : Bridged ops mx mem c0) (hcl : Clean mem) (hsz : SizesOk K c0) {hist : List (Op β)}
    (hok : HistOk K c0 hist) :
    ∃ c log m, c0.run ops hist = .ok (c, log) ∧ c.destroy = .ok m ∧
      ∀ id, m.live.count id = mem.live.count id := by
  obtain ⟨b1, b2, hb⟩ : ∃ b1 b2, c0.busses = [b1, b2] := by
    obtain ⟨fill, c, bb1, bb2, rc, hi, hr, hrc⟩ := hbr
    obtain ⟨id, m, x, y, -, rfl, -⟩ := bridgeBusses_ok hr hrc
    exact ⟨x, y, rfl⟩
  obtain ⟨hI, -⟩ := hbr.brInv hcl hsz (Pol.loose hmx) hb
  obtain ⟨c, log, h1, h2⟩ := run_total K hI.mem hok
  obtain ⟨m, h3, h4⟩ := destroy_total h2
  exact ⟨c, log, m, h1, h3, h4.cnt⟩

/-- A history for C28 that leaves a partial message, a queued packet and a changed binding behind. -/
example :
    HistOk Demo.K { Demo.core with hasRx := false }
      [.setRx true, .recv 0 (Demo.pkt 9 8 0x80 [1, 2]), .recv 0 (Demo.pkt 9 8 0x90 [1, 2]),
       .recv 0 (Demo.pkt 9 8 0x80 [1, 2]), .recv 0 (Demo.pkt 9 8 0x90 [1, 2, 3]), .enable 0 false,
       .send 9 true 1 [1, 2, 3], .rebind 0 () 100 4 4 true, .recv 0 (Demo.pkt 7 8 0x80 [1, 2])] :=
  Demo.histOk (by decide +kernel)

example : HistOk Demo.K Demo.bridge
    [.recv 0 (Demo.pkt 9 8 0x80 [1, 2]), .recv 1 (Demo.pkt 9 8 0x50 [1]), .enable 1 false,
     .recv 0 (Demo.pkt 9 8 0xc0 [1, 2])] :=
  Demo.histOk (by decide +kernel)

/-! ## C29: unregistering, then destroying -/

/-- **C29** (the property is false, always) In every state reached by any history, unregistering the bus
and then destroying the core frees the bus array twice. -/
theorem C29_double_free {ops : Ops β} (K : Contract ops) {eid : Byte} {mem : Mem} {c0 : Core β}
    (hreg : Registered ops eid mem c0) (hcl : Clean mem) (hsz : SizesOk K c0) {hist : List (Op β)}
    (hok : HistOk K c0 hist) :
    ∃ c log c', c0.run ops hist = .ok (c, log) ∧ c.unregisterBus = .ok c' ∧
      c'.destroy = .error .doubleFree := by
  obtain ⟨c, log, h1, h2⟩ := run_total K (hreg.memInv hcl hsz) hok
  obtain ⟨id, hid⟩ := h2.ptr
  have ho : Owns c.mem (id :: (ctxBufs c.ctxs ++ (queueIds c.busses ++ (c.self :: mem.live)))) :=
    h2.owns.congr fun j => by
      simp only [owned, hid, Option.toList, List.count_append, List.count_cons, List.count_nil]; omega
  obtain ⟨m, f1, f2, f3⟩ := ho.free
  refine ⟨c, log, { c with mem := m, nBusses := 0, busses := [] }, h1, by
    simp [Core.unregisterBus, hid, f1, Res.bind_ok], ?_⟩
  obtain ⟨m1, g1, g2⟩ := freeCtxs_total f2
  unfold Core.destroy
  simp only [g1, Res.bind_ok]
  rw [if_neg (by omega)]
  simp only [List.take_nil, List.reverse_nil, freeBusses, Res.bind_ok, pure, Except.pure, hid]
  have hnot : id ∉ m1.live := by
    intro hmem
    have c1 := ho.cnt id
    have c2 := g2.cnt id
    have c3 := List.nodup_iff_count.mp ho.nd id
    have c4 := List.count_pos_iff.mpr hmem
    simp only [List.count_append, List.count_cons_self] at c1 c2
    omega
  simp [Mem.free, hnot, Res.bind_error]

/-- Registering a bus on a core without one, when the start function succeeds. -/
theorem register_memInv {ops : Ops β} {K : Contract ops} {c c2 : Core β} {b : Binding β} {eid : Byte} {rc : Int}
    {base : List Nat} (ho : Owns c.mem (ctxBufs c.ctxs ++ (c.self :: base))) (hall : AllOk c.mem)
    (hctx : ∀ x ∈ c.ctxs, CtxOk x) (h : c.registerBus ops b eid = .ok (c2, rc)) (hrc : 0 ≤ rc)
    (hsz : SizesOk K c2) : MemInv K base c2 := by
  obtain ⟨id2, m2, bus, ha2, rfl, h1, h2, h3⟩ := registerBus_ok h hrc
  obtain ⟨m3, e3, o3, k3⟩ := ho.alloc hall
  rw [e3] at ha2
  simp only [Prod.mk.injEq, Option.some.injEq] at ha2
  obtain ⟨rfl, rfl⟩ := ha2
  refine ⟨o3.congr fun i => ?_, by intro n; show m3.ok n = true; rw [k3]; exact hall n, hctx, rfl, by simp,
    ⟨_, rfl⟩, ?_, ?_, fun b hb => (hsz b hb).2.2⟩
  · simp only [owned, queueIds, h2, List.flatMap_cons, List.flatMap_nil, List.map_nil,
      Option.toList, List.count_append, List.count_cons, List.count_nil]
    omega
  · intro b hb hne
    simp only [List.mem_singleton] at hb
    subst hb
    exact ⟨h3 hne, (hsz _ (by simp)).1⟩
  · intro b hb
    simp only [List.mem_singleton] at hb
    subst hb
    exact ⟨(hsz _ (by simp)).2.1, by simp [h2]⟩

/-- **C29** (what holds) If nothing is queued, unregistering and registering a bus again gives a core
that works and can be destroyed without leak. Missing: destroying without registering again (double
free, above) and packets still queued (leak, below). -/
theorem C29_reregister_partial {ops : Ops β} (K : Contract ops) {eid : Byte} {mem : Mem} {c0 : Core β}
    (hreg : Registered ops eid mem c0) (hcl : Clean mem) (hsz : SizesOk K c0) {hist : List (Op β)}
    (hok : HistOk K c0 hist) :
    ∃ c log c', c0.run ops hist = .ok (c, log) ∧ c.unregisterBus = .ok c' ∧ (pending c = [] →
      ∀ b eid' c2 rc, c'.registerBus ops b eid' = .ok (c2, rc) → 0 ≤ rc → SizesOk K c2 →
      ∀ hist2, HistOk K c2 hist2 → ∃ c3 log3 m, c2.run ops hist2 = .ok (c3, log3) ∧
        c3.destroy = .ok m ∧ ∀ id, m.live.count id = mem.live.count id) := by
  obtain ⟨c, log, h1, h2⟩ := run_total K (hreg.memInv hcl hsz) hok
  obtain ⟨id, hid⟩ := h2.ptr
  have ho : Owns c.mem (id :: (ctxBufs c.ctxs ++ (queueIds c.busses ++ (c.self :: mem.live)))) :=
    h2.owns.congr fun j => by
      simp only [owned, hid, Option.toList, List.count_append, List.count_cons, List.count_nil]; omega
  obtain ⟨m, f1, f2, f3⟩ := ho.free
  refine ⟨c, log, { c with mem := m, nBusses := 0, busses := [] }, h1, by
    simp [Core.unregisterBus, hid, f1, Res.bind_ok], fun hp b eid' c2 rc hr hrc hsz2 hist2 hok2 => ?_⟩
  have hq : queueIds c.busses = [] := by
    simp only [pending, List.flatMap_eq_nil_iff, List.map_eq_nil_iff] at hp
    simp only [queueIds, List.flatMap_eq_nil_iff, List.map_eq_nil_iff]
    exact hp
  rw [hq] at f2
  have hI := register_memInv (c := { c with mem := m, nBusses := 0, busses := [] }) f2
    (fun n => by show m.ok n = true; rw [f3]; exact h2.ok n) h2.ctxs hr hrc hsz2
  obtain ⟨c3, log3, g1, g2⟩ := run_total K hI hok2
  obtain ⟨m3, g3, g4⟩ := destroy_total g2
  exact ⟨c3, log3, m3, g1, g3, g4.cnt⟩

/-- **C29** (the property is false) A packet queued when the bus is unregistered is never freed: after
registering again and destroying the core, allocation 2 (the packet) is still live. -/
theorem C29_queued_packet_leaked :
    (do
      let (c, _) ← Demo.core.run Demo.ops [.enable 0 false, .send 9 true 1 [7]]
      let c ← c.unregisterBus
      let (c, _) ← c.registerBus Demo.ops Demo.binding 8
      let m ← c.destroy
      .ok m.live : Res (List Nat)) = .ok [2] := by decide +kernel

/-- C29: the hypotheses are met, with an empty queue after some traffic. -/
example :
    let hist : List (Op Unit) := [.recv 0 (Demo.pkt 9 8 0x80 [1, 2]), .send 9 true 1 [7]]
    HistOk Demo.K { Demo.core with hasRx := false } hist ∧
    (do
      let (c, _) ← Core.run Demo.ops { Demo.core with hasRx := false } hist
      let c' ← c.unregisterBus
      let (c2, rc) ← c'.registerBus Demo.ops Demo.binding 8
      let m ← c2.destroy
      .ok (pending c, rc, m.live) : Res _) = .ok ([], 0, []) :=
  ⟨Demo.histOk (by decide +kernel), by decide +kernel⟩

/-! ## C30: a reassembly buffer cannot be allocated -/

/-- A binding with large packets; the sixth allocation (growing the reassembly buffer) fails. -/
def Demo.bigCore : Core Unit :=
  { Demo.coreOf { Demo.binding with pktSize := 5000 } 65536 with
    mem := { next := 2, live := [1, 0], ok := fun n => n != 5 } }

/-- The history: a message whose second packet makes the buffer grow. -/
def Demo.growth : List (Op Unit) :=
  [.recv 0 (Demo.pkt 9 8 0x80 (List.replicate 4096 1)), .recv 0 (Demo.pkt 9 8 0x50 [2])]

/-- **C30** (the property is false) After a failed growth of a reassembly buffer the core keeps a pointer
to freed memory: `mctp_destroy` frees it again. -/
theorem C30_failed_growth_double_free :
    (do
      let (c, _) ← Demo.bigCore.run Demo.ops Demo.growth
      let m ← c.destroy
      .ok m.live : Res (List Nat)) = .error .doubleFree := by decide +kernel

/-- **C30** (the property is false) ... and the next message assembled in that context is written to
freed memory. -/
theorem C30_failed_growth_use_after_free :
    Demo.fault Demo.bigCore (Demo.growth ++ [.recv 0 (Demo.pkt 9 8 0x80 [1, 2, 3])]) =
      some .useAfterFree := by decide +kernel

/-- A registered endpoint has a consistent memory whichever later allocations fail. -/
theorem Registered.memSafe {ops : Ops β} {eid : Byte} {mem : Mem} {c0 : Core β}
    (h : Registered ops eid mem c0) (hfresh : ∀ i ∈ mem.live, i < mem.next) (hnd : mem.live.Nodup) :
    MemSafe mem.live c0 := by
  obtain ⟨fill, c, b, rc, hi, hr, hrc⟩ := h
  obtain ⟨id, m, ha, rfl⟩ := init_ok hi
  obtain ⟨id2, m2, bus, ha2, rfl, h1, h2, h3⟩ := registerBus_ok hr hrc
  have h0 : Owns mem mem.live := ⟨fun _ => rfl, hfresh, hnd⟩
  rcases h0.allocAny with ⟨m1, e1, o1, -, -⟩ | ⟨m1, e1, -⟩
  · rw [ha] at e1
    simp only [Prod.mk.injEq, Option.some.injEq] at e1
    obtain ⟨rfl, rfl⟩ := e1
    rcases o1.allocAny with ⟨m3, e3, o3, -, -⟩ | ⟨m3, e3, -⟩
    · simp only at ha2
      rw [ha2] at e3
      simp only [Prod.mk.injEq, Option.some.injEq] at e3
      obtain ⟨rfl, rfl⟩ := e3
      refine ⟨o3.congr fun i => ?_, ?_, rfl, by simp, ⟨_, rfl⟩, rfl⟩
      · have : ctxBufs (List.replicate 16 Ctx.zero) = [] := by decide
        simp only [owned, this, queueIds, h2, List.flatMap_cons, List.flatMap_nil, List.map_nil,
          Option.toList, List.count_append, List.count_cons, List.count_nil]
        omega
      · intro x hx
        simp only at hx
        rw [List.eq_of_mem_replicate hx]
        exact ⟨by simp [Ctx.zero], fun _ => rfl⟩
    · simp only at ha2
      rw [ha2] at e3; simp at e3
  · rw [ha] at e1; simp at e1

/-- **C30** (what holds) Received packets never cause a memory fault or a leak, whichever allocations
fail (packet buffers and first reassembly buffers included), as long as the allocation that grows an
existing reassembly buffer succeeds: a final `mctp_destroy` leaves exactly what was live before
`mctp_init`. Missing: a failing growth, for which the property is false (above). -/
theorem C30_failures_harmless_partial {ops : Ops β} {eid : Byte} {mem : Mem} {c0 : Core β}
    (hreg : Registered ops eid mem c0) (hfresh : ∀ i ∈ mem.live, i < mem.next) (hnd : mem.live.Nodup)
    {ps : List (Nat × List Byte)} (hok : RecvOk ops c0 ps) :
    ∃ c log m, c0.run ops (ps.map fun p => .recv p.1 p.2) = .ok (c, log) ∧ c.destroy = .ok m ∧
      ∀ id, m.live.count id = mem.live.count id := by
  obtain ⟨c, log, h1, h2⟩ := recvs_safe (hreg.memSafe hfresh hnd) hok
  obtain ⟨m, h3, h4⟩ := destroy_safe h2
  exact ⟨c, log, m, h1, h3, h4.cnt⟩

/-- C30: an endpoint for which allocations 2 (a packet) and 4 (a first reassembly buffer) fail meets the
hypotheses: the first packet is lost, the second (a start packet) loses its message. -/
example :
    let mem : Mem := { ok := fun n => n != 2 && n != 4 }
    let c0 : Core Unit := { Demo.core with hasRx := false, mem := { mem with next := 2, live := [1, 0] } }
    Registered Demo.ops 8 mem c0 ∧
    RecvOk Demo.ops c0 [(0, Demo.pkt 9 8 0x80 [1]), (0, Demo.pkt 9 8 0x80 [1])] := by
  refine ⟨⟨fun _ => 0xaa, _, Demo.binding, 0, rfl, rfl, by decide⟩, ⟨_, rfl, by decide⟩, .inl (by decide), ?_⟩
  intro c' e h
  have : c' = { Demo.core with hasRx := false, mem := { next := 3, live := [1, 0], ok := fun n => n != 2 && n != 4 } } := by
    have h' : Core.rxPacket Demo.ops ({ Demo.core with hasRx := false, mem := { next := 2, live := [1, 0], ok := fun n => n != 2 && n != 4 } }) 0
        (Demo.pkt 9 8 0x80 [1]) = .ok ({ Demo.core with hasRx := false, mem := { next := 3, live := [1, 0], ok := fun n => n != 2 && n != 4 } }, []) := rfl
    rw [h'] at h
    simp only [Except.ok.injEq, Prod.mk.injEq] at h
    exact h.1.symm
  subst this
  exact ⟨⟨_, rfl, by decide⟩, .inr (by decide), fun _ _ _ => trivial⟩

/-! ## C31: allocation failure on transmit and registration -/

/-- **C31** (the property is false, always) If the first packet of a message cannot be allocated,
`mctp_message_tx` dereferences a null pointer: in every state reached by any history in which the bus has
been enabled, for every valid tag and every non-empty message. -/
theorem C31_transmit_null_deref {ops : Ops β} (K : Contract ops) {eid : Byte} {mem : Mem} {c0 : Core β}
    (hreg : Registered ops eid mem c0) (hcl : Clean mem) (hsz : SizesOk K c0) {hist : List (Op β)}
    (hok : HistOk K c0 hist) :
    ∃ c log, c0.run ops hist = .ok (c, log) ∧ ∀ b, c.busses = [b] → b.state ≠ .constructed →
      ∀ (ok : Nat → Bool) (d : Byte) (own : Bool) (tag : Byte) (msg : List Byte), ok c.mem.next = false →
      tag.toNat ≤ 7 → msg ≠ [] →
      ({ c with mem := { c.mem with ok := ok } } : Core β).messageTx ops d own tag msg =
        .error .nullDeref := by
  obtain ⟨c, log, h1, h2⟩ := run_total K (hreg.memInv hcl hsz) hok
  refine ⟨c, log, h1, fun b hb hst ok d own tag msg hk ht hne => ?_⟩
  have hpos := h2.pos
  have hg : tag &&& 0x7 = tag := by
    apply BitVec.eq_of_toNat_eq
    rw [BitVec.toNat_and]
    show tag.toNat &&& (2 ^ 3 - 1) = _
    rw [Nat.and_two_pow_sub_one_eq_mod]; omega
  have hbus : ({ c with mem := { c.mem with ok := ok } } : Core β).busAt 0 = .ok b := by
    obtain ⟨b', hb1, hb2, -⟩ := h2.busAt hpos
    rw [hb] at hb2
    simp only [List.getElem?_cons_zero, Option.some.injEq] at hb2
    subst hb2
    rw [← hb1]; rfl
  have hbo := h2.bus b (by simp [hb]) hst
  have hbs : bodySize b.binding.pktSize = b.binding.pktSize - 4 :=
    bodySize_eq (by have := hbo.btu; omega) (by have := hbo.wrap; omega)
  have hnm : (Mem.alloc { c.mem with ok := ok }).1 = none := by simp [Mem.alloc, hk]
  unfold Core.messageTx
  rw [if_neg (by simpa using hg), if_neg (by simp only; omega), hbus]
  simp only [Res.bind_ok, Core.messageTxOnBus, hbus]
  rw [if_neg hst, if_neg (by simpa using hg), hbs, if_neg (by simp only [btu]; have := hbo.btu; omega)]
  have hl : txLoop c.fill b.binding b.eid d own tag (b.binding.pktSize - 4) msg msg.length 0 0
      { c.mem with ok := ok } b.queue = .error .nullDeref := by
    cases msg with
    | nil => exact absurd rfl hne
    | cons x xs =>
      simp only [List.length_cons, txLoop]
      rw [if_pos (by omega)]
      have : ∀ n, (pktbufAlloc { c.mem with ok := ok } c.fill b.binding.pktSize b.binding.pktHeader
          b.binding.pktTrailer n).1 = none := by
        intro n
        unfold pktbufAlloc
        simp only
        split
        · rfl
        · cases hal : Mem.alloc { c.mem with ok := ok } with
          | mk o m' => rw [hal] at hnm; simp only at hnm; subst hnm; rfl
      generalize hp : pktbufAlloc _ _ _ _ _ _ = z
      have hz := this (((if xs.length + 1 - 0 > b.binding.pktSize - 4 then b.binding.pktSize - 4
          else xs.length + 1 - 0)) + hdrSize)
      rw [hp] at hz
      obtain ⟨z1, z2⟩ := z
      simp only at hz
      subst hz; rfl
  rw [hl]
  rfl

/-- **C31** (the property is false, always) If the bus structure cannot be allocated,
`mctp_register_bus` returns -ENOMEM, but the core is left believing it has a bus: the next registration
fails an assertion and `mctp_destroy` dereferences a null pointer. -/
theorem C31_register_unusable {ops : Ops β} {mem : Mem} {fill : Nat → Byte} {c : Core β}
    (hi : Core.init β mem fill = some c) (hk : c.mem.ok c.mem.next = false) (b : Binding β) (eid : Byte) :
    ∃ c', c.registerBus ops b eid = .ok (c', -12) ∧
      (∀ b2 eid2, c'.registerBus ops b2 eid2 = .error .assertFail) ∧ c'.destroy = .error .nullDeref := by
  obtain ⟨id, m, ha, rfl⟩ := init_ok hi
  simp only at hk
  refine ⟨_, by
    simp only [Core.registerBus, Mem.alloc, hk]
    rfl, fun b2 eid2 => by simp [Core.registerBus], ?_⟩
  have hctx : ∀ (n : Nat) (m : Mem), freeCtxs m (List.replicate n Ctx.zero) = .ok m := by
    intro n
    induction n with
    | zero => intro m; rfl
    | succ n ih => intro m; simp [List.replicate_succ, freeCtxs, Ctx.zero, Res.bind_ok]; exact ih m
  simp only [Core.destroy, hctx, Res.bind_ok]
  rfl

/-- **C31** (what holds) A bridge whose bus structure cannot be allocated does report the error and leaves
the core as it was; `mctp_init` returns NULL when it cannot allocate.  Missing: `mctp_message_tx` and
`mctp_register_bus`, for which the property is false (above). -/
theorem C31_bridge_reports_partial {ops : Ops β} {c : Core β} (hn : c.nBusses = 0) (hp : c.bussesPtr = none)
    (hk : c.mem.ok c.mem.next = false) (b1 b2 : Binding β) :
    (∃ m, c.bridgeBusses ops b1 b2 = .ok ({ c with mem := m }, -12) ∧ m.live = c.mem.live) ∧
    (∀ (mem : Mem) (fill : Nat → Byte), mem.ok mem.next = false → Core.init β mem fill = none) := by
  refine ⟨⟨{ c.mem with next := c.mem.next + 1 }, ?_, rfl⟩, fun mem fill h => by simp [Core.init, Mem.alloc, h]⟩
  simp only [Core.bridgeBusses, hn, ne_eq, not_true_eq_false, if_false, Mem.alloc, hk, Bool.false_eq_true]
  rw [← hp]; rfl

/-- Concrete cases for C31. -/
example : ∃ c, Core.init Unit { ok := fun n => n != 1 } (fun _ => 0) = some c ∧
    c.mem.ok c.mem.next = false ∧ c.nBusses = 0 ∧ c.bussesPtr = none := ⟨_, rfl, rfl, rfl, rfl⟩

example : Demo.core.busses = [⟨8, Demo.binding, .txEnabled, []⟩] ∧ Demo.core.mem.next = 2 := ⟨rfl, rfl⟩

/-! ## C32: registration failure -/

/-- **C32** If the binding's start function fails with `rc`, `mctp_register_bus` returns `rc`, the core has
no bus, sending is not possible (it has no effect), and destroying the core releases everything; a later
registration whose start function succeeds gives a core that works and can be destroyed without leak. -/
theorem C32_registration_undone {ops : Ops β} (K : Contract ops) {mem : Mem} {fill : Nat → Byte}
    {c : Core β} (hi : Core.init β mem fill = some c) (hcl : Clean mem) {b : Binding β} {eid : Byte}
    {f : Binding β → Res (StartOut β)} (hf : ops.start = some f) {out : StartOut β} (hb : f b = .ok out)
    (hrc : out.rc < 0) :
    ∃ c', c.registerBus ops b eid = .ok (c', out.rc) ∧ c'.nBusses = 0 ∧
      (∃ m, c'.destroy = .ok m ∧ ∀ id, m.live.count id = mem.live.count id) ∧
      (∀ d own tag msg c2 e rc, c'.messageTx ops d own tag msg = .ok (c2, e, rc) → c2 = c' ∧ e = []) ∧
      ∀ b2 eid2 out2, f b2 = .ok out2 → 0 ≤ out2.rc →
        out2.binding.pktSize + out2.binding.pktHeader + out2.binding.pktTrailer < 2 ^ 64 →
        K.I out2.binding → (out2.enableTx = true → K.T out2.binding) →
        ∃ c2, c'.registerBus ops b2 eid2 = .ok (c2, out2.rc) ∧
          ∀ hist, HistOk K c2 hist → ∃ c3 log m, c2.run ops hist = .ok (c3, log) ∧
            c3.destroy = .ok m ∧ ∀ id, m.live.count id = mem.live.count id := by
  obtain ⟨id, m, ha, rfl⟩ := init_ok hi
  have h0 : Owns mem mem.live := ⟨fun _ => rfl, hcl.fresh, hcl.nd⟩
  obtain ⟨m1, e1, o1, k1⟩ := h0.alloc hcl.ok
  rw [ha] at e1
  simp only [Prod.mk.injEq, Option.some.injEq] at e1
  obtain ⟨rfl, rfl⟩ := e1
  have hok1 : AllOk m := by intro n; rw [k1]; exact hcl.ok n
  obtain ⟨m2, e2, o2, k2⟩ := o1.alloc hok1
  obtain ⟨m3, e3, o3, k3⟩ := o2.free
  have hok3 : AllOk m3 := by intro n; rw [k3, k2]; exact hok1 n
  have hctx : ∀ (n : Nat) (m : Mem), freeCtxs m (List.replicate n Ctx.zero) = .ok m := by
    intro n
    induction n with
    | zero => intro m; rfl
    | succ n ih => intro m; simp [List.replicate_succ, freeCtxs, Ctx.zero, Res.bind_ok]; exact ih m
  refine ⟨{ mem := m3, fill := fill, self := mem.next, nBusses := 0, bussesPtr := none, busses := [],
            hasRx := false, hasCapture := false, ctxs := List.replicate 16 Ctx.zero,
            bridge := false, maxSize := 65536 }, ?_, rfl, ?_, ?_, ?_⟩
  · simp only [Core.registerBus, ne_eq, not_true_eq_false, if_false, e2, startBus, hf, hb, Res.bind_ok]
    rw [if_pos hrc]
    simp only [e3, Res.bind_ok]
  · obtain ⟨m4, e4, o4, -⟩ := o3.free
    refine ⟨m4, ?_, o4.cnt⟩
    simp only [Core.destroy, hctx, Res.bind_ok]
    simp only [gt_iff_lt, Nat.lt_irrefl, if_false, List.take_nil, List.reverse_nil, freeBusses, Mem.free, Res.bind_ok]
    exact e4
  · intro d own tag msg c2 e rc hm
    simp only [Core.messageTx] at hm
    split at hm
    · simp only [Except.ok.injEq, Prod.mk.injEq] at hm; exact ⟨hm.1.symm, hm.2.1.symm⟩
    · simp only [if_true, Except.ok.injEq, Prod.mk.injEq] at hm; exact ⟨hm.1.symm, hm.2.1.symm⟩
  · intro b2 eid2 out2 hb2 hrc2 hsz2 hI2 hT2
    obtain ⟨m5, e5, o5, k5⟩ := o3.alloc hok3
    have hreg : ∃ c2, Core.registerBus ops
        ({ mem := m3, fill := fill, self := mem.next, nBusses := 0, bussesPtr := none, busses := [],
           hasRx := false, hasCapture := false, ctxs := List.replicate 16 Ctx.zero,
           bridge := false, maxSize := 65536 } : Core β) b2 eid2 = .ok (c2, out2.rc) ∧ SizesOk K c2 := by
      simp only [Core.registerBus, ne_eq, not_true_eq_false, if_false, e5, startBus, hf, hb2, Res.bind_ok]
      rw [if_neg (by omega)]
      refine ⟨_, rfl, ?_⟩
      intro x hx
      simp only [List.mem_singleton] at hx
      subst hx
      split
      · rename_i ht; exact ⟨hsz2, hI2, fun _ => hT2 ht.1⟩
      · exact ⟨hsz2, hI2, by simp⟩
    obtain ⟨c2, hr2, hs2⟩ := hreg
    refine ⟨c2, hr2, fun hist hok => ?_⟩
    have hI := register_memInv (base := mem.live) (o3.congr fun i => by
      have hz : ctxBufs (List.replicate 16 Ctx.zero) = [] := by decide
      rw [hz]; rfl) hok3 (by
      intro x hx
      simp only at hx
      rw [List.eq_of_mem_replicate hx]
      exact ⟨by simp [Ctx.zero], fun _ => rfl⟩) hr2 hrc2 hs2
    obtain ⟨c3, log3, g1, g2⟩ := run_total K hI hok
    obtain ⟨m3, g3, g4⟩ := destroy_total g2
    exact ⟨c3, log3, m3, g1, g3, g4.cnt⟩

/-- A binding whose start function fails unless its private state says it is ready (C32). -/
def Demo.flakyOps : Ops Bool where
  start := some fun b => .ok { binding := b, rc := if b.st then 0 else -5, enableTx := b.st }
  tx := fun b p => .ok { st := b.st, pkt := p, rc := 0, disableTx := false }

example : (∀ b p, ∃ out, Demo.flakyOps.tx b p = .ok out) ∧ (∃ c, Core.init Bool {} (fun _ => 0) = some c) :=
  ⟨fun _ _ => ⟨_, rfl⟩, ⟨_, rfl⟩⟩

/-! ## C33, C34: packet buffers -/

/-- A packet buffer whose area is inside its storage. -/
structure PktWf (p : Pktbuf) : Prop where
  se   : p.start ≤ p.«end»
  es   : p.«end» ≤ p.size
  sz   : p.size = p.data.length
  wrap : p.size < 2 ^ 64

/-- **C33** (while the length does not overflow `size_t`) Pushing bytes on a packet buffer fails without
effect exactly if they do not fit, and otherwise appends exactly these bytes, without touching the bytes
before; popping as many bytes as were pushed yields an area that holds exactly these bytes, and restores
the packet. -/
theorem C33_push_pop_partial {p : Pktbuf} (hp : PktWf p) {bs : List Byte}
    (hlen : p.«end» + bs.length < 2 ^ 64) :
    (p.push bs = .ok (false, p) ∧ p.size < p.«end» + bs.length) ∨
    (∃ p', p.push bs = .ok (true, p') ∧ PktWf p' ∧ p.«end» + bs.length ≤ p.size ∧
      p'.bytes = p.bytes ++ bs ∧
      ∃ off p'', p'.pop bs.length = (some off, p'') ∧ p''.read off bs.length = .ok bs ∧
        p''.bytes = p.bytes ∧ p''.start = p.start ∧ p''.«end» = p.«end» ∧ PktWf p'') := by
  unfold Pktbuf.push
  rw [show (p.«end» + bs.length) % sizeMod = p.«end» + bs.length from Nat.mod_eq_of_lt hlen]
  have hse := hp.se; have hes := hp.es; have hsz := hp.sz; have hwr := hp.wrap
  split
  · rename_i h; exact .inl ⟨rfl, h⟩
  · rename_i h
    right
    have hfit : p.«end» + bs.length ≤ p.data.length := by omega
    simp only [Pktbuf.write, hfit, if_true, Res.bind_ok]
    have hdl : (p.data.take p.«end» ++ bs ++ p.data.drop (p.«end» + bs.length)).length = p.data.length := by
      simp; omega
    have hold : ((p.data.take p.«end» ++ bs ++ p.data.drop (p.«end» + bs.length)).drop p.start).take
        (p.«end» - p.start) = (p.data.drop p.start).take (p.«end» - p.start) := by
      rw [List.append_assoc, List.drop_append_of_le_length (by simp; omega),
        List.take_append_of_le_length (by simp; omega), List.drop_take, List.take_take, Nat.min_self]
    have hnew : ((p.data.take p.«end» ++ bs ++ p.data.drop (p.«end» + bs.length)).drop p.«end»).take
        bs.length = bs := by
      have hl : (p.data.take p.«end»).length = p.«end» := by simp; omega
      rw [List.append_assoc]
      conv_lhs => arg 2; arg 1; rw [← hl]
      rw [List.drop_left, List.take_left]
    refine ⟨_, rfl, ⟨by simp only; omega, by simp only; omega, by simp only [hdl]; exact hsz, hwr⟩, by omega, ?_,
      p.«end», { p with data := p.data.take p.«end» ++ bs ++ p.data.drop (p.«end» + bs.length) }, ?_, ?_, ?_, rfl, rfl,
      ⟨hse, hes, by simp only [hdl]; exact hsz, hwr⟩⟩
    · simp only [Pktbuf.bytes, Pktbuf.len]
      rw [show p.«end» + bs.length - p.start = (p.«end» - p.start) + bs.length by omega, List.take_add, hold]
      congr 1
      rw [List.drop_drop, show p.start + (p.«end» - p.start) = p.«end» by omega, hnew]
    · have hno : ¬ (bs.length > p.«end» + bs.length - p.start) := by omega
      simp only [Pktbuf.pop, Pktbuf.len, hno, if_false, Nat.add_sub_cancel]
    · simp only [Pktbuf.read]
      rw [if_pos (by rw [hdl]; exact hfit), hnew]
    · simp only [Pktbuf.bytes, Pktbuf.len]; exact hold

/-- **C33** (the property is false for huge lengths) The capacity check of `mctp_pktbuf_push` is done
modulo 2^64: a length that makes it wrap is not refused, and the copy leaves the buffer. -/
theorem C33_push_overflow {p : Pktbuf} (hp : PktWf p) {bs : List Byte}
    (h1 : 2 ^ 64 ≤ p.«end» + bs.length) (h2 : p.«end» + bs.length ≤ 2 ^ 64 + p.size) :
    p.push bs = .error .outOfBounds := by
  have hse := hp.se; have hes := hp.es; have hsz := hp.sz; have hwr := hp.wrap
  unfold Pktbuf.push
  have : (p.«end» + bs.length) % sizeMod = p.«end» + bs.length - 2 ^ 64 := by
    unfold sizeMod
    by_cases hh : p.«end» + bs.length = 2 ^ 64 + 2 ^ 64
    · omega
    · rw [Nat.mod_eq_sub_mod h1, Nat.mod_eq_of_lt (by omega)]
  rw [this, if_neg (by omega)]
  simp only [Pktbuf.write]
  rw [if_neg (by omega)]
  rfl

/-- The area functions `mctp_pktbuf_alloc_start` / `mctp_pktbuf_alloc_end` either abort in their assertion
or extend the packet by the requested number of bytes, inside the storage. -/
theorem C33_alloc_areas {p : Pktbuf} (hp : PktWf p) (n : Nat) :
    (p.allocStart n = .error .assertFail ∧ p.start < n ∨
      ∃ p', p.allocStart n = .ok (p'.start, p') ∧ PktWf p' ∧ p'.len = p.len + n ∧ p'.data = p.data) ∧
    (p.allocEnd n = .error .assertFail ∧ p.size < p.«end» + n ∨
      ∃ p', p.allocEnd n = .ok (p.«end», p') ∧ PktWf p' ∧ p'.len = p.len + n ∧ p'.data = p.data) := by
  have hse := hp.se; have hes := hp.es; have hsz := hp.sz; have hwr := hp.wrap
  constructor
  · unfold Pktbuf.allocStart
    split
    · refine .inr ⟨{ p with start := p.start - n }, rfl, ⟨by simp only; omega, hes, hsz, hwr⟩, ?_, rfl⟩
      simp only [Pktbuf.len]; omega
    · exact .inl ⟨rfl, by omega⟩
  · unfold Pktbuf.allocEnd
    split
    · refine .inr ⟨{ p with «end» := p.«end» + n }, rfl, ⟨by simp only; omega, by simp only; omega, hsz, hwr⟩, ?_, rfl⟩
      simp only [Pktbuf.len]; omega
    · exact .inl ⟨rfl, by omega⟩

/-- A concrete buffer for C33: 2 of 6 bytes used; two bytes fit, six do not; and a push that wraps. -/
def Demo.buf : Pktbuf := ⟨0, 1, 3, 6, 1, [10, 11, 12, 13, 14, 15]⟩

example : PktWf Demo.buf ∧ Demo.buf.push [7, 8] = .ok (true, ⟨0, 1, 5, 6, 1, [10, 11, 12, 7, 8, 15]⟩) ∧
    Demo.buf.push [1, 2, 3, 4, 5, 6] = .ok (false, Demo.buf) ∧
    (2 ^ 64 ≤ Demo.buf.«end» + (List.replicate (2 ^ 64 - 3) (0 : Byte)).length ∧
      Demo.buf.«end» + (List.replicate (2 ^ 64 - 3) (0 : Byte)).length ≤ 2 ^ 64 + Demo.buf.size) := by
  refine ⟨⟨by decide, by decide, by decide, by decide⟩, by decide, by decide, ?_⟩
  rw [List.length_replicate]
  decide

/-- **C34** (what holds) A request for at most the packet size plus trailer gets a buffer whose whole
packet area is inside the allocated storage (when the allocation succeeds), and a request above the total
size is refused.  Missing: requests between the two, see below. -/
theorem C34_capacity_partial {m m' : Mem} {fill : Nat → Byte} {ps ph pt n : Nat} {o : Option Pktbuf}
    (h : pktbufAlloc m fill ps ph pt n = (o, m')) :
    (ps + ph + pt < n → o = none ∧ m' = m) ∧
    (∀ p, o = some p → n ≤ ps + pt → p.start = ph ∧ p.len = n ∧ p.«end» ≤ p.data.length ∧
      p.data.length = ps + ph + pt ∧ p.id ∈ m'.live) := by
  unfold pktbufAlloc at h
  simp only at h
  split at h
  · rename_i hn
    simp only [Prod.mk.injEq] at h
    obtain ⟨rfl, rfl⟩ := h
    exact ⟨fun _ => ⟨rfl, rfl⟩, fun p hp => by cases hp⟩
  · rename_i hn
    refine ⟨fun hh => absurd hh hn, fun p hp hle => ?_⟩
    subst hp
    cases ha : m.alloc with
    | mk a m1 =>
      rw [ha] at h
      cases a with
      | none => simp at h
      | some id =>
        simp only [Prod.mk.injEq, Option.some.injEq] at h
        obtain ⟨rfl, rfl⟩ := h
        refine ⟨rfl, by simp [Pktbuf.len], by simp; omega, by simp, ?_⟩
        unfold Mem.alloc at ha
        split at ha
        · simp only [Prod.mk.injEq, Option.some.injEq] at ha
          obtain ⟨rfl, rfl⟩ := ha; simp
        · simp at ha

/-- **C34** (the property is false) A binding with header space: every request larger than the packet
size plus trailer, but not larger than the total size, is granted although its area reaches beyond the
storage. -/
theorem C34_area_beyond_storage {m : Mem} {fill : Nat → Byte} {ps ph pt n : Nat}
    (h1 : ps + pt < n) (h2 : n ≤ ps + ph + pt) (hk : m.ok m.next = true) :
    ∃ p m', pktbufAlloc m fill ps ph pt n = (some p, m') ∧ p.data.length < p.start + p.len := by
  simp only [pktbufAlloc, Mem.alloc, hk, if_true]
  rw [if_neg (by omega)]
  exact ⟨_, _, rfl, by simp [Pktbuf.len]; omega⟩

/-- The sizes of the astlpc binding (packet 68, header and trailer 4): a request of 73 bytes. -/
example : (68 + 4 < 73 ∧ 73 ≤ 68 + 4 + 4) ∧ (pktbufAlloc {} (fun _ => 0) 68 4 4 72).1.isSome = true := by
  decide

end Mctp
