import Verif.Proofs.Progress

/-! Registered endpoints and what holds of them. -/

namespace Mctp

open Spec

variable {β : Type}

/-- The allocator before the library is used: everything succeeds, no number was used twice. -/
structure Clean (m : Mem) : Prop where
  ok    : AllOk m
  fresh : ∀ i ∈ m.live, i < m.next
  nd    : m.live.Nodup

/-- `mctp_init`, `mctp_set_rx_all`, `mctp_set_max_message_size(mx)` and a successful
`mctp_register_bus(eid)`. -/
def Configured (ops : Ops β) (eid : Byte) (mx : Nat) (mem : Mem) (c0 : Core β) : Prop :=
  ∃ fill c b rc, Core.init β mem fill = some c ∧
    ((c.setRxAll true).setMaxMessageSize mx).registerBus ops b eid = .ok (c0, rc) ∧ 0 ≤ rc

/-- `mctp_init` and a successful `mctp_register_bus(eid)`. -/
def Registered (ops : Ops β) (eid : Byte) (mem : Mem) (c0 : Core β) : Prop :=
  ∃ fill c b rc, Core.init β mem fill = some c ∧ c.registerBus ops b eid = .ok (c0, rc) ∧ 0 ≤ rc

/-- The sizes of the binding do not overflow `size_t`, and the binding's own invariant holds. -/
def SizesOk {ops : Ops β} (K : Contract ops) (c : Core β) : Prop :=
  ∀ b ∈ c.busses, b.binding.pktSize + b.binding.pktHeader + b.binding.pktTrailer < 2 ^ 64 ∧
    K.I b.binding ∧ (b.state = .txEnabled → K.T b.binding)

theorem startBus_ok {ops : Ops β} {b b' : Bus β} {rc : Int} (h : startBus ops b = .ok (b', rc)) :
    b'.eid = b.eid ∧ b'.queue = b.queue ∧
      (b'.state = b.state ∨ b'.state = .txEnabled ∧ 68 ≤ b'.binding.pktSize) := by
  unfold startBus at h
  split at h
  · simp only [Except.ok.injEq, Prod.mk.injEq] at h
    obtain ⟨rfl, rfl⟩ := h; exact ⟨rfl, rfl, .inl rfl⟩
  · obtain ⟨out, ho, h⟩ := Res.bind_eq_ok.mp h
    simp only [Except.ok.injEq, Prod.mk.injEq] at h
    obtain ⟨rfl, rfl⟩ := h
    split
    · rename_i hc
      exact ⟨rfl, rfl, .inr ⟨rfl, by have := hc.2; simp only [packetSize, btu, hdrSize] at this; omega⟩⟩
    · exact ⟨rfl, rfl, .inl rfl⟩

theorem registerBus_ok {ops : Ops β} {c c0 : Core β} {b : Binding β} {eid : Byte} {rc : Int}
    (h : c.registerBus ops b eid = .ok (c0, rc)) (hrc : 0 ≤ rc) :
    ∃ id m bus, c.mem.alloc = (some id, m) ∧
      c0 = { c with mem := m, nBusses := 1, bussesPtr := some id, busses := [bus], bridge := false } ∧
      bus.eid = eid ∧ bus.queue = [] ∧ (bus.state ≠ .constructed → 68 ≤ bus.binding.pktSize) := by
  unfold Core.registerBus at h
  split at h
  · cases h
  · split at h
    · simp only [Except.ok.injEq, Prod.mk.injEq] at h
      obtain ⟨_, rfl⟩ := h; simp [ENOMEM] at hrc
    · rename_i id m ha
      obtain ⟨⟨bus, rc'⟩, hs, h⟩ := Res.bind_eq_ok.mp h
      simp only at h
      split at h
      · obtain ⟨m', hm', h⟩ := Res.bind_eq_ok.mp h
        simp only [Except.ok.injEq, Prod.mk.injEq] at h
        obtain ⟨_, rfl⟩ := h; omega
      · simp only [Except.ok.injEq, Prod.mk.injEq] at h
        obtain ⟨rfl, rfl⟩ := h
        obtain ⟨h1, h2, h3⟩ := startBus_ok hs
        refine ⟨id, m, bus, ha, rfl, h1, h2, fun hne => ?_⟩
        rcases h3 with h3 | h3
        · exact absurd h3 hne
        · exact h3.2

theorem init_ok {mem : Mem} {fill : Nat → Byte} {c : Core β} (h : Core.init β mem fill = some c) :
    ∃ id m, mem.alloc = (some id, m) ∧
      c = { mem := m, fill := fill, self := id, nBusses := 0, bussesPtr := none, busses := [],
            hasRx := false, hasCapture := false, ctxs := List.replicate 16 Ctx.zero,
            bridge := false, maxSize := 65536 } := by
  unfold Core.init at h
  split at h
  · cases h
  · rename_i id m ha
    simp only [Option.some.injEq] at h
    exact ⟨id, m, ha, h.symm⟩

theorem tblInv_init (loc : Byte → Prop) : TblInv loc [] (List.replicate 16 Ctx.zero) := by
  have : ∀ (j : Nat) x, (List.replicate 16 Ctx.zero)[j]? = some x → x = Ctx.zero := by
    intro j x hx
    exact List.eq_of_mem_replicate (List.mem_of_getElem? hx)
  refine ⟨by simp, ?_, ?_, ?_⟩
  · intro j k x y hx _ hx0; exact absurd (by rw [this j x hx]; rfl) hx0
  · intro j x hx hx0; exact absurd (by rw [this j x hx]; rfl) hx0
  · intro j x hx hx0; exact absurd (by rw [this j x hx]; rfl) hx0

theorem epInv_of {ops : Ops β} {c c0 : Core β} {b : Binding β} {eid : Byte} {rc : Int}
    (hc : c.ctxs = List.replicate 16 Ctx.zero) (h : c.registerBus ops b eid = .ok (c0, rc))
    (hrc : 0 ≤ rc) : EpInv eid [] c0 := by
  obtain ⟨id, m, bus, ha, rfl, h1, h2, h3⟩ := registerBus_ok h hrc
  exact ⟨rfl, by simp [h1], by simp only [hc]; exact tblInv_init _⟩

theorem Configured.epInv {ops : Ops β} {eid : Byte} {mx : Nat} {mem : Mem} {c0 : Core β}
    (h : Configured ops eid mx mem c0) : EpInv eid [] c0 := by
  obtain ⟨fill, c, b, rc, hi, hr, hrc⟩ := h
  obtain ⟨id, m, ha, rfl⟩ := init_ok hi
  exact epInv_of rfl hr hrc

theorem Registered.epInv {ops : Ops β} {eid : Byte} {mem : Mem} {c0 : Core β}
    (h : Registered ops eid mem c0) : EpInv eid [] c0 := by
  obtain ⟨fill, c, b, rc, hi, hr, hrc⟩ := h
  obtain ⟨id, m, ha, rfl⟩ := init_ok hi
  exact epInv_of rfl hr hrc

theorem memInv_of {ops : Ops β} {K : Contract ops} {c c0 : Core β} {b : Binding β} {eid : Byte} {rc : Int} {mem : Mem}
    {id : Nat} {m : Mem} (ha : mem.alloc = (some id, m)) (hcl : Clean mem)
    (hm : c.mem = m) (hself : c.self = id)
    (hc : c.ctxs = List.replicate 16 Ctx.zero) (h : c.registerBus ops b eid = .ok (c0, rc))
    (hrc : 0 ≤ rc) (hsz : SizesOk K c0) : MemInv K mem.live c0 := by
  have h0 : Owns mem mem.live := ⟨fun _ => rfl, hcl.fresh, hcl.nd⟩
  obtain ⟨m1, e1, o1, k1⟩ := h0.alloc hcl.ok
  rw [ha] at e1
  simp only [Prod.mk.injEq, Option.some.injEq] at e1
  obtain ⟨rfl, rfl⟩ := e1
  have hok1 : AllOk m := by intro n; rw [k1]; exact hcl.ok n
  obtain ⟨id2, m2, bus, ha2, rfl, h1, h2, h3⟩ := registerBus_ok h hrc
  obtain ⟨m3, e3, o3, k3⟩ := o1.alloc hok1
  rw [hm, e3] at ha2
  simp only [Prod.mk.injEq, Option.some.injEq] at ha2
  obtain ⟨rfl, rfl⟩ := ha2
  refine ⟨o3.congr fun i => ?_, by intro n; show m3.ok n = true; rw [k3]; exact hok1 n, ?_, rfl, by simp,
    ⟨_, rfl⟩, ?_, ?_, fun b hb => (hsz b hb).2.2⟩
  · have : ctxBufs (List.replicate 16 Ctx.zero) = [] := by decide
    simp only [owned, hc, this, queueIds, h2, hself, List.flatMap_cons, List.flatMap_nil, List.map_nil,
      Option.toList, List.count_append, List.count_cons, List.count_nil]
    omega
  · intro x hx
    simp only [hc] at hx
    rw [List.eq_of_mem_replicate hx]
    exact ⟨by simp [Ctx.zero], fun _ => rfl⟩
  · intro b hb hne
    simp only [List.mem_singleton] at hb
    subst hb
    exact ⟨h3 hne, (hsz _ (by simp)).1⟩
  · intro b hb
    simp only [List.mem_singleton] at hb
    subst hb
    exact ⟨(hsz _ (by simp)).2.1, by simp [h2]⟩

theorem Configured.memInv {ops : Ops β} {K : Contract ops} {eid : Byte} {mx : Nat} {mem : Mem} {c0 : Core β}
    (h : Configured ops eid mx mem c0) (hcl : Clean mem) (hsz : SizesOk K c0) :
    MemInv K mem.live c0 := by
  obtain ⟨fill, c, b, rc, hi, hr, hrc⟩ := h
  obtain ⟨id, m, ha, rfl⟩ := init_ok hi
  exact memInv_of ha hcl rfl rfl rfl hr hrc hsz

theorem Registered.memInv {ops : Ops β} {K : Contract ops} {eid : Byte} {mem : Mem} {c0 : Core β}
    (h : Registered ops eid mem c0) (hcl : Clean mem) (hsz : SizesOk K c0) :
    MemInv K mem.live c0 := by
  obtain ⟨fill, c, b, rc, hi, hr, hrc⟩ := h
  obtain ⟨id, m, ha, rfl⟩ := init_ok hi
  exact memInv_of ha hcl rfl rfl rfl hr hrc hsz

theorem Configured.flags {ops : Ops β} {eid : Byte} {mx : Nat} {mem : Mem} {c0 : Core β}
    (h : Configured ops eid mx mem c0) :
    c0.hasRx = true ∧ c0.maxSize = mx ∧ c0.ctxs = List.replicate 16 Ctx.zero := by
  obtain ⟨fill, c, b, rc, hi, hr, hrc⟩ := h
  obtain ⟨id, m, ha, rfl⟩ := init_ok hi
  obtain ⟨id2, m2, bus, ha2, rfl, -⟩ := registerBus_ok hr hrc
  exact ⟨rfl, rfl, rfl⟩

/-- Splitting a run at a record of its log. -/
theorem run_split {ops : Ops β} {pre : List (Rec β)} : ∀ {hist : List (Op β)} {c c' : Core β} {r : Rec β}
    {post : List (Rec β)}, c.run ops hist = .ok (c', pre ++ r :: post) →
    ∃ c1 c2 h1 h2, hist = h1 ++ r.op :: h2 ∧ c.run ops h1 = .ok (c1, pre) ∧
      c1.step ops r.op = .ok (c2, r.evs, r.rc) ∧ c2.run ops h2 = .ok (c', post) := by
  induction pre with
  | nil =>
    intro hist c c' r post h
    cases hist with
    | nil => simp [Core.run] at h
    | cons op rest =>
      simp only [Core.run] at h
      obtain ⟨⟨c1, e, rc⟩, hs, h⟩ := Res.bind_eq_ok.mp h
      obtain ⟨⟨c2, log2⟩, hr, h⟩ := Res.bind_eq_ok.mp h
      simp only [Except.ok.injEq, Prod.mk.injEq, List.nil_append, List.cons.injEq] at h
      obtain ⟨rfl, rfl, rfl⟩ := h
      exact ⟨c, c1, [], rest, rfl, rfl, hs, hr⟩
  | cons q pre ih =>
    intro hist c c' r post h
    cases hist with
    | nil => simp [Core.run] at h
    | cons op rest =>
      simp only [Core.run] at h
      obtain ⟨⟨c1, e, rc⟩, hs, h⟩ := Res.bind_eq_ok.mp h
      obtain ⟨⟨c2, log2⟩, hr, h⟩ := Res.bind_eq_ok.mp h
      simp only [Except.ok.injEq, Prod.mk.injEq, List.cons_append, List.cons.injEq] at h
      obtain ⟨rfl, rfl, rfl⟩ := h
      obtain ⟨c3, c4, h1, h2, rfl, g1, g2, g3⟩ := ih hr
      refine ⟨c3, c4, op :: h1, h2, rfl, ?_, g2, g3⟩
      simp only [Core.run, hs, Res.bind_ok, g1]

/-- Operations other than receiving do not touch the reassembly state and deliver nothing. -/
theorem step_frame {ops : Ops β} {c c' : Core β} {op : Op β} {e : List Event} {rc : Int}
    (hop : ∀ i bs, op ≠ .recv i bs) (h : c.step ops op = .ok (c', e, rc)) :
    (∀ x ∈ e, IsTxEvent x) ∧ ∃ m bs hr hc mx,
      c' = { c with mem := m, busses := bs, hasRx := hr, hasCapture := hc, maxSize := mx } ∧
      bs.map Bus.eid = c.busses.map Bus.eid ∧
      ((∀ n, op ≠ .setMax n) → mx = c.maxSize) ∧ ((∀ n, op ≠ .setRx n) → hr = c.hasRx) := by
  have frame : ∀ (m : Mem) (bs : List (Bus β)), bs.map Bus.eid = c.busses.map Bus.eid →
      ∃ m' bs' hr hc mx, ({ c with mem := m, busses := bs } : Core β) =
        { c with mem := m', busses := bs', hasRx := hr, hasCapture := hc, maxSize := mx } ∧
        bs'.map Bus.eid = c.busses.map Bus.eid ∧
        ((∀ n, op ≠ .setMax n) → mx = c.maxSize) ∧ ((∀ n, op ≠ .setRx n) → hr = c.hasRx) :=
    fun m bs hb => ⟨m, bs, _, _, _, rfl, hb, fun _ => rfl, fun _ => rfl⟩
  cases op with
  | recv i bs => exact absurd rfl (hop i bs)
  | send d to g msg =>
    simp only [Core.step, Core.messageTx] at h
    split at h
    · simp only [Except.ok.injEq, Prod.mk.injEq] at h
      obtain ⟨rfl, rfl, -⟩ := h
      exact ⟨by simp, frame c.mem _ rfl⟩
    · split at h
      · simp only [Except.ok.injEq, Prod.mk.injEq] at h
        obtain ⟨rfl, rfl, -⟩ := h
        exact ⟨by simp, frame c.mem _ rfl⟩
      · obtain ⟨bus, hbus, h⟩ := Res.bind_eq_ok.mp h
        obtain ⟨he, m, bs, rfl, hb⟩ := messageTxOnBus_ok h
        exact ⟨he, frame m bs hb⟩
  | enable i on =>
    simp only [Core.step, Core.setTxEnabled] at h
    obtain ⟨⟨c1, e1⟩, hs, h⟩ := Res.bind_eq_ok.mp h
    simp only [Except.ok.injEq, Prod.mk.injEq] at h
    obtain ⟨rfl, rfl, -⟩ := h
    obtain ⟨bus, hbus, hs⟩ := Res.bind_eq_ok.mp hs
    have hset : ∀ st, (c.busses.set i { bus with state := st }).map Bus.eid = c.busses.map Bus.eid :=
      fun st => map_set_eq (busAt_ok hbus).2.1 rfl
    split at hs
    · split at hs
      · simp only [Except.ok.injEq, Prod.mk.injEq] at hs
        obtain ⟨rfl, rfl⟩ := hs
        exact ⟨by simp, frame c.mem _ rfl⟩
      · split at hs
        · simp only [Except.ok.injEq, Prod.mk.injEq] at hs
          obtain ⟨rfl, rfl⟩ := hs
          exact ⟨by simp, frame c.mem _ rfl⟩
        · simp only [Except.ok.injEq, Prod.mk.injEq] at hs
          obtain ⟨rfl, rfl⟩ := hs
          exact ⟨by simp, frame c.mem _ (hset _)⟩
    · split at hs
      · simp only [Except.ok.injEq, Prod.mk.injEq] at hs
        obtain ⟨rfl, rfl⟩ := hs
        exact ⟨by simp, frame c.mem _ rfl⟩
      · simp only [Except.ok.injEq, Prod.mk.injEq] at hs
        obtain ⟨rfl, rfl⟩ := hs
        exact ⟨by simp, frame c.mem _ (hset _)⟩
    · split at hs
      · simp only [Except.ok.injEq, Prod.mk.injEq] at hs
        obtain ⟨rfl, rfl⟩ := hs
        exact ⟨by simp, frame c.mem _ rfl⟩
      · obtain ⟨he, m, bs, rfl, hb⟩ := sendTxQueue_ok hs
        exact ⟨he, frame m bs (hb.trans (hset _))⟩
  | setMax n =>
    simp only [Core.step, Except.ok.injEq, Prod.mk.injEq] at h
    obtain ⟨rfl, rfl, -⟩ := h
    exact ⟨by simp, c.mem, c.busses, _, _, n, rfl, rfl, fun h => absurd rfl (h n), fun _ => rfl⟩
  | setCapture n =>
    simp only [Core.step, Except.ok.injEq, Prod.mk.injEq] at h
    obtain ⟨rfl, rfl, -⟩ := h
    exact ⟨by simp, c.mem, c.busses, _, n, _, rfl, rfl, fun _ => rfl, fun _ => rfl⟩
  | setRx n =>
    simp only [Core.step, Except.ok.injEq, Prod.mk.injEq] at h
    obtain ⟨rfl, rfl, -⟩ := h
    exact ⟨by simp, c.mem, c.busses, n, _, _, rfl, rfl, fun _ => rfl, fun h => absurd rfl (h n)⟩
  | rebind i st ps ph pt cr =>
    simp only [Core.step] at h
    obtain ⟨bus, hbus, h⟩ := Res.bind_eq_ok.mp h
    simp only [Except.ok.injEq, Prod.mk.injEq] at h
    obtain ⟨rfl, rfl, -⟩ := h
    exact ⟨by simp, frame c.mem _ (map_set_eq (busAt_ok hbus).2.1 rfl)⟩

theorem isTx_not_delivered {e : List Event} (h : ∀ x ∈ e, IsTxEvent x) : deliveries e = [] := by
  unfold deliveries
  rw [List.filterMap_eq_nil_iff]
  intro x hx
  have := h x hx
  cases x <;> simp_all [IsTxEvent, delivered]

end Mctp
