import Verif.Proofs.Tx
import Verif.Proofs.Reassembly

/-! Memory safety of whole histories. -/

namespace Mctp

open Spec

variable {β : Type}

/-- Packet sizes a binding must have once it is started: at least the baseline unit, and the buffer
size does not overflow `size_t`. -/
structure BindOk (b : Binding β) : Prop where
  btu  : 68 ≤ b.pktSize
  wrap : b.pktSize + b.pktHeader + b.pktTrailer < 2 ^ 64

/-- What the core needs of a binding: an invariant `I` of the binding and `P` of the packets queued for
it, such that packets made for the binding satisfy `P`, and the transmit function does not fault on a
packet satisfying `P` and preserves both.  The transmit function is called only while transmission is enabled: it may
rely on `T`, which must hold when transmission is enabled and is kept up unless the transmit function disables
transmission.  (The serial binding, the astlpc binding of a BMC and a trivial binding are instances,
`Proofs/SerialEp.lean`, `Proofs/AstSafe.lean`, `Props/Demo.lean`.) -/
structure Contract (ops : Ops β) where
  I    : Binding β → Prop
  P    : Pktbuf → Prop
  T    : Binding β → Prop
  made : ∀ b p, I b → BindOk b → Made b p → P p
  tx   : ∀ b p, I b → T b → P p → ∃ out, ops.tx b p = .ok out ∧ I { b with st := out.st } ∧
           P { out.pkt with id := p.id } ∧ (out.disableTx = false → T { b with st := out.st })

/-- A transmit function that never faults on any packet needs no invariant. -/
def Contract.ofTotal {ops : Ops β} (h : ∀ b p, ∃ out, ops.tx b p = .ok out) : Contract ops where
  I := fun _ => True
  P := fun _ => True
  T := fun _ => True
  made := fun _ _ _ _ _ => trivial
  tx := fun b p _ _ _ => let ⟨out, ho⟩ := h b p; ⟨out, ho, trivial, trivial, fun _ => trivial⟩

theorem bodySize_eq {n : Nat} (h1 : 4 ≤ n) (h2 : n < 2 ^ 64) : bodySize n = n - 4 := by
  unfold bodySize sizeMod hdrSize; omega

theorem sendQueue_total {ops : Ops β} (K : Contract ops) {cap : Bool} {i : Nat} {q : List Pktbuf} :
    ∀ {m : Mem} {bus : Bus β} {o : List Nat}, Owns m (q.map Pktbuf.id ++ o) →
    K.I bus.binding → (bus.state = .txEnabled → K.T bus.binding) → (∀ p ∈ q, K.P p) →
    ∃ m' bus' e, sendQueue ops cap i m bus q = .ok (m', bus', e) ∧
      Owns m' (bus'.queue.map Pktbuf.id ++ o) ∧ m'.ok = m.ok ∧ K.I bus'.binding ∧
      (∀ p ∈ bus'.queue, K.P p) ∧ (bus'.state = .txEnabled → K.T bus'.binding) := by
  induction q with
  | nil =>
    intro m bus o ho hI hT _
    exact ⟨m, { bus with queue := [] }, [], rfl, ho, rfl, hI, by simp, hT⟩
  | cons p q ih =>
    intro m bus o ho hI hT hP
    unfold sendQueue
    split
    · exact ⟨_, _, _, rfl, ho, rfl, hI, hP, hT⟩
    · rename_i hen
      rw [ho.deref (by simp)]
      obtain ⟨out, hout, hI', hP', hT'⟩ := K.tx bus.binding p hI (hT (Decidable.not_not.mp hen)) (hP p (by simp))
      have hT2 : (if out.disableTx then BusState.txDisabled else .txEnabled) = .txEnabled →
          K.T { bus.binding with st := out.st } := by
        intro h
        cases hd : out.disableTx
        · exact hT' hd
        · rw [hd] at h; cases h
      simp only [Res.bind_ok, hout]
      split
      · have ho' : Owns m (p.id :: (q.map Pktbuf.id ++ o)) := ho
        obtain ⟨m1, h1, h2, h3⟩ := ho'.free
        simp only [pktbufFree, h1, Res.bind_ok]
        obtain ⟨m2, bus2, e2, r1, r2, r3, r4⟩ := ih (bus :=
          { bus with binding := { bus.binding with st := out.st },
                     state := if out.disableTx then .txDisabled else .txEnabled }) h2 hI' hT2
          (fun x hx => hP x (by simp [hx]))
        rw [r1]
        exact ⟨m2, bus2, _, rfl, r2, r3.trans h3, r4⟩
      · refine ⟨_, _, _, rfl, ho, rfl, hI', ?_, hT2⟩
        intro x hx
        rcases List.mem_cons.mp hx with rfl | hx
        · exact hP'
        · exact hP x (by simp [hx])

/-- The packets queued on all busses. -/
def queueIds (bs : List (Bus β)) : List Nat := bs.flatMap fun b => b.queue.map Pktbuf.id

theorem queueIds_set {bs : List (Bus β)} {k : Nat} {b b' : Bus β} (h : bs[k]? = some b) (i : Nat) :
    (queueIds (bs.set k b')).count i + (b.queue.map Pktbuf.id).count i =
      (queueIds bs).count i + (b'.queue.map Pktbuf.id).count i := by
  induction bs generalizing k with
  | nil => simp at h
  | cons z t ih =>
    cases k with
    | zero =>
      simp at h; subst h
      simp only [List.set_cons_zero, queueIds, List.flatMap_cons, List.count_append]; omega
    | succ k =>
      simp at h
      have := ih h
      simp only [List.set_cons_succ, queueIds, List.flatMap_cons, List.count_append] at this ⊢; omega

/-- What the core owns besides the caller's own allocations `base`. -/
def owned (c : Core β) : List Nat :=
  ctxBufs c.ctxs ++ (queueIds c.busses ++ (c.self :: c.bussesPtr.toList))

/-- Memory invariant of a registered core. -/
structure MemInv {ops : Ops β} (K : Contract ops) (base : List Nat) (c : Core β) : Prop where
  owns  : Owns c.mem (owned c ++ base)
  ok    : AllOk c.mem
  ctxs  : ∀ x ∈ c.ctxs, CtxOk x
  nb    : c.nBusses = c.busses.length
  pos   : 0 < c.nBusses
  ptr   : ∃ id, c.bussesPtr = some id
  bus   : ∀ b ∈ c.busses, b.state ≠ .constructed → BindOk b.binding
  inv   : ∀ b ∈ c.busses, K.I b.binding ∧ ∀ p ∈ b.queue, K.P p
  gate  : ∀ b ∈ c.busses, b.state = .txEnabled → K.T b.binding

theorem MemInv.setGate {ops : Ops β} {K : Contract ops} {base : List Nat} {c : Core β}
    (h : MemInv K base c) {i : Nat} {b' : Bus β} (hT : b'.state = .txEnabled → K.T b'.binding) :
    ∀ b ∈ c.busses.set i b', b.state = .txEnabled → K.T b.binding := by
  intro b hb
  rcases List.mem_or_eq_of_mem_set hb with hb | rfl
  · exact h.gate b hb
  · exact hT

theorem MemInv.setInv {ops : Ops β} {K : Contract ops} {base : List Nat} {c : Core β}
    (h : MemInv K base c) {i : Nat} {b' : Bus β} (hI : K.I b'.binding) (hP : ∀ p ∈ b'.queue, K.P p) :
    ∀ b ∈ c.busses.set i b', K.I b.binding ∧ ∀ p ∈ b.queue, K.P p := by
  intro b hb
  rcases List.mem_or_eq_of_mem_set hb with hb | rfl
  · exact h.inv b hb
  · exact ⟨hI, hP⟩

theorem MemInv.busAt {ops : Ops β} {K : Contract ops} {base : List Nat} {c : Core β} (h : MemInv K base c) {i : Nat}
    (hi : i < c.nBusses) : ∃ bus, c.busAt i = .ok bus ∧ c.busses[i]? = some bus ∧ bus ∈ c.busses := by
  obtain ⟨id, hid⟩ := h.ptr
  have hd : c.mem.deref c.bussesPtr = .ok () := by
    rw [hid]; exact h.owns.deref (by simp [owned, hid])
  have hl : i < c.busses.length := by rw [← h.nb]; exact hi
  refine ⟨c.busses[i], ?_, by simp [hl], List.getElem_mem hl⟩
  unfold Core.busAt
  rw [if_pos hi, hd]
  simp [hl]

theorem sendTxQueue_total {ops : Ops β} (K : Contract ops) {base : List Nat} {c : Core β}
    (h : MemInv K base c) {i : Nat} (hi : i < c.nBusses) :
    ∃ c' e, c.sendTxQueue ops i = .ok (c', e) ∧ MemInv K base c' ∧ c'.nBusses = c.nBusses := by
  obtain ⟨bus, hbus, hget, hmem⟩ := h.busAt hi
  have hsplit : Owns c.mem (bus.queue.map Pktbuf.id ++
      (queueIds (c.busses.set i { bus with queue := [] }) ++
        (ctxBufs c.ctxs ++ (c.self :: c.bussesPtr.toList) ++ base))) := by
    refine h.owns.congr fun j => ?_
    have := queueIds_set (b' := { bus with queue := [] }) hget j
    simp only [owned, List.count_append, List.map_nil, List.count_nil] at this ⊢
    omega
  obtain ⟨m', bus', e, h1, h2, h3, hI', hP', hT'⟩ := sendQueue_total K (cap := c.hasCapture) (i := i) (bus := bus) hsplit
    (h.inv bus hmem).1 (h.gate bus hmem) (h.inv bus hmem).2
  unfold Core.sendTxQueue
  rw [hbus]
  simp only [Res.bind_ok, h1]
  obtain ⟨hb1, ⟨st, hb2⟩, hb3⟩ := sendQueue_bus h1
  refine ⟨_, _, rfl, ⟨?_, ?_, h.ctxs, ?_, h.pos, h.ptr, ?_, h.setInv hI' hP', h.setGate hT'⟩, rfl⟩
  · refine h2.congr fun j => ?_
    have e1 := queueIds_set (b' := { bus with queue := [] }) hget j
    have e2 := queueIds_set (b' := bus') hget j
    simp only [owned, Core.setBus, List.count_append, List.map_nil, List.count_nil] at e1 e2 ⊢
    omega
  · intro n; simp only [Core.setBus]; rw [h3]; exact h.ok n
  · simp only [Core.setBus, List.length_set]; exact h.nb
  · intro b hb hst
    simp only [Core.setBus] at hb
    rcases List.mem_or_eq_of_mem_set hb with hb | rfl
    · exact h.bus b hb hst
    · have := h.bus bus hmem (fun hc => hst (hb3.mp hc))
      rw [hb2]; exact ⟨this.btu, this.wrap⟩

theorem messageTxOnBus_total {ops : Ops β} (K : Contract ops) {base : List Nat} {c : Core β}
    (h : MemInv K base c) {i : Nat} (hi : i < c.nBusses) (s d : Byte) (to : Bool) (g : Byte)
    (msg : List Byte) :
    ∃ c' e rc, c.messageTxOnBus ops i s d to g msg = .ok (c', e, rc) ∧ MemInv K base c' ∧
      c'.nBusses = c.nBusses := by
  obtain ⟨bus, hbus, hget, hmem⟩ := h.busAt hi
  unfold Core.messageTxOnBus
  rw [hbus]
  simp only [Res.bind_ok]
  split
  · exact ⟨_, _, _, rfl, h, rfl⟩
  · rename_i hst
    split
    · exact ⟨_, _, _, rfl, h, rfl⟩
    · have hbo := h.bus bus hmem hst
      have hbs : bodySize bus.binding.pktSize = bus.binding.pktSize - 4 :=
        bodySize_eq (by have := hbo.btu; omega) (by have := hbo.wrap; omega)
      rw [hbs, if_neg (by simp only [btu]; have := hbo.btu; omega)]
      obtain ⟨m', ps, h1, h2, h3, hmd⟩ := txLoop_total (fill := c.fill) (b := bus.binding) (src := s)
        (dest := d) (to := to) (tag := g) (mtu := bus.binding.pktSize - 4) (msg := msg)
        (by have := hbo.btu; omega) (by have := hbo.btu; omega) (fuel := msg.length) (p := 0) (i := 0)
        (q := bus.queue) (by omega) h.owns h.ok
      rw [h1]
      simp only [Res.bind_ok]
      have hinv : MemInv K base (({ c with mem := m' } : Core β).setBus i { bus with queue := bus.queue ++ ps }) := by
        refine ⟨?_, ?_, h.ctxs, ?_, h.pos, h.ptr, ?_, h.setInv (h.inv bus hmem).1 ?_, h.setGate (h.gate bus hmem)⟩
        rotate_left 4
        · intro x hx
          rcases List.mem_append.mp hx with hx | hx
          · exact (h.inv bus hmem).2 x hx
          · exact K.made _ _ (h.inv bus hmem).1 hbo (hmd x hx)
        · refine h2.congr fun j => ?_
          have e2 := queueIds_set (b' := { bus with queue := bus.queue ++ ps }) hget j
          simp only [owned, Core.setBus, List.count_append, List.map_append] at e2 ⊢
          omega
        · intro n; simp only [Core.setBus]; rw [h3]; exact h.ok n
        · simp only [Core.setBus, List.length_set]; exact h.nb
        · intro b hb hst
          simp only [Core.setBus] at hb
          rcases List.mem_or_eq_of_mem_set hb with hb | rfl
          · exact h.bus b hb hst
          · exact hbo
      obtain ⟨c', e, r1, r2, r3⟩ := sendTxQueue_total K hinv (i := i) hi
      rw [r1]
      exact ⟨c', e, 0, rfl, r2, r3⟩

theorem bridgeLoop_total {ops : Ops β} (K : Contract ops) {base : List Nat} {n : Nat} (s d : Byte)
    (to : Bool) (g : Byte) (msg : List Byte) {js : List Nat} :
    ∀ {c : Core β}, MemInv K base c → (∀ j ∈ js, j < c.nBusses) →
    ∃ c' e, bridgeLoop ops n s d to g msg js c = .ok (c', e) ∧ MemInv K base c' ∧
      c'.nBusses = c.nBusses := by
  induction js with
  | nil => intro c h _; exact ⟨c, [], rfl, h, rfl⟩
  | cons j js ih =>
    intro c h hj
    unfold bridgeLoop
    split
    · exact ih h fun k hk => hj k (by simp [hk])
    · obtain ⟨c1, e1, rc1, h1, h2, h3⟩ := messageTxOnBus_total K h (hj j (by simp)) s d to g msg
      rw [h1]
      simp only [Res.bind_ok]
      obtain ⟨c2, e2, r1, r2, r3⟩ := ih h2 fun k hk => by rw [h3]; exact hj k (by simp [hk])
      rw [r1]
      exact ⟨c2, _, rfl, r2, r3.trans h3⟩

theorem rx_total {ops : Ops β} (K : Contract ops) {base : List Nat} {c : Core β}
    (h : MemInv K base c) (i : Nat) (bus : Bus β) (s d : Byte) (to : Bool) (g : Byte)
    (msg : List Byte) :
    ∃ c' e, c.rx ops i bus s d to g msg = .ok (c', e) ∧ MemInv K base c' ∧ c'.nBusses = c.nBusses := by
  cases hb : c.bridge with
  | false => rw [rx_endpoint ops hb]; exact ⟨_, _, rfl, h, rfl⟩
  | true =>
    unfold Core.rx; rw [if_pos hb]
    exact bridgeLoop_total K s d to g msg h (by simp)

/-- A received packet that fits is put into a buffer of its own. -/
theorem recvBuf {m m1 : Mem} {id : Nat} {fill : Nat → Byte} (ha : m.alloc = (some id, m1))
    {ps ph pt : Nat} {bs : List Byte} (hfit : bs.length ≤ ps + pt) :
    ∃ p X, pktbufAlloc m fill ps ph pt bs.length = (some p, m1) ∧ p.write p.hdrOff bs = .ok X ∧
      PktIs X bs ∧ X.id = id := by
  have hal : pktbufAlloc m fill ps ph pt bs.length =
      (some { id := id, size := ps + ph + pt, start := ph, «end» := ph + bs.length, hdrOff := ph,
              data := (List.range (ps + ph + pt)).map fill }, m1) := by
    unfold pktbufAlloc
    simp only [ha]
    rw [if_neg (by omega)]
  refine ⟨_, _, hal, write_eq (by simp; omega), ?_, rfl⟩
  exact pktIs_of_write rfl rfl (write_eq (by simp; omega))

/-- A binding allocates a packet buffer (or anything else). -/
theorem MemInv.alloc {ops : Ops β} {K : Contract ops} {base : List Nat} {c : Core β}
    (h : MemInv K base c) {id : Nat} {m : Mem} (ha : c.mem.alloc = (some id, m)) :
    MemInv K (id :: base) { c with mem := m } := by
  obtain ⟨m1, h1, h2, h3⟩ := h.owns.alloc h.ok
  rw [ha] at h1
  simp only [Prod.mk.injEq, Option.some.injEq] at h1
  obtain ⟨rfl, rfl⟩ := h1
  refine ⟨?_, ?_, h.ctxs, h.nb, h.pos, h.ptr, h.bus, h.inv, h.gate⟩
  · refine h2.congr fun j => ?_
    simp only [owned, List.count_append, List.count_cons]; omega
  · intro n; simp only; rw [h3]; exact h.ok n

/-- Delivering a packet buffer to the core never faults, and the buffer is released. -/
theorem busRx_total {ops : Ops β} (K : Contract ops) {base : List Nat} {c : Core β} {X : Pktbuf}
    {bs : List Byte} (h : MemInv K (X.id :: base) c) (hpk : PktIs X bs) {i : Nat}
    (hi : i < c.nBusses) :
    ∃ c' e, c.busRx ops i X = .ok (c', e) ∧ MemInv K base c' ∧ c'.nBusses = c.nBusses := by
  have hfin : ∀ c1 : Core β, MemInv K (X.id :: base) c1 → c1.nBusses = c.nBusses →
      ∃ m, c1.mem.free (some X.id) = .ok m ∧ MemInv K base { c1 with mem := m } := by
    intro c1 hc1 _
    have ho : Owns c1.mem (X.id :: (owned c1 ++ base)) := hc1.owns.congr fun j => by
      simp only [List.count_append, List.count_cons]; omega
    obtain ⟨m, r1, r2, r3⟩ := ho.free
    exact ⟨m, r1, r2, fun n => by simp only; rw [r3]; exact hc1.ok n, hc1.ctxs, hc1.nb, hc1.pos,
      hc1.ptr, hc1.bus, hc1.inv, hc1.gate⟩
  unfold Core.busRx
  rw [if_neg (by omega)]
  obtain ⟨bus2, hbus2, hget2, -⟩ := h.busAt (i := i) hi
  rw [hbus2, h.owns.deref (by simp [owned])]
  simp only [Res.bind_ok, pktbufFree]
  rw [hpk.len]
  split
  · obtain ⟨m, r1, r2⟩ := hfin _ h rfl
    rw [r1]
    exact ⟨_, _, rfl, r2, rfl⟩
  · rename_i hlen
    cases hf : parse bs with
    | none => exact absurd (parse_none.mp hf) hlen
    | some f =>
      rw [busRxBody_parse ops _ i bus2 hpk hf]
      have hbody : ∃ c1 e1,
          (if c.bridge = false ∧ ¬ Local bus2.eid f.dest then
              (.ok (c, []) : Res (Core β × List Event))
            else if f.single then
              c.rx ops i bus2 f.src f.dest f.tagOwner (BitVec.ofNat 8 f.tag) f.payload
            else c.rxFrag ops i bus2 X f.src f.dest (BitVec.ofNat 8 f.tag)
              (BitVec.ofNat 8 f.seq) f.tagOwner f.som f.eom) = .ok (c1, e1) ∧
          MemInv K (X.id :: base) c1 ∧ c1.nBusses = c.nBusses := by
        split
        · exact ⟨_, _, rfl, h, rfl⟩
        · split
          · exact rx_total K h ..
          · unfold Core.rxFrag
            have hoct : Owns c.mem (ctxBufs c.ctxs ++ (queueIds c.busses ++ (c.self :: c.bussesPtr.toList) ++ (X.id :: base))) :=
              h.owns.congr fun j => by
                simp only [owned, List.count_append]; omega
            obtain ⟨m', t', out, r1, r2, r3, r4, r5⟩ := ctxRx_total (mx := c.maxSize) hoct h.ok h.ctxs hpk
              (by simp only [hdrSize] at hlen; omega) f.src f.dest (BitVec.ofNat 8 f.tag) (BitVec.ofNat 8 f.seq) f.som f.eom
            simp only [r1, Res.bind_ok]
            have hinv2 : MemInv K (X.id :: base) ({ c with mem := m', ctxs := t' } : Core β) := by
              refine ⟨?_, ?_, r4, h.nb, h.pos, h.ptr, h.bus, h.inv, h.gate⟩
              · refine r2.congr fun j => ?_
                simp only [owned, List.count_append]; omega
              · intro n; simp only; rw [r3]; exact h.ok n
            cases out with
            | none => exact ⟨_, _, rfl, hinv2, rfl⟩
            | some msg => exact rx_total K hinv2 ..
      obtain ⟨c1, e1, b1, b2, b3⟩ := hbody
      obtain ⟨m, r1, r2⟩ := hfin c1 b2 b3
      rw [b1]
      simp only [Res.bind_ok, r1]
      exact ⟨_, _, rfl, r2, b3⟩

/-- Receiving a packet that fits the binding's buffer never faults. -/
theorem rxPacket_total {ops : Ops β} (K : Contract ops) {base : List Nat} {c : Core β}
    (h : MemInv K base c) {i : Nat} {bus : Bus β} (hget : c.busses[i]? = some bus) {bs : List Byte}
    (hfit : bs.length ≤ bus.binding.pktSize + bus.binding.pktTrailer) :
    ∃ c' e, c.rxPacket ops i bs = .ok (c', e) ∧ MemInv K base c' ∧ c'.nBusses = c.nBusses := by
  have hi : i < c.nBusses := by rw [h.nb]; exact (List.getElem?_eq_some_iff.mp hget).1
  obtain ⟨bus', hbus, hget', hmem⟩ := h.busAt hi
  have : bus' = bus := by rw [hget] at hget'; simpa using hget'.symm
  subst this
  obtain ⟨m1, h1, h2, h3⟩ := h.owns.alloc h.ok
  unfold Core.rxPacket
  rw [hbus]
  simp only [Res.bind_ok]
  obtain ⟨p0, X, hpa, hwr, hpk, hXid⟩ := recvBuf (fill := c.fill) h1 (ph := bus'.binding.pktHeader) hfit
  rw [hpa]
  simp only [hwr, Res.bind_ok]
  have hinv1 : MemInv K (X.id :: base) ({ c with mem := m1 } : Core β) := h.alloc (by rw [hXid]; exact h1)
  exact busRx_total K hinv1 hpk hi

/-- The preconditions of an API call in state `c`: the bus exists, a received packet fits the binding's
packet buffer, and a binding keeps valid packet sizes and its invariant, and enables transmission only when it can
transmit. -/
def OpOk {ops : Ops β} (K : Contract ops) (c : Core β) : Op β → Prop
  | .recv i bs => ∃ bus, c.busses[i]? = some bus ∧
      bs.length ≤ bus.binding.pktSize + bus.binding.pktTrailer
  | .enable i on => ∃ bus, c.busses[i]? = some bus ∧
      bus.binding.pktSize + bus.binding.pktHeader + bus.binding.pktTrailer < 2 ^ 64 ∧
      (on = true → K.T bus.binding)
  | .rebind i st ps ph pt cr => ∃ bus, c.busses[i]? = some bus ∧ 68 ≤ ps ∧ ps + ph + pt < 2 ^ 64 ∧
      K.I { bus.binding with st := st, pktSize := ps, pktHeader := ph, pktTrailer := pt,
                             controlRx := cr } ∧
      (bus.state = .txEnabled →
        K.T { bus.binding with st := st, pktSize := ps, pktHeader := ph, pktTrailer := pt, controlRx := cr })
  | _ => True

/-- No API call faults when its preconditions hold. -/
theorem step_total {ops : Ops β} (K : Contract ops) {base : List Nat} {c : Core β}
    (h : MemInv K base c) {op : Op β} (hop : OpOk K c op) :
    ∃ c' e rc, c.step ops op = .ok (c', e, rc) ∧ MemInv K base c' := by
  cases op with
  | recv i bs =>
    obtain ⟨bus, hget, hfit⟩ := hop
    obtain ⟨c', e, h1, h2, -⟩ := rxPacket_total K h hget hfit
    exact ⟨c', e, 0, by simp only [Core.step, h1, Res.bind_ok], h2⟩
  | send d to g msg =>
    simp only [Core.step, Core.messageTx]
    split
    · exact ⟨_, _, _, rfl, h⟩
    · rw [if_neg (by have := h.pos; omega)]
      obtain ⟨bus, hbus, -, -⟩ := h.busAt h.pos
      rw [hbus]
      simp only [Res.bind_ok]
      obtain ⟨c', e, rc, h1, h2, -⟩ := messageTxOnBus_total K h h.pos bus.eid d to g msg
      exact ⟨c', e, rc, h1, h2⟩
  | enable i on =>
    obtain ⟨bus0, hget0, hwrap, hTon⟩ := hop
    have hi : i < c.nBusses := by rw [h.nb]; exact (List.getElem?_eq_some_iff.mp hget0).1
    obtain ⟨bus, hbus, hget, hmem⟩ := h.busAt hi
    have : bus = bus0 := by rw [hget0] at hget; simpa using hget.symm
    subst this
    have hset : ∀ st, (st ≠ BusState.constructed → BindOk bus.binding) → (st = .txEnabled → K.T bus.binding) →
        MemInv K base (c.setBus i { bus with state := st }) := by
      intro st hst hTst
      refine ⟨?_, h.ok, h.ctxs, ?_, h.pos, h.ptr, ?_, h.setInv (h.inv bus hmem).1 (h.inv bus hmem).2, h.setGate hTst⟩
      · refine h.owns.congr fun j => ?_
        have e2 := queueIds_set (b' := { bus with state := st }) hget j
        simp only [owned, Core.setBus, List.count_append] at e2 ⊢
        omega
      · simp only [Core.setBus, List.length_set]; exact h.nb
      · intro b hb hne
        simp only [Core.setBus] at hb
        rcases List.mem_or_eq_of_mem_set hb with hb | rfl
        · exact h.bus b hb hne
        · exact hst hne
    simp only [Core.step, Core.setTxEnabled, hbus, Res.bind_ok]
    split
    · split
      · exact ⟨_, _, _, rfl, h⟩
      · split
        · exact ⟨_, _, _, rfl, h⟩
        · rename_i hsz
          exact ⟨_, _, _, rfl, hset _ (fun _ => ⟨by simp only [packetSize, hdrSize, btu] at hsz; omega, hwrap⟩) (fun _ => hTon (by simp_all))⟩
    · rename_i hst
      split
      · exact ⟨_, _, _, rfl, h⟩
      · exact ⟨_, _, _, rfl, hset _ (fun _ => h.bus bus hmem (by rw [hst]; simp)) (by simp)⟩
    · rename_i hst
      split
      · exact ⟨_, _, _, rfl, h⟩
      · have := hset .txEnabled (fun _ => h.bus bus hmem (by rw [hst]; simp)) (fun _ => hTon (by simp_all))
        obtain ⟨c', e, r1, r2, -⟩ := sendTxQueue_total K this (i := i) hi
        rw [r1]
        exact ⟨c', e, 0, rfl, r2⟩
  | setMax n => exact ⟨_, _, _, rfl, ⟨h.owns, h.ok, h.ctxs, h.nb, h.pos, h.ptr, h.bus, h.inv, h.gate⟩⟩
  | setCapture n => exact ⟨_, _, _, rfl, ⟨h.owns, h.ok, h.ctxs, h.nb, h.pos, h.ptr, h.bus, h.inv, h.gate⟩⟩
  | setRx n => exact ⟨_, _, _, rfl, ⟨h.owns, h.ok, h.ctxs, h.nb, h.pos, h.ptr, h.bus, h.inv, h.gate⟩⟩
  | rebind i st ps ph pt cr =>
    obtain ⟨bus0, hget0, h68, hwr, hKI, hKT⟩ := hop
    have hi := (List.getElem?_eq_some_iff.mp hget0).1
    obtain ⟨bus, hbus, hget, hmem⟩ := h.busAt (i := i) (by rw [h.nb]; exact hi)
    have : bus0 = bus := by rw [hget0] at hget; simpa using hget
    subst this
    simp only [Core.step, hbus, Res.bind_ok]
    refine ⟨_, _, _, rfl, ⟨?_, h.ok, h.ctxs, ?_, h.pos, h.ptr, ?_, h.setInv hKI (h.inv _ hmem).2, h.setGate hKT⟩⟩
    · refine h.owns.congr fun j => ?_
      have e2 := fun b' => queueIds_set (b' := b') hget j
      have e3 := e2 { bus0 with binding := { bus0.binding with st := st, pktSize := ps, pktHeader := ph, pktTrailer := pt, controlRx := cr } }
      simp only [owned, Core.setBus, List.count_append] at e3 ⊢
      omega
    · simp only [Core.setBus, List.length_set]; exact h.nb
    · intro b hb hne
      simp only [Core.setBus] at hb
      rcases List.mem_or_eq_of_mem_set hb with hb | rfl
      · exact h.bus b hb hne
      · exact ⟨h68, hwr⟩

/-- Each call of the history meets its preconditions in the state in which it is made. -/
def HistOk {ops : Ops β} (K : Contract ops) : Core β → List (Op β) → Prop
  | _, [] => True
  | c, op :: rest => OpOk K c op ∧ ∀ c' e rc, c.step ops op = .ok (c', e, rc) → HistOk K c' rest

theorem run_total {ops : Ops β} (K : Contract ops) {base : List Nat} {hist : List (Op β)} :
    ∀ {c : Core β}, MemInv K base c → HistOk K c hist →
    ∃ c' log, c.run ops hist = .ok (c', log) ∧ MemInv K base c' := by
  induction hist with
  | nil => intro c h _; exact ⟨c, [], rfl, h⟩
  | cons op rest ih =>
    intro c h hv
    obtain ⟨c1, e, rc, h1, h2⟩ := step_total K h hv.1
    obtain ⟨c2, log, r1, r2⟩ := ih h2 (hv.2 c1 e rc h1)
    exact ⟨c2, { op := op, evs := e, rc := rc } :: log, by simp only [Core.run, h1, Res.bind_ok, r1], r2⟩

/-! ## Destruction -/

theorem freeQueue_total {q : List Pktbuf} : ∀ {m : Mem} {o : List Nat},
    Owns m (q.map Pktbuf.id ++ o) → ∃ m', freeQueue m q = .ok m' ∧ Owns m' o := by
  induction q with
  | nil => intro m o h; exact ⟨m, rfl, h⟩
  | cons p q ih =>
    intro m o h
    have h' : Owns m (p.id :: (q.map Pktbuf.id ++ o)) := h
    obtain ⟨m1, h1, h2, -⟩ := h'.free
    obtain ⟨m2, r1, r2⟩ := ih h2
    exact ⟨m2, by simp only [freeQueue, pktbufFree, h1, Res.bind_ok, r1], r2⟩

theorem freeBusses_total {bs : List (Bus β)} : ∀ {m : Mem} {o : List Nat},
    Owns m (queueIds bs ++ o) → ∃ m', freeBusses m bs = .ok m' ∧ Owns m' o := by
  induction bs with
  | nil => intro m o h; exact ⟨m, rfl, h⟩
  | cons b bs ih =>
    intro m o h
    have h' : Owns m (b.queue.map Pktbuf.id ++ (queueIds bs ++ o)) := h.congr fun j => by
      simp [queueIds]
    obtain ⟨m1, h1, h2⟩ := freeQueue_total h'
    obtain ⟨m2, r1, r2⟩ := ih h2
    exact ⟨m2, by simp only [freeBusses, h1, Res.bind_ok, r1], r2⟩

theorem freeCtxs_total {t : List Ctx} : ∀ {m : Mem} {o : List Nat},
    Owns m (ctxBufs t ++ o) → ∃ m', freeCtxs m t = .ok m' ∧ Owns m' o := by
  induction t with
  | nil => intro m o h; exact ⟨m, rfl, h⟩
  | cons x t ih =>
    intro m o h
    unfold freeCtxs
    cases hb : x.buf with
    | none =>
      have h' : Owns m (ctxBufs t ++ o) := by simpa [ctxBufs, hb] using h
      obtain ⟨m2, r1, r2⟩ := ih h'
      exact ⟨m2, by simp [Res.bind_ok, r1], r2⟩
    | some i =>
      have h' : Owns m (i :: (ctxBufs t ++ o)) := by simpa [ctxBufs, hb] using h
      obtain ⟨m1, h1, h2, -⟩ := h'.free
      obtain ⟨m2, r1, r2⟩ := ih h2
      exact ⟨m2, by simp [h1, Res.bind_ok, r1], r2⟩

theorem queueIds_reverse_count (bs : List (Bus β)) (i : Nat) :
    (queueIds bs.reverse).count i = (queueIds bs).count i := by
  induction bs with
  | nil => rfl
  | cons b bs ih =>
    simp only [queueIds, List.reverse_cons, List.flatMap_append, List.flatMap_cons, List.flatMap_nil,
      List.count_append, List.append_nil] at ih ⊢
    omega

/-- Destroying the core releases everything it owns, and nothing else. -/
theorem destroy_total {base : List Nat} {c : Core β} (h : MemInv K base c) :
    ∃ m, c.destroy = .ok m ∧ Owns m base := by
  have h0 : Owns c.mem (ctxBufs c.ctxs ++ (queueIds c.busses.reverse ++ (c.self :: c.bussesPtr.toList ++ base))) :=
    h.owns.congr fun j => by
      have := queueIds_reverse_count c.busses j
      simp only [owned, List.count_append]; omega
  obtain ⟨m1, h1, h2⟩ := freeCtxs_total h0
  obtain ⟨id, hid⟩ := h.ptr
  unfold Core.destroy
  rw [h1]
  simp only [Res.bind_ok]
  rw [if_pos h.pos, hid, h2.deref (by simp [hid])]
  simp only [Res.bind_ok]
  rw [List.take_of_length_le (by rw [h.nb]; exact Nat.le_refl _)]
  obtain ⟨m2, h3, h4⟩ := freeBusses_total h2
  rw [h3]
  simp only [Res.bind_ok]
  have h5 : Owns m2 (id :: c.self :: base) := h4.congr fun j => by
    simp [hid, List.count_cons]; omega
  obtain ⟨m3, h6, h7, -⟩ := h5.free
  rw [h6]
  simp only [Res.bind_ok]
  obtain ⟨m4, h8, h9, -⟩ := h7.free
  exact ⟨m4, h8, h9⟩

end Mctp
