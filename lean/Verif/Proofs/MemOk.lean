import Verif.Proofs.LinkStep

/-! Which allocations succeed is a given of the execution: no call changes it. -/

namespace Mctp

open Spec

variable {β E : Type}

theorem Mem.alloc_memOk (m : Mem) : m.alloc.2.ok = m.ok := by
  unfold Mem.alloc; split <;> rfl

theorem Mem.free_memOk {m m' : Mem} {p : Option Nat} (h : m.free p = .ok m') : m'.ok = m.ok := by
  unfold Mem.free at h
  split at h
  · cases h; rfl
  · split at h
    · cases h; rfl
    · cases h

theorem Mem.realloc_memOk {m : Mem} {p : Option Nat} {r : Option Nat × Mem} (h : m.realloc p = .ok r) : r.2.ok = m.ok := by
  unfold Mem.realloc at h
  split at h
  · cases h; exact m.alloc_memOk
  · split at h
    · split at h <;> cases h <;> rfl
    · cases h

theorem pktbufAlloc_memOk (m : Mem) (fill : Nat → Byte) (a b d l : Nat) : (pktbufAlloc m fill a b d l).2.ok = m.ok := by
  unfold pktbufAlloc
  simp only
  split
  · rfl
  · have := m.alloc_memOk
    split <;> rename_i h <;> rw [h] at this <;> exact this

theorem pktbufFree_memOk {m m' : Mem} {p : Pktbuf} (h : pktbufFree m p = .ok m') : m'.ok = m.ok := Mem.free_memOk h

theorem ctxAddPkt_memOk {m : Mem} {x : Ctx} {pkt : Pktbuf} {mx : Nat} {r : Mem × Ctx × Bool} (h : ctxAddPkt m x pkt mx = .ok r) :
    r.1.ok = m.ok := by
  unfold ctxAddPkt at h
  simp only at h
  split at h
  · cases h; rfl
  · split at h
    · split at h
      · cases h; rfl
      · split at h
        · cases h
        · rename_i b mem1 hr
          have := Mem.realloc_memOk hr
          split at h
          · cases h
          · cases h; exact this
        · rename_i mem1 hr
          have := Mem.realloc_memOk hr
          split at h
          · cases h
          · rename_i m2 hf
            cases h; exact (Mem.free_memOk hf).trans this
    · split at h
      · cases h
      · cases h; rfl

theorem sendQueue_memOk {ops : Ops β} {cap : Bool} {i : Nat} {q : List Pktbuf} : ∀ {m : Mem} {bus : Bus β} {r : Mem × Bus β × List Event},
    sendQueue ops cap i m bus q = .ok r → r.1.ok = m.ok := by
  induction q with
  | nil => intro m bus r h; simp only [sendQueue, Except.ok.injEq] at h; subst h; rfl
  | cons p rest ih =>
    intro m bus r h
    simp only [sendQueue] at h
    split at h
    · cases h; rfl
    · obtain ⟨-, -, h⟩ := Res.bind_eq_ok.mp h
      obtain ⟨out, -, h⟩ := Res.bind_eq_ok.mp h
      split at h
      · obtain ⟨m1, hf, h⟩ := Res.bind_eq_ok.mp h
        obtain ⟨⟨m2, b2, e2⟩, hs, h⟩ := Res.bind_eq_ok.mp h
        cases h
        exact (ih hs).trans (pktbufFree_memOk hf)
      · cases h; rfl

theorem sendTxQueue_memOk {ops : Ops β} {c : Core β} {i : Nat} {r : Core β × List Event} (h : c.sendTxQueue ops i = .ok r) :
    r.1.mem.ok = c.mem.ok := by
  unfold Core.sendTxQueue at h
  obtain ⟨bus, -, h⟩ := Res.bind_eq_ok.mp h
  obtain ⟨⟨m2, b2, e2⟩, hs, h⟩ := Res.bind_eq_ok.mp h
  cases h
  exact sendQueue_memOk hs

theorem setTxEnabled_memOk {ops : Ops β} {c : Core β} {i : Nat} {on : Bool} {r : Core β × List Event} (h : c.setTxEnabled ops i on = .ok r) :
    r.1.mem.ok = c.mem.ok := by
  unfold Core.setTxEnabled at h
  obtain ⟨bus, -, h⟩ := Res.bind_eq_ok.mp h
  split at h
  · split at h
    · cases h; rfl
    · split at h <;> cases h <;> rfl
  · split at h <;> cases h <;> rfl
  · split at h
    · cases h; rfl
    · have := sendTxQueue_memOk h; exact this

theorem txLoop_memOk {fill : Nat → Byte} {b : Binding β} {src dest : Byte} {o : Bool} {tag : Byte} {mp : Nat} {msg : List Byte} :
    ∀ {n p i : Nat} {m : Mem} {q : List Pktbuf} {r : Mem × List Pktbuf}, txLoop fill b src dest o tag mp msg n p i m q = .ok r → r.1.ok = m.ok := by
  intro n
  induction n with
  | zero =>
    intro p i m q r h
    unfold txLoop at h
    split at h
    · cases h
    · cases h; rfl
  | succ n ih =>
    intro p i m q r h
    unfold txLoop at h
    split at h
    · simp only at h
      split at h
      · cases h
      · rename_i pkt m' ha
        have := pktbufAlloc_memOk m fill b.pktSize b.pktHeader b.pktTrailer ((if msg.length - p > mp then mp else msg.length - p) + hdrSize)
        rw [ha] at this
        split at h
        · cases h
        · split at h
          · cases h
          · exact (ih h).trans this
    · cases h; rfl

theorem messageTxOnBus_memOk {ops : Ops β} {c : Core β} {i : Nat} {src dest : Byte} {o : Bool} {tag : Byte} {msg : List Byte}
    {r : Core β × List Event × Int} (h : c.messageTxOnBus ops i src dest o tag msg = .ok r) : r.1.mem.ok = c.mem.ok := by
  unfold Core.messageTxOnBus at h
  obtain ⟨bus, -, h⟩ := Res.bind_eq_ok.mp h
  split at h
  · cases h; rfl
  · split at h
    · cases h; rfl
    · simp only at h
      split at h
      · cases h
      · obtain ⟨⟨m, q⟩, hl, h⟩ := Res.bind_eq_ok.mp h
        obtain ⟨⟨c2, e⟩, hs, h⟩ := Res.bind_eq_ok.mp h
        cases h
        have := sendTxQueue_memOk hs
        exact this.trans (txLoop_memOk hl)

theorem bridgeLoop_memOk {ops : Ops β} {i : Nat} {src dest : Byte} {o : Bool} {tag : Byte} {msg : List Byte} {js : List Nat} :
    ∀ {c : Core β} {r : Core β × List Event}, bridgeLoop ops i src dest o tag msg js c = .ok r → r.1.mem.ok = c.mem.ok := by
  induction js with
  | nil => intro c r h; simp only [bridgeLoop, Except.ok.injEq] at h; subst h; rfl
  | cons j js ih =>
    intro c r h
    simp only [bridgeLoop] at h
    split at h
    · exact ih h
    · obtain ⟨⟨c1, e1, rc⟩, h1, h⟩ := Res.bind_eq_ok.mp h
      obtain ⟨⟨c2, e2⟩, h2, h⟩ := Res.bind_eq_ok.mp h
      cases h
      exact (ih h2).trans (messageTxOnBus_memOk h1)

theorem rx_memOk {ops : Ops β} {c : Core β} {i : Nat} {bus : Bus β} {src dest : Byte} {o : Bool} {tag : Byte} {msg : List Byte}
    {r : Core β × List Event} (h : c.rx ops i bus src dest o tag msg = .ok r) : r.1.mem.ok = c.mem.ok := by
  unfold Core.rx at h
  split at h
  · exact bridgeLoop_memOk h
  · split at h
    · split at h
      · cases h; rfl
      · split at h <;> cases h <;> rfl
    · cases h; rfl

theorem rxSom_memOk {c c' : Core β} {pkt : Pktbuf} {src dest tag seq : Byte} (h : c.rxSom pkt src dest tag seq = .ok c') :
    c'.mem.ok = c.mem.ok := by
  unfold Core.rxSom at h
  simp only at h
  generalize (match ctxLookup c.ctxs src dest tag with
    | some k => some (k, c.ctxs.modify k Ctx.reset)
    | none => ctxCreate c.ctxs src dest tag) = sl at h
  split at h
  · cases h; rfl
  · split at h
    · cases h
    · obtain ⟨⟨m, x', ok⟩, ha, h⟩ := Res.bind_eq_ok.mp h
      cases h
      exact ctxAddPkt_memOk ha

theorem rxMid_memOk {c c' : Core β} {pkt : Pktbuf} {src dest tag seq : Byte} (h : c.rxMid pkt src dest tag seq = .ok c') :
    c'.mem.ok = c.mem.ok := by
  unfold Core.rxMid at h
  split at h
  · cases h; rfl
  · split at h
    · cases h
    · split at h
      · cases h; rfl
      · split at h
        · cases h; rfl
        · obtain ⟨⟨m, x', ok⟩, ha, h⟩ := Res.bind_eq_ok.mp h
          cases h
          exact ctxAddPkt_memOk ha

theorem rxEom_memOk {ops : Ops β} {c : Core β} {i : Nat} {bus : Bus β} {pkt : Pktbuf} {src dest tag seq : Byte} {o : Bool}
    {r : Core β × List Event} (h : c.rxEom ops i bus pkt src dest tag seq o = .ok r) : r.1.mem.ok = c.mem.ok := by
  unfold Core.rxEom at h
  split at h
  · cases h; rfl
  · split at h
    · cases h
    · split at h
      · cases h; rfl
      · split at h
        · cases h; rfl
        · obtain ⟨⟨m, x', ok⟩, ha, h⟩ := Res.bind_eq_ok.mp h
          simp only at h
          split at h
          · obtain ⟨⟨c2, e⟩, hr, h⟩ := Res.bind_eq_ok.mp h
            cases h
            have := rx_memOk hr
            exact this.trans (ctxAddPkt_memOk ha)
          · cases h
            exact ctxAddPkt_memOk ha

theorem busRxBody_memOk {ops : Ops β} {c : Core β} {i : Nat} {bus : Bus β} {pkt : Pktbuf} {r : Core β × List Event}
    (h : c.busRxBody ops i bus pkt = .ok r) : r.1.mem.ok = c.mem.ok := by
  unfold Core.busRxBody at h
  obtain ⟨hdr, -, h⟩ := Res.bind_eq_ok.mp h
  split at h
  · split at h
    · cases h; rfl
    · simp only at h
      split at h
      · obtain ⟨msg, -, h⟩ := Res.bind_eq_ok.mp h
        exact rx_memOk h
      · obtain ⟨c', hs, h⟩ := Res.bind_eq_ok.mp h
        cases h
        exact rxSom_memOk hs
      · exact rxEom_memOk h
      · obtain ⟨c', hs, h⟩ := Res.bind_eq_ok.mp h
        cases h
        exact rxMid_memOk hs
  · cases h

theorem busRx_memOk {ops : Ops β} {c : Core β} {i : Nat} {pkt : Pktbuf} {r : Core β × List Event} (h : c.busRx ops i pkt = .ok r) :
    r.1.mem.ok = c.mem.ok := by
  unfold Core.busRx at h
  split at h
  · cases h
  · obtain ⟨bus, -, h⟩ := Res.bind_eq_ok.mp h
    obtain ⟨-, -, h⟩ := Res.bind_eq_ok.mp h
    split at h
    · obtain ⟨m, hf, h⟩ := Res.bind_eq_ok.mp h
      cases h
      exact pktbufFree_memOk hf
    · obtain ⟨⟨c1, e⟩, hr, h⟩ := Res.bind_eq_ok.mp h
      obtain ⟨m, hf, h⟩ := Res.bind_eq_ok.mp h
      cases h
      exact (pktbufFree_memOk hf).trans (busRxBody_memOk hr)

theorem astInitChannel_memOk {hw : Hw E} {c : Core (AstSt E)} {i : Nat} {r : Core (AstSt E) × List Event}
    (h : c.astInitChannel hw i = .ok r) : r.1.mem.ok = c.mem.ok := by
  unfold Core.astInitChannel at h
  obtain ⟨bus, -, h⟩ := Res.bind_eq_ok.mp h
  obtain ⟨⟨on, b⟩, -, h⟩ := Res.bind_eq_ok.mp h
  have := setTxEnabled_memOk h
  exact this

theorem astRxStart_memOk {hw : Hw E} {c : Core (AstSt E)} {i : Nat} {r : Core (AstSt E) × List Event}
    (h : c.astRxStart hw i = .ok r) : r.1.mem.ok = c.mem.ok := by
  unfold Core.astRxStart at h
  obtain ⟨bus, -, h⟩ := Res.bind_eq_ok.mp h
  obtain ⟨⟨rc, be, s⟩, -, h⟩ := Res.bind_eq_ok.mp h
  obtain ⟨most, -, h⟩ := Res.bind_eq_ok.mp h
  simp only at h
  split at h
  · cases h; rfl
  split at h
  · cases h; rfl
  obtain ⟨packet, -, h⟩ := Res.bind_eq_ok.mp h
  have ha := pktbufAlloc_memOk c.mem c.fill bus.binding.pktSize bus.binding.pktHeader bus.binding.pktTrailer (packet - 4)
  split at h
  · rename_i m hp
    rw [hp] at ha
    cases h; exact ha
  · rename_i pkt m hp
    rw [hp] at ha
    obtain ⟨⟨rc1, bytes, s1⟩, -, h⟩ := Res.bind_eq_ok.mp h
    obtain ⟨pkt1, -, h⟩ := Res.bind_eq_ok.mp h
    simp only at h
    obtain ⟨ver, -, h⟩ := Res.bind_eq_ok.mp h
    split at h
    · obtain ⟨m1, hf, h⟩ := Res.bind_eq_ok.mp h
      cases h
      exact (pktbufFree_memOk hf).trans ha
    · obtain ⟨⟨valid, pkt2⟩, -, h⟩ := Res.bind_eq_ok.mp h
      simp only at h
      split at h
      · have := busRx_memOk h
        exact this.trans ha
      · obtain ⟨m1, hf, h⟩ := Res.bind_eq_ok.mp h
        cases h
        exact (pktbufFree_memOk hf).trans ha

theorem astTxComplete_memOk {hw : Hw E} {c : Core (AstSt E)} {i : Nat} {r : Core (AstSt E) × List Event}
    (h : c.astTxComplete hw i = .ok r) : r.1.mem.ok = c.mem.ok := by
  unfold Core.astTxComplete at h
  obtain ⟨bus, -, h⟩ := Res.bind_eq_ok.mp h
  have := setTxEnabled_memOk h
  exact this

theorem astUpdateActive_memOk {hw : Hw E} {c : Core (AstSt E)} {i : Nat} {v u : Byte} {r : Core (AstSt E) × List Event × Int}
    (h : c.astUpdateActive hw i v u = .ok r) : r.1.mem.ok = c.mem.ok := by
  unfold Core.astUpdateActive at h
  obtain ⟨bus, -, h⟩ := Res.bind_eq_ok.mp h
  obtain ⟨ver, -, h⟩ := Res.bind_eq_ok.mp h
  simp only at h
  split at h
  · obtain ⟨⟨rc, b⟩, -, h⟩ := Res.bind_eq_ok.mp h
    obtain ⟨⟨c1, e⟩, hs, h⟩ := Res.bind_eq_ok.mp h
    obtain ⟨bus2, -, h⟩ := Res.bind_eq_ok.mp h
    cases h
    have := setTxEnabled_memOk hs
    exact this
  · cases h; rfl

theorem astUpdateChannel_memOk {hw : Hw E} {c : Core (AstSt E)} {i : Nat} {v : Byte} {r : Core (AstSt E) × List Event × Int}
    (h : c.astUpdateChannel hw i v = .ok r) : r.1.mem.ok = c.mem.ok := by
  unfold Core.astUpdateChannel at h
  obtain ⟨bus, -, h⟩ := Res.bind_eq_ok.mp h
  simp only at h
  split at h
  · cases h
  · split at h
    · split at h
      · obtain ⟨⟨rc, s⟩, -, h⟩ := Res.bind_eq_ok.mp h
        cases h; rfl
      · obtain ⟨⟨c1, e1⟩, hs, h⟩ := Res.bind_eq_ok.mp h
        obtain ⟨⟨c2, e2, rc⟩, hu, h⟩ := Res.bind_eq_ok.mp h
        cases h
        have := setTxEnabled_memOk hs
        exact (astUpdateActive_memOk hu).trans this
    · exact astUpdateActive_memOk h

theorem astCommand_memOk {hw : Hw E} {c : Core (AstSt E)} {i : Nat} {v d : Byte} {r : Core (AstSt E) × List Event × Int × Bool}
    (h : c.astCommand hw i v d = .ok r) : r.1.mem.ok = c.mem.ok := by
  unfold Core.astCommand at h
  obtain ⟨bus, -, h⟩ := Res.bind_eq_ok.mp h
  simp only at h
  split at h
  · obtain ⟨⟨c1, e⟩, hs, h⟩ := Res.bind_eq_ok.mp h
    cases h; exact astInitChannel_memOk hs
  split at h
  · split at h
    · cases h; rfl
    · obtain ⟨⟨c1, e⟩, hs, h⟩ := Res.bind_eq_ok.mp h
      cases h; exact astRxStart_memOk hs
  split at h
  · split at h
    · cases h; rfl
    · obtain ⟨⟨c1, e⟩, hs, h⟩ := Res.bind_eq_ok.mp h
      cases h; exact astTxComplete_memOk hs
  split at h
  · split at h
    · obtain ⟨⟨c1, e, rc⟩, hs, h⟩ := Res.bind_eq_ok.mp h
      cases h; exact astUpdateChannel_memOk hs
    · cases h; rfl
  · cases h; rfl

theorem astPoll_memOk {hw : Hw E} {c : Core (AstSt E)} {i : Nat} {r : Core (AstSt E) × List Event × Int}
    (h : c.astPoll hw i = .ok r) : r.1.mem.ok = c.mem.ok := by
  unfold Core.astPoll at h
  obtain ⟨bus, -, h⟩ := Res.bind_eq_ok.mp h
  simp only at h
  split at h
  · cases h; rfl
  split at h
  · cases h; rfl
  split at h
  · cases h; rfl
  obtain ⟨ver, -, h⟩ := Res.bind_eq_ok.mp h
  split at h
  · cases h; rfl
  obtain ⟨⟨c1, e1, rc1, stop⟩, hc, h⟩ := Res.bind_eq_ok.mp h
  have h1 := astCommand_memOk hc
  simp only at h
  split at h
  · cases h; exact h1
  · obtain ⟨⟨c2, e2, rc2⟩, ha, h⟩ := Res.bind_eq_ok.mp h
    cases h
    unfold Core.astAfter at ha
    split at ha
    · exact (astUpdateChannel_memOk ha).trans h1
    · cases ha; exact h1

theorem astStep_memOk {hw : Hw E} {c : Core (AstSt E)} {op : AstOp} {r : Core (AstSt E) × List Event × Int}
    (h : c.astStep hw op = .ok r) : r.1.mem.ok = c.mem.ok := by
  cases op with
  | poll => exact astPoll_memOk h
  | send eid o tag msg =>
    have h : c.messageTx (astOps hw) eid o tag msg = .ok r := h
    unfold Core.messageTx at h
    split at h
    · cases h; rfl
    · split at h
      · cases h; rfl
      · obtain ⟨bus, -, h⟩ := Res.bind_eq_ok.mp h
        exact messageTxOnBus_memOk h
  | setMax n => cases h; rfl
  | setCapture on => cases h; rfl
  | setRx on => cases h; rfl

end Mctp
