import Verif.Proofs.LinkAll
import Verif.Proofs.SerialRun

/-!
# A poll as a sequence of small steps: changes of the binding's own state, calls of
`mctp_binding_set_tx_enabled`, and calls of `mctp_bus_rx`
-/

namespace Mctp

open Spec

variable {E : Type}

/-- The members of the binding that never change. -/
def Kind (b b' : Binding (AstSt E)) : Prop := b'.version = b.version ∧ b'.controlRx = b.controlRx

theorem Kind.refl (b : Binding (AstSt E)) : Kind b b := ⟨rfl, rfl⟩
theorem Kind.trans {a b c : Binding (AstSt E)} (h : Kind a b) (h' : Kind b c) : Kind a c :=
  ⟨h'.1.trans h.1, h'.2.trans h.2⟩

theorem finaliseChannel_kind {hw : Hw E} {b b' : Binding (AstSt E)} {rc : Int}
    (he : finaliseChannel hw b = .ok (rc, b')) : Kind b b' := by
  unfold finaliseChannel at he
  obtain ⟨⟨rc1, ver, s1⟩, hr, he⟩ := Res.bind_eq_ok.mp he
  simp only at he
  split at he
  · simp only [Except.ok.injEq, Prod.mk.injEq] at he; obtain ⟨-, rfl⟩ := he; exact ⟨rfl, rfl⟩
  · split at he
    · simp only [Except.ok.injEq, Prod.mk.injEq] at he; obtain ⟨-, rfl⟩ := he; exact ⟨rfl, rfl⟩
    · obtain ⟨⟨rc2, l, s2⟩, hl, he⟩ := Res.bind_eq_ok.mp he
      simp only at he
      split at he
      · simp only [Except.ok.injEq, Prod.mk.injEq] at he; obtain ⟨-, rfl⟩ := he; exact ⟨rfl, rfl⟩
      · obtain ⟨valid, hv, he⟩ := Res.bind_eq_ok.mp he
        split at he
        · simp only [Except.ok.injEq, Prod.mk.injEq] at he; obtain ⟨-, rfl⟩ := he; exact ⟨rfl, rfl⟩
        · obtain ⟨most, hmo, he⟩ := Res.bind_eq_ok.mp he
          simp only [Except.ok.injEq, Prod.mk.injEq] at he; obtain ⟨-, rfl⟩ := he; exact ⟨rfl, rfl⟩

theorem negotiateLayoutBmc_kind {hw : Hw E} {b b' : Binding (AstSt E)} {rc : Int}
    (he : negotiateLayoutBmc hw b = .ok (rc, b')) : Kind b b' := by
  unfold negotiateLayoutBmc at he
  obtain ⟨version, hver, he⟩ := Res.bind_eq_ok.mp he
  simp only at he
  split at he
  · simp only [Except.ok.injEq, Prod.mk.injEq] at he; obtain ⟨-, rfl⟩ := he; exact ⟨rfl, rfl⟩
  · obtain ⟨⟨rc1, l, s1⟩, hl, he⟩ := Res.bind_eq_ok.mp he
    simp only at he
    split at he
    · simp only [Except.ok.injEq, Prod.mk.injEq] at he; obtain ⟨-, rfl⟩ := he; exact ⟨rfl, rfl⟩
    · obtain ⟨valid, hv, he⟩ := Res.bind_eq_ok.mp he
      split at he
      · simp only [Except.ok.injEq, Prod.mk.injEq] at he; obtain ⟨-, rfl⟩ := he; exact ⟨rfl, rfl⟩
      · obtain ⟨mtu, hm, he⟩ := Res.bind_eq_ok.mp he
        obtain ⟨sz, hs, he⟩ := Res.bind_eq_ok.mp he
        obtain ⟨valid2, hv2, he⟩ := Res.bind_eq_ok.mp he
        split at he
        · obtain ⟨⟨rc3, s3⟩, hw3, he⟩ := Res.bind_eq_ok.mp he
          simp only at he
          split at he
          · simp only [Except.ok.injEq, Prod.mk.injEq] at he; obtain ⟨-, rfl⟩ := he; exact ⟨rfl, rfl⟩
          · split at he <;> simp only [Except.ok.injEq, Prod.mk.injEq] at he <;> obtain ⟨-, rfl⟩ := he <;> exact ⟨rfl, rfl⟩
        · simp only [Except.ok.injEq, Prod.mk.injEq] at he; obtain ⟨-, rfl⟩ := he; exact ⟨rfl, rfl⟩

theorem initChannel_kind {hw : Hw E} {b b' : Binding (AstSt E)} {on : Bool}
    (he : initChannel hw b = .ok (on, b')) : Kind b b' := by
  unfold initChannel at he
  obtain ⟨⟨rc1, hdr, s1⟩, hr, he⟩ := Res.bind_eq_ok.mp he
  simp only at he
  split at he
  · cases he
  · obtain ⟨⟨rc2, b2⟩, hn, he⟩ := Res.bind_eq_ok.mp he
    obtain ⟨⟨rc3, s3⟩, hw3, he⟩ := Res.bind_eq_ok.mp he
    simp only [Except.ok.injEq, Prod.mk.injEq] at he
    obtain ⟨-, rfl⟩ := he
    have hg := negotiateLayoutBmc_kind hn
    exact ⟨hg.1, hg.2⟩

/-- A sequence of small steps, with its events. -/
inductive Chunk (hw : Hw E) : Core (AstSt E) → List Event → Core (AstSt E) → Prop
  | quiet {c : Core (AstSt E)} {bus : Bus (AstSt E)} {b : Binding (AstSt E)} {m : Mem} :
      c.busses = [bus] → Kind bus.binding b → m.ok = c.mem.ok →
      Chunk hw c [] { c with mem := m, busses := [{ bus with binding := b }] }
  | enable {c c' : Core (AstSt E)} {e : List Event} {on : Bool} :
      c.setTxEnabled (astOps hw) 0 on = .ok (c', e) → Chunk hw c e c'
  | rx {c c' : Core (AstSt E)} {e : List Event} {pkt : Pktbuf} {bs : List Byte} :
      PktIs pkt bs → c.busRx (astOps hw) 0 pkt = .ok (c', e) → Chunk hw c e c'
  | trans {c c1 c2 : Core (AstSt E)} {e1 e2 : List Event} :
      Chunk hw c e1 c1 → Chunk hw c1 e2 c2 → Chunk hw c (e1 ++ e2) c2

theorem any_keeps {β : Type} (ops : Ops β) : Keeps ops (fun _ _ => True) where
  tx := fun _ _ _ _ => trivial
  push := fun _ _ _ => trivial
  off := fun _ _ => trivial

theorem Chunk.st {hw : Hw E} {c : Core (AstSt E)} {bus : Bus (AstSt E)} (hb : c.busses = [bus]) (s : AstSt E) :
    Chunk hw c [] (c.setSt 0 bus s) := by
  rw [setSt_single hb]
  have := Chunk.quiet (hw := hw) (c := c) (b := { bus.binding with st := s }) (m := c.mem) hb ⟨rfl, rfl⟩ rfl
  exact this

theorem enable_single {hw : Hw E} {c c' : Core (AstSt E)} {bus : Bus (AstSt E)} {i : Nat} {on : Bool} {e : List Event}
    (hb : c.busses = [bus]) (h : c.setTxEnabled (astOps hw) i on = .ok (c', e)) : ∃ bus', c'.busses = [bus'] := by
  obtain ⟨bus', m, rfl, -⟩ := setTxEnabled_keeps (any_keeps _) hb (os := []) trivial (fun _ => trivial) h
  exact ⟨bus', rfl⟩

theorem Chunk.bind {hw : Hw E} {c c' : Core (AstSt E)} {bus : Bus (AstSt E)} (hb : c.busses = [bus]) {b : Binding (AstSt E)}
    {on : Bool} {e : List Event} (hk : Kind bus.binding b) (h : (c.setBinding 0 bus b).setTxEnabled (astOps hw) 0 on = .ok (c', e)) :
    Chunk hw c e c' ∧ ∃ bus', c'.busses = [bus'] := by
  rw [setBinding_single hb] at h
  refine ⟨?_, enable_single rfl h⟩
  have h1 := Chunk.quiet (hw := hw) (c := c) (b := b) (m := c.mem) hb hk rfl
  exact Chunk.trans h1 (.enable h)

theorem Chunk.bindSt {hw : Hw E} {c c' : Core (AstSt E)} {bus : Bus (AstSt E)} (hb : c.busses = [bus]) {s : AstSt E}
    {on : Bool} {e : List Event} (h : (c.setSt 0 bus s).setTxEnabled (astOps hw) 0 on = .ok (c', e)) :
    Chunk hw c e c' ∧ ∃ bus', c'.busses = [bus'] := by
  refine Chunk.bind hb (b := { bus.binding with st := s }) ⟨rfl, rfl⟩ (on := on) ?_
  rw [setSt_single hb] at h
  rw [setBinding_single hb]
  exact h

theorem astUpdateActive_chunk {hw : Hw E} {c c' : Core (AstSt E)} {bus : Bus (AstSt E)} {e : List Event} {status updated : Byte} {rc : Int}
    (hb : c.busses = [bus]) (he : c.astUpdateActive hw 0 status updated = .ok (c', e, rc)) : Chunk hw c e c' := by
  unfold Core.astUpdateActive at he
  obtain ⟨bus1, hbus, he⟩ := Res.bind_eq_ok.mp he
  obtain ⟨-, rfl⟩ := busAt_single hb hbus
  obtain ⟨version, hver, he⟩ := Res.bind_eq_ok.mp he
  simp only at he
  split at he
  · obtain ⟨⟨rc1, b1⟩, hf, he⟩ := Res.bind_eq_ok.mp he
    obtain ⟨⟨c1, e1⟩, hset, he⟩ := Res.bind_eq_ok.mp he
    obtain ⟨bus2, hbus2, he⟩ := Res.bind_eq_ok.mp he
    simp only [Except.ok.injEq, Prod.mk.injEq] at he
    obtain ⟨rfl, rfl, -⟩ := he
    have hk : Kind bus1.binding b1 := by
      have := finaliseChannel_kind hf
      exact ⟨this.1, this.2⟩
    obtain ⟨h1, b', hb'⟩ := Chunk.bind hb hk hset
    obtain ⟨-, rfl⟩ := busAt_single hb' hbus2
    have := h1.trans (Chunk.st hb' { bus2.binding.st with kcsStatus := status })
    rwa [List.append_nil] at this
  · simp only [Except.ok.injEq, Prod.mk.injEq] at he
    obtain ⟨rfl, rfl, -⟩ := he
    exact Chunk.st hb _

theorem astUpdateChannel_chunk {hw : Hw E} {c c' : Core (AstSt E)} {bus : Bus (AstSt E)} {e : List Event} {status : Byte} {rc : Int}
    (hb : c.busses = [bus]) (he : c.astUpdateChannel hw 0 status = .ok (c', e, rc)) : Chunk hw c e c' := by
  unfold Core.astUpdateChannel at he
  obtain ⟨bus1, hbus, he⟩ := Res.bind_eq_ok.mp he
  obtain ⟨-, rfl⟩ := busAt_single hb hbus
  simp only at he
  split at he
  · cases he
  · split at he
    · split at he
      · obtain ⟨⟨rc1, s1⟩, hs, he⟩ := Res.bind_eq_ok.mp he
        simp only [Except.ok.injEq, Prod.mk.injEq] at he
        obtain ⟨rfl, rfl, -⟩ := he
        exact Chunk.st hb _
      · obtain ⟨⟨c1, e1⟩, hset, he⟩ := Res.bind_eq_ok.mp he
        obtain ⟨⟨c2, e2, rc2⟩, hu, he⟩ := Res.bind_eq_ok.mp he
        simp only [Except.ok.injEq, Prod.mk.injEq] at he
        obtain ⟨rfl, rfl, -⟩ := he
        obtain ⟨h1, b', hb'⟩ := Chunk.bindSt hb hset
        exact h1.trans (astUpdateActive_chunk hb' hu)
    · exact astUpdateActive_chunk hb he

theorem astRxStart_chunk {hw : Hw E} {mode : AstMode} {mtu : Nat} {c c' : Core (AstSt E)} {bus : Bus (AstSt E)} {e : List Event}
    (hb : c.busses = [bus]) (hi : AstInv mode mtu bus.binding.st) (he : c.astRxStart hw 0 = .ok (c', e)) : Chunk hw c e c' := by
  have hok := astRxStart_memOk he
  obtain ⟨-, -, v, r0, len, s1, -, -, -, -, hc⟩ := astRxStart_cases hb hi he
  rcases hc with ⟨-, rfl, rfl⟩ | ⟨-, -, ⟨m, rfl, rfl, -⟩ | ⟨r1, bytes, s2, -, -, ⟨-, ⟨m, rfl⟩, rfl⟩ | ⟨-, -, m, pkt, hp, hx⟩⟩⟩
  · exact Chunk.st hb _
  · rw [setSt_single (c := { c with mem := m }) hb] at hok ⊢
    exact .quiet (b := { bus.binding with st := s1 }) hb ⟨rfl, rfl⟩ hok
  · rw [setSt_single (c := { c with mem := m }) hb] at hok ⊢
    exact .quiet (b := { bus.binding with st := _ }) hb ⟨rfl, rfl⟩ hok
  · have hm := busRx_memOk hx
    rw [setSt_single (c := { c with mem := m }) hb] at hx hm
    simp only at hm hok
    have h1 := Chunk.quiet (hw := hw) (c := c) (b := { bus.binding with st := afterRead hw s2 }) (m := m) hb ⟨rfl, rfl⟩ (hm.symm.trans hok)
    exact Chunk.trans h1 (.rx hp hx)

theorem busRx_single {β : Type} {ops : Ops β} {c c' : Core β} {bus : Bus β} {pkt : Pktbuf} {e : List Event} {bs : List Byte}
    (hb : c.busses = [bus]) (hbr : c.bridge = false) (hp : PktIs pkt bs) (h : c.busRx ops 0 pkt = .ok (c', e)) :
    c'.busses = c.busses ∧ c'.bridge = c.bridge ∧ c'.hasRx = c.hasRx ∧ c'.maxSize = c.maxSize := by
  obtain ⟨_, -, -, -, hh⟩ := busRx_endpoint (eid := bus.eid) hbr (by rw [hb]; rfl) hp h
  rcases hh with ⟨hpn, rfl, m, rfl⟩ | ⟨f, hf, hh⟩
  · exact ⟨rfl, rfl, rfl, rfl⟩
  · rcases hh with ⟨hl, rfl, m, rfl⟩ | ⟨hl, hsg, rfl, m, rfl⟩ | ⟨hl, hsg, m1, m2, t, out, hc, -, rfl, rfl⟩ <;>
      exact ⟨rfl, rfl, rfl, rfl⟩

theorem astCommand_chunk {hw : Hw E} {mode : AstMode} {mtu : Nat} {c c' : Core (AstSt E)} {bus : Bus (AstSt E)} {e : List Event}
    {status data : Byte} {rc : Int} {stop : Bool}
    (hb : c.busses = [bus]) (hi : AstInv mode mtu bus.binding.st) (he : c.astCommand hw 0 status data = .ok (c', e, rc, stop)) :
    Chunk hw c e c' := by
  have hnil : Chunk hw c [] c := by
    have := Chunk.quiet (hw := hw) (c := c) (b := bus.binding) (m := c.mem) hb (.refl _) rfl
    cases c; simp_all
  unfold Core.astCommand at he
  obtain ⟨bus1, hbus, he⟩ := Res.bind_eq_ok.mp he
  obtain ⟨-, rfl⟩ := busAt_single hb hbus
  simp only at he
  split at he
  · obtain ⟨⟨c1, e1⟩, h1, he⟩ := Res.bind_eq_ok.mp he
    simp only [Except.ok.injEq, Prod.mk.injEq] at he
    obtain ⟨rfl, rfl, -⟩ := he
    unfold Core.astInitChannel at h1
    obtain ⟨bus2, hbus2, h1⟩ := Res.bind_eq_ok.mp h1
    obtain ⟨-, rfl⟩ := busAt_single hb hbus2
    obtain ⟨⟨on, b⟩, hin, h1⟩ := Res.bind_eq_ok.mp h1
    exact (Chunk.bind hb (initChannel_kind hin) h1).1
  split at he
  · split at he
    · simp only [Except.ok.injEq, Prod.mk.injEq] at he
      obtain ⟨rfl, rfl, -⟩ := he
      exact hnil
    · obtain ⟨⟨c1, e1⟩, h1, he⟩ := Res.bind_eq_ok.mp he
      simp only [Except.ok.injEq, Prod.mk.injEq] at he
      obtain ⟨rfl, rfl, -⟩ := he
      exact astRxStart_chunk hb hi h1
  split at he
  · split at he
    · simp only [Except.ok.injEq, Prod.mk.injEq] at he
      obtain ⟨rfl, rfl, -⟩ := he
      exact hnil
    · obtain ⟨⟨c1, e1⟩, h1, he⟩ := Res.bind_eq_ok.mp he
      simp only [Except.ok.injEq, Prod.mk.injEq] at he
      obtain ⟨rfl, rfl, -⟩ := he
      unfold Core.astTxComplete at h1
      obtain ⟨bus2, hbus2, h1⟩ := Res.bind_eq_ok.mp h1
      obtain ⟨-, rfl⟩ := busAt_single hb hbus2
      exact (Chunk.bindSt hb h1).1
  split at he
  · split at he
    · obtain ⟨⟨c1, e1, rc1⟩, h1, he⟩ := Res.bind_eq_ok.mp he
      simp only [Except.ok.injEq, Prod.mk.injEq] at he
      obtain ⟨rfl, rfl, -⟩ := he
      exact astUpdateChannel_chunk hb h1
    · simp only [Except.ok.injEq, Prod.mk.injEq] at he
      obtain ⟨rfl, rfl, -⟩ := he
      exact hnil
  · simp only [Except.ok.injEq, Prod.mk.injEq] at he
    obtain ⟨rfl, rfl, -⟩ := he
    exact hnil

/-- Small steps keep the only bus the only one. -/
theorem Chunk.single {hw : Hw E} {c c' : Core (AstSt E)} {e : List Event} (h : Chunk hw c e c') :
    ∀ {bus : Bus (AstSt E)}, c.busses = [bus] → c.bridge = false →
      c'.bridge = false ∧ c'.hasRx = c.hasRx ∧ c'.maxSize = c.maxSize ∧ c'.mem.ok = c.mem.ok ∧
      ∃ bus', c'.busses = [bus'] ∧ bus'.eid = bus.eid ∧ Kind bus.binding bus'.binding := by
  induction h with
  | @quiet c bus0 b m hb hk hm =>
    intro bus hb' hbr
    rw [hb] at hb'; simp only [List.cons.injEq, and_true] at hb'; subst hb'
    exact ⟨hbr, rfl, rfl, hm, _, rfl, rfl, hk⟩
  | @enable c c' e on he =>
    intro bus hb hbr
    have hm := setTxEnabled_memOk he
    obtain ⟨bus', m, rfl, hJ⟩ := setTxEnabled_keeps (J := fun _ b => b.eid = bus.eid ∧ Kind bus.binding b.binding)
      ⟨⟨fun h _ _ _ => ⟨h.1, h.2.1, h.2.2⟩, fun h _ _ => h⟩, fun h _ => h⟩ hb (os := []) ⟨rfl, .refl _⟩ (fun _ => ⟨rfl, .refl _⟩) he
    exact ⟨hbr, rfl, rfl, hm, bus', rfl, hJ⟩
  | rx hp hx =>
    intro bus hb hbr
    have hm := busRx_memOk hx
    obtain ⟨h1, h2, h3, h4⟩ := busRx_single hb hbr hp hx
    exact ⟨h2.trans hbr, h3, h4, hm, bus, h1.trans hb, rfl, .refl _⟩
  | trans _ _ ih1 ih2 =>
    intro bus hb hbr
    obtain ⟨a1, a2, a3, a4, b1, hb1, a5, a6⟩ := ih1 hb hbr
    obtain ⟨d1, d2, d3, d4, b2, hb2, d5, d6⟩ := ih2 hb1 a1
    exact ⟨d1, d2.trans a2, d3.trans a3, d4.trans a4, b2, hb2, d5.trans a5, a6.trans d6⟩

theorem astPoll_chunk {hw : Hw E} {mode : AstMode} {mtu : Nat} {c c' : Core (AstSt E)} {bus : Bus (AstSt E)} {e : List Event} {rc : Int}
    (hb : c.busses = [bus]) (hbr : c.bridge = false) (hj : AstJ mode mtu bus) (he : c.astPoll hw 0 = .ok (c', e, rc)) :
    Chunk hw c e c' := by
  have hq : ∀ s : AstSt E, Chunk hw c [] { c with busses := [{ bus with binding := { bus.binding with st := s } }] } := by
    intro s
    have := Chunk.quiet (hw := hw) (c := c) (b := { bus.binding with st := s }) (m := c.mem) hb ⟨rfl, rfl⟩ rfl
    exact this
  obtain ⟨-, hc⟩ := astPoll_view hb hj he
  rcases hc with ⟨r, v, s, -, -, -, -, -, rfl, rfl⟩ | ⟨v, r, d, s, -, -, hj1, -, ⟨-, -, rfl, rfl⟩ | ⟨-, -, -, c1, e1, rc1, stop, hcmd, hx⟩⟩
  · exact hq s
  · exact hq s
  · have h1 := (hq s).trans (astCommand_chunk rfl hj1.1 hcmd)
    rw [List.nil_append] at h1
    rcases hx with ⟨-, rfl, rfl, -⟩ | ⟨-, e2, ha, rfl⟩
    · exact h1
    · obtain ⟨-, -, -, -, b1, hb1, -⟩ := h1.single hb hbr
      unfold Core.astAfter at ha
      split at ha
      · exact h1.trans (astUpdateChannel_chunk hb1 ha)
      · simp only [Except.ok.injEq, Prod.mk.injEq] at ha
        obtain ⟨rfl, rfl, -⟩ := ha
        rwa [List.append_nil]

end Mctp
