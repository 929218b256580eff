import Verif.Proofs.Setup
import Verif.Spec.Transmit

/-! The transmit path of a bus refines the ideal transmitter. -/

namespace Mctp

open Spec

variable {β : Type}

/-- A binding that refuses a packet leaves its bytes alone. -/
def KeepsPacket (ops : Ops β) : Prop :=
  ∀ b p out, ops.tx b p = .ok out → out.rc ≠ 0 → out.rc ≠ -90 → out.pkt.bytes = p.bytes

def gateOf : BusState → Gate
  | .constructed => .never
  | .txEnabled => .opened
  | .txDisabled => .closed

def absBus (b : Bus β) : TxState := ⟨gateOf b.state, b.queue.map Pktbuf.bytes, b.binding.pktSize⟩

theorem offers_append (i : Nat) (a b : List Event) : offers i (a ++ b) = offers i a ++ offers i b := by
  unfold offers; exact List.filterMap_append

theorem offers_cap (i : Nat) (cap : Bool) (p : List Byte) :
    offers i (if cap then [Event.capture true p] else []) = [] := by
  cases cap <;> rfl

theorem offers_tx (i j : Nat) (p : List Byte) (rc : Int) (off : Bool) :
    offers i [Event.tx j p rc off] = if j = i then [⟨p, rc, off⟩] else [] := by
  unfold offers
  split
  · rename_i h; simp [h]
  · rename_i h; simp [h]

theorem sendQueue_flush {ops : Ops β} (hk : KeepsPacket ops) {cap : Bool} {i : Nat} {q : List Pktbuf} :
    ∀ {m m' : Mem} {bus bus' : Bus β} {e : List Event},
    sendQueue ops cap i m bus q = .ok (m', bus', e) →
    flush (absBus { bus with queue := q }) (offers i e) = some (absBus bus') ∧
      (∀ j, j ≠ i → offers j e = []) := by
  induction q with
  | nil =>
    intro m m' bus bus' e h
    simp only [sendQueue, Except.ok.injEq, Prod.mk.injEq] at h
    obtain ⟨rfl, rfl, rfl⟩ := h
    exact ⟨by simp [offers, flush, absBus], fun _ _ => rfl⟩
  | cons p q ih =>
    intro m m' bus bus' e h
    unfold sendQueue at h
    split at h
    · rename_i hst
      simp only [Except.ok.injEq, Prod.mk.injEq] at h
      obtain ⟨rfl, rfl, rfl⟩ := h
      refine ⟨?_, fun _ _ => rfl⟩
      have : gateOf bus.state ≠ .opened := by
        cases hs : bus.state <;> simp_all [gateOf]
      simp [offers, flush, absBus, this]
    · rename_i hst
      have hst' : bus.state = .txEnabled := Decidable.not_not.mp hst
      obtain ⟨_, _, h⟩ := Res.bind_eq_ok.mp h
      obtain ⟨out, ho, h⟩ := Res.bind_eq_ok.mp h
      simp only at h
      split at h
      · rename_i hc
        obtain ⟨m1, hm1, h⟩ := Res.bind_eq_ok.mp h
        obtain ⟨⟨m2, b2, e2⟩, hr, h⟩ := Res.bind_eq_ok.mp h
        simp only [Except.ok.injEq, Prod.mk.injEq] at h
        obtain ⟨rfl, rfl, rfl⟩ := h
        obtain ⟨h1, h2⟩ := ih hr
        constructor
        · rw [offers_append, offers_append, offers_cap, offers_tx, if_pos rfl]
          simp only [List.nil_append, List.cons_append, flush, absBus, hst', gateOf, List.map_cons, if_true]
          have hcons : Offer.consumed ⟨p.bytes, out.rc, out.disableTx⟩ = true := by
            simp only [Offer.consumed, Bool.or_eq_true, beq_iff_eq]; exact hc
          rw [if_pos hcons]
          refine Eq.trans ?_ h1
          simp only [absBus]
          cases out.disableTx <;> simp [gateOf]
        · intro j hj
          rw [offers_append, offers_append, offers_cap, offers_tx, if_neg (Ne.symm hj), h2 j hj]; rfl
      · rename_i hc
        simp only [Except.ok.injEq, Prod.mk.injEq] at h
        obtain ⟨rfl, rfl, rfl⟩ := h
        constructor
        · rw [offers_append, offers_cap, offers_tx, if_pos rfl]
          simp only [List.nil_append, flush, absBus, hst', gateOf, List.map_cons, if_true]
          have hcons : ¬ Offer.consumed ⟨p.bytes, out.rc, out.disableTx⟩ = true := by
            simp only [Offer.consumed, Bool.or_eq_true, beq_iff_eq]; exact hc
          rw [if_neg hcons]
          have hb : ({ out.pkt with id := p.id } : Pktbuf).bytes = p.bytes := by
            rw [← hk _ _ _ ho (fun h => hc (.inl h)) (fun h => hc (.inr h))]; rfl
          simp only [hb]
          cases out.disableTx <;> simp
        · intro j hj
          rw [offers_append, offers_cap, offers_tx, if_neg (Ne.symm hj)]; rfl

theorem sendTxQueue_flush {ops : Ops β} (hk : KeepsPacket ops) {c c' : Core β} {i : Nat}
    {e : List Event} (h : c.sendTxQueue ops i = .ok (c', e)) :
    ∃ bus bus', c.busses[i]? = some bus ∧ c'.busses = c.busses.set i bus' ∧
      bus'.eid = bus.eid ∧ bus'.binding.version = bus.binding.version ∧
      flush (absBus bus) (offers i e) = some (absBus bus') ∧ (∀ j, j ≠ i → offers j e = []) := by
  unfold Core.sendTxQueue at h
  obtain ⟨bus, hbus, h⟩ := Res.bind_eq_ok.mp h
  obtain ⟨⟨m, b, e'⟩, hs, h⟩ := Res.bind_eq_ok.mp h
  simp only [Except.ok.injEq, Prod.mk.injEq] at h
  obtain ⟨rfl, rfl⟩ := h
  obtain ⟨h1, h2⟩ := sendQueue_flush hk hs
  obtain ⟨g1, ⟨st, g2⟩, _⟩ := sendQueue_bus hs
  exact ⟨bus, b, (busAt_ok hbus).2.1, rfl, g1, by rw [g2], h1, h2⟩

/-- `mctp_message_tx_on_bus` on bus `i`. -/
theorem messageTxOnBus_spec {ops : Ops β} (hk : KeepsPacket ops) {c c' : Core β} {i : Nat} {s d : Byte}
    {own : Bool} {g : Byte} {msg : List Byte} {e : List Event} {rc : Int}
    (hsz : ∀ b ∈ c.busses, b.state ≠ .constructed → BindOk b.binding)
    (h : c.messageTxOnBus ops i s d own g msg = .ok (c', e, rc)) :
    ∃ bus, c.busses[i]? = some bus ∧
     ((bus.state = .constructed ∧ c' = c ∧ e = [] ∧ rc = -6) ∨
      (bus.state ≠ .constructed ∧ 7 < g.toNat ∧ c' = c ∧ e = [] ∧ rc = -22) ∨
      (bus.state ≠ .constructed ∧ g.toNat < 8 ∧ rc = 0 ∧ ∃ bus', c'.busses = c.busses.set i bus' ∧
        bus'.eid = bus.eid ∧ bus'.binding.version = bus.binding.version ∧
        flush ⟨gateOf bus.state, bus.queue.map Pktbuf.bytes ++
            fragments bus.binding.version s d own g (bus.binding.pktSize - 4) msg,
            bus.binding.pktSize⟩ (offers i e)
          = some (absBus bus') ∧ (∀ j, j ≠ i → offers j e = []))) := by
  unfold Core.messageTxOnBus at h
  obtain ⟨bus, hbus, h⟩ := Res.bind_eq_ok.mp h
  have hget := (busAt_ok hbus).2.1
  refine ⟨bus, hget, ?_⟩
  split at h
  · rename_i hst
    simp only [Except.ok.injEq, Prod.mk.injEq] at h
    obtain ⟨rfl, rfl, rfl⟩ := h
    exact .inl ⟨hst, rfl, rfl, rfl⟩
  · rename_i hst
    split at h
    · rename_i hg
      simp only [Except.ok.injEq, Prod.mk.injEq] at h
      obtain ⟨rfl, rfl, rfl⟩ := h
      refine .inr (.inl ⟨hst, ?_, rfl, rfl, rfl⟩)
      have : ¬ g.toNat < 8 := fun h => hg (tag_small_iff.mpr h)
      omega
    · rename_i hg
      have hg' : g.toNat < 8 := tag_small_iff.mp (Decidable.not_not.mp hg)
      simp only at h
      split at h
      · cases h
      · obtain ⟨⟨m, q⟩, hl, h⟩ := Res.bind_eq_ok.mp h
        obtain ⟨⟨c1, e1⟩, hs, h⟩ := Res.bind_eq_ok.mp h
        simp only [Except.ok.injEq, Prod.mk.injEq] at h
        obtain ⟨rfl, rfl, rfl⟩ := h
        obtain ⟨hb1, hb2⟩ := hsz bus (List.mem_of_getElem? hget) hst
        have hmtu : bodySize bus.binding.pktSize = bus.binding.pktSize - 4 :=
          bodySize_eq (by omega) (by omega)
        rw [hmtu] at hl
        obtain ⟨ps, hq, _, hps⟩ := txLoop_ok (by omega) hg' (by simp) hl
        obtain ⟨bus1, bus', hb, hbs, he, hv, hf, hj⟩ := sendTxQueue_flush hk hs
        have hlen : i < c.busses.length := (List.getElem?_eq_some_iff.mp hget).1
        simp only [Core.setBus, List.getElem?_set, hlen, if_true, Option.some.injEq] at hb
        subst hb
        refine .inr (.inr ⟨hst, hg', rfl, bus', ?_, he, hv, ?_, hj⟩)
        · rw [hbs]; simp [Core.setBus]
        · rw [← hf]
          simp only [absBus, hq, List.map_append, hps, fragments, Nat.sub_zero, List.range_eq_range']

/-! ## The endpoint -/

theorem offers_nil_of {i : Nat} {e : List Event} (h : ∀ j p rc off, Event.tx j p rc off ∉ e) :
    offers i e = [] := by
  unfold offers
  rw [List.filterMap_eq_nil_iff]
  intro x hx
  cases x with
  | tx j p rc off => exact absurd hx (h j p rc off)
  | _ => rfl

/-- At an endpoint, receiving makes no offers and leaves the busses alone. -/
theorem rxPacket_noTx {ops : Ops β} {c c' : Core β} {i : Nat} {bs : List Byte} {e : List Event}
    {eid : Byte} (hb : c.bridge = false) (he : c.busses.map Bus.eid = [eid])
    (h : c.rxPacket ops i bs = .ok (c', e)) :
    c'.busses = c.busses ∧ ∀ j, offers j e = [] := by
  have hroute : ∀ (c : Core β) bus s own t m j, offers j (routeEvents c i bus s own t m) = [] := by
    intro c bus s own t m j
    unfold routeEvents
    repeat' split
    all_goals rfl
  have hcap : ∀ j, offers j (capIn c bs) = [] := by
    intro j; unfold capIn; split <;> rfl
  rcases rxPacket_endpoint hb he h with ⟨_, m, _, _, rfl, rfl⟩ | ⟨bus', m0, pkt, rfl, hbe, hbus', ha, hp, hh⟩
  · exact ⟨rfl, fun _ => rfl⟩
  · have hcons : ∀ (x : List Event) j, offers j (.recv 0 bs :: x) = offers j x := fun _ _ => rfl
    rcases hh with ⟨hpn, rfl, m, rfl⟩ | ⟨f, hf, hh⟩
    · exact ⟨rfl, fun _ => rfl⟩
    · rcases hh with ⟨hl, rfl, m, rfl⟩ | ⟨hl, hsg, rfl, m, rfl⟩ | ⟨hl, hsg, m1, m2, t, out, hc, -, rfl, rfl⟩
      · exact ⟨rfl, fun j => by rw [hcons]; exact hcap j⟩
      · exact ⟨rfl, fun j => by rw [hcons, offers_append, hcap, hroute]; rfl⟩
      · refine ⟨rfl, fun j => ?_⟩
        cases out with
        | none => rw [hcons, offers_append, hcap]; rfl
        | some m => rw [hcons, offers_append, hcap]; simp only [List.nil_append]; exact hroute ..

/-- What the transmit side of an endpoint looks like. -/
structure TxInv (ver eid : Byte) (s : TxState) (c : Core β) : Prop where
  bus : ∃ b, c.busses = [b] ∧ b.eid = eid ∧ b.binding.version = ver ∧ absBus b = s

theorem step_tx {ops : Ops β} (hk : KeepsPacket ops) {ver eid : Byte} {s : TxState} {c c' : Core β}
    {op : Op β} {e : List Event} {rc : Int} {base : List Nat}
    (hm : MemInv K base c) (hb : c.bridge = false) (hi : TxInv ver eid s c)
    (h : c.step ops op = .ok (c', e, rc)) :
    c'.bridge = false ∧ ∃ s', txStep ver eid s ⟨op, e, rc⟩ = some s' ∧ TxInv ver eid s' c' := by
  obtain ⟨b, hbs, heid, hver, rfl⟩ := hi.bus
  have h0 : c.busses[0]? = some b := by rw [hbs]; rfl
  cases op with
  | recv i bs =>
    simp only [Core.step] at h
    obtain ⟨⟨c1, e1⟩, hr, h⟩ := Res.bind_eq_ok.mp h
    simp only [Except.ok.injEq, Prod.mk.injEq] at h
    obtain ⟨rfl, rfl, -⟩ := h
    have hbr : c1.bridge = false := by
      rcases rxPacket_endpoint (eid := eid) hb (by rw [hbs, ← heid]; rfl) hr with ⟨_, m, _, _, rfl, rfl⟩ | ⟨bus', m0, pkt, rfl, hbe, hbus', ha, hp, hh⟩
      · exact hb
      · rcases hh with ⟨hpn, rfl, m, rfl⟩ | ⟨f, hf, hh⟩
        · exact hb
        · rcases hh with ⟨hl, rfl, m, rfl⟩ | ⟨hl, hsg, rfl, m, rfl⟩ | ⟨hl, hsg, m1, m2, t, out, hc, -, rfl, rfl⟩ <;> exact hb
    obtain ⟨h1, h2⟩ := rxPacket_noTx (eid := eid) hb (by rw [hbs, ← heid]; rfl) hr
    refine ⟨hbr, _, ?_, ⟨b, by rw [h1, hbs], heid, hver, rfl⟩⟩
    simp [txStep, h2]
  | send d own g msg =>
    simp only [Core.step, Core.messageTx] at h
    split at h
    · rename_i hg
      simp only [Except.ok.injEq, Prod.mk.injEq] at h
      obtain ⟨rfl, rfl, rfl⟩ := h
      have : ¬ g.toNat < 8 := fun h => hg (tag_small_iff.mpr h)
      refine ⟨hb, _, ?_, hi⟩
      simp only [txStep]
      rw [if_pos (by omega), if_pos ⟨rfl, rfl⟩]
    · rename_i hg
      have hg' : g.toNat < 8 := tag_small_iff.mp (Decidable.not_not.mp hg)
      rw [if_neg (by have := hm.pos; omega)] at h
      obtain ⟨bus, hbus, h⟩ := Res.bind_eq_ok.mp h
      have hbe : bus = b := by have := (busAt_ok hbus).2.1; rw [h0] at this; simpa using this.symm
      subst hbe
      obtain ⟨_, m, bs, hc', _⟩ := messageTxOnBus_ok h
      obtain ⟨bus1, hg1, hh⟩ := messageTxOnBus_spec hk hm.bus h
      rw [h0] at hg1
      simp only [Option.some.injEq] at hg1
      subst hg1
      refine ⟨by rw [hc']; exact hb, ?_⟩
      rcases hh with ⟨hst, rfl, rfl, rfl⟩ | ⟨_, hgt, _⟩ | ⟨hst, _, rfl, bus', hbs', he', hv', hf, _⟩
      · refine ⟨_, ?_, hi⟩
        simp only [txStep]
        rw [if_neg (by omega), if_pos (by simp [absBus, hst, gateOf]), if_pos ⟨by trivial, rfl⟩]
      · omega
      · refine ⟨absBus bus', ?_, ⟨bus', by rw [hbs', hbs]; rfl, by rw [he', heid], by rw [hv', hver], rfl⟩⟩
        simp only [txStep]
        rw [if_neg (by omega), if_neg (by cases hs : bus.state <;> simp_all [absBus, gateOf]), if_pos (by trivial)]
        rw [← hf, hver, heid]
        rfl
  | enable i on =>
    simp only [Core.step, Core.setTxEnabled] at h
    obtain ⟨⟨c1, e1⟩, hs, h⟩ := Res.bind_eq_ok.mp h
    simp only [Except.ok.injEq, Prod.mk.injEq] at h
    obtain ⟨rfl, rfl, rfl⟩ := h
    obtain ⟨bus, hbus, hs⟩ := Res.bind_eq_ok.mp hs
    have hget := (busAt_ok hbus).2.1
    have hi0 : i = 0 := by
      have := (List.getElem?_eq_some_iff.mp hget).1
      rw [hbs] at this; simpa using this
    subst hi0
    rw [h0] at hget
    simp only [Option.some.injEq] at hget
    subst hget
    split at hs
    · rename_i hst
      split at hs
      · rename_i hon
        simp only [Except.ok.injEq, Prod.mk.injEq] at hs
        obtain ⟨rfl, rfl⟩ := hs
        refine ⟨hb, _, ?_, hi⟩
        have : on = false := by simpa using hon
        simp [txStep, absBus, hst, gateOf, this, offers]
      · rename_i hon
        have hon' : on = true := by simpa using hon
        split at hs
        · rename_i hlt
          simp only [Except.ok.injEq, Prod.mk.injEq] at hs
          obtain ⟨rfl, rfl⟩ := hs
          refine ⟨hb, _, ?_, hi⟩
          have h68 : ¬ 68 ≤ b.binding.pktSize := by
            simp only [packetSize, Mctp.btu, hdrSize] at hlt; omega
          simp [txStep, absBus, hst, gateOf, hon', offers, h68]
        · rename_i hlt
          simp only [Except.ok.injEq, Prod.mk.injEq] at hs
          obtain ⟨rfl, rfl⟩ := hs
          have h68 : 68 ≤ b.binding.pktSize := by
            simp only [packetSize, Mctp.btu, hdrSize] at hlt; omega
          refine ⟨hb, _, ?_, ⟨{ b with state := .txEnabled }, by simp [Core.setBus, hbs], heid, hver, rfl⟩⟩
          simp [txStep, absBus, hst, gateOf, hon', offers, h68]
    · rename_i hst
      split at hs
      · rename_i hon
        simp only [Except.ok.injEq, Prod.mk.injEq] at hs
        obtain ⟨rfl, rfl⟩ := hs
        refine ⟨hb, _, ?_, hi⟩
        simp [txStep, absBus, hst, gateOf, hon, offers]
      · rename_i hon
        have hon' : on = false := by simpa using hon
        simp only [Except.ok.injEq, Prod.mk.injEq] at hs
        obtain ⟨rfl, rfl⟩ := hs
        refine ⟨hb, _, ?_, ⟨{ b with state := .txDisabled }, by simp [Core.setBus, hbs], heid, hver, rfl⟩⟩
        simp [txStep, absBus, hst, gateOf, hon', offers]
    · rename_i hst
      split at hs
      · rename_i hon
        simp only [Except.ok.injEq, Prod.mk.injEq] at hs
        obtain ⟨rfl, rfl⟩ := hs
        refine ⟨hb, _, ?_, hi⟩
        have : on = false := by simpa using hon
        simp [txStep, absBus, hst, gateOf, this, offers]
      · rename_i hon
        have hon' : on = true := by simpa using hon
        obtain ⟨_, m, bs, hc', _⟩ := sendTxQueue_ok hs
        obtain ⟨bus1, bus', hb1, hbs', he', hv', hf, _⟩ := sendTxQueue_flush hk hs
        simp only [Core.setBus, hbs, List.set_cons_zero, List.getElem?_cons_zero, Option.some.injEq] at hb1
        subst hb1
        refine ⟨by rw [hc']; exact hb, absBus bus', ?_,
          ⟨bus', by rw [hbs']; simp [Core.setBus, hbs], by rw [he']; exact heid, by rw [hv']; exact hver, rfl⟩⟩
        rw [← hf]
        simp [txStep, absBus, hst, gateOf, hon']
  | setMax n =>
    simp only [Core.step, Except.ok.injEq, Prod.mk.injEq] at h
    obtain ⟨rfl, rfl, -⟩ := h
    exact ⟨hb, _, by simp [txStep, offers], ⟨b, hbs, heid, hver, rfl⟩⟩
  | setCapture n =>
    simp only [Core.step, Except.ok.injEq, Prod.mk.injEq] at h
    obtain ⟨rfl, rfl, -⟩ := h
    exact ⟨hb, _, by simp [txStep, offers], ⟨b, hbs, heid, hver, rfl⟩⟩
  | setRx n =>
    simp only [Core.step, Except.ok.injEq, Prod.mk.injEq] at h
    obtain ⟨rfl, rfl, -⟩ := h
    exact ⟨hb, _, by simp [txStep, offers], ⟨b, hbs, heid, hver, rfl⟩⟩
  | rebind i st ps ph pt cr =>
    simp only [Core.step] at h
    obtain ⟨bus, hbus, h⟩ := Res.bind_eq_ok.mp h
    simp only [Except.ok.injEq, Prod.mk.injEq] at h
    obtain ⟨rfl, rfl, -⟩ := h
    have hget := (busAt_ok hbus).2.1
    have hi0 : i = 0 := by
      have := (List.getElem?_eq_some_iff.mp hget).1
      rw [hbs] at this; simpa using this
    subst hi0
    rw [h0] at hget
    simp only [Option.some.injEq] at hget
    subst hget
    refine ⟨hb, _, ?_, ⟨{ b with binding := { b.binding with st := st, pktSize := ps, pktHeader := ph, pktTrailer := pt, controlRx := cr } }, by simp only [Core.setBus, hbs, List.set_cons_zero], heid, hver, rfl⟩⟩
    simp [txStep, offers, absBus]

theorem run_tx {ops : Ops β} (hk : KeepsPacket ops) (K : Contract ops) {ver eid : Byte}
    {base : List Nat} {hist : List (Op β)} : ∀ {s : TxState} {c : Core β}, MemInv K base c →
    c.bridge = false → TxInv ver eid s c → HistOk K c hist →
    ∃ c' log s', c.run ops hist = .ok (c', log) ∧ log.map (·.op) = hist ∧
      txRun ver eid s log = some s' ∧ TxInv ver eid s' c' ∧ MemInv K base c' := by
  induction hist with
  | nil => intro s c hm hb hi _; exact ⟨c, [], s, rfl, rfl, rfl, hi, hm⟩
  | cons op rest ih =>
    intro s c hm hb hi hv
    obtain ⟨c1, e, rc, h1, h2⟩ := step_total K hm hv.1
    obtain ⟨hb1, s1, hs1, hi1⟩ := step_tx hk hm hb hi h1
    obtain ⟨c2, log, s2, r1, r2, r3, r4, r5⟩ := ih h2 hb1 hi1 (hv.2 c1 e rc h1)
    refine ⟨c2, ⟨op, e, rc⟩ :: log, s2, ?_, by simp [r2], ?_, r4, r5⟩
    · simp only [Core.run, h1, Res.bind_ok, r1]
    · simp only [txRun, hs1, Option.bind_some, r3]

end Mctp
