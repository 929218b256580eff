import Verif.Proofs.AstRecv
import Verif.Proofs.TxSpec
import Verif.Proofs.SerialSend

/-!
# What an astlpc endpoint has taken for transmission, when the binding takes every packet it is offered
-/

namespace Mctp

open Spec

variable {E : Type}

/-- The messages an endpoint has accepted for transmission (return value 0), in order, to be sent in packets
with `mtu` bytes of payload. -/
def acceptedBy (mtu : Nat) (log : List AstRec) : List Msg :=
  log.filterMap fun r => match r.op with
    | .send dest own tag msg => if r.rc = 0 then some ⟨dest, own, tag, mtu, msg⟩ else none
    | _ => none

theorem acceptedBy_cons (mtu : Nat) (r : AstRec) (log : List AstRec) :
    acceptedBy mtu (r :: log) = acceptedBy mtu [r] ++ acceptedBy mtu log := by
  unfold acceptedBy
  rw [← List.filterMap_append]; rfl

/-- Every offer was taken. -/
def TakesAll (e : List Event) : Prop := ∀ o ∈ offers 0 e, o.rc = 0

theorem TakesAll.append {a b : List Event} : TakesAll (a ++ b) ↔ TakesAll a ∧ TakesAll b := by
  unfold TakesAll
  rw [offers_append]
  constructor
  · intro h; exact ⟨fun o ho => h o (List.mem_append_left _ ho), fun o ho => h o (List.mem_append_right _ ho)⟩
  · rintro ⟨h1, h2⟩ o ho
    rcases List.mem_append.mp ho with h | h
    · exact h1 o h
    · exact h2 o h

theorem sendQueue_took {β : Type} {ops : Ops β} {cap : Bool} {q : List Pktbuf} :
    ∀ {m m' : Mem} {bus bus' : Bus β} {e : List Event},
    sendQueue ops cap 0 m bus q = .ok (m', bus', e) → TakesAll e →
    q.map Pktbuf.bytes = (offers 0 e).map Offer.pkt ++ bus'.queue.map Pktbuf.bytes := by
  induction q with
  | nil =>
    intro m m' bus bus' e h _
    simp only [sendQueue, Except.ok.injEq, Prod.mk.injEq] at h
    obtain ⟨rfl, rfl, rfl⟩ := h
    rfl
  | cons p q ih =>
    intro m m' bus bus' e h ha
    unfold sendQueue at h
    split at h
    · simp only [Except.ok.injEq, Prod.mk.injEq] at h
      obtain ⟨rfl, rfl, rfl⟩ := h
      rfl
    · obtain ⟨_, _, h⟩ := Res.bind_eq_ok.mp h
      obtain ⟨out, ho, h⟩ := Res.bind_eq_ok.mp h
      simp only at h
      split at h
      · obtain ⟨m1, hm1, h⟩ := Res.bind_eq_ok.mp h
        obtain ⟨⟨m2, b2, e2⟩, hr, h⟩ := Res.bind_eq_ok.mp h
        simp only [Except.ok.injEq, Prod.mk.injEq] at h
        obtain ⟨rfl, rfl, rfl⟩ := h
        have := ih hr (TakesAll.append.mp ha).2
        rw [offers_append, offers_append, offers_cap, offers_tx, if_pos rfl]
        simp [this]
      · rename_i hc
        simp only [Except.ok.injEq, Prod.mk.injEq] at h
        obtain ⟨rfl, rfl, rfl⟩ := h
        refine absurd (.inl (ha ⟨p.bytes, out.rc, out.disableTx⟩ ?_)) hc
        rw [offers_append, offers_cap, offers_tx, if_pos rfl]
        simp

/-- `mctp_message_tx_on_bus`/`mctp_send_tx_queue`: what was queued is what was offered and what is left. -/
theorem sendTxQueue_took {β : Type} {ops : Ops β} {c c' : Core β} {bus : Bus β} {e : List Event} (hb : c.busses = [bus])
    (h : c.sendTxQueue ops 0 = .ok (c', e)) (ha : TakesAll e) :
    ∃ bus', c'.busses = [bus'] ∧ bus.queue.map Pktbuf.bytes = (offers 0 e).map Offer.pkt ++ bus'.queue.map Pktbuf.bytes := by
  unfold Core.sendTxQueue at h
  obtain ⟨bus1, hbus, h⟩ := Res.bind_eq_ok.mp h
  obtain ⟨-, rfl⟩ := busAt_single hb hbus
  obtain ⟨⟨m, b, e'⟩, hs, h⟩ := Res.bind_eq_ok.mp h
  simp only [Except.ok.injEq, Prod.mk.injEq] at h
  obtain ⟨rfl, rfl⟩ := h
  exact ⟨b, by simp [Core.setBus, hb], sendQueue_took hs ha⟩

theorem setTxEnabled_took {β : Type} {ops : Ops β} {c c' : Core β} {bus : Bus β} {on : Bool} {e : List Event} (hb : c.busses = [bus])
    (h : c.setTxEnabled ops 0 on = .ok (c', e)) (ha : TakesAll e) :
    ∃ bus', c'.busses = [bus'] ∧ bus.queue.map Pktbuf.bytes = (offers 0 e).map Offer.pkt ++ bus'.queue.map Pktbuf.bytes := by
  unfold Core.setTxEnabled at h
  obtain ⟨bus1, hbus, h⟩ := Res.bind_eq_ok.mp h
  obtain ⟨-, rfl⟩ := busAt_single hb hbus
  have hsame : ∀ s : BusState, ∃ bus', (c.setBus 0 { bus1 with state := s }).busses = [bus'] ∧
      bus1.queue.map Pktbuf.bytes = (offers 0 []).map Offer.pkt ++ bus'.queue.map Pktbuf.bytes :=
    fun s => ⟨{ bus1 with state := s }, by simp [Core.setBus, hb], rfl⟩
  split at h
  · split at h
    · simp only [Except.ok.injEq, Prod.mk.injEq] at h; obtain ⟨rfl, rfl⟩ := h; exact ⟨bus1, hb, rfl⟩
    · split at h
      · simp only [Except.ok.injEq, Prod.mk.injEq] at h; obtain ⟨rfl, rfl⟩ := h; exact ⟨bus1, hb, rfl⟩
      · simp only [Except.ok.injEq, Prod.mk.injEq] at h; obtain ⟨rfl, rfl⟩ := h; exact hsame _
  · split at h
    · simp only [Except.ok.injEq, Prod.mk.injEq] at h; obtain ⟨rfl, rfl⟩ := h; exact ⟨bus1, hb, rfl⟩
    · simp only [Except.ok.injEq, Prod.mk.injEq] at h; obtain ⟨rfl, rfl⟩ := h; exact hsame _
  · split at h
    · simp only [Except.ok.injEq, Prod.mk.injEq] at h; obtain ⟨rfl, rfl⟩ := h; exact ⟨bus1, hb, rfl⟩
    · obtain ⟨b', h1, h2⟩ := sendTxQueue_took (bus := { bus1 with state := .txEnabled }) (by simp [Core.setBus, hb]) h ha
      exact ⟨b', h1, h2⟩

theorem Chunk.took {hw : Hw E} {c c' : Core (AstSt E)} {e : List Event} (h : Chunk hw c e c') :
    ∀ {bus : Bus (AstSt E)}, c.busses = [bus] → c.bridge = false → TakesAll e →
      ∃ bus', c'.busses = [bus'] ∧ bus.queue.map Pktbuf.bytes = (offers 0 e).map Offer.pkt ++ bus'.queue.map Pktbuf.bytes := by
  induction h with
  | @quiet c bus0 b m hb hk hm =>
    intro bus hb' _ _
    rw [hb] at hb'; simp only [List.cons.injEq, and_true] at hb'; subst hb'
    exact ⟨_, rfl, rfl⟩
  | enable he => intro bus hb _ ha; exact setTxEnabled_took hb he ha
  | rx hp hx =>
    intro bus hb hbr ha
    obtain ⟨h1, h2⟩ := busRx_noTx (eid := bus.eid) hbr (by rw [hb]; rfl) hp hx
    exact ⟨bus, h1.trans hb, by rw [h2]; rfl⟩
  | trans x1 x2 ih1 ih2 =>
    intro bus hb hbr ha
    obtain ⟨a1, a2⟩ := TakesAll.append.mp ha
    obtain ⟨b1, hb1, e1⟩ := ih1 hb hbr a1
    obtain ⟨hbr1, -⟩ := x1.single hb hbr
    obtain ⟨b2, hb2, e2⟩ := ih2 hb1 hbr1 a2
    exact ⟨b2, hb2, by rw [e1, e2, offers_append, List.map_append, List.append_assoc]⟩

/-- A message that is accepted is appended to the queue, before anything is offered. -/
theorem messageTx_took {β : Type} {ops : Ops β} {c c' : Core β} {bus : Bus β} {d : Byte} {own : Bool} {g : Byte} {msg : List Byte}
    {e : List Event} {rc : Int} (hn : c.nBusses ≠ 0) (hb : c.busses = [bus]) (hsz : bus.state ≠ .constructed → 68 ≤ bus.binding.pktSize ∧ bus.binding.pktSize < 2 ^ 31)
    (h : c.messageTx ops d own g msg = .ok (c', e, rc)) (ha : TakesAll e) :
    (rc = 0 → g.toNat < 8 ∧ bus.state ≠ .constructed) ∧ ∃ bus', c'.busses = [bus'] ∧
      bus.queue.map Pktbuf.bytes ++ (if rc = 0 then fragments bus.binding.version bus.eid d own g (bus.binding.pktSize - 4) msg else []) =
        (offers 0 e).map Offer.pkt ++ bus'.queue.map Pktbuf.bytes := by
  unfold Core.messageTx at h
  split at h
  · simp only [Except.ok.injEq, Prod.mk.injEq] at h
    obtain ⟨rfl, rfl, rfl⟩ := h
    exact ⟨fun h => absurd h (by decide), bus, hb, by rw [if_neg (by decide)]; simp [offers]⟩
  · rename_i hg
    have hg' : g.toNat < 8 := tag_small_iff.mp (Decidable.not_not.mp hg)
    · obtain ⟨bus1, hbus, h⟩ := Res.bind_eq_ok.mp h
      obtain ⟨-, rfl⟩ := busAt_single hb hbus
      unfold Core.messageTxOnBus at h
      obtain ⟨bus2, hbus2, h⟩ := Res.bind_eq_ok.mp h
      obtain ⟨-, rfl⟩ := busAt_single hb hbus2
      split at h
      · simp only [Except.ok.injEq, Prod.mk.injEq] at h
        obtain ⟨rfl, rfl, rfl⟩ := h
        exact ⟨fun h => absurd h (by decide), bus2, hb, by rw [if_neg (by decide)]; simp [offers]⟩
      · rename_i hst
        · simp only at h
          split at h
          · cases h
          · obtain ⟨⟨m, q⟩, hl, h⟩ := Res.bind_eq_ok.mp h
            obtain ⟨⟨c1, e1⟩, hs, h⟩ := Res.bind_eq_ok.mp h
            simp only [Except.ok.injEq, Prod.mk.injEq] at h
            obtain ⟨rfl, rfl, rfl⟩ := h
            obtain ⟨hb1, hb2⟩ := hsz hst
            have hmtu : bodySize bus2.binding.pktSize = bus2.binding.pktSize - 4 := bodySize_eq (by omega) (by omega)
            rw [hmtu] at hl
            obtain ⟨ps, hq, _, hps⟩ := txLoop_ok (by omega) hg' (by simp) hl
            obtain ⟨b', h1, h2⟩ := sendTxQueue_took (bus := { bus2 with queue := q }) (by simp [Core.setBus, hb]) hs ha
            refine ⟨fun _ => ⟨hg', hst⟩, b', h1, ?_⟩
            rw [if_pos rfl, ← h2]
            simp only [hq, List.map_append, hps, fragments, Nat.sub_zero, List.range_eq_range']


theorem astStep_took {hw : Hw E} {mode : AstMode} {mtu sz : Nat} {c c' : Core (AstSt E)} {bus : Bus (AstSt E)} {op : AstOp}
    {e : List Event} {rc : Int} (hb : c.busses = [bus]) (hbr : c.bridge = false) (hn : c.nBusses ≠ 0) (hj : AstJ mode mtu bus)
    (h76 : 76 ≤ sz) (h31 : sz < 2 ^ 31) (hsz : bus.state ≠ .constructed → bus.binding.pktSize + 8 = sz)
    (he : c.astStep hw op = .ok (c', e, rc)) (ha : TakesAll e) :
    c'.nBusses ≠ 0 ∧ (∀ m ∈ acceptedBy (sz - 12) [⟨op, e, rc⟩], m.tag.toNat < 8) ∧ ∃ bus', c'.busses = [bus'] ∧ bus'.eid = bus.eid ∧
      bus'.binding.version = bus.binding.version ∧
      bus.queue.map Pktbuf.bytes ++ (acceptedBy (sz - 12) [⟨op, e, rc⟩]).flatMap (Msg.packets bus.binding.version bus.eid) =
        (offers 0 e).map Offer.pkt ++ bus'.queue.map Pktbuf.bytes := by
  unfold Core.astStep at he
  split at he
  · rename_i o ho
    have hop : IsApp o := AstOp.isApp ho
    obtain ⟨bus', m, hx, hc, mx, rfl, ⟨k1, k2⟩, hev⟩ := step_keeps (J := fun _ b => b.eid = bus.eid ∧ b.binding.version = bus.binding.version)
      ⟨⟨fun h _ _ _ => ⟨h.1, h.2⟩, fun h _ _ => h⟩, fun h _ => h⟩ hb (os := []) ⟨rfl, rfl⟩ hop he
    cases op with
    | send d own g msg =>
      simp only [AstOp.core, Option.some.injEq] at ho
      subst ho
      obtain ⟨t1, b2, hb2, t2⟩ := messageTx_took hn hb (fun hs => by have := hsz hs; omega) he ha
      simp only [List.cons.injEq, and_true] at hb2
      subst hb2
      have hacc : acceptedBy (sz - 12) [⟨.send d own g msg, e, rc⟩] = if rc = 0 then [⟨d, own, g, sz - 12, msg⟩] else [] := by
        unfold acceptedBy
        by_cases h : rc = 0 <;> simp [h]
      refine ⟨hn, ?_, bus', rfl, k1, k2, ?_⟩
      · rw [hacc]
        intro m hm
        split at hm
        · rename_i h0
          simp only [List.mem_singleton] at hm
          subst hm
          exact (t1 h0).1
        · cases hm
      · rw [hacc, ← t2]
        congr 1
        split
        · rename_i h0
          have := hsz (t1 h0).2
          simp only [List.flatMap_cons, List.flatMap_nil, List.append_nil, Msg.packets]
          rw [show sz - 12 = bus.binding.pktSize - 4 by omega]
        · rfl
    | poll => simp [AstOp.core] at ho
    | _ =>
      simp only [AstOp.core, Option.some.injEq] at ho
      subst ho
      have hbs : c.busses = [bus'] ∧ e = [] := by
        simp only [Core.step, Except.ok.injEq, Prod.mk.injEq, Core.setMaxMessageSize, Core.setCapture, Core.setRxAll, Core.mk.injEq] at he
        exact ⟨he.1.2.2.2.2.2.1, he.2.1.symm⟩
      obtain ⟨h1, rfl⟩ := hbs
      rw [hb] at h1
      simp only [List.cons.injEq, and_true] at h1
      subst h1
      refine ⟨hn, by simp [acceptedBy], bus, rfl, rfl, rfl, by simp [acceptedBy, offers]⟩
  · rename_i ho
    have hp : op = .poll := by cases op <;> simp [AstOp.core] at ho ⊢
    subst hp
    obtain ⟨bus0, m, t, rfl, -⟩ := astPoll_frame hb hbr hj he
    have hch := astPoll_chunk hb hbr hj he
    obtain ⟨-, -, -, -, b1, hb1, k1, k2⟩ := hch.single hb hbr
    obtain ⟨b2, hb2, t2⟩ := hch.took hb hbr ha
    rw [hb1] at hb2
    simp only [List.cons.injEq, and_true] at hb2
    subst hb2
    refine ⟨hn, by simp [acceptedBy], b1, hb1, k1, k2.1, ?_⟩
    rw [← t2]
    simp [acceptedBy]

/-- What is known about one step of an endpoint whose link behaves. -/
structure StepOk (hw : Hw E) (g : LinkCfg) (U : AstSt E → Prop) (I : Core (AstSt E) → Prop) : Prop where
  inv  : ∀ {c c' op e rc}, I c → c.astStep hw op = .ok (c', e, rc) → I c'
  step : ∀ {c c' op e rc os rs}, I c → Follows g U none os rs c → c.astStep hw op = .ok (c', e, rc) →
    Follows g U none (os ++ offers 0 e) (rs ++ packetsIn e) c'

theorem astRun_took {hw : Hw E} {mode : AstMode} {mtu : Nat} {g : LinkCfg} {U : AstSt E → Prop} {I : Core (AstSt E) → Prop}
    (hok : StepOk hw g U I) (h76 : 76 ≤ g.sz) (h31 : g.sz < 2 ^ 31) {hist : List AstOp} :
    ∀ {c c' : Core (AstSt E)} {bus : Bus (AstSt E)} {log : List AstRec} {os : List Offer} {rs : List (List Byte)},
      c.busses = [bus] → c.bridge = false → c.nBusses ≠ 0 → AstJ mode mtu bus → I c → Follows g U none os rs c →
      c.astRun hw hist = .ok (c', log) →
      ∃ bus', c'.busses = [bus'] ∧ (Obeys g bus'.binding.st (fun _ => False) ∨
        (∀ o ∈ os, o.rc = 0) ∧ TakesAll (astEvents log) ∧ bus.binding.version = 1 ∧ (∀ m ∈ acceptedBy (g.sz - 12) log, m.tag.toNat < 8) ∧
        bus.queue.map Pktbuf.bytes ++ (acceptedBy (g.sz - 12) log).flatMap (Msg.packets 1 bus.eid) =
          (offers 0 (astEvents log)).map Offer.pkt ++ bus'.queue.map Pktbuf.bytes) := by
  induction hist with
  | nil =>
    intro c c' bus log os rs hb hbr hn hj hI hf he
    simp only [Core.astRun, Except.ok.injEq, Prod.mk.injEq] at he
    obtain ⟨rfl, rfl⟩ := he
    obtain ⟨b, hb', ho⟩ := hf
    rw [hb] at hb'; simp only [List.cons.injEq, and_true] at hb'; subst hb'
    refine ⟨bus, hb, ?_⟩
    rcases ho.fact (X := (∀ o ∈ os, o.rc = 0) ∧ bus.binding.version = 1) (fun f hf => ⟨hf.all, hf.ver⟩) with ⟨h1, h2⟩ | h
    · exact .inr ⟨h1, by intro o ho; simp [astEvents, offers] at ho, h2, by simp [acceptedBy], by simp [acceptedBy, astEvents, offers]⟩
    · exact .inl h
  | cons op rest ih =>
    intro c c' bus log os rs hb hbr hn hj hI hf he
    simp only [Core.astRun] at he
    obtain ⟨⟨c1, e1, rc1⟩, h1, he⟩ := Res.bind_eq_ok.mp he
    obtain ⟨⟨c2, log2⟩, h2, he⟩ := Res.bind_eq_ok.mp he
    simp only [Except.ok.injEq, Prod.mk.injEq] at he
    obtain ⟨rfl, rfl⟩ := he
    obtain ⟨b1, hb1, hbr1, hj1⟩ := astStep_inv hb hbr hj h1
    have hf1 := hok.step hI hf h1
    have hI1 := hok.inv hI h1
    obtain ⟨b, hb', ho⟩ := hf
    rw [hb] at hb'; simp only [List.cons.injEq, and_true] at hb'; subst hb'
    obtain ⟨b', hb'', ho1⟩ := id hf1
    rw [hb1] at hb''; simp only [List.cons.injEq, and_true] at hb''; subst hb''
    have hrun : c.astRun hw (op :: rest) = .ok (c2, ⟨op, e1, rc1⟩ :: log2) := by
      simp only [Core.astRun, h1, Res.bind_ok, h2]
    -- what must hold now, if the link is not broken
    rcases ho.fact (X := (bus.state ≠ .constructed → bus.binding.pktSize + 8 = g.sz) ∧ bus.binding.version = 1)
      (fun f hf => ⟨fun hs => (hf.lay (hf.live hs).1).2.2.2.2.2, hf.ver⟩) with ⟨hsz, hv⟩ | h
    · rcases ho1.fact (X := ∀ o ∈ os ++ offers 0 e1, o.rc = 0) (fun f hf => hf.all) with hall | h
      · have ha : TakesAll e1 := fun o ho => hall o (List.mem_append_right _ ho)
        obtain ⟨hn1, ht, b2, hb2, k1, k2, k3⟩ := astStep_took hb hbr hn hj h76 h31 hsz h1 ha
        rw [hb1] at hb2; simp only [List.cons.injEq, and_true] at hb2; subst hb2
        obtain ⟨bus', hbe, hx⟩ := ih hb1 hbr1 hn1 hj1 hI1 hf1 h2
        refine ⟨bus', hbe, hx.imp_right ?_⟩
        rintro ⟨g1, g2, g3, g4, g5⟩
        refine ⟨fun o ho => g1 o (List.mem_append_left _ ho), TakesAll.append.mpr ⟨ha, g2⟩, hv, ?_, ?_⟩
        · rw [acceptedBy_cons]
          intro m hm
          rcases List.mem_append.mp hm with h | h
          · exact ht m h
          · exact g4 m h
        · rw [k1] at g5
          rw [hv] at k3
          rw [acceptedBy_cons, List.flatMap_append, ← List.append_assoc, k3, List.append_assoc, g5]
          simp [astEvents, offers_append, List.append_assoc]
      · obtain ⟨b', l, hbe, hl, -⟩ := astRun_shut hb1 hbr1 hj1 h2
        exact ⟨b', hbe, .inl (h.never hl)⟩
    · obtain ⟨b', l, hbe, hl, -⟩ := astRun_shut hb hbr hj hrun
      exact ⟨b', hbe, .inl (h.never hl)⟩

end Mctp
