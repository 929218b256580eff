import Verif.Proofs.AstSend

/-! Between calls, packets wait in the queue of a bus only while transmission is disabled. -/

namespace Mctp

open Spec

variable {E : Type}

/-- Packets wait only while transmission is disabled. -/
def Flushed {β : Type} (c : Core β) : Prop := ∃ bus, c.busses = [bus] ∧ (bus.state ≠ .txDisabled → bus.queue = [])

theorem sendQueue_flushed {β : Type} {ops : Ops β} {cap : Bool} {q : List Pktbuf} :
    ∀ {m m' : Mem} {bus bus' : Bus β} {e : List Event},
    sendQueue ops cap 0 m bus q = .ok (m', bus', e) → TakesAll e → bus.state ≠ .constructed →
    bus'.state ≠ .txDisabled → bus'.queue = [] := by
  induction q with
  | nil =>
    intro m m' bus bus' e h _ _ _
    simp only [sendQueue, Except.ok.injEq, Prod.mk.injEq] at h
    obtain ⟨rfl, rfl, rfl⟩ := h
    rfl
  | cons p q ih =>
    intro m m' bus bus' e h ha hc hd
    unfold sendQueue at h
    split at h
    · rename_i hst
      simp only [Except.ok.injEq, Prod.mk.injEq] at h
      obtain ⟨rfl, rfl, rfl⟩ := h
      simp only at hd
      cases hs : bus.state
      · exact absurd hs hc
      · exact absurd hs hst
      · exact absurd hs hd
    · obtain ⟨_, _, h⟩ := Res.bind_eq_ok.mp h
      obtain ⟨out, ho, h⟩ := Res.bind_eq_ok.mp h
      simp only at h
      split at h
      · obtain ⟨m1, hm1, h⟩ := Res.bind_eq_ok.mp h
        obtain ⟨⟨m2, b2, e2⟩, hr, h⟩ := Res.bind_eq_ok.mp h
        simp only [Except.ok.injEq, Prod.mk.injEq] at h
        obtain ⟨rfl, rfl, rfl⟩ := h
        exact ih hr (TakesAll.append.mp ha).2 (by simp only; split <;> simp) hd
      · rename_i hcn
        simp only [Except.ok.injEq, Prod.mk.injEq] at h
        obtain ⟨rfl, rfl, rfl⟩ := h
        refine absurd (.inl (ha ⟨p.bytes, out.rc, out.disableTx⟩ ?_)) hcn
        rw [offers_append, offers_cap, offers_tx, if_pos rfl]
        simp

theorem sendTxQueue_flushed {β : Type} {ops : Ops β} {c c' : Core β} {bus : Bus β} {e : List Event} (hb : c.busses = [bus])
    (hc : bus.state ≠ .constructed) (h : c.sendTxQueue ops 0 = .ok (c', e)) (ha : TakesAll e) : Flushed c' := by
  unfold Core.sendTxQueue at h
  obtain ⟨bus1, hbus, h⟩ := Res.bind_eq_ok.mp h
  obtain ⟨-, rfl⟩ := busAt_single hb hbus
  obtain ⟨⟨m, b, e'⟩, hs, h⟩ := Res.bind_eq_ok.mp h
  simp only [Except.ok.injEq, Prod.mk.injEq] at h
  obtain ⟨rfl, rfl⟩ := h
  exact ⟨b, by simp [Core.setBus, hb], sendQueue_flushed hs ha hc⟩

theorem setTxEnabled_flushed {β : Type} {ops : Ops β} {c c' : Core β} {on : Bool} {e : List Event} (hf : Flushed c)
    (h : c.setTxEnabled ops 0 on = .ok (c', e)) (ha : TakesAll e) : Flushed c' := by
  obtain ⟨bus, hb, hq⟩ := hf
  unfold Core.setTxEnabled at h
  obtain ⟨bus1, hbus, h⟩ := Res.bind_eq_ok.mp h
  obtain ⟨-, rfl⟩ := busAt_single hb hbus
  have hsame : Flushed c := ⟨bus1, hb, hq⟩
  split at h
  · rename_i hs
    split at h
    · simp only [Except.ok.injEq, Prod.mk.injEq] at h; obtain ⟨rfl, rfl⟩ := h; exact hsame
    · split at h
      · simp only [Except.ok.injEq, Prod.mk.injEq] at h; obtain ⟨rfl, rfl⟩ := h; exact hsame
      · simp only [Except.ok.injEq, Prod.mk.injEq] at h; obtain ⟨rfl, rfl⟩ := h
        exact ⟨{ bus1 with state := .txEnabled }, by simp [Core.setBus, hb], fun _ => hq (by rw [hs]; simp)⟩
  · rename_i hs
    split at h
    · simp only [Except.ok.injEq, Prod.mk.injEq] at h; obtain ⟨rfl, rfl⟩ := h; exact hsame
    · simp only [Except.ok.injEq, Prod.mk.injEq] at h; obtain ⟨rfl, rfl⟩ := h
      exact ⟨{ bus1 with state := .txDisabled }, by simp [Core.setBus, hb], fun _ => hq (by rw [hs]; simp)⟩
  · split at h
    · simp only [Except.ok.injEq, Prod.mk.injEq] at h; obtain ⟨rfl, rfl⟩ := h; exact hsame
    · exact sendTxQueue_flushed (bus := { bus1 with state := .txEnabled }) (by simp [Core.setBus, hb]) (by simp) h ha

theorem Chunk.flushed {hw : Hw E} {c c' : Core (AstSt E)} {e : List Event} (h : Chunk hw c e c') :
    c.bridge = false → Flushed c → TakesAll e → Flushed c' := by
  induction h with
  | @quiet c bus0 b m hb hk hm =>
    rintro - ⟨bus, hb', hq⟩ -
    rw [hb] at hb'; simp only [List.cons.injEq, and_true] at hb'; subst hb'
    exact ⟨_, rfl, hq⟩
  | enable he => intro _ hf ha; exact setTxEnabled_flushed hf he ha
  | rx hp hx =>
    rintro hbr ⟨bus, hb, hq⟩ -
    obtain ⟨h1, -⟩ := busRx_noTx (eid := bus.eid) hbr (by rw [hb]; rfl) hp hx
    exact ⟨bus, h1.trans hb, hq⟩
  | trans x1 x2 ih1 ih2 =>
    intro hbr hf ha
    obtain ⟨a1, a2⟩ := TakesAll.append.mp ha
    obtain ⟨bus, hb, -⟩ := id hf
    exact ih2 (x1.single hb hbr).1 (ih1 hbr hf a1) a2

theorem messageTx_flushed {β : Type} {ops : Ops β} {c c' : Core β} {d : Byte} {own : Bool} {g : Byte} {msg : List Byte}
    {e : List Event} {rc : Int} (hf : Flushed c) (h : c.messageTx ops d own g msg = .ok (c', e, rc)) (ha : TakesAll e) : Flushed c' := by
  obtain ⟨bus, hb, hq⟩ := hf
  have hsame : Flushed c := ⟨bus, hb, hq⟩
  unfold Core.messageTx at h
  split at h
  · simp only [Except.ok.injEq, Prod.mk.injEq] at h
    obtain ⟨rfl, -⟩ := h
    exact hsame
  · split at h
    · simp only [Except.ok.injEq, Prod.mk.injEq] at h
      obtain ⟨rfl, -⟩ := h
      exact hsame
    obtain ⟨bus1, hbus, h⟩ := Res.bind_eq_ok.mp h
    unfold Core.messageTxOnBus at h
    obtain ⟨bus2, hbus2, h⟩ := Res.bind_eq_ok.mp h
    obtain ⟨-, rfl⟩ := busAt_single hb hbus2
    split at h
    · simp only [Except.ok.injEq, Prod.mk.injEq] at h
      obtain ⟨rfl, -⟩ := h
      exact hsame
    · rename_i hst
      simp only at h
      split at h
      · cases h
      · obtain ⟨⟨m, q⟩, hl, h⟩ := Res.bind_eq_ok.mp h
        obtain ⟨⟨c1, e1⟩, hs, h⟩ := Res.bind_eq_ok.mp h
        simp only [Except.ok.injEq, Prod.mk.injEq] at h
        obtain ⟨rfl, rfl, -⟩ := h
        exact sendTxQueue_flushed (bus := { bus2 with queue := q }) (by simp [Core.setBus, hb]) hst hs ha

theorem astStep_flushed {hw : Hw E} {mode : AstMode} {mtu : Nat} {c c' : Core (AstSt E)} {bus : Bus (AstSt E)} {op : AstOp}
    {e : List Event} {rc : Int} (hb : c.busses = [bus]) (hbr : c.bridge = false) (hj : AstJ mode mtu bus) (hf : Flushed c)
    (he : c.astStep hw op = .ok (c', e, rc)) (ha : TakesAll e) : Flushed c' := by
  unfold Core.astStep at he
  split at he
  · rename_i o ho
    cases op with
    | send d own g msg =>
      simp only [AstOp.core, Option.some.injEq] at ho
      subst ho
      exact messageTx_flushed hf he ha
    | poll => simp [AstOp.core] at ho
    | _ =>
      simp only [AstOp.core, Option.some.injEq] at ho
      subst ho
      simp only [Core.step, Except.ok.injEq, Prod.mk.injEq] at he
      obtain ⟨rfl, -⟩ := he
      exact hf
  · exact (astPoll_chunk hb hbr hj he).flushed hbr hf ha

theorem astRun_flushed {hw : Hw E} {mode : AstMode} {mtu : Nat} {hist : List AstOp} :
    ∀ {c c' : Core (AstSt E)} {bus : Bus (AstSt E)} {log : List AstRec}, c.busses = [bus] → c.bridge = false → AstJ mode mtu bus →
      Flushed c → c.astRun hw hist = .ok (c', log) → TakesAll (astEvents log) → Flushed c' := by
  induction hist with
  | nil =>
    intro c c' bus log hb hbr hj hf he _
    simp only [Core.astRun, Except.ok.injEq, Prod.mk.injEq] at he
    obtain ⟨rfl, rfl⟩ := he
    exact hf
  | cons op rest ih =>
    intro c c' bus log hb hbr hj hf he ha
    simp only [Core.astRun] at he
    obtain ⟨⟨c1, e1, rc1⟩, h1, he⟩ := Res.bind_eq_ok.mp he
    obtain ⟨⟨c2, log2⟩, h2, he⟩ := Res.bind_eq_ok.mp he
    simp only [Except.ok.injEq, Prod.mk.injEq] at he
    obtain ⟨rfl, rfl⟩ := he
    obtain ⟨b1, hb1, hbr1, hj1⟩ := astStep_inv hb hbr hj h1
    obtain ⟨a1, a2⟩ := TakesAll.append (a := e1) (b := astEvents log2) |>.mp ha
    exact ih hb1 hbr1 hj1 (astStep_flushed hb hbr hj hf h1 a1) h2 a2

theorem AstEndpoint.flushed {hw : Hw E} {env : E} {eid : Byte} {mx : Nat} {mode : AstMode} {mtu : Nat} {mem : Mem}
    {c0 c : Core (AstSt E)} (h : AstEndpoint hw env eid mx mode mtu mem c0) {hist : List AstOp} {log : List AstRec}
    (hr : c0.astRun hw hist = .ok (c, log)) (ha : TakesAll (astEvents log)) : Flushed c := by
  obtain ⟨bus, hb, hbr, hj⟩ := h.inv
  obtain ⟨rc, s, hrc, hs, hb', -⟩ := h.start
  exact astRun_flushed hb hbr hj ⟨_, hb', fun _ => rfl⟩ hr ha

end Mctp
