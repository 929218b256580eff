import Verif.Proofs.Setup
import Verif.Spec.Capture

/-! Capture events are exactly the required ones. -/

namespace Mctp

open Spec

variable {β : Type}

/-- The capture invocations of `e` are the required ones. -/
def Captured (on : Bool) (e : List Event) : Prop :=
  e = if on then withCapture (uncaptured e) else uncaptured e

theorem uncaptured_append (a b : List Event) : uncaptured (a ++ b) = uncaptured a ++ uncaptured b := by
  unfold uncaptured; exact List.filter_append ..

theorem withCapture_append (a b : List Event) : withCapture (a ++ b) = withCapture a ++ withCapture b := by
  unfold withCapture; exact List.flatMap_append ..

theorem Captured.append {on : Bool} {a b : List Event} (ha : Captured on a) (hb : Captured on b) :
    Captured on (a ++ b) := by
  unfold Captured at *
  cases on with
  | true =>
    simp only [if_true] at *
    rw [uncaptured_append, withCapture_append, ← ha, ← hb]
  | false =>
    simp only [Bool.false_eq_true, if_false] at *
    rw [uncaptured_append, ← ha, ← hb]

theorem Captured.nil (on : Bool) : Captured on [] := by cases on <;> rfl

theorem Captured.offer (on : Bool) (i : Nat) (p : List Byte) (rc : Int) (off : Bool) :
    Captured on ((if on then [Event.capture true p] else []) ++ [Event.tx i p rc off]) := by
  cases on <;> rfl

theorem sendQueue_captured {ops : Ops β} {on : Bool} {i : Nat} {m : Mem} {bus : Bus β}
    {q : List Pktbuf} {m' : Mem} {bus' : Bus β} {e : List Event}
    (h : sendQueue ops on i m bus q = .ok (m', bus', e)) : Captured on e ∧ received e = [] := by
  induction q generalizing m bus m' bus' e with
  | nil =>
    simp only [sendQueue, Except.ok.injEq, Prod.mk.injEq] at h
    rw [← h.2.2]; exact ⟨.nil on, rfl⟩
  | cons p q ih =>
    unfold sendQueue at h
    split at h
    · simp only [Except.ok.injEq, Prod.mk.injEq] at h; rw [← h.2.2]; exact ⟨.nil on, rfl⟩
    · obtain ⟨_, _, h⟩ := Res.bind_eq_ok.mp h
      obtain ⟨out, ho, h⟩ := Res.bind_eq_ok.mp h
      simp only at h
      split at h
      · obtain ⟨m1, hm1, h⟩ := Res.bind_eq_ok.mp h
        obtain ⟨⟨m2, b2, e2⟩, hr, h⟩ := Res.bind_eq_ok.mp h
        simp only [Except.ok.injEq, Prod.mk.injEq] at h
        rw [← h.2.2]
        obtain ⟨i1, i2⟩ := ih hr
        refine ⟨(Captured.offer ..).append i1, ?_⟩
        unfold received at i2 ⊢
        rw [List.filterMap_append, i2]
        cases on <;> rfl
      · simp only [Except.ok.injEq, Prod.mk.injEq] at h
        rw [← h.2.2]
        refine ⟨.offer .., ?_⟩
        cases on <;> rfl

theorem sendTxQueue_captured {ops : Ops β} {c c' : Core β} {i : Nat} {e : List Event}
    (h : c.sendTxQueue ops i = .ok (c', e)) : Captured c.hasCapture e ∧ received e = [] := by
  unfold Core.sendTxQueue at h
  obtain ⟨bus, hbus, h⟩ := Res.bind_eq_ok.mp h
  obtain ⟨⟨m, b, e'⟩, hs, h⟩ := Res.bind_eq_ok.mp h
  simp only [Except.ok.injEq, Prod.mk.injEq] at h
  obtain ⟨-, rfl⟩ := h
  exact sendQueue_captured hs

theorem messageTxOnBus_captured {ops : Ops β} {c c' : Core β} {i : Nat} {s d : Byte} {own : Bool}
    {g : Byte} {msg : List Byte} {e : List Event} {rc : Int}
    (h : c.messageTxOnBus ops i s d own g msg = .ok (c', e, rc)) :
    Captured c.hasCapture e ∧ received e = [] := by
  unfold Core.messageTxOnBus at h
  obtain ⟨bus, hbus, h⟩ := Res.bind_eq_ok.mp h
  split at h
  · simp only [Except.ok.injEq, Prod.mk.injEq] at h
    obtain ⟨rfl, rfl, -⟩ := h; exact ⟨.nil _, rfl⟩
  · split at h
    · simp only [Except.ok.injEq, Prod.mk.injEq] at h
      obtain ⟨rfl, rfl, -⟩ := h; exact ⟨.nil _, rfl⟩
    · simp only at h
      split at h
      · cases h
      · obtain ⟨⟨m, q⟩, hl, h⟩ := Res.bind_eq_ok.mp h
        obtain ⟨⟨c1, e1⟩, hs, h⟩ := Res.bind_eq_ok.mp h
        simp only [Except.ok.injEq, Prod.mk.injEq] at h
        obtain ⟨rfl, rfl, -⟩ := h
        have := sendTxQueue_captured hs
        exact this

theorem bridgeLoop_captured {ops : Ops β} {n : Nat} {s d : Byte} {own : Bool} {g : Byte}
    {msg : List Byte} {js : List Nat} {c c' : Core β} {e : List Event}
    (h : bridgeLoop ops n s d own g msg js c = .ok (c', e)) :
    Captured c.hasCapture e ∧ received e = [] := by
  induction js generalizing c c' e with
  | nil => simp [bridgeLoop] at h; obtain ⟨rfl, rfl⟩ := h; exact ⟨.nil _, rfl⟩
  | cons j js ih =>
    unfold bridgeLoop at h
    split at h
    · exact ih h
    · obtain ⟨⟨c1, e1, _⟩, h1, h⟩ := Res.bind_eq_ok.mp h
      obtain ⟨⟨c2, e2⟩, h2, h⟩ := Res.bind_eq_ok.mp h
      simp only [Except.ok.injEq, Prod.mk.injEq] at h
      obtain ⟨rfl, rfl⟩ := h
      obtain ⟨_, m1, bs1, rfl, _⟩ := messageTxOnBus_ok h1
      obtain ⟨a1, a2⟩ := messageTxOnBus_captured h1
      obtain ⟨b1, b2⟩ := ih h2
      refine ⟨a1.append b1, ?_⟩
      unfold received at a2 b2 ⊢
      rw [List.filterMap_append, a2, b2]; rfl

theorem rx_captured {ops : Ops β} {c c' : Core β} {i : Nat} {bus : Bus β} {s d : Byte} {own : Bool}
    {g : Byte} {msg : List Byte} {e : List Event}
    (h : c.rx ops i bus s d own g msg = .ok (c', e)) :
    Captured c.hasCapture e ∧ received e = [] := by
  by_cases hb : c.bridge = false
  · rw [rx_endpoint ops hb] at h
    simp only [Except.ok.injEq, Prod.mk.injEq] at h
    obtain ⟨rfl, rfl⟩ := h
    unfold routeEvents
    repeat' split
    all_goals exact ⟨by cases c.hasCapture <;> rfl, rfl⟩
  · unfold Core.rx at h
    rw [if_pos (by simpa using hb)] at h
    exact bridgeLoop_captured h

theorem ctxStep_bind {ops : Ops β} {c c1 : Core β} {i : Nat} {bus : Bus β} {pkt : Pktbuf}
    {s d g q : Byte} {own som eom : Bool} {e : List Event}
    (h : c.rxFrag ops i bus pkt s d g q own som eom = .ok (c1, e)) :
    Captured c.hasCapture e ∧ received e = [] ∧ c1.hasCapture = c.hasCapture := by
  unfold Core.rxFrag at h
  obtain ⟨⟨m, t, out⟩, _, h⟩ := Res.bind_eq_ok.mp h
  cases out with
  | none =>
    simp only [Except.ok.injEq, Prod.mk.injEq] at h
    obtain ⟨rfl, rfl⟩ := h
    exact ⟨.nil _, rfl, rfl⟩
  | some msg =>
    simp only at h
    obtain ⟨h1, h2⟩ := rx_captured h
    obtain ⟨_, m', bs, rfl, _⟩ := rx_ok h
    exact ⟨h1, h2, rfl⟩

theorem rxPacket_captured {ops : Ops β} {c c' : Core β} {i : Nat} {bs : List Byte} {e : List Event}
    (h : c.rxPacket ops i bs = .ok (c', e)) :
    Captured c.hasCapture e ∧ c'.hasCapture = c.hasCapture ∧
      (received e = [(i, bs)] ∨ e = [] ∧ ∃ bus, c.busAt i = .ok bus ∧ (c.mem.alloc.1 = none ∨
        bus.binding.pktSize + bus.binding.pktHeader + bus.binding.pktTrailer < bs.length)) := by
  rcases rxPacket_cases h with ⟨bus, m, hbus, hh, rfl, rfl⟩ | ⟨bus, m, pkt, hbus, ha, hp, hr⟩
  · exact ⟨.nil _, rfl, .inr ⟨rfl, bus, hbus, hh⟩⟩
  · obtain ⟨bus', hbus', hh⟩ := busRx_cases hp hr
    rcases hh with ⟨hpn, rfl, m', _, rfl⟩ | ⟨f, c1, e1, m', hf, hb, hm, rfl, rfl⟩
    · have hl : ¬ 4 < bs.length := by have := parse_none.mp hpn; omega
      refine ⟨?_, rfl, .inl rfl⟩
      unfold Captured
      cases c.hasCapture <;> simp [uncaptured, withCapture, isCapture, hl]
    · have hl : 4 < bs.length := by
        rcases Nat.lt_or_ge 4 bs.length with h | h
        · exact h
        · rw [parse_none.mpr h] at hf; cases hf
      have hbody : Captured c.hasCapture e1 ∧ received e1 = [] ∧ c1.hasCapture = c.hasCapture := by
        rw [busRxBody_parse ops _ i bus' hp hf] at hb
        split at hb
        · simp only [Except.ok.injEq, Prod.mk.injEq] at hb
          obtain ⟨rfl, rfl⟩ := hb
          exact ⟨.nil _, rfl, rfl⟩
        · split at hb
          · obtain ⟨h1, h2⟩ := rx_captured hb
            obtain ⟨_, m', bs, rfl, _⟩ := rx_ok hb
            exact ⟨h1, h2, rfl⟩
          · have := ctxStep_bind hb
            exact this
      obtain ⟨h1, h2, h3⟩ := hbody
      refine ⟨?_, h3, .inl ?_⟩
      · have : Captured c.hasCapture (Event.recv i bs :: capIn ({ c with mem := m } : Core β) bs) := by
          unfold Captured capIn
          cases c.hasCapture <;> simp [uncaptured, withCapture, isCapture, hl]
        exact this.append h1
      · unfold received at h2 ⊢
        rw [List.filterMap_cons]
        simp only [List.filterMap_append, h2, List.append_nil]
        unfold capIn
        cases c.hasCapture <;> rfl

/-- One call. -/
theorem step_captured {ops : Ops β} {c c' : Core β} {op : Op β} {e : List Event} {rc : Int}
    (h : c.step ops op = .ok (c', e, rc)) :
    Captured c.hasCapture e ∧ c'.hasCapture = captureSet c.hasCapture [op] ∧
      ((∀ i bs, op ≠ .recv i bs) → received e = []) := by
  cases op with
  | recv i bs =>
    simp only [Core.step] at h
    obtain ⟨⟨c1, e1⟩, hr, h⟩ := Res.bind_eq_ok.mp h
    simp only [Except.ok.injEq, Prod.mk.injEq] at h
    obtain ⟨rfl, rfl, -⟩ := h
    obtain ⟨h1, h2, _⟩ := rxPacket_captured hr
    exact ⟨h1, h2, fun h => absurd rfl (h i bs)⟩
  | send d own g msg =>
    simp only [Core.step, Core.messageTx] at h
    split at h
    · simp only [Except.ok.injEq, Prod.mk.injEq] at h
      obtain ⟨rfl, rfl, -⟩ := h
      exact ⟨.nil _, rfl, fun _ => rfl⟩
    · split at h
      · simp only [Except.ok.injEq, Prod.mk.injEq] at h
        obtain ⟨rfl, rfl, -⟩ := h
        exact ⟨.nil _, rfl, fun _ => rfl⟩
      · obtain ⟨bus, hbus, h⟩ := Res.bind_eq_ok.mp h
        obtain ⟨_, m, bs, rfl, hb⟩ := messageTxOnBus_ok h
        obtain ⟨h1, h2⟩ := messageTxOnBus_captured h
        exact ⟨h1, rfl, fun _ => h2⟩
  | enable i on =>
    simp only [Core.step, Core.setTxEnabled] at h
    obtain ⟨⟨c1, e1⟩, hs, h⟩ := Res.bind_eq_ok.mp h
    simp only [Except.ok.injEq, Prod.mk.injEq] at h
    obtain ⟨rfl, rfl, -⟩ := h
    obtain ⟨bus, hbus, hs⟩ := Res.bind_eq_ok.mp hs
    split at hs
    · split at hs
      · simp only [Except.ok.injEq, Prod.mk.injEq] at hs
        obtain ⟨rfl, rfl⟩ := hs
        exact ⟨.nil _, rfl, fun _ => rfl⟩
      · split at hs
        · simp only [Except.ok.injEq, Prod.mk.injEq] at hs
          obtain ⟨rfl, rfl⟩ := hs
          exact ⟨.nil _, rfl, fun _ => rfl⟩
        · simp only [Except.ok.injEq, Prod.mk.injEq] at hs
          obtain ⟨rfl, rfl⟩ := hs
          exact ⟨.nil _, rfl, fun _ => rfl⟩
    · split at hs
      · simp only [Except.ok.injEq, Prod.mk.injEq] at hs
        obtain ⟨rfl, rfl⟩ := hs
        exact ⟨.nil _, rfl, fun _ => rfl⟩
      · simp only [Except.ok.injEq, Prod.mk.injEq] at hs
        obtain ⟨rfl, rfl⟩ := hs
        exact ⟨.nil _, rfl, fun _ => rfl⟩
    · split at hs
      · simp only [Except.ok.injEq, Prod.mk.injEq] at hs
        obtain ⟨rfl, rfl⟩ := hs
        exact ⟨.nil _, rfl, fun _ => rfl⟩
      · obtain ⟨he, m, bs, rfl, hb⟩ := sendTxQueue_ok hs
        obtain ⟨h1, h2⟩ := sendTxQueue_captured hs
        exact ⟨h1, rfl, fun _ => h2⟩
  | rebind i st ps ph pt cr =>
    simp only [Core.step] at h
    obtain ⟨bus, hbus, h⟩ := Res.bind_eq_ok.mp h
    simp only [Except.ok.injEq, Prod.mk.injEq] at h
    obtain ⟨rfl, rfl, -⟩ := h
    exact ⟨.nil _, rfl, fun _ => rfl⟩
  | _ =>
    simp only [Core.step, Except.ok.injEq, Prod.mk.injEq] at h
    obtain ⟨rfl, rfl, -⟩ := h
    exact ⟨.nil _, rfl, fun _ => rfl⟩

theorem captureSet_append {a b : List (Op β)} {on : Bool} :
    captureSet on (a ++ b) = captureSet (captureSet on a) b := by
  induction a generalizing on with
  | nil => rfl
  | cons x a ih => cases x <;> simp only [List.cons_append, captureSet, ih]

theorem run_capture {ops : Ops β} {hist : List (Op β)} : ∀ {c c' : Core β} {log : List (Rec β)},
    c.run ops hist = .ok (c', log) → c'.hasCapture = captureSet c.hasCapture hist := by
  induction hist with
  | nil =>
    intro c c' log h
    simp only [Core.run, Except.ok.injEq, Prod.mk.injEq] at h
    obtain ⟨rfl, rfl⟩ := h; rfl
  | cons op rest ih =>
    intro c c' log h
    simp only [Core.run] at h
    obtain ⟨⟨c1, e, rc⟩, hs, h⟩ := Res.bind_eq_ok.mp h
    obtain ⟨⟨c2, log2⟩, hr, h⟩ := Res.bind_eq_ok.mp h
    simp only [Except.ok.injEq, Prod.mk.injEq] at h
    obtain ⟨rfl, rfl⟩ := h
    rw [ih hr, (step_captured hs).2.1, show op :: rest = [op] ++ rest from rfl, captureSet_append]

end Mctp
