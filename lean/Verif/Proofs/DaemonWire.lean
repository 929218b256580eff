import Verif.Proofs.Capture
import Verif.Proofs.SerialSend
import Verif.Proofs.Tools
import Verif.Spec.Util

/-!
# The packets captured while an endpoint runs
-/

namespace Mctp

open Spec

variable {β : Type}

theorem busRx_captured {ops : Ops β} {c c' : Core β} {i : Nat} {pkt : Pktbuf} {bs : List Byte} {e : List Event} (hp : PktIs pkt bs)
    (hr : c.busRx ops i pkt = .ok (c', e)) : Captured c.hasCapture e ∧ c'.hasCapture = c.hasCapture := by
  obtain ⟨bus', hbus', hh⟩ := busRx_cases hp hr
  rcases hh with ⟨hpn, rfl, m', _, rfl⟩ | ⟨f, c1, e1, m', hf, hb, hm, rfl, rfl⟩
  · have hl : ¬ 4 < bs.length := by have := parse_none.mp hpn; omega
    refine ⟨?_, rfl⟩
    unfold Captured
    cases c.hasCapture <;> simp [uncaptured, withCapture, isCapture, hl]
  · have hl : 4 < bs.length := by
      rcases Nat.lt_or_ge 4 bs.length with h | h
      · exact h
      · rw [parse_none.mpr h] at hf; cases hf
    have hbody : Captured c.hasCapture e1 ∧ c1.hasCapture = c.hasCapture := by
      rw [busRxBody_parse ops _ i bus' hp hf] at hb
      split at hb
      · simp only [Except.ok.injEq, Prod.mk.injEq] at hb
        obtain ⟨rfl, rfl⟩ := hb
        exact ⟨.nil _, rfl⟩
      · split at hb
        · obtain ⟨h1, h2⟩ := rx_captured hb
          obtain ⟨_, m', bs, rfl, _⟩ := rx_ok hb
          exact ⟨h1, rfl⟩
        · have := ctxStep_bind hb
          exact ⟨this.1, this.2.2⟩
    refine ⟨?_, hbody.2⟩
    have : Captured c.hasCapture (Event.recv i bs :: capIn c bs) := by
      unfold Captured capIn
      cases c.hasCapture <;> simp [uncaptured, withCapture, isCapture, hl]
    exact this.append hbody.1

/-- A packet is only offered to bus `i`. -/
def OnBus (i : Nat) (e : List Event) : Prop := ∀ j p rc off, Event.tx j p rc off ∈ e → j = i

theorem OnBus.append {i : Nat} {a b : List Event} (ha : OnBus i a) (hb : OnBus i b) : OnBus i (a ++ b) := by
  intro j p rc off h
  rcases List.mem_append.mp h with h | h
  · exact ha _ _ _ _ h
  · exact hb _ _ _ _ h

theorem OnBus.nil (i : Nat) : OnBus i [] := fun _ _ _ _ h => (nomatch h)

theorem sendQueue_onBus {ops : Ops β} {on : Bool} {i : Nat} {m : Mem} {bus : Bus β} {q : List Pktbuf} {m' : Mem} {bus' : Bus β} {e : List Event}
    (h : sendQueue ops on i m bus q = .ok (m', bus', e)) : OnBus i e := by
  induction q generalizing m bus m' bus' e with
  | nil =>
    simp only [sendQueue, Except.ok.injEq, Prod.mk.injEq] at h
    rw [← h.2.2]; exact .nil i
  | cons p q ih =>
    have hoff : ∀ (rc : Int) (off : Bool), OnBus i ((if on then [Event.capture true p.bytes] else []) ++ [Event.tx i p.bytes rc off]) := by
      intro rc off j p' rc' off' hm
      cases on <;> simp at hm <;> exact hm.1
    unfold sendQueue at h
    split at h
    · simp only [Except.ok.injEq, Prod.mk.injEq] at h; rw [← h.2.2]; exact .nil i
    · obtain ⟨_, _, h⟩ := Res.bind_eq_ok.mp h
      obtain ⟨out, ho, h⟩ := Res.bind_eq_ok.mp h
      simp only at h
      split at h
      · obtain ⟨m1, hm1, h⟩ := Res.bind_eq_ok.mp h
        obtain ⟨⟨m2, b2, e2⟩, hr, h⟩ := Res.bind_eq_ok.mp h
        simp only [Except.ok.injEq, Prod.mk.injEq] at h
        rw [← h.2.2]
        exact (hoff _ _).append (ih hr)
      · simp only [Except.ok.injEq, Prod.mk.injEq] at h
        rw [← h.2.2]
        exact hoff _ _

theorem sendTxQueue_onBus {ops : Ops β} {c c' : Core β} {i : Nat} {e : List Event} (h : c.sendTxQueue ops i = .ok (c', e)) : OnBus i e := by
  unfold Core.sendTxQueue at h
  obtain ⟨bus, hbus, h⟩ := Res.bind_eq_ok.mp h
  obtain ⟨⟨m, b, e'⟩, hs, h⟩ := Res.bind_eq_ok.mp h
  simp only [Except.ok.injEq, Prod.mk.injEq] at h
  obtain ⟨-, rfl⟩ := h
  exact sendQueue_onBus hs

theorem messageTx_onBus {ops : Ops β} {c c' : Core β} {d : Byte} {own : Bool} {g : Byte} {msg : List Byte} {e : List Event} {rc : Int}
    (h : c.messageTx ops d own g msg = .ok (c', e, rc)) : OnBus 0 e := by
  unfold Core.messageTx at h
  split at h
  · simp only [Except.ok.injEq, Prod.mk.injEq] at h; rw [← h.2.1]; exact .nil 0
  · split at h
    · simp only [Except.ok.injEq, Prod.mk.injEq] at h; rw [← h.2.1]; exact .nil 0
    · obtain ⟨bus, hbus, h⟩ := Res.bind_eq_ok.mp h
      unfold Core.messageTxOnBus at h
      obtain ⟨bus, hbus, h⟩ := Res.bind_eq_ok.mp h
      split at h
      · simp only [Except.ok.injEq, Prod.mk.injEq] at h; rw [← h.2.1]; exact .nil 0
      · simp only at h
        split at h
        · cases h
        · obtain ⟨⟨m, q⟩, hl, h⟩ := Res.bind_eq_ok.mp h
          obtain ⟨⟨c1, e1⟩, hs, h⟩ := Res.bind_eq_ok.mp h
          simp only [Except.ok.injEq, Prod.mk.injEq] at h
          rw [← h.2.1]
          exact sendTxQueue_onBus hs

/-- The packets captured are those offered and those received with content, if a capture handler is set. -/
theorem Captured.packets {e : List Event} (h : Captured true e) :
    ((capturedPackets e).filter (·.1)).map (·.2) = (e.filterMap fun ev => match ev with | .tx _ p _ _ => some p | _ => none) ∧
      ((capturedPackets e).filter (fun p => !p.1)).map (·.2) = (packetsIn e).filter (fun p => 4 < p.length) := by
  have hu : ∀ l : List Event, (∀ ev ∈ l, isCapture ev = false) →
      ((capturedPackets (withCapture l)).filter (·.1)).map (·.2) = (l.filterMap fun ev => match ev with | .tx _ p _ _ => some p | _ => none) ∧
      ((capturedPackets (withCapture l)).filter (fun p => !p.1)).map (·.2) = (packetsIn l).filter (fun p => 4 < p.length) ∧
      (withCapture l).filterMap (fun ev => match ev with | .tx _ p _ _ => some p | _ => none) =
        (l.filterMap fun ev => match ev with | .tx _ p _ _ => some p | _ => none) ∧ packetsIn (withCapture l) = packetsIn l := by
    intro l hl
    induction l with
    | nil => exact ⟨rfl, rfl, rfl, rfl⟩
    | cons ev rest ih =>
      obtain ⟨i1, i2, i3, i4⟩ := ih fun x hx => hl x (List.mem_cons_of_mem _ hx)
      have hev := hl ev List.mem_cons_self
      simp only [withCapture, packetsIn, capturedPackets] at i1 i2 i3 i4 ⊢
      cases ev with
      | capture o p => exact absurd hev (by simp [isCapture])
      | recv i p => by_cases h4 : 4 < p.length <;> simp [h4, i1, i2, i3, i4]
      | _ => simp [i1, i2, i3, i4]
  unfold Captured at h
  rw [if_pos rfl] at h
  obtain ⟨h1, h2, h3, h4⟩ := hu (uncaptured e) (by
    intro ev hev
    unfold uncaptured at hev
    simpa using (List.mem_filter.mp hev).2)
  rw [← h] at h1 h2 h3 h4
  exact ⟨h1.trans h3.symm, h2.trans (by rw [h4])⟩

theorem Captured.none {e : List Event} (h : Captured false e) : capturedPackets e = [] := by
  unfold Captured at h
  rw [if_neg (by simp)] at h
  rw [h]
  unfold capturedPackets
  rw [List.filterMap_eq_nil_iff]
  intro ev hev
  unfold uncaptured at hev
  have := (List.mem_filter.mp hev).2
  cases ev <;> first | rfl | simp [isCapture] at this

theorem OnBus.offers {e : List Event} (h : OnBus 0 e) :
    (e.filterMap fun ev => match ev with | .tx _ p _ _ => some p | _ => none) = (offers 0 e).map (·.pkt) := by
  induction e with
  | nil => rfl
  | cons ev rest ih =>
    have ih := ih fun j p rc off hm => h j p rc off (List.mem_cons_of_mem _ hm)
    unfold Spec.offers at ih ⊢
    cases ev with
    | tx j p rc off =>
      have : j = 0 := h j p rc off List.mem_cons_self
      subst this
      simp [ih]
    | _ => simp [ih]

/-! ## A serial endpoint -/

theorem serialByte_captured {eid : Byte} {base leak : List Nat} {evs : List Event} {r : Rx} {c c' : Core SerialSt} {x : Byte} {e : List Event}
    (h : SerInv eid base leak evs r c) (hs : c.serialByte 0 x = .ok (c', e)) :
    Captured c.hasCapture e ∧ c'.hasCapture = c.hasCapture ∧ OnBus 0 e := by
  obtain ⟨hok, hep, R, hsim, hmem⟩ := h
  obtain ⟨b, hat, -, hbm⟩ := hmem.busAt hmem.pos
  obtain ⟨⟨htx, ⟨hs1, hs2, hs3, hs4⟩, hsame⟩, hq⟩ := hmem.inv b hbm
  have hheld : heldIds b.binding.st = heldIds R := by unfold heldIds; rw [hsame.1]
  obtain ⟨mem', s', out, hby, hsim', htx', hbo⟩ := serialByte_sim (fill := c.fill) (b := b.binding)
    (hsame.sim hsim) hok hs1 hs2 hs3 hmem.ok (fun i hi => by
      rw [hheld] at hi; exact hmem.owns.mem (by simp [hi])) x
  unfold Core.serialByte at hs
  rw [hat] at hs
  simp only [Res.bind_ok, hby] at hs
  cases out with
  | none =>
    simp only [Except.ok.injEq, Prod.mk.injEq] at hs
    obtain ⟨rfl, rfl⟩ := hs
    exact ⟨.nil _, rfl, .nil 0⟩
  | some pkt =>
    simp only at hs
    obtain ⟨⟨c1, e1⟩, hrx, hs⟩ := Res.bind_eq_ok.mp hs
    obtain ⟨b1, hb1, hs⟩ := Res.bind_eq_ok.mp hs
    simp only [Except.ok.injEq, Prod.mk.injEq] at hs
    obtain ⟨rfl, rfl⟩ := hs
    cases hbo with
    | pass _ p e1 e2 e3 e4 e5 =>
      obtain ⟨g1, g2⟩ := busRx_captured (c := { c with mem := mem' }) e4.is hrx
      refine ⟨g1, g2, ?_⟩
      obtain ⟨-, g4⟩ := busRx_noTx (c := { c with mem := mem' }) hep.noBridge hep.eids e4.is hrx
      intro j p rc off hm
      have := g4 j
      unfold offers at this
      rw [List.filterMap_eq_nil_iff] at this
      have := this _ hm
      simp at this

theorem serialRx_captured {eid : Byte} {base : List Nat} (xs : List Byte) : ∀ {leak : List Nat}
    {evs : List Event} {r : Rx} {c c' : Core SerialSt} {e : List Event},
    SerInv eid base leak evs r c → c.serialRx 0 xs = .ok (c', e) →
    Captured c.hasCapture e ∧ c'.hasCapture = c.hasCapture ∧ OnBus 0 e := by
  induction xs with
  | nil =>
    intro leak evs r c c' e _ h
    simp only [Core.serialRx, Except.ok.injEq, Prod.mk.injEq] at h
    obtain ⟨rfl, rfl⟩ := h
    exact ⟨.nil _, rfl, .nil 0⟩
  | cons x xs ih =>
    intro leak evs r c c' e hi h
    obtain ⟨c1, e1, l1, a1, a2, -⟩ := serialByte_core hi x
    simp only [Core.serialRx, a1, Res.bind_ok] at h
    obtain ⟨⟨c2, e2⟩, hs, h⟩ := Res.bind_eq_ok.mp h
    simp only [Except.ok.injEq, Prod.mk.injEq] at h
    obtain ⟨rfl, rfl⟩ := h
    obtain ⟨q1, q2, q3⟩ := serialByte_captured hi a1
    obtain ⟨w1, w2, w3⟩ := ih a2 hs
    rw [q2] at w1 w2
    exact ⟨q1.append w1, w2, q3.append w3⟩

theorem serialRun_captured {eid : Byte} {base : List Nat} {hist : List SerialOp} :
    ∀ {leak : List Nat} {evs : List Event} {r : Rx} {c c' : Core SerialSt} {log : List SerialRec}, SerInv eid base leak evs r c →
    (∀ op ∈ hist, OnlySends op) → c.serialRun hist = .ok (c', log) →
    Captured c.hasCapture (serialEvents log) ∧ OnBus 0 (serialEvents log) := by
  induction hist with
  | nil =>
    intro leak evs r c c' log _ _ h
    simp only [Core.serialRun, Except.ok.injEq, Prod.mk.injEq] at h
    obtain ⟨rfl, rfl⟩ := h
    exact ⟨.nil _, .nil 0⟩
  | cons o rest ih =>
    intro leak evs r c c' log hi hh h
    have ho := hh o List.mem_cons_self
    cases o with
    | core op =>
      obtain ⟨c1, e1, rc, a1, a2, -⟩ := serialStep_core hi (OnlySends.app ho op rfl)
      simp only [Core.serialRun, Core.serialStep, a1, Res.bind_ok] at h
      obtain ⟨⟨c2, log2⟩, hr, h⟩ := Res.bind_eq_ok.mp h
      simp only [Except.ok.injEq, Prod.mk.injEq] at h
      obtain ⟨rfl, rfl⟩ := h
      obtain ⟨q1, q2⟩ := ih a2 (fun q hq => hh q (by simp [hq])) hr
      obtain ⟨k1, k2, -⟩ := step_captured a1
      have hcs : captureSet c.hasCapture [op] = c.hasCapture ∧ OnBus 0 e1 := by
        cases op with
        | send d own g msg => exact ⟨rfl, messageTx_onBus a1⟩
        | setRx on =>
          simp only [Core.step, Except.ok.injEq, Prod.mk.injEq] at a1
          rw [← a1.2.1]
          exact ⟨rfl, .nil 0⟩
        | _ => exact absurd ho (by simp [OnlySends])
      rw [k2, hcs.1] at q1
      exact ⟨k1.append q1, hcs.2.append q2⟩
    | rx chunk =>
      obtain ⟨c1, e1, l1, a1, a2, -⟩ := serialRx_core chunk hi
      simp only [Core.serialRun, Core.serialStep, a1, Res.bind_ok] at h
      obtain ⟨⟨c2, log2⟩, hr, h⟩ := Res.bind_eq_ok.mp h
      simp only [Except.ok.injEq, Prod.mk.injEq] at h
      obtain ⟨rfl, rfl⟩ := h
      obtain ⟨q1, q2⟩ := ih a2 (fun q hq => hh q (by simp [hq])) hr
      obtain ⟨k1, k2, k3⟩ := serialRx_captured chunk hi a1
      rw [k2] at q1
      exact ⟨k1.append q1, k3.append q2⟩

end Mctp
