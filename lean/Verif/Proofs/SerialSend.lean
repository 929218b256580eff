import Verif.Proofs.SerialRun
import Verif.Proofs.Observe

/-! The sending side of an endpoint with a serial binding. -/

namespace Mctp

open Spec

theorem serial_keeps : KeepsPacket serialOps := by
  intro b p out h _ _
  simp only [serialOps, serialTx] at h
  obtain ⟨_, _, h⟩ := Res.bind_eq_ok.mp h
  obtain ⟨_, _, h⟩ := Res.bind_eq_ok.mp h
  obtain ⟨_, _, h⟩ := Res.bind_eq_ok.mp h
  obtain ⟨_, _, h⟩ := Res.bind_eq_ok.mp h
  obtain ⟨_, _, h⟩ := Res.bind_eq_ok.mp h
  split at h
  · simp only [Except.ok.injEq] at h; subst h; rfl
  · obtain ⟨_, _, h⟩ := Res.bind_eq_ok.mp h
    obtain ⟨_, _, h⟩ := Res.bind_eq_ok.mp h
    obtain ⟨_, _, h⟩ := Res.bind_eq_ok.mp h
    obtain ⟨_, _, h⟩ := Res.bind_eq_ok.mp h
    obtain ⟨_, _, h⟩ := Res.bind_eq_ok.mp h
    simp only [Except.ok.injEq] at h; subst h; rfl

/-- Receiving a packet buffer at an endpoint makes no offers and leaves the busses alone. -/
theorem busRx_noTx {β : Type} {ops : Ops β} {c c' : Core β} {i : Nat} {pkt : Pktbuf} {bs : List Byte}
    {e : List Event} {eid : Byte} (hb : c.bridge = false) (he : c.busses.map Bus.eid = [eid])
    (hp : PktIs pkt bs) (h : c.busRx ops i pkt = .ok (c', e)) :
    c'.busses = c.busses ∧ ∀ j, offers j e = [] := by
  have hroute : ∀ (c : Core β) bus s own t m j, offers j (routeEvents c i bus s own t m) = [] := by
    intro c bus s own t m j
    unfold routeEvents
    repeat' split
    all_goals rfl
  have hcap : ∀ j, offers j (capIn c bs) = [] := by
    intro j; unfold capIn; split <;> rfl
  have hcons : ∀ (x : List Event) j, offers j (.recv i bs :: x) = offers j x := fun _ _ => rfl
  obtain ⟨bus', -, hbe, hbus', hh⟩ := busRx_endpoint hb he hp h
  rcases hh with ⟨hpn, rfl, m, rfl⟩ | ⟨f, hf, hh⟩
  · exact ⟨rfl, fun _ => rfl⟩
  · rcases hh with ⟨hl, rfl, m, rfl⟩ | ⟨hl, hsg, rfl, m, rfl⟩ | ⟨hl, hsg, m1, m2, t, out, hc, -, rfl, rfl⟩
    · exact ⟨rfl, fun j => by rw [hcons]; exact hcap j⟩
    · exact ⟨rfl, fun j => by rw [hcons, offers_append, hcap, hroute]; rfl⟩
    · refine ⟨rfl, fun j => ?_⟩
      cases out with
      | none => rw [hcons, offers_append, hcap]; rfl
      | some m => rw [hcons, offers_append, hcap]; simp only [List.nil_append]; exact hroute ..

/-- The write function never fails. -/
def WrGood (wr : Nat → List Byte → Int) : Prop :=
  ∀ k buf, buf ≠ [] → 0 < wr k buf ∧ wr k buf ≤ buf.length

theorem WrGood.ok {wr : Nat → List Byte → Int} (h : WrGood wr) : WrOk wr :=
  fun k buf hb => ⟨by have := (h k buf hb).1; omega, (h k buf hb).2⟩

/-- Only the receive part of the binding differs. -/
def BusTx (b b' : Bus SerialSt) : Prop :=
  b'.eid = b.eid ∧ b'.state = b.state ∧ b'.queue = b.queue ∧ TxSame b.binding.st b'.binding.st ∧
    b'.binding.version = b.binding.version ∧ b'.binding.pktSize = b.binding.pktSize

theorem BusTx.refl (b : Bus SerialSt) : BusTx b b := ⟨rfl, rfl, rfl, TxSame.refl _, rfl, rfl⟩

theorem BusTx.trans {a b c : Bus SerialSt} (h1 : BusTx a b) (h2 : BusTx b c) : BusTx a c := by
  obtain ⟨x1, x2, x3, ⟨s1, s2, s3, s4, s5⟩, x5, x6⟩ := h1
  obtain ⟨y1, y2, y3, ⟨t1, t2, t3, t4, t5⟩, y5, y6⟩ := h2
  exact ⟨y1.trans x1, y2.trans x2, y3.trans x3, ⟨t1.trans s1, t2.trans s2, t3.trans s3, t4.trans s4, t5.trans s5⟩,
    y5.trans x5, y6.trans x6⟩

/-- A received byte does not concern the sending side. -/
theorem serialByte_tx {eid : Byte} {base leak : List Nat} {evs : List Event} {r : Rx}
    {c c' : Core SerialSt} {b : Bus SerialSt} {x : Byte} {e : List Event}
    (h : SerInv eid base leak evs r c) (hb : c.busses = [b]) (hs : c.serialByte 0 x = .ok (c', e)) :
    ∃ b', c'.busses = [b'] ∧ BusTx b b' ∧ offers 0 e = [] := by
  obtain ⟨hok, hep, R, hsim, hmem⟩ := h
  obtain ⟨⟨htx, ⟨hs1, hs2, hs3, hs4⟩, hsame⟩, hq⟩ := hmem.inv b (by simp [hb])
  have hat : c.busAt 0 = .ok b := by
    obtain ⟨b', h1, h2, h3⟩ := hmem.busAt hmem.pos
    rw [hb] at h3; simp only [List.mem_singleton] at h3; subst h3; exact h1
  have hheld : heldIds b.binding.st = heldIds R := by unfold heldIds; rw [hsame.1]
  obtain ⟨mem', s', out, hby, hsim', htx', hbo⟩ := serialByte_sim (fill := c.fill) (b := b.binding)
    (hsame.sim hsim) hok hs1 hs2 hs3 hmem.ok (fun i hi => by
      rw [hheld] at hi; exact hmem.owns.mem (by simp [hi])) x
  unfold Core.serialByte at hs
  rw [hat] at hs
  simp only [Res.bind_ok, hby] at hs
  cases out with
  | none =>
    simp only [Except.ok.injEq, Prod.mk.injEq] at hs
    obtain ⟨rfl, rfl⟩ := hs
    exact ⟨{ b with binding := { b.binding with st := s' } }, by simp [Core.setSt, Core.setBus, hb],
      ⟨rfl, rfl, rfl, htx', rfl, rfl⟩, rfl⟩
  | some pkt =>
    simp only at hs
    obtain ⟨⟨c1, e1⟩, hrx, hs⟩ := Res.bind_eq_ok.mp hs
    obtain ⟨b1, hb1, hs⟩ := Res.bind_eq_ok.mp hs
    simp only [Except.ok.injEq, Prod.mk.injEq] at hs
    obtain ⟨rfl, rfl⟩ := hs
    cases hbo with
    | pass _ p e1 e2 e3 e4 e5 =>
      obtain ⟨g1, g2⟩ := busRx_noTx (c := { c with mem := mem' }) hep.noBridge hep.eids e4.is hrx
      have hb1' : b1 = b := by
        have := List.mem_of_getElem? (busAt_ok hb1).2.1
        rw [g1] at this
        simp only at this
        rw [hb] at this; simpa using this
      subst hb1'
      exact ⟨{ b1 with binding := { b1.binding with st := { b1.binding.st with rxPkt := s'.rxPkt, state := s'.state } } },
        by simp [Core.setSt, Core.setBus, g1, hb], ⟨rfl, rfl, rfl, ⟨rfl, rfl, rfl, rfl, rfl⟩, rfl, rfl⟩, g2 0⟩

theorem serialRx_tx {eid : Byte} {base : List Nat} (xs : List Byte) : ∀ {leak : List Nat}
    {evs : List Event} {r : Rx} {c c' : Core SerialSt} {b : Bus SerialSt} {e : List Event},
    SerInv eid base leak evs r c → c.busses = [b] → c.serialRx 0 xs = .ok (c', e) →
    ∃ b', c'.busses = [b'] ∧ BusTx b b' ∧ offers 0 e = [] := by
  induction xs with
  | nil =>
    intro leak evs r c c' b e _ hb h
    simp only [Core.serialRx, Except.ok.injEq, Prod.mk.injEq] at h
    obtain ⟨rfl, rfl⟩ := h
    exact ⟨b, hb, BusTx.refl b, rfl⟩
  | cons x xs ih =>
    intro leak evs r c c' b e hi hb h
    obtain ⟨c1, e1, l1, a1, a2, -⟩ := serialByte_core hi x
    simp only [Core.serialRx, a1, Res.bind_ok] at h
    obtain ⟨⟨c2, e2⟩, hs, h⟩ := Res.bind_eq_ok.mp h
    simp only [Except.ok.injEq, Prod.mk.injEq] at h
    obtain ⟨rfl, rfl⟩ := h
    obtain ⟨b1, q1, q2, q3⟩ := serialByte_tx hi hb a1
    obtain ⟨b2, w1, w2, w3⟩ := ih a2 q1 hs
    exact ⟨b2, w1, q2.trans w2, by rw [offers_append, q3, w3]; rfl⟩

/-- The bytes on the wire are the frames of the packets taken, and every packet offered was taken. -/
def Wired (w0 : List Byte) (b : Binding SerialSt) (os : List Offer) : Prop :=
  WrGood b.st.wr ∧ b.st.wire = w0 ++ ((os.filter Offer.consumed).map Offer.pkt).flatMap frame ∧
    ∀ o ∈ os, o.rc = 0 ∧ o.off = false

theorem wired_tracks (R : SerialSt) (w0 : List Byte) : Tracks (serialK R) (Wired w0) := by
  rintro b p out os ⟨htx, hsz, hr⟩ ⟨hP1, hP2, hP3⟩ ⟨hw1, hw2, hw3⟩ h
  obtain ⟨out', ho, h1, h2, tb, k, w, h3, h4, h5⟩ := serialTx_spec htx hP1
  have : out = out' := by
    have h' : serialTx b p = .ok out := h
    rw [ho] at h'; simpa using h'.symm
  subst this
  have hl := escaped_length_le (p.bytes.take (p.bytes.length % 256))
  have hl2 : (p.bytes.take (p.bytes.length % 256)).length ≤ 68 := by simp; omega
  rcases h5 with ⟨h6, _⟩ | ⟨_, ⟨hrc, hw⟩ | ⟨hrc, rest, hne, hw, j, hj⟩⟩
  · omega
  · refine ⟨by rw [h4]; exact hw1, ?_, ?_⟩
    rotate_left
    · intro o ho
      rcases List.mem_append.mp ho with ho | ho
      · exact hw3 o ho
      · rw [List.mem_singleton] at ho; subst ho; exact ⟨hrc, h2⟩
    rw [h4]
    simp only [hw2, hw, rawFrame_eq (by omega : p.bytes.length ≤ 255), List.append_assoc]
    have : (List.filter Offer.consumed [⟨p.bytes, out.rc, out.disableTx⟩]) = [⟨p.bytes, out.rc, out.disableTx⟩] := by
      simp [Offer.consumed, hrc]
    rw [List.filter_append, this, List.map_append, List.flatMap_append]
    simp
  · exfalso
    have := (hw1 j rest hne).1
    omega

/-- The sending side after the offers `os`, as the ideal transmitter `s`. -/
structure SendInv (ver eid : Byte) (w0 : List Byte) (s : TxState) (os : List Offer) (c : Core SerialSt) :
    Prop where
  bus : ∃ b, c.busses = [b] ∧ b.eid = eid ∧ b.binding.version = ver ∧ absBus b = s ∧ Wired w0 b.binding os

theorem serialRun_send {ver eid : Byte} {base : List Nat} {w0 : List Byte} {hist : List SerialOp} :
    ∀ {leak : List Nat} {evs : List Event} {r : Rx} {c c' : Core SerialSt} {s : TxState} {os : List Offer}
      {log : List SerialRec}, SerInv eid base leak evs r c → SendInv ver eid w0 s os c → SerialHist hist →
    c.serialRun hist = .ok (c', log) →
    ∃ s', txRun ver eid s (coreLog log) = some s' ∧
      SendInv ver eid w0 s' (os ++ offers 0 (serialEvents log)) c' ∧
      offers 0 (serialEvents log) = offers 0 (events (coreLog log)) := by
  induction hist with
  | nil =>
    intro leak evs r c c' s os log _ hs _ h
    simp only [Core.serialRun, Except.ok.injEq, Prod.mk.injEq] at h
    obtain ⟨rfl, rfl⟩ := h
    exact ⟨s, rfl, by simpa [serialEvents, offers] using hs, rfl⟩
  | cons o rest ih =>
    intro leak evs r c c' s os log hi hs hh h
    cases o with
    | core op =>
      obtain ⟨c1, e1, rc, a1, a2, -⟩ := serialStep_core hi (hh op (by simp))
      simp only [Core.serialRun, Core.serialStep, a1, Res.bind_ok] at h
      obtain ⟨⟨c2, log2⟩, hr, h⟩ := Res.bind_eq_ok.mp h
      simp only [Except.ok.injEq, Prod.mk.injEq] at h
      obtain ⟨rfl, rfl⟩ := h
      obtain ⟨b, b1, b2, b3, b4, b5⟩ := hs
      obtain ⟨R, hsim, hmem⟩ := hi.mem
      obtain ⟨_, s1, hs1, ⟨b', g1, g2, g3, g4⟩⟩ := step_tx serial_keeps hmem hi.ep.noBridge ⟨b, b1, b2, b3, b4⟩ a1
      obtain ⟨b'', k1, k2⟩ := step_tracks (wired_tracks R w0) hmem hi.ep.noBridge b1 b5
        (by rintro i st ps ph pt cr rfl; exact hh (.rebind i st ps ph pt cr) (by simp))
        (appOp_ok hi.ep hmem (hh op (by simp))) a1
      have hbb : b'' = b' := by rw [g1] at k1; simpa using k1.symm
      subst hbb
      obtain ⟨s2, q1, q2, q3⟩ := ih a2 (s := s1) (os := os ++ offers 0 e1) ⟨b'', g1, g2, g3, g4, k2⟩
        (fun q hq => hh q (by simp [hq])) hr
      have e1' : serialEvents (⟨.core op, e1, rc⟩ :: log2) = e1 ++ serialEvents log2 := rfl
      have e2' : coreLog (⟨.core op, e1, rc⟩ :: log2) = ⟨op, e1, rc⟩ :: coreLog log2 := rfl
      refine ⟨s2, ?_, ?_, ?_⟩
      · rw [e2']; simp only [txRun, hs1, Option.bind_some, q1]
      · rw [e1', offers_append, ← List.append_assoc]; exact q2
      · rw [e1', e2', offers_append, q3]
        show _ = offers 0 (e1 ++ events (coreLog log2))
        rw [offers_append]
    | rx chunk =>
      obtain ⟨c1, e1, l1, a1, a2, -⟩ := serialRx_core chunk hi
      simp only [Core.serialRun, Core.serialStep, a1, Res.bind_ok] at h
      obtain ⟨⟨c2, log2⟩, hr, h⟩ := Res.bind_eq_ok.mp h
      simp only [Except.ok.injEq, Prod.mk.injEq] at h
      obtain ⟨rfl, rfl⟩ := h
      obtain ⟨b, b1, b2, b3, b4, b5⟩ := hs
      obtain ⟨b', g1, ⟨x1, x2, x3, ⟨t1, t2, t3, t4, t5⟩, x5, x6⟩, g3⟩ := serialRx_tx chunk hi b1 a1
      have hs1 : SendInv ver eid w0 s os c1 := by
        refine ⟨b', g1, by rw [x1, b2], by rw [x5, b3], ?_, ?_, ?_, ?_⟩
        · rw [← b4]; simp only [absBus, x2, x3, x6]
        · rw [t2]; exact b5.1
        · rw [t5]; exact b5.2.1
        · exact b5.2.2
      obtain ⟨s2, q1, q2, q3⟩ := ih a2 hs1 (fun q hq => hh q (by simp [hq])) hr
      have e1' : serialEvents (⟨.rx chunk, e1, 0⟩ :: log2) = e1 ++ serialEvents log2 := rfl
      have e2' : coreLog (⟨.rx chunk, e1, 0⟩ :: log2) = coreLog log2 := rfl
      refine ⟨s2, by rw [e2']; exact q1, ?_, ?_⟩
      · rw [e1', offers_append, g3]; exact q2
      · rw [e1', e2', offers_append, g3, q3]; rfl


/-- An open transmitter whose packets are all taken has an empty queue after every call. -/
theorem flush_drains : ∀ {os : List Offer} {s s' : TxState}, flush s os = some s' → s.gate = .opened →
    (∀ o ∈ os, o.rc = 0 ∧ o.off = false) → s'.gate = .opened ∧ s'.queue = [] ∧ s'.size = s.size := by
  intro os
  induction os with
  | nil =>
    intro s s' h hg _
    simp only [flush] at h
    split at h
    · cases h
    · rename_i hn
      simp only [Option.some.injEq] at h
      subst h
      exact ⟨hg, by simpa [hg] using hn, rfl⟩
  | cons o os ih =>
    intro s s' h hg ho
    obtain ⟨g, q, z⟩ := s
    simp only at hg; subst hg
    cases q with
    | nil => simp [flush] at h
    | cons p q =>
      obtain ⟨h1, h2⟩ := ho o (by simp)
      simp only [flush] at h
      split at h
      · simp only [Offer.consumed, h1, h2, beq_self_eq_true, Bool.true_or, if_true, Bool.false_eq_true, if_false] at h
        exact ih (s := { gate := .opened, queue := q, size := z }) h rfl (fun x hx => ho x (by simp [hx]))
      · cases h

/-- Calls that do not concern the gate or the size of the packets. -/
def OnlySends : SerialOp → Prop
  | .core (.send _ _ g _) => g.toNat ≤ 7
  | .core (.setRx _) => True
  | .rx _ => True
  | _ => False

theorem txRun_drains {ver eid : Byte} : ∀ {log : List SerialRec} {s s' : TxState},
    txRun ver eid s (coreLog log) = some s' → (∀ r ∈ log, OnlySends r.op) → s.gate = .opened → s.queue = [] →
    (∀ o ∈ offers 0 (events (coreLog log)), o.rc = 0 ∧ o.off = false) →
    s'.queue = [] ∧ accepted s.size (coreLog log) = (log.map (·.op)).filterMap (fun op => match op with
      | .core (.send d o g m) => some ⟨d, o, g, s.size - 4, m⟩
      | _ => none) := by
  intro log
  induction log with
  | nil =>
    intro s s' h _ _ hq _
    simp only [coreLog, List.filterMap_nil, txRun, Option.some.injEq] at h
    subst h
    exact ⟨hq, rfl⟩
  | cons r log ih =>
    intro s s' h hs hg hq ho
    have hs' : ∀ r ∈ log, OnlySends r.op := fun x hx => hs x (by simp [hx])
    have hr := hs r (by simp)
    obtain ⟨op, evs, rc⟩ := r
    cases op with
    | rx ch =>
      have e : coreLog (⟨.rx ch, evs, rc⟩ :: log) = coreLog log := rfl
      rw [e] at h ho ⊢
      exact ih h hs' hg hq ho
    | core op =>
      have e : coreLog (⟨.core op, evs, rc⟩ :: log) = ⟨op, evs, rc⟩ :: coreLog log := rfl
      rw [e] at h ho ⊢
      have eo : offers 0 (events (⟨op, evs, rc⟩ :: coreLog log)) = offers 0 evs ++ offers 0 (events (coreLog log)) := by
        show offers 0 (evs ++ events (coreLog log)) = _
        rw [offers_append]
      rw [eo] at ho
      have ho1 : ∀ o ∈ offers 0 evs, o.rc = 0 ∧ o.off = false := fun o h => ho o (List.mem_append_left _ h)
      have ho2 : ∀ o ∈ offers 0 (events (coreLog log)), o.rc = 0 ∧ o.off = false := fun o h => ho o (List.mem_append_right _ h)
      simp only [txRun] at h
      obtain ⟨s1, h1, h2⟩ := Option.bind_eq_some_iff.mp h
      cases op with
      | send d o g m =>
        have hg7 : ¬ 7 < g.toNat := by have : g.toNat ≤ 7 := hr; omega
        simp only [txStep] at h1
        rw [if_neg hg7, if_neg (by rw [hg]; exact fun h => by cases h)] at h1
        split at h1
        · rename_i hrc
          obtain ⟨k1, k2, k3⟩ := flush_drains h1 hg ho1
          obtain ⟨j1, j2⟩ := ih h2 hs' k1 k2 ho2
          refine ⟨j1, ?_⟩
          simp only at k3
          simp only [accepted, hrc, if_true, List.map_cons, List.filterMap_cons]
          rw [← k3, j2]
          rfl
        · cases h1
      | setRx x =>
        simp only [txStep] at h1
        split at h1
        · simp only [Option.some.injEq] at h1
          subst h1
          obtain ⟨j1, j2⟩ := ih h2 hs' hg hq ho2
          exact ⟨j1, j2⟩
        · cases h1
      | _ => exact hr.elim

end Mctp
