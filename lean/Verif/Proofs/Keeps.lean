import Verif.Proofs.Observe
import Verif.Proofs.Tx

/-! Lifting an invariant of one bus (its binding, state and queue, and the offers made to the binding so
far) through the core, without assumptions on the allocator or on the binding. -/

namespace Mctp

open Spec

variable {β : Type}

/-- The bus after the binding was offered the first packet of the queue `p :: rest`. -/
def afterTx (bus : Bus β) (p : Pktbuf) (rest : List Pktbuf) (out : TxOut β) : Bus β :=
  { bus with binding := { bus.binding with st := out.st },
             state := if out.disableTx then .txDisabled else .txEnabled,
             queue := if out.rc = 0 ∨ out.rc = -EMSGSIZE then rest
                      else { out.pkt with id := p.id } :: rest }

/-- `J offers bus` is kept up by transmission and by queueing packets. -/
structure KeepsOn (ops : Ops β) (J : List Offer → Bus β → Prop) : Prop where
  tx : ∀ {os bus p rest out}, J os bus → bus.state = .txEnabled → bus.queue = p :: rest →
    ops.tx bus.binding p = .ok out →
    J (os ++ [⟨p.bytes, out.rc, out.disableTx⟩]) (afterTx bus p rest out)
  push : ∀ {os bus} {ps : List Pktbuf}, J os bus → bus.state ≠ .constructed →
    (4 ≤ bus.binding.pktSize → ∀ p ∈ ps, Made bus.binding p ∧ PktIs p p.bytes ∧
      p.bytes.head? = some (bus.binding.version &&& 0xf)) →
    J os { bus with queue := bus.queue ++ ps }

/-- ... and by disabling. -/
structure Keeps (ops : Ops β) (J : List Offer → Bus β → Prop) : Prop extends KeepsOn ops J where
  off : ∀ {os bus}, J os bus → bus.state = .txEnabled → J os { bus with state := .txDisabled }

theorem sendQueue_keepsOn {ops : Ops β} {J : List Offer → Bus β → Prop} (hJ : KeepsOn ops J) {cap : Bool}
    {i : Nat} {q : List Pktbuf} : ∀ {m m' : Mem} {bus bus' : Bus β} {e : List Event} {os : List Offer},
    J os { bus with queue := q } → sendQueue ops cap i m bus q = .ok (m', bus', e) →
    J (os ++ offers i e) bus' := by
  induction q with
  | nil =>
    intro m m' bus bus' e os hr h
    simp only [sendQueue, Except.ok.injEq, Prod.mk.injEq] at h
    obtain ⟨rfl, rfl, rfl⟩ := h
    simpa [offers] using hr
  | cons p q ih =>
    intro m m' bus bus' e os hr h
    unfold sendQueue at h
    split at h
    · simp only [Except.ok.injEq, Prod.mk.injEq] at h
      obtain ⟨rfl, rfl, rfl⟩ := h
      simpa [offers] using hr
    · rename_i hst
      obtain ⟨_, _, h⟩ := Res.bind_eq_ok.mp h
      obtain ⟨out, ho, h⟩ := Res.bind_eq_ok.mp h
      have hst' : bus.state = .txEnabled := Decidable.not_not.mp hst
      have hr' := hJ.tx (bus := { bus with queue := p :: q }) (p := p) (rest := q) hr hst' rfl ho
      simp only at h
      split at h
      · rename_i hrc
        obtain ⟨m1, hm1, h⟩ := Res.bind_eq_ok.mp h
        obtain ⟨⟨m2, b2, e2⟩, hs, h⟩ := Res.bind_eq_ok.mp h
        simp only [Except.ok.injEq, Prod.mk.injEq] at h
        obtain ⟨rfl, rfl, rfl⟩ := h
        rw [afterTx, if_pos hrc] at hr'
        have := ih (m := m1) hr' hs
        rw [offers_append, offers_append, offers_cap, offers_tx, if_pos rfl]
        simpa using this
      · rename_i hrc
        simp only [Except.ok.injEq, Prod.mk.injEq] at h
        obtain ⟨rfl, rfl, rfl⟩ := h
        rw [afterTx, if_neg hrc] at hr'
        rw [offers_append, offers_cap, offers_tx, if_pos rfl]
        exact hr'

/-- The only bus of the core is `bus`. -/
theorem busAt_single {c : Core β} {bus bus1 : Bus β} {i : Nat} (hb : c.busses = [bus])
    (h : c.busAt i = .ok bus1) : i = 0 ∧ bus1 = bus := by
  have := (busAt_ok h).2.1
  rw [hb] at this
  match i, this with
  | 0, h => exact ⟨rfl, by simpa using h.symm⟩
  | n + 1, h => simp at h

theorem sendTxQueue_keepsOn {ops : Ops β} {J : List Offer → Bus β → Prop} (hJ : KeepsOn ops J)
    {c c' : Core β} {i : Nat} {bus : Bus β} (hb : c.busses = [bus]) {os : List Offer} (hr : J os bus)
    {e : List Event} (h : c.sendTxQueue ops i = .ok (c', e)) :
    ∃ bus' m, c' = { c with mem := m, busses := [bus'] } ∧ J (os ++ offers 0 e) bus' := by
  unfold Core.sendTxQueue at h
  obtain ⟨bus1, hbus, h⟩ := Res.bind_eq_ok.mp h
  obtain ⟨⟨m, b, e'⟩, hs, h⟩ := Res.bind_eq_ok.mp h
  simp only [Except.ok.injEq, Prod.mk.injEq] at h
  obtain ⟨rfl, rfl⟩ := h
  obtain ⟨rfl, rfl⟩ := busAt_single hb hbus
  exact ⟨b, m, by simp [Core.setBus, hb], sendQueue_keepsOn hJ hr hs⟩

theorem setTxEnabled_false {ops : Ops β} {c c' : Core β} {i : Nat} {bus : Bus β} (hb : c.busses = [bus])
    {e : List Event} (h : c.setTxEnabled ops i false = .ok (c', e)) :
    e = [] ∧ i = 0 ∧ c' = { c with busses := [{ bus with state :=
      if bus.state = .constructed then .constructed else .txDisabled }] } := by
  unfold Core.setTxEnabled at h
  obtain ⟨bus1, hbus, h⟩ := Res.bind_eq_ok.mp h
  obtain ⟨rfl, rfl⟩ := busAt_single hb hbus
  have hsame : ∀ st, bus1.state = st → ({ c with busses := [{ bus1 with state := st }] } : Core β) = c := by
    rintro st rfl
    cases c; simp_all
  cases hst : bus1.state <;> rw [hst] at h <;>
    simp only [Bool.not_false, if_true, Bool.false_eq_true, if_false, Except.ok.injEq, Prod.mk.injEq] at h <;>
    obtain ⟨rfl, rfl⟩ := h <;> simp [Core.setBus, hb, hsame _ hst]

theorem setTxEnabled_keeps {ops : Ops β} {J : List Offer → Bus β → Prop} (hJ : Keeps ops J)
    {c c' : Core β} {i : Nat} {on : Bool} {bus : Bus β} (hb : c.busses = [bus]) {os : List Offer}
    (hr : J os bus) (hon : on = true → J os { bus with state := .txEnabled })
    {e : List Event} (h : c.setTxEnabled ops i on = .ok (c', e)) :
    ∃ bus' m, c' = { c with mem := m, busses := [bus'] } ∧ J (os ++ offers 0 e) bus' := by
  cases on with
  | false =>
    obtain ⟨rfl, rfl, rfl⟩ := setTxEnabled_false hb h
    refine ⟨_, _, rfl, ?_⟩
    simp only [offers, List.filterMap_nil, List.append_nil]
    split
    · rename_i hc
      rw [← hc]; exact hr
    · rename_i hc
      cases hst : bus.state with
      | constructed => exact absurd hst hc
      | txEnabled => exact hJ.off hr hst
      | txDisabled => rw [← hst]; exact hr
  | true =>
    unfold Core.setTxEnabled at h
    obtain ⟨bus1, hbus, h⟩ := Res.bind_eq_ok.mp h
    obtain ⟨rfl, rfl⟩ := busAt_single hb hbus
    have hc : c = { c with mem := c.mem, busses := [bus1] } := by cases c; simp_all
    cases hst : bus1.state with
    | constructed =>
      rw [hst] at h
      simp only [Bool.not_true, Bool.false_eq_true, if_false] at h
      split at h
      · simp only [Except.ok.injEq, Prod.mk.injEq] at h
        obtain ⟨rfl, rfl⟩ := h
        exact ⟨_, _, hc, by simpa [offers] using hr⟩
      · simp only [Except.ok.injEq, Prod.mk.injEq] at h
        obtain ⟨rfl, rfl⟩ := h
        exact ⟨{ bus1 with state := .txEnabled }, c.mem, by simp [Core.setBus, hb], by simpa [offers] using hon rfl⟩
    | txEnabled =>
      rw [hst] at h
      simp only [if_true, Except.ok.injEq, Prod.mk.injEq] at h
      obtain ⟨rfl, rfl⟩ := h
      exact ⟨_, _, hc, by simpa [offers] using hr⟩
    | txDisabled =>
      rw [hst] at h
      simp only [Bool.not_true, Bool.false_eq_true, if_false] at h
      obtain ⟨bus', m, rfl, hj⟩ := sendTxQueue_keepsOn hJ.toKeepsOn (c := c.setBus 0 { bus1 with state := .txEnabled })
        (bus := { bus1 with state := .txEnabled }) (by simp [Core.setBus, hb]) (hon rfl) h
      exact ⟨bus', m, rfl, hj⟩

/-- Enabling a bus whose packets are large enough. -/
theorem setTxEnabled_on {ops : Ops β} {J : List Offer → Bus β → Prop} (hJ : KeepsOn ops J)
    {c c' : Core β} {i : Nat} {bus : Bus β} (hb : c.busses = [bus]) {os : List Offer} (hsz : 68 ≤ bus.binding.pktSize)
    (hon : J os { bus with state := .txEnabled })
    {e : List Event} (h : c.setTxEnabled ops i true = .ok (c', e)) :
    ∃ bus' m, c' = { c with mem := m, busses := [bus'] } ∧ J (os ++ offers 0 e) bus' := by
  unfold Core.setTxEnabled at h
  obtain ⟨bus1, hbus, h⟩ := Res.bind_eq_ok.mp h
  obtain ⟨rfl, rfl⟩ := busAt_single hb hbus
  have hc : c = { c with mem := c.mem, busses := [bus1] } := by cases c; simp_all
  cases hst : bus1.state with
  | constructed =>
    rw [hst] at h
    simp only [Bool.not_true, Bool.false_eq_true, if_false] at h
    rw [if_neg (by unfold packetSize btu hdrSize; omega)] at h
    simp only [Except.ok.injEq, Prod.mk.injEq] at h
    obtain ⟨rfl, rfl⟩ := h
    exact ⟨{ bus1 with state := .txEnabled }, c.mem, by simp [Core.setBus, hb], by simpa [offers] using hon⟩
  | txEnabled =>
    rw [hst] at h
    simp only [if_true, Except.ok.injEq, Prod.mk.injEq] at h
    obtain ⟨rfl, rfl⟩ := h
    refine ⟨_, _, hc, ?_⟩
    have : bus1 = { bus1 with state := .txEnabled } := by rw [← hst]
    rw [this]
    simpa [offers] using hon
  | txDisabled =>
    rw [hst] at h
    simp only [Bool.not_true, Bool.false_eq_true, if_false] at h
    obtain ⟨bus', m, rfl, hj⟩ := sendTxQueue_keepsOn hJ (c := c.setBus 0 { bus1 with state := .txEnabled })
      (bus := { bus1 with state := .txEnabled }) (by simp [Core.setBus, hb]) hon h
    exact ⟨bus', m, rfl, hj⟩

/-- Queueing appends packets made for the binding. -/
theorem txLoop_appends {fill : Nat → Byte} {b : Binding β} {src dest : Byte} {to : Bool} {tag : Byte}
    {mx : Nat} {msg : List Byte} (hmx : 0 < mx) : ∀ {fuel p i : Nat} {m m' : Mem} {q q' : List Pktbuf},
    txLoop fill b src dest to tag mx msg fuel p i m q = .ok (m', q') → ∃ ps, q' = q ++ ps ∧
      (mx + 4 ≤ b.pktSize → ∀ p ∈ ps, Made b p ∧ PktIs p p.bytes ∧ p.bytes.head? = some (b.version &&& 0xf)) := by
  intro fuel
  induction fuel with
  | zero =>
    intro p i m m' q q' h
    unfold txLoop at h
    split at h
    · cases h
    · simp only [Except.ok.injEq, Prod.mk.injEq] at h
      exact ⟨[], by simp [h.2], by simp⟩
  | succ n ih =>
    intro p i m m' q q' h
    unfold txLoop at h
    split at h
    · rename_i hlt
      simp only at h
      split at h
      · cases h
      · rename_i pkt m1 hal
        split at h
        · cases h
        · rename_i pkt1 hw1
          split at h
          · cases h
          · rename_i pkt2 hw2
            obtain ⟨ps, hps, hmade⟩ := ih h
            refine ⟨pkt2 :: ps, by rw [hps, List.append_assoc]; rfl, fun hsz x hx => ?_⟩
            rcases List.mem_cons.mp hx with rfl | hx
            · generalize hpl : (if msg.length - p > mx then mx else msg.length - p) = pl at *
              have hpl1 : 0 < pl ∧ pl ≤ mx ∧ pl ≤ msg.length - p := by split at hpl <;> omega
              obtain ⟨-, -, hs, he, hh, hz, hd⟩ := pktbufAlloc_some hal
              have hcl : (List.take pl (List.drop p msg)).length = pl := by simp; omega
              obtain ⟨hpk, -⟩ := two_writes (by rw [hh, hs]) rfl (by rw [he, hs, hcl]; rfl) hw1 hw2
              refine ⟨?_, by rw [hpk.bytes]; exact hpk, by rw [hpk.bytes]; rfl⟩
              obtain ⟨l1, rfl⟩ := write_ok hw1
              obtain ⟨l2, rfl⟩ := write_ok hw2
              refine ⟨hs, hh, hz, ?_, ?_, ?_⟩
              · simp only [List.length_append, List.length_take, List.length_drop] at l1 l2 ⊢
                simp only [hdrSize, List.length_cons, List.length_nil] at *
                omega
              · simp only [he, hdrSize]; omega
              · simp only [he, hdrSize]; omega
            · exact hmade hsz x hx
    · simp only [Except.ok.injEq, Prod.mk.injEq] at h
      exact ⟨[], by simp [h.2], by simp⟩

theorem messageTxOnBus_keepsOn {ops : Ops β} {J : List Offer → Bus β → Prop} (hJ : KeepsOn ops J)
    {c c' : Core β} {i : Nat} {bus : Bus β} (hb : c.busses = [bus]) {os : List Offer} (hr : J os bus)
    {s d : Byte} {to : Bool} {g : Byte} {msg : List Byte} {e : List Event} {rc : Int}
    (h : c.messageTxOnBus ops i s d to g msg = .ok (c', e, rc)) :
    ∃ bus' m, c' = { c with mem := m, busses := [bus'] } ∧ J (os ++ offers 0 e) bus' := by
  have hc : c = { c with mem := c.mem, busses := [bus] } := by cases c; simp_all
  unfold Core.messageTxOnBus at h
  obtain ⟨bus1, hbus, h⟩ := Res.bind_eq_ok.mp h
  obtain ⟨rfl, rfl⟩ := busAt_single hb hbus
  split at h
  · simp only [Except.ok.injEq, Prod.mk.injEq] at h
    obtain ⟨rfl, rfl, -⟩ := h
    exact ⟨_, _, hc, by simpa [offers] using hr⟩
  · rename_i hst
    split at h
    · simp only [Except.ok.injEq, Prod.mk.injEq] at h
      obtain ⟨rfl, rfl, -⟩ := h
      exact ⟨_, _, hc, by simpa [offers] using hr⟩
    · simp only at h
      split at h
      · cases h
      · rename_i hmx
        obtain ⟨⟨m, q⟩, hl, h⟩ := Res.bind_eq_ok.mp h
        obtain ⟨⟨c1, e1⟩, hs, h⟩ := Res.bind_eq_ok.mp h
        simp only [Except.ok.injEq, Prod.mk.injEq] at h
        obtain ⟨rfl, rfl, -⟩ := h
        have hmx' : bodySize bus1.binding.pktSize ≥ 64 := by unfold btu at hmx; omega
        obtain ⟨ps, rfl, hmade⟩ := txLoop_appends (by omega) hl
        have hmade' : 4 ≤ bus1.binding.pktSize → ∀ p ∈ ps, Made bus1.binding p ∧ PktIs p p.bytes ∧
            p.bytes.head? = some (bus1.binding.version &&& 0xf) := by
          intro h4
          refine hmade ?_
          unfold bodySize hdrSize sizeMod
          omega
        obtain ⟨bus', m', rfl, hj⟩ := sendTxQueue_keepsOn hJ
          (c := ({ c with mem := m } : Core β).setBus 0 { bus1 with queue := bus1.queue ++ ps })
          (bus := { bus1 with queue := bus1.queue ++ ps })
          (by simp [Core.setBus, hb]) (hJ.push hr hst hmade') hs
        exact ⟨bus', m', rfl, hj⟩

/-- The application's calls on the core. -/
def IsApp : Op β → Prop
  | .send _ _ _ _ | .setMax _ | .setCapture _ | .setRx _ => True
  | _ => False

theorem step_keepsOn {ops : Ops β} {J : List Offer → Bus β → Prop} (hJ : KeepsOn ops J)
    {c c' : Core β} {bus : Bus β} (hb : c.busses = [bus]) {os : List Offer} (hr : J os bus)
    {op : Op β} (hop : IsApp op) {e : List Event} {rc : Int}
    (h : c.step ops op = .ok (c', e, rc)) :
    ∃ bus' m hx hc mx, c' = { c with mem := m, busses := [bus'], hasRx := hx, hasCapture := hc, maxSize := mx } ∧
      J (os ++ offers 0 e) bus' ∧ ∀ x ∈ e, IsTxEvent x := by
  have hc : c = { c with mem := c.mem, busses := [bus], hasRx := c.hasRx, hasCapture := c.hasCapture, maxSize := c.maxSize } := by cases c; simp_all
  have h0 : J (os ++ offers 0 []) bus := by simpa [offers] using hr
  match op, hop with
  | .send eid to tag msg, _ =>
    have hev := (step_frame (by simp) h).1
    simp only [Core.step, Core.messageTx] at h
    split at h
    · simp only [Except.ok.injEq, Prod.mk.injEq] at h
      obtain ⟨rfl, rfl, -⟩ := h
      exact ⟨_, _, _, _, _, hc, h0, hev⟩
    · split at h
      · simp only [Except.ok.injEq, Prod.mk.injEq] at h
        obtain ⟨rfl, rfl, -⟩ := h
        exact ⟨_, _, _, _, _, hc, h0, hev⟩
      · obtain ⟨bus1, hbus, h⟩ := Res.bind_eq_ok.mp h
        obtain ⟨bus', m, rfl, hj⟩ := messageTxOnBus_keepsOn hJ hb hr h
        exact ⟨bus', m, _, _, _, rfl, hj, hev⟩
  | .setMax n, _ =>
    simp only [Core.step, Except.ok.injEq, Prod.mk.injEq] at h
    obtain ⟨rfl, rfl, -⟩ := h
    exact ⟨bus, c.mem, c.hasRx, c.hasCapture, n, by cases c; simp_all [Core.setMaxMessageSize], h0, by simp⟩
  | .setCapture n, _ =>
    simp only [Core.step, Except.ok.injEq, Prod.mk.injEq] at h
    obtain ⟨rfl, rfl, -⟩ := h
    exact ⟨bus, c.mem, c.hasRx, n, c.maxSize, by cases c; simp_all [Core.setCapture], h0, by simp⟩
  | .setRx n, _ =>
    simp only [Core.step, Except.ok.injEq, Prod.mk.injEq] at h
    obtain ⟨rfl, rfl, -⟩ := h
    exact ⟨bus, c.mem, n, c.hasCapture, c.maxSize, by cases c; simp_all [Core.setRxAll], h0, by simp⟩

theorem step_keeps {ops : Ops β} {J : List Offer → Bus β → Prop} (hJ : Keeps ops J)
    {c c' : Core β} {bus : Bus β} (hb : c.busses = [bus]) {os : List Offer} (hr : J os bus)
    {op : Op β} (hop : IsApp op) {e : List Event} {rc : Int}
    (h : c.step ops op = .ok (c', e, rc)) :
    ∃ bus' m hx hc mx, c' = { c with mem := m, busses := [bus'], hasRx := hx, hasCapture := hc, maxSize := mx } ∧
      J (os ++ offers 0 e) bus' ∧ ∀ x ∈ e, IsTxEvent x :=
  step_keepsOn hJ.toKeepsOn hb hr hop h

/-- At an endpoint, receiving leaves the busses alone. -/
theorem busRx_busses {ops : Ops β} {c c' : Core β} {i : Nat} {pkt : Pktbuf} {bs : List Byte}
    {bus : Bus β} (hb : c.busses = [bus]) (hbr : c.bridge = false) (hp : PktIs pkt bs) {e : List Event}
    (h : c.busRx ops i pkt = .ok (c', e)) :
    ∃ m t, c' = { c with mem := m, ctxs := t } ∧ (∀ j, offers j e = []) ∧
      e.filterMap (fun ev => match ev with | .recv j p => some (j, p) | _ => none) = [(0, bs)] := by
  have hroute : ∀ (c : Core β) i bus s own t m j, offers j (routeEvents c i bus s own t m) = [] := by
    intro c i bus s own t m j
    unfold routeEvents
    repeat' split
    all_goals rfl
  have hcap : ∀ j, offers j (capIn c bs) = [] := by
    intro j; unfold capIn; split <;> rfl
  have hrec : ∀ e' : List Event, (∀ j q, Event.recv j q ∉ e') →
      (Event.recv 0 bs :: e').filterMap
        (fun ev => match ev with | .recv j p => some (j, p) | _ => none) = [(0, bs)] := by
    intro e' he'
    rw [List.filterMap_cons]
    simp only [List.cons.injEq, true_and, List.filterMap_eq_nil_iff]
    intro ev hev
    cases ev with
    | recv j q => exact absurd hev (he' j q)
    | _ => rfl
  have hcons : ∀ (x : List Event) j, offers j (.recv 0 bs :: x) = offers j x := fun _ _ => rfl
  obtain ⟨bus', rfl, -, _, hh⟩ := busRx_endpoint (eid := bus.eid) hbr (by simp [hb]) hp h
  rcases hh with ⟨hpn, rfl, m, rfl⟩ | ⟨f, hf, hh⟩
  · exact ⟨_, _, rfl, fun _ => rfl, rfl⟩
  · rcases hh with ⟨hl, rfl, m, rfl⟩ | ⟨hl, hsg, rfl, m, rfl⟩ | ⟨hl, hsg, m1, m2, t, out, hc, -, rfl, rfl⟩
    · exact ⟨_, _, rfl, fun j => by rw [hcons]; exact hcap j, hrec _ (capIn_noRecv c bs)⟩
    · refine ⟨_, _, rfl, fun j => by rw [hcons, offers_append, hcap, hroute]; rfl, hrec _ fun j q hm => ?_⟩
      rcases List.mem_append.mp hm with hm | hm
      · exact capIn_noRecv _ _ _ _ hm
      · exact routeEvents_noRecv _ _ _ _ _ _ _ _ _ hm
    · refine ⟨_, _, rfl, fun j => ?_, hrec _ fun j q hm => ?_⟩
      · cases out with
        | none => rw [hcons, offers_append, hcap]; rfl
        | some m => rw [hcons, offers_append, hcap]; simp only [List.nil_append]; exact hroute ..
      · rcases List.mem_append.mp hm with hm | hm
        · exact capIn_noRecv _ _ _ _ hm
        · cases out with
          | none => cases hm
          | some msg => exact routeEvents_noRecv _ _ _ _ _ _ _ _ _ hm

end Mctp
