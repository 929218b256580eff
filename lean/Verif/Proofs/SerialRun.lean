import Verif.Proofs.SerialEp
import Verif.Props.Tx

/-! Byte streams and histories of an endpoint with a serial binding. -/

namespace Mctp

open Spec

/-- The number of invalid frames the receiver completes on a byte stream. -/
def drops (r : Rx) : List Byte → Nat
  | [] => 0
  | x :: xs => rxDrops r x + drops (rxStep 68 r x).1 xs

theorem drops_append (a b : List Byte) : ∀ r, drops r (a ++ b) = drops r a + drops (rxRun 68 r a).1 b := by
  induction a with
  | nil => intro r; simp [drops, rxRun]
  | cons x a ih => intro r; simp only [List.cons_append, drops, rxRun, ih]; omega

theorem drops_body {n : Nat} {w q : List Byte} (hd : Decodes w q) : ∀ {p : List Byte},
    p.length + q.length = n → q ≠ [] → drops (.body n false p) w = 0 := by
  induction hd with
  | nil => intro p _ h; exact absurd rfl h
  | @plain w q b hb hd ih =>
    intro p hl _
    simp only [drops, rxDrops, rxStep, if_neg hb, Rx.next, Nat.zero_add]
    cases q with
    | nil => cases hd; rfl
    | cons x q =>
      simp only [List.length_cons] at hl
      rw [if_neg (by simp; omega), ih (by simp; omega) (by simp)]
  | @esc w q b hd ih =>
    intro p hl _
    simp only [drops, rxDrops, rxStep, if_pos, Rx.next, Nat.zero_add]
    cases q with
    | nil => cases hd; rfl
    | cons x q =>
      simp only [List.length_cons] at hl
      rw [if_neg (by simp; omega), ih (by simp; omega) (by simp)]

/-- A valid frame does not make the receiver abandon a buffer. -/
theorem drops_validFrame {w p : List Byte} (h : ValidFrame 68 w p) : drops .hunt w = 0 := by
  obtain ⟨h4, hm, body, hd, rfl⟩ := h
  have hb := rxRun_body (max := 68) (n := p.length) hd (p := []) (by simp)
    (by intro h; simp [h] at h4)
  have hb' := drops_body (n := p.length) hd (p := []) (by simp) (by intro h; simp [h] at h4)
  have e1 : rxRun 68 .hunt [0x7e, 0x01, BitVec.ofNat 8 p.length] = (.body p.length false [], []) := by
    simp only [rxRun, rxStep]
    simp only [if_pos]
    rw [toNat_len (by omega), if_neg (by omega)]
    rfl
  have e2 : drops .hunt [0x7e, 0x01, BitVec.ofNat 8 p.length] = 0 := by
    simp only [drops, rxDrops, rxStep]
    simp only [if_pos]
  have a1 : rxRun 68 .hunt ([0x7e, 0x01, BitVec.ofNat 8 p.length] ++ body) = (.fcs1 p, []) := by
    rw [rxRun_append, e1]; simp only [hb]; rfl
  have a2 : rxRun 68 .hunt ([0x7e, 0x01, BitVec.ofNat 8 p.length] ++ body ++ fcsBytes p) =
      (.fin p ((fcs p).extractLsb' 8 8) ((fcs p).extractLsb' 0 8), []) := by
    rw [rxRun_append, a1]; rfl
  rw [drops_append, drops_append, drops_append, e1, e2, a1, a2, hb']
  simp [rxStep, fcsBytes, drops, rxDrops]

theorem packetsIn_append (a b : List Event) : packetsIn (a ++ b) = packetsIn a ++ packetsIn b :=
  List.filterMap_append

variable {β : Type}

/-- Size limit and reassembly state of the receiving endpoint. -/
structure RxCfg (mx : Nat) (A : Nat → Prop) (c : Core β) : Prop where
  rx   : c.hasRx = true
  max  : c.maxSize = mx
  all  : ∀ x ∈ c.ctxs, A x.allocSize

def isDel (ev : Event) : Bool := (delivered ev).isSome

theorem filter_route {c : Core β} (hr : c.hasRx = true) {bus : Bus β}
    (hcr : bus.binding.controlRx = false) (i : Nat) (s : Byte) (own : Bool) (g : Byte) (msg : List Byte) :
    (routeEvents c i bus s own g msg).filter isDel = [.rxMsg s own g msg] := by
  unfold routeEvents
  rw [if_neg (by simp only [hcr, ctrlHandled]; split <;> simp)]
  simp [hr, isDel, delivered]

theorem filter_capIn (c : Core β) (p : List Byte) : (capIn c p).filter isDel = [] := by
  rw [List.filter_eq_nil_iff]
  intro ev hev
  simp [isDel, capIn_delivered c p ev hev]

/-- The callbacks made for a received packet. -/
theorem busRx_evOf {ops : Ops β} {c c' : Core β} {eid : Byte} {e : List Event} {pkt : Pktbuf}
    {p : List Byte} {bus : Bus β} (h1 : c.bridge = false) (h2 : c.busses = [bus]) (he : bus.eid = eid)
    (hcr : bus.binding.controlRx = false) (hrx : c.hasRx = true) (hp : PktIs pkt p)
    (h : c.busRx ops 0 pkt = .ok (c', e)) : e.filter isDel = evOf (p, deliveries e) := by
  obtain ⟨bus', -, hbe, hbus, hh⟩ := busRx_endpoint (eid := eid) h1 (by rw [h2]; simp [he]) hp h
  have hbb : bus' = bus := by
    have := List.mem_of_getElem? (busAt_ok hbus).2.1
    rw [h2] at this; simpa using this
  subst hbb
  unfold evOf
  rcases hh with ⟨hpn, rfl, m, rfl⟩ | ⟨f, hf, hh⟩
  · simp only [hpn]; rfl
  · simp only [hf]
    rcases hh with ⟨hl, rfl, m, rfl⟩ | ⟨hl, hsg, rfl, m, rfl⟩ | ⟨hl, hsg, m1, m2, t, out, hc, -, rfl, rfl⟩
    · rw [deliveries_recv, deliveries_capIn, List.filter_cons, if_neg (by simp [isDel, delivered]),
        filter_capIn]; rfl
    · rw [deliveries_recv, deliveries_append, deliveries_capIn, deliveries_route hrx, List.filter_cons,
        if_neg (by simp [isDel, delivered]), List.filter_append, filter_capIn, filter_route hrx hcr]; rfl
    · rw [deliveries_recv, deliveries_append, deliveries_capIn, List.filter_cons,
        if_neg (by simp [isDel, delivered]), List.filter_append, filter_capIn]
      cases out with
      | none => rfl
      | some msg => simp only [deliveries_route hrx, filter_route hrx hcr]; rfl

/-- The ideal reassembler explains the deliveries made for the received packets. -/
def Explains (lim : Nat → Bool → Prop) (eid : Byte) (c c' : Core β) (e : List Event) : Prop :=
  ∃ tr, tr.map (·.1) = packetsIn e ∧ Reasm lim eid (abs c.ctxs) tr (abs c'.ctxs) ∧
    e.filter isDel = tr.flatMap evOf

theorem Reasm.trans {lim : Nat → Bool → Prop} {eid : Byte} :
    ∀ {a b : List (List Byte × List (Byte × List Byte))} {σ σ1 σ' : State}, Reasm lim eid σ a σ1 →
      Reasm lim eid σ1 b σ' → Reasm lim eid σ (a ++ b) σ' := by
  intro a
  induction a with
  | nil => intro b σ σ1 σ' h1 h2; cases h1; exact h2
  | cons x a ih => intro b σ σ1 σ' h1 h2; obtain ⟨s, p, q⟩ := h1; exact ⟨s, p, ih q h2⟩

theorem Explains.trans {lim : Nat → Bool → Prop} {eid : Byte} {c c1 c2 : Core β}
    {e1 e2 : List Event} (h1 : Explains lim eid c c1 e1) (h2 : Explains lim eid c1 c2 e2) :
    Explains lim eid c c2 (e1 ++ e2) := by
  obtain ⟨t1, a1, a2, a3⟩ := h1
  obtain ⟨t2, b1, b2, b3⟩ := h2
  refine ⟨t1 ++ t2, ?_, Reasm.trans a2 b2, ?_⟩
  · rw [List.map_append, packetsIn_append, a1, b1]
  · rw [List.filter_append, List.flatMap_append, a3, b3]

theorem Explains.none {lim : Nat → Bool → Prop} {eid : Byte} {c c' : Core β} {e : List Event}
    (h1 : c'.ctxs = c.ctxs) (h2 : packetsIn e = []) (h3 : e.filter isDel = []) : Explains lim eid c c' e :=
  ⟨[], by rw [h2]; rfl, by rw [h1]; rfl, by rw [h3]; rfl⟩

theorem coreByte_explains {mx : Nat} {A P : Nat → Prop} {lim : Nat → Bool → Prop} (hpol : Pol mx A P lim)
    {eid : Byte} {base leak : List Nat} {evs e : List Event} {r : Rx} {x : Byte}
    {c c' : Core SerialSt} (hep : EpInv eid evs c)
    (h : CoreByte leak base r x c c' e) (hP : ∀ p ∈ packetsIn e, P (p.length - 4)) (hc : RxCfg mx A c) :
    RxCfg mx A c' ∧ Explains lim eid c c' e := by
  cases h with
  | none h1 h2 h3 h4 =>
    exact ⟨⟨by rw [h3]; exact hc.rx, by rw [h4]; exact hc.max, by rw [h2]; exact hc.all⟩,
      Explains.none h2 rfl rfl⟩
  | pass p pkt c1 R h1 h2 h3 h4 h5 h6 h7 h8 =>
    have hep1 := busRx_epInv hep h2 h5
    obtain ⟨g1, g2, g3, g4⟩ := PktStep_of hpol ⟨hep, h4, hc.rx, hc.max, hc.all⟩ hep1.tbl (hP _ (by rw [packetsIn_busRx hep.noBridge hep.eids h2 h5]; simp)) h2 h5
    obtain ⟨bus, hb, hbe⟩ := one_bus hep
    have hcr := (h4.inv bus (by simp [hb])).1.2.1.2.2.2
    refine ⟨⟨by rw [h7]; exact g2, by rw [h8]; exact g3, by rw [h6]; exact g4⟩,
      [(p, deliveries e)], ?_, ?_, ?_⟩
    · rw [packetsIn_busRx hep.noBridge hep.eids h2 h5]; rfl
    · rw [h6]; exact ⟨_, g1, rfl⟩
    · rw [busRx_evOf hep.noBridge hb hbe hcr hc.rx h2 h5]; simp

/-- Receiving a chunk of bytes. -/
theorem serialRx_core {eid : Byte} {base : List Nat} (xs : List Byte) : ∀ {leak : List Nat}
    {evs : List Event} {r : Rx} {c : Core SerialSt}, SerInv eid base leak evs r c →
    ∃ c' e leak', c.serialRx 0 xs = .ok (c', e) ∧
      SerInv eid base (leak' ++ leak) (evs ++ e) (rxRun 68 r xs).1 c' ∧
      leak'.length = drops r xs ∧ packetsIn e = (rxRun 68 r xs).2 ∧
      (∀ {mx : Nat} {A P : Nat → Prop} {lim : Nat → Bool → Prop}, Pol mx A P lim → (∀ p ∈ packetsIn e, P (p.length - 4)) →
        RxCfg mx A c → RxCfg mx A c' ∧ Explains lim eid c c' e) := by
  induction xs with
  | nil =>
    intro leak evs r c h
    exact ⟨c, [], [], rfl, by simpa [rxRun] using h, rfl, rfl, fun _ _ hc => ⟨hc, .none rfl rfl rfl⟩⟩
  | cons x xs ih =>
    intro leak evs r c h
    obtain ⟨c1, e1, l1, a1, a2, a3, a4, a5⟩ := serialByte_core h x
    obtain ⟨c2, e2, l2, b1, b2, b3, b4, b5⟩ := ih a2
    refine ⟨c2, e1 ++ e2, l2 ++ l1, ?_, ?_, ?_, ?_, ?_⟩
    · simp only [Core.serialRx, a1, Res.bind_ok, b1]
    · simpa [rxRun] using b2
    · simp only [List.length_append, drops]; omega
    · rw [packetsIn_append, a4, b4]; rfl
    · intro mx A P lim hpol hP hc
      obtain ⟨q1, q2⟩ := coreByte_explains hpol h.ep a5 (fun p hp => hP p (by rw [packetsIn_append]; exact List.mem_append_left _ hp)) hc
      obtain ⟨q3, q4⟩ := b5 hpol (fun p hp => hP p (by rw [packetsIn_append]; exact List.mem_append_right _ hp)) q1
      exact ⟨q3, q2.trans q4⟩

/-- Calls an application makes on a core with one (serial) binding. -/
def AppOp : Op SerialSt → Prop
  | .recv _ _ => False
  | .rebind _ _ _ _ _ _ => False
  | .enable i _ => i = 0
  | _ => True

/-- A history of application calls and received chunks. -/
def SerialHist (hist : List SerialOp) : Prop := ∀ op, SerialOp.core op ∈ hist → AppOp op

theorem packetsIn_isTx {e : List Event} (h : ∀ ev ∈ e, IsTxEvent ev) : packetsIn e = [] := by
  unfold packetsIn
  rw [List.filterMap_eq_nil_iff]
  intro ev hev
  cases ev with
  | recv j p => exact absurd (h _ hev) (by simp [IsTxEvent])
  | _ => rfl

theorem appOp_ok {eid : Byte} {base : List Nat} {evs : List Event} {R} {c : Core SerialSt} (hep : EpInv eid evs c)
    (hmem : MemInv (serialK R) base c) {op : Op SerialSt} (hop : AppOp op) : OpOk (serialK R) c op := by
  obtain ⟨bus, hb, hbe⟩ := one_bus hep
  have hI := (hmem.inv bus (by simp [hb])).1.2.1
  cases op with
  | recv i bs => exact absurd hop (by simp [AppOp])
  | rebind => exact absurd hop (by simp [AppOp])
  | enable i on =>
    simp only [AppOp] at hop; subst hop
    exact ⟨bus, by simp [hb], by omega, fun _ => trivial⟩
  | _ => trivial

theorem serialStep_core {eid : Byte} {base leak : List Nat} {evs : List Event} {r : Rx}
    {c : Core SerialSt} (h : SerInv eid base leak evs r c) {op : Op SerialSt} (hop : AppOp op) :
    ∃ c' e rc, c.step serialOps op = .ok (c', e, rc) ∧ SerInv eid base leak (evs ++ e) r c' ∧
      (∀ ev ∈ e, IsTxEvent ev) ∧ c'.ctxs = c.ctxs ∧
      ((∀ n, op ≠ .setMax n) → c'.maxSize = c.maxSize) ∧ ((∀ n, op ≠ .setRx n) → c'.hasRx = c.hasRx) := by
  obtain ⟨hok, hep, R, hsim, hmem⟩ := h
  have hopok : OpOk (serialK R) c op := appOp_ok hep hmem hop
  obtain ⟨c', e, rc, hs, hm⟩ := step_total (serialK R) hmem hopok
  have hne : ∀ i bs, op ≠ .recv i bs := by
    rintro i bs rfl; exact hop
  obtain ⟨htx, m, bs, hr2, hc2, mx2, rfl, _, hmx, hhr⟩ := step_frame hne hs
  exact ⟨_, e, rc, hs, ⟨hok, step_epInv hep hs, R, hsim, hm⟩, htx, rfl, hmx, hhr⟩

theorem serialRun_core {eid : Byte} {base : List Nat} {hist : List SerialOp} : ∀ {leak : List Nat}
    {evs : List Event} {r : Rx} {c : Core SerialSt}, SerInv eid base leak evs r c → SerialHist hist →
    ∃ c' log leak', c.serialRun hist = .ok (c', log) ∧ log.map (·.op) = hist ∧
      SerInv eid base (leak' ++ leak) (evs ++ serialEvents log) (rxRun 68 r (bytesIn hist)).1 c' ∧
      leak'.length = drops r (bytesIn hist) ∧
      packetsIn (serialEvents log) = (rxRun 68 r (bytesIn hist)).2 ∧
      (∀ {mx : Nat} {A P : Nat → Prop} {lim : Nat → Bool → Prop}, Pol mx A P lim → (∀ p ∈ packetsIn (serialEvents log), P (p.length - 4)) →
        (∀ op, .core op ∈ hist → (∀ n, op ≠ .setMax n) ∧ (∀ n, op ≠ .setRx n)) →
        RxCfg mx A c → RxCfg mx A c' ∧ Explains lim eid c c' (serialEvents log)) := by
  induction hist with
  | nil =>
    intro leak evs r c h _
    exact ⟨c, [], [], rfl, rfl, by simpa [rxRun, bytesIn, serialEvents] using h, rfl, rfl,
      fun _ _ _ hc => ⟨hc, .none rfl rfl rfl⟩⟩
  | cons o rest ih =>
    intro leak evs r c h hh
    cases o with
    | core op =>
      obtain ⟨c1, e1, rc, a1, a2, a3, a4, a5, a6⟩ := serialStep_core h (hh op (by simp))
      obtain ⟨c2, log, l2, b1, b0, b2, b3, b4, b5⟩ := ih a2 (fun q hq => hh q (by simp [hq]))
      refine ⟨c2, ⟨.core op, e1, rc⟩ :: log, l2, ?_, by simp [b0], ?_, ?_, ?_, ?_⟩
      · simp only [Core.serialRun, Core.serialStep, a1, Res.bind_ok, b1]
      · simpa [serialEvents, bytesIn] using b2
      · exact b3
      · have : serialEvents (⟨.core op, e1, rc⟩ :: log) = e1 ++ serialEvents log := rfl
        rw [this, packetsIn_append, b4, packetsIn_isTx a3]; rfl
      · intro mx A P lim hpol hP hst hc
        obtain ⟨s1, s2⟩ := hst op (by simp)
        obtain ⟨q3, q4⟩ := b5 hpol (fun p hp => hP p (by
          rw [show serialEvents (⟨.core op, e1, rc⟩ :: log) = e1 ++ serialEvents log from rfl, packetsIn_append]; exact List.mem_append_right _ hp)) (fun q hq => hst q (by simp [hq]))
          ⟨by rw [a6 s2]; exact hc.rx, by rw [a5 s1]; exact hc.max, by rw [a4]; exact hc.all⟩
        refine ⟨q3, Explains.trans (e1 := e1) (Explains.none a4 (packetsIn_isTx a3) ?_) q4⟩
        have hd := isTx_not_delivered a3
        rw [List.filter_eq_nil_iff]
        intro ev hev
        have := List.filterMap_eq_nil_iff.mp hd ev hev
        simp [isDel, this]
    | rx chunk =>
      obtain ⟨c1, e1, l1, a1, a2, a3, a4, a5⟩ := serialRx_core chunk h
      obtain ⟨c2, log, l2, b1, b0, b2, b3, b4, b5⟩ := ih a2 (fun q hq => hh q (by simp [hq]))
      refine ⟨c2, ⟨.rx chunk, e1, 0⟩ :: log, l2 ++ l1, ?_, by simp [b0], ?_, ?_, ?_, ?_⟩
      · simp only [Core.serialRun, Core.serialStep, a1, Res.bind_ok, b1]
      · simpa [serialEvents, bytesIn, rxRun_append] using b2
      · simp only [List.length_append, bytesIn, drops_append]; omega
      · have : serialEvents (⟨.rx chunk, e1, 0⟩ :: log) = e1 ++ serialEvents log := rfl
        rw [this, packetsIn_append, a4, b4, bytesIn, rxRun_append]
      · intro mx A P lim hpol hP hst hc
        obtain ⟨q1, q2⟩ := a5 hpol (fun p hp => hP p (by
          rw [show serialEvents (⟨.rx chunk, e1, 0⟩ :: log) = e1 ++ serialEvents log from rfl, packetsIn_append]; exact List.mem_append_left _ hp)) hc
        obtain ⟨q3, q4⟩ := b5 hpol (fun p hp => hP p (by
          rw [show serialEvents (⟨.rx chunk, e1, 0⟩ :: log) = e1 ++ serialEvents log from rfl, packetsIn_append]; exact List.mem_append_right _ hp)) (fun q hq => hst q (by simp [hq])) q1
        exact ⟨q3, q2.trans q4⟩

end Mctp
