import Verif.Proofs.SerialCore
import Verif.Proofs.RoundTrip

/-! An endpoint with a serial binding: invariant over calls and received bytes. -/

namespace Mctp

open Spec

def SameRx (s R : SerialSt) : Prop :=
  s.rxPkt = R.rxPkt ∧ s.expLen = R.expLen ∧ s.fcs = R.fcs ∧ s.fcsCalc = R.fcsCalc ∧ s.state = R.state

theorem SameRx.refl (s : SerialSt) : SameRx s s := ⟨rfl, rfl, rfl, rfl, rfl⟩

theorem SameRx.sim {s R : SerialSt} (h : SameRx s R) {r : Rx} (hs : Sim R r) : Sim s r := by
  obtain ⟨h1, h2, h3, h4, h5⟩ := h
  cases r <;> simp only [Sim, h1, h2, h3, h4, h5] at hs ⊢ <;> exact hs

theorem pktIs_bytes {p : Pktbuf} (h1 : p.hdrOff = p.start) (h2 : p.start ≤ p.«end»)
    (h3 : p.«end» ≤ p.data.length) : PktIs p p.bytes := by
  have hl : p.bytes.length = p.«end» - p.start := by
    simp [Pktbuf.bytes, Pktbuf.len]; omega
  refine ⟨h1, by omega, h3, ?_⟩
  rw [hl]; rfl

/-- What the core relies on, of the serial binding with receive state `R`. -/
def serialK (R : SerialSt) : Contract serialOps where
  I := fun b => TxOk b ∧ (b.pktSize = 68 ∧ b.pktHeader = 0 ∧ b.pktTrailer = 0 ∧ b.controlRx = false) ∧
    SameRx b.st R
  P := fun p => PktIs p p.bytes ∧ 5 ≤ p.bytes.length ∧ p.bytes.length ≤ 68
  T := fun _ => True
  made := fun b p hI _ hm => by
    obtain ⟨_, ⟨h1, h2, h3, _⟩, _⟩ := hI
    have hl : p.bytes.length = p.«end» - p.start := by
      have := hm.data; have := hm.hi
      simp [Pktbuf.bytes, Pktbuf.len]; omega
    refine ⟨pktIs_bytes (by rw [hm.hdr, hm.start]) ?_ ?_, ?_, ?_⟩
    · have := hm.start; have := hm.lo; omega
    · have := hm.data; have := hm.hi; omega
    · have := hm.start; have := hm.lo; omega
    · have := hm.start; have := hm.hi; omega
  tx := fun b p hI _ hP => by
    obtain ⟨ht, hsz, hr⟩ := hI
    obtain ⟨out, h1, h2, h3, tb, k, w, h4, h5, h6⟩ := serialTx_spec ht hP.1
    refine ⟨out, h1, ⟨?_, hsz, ?_⟩, ?_, fun _ => trivial⟩
    · rw [h5]; exact ⟨h4, ht.wr, ht.pat⟩
    · rw [h5]; exact hr
    · rw [h2]; exact hP

theorem MemInv.setSt {R R' : SerialSt} {base : List Nat} {c : Core SerialSt} {bus : Bus SerialSt}
    (h : MemInv (serialK R) base c) (hb : c.busses = [bus]) {st : SerialSt}
    (htx : TxSame bus.binding.st st) (hsame : SameRx st R') :
    MemInv (serialK R') base (c.setSt 0 bus st) := by
  obtain ⟨h1, h2, h3, h4, h5, h6, h7, h8, h9⟩ := h
  have hb' : (c.setSt 0 bus st).busses = [{ bus with binding := { bus.binding with st := st } }] := by
    simp [Core.setSt, Core.setBus, hb]
  refine ⟨?_, h2, h3, ?_, h5, h6, ?_, ?_, fun _ _ _ => trivial⟩
  · refine h1.congr fun j => ?_
    have e1 : queueIds (c.setSt 0 bus st).busses = queueIds c.busses := by
      rw [hb', hb]; rfl
    simp only [owned, e1]
    rfl
  · rw [hb']; simp only [Core.setSt, Core.setBus]; rw [h4, hb]; rfl
  · rw [hb']
    intro b hbm hne
    simp only [List.mem_singleton] at hbm
    subst hbm
    have := h7 bus (by simp [hb]) hne
    exact ⟨this.btu, this.wrap⟩
  · rw [hb']
    intro b hbm
    simp only [List.mem_singleton] at hbm
    subst hbm
    obtain ⟨⟨⟨t1, t2, t3⟩, hsz, _⟩, hq⟩ := h8 bus (by simp [hb])
    obtain ⟨x1, x2, x3, x4, x5⟩ := htx
    exact ⟨⟨⟨by rw [← t1, ← x1], by rw [x2]; exact t2, by simp only [x4]; exact t3⟩, hsz, hsame⟩, hq⟩

/-- State of an endpoint with a serial binding: `leak` are the packet buffers abandoned by the
receiver. -/
structure SerInv (eid : Byte) (base leak : List Nat) (evs : List Event) (r : Rx) (c : Core SerialSt) :
    Prop where
  ok  : r.Ok 68
  ep  : EpInv eid evs c
  mem : ∃ R, Sim R r ∧ MemInv (serialK R) (heldIds R ++ (leak ++ base)) c

theorem one_bus {eid : Byte} {evs : List Event} {β : Type} {c : Core β} (h : EpInv eid evs c) :
    ∃ bus, c.busses = [bus] ∧ bus.eid = eid := by
  have := h.eids
  obtain ⟨bus, hb⟩ := List.length_eq_one_iff.mp (by rw [← List.length_map (as := c.busses), this]; rfl)
  rw [hb] at this
  exact ⟨bus, hb, by simpa using this⟩

theorem EpInv.frame {eid : Byte} {evs : List Event} {β : Type} {c c' : Core β} (h : EpInv eid evs c)
    (h1 : c'.bridge = c.bridge) (h2 : c'.busses.map Bus.eid = c.busses.map Bus.eid)
    (h3 : c'.ctxs = c.ctxs) : EpInv eid evs c' :=
  ⟨by rw [h1]; exact h.noBridge, by rw [h2]; exact h.eids, by rw [h3]; exact h.tbl⟩

/-- An invalid frame is completed by byte `c` in state `r`. -/
def rxDrops (r : Rx) (c : Byte) : Nat :=
  match r with
  | .fin _ _ _ => if (rxStep 68 r c).2 = [] then 1 else 0
  | _ => 0

theorem heldIds_of_sim {s : SerialSt} {r : Rx} (h : Sim s r) :
    (match r with
     | .hunt | .rev | .len => heldIds s = []
     | _ => ∃ id, heldIds s = [id]) := by
  match r, h with
  | .hunt, h => simp [heldIds, h.2]
  | .rev, h => simp [heldIds, h.2]
  | .len, h => simp [heldIds, h.2.1]
  | .body n esc p, h => obtain ⟨_, _, _, pkt, h2, _⟩ := h; exact ⟨pkt.id, by simp [heldIds, h2]⟩
  | .fcs1 p, h => obtain ⟨_, _, pkt, h2, _⟩ := h; exact ⟨pkt.id, by simp [heldIds, h2]⟩
  | .fcs2 p hi, h => obtain ⟨_, _, _, pkt, h2, _⟩ := h; exact ⟨pkt.id, by simp [heldIds, h2]⟩
  | .fin p hi lo, h => obtain ⟨_, _, _, pkt, h2, _⟩ := h; exact ⟨pkt.id, by simp [heldIds, h2]⟩

theorem packetsIn_busRx {β : Type} {ops : Ops β} {c c' : Core β} {eid : Byte} {e : List Event} {pkt : Pktbuf}
    {p : List Byte} (h1 : c.bridge = false) (h2 : c.busses.map Bus.eid = [eid]) (hp : PktIs pkt p)
    (h : c.busRx ops 0 pkt = .ok (c', e)) : packetsIn e = [p] := by
  have hr : ∀ e' : List Event, (∀ j q, Event.recv j q ∉ e') → packetsIn (.recv 0 p :: e') = [p] := by
    intro e' he'
    unfold packetsIn
    rw [List.filterMap_cons]
    simp only [List.cons.injEq, true_and, List.filterMap_eq_nil_iff]
    intro ev hev
    cases ev with
    | recv j q => exact absurd hev (he' j q)
    | _ => rfl
  obtain ⟨bus, -, hbe, hbus, hh⟩ := busRx_endpoint h1 h2 hp h
  rcases hh with ⟨hpn, rfl, m, rfl⟩ | ⟨f, hf, hh⟩
  · exact hr [] (by simp)
  · rcases hh with ⟨hl, rfl, m, rfl⟩ | ⟨hl, hsg, rfl, m, rfl⟩ | ⟨hl, hsg, m1, m2, t, out, hc, -, rfl, rfl⟩
    · exact hr _ (capIn_noRecv c p)
    · refine hr _ fun j q hm => ?_
      rcases List.mem_append.mp hm with hm | hm
      · exact capIn_noRecv _ _ _ _ hm
      · exact routeEvents_noRecv _ _ _ _ _ _ _ _ _ hm
    · refine hr _ fun j q hm => ?_
      rcases List.mem_append.mp hm with hm | hm
      · exact capIn_noRecv _ _ _ _ hm
      · cases out with
        | none => cases hm
        | some msg => exact routeEvents_noRecv _ _ _ _ _ _ _ _ _ hm

theorem rxStep_out {r : Rx} {x : Byte} {p : List Byte} (h : (rxStep 68 r x).2 = [p]) :
    ∃ hi lo, r = .fin p hi lo ∧ (rxStep 68 r x).1 = .hunt := by
  match r, h with
  | .body n false q, h => cases h
  | .body n true q, h => cases h
  | .fin q hi lo, h =>
    simp only [rxStep] at h
    split at h
    · simp only [List.cons.injEq, and_true] at h
      subst h; exact ⟨hi, lo, rfl, rfl⟩
    · cases h

/-- What one byte did to the core. -/
inductive CoreByte (leak base : List Nat) (r : Rx) (x : Byte) (c : Core SerialSt) :
    Core SerialSt → List Event → Prop
  | none {c' : Core SerialSt} : (rxStep 68 r x).2 = [] → c'.ctxs = c.ctxs → c'.hasRx = c.hasRx →
      c'.maxSize = c.maxSize → CoreByte leak base r x c c' []
  | pass {c' : Core SerialSt} {e : List Event} (p : List Byte) (pkt : Pktbuf) (c1 : Core SerialSt)
      (R : SerialSt) : (rxStep 68 r x).2 = [p] → PktIs pkt p → 4 ≤ p.length →
      MemInv (serialK R) (pkt.id :: (leak ++ base)) c → c.busRx serialOps 0 pkt = .ok (c1, e) →
      c'.ctxs = c1.ctxs → c'.hasRx = c1.hasRx → c'.maxSize = c1.maxSize → CoreByte leak base r x c c' e

theorem serialByte_core {eid : Byte} {base leak : List Nat} {evs : List Event} {r : Rx}
    {c : Core SerialSt} (h : SerInv eid base leak evs r c) (x : Byte) :
    ∃ c' e leak', c.serialByte 0 x = .ok (c', e) ∧
      SerInv eid base (leak' ++ leak) (evs ++ e) (rxStep 68 r x).1 c' ∧
      leak'.length = rxDrops r x ∧ packetsIn e = (rxStep 68 r x).2 ∧
      CoreByte leak base r x c c' e := by
  obtain ⟨hok, hep, R, hsim, hmem⟩ := h
  obtain ⟨bus, hbus, heid⟩ := one_bus hep
  obtain ⟨⟨htx, ⟨hs1, hs2, hs3, hs4⟩, hsame⟩, hq⟩ := hmem.inv bus (by simp [hbus])
  have hat : c.busAt 0 = .ok bus := by
    obtain ⟨b, h1, h2, h3⟩ := hmem.busAt hmem.pos
    rw [hbus] at h3; simp only [List.mem_singleton] at h3; subst h3; exact h1
  have hheld : heldIds bus.binding.st = heldIds R := by unfold heldIds; rw [hsame.1]
  obtain ⟨mem', s', out, hb, hsim', htx', hbo⟩ := serialByte_sim (fill := c.fill) (b := bus.binding)
    (hsame.sim hsim) hok hs1 hs2 hs3 hmem.ok (fun i hi => by
      rw [hheld] at hi; exact hmem.owns.mem (by simp [hi])) x
  have hnb : ∀ (c1 : Core SerialSt) (b : Bus SerialSt) st, c1.busses = [b] →
      (c1.setSt 0 b st).busses.map Bus.eid = c1.busses.map Bus.eid := by
    intro c1 b st h; simp [Core.setSt, Core.setBus, h]
  unfold Core.serialByte
  rw [hat]
  simp only [Res.bind_ok, hb]
  cases hbo with
  | same e1 e2 e3 =>
    subst e1
    refine ⟨_, _, [], rfl, ⟨rxStep_ok hok x, ?_, ⟨s', hsim', ?_⟩⟩, ?_, by rw [e3]; rfl,
      .none e3 rfl rfl rfl⟩
    · rw [List.append_nil]; exact hep.frame rfl (hnb _ _ _ hbus) rfl
    · rw [e2, hheld]; exact hmem.setSt hbus htx' (SameRx.refl _)
    · have a1 := heldIds_of_sim (hsame.sim hsim)
      have a2 := heldIds_of_sim hsim'
      cases r <;> simp only [rxDrops] <;> try rfl
      simp only [rxStep] at a2
      simp only at a1
      rw [a2] at e2; rw [← e2] at a1
      obtain ⟨_, a1⟩ := a1; cases a1
  | alloc id e1 e2 e3 e4 =>
    refine ⟨_, _, [], rfl, ⟨rxStep_ok hok x, ?_, ⟨s', hsim', ?_⟩⟩, ?_, by rw [e4]; rfl,
      .none e4 rfl rfl rfl⟩
    · rw [List.append_nil]; exact hep.frame rfl (hnb { c with mem := mem' } _ _ hbus) rfl
    · rw [hheld] at e1
      rw [e1] at hmem
      have := hmem.alloc e3
      rw [e2]
      exact this.setSt hbus htx' (SameRx.refl _)
    · have a1 := heldIds_of_sim (hsame.sim hsim)
      cases r <;> simp only [rxDrops] <;> try rfl
      simp only at a1
      rw [e1] at a1
      obtain ⟨_, a1⟩ := a1; cases a1
  | drop p hi lo id e0 e1 e2 e3 e4 =>
    subst e1
    rw [hheld] at e2
    rw [e2] at hmem
    refine ⟨_, _, [id], rfl, ⟨rxStep_ok hok x, ?_, ⟨s', hsim', ?_⟩⟩, ?_, by rw [e4]; rfl,
      .none e4 rfl rfl rfl⟩
    · rw [List.append_nil]; exact hep.frame rfl (hnb _ _ _ hbus) rfl
    · rw [e3]; exact hmem.setSt hbus htx' (SameRx.refl _)
    · subst e0; simp only [rxDrops]; rw [if_pos e4]; rfl
  | pass pkt p e1 e2 e3 e4 e5 =>
    subst e1
    rw [hheld] at e2
    rw [e2] at hmem
    have hm0 : MemInv (serialK R) (pkt.id :: (leak ++ base)) c := hmem
    obtain ⟨c1, e, g1, g2, g3⟩ := busRx_total (serialK R) hm0 e4.is hm0.pos
    have hep1 := busRx_epInv hep e4.is g1
    obtain ⟨bus1, hbus1, heid1⟩ := one_bus hep1
    obtain ⟨⟨htx1, hsz1, hsame1⟩, hq1⟩ := g2.inv bus1 (by simp [hbus1])
    have hat1 : c1.busAt 0 = .ok bus1 := by
      obtain ⟨b, h1, h2, h3⟩ := g2.busAt g2.pos
      rw [hbus1] at h3; simp only [List.mem_singleton] at h3; subst h3; exact h1
    simp only [g1, Res.bind_ok, hat1]
    obtain ⟨hi, lo, rfl, hhunt⟩ := rxStep_out e5
    have h4 : 4 ≤ p.length := hok.1
    refine ⟨_, _, [], rfl, ⟨rxStep_ok hok x, ?_, ?_⟩, ?_, ?_, ?_⟩
    · exact hep1.frame rfl (hnb _ _ _ hbus1) rfl
    · refine ⟨{ bus1.binding.st with rxPkt := s'.rxPkt, state := s'.state }, ?_, ?_⟩
      · rw [hhunt] at hsim' ⊢
        exact hsim'
      · have hh : heldIds { bus1.binding.st with rxPkt := s'.rxPkt, state := s'.state } = [] := e3
        rw [hh]
        exact g2.setSt hbus1 ⟨rfl, rfl, rfl, rfl, rfl⟩ (SameRx.refl _)
    · simp only [rxDrops]; rw [if_neg (by rw [e5]; simp)]; rfl
    · rw [e5]; exact packetsIn_busRx hep.noBridge hep.eids e4.is g1
    · exact .pass p pkt c1 R e5 e4.is h4 hm0 g1 rfl rfl rfl

end Mctp
