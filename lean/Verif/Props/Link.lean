import Verif.Proofs.LinkAll
import Verif.Props.Astlpc

/-!
# Properties of the astlpc link: BMC and host together (C51, C52, C54, C55)

A BMC and a host, both running this code, with independent histories of calls, on one KCS device and one
LPC window (`Spec.Lpc`).  The accesses of the two sides are interleaved in any order the hardware allows:
a call of one side can be interrupted by the other side between any two accesses.  Both sides start with
the hardware after reset; the contents of the window are arbitrary.  The allocations of the host succeed;
those of the BMC may fail.
-/

namespace Mctp

open Spec

variable {EB EH : Type}

/-- `T` is an interleaving of the accesses of the two endpoints, allowed by the hardware, ending in `h`. -/
structure Linked (wr : Bool) (win : Nat → Byte) (T : List (AstMode × Access)) (h : Lpc)
    (cB : Core (AstSt EB)) (cH : Core (AstSt EH)) : Prop where
  bmc  : of .bmc T = accessesOf cB
  host : of .host T = accessesOf cH
  run  : Lpc.run wr (Lpc.reset win) T = some h

/-- The largest MTU a BMC created with `mtu` supports (0: as large as the window allows). -/
def bmcLimit (mtu : Nat) : Nat := if mtu = 0 then 524144 else min mtu 524144

theorem bmcRoom_eq (mtu : Nat) : bmcRoom mtu = bmcLimit mtu + 12 := rfl

variable {hwB : Hw EB} {envB : EB} {eidB : Byte} {mxB mtuB : Nat} {memB : Mem} {b0 cB : Core (AstSt EB)} {histB : List AstOp} {logB : List AstRec}
    {hwH : Hw EH} {envH : EH} {eidH : Byte} {mxH mtuH : Nat} {memH : Mem} {h0 cH : Core (AstSt EH)} {histH : List AstOp} {logH : List AstRec}
    {wr : Bool} {win : Nat → Byte} {T : List (AstMode × Access)} {h : Lpc}

theorem Linked.both {T1 T2 : List (AstMode × Access)} (hl : Linked wr win (T1 ++ T2) h cB cH)
    (hB : AstEndpoint hwB envB eidB mxB .bmc mtuB memB b0) (rB : b0.astRun hwB histB = .ok (cB, logB))
    (hH : AstEndpoint hwH envH eidH mxH .host mtuH memH h0) (rH : h0.astRun hwH histH = .ok (cH, logH))
    (hmem : ∀ n, memH.ok n = true) :
    Both true mtuB mtuH logB logH cB cH h ∧
    ∃ h1 b1 t1, Lpc.run wr (Lpc.reset win) T1 = some h1 ∧ Joint (bmcRoom mtuB) (mtuH + 12) h1 b1 t1 ∧
      watch .bmc Watch.zero (of .bmc T1) = some b1.w ∧ watch .host Watch.zero (of .host T1) = some t1.w :=
  link_both hB rB hH rH (fun h => (nomatch h)) hmem (fun bus hb => by rw [hl.bmc, accessesOf_single hb]) (fun bus hb => by rw [hl.host, accessesOf_single hb]) hl.run

theorem dir_holders {sz o : Nat} {win : Nat → Byte} {r1 r2 : Option Byte} {s r : Fine} {x y : Bool} (hd : Dir sz o win r1 r2 s r)
    (hc : r.w.rx = decide (r.rxp ≠ .away)) (hx : x = true ↔ r1 = some 1) (hy : y = true ↔ r2 = some 2) : holders s.w r.w x y = 1 := by
  have hx' : x = decide (r1 = some 1) := by cases x <;> simp_all
  have hy' : y = decide (r2 = some 2) := by cases y <;> simp_all
  unfold holders
  rw [hc, hx', hy']
  cases hd <;> simp_all

/-! ## C54: exclusive ownership -/

/-- C54: at every moment of every execution of two endpoints on one link, both sides have kept to the
protocol, and each of the two buffers has exactly one holder: the side that fills it, the side that
empties it, a transmit-begin that has not been read, or a receive-complete that has not been read. -/
theorem C54_one_holder {T1 T2 : List (AstMode × Access)}
    (hB : AstEndpoint hwB envB eidB mxB .bmc mtuB memB b0) (rB : b0.astRun hwB histB = .ok (cB, logB))
    (hH : AstEndpoint hwH envH eidH mxH .host mtuH memH h0) (rH : h0.astRun hwH histH = .ok (cH, logH))
    (hmem : ∀ n, memH.ok n = true) (hl : Linked wr win (T1 ++ T2) h cB cH) :
    ∃ h1 b t, Lpc.run wr (Lpc.reset win) T1 = some h1 ∧
      watch .bmc Watch.zero (of .bmc T1) = some b ∧ watch .host Watch.zero (of .host T1) = some t ∧
      holders b t (h1.obf && h1.odr == 1) (h1.ibf && h1.idr == 2) = 1 ∧
      holders t b (h1.ibf && h1.idr == 1) (h1.obf && h1.odr == 2) = 1 := by
  obtain ⟨-, h1, b1, t1, hr1, J, w1, w2⟩ := hl.both hB rB hH rH hmem
  refine ⟨h1, b1.w, t1.w, hr1, w1, w2, dir_holders J.dirB J.cohT ?_ ?_, dir_holders J.dirH J.cohB ?_ ?_⟩ <;>
    simp [outReg, inReg]

/-- C54: when one side writes outside the header of the window, the other side has not been given that
buffer; when one side reads outside the header, the other side has handed that buffer over. -/
theorem C54_no_race {T1 T2 : List (AstMode × Access)} {side other : AstMode} {a : Access}
    (hB : AstEndpoint hwB envB eidB mxB .bmc mtuB memB b0) (rB : b0.astRun hwB histB = .ok (cB, logB))
    (hH : AstEndpoint hwH envH eidH mxH .host mtuH memH h0) (rH : h0.astRun hwH histH = .ok (cH, logH))
    (hmem : ∀ n, memH.ok n = true) (hl : Linked wr win (T1 ++ (side, a) :: T2) h cB cH) (ho : other ≠ side) :
    ∃ w, watch other Watch.zero (of other T1) = some w ∧
      (∀ off bs rc, a = .lpcWrite off bs rc → 32 < off + bs.length → w.rx = false) ∧
      (∀ off bs rc, a = .lpcRead off bs rc → 32 < off + bs.length → w.tx = .handed) := by
  obtain ⟨h1, b, t, hr1, w1, w2, e1, e2⟩ := C54_one_holder hB rB hH rH hmem hl
  obtain ⟨h1', b', t', hr1', w1', w2', -⟩ := C54_one_holder (T1 := T1 ++ [(side, a)]) (T2 := T2) hB rB hH rH hmem (by rw [List.append_assoc]; exact hl)
  have key : ∀ {w w' : Watch} {m : AstMode}, watch m Watch.zero (of side T1) = some w → watch m Watch.zero (of side (T1 ++ [(side, a)])) = some w' →
      w.step m a = some w' := by
    intro w w' m h h'
    rw [of_append] at h'
    have : of side [(side, a)] = [a] := by simp [of]
    rw [this, watch_append, h] at h'
    simp only [Option.bind_some, watch] at h'
    split at h'
    · rename_i hs; cases h'; exact hs
    · cases h'
  have hstep : ∀ {w w' : Watch} {m : AstMode}, w.step m a = some w' →
      (∀ off bs rc, a = .lpcWrite off bs rc → 32 < off + bs.length → w.tx ≠ .handed) ∧
      (∀ off bs rc, a = .lpcRead off bs rc → 32 < off + bs.length → w.rx = true) := by
    intro w w' m h
    constructor
    · rintro off bs rc rfl hlen
      simp only [Watch.step] at h
      rw [if_neg (by omega)] at h
      intro hw
      rw [hw] at h
      cases h
    · rintro off bs rc rfl hlen
      simp only [Watch.step] at h
      rw [if_neg (by omega)] at h
      cases hrx : w.rx with
      | true => rfl
      | false => rw [hrx] at h; cases h
  have hold : ∀ {s r : Watch} {x y : Bool}, holders s r x y = 1 → (s.tx ≠ .handed → r.rx = false) ∧ (r.rx = true → s.tx = .handed) := by
    intro s r x y h
    unfold holders at h
    constructor
    · intro hs
      rw [if_pos hs] at h
      cases hr : r.rx with
      | false => rfl
      | true => rw [hr, if_pos rfl] at h; omega
    · intro hr
      by_cases hs : s.tx = .handed
      · exact hs
      · rw [if_pos hs, hr, if_pos rfl] at h; omega
  cases side with
  | bmc =>
    obtain rfl : other = .host := by cases other <;> simp_all
    obtain ⟨k1, k2⟩ := hstep (key w1 w1')
    exact ⟨t, w2, fun off bs rc ha hlen => (hold e1).1 (k1 off bs rc ha hlen), fun off bs rc ha hlen => (hold e2).2 (k2 off bs rc ha hlen)⟩
  | host =>
    obtain rfl : other = .bmc := by cases other <;> simp_all
    obtain ⟨k1, k2⟩ := hstep (key w2 w2')
    exact ⟨b, w1, fun off bs rc ha hlen => (hold e2).1 (k1 off bs rc ha hlen), fun off bs rc ha hlen => (hold e1).2 (k2 off bs rc ha hlen)⟩

/-! ## C55: packets cross the link once, in order, unchanged -/

/-- The packets the binding of an endpoint has accepted for transmission, in order. -/
def sentBy (log : List AstRec) : List (List Byte) := taken (offers 0 (astEvents log))

/-- The packets the binding of an endpoint has delivered to the core, in order. -/
def gotBy (log : List AstRec) : List (List Byte) := packetsIn (astEvents log)

/-- `mctp_astlpc_tx_done` of an endpoint. -/
def txDone {E : Type} (c : Core (AstSt E)) : Prop := ∀ bus ∈ c.busses, astTxDone bus.binding.st = true

theorem rel_free {E : Type} {g : LinkCfg} {U : AstSt E → Prop} {φ : Option Byte} {k : Byte} {os : List Offer} {rs : List (List Byte)}
    {bus : Bus (AstSt E)} {f : Fine} (h : Rel g U φ k os rs bus f) (hd : astTxDone bus.binding.st = true) : f.w.tx = .free := by
  unfold astTxDone at hd
  have hd := of_decide_eq_true hd
  rcases Bool.eq_false_or_eq_true f.opened with ho | ho
  · rcases h.tx ho with ⟨-, h⟩ | ⟨h, -⟩ | ⟨h, -⟩
    · exact h
    · rw [hd] at h; cases h
    · rw [hd] at h; cases h
  · exact (h.shut (.inl ho)).2.2.2

/-- C55: the packets delivered by the host are those accepted by the BMC, in order, once and unchanged,
and those delivered by the BMC are those accepted by the host; at most the last one is missing, and none
when the sender's `mctp_astlpc_tx_done` is true. -/
theorem C55_exactly_once
    (hB : AstEndpoint hwB envB eidB mxB .bmc mtuB memB b0) (rB : b0.astRun hwB histB = .ok (cB, logB))
    (hH : AstEndpoint hwH envH eidH mxH .host mtuH memH h0) (rH : h0.astRun hwH histH = .ok (cH, logH))
    (hmem : ∀ n, memH.ok n = true) (hl : Linked wr win T h cB cH) :
    (∃ last, sentBy logB = gotBy logH ++ last ∧ last.length ≤ 1 ∧ (txDone cB → last = [])) ∧
    (∃ last, sentBy logH = gotBy logB ++ last ∧ last.length ≤ 1 ∧ (txDone cH → last = [])) := by
  have hl' : Linked wr win (T ++ []) h cB cH := by rw [List.append_nil]; exact hl
  obtain ⟨⟨hF, busB, busH, b, t, hbB, hbH, J, RB, RH⟩, -⟩ := hl'.both hB rB hH rH hmem
  have hsz : mtuH + 12 < 2 ^ 32 := by have := hH.mtu_lt; have := bmcRoom_le mtuB; unfold HostFits at hF; omega
  constructor
  · obtain ⟨last, h1, h2, h3⟩ := dir_packets J.dirB RB.sent (fun p hp => ⟨(RB.fit p hp).1, by have := (RB.fit p hp).2; simp only [cfgB] at this; omega⟩) RH.got
    exact ⟨last, h1, h2, fun hd => h3 (rel_free RB (hd busB (by rw [hbB]; simp)))⟩
  · obtain ⟨last, h1, h2, h3⟩ := dir_packets J.dirH RH.sent (fun p hp => ⟨(RH.fit p hp).1, by have := (RH.fit p hp).2; simp only [cfgH] at this; omega⟩) RB.got
    exact ⟨last, h1, h2, fun hd => h3 (rel_free RH (hd busH (by rw [hbH]; simp)))⟩

/-! ## C51: agreement -/

/-- C51: once the host has a protocol version, both sides use version 3, mirrored buffers of the same
size, and packets of the same size, for the MTU requested by the host, which is no larger than the BMC's. -/
theorem C51_agree
    (hB : AstEndpoint hwB envB eidB mxB .bmc mtuB memB b0) (rB : b0.astRun hwB histB = .ok (cB, logB))
    (hH : AstEndpoint hwH envH eidH mxH .host mtuH memH h0) (rH : h0.astRun hwH histH = .ok (cH, logH))
    (hmem : ∀ n, memH.ok n = true) (hl : Linked wr win T h cB cH) {busB : Bus (AstSt EB)} {busH : Bus (AstSt EH)}
    (hbB : cB.busses = [busB]) (hbH : cH.busses = [busH]) (hopen : busH.binding.st.proto ≠ some 0) :
    busB.binding.st.proto = some 3 ∧ busH.binding.st.proto = some 3 ∧
    busB.binding.st.tx.offset = busH.binding.st.rx.offset ∧ busB.binding.st.rx.offset = busH.binding.st.tx.offset ∧
    busB.binding.st.tx.size = busH.binding.st.rx.size ∧ busB.binding.st.rx.size = busH.binding.st.tx.size ∧
    busB.binding.pktSize = packetSize mtuH ∧ busH.binding.pktSize = packetSize mtuH ∧
    mtuH ≤ bmcLimit mtuB ∧ 64 ≤ mtuH := by
  have hl' : Linked wr win (T ++ []) h cB cH := by rw [List.append_nil]; exact hl
  obtain ⟨⟨hF, bB, bH, b, t, hbB', hbH', J, RB, RH⟩, -⟩ := hl'.both hB rB hH rH hmem
  obtain rfl : bB = busB := by rw [hbB] at hbB'; simpa using hbB'.symm
  obtain rfl : bH = busH := by rw [hbH] at hbH'; simpa using hbH'.symm
  have hto : t.opened = true := by
    rcases Bool.eq_false_or_eq_true t.opened with ho | ho
    · exact ho
    · exact absurd (RH.closed ho).1 hopen
  have hbo : b.opened = true := by
    rcases J.st with hA | hB
    · rw [hA.to] at hto; cases hto
    · exact hB.bo
  obtain ⟨p1, p2, p3, p4, p5, p6⟩ := RB.lay hbo
  obtain ⟨q1, q2, q3, q4, q5, q6⟩ := RH.lay hto
  simp only [cfgB, cfgH] at p2 p3 p4 p5 p6 q2 q3 q4 q5 q6
  unfold HostFits at hF
  rw [bmcRoom_eq] at hF
  refine ⟨p1, q1, by omega, by omega, by omega, by omega, ?_, ?_, by omega, by omega⟩ <;> unfold packetSize hdrSize <;> omega

/-- C51: a side that transmits has the channel open: the host once it has a protocol version, the BMC once
it has negotiated; before that no packet is accepted on either side. -/
theorem C51_before
    (hB : AstEndpoint hwB envB eidB mxB .bmc mtuB memB b0) (rB : b0.astRun hwB histB = .ok (cB, logB))
    (hH : AstEndpoint hwH envH eidH mxH .host mtuH memH h0) (rH : h0.astRun hwH histH = .ok (cH, logH))
    (hmem : ∀ n, memH.ok n = true) (hl : Linked wr win T h cB cH) {busB : Bus (AstSt EB)} {busH : Bus (AstSt EH)}
    (hbB : cB.busses = [busB]) (hbH : cH.busses = [busH]) :
    (busB.state ≠ .constructed → busB.binding.pktSize = packetSize mtuH) ∧
    (busH.state ≠ .constructed → busH.binding.st.proto = some 3) ∧
    (busH.binding.st.proto = some 0 → sentBy logH = [] ∧ gotBy logH = []) := by
  have hl' : Linked wr win (T ++ []) h cB cH := by rw [List.append_nil]; exact hl
  obtain ⟨⟨hF, bB, bH, b, t, hbB', hbH', J, RB, RH⟩, -⟩ := hl'.both hB rB hH rH hmem
  obtain rfl : bB = busB := by rw [hbB] at hbB'; simpa using hbB'.symm
  obtain rfl : bH = busH := by rw [hbH] at hbH'; simpa using hbH'.symm
  refine ⟨fun hs => ?_, fun hs => ?_, fun h0 => ?_⟩
  · have := (RB.lay (RB.live hs).1).2.2.2.2.2
    simp only [cfgB] at this
    unfold packetSize hdrSize; omega
  · exact (RH.lay (RH.live hs).1).1
  · have hto : t.opened = false := by
      rcases Bool.eq_false_or_eq_true t.opened with ho | ho
      · have := (RH.lay ho).1; rw [h0] at this; cases this
      · exact ho
    obtain ⟨-, -, -, h1, h2⟩ := RH.closed hto
    constructor
    · have := RH.sent
      rw [h1] at this
      simpa [sentBy] using this.symm
    · have := RH.got
      rw [h2] at this
      exact this

/-! ## C52: a host that asks for more -/

/-- C52 does not hold: a host that requests a larger MTU than the BMC's limit cannot be registered on the
link at all.  (So does one that requests less than 64, including 0.) -/
theorem C52_refused
    (hB : AstEndpoint hwB envB eidB mxB .bmc mtuB memB b0) (rB : b0.astRun hwB histB = .ok (cB, logB))
    (hmem : ∀ n, memH.ok n = true) (hbig : bmcLimit mtuB < mtuH ∨ mtuH < 64) :
    ¬ ∃ (hwH : Hw EH) (envH : EH) (eidH : Byte) (mxH : Nat) (h0 cH : Core (AstSt EH)) (histH : List AstOp) (logH : List AstRec)
        (wr : Bool) (win : Nat → Byte) (T : List (AstMode × Access)) (h : Lpc),
        AstEndpoint hwH envH eidH mxH .host mtuH memH h0 ∧ h0.astRun hwH histH = .ok (cH, logH) ∧ Linked wr win T h cB cH := by
  rintro ⟨hwH, envH, eidH, mxH, h0, cH, histH, logH, wr, win, T, h, hH, rH, hl⟩
  have hl' : Linked wr win (T ++ []) h cB cH := by rw [List.append_nil]; exact hl
  obtain ⟨⟨hF, -⟩, -⟩ := hl'.both hB rB hH rH hmem
  unfold HostFits at hF
  rw [bmcRoom_eq] at hF
  omega

end Mctp
