import Verif.Proofs.LinkCapture
import Verif.Props.LinkMsg

/-!
# The captures at the two ends of an astlpc link (C109)

The same setting as for C54, C55 and C81; at both ends a capture handler is set after `mctp_register_bus` and kept.
-/

namespace Mctp

open Spec

variable {EB EH : Type}

/-- The packets of a message have a content. -/
theorem Msg.packets_long {ver src : Byte} {m : Msg} (hm : 0 < m.mtu) : ∀ p ∈ m.packets ver src, 4 < p.length := by
  intro p hp
  unfold Msg.packets fragments at hp
  obtain ⟨i, hi, rfl⟩ := List.mem_map.mp hp
  have hi := List.mem_range.mp hi
  unfold nFrags at hi
  have h1 : (i + 1) * m.mtu ≤ m.data.length + m.mtu - 1 := Nat.le_trans (Nat.mul_le_mul_right _ hi) (Nat.div_mul_le_self _ _)
  rw [Nat.add_mul, Nat.one_mul] at h1
  simp only [fragment, List.length_append, List.length_cons, List.length_nil, List.length_take, List.length_drop]
  omega

/-- The packets captured as outgoing. -/
abbrev capturedOut (log : List AstRec) : List (List Byte) := outgoingOf (capturedPackets (astEvents log))
/-- The packets captured as incoming. -/
abbrev capturedIn (log : List AstRec) : List (List Byte) := incomingOf (capturedPackets (astEvents log))

theorem acceptedBy_mtu {mtu : Nat} {log : List AstRec} {m : Msg} (hm : m ∈ acceptedBy mtu log) : m.mtu = mtu := by
  obtain ⟨r, -, hr⟩ := List.mem_filterMap.mp hm
  split at hr
  · split at hr
    · cases hr; rfl
    · cases hr
  · cases hr

section

variable {hwB : Hw EB} {envB : EB} {eidB : Byte} {mxB mtuB : Nat} {memB : Mem} {b0 cB : Core (AstSt EB)} {histB : List AstOp} {logB : List AstRec}
    {hwH : Hw EH} {envH : EH} {eidH : Byte} {mxH mtuH : Nat} {memH : Mem} {h0 cH : Core (AstSt EH)} {histH : List AstOp} {logH : List AstRec}
    {wr : Bool} {win : Nat → Byte} {T : List (AstMode × Access)} {h : Lpc}

/-- What a BMC has captured, on a link to a host that need not capture. -/
theorem captured_bmc
    (hB : AstEndpoint hwB envB eidB mxB .bmc mtuB memB b0) (rB : b0.astRun hwB (.setCapture true :: histB) = .ok (cB, logB)) (kB : KeepsCapture true histB)
    (hH : AstEndpoint hwH envH eidH mxH .host mtuH memH h0) (rH : h0.astRun hwH histH = .ok (cH, logH))
    (hmem : ∀ n, memH.ok n = true) (hl : Linked wr win T h cB cH) : capturedOut logB = sentBy logB ∧ capturedIn logB = gotBy logB := by
  obtain ⟨hF, ⟨-, -, t1⟩, ⟨-, a2, -⟩⟩ := hl.accounted hB rB hH rH hmem
  obtain ⟨-, ⟨last, e1, -⟩⟩ := C55_exactly_once hB rB hH rH hmem hl
  obtain ⟨k1, k2⟩ := hB.captured kB rB
  refine ⟨?_, ?_⟩
  · unfold capturedOut outgoingOf sentBy
    rw [k1.packets.1, k2.offers, taken_all t1]
  · unfold capturedIn incomingOf gotBy
    rw [k1.packets.2, List.filter_eq_self.mpr]
    intro p hp
    have hp' : p ∈ sentBy logH := by rw [e1]; exact List.mem_append_left _ hp
    have hp'' : p ∈ (acceptedBy mtuH logH).flatMap (Msg.packets 1 eidH) := by rw [a2]; exact List.mem_append_left _ hp'
    obtain ⟨m, hm, hpm⟩ := List.mem_flatMap.mp hp''
    unfold HostFits at hF
    exact decide_eq_true (Msg.packets_long (by rw [acceptedBy_mtu hm]; omega) p hpm)

/-- What a host has captured. -/
theorem captured_host
    (hB : AstEndpoint hwB envB eidB mxB .bmc mtuB memB b0) (rB : b0.astRun hwB histB = .ok (cB, logB))
    (hH : AstEndpoint hwH envH eidH mxH .host mtuH memH h0) (rH : h0.astRun hwH (.setCapture true :: histH) = .ok (cH, logH)) (kH : KeepsCapture true histH)
    (hmem : ∀ n, memH.ok n = true) (hl : Linked wr win T h cB cH) : capturedOut logH = sentBy logH ∧ capturedIn logH = gotBy logH := by
  obtain ⟨hF, ⟨-, a2, -⟩, ⟨-, -, t1⟩⟩ := hl.accounted hB rB hH rH hmem
  obtain ⟨⟨last, e1, -⟩, -⟩ := C55_exactly_once hB rB hH rH hmem hl
  obtain ⟨k1, k2⟩ := hH.captured kH rH
  refine ⟨?_, ?_⟩
  · unfold capturedOut outgoingOf sentBy
    rw [k1.packets.1, k2.offers, taken_all t1]
  · unfold capturedIn incomingOf gotBy
    rw [k1.packets.2, List.filter_eq_self.mpr]
    intro p hp
    have hp' : p ∈ sentBy logB := by rw [e1]; exact List.mem_append_left _ hp
    have hp'' : p ∈ (acceptedBy mtuH logB).flatMap (Msg.packets 1 eidB) := by rw [a2]; exact List.mem_append_left _ hp'
    obtain ⟨m, hm, hpm⟩ := List.mem_flatMap.mp hp''
    unfold HostFits at hF
    exact decide_eq_true (Msg.packets_long (by rw [acceptedBy_mtu hm]; omega) p hpm)

/-- **C109** The captures at the two ends agree: what one side has captured as outgoing is what the other has captured as incoming, in order, except for
at most one packet that is on its way; none is when `mctp_astlpc_tx_done` is true. -/
theorem C109_captures_agree
    (hB : AstEndpoint hwB envB eidB mxB .bmc mtuB memB b0) (rB : b0.astRun hwB (.setCapture true :: histB) = .ok (cB, logB)) (kB : KeepsCapture true histB)
    (hH : AstEndpoint hwH envH eidH mxH .host mtuH memH h0) (rH : h0.astRun hwH (.setCapture true :: histH) = .ok (cH, logH)) (kH : KeepsCapture true histH)
    (hmem : ∀ n, memH.ok n = true) (hl : Linked wr win T h cB cH) :
    (∃ last, capturedOut logB = capturedIn logH ++ last ∧ last.length ≤ 1 ∧ (txDone cB → last = [])) ∧
    (∃ last, capturedOut logH = capturedIn logB ++ last ∧ last.length ≤ 1 ∧ (txDone cH → last = [])) := by
  obtain ⟨b1, b2⟩ := captured_bmc hB rB kB hH rH hmem hl
  obtain ⟨h1, h2⟩ := captured_host hB rB hH rH kH hmem hl
  rw [b1, b2, h1, h2]
  exact C55_exactly_once hB rB hH rH hmem hl

/-- **C109** What a side has captured as outgoing are the packets of the messages it has accepted, in order and each once, up to the packets still queued
(which are not captured until they are offered to the binding). -/
theorem C109_outgoing
    (hB : AstEndpoint hwB envB eidB mxB .bmc mtuB memB b0) (rB : b0.astRun hwB (.setCapture true :: histB) = .ok (cB, logB)) (kB : KeepsCapture true histB)
    (hH : AstEndpoint hwH envH eidH mxH .host mtuH memH h0) (rH : h0.astRun hwH (.setCapture true :: histH) = .ok (cH, logH)) (kH : KeepsCapture true histH)
    (hmem : ∀ n, memH.ok n = true) (hl : Linked wr win T h cB cH) :
    (acceptedBy mtuH logB).flatMap (Msg.packets 1 eidB) = capturedOut logB ++ pending cB ∧
    (acceptedBy mtuH logH).flatMap (Msg.packets 1 eidH) = capturedOut logH ++ pending cH := by
  rw [(captured_bmc hB rB kB hH rH hmem hl).1, (captured_host hB rB hH rH kH hmem hl).1]
  exact C81_nothing_dropped hB rB hH rH hmem hl

end

namespace CaptureDemo

open AstDemo LinkDemo

def logB3 : List AstRec :=
  [⟨.setCapture true, [], 0⟩, ⟨.poll, [], 0⟩, ⟨.send 9 false 3 [7, 9], [.capture true pktS, .tx 0 pktS 0 true], 0⟩, ⟨.poll, [.recv 0 pktL1, .capture false pktL1], 0⟩,
   ⟨.poll, [], 0⟩, ⟨.poll, [.recv 0 pktL2, .capture false pktL2, .rxMsg 9 true 1 long], 0⟩]

def logH3 : List AstRec :=
  [⟨.setCapture true, [], 0⟩, ⟨.poll, [], 0⟩, ⟨.send 8 true 1 long, [.capture true pktL1, .tx 0 pktL1 0 true], 0⟩,
   ⟨.poll, [.recv 0 pktS, .capture false pktS, .rxMsg 8 false 3 [7, 9]], 0⟩, ⟨.poll, [], 0⟩, ⟨.poll, [.capture true pktL2, .tx 0 pktL2 0 true], 0⟩, ⟨.poll, [], 0⟩]

set_option synthInstance.maxSize 512 in
theorem run_bmc3 : LinkDemo.run .bmc 64 8 (of .bmc T2) (.setCapture true :: histB2) = some (logB3, of .bmc T2, [(true, some 3, 68)]) := by decide +kernel
set_option synthInstance.maxSize 512 in
theorem run_host3 : LinkDemo.run .host 64 9 (of .host T2) (.setCapture true :: histH2) = some (logH3, of .host T2, [(true, some 3, 68)]) := by decide +kernel

/-- The hypotheses are met by the execution of C81 with capture handlers at both ends; three packets are captured at each. -/
theorem linked3 : ∃ b0 cB h0 cH h,
    AstEndpoint replay (of .bmc T2) 8 65536 .bmc 64 {} b0 ∧ b0.astRun replay (.setCapture true :: histB2) = .ok (cB, logB3) ∧ KeepsCapture true histB2 ∧
    AstEndpoint replay (of .host T2) 9 65536 .host 64 {} h0 ∧ h0.astRun replay (.setCapture true :: histH2) = .ok (cH, logH3) ∧ KeepsCapture true histH2 ∧
    Linked false (fun _ => 0) T2 h cB cH ∧ capturedOut logB3 = [pktS] ∧ capturedIn logH3 = [pktS] ∧ capturedOut logH3 = [pktL1, pktL2] ∧
    capturedIn logB3 = [pktL1, pktL2] := by
  obtain ⟨b0, cB, e1, e2, e3, e4⟩ := LinkDemo.run_ok (by decide) run_bmc3
  obtain ⟨h0, cH, f1, f2, f3, f4⟩ := LinkDemo.run_ok (by decide) run_host3
  obtain ⟨h, hh⟩ := Option.isSome_iff_exists.mp run_lpc2
  exact ⟨b0, cB, h0, cH, h, e1, e2, by unfold KeepsCapture; decide, f1, f2, by unfold KeepsCapture; decide, ⟨e3.symm, f3.symm, hh⟩, by decide +kernel, by decide +kernel, by decide +kernel, by decide +kernel⟩

end CaptureDemo

end Mctp
