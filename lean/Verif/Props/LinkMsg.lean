import Verif.Proofs.AstMsg
import Verif.Props.LinkDemo

/-!
# Messages across the astlpc link (C81)

The same setting as for C54 and C55: a BMC and a host, both running this code, with independent histories
of calls, their accesses interleaved in any order the hardware allows.
-/

namespace Mctp

open Spec

variable {EB EH : Type}

/-- The calls of the receive callback that the application of an endpoint has seen, in order. -/
def deliveredTo (log : List AstRec) : List Event := (astEvents log).filter (fun ev => (delivered ev).isSome)

/-- What the application of the other side should see: for each message, one call with the sender's EID, the tag
owner, the tag and the content.  (A message without content is sent in no packets.) -/
def expected (src : Byte) (ms : List Msg) : List Event :=
  (ms.filter (fun m => m.data ≠ [])).map (fun m => .rxMsg src m.own m.tag m.data)

section

variable {hwB : Hw EB} {envB : EB} {eidB : Byte} {mxB mtuB : Nat} {memB : Mem} {b0 cB : Core (AstSt EB)} {histB : List AstOp} {logB : List AstRec}
    {hwH : Hw EH} {envH : EH} {eidH : Byte} {mxH mtuH : Nat} {memH : Mem} {h0 cH : Core (AstSt EH)} {histH : List AstOp} {logH : List AstRec}
    {wr : Bool} {win : Nat → Byte} {T : List (AstMode × Access)} {h : Lpc}

theorem Linked.accounted (hl : Linked wr win T h cB cH)
    (hB : AstEndpoint hwB envB eidB mxB .bmc mtuB memB b0) (rB : b0.astRun hwB histB = .ok (cB, logB))
    (hH : AstEndpoint hwH envH eidH mxH .host mtuH memH h0) (rH : h0.astRun hwH histH = .ok (cH, logH)) (hmem : ∀ n, memH.ok n = true) :
    HostFits (bmcRoom mtuB) mtuH ∧ Accounted eidB mtuH logB cB ∧ Accounted eidH mtuH logH cH :=
  link_accounted hB rB hH rH hmem (fun bus hb => by rw [hl.bmc, accessesOf_single hb]) (fun bus hb => by rw [hl.host, accessesOf_single hb]) hl.run

/-- **C81** What either side has accepted for transmission is, cut into packets for the host's MTU, what its
binding has taken followed by what is queued: nothing is dropped on the way to the link. -/
theorem C81_nothing_dropped
    (hB : AstEndpoint hwB envB eidB mxB .bmc mtuB memB b0) (rB : b0.astRun hwB histB = .ok (cB, logB))
    (hH : AstEndpoint hwH envH eidH mxH .host mtuH memH h0) (rH : h0.astRun hwH histH = .ok (cH, logH))
    (hmem : ∀ n, memH.ok n = true) (hl : Linked wr win T h cB cH) :
    (acceptedBy mtuH logB).flatMap (Msg.packets 1 eidB) = sentBy logB ++ pending cB ∧
    (acceptedBy mtuH logH).flatMap (Msg.packets 1 eidH) = sentBy logH ++ pending cH := by
  obtain ⟨-, h1, h2⟩ := hl.accounted hB rB hH rH hmem
  exact ⟨h1.2.1, h2.2.1⟩

/-- **C81** From the BMC's application to the host's: the messages delivered are the messages accepted, or the
first of them, in order, each once, with the BMC's EID, the tag owner, the tag and the content; all of them when the
BMC has nothing queued and its `mctp_astlpc_tx_done` is true. -/
theorem C81_bmc_to_host
    (hB : AstEndpoint hwB envB eidB mxB .bmc mtuB memB b0) (rB : b0.astRun hwB histB = .ok (cB, logB))
    (hH : AstEndpoint hwH envH eidH mxH .host mtuH memH h0) (rH : h0.astRun hwH histH = .ok (cH, logH))
    (hmem : ∀ n, memH.ok n = true) (hl : Linked wr win T h cB cH)
    (hk : KeepsRx histH) (hsrc : eidB ≠ 0) (hmx1 : 4096 ≤ mxH) (hmx2 : mxH < 2 ^ 64)
    (hms : ∀ m ∈ acceptedBy mtuH logB, Local eidH m.dest ∧ 2 * m.data.length ≤ mxH) :
    deliveredTo logH <+: expected eidB (acceptedBy mtuH logB) ∧
    (pending cB = [] → txDone cB → deliveredTo logH = expected eidB (acceptedBy mtuH logB)) := by
  obtain ⟨hF, ⟨h1, h2, -⟩, -⟩ := hl.accounted hB rB hH rH hmem
  obtain ⟨⟨last, e1, -, e2⟩, -⟩ := C55_exactly_once hB rB hH rH hmem hl
  have e1 : taken (offers 0 (astEvents logB)) = packetsIn (astEvents logH) ++ last := e1
  rw [e1, List.append_assoc] at h2
  unfold HostFits at hF
  have hmtu : ∀ m ∈ acceptedBy mtuH logB, m.mtu = mtuH := by
    intro m hm
    obtain ⟨r, -, hr⟩ := List.mem_filterMap.mp hm
    split at hr
    · split at hr
      · cases hr; rfl
      · cases hr
    · cases hr
  obtain ⟨more, q1, q2⟩ := hH.delivers hmem hk rH hmx1 hmx2 hsrc
    (fun m hm => ⟨by rw [hmtu m hm]; omega, h1 m hm, (hms m hm).1, (hms m hm).2⟩) h2
  refine ⟨⟨more, q1.symm⟩, fun hp hd => ?_⟩
  rw [q2 (by rw [e2 hd, hp]; rfl), List.append_nil] at q1
  exact q1.symm

/-- **C81** From the host's application to the BMC's (the allocations of the BMC succeed as well). -/
theorem C81_host_to_bmc
    (hB : AstEndpoint hwB envB eidB mxB .bmc mtuB memB b0) (rB : b0.astRun hwB histB = .ok (cB, logB))
    (hH : AstEndpoint hwH envH eidH mxH .host mtuH memH h0) (rH : h0.astRun hwH histH = .ok (cH, logH))
    (hmemB : ∀ n, memB.ok n = true) (hmem : ∀ n, memH.ok n = true) (hl : Linked wr win T h cB cH)
    (hk : KeepsRx histB) (hsrc : eidH ≠ 0) (hmx1 : 4096 ≤ mxB) (hmx2 : mxB < 2 ^ 64)
    (hms : ∀ m ∈ acceptedBy mtuH logH, Local eidB m.dest ∧ 2 * m.data.length ≤ mxB) :
    deliveredTo logB <+: expected eidH (acceptedBy mtuH logH) ∧
    (pending cH = [] → txDone cH → deliveredTo logB = expected eidH (acceptedBy mtuH logH)) := by
  obtain ⟨hF, -, ⟨h1, h2, -⟩⟩ := hl.accounted hB rB hH rH hmem
  obtain ⟨-, ⟨last, e1, -, e2⟩⟩ := C55_exactly_once hB rB hH rH hmem hl
  have e1 : taken (offers 0 (astEvents logH)) = packetsIn (astEvents logB) ++ last := e1
  rw [e1, List.append_assoc] at h2
  unfold HostFits at hF
  have hmtu : ∀ m ∈ acceptedBy mtuH logH, m.mtu = mtuH := by
    intro m hm
    obtain ⟨r, -, hr⟩ := List.mem_filterMap.mp hm
    split at hr
    · split at hr
      · cases hr; rfl
      · cases hr
    · cases hr
  obtain ⟨more, q1, q2⟩ := hB.delivers hmemB hk rB hmx1 hmx2 hsrc
    (fun m hm => ⟨by rw [hmtu m hm]; omega, h1 m hm, (hms m hm).1, (hms m hm).2⟩) h2
  refine ⟨⟨more, q1.symm⟩, fun hp hd => ?_⟩
  rw [q2 (by rw [e2 hd, hp]; rfl), List.append_nil] at q1
  exact q1.symm

end

namespace LinkDemo

open AstDemo

/-- Two packets. -/
def long : List Byte := List.replicate 70 7
def pktL1 : List Byte := [0x01, 0x08, 0x09, 0x89] ++ List.replicate 64 7
def pktL2 : List Byte := [0x01, 0x08, 0x09, 0x59] ++ List.replicate 6 7
def pktS : List Byte := [0x01, 0x09, 0x08, 0xc3, 0x07, 0x09]

/-- The host sends a message of 70 bytes, in two packets, the BMC one of two bytes; between the packets of the one the
other crosses. -/
def T2 : List (AstMode × Access) := T.take 22 ++
  [(.host, .lpcWrite 332 (be32 68) 0), (.host, .lpcWrite 336 (pktL1 ++ [0xf9, 0xf9, 0xf1, 0xd9]) 0), (.host, .kcsRead .status 0 0xc0),
   (.host, .kcsWrite .data 1 0),
   (.bmc, .lpcWrite 256 (be32 6) 0), (.bmc, .lpcWrite 260 (pktS ++ [0x17, 0x4e, 0x3e, 0xe2]) 0), (.bmc, .kcsRead .status 0 0xc2),
   (.bmc, .kcsWrite .data 1 0),
   (.bmc, .kcsRead .status 0 0xc3), (.bmc, .kcsRead .data 0 1), (.bmc, .lpcRead 332 (be32 68) 0),
   (.bmc, .lpcRead 336 (pktL1 ++ [0xf9, 0xf9, 0xf1, 0xd9]) 0), (.bmc, .kcsRead .status 0 0xc1),
   (.host, .kcsRead .status 0 0xc1), (.host, .kcsRead .data 0 1), (.host, .lpcRead 256 (be32 6) 0),
   (.host, .lpcRead 260 (pktS ++ [0x17, 0x4e, 0x3e, 0xe2]) 0), (.host, .kcsRead .status 0 0xc0), (.host, .kcsWrite .data 2 0),
   (.host, .kcsRead .status 0 0xc2),
   (.bmc, .kcsRead .status 0 0xc2), (.bmc, .kcsWrite .data 2 0), (.bmc, .kcsRead .status 0 0xc3), (.bmc, .kcsRead .data 0 2),
   (.host, .kcsRead .status 0 0xc1), (.host, .kcsRead .data 0 2),
   (.host, .lpcWrite 332 (be32 10) 0), (.host, .lpcWrite 336 (pktL2 ++ [0xf8, 0x0a, 0xd7, 0xef]) 0), (.host, .kcsRead .status 0 0xc0),
   (.host, .kcsWrite .data 1 0),
   (.bmc, .kcsRead .status 0 0xc2), (.bmc, .kcsRead .data 0 1), (.bmc, .lpcRead 332 (be32 10) 0),
   (.bmc, .lpcRead 336 (pktL2 ++ [0xf8, 0x0a, 0xd7, 0xef]) 0), (.bmc, .kcsRead .status 0 0xc0), (.bmc, .kcsWrite .data 2 0),
   (.host, .kcsRead .status 0 0xc1), (.host, .kcsRead .data 0 2)]

def histB2 : List AstOp := [.poll, .send 9 false 3 [7, 9], .poll, .poll, .poll]
def histH2 : List AstOp := [.poll, .send 8 true 1 long, .poll, .poll, .poll, .poll]

def logB2 : List AstRec :=
  [⟨.poll, [], 0⟩, ⟨.send 9 false 3 [7, 9], [.tx 0 pktS 0 true], 0⟩, ⟨.poll, [.recv 0 pktL1], 0⟩, ⟨.poll, [], 0⟩,
   ⟨.poll, [.recv 0 pktL2, .rxMsg 9 true 1 long], 0⟩]

def logH2 : List AstRec :=
  [⟨.poll, [], 0⟩, ⟨.send 8 true 1 long, [.tx 0 pktL1 0 true], 0⟩, ⟨.poll, [.recv 0 pktS, .rxMsg 8 false 3 [7, 9]], 0⟩,
   ⟨.poll, [], 0⟩, ⟨.poll, [.tx 0 pktL2 0 true], 0⟩, ⟨.poll, [], 0⟩]

set_option synthInstance.maxSize 512 in
theorem run_bmc2 : run .bmc 64 8 (of .bmc T2) histB2 = some (logB2, of .bmc T2, [(true, some 3, 68)]) := by decide +kernel
set_option synthInstance.maxSize 512 in
theorem run_host2 : run .host 64 9 (of .host T2) histH2 = some (logH2, of .host T2, [(true, some 3, 68)]) := by decide +kernel
theorem run_lpc2 : ((Lpc.run false (Lpc.reset fun _ => 0) T2).isSome) = true := by decide +kernel

/-- The hypotheses of the theorems are met by this execution: each side has accepted one message, and delivered the
other's. -/
theorem linked2 : ∃ b0 cB h0 cH h,
    AstEndpoint replay (of .bmc T2) 8 65536 .bmc 64 {} b0 ∧ b0.astRun replay histB2 = .ok (cB, logB2) ∧
    AstEndpoint replay (of .host T2) 9 65536 .host 64 {} h0 ∧ h0.astRun replay histH2 = .ok (cH, logH2) ∧
    Linked false (fun _ => 0) T2 h cB cH ∧ KeepsRx histB2 ∧ KeepsRx histH2 ∧
    acceptedBy 64 logB2 = [⟨9, false, 3, 64, [7, 9]⟩] ∧ deliveredTo logB2 = [.rxMsg 9 true 1 long] ∧
    acceptedBy 64 logH2 = [⟨8, true, 1, 64, long⟩] ∧ deliveredTo logH2 = [.rxMsg 8 false 3 [7, 9]] ∧
    (∀ m ∈ acceptedBy 64 logB2, Local 9 m.dest ∧ 2 * m.data.length ≤ 65536) ∧
    (∀ m ∈ acceptedBy 64 logH2, Local 8 m.dest ∧ 2 * m.data.length ≤ 65536) := by
  obtain ⟨b0, cB, e1, e2, e3, e4⟩ := run_ok (by decide) run_bmc2
  obtain ⟨h0, cH, f1, f2, f3, f4⟩ := run_ok (by decide) run_host2
  obtain ⟨h, hh⟩ := Option.isSome_iff_exists.mp run_lpc2
  have hk : ∀ hist : List AstOp, (∀ op ∈ hist, (match op with | .setMax _ => false | .setRx _ => false | _ => true) = true) → KeepsRx hist := by
    intro hist h op ho
    have := h op ho
    cases op <;> simp at this ⊢
  exact ⟨b0, cB, h0, cH, h, e1, e2, f1, f2, ⟨e3.symm, f3.symm, hh⟩, hk _ (by decide), hk _ (by decide), by decide, by decide +kernel, by decide, by decide,
    by decide, by decide⟩

end LinkDemo

end Mctp
