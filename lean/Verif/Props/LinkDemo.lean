import Verif.Props.Link

/-!
# An execution of a BMC and a host

Both MTUs are 64.  The channel is set up, then each side sends a packet; the two transmissions are
interleaved access by access, and the BMC must defer its receive-complete because its output register is
full.  The examples show that the hypotheses of the theorems about the link are met.
-/

namespace Mctp.LinkDemo

open Spec AstDemo

/-- An environment that gives the answers recorded in a list of accesses. -/
def replay : Hw (List Access) where
  kcsRead e _ := match e with
    | .kcsRead _ rc v :: rest => (rc, v, rest)
    | e => (0, 0, e.tail)
  kcsWrite e _ _ := match e with
    | .kcsWrite _ _ rc :: rest => (rc, rest)
    | e => (0, e.tail)
  lpcRead e _ _ := match e with
    | .lpcRead _ bs rc :: rest => (rc, bs, rest)
    | e => (0, [], e.tail)
  lpcWrite e _ _ := match e with
    | .lpcWrite _ _ rc :: rest => (rc, rest)
    | e => (0, e.tail)

/-- From the host to the BMC: message 07 01 02. -/
def pktH : List Byte := [0x01, 0x08, 0x09, 0xc9, 0x07, 0x01, 0x02]
/-- From the BMC to the host: message 07 09. -/
def pktB : List Byte := [0x01, 0x09, 0x08, 0xc1, 0x07, 0x09]

/-- The accesses of both sides. -/
def T : List (AstMode × Access) :=
  [-- mctp_register_bus on the BMC
   (.bmc, .lpcWrite 0 (header 1 3 0 0 0 256 76 332 76) 0), (.bmc, .kcsWrite .status 0x80 0), (.bmc, .kcsWrite .data 0xff 0),
   -- mctp_register_bus on the host
   (.host, .kcsRead .status 0 0x81), (.host, .lpcRead 0 (header 1 3 0 0 0 256 76 332 76) 0),
   (.host, .lpcRead 0 (header 1 3 0 0 0 256 76 332 76) 0), (.host, .lpcWrite 20 (be32 76) 0), (.host, .lpcWrite 8 (be16 1) 0),
   (.host, .lpcWrite 10 (be16 3) 0), (.host, .kcsWrite .data 0 0),
   -- the BMC polls: the channel is set up
   (.bmc, .kcsRead .status 0 0x83), (.bmc, .kcsRead .data 0 0), (.bmc, .lpcRead 0 hdr64 0), (.bmc, .lpcRead 0 hdr64 0),
   (.bmc, .lpcWrite 16 (be32 256 ++ be32 76 ++ be32 332 ++ be32 76) 0), (.bmc, .lpcWrite 12 (be16 3) 0),
   (.bmc, .kcsWrite .status 0xc1 0), (.bmc, .kcsWrite .data 0xff 0),
   -- the host polls
   (.host, .kcsRead .status 0 0xc1), (.host, .kcsRead .data 0 0xff), (.host, .lpcRead 12 (be16 3) 0), (.host, .lpcRead 0 hdr64neg 0),
   -- both send
   (.host, .lpcWrite 332 (be32 7) 0), (.bmc, .lpcWrite 256 (be32 6) 0),
   (.host, .lpcWrite 336 (pktH ++ [0x23, 0x47, 0xd3, 0xb2]) 0), (.bmc, .lpcWrite 260 (pktB ++ [0x14, 0xca, 0xea, 0x8c]) 0),
   (.host, .kcsRead .status 0 0xc0), (.bmc, .kcsRead .status 0 0xc0), (.host, .kcsWrite .data 1 0), (.bmc, .kcsWrite .data 1 0),
   -- the BMC polls: the packet is delivered, the receive-complete must wait
   (.bmc, .kcsRead .status 0 0xc3), (.bmc, .kcsRead .data 0 1), (.bmc, .lpcRead 332 (be32 7) 0),
   (.bmc, .lpcRead 336 (pktH ++ [0x23, 0x47, 0xd3, 0xb2]) 0), (.bmc, .kcsRead .status 0 0xc1),
   -- the host polls
   (.host, .kcsRead .status 0 0xc1), (.host, .kcsRead .data 0 1), (.host, .lpcRead 256 (be32 6) 0),
   (.host, .lpcRead 260 (pktB ++ [0x14, 0xca, 0xea, 0x8c]) 0), (.host, .kcsRead .status 0 0xc0), (.host, .kcsWrite .data 2 0),
   -- the BMC polls
   (.bmc, .kcsRead .status 0 0xc2), (.bmc, .kcsWrite .data 2 0), (.bmc, .kcsRead .status 0 0xc3), (.bmc, .kcsRead .data 0 2),
   -- the host polls
   (.host, .kcsRead .status 0 0xc1), (.host, .kcsRead .data 0 2)]

def histB : List AstOp := [.poll, .send 9 false 1 [7, 9], .poll, .poll]
def histH : List AstOp := [.poll, .send 8 true 1 [7, 1, 2], .poll, .poll]

def core0 : Core (AstSt (List Access)) :=
  (({ mem := { next := 1, live := [0] }, fill := fun _ => 0xaa, self := 0, nBusses := 0, bussesPtr := none, busses := [],
      hasRx := false, hasCapture := false, ctxs := List.replicate 16 Ctx.zero, bridge := false, maxSize := 0 } :
    Core (AstSt (List Access))).setRxAll true).setMaxMessageSize 65536

/-- Registration. -/
def register (mode : AstMode) (mtu : Nat) (eid : Byte) (env : List Access) : Res (Core (AstSt (List Access)) × Int) :=
  core0.registerBus (astOps replay) (astInit env mode mtu) eid

/-- What is compared: the log, the accesses made, whether `mctp_astlpc_tx_done`, the protocol version and the packet size. -/
def run (mode : AstMode) (mtu : Nat) (eid : Byte) (env : List Access) (hist : List AstOp) :
    Option (List AstRec × List Access × List (Bool × Option Nat × Nat)) :=
  match register mode mtu eid env with
  | .ok (c, rc) =>
    if rc < 0 then none else
    match c.astRun replay hist with
    | .ok (c, log) => some (log, accessesOf c, c.busses.map fun b => (astTxDone b.binding.st, b.binding.st.proto, b.binding.pktSize))
    | .error _ => none
  | .error _ => none

theorem run_ok {mode : AstMode} {mtu : Nat} {eid : Byte} {env : List Access} {hist : List AstOp} {log : List AstRec}
    {accs : List Access} {done : List (Bool × Option Nat × Nat)} (hm : mtu < 2 ^ 32) (h : run mode mtu eid env hist = some (log, accs, done)) :
    ∃ c0 c, AstEndpoint replay env eid 65536 mode mtu {} c0 ∧ c0.astRun replay hist = .ok (c, log) ∧
      accessesOf c = accs ∧ (c.busses.map fun b => (astTxDone b.binding.st, b.binding.st.proto, b.binding.pktSize)) = done := by
  unfold run at h
  split at h
  · rename_i c rc hreg
    split at h
    · cases h
    · rename_i hrc
      split at h
      · rename_i c' log' hrun
        simp only [Option.some.injEq, Prod.mk.injEq] at h
        obtain ⟨rfl, rfl, rfl⟩ := h
        exact ⟨c, c', ⟨fun _ => 0xaa, _, rc, hm, rfl, hreg, by omega⟩, hrun, rfl, rfl⟩
      · cases h
  · cases h

def logB : List AstRec :=
  [⟨.poll, [], 0⟩, ⟨.send 9 false 1 [7, 9], [.tx 0 pktB 0 true], 0⟩,
   ⟨.poll, [.recv 0 pktH, .rxMsg 9 true 1 [7, 1, 2]], 0⟩, ⟨.poll, [], 0⟩]

def logH : List AstRec :=
  [⟨.poll, [], 0⟩, ⟨.send 8 true 1 [7, 1, 2], [.tx 0 pktH 0 true], 0⟩,
   ⟨.poll, [.recv 0 pktB, .rxMsg 8 false 1 [7, 9]], 0⟩, ⟨.poll, [], 0⟩]

set_option synthInstance.maxSize 512 in
theorem run_bmc : run .bmc 64 8 (of .bmc T) histB = some (logB, of .bmc T, [(true, some 3, 68)]) := by decide +kernel
set_option synthInstance.maxSize 512 in
theorem run_host : run .host 64 9 (of .host T) histH = some (logH, of .host T, [(true, some 3, 68)]) := by decide +kernel
theorem run_lpc : ((Lpc.run false (Lpc.reset fun _ => 0) T).isSome) = true := by decide +kernel

/-- The hypotheses of the theorems about the link are met: this execution sets up the channel and takes a
packet across in each direction. -/
theorem linked : ∃ b0 cB h0 cH h,
    AstEndpoint replay (of .bmc T) 8 65536 .bmc 64 {} b0 ∧ b0.astRun replay histB = .ok (cB, logB) ∧
    AstEndpoint replay (of .host T) 9 65536 .host 64 {} h0 ∧ h0.astRun replay histH = .ok (cH, logH) ∧
    (∀ n, ({} : Mem).ok n = true) ∧ Linked false (fun _ => 0) T h cB cH ∧
    sentBy logB = [pktB] ∧ gotBy logH = [pktB] ∧ sentBy logH = [pktH] ∧ gotBy logB = [pktH] ∧ txDone cB ∧ txDone cH ∧
    (∀ bus ∈ cH.busses, bus.binding.st.proto = some 3) := by
  obtain ⟨b0, cB, e1, e2, e3, e4⟩ := run_ok (by decide) run_bmc
  obtain ⟨h0, cH, f1, f2, f3, f4⟩ := run_ok (by decide) run_host
  obtain ⟨h, hh⟩ := Option.isSome_iff_exists.mp run_lpc
  refine ⟨b0, cB, h0, cH, h, e1, e2, f1, f2, fun _ => rfl, ⟨e3.symm, f3.symm, hh⟩, by decide, by decide, by decide, by decide, ?_, ?_, ?_⟩
  · intro bus hb
    have : (astTxDone bus.binding.st, bus.binding.st.proto, bus.binding.pktSize) ∈ [(true, some 3, 68)] := by rw [← e4]; exact List.mem_map.mpr ⟨bus, hb, rfl⟩
    simp at this
    exact this.1
  · intro bus hb
    have : (astTxDone bus.binding.st, bus.binding.st.proto, bus.binding.pktSize) ∈ [(true, some 3, 68)] := by rw [← f4]; exact List.mem_map.mpr ⟨bus, hb, rfl⟩
    simp at this
    exact this.1
  · intro bus hb
    have : (astTxDone bus.binding.st, bus.binding.st.proto, bus.binding.pktSize) ∈ [(true, some 3, 68)] := by rw [← f4]; exact List.mem_map.mpr ⟨bus, hb, rfl⟩
    simp at this
    exact this.2.1

/-- C52: the start of a host that requests 128 on a link whose BMC was created with 64 fails with -EINVAL:
the answers are those the BMC's registration leaves in the window (see `linked`). -/
theorem C52_refuted : (register .host 128 9 [.kcsRead .status 0 0x81, .lpcRead 0 (header 1 3 0 0 0 256 76 332 76) 0,
      .lpcRead 0 (header 1 3 0 0 0 256 76 332 76) 0]).map (·.2) = .ok (-EINVAL) ∧
    (Lpc.run false (Lpc.reset fun _ => 0) [(.bmc, .lpcWrite 0 (header 1 3 0 0 0 256 76 332 76) 0), (.bmc, .kcsWrite .status 0x80 0),
      (.bmc, .kcsWrite .data 0xff 0), (.host, .kcsRead .status 0 0x81), (.host, .lpcRead 0 (header 1 3 0 0 0 256 76 332 76) 0),
      (.host, .lpcRead 0 (header 1 3 0 0 0 256 76 332 76) 0)]).isSome = true := by decide +kernel

end Mctp.LinkDemo
