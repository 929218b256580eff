import Verif.Props.FileIo
import Verif.Props.Astlpc5

/-!
# C92: registers of a KCS device file

The data register is the byte at offset 0 of the file, the status register the one at offset 1; a register has been
read or written exactly if the call says that one byte was transferred.
-/

namespace Mctp

open Spec

section

variable {E : Type} {dev : KcsFile E} {env : E} {eid : Byte} {mx mtu : Nat} {mem : Mem} {c0 c : Core (AstSt E)}
  {hist : List AstOp} {log : List AstRec} {bus : Bus (AstSt E)}

theorem AstEndpoint.busAt {hw : Hw E} (h : AstEndpoint hw env eid mx .bmc mtu mem c0) (hcl : Clean mem)
    (hr : c0.astRun hw hist = .ok (c, log)) (hb : c.busses = [bus]) : c.busAt 0 = .ok bus := by
  obtain ⟨bus0, hm⟩ := h.mem hcl (by simp)
  obtain ⟨c', log', bus', hr', hm'⟩ := astRun_total hw (by simp) hist hm
  rw [hr] at hr'
  simp only [Except.ok.injEq, Prod.mk.injEq] at hr'
  obtain ⟨rfl, rfl⟩ := hr'
  rw [hm'.busAt, (busAt_single hb hm'.busAt).2]

/-- C92: a status register that cannot be read is not acted upon, whatever `pread` left in the variable: the poll
returns -1, calls nothing back and accesses nothing else; only the state of the outside world is another. -/
theorem C92_status_unread (h : AstEndpoint (fileHw dev) env eid mx .bmc mtu mem c0) (hcl : Clean mem)
    (hr : c0.astRun (fileHw dev) hist = .ok (c, log)) (hb : c.busses = [bus])
    (hin : astPollOut bus.binding.st = false) {n : Int} {v : Byte} {e1 : E}
    (h1 : dev.pread bus.binding.st.env 1 = (n, v, e1)) (hn : n ≠ 1) :
    ∃ s, c.astStep (fileHw dev) .poll =
        .ok ({ c with busses := [{ bus with binding := { bus.binding with st := s } }] }, [], -1) ∧
      SameSt bus.binding.st s ∧ s.env = e1 ∧ Adds bus.binding.st s [.kcsRead .status (-1) v] := by
  refine ⟨(kcsRead (fileHw dev) bus.binding.st .status).2.2, ?_, rfl, ?_, ?_⟩
  · show c.astPoll (fileHw dev) 0 = _
    unfold Core.astPoll
    simp only [h.busAt hcl hr hb, Res.bind_ok, astRetry_none hin, kcsRead, fileHw, KcsReg.fileOffset,
      h1, if_neg hn]
    simp [Core.setSt, Core.setBus, hb]
  · simp [kcsRead, fileHw, KcsReg.fileOffset, h1]
  · simp [kcsRead, fileHw, KcsReg.fileOffset, h1, if_neg hn, Adds, AstSt.accs]

/-- C92: the same for a data register that cannot be read although the status shows input. -/
theorem C92_data_unread (h : AstEndpoint (fileHw dev) env eid mx .bmc mtu mem c0) (hcl : Clean mem)
    (hr : c0.astRun (fileHw dev) hist = .ok (c, log)) (hb : c.busses = [bus])
    (hin : astPollOut bus.binding.st = false) {v : Byte} {e1 : E}
    (h1 : dev.pread bus.binding.st.env 1 = (1, v, e1)) (hv : inputFull .bmc v = true)
    {n : Int} {d : Byte} {e2 : E} (h2 : dev.pread e1 0 = (n, d, e2)) (hn : n ≠ 1) :
    ∃ s, c.astStep (fileHw dev) .poll =
        .ok ({ c with busses := [{ bus with binding := { bus.binding with st := s } }] }, [], -1) ∧
      SameSt bus.binding.st s ∧ s.env = e2 ∧
      Adds bus.binding.st s [.kcsRead .status 0 v, .kcsRead .data (-1) d] := by
  obtain ⟨bus1, hb1, hbr, hj⟩ := h.reached hr
  have : bus1 = bus := by rw [hb] at hb1; simpa using hb1.symm
  subst this
  have hmode : bus1.binding.st.mode = .bmc := hj.1.mode
  have hready : ∀ v : Byte, inputFull .bmc v = true → kcsReady .bmc v false = true := by decide
  refine ⟨(kcsRead (fileHw dev) (kcsRead (fileHw dev) bus1.binding.st .status).2.2 .data).2.2, ?_, rfl, ?_, ?_⟩
  · show c.astPoll (fileHw dev) 0 = _
    unfold Core.astPoll
    simp only [h.busAt hcl hr hb, Res.bind_ok, astRetry_none hin, kcsRead, fileHw, KcsReg.fileOffset,
      h1, h2, if_neg hn, hmode, hready v hv]
    simp [Core.setSt, Core.setBus, hb]
  · simp [kcsRead, fileHw, KcsReg.fileOffset, h1, h2]
  · simp [kcsRead, fileHw, KcsReg.fileOffset, h1, h2, if_neg hn, Adds, AstSt.accs]

/-- C92: a deferred transmit-begin counts as sent exactly if the byte was written.  (The outgoing command is the byte 1
at offset 0; the poll then finds no input.) -/
theorem C92_command_written (h : AstEndpoint (fileHw dev) env eid mx .bmc mtu mem c0) (hcl : Clean mem)
    (hr : c0.astRun (fileHw dev) hist = .ok (c, log)) (hb : c.busses = [bus])
    (hrx : bus.binding.st.rx.state ≠ .prepared) (htx : bus.binding.st.tx.state = .prepared) {v : Byte} {e1 : E}
    (h1 : dev.pread bus.binding.st.env 1 = (1, v, e1)) (hv : outputFull .bmc v = false)
    {n : Int} {e2 : E} (h2 : dev.pwrite e1 0 1 = (n, e2))
    {w : Byte} {e3 : E} (h3 : dev.pread e2 1 = (1, w, e3)) (hw : inputFull .bmc w = false) :
    ∃ s, c.astStep (fileHw dev) .poll =
        .ok ({ c with busses := [{ bus with binding := { bus.binding with st := s } }] }, [], 0) ∧
      (s.tx.state = .released ↔ n = 1) ∧ (s.tx.state = .prepared ↔ n ≠ 1) ∧ s.rx = bus.binding.st.rx ∧ s.env = e3 := by
  obtain ⟨bus1, hb1, hbr, hj⟩ := h.reached hr
  have : bus1 = bus := by rw [hb] at hb1; simpa using hb1.symm
  subst this
  have hmode : bus1.binding.st.mode = .bmc := hj.1.mode
  have hready : ∀ v : Byte, outputFull .bmc v = false → kcsReady .bmc v true = true := by decide
  have hnot : ∀ v : Byte, inputFull .bmc v = false → kcsReady .bmc v false = false := by decide
  by_cases hn : n = 1
  · refine ⟨(kcsRead (fileHw dev) (astRetry (fileHw dev) bus1.binding.st) .status).2.2, ?_, ?_⟩
    · show c.astPoll (fileHw dev) 0 = _
      unfold Core.astPoll
      simp only [h.busAt hcl hr hb, Res.bind_ok, astRetry, if_neg hrx, if_pos htx, kcsSend, kcsRead,
        kcsWrite, fileHw, KcsReg.fileOffset, h1, h2, h3, hmode, hready v hv, hnot w hw, cmdTxBegin, hn, Core.setSt, Core.setBus]
      simp [h3, hnot w hw, hb, hmode]
    · simp only [astRetry, if_neg hrx, if_pos htx, kcsSend, kcsRead, kcsWrite, fileHw, KcsReg.fileOffset, h1, h2, h3, hmode,
        hready v hv, cmdTxBegin, hn]
      simp [h3]
  · refine ⟨(kcsRead (fileHw dev) (astRetry (fileHw dev) bus1.binding.st) .status).2.2, ?_, ?_⟩
    · show c.astPoll (fileHw dev) 0 = _
      unfold Core.astPoll
      simp only [h.busAt hcl hr hb, Res.bind_ok, astRetry, if_neg hrx, if_pos htx, kcsSend, kcsRead,
        kcsWrite, fileHw, KcsReg.fileOffset, h1, h2, h3, hmode, hready v hv, hnot w hw, cmdTxBegin, if_neg hn, EIO, Core.setSt, Core.setBus]
      simp [h3, hnot w hw, hb, hmode]
    · simp only [astRetry, if_neg hrx, if_pos htx, kcsSend, kcsRead, kcsWrite, fileHw, KcsReg.fileOffset, h1, h2, h3, hmode,
        hready v hv, cmdTxBegin, if_neg hn, EIO]
      simp [h3, htx, hn]

end

/-! The hypotheses are met: a device whose calls transfer as many bytes as the script says. -/

/-- The script as a device file: the results of the script are the numbers of bytes transferred (minus one, so that an
exhausted script transfers one byte). -/
def AstDemo.dev : KcsFile AstDemo.Script where
  pread s off := let (n, v, s) := AstDemo.hw.kcsRead s (if off = 1 then .status else .data); (n + 1, v, s)
  pwrite s off v := let (n, s) := AstDemo.hw.kcsWrite s (if off = 1 then .status else .data) v; (n + 1, s)
  load s off len := let (_, bs, s) := AstDemo.hw.lpcRead s off len; (bs, s)
  store s _ _ := s

/-- What an endpoint with this device does: return values, and the accesses to the registers. -/
def AstDemo.fileRun (s : AstDemo.Script) (hist : List AstOp) : Option (List Int × List Access) :=
  match (AstDemo.core0 65536).registerBus (astOps (fileHw AstDemo.dev)) (astInit s .bmc 64) 8 with
  | .ok (c, rc) =>
    if rc < 0 then none else
    match c.astRun (fileHw AstDemo.dev) hist with
    | .ok (c, log) => some (log.map (·.rc), (accessesOf c).filter fun a => (placed 0 a).isNone)
    | .error _ => none
  | .error _ => none

/-- Nothing deferred: a status read of no byte, then a data read of no byte, then a request of the host for a channel;
then a message is sent while the output register is full, its announcement is not written, and then is. -/
example : AstDemo.fileRun { AstDemo.bmcScript with
      stat := [(-1, 2), (0, 2), (0, 2), (0, 1), (0, 0), (0, 0), (0, 0), (0, 0)], data := [(-1, 0), (0, 0)],
      wr := [0, 0, 0, 0, -1, 0] } [.poll, .poll, .poll, .send 9 true 1 [6], .poll, .poll] =
    some ([-1, -1, 0, 0, 0, 0],
      [.kcsWrite .status 128 0, .kcsWrite .data 255 0,
        .kcsRead .status (-1) 2,
        .kcsRead .status 0 2, .kcsRead .data (-1) 0,
        .kcsRead .status 0 2, .kcsRead .data 0 0, .kcsWrite .status 193 0, .kcsWrite .data 255 0,
        .kcsRead .status 0 1,
        .kcsRead .status 0 0, .kcsWrite .data 1 (-1), .kcsRead .status 0 0,
        .kcsRead .status 0 0, .kcsWrite .data 1 0, .kcsRead .status 0 0]) := by
  decide +kernel

end Mctp
