import Verif.Proofs.AstSize
import Verif.Props.Astlpc5

/-!
# Properties of the astlpc binding: the sizes of an open channel (C80)
-/

namespace Mctp

open Spec

variable {E : Type}

/-- C80 (BMC).  Whatever the host writes and whatever the accessors return: whenever the BMC's channel is open (the
bus may transmit, or a packet waits in or has been handed over with the transmit buffer), a version from 1 to 3 is in
use, both buffers have the same size, which is no larger than what the host asked for in the header the BMC read last
and no larger than the MTU the binding was created with allows; the buffers do not overlap; and with version 2 or 3 the core cuts messages to packets
that exactly fill the buffer with its framing. -/
theorem C80_bmc_partial {hw : Hw E} {env : E} {eid : Byte} {mx : Nat} {mtu : Nat} {mem : Mem}
    {c0 c : Core (AstSt E)} (h : AstEndpoint hw env eid mx .bmc mtu mem c0) {hist : List AstOp} {log : List AstRec}
    (hr : c0.astRun hw hist = .ok (c, log)) {bus : Bus (AstSt E)} (hb : c.busses = [bus])
    (hopen : bus.state = .txEnabled ∨ bus.binding.st.tx.state = .prepared ∨ bus.binding.st.tx.state = .released) :
    ∃ v hdr, bus.binding.st.proto = some v ∧ 1 ≤ v ∧ v ≤ 3 ∧
      lastHeader (bus.binding.st.log.map Logged.acc) = some hdr ∧
      bus.binding.st.rx.size = bus.binding.st.tx.size ∧
      bus.binding.st.tx.size ≤ rxSizeOf hdr ∧
      (mtu ≠ 0 → bus.binding.st.tx.size ≤ mtu + 4 + overhead v) ∧
      Apart bus.binding.st.rx.offset bus.binding.st.rx.size bus.binding.st.tx.offset bus.binding.st.tx.size ∧
      (2 ≤ v → bus.binding.pktSize + overhead v = bus.binding.st.tx.size) := by
  obtain ⟨⟨v, hdr, h1, h2, h3, h4, h5, h6, -⟩, -⟩ := h.sized hr hb (by simp) hopen
  obtain ⟨g1, g2, g3⟩ := h6 rfl
  obtain ⟨b0, hb0, hbr, hj⟩ := h.inv
  obtain ⟨b1, hb1, -, hj1⟩ := astRun_inv hb0 hbr hj hr
  have : b1 = bus := by rw [hb1] at hb; simpa using hb
  subst this
  have hl : LaySafe b1.binding.st := by
    rcases hopen with ho | ho
    · exact (hj1.2 ho).2
    · exact hj1.1.busy ho
  exact ⟨v, hdr, h1, by omega, by omega, h5, g1, g2, g3, hl.2.2, h4⟩

/-- C80 (host).  As long as the BMC never shows the channel active without being ready and never sends the host's own
command: whenever the host's channel is open, a version from 1 to 3 is in use, the buffers have the sizes in the header
the host read last, and with version 2 or 3 the core cuts messages to packets that exactly fill the transmit buffer with its framing. -/
theorem C80_host_partial {hw : Hw E} {env : E} {eid : Byte} {mx : Nat} {mtu : Nat} {mem : Mem}
    {c0 c : Core (AstSt E)} (h : AstEndpoint hw env eid mx .host mtu mem c0) {hist : List AstOp} {log : List AstRec}
    (hr : c0.astRun hw hist = .ok (c, log)) {bus : Bus (AstSt E)} (hb : c.busses = [bus])
    (hsane : SaneTrace (bus.binding.st.log.map Logged.acc))
    (hopen : bus.state = .txEnabled ∨ bus.binding.st.tx.state = .prepared ∨ bus.binding.st.tx.state = .released) :
    ∃ v hdr, bus.binding.st.proto = some v ∧ 1 ≤ v ∧ v ≤ 3 ∧
      lastHeader (bus.binding.st.log.map Logged.acc) = some hdr ∧
      bus.binding.st.tx.size = txSizeOf hdr ∧ bus.binding.st.rx.size = rxSizeOf hdr ∧
      Apart bus.binding.st.rx.offset bus.binding.st.rx.size bus.binding.st.tx.offset bus.binding.st.tx.size ∧
      (2 ≤ v → bus.binding.pktSize + overhead v = bus.binding.st.tx.size) := by
  obtain ⟨⟨v, hdr, h1, h2, h3, h4, h5, -, h6⟩, -⟩ := h.sized hr hb (fun _ => hsane) hopen
  obtain ⟨g1, g2⟩ := h6 rfl
  obtain ⟨b0, hb0, hbr, hj⟩ := h.inv
  obtain ⟨b1, hb1, -, hj1⟩ := astRun_inv hb0 hbr hj hr
  have : b1 = bus := by rw [hb1] at hb; simpa using hb
  subst this
  have hl : LaySafe b1.binding.st := by
    rcases hopen with ho | ho
    · exact (hj1.2 ho).2
    · exact hj1.1.busy ho
  exact ⟨v, hdr, h1, by omega, by omega, h5, g1, g2, hl.2.2, h4⟩

/-- Packets that fit the transmit buffer are not refused for their size. -/
theorem fits_keeps (hw : Hw E) (mode : AstMode) (mtu : Nat) (bus0 : Bus (AstSt E)) {v : Nat} (hg0 : GeoOk bus0)
    (hv : bus0.binding.st.proto = some v) (hs : bus0.binding.pktSize + overhead v = bus0.binding.st.tx.size) :
    Keeps (astOps hw) (fun os bus => (AstJ mode mtu bus ∧ TxOnly bus0 bus) ∧
      (bus.state = .txEnabled → ∀ p ∈ bus.queue, p.len ≤ bus0.binding.pktSize) ∧ ∀ o ∈ os, o.rc ≠ -EMSGSIZE) where
  tx := by
    intro os bus p rest out hj hst hq he
    have hk := (txOnly_keeps hw mode mtu bus0).tx (os := os) hj.1 hst hq he
    obtain ⟨⟨hJ, hto⟩, hq1, hos⟩ := hj
    obtain ⟨ha, hl⟩ := hJ.2 hst
    have hlen := hq1 hst p (by rw [hq]; simp)
    obtain ⟨v', hv', -, hcase⟩ := astTx_adds hl he
    rw [hto.prot, hv] at hv'
    cases hv'
    rw [hto.txs] at hcase
    have hle : u32 p.len ≤ p.len := Nat.mod_le _ _
    rcases hcase with ⟨hbig, -⟩ | hfit
    · omega
    · rcases astTx_cases hJ.1 ha hl he with ⟨-, -, -, hd⟩ | ⟨hd, hrc, -⟩
      · obtain ⟨-, _, _, _, _, -, -, -, -, -, hd', -⟩ := hfit
        rw [hd] at hd'; cases hd'
      · refine ⟨hk, fun hen => ?_, fun o ho => ?_⟩
        · simp [afterTx, hd] at hen
        · rcases List.mem_append.mp ho with ho | ho
          · exact hos o ho
          · simp only [List.mem_singleton] at ho
            subst ho
            rcases hrc with h | h <;> simp [h, EIO, EMSGSIZE]
  push := by
    intro os bus ps hj h1 h2
    refine ⟨(txOnly_keeps hw mode mtu bus0).push (os := os) hj.1 h1 h2, fun hst p hp => ?_, hj.2.2⟩
    rcases List.mem_append.mp hp with hp | hp
    · exact hj.2.1 hst p hp
    · have hps : bus.binding.pktSize = bus0.binding.pktSize := by rw [hj.1.2.bind]
      have hpo := hg0.2.2
      obtain ⟨hmade, -⟩ := h2 (by omega) p hp
      have := hmade.hi
      have := hmade.start
      unfold Pktbuf.len
      omega
  off := by
    intro os bus hj hst
    exact ⟨(txOnly_keeps hw mode mtu bus0).off (os := os) hj.1 hst, by simp, hj.2.2⟩

/-- C80 (messages).  A message sent on an open channel of version 2 or 3 on which no longer packet waits is never lost
for its size: no packet offered to the binding by the call is refused with -EMSGSIZE. -/
theorem C80_message_partial {hw : Hw E} {env : E} {eid : Byte} {mx : Nat} {mode : AstMode} {mtu : Nat} {mem : Mem}
    {c0 c c' : Core (AstSt E)} (h : AstEndpoint hw env eid mx mode mtu mem c0) {hist : List AstOp} {log : List AstRec}
    (hr : c0.astRun hw hist = .ok (c, log)) {bus : Bus (AstSt E)} (hb : c.busses = [bus])
    (hsane : mode = .host → SaneTrace (bus.binding.st.log.map Logged.acc))
    (hopen : bus.state = .txEnabled ∨ bus.binding.st.tx.state = .prepared ∨ bus.binding.st.tx.state = .released)
    {v : Nat} (hv : bus.binding.st.proto = some v) (hv2 : 2 ≤ v) (hq : ∀ p ∈ bus.queue, p.len ≤ bus.binding.pktSize)
    {dest : Byte} {own : Bool} {tag : Byte} {msg : List Byte} {e : List Event} {rc : Int}
    (he : c.astStep hw (.send dest own tag msg) = .ok (c', e, rc)) : ∀ o ∈ offers 0 e, o.rc ≠ -EMSGSIZE := by
  obtain ⟨⟨v', hdr, h1, h2, h3, h4, h5, -⟩, -⟩ := h.sized hr hb hsane hopen
  rw [hv] at h1
  cases h1
  obtain ⟨b0, hb0, hbr, hj⟩ := h.inv
  obtain ⟨b1, hb1, -, hj1⟩ := astRun_inv hb0 hbr hj hr
  have : b1 = bus := by rw [hb1] at hb; simpa using hb
  subst this
  have hgeo : GeoOk b1 := h.geo hr hb
  unfold Core.astStep at he
  simp only [AstOp.core] at he
  obtain ⟨bus', m, hx, hc, mx', rfl, hj', -⟩ := step_keeps (fits_keeps hw mode mtu b1 hgeo hv (h4 hv2)) hb (os := [])
    ⟨⟨hj1, TxOnly.refl _⟩, fun _ p hp => hq p hp, by simp⟩
    (op := .send dest own tag msg) trivial he
  simpa using hj'.2.2

/-- A header of a host that supports version 1 only, with buffers for 64 bytes of payload. -/
def AstDemo.hdrV1small : List Byte := AstDemo.header 1 3 1 1 0 256 72 512 72

/-- With version 1 the property does not hold: a BMC created with an MTU of 128 goes on cutting messages to packets of 132 bytes
after it has agreed to buffers of 72 bytes.  A message of 100 bytes is accepted (the call returns 0), its only packet is
refused with -EMSGSIZE (-90) and dropped, and nothing is written to the window. -/
theorem C80_refuted : (AstDemo.run .bmc 128 { stat := [(0, 2)], data := [(0, 0)], reads := [AstDemo.hdrV1small, AstDemo.hdrV1small] }
      [.poll, .send 9 true 1 (List.replicate 100 5)]).map
      (fun x => (x.1.map AstRec.rc, (x.1.flatMap fun r => offers 0 r.evs).map Offer.rc, bufferWrites x.2)) =
    some ([0, 0], [-90], []) := by
  decide +kernel

/-! ### The hypotheses are met -/

/-- The state of the bus, the version in use, the packet size and the size of the transmit buffer after a history. -/
def AstDemo.sizes (mode : AstMode) (mtu : Nat) (s : AstDemo.Script) (hist : List AstOp) :
    Option (List (BusState × Option Nat × Nat × Nat)) :=
  match AstDemo.register mode mtu s with
  | .ok (c, rc) =>
    if rc < 0 then none else
    match c.astRun AstDemo.hw hist with
    | .ok (c, _) => some (c.busses.map fun b => (b.state, b.binding.st.proto, b.binding.pktSize, b.binding.st.tx.size))
    | .error _ => none
  | .error _ => none

theorem AstDemo.sizes_ok {mode : AstMode} {mtu : Nat} {s : AstDemo.Script} {hist : List AstOp}
    {l : List (BusState × Option Nat × Nat × Nat)} (hm : mtu < 2 ^ 32) (h : AstDemo.sizes mode mtu s hist = some l) :
    ∃ c0 c log, AstEndpoint AstDemo.hw s 8 65536 mode mtu {} c0 ∧ c0.astRun AstDemo.hw hist = .ok (c, log) ∧
      (c.busses.map fun b => (b.state, b.binding.st.proto, b.binding.pktSize, b.binding.st.tx.size)) = l := by
  unfold AstDemo.sizes at h
  split at h
  · rename_i c rc hreg
    split at h
    · cases h
    · rename_i hrc
      split at h
      · rename_i c' log' hrun
        simp only [Option.some.injEq] at h
        exact ⟨c, c', log', ⟨fun _ => 0xaa, _, rc, hm, rfl, hreg, by omega⟩, hrun, h⟩
      · cases h
  · cases h

/-- A BMC opens a channel of version 3: the packets have 68 bytes, the transmit buffer 76. -/
example : ∃ c0 c log bus, AstEndpoint AstDemo.hw AstDemo.bmcScript 8 65536 .bmc 64 {} c0 ∧
    c0.astRun AstDemo.hw [.poll] = .ok (c, log) ∧ c.busses = [bus] ∧ bus.state = .txEnabled ∧
    bus.binding.st.proto = some 3 ∧ bus.binding.pktSize = 68 ∧ bus.binding.st.tx.size = 76 := by
  obtain ⟨c0, c, log, h1, h2, h3⟩ := AstDemo.sizes_ok (mode := .bmc) (mtu := 64) (s := AstDemo.bmcScript) (hist := [.poll])
    (l := [(.txEnabled, some 3, 68, 76)]) (by decide) (by decide +kernel)
  simp only [List.map_eq_singleton_iff, Prod.mk.injEq] at h3
  obtain ⟨bus, hb, h3⟩ := h3
  exact ⟨c0, c, log, bus, h1, h2, hb, h3⟩

/-- A BMC with a larger MTU than the host asks for: the host's request wins. -/
example : AstDemo.sizes .bmc 1024 AstDemo.bmcScript [.poll] = some [(.txEnabled, some 3, 68, 76)] := by
  decide +kernel

/-- And a host does, with a trace that meets the hypothesis of `C80_host_partial`. -/
example : AstDemo.sizes .host 64 AstDemo.hostScript [.poll] = some [(.txEnabled, some 3, 68, 76)] := by
  decide +kernel

example : ∃ log accs, AstDemo.run .host 64 AstDemo.hostScript [.poll] = some (log, accs) ∧ SaneTrace accs := by
  let ok : Access → Bool := fun a => match a with
    | .kcsRead .status _ v => !v.getLsbD 6 || v.getLsbD 7
    | .kcsRead .data _ v => v != 0
    | _ => true
  have hd : (AstDemo.run .host 64 AstDemo.hostScript [.poll]).any (fun x => x.2.all ok) = true := by decide +kernel
  generalize AstDemo.run .host 64 AstDemo.hostScript [.poll] = o at hd
  obtain _ | ⟨log, accs⟩ := o
  · cases hd
  have hy : accs.all ok = true := hd
  refine ⟨log, accs, rfl, fun r v hv h6 => ?_, fun r hv => ?_⟩
  · have := List.all_eq_true.mp hy _ hv
    simp only [ok, h6, Bool.not_true, Bool.false_or] at this
    exact this
  · have := List.all_eq_true.mp hy _ hv
    simp [ok] at this

end Mctp
