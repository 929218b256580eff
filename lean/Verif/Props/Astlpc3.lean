import Verif.Proofs.AstWrote
import Verif.Props.Astlpc2

/-!
# Properties of the astlpc binding, one side (C57)
-/

namespace Mctp

open Spec

variable {E : Type}

/-! ## C57: failures of the KCS accessors and transmission -/

/-- C57, without failures: if no access to the KCS registers fails, the packets accepted by the binding
are written to the window one after the other, each exactly once and unchanged (with its CRC-32 in
version 3), and every packet offered is accepted or reported as too large.  (That each is announced once and that the
buffer is not reused before it is handed back is `C59_disciplined` and `C63_one_in_flight`.) -/
theorem C57_once_partial {hw : Hw E} {env : E} {eid : Byte} {mx : Nat} {mode : AstMode} {mtu : Nat} {mem : Mem}
    {c0 c : Core (AstSt E)} (h : AstEndpoint hw env eid mx mode mtu mem c0) {hist : List AstOp} {log : List AstRec}
    (hr : c0.astRun hw hist = .ok (c, log)) {new : List Access} (hn : accessesOf c = accessesOf c0 ++ new)
    (hok : ∀ a ∈ new, ¬ KcsFailed a) (hlen : ∀ x ∈ offers 0 (astEvents log), x.pkt.length < 2 ^ 31) :
    (∀ x ∈ offers 0 (astEvents log), x.rc = 0 ∨ x.rc = -EMSGSIZE) ∧
    Wrote (fun version _ => version ≠ 0)
      (((offers 0 (astEvents log)).filter fun x => x.rc = 0).map Offer.pkt) (bufferWrites new) := by
  obtain ⟨bus, hb, hbr, hj⟩ := h.inv
  obtain ⟨bus', hb', -, hw'⟩ := astRun_wc hb hbr hj hr
  have hg : GeoOk bus := h.geo (hist := []) (log := []) rfl hb
  obtain ⟨l, ha, hca, hwr⟩ := hw' hg
  rw [accessesOf_single hb, accessesOf_single hb'] at hn
  have : l = new := by
    unfold Adds at ha
    rw [ha] at hn
    exact List.append_cancel_left hn
  subst this
  have htk : ∀ x ∈ offers 0 (astEvents log), x.rc = 0 ∨ x.rc = -EMSGSIZE := by
    intro x hx
    by_cases hc : x.rc = 0 ∨ x.rc = -EMSGSIZE
    · exact hc
    · obtain ⟨a, ha1, ha2⟩ := hca x hx hc
      exact absurd ha2 (hok a ha1)
  refine ⟨htk, (hwr (fun x hx => ⟨htk x hx, hlen x hx⟩) ?_).2⟩
  obtain ⟨rc, s, -, -, hb2, -⟩ := h.start
  rw [hb] at hb2
  simp only [List.cons.injEq, and_true] at hb2
  intro p hp
  rw [hb2] at hp
  cases hp

/-- A BMC that establishes a channel, sends, gets its buffer back and sends again; `wr` are the results of the
writes to the KCS registers. -/
def AstDemo.sendScript (hdr : List Byte) (wr : List Int) : AstDemo.Script :=
  { stat := [(0, 2), (0, 0), (0, 2), (0, 0)], data := [(0, 0), (0, 2)], reads := [hdr, hdr], wr := wr }

/-- The hypotheses are met: two packets are sent on a version 3 channel. -/
example : (AstDemo.run .bmc 64 (AstDemo.sendScript AstDemo.hdr64 [])
      [.poll, .send 9 true 1 [5], .poll, .send 9 true 2 [6]]).map
      (fun x => (((offers 0 (astEvents x.1)).map fun o => (o.pkt, o.rc)), bufferWrites x.2)) =
    some ([([1, 9, 8, 0xc9, 5], 0), ([1, 9, 8, 0xca, 6], 0)],
      [(256, be32 5), (260, wire 3 [1, 9, 8, 0xc9, 5]), (256, be32 5), (260, wire 3 [1, 9, 8, 0xca, 6])]) := by
  decide +kernel

/-- A header of a host that supports version 1 only. -/
def AstDemo.hdrV1 : List Byte := AstDemo.header 1 3 1 1 0 256 76 332 76

/-- A BMC whose first attempt to announce the packet fails in the KCS accessor. -/
def AstDemo.failScript (hdr : List Byte) : AstDemo.Script :=
  { stat := [(0, 2), (0, 0), (0, 0), (0, 2), (0, 0)], data := [(0, 0), (0, 2)], reads := [hdr, hdr],
    wr := [0, 0, 0, 0, -5] }

/-- C57 does not hold: one packet is sent, the write of the KCS command fails once, and the packet is
written and announced twice: the poll repeats the announcement, and once the buffer is handed back the core
transmits the packet, which is still in its queue, again. -/
theorem C57_duplicated : (AstDemo.run .bmc 64 (AstDemo.failScript AstDemo.hdrV1) [.poll, .send 9 true 1 [5], .poll]).map
      (fun x => (x.1.map AstRec.rc, bufferWrites x.2, x.2.filter fun a => a = .kcsWrite .data 1 0)) =
    some ([0, 0, 0], [(256, be32 5), (260, [1, 9, 8, 0xc9, 5]), (256, be32 5), (260, [1, 9, 8, 0xc9, 5])],
      [.kcsWrite .data 1 0, .kcsWrite .data 1 0]) := by
  decide +kernel

/-- On a version 3 channel the second copy is moreover changed: the checksum of the first attempt has become part of
the packet. -/
theorem C57_changed : (AstDemo.run .bmc 64 (AstDemo.failScript AstDemo.hdr64) [.poll, .send 9 true 1 [5], .poll]).map
      (fun x => (x.1.map AstRec.rc, bufferWrites x.2, x.2.filter fun a => a = .kcsWrite .data 1 0)) =
    some ([0, 0, 0], [(256, be32 5), (260, wire 3 [1, 9, 8, 0xc9, 5]), (256, be32 9),
        (260, wire 3 (wire 3 [1, 9, 8, 0xc9, 5]))],
      [.kcsWrite .data 1 0, .kcsWrite .data 1 0]) := by
  decide +kernel

end Mctp
