import Verif.Proofs.AstOwn
import Verif.Props.AstQuiet

/-!
# Each side writes only what is its own, and only what the protocol defines (C117, C118)
-/

namespace Mctp

open Spec

variable {E : Type}

/-- Every write of a BMC after its registration. -/
theorem bmc_proper {hw : Hw E} {env : E} {eid : Byte} {mx : Nat} {mtu : Nat} {mem : Mem}
    {c0 c : Core (AstSt E)} (h : AstEndpoint hw env eid mx .bmc mtu mem c0) {hist : List AstOp} {log : List AstRec}
    (hr : c0.astRun hw hist = .ok (c, log)) {new : List Access} (hnew : accessesOf c = accessesOf c0 ++ new) :
    ∀ a ∈ new, Proper .bmc a := by
  obtain ⟨bus, hb, hbr, hj⟩ := h.inv
  obtain ⟨bus2, l, hb2, ha, hq⟩ := astRun_own hb hbr hj hr
  rw [accessesOf_single hb, accessesOf_single hb2] at hnew
  have : l = new := by
    unfold Adds at ha
    rw [ha] at hnew
    exact List.append_cancel_left hnew
  subst this
  exact hq (by simp)

/-- Every write of a host that has not read the command 0. -/
theorem host_proper {hw : Hw E} {env : E} {eid : Byte} {mx : Nat} {mtu : Nat} {mem : Mem}
    {c0 c : Core (AstSt E)} (h : AstEndpoint hw env eid mx .host mtu mem c0) {hist : List AstOp} {log : List AstRec}
    (hr : c0.astRun hw hist = .ok (c, log)) (hno : Access.kcsRead .data 0 0 ∉ accessesOf c) :
    ∀ a ∈ accessesOf c, Proper .host a := by
  obtain ⟨bus, hb, hbr, hj⟩ := h.inv
  obtain ⟨bus2, l, hb2, ha, hq⟩ := astRun_own hb hbr hj hr
  have h0 := h.owned hb
  rw [accessesOf_single hb2] at hno ⊢
  unfold Adds at ha
  rw [ha] at hno ⊢
  intro a hm
  rcases List.mem_append.mp hm with hm | hm
  · exact h0 a hm
  · exact hq (fun _ hx => hno (List.mem_append.mpr (.inr hx))) a hm

/-- C117, the BMC: after its registration (which sets up the whole header) it writes, in the header, only the negotiated version
and the layout, and otherwise only behind the first 256 bytes. -/
theorem C117_bmc {hw : Hw E} {env : E} {eid : Byte} {mx : Nat} {mtu : Nat} {mem : Mem}
    {c0 c : Core (AstSt E)} (h : AstEndpoint hw env eid mx .bmc mtu mem c0) {hist : List AstOp} {log : List AstRec}
    (hr : c0.astRun hw hist = .ok (c, log)) {new : List Access} (hnew : accessesOf c = accessesOf c0 ++ new) :
    ∀ a ∈ new, OwnWrite .bmc a := fun a ha => (bmc_proper h hr hnew a ha).1

/-- C117, the host: as long as it has not read the command 0, everything that it has written since it was created, to the
status register, to the header and to the rest of the window, was its own.
Missing: a host that reads the command 0, see `C117_refuted`. -/
theorem C117_host_partial {hw : Hw E} {env : E} {eid : Byte} {mx : Nat} {mtu : Nat} {mem : Mem}
    {c0 c : Core (AstSt E)} (h : AstEndpoint hw env eid mx .host mtu mem c0) {hist : List AstOp} {log : List AstRec}
    (hr : c0.astRun hw hist = .ok (c, log)) (hno : Access.kcsRead .data 0 0 ∉ accessesOf c) :
    ∀ a ∈ accessesOf c, OwnWrite .host a := fun a ha => (host_proper h hr hno a ha).1

/-- C118, the BMC: after its registration it writes only the status values, the commands and the versions that the protocol
defines. -/
theorem C118_bmc {hw : Hw E} {env : E} {eid : Byte} {mx : Nat} {mtu : Nat} {mem : Mem}
    {c0 c : Core (AstSt E)} (h : AstEndpoint hw env eid mx .bmc mtu mem c0) {hist : List AstOp} {log : List AstRec}
    (hr : c0.astRun hw hist = .ok (c, log)) {new : List Access} (hnew : accessesOf c = accessesOf c0 ++ new) :
    ∀ a ∈ new, DefinedWrite .bmc a := fun a ha => (bmc_proper h hr hnew a ha).2

/-- C118, the host: as long as it has not read the command 0 it writes only the commands and the versions that the protocol
defines.
Missing: a host that reads the command 0, see `C118_refuted`. -/
theorem C118_host_partial {hw : Hw E} {env : E} {eid : Byte} {mx : Nat} {mtu : Nat} {mem : Mem}
    {c0 c : Core (AstSt E)} (h : AstEndpoint hw env eid mx .host mtu mem c0) {hist : List AstOp} {log : List AstRec}
    (hr : c0.astRun hw hist = .ok (c, log)) (hno : Access.kcsRead .data 0 0 ∉ accessesOf c) :
    ∀ a ∈ accessesOf c, DefinedWrite .host a := fun a ha => (host_proper h hr hno a ha).2

/-- The hypotheses of `C117_bmc` and `C118_bmc` are met: the BMC answers a host and sends a packet. -/
example : (AstDemo.look .bmc 64
      { stat := [(0, 2), (0, 0)], data := [(0, 0)], reads := [AstDemo.hdr64, AstDemo.hdr64] } [.poll, .send 9 true 0 [1, 2, 3]]).map
      (fun x => (x.2.1.drop 3).filter fun a => match a with | .lpcWrite _ _ _ => true | .kcsWrite _ _ _ => true | _ => false) =
    some [.lpcWrite 16 (be32 256 ++ be32 76 ++ be32 332 ++ be32 76) 0, .lpcWrite 12 (be16 3) 0, .kcsWrite .status 0xc1 0, .kcsWrite .data 255 0,
      .lpcWrite 256 (be32 7) 0, .lpcWrite 260 (wire 3 [1, 9, 8, 0xc8, 1, 2, 3]) 0, .kcsWrite .data 1 0] := by
  decide +kernel

/-- The hypotheses of `C117_host_partial` and `C118_host_partial` are met: the host asks for a channel, and sends a packet on it. -/
example : (AstDemo.look .host 64
      { stat := [(0, 0x80), (0, 0xc1), (0, 0xc0)], data := [(0, 255)], reads := [AstDemo.hdr64, AstDemo.hdr64, be16 3, AstDemo.hdr64neg] }
      [.poll, .send 9 true 0 [1, 2, 3]]).map
      (fun x => x.2.1.filter fun a => match a with | .lpcWrite _ _ _ => true | .kcsWrite _ _ _ => true | .kcsRead .data _ _ => true | _ => false) =
    some [.lpcWrite 20 (be32 76) 0, .lpcWrite 8 (be16 1) 0, .lpcWrite 10 (be16 3) 0, .kcsWrite .data 0 0, .kcsRead .data 0 255,
      .lpcWrite 332 (be32 7) 0, .lpcWrite 336 (wire 3 [1, 9, 8, 0xc8, 1, 2, 3]) 0, .kcsWrite .data 1 0] := by
  decide +kernel

/-- A BMC that sends the command 0 to the host. -/
def AstDemo.mirrorScript : AstDemo.Script :=
  { stat := [(0, 0x80), (0, 0x81)], data := [(0, 0)], reads := [AstDemo.hdr64, AstDemo.hdr64, AstDemo.header 1 3 0 0 0 256 76 332 76] }

theorem AstDemo.mirror_run :
    (AstDemo.run .host 64 AstDemo.mirrorScript [.poll]).map (fun x => x.2.drop 9) =
      some [.lpcRead 0 (AstDemo.header 1 3 0 0 0 256 76 332 76) 0, .lpcWrite 12 (be16 0) 0, .kcsWrite .status 0x81 0, .kcsWrite .data 255 0,
        .lpcRead 12 [0, 0] 0] := by
  decide +kernel

/-- C117 does not hold for the host: if it reads the command 0 it does what a BMC would do: it writes the negotiated version,
and it writes to the status register. -/
theorem C117_refuted :
    ∃ (s : AstDemo.Script) (c0 c : Core (AstSt AstDemo.Script)) (hist : List AstOp) (log : List AstRec),
      AstEndpoint AstDemo.hw s 8 65536 .host 64 {} c0 ∧ c0.astRun AstDemo.hw hist = .ok (c, log) ∧
      Access.lpcWrite 12 (be16 0) 0 ∈ accessesOf c ∧ Access.kcsWrite .status 0x81 0 ∈ accessesOf c ∧
      ¬ ∀ a ∈ accessesOf c, OwnWrite .host a := by
  have hk := AstDemo.mirror_run
  cases ht : AstDemo.run .host 64 AstDemo.mirrorScript [.poll] with
  | none => rw [ht] at hk; simp at hk
  | some x =>
    obtain ⟨log, accs⟩ := x
    rw [ht] at hk
    simp only [Option.map_some, Option.some.injEq] at hk
    obtain ⟨c0, c, hep, hrun, rfl⟩ := AstDemo.run_ok (by decide) ht
    have hin : ∀ a ∈ (accessesOf c).drop 9, a ∈ accessesOf c := fun a h => List.mem_of_mem_drop h
    rw [hk] at hin
    have h2 := hin (.kcsWrite .status 0x81 0) (by simp)
    exact ⟨_, c0, c, _, log, hep, hrun, hin (.lpcWrite 12 (be16 0) 0) (by simp), h2, fun h => by
      have := h _ h2
      simp [OwnWrite] at this⟩

/-- C118 does not hold for the host: if it reads the command 0 it writes the BMC's dummy value, 255, which means nothing from a
host, to the data register. -/
theorem C118_refuted :
    ∃ (s : AstDemo.Script) (c0 c : Core (AstSt AstDemo.Script)) (hist : List AstOp) (log : List AstRec),
      AstEndpoint AstDemo.hw s 8 65536 .host 64 {} c0 ∧ c0.astRun AstDemo.hw hist = .ok (c, log) ∧
      Access.kcsWrite .data 255 0 ∈ accessesOf c ∧ ¬ ∀ a ∈ accessesOf c, DefinedWrite .host a := by
  have hk := AstDemo.mirror_run
  cases ht : AstDemo.run .host 64 AstDemo.mirrorScript [.poll] with
  | none => rw [ht] at hk; simp at hk
  | some x =>
    obtain ⟨log, accs⟩ := x
    rw [ht] at hk
    simp only [Option.map_some, Option.some.injEq] at hk
    obtain ⟨c0, c, hep, hrun, rfl⟩ := AstDemo.run_ok (by decide) ht
    have h2 : Access.kcsWrite .data 255 0 ∈ accessesOf c := List.mem_of_mem_drop (i := 9) (by rw [hk]; simp)
    exact ⟨_, c0, c, _, log, hep, hrun, h2, fun h => by
      have := h _ h2
      simp [DefinedWrite] at this⟩

end Mctp
