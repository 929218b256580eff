import Verif.Proofs.AstSafe
import Verif.Props.Astlpc

/-!
# Properties of the astlpc binding: the other side cannot crash the endpoint (C73)
-/

namespace Mctp

open Spec

variable {E : Type}

theorem astInit_sizes (env : E) (mode : AstMode) {mtu : Nat} (hm : mtu < 2 ^ 32) :
    68 ≤ (astInit env mode mtu).pktSize ∧ (astInit env mode mtu).pktSize < 2 ^ 33 := by
  unfold astInit packetSize hdrSize btu
  simp only
  split <;> omega

/-- A host whose start reports success has its "unnegotiated" table entry in place. -/
theorem initHost_proto {hw : Hw E} (hr : ∀ e r, (hw.kcsRead e r).1 ≤ 0) {s s' : AstSt E} {rc : Int}
    (he : initHost hw s = .ok (rc, s')) (h0 : 0 ≤ rc) : s'.proto = some 0 := by
  unfold initHost at he
  dsimp only at he
  split at he
  · rename_i hne
    have := hr s.env .status
    cases he
    have h2 : (Mctp.kcsRead hw s .status).1 = (hw.kcsRead s.env .status).1 := rfl
    omega
  · split at he
    · cases he; simp [EHOSTDOWN] at h0
    · obtain ⟨⟨r1, hdr, s1⟩, -, he⟩ := Res.bind_eq_ok.mp he
      dsimp only at he
      split at he
      · cases he; simp [EINVAL] at h0
      · split at he
        · cases he
        · obtain ⟨⟨r2, s2⟩, -, he⟩ := Res.bind_eq_ok.mp he
          dsimp only at he
          split at he
          · rename_i hneg; cases he; omega
          · obtain ⟨⟨r3, s3⟩, -, he⟩ := Res.bind_eq_ok.mp he
            dsimp only at he
            obtain ⟨⟨r4, s4⟩, -, he⟩ := Res.bind_eq_ok.mp he
            dsimp only at he
            cases he
            rfl

/-- The endpoint after its registration. -/
theorem AstEndpoint.mem {hw : Hw E} {env : E} {eid : Byte} {mx : Nat} {mode : AstMode} {mtu : Nat} {mem : Mem}
    {c0 : Core (AstSt E)} (h : AstEndpoint hw env eid mx mode mtu mem c0) (hcl : Clean mem)
    (hm : mode = .host → mtu < 4294967284 ∧ SaneBmc hw) :
    ∃ bus, AstMem hw mode mtu mem.live c0 bus := by
  have hmtu : mtu < 2 ^ 32 := by obtain ⟨_, _, _, hm, _⟩ := h; exact hm
  obtain ⟨rc, s, hrc, hs, hb, -⟩ := h.start
  have hsz := astInit_sizes env mode hmtu
  have hgood : AstGood mode mtu { astInit env mode mtu with st := s } := by
    cases mode with
    | bmc =>
      have hs : initBmc hw { astZero env .bmc mtu with proto := some astVerCur } = .ok (rc, s) := hs
      have hlt : mtu < 4294967284 := by
        rcases initBmc_view rfl hmtu hs with ⟨-, rfl⟩ | ⟨hx, -⟩
        · simp [EINVAL] at hrc
        · have hx : mtu = 0 ∨ 64 ≤ mtu ∧ mtu < 4294967284 := hx
          omega
      have h0 := astZero_inv env .bmc mtu
      have h1 : AstInv .bmc mtu { astZero env .bmc mtu with proto := some astVerCur } := by
        obtain ⟨hm, hmt, hpr, hlay, hbusy, w, htr, hph⟩ := h0
        exact ⟨hm, hmt, fun v hv => by simp only [Option.some.injEq] at hv; subst hv; decide, hlay, hbusy, w, htr.congr rfl rfl,
          hph.quiet rfl rfl rfl rfl⟩
      obtain ⟨i1, i2, i3, i4, i5⟩ := initBmc_inv h1 rfl hmtu hs hrc
      exact ⟨i1.mode, i1.mtu, hlt, ⟨3, i5, by decide⟩, .inr i4.one, fun _ => i4.one, fun _ => i4.one, fun _ => i4.one,
        by simp, hsz.1, hsz.2, rfl, rfl⟩
    | host =>
      have hs : initHost hw (astZero env .host mtu) = .ok (rc, s) := hs
      obtain ⟨i1, i2, i3⟩ := initHost_inv (astZero_inv env .host mtu) hs
      have hp := initHost_proto (hm rfl).2.rc hs hrc
      have hz : LayZero s := ⟨by rw [i2]; rfl, by rw [i2]; rfl, by rw [i3]; rfl, by rw [i3]; rfl⟩
      exact ⟨i1.mode, i1.mtu, (hm rfl).1, ⟨0, hp, by decide⟩, .inl hz, by simp,
        (fun hh => absurd (by simp only [i2]; rfl) hh), (fun hh => absurd (by simp only [i3]; rfl) hh),
        (fun _ hh => by simp only [i3] at hh; rcases hh with hh | hh <;> cases hh), hsz.1, hsz.2, rfl, rfl⟩
  obtain ⟨fill, c, rc2, -, hi, hr, hrc2⟩ := h
  obtain ⟨id, m, ha, rfl⟩ := init_ok hi
  have hinv := memInv_of (K := astK hw mode mtu) ha hcl (by rfl) (by rfl) (by rfl) hr hrc2 (by
    intro b hbm
    rw [hb] at hbm
    simp only [List.mem_singleton] at hbm
    subst hbm
    exact ⟨hgood.bind.wrap, hgood, by simp⟩)
  exact ⟨_, hinv, hb⟩

/-- C73, first half: whatever the host writes to the window and the KCS registers, whatever the accessors return, and
whatever the application sends, the BMC endpoint finishes every call without a fault (no failed assertion, no access
through a null or dangling pointer, no access outside a buffer), and destroying it then releases exactly what it had
allocated. -/
theorem C73_bmc {hw : Hw E} {env : E} {eid : Byte} {mx : Nat} {mtu : Nat} {mem : Mem} {c0 : Core (AstSt E)}
    (h : AstEndpoint hw env eid mx .bmc mtu mem c0) (hcl : Clean mem) (hist : List AstOp) :
    ∃ c log m, c0.astRun hw hist = .ok (c, log) ∧ c.destroy = .ok m ∧ ∀ id, m.live.count id = mem.live.count id := by
  obtain ⟨bus, hm⟩ := h.mem hcl (by simp)
  obtain ⟨c, log, bus', hr, hm'⟩ := astRun_total hw (by simp) hist hm
  obtain ⟨m, hd, ho⟩ := destroy_total hm'.1
  exact ⟨c, log, m, hr, hd, ho.1⟩

/-- C73, second half, as far as it is true: the host endpoint finishes every call without a fault, if the BMC never
shows an active channel without being ready, and never sends the command 0x00. -/
theorem C73_host_partial {hw : Hw E} {env : E} {eid : Byte} {mx : Nat} {mtu : Nat} {mem : Mem} {c0 : Core (AstSt E)}
    (h : AstEndpoint hw env eid mx .host mtu mem c0) (hcl : Clean mem) (hmtu : mtu < 4294967284) (hsane : SaneBmc hw)
    (hist : List AstOp) :
    ∃ c log m, c0.astRun hw hist = .ok (c, log) ∧ c.destroy = .ok m ∧ ∀ id, m.live.count id = mem.live.count id := by
  obtain ⟨bus, hm⟩ := h.mem hcl (fun _ => ⟨hmtu, hsane⟩)
  obtain ⟨c, log, bus', hr, hm'⟩ := astRun_total hw (fun _ => hsane) hist hm
  obtain ⟨m, hd, ho⟩ := destroy_total hm'.1
  exact ⟨c, log, m, hr, hd, ho.1⟩

/-! ### Refutations: what a BMC can do to the host -/

theorem AstDemo.fault_of {mode : AstMode} {mtu : Nat} {s : AstDemo.Script} {hist : List AstOp} {f : Fault}
    (hm : mtu < 2 ^ 32) (h : AstDemo.failing mode mtu s hist = some f) :
    ∃ c0, AstEndpoint AstDemo.hw s 8 65536 mode mtu {} c0 ∧ c0.astRun AstDemo.hw hist = .error f := by
  unfold AstDemo.failing at h
  split at h
  · rename_i c rc hreg
    split at h
    · cases h
    · split at h
      · cases h
      · rename_i hrc f' hrun
        simp only [Option.some.injEq] at h
        subst h
        exact ⟨c, AstDemo.endpoint hm hreg (by omega), hrun⟩
  · cases h

/-- The BMC shows the status 0x41 (channel active, BMC not ready) once: the host keeps the channel state of that moment,
and its next packet makes it use a version table entry that is not there. -/
theorem C73_host_crashes_status : ∃ (s : AstDemo.Script) (c0 : _) (hist : _),
    AstEndpoint AstDemo.hw s 8 65536 .host 64 {} c0 ∧ c0.astRun AstDemo.hw hist = .error .nullDeref := by
  obtain ⟨c0, h⟩ := AstDemo.fault_of (mode := .host) (mtu := 64) (f := .nullDeref)
    (s := { stat := [(0, 0x80), (0, 0x41), (0, 0x81), (0, 0x80)], data := [(0, 255), (0, 255)],
            reads := [AstDemo.hdr64, AstDemo.hdr64, be16 3, AstDemo.hdr64neg, AstDemo.hdr64, AstDemo.hdr64] })
    (hist := [.poll, .poll, .send 9 false 0 [1]]) (by decide) (by decide +kernel)
  exact ⟨_, c0, _, h⟩

/-- The BMC sends the command 0x00: the host runs the code that is meant for the BMC and fails an assertion. -/
theorem C73_host_crashes_command : ∃ (s : AstDemo.Script) (c0 : _) (hist : _),
    AstEndpoint AstDemo.hw s 8 65536 .host 64 {} c0 ∧ c0.astRun AstDemo.hw hist = .error .assertFail := by
  obtain ⟨c0, h⟩ := AstDemo.fault_of (mode := .host) (mtu := 64) (f := .assertFail)
    (s := { stat := [(0, 0x80), (0, 0x81)], data := [(0, 0)],
            reads := [AstDemo.hdr64, AstDemo.hdr64, AstDemo.hdr64, AstDemo.hdr64] })
    (hist := [.poll]) (by decide) (by decide +kernel)
  exact ⟨_, c0, _, h⟩

/-- The host's status read reports a positive number at registration: the registration is reported as a success, but
the version table entry is not there, and the first poll that finds data uses it. -/
theorem C73_host_crashes_positive : ∃ (s : AstDemo.Script) (c0 : _) (hist : _),
    AstEndpoint AstDemo.hw s 8 65536 .host 64 {} c0 ∧ c0.astRun AstDemo.hw hist = .error .nullDeref := by
  obtain ⟨c0, h⟩ := AstDemo.fault_of (mode := .host) (mtu := 64) (f := .nullDeref)
    (s := { stat := [(1, 0), (0, 0x81)], data := [(0, 1)] })
    (hist := [.poll]) (by decide) (by decide +kernel)
  exact ⟨_, c0, _, h⟩

/-! ### The hypotheses are met -/

/-- A BMC endpoint exists, and a history in which it negotiates a channel and transmits. -/
example : ∃ c0, AstEndpoint AstDemo.hw AstDemo.bmcScript 8 65536 .bmc 64 {} c0 ∧ Clean {} ∧
    ∃ c log, c0.astRun AstDemo.hw [.poll, .send 9 false 0 [1, 2]] = .ok (c, log) := by
  have hd : ∃ x, AstDemo.run .bmc 64 AstDemo.bmcScript [.poll, .send 9 false 0 [1, 2]] = some x :=
    Option.isSome_iff_exists.mp (by decide +kernel)
  obtain ⟨⟨l, a⟩, hd⟩ := hd
  obtain ⟨c0, c, h, hr, -⟩ := AstDemo.run_ok (by decide) hd
  exact ⟨c0, h, ⟨fun _ => rfl, by simp, by simp⟩, c, _, hr⟩

/-- A BMC that is sane in the sense of `C73_host_partial`: ready, with an active channel and a dummy command at
every poll. -/
def AstDemo.calmHw : Hw (List (List Byte)) where
  kcsRead s r := match r with | .status => (0, 0xc1, s) | .data => (0, 255, s)
  kcsWrite s _ _ := (0, s)
  lpcRead s _ _ := (0, s.headD [], s.tail)
  lpcWrite s _ _ := (0, s)

example : SaneBmc AstDemo.calmHw where
  status := by intro e _; show (0xc1 : Byte) &&& _ ≠ 0; decide
  data := by intro e; show (255 : Byte) ≠ _; decide
  rc := by intro e r; cases r <;> exact Int.le_refl 0

/-- A host registers with it, negotiates a channel and transmits. -/
example : ∃ c0, AstEndpoint AstDemo.calmHw [AstDemo.hdr64, AstDemo.hdr64, be16 3, AstDemo.hdr64neg] 8 65536 .host 64 {} c0 ∧
    ∃ c log, c0.astRun AstDemo.calmHw [.poll, .send 9 false 0 [1, 2]] = .ok (c, log) ∧
      (c.busses.map fun b => b.binding.st.tx.state) = [.released] := by
  let c1 : Core (AstSt (List (List Byte))) :=
    { mem := { next := 1, live := [0] }, fill := fun _ => 0xaa, self := 0, nBusses := 0, bussesPtr := none, busses := [],
      hasRx := false, hasCapture := false, ctxs := List.replicate 16 Ctx.zero, bridge := false, maxSize := 0 }
  let c2 := (c1.setRxAll true).setMaxMessageSize 65536
  let r := c2.registerBus (astOps AstDemo.calmHw)
    (astInit [AstDemo.hdr64, AstDemo.hdr64, be16 3, AstDemo.hdr64neg] .host 64) 8
  have hx : (match r with
    | .ok (c, rc) => decide (0 ≤ rc) && (match c.astRun AstDemo.calmHw [.poll, .send 9 false 0 [1, 2]] with
      | .ok (c, _) => (c.busses.map fun b => b.binding.st.tx.state) = [.released]
      | .error _ => false)
    | .error _ => false) = true := by decide +kernel
  have hr : c2.registerBus (astOps AstDemo.calmHw)
    (astInit [AstDemo.hdr64, AstDemo.hdr64, be16 3, AstDemo.hdr64neg] .host 64) 8 = r := rfl
  clear_value r
  split at hx
  · rename_i c0 rc
    simp only [Bool.and_eq_true, decide_eq_true_eq] at hx
    obtain ⟨hrc, hx⟩ := hx
    split at hx
    · rename_i c log hrun
      exact ⟨c0, ⟨fun _ => 0xaa, _, rc, by decide, rfl, hr, hrc⟩, c, log, hrun, by simpa using hx⟩
    · cases hx
  · cases hx

end Mctp
