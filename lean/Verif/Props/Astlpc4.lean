import Verif.Proofs.AstCmd
import Verif.Props.Astlpc3

/-!
# Properties of the astlpc binding: loss of the BMC, failed channels (C61, C62, C64)
-/

namespace Mctp

open Spec

variable {E : Type}

/-! ## C61: loss of BMC-ready -/

/-- C61, what is true.  The host has last seen BMC-ready (bit 7 of the status it remembers); a poll reads a status
`v` in which BMC-ready and Channel-Active are clear, together with a command: a dummy command, or one that fits the state
of the channel.  Then transmission is disabled: whatever the application and the peer do from then on, no packet is given to
the binding and nothing is written into the transmit buffer, announced or acknowledged as a status, until the host
reads a status with Channel-Active or the command 0.  In the poll itself packets can only be transmitted if the
command handed the transmit buffer back. -/
theorem C61_stopped_partial {hw : Hw E} {env : E} {eid : Byte} {mx : Nat} {mtu : Nat} {mem : Mem}
    {c0 c c' c2 : Core (AstSt E)} (h : AstEndpoint hw env eid mx .host mtu mem c0) {hist hist2 : List AstOp}
    {log log2 : List AstRec} (hr : c0.astRun hw hist = .ok (c, log)) {bus : Bus (AstSt E)} (hb : c.busses = [bus])
    (hready : bus.binding.st.kcsStatus.getLsbD 7 = true) {e : List Event} {rc : Int}
    (hp : c.astStep hw .poll = .ok (c', e, rc)) {pre post : List Access} {v d : Byte}
    (hnew : accessesOf c' = accessesOf c ++ (pre ++ .kcsRead .status 0 v :: .kcsRead .data 0 d :: post))
    (h7 : v.getLsbD 7 = false) (h6 : v.getLsbD 6 = false)
    (hd : d = 255 ∨ (d ≠ 0 ∧ bus.binding.st.proto ≠ some 0 ∧ (d = 1 → bus.binding.st.rx.state = .released) ∧
      (d = 2 → bus.binding.st.tx.state = .released)))
    (hr2 : c'.astRun hw hist2 = .ok (c2, log2)) {later : List Access} (hl : accessesOf c2 = accessesOf c' ++ later)
    (hno : ∀ a ∈ later, ¬ Opens .host a) :
    (d ≠ 2 → offers 0 e = []) ∧ offers 0 (astEvents log2) = [] ∧ ∀ a ∈ later, Hushed a := by
  obtain ⟨bus1, hb1, hbr, hj⟩ := h.reached hr
  have : bus1 = bus := by rw [hb] at hb1; simpa using hb1.symm
  subst this
  obtain ⟨bus', hb', hbr', hj'⟩ := astStep_inv hb hbr hj hp
  have hp : c.astPoll hw 0 = .ok (c', e, rc) := hp
  rw [accessesOf_single hb, accessesOf_single hb'] at hnew
  have hret := (astRetry_inv (hw := hw) hj.1).2.2.1
  have hmode := hj.1.mode
  obtain ⟨-, s, hs, hjs, -, hcase⟩ := poll_split hb hbr hj hp hb' hnew
  have hk : s.kcsStatus = bus1.binding.st.kcsStatus := hs.kcs.trans hret
  have h6' := active_bit h6
  have h7' := ready_bit h7
  have hready' := bit_ready hready
  have key : (d ≠ 2 → offers 0 e = []) ∧ Shut bus' := by
    rcases hcase with ⟨⟨hp0, hd0, hd255⟩, -⟩ | ⟨-, hw1, c1, e1, rc1, stop, bus2, hcmd, hb2, hj2, hfin⟩
    · rcases hd with hd | hd
      · exact absurd hd hd255
      · exact absurd hp0 hd.2.1
    · have haft : ∀ {e2 : List Event}, c1.astAfter hw 0 bus1.binding.st.mode v d rc1 = .ok (c', e2, rc) →
          c1.astUpdateChannel hw 0 v = .ok (c', e2, rc) := by
        intro e2 haf
        unfold Core.astAfter at haf
        rwa [if_pos ⟨hmode, fun hc => hc.1 h7'⟩] at haf
      have huniq : ∀ {b : Bus (AstSt E)}, c'.busses = [b] → bus' = b := by
        intro b hbb; rw [hb'] at hbb; simpa using hbb
      have huniq2 : ∀ {b : Bus (AstSt E)}, c1.busses = [b] → bus2 = b := by
        intro b hbb; rw [hb2] at hbb; simpa using hbb
      by_cases h255 : d = 255
      · subst h255
        unfold Core.astCommand at hcmd
        obtain ⟨bus3, hbus, hcmd⟩ := Res.bind_eq_ok.mp hcmd
        obtain ⟨-, rfl⟩ := busAt_single rfl hbus
        simp only at hcmd
        rw [if_neg (by decide), if_neg (by decide), if_neg (by decide), if_pos (by decide),
          if_pos (by rw [hs.mode]; exact (astRetry_inv (hw := hw) hj.1).1.mode)] at hcmd
        obtain ⟨⟨c3, e3, rc3⟩, hup, hcmd⟩ := Res.bind_eq_ok.mp hcmd
        simp only [Except.ok.injEq, Prod.mk.injEq] at hcmd
        obtain ⟨rfl, rfl, rfl, rfl⟩ := hcmd
        obtain ⟨b3, hb3, hsh, ho, -⟩ := astUpdateChannel_shut rfl hjs h6'
          (.inr ⟨by show s.kcsStatus &&& _ ≠ 0; rw [hk]; exact hready', h7'⟩) hup
        have := huniq2 hb3
        subst this
        rcases hfin with ⟨-, rfl, rfl, -⟩ | ⟨-, e2, haf, rfl⟩
        · have := huniq hb3
          subst this
          exact ⟨fun _ => ho, hsh⟩
        · obtain ⟨b4, hb4, hsh4, ho4, -⟩ := astUpdateChannel_shut hb2 hj2 h6' (.inl hsh) (haft haf)
          have := huniq hb4
          subst this
          exact ⟨fun _ => by rw [offers_append, ho, ho4]; rfl, hsh4⟩
      · have hd := hd.resolve_left h255
        have hst : s.rx = (astRetry hw bus1.binding.st).rx := hs.rx
        have htt : s.tx = (astRetry hw bus1.binding.st).tx := hs.tx
        obtain ⟨hkk, hstop, hoff⟩ := astCommand_known rfl (by exact hbr) hjs hw1 hd.1 h255
          (fun hd1 => by show s.rx.state = _; rw [hst]; exact astRetry_released hw (hd.2.2.1 hd1))
          (fun hd2 => by show s.tx.state = _; rw [htt, astRetry_tx hw _ (by rw [hd.2.2.2 hd2]; simp)]; exact hd.2.2.2 hd2) hcmd hb2
        rcases hfin with ⟨hs2, -⟩ | ⟨-, e2, haf, rfl⟩
        · rw [hstop] at hs2; cases hs2
        · obtain ⟨b4, hb4, hsh4, ho4, -⟩ := astUpdateChannel_shut hb2 hj2 h6'
            (.inr ⟨by rw [hkk]; show s.kcsStatus &&& _ ≠ 0; rw [hk]; exact hready', h7'⟩) (haft haf)
          have := huniq hb4
          subst this
          exact ⟨fun h2 => by rw [offers_append, hoff h2, ho4]; rfl, hsh4⟩
  obtain ⟨bus2, l, hb2, ha, hq⟩ := astRun_shut hb' hbr' hj' hr2
  rw [accessesOf_single hb', accessesOf_single hb2] at hl
  have : l = later := by
    unfold Adds at ha
    rw [ha] at hl
    exact List.append_cancel_left hl
  subst this
  obtain ⟨-, ho, hh⟩ := hq hno key.2
  exact ⟨key.1, ho, hh⟩

/-! ### Examples and counterexamples -/

/-- A host that establishes a channel, sends a packet, and then finds the BMC gone. -/
def AstDemo.lostScript : AstDemo.Script :=
  { stat := [(0, 0x80), (0, 0xc1), (0, 0xc0), (0, 0x01), (0, 0), (0, 0)], data := [(0, 255), (0, 255)],
    reads := [AstDemo.hdr64, AstDemo.hdr64, be16 3, AstDemo.hdr64neg, be16 3, AstDemo.hdr64neg] }

/-- The hypotheses are met: the last packet is not transmitted (the accesses are those from the poll that
notices the loss). -/
example : (AstDemo.look .host 64 AstDemo.lostScript
      [.poll, .send 9 true 1 [5], .poll, .send 9 true 1 [6], .poll]).map
      (fun x => (x.1.map AstRec.evs, x.2.1.drop 15, x.2.2.1)) =
    some ([[], [.tx 0 [1, 9, 8, 0xc9, 5] 0 true], [], [], []],
      [.kcsRead .status 0 1, .kcsRead .data 0 255, .lpcRead 12 (be16 3) 0, .lpcRead 0 AstDemo.hdr64neg 0,
        .kcsRead .status 0 0], .txDisabled) := by
  decide +kernel

/-- C61 does not hold (1): without a command in the data register the loss is not noticed: the status read by the poll
is 0, and the next packet is transmitted. -/
theorem C61_unnoticed : (AstDemo.look .host 64
      { AstDemo.lostScript with stat := [(0, 0x80), (0, 0xc1), (0, 0), (0, 0)] } [.poll, .poll, .send 9 true 1 [6]]).map
      (fun x => (x.1.map AstRec.evs, x.2.1.drop 11)) =
    some ([[], [], [.tx 0 [1, 9, 8, 0xc9, 6] 0 true]],
      [.kcsRead .status 0 0, .lpcWrite 332 (be32 5) 0, .lpcWrite 336 (wire 3 [1, 9, 8, 0xc9, 6]) 0,
        .kcsRead .status 0 0, .kcsWrite .data 1 0]) := by
  decide +kernel

/-- C61 does not hold (2): with a command that does not fit (here a receive-complete although nothing was sent) the
loss is not noticed either. -/
theorem C61_unfit_unnoticed : (AstDemo.look .host 64
      { AstDemo.lostScript with stat := [(0, 0x80), (0, 0xc1), (0, 1), (0, 0)], data := [(0, 255), (0, 2)] }
      [.poll, .poll, .send 9 true 1 [6]]).map
      (fun x => (x.1.map AstRec.evs, x.2.1.drop 11)) =
    some ([[], [], [.tx 0 [1, 9, 8, 0xc9, 6] 0 true]],
      [.kcsRead .status 0 1, .kcsRead .data 0 2, .lpcWrite 332 (be32 5) 0,
        .lpcWrite 336 (wire 3 [1, 9, 8, 0xc9, 6]) 0, .kcsRead .status 0 0, .kcsWrite .data 1 0]) := by
  decide +kernel

/-- C61 does not hold (3): after a noticed loss the command 0, which only a host should send, makes the host act as a BMC:
it writes the status register and transmits although no status has shown an active channel. -/
theorem C61_reopened : (AstDemo.look .host 64
      { AstDemo.lostScript with
          stat := [(0, 0x80), (0, 0xc1), (0, 1), (0, 1), (0, 0)]
          data := [(0, 255), (0, 255), (0, 0)]
          reads := [AstDemo.hdr64, AstDemo.hdr64, be16 3, AstDemo.hdr64neg, be16 3, AstDemo.hdr64neg,
            AstDemo.hdr64neg, AstDemo.hdr64neg] }
      [.poll, .poll, .poll, .send 9 true 1 [6]]).map
      (fun x => (x.1.map AstRec.evs, (x.2.1.drop 15).filter fun a => ! decide (a = .lpcRead 0 AstDemo.hdr64neg 0))) =
    some ([[], [], [], [.tx 0 [1, 9, 8, 0xc9, 6] 0 true]],
      [.kcsRead .status 0 1, .kcsRead .data 0 0, .lpcWrite 20 (be32 76) 0, .lpcWrite 12 (be16 3) 0,
        .kcsWrite .status 0xc1 0, .kcsWrite .data 255 0, .lpcWrite 332 (be32 5) 0,
        .lpcWrite 336 (wire 3 [1, 9, 8, 0xc9, 6]) 0, .kcsRead .status 0 0, .kcsWrite .data 1 0]) := by
  decide +kernel

/-! ## C62: the BMC restarts -/

/-- The accesses of a host that starts a handshake (`rc` is the result): the status is read; if it shows BMC-ready,
the header is read; if there is a common version, then (from version 2 on) the header is read again, and the size of the host's
receive buffer is written for an MTU of `mtu`, if that makes a safe layout; then the versions of the host are written
and the command 0 is sent. -/
def HostHandshake (mtu : Nat) (rc : Int) (l : List Access) : Prop :=
  ∃ r st rest, l = .kcsRead .status r st :: rest ∧
    (r = 0 → st.getLsbD 7 = true → ∃ hdr r1 rest1, rest = .lpcRead 0 hdr r1 :: rest1 ∧ hdr.length = 32 ∧
      ∀ n, n = negotiateVersion (field16 hdr 4) (field16 hdr 6) 1 3 → n ≠ 0 →
        let hello := fun l : List Access => ∃ r4 r5, l = [.lpcWrite 8 (be16 1) r4, .lpcWrite 10 (be16 3) r5, .kcsWrite .data 0 rc]
        (n = 1 → hello rest1) ∧
        (2 ≤ n → ∃ hdr2 r2 rest2, rest1 = .lpcRead 0 hdr2 r2 :: rest2 ∧ hdr2.length = 32 ∧
          (0 ≤ r2 → ∀ sz, sz = mtu + 4 + overhead n → sz < 2 ^ 32 →
            SafeLayout n (field32 hdr2 16) (field32 hdr2 20) (field32 hdr2 24) (field32 hdr2 28) →
            SafeLayout n (field32 hdr2 16) sz (field32 hdr2 24) (field32 hdr2 28) →
            ∃ r3 rest3, rest2 = .lpcWrite 20 (be32 sz) r3 :: rest3 ∧ (0 ≤ r3 → hello rest3))))

/-- C62, what is true: if the host has seen that the BMC was not ready (bit 7 of the status it remembers), and a poll
reads a dummy command with a status that shows BMC-ready, the host starts a handshake. -/
theorem C62_handshake_partial {hw : Hw E} {env : E} {eid : Byte} {mx : Nat} {mtu : Nat} {mem : Mem}
    {c0 c c' : Core (AstSt E)} (h : AstEndpoint hw env eid mx .host mtu mem c0) {hist : List AstOp}
    {log : List AstRec} (hr : c0.astRun hw hist = .ok (c, log)) {bus : Bus (AstSt E)} (hb : c.busses = [bus])
    (hready : bus.binding.st.kcsStatus.getLsbD 7 = false) {e : List Event} {rc : Int}
    (hp : c.astStep hw .poll = .ok (c', e, rc)) {pre post : List Access} {v : Byte}
    (hnew : accessesOf c' = accessesOf c ++ (pre ++ .kcsRead .status 0 v :: .kcsRead .data 0 255 :: post))
    (h7 : v.getLsbD 7 = true) : HostHandshake mtu rc post ∧ e = [] := by
  obtain ⟨bus1, hb1, hbr, hj⟩ := h.reached hr
  have : bus1 = bus := by rw [hb] at hb1; simpa using hb1.symm
  subst this
  obtain ⟨bus', hb', hbr', hj'⟩ := astStep_inv hb hbr hj hp
  have hp : c.astPoll hw 0 = .ok (c', e, rc) := hp
  rw [accessesOf_single hb, accessesOf_single hb'] at hnew
  have hret := (astRetry_inv (hw := hw) hj.1).2.2.1
  have hmode := hj.1.mode
  obtain ⟨-, s, hs, hjs, hpost, hcase⟩ := poll_split hb hbr hj hp hb' hnew
  have hk : s.kcsStatus = bus1.binding.st.kcsStatus := hs.kcs.trans hret
  have h7' := bit_ready h7
  have hready' := ready_bit hready
  have hsm : s.mode = .host := hjs.1.mode
  have hsmtu : s.mtu = mtu := hjs.1.mtu
  rcases hcase with ⟨⟨-, -, h255⟩, -⟩ | ⟨-, -, c1, e1, rc1, stop, bus2, hcmd, hb2, hj2, hfin⟩
  · exact absurd rfl h255
  · unfold Core.astCommand at hcmd
    obtain ⟨bus3, hbus, hcmd⟩ := Res.bind_eq_ok.mp hcmd
    obtain ⟨-, rfl⟩ := busAt_single rfl hbus
    simp only at hcmd
    rw [if_neg (by decide), if_neg (by decide), if_neg (by decide), if_pos (by decide), if_pos hsm] at hcmd
    obtain ⟨⟨c3, e3, rc3⟩, hup, hcmd⟩ := Res.bind_eq_ok.mp hcmd
    simp only [Except.ok.injEq, Prod.mk.injEq] at hcmd
    obtain ⟨rfl, rfl, rfl, rfl⟩ := hcmd
    unfold Core.astUpdateChannel at hup
    obtain ⟨bus4, hbus4, hup⟩ := Res.bind_eq_ok.mp hup
    obtain ⟨-, rfl⟩ := busAt_single rfl hbus4
    simp only at hup
    rw [if_neg (by rw [hsm]; simp), if_pos (by rw [xor_mask, hk, hready']; simpa using h7'), if_pos h7'] at hup
    obtain ⟨⟨rc4, s4⟩, hst, hup⟩ := Res.bind_eq_ok.mp hup
    simp only [Except.ok.injEq, Prod.mk.injEq] at hup
    obtain ⟨rfl, rfl, rfl⟩ := hup
    unfold astStart at hst
    split at hst
    · rename_i hm; exact absurd (hsm.symm.trans hm) (by simp)
    obtain ⟨r, st, rest, hadds, hview⟩ := initHost_view (s := { s with kcsStatus := v }) hsm (by exact hst)
    have hadds : Adds s s4 (.kcsRead .status r st :: rest) := hadds.congr rfl rfl
    have hc' : c'.busses = [{ bus1 with binding := { bus1.binding with st := s4 } }] ∧ rc = rc4 ∧ e = [] := by
      rcases hfin with ⟨-, rfl, rfl, rfl⟩ | ⟨-, e2, haf, rfl⟩
      · rw [setSt_single rfl]; exact ⟨rfl, rfl, rfl⟩
      · unfold Core.astAfter at haf
        rw [if_neg (fun hc => hc.2 ⟨h7', rfl⟩)] at haf
        simp only [Except.ok.injEq, Prod.mk.injEq] at haf
        obtain ⟨rfl, rfl, rfl⟩ := haf
        rw [setSt_single rfl]; exact ⟨rfl, rfl, rfl⟩
    obtain ⟨hc', rfl, he⟩ := hc'
    have : bus' = { bus1 with binding := { bus1.binding with st := s4 } } := by
      rw [hb'] at hc'; simpa using hc'
    subst this
    have := hpost.inj hadds
    subst this
    refine ⟨⟨r, st, rest, rfl, ?_⟩, he⟩
    simp only [hsmtu] at hview
    exact hview

/-- The hypotheses are met: the host notices the loss of the BMC, finds it again, and asks for a channel. -/
example : (AstDemo.look .host 64
      { AstDemo.lostScript with
          stat := [(0, 0x80), (0, 0xc1), (0, 1), (0, 0x81), (0, 0x80)]
          data := [(0, 255), (0, 255), (0, 255)]
          reads := [AstDemo.hdr64, AstDemo.hdr64, be16 3, AstDemo.hdr64neg, be16 3, AstDemo.hdr64neg,
            AstDemo.hdr64, AstDemo.hdr64] }
      [.poll, .poll, .poll]).map (fun x => (x.1.map AstRec.rc, x.2.1.drop 15)) =
    some ([0, 0, 0],
      [.kcsRead .status 0 0x81, .kcsRead .data 0 255, .kcsRead .status 0 0x80, .lpcRead 0 AstDemo.hdr64 0,
        .lpcRead 0 AstDemo.hdr64 0, .lpcWrite 20 (be32 76) 0, .lpcWrite 8 (be16 1) 0, .lpcWrite 10 (be16 3) 0,
        .kcsWrite .data 0 0]) := by
  decide +kernel

/-- C62 does not hold: a BMC that restarts between two polls (its channel is no longer active, the negotiated version
is gone) is seen with BMC-ready set, and the host starts no handshake, however often it polls: the poll that sees the change
returns an error, the following ones do nothing. -/
theorem C62_unnoticed : (AstDemo.look .host 64
      { AstDemo.lostScript with
          stat := [(0, 0x80), (0, 0xc1), (0, 0x81), (0, 0x80), (0, 0x80)]
          reads := [AstDemo.hdr64, AstDemo.hdr64, be16 3, AstDemo.hdr64neg, be16 0] }
      [.poll, .poll, .poll, .poll]).map (fun x => (x.1.map AstRec.rc, x.2.1.drop 11, x.2.2.1)) =
    some ([0, -22, 0, 0],
      [.kcsRead .status 0 0x81, .kcsRead .data 0 255, .lpcRead 12 (be16 0) 0, .kcsRead .status 0 0x80,
        .kcsRead .status 0 0x80], .txDisabled) := by
  decide +kernel

/-! ## C64: a channel that cannot be established -/

/-- In the header `hdr` there is no version in common with 1..3, or the header read next (`rest`) could not be read or
does not describe a safe layout. -/
def Refused (hdr : List Byte) (rest : List Access) : Prop :=
  (¬ (0 < field16 hdr 8 ∧ ∃ v, CommonVersion 1 3 (field16 hdr 8) (field16 hdr 10) v)) ∨
  ∃ hdr2 r2 rest2, rest = .lpcRead 0 hdr2 r2 :: rest2 ∧
    (r2 < 0 ∨ ¬ SafeLayout (negotiateVersion 1 3 (field16 hdr 8) (field16 hdr 10))
      (field32 hdr2 16) (field32 hdr2 20) (field32 hdr2 24) (field32 hdr2 28))

/-- C64: a BMC reads the command 0, and the header it then reads has no common version or no safe layout.  Then it
writes the negotiated version 0, every status it writes has Channel-Active (bit 6) clear, and it gives no packet to the
binding; and from then on it transmits nothing (nor does it write the status), whatever happens, until it reads the
command 0 again. -/
theorem C64_refused {hw : Hw E} {env : E} {eid : Byte} {mx : Nat} {mtu : Nat} {mem : Mem}
    {c0 c c' c2 : Core (AstSt E)} (h : AstEndpoint hw env eid mx .bmc mtu mem c0) {hist hist2 : List AstOp}
    {log log2 : List AstRec} (hr : c0.astRun hw hist = .ok (c, log)) {e : List Event} {rc : Int}
    (hp : c.astStep hw .poll = .ok (c', e, rc)) {pre rest : List Access} {w : Byte} {hdr : List Byte} {r1 : Int}
    (hnew : accessesOf c' = accessesOf c ++ (pre ++ .kcsRead .status 0 w :: .kcsRead .data 0 0 :: .lpcRead 0 hdr r1 :: rest))
    (hbad : Refused hdr rest)
    (hr2 : c'.astRun hw hist2 = .ok (c2, log2)) {later : List Access} (hl : accessesOf c2 = accessesOf c' ++ later)
    (hno : ∀ a ∈ later, ¬ Opens .bmc a) :
    (∀ v r, Access.kcsWrite .status v r ∈ pre ++ .kcsRead .status 0 w :: .kcsRead .data 0 0 :: .lpcRead 0 hdr r1 :: rest → v.getLsbD 6 = false) ∧
    (∃ r, Access.lpcWrite 12 (be16 0) r ∈ rest) ∧ offers 0 e = [] ∧
    offers 0 (astEvents log2) = [] ∧ ∀ a ∈ later, Hushed a := by
  obtain ⟨bus, hb, hbr, hj⟩ := h.reached hr
  obtain ⟨bus', hb', hbr', hj'⟩ := astStep_inv hb hbr hj hp
  rw [accessesOf_single hb, accessesOf_single hb'] at hnew
  have hp : c.astPoll hw 0 = .ok (c', e, rc) := hp
  obtain ⟨hpre, s, hs, hjs, hpost, hcase⟩ := poll_split hb hbr hj hp hb' hnew
  rcases hcase with ⟨⟨-, h0, -⟩, -⟩ | ⟨-, -, c1, e1, rc1, stop, bus1, hcmd, hb1, hj1, hfin⟩
  · exact absurd rfl h0
  unfold Core.astCommand at hcmd
  obtain ⟨bus2, hbus2, hcmd⟩ := Res.bind_eq_ok.mp hcmd
  obtain ⟨-, rfl⟩ := busAt_single rfl hbus2
  rw [if_pos (show (0 : Byte) = cmdInitialise from rfl)] at hcmd
  obtain ⟨⟨c3, e3⟩, hini, hcmd⟩ := Res.bind_eq_ok.mp hcmd
  simp only [Except.ok.injEq, Prod.mk.injEq] at hcmd
  obtain ⟨rfl, rfl, rfl, rfl⟩ := hcmd
  unfold Core.astInitChannel at hini
  obtain ⟨bus3, hbus3, hini⟩ := Res.bind_eq_ok.mp hini
  obtain ⟨-, rfl⟩ := busAt_single rfl hbus3
  obtain ⟨⟨on, b⟩, hic, hini⟩ := Res.bind_eq_ok.mp hini
  simp only at hini hic
  rw [setBinding_single rfl] at hini
  have hmode : bus.binding.st.mode = .bmc := hj.1.mode
  have hc' : c' = c3 ∧ e = e3 := by
    rcases hfin with ⟨h, -⟩ | ⟨-, e2', haf, rfl⟩
    · cases h
    · unfold Core.astAfter at haf
      rw [if_neg (by rw [hmode]; simp)] at haf
      simp only [Except.ok.injEq, Prod.mk.injEq] at haf
      exact ⟨haf.1.symm, by rw [← haf.2.1, List.append_nil]⟩
  obtain ⟨hc', rfl⟩ := hc'
  obtain ⟨q1, hdr', mid, q2, n, fin, l, haccs, hmid, hset, hn, -, hfin', hta, -⟩ := initChannel_view hic
  have hab : Adds s b.st (.lpcRead 0 hdr' q1 :: (mid ++ .lpcWrite 12 (be16 n) q2 :: l)) := by
    unfold Adds; rw [haccs]; simp
  have hrest : ∃ lt, Adds b.st bus'.binding.st lt := by
    cases on with
    | false =>
      obtain ⟨-, -, hcc⟩ := setTxEnabled_false rfl hini
      have : bus'.binding = b := by
        have hx := congrArg Core.busses (hc'.trans hcc)
        rw [hb'] at hx
        simp only [List.cons.injEq, and_true] at hx
        rw [hx]
      exact ⟨[], by rw [this]; exact Adds.refl _⟩
    | true =>
      obtain ⟨hi1, -, -, -, hsafe⟩ := initChannel_inv hjs.1 hic
      obtain ⟨bus4, m, hc4, hto, hj4, -⟩ := setTxEnabled_only rfl hi1 (fun h => ⟨hta, by obtain ⟨v, _, _, hs⟩ := hsafe h; exact hs.one⟩) hini
      obtain ⟨lt, hat, -⟩ := hto.adds
      have : bus' = bus4 := by
        have hx : c'.busses = [bus4] := by rw [hc', hc4]
        rw [hb'] at hx; simpa using hx
      subst this
      exact ⟨lt, hat⟩
  obtain ⟨lt, hat⟩ := hrest
  have heq := hpost.inj (hab.trans hat)
  simp only [List.cons_append, List.append_assoc, List.cons.injEq, Access.lpcRead.injEq, true_and] at heq
  obtain ⟨⟨rfl, rfl⟩, heq⟩ := heq
  have hsm : s.mode = .bmc := hjs.1.mode
  have hoff : on = false := by
    refine initChannel_refuses (by exact hsm) hic hab ?_
    rcases hbad with hbad | ⟨hdr2, r2, rest2, hh, hbad⟩
    · left
      rcases negotiateVersion_spec 1 3 (field16 hdr 8) (field16 hdr 10) with ⟨h0, -⟩ | ⟨-, hc, hcom, -⟩
      · exact h0
      · exact absurd ⟨hc, _, hcom⟩ hbad
    · by_cases hm : mid = []
      · subst hm
        rw [heq] at hh
        cases hh
      · obtain ⟨m, mid', rfl⟩ := List.exists_cons_of_ne_nil hm
        rw [heq] at hh
        simp only [List.cons_append, List.cons.injEq] at hh
        obtain ⟨rfl, -⟩ := hh
        exact .inr ⟨hdr2, r2, _, rfl, hbad⟩
  subst hoff
  simp only [Bool.false_eq_true, if_false] at hn hfin'
  subst hn hfin'
  obtain ⟨rfl, -, hcc⟩ := setTxEnabled_false rfl hini
  have hbus' : bus' = { bus with binding := b, state := if bus.state = .constructed then .constructed else .txDisabled } := by
    have hx := congrArg Core.busses (hc'.trans hcc)
    rw [hb'] at hx
    simpa using hx
  have hlt : lt = [] := by
    rw [hbus'] at hat
    exact (Adds.inj hat (Adds.refl _))
  subst hlt
  have hsh : Shut bus' := by
    rw [hbus']
    refine ⟨?_, .inr hta⟩
    simp only; split <;> simp
  obtain ⟨bus2, l2, hb2, ha2, hq⟩ := astRun_shut hb' hbr' hj' hr2
  rw [accessesOf_single hb', accessesOf_single hb2] at hl
  have : l2 = later := by
    unfold Adds at ha2
    rw [ha2] at hl
    exact List.append_cancel_left hl
  subst this
  obtain ⟨-, ho, hh⟩ := hq hno hsh
  refine ⟨?_, ⟨q2, by rw [heq]; simp⟩, rfl, ho, hh⟩
  intro v r hv
  simp only [List.mem_append, List.mem_cons, reduceCtorEq, false_or] at hv
  rcases hv with hv | hv
  · exfalso
    obtain ⟨l1, l2, har, h1, h2, -⟩ := astRetry_adds hw bus.binding.st
    have := hpre.inj har
    subst this
    rcases List.mem_append.mp hv with hv | hv
    · rcases h1 with ⟨-, r, hs, -⟩ | ⟨-, rfl, -⟩
      · cases hs <;> simp at hv
      · cases hv
    · rcases h2 with ⟨-, r, hs, -⟩ | ⟨-, rfl, -⟩
      · cases hs <;> simp at hv
      · cases hv
  · rw [heq] at hv
    simp only [List.append_nil, List.mem_append, List.mem_cons, reduceCtorEq, false_or] at hv
    rcases hv with hv | hv
    · exact (hmid _ hv).elim
    · cases hset with
      | fail h => simp only [List.mem_singleton, Access.kcsWrite.injEq, true_and] at hv; rw [hv.1]; decide
      | set =>
        simp only [List.mem_cons, List.not_mem_nil, or_false, Access.kcsWrite.injEq, true_and, reduceCtorEq, false_and] at hv
        rw [hv.1]; decide

/-- The hypotheses are met: a host that supports versions 4 to 7 only; the packet sent afterwards is not transmitted. -/
example : (AstDemo.look .bmc 64
      { AstDemo.bmcScript with reads := [AstDemo.header 1 3 4 7 0 256 76 332 76] } [.poll, .send 9 true 1 [5], .poll]).map
      (fun x => (x.1.map AstRec.evs, x.2.1.drop 3, x.2.2.1)) =
    some ([[], [], []], [.kcsRead .status 0 2, .kcsRead .data 0 0,
      .lpcRead 0 (AstDemo.header 1 3 4 7 0 256 76 332 76) 0, .lpcWrite 12 (be16 0) 0, .kcsWrite .status 0x81 0,
      .kcsWrite .data 255 0, .kcsRead .status 0 0], .constructed) := by
  decide +kernel

/-- And with buffers that overlap. -/
example : (AstDemo.look .bmc 64
      { AstDemo.bmcScript with reads := [AstDemo.header 1 3 1 3 0 256 80 300 80, AstDemo.header 1 3 1 3 0 256 80 300 80] }
      [.poll, .send 9 true 1 [5], .poll]).map
      (fun x => (x.1.map AstRec.evs, (x.2.1.drop 3).filter fun a => ! decide (a = .lpcRead 0 (AstDemo.header 1 3 1 3 0 256 80 300 80) 0))) =
    some ([[], [], []], [.kcsRead .status 0 2, .kcsRead .data 0 0, .lpcWrite 12 (be16 0) 0, .kcsWrite .status 0x81 0,
      .kcsWrite .data 255 0, .kcsRead .status 0 0]) := by
  decide +kernel

end Mctp
