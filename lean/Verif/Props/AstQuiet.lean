import Verif.Proofs.AstMuteHost
import Verif.Props.Astlpc4

/-!
# Without a channel nothing is received (C115, C116)
-/

namespace Mctp

open Spec

variable {E : Type}

/-- C115, a BMC that nobody has asked for a channel: as long as it has not read the command 0 since it was registered, no
packet reaches the core and nothing is delivered, whatever is in the registers and in the window.
Missing: see `C115_refuted`. -/
theorem C115_unasked_partial {hw : Hw E} {env : E} {eid : Byte} {mx : Nat} {mtu : Nat} {mem : Mem}
    {c0 c : Core (AstSt E)} (h : AstEndpoint hw env eid mx .bmc mtu mem c0) {hist : List AstOp} {log : List AstRec}
    (hr : c0.astRun hw hist = .ok (c, log)) {new : List Access} (hnew : accessesOf c = accessesOf c0 ++ new)
    (hno : Access.kcsRead .data 0 0 ∉ new) : NothingReceived (astEvents log) := by
  obtain ⟨bus, hb, hbr, hj⟩ := h.inv
  obtain ⟨bus2, l, hb2, ha, hq⟩ := astRun_mute hb hbr hj hr
  rw [accessesOf_single hb, accessesOf_single hb2] at hnew
  have : l = new := by
    unfold Adds at ha
    rw [ha] at hnew
    exact List.append_cancel_left hnew
  subst this
  exact nothingReceived_tx (hq hno (.inl (h.mute hb))).2.2

/-- C115, a BMC that has refused the channel since there is no common version: in this poll, and from then on until it
reads the command 0 again, no packet reaches the core and nothing is delivered.
Missing: a refusal since the layout is not safe, see `C115_refuted`. -/
theorem C115_refused_partial {hw : Hw E} {env : E} {eid : Byte} {mx : Nat} {mtu : Nat} {mem : Mem}
    {c0 c c' c2 : Core (AstSt E)} (h : AstEndpoint hw env eid mx .bmc mtu mem c0) {hist hist2 : List AstOp}
    {log log2 : List AstRec} (hr : c0.astRun hw hist = .ok (c, log)) {e : List Event} {rc : Int}
    (hp : c.astStep hw .poll = .ok (c', e, rc)) {pre rest : List Access} {w : Byte} {hdr : List Byte} {r1 : Int}
    (hnew : accessesOf c' = accessesOf c ++ (pre ++ .kcsRead .status 0 w :: .kcsRead .data 0 0 :: .lpcRead 0 hdr r1 :: rest))
    (hbad : ¬ (0 < field16 hdr 8 ∧ ∃ v, CommonVersion 1 3 (field16 hdr 8) (field16 hdr 10) v))
    (hr2 : c'.astRun hw hist2 = .ok (c2, log2)) {later : List Access} (hl : accessesOf c2 = accessesOf c' ++ later)
    (hno : Access.kcsRead .data 0 0 ∉ later) :
    NothingReceived e ∧ NothingReceived (astEvents log2) := by
  obtain ⟨bus, hb, hbr, hj⟩ := h.reached hr
  obtain ⟨bus', hb', hbr', hj'⟩ := astStep_inv hb hbr hj hp
  rw [accessesOf_single hb, accessesOf_single hb'] at hnew
  have hp : c.astPoll hw 0 = .ok (c', e, rc) := hp
  have hmode : bus.binding.st.mode = .bmc := hj.1.mode
  obtain ⟨hpre, s, hs, hjs, hpost, hcase⟩ := poll_split hb hbr hj hp hb' hnew
  rcases hcase with ⟨⟨-, h0, -⟩, -⟩ | ⟨-, -, c1, e1, rc1, stop, bus1, hcmd, hb1, hj1, hfin⟩
  · exact absurd rfl h0
  unfold Core.astCommand at hcmd
  obtain ⟨bus2, hbus2, hcmd⟩ := Res.bind_eq_ok.mp hcmd
  obtain ⟨-, rfl⟩ := busAt_single rfl hbus2
  rw [if_pos (show (0 : Byte) = cmdInitialise from rfl)] at hcmd
  obtain ⟨⟨c3, e3⟩, hini, hcmd⟩ := Res.bind_eq_ok.mp hcmd
  simp only [Except.ok.injEq, Prod.mk.injEq] at hcmd
  obtain ⟨rfl, rfl, rfl, rfl⟩ := hcmd
  unfold Core.astInitChannel at hini
  obtain ⟨bus3, hbus3, hini⟩ := Res.bind_eq_ok.mp hini
  obtain ⟨-, rfl⟩ := busAt_single rfl hbus3
  obtain ⟨⟨on, b⟩, hic, hini⟩ := Res.bind_eq_ok.mp hini
  simp only at hini hic
  rw [setBinding_single rfl] at hini
  have hc' : c' = c3 ∧ e = e3 := by
    rcases hfin with ⟨h, -⟩ | ⟨-, e2', haf, rfl⟩
    · cases h
    · unfold Core.astAfter at haf
      rw [if_neg (by rw [hmode]; simp)] at haf
      simp only [Except.ok.injEq, Prod.mk.injEq] at haf
      exact ⟨haf.1.symm, by rw [← haf.2.1, List.append_nil]⟩
  obtain ⟨hc', rfl⟩ := hc'
  obtain ⟨q1, hdr', mid, q2, n, fin, l, haccs, hmid, hset, hn, -, hfin', hta, -⟩ := initChannel_view hic
  have hab : Adds s b.st (.lpcRead 0 hdr' q1 :: (mid ++ .lpcWrite 12 (be16 n) q2 :: l)) := by
    unfold Adds; rw [haccs]; simp
  have hrest : ∃ lt, Adds b.st bus'.binding.st lt ∧ bus'.binding.st.proto = b.st.proto ∧ ∀ x ∈ e, IsTxEvent x := by
    have hev := setTxEnabled_events hini
    cases on with
    | false =>
      obtain ⟨-, -, hcc⟩ := setTxEnabled_false rfl hini
      have : bus'.binding = b := by
        have hx := congrArg Core.busses (hc'.trans hcc)
        rw [hb'] at hx
        simp only [List.cons.injEq, and_true] at hx
        rw [hx]
      exact ⟨[], by rw [this]; exact Adds.refl _, by rw [this], hev⟩
    | true =>
      obtain ⟨hi1, -, -, -, hsafe⟩ := initChannel_inv hjs.1 hic
      obtain ⟨bus4, m, hc4, hto, hj4, -⟩ := setTxEnabled_only rfl hi1 (fun h => ⟨hta, by obtain ⟨v, _, _, hs⟩ := hsafe h; exact hs.one⟩) hini
      obtain ⟨lt, hat, -⟩ := hto.adds
      have : bus' = bus4 := by
        have hx : c'.busses = [bus4] := by rw [hc', hc4]
        rw [hb'] at hx; simpa using hx
      subst this
      exact ⟨lt, hat, hto.prot, hev⟩
  obtain ⟨lt, hat, hpro, hev⟩ := hrest
  have heq := hpost.inj (hab.trans hat)
  simp only [List.cons_append, List.append_assoc, List.cons.injEq, Access.lpcRead.injEq, true_and] at heq
  obtain ⟨⟨rfl, rfl⟩, heq⟩ := heq
  have hzero : negotiateVersion 1 3 (field16 hdr 8) (field16 hdr 10) = 0 := by
    rcases negotiateVersion_spec 1 3 (field16 hdr 8) (field16 hdr 10) with ⟨h0, -⟩ | ⟨-, hc, hcom, -⟩
    · exact h0
    · exact absurd ⟨hc, _, hcom⟩ hbad
  have hmute : Mute bus'.binding.st := by
    right
    rw [hpro, initChannel_proto hic hab, hzero]
  obtain ⟨bus2, l2, hb2, ha2, hq⟩ := astRun_mute hb' hbr' hj' hr2
  rw [accessesOf_single hb', accessesOf_single hb2] at hl
  have : l2 = later := by
    unfold Adds at ha2
    rw [ha2] at hl
    exact List.append_cancel_left hl
  subst this
  exact ⟨nothingReceived_tx hev, nothingReceived_tx (hq hno hmute).2.2⟩

/-- The hypotheses of `C115_unasked_partial` are met: a host that did not ask for a channel, and announces a packet; the
packet is in the window.  It is not looked at. -/
example : (AstDemo.look .bmc 64
      { stat := [(0, 2), (0, 2)], data := [(0, 1), (0, 1)], reads := [be32 5, [1, 8, 9, 0xc8, 1] ++ be32 (crc32 [1, 8, 9, 0xc8, 1]).toNat] }
      [.poll, .poll]).map (fun x => (x.1.map AstRec.evs, x.2.1.drop 3)) =
    some ([[], []], [.kcsRead .status 0 2, .kcsRead .data 0 1, .kcsRead .status 0 2, .kcsRead .data 0 1]) := by
  decide +kernel

/-- The hypotheses of `C115_refused_partial` are met: a host that supports versions 4 to 7 only; it announces a packet
all the same. -/
example : (AstDemo.look .bmc 64
      { stat := [(0, 2), (0, 2)], data := [(0, 0), (0, 1)], reads := [AstDemo.header 1 3 4 7 0 256 76 332 76, be32 5, [1, 8, 9, 0xc8, 1]] }
      [.poll, .poll]).map (fun x => (x.1.map AstRec.evs, x.2.1.drop 3)) =
    some ([[], []], [.kcsRead .status 0 2, .kcsRead .data 0 0,
      .lpcRead 0 (AstDemo.header 1 3 4 7 0 256 76 332 76) 0, .lpcWrite 12 (be16 0) 0, .kcsWrite .status 0x81 0,
      .kcsWrite .data 255 0, .kcsRead .status 0 2, .kcsRead .data 0 1]) := by
  decide +kernel

/-- A host whose buffers overlap asks for a channel, is refused, and announces a packet. -/
def AstDemo.overlapScript : AstDemo.Script :=
  { stat := [(0, 2), (0, 2), (0, 0)], data := [(0, 0), (0, 1)],
    reads := [AstDemo.header 1 3 1 3 0 256 80 300 80, AstDemo.header 1 3 1 3 0 256 80 300 80, be32 5,
      [1, 8, 9, 0xc8, 1] ++ be32 (crc32 [1, 8, 9, 0xc8, 1]).toNat] }

/-- Two polls after the registration: the accesses made so far, and the events of the poll. -/
def AstDemo.twoPolls (mode : AstMode) (s : AstDemo.Script) : Option (List Access × List Event × List Access × List Event × List Access) :=
  match AstDemo.register mode 64 s with
  | .ok (c0, rc) =>
    if rc < 0 then none else
    match c0.astStep AstDemo.hw .poll with
    | .ok (c1, e1, _) =>
      match c1.astStep AstDemo.hw .poll with
      | .ok (c2, e2, _) => some (accessesOf c0, e1, accessesOf c1, e2, accessesOf c2)
      | .error _ => none
    | .error _ => none
  | .error _ => none

theorem AstDemo.twoPolls_ok {mode : AstMode} {s : AstDemo.Script} {a0 a1 a2 : List Access} {e1 e2 : List Event}
    (h : AstDemo.twoPolls mode s = some (a0, e1, a1, e2, a2)) :
    ∃ c0 c1 c2 rc1 rc2, AstEndpoint AstDemo.hw s 8 65536 mode 64 {} c0 ∧ c0.astStep AstDemo.hw .poll = .ok (c1, e1, rc1) ∧
      c1.astStep AstDemo.hw .poll = .ok (c2, e2, rc2) ∧ accessesOf c0 = a0 ∧ accessesOf c1 = a1 ∧ accessesOf c2 = a2 := by
  unfold AstDemo.twoPolls at h
  split at h
  · rename_i c0 rc hreg
    split at h
    · cases h
    · rename_i hrc
      split at h
      · rename_i c1 e1' rc1 h1
        split at h
        · rename_i c2 e2' rc2 h2
          simp only [Option.some.injEq, Prod.mk.injEq] at h
          obtain ⟨rfl, rfl, rfl, rfl, rfl⟩ := h
          exact ⟨c0, c1, c2, rc1, rc2, AstDemo.endpoint (by decide) hreg (by omega), h1, h2, rfl, rfl, rfl⟩
        · cases h
      · cases h
  · cases h

theorem AstDemo.overlap_polls :
    (AstDemo.twoPolls .bmc AstDemo.overlapScript).map (fun x => (x.1, x.2.2.1.drop 3, packetsIn x.2.2.2.1, x.2.2.2.2.drop 10)) =
      some ((AstDemo.twoPolls .bmc AstDemo.overlapScript).elim [] (fun x => x.2.2.1.take 3),
        [.kcsRead .status 0 2, .kcsRead .data 0 0, .lpcRead 0 (AstDemo.header 1 3 1 3 0 256 80 300 80) 0,
        .lpcRead 0 (AstDemo.header 1 3 1 3 0 256 80 300 80) 0, .lpcWrite 12 (be16 0) 0, .kcsWrite .status 0x81 0,
        .kcsWrite .data 255 0], [[1, 8, 9, 0xc8, 1]], [.kcsRead .status 0 2, .kcsRead .data 0 1, .lpcRead 332 (be32 5) 0,
        .lpcRead 336 ([1, 8, 9, 0xc8, 1] ++ be32 (crc32 [1, 8, 9, 0xc8, 1]).toNat) 0, .kcsRead .status 0 0, .kcsWrite .data 2 0]) ∧
    (AstDemo.twoPolls .bmc AstDemo.overlapScript).map (fun x => x.2.2.2.2.take 10) =
      (AstDemo.twoPolls .bmc AstDemo.overlapScript).map (fun x => x.2.2.1) := by
  decide +kernel

/-- C115 does not hold: the BMC refuses the channel since the buffers the host asks for overlap: it writes the negotiated version
0 and a status without Channel-Active.  But it goes on as with a version 3 channel: in the next poll it
reads a transmit-begin, takes the packet that is in its receive buffer, hands it to the core, and hands the buffer back. -/
theorem C115_refuted :
    ∃ (s : AstDemo.Script) (c0 c1 c2 : Core (AstSt AstDemo.Script)) (e1 e2 : List Event) (rc1 rc2 : Int) (hdr : List Byte),
      AstEndpoint AstDemo.hw s 8 65536 .bmc 64 {} c0 ∧
      c0.astStep AstDemo.hw .poll = .ok (c1, e1, rc1) ∧ c1.astStep AstDemo.hw .poll = .ok (c2, e2, rc2) ∧
      accessesOf c1 = accessesOf c0 ++ [.kcsRead .status 0 2, .kcsRead .data 0 0, .lpcRead 0 hdr 0, .lpcRead 0 hdr 0,
        .lpcWrite 12 (be16 0) 0, .kcsWrite .status 0x81 0, .kcsWrite .data 255 0] ∧
      Refused hdr [.lpcRead 0 hdr 0, .lpcWrite 12 (be16 0) 0, .kcsWrite .status 0x81 0, .kcsWrite .data 255 0] ∧
      (∃ later, accessesOf c2 = accessesOf c1 ++ later ∧ Access.kcsRead .data 0 0 ∉ later ∧ Access.kcsWrite .data 2 0 ∈ later) ∧
      packetsIn e2 = [[1, 8, 9, 0xc8, 1]] := by
  have hk := AstDemo.overlap_polls
  cases ht : AstDemo.twoPolls .bmc AstDemo.overlapScript with
  | none => rw [ht] at hk; simp at hk
  | some x =>
    obtain ⟨a0, e1, a1, e2, a2⟩ := x
    rw [ht] at hk
    simp only [Option.map_some, Option.elim_some, Option.some.injEq, Prod.mk.injEq] at hk
    obtain ⟨⟨h0, h1, hp, h2⟩, h3⟩ := hk
    obtain ⟨c0, c1, c2, rc1, rc2, hep, hs1, hs2, rfl, rfl, rfl⟩ := AstDemo.twoPolls_ok ht
    refine ⟨_, c0, c1, c2, e1, e2, rc1, rc2, AstDemo.header 1 3 1 3 0 256 80 300 80, hep, hs1, hs2, ?_, ?_, ⟨(accessesOf c2).drop 10, ?_, ?_, ?_⟩, hp⟩
    · rw [h0, ← h1]; exact (List.take_append_drop 3 _).symm
    · refine .inr ⟨_, 0, _, rfl, .inr ?_⟩
      rw [show field32 (AstDemo.header 1 3 1 3 0 256 80 300 80) 16 = 256 by decide +kernel,
        show field32 (AstDemo.header 1 3 1 3 0 256 80 300 80) 20 = 80 by decide +kernel,
        show field32 (AstDemo.header 1 3 1 3 0 256 80 300 80) 24 = 300 by decide +kernel,
        show field32 (AstDemo.header 1 3 1 3 0 256 80 300 80) 28 = 80 by decide +kernel]
      unfold SafeLayout Apart
      omega
    · rw [← h3]; exact (List.take_append_drop 10 _).symm
    · rw [h2]; decide +kernel
    · rw [h2]; decide +kernel

/-! ## C116: the host -/

/-- C116, what is true: as long as a host has not read one of the versions 1..3 as the negotiated version from the header (bytes 12 and
13; it reads them when it looks whether the channel has been set up), nor the command 0 from the data register, no packet reaches the core and
nothing is delivered, whatever else is in the registers and in the window.
Missing: the status may show no active channel all the time, see `C116_refuted`. -/
theorem C116_unagreed_partial {hw : Hw E} {env : E} {eid : Byte} {mx : Nat} {mtu : Nat} {mem : Mem}
    {c0 c : Core (AstSt E)} (h : AstEndpoint hw env eid mx .host mtu mem c0) {hist : List AstOp} {log : List AstRec}
    (hr : c0.astRun hw hist = .ok (c, log)) {new : List Access} (hnew : accessesOf c = accessesOf c0 ++ new)
    (hno : ∀ v r, Access.lpcRead 12 v r ∈ new → 0 ≤ r → ¬ (1 ≤ fromBe v ∧ fromBe v ≤ 3))
    (hno0 : Access.kcsRead .data 0 0 ∉ new) : NothingReceived (astEvents log) := by
  obtain ⟨bus, hb, hbr, hj⟩ := h.inv
  obtain ⟨bus2, l, hb2, ha, hq⟩ := astRun_idle hb hbr hj hr
  rw [accessesOf_single hb, accessesOf_single hb2] at hnew
  have : l = new := by
    unfold Adds at ha
    rw [ha] at hnew
    exact List.append_cancel_left hnew
  subst this
  refine nothingReceived_tx (hq hno0 ?_ (h.idle hb)).2
  intro a ha hv
  unfold ReadsVersion at hv
  split at hv
  · obtain ⟨rfl, h1, h2⟩ := hv
    exact hno _ _ ha h1 h2
  · exact hv

/-- A host that finds the negotiated version `ver` in the header at its first poll, and at the second poll a transmit-begin and a
packet.  No status shows an active channel. -/
def AstDemo.staleScript (ver : Nat) : AstDemo.Script :=
  { stat := [(0, 0x80), (0, 0x81), (0, 0x81), (0, 0x80)], data := [(0, 255), (0, 1)],
    reads := [AstDemo.hdr64, AstDemo.hdr64, be16 ver] ++ (if ver = 0 then [] else [AstDemo.hdr64neg]) ++
      [be32 5, [1, 9, 8, 0xc8, 1] ++ be32 (crc32 [1, 9, 8, 0xc8, 1]).toNat] }

/-- The hypotheses of `C116_unagreed_partial` are met: the negotiated version is 0, and the packet is not looked at. -/
example : (AstDemo.twoPolls .host (AstDemo.staleScript 0)).map (fun x => (x.2.1, x.2.2.2.1, x.2.2.2.2.drop x.1.length)) =
    some ([], [], [.kcsRead .status 0 0x81, .kcsRead .data 0 255, .lpcRead 12 [0, 0] 0, .kcsRead .status 0 0x81, .kcsRead .data 0 1]) := by
  decide +kernel

theorem AstDemo.stale_polls :
    (AstDemo.twoPolls .host (AstDemo.staleScript 3)).map (fun x => (packetsIn x.2.2.2.1,
      x.2.2.2.2.all fun a => match a with | .kcsRead .status _ v => !v.getLsbD 6 | .kcsRead .data _ v => v != 0 | _ => true)) =
      some ([[1, 9, 8, 0xc8, 1]], true) := by
  decide +kernel

/-- C116 does not hold: a host delivers a packet although no status it has ever read has Channel-Active (bit 6) set, and it has
not read the command 0 either.  It looks for the negotiated version whenever it has none, and if it finds one, it hands the
receive buffer over, whatever the status says. -/
theorem C116_refuted :
    ∃ (s : AstDemo.Script) (c0 c1 c2 : Core (AstSt AstDemo.Script)) (e1 e2 : List Event) (rc1 rc2 : Int),
      AstEndpoint AstDemo.hw s 8 65536 .host 64 {} c0 ∧
      c0.astStep AstDemo.hw .poll = .ok (c1, e1, rc1) ∧ c1.astStep AstDemo.hw .poll = .ok (c2, e2, rc2) ∧
      (∀ v r, Access.kcsRead .status r v ∈ accessesOf c2 → v.getLsbD 6 = false) ∧
      (∀ r, Access.kcsRead .data r 0 ∉ accessesOf c2) ∧
      packetsIn e2 = [[1, 9, 8, 0xc8, 1]] := by
  have hk := AstDemo.stale_polls
  cases ht : AstDemo.twoPolls .host (AstDemo.staleScript 3) with
  | none => rw [ht] at hk; simp at hk
  | some x =>
    obtain ⟨a0, e1, a1, e2, a2⟩ := x
    rw [ht] at hk
    simp only [Option.map_some, Option.some.injEq, Prod.mk.injEq] at hk
    obtain ⟨hp, hall⟩ := hk
    obtain ⟨c0, c1, c2, rc1, rc2, hep, hs1, hs2, rfl, rfl, rfl⟩ := AstDemo.twoPolls_ok ht
    rw [List.all_eq_true] at hall
    refine ⟨_, c0, c1, c2, e1, e2, rc1, rc2, hep, hs1, hs2, ?_, ?_, hp⟩
    · intro v r hm
      have := hall _ hm
      simpa using this
    · intro r hm
      have := hall _ hm
      simp at this

end Mctp
