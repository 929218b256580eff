import Verif.Props.LinkLive

/-!
# Does the channel come up? (C94)

The same setting as for C93.  One expects that when both sides keep polling the handshake completes and both sides
accept messages.  For the host this is false.
-/

namespace Mctp

open Spec

variable {E : Type}

/-- `mctp_message_tx` succeeds. -/
def Sendable (hw : Hw E) (c : Core (AstSt E)) : Prop :=
  ∀ dest own tag msg, tag.toNat < 8 → ∀ c' e rc, c.astStep hw (.send dest own tag msg) = .ok (c', e, rc) → rc = 0

/-- `mctp_message_tx` refuses every message and does nothing. -/
def Unsendable (hw : Hw E) (c : Core (AstSt E)) : Prop :=
  ∀ dest own tag msg, tag.toNat < 8 → c.astStep hw (.send dest own tag msg) = .ok (c, [], -ENXIO)

theorem sendable {hw : Hw E} {c : Core (AstSt E)} {bus : Bus (AstSt E)} (hb : c.busses = [bus]) (hs : bus.state = .txEnabled) : Sendable hw c := by
  intro dest own tag msg ht c' e rc h
  have htag : tag &&& 0x7 = tag := by
    have key : ∀ t : Byte, t.toNat < 8 → t &&& 0x7 = t := by decide +kernel
    exact key tag ht
  simp only [Core.astStep, AstOp.core, Core.step, Core.messageTx, htag, ne_eq, not_true_eq_false, if_false] at h
  split at h
  · cases h; rfl
  · obtain ⟨b1, h1, h⟩ := Res.bind_eq_ok.mp h
    unfold Core.messageTxOnBus at h
    obtain ⟨b2, h2, h⟩ := Res.bind_eq_ok.mp h
    obtain ⟨-, rfl⟩ := busAt_single hb h2
    rw [hs] at h
    simp only [htag, ne_eq, not_true_eq_false, if_false, reduceCtorEq] at h
    split at h
    · cases h
    · obtain ⟨⟨m, q⟩, -, h⟩ := Res.bind_eq_ok.mp h
      obtain ⟨⟨c2, e2⟩, -, h⟩ := Res.bind_eq_ok.mp h
      cases h; rfl

section

variable {EB EH : Type} {hwB : Hw EB} {envB : EB} {eidB : Byte} {mxB mtuB : Nat} {memB : Mem} {b0 cB : Core (AstSt EB)} {histB : List AstOp} {nB : Nat} {logB : List AstRec}
    {hwH : Hw EH} {envH : EH} {eidH : Byte} {mxH mtuH : Nat} {memH : Mem} {h0 cH : Core (AstSt EH)} {histH : List AstOp} {nH : Nat} {logH : List AstRec}
    {wr : Bool} {win : Nat → Byte} {h : Lpc}

/-- **C94** (what holds) After the rounds of C93 both sides have agreed on version 3 and the host's MTU, both have `mctp_astlpc_tx_done`, and the BMC
accepts messages; the host accepts messages if the BMC has sent it a packet. -/
theorem C94_channel_up_partial {T0 T1 : List (AstMode × Access)} {Rs : List (List (AstMode × Access))}
    (hB : AstEndpoint hwB envB eidB mxB .bmc mtuB memB b0) (rB : b0.astRun hwB (histB ++ List.replicate nB .poll) = .ok (cB, logB))
    (hH : AstEndpoint hwH envH eidH mxH .host mtuH memH h0) (rH : h0.astRun hwH (histH ++ List.replicate nH .poll) = .ok (cH, logH))
    (hmemB : ∀ n, memB.ok n = true) (hmemH : ∀ n, memH.ok n = true) (hl : Linked wr win (T0 ++ (Rs.flatten ++ T1)) h cB cH)
    (hrounds : ∀ i (hi : i < Rs.length), WholePoll hwB b0 histB nB .bmc (T0 ++ (Rs.take i).flatten) Rs[i] ∧
      WholePoll hwH h0 histH nH .host (T0 ++ (Rs.take i).flatten) Rs[i])
    (hmany : 4 * ((acceptedPackets eidB mtuH logB).length + (acceptedPackets eidH mtuH logH).length) + 15 ≤ Rs.length) :
    (∃ busB busH, cB.busses = [busB] ∧ cH.busses = [busH] ∧ busB.binding.st.proto = some 3 ∧ busH.binding.st.proto = some 3 ∧
      busB.binding.pktSize = mtuH + 4 ∧ busH.binding.pktSize = mtuH + 4 ∧ astTxDone busB.binding.st = true ∧ astTxDone busH.binding.st = true) ∧
    Sendable hwB cB ∧ (acceptedPackets eidB mtuH logB ≠ [] → Sendable hwH cH) := by
  obtain ⟨⟨-, g1, -, -⟩, b, t, restB, restH, J, d, oB, oH, tB, tH⟩ := comes_to_rest hB rB hH rH hmemB hmemH hl hrounds hmany
  obtain ⟨busB, b1, b2, b3, b4, b5, -⟩ := restB.up oB tB
  obtain ⟨busH, h1, h2, h3, h4, h5, -⟩ := restH.up oH tH
  simp only [cfgB, cfgH] at b4 h4
  refine ⟨⟨busB, busH, b1, h1, b3, h3, by omega, by omega, by simp [astTxDone, b2], by simp [astTxDone, h2]⟩, sendable b1 (b5 J.bs.2.1), fun hne => ?_⟩
  refine sendable h1 (h5 ?_)
  cases hst : t.stale with
  | false => rfl
  | true =>
    exfalso
    obtain ⟨_, -, -, -, r, -, -⟩ := restH
    have := d.st hst (by rw [r.fin]; rfl)
    rw [← g1] at hne
    have hg : gotBy logH = t.got.filterMap recvd := r.got
    rw [hg, this] at hne
    exact hne rfl

end

theorem astRun_trans {hw : Hw E} : ∀ {h1 h2 : List AstOp} {c c1 c2 : Core (AstSt E)} {l1 l2 : List AstRec},
    c.astRun hw h1 = .ok (c1, l1) → c1.astRun hw h2 = .ok (c2, l2) → c.astRun hw (h1 ++ h2) = .ok (c2, l1 ++ l2)
  | [], _, c, _, _, _, _, h, h' => by
    simp only [Core.astRun, Except.ok.injEq, Prod.mk.injEq] at h
    obtain ⟨rfl, rfl⟩ := h
    exact h'
  | op :: h1, h2, c, c1, c2, l1, l2, h, h' => by
    simp only [List.cons_append, Core.astRun] at h ⊢
    obtain ⟨⟨d, e1, rc1⟩, hs, h⟩ := Res.bind_eq_ok.mp h
    obtain ⟨⟨d', log2⟩, hr, h⟩ := Res.bind_eq_ok.mp h
    simp only [Except.ok.injEq, Prod.mk.injEq] at h
    obtain ⟨rfl, rfl⟩ := h
    exact Res.bind_eq_ok.mpr ⟨_, hs, Res.bind_eq_ok.mpr ⟨_, astRun_trans hr h', rfl⟩⟩

theorem lpc_run_trans {wr : Bool} : ∀ {T T' : List (AstMode × Access)} {h h1 : Lpc}, Lpc.run wr h T = some h1 →
    Lpc.run wr h (T ++ T') = Lpc.run wr h1 T'
  | [], _, h, _, hr => by cases hr; rfl
  | (side, a) :: T, T', h, h1, hr => by
    simp only [List.cons_append, Lpc.run] at hr ⊢
    split at hr
    · rename_i ha
      exact lpc_run_trans hr
    · cases hr

namespace LinkDemo

open AstDemo

/-- As `replay`; when the list is used up the status register reads 0xc0 for ever. -/
def calm : Hw (List Access) where
  kcsRead e _ := match e with
    | [] => (0, 0xc0, [])
    | .kcsRead _ rc v :: rest => (rc, v, rest)
    | e => (0, 0, e.tail)
  kcsWrite := replay.kcsWrite
  lpcRead := replay.lpcRead
  lpcWrite := replay.lpcWrite

/-- The host polls as soon as it is registered.  It reads the status while the BMC has not yet seen the host's request;
before it reads the data register the BMC has set up the channel.  The data register, written twice, is read once. -/
def race : List (AstMode × Access) :=
  [-- mctp_register_bus on the BMC
   (.bmc, .lpcWrite 0 (header 1 3 0 0 0 256 76 332 76) 0), (.bmc, .kcsWrite .status 0x80 0), (.bmc, .kcsWrite .data 0xff 0),
   -- mctp_register_bus on the host
   (.host, .kcsRead .status 0 0x81), (.host, .lpcRead 0 (header 1 3 0 0 0 256 76 332 76) 0),
   (.host, .lpcRead 0 (header 1 3 0 0 0 256 76 332 76) 0), (.host, .lpcWrite 20 (be32 76) 0), (.host, .lpcWrite 8 (be16 1) 0),
   (.host, .lpcWrite 10 (be16 3) 0), (.host, .kcsWrite .data 0 0),
   -- the host polls
   (.host, .kcsRead .status 0 0x83),
   -- the BMC polls
   (.bmc, .kcsRead .status 0 0x83), (.bmc, .kcsRead .data 0 0), (.bmc, .lpcRead 0 hdr64 0), (.bmc, .lpcRead 0 hdr64 0),
   (.bmc, .lpcWrite 16 (be32 256 ++ be32 76 ++ be32 332 ++ be32 76) 0), (.bmc, .lpcWrite 12 (be16 3) 0),
   (.bmc, .kcsWrite .status 0xc1 0), (.bmc, .kcsWrite .data 0xff 0),
   -- the host's poll goes on
   (.host, .kcsRead .data 0 0xff), (.host, .lpcRead 12 (be16 3) 0), (.host, .lpcRead 0 hdr64neg 0)]

/-- A round after that. -/
def still : List (AstMode × Access) := [(.host, .kcsRead .status 0 0xc0), (.bmc, .kcsRead .status 0 0xc0)]

/-- Nothing to do for this side but to look at the status. -/
structure AtPeace (a : List Access) (st : BusState) (c : Core (AstSt (List Access))) : Prop where
  bus : ∃ bus, c.busAt 0 = .ok bus ∧ c.busses = [bus] ∧ bus.binding.st.env = [] ∧ astPollOut bus.binding.st = false ∧
    bus.binding.st.accs = a ∧ bus.state = st
  nb  : c.nBusses = 1

theorem AtPeace.poll {a : List Access} {st : BusState} {c : Core (AstSt (List Access))} (h : AtPeace a st c) :
    ∃ c', c.astPoll calm 0 = .ok (c', [], 0) ∧ AtPeace (a ++ [.kcsRead .status 0 0xc0]) st c' := by
  obtain ⟨⟨bus, h1, h2, h3, h4, h5, h6⟩, h7⟩ := h
  have hq : kcsReady bus.binding.st.mode 0xc0 false = false := by cases bus.binding.st.mode <;> decide
  have hk : kcsRead calm bus.binding.st .status =
      (0, 0xc0, { bus.binding.st with env := [], log := bus.binding.st.log ++ [⟨bus.binding.st.rx, bus.binding.st.tx, .kcsRead .status 0 0xc0⟩] }) := by
    simp only [kcsRead, calm, h3]
  unfold Core.astPoll
  rw [h1]
  simp only [Res.bind_ok, astRetry_none h4, hk, hq, ne_eq, not_true_eq_false, if_false, Bool.not_false, if_true]
  rw [setSt_single h2]
  refine ⟨_, rfl, ⟨⟨_, ?_, rfl, rfl, h4, ?_, h6⟩, h7⟩⟩
  · unfold Core.busAt at h1 ⊢
    split at h1
    · rename_i hlt
      rw [if_pos hlt]
      simp only at h1 ⊢
      split at h1
      · cases h1
      · rename_i hd
        rfl
    · cases h1
  · show AstSt.accs _ = _
    rw [← h5]
    simp [AstSt.accs]

theorem AtPeace.polls {st : BusState} : ∀ (n : Nat) {a : List Access} {c : Core (AstSt (List Access))}, AtPeace a st c →
    ∃ c' log, c.astRun calm (List.replicate n .poll) = .ok (c', log) ∧ AtPeace (a ++ List.replicate n (.kcsRead .status 0 0xc0)) st c'
  | 0, a, c, h => ⟨c, [], rfl, by rw [List.replicate_zero, List.append_nil]; exact h⟩
  | n + 1, a, c, h => by
    obtain ⟨c1, h1, h2⟩ := h.poll
    obtain ⟨c2, log, h3, h4⟩ := AtPeace.polls n h2
    refine ⟨c2, ⟨.poll, [], 0⟩ :: log, ?_, ?_⟩
    · exact Res.bind_eq_ok.mpr ⟨_, h1, Res.bind_eq_ok.mpr ⟨_, h3, rfl⟩⟩
    · rw [List.append_assoc, List.singleton_append, ← List.replicate_succ] at h4
      exact h4

theorem AtPeace.unsendable {a : List Access} {c : Core (AstSt (List Access))} (h : AtPeace a .constructed c) : Unsendable calm c := by
  obtain ⟨⟨bus, h1, h2, h3, h4, h5, h6⟩, h7⟩ := h
  intro dest own tag msg ht
  have htag : tag &&& 0x7 = tag := by
    have key : ∀ t : Byte, t.toNat < 8 → t &&& 0x7 = t := by decide +kernel
    exact key tag ht
  simp only [Core.astStep, AstOp.core, Core.step, Core.messageTx, Core.messageTxOnBus, htag, h7, h1, h6, Res.bind_ok, ne_eq, not_true_eq_false,
    if_false, if_true, Nat.one_ne_zero]

/-- The side after its first poll: the state of its environment, whether a hand-over is outstanding, the accesses, the state of the bus; the
number of busses; whether the table of busses is allocated. -/
def first (mode : AstMode) (eid : Byte) : Option (List (List Access × Bool × List Access × BusState) × Nat × Bool) :=
  match core0.registerBus (astOps calm) (astInit (of mode race) mode 64) eid with
  | .ok (c, rc) =>
    if rc < 0 then none else
    match c.astRun calm [.poll] with
    | .ok (c, _) => some (c.busses.map fun b => (b.binding.st.env, astPollOut b.binding.st, b.binding.st.accs, b.state), c.nBusses,
        (match c.mem.deref c.bussesPtr with | .ok _ => true | .error _ => false))
    | .error _ => none
  | .error _ => none

theorem first_ok {mode : AstMode} {eid : Byte} {st : BusState} (h : first mode eid = some ([([], false, of mode race, st)], 1, true)) :
    ∃ c0 c log, AstEndpoint calm (of mode race) eid 65536 mode 64 {} c0 ∧ c0.astRun calm [.poll] = .ok (c, log) ∧ AtPeace (of mode race) st c := by
  unfold first at h
  split at h
  · rename_i c rc hreg
    split at h
    · cases h
    · rename_i hrc
      split at h
      · rename_i c' log' hrun
        refine ⟨c, c', log', ⟨fun _ => 0xaa, _, rc, by decide, rfl, hreg, by omega⟩, hrun, ?_⟩
        simp only [Option.some.injEq, Prod.mk.injEq] at h
        obtain ⟨h1, h2, h3⟩ := h
        obtain ⟨bus, hb, h1⟩ := List.map_eq_singleton_iff.mp h1
        simp only [Prod.mk.injEq] at h1
        obtain ⟨a1, a2, a3, a4⟩ := h1
        refine ⟨⟨bus, ?_, hb, a1, a2, a3, a4⟩, h2⟩
        unfold Core.busAt
        rw [if_pos (by omega)]
        split at h3
        · rename_i hd
          rw [hd, hb]; rfl
        · cases h3
      · cases h
  · cases h

set_option synthInstance.maxSize 512 in
theorem first_bmc : first .bmc 8 = some ([([], false, of .bmc race, .txEnabled)], 1, true) := by decide +kernel
set_option synthInstance.maxSize 512 in
theorem first_host : first .host 9 = some ([([], false, of .host race, .constructed)], 1, true) := by decide +kernel

theorem of_stills {side : AstMode} : ∀ n, of side (List.replicate n still).flatten = List.replicate n (.kcsRead .status 0 0xc0)
  | 0 => rfl
  | n + 1 => by
    rw [List.replicate_succ, List.flatten_cons, of_append, of_stills n, List.replicate_succ]
    cases side <;> rfl

/-- What `still` needs of the hardware. -/
theorem run_stills {h : Lpc} (hs : h.shown = 0xc0) : ∀ n, Lpc.run false h (List.replicate n still).flatten = some h
  | 0 => rfl
  | n + 1 => by
    have e : (List.replicate (n + 1) still).flatten = (.host, .kcsRead .status 0 0xc0) :: (.bmc, .kcsRead .status 0 0xc0) :: (List.replicate n still).flatten := by
      rw [List.replicate_succ, List.flatten_cons]; rfl
    rw [e]
    simp only [Lpc.run, Lpc.access, hs, and_self, if_true]
    exact run_stills hs n

theorem run_race : (Lpc.run false (Lpc.reset fun _ => 0) race).map Lpc.shown = some 0xc0 := by decide +kernel

/-- The accesses and the result of any number of polls. -/
theorem polled {mode : AstMode} {eid : Byte} {st : BusState} (h : first mode eid = some ([([], false, of mode race, st)], 1, true)) :
    ∃ c0, AstEndpoint calm (of mode race) eid 65536 mode 64 {} c0 ∧ ∀ n, ∃ c log, c0.astRun calm ([.poll] ++ List.replicate n .poll) = .ok (c, log) ∧
      AtPeace (of mode (race ++ (List.replicate n still).flatten)) st c := by
  obtain ⟨c0, c, log, h1, h2, h3⟩ := first_ok h
  refine ⟨c0, h1, fun n => ?_⟩
  obtain ⟨c', log', h4, h5⟩ := h3.polls n
  rw [of_append, of_stills]
  exact ⟨c', _, astRun_trans h2 h4, h5⟩

theorem whole_still {mode : AstMode} {n : Nat} {st : BusState} {c0 : Core (AstSt (List Access))}
    (h : ∀ n, ∃ c log, c0.astRun calm ([.poll] ++ List.replicate n .poll) = .ok (c, log) ∧ AtPeace (of mode (race ++ (List.replicate n still).flatten)) st c)
    (i : Nat) (hi : i < n) : WholePoll calm c0 [.poll] n mode (race ++ (List.replicate i still).flatten) still := by
  have acc : ∀ {a c}, AtPeace a st c → a = accessesOf c := by
    rintro a c ⟨⟨bus, -, hb, -, -, ha, -⟩, -⟩
    rw [accessesOf_single hb, ha]
  obtain ⟨c, log, h1, h2⟩ := h i
  obtain ⟨c', log', h3, h4⟩ := h (i + 1)
  refine ⟨i, c, log, c', log', [], still, [], hi, by simp, h1, by rw [List.append_nil, acc h2], h3, ?_⟩
  rw [List.append_nil, List.append_assoc, ← acc h4]
  congr 2
  rw [List.replicate_succ', List.flatten_append]
  simp

end LinkDemo

open LinkDemo in
/-- **C94** (refuted) Both sides do nothing but poll, all allocations succeed, and the number of rounds can be as large as one likes: there is
an execution in which the host still refuses every message.  (The number of rounds that C93 asks for to deliver no packets is 15.) -/
theorem C94_refuted : ∃ b0 h0, AstEndpoint calm (of .bmc race) 8 65536 .bmc 64 {} b0 ∧ AstEndpoint calm (of .host race) 9 65536 .host 64 {} h0 ∧
    (∀ n, ({} : Mem).ok n = true) ∧ ∀ n, ∃ cB logB cH logH h,
      b0.astRun calm ([.poll] ++ List.replicate n .poll) = .ok (cB, logB) ∧ h0.astRun calm ([.poll] ++ List.replicate n .poll) = .ok (cH, logH) ∧
      Linked false (fun _ => 0) (race ++ ((List.replicate n still).flatten ++ [])) h cB cH ∧
      (∀ i (hi : i < (List.replicate n still).length),
        WholePoll calm b0 [.poll] n .bmc (race ++ ((List.replicate n still).take i).flatten) (List.replicate n still)[i] ∧
        WholePoll calm h0 [.poll] n .host (race ++ ((List.replicate n still).take i).flatten) (List.replicate n still)[i]) ∧
      Unsendable calm cH := by
  obtain ⟨b0, eB, pB⟩ := polled first_bmc
  obtain ⟨h0, eH, pH⟩ := polled first_host
  refine ⟨b0, h0, eB, eH, fun _ => rfl, fun n => ?_⟩
  obtain ⟨cB, logB, rB, aB⟩ := pB n
  obtain ⟨cH, logH, rH, aH⟩ := pH n
  obtain ⟨h, hr, hs⟩ := Option.map_eq_some_iff.mp run_race
  have acc : ∀ {a st c}, AtPeace a st c → a = accessesOf c := by
    rintro a st c ⟨⟨bus, -, hb, -, -, ha, -⟩, -⟩
    rw [accessesOf_single hb, ha]
  refine ⟨cB, logB, cH, logH, h, rB, rH, ⟨?_, ?_, ?_⟩, fun i hi => ?_, aH.unsendable⟩
  · rw [List.append_nil]; exact acc aB
  · rw [List.append_nil]; exact acc aH
  · rw [List.append_nil, lpc_run_trans hr]; exact run_stills hs n
  · rw [List.length_replicate] at hi
    rw [List.getElem_replicate, List.take_replicate, Nat.min_eq_left (Nat.le_of_lt hi)]
    exact ⟨whole_still pB i hi, whole_still pH i hi⟩

end Mctp
