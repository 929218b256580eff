import Verif.Proofs.DaemonWire
import Verif.Props.DaemonMain
import Verif.Props.DaemonTrace
import Verif.Props.Util

/-!
# The capture of the binding's packets is what is on the line (C105)
-/

namespace Mctp

open Spec

variable {W V : Type}

/-- Packets of a message have a payload. -/
theorem packets_payload {ver src : Byte} {m : Msg} (hm : 1 ≤ m.mtu) : ∀ p ∈ m.packets ver src, 4 < p.length := by
  intro p hp
  unfold Msg.packets fragments at hp
  obtain ⟨i, hi, rfl⟩ := List.mem_map.mp hp
  have hi := List.mem_range.mp hi
  have hlt : i * m.mtu < m.data.length := by
    unfold nFrags at hi
    have h1 := (Nat.lt_iff_add_one_le.mp hi)
    have h2 := (Nat.le_div_iff_mul_le (by omega)).mp h1
    rw [Nat.add_mul] at h2
    omega
  unfold fragment
  simp only [List.length_append, List.length_cons, List.length_nil, List.length_take, List.length_drop]
  omega

/-- The packets a daemon with a serial binding received, and that were captured. -/
theorem serial_capture {eid : Byte} {mx : Nat} {wr : Nat → List Byte → Int} {mem : Mem} {c0 : Core SerialSt} (hA : SerialEndpoint eid mx wr mem c0)
    (hcl : Clean mem) (hw : WrOk wr) {on : Bool} {net : Net W} {w : W} {le : Int} {rs : List (Ready (Option (List Byte)))} {d : Daemon W SerialSt}
    (hr : (Daemon.init w (c0.setCapture on) le).run net serialOps serialProc rs = .ok d) :
    ∃ xs hist log, xs <+: inputs rs ∧ ((∀ r ∈ rs, r.binding ≠ some none) → AllAccepted d.log → xs = inputs rs) ∧
      LInv le (c0.setCapture on) xs d ∧ (c0.setCapture on).serialRun hist = .ok (d.core, log) ∧ (∀ op ∈ hist, OnlySends op) ∧
      sendsOf hist = clientMsgs (clientSends le d.log) ∧ serialEvents log = d.evs ∧ log.map (·.op) = hist ∧
      SerInv eid mem.live [] [] .hunt (c0.setCapture on) ∧
      Captured on d.evs ∧ OnBus 0 d.evs ∧ packetsIn d.evs = (rxRun 68 .hunt (xs.flatMap (·.getD []))).2 := by
  have hinv : SerInv eid mem.live [] [] .hunt (c0.setCapture on) := by
    obtain ⟨c', e, rc, g1, g2, -⟩ := serialStep_core (hA.serInv hcl hw) (op := .setCapture on) trivial
    simp only [Core.step, Except.ok.injEq, Prod.mk.injEq] at g1
    obtain ⟨rfl, rfl, -⟩ := g1
    exact g2
  have h0 : LInv le (c0.setCapture on) [] (Daemon.init w (c0.setCapture on) le) := by
    refine ⟨NInv.init w _ le, [], [], ?_, by simp, by simp, rfl, rfl, rfl⟩
    have := hA.hasRx
    unfold Core.setRxAll at this
    have hx : (Daemon.init w (c0.setCapture on) le).core = c0.setCapture on := by
      show { c0.setCapture on with hasRx := true } = c0.setCapture on
      unfold Core.setCapture
      conv_rhs => rw [← this]
    rw [hx]; rfl
  obtain ⟨xs, mA, p, f⟩ := run_moves hr
  have hL := LInv.moves mA h0
  have hL' := hL
  obtain ⟨hN, hist, log, a1, a2, a3, a4, a5, a6⟩ := hL
  obtain ⟨c', log', lk, k1, k2, k3, k4, k5, -⟩ := serialRun_core hinv (hist := hist) (fun o ho => (a2 _ ho).app o rfl)
  rw [a1] at k1
  simp only [Except.ok.injEq, Prod.mk.injEq] at k1
  obtain ⟨rfl, rfl⟩ := k1
  obtain ⟨q1, q2⟩ := serialRun_captured hinv a2 a1
  refine ⟨xs, hist, log, p, ?_, by simpa using hL', a1, a2, a4, a6, k2, hinv, by rw [← a6]; exact q1, by rw [← a6]; exact q2, ?_⟩
  · intro hno
    refine f fun x hx c c' e rc hp => ?_
    cases x with
    | none =>
      exfalso
      unfold inputs at hx
      obtain ⟨r, hr1, hr2⟩ := List.mem_filterMap.mp hx
      exact hno r hr1 hr2
    | some bs =>
      simp only [serialProc, Core.serialRead] at hp
      obtain ⟨⟨c1, e1⟩, -, hp⟩ := Res.bind_eq_ok.mp hp
      simp only [Except.ok.injEq, Prod.mk.injEq] at hp
      exact hp.2.2.symm
  · rw [← a6, k5, a5]; simp

/-- The bytes written by a daemon with a serial binding. -/
theorem serial_written {eid : Byte} {wr : Nat → List Byte → Int} {mem : Mem} {c0 c : Core SerialSt} {mx : Nat} (hA : SerialEndpoint eid mx wr mem c0) (hw : WrGood wr)
    {on : Bool} (hinv : SerInv eid mem.live [] [] .hunt (c0.setCapture on)) {hist : List SerialOp} {log : List SerialRec}
    (hr : (c0.setCapture on).serialRun hist = .ok (c, log)) (hs : ∀ op ∈ hist, OnlySends op) (hl : log.map (·.op) = hist) :
    wireOf c = ((offers 0 (serialEvents log)).map (·.pkt)).flatMap frame ∧
      (offers 0 (serialEvents log)).map (·.pkt) = (sendsOf hist).flatMap (Msg.packets 1 eid) := by
  obtain ⟨pat, _, hba⟩ := hA.bus
  have hsendInv : SendInv 1 eid [] ⟨.opened, [], 68⟩ [] (c0.setCapture on) :=
    ⟨_, hba, rfl, rfl, rfl, hw, rfl, by intro o ho; cases ho⟩
  have hh : SerialHist hist := fun o ho => (hs _ ho).app o rfl
  obtain ⟨sA, hA1, ⟨ba, hA2, hA3, hA4, hA5, hA6⟩, hA7⟩ := serialRun_send hinv hsendInv hh hr
  obtain ⟨k1, k2⟩ := txRun_drains hA1 (by
    intro r hr'
    exact hs _ (by rw [← hl]; exact List.mem_map_of_mem hr')) rfl rfl (by
    intro o ho; rw [← hA7] at ho; exact hA6.2.2 o (by simpa using ho))
  have k2' : accepted 68 (coreLog log) = sendsOf hist := by rw [k2, hl]; rfl
  have hfifo := txRun_fifo hA1
  rw [k1] at hfifo
  have hcons : (offers 0 (serialEvents log)).filter Offer.consumed = offers 0 (serialEvents log) := by
    rw [List.filter_eq_self]
    intro o ho
    simp [Offer.consumed, (hA6.2.2 o (by simpa using ho)).1]
  have hf : (offers 0 (serialEvents log)).map (·.pkt) = (sendsOf hist).flatMap (Msg.packets 1 eid) := by
    have : consumed (coreLog log) = (offers 0 (serialEvents log)).map (·.pkt) := by
      unfold consumed
      rw [show (coreLog log).flatMap (·.evs) = events (coreLog log) from rfl, ← hA7, hcons]
    rw [← this, ← k2']
    simpa using hfifo
  refine ⟨?_, hf⟩
  have : wireOf c = ba.binding.st.wire := by simp [wireOf, hA2]
  rw [this, hA6.2.1]
  simp only [List.nil_append]
  rw [hcons]

/-- The start of a daemon with a serial binding. -/
theorem serialMain_run {mem : Mem} (hcl : Clean mem) {fill : Nat → Byte} {core : Core SerialSt} (h0 : Core.init SerialSt mem fill = some core)
    {wr : Nat → List Byte → Int} {pat : Nat} (hpat : 256 ≤ pat) {boot : Boot} {net : Net W} {s : Settings} {n : Nat} {w : W}
    {wakes : List (Wake (Option (List Byte)))} {l : Life W SerialSt}
    (h : daemonMain boot net serialOps (some (serialDef wr pat)) s n core w wakes = .ok l) {d : Daemon W SerialSt} (hd : l.daemon = some d) :
    ∃ c0 rs post, SerialEndpoint (BitVec.ofInt 8 s.localEid) defaultMaxMessageSize wr mem c0 ∧ wakes = rs.map .ready ++ post ∧
      (Daemon.init w (c0.setCapture s.capBinding.isSome) s.localEid).run net serialOps serialProc rs = .ok d ∧
      (l.status = none → post = []) ∧ (l.status = some 0 → ∃ after, post = .signal true :: after) ∧
      (l.status = none ∨ l.status = some 0 → (∀ r ∈ rs, r.binding ≠ some none) ∧ AllAccepted d.log) := by
  obtain ⟨bd', c, rs, post, hst, hwk, hrun, hpost⟩ := (C97_loop h).2 d hd
  have hbd : bd' = serialDef wr pat := by have := hst.known; simpa using this.symm
  subst hbd
  obtain ⟨hnb, hmx, hmok, hcap⟩ : core.nBusses = 0 ∧ core.setMaxMessageSize defaultMaxMessageSize = core ∧ core.mem.ok core.mem.next = true ∧ core.hasCapture = false := by
    obtain ⟨id, m, ha, rfl⟩ := init_ok h0
    refine ⟨rfl, rfl, ?_, rfl⟩
    have e1 := congrArg (fun x => x.2.ok) ha
    simp only at e1 ⊢
    rw [← e1]
    unfold Mem.alloc
    split <;> exact hcl.1 _
  have hreg : ∃ c1, core.registerBus serialOps (serialInit wr pat) (BitVec.ofInt 8 s.localEid) = .ok (c1, 0) := by
    unfold Core.registerBus
    rw [if_neg (by simpa using hnb)]
    simp only [Mem.alloc, hmok, if_true, startBus, serialOps, Res.bind_ok]
    rw [if_neg (by decide)]
    exact ⟨_, rfl⟩
  obtain ⟨c1, hreg⟩ := hreg
  have hend : SerialEndpoint (BitVec.ofInt 8 s.localEid) defaultMaxMessageSize wr mem { c1 with hasRx := true, hasCapture := core.hasCapture } := by
    refine ⟨fill, core, pat, 0, h0, hpat, ?_, by simp⟩
    have := registerBus_flags serialOps core (serialInit wr pat) (BitVec.ofInt 8 s.localEid) true core.hasCapture
    rw [hreg] at this
    have he : (core.setRxAll true).setMaxMessageSize defaultMaxMessageSize = (core.setMaxMessageSize defaultMaxMessageSize).setRxAll true := rfl
    rw [he, hmx]
    exact this
  have hini := hst.init
  simp only [serialDef] at hini
  split at hini
  · exact absurd hini (by simp)
  · have := registerBus_flags serialOps core (serialInit wr pat) (BitVec.ofInt 8 s.localEid) core.hasRx (s.capBinding.isSome || core.hasCapture)
    rw [hreg] at this
    rw [withCapture_eq, this] at hini
    simp only [Except.map, Res.bind_ok, Except.ok.injEq, Prod.mk.injEq] at hini
    obtain ⟨rfl, -⟩ := hini
    refine ⟨_, rs, post, hend, hwk, ?_, hpost.1, hpost.2.1, fun hs => ⟨fun r hr hb => ?_, (hpost.2.2 hs).1⟩⟩
    · rw [hcap, Bool.or_false] at hrun
      exact hrun
    · obtain ⟨k, k', e, he⟩ := (hpost.2.2 hs).2 r hr none hb
      simp [serialDef, Core.serialRead] at he

/-- **C105** A process of the daemon with a serial binding, for every behaviour of its clients, its operating system and the line.  The capture file of the binding's
packets has the records of `capturedPackets d.evs`, and these are: without `--capture-binding`, none; with it, as outgoing packets, those whose frames make up exactly the bytes
written to the line, and as incoming packets, those of the valid frames found in the bytes read from the line (except packets without content): all bytes the line gave while the
process served events, unless a read or an accept failed (and ended it with status 1).  If the bytes read are the frames of some packets, these are the incoming ones. -/
theorem C105_file_and_line {mem : Mem} (hcl : Clean mem) {fill : Nat → Byte} {core : Core SerialSt} (h0 : Core.init SerialSt mem fill = some core)
    {wr : Nat → List Byte → Int} (hw : WrGood wr) {pat : Nat} (hpat : 256 ≤ pat) {boot : Boot} {net : Net W} {s : Settings} {n : Nat} {w : W}
    {wakes : List (Wake (Option (List Byte)))} {l : Life W SerialSt}
    (h : daemonMain boot net serialOps (some (serialDef wr pat)) s n core w wakes = .ok l) {d : Daemon W SerialSt} (hd : l.daemon = some d)
    (junk : Nat → Byte) {fmem : Mem} (hmem : ∀ n, fmem.ok n = true) :
    (∃ fmem', captureFile true junk fmem d.evs = .ok ((capturedPackets d.evs).map fun p => packetRecord p.1 p.2, fmem')) ∧
    (s.capBinding = none → capturedPackets d.evs = []) ∧
    (s.capBinding ≠ none → wireOf d.core = (outgoingOf (capturedPackets d.evs)).flatMap frame ∧
      ∃ rs post bytes ps, wakes = rs.map .ready ++ post ∧ (l.status = none → post = []) ∧ (l.status = some 0 → ∃ after, post = .signal true :: after) ∧
        bytes <+: lineBytes rs ∧ (l.status = none ∨ l.status = some 0 → bytes = lineBytes rs) ∧
        ((∀ r ∈ rs, r.binding ≠ some none) → AllAccepted d.log → bytes = lineBytes rs) ∧ Frames 68 bytes ps ∧ incomingOf (capturedPackets d.evs) = ps.filter (fun p => 4 < p.length) ∧
        ∀ qs : List (List Byte), (∀ q ∈ qs, 4 ≤ q.length ∧ q.length ≤ 68) → bytes = qs.flatMap frame → ps = qs) := by
  obtain ⟨m', hfile, -⟩ := C70_capture_file junk d.evs hmem
  refine ⟨⟨m', hfile⟩, ?_⟩
  obtain ⟨c0, rs, post, hend, hwk, hrun, hpost⟩ := serialMain_run hcl h0 hpat h hd
  obtain ⟨xs, hist, log, p1, p2, -, p3, p4, p5, p6, p7, p8, p9, p10, p11⟩ := serial_capture hend hcl hw.ok hrun
  refine ⟨fun hn => ?_, fun hs => ?_⟩
  · rw [hn] at p9
    exact Captured.none p9
  · have hon : s.capBinding.isSome = true := by cases hb : s.capBinding with
      | none => exact absurd hb hs
      | some _ => rfl
    rw [hon] at p9
    obtain ⟨w1, -⟩ := serial_written hend hw p8 p3 p4 p7
    obtain ⟨q1, q2⟩ := p9.packets
    refine ⟨?_, rs, post, xs.flatMap (·.getD []), (rxRun 68 .hunt (xs.flatMap (·.getD []))).2, hwk, hpost.1, hpost.2.1, ?_, fun hs => by rw [p2 (hpost.2.2 hs).1 (hpost.2.2 hs).2]; rfl, fun g1 g2 => by rw [p2 g1 g2]; rfl, rxRun_frames_sound _ (r := .hunt) (s := []) rfl, ?_, ?_⟩
    · unfold outgoingOf
      rw [w1, p6, q1, OnBus.offers p10]
    · obtain ⟨rest, hrest⟩ := p1
      exact ⟨rest.flatMap (·.getD []), by rw [← List.flatMap_append, hrest]; rfl⟩
    · unfold incomingOf
      rw [q2, p11]
    · intro qs hq he
      rw [he, rxRun_frames (by decide) qs hq]

/-- **C105** The captures of two daemons on a line: the incoming packets in the file of the one that reads are the outgoing packets in the file of the one that writes, or
the first of them, and all of them if it has read everything that was written. -/
theorem C105_both_ends {eidA eidB : Byte} {mxA mxB : Nat} {wrA wrB : Nat → List Byte → Int} {memA memB : Mem} {cA cB : Core SerialSt}
    (hA : SerialEndpoint eidA mxA wrA memA cA) (hclA : Clean memA) (hwA : WrGood wrA)
    (hB : SerialEndpoint eidB mxB wrB memB cB) (hclB : Clean memB) (hwB : WrOk wrB)
    {netA : Net W} {netB : Net V} {wA : W} {wB : V} {eA eB : Int} {rsA rsB : List (Ready (Option (List Byte)))} {dA : Daemon W SerialSt} {dB : Daemon V SerialSt}
    (hrA : (Daemon.init wA (cA.setCapture true) eA).run netA serialOps serialProc rsA = .ok dA)
    (hrB : (Daemon.init wB (cB.setCapture true) eB).run netB serialOps serialProc rsB = .ok dB)
    (hwire : lineBytes rsB <+: wireOf dA.core) :
    incomingOf (capturedPackets dB.evs) <+: outgoingOf (capturedPackets dA.evs) ∧
      (lineBytes rsB = wireOf dA.core → (∀ r ∈ rsB, r.binding ≠ some none) → AllAccepted dB.log →
        incomingOf (capturedPackets dB.evs) = outgoingOf (capturedPackets dA.evs)) := by
  obtain ⟨xs, hist, log, p1, -, -, p3, p4, p5, p6, p7, p8, p9, p10, -⟩ := serial_capture hA hclA hwA.ok hrA
  obtain ⟨ys, -, -, r1, r2, -, -, -, -, -, -, -, r9, -, r11⟩ := serial_capture hB hclB hwB hrB
  obtain ⟨w1, w2⟩ := serial_written hA hwA p8 p3 p4 p7
  rw [p6] at w1 w2
  rw [p5] at w2
  have hout : outgoingOf (capturedPackets dA.evs) = (offers 0 dA.evs).map (·.pkt) := by
    unfold outgoingOf
    rw [p9.packets.1, OnBus.offers p10]
  have hin : incomingOf (capturedPackets dB.evs) = (rxRun 68 .hunt (ys.flatMap (·.getD []))).2.filter (fun p => 4 < p.length) := by
    unfold incomingOf
    rw [r9.packets.2, r11]
  rw [hout, hin]
  have hsz : ∀ p ∈ (offers 0 dA.evs).map (·.pkt), 4 < p.length ∧ p.length ≤ 68 := by
    rw [w2]
    intro p hp
    obtain ⟨m, hm, hp⟩ := List.mem_flatMap.mp hp
    obtain ⟨x, hx, rfl⟩ := List.mem_map.mp hm
    exact ⟨packets_payload (by simp) p hp, (packets_sizes rfl (by simp) p hp).2⟩
  generalize hps : (offers 0 dA.evs).map (·.pkt) = ps at hsz w1
  have hall : ps.filter (fun p => decide (4 < p.length)) = ps := by
    rw [List.filter_eq_self]
    intro p hp
    simpa using (hsz p hp).1
  have hrun := rxRun_frames (max := 68) (by decide) ps (fun p hp => ⟨Nat.le_of_lt (hsz p hp).1, (hsz p hp).2⟩)
  have hpre : ys.flatMap (·.getD []) <+: ps.flatMap frame := by
    rw [← w1]
    refine List.IsPrefix.trans ?_ hwire
    obtain ⟨rest, hrest⟩ := r1
    exact ⟨rest.flatMap (·.getD []), by rw [← List.flatMap_append, hrest]; rfl⟩
  obtain ⟨rest, hrest⟩ := hpre
  have hrun' := hrun
  rw [← hrest, rxRun_append] at hrun
  have h2 := congrArg Prod.snd hrun
  simp only at h2
  refine ⟨?_, fun he hno hac => ?_⟩
  · rw [← hall]
    refine List.IsPrefix.filter _ ⟨_, h2⟩
  · have hy : ys.flatMap (·.getD []) = ps.flatMap frame := by
      rw [r2 hno hac, ← w1, ← he]; rfl
    rw [hy, hrun', hall]

/-! ## The hypotheses are met -/

namespace LifeDemo

def wakes2 : List (Wake (Option (List Byte))) :=
  [.ready ⟨none, fun _ => false, true⟩, .ready ⟨none, fun i => i == 0, false⟩, .ready ⟨some (some [126, 1, 5, 1, 8, 9, 200]), fun i => i == 0, false⟩,
   .ready ⟨some (some [5, 217, 152, 126]), fun _ => false, false⟩]

def core0 : Core SerialSt := (Core.init SerialSt {} (fun _ => 0)).get rfl

/-- What the capture file and the line have at the end of a process. -/
def wire : Option (Option (List (Bool × List Byte) × List Byte)) :=
  (DaemonDemo.opt (daemonMain boot DaemonDemo.net serialOps (some (serialDef blockingWrite 256)) settings 1 core0 script wakes2)).map
    fun l => l.daemon.map fun d => (capturedPackets d.evs, wireOf d.core)

theorem wire_eq : wire = some (some ([(true, [1, 9, 8, 200, 5, 7]), (false, [1, 8, 9, 200, 5])], [126, 1, 6, 1, 9, 8, 200, 5, 7, 211, 54, 126])) := by
  decide +kernel

end LifeDemo

open LifeDemo in
/-- A process that sends a packet, while it receives another in two pieces; both are captured. -/
example : ∃ l d, Clean {} ∧ Core.init SerialSt {} (fun _ => 0) = some core0 ∧ WrGood blockingWrite ∧
    daemonMain boot DaemonDemo.net serialOps (some (serialDef blockingWrite 256)) settings 1 core0 script wakes2 = .ok l ∧ l.daemon = some d ∧
    settings.capBinding ≠ none ∧ capturedPackets d.evs = [(true, [1, 9, 8, 200, 5, 7]), (false, [1, 8, 9, 200, 5])] ∧
    lineBytes (wakes2.filterMap fun | .ready r => some r | _ => none) = frame [1, 8, 9, 200, 5] ∧ wireOf d.core = frame [1, 9, 8, 200, 5, 7] := by
  obtain ⟨l, h1, h2⟩ := DaemonDemo.opt_ok wire_eq
  obtain ⟨d, hd, h3⟩ := Option.map_eq_some_iff.mp h2
  simp only [Prod.mk.injEq] at h3
  exact ⟨l, d, clean_empty, rfl, blockingWrite_good, h1, hd, by decide, h3.1, by decide +kernel, by rw [h3.2]; decide +kernel⟩

end Mctp
