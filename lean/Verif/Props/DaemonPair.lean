import Verif.Props.DaemonProcess
import Verif.Props.SerialAll

/-!
# Two daemons on a serial line, from their command lines (C113)
-/

namespace Mctp

open Spec

variable {W V E F : Type}

/-! ## Two daemons, every message -/

theorem setCapture_serInv {eid : Byte} {mx : Nat} {wr : Nat → List Byte → Int} {mem : Mem} {c0 : Core SerialSt} (h : SerialEndpoint eid mx wr mem c0)
    (hcl : Clean mem) (hw : WrOk wr) (on : Bool) : SerInv eid mem.live [] [] .hunt (c0.setCapture on) := by
  obtain ⟨c', e, rc, g1, g2, -⟩ := serialStep_core (h.serInv hcl hw) (op := .setCapture on) trivial
  simp only [Core.step, Except.ok.injEq, Prod.mk.injEq] at g1
  obtain ⟨rfl, rfl, -⟩ := g1
  exact g2

/-- A history after `mctp_set_capture_handler`, as a history. -/
theorem serialRun_setCapture {c0 c : Core SerialSt} {on : Bool} {hist : List SerialOp} {log : List SerialRec}
    (h : (c0.setCapture on).serialRun hist = .ok (c, log)) :
    c0.serialRun (.core (.setCapture on) :: hist) = .ok (c, ⟨.core (.setCapture on), [], 0⟩ :: log) := by
  simp only [Core.serialRun, Core.serialStep, Core.step, Res.bind_ok, h]

/-- **C102** Two daemons, with or without captures, on a line, B with a limit of 4096 times a power of two (the daemon's is 65536): what arrives at B, without any condition on the messages. -/
theorem C102_every_message {eidA eidB : Byte} {mxA mxB k : Nat} {wrA wrB : Nat → List Byte → Int} {memA memB : Mem} {cA cB : Core SerialSt}
    (hA : SerialEndpoint eidA mxA wrA memA cA) (hclA : Clean memA) (hwA : WrGood wrA)
    (hB : SerialEndpoint eidB mxB wrB memB cB) (hclB : Clean memB) (hwB : WrOk wrB) {onA onB : Bool} {leA leB : Int}
    {netA : Net W} {netB : Net V} {wA : W} {wB : V} {rsA rsB : List (Ready (Option (List Byte)))} {dA : Daemon W SerialSt} {dB : Daemon V SerialSt}
    (hrA : (Daemon.init wA (cA.setCapture onA) leA).run netA serialOps serialProc rsA = .ok dA)
    (hrB : (Daemon.init wB (cB.setCapture onB) leB).run netB serialOps serialProc rsB = .ok dB)
    (hsrc : eidA ≠ 0) (hmx1 : mxB = 4096 * 2 ^ k) (hmx2 : mxB < 2 ^ 64) (hwire : lineBytes rsB <+: wireOf dA.core) :
    let want := ((clientSends leA dA.log).filter (fun p => decide (p.2 ≠ [] ∧ Local eidB p.1 ∧ p.2.length ≤ mxB))).map fun p => (eidA, p.2)
    netArrivals leB dB.log <+: want ∧
      (lineBytes rsB = wireOf dA.core → (∀ r ∈ rsB, r.binding ≠ some none) → AllAccepted dB.log → netArrivals leB dB.log = want) := by
  intro want
  obtain ⟨xsA, histA, slogA, -, -, -, a1, a2, a4, a6, a7, a8, -, a10, -⟩ := serial_capture hA hclA hwA.ok hrA
  obtain ⟨xsB, histB, slogB, pB, fB, hLB, -⟩ := serial_capture hB hclB hwB hrB
  obtain ⟨hNB, histB', slogB', b1, b2, b3, -, b5, b6⟩ := hLB
  -- the sender has accepted the clients' messages, and nothing is pending
  obtain ⟨hpend, hacc⟩ : pending dA.core = [] ∧ accepted 68 (coreLog slogA) = sendsOf histA := by
    obtain ⟨pat, _, hba⟩ := hA.bus
    have hsendInv : SendInv 1 eidA [] ⟨.opened, [], 68⟩ [] (cA.setCapture onA) :=
      ⟨_, hba, rfl, rfl, rfl, hwA, rfl, by intro o ho; cases ho⟩
    have hh : SerialHist histA := fun o ho => (a2 _ ho).app o rfl
    obtain ⟨sA, hA1, ⟨ba, hA2, hA3, hA4, hA5, hA6⟩, hA7⟩ := serialRun_send a8 hsendInv hh a1
    obtain ⟨k1, k2⟩ := txRun_drains hA1 (by
      intro r hr'
      exact a2 _ (by rw [← a7]; exact List.mem_map_of_mem hr')) rfl rfl (by
      intro o ho; rw [← hA7] at ho; exact hA6.2.2 o (by simpa using ho))
    refine ⟨?_, by rw [k2, a7]; rfl⟩
    have : pending dA.core = sA.queue := by rw [pending_one hA2, ← hA5]; rfl
    rw [this, k1]
  have hpre : bytesIn histB' <+: wireOf dA.core := by
    refine List.IsPrefix.trans ?_ hwire
    rw [b5]
    obtain ⟨rest, hrest⟩ := pB
    exact ⟨rest.flatMap (·.getD []), by rw [← List.flatMap_append, hrest]; rfl⟩
  obtain ⟨q1, q2⟩ := C47_every_message hA hclA hwA (histA := .core (.setCapture onA) :: histA) (fun o ho => by
      rcases List.mem_cons.mp ho with h | ho
      · cases h; trivial
      · exact (a2 _ ho).app o rfl) (serialRun_setCapture a1) hB hclB hwB (histB := .core (.setCapture onB) :: histB') (fun o ho => by
      rcases List.mem_cons.mp ho with h | ho
      · cases h; trivial
      · exact (b2 _ ho).app o rfl) (fun o ho => by
      rcases List.mem_cons.mp ho with h | ho
      · cases h; exact ⟨fun n => by simp, fun n => by simp⟩
      · exact b3 o ho) (serialRun_setCapture b1) hsrc hmx1 hmx2 hpre
  have hgot : (serialEvents slogB').filterMap handed = ((serialEvents slogB').filter (fun ev => (delivered ev).isSome)).filterMap handed := by
    generalize serialEvents slogB' = evs
    induction evs with
    | nil => rfl
    | cons ev evs ih =>
      cases ev with
      | rxMsg src own tag msg => exact congrArg (List.cons (src, msg)) ih
      | _ => exact ih
  have hwant : (((sendsOf histA).filter (fun m => decide (m.data ≠ [] ∧ Local eidB m.dest ∧ m.data.length ≤ mxB))).map
      (fun m => Event.rxMsg eidA m.own m.tag m.data)).filterMap handed = want := by
    rw [a4]
    show _ = ((clientSends leA dA.log).filter (fun p => decide (p.2 ≠ [] ∧ Local eidB p.1 ∧ p.2.length ≤ mxB))).map fun p => (eidA, p.2)
    generalize clientSends leA dA.log = ms
    induction ms with
    | nil => rfl
    | cons p ms ih =>
      by_cases hp : p.2 ≠ [] ∧ Local eidB p.1 ∧ p.2.length ≤ mxB
      · rw [List.filter_cons_of_pos (by simpa using hp)]
        show ((List.filter _ (_ :: clientMsgs ms)).map _).filterMap handed = _
        rw [List.filter_cons_of_pos (by simpa using hp)]
        exact congrArg (List.cons (eidA, p.2)) ih
      · rw [List.filter_cons_of_neg (by simpa using hp)]
        show ((List.filter _ (_ :: clientMsgs ms)).map _).filterMap handed = _
        rw [List.filter_cons_of_neg (by simpa using hp)]
        exact ih
  have harr : netArrivals leB dB.log = (serialEvents slogB').filterMap handed := by rw [b6]; exact hNB.arr
  refine ⟨?_, fun hfull hgood hacc' => ?_⟩
  · rw [harr, hgot, ← hwant, ← hacc]
    exact q1.filterMap _
  · rw [harr, hgot, ← hwant, ← hacc]
    exact congrArg (List.filterMap handed) (q2 hpend (by
      show bytesIn histB' = _
      rw [b5, fB hgood hacc', ← hfull]; rfl))

/-! ## From the command lines -/

/-- The bytes the device has for a process: those of the reads before the first signal to it or failure of `poll`. -/
def given : List (Wake (Option (List Byte))) → List Byte
  | .ready r :: rest => (r.binding.join).getD [] ++ given rest
  | _ => []

theorem given_lineBytes (rs : List (Ready (Option (List Byte)))) (post : List (Wake (Option (List Byte)))) :
    given (rs.map .ready ++ post) = lineBytes rs ++ given post := by
  induction rs with
  | nil => rfl
  | cons r rs ih =>
    show (r.binding.join).getD [] ++ given (rs.map .ready ++ post) = _
    rw [ih, ← List.append_assoc]
    congr 1
    unfold lineBytes
    cases hb : r.binding with
    | none => simp [hb]
    | some x => simp [hb]

/-- A process with `serial` on its command line that has entered its loop. -/
theorem serialProcess {mem : Mem} (hcl : Clean mem) {fill : Nat → Byte} {dev : Devices E} (hwr : WrGood dev.wr) (hpat : 256 ≤ dev.patience) {boot : Boot} {net : Net W}
    {items : List Item} (hw : ∀ i ∈ items, Works i) {path : List Char} (hp : plainOf items = ["serial".toList, path]) {w : W}
    {wakes : List (Wake (Option (List Byte)))} {o : Outcome} (h : processMain dev boot net mem fill (items.flatMap Item.words) w wakes = .ok o)
    {log : List SockEv} (hlog : o.log = some log) :
    let s := (askedOf items).foldl Ask.apply {}
    ∃ c0 rs post d, SerialEndpoint (BitVec.ofInt 8 s.localEid) defaultMaxMessageSize dev.wr mem c0 ∧ wakes = rs.map .ready ++ post ∧
      (Daemon.init w (c0.setCapture s.capBinding.isSome) s.localEid).run net serialOps serialProc rs = .ok d ∧
      d.log = log ∧ d.evs = o.core ∧ wireOf d.core = o.wire ∧ (lineBytes rs <+: given wakes) ∧
      (o.status = none ∨ o.status = some 0 → lineBytes rs = given wakes ∧ (∀ r ∈ rs, r.binding ≠ some none) ∧ AllAccepted d.log) := by
  intro s
  obtain ⟨core, hc, hn, hbs⟩ := init_clean SerialSt hcl fill
  obtain ⟨l, hl⟩ := C98_safe_serial hcl hc hwr.ok hpat boot net s 1 w wakes
  have hproc : processMain dev boot net mem fill (items.flatMap Item.words) w wakes =
      .ok (l.outcome (fun l => l.core.busses.flatMap fun b => b.binding.st.wire) (fun _ => [])) := by
    unfold processMain
    rw [C99_honoured_partial hw hp]
    simp only [Res.bind_ok]
    rw [show bindingLookup "serial".toList = some .serial from by decide]
    simp only [hc, List.length_singleton]
    rw [hl]
    rfl
  rw [hproc] at h
  simp only [Except.ok.injEq] at h
  subst h
  have hlog : l.daemon.map (·.log) = some log := hlog
  obtain ⟨d, hd, hdl⟩ := Option.map_eq_some_iff.mp hlog
  obtain ⟨c0, rs, post, hend, hwk, hrun, hpost⟩ := serialMain_run hcl hc hpat hl hd
  have hgiv : given wakes = lineBytes rs ++ given post := by rw [hwk, given_lineBytes]
  refine ⟨c0, rs, post, d, hend, hwk, hrun, hdl, ?_, ?_, ⟨given post, hgiv.symm⟩, fun hs => ⟨?_, hpost.2.2 hs⟩⟩
  · show d.evs = (l.daemon.map (·.evs)).getD []
    rw [hd]; rfl
  · show wireOf d.core = l.core.busses.flatMap _
    rw [(life_core rfl hl).1 d hd]
    rfl
  · rw [hgiv]
    rcases hs with hs | hs
    · rw [hpost.1 hs]; simp [given]
    · obtain ⟨after, rfl⟩ := hpost.2.1 hs
      simp [given]

section
variable {memA memB : Mem} {fillA fillB : Nat → Byte} {devA : Devices E} {devB : Devices F} {bootA bootB : Boot} {netA : Net W} {netB : Net V}
  {itemsA itemsB : List Item} {pathA pathB : List Char} {wA : W} {wB : V} {wakesA wakesB : List (Wake (Option (List Byte)))} {oA oB : Outcome} {logA logB : List SockEv}

/-- **C113** Two processes of the daemon with `serial` on their command lines, at the two ends of a line, of which B is given the bytes A writes (or the first of them), in any pieces.  The
messages that arrive at B from the line are those that clients of A sent to B's EID (or the null or broadcast EID), of 1 to 65536 bytes, with A's EID, each once, in order and unchanged: the first
of them at any time, all of them once B has been given everything and has not ended with an error.  B sends each to its clients of that type. -/
theorem C113_messages (hclA : Clean memA) (hwrA : WrGood devA.wr) (hpatA : 256 ≤ devA.patience) (hwA : ∀ i ∈ itemsA, Works i) (hpA : plainOf itemsA = ["serial".toList, pathA])
    (hclB : Clean memB) (hwrB : WrGood devB.wr) (hpatB : 256 ≤ devB.patience) (hwB : ∀ i ∈ itemsB, Works i) (hpB : plainOf itemsB = ["serial".toList, pathB])
    (hA : processMain devA bootA netA memA fillA (itemsA.flatMap Item.words) wA wakesA = .ok oA) (hlA : oA.log = some logA)
    (hB : processMain devB bootB netB memB fillB (itemsB.flatMap Item.words) wB wakesB = .ok oB) (hlB : oB.log = some logB)
    (hline : given wakesB <+: oA.wire) :
    let sA := (askedOf itemsA).foldl Ask.apply {}
    let sB := (askedOf itemsB).foldl Ask.apply {}
    let eidA : Byte := BitVec.ofInt 8 sA.localEid
    let want := ((clientSends sA.localEid logA).filter (fun p => decide (p.2 ≠ [] ∧ Local (BitVec.ofInt 8 sB.localEid) p.1 ∧ p.2.length ≤ 65536))).map fun p => (eidA, p.2)
    eidA ≠ 0 →
      netArrivals sB.localEid logB <+: want ∧
      (given wakesB = oA.wire → oB.status = none ∨ oB.status = some 0 → netArrivals sB.localEid logB = want) ∧
      (Each FreshAccept [] logB → sendsIn logB = owed logB) := by
  intro sA sB eidA want hsrc
  obtain ⟨cA, rsA, postA, dA, eA, -, rA, rfl, -, wA', -, -⟩ := serialProcess hclA hwrA hpatA hwA hpA hA hlA
  obtain ⟨cB, rsB, postB, dB, eB, -, rB, rfl, -, -, g1, g2⟩ := serialProcess hclB hwrB hpatB hwB hpB hB hlB
  obtain ⟨q1, q2⟩ := C102_every_message (k := 4) eA hclA hwrA eB hclB hwrB.ok rA rB hsrc (by decide) (by decide) (by rw [wA']; exact g1.trans hline)
  refine ⟨q1, fun he hs => ?_, fun hf => (C101_relay rB hf).2⟩
  obtain ⟨k1, k2, k3⟩ := g2 hs
  exact q2 (by rw [k1, he, wA']) k2 k3

/-- **C113** With `--capture-binding` on both command lines: the incoming packets in B's file are the outgoing packets in A's file, or the first of them, and all of them
once B has been given everything and has not ended with an error. -/
theorem C113_captures (hclA : Clean memA) (hwrA : WrGood devA.wr) (hpatA : 256 ≤ devA.patience) (hwA : ∀ i ∈ itemsA, Works i) (hpA : plainOf itemsA = ["serial".toList, pathA])
    (hclB : Clean memB) (hwrB : WrGood devB.wr) (hpatB : 256 ≤ devB.patience) (hwB : ∀ i ∈ itemsB, Works i) (hpB : plainOf itemsB = ["serial".toList, pathB])
    (hA : processMain devA bootA netA memA fillA (itemsA.flatMap Item.words) wA wakesA = .ok oA) (hlA : oA.log = some logA)
    (hB : processMain devB bootB netB memB fillB (itemsB.flatMap Item.words) wB wakesB = .ok oB) (hlB : oB.log = some logB)
    (hline : given wakesB <+: oA.wire)
    (hcA : ((askedOf itemsA).foldl Ask.apply {}).capBinding ≠ none) (hcB : ((askedOf itemsB).foldl Ask.apply {}).capBinding ≠ none) :
    incomingOf (capturedPackets oB.core) <+: outgoingOf (capturedPackets oA.core) ∧
      (given wakesB = oA.wire → oB.status = none ∨ oB.status = some 0 → incomingOf (capturedPackets oB.core) = outgoingOf (capturedPackets oA.core)) := by
  have on : ∀ {x : Option (List Char)}, x ≠ none → x.isSome = true := fun {x} h => by
    cases x with
    | none => exact absurd rfl h
    | some _ => rfl
  obtain ⟨cA, rsA, postA, dA, eA, -, rA, -, vA, wA', -, -⟩ := serialProcess hclA hwrA hpatA hwA hpA hA hlA
  obtain ⟨cB, rsB, postB, dB, eB, -, rB, -, vB, -, g1, g2⟩ := serialProcess hclB hwrB hpatB hwB hpB hB hlB
  rw [on hcA] at rA
  rw [on hcB] at rB
  obtain ⟨q1, q2⟩ := C105_both_ends eA hclA hwrA eB hclB hwrB.ok rA rB (by rw [wA']; exact g1.trans hline)
  rw [vA, vB] at q1 q2
  refine ⟨q1, fun he hs => ?_⟩
  obtain ⟨k1, k2, k3⟩ := g2 hs
  exact q2 (by rw [k1, he, wA']) k2 k3

end

/-! ## The hypotheses are met -/

namespace PairDemo
/-- `--eid=<eid> -b b.pcap serial /dev/ttyS0`, with the long form of the first option. -/
def items (eid : Nat) : List Item := [.inl (.eid eid, .longEq), .inl (.captureBinding "b.pcap".toList, .short), .inr "serial".toList, .inr "/dev/ttyS0".toList]

def dev : Devices AstDemo.Script := LifeDemo.dev true

def idle : Wake (Option (List Byte)) := .ready ⟨none, fun _ => true, false⟩
def connect : Wake (Option (List Byte)) := .ready ⟨none, fun _ => false, true⟩
def get (bs : List Byte) : Wake (Option (List Byte)) := .ready ⟨some (some bs), fun _ => false, false⟩

/-- A client of A registers for type 5 and sends to B (twice), to EID 30, and an empty message to B. -/
def clientA : DaemonDemo.Script := { accepts := [10], reads := [(1, 5)], peeks := [3, 3, 1, 4], recvs := [[9, 5, 7], [30, 5, 8], [9], [9, 5, 1, 2]] }
def wakesA : List (Wake (Option (List Byte))) := [connect, idle, idle, idle, idle, idle, .signal true]
def clientB : DaemonDemo.Script := { accepts := [20], reads := [(1, 5)], sends := [3, 4] }

def run (eid : Nat) (w : DaemonDemo.Script) (wakes : List (Wake (Option (List Byte)))) : Res Outcome :=
  processMain dev LifeDemo.boot DaemonDemo.net {} (fun _ => 0) ((items eid).flatMap Item.words) w wakes
def line : List Byte := frame [1, 9, 20, 200, 5, 7] ++ frame [1, 30, 20, 200, 5, 8] ++ frame [1, 9, 20, 200, 5, 1, 2]
def wakesB (n : Nat) : List (Wake (Option (List Byte))) := [connect, idle, get (line.take n), get (line.drop n), .signal true]

set_option synthInstance.maxSize 4000 in
set_option synthInstance.maxHeartbeats 400000 in
theorem runA : (DaemonDemo.opt (run 20 clientA wakesA)).map (fun o => ((o.status, o.wire), o.log.map (clientSends 20), outgoingOf (capturedPackets o.core))) =
    some ((some 0, line), some [(9, [5, 7]), (30, [5, 8]), (9, []), (9, [5, 1, 2])], [[1, 9, 20, 200, 5, 7], [1, 30, 20, 200, 5, 8], [1, 9, 20, 200, 5, 1, 2]]) := by
  decide +kernel

set_option synthInstance.maxSize 4000 in
set_option synthInstance.maxHeartbeats 400000 in
theorem runB : (DaemonDemo.opt (run 9 clientB (wakesB 8))).map (fun o => (o.status, o.log.map (fun l => (netArrivals 9 l, sendsIn l)), incomingOf (capturedPackets o.core))) =
    some (some 0, some ([(20, [5, 7]), (20, [5, 1, 2])], [(20, [20, 5, 7]), (20, [20, 5, 1, 2])]),
      [[1, 9, 20, 200, 5, 7], [1, 30, 20, 200, 5, 8], [1, 9, 20, 200, 5, 1, 2]]) := by
  decide +kernel

theorem items_work (n : Nat) (hn : n ≤ 255) : ∀ i ∈ items n, Works i := by
  intro i hi
  simp only [items, List.mem_cons, List.not_mem_nil, or_false] at hi
  rcases hi with rfl | rfl | rfl | rfl
  · exact ⟨hn, .inr rfl⟩
  · exact fun h => absurd h (by decide)
  · show PlainWord "serial".toList; unfold PlainWord; decide
  · show PlainWord "/dev/ttyS0".toList; unfold PlainWord; decide

end PairDemo

open PairDemo in
/-- A client of A sends to B, to an EID that nobody has, an empty message to B, and to B again; B gets the bytes in two pieces. -/
example : ∃ oA oB logA logB, run 20 clientA wakesA = .ok oA ∧ oA.log = some logA ∧ run 9 clientB (wakesB 8) = .ok oB ∧ oB.log = some logB ∧
    (∀ i ∈ items 20, Works i) ∧ (∀ i ∈ items 9, Works i) ∧ plainOf (items 20) = ["serial".toList, "/dev/ttyS0".toList] ∧
    plainOf (items 9) = ["serial".toList, "/dev/ttyS0".toList] ∧ ((askedOf (items 20)).foldl Ask.apply {}).localEid = 20 ∧ ((askedOf (items 9)).foldl Ask.apply {}).localEid = 9 ∧
    ((askedOf (items 20)).foldl Ask.apply {}).capBinding ≠ none ∧ WrGood dev.wr ∧ 256 ≤ dev.patience ∧ Clean {} ∧
    given (wakesB 8) = oA.wire ∧ oB.status = some 0 ∧ clientSends 20 logA = [(9, [5, 7]), (30, [5, 8]), (9, []), (9, [5, 1, 2])] ∧
    netArrivals 9 logB = [(20, [5, 7]), (20, [5, 1, 2])] ∧ sendsIn logB = [(20, [20, 5, 7]), (20, [20, 5, 1, 2])] ∧
    incomingOf (capturedPackets oB.core) = outgoingOf (capturedPackets oA.core) := by
  obtain ⟨oA, rA, eA⟩ := DaemonDemo.opt_ok runA
  obtain ⟨oB, rB, eB⟩ := DaemonDemo.opt_ok runB
  simp only [Prod.mk.injEq] at eA eB
  obtain ⟨⟨-, a1⟩, a2, a3⟩ := eA
  obtain ⟨b1, b2, b3⟩ := eB
  obtain ⟨logA, l1, l1'⟩ := Option.map_eq_some_iff.mp a2
  obtain ⟨logB, l2, l2'⟩ := Option.map_eq_some_iff.mp b2
  simp only [Prod.mk.injEq] at l2'
  exact ⟨oA, oB, logA, logB, rA, l1, rB, l2, items_work 20 (by decide), items_work 9 (by decide), rfl, rfl, rfl, rfl, by simp [items, askedOf, Ask.apply], blockingWrite_good,
    by decide, clean_empty, by rw [a1]; decide +kernel, b1, l1', l2'.1, l2'.2, b3.trans a3.symm⟩

end Mctp
