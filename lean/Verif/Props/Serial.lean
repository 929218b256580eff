import Verif.Proofs.SerialSend
import Verif.Props.Crc

/-!
# Properties of the serial binding (C38-C47)
-/

namespace Mctp

open Spec

/-- An endpoint using the serial binding: `mctp_init`, `mctp_set_rx_all`,
`mctp_set_max_message_size(mx)`, `mctp_serial_init`, `mctp_serial_set_tx_fn` with the write function
`wr`, and a successful `mctp_register_bus(eid)`. -/
def SerialEndpoint (eid : Byte) (mx : Nat) (wr : Nat → List Byte → Int) (mem : Mem)
    (c0 : Core SerialSt) : Prop :=
  ∃ fill c pat rc, Core.init SerialSt mem fill = some c ∧ 256 ≤ pat ∧
    ((c.setRxAll true).setMaxMessageSize mx).registerBus serialOps (serialInit wr pat) eid =
      .ok (c0, rc) ∧ 0 ≤ rc

/-- The serial binding is waiting for the start of a frame. -/
def Waiting (c : Core SerialSt) : Prop := ∀ b ∈ c.busses, b.binding.st.state = .waitSync

theorem SerialEndpoint.configured {eid : Byte} {mx : Nat} {wr : Nat → List Byte → Int} {mem : Mem}
    {c0 : Core SerialSt} (h : SerialEndpoint eid mx wr mem c0) : Configured serialOps eid mx mem c0 := by
  obtain ⟨fill, c, pat, rc, h1, _, h2, h3⟩ := h
  exact ⟨fill, c, _, rc, h1, h2, h3⟩

theorem SerialEndpoint.bus {eid : Byte} {mx : Nat} {wr : Nat → List Byte → Int} {mem : Mem}
    {c0 : Core SerialSt} (h : SerialEndpoint eid mx wr mem c0) :
    ∃ pat, 256 ≤ pat ∧ c0.busses = [{ eid := eid, binding := serialInit wr pat, state := .txEnabled, queue := [] }] := by
  obtain ⟨fill, c, pat, rc, h1, hp, h2, h3⟩ := h
  refine ⟨pat, hp, ?_⟩
  obtain ⟨id, m, ha, rfl⟩ := init_ok h1
  unfold Core.registerBus at h2
  split at h2
  · cases h2
  split at h2
  · simp only [Except.ok.injEq, Prod.mk.injEq] at h2
    obtain ⟨_, rfl⟩ := h2; simp [ENOMEM] at h3
  · simp only [startBus, serialOps, Res.bind_ok] at h2
    rw [if_neg (by omega)] at h2
    simp only [Except.ok.injEq, Prod.mk.injEq] at h2
    obtain ⟨rfl, rfl⟩ := h2
    rfl

theorem SerialEndpoint.serInv {eid : Byte} {mx : Nat} {wr : Nat → List Byte → Int} {mem : Mem}
    {c0 : Core SerialSt} (h : SerialEndpoint eid mx wr mem c0) (hcl : Clean mem) (hw : WrOk wr) :
    SerInv eid mem.live [] [] .hunt c0 := by
  obtain ⟨pat, hp, hb⟩ := h.bus
  refine ⟨trivial, h.configured.epInv, (serialInit wr pat).st, ⟨rfl, rfl⟩, ?_⟩
  refine h.configured.memInv hcl ?_
  intro b hbm
  rw [hb] at hbm
  simp only [List.mem_singleton] at hbm
  subst hbm
  exact ⟨by show 68 + 0 + 0 < 2 ^ 64; decide,
    ⟨⟨List.length_replicate .., hw, hp⟩, ⟨rfl, rfl, rfl, rfl⟩, SameRx.refl _⟩, fun _ => trivial⟩

/-- A state reached by a history: the receiver of the model is the abstract receiver. -/
theorem SerialEndpoint.reached {eid : Byte} {mx : Nat} {wr : Nat → List Byte → Int} {mem : Mem}
    {c0 c : Core SerialSt} (h : SerialEndpoint eid mx wr mem c0) (hcl : Clean mem) (hw : WrOk wr)
    {hist : List SerialOp} (hh : SerialHist hist) {log : List SerialRec}
    (hr : c0.serialRun hist = .ok (c, log)) :
    ∃ leak, SerInv eid mem.live leak (serialEvents log) (rxRun 68 .hunt (bytesIn hist)).1 c ∧
      leak.length = drops .hunt (bytesIn hist) ∧
      packetsIn (serialEvents log) = (rxRun 68 .hunt (bytesIn hist)).2 := by
  obtain ⟨c', log', leak, h1, _, h3, h4, h5, _⟩ := serialRun_core (h.serInv hcl hw) hh
  rw [hr] at h1
  simp only [Except.ok.injEq, Prod.mk.injEq] at h1
  obtain ⟨rfl, rfl⟩ := h1
  exact ⟨leak, by simpa using h3, h4, h5⟩

theorem waiting_iff {eid : Byte} {base leak : List Nat} {evs : List Event} {r : Rx} {c : Core SerialSt}
    (h : SerInv eid base leak evs r c) : Waiting c ↔ r = .hunt := by
  obtain ⟨hok, hep, R, hsim, hmem⟩ := h
  obtain ⟨b, hb, _⟩ := one_bus hep
  have hs := (hmem.inv b (by simp [hb])).1.2.2.sim hsim
  unfold Waiting
  rw [hb]
  simp only [List.mem_singleton, forall_eq]
  match r, hs with
  | .hunt, hs => simp [hs.1]
  | .rev, hs => simp [hs.1]
  | .len, hs => simp [hs.1]
  | .body n esc p, hs => obtain ⟨h1, _⟩ := hs; cases esc <;> simp [h1]
  | .fcs1 p, hs => simp [hs.1]
  | .fcs2 p hi, hs => simp [hs.1]
  | .fin p hi lo, hs => simp [hs.1]

/-! ## A concrete endpoint -/

namespace Demo

/-- A write function that accepts one byte at a time. -/
def slowWrite : Nat → List Byte → Int := fun _ _ => 1

theorem slow_good : WrGood slowWrite := by
  intro k buf h
  refine ⟨by show (0 : Int) < 1; decide, ?_⟩
  cases buf with
  | nil => exact absurd rfl h
  | cons b bs => simp [slowWrite]

/-- An endpoint with EID `eid` and a serial binding. -/
def serialCore (eid : Byte) (wr : Nat → List Byte → Int) : Core SerialSt :=
  { mem := { next := 2, live := [1, 0] }, fill := fun _ => 0xaa, self := 0, nBusses := 1,
    bussesPtr := some 1,
    busses := [{ eid := eid, binding := serialInit wr 256, state := .txEnabled, queue := [] }],
    hasRx := true, hasCapture := false, ctxs := List.replicate 16 Ctx.zero, bridge := false,
    maxSize := 65536 }

theorem serialEndpoint (eid : Byte) (wr : Nat → List Byte → Int) :
    SerialEndpoint eid 65536 wr {} (serialCore eid wr) :=
  ⟨fun _ => 0xaa, _, 256, 0, rfl, by decide, rfl, by decide⟩

/-- The packets received and messages delivered in a history, and the bytes written. -/
def serialTrace (c : Core SerialSt) (hist : List SerialOp) :
    Option (List (List Byte) × List Event × List Byte) :=
  match c.serialRun hist with
  | .ok (c', log) => some (packetsIn (serialEvents log), (serialEvents log).filter (fun e => (delivered e).isSome), wireOf c')
  | .error _ => none

/-- A packet with bytes equal to the flag and the escape character. -/
def oddPkt : List Byte := [1, 8, 9, 0xc8, 0x7e, 0x7d, 0x5e]

end Demo

/-! ## C41: totality -/

/-- **C41** No history of application calls and received bytes makes the library fault: every access to
the packet buffers is in bounds, no assertion fails, and no freed buffer is used. -/
theorem C41_total {eid : Byte} {mx : Nat} {wr : Nat → List Byte → Int} {mem : Mem}
    {c0 : Core SerialSt} (h : SerialEndpoint eid mx wr mem c0) (hcl : Clean mem) (hw : WrOk wr)
    {hist : List SerialOp} (hh : SerialHist hist) :
    ∃ c log, c0.serialRun hist = .ok (c, log) ∧ log.map (·.op) = hist := by
  obtain ⟨c', log', leak, h1, h2, _⟩ := serialRun_core (h.serInv hcl hw) hh
  exact ⟨c', log', h1, h2⟩

/-- The hypotheses are met, by a history that sends, receives noise and receives a frame. -/
example :
    let hist : List SerialOp :=
      [.core (.send 9 true 1 [1, 2, 3]), .rx [0x7e, 0x01, 0x44, 0x00], .rx (List.replicate 141 0),
       .rx (frame Demo.oddPkt)]
    SerialEndpoint 8 65536 Demo.slowWrite {} (Demo.serialCore 8 Demo.slowWrite) ∧ SerialHist hist ∧
    (Demo.serialTrace (Demo.serialCore 8 Demo.slowWrite) hist).map (·.1) = some [Demo.oddPkt] := by
  refine ⟨Demo.serialEndpoint _ _, ?_, by decide +kernel⟩
  intro op hop
  simp only [List.mem_cons, SerialOp.core.injEq, reduceCtorEq, List.not_mem_nil, or_false, or_self] at hop
  subst hop; trivial

/-! ## C40: only valid frames are accepted -/

/-- **C40** The packets passed to the core in a history are carried, in order, by disjoint valid frames
in the received bytes. -/
theorem C40_only_valid_frames {eid : Byte} {mx : Nat} {wr : Nat → List Byte → Int} {mem : Mem}
    {c0 c : Core SerialSt} (h : SerialEndpoint eid mx wr mem c0) (hcl : Clean mem) (hw : WrOk wr)
    {hist : List SerialOp} (hh : SerialHist hist) {log : List SerialRec}
    (hr : c0.serialRun hist = .ok (c, log)) :
    Frames 68 (bytesIn hist) (packetsIn (serialEvents log)) := by
  obtain ⟨leak, _, _, h3⟩ := h.reached hcl hw hh hr
  rw [h3]
  exact rxRun_frames_sound (bytesIn hist) (r := .hunt) (s := []) rfl

/-! ## C38: round trip -/

/-- **C38** The bytes the serial binding writes for a packet of 4 to 68 bytes (when it returns 0), given
in any reachable state to a serial binding waiting for a frame, make it receive exactly that packet, and
it is waiting for a frame again. -/
theorem C38_round_trip {b : Binding SerialSt} (hb : TxOk b) {pkt : Pktbuf} {p w : List Byte}
    (hp : PktIs pkt p) (h4 : 4 ≤ p.length) (h68 : p.length ≤ 68) {out : TxOut SerialSt}
    (htx : serialTx b pkt = .ok out) (hrc : out.rc = 0) (hwire : out.st.wire = b.st.wire ++ w)
    {eid : Byte} {mx : Nat} {wr : Nat → List Byte → Int} {mem : Mem}
    {c0 c : Core SerialSt} (h : SerialEndpoint eid mx wr mem c0) (hcl : Clean mem) (hw : WrOk wr)
    {hist : List SerialOp} (hh : SerialHist hist) {log : List SerialRec}
    (hr : c0.serialRun hist = .ok (c, log)) (hwait : Waiting c) :
    ∃ c' e, c.serialRx 0 w = .ok (c', e) ∧ packetsIn e = [p] ∧ Waiting c' := by
  obtain ⟨leak, hi, _⟩ := h.reached hcl hw hh hr
  obtain ⟨out', ho, _, _, tb, k, w', _, h4', h5⟩ := serialTx_spec hb hp
  rw [htx] at ho
  simp only [Except.ok.injEq] at ho
  subst ho
  have hw' : w' = frame p := by
    rw [← rawFrame_eq (by omega)]
    rcases h5 with ⟨_, h6, _⟩ | ⟨_, ⟨_, h6⟩ | ⟨h6, _⟩⟩
    · rw [hrc] at h6; simp [EMSGSIZE] at h6
    · exact h6
    · omega
  rw [h4'] at hwire
  have : w = frame p := by
    have := List.append_cancel_left hwire
    rw [← this, hw']
  subst this
  obtain ⟨c', e, _, g1, g2, _, g4, _⟩ := serialRx_core (frame p) hi
  have hrun := rxRun_frame (max := 68) (by decide) h4 h68
  rw [(waiting_iff hi).mp hwait, hrun] at g2 g4
  exact ⟨c', e, g1, g4, (waiting_iff g2).mpr rfl⟩

/-- A concrete case: a packet with bytes to be escaped, written one byte at a time. -/
example :
    let b := serialInit Demo.slowWrite 256
    let pkt : Pktbuf := { id := 7, size := 68, start := 0, «end» := 7, hdrOff := 0,
                          data := Demo.oddPkt ++ List.replicate 61 0xaa }
    (serialTx b pkt).toOption.map (fun o => (o.rc, o.st.wire)) =
      some (0, [0x7e, 0x01, 0x07, 1, 8, 9, 0xc8, 0x7d, 0x5e, 0x7d, 0x5d, 0x5e, 0xc5, 0x87, 0x7e]) := by
  decide +kernel

/-! ## C39: chunking -/

/-- Successive `mctp_serial_rx` calls. -/
def Core.serialRxAll (c : Core SerialSt) (i : Nat) : List (List Byte) → Res (Core SerialSt × List Event)
  | [] => .ok (c, [])
  | xs :: rest => do
    let (c1, e1) ← c.serialRx i xs
    let (c2, e2) ← c1.serialRxAll i rest
    .ok (c2, e1 ++ e2)

theorem serialRx_append (i : Nat) (xs ys : List Byte) : ∀ c : Core SerialSt, c.serialRx i (xs ++ ys) = (do
    let (c1, e1) ← c.serialRx i xs
    let (c2, e2) ← c1.serialRx i ys
    .ok (c2, e1 ++ e2)) := by
  induction xs with
  | nil =>
    intro c
    simp only [List.nil_append, Core.serialRx, Res.bind_ok]
    cases c.serialRx i ys with
    | error e => rfl
    | ok v => rfl
  | cons x xs ih =>
    intro c
    simp only [List.cons_append, Core.serialRx]
    cases h1 : c.serialByte i x with
    | error e => rfl
    | ok v =>
      obtain ⟨c1, e1⟩ := v
      simp only [Res.bind_ok, ih]
      cases h2 : c1.serialRx i xs with
      | error e => rfl
      | ok v =>
        obtain ⟨c2, e2⟩ := v
        simp only [Res.bind_ok]
        cases h3 : c2.serialRx i ys with
        | error e => rfl
        | ok v => obtain ⟨c3, e3⟩ := v; simp only [Res.bind_ok, List.append_assoc]

/-- **C39** In every state (and whatever happens, faults included) receiving chunks one after the other
is receiving their concatenation: same final state, same events in the same order. -/
theorem C39_chunking (c : Core SerialSt) (i : Nat) (chunks : List (List Byte)) :
    c.serialRxAll i chunks = c.serialRx i chunks.flatten := by
  induction chunks generalizing c with
  | nil => rfl
  | cons xs rest ih =>
    rw [List.flatten_cons, serialRx_append]
    simp only [Core.serialRxAll]
    cases h1 : c.serialRx i xs with
    | error e => rfl
    | ok v => obtain ⟨c1, e1⟩ := v; simp only [Res.bind_ok, ih]

/-- **C39** `mctp_serial_read` is `mctp_serial_rx` of the bytes read. -/
theorem C39_read (c : Core SerialSt) (i : Nat) (xs : List Byte) :
    c.serialRead i (some xs) = (c.serialRx i xs).map fun r => (r.1, r.2, 0) := by
  simp only [Core.serialRead]
  cases c.serialRx i xs with
  | error e => rfl
  | ok v => rfl

/-- **C39** The packets received depend only on the bytes received, however they are divided into calls
and interleaved with application calls. -/
theorem C39_interleaving {eid eid' : Byte} {mx mx' : Nat} {wr wr' : Nat → List Byte → Int} {mem mem' : Mem}
    {c0 c0' c c' : Core SerialSt} (h : SerialEndpoint eid mx wr mem c0) (hcl : Clean mem) (hw : WrOk wr)
    (h' : SerialEndpoint eid' mx' wr' mem' c0') (hcl' : Clean mem') (hw' : WrOk wr')
    {hist hist' : List SerialOp} (hh : SerialHist hist) (hh' : SerialHist hist') {log log' : List SerialRec}
    (hr : c0.serialRun hist = .ok (c, log)) (hr' : c0'.serialRun hist' = .ok (c', log'))
    (heq : bytesIn hist = bytesIn hist') :
    packetsIn (serialEvents log) = packetsIn (serialEvents log') := by
  obtain ⟨_, _, _, h3⟩ := h.reached hcl hw hh hr
  obtain ⟨_, _, _, h3'⟩ := h'.reached hcl' hw' hh' hr'
  rw [h3, h3', heq]

/-- Two divisions of the same bytes. -/
example : bytesIn [.rx (frame Demo.oddPkt), .core (.send 9 false 0 [1])] =
    bytesIn ((frame Demo.oddPkt).map fun b => SerialOp.rx [b]) := by decide +kernel

/-! ## C42: resynchronisation -/

/-- Valid frames of the packets `ps`, separated by bytes other than the flag. -/
inductive WellFramed : List Byte → List (List Byte) → Prop
  | done {idle : List Byte} : (∀ c ∈ idle, c ≠ 0x7e) → WellFramed idle []
  | next {idle w rest p : List Byte} {ps : List (List Byte)} : (∀ c ∈ idle, c ≠ 0x7e) →
      ValidFrame 68 w p → WellFramed rest ps → WellFramed (idle ++ w ++ rest) (p :: ps)

theorem rxRun_hunt_idle {idle : List Byte} (h : ∀ c ∈ idle, c ≠ 0x7e) : rxRun 68 .hunt idle = (.hunt, []) := by
  induction idle with
  | nil => rfl
  | cons c cs ih =>
    simp only [rxRun, rxStep, if_neg (h c (by simp)), ih (fun x hx => h x (by simp [hx]))]
    rfl

theorem rxRun_wellFramed {s : List Byte} {ps : List (List Byte)} (h : WellFramed s ps) :
    rxRun 68 .hunt s = (.hunt, ps) ∧ drops .hunt s = 0 := by
  have hd : ∀ {idle : List Byte}, (∀ c ∈ idle, c ≠ 0x7e) → drops .hunt idle = 0 := by
    intro idle
    induction idle with
    | nil => intro _; rfl
    | cons c cs ih =>
      intro h
      simp only [drops, rxDrops, rxStep, if_neg (h c (by simp)), ih (fun x hx => h x (by simp [hx]))]
  induction h with
  | done h => exact ⟨rxRun_hunt_idle h, hd h⟩
  | @next idle w rest p ps hi hv _ ih =>
    have hw := rxRun_validFrame (max := 68) (by decide) hv
    constructor
    · rw [rxRun_append, rxRun_append, rxRun_hunt_idle hi, hw, ih.1]; rfl
    · rw [drops_append, drops_append, rxRun_append, rxRun_hunt_idle hi, hw, hd hi, ih.2]
      simp only [Nat.zero_add, Nat.add_zero]
      exact drops_validFrame hv

/-- **C42** In every reachable state, after 141 or more bytes other than the flag the receiver is waiting
for a frame and has received nothing meanwhile, and every valid frame that follows is received. -/
theorem C42_resynchronises {eid : Byte} {mx : Nat} {wr : Nat → List Byte → Int} {mem : Mem}
    {c0 c : Core SerialSt} (h : SerialEndpoint eid mx wr mem c0) (hcl : Clean mem) (hw : WrOk wr)
    {hist : List SerialOp} (hh : SerialHist hist) {log : List SerialRec}
    (hr : c0.serialRun hist = .ok (c, log)) {idle : List Byte} (hidle : ∀ x ∈ idle, x ≠ 0x7e)
    (hlen : 141 ≤ idle.length) :
    ∃ c1 e1, c.serialRx 0 idle = .ok (c1, e1) ∧ packetsIn e1 = [] ∧ Waiting c1 ∧
      ∀ s ps, WellFramed s ps → ∃ c2 e2, c1.serialRx 0 s = .ok (c2, e2) ∧ packetsIn e2 = ps ∧ Waiting c2 := by
  obtain ⟨leak, hi, _⟩ := h.reached hcl hw hh hr
  obtain ⟨c1, e1, _, g1, g2, _, g4, _⟩ := serialRx_core idle hi
  rw [rxRun_resync idle hidle (by omega) hi.ok] at g2 g4
  refine ⟨c1, e1, g1, g4, (waiting_iff g2).mpr rfl, fun s ps hs => ?_⟩
  obtain ⟨c2, e2, _, k1, k2, _, k4, _⟩ := serialRx_core s g2
  rw [(rxRun_wellFramed hs).1] at k2 k4
  exact ⟨c2, e2, k1, k4, (waiting_iff k2).mpr rfl⟩

/-- The bound is attained: 140 bytes are not enough (a maximal packet whose bytes are all escaped). -/
example : ((Demo.serialCore 8 Demo.slowWrite).serialRx 0
      (0x7e :: ([0x01, 0x44] ++ List.replicate 138 0x7d))).toOption.map
    (fun r => r.1.busses.map (·.binding.st.state)) = some [RxState.waitSyncEnd] := by decide +kernel

/-! ## C43: corruption is detected -/

/-- Bytes that complete no packet cause no events at all. -/
theorem serialRx_silent {eid : Byte} {base : List Nat} (xs : List Byte) : ∀ {leak : List Nat}
    {evs : List Event} {r : Rx} {c c' : Core SerialSt} {e : List Event},
    SerInv eid base leak evs r c → c.serialRx 0 xs = .ok (c', e) → packetsIn e = [] → e = [] := by
  induction xs with
  | nil =>
    intro leak evs r c c' e _ h _
    simp only [Core.serialRx, Except.ok.injEq, Prod.mk.injEq] at h
    exact h.2.symm
  | cons x xs ih =>
    intro leak evs r c c' e hi h hn
    obtain ⟨c1, e1, l1, a1, a2, _, a4, a5⟩ := serialByte_core hi x
    simp only [Core.serialRx, a1, Res.bind_ok] at h
    obtain ⟨⟨c2, e2⟩, hs, h⟩ := Res.bind_eq_ok.mp h
    simp only [Except.ok.injEq, Prod.mk.injEq] at h
    obtain ⟨rfl, rfl⟩ := h
    rw [packetsIn_append, List.append_eq_nil_iff] at hn
    rw [ih a2 hs hn.2, List.append_nil]
    cases a5 with
    | none => rfl
    | pass p pkt c3 R h1 => rw [a4, h1] at hn; cases hn.1

theorem rxRun_badCheck {p body : List Byte} {hi lo : Byte} (h4 : 4 ≤ p.length) (h68 : p.length ≤ 68)
    (hd : Decodes body p) (hbad : fcsBytes p ≠ [hi, lo]) :
    rxRun 68 .hunt ([0x7e, 0x01, BitVec.ofNat 8 p.length] ++ body ++ [hi, lo] ++ [0x7e]) = (.hunt, []) := by
  have hb := rxRun_body (max := 68) (n := p.length) hd (p := []) (by simp) (by intro h; simp [h] at h4)
  have e1 : rxRun 68 .hunt [0x7e, 0x01, BitVec.ofNat 8 p.length] = (.body p.length false [], []) := by
    simp only [rxRun, rxStep]
    simp only [if_pos]
    rw [toNat_len (by omega), if_neg (by omega)]
    rfl
  have a1 : rxRun 68 .hunt ([0x7e, 0x01, BitVec.ofNat 8 p.length] ++ body) = (.fcs1 p, []) := by
    rw [rxRun_append, e1]; simp only [hb]; rfl
  have a2 : rxRun 68 .hunt ([0x7e, 0x01, BitVec.ofNat 8 p.length] ++ body ++ [hi, lo]) =
      (.fin p hi lo, []) := by
    rw [rxRun_append, a1]; rfl
  rw [rxRun_append, a2]
  simp only [rxRun, rxStep]
  rw [if_neg (fun h => hbad h.1)]
  rfl

theorem fcs_ne_of_err {p p' : List Byte} (hl : p'.length = p.length) (hs : p.length ≤ 68)
    (herr : Burst 16 (diffBits p p') ∨ (diffBits p p').count true % 2 = 1 ∨ (diffBits p p').count true = 2) :
    fcs p ≠ fcs p' := by
  have hd : diffBits (0x01 :: BitVec.ofNat 8 p.length :: p) (0x01 :: BitVec.ofNat 8 p'.length :: p') =
      List.replicate 16 false ++ diffBits p p' := by
    have := diffBits_append (a := [0x01, BitVec.ofNat 8 p.length]) (b := p)
      (c := [0x01, BitVec.ofNat 8 p'.length]) (d := p') rfl
    simp only [List.cons_append, List.nil_append] at this
    rw [this, hl]
    congr 1
    generalize BitVec.ofNat 8 p.length = x
    simp [diffBits, bits, byteBits, List.range, List.range.loop]
  have hc : (List.replicate 16 false ++ diffBits p p').count true = (diffBits p p').count true := by
    rw [List.count_append, List.count_replicate]; simp
  have key : crc16 fcsInit (0x01 :: BitVec.ofNat 8 p.length :: p) ≠
      crc16 fcsInit (0x01 :: BitVec.ofNat 8 p'.length :: p') := by
    rcases herr with h | h | h
    · obtain ⟨a, m, b, e, h1, h2⟩ := h
      refine C36_burst _ _ (by simp [hl]) ⟨16 + a, m, b, ?_, h1, h2⟩
      rw [hd, e, ← List.replicate_append_replicate]
      simp only [List.append_assoc]
    · exact C36_odd _ _ (by simp [hl]) (by rw [hd, hc]; exact h)
    · exact C36_two _ _ (by simp [hl]) (by simp; omega) (by rw [hd, hc]; exact h)
  intro h
  apply key
  rw [← fcs_eq, ← fcs_eq] at h
  simpa [crc16] using h

theorem fcsBytes_inj {p p' : List Byte} (h : fcsBytes p = fcsBytes p') : fcs p = fcs p' := by
  unfold fcsBytes at h
  have h1 := (fcsWord_iff ((fcs p').extractLsb' 8 8) ((fcs p').extractLsb' 0 8) (fcs p)).mpr h
  have h2 := (fcsWord_iff ((fcs p').extractLsb' 8 8) ((fcs p').extractLsb' 0 8) (fcs p')).mpr rfl
  exact h1.symm.trans h2

/-- **C43** A frame that carries the packet `p` is corrupted on the way, the framing staying intact: the
packet bytes now decode to another packet `p'` of the same length, differing in an error burst of up to
16 bits, in an odd number of bits or in two bits; or the check sequence was changed. In any reachable
state in which the receiver waits for a frame, no packet is received. -/
theorem C43_corruption_detected {eid : Byte} {mx : Nat} {wr : Nat → List Byte → Int} {mem : Mem}
    {c0 c : Core SerialSt} (h : SerialEndpoint eid mx wr mem c0) (hcl : Clean mem) (hw : WrOk wr)
    {hist : List SerialOp} (hh : SerialHist hist) {log : List SerialRec}
    (hr : c0.serialRun hist = .ok (c, log)) (hwait : Waiting c)
    {p p' body' : List Byte} {hi' lo' : Byte} (h4 : 4 ≤ p.length) (h68 : p.length ≤ 68)
    (hl : p'.length = p.length) (hd : Decodes body' p')
    (herr : (fcsBytes p = [hi', lo'] ∧ (Burst 16 (diffBits p p') ∨ (diffBits p p').count true % 2 = 1 ∨
        (diffBits p p').count true = 2)) ∨ (p' = p ∧ fcsBytes p ≠ [hi', lo'])) :
    ∃ c' e, c.serialRx 0 ([0x7e, 0x01, BitVec.ofNat 8 p.length] ++ body' ++ [hi', lo'] ++ [0x7e]) =
      .ok (c', e) ∧ packetsIn e = [] ∧ e.filter (fun ev => (delivered ev).isSome) = [] ∧ Waiting c' := by
  obtain ⟨leak, hi, _⟩ := h.reached hcl hw hh hr
  have hbad : fcsBytes p' ≠ [hi', lo'] := by
    rcases herr with ⟨he, hc⟩ | ⟨rfl, he⟩
    · intro hx
      exact fcs_ne_of_err hl h68 hc (fcsBytes_inj (he.trans hx.symm))
    · exact he
  rw [(waiting_iff hi).mp hwait] at hi
  rw [← hl]
  obtain ⟨c', e, _, g1, g2, _, g4, g5⟩ := serialRx_core
    ([0x7e, 0x01, BitVec.ofNat 8 p'.length] ++ body' ++ [hi', lo'] ++ [0x7e]) hi
  rw [rxRun_badCheck (by omega) (by omega) hd hbad] at g2 g4
  refine ⟨c', e, g1, g4, ?_, (waiting_iff g2).mpr rfl⟩
  rw [serialRx_silent _ hi g1 g4]; rfl

/-- A concrete corruption: one bit of the packet flipped on the wire. -/
example : Decodes [1, 8, 9, 0xc8, 0x55] [1, 8, 9, 0xc8, 0x55] ∧
    (diffBits [1, 8, 9, 0xc8, 0x54] [1, 8, 9, 0xc8, 0x55]).count true = 1 :=
  ⟨.plain 1 (by decide) (.plain 8 (by decide) (.plain 9 (by decide) (.plain 0xc8 (by decide)
    (.plain 0x55 (by decide) .nil)))), by decide⟩

/-! ## C44: packet buffers -/

/-- **C44** fails: after a frame with a wrong check sequence its packet buffer is never freed, not even
when the core is destroyed. (Allocation number 2 is still live; before, nothing was.) -/
theorem C44_refuted :
    ∃ (c0 : Core SerialSt) (hist : List SerialOp) (c : Core SerialSt) (log : List SerialRec) (m : Mem),
      SerialEndpoint 8 65536 Demo.slowWrite {} c0 ∧ Clean {} ∧ WrOk Demo.slowWrite ∧ SerialHist hist ∧
      c0.serialRun hist = .ok (c, log) ∧ Waiting c ∧ c.destroy = .ok m ∧ m.live = [2] := by
  have hw := Demo.slow_good.ok
  have hh : SerialHist [.rx [0x7e, 0x01, 0x05, 1, 8, 9, 0xc8, 0x55, 0, 0, 0x7e]] := by
    intro op hop; simp at hop
  obtain ⟨c, log, h1, _⟩ := C41_total (Demo.serialEndpoint 8 Demo.slowWrite) Demo.clean hw hh
  have hd : (match (Demo.serialCore 8 Demo.slowWrite).serialRun
        [.rx [0x7e, 0x01, 0x05, 1, 8, 9, 0xc8, 0x55, 0, 0, 0x7e]] with
      | .ok (c, _) => (c.busses.map (·.binding.st.state), c.destroy.toOption.map (·.live))
      | .error _ => ([], none)) = ([.waitSync], some [2]) := by decide +kernel
  rw [h1] at hd
  simp only [Prod.mk.injEq] at hd
  obtain ⟨hd1, hd2⟩ := hd
  cases hm : c.destroy with
  | error e => rw [hm] at hd2; cases hd2
  | ok m =>
    rw [hm] at hd2
    refine ⟨_, _, c, log, m, Demo.serialEndpoint 8 Demo.slowWrite, Demo.clean, hw, hh, h1, ?_, hm, by simpa [Except.toOption] using hd2⟩
    intro b hb
    have := List.mem_map_of_mem (f := fun b : Bus SerialSt => b.binding.st.state) hb
    rw [hd1] at this; simpa using this

/-- **C44** (what holds) If the received bytes consist of valid frames separated by bytes other than the
flag, then destroying the core leaves exactly the allocations that existed before. -/
theorem C44_valid_streams_partial {eid : Byte} {mx : Nat} {wr : Nat → List Byte → Int} {mem : Mem}
    {c0 c : Core SerialSt} (h : SerialEndpoint eid mx wr mem c0) (hcl : Clean mem) (hw : WrOk wr)
    {hist : List SerialOp} (hh : SerialHist hist) {log : List SerialRec}
    (hr : c0.serialRun hist = .ok (c, log)) {ps : List (List Byte)} (hs : WellFramed (bytesIn hist) ps) :
    ∃ m, c.destroy = .ok m ∧ m.live.Perm mem.live := by
  obtain ⟨leak, hi, hlen, _⟩ := h.reached hcl hw hh hr
  obtain ⟨hrun, hdr⟩ := rxRun_wellFramed hs
  rw [hdr] at hlen
  have : leak = [] := List.length_eq_zero_iff.mp hlen
  subst this
  obtain ⟨_, _, R, hsim, hmem⟩ := hi
  rw [hrun] at hsim
  obtain ⟨m, h1, h2⟩ := destroy_total hmem
  refine ⟨m, h1, List.perm_iff_count.mpr fun i => ?_⟩
  rw [h2.cnt i, show heldIds R = [] from heldIds_of_sim hsim]
  rfl

/-- **C44** (how much is lost) In general, destroying the core leaves one allocation for each complete
frame that was invalid (`drops` counts them) and one for an unfinished frame. -/
theorem C44_leak_count {eid : Byte} {mx : Nat} {wr : Nat → List Byte → Int} {mem : Mem}
    {c0 c : Core SerialSt} (h : SerialEndpoint eid mx wr mem c0) (hcl : Clean mem) (hw : WrOk wr)
    {hist : List SerialOp} (hh : SerialHist hist) {log : List SerialRec}
    (hr : c0.serialRun hist = .ok (c, log)) :
    ∃ m, c.destroy = .ok m ∧ mem.live.length + drops .hunt (bytesIn hist) ≤ m.live.length ∧
      m.live.length ≤ mem.live.length + drops .hunt (bytesIn hist) + 1 := by
  obtain ⟨leak, hi, hlen, _⟩ := h.reached hcl hw hh hr
  obtain ⟨_, _, R, hsim, hmem⟩ := hi
  obtain ⟨m, h1, h2⟩ := destroy_total hmem
  have hp : m.live.Perm (heldIds R ++ (leak ++ mem.live)) := List.perm_iff_count.mpr h2.cnt
  have hl := hp.length_eq
  have hR : (heldIds R).length ≤ 1 := by
    unfold heldIds; cases R.rxPkt <;> simp
  simp only [List.length_append] at hl
  exact ⟨m, h1, by omega, by omega⟩

/-! ## C45, C46: transmission -/

/-- **C45** Transmitting a packet of up to 255 bytes with a write function that makes progress or fails:
on return value 0 the frame was written completely and in order; otherwise either -EMSGSIZE is returned
and nothing was written, or the write function's negative result is returned, and what was written is a
proper prefix of the frame. -/
theorem C45_writes_frame {b : Binding SerialSt} (hb : TxOk b) {pkt : Pktbuf} {p : List Byte}
    (hp : PktIs pkt p) (hl : p.length ≤ 255) :
    ∃ out w, serialTx b pkt = .ok out ∧ out.st.wire = b.st.wire ++ w ∧
      ((out.rc = 0 ∧ w = frame p) ∨
       (out.rc = -EMSGSIZE ∧ w = [] ∧ 256 < (frame p).length) ∨
       (out.rc < 0 ∧ ∃ rest, rest ≠ [] ∧ frame p = w ++ rest ∧ ∃ j, out.rc = b.st.wr j rest)) := by
  obtain ⟨out, h1, h2, h3, tb, k, w, h4, h5, h6⟩ := serialTx_spec hb hp
  rw [rawFrame_eq hl] at h6
  have e : p.take (p.length % 256) = p := by
    rw [Nat.mod_eq_of_lt (by omega), List.take_length]
  have hfl : (frame p).length = (escaped p).length + 6 := by
    simp [frame, fcsBytes]
  rw [e] at h6
  refine ⟨out, w, h1, by rw [h5], ?_⟩
  rcases h6 with ⟨g1, g2, g3⟩ | ⟨_, g | g⟩
  · exact .inr (.inl ⟨g2, g3, by omega⟩)
  · exact .inl g
  · exact .inr (.inr g)

/-- A write function that keeps returning 0 is called for ever: whatever number of calls is allowed, it
does not suffice. -/
theorem C45_zero_write_loops (b : Binding SerialSt) (hw : b.st.wr = fun _ _ => 0)
    (hbuf : b.st.txbuf.length = 256) {pkt : Pktbuf} {p : List Byte} (hp : PktIs pkt p) (hl : p.length ≤ 68) :
    serialTx b pkt = .error .noReturn := by
  have key : ∀ (n k : Nat) (x : Byte) (xs w : List Byte),
      writeAll (fun _ _ => 0) n k (x :: xs) w = .error .noReturn := by
    intro n
    induction n with
    | zero => intros; rfl
    | succ n ih =>
      intro k x xs w
      simp only [writeAll]
      rw [if_neg (by decide), if_neg (by simp)]
      simpa using ih (k + 1) x xs w
  rw [serialTx_eq hbuf hp]
  have hle := escaped_length_le (p.take (p.length % 256))
  have hle2 : (p.take (p.length % 256)).length ≤ 68 := by simp; omega
  rw [if_neg (by omega), hw]
  have : rawFrame p = 0x7e :: (rawFrame p).tail := rfl
  rw [this, key]
  rfl

/-- **C46** For a packet of any length, transmission stays within the frame buffer (it does not fault);
for a packet of up to 255 bytes it answers -EMSGSIZE exactly if the frame exceeds the 256 bytes of the
buffer, having written nothing. -/
theorem C46_in_bounds {b : Binding SerialSt} (hb : TxOk b) {pkt : Pktbuf} {p : List Byte}
    (hp : PktIs pkt p) :
    ∃ out, serialTx b pkt = .ok out ∧ out.st.txbuf.length = 256 ∧
      (p.length ≤ 255 → 256 < (frame p).length → out.rc = -EMSGSIZE ∧ out.st.wire = b.st.wire) ∧
      (p.length ≤ 255 → (frame p).length ≤ 256 → WrGood b.st.wr → out.rc = 0 ∧ out.st.wire = b.st.wire ++ frame p) := by
  obtain ⟨out, h1, h2, h3, tb, k, w, h4, h5, h6⟩ := serialTx_spec hb hp
  refine ⟨out, h1, by rw [h5]; exact h4, ?_, ?_⟩
  all_goals
    intro hl
    rw [rawFrame_eq hl] at h6
    have e : p.take (p.length % 256) = p := by
      rw [Nat.mod_eq_of_lt (by omega), List.take_length]
    have hfl : (frame p).length = (escaped p).length + 6 := by
      simp [frame, fcsBytes]
    rw [e] at h6
    intro hf
  · rcases h6 with ⟨g1, g2, g3⟩ | ⟨g0, _⟩
    · exact ⟨g2, by rw [h5, g3]; simp⟩
    · omega
  · intro hg
    rcases h6 with ⟨g1, _⟩ | ⟨_, ⟨g1, g2⟩ | ⟨g1, rest, g2, _, j, g3⟩⟩
    · omega
    · exact ⟨g1, by rw [h5, g2]⟩
    · have := (hg j rest g2).1; omega

/-- Both answers occur: a packet of 68 flag bytes needs 142 bytes on the wire; one of 130 flag bytes is
too large. -/
example : (frame (List.replicate 68 0x7e)).length = 142 ∧ (frame (List.replicate 130 0x7e)).length = 266 := by
  decide +kernel

/-- Beyond 255 bytes (the core never makes such packets for this binding) the packet length wraps: a
256-byte packet is sent, successfully, as a frame without packet bytes. -/
theorem C46_long_packet_truncated {b : Binding SerialSt} (hb : TxOk b) (hg : WrGood b.st.wr) {pkt : Pktbuf}
    {p : List Byte} (hp : PktIs pkt p) (hl : p.length = 256) :
    ∃ out, serialTx b pkt = .ok out ∧ out.rc = 0 ∧
      out.st.wire = b.st.wire ++ ([0x7e, 0x01, 0x00] ++ fcsBytes p ++ [0x7e]) := by
  obtain ⟨out, h1, h2, h3, tb, k, w, h4, h5, h6⟩ := serialTx_spec hb hp
  have e : p.take (p.length % 256) = [] := by rw [hl]; rfl
  rw [e] at h6
  rcases h6 with ⟨g1, _⟩ | ⟨_, ⟨g1, g2⟩ | ⟨g1, rest, g2, _, j, g3⟩⟩
  · simp [escaped] at g1
  · refine ⟨out, h1, g1, ?_⟩
    rw [h5, g2, rawFrame, e, hl]; rfl
  · have := (hg j rest g2).1; omega

/-! ## C47: end to end -/

theorem accepted_mtu {size : Nat} : ∀ {log : List (Rec SerialSt)},
    (∀ r ∈ log, ∀ i st ps ph pt cr, r.op ≠ .rebind i st ps ph pt cr) →
    ∀ m ∈ accepted size log, m.mtu = size - 4 := by
  intro log
  induction log with
  | nil => intro _ m hm; cases hm
  | cons r log ih =>
    intro h m hm
    have ih' := ih (fun r hr => h r (by simp [hr]))
    have hr := h r (by simp)
    cases hop : r.op with
    | send d o g x =>
      simp only [accepted, hop, List.mem_append] at hm
      rcases hm with hm | hm
      · split at hm
        · simp only [List.mem_singleton] at hm; subst hm; rfl
        · cases hm
      · exact ih' m hm
    | rebind i st ps ph pt cr => exact absurd hop (hr _ _ _ _ _ _)
    | _ => simp only [accepted, hop] at hm; exact ih' m hm

theorem accepted_tag {ver eid : Byte} {size : Nat} : ∀ {log : List (Rec SerialSt)} {s s' : TxState},
    txRun ver eid s log = some s' → ∀ m ∈ accepted size log, m.tag.toNat ≤ 7 := by
  intro log
  induction log generalizing size with
  | nil => intro s s' _ m hm; cases hm
  | cons r log ih =>
    intro s s' h m hm
    simp only [txRun] at h
    obtain ⟨s1, h1, h2⟩ := Option.bind_eq_some_iff.mp h
    cases hop : r.op with
    | send d o g x =>
      simp only [accepted, hop, List.mem_append] at hm
      rcases hm with hm | hm
      · split at hm
        · rename_i hrc
          simp only [List.mem_singleton] at hm; subst hm
          show g.toNat ≤ 7
          simp only [txStep, hop] at h1
          by_cases hg : 7 < g.toNat
          · rw [if_pos hg, if_neg (by rw [hrc]; exact fun h => absurd h.1 (by decide))] at h1; cases h1
          · omega
        · cases hm
      · exact ih h2 m hm
    | _ => simp only [accepted, hop] at hm; exact ih h2 m hm

theorem coreLog_op {log : List SerialRec} {hist : List SerialOp} (h : log.map (·.op) = hist) :
    ∀ r ∈ coreLog log, SerialOp.core r.op ∈ hist := by
  intro r hr
  obtain ⟨q, hq, hq2⟩ := List.mem_filterMap.mp hr
  subst h
  refine List.mem_map.mpr ⟨q, hq, ?_⟩
  cases ho : q.op with
  | core op => rw [ho] at hq2; simp only [Option.some.injEq] at hq2; rw [← hq2]
  | rx c => rw [ho] at hq2; cases hq2

/-- The packets of a message with 64 payload bytes per packet have 5 to 68 bytes. -/
theorem packets_sizes {ver src : Byte} {m : Msg} (hm : m.mtu = 64) (ht : m.tag.toNat ≤ 7) :
    ∀ p ∈ m.packets ver src, 4 ≤ p.length ∧ p.length ≤ 68 := by
  intro p hp
  have hfr := fragments_isFragmentation (ver := ver) (src := src) (dest := m.dest) (own := m.own)
    (tag := m.tag) (msg := m.data) (mtu := m.mtu) (by omega) (by omega)
  obtain ⟨i, hi⟩ := List.mem_iff_getElem?.mp hp
  obtain ⟨f, hf, _, _, _, _, _, _, _, _, _, _, hle⟩ := hfr.packets i p hi
  have : p.length = f.payload.length + 4 := by
    obtain ⟨v, d, s, g, rfl, _⟩ := parse_some hf
    simp
  omega

/-- **C47** Endpoint A (any history of calls and received bytes, a write function that does not fail) and
endpoint B (any history that does not change its receive callback or size limit), B receiving the bytes A
wrote, or the first part of them, in any chunks. Then the messages delivered to B's user are the messages
A accepted, or the first of them, in order, each once, with A's EID, the tag owner, the tag and the
content; and all of them if A has nothing left to send and B packetsIn everything. -/
theorem C47_end_to_end {eidA eidB : Byte} {mxA mxB : Nat} {wrA wrB : Nat → List Byte → Int}
    {memA memB : Mem} {a0 a b0 b : Core SerialSt}
    (hA : SerialEndpoint eidA mxA wrA memA a0) (hclA : Clean memA) (hwA : WrGood wrA)
    {histA : List SerialOp} (hhA : SerialHist histA) {logA : List SerialRec}
    (hrA : a0.serialRun histA = .ok (a, logA))
    (hB : SerialEndpoint eidB mxB wrB memB b0) (hclB : Clean memB) (hwB : WrOk wrB)
    {histB : List SerialOp} (hhB : SerialHist histB)
    (hstB : ∀ op, .core op ∈ histB → (∀ n, op ≠ .setMax n) ∧ (∀ n, op ≠ .setRx n))
    {logB : List SerialRec} (hrB : b0.serialRun histB = .ok (b, logB))
    (hsrc : eidA ≠ 0) (hmx1 : 4096 ≤ mxB) (hmx2 : mxB < 2 ^ 64)
    (hms : ∀ m ∈ accepted 68 (coreLog logA), Local eidB m.dest ∧ 2 * m.data.length ≤ mxB)
    (hwire : bytesIn histB <+: wireOf a) :
    let want := ((accepted 68 (coreLog logA)).filter (fun m => m.data ≠ [])).map
      (fun m => Event.rxMsg eidA m.own m.tag m.data)
    let got := (serialEvents logB).filter (fun ev => (delivered ev).isSome)
    got <+: want ∧ (pending a = [] → bytesIn histB = wireOf a → got = want) := by
  intro want got
  -- the sender
  obtain ⟨pat, _, hba⟩ := hA.bus
  have hsendInv : SendInv 1 eidA [] ⟨.opened, [], 68⟩ [] a0 :=
    ⟨_, hba, rfl, rfl, rfl, hwA, rfl, by intro o ho; cases ho⟩
  obtain ⟨sA, hA1, ⟨ba, hA2, hA3, hA4, hA5, hA6⟩, hA7⟩ :=
    serialRun_send (hA.serInv hclA hwA.ok) hsendInv hhA hrA
  obtain ⟨a', logA', _, hq1, hq2, _⟩ := serialRun_core (hA.serInv hclA hwA.ok) hhA
  rw [hrA] at hq1
  simp only [Except.ok.injEq, Prod.mk.injEq] at hq1
  obtain ⟨rfl, rfl⟩ := hq1
  have hfifo := txRun_fifo hA1
  have hpend : pending a = sA.queue := by rw [pending_one hA2, ← hA5]; rfl
  have hwireA : wireOf a = (consumed (coreLog logA)).flatMap frame := by
    have : wireOf a = ba.binding.st.wire := by simp [wireOf, hA2]
    rw [this, hA6.2.1, List.nil_append, List.nil_append, hA7]; rfl
  have hmtu : ∀ m ∈ accepted 68 (coreLog logA), m.mtu = 64 := accepted_mtu (size := 68) (by
    intro r hr i st ps ph pt cr he
    have := hhA r.op (coreLog_op hq2 r hr)
    rw [he] at this; exact this)
  have htag := accepted_tag (size := 68) hA1
  generalize hps : (accepted 68 (coreLog logA)).flatMap (Msg.packets 1 eidA) = ps at hfifo
  have hfifo' : consumed (coreLog logA) ++ sA.queue = ps := by simpa using hfifo
  have hpsz : ∀ p ∈ ps, 4 ≤ p.length ∧ p.length ≤ 68 := by
    rw [← hps]; intro p hp
    obtain ⟨m, hm, hp⟩ := List.mem_flatMap.mp hp
    exact packets_sizes (hmtu m hm) (htag m hm) p hp
  -- the receiver, continued with the rest of the bytes
  obtain ⟨rest, hrest⟩ : bytesIn histB <+: ps.flatMap frame := by
    refine hwire.trans ?_
    rw [hwireA, ← hfifo', List.flatMap_append]
    exact List.prefix_append _ _
  have hpol := Pol.loose hmx2
  have hflags := hB.configured.flags
  have hcfg : RxCfg mxB (fun x => x ≤ mxB) b0 := by
    refine ⟨hflags.1, hflags.2.1, ?_⟩
    rw [hflags.2.2]; intro x hx
    rw [List.eq_of_mem_replicate hx]
    exact Nat.zero_le _
  obtain ⟨b', logB', _, k1, _, k3, _, k5, k6⟩ := serialRun_core (hB.serInv hclB hwB) hhB
  rw [hrB] at k1
  simp only [Except.ok.injEq, Prod.mk.injEq] at k1
  obtain ⟨rfl, rfl⟩ := k1
  obtain ⟨hcfg1, hex1⟩ := k6 hpol (fun _ _ => trivial) hstB hcfg
  obtain ⟨b2, e2, _, j1, _, _, j4, j5⟩ := serialRx_core rest k3
  obtain ⟨_, hex2⟩ := j5 hpol (fun _ _ => trivial) hcfg1
  obtain ⟨tr, t1, t2, t3⟩ := hex1.trans hex2
  rw [packetsIn_append, k5, j4] at t1
  have hrun := rxRun_frames (max := 68) (by decide) ps hpsz
  rw [← hrest, rxRun_append] at hrun
  have htr : tr.map (·.1) = ps := by
    rw [t1]; exact congrArg Prod.snd hrun
  rw [hflags.2.2, abs_init] at t2
  obtain ⟨q1, _, _⟩ := reasm_many hsrc (fun m hm =>
    ⟨by rw [hmtu m hm]; decide, by have := htag m hm; omega, (hms m hm).1,
      fun n b hn hl => hl.2 hmx1 (by have := (hms m hm).2; omega)⟩) t2 (htr.trans hps.symm) (by
      rintro ⟨ks, _, hlen, hks⟩
      cases ks with
      | nil => simp at hlen
      | cons k ks => exact hks k (by simp) rfl)
  have hall : got ++ e2.filter (fun ev => (delivered ev).isSome) = want := by
    show _ = want
    rw [← List.filter_append]
    exact t3.trans q1
  refine ⟨⟨_, hall⟩, fun hp hb => ?_⟩
  have hq : sA.queue = [] := by rw [← hpend, hp]
  rw [hq, List.append_nil] at hfifo'
  have hre : rest = [] := by
    rw [hb, hwireA, hfifo'] at hrest
    simpa using hrest
  subst hre
  simp only [Core.serialRx, Except.ok.injEq, Prod.mk.injEq] at j1
  obtain ⟨_, rfl⟩ := j1
  simpa using hall

/-- A concrete run: A sends a 100-byte message (two packets, with bytes to be escaped) and a short one; B
receives the bytes in two chunks, the first ending within the second frame. -/
example :
    let msg := List.replicate 100 (0x7e : Byte)
    let histA : List SerialOp := [.core (.send 9 true 3 msg), .rx [1, 2, 3], .core (.send 9 false 1 [5])]
    ∃ a logA, (Demo.serialCore 8 Demo.slowWrite).serialRun histA = .ok (a, logA) ∧ SerialHist histA ∧
      pending a = [] ∧ accepted 68 (coreLog logA) = [⟨9, true, 3, 64, msg⟩, ⟨9, false, 1, 64, [5]⟩] ∧
      (Demo.serialTrace (Demo.serialCore 9 Demo.slowWrite)
        [.rx ((wireOf a).take 150), .core (.send 8 true 0 [1]), .rx ((wireOf a).drop 150)]).map (·.2.1) =
        some [.rxMsg 8 true 3 msg, .rxMsg 8 false 1 [5]] := by
  intro msg histA
  have hh : SerialHist histA := by
    intro op hop
    simp only [histA, List.mem_cons, SerialOp.core.injEq, reduceCtorEq, List.not_mem_nil, or_false, false_or] at hop
    rcases hop with rfl | rfl <;> trivial
  obtain ⟨a, logA, h1, _⟩ := C41_total (Demo.serialEndpoint 8 Demo.slowWrite) Demo.clean Demo.slow_good.ok hh
  refine ⟨a, logA, h1, hh, ?_⟩
  have hd : (match (Demo.serialCore 8 Demo.slowWrite).serialRun histA with
      | .ok (a, logA) => decide (pending a = [] ∧
          accepted 68 (coreLog logA) = [⟨9, true, 3, 64, msg⟩, ⟨9, false, 1, 64, [5]⟩] ∧
          (Demo.serialTrace (Demo.serialCore 9 Demo.slowWrite)
            [.rx ((wireOf a).take 150), .core (.send 8 true 0 [1]), .rx ((wireOf a).drop 150)]).map (·.2.1) =
            some [.rxMsg 8 true 3 msg, .rxMsg 8 false 1 [5]])
      | .error _ => false) = true := by decide +kernel
  rw [h1] at hd
  exact of_decide_eq_true hd

end Mctp
