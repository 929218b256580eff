import Verif.Model.Tools
import Verif.Props.Serial

/-!
# Auxiliary results for `mctp-pipe` and `mctp-in`
-/

namespace Mctp

open Spec

/-! ## Histories -/

theorem serialRun_append {c c1 : Core SerialSt} {h1 h2 : List SerialOp} {l1 : List SerialRec}
    (h : c.serialRun h1 = .ok (c1, l1)) :
    c.serialRun (h1 ++ h2) = (c1.serialRun h2).bind (fun r => .ok (r.1, l1 ++ r.2)) := by
  induction h1 generalizing c l1 with
  | nil =>
    simp only [Core.serialRun, Except.ok.injEq, Prod.mk.injEq] at h
    obtain ⟨rfl, rfl⟩ := h
    rw [List.nil_append]
    cases hq : c.serialRun h2 <;> rfl
  | cons op h1 ih =>
    simp only [Core.serialRun] at h
    obtain ⟨⟨c2, e, rc⟩, hs, h⟩ := Res.bind_eq_ok.mp h
    simp only at h
    obtain ⟨⟨c3, l3⟩, hr, h⟩ := Res.bind_eq_ok.mp h
    simp only [Except.ok.injEq, Prod.mk.injEq] at h
    obtain ⟨rfl, rfl⟩ := h
    simp only [List.cons_append, Core.serialRun, hs, Res.bind_ok]
    rw [ih hr]
    cases hq : c3.serialRun h2 <;> rfl

theorem serialRun_snoc {c c1 c2 : Core SerialSt} {h : List SerialOp} {l : List SerialRec} {op : SerialOp}
    {e : List Event} {rc : Int} (hr : c.serialRun h = .ok (c1, l)) (hs : c1.serialStep op = .ok (c2, e, rc)) :
    c.serialRun (h ++ [op]) = .ok (c2, l ++ [⟨op, e, rc⟩]) := by
  rw [serialRun_append hr]
  simp only [Core.serialRun, hs, Res.bind_ok]
  rfl

/-- A reachable endpoint does not fault. -/
theorem SerialEndpoint.step {eid : Byte} {mx : Nat} {wr : Nat → List Byte → Int} {mem : Mem}
    {c0 c : Core SerialSt} (h : SerialEndpoint eid mx wr mem c0) (hcl : Clean mem) (hw : WrOk wr)
    {hist : List SerialOp} (hh : SerialHist hist) {log : List SerialRec} (hr : c0.serialRun hist = .ok (c, log))
    {op : SerialOp} (hop : ∀ o, op = .core o → AppOp o) :
    ∃ c' e rc, c.serialStep op = .ok (c', e, rc) ∧ c0.serialRun (hist ++ [op]) = .ok (c', log ++ [⟨op, e, rc⟩]) := by
  obtain ⟨c2, l2, h1, h2⟩ := C41_total h hcl hw (hist := hist ++ [op]) (by
    intro o ho
    rcases List.mem_append.mp ho with ho | ho
    · exact hh o ho
    · exact hop o (by simpa using (List.mem_singleton.mp ho).symm))
  cases hs : c.serialStep op with
  | error f =>
    rw [serialRun_append hr] at h1
    simp only [Core.serialRun, hs] at h1
    cases h1
  | ok v => exact ⟨v.1, v.2.1, v.2.2, rfl, serialRun_snoc hr hs⟩

/-- The messages given to `mctp_message_tx` in a history. -/
def sendsOf (hist : List SerialOp) : List Msg :=
  hist.filterMap fun op => match op with
    | .core (.send d o g m) => some ⟨d, o, g, 64, m⟩
    | _ => none

theorem OnlySends.app {op : SerialOp} (h : OnlySends op) : ∀ o, op = .core o → AppOp o := by
  rintro o rfl
  cases o with
  | send d o g m => trivial
  | setRx x => trivial
  | _ => exact h.elim

/-- A sender whose writes succeed and that is never told to stop has accepted every message and written all of
their frames. -/
theorem serial_sender {eid : Byte} {mx : Nat} {wr : Nat → List Byte → Int} {mem : Mem} {a0 a : Core SerialSt}
    (hA : SerialEndpoint eid mx wr mem a0) (hcl : Clean mem) (hw : WrGood wr) {hist : List SerialOp}
    (hs : ∀ op ∈ hist, OnlySends op) {log : List SerialRec} (hr : a0.serialRun hist = .ok (a, log)) :
    pending a = [] ∧ accepted 68 (coreLog log) = sendsOf hist ∧
      wireOf a = ((sendsOf hist).flatMap (Msg.packets 1 eid)).flatMap frame := by
  obtain ⟨pat, _, hba⟩ := hA.bus
  have hsendInv : SendInv 1 eid [] ⟨.opened, [], 68⟩ [] a0 :=
    ⟨_, hba, rfl, rfl, rfl, hw, rfl, by intro o ho; cases ho⟩
  have hh : SerialHist hist := fun o ho => (hs _ ho).app o rfl
  obtain ⟨sA, hA1, ⟨ba, hA2, hA3, hA4, hA5, hA6⟩, hA7⟩ := serialRun_send (hA.serInv hcl hw.ok) hsendInv hh hr
  obtain ⟨a', log', h1, h2⟩ := C41_total hA hcl hw.ok hh
  rw [hr] at h1
  simp only [Except.ok.injEq, Prod.mk.injEq] at h1
  obtain ⟨rfl, rfl⟩ := h1
  obtain ⟨k1, k2⟩ := txRun_drains hA1 (by
    intro r hr'
    exact hs _ (by rw [← h2]; exact List.mem_map_of_mem hr')) rfl rfl (by
    intro o ho; rw [← hA7] at ho; exact hA6.2.2 o (by simpa using ho))
  have k2' : accepted 68 (coreLog log) = sendsOf hist := by
    rw [k2, h2]; rfl
  have hfifo := txRun_fifo hA1
  rw [k1] at hfifo
  refine ⟨?_, k2', ?_⟩
  · have : pending a = sA.queue := by rw [pending_one hA2, ← hA5]; rfl
    rw [this, k1]
  · have : wireOf a = ba.binding.st.wire := by simp [wireOf, hA2]
    rw [this, hA6.2.1, List.nil_append, List.nil_append, hA7, ← k2']
    have : consumed (coreLog log) = (accepted 68 (coreLog log)).flatMap (Msg.packets 1 eid) := by simpa using hfifo
    rw [← this]; rfl

/-! ## What is printed -/

theorem printed_append (x y : List Event) : printed (x ++ y) = printed x ++ printed y := by
  simp [printed]

theorem printed_filter (e : List Event) : printed (e.filter (fun ev => (delivered ev).isSome)) = printed e := by
  induction e with
  | nil => rfl
  | cons x e ih =>
    rw [List.filter_cons]
    split
    · rw [show x :: e = [x] ++ e from rfl, printed_append, ← ih, ← printed_append]; rfl
    · rename_i hx
      rw [ih, show x :: e = [x] ++ e from rfl, printed_append]
      cases x <;> simp_all [delivered, printed]

theorem printed_tx {e : List Event} (h : ∀ ev ∈ e, IsTxEvent ev) : printed e = [] := by
  rw [printed, List.flatMap_eq_nil_iff]
  intro ev hev
  cases ev with
  | rxMsg s o g m => exact absurd (h _ hev) (by simp [IsTxEvent])
  | _ => rfl

theorem printed_prefix {x y : List Event} (h : x <+: y) : printed x <+: printed y := by
  obtain ⟨z, rfl⟩ := h
  rw [printed_append]; exact List.prefix_append _ _

theorem printed_msgs (src : Byte) (ms : List Msg) :
    printed ((ms.filter (fun m => m.data ≠ [])).map (fun m => Event.rxMsg src m.own m.tag m.data)) = ms.flatMap (·.data) := by
  induction ms with
  | nil => rfl
  | cons m ms ih =>
    rw [List.filter_cons]
    split
    · rw [List.map_cons, List.flatMap_cons, ← ih]; rfl
    · rename_i h
      rw [ih, List.flatMap_cons]
      have : m.data = [] := by simpa using h
      rw [this, List.nil_append]

/-! ## The size of the frames of a message -/

theorem escaped_length_ge (p : List Byte) : p.length ≤ (escaped p).length := by
  induction p with
  | nil => simp
  | cons c p ih =>
    simp only [escaped, List.flatMap_cons, List.length_append, List.length_cons] at ih ⊢
    have : 1 ≤ (escape c).length := by unfold escape; split <;> simp
    omega

theorem frame_length (p : List Byte) : (frame p).length = (escaped p).length + 6 := by
  simp [frame, fcsBytes]

/-- Between a total of 10 more bytes per packet and twice as much. -/
theorem frames_length (ps : List (List Byte)) (h : ∀ p ∈ ps, 4 ≤ p.length) :
    (ps.flatMap (fun p => p.drop 4)).length + 10 * ps.length ≤ (ps.flatMap frame).length ∧
      (ps.flatMap frame).length ≤ 2 * (ps.flatMap (fun p => p.drop 4)).length + 14 * ps.length := by
  induction ps with
  | nil => simp
  | cons p ps ih =>
    obtain ⟨h1, h2⟩ := ih (fun q hq => h q (by simp [hq]))
    have h3 := h p (by simp)
    have h4 := escaped_length_ge p
    have h5 := escaped_length_le p
    simp only [List.flatMap_cons, List.length_append, List.length_drop, List.length_cons, frame_length]
    omega

theorem message_length {src : Byte} {m : Msg} (hm : m.mtu = 64) (ht : m.tag.toNat ≤ 7) :
    m.data.length + 10 * ((m.data.length + 63) / 64) ≤ ((m.packets 1 src).flatMap frame).length ∧
      ((m.packets 1 src).flatMap frame).length ≤ 2 * m.data.length + 14 * ((m.data.length + 63) / 64) := by
  have hfr := fragments_isFragmentation (ver := 1) (src := src) (dest := m.dest) (own := m.own)
    (tag := m.tag) (msg := m.data) (mtu := m.mtu) (by omega) (by omega)
  have hl := frames_length (m.packets 1 src) (fun p hp => (packets_sizes hm ht p hp).1)
  have h1 : (m.packets 1 src).length = (m.data.length + 63) / 64 := by
    have := hfr.count
    rw [Msg.packets, this, hm]; rfl
  have h2 : ((m.packets 1 src).flatMap (fun p => p.drop 4)) = m.data := hfr.content
  rw [h1, h2] at hl
  exact hl

/-! ## mctp-pipe -/

/-- One of the two endpoints, when the loop starts. -/
def pipeEnd (fill : Nat → Byte) (eid : Byte) (rx : Bool) : Core SerialSt :=
  { mem := { next := 2, live := [1, 0] }, fill := fill, self := 0, nBusses := 1,
    bussesPtr := some 1,
    busses := [{ eid := eid, binding := serialInit blockingWrite 256, state := .txEnabled, queue := [] }],
    hasRx := rx, hasCapture := false, ctxs := List.replicate 16 Ctx.zero, bridge := false,
    maxSize := 65536 }

theorem pipeEnd_ok (fill : Nat → Byte) (eid : Byte) : SerialEndpoint eid 65536 blockingWrite {} (pipeEnd fill eid true) :=
  ⟨fill, _, 256, 0, rfl, by decide, rfl, by decide⟩

theorem pipe_start (fill : Nat → Byte) : Pipe.start fill = .ok
    { a := pipeEnd fill 8 false, b := pipeEnd fill 9 true, toA := 0, toB := 0, n := 3, fd0 := true, fd1 := true, open0 := true,
      inp := [], out := [] } := rfl

theorem blockingWrite_good : WrGood blockingWrite := by
  intro k buf h
  refine ⟨?_, Int.le_refl _⟩
  show (0 : Int) < (buf.length : Int)
  have := List.length_pos_iff.mpr h
  omega

theorem clean_empty : Clean {} := by
  first
    | exact Demo.clean
    | decide

/-- The bytes in flight and the two histories. -/
structure PipeInv (fill : Nat → Byte) (p : Pipe) : Prop where
  ex : ∃ histA logA histB logB,
    (pipeEnd fill 8 true).serialRun histA = .ok (p.a, logA) ∧ (∀ op ∈ histA, OnlySends op) ∧
    (∀ m ∈ sendsOf histA, m.dest = 9 ∧ 1 ≤ m.data.length ∧ m.data.length ≤ 1024) ∧
    p.inp = (sendsOf histA).flatMap (·.data) ∧
    (pipeEnd fill 9 true).serialRun histB = .ok (p.b, logB) ∧ (∀ op ∈ histB, ∃ ch, op = .rx ch) ∧
    bytesIn histB = (wireOf p.a).take p.toB ∧ p.out = printed (serialEvents logB)
  le  : p.toB ≤ (wireOf p.a).length

theorem bytesIn_append (x y : List SerialOp) : bytesIn (x ++ y) = bytesIn x ++ bytesIn y := by
  induction x with
  | nil => rfl
  | cons o x ih => cases o <;> simp [bytesIn, ih]

theorem rxs_sends {h : List SerialOp} (hx : ∀ op ∈ h, ∃ ch, op = .rx ch) : ∀ op ∈ h, OnlySends op := by
  intro op ho
  obtain ⟨ch, rfl⟩ := hx op ho
  trivial

theorem sendsOf_rxs {h : List SerialOp} (hx : ∀ op ∈ h, ∃ ch, op = .rx ch) : sendsOf h = [] := by
  rw [sendsOf, List.filterMap_eq_nil_iff]
  intro op ho
  obtain ⟨ch, rfl⟩ := hx op ho
  rfl

theorem PipeInv.wireB {fill : Nat → Byte} {p : Pipe} (h : PipeInv fill p) : wireOf p.b = [] := by
  obtain ⟨hA, lA, hB, lB, -, -, -, -, h1, h2, -⟩ := h.ex
  rw [(serial_sender (pipeEnd_ok fill 9) clean_empty blockingWrite_good (rxs_sends h2) h1).2.2, sendsOf_rxs h2]
  rfl

theorem pipe_init (fill : Nat → Byte) : PipeInv fill
    { a := pipeEnd fill 8 false, b := pipeEnd fill 9 true, toA := 0, toB := 0, n := 3, fd0 := true, fd1 := true, open0 := true,
      inp := [], out := [] } :=
  ⟨⟨[.core (.setRx false)], _, [], [], rfl, (by
      intro op ho; rw [List.mem_singleton] at ho; subst ho; trivial), (by intro m hm; cases hm), rfl, rfl,
      (by intro op ho; cases ho), by simp [bytesIn], rfl⟩, Nat.zero_le _⟩

/-- What `C47` says about the two ends. -/
theorem PipeInv.prefix {fill : Nat → Byte} {p : Pipe} (h : PipeInv fill p) :
    p.out <+: p.inp ∧ (p.toB = (wireOf p.a).length → p.out = p.inp) := by
  obtain ⟨hA, lA, hB, lB, a1, a2, a3, a4, b1, b2, b3, b4⟩ := h.ex
  obtain ⟨k1, k2, k3⟩ := serial_sender (pipeEnd_ok fill 8) clean_empty blockingWrite_good a2 a1
  have hm : ∀ m ∈ accepted 68 (coreLog lA), Local 9 m.dest ∧ 2 * m.data.length ≤ 65536 := by
    rw [k2]; intro m hm
    obtain ⟨g1, _, g3⟩ := a3 m hm
    exact ⟨.inl g1, by omega⟩
  obtain ⟨q1, q2⟩ := C47_end_to_end (pipeEnd_ok fill 8) clean_empty blockingWrite_good (fun o ho => (a2 _ ho).app o rfl) a1
    (pipeEnd_ok fill 9) clean_empty blockingWrite_good.ok (fun o ho => (rxs_sends b2 _ ho).app o rfl)
    (by intro op ho; obtain ⟨ch, hc⟩ := b2 _ ho; cases hc) b1 (by decide) (by decide) (by decide) hm
    (by rw [b3]; exact List.take_prefix _ _)
  have e1 := printed_filter (serialEvents lB)
  have e2 := printed_msgs 8 (accepted 68 (coreLog lA))
  rw [k2] at e2 q1 q2
  refine ⟨?_, fun he => ?_⟩
  · have := printed_prefix q1
    rw [e1, e2] at this
    rw [b4, a4]; exact this
  · have := q2 k1 (by rw [b3, he, List.take_length])
    have := congrArg printed this
    rw [e1, e2] at this
    rw [b4, a4]; exact this

theorem nextBytes_nil {w : List Byte} {d amt : Nat} (h : nextBytes w d amt = []) : w.length ≤ d := by
  have : (nextBytes w d amt).length = 0 := by rw [h]; rfl
  simp only [nextBytes, List.length_take, List.length_drop] at this
  omega

theorem nextBytes_take {w : List Byte} {d amt : Nat} :
    w.take d ++ nextBytes w d amt = w.take (d + (nextBytes w d amt).length) := by
  by_cases hd : d ≤ w.length
  · rw [List.take_add, nextBytes]
    congr 1
    rw [List.length_take, List.take_eq_take_iff]
    simp
  · have : nextBytes w d amt = [] := by simp [nextBytes, List.drop_eq_nil_of_le (by omega : w.length ≤ d)]
    rw [this]; simp

/-- Reading from the socket. -/
theorem read1_spec {fill : Nat → Byte} {p : Pipe} (h : PipeInv fill p) (amt : Nat) :
    ∃ b out f, p.read1 amt = .ok { p with b := b, toB := p.toB + (nextBytes (wireOf p.a) p.toB amt).length, fd1 := f, out := out } ∧
      PipeInv fill { p with b := b, toB := p.toB + (nextBytes (wireOf p.a) p.toB amt).length, fd1 := f, out := out } ∧
      (p.toB < (wireOf p.a).length → f = p.fd1) ∧ (p.toB = (wireOf p.a).length → f = false) := by
  obtain ⟨hA, lA, hB, lB, a1, a2, a3, a4, b1, b2, b3, b4⟩ := h.ex
  unfold Pipe.read1
  by_cases hn : nextBytes (wireOf p.a) p.toB amt = []
  · refine ⟨p.b, p.out, false, ?_, ?_, ?_, fun _ => rfl⟩
    · simp [hn, Core.serialRead, printed, Res.bind_ok]
    · refine ⟨⟨hA, lA, hB, lB, a1, a2, a3, a4, b1, b2, ?_, b4⟩, ?_⟩
      · rw [hn]; exact b3
      · rw [hn]; exact h.le
    · intro hlt; have := nextBytes_nil hn; omega
  · obtain ⟨b', e, rc, s1, s2⟩ := (pipeEnd_ok fill 9).step clean_empty blockingWrite_good.ok
      (fun o ho => (rxs_sends b2 _ ho).app o rfl) b1 (op := .rx (nextBytes (wireOf p.a) p.toB amt)) (by intro o ho; cases ho)
    have s1' := s1
    simp only [Core.serialStep] at s1
    obtain ⟨⟨c', e'⟩, s3, s4⟩ := Res.bind_eq_ok.mp s1
    simp only [Except.ok.injEq, Prod.mk.injEq] at s4
    obtain ⟨rfl, rfl, rfl⟩ := s4
    refine ⟨c', p.out ++ printed e', p.fd1, ?_, ?_, fun _ => rfl, ?_⟩
    · simp [if_neg hn, Core.serialRead, s3, Res.bind_ok]
    · refine ⟨⟨hA, lA, _, _, a1, a2, a3, a4, s2, ?_, ?_, ?_⟩, ?_⟩
      · intro op ho
        rcases List.mem_append.mp ho with ho | ho
        · exact b2 op ho
        · rw [List.mem_singleton] at ho; exact ⟨_, ho⟩
      · rw [bytesIn_append, b3]
        simp only [bytesIn, List.append_nil]
        exact nextBytes_take
      · simp only
        rw [b4, serialEvents, serialEvents, List.flatMap_append, printed_append]
        simp
      · simp only [nextBytes, List.length_take, List.length_drop]
        have := h.le
        omega
    · intro he; exact absurd (by simp [nextBytes, he]) hn

/-- A message from the standard input. -/
theorem input_spec {fill : Nat → Byte} {p : Pipe} (h : PipeInv fill p) (cap : Nat) {buf : List Byte} (hb : buf ≠ []) :
    ∃ a, p.input cap (some buf) = .ok ({ p with a := a, inp := p.inp ++ buf.take 1024 },
        if (wireOf a).length - p.toB ≤ cap then .running else .stuck) ∧
      PipeInv fill { p with a := a, inp := p.inp ++ buf.take 1024 } ∧
      (wireOf p.a).length + (buf.take 1024).length + 10 * (((buf.take 1024).length + 63) / 64) ≤ (wireOf a).length ∧
      (wireOf a).length ≤ (wireOf p.a).length + 2 * (buf.take 1024).length + 14 * (((buf.take 1024).length + 63) / 64) := by
  obtain ⟨hA, lA, hB, lB, a1, a2, a3, a4, b1, b2, b3, b4⟩ := h.ex
  obtain ⟨k1, k2, k3⟩ := serial_sender (pipeEnd_ok fill 8) clean_empty blockingWrite_good a2 a1
  have hlen : 1 ≤ (buf.take 1024).length ∧ (buf.take 1024).length ≤ 1024 := by
    have := List.length_pos_iff.mpr hb
    simp only [List.length_take]; omega
  generalize hx : buf.take 1024 = x at hlen
  obtain ⟨a', e, rc, s1, s2⟩ := (pipeEnd_ok fill 8).step clean_empty blockingWrite_good.ok
      (fun o ho => (a2 _ ho).app o rfl) a1 (op := .core (.send 9 true 0 x)) (by rintro o ho; cases ho; trivial)
  have hsends : ∀ op ∈ hA ++ [SerialOp.core (.send 9 true 0 x)], OnlySends op := by
    intro op ho
    rcases List.mem_append.mp ho with ho | ho
    · exact a2 op ho
    · rw [List.mem_singleton] at ho; subst ho; show (0 : Byte).toNat ≤ 7; decide
  obtain ⟨j1, j2, j3⟩ := serial_sender (pipeEnd_ok fill 8) clean_empty blockingWrite_good hsends s2
  have hso : sendsOf (hA ++ [SerialOp.core (.send 9 true 0 x)]) = sendsOf hA ++ [⟨9, true, 0, 64, x⟩] := by
    simp [sendsOf]
  have hwire : wireOf a' = wireOf p.a ++ ((Msg.packets 1 8 ⟨9, true, 0, 64, x⟩).flatMap frame) := by
    rw [j3, k3, hso, List.flatMap_append, List.flatMap_append]
    simp
  have hml := message_length (src := 8) (m := ⟨9, true, 0, 64, x⟩) rfl (show (0 : Byte).toNat ≤ 7 by decide)
  -- nothing is printed by a send
  have hpr : printed e = [] := by
    obtain ⟨lk, hinv, -⟩ := (pipeEnd_ok fill 8).reached clean_empty blockingWrite_good.ok (fun o ho => (a2 _ ho).app o rfl) a1
    obtain ⟨c', e', rc', q1, -, q3, -⟩ := serialStep_core hinv (op := .send 9 true 0 x) trivial
    simp only [Core.serialStep] at s1
    rw [q1] at s1
    simp only [Except.ok.injEq, Prod.mk.injEq] at s1
    rw [← s1.2.1]; exact printed_tx q3
  refine ⟨a', ?_, ?_, ?_, ?_⟩
  · cases buf with
    | nil => exact absurd rfl hb
    | cons y ys =>
      simp only [Core.serialStep, Core.step] at s1
      simp only [Pipe.input, hx, s1, Res.bind_ok, hpr, List.append_nil]
  · refine ⟨⟨_, _, hB, lB, s2, hsends, ?_, ?_, b1, b2, ?_, b4⟩, ?_⟩
    · rw [hso]; intro m hm
      rcases List.mem_append.mp hm with hm | hm
      · exact a3 m hm
      · rw [List.mem_singleton] at hm; subst hm; exact ⟨rfl, hlen⟩
    · simp only [hso, List.flatMap_append, a4]; simp
    · simp only [b3, hwire]
      rw [List.take_append_of_le_length h.le]
    · simp only [hwire, List.length_append]; have := h.le; omega
  · rw [hwire, List.length_append]; simp only at hml; omega
  · rw [hwire, List.length_append]; simp only at hml; omega

/-- The loop while the standard input is open. -/
def Live3 (p : Pipe) : Prop := p.n = 3 ∧ p.fd0 = true ∧ p.open0 = true ∧ p.fd1 = true

/-- The loop afterwards. -/
def Live2 (p : Pipe) : Prop := p.n = 2 ∧ p.fd0 = false ∧ p.open0 = false ∧ p.fd1 = true

/-- The first part of an iteration: the sockets. -/
theorem reads_spec {fill : Nat → Byte} {p : Pipe} (h : PipeInv fill p) (hl : Live3 p ∨ Live2 p) (t : Turn) :
    ∃ b out f d, (p.fd0 && decide (p.toA < (wireOf p.b).length)) = false ∧
      p.sock1 (p.fd1 && (decide (p.toB < (wireOf p.a).length) || !p.open0)) t.amt1 =
        .ok { p with b := b, toB := d, fd1 := f, out := out } ∧
      PipeInv fill { p with b := b, toB := d, fd1 := f, out := out } ∧ p.toB ≤ d ∧ d ≤ p.toB + 1024 ∧
      (p.toB < (wireOf p.a).length → f = true ∧ p.toB < d) ∧
      (p.toB = (wireOf p.a).length → f = p.open0) := by
  have hb := h.wireB
  have h0 : (p.fd0 && decide (p.toA < (wireOf p.b).length)) = false := by rw [hb]; simp
  have hf : p.fd1 = true := by rcases hl with hl | hl <;> exact hl.2.2.2
  have hc : ((p.fd1 && (decide (p.toB < (wireOf p.a).length) || !p.open0)) = true) =
      (p.toB < (wireOf p.a).length ∨ p.open0 = false) := by rw [hf]; simp
  simp only [Pipe.sock1, hc]
  by_cases hr : p.toB < (wireOf p.a).length ∨ p.open0 = false
  · rw [if_pos hr]
    obtain ⟨b, out, f, k1, k2, k3, k4⟩ := read1_spec h t.amt1
    refine ⟨b, out, f, _, h0, k1, k2, by omega, ?_, ?_, ?_⟩
    · simp only [nextBytes, List.length_take]; omega
    · intro hlt
      refine ⟨by rw [k3 hlt, hf], ?_⟩
      simp only [nextBytes, List.length_take, List.length_drop]; omega
    · intro he
      rw [k4 he]
      rcases hr with hr | hr
      · omega
      · exact hr.symm
  · rw [if_neg hr]
    refine ⟨p.b, p.out, p.fd1, p.toB, h0, rfl, h, Nat.le_refl _, by omega, fun hlt => absurd (.inl hlt) hr, fun _ => ?_⟩
    rw [hf]
    cases ho : p.open0 with
    | true => rfl
    | false => exact absurd (.inr ho) hr

/-- An iteration after the end of the input. -/
theorem turn2_spec {fill : Nat → Byte} {p : Pipe} (h : PipeInv fill p) (hl : Live2 p) (cap : Nat) {t : Turn}
    (ht : t.pollOk = true) :
    ∃ p' s, p.turn cap t = .ok (p', s) ∧ PipeInv fill p' ∧ p'.inp = p.inp ∧ p'.a = p.a ∧
      (p.toB < (wireOf p.a).length → s = .running ∧ Live2 p' ∧ p.toB < p'.toB) ∧
      (p.toB = (wireOf p.a).length → s = .finished ∧ p'.toB = p.toB) := by
  obtain ⟨b, out, f, d, k0, k1, k2, k3, k4, k5, k6⟩ := reads_spec h (.inr hl) t
  obtain ⟨l1, l2, l3, l4⟩ := hl
  unfold Pipe.turn
  simp only [ht, k0, Bool.not_true, Bool.false_eq_true, if_false, Pipe.sock0, Res.bind_ok, k1, Pipe.keys]
  rw [if_neg (by omega : ¬ p.n > 2)]
  simp only [Res.bind_ok]
  have hle := h.le
  by_cases hlt : p.toB < (wireOf p.a).length
  · obtain ⟨rfl, g2⟩ := k5 hlt
    simp only [Bool.true_eq_false, and_false, if_false]
    exact ⟨_, _, rfl, k2, rfl, rfl, fun _ => ⟨rfl, ⟨l1, l2, l3, rfl⟩, g2⟩, fun he => by omega⟩
  · have he : p.toB = (wireOf p.a).length := by omega
    have hf := k6 he
    rw [l3] at hf; subst hf
    rw [if_pos ⟨trivial, l1, l2, rfl⟩]
    refine ⟨_, _, rfl, k2, rfl, rfl, fun hlt => by omega, fun _ => ⟨rfl, ?_⟩⟩
    have := k2.le
    simp only at this ⊢; omega

/-- An iteration before it. -/
theorem turn3_spec {fill : Nat → Byte} {p : Pipe} (h : PipeInv fill p) (hl : Live3 p) (cap : Nat) {t : Turn}
    (ht : t.pollOk = true) :
    ∃ p' s, p.turn cap t = .ok (p', s) ∧ PipeInv fill p' ∧ p'.toB ≤ p.toB + 1024 ∧
      match t.stdin with
      | none => s = .running ∧ Live3 p' ∧ p'.inp = p.inp ∧ p'.a = p.a
      | some none => s = .failed ∧ p'.inp = p.inp
      | some (some []) => s = .running ∧ Live2 p' ∧ p'.inp = p.inp ∧ p'.a = p.a
      | some (some (x :: xs)) => s = (if (wireOf p'.a).length - p'.toB ≤ cap then Progress.running else .stuck) ∧ Live3 p' ∧
          p'.inp = p.inp ++ (x :: xs).take 1024 ∧
          (wireOf p.a).length + ((x :: xs).take 1024).length + 10 * ((((x :: xs).take 1024).length + 63) / 64) ≤ (wireOf p'.a).length ∧
          (wireOf p'.a).length ≤ (wireOf p.a).length + 2 * ((x :: xs).take 1024).length + 14 * ((((x :: xs).take 1024).length + 63) / 64) := by
  obtain ⟨b, out, f, d, k0, k1, k2, k3, k4, k5, k6⟩ := reads_spec h (.inl hl) t
  obtain ⟨l1, l2, l3, l4⟩ := hl
  have hf : f = true := by
    have hle := h.le
    by_cases hlt : p.toB < (wireOf p.a).length
    · exact (k5 hlt).1
    · rw [k6 (by omega), l3]
  subst hf
  unfold Pipe.turn
  simp only [ht, k0, Bool.not_true, Bool.false_eq_true, if_false, Pipe.sock0, Res.bind_ok, k1, Pipe.keys]
  rw [if_pos (by omega : p.n > 2)]
  cases hs : t.stdin with
  | none =>
    simp only [Res.bind_ok, Bool.true_eq_false, and_false, if_false]
    exact ⟨_, _, rfl, k2, k4, rfl, ⟨l1, l2, l3, rfl⟩, rfl, rfl⟩
  | some got =>
    cases got with
    | none =>
      simp only [Pipe.input, Res.bind_ok, reduceCtorEq, false_and, if_false]
      exact ⟨_, _, rfl, k2, k4, rfl, rfl⟩
    | some buf =>
      cases buf with
      | nil =>
        simp only [Pipe.input, Res.bind_ok, Bool.true_eq_false, and_false, if_false]
        exact ⟨_, _, rfl, ⟨k2.ex, k2.le⟩, k4, rfl, ⟨rfl, rfl, rfl, rfl⟩, rfl, rfl⟩
      | cons x xs =>
        obtain ⟨a, j1, j2, j3, j4⟩ := input_spec k2 cap (buf := x :: xs) (by simp)
        simp only [j1, Res.bind_ok]
        simp only [Bool.true_eq_false, and_false, if_false]
        exact ⟨_, _, rfl, j2, k4, rfl, ⟨l1, l2, l3, rfl⟩, rfl, j3, j4⟩

theorem turn_fail {p : Pipe} (cap : Nat) {t : Turn} (ht : t.pollOk = false) : p.turn cap t = .ok (p, .failed) := by
  simp [Pipe.turn, ht]

end Mctp
