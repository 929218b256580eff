import Verif.Proofs.AstGeo
import Verif.Props.Astlpc

/-!
# Properties of the astlpc binding, one side (C56, C58, C60)
-/

namespace Mctp

open Spec

variable {E : Type}

/-- The version 3 packet read from a buffer (with the checksum that follows it) is intact: the last four
bytes are the CRC-32 (`C37_crc32`) of the others, most significant byte first. -/
def ChecksumOk (bytes : List Byte) : Prop :=
  bytes.drop (bytes.length - 4) = be32 (crc32 (bytes.take (bytes.length - 4))).toNat

instance (bytes : List Byte) : Decidable (ChecksumOk bytes) := by unfold ChecksumOk; exact inferInstance

/-- The status the BMC published has not changed as far as the host can tell: it is the BMC, or the bits
BMC-ready and Channel-active of every status read in `new` are those of the last status. -/
def SteadyStatus (mode : AstMode) (known : Byte) (new : List Access) : Prop :=
  mode = .bmc ∨ ∀ st, Access.kcsRead .status 0 st ∈ new → SameBits known st

/-- No packet reached the core and no callback for received messages was made. -/
def NothingReceived (e : List Event) : Prop :=
  packetsIn e = [] ∧ (∀ s o t m, Event.rxMsg s o t m ∉ e) ∧ ∀ i s o t m, Event.ctrlRx i s o t m ∉ e

theorem nothingReceived_tx {e : List Event} (h : ∀ x ∈ e, IsTxEvent x) : NothingReceived e := by
  refine ⟨?_, fun s o t m hm => (h _ hm).elim, fun i s o t m hm => (h _ hm).elim⟩
  unfold packetsIn
  rw [List.filterMap_eq_nil_iff]
  intro a ha
  have := h a ha
  cases a <;> simp_all [IsTxEvent]

/-! ## C56: corrupt packets -/

/-- C56: a poll that reads a transmit-begin on a version 3 channel and then, from the receive buffer, a
packet whose stored checksum does not match: nothing is delivered, and the buffer is handed back: either
receive-complete is sent right away and nothing else is done, or (the peer has not yet taken the previous byte,
or the register access failed) the hand-over is left pending (`C59_retry` sends it from the next poll). -/
theorem C56_corrupt {hw : Hw E} {env : E} {eid : Byte} {mx : Nat} {mode : AstMode} {mtu : Nat} {mem : Mem}
    {c0 c c' : Core (AstSt E)} (h : AstEndpoint hw env eid mx mode mtu mem c0) {hist : List AstOp} {log : List AstRec}
    (hr : c0.astRun hw hist = .ok (c, log)) {bus bus' : Bus (AstSt E)} (hb : c.busses = [bus])
    (hver : bus.binding.st.proto = some 3) (hrx : bus.binding.st.rx.state = .released)
    {e : List Event} {rc : Int} (hp : c.astStep hw .poll = .ok (c', e, rc)) (hb' : c'.busses = [bus'])
    {pre post lenBytes bytes : List _} {o o' : Nat} {r0 r1 : Int}
    (hnew : accessesOf c' = accessesOf c ++ (pre ++ .kcsRead .data 0 1 :: .lpcRead o lenBytes r0 :: .lpcRead o' bytes r1 :: post))
    (hsteady : SteadyStatus mode bus.binding.st.kcsStatus (pre ++ .kcsRead .data 0 1 :: .lpcRead o lenBytes r0 :: .lpcRead o' bytes r1 :: post))
    (hbad : ¬ ChecksumOk bytes) :
    NothingReceived e ∧
    ((∃ v, post = [.kcsRead .status 0 v, .kcsWrite .data 2 0] ∧ outputFull mode v = false) ∨
      bus'.binding.st.rx.state = .prepared) := by
  obtain ⟨bus1, hb1, hbr, hj⟩ := h.reached hr
  have : bus1 = bus := by rw [hb] at hb1; simpa using hb1.symm
  subst this
  have hp : c.astPoll hw 0 = .ok (c', e, rc) := hp
  rw [accessesOf_single hb, accessesOf_single hb'] at hnew
  obtain ⟨pre', st, r0', len', body, after, e1, e2, rx1, hn, hpre, hpl, hst, hee, he2, hlen, hst2, hcases⟩ :=
    poll_begin hb hbr hj hver (by decide) (astRetry_released hw hrx) hp hb' hnew (by simp)
  obtain ⟨rfl, rfl, h3, -⟩ := hst2 (hsteady.imp id (fun h => h st hst))
  have hu := split_unique hn (fun hm => hpre _ hm 1 rfl) (fun hm => by
    simp only [List.cons_append, List.mem_cons, reduceCtorEq, false_or] at hm
    exact (hpl _ hm).elim)
  obtain ⟨rfl, hu⟩ := hu
  simp only [List.cons_append, List.cons.injEq, Access.lpcRead.injEq, List.append_nil] at hu
  obtain ⟨⟨rfl, rfl, rfl⟩, hu⟩ := hu
  have hmode : bus1.binding.st.mode = mode := hj.1.mode
  rcases hcases with ⟨-, rfl, rfl, rfl⟩ | ⟨-, -, r1', bytes', rcs, l, hbl, rfl, hsend, rfl, hdel⟩
  · cases hu
  · simp only [List.cons.injEq, Access.lpcRead.injEq] at hu
    obtain ⟨⟨rfl, rfl, rfl⟩, rfl⟩ := hu
    rcases hdel with ⟨-, rfl⟩ | ⟨-, hint, -⟩
    · refine ⟨by rw [hee]; exact nothingReceived_tx he2, ?_⟩
      rcases sends_start hsend with ⟨-, hz⟩ | ⟨v, r, rfl, hv, hz⟩
      · right; rw [h3, if_neg hz]
      · by_cases hr0 : r = 0
        · subst hr0; exact .inl ⟨v, rfl, hv⟩
        · right; rw [h3, if_neg (fun h => hr0 (hz.mp h))]
    · exact absurd (hint rfl) hbad

/-- C56: without any assumption about the status register: whatever a poll on a version 3 channel
hands to the core, it is the front of something read from the receive buffer in this poll, and its checksum
matches. -/
theorem C56_delivered_intact {hw : Hw E} {env : E} {eid : Byte} {mx : Nat} {mode : AstMode} {mtu : Nat} {mem : Mem}
    {c0 c c' : Core (AstSt E)} (h : AstEndpoint hw env eid mx mode mtu mem c0) {hist : List AstOp} {log : List AstRec}
    (hr : c0.astRun hw hist = .ok (c, log)) {bus : Bus (AstSt E)} (hb : c.busses = [bus])
    (hver : bus.binding.st.proto = some 3)
    {e : List Event} {rc : Int} (hp : c.astStep hw .poll = .ok (c', e, rc))
    {new : List Access} (hnew : accessesOf c' = accessesOf c ++ new)
    {p : List Byte} (hp' : p ∈ packetsIn e) :
    packetsIn e = [p] ∧ ∃ bytes r, .lpcRead (bus.binding.st.rx.offset + 4) bytes r ∈ new ∧ ChecksumOk bytes ∧
      p = bytes.take (bytes.length - 4) := by
  obtain ⟨bus1, hb1, hbr, hj⟩ := h.reached hr
  have : bus1 = bus := by rw [hb] at hb1; simpa using hb1.symm
  subst this
  obtain ⟨bus', hb', -, -⟩ := astStep_inv hb hbr hj hp
  have hp : c.astPoll hw 0 = .ok (c', e, rc) := hp
  rw [accessesOf_single hb, accessesOf_single hb'] at hnew
  rcases poll_recv hb hbr hj hp hb' hnew with ht | ⟨hd, hrx, -⟩
  · rw [(nothingReceived_tx ht).1] at hp'; cases hp'
  obtain ⟨pre', st, r0', len', body, after, e1, e2, rx1, hn, hpre, hpl, hst, hee, he2, hlen, hst2, hcases⟩ :=
    poll_begin hb hbr hj hver (by decide) hrx hp hb' hnew hd
  have hq : packetsIn e2 = [] := (nothingReceived_tx he2).1
  have hpe : packetsIn e = packetsIn e1 := by
    rw [hee]; unfold packetsIn at hq ⊢; rw [List.filterMap_append, hq, List.append_nil]
  rw [hpe] at hp' ⊢
  rcases hcases with ⟨-, -, -, rfl⟩ | ⟨-, -, r1, bytes, rcs, l, hbl, rfl, -, -, hdel⟩
  · simp [packetsIn] at hp'
  · rcases hdel with ⟨-, rfl⟩ | ⟨-, hint, hpk, -⟩
    · simp [packetsIn] at hp'
    · rw [hpk] at hp' ⊢
      have hpe' : p = bytes.take (fromBe len') := by simpa using hp'
      subst hpe'
      refine ⟨rfl, bytes, r1, by rw [hn]; simp, hint rfl, ?_⟩
      rw [hbl]; simp [overhead]

/-- What is left of an endpoint for the examples: the events and return codes, the accesses, the gate of the
bus, the version and the state of the two buffers. -/
def AstDemo.look (mode : AstMode) (mtu : Nat) (s : AstDemo.Script) (hist : List AstOp) :
    Option (List AstRec × List Access × BusState × Option Nat × BufState × BufState) :=
  match AstDemo.register mode mtu s with
  | .ok (c, rc) =>
    if rc < 0 then none else
    match c.astRun AstDemo.hw hist with
    | .ok (c, log) => c.busses.head?.map fun b => (log, b.binding.st.log.map Logged.acc, b.state, b.binding.st.proto,
        b.binding.st.rx.state, b.binding.st.tx.state)
    | .error _ => none
  | .error _ => none

/-- A BMC on an established version 3 channel that finds a transmit-begin, and in its receive buffer (at 332)
a packet of five bytes and a checksum. -/
def AstDemo.rxScript (sum : List Byte) : AstDemo.Script :=
  { stat := [(0, 2), (0, 2), (0, 0)], data := [(0, 0), (0, 1)],
    reads := [AstDemo.hdr64, AstDemo.hdr64, be32 5, [1, 8, 9, 0xc8, 1] ++ sum] }

set_option maxRecDepth 100000 in
/-- The hypotheses of `C56_corrupt` are met: the checksum is wrong, the packet is dropped and the buffer handed back. -/
example : (AstDemo.look .bmc 64 (AstDemo.rxScript [0, 0, 0, 0]) [.poll, .poll]).map
      (fun x => (x.1.map AstRec.evs, x.2.1.drop 11, x.2.2)) =
    some ([[], []], [.kcsRead .status 0 2, .kcsRead .data 0 1, .lpcRead 332 (be32 5) 0,
      .lpcRead 336 ([1, 8, 9, 0xc8, 1] ++ [0, 0, 0, 0]) 0, .kcsRead .status 0 0, .kcsWrite .data 2 0],
      .txEnabled, some 3, .released, .acquired) ∧
    ¬ ChecksumOk ([1, 8, 9, 0xc8, 1] ++ [0, 0, 0, 0]) := ⟨by rfl, by decide +kernel⟩

/-- With the right checksum it is delivered (`C56_delivered_intact`). -/
example : (AstDemo.look .bmc 64 (AstDemo.rxScript (be32 (crc32 [1, 8, 9, 0xc8, 1]).toNat)) [.poll, .poll]).map
      (fun x => (x.1.map fun r => packetsIn r.evs, x.2.2)) =
    some ([[], [[1, 8, 9, 0xc8, 1]]], .txEnabled, some 3, .released, .acquired) := by decide +kernel

/-! ## C58: the buffer is handed back -/

/-- C58, what is true: a poll that reads a transmit-begin and then a length that fits the receive buffer and
the packet size of the binding, while memory is available: the packet is read, and the buffer is handed back,
or the hand-over is left pending (`C59_retry`). -/
theorem C58_handed_back_partial {hw : Hw E} {env : E} {eid : Byte} {mx : Nat} {mode : AstMode} {mtu : Nat} {mem : Mem}
    {c0 c c' : Core (AstSt E)} (h : AstEndpoint hw env eid mx mode mtu mem c0) {hist : List AstOp} {log : List AstRec}
    (hr : c0.astRun hw hist = .ok (c, log)) {bus bus' : Bus (AstSt E)} (hb : c.busses = [bus])
    {ver : Nat} (hver : bus.binding.st.proto = some ver) (hver0 : ver ≠ 0) (hrx : bus.binding.st.rx.state = .released)
    {e : List Event} {rc : Int} (hp : c.astStep hw .poll = .ok (c', e, rc)) (hb' : c'.busses = [bus'])
    {pre post : List Access} {lenBytes : List Byte} {o : Nat} {r0 : Int}
    (hnew : accessesOf c' = accessesOf c ++ (pre ++ .kcsRead .data 0 1 :: .lpcRead o lenBytes r0 :: post))
    (hsteady : SteadyStatus mode bus.binding.st.kcsStatus (pre ++ .kcsRead .data 0 1 :: .lpcRead o lenBytes r0 :: post))
    (hfit : fromBe lenBytes + overhead ver ≤ bus.binding.st.rx.size) (hfit2 : fromBe lenBytes ≤ bus.binding.pktSize)
    (hmem : c.mem.ok c.mem.next = true) :
    ∃ (bytes : List Byte) (r1 : Int) (rest : List Access),
      post = .lpcRead (o + 4) bytes r1 :: rest ∧ bytes.length = fromBe lenBytes + (overhead ver - 4) ∧
      ((∃ v, rest = [.kcsRead .status 0 v, .kcsWrite .data 2 0] ∧ outputFull mode v = false) ∨
        bus'.binding.st.rx.state = .prepared) := by
  obtain ⟨hgh, hgt, -⟩ := h.geo hr hb
  obtain ⟨bus1, hb1, hbr, hj⟩ := h.reached hr
  have : bus1 = bus := by rw [hb] at hb1; simpa using hb1.symm
  subst this
  have hp : c.astPoll hw 0 = .ok (c', e, rc) := hp
  rw [accessesOf_single hb, accessesOf_single hb'] at hnew
  obtain ⟨pre', st, r0', len', body, after, e1, e2, rx1, hn, hpre, hpl, hst, hee, he2, hlen, hst2, hcases⟩ :=
    poll_begin hb hbr hj hver hver0 (astRetry_released hw hrx) hp hb' hnew (by simp)
  obtain ⟨rfl, rfl, h3, -⟩ := hst2 (hsteady.imp id (fun h => h st hst))
  have hu := split_unique hn (fun hm => hpre _ hm 1 rfl) (fun hm => by
    simp only [List.cons_append, List.mem_cons, reduceCtorEq, false_or] at hm
    exact (hpl _ hm).elim)
  obtain ⟨rfl, hu⟩ := hu
  simp only [List.cons_append, List.cons.injEq, Access.lpcRead.injEq, List.append_nil] at hu
  obtain ⟨⟨rfl, rfl, rfl⟩, rfl⟩ := hu
  rcases hcases with ⟨hbig, -⟩ | ⟨-, -, r1, bytes, rcs, l, hbl, rfl, hsend, rfl, hdel⟩
  · exfalso
    rcases hbig with hx | hx | hx
    · omega
    · omega
    · unfold pktbufAlloc at hx
      rw [hgh, hgt] at hx
      simp only at hx
      have hov : overhead ver ≤ 8 := by unfold overhead; split <;> omega
      rw [if_neg (by omega)] at hx
      unfold Mem.alloc at hx
      rw [if_pos hmem] at hx
      cases hx
  · refine ⟨bytes, r1, l, rfl, hbl, ?_⟩
    rcases sends_start hsend with ⟨-, hz⟩ | ⟨v, r, rfl, hv, hz⟩
    · right; rw [h3, if_neg hz]
    · by_cases hr0 : r = 0
      · subst hr0; exact .inl ⟨v, rfl, hv⟩
      · right; rw [h3, if_neg (fun h => hr0 (hz.mp h))]

/-- The hypotheses are met: see the examples above (`AstDemo.rxScript`). -/
example : fromBe (be32 5) + overhead 3 ≤ 76 := by decide

/-- C58 does not hold: if the length in the buffer is larger than the buffer allows, the poll ends there:
the buffer is not handed back, and no hand-over is pending. -/
theorem C58_lost {hw : Hw E} {env : E} {eid : Byte} {mx : Nat} {mode : AstMode} {mtu : Nat} {mem : Mem}
    {c0 c c' : Core (AstSt E)} (h : AstEndpoint hw env eid mx mode mtu mem c0) {hist : List AstOp} {log : List AstRec}
    (hr : c0.astRun hw hist = .ok (c, log)) {bus bus' : Bus (AstSt E)} (hb : c.busses = [bus])
    {ver : Nat} (hver : bus.binding.st.proto = some ver) (hver0 : ver ≠ 0) (hrx : bus.binding.st.rx.state = .released)
    {e : List Event} {rc : Int} (hp : c.astStep hw .poll = .ok (c', e, rc)) (hb' : c'.busses = [bus'])
    {pre post : List Access} {lenBytes : List Byte} {o : Nat} {r0 : Int}
    (hnew : accessesOf c' = accessesOf c ++ (pre ++ .kcsRead .data 0 1 :: .lpcRead o lenBytes r0 :: post))
    (hsteady : SteadyStatus mode bus.binding.st.kcsStatus (pre ++ .kcsRead .data 0 1 :: .lpcRead o lenBytes r0 :: post))
    (hbig : bus.binding.st.rx.size < fromBe lenBytes + overhead ver ∨ bus.binding.pktSize < fromBe lenBytes) :
    post = [] ∧ e = [] ∧ bus'.binding.st.rx.state = .released := by
  obtain ⟨bus1, hb1, hbr, hj⟩ := h.reached hr
  have : bus1 = bus := by rw [hb] at hb1; simpa using hb1.symm
  subst this
  have hp : c.astPoll hw 0 = .ok (c', e, rc) := hp
  rw [accessesOf_single hb, accessesOf_single hb'] at hnew
  obtain ⟨pre', st, r0', len', body, after, e1, e2, rx1, hn, hpre, hpl, hst, hee, he2, hlen, hst2, hcases⟩ :=
    poll_begin hb hbr hj hver hver0 (astRetry_released hw hrx) hp hb' hnew (by simp)
  obtain ⟨rfl, rfl, h3, -⟩ := hst2 (hsteady.imp id (fun h => h st hst))
  have hu := split_unique hn (fun hm => hpre _ hm 1 rfl) (fun hm => by
    simp only [List.cons_append, List.mem_cons, reduceCtorEq, false_or] at hm
    exact (hpl _ hm).elim)
  obtain ⟨rfl, hu⟩ := hu
  simp only [List.cons_append, List.cons.injEq, Access.lpcRead.injEq, List.append_nil] at hu
  obtain ⟨⟨rfl, rfl, rfl⟩, rfl⟩ := hu
  rcases hcases with ⟨-, rfl, rfl, rfl⟩ | ⟨hf1, hf2, r1, bytes, rcs, l, hbl, rfl, hsend, rfl, hdel⟩
  · exact ⟨rfl, hee, by rw [h3]⟩
  · exfalso
    rcases hbig with hx | hx
    · obtain ⟨⟨-, hs1⟩, -⟩ := hlen.2
      have hov : overhead ver ≤ 8 := by unfold overhead; split <;> omega
      simp only [overhead] at hs1
      omega
    · omega

/-- Such a run exists: the length is 69, the buffer of 76 bytes (version 3) takes 68. -/
example : (AstDemo.look .bmc 64 { AstDemo.rxScript [] with reads := [AstDemo.hdr64, AstDemo.hdr64, be32 69] } [.poll, .poll]).map
      (fun x => (x.1.map AstRec.evs, x.2.1.drop 11, x.2.2)) =
    some ([[], []], [.kcsRead .status 0 2, .kcsRead .data 0 1, .lpcRead 332 (be32 69) 0],
      .txEnabled, some 3, .released, .acquired) := by rfl

/-! ## C60: commands that do not fit -/

/-- A buffer whose hand-over (with command `cmd`) was pending was handed over in these accesses; otherwise it
did not change. -/
def Resumed (cmd : Byte) (before after : AstBuf) (new : List Access) : Prop :=
  after = before ∨
  (before.state = .prepared ∧ after = { before with state := .released } ∧ Access.kcsWrite .data cmd 0 ∈ new)

/-- The command `d` does not fit: packet commands before the channel is initialised; transmit-begin while the
receive buffer is not with the other side (nor is handed over by this very poll); receive-complete while the
transmit buffer is not with the other side (nor is handed over by this very poll); an unknown command. -/
def Unfit (mode : AstMode) (s : AstSt E) (d : Byte) (new : List Access) : Prop :=
  (s.proto = some 0 ∧ d ≠ 0 ∧ d ≠ 255) ∨
  (d = 1 ∧ s.rx.state ≠ .released ∧ .kcsWrite .data 2 0 ∉ new) ∨
  (d = 2 ∧ s.tx.state ≠ .released ∧ .kcsWrite .data 1 0 ∉ new) ∨
  (d ≠ 0 ∧ d ≠ 1 ∧ d ≠ 2 ∧ d ≠ 255 ∧ SteadyStatus mode s.kcsStatus new)

/-- The retry uses the KCS registers only. -/
theorem retry_kcs {hw : Hw E} {s : AstSt E} {l : List Access} (ha : Adds s (astRetry hw s) l) :
    ∀ a ∈ l, (∀ o bs r, a ≠ .lpcRead o bs r) ∧ ∀ o bs r, a ≠ .lpcWrite o bs r := by
  obtain ⟨l1, l2, ha', h1, h2, -⟩ := astRetry_adds hw s
  have := ha.inj ha'
  subst this
  have key : ∀ {mode : AstMode} {cmd : Byte} {rc : Int} {l : List Access}, Sends mode cmd rc l →
      ∀ a ∈ l, (∀ o bs r, a ≠ .lpcRead o bs r) ∧ ∀ o bs r, a ≠ .lpcWrite o bs r := by
    intro mode cmd rc l hs a ha
    rcases sends_start hs with ⟨⟨r, v, rfl, -⟩, -⟩ | ⟨v, r, rfl, -⟩
    · simp only [List.mem_singleton] at ha; subst ha; simp
    · simp only [List.mem_cons, List.not_mem_nil, or_false] at ha
      rcases ha with rfl | rfl <;> simp
  intro a ha
  rcases List.mem_append.mp ha with ha | ha
  · rcases h1 with ⟨-, rc, hs, -⟩ | ⟨-, rfl, -⟩
    · exact key hs a ha
    · cases ha
  · rcases h2 with ⟨-, rc, hs, -⟩ | ⟨-, rfl, -⟩
    · exact key hs a ha
    · cases ha

theorem retry_resumed {hw : Hw E} {s : AstSt E} {l : List Access} (ha : Adds s (astRetry hw s) l) :
    Resumed 2 s.rx (astRetry hw s).rx l ∧ Resumed 1 s.tx (astRetry hw s).tx l := by
  obtain ⟨l1, l2, ha', h1, h2, -⟩ := astRetry_adds hw s
  have := ha.inj ha'
  subst this
  have key : ∀ {mode : AstMode} {cmd : Byte} {rc : Int} {l : List Access} {b b' : AstBuf}, b.state = .prepared → Sends mode cmd rc l →
      b' = { b with state := if rc = 0 then .released else .prepared } → Resumed cmd b b' l := by
    intro mode cmd rc l b b' hb hs hb'
    subst hb'
    by_cases hz : rc = 0
    · rw [if_pos hz]
      refine .inr ⟨hb, rfl, ?_⟩
      rcases sends_start hs with ⟨-, hn⟩ | ⟨v, r, rfl, -, hrc⟩
      · exact absurd hz hn
      · rw [hrc.mp hz]; simp
    · rw [if_neg hz, ← hb]; exact .inl rfl
  have mono : ∀ {cmd : Byte} {b b' : AstBuf} {l l' : List Access}, Resumed cmd b b' l → (∀ a ∈ l, a ∈ l') → Resumed cmd b b' l' := by
    intro cmd b b' l l' h hl
    rcases h with h | ⟨h1, h2, h3⟩
    · exact .inl h
    · exact .inr ⟨h1, h2, hl _ h3⟩
  constructor
  · rcases h1 with ⟨hb, rc, hs, hb'⟩ | ⟨-, -, hb'⟩
    · exact mono (key hb hs hb') (fun a ha => by simp [ha])
    · exact .inl hb'
  · rcases h2 with ⟨hb, rc, hs, hb'⟩ | ⟨-, -, hb'⟩
    · exact mono (key hb hs hb') (fun a ha => by simp [ha])
    · exact .inl hb'

/-- C60: a poll that reads a command that does not fit delivers nothing, transmits nothing, touches neither the
window nor (except for hand-overs that were pending before) the state of a buffer, and changes nothing else in
the core but the binding's copy of the status register. -/
theorem C60_unfit_harmless {hw : Hw E} {env : E} {eid : Byte} {mx : Nat} {mode : AstMode} {mtu : Nat} {mem : Mem}
    {c0 c c' : Core (AstSt E)} (h : AstEndpoint hw env eid mx mode mtu mem c0) {hist : List AstOp} {log : List AstRec}
    (hr : c0.astRun hw hist = .ok (c, log)) {bus bus' : Bus (AstSt E)} (hb : c.busses = [bus])
    {e : List Event} {rc : Int} (hp : c.astStep hw .poll = .ok (c', e, rc)) (hb' : c'.busses = [bus'])
    {new : List Access} (hnew : accessesOf c' = accessesOf c ++ new) {d : Byte}
    (hd : .kcsRead .data 0 d ∈ new) (hun : Unfit mode bus.binding.st d new) :
    e = [] ∧ rc = 0 ∧ c' = { c with busses := [bus'] } ∧
    bus' = { bus with binding := { bus.binding with st := { bus.binding.st with
      env := bus'.binding.st.env, log := bus'.binding.st.log, kcsStatus := bus'.binding.st.kcsStatus,
      rx := bus'.binding.st.rx, tx := bus'.binding.st.tx } } } ∧
    Resumed 2 bus.binding.st.rx bus'.binding.st.rx new ∧ Resumed 1 bus.binding.st.tx bus'.binding.st.tx new ∧
    (∀ o bs r, .lpcRead o bs r ∉ new) ∧ ∀ o bs r, .lpcWrite o bs r ∉ new := by
  obtain ⟨bus1, hb1, hbr, hj⟩ := h.reached hr
  have : bus1 = bus := by rw [hb] at hb1; simpa using hb1.symm
  subst this
  have hp : c.astPoll hw 0 = .ok (c', e, rc) := hp
  rw [accessesOf_single hb, accessesOf_single hb'] at hnew
  obtain ⟨l0, hl0, hnd⟩ := astRetry_noData hw bus1.binding.st
  have hpre := poll_prefix hb hbr hj hp hb' hnew hl0
  obtain ⟨hrx, htx⟩ := retry_resumed hl0
  have hun' : (bus1.binding.st.proto = some 0 ∧ d ≠ 0 ∧ d ≠ 255) ∨
      (d = 1 ∧ (astRetry hw bus1.binding.st).rx.state ≠ .released) ∨
      (d = 2 ∧ (astRetry hw bus1.binding.st).tx.state ≠ .released) ∨
      (d ≠ 0 ∧ d ≠ 1 ∧ d ≠ 2 ∧ d ≠ 255 ∧
        (mode = .bmc ∨ ∀ st, Access.kcsRead .status 0 st ∈ new → SameBits bus1.binding.st.kcsStatus st)) := by
    rcases hun with h | ⟨h1, h2, h3⟩ | ⟨h1, h2, h3⟩ | h
    · exact .inl h
    · refine .inr (.inl ⟨h1, fun hh => ?_⟩)
      rcases hrx with hrx | ⟨-, -, hm⟩
      · rw [hrx] at hh; exact h2 hh
      · exact h3 (hpre.subset hm)
    · refine .inr (.inr (.inl ⟨h1, fun hh => ?_⟩))
      rcases htx with htx | ⟨-, -, hm⟩
      · rw [htx] at hh; exact h2 hh
      · exact h3 (hpre.subset hm)
    · exact .inr (.inr (.inr h))
  obtain ⟨rfl, rfl, l1, st, env', log', k, hn, ha1, hc'⟩ := poll_unfit hb hbr hj hp hb' hnew hd hun'
  have := hl0.inj ha1
  subst this
  have hbus' := hb'
  rw [hc'] at hbus'
  simp only [List.cons.injEq, and_true] at hbus'
  have hmono : ∀ {cmd : Byte} {b b' : AstBuf}, Resumed cmd b b' l0 → Resumed cmd b b' new := by
    intro cmd b b' h
    rcases h with h | ⟨h1, h2, h3⟩
    · exact .inl h
    · exact .inr ⟨h1, h2, hpre.subset h3⟩
  have hnl : ∀ a ∈ new, (∀ o bs r, a ≠ .lpcRead o bs r) ∧ ∀ o bs r, a ≠ .lpcWrite o bs r := by
    intro a ha
    rw [hn] at ha
    rcases List.mem_append.mp ha with ha | ha
    · exact retry_kcs hl0 a ha
    · simp only [List.mem_cons, List.not_mem_nil, or_false] at ha
      rcases ha with rfl | rfl <;> simp
  refine ⟨rfl, rfl, by rw [hc', hbus'], ?_, ?_, ?_, fun o bs r hm => (hnl _ hm).1 _ _ _ rfl, fun o bs r hm => (hnl _ hm).2 _ _ _ rfl⟩
  · rw [← hbus']
  · rw [← hbus']; exact hmono hrx
  · rw [← hbus']; exact hmono htx

/-- The hypotheses are met: receive-complete although nothing was sent, and an unknown command. -/
example : (AstDemo.look .bmc 64 { AstDemo.bmcScript with stat := [(0, 2), (0, 2), (0, 2)], data := [(0, 0), (0, 2), (0, 77)] } [.poll, .poll, .poll]).map
      (fun x => (x.1.map fun r => (r.evs, r.rc), x.2.1.drop 11, x.2.2)) =
    some ([([], 0), ([], 0), ([], 0)],
      [.kcsRead .status 0 2, .kcsRead .data 0 2, .kcsRead .status 0 2, .kcsRead .data 0 77],
      .txEnabled, some 3, .released, .acquired) := by rfl

end Mctp
