import Verif.Proofs.AstRun
import Verif.Proofs.AstGeo

/-!
# The astlpc binding never leaves defined behaviour

`astK` is the contract (`Proofs/MemInv.lean`) of the binding: an invariant of the binding alone, under which
no function of the binding faults.
-/

namespace Mctp

open Spec

variable {E : Type}

/-- The status has the BMC-ready bit. -/
def IsReady (k : Byte) : Prop := k &&& kcsBmcReady ≠ 0

/-- Invariant of the binding. -/
structure AstGood (mode : AstMode) (mtu : Nat) (b : Binding (AstSt E)) : Prop where
  md    : b.st.mode = mode
  mt    : b.st.mtu = mtu
  small : mtu < 4294967284
  proto : ∃ v, b.st.proto = some v ∧ v < 4
  lay   : LayZero b.st ∨ LaySafe b.st
  bmc   : mode = .bmc → LaySafe b.st
  rxs   : b.st.rx.state ≠ .idle → LaySafe b.st
  txs   : b.st.tx.state ≠ .idle → LaySafe b.st
  busy  : mode = .host → b.st.tx.state = .prepared ∨ b.st.tx.state = .released → IsReady b.st.kcsStatus
  lo    : 68 ≤ b.pktSize
  hi    : b.pktSize < 2 ^ 33
  hdr   : b.pktHeader = 4
  trl   : b.pktTrailer = 4

/-- The binding can transmit. -/
structure AstCan (mode : AstMode) (b : Binding (AstSt E)) : Prop where
  ver : b.st.proto ≠ some 0
  lay : LaySafe b.st
  rdy : mode = .host → IsReady b.st.kcsStatus

/-- A packet buffer that can be transmitted. -/
structure PktGood (p : Pktbuf) : Prop where
  hdr  : p.hdrOff = p.start
  lo   : p.start ≤ p.«end»
  hi   : p.«end» ≤ p.size
  data : p.data.length = p.size
  lt   : p.size < 2 ^ 34

theorem AstGood.bind {mode : AstMode} {mtu : Nat} {b : Binding (AstSt E)} (h : AstGood mode mtu b) : BindOk b :=
  ⟨h.lo, by rw [h.hdr, h.trl]; have := h.hi; omega⟩

theorem lpcRead_total (hw : Hw E) (s : AstSt E) {off len : Nat} (h : off + len ≤ lpcWinSize) :
    ∃ rc bs s', lpcRead hw s off len = .ok (rc, bs, s') ∧ SameSt s s' ∧ bs.length = len := by
  have : ∃ r, lpcRead hw s off len = .ok r := by unfold lpcRead; rw [if_pos h]; exact ⟨_, rfl⟩
  obtain ⟨⟨rc, bs, s'⟩, hr⟩ := this
  obtain ⟨h1, h2, -⟩ := lpcRead_ok hr
  exact ⟨rc, bs, s', hr, h1, h2⟩

theorem lpcWrite_total (hw : Hw E) (s : AstSt E) {off : Nat} {bs : List Byte} (h : off + bs.length ≤ lpcWinSize) :
    ∃ rc s', lpcWrite hw s off bs = .ok (rc, s') ∧ SameSt s s' := by
  have : ∃ r, lpcWrite hw s off bs = .ok r := by unfold lpcWrite; rw [if_pos h]; exact ⟨_, rfl⟩
  obtain ⟨⟨rc, s'⟩, hr⟩ := this
  obtain ⟨h1, -⟩ := lpcWrite_ok hr
  exact ⟨rc, s', hr, h1⟩

theorem kcsSend_same (hw : Hw E) (s : AstSt E) (cmd : Byte) : SameSt s (kcsSend hw s cmd).2 := by
  have h1 := kcsRead_same hw s .status
  unfold kcsSend
  generalize kcsRead hw s .status = r at h1
  obtain ⟨r1, v, s1⟩ := r
  simp only at h1 ⊢
  split
  · exact h1
  · split
    · exact h1
    · have h2 := kcsWrite_same hw s1 .data cmd
      generalize kcsWrite hw s1 .data cmd = r at h2
      obtain ⟨r2, s2⟩ := r
      simp only at h2 ⊢
      split <;> exact h1.trans h2

theorem kcsSetStatus_same (hw : Hw E) (s : AstSt E) (v : Byte) : SameSt s (kcsSetStatus hw s v).2 := by
  have h1 := kcsWrite_same hw s .status v
  unfold kcsSetStatus
  generalize kcsWrite hw s .status v = r at h1
  obtain ⟨r1, s1⟩ := r
  simp only at h1 ⊢
  split
  · exact h1
  · have h2 := kcsWrite_same hw s1 .data cmdDummy
    generalize kcsWrite hw s1 .data cmdDummy = r at h2
    obtain ⟨r2, s2⟩ := r
    simp only at h2 ⊢
    split <;> exact h1.trans h2

/-- The same binding up to the environment and the buffer states. -/
structure Same2 (s s' : AstSt E) : Prop where
  mode  : s'.mode = s.mode
  mtu   : s'.mtu = s.mtu
  proto : s'.proto = s.proto
  rxo   : s'.rx.offset = s.rx.offset
  rxz   : s'.rx.size = s.rx.size
  txo   : s'.tx.offset = s.tx.offset
  txz   : s'.tx.size = s.tx.size
  kcs   : s'.kcsStatus = s.kcsStatus

theorem SameSt.two {s s' : AstSt E} (h : SameSt s s') : Same2 s s' :=
  ⟨h.mode, h.mtu, h.proto, by rw [h.rx], by rw [h.rx], by rw [h.tx], by rw [h.tx], h.kcs⟩

theorem Same2.refl (s : AstSt E) : Same2 s s := ⟨rfl, rfl, rfl, rfl, rfl, rfl, rfl, rfl⟩

theorem Same2.trans {a b c : AstSt E} (h : Same2 a b) (h' : Same2 b c) : Same2 a c :=
  ⟨h'.mode.trans h.mode, h'.mtu.trans h.mtu, h'.proto.trans h.proto, h'.rxo.trans h.rxo, h'.rxz.trans h.rxz,
   h'.txo.trans h.txo, h'.txz.trans h.txz, h'.kcs.trans h.kcs⟩

theorem Same2.safe {s s' : AstSt E} (h : Same2 s s') (hl : LaySafe s) : LaySafe s' :=
  hl.congr h.rxo h.rxz h.txo h.txz

theorem AstGood.congr {mode : AstMode} {mtu : Nat} {b : Binding (AstSt E)} (h : AstGood mode mtu b) {s : AstSt E}
    (hs : Same2 b.st s) (h1 : s.rx.state ≠ .idle → LaySafe b.st) (h2 : s.tx.state ≠ .idle → LaySafe b.st)
    (h3 : mode = .host → s.tx.state = .prepared ∨ s.tx.state = .released → IsReady b.st.kcsStatus) :
    AstGood mode mtu { b with st := s } :=
  ⟨hs.mode.trans h.md, hs.mtu.trans h.mt, h.small, by show ∃ v, s.proto = _ ∧ _; rw [hs.proto]; exact h.proto,
   h.lay.imp (fun hz => hz.congr hs.rxo hs.rxz hs.txo hs.txz) hs.safe, fun hm => hs.safe (h.bmc hm),
   fun hm => hs.safe (h1 hm), fun hm => hs.safe (h2 hm), fun hm hx => by show IsReady s.kcsStatus; rw [hs.kcs]; exact h3 hm hx,
   h.lo, h.hi, h.hdr, h.trl⟩

theorem AstGood.same {mode : AstMode} {mtu : Nat} {b : Binding (AstSt E)} (h : AstGood mode mtu b) {s : AstSt E}
    (hs : SameSt b.st s) : AstGood mode mtu { b with st := s } :=
  h.congr hs.two (by rw [hs.rx]; exact h.rxs) (by rw [hs.tx]; exact h.txs) (by rw [hs.tx]; exact h.busy)

theorem AstCan.congr {mode : AstMode} {b : Binding (AstSt E)} (h : AstCan mode b) {s : AstSt E}
    (hs : Same2 b.st s) : AstCan mode { b with st := s } :=
  ⟨by show s.proto ≠ _; rw [hs.proto]; exact h.ver, hs.safe h.lay, fun hm => by show IsReady s.kcsStatus; rw [hs.kcs]; exact h.rdy hm⟩

/-- Appending the checksum never faults. -/
theorem protoProtect_total {v : Nat} (hv : v ≠ 0) {p : Pktbuf} (h : PktGood p) :
    ∃ p', protoProtect (some v) p = .ok p' ∧ PktGood p' ∧ p'.start = p.start := by
  have hlt := h.lt
  have hhi := h.hi
  have hlo := h.lo
  match v, hv with
  | 1, _ => exact ⟨p, rfl, h, rfl⟩
  | 2, _ => exact ⟨p, rfl, h, rfl⟩
  | 3, _ =>
    unfold protoProtect
    simp only
    have hr : p.read p.hdrOff p.len = .ok ((p.data.drop p.hdrOff).take p.len) := by
      unfold Pktbuf.read; rw [if_pos (by rw [h.hdr, h.data]; unfold Pktbuf.len; omega)]
    rw [hr, Res.bind_ok]
    generalize (crc32 ((p.data.drop p.hdrOff).take p.len)).toNat = c
    have h4 : (be32 c).length = 4 := rfl
    unfold Pktbuf.push
    rw [h4]
    have hmod : (p.«end» + 4) % sizeMod = p.«end» + 4 := by unfold sizeMod; omega
    rw [hmod]
    split
    · exact ⟨p, rfl, h, rfl⟩
    · rw [write_eq (by rw [h4, h.data]; omega)]
      refine ⟨_, rfl, ⟨h.hdr, ?_, ?_, ?_, h.lt⟩, rfl⟩
      · simp only; omega
      · simp only; omega
      · simp [h4, h.data]; omega
  | n + 4, _ => exact ⟨p, rfl, h, rfl⟩

/-- The contract of the binding. -/
def astK (hw : Hw E) (mode : AstMode) (mtu : Nat) : Contract (astOps hw) where
  I := AstGood mode mtu
  P := PktGood
  T := AstCan mode
  made := by
    intro b p hI _ hm
    have h1 := hm.lo
    have h2 := hm.hi
    have h3 := hI.hi
    refine ⟨by rw [hm.hdr, hm.start], by rw [hm.start]; omega, by rw [hm.size]; omega, by rw [hm.data, hm.size], ?_⟩
    rw [hm.size, hI.hdr, hI.trl]; omega
  tx := by
    intro b p hI hT hP
    obtain ⟨v, hv, hv4⟩ := hI.proto
    have hv0 : v ≠ 0 := fun h => hT.ver (by rw [hv, h])
    have hl := hT.lay
    have hov := overhead_le v
    have hsz := hl.2.1.2
    have hwin := hl.2.1.1.2
    have ho1 : overhead 1 = 4 := rfl
    unfold winSize at hwin
    show ∃ out, astTx hw b p = .ok out ∧ _
    unfold astTx
    dsimp only
    rw [hv, protoBodySize_ok hv0 (by omega) hl.lt.2.2.2, Res.bind_ok]
    split
    · exact ⟨_, rfl, hI, hP, fun _ => hT⟩
    · rename_i hlen
      have h4 : (be32 (u32 p.len)).length = 4 := rfl
      obtain ⟨r1, s1, e1, hs1⟩ := lpcWrite_total hw b.st (off := b.st.tx.offset) (bs := be32 (u32 p.len))
        (by rw [h4]; unfold lpcWinSize; omega)
      obtain ⟨p1, e2, hp1, hst1⟩ := protoProtect_total hv0 hP
      have hpl := protoProtect_len hv0 e2
      have hul : u32 p1.len ≤ p1.len := Nat.mod_le _ _
      have hr : p1.read p1.hdrOff (u32 p1.len) = .ok ((p1.data.drop p1.hdrOff).take (u32 p1.len)) := by
        unfold Pktbuf.read; rw [if_pos]
        rw [hp1.hdr, hp1.data]
        have := hp1.lo; have := hp1.hi
        unfold Pktbuf.len at hul ⊢; omega
      have hbl := read_length hr
      have hoff : u32 (s1.tx.offset + 4) = b.st.tx.offset + 4 := by rw [hs1.tx]; exact u32_of_lt (by omega)
      obtain ⟨r2, s2, e3, hs2⟩ := lpcWrite_total hw s1 (off := b.st.tx.offset + 4) (bs := (p1.data.drop p1.hdrOff).take (u32 p1.len))
        (by rw [hbl]; unfold lpcWinSize; omega)
      rw [e1, Res.bind_ok]
      simp only
      rw [hs1.proto, hv, e2, Res.bind_ok, hr, Res.bind_ok, hoff, e3, Res.bind_ok]
      have hs12 := hs1.trans hs2
      have hs3 := kcsSend_same hw { s2 with tx := { s2.tx with state := .prepared } } cmdTxBegin
      generalize kcsSend hw { s2 with tx := { s2.tx with state := .prepared } } cmdTxBegin = r at hs3
      obtain ⟨rc, s3⟩ := r
      simp only at hs3 ⊢
      have h2 : Same2 b.st { s2 with tx := { s2.tx with state := .prepared } } :=
        ⟨hs12.mode, hs12.mtu, hs12.proto, by rw [hs12.rx], by rw [hs12.rx], by show s2.tx.offset = _; rw [hs12.tx],
         by show s2.tx.size = _; rw [hs12.tx], hs12.kcs⟩
      have h3 := h2.trans hs3.two
      refine ⟨_, rfl, ?_, ⟨hp1.hdr, hp1.lo, hp1.hi, hp1.data, hp1.lt⟩, by simp⟩
      have hrx : s3.rx = b.st.rx := by rw [hs3.rx]; exact hs12.rx
      split
      · refine hI.congr ⟨h3.mode, h3.mtu, h3.proto, h3.rxo, h3.rxz, h3.txo, h3.txz, h3.kcs⟩ ?_ (fun _ => hl) (fun hm _ => hT.rdy hm)
        intro hx; exact hl
      · exact hI.congr h3 (fun _ => hl) (fun _ => hl) (fun hm _ => hT.rdy hm)


/-! ## The single bus of the endpoint -/

/-- The memory invariant for an endpoint with this one bus. -/
def AstMem (hw : Hw E) (mode : AstMode) (mtu : Nat) (base : List Nat) (c : Core (AstSt E)) (bus : Bus (AstSt E)) : Prop :=
  MemInv (astK hw mode mtu) base c ∧ c.busses = [bus]

theorem AstMem.good {hw : Hw E} {mode : AstMode} {mtu : Nat} {base : List Nat} {c : Core (AstSt E)} {bus : Bus (AstSt E)}
    (h : AstMem hw mode mtu base c bus) : AstGood mode mtu bus.binding := (h.1.inv bus (by simp [h.2])).1

theorem AstMem.can {hw : Hw E} {mode : AstMode} {mtu : Nat} {base : List Nat} {c : Core (AstSt E)} {bus : Bus (AstSt E)}
    (h : AstMem hw mode mtu base c bus) : bus.state = .txEnabled → AstCan mode bus.binding := h.1.gate bus (by simp [h.2])

theorem AstMem.busAt {hw : Hw E} {mode : AstMode} {mtu : Nat} {base : List Nat} {c : Core (AstSt E)} {bus : Bus (AstSt E)}
    (h : AstMem hw mode mtu base c bus) : c.busAt 0 = .ok bus := by
  obtain ⟨b, h1, h2, -⟩ := h.1.busAt (i := 0) h.1.pos
  rw [h.2] at h2; simp only [List.getElem?_cons_zero, Option.some.injEq] at h2; rw [h1, h2]

theorem AstMem.ofInv {hw : Hw E} {mode : AstMode} {mtu : Nat} {base : List Nat} {c : Core (AstSt E)}
    (h : MemInv (astK hw mode mtu) base c) (hn : c.nBusses = 1) : ∃ bus, AstMem hw mode mtu base c bus := by
  have := h.nb
  rw [hn] at this
  obtain ⟨bus, hb⟩ := List.length_eq_one_iff.mp this.symm
  exact ⟨bus, h, hb⟩

theorem AstMem.n {hw : Hw E} {mode : AstMode} {mtu : Nat} {base : List Nat} {c : Core (AstSt E)} {bus : Bus (AstSt E)}
    (h : AstMem hw mode mtu base c bus) : c.nBusses = 1 := by rw [h.1.nb, h.2]; rfl

/-- Storing the binding and the state of the bus. -/
theorem AstMem.put {hw : Hw E} {mode : AstMode} {mtu : Nat} {base : List Nat} {c : Core (AstSt E)} {bus : Bus (AstSt E)}
    (h : AstMem hw mode mtu base c bus) {b : Binding (AstSt E)} {st : BusState} (hg : AstGood mode mtu b)
    (hc : st = .txEnabled → AstCan mode b) :
    AstMem hw mode mtu base (c.setBus 0 { bus with binding := b, state := st }) { bus with binding := b, state := st } := by
  refine ⟨⟨?_, h.1.ok, h.1.ctxs, ?_, h.1.pos, h.1.ptr, ?_, ?_, ?_⟩, by simp [Core.setBus, h.2]⟩
  · refine h.1.owns.congr fun j => ?_
    simp only [owned, queueIds, Core.setBus, h.2, List.set_cons_zero, List.flatMap_cons, List.flatMap_nil]
  · simp only [Core.setBus, List.length_set]; exact h.1.nb
  · intro b' hb' _
    simp only [Core.setBus, h.2, List.set_cons_zero, List.mem_singleton] at hb'
    subst hb'; exact hg.bind
  · intro b' hb'
    simp only [Core.setBus, h.2, List.set_cons_zero, List.mem_singleton] at hb'
    subst hb'; exact ⟨hg, (h.1.inv bus (by simp [h.2])).2⟩
  · intro b' hb'
    simp only [Core.setBus, h.2, List.set_cons_zero, List.mem_singleton] at hb'
    subst hb'; exact hc

theorem AstMem.putSt {hw : Hw E} {mode : AstMode} {mtu : Nat} {base : List Nat} {c : Core (AstSt E)} {bus : Bus (AstSt E)}
    (h : AstMem hw mode mtu base c bus) {s : AstSt E} (hg : AstGood mode mtu { bus.binding with st := s })
    (hc : bus.state = .txEnabled → AstCan mode { bus.binding with st := s }) :
    AstMem hw mode mtu base (c.setSt 0 bus s) { bus with binding := { bus.binding with st := s } } := h.put hg hc

/-- Storing a binding and disabling transmission. -/
theorem AstMem.off {hw : Hw E} {mode : AstMode} {mtu : Nat} {base : List Nat} {c : Core (AstSt E)} {bus : Bus (AstSt E)}
    (h : AstMem hw mode mtu base c bus) {b : Binding (AstSt E)} (hg : AstGood mode mtu b) :
    ∃ c' st, (c.setBinding 0 bus b).setTxEnabled (astOps hw) 0 false = .ok (c', []) ∧ st ≠ .txEnabled ∧
      AstMem hw mode mtu base c' { bus with binding := b, state := st } := by
  have hb1 : (c.setBinding 0 bus b).busAt 0 = .ok { bus with binding := b } := by
    obtain ⟨id, hid⟩ := h.1.ptr
    have hd : c.mem.deref c.bussesPtr = .ok () := by
      rw [hid]; exact h.1.owns.deref (by simp [owned, hid])
    unfold Core.busAt
    show (if 0 < c.nBusses then _ else _) = _
    rw [if_pos h.1.pos]
    show (match c.mem.deref c.bussesPtr with | .error e => _ | .ok _ => _) = _
    rw [hd]
    simp [Core.setBinding, Core.setBus, h.2]
  have hput := fun st => h.put (b := b) (st := st)
  unfold Core.setTxEnabled
  rw [hb1, Res.bind_ok]
  simp only
  split
  · rename_i hst
    refine ⟨_, .constructed, rfl, by simp, ?_⟩
    have := hput .constructed hg (by simp)
    rw [← hst] at this ⊢; exact this
  · rename_i hst
    refine ⟨_, .txDisabled, rfl, by simp, ?_⟩
    have := hput .txDisabled hg (by simp)
    simpa [Core.setBinding, Core.setBus] using this
  · rename_i hst
    refine ⟨_, .txDisabled, rfl, by simp, ?_⟩
    have := hput .txDisabled hg (by simp)
    rw [← hst] at this ⊢; exact this

/-- Storing a binding and enabling transmission. -/
theorem AstMem.on {hw : Hw E} {mode : AstMode} {mtu : Nat} {base : List Nat} {c : Core (AstSt E)} {bus : Bus (AstSt E)}
    (h : AstMem hw mode mtu base c bus) {b : Binding (AstSt E)} (hg : AstGood mode mtu b) (hc : AstCan mode b) :
    ∃ c' e bus', (c.setBinding 0 bus b).setTxEnabled (astOps hw) 0 true = .ok (c', e) ∧ AstMem hw mode mtu base c' bus' := by
  have h1 := h.put (st := bus.state) hg (fun _ => hc)
  obtain ⟨c', e, rc, hs, hm⟩ := step_total (astK hw mode mtu) h1.1 (op := .enable 0 true)
    ⟨{ bus with binding := b }, by rw [h1.2]; rfl, hg.bind.wrap, fun _ => hc⟩
  have hn : c'.nBusses = 1 := by
    obtain ⟨-, m, bs, hr2, hc2, mx2, rfl, -⟩ := step_frame (by simp) hs
    exact h1.n
  simp only [Core.step] at hs
  obtain ⟨⟨c1, e1⟩, hs1, hs⟩ := Res.bind_eq_ok.mp hs
  simp only [Except.ok.injEq, Prod.mk.injEq] at hs
  obtain ⟨rfl, rfl, -⟩ := hs
  obtain ⟨bus', hb'⟩ := AstMem.ofInv hm hn
  exact ⟨c1, e1, bus', hs1, hb'⟩


/-! ## Negotiation -/

theorem layoutRead_total (hw : Hw E) (s : AstSt E) :
    ∃ rc l s', layoutRead hw s = .ok (rc, l, s') ∧ SameSt s s' := by
  obtain ⟨rc, bs, s', h1, h2, -⟩ := lpcRead_total hw s (off := 0) (len := lpcHdrSize) (by decide)
  unfold layoutRead
  rw [h1, Res.bind_ok]
  cases hm : s.mode
  · exact ⟨_, _, _, rfl, h2⟩
  · exact ⟨_, _, _, rfl, h2⟩

theorem layoutWrite_total (hw : Hw E) (s : AstSt E) (l : AstLayout) :
    ∃ rc s', layoutWrite hw s l = .ok (rc, s') ∧ SameSt s s' := by
  unfold layoutWrite
  split
  · exact lpcWrite_total hw s (by show offLayout + 16 ≤ _; decide)
  · exact lpcWrite_total hw s (by show offRxSize + 4 ≤ _; decide)

theorem negotiateLayoutBmc_total (hw : Hw E) {mtu : Nat} {b : Binding (AstSt E)} (h : AstGood .bmc mtu b) :
    ∃ rc b', negotiateLayoutBmc hw b = .ok (rc, b') ∧ AstGood .bmc mtu b' ∧ b'.st.proto = b.st.proto ∧
      (0 ≤ rc → b.st.proto ≠ some 0) := by
  obtain ⟨v, hv, hv4⟩ := h.proto
  unfold negotiateLayoutBmc
  rw [hv]
  simp only [protoVersion, Res.bind_ok]
  split
  · exact ⟨_, _, rfl, h, hv, by simp [EINVAL]⟩
  · rename_i hv0
    obtain ⟨rc, l, s, e1, hs⟩ := layoutRead_total hw b.st
    obtain ⟨l1, l2, l3, l4⟩ := layoutRead_lt e1
    have hg := h.same hs
    have hl := hg.bmc rfl
    have hps : s.proto = some v := by rw [hs.proto]; exact hv
    rw [e1, Res.bind_ok]
    simp only
    split
    · rename_i hneg
      exact ⟨_, _, rfl, hg, hps, by omega⟩
    · obtain ⟨r, e2, hr⟩ := layoutValidate_eq hv0 l1 l2 l3 l4
      rw [hps, e2, Res.bind_ok]
      cases r with
      | false => exact ⟨_, _, rfl, hg, hps, by simp [EINVAL]⟩
      | true =>
        simp only [Bool.not_true, Bool.false_eq_true, if_false]
        have hsafe := hr.mp rfl
        have hov := overhead_le v
        obtain ⟨⟨⟨a1, a2⟩, a3⟩, ⟨⟨a4, a5⟩, a6⟩, a7⟩ := hl
        obtain ⟨⟨⟨b1, b2⟩, b3⟩, ⟨⟨b4, b5⟩, b6⟩, b7⟩ := hsafe
        have ho1 : overhead 1 = 4 := rfl
        unfold winSize at a2 a5 b2 b5
        simp only at a1 a2 a3 a4 a5 a6 a7
        unfold Apart at a7
        have hmt : s.mtu = mtu := hg.mt
        have hsm := h.small
        have hcalc : ∃ m, calculateMtu s l = .ok m ∧ m < 2 ^ 20 := by
          unfold calculateMtu
          rw [hps, hmt]
          simp only
          have hlim : 72 ≤ max s.rx.offset s.tx.offset - min s.rx.offset s.tx.offset ∧
              max s.rx.offset s.tx.offset - min s.rx.offset s.tx.offset < 2 ^ 20 := by omega
          generalize max s.rx.offset s.tx.offset - min s.rx.offset s.tx.offset = lim at hlim
          have hfin : ∀ x, overhead v + 4 ≤ x → x < 2 ^ 20 →
              ∃ m, (protoBodySize (some v) (min x l.tx.size) >>= fun body => Except.ok (u32 (bodySize body))) = .ok m ∧
                m < 2 ^ 20 := by
            intro x hx1 hx2
            rw [protoBodySize_ok hv0 (by omega) (by omega), Res.bind_ok]
            refine ⟨_, rfl, ?_⟩
            unfold bodySize sizeMod hdrSize u32
            omega
          split
          · have hu : u32 (packetSize mtu) = mtu + 4 := by
              unfold packetSize hdrSize; exact u32_of_lt (by omega)
            rw [hu, protoPacketSize_ok hv0 (by omega)]
            simp only [Res.bind_ok]
            exact hfin (min lim (mtu + 4 + overhead v)) (by omega) (by omega)
          · exact hfin lim (by omega) (by omega)
        obtain ⟨m, e3, hm⟩ := hcalc
        rw [e3, Res.bind_ok]
        have hu : u32 (packetSize m) = m + 4 := by
          unfold packetSize hdrSize; exact u32_of_lt (by omega)
        rw [hu, protoPacketSize_ok hv0 (by omega), Res.bind_ok]
        obtain ⟨r2, e4, hr2⟩ := layoutValidate_eq (l := { rx := { s.rx with size := m + 4 + overhead v }, tx := { s.tx with size := m + 4 + overhead v } })
          hv0 (by simp only; omega) (by simp only; omega) (by simp only; omega) (by simp only; omega)
        rw [e4, Res.bind_ok]
        cases r2 with
        | false => exact ⟨_, _, rfl, hg, hps, by simp [EINVAL]⟩
        | true =>
          have hsf := hr2.mp rfl
          simp only [if_true] at hsf ⊢
          obtain ⟨rc2, s2, e5, hs2⟩ := layoutWrite_total hw { s with proto := some v, rx := { s.rx with size := m + 4 + overhead v }, tx := { s.tx with size := m + 4 + overhead v } }
            { rx := { s.rx with size := m + 4 + overhead v }, tx := { s.tx with size := m + 4 + overhead v } }
          rw [e5, Res.bind_ok]
          have hp2 : s2.proto = some v := by rw [hs2.proto]
          have hl2 : LaySafe s2 := by
            unfold LaySafe; rw [hs2.rx, hs2.tx]; exact hsf.one
          have hgood : ∀ ps, 68 ≤ ps → ps < 2 ^ 33 → AstGood .bmc mtu { b with st := s2, pktSize := ps } := fun ps h1 h2 =>
            ⟨hs2.mode.trans hg.md, hs2.mtu.trans hg.mt, h.small, ⟨v, hp2, hv4⟩, .inr hl2, fun _ => hl2, fun _ => hl2, fun _ => hl2,
             by simp, h1, h2, h.hdr, h.trl⟩
          have h68 := hsf.1.2
          simp only
          split
          · exact ⟨_, _, rfl, hgood b.pktSize h.lo h.hi, hp2, by omega⟩
          · split
            · exact ⟨_, _, rfl, hgood _ (by unfold packetSize hdrSize; omega) (by unfold packetSize hdrSize; omega), hp2, by simp [hv0]⟩
            · exact ⟨_, _, rfl, hgood b.pktSize h.lo h.hi, hp2, by simp [hv0]⟩


/-- The BMC opens the channel. -/
theorem initChannel_total (hw : Hw E) {mtu : Nat} {b : Binding (AstSt E)} (h : AstGood .bmc mtu b) :
    ∃ on b', initChannel hw b = .ok (on, b') ∧ AstGood .bmc mtu b' ∧ (on = true → AstCan .bmc b') := by
  obtain ⟨rc0, hdr, s, e0, hs, -⟩ := lpcRead_total hw b.st (off := 0) (len := lpcHdrSize) (by decide)
  unfold initChannel
  rw [e0, Res.bind_ok]
  simp only
  have hlt := (negotiateVersion_lt (field16 hdr offHostMin) (field16 hdr offHostCur)).2
  rw [show astVerMin = 1 from rfl, show astVerCur = 3 from rfl]
  generalize negotiateVersion 1 3 (field16 hdr offHostMin) (field16 hdr offHostCur) = v at hlt
  rw [if_neg (by omega)]
  have hg := h.same hs
  have hl := hg.bmc rfl
  have hg1 : AstGood .bmc mtu { b with st := { s with proto := some v } } :=
    ⟨hg.md, hg.mt, hg.small, ⟨v, rfl, hlt⟩, .inr hl, fun _ => hl, fun _ => hl, fun _ => hl, by simp, hg.lo, hg.hi, hg.hdr, hg.trl⟩
  obtain ⟨rc, b1, e1, hg2, hp1, hz⟩ := negotiateLayoutBmc_total hw hg1
  rw [e1, Res.bind_ok]
  simp only
  have hn : ∀ n, ∃ rc s', lpcWrite hw b1.st offNegotiated (be16 n) = .ok (rc, s') ∧ SameSt b1.st s' := fun n =>
    lpcWrite_total hw b1.st (by show offNegotiated + 2 ≤ _; decide)
  obtain ⟨rc2, s2, e2, hs2⟩ := hn (if rc < 0 then 0 else v)
  rw [e2, Res.bind_ok]
  simp only
  have hl2 := hg2.bmc rfl
  generalize hst : (if (if rc < 0 then 0 else v) > 0 then kcsBmcReady ||| kcsObf ||| kcsChannelActive else kcsBmcReady ||| kcsObf) = st
  have hs3 := kcsSetStatus_same hw { s2 with tx := { s2.tx with state := .acquired }, rx := { s2.rx with state := .released } } st
  generalize kcsSetStatus hw { s2 with tx := { s2.tx with state := .acquired }, rx := { s2.rx with state := .released } } st = r at hs3
  obtain ⟨r3, s3⟩ := r
  simp only at hs3 ⊢
  have h2 : Same2 b1.st s3 := Same2.trans
    (b := { s2 with tx := { s2.tx with state := .acquired }, rx := { s2.rx with state := .released } })
    ⟨hs2.mode, hs2.mtu, hs2.proto, by show s2.rx.offset = _; rw [hs2.rx], by show s2.rx.size = _; rw [hs2.rx],
     by show s2.tx.offset = _; rw [hs2.tx], by show s2.tx.size = _; rw [hs2.tx], hs2.kcs⟩ hs3.two
  refine ⟨_, _, rfl, hg2.congr h2 (fun _ => hl2) (fun _ => hl2) (by simp), fun hon => ⟨?_, h2.safe hl2, by simp⟩⟩
  show s3.proto ≠ some 0
  rw [h2.proto, hp1]
  simp only [ne_eq, Option.some.injEq]
  rintro rfl
  rw [show (if rc < 0 then 0 else 0) = 0 by split <;> rfl, if_neg (by decide)] at hst
  rw [← hst] at hon
  revert hon; decide

/-- The host opens the channel: the receive and transmit buffers are unused at this point. -/
theorem finaliseChannel_total (hw : Hw E) {mtu : Nat} {b : Binding (AstSt E)} (h : AstGood .host mtu b)
    (h1 : b.st.tx.state = .idle) (h2 : b.st.rx.state = .idle) :
    ∃ rc b', finaliseChannel hw b = .ok (rc, b') ∧ AstGood .host mtu b' ∧ b'.st.kcsStatus = b.st.kcsStatus ∧
      (b'.st.tx.state = .idle ∨ b'.st.tx.state = .acquired) ∧
      (rc = 0 → b'.st.proto ≠ some 0 ∧ LaySafe b'.st) := by
  obtain ⟨rc0, ver, s, e0, hs, -⟩ := lpcRead_total hw b.st (off := offNegotiated) (len := 2) (by decide)
  unfold finaliseChannel
  rw [e0, Res.bind_ok]
  simp only
  have hg := h.same hs
  have ht : s.tx.state = .idle := by rw [hs.tx]; exact h1
  split
  · rename_i hneg; exact ⟨_, _, rfl, hg, hs.kcs, .inl ht, by omega⟩
  · split
    · exact ⟨_, _, rfl, hg, hs.kcs, .inl ht, by simp [EINVAL]⟩
    · rename_i hver
      rw [show astVerMin = 1 from rfl, show astVerCur = 3 from rfl] at hver
      generalize fromBe ver = v at hver
      have hv0 : v ≠ 0 := by omega
      have hv4 : v < 4 := by omega
      have hg1 : AstGood .host mtu { b with st := { s with proto := some v } } :=
        ⟨hg.md, hg.mt, hg.small, ⟨v, rfl, hv4⟩, hg.lay, by simp, hg.rxs, hg.txs, hg.busy, hg.lo, hg.hi, hg.hdr, hg.trl⟩
      obtain ⟨rc1, l, s1, e1, hs1⟩ := layoutRead_total hw { s with proto := some v }
      obtain ⟨l1, l2, l3, l4⟩ := layoutRead_lt e1
      have hg2 := hg1.same hs1
      have ht1 : s1.tx.state = .idle := by rw [hs1.tx]; exact ht
      have hk1 : s1.kcsStatus = b.st.kcsStatus := by rw [hs1.kcs]; exact hs.kcs
      rw [e1, Res.bind_ok]
      simp only
      split
      · rename_i hneg; exact ⟨_, _, rfl, hg2, hk1, .inl ht1, by omega⟩
      · have hp1 : s1.proto = some v := by rw [hs1.proto]
        obtain ⟨r, e2, hr⟩ := layoutValidate_eq hv0 l1 l2 l3 l4
        rw [hp1, e2, Res.bind_ok]
        cases r with
        | false => exact ⟨_, _, rfl, hg2, hk1, .inl ht1, by simp [EINVAL]⟩
        | true =>
          have hsf := hr.mp rfl
          have hov := overhead_le v
          have h68 := hsf.2.1.2
          have hwin := hsf.2.1.1.2
          unfold winSize at hwin
          simp only [Bool.not_true, Bool.false_eq_true, if_false]
          rw [protoBodySize_ok hv0 (by omega) (by omega)]
          have hmost : ∃ most, (if 2 ≤ v then (Except.ok (l.tx.size - overhead v) : Res Nat) else .ok b.pktSize) = .ok most ∧
              68 ≤ most ∧ most < 2 ^ 33 := by
            split
            · exact ⟨_, rfl, by omega, by omega⟩
            · exact ⟨_, rfl, h.lo, h.hi⟩
          obtain ⟨most, e3, hm1, hm2⟩ := hmost
          rw [e3, Res.bind_ok]
          refine ⟨_, _, rfl, ⟨hg2.md, hg2.mt, hg2.small, ⟨v, ?_, hv4⟩, .inr hsf.one, fun _ => hsf.one, fun _ => hsf.one,
            fun _ => hsf.one, by simp, hm1, hm2, hg2.hdr, hg2.trl⟩, hk1, .inr rfl, fun _ => ⟨?_, hsf.one⟩⟩
          · first | exact hp1 | rfl
          · simp [hv0]

theorem negotiateLayoutHost_total (hw : Hw E) {s : AstSt E} {v : Nat} (hp : s.proto = some v) (hv : v ≠ 0)
    (hm : s.mtu < 4294967284) : ∃ rc s', negotiateLayoutHost hw s = .ok (rc, s') ∧ SameSt s s' := by
  obtain ⟨rc1, l, s1, e1, hs1⟩ := layoutRead_total hw s
  obtain ⟨l1, l2, l3, l4⟩ := layoutRead_lt e1
  unfold negotiateLayoutHost
  rw [e1, Res.bind_ok]
  simp only
  have hov := overhead_le v
  split
  · exact ⟨_, _, rfl, hs1⟩
  · have hp1 : s1.proto = some v := by rw [hs1.proto]; exact hp
    obtain ⟨r, e2, hr⟩ := layoutValidate_eq hv l1 l2 l3 l4
    rw [hp1, e2, Res.bind_ok]
    cases r with
    | false => exact ⟨_, _, rfl, hs1⟩
    | true =>
      simp only [Bool.not_true, Bool.false_eq_true, if_false]
      have hu : u32 (packetSize s1.mtu) = s.mtu + 4 := by
        rw [hs1.mtu]; unfold packetSize hdrSize; exact u32_of_lt (by omega)
      rw [hu, protoPacketSize_ok hv (by omega), Res.bind_ok]
      obtain ⟨r2, e4, hr2⟩ := layoutValidate_eq (l := { l with rx := { l.rx with size := s.mtu + 4 + overhead v } })
          hv l1 (by simp only; omega) l3 l4
      rw [e4, Res.bind_ok]
      cases r2 with
      | false => exact ⟨_, _, rfl, hs1⟩
      | true =>
        obtain ⟨rc2, s2, e5, hs2⟩ := layoutWrite_total hw s1 { l with rx := { l.rx with size := s.mtu + 4 + overhead v } }
        exact ⟨_, _, e5, hs1.trans hs2⟩

/-- The host starts the handshake. -/
theorem initHost_total (hw : Hw E) {mtu : Nat} {b : Binding (AstSt E)} (h : AstGood .host mtu b)
    (hnb : b.st.tx.state ≠ .prepared ∧ b.st.tx.state ≠ .released) :
    ∃ rc s', initHost hw b.st = .ok (rc, s') ∧ AstGood .host mtu { b with st := s' } := by
  have h0 := kcsRead_same hw b.st .status
  unfold initHost
  generalize kcsRead hw b.st .status = r at h0
  obtain ⟨rc0, status, s0⟩ := r
  simp only at h0 ⊢
  have hg := h.same h0
  have ht0 : s0.tx.state = b.st.tx.state := by rw [h0.tx]
  -- any state with the same layout and states, some version and any status
  have fin : ∀ s' : AstSt E, s'.mode = s0.mode → s'.mtu = s0.mtu → s'.rx = s0.rx → s'.tx = s0.tx →
      (∃ v, s'.proto = some v ∧ v < 4) → AstGood .host mtu { b with st := s' } := by
    intro s' e1 e2 e3 e4 e5
    refine ⟨e1.trans hg.md, e2.trans hg.mt, hg.small, e5, ?_, by simp, ?_, ?_, ?_, hg.lo, hg.hi, hg.hdr, hg.trl⟩
    · exact hg.lay.imp (fun hz => hz.congr (by simp [e3]) (by simp [e3]) (by simp [e4]) (by simp [e4]))
        (fun hz => hz.congr (by simp [e3]) (by simp [e3]) (by simp [e4]) (by simp [e4]))
    · intro hx; simp only [e3] at hx
      exact (hg.rxs hx).congr (by simp [e3]) (by simp [e3]) (by simp [e4]) (by simp [e4])
    · intro hx; simp only [e4] at hx
      exact (hg.txs hx).congr (by simp [e3]) (by simp [e3]) (by simp [e4]) (by simp [e4])
    · intro _ hx
      simp only [e4, ht0] at hx
      rcases hx with hx | hx
      · exact absurd hx hnb.1
      · exact absurd hx hnb.2
  split
  · exact ⟨_, _, rfl, hg⟩
  · split
    · exact ⟨_, _, rfl, fin _ rfl rfl rfl rfl hg.proto⟩
    · obtain ⟨rc1, hdr, s1, e1, hs1, -⟩ := lpcRead_total hw { s0 with kcsStatus := status } (off := 0) (len := lpcHdrSize) (by decide)
      rw [e1, Res.bind_ok]
      simp only
      have hlt := (negotiateVersion_lt (field16 hdr offBmcMin) (field16 hdr offBmcCur)).1
      rw [show astVerMin = 1 from rfl, show astVerCur = 3 from rfl]
      generalize negotiateVersion (field16 hdr offBmcMin) (field16 hdr offBmcCur) 1 3 = v at hlt
      split
      · exact ⟨_, _, rfl, fin _ hs1.mode hs1.mtu hs1.rx hs1.tx (by rw [hs1.proto]; exact hg.proto)⟩
      · rename_i hv0
        rw [if_neg (by omega)]
        have hneg : ∃ rc s', (if 2 ≤ v then negotiateLayoutHost hw { s1 with proto := some v } else .ok (0, { s1 with proto := some v })) = .ok (rc, s') ∧
            SameSt { s1 with proto := some v } s' := by
          split
          · refine negotiateLayoutHost_total hw rfl hv0 ?_
            show s1.mtu < _
            rw [hs1.mtu]
            show s0.mtu < _
            have := hg.mt
            simp only at this
            rw [this]; exact hg.small
          · exact ⟨_, _, rfl, rfl⟩
        obtain ⟨rc2, s2, e2, hs2⟩ := hneg
        rw [e2, Res.bind_ok]
        simp only
        have k1 : s2.mode = s0.mode := by rw [hs2.mode]; exact hs1.mode
        have k2 : s2.mtu = s0.mtu := by rw [hs2.mtu]; exact hs1.mtu
        have k3 : s2.rx = s0.rx := by rw [hs2.rx]; exact hs1.rx
        have k4 : s2.tx = s0.tx := by rw [hs2.tx]; exact hs1.tx
        split
        · exact ⟨_, _, rfl, fin _ k1 k2 k3 k4 ⟨v, by rw [hs2.proto], hlt⟩⟩
        · obtain ⟨rc3, s3, e3, hs3⟩ := lpcWrite_total hw s2 (off := offHostMin) (bs := be16 1) (by decide)
          rw [e3, Res.bind_ok]
          simp only
          obtain ⟨rc4, s4, e4, hs4⟩ := lpcWrite_total hw s3 (off := offHostCur) (bs := be16 3) (by decide)
          rw [e4, Res.bind_ok]
          simp only
          have hs5 := kcsWrite_same hw s4 .data cmdInitialise
          generalize kcsWrite hw s4 .data cmdInitialise = r at hs5
          obtain ⟨rc5, s5⟩ := r
          simp only at hs5 ⊢
          have hss := (hs3.trans hs4).trans hs5
          exact ⟨_, _, rfl, fin _ (hss.mode.trans k1) (hss.mtu.trans k2) (hss.rx.trans k3) (hss.tx.trans k4) ⟨0, rfl, by decide⟩⟩


/-! ## `mctp_astlpc_poll` -/

/-- What the host needs of the BMC in order not to fail: the channel-active bit is never set without the BMC-ready
bit, the BMC never sends the host's own command (0x00, initialise), and the accessor that reads the KCS registers
reports failures by negative numbers. -/
structure SaneBmc (hw : Hw E) : Prop where
  status : ∀ e, (hw.kcsRead e .status).2.1 &&& kcsChannelActive ≠ 0 → (hw.kcsRead e .status).2.1 &&& kcsBmcReady ≠ 0
  data   : ∀ e, (hw.kcsRead e .data).2.1 ≠ cmdInitialise
  rc     : ∀ e r, (hw.kcsRead e r).1 ≤ 0

theorem astRetry_good (hw : Hw E) {mode : AstMode} {mtu : Nat} {b : Binding (AstSt E)} (h : AstGood mode mtu b) :
    AstGood mode mtu { b with st := astRetry hw b.st } ∧ Same2 b.st (astRetry hw b.st) := by
  have key : ∀ s : AstSt E, Same2 b.st s → AstGood mode mtu { b with st := s } →
      let s1 := if s.tx.state = .prepared then
        (if (kcsSend hw s cmdTxBegin).1 = 0 then
          { (kcsSend hw s cmdTxBegin).2 with tx := { (kcsSend hw s cmdTxBegin).2.tx with state := .released } }
         else (kcsSend hw s cmdTxBegin).2) else s
      AstGood mode mtu { b with st := s1 } ∧ Same2 b.st s1 := by
    intro s hss hg
    simp only
    have hs := kcsSend_same hw s cmdTxBegin
    generalize kcsSend hw s cmdTxBegin = r at hs
    obtain ⟨rc, s2⟩ := r
    simp only at hs ⊢
    split
    · rename_i hst
      have hsafe := hg.txs (by simp [hst])
      have hrdy := fun hm => hg.busy hm (.inl hst)
      split
      · have h2 : Same2 s { s2 with tx := { s2.tx with state := .released } } :=
          ⟨hs.mode, hs.mtu, hs.proto, by rw [hs.rx], by rw [hs.rx], by show s2.tx.offset = _; rw [hs.tx],
           by show s2.tx.size = _; rw [hs.tx], hs.kcs⟩
        exact ⟨hg.congr h2 (fun _ => hsafe) (fun _ => hsafe) (fun hm _ => hrdy hm), hss.trans h2⟩
      · exact ⟨hg.same hs, hss.trans hs.two⟩
    · exact ⟨hg, hss⟩
  have hs := kcsSend_same hw b.st cmdRxComplete
  unfold astRetry
  generalize kcsSend hw b.st cmdRxComplete = r at hs
  obtain ⟨rc, s2⟩ := r
  simp only at hs ⊢
  by_cases hst : b.st.rx.state = .prepared
  · simp only [hst, if_true]
    have hsafe := h.rxs (by simp [hst])
    by_cases hz : rc = 0
    · simp only [hz, if_true]
      have h2 : Same2 b.st { s2 with rx := { s2.rx with state := .released } } :=
        ⟨hs.mode, hs.mtu, hs.proto, by show s2.rx.offset = _; rw [hs.rx], by show s2.rx.size = _; rw [hs.rx], by rw [hs.tx],
         by rw [hs.tx], hs.kcs⟩
      exact key _ h2 (h.congr h2 (fun _ => hsafe) (fun _ => hsafe) (by simp only [hs.tx]; exact h.busy))
    · simp only [hz, if_false]
      exact key _ hs.two (h.same hs)
  · simp only [hst, if_false]
    exact key _ (Same2.refl _) h

/-- Receiving a packet never faults. -/
theorem astRxStart_total (hw : Hw E) {mode : AstMode} {mtu : Nat} {base : List Nat} {c : Core (AstSt E)} {bus : Bus (AstSt E)}
    (h : AstMem hw mode mtu base c bus) (hv : bus.binding.st.proto ≠ some 0) (hst : bus.binding.st.rx.state ≠ .idle) :
    ∃ c' e bus', c.astRxStart hw 0 = .ok (c', e) ∧ AstMem hw mode mtu base c' bus' := by
  have hg := h.good
  have hl := hg.rxs hst
  obtain ⟨v, hpv, hv4⟩ := hg.proto
  have hv0 : v ≠ 0 := fun hh => hv (by rw [hpv, hh])
  have hov := overhead_le v
  have ho1 : overhead 1 = 4 := rfl
  have hsz := hl.1.2
  have hwin := hl.1.1.2
  unfold winSize at hwin
  unfold Core.astRxStart
  rw [h.busAt, Res.bind_ok]
  obtain ⟨r0, lb, s1, e0, hs1, hlb⟩ := lpcRead_total hw bus.binding.st (off := bus.binding.st.rx.offset) (len := 4)
    (by unfold lpcWinSize; omega)
  rw [e0, Res.bind_ok]
  simp only
  have hp1 : s1.proto = some v := by rw [hs1.proto]; exact hpv
  have hz1 : s1.rx.size = bus.binding.st.rx.size := by rw [hs1.rx]
  rw [hp1, hz1, protoBodySize_ok hv0 (by omega) hl.lt.2.1, Res.bind_ok]
  have hput1 : ∀ {base' : List Nat} {c1 : Core (AstSt E)}, AstMem hw mode mtu base' c1 bus → ∀ s : AstSt E, Same2 bus.binding.st s →
      s.tx.state = bus.binding.st.tx.state →
      AstMem hw mode mtu base' (c1.setSt 0 bus s) { bus with binding := { bus.binding with st := s } } := by
    intro base' c1 h1 s h2 h3
    refine h1.putSt (hg.congr h2 (fun _ => hl) (fun _ => hl) (by rw [h3]; exact hg.busy)) (fun he => (h.can he).congr h2)
  split
  · exact ⟨_, _, _, rfl, hput1 h _ hs1.two (by rw [hs1.tx])⟩
  · split
    · exact ⟨_, _, _, rfl, hput1 h _ hs1.two (by rw [hs1.tx])⟩
    · rename_i hb1 hb2
      generalize fromBe lb = body at hb1 hb2
      rw [protoPacketSize_ok hv0 (by omega), Res.bind_ok]
      obtain ⟨m1, ha, ho, hk⟩ := h.1.owns.alloc h.1.ok
      have hlen : body + overhead v - 4 = body + (overhead v - 4) := by omega
      rw [hlen]
      obtain ⟨r1, bytes, s2, e1, hs2, hbl⟩ := lpcRead_total hw s1 (off := u32 (s1.rx.offset + 4)) (len := body + (overhead v - 4))
        (by rw [hs1.rx, u32_of_lt (by omega)]; unfold lpcWinSize; omega)
      obtain ⟨p0, X, hpa, hwr, hpk, hXid⟩ := recvBuf (fill := c.fill) ha (ps := bus.binding.pktSize) (ph := bus.binding.pktHeader)
        (pt := bus.binding.pktTrailer) (bs := bytes) (by rw [hbl, hg.trl]; omega)
      rw [hbl] at hpa
      rw [hpa]
      simp only
      rw [e1, Res.bind_ok]
      simp only
      rw [hwr, Res.bind_ok]
      have hs3 := kcsSend_same hw { s2 with rx := { s2.rx with state := .prepared } } cmdRxComplete
      generalize kcsSend hw { s2 with rx := { s2.rx with state := .prepared } } cmdRxComplete = r at hs3
      obtain ⟨rc, s3⟩ := r
      simp only at hs3 ⊢
      have hs12 := hs1.trans hs2
      have h2 : Same2 bus.binding.st { s2 with rx := { s2.rx with state := .prepared } } :=
        ⟨hs12.mode, hs12.mtu, hs12.proto, by show s2.rx.offset = _; rw [hs12.rx], by show s2.rx.size = _; rw [hs12.rx],
         by rw [hs12.tx], by rw [hs12.tx], hs12.kcs⟩
      have h3 := h2.trans hs3.two
      have ht3 : s3.tx.state = bus.binding.st.tx.state := by rw [hs3.tx]; simp only [hs12.tx]
      have h4 : ∃ s4, (if rc = 0 then { s3 with rx := { s3.rx with state := .released } } else s3) = s4 ∧
          Same2 bus.binding.st s4 ∧ s4.tx.state = bus.binding.st.tx.state := by
        split
        · exact ⟨_, rfl, ⟨h3.mode, h3.mtu, h3.proto, h3.rxo, h3.rxz, h3.txo, h3.txz, h3.kcs⟩, ht3⟩
        · exact ⟨_, rfl, h3, ht3⟩
      obtain ⟨s4, e4, h5, ht4⟩ := h4
      rw [e4]
      have hmem1 : AstMem hw mode mtu (X.id :: base) { c with mem := m1 } bus :=
        ⟨h.1.alloc (by rw [hXid]; exact ha), h.2⟩
      have hput := hput1 hmem1 s4 h5 ht4
      have hfin : ∃ m, pktbufFree (({ c with mem := m1 } : Core (AstSt E)).setSt 0 bus s4).mem X = .ok m ∧
          AstMem hw mode mtu base { ({ c with mem := m1 } : Core (AstSt E)).setSt 0 bus s4 with mem := m }
            { bus with binding := { bus.binding with st := s4 } } := by
        have hc1 := hput.1
        have ho : Owns (({ c with mem := m1 } : Core (AstSt E)).setSt 0 bus s4).mem
            (X.id :: (owned (({ c with mem := m1 } : Core (AstSt E)).setSt 0 bus s4) ++ base)) := hc1.owns.congr fun j => by
          simp only [List.count_append, List.count_cons]; omega
        obtain ⟨m, r1, r2, r3⟩ := ho.free
        exact ⟨m, r1, ⟨r2, fun n => by simp only; rw [r3]; exact hc1.ok n, hc1.ctxs, hc1.nb, hc1.pos,
          hc1.ptr, hc1.bus, hc1.inv, hc1.gate⟩, hput.2⟩
      have hX : ∃ ver, X.read X.hdrOff 1 = .ok ver := by
        obtain ⟨_, _, _, _, q1, q2, q3⟩ := pktbufAlloc_some hpa
        obtain ⟨q4, q5⟩ := write_ok hwr
        unfold Pktbuf.read
        rw [if_pos]
        · exact ⟨_, rfl⟩
        · have hlo := hg.lo
          subst q5
          simp only [List.length_append, List.length_take, List.length_drop]
          rw [q1, q3]; omega
      obtain ⟨ver, hver⟩ := hX
      rw [hver, Res.bind_ok]
      split
      · obtain ⟨m, f1, f2⟩ := hfin
        rw [f1, Res.bind_ok]
        exact ⟨_, _, _, rfl, f2⟩
      · have hp4 : s4.proto = some v := by rw [h5.proto]; exact hpv
        obtain ⟨ok, X', e5⟩ := protoValidate_total hv0 hv4 hpk (fun h3 => by rw [hbl, h3]; show 4 ≤ body + 4; omega)
        obtain ⟨-, hpk', hid'⟩ := protoValidate_ok hv0 hv4 hpk e5
        rw [hp4, e5, Res.bind_ok]
        simp only
        cases ok with
        | false =>
          obtain ⟨m, f1, f2⟩ := hfin
          unfold pktbufFree at f1 ⊢
          rw [hid', f1]
          exact ⟨_, _, _, rfl, f2⟩
        | true =>
          simp only [if_true]
          obtain ⟨c', e, g1, g2, g3⟩ := busRx_total (astK hw mode mtu) (X := X') (by rw [hid']; exact hput.1) hpk' (i := 0)
            (by rw [hput.n]; decide)
          obtain ⟨bus', hb'⟩ := AstMem.ofInv g2 (g3.trans hput.n)
          exact ⟨c', e, bus', g1, hb'⟩

theorem setBinding_st (c : Core (AstSt E)) (bus : Bus (AstSt E)) (s : AstSt E) :
    c.setSt 0 bus s = c.setBinding 0 bus { bus.binding with st := s } := rfl

theorem astTxComplete_total (hw : Hw E) {mode : AstMode} {mtu : Nat} {base : List Nat} {c : Core (AstSt E)} {bus : Bus (AstSt E)}
    (h : AstMem hw mode mtu base c bus) (hv : bus.binding.st.proto ≠ some 0) (hst : bus.binding.st.tx.state = .released) :
    ∃ c' e bus', c.astTxComplete hw 0 = .ok (c', e) ∧ AstMem hw mode mtu base c' bus' := by
  have hg := h.good
  have hl := hg.txs (by simp [hst])
  unfold Core.astTxComplete
  rw [h.busAt, Res.bind_ok]
  simp only
  rw [setBinding_st]
  have h2 : Same2 bus.binding.st { bus.binding.st with tx := { bus.binding.st.tx with state := .acquired } } :=
    ⟨rfl, rfl, rfl, rfl, rfl, rfl, rfl, rfl⟩
  exact h.on (hg.congr h2 (fun _ => hl) (fun _ => hl) (by simp)) ⟨hv, hl, fun hm => hg.busy hm (.inr hst)⟩

/-- The host looks at the channel. -/
theorem astUpdateActive_total (hw : Hw E) {mtu : Nat} {base : List Nat} {c : Core (AstSt E)} {bus : Bus (AstSt E)}
    (h : AstMem hw .host mtu base c bus) (status updated : Byte)
    (hact : status &&& kcsChannelActive ≠ 0 → IsReady status)
    (hsame : IsReady status → IsReady bus.binding.st.kcsStatus)
    (hbusy : bus.state = .txEnabled ∨ bus.binding.st.tx.state = .prepared ∨ bus.binding.st.tx.state = .released → IsReady status) :
    ∃ c' e rc bus', c.astUpdateActive hw 0 status updated = .ok (c', e, rc) ∧ AstMem hw .host mtu base c' bus' := by
  have hg := h.good
  obtain ⟨v, hpv, hv4⟩ := hg.proto
  unfold Core.astUpdateActive
  rw [h.busAt, Res.bind_ok]
  simp only
  have hver : protoVersion bus.binding.st.proto = .ok v := by rw [hpv]; rfl
  rw [hver, Res.bind_ok]
  -- storing the status
  have hkcs : ∀ {c1 : Core (AstSt E)} {bus1 : Bus (AstSt E)}, AstMem hw .host mtu base c1 bus1 →
      (bus1.state = .txEnabled ∨ bus1.binding.st.tx.state = .prepared ∨ bus1.binding.st.tx.state = .released → IsReady status) →
      AstMem hw .host mtu base (c1.setSt 0 bus1 { bus1.binding.st with kcsStatus := status })
        { bus1 with binding := { bus1.binding with st := { bus1.binding.st with kcsStatus := status } } } := by
    intro c1 bus1 h1 hx
    have g := h1.good
    refine h1.putSt ⟨g.md, g.mt, g.small, g.proto, g.lay, g.bmc, g.rxs, g.txs, fun _ hh => hx (.inr hh), g.lo, g.hi, g.hdr, g.trl⟩ ?_
    intro he
    have := h1.can he
    exact ⟨this.ver, this.lay, fun _ => hx (.inl he)⟩
  split
  · have hg1 : AstGood .host mtu { bus.binding with st := { bus.binding.st with
        rx := { bus.binding.st.rx with state := .idle }, tx := { bus.binding.st.tx with state := .idle } } } :=
      hg.congr ⟨rfl, rfl, rfl, rfl, rfl, rfl, rfl, rfl⟩ (by simp) (by simp) (by simp)
    obtain ⟨rc, b', e1, hg2, hk2, hst2, hok⟩ := finaliseChannel_total hw hg1 rfl rfl
    rw [e1, Res.bind_ok]
    simp only at hk2 ⊢
    by_cases hen : status &&& kcsChannelActive ≠ 0 ∧ rc = 0
    · rw [decide_eq_true hen]
      have hr := hact hen.1
      obtain ⟨c1, e, bus1, e2, hm1⟩ := h.on hg2 ⟨(hok hen.2).1, (hok hen.2).2, fun _ => by rw [hk2]; exact hsame hr⟩
      rw [e2, Res.bind_ok]
      simp only
      rw [hm1.busAt, Res.bind_ok]
      exact ⟨_, _, _, _, rfl, hkcs hm1 (fun _ => hr)⟩
    · rw [decide_eq_false hen]
      obtain ⟨c1, st, e2, hst1, hm1⟩ := h.off hg2
      rw [e2, Res.bind_ok]
      simp only
      rw [hm1.busAt, Res.bind_ok]
      refine ⟨_, _, _, _, rfl, hkcs hm1 ?_⟩
      rintro (hh | hh | hh)
      · exact absurd hh hst1
      · simp only at hh; rw [hh] at hst2; simp at hst2
      · simp only at hh; rw [hh] at hst2; simp at hst2
  · exact ⟨_, _, _, _, rfl, hkcs h hbusy⟩

theorem ready_flip (a b : Byte) : ((a ^^^ b) &&& kcsBmcReady ≠ 0) ↔ ¬ (a &&& kcsBmcReady ≠ 0 ↔ b &&& kcsBmcReady ≠ 0) := by
  revert a b; unfold kcsBmcReady; intro a b
  have h1 : ∀ x : Byte, x &&& (128 : Byte) ≠ 0 ↔ x.getLsbD 7 = true := by decide
  rw [h1, h1, h1]
  simp only [BitVec.getLsbD_xor]
  cases a.getLsbD 7 <;> cases b.getLsbD 7 <;> simp

theorem astUpdateChannel_total (hw : Hw E) {mtu : Nat} {base : List Nat} {c : Core (AstSt E)} {bus : Bus (AstSt E)}
    (h : AstMem hw .host mtu base c bus) (status : Byte) (hact : status &&& kcsChannelActive ≠ 0 → IsReady status) :
    ∃ c' e rc bus', c.astUpdateChannel hw 0 status = .ok (c', e, rc) ∧ AstMem hw .host mtu base c' bus' := by
  have hg := h.good
  unfold Core.astUpdateChannel
  rw [h.busAt, Res.bind_ok]
  simp only
  rw [if_neg (by rw [hg.md]; simp)]
  have hflip := ready_flip bus.binding.st.kcsStatus status
  split
  · rename_i hup
    have hne := hflip.mp hup
    split
    · rename_i hr
      have hnr : ¬ IsReady bus.binding.st.kcsStatus := fun hh => hne ⟨fun _ => hr, fun _ => hh⟩
      have hnb : bus.binding.st.tx.state ≠ .prepared ∧ bus.binding.st.tx.state ≠ .released :=
        ⟨fun hh => hnr (hg.busy rfl (.inl hh)), fun hh => hnr (hg.busy rfl (.inr hh))⟩
      have hg1 : AstGood .host mtu { bus.binding with st := { bus.binding.st with kcsStatus := status } } :=
        ⟨hg.md, hg.mt, hg.small, hg.proto, hg.lay, hg.bmc, hg.rxs, hg.txs, fun _ _ => hr, hg.lo, hg.hi, hg.hdr, hg.trl⟩
      obtain ⟨rc, s', e1, hg2⟩ := initHost_total hw hg1 hnb
      have e1' : astStart hw { bus.binding.st with kcsStatus := status } = .ok (rc, s') := by
        unfold astStart
        split
        · rename_i hmm; simp only at hmm; rw [hg.md] at hmm; cases hmm
        · exact e1
      rw [e1', Res.bind_ok]
      exact ⟨_, _, _, _, rfl, h.putSt hg2 (fun he => absurd ((h.can he).rdy rfl) hnr)⟩
    · rename_i hr
      have hg1 : AstGood .host mtu { bus.binding with st := { bus.binding.st with
          rx := { bus.binding.st.rx with state := .idle }, tx := { bus.binding.st.tx with state := .idle } } } :=
        hg.congr ⟨rfl, rfl, rfl, rfl, rfl, rfl, rfl, rfl⟩ (by simp) (by simp) (by simp)
      obtain ⟨c1, st, e1, hst1, hm1⟩ := h.off hg1
      rw [setBinding_st, e1, Res.bind_ok]
      simp only
      obtain ⟨c2, e2, rc, bus2, e3, hm2⟩ := astUpdateActive_total hw hm1 status (bus.binding.st.kcsStatus ^^^ status) hact
        (fun hh => absurd hh hr) (by rintro (hh | hh | hh) <;> simp only at hh <;> first | exact absurd hh hst1 | cases hh)
      rw [e3, Res.bind_ok]
      exact ⟨_, _, _, _, rfl, hm2⟩
  · rename_i hup
    have heq : IsReady bus.binding.st.kcsStatus ↔ IsReady status := by
      have := mt hflip.mpr hup
      exact Classical.not_not.mp this
    refine astUpdateActive_total hw h status _ hact heq.mpr ?_
    rintro (hh | hh)
    · exact heq.mp ((h.can hh).rdy rfl)
    · exact heq.mp (hg.busy rfl hh)

/-- Handling a command never faults. -/
theorem astCommand_total (hw : Hw E) {mode : AstMode} {mtu : Nat} {base : List Nat} {c : Core (AstSt E)} {bus : Bus (AstSt E)}
    (h : AstMem hw mode mtu base c bus) (status data : Byte)
    (hv : bus.binding.st.proto ≠ some 0 ∨ data = cmdInitialise ∨ data = cmdDummy)
    (hsane : mode = .host → (status &&& kcsChannelActive ≠ 0 → IsReady status) ∧ data ≠ cmdInitialise) :
    ∃ c' e rc stop bus', c.astCommand hw 0 status data = .ok (c', e, rc, stop) ∧ AstMem hw mode mtu base c' bus' := by
  have hg := h.good
  unfold Core.astCommand
  rw [h.busAt, Res.bind_ok]
  simp only
  split
  · rename_i hd
    have hm : mode = .bmc := by
      cases mode
      · rfl
      · exact absurd hd (hsane rfl).2
    subst hm
    obtain ⟨on, b', e1, hg1, hon⟩ := initChannel_total hw hg
    have hch : ∃ c' e bus', c.astInitChannel hw 0 = .ok (c', e) ∧ AstMem hw .bmc mtu base c' bus' := by
      unfold Core.astInitChannel
      rw [h.busAt, Res.bind_ok, e1, Res.bind_ok]
      simp only
      cases on with
      | true => exact h.on hg1 (hon rfl)
      | false =>
        obtain ⟨c1, st, e2, -, hm1⟩ := h.off hg1
        exact ⟨_, _, _, e2, hm1⟩
    obtain ⟨c', e, bus', e2, hm⟩ := hch
    rw [e2, Res.bind_ok]
    exact ⟨_, _, _, _, _, rfl, hm⟩
  · rename_i hd0
    split
    · rename_i hd1
      have hv' : bus.binding.st.proto ≠ some 0 := by
        rcases hv with hv | hv | hv
        · exact hv
        · exact absurd hv hd0
        · rw [hd1] at hv; exact absurd hv (by decide)
      split
      · exact ⟨_, _, _, _, _, rfl, h⟩
      · rename_i hst
        obtain ⟨c', e, bus', e2, hm⟩ := astRxStart_total hw h hv' (by rw [Decidable.not_not.mp hst]; simp)
        rw [e2, Res.bind_ok]
        exact ⟨_, _, _, _, _, rfl, hm⟩
    · split
      · rename_i hd1
        have hv' : bus.binding.st.proto ≠ some 0 := by
          rcases hv with hv | hv | hv
          · exact hv
          · exact absurd hv hd0
          · rw [hd1] at hv; exact absurd hv (by decide)
        split
        · exact ⟨_, _, _, _, _, rfl, h⟩
        · rename_i hst
          obtain ⟨c', e, bus', e2, hm⟩ := astTxComplete_total hw h hv' (Decidable.not_not.mp hst)
          rw [e2, Res.bind_ok]
          exact ⟨_, _, _, _, _, rfl, hm⟩
      · split
        · split
          · rename_i hmode
            rw [hg.md] at hmode
            subst hmode
            obtain ⟨c', e, rc, bus', e2, hm⟩ := astUpdateChannel_total hw h status (hsane rfl).1
            rw [e2, Res.bind_ok]
            exact ⟨_, _, _, _, _, rfl, hm⟩
          · exact ⟨_, _, _, _, _, rfl, h⟩
        · exact ⟨_, _, _, _, _, rfl, h⟩

/-- `mctp_astlpc_poll` never faults. -/
theorem astPoll_total (hw : Hw E) {mode : AstMode} {mtu : Nat} {base : List Nat} {c : Core (AstSt E)} {bus : Bus (AstSt E)}
    (h : AstMem hw mode mtu base c bus) (hsane : mode = .host → SaneBmc hw) :
    ∃ c' e rc bus', c.astPoll hw 0 = .ok (c', e, rc) ∧ AstMem hw mode mtu base c' bus' := by
  have hg := h.good
  unfold Core.astPoll
  rw [h.busAt, Res.bind_ok]
  simp only
  obtain ⟨hg1, hs1⟩ := astRetry_good hw hg
  generalize astRetry hw bus.binding.st = s1 at hg1 hs1
  have hs2 := kcsRead_same hw s1 .status
  have hr2 : mode = .host → ((kcsRead hw s1 .status).2.1 &&& kcsChannelActive ≠ 0 → IsReady (kcsRead hw s1 .status).2.1) :=
    fun hm => (hsane hm).status s1.env
  generalize kcsRead hw s1 .status = r at hs2 hr2
  obtain ⟨rc, status, s2⟩ := r
  simp only at hs2 hr2 ⊢
  have hg2 := hg1.same hs2
  have hcan : ∀ s, Same2 s1 s → bus.state = .txEnabled → AstCan mode { bus.binding with st := s } := fun s hs he =>
    (h.can he).congr (hs1.trans hs)
  split
  · exact ⟨_, _, _, _, rfl, h.putSt hg2 (hcan _ hs2.two)⟩
  · split
    · exact ⟨_, _, _, _, rfl, h.putSt hg2 (hcan _ hs2.two)⟩
    · have hs3 := kcsRead_same hw s2 .data
      have hr3 : mode = .host → (kcsRead hw s2 .data).2.1 ≠ cmdInitialise := fun hm => (hsane hm).data s2.env
      generalize kcsRead hw s2 .data = r at hs3 hr3
      obtain ⟨rc3, data, s3⟩ := r
      simp only at hs3 hr3 ⊢
      have hg3 := hg2.same hs3
      have hm3 := h.putSt hg3 (hcan _ (hs2.trans hs3).two)
      split
      · exact ⟨_, _, _, _, rfl, hm3⟩
      · obtain ⟨v, hpv, hv4⟩ := hg3.proto
        simp only at hpv
        have hver : protoVersion s3.proto = .ok v := by rw [hpv]; rfl
        rw [hver, Res.bind_ok]
        split
        · exact ⟨_, _, _, _, rfl, hm3⟩
        · rename_i hver0
          obtain ⟨c1, e1, rc1, stop, bus1, e2, hm4⟩ := astCommand_total hw hm3 status data
            (by
              by_cases hv0 : v = 0
              · exact .inr (Decidable.not_not.mp fun hh => hver0 ⟨hv0, hh⟩)
              · left; show s3.proto ≠ _; rw [hpv]; simpa using hv0)
            (fun hm => ⟨hr2 hm, hr3 hm⟩)
          rw [e2, Res.bind_ok]
          simp only
          split
          · exact ⟨_, _, _, _, rfl, hm4⟩
          · have haf : ∃ c' e rc bus', c1.astAfter hw 0 s3.mode status data rc1 = .ok (c', e, rc) ∧ AstMem hw mode mtu base c' bus' := by
              unfold Core.astAfter
              split
              · rename_i hh
                have hmode : mode = .host := by rw [← hg3.md]; exact hh.1
                subst hmode
                exact astUpdateChannel_total hw hm4 status (hr2 rfl)
              · exact ⟨_, _, _, _, rfl, hm4⟩
            obtain ⟨c', e, rc', bus', e3, hm5⟩ := haf
            rw [e3, Res.bind_ok]
            exact ⟨_, _, _, _, rfl, hm5⟩

theorem astStep_total (hw : Hw E) {mode : AstMode} {mtu : Nat} {base : List Nat} {c : Core (AstSt E)} {bus : Bus (AstSt E)}
    (h : AstMem hw mode mtu base c bus) (hsane : mode = .host → SaneBmc hw) (op : AstOp) :
    ∃ c' e rc bus', c.astStep hw op = .ok (c', e, rc) ∧ AstMem hw mode mtu base c' bus' := by
  unfold Core.astStep
  split
  · rename_i o ho
    have hop : OpOk (astK hw mode mtu) c o ∧ ∀ i bs, o ≠ .recv i bs := by
      cases op <;> simp only [AstOp.core, Option.some.injEq, reduceCtorEq] at ho <;> subst ho <;> exact ⟨trivial, by simp⟩
    obtain ⟨c', e, rc, hs, hm⟩ := step_total (astK hw mode mtu) h.1 hop.1
    have hn : c'.nBusses = 1 := by
      obtain ⟨-, m, bs, hr2, hc2, mx2, rfl, -⟩ := step_frame hop.2 hs
      exact h.n
    obtain ⟨bus', hb'⟩ := AstMem.ofInv hm hn
    exact ⟨c', e, rc, bus', hs, hb'⟩
  · exact astPoll_total hw h hsane

theorem astRun_total (hw : Hw E) {mode : AstMode} {mtu : Nat} {base : List Nat} (hsane : mode = .host → SaneBmc hw)
    (hist : List AstOp) : ∀ {c : Core (AstSt E)} {bus : Bus (AstSt E)}, AstMem hw mode mtu base c bus →
    ∃ c' log bus', c.astRun hw hist = .ok (c', log) ∧ AstMem hw mode mtu base c' bus' := by
  induction hist with
  | nil => intro c bus h; exact ⟨_, _, _, rfl, h⟩
  | cons op rest ih =>
    intro c bus h
    obtain ⟨c1, e1, rc1, bus1, h1, hm1⟩ := astStep_total hw h hsane op
    obtain ⟨c2, log2, bus2, h2, hm2⟩ := ih hm1
    simp only [Core.astRun, h1, Res.bind_ok, h2]
    exact ⟨_, _, _, rfl, hm2⟩

end Mctp
