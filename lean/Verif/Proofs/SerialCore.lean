import Verif.Proofs.SerialTx

/-! The serial receiver inside an endpoint. -/

namespace Mctp

open Spec

/-- A receive buffer holding the bytes `p` so far. -/
structure Held (pkt : Pktbuf) (p : List Byte) : Prop where
  is    : PktIs pkt p
  start : pkt.start = 0
  size  : pkt.size = 68
  data  : pkt.data.length = 68

theorem Held.push {pkt : Pktbuf} {p : List Byte} (h : Held pkt p) (hl : p.length < 68) (c : Byte) :
    ∃ pkt', pkt.push [c] = .ok (true, pkt') ∧ Held pkt' (p ++ [c]) ∧ pkt'.id = pkt.id ∧
      pkt'.«end» - pkt'.hdrOff = p.length + 1 := by
  have he : pkt.«end» = p.length := by rw [h.is.fin, h.start]; omega
  have hm : (p.length + 1) % sizeMod = p.length + 1 := Nat.mod_eq_of_lt (by unfold sizeMod; omega)
  have hc : pkt.data.take p.length = p := by simpa [h.start] using h.is.cont
  unfold Pktbuf.push
  rw [he]
  simp only [List.length_cons, List.length_nil, Nat.zero_add, hm]
  rw [if_neg (by rw [h.size]; omega), write_eq (by rw [h.data]; simp; omega)]
  refine ⟨_, rfl, ⟨⟨h.is.hdr, by simp [h.start], ?_, ?_⟩, h.start, h.size, ?_⟩, rfl, ?_⟩
  · simp [h.data]; omega
  · simp only [h.start, List.drop_zero, hc]
    rw [List.take_append_of_le_length (by simp), List.take_of_length_le (by simp)]
  · simp [h.data]; omega
  · simp only [h.is.hdr, h.start]; omega

/-- The receiver of the model is in the state `r` of the pure machine. -/
def Sim (s : SerialSt) : Rx → Prop
  | .hunt => s.state = .waitSync ∧ s.rxPkt = none
  | .rev => s.state = .waitRevision ∧ s.rxPkt = none
  | .len => s.state = .waitLen ∧ s.rxPkt = none ∧ s.fcsCalc = crc16 fcsInit [0x01]
  | .body n esc p => s.state = (if esc then .dataEscaped else .data) ∧ s.expLen.toNat = n ∧
      s.fcsCalc = crc16 (crc16 fcsInit [0x01, BitVec.ofNat 8 n]) p ∧
      ∃ pkt, s.rxPkt = some pkt ∧ Held pkt p
  | .fcs1 p => s.state = .waitFcs1 ∧ s.fcsCalc = fcs p ∧ ∃ pkt, s.rxPkt = some pkt ∧ Held pkt p
  | .fcs2 p hi => s.state = .waitFcs2 ∧ s.fcsCalc = fcs p ∧ s.fcs = hi.setWidth 16 <<< 8 ∧
      ∃ pkt, s.rxPkt = some pkt ∧ Held pkt p
  | .fin p hi lo => s.state = .waitSyncEnd ∧ s.fcsCalc = fcs p ∧
      s.fcs = (hi.setWidth 16 <<< 8 ||| lo.setWidth 16) ∧
      ∃ pkt, s.rxPkt = some pkt ∧ Held pkt p

/-- Only the receive part differs. -/
def TxSame (s s' : SerialSt) : Prop :=
  s'.txbuf = s.txbuf ∧ s'.wr = s.wr ∧ s'.calls = s.calls ∧ s'.patience = s.patience ∧ s'.wire = s.wire

theorem TxSame.refl (s : SerialSt) : TxSame s s := ⟨rfl, rfl, rfl, rfl, rfl⟩

/-- The allocations held by the receiver. -/
def heldIds (s : SerialSt) : List Nat := s.rxPkt.toList.map Pktbuf.id

theorem crc16_snoc (f : BitVec 16) (p : List Byte) (c : Byte) :
    crc16 f (p ++ [c]) = crc16Byte (crc16 f p) c := by simp [crc16]

theorem fcsWord_iff (hi lo : Byte) (w : BitVec 16) :
    (hi.setWidth 16 <<< 8 ||| lo.setWidth 16) = w ↔
      [w.extractLsb' 8 8, w.extractLsb' 0 8] = [hi, lo] := by
  constructor
  · rintro rfl
    simp only [List.cons.injEq, and_true]
    constructor
    · ext i h
      simp only [BitVec.getElem_extractLsb', BitVec.getLsbD_or, BitVec.getLsbD_shiftLeft,
        BitVec.getLsbD_setWidth]
      have : lo.getLsbD (8 + i) = false := BitVec.getLsbD_of_ge _ _ (by omega)
      rw [this, decide_eq_true (by omega : 8 + i < 16), decide_eq_true (by omega : 8 + i - 8 < 16)]
      simp [h]
    · ext i h
      simp only [BitVec.getElem_extractLsb', BitVec.getLsbD_or, BitVec.getLsbD_shiftLeft,
        BitVec.getLsbD_setWidth]
      simp [h]
      intro _; omega
  · intro h
    simp only [List.cons.injEq, and_true] at h
    obtain ⟨rfl, rfl⟩ := h
    ext i h
    simp only [BitVec.getElem_or, BitVec.getElem_shiftLeft, BitVec.getElem_setWidth,
      BitVec.getLsbD_setWidth, BitVec.getLsbD_extractLsb']
    by_cases h8 : i < 8
    · simp [h8, BitVec.getLsbD_eq_getElem h]
    · have e : 8 + (i - 8) = i := by omega
      simp [h8, e, BitVec.getLsbD_eq_getElem h]; omega

/-- What one byte does, up to the call into the core. -/
inductive ByteOut (mem : Mem) (s : SerialSt) (r : Rx) (c : Byte) (mem' : Mem) (s' : SerialSt) :
    Option Pktbuf → Prop
  | same : mem' = mem → heldIds s' = heldIds s → (rxStep 68 r c).2 = [] →
      ByteOut mem s r c mem' s' none
  | alloc (id : Nat) : heldIds s = [] → heldIds s' = [id] → mem.alloc = (some id, mem') →
      (rxStep 68 r c).2 = [] → ByteOut mem s r c mem' s' none
  | drop (p : List Byte) (hi lo : Byte) (id : Nat) : r = .fin p hi lo → mem' = mem →
      heldIds s = [id] → heldIds s' = [] →
      (rxStep 68 r c).2 = [] → ByteOut mem s r c mem' s' none
  | pass (pkt : Pktbuf) (p : List Byte) : mem' = mem → heldIds s = [pkt.id] → heldIds s' = [] →
      Held pkt p → (rxStep 68 r c).2 = [p] → ByteOut mem s r c mem' s' (some pkt)

theorem serialPush_sim {mem : Mem} {s : SerialSt} {pkt : Pktbuf} {n : Nat} {p : List Byte}
    (hl : p.length < n) (hn : n ≤ 68) (hlen : s.expLen.toNat = n)
    (hf : s.fcsCalc = crc16 (crc16 fcsInit [0x01, BitVec.ofNat 8 n]) p)
    (hh : Held pkt p) (hlive : pkt.id ∈ mem.live) (c : Byte) (st : RxState → RxState) :
    ∃ s' full, serialPush mem s pkt c = .ok (s', full) ∧ TxSame s s' ∧ heldIds s' = [pkt.id] ∧
      s'.state = s.state ∧
      Sim { s' with state := if full then .waitFcs1 else .data } (Rx.next n (p ++ [c])) ∧
      (full = true ↔ (p ++ [c]).length = n) := by
  obtain ⟨pkt', h1, h2, h3, h4⟩ := hh.push (by omega) c
  unfold serialPush Mem.deref
  simp only [if_pos hlive, h1, Res.bind_ok, h4, hlen]
  refine ⟨_, _, rfl, ⟨rfl, rfl, rfl, rfl, rfl⟩, by simp [heldIds, h3], rfl, ?_, by simp⟩
  by_cases hn' : p.length + 1 = n
  · have e : Rx.next n (p ++ [c]) = .fcs1 (p ++ [c]) := if_pos (by simpa using hn')
    rw [e]
    refine ⟨by simp [hn'], ?_, pkt', rfl, h2⟩
    simp only
    rw [hf, ← crc16_snoc, ← fcs_eq]
    simp [hn']
  · have e : Rx.next n (p ++ [c]) = .body n false (p ++ [c]) := if_neg (by simpa using hn')
    rw [e]
    refine ⟨by simp [hn'], hlen, ?_, pkt', rfl, h2⟩
    simp only
    rw [hf, ← crc16_snoc]

theorem Sim.state_iff {s : SerialSt} {r : Rx} (h : Sim s r) : (s.rxPkt.isNone ≠ s.state.idle) ↔ False := by
  match r, h with
  | .hunt, h => simp [h.1, h.2, RxState.idle]
  | .rev, h => simp [h.1, h.2, RxState.idle]
  | .len, h => simp [h.1, h.2.1, RxState.idle]
  | .body n esc p, h =>
    obtain ⟨h1, _, _, pkt, h2, _⟩ := h
    cases esc <;> simp [h1, h2, RxState.idle]
  | .fcs1 p, h => obtain ⟨h1, _, pkt, h2, _⟩ := h; simp [h1, h2, RxState.idle]
  | .fcs2 p hi, h => obtain ⟨h1, _, _, pkt, h2, _⟩ := h; simp [h1, h2, RxState.idle]
  | .fin p hi lo, h => obtain ⟨h1, _, _, pkt, h2, _⟩ := h; simp [h1, h2, RxState.idle]

theorem serialByte_sim {mem : Mem} {fill : Nat → Byte} {b : Binding SerialSt} {r : Rx}
    (hs : Sim b.st r) (hr : r.Ok 68) (hsz : b.pktSize = 68) (hh : b.pktHeader = 0)
    (ht : b.pktTrailer = 0) (hok : AllOk mem) (hlive : ∀ i ∈ heldIds b.st, i ∈ mem.live) (c : Byte) :
    ∃ mem' s' out, serialByte mem fill b c = .ok (mem', s', out) ∧ Sim s' (rxStep 68 r c).1 ∧
      TxSame b.st s' ∧ ByteOut mem b.st r c mem' s' out := by
  unfold serialByte
  rw [if_neg (by simpa using hs.state_iff)]
  obtain ⟨ver, ps, ph, pt, cr, ⟨rx, el, fc, fcc, stt, tb, w, cl, pat, wi⟩⟩ := b
  simp only at hsz hh ht
  subst hsz hh ht
  match r, hs, hr with
  | .hunt, hs, _ =>
    obtain ⟨h1, h2⟩ := hs
    simp only at h1 h2
    subst h1
    subst h2
    simp only [rxStep]
    by_cases hc : c = serialFlag
    · rw [if_neg (not_not.mpr hc), if_pos (show c = 0x7e from hc)]
      exact ⟨_, _, _, rfl, ⟨rfl, rfl⟩, TxSame.refl _, .same rfl rfl rfl⟩
    · rw [if_pos (show c ≠ serialFlag from hc), if_neg (show ¬ c = 0x7e from hc)]
      exact ⟨_, _, _, rfl, ⟨rfl, rfl⟩, TxSame.refl _, .same rfl rfl rfl⟩
  | .rev, hs, _ =>
    obtain ⟨h1, h2⟩ := hs
    simp only at h1 h2
    subst h1
    subst h2
    simp only [rxStep]
    by_cases hc : c = serialRevision
    · rw [if_pos hc, if_pos (show c = 0x01 from hc)]
      refine ⟨_, _, _, rfl, ⟨rfl, rfl, ?_⟩, ⟨rfl, rfl, rfl, rfl, rfl⟩, .same rfl rfl rfl⟩
      simp [crc16, hc, serialRevision]
    · rw [if_neg hc, if_neg (show ¬ c = 0x01 from hc)]
      by_cases hf : c = serialFlag
      · rw [if_pos hf, if_pos (show c = 0x7e from hf)]
        exact ⟨_, _, _, rfl, ⟨rfl, rfl⟩, TxSame.refl _, .same rfl rfl rfl⟩
      · rw [if_neg hf, if_neg (show ¬ c = 0x7e from hf)]
        exact ⟨_, _, _, rfl, ⟨rfl, rfl⟩, TxSame.refl _, .same rfl rfl rfl⟩
  | .len, hs, _ =>
    obtain ⟨h1, h2, h3⟩ := hs
    simp only at h1 h2 h3
    subst h1 h2 h3
    simp only [rxStep, hdrSize]
    by_cases hc : c.toNat > 68 ∨ c.toNat < 4
    · simp only [hc, if_true]
      exact ⟨_, _, _, rfl, ⟨rfl, rfl⟩, TxSame.refl _, .same rfl rfl rfl⟩
    · simp only [hc, if_false]
      have ha : mem.alloc = (some mem.next, { mem with next := mem.next + 1, live := mem.next :: mem.live }) := by
        simp [Mem.alloc, hok mem.next]
      have hp : pktbufAlloc mem fill 68 0 0 0 =
          (some { id := mem.next, size := 68, start := 0, «end» := 0, hdrOff := 0,
                  data := (List.range 68).map fill }, { mem with next := mem.next + 1, live := mem.next :: mem.live }) := by
        simp [pktbufAlloc, ha]
      simp only [hp]
      refine ⟨_, _, _, rfl, ⟨rfl, rfl, ?_, _, rfl, ⟨⟨rfl, rfl, by simp, by simp⟩, rfl, rfl, by simp⟩⟩,
        ⟨rfl, rfl, rfl, rfl, rfl⟩, .alloc mem.next ?_ rfl ha ?_⟩
      · simp only [BitVec.ofNat_toNat, BitVec.setWidth_eq]; rfl
      · simp [heldIds]
      · simp only [rxStep]
  | .body n false p, hs, hr =>
    obtain ⟨h1, h2, h3, pkt, h4, h5⟩ := hs
    simp only [if_true, Bool.false_eq_true, if_false] at h1 h2 h3 h4
    subst h1 h2 h3 h4
    obtain ⟨g1, g2, g3⟩ := hr
    simp only [rxStep]
    by_cases hc : c = serialEscape
    · rw [if_pos hc, if_pos (show c = 0x7d from hc)]
      refine ⟨_, _, _, rfl, ⟨rfl, rfl, rfl, pkt, rfl, h5⟩, TxSame.refl _, .same rfl rfl rfl⟩
    · rw [if_neg hc, if_neg (show ¬ c = 0x7d from hc)]
      obtain ⟨s', full, q1, q2, q3, q4, q5, q6⟩ := serialPush_sim (mem := mem)
        (s := ⟨some pkt, el, fc, crc16 (crc16 fcsInit [0x01, BitVec.ofNat 8 el.toNat]) p, .data, tb, w, cl, pat, wi⟩)
        g3 g2 rfl rfl h5
        (hlive _ (by simp [heldIds])) c id
      rw [q1]
      refine ⟨_, _, _, rfl, ?_, ?_, .same rfl ?_ ?_⟩
      · cases full
        · have : s' = { s' with state := RxState.data } := by
            simp only at q4; rw [← q4]
          simpa [← this] using q5
        · exact q5
      · cases full <;> exact q2
      · cases full <;> exact q3
      · simp only [rxStep]
  | .body n true p, hs, hr =>
    obtain ⟨h1, h2, h3, pkt, h4, h5⟩ := hs
    simp only [if_true, Bool.false_eq_true, if_false] at h1 h2 h3 h4
    subst h1 h2 h3 h4
    obtain ⟨g1, g2, g3⟩ := hr
    simp only [rxStep]
    obtain ⟨s', full, q1, q2, q3, q4, q5, q6⟩ := serialPush_sim (mem := mem)
        (s := ⟨some pkt, el, fc, crc16 (crc16 fcsInit [0x01, BitVec.ofNat 8 el.toNat]) p, .dataEscaped, tb, w, cl, pat, wi⟩)
        g3 g2 rfl rfl h5
      (hlive _ (by simp [heldIds])) (c ^^^ 0x20) id
    rw [q1]
    refine ⟨_, _, _, rfl, q5, q2, .same rfl ?_ ?_⟩
    · exact q3
    · simp only [rxStep]
  | .fcs1 p, hs, hr =>
    obtain ⟨h1, h2, pkt, h4, h5⟩ := hs
    simp only at h1 h2 h4
    subst h1 h2 h4
    simp only [rxStep]
    exact ⟨_, _, _, rfl, ⟨rfl, rfl, rfl, pkt, rfl, h5⟩, ⟨rfl, rfl, rfl, rfl, rfl⟩, .same rfl rfl rfl⟩
  | .fcs2 p hi, hs, hr =>
    obtain ⟨h1, h2, h3, pkt, h4, h5⟩ := hs
    simp only [if_true, Bool.false_eq_true, if_false] at h1 h2 h3 h4
    subst h1 h2 h3 h4
    simp only [rxStep]
    exact ⟨_, _, _, rfl, ⟨rfl, rfl, rfl, pkt, rfl, h5⟩, ⟨rfl, rfl, rfl, rfl, rfl⟩,
      .same rfl rfl rfl⟩
  | .fin p hi lo, hs, hr =>
    obtain ⟨h1, h2, h3, pkt, h4, h5⟩ := hs
    simp only [if_true, Bool.false_eq_true, if_false] at h1 h2 h3 h4
    subst h1 h2 h3 h4
    simp only [rxStep]
    have hiff := fcsWord_iff hi lo (fcs p)
    by_cases hc : fcsBytes p = [hi, lo] ∧ c = 0x7e
    · rw [if_pos ⟨hiff.mpr hc.1, hc.2⟩]
      refine ⟨_, _, _, rfl, ⟨rfl, rfl⟩, ⟨rfl, rfl, rfl, rfl, rfl⟩,
        .pass pkt p rfl (by simp [heldIds]) rfl h5 ?_⟩
      simp only [rxStep, if_pos hc]
    · rw [if_neg (fun h => hc ⟨hiff.mp h.1, h.2⟩)]
      refine ⟨_, _, _, rfl, ⟨rfl, rfl⟩, ⟨rfl, rfl, rfl, rfl, rfl⟩,
        .drop p hi lo pkt.id rfl rfl (by simp [heldIds]) rfl ?_⟩
      simp only [rxStep, if_neg hc]

end Mctp
