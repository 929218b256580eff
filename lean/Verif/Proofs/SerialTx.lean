import Verif.Model.Serial
import Verif.Proofs.SerialRx
import Verif.Proofs.TxSpec
import Verif.Proofs.Packet

/-! The serial transmit function: the frame it writes and what the core may rely on. -/

namespace Mctp

open Spec

theorem store_ok {a : List Byte} {j : Nat} (h : j < a.length) (c : Byte) :
    store a j c = .ok (a.set j c) := if_pos h

theorem escaped_cons (b : Byte) (p : List Byte) : escaped (b :: p) = escape b ++ escaped p := rfl

theorem escaped_length_le (p : List Byte) : (escaped p).length ≤ 2 * p.length := by
  induction p with
  | nil => simp [escaped]
  | cons b p ih =>
    rw [escaped_cons, List.length_append]
    have : (escape b).length ≤ 2 := by unfold escape; split <;> simp
    simp only [List.length_cons]; omega

/-- The counting pass. -/
theorem escapeLoop_none (off : Nat) (bs : List Byte) : ∀ j,
    escapeLoop off bs j none = .ok (none, j + (escaped bs).length) := by
  induction bs with
  | nil => intro j; simp [escapeLoop, escaped]
  | cons c cs ih =>
    intro j
    rw [escapeLoop, escaped_cons]
    split
    · rename_i hc
      simp only [Res.bind_ok, ih, escape, if_pos hc, List.length_append, List.length_cons,
        List.length_nil]
      congr 2; omega
    · rename_i hc
      simp only [Res.bind_ok, ih, escape, if_neg hc, List.length_append, List.length_cons,
        List.length_nil]
      congr 2; omega

theorem set_eq_patch {a : List Byte} {j : Nat} (h : j < a.length) (c : Byte) :
    a.set j c = a.take j ++ [c] ++ a.drop (j + 1) := by
  rw [List.set_eq_take_append_cons_drop, if_pos h]; simp

/-- Replace the bytes of `a` from position `j` on. -/
def patch (a : List Byte) (j : Nat) (w : List Byte) : List Byte :=
  a.take j ++ w ++ a.drop (j + w.length)

theorem patch_length {a : List Byte} {j : Nat} {w : List Byte} (h : j + w.length ≤ a.length) :
    (patch a j w).length = a.length := by
  simp [patch]; omega

theorem patch_patch {a : List Byte} {j : Nat} {w v : List Byte} (h : j + w.length ≤ a.length) :
    patch (patch a j w) (j + w.length) v = patch a j (w ++ v) := by
  have e1 : (a.take j ++ w ++ a.drop (j + w.length)).take (j + w.length) = a.take j ++ w := by
    rw [List.take_append_of_le_length (by simp; omega)]
    rw [List.take_of_length_le (by simp)]
  have e2 : (a.take j ++ w ++ a.drop (j + w.length)).drop (j + w.length + v.length)
      = a.drop (j + w.length + v.length) := by
    rw [List.drop_append, List.drop_of_length_le (by simp; omega)]
    simp only [List.length_append, List.length_take, List.nil_append, List.drop_drop]
    congr 1; omega
  unfold patch
  rw [e1, e2]
  simp [Nat.add_assoc]

theorem set_eq_patch1 {a : List Byte} {j : Nat} (h : j < a.length) (c : Byte) :
    a.set j c = patch a j [c] := set_eq_patch h c

/-- The copying pass. -/
theorem escapeLoop_some (off : Nat) (bs : List Byte) : ∀ (j : Nat) (a : List Byte),
    off + j + (escaped bs).length ≤ a.length →
    escapeLoop off bs j (some a) =
      .ok (some (patch a (off + j) (escaped bs)), j + (escaped bs).length) := by
  induction bs with
  | nil => intro j a _; simp [escapeLoop, escaped, patch]
  | cons c cs ih =>
    intro j a h
    rw [escaped_cons] at h ⊢
    rw [escapeLoop]
    split
    · rename_i hc
      simp only [escape, if_pos hc, List.length_append, List.length_cons, List.length_nil] at h ⊢
      rw [store_ok (by omega)]
      simp only [Except.map, Res.bind_ok]
      rw [store_ok (by simp; omega)]
      simp only [Except.map, Res.bind_ok]
      rw [ih _ _ (by simp; omega)]
      congr 2
      · congr 1
        rw [set_eq_patch1 (a := a) (by omega), ← Nat.add_assoc,
          set_eq_patch1 (by rw [patch_length (by simp; omega)]; omega)]
        have e1 := patch_patch (a := a) (j := off + j) (w := [0x7d]) (v := [c ^^^ 0x20]) (by simp; omega)
        simp only [List.length_cons, List.length_nil, Nat.zero_add] at e1
        rw [e1]
        have e2 := patch_patch (a := a) (j := off + j) (w := [0x7d] ++ [c ^^^ 0x20]) (v := escaped cs) (by simp; omega)
        simp only [List.length_append, List.length_cons, List.length_nil, Nat.zero_add] at e2
        rw [show off + (j + 2) = off + j + (1 + 1) by omega, e2]
        simp
      · omega
    · rename_i hc
      simp only [escape, if_neg hc, List.length_append, List.length_cons, List.length_nil] at h ⊢
      rw [store_ok (by omega)]
      simp only [Except.map, Res.bind_ok]
      rw [ih _ _ (by simp; omega)]
      congr 2
      · congr 1
        rw [set_eq_patch1 (a := a) (by omega)]
        have e2 := patch_patch (a := a) (j := off + j) (w := [c]) (v := escaped cs) (by simp; omega)
        simp only [List.length_cons, List.length_nil, Nat.zero_add] at e2
        rw [show off + (j + 1) = off + j + 1 by omega, e2]
      · omega

/-- What the write function may return for a non-empty buffer: an error or a count between one and
the number of bytes given. -/
def WrOk (wr : Nat → List Byte → Int) : Prop :=
  ∀ k buf, buf ≠ [] → wr k buf ≠ 0 ∧ wr k buf ≤ buf.length

/-- Writing with a write function that makes progress ends; on success everything was accepted in
order, otherwise a proper prefix was and the negative result of the write function is returned. -/
theorem writeAll_spec {wr : Nat → List Byte → Int} (hw : WrOk wr) : ∀ (fuel k : Nat)
    (buf wire : List Byte), buf.length ≤ fuel →
    ∃ rc k' w, writeAll wr fuel k buf wire = .ok (rc, k', wire ++ w) ∧
      ((rc = 0 ∧ w = buf) ∨
       (rc < 0 ∧ ∃ rest, rest ≠ [] ∧ buf = w ++ rest ∧ ∃ j, rc = wr j rest)) := by
  intro fuel
  induction fuel with
  | zero =>
    intro k buf wire h
    have : buf = [] := List.length_eq_zero_iff.mp (by omega)
    subst this
    exact ⟨0, k, [], by simp [writeAll], .inl ⟨rfl, rfl⟩⟩
  | succ fuel ih =>
    intro k buf wire h
    cases buf with
    | nil => exact ⟨0, k, [], by simp [writeAll], .inl ⟨rfl, rfl⟩⟩
    | cons b bs =>
      obtain ⟨h0, hle⟩ := hw k (b :: bs) (by simp)
      simp only [writeAll]
      split
      · rename_i hneg
        exact ⟨wr k (b :: bs), k + 1, [], by simp, .inr ⟨hneg, b :: bs, by simp, by simp, k, rfl⟩⟩
      · rename_i hneg
        rw [if_neg (by omega)]
        obtain ⟨rc, k', w, h1, h2⟩ := ih (k + 1) ((b :: bs).drop (wr k (b :: bs)).toNat)
          (wire ++ (b :: bs).take (wr k (b :: bs)).toNat) (by
            rw [List.length_drop]; simp only [List.length_cons] at h ⊢; omega)
        refine ⟨rc, k', (b :: bs).take (wr k (b :: bs)).toNat ++ w, by rw [h1]; simp, ?_⟩
        rcases h2 with ⟨rfl, rfl⟩ | ⟨hn, rest, hr, he, hj⟩
        · exact .inl ⟨rfl, by simp⟩
        · refine .inr ⟨hn, rest, hr, ?_, hj⟩
          rw [List.append_assoc, ← he, List.take_append_drop]

/-- What the transmit function writes: the frame, with the length truncated to 8 bits. -/
def rawFrame (p : List Byte) : List Byte :=
  [0x7e, 0x01, BitVec.ofNat 8 p.length] ++ escaped (p.take (p.length % 256)) ++ fcsBytes p ++ [0x7e]

theorem rawFrame_eq {p : List Byte} (h : p.length ≤ 255) : rawFrame p = frame p := by
  unfold rawFrame frame
  rw [Nat.mod_eq_of_lt (by omega), List.take_length]

theorem fcs_eq (p : List Byte) :
    crc16 (crc16 fcsInit [0x01, BitVec.ofNat 8 p.length]) p = fcs p := by
  unfold fcs
  rw [show (0xffff : BitVec 16) = fcsInit from rfl, ← Crc.crc16_bits]
  simp [crc16]

theorem fcs_hi (x : BitVec 16) : (x >>> 8).setWidth 8 = x.extractLsb' 8 8 := by
  ext i hi; simp [BitVec.getElem_setWidth, hi]

theorem fcs_lo (x : BitVec 16) : (x &&& 0xff#16).setWidth 8 = x.extractLsb' 0 8 := by
  ext i hi
  have : (255#16).getLsbD i = true := by
    have : ∀ i : Fin 8, (255#16).getLsbD i.val = true := by decide
    exact this ⟨i, hi⟩
  rw [BitVec.getElem_setWidth, BitVec.getLsbD_and, this]
  simp [hi]

theorem patch_zero {a w : List Byte} (h : w.length ≤ a.length) : patch a 0 w = w ++ a.drop w.length := by
  simp [patch]

theorem patch_take {a w : List Byte} (h : w.length ≤ a.length) : (patch a 0 w).take w.length = w := by
  simp [patch]

/-- The state of the transmit part of the binding. -/
structure TxOk (b : Binding SerialSt) : Prop where
  buf  : b.st.txbuf.length = 256
  wr   : WrOk b.st.wr
  pat  : 256 ≤ b.st.patience

/-- The serial transmit function on a packet buffer holding `p`. -/
theorem serialTx_eq {b : Binding SerialSt} (hb : b.st.txbuf.length = 256) {pkt : Pktbuf}
    {p : List Byte} (hp : PktIs pkt p) :
    serialTx b pkt =
      if (escaped (p.take (p.length % 256))).length + 6 > 256 then
        .ok { st := { b.st with txbuf := patch b.st.txbuf 0 [0x7e, 0x01, BitVec.ofNat 8 p.length] },
              pkt := pkt
              rc := -EMSGSIZE
              disableTx := false }
      else (do
        let r ← writeAll b.st.wr b.st.patience b.st.calls (rawFrame p) b.st.wire
        .ok { st := { b.st with txbuf := patch b.st.txbuf 0 (rawFrame p), calls := r.2.1, wire := r.2.2 },
              pkt := pkt, rc := r.1, disableTx := false }) := by
  unfold serialTx
  have hs0 : store b.st.txbuf 0 serialFlag = .ok (patch b.st.txbuf 0 [0x7e]) := by
    rw [store_ok (by omega), set_eq_patch1 (by omega)]; rfl
  have hs1 : store (patch b.st.txbuf 0 [0x7e]) 1 serialRevision
      = .ok (patch b.st.txbuf 0 [0x7e, 0x01]) := by
    rw [store_ok (by rw [patch_length (by simp; omega)]; omega),
      set_eq_patch1 (by rw [patch_length (by simp; omega)]; omega)]
    exact congrArg _ (patch_patch (w := [0x7e]) (v := [0x01]) (by simp; omega))
  have hs2 : store (patch b.st.txbuf 0 [0x7e, 0x01]) 2 (BitVec.ofNat 8 p.length)
      = .ok (patch b.st.txbuf 0 [0x7e, 0x01, BitVec.ofNat 8 p.length]) := by
    rw [store_ok (by rw [patch_length (by simp; omega)]; omega),
      set_eq_patch1 (by rw [patch_length (by simp; omega)]; omega)]
    exact congrArg _ (patch_patch (w := [0x7e, 0x01]) (v := [_]) (by simp; omega))
  have hrd : pkt.read pkt.hdrOff pkt.len = .ok p := by
    have := hp.read 0 p.length (by simp)
    simpa [hp.len] using this
  have hrd2 : pkt.read pkt.hdrOff ((pkt.«end» - pkt.hdrOff) % 256) = .ok (p.take (p.length % 256)) := by
    have := hp.read 0 (p.length % 256) (by have := Nat.mod_le p.length 256; omega)
    have e : pkt.«end» - pkt.hdrOff = p.length := by rw [hp.hdr, hp.fin]; omega
    rw [e]; simpa using this
  have hhd : ((patch b.st.txbuf 0 [0x7e, 0x01, BitVec.ofNat 8 p.length]).drop 1).take 2
      = [0x01, BitVec.ofNat 8 p.length] := by simp [patch]
  have hrl : (rawFrame p).length = (escaped (p.take (p.length % 256))).length + 6 := by
    simp [rawFrame, fcsBytes]
  simp only [hp.len, hs0, hs1, hs2, Res.bind_ok, ← hp.len ▸ hrd, hhd, fcs_eq, serialPktEscape, hrd2,
    escapeLoop_none, Nat.zero_add]
  rw [hp.len] at hrd
  simp only [hrd, Res.bind_ok, fcs_eq]
  by_cases hbig : (escaped (p.take (p.length % 256))).length + 6 > 256
  · rw [if_pos (by omega), if_pos hbig]
  · rw [if_neg (by omega), if_neg hbig]
    have hl3 : (patch b.st.txbuf 0 [0x7e, 0x01, BitVec.ofNat 8 p.length]).length = 256 := by
      rw [patch_length (by simp; omega), hb]
    rw [escapeLoop_some _ _ _ _ (by rw [hl3]; omega)]
    simp only [Res.bind_ok, Option.getD_some, Nat.add_zero]
    have hp3 := patch_patch (a := b.st.txbuf) (j := 0) (w := [0x7e, 0x01, BitVec.ofNat 8 p.length])
      (v := escaped (p.take (p.length % 256))) (by simp; omega)
    simp only [List.length_cons, List.length_nil, Nat.zero_add] at hp3
    rw [hp3]
    generalize hw3 : ([0x7e, 0x01, BitVec.ofNat 8 p.length] ++ escaped (p.take (p.length % 256)) : List Byte) = w3
    have hw3l : w3.length = (escaped (p.take (p.length % 256))).length + 3 := by
      rw [← hw3]; simp
    generalize (escaped (p.take (p.length % 256))).length = n at *
    have hA : (patch b.st.txbuf 0 w3).length = 256 := by rw [patch_length (by omega), hb]
    rw [store_ok (by omega)]
    simp only [Res.bind_ok]
    rw [store_ok (by simp; omega)]
    simp only [Res.bind_ok]
    rw [store_ok (by simp; omega)]
    simp only [Res.bind_ok]
    have hfinal : (((patch b.st.txbuf 0 w3).set (3 + n + 2) serialFlag).set (3 + n)
        ((fcs p >>> 8).setWidth 8)).set (3 + n + 1) ((fcs p &&& 0xff#16).setWidth 8)
        = patch b.st.txbuf 0 (rawFrame p) := by
      rw [List.set_comm _ _ (by omega : 3 + n + 2 ≠ 3 + n), List.set_comm _ _ (by omega : 3 + n + 2 ≠ 3 + n + 1)]
      rw [set_eq_patch1 (a := patch b.st.txbuf 0 w3) (by omega)]
      have q1 := patch_patch (a := b.st.txbuf) (j := 0) (w := w3) (v := [(fcs p >>> 8).setWidth 8]) (by omega)
      rw [show 0 + w3.length = 3 + n by omega] at q1
      rw [q1, set_eq_patch1 (a := patch b.st.txbuf 0 (w3 ++ [(fcs p >>> 8).setWidth 8])) (by rw [patch_length (by simp; omega)]; omega)]
      have q2 := patch_patch (a := b.st.txbuf) (j := 0) (w := w3 ++ [(fcs p >>> 8).setWidth 8])
        (v := [(fcs p &&& 0xff#16).setWidth 8]) (by simp; omega)
      rw [show 0 + (w3 ++ [(fcs p >>> 8).setWidth 8]).length = 3 + n + 1 by simp; omega] at q2
      rw [q2, set_eq_patch1 (by rw [patch_length (by simp; omega)]; omega)]
      have q3 := patch_patch (a := b.st.txbuf) (j := 0)
        (w := w3 ++ [(fcs p >>> 8).setWidth 8] ++ [(fcs p &&& 0xff#16).setWidth 8])
        (v := [serialFlag]) (by simp; omega)
      rw [show 0 + (w3 ++ [(fcs p >>> 8).setWidth 8] ++ [(fcs p &&& 0xff#16).setWidth 8]).length
        = 3 + n + 2 by simp; omega] at q3
      rw [q3, fcs_hi, fcs_lo]
      congr 1
      rw [← hw3]; simp [rawFrame, fcsBytes, serialFlag]
    rw [hfinal]
    have : (patch b.st.txbuf 0 (rawFrame p)).take (n + 6) = rawFrame p := by
      rw [← hrl]; exact patch_take (by omega)
    rw [this]

/-- The result of the transmit function. -/
theorem serialTx_spec {b : Binding SerialSt} (hb : TxOk b) {pkt : Pktbuf} {p : List Byte}
    (hp : PktIs pkt p) :
    ∃ out, serialTx b pkt = .ok out ∧ out.pkt = pkt ∧ out.disableTx = false ∧
      (∃ tb k w, tb.length = 256 ∧
        out.st = { b.st with txbuf := tb, calls := k, wire := b.st.wire ++ w } ∧
        ((256 < (escaped (p.take (p.length % 256))).length + 6 ∧ out.rc = -EMSGSIZE ∧ w = []) ∨
         ((escaped (p.take (p.length % 256))).length + 6 ≤ 256 ∧
           ((out.rc = 0 ∧ w = rawFrame p) ∨
            (out.rc < 0 ∧ ∃ rest, rest ≠ [] ∧ rawFrame p = w ++ rest ∧ ∃ j, out.rc = b.st.wr j rest))))) := by
  have hrl : (rawFrame p).length = (escaped (p.take (p.length % 256))).length + 6 := by
    simp [rawFrame, fcsBytes]
  rw [serialTx_eq hb.buf hp]
  split
  · rename_i hbig
    refine ⟨_, rfl, rfl, rfl, patch b.st.txbuf 0 [0x7e, 0x01, BitVec.ofNat 8 p.length], b.st.calls, [], ?_, (by simp only [List.append_nil]), .inl ⟨by omega, rfl, rfl⟩⟩
    rw [patch_length (by have := hb.buf; simp; omega)]; exact hb.buf
  · rename_i hbig
    obtain ⟨rc, k', w, h1, h2⟩ := writeAll_spec hb.wr b.st.patience b.st.calls (rawFrame p) b.st.wire
      (by have := hb.pat; omega)
    rw [h1]
    refine ⟨_, rfl, rfl, rfl, _, k', w, ?_, rfl, .inr ⟨by omega, h2⟩⟩
    rw [patch_length (by have := hb.buf; omega)]; exact hb.buf

end Mctp
