import Verif.Proofs.AstRun

/-!
# What each function of the astlpc binding adds to the trace
-/

namespace Mctp

open Spec

variable {E : Type}

/-- The accesses made so far. -/
def AstSt.accs (s : AstSt E) : List Access := s.log.map Logged.acc

/-- The accesses from `s` to `s'` are `l`. -/
def Adds (s s' : AstSt E) (l : List Access) : Prop := s'.accs = s.accs ++ l

theorem Adds.refl (s : AstSt E) : Adds s s [] := by simp [Adds]
theorem Adds.trans {a b c : AstSt E} {l l' : List Access} (h : Adds a b l) (h' : Adds b c l') : Adds a c (l ++ l') := by
  unfold Adds at *; rw [h', h, List.append_assoc]
theorem Adds.congr {a b a' b' : AstSt E} {l : List Access} (h : Adds a b l) (ha : a'.log = a.log) (hb : b'.log = b.log) :
    Adds a' b' l := by
  unfold Adds AstSt.accs at *; rw [ha, hb]; exact h

theorem kcsRead_adds (hw : Hw E) (s : AstSt E) (reg : KcsReg) :
    Adds s (kcsRead hw s reg).2.2 [.kcsRead reg (kcsRead hw s reg).1 (kcsRead hw s reg).2.1] := by
  simp [Adds, AstSt.accs, kcsRead]

theorem kcsWrite_adds (hw : Hw E) (s : AstSt E) (reg : KcsReg) (v : Byte) :
    Adds s (kcsWrite hw s reg v).2 [.kcsWrite reg v (kcsWrite hw s reg v).1] := by
  simp [Adds, AstSt.accs, kcsWrite]

theorem lpcRead_adds {hw : Hw E} {s s' : AstSt E} {off len : Nat} {rc : Int} {bs : List Byte}
    (he : lpcRead hw s off len = .ok (rc, bs, s')) : Adds s s' [.lpcRead off bs rc] := by
  simp [Adds, AstSt.accs, (lpcRead_ok he).2.2.2.2]

theorem lpcWrite_adds {hw : Hw E} {s s' : AstSt E} {off : Nat} {rc : Int} {bs : List Byte}
    (he : lpcWrite hw s off bs = .ok (rc, s')) : Adds s s' [.lpcWrite off bs rc] := by
  simp [Adds, AstSt.accs, (lpcWrite_ok he).2.2.2]

/-- The accesses made to send the command `cmd`, with the result. -/
inductive Sends (mode : AstMode) (cmd : Byte) : Int → List Access → Prop
  | unread {r : Int} {v : Byte} : r ≠ 0 → Sends mode cmd (-EIO) [.kcsRead .status r v]
  | busy {v : Byte} : kcsReady mode v true = false → Sends mode cmd (-EBUSY) [.kcsRead .status 0 v]
  | sent {v : Byte} : kcsReady mode v true = true →
      Sends mode cmd 0 [.kcsRead .status 0 v, .kcsWrite .data cmd 0]
  | unsent {v : Byte} {r : Int} : kcsReady mode v true = true → r ≠ 0 →
      Sends mode cmd (-EIO) [.kcsRead .status 0 v, .kcsWrite .data cmd r]

theorem kcsSend_adds {hw : Hw E} {s s' : AstSt E} {cmd : Byte} {rc : Int} (he : kcsSend hw s cmd = (rc, s')) :
    SameSt s s' ∧ ∃ l, Adds s s' l ∧ Sends s.mode cmd rc l := by
  have h1 := kcsRead_adds hw s .status
  have hsame := kcsRead_same hw s .status
  unfold kcsSend at he
  generalize hr : kcsRead hw s .status = r at h1 hsame he
  obtain ⟨r1, v, s1⟩ := r
  simp only at h1 hsame he
  split at he
  · rename_i hz
    simp only [Prod.mk.injEq] at he
    obtain ⟨rfl, rfl⟩ := he
    exact ⟨hsame, _, h1, .unread hz⟩
  · rename_i hz
    have hz : r1 = 0 := Decidable.not_not.mp hz
    subst hz
    rw [hsame.mode] at he
    split at he
    · rename_i hrd
      simp only [Prod.mk.injEq] at he
      obtain ⟨rfl, rfl⟩ := he
      exact ⟨hsame, _, h1, .busy (by simpa using hrd)⟩
    · rename_i hrd
      have hrd : kcsReady s.mode v true = true := by simpa using hrd
      have h2 := kcsWrite_adds hw s1 .data cmd
      have hsame2 := kcsWrite_same hw s1 .data cmd
      generalize hr2 : kcsWrite hw s1 .data cmd = r at h2 hsame2 he
      obtain ⟨r2, s2⟩ := r
      simp only at h2 hsame2 he
      split at he
      · rename_i hz
        simp only [Prod.mk.injEq] at he
        obtain ⟨rfl, rfl⟩ := he
        exact ⟨hsame.trans hsame2, _, h1.trans h2, .unsent hrd hz⟩
      · rename_i hz
        have hz : r2 = 0 := Decidable.not_not.mp hz
        simp only [Prod.mk.injEq] at he
        obtain ⟨rfl, rfl⟩ := he
        subst hz
        exact ⟨hsame.trans hsame2, _, h1.trans h2, .sent hrd⟩

/-- The accesses made to set the status. -/
inductive SetsStatus (v : Byte) : List Access → Prop
  | fail {r : Int} : r ≠ 0 → SetsStatus v [.kcsWrite .status v r]
  | set {r : Int} : SetsStatus v [.kcsWrite .status v 0, .kcsWrite .data 255 r]

theorem kcsSetStatus_adds {hw : Hw E} {s s' : AstSt E} {v : Byte} {rc : Int} (he : kcsSetStatus hw s v = (rc, s')) :
    SameSt s s' ∧ (rc = 0 ∨ rc = -1) ∧ ∃ l, Adds s s' l ∧ SetsStatus v l := by
  have h1 := kcsWrite_adds hw s .status v
  have hsame := kcsWrite_same hw s .status v
  unfold kcsSetStatus at he
  generalize hr : kcsWrite hw s .status v = r at h1 hsame he
  obtain ⟨r1, s1⟩ := r
  simp only at h1 hsame he
  split at he
  · rename_i hz
    simp only [Prod.mk.injEq] at he
    obtain ⟨rfl, rfl⟩ := he
    exact ⟨hsame, by simp, _, h1, .fail hz⟩
  · rename_i hz
    have hz : r1 = 0 := Decidable.not_not.mp hz
    subst hz
    have h2 := kcsWrite_adds hw s1 .data cmdDummy
    have hsame2 := kcsWrite_same hw s1 .data cmdDummy
    generalize hr2 : kcsWrite hw s1 .data cmdDummy = r at h2 hsame2 he
    obtain ⟨r2, s2⟩ := r
    simp only at h2 hsame2 he
    split at he <;> simp only [Prod.mk.injEq] at he <;> obtain ⟨rfl, rfl⟩ := he
    · exact ⟨hsame.trans hsame2, by simp, _, h1.trans h2, .set⟩
    · exact ⟨hsame.trans hsame2, by simp, _, h1.trans h2, .set⟩

/-- A successful update of the status register. -/
theorem kcsSetStatus_done {hw : Hw E} {s s' : AstSt E} {v : Byte} (he : kcsSetStatus hw s v = (0, s'))
    {l : List Access} (hl : Adds s s' l) : l = [.kcsWrite .status v 0, .kcsWrite .data 0xff 0] := by
  have h1 := kcsWrite_adds hw s .status v
  unfold kcsSetStatus at he
  generalize hr : kcsWrite hw s .status v = r at h1 he
  obtain ⟨r1, s1⟩ := r
  simp only at h1 he
  split at he
  · simp at he
  · rename_i hz
    have hz : r1 = 0 := Decidable.not_not.mp hz
    subst hz
    have h2 := kcsWrite_adds hw s1 .data cmdDummy
    generalize hr2 : kcsWrite hw s1 .data cmdDummy = r at h2 he
    obtain ⟨r2, s2⟩ := r
    simp only at h2 he
    split at he
    · simp at he
    · rename_i hz2
      have hz2 : r2 = 0 := Decidable.not_not.mp hz2
      subst hz2
      simp only [Prod.mk.injEq, true_and] at he
      subst he
      have h3 := h1.trans h2
      unfold Adds at h3 hl
      rw [h3] at hl
      exact (List.append_cancel_left hl).symm

/-- What the transmit function writes for a packet. -/
def TxWrites (s : AstSt E) (rc : Int) (len : List Byte) (bytes : List Byte) (l : List Access) : Prop :=
  ∃ r1 r2 l', l = [.lpcWrite s.tx.offset len r1, .lpcWrite (s.tx.offset + 4) bytes r2] ++ l' ∧
    Sends s.mode 1 rc l'

theorem astTx_adds {hw : Hw E} {b : Binding (AstSt E)} {pkt : Pktbuf}
    {out : TxOut (AstSt E)} (hl : LaySafe b.st) (he : astTx hw b pkt = .ok out) :
    ∃ v, b.st.proto = some v ∧ v ≠ 0 ∧
    ((b.st.tx.size - overhead v < u32 pkt.len ∧ out = ⟨b.st, pkt, -EMSGSIZE, false⟩) ∨
     (u32 pkt.len ≤ b.st.tx.size - overhead v ∧
      ∃ pkt1 bytes rc l, protoProtect (some v) pkt = .ok pkt1 ∧ pkt1.read pkt1.hdrOff (u32 pkt1.len) = .ok bytes ∧
        Adds b.st out.st l ∧ TxWrites b.st rc (be32 (u32 pkt.len)) bytes l ∧
        out.pkt = pkt1 ∧ out.disableTx = true ∧ out.rc = (if rc = -EBUSY then 0 else rc) ∧
        out.st.tx = { b.st.tx with state := if rc = 0 then .released else .prepared } ∧
        out.st.rx = b.st.rx ∧ out.st.mode = b.st.mode ∧ out.st.mtu = b.st.mtu ∧ out.st.proto = b.st.proto ∧
        out.st.kcsStatus = b.st.kcsStatus)) := by
  unfold astTx at he
  obtain ⟨most, hmost, he⟩ := Res.bind_eq_ok.mp he
  obtain ⟨v, hv, hv0, hov, rfl⟩ := protoBodySize_inv hl.lt.2.2.2 hmost
  refine ⟨v, hv, hv0, ?_⟩
  split at he
  · simp only [Except.ok.injEq] at he
    subst he
    exact .inl ⟨by assumption, rfl⟩
  · rename_i hlen
    right
    obtain ⟨⟨r1, s1⟩, hw1, he⟩ := Res.bind_eq_ok.mp he
    obtain ⟨pkt1, hprot, he⟩ := Res.bind_eq_ok.mp he
    obtain ⟨bytes, hbytes, he⟩ := Res.bind_eq_ok.mp he
    obtain ⟨⟨r2, s2⟩, hw2, he⟩ := Res.bind_eq_ok.mp he
    simp only at he hw2 hprot hbytes
    have hs1 := (lpcWrite_ok hw1).1
    have hs2 := (lpcWrite_ok hw2).1
    rw [hs1.proto, hv] at hprot
    have hoff : u32 (s1.tx.offset + 4) = s1.tx.offset + 4 := by
      apply u32_of_lt; rw [hs1.tx]
      obtain ⟨_, hwin2⟩ := hl.2.1.1
      unfold winSize at hwin2; omega
    rw [hoff] at hw2
    generalize hk : kcsSend hw { s2 with tx := { s2.tx with state := .prepared } } cmdTxBegin = r at he
    obtain ⟨rc, s3⟩ := r
    obtain ⟨hs3, l, ha, hsend⟩ := kcsSend_adds hk
    simp only [Except.ok.injEq] at he
    subst he
    have hs12 := hs1.trans hs2
    have a1 := lpcWrite_adds hw1
    have a2 := lpcWrite_adds hw2
    have a3 : Adds s2 s3 l := ha.congr rfl rfl
    have a := (a1.trans a2).trans a3
    refine ⟨by omega, pkt1, bytes, rc, _, hprot, hbytes, a.congr rfl (by simp only; split <;> rfl), ⟨r1, r2, l, ?_, ?_⟩, rfl, rfl, rfl,
      ?_, ?_, ?_, ?_, ?_, ?_⟩
    · rw [hs1.tx]; rfl
    · have : s2.mode = b.st.mode := hs12.mode
      rw [← this]; exact hsend
    · simp only; split
      · simp only [hs3.tx, hs12.tx]
      · rw [hs3.tx]; simp only [hs12.tx]
    · simp only; split <;> simp only [hs3.rx, hs12.rx]
    · simp only; split <;> simp only [hs3.mode, hs12.mode]
    · simp only; split <;> simp only [hs3.mtu, hs12.mtu]
    · simp only; split <;> simp only [hs3.proto, hs12.proto]
    · simp only; split <;> simp only [hs3.kcs, hs12.kcs]

end Mctp
