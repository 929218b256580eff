import Verif.Proofs.AstTrace

/-! The invariant of the astlpc binding, whatever the environment does. -/

namespace Mctp

open Spec

variable {E : Type}

/-- The buffer states agree with what the monitor has seen. -/
structure Phase (s : AstSt E) (w : Watch) : Prop where
  acq  : s.tx.state = .acquired → w.tx = .free
  prep : s.tx.state = .prepared → w.tx = .full
  rel  : s.tx.state = .released → w.tx = .handed ∨ w.tx = .free
  half : w.tx ≠ .half
  rxp  : s.rx.state = .prepared → w.rx = true

/-- No layout has been chosen. -/
def LayZero (s : AstSt E) : Prop := s.rx.offset = 0 ∧ s.rx.size = 0 ∧ s.tx.offset = 0 ∧ s.tx.size = 0

/-- Invariant of the private state. -/
structure AstInv (mode : AstMode) (mtu : Nat) (s : AstSt E) : Prop where
  mode  : s.mode = mode
  mtu   : s.mtu = mtu
  proto : ∀ v, s.proto = some v → v < 4
  lay   : LayZero s ∨ LaySafe s
  busy  : s.tx.state = .prepared ∨ s.tx.state = .released → LaySafe s
  tr    : ∃ w, Traced s w ∧ Phase s w

/-- Invariant of the bus. -/
def AstJ (mode : AstMode) (mtu : Nat) (bus : Bus (AstSt E)) : Prop :=
  AstInv mode mtu bus.binding.st ∧
    (bus.state = .txEnabled → bus.binding.st.tx.state = .acquired ∧ LaySafe bus.binding.st)

theorem LaySafe.congr {s s' : AstSt E} (h : LaySafe s) (h1 : s'.rx.offset = s.rx.offset)
    (h2 : s'.rx.size = s.rx.size) (h3 : s'.tx.offset = s.tx.offset) (h4 : s'.tx.size = s.tx.size) : LaySafe s' := by
  unfold LaySafe; rw [h1, h2, h3, h4]; exact h

theorem LayZero.congr {s s' : AstSt E} (h : LayZero s) (h1 : s'.rx.offset = s.rx.offset)
    (h2 : s'.rx.size = s.rx.size) (h3 : s'.tx.offset = s.tx.offset) (h4 : s'.tx.size = s.tx.size) : LayZero s' := by
  unfold LayZero; rw [h1, h2, h3, h4]; exact h

theorem _root_.Mctp.Spec.SafeLayout.one {v a b c d : Nat} (h : SafeLayout v a b c d) : SafeLayout 1 a b c d := by
  have h1 : overhead 1 ≤ overhead v := by
    have := overhead_le v; have : overhead 1 = 4 := rfl; omega
  obtain ⟨⟨h2, h3⟩, ⟨h4, h5⟩, h6⟩ := h
  exact ⟨⟨h2, by omega⟩, ⟨h4, by omega⟩, h6⟩

theorem LaySafe.lt {s : AstSt E} (h : LaySafe s) : s.rx.offset < 2 ^ 32 ∧ s.rx.size < 2 ^ 32 ∧
    s.tx.offset < 2 ^ 32 ∧ s.tx.size < 2 ^ 32 := by
  obtain ⟨⟨⟨_, h1⟩, _⟩, ⟨⟨_, h2⟩, _⟩, _⟩ := h
  unfold winSize at h1 h2
  omega

/-- Appending the checksum. -/
theorem protoProtect_len {v : Nat} (hv : v ≠ 0) {pkt pkt' : Pktbuf} (h : protoProtect (some v) pkt = .ok pkt') :
    u32 pkt'.len ≤ u32 pkt.len + (overhead v - 4) := by
  match v, hv, h with
  | 1, _, h => cases (show Except.ok pkt = .ok pkt' from h); omega
  | 2, _, h => cases (show Except.ok pkt = .ok pkt' from h); omega
  | 3, _, h =>
    unfold protoProtect at h
    simp only at h
    obtain ⟨bs, -, h⟩ := Res.bind_eq_ok.mp h
    obtain ⟨⟨r, q⟩, hp, h⟩ := Res.bind_eq_ok.mp h
    simp only [Except.ok.injEq] at h
    subst h
    unfold Pktbuf.push at hp
    split at hp
    · simp only [Except.ok.injEq, Prod.mk.injEq] at hp
      obtain ⟨-, rfl⟩ := hp
      omega
    · obtain ⟨p', hp', hp⟩ := Res.bind_eq_ok.mp hp
      simp only [Except.ok.injEq, Prod.mk.injEq] at hp
      obtain ⟨-, rfl⟩ := hp
      obtain ⟨-, hw⟩ := write_ok hp'
      rw [hw]
      have hl : (be32 (crc32 bs).toNat).length = 4 := rfl
      have ho : overhead 3 - 4 = 4 := rfl
      rw [hl, ho]
      simp only [Pktbuf.len, sizeMod, u32]
      omega
  | n + 4, _, h =>
    have h' : (Except.ok pkt : Res Pktbuf) = .ok pkt' := h
    cases h'; omega

theorem read_length {p : Pktbuf} {off n : Nat} {bs : List Byte} (h : p.read off n = .ok bs) :
    bs.length = n := by
  unfold Pktbuf.read at h
  split at h
  · simp only [Except.ok.injEq] at h; subst h; simp; omega
  · cases h

/-- Outcome of `mctp_binding_astlpc_tx` when the buffer is ours. -/
theorem astTx_cases {hw : Hw E} {mode : AstMode} {mtu : Nat} {b : Binding (AstSt E)} {pkt : Pktbuf}
    {out : TxOut (AstSt E)} (h : AstInv mode mtu b.st) (ha : b.st.tx.state = .acquired) (hl : LaySafe b.st)
    (he : astTx hw b pkt = .ok out) :
    (out.st = b.st ∧ out.pkt = pkt ∧ out.rc = -EMSGSIZE ∧ out.disableTx = false) ∨
    (out.disableTx = true ∧ (out.rc = 0 ∨ out.rc = -EIO) ∧
      (out.rc = -EIO → out.st.tx.state = .prepared) ∧
      (out.rc = 0 → out.st.tx.state = .prepared ∨ out.st.tx.state = .released) ∧
      AstInv mode mtu out.st ∧ LaySafe out.st ∧ out.st.rx = b.st.rx ∧ out.st.proto = b.st.proto ∧
      out.st.tx.offset = b.st.tx.offset ∧ out.st.tx.size = b.st.tx.size ∧
      out.st.kcsStatus = b.st.kcsStatus) := by
  obtain ⟨hm, hmt, hpr, -, -, w, htr, hph⟩ := h
  unfold astTx at he
  obtain ⟨most, hmost, he⟩ := Res.bind_eq_ok.mp he
  obtain ⟨v, hv, hv0, hov, rfl⟩ := protoBodySize_inv hl.lt.2.2.2 hmost
  split at he
  · simp only [Except.ok.injEq] at he
    subst he
    exact .inl ⟨rfl, rfl, rfl, rfl⟩
  · rename_i hlen
    right
    obtain ⟨⟨r1, s1⟩, hw1, he⟩ := Res.bind_eq_ok.mp he
    obtain ⟨pkt1, hprot, he⟩ := Res.bind_eq_ok.mp he
    obtain ⟨bytes, hbytes, he⟩ := Res.bind_eq_ok.mp he
    obtain ⟨⟨r2, s2⟩, hw2, he⟩ := Res.bind_eq_ok.mp he
    simp only at he hw2 hprot hbytes
    have h4 : (be32 (u32 pkt.len)).length = 4 := rfl
    have hsz := hl.2.1.2
    have hwin := hl.2.1.1
    have h84 : overhead v = 4 ∨ overhead v = 8 := overhead_le v
    have ho1 : overhead 1 = 4 := rfl
    obtain ⟨hs1, w1, ht1, hx1, hr1⟩ := lpcWrite_pkt htr hl (by unfold Within; rw [h4]; omega)
      (.inl (hph.acq ha)) hw1
    have hl1 : LaySafe s1 := hl.congr (by rw [hs1.rx]) (by rw [hs1.rx]) (by rw [hs1.tx]) (by rw [hs1.tx])
    rw [hs1.proto, hv] at hprot
    have hplen := protoProtect_len hv0 hprot
    have hblen := read_length hbytes
    have hoff : u32 (s1.tx.offset + 4) = s1.tx.offset + 4 := by
      apply u32_of_lt; rw [hs1.tx]
      obtain ⟨_, hwin2⟩ := hwin
      unfold winSize at hwin2; omega
    rw [hoff] at hw2
    rw [if_pos (hph.acq ha)] at hx1
    obtain ⟨hs2, w2, ht2, hx2, hr2⟩ := lpcWrite_pkt ht1 hl1
      (by unfold Within; rw [hblen, hs1.tx]; omega)
      (.inr hx1) hw2
    rw [if_neg (by rw [hx1]; simp)] at hx2
    have hs12 := hs1.trans hs2
    have ht3 : Traced { s2 with tx := { s2.tx with state := .prepared } } w2 := ht2.congr rfl rfl
    generalize hk : kcsSend hw { s2 with tx := { s2.tx with state := .prepared } } cmdTxBegin = r at he
    obtain ⟨rc, s3⟩ := r
    obtain ⟨hs3, hrc, w3, ht4, hx3, hr3⟩ := kcsSend_traced ht3 (.inl ⟨rfl, hx2⟩) hk
    simp only [Except.ok.injEq] at he
    subst he
    have hrx : s3.rx = b.st.rx := by rw [hs3.rx]; exact hs12.rx
    have hto : s3.tx = { b.st.tx with state := .prepared } := by rw [hs3.tx]; simp only [hs12.tx]
    have hpro : s3.proto = b.st.proto := by rw [hs3.proto]; exact hs12.proto
    have hkc : s3.kcsStatus = b.st.kcsStatus := by rw [hs3.kcs]; exact hs12.kcs
    have hmo : s3.mode = b.st.mode := by rw [hs3.mode]; exact hs12.mode
    have hmu : s3.mtu = b.st.mtu := by rw [hs3.mtu]; exact hs12.mtu
    have hsafe : ∀ st, LaySafe { s3 with tx := { s3.tx with state := st } } := fun st =>
      hl.congr (by simp [hrx]) (by simp [hrx]) (by simp [hto]) (by simp [hto])
    by_cases hz : rc = 0
    · subst hz
      simp only [if_true]
      refine ⟨trivial, .inl (by simp [EBUSY]), by simp [EIO, EBUSY], fun _ => by simp, ?_, hsafe _, hrx, hpro,
        by simp [hto], by simp [hto], hkc⟩
      refine ⟨by simp only; rw [hmo]; exact hm, by simp only; rw [hmu]; exact hmt, by simp only; rw [hpro]; exact hpr,
        .inr (hsafe _), fun _ => hsafe _, w3, ht4.congr rfl rfl, ?_⟩
      simp only [cmdTxBegin, true_and, if_true] at hx3
      exact ⟨by simp, by simp, fun _ => .inl hx3, by rw [hx3]; simp, fun hp => by
        rw [hr3, if_neg (by simp [cmdTxBegin]), hr2, hr1]; exact hph.rxp (by rw [← hrx]; exact hp)⟩
    · simp only [hz, if_false]
      have hst3 : s3.tx.state = .prepared := by rw [hto]
      have hsafe3 : LaySafe s3 := hl.congr (by simp [hrx]) (by simp [hrx]) (by simp [hto]) (by simp [hto])
      refine ⟨trivial, ?_, fun _ => hst3, fun _ => .inl hst3, ?_, hsafe3, hrx, hpro, by simp [hto],
        by simp [hto], hkc⟩
      · rcases hrc with h | h | h
        · exact absurd h hz
        · simp [h]
        · right; simp [h, EIO, EBUSY]
      · refine ⟨by rw [hmo]; exact hm, by rw [hmu]; exact hmt, by rw [hpro]; exact hpr, .inr hsafe3,
          fun _ => hsafe3, w3, ht4, ?_⟩
        rw [if_neg (by simp [hz])] at hx3
        rw [hx2] at hx3
        exact ⟨by simp [hst3], fun _ => hx3, by simp [hst3], by rw [hx3]; simp, fun hp => by
          rw [hr3, if_neg (by simp [cmdTxBegin]), hr2, hr1]; exact hph.rxp (by rw [← hrx]; exact hp)⟩

/-- Transmission keeps the invariant. -/
theorem astJ_keeps (hw : Hw E) (mode : AstMode) (mtu : Nat) :
    Keeps (astOps hw) (fun _ bus => AstJ mode mtu bus) where
  tx := by
    intro os bus p rest out hj hst hq he
    obtain ⟨hi, hen⟩ := hj
    obtain ⟨ha, hl⟩ := hen hst
    rcases astTx_cases hi ha hl he with ⟨h1, h2, h3, h4⟩ | ⟨h1, h2, -, -, h3, h4, -⟩
    · refine ⟨?_, ?_⟩
      · simp only [afterTx]; rw [h1]; exact hi
      · intro _; simp only [afterTx]; rw [h1]; exact ⟨ha, hl⟩
    · refine ⟨h3, ?_⟩
      simp [afterTx, h1]
  push := fun hj _ _ => hj
  off := fun hj _ => ⟨hj.1, by simp⟩

end Mctp
