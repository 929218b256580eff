import Verif.Proofs.LinkRx
import Verif.Proofs.AstBegin
import Verif.Proofs.SerialRun

/-! The code keeps to the detailed monitor: the commands. -/

namespace Mctp

open Spec

variable {E : Type}

/-- The other side has handed back our buffer. -/
theorem tx_rel {hw : Hw E} {mode : AstMode} {mtu : Nat} {g : LinkCfg} {U : AstSt E → Prop} {c c' : Core (AstSt E)} {i : Nat}
    {bus : Bus (AstSt E)} {e : List Event} {v k : Byte} {os : List Offer} {rs : List (List Byte)}
    (hoff : 256 ≤ g.txo) (hsz : g.sz < 2 ^ 31) (h76 : 76 ≤ g.sz)
    (hb : c.busses = [bus]) (hj : AstJ mode mtu bus) (hrel : bus.binding.st.tx.state = .released)
    (hw1 : ∃ w, Traced bus.binding.st w ∧ Phase bus.binding.st w ∧ w.tx = .free)
    (h : Obeys g bus.binding.st (fun f => f.opened = true ∧ f.stale = false ∧
      Rel g U (some v) k os rs { bus with state := .txEnabled, binding := { bus.binding with st := { bus.binding.st with tx := { bus.binding.st.tx with state := .acquired } } } } f))
    (he : c.astTxComplete hw i = .ok (c', e)) :
    ∃ bus', c'.busses = [bus'] ∧ bus'.binding.st.kcsStatus = bus.binding.st.kcsStatus ∧
      Obeys g bus'.binding.st (Rel g U (some v) k (os ++ offers 0 e) (rs ++ packetsIn e) bus') := by
  obtain ⟨w, htr, hph, hfree⟩ := hw1
  unfold Core.astTxComplete at he
  obtain ⟨bus2, hbus2, hs⟩ := Res.bind_eq_ok.mp he
  obtain ⟨rfl, rfl⟩ := busAt_single hb hbus2
  simp only at hs
  rw [setSt_single hb] at hs
  have hl : LaySafe bus2.binding.st := hj.1.busy (.inr hrel)
  have hl2 : LaySafe { bus2.binding.st with tx := { bus2.binding.st.tx with state := .acquired } } := hl.congr rfl rfl rfl rfl
  have hi : AstInv mode mtu { bus2.binding.st with tx := { bus2.binding.st.tx with state := .acquired } } :=
    ⟨hj.1.mode, hj.1.mtu, hj.1.proto, .inr hl2, fun _ => hl2, w, htr.congr rfl rfl,
              fun _ => hfree, by simp, by simp, hph.half, hph.rxp⟩
  rw [packetsIn_isTx (setTxEnabled_events hs), List.append_nil]
  rcases h.fact (X := bus2.binding.pktSize + 8 = g.sz) (fun f hf => (hf.2.2.lay hf.1).2.2.2.2.2) with hpk | hno
  · obtain ⟨bus', m, rfl, hj'⟩ := setTxEnabled_on
      (rel_keeps hw mode mtu (g := g) (U := U) (φ := some v) (k := k) (k0 := bus2.binding.st.kcsStatus) (rs := rs) hoff hsz (by omega))
      (bus := { bus2 with binding := { bus2.binding with st := { bus2.binding.st with tx := { bus2.binding.st.tx with state := .acquired } } } }) (by rfl)
      (by simp only; omega)
      ⟨⟨hi, fun _ => ⟨rfl, hl2⟩⟩, rfl, (h.congr rfl).mono fun f hf => hf.2.2⟩ hs
    exact ⟨bus', rfl, hj'.2.1, hj'.2.2⟩
  · obtain ⟨bus', m, rfl, hj', ho⟩ := setTxEnabled_keeps (txOnly_keeps hw mode mtu { bus2 with binding := { bus2.binding with st := { bus2.binding.st with tx := { bus2.binding.st.tx with state := .acquired } } } })
      (bus := { bus2 with binding := { bus2.binding with st := { bus2.binding.st with tx := { bus2.binding.st.tx with state := .acquired } } } }) (by rfl) (os := [])
      ⟨⟨hi, fun _ => ⟨rfl, hl2⟩⟩, TxOnly.refl _⟩ (fun _ => ⟨⟨hi, fun _ => ⟨rfl, hl2⟩⟩, ⟨rfl, rfl, rfl, rfl, rfl, rfl, rfl, rfl, rfl, [], Adds.refl _, by simp⟩⟩) hs
    obtain ⟨l, ha, -⟩ := ho.adds
    exact ⟨bus', rfl, ho.kcs, (hno.congr (by rfl)).never ha⟩

/-- The BMC before the channel is open. -/
def BmcClosed (mtu : Nat) (s : AstSt E) : Prop :=
  s.mtu = mtu ∧ s.proto = some 3 ∧ s.tx.offset = 256 ∧ s.tx.size = bmcRoom mtu ∧ s.rx.offset = 256 + bmcRoom mtu ∧ s.rx.size = bmcRoom mtu

theorem bmcClosed_stable (mtu : Nat) : Stable (BmcClosed (E := E) mtu) := by
  intro s s' _ h2 h3 h4 h5 h6 h7 hu
  unfold BmcClosed
  rw [h2, h3, h4, h5, h6, h7]
  exact hu

/-- The host asks the BMC to open the channel. -/
theorem init_rel {hw : Hw E} {mtu H : Nat} {c c' : Core (AstSt E)} {i : Nat}
    {bus : Bus (AstSt E)} {e : List Event} {v k : Byte} {os : List Offer} {rs : List (List Byte)}
    (hmtu : mtu < 4294967284) (hH1 : 76 ≤ H) (hH2 : H ≤ bmcRoom mtu)
    (hb : c.busses = [bus]) (hj : AstJ .bmc mtu bus)
    (hX : BmcClosed mtu bus.binding.st ∧ (taken os = [] ∧ ∀ o ∈ os, o.rc = 0) ∧ rs = [] ∧ bus.binding.version = 1 ∧
      bus.binding.pktHeader = 4 ∧ bus.binding.pktTrailer = 4 ∧ bus.state = .constructed ∧ bus.queue = [])
    (h : Obeys (cfgB (bmcRoom mtu) H ls) bus.binding.st (Starting true (cfgB (bmcRoom mtu) H ls).init))
    (he : c.astInitChannel hw i = .ok (c', e)) :
    ∃ bus', c'.busses = [bus'] ∧ bus'.binding.st.kcsStatus = bus.binding.st.kcsStatus ∧
      Obeys (cfgB (bmcRoom mtu) H ls) bus'.binding.st (Rel (cfgB (bmcRoom mtu) H ls) (BmcClosed mtu) (some v) k (os ++ offers 0 e) (rs ++ packetsIn e) bus') := by
  have hB := bmcRoom_le mtu
  obtain ⟨⟨u1, u2, u3, u4, u5, u6⟩, ⟨x1, x0⟩, x2, x3, x4, x5, x6, x7⟩ := hX
  unfold Core.astInitChannel at he
  obtain ⟨bus2, hbus2, hs⟩ := Res.bind_eq_ok.mp he
  obtain ⟨rfl, rfl⟩ := busAt_single hb hbus2
  obtain ⟨⟨on, b⟩, hin, hs⟩ := Res.bind_eq_ok.mp hs
  obtain ⟨h1, hk, h2, h3, h4⟩ := initChannel_inv hj.1 hin
  simp only at hs
  rw [setBinding_single hb] at hs
  rw [packetsIn_isTx (setTxEnabled_events hs), List.append_nil]
  have hr := initChannel_ready (x := bus2.binding.st.tx.state) (y := bus2.binding.st.rx.state) hmtu hH1 hH2 u1 hj.1.mode
    (by rw [← u3, ← u4]) (by rw [← u5, ← u6]) h (fun f hf => hf) hin
  have hgen : Obeys (cfgB (bmcRoom mtu) H ls) b.st
      (fun f => b.pktSize + 8 = H ∧ Rel (cfgB (bmcRoom mtu) H ls) (BmcClosed mtu) (some v) k os rs { bus2 with state := .txEnabled, binding := b } f) := by
    refine hr.mono ?_
    rintro f ⟨⟨s1, s2, s3, s4, s5, s6, s7, s8, s9, s10⟩, -, o1, o2, o3, o4, o5, o6, o7, o8, o9, o10⟩
    refine ⟨by omega, ?_⟩
    exact
      { todo := s1, started := s2, fin := by rw [s5]; rfl, ver := o1.trans x3, hdr := o2.trans x4, tlr := o3.trans x5,
        mode := o7.trans hj.1.mode, sent := by rw [s9, x1]; rfl, fit := by rw [x1]; simp, all := x0, got := by rw [x2, s10]; rfl,
        coh := by rw [s8, s6]; rfl, queue := by simp only; rw [x7]; simp, kcs := fun h => (nomatch h), mid := fun _ _ h => (nomatch h),
        stale := fun h => by rw [s4] at h; cases h
        shut := by
          rintro (h | h)
          · rw [s3] at h; cases h
          · rw [s4] at h; cases h
        closed := fun h => by rw [s3] at h; cases h
        lay := fun _ => by
          simp only
          rw [o6, o9, o10, o5]
          exact ⟨rfl, rfl, rfl, rfl, rfl, by simp only [cfgB]; omega⟩
        tx := fun _ => .inl ⟨by simp only; rw [o9], s7⟩
        rx := fun _ => .inl ⟨by simp only; rw [o10], .inl s6⟩
        can := fun _ _ _ => rfl }
  cases on with
  | true =>
    obtain ⟨ver, -, -, h5⟩ := h4 rfl
    rcases hgen.fact (fun f hf => hf.1) with hpk | hno
    · obtain ⟨bus', m, rfl, hj'⟩ := setTxEnabled_on
        (rel_keeps hw .bmc mtu (g := cfgB (bmcRoom mtu) H ls) (U := BmcClosed mtu) (φ := some v) (k := k) (k0 := bus2.binding.st.kcsStatus) (rs := rs)
          (by simp only [cfgB]; omega) (by simp only [cfgB]; omega) (by simp only [cfgB]; omega))
        (bus := { bus2 with binding := b }) (by rfl) (by simp only; omega)
        ⟨⟨h1, fun _ => ⟨h2, h5.one⟩⟩, hk, hgen.mono fun f hf => hf.2⟩ hs
      exact ⟨bus', rfl, hj'.2.1, hj'.2.2⟩
    · obtain ⟨bus', m, rfl, hj', ho⟩ := setTxEnabled_keeps (txOnly_keeps hw .bmc mtu { bus2 with binding := b })
        (bus := { bus2 with binding := b }) (by rfl) (os := [])
        ⟨⟨h1, fun _ => ⟨h2, h5.one⟩⟩, TxOnly.refl _⟩ (fun _ => ⟨⟨h1, fun _ => ⟨h2, h5.one⟩⟩, ⟨rfl, rfl, rfl, rfl, rfl, rfl, rfl, rfl, rfl, [], Adds.refl _, by simp⟩⟩) hs
      obtain ⟨l, ha, -⟩ := ho.adds
      exact ⟨bus', rfl, ho.kcs.trans hk, hno.never ha⟩
  | false =>
    have hno : Obeys (cfgB (bmcRoom mtu) H ls) b.st (fun _ => False) := hr.mono fun f hf => (nomatch hf.2.1)
    obtain ⟨rfl, -, rfl⟩ := setTxEnabled_false (by rfl) hs
    exact ⟨_, rfl, hk, hno.mono fun f hf => hf.elim⟩

end Mctp
