import Verif.Proofs.AstMute
import Verif.Spec.AstOwn

/-!
# Each side writes only what is its own
-/

namespace Mctp

open Spec

variable {E : Type}

/-- A write to what is the side's own, with a defined value. -/
def Proper (mode : AstMode) (a : Access) : Prop := OwnWrite mode a ∧ DefinedWrite mode a

/-- The trace was continued with writes to what is the side's own only. -/
def Owned (mode : AstMode) (s s' : AstSt E) : Prop := ∃ l, Adds s s' l ∧ ∀ a ∈ l, Proper mode a

theorem Owned.refl (mode : AstMode) (s : AstSt E) : Owned mode s s := ⟨[], Adds.refl s, by simp⟩
theorem Owned.trans {mode : AstMode} {a b c : AstSt E} (h : Owned mode a b) (h' : Owned mode b c) : Owned mode a c := by
  obtain ⟨l, h1, h2⟩ := h
  obtain ⟨l', h1', h2'⟩ := h'
  refine ⟨l ++ l', h1.trans h1', ?_⟩
  intro a ha
  rcases List.mem_append.mp ha with ha | ha
  · exact h2 a ha
  · exact h2' a ha
theorem Owned.congr {mode : AstMode} {a b a' b' : AstSt E} (h : Owned mode a b) (ha : a'.log = a.log) (hb : b'.log = b.log) :
    Owned mode a' b' := by
  obtain ⟨l, h1, h2⟩ := h
  exact ⟨l, h1.congr ha hb, h2⟩
theorem Owned.one {mode : AstMode} {s s' : AstSt E} {a : Access} (h : Adds s s' [a]) (hp : Proper mode a) : Owned mode s s' :=
  ⟨_, h, by simpa using hp⟩

theorem Sends.owned {mode md : AstMode} {cmd : Byte} {rc : Int} {l : List Access} (hc : cmd = 1 ∨ cmd = 2)
    (h : Sends mode cmd rc l) : ∀ a ∈ l, Proper md a := by
  have hd : cmd = 1 ∨ cmd = 2 ∨ (md = .host ∧ cmd = 0) ∨ (md = .bmc ∧ cmd = 255) := hc.imp id .inl
  cases h <;> simp [Proper, OwnWrite, DefinedWrite] <;> exact hd

theorem TxOnly.owned {mode : AstMode} {bus bus' : Bus (AstSt E)} (h : TxOnly bus bus') :
    Owned mode bus.binding.st bus'.binding.st := by
  obtain ⟨l, ha, hp⟩ := h.adds
  refine ⟨l, ha, fun a hm => ?_⟩
  have := hp a hm
  unfold IsTxAccess at this
  split at this
  · exact ⟨trivial, trivial⟩
  · exact ⟨trivial, .inl this⟩
  · exact ⟨.inl this, by omega, by omega, by omega⟩
  · exact this.elim

theorem lpcRead_owned {hw : Hw E} {mode : AstMode} {s s' : AstSt E} {off len : Nat} {rc : Int} {bs : List Byte}
    (he : lpcRead hw s off len = .ok (rc, bs, s')) : Owned mode s s' := .one (lpcRead_adds he) ⟨trivial, trivial⟩

theorem layoutRead_owned {hw : Hw E} {mode : AstMode} {s s' : AstSt E} {rc : Int} {l : AstLayout}
    (he : layoutRead hw s = .ok (rc, l, s')) : Owned mode s s' := by
  unfold layoutRead at he
  obtain ⟨⟨r, hdr, s1⟩, hr, he⟩ := Res.bind_eq_ok.mp he
  simp only at he
  split at he <;> simp only [Except.ok.injEq, Prod.mk.injEq] at he <;> obtain ⟨rfl, rfl, rfl⟩ := he <;>
    exact lpcRead_owned hr

theorem layoutWrite_owned {hw : Hw E} {mode : AstMode} {s s' : AstSt E} {rc : Int} {l : AstLayout} (hm : s.mode = mode)
    (he : layoutWrite hw s l = .ok (rc, s')) : Owned mode s s' := by
  subst hm
  unfold layoutWrite at he
  split at he <;> rename_i h <;> refine .one (lpcWrite_adds he) ?_ <;> rw [h] <;>
    simp [Proper, OwnWrite, DefinedWrite, be32, offLayout, offRxSize]

theorem negotiateLayoutHost_owned {hw : Hw E} {s s' : AstSt E} {rc : Int} (hm : s.mode = .host)
    (he : negotiateLayoutHost hw s = .ok (rc, s')) : Owned .host s s' := by
  unfold negotiateLayoutHost at he
  obtain ⟨⟨r, l, s1⟩, hr, he⟩ := Res.bind_eq_ok.mp he
  have h1 : Owned .host s s1 := layoutRead_owned hr
  have hm1 : s1.mode = .host := (layoutRead_same hr).mode.trans hm
  simp only at he
  split at he
  · simp only [Except.ok.injEq, Prod.mk.injEq] at he
    obtain ⟨rfl, rfl⟩ := he; exact h1
  · obtain ⟨valid, hv, he⟩ := Res.bind_eq_ok.mp he
    split at he
    · simp only [Except.ok.injEq, Prod.mk.injEq] at he
      obtain ⟨rfl, rfl⟩ := he; exact h1
    · obtain ⟨sz, hsz, he⟩ := Res.bind_eq_ok.mp he
      obtain ⟨valid2, hv2, he⟩ := Res.bind_eq_ok.mp he
      split at he
      · simp only [Except.ok.injEq, Prod.mk.injEq] at he
        obtain ⟨rfl, rfl⟩ := he; exact h1
      · exact h1.trans (layoutWrite_owned hm1 he)

theorem initHost_owned {hw : Hw E} {s s' : AstSt E} {rc : Int} (hm : s.mode = .host) (he : initHost hw s = .ok (rc, s')) :
    Owned .host s s' := by
  unfold initHost at he
  have h1 : Owned .host s (kcsRead hw s .status).2.2 := .one (kcsRead_adds hw s .status) ⟨trivial, trivial⟩
  have hm1 := (kcsRead_same hw s .status).mode
  simp only at he
  generalize hr1 : kcsRead hw s .status = r at h1 hm1 he
  obtain ⟨rc1, st, s1⟩ := r
  simp only at h1 hm1 he
  split at he
  · simp only [Except.ok.injEq, Prod.mk.injEq] at he
    obtain ⟨rfl, rfl⟩ := he; exact h1
  · split at he
    · simp only [Except.ok.injEq, Prod.mk.injEq] at he
      obtain ⟨rfl, rfl⟩ := he; exact h1.congr rfl rfl
    · obtain ⟨⟨r2, hdr, s2⟩, hr2, he⟩ := Res.bind_eq_ok.mp he
      have h2 : Owned .host s s2 := h1.trans ((lpcRead_owned hr2).congr rfl rfl)
      have hm2 : s2.mode = .host := ((lpcRead_ok hr2).1.mode.trans hm1).trans hm
      simp only at he
      generalize negotiateVersion _ _ _ _ = n at he
      split at he
      · simp only [Except.ok.injEq, Prod.mk.injEq] at he
        obtain ⟨rfl, rfl⟩ := he; exact h2
      · split at he
        · cases he
        · obtain ⟨⟨r3, s3⟩, hr3, he⟩ := Res.bind_eq_ok.mp he
          have h3 : Owned .host s s3 := by
            split at hr3
            · exact h2.trans ((negotiateLayoutHost_owned (by exact hm2) hr3).congr rfl rfl)
            · simp only [Except.ok.injEq, Prod.mk.injEq] at hr3
              obtain ⟨-, rfl⟩ := hr3; exact h2.congr rfl rfl
          simp only at he
          split at he
          · simp only [Except.ok.injEq, Prod.mk.injEq] at he
            obtain ⟨rfl, rfl⟩ := he; exact h3
          · obtain ⟨⟨r4, s4⟩, hr4, he⟩ := Res.bind_eq_ok.mp he
            obtain ⟨⟨r5, s5⟩, hr5, he⟩ := Res.bind_eq_ok.mp he
            simp only [Except.ok.injEq, Prod.mk.injEq] at he
            obtain ⟨-, rfl⟩ := he
            have h4 : Owned .host s3 s4 := .one (lpcWrite_adds hr4) ⟨by simp [OwnWrite, offHostMin, be16], by simp [DefinedWrite, offHostMin, be16, astVerMin]⟩
            have h5 : Owned .host s4 s5 := .one (lpcWrite_adds hr5) ⟨by simp [OwnWrite, offHostCur, be16], by simp [DefinedWrite, offHostCur, be16, astVerCur]⟩
            exact ((h3.trans h4).trans h5).trans
              ((Owned.one (kcsWrite_adds hw s5 .data cmdInitialise) ⟨trivial, .inr (.inr (.inl ⟨rfl, rfl⟩))⟩).congr rfl rfl)

theorem astStart_owned {hw : Hw E} {s s' : AstSt E} {rc : Int} (hm : s.mode = .host) (he : astStart hw s = .ok (rc, s')) :
    Owned .host s s' := by
  unfold astStart at he
  rw [hm] at he
  exact initHost_owned hm he

theorem finaliseChannel_owned {hw : Hw E} {mode : AstMode} {b b' : Binding (AstSt E)} {rc : Int}
    (he : finaliseChannel hw b = .ok (rc, b')) : Owned mode b.st b'.st := by
  unfold finaliseChannel at he
  obtain ⟨⟨r1, ver, s1⟩, hr1, he⟩ := Res.bind_eq_ok.mp he
  have h1 : Owned mode b.st s1 := lpcRead_owned hr1
  simp only at he
  split at he
  · simp only [Except.ok.injEq, Prod.mk.injEq] at he
    obtain ⟨rfl, rfl⟩ := he; exact h1
  · split at he
    · simp only [Except.ok.injEq, Prod.mk.injEq] at he
      obtain ⟨rfl, rfl⟩ := he; exact h1
    · obtain ⟨⟨r2, l, s2⟩, hr2, he⟩ := Res.bind_eq_ok.mp he
      have h2 : Owned mode b.st s2 := h1.trans ((layoutRead_owned hr2).congr rfl rfl)
      simp only at he
      split at he
      · simp only [Except.ok.injEq, Prod.mk.injEq] at he
        obtain ⟨rfl, rfl⟩ := he; exact h2
      · obtain ⟨valid, hv, he⟩ := Res.bind_eq_ok.mp he
        split at he
        · simp only [Except.ok.injEq, Prod.mk.injEq] at he
          obtain ⟨rfl, rfl⟩ := he; exact h2
        · obtain ⟨most, hmost, he⟩ := Res.bind_eq_ok.mp he
          simp only [Except.ok.injEq, Prod.mk.injEq] at he
          obtain ⟨rfl, rfl⟩ := he; exact h2.congr rfl rfl

theorem negotiateLayoutBmc_owned {hw : Hw E} {b b' : Binding (AstSt E)} {rc : Int} (hm : b.st.mode = .bmc)
    (he : negotiateLayoutBmc hw b = .ok (rc, b')) : Owned .bmc b.st b'.st := by
  unfold negotiateLayoutBmc at he
  obtain ⟨version, hversion, he⟩ := Res.bind_eq_ok.mp he
  split at he
  · simp only [Except.ok.injEq, Prod.mk.injEq] at he
    obtain ⟨rfl, rfl⟩ := he; exact .refl _ _
  · obtain ⟨⟨r1, l, s1⟩, hr1, he⟩ := Res.bind_eq_ok.mp he
    have h1 : Owned .bmc b.st s1 := layoutRead_owned hr1
    have hm1 : s1.mode = .bmc := (layoutRead_same hr1).mode.trans hm
    simp only at he
    split at he
    · simp only [Except.ok.injEq, Prod.mk.injEq] at he
      obtain ⟨rfl, rfl⟩ := he; exact h1
    · obtain ⟨valid, hv, he⟩ := Res.bind_eq_ok.mp he
      split at he
      · simp only [Except.ok.injEq, Prod.mk.injEq] at he
        obtain ⟨rfl, rfl⟩ := he; exact h1
      · obtain ⟨m, hmm, he⟩ := Res.bind_eq_ok.mp he
        obtain ⟨sz, hsz, he⟩ := Res.bind_eq_ok.mp he
        obtain ⟨valid2, hv2, he⟩ := Res.bind_eq_ok.mp he
        split at he
        · obtain ⟨⟨r2, s2⟩, hr2, he⟩ := Res.bind_eq_ok.mp he
          have h2 : Owned .bmc b.st s2 := h1.trans ((layoutWrite_owned (by exact hm1) hr2).congr rfl rfl)
          simp only at he
          split at he
          · simp only [Except.ok.injEq, Prod.mk.injEq] at he
            obtain ⟨rfl, rfl⟩ := he; exact h2
          · split at he <;> simp only [Except.ok.injEq, Prod.mk.injEq] at he <;> obtain ⟨rfl, rfl⟩ := he <;> exact h2
        · simp only [Except.ok.injEq, Prod.mk.injEq] at he
          obtain ⟨rfl, rfl⟩ := he; exact h1

theorem initChannel_owned {hw : Hw E} {b b' : Binding (AstSt E)} {on : Bool} (hm : b.st.mode = .bmc)
    (he : initChannel hw b = .ok (on, b')) : Owned .bmc b.st b'.st := by
  unfold initChannel at he
  obtain ⟨⟨r1, hdr, s1⟩, hr1, he⟩ := Res.bind_eq_ok.mp he
  have h1 : Owned .bmc b.st s1 := lpcRead_owned hr1
  have hm1 : s1.mode = .bmc := (lpcRead_ok hr1).1.mode.trans hm
  simp only at he
  generalize negotiateVersion astVerMin astVerCur (field16 hdr offHostMin) (field16 hdr offHostCur) = n at he
  split at he
  · cases he
  · rename_i hn4
    obtain ⟨⟨rc, b2⟩, hr2, he⟩ := Res.bind_eq_ok.mp he
    have h2 : Owned .bmc s1 b2.st := (negotiateLayoutBmc_owned (by exact hm1) hr2).congr rfl rfl
    obtain ⟨⟨r3, s3⟩, hr3, he⟩ := Res.bind_eq_ok.mp he
    have h3 : Owned .bmc b2.st s3 := .one (lpcWrite_adds hr3) ⟨by simp [OwnWrite, offNegotiated, be16], by
      have hlt : (if rc < 0 then 0 else n) < 4 := by split <;> omega
      generalize (if rc < 0 then 0 else n) = k at hlt
      refine ⟨by simp [offNegotiated], by simp [offNegotiated], fun _ => ?_⟩
      have : k = 0 ∨ k = 1 ∨ k = 2 ∨ k = 3 := by omega
      rcases this with rfl | rfl | rfl | rfl <;> simp [be16]⟩
    simp only at he
    generalize hste : (if (if rc < 0 then 0 else n) > 0 then kcsBmcReady ||| kcsObf ||| kcsChannelActive else kcsBmcReady ||| kcsObf) = st at he
    generalize hk : kcsSetStatus hw { s3 with tx := { s3.tx with state := .acquired }, rx := { s3.rx with state := .released } } st = r at he
    obtain ⟨r4, s4⟩ := r
    obtain ⟨-, -, l, a4, hset⟩ := kcsSetStatus_adds hk
    have h4 : Owned .bmc s3 s4 := ⟨l, a4.congr rfl rfl, by
      have hst : st = 0x81 ∨ st = 0xc1 := by
        subst hste
        generalize (if rc < 0 then 0 else n) = k
        by_cases hk0 : k > 0
        · rw [if_pos hk0]; right; decide
        · rw [if_neg hk0]; left; decide
      cases hset <;> simp [Proper, OwnWrite, DefinedWrite] <;> exact hst⟩
    simp only [Except.ok.injEq, Prod.mk.injEq] at he
    obtain ⟨rfl, rfl⟩ := he
    exact ((h1.trans h2).trans h3).trans h4

/-- The core was left with one bus, whose binding has written only what is its own. -/
def OwnedC (mode : AstMode) (bus : Bus (AstSt E)) (c' : Core (AstSt E)) : Prop :=
  ∃ bus', c'.busses = [bus'] ∧ Owned mode bus.binding.st bus'.binding.st

theorem setTxEnabled_ownedC {hw : Hw E} {mode : AstMode} {mtu : Nat} {c c' : Core (AstSt E)} {i : Nat} {on : Bool}
    {bus : Bus (AstSt E)} {e : List Event} (hb : c.busses = [bus]) (hi : AstInv mode mtu bus.binding.st)
    (hon : on = true → bus.binding.st.tx.state = .acquired ∧ LaySafe bus.binding.st)
    (he : c.setTxEnabled (astOps hw) i on = .ok (c', e)) : OwnedC mode bus c' := by
  obtain ⟨bus', m, rfl, ho, -⟩ := setTxEnabled_only hb hi hon he
  exact ⟨bus', rfl, ho.owned⟩

theorem astUpdateActive_ownedC {hw : Hw E} {mode : AstMode} {mtu : Nat} {c c' : Core (AstSt E)} {i : Nat}
    {bus : Bus (AstSt E)} {e : List Event} {status updated : Byte} {rc : Int} (hb : c.busses = [bus])
    (hj : AstJ mode mtu bus) (he : c.astUpdateActive hw i status updated = .ok (c', e, rc)) : OwnedC mode bus c' := by
  unfold Core.astUpdateActive at he
  obtain ⟨bus1, hbus, he⟩ := Res.bind_eq_ok.mp he
  obtain ⟨rfl, rfl⟩ := busAt_single hb hbus
  obtain ⟨version, hver, he⟩ := Res.bind_eq_ok.mp he
  simp only at he
  split at he
  · obtain ⟨⟨rc1, b1⟩, hf, he⟩ := Res.bind_eq_ok.mp he
    have h0 : Owned mode _ _ := finaliseChannel_owned hf
    have hi0 := hj.1.states
    obtain ⟨hi1, hk1, hres⟩ := finaliseChannel_inv (b := { bus1.binding with st := { bus1.binding.st with rx := { bus1.binding.st.rx with state := .idle }, tx := { bus1.binding.st.tx with state := .idle } } }) hi0 rfl rfl hf
    obtain ⟨⟨c1, e1⟩, hset, he⟩ := Res.bind_eq_ok.mp he
    rw [setBinding_single hb] at hset
    have hon : decide (status &&& kcsChannelActive ≠ 0 ∧ rc1 = 0) = true → b1.st.tx.state = .acquired ∧ LaySafe b1.st := by
      intro hd
      simp only [decide_eq_true_eq] at hd
      rcases hres with ⟨_, ha, _, v, _, _, hs⟩ | ⟨hneg, _⟩
      · exact ⟨ha, hs.one⟩
      · omega
    obtain ⟨bus', m, rfl, ho, -⟩ := setTxEnabled_only rfl hi1 hon hset
    obtain ⟨bus2, hbus2, he⟩ := Res.bind_eq_ok.mp he
    obtain ⟨-, rfl⟩ := busAt_single rfl hbus2
    simp only [Except.ok.injEq, Prod.mk.injEq] at he
    obtain ⟨rfl, -⟩ := he
    rw [setSt_single rfl]
    exact ⟨_, rfl, ((h0.congr rfl rfl).trans ho.owned).congr rfl rfl⟩
  · simp only [Except.ok.injEq, Prod.mk.injEq] at he
    obtain ⟨rfl, -⟩ := he
    rw [setSt_single hb]
    exact ⟨_, rfl, (Owned.refl _ _).congr rfl rfl⟩

theorem astUpdateChannel_ownedC {hw : Hw E} {mode : AstMode} {mtu : Nat} {c c' : Core (AstSt E)} {i : Nat}
    {bus : Bus (AstSt E)} {e : List Event} {status : Byte} {rc : Int} (hb : c.busses = [bus])
    (hj : AstJ mode mtu bus) (he : c.astUpdateChannel hw i status = .ok (c', e, rc)) : OwnedC mode bus c' := by
  unfold Core.astUpdateChannel at he
  obtain ⟨bus1, hbus, he⟩ := Res.bind_eq_ok.mp he
  obtain ⟨rfl, rfl⟩ := busAt_single hb hbus
  simp only at he
  split at he
  · cases he
  · rename_i hhost
    have hhost : bus1.binding.st.mode = .host := Decidable.not_not.mp hhost
    have hmode : mode = .host := hj.1.mode.symm.trans hhost
    subst hmode
    split at he
    · split at he
      · obtain ⟨⟨rc1, s1⟩, hs, he⟩ := Res.bind_eq_ok.mp he
        simp only [Except.ok.injEq, Prod.mk.injEq] at he
        obtain ⟨rfl, -⟩ := he
        rw [setSt_single hb]
        exact ⟨_, rfl, (astStart_owned (by exact hhost) hs).congr rfl rfl⟩
      · obtain ⟨⟨c1, e1⟩, hset, he⟩ := Res.bind_eq_ok.mp he
        obtain ⟨⟨c2, e2, rc2⟩, hu, he⟩ := Res.bind_eq_ok.mp he
        simp only [Except.ok.injEq, Prod.mk.injEq] at he
        obtain ⟨rfl, -⟩ := he
        rw [setSt_single hb] at hset
        obtain ⟨bus', m, rfl, ho, hj', -⟩ := setTxEnabled_only rfl hj.1.states (by simp) hset
        obtain ⟨bus2, hb2, hg⟩ := astUpdateActive_ownedC rfl hj' hu
        exact ⟨bus2, hb2, (ho.owned.congr rfl rfl).trans hg⟩
    · exact astUpdateActive_ownedC hb hj he

theorem astRxStart_ownedC {hw : Hw E} {mode : AstMode} {mtu : Nat} {c c' : Core (AstSt E)} {i : Nat}
    {bus : Bus (AstSt E)} {e : List Event} (hb : c.busses = [bus]) (hbr : c.bridge = false) (hi : AstInv mode mtu bus.binding.st)
    (he : c.astRxStart hw i = .ok (c', e)) : OwnedC mode bus c' := by
  obtain ⟨-, -, v, r0, lenBytes, st', m, t, -, -, -, -, rfl, -, hcase⟩ := astRxStart_trace hb hbr hi he
  refine ⟨_, rfl, ?_⟩
  rcases hcase with ⟨-, ha, -⟩ | ⟨-, -, r1, bytes, rcs, l, -, ha, hs, -⟩
  · exact .one ha ⟨trivial, trivial⟩
  · refine ⟨_, ha, fun a hm => ?_⟩
    simp only [List.mem_append, List.mem_cons, List.not_mem_nil, or_false] at hm
    rcases hm with (rfl | rfl) | hm
    · exact ⟨trivial, trivial⟩
    · exact ⟨trivial, trivial⟩
    · exact hs.owned (by simp) a hm

theorem astCommand_ownedC {hw : Hw E} {mode : AstMode} {mtu : Nat} {c c' : Core (AstSt E)} {i : Nat}
    {bus : Bus (AstSt E)} {e : List Event} {status data : Byte} {rc : Int} {stop : Bool} (hb : c.busses = [bus])
    (hbr : c.bridge = false) (hj : AstJ mode mtu bus)
    (hw1 : ∃ w, Traced bus.binding.st w ∧ Phase bus.binding.st w ∧ (data = 1 → w.rx = true) ∧
      (data = 2 → bus.binding.st.tx.state = .released → w.tx = .free))
    (hd : mode = .host → data ≠ 0)
    (he : c.astCommand hw i status data = .ok (c', e, rc, stop)) : OwnedC mode bus c' := by
  have hc : OwnedC mode bus c := ⟨bus, hb, Owned.refl _ _⟩
  obtain ⟨w, htr, hph, hd1, hd2⟩ := hw1
  unfold Core.astCommand at he
  obtain ⟨bus1, hbus, he⟩ := Res.bind_eq_ok.mp he
  obtain ⟨rfl, rfl⟩ := busAt_single hb hbus
  simp only at he
  split at he
  · rename_i hdata
    have hbmc : mode = .bmc := by
      cases hm : mode with
      | bmc => rfl
      | host => exact absurd hdata (hd hm)
    subst hbmc
    obtain ⟨⟨c1, e1⟩, h1, he⟩ := Res.bind_eq_ok.mp he
    simp only [Except.ok.injEq, Prod.mk.injEq] at he
    obtain ⟨rfl, -⟩ := he
    unfold Core.astInitChannel at h1
    obtain ⟨bus2, hbus2, h1⟩ := Res.bind_eq_ok.mp h1
    obtain ⟨-, rfl⟩ := busAt_single hb hbus2
    obtain ⟨⟨on, b⟩, hic, h1⟩ := Res.bind_eq_ok.mp h1
    obtain ⟨hi1, -, hta, -, hon⟩ := initChannel_inv hj.1 hic
    simp only at h1
    rw [setBinding_single hb] at h1
    obtain ⟨bus', hb', hg⟩ := setTxEnabled_ownedC rfl hi1 (fun h => ⟨hta, by obtain ⟨v, _, _, hs⟩ := hon h; exact hs.one⟩) h1
    exact ⟨bus', hb', (initChannel_owned hj.1.mode hic).trans hg⟩
  · split at he
    · split at he
      · simp only [Except.ok.injEq, Prod.mk.injEq] at he
        obtain ⟨rfl, -⟩ := he; exact hc
      · obtain ⟨⟨c1, e1⟩, h1, he⟩ := Res.bind_eq_ok.mp he
        simp only [Except.ok.injEq, Prod.mk.injEq] at he
        obtain ⟨rfl, -⟩ := he
        exact astRxStart_ownedC hb hbr hj.1 h1
    · split at he
      · rename_i hdata
        split at he
        · simp only [Except.ok.injEq, Prod.mk.injEq] at he
          obtain ⟨rfl, -⟩ := he; exact hc
        · rename_i hrel
          have hrel : bus1.binding.st.tx.state = .released := Decidable.not_not.mp hrel
          obtain ⟨⟨c1, e1⟩, h1, he⟩ := Res.bind_eq_ok.mp he
          simp only [Except.ok.injEq, Prod.mk.injEq] at he
          obtain ⟨rfl, -⟩ := he
          unfold Core.astTxComplete at h1
          obtain ⟨bus2, hbus2, h1⟩ := Res.bind_eq_ok.mp h1
          obtain ⟨-, rfl⟩ := busAt_single hb hbus2
          simp only at h1
          rw [setSt_single hb] at h1
          have hl : LaySafe bus2.binding.st := hj.1.busy (.inr hrel)
          have hl2 : LaySafe { bus2.binding.st with tx := { bus2.binding.st.tx with state := .acquired } } :=
            hl.congr rfl rfl rfl rfl
          obtain ⟨b2, hb2, hg⟩ := setTxEnabled_ownedC (mode := mode) (mtu := mtu) rfl
            (bus := { bus2 with binding := { bus2.binding with st := { bus2.binding.st with tx := { bus2.binding.st.tx with state := .acquired } } } })
            ⟨hj.1.mode, hj.1.mtu, hj.1.proto, .inr hl2, fun _ => hl2, w, htr.congr rfl rfl,
              fun _ => hd2 hdata hrel, by simp, by simp, hph.half, hph.rxp⟩ (fun _ => ⟨rfl, hl2⟩) h1
          exact ⟨b2, hb2, hg.congr rfl rfl⟩
      · split at he
        · split at he
          · obtain ⟨⟨c1, e1, rc1⟩, h1, he⟩ := Res.bind_eq_ok.mp he
            simp only [Except.ok.injEq, Prod.mk.injEq] at he
            obtain ⟨rfl, -⟩ := he
            exact astUpdateChannel_ownedC hb hj h1
          · simp only [Except.ok.injEq, Prod.mk.injEq] at he
            obtain ⟨rfl, -⟩ := he; exact hc
        · simp only [Except.ok.injEq, Prod.mk.injEq] at he
          obtain ⟨rfl, -⟩ := he; exact hc

/-- A step that writes only what is the side's own, unless it is a host that reads the command 0. -/
def KeepsOwn (mode : AstMode) (bus : Bus (AstSt E)) (c' : Core (AstSt E)) : Prop :=
  ∃ bus' l, c'.busses = [bus'] ∧ Adds bus.binding.st bus'.binding.st l ∧
    ((mode = .host → Access.kcsRead .data 0 0 ∉ l) → ∀ a ∈ l, Proper mode a)

theorem astAfter_ownedC {hw : Hw E} {mode : AstMode} {mtu : Nat} {c c' : Core (AstSt E)} {i : Nat}
    {bus : Bus (AstSt E)} {e : List Event} {status d : Byte} {rc rc' : Int} {md : AstMode} (hb : c.busses = [bus])
    (hj : AstJ mode mtu bus) (he : c.astAfter hw i md status d rc = .ok (c', e, rc')) : OwnedC mode bus c' := by
  unfold Core.astAfter at he
  split at he
  · exact astUpdateChannel_ownedC hb hj he
  · simp only [Except.ok.injEq, Prod.mk.injEq] at he
    obtain ⟨rfl, -⟩ := he
    exact ⟨bus, hb, Owned.refl _ _⟩

theorem astPoll_own {hw : Hw E} {mode : AstMode} {mtu : Nat} {c c' : Core (AstSt E)} {bus : Bus (AstSt E)} {e : List Event}
    {rc : Int} (hb : c.busses = [bus]) (hbr : c.bridge = false)
    (hj : AstJ mode mtu bus) (he : c.astPoll hw 0 = .ok (c', e, rc)) : KeepsOwn mode bus c' := by
  obtain ⟨l1, l2, har, h1, h2, -⟩ := astRetry_adds hw bus.binding.st
  have hl : ∀ a ∈ l1 ++ l2, Proper mode a := by
    intro a ha
    rcases List.mem_append.mp ha with ha | ha
    · rcases h1 with ⟨-, rc, hs, -⟩ | ⟨-, rfl, -⟩
      · exact hs.owned (by simp) a ha
      · simp at ha
    · rcases h2 with ⟨-, rc, hs, -⟩ | ⟨-, rfl, -⟩
      · exact hs.owned (by simp) a ha
      · simp at ha
  obtain ⟨-, hcase⟩ := astPoll_view hb hj he
  rcases hcase with ⟨r, w, s, hs, ha, hj1, hcond, hrc, rfl, rfl⟩ | ⟨w, r, d', s, hs, ha, hj1, hrd, hcase⟩
  · refine ⟨_, _, rfl, har.trans ha, fun _ a hm => ?_⟩
    rcases List.mem_append.mp hm with hm | hm
    · exact hl a hm
    · simp only [List.mem_singleton] at hm; subst hm; exact ⟨trivial, trivial⟩
  · have hl3 : ∀ a ∈ l1 ++ l2 ++ [.kcsRead .status 0 w, .kcsRead .data r d'], Proper mode a := by
      intro a hm
      rcases List.mem_append.mp hm with hm | hm
      · exact hl a hm
      · simp only [List.mem_cons, List.not_mem_nil, or_false] at hm
        rcases hm with rfl | rfl <;> exact ⟨trivial, trivial⟩
    rcases hcase with ⟨hcond, hrc, rfl, rfl⟩ | ⟨rfl, -, hw1, c1, e1, rc1, stop, hcmd, hfin⟩
    · exact ⟨_, _, rfl, har.trans ha, fun _ => hl3⟩
    · obtain ⟨b1, m1, t1, hc1, hj2⟩ := astCommand_frame rfl (by exact hbr) hj1 hw1 hcmd
      obtain ⟨b1', hb1', lg, hlg, -⟩ := astCommand_growC rfl (by exact hbr) hj1 hw1 hcmd
      have hb1 : c1.busses = [b1] := by rw [hc1]
      have : b1' = b1 := by rw [hb1] at hb1'; simpa using hb1'.symm
      subst this
      have hcom : ∀ (_ : mode = .host → d' ≠ 0), ∀ a ∈ lg, Proper mode a := by
        intro hd
        obtain ⟨b2, hb2, l2, hl2, ho⟩ := astCommand_ownedC rfl (by exact hbr) hj1 hw1 hd hcmd
        have : b2 = b1' := by rw [hb1] at hb2; simpa using hb2.symm
        subst this
        have := hlg.inj hl2
        subst this
        exact ho
      have hdd : ∀ rest, (mode = .host → Access.kcsRead .data 0 0 ∉
          l1 ++ l2 ++ [.kcsRead .status 0 w, .kcsRead .data 0 d'] ++ lg ++ rest) → mode = .host → d' ≠ 0 := by
        intro rest hno hm h
        exact hno hm (by rw [h]; simp)
      rcases hfin with ⟨-, rfl, -⟩ | ⟨-, e2, haf, -⟩
      · refine ⟨b1', _, hb1, (har.trans ha).trans hlg, fun hno a hm => ?_⟩
        rcases List.mem_append.mp hm with hm | hm
        · exact hl3 a hm
        · exact hcom (hdd [] (by simpa using hno)) a hm
      · obtain ⟨b2, hb2, l3, hl4, ho⟩ := astAfter_ownedC hb1 hj2 haf
        refine ⟨b2, _, hb2, ((har.trans ha).trans hlg).trans hl4, fun hno a hm => ?_⟩
        rcases List.mem_append.mp hm with hm | hm
        · rcases List.mem_append.mp hm with hm | hm
          · exact hl3 a hm
          · exact hcom (hdd _ hno) a hm
        · exact ho a hm

theorem astStep_own {hw : Hw E} {mode : AstMode} {mtu : Nat} {c c' : Core (AstSt E)} {bus : Bus (AstSt E)} {op : AstOp}
    {e : List Event} {rc : Int} (hb : c.busses = [bus]) (hbr : c.bridge = false)
    (hj : AstJ mode mtu bus) (he : c.astStep hw op = .ok (c', e, rc)) : KeepsOwn mode bus c' := by
  unfold Core.astStep at he
  split at he
  · rename_i o ho
    have hop : IsApp o := by
      cases op <;> simp only [AstOp.core, Option.some.injEq, reduceCtorEq] at ho <;> subst ho <;> trivial
    obtain ⟨bus', m, hx', hc, mx, hc', ⟨hj', ho'⟩, hev⟩ := step_keeps (txOnly_keeps hw mode mtu bus) hb (os := [])
      ⟨hj, TxOnly.refl _⟩ hop he
    obtain ⟨l, ha, hown⟩ := ho'.owned (mode := mode)
    exact ⟨bus', l, by rw [hc'], ha, fun _ => hown⟩
  · exact astPoll_own hb hbr hj he

theorem astRun_own {hw : Hw E} {mode : AstMode} {mtu : Nat} {hist : List AstOp} :
    ∀ {c c' : Core (AstSt E)} {bus : Bus (AstSt E)} {log : List AstRec}, c.busses = [bus] → c.bridge = false →
      AstJ mode mtu bus → c.astRun hw hist = .ok (c', log) → KeepsOwn mode bus c' := by
  induction hist with
  | nil =>
    intro c c' bus log hb hbr hj he
    simp only [Core.astRun, Except.ok.injEq, Prod.mk.injEq] at he
    obtain ⟨rfl, rfl⟩ := he
    exact ⟨bus, [], hb, Adds.refl _, fun _ => by simp⟩
  | cons op rest ih =>
    intro c c' bus log hb hbr hj he
    simp only [Core.astRun] at he
    obtain ⟨⟨c1, e1, rc1⟩, h1, he⟩ := Res.bind_eq_ok.mp he
    obtain ⟨⟨c2, log2⟩, h2, he⟩ := Res.bind_eq_ok.mp he
    simp only [Except.ok.injEq, Prod.mk.injEq] at he
    obtain ⟨rfl, rfl⟩ := he
    obtain ⟨b1, hb1, hbr1, hj1⟩ := astStep_inv hb hbr hj h1
    obtain ⟨b1', l1, hb1', ha1, hg⟩ := astStep_own hb hbr hj h1
    have : b1 = b1' := by rw [hb1] at hb1'; simpa using hb1'
    subst this
    obtain ⟨b2, l2, hb2, ha2, hg2⟩ := ih hb1 hbr1 hj1 h2
    refine ⟨b2, l1 ++ l2, hb2, ha1.trans ha2, fun hno a hm => ?_⟩
    rcases List.mem_append.mp hm with hm | hm
    · exact hg (fun h ha => hno h (List.mem_append.mpr (.inl ha))) a hm
    · exact hg2 (fun h ha => hno h (List.mem_append.mpr (.inr ha))) a hm

/-- The accesses of the host's registration. -/
theorem AstEndpoint.owned {hw : Hw E} {env : E} {eid : Byte} {mx : Nat} {mtu : Nat} {mem : Mem}
    {c0 : Core (AstSt E)} (h : AstEndpoint hw env eid mx .host mtu mem c0) {bus : Bus (AstSt E)} (hb : c0.busses = [bus]) :
    ∀ a ∈ bus.binding.st.accs, Proper .host a := by
  obtain ⟨rc, s, hrc, hs, hb', -⟩ := h.start
  rw [hb] at hb'
  simp only [List.cons.injEq, and_true] at hb'
  subst hb'
  obtain ⟨l, ha, ho⟩ := astStart_owned (by rfl) hs
  have : s.accs = l := by
    unfold Adds at ha
    rw [ha]
    rfl
  intro a hm
  exact ho a (by rw [← this]; exact hm)

end Mctp
