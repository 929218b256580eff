import Verif.Proofs.AstView

/-!
# A poll reads the data register at most once
-/

namespace Mctp

open Spec

variable {E : Type}

/-- Not a read of the data register. -/
def Plain : Access → Prop
  | .kcsRead .data _ _ => False
  | _ => True

/-- The trace was continued without reading the data register. -/
def Grow (s s' : AstSt E) : Prop := ∃ l, Adds s s' l ∧ ∀ a ∈ l, Plain a

theorem Grow.refl (s : AstSt E) : Grow s s := ⟨[], Adds.refl s, by simp⟩
theorem Grow.trans {a b c : AstSt E} (h : Grow a b) (h' : Grow b c) : Grow a c := by
  obtain ⟨l, h1, h2⟩ := h
  obtain ⟨l', h1', h2'⟩ := h'
  refine ⟨l ++ l', h1.trans h1', ?_⟩
  intro a ha
  rcases List.mem_append.mp ha with ha | ha
  · exact h2 a ha
  · exact h2' a ha
theorem Grow.congr {a b a' b' : AstSt E} (h : Grow a b) (ha : a'.log = a.log) (hb : b'.log = b.log) : Grow a' b' := by
  obtain ⟨l, h1, h2⟩ := h
  exact ⟨l, h1.congr ha hb, h2⟩
theorem Grow.one {s s' : AstSt E} {a : Access} (h : Adds s s' [a]) (hp : Plain a) : Grow s s' :=
  ⟨_, h, by simpa using hp⟩

/-- Not a read of the data register, not a transmit-begin, not a write to the status register, and not a write to a
packet buffer. -/
def Mild : Access → Prop
  | .kcsRead .data _ _ => False
  | .kcsWrite .status _ _ => False
  | .kcsWrite .data v _ => v ≠ 1
  | .lpcWrite off bs _ => off + bs.length ≤ 32
  | _ => True

theorem Mild.plain {a : Access} (h : Mild a) : Plain a := by
  unfold Mild at h
  unfold Plain
  split <;> simp_all

/-- The trace was continued without reading the data register, without a transmit-begin, without writing to the
status register and without writing to a packet buffer. -/
def Still (s s' : AstSt E) : Prop := ∃ l, Adds s s' l ∧ ∀ a ∈ l, Mild a

theorem Still.grow {s s' : AstSt E} (h : Still s s') : Grow s s' := by
  obtain ⟨l, h1, h2⟩ := h
  exact ⟨l, h1, fun a ha => (h2 a ha).plain⟩
theorem Still.refl (s : AstSt E) : Still s s := ⟨[], Adds.refl s, by simp⟩
theorem Still.trans {a b c : AstSt E} (h : Still a b) (h' : Still b c) : Still a c := by
  obtain ⟨l, h1, h2⟩ := h
  obtain ⟨l', h1', h2'⟩ := h'
  refine ⟨l ++ l', h1.trans h1', ?_⟩
  intro a ha
  rcases List.mem_append.mp ha with ha | ha
  · exact h2 a ha
  · exact h2' a ha
theorem Still.congr {a b a' b' : AstSt E} (h : Still a b) (ha : a'.log = a.log) (hb : b'.log = b.log) : Still a' b' := by
  obtain ⟨l, h1, h2⟩ := h
  exact ⟨l, h1.congr ha hb, h2⟩
theorem Still.one {s s' : AstSt E} {a : Access} (h : Adds s s' [a]) (hp : Mild a) : Still s s' :=
  ⟨_, h, by simpa using hp⟩

theorem Sends.plain {mode : AstMode} {cmd : Byte} {rc : Int} {l : List Access} (h : Sends mode cmd rc l) : ∀ a ∈ l, Plain a := by
  cases h <;> simp [Plain]

theorem lpcRead_still {hw : Hw E} {s s' : AstSt E} {off len : Nat} {rc : Int} {bs : List Byte}
    (he : lpcRead hw s off len = .ok (rc, bs, s')) : Still s s' := .one (lpcRead_adds he) trivial
theorem lpcWrite_still {hw : Hw E} {s s' : AstSt E} {off : Nat} {rc : Int} {bs : List Byte}
    (hle : off + bs.length ≤ 32) (he : lpcWrite hw s off bs = .ok (rc, s')) : Still s s' := .one (lpcWrite_adds he) hle
theorem kcsStatus_still (hw : Hw E) (s : AstSt E) : Still s (kcsRead hw s .status).2.2 := .one (kcsRead_adds hw s .status) trivial
theorem kcsWrite_still (hw : Hw E) (s : AstSt E) (v : Byte) (hv : v ≠ 1) : Still s (kcsWrite hw s .data v).2 :=
  .one (kcsWrite_adds hw s .data v) hv

theorem Sends.mild {mode : AstMode} {cmd : Byte} {rc : Int} {l : List Access} (hc : cmd ≠ 1) (h : Sends mode cmd rc l) : ∀ a ∈ l, Mild a := by
  cases h <;> simp [Mild] <;> exact hc

theorem kcsSend_still {hw : Hw E} {s s' : AstSt E} {cmd : Byte} {rc : Int} (hc : cmd ≠ 1) (he : kcsSend hw s cmd = (rc, s')) : Still s s' := by
  obtain ⟨-, l, ha, hs⟩ := kcsSend_adds he
  exact ⟨l, ha, hs.mild hc⟩

theorem layoutRead_still {hw : Hw E} {s s' : AstSt E} {rc : Int} {l : AstLayout}
    (he : layoutRead hw s = .ok (rc, l, s')) : Still s s' := by
  unfold layoutRead at he
  obtain ⟨⟨r, hdr, s1⟩, hr, he⟩ := Res.bind_eq_ok.mp he
  simp only at he
  split at he <;> simp only [Except.ok.injEq, Prod.mk.injEq] at he <;> obtain ⟨rfl, rfl, rfl⟩ := he <;>
    exact lpcRead_still hr

theorem layoutWrite_still {hw : Hw E} {s s' : AstSt E} {rc : Int} {l : AstLayout}
    (he : layoutWrite hw s l = .ok (rc, s')) : Still s s' := by
  unfold layoutWrite at he
  split at he <;> exact lpcWrite_still (by simp [be32, offLayout, offRxSize]) he

theorem negotiateLayoutHost_still {hw : Hw E} {s s' : AstSt E} {rc : Int}
    (he : negotiateLayoutHost hw s = .ok (rc, s')) : Still s s' := by
  unfold negotiateLayoutHost at he
  obtain ⟨⟨r, l, s1⟩, hr, he⟩ := Res.bind_eq_ok.mp he
  have h1 := layoutRead_still hr
  simp only at he
  split at he
  · simp only [Except.ok.injEq, Prod.mk.injEq] at he
    obtain ⟨rfl, rfl⟩ := he; exact h1
  · obtain ⟨valid, hv, he⟩ := Res.bind_eq_ok.mp he
    split at he
    · simp only [Except.ok.injEq, Prod.mk.injEq] at he
      obtain ⟨rfl, rfl⟩ := he; exact h1
    · obtain ⟨sz, hsz, he⟩ := Res.bind_eq_ok.mp he
      obtain ⟨valid2, hv2, he⟩ := Res.bind_eq_ok.mp he
      split at he
      · simp only [Except.ok.injEq, Prod.mk.injEq] at he
        obtain ⟨rfl, rfl⟩ := he; exact h1
      · exact h1.trans (layoutWrite_still he)

theorem initHost_still {hw : Hw E} {s s' : AstSt E} {rc : Int} (he : initHost hw s = .ok (rc, s')) : Still s s' := by
  unfold initHost at he
  have h1 := kcsStatus_still hw s
  simp only at he
  generalize hr1 : kcsRead hw s .status = r at h1 he
  obtain ⟨rc1, st, s1⟩ := r
  simp only at h1 he
  split at he
  · simp only [Except.ok.injEq, Prod.mk.injEq] at he
    obtain ⟨rfl, rfl⟩ := he; exact h1
  · split at he
    · simp only [Except.ok.injEq, Prod.mk.injEq] at he
      obtain ⟨rfl, rfl⟩ := he; exact h1.congr rfl rfl
    · obtain ⟨⟨r2, hdr, s2⟩, hr2, he⟩ := Res.bind_eq_ok.mp he
      have h2 : Still s s2 := h1.trans ((lpcRead_still hr2).congr rfl rfl)
      simp only at he
      generalize negotiateVersion _ _ _ _ = n at he
      split at he
      · simp only [Except.ok.injEq, Prod.mk.injEq] at he
        obtain ⟨rfl, rfl⟩ := he; exact h2
      · split at he
        · cases he
        · obtain ⟨⟨r3, s3⟩, hr3, he⟩ := Res.bind_eq_ok.mp he
          have h3 : Still s s3 := by
            split at hr3
            · exact h2.trans ((negotiateLayoutHost_still hr3).congr rfl rfl)
            · simp only [Except.ok.injEq, Prod.mk.injEq] at hr3
              obtain ⟨-, rfl⟩ := hr3; exact h2.congr rfl rfl
          simp only at he
          split at he
          · simp only [Except.ok.injEq, Prod.mk.injEq] at he
            obtain ⟨rfl, rfl⟩ := he; exact h3
          · obtain ⟨⟨r4, s4⟩, hr4, he⟩ := Res.bind_eq_ok.mp he
            obtain ⟨⟨r5, s5⟩, hr5, he⟩ := Res.bind_eq_ok.mp he
            simp only [Except.ok.injEq, Prod.mk.injEq] at he
            obtain ⟨-, rfl⟩ := he
            exact ((h3.trans (lpcWrite_still (by decide) hr4)).trans (lpcWrite_still (by decide) hr5)).trans ((kcsWrite_still hw s5 cmdInitialise (by decide)).congr rfl rfl)

theorem astStart_still {hw : Hw E} {s s' : AstSt E} {rc : Int} (hm : s.mode = .host) (he : astStart hw s = .ok (rc, s')) :
    Still s s' := by
  unfold astStart at he
  rw [hm] at he
  exact initHost_still he

theorem finaliseChannel_still {hw : Hw E} {b b' : Binding (AstSt E)} {rc : Int}
    (he : finaliseChannel hw b = .ok (rc, b')) : Still b.st b'.st := by
  unfold finaliseChannel at he
  obtain ⟨⟨r1, ver, s1⟩, hr1, he⟩ := Res.bind_eq_ok.mp he
  have h1 := lpcRead_still hr1
  simp only at he
  split at he
  · simp only [Except.ok.injEq, Prod.mk.injEq] at he
    obtain ⟨rfl, rfl⟩ := he; exact h1
  · split at he
    · simp only [Except.ok.injEq, Prod.mk.injEq] at he
      obtain ⟨rfl, rfl⟩ := he; exact h1
    · obtain ⟨⟨r2, l, s2⟩, hr2, he⟩ := Res.bind_eq_ok.mp he
      have h2 : Still b.st s2 := h1.trans ((layoutRead_still hr2).congr rfl rfl)
      simp only at he
      split at he
      · simp only [Except.ok.injEq, Prod.mk.injEq] at he
        obtain ⟨rfl, rfl⟩ := he; exact h2
      · obtain ⟨valid, hv, he⟩ := Res.bind_eq_ok.mp he
        split at he
        · simp only [Except.ok.injEq, Prod.mk.injEq] at he
          obtain ⟨rfl, rfl⟩ := he; exact h2
        · obtain ⟨most, hmost, he⟩ := Res.bind_eq_ok.mp he
          simp only [Except.ok.injEq, Prod.mk.injEq] at he
          obtain ⟨rfl, rfl⟩ := he; exact h2.congr rfl rfl

theorem layoutRead_same {hw : Hw E} {s s' : AstSt E} {rc : Int} {l : AstLayout}
    (he : layoutRead hw s = .ok (rc, l, s')) : SameSt s s' := by
  unfold layoutRead at he
  obtain ⟨⟨r, hdr, s1⟩, hr, he⟩ := Res.bind_eq_ok.mp he
  simp only at he
  split at he <;> simp only [Except.ok.injEq, Prod.mk.injEq] at he <;> obtain ⟨rfl, rfl, rfl⟩ := he <;>
    exact (lpcRead_ok hr).1

theorem layoutWrite_same {hw : Hw E} {s s' : AstSt E} {rc : Int} {l : AstLayout}
    (he : layoutWrite hw s l = .ok (rc, s')) : SameSt s s' := by
  unfold layoutWrite at he
  split at he <;> exact (lpcWrite_ok he).1

theorem negotiateLayoutBmc_still {hw : Hw E} {b b' : Binding (AstSt E)} {rc : Int}
    (he : negotiateLayoutBmc hw b = .ok (rc, b')) : Still b.st b'.st ∧ b'.st.proto = b.st.proto := by
  unfold negotiateLayoutBmc at he
  obtain ⟨version, hversion, he⟩ := Res.bind_eq_ok.mp he
  split at he
  · simp only [Except.ok.injEq, Prod.mk.injEq] at he
    obtain ⟨rfl, rfl⟩ := he; exact ⟨.refl _, rfl⟩
  · obtain ⟨⟨r1, l, s1⟩, hr1, he⟩ := Res.bind_eq_ok.mp he
    have h1 := layoutRead_still hr1
    have p1 : s1.proto = b.st.proto := (layoutRead_same hr1).proto
    simp only at he
    split at he
    · simp only [Except.ok.injEq, Prod.mk.injEq] at he
      obtain ⟨rfl, rfl⟩ := he; exact ⟨h1, p1⟩
    · obtain ⟨valid, hv, he⟩ := Res.bind_eq_ok.mp he
      split at he
      · simp only [Except.ok.injEq, Prod.mk.injEq] at he
        obtain ⟨rfl, rfl⟩ := he; exact ⟨h1, p1⟩
      · obtain ⟨m, hmm, he⟩ := Res.bind_eq_ok.mp he
        obtain ⟨sz, hsz, he⟩ := Res.bind_eq_ok.mp he
        obtain ⟨valid2, hv2, he⟩ := Res.bind_eq_ok.mp he
        split at he
        · obtain ⟨⟨r2, s2⟩, hr2, he⟩ := Res.bind_eq_ok.mp he
          have h2 : Still b.st s2 := h1.trans ((layoutWrite_still hr2).congr rfl rfl)
          have p2 : s2.proto = b.st.proto := (layoutWrite_same hr2).proto.trans p1
          simp only at he
          split at he
          · simp only [Except.ok.injEq, Prod.mk.injEq] at he
            obtain ⟨rfl, rfl⟩ := he; exact ⟨h2, p2⟩
          · split at he <;> simp only [Except.ok.injEq, Prod.mk.injEq] at he <;> obtain ⟨rfl, rfl⟩ := he <;> exact ⟨h2, p2⟩
        · simp only [Except.ok.injEq, Prod.mk.injEq] at he
          obtain ⟨rfl, rfl⟩ := he; exact ⟨h1, p1⟩

/-- What the BMC publishes at the end of channel initialisation. -/
theorem initChannel_view {hw : Hw E} {b b' : Binding (AstSt E)} {on : Bool}
    (he : initChannel hw b = .ok (on, b')) :
    ∃ r1 hdr mid r2 n fin l, b'.st.accs = b.st.accs ++ [.lpcRead 0 hdr r1] ++ mid ++ [.lpcWrite 12 (be16 n) r2] ++ l ∧
      (∀ a ∈ mid, Mild a) ∧ SetsStatus fin l ∧
      n = (if on then negotiateVersion 1 3 (field16 hdr 8) (field16 hdr 10) else 0) ∧
      (on = true → n ≠ 0 ∧ b'.st.proto = some n) ∧ fin = (if on then 0xc1 else 0x81) ∧
      b'.st.tx.state = .acquired ∧ b'.st.rx.state = .released := by
  unfold initChannel at he
  obtain ⟨⟨r1, hdr, s1⟩, hr1, he⟩ := Res.bind_eq_ok.mp he
  have a1 := lpcRead_adds hr1
  simp only at he
  generalize hn : negotiateVersion astVerMin astVerCur (field16 hdr offHostMin) (field16 hdr offHostCur) = n at he
  split at he
  · cases he
  · rename_i hn4
    obtain ⟨⟨rc, b2⟩, hr2, he⟩ := Res.bind_eq_ok.mp he
    obtain ⟨⟨mid, a2, hmid⟩, hprot⟩ := negotiateLayoutBmc_still hr2
    have hprot : b2.st.proto = some n := hprot
    have a2 : Adds s1 b2.st mid := a2.congr rfl rfl
    obtain ⟨⟨r3, s3⟩, hr3, he⟩ := Res.bind_eq_ok.mp he
    have a3 := lpcWrite_adds hr3
    simp only at he
    generalize hst : (if (if rc < 0 then 0 else n) > 0 then kcsBmcReady ||| kcsObf ||| kcsChannelActive else kcsBmcReady ||| kcsObf) = st at he
    generalize hk : kcsSetStatus hw { s3 with tx := { s3.tx with state := .acquired }, rx := { s3.rx with state := .released } } st = r at he
    obtain ⟨r4, s4⟩ := r
    obtain ⟨hs4, -, l, a4, hset⟩ := kcsSetStatus_adds hk
    have a4 : Adds s3 s4 l := a4.congr rfl rfl
    simp only [Except.ok.injEq, Prod.mk.injEq] at he
    obtain ⟨rfl, rfl⟩ := he
    have a := ((a1.trans a2).trans a3).trans a4
    refine ⟨r1, hdr, mid, r3, if rc < 0 then 0 else n, st, l, ?_, hmid, hset, ?_, ?_, ?_, ?_, ?_⟩
    · unfold Adds at a; rw [a]; simp [offNegotiated]
    · subst hst
      by_cases hp : (if rc < 0 then 0 else n) > 0
      · have hrc : ¬ rc < 0 := by intro h; rw [if_pos h] at hp; omega
        have hd : decide ((kcsBmcReady ||| kcsObf ||| kcsChannelActive) &&& kcsChannelActive ≠ 0) = true := by decide
        rw [if_pos hp, hd, if_neg hrc, if_pos rfl]
        exact hn.symm
      · have hd : decide ((kcsBmcReady ||| kcsObf) &&& kcsChannelActive ≠ 0) = false := by decide
        rw [if_neg hp, hd, if_neg Bool.false_ne_true]; omega
    · intro hon
      by_cases hp : (if rc < 0 then 0 else n) > 0
      · refine ⟨by omega, ?_⟩
        rw [if_neg (by intro h; rw [if_pos h] at hp; omega)]
        exact (hs4.proto.trans (lpcWrite_ok hr3).1.proto).trans hprot
      · rw [if_neg hp] at hst; subst hst; exact absurd hon (by decide)
    · subst hst; by_cases hp : (if rc < 0 then 0 else n) > 0
      · rw [if_pos hp]; decide
      · rw [if_neg hp]; decide
    · rw [hs4.tx]
    · rw [hs4.rx]

/-- Not a read of the data register, and not a write to a packet buffer. -/
def Tame : Access → Prop
  | .kcsRead .data _ _ => False
  | .lpcWrite off bs _ => off + bs.length ≤ 32
  | _ => True

theorem Mild.tame {a : Access} (h : Mild a) : Tame a := by
  unfold Mild at h
  unfold Tame
  split <;> simp_all

theorem initChannel_tame {hw : Hw E} {b b' : Binding (AstSt E)} {on : Bool}
    (he : initChannel hw b = .ok (on, b')) : ∃ l, Adds b.st b'.st l ∧ ∀ a ∈ l, Tame a := by
  obtain ⟨r1, hdr, mid, r2, n, fin, l, ha, hm, hs, -⟩ := initChannel_view he
  refine ⟨[.lpcRead 0 hdr r1] ++ mid ++ [.lpcWrite 12 (be16 n) r2] ++ l, by unfold Adds; rw [ha]; simp, ?_⟩
  intro a h
  simp only [List.append_assoc, List.mem_append, List.mem_singleton] at h
  rcases h with rfl | h | rfl | h
  · trivial
  · exact (hm a h).tame
  · show 12 + 2 ≤ 32; decide
  · cases hs <;> simp at h
    · subst h; trivial
    · rcases h with rfl | rfl <;> trivial

theorem initChannel_grow {hw : Hw E} {b b' : Binding (AstSt E)} {on : Bool}
    (he : initChannel hw b = .ok (on, b')) : Grow b.st b'.st := by
  obtain ⟨l, ha, hl⟩ := initChannel_tame he
  refine ⟨l, ha, fun a h => ?_⟩
  have := hl a h
  unfold Tame at this
  unfold Plain
  split <;> simp_all

theorem TxOnly.grow {bus bus' : Bus (AstSt E)} (h : TxOnly bus bus') : Grow bus.binding.st bus'.binding.st := by
  obtain ⟨l, ha, hp⟩ := h.adds
  refine ⟨l, ha, fun a hm => ?_⟩
  have := hp a hm
  unfold IsTxAccess at this
  unfold Plain
  split <;> simp_all

/-- The core was left with one bus, whose binding has continued the trace without reading the data
register. -/
def GrowC (bus : Bus (AstSt E)) (c' : Core (AstSt E)) : Prop :=
  ∃ bus', c'.busses = [bus'] ∧ Grow bus.binding.st bus'.binding.st

theorem setTxEnabled_growC {hw : Hw E} {mode : AstMode} {mtu : Nat} {c c' : Core (AstSt E)} {i : Nat} {on : Bool}
    {bus : Bus (AstSt E)} {e : List Event} (hb : c.busses = [bus]) (hi : AstInv mode mtu bus.binding.st)
    (hon : on = true → bus.binding.st.tx.state = .acquired ∧ LaySafe bus.binding.st)
    (he : c.setTxEnabled (astOps hw) i on = .ok (c', e)) : GrowC bus c' := by
  obtain ⟨bus', m, rfl, ho, -⟩ := setTxEnabled_only hb hi hon he
  exact ⟨bus', rfl, ho.grow⟩

theorem astUpdateActive_growC {hw : Hw E} {mode : AstMode} {mtu : Nat} {c c' : Core (AstSt E)} {i : Nat}
    {bus : Bus (AstSt E)} {e : List Event} {status updated : Byte} {rc : Int} (hb : c.busses = [bus])
    (hj : AstJ mode mtu bus) (he : c.astUpdateActive hw i status updated = .ok (c', e, rc)) : GrowC bus c' := by
  unfold Core.astUpdateActive at he
  obtain ⟨bus1, hbus, he⟩ := Res.bind_eq_ok.mp he
  obtain ⟨rfl, rfl⟩ := busAt_single hb hbus
  obtain ⟨version, hver, he⟩ := Res.bind_eq_ok.mp he
  simp only at he
  split at he
  · obtain ⟨⟨rc1, b1⟩, hf, he⟩ := Res.bind_eq_ok.mp he
    have h0 := (finaliseChannel_still hf).grow
    have hi0 := hj.1.states
    obtain ⟨hi1, hk1, hres⟩ := finaliseChannel_inv (b := { bus1.binding with st := { bus1.binding.st with rx := { bus1.binding.st.rx with state := .idle }, tx := { bus1.binding.st.tx with state := .idle } } }) hi0 rfl rfl hf
    obtain ⟨⟨c1, e1⟩, hset, he⟩ := Res.bind_eq_ok.mp he
    rw [setBinding_single hb] at hset
    have hon : decide (status &&& kcsChannelActive ≠ 0 ∧ rc1 = 0) = true → b1.st.tx.state = .acquired ∧ LaySafe b1.st := by
      intro hd
      simp only [decide_eq_true_eq] at hd
      rcases hres with ⟨_, ha, _, v, _, _, hs⟩ | ⟨hneg, _⟩
      · exact ⟨ha, hs.one⟩
      · omega
    obtain ⟨bus', m, rfl, ho, -⟩ := setTxEnabled_only rfl hi1 hon hset
    obtain ⟨bus2, hbus2, he⟩ := Res.bind_eq_ok.mp he
    obtain ⟨-, rfl⟩ := busAt_single rfl hbus2
    simp only [Except.ok.injEq, Prod.mk.injEq] at he
    obtain ⟨rfl, -⟩ := he
    rw [setSt_single rfl]
    exact ⟨_, rfl, ((h0.congr rfl rfl).trans ho.grow).congr rfl rfl⟩
  · simp only [Except.ok.injEq, Prod.mk.injEq] at he
    obtain ⟨rfl, -⟩ := he
    rw [setSt_single hb]
    exact ⟨_, rfl, (Grow.refl _).congr rfl rfl⟩

theorem astUpdateChannel_growC {hw : Hw E} {mode : AstMode} {mtu : Nat} {c c' : Core (AstSt E)} {i : Nat}
    {bus : Bus (AstSt E)} {e : List Event} {status : Byte} {rc : Int} (hb : c.busses = [bus])
    (hj : AstJ mode mtu bus) (he : c.astUpdateChannel hw i status = .ok (c', e, rc)) : GrowC bus c' := by
  unfold Core.astUpdateChannel at he
  obtain ⟨bus1, hbus, he⟩ := Res.bind_eq_ok.mp he
  obtain ⟨rfl, rfl⟩ := busAt_single hb hbus
  simp only at he
  split at he
  · cases he
  · rename_i hhost
    have hhost : bus1.binding.st.mode = .host := Decidable.not_not.mp hhost
    split at he
    · split at he
      · obtain ⟨⟨rc1, s1⟩, hs, he⟩ := Res.bind_eq_ok.mp he
        simp only [Except.ok.injEq, Prod.mk.injEq] at he
        obtain ⟨rfl, -⟩ := he
        rw [setSt_single hb]
        exact ⟨_, rfl, (astStart_still (by exact hhost) hs).grow.congr rfl rfl⟩
      · obtain ⟨⟨c1, e1⟩, hset, he⟩ := Res.bind_eq_ok.mp he
        obtain ⟨⟨c2, e2, rc2⟩, hu, he⟩ := Res.bind_eq_ok.mp he
        simp only [Except.ok.injEq, Prod.mk.injEq] at he
        obtain ⟨rfl, -⟩ := he
        rw [setSt_single hb] at hset
        obtain ⟨bus', m, rfl, ho, hj', -⟩ := setTxEnabled_only rfl hj.1.states (by simp) hset
        obtain ⟨bus2, hb2, hg⟩ := astUpdateActive_growC rfl hj' hu
        exact ⟨bus2, hb2, (ho.grow.congr rfl rfl).trans hg⟩
    · exact astUpdateActive_growC hb hj he

theorem astRxStart_growC {hw : Hw E} {mode : AstMode} {mtu : Nat} {c c' : Core (AstSt E)} {i : Nat}
    {bus : Bus (AstSt E)} {e : List Event} (hb : c.busses = [bus]) (hbr : c.bridge = false) (hi : AstInv mode mtu bus.binding.st)
    (he : c.astRxStart hw i = .ok (c', e)) : GrowC bus c' := by
  obtain ⟨rfl, hl, v, r0, lenBytes, s1, hv, hv0, hv4, hr0, hcases⟩ := astRxStart_cases hb hi he
  have h1 := (lpcRead_still hr0).grow
  have hafter : ∀ s2 : AstSt E, Grow s2 (afterRead hw s2) := by
    intro s2
    unfold afterRead
    generalize hk : kcsSend hw { s2 with rx := { s2.rx with state := .prepared } } cmdRxComplete = r
    obtain ⟨rc, s3⟩ := r
    have hg := (kcsSend_still (by decide) hk).grow.congr (a' := s2) (b' := s3) rfl rfl
    simp only
    split
    · exact hg.congr rfl rfl
    · exact hg
  rcases hcases with ⟨-, rfl, rfl⟩ | ⟨hfit, -, hcases⟩
  · rw [setSt_single hb]; exact ⟨_, rfl, h1⟩
  · rcases hcases with ⟨m, rfl, rfl, -⟩ | ⟨r1, bytes, s2, hr1, hblen, hcases⟩
    · rw [setSt_single (by exact hb)]; exact ⟨_, rfl, h1⟩
    · have h2 := (h1.trans (lpcRead_still hr1).grow).trans (hafter s2)
      rcases hcases with ⟨-, ⟨m, rfl⟩, rfl⟩ | ⟨-, -, m, pkt, hp, hrx⟩
      · rw [setSt_single (by exact hb)]; exact ⟨_, rfl, h2⟩
      · rw [setSt_single (by exact hb)] at hrx
        obtain ⟨m2, t, rfl, ho, -⟩ := busRx_busses rfl (by exact hbr) hp hrx
        exact ⟨_, rfl, h2⟩

theorem astCommand_growC {hw : Hw E} {mode : AstMode} {mtu : Nat} {c c' : Core (AstSt E)} {i : Nat}
    {bus : Bus (AstSt E)} {e : List Event} {status data : Byte} {rc : Int} {stop : Bool} (hb : c.busses = [bus])
    (hbr : c.bridge = false) (hj : AstJ mode mtu bus)
    (hw1 : ∃ w, Traced bus.binding.st w ∧ Phase bus.binding.st w ∧ (data = 1 → w.rx = true) ∧
      (data = 2 → bus.binding.st.tx.state = .released → w.tx = .free))
    (he : c.astCommand hw i status data = .ok (c', e, rc, stop)) : GrowC bus c' := by
  have hc : GrowC bus c := ⟨bus, hb, Grow.refl _⟩
  obtain ⟨w, htr, hph, hd1, hd2⟩ := hw1
  unfold Core.astCommand at he
  obtain ⟨bus1, hbus, he⟩ := Res.bind_eq_ok.mp he
  obtain ⟨rfl, rfl⟩ := busAt_single hb hbus
  simp only at he
  split at he
  · obtain ⟨⟨c1, e1⟩, h1, he⟩ := Res.bind_eq_ok.mp he
    simp only [Except.ok.injEq, Prod.mk.injEq] at he
    obtain ⟨rfl, -⟩ := he
    unfold Core.astInitChannel at h1
    obtain ⟨bus2, hbus2, h1⟩ := Res.bind_eq_ok.mp h1
    obtain ⟨-, rfl⟩ := busAt_single hb hbus2
    obtain ⟨⟨on, b⟩, hic, h1⟩ := Res.bind_eq_ok.mp h1
    obtain ⟨hi1, -, hta, -, hon⟩ := initChannel_inv hj.1 hic
    simp only at h1
    rw [setBinding_single hb] at h1
    obtain ⟨bus', hb', hg⟩ := setTxEnabled_growC rfl hi1 (fun h => ⟨hta, by obtain ⟨v, _, _, hs⟩ := hon h; exact hs.one⟩) h1
    exact ⟨bus', hb', (initChannel_grow hic).trans hg⟩
  · split at he
    · split at he
      · simp only [Except.ok.injEq, Prod.mk.injEq] at he
        obtain ⟨rfl, -⟩ := he; exact hc
      · obtain ⟨⟨c1, e1⟩, h1, he⟩ := Res.bind_eq_ok.mp he
        simp only [Except.ok.injEq, Prod.mk.injEq] at he
        obtain ⟨rfl, -⟩ := he
        exact astRxStart_growC hb hbr hj.1 h1
    · split at he
      · rename_i hdata
        split at he
        · simp only [Except.ok.injEq, Prod.mk.injEq] at he
          obtain ⟨rfl, -⟩ := he; exact hc
        · rename_i hrel
          have hrel : bus1.binding.st.tx.state = .released := Decidable.not_not.mp hrel
          obtain ⟨⟨c1, e1⟩, h1, he⟩ := Res.bind_eq_ok.mp he
          simp only [Except.ok.injEq, Prod.mk.injEq] at he
          obtain ⟨rfl, -⟩ := he
          unfold Core.astTxComplete at h1
          obtain ⟨bus2, hbus2, h1⟩ := Res.bind_eq_ok.mp h1
          obtain ⟨-, rfl⟩ := busAt_single hb hbus2
          simp only at h1
          rw [setSt_single hb] at h1
          have hl : LaySafe bus2.binding.st := hj.1.busy (.inr hrel)
          have hl2 : LaySafe { bus2.binding.st with tx := { bus2.binding.st.tx with state := .acquired } } :=
            hl.congr rfl rfl rfl rfl
          obtain ⟨b2, hb2, hg⟩ := setTxEnabled_growC (mode := mode) (mtu := mtu) rfl
            (bus := { bus2 with binding := { bus2.binding with st := { bus2.binding.st with tx := { bus2.binding.st.tx with state := .acquired } } } })
            ⟨hj.1.mode, hj.1.mtu, hj.1.proto, .inr hl2, fun _ => hl2, w, htr.congr rfl rfl,
              fun _ => hd2 hdata hrel, by simp, by simp, hph.half, hph.rxp⟩ (fun _ => ⟨rfl, hl2⟩) h1
          exact ⟨b2, hb2, hg.congr rfl rfl⟩
      · split at he
        · split at he
          · obtain ⟨⟨c1, e1, rc1⟩, h1, he⟩ := Res.bind_eq_ok.mp he
            simp only [Except.ok.injEq, Prod.mk.injEq] at he
            obtain ⟨rfl, -⟩ := he
            exact astUpdateChannel_growC hb hj h1
          · simp only [Except.ok.injEq, Prod.mk.injEq] at he
            obtain ⟨rfl, -⟩ := he; exact hc
        · simp only [Except.ok.injEq, Prod.mk.injEq] at he
          obtain ⟨rfl, -⟩ := he; exact hc

end Mctp
