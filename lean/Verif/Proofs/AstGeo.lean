import Verif.Proofs.AstBegin

/-!
# What never changes: the header and trailer space of the packets of the binding
-/

namespace Mctp

open Spec

variable {E : Type}

/-- The same header and trailer space, and no packet size below four. -/
def Geo (b b' : Binding (AstSt E)) : Prop := b'.pktHeader = b.pktHeader ∧ b'.pktTrailer = b.pktTrailer ∧
  (4 ≤ b.pktSize → 4 ≤ b'.pktSize)

theorem Geo.refl (b : Binding (AstSt E)) : Geo b b := ⟨rfl, rfl, id⟩
theorem Geo.trans {a b c : Binding (AstSt E)} (h : Geo a b) (h' : Geo b c) : Geo a c :=
  ⟨h'.1.trans h.1, h'.2.1.trans h.2.1, h'.2.2 ∘ h.2.2⟩

theorem TxOnly.geo {bus bus' : Bus (AstSt E)} (h : TxOnly bus bus') : Geo bus.binding bus'.binding := by
  refine ⟨?_, ?_, ?_⟩ <;> rw [h.bind]
  exact id

/-- The only bus of `c'` has the geometry of `bus`. -/
def GeoC (bus : Bus (AstSt E)) (c' : Core (AstSt E)) : Prop := ∃ bus', c'.busses = [bus'] ∧ Geo bus.binding bus'.binding

theorem layoutRead_lt {hw : Hw E} {s s' : AstSt E} {rc : Int} {l : AstLayout}
    (he : layoutRead hw s = .ok (rc, l, s')) :
    l.rx.offset < 2 ^ 32 ∧ l.rx.size < 2 ^ 32 ∧ l.tx.offset < 2 ^ 32 ∧ l.tx.size < 2 ^ 32 := by
  unfold layoutRead at he
  obtain ⟨⟨r, hdr, s1⟩, hr, he⟩ := Res.bind_eq_ok.mp he
  simp only at he
  split at he <;> simp only [Except.ok.injEq, Prod.mk.injEq] at he <;> obtain ⟨-, rfl, -⟩ := he <;>
    exact ⟨field32_lt .., field32_lt .., field32_lt .., field32_lt ..⟩

theorem finaliseChannel_geo {hw : Hw E} {b b' : Binding (AstSt E)} {rc : Int}
    (he : finaliseChannel hw b = .ok (rc, b')) : Geo b b' := by
  unfold finaliseChannel at he
  obtain ⟨⟨rc1, ver, s1⟩, hr, he⟩ := Res.bind_eq_ok.mp he
  simp only at he
  split at he
  · simp only [Except.ok.injEq, Prod.mk.injEq] at he; obtain ⟨-, rfl⟩ := he; exact ⟨rfl, rfl, id⟩
  · split at he
    · simp only [Except.ok.injEq, Prod.mk.injEq] at he; obtain ⟨-, rfl⟩ := he; exact ⟨rfl, rfl, id⟩
    · obtain ⟨⟨rc2, l, s2⟩, hl, he⟩ := Res.bind_eq_ok.mp he
      simp only at he
      split at he
      · simp only [Except.ok.injEq, Prod.mk.injEq] at he; obtain ⟨-, rfl⟩ := he; exact ⟨rfl, rfl, id⟩
      · obtain ⟨valid, hv, he⟩ := Res.bind_eq_ok.mp he
        split at he
        · simp only [Except.ok.injEq, Prod.mk.injEq] at he; obtain ⟨-, rfl⟩ := he; exact ⟨rfl, rfl, id⟩
        · rename_i hval
          obtain ⟨most, hm, he⟩ := Res.bind_eq_ok.mp he
          simp only [Except.ok.injEq, Prod.mk.injEq] at he; obtain ⟨-, rfl⟩ := he
          refine ⟨rfl, rfl, fun h4 => ?_⟩
          have hval : valid = true := by simpa using hval
          subst hval
          obtain ⟨l1, l2, l3, l4⟩ := layoutRead_lt hl
          obtain ⟨v, hv', hv0, hsafe⟩ := layoutValidate_true hv l1 l2 l3 l4
          simp only
          split at hm
          · obtain ⟨v2, hv2, -, -, rfl⟩ := protoBodySize_inv l4 hm
            rw [hv'] at hv2
            simp only [Option.some.injEq] at hv2
            subst hv2
            have := hsafe.2.1.2
            omega
          · simp only [Except.ok.injEq] at hm; omega

theorem negotiateLayoutBmc_geo {hw : Hw E} {b b' : Binding (AstSt E)} {rc : Int}
    (he : negotiateLayoutBmc hw b = .ok (rc, b')) : Geo b b' := by
  unfold negotiateLayoutBmc at he
  obtain ⟨version, hver, he⟩ := Res.bind_eq_ok.mp he
  simp only at he
  split at he
  · simp only [Except.ok.injEq, Prod.mk.injEq] at he; obtain ⟨-, rfl⟩ := he; exact ⟨rfl, rfl, id⟩
  · obtain ⟨⟨rc1, l, s1⟩, hl, he⟩ := Res.bind_eq_ok.mp he
    simp only at he
    split at he
    · simp only [Except.ok.injEq, Prod.mk.injEq] at he; obtain ⟨-, rfl⟩ := he; exact ⟨rfl, rfl, id⟩
    · obtain ⟨valid, hv, he⟩ := Res.bind_eq_ok.mp he
      split at he
      · simp only [Except.ok.injEq, Prod.mk.injEq] at he; obtain ⟨-, rfl⟩ := he; exact ⟨rfl, rfl, id⟩
      · obtain ⟨mtu, hm, he⟩ := Res.bind_eq_ok.mp he
        obtain ⟨sz, hsz, he⟩ := Res.bind_eq_ok.mp he
        obtain ⟨valid2, hv2, he⟩ := Res.bind_eq_ok.mp he
        split at he
        · obtain ⟨⟨rc2, s2⟩, hw2, he⟩ := Res.bind_eq_ok.mp he
          simp only at he
          split at he
          · simp only [Except.ok.injEq, Prod.mk.injEq] at he; obtain ⟨-, rfl⟩ := he; exact ⟨rfl, rfl, id⟩
          · split at he
            · simp only [Except.ok.injEq, Prod.mk.injEq] at he; obtain ⟨-, rfl⟩ := he
              exact ⟨rfl, rfl, fun _ => by simp only [packetSize_eq]; omega⟩
            · simp only [Except.ok.injEq, Prod.mk.injEq] at he; obtain ⟨-, rfl⟩ := he; exact ⟨rfl, rfl, id⟩
        · simp only [Except.ok.injEq, Prod.mk.injEq] at he; obtain ⟨-, rfl⟩ := he; exact ⟨rfl, rfl, id⟩

theorem initChannel_geo {hw : Hw E} {b b' : Binding (AstSt E)} {on : Bool}
    (he : initChannel hw b = .ok (on, b')) : Geo b b' := by
  unfold initChannel at he
  obtain ⟨⟨rc1, hdr, s1⟩, hr, he⟩ := Res.bind_eq_ok.mp he
  simp only at he
  split at he
  · cases he
  · obtain ⟨⟨rc2, b2⟩, hn, he⟩ := Res.bind_eq_ok.mp he
    obtain ⟨⟨rc3, s3⟩, hw3, he⟩ := Res.bind_eq_ok.mp he
    simp only [Except.ok.injEq, Prod.mk.injEq] at he
    obtain ⟨-, rfl⟩ := he
    have hg := negotiateLayoutBmc_geo hn
    exact ⟨hg.1, hg.2.1, hg.2.2⟩

theorem setTxEnabled_geoC {hw : Hw E} {mode : AstMode} {mtu : Nat} {c c' : Core (AstSt E)} {i : Nat} {on : Bool}
    {bus : Bus (AstSt E)} {e : List Event} (hb : c.busses = [bus]) (hi : AstInv mode mtu bus.binding.st)
    (hon : on = true → bus.binding.st.tx.state = .acquired ∧ LaySafe bus.binding.st)
    (he : c.setTxEnabled (astOps hw) i on = .ok (c', e)) : GeoC bus c' := by
  obtain ⟨bus', m, rfl, ho, -⟩ := setTxEnabled_only hb hi hon he
  exact ⟨bus', rfl, ho.geo⟩

theorem astUpdateActive_geoC {hw : Hw E} {mode : AstMode} {mtu : Nat} {c c' : Core (AstSt E)} {i : Nat}
    {bus : Bus (AstSt E)} {e : List Event} {status updated : Byte} {rc : Int} (hb : c.busses = [bus])
    (hj : AstJ mode mtu bus) (he : c.astUpdateActive hw i status updated = .ok (c', e, rc)) : GeoC bus c' := by
  unfold Core.astUpdateActive at he
  obtain ⟨bus1, hbus, he⟩ := Res.bind_eq_ok.mp he
  obtain ⟨rfl, rfl⟩ := busAt_single hb hbus
  obtain ⟨version, hver, he⟩ := Res.bind_eq_ok.mp he
  simp only at he
  split at he
  · obtain ⟨⟨rc1, b1⟩, hf, he⟩ := Res.bind_eq_ok.mp he
    have h0 := finaliseChannel_geo hf
    have hi0 := hj.1.states
    obtain ⟨hi1, hk1, hres⟩ := finaliseChannel_inv (b := { bus1.binding with st := { bus1.binding.st with rx := { bus1.binding.st.rx with state := .idle }, tx := { bus1.binding.st.tx with state := .idle } } }) hi0 rfl rfl hf
    obtain ⟨⟨c1, e1⟩, hset, he⟩ := Res.bind_eq_ok.mp he
    rw [setBinding_single hb] at hset
    have hon : decide (status &&& kcsChannelActive ≠ 0 ∧ rc1 = 0) = true → b1.st.tx.state = .acquired ∧ LaySafe b1.st := by
      intro hd
      simp only [decide_eq_true_eq] at hd
      rcases hres with ⟨_, ha, _, v, _, _, hs⟩ | ⟨hneg, _⟩
      · exact ⟨ha, hs.one⟩
      · omega
    obtain ⟨bus', m, rfl, ho, -⟩ := setTxEnabled_only rfl hi1 hon hset
    obtain ⟨bus2, hbus2, he⟩ := Res.bind_eq_ok.mp he
    obtain ⟨-, rfl⟩ := busAt_single rfl hbus2
    simp only [Except.ok.injEq, Prod.mk.injEq] at he
    obtain ⟨rfl, -⟩ := he
    rw [setSt_single rfl]
    exact ⟨_, rfl, (Geo.trans h0 ho.geo)⟩
  · simp only [Except.ok.injEq, Prod.mk.injEq] at he
    obtain ⟨rfl, -⟩ := he
    rw [setSt_single hb]
    exact ⟨_, rfl, ⟨rfl, rfl, id⟩⟩

theorem astUpdateChannel_geoC {hw : Hw E} {mode : AstMode} {mtu : Nat} {c c' : Core (AstSt E)} {i : Nat}
    {bus : Bus (AstSt E)} {e : List Event} {status : Byte} {rc : Int} (hb : c.busses = [bus])
    (hj : AstJ mode mtu bus) (he : c.astUpdateChannel hw i status = .ok (c', e, rc)) : GeoC bus c' := by
  unfold Core.astUpdateChannel at he
  obtain ⟨bus1, hbus, he⟩ := Res.bind_eq_ok.mp he
  obtain ⟨rfl, rfl⟩ := busAt_single hb hbus
  simp only at he
  split at he
  · cases he
  · split at he
    · split at he
      · obtain ⟨⟨rc1, s1⟩, hs, he⟩ := Res.bind_eq_ok.mp he
        simp only [Except.ok.injEq, Prod.mk.injEq] at he
        obtain ⟨rfl, -⟩ := he
        rw [setSt_single hb]
        exact ⟨_, rfl, ⟨rfl, rfl, id⟩⟩
      · obtain ⟨⟨c1, e1⟩, hset, he⟩ := Res.bind_eq_ok.mp he
        obtain ⟨⟨c2, e2, rc2⟩, hu, he⟩ := Res.bind_eq_ok.mp he
        simp only [Except.ok.injEq, Prod.mk.injEq] at he
        obtain ⟨rfl, -⟩ := he
        rw [setSt_single hb] at hset
        obtain ⟨bus', m, rfl, ho, hj', -⟩ := setTxEnabled_only rfl hj.1.states (by simp) hset
        obtain ⟨bus2, hb2, hg⟩ := astUpdateActive_geoC rfl hj' hu
        exact ⟨bus2, hb2, Geo.trans ho.geo hg⟩
    · exact astUpdateActive_geoC hb hj he

theorem astCommand_geoC {hw : Hw E} {mode : AstMode} {mtu : Nat} {c c' : Core (AstSt E)} {i : Nat}
    {bus : Bus (AstSt E)} {e : List Event} {status data : Byte} {rc : Int} {stop : Bool} (hb : c.busses = [bus])
    (hbr : c.bridge = false) (hj : AstJ mode mtu bus)
    (hw1 : ∃ w, Traced bus.binding.st w ∧ Phase bus.binding.st w ∧ (data = 1 → w.rx = true) ∧
      (data = 2 → bus.binding.st.tx.state = .released → w.tx = .free))
    (he : c.astCommand hw i status data = .ok (c', e, rc, stop)) : GeoC bus c' := by
  have hc : GeoC bus c := ⟨bus, hb, Geo.refl _⟩
  obtain ⟨w, htr, hph, hd1, hd2⟩ := hw1
  unfold Core.astCommand at he
  obtain ⟨bus1, hbus, he⟩ := Res.bind_eq_ok.mp he
  obtain ⟨rfl, rfl⟩ := busAt_single hb hbus
  simp only at he
  split at he
  · obtain ⟨⟨c1, e1⟩, h1, he⟩ := Res.bind_eq_ok.mp he
    simp only [Except.ok.injEq, Prod.mk.injEq] at he
    obtain ⟨rfl, -⟩ := he
    unfold Core.astInitChannel at h1
    obtain ⟨bus2, hbus2, h1⟩ := Res.bind_eq_ok.mp h1
    obtain ⟨-, rfl⟩ := busAt_single hb hbus2
    obtain ⟨⟨on, b⟩, hic, h1⟩ := Res.bind_eq_ok.mp h1
    obtain ⟨hi1, -, hta, -, hon⟩ := initChannel_inv hj.1 hic
    simp only at h1
    rw [setBinding_single hb] at h1
    obtain ⟨bus', hb', hg⟩ := setTxEnabled_geoC rfl hi1 (fun h => ⟨hta, by obtain ⟨v, _, _, hs⟩ := hon h; exact hs.one⟩) h1
    exact ⟨bus', hb', (initChannel_geo hic).trans hg⟩
  · split at he
    · split at he
      · simp only [Except.ok.injEq, Prod.mk.injEq] at he
        obtain ⟨rfl, -⟩ := he; exact hc
      · obtain ⟨⟨c1, e1⟩, h1, he⟩ := Res.bind_eq_ok.mp he
        simp only [Except.ok.injEq, Prod.mk.injEq] at he
        obtain ⟨rfl, -⟩ := he
        obtain ⟨-, -, v, r0, lb, st', m, t, -, -, -, -, hc', -⟩ := astRxStart_trace hb hbr hj.1 h1
        rw [hc']
        exact ⟨_, rfl, ⟨rfl, rfl, id⟩⟩
    · split at he
      · rename_i hdata
        split at he
        · simp only [Except.ok.injEq, Prod.mk.injEq] at he
          obtain ⟨rfl, -⟩ := he; exact hc
        · rename_i hrel
          have hrel : bus1.binding.st.tx.state = .released := Decidable.not_not.mp hrel
          obtain ⟨⟨c1, e1⟩, h1, he⟩ := Res.bind_eq_ok.mp he
          simp only [Except.ok.injEq, Prod.mk.injEq] at he
          obtain ⟨rfl, -⟩ := he
          unfold Core.astTxComplete at h1
          obtain ⟨bus2, hbus2, h1⟩ := Res.bind_eq_ok.mp h1
          obtain ⟨-, rfl⟩ := busAt_single hb hbus2
          simp only at h1
          rw [setSt_single hb] at h1
          have hl : LaySafe bus2.binding.st := hj.1.busy (.inr hrel)
          have hl2 : LaySafe { bus2.binding.st with tx := { bus2.binding.st.tx with state := .acquired } } :=
            hl.congr rfl rfl rfl rfl
          obtain ⟨b2, hb2, hg⟩ := setTxEnabled_geoC (mode := mode) (mtu := mtu) rfl
            (bus := { bus2 with binding := { bus2.binding with st := { bus2.binding.st with tx := { bus2.binding.st.tx with state := .acquired } } } })
            ⟨hj.1.mode, hj.1.mtu, hj.1.proto, .inr hl2, fun _ => hl2, w, htr.congr rfl rfl,
              fun _ => hd2 hdata hrel, by simp, by simp, hph.half, hph.rxp⟩ (fun _ => ⟨rfl, hl2⟩) h1
          exact ⟨b2, hb2, hg⟩
      · split at he
        · split at he
          · obtain ⟨⟨c1, e1, rc1⟩, h1, he⟩ := Res.bind_eq_ok.mp he
            simp only [Except.ok.injEq, Prod.mk.injEq] at he
            obtain ⟨rfl, -⟩ := he
            exact astUpdateChannel_geoC hb hj h1
          · simp only [Except.ok.injEq, Prod.mk.injEq] at he
            obtain ⟨rfl, -⟩ := he; exact hc
        · simp only [Except.ok.injEq, Prod.mk.injEq] at he
          obtain ⟨rfl, -⟩ := he; exact hc

theorem astPoll_geoC {hw : Hw E} {mode : AstMode} {mtu : Nat} {c c' : Core (AstSt E)}
    {bus : Bus (AstSt E)} {e : List Event} {rc : Int} (hb : c.busses = [bus]) (hbr : c.bridge = false)
    (hj : AstJ mode mtu bus) (he : c.astPoll hw 0 = .ok (c', e, rc)) : GeoC bus c' := by
  obtain ⟨-, hcase⟩ := astPoll_view hb hj he
  rcases hcase with ⟨r, w, s, hs, ha, hj1, hcond, hrc, rfl, rfl⟩ | ⟨w, r, d', s, hs, ha, hj1, hrd, hcase⟩
  · exact ⟨_, rfl, rfl, rfl, id⟩
  · rcases hcase with ⟨hcond, hrc, rfl, rfl⟩ | ⟨rfl, hver, hw1, c1, e1, rc1, stop, hcmd, hfin⟩
    · exact ⟨_, rfl, rfl, rfl, id⟩
    · obtain ⟨bus1, m1, t1, hc1, hj2⟩ := astCommand_frame rfl (by exact hbr) hj1 hw1 hcmd
      obtain ⟨b1, hb1, g1⟩ := astCommand_geoC rfl (by exact hbr) hj1 hw1 hcmd
      rcases hfin with ⟨-, rfl, -⟩ | ⟨-, e2, haf, -⟩
      · exact ⟨b1, hb1, g1⟩
      · have hb1' : c1.busses = [bus1] := by rw [hc1]
        have : b1 = bus1 := by rw [hb1] at hb1'; simpa using hb1'
        subst this
        unfold Core.astAfter at haf
        split at haf
        · obtain ⟨b2, hb2, g2⟩ := astUpdateChannel_geoC hb1 hj2 haf
          exact ⟨b2, hb2, Geo.trans g1 g2⟩
        · simp only [Except.ok.injEq, Prod.mk.injEq] at haf
          obtain ⟨rfl, -⟩ := haf
          exact ⟨b1, hb1, g1⟩

theorem geo_keeps (hw : Hw E) (b : Binding (AstSt E)) : Keeps (astOps hw) (fun _ bus => Geo b bus.binding) :=
  ⟨⟨fun h _ _ _ => h, fun h _ _ => h⟩, fun h _ => h⟩

theorem astStep_geoC {hw : Hw E} {mode : AstMode} {mtu : Nat} {c c' : Core (AstSt E)} {bus : Bus (AstSt E)}
    {op : AstOp} {e : List Event} {rc : Int} (hb : c.busses = [bus]) (hbr : c.bridge = false)
    (hj : AstJ mode mtu bus) (he : c.astStep hw op = .ok (c', e, rc)) : GeoC bus c' := by
  unfold Core.astStep at he
  split at he
  · rename_i o ho
    have hop : IsApp o := by
      cases op <;> simp only [AstOp.core, Option.some.injEq, reduceCtorEq] at ho <;> subst ho <;> trivial
    obtain ⟨bus', m, hx, hc, mx, rfl, hj', -⟩ := step_keeps (geo_keeps hw bus.binding) hb (os := []) (Geo.refl _) hop he
    exact ⟨bus', rfl, hj'⟩
  · exact astPoll_geoC hb hbr hj he

theorem astRun_geoC {hw : Hw E} {mode : AstMode} {mtu : Nat} {hist : List AstOp} :
    ∀ {c c' : Core (AstSt E)} {bus : Bus (AstSt E)} {log : List AstRec}, c.busses = [bus] → c.bridge = false →
      AstJ mode mtu bus → c.astRun hw hist = .ok (c', log) → GeoC bus c' := by
  induction hist with
  | nil =>
    intro c c' bus log hb hbr hj he
    simp only [Core.astRun, Except.ok.injEq, Prod.mk.injEq] at he
    obtain ⟨rfl, -⟩ := he
    exact ⟨bus, hb, Geo.refl _⟩
  | cons op rest ih =>
    intro c c' bus log hb hbr hj he
    simp only [Core.astRun] at he
    obtain ⟨⟨c1, e1, rc1⟩, h1, he⟩ := Res.bind_eq_ok.mp he
    obtain ⟨⟨c2, log2⟩, h2, he⟩ := Res.bind_eq_ok.mp he
    simp only [Except.ok.injEq, Prod.mk.injEq] at he
    obtain ⟨rfl, -⟩ := he
    obtain ⟨b1, hb1, hbr1, hj1⟩ := astStep_inv hb hbr hj h1
    obtain ⟨b1', hb1', hg⟩ := astStep_geoC hb hbr hj h1
    have : b1 = b1' := by rw [hb1] at hb1'; simpa using hb1'
    subst this
    obtain ⟨b2, hb2, hg2⟩ := ih hb1 hbr1 hj1 h2
    exact ⟨b2, hb2, hg.trans hg2⟩

/-- The packets of the binding have four bytes of space before and after them. -/
theorem AstEndpoint.geo {hw : Hw E} {env : E} {eid : Byte} {mx : Nat} {mode : AstMode} {mtu : Nat} {mem : Mem}
    {c0 c : Core (AstSt E)} (h : AstEndpoint hw env eid mx mode mtu mem c0) {hist : List AstOp} {log : List AstRec}
    (hr : c0.astRun hw hist = .ok (c, log)) {bus : Bus (AstSt E)} (hb : c.busses = [bus]) :
    bus.binding.pktHeader = 4 ∧ bus.binding.pktTrailer = 4 ∧ 4 ≤ bus.binding.pktSize := by
  obtain ⟨b0, hb0, hbr, hj⟩ := h.inv
  obtain ⟨b1, hb1, hg⟩ := astRun_geoC hb0 hbr hj hr
  have : b1 = bus := by rw [hb1] at hb; simpa using hb
  subst this
  obtain ⟨rc, s, hrc, hs, hb2, -⟩ := h.start
  rw [hb0] at hb2
  simp only [List.cons.injEq, and_true] at hb2
  rw [hb2] at hg
  refine ⟨hg.1, hg.2.1, hg.2.2 ?_⟩
  simp only [astInit, packetSize_eq]; omega

end Mctp
