import Verif.Proofs.AstWritten

/-!
# The packet-buffer writes of a whole history
-/

namespace Mctp

open Spec

variable {E : Type}

theorem tame_noWrites {l : List Access} (h : ∀ a ∈ l, Tame a) : bufferWrites l = [] := by
  unfold bufferWrites
  rw [List.filterMap_eq_nil_iff]
  intro a ha
  have := h a ha
  unfold Tame at this
  split
  · rename_i off bs r
    rw [if_pos this]
  · rfl

theorem Still.noWrites {s s' : AstSt E} (h : Still s s') : ∃ l, Adds s s' l ∧ bufferWrites l = [] := by
  obtain ⟨l, h1, h2⟩ := h
  exact ⟨l, h1, tame_noWrites fun a ha => (h2 a ha).tame⟩

theorem GeoOk.geo {bus bus' : Bus (AstSt E)} (h : GeoOk bus) (hg : Geo bus.binding bus'.binding) : GeoOk bus' := by
  obtain ⟨h1, h2, h3⟩ := h
  exact ⟨hg.1.trans h1, hg.2.1.trans h2, hg.2.2 h3⟩

/-- A step of the bus with the given offers: if all offers were taken, the packet-buffer writes of the
step are those of the packets taken; an offer is refused only because of a failed KCS access. -/
def WStep (bus : Bus (AstSt E)) (os : List Offer) (bus' : Bus (AstSt E)) : Prop :=
  Geo bus.binding bus'.binding ∧
  (GeoOk bus → ∃ l, Adds bus.binding.st bus'.binding.st l ∧ Caused os l ∧
    (AllTaken os → FreshQ bus → FreshQ bus' ∧ Wrote (fun v _ => v ≠ 0) (taken os) (bufferWrites l)))

theorem WStep.trans {a b c : Bus (AstSt E)} {os os' : List Offer} (h : WStep a os b) (h' : WStep b os' c) :
    WStep a (os ++ os') c := by
  refine ⟨h.1.trans h'.1, fun hg => ?_⟩
  obtain ⟨l1, a1, c1, w1⟩ := h.2 hg
  obtain ⟨l2, a2, c2, w2⟩ := h'.2 (hg.geo h.1)
  refine ⟨l1 ++ l2, a1.trans a2, c1.append c2, fun hall hf => ?_⟩
  rw [AllTaken.append] at hall
  obtain ⟨f1, w1⟩ := w1 hall.1 hf
  obtain ⟨f2, w2⟩ := w2 hall.2 f1
  refine ⟨f2, ?_⟩
  rw [taken_append, bufferWrites_append]
  exact w1.append w2

theorem WStep.still {bus bus' : Bus (AstSt E)} (hg : Geo bus.binding bus'.binding) (hq : bus'.queue = bus.queue)
    (h : ∃ l, Adds bus.binding.st bus'.binding.st l ∧ bufferWrites l = []) : WStep bus [] bus' := by
  refine ⟨hg, fun _ => ?_⟩
  obtain ⟨l, ha, hl⟩ := h
  refine ⟨l, ha, Caused.nil l, fun _ hf => ⟨fun p hp => hf p (by rw [← hq]; exact hp), ?_⟩⟩
  rw [hl]
  exact .nil

theorem WStep.refl (bus : Bus (AstSt E)) : WStep bus [] bus :=
  .still (Geo.refl _) rfl ⟨[], Adds.refl _, rfl⟩

/-- The core was left with one bus, a step away. -/
def WC (bus : Bus (AstSt E)) (e : List Event) (c' : Core (AstSt E)) : Prop :=
  ∃ bus', c'.busses = [bus'] ∧ WStep bus (offers 0 e) bus'

theorem setTxEnabled_wc {hw : Hw E} {mode : AstMode} {mtu : Nat} {c c' : Core (AstSt E)} {i : Nat} {on : Bool}
    {bus : Bus (AstSt E)} {e : List Event} (hb : c.busses = [bus]) (hi : AstInv mode mtu bus.binding.st)
    (hon : on = true → bus.binding.st.tx.state = .acquired ∧ LaySafe bus.binding.st)
    (he : c.setTxEnabled (astOps hw) i on = .ok (c', e)) : WC bus e c' := by
  cases on with
  | false =>
    obtain ⟨rfl, rfl, rfl⟩ := setTxEnabled_false hb he
    exact ⟨_, rfl, .still (Geo.refl _) rfl ⟨[], Adds.refl _, rfl⟩⟩
  | true =>
    obtain ⟨bus', m, rfl, ho, -⟩ := setTxEnabled_only hb hi hon he
    refine ⟨bus', rfl, ho.geo, fun hg => ?_⟩
    have hJ : ∀ st, AstJ mode mtu { bus with state := st } := fun st => ⟨hi, fun _ => hon rfl⟩
    have h0 : ∀ st, TxOnly bus { bus with state := st } := fun st =>
      ⟨rfl, rfl, rfl, rfl, rfl, rfl, rfl, rfl, rfl, [], Adds.refl _, by simp⟩
    obtain ⟨b2, m2, hc2, -, -, l, ha, hca, hr⟩ := setTxEnabled_keeps (wrote_keepsF hw mode mtu bus hg) hb (os := [])
      ⟨hJ bus.state, h0 _, [], Adds.refl _, Caused.nil _, fun _ hf => ⟨hf, .nil⟩⟩
      (fun _ => ⟨hJ _, h0 _, [], Adds.refl _, Caused.nil _, fun _ hf => ⟨hf, .nil⟩⟩) he
    have : b2 = bus' := by
      have := congrArg Core.busses hc2
      simpa using this.symm
    subst this
    refine ⟨l, ha, hca, fun hall hf => ?_⟩
    obtain ⟨h1, hwr⟩ := hr hall hf
    exact ⟨h1, hwr.mono fun v o h => h.1⟩

theorem astUpdateActive_wc {hw : Hw E} {mode : AstMode} {mtu : Nat} {c c' : Core (AstSt E)} {i : Nat}
    {bus : Bus (AstSt E)} {e : List Event} {status updated : Byte} {rc : Int} (hb : c.busses = [bus])
    (hj : AstJ mode mtu bus) (he : c.astUpdateActive hw i status updated = .ok (c', e, rc)) : WC bus e c' := by
  unfold Core.astUpdateActive at he
  obtain ⟨bus1, hbus, he⟩ := Res.bind_eq_ok.mp he
  obtain ⟨rfl, rfl⟩ := busAt_single hb hbus
  obtain ⟨version, hver, he⟩ := Res.bind_eq_ok.mp he
  simp only at he
  split at he
  · obtain ⟨⟨rc1, b1⟩, hf, he⟩ := Res.bind_eq_ok.mp he
    have h0 := finaliseChannel_geo hf
    have h1 := finaliseChannel_still hf
    have hi0 := hj.1.states
    obtain ⟨hi1, hk1, hres⟩ := finaliseChannel_inv (b := { bus1.binding with st := { bus1.binding.st with rx := { bus1.binding.st.rx with state := .idle }, tx := { bus1.binding.st.tx with state := .idle } } }) hi0 rfl rfl hf
    obtain ⟨⟨c1, e1⟩, hset, he⟩ := Res.bind_eq_ok.mp he
    rw [setBinding_single hb] at hset
    have hon : decide (status &&& kcsChannelActive ≠ 0 ∧ rc1 = 0) = true → b1.st.tx.state = .acquired ∧ LaySafe b1.st := by
      intro hd
      simp only [decide_eq_true_eq] at hd
      rcases hres with ⟨_, ha, _, v, _, _, hs⟩ | ⟨hneg, _⟩
      · exact ⟨ha, hs.one⟩
      · omega
    obtain ⟨b2, hb2, hw2⟩ := setTxEnabled_wc rfl hi1 hon hset
    obtain ⟨bus2, hbus2, he⟩ := Res.bind_eq_ok.mp he
    obtain ⟨-, rfl⟩ := busAt_single hb2 hbus2
    simp only [Except.ok.injEq, Prod.mk.injEq] at he
    obtain ⟨rfl, rfl, -⟩ := he
    rw [setSt_single hb2]
    refine ⟨_, rfl, ?_⟩
    have s1 : WStep bus1 [] { bus1 with binding := b1 } := .still h0 rfl ((h1.congr rfl rfl).noWrites)
    have s2 := s1.trans hw2
    have s3 : WStep bus2 [] { bus2 with binding := { bus2.binding with st := { bus2.binding.st with kcsStatus := status } } } :=
      .still ⟨rfl, rfl, id⟩ rfl ⟨[], (Adds.refl _).congr rfl rfl, rfl⟩
    have := s2.trans s3
    simpa using this
  · simp only [Except.ok.injEq, Prod.mk.injEq] at he
    obtain ⟨rfl, rfl, -⟩ := he
    rw [setSt_single hb]
    exact ⟨_, rfl, .still ⟨rfl, rfl, id⟩ rfl ⟨[], (Adds.refl _).congr rfl rfl, rfl⟩⟩

theorem astUpdateChannel_wc {hw : Hw E} {mode : AstMode} {mtu : Nat} {c c' : Core (AstSt E)} {i : Nat}
    {bus : Bus (AstSt E)} {e : List Event} {status : Byte} {rc : Int} (hb : c.busses = [bus])
    (hj : AstJ mode mtu bus) (he : c.astUpdateChannel hw i status = .ok (c', e, rc)) : WC bus e c' := by
  unfold Core.astUpdateChannel at he
  obtain ⟨bus1, hbus, he⟩ := Res.bind_eq_ok.mp he
  obtain ⟨rfl, rfl⟩ := busAt_single hb hbus
  simp only at he
  split at he
  · cases he
  · rename_i hhost
    have hhost : bus1.binding.st.mode = .host := Decidable.not_not.mp hhost
    split at he
    · split at he
      · obtain ⟨⟨rc1, s1⟩, hs, he⟩ := Res.bind_eq_ok.mp he
        simp only [Except.ok.injEq, Prod.mk.injEq] at he
        obtain ⟨rfl, rfl, -⟩ := he
        rw [setSt_single hb]
        exact ⟨_, rfl, .still ⟨rfl, rfl, id⟩ rfl (((astStart_still (by exact hhost) hs).congr rfl rfl).noWrites)⟩
      · obtain ⟨⟨c1, e1⟩, hset, he⟩ := Res.bind_eq_ok.mp he
        obtain ⟨⟨c2, e2, rc2⟩, hu, he⟩ := Res.bind_eq_ok.mp he
        simp only [Except.ok.injEq, Prod.mk.injEq] at he
        obtain ⟨rfl, rfl, -⟩ := he
        rw [setSt_single hb] at hset
        obtain ⟨bus', m, rfl, ho, hj', hoff, -⟩ := setTxEnabled_only rfl hj.1.states (by simp) hset
        obtain ⟨-, -, rfl⟩ := hoff rfl
        obtain ⟨b1, hb1, s1⟩ := setTxEnabled_wc rfl hj.1.states (by simp) hset
        have : b1 = bus' := by simpa using hb1.symm
        subst this
        obtain ⟨bus2, hb2, s2⟩ := astUpdateActive_wc rfl hj' hu
        refine ⟨bus2, hb2, ?_⟩
        have s0 : WStep bus1 [] { bus1 with binding := { bus1.binding with st := { bus1.binding.st with rx := { bus1.binding.st.rx with state := .idle }, tx := { bus1.binding.st.tx with state := .idle } } } } :=
          .still ⟨rfl, rfl, id⟩ rfl ⟨[], (Adds.refl _).congr rfl rfl, rfl⟩
        simpa [offers] using (s0.trans s1).trans s2
    · exact astUpdateActive_wc hb hj he

theorem astRxStart_wc {hw : Hw E} {mode : AstMode} {mtu : Nat} {c c' : Core (AstSt E)} {i : Nat}
    {bus : Bus (AstSt E)} {e : List Event} (hb : c.busses = [bus]) (hbr : c.bridge = false) (hi : AstInv mode mtu bus.binding.st)
    (he : c.astRxStart hw i = .ok (c', e)) : WC bus e c' := by
  obtain ⟨rfl, hl, v, r0, lenBytes, s1, hv, hv0, hv4, hr0, hcases⟩ := astRxStart_cases hb hi he
  have h1 := lpcRead_still hr0
  have hafter : ∀ s2 : AstSt E, Still s2 (afterRead hw s2) := by
    intro s2
    unfold afterRead
    generalize hk : kcsSend hw { s2 with rx := { s2.rx with state := .prepared } } cmdRxComplete = r
    obtain ⟨rc, s3⟩ := r
    have hg := (kcsSend_still (by decide) hk).congr (a' := s2) (b' := s3) rfl rfl
    simp only
    split
    · exact hg.congr rfl rfl
    · exact hg
  rcases hcases with ⟨-, rfl, rfl⟩ | ⟨hfit, -, hcases⟩
  · rw [setSt_single hb]; exact ⟨_, rfl, .still ⟨rfl, rfl, id⟩ rfl h1.noWrites⟩
  · rcases hcases with ⟨m, rfl, rfl, -⟩ | ⟨r1, bytes, s2, hr1, hblen, hcases⟩
    · rw [setSt_single (by exact hb)]; exact ⟨_, rfl, .still ⟨rfl, rfl, id⟩ rfl h1.noWrites⟩
    · have h2 := (h1.trans (lpcRead_still hr1)).trans (hafter s2)
      rcases hcases with ⟨-, ⟨m, rfl⟩, rfl⟩ | ⟨-, -, m, pkt, hp, hrx⟩
      · rw [setSt_single (by exact hb)]; exact ⟨_, rfl, .still ⟨rfl, rfl, id⟩ rfl h2.noWrites⟩
      · rw [setSt_single (by exact hb)] at hrx
        obtain ⟨m2, t, rfl, ho, -⟩ := busRx_busses rfl (by exact hbr) hp hrx
        refine ⟨_, rfl, ?_⟩
        rw [ho 0]
        exact .still ⟨rfl, rfl, id⟩ rfl h2.noWrites

theorem astCommand_wc {hw : Hw E} {mode : AstMode} {mtu : Nat} {c c' : Core (AstSt E)} {i : Nat}
    {bus : Bus (AstSt E)} {e : List Event} {status data : Byte} {rc : Int} {stop : Bool} (hb : c.busses = [bus])
    (hbr : c.bridge = false) (hj : AstJ mode mtu bus)
    (hw1 : ∃ w, Traced bus.binding.st w ∧ Phase bus.binding.st w ∧ (data = 1 → w.rx = true) ∧
      (data = 2 → bus.binding.st.tx.state = .released → w.tx = .free))
    (he : c.astCommand hw i status data = .ok (c', e, rc, stop)) : WC bus e c' := by
  have hc : WC bus [] c := ⟨bus, hb, WStep.refl _⟩
  obtain ⟨w, htr, hph, hd1, hd2⟩ := hw1
  unfold Core.astCommand at he
  obtain ⟨bus1, hbus, he⟩ := Res.bind_eq_ok.mp he
  obtain ⟨rfl, rfl⟩ := busAt_single hb hbus
  simp only at he
  split at he
  · obtain ⟨⟨c1, e1⟩, h1, he⟩ := Res.bind_eq_ok.mp he
    simp only [Except.ok.injEq, Prod.mk.injEq] at he
    obtain ⟨rfl, rfl, -⟩ := he
    unfold Core.astInitChannel at h1
    obtain ⟨bus2, hbus2, h1⟩ := Res.bind_eq_ok.mp h1
    obtain ⟨-, rfl⟩ := busAt_single hb hbus2
    obtain ⟨⟨on, b⟩, hic, h1⟩ := Res.bind_eq_ok.mp h1
    obtain ⟨hi1, -, hta, -, hon⟩ := initChannel_inv hj.1 hic
    simp only at h1
    rw [setBinding_single hb] at h1
    obtain ⟨bus', hb', hg⟩ := setTxEnabled_wc rfl hi1 (fun h => ⟨hta, by obtain ⟨v, _, _, hs⟩ := hon h; exact hs.one⟩) h1
    have s0 : WStep bus2 [] { bus2 with binding := b } :=
      .still (initChannel_geo hic) rfl (by obtain ⟨l, ha, hl⟩ := initChannel_tame hic; exact ⟨l, ha, tame_noWrites hl⟩)
    exact ⟨bus', hb', s0.trans hg⟩
  · split at he
    · split at he
      · simp only [Except.ok.injEq, Prod.mk.injEq] at he
        obtain ⟨rfl, rfl, -⟩ := he; exact hc
      · obtain ⟨⟨c1, e1⟩, h1, he⟩ := Res.bind_eq_ok.mp he
        simp only [Except.ok.injEq, Prod.mk.injEq] at he
        obtain ⟨rfl, rfl, -⟩ := he
        exact astRxStart_wc hb hbr hj.1 h1
    · split at he
      · rename_i hdata
        split at he
        · simp only [Except.ok.injEq, Prod.mk.injEq] at he
          obtain ⟨rfl, rfl, -⟩ := he; exact hc
        · rename_i hrel
          have hrel : bus1.binding.st.tx.state = .released := Decidable.not_not.mp hrel
          obtain ⟨⟨c1, e1⟩, h1, he⟩ := Res.bind_eq_ok.mp he
          simp only [Except.ok.injEq, Prod.mk.injEq] at he
          obtain ⟨rfl, rfl, -⟩ := he
          unfold Core.astTxComplete at h1
          obtain ⟨bus2, hbus2, h1⟩ := Res.bind_eq_ok.mp h1
          obtain ⟨-, rfl⟩ := busAt_single hb hbus2
          simp only at h1
          rw [setSt_single hb] at h1
          have hl : LaySafe bus2.binding.st := hj.1.busy (.inr hrel)
          have hl2 : LaySafe { bus2.binding.st with tx := { bus2.binding.st.tx with state := .acquired } } :=
            hl.congr rfl rfl rfl rfl
          obtain ⟨b2, hb2, hg⟩ := setTxEnabled_wc (mode := mode) (mtu := mtu) rfl
            (bus := { bus2 with binding := { bus2.binding with st := { bus2.binding.st with tx := { bus2.binding.st.tx with state := .acquired } } } })
            ⟨hj.1.mode, hj.1.mtu, hj.1.proto, .inr hl2, fun _ => hl2, w, htr.congr rfl rfl,
              fun _ => hd2 hdata hrel, by simp, by simp, hph.half, hph.rxp⟩ (fun _ => ⟨rfl, hl2⟩) h1
          refine ⟨b2, hb2, ?_⟩
          have s0 : WStep bus2 [] { bus2 with binding := { bus2.binding with st := { bus2.binding.st with tx := { bus2.binding.st.tx with state := .acquired } } } } :=
            .still ⟨rfl, rfl, id⟩ rfl ⟨[], (Adds.refl _).congr rfl rfl, rfl⟩
          exact s0.trans hg
      · split at he
        · split at he
          · obtain ⟨⟨c1, e1, rc1⟩, h1, he⟩ := Res.bind_eq_ok.mp he
            simp only [Except.ok.injEq, Prod.mk.injEq] at he
            obtain ⟨rfl, rfl, -⟩ := he
            exact astUpdateChannel_wc hb hj h1
          · simp only [Except.ok.injEq, Prod.mk.injEq] at he
            obtain ⟨rfl, rfl, -⟩ := he; exact hc
        · simp only [Except.ok.injEq, Prod.mk.injEq] at he
          obtain ⟨rfl, rfl, -⟩ := he; exact hc

theorem Sends.bufNil {mode : AstMode} {cmd : Byte} {rc : Int} {l : List Access} (h : Sends mode cmd rc l) :
    bufferWrites l = [] := h.noWrites

theorem astRetry_noWrites (hw : Hw E) (s : AstSt E) : ∃ l, Adds s (astRetry hw s) l ∧ bufferWrites l = [] := by
  obtain ⟨l1, l2, ha, h1, h2, -⟩ := astRetry_adds hw s
  refine ⟨l1 ++ l2, ha, ?_⟩
  rw [bufferWrites_append]
  have e1 : bufferWrites l1 = [] := by
    rcases h1 with ⟨-, rc, hs, -⟩ | ⟨-, rfl, -⟩
    · exact hs.noWrites
    · rfl
  have e2 : bufferWrites l2 = [] := by
    rcases h2 with ⟨-, rc, hs, -⟩ | ⟨-, rfl, -⟩
    · exact hs.noWrites
    · rfl
  rw [e1, e2]; rfl

theorem astPoll_wc {hw : Hw E} {mode : AstMode} {mtu : Nat} {c c' : Core (AstSt E)}
    {bus : Bus (AstSt E)} {e : List Event} {rc : Int} (hb : c.busses = [bus]) (hbr : c.bridge = false)
    (hj : AstJ mode mtu bus) (he : c.astPoll hw 0 = .ok (c', e, rc)) : WC bus e c' := by
  obtain ⟨l0, ha0, hl0⟩ := astRetry_noWrites hw bus.binding.st
  have hstill : ∀ s l, Adds (astRetry hw bus.binding.st) s l → bufferWrites l = [] →
      WStep bus [] { bus with binding := { bus.binding with st := s } } := by
    intro s l ha hl
    exact .still ⟨rfl, rfl, id⟩ rfl ⟨l0 ++ l, ha0.trans ha, by rw [bufferWrites_append, hl0, hl]; rfl⟩
  obtain ⟨-, hcase⟩ := astPoll_view hb hj he
  rcases hcase with ⟨r, w, s, hs, ha, hj1, hcond, hrc, rfl, rfl⟩ | ⟨w, r, d', s, hs, ha, hj1, hrd, hcase⟩
  · exact ⟨_, rfl, hstill s _ ha rfl⟩
  · have s0 := hstill s _ ha rfl
    rcases hcase with ⟨hcond, hrc, rfl, rfl⟩ | ⟨rfl, hver, hw1, c1, e1, rc1, stop, hcmd, hfin⟩
    · exact ⟨_, rfl, s0⟩
    · obtain ⟨bus1, m1, t1, hc1, hj2⟩ := astCommand_frame rfl (by exact hbr) hj1 hw1 hcmd
      obtain ⟨b1, hb1, g1⟩ := astCommand_wc rfl (by exact hbr) hj1 hw1 hcmd
      have s1 := s0.trans g1
      rcases hfin with ⟨-, rfl, rfl, -⟩ | ⟨-, e2, haf, rfl⟩
      · exact ⟨b1, hb1, s1⟩
      · have hb1' : c1.busses = [bus1] := by rw [hc1]
        have : b1 = bus1 := by rw [hb1] at hb1'; simpa using hb1'
        subst this
        unfold Core.astAfter at haf
        split at haf
        · obtain ⟨b2, hb2, g2⟩ := astUpdateChannel_wc hb1 hj2 haf
          refine ⟨b2, hb2, ?_⟩
          rw [offers_append]
          exact s1.trans g2
        · simp only [Except.ok.injEq, Prod.mk.injEq] at haf
          obtain ⟨rfl, rfl, -⟩ := haf
          refine ⟨b1, hb1, ?_⟩
          rw [List.append_nil]
          exact s1

theorem astStep_wc {hw : Hw E} {mode : AstMode} {mtu : Nat} {c c' : Core (AstSt E)} {bus : Bus (AstSt E)}
    {op : AstOp} {e : List Event} {rc : Int} (hb : c.busses = [bus]) (hbr : c.bridge = false)
    (hj : AstJ mode mtu bus) (he : c.astStep hw op = .ok (c', e, rc)) : WC bus e c' := by
  obtain ⟨bg, hbg, hgeo⟩ := astStep_geoC hb hbr hj he
  unfold Core.astStep at he
  split at he
  · rename_i o ho
    have hop : IsApp o := by
      cases op <;> simp only [AstOp.core, Option.some.injEq, reduceCtorEq] at ho <;> subst ho <;> trivial
    refine ⟨bg, hbg, hgeo, fun hg => ?_⟩
    obtain ⟨bus', m, hx, hc, mx, hc', ⟨hj', -, l, ha, hca, hr⟩, -⟩ := step_keeps (wrote_keepsF hw mode mtu bus hg) hb (os := [])
      ⟨hj, TxOnly.refl _, [], Adds.refl _, Caused.nil _, fun _ hf => ⟨hf, .nil⟩⟩ hop he
    have : bg = bus' := by rw [hc'] at hbg; simpa using hbg.symm
    subst this
    refine ⟨l, ha, hca, fun hall hf => ?_⟩
    obtain ⟨h1, hwr⟩ := hr hall hf
    exact ⟨h1, hwr.mono fun v o h => h.1⟩
  · exact astPoll_wc hb hbr hj he

theorem astRun_wc {hw : Hw E} {mode : AstMode} {mtu : Nat} {hist : List AstOp} :
    ∀ {c c' : Core (AstSt E)} {bus : Bus (AstSt E)} {log : List AstRec}, c.busses = [bus] → c.bridge = false →
      AstJ mode mtu bus → c.astRun hw hist = .ok (c', log) → WC bus (astEvents log) c' := by
  induction hist with
  | nil =>
    intro c c' bus log hb hbr hj he
    simp only [Core.astRun, Except.ok.injEq, Prod.mk.injEq] at he
    obtain ⟨rfl, rfl⟩ := he
    exact ⟨bus, hb, WStep.refl _⟩
  | cons op rest ih =>
    intro c c' bus log hb hbr hj he
    simp only [Core.astRun] at he
    obtain ⟨⟨c1, e1, rc1⟩, h1, he⟩ := Res.bind_eq_ok.mp he
    obtain ⟨⟨c2, log2⟩, h2, he⟩ := Res.bind_eq_ok.mp he
    simp only [Except.ok.injEq, Prod.mk.injEq] at he
    obtain ⟨rfl, rfl⟩ := he
    obtain ⟨b1, hb1, hbr1, hj1⟩ := astStep_inv hb hbr hj h1
    obtain ⟨b1', hb1', hg⟩ := astStep_wc hb hbr hj h1
    have : b1 = b1' := by rw [hb1] at hb1'; simpa using hb1'
    subst this
    obtain ⟨b2, hb2, hg2⟩ := ih hb1 hbr1 hj1 h2
    refine ⟨b2, hb2, ?_⟩
    have := hg.trans hg2
    rw [← offers_append] at this
    simpa [astEvents] using this

end Mctp
