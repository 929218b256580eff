import Verif.Proofs.AstMute

/-!
# A host that has not found a negotiated version receives nothing
-/

namespace Mctp

open Spec

variable {E : Type}

/-- The negotiated version is read from the header (bytes 12 and 13), and it is one of 1..3. -/
def ReadsVersion : Access → Prop
  | .lpcRead off v r => off = 12 ∧ 0 ≤ r ∧ 1 ≤ fromBe v ∧ fromBe v ≤ 3
  | _ => False

/-- Either the version is read, or the buffers stay as they are. -/
theorem finaliseChannel_reads {hw : Hw E} {b b' : Binding (AstSt E)} {rc : Int}
    (he : finaliseChannel hw b = .ok (rc, b')) :
    ∃ l, Adds b.st b'.st l ∧ ((∀ a ∈ l, ¬ ReadsVersion a) → rc < 0 ∧ b'.st.rx = b.st.rx) := by
  obtain ⟨l, hl, -⟩ := finaliseChannel_still he
  refine ⟨l, hl, fun hno => ?_⟩
  unfold finaliseChannel at he
  obtain ⟨⟨r1, ver, s1⟩, hr1, he⟩ := Res.bind_eq_ok.mp he
  have a1 := lpcRead_adds hr1
  have hs1 := (lpcRead_ok hr1).1
  simp only at he
  split at he
  · rename_i hneg
    simp only [Except.ok.injEq, Prod.mk.injEq] at he
    obtain ⟨rfl, rfl⟩ := he; exact ⟨hneg, hs1.rx⟩
  · rename_i hneg
    split at he
    · simp only [Except.ok.injEq, Prod.mk.injEq] at he
      obtain ⟨rfl, rfl⟩ := he; exact ⟨by decide, hs1.rx⟩
    · rename_i hver
      exfalso
      have hrest : ∃ l2, Adds s1 b'.st l2 := by
        obtain ⟨⟨r2, lay, s2⟩, hr2, he⟩ := Res.bind_eq_ok.mp he
        have h2 : Still s1 s2 := (layoutRead_still hr2).congr rfl rfl
        obtain ⟨l2, h2, -⟩ := h2
        refine ⟨l2, ?_⟩
        simp only at he
        split at he
        · simp only [Except.ok.injEq, Prod.mk.injEq] at he
          obtain ⟨rfl, rfl⟩ := he; exact h2
        · obtain ⟨valid, hv, he⟩ := Res.bind_eq_ok.mp he
          split at he
          · simp only [Except.ok.injEq, Prod.mk.injEq] at he
            obtain ⟨rfl, rfl⟩ := he; exact h2
          · obtain ⟨most, hmost, he⟩ := Res.bind_eq_ok.mp he
            simp only [Except.ok.injEq, Prod.mk.injEq] at he
            obtain ⟨rfl, rfl⟩ := he; exact h2.congr rfl rfl
      obtain ⟨l2, h2⟩ := hrest
      have := hl.inj (a1.trans h2)
      subst this
      refine hno (.lpcRead offNegotiated ver r1) (by simp) ⟨rfl, by omega, ?_⟩
      unfold astVerMin astVerCur at hver
      omega

/-- A step of a host that does not find a version. -/
def KeepsIdle (bus : Bus (AstSt E)) (e : List Event) (c' : Core (AstSt E)) : Prop :=
  ∃ bus' l, c'.busses = [bus'] ∧ Adds bus.binding.st bus'.binding.st l ∧
    (Access.kcsRead .data 0 0 ∉ l → (∀ a ∈ l, ¬ ReadsVersion a) → bus.binding.st.rx.state = .idle →
      bus'.binding.st.rx.state = .idle ∧ ∀ x ∈ e, IsTxEvent x)

/-- The same for a part of a poll. -/
def IdleC (bus : Bus (AstSt E)) (c' : Core (AstSt E)) : Prop :=
  ∃ bus' l, c'.busses = [bus'] ∧ Adds bus.binding.st bus'.binding.st l ∧
    ((∀ a ∈ l, ¬ ReadsVersion a) → bus.binding.st.rx.state = .idle → bus'.binding.st.rx.state = .idle)

theorem astUpdateActive_idle {hw : Hw E} {mode : AstMode} {mtu : Nat} {c c' : Core (AstSt E)} {i : Nat}
    {bus : Bus (AstSt E)} {e : List Event} {status updated : Byte} {rc : Int} (hb : c.busses = [bus])
    (hj : AstJ mode mtu bus) (he : c.astUpdateActive hw i status updated = .ok (c', e, rc)) : IdleC bus c' := by
  unfold Core.astUpdateActive at he
  obtain ⟨bus1, hbus, he⟩ := Res.bind_eq_ok.mp he
  obtain ⟨rfl, rfl⟩ := busAt_single hb hbus
  obtain ⟨version, hver, he⟩ := Res.bind_eq_ok.mp he
  simp only at he
  split at he
  · obtain ⟨⟨rc1, b1⟩, hf, he⟩ := Res.bind_eq_ok.mp he
    obtain ⟨l0, ha0, h0⟩ := finaliseChannel_reads hf
    have hi0 := hj.1.states
    obtain ⟨hi1, hk1, hres⟩ := finaliseChannel_inv (b := { bus1.binding with st := { bus1.binding.st with rx := { bus1.binding.st.rx with state := .idle }, tx := { bus1.binding.st.tx with state := .idle } } }) hi0 rfl rfl hf
    obtain ⟨⟨c1, e1⟩, hset, he⟩ := Res.bind_eq_ok.mp he
    rw [setBinding_single hb] at hset
    have hon : decide (status &&& kcsChannelActive ≠ 0 ∧ rc1 = 0) = true → b1.st.tx.state = .acquired ∧ LaySafe b1.st := by
      intro hd
      simp only [decide_eq_true_eq] at hd
      rcases hres with ⟨_, ha, _, v, _, _, hs⟩ | ⟨hneg, _⟩
      · exact ⟨ha, hs.one⟩
      · omega
    obtain ⟨bus', m, rfl, ho, -⟩ := setTxEnabled_only rfl hi1 hon hset
    obtain ⟨lt, hat, -⟩ := ho.adds
    obtain ⟨bus2, hbus2, he⟩ := Res.bind_eq_ok.mp he
    obtain ⟨-, rfl⟩ := busAt_single rfl hbus2
    simp only [Except.ok.injEq, Prod.mk.injEq] at he
    obtain ⟨rfl, -⟩ := he
    rw [setSt_single rfl]
    refine ⟨_, l0 ++ lt, rfl, ((ha0.congr rfl rfl).trans hat).congr rfl rfl, fun hno _ => ?_⟩
    obtain ⟨-, hrx⟩ := h0 (fun a ha => hno a (List.mem_append.mpr (.inl ha)))
    show bus2.binding.st.rx.state = _
    rw [ho.rx, hrx]
  · simp only [Except.ok.injEq, Prod.mk.injEq] at he
    obtain ⟨rfl, -⟩ := he
    rw [setSt_single hb]
    exact ⟨_, [], rfl, (Adds.refl _).congr rfl rfl, fun _ h => h⟩

theorem astUpdateChannel_idle {hw : Hw E} {mtu : Nat} {c c' : Core (AstSt E)} {i : Nat}
    {bus : Bus (AstSt E)} {e : List Event} {status : Byte} {rc : Int} (hb : c.busses = [bus])
    (hj : AstJ .host mtu bus) (he : c.astUpdateChannel hw i status = .ok (c', e, rc)) : IdleC bus c' := by
  obtain ⟨bg, hbg, lg, hlg, -⟩ := astUpdateChannel_growC hb hj he
  unfold Core.astUpdateChannel at he
  obtain ⟨bus1, hbus, he⟩ := Res.bind_eq_ok.mp he
  obtain ⟨rfl, rfl⟩ := busAt_single hb hbus
  simp only at he
  split at he
  · cases he
  rename_i hhost
  have hhost : bus1.binding.st.mode = .host := Decidable.not_not.mp hhost
  split at he
  · split at he
    · obtain ⟨⟨rc1, s1⟩, hs, he⟩ := Res.bind_eq_ok.mp he
      simp only [Except.ok.injEq, Prod.mk.injEq] at he
      obtain ⟨rfl, rfl, -⟩ := he
      rw [setSt_single hb] at hbg ⊢
      have hstart : initHost hw { bus1.binding.st with kcsStatus := status } = .ok (rc1, s1) := by
        unfold astStart at hs
        split at hs
        · rename_i hmm
          have hmm : bus1.binding.st.mode = .bmc := hmm
          rw [hhost] at hmm; cases hmm
        · exact hs
      have hi : AstInv .host mtu { bus1.binding.st with kcsStatus := status } := by
        obtain ⟨hm, hmt, hpr, hlay, hbusy, w, htr, hph⟩ := hj.1
        exact ⟨hm, hmt, hpr, hlay, hbusy, w, htr.congr rfl rfl, hph.quiet rfl rfl rfl rfl⟩
      obtain ⟨-, hrx, -⟩ := initHost_inv hi hstart
      simp only [List.cons.injEq, and_true] at hbg
      subst hbg
      exact ⟨_, lg, rfl, hlg, fun _ h => by simp only; rw [hrx]; exact h⟩
    · obtain ⟨⟨c1, e1⟩, hset, he⟩ := Res.bind_eq_ok.mp he
      obtain ⟨⟨c2, e2, rc2⟩, hact, he⟩ := Res.bind_eq_ok.mp he
      simp only [Except.ok.injEq, Prod.mk.injEq] at he
      obtain ⟨rfl, rfl, -⟩ := he
      rw [setSt_single hb] at hset
      obtain ⟨bus', m, rfl, ho, hj', hoff, -⟩ := setTxEnabled_only rfl hj.1.states (by simp) hset
      obtain ⟨hbi, hst, rfl⟩ := hoff rfl
      obtain ⟨b2, l2, hb2, ha2, hq⟩ := astUpdateActive_idle rfl hj' hact
      refine ⟨b2, l2, hb2, ?_, fun hno _ => hq hno (by rw [hbi])⟩
      rw [hbi] at ha2
      exact ha2.congr rfl rfl
  · exact astUpdateActive_idle hb hj he

theorem astCommand_idle {hw : Hw E} {mtu : Nat} {c c' : Core (AstSt E)} {bus : Bus (AstSt E)} {e : List Event}
    {status data : Byte} {rc : Int} {stop : Bool} (hb : c.busses = [bus]) (hbr : c.bridge = false)
    (hj : AstJ .host mtu bus)
    (hw1 : ∃ w, Traced bus.binding.st w ∧ Phase bus.binding.st w ∧ (data = 1 → w.rx = true) ∧ (data = 2 → bus.binding.st.tx.state = .released → w.tx = .free))
    (he : c.astCommand hw 0 status data = .ok (c', e, rc, stop)) :
    ∃ bus' l, c'.busses = [bus'] ∧ Adds bus.binding.st bus'.binding.st l ∧
      (data ≠ 0 → (∀ a ∈ l, ¬ ReadsVersion a) → bus.binding.st.rx.state = .idle →
        bus'.binding.st.rx.state = .idle ∧ ∀ x ∈ e, IsTxEvent x) := by
  obtain ⟨bg, hbg, lg, hlg, -⟩ := astCommand_growC hb hbr hj hw1 he
  have hcmd := he
  refine ⟨bg, lg, hbg, hlg, fun hd hno hidle => ?_⟩
  refine ⟨?_, astCommand_events hb hcmd (.inr (by rw [hidle]; simp))⟩
  have huniq : ∀ {b : Bus (AstSt E)}, c'.busses = [b] → bg = b := by
    intro b h; rw [hbg] at h; simpa using h
  unfold Core.astCommand at he
  obtain ⟨bus1, hbus, he⟩ := Res.bind_eq_ok.mp he
  obtain ⟨-, rfl⟩ := busAt_single hb hbus
  simp only at he
  split at he
  · rename_i h; exact absurd h hd
  split at he
  · rw [if_pos (by rw [hidle]; simp)] at he
    simp only [Except.ok.injEq, Prod.mk.injEq] at he
    obtain ⟨rfl, -⟩ := he
    rw [huniq hb]; exact hidle
  split at he
  · split at he
    · simp only [Except.ok.injEq, Prod.mk.injEq] at he
      obtain ⟨rfl, -⟩ := he
      rw [huniq hb]; exact hidle
    · rename_i hr
      have hr := Decidable.not_not.mp hr
      obtain ⟨⟨c1, e1⟩, h1, he⟩ := Res.bind_eq_ok.mp he
      simp only [Except.ok.injEq, Prod.mk.injEq] at he
      obtain ⟨rfl, -⟩ := he
      unfold Core.astTxComplete at h1
      obtain ⟨bus2, hbus2, h1⟩ := Res.bind_eq_ok.mp h1
      obtain ⟨-, rfl⟩ := busAt_single hb hbus2
      simp only at h1
      rw [setSt_single hb] at h1
      have hl2 : LaySafe { bus2.binding.st with tx := { bus2.binding.st.tx with state := .acquired } } :=
        (hj.1.busy (.inr hr)).congr rfl rfl rfl rfl
      obtain ⟨w, htr, hph, -, hfree⟩ := hw1
      obtain ⟨b2, m2, rfl, hto, -⟩ := setTxEnabled_only (mode := .host) (mtu := mtu) rfl
        (bus := { bus2 with binding := { bus2.binding with st := { bus2.binding.st with tx := { bus2.binding.st.tx with state := .acquired } } } })
        ⟨hj.1.mode, hj.1.mtu, hj.1.proto, .inr hl2, fun _ => hl2, w, htr.congr rfl rfl,
          fun _ => hfree (by assumption) hr, by simp, by simp, hph.half, hph.rxp⟩ (fun _ => ⟨rfl, hl2⟩) h1
      rw [huniq rfl, hto.rx]; exact hidle
  split at he
  · rw [if_pos (show bus1.binding.st.mode = .host from hj.1.mode)] at he
    obtain ⟨⟨c1, e1, rc1⟩, h1, he⟩ := Res.bind_eq_ok.mp he
    simp only [Except.ok.injEq, Prod.mk.injEq] at he
    obtain ⟨rfl, -⟩ := he
    obtain ⟨b2, l2, hb2, ha2, hq⟩ := astUpdateChannel_idle hb hj h1
    have := huniq hb2
    subst this
    have := hlg.inj ha2
    subst this
    exact hq hno hidle
  · simp only [Except.ok.injEq, Prod.mk.injEq] at he
    obtain ⟨rfl, -⟩ := he
    rw [huniq hb]; exact hidle

theorem astPoll_idle {hw : Hw E} {mtu : Nat} {c c' : Core (AstSt E)} {bus : Bus (AstSt E)} {e : List Event} {rc : Int}
    (hb : c.busses = [bus]) (hbr : c.bridge = false)
    (hj : AstJ .host mtu bus) (he : c.astPoll hw 0 = .ok (c', e, rc)) : KeepsIdle bus e c' := by
  obtain ⟨l1, l2, har, -⟩ := astRetry_adds hw bus.binding.st
  have hidle : bus.binding.st.rx.state = .idle → (astRetry hw bus.binding.st).rx.state = .idle := by
    intro h
    rw [astRetry_rx hw _ (by rw [h]; simp)]; exact h
  obtain ⟨-, hcase⟩ := astPoll_view hb hj he
  rcases hcase with ⟨r, w, s, hs, ha, hj1, hcond, hrc, rfl, rfl⟩ | ⟨w, r, d', s, hs, ha, hj1, hrd, hcase⟩
  · exact ⟨_, _, rfl, har.trans ha, fun _ _ h => ⟨by simp only; rw [hs.rx]; exact hidle h, by simp⟩⟩
  · rcases hcase with ⟨hcond, hrc, rfl, rfl⟩ | ⟨rfl, -, hw1, c1, e1, rc1, stop, hcmd, hfin⟩
    · exact ⟨_, _, rfl, har.trans ha, fun _ _ h => ⟨by simp only; rw [hs.rx]; exact hidle h, by simp⟩⟩
    · obtain ⟨bus1, m1, t1, hc1, hj2⟩ := astCommand_frame rfl (by exact hbr) hj1 hw1 hcmd
      obtain ⟨b1, lc, hb1, hlc, hq⟩ := astCommand_idle rfl (by exact hbr) hj1 hw1 hcmd
      have : b1 = bus1 := by
        have hb1' : c1.busses = [bus1] := by rw [hc1]
        rw [hb1] at hb1'; simpa using hb1'
      subst this
      have hstep : Access.kcsRead .data 0 0 ∉ (l1 ++ l2) ++ [Access.kcsRead .status 0 w, .kcsRead .data 0 d'] ++ lc →
          (∀ a ∈ (l1 ++ l2) ++ [Access.kcsRead .status 0 w, .kcsRead .data 0 d'] ++ lc, ¬ ReadsVersion a) →
          bus.binding.st.rx.state = .idle → b1.binding.st.rx.state = .idle ∧ ∀ x ∈ e1, IsTxEvent x := by
        intro h0 hno hi
        exact hq (fun h => h0 (by rw [h]; simp)) (fun a ha => hno a (List.mem_append.mpr (.inr ha)))
          (by simp only; rw [hs.rx]; exact hidle hi)
      rcases hfin with ⟨-, rfl, rfl, -⟩ | ⟨-, e2, haf, rfl⟩
      · exact ⟨b1, _, hb1, (har.trans ha).trans hlc, hstep⟩
      · have haev := astAfter_events haf
        unfold Core.astAfter at haf
        split at haf
        · obtain ⟨b3, l3, hb3, ha3, hq3⟩ := astUpdateChannel_idle hb1 hj2 haf
          refine ⟨b3, _, hb3, ((har.trans ha).trans hlc).trans ha3, fun h0 hno hi => ?_⟩
          obtain ⟨g1, g2⟩ := hstep (fun h => h0 (List.mem_append.mpr (.inl h))) (fun a h => hno a (List.mem_append.mpr (.inl h))) hi
          refine ⟨hq3 (fun a h => hno a (List.mem_append.mpr (.inr h))) g1, ?_⟩
          intro x hx
          rcases List.mem_append.mp hx with hx | hx
          · exact g2 x hx
          · exact haev x hx
        · simp only [Except.ok.injEq, Prod.mk.injEq] at haf
          obtain ⟨rfl, rfl, -⟩ := haf
          refine ⟨b1, _, hb1, (har.trans ha).trans hlc, fun h0 hno hi => ?_⟩
          rw [List.append_nil]; exact hstep h0 hno hi

theorem astStep_idle {hw : Hw E} {mtu : Nat} {c c' : Core (AstSt E)} {bus : Bus (AstSt E)} {op : AstOp} {e : List Event}
    {rc : Int} (hb : c.busses = [bus]) (hbr : c.bridge = false)
    (hj : AstJ .host mtu bus) (he : c.astStep hw op = .ok (c', e, rc)) : KeepsIdle bus e c' := by
  unfold Core.astStep at he
  split at he
  · rename_i o ho
    have hop : IsApp o := by
      cases op <;> simp only [AstOp.core, Option.some.injEq, reduceCtorEq] at ho <;> subst ho <;> trivial
    obtain ⟨bus', m, hx', hc, mx, hc', ⟨hj', ho'⟩, hev⟩ := step_keeps (txOnly_keeps hw .host mtu bus) hb (os := [])
      ⟨hj, TxOnly.refl _⟩ hop he
    obtain ⟨l, ha, -⟩ := ho'.adds
    exact ⟨bus', l, by rw [hc'], ha, fun _ _ h => ⟨by rw [ho'.rx]; exact h, hev⟩⟩
  · exact astPoll_idle hb hbr hj he

theorem astRun_idle {hw : Hw E} {mtu : Nat} {hist : List AstOp} :
    ∀ {c c' : Core (AstSt E)} {bus : Bus (AstSt E)} {log : List AstRec}, c.busses = [bus] → c.bridge = false →
      AstJ .host mtu bus → c.astRun hw hist = .ok (c', log) → KeepsIdle bus (astEvents log) c' := by
  induction hist with
  | nil =>
    intro c c' bus log hb hbr hj he
    simp only [Core.astRun, Except.ok.injEq, Prod.mk.injEq] at he
    obtain ⟨rfl, rfl⟩ := he
    exact ⟨bus, [], hb, Adds.refl _, fun _ _ hx => ⟨hx, by simp [astEvents]⟩⟩
  | cons op rest ih =>
    intro c c' bus log hb hbr hj he
    simp only [Core.astRun] at he
    obtain ⟨⟨c1, e1, rc1⟩, h1, he⟩ := Res.bind_eq_ok.mp he
    obtain ⟨⟨c2, log2⟩, h2, he⟩ := Res.bind_eq_ok.mp he
    simp only [Except.ok.injEq, Prod.mk.injEq] at he
    obtain ⟨rfl, rfl⟩ := he
    obtain ⟨b1, hb1, hbr1, hj1⟩ := astStep_inv hb hbr hj h1
    obtain ⟨b1', l1, hb1', ha1, hg⟩ := astStep_idle hb hbr hj h1
    have : b1 = b1' := by rw [hb1] at hb1'; simpa using hb1'
    subst this
    obtain ⟨b2, l2, hb2, ha2, hg2⟩ := ih hb1 hbr1 hj1 h2
    refine ⟨b2, l1 ++ l2, hb2, ha1.trans ha2, fun h0 hno hx => ?_⟩
    obtain ⟨hx1, he1⟩ := hg (fun ha => h0 (List.mem_append.mpr (.inl ha))) (fun a ha => hno a (List.mem_append.mpr (.inl ha))) hx
    obtain ⟨hx2, he2⟩ := hg2 (fun ha => h0 (List.mem_append.mpr (.inr ha))) (fun a ha => hno a (List.mem_append.mpr (.inr ha))) hx1
    refine ⟨hx2, ?_⟩
    have : astEvents (⟨op, e1, rc1⟩ :: log2) = e1 ++ astEvents log2 := rfl
    rw [this]
    intro x hx
    rcases List.mem_append.mp hx with hx | hx
    · exact he1 x hx
    · exact he2 x hx

/-- A host has no channel when it has been registered. -/
theorem AstEndpoint.idle {hw : Hw E} {env : E} {eid : Byte} {mx : Nat} {mtu : Nat} {mem : Mem}
    {c0 : Core (AstSt E)} (h : AstEndpoint hw env eid mx .host mtu mem c0) {bus : Bus (AstSt E)} (hb : c0.busses = [bus]) :
    bus.binding.st.rx.state = .idle := by
  obtain ⟨rc, s, hrc, hs, hb', -⟩ := h.start
  rw [hb] at hb'
  simp only [List.cons.injEq, and_true] at hb'
  subst hb'
  have hs : initHost hw (astZero env .host mtu) = .ok (rc, s) := hs
  obtain ⟨-, h3, -⟩ := initHost_inv (astZero_inv env .host mtu) hs
  show s.rx.state = .idle
  rw [h3]; rfl

end Mctp
