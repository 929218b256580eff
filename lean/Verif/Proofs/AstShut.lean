import Verif.Proofs.AstWrote

/-!
# A binding that has been shut stays silent
-/

namespace Mctp

open Spec

variable {E : Type}

/-- The bus does not accept packets, and no packet is in the transmit buffer or with the other side. -/
def Shut (bus : Bus (AstSt E)) : Prop :=
  bus.state ≠ .txEnabled ∧ (bus.binding.st.tx.state = .idle ∨ bus.binding.st.tx.state = .acquired)

/-- A step that leaves the bus shut and transmits nothing. -/
def ShutC (bus : Bus (AstSt E)) (e : List Event) (c' : Core (AstSt E)) : Prop :=
  ∃ bus', c'.busses = [bus'] ∧ Shut bus' ∧ offers 0 e = [] ∧ Still bus.binding.st bus'.binding.st

theorem astUpdateActive_shut {hw : Hw E} {mode : AstMode} {mtu : Nat} {c c' : Core (AstSt E)} {i : Nat}
    {bus : Bus (AstSt E)} {e : List Event} {status updated : Byte} {rc : Int} (hb : c.busses = [bus])
    (hj : AstJ mode mtu bus) (h6 : status &&& kcsChannelActive = 0)
    (hx : Shut bus) (he : c.astUpdateActive hw i status updated = .ok (c', e, rc)) : ShutC bus e c' := by
  unfold Core.astUpdateActive at he
  obtain ⟨bus1, hbus, he⟩ := Res.bind_eq_ok.mp he
  obtain ⟨rfl, rfl⟩ := busAt_single hb hbus
  obtain ⟨version, hver, he⟩ := Res.bind_eq_ok.mp he
  simp only at he
  split at he
  · obtain ⟨⟨rc1, b1⟩, hf, he⟩ := Res.bind_eq_ok.mp he
    have h1 := finaliseChannel_still hf
    have hi0 := hj.1.states
    obtain ⟨hi1, hk1, hres⟩ := finaliseChannel_inv (b := { bus1.binding with st := { bus1.binding.st with rx := { bus1.binding.st.rx with state := .idle }, tx := { bus1.binding.st.tx with state := .idle } } }) hi0 rfl rfl hf
    obtain ⟨⟨c1, e1⟩, hset, he⟩ := Res.bind_eq_ok.mp he
    rw [setBinding_single hb] at hset
    have hd : decide (status &&& kcsChannelActive ≠ 0 ∧ rc1 = 0) = false := by simp [h6]
    rw [hd] at hset
    obtain ⟨rfl, -, rfl⟩ := setTxEnabled_false rfl hset
    obtain ⟨bus2, hbus2, he⟩ := Res.bind_eq_ok.mp he
    obtain ⟨-, rfl⟩ := busAt_single rfl hbus2
    simp only [Except.ok.injEq, Prod.mk.injEq] at he
    obtain ⟨rfl, rfl, -⟩ := he
    rw [setSt_single rfl]
    refine ⟨_, rfl, ⟨?_, ?_⟩, rfl, h1.congr rfl rfl⟩
    · simp only; split <;> simp
    · simp only
      rcases hres with ⟨_, ha, _⟩ | ⟨_, ha, _⟩
      · exact .inr ha
      · exact .inl (by rw [ha])
  · simp only [Except.ok.injEq, Prod.mk.injEq] at he
    obtain ⟨rfl, rfl, -⟩ := he
    rw [setSt_single hb]
    exact ⟨_, rfl, hx, rfl, (Still.refl _).congr rfl rfl⟩

theorem xor_mask (a b m : Byte) : (a ^^^ b) &&& m = (a &&& m) ^^^ (b &&& m) := by
  ext i
  simp only [BitVec.getElem_and, BitVec.getElem_xor]
  cases a[i] <;> cases b[i] <;> cases m[i] <;> rfl

/-- Updating the channel with a status that does not show an active channel: the bus is left shut if it was shut or
if the loss of BMC-ready is noticed. -/
theorem astUpdateChannel_shut {hw : Hw E} {mode : AstMode} {mtu : Nat} {c c' : Core (AstSt E)} {i : Nat}
    {bus : Bus (AstSt E)} {e : List Event} {status : Byte} {rc : Int} (hb : c.busses = [bus])
    (hj : AstJ mode mtu bus) (h6 : status &&& kcsChannelActive = 0)
    (hx : Shut bus ∨ (bus.binding.st.kcsStatus &&& kcsBmcReady ≠ 0 ∧ status &&& kcsBmcReady = 0))
    (he : c.astUpdateChannel hw i status = .ok (c', e, rc)) : ShutC bus e c' := by
  unfold Core.astUpdateChannel at he
  obtain ⟨bus1, hbus, he⟩ := Res.bind_eq_ok.mp he
  obtain ⟨rfl, rfl⟩ := busAt_single hb hbus
  simp only at he
  split at he
  · cases he
  rename_i hhost
  have hhost : bus1.binding.st.mode = .host := Decidable.not_not.mp hhost
  by_cases hu : (bus1.binding.st.kcsStatus ^^^ status) &&& kcsBmcReady ≠ 0
  · rw [if_pos hu] at he
    by_cases h7 : status &&& kcsBmcReady ≠ 0
    · rw [if_pos h7] at he
      obtain ⟨⟨rc1, s1⟩, hs, he⟩ := Res.bind_eq_ok.mp he
      simp only [Except.ok.injEq, Prod.mk.injEq] at he
      obtain ⟨rfl, rfl, -⟩ := he
      rw [setSt_single hb]
      have hmode : mode = .host := by
        have := hj.1.mode
        cases mode with
        | host => rfl
        | bmc =>
          have h2 := hhost
          rw [h2] at this; cases this
      subst hmode
      have hstart : initHost hw { bus1.binding.st with kcsStatus := status } = .ok (rc1, s1) := by
        unfold astStart at hs
        split at hs
        · rename_i hmm
          have h2 := hhost
          have hmm : bus1.binding.st.mode = .bmc := hmm
          rw [h2] at hmm; cases hmm
        · exact hs
      have hi : AstInv .host mtu { bus1.binding.st with kcsStatus := status } := by
        obtain ⟨hm, hmt, hpr, hlay, hbusy, w, htr, hph⟩ := hj.1
        exact ⟨hm, hmt, hpr, hlay, hbusy, w, htr.congr rfl rfl, hph.quiet rfl rfl rfl rfl⟩
      obtain ⟨-, -, htx⟩ := initHost_inv hi hstart
      rcases hx with hx | hx
      · refine ⟨_, rfl, ⟨hx.1, ?_⟩, rfl, (astStart_still (by exact hhost) hs).congr rfl rfl⟩
        rw [htx]; exact hx.2
      · exact absurd hx.2 h7
    · rw [if_neg h7] at he
      obtain ⟨⟨c1, e1⟩, hset, he⟩ := Res.bind_eq_ok.mp he
      obtain ⟨⟨c2, e2, rc2⟩, hact, he⟩ := Res.bind_eq_ok.mp he
      simp only [Except.ok.injEq, Prod.mk.injEq] at he
      obtain ⟨rfl, rfl, -⟩ := he
      rw [setSt_single hb] at hset
      obtain ⟨bus', m, rfl, ho, hj', hoff, -⟩ := setTxEnabled_only rfl hj.1.states (by simp) hset
      obtain ⟨hbi, hst, rfl⟩ := hoff rfl
      obtain ⟨bus2, hb2, hs2, ho2, hl2⟩ := astUpdateActive_shut rfl hj' h6 ⟨hst, .inl (by rw [hbi])⟩ hact
      refine ⟨bus2, hb2, hs2, ho2, ?_⟩
      rw [hbi] at hl2
      exact hl2.congr rfl rfl
  · rw [if_neg hu] at he
    rcases hx with hx | hx
    · exact astUpdateActive_shut hb hj h6 hx he
    · exfalso
      apply hu
      rw [xor_mask, hx.2]
      simpa using hx.1

theorem astRxStart_shut {hw : Hw E} {mode : AstMode} {mtu : Nat} {c c' : Core (AstSt E)} {i : Nat}
    {bus : Bus (AstSt E)} {e : List Event} (hb : c.busses = [bus]) (hbr : c.bridge = false) (hi : AstInv mode mtu bus.binding.st)
    (hx : Shut bus) (he : c.astRxStart hw i = .ok (c', e)) : ShutC bus e c' := by
  obtain ⟨rfl, hl, v, r0, lenBytes, s1, hv, hv0, hv4, hr0, hcases⟩ := astRxStart_cases hb hi he
  have h1 := lpcRead_still hr0
  have e1 : s1.tx = bus.binding.st.tx := (lpcRead_ok hr0).1.tx
  have hafter : ∀ s2 : AstSt E, Still s2 (afterRead hw s2) ∧ (afterRead hw s2).tx = s2.tx := by
    intro s2
    unfold afterRead
    generalize hk : kcsSend hw { s2 with rx := { s2.rx with state := .prepared } } cmdRxComplete = r
    obtain ⟨rc, s3⟩ := r
    have hg := (kcsSend_still (by decide) hk).congr (a' := s2) (b' := s3) rfl rfl
    have ht : s3.tx = s2.tx := (kcsSend_adds hk).1.tx
    simp only
    split
    · exact ⟨hg.congr rfl rfl, ht⟩
    · exact ⟨hg, ht⟩
  rcases hcases with ⟨-, rfl, rfl⟩ | ⟨hfit, -, hcases⟩
  · rw [setSt_single hb]; exact ⟨_, rfl, ⟨hx.1, by rw [e1]; exact hx.2⟩, rfl, h1⟩
  · rcases hcases with ⟨m, rfl, rfl, -⟩ | ⟨r1, bytes, s2, hr1, hblen, hcases⟩
    · rw [setSt_single (by exact hb)]; exact ⟨_, rfl, ⟨hx.1, by rw [e1]; exact hx.2⟩, rfl, h1⟩
    · have h2 := (h1.trans (lpcRead_still hr1)).trans (hafter s2).1
      have e2 : (afterRead hw s2).tx = bus.binding.st.tx := (hafter s2).2.trans ((lpcRead_ok hr1).1.tx.trans e1)
      have hx2 : Shut { bus with binding := { bus.binding with st := afterRead hw s2 } } :=
        ⟨hx.1, by rw [e2]; exact hx.2⟩
      rcases hcases with ⟨-, ⟨m, rfl⟩, rfl⟩ | ⟨-, -, m, pkt, hp, hrx⟩
      · rw [setSt_single (by exact hb)]; exact ⟨_, rfl, hx2, rfl, h2⟩
      · rw [setSt_single (by exact hb)] at hrx
        obtain ⟨m2, t, rfl, ho, -⟩ := busRx_busses rfl (by exact hbr) hp hrx
        exact ⟨_, rfl, hx2, ho 0, h2⟩

theorem astCommand_shut {hw : Hw E} {mode : AstMode} {mtu : Nat} {c c' : Core (AstSt E)} {i : Nat}
    {bus : Bus (AstSt E)} {e : List Event} {status data : Byte} {rc : Int} {stop : Bool} (hb : c.busses = [bus])
    (hbr : c.bridge = false) (hj : AstJ mode mtu bus) (hd : data ≠ 0)
    (h6 : mode = .host → status &&& kcsChannelActive = 0) (hx : Shut bus)
    (he : c.astCommand hw i status data = .ok (c', e, rc, stop)) : ShutC bus e c' := by
  have hc : ShutC bus [] c := ⟨bus, hb, hx, rfl, Still.refl _⟩
  unfold Core.astCommand at he
  obtain ⟨bus1, hbus, he⟩ := Res.bind_eq_ok.mp he
  obtain ⟨rfl, rfl⟩ := busAt_single hb hbus
  simp only at he
  split at he
  · rename_i h; exact absurd h hd
  · split at he
    · split at he
      · simp only [Except.ok.injEq, Prod.mk.injEq] at he
        obtain ⟨rfl, rfl, -⟩ := he; exact hc
      · obtain ⟨⟨c1, e1⟩, h1, he⟩ := Res.bind_eq_ok.mp he
        simp only [Except.ok.injEq, Prod.mk.injEq] at he
        obtain ⟨rfl, rfl, -⟩ := he
        exact astRxStart_shut hb hbr hj.1 hx h1
    · split at he
      · split at he
        · simp only [Except.ok.injEq, Prod.mk.injEq] at he
          obtain ⟨rfl, rfl, -⟩ := he; exact hc
        · rename_i hrel
          have hrel : bus1.binding.st.tx.state = .released := Decidable.not_not.mp hrel
          rcases hx.2 with h | h <;> rw [h] at hrel <;> cases hrel
      · split at he
        · split at he
          · rename_i hm
            obtain ⟨⟨c1, e1, rc1⟩, h1, he⟩ := Res.bind_eq_ok.mp he
            simp only [Except.ok.injEq, Prod.mk.injEq] at he
            obtain ⟨rfl, rfl, -⟩ := he
            exact astUpdateChannel_shut hb hj (h6 (hj.1.mode ▸ hm)) (.inl hx) h1
          · simp only [Except.ok.injEq, Prod.mk.injEq] at he
            obtain ⟨rfl, rfl, -⟩ := he; exact hc
        · simp only [Except.ok.injEq, Prod.mk.injEq] at he
          obtain ⟨rfl, rfl, -⟩ := he; exact hc

theorem active_bit {v : Byte} (h : v.getLsbD 6 = false) : v &&& kcsChannelActive = 0 := by
  apply BitVec.eq_of_getLsbD_eq
  intro i hi
  unfold kcsChannelActive
  rw [BitVec.getLsbD_and]
  match i, hi with
  | 0, _ => simp | 1, _ => simp | 2, _ => simp | 3, _ => simp | 4, _ => simp | 5, _ => simp
  | 6, _ => rw [h]; simp
  | 7, _ => simp

theorem bit_active {v : Byte} (h : v.getLsbD 6 = true) : v &&& kcsChannelActive ≠ 0 := by
  intro hc
  have := congrArg (fun x : Byte => x.getLsbD 6) hc
  simp only [BitVec.getLsbD_and, h] at this
  revert this; decide

theorem ready_bit {v : Byte} (h : v.getLsbD 7 = false) : v &&& kcsBmcReady = 0 := by
  apply BitVec.eq_of_getLsbD_eq
  intro i hi
  unfold kcsBmcReady
  rw [BitVec.getLsbD_and]
  match i, hi with
  | 0, _ => simp | 1, _ => simp | 2, _ => simp | 3, _ => simp | 4, _ => simp | 5, _ => simp
  | 6, _ => simp
  | 7, _ => rw [h]; simp

theorem bit_ready {v : Byte} (h : v.getLsbD 7 = true) : v &&& kcsBmcReady ≠ 0 := by
  intro hc
  have := congrArg (fun x : Byte => x.getLsbD 7) hc
  simp only [BitVec.getLsbD_and, h] at this
  revert this; decide

theorem Mild.hushed {a : Access} (h : Mild a) : Hushed a := by
  unfold Mild at h
  unfold Hushed
  split <;> simp_all

/-- A step that, unless it reads something that opens the channel, keeps a shut bus shut and transmits
nothing. -/
def KeepsShut (mode : AstMode) (bus : Bus (AstSt E)) (e : List Event) (c' : Core (AstSt E)) : Prop :=
  ∃ bus' l, c'.busses = [bus'] ∧ Adds bus.binding.st bus'.binding.st l ∧
    ((∀ a ∈ l, ¬ Opens mode a) → Shut bus → Shut bus' ∧ offers 0 e = [] ∧ ∀ a ∈ l, Hushed a)

theorem astPoll_shut {hw : Hw E} {mode : AstMode} {mtu : Nat} {c c' : Core (AstSt E)}
    {bus : Bus (AstSt E)} {e : List Event} {rc : Int} (hb : c.busses = [bus]) (hbr : c.bridge = false)
    (hj : AstJ mode mtu bus) (he : c.astPoll hw 0 = .ok (c', e, rc)) : KeepsShut mode bus e c' := by
  obtain ⟨l1, l2, har, h1, h2, -⟩ := astRetry_adds hw bus.binding.st
  have hret : Shut bus → (∀ a ∈ l1 ++ l2, Hushed a) ∧ (astRetry hw bus.binding.st).tx = bus.binding.st.tx := by
    intro hx
    rcases h2 with ⟨h, -⟩ | ⟨-, rfl, ht⟩
    · rcases hx.2 with h' | h' <;> rw [h'] at h <;> cases h
    · refine ⟨?_, ht⟩
      rcases h1 with ⟨-, r, hs, -⟩ | ⟨-, rfl, -⟩
      · intro a ha
        rw [List.append_nil] at ha
        exact (hs.mild (by decide) a ha).hushed
      · simp
  obtain ⟨-, hcase⟩ := astPoll_view hb hj he
  rcases hcase with ⟨r, w, s, hs, ha, hj1, hcond, hrc, rfl, rfl⟩ | ⟨w, r, d', s, hs, ha, hj1, hrd, hcase⟩
  · refine ⟨_, _, rfl, har.trans ha, fun _ hx => ?_⟩
    obtain ⟨hh, ht⟩ := hret hx
    refine ⟨⟨hx.1, by simp only; rw [hs.tx, ht]; exact hx.2⟩, rfl, ?_⟩
    intro a ha
    rcases List.mem_append.mp ha with ha | ha
    · exact hh a ha
    · simp only [List.mem_singleton] at ha; subst ha; trivial
  · have hpre : ∀ hx : Shut bus, Shut { bus with binding := { bus.binding with st := s } } := by
      intro hx
      exact ⟨hx.1, by simp only; rw [hs.tx, (hret hx).2]; exact hx.2⟩
    have hhush : ∀ hx : Shut bus, ∀ a ∈ (l1 ++ l2) ++ [Access.kcsRead .status 0 w, .kcsRead .data r d'], Hushed a := by
      intro hx a ha
      rcases List.mem_append.mp ha with ha | ha
      · exact (hret hx).1 a ha
      · simp only [List.mem_cons, List.not_mem_nil, or_false] at ha
        rcases ha with rfl | rfl <;> trivial
    rcases hcase with ⟨hcond, hrc, rfl, rfl⟩ | ⟨rfl, hver, hw1, c1, e1, rc1, stop, hcmd, hfin⟩
    · exact ⟨_, _, rfl, har.trans ha, fun _ hx => ⟨hpre hx, rfl, hhush hx⟩⟩
    · obtain ⟨bus1, m1, t1, hc1, hj2⟩ := astCommand_frame rfl (by exact hbr) hj1 hw1 hcmd
      obtain ⟨b1, hb1, g1⟩ := astCommand_growC rfl (by exact hbr) hj1 hw1 hcmd
      have hb1' : c1.busses = [bus1] := by rw [hc1]
      have hbe : b1 = bus1 := by rw [hb1] at hb1'; simpa using hb1'
      subst hbe
      obtain ⟨lc, hlc, -⟩ := g1
      have hcommon : ∀ {rest : List Access}, (∀ a ∈ (l1 ++ l2 ++ [Access.kcsRead .status 0 w, .kcsRead .data 0 d']) ++ rest, ¬ Opens mode a) →
          d' ≠ 0 ∧ (mode = .host → w.getLsbD 6 = false) := by
        intro rest hno
        refine ⟨fun hd => hno (.kcsRead .data 0 d') (by simp) ⟨rfl, hd⟩, fun hm => ?_⟩
        cases h : w.getLsbD 6 with
        | false => rfl
        | true => exact absurd ⟨hm, rfl, h⟩ (hno (.kcsRead .status 0 w) (by simp))
      have hcmdshut : ∀ {rest : List Access}, (∀ a ∈ (l1 ++ l2 ++ [Access.kcsRead .status 0 w, .kcsRead .data 0 d']) ++ rest, ¬ Opens mode a) →
          Shut bus → ShutC { bus with binding := { bus.binding with st := s } } e1 c1 := by
        intro rest hno hx
        obtain ⟨hd, h6⟩ := hcommon hno
        exact astCommand_shut rfl (by exact hbr) hj1 hd (fun hm => active_bit (h6 hm)) (hpre hx) hcmd
      have hstill : ∀ {a b : AstSt E} {l : List Access}, Adds a b l → Still a b → ∀ x ∈ l, Hushed x := by
        intro a b l h ⟨l', h', hm⟩ x hx
        have : l = l' := by unfold Adds at h h'; rw [h] at h'; exact List.append_cancel_left h'
        subst this
        exact (hm x hx).hushed
      rcases hfin with ⟨-, rfl, rfl, -⟩ | ⟨-, e2, haf, rfl⟩
      · refine ⟨b1, _, hb1, (har.trans ha).trans hlc, fun hno hx => ?_⟩
        obtain ⟨b2, hb2, hs2, ho2, hl2⟩ := hcmdshut hno hx
        have : b2 = b1 := by rw [hb1] at hb2; simpa using hb2.symm
        subst this
        refine ⟨hs2, ho2, ?_⟩
        intro a ham
        rcases List.mem_append.mp ham with ham | ham
        · exact hhush hx a ham
        · exact hstill hlc hl2 a ham
      · unfold Core.astAfter at haf
        split at haf
        · rename_i hcond
          obtain ⟨b3, hb3, lg, hlg, -⟩ := astUpdateChannel_growC hb1 hj2 haf
          refine ⟨b3, _, hb3, ((har.trans ha).trans hlc).trans hlg, fun hno hx => ?_⟩
          rw [List.append_assoc] at hno
          obtain ⟨b2, hb2, hs2, ho2, hl2⟩ := hcmdshut hno hx
          have : b2 = b1 := by rw [hb1] at hb2; simpa using hb2.symm
          subst this
          obtain ⟨b4, hb4, hs4, ho4, hl4⟩ := astUpdateChannel_shut hb1 hj2
            (active_bit ((hcommon hno).2 (hj.1.mode ▸ hcond.1))) (.inl hs2) haf
          have : b4 = b3 := by rw [hb3] at hb4; simpa using hb4.symm
          subst this
          refine ⟨hs4, by rw [offers_append, ho2, ho4]; rfl, ?_⟩
          intro a ham
          rcases List.mem_append.mp ham with ham | ham
          · rcases List.mem_append.mp ham with ham | ham
            · exact hhush hx a ham
            · exact hstill hlc hl2 a ham
          · exact hstill hlg hl4 a ham
        · simp only [Except.ok.injEq, Prod.mk.injEq] at haf
          obtain ⟨rfl, rfl, -⟩ := haf
          refine ⟨b1, _, hb1, (har.trans ha).trans hlc, fun hno hx => ?_⟩
          obtain ⟨b2, hb2, hs2, ho2, hl2⟩ := hcmdshut hno hx
          have : b2 = b1 := by rw [hb1] at hb2; simpa using hb2.symm
          subst this
          refine ⟨hs2, by rw [List.append_nil]; exact ho2, ?_⟩
          intro a ham
          rcases List.mem_append.mp ham with ham | ham
          · exact hhush hx a ham
          · exact hstill hlc hl2 a ham

theorem shut_keeps (hw : Hw E) (s0 : AstSt E) :
    Keeps (astOps hw) fun os (bus : Bus (AstSt E)) => Shut bus ∧ os = [] ∧ bus.binding.st = s0 where
  tx := fun h hst _ _ => absurd hst h.1.1
  push := fun h _ _ => h
  off := fun h hst => absurd hst h.1.1

theorem astStep_shut {hw : Hw E} {mode : AstMode} {mtu : Nat} {c c' : Core (AstSt E)} {bus : Bus (AstSt E)}
    {op : AstOp} {e : List Event} {rc : Int} (hb : c.busses = [bus]) (hbr : c.bridge = false)
    (hj : AstJ mode mtu bus) (he : c.astStep hw op = .ok (c', e, rc)) : KeepsShut mode bus e c' := by
  obtain ⟨bg, hbg, -, hgl⟩ := astStep_wc hb hbr hj he
  unfold Core.astStep at he
  split at he
  · rename_i o ho
    have hop : IsApp o := by
      cases op <;> simp only [AstOp.core, Option.some.injEq, reduceCtorEq] at ho <;> subst ho <;> trivial
    by_cases hx : Shut bus
    · obtain ⟨bus', m, hx, hc, mx, hc', ⟨hs', ho', hst⟩, -⟩ := step_keeps (shut_keeps hw bus.binding.st) hb (os := [])
        ⟨hx, rfl, rfl⟩ hop he
      refine ⟨bus', [], by rw [hc'], by rw [hst]; exact Adds.refl _, fun _ _ => ⟨hs', by simpa using ho', by simp⟩⟩
    · obtain ⟨bus', m, hx', hc, mx, hc', ⟨hj', ho'⟩, -⟩ := step_keeps (txOnly_keeps hw mode mtu bus) hb (os := [])
        ⟨hj, TxOnly.refl _⟩ hop he
      obtain ⟨l, ha, -⟩ := ho'.adds
      exact ⟨bus', l, by rw [hc'], ha, fun _ h => absurd h hx⟩
  · exact astPoll_shut hb hbr hj he

theorem astRun_shut {hw : Hw E} {mode : AstMode} {mtu : Nat} {hist : List AstOp} :
    ∀ {c c' : Core (AstSt E)} {bus : Bus (AstSt E)} {log : List AstRec}, c.busses = [bus] → c.bridge = false →
      AstJ mode mtu bus → c.astRun hw hist = .ok (c', log) → KeepsShut mode bus (astEvents log) c' := by
  induction hist with
  | nil =>
    intro c c' bus log hb hbr hj he
    simp only [Core.astRun, Except.ok.injEq, Prod.mk.injEq] at he
    obtain ⟨rfl, rfl⟩ := he
    exact ⟨bus, [], hb, Adds.refl _, fun _ hx => ⟨hx, rfl, by simp⟩⟩
  | cons op rest ih =>
    intro c c' bus log hb hbr hj he
    simp only [Core.astRun] at he
    obtain ⟨⟨c1, e1, rc1⟩, h1, he⟩ := Res.bind_eq_ok.mp he
    obtain ⟨⟨c2, log2⟩, h2, he⟩ := Res.bind_eq_ok.mp he
    simp only [Except.ok.injEq, Prod.mk.injEq] at he
    obtain ⟨rfl, rfl⟩ := he
    obtain ⟨b1, hb1, hbr1, hj1⟩ := astStep_inv hb hbr hj h1
    obtain ⟨b1', l1, hb1', ha1, hg⟩ := astStep_shut hb hbr hj h1
    have : b1 = b1' := by rw [hb1] at hb1'; simpa using hb1'
    subst this
    obtain ⟨b2, l2, hb2, ha2, hg2⟩ := ih hb1 hbr1 hj1 h2
    refine ⟨b2, l1 ++ l2, hb2, ha1.trans ha2, fun hno hx => ?_⟩
    obtain ⟨hx1, ho1, hh1⟩ := hg (fun a ha => hno a (List.mem_append.mpr (.inl ha))) hx
    obtain ⟨hx2, ho2, hh2⟩ := hg2 (fun a ha => hno a (List.mem_append.mpr (.inr ha))) hx1
    refine ⟨hx2, ?_, ?_⟩
    · have : astEvents (⟨op, e1, rc1⟩ :: log2) = e1 ++ astEvents log2 := rfl
      rw [this, offers_append, ho1, ho2]; rfl
    · intro a ha
      rcases List.mem_append.mp ha with ha | ha
      · exact hh1 a ha
      · exact hh2 a ha

end Mctp
