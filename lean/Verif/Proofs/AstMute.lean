import Verif.Proofs.AstBegin
import Verif.Proofs.AstShut
import Verif.Proofs.Retry

/-!
# A BMC that has no channel receives nothing
-/

namespace Mctp

open Spec

variable {E : Type}

/-- No channel was negotiated, or the negotiation ended with version 0. -/
def Mute (s : AstSt E) : Prop := s.rx.state = .idle ∨ s.proto = some 0

theorem TxOnly.mute {bus bus' : Bus (AstSt E)} (h : TxOnly bus bus') (hx : Mute bus.binding.st) :
    Mute bus'.binding.st := by
  unfold Mute at hx ⊢
  rw [h.rx, h.prot]; exact hx

/-- A step of a BMC that does not read the command 0: it leaves the channel as it is, and nothing is received. -/
def KeepsMute (bus : Bus (AstSt E)) (e : List Event) (c' : Core (AstSt E)) : Prop :=
  ∃ bus' l, c'.busses = [bus'] ∧ Adds bus.binding.st bus'.binding.st l ∧
    (Access.kcsRead .data 0 0 ∉ l → Mute bus.binding.st → Mute bus'.binding.st ∧
      (bus.binding.st.rx.state = .idle → bus'.binding.st.rx.state = .idle) ∧ ∀ x ∈ e, IsTxEvent x)

theorem astCommand_mute {hw : Hw E} {mtu : Nat} {c c' : Core (AstSt E)} {bus : Bus (AstSt E)} {e : List Event}
    {status data : Byte} {rc : Int} {stop : Bool} (hb : c.busses = [bus])
    (hj : AstJ .bmc mtu bus)
    (hw1 : ∃ w, (Traced bus.binding.st w ∧ Phase bus.binding.st w) ∧ (data = 2 → bus.binding.st.tx.state = .released → w.tx = .free))
    (hd : data ≠ 0) (hx : bus.binding.st.rx.state = .idle ∨ bus.binding.st.proto = some 0 ∧ data = 255)
    (he : c.astCommand hw 0 status data = .ok (c', e, rc, stop)) :
    ∃ bus', c'.busses = [bus'] ∧ bus'.binding.st.rx = bus.binding.st.rx ∧ bus'.binding.st.proto = bus.binding.st.proto ∧
      ∀ x ∈ e, IsTxEvent x := by
  unfold Core.astCommand at he
  obtain ⟨bus1, hbus, he⟩ := Res.bind_eq_ok.mp he
  obtain ⟨-, rfl⟩ := busAt_single hb hbus
  simp only at he
  have hm : bus1.binding.st.mode = .bmc := hj.1.mode
  split at he
  · rename_i h; exact absurd h hd
  split at he
  · rename_i h
    split at he
    · simp only [Except.ok.injEq, Prod.mk.injEq] at he
      obtain ⟨rfl, rfl, -⟩ := he
      exact ⟨_, hb, rfl, rfl, by simp⟩
    · rename_i hr
      have hr := Decidable.not_not.mp hr
      rcases hx with hx | ⟨-, hx⟩
      · rw [hr] at hx; cases hx
      · rw [h] at hx; exact absurd hx (by decide)
  split at he
  · split at he
    · simp only [Except.ok.injEq, Prod.mk.injEq] at he
      obtain ⟨rfl, rfl, -⟩ := he
      exact ⟨_, hb, rfl, rfl, by simp⟩
    · rename_i hr
      have hr := Decidable.not_not.mp hr
      obtain ⟨⟨c1, e1⟩, h1, he⟩ := Res.bind_eq_ok.mp he
      simp only [Except.ok.injEq, Prod.mk.injEq] at he
      obtain ⟨rfl, rfl, -⟩ := he
      unfold Core.astTxComplete at h1
      obtain ⟨bus2, hbus2, h1⟩ := Res.bind_eq_ok.mp h1
      obtain ⟨-, rfl⟩ := busAt_single hb hbus2
      simp only at h1
      rw [setSt_single hb] at h1
      have hl2 : LaySafe { bus2.binding.st with tx := { bus2.binding.st.tx with state := .acquired } } :=
        (hj.1.busy (.inr hr)).congr rfl rfl rfl rfl
      obtain ⟨w, htr, hfree⟩ := hw1
      obtain ⟨b2, m2, rfl, hto, -, -, hev⟩ := setTxEnabled_only (mode := .bmc) (mtu := mtu) rfl
        (bus := { bus2 with binding := { bus2.binding with st := { bus2.binding.st with tx := { bus2.binding.st.tx with state := .acquired } } } })
        ⟨hj.1.mode, hj.1.mtu, hj.1.proto, .inr hl2, fun _ => hl2, w, htr.1.congr rfl rfl,
          fun _ => hfree (by assumption) hr, by simp, by simp, htr.2.half, htr.2.rxp⟩ (fun _ => ⟨rfl, hl2⟩) h1
      exact ⟨b2, rfl, hto.rx, hto.prot, hev⟩
  split at he
  · rw [if_neg (by rw [hm]; simp)] at he
    simp only [Except.ok.injEq, Prod.mk.injEq] at he
    obtain ⟨rfl, rfl, -⟩ := he
    exact ⟨_, hb, rfl, rfl, by simp⟩
  · simp only [Except.ok.injEq, Prod.mk.injEq] at he
    obtain ⟨rfl, rfl, -⟩ := he
    exact ⟨_, hb, rfl, rfl, by simp⟩

theorem astPoll_mute {hw : Hw E} {mtu : Nat} {c c' : Core (AstSt E)} {bus : Bus (AstSt E)} {e : List Event} {rc : Int}
    (hb : c.busses = [bus]) (hbr : c.bridge = false)
    (hj : AstJ .bmc mtu bus) (he : c.astPoll hw 0 = .ok (c', e, rc)) : KeepsMute bus e c' := by
  obtain ⟨l1, l2, har, h1, h2, hrest⟩ := astRetry_adds hw bus.binding.st
  have hpro : (astRetry hw bus.binding.st).proto = bus.binding.st.proto := by rw [hrest]
  have hidle : bus.binding.st.rx.state = .idle → (astRetry hw bus.binding.st).rx.state = .idle := by
    intro h
    rw [astRetry_rx hw _ (by rw [h]; simp)]; exact h
  obtain ⟨-, hcase⟩ := astPoll_view hb hj he
  rcases hcase with ⟨r, w, s, hs, ha, hj1, hcond, hrc, rfl, rfl⟩ | ⟨w, r, d', s, hs, ha, hj1, hrd, hcase⟩
  · refine ⟨_, _, rfl, har.trans ha, fun _ hx => ⟨?_, ?_, by simp⟩⟩
    · exact hx.imp (fun h => by simp only; rw [hs.rx]; exact hidle h) (fun h => by simp only; rw [hs.proto, hpro]; exact h)
    · intro h; simp only; rw [hs.rx]; exact hidle h
  · rcases hcase with ⟨hcond, hrc, rfl, rfl⟩ | ⟨rfl, ⟨ver, hver, hver0⟩, ⟨w1, hw1a, hw1b, hw1c, hw1d⟩, c1, e1, rc1, stop, hcmd, hfin⟩
    · refine ⟨_, _, rfl, har.trans ha, fun _ hx => ⟨?_, ?_, by simp⟩⟩
      · exact hx.imp (fun h => by simp only; rw [hs.rx]; exact hidle h) (fun h => by simp only; rw [hs.proto, hpro]; exact h)
      · intro h; simp only; rw [hs.rx]; exact hidle h
    · obtain ⟨b1, hb1, lc, hlc, -⟩ := astCommand_growC rfl (by exact hbr) hj1 ⟨w1, hw1a, hw1b, hw1c, hw1d⟩ hcmd
      have hfin' : c' = c1 ∧ e = e1 := by
        rcases hfin with ⟨-, rfl, rfl, -⟩ | ⟨-, e2, haf, rfl⟩
        · exact ⟨rfl, rfl⟩
        · unfold Core.astAfter at haf
          rw [if_neg (by rw [hj.1.mode]; simp)] at haf
          simp only [Except.ok.injEq, Prod.mk.injEq] at haf
          exact ⟨haf.1.symm, by rw [← haf.2.1, List.append_nil]⟩
      obtain ⟨rfl, rfl⟩ := hfin'
      refine ⟨b1, _, hb1, (har.trans ha).trans hlc, fun hno hx => ?_⟩
      have hd0 : d' ≠ 0 := fun h => hno (by rw [h]; simp)
      obtain ⟨b2, hb2, hrx, hpr, hev⟩ := astCommand_mute rfl hj1 ⟨w1, ⟨hw1a, hw1b⟩, hw1d⟩ hd0
        (by
          rcases hx with hx | hx
          · left; simp only; rw [hs.rx]; exact hidle hx
          · right
            have : ver = 0 := by rw [hx] at hver; simpa using hver.symm
            refine ⟨by simp only; rw [hs.proto, hpro]; exact hx, (hver0 this).resolve_left hd0⟩) hcmd
      have : b2 = b1 := by rw [hb1] at hb2; simpa using hb2.symm
      subst this
      refine ⟨?_, ?_, hev⟩
      · exact hx.imp (fun h => by rw [hrx]; simp only; rw [hs.rx]; exact hidle h) (fun h => by rw [hpr]; simp only; rw [hs.proto, hpro]; exact h)
      · intro h; rw [hrx]; simp only; rw [hs.rx]; exact hidle h

theorem astStep_mute {hw : Hw E} {mtu : Nat} {c c' : Core (AstSt E)} {bus : Bus (AstSt E)} {op : AstOp} {e : List Event}
    {rc : Int} (hb : c.busses = [bus]) (hbr : c.bridge = false)
    (hj : AstJ .bmc mtu bus) (he : c.astStep hw op = .ok (c', e, rc)) : KeepsMute bus e c' := by
  unfold Core.astStep at he
  split at he
  · rename_i o ho
    have hop : IsApp o := by
      cases op <;> simp only [AstOp.core, Option.some.injEq, reduceCtorEq] at ho <;> subst ho <;> trivial
    obtain ⟨bus', m, hx', hc, mx, hc', ⟨hj', ho'⟩, hev⟩ := step_keeps (txOnly_keeps hw .bmc mtu bus) hb (os := [])
      ⟨hj, TxOnly.refl _⟩ hop he
    obtain ⟨l, ha, -⟩ := ho'.adds
    exact ⟨bus', l, by rw [hc'], ha, fun _ h => ⟨ho'.mute h, fun h => by rw [ho'.rx]; exact h, hev⟩⟩
  · exact astPoll_mute hb hbr hj he

theorem astRun_mute {hw : Hw E} {mtu : Nat} {hist : List AstOp} :
    ∀ {c c' : Core (AstSt E)} {bus : Bus (AstSt E)} {log : List AstRec}, c.busses = [bus] → c.bridge = false →
      AstJ .bmc mtu bus → c.astRun hw hist = .ok (c', log) → KeepsMute bus (astEvents log) c' := by
  induction hist with
  | nil =>
    intro c c' bus log hb hbr hj he
    simp only [Core.astRun, Except.ok.injEq, Prod.mk.injEq] at he
    obtain ⟨rfl, rfl⟩ := he
    exact ⟨bus, [], hb, Adds.refl _, fun _ hx => ⟨hx, id, by simp [astEvents]⟩⟩
  | cons op rest ih =>
    intro c c' bus log hb hbr hj he
    simp only [Core.astRun] at he
    obtain ⟨⟨c1, e1, rc1⟩, h1, he⟩ := Res.bind_eq_ok.mp he
    obtain ⟨⟨c2, log2⟩, h2, he⟩ := Res.bind_eq_ok.mp he
    simp only [Except.ok.injEq, Prod.mk.injEq] at he
    obtain ⟨rfl, rfl⟩ := he
    obtain ⟨b1, hb1, hbr1, hj1⟩ := astStep_inv hb hbr hj h1
    obtain ⟨b1', l1, hb1', ha1, hg⟩ := astStep_mute hb hbr hj h1
    have : b1 = b1' := by rw [hb1] at hb1'; simpa using hb1'
    subst this
    obtain ⟨b2, l2, hb2, ha2, hg2⟩ := ih hb1 hbr1 hj1 h2
    refine ⟨b2, l1 ++ l2, hb2, ha1.trans ha2, fun hno hx => ?_⟩
    obtain ⟨hx1, hi1, he1⟩ := hg (fun ha => hno (List.mem_append.mpr (.inl ha))) hx
    obtain ⟨hx2, hi2, he2⟩ := hg2 (fun ha => hno (List.mem_append.mpr (.inr ha))) hx1
    refine ⟨hx2, fun h => hi2 (hi1 h), ?_⟩
    have : astEvents (⟨op, e1, rc1⟩ :: log2) = e1 ++ astEvents log2 := rfl
    rw [this]
    intro x hx
    rcases List.mem_append.mp hx with hx | hx
    · exact he1 x hx
    · exact he2 x hx

/-- A BMC has no channel when it has been registered. -/
theorem AstEndpoint.mute {hw : Hw E} {env : E} {eid : Byte} {mx : Nat} {mtu : Nat} {mem : Mem}
    {c0 : Core (AstSt E)} (h : AstEndpoint hw env eid mx .bmc mtu mem c0) {bus : Bus (AstSt E)} (hb : c0.busses = [bus]) :
    bus.binding.st.rx.state = .idle := by
  obtain ⟨rc, s, hrc, hs, hb', -⟩ := h.start
  rw [hb] at hb'
  simp only [List.cons.injEq, and_true] at hb'
  subst hb'
  have hs : initBmc hw { astZero env .bmc mtu with proto := some astVerCur } = .ok (rc, s) := hs
  obtain ⟨-, -, h3, -⟩ := initBmc_shape hs
  exact h3

/-- The version a BMC finds. -/
theorem initChannel_proto {hw : Hw E} {b b' : Binding (AstSt E)} {on : Bool} (he : initChannel hw b = .ok (on, b'))
    {hdr : List Byte} {r1 : Int} {rest : List Access} (ha : Adds b.st b'.st (.lpcRead 0 hdr r1 :: rest)) :
    b'.st.proto = some (negotiateVersion 1 3 (field16 hdr 8) (field16 hdr 10)) := by
  unfold initChannel at he
  obtain ⟨⟨q1, h1, s1⟩, hr1, he⟩ := Res.bind_eq_ok.mp he
  have a1 := lpcRead_adds hr1
  simp only at he
  generalize hn : negotiateVersion astVerMin astVerCur (field16 h1 offHostMin) (field16 h1 offHostCur) = n at he
  split at he
  · cases he
  · obtain ⟨⟨rc, b2⟩, hr2, he⟩ := Res.bind_eq_ok.mp he
    obtain ⟨⟨mid, a2, hmid⟩, hprot⟩ := negotiateLayoutBmc_still hr2
    have a2 : Adds s1 b2.st mid := a2.congr rfl rfl
    obtain ⟨⟨r3, s3⟩, hr3, he⟩ := Res.bind_eq_ok.mp he
    have a3 := lpcWrite_adds hr3
    have hs3 := (lpcWrite_ok hr3).1
    simp only at he
    generalize (if (if rc < 0 then 0 else n) > 0 then kcsBmcReady ||| kcsObf ||| kcsChannelActive else kcsBmcReady ||| kcsObf) = st at he
    generalize hk : kcsSetStatus hw { s3 with tx := { s3.tx with state := .acquired }, rx := { s3.rx with state := .released } } st = r at he
    obtain ⟨r4, s4⟩ := r
    obtain ⟨hs4, -, l, a4, hset⟩ := kcsSetStatus_adds hk
    have a4 : Adds s3 s4 l := a4.congr rfl rfl
    simp only [Except.ok.injEq, Prod.mk.injEq] at he
    obtain ⟨-, rfl⟩ := he
    have heq := ha.inj (((a1.trans a2).trans a3).trans a4)
    simp only [List.cons_append, List.nil_append, List.cons.injEq, Access.lpcRead.injEq, true_and] at heq
    obtain ⟨⟨rfl, rfl⟩, -⟩ := heq
    show s4.proto = _
    rw [hs4.proto]
    show s3.proto = _
    rw [hs3.proto, hprot]
    exact congrArg some hn.symm

end Mctp
