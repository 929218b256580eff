import Verif.Spec.Active
import Verif.Proofs.AstShut
import Verif.Proofs.AstMicro
import Verif.Proofs.AstSafe

/-!
# A BMC accepts messages from the moment it shows an active channel
-/

namespace Mctp

open Spec

variable {E : Type}

/-- No channel yet, and none was shown. -/
def Unopened (bus : Bus (AstSt E)) : Prop :=
  bus.state = .constructed ∧ Shut bus ∧ ∀ a ∈ bus.binding.st.accs, ¬ ShowsActive a

/-- A channel was shown. -/
def Opened (bus : Bus (AstSt E)) : Prop := bus.state ≠ .constructed ∧ ∃ a ∈ bus.binding.st.accs, ShowsActive a

theorem hushed_notActive {a : Access} (h : Hushed a) : ¬ ShowsActive a := by
  unfold Hushed at h
  unfold ShowsActive
  split at h <;> simp_all

theorem unopened_adds {bus bus' : Bus (AstSt E)} {l : List Access} (h : Unopened bus) (hs : bus'.state = .constructed) (hx : Shut bus')
    (ha : Adds bus.binding.st bus'.binding.st l) (hl : ∀ a ∈ l, ¬ ShowsActive a) : Unopened bus' := by
  refine ⟨hs, hx, fun a h' => ?_⟩
  unfold Adds at ha
  rw [ha] at h'
  rcases List.mem_append.mp h' with h' | h'
  · exact h.2.2 a h'
  · exact hl a h'

/-- Polling a BMC without a channel. -/
theorem unopened_poll {hw : Hw E} {mtu : Nat} {c c' : Core (AstSt E)} {bus : Bus (AstSt E)} {e : List Event} {rc : Int}
    (hb : c.busses = [bus]) (hbr : c.bridge = false) (hj : AstJ .bmc mtu bus) (hg : AstGood .bmc mtu bus.binding) (hu : Unopened bus)
    (he : c.astPoll hw 0 = .ok (c', e, rc)) : ∃ bus', c'.busses = [bus'] ∧ (Unopened bus' ∨ Opened bus') := by
  obtain ⟨l1, l2, har, h1, h2, -⟩ := astRetry_adds hw bus.binding.st
  have hx := hu.2.1
  obtain ⟨hh, ht⟩ : (∀ a ∈ l1 ++ l2, Hushed a) ∧ (astRetry hw bus.binding.st).tx = bus.binding.st.tx := by
    rcases h2 with ⟨h, -⟩ | ⟨-, rfl, ht⟩
    · rcases hx.2 with h' | h' <;> rw [h'] at h <;> cases h
    · refine ⟨?_, ht⟩
      rcases h1 with ⟨-, r, hs, -⟩ | ⟨-, rfl, -⟩
      · intro a ha
        rw [List.append_nil] at ha
        exact (hs.mild (by decide) a ha).hushed
      · simp
  obtain ⟨-, hcase⟩ := astPoll_view hb hj he
  rcases hcase with ⟨r, w, s, hs, ha, hj1, hcond, hrc, rfl, rfl⟩ | ⟨w, r, d', s, hs, ha, hj1, hrd, hcase⟩
  · refine ⟨_, rfl, .inl (unopened_adds hu hu.1 ⟨hx.1, by simp only; rw [hs.tx, ht]; exact hx.2⟩ (har.trans ha) ?_)⟩
    intro a ha
    rcases List.mem_append.mp ha with ha | ha
    · exact hushed_notActive (hh a ha)
    · simp only [List.mem_singleton] at ha; subst ha; exact id
  · have hu1 : Unopened { bus with binding := { bus.binding with st := s } } := by
      refine unopened_adds hu hu.1 ⟨hx.1, by simp only; rw [hs.tx, ht]; exact hx.2⟩ (har.trans ha) ?_
      intro a ha
      rcases List.mem_append.mp ha with ha | ha
      · exact hushed_notActive (hh a ha)
      · simp only [List.mem_cons, List.not_mem_nil, or_false] at ha
        rcases ha with rfl | rfl <;> exact id
    rcases hcase with ⟨hcond, hrc, rfl, rfl⟩ | ⟨rfl, hver, hw1, c1, e1, rc1, stop, hcmd, hfin⟩
    · exact ⟨_, rfl, .inl hu1⟩
    · have hc' : c' = c1 := by
        rcases hfin with ⟨-, rfl, -⟩ | ⟨-, e2, haf, -⟩
        · rfl
        · unfold Core.astAfter at haf
          rw [if_neg (by rw [hj.1.mode]; simp)] at haf
          simp only [Except.ok.injEq, Prod.mk.injEq] at haf
          exact haf.1.symm
      subst hc'
      by_cases hd : d' = 0
      · subst hd
        unfold Core.astCommand at hcmd
        obtain ⟨bus2, hbus2, hcmd⟩ := Res.bind_eq_ok.mp hcmd
        obtain ⟨-, rfl⟩ := busAt_single rfl hbus2
        rw [if_pos (show (0 : Byte) = cmdInitialise from rfl)] at hcmd
        obtain ⟨⟨c3, e3⟩, hini, hcmd⟩ := Res.bind_eq_ok.mp hcmd
        simp only [Except.ok.injEq, Prod.mk.injEq] at hcmd
        obtain ⟨rfl, rfl, -, -⟩ := hcmd
        unfold Core.astInitChannel at hini
        obtain ⟨bus3, hbus3, hini⟩ := Res.bind_eq_ok.mp hini
        obtain ⟨-, rfl⟩ := busAt_single rfl hbus3
        obtain ⟨⟨on, b⟩, hic, hini⟩ := Res.bind_eq_ok.mp hini
        simp only at hini hic
        rw [setBinding_single rfl] at hini
        obtain ⟨q1, hdr', mid, q2, n, fin, l, haccs, hmid, hset, hn, -, hfin', hta, -⟩ := initChannel_view hic
        have hg1 : AstGood .bmc mtu b := by
          obtain ⟨on', b', k1, k2, -⟩ := initChannel_total hw (mtu := mtu) (b := { bus.binding with st := s }) ((astRetry_good hw hg).1.same hs)
          rw [hic] at k1
          simp only [Except.ok.injEq, Prod.mk.injEq] at k1
          rw [k1.2]; exact k2
        cases on with
        | false =>
          obtain ⟨-, -, rfl⟩ := setTxEnabled_false rfl hini
          refine ⟨_, rfl, .inl ⟨?_, ⟨?_, .inr hta⟩, ?_⟩⟩
          · simp only; rw [if_pos hu.1]
          · simp only; split <;> simp
          · intro a ham
            simp only at ham
            rw [haccs] at ham
            simp only [List.mem_append, List.mem_singleton] at ham
            rcases ham with (((ham | rfl) | ham) | rfl) | ham
            · exact hu1.2.2 a ham
            · exact id
            · exact hushed_notActive (hmid a ham).hushed
            · exact id
            · simp only [Bool.false_eq_true, if_false] at hfin'
              subst hfin'
              cases hset with
              | fail h => simp only [List.mem_singleton] at ham; subst ham; exact (show ¬ ((0x81 : Byte).getLsbD 6 = true) by decide)
              | set =>
                simp only [List.mem_cons, List.not_mem_nil, or_false] at ham
                rcases ham with rfl | rfl
                · exact (show ¬ ((0x81 : Byte).getLsbD 6 = true) by decide)
                · exact id
        | true =>
          unfold Core.setTxEnabled at hini
          obtain ⟨bus4, hbus4, hini⟩ := Res.bind_eq_ok.mp hini
          obtain ⟨-, rfl⟩ := busAt_single rfl hbus4
          have hc : bus.state = .constructed := hu.1
          simp only [hc, Bool.not_true, Bool.false_eq_true, if_false] at hini
          rw [if_neg (by have := hg1.lo; show ¬ b.pktSize < 68; omega)] at hini
          simp only [Except.ok.injEq, Prod.mk.injEq] at hini
          obtain ⟨rfl, -⟩ := hini
          refine ⟨_, rfl, .inr ⟨by simp, ?_⟩⟩
          simp only
          rw [haccs]
          simp only [if_true] at hfin'
          subst hfin'
          cases hset with
          | @fail r h => exact ⟨.kcsWrite .status 0xc1 r, List.mem_append.mpr (.inr (by simp)), (show (0xc1 : Byte).getLsbD 6 = true by decide)⟩
          | @set r => exact ⟨.kcsWrite .status 0xc1 0, List.mem_append.mpr (.inr (by simp)), (show (0xc1 : Byte).getLsbD 6 = true by decide)⟩
      · obtain ⟨bus', hb', hs', -, lc, hlc, hmild⟩ := astCommand_shut rfl (by exact hbr) hj1 hd (fun hm => (nomatch hm)) hu1.2.1 hcmd
        refine ⟨bus', hb', .inl (unopened_adds hu1 ?_ hs' hlc fun a ha => hushed_notActive (hmild a ha).hushed)⟩
        unfold Core.astCommand at hcmd
        obtain ⟨bus2, hbus2, hcmd⟩ := Res.bind_eq_ok.mp hcmd
        obtain ⟨-, rfl⟩ := busAt_single rfl hbus2
        have keep : ∀ {k : Core (AstSt E)}, k = { c with busses := [{ bus with binding := { bus.binding with st := s } }] } → k.busses = [bus'] → bus'.state = .constructed := by
          rintro k rfl hk
          simp only [List.cons.injEq, and_true] at hk
          rw [← hk]; exact hu.1
        rw [if_neg (show ¬ d' = cmdInitialise from hd)] at hcmd
        split at hcmd
        · split at hcmd
          · simp only [Except.ok.injEq, Prod.mk.injEq] at hcmd
            exact keep hcmd.1.symm hb'
          · obtain ⟨⟨c3, e3⟩, h3, hcmd⟩ := Res.bind_eq_ok.mp hcmd
            simp only [Except.ok.injEq, Prod.mk.injEq] at hcmd
            obtain ⟨rfl, -⟩ := hcmd
            obtain ⟨-, -, v, r0, lb, st', m, t, -, -, -, -, hc3, -⟩ := astRxStart_trace rfl (by exact hbr) hj1.1 h3
            rw [hc3] at hb'
            simp only [List.cons.injEq, and_true] at hb'
            rw [← hb']; exact hu.1
        · split at hcmd
          · split at hcmd
            · simp only [Except.ok.injEq, Prod.mk.injEq] at hcmd
              exact keep hcmd.1.symm hb'
            · rename_i hrel
              have hrel : s.tx.state = .released := Decidable.not_not.mp hrel
              rcases hu1.2.1.2 with h | h <;> rw [show s.tx.state = _ from h] at hrel <;> cases hrel
          · split at hcmd
            · split at hcmd
              · rename_i hm
                have h3 := hj1.1.mode
                rw [show s.mode = .host from hm] at h3
                cases h3
              · simp only [Except.ok.injEq, Prod.mk.injEq] at hcmd
                exact keep hcmd.1.symm hb'
            · simp only [Except.ok.injEq, Prod.mk.injEq] at hcmd
              exact keep hcmd.1.symm hb'

/-- A call of the application. -/
theorem unopened_app {hw : Hw E} {c c' : Core (AstSt E)} {bus : Bus (AstSt E)} {op : Op (AstSt E)} {e : List Event} {rc : Int}
    (hb : c.busses = [bus]) (hop : IsApp op) (hu : Unopened bus) (he : c.step (astOps hw) op = .ok (c', e, rc)) :
    ∃ bus', c'.busses = [bus'] ∧ Unopened bus' := by
  have hk : Keeps (astOps hw) fun _ (b : Bus (AstSt E)) => Unopened b :=
    { tx := fun h hst _ _ => absurd hst (by rw [h.1]; simp)
      push := fun h _ _ => h
      off := fun h hst => absurd hst (by rw [h.1]; simp) }
  obtain ⟨bus', m, hx, hc, mx, hc', k, -⟩ := step_keeps hk hb (os := []) hu hop he
  exact ⟨bus', by rw [hc'], k⟩

end Mctp
