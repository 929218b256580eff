import Verif.Proofs.LinkPoll
import Verif.Proofs.AstPollRx
import Verif.Proofs.AstWrote

/-! The code keeps to the detailed monitor: the host acts on a status change. -/

namespace Mctp

open Spec

variable {E : Type}

/-- The core has one bus, and it keeps to the monitor. -/
def Follows (g : LinkCfg) (U : AstSt E → Prop) (φ : Option Byte) (os : List Offer) (rs : List (List Byte)) (c : Core (AstSt E)) : Prop :=
  ∃ bus, c.busses = [bus] ∧ Obeys g bus.binding.st (Rel g U φ bus.binding.st.kcsStatus os rs bus)

theorem Obeys.fact {g : LinkCfg} {s : AstSt E} {P : Fine → Prop} {X : Prop} (h : Obeys g s P) (hx : ∀ f, P f → X) :
    X ∨ Obeys g s (fun _ => False) := by
  by_cases hX : X
  · exact .inl hX
  · exact .inr (h.mono fun f hf => hX (hx f hf))

theorem Follows.never {g : LinkCfg} {U : AstSt E → Prop} {φ : Option Byte} {os : List Offer} {rs : List (List Byte)}
    {bus : Bus (AstSt E)} {c : Core (AstSt E)} (h : Obeys g bus.binding.st (fun _ => False)) (hg : GrowC bus c) :
    Follows g U φ os rs c := by
  obtain ⟨bus', hb, l, ha, -⟩ := hg
  exact ⟨bus', hb, h.never ha⟩

theorem bit7 : ∀ x : Byte, x &&& kcsBmcReady = 0 ↔ x.getLsbD 7 = false := by decide +kernel
theorem bit6 : ∀ x : Byte, x &&& kcsChannelActive = 0 ↔ x.getLsbD 6 = false := by decide +kernel

/-- The protocol of a host whose channel is not open. -/
def HostClosed (s : AstSt E) : Prop := s.proto = some 0

theorem hostClosed_stable : Stable (HostClosed (E := E)) := by
  intro s s' _ _ h _ _ _ _ hu
  exact h.trans hu

theorem update_rel {hw : Hw E} {mtu B H : Nat} {c c' : Core (AstSt E)} {i : Nat} {bus : Bus (AstSt E)} {e : List Event}
    {v : Byte} {rc : Int} {os : List Offer} {rs : List (List Byte)} (hH1 : 76 ≤ H) (hH2 : H ≤ B) (hB : B ≤ 524156)
    (hb : c.busses = [bus]) (hj : AstJ .host mtu bus)
    (h : Obeys (cfgH B H) bus.binding.st (Rel (cfgH B H) HostClosed (some v) bus.binding.st.kcsStatus os rs bus))
    (he : c.astUpdateChannel hw i v = .ok (c', e, rc)) :
    Follows (cfgH B H) HostClosed none (os ++ offers 0 e) rs c' := by
  have hgrow := astUpdateChannel_growC hb hj he
  rcases h.fact (X := bus.binding.st.kcsStatus.getLsbD 7 = true ∧ v.getLsbD 7 = true)
    (fun f hf => ⟨(hf.kcs rfl).1, (hf.mid v rfl rfl).1⟩) with ⟨hk7, hv7⟩ | hno
  rotate_left
  · exact .never hno hgrow
  unfold Core.astUpdateChannel at he
  obtain ⟨bus1, hbus, he⟩ := Res.bind_eq_ok.mp he
  obtain ⟨rfl, rfl⟩ := busAt_single hb hbus
  simp only at he
  rw [if_neg (by rw [hj.1.mode]; simp), if_neg (by
    rw [ne_eq, Decidable.not_not, bit7, BitVec.getLsbD_xor, hk7, hv7]; rfl)] at he
  unfold Core.astUpdateActive at he
  obtain ⟨bus2, hbus2, he⟩ := Res.bind_eq_ok.mp he
  obtain ⟨-, rfl⟩ := busAt_single hb hbus2
  obtain ⟨version, hver, he⟩ := Res.bind_eq_ok.mp he
  have hver' : bus2.binding.st.proto = some version := by
    unfold protoVersion at hver
    split at hver
    · cases hver
    · rename_i h; cases hver; exact h
  simp only at he
  have hxor : (bus2.binding.st.kcsStatus ^^^ v) &&& kcsChannelActive = 0 ↔ bus2.binding.st.kcsStatus.getLsbD 6 = v.getLsbD 6 := by
    rw [bit6, BitVec.getLsbD_xor]
    cases bus2.binding.st.kcsStatus.getLsbD 6 <;> cases v.getLsbD 6 <;> simp
  split at he
  · rename_i hcond
    have hP : ∀ f, Rel (cfgH B H) HostClosed (some v) bus2.binding.st.kcsStatus os rs bus2 f → f.opened = false ∨ f.stale = true := by
      intro f hf
      rcases Bool.eq_false_or_eq_true f.opened with ho | ho
      · right
        rcases hcond with h0 | h0
        · have := (hf.lay ho).1
          rw [hver', h0] at this
          cases this
        · rw [ne_eq, hxor, (hf.kcs rfl).2 ho, (hf.mid v rfl rfl).2.2 ho] at h0
          rcases Bool.eq_false_or_eq_true f.stale with hs | hs
          · exact hs
          · rw [hs] at h0; simp at h0
      · exact .inl ho
    rcases h.fact (X := bus2.state = .constructed) (fun f hf => (hf.shut (hP f hf)).1) with hcon | hno
    rotate_left
    · exact .never hno hgrow
    obtain ⟨⟨rc1, b1⟩, hf, he⟩ := Res.bind_eq_ok.mp he
    have hi0 := hj.1.states
    obtain ⟨hi1, hk1, hres⟩ := finaliseChannel_inv (b := { bus2.binding with st := { bus2.binding.st with rx := { bus2.binding.st.rx with state := .idle }, tx := { bus2.binding.st.tx with state := .idle } } }) hi0 rfl rfl hf
    have hfin := finaliseChannel_ready (B := B) (H := H) (P := Rel (cfgH B H) HostClosed (some v) bus2.binding.st.kcsStatus os rs bus2) hH1 hH2 hB
      (b := { bus2.binding with st := { bus2.binding.st with rx := { bus2.binding.st.rx with state := .idle }, tx := { bus2.binding.st.tx with state := .idle } } })
      hj.1.mode (h.congr rfl) (fun f hf => ⟨hf.todo, by
        rw [hf.fin]
        rcases hP f hf with h | h <;> simp [h, cfgH], (hf.shut (hP f hf)).2.2.1⟩) hf
    have hpost : Obeys (cfgH B H) b1.st (fun f =>
        (Rel (cfgH B H) HostClosed none v os rs { bus2 with binding := b1, state := if v.getLsbD 6 = true ∧ rc1 = 0 then .txEnabled else .constructed } f) ∧
        (rc1 = 0 → f.opened = true ∧ f.stale = !v.getLsbD 6)) := by
      refine hfin.mono ?_
      rintro f ⟨f0, hf0, hcase⟩
      obtain ⟨s1, s2, s3, s4⟩ := hf0.shut (hP f0 hf0)
      obtain ⟨m1, m2, m3⟩ := hf0.mid v rfl rfl
      rcases hcase with ⟨hrc, ho, a, rfl⟩ | ⟨hrc, hop, hsame, hb1, a, rfl⟩
      · obtain ⟨o1, o2, o3, o4, o5, o6, o7, o8, o9, o10, o11⟩ := ho
        refine ⟨?_, fun _ => ⟨rfl, by simp only; rw [m2]⟩⟩
        refine { todo := rfl, started := hf0.started, fin := rfl, ver := o1.trans hf0.ver, hdr := o2.trans hf0.hdr, tlr := o3.trans hf0.tlr,
                 mode := o7.trans hf0.mode, sent := hf0.sent, fit := hf0.fit, all := hf0.all, got := hf0.got, coh := ?_, queue := hf0.queue, kcs := ?_,
                 mid := fun _ h => (nomatch h), stale := fun _ => ⟨rfl, rfl⟩, shut := ?_, closed := fun h => (nomatch h), lay := ?_, tx := ?_, rx := ?_, can := ?_ }
        · simp only; rw [s3]; rfl
        · intro _; refine ⟨m1, fun _ => ?_⟩; simp only; rw [m2]; simp
        · rintro (h | h)
          · cases h
          · simp only at h
            rw [m2] at h
            refine ⟨?_, s2, s3, rfl⟩
            simp only
            rw [if_neg]
            rintro ⟨h6, -⟩
            rw [h6] at h; cases h
        · intro _; simp only; rw [o6, o10, o11, o5]; exact ⟨rfl, rfl, rfl, rfl, rfl, by simp only [cfgH]; omega⟩
        · intro _; exact .inl ⟨by simp only; rw [o10], rfl⟩
        · intro _; exact .inl ⟨by simp only; rw [o11], .inl s3⟩
        · intro _ hs6 _
          simp only at hs6 ⊢
          rw [m2] at hs6
          rw [if_pos ⟨by simpa using hs6, hrc⟩]
      · refine ⟨?_, fun h => by omega⟩
        have hst : f0.stale = false := by
          rcases Bool.eq_false_or_eq_true f0.stale with hs | hs
          · have := (hf0.stale hs).2; rw [hop] at this; cases this
          · exact hs
        obtain ⟨u1, u2, u3, u4, u5⟩ := hf0.closed hop
        rw [hb1]
        refine { todo := hf0.todo, started := hf0.started, fin := rfl, ver := hf0.ver, hdr := hf0.hdr, tlr := hf0.tlr,
                 mode := hsame.mode.trans hf0.mode, sent := hf0.sent, fit := hf0.fit, all := hf0.all, got := hf0.got, coh := ?_, queue := hf0.queue, kcs := ?_,
                 mid := fun _ h => (nomatch h), stale := ?_, shut := ?_, closed := ?_, lay := ?_, tx := ?_, rx := ?_, can := ?_ }
        · simp only; rw [s3]; rfl
        · intro _; refine ⟨m1, fun h => ?_⟩; simp only at h; rw [hop] at h; cases h
        · intro h; simp only at h; rw [hst] at h; cases h
        · intro _; exact ⟨by simp only; rw [if_neg (by rintro ⟨-, h⟩; omega)], s2, s3, rfl⟩
        · intro _
          refine ⟨hsame.proto.trans u1, ?_, ?_, u4, u5⟩
          · simp only; rw [hsame.rx]
          · simp only; rw [hsame.tx]
        · intro h; simp only at h; rw [hop] at h; cases h
        · intro h; simp only at h; rw [hop] at h; cases h
        · intro h; simp only at h; rw [hop] at h; cases h
        · intro h; simp only at h; rw [hop] at h; cases h
    obtain ⟨⟨c1, e1⟩, hset, he⟩ := Res.bind_eq_ok.mp he
    rw [setBinding_single hb] at hset
    obtain ⟨bus3, hbus3, he⟩ := Res.bind_eq_ok.mp he
    simp only [Except.ok.injEq, Prod.mk.injEq] at he
    obtain ⟨rfl, rfl, -⟩ := he
    suffices hs : ∃ b3, c1.busses = [b3] ∧ Obeys (cfgH B H) b3.binding.st (Rel (cfgH B H) HostClosed none v (os ++ offers 0 e1) rs b3) by
      obtain ⟨b3, hb3, ho3⟩ := hs
      obtain ⟨-, rfl⟩ := busAt_single hb3 hbus3
      rw [setSt_single hb3]
      exact ⟨_, rfl, (ho3.congr (s' := { bus3.binding.st with kcsStatus := v }) rfl).mono fun f hf => hf.congr hostClosed_stable rfl rfl rfl rfl rfl⟩
    by_cases hen : v &&& kcsChannelActive ≠ 0 ∧ rc1 = 0
    · rw [decide_eq_true hen] at hset
      have hv6 : v.getLsbD 6 = true := by
        have := hen.1
        rw [ne_eq, bit6] at this
        simpa using this
      obtain ⟨ha, hl⟩ : b1.st.tx.state = .acquired ∧ LaySafe b1.st := by
        rcases hres with ⟨_, ha, _, v, _, _, hs⟩ | ⟨hneg, _⟩
        · exact ⟨ha, hs.one⟩
        · have := hen.2; omega
      have hK := rel_keeps hw .host mtu (g := cfgH B H) (U := HostClosed) (φ := none) (k := v) (k0 := b1.st.kcsStatus) (rs := rs)
          (by simp only [cfgH]; omega) (by simp only [cfgH]; omega) (by simp only [cfgH]; omega)
      have hJ2 : Obeys (cfgH B H) b1.st (fun f => b1.pktSize + 8 = H ∧ Rel (cfgH B H) HostClosed none v os rs { bus2 with binding := b1, state := .txEnabled } f) :=
        hpost.mono fun f hf => by
          obtain ⟨h1, h2⟩ := hf
          rw [if_pos ⟨hv6, hen.2⟩] at h1
          exact ⟨(h1.lay (h2 hen.2).1).2.2.2.2.2, h1⟩
      rcases hJ2.fact (fun f hf => hf.1) with hpk | hno
      · obtain ⟨bus', m, rfl, hj'⟩ := setTxEnabled_on hK (bus := { bus2 with binding := b1 }) (by rfl) (by simp only; omega)
          ⟨⟨hi1, fun _ => ⟨ha, hl⟩⟩, rfl, hJ2.mono fun f hf => hf.2⟩ hset
        exact ⟨bus', rfl, hj'.2.2⟩
      · obtain ⟨bus', hb', l, hl', -⟩ := setTxEnabled_growC (bus := { bus2 with binding := b1 }) (by rfl) hi1 (fun _ => ⟨ha, hl⟩) hset
        exact ⟨bus', hb', hno.never hl'⟩
    · rw [decide_eq_false hen] at hset
      obtain ⟨rfl, -, rfl⟩ := setTxEnabled_false (by rfl) hset
      refine ⟨_, rfl, ?_⟩
      simp only [hcon, if_true]
      rw [show offers 0 ([] : List Event) = [] from rfl, List.append_nil]
      refine hpost.mono fun f hf => ?_
      have := hf.1
      rw [if_neg (by rintro ⟨h6, h0⟩; exact hen ⟨by rw [ne_eq, bit6, h6]; simp, h0⟩)] at this
      exact this
  · rename_i hcond
    simp only [Except.ok.injEq, Prod.mk.injEq] at he
    obtain ⟨rfl, rfl, -⟩ := he
    rw [setSt_single hb]
    refine ⟨_, rfl, ?_⟩
    rw [show offers 0 ([] : List Event) = [] from rfl, List.append_nil]
    refine (h.congr (s' := { bus2.binding.st with kcsStatus := v }) rfl).mono fun f hf => ?_
    have ho : f.opened = true := by
      rcases Bool.eq_false_or_eq_true f.opened with ho | ho
      · exact ho
      · have := (hf.closed ho).1
        exact absurd (.inl (by rw [HostClosed, hver'] at this; cases this; rfl)) hcond
    have h6 : bus2.binding.st.kcsStatus.getLsbD 6 = v.getLsbD 6 := by
      rw [← hxor]
      exact Decidable.not_not.mp fun h => hcond (.inr h)
    have hst : f.stale = false := by
      have h1 := (hf.kcs rfl).2 ho
      have h2 := (hf.mid v rfl rfl).2.2 ho
      rw [h6, h2] at h1
      simpa using h1.symm
    have hf' := hf.congr hostClosed_stable (s := { bus2.binding.st with kcsStatus := v }) rfl rfl rfl rfl rfl
    exact { hf' with
            fin := by rw [hf.fin, ho, hst]; simp
            kcs := fun hm => ⟨(hf.mid v rfl rfl).1, fun _ => by rw [← h6]; exact (hf.kcs rfl).2 ho⟩
            mid := fun _ h => by cases h }

end Mctp
