import Verif.Proofs.AstPoll

/-!
# Histories with an astlpc binding keep the invariant
-/

namespace Mctp

open Spec

variable {E : Type}

/-- An endpoint using the astlpc binding: `mctp_init`, `mctp_set_rx_all`,
`mctp_set_max_message_size(mx)`, `mctp_astlpc_init(mode, mtu, ops)` and a successful
`mctp_register_bus(eid)`. -/
def AstEndpoint (hw : Hw E) (env : E) (eid : Byte) (mx : Nat) (mode : AstMode) (mtu : Nat) (mem : Mem)
    (c0 : Core (AstSt E)) : Prop :=
  ∃ fill c rc, mtu < 2 ^ 32 ∧ Core.init (AstSt E) mem fill = some c ∧
    ((c.setRxAll true).setMaxMessageSize mx).registerBus (astOps hw) (astInit env mode mtu) eid =
      .ok (c0, rc) ∧ 0 ≤ rc

/-- The private state of a binding that was just created. -/
def astZero (env : E) (mode : AstMode) (mtu : Nat) : AstSt E := (astInit env mode mtu).st

theorem astZero_inv (env : E) (mode : AstMode) (mtu : Nat) : AstInv mode mtu (astZero env mode mtu) := by
  refine ⟨rfl, rfl, ?_, .inl ⟨rfl, rfl, rfl, rfl⟩, ?_, Watch.zero, ?_, ?_⟩
  · intro v h; cases h
  · intro h; rcases h with h | h <;> cases h
  · refine ⟨rfl, ?_⟩; intro x hx; cases hx
  · refine ⟨?_, ?_, ?_, by simp [Watch.zero], ?_⟩
    · intro h; cases h
    · intro h; cases h
    · intro h; cases h
    · intro h; cases h

theorem AstEndpoint.start {hw : Hw E} {env : E} {eid : Byte} {mx : Nat} {mode : AstMode} {mtu : Nat} {mem : Mem}
    {c0 : Core (AstSt E)} (h : AstEndpoint hw env eid mx mode mtu mem c0) :
    ∃ rc s, 0 ≤ rc ∧ astStart hw (astZero env mode mtu) = .ok (rc, s) ∧
      c0.busses = [{ eid := eid, binding := { astInit env mode mtu with st := s }, state := .constructed, queue := [] }] ∧
      c0.bridge = false ∧ c0.nBusses = 1 ∧ (∃ p, c0.bussesPtr = some p ∧ p ∈ c0.mem.live) ∧ c0.hasRx = true ∧
      c0.ctxs = List.replicate 16 Ctx.zero := by
  obtain ⟨fill, c, rc, hm, h1, h2, h3⟩ := h
  obtain ⟨id, m, ha, rfl⟩ := init_ok h1
  unfold Core.registerBus at h2
  split at h2
  · cases h2
  split at h2
  · simp only [Except.ok.injEq, Prod.mk.injEq] at h2
    obtain ⟨_, rfl⟩ := h2; simp [ENOMEM] at h3
  · rename_i p m2 hal
    obtain ⟨⟨bus', rc'⟩, hs, h2⟩ := Res.bind_eq_ok.mp h2
    simp only [startBus, astOps] at hs
    obtain ⟨out, ho, hs⟩ := Res.bind_eq_ok.mp hs
    obtain ⟨⟨rc1, s1⟩, hst, ho⟩ := Res.bind_eq_ok.mp ho
    simp only [Except.ok.injEq] at ho
    subst ho
    simp only [Bool.false_eq_true, if_false, Except.ok.injEq, Prod.mk.injEq] at hs
    rw [if_neg (by simp)] at hs
    obtain ⟨rfl, rfl⟩ := hs
    simp only at h2
    split at h2
    · obtain ⟨m3, -, h2⟩ := Res.bind_eq_ok.mp h2
      simp only [Except.ok.injEq, Prod.mk.injEq] at h2
      obtain ⟨-, rfl⟩ := h2
      omega
    · simp only [Except.ok.injEq, Prod.mk.injEq] at h2
      obtain ⟨rfl, rfl⟩ := h2
      refine ⟨_, s1, h3, hst, rfl, rfl, rfl, ⟨p, rfl, ?_⟩, rfl, rfl⟩
      unfold Mem.alloc at hal
      split at hal <;> simp only [Prod.mk.injEq, Option.some.injEq, reduceCtorEq, false_and] at hal
      obtain ⟨rfl, rfl⟩ := hal
      simp

theorem AstEndpoint.inv {hw : Hw E} {env : E} {eid : Byte} {mx : Nat} {mode : AstMode} {mtu : Nat} {mem : Mem}
    {c0 : Core (AstSt E)} (h : AstEndpoint hw env eid mx mode mtu mem c0) :
    ∃ bus, c0.busses = [bus] ∧ c0.bridge = false ∧ AstJ mode mtu bus := by
  have hmtu : mtu < 2 ^ 32 := by obtain ⟨_, _, _, hm, _⟩ := h; exact hm
  obtain ⟨rc, s, hrc, hs, hb, hbr, -⟩ := h.start
  refine ⟨_, hb, hbr, ?_, fun hst => by cases hst⟩
  have h0 := astZero_inv env mode mtu
  show AstInv mode mtu s
  unfold astStart at hs
  have hm0 : (astZero env mode mtu).mode = mode := rfl
  rw [hm0] at hs
  cases mode with
  | bmc =>
    obtain ⟨hm, hmt, hpr, hlay, hbusy, w, htr, hph⟩ := h0
    have h1 : AstInv .bmc mtu { astZero env .bmc mtu with proto := some astVerCur } :=
      ⟨hm, hmt, fun v hv => by simp only [Option.some.injEq] at hv; subst hv; decide, hlay, hbusy, w, htr.congr rfl rfl,
        hph.quiet rfl rfl rfl rfl⟩
    exact (initBmc_inv h1 rfl hmtu hs hrc).1
  | host => exact (initHost_inv h0 hs).1

theorem astStep_inv {hw : Hw E} {mode : AstMode} {mtu : Nat} {c c' : Core (AstSt E)} {bus : Bus (AstSt E)}
    {op : AstOp} {e : List Event} {rc : Int} (hb : c.busses = [bus]) (hbr : c.bridge = false)
    (hj : AstJ mode mtu bus) (he : c.astStep hw op = .ok (c', e, rc)) :
    ∃ bus', c'.busses = [bus'] ∧ c'.bridge = false ∧ AstJ mode mtu bus' := by
  unfold Core.astStep at he
  split at he
  · rename_i o ho
    have hop : IsApp o := by
      cases op <;> simp only [AstOp.core, Option.some.injEq, reduceCtorEq] at ho <;> subst ho <;> trivial
    obtain ⟨bus', m, hx, hc, mx, rfl, hj', -⟩ := step_keeps (astJ_keeps hw mode mtu) hb (os := []) hj hop he
    exact ⟨bus', rfl, hbr, hj'⟩
  · obtain ⟨bus', m, t, rfl, hj'⟩ := astPoll_frame hb hbr hj he
    exact ⟨bus', rfl, hbr, hj'⟩

theorem astRun_inv {hw : Hw E} {mode : AstMode} {mtu : Nat} {hist : List AstOp} :
    ∀ {c c' : Core (AstSt E)} {bus : Bus (AstSt E)} {log : List AstRec}, c.busses = [bus] → c.bridge = false →
      AstJ mode mtu bus → c.astRun hw hist = .ok (c', log) →
      ∃ bus', c'.busses = [bus'] ∧ c'.bridge = false ∧ AstJ mode mtu bus' := by
  induction hist with
  | nil =>
    intro c c' bus log hb hbr hj he
    simp only [Core.astRun, Except.ok.injEq, Prod.mk.injEq] at he
    obtain ⟨rfl, -⟩ := he
    exact ⟨bus, hb, hbr, hj⟩
  | cons op rest ih =>
    intro c c' bus log hb hbr hj he
    simp only [Core.astRun] at he
    obtain ⟨⟨c1, e1, rc1⟩, h1, he⟩ := Res.bind_eq_ok.mp he
    obtain ⟨⟨c2, log2⟩, h2, he⟩ := Res.bind_eq_ok.mp he
    simp only [Except.ok.injEq, Prod.mk.injEq] at he
    obtain ⟨rfl, -⟩ := he
    obtain ⟨b1, hb1, hbr1, hj1⟩ := astStep_inv hb hbr hj h1
    exact ih hb1 hbr1 hj1 h2

/-- A state reached by a history. -/
theorem AstEndpoint.reached {hw : Hw E} {env : E} {eid : Byte} {mx : Nat} {mode : AstMode} {mtu : Nat} {mem : Mem}
    {c0 c : Core (AstSt E)} (h : AstEndpoint hw env eid mx mode mtu mem c0) {hist : List AstOp} {log : List AstRec}
    (hr : c0.astRun hw hist = .ok (c, log)) :
    ∃ bus, c.busses = [bus] ∧ c.bridge = false ∧ AstJ mode mtu bus := by
  obtain ⟨bus, hb, hbr, hj⟩ := h.inv
  exact astRun_inv hb hbr hj hr

end Mctp
