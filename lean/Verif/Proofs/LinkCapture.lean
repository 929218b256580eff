import Verif.Proofs.DaemonWire
import Verif.Proofs.AstMsg

/-!
# The packets captured at an endpoint with an astlpc binding
-/

namespace Mctp

open Spec

variable {E : Type}

theorem setTxEnabled_onBus {β : Type} {ops : Ops β} {c c' : Core β} {i : Nat} {on : Bool} {e : List Event}
    (h : c.setTxEnabled ops i on = .ok (c', e)) : OnBus i e := by
  unfold Core.setTxEnabled at h
  obtain ⟨bus, hbus, hs⟩ := Res.bind_eq_ok.mp h
  split at hs
  · split at hs
    · simp only [Except.ok.injEq, Prod.mk.injEq] at hs; rw [← hs.2]; exact .nil i
    · split at hs <;> simp only [Except.ok.injEq, Prod.mk.injEq] at hs <;> rw [← hs.2] <;> exact .nil i
  · split at hs <;> simp only [Except.ok.injEq, Prod.mk.injEq] at hs <;> rw [← hs.2] <;> exact .nil i
  · split at hs
    · simp only [Except.ok.injEq, Prod.mk.injEq] at hs; rw [← hs.2]; exact .nil i
    · exact sendTxQueue_onBus hs

theorem setTxEnabled_captured {β : Type} {ops : Ops β} {c c' : Core β} {i : Nat} {on : Bool} {e : List Event}
    (h : c.setTxEnabled ops i on = .ok (c', e)) : Captured c.hasCapture e ∧ c'.hasCapture = c.hasCapture := by
  have hs : c.step ops (.enable i on) = .ok (c', e, 0) := by simp only [Core.step, h, Res.bind_ok]
  obtain ⟨h1, h2, -⟩ := step_captured hs
  exact ⟨h1, h2⟩

theorem Chunk.captured {hw : Hw E} {c c' : Core (AstSt E)} {e : List Event} (h : Chunk hw c e c') :
    ∀ {bus : Bus (AstSt E)}, c.busses = [bus] → c.bridge = false →
      Captured c.hasCapture e ∧ c'.hasCapture = c.hasCapture ∧ OnBus 0 e := by
  induction h with
  | quiet hb hk hm => intro bus _ _; exact ⟨.nil _, rfl, .nil 0⟩
  | enable he =>
    intro bus _ _
    obtain ⟨h1, h2⟩ := setTxEnabled_captured he
    exact ⟨h1, h2, setTxEnabled_onBus he⟩
  | rx hp hx =>
    intro bus hb hbr
    obtain ⟨h1, h2⟩ := busRx_captured hp hx
    refine ⟨h1, h2, ?_⟩
    obtain ⟨-, g4⟩ := busRx_noTx (eid := bus.eid) hbr (by rw [hb]; rfl) hp hx
    intro j p rc off hm
    have := g4 j
    unfold offers at this
    rw [List.filterMap_eq_nil_iff] at this
    have := this _ hm
    simp at this
  | trans x1 x2 ih1 ih2 =>
    intro bus hb hbr
    obtain ⟨hbr1, -, -, -, b1, hb1, -⟩ := x1.single hb hbr
    obtain ⟨a1, a2, a3⟩ := ih1 hb hbr
    obtain ⟨d1, d2, d3⟩ := ih2 hb1 hbr1
    exact ⟨a1.append (a2 ▸ d1), d2.trans a2, a3.append d3⟩

/-- The calls that leave a capture handler (`on`) or the lack of one alone. -/
def KeepsCapture (on : Bool) (hist : List AstOp) : Prop := ∀ op ∈ hist, op ≠ .setCapture (!on)

theorem astStep_captured {hw : Hw E} {mode : AstMode} {mtu : Nat} {c c' : Core (AstSt E)} {bus : Bus (AstSt E)} {op : AstOp} {e : List Event} {rc : Int} {on : Bool}
    (hb : c.busses = [bus]) (hbr : c.bridge = false) (hj : AstJ mode mtu bus) (hop : op ≠ .setCapture (!on)) (hc : c.hasCapture = on)
    (he : c.astStep hw op = .ok (c', e, rc)) : Captured on e ∧ c'.hasCapture = on ∧ OnBus 0 e := by
  unfold Core.astStep at he
  split at he
  · rename_i o ho
    obtain ⟨k1, k2, -⟩ := step_captured he
    rw [hc] at k1 k2
    refine ⟨k1, ?_⟩
    cases op with
    | send d own g msg =>
      simp only [AstOp.core, Option.some.injEq] at ho
      subst ho
      exact ⟨k2, messageTx_onBus he⟩
    | poll => simp [AstOp.core] at ho
    | setCapture o' =>
      simp only [AstOp.core, Option.some.injEq] at ho
      subst ho
      simp only [Core.step, Except.ok.injEq, Prod.mk.injEq] at he
      rw [← he.2.1]
      refine ⟨?_, .nil 0⟩
      rw [k2]
      cases on <;> cases o' <;> first | rfl | exact absurd rfl hop
    | _ =>
      simp only [AstOp.core, Option.some.injEq] at ho
      subst ho
      simp only [Core.step, Except.ok.injEq, Prod.mk.injEq] at he
      rw [← he.2.1]
      exact ⟨k2, .nil 0⟩
  · have := (astPoll_chunk hb hbr hj he).captured hb hbr
    rw [hc] at this
    exact this

theorem astRun_captured {hw : Hw E} {mode : AstMode} {mtu : Nat} {on : Bool} {hist : List AstOp} :
    ∀ {c c' : Core (AstSt E)} {bus : Bus (AstSt E)} {log : List AstRec}, c.busses = [bus] → c.bridge = false → AstJ mode mtu bus →
      KeepsCapture on hist → c.hasCapture = on → c.astRun hw hist = .ok (c', log) →
      Captured on (astEvents log) ∧ OnBus 0 (astEvents log) := by
  induction hist with
  | nil =>
    intro c c' bus log hb hbr hj hk hc he
    simp only [Core.astRun, Except.ok.injEq, Prod.mk.injEq] at he
    obtain ⟨rfl, rfl⟩ := he
    exact ⟨.nil _, .nil 0⟩
  | cons op rest ih =>
    intro c c' bus log hb hbr hj hk hc he
    simp only [Core.astRun] at he
    obtain ⟨⟨c1, e1, rc1⟩, h1, he⟩ := Res.bind_eq_ok.mp he
    obtain ⟨⟨c2, log2⟩, h2, he⟩ := Res.bind_eq_ok.mp he
    simp only [Except.ok.injEq, Prod.mk.injEq] at he
    obtain ⟨rfl, rfl⟩ := he
    obtain ⟨b1, hb1, hbr1, hj1⟩ := astStep_inv hb hbr hj h1
    obtain ⟨a1, a2, a3⟩ := astStep_captured hb hbr hj (hk op (by simp)) hc h1
    obtain ⟨d1, d2⟩ := ih hb1 hbr1 hj1 (fun o ho => hk o (by simp [ho])) a2 h2
    exact ⟨a1.append d1, a3.append d2⟩

/-- With a capture handler set (or not) right after `mctp_register_bus`, which is then left alone. -/
theorem AstEndpoint.captured {hw : Hw E} {env : E} {eid : Byte} {mx : Nat} {mode : AstMode} {mtu : Nat} {mem : Mem}
    {c0 c : Core (AstSt E)} (h : AstEndpoint hw env eid mx mode mtu mem c0) {on : Bool} {hist : List AstOp} {log : List AstRec}
    (hk : KeepsCapture on hist) (hr : c0.astRun hw (.setCapture on :: hist) = .ok (c, log)) :
    Captured on (astEvents log) ∧ OnBus 0 (astEvents log) := by
  obtain ⟨bus, hb, hbr, hj⟩ := h.inv
  simp only [Core.astRun, Core.astStep, AstOp.core, Core.step, Core.setCapture, Res.bind_ok] at hr
  obtain ⟨⟨c2, log2⟩, h2, hr⟩ := Res.bind_eq_ok.mp hr
  simp only [Except.ok.injEq, Prod.mk.injEq] at hr
  obtain ⟨rfl, rfl⟩ := hr
  have := astRun_captured (c := { c0 with hasCapture := on }) hb hbr hj hk rfl h2
  exact this

end Mctp
