import Verif.Proofs.Setup

/-!
# A concrete configuration

Used by the examples that show that the hypotheses of the theorems are met, and by the
counterexamples (witnesses of findings).
-/

namespace Mctp.Demo

/-- A binding without private state that enables transmission at start and accepts every packet. -/
def ops : Ops Unit where
  start := some fun b => .ok { binding := b, rc := 0, enableTx := true }
  tx := fun _ p => .ok { st := (), pkt := p, rc := 0, disableTx := false }

/-- Baseline packet size (64 + 4). -/
def binding : Binding Unit :=
  { version := 1, pktSize := 68, pktHeader := 0, pktTrailer := 0, controlRx := false, st := () }

/-- The core after init, `mctp_set_rx_all`, `mctp_set_max_message_size(mx)` and registration of a
binding `b` with EID 8. -/
def coreOf (b : Binding Unit) (mx : Nat) : Core Unit :=
  { mem := { next := 2, live := [1, 0] }, fill := fun _ => 0xaa, self := 0, nBusses := 1,
    bussesPtr := some 1,
    busses := [{ eid := 8, binding := b, state := .txEnabled, queue := [] }],
    hasRx := true, hasCapture := false, ctxs := List.replicate 16 Ctx.zero, bridge := false,
    maxSize := mx }

def core : Core Unit := coreOf binding 65536

theorem configured (mx : Nat) : Configured ops 8 mx {} (coreOf binding mx) :=
  ⟨fun _ => 0xaa, _, binding, 0, rfl, rfl, by decide⟩

theorem registered : Registered ops 8 {} { core with hasRx := false } :=
  ⟨fun _ => 0xaa, _, binding, 0, rfl, rfl, by decide⟩

theorem clean : Clean {} := ⟨fun _ => rfl, by simp, by simp⟩

/-- The binding meets the core's contract, with nothing to preserve. -/
def K : Contract ops :=
  Contract.ofTotal fun _ p => ⟨{ st := (), pkt := p, rc := 0, disableTx := false }, rfl⟩

theorem sizesOk (mx : Nat) : SizesOk K (coreOf binding mx) := by
  intro b hb
  simp only [coreOf, List.mem_singleton] at hb
  subst hb; exact ⟨by decide, trivial, fun _ => trivial⟩

/-- A packet from `src` to `dest` with the given flags byte. -/
def pkt (src dest flags : Byte) (payload : List Byte) : List Byte := 1 :: dest :: src :: flags :: payload

/-- The events of a history, if it runs without a fault. -/
def run (c : Core Unit) (hist : List (Op Unit)) : Option (List Event) :=
  match c.run ops hist with
  | .ok (_, log) => some (events log)
  | .error _ => none

/-- The fault of a history. -/
def fault (c : Core Unit) (hist : List (Op Unit)) : Option Fault :=
  match c.run ops hist with
  | .ok _ => none
  | .error e => some e

/-- Decides `HistOk` by running the history. -/
def opOkB (c : Core Unit) : Op Unit → Bool
  | .recv i bs =>
    match c.busses[i]? with
    | some bus => decide (bs.length ≤ bus.binding.pktSize + bus.binding.pktTrailer)
    | none => false
  | .enable i _ =>
    match c.busses[i]? with
    | some bus => decide (bus.binding.pktSize + bus.binding.pktHeader + bus.binding.pktTrailer < 2 ^ 64)
    | none => false
  | .rebind i _ ps ph pt _ => decide (i < c.busses.length ∧ 68 ≤ ps ∧ ps + ph + pt < 2 ^ 64)
  | _ => true

def histOkB (ops : Ops Unit) : Core Unit → List (Op Unit) → Bool
  | _, [] => true
  | c, op :: rest => opOkB c op && (match c.step ops op with
    | .ok (c', _, _) => histOkB ops c' rest
    | .error _ => true)

theorem opOk {ops : Ops Unit} {h0 : ∀ b p, ∃ out, ops.tx b p = .ok out} {c : Core Unit} {op : Op Unit}
    (h : opOkB c op = true) : OpOk (Contract.ofTotal h0) c op := by
  cases op with
  | recv i bs =>
    unfold opOkB at h
    simp only at h
    split at h
    · rename_i bus hb; exact ⟨bus, hb, by simpa using h⟩
    · cases h
  | enable i on =>
    unfold opOkB at h
    simp only at h
    split at h
    · rename_i bus hb; exact ⟨bus, hb, by simpa using h, fun _ => trivial⟩
    · cases h
  | rebind i st ps ph pt cr =>
    unfold opOkB at h
    simp only [decide_eq_true_eq] at h
    exact ⟨c.busses[i], by simp [h.1], h.2.1, h.2.2, trivial, fun _ => trivial⟩
  | _ => trivial

theorem histOk {ops : Ops Unit} {h0 : ∀ b p, ∃ out, ops.tx b p = .ok out} :
    ∀ {hist : List (Op Unit)} {c : Core Unit},
    histOkB ops c hist = true → HistOk (Contract.ofTotal h0) c hist := by
  intro hist
  induction hist with
  | nil => intros; trivial
  | cons op rest ih =>
    intro c h
    unfold histOkB at h
    rw [Bool.and_eq_true] at h
    refine ⟨opOk h.1, fun c' e rc hs => ?_⟩
    have h2 := h.2
    rw [hs] at h2
    exact ih h2

end Mctp.Demo
