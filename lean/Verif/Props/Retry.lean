import Verif.Proofs.Retry
import Verif.Props.Detached

/-!
# C110: an endpoint that is started before the other side can try again

The registration of a host fails with `-EHOSTDOWN` while the BMC is not up; the astlpc binding documentation and the
return value leave it to the application to try again later.
-/

namespace Mctp

open Spec

variable {E : Type}

/-- The core as it was, after `n` further requests to the allocator (all given back). -/
def Core.later (c : Core (AstSt E)) (n : Nat) : Core (AstSt E) := { c with mem := { c.mem with next := c.mem.next + n } }

/-- No bus is registered. -/
def NoBus (c : Core (AstSt E)) : Prop := c.nBusses = 0 ∧ c.busses = [] ∧ c.bussesPtr = none ∧ c.bridge = false

theorem registerBus_tried {hw : Hw E} {mode : AstMode} {mtu : Nat} {b : Binding (AstSt E)} (h : Tried mode mtu b)
    {c : Core (AstSt E)} (hn : c.nBusses = 0) (hok : c.mem.ok c.mem.next = true) (eid : Byte) :
    (∃ f, c.registerBus (astOps hw) (astInit b.st.env mode mtu) eid = .error f ∧
      c.registerBus (astOps hw) b eid = .error f) ∨
    ∃ c1 c2 rc, c.registerBus (astOps hw) (astInit b.st.env mode mtu) eid = .ok (c1, rc) ∧
      c.registerBus (astOps hw) b eid = .ok (c2, rc) ∧ (rc ≤ 0 → c2 = c1.relog b.st.log) ∧
      ∃ s, astStart hw b.st = .ok (rc, s) ∧ Tried mode mtu { b with st := s } := by
  unfold Core.registerBus
  rw [if_neg (by simp [hn]), if_neg (by simp [hn])]
  simp only [Mem.alloc, if_pos hok, startBus, astOps]
  rcases astStart_tried (hw := hw) h with ⟨f, h1, h2⟩ | ⟨rc, s1, s2, h1, h2, h3, h4⟩
  · left
    refine ⟨f, ?_, ?_⟩
    · rw [h1]; rfl
    · rw [h2]; rfl
  · right
    rw [h1, h2]
    simp only [Res.bind_ok]
    by_cases hrc : rc < 0
    · simp only [if_pos hrc, Mem.free, List.mem_cons, true_or, if_true, Res.bind_ok]
      exact ⟨_, _, rc, rfl, rfl, fun _ => rfl, s2, rfl, h4⟩
    · simp only [if_neg hrc]
      refine ⟨_, _, rc, rfl, rfl, fun hle => ?_, s2, rfl, h4⟩
      have hs := h3 (by omega)
      subst hs
      rw [h.outer]
      rfl

theorem tryRegister_fails {hw : Hw E} {mode : AstMode} {mtu : Nat} {b b' : Binding (AstSt E)} (h : Tried mode mtu b)
    {c c' : Core (AstSt E)} (hn : NoBus c) (hok : c.mem.ok c.mem.next = true) {eid : Byte} {rc : Int}
    (ht : c.tryRegister hw b eid = .ok (c', b', rc)) (hrc : rc < 0) : c' = c.later 1 ∧ Tried mode mtu b' := by
  unfold Core.tryRegister at ht
  obtain ⟨⟨r, s⟩, hs, ht⟩ := Res.bind_eq_ok.mp ht
  obtain ⟨⟨c1, rc1⟩, hr, ht⟩ := Res.bind_eq_ok.mp ht
  simp only [Except.ok.injEq, Prod.mk.injEq] at ht
  obtain ⟨rfl, rfl, rfl⟩ := ht
  refine ⟨C91_core_unchanged hn.1 hn.2.1 hn.2.2.1 hn.2.2.2 hok hr hrc, ?_⟩
  rcases registerBus_tried (hw := hw) h hn.1 hok eid with ⟨f, -, h2⟩ | ⟨c1, c2, rc, h1, h2, -, s', h3, h4⟩
  · rw [hr] at h2; cases h2
  · rw [hs] at h3; cases h3; exact h4

theorem registerRetry_fails {hw : Hw E} {mode : AstMode} {mtu : Nat} {eid : Byte} : ∀ {n : Nat} {b b' : Binding (AstSt E)}
    (_ : Tried mode mtu b) {c c' : Core (AstSt E)} (_ : NoBus c) (_ : AllOk c.mem) {rcs : List Int}
    (_ : Core.registerRetry hw eid n c b = .ok (c', b', rcs)) (_ : ∀ rc ∈ rcs, rc < 0),
    c' = c.later n ∧ Tried mode mtu b'
  | 0, b, b', h, c, c', _, _, rcs, hr, _ => by
    unfold Core.registerRetry at hr
    cases hr
    exact ⟨rfl, h⟩
  | n + 1, b, b', h, c, c', hn, hok, rcs, hr, hf => by
    unfold Core.registerRetry at hr
    obtain ⟨⟨c1, b1, rc⟩, ht, hr⟩ := Res.bind_eq_ok.mp hr
    simp only at hr
    by_cases hrc : rc < 0
    · rw [if_pos hrc] at hr
      obtain ⟨⟨c2, b2, rcs'⟩, hr2, hr⟩ := Res.bind_eq_ok.mp hr
      cases hr
      obtain ⟨rfl, hb1⟩ := tryRegister_fails h hn (hok _) ht hrc
      obtain ⟨rfl, hb2⟩ := registerRetry_fails hb1 (c := c.later 1) hn hok hr2
        (fun r hr => hf r (List.mem_cons_of_mem _ hr))
      refine ⟨?_, hb2⟩
      simp only [Core.later, Nat.add_assoc, Nat.add_comm 1 n]
    · rw [if_neg hrc] at hr
      cases hr
      exact absurd (hf rc (by simp)) hrc

/-- The accesses to the devices made through each bus of the core. -/
def accessesPerBus (c : Core (AstSt E)) : List (List Access) := c.busses.map fun b => b.binding.st.log.map Logged.acc

/-- C110: `n` calls of `mctp_register_bus` have failed.  The next one does what the first call with a binding just
created would do now (with the devices in the state they are in): it faults exactly if that one does, and otherwise
returns the same value, leaving the same core if it is an error.  If it is 0, the endpoint is from then on
indistinguishable from the one registered at the first attempt: every history of calls has the same events, return
values and faults, and makes the same accesses to the devices (after those of the failed attempts). -/
theorem C110_retry {hw : Hw E} {env : E} {mode : AstMode} {mtu n : Nat} {c c' : Core (AstSt E)} {b' : Binding (AstSt E)}
    {eid : Byte} {rcs : List Int} (hn : NoBus c) (hok : AllOk c.mem)
    (h : Core.registerRetry hw eid n c (astInit env mode mtu) = .ok (c', b', rcs)) (hf : ∀ rc ∈ rcs, rc < 0) :
    c' = c.later n ∧
    (∀ f, c'.registerBus (astOps hw) b' eid = .error f ↔
      c'.registerBus (astOps hw) (astInit b'.st.env mode mtu) eid = .error f) ∧
    ∀ c1 rc, c'.registerBus (astOps hw) (astInit b'.st.env mode mtu) eid = .ok (c1, rc) →
      ∃ c2, c'.registerBus (astOps hw) b' eid = .ok (c2, rc) ∧
        (rc < 0 → c2 = c1) ∧
        (rc = 0 → ∀ hist,
          (∀ f, c2.astRun hw hist = .error f ↔ c1.astRun hw hist = .error f) ∧
          ∀ c3 log, c1.astRun hw hist = .ok (c3, log) →
            ∃ c4, c2.astRun hw hist = .ok (c4, log) ∧
              accessesPerBus c4 = (accessesPerBus c3).map (b'.st.log.map Logged.acc ++ ·)) := by
  obtain ⟨rfl, hb⟩ := registerRetry_fails (Tried.init env mode mtu) hn hok h hf
  refine ⟨rfl, ?_⟩
  rcases registerBus_tried (hw := hw) hb (c := c.later n) hn.1 (hok _) eid with
    ⟨f, h1, h2⟩ | ⟨c1, c2, rc, h1, h2, h3, -⟩
  · rw [h1, h2]
    exact ⟨fun _ => Iff.rfl, fun _ _ h => nomatch h⟩
  · rw [h1, h2]
    refine ⟨fun _ => ⟨(fun h => nomatch h), (fun h => nomatch h)⟩, ?_⟩
    intro c1' rc' he
    cases he
    refine ⟨c2, rfl, ?_, ?_⟩
    · intro hrc
      rw [h3 (by omega)]
      have : c1.busses = [] := by
        rw [C91_core_unchanged (c := c.later n) hn.1 hn.2.1 hn.2.2.1 hn.2.2.2 (hok _) h1 hrc]
        exact hn.2.1
      simp [Core.relog, Core.mapSt, this]
      cases c1
      simp_all
    · intro hrc hist
      rw [h3 (by omega)]
      have hs := Core.astRun_relog hw b'.st.log hist c1
      rw [hs]
      cases hr : c1.astRun hw hist with
      | error f => exact ⟨fun _ => Iff.rfl, fun _ _ h => nomatch h⟩
      | ok q =>
        refine ⟨fun _ => ⟨(fun h => nomatch h), (fun h => nomatch h)⟩, ?_⟩
        intro c3 log he
        cases he
        refine ⟨c3.relog b'.st.log, rfl, ?_⟩
        simp [accessesPerBus, Core.relog, Core.mapSt, Bus.mapSt, Binding.mapSt, AstSt.relog]

/-- C110, what a failed attempt does while there is no BMC: the host reads the status register, finds that the BMC is
not ready, and gives up with `-EHOSTDOWN`; it writes nothing and does not look at the window. -/
theorem C110_no_bmc {hw : Hw E} {env : E} {mtu n : Nat} {c c' : Core (AstSt E)} {b' : Binding (AstSt E)}
    {eid : Byte} {rcs : List Int} (hn : NoBus c) (hok : AllOk c.mem)
    (h : Core.registerRetry hw eid n c (astInit env .host mtu) = .ok (c', b', rcs)) (hf : ∀ rc ∈ rcs, rc < 0)
    {v : Byte} {e : E} (hst : hw.kcsRead b'.st.env .status = (0, v, e)) (hv : v.getLsbD 7 = false) :
    ∃ b'', c'.tryRegister hw b' eid = .ok (c.later (n + 1), b'', -EHOSTDOWN) ∧ b''.st.env = e ∧
      b''.st.log.map Logged.acc = b'.st.log.map Logged.acc ++ [.kcsRead .status 0 v] := by
  obtain ⟨rfl, hb⟩ := registerRetry_fails (Tried.init env .host mtu) hn hok h hf
  have hz : v &&& kcsBmcReady = 0 := by
    have : ∀ v : Byte, v.getLsbD 7 = false → v &&& kcsBmcReady = 0 := by decide
    exact this v hv
  obtain ⟨s, hseq⟩ : ∃ s, s =
      ({ b'.st with env := e, log := b'.st.log ++ [⟨b'.st.rx, b'.st.tx, .kcsRead .status 0 v⟩], kcsStatus := v } : AstSt E) :=
    ⟨_, rfl⟩
  have hs : astStart hw b'.st = .ok (-EHOSTDOWN, s) := by
    rw [hseq]
    unfold astStart
    rw [hb.hmode]
    simp only [initHost, kcsRead, hst]
    rw [if_neg (by simp), if_pos hz]
  have hreg : (c.later n).registerBus (astOps hw) b' eid = .ok (c.later (n + 1), -EHOSTDOWN) := by
    have hlive : c.mem.ok (c.later n).mem.next = true := hok _
    cases hr : (c.later n).registerBus (astOps hw) b' eid with
    | error f =>
      exfalso
      unfold Core.registerBus at hr
      rw [if_neg (by simp [Core.later, hn.1])] at hr
      simp only [Mem.alloc, Core.later, hok (c.mem.next + n), if_true] at hr
      simp only [startBus, astOps, hs, Res.bind_ok, Mem.free, List.mem_cons, true_or, if_true] at hr
      rw [if_pos (by decide)] at hr
      cases hr
    | ok q =>
      obtain ⟨c2, rc⟩ := q
      have hrc : rc = -EHOSTDOWN := by
        unfold Core.registerBus at hr
        rw [if_neg (by simp [Core.later, hn.1])] at hr
        simp only [Mem.alloc, Core.later, hok (c.mem.next + n), if_true] at hr
        simp only [startBus, astOps, hs, Res.bind_ok, Mem.free, List.mem_cons, true_or, if_true] at hr
        rw [if_pos (by decide)] at hr
        cases hr
        rfl
      subst hrc
      have := C91_core_unchanged (c := c.later n) hn.1 hn.2.1 hn.2.2.1 hn.2.2.2 (hok _) hr (by decide)
      subst this
      rfl
  refine ⟨{ b' with st := s }, ?_, by rw [hseq], by rw [hseq]; simp⟩
  unfold Core.tryRegister
  rw [hs, hreg]
  rfl

/-- The hypotheses are met: twice there is no BMC (the second time there is a byte, but not the flag), then the third
attempt succeeds, the channel comes up and a message is sent. -/
def AstDemo.lateScript : AstDemo.Script :=
  { stat := [(0, 0), (0, 1), (0, 0x81), (0, 0xc1), (0, 0xc0)], data := [(0, 255)],
    reads := [AstDemo.hdr64, AstDemo.hdr64, be16 3, AstDemo.hdr64neg] }

example : NoBus (AstDemo.core0 65536) ∧ AllOk (AstDemo.core0 65536).mem := ⟨⟨rfl, rfl, rfl, rfl⟩, fun _ => rfl⟩

example : (match Core.registerRetry AstDemo.hw 8 2 (AstDemo.core0 65536) (astInit AstDemo.lateScript .host 64) with
    | .ok (c, b, rcs) =>
      match c.registerBus (astOps AstDemo.hw) b 8 with
      | .ok (c, rc) =>
        match c.astRun AstDemo.hw [.poll, .send 9 true 1 [0x7e]] with
        | .ok (_, log) => some (b.st.log.map Logged.acc, rcs, rc, astEvents log)
        | .error _ => none
      | .error _ => none
    | .error _ => none) =
    some ([.kcsRead .status 0 0, .kcsRead .status 0 1], [-112, -112], 0, [.tx 0 [1, 9, 8, 0xc9, 0x7e] 0 true]) := by
  decide +kernel

end Mctp
