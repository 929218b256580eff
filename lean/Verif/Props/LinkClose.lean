import Verif.Props.LinkDemo
import Verif.Props.LinkLive
import Verif.Props.Astlpc5

/-!
# Closing the BMC's binding (C114)

`mctp_astlpc_destroy` clears the status register and writes a dummy value to the output register, whether or not the
host has read what is there.  The theorems are about a BMC that closes its binding after any history, and a host that
keeps polling.
-/

namespace Mctp

open Spec

variable {EB EH : Type}

/-- `c'` and `st` are the core and the binding after `mctp_unregister_bus` and `mctp_astlpc_destroy` on `c`. -/
def Closes (hw : Hw EB) (c c' : Core (AstSt EB)) (st : AstSt EB) : Prop :=
  c.unregisterBus = .ok c' ∧ ∃ bus, c.busses = [bus] ∧ st = astDestroy hw bus.binding.st

theorem setStatus_accs (hw : Hw EB) (s : AstSt EB) :
    (∃ rc, rc ≠ 0 ∧ (kcsSetStatus hw s 0).2.log.map (·.acc) = s.log.map (·.acc) ++ [.kcsWrite .status 0 rc]) ∨
    (∃ rc, (kcsSetStatus hw s 0).2.log.map (·.acc) = s.log.map (·.acc) ++ [.kcsWrite .status 0 0, .kcsWrite .data 0xff rc]) := by
  have hw1 : ∀ s reg v, (kcsWrite hw s reg v).2.log.map (·.acc) = s.log.map (·.acc) ++ [.kcsWrite reg v (kcsWrite hw s reg v).1] := by
    intro s reg v; simp [kcsWrite]
  rcases h1 : kcsWrite hw s .status 0 with ⟨rc1, s1⟩
  rcases h2 : kcsWrite hw s1 .data cmdDummy with ⟨rc2, s2⟩
  have e1 := hw1 s .status 0
  have e2 := hw1 s1 .data cmdDummy
  rw [h1] at e1
  rw [h2] at e2
  simp only [kcsSetStatus, h1, h2]
  by_cases hr : rc1 = 0
  · subst hr
    refine .inr ⟨rc2, ?_⟩
    rw [if_neg (by simp)]
    have : s2.log.map (·.acc) = s.log.map (·.acc) ++ [.kcsWrite .status 0 0, .kcsWrite .data 0xff rc2] := by
      rw [e2, e1]; simp [cmdDummy]
    split <;> exact this
  · exact .inl ⟨rc1, hr, by rw [if_pos hr]; exact e1⟩

/-- C114, what holds: an endpoint can close its binding after every history; it leaves no bus, and makes only the
two accesses that tell the host (the second only if the first succeeded).  At most the last packet it accepted is then
missing at the host, and none if `mctp_astlpc_tx_done` was true; the host keeps what it has whatever it does later. -/
theorem C114_settled_partial {hwB : Hw EB} {envB : EB} {eidB : Byte} {mxB mtuB : Nat} {memB : Mem} {b0 cB : Core (AstSt EB)}
    {histB : List AstOp} {logB : List AstRec} {hwH : Hw EH} {envH : EH} {eidH : Byte} {mxH mtuH : Nat} {memH : Mem}
    {h0 cH : Core (AstSt EH)} {histH : List AstOp} {logH : List AstRec} {wr : Bool} {win : Nat → Byte}
    {T : List (AstMode × Access)} {h : Lpc}
    (hB : AstEndpoint hwB envB eidB mxB .bmc mtuB memB b0) (rB : b0.astRun hwB histB = .ok (cB, logB)) (hclean : Clean memB)
    (hH : AstEndpoint hwH envH eidH mxH .host mtuH memH h0) (rH : h0.astRun hwH histH = .ok (cH, logH))
    (hmem : ∀ n, memH.ok n = true) (hl : Linked wr win T h cB cH) :
    ∃ c' st, Closes hwB cB c' st ∧ c'.nBusses = 0 ∧ c'.busses = [] ∧
      ((∃ rc, rc ≠ 0 ∧ st.log.map (·.acc) = of .bmc T ++ [.kcsWrite .status 0 rc]) ∨
       (∃ rc, st.log.map (·.acc) = of .bmc T ++ [.kcsWrite .status 0 0, .kcsWrite .data 0xff rc])) ∧
      ∃ last, sentBy logB = gotBy logH ++ last ∧ last.length ≤ 1 ∧ (txDone cB → last = []) ∧
        ∀ {later : List AstOp} {cH' : Core (AstSt EH)} {logH' : List AstRec},
          h0.astRun hwH (histH ++ later) = .ok (cH', logH') → gotBy logH <+: gotBy logH' := by
  obtain ⟨bus0, hm0⟩ := AstEndpoint.mem hB hclean (by simp)
  obtain ⟨c1, l1, bus, hr1, hm⟩ := astRun_total hwB (by simp) histB hm0
  rw [rB] at hr1
  simp only [Except.ok.injEq, Prod.mk.injEq] at hr1
  obtain ⟨rfl, rfl⟩ := hr1
  have hg := hm.good.md
  obtain ⟨id, hid⟩ := hm.1.ptr
  have ho : Owns cB.mem (id :: (ctxBufs cB.ctxs ++ (queueIds cB.busses ++ (cB.self :: memB.live)))) :=
    hm.1.owns.congr fun j => by
      simp only [owned, hid, Option.toList, List.count_append, List.count_cons, List.count_nil]; omega
  obtain ⟨m, f1, -, -⟩ := ho.free
  have hst : astDestroy hwB bus.binding.st = (kcsSetStatus hwB bus.binding.st 0).2 := by simp only [astDestroy, hg]
  refine ⟨{ cB with mem := m, nBusses := 0, busses := [] }, _, ⟨by simp only [Core.unregisterBus, hid, f1, Res.bind_ok], bus, hm.2, rfl⟩, rfl, rfl, ?_, ?_⟩
  · have hacc : of .bmc T = bus.binding.st.log.map (·.acc) := by rw [hl.bmc, accessesOf_single hm.2]; rfl
    rw [hst, hacc]
    exact setStatus_accs hwB bus.binding.st
  · obtain ⟨⟨last, h1, h2, h3⟩, -⟩ := C55_exactly_once hB rB hH rH hmem hl
    refine ⟨last, h1, h2, h3, fun {later cH' logH'} hr => ?_⟩
    obtain ⟨c1, l1, l2, a1, a2, rfl⟩ := astRun_append hr
    rw [rH] at a1
    simp only [Except.ok.injEq, Prod.mk.injEq] at a1
    obtain ⟨rfl, rfl⟩ := a1
    exact ⟨packetsIn (astEvents l2), by simp only [gotBy, astEvents, List.flatMap_append, packetsIn_append]⟩

end Mctp

namespace Mctp.LinkCloseDemo

open Spec AstDemo LinkDemo

/-- The channel is set up, and the BMC sends a packet that the host has not looked at. -/
def T1 : List (AstMode × Access) :=
  T.take 22 ++
  [(.bmc, .lpcWrite 256 (be32 6) 0), (.bmc, .lpcWrite 260 (pktB ++ [0x14, 0xca, 0xea, 0x8c]) 0),
   (.bmc, .kcsRead .status 0 0xc0), (.bmc, .kcsWrite .data 1 0)]

/-- `mctp_astlpc_destroy` on the BMC. -/
def farewell : List Access := [.kcsWrite .status 0 0, .kcsWrite .data 0xff 0]

/-- The next poll of the host. -/
def T2 : List (AstMode × Access) :=
  [(.host, .kcsRead .status 0 0x01), (.host, .kcsRead .data 0 0xff), (.host, .lpcRead 12 (be16 3) 0), (.host, .lpcRead 0 hdr64neg 0)]

/-- `n` further polls of the host. -/
def idle (n : Nat) : List (AstMode × Access) := List.replicate n (.host, .kcsRead .status 0 0)

def execution (n : Nat) : List (AstMode × Access) := T1 ++ farewell.map (fun a => (.bmc, a)) ++ T2 ++ idle n

def sendB : List AstOp := [.poll, .send 9 false 1 [7, 9]]

def logB : List AstRec := [⟨.poll, [], 0⟩, ⟨.send 9 false 1 [7, 9], [.tx 0 pktB 0 true], 0⟩]

/-- What the BMC has done when it has closed its binding. -/
def bmcEnd : Option (List AstRec × List Access × List Access × Nat × Bool) :=
  match register .bmc 64 8 (of .bmc T1 ++ farewell) with
  | .ok (c, rc) =>
    if rc < 0 then none else
    match c.astRun replay sendB with
    | .ok (c, log) =>
      match c.busses, c.unregisterBus with
      | [bus], .ok c' => some (log, accessesOf c, (astDestroy replay bus.binding.st).log.map (·.acc), c'.nBusses, astTxDone bus.binding.st)
      | _, _ => none
    | .error _ => none
  | .error _ => none

set_option synthInstance.maxSize 512 in
theorem bmcEnd_eq : bmcEnd = some (logB, of .bmc T1, of .bmc T1 ++ farewell, 0, false) := by decide +kernel

theorem bmc_end : ∃ b0 cB c' st, AstEndpoint replay (of .bmc T1 ++ farewell) 8 65536 .bmc 64 {} b0 ∧
    b0.astRun replay sendB = .ok (cB, logB) ∧ accessesOf cB = of .bmc T1 ∧ Closes replay cB c' st ∧
    st.log.map (·.acc) = of .bmc T1 ++ farewell ∧ ¬ txDone cB := by
  have h := bmcEnd_eq
  unfold bmcEnd at h
  split at h
  · rename_i c rc hreg
    split at h
    · cases h
    · rename_i hrc
      split at h
      · rename_i c1 log hrun
        split at h
        · rename_i bus c' hb hu
          simp only [Option.some.injEq, Prod.mk.injEq] at h
          obtain ⟨rfl, h2, h3, -, h4⟩ := h
          refine ⟨c, c1, c', _, ⟨fun _ => 0xaa, _, rc, by decide, rfl, hreg, by omega⟩, hrun, h2, ⟨hu, bus, hb, rfl⟩, h3, ?_⟩
          intro hd
          have := hd bus (by rw [hb]; simp)
          rw [h4] at this; cases this
        · cases h
      · cases h
  · cases h

/-! ## The host -/

/-- Nothing more to say, and nothing to read. -/
def Idle (c : Core (AstSt (List Access))) : Prop :=
  ∃ bus, c.busses = [bus] ∧ c.busAt 0 = .ok bus ∧ bus.binding.st.env = [] ∧ bus.binding.st.mode = .host ∧
    bus.binding.st.rx.state = .released ∧ bus.binding.st.tx.state = .acquired

/-- What the host has done when the BMC has closed its binding and the host has polled once more. -/
def hostEnd : Option (List AstRec × List Access × List Access × Bool) :=
  match register .host 64 9 (of .host (T1 ++ T2)) with
  | .ok (c, rc) =>
    if rc < 0 then none else
    match c.astRun replay [.poll, .poll] with
    | .ok (c, log) =>
      match c.busAt 0, c.busses with
      | .ok bus, [_] => some (log, accessesOf c, bus.binding.st.env,
          decide (bus.binding.st.mode = .host ∧ bus.binding.st.rx.state = .released ∧ bus.binding.st.tx.state = .acquired))
      | _, _ => none
    | .error _ => none
  | .error _ => none

set_option synthInstance.maxSize 512 in
theorem hostEnd_eq : hostEnd = some ([⟨.poll, [], 0⟩, ⟨.poll, [], 0⟩], of .host (T1 ++ T2), [], true) := by decide +kernel

theorem host_end : ∃ h0 c, AstEndpoint replay (of .host (T1 ++ T2)) 9 65536 .host 64 {} h0 ∧
    h0.astRun replay [.poll, .poll] = .ok (c, [⟨.poll, [], 0⟩, ⟨.poll, [], 0⟩]) ∧ accessesOf c = of .host (T1 ++ T2) ∧ Idle c := by
  have h := hostEnd_eq
  unfold hostEnd at h
  split at h
  · rename_i c rc hreg
    split at h
    · cases h
    · rename_i hrc
      split at h
      · rename_i c' log' hrun
        split at h
        · rename_i bus b' hbus hbs
          simp only [Option.some.injEq, Prod.mk.injEq, decide_eq_true_eq] at h
          obtain ⟨rfl, h2, h3, h4, h5, h6⟩ := h
          have hbb : b' = bus := by
            have := hbus
            unfold Core.busAt at this
            rw [hbs] at this
            split at this
            · split at this
              · cases this
              · simpa using this
            · cases this
          subst hbb
          exact ⟨c, c', ⟨fun _ => 0xaa, _, rc, by decide, rfl, hreg, by omega⟩, hrun, h2, b', hbs, hbus, h3, h4, h5, h6⟩
        · cases h
      · cases h
  · cases h

theorem run_join {hw : Hw E} : ∀ {h1 h2 : List AstOp} {c c1 c2 : Core (AstSt E)} {l1 l2 : List AstRec}, c.astRun hw h1 = .ok (c1, l1) →
    c1.astRun hw h2 = .ok (c2, l2) → c.astRun hw (h1 ++ h2) = .ok (c2, l1 ++ l2)
  | [], _, _, _, _, _, _, a, b => by simp only [Core.astRun, Except.ok.injEq, Prod.mk.injEq] at a; rw [a.1, ← a.2]; exact b
  | op :: h1, _, _, _, _, _, _, a, b => by
    simp only [List.cons_append, Core.astRun] at a ⊢
    obtain ⟨⟨c3, e3, rc3⟩, hs, a⟩ := Res.bind_eq_ok.mp a
    obtain ⟨⟨c4, l4⟩, hr, a⟩ := Res.bind_eq_ok.mp a
    simp only [Except.ok.injEq, Prod.mk.injEq] at a
    obtain ⟨rfl, rfl⟩ := a
    exact Res.bind_eq_ok.mpr ⟨_, hs, Res.bind_eq_ok.mpr ⟨_, run_join hr b, rfl⟩⟩

/-- A poll finds nothing. -/
theorem idle_poll {c : Core (AstSt (List Access))} (h : Idle c) :
    ∃ c', c.astPoll replay 0 = .ok (c', [], 0) ∧ Idle c' ∧ accessesOf c' = accessesOf c ++ [.kcsRead .status 0 0] := by
  obtain ⟨bus, hb, hat, he, hm, hr, ht⟩ := h
  have hready : kcsReady .host 0 false = false := by decide
  have hbusAt : ∀ s, (c.setSt 0 bus s).busAt 0 = .ok { bus with binding := { bus.binding with st := s } } := by
    intro s
    have := hat
    unfold Core.busAt at this ⊢
    simp only [Core.setSt, Core.setBus, hb, List.set_cons_zero, List.getElem?_cons_zero] at this ⊢
    split at this
    · rename_i hlt
      rw [if_pos hlt]
      split at this
      · cases this
      · rfl
    · cases this
  refine ⟨c.setSt 0 bus { bus.binding.st with log := bus.binding.st.log ++ [⟨bus.binding.st.rx, bus.binding.st.tx, .kcsRead .status 0 0⟩] }, ?_, ?_, ?_⟩
  · simp [Core.astPoll, hat, Res.bind_ok, astRetry, hr, ht, kcsRead, replay, he, hm, show kcsReady .host 0#8 false = false from by decide]
  · exact ⟨_, by simp [Core.setSt, Core.setBus, hb], hbusAt _, he, hm, hr, ht⟩
  · simp [accessesOf, Core.setSt, Core.setBus, hb]

theorem idle_polls : ∀ (n : Nat) {c : Core (AstSt (List Access))}, Idle c →
    ∃ c', c.astRun replay (List.replicate n .poll) = .ok (c', List.replicate n ⟨.poll, [], 0⟩) ∧
      accessesOf c' = accessesOf c ++ List.replicate n (.kcsRead .status 0 0)
  | 0, c, _ => ⟨c, rfl, by simp⟩
  | n + 1, c, h => by
    obtain ⟨c1, h1, h2, h3⟩ := idle_poll h
    obtain ⟨c2, h4, h5⟩ := idle_polls n h2
    refine ⟨c2, ?_, by rw [h5, h3, List.replicate_succ]; simp⟩
    simp only [List.replicate_succ, Core.astRun]
    exact Res.bind_eq_ok.mpr ⟨_, h1, Res.bind_eq_ok.mpr ⟨_, h4, rfl⟩⟩

theorem run_lpc : ((Lpc.run false (Lpc.reset fun _ => 0) (execution 0)).map fun h => h.shown) = some 0 := by decide +kernel

theorem run_idle : ∀ (n : Nat) {h : Lpc}, h.shown = 0 → Lpc.run false h (idle n) = some h
  | 0, _, _ => rfl
  | n + 1, h, hs => by
    simp only [idle, List.replicate_succ, Lpc.run, Lpc.access, hs, and_self, if_true]
    exact run_idle n hs

theorem lpc_append {wr : Bool} : ∀ {T T' : List (AstMode × Access)} {h h' : Lpc}, Lpc.run wr h T = some h' →
    Lpc.run wr h (T ++ T') = Lpc.run wr h' T'
  | [], _, _, _, hr => by simp only [Lpc.run, Option.some.injEq] at hr; rw [hr]; rfl
  | (side, a) :: T, T', h, h', hr => by
    simp only [List.cons_append, Lpc.run] at hr ⊢
    split at hr
    · exact lpc_append hr
    · cases hr

theorem of_idle (n : Nat) : of .host (idle n) = List.replicate n (.kcsRead .status 0 0) ∧ of .bmc (idle n) = [] := by
  induction n with
  | zero => exact ⟨rfl, rfl⟩
  | succ n ih =>
    unfold idle at ih ⊢
    rw [List.replicate_succ, of_cons, of_cons, ih.1, ih.2]
    exact ⟨rfl, rfl⟩

/-- C114 does not hold: the BMC accepts a packet (the binding returns 0) and closes its binding before the host has
looked.  However often the host polls, the packet is not delivered: the dummy value has replaced the command in the
output register. -/
theorem C114_refuted : ∃ b0 cB c' st h0,
    AstEndpoint replay (of .bmc T1 ++ farewell) 8 65536 .bmc 64 {} b0 ∧ b0.astRun replay sendB = .ok (cB, logB) ∧
    sentBy logB = [pktB] ∧ Closes replay cB c' st ∧
    AstEndpoint replay (of .host (T1 ++ T2)) 9 65536 .host 64 {} h0 ∧
    ∀ n, ∃ cH logH h, h0.astRun replay ([.poll, .poll] ++ List.replicate n .poll) = .ok (cH, logH) ∧
      of .bmc (execution n) = st.log.map (·.acc) ∧ of .host (execution n) = accessesOf cH ∧
      Lpc.run false (Lpc.reset fun _ => 0) (execution n) = some h ∧ gotBy logH = [] := by
  obtain ⟨b0, cB, c', st, e1, e2, -, e4, e5, -⟩ := bmc_end
  obtain ⟨h0, c, f1, f2, f3, f4⟩ := host_end
  refine ⟨b0, cB, c', st, h0, e1, e2, by decide, e4, f1, fun n => ?_⟩
  obtain ⟨cH, g1, g2⟩ := idle_polls n f4
  obtain ⟨h, hh, hs⟩ := Option.map_eq_some_iff.mp run_lpc
  have hex : execution n = execution 0 ++ idle n := by simp [execution, idle]
  have hb0 : of .bmc (execution 0) = of .bmc T1 ++ farewell := by decide +kernel
  have hh0 : of .host (execution 0) = of .host (T1 ++ T2) := by decide +kernel
  refine ⟨cH, _, h, run_join f2 g1, ?_, ?_, ?_, ?_⟩
  · rw [hex, of_append, (of_idle n).2, List.append_nil, hb0, e5]
  · rw [hex, of_append, (of_idle n).1, hh0, g2, f3]
  · rw [hex, lpc_append hh, run_idle n hs]
  · have : ∀ m, astEvents (List.replicate m (⟨.poll, [], 0⟩ : AstRec)) = [] := by
      intro m
      induction m with
      | zero => rfl
      | succ m ih => rw [List.replicate_succ]; simpa [astEvents] using ih
    have h2 : astEvents ([⟨.poll, [], 0⟩, ⟨.poll, [], 0⟩] ++ List.replicate n (⟨.poll, [], 0⟩ : AstRec)) = [] := by
      have := this (n + 2)
      simpa [List.replicate_succ] using this
    unfold gotBy
    rw [h2]; rfl

/-- The hypotheses of `C114_settled_partial` are met, with a packet delivered: the execution of `LinkDemo`. -/
example : ∃ (cB : Core (AstSt (List Access))) (logH : List AstRec), txDone cB ∧ gotBy logH = [pktB] ∧
    ∃ c' st, Closes replay cB c' st := by
  obtain ⟨b0, cB, h0, cH, h, e1, e2, e3, e4, e5, e6, -, e8, -, -, e11, -, -⟩ := linked
  obtain ⟨c', st, hc, -⟩ := C114_settled_partial e1 e2 ⟨fun _ => rfl, by simp, by simp⟩ e3 e4 e5 e6
  exact ⟨cB, _, e11, e8, c', st, hc⟩

end Mctp.LinkCloseDemo
