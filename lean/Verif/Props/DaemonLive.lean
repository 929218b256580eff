import Verif.Props.DaemonPath

/-!
# Once the clients are quiet, everything has arrived (C112)
-/

namespace Mctp

open Spec

variable {W V E : Type}

/-! ## A daemon whose clients send nothing to other EIDs -/

/-- While no client sends a message to another EID, all the core does is to poll. -/
theorem NInv.quiet_move {hw : Hw E} {le : Int} {net : Net W} {d d' : Daemon W (AstSt E)} {x : Option Unit}
    (h : NInv le d) (hm : Move net (astOps hw) (astProc hw) d x d') (hq : clientSends le d'.log = clientSends le d.log)
    {c0 : Core (AstSt E)} {hist : List AstOp} {log : List AstRec} (hr : c0.astRun hw hist = .ok (d.core, log)) (he : astEvents log = d.evs) :
    ∃ log', c0.astRun hw (hist ++ List.replicate x.toList.length .poll) = .ok (d'.core, log') ∧ astEvents log' = d'.evs := by
  have keep : d'.core = d.core → d'.evs = d.evs → ∃ log', c0.astRun hw (hist ++ List.replicate (none : Option Unit).toList.length .poll) = .ok (d'.core, log') ∧
      astEvents log' = d'.evs := fun h1 h2 => ⟨log, by simpa [h1] using hr, by rw [h2]; exact he⟩
  cases hm with
  | quiet _ _ _ hk he _ => exact keep hk he
  | mark _ => exact keep rfl rfl
  | prune => exact keep rfl rfl
  | register _ _ _ _ _ _ hk he _ => exact keep hk he
  | accept _ _ _ hk he _ => exact keep hk he
  | @home d0 fd rc eid payload _ _ _ hk he _ =>
    obtain ⟨b1, b2, -⟩ := rxMessage_same net d0 eid payload
    exact keep (b1.trans hk) (b2.trans he)
  | @send d'' fd rc rc' dest payload e heid hl _ _ _ _ =>
    rw [h.eid] at heid
    exfalso
    have hs : clientSends le d'.log = clientSends le d.log ++ [(dest, payload)] := by
      rw [hl, clientSends, List.filterMap_append]; simp [clientSends, clientSend, heid]
    rw [hs] at hq
    simpa using congrArg List.length hq
  | @input y c e rc hx =>
    obtain ⟨-, -, -, c4, c5, -, -⟩ := deliver_arrives (d := { d with core := c, evs := d.evs ++ e }) net e h.last h.echo
    have hs : d.core.astStep hw .poll = .ok (c, e, rc) := hx
    exact ⟨log ++ [⟨.poll, e, rc⟩], by rw [c4]; exact astRun_snoc hr hs, by rw [astEvents_cat, he, c5]; simp [astEvents]⟩

theorem Move.sends_grow {β π : Type} {net : Net W} {ops : Ops β} {proc : π → Core β → Res (Core β × List Event × Int)} {d d' : Daemon W β} {x : Option π}
    (hm : Move net ops proc d x d') (le : Int) : clientSends le d.log <+: clientSends le d'.log := by
  obtain ⟨l, hl⟩ := hm.grows
  rw [hl, clientSends, clientSends, List.filterMap_append]
  exact List.prefix_append _ _

theorem Moves.sends_grow {β π : Type} {net : Net W} {ops : Ops β} {proc : π → Core β → Res (Core β × List Event × Int)} {d d' : Daemon W β} {xs : List π}
    (hm : Moves net ops proc d xs d') (le : Int) : clientSends le d.log <+: clientSends le d'.log := by
  induction hm with
  | refl => exact List.prefix_refl _
  | tail _ hm ih => exact ih.trans (hm.sends_grow le)

theorem NInv.quiet_moves {hw : Hw E} {le : Int} {net : Net W} {d d' : Daemon W (AstSt E)} {xs : List Unit}
    (hm : Moves net (astOps hw) (astProc hw) d xs d') (h : NInv le d)
    {c0 : Core (AstSt E)} {hist : List AstOp} {log : List AstRec} (hr : c0.astRun hw hist = .ok (d.core, log)) (he : astEvents log = d.evs) :
    NInv le d' ∧ clientSends le d.log <+: clientSends le d'.log ∧ (clientSends le d'.log = clientSends le d.log →
      ∃ log', c0.astRun hw (hist ++ List.replicate xs.length .poll) = .ok (d'.core, log') ∧ astEvents log' = d'.evs) := by
  induction hm with
  | refl => exact ⟨h, List.prefix_refl _, fun _ => ⟨log, by simpa using hr, he⟩⟩
  | @tail d1 d2 xs x _ hm2 ih =>
    obtain ⟨i1, i2, i3⟩ := ih
    have j2 := hm2.sends_grow le
    refine ⟨i1.move hm2, i2.trans j2, fun hq => ?_⟩
    have hq1 : clientSends le d1.log = clientSends le d.log := by
      rw [hq] at j2
      exact (i2.eq_of_length_le j2.length_le).symm
    obtain ⟨log1, r1, e1⟩ := i3 hq1
    obtain ⟨log2, r2, e2⟩ := i1.quiet_move hm2 (hq.trans hq1.symm) r1 e1
    refine ⟨log2, ?_, e2⟩
    rw [List.append_assoc, List.replicate_append_replicate] at r2
    rw [List.length_append]
    exact r2

/-! ## The loop -/

/-- The inputs of the binding in these wake-ups. -/
def wakeInputs {π : Type} (wakes : List (Wake π)) : List π :=
  wakes.filterMap fun
    | .ready r => r.binding
    | _ => none

theorem loop_moves {β π : Type} {net : Net W} {ops : Ops β} {proc : π → Core β → Res (Core β × List Event × Int)} :
    ∀ {wakes : List (Wake π)} {d d' : Daemon W β}, d.loop net ops proc wakes = .ok (d', none) → Moves net ops proc d (wakeInputs wakes) d' := by
  intro wakes
  induction wakes with
  | nil =>
    intro d d' h
    simp only [Daemon.loop, Except.ok.injEq, Prod.mk.injEq] at h
    rw [h.1]; exact .refl _
  | cons x rest ih =>
    intro d d' h
    cases x with
    | failed => simp [Daemon.loop] at h
    | signal f => simp [Daemon.loop] at h
    | ready r =>
      simp only [Daemon.loop] at h
      obtain ⟨d1, h1, h⟩ := Res.bind_eq_ok.mp h
      obtain ⟨⟨d2, stop⟩, h2, h⟩ := Res.bind_eq_ok.mp h
      cases stop with
      | true => simp at h
      | false =>
        simp only [Bool.false_eq_true, if_false] at h
        have m := ((poll_moves (proc := proc) h1).trans (react_moves h2).1).trans (ih h)
        have : wakeInputs (.ready r :: rest) = r.binding.toList ++ wakeInputs rest := by
          unfold wakeInputs
          cases hb : r.binding <;> simp [hb]
        rw [this]
        simpa using m

theorem wakeInputs_append {π : Type} (a b : List (Wake π)) : wakeInputs (a ++ b) = wakeInputs a ++ wakeInputs b := List.filterMap_append

/-! ## C112 -/

/-- The device of the binding is reported by this poll(), so that the binding is polled. -/
def Wake.device {π : Type} : Wake π → Prop
  | .ready r => r.binding ≠ none
  | _ => False

/-- The execution has come to `T0`.  The stretch `R` that follows contains a whole poll of the binding by the process, in one of the wake-ups `wakes2` after `wakes1`: in front of it the
process has made the accesses of the wake-ups `wakes1 ++ ws`, behind it those of `wakes1 ++ ws ++ [x]`, and it is still running. -/
def WholeWake (process : List (Wake (Option (List Byte))) → Res Outcome) (wakes1 wakes2 : List (Wake (Option (List Byte)))) (T0 R : List (AstMode × Access)) : Prop :=
  ∃ ws x rest oa ob before poll after, wakes2 = ws ++ x :: rest ∧ x.device ∧ R = before ++ poll ++ after ∧
    process (wakes1 ++ ws) = .ok oa ∧ oa.status = none ∧ of .bmc (T0 ++ before) = oa.kcs ∧
    process (wakes1 ++ ws ++ [x]) = .ok ob ∧ ob.status = none ∧ of .bmc (T0 ++ before ++ poll) = ob.kcs

theorem mute_input {x : Wake (Option (List Byte))} (h : x.device) : wakeInputs [x.mute] = [()] := by
  cases x with
  | failed => exact absurd h id
  | signal f => exact absurd h id
  | ready r =>
    cases hb : r.binding with
    | none => exact absurd hb h
    | some y => simp [wakeInputs, Wake.mute, hb]

theorem flatMap_drop_length {α β : Type} (f : α → List β) (k : Nat) (l : List α) : ((l.drop k).flatMap f).length ≤ (l.flatMap f).length := by
  conv => rhs; rw [← List.take_append_drop k l]
  rw [List.flatMap_append, List.length_append]
  omega

section

variable {mem : Mem} {fill : Nat → Byte} {dev : Devices E} {boot : Boot} {net : Net W} {items : List Item} {path : List Char} {w : W}
  {wakes0 wakes1 wakes2 : List (Wake (Option (List Byte)))} {o o0 o1 : Outcome} {log log0 log1 : List SockEv}
  {hwH : Hw V} {envH : V} {eidH : Byte} {mxH mtuH : Nat} {memH : Mem} {h0 cH : Core (AstSt V)} {histH : List AstOp} {nH : Nat} {logH : List AstRec}
  {wr : Bool} {win : Nat → Byte} {T0 T1 : List (AstMode × Access)} {Rs : List (List (AstMode × Access))} {h : Lpc}

/-- **C112** A daemon on a BMC, from its command line (as in C111), and an application on the host, on a link; from some moment (after `wakes0 ++ wakes1`) on, the clients send no messages to
other EIDs (they may connect, register, send to the daemon's own EID, go), and the application only polls.  `4 * p + 15` rounds are enough for `p` packets: then the host's application
has got every message the clients sent to other EIDs, and the daemon every message the host's application sent, each once, in order, with the EID of the sender and unchanged.
A round is a stretch of the execution in which each side completes a poll; nothing else is assumed about the schedule.
Only the first `k` messages of the clients are missing: at a moment (after `wakes0`) when the BMC has shown an active channel, they have all been sent already. -/
theorem C112_all_arrive (hcl : Clean mem) (hopens : dev.astOpens = true) (hw : ∀ i ∈ items, Works i) (hp : plainOf items = ["astlpc".toList, path])
    (hreg : ∀ core : Core (AstSt E), Core.init (AstSt E) mem fill = some core → ∃ c1 rc, 0 ≤ rc ∧
      core.registerBus (astOps dev.hw) (astInit dev.env .bmc 0) (BitVec.ofInt 8 ((askedOf items).foldl Ask.apply {}).localEid) = .ok (c1, rc))
    {eid : Byte} (heid : ((askedOf items).foldl Ask.apply {}).localEid = (eid.toNat : Int)) (hsrc : eid ≠ 0)
    (r0 : processMain dev boot net mem fill (items.flatMap Item.words) w wakes0 = .ok o0) (l0 : o0.log = some log0) (st0 : o0.status = none)
    (r1 : processMain dev boot net mem fill (items.flatMap Item.words) w (wakes0 ++ wakes1) = .ok o1) (l1 : o1.log = some log1) (st1 : o1.status = none)
    (r : processMain dev boot net mem fill (items.flatMap Item.words) w (wakes0 ++ wakes1 ++ wakes2) = .ok o) (lo : o.log = some log) (st : o.status = none)
    (hquiet : clientSends eid.toNat log = clientSends eid.toNat log1)
    (hH : AstEndpoint hwH envH eidH mxH .host mtuH memH h0) (rH : h0.astRun hwH (histH ++ List.replicate nH .poll) = .ok (cH, logH))
    (hmem : ∀ n, memH.ok n = true) (hl : OnLink wr win (T0 ++ (Rs.flatten ++ T1)) h o cH) (hk : KeepsRx histH) (hsrcH : eidH ≠ 0)
    (hmx1 : 4096 ≤ mxH) (hmx2 : mxH < 2 ^ 64)
    (hrounds : ∀ i (hi : i < Rs.length),
      WholeWake (processMain dev boot net mem fill (items.flatMap Item.words) w) (wakes0 ++ wakes1) wakes2 (T0 ++ (Rs.take i).flatten) Rs[i] ∧
      WholePoll hwH h0 histH nH .host (T0 ++ (Rs.take i).flatten) Rs[i])
    (hmany : 4 * (((clientMsgsFor mtuH (clientSends eid.toNat log)).flatMap (Msg.packets 1 eid)).length + (acceptedPackets eidH mtuH logH).length) + 15 ≤ Rs.length)
    (hms : ∀ p ∈ clientSends eid.toNat log, Local eidH p.1 ∧ 2 * p.2.length ≤ mxH)
    (hmsH : ∀ m ∈ acceptedBy mtuH logH, Local eid m.dest ∧ 2 * m.data.length ≤ 65536) :
    (∃ k ≤ (clientSends eid.toNat log).length,
      ((∃ a ∈ o0.kcs, ShowsActive a) → k ≤ (clientSends eid.toNat log0).length) ∧
      ((∀ a ∈ o0.kcs, ¬ ShowsActive a) → (clientSends eid.toNat log0).length ≤ k) ∧
      deliveredTo logH = expected eid (clientMsgsFor mtuH ((clientSends eid.toNat log).drop k))) ∧
    netArrivals eid.toNat log = ((acceptedBy mtuH logH).filter (fun m => m.data ≠ [])).map (fun m => (eidH, m.data)) ∧
    pending cH = [] := by
  obtain ⟨c0, e, hB, he, hrun⟩ := astProcess hcl hopens hw hp hreg (boot := boot) (net := net) w
  have : e = eid := by
    apply BitVec.eq_of_toNat_eq
    have : (e.toNat : Int) = (eid.toNat : Int) := he.symm.trans heid
    omega
  subst this
  -- the process while it runs
  have running : ∀ {wakes : List (Wake (Option (List Byte)))} {o : Outcome},
      processMain dev boot net mem fill (items.flatMap Item.words) w wakes = .ok o → o.status = none →
      ∃ d, (Daemon.init w (c0.setCapture ((askedOf items).foldl Ask.apply {}).capBinding.isSome) e.toNat).loop net (astOps dev.hw) (astProc dev.hw) (wakes.map .mute) = .ok (d, none) ∧
        o.log = some d.log ∧ o.kcs = accessesOf d.core := by
    intro wakes o ho hst
    obtain ⟨o', ho', -, -, hno, -⟩ := C107_astlpc hcl fill dev hopens boot net hw hp hreg w wakes
    rw [ho] at ho'
    simp only [Except.ok.injEq] at ho'
    subst ho'
    cases hlog : o.log with
    | none => rw [hno hlog] at hst; simp at hst
    | some log =>
      obtain ⟨d, rc, bye, a1, a2, rfl, -, a5, a6⟩ := hrun wakes o log ho hlog
      rw [heid] at a1
      rw [a2.mp hst] at a1
      exact ⟨d, a1, rfl, by rw [a5, a6.1 hst, List.append_nil]⟩
  obtain ⟨d0, a0, q0, z0⟩ := running r0 st0
  obtain ⟨d1, a1, q1, z1⟩ := running r1 st1
  obtain ⟨d, a, q, z⟩ := running r st
  rw [l0] at q0; rw [l1] at q1; rw [lo] at q
  simp only [Option.some.injEq] at q0 q1 q
  subst q0; subst q1; subst q
  have a1' := a1
  have a' := a
  rw [List.map_append, loop_cat a0] at a1'
  rw [List.map_append, loop_cat a1] at a'
  obtain ⟨k0, i0, -⟩ := (BInv.init hB _ w e.toNat).moves hB (loop_moves a0)
  obtain ⟨hist0, lg0, g0, -⟩ := i0.hist
  have hbeg := hB.begun_iff hcl g0
  rw [← z0] at hbeg
  obtain ⟨k, i1, hkk, hup⟩ := i0.moves hB (loop_moves a1')
  obtain ⟨hist1, lg1, g1, g2, g3, g4⟩ := i1.hist
  -- the wake-ups of the quiet clients
  have quiet : ∀ {ws rest : List (Wake (Option (List Byte)))} {o' : Outcome}, wakes2 = ws ++ rest →
      processMain dev boot net mem fill (items.flatMap Item.words) w (wakes0 ++ wakes1 ++ ws) = .ok o' → o'.status = none →
      ∃ c lg, c0.astRun dev.hw ((.setCapture ((askedOf items).foldl Ask.apply {}).capBinding.isSome :: hist1) ++ List.replicate (wakeInputs (ws.map .mute)).length .poll) = .ok (c, lg) ∧
        o'.kcs = accessesOf c := by
    intro ws rest o' hws ho' hst'
    obtain ⟨d', b1, -, b3⟩ := running ho' hst'
    have b1' := b1
    rw [List.map_append, loop_cat a1] at b1'
    rw [hws, ← List.append_assoc, List.map_append, loop_cat b1] at a
    obtain ⟨n1, n2, n3⟩ := NInv.quiet_moves (loop_moves b1') i1.base g1 g3
    have n4 : clientSends e.toNat d'.log <+: clientSends e.toNat d.log := (loop_moves a).sends_grow _
    have heq : clientSends e.toNat d'.log = clientSends e.toNat d1.log := by
      rw [hquiet] at n4
      exact (n2.eq_of_length_le n4.length_le).symm
    obtain ⟨lg, m1, -⟩ := n3 heq
    exact ⟨_, lg, m1, b3⟩
  obtain ⟨n1, n2, n3⟩ := NInv.quiet_moves (loop_moves a') i1.base g1 g3
  obtain ⟨lg, m1, m2⟩ := n3 hquiet
  have hacc : acceptedBy mtuH lg = clientMsgsFor mtuH ((clientSends e.toNat d.log).drop k) := by
    rw [hquiet, ← g4]
    exact (polls_le (k := 0) (Nat.zero_le _) (by simpa using g1) m1).1
  have hlink : Linked wr win (T0 ++ (Rs.flatten ++ T1)) h d.core cH := by
    obtain ⟨bye', q1, q2⟩ := hl.bmc
    rw [q2.1 st, List.append_nil] at q1
    exact ⟨q1.symm.trans z, hl.host, hl.run⟩
  have hpk : (acceptedPackets e mtuH lg).length ≤ ((clientMsgsFor mtuH (clientSends e.toNat d.log)).flatMap (Msg.packets 1 e)).length := by
    unfold acceptedPackets
    rw [hacc]
    unfold clientMsgsFor
    rw [List.map_drop]
    exact flatMap_drop_length _ _ _
  have rounds : ∀ i (hi : i < Rs.length),
      WholePoll dev.hw c0 (.setCapture ((askedOf items).foldl Ask.apply {}).capBinding.isSome :: hist1) (wakeInputs (wakes2.map .mute)).length .bmc (T0 ++ (Rs.take i).flatten) Rs[i] ∧
      WholePoll hwH h0 histH nH .host (T0 ++ (Rs.take i).flatten) Rs[i] := by
    intro i hi
    obtain ⟨⟨ws, x, rest, oa, ob, before, poll, after, v1, v2, v3, v4, v5, v6, v7, v8, v9⟩, hpoll⟩ := hrounds i hi
    refine ⟨?_, hpoll⟩
    obtain ⟨ca, la, s1, s2⟩ := quiet v1 v4 v5
    obtain ⟨cb, lb, s3, s4⟩ := quiet (ws := ws ++ [x]) (rest := rest) (by rw [v1]; simp) (by rw [← List.append_assoc]; exact v7) v8
    have hx := mute_input v2
    have hlen : (wakeInputs ((ws ++ [x]).map .mute)).length = (wakeInputs (ws.map .mute)).length + 1 := by
      rw [List.map_append, wakeInputs_append]
      show (_ ++ wakeInputs [x.mute]).length = _
      rw [hx, List.length_append]; rfl
    have htot : (wakeInputs (ws.map .mute)).length < (wakeInputs (wakes2.map .mute)).length := by
      rw [v1, show ws ++ x :: rest = (ws ++ [x]) ++ rest by simp, List.map_append, wakeInputs_append, List.length_append, hlen]
      omega
    rw [hlen] at s3
    exact ⟨_, ca, la, cb, lb, before, poll, after, htot, v3, s1, v6.trans s2, s3, v9.trans s4⟩
  have hkeepB : KeepsRx (.setCapture ((askedOf items).foldl Ask.apply {}).capBinding.isSome :: hist1) := fun op ho => by
    rcases List.mem_cons.mp ho with rfl | ho
    · simp
    · exact g2.1 op ho
  have hmany' : 4 * ((acceptedPackets e mtuH lg).length + (acceptedPackets eidH mtuH logH).length) + 15 ≤ Rs.length := by omega
  obtain ⟨t1, t2⟩ := C93_all_messages hB m1 hH rH hcl.1 hmem hlink rounds hmany' hkeepB hk hsrc hsrcH ⟨by decide, by decide⟩ ⟨hmx1, hmx2⟩ (by
      rw [hacc]
      intro m hm
      obtain ⟨p, hp, rfl⟩ := List.mem_map.mp hm
      exact hms p (List.mem_of_mem_drop hp)) hmsH
  obtain ⟨-, -, t3, -⟩ := C93_all_delivered hB m1 hH rH hcl.1 hmem hlink rounds hmany'
  refine ⟨⟨k, ?_, ?_, ?_, by rw [← hacc]; exact t1⟩, ?_, t3⟩
  · rw [hquiet]; exact i1.few
  · intro hx
    rw [(hup (hbeg.mpr hx)).1]; exact i0.few
  · intro hx
    rw [← i0.down fun hb => by
      obtain ⟨a, ha, hs⟩ := hbeg.mp hb
      exact hx a ha hs]
    exact hkk
  · have hgot : (astEvents lg).filterMap handed = (deliveredTo lg).filterMap handed := by
      unfold deliveredTo
      generalize astEvents lg = evs
      induction evs with
      | nil => rfl
      | cons ev evs ih =>
        cases ev with
        | rxMsg src own tag msg => exact congrArg (List.cons (src, msg)) ih
        | _ => exact ih
    have hwant : (expected eidH (acceptedBy mtuH logH)).filterMap handed = ((acceptedBy mtuH logH).filter (fun m => m.data ≠ [])).map (fun m => (eidH, m.data)) := by
      show (List.map _ _).filterMap handed = List.map _ _
      rw [List.filterMap_map]
      exact List.filterMap_eq_map ▸ rfl
    have harr : netArrivals e.toNat d.log = (deliveredTo lg).filterMap handed := by rw [← hgot, m2]; exact n1.arr
    rw [harr, t2, hwant]

end

/-! ## The hypotheses are met -/

namespace LiveDemo

open AstDemo

/-- The channel is up; a client has sent a message, so has the host's application; nothing has arrived. -/
def before : List (AstMode × Access) := PathDemo.T.take 30

/-- Two rounds take the packets across, 21 more change nothing. -/
def rounds : List (List (AstMode × Access)) :=
  [(PathDemo.T.drop 30).take 11, PathDemo.T.drop 41] ++ List.replicate 21 [(.host, .kcsRead .status 0 0xc0), (.bmc, .kcsRead .status 0 0xc0)]

def T : List (AstMode × Access) := before ++ (rounds.flatten ++ [])

def dev : Devices (List Access) := { PathDemo.dev with env := of .bmc T }

/-- poll() reports the device, and nothing else. -/
def pollWake : Wake (Option (List Byte)) := .ready ⟨some none, fun _ => false, false⟩
/-- The client sends its message. -/
def sendWake : Wake (Option (List Byte)) := .ready ⟨none, fun _ => true, false⟩

def process (wakes : List (Wake (Option (List Byte)))) : Res Outcome :=
  processMain dev LifeDemo.boot DaemonDemo.net {} (fun _ => 0xaa) (PathDemo.items.flatMap Item.words) DaemonLinkDemo.script wakes

def histH : List AstOp := [.poll, .send 8 true 1 [5, 1, 2]]

set_option synthInstance.maxSize 4000 in
set_option synthInstance.maxHeartbeats 400000 in
theorem first : (DaemonDemo.opt (process PathDemo.wakes1)).map (fun o => ((o.status, o.log.map (clientSends 8)), o.kcs.drop 9)) =
    some ((none, some []), [.kcsWrite .status 0xc1 0, .kcsWrite .data 0xff 0]) := by decide +kernel

set_option synthInstance.maxSize 4000 in
set_option synthInstance.maxHeartbeats 400000 in
theorem polls : ∀ k < 24, (DaemonDemo.opt (process (PathDemo.wakes1 ++ [sendWake] ++ List.replicate k pollWake))).map (fun o => (o.status, o.kcs)) =
    some (none, of .bmc (before ++ (rounds.take k).flatten)) := by decide +kernel

set_option synthInstance.maxSize 4000 in
set_option synthInstance.maxHeartbeats 400000 in
theorem logs : [0, 23].map (fun k => (DaemonDemo.opt (process (PathDemo.wakes1 ++ [sendWake] ++ List.replicate k pollWake))).map (fun o =>
    o.log.map fun l => (clientSends 8 l, netArrivals 8 l))) = [some (some ([(9, [5, 7])], [])), some (some ([(9, [5, 7])], [(9, [5, 1, 2])]))] := by decide +kernel

/-- The accesses made by the host after the history and `k` polls. -/
def accsH (k : Nat) : Option (List Access) := (LinkDemo.run .host 64 9 (of .host T) (histH ++ List.replicate k .poll)).map (·.2.1)

set_option synthInstance.maxSize 512 in
theorem accs_host : ∀ k < 24, accsH k = some (of .host (before ++ (rounds.take k).flatten)) := by decide +kernel

set_option synthInstance.maxSize 512 in
theorem host_end : (LinkDemo.run .host 64 9 (of .host T) (histH ++ List.replicate 23 .poll)).map (fun x => ((acceptedPackets 9 64 x.1).length, acceptedBy 64 x.1, deliveredTo x.1)) =
    some (1, [⟨8, true, 1, 64, [5, 1, 2]⟩], [.rxMsg 8 true 0 [5, 7]]) := by decide +kernel

theorem run_lpc : ((Lpc.run false (Lpc.reset fun _ => 0) T).isSome) = true := by decide +kernel

theorem starts : ∀ core : Core (AstSt (List Access)), Core.init (AstSt (List Access)) {} (fun _ => 0xaa) = some core → ∃ c1 rc, 0 ≤ rc ∧
    core.registerBus (astOps dev.hw) (astInit dev.env .bmc 0) (BitVec.ofInt 8 ((askedOf PathDemo.items).foldl Ask.apply {}).localEid) = .ok (c1, rc) := by
  intro core h
  cases h
  have : (DaemonDemo.opt (Core.registerBus (astOps dev.hw) ((Core.init (AstSt (List Access)) {} (fun _ => 0xaa)).get rfl) (astInit dev.env .bmc 0) 8)).map (·.2) = some 0 := by decide +kernel
  obtain ⟨x, h1, h2⟩ := DaemonDemo.opt_ok this
  exact ⟨x.1, x.2, by rw [h2], h1⟩

theorem take_round (i : Nat) (hi : i < rounds.length) : (before ++ (rounds.take i).flatten) ++ [] ++ rounds[i] = before ++ (rounds.take (i + 1)).flatten := by
  rw [List.append_nil, List.append_assoc, List.take_succ_eq_append_getElem hi, List.flatten_append]
  simp

/-- Every round contains a whole poll of the process. -/
theorem wakes (i : Nat) (hi : i < rounds.length) :
    WholeWake process (PathDemo.wakes1 ++ [sendWake]) (List.replicate 23 pollWake) (before ++ (rounds.take i).flatten) rounds[i] := by
  have hlen : rounds.length = 23 := rfl
  obtain ⟨oa, a1, a2⟩ := DaemonDemo.opt_ok (polls i (by omega))
  obtain ⟨ob, b1, b2⟩ := DaemonDemo.opt_ok (polls (i + 1) (by omega))
  simp only [Prod.mk.injEq] at a2 b2
  have hrep : List.replicate 23 pollWake = List.replicate i pollWake ++ pollWake :: List.replicate (22 - i) pollWake := by
    rw [← List.replicate_succ, List.replicate_append_replicate]
    congr 1
    omega
  refine ⟨List.replicate i pollWake, pollWake, List.replicate (22 - i) pollWake, oa, ob, [], rounds[i], [], hrep, by simp [Wake.device, pollWake], by simp, a1, a2.1,
    by rw [a2.2, List.append_nil], ?_, b2.1, ?_⟩
  · rw [List.append_assoc, ← List.replicate_succ', ]; exact b1
  · rw [b2.2, take_round i hi]

/-- Every round contains a whole poll of the host. -/
theorem polls_host {h0 : Core (AstSt (List Access))}
    (hc : ∀ h log accs done, LinkDemo.run .host 64 9 (of .host T) h = some (log, accs, done) → ∃ c, h0.astRun LinkDemo.replay h = .ok (c, log) ∧ accessesOf c = accs)
    (i : Nat) (hi : i < rounds.length) : WholePoll LinkDemo.replay h0 histH 23 .host (before ++ (rounds.take i).flatten) rounds[i] := by
  have hlen : rounds.length = 23 := rfl
  have get : ∀ k < 24, ∃ c log, h0.astRun LinkDemo.replay (histH ++ List.replicate k .poll) = .ok (c, log) ∧ accessesOf c = of .host (before ++ (rounds.take k).flatten) := by
    intro k hk
    have := accs_host k hk
    unfold accsH at this
    obtain ⟨⟨log, accs, done⟩, h1, h2⟩ := Option.map_eq_some_iff.mp this
    simp only at h2
    subst h2
    obtain ⟨c, h3, h4⟩ := hc _ _ _ _ h1
    exact ⟨c, log, h3, h4⟩
  obtain ⟨c, log, h1, h2⟩ := get i (by omega)
  obtain ⟨c', log', h3, h4⟩ := get (i + 1) (by omega)
  exact ⟨i, c, log, c', log', [], rounds[i], [], by omega, by simp, h1, by rw [List.append_nil, h2], h3, by rw [h4, take_round i hi]⟩

end LiveDemo

open LiveDemo in
/-- The hypotheses of C112 are met: the channel comes up, a client and the host's application each send a message, and 23 rounds take them across. -/
example : (∀ i ∈ PathDemo.items, Works i) ∧ plainOf PathDemo.items = ["astlpc".toList, "/dev/mctp0".toList] ∧
    ((askedOf PathDemo.items).foldl Ask.apply {}).localEid = (8 : Byte).toNat ∧
    ∃ o0 o1 o log0 log1 log h0 cH logH h,
      process PathDemo.wakes1 = .ok o0 ∧ o0.log = some log0 ∧ o0.status = none ∧ (∃ a ∈ o0.kcs, ShowsActive a) ∧ clientSends 8 log0 = [] ∧
      process (PathDemo.wakes1 ++ [sendWake]) = .ok o1 ∧ o1.log = some log1 ∧ o1.status = none ∧ netArrivals 8 log1 = [] ∧
      process (PathDemo.wakes1 ++ [sendWake] ++ List.replicate 23 pollWake) = .ok o ∧ o.log = some log ∧ o.status = none ∧
      clientSends 8 log = clientSends 8 log1 ∧ clientSends 8 log = [(9, [5, 7])] ∧
      AstEndpoint LinkDemo.replay (of .host T) 9 65536 .host 64 {} h0 ∧ h0.astRun LinkDemo.replay (histH ++ List.replicate 23 .poll) = .ok (cH, logH) ∧
      OnLink false (fun _ => 0) (before ++ (rounds.flatten ++ [])) h o cH ∧
      (∀ i (hi : i < rounds.length), WholeWake process (PathDemo.wakes1 ++ [sendWake]) (List.replicate 23 pollWake) (before ++ (rounds.take i).flatten) rounds[i] ∧
        WholePoll LinkDemo.replay h0 histH 23 .host (before ++ (rounds.take i).flatten) rounds[i]) ∧
      4 * (((clientMsgsFor 64 (clientSends 8 log)).flatMap (Msg.packets 1 8)).length + (acceptedPackets 9 64 logH).length) + 15 ≤ rounds.length ∧
      deliveredTo logH = [.rxMsg 8 true 0 [5, 7]] ∧ netArrivals 8 log = [(9, [5, 1, 2])] := by
  obtain ⟨o0, r0, e0⟩ := DaemonDemo.opt_ok first
  obtain ⟨o1, r1, e1⟩ := DaemonDemo.opt_ok (polls 0 (by decide))
  obtain ⟨o, r, e⟩ := DaemonDemo.opt_ok (polls 23 (by decide))
  have hlogs := logs
  simp only [List.map_cons, List.map_nil, List.cons.injEq, and_true] at hlogs
  obtain ⟨g1, g2⟩ := hlogs
  obtain ⟨o1', r1', g1⟩ := DaemonDemo.opt_ok g1
  obtain ⟨o', r', g2⟩ := DaemonDemo.opt_ok g2
  cases r1.symm.trans r1'
  cases r.symm.trans r'
  simp only [Prod.mk.injEq] at e0 e1 e
  obtain ⟨⟨s0, l0⟩, k0⟩ := e0
  obtain ⟨log0, l0, l0'⟩ := Option.map_eq_some_iff.mp l0
  obtain ⟨log1, l1, l1'⟩ := Option.map_eq_some_iff.mp g1
  obtain ⟨log, l, l'⟩ := Option.map_eq_some_iff.mp g2
  simp only [Prod.mk.injEq] at l1' l'
  obtain ⟨h0, f1, f2⟩ := LinkDemo.runs_ok (mode := .host) (mtu := 64) (eid := 9) (env := of .host T) (by decide) (by decide +kernel)
  obtain ⟨⟨logH, aH, dH⟩, p1, p2⟩ := Option.map_eq_some_iff.mp host_end
  simp only [Prod.mk.injEq] at p2
  obtain ⟨cH, c1, c2⟩ := f2 _ _ _ _ p1
  have hH := accs_host 23 (by decide)
  unfold accsH at hH
  rw [p1] at hH
  simp only [Option.map_some, Option.some.injEq] at hH
  have all : before ++ (rounds.flatten ++ []) = before ++ (rounds.take 23).flatten := by rw [List.append_nil]; rfl
  obtain ⟨h, hh⟩ := Option.isSome_iff_exists.mp run_lpc
  refine ⟨?_, rfl, rfl, o0, o1, o, log0, log1, log, h0, cH, logH, h, r0, l0, s0, ⟨.kcsWrite .status 0xc1 0, ?_, ?_⟩, l0', ?_, l1, e1.1, l1'.2, r, l, e.1,
    by rw [l'.1, l1'.1], l'.1, f1, c1, ⟨⟨[], ?_, fun _ => rfl, fun h => absurd e.1 h⟩, ?_, hh⟩, fun i hi => ⟨wakes i hi, polls_host f2 i hi⟩, ?_, p2.2.2, l'.2⟩
  · intro i hi
    simp only [PathDemo.items, List.mem_cons, List.not_mem_nil, or_false] at hi
    rcases hi with rfl | rfl | rfl
    · show PlainWord "astlpc".toList; unfold PlainWord; decide
    · exact fun h => absurd h (by decide)
    · show PlainWord "/dev/mctp0".toList; unfold PlainWord; decide
  · exact List.mem_of_mem_drop (i := 9) (by rw [k0]; simp)
  · exact (show (0xc1 : Byte).getLsbD 6 = true by decide)
  · rw [List.replicate_zero, List.append_nil] at r1; exact r1
  · rw [e.2, List.append_nil, all]
  · rw [all, c2, hH]
  · rw [l'.1, p2.1]; decide +kernel

end Mctp
