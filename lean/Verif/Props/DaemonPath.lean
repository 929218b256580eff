import Verif.Props.DaemonLink
import Verif.Props.DaemonProcess
import Verif.Proofs.AstActive

/-!
# From the command line of a BMC's daemon to the host's application (C111)
-/

namespace Mctp

open Spec

variable {W V E : Type}

/-! ## A BMC accepts messages once it has shown an active channel -/

theorem opened_step {hw : Hw E} {mtu : Nat} {c c' : Core (AstSt E)} {bus : Bus (AstSt E)} {op : AstOp} {e : List Event} {rc : Int}
    (hb : c.busses = [bus]) (hbr : c.bridge = false) (hj : AstJ .bmc mtu bus) (ho : Opened bus)
    (he : c.astStep hw op = .ok (c', e, rc)) : ∃ bus', c'.busses = [bus'] ∧ Opened bus' := by
  obtain ⟨bus', l, hb', ha, -⟩ := astStep_shut hb hbr hj he
  refine ⟨bus', hb', ?_, ?_⟩
  · unfold Core.astStep at he
    split at he
    · rename_i o hop
      obtain ⟨b2, m, hx, hc, mx, hc', k, -⟩ := step_keeps (begun_keeps _) hb (os := []) ho.1 (AstOp.isApp hop) he
      rw [hc'] at hb'
      simp only [List.cons.injEq, and_true] at hb'
      rw [← hb']; exact k
    · have := (astPoll_chunk hb hbr hj he).begun hb hbr ((begun_single hb).mpr ho.1)
      exact (begun_single hb').mp this
  · obtain ⟨a, h1, h2⟩ := ho.2
    unfold Adds at ha
    exact ⟨a, by rw [ha]; exact List.mem_append.mpr (.inl h1), h2⟩

theorem opened_run {hw : Hw E} {mtu : Nat} {base : List Nat} {hist : List AstOp} :
    ∀ {c c' : Core (AstSt E)} {bus : Bus (AstSt E)} {log : List AstRec}, (∃ b, AstMem hw .bmc mtu base c b) → c.busses = [bus] → c.bridge = false →
      AstJ .bmc mtu bus → (Unopened bus ∨ Opened bus) → c.astRun hw hist = .ok (c', log) → ∃ bus', c'.busses = [bus'] ∧ (Unopened bus' ∨ Opened bus') := by
  induction hist with
  | nil =>
    intro c c' bus log _ hb _ _ h he
    simp only [Core.astRun, Except.ok.injEq, Prod.mk.injEq] at he
    obtain ⟨rfl, -⟩ := he
    exact ⟨bus, hb, h⟩
  | cons op rest ih =>
    intro c c' bus log hm hb hbr hj h he
    simp only [Core.astRun] at he
    obtain ⟨⟨c1, e1, rc1⟩, h1, he⟩ := Res.bind_eq_ok.mp he
    obtain ⟨⟨c2, log2⟩, h2, he⟩ := Res.bind_eq_ok.mp he
    simp only [Except.ok.injEq, Prod.mk.injEq] at he
    obtain ⟨rfl, -⟩ := he
    obtain ⟨b1, hb1, hbr1, hj1⟩ := astStep_inv hb hbr hj h1
    have hm1 : ∃ b, AstMem hw .bmc mtu base c1 b := by
      obtain ⟨x, _, _, g1, g2⟩ := ast_safe_step hm op
      rw [h1] at g1
      simp only [Except.ok.injEq, Prod.mk.injEq] at g1
      rw [g1.1]; exact g2
    have hg : AstGood .bmc mtu bus.binding := by
      obtain ⟨b, hm⟩ := hm
      have := hm.good
      have hbb := hm.2
      rw [hb] at hbb
      simp only [List.cons.injEq, and_true] at hbb
      rw [hbb]; exact this
    have hnext : ∃ bus', c1.busses = [bus'] ∧ (Unopened bus' ∨ Opened bus') := by
      rcases h with h | h
      · unfold Core.astStep at h1
        split at h1
        · rename_i o hop
          obtain ⟨b, q1, q2⟩ := unopened_app hb (AstOp.isApp hop) h h1
          exact ⟨b, q1, .inl q2⟩
        · exact unopened_poll hb hbr hj hg h h1
      · obtain ⟨b, q1, q2⟩ := opened_step hb hbr hj h h1
        exact ⟨b, q1, .inr q2⟩
    obtain ⟨b, q1, q2⟩ := hnext
    rw [hb1] at q1
    simp only [List.cons.injEq, and_true] at q1
    subst q1
    exact ih hm1 hb1 hbr1 hj1 q2 h2

/-- A BMC accepts messages exactly if it has shown an active channel. -/
theorem AstEndpoint.begun_iff {hw : Hw E} {env : E} {eid : Byte} {mx mtu : Nat} {mem : Mem} {c0 c : Core (AstSt E)}
    (h : AstEndpoint hw env eid mx .bmc mtu mem c0) (hcl : Clean mem) {hist : List AstOp} {log : List AstRec} (hr : c0.astRun hw hist = .ok (c, log)) :
    Begun c ↔ ∃ a ∈ accessesOf c, ShowsActive a := by
  obtain ⟨bus, hb, hbr, hj⟩ := h.inv
  have h0 : Unopened bus := by
    obtain ⟨rc, s, hrc, hs, hb0, -⟩ := h.start
    rw [hb] at hb0
    simp only [List.cons.injEq, and_true] at hb0
    obtain ⟨o1, z1, o2, z2, r, hacc, -⟩ := C50_published h
    rw [accessesOf_single hb] at hacc
    have htx : s.tx.state = .idle := by
      have hs : initBmc hw { astZero env .bmc mtu with proto := some astVerCur } = .ok (rc, s) := hs
      obtain ⟨-, -, -, -, -, -, h1, -⟩ := initBmc_ready (ls := true) (H := 0) h.mtu_lt (s := { astZero env .bmc mtu with proto := some astVerCur }) rfl rfl rfl rfl hs hrc
      rw [h1]; rfl
    refine ⟨by rw [hb0], ⟨by rw [hb0]; simp, .inl (by rw [hb0]; exact htx)⟩, ?_⟩
    rw [hacc]
    intro a ha
    simp only [List.mem_cons, List.not_mem_nil, or_false] at ha
    rcases ha with rfl | rfl | rfl
    · exact id
    · exact (show ¬ ((0x80 : Byte).getLsbD 6 = true) by decide)
    · exact id
  obtain ⟨b, hbc, h1 | h1⟩ := opened_run (h.mem hcl (by simp)) hb hbr hj (.inl h0) hr
  · rw [begun_single hbc, accessesOf_single hbc]
    exact ⟨fun h => absurd h1.1 h, fun ⟨a, h2, h3⟩ => absurd h3 (h1.2.2 a h2)⟩
  · rw [begun_single hbc, accessesOf_single hbc]
    exact ⟨fun _ => h1.2, fun _ => h1.1⟩

/-! ## The process -/

theorem loop_cat {β π : Type} {net : Net W} {ops : Ops β} {proc : π → Core β → Res (Core β × List Event × Int)} :
    ∀ {wakes more : List (Wake π)} {d d' : Daemon W β}, d.loop net ops proc wakes = .ok (d', none) →
      d.loop net ops proc (wakes ++ more) = d'.loop net ops proc more := by
  intro wakes
  induction wakes with
  | nil =>
    intro more d d' h
    simp only [Daemon.loop, Except.ok.injEq, Prod.mk.injEq] at h
    rw [h.1]; rfl
  | cons x rest ih =>
    intro more d d' h
    cases x with
    | failed => simp [Daemon.loop] at h
    | signal f => simp [Daemon.loop] at h
    | ready r =>
      simp only [List.cons_append, Daemon.loop] at h ⊢
      obtain ⟨d1, h1, h⟩ := Res.bind_eq_ok.mp h
      obtain ⟨⟨d2, stop⟩, h2, h⟩ := Res.bind_eq_ok.mp h
      cases stop with
      | true => simp at h
      | false =>
        simp only [Bool.false_eq_true, if_false] at h
        simp only [h1, h2, Res.bind_ok, Bool.false_eq_true, if_false]
        exact ih h

/-- The last accesses of a process to its devices: none while it runs; then the status register is cleared and, if that succeeded, the host interrupted. -/
def Farewell (status : Option Nat) (bye : List Access) : Prop :=
  (status = none → bye = []) ∧
  (status ≠ none → (∃ rc, rc ≠ 0 ∧ bye = [.kcsWrite .status 0 rc]) ∨ ∃ rc, bye = [.kcsWrite .status 0 0, .kcsWrite .data 0xff rc])

theorem Farewell.unique {st : Option Nat} {a b x y : List Access} (hx : Farewell st x) (hy : Farewell st y) (h : a ++ x = b ++ y) : a = b := by
  cases st with
  | none =>
    rw [hx.1 rfl, hy.1 rfl, List.append_nil, List.append_nil] at h
    exact h
  | some n =>
    have two : ∀ {l : List Access} {u v : Access}, l ++ [u, v] = (l ++ [u]) ++ [v] := by intro l u v; simp
    rcases hx.2 (by simp) with ⟨r1, h1, rfl⟩ | ⟨r1, rfl⟩ <;> rcases hy.2 (by simp) with ⟨r2, h2, rfl⟩ | ⟨r2, rfl⟩
    · exact (List.append_inj' h rfl).1
    · rw [two] at h
      have := (List.append_inj' h rfl).2
      simp at this
    · rw [two] at h
      have := (List.append_inj' h rfl).2
      simp at this
    · exact (List.append_inj' h rfl).1

/-- A daemon with `astlpc` that has entered its loop. -/
theorem astMain_loop {hw : Hw E} {env : E} {mem : Mem} {fill : Nat → Byte} {core c1 : Core (AstSt E)}
    (h0 : Core.init (AstSt E) mem fill = some core) {s : Settings} {rc : Int}
    (hreg : core.registerBus (astOps hw) (astInit env .bmc 0) (BitVec.ofInt 8 s.localEid) = .ok (c1, rc))
    {boot : Boot} {net : Net W} {w : W} {wakes : List (Wake Unit)} {l : Life W (AstSt E)} {d : Daemon W (AstSt E)}
    (h : daemonMain boot net (astOps hw) (some (astDef hw env)) s 1 core w wakes = .ok l) (hd : l.daemon = some d) :
    ∃ rc', (Daemon.init w (({ c1 with hasRx := true, hasCapture := core.hasCapture } : Core (AstSt E)).setCapture s.capBinding.isSome) s.localEid).loop net (astOps hw) (astProc hw) wakes = .ok (d, rc') ∧
      (l.status = none ↔ rc' = none) ∧ (l.status = none → l.core = d.core ∧ l.left = []) ∧ .bindingUp ∈ l.evs := by
  by_cases hcap : boot.capturesWork s
  · rw [daemonMain_binding hcap] at h
    unfold Life.binding at h
    obtain ⟨⟨c, r⟩, hi, h⟩ := Res.bind_eq_ok.mp h
    simp only at h hi
    by_cases hr : r = 0
    · subst hr
      rw [if_neg (by simp)] at h
      by_cases hsk : boot.socketWorks
      · rw [life_socket hsk] at h
        obtain ⟨⟨d', rc'⟩, hl, h⟩ := Res.bind_eq_ok.mp h
        simp only at h hl
        have hini : (Daemon.init w c s.localEid : Daemon W (AstSt E)) =
            Daemon.init w (({ c1 with hasRx := true, hasCapture := core.hasCapture } : Core (AstSt E)).setCapture s.capBinding.isSome) s.localEid := by
          have hcc : core.hasCapture = false := by
            obtain ⟨id, m, ha, rfl⟩ := init_ok h0; rfl
          simp only [astDef] at hi
          rw [if_neg (by simp)] at hi
          have := registerBus_flags (astOps hw) core (astInit env .bmc 0) (BitVec.ofInt 8 s.localEid) core.hasRx (s.capBinding.isSome || core.hasCapture)
          rw [hreg] at this
          rw [withCapture_eq, this] at hi
          simp only [Except.map, Res.bind_ok, Except.ok.injEq, Prod.mk.injEq] at hi
          obtain ⟨rfl, -⟩ := hi
          rw [hcc, Bool.or_false]
          rfl
        rw [hini] at hl
        have hl : (Daemon.init w (({ c1 with hasRx := true, hasCapture := core.hasCapture } : Core (AstSt E)).setCapture s.capBinding.isSome) s.localEid).loop net (astOps hw) (astProc hw) wakes = .ok (d', rc') := hl
        cases rc' with
        | none =>
          simp only [Except.ok.injEq] at h
          subst h
          simp only [Option.some.injEq] at hd
          subst hd
          exact ⟨none, hl, by simp, fun _ => ⟨rfl, rfl⟩, by simp⟩
        | some k =>
          simp only at h
          obtain ⟨q1, q2, q3, -⟩ := cleanBinding_ok h
          rw [q2] at hd
          simp only [Option.some.injEq] at hd
          subst hd
          exact ⟨some k, hl, by rw [q3]; simp, fun hn => (by rw [q3] at hn; simp at hn), by rw [q1]; simp⟩
      · obtain ⟨e, -, he⟩ := life_nosocket (W := W) (β := AstSt E) (π := Unit) hsk
          { evs := openEvs s ++ [.bindingUp], core := c, daemon := none, status := none } net (astOps hw) (astDef hw env) s w wakes
        rw [he] at h
        have := (cleanBinding_ok h).2.1
        rw [this] at hd
        simp at hd
    · rw [if_pos (by simpa using hr)] at h
      simp only [cleanPcapSocket_eq, Except.ok.injEq] at h
      subst h
      simp at hd
  · obtain ⟨evs, c, he, -⟩ := daemonMain_captures hcap net (astOps hw) (some (astDef hw env)) 1 core w wakes
    rw [he] at h
    simp only [Except.ok.injEq] at h
    subst h
    simp at hd

/-- The EID a command line asks for fits a byte. -/
theorem asked_eid {items : List Item} (hw : ∀ i ∈ items, Works i) :
    ∃ e : Byte, ((askedOf items).foldl Ask.apply {}).localEid = (e.toNat : Int) := by
  have key : ∀ (items : List Item) (s : Settings), (∀ i ∈ items, Works i) → (∃ e : Byte, s.localEid = (e.toNat : Int)) →
      ∃ e : Byte, ((askedOf items).foldl Ask.apply s).localEid = (e.toNat : Int) := by
    intro items
    induction items with
    | nil => intro s _ h; exact h
    | cons i rest ih =>
      intro s hw h
      have hrest := fun s' h' => ih s' (fun j hj => hw j (by simp [hj])) h'
      cases i with
      | inr word => exact hrest s h
      | inl x =>
        obtain ⟨a, form⟩ := x
        refine hrest (Ask.apply s a) ?_
        cases a with
        | eid n =>
          have hn : n ≤ 255 := (show n ≤ 255 ∧ _ from hw (.inl (.eid n, form)) (by simp)).1
          refine ⟨BitVec.ofNat 8 n, ?_⟩
          show (n : Int) = _
          simp only [BitVec.toNat_ofNat]
          omega
        | _ => exact h
  exact key items {} hw ⟨8, rfl⟩

/-- A process with `astlpc` on its command line that has entered its loop. -/
theorem astProcess {mem : Mem} (hcl : Clean mem) {fill : Nat → Byte} {dev : Devices E} (hopens : dev.astOpens = true) {boot : Boot} {net : Net W}
    {items : List Item} (hw : ∀ i ∈ items, Works i) {path : List Char} (hp : plainOf items = ["astlpc".toList, path])
    (hreg : ∀ core : Core (AstSt E), Core.init (AstSt E) mem fill = some core → ∃ c1 rc, 0 ≤ rc ∧
      core.registerBus (astOps dev.hw) (astInit dev.env .bmc 0) (BitVec.ofInt 8 ((askedOf items).foldl Ask.apply {}).localEid) = .ok (c1, rc)) (w : W) :
    let s := (askedOf items).foldl Ask.apply {}
    ∃ c0 eid, AstEndpoint dev.hw dev.env eid defaultMaxMessageSize .bmc 0 mem c0 ∧ s.localEid = (eid.toNat : Int) ∧
      ∀ wakes o log, processMain dev boot net mem fill (items.flatMap Item.words) w wakes = .ok o → o.log = some log →
        ∃ d rc bye, (Daemon.init w (c0.setCapture s.capBinding.isSome) s.localEid).loop net (astOps dev.hw) (astProc dev.hw) (wakes.map .mute) = .ok (d, rc) ∧
          (o.status = none ↔ rc = none) ∧ d.log = log ∧ d.evs = o.core ∧ o.kcs = accessesOf d.core ++ bye ∧ Farewell o.status bye := by
  intro s
  obtain ⟨core, hc, hn, hbs⟩ := init_clean (AstSt E) hcl fill
  obtain ⟨c1, rc, hrc, hr⟩ := hreg core hc
  obtain ⟨e, he⟩ := asked_eid hw
  have hbv : BitVec.ofInt 8 s.localEid = e := by
    show BitVec.ofInt 8 ((askedOf items).foldl Ask.apply {}).localEid = e
    rw [he]
    apply BitVec.eq_of_toNat_eq
    simp
  have hend : AstEndpoint dev.hw dev.env (BitVec.ofInt 8 s.localEid) defaultMaxMessageSize .bmc 0 mem
      { c1 with hasRx := true, hasCapture := core.hasCapture } := by
    have hmx : core.setMaxMessageSize defaultMaxMessageSize = core := by
      obtain ⟨id, m, ha, rfl⟩ := init_ok hc; rfl
    refine ⟨fill, core, rc, by decide, hc, ?_, hrc⟩
    have := registerBus_flags (astOps dev.hw) core (astInit dev.env .bmc 0) (BitVec.ofInt 8 s.localEid) true core.hasCapture
    rw [hr] at this
    have he : (core.setRxAll true).setMaxMessageSize defaultMaxMessageSize = (core.setMaxMessageSize defaultMaxMessageSize).setRxAll true := rfl
    rw [he, hmx]
    exact this
  rw [hbv] at hend
  refine ⟨_, e, hend, he, ?_⟩
  intro wakes o log ho hlog
  obtain ⟨l, hl⟩ := C98_safe_astlpc hcl hc hr hrc boot net 1 w (wakes.map .mute)
  have hproc : processMain dev boot net mem fill (items.flatMap Item.words) w wakes =
      .ok (l.outcome (fun _ => []) (fun l => (l.left ++ l.core.busses.map (·.binding.st)).flatMap fun st => st.log.map (·.acc))) := by
    unfold processMain
    rw [C99_honoured_partial hw hp]
    simp only [Res.bind_ok]
    rw [show bindingLookup "astlpc".toList = some .astlpc from by decide]
    simp only [hc, List.length_singleton, hopens, if_true]
    rw [hl]
    rfl
  rw [hproc] at ho
  simp only [Except.ok.injEq] at ho
  subst ho
  have hlog : l.daemon.map (·.log) = some log := hlog
  obtain ⟨d, hd, hdl⟩ := Option.map_eq_some_iff.mp hlog
  obtain ⟨rc', q1, q2, q3, q4⟩ := astMain_loop hc hr hl hd
  have hev : (l.daemon.map (·.evs)).getD [] = d.evs := by rw [hd]; rfl
  cases hst : l.status with
  | none =>
    obtain ⟨g1, g2⟩ := q3 hst
    refine ⟨d, rc', [], q1, q2, hdl, hev.symm, ?_, ⟨fun _ => rfl, fun h => absurd hst h⟩⟩
    show (l.left ++ l.core.busses.map (·.binding.st)).flatMap (fun st => st.log.map (·.acc)) = _
    rw [g1, g2, List.append_nil, List.nil_append, List.flatMap_map]
    rfl
  | some k =>
    obtain ⟨-, hb, st, pre, hleft, hpre, hx⟩ := C100_farewell hcl hc hr hrc hl q4 (by rw [hst]; simp)
    obtain ⟨bus, hbus, rfl⟩ := hpre d hd
    have hacc : bus.binding.st.log.map (·.acc) = accessesOf d.core := by rw [accessesOf_single hbus]; rfl
    have hkcs : (l.left ++ l.core.busses.map (·.binding.st)).flatMap (fun st => st.log.map (·.acc)) = st.log.map (·.acc) := by
      rw [hleft, hb]; simp
    rcases hx with ⟨r, hr0, hx⟩ | ⟨r, hx⟩
    · exact ⟨d, rc', _, q1, q2, hdl, hev.symm, by rw [← hacc, ← hx]; exact hkcs, ⟨fun h => absurd (hst.symm.trans h) (by simp), fun _ => .inl ⟨r, hr0, rfl⟩⟩⟩
    · exact ⟨d, rc', _, q1, q2, hdl, hev.symm, by rw [← hacc, ← hx]; exact hkcs, ⟨fun h => absurd (hst.symm.trans h) (by simp), fun _ => .inr ⟨r, rfl⟩⟩⟩

/-! ## C111 -/

/-- `T` is what happened on the link: it has the accesses of the process before its farewell, and those of the host. -/
structure OnLink (wr : Bool) (win : Nat → Byte) (T : List (AstMode × Access)) (h : Lpc) (o : Outcome) (cH : Core (AstSt V)) : Prop where
  bmc  : ∃ bye, o.kcs = of .bmc T ++ bye ∧ Farewell o.status bye
  host : of .host T = accessesOf cH
  run  : Lpc.run wr (Lpc.reset win) T = some h

section

variable {mem : Mem} {fill : Nat → Byte} {dev : Devices E} {boot : Boot} {net : Net W} {items : List Item} {path : List Char} {w : W}
  {wakes wakes1 wakes2 : List (Wake (Option (List Byte)))} {o o1 : Outcome} {log log1 : List SockEv}
  {hwH : Hw V} {envH : V} {eidH : Byte} {mxH mtuH : Nat} {memH : Mem} {h0 cH : Core (AstSt V)} {histH : List AstOp} {logH : List AstRec}
  {wr : Bool} {win : Nat → Byte} {T : List (AstMode × Access)} {h : Lpc}

/-- **C111** A daemon on a BMC, from its command line (`astlpc`, a device and any documented options that work), and an application on the host, on a link: for every behaviour of the
clients and the operating system, and every interleaving of the accesses of both sides.  The messages the host's application gets are those the daemon's clients
sent to other EIDs, or the first of them, each once, in order, with the EID asked for on the command line and unchanged; all of them, if the host has received all their packets.
The first `k` are missing: at a moment (after `wakes1`) when the BMC has shown an active channel, they have all been sent already; at a moment when it has not, all messages sent
before it are among them. -/
theorem C111_to_host (hcl : Clean mem) (hopens : dev.astOpens = true) (hw : ∀ i ∈ items, Works i) (hp : plainOf items = ["astlpc".toList, path])
    (hreg : ∀ core : Core (AstSt E), Core.init (AstSt E) mem fill = some core → ∃ c1 rc, 0 ≤ rc ∧
      core.registerBus (astOps dev.hw) (astInit dev.env .bmc 0) (BitVec.ofInt 8 ((askedOf items).foldl Ask.apply {}).localEid) = .ok (c1, rc))
    {eid : Byte} (heid : ((askedOf items).foldl Ask.apply {}).localEid = (eid.toNat : Int)) (hsrc : eid ≠ 0)
    (r1 : processMain dev boot net mem fill (items.flatMap Item.words) w wakes1 = .ok o1) (l1 : o1.log = some log1) (st1 : o1.status = none)
    (r : processMain dev boot net mem fill (items.flatMap Item.words) w (wakes1 ++ wakes2) = .ok o) (lo : o.log = some log)
    (hH : AstEndpoint hwH envH eidH mxH .host mtuH memH h0) (rH : h0.astRun hwH histH = .ok (cH, logH))
    (hmem : ∀ n, memH.ok n = true) (hl : OnLink wr win T h o cH) (hk : KeepsRx histH) (hmx1 : 4096 ≤ mxH) (hmx2 : mxH < 2 ^ 64)
    (hms : ∀ p ∈ clientSends eid.toNat log, Local eidH p.1 ∧ 2 * p.2.length ≤ mxH) :
    ∃ k ≤ (clientSends eid.toNat log).length,
      ((∃ a ∈ o1.kcs, ShowsActive a) → k ≤ (clientSends eid.toNat log1).length) ∧
      ((∀ a ∈ o1.kcs, ¬ ShowsActive a) → (clientSends eid.toNat log1).length ≤ k) ∧
      (let want := clientMsgsFor mtuH ((clientSends eid.toNat log).drop k)
       deliveredTo logH <+: expected eid want ∧
         (gotBy logH = want.flatMap (Msg.packets 1 eid) → deliveredTo logH = expected eid want)) := by
  obtain ⟨c0, e, hB, he, hrun⟩ := astProcess hcl hopens hw hp hreg (boot := boot) (net := net) w
  have : e = eid := by
    apply BitVec.eq_of_toNat_eq
    have : (e.toNat : Int) = (eid.toNat : Int) := he.symm.trans heid
    omega
  subst this
  obtain ⟨d1, rc1, bye1, a1, a2, rfl, -, a5, a6⟩ := hrun wakes1 o1 log1 r1 l1
  obtain ⟨d, rc, bye, b1, b2, rfl, -, b5, b6⟩ := hrun (wakes1 ++ wakes2) o log r lo
  rw [heid] at a1 b1
  have h1 := a2.mp st1
  subst h1
  rw [List.map_append, loop_cat a1] at b1
  obtain ⟨rs1, u1, -⟩ := loop_spec a1
  obtain ⟨rs2, u2, -⟩ := loop_spec b1
  have hlink : Linked wr win T h d.core cH := by
    obtain ⟨bye', q1, q2⟩ := hl.bmc
    exact ⟨(b6.unique q2 (b5.symm.trans q1)).symm, hl.host, hl.run⟩
  obtain ⟨xs1, m1, -, -⟩ := run_moves u1
  obtain ⟨k1, i1, -⟩ := (BInv.init hB _ w e.toNat).moves hB m1
  obtain ⟨hist1, lg1, g1, -⟩ := i1.hist
  have hbeg := hB.begun_iff hcl g1
  rw [← show o1.kcs = accessesOf d1.core by rw [a5, a6.1 st1, List.append_nil]] at hbeg
  obtain ⟨k, hk1, hk2, hk3, hk4, -⟩ := C104_to_host hB u1 u2 hH rH hmem hlink hk hsrc hmx1 hmx2 hms
  refine ⟨k, hk1, fun hx => hk2 (hbeg.mpr hx), fun hx => hk3 fun hb => ?_, hk4, fun hgot => ?_⟩
  · obtain ⟨a, ha, hs⟩ := hbeg.mp hb
    exact hx a ha hs
  · have hF : 0 < mtuH := by
      obtain ⟨xs2, m2, -, -⟩ := run_moves u2
      obtain ⟨k2, i2, -⟩ := i1.moves hB m2
      obtain ⟨hist2, lg2, g2, -⟩ := i2.hist
      obtain ⟨hF, -, -⟩ := hlink.accounted hB g2 hH rH hmem
      unfold HostFits at hF
      omega
    obtain ⟨more, q1, q2⟩ := hH.delivers hmem hk rH hmx1 hmx2 (ver := 1) (rest := []) hsrc (ms := clientMsgsFor mtuH ((clientSends e.toNat d.log).drop k)) (fun m hm => by
      obtain ⟨p, hp, rfl⟩ := List.mem_map.mp hm
      have := hms p (List.mem_of_mem_drop hp)
      exact ⟨hF, by show (0 : Byte).toNat < 8; decide, this.1, this.2⟩) (by rw [List.append_nil]; exact hgot.symm)
    rw [q2 rfl, List.append_nil] at q1
    exact q1.symm

/-- **C111** The other direction: what arrives from outside at the daemon, and is passed on to its clients as described by C101, are the messages the host's application has sent, or the first
of them, each once, in order, with the host's EID and unchanged; all of them when the host has nothing queued and its `mctp_astlpc_tx_done` is true. -/
theorem C111_from_host (hcl : Clean mem) (hopens : dev.astOpens = true) (hw : ∀ i ∈ items, Works i) (hp : plainOf items = ["astlpc".toList, path])
    (hreg : ∀ core : Core (AstSt E), Core.init (AstSt E) mem fill = some core → ∃ c1 rc, 0 ≤ rc ∧
      core.registerBus (astOps dev.hw) (astInit dev.env .bmc 0) (BitVec.ofInt 8 ((askedOf items).foldl Ask.apply {}).localEid) = .ok (c1, rc))
    {eid : Byte} (heid : ((askedOf items).foldl Ask.apply {}).localEid = (eid.toNat : Int))
    (r : processMain dev boot net mem fill (items.flatMap Item.words) w wakes = .ok o) (lo : o.log = some log)
    (hH : AstEndpoint hwH envH eidH mxH .host mtuH memH h0) (rH : h0.astRun hwH histH = .ok (cH, logH))
    (hmem : ∀ n, memH.ok n = true) (hl : OnLink wr win T h o cH) (hsrc : eidH ≠ 0)
    (hms : ∀ m ∈ acceptedBy mtuH logH, Local eid m.dest ∧ 2 * m.data.length ≤ 65536) :
    let want := ((acceptedBy mtuH logH).filter (fun m => m.data ≠ [])).map (fun m => (eidH, m.data))
    netArrivals eid.toNat log <+: want ∧ (pending cH = [] → txDone cH → netArrivals eid.toNat log = want) ∧
      (Each FreshAccept [] log → sendsIn log = owed log) := by
  obtain ⟨c0, e, hB, he, hrun⟩ := astProcess hcl hopens hw hp hreg (boot := boot) (net := net) w
  have : e = eid := by
    apply BitVec.eq_of_toNat_eq
    have : (e.toNat : Int) = (eid.toNat : Int) := he.symm.trans heid
    omega
  subst this
  obtain ⟨d, rc, bye, b1, b2, rfl, -, b5, b6⟩ := hrun wakes o log r lo
  rw [heid] at b1
  obtain ⟨rs, u, -⟩ := loop_spec b1
  have hlink : Linked wr win T h d.core cH := by
    obtain ⟨bye', q1, q2⟩ := hl.bmc
    exact ⟨(b6.unique q2 (b5.symm.trans q1)).symm, hl.host, hl.run⟩
  obtain ⟨q1, q2⟩ := C104_from_host hB u hH rH hcl.1 hmem hlink hsrc (by decide) (by decide) hms
  exact ⟨q1, q2, fun hf => (C101_relay u hf).2⟩

/-- **C111** The capture file of the binding: with `--capture-binding`, its outgoing packets are those of the clients' messages to other EIDs (without the first `k`, as above), in
order and each once, up to those still queued, and those the host has got, except for at most one on its way; its incoming packets are
those of the messages the host's application has sent, except for at most one on its way and the ones still queued.  Without the option nothing is captured. -/
theorem C111_captured (hcl : Clean mem) (hopens : dev.astOpens = true) (hw : ∀ i ∈ items, Works i) (hp : plainOf items = ["astlpc".toList, path])
    (hreg : ∀ core : Core (AstSt E), Core.init (AstSt E) mem fill = some core → ∃ c1 rc, 0 ≤ rc ∧
      core.registerBus (astOps dev.hw) (astInit dev.env .bmc 0) (BitVec.ofInt 8 ((askedOf items).foldl Ask.apply {}).localEid) = .ok (c1, rc))
    {eid : Byte} (heid : ((askedOf items).foldl Ask.apply {}).localEid = (eid.toNat : Int))
    (r1 : processMain dev boot net mem fill (items.flatMap Item.words) w wakes1 = .ok o1) (l1 : o1.log = some log1) (st1 : o1.status = none)
    (r : processMain dev boot net mem fill (items.flatMap Item.words) w (wakes1 ++ wakes2) = .ok o) (lo : o.log = some log) :
    (((askedOf items).foldl Ask.apply {}).capBinding = none → capturedPackets o.core = []) ∧
    (((askedOf items).foldl Ask.apply {}).capBinding ≠ none →
      AstEndpoint hwH envH eidH mxH .host mtuH memH h0 → h0.astRun hwH histH = .ok (cH, logH) → (∀ n, memH.ok n = true) → OnLink wr win T h o cH →
      (∃ k ≤ (clientSends eid.toNat log).length,
        ((∃ a ∈ o1.kcs, ShowsActive a) → k ≤ (clientSends eid.toNat log1).length) ∧
        ((∀ a ∈ o1.kcs, ¬ ShowsActive a) → (clientSends eid.toNat log1).length ≤ k) ∧
        outgoingOf (capturedPackets o.core) <+: (clientMsgsFor mtuH ((clientSends eid.toNat log).drop k)).flatMap (Msg.packets 1 eid)) ∧
      (∃ last, outgoingOf (capturedPackets o.core) = gotBy logH ++ last ∧ last.length ≤ 1) ∧
      (∃ last, (acceptedBy mtuH logH).flatMap (Msg.packets 1 eidH) = incomingOf (capturedPackets o.core) ++ last ++ pending cH ∧ last.length ≤ 1 ∧ (txDone cH → last = []))) := by
  obtain ⟨c0, e, hB, he, hrun⟩ := astProcess hcl hopens hw hp hreg (boot := boot) (net := net) w
  have : e = eid := by
    apply BitVec.eq_of_toNat_eq
    have : (e.toNat : Int) = (eid.toNat : Int) := he.symm.trans heid
    omega
  subst this
  obtain ⟨d1, rc1, bye1, a1, a2, rfl, -, a5, a6⟩ := hrun wakes1 o1 log1 r1 l1
  obtain ⟨d, rc, bye, b1, b2, rfl, b4, b5, b6⟩ := hrun (wakes1 ++ wakes2) o log r lo
  rw [heid] at a1 b1
  have h1 := a2.mp st1
  subst h1
  obtain ⟨rs0, u0, -⟩ := loop_spec b1
  rw [List.map_append, loop_cat a1] at b1
  obtain ⟨rs1, u1, -⟩ := loop_spec a1
  obtain ⟨rs2, u2, -⟩ := loop_spec b1
  refine ⟨fun hn => ?_, fun hs hH rH hmem hl => ?_⟩
  · rw [hn] at u0
    rw [← b4]
    exact C109_daemon_off hB u0
  · have hon : ((askedOf items).foldl Ask.apply {}).capBinding.isSome = true := by
      cases hb : ((askedOf items).foldl Ask.apply {}).capBinding with
      | none => exact absurd hb hs
      | some _ => rfl
    rw [hon] at u1
    have hlink : Linked wr win T h d.core cH := by
      obtain ⟨bye', q1, q2⟩ := hl.bmc
      exact ⟨(b6.unique q2 (b5.symm.trans q1)).symm, hl.host, hl.run⟩
    obtain ⟨xs1, m1, -, -⟩ := run_moves u1
    obtain ⟨k1, i1, -⟩ := (BInv.init hB _ w e.toNat).moves hB m1
    obtain ⟨hist1, lg1, g1, -⟩ := i1.hist
    have hbeg := hB.begun_iff hcl g1
    rw [← show o1.kcs = accessesOf d1.core by rw [a5, a6.1 st1, List.append_nil]] at hbeg
    obtain ⟨-, ⟨k, hk1, hk2, hk3, hk4⟩, ⟨last, q1, q2, -⟩, q4⟩ := C109_daemon hB u1 u2 hH rH hmem hlink (fun _ => 0) (fmem := {}) (fun _ => rfl)
    rw [b4] at hk4 q1 q4
    refine ⟨⟨k, hk1, fun hx => hk2 (hbeg.mpr hx), fun hx => hk3 fun hb => ?_, ?_⟩, ⟨last, q1, q2⟩, q4⟩
    · obtain ⟨a, ha, hs⟩ := hbeg.mp hb
      exact hx a ha hs
    · rw [hk4]; exact List.prefix_append _ _

end

/-! ## The hypotheses are met -/

namespace PathDemo

open AstDemo

def hdrA : List Byte := header 1 3 0 0 0 256 524156 524412 524156
def hdrB : List Byte := header 1 3 1 3 0 256 76 524412 524156
def hdrC : List Byte := header 1 3 1 3 3 256 76 524412 76

/-- The accesses of both sides: those of `DaemonLinkDemo.T`, for a BMC that offers the whole window. -/
def T : List (AstMode × Access) := DaemonLinkDemo.T.map fun x => match x with
  | (m, .lpcWrite 336 b rc) => (m, .lpcWrite 524416 b rc)
  | (m, .lpcRead 336 b rc) => (m, .lpcRead 524416 b rc)
  | (m, .lpcWrite 332 b rc) => (m, .lpcWrite 524412 b rc)
  | (m, .lpcRead 332 b rc) => (m, .lpcRead 524412 b rc)
  | (m, .lpcWrite 0 _ rc) => (m, .lpcWrite 0 hdrA rc)
  | (m, .lpcWrite 16 _ rc) => (m, .lpcWrite 16 (be32 256 ++ be32 76 ++ be32 524412 ++ be32 76) rc)
  | (m, .lpcRead 0 b rc) => (m, .lpcRead 0 (if b = hdr64 then hdrB else if b = hdr64neg then hdrC else hdrA) rc)
  | x => x

def dev : Devices (List Access) :=
  { wr := blockingWrite, patience := 256, hw := LinkDemo.replay, env := of .bmc T, astOpens := true }

/-- A client connects, and registers for type 5 while the channel is set up. -/
def wakes1 : List (Wake (Option (List Byte))) := [.ready ⟨none, fun _ => false, true⟩, .ready ⟨some none, fun _ => true, false⟩]
/-- It sends a message to the host; the BMC polls twice; a signal ends the daemon. -/
def wakes2 : List (Wake (Option (List Byte))) :=
  [.ready ⟨none, fun _ => true, false⟩, .ready ⟨some none, fun _ => false, false⟩, .ready ⟨some none, fun _ => false, false⟩, .signal true]

/-- `astlpc --capture-binding b /dev/mctp0` -/
def items : List Item := [.inr "astlpc".toList, .inl (.captureBinding "b".toList, .long), .inr "/dev/mctp0".toList]

def process (wakes : List (Wake (Option (List Byte)))) : Res Outcome :=
  processMain dev LifeDemo.boot DaemonDemo.net {} (fun _ => 0xaa) (items.flatMap Item.words) DaemonLinkDemo.script wakes

set_option synthInstance.maxSize 4000 in
set_option synthInstance.maxHeartbeats 400000 in
theorem first : (DaemonDemo.opt (process wakes1)).map (fun o => ((o.status, o.log.map (clientSends 8)), o.kcs.drop 9)) =
    some ((none, some []), [.kcsWrite .status 0xc1 0, .kcsWrite .data 0xff 0]) := by decide +kernel

set_option synthInstance.maxSize 4000 in
set_option synthInstance.maxHeartbeats 400000 in
theorem second : (DaemonDemo.opt (process (wakes1 ++ wakes2))).map (fun o => ((o.status, o.kcs), o.log.map (fun l => (clientSends 8 l, netArrivals 8 l, sendsIn l)), capturedPackets o.core)) =
    some ((some 0, of .bmc T ++ [.kcsWrite .status 0 0, .kcsWrite .data 0xff 0]), some ([(9, [5, 7])], [(9, [5, 1, 2])], [(10, [9, 5, 1, 2])]),
      [(true, DaemonLinkDemo.pktB), (false, DaemonLinkDemo.pktH)]) := by decide +kernel

set_option synthInstance.maxSize 512 in
theorem host_run : LinkDemo.run .host 64 9 (of .host T) DaemonLinkDemo.histH = some (DaemonLinkDemo.logH, of .host T, [(true, some 3, 68)]) := by decide +kernel

theorem run_lpc : ((Lpc.run false (Lpc.reset fun _ => 0) T).isSome) = true := by decide +kernel

theorem starts : ∀ core : Core (AstSt (List Access)), Core.init (AstSt (List Access)) {} (fun _ => 0xaa) = some core → ∃ c1 rc, 0 ≤ rc ∧
    core.registerBus (astOps dev.hw) (astInit dev.env .bmc 0) (BitVec.ofInt 8 ((askedOf items).foldl Ask.apply {}).localEid) = .ok (c1, rc) := by
  intro core h
  cases h
  have : (DaemonDemo.opt (Core.registerBus (astOps dev.hw) ((Core.init (AstSt (List Access)) {} (fun _ => 0xaa)).get rfl) (astInit dev.env .bmc 0) 8)).map (·.2) = some 0 := by decide +kernel
  obtain ⟨x, h1, h2⟩ := DaemonDemo.opt_ok this
  exact ⟨x.1, x.2, by rw [h2], h1⟩

end PathDemo

open PathDemo in
/-- `mctp-demux-daemon astlpc --capture-binding b /dev/mctp0`: the channel comes up, a client sends a message to the host and gets one from it, and a signal ends the daemon. -/
example : (∀ i ∈ items, Works i) ∧ plainOf items = ["astlpc".toList, "/dev/mctp0".toList] ∧
    ((askedOf items).foldl Ask.apply {}).localEid = (8 : Byte).toNat ∧ ((askedOf items).foldl Ask.apply {}).capBinding ≠ none ∧
    ∃ o1 o log1 log h0 cH h, process wakes1 = .ok o1 ∧ o1.log = some log1 ∧ o1.status = none ∧ (∃ a ∈ o1.kcs, ShowsActive a) ∧ clientSends 8 log1 = [] ∧
      process (wakes1 ++ wakes2) = .ok o ∧ o.log = some log ∧ o.status = some 0 ∧
      AstEndpoint LinkDemo.replay (of .host T) 9 65536 .host 64 {} h0 ∧ h0.astRun LinkDemo.replay DaemonLinkDemo.histH = .ok (cH, DaemonLinkDemo.logH) ∧
      OnLink false (fun _ => 0) T h o cH ∧ clientSends 8 log = [(9, [5, 7])] ∧ netArrivals 8 log = [(9, [5, 1, 2])] ∧ sendsIn log = [(10, [9, 5, 1, 2])] ∧
      gotBy DaemonLinkDemo.logH = (clientMsgsFor 64 [(9, [5, 7])]).flatMap (Msg.packets 1 8) ∧
      deliveredTo DaemonLinkDemo.logH = expected 8 (clientMsgsFor 64 [(9, [5, 7])]) ∧
      capturedPackets o.core = [(true, DaemonLinkDemo.pktB), (false, DaemonLinkDemo.pktH)] := by
  obtain ⟨o1, r1, e1⟩ := DaemonDemo.opt_ok first
  obtain ⟨o, r, e⟩ := DaemonDemo.opt_ok second
  simp only [Prod.mk.injEq] at e1 e
  obtain ⟨⟨s1, l1⟩, k1⟩ := e1
  obtain ⟨⟨st, kc⟩, l, cp⟩ := e
  obtain ⟨log1, l1, l1'⟩ := Option.map_eq_some_iff.mp l1
  obtain ⟨log, l, l'⟩ := Option.map_eq_some_iff.mp l
  simp only [Prod.mk.injEq] at l'
  obtain ⟨h0, cH, f1, f2, f3, f4⟩ := LinkDemo.run_ok (by decide) host_run
  obtain ⟨h, hh⟩ := Option.isSome_iff_exists.mp run_lpc
  refine ⟨?_, rfl, rfl, by simp [items, askedOf, Ask.apply], o1, o, log1, log, h0, cH, h, r1, l1, s1, ⟨.kcsWrite .status 0xc1 0, ?_, ?_⟩, l1', r, l, st, f1, f2,
    ⟨⟨_, kc, ?_⟩, f3.symm, hh⟩, l'.1, l'.2.1, l'.2.2, by decide +kernel, rfl, cp⟩
  · intro i hi
    simp only [items, List.mem_cons, List.not_mem_nil, or_false] at hi
    rcases hi with rfl | rfl | rfl
    · show PlainWord "astlpc".toList; unfold PlainWord; decide
    · exact fun h => absurd h (by decide)
    · show PlainWord "/dev/mctp0".toList; unfold PlainWord; decide
  · exact List.mem_of_mem_drop (i := 9) (by rw [k1]; simp)
  · exact (show (0xc1 : Byte).getLsbD 6 = true by decide)
  · exact ⟨fun h => absurd (st.symm.trans h) (by simp), fun _ => .inr ⟨0, rfl⟩⟩

end Mctp
