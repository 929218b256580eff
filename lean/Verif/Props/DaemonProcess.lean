import Verif.Model.DaemonProcess
import Verif.Props.DaemonWire
import Verif.Props.CommandLine

/-!
# The daemon as a process (C106, C107)
-/

namespace Mctp

open Spec

variable {W β π E : Type}

/-! ## Without a device -/

/-- If nothing arrives from outside, what arrives is what clients sent to the daemon's own EID. -/
theorem arrivals_self {le : Int} : ∀ (n : Nat) (log : List SockEv), log.length ≤ n → Echoed le log → arrivalsFrom le false log = [] →
    log.filterMap arrivalOf = log.filterMap (selfSend le)
  | 0, log, hn, _, _ => by
    cases log with
    | nil => rfl
    | cons _ _ => simp at hn
  | n + 1, [], _, _, _ => rfl
  | n + 1, e :: rest, hn, he, ha => by
    have hn : rest.length ≤ n := by simpa using hn
    have hdull : arrivalOf e = none → selfSend le e = none → arrivalsFrom le false rest = [] →
        (e :: rest).filterMap arrivalOf = (e :: rest).filterMap (selfSend le) := by
      intro h1 h2 h3
      rw [List.filterMap_cons_none h1, List.filterMap_cons_none h2]
      exact arrivals_self n rest hn he.2 h3
    cases e with
    | arrived src msg => simp [arrivalsFrom] at ha
    | received fd rc bs =>
      cases bs with
      | nil => exact hdull rfl rfl ha
      | cons eid payload =>
        by_cases heid : (eid.toNat : Int) = le
        · obtain ⟨post, hp⟩ := he.1 fd rc eid payload rfl heid
          subst hp
          simp only [arrivalsFrom, toSelf, heid, decide_true, if_true, List.nil_append] at ha
          have := arrivals_self n post (by simp only [List.length_cons] at hn; omega) he.2.2 ha
          rw [List.filterMap_cons_none (f := arrivalOf) rfl, List.filterMap_cons_some (f := arrivalOf) (b := (eid, payload)) rfl,
            List.filterMap_cons_some (f := selfSend le) (b := (eid, payload)) (by simp [selfSend, heid]),
            List.filterMap_cons_none (f := selfSend le) rfl, this]
        · refine hdull rfl (by simp [selfSend, heid]) ?_
          simpa [arrivalsFrom, toSelf, heid] using ha
    | _ => exact hdull rfl rfl ha

/-- A core without a bus. -/
theorem noBus_moves {net : Net W} {ops : Ops β} {d d' : Daemon W β} {xs : List π}
    (h : Moves net ops (fun _ c => .ok (c, [], 0)) d xs d') (h0 : d.core.nBusses = 0) (he : d.evs = []) :
    d'.core = d.core ∧ d'.evs = [] := by
  induction h with
  | refl => exact ⟨rfl, he⟩
  | tail h hm ih =>
    obtain ⟨i1, i2⟩ := ih
    cases hm with
    | quiet _ _ _ hk he' _ => exact ⟨hk.trans i1, he'.trans i2⟩
    | mark _ => exact ⟨i1, i2⟩
    | prune => exact ⟨i1, i2⟩
    | register _ _ _ _ _ _ hk he' _ => exact ⟨hk.trans i1, he'.trans i2⟩
    | accept _ _ _ hk he' _ => exact ⟨hk.trans i1, he'.trans i2⟩
    | @home d0 _ _ eid payload _ _ _ hk he' _ =>
      obtain ⟨b1, b2, -⟩ := rxMessage_same net d0 eid payload
      exact ⟨b1.trans (hk.trans i1), b2.trans (he'.trans i2)⟩
    | send _ _ _ hk he' _ =>
      rw [i1] at hk
      simp only [Core.messageTx, h0] at hk
      simp at hk
      obtain ⟨hk1, rfl, -⟩ := hk
      exact ⟨hk1.symm, by rw [he', i2]; rfl⟩
    | input hx =>
      simp only [Except.ok.injEq, Prod.mk.injEq] at hx
      obtain ⟨rfl, rfl, -⟩ := hx
      exact ⟨i1, by simpa [Daemon.deliver] using i2⟩

theorem init_clean (β : Type) {mem : Mem} (hcl : Clean mem) (fill : Nat → Byte) : ∃ c, Core.init β mem fill = some c ∧ c.nBusses = 0 ∧ c.busses = [] := by
  unfold Core.init Mem.alloc
  rw [if_pos (hcl.ok _)]
  exact ⟨_, rfl, rfl, rfl⟩

/-- A binding without a destructor leaves the core as the loop did. -/
theorem life_core {boot : Boot} {net : Net W} {ops : Ops β} {bd : BindingDef β π} (hbd : bd.destroy = none) {s : Settings} {n : Nat} {core : Core β}
    {w : W} {wakes : List (Wake π)} {l : Life W β} (h : daemonMain boot net ops (some bd) s n core w wakes = .ok l) :
    (∀ d, l.daemon = some d → l.core = d.core) ∧
      (l.daemon = none → l.core = core ∨ l.core = core.setCapture true ∨ ∃ rc, bd.init (withCapture s core) (BitVec.ofInt 8 s.localEid) n = .ok (l.core, rc)) := by
  by_cases hcap : boot.capturesWork s
  · rw [daemonMain_binding hcap] at h
    unfold Life.binding at h
    obtain ⟨⟨c, rc⟩, hi, h⟩ := Res.bind_eq_ok.mp h
    simp only at h hi
    by_cases hrc : rc = 0
    · subst hrc
      rw [if_neg (by simp)] at h
      by_cases hsk : boot.socketWorks
      · rw [life_socket hsk] at h
        obtain ⟨⟨d', rc⟩, hl, h⟩ := Res.bind_eq_ok.mp h
        simp only at h hl
        split at h
        · simp only [Except.ok.injEq] at h; subst h
          exact ⟨fun d hd => (by cases hd; rfl), fun h => (nomatch h)⟩
        · have hc := cleanBinding_ok h
          rw [hbd] at hc
          obtain ⟨-, h1, -, h2⟩ := hc
          exact ⟨fun d hd => (by rw [h1] at hd; cases hd; exact h2), fun h => (by rw [h1] at h; nomatch h)⟩
      · obtain ⟨e, -, he⟩ := life_nosocket (W := W) (β := β) (π := π) hsk
          { evs := openEvs s ++ [.bindingUp], core := c, daemon := none, status := none } net ops bd s w wakes
        rw [he] at h
        have hc := cleanBinding_ok h
        rw [hbd] at hc
        obtain ⟨-, h1, -, h2⟩ := hc
        exact ⟨fun d hd => (by rw [h1] at hd; nomatch hd), fun _ => .inr (.inr ⟨_, by rw [h2]; exact hi⟩)⟩
    · rw [if_pos (by simpa using hrc)] at h
      simp only [cleanPcapSocket_eq, Except.ok.injEq] at h
      subst h
      exact ⟨fun d hd => (nomatch hd), fun _ => .inr (.inr ⟨_, hi⟩)⟩
  · obtain ⟨evs, c, he, hc, -⟩ := daemonMain_captures hcap net ops (some bd) n core w wakes
    rw [he] at h
    simp only [Except.ok.injEq] at h
    subst h
    exact ⟨fun d hd => (nomatch hd), fun _ => by rcases hc with rfl | rfl <;> simp⟩

theorem no_start_status {boot : Boot} {net : Net W} {ops : Ops β} {bd : Option (BindingDef β π)} {s : Settings} {n : Nat} {core : Core β}
    {w : W} {wakes : List (Wake π)} {l : Life W β} (h : daemonMain boot net ops bd s n core w wakes = .ok l) (hd : l.daemon = none) : l.status = some 1 := by
  refine (C97_status_partial h).1 fun hs => ?_
  have := (C97_loop h).1.mpr hs
  rw [hd] at this
  exact absurd this (by simp)

/-- **C106** A daemon started with the binding `null`: for every command line of documented options (that work), every behaviour of the clients and of the operating
system.  It does not crash, no packet is sent, received or captured, and no device is touched; if its start-up succeeds, the messages that arrive for its clients are
exactly those that clients send to its own EID, in order, and they are passed on as by an exact relay.  With parameters it does not start. -/
theorem C106_local {mem : Mem} (hcl : Clean mem) (fill : Nat → Byte) (dev : Devices E) (boot : Boot) (net : Net W) {items : List Item} (hw : ∀ i ∈ items, Works i)
    {params : List (List Char)} (hp : plainOf items = "null".toList :: params) (w : W) (wakes : List (Wake (Option (List Byte)))) :
    let s := (askedOf items).foldl Ask.apply {}
    ∃ o, processMain dev boot net mem fill (items.flatMap Item.words) w wakes = .ok o ∧ o.core = [] ∧ o.wire = [] ∧ o.kcs = [] ∧
      (o.log.isSome ↔ params = [] ∧ boot.capturesWork s ∧ boot.socketWorks) ∧ (o.log = none → o.status = some 1) ∧
      ∀ log, o.log = some log → log.filterMap arrivalOf = log.filterMap (selfSend s.localEid) ∧ (Each FreshAccept [] log → sendsIn log = owed log) := by
  intro s
  obtain ⟨core, hc, hn, -⟩ := init_clean Unit hcl fill
  have hsafe : SafeCores noOps ((nullDef.proc).getD fun _ c => .ok (c, [], 0)) (fun c : Core Unit => c.nBusses = 0) := by
    refine ⟨fun c hc eid msg => ⟨c, [], 0, ?_, hc⟩, fun c hc x => ⟨c, [], 0, rfl, hc⟩⟩
    simp [Core.messageTx, hc]
  obtain ⟨l, hl⟩ := daemonMain_total (I := fun c : Core Unit => c.nBusses = 0) (J := fun _ => True) boot net noOps nullDef s params.length core w (wakes.map .deaf)
    hsafe ⟨withCapture s core, _, rfl, fun _ => ⟨by rw [withCapture_eq]; exact hn, trivial⟩⟩ (fun _ _ => trivial) (fun f hf => (nomatch hf))
  have hproc : processMain dev boot net mem fill (items.flatMap Item.words) w wakes = .ok (l.outcome (fun _ => []) (fun _ => [])) := by
    unfold processMain
    rw [C99_honoured_partial hw hp]
    simp only [Res.bind_ok]
    rw [show bindingLookup "null".toList = some .null from by decide]
    simp only [hc, Option.map_some]
    rw [hl]
    rfl
  obtain ⟨h1, h2⟩ := C97_loop hl
  have hdaemon : ∀ d, l.daemon = some d → d.evs = [] ∧ ∃ rs : List (Ready Unit), (Daemon.init w (withCapture s core) s.localEid).run net noOps (fun _ c => .ok (c, [], 0)) rs = .ok d := by
    intro d hd
    obtain ⟨bd', c, rs, post, hst, -, hrun, -⟩ := h2 d hd
    have hbd : nullDef = bd' := by have := hst.known; simpa using this
    subst hbd
    have hini := hst.init
    simp only [nullDef, Except.ok.injEq, Prod.mk.injEq] at hini
    obtain ⟨rfl, -⟩ := hini
    obtain ⟨xs, hm, -⟩ := run_moves hrun
    obtain ⟨-, q2⟩ := noBus_moves hm (by
      show ((withCapture s core).setRxAll true).nBusses = 0
      rw [withCapture_eq]; exact hn) rfl
    exact ⟨q2, rs, hrun⟩
  refine ⟨_, hproc, ?_, rfl, rfl, ?_, ?_, ?_⟩
  · show (l.daemon.map (·.evs)).getD [] = []
    cases hd : l.daemon with
    | none => rfl
    | some d => exact (hdaemon d hd).1
  · show (l.daemon.map (·.log)).isSome ↔ _
    rw [Option.isSome_map, h1]
    constructor
    · rintro ⟨bd', c, hst⟩
      refine ⟨?_, hst.captures, hst.socket⟩
      have hbd : nullDef = bd' := by have := hst.known; simpa using this
      subst hbd
      have hini := hst.init
      simp only [nullDef, Except.ok.injEq, Prod.mk.injEq] at hini
      obtain ⟨-, h⟩ := hini
      split at h
      · exact absurd h (by decide)
      · rename_i hx
        exact List.eq_nil_of_length_eq_zero (by simpa using hx)
    · rintro ⟨rfl, g1, g2⟩
      exact ⟨nullDef, _, g1, rfl, rfl, g2⟩
  · intro hd
    have hd : l.daemon = none := by
      have : l.daemon.map (·.log) = none := hd
      simpa using this
    exact no_start_status hl hd
  · intro log hlog
    have hlog : l.daemon.map (·.log) = some log := hlog
    obtain ⟨d, hd, rfl⟩ := Option.map_eq_some_iff.mp hlog
    obtain ⟨q1, rs, hrun⟩ := hdaemon d hd
    obtain ⟨a1, a2⟩ := C101_arrivals hrun
    rw [q1] at a1
    exact ⟨arrivals_self _ _ (Nat.le_refl _) a2 a1, fun hf => (C101_relay hrun hf).2⟩

/-! ## With a device -/

/-- The command line names a binding that cannot be used: an unknown name, not one parameter, or a KCS device that cannot be opened. -/
def Unusable (dev : Devices E) (name : List Char) (params : List (List Char)) : Prop :=
  (name ≠ "null".toList ∧ name ≠ "serial".toList ∧ name ≠ "astlpc".toList) ∨
  (name = "null".toList ∧ params ≠ []) ∨ (name = "serial".toList ∧ params.length ≠ 1) ∨ (name = "astlpc".toList ∧ (params.length ≠ 1 ∨ dev.astOpens = false))

theorem lookup_none {name : List Char} (h1 : name ≠ "null".toList) (h2 : name ≠ "serial".toList) (h3 : name ≠ "astlpc".toList) : bindingLookup name = none := by
  unfold bindingLookup
  rw [List.find?_eq_none]
  intro b hb
  cases b
  · exact fun h => h1 (beq_iff_eq.mp h).symm
  · exact fun h => h2 (beq_iff_eq.mp h).symm
  · exact fun h => h3 (beq_iff_eq.mp h).symm

/-- A binding that refuses. -/
theorem refusing {boot : Boot} {net : Net W} {ops : Ops β} {bd : Option (BindingDef β π)} {s : Settings} {n : Nat} {core : Core β}
    {w : W} {wakes : List (Wake π)} (hb : ∀ b, bd = some b → b.init (withCapture s core) (BitVec.ofInt 8 s.localEid) n = .ok (withCapture s core, -1)) :
    ∃ evs c, daemonMain boot net ops bd s n core w wakes = .ok { evs := evs, core := c, daemon := none, status := some 1 } ∧ c.busses = core.busses ∧
      .bindingUp ∉ evs ∧ .sockOpened ∉ evs := by
  by_cases hcap : boot.capturesWork s
  · rw [daemonMain_binding hcap]
    unfold Life.binding
    refine ⟨openEvs s ++ closeEvs s, withCapture s core, ?_, by rw [withCapture_eq], ?_⟩
    · cases bd with
      | none => simp [cleanPcapSocket_eq]
      | some b =>
        simp [hb b rfl, Res.bind_ok, cleanPcapSocket_eq]
    · unfold openEvs closeEvs captureClose
      cases s.capBinding <;> cases s.capSocket <;> simp
  · obtain ⟨evs, c, he, hc, hev⟩ := daemonMain_captures hcap net ops bd n core w wakes
    refine ⟨evs, c, he, by rcases hc with rfl | rfl <;> rfl, ?_⟩
    rcases hev with rfl | rfl | rfl | ⟨-, rfl | rfl⟩ <;> simp [captureClose]

/-- **C107** A command line whose binding cannot be used: the process ends with status 1; nothing is served, no socket is opened and no device touched. -/
theorem C107_refused {mem : Mem} (hcl : Clean mem) (fill : Nat → Byte) (dev : Devices E) (boot : Boot) (net : Net W) {items : List Item} (hw : ∀ i ∈ items, Works i)
    {name : List Char} {params : List (List Char)} (hp : plainOf items = name :: params) (hu : Unusable dev name params) (w : W)
    (wakes : List (Wake (Option (List Byte)))) :
    ∃ evs, processMain dev boot net mem fill (items.flatMap Item.words) w wakes =
      .ok { evs := evs, status := some 1, log := none, core := [], wire := [], kcs := [] } ∧ .bindingUp ∉ evs ∧ .sockOpened ∉ evs := by
  obtain ⟨core0, hc0, -, -⟩ := init_clean Unit hcl fill
  obtain ⟨core1, hc1, -, hb1⟩ := init_clean SerialSt hcl fill
  obtain ⟨core2, hc2, -, hb2⟩ := init_clean (AstSt E) hcl fill
  unfold processMain
  rw [C99_honoured_partial hw hp]
  simp only [Res.bind_ok]
  generalize (askedOf items).foldl Ask.apply {} = s
  rcases hu with ⟨h1, h2, h3⟩ | ⟨rfl, hne⟩ | ⟨rfl, hne⟩ | ⟨rfl, hne⟩
  · rw [lookup_none h1 h2 h3]
    simp only [hc0, Option.map_none]
    obtain ⟨evs, c, h, -, k⟩ := refusing (boot := boot) (net := net) (ops := noOps) (bd := (none : Option (BindingDef Unit Unit))) (s := s) (n := params.length) (core := core0) (w := w)
      (wakes := wakes.map .deaf) (fun b hb => (nomatch hb))
    rw [h]
    exact ⟨evs, rfl, k⟩
  · rw [show bindingLookup "null".toList = some .null from by decide]
    simp only [hc0, Option.map_some]
    obtain ⟨evs, c, h, -, k⟩ := refusing (boot := boot) (net := net) (ops := noOps) (bd := some nullDef) (s := s) (n := params.length) (core := core0) (w := w)
      (wakes := wakes.map .deaf) (fun b hb => by
        cases hb
        simp only [nullDef]
        rw [if_pos (by simpa using hne)])
    rw [h]
    exact ⟨evs, rfl, k⟩
  · rw [show bindingLookup "serial".toList = some .serial from by decide]
    simp only [hc1]
    obtain ⟨evs, c, h, hb, k⟩ := refusing (boot := boot) (net := net) (ops := serialOps) (bd := some (serialDef dev.wr dev.patience)) (s := s) (n := params.length) (core := core1) (w := w)
      (wakes := wakes) (fun b hb => by
        cases hb
        simp only [serialDef]
        rw [if_pos hne])
    rw [h]
    refine ⟨evs, ?_, k⟩
    simp [Res.bind_ok, Life.outcome, hb, hb1]
  · rw [show bindingLookup "astlpc".toList = some .astlpc from by decide]
    simp only [hc2]
    obtain ⟨evs, c, h, hb, k⟩ := refusing (boot := boot) (net := net) (ops := astOps dev.hw)
      (bd := some (if dev.astOpens then astDef dev.hw dev.env else (astDef dev.hw dev.env).unopened)) (s := s) (n := params.length) (core := core2) (w := w)
      (wakes := wakes.map .mute) (fun b hb => by
        cases hb
        split
        · rename_i ho
          rw [ho] at hne
          simp only [astDef]
          rw [if_pos (by simpa using hne)]
        · rfl)
    rw [h]
    refine ⟨evs, ?_, k⟩
    simp [Res.bind_ok, Life.outcome, hb, hb2]

/-- **C107** A command line with `serial` and a device, on a line that takes what is written: the process does not crash; it serves clients exactly if its start-up succeeds,
and otherwise ends with status 1 and has written nothing; and the bytes it has written are the frames of the packets of the messages that clients sent to other EIDs, in
order, each fragmented and with the source EID and the capture asked for on the command line. -/
theorem C107_serial {mem : Mem} (hcl : Clean mem) (fill : Nat → Byte) (dev : Devices E) (hwr : WrGood dev.wr) (hpat : 256 ≤ dev.patience) (boot : Boot) (net : Net W)
    {items : List Item} (hw : ∀ i ∈ items, Works i) {path : List Char} (hp : plainOf items = ["serial".toList, path]) (w : W) (wakes : List (Wake (Option (List Byte)))) :
    let s := (askedOf items).foldl Ask.apply {}
    ∃ o, processMain dev boot net mem fill (items.flatMap Item.words) w wakes = .ok o ∧ o.kcs = [] ∧
      (o.log.isSome ↔ boot.capturesWork s ∧ boot.socketWorks) ∧ (o.log = none → o.status = some 1 ∧ o.wire = []) ∧
      ∀ log, o.log = some log →
        o.wire = ((clientMsgs (clientSends s.localEid log)).flatMap (Msg.packets 1 (BitVec.ofInt 8 s.localEid))).flatMap frame ∧
        (s.capBinding ≠ none → outgoingOf (capturedPackets o.core) = (clientMsgs (clientSends s.localEid log)).flatMap (Msg.packets 1 (BitVec.ofInt 8 s.localEid))) ∧
        (s.capBinding = none → capturedPackets o.core = []) := by
  intro s
  obtain ⟨core, hc, hn, hbs⟩ := init_clean SerialSt hcl fill
  obtain ⟨l, hl⟩ := C98_safe_serial hcl hc hwr.ok hpat boot net s 1 w wakes
  have hproc : processMain dev boot net mem fill (items.flatMap Item.words) w wakes =
      .ok (l.outcome (fun l => l.core.busses.flatMap fun b => b.binding.st.wire) (fun _ => [])) := by
    unfold processMain
    rw [C99_honoured_partial hw hp]
    simp only [Res.bind_ok]
    rw [show bindingLookup "serial".toList = some .serial from by decide]
    simp only [hc, List.length_singleton]
    rw [hl]
    rfl
  obtain ⟨k1, k2⟩ := life_core rfl hl
  have hinit : ∀ c rc, (serialDef dev.wr dev.patience).init (withCapture s core) (BitVec.ofInt 8 s.localEid) 1 = .ok (c, rc) →
      rc = 0 ∧ c.busses.flatMap (fun b => b.binding.st.wire) = [] := by
    intro c rc h
    simp only [serialDef] at h
    rw [if_neg (by simp)] at h
    obtain ⟨⟨c', rc'⟩, hr, h⟩ := Res.bind_eq_ok.mp h
    simp only [Except.ok.injEq, Prod.mk.injEq] at h
    obtain ⟨rfl, rfl⟩ := h
    refine ⟨rfl, ?_⟩
    unfold Core.registerBus at hr
    rw [if_neg (by rw [withCapture_eq]; simpa using hn)] at hr
    simp only [startBus, serialOps, Res.bind_ok] at hr
    split at hr
    · simp only [Except.ok.injEq, Prod.mk.injEq] at hr
      obtain ⟨rfl, -⟩ := hr
      rfl
    · rw [if_neg (by decide)] at hr
      simp only [Except.ok.injEq, Prod.mk.injEq] at hr
      obtain ⟨rfl, -⟩ := hr
      rfl
  refine ⟨_, hproc, rfl, ?_, ?_, ?_⟩
  · show (l.daemon.map (·.log)).isSome ↔ _
    rw [Option.isSome_map, (C97_loop hl).1]
    constructor
    · rintro ⟨bd', c, hst⟩
      exact ⟨hst.captures, hst.socket⟩
    · rintro ⟨g1, g2⟩
      obtain ⟨c0, hi⟩ : ∃ c, (serialDef dev.wr dev.patience).init (withCapture s core) (BitVec.ofInt 8 s.localEid) 1 = .ok (c, 0) := by
        cases hh : (serialDef dev.wr dev.patience).init (withCapture s core) (BitVec.ofInt 8 s.localEid) 1 with
        | ok x => obtain ⟨c, rc⟩ := x; exact ⟨c, by rw [(hinit c rc hh).1]⟩
        | error f =>
          exfalso
          rw [daemonMain_binding g1] at hl
          unfold Life.binding at hl
          simp only [hh] at hl
          exact (nomatch hl)
      exact ⟨_, c0, g1, rfl, hi, g2⟩
  · intro hd
    have hd : l.daemon = none := by
      have : l.daemon.map (·.log) = none := hd
      simpa using this
    refine ⟨no_start_status hl hd, ?_⟩
    show l.core.busses.flatMap _ = []
    rcases k2 hd with h | h | ⟨rc, h⟩
    · rw [h, hbs]; rfl
    · rw [h]; show core.busses.flatMap _ = []; rw [hbs]; rfl
    · exact (hinit _ _ h).2
  · intro log hlog
    have hlog : l.daemon.map (·.log) = some log := hlog
    obtain ⟨d, hd, rfl⟩ := Option.map_eq_some_iff.mp hlog
    obtain ⟨c0, rs, post, hend, -, hrun, -⟩ := serialMain_run hcl hc hpat hl hd
    obtain ⟨xs, hist, log, -, -, -, p3, p4, p5, p6, p7, p8, p9, p10, -⟩ := serial_capture hend hcl hwr.ok hrun
    obtain ⟨w1, w2⟩ := serial_written hend hwr p8 p3 p4 p7
    rw [p6] at w1 w2
    rw [p5] at w2
    have hcore : (l.daemon.map (·.evs)).getD [] = d.evs := by rw [hd]; rfl
    refine ⟨?_, fun hs => ?_, fun hs => ?_⟩
    · show l.core.busses.flatMap _ = _
      rw [k1 d hd, ← w2, ← w1]
      rfl
    · show outgoingOf (capturedPackets ((l.daemon.map (·.evs)).getD [])) = _
      have hon : s.capBinding.isSome = true := by cases hb : s.capBinding with
        | none => exact absurd hb hs
        | some _ => rfl
      rw [hon] at p9
      rw [hcore, ← w2]
      unfold outgoingOf
      rw [p9.packets.1, OnBus.offers p10]
    · show capturedPackets ((l.daemon.map (·.evs)).getD []) = []
      rw [hs] at p9
      rw [hcore]
      exact Captured.none p9

/-- **C107** A command line with `astlpc` and a device that can be opened and accepts to start: the process does not crash; it serves clients exactly if its start-up succeeds, and otherwise ends
with status 1; whenever it ends after the binding was started, it has told the host last. -/
theorem C107_astlpc {mem : Mem} (hcl : Clean mem) (fill : Nat → Byte) (dev : Devices E) (hopens : dev.astOpens = true) (boot : Boot) (net : Net W)
    {items : List Item} (hw : ∀ i ∈ items, Works i) {path : List Char} (hp : plainOf items = ["astlpc".toList, path])
    (hreg : ∀ core : Core (AstSt E), Core.init (AstSt E) mem fill = some core → ∃ c1 rc, 0 ≤ rc ∧
      core.registerBus (astOps dev.hw) (astInit dev.env .bmc 0) (BitVec.ofInt 8 ((askedOf items).foldl Ask.apply {}).localEid) = .ok (c1, rc))
    (w : W) (wakes : List (Wake (Option (List Byte)))) :
    let s := (askedOf items).foldl Ask.apply {}
    ∃ o, processMain dev boot net mem fill (items.flatMap Item.words) w wakes = .ok o ∧ o.wire = [] ∧
      (boot.capturesWork s ∧ boot.socketWorks → o.log.isSome) ∧ (o.log = none → o.status = some 1) ∧
      (.bindingUp ∈ o.evs → o.status ≠ none → ∃ pre, (∃ rc, rc ≠ 0 ∧ o.kcs = pre ++ [.kcsWrite .status 0 rc]) ∨
        (∃ rc, o.kcs = pre ++ [.kcsWrite .status 0 0, .kcsWrite .data 0xff rc])) := by
  intro s
  obtain ⟨core, hc, hn, hbs⟩ := init_clean (AstSt E) hcl fill
  obtain ⟨c1, rc, hrc, hr⟩ := hreg core hc
  obtain ⟨l, hl⟩ := C98_safe_astlpc hcl hc hr hrc boot net 1 w (wakes.map .mute)
  have hproc : processMain dev boot net mem fill (items.flatMap Item.words) w wakes =
      .ok (l.outcome (fun _ => []) (fun l => (l.left ++ l.core.busses.map (·.binding.st)).flatMap fun st => st.log.map (·.acc))) := by
    unfold processMain
    rw [C99_honoured_partial hw hp]
    simp only [Res.bind_ok]
    rw [show bindingLookup "astlpc".toList = some .astlpc from by decide]
    simp only [hc, List.length_singleton, hopens, if_true]
    rw [hl]
    rfl
  refine ⟨_, hproc, rfl, ?_, ?_, ?_⟩
  · rintro ⟨g1, g2⟩
    show (l.daemon.map (·.log)).isSome
    rw [Option.isSome_map, (C97_loop hl).1]
    have hini : ∃ c, (astDef dev.hw dev.env).init (withCapture s core) (BitVec.ofInt 8 s.localEid) 1 = .ok (c, 0) := by
      have := registerBus_flags (astOps dev.hw) core (astInit dev.env .bmc 0) (BitVec.ofInt 8 s.localEid) core.hasRx (s.capBinding.isSome || core.hasCapture)
      simp only [astDef]
      rw [if_neg (by simp), withCapture_eq, this, hr]
      exact ⟨_, rfl⟩
    obtain ⟨c, hini⟩ := hini
    exact ⟨_, c, g1, rfl, hini, g2⟩
  · intro hd
    have hd : l.daemon = none := by
      have : l.daemon.map (·.log) = none := hd
      simpa using this
    exact no_start_status hl hd
  · intro hup hend
    obtain ⟨-, hb, st, pre, hleft, -, h⟩ := C100_farewell hcl hc hr hrc hl hup hend
    refine ⟨pre, ?_⟩
    show (∃ rc, rc ≠ 0 ∧ (l.left ++ l.core.busses.map (·.binding.st)).flatMap _ = _) ∨ (∃ rc, (l.left ++ l.core.busses.map (·.binding.st)).flatMap _ = _)
    rw [hleft, hb]
    simpa using h

/-! ## The hypotheses are met -/

namespace LifeDemo

def items (name : List Char) (params : List (List Char)) : List Item :=
  [.inl (.eid 20, .longEq), .inr name, .inl (.captureBinding "b.pcap".toList, .short)] ++ params.map .inr

def dev (opens : Bool) : Devices AstDemo.Script :=
  { wr := blockingWrite, patience := 256, hw := AstDemo.hw, env := AstDemo.bmcScript, astOpens := opens }

/-- What is seen of a process: exit status, messages to clients, captured packets, bytes on the line, number of device accesses. -/
def seen (opens : Bool) (name : List Char) (params : List (List Char)) (w : DaemonDemo.Script) (wakes : List (Wake (Option (List Byte)))) :
    Option (Option Nat × Option (List (Int × List Byte)) × List (Bool × List Byte) × List Byte × List Access) :=
  (DaemonDemo.opt (processMain (dev opens) boot DaemonDemo.net {} (fun _ => 0) ((items name params).flatMap Item.words) w wakes)).map fun o =>
    (o.status, o.log.map sendsIn, capturedPackets o.core, o.wire, o.kcs.drop (o.kcs.length - 2))

def local20 : DaemonDemo.Script := { accepts := [10], reads := [(1, 5)], peeks := [3, 3], recvs := [[20, 5, 7], [9, 5, 7]], sends := [3] }

def wakes3 : List (Wake (Option (List Byte))) :=
  [.ready ⟨none, fun _ => false, true⟩, .ready ⟨none, fun i => i == 0, false⟩, .ready ⟨none, fun i => i == 0, false⟩, .ready ⟨none, fun i => i == 0, false⟩, .signal true]

theorem items_work (name : List Char) (hn : PlainWord name) (params : List (List Char)) (hp : ∀ p ∈ params, PlainWord p) : ∀ i ∈ items name params, Works i := by
  intro i hi
  simp only [items, List.cons_append, List.nil_append, List.mem_cons, List.mem_map] at hi
  rcases hi with rfl | rfl | rfl | ⟨p, h, rfl⟩
  · exact ⟨by decide, .inr rfl⟩
  · exact hn
  · exact fun h => absurd h (by decide)
  · exact hp p h

theorem items_plain (name : List Char) (params : List (List Char)) : plainOf (items name params) = name :: params := by
  have : ∀ ps : List (List Char), plainOf (ps.map Sum.inr : List Item) = ps := by
    intro ps
    induction ps with
    | nil => rfl
    | cons p ps ih => exact congrArg (p :: ·) ih
  show name :: plainOf (params.map Sum.inr : List Item) = _
  rw [this]

end LifeDemo

set_option synthInstance.maxSize 4000 in
set_option synthInstance.maxHeartbeats 400000 in
open LifeDemo in
/-- `null`: a client's message to the daemon's EID 20 comes back to it, one to EID 9 goes nowhere. -/
example : seen true "null".toList [] local20 wakes3 = some (some 0, some [(10, [20, 5, 7])], [], [], []) := by decide +kernel

set_option synthInstance.maxSize 4000 in
set_option synthInstance.maxHeartbeats 400000 in
open LifeDemo in
/-- `serial`: the message to EID 9 goes out. -/
example : seen true "serial".toList ["ttyS0".toList] local20 wakes3 =
    some (some 0, some [(10, [20, 5, 7])], [(true, [1, 9, 20, 200, 5, 7])], frame [1, 9, 20, 200, 5, 7], []) := by decide +kernel

set_option synthInstance.maxSize 4000 in
set_option synthInstance.maxHeartbeats 400000 in
open LifeDemo in
/-- `astlpc`, with a KCS device: at the end the host is told. -/
example : (seen true "astlpc".toList ["kcs".toList] local20 wakes3).map (fun x => (x.1, x.2.1, x.2.2.2.2)) =
    some (some 0, some [(10, [20, 5, 7])], [.kcsWrite .status 0 0, .kcsWrite .data 0xff 0]) := by decide +kernel

set_option synthInstance.maxSize 4000 in
set_option synthInstance.maxHeartbeats 400000 in
open LifeDemo in
/-- Bindings that cannot be used. -/
example : [seen true "nul".toList [] local20 wakes3, seen true "null".toList ["x".toList] local20 wakes3, seen true "serial".toList [] local20 wakes3,
    seen false "astlpc".toList ["kcs".toList] local20 wakes3] = List.replicate 4 (some (some 1, none, [], [], [])) := by decide +kernel

open LifeDemo in
example : Unusable (dev false) "astlpc".toList ["kcs".toList] ∧ Unusable (dev true) "nul".toList [] ∧ (∀ i ∈ items "serial".toList ["ttyS0".toList], Works i) ∧
    plainOf (items "serial".toList ["ttyS0".toList]) = ["serial".toList, "ttyS0".toList] ∧ WrGood (dev true).wr ∧
    (∀ core : Core (AstSt AstDemo.Script), Core.init (AstSt AstDemo.Script) {} (fun _ => 0) = some core → ∃ c1 rc, 0 ≤ rc ∧
      core.registerBus (astOps (dev true).hw) (astInit (dev true).env .bmc 0) (BitVec.ofInt 8 ((askedOf (items "astlpc".toList ["kcs".toList])).foldl Ask.apply {}).localEid) = .ok (c1, rc)) := by
  refine ⟨by unfold Unusable; simp [dev], by unfold Unusable; simp, items_work _ (by unfold PlainWord; decide) _ (by unfold PlainWord; decide), items_plain _ _, blockingWrite_good, ?_⟩
  intro core h
  cases h
  have : ∃ x : Int, (DaemonDemo.opt (Core.registerBus (astOps (dev true).hw) ((Core.init (AstSt AstDemo.Script) {} (fun _ => 0)).get rfl) (astInit (dev true).env .bmc 0) 20)).map (·.2) = some 0 := ⟨0, by decide +kernel⟩
  obtain ⟨-, h⟩ := this
  obtain ⟨x, h1, h2⟩ := DaemonDemo.opt_ok h
  exact ⟨x.1, x.2, by rw [h2], h1⟩

end Mctp
