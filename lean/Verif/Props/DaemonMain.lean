import Verif.Proofs.DaemonMain
import Verif.Props.Daemon
import Verif.Props.Detached

/-!
# The life of the daemon (C97, C98)
-/

namespace Mctp

variable {W β π : Type}

/-! ## C97: start-up and exit status -/

/-- The start-up succeeds as far as it is checked: captures, the binding, the socket and the signals. -/
structure StartsUp (boot : Boot) (bd : Option (BindingDef β π)) (s : Settings) (nParams : Nat) (core : Core β)
    (bd' : BindingDef β π) (c : Core β) : Prop where
  captures : boot.capturesWork s
  known    : bd = some bd'
  init     : bd'.init (withCapture s core) (BitVec.ofInt 8 s.localEid) nParams = .ok (c, 0)
  socket   : boot.socketWorks

/-- **C97** The loop is entered exactly when the start-up succeeded, and serves the events in order: all
of them as long as the process runs, those before the signal if one ends it.  In these two cases no connection failed and the
binding processed all its events without an error (otherwise the process ends with status 1: `C97_status_partial`). -/
theorem C97_loop {boot : Boot} {net : Net W} {ops : Ops β} {bd : Option (BindingDef β π)} {s : Settings} {n : Nat} {core : Core β}
    {w : W} {wakes : List (Wake π)} {l : Life W β} (h : daemonMain boot net ops bd s n core w wakes = .ok l) :
    (l.daemon.isSome ↔ ∃ bd' c, StartsUp boot bd s n core bd' c) ∧
    (∀ d, l.daemon = some d → ∃ bd' c rs post, StartsUp boot bd s n core bd' c ∧ wakes = rs.map .ready ++ post ∧
      (Daemon.init w c s.localEid).run net ops (bd'.proc.getD fun _ c => .ok (c, [], 0)) rs = .ok d ∧
      (l.status = none → post = []) ∧ (l.status = some 0 → ∃ after, post = .signal true :: after) ∧
      (l.status = none ∨ l.status = some 0 → (∀ fd, SockEv.accepted fd ∈ d.log → 0 ≤ fd) ∧
        ∀ r ∈ rs, ∀ x, r.binding = some x → ∃ k k' e, (bd'.proc.getD fun _ c => .ok (c, [], 0)) x k = .ok (k', e, 0))) := by
  by_cases hcap : boot.capturesWork s
  · rw [daemonMain_binding hcap] at h
    unfold Life.binding at h
    cases bd with
    | none =>
      simp only [cleanPcapSocket_eq, Except.ok.injEq] at h
      subst h
      refine ⟨⟨fun h => (by simp at h), ?_⟩, fun d hd => (by simp at hd)⟩
      rintro ⟨bd', c, hs⟩
      exact (nomatch hs.known)
    | some bd1 =>
      obtain ⟨⟨c, rc⟩, hi, h⟩ := Res.bind_eq_ok.mp h
      simp only at h hi
      by_cases hrc : rc = 0
      · subst hrc
        rw [if_neg (by simp)] at h
        by_cases hsk : boot.socketWorks
        · have hst : StartsUp boot (some bd1) s n core bd1 c := ⟨hcap, rfl, hi, hsk⟩
          rw [life_socket hsk] at h
          obtain ⟨⟨d', rc⟩, hl, h⟩ := Res.bind_eq_ok.mp h
          simp only at h hl
          obtain ⟨rs, hrun, hm⟩ := loop_spec hl
          have hgood : rc = none ∨ rc = some 0 → (∀ fd, SockEv.accepted fd ∈ d'.log → 0 ≤ fd) ∧
              ∀ r ∈ rs, ∀ x, r.binding = some x → ∃ k k' e, (bd1.proc.getD fun _ c => .ok (c, [], 0)) x k = .ok (k', e, 0) := by
            rintro (rfl | rfl)
            · simp only at hm
              rw [hm] at hl
              have := loop_served hl
              exact ⟨this.1 fun fd h => (by simp [Daemon.init] at h), this.2⟩
            · obtain ⟨post, -, hl'⟩ := hm
              have := loop_served hl'
              exact ⟨this.1 fun fd h => (by simp [Daemon.init] at h), this.2⟩
          have hw : ∃ post, wakes = rs.map .ready ++ post ∧ (rc = none → post = []) ∧ (rc = some 0 → ∃ after, post = .signal true :: after) := by
            split at hm
            · exact ⟨[], by rw [hm]; simp, fun _ => rfl, fun h => (nomatch h)⟩
            · obtain ⟨post, e, -⟩ := hm; exact ⟨_, e, fun h => (nomatch h), fun _ => ⟨_, rfl⟩⟩
            · rename_i hne
              obtain ⟨-, ⟨post, e, -⟩ | ⟨post, e | e, -⟩⟩ := hm <;> exact ⟨_, e, fun h => (nomatch h), fun h => absurd h (by simpa using hne)⟩
          obtain ⟨post, hw, hw1, hw2⟩ := hw
          have hst' : (l.status = none → rc = none) ∧ (l.status = some 0 → rc = some 0) := by
            split at h
            · simp only [Except.ok.injEq] at h; subst h; exact ⟨fun _ => rfl, fun h => (nomatch h)⟩
            · have := (cleanBinding_ok h).2.2.1
              rw [this]
              refine ⟨fun h => (nomatch h), fun h => ?_⟩
              split at h
              · simp at h
              · rename_i hx; simp at hx; rw [hx]
          have hdm : l.daemon = some d' := by
            split at h
            · simp only [Except.ok.injEq] at h; subst h; rfl
            · exact (cleanBinding_ok h).2.1
          refine ⟨⟨fun _ => ⟨_, _, hst⟩, fun _ => by simp [hdm]⟩, fun d hd => ?_⟩
          rw [hdm] at hd
          cases hd
          exact ⟨bd1, c, rs, post, hst, hw, hrun, fun h => hw1 (hst'.1 h), fun h => hw2 (hst'.2 h),
            fun h => hgood (h.imp hst'.1 hst'.2)⟩
        · obtain ⟨e, -, he⟩ := life_nosocket (W := W) (β := β) (π := π) hsk
            { evs := openEvs s ++ [.bindingUp], core := c, daemon := none, status := none } net ops bd1 s w wakes
          rw [he] at h
          have hd := (cleanBinding_ok h).2.1
          simp only at hd
          refine ⟨⟨fun h => (by rw [hd] at h; simp at h), ?_⟩, fun d h => (by rw [hd] at h; simp at h)⟩
          rintro ⟨bd', c, hs⟩
          exact absurd hs.socket hsk
      · rw [if_pos (by simpa using hrc)] at h
        simp only [cleanPcapSocket_eq, Except.ok.injEq] at h
        subst h
        refine ⟨⟨fun h => (by simp at h), ?_⟩, fun d hd => (by simp at hd)⟩
        rintro ⟨bd', c', hs⟩
        have h1 := hs.known
        have h2 := hs.init
        cases h1
        rw [hi] at h2
        simp only [Except.ok.injEq, Prod.mk.injEq] at h2
        exact absurd h2.2 hrc
  · obtain ⟨evs, c, he, -⟩ := daemonMain_captures hcap net ops bd n core w wakes
    rw [he] at h
    simp only [Except.ok.injEq] at h
    subst h
    refine ⟨⟨fun h => (by simp at h), ?_⟩, fun d hd => (by simp at hd)⟩
    rintro ⟨bd', c', hs⟩
    exact absurd hs.captures hcap

/-- C97, the part that holds (steps whose results are looked at). The exit status: 1 if the start-up failed; none as long as the events only wake the loop; 0 exactly when a
signal ends it. -/
theorem C97_status_partial {boot : Boot} {net : Net W} {ops : Ops β} {bd : Option (BindingDef β π)} {s : Settings} {n : Nat} {core : Core β}
    {w : W} {wakes : List (Wake π)} {l : Life W β} (h : daemonMain boot net ops bd s n core w wakes = .ok l) :
    ((¬ ∃ bd' c, StartsUp boot bd s n core bd' c) → l.status = some 1) ∧
    ∀ bd' c, StartsUp boot bd s n core bd' c →
      (l.status = some 0 ↔ ∃ (rs : List (Ready π)) (post : List (Wake π)) (d : Daemon W β), wakes = rs.map .ready ++ .signal true :: post ∧
        (Daemon.init w c s.localEid).loop net ops (bd'.proc.getD fun _ c => .ok (c, [], 0)) (rs.map .ready) = .ok (d, none)) ∧
      (l.status = none ↔ ∃ d, (Daemon.init w c s.localEid).loop net ops (bd'.proc.getD fun _ c => .ok (c, [], 0)) wakes = .ok (d, none)) ∧
      (l.status = none ∨ l.status = some 0 ∨ l.status = some 1) := by
  have hloopcat : ∀ {proc : π → Core β → Res (Core β × List Event × Int)} {rs : List (Ready π)} {post : List (Wake π)}
      {d d' : Daemon W β}, d.loop net ops proc (rs.map .ready) = .ok (d', none) →
      d.loop net ops proc (rs.map .ready ++ post) = d'.loop net ops proc post := by
    intro proc rs
    induction rs with
    | nil => intro post d d' h; simp only [List.map_nil, Daemon.loop, Except.ok.injEq, Prod.mk.injEq] at h; rw [h.1]; rfl
    | cons r rs ih =>
      intro post d d' h
      simp only [List.map_cons, List.cons_append, Daemon.loop] at h ⊢
      obtain ⟨d1, h1, h⟩ := Res.bind_eq_ok.mp h
      obtain ⟨⟨d2, stop⟩, h2, h⟩ := Res.bind_eq_ok.mp h
      cases stop with
      | true => simp at h
      | false =>
        simp only [Bool.false_eq_true, if_false] at h
        simp only [h1, h2, Res.bind_ok, Bool.false_eq_true, if_false]
        exact ih h
  by_cases hcap : boot.capturesWork s
  · rw [daemonMain_binding hcap] at h
    unfold Life.binding at h
    cases bd with
    | none =>
      simp only [cleanPcapSocket_eq, Except.ok.injEq] at h
      subst h
      refine ⟨fun _ => rfl, fun bd' c hs => (nomatch hs.known)⟩
    | some bd1 =>
      obtain ⟨⟨c, rc⟩, hi, h⟩ := Res.bind_eq_ok.mp h
      simp only at h hi
      by_cases hrc : rc = 0
      · subst hrc
        rw [if_neg (by simp)] at h
        by_cases hsk : boot.socketWorks
        · have hst : StartsUp boot (some bd1) s n core bd1 c := ⟨hcap, rfl, hi, hsk⟩
          refine ⟨fun hno => absurd ⟨_, _, hst⟩ hno, fun bd' c' hs' => ?_⟩
          have e1 := hs'.known
          have e2 := hs'.init
          cases e1
          rw [hi] at e2
          cases e2
          rw [life_socket hsk] at h
          obtain ⟨⟨d', rc⟩, hl, h⟩ := Res.bind_eq_ok.mp h
          simp only at h hl
          obtain ⟨rs, hrun, hm⟩ := loop_spec hl
          rw [hl]
          cases rc with
          | none =>
            simp only [Except.ok.injEq] at h
            subst h
            refine ⟨⟨fun h => (nomatch h), ?_⟩, ⟨fun _ => ⟨d', rfl⟩, fun _ => rfl⟩, .inl rfl⟩
            rintro ⟨rs', post, d, hw, hd⟩
            rw [hw, hloopcat hd] at hl
            simp [Daemon.loop] at hl
          | some rc =>
            simp only at h
            have hstat := (cleanBinding_ok h).2.2.1
            refine ⟨⟨fun h0 => ?_, ?_⟩, ⟨fun h0 => (by rw [hstat] at h0; simp at h0), ?_⟩, ?_⟩
            · rw [hstat] at h0
              by_cases hz : rc = 0
              · subst hz
                obtain ⟨post, hw, hd⟩ := hm
                exact ⟨rs, post, d', hw, hd⟩
              · rw [if_pos (by simpa using hz)] at h0
                simp at h0
            · rintro ⟨rs', post, d, hw, hd⟩
              rw [hw, hloopcat hd] at hl
              simp only [Daemon.loop, if_true, Except.ok.injEq, Prod.mk.injEq, Option.some.injEq] at hl
              rw [hstat, ← hl.2]
              simp
            · rintro ⟨d, hd⟩
              simp at hd
            · rw [hstat]
              by_cases hz : rc = 0
              · rw [if_neg (by simpa using hz)]; exact .inr (.inl rfl)
              · rw [if_pos (by simpa using hz)]; exact .inr (.inr rfl)
        · obtain ⟨e, -, he⟩ := life_nosocket (W := W) (β := β) (π := π) hsk
            { evs := openEvs s ++ [.bindingUp], core := c, daemon := none, status := none } net ops bd1 s w wakes
          rw [he] at h
          have hd := (cleanBinding_ok h).2.2.1
          exact ⟨fun _ => by simpa using hd, fun bd' c' hs => absurd hs.socket hsk⟩
      · rw [if_pos (by simpa using hrc)] at h
        simp only [cleanPcapSocket_eq, Except.ok.injEq] at h
        subst h
        refine ⟨fun _ => rfl, fun bd' c' hs => ?_⟩
        have h1 := hs.known
        have h2 := hs.init
        cases h1
        rw [hi] at h2
        simp only [Except.ok.injEq, Prod.mk.injEq] at h2
        exact absurd h2.2 hrc
  · obtain ⟨evs, c, he, -⟩ := daemonMain_captures hcap net ops bd n core w wakes
    rw [he] at h
    simp only [Except.ok.injEq] at h
    subst h
    exact ⟨fun _ => rfl, fun bd' c' hs => absurd hs.captures hcap⟩

/-- C97 does not hold (1): `mctp_register_bus` fails for lack of memory, and the daemon does not notice; it crashes when the
first client sends a message. -/
theorem C97_unnoticed {core : Core SerialSt} (hn : core.nBusses = 0) (hm : core.mem.ok core.mem.next = false)
    (wr : Nat → List Byte → Int) (pat : Nat) (eid : Byte) :
    ∃ c, (serialDef wr pat).init core eid 1 = .ok (c, 0) ∧ ∀ dest msg, c.messageTx serialOps dest true 0 msg = .error .nullDeref := by
  refine ⟨{ core with nBusses := 1, mem := core.mem.alloc.2, bussesPtr := none, busses := [] }, ?_, fun dest msg => ?_⟩
  · simp only [serialDef, Core.registerBus, Mem.alloc, hm]
    rw [if_neg (by simp), if_neg (by simpa using hn)]
    rfl
  · simp [Core.messageTx, Core.busAt, Mem.deref, Bind.bind, Except.bind]

/-- C97 does not hold (2): the device refuses, `mctp_register_bus` returns an error, and the daemon goes on as if the
binding worked; it has no bus, and every message of a client is dropped without an error. -/
theorem C97_deaf {E : Type} {hw : Hw E} {env : E} {core c : Core (AstSt E)} {eid : Byte} {rc : Int} (hn : core.nBusses = 0)
    (hb : core.busses = []) (hp : core.bussesPtr = none) (hbr : core.bridge = false) (hm : core.mem.ok core.mem.next = true)
    (h : core.registerBus (astOps hw) (astInit env .bmc 0) eid = .ok (c, rc)) (hrc : rc < 0) :
    (astDef hw env).init core eid 1 = .ok (c, 0) ∧ ∀ dest msg, c.messageTx (astOps hw) dest true 0 msg = .ok (c, [], 0) := by
  have hc := C91_core_unchanged hn hb hp hbr hm h hrc
  constructor
  · simp only [astDef, h, Res.bind_ok]
    rw [if_neg (by simp)]
  · intro dest msg
    subst hc
    simp [Core.messageTx, hn]

/-! ## C98: clean-up, and no crash in the whole life -/

/-- **C98** Of the record of a life: no capture file is opened twice; a capture file is closed only after it was opened, and
after the loop and the binding that write to it; when the process has ended every capture file that was opened has been
closed, once; the binding is destroyed once, after the loop, if it was started (and can be destroyed). -/
theorem C98_cleanup {boot : Boot} {net : Net W} {ops : Ops β} {bd : Option (BindingDef β π)} {s : Settings} {n : Nat} {core : Core β}
    {w : W} {wakes : List (Wake π)} {l : Life W β} (h : daemonMain boot net ops bd s n core w wakes = .ok l) :
    (∀ k, opened k l.evs ≤ 1 ∧ (l.status ≠ none → shut k l.evs = opened k l.evs) ∧ (l.status = none → shut k l.evs = 0)) ∧
    (∀ pre post k, l.evs = pre ++ .dumpClosed k :: post →
      .dumpOpened k ∈ pre ∧ .loop ∉ post ∧ .bindingUp ∉ post ∧ .bindingDown ∉ post) ∧
    (∀ pre post, l.evs = pre ++ .bindingDown :: post → .bindingUp ∈ pre ∧ .loop ∉ post) ∧
    l.evs.count .bindingUp ≤ 1 ∧
    (l.status ≠ none → ∀ b, bd = some b → b.destroy.isSome → l.evs.count .bindingDown = l.evs.count .bindingUp) := by
  have ht := daemonMain_tidy h
  simp only [tidy, Bool.and_eq_true, List.all_cons, List.all_nil, beq_iff_eq, decide_eq_true_eq] at ht
  obtain ⟨⟨⟨ho, hk⟩, hu⟩, hd⟩ := ht
  obtain ⟨⟨t1, t2⟩, ⟨f1, f2⟩, -⟩ := hk
  refine ⟨?_, ?_, ?_, hu, ?_⟩
  · intro k
    cases hs : l.status with
    | none => rw [hs] at t2 f2; cases k <;> simp_all
    | some x => rw [hs] at t2 f2; cases k <;> simp_all
  · intro pre post k he
    rw [he] at ho
    simpa using (inOrder_split ho).1 k rfl
  · intro pre post he
    rw [he] at ho
    simpa using (inOrder_split ho).2.1 rfl
  · rintro h1 b rfl h2
    cases hs : l.status with
    | none => exact absurd hs h1
    | some x => rw [hs] at hd; simp_all

/-- `mctp_register_bus` does not look at the handlers. -/
theorem registerBus_flags (ops : Ops β) (c : Core β) (b : Binding β) (eid : Byte) (r k : Bool) :
    ({ c with hasRx := r, hasCapture := k } : Core β).registerBus ops b eid =
      (c.registerBus ops b eid).map fun x => ({ x.1 with hasRx := r, hasCapture := k }, x.2) := by
  unfold Core.registerBus
  simp only
  split
  · rfl
  · split
    · rfl
    · cases startBus ops { eid := eid, binding := b, state := BusState.constructed, queue := [] } with
      | error f => rfl
      | ok x =>
        obtain ⟨bus, rc⟩ := x
        simp only [Res.bind_ok]
        split
        · rename_i id mem _ _
          cases mem.free (some id) <;> rfl
        · rfl

theorem withCapture_eq (s : Settings) (c : Core β) : withCapture s c = { c with hasRx := c.hasRx, hasCapture := s.capBinding.isSome || c.hasCapture } := by
  unfold withCapture Core.setCapture
  cases s.capBinding <;> simp

/-- **C98** With the serial binding, whatever the start-up calls, the clients, the peer and the operating system do: the
process does not crash, from `mctp_init` to its exit. -/
theorem C98_safe_serial {mem : Mem} (hcl : Clean mem) {fill : Nat → Byte} {core : Core SerialSt} (h0 : Core.init SerialSt mem fill = some core)
    {wr : Nat → List Byte → Int} (hw : WrOk wr) {pat : Nat} (hpat : 256 ≤ pat) (boot : Boot) (net : Net W) (s : Settings) (n : Nat) (w : W)
    (wakes : List (Wake (Option (List Byte)))) :
    ∃ l, daemonMain boot net serialOps (some (serialDef wr pat)) s n core w wakes = .ok l := by
  have hs : ∀ eid, SafeCores serialOps (fun res c => c.serialRead 0 res) (SerialSafe eid mem.live) := fun eid => serial_safeCores eid mem.live
  refine daemonMain_total (I := SerialSafe (BitVec.ofInt 8 s.localEid) mem.live) (J := fun _ => True) boot net serialOps (serialDef wr pat) s n core w wakes
    (hs _) ?_ (fun _ _ => trivial) (fun f hf => nomatch hf)
  by_cases hn : n = 1
  · subst hn
    obtain ⟨hnb, hmx, hmok⟩ : core.nBusses = 0 ∧ core.setMaxMessageSize defaultMaxMessageSize = core ∧ core.mem.ok core.mem.next = true := by
      obtain ⟨id, m, ha, rfl⟩ := init_ok h0
      refine ⟨rfl, rfl, ?_⟩
      have e1 := congrArg (fun x => x.2.ok) ha
      simp only at e1 ⊢
      rw [← e1]
      unfold Mem.alloc
      split <;> exact hcl.1 _
    have hreg : ∃ c1, core.registerBus serialOps (serialInit wr pat) (BitVec.ofInt 8 s.localEid) = .ok (c1, 0) := by
      unfold Core.registerBus
      rw [if_neg (by simpa using hnb)]
      simp only [Mem.alloc, hmok, if_true, startBus, serialOps, Res.bind_ok]
      rw [if_neg (by decide)]
      exact ⟨_, rfl⟩
    obtain ⟨c1, hreg⟩ := hreg
    have hend : SerialEndpoint (BitVec.ofInt 8 s.localEid) defaultMaxMessageSize wr mem { c1 with hasRx := true, hasCapture := core.hasCapture } := by
      refine ⟨fill, core, pat, 0, h0, hpat, ?_, by simp⟩
      have := registerBus_flags serialOps core (serialInit wr pat) (BitVec.ofInt 8 s.localEid) true core.hasCapture
      rw [hreg] at this
      have he : (core.setRxAll true).setMaxMessageSize defaultMaxMessageSize = (core.setMaxMessageSize defaultMaxMessageSize).setRxAll true := rfl
      rw [he, hmx]
      exact this
    have hsafe : SerialSafe (BitVec.ofInt 8 s.localEid) mem.live { c1 with hasRx := true, hasCapture := core.hasCapture } := ⟨[], [], .hunt, hend.serInv hcl hw⟩
    refine ⟨{ c1 with hasRx := core.hasRx, hasCapture := s.capBinding.isSome || core.hasCapture }, 0, ?_, fun _ => ⟨?_, trivial⟩⟩
    · have := registerBus_flags serialOps core (serialInit wr pat) (BitVec.ofInt 8 s.localEid) core.hasRx (s.capBinding.isSome || core.hasCapture)
      rw [hreg] at this
      simp only [serialDef]
      rw [if_neg (by simp), withCapture_eq, this]
      rfl
    · obtain ⟨c', e, rc, g1, g2⟩ := serialSafe_step hsafe (.core (.setCapture (s.capBinding.isSome || core.hasCapture))) (by
        intro op hop; simp only [List.mem_singleton, SerialOp.core.injEq] at hop; subst hop; trivial)
      simp only [Core.serialStep, Core.step, Except.ok.injEq, Prod.mk.injEq] at g1
      obtain ⟨rfl, -⟩ := g1
      exact g2
  · refine ⟨withCapture s core, -1, ?_, fun h => absurd h (by decide)⟩
    simp only [serialDef]
    rw [if_pos hn]

/-- The astlpc binding, once started by `main`, is in a good state. -/
theorem ast_starts {E : Type} {hw : Hw E} {env : E} {mem : Mem} (hcl : Clean mem) {fill : Nat → Byte} {core c1 : Core (AstSt E)}
    (h0 : Core.init (AstSt E) mem fill = some core) {s : Settings} {rc : Int}
    (hreg : core.registerBus (astOps hw) (astInit env .bmc 0) (BitVec.ofInt 8 s.localEid) = .ok (c1, rc)) (hrc : 0 ≤ rc) (n : Nat) :
    ∃ c rc, (astDef hw env).init (withCapture s core) (BitVec.ofInt 8 s.localEid) n = .ok (c, rc) ∧
      (rc = 0 → (∃ bus, AstMem hw .bmc 0 mem.live (c.setRxAll true) bus) ∧ ∃ bus r, AstMem hw .bmc 0 mem.live (c.setRxAll r) bus) := by
  by_cases hn : n = 1
  · subst hn
    have hmx : core.setMaxMessageSize defaultMaxMessageSize = core := by
      obtain ⟨id, m, ha, rfl⟩ := init_ok h0; rfl
    have hend : AstEndpoint hw env (BitVec.ofInt 8 s.localEid) defaultMaxMessageSize .bmc 0 mem
        { c1 with hasRx := true, hasCapture := core.hasCapture } := by
      refine ⟨fill, core, rc, by decide, h0, ?_, hrc⟩
      have := registerBus_flags (astOps hw) core (astInit env .bmc 0) (BitVec.ofInt 8 s.localEid) true core.hasCapture
      rw [hreg] at this
      have he : (core.setRxAll true).setMaxMessageSize defaultMaxMessageSize = (core.setMaxMessageSize defaultMaxMessageSize).setRxAll true := rfl
      rw [he, hmx]
      exact this
    have hsafe : ∃ bus, AstMem hw .bmc 0 mem.live
        { c1 with hasRx := true, hasCapture := s.capBinding.isSome || core.hasCapture } bus := by
      obtain ⟨c', e, rc, g1, g2⟩ := ast_safe_step (hend.mem hcl (by simp)) (.setCapture (s.capBinding.isSome || core.hasCapture))
      simp only [Core.astStep, AstOp.core, Core.step, Except.ok.injEq, Prod.mk.injEq] at g1
      obtain ⟨rfl, -⟩ := g1
      exact g2
    refine ⟨{ c1 with hasRx := core.hasRx, hasCapture := s.capBinding.isSome || core.hasCapture }, 0, ?_, fun _ => ⟨hsafe, ?_⟩⟩
    · have := registerBus_flags (astOps hw) core (astInit env .bmc 0) (BitVec.ofInt 8 s.localEid) core.hasRx (s.capBinding.isSome || core.hasCapture)
      rw [hreg] at this
      simp only [astDef]
      rw [if_neg (by simp), withCapture_eq, this]
      rfl
    · obtain ⟨bus, hb⟩ := hsafe
      exact ⟨bus, true, hb⟩
  · refine ⟨withCapture s core, -1, ?_, fun h => absurd h (by decide)⟩
    simp only [astDef]
    rw [if_pos hn]

/-- Destroying it: the bus goes, and the status register is cleared. -/
theorem ast_destroy {E : Type} {hw : Hw E} {env : E} {base : List Nat} {c : Core (AstSt E)} {f : Core (AstSt E) → Res (Core (AstSt E) × List (AstSt E))}
    (hf : (astDef hw env).destroy = some f) {bus : Bus (AstSt E)} {r : Bool} (hm : AstMem hw .bmc 0 base (c.setRxAll r) bus) :
    ∃ c', c'.nBusses = 0 ∧ c'.busses = [] ∧ f c = .ok (c', [(kcsSetStatus hw bus.binding.st 0).2]) := by
  have hg := hm.good.md
  have hb : c.busses = [bus] := hm.2
  simp only [astDef, Option.some.injEq] at hf
  subst hf
  obtain ⟨id, hid⟩ := hm.1.ptr
  have hid' : c.bussesPtr = some id := hid
  have ho : Owns c.mem (id :: (ctxBufs c.ctxs ++ (queueIds c.busses ++ (c.self :: base)))) :=
    hm.1.owns.congr fun j => by
      simp only [owned, Core.setRxAll, hid', Option.toList, List.count_append, List.count_cons, List.count_nil]; omega
  obtain ⟨m, f1, -, -⟩ := ho.free
  simp only [Core.unregisterBus, hid', f1, hb, Res.bind_ok, List.map_cons, List.map_nil, astDestroy, hg]
  exact ⟨_, rfl, rfl, rfl⟩

/-- **C98** With the astlpc binding, registered without an error, whatever the start-up calls, the clients, the host, the
devices and the operating system do: the process does not crash, from `mctp_init` to its exit. -/
theorem C98_safe_astlpc {E : Type} {hw : Hw E} {env : E} {mem : Mem} (hcl : Clean mem) {fill : Nat → Byte} {core c1 : Core (AstSt E)}
    (h0 : Core.init (AstSt E) mem fill = some core) {s : Settings} {rc : Int}
    (hreg : core.registerBus (astOps hw) (astInit env .bmc 0) (BitVec.ofInt 8 s.localEid) = .ok (c1, rc)) (hrc : 0 ≤ rc)
    (boot : Boot) (net : Net W) (n : Nat) (w : W) (wakes : List (Wake Unit)) :
    ∃ l, daemonMain boot net (astOps hw) (some (astDef hw env)) s n core w wakes = .ok l := by
  refine daemonMain_total (I := fun c => ∃ bus, AstMem hw .bmc 0 mem.live c bus)
    (J := fun c => ∃ bus r, AstMem hw .bmc 0 mem.live (c.setRxAll r) bus) boot net (astOps hw) (astDef hw env) s n core w wakes
    (ast_safeCores hw 0 mem.live) (ast_starts hcl h0 hreg hrc n) ?_ ?_
  · rintro c ⟨bus, hb⟩
    exact ⟨bus, c.hasRx, hb⟩
  · intro f hf c hJ
    obtain ⟨bus, r, hm⟩ := hJ
    obtain ⟨c', -, -, h⟩ := ast_destroy hf hm
    exact ⟨_, h⟩

/-! ## C100: the host is told when the daemon ends -/

/-- **C100** The astlpc binding was started, and the process has ended, for whatever reason.  Then the bus is gone, and after
everything else that was done with the devices (`pre`: all the accesses up to the end of the loop), the status register was set to
0 (not ready, channel not active), and, if that write succeeded, the host was interrupted by a dummy command. -/
theorem C100_farewell {E : Type} {hw : Hw E} {env : E} {mem : Mem} (hcl : Clean mem) {fill : Nat → Byte} {core c1 : Core (AstSt E)}
    (h0 : Core.init (AstSt E) mem fill = some core) {s : Settings} {rc : Int}
    (hreg : core.registerBus (astOps hw) (astInit env .bmc 0) (BitVec.ofInt 8 s.localEid) = .ok (c1, rc)) (hrc : 0 ≤ rc)
    {boot : Boot} {net : Net W} {n : Nat} {w : W} {wakes : List (Wake Unit)} {l : Life W (AstSt E)}
    (h : daemonMain boot net (astOps hw) (some (astDef hw env)) s n core w wakes = .ok l)
    (hup : .bindingUp ∈ l.evs) (hend : l.status ≠ none) :
    l.core.nBusses = 0 ∧ l.core.busses = [] ∧ ∃ st pre, l.left = [st] ∧
      (∀ d, l.daemon = some d → ∃ bus, d.core.busses = [bus] ∧ pre = bus.binding.st.log.map (·.acc)) ∧
      ((∃ rc, rc ≠ 0 ∧ st.log.map (·.acc) = pre ++ [.kcsWrite .status 0 rc]) ∨
       (∃ rc, st.log.map (·.acc) = pre ++ [.kcsWrite .status 0 0, .kcsWrite .data 0xff rc])) := by
  obtain ⟨c, ⟨bus, r, hm⟩, hd, hf⟩ := daemonMain_end (I := fun c => ∃ bus, AstMem hw .bmc 0 mem.live c bus)
    (J := fun c => ∃ bus r, AstMem hw .bmc 0 mem.live (c.setRxAll r) bus) boot net (astOps hw) (astDef hw env) s n core w wakes
    (ast_safeCores hw 0 mem.live)
    (by
      intro c hc
      obtain ⟨c', rc', g1, g2⟩ := ast_starts hcl h0 hreg hrc n
      rw [hc] at g1
      cases g1
      exact g2 rfl)
    (by rintro c ⟨bus, hb⟩; exact ⟨bus, c.hasRx, hb⟩) h hup hend
  obtain ⟨c', hn, hbs, hfc⟩ := ast_destroy (hw := hw) (env := env) rfl hm
  have hx := hf _ rfl
  rw [hfc] at hx
  simp only [Except.ok.injEq, Prod.mk.injEq] at hx
  obtain ⟨rfl, hl⟩ := hx
  refine ⟨hn, hbs, _, bus.binding.st.log.map (·.acc), hl.symm, ?_, ?_⟩
  · intro d hdd
    exact ⟨bus, by rw [hd d hdd]; exact hm.2, rfl⟩
  · unfold kcsSetStatus kcsWrite
    simp only
    by_cases h1 : (hw.kcsWrite bus.binding.st.env .status 0).1 = 0
    · right
      rw [if_neg (by simpa using h1)]
      refine ⟨(hw.kcsWrite (hw.kcsWrite bus.binding.st.env .status 0).2 .data cmdDummy).1, ?_⟩
      split <;> simp [cmdDummy] <;> exact h1
    · left
      rw [if_pos (by simpa using h1)]
      exact ⟨_, h1, by simp⟩

/-! ## Witnesses -/

namespace LifeDemo

/-- A start-up in which everything works and no socket is inherited. -/
def boot : Boot :=
  { pcapInit := true, openDead := fun _ => true, dumpOpen := fun _ => true, listenFds := -1, socket := true, bind := true, listen := true,
    sigmask := true }

def settings : Settings := { capBinding := some "b.pcap".toList, capSocket := some "s.pcap".toList, localEid := 8 }

/-- Two connections are made, one client registers, sends a message to EID 9; then a signal. -/
def wakes (stop : Wake (Option (List Byte))) : List (Wake (Option (List Byte))) :=
  [.ready { binding := none, client := fun _ => false, sock := true }, .ready { binding := none, client := fun i => i == 0, sock := false },
   .ready { binding := none, client := fun i => i == 0, sock := false }, stop]

def script : DaemonDemo.Script := { accepts := [10], reads := [(1, 5)], peeks := [3], recvs := [[9, 5, 7]] }

/-- What is seen of a life: its record, exit status and the bytes on the wire. -/
def life (boot : Boot) (ok : Nat → Bool) (stop : Wake (Option (List Byte))) : Option (Except Fault (List LifeEv × Option Nat × List Byte)) :=
  match Core.init SerialSt { ok := ok } (fun _ => 0) with
  | none => none
  | some c =>
    some ((daemonMain boot DaemonDemo.net serialOps (some (serialDef (fun _ b => b.length) 256)) settings 1 c script (wakes stop)).map
      fun l => (l.evs, l.status, l.core.busses.flatMap fun b => b.binding.st.wire))

/-- A life with the astlpc binding, from `mctp_init`: record, status, number of busses, and the device accesses. -/
def astLife (env : AstDemo.Script) (wakes : List (Wake Unit)) : Option (Except Fault (List LifeEv × Option Nat × Nat × List Access)) :=
  match Core.init (AstSt AstDemo.Script) {} (fun _ => 0) with
  | none => none
  | some c =>
    some ((daemonMain boot DaemonDemo.net (astOps AstDemo.hw) (some (astDef AstDemo.hw env)) {} 1 c script wakes).map
      fun l => (l.evs, l.status, l.core.nBusses, l.left.flatMap fun st => st.log.map (·.acc)))

end LifeDemo

/-- **C100**: the host asks for a channel and gets it; then a signal ends the daemon. -/
example : (LifeDemo.astLife AstDemo.bmcScript [.ready { binding := some (), client := fun _ => false, sock := false }, .signal true]).map
    (fun x => x.toOption.map fun (evs, st, n, log) => (evs, st, n, log.drop (log.length - 4))) =
    some (some ([.bindingUp, .sockOpened, .loop, .bindingDown], some 0, 0,
      [.kcsWrite .status 0xc1 0, .kcsWrite .data 0xff 0, .kcsWrite .status 0 0, .kcsWrite .data 0xff 0])) := by decide +kernel

/-- A whole life: a message goes out, and a signal ends the daemon with status 0. -/
example : LifeDemo.life LifeDemo.boot (fun _ => true) (.signal true) =
    some (.ok ([.pcapOpened false, .dumpOpened false, .pcapOpened true, .dumpOpened true, .bindingUp, .sockOpened, .loop,
      .dumpClosed true, .pcapClosed true, .dumpClosed false, .pcapClosed false], some 0,
      [0x7e, 1, 6, 1, 9, 8, 0xc8, 5, 7, 0xd3, 0x36, 0x7e])) := by decide +kernel

/-- The same, ended by a failing poll(). -/
example : (LifeDemo.life LifeDemo.boot (fun _ => true) .failed).map (fun x => x.toOption.map (·.2.1)) = some (some (some 1)) := by
  decide +kernel

/-- The same, when the capture file of the clients' messages cannot be opened: the other one is closed, and nothing is served. -/
example : LifeDemo.life { LifeDemo.boot with dumpOpen := fun k => !k } (fun _ => true) (.signal true) =
    some (.ok ([.pcapOpened false, .dumpOpened false, .pcapOpened true, .dumpClosed false, .pcapClosed false], some 1, [])) := by
  decide +kernel

/-- **C97**: the same, when there is no memory for the bus: the daemon starts all the same and crashes at the first message. -/
theorem C97_refuted : LifeDemo.life LifeDemo.boot (fun i => decide (i ≠ 1)) (.signal true) = some (.error .nullDeref) := by
  decide +kernel

end Mctp
