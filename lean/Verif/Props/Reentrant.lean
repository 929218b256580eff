import Verif.Proofs.Reentrant2
import Verif.Props.Tx

/-!
# C82, C83: calls made from inside the receive callbacks
-/

namespace Mctp

open Spec

variable {β S : Type}

/-! ## C82 -/

theorem run_ops {ops : Ops β} {hist : List (Op β)} : ∀ {c c' : Core β} {log : List (Rec β)}, c.run ops hist = .ok (c', log) →
    log.map (·.op) = hist := by
  induction hist with
  | nil =>
    intro c c' log h
    simp only [Core.run, Except.ok.injEq, Prod.mk.injEq] at h
    obtain ⟨-, rfl⟩ := h; rfl
  | cons op rest ih =>
    intro c c' log h
    simp only [Core.run] at h
    obtain ⟨⟨c1, e, rc⟩, h1, h⟩ := Res.bind_eq_ok.mp h
    obtain ⟨⟨c2, l⟩, h2, h⟩ := Res.bind_eq_ok.mp h
    simp only [Except.ok.injEq, Prod.mk.injEq] at h
    obtain ⟨-, rfl⟩ := h
    simp [ih h2]

/-- **C82** Whatever calls of `mctp_message_tx` and of the `mctp_set_*` functions an endpoint's application makes from inside
its receive callbacks, in any history: no memory fault, no failed assertion (the message the callback reads stays allocated
until the callback returns); every return value, every event, the state of the application and of the core are those of the
same application making those calls after the receiving call has returned (`runAfter`), that is, of a history without calls
in callbacks (`flat`), so that everything proved about histories holds; and `mctp_destroy` releases everything. -/
theorem C82_calls_in_callbacks {ops : Ops β} (K : Contract ops) {eid : Byte} {mem : Mem} {c0 : Core β}
    (hreg : Registered ops eid mem c0) (hcl : Clean mem) (hsz : SizesOk K c0) {app : App β S}
    (happ : ∀ s ev, (app s ev).AppOnly) {s0 : S} {hist : List (Op β)} (hok : HistOkH K app c0 s0 hist) :
    ∃ c s log, c0.runH ops app s0 hist = .ok (c, s, log) ∧ c0.runAfter ops app s0 hist = .ok (c, s, log) ∧
      (∃ flat, c0.run ops (flat.map (·.op)) = .ok (c, flat) ∧ Flat app s0 hist flat s ∧ events flat = events log ∧
        HistOk K c0 (flat.map (·.op))) ∧
      ∃ m, c.destroy = .ok m ∧ ∀ id, m.live.count id = mem.live.count id := by
  obtain ⟨c, s, log, flat, flog, h1, h2, h3, h4, h5, h6, h7⟩ :=
    runH_after happ (hreg.memInv hcl hsz) hreg.epInv hok
  obtain ⟨m, d1, d2⟩ := destroy_total h7
  have hmap : flog.map (·.op) = flat := run_ops h3
  exact ⟨c, s, log, h1, h2, ⟨flog, by rw [hmap]; exact h3, h6, h4, by rw [hmap]; exact h5⟩, m, d1, d2.cnt⟩

/-! ## C83 -/

/-- An application that answers requests: a message with the tag owner bit set for which `reply` gives an answer is answered
from the callback, to the sender, with the same tag and the tag owner bit clear. -/
def responder (reply : Byte → List Byte → Option (List Byte)) : App β Unit := fun _ ev =>
  match ev with
  | .rxMsg src true tag msg =>
    match reply src msg with
    | some ans => .call (.send src false tag ans) fun _ => .done ()
    | none => .done ()
  | _ => .done ()

/-- The answers due for the requests among these events, for packets of `mtu` payload bytes. -/
def answers (reply : Byte → List Byte → Option (List Byte)) (mtu : Nat) (evs : List Event) : List Msg :=
  evs.filterMap fun
    | .rxMsg src true tag msg => (reply src msg).map fun ans => ⟨src, false, tag, mtu, ans⟩
    | _ => none

theorem responder_appOnly (reply : Byte → List Byte → Option (List Byte)) (s : Unit) (ev : Event) :
    (responder (β := β) reply s ev).AppOnly := by
  unfold responder
  split
  · split
    · exact ⟨trivial, fun _ => trivial⟩
    · trivial
  · trivial

/-- The messages handed to `mctp_message_tx`. -/
def sentMsgs (mtu : Nat) (log : List (Rec β)) : List Msg :=
  log.filterMap fun r => match r.op with
    | .send dest own tag msg => some ⟨dest, own, tag, mtu, msg⟩
    | _ => none

/-- A transmitter that has been enabled accepts every message with a valid tag. -/
theorem txRun_accepted {ver eid : Byte} {log : List (Rec β)} : ∀ {s s' : TxState}, txRun ver eid s log = some s' → s.gate ≠ .never →
    (∀ r ∈ log, (∀ d o t m, r.op = .send d o t m → t.toNat ≤ 7) ∧ ∀ a b c d e f, r.op ≠ .rebind a b c d e f) →
    accepted s.size log = sentMsgs (s.size - 4) log := by
  induction log with
  | nil => intros; rfl
  | cons r log ih =>
    intro s s' h hg hr
    simp only [txRun] at h
    obtain ⟨s1, h1, h2⟩ := Option.bind_eq_some_iff.mp h
    have hr1 := hr r (by simp)
    have hrest := fun x hx => hr x (List.mem_cons_of_mem _ hx)
    have fg : ∀ {os : List Offer} {a b : TxState}, flush a os = some b → a.gate ≠ .never → b.gate ≠ .never := by
      intro os
      induction os with
      | nil =>
        intro a b hf ha
        simp only [flush] at hf
        split at hf
        · cases hf
        · simp only [Option.some.injEq] at hf; subst hf; exact ha
      | cons o os ih2 =>
        intro a b hf ha
        unfold flush at hf
        split at hf
        · split at hf
          · simp only at hf
            split at hf
            · exact ih2 hf (by simp only; split <;> simp)
            · split at hf
              · simp only [Option.some.injEq] at hf; subst hf; simp only; split <;> simp
              · cases hf
          · cases hf
        · cases hf
    have key : s1.gate ≠ .never ∧ s1.size = s.size := by
      unfold txStep at h1
      split at h1
      · rename_i d o t m hop
        rw [if_neg (by have := hr1.1 _ _ _ _ hop; omega), if_neg hg] at h1
        split at h1
        · exact ⟨fg h1 hg, (flush_fifo h1).2⟩
        · cases h1
      · split at h1
        · rename_i hh _; exact absurd hh hg
        · split at h1
          · simp only [Option.some.injEq] at h1; subst h1; simp
          · cases h1
        · exact ⟨fg h1 (by simp), (flush_fifo h1).2⟩
        · split at h1
          · simp only [Option.some.injEq] at h1; subst h1; exact ⟨hg, rfl⟩
          · cases h1
      · rename_i hop; exact absurd hop (hr1.2 _ _ _ _ _ _)
      · split at h1
        · simp only [Option.some.injEq] at h1; subst h1; exact ⟨hg, rfl⟩
        · cases h1
    have ih' := ih h2 key.1 hrest
    rw [key.2] at ih'
    have hs := h1
    unfold txStep at hs
    cases hop : r.op with
    | send d o t m =>
      simp only [hop] at hs
      rw [if_neg (by have := hr1.1 _ _ _ _ hop; omega), if_neg hg] at hs
      split at hs
      · rename_i h0
        simp only [accepted, sentMsgs, hop, h0, if_pos, List.filterMap_cons, List.singleton_append]
        rw [ih']; rfl
      · cases hs
    | rebind a b c d e f => exact absurd hop (hr1.2 _ _ _ _ _ _)
    | _ => simp only [accepted, sentMsgs, hop, List.filterMap_cons]; rw [ih']; rfl

/-- Only a received packet leads to a call of a receive callback, and then with a tag of three bits. -/
theorem step_callbacks {ops : Ops β} {c c' : Core β} {op : Op β} {e : List Event} {rc : Int} {eid : Byte} {evs : List Event}
    (hi : EpInv eid evs c) (h : c.step ops op = .ok (c', e, rc)) :
    ((∀ i bs, op ≠ .recv i bs) → e.filter Event.isCallback = []) ∧ ∀ s o t m, Event.rxMsg s o t m ∈ e → t.toNat ≤ 7 := by
  constructor
  · intro hop
    have := (step_frame hop h).1
    rw [List.filter_eq_nil_iff]
    intro x hx
    have := this x hx
    cases x <;> simp_all [IsTxEvent, Event.isCallback]
  · intro s o t m hm
    cases op with
    | recv i bs =>
      simp only [Core.step] at h
      obtain ⟨⟨c1, e1⟩, h1, h2⟩ := Res.bind_eq_ok.mp h
      simp only [Except.ok.injEq, Prod.mk.injEq] at h2
      obtain ⟨rfl, rfl, -⟩ := h2
      have hroute : ∀ {c : Core β} {i : Nat} {bus : Bus β} {f : Frag} {x : List Byte}, f.tag < 8 →
          Event.rxMsg s o t m ∈ routeEvents c i bus f.src f.tagOwner (BitVec.ofNat 8 f.tag) x → t.toNat ≤ 7 := by
        intro c i bus f x hf hx
        unfold routeEvents at hx
        split at hx
        · simp at hx
        · split at hx
          · simp only [List.mem_singleton, Event.rxMsg.injEq] at hx
            obtain ⟨-, -, rfl, -⟩ := hx
            simp only [BitVec.toNat_ofNat]; omega
          · simp at hx
      have hcap : ∀ {c : Core β} {x : List Byte}, Event.rxMsg s o t m ∉ capIn c x := by
        intro c x hx; unfold capIn at hx; split at hx <;> simp at hx
      rcases rxPacket_cases h1 with ⟨_, _, _, _, _, rfl⟩ | ⟨bus, m1, pkt, _, _, hp, hb⟩
      · simp at hm
      · obtain ⟨bus', -, -, -, hc⟩ := busRx_endpoint (c := { c with mem := m1 }) hi.noBridge hi.eids hp hb
        rcases hc with ⟨-, rfl, -⟩ | ⟨f, hf, hc⟩
        · simp at hm
        · obtain ⟨_, _, _, _, -, -, -, -, -, -, -, -, -, ht, -⟩ := parse_some hf
          rcases hc with ⟨-, rfl, -⟩ | ⟨-, -, rfl, -⟩ | ⟨-, -, _, _, _, out, -, -, -, rfl⟩
          · simp only [List.mem_cons, reduceCtorEq, false_or] at hm; exact absurd hm hcap
          · simp only [List.mem_cons, reduceCtorEq, false_or, List.mem_append] at hm
            exact hm.elim (fun h => absurd h hcap) (hroute ht)
          · simp only [List.mem_cons, reduceCtorEq, false_or, List.mem_append] at hm
            refine hm.elim (fun h => absurd h hcap) fun hm => ?_
            cases out with
            | none => simp at hm
            | some x => exact hroute ht hm
    | _ =>
      have := (step_frame (by simp) h).1 _ hm
      simp [IsTxEvent] at this

/-- The same for the records of a log. -/
theorem run_callbacks {ops : Ops β} {eid : Byte} {hist : List (Op β)} : ∀ {c c' : Core β} {log : List (Rec β)} {evs : List Event},
    EpInv eid evs c → c.run ops hist = .ok (c', log) → ∀ r ∈ log,
    ((∀ i bs, r.op ≠ .recv i bs) → r.evs.filter Event.isCallback = []) ∧ ∀ s o t m, Event.rxMsg s o t m ∈ r.evs → t.toNat ≤ 7 := by
  induction hist with
  | nil =>
    intro c c' log evs _ h r hr
    simp only [Core.run, Except.ok.injEq, Prod.mk.injEq] at h
    obtain ⟨-, rfl⟩ := h
    simp at hr
  | cons op rest ih =>
    intro c c' log evs hi h r hr
    have h0 := h
    simp only [Core.run] at h
    obtain ⟨⟨c1, e, rc⟩, h1, h⟩ := Res.bind_eq_ok.mp h
    obtain ⟨⟨c2, l⟩, h2, h⟩ := Res.bind_eq_ok.mp h
    simp only [Except.ok.injEq, Prod.mk.injEq] at h
    obtain ⟨rfl, rfl⟩ := h
    rcases List.mem_cons.mp hr with rfl | hr
    · exact step_callbacks hi h1
    · have h3 : c.run ops [op] = .ok (c1, [⟨op, e, rc⟩]) := by simp only [Core.run, h1, Res.bind_ok]
      exact ih (run_epInv hi h3) h2 r hr

theorem answers_filter (reply : Byte → List Byte → Option (List Byte)) (mtu : Nat) (evs : List Event) :
    answers reply mtu (evs.filter Event.isCallback) = answers reply mtu evs := by
  unfold answers
  rw [List.filterMap_filter]
  congr 1
  funext ev
  cases ev <;> simp [Event.isCallback]

theorem sentMsgs_append (mtu : Nat) (a b : List (Rec β)) : sentMsgs mtu (a ++ b) = sentMsgs mtu a ++ sentMsgs mtu b := by
  simp [sentMsgs]

theorem answers_append (reply : Byte → List Byte → Option (List Byte)) (mtu : Nat) (a b : List Event) :
    answers reply mtu (a ++ b) = answers reply mtu a ++ answers reply mtu b := by simp [answers]

/-- What the responder does about some events is to send the answers due for them. -/
theorem responder_reacts {reply : Byte → List Byte → Option (List Byte)} (mtu : Nat) {evs : List Event} : ∀ {log : List (Rec β)} {s s' : Unit},
    Reacts (responder reply) s evs log s' → sentMsgs mtu log = answers reply mtu evs ∧
      ∀ r ∈ log, ∃ s o t m a, r.op = .send s o t m ∧ Event.rxMsg s true t a ∈ evs := by
  induction evs with
  | nil => rintro log s s' ⟨rfl, -⟩; simp [sentMsgs, answers]
  | cons ev rest ih =>
    rintro log s s' ⟨l1, l2, s1, rfl, h1, h2⟩
    obtain ⟨i1, i2⟩ := ih h2
    have hl1 : sentMsgs mtu l1 = answers reply mtu [ev] ∧ ∀ r ∈ l1, ∃ s o t m a, r.op = .send s o t m ∧ Event.rxMsg s true t a = ev := by
      unfold responder at h1
      split at h1
      · rename_i src tag msg
        split at h1
        · rename_i ans hans
          obtain ⟨e, rc, rest, rfl, rfl, -⟩ := h1
          refine ⟨by simp [sentMsgs, answers, hans], ?_⟩
          intro r hr
          simp only [List.mem_singleton] at hr
          subst hr
          exact ⟨_, _, _, _, _, rfl, rfl⟩
        · rename_i hn
          obtain ⟨rfl, -⟩ := h1
          exact ⟨by simp [sentMsgs, answers, hn], by simp⟩
      · rename_i hn
        obtain ⟨rfl, -⟩ := h1
        refine ⟨?_, by simp⟩
        unfold answers
        simp only [sentMsgs, List.filterMap_nil, List.filterMap_cons]
    refine ⟨?_, ?_⟩
    · rw [sentMsgs_append, i1, hl1.1, ← answers_append]; rfl
    · intro r hr
      rcases List.mem_append.mp hr with hr | hr
      · obtain ⟨s, o, t, m, a, e1, e2⟩ := hl1.2 r hr
        exact ⟨s, o, t, m, a, e1, by rw [e2]; simp⟩
      · obtain ⟨s, o, t, m, a, e1, e2⟩ := i2 r hr
        exact ⟨s, o, t, m, a, e1, List.mem_cons_of_mem _ e2⟩

/-- In the history without calls in callbacks the messages sent are the answers due. -/
theorem responder_flat {reply : Byte → List Byte → Option (List Byte)} (mtu : Nat) {hist : List (Op β)} : ∀ {flat : List (Rec β)} {s s' : Unit},
    Flat (responder reply) s hist flat s' →
    (∀ r ∈ flat, ((∀ i bs, r.op ≠ .recv i bs) → r.evs.filter Event.isCallback = []) ∧
      ∀ s o t m, Event.rxMsg s o t m ∈ r.evs → t.toNat ≤ 7) →
    (∀ op ∈ hist, (∀ d o t m, op ≠ .send d o t m) ∧ ∀ a b c d e f, op ≠ .rebind a b c d e f) →
    sentMsgs mtu flat = answers reply mtu (events flat) ∧
      ∀ r ∈ flat, (∀ d o t m, r.op = .send d o t m → t.toNat ≤ 7) ∧ ∀ a b c d e f, r.op ≠ .rebind a b c d e f := by
  induction hist with
  | nil => rintro flat s s' ⟨rfl, -⟩ _ _; simp [sentMsgs, answers, events]
  | cons op rest ih =>
    rintro flat s s' ⟨e, rc, l1, l2, s1, rfl, h1, h2⟩ hf hh
    have hop := hh op (by simp)
    obtain ⟨i1, i2⟩ := ih h2 (fun r hr => hf r (by simp [hr])) fun x hx => hh x (List.mem_cons_of_mem _ hx)
    obtain ⟨j1, j2⟩ := responder_reacts mtu h1
    have hev1 : answers reply mtu (events l1) = [] := by
      rw [← answers_filter]
      have : (events l1).filter Event.isCallback = [] := by
        rw [List.filter_eq_nil_iff]
        intro x hx
        obtain ⟨r, hr, hx⟩ := List.mem_flatMap.mp hx
        obtain ⟨s, o, t, m, a, q, -⟩ := j2 r hr
        have := (hf r (by simp [hr])).1 (by rw [q]; simp)
        exact List.filter_eq_nil_iff.mp this x hx
      rw [this]; rfl
    refine ⟨?_, ?_⟩
    · have e1 : sentMsgs mtu (⟨op, e, rc⟩ :: (l1 ++ l2)) = sentMsgs mtu (l1 ++ l2) := by
        unfold sentMsgs
        rw [List.filterMap_cons]
        split
        · rfl
        · rename_i x hx
          split at hx
          · rename_i q; exact absurd q (hop.1 _ _ _ _)
          · cases hx
      have e2 : events (⟨op, e, rc⟩ :: (l1 ++ l2)) = e ++ (events l1 ++ events l2) := by simp [events]
      rw [e1, e2, sentMsgs_append, answers_append, answers_append, hev1, i1, j1, answers_filter]; rfl
    · intro r hr
      rcases List.mem_cons.mp hr with rfl | hr
      · exact ⟨fun d o t m q => absurd q (hop.1 _ _ _ _), hop.2⟩
      · rcases List.mem_append.mp hr with hr | hr
        · obtain ⟨s, o, t, m, a, q, hm⟩ := j2 r hr
          refine ⟨?_, by rw [q]; simp⟩
          intro d o' t' m' q'
          rw [q] at q'
          simp only [Op.send.injEq] at q'
          obtain ⟨-, -, rfl, -⟩ := q'
          exact (hf ⟨op, e, rc⟩ (by simp)).2 _ _ _ _ (List.mem_of_mem_filter hm)
        · exact i2 r hr

/-- **C83** An endpoint whose application answers requests from inside its callback, over a binding that was enabled when the
bus was registered: after every history in which nothing else is sent and the binding's packet size is not changed
(receptions of any packets, disabling and enabling transmission, busy bindings, changes of the settings), the packets the
binding has taken, followed by those still queued, are exactly the packets of the answers to the requests that were
delivered, in their order: each answered once, addressed to the sender, with the tag of the request. -/
theorem C83_responder {ops : Ops β} (hk : KeepsPacket ops) (K : Contract ops) {eid : Byte} {mem : Mem} {c0 : Core β} {b0 : Bus β}
    (hreg : Registered ops eid mem c0) (hcl : Clean mem) (hsz : SizesOk K c0) (hb0 : c0.busses = [b0])
    (hst : b0.state = .txEnabled) {reply : Byte → List Byte → Option (List Byte)} {hist : List (Op β)}
    (hok : HistOkH K (responder reply) c0 () hist)
    (hh : ∀ op ∈ hist, (∀ d o t m, op ≠ .send d o t m) ∧ ∀ a b c d e f, op ≠ .rebind a b c d e f) :
    ∃ c log, c0.runH ops (responder reply) () hist = .ok (c, (), log) ∧
      consumed log ++ pending c =
        (answers reply (b0.binding.pktSize - 4) (events log)).flatMap (Msg.packets b0.binding.version eid) := by
  obtain ⟨c, s, log, h1, h2, ⟨flat, f1, f2, f3, f4⟩, -⟩ :=
    C82_calls_in_callbacks K hreg hcl hsz (responder_appOnly reply) hok
  obtain ⟨c', log', b, g1, -, -, g4⟩ := C22_ideal_transmitter hk K hreg hcl hsz hb0 f4
  rw [f1] at g1
  simp only [Except.ok.injEq, Prod.mk.injEq] at g1
  obtain ⟨rfl, rfl⟩ := g1
  obtain ⟨k1, k2⟩ := responder_flat (b0.binding.pktSize - 4) f2 (run_callbacks hreg.epInv f1) hh
  have ha := txRun_accepted g4 (by simp [hst, gateOf]) k2
  have hq := txRun_fifo g4
  simp only at ha hq
  refine ⟨c, log, h1, ?_⟩
  have hc : consumed log = consumed flat := by
    unfold consumed; unfold events at f3; rw [f3]
  rw [hc, hq, ha, k1, f3]
  simp

/-! ## The hypotheses are met -/

/-- Decides `HistOkH` by running the history. -/
def Demo.histOkHB (app : App Unit S) : Core Unit → S → List (Op Unit) → Bool
  | _, _, [] => true
  | c, s, op :: rest => Demo.opOkB c op && (match c.stepH Demo.pickyOps app s op with
    | .ok (c', s', _, _) => histOkHB app c' s' rest
    | .error _ => true)

theorem Demo.histOkH {app : App Unit S} : ∀ {hist : List (Op Unit)} {c : Core Unit} {s : S},
    Demo.histOkHB app c s hist = true → HistOkH Demo.pickyK app c s hist := by
  intro hist
  induction hist with
  | nil => intros; trivial
  | cons op rest ih =>
    intro c s h
    unfold Demo.histOkHB at h
    rw [Bool.and_eq_true] at h
    refine ⟨Demo.opOk h.1, fun c' s' e rc hs => ?_⟩
    have h2 := h.2
    rw [hs] at h2
    exact ih h2

/-- Answers with the message reversed. -/
def Demo.echo : Byte → List Byte → Option (List Byte) := fun _ m => if m.length ≤ 3 then some m.reverse else none

/-- A history for C82 and C83: a request in two fragments, a request with transmission disabled, a response (not answered), a
request in one fragment for which the binding is busy (tag 1), a request that gets no answer, and a last one. -/
def Demo.requests : List (Op Unit) :=
  [.setRx true, .recv 0 (Demo.pkt 9 8 0x8a [5, 1]), .recv 0 (Demo.pkt 9 8 0x5a [2]), .enable 0 false,
   .recv 0 (Demo.pkt 9 8 0xca [3, 4]), .recv 0 (Demo.pkt 9 8 0xc2 [7]), .enable 0 true,
   .recv 0 (Demo.pkt 7 8 0xc9 [6]), .recv 0 (Demo.pkt 9 8 0xca [1, 2, 3, 4]), .recv 0 (Demo.pkt 9 8 0xcc [8])]

example : HistOkH Demo.pickyK (responder Demo.echo) { Demo.core with hasRx := false } () Demo.requests ∧
    (∀ op ∈ Demo.requests, (∀ d o t m, op ≠ .send d o t m) ∧ ∀ a b c d e f, op ≠ .rebind a b c d e f) ∧
    (match Core.runH Demo.pickyOps (responder Demo.echo) { Demo.core with hasRx := false } () Demo.requests with
     | .ok (c, _, log) => (consumed log, pending c)
     | .error _ => ([], [])) =
      ([Demo.pkt 8 9 0xc2 [2, 1, 5], Demo.pkt 8 9 0xc2 [4, 3]], [Demo.pkt 8 7 0xc1 [6], Demo.pkt 8 9 0xc4 [8]]) :=
  ⟨Demo.histOkH (by decide +kernel), by simp [Demo.requests], by decide +kernel⟩

/-! ## C84: receiving from inside a callback -/

/-- An application that, at its first message, receives these packets from inside the callback (it polls its binding), and
does nothing in the callbacks after that. -/
def Demo.poller (ps : List (List Byte)) : App Unit Bool := fun s ev =>
  match s, ev with
  | false, .rxMsg .. => ps.foldr (fun p k => .call (.recv 0 p) fun _ => k) (.done true)
  | _, _ => .done s

/-- A binding with packets of 6000 bytes. -/
def Demo.large : Core Unit := Demo.coreOf { Demo.binding with pktSize := 6000 } 65536

/-- **C84** (the property is false) While the callback reads a message reassembled from two packets, it receives the first
packet of the next message from the same sender, with the same tag, which does not fit the storage of the context: the
storage is reallocated, and the message the callback reads is gone. -/
theorem C84_use_after_free :
    (match Demo.large.runH Demo.ops (Demo.poller [Demo.pkt 9 8 0x8a (List.replicate 5000 7)]) false
        [.recv 0 (Demo.pkt 9 8 0x8a [1]), .recv 0 (Demo.pkt 9 8 0x5a [2])] with
     | .ok _ => none
     | .error e => some e) = some .useAfterFree := by decide +kernel

/-- **C84** (the property is false) The context of the message being delivered is released only after the callback: the first
packet of the next message with the same sender and tag, received inside the callback, is thrown away with it, and that
message is never delivered; received after the callback it is. -/
theorem C84_message_lost :
    let app := Demo.poller [Demo.pkt 9 8 0x8a [3]]
    let hist : List (Op Unit) := [.recv 0 (Demo.pkt 9 8 0x8a [1]), .recv 0 (Demo.pkt 9 8 0x5a [2]), .recv 0 (Demo.pkt 9 8 0x5a [4])]
    ((match Demo.core.runH Demo.ops app false hist with
      | .ok (_, _, log) => some (deliveries (events log))
      | .error _ => none) = some [(9, [1, 2])]) ∧
    ((match Demo.core.runAfter Demo.ops app false hist with
      | .ok (_, _, log) => some (deliveries (events log))
      | .error _ => none) = some [(9, [1, 2]), (9, [3, 4])]) := by decide +kernel

/-- **C84** (partial) Receiving from inside the callback works for a message that arrives in one packet: in every state
reached by any history, the callback may send, change the settings and receive packets (`OkIn`: packets that fit the binding);
the effect is that of making these calls after the callback has returned, that is, of a history without calls in callbacks, and
`mctp_destroy` releases everything.  Missing: messages reassembled from several packets (false, above); callbacks that act
again for the messages received inside a callback. -/
theorem C84_single_packet_partial {ops : Ops β} (K : Contract ops) {eid : Byte} {mem : Mem} {c0 c c1 : Core β}
    (hreg : Registered ops eid mem c0) (hcl : Clean mem) (hsz : SizesOk K c0) {hist : List (Op β)} {log : List (Rec β)}
    (hok : HistOk K c0 hist) (hrun : c0.run ops hist = .ok (c, log)) {bs : List Byte} {f : Frag} (hop : OpOk K c (.recv 0 bs))
    (hf : parse bs = some f) (hsg : f.single = true) {e1 : List Event} {rc : Int} (hs : c.step ops (.recv 0 bs) = .ok (c1, e1, rc))
    {app : App β S} {s : S} (hsc : ∀ ev ∈ e1, ev.isCallback = true → (app s ev).OkIn K c1) :
    ∃ c' s' e, c.stepH ops app s (.recv 0 bs) = .ok (c', s', e, rc) ∧ c.stepAfter ops app s (.recv 0 bs) = .ok (c', s', e, rc) ∧
      (∃ more log', HistOk K c0 (hist ++ .recv 0 bs :: more) ∧
        c0.run ops (hist ++ .recv 0 bs :: more) = .ok (c', log') ∧ events log' = events log ++ e) ∧
      ∃ m, c'.destroy = .ok m ∧ ∀ id, m.live.count id = mem.live.count id := by
  have hep := run_epInv hreg.epInv hrun
  obtain ⟨c2, log2, r1, hm⟩ := run_total K (hreg.memInv hcl hsz) hok
  rw [hrun] at r1
  simp only [Except.ok.injEq, Prod.mk.injEq] at r1
  obtain ⟨rfl, rfl⟩ := r1
  obtain ⟨c', s', e2, h1, h2, h3, h4⟩ := single_polls hm hep hop hf hsg hs hsc
  obtain ⟨m, d1, d2⟩ := destroy_total h3
  have hc : ∃ more lm, c1.run ops more = .ok (c', lm) ∧ events lm = e2 ∧ HistOk K c1 more := by
    rcases h4 with ⟨-, rfl, -, rfl⟩ | ⟨ev, -, ho, hcall⟩
    · exact ⟨[], [], rfl, rfl, trivial⟩
    · obtain ⟨more, lm, a1, a2, a3, -⟩ := calls_hist ho hcall
      exact ⟨more, lm, a1, a2, a3⟩
  obtain ⟨more, lm, a1, a2, a3⟩ := hc
  refine ⟨c', s', e1 ++ e2, h1, ?_, ⟨more, log ++ ⟨.recv 0 bs, e1, rc⟩ :: lm, ?_, ?_, ?_⟩, m, d1, d2.cnt⟩
  · simp only [Core.stepAfter, hs, h2, Res.bind_ok]
  · refine histOk_andThen hok hrun ⟨hop, fun c3 e3 rc3 h => ?_⟩
    rw [hs] at h
    simp only [Except.ok.injEq, Prod.mk.injEq] at h
    obtain ⟨rfl, rfl, rfl⟩ := h
    exact a3
  · exact run_append' hrun (by simp only [Core.run, hs, a1, Res.bind_ok])
  · simp [events, ← a2]

/-- The hypotheses of C84: a message of one packet, at which the application receives the second packet of another
message, which is then delivered, and a packet that is not for this endpoint. -/
example : ∃ c log c1 e1, { Demo.core with hasRx := false }.run Demo.ops [.setRx true, .recv 0 (Demo.pkt 9 8 0x8a [1])] = .ok (c, log) ∧
    c.step Demo.ops (.recv 0 (Demo.pkt 9 8 0xc9 [7])) = .ok (c1, e1, 0) ∧
    (∀ ev ∈ e1, ev.isCallback = true → (Demo.poller [Demo.pkt 9 8 0x5a [2], Demo.pkt 9 5 0x80 [2]] false ev).OkIn Demo.K c1) ∧
    (match c.stepH Demo.ops (Demo.poller [Demo.pkt 9 8 0x5a [2], Demo.pkt 9 5 0x80 [2]]) false (.recv 0 (Demo.pkt 9 8 0xc9 [7])) with
     | .ok (_, s, e, _) => (s, deliveries e)
     | .error _ => (false, [])) = (true, [(9, [7]), (9, [1, 2])]) := by
  refine ⟨_, _, _, _, rfl, rfl, ?_, by decide +kernel⟩
  intro ev hev hcb
  have : ev = .rxMsg 9 true 1 [7] := by
    revert hcb
    revert ev
    decide +kernel
  subst this
  refine ⟨trivial, ⟨_, rfl, by decide⟩, fun c' e rc h => ⟨trivial, ?_, fun _ _ _ _ => trivial⟩⟩
  simp only [Core.step] at h
  cases h
  exact ⟨_, rfl, by decide⟩

end Mctp
