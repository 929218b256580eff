import Verif.Proofs.DaemonTrace
import Verif.Proofs.Tools
import Verif.Props.Daemon

/-!
# Properties of the daemon as a relay (C101, C102)
-/

namespace Mctp

open Spec

variable {W β π : Type}

/-! ## C101: each client gets the messages of its type, in order -/

/-- **C101** For every behaviour of the clients, the operating system and the binding: the daemon's calls are those of an exact relay.  Each message that
arrives is followed at once by one send, of the source EID and the message, to each client connected at that time that registered for its type, in the
order in which they connected; nothing else is ever sent.  (Clients that registered for nothing count as registered for type 0: see C65.) -/
theorem C101_relay {net : Net W} {ops : Ops β} {proc : π → Core β → Res (Core β × List Event × Int)} {rs : List (Ready π)}
    {w : W} {core : Core β} {eid : Int} {d : Daemon W β} (h : (Daemon.init w core eid).run net ops proc rs = .ok d)
    (hfresh : Each FreshAccept [] d.log) : Relay [] [] d.log ∧ sendsIn d.log = owed d.log := by
  obtain ⟨xs, hm, -⟩ := run_moves h
  have := ((RInv.init w core eid).moves hm hfresh).relay
  exact ⟨this, relay_owed this⟩

/-- **C101** For one client: as long as it stays connected, what it is sent is the list of the messages of the type it registered for that arrive, each after
the EID of its source, in the order in which they arrive.  (The record is cut before a call that is not a send.) -/
theorem C101_client {net : Net W} {ops : Ops β} {proc : π → Core β → Res (Core β × List Event × Int)} {rs : List (Ready π)}
    {w : W} {core : Core β} {eid : Int} {d : Daemon W β} (h : (Daemon.init w core eid).run net ops proc rs = .ok d)
    (hfresh : Each FreshAccept [] d.log) {pre post : List SockEv} (hl : d.log = pre ++ post) (hcut : ∀ e, post.head? = some e → sendOf e = none)
    {fd : Int} (hfd : 0 ≤ fd) (hconn : acceptedOn fd pre = closedOn fd pre + 1) (hopen : SockEv.closed fd ∉ post)
    (hreg : ∀ rc b, SockEv.readByte fd rc b ∉ post) :
    post.filterMap (sentTo fd) = ((post.filterMap arrivalOf).filter (ofType (typeOf fd pre))).map (fun p => p.1 :: p.2) := by
  have hr := (C101_relay h hfresh).1
  rw [hl] at hr hfresh
  obtain ⟨due, hr⟩ := relay_split hr
  obtain ⟨hf1, hf2⟩ := Each.append.mp hfresh
  have ht := (table_entry hfd pre hf1).2
  rw [if_pos hconn] at ht
  have hdue : due = [] := by
    cases post with
    | nil => exact hr
    | cons e rest =>
      have := hcut e rfl
      cases e with
      | sent f bs rc => simp [sendOf] at this
      | _ => exact hr.1
  subst hdue
  refine relay_one hr ht ?_
  intro e he htouch
  cases e with
  | accepted f =>
    cases htouch
    obtain ⟨a, b, rfl⟩ := List.append_of_mem he
    have := (Each.append.mp hf2).2.1 fd rfl hfd
    simp only [List.nil_append] at this
    rw [acceptedOn_append, closedOn_append] at this
    have hz : closedOn fd a = 0 := by
      unfold closedOn
      rw [List.countP_eq_zero]
      intro x hx hh
      exact hopen (by rw [← beq_iff_eq.mp hh]; exact List.mem_append_left _ hx)
    omega
  | closed f => cases htouch; exact hopen he
  | readByte f rc b => cases htouch; exact hreg rc b he
  | _ => exact htouch

/-- **C101** What arrives: the messages the core hands over, once each and in order, and the clients' messages to the daemon's own EID, each at once. -/
theorem C101_arrivals {net : Net W} {ops : Ops β} {proc : π → Core β → Res (Core β × List Event × Int)} {rs : List (Ready π)}
    {w : W} {core : Core β} {eid : Int} {d : Daemon W β} (h : (Daemon.init w core eid).run net ops proc rs = .ok d) :
    netArrivals eid d.log = d.evs.filterMap handed ∧ Echoed eid d.log := by
  obtain ⟨xs, hm, -⟩ := run_moves h
  have := (NInv.init w core eid).moves hm
  exact ⟨this.arr, this.echo⟩

/-- The hypotheses are met: client 10 registers for type 5 and sends two messages of that type to the daemon's EID, while client 11 registers for type 6; only
client 10 gets them. -/
example : ∃ d, (DaemonDemo.start { accepts := [10, 11], reads := [(1, 5), (1, 6)], peeks := [3, 3], recvs := [[8, 5, 7], [8, 5, 9]], sends := [3, 3] }).run
    DaemonDemo.net Demo.ops DaemonDemo.proc [DaemonDemo.connect, DaemonDemo.connect, DaemonDemo.clients [0, 1], DaemonDemo.clients [0], DaemonDemo.clients [0]] = .ok d ∧
    Each FreshAccept [] d.log ∧ owed d.log = [(10, [8, 5, 7]), (10, [8, 5, 9])] := by
  obtain ⟨d, h1, h2⟩ := DaemonDemo.logOf_ok
    (w := { accepts := [10, 11], reads := [(1, 5), (1, 6)], peeks := [3, 3], recvs := [[8, 5, 7], [8, 5, 9]], sends := [3, 3] })
    (rs := [DaemonDemo.connect, DaemonDemo.connect, DaemonDemo.clients [0, 1], DaemonDemo.clients [0], DaemonDemo.clients [0]])
    (l := [.polled [] [], .accepted 10, .polled [10] [], .accepted 11, .polled [10, 11] [10, 11], .readByte 10 1 5, .readByte 11 1 6,
      .polled [10, 11] [10], .peeked 10 3, .received 10 3 [8, 5, 7], .arrived 8 [5, 7], .sent 10 [8, 5, 7] 3,
      .polled [10, 11] [10], .peeked 10 3, .received 10 3 [8, 5, 9], .arrived 8 [5, 9], .sent 10 [8, 5, 9] 3]) (by decide +kernel)
  refine ⟨d, h1, ?_, by rw [h2]; decide⟩
  rw [h2]
  simp only [Each, FreshAccept, and_true]
  repeat' apply And.intro
  all_goals (intro fd h0 _; cases h0 <;> rfl)

/-! ## C102: two daemons on a serial line -/

/-- `binding_serial_process` of the daemon. -/
abbrev serialProc : Option (List Byte) → Core SerialSt → Res (Core SerialSt × List Event × Int) := fun res c => c.serialRead 0 res

/-- The messages of clients, as the core sends them. -/
def clientMsgs (ms : List (Byte × List Byte)) : List Msg := ms.map fun p => ⟨p.1, true, 0, 64, p.2⟩

/-- The daemon's core as an endpoint: what its clients send, what the line gives. -/
structure LInv (le : Int) (c0 : Core SerialSt) (xs : List (Option (List Byte))) (d : Daemon W SerialSt) : Prop where
  base : NInv le d
  hist : ∃ hist slog, c0.serialRun hist = .ok (d.core, slog) ∧ (∀ op ∈ hist, OnlySends op) ∧
    (∀ op, .core op ∈ hist → (∀ n, op ≠ .setMax n) ∧ (∀ n, op ≠ .setRx n)) ∧
    sendsOf hist = clientMsgs (clientSends le d.log) ∧ bytesIn hist = xs.flatMap (·.getD []) ∧ serialEvents slog = d.evs

theorem sendsOf_append (a b : List SerialOp) : sendsOf (a ++ b) = sendsOf a ++ sendsOf b := List.filterMap_append ..

theorem serialEvents_snoc (l : List SerialRec) (r : SerialRec) : serialEvents (l ++ [r]) = serialEvents l ++ r.evs := by simp [serialEvents]

theorem LInv.move {le : Int} {c0 : Core SerialSt} {xs : List (Option (List Byte))} {net : Net W} {d d' : Daemon W SerialSt} {x : Option (Option (List Byte))}
    (h : LInv le c0 xs d) (hm : Move net serialOps serialProc d x d') : LInv le c0 (xs ++ x.toList) d' := by
  have hb := h.base.move hm
  refine ⟨hb, ?_⟩
  obtain ⟨hist, slog, h1, h2, h2', h3, h4, h5⟩ := h.hist
  have keep : ∀ {l : List SockEv}, d'.log = d.log ++ l → l.filterMap (clientSend le) = [] → d'.core = d.core → d'.evs = d.evs → x = none →
      ∃ hist slog, c0.serialRun hist = .ok (d'.core, slog) ∧ (∀ op ∈ hist, OnlySends op) ∧
        (∀ op, .core op ∈ hist → (∀ n, op ≠ .setMax n) ∧ (∀ n, op ≠ .setRx n)) ∧
        sendsOf hist = clientMsgs (clientSends le d'.log) ∧ bytesIn hist = (xs ++ x.toList).flatMap (·.getD []) ∧ serialEvents slog = d'.evs := by
    intro l hl hn hk he hx
    refine ⟨hist, slog, by rw [hk]; exact h1, h2, h2', ?_, by simpa [hx] using h4, by rw [he]; exact h5⟩
    rw [hl, clientSends, List.filterMap_append, hn, List.append_nil]; exact h3
  have none_of : ∀ {l : List SockEv}, (∀ e ∈ l, clientSend le e = none) → l.filterMap (clientSend le) = [] := fun h => List.filterMap_eq_nil_iff.mpr h
  cases hm with
  | quiet hl hq _ hk he _ =>
    refine keep hl (none_of fun e he => ?_) hk he rfl
    have := hq e he
    cases e with
    | received fd rc bs => have hbs : bs = [] := this; subst hbs; rfl
    | _ => rfl
  | mark _ => exact keep (l := []) (by simp [Daemon.setClient]) rfl rfl rfl rfl
  | prune =>
    refine keep rfl (none_of fun e he => ?_) rfl rfl rfl
    obtain ⟨f, -, rfl⟩ := List.mem_map.mp he
    rfl
  | register _ _ _ _ hl _ hk he _ => exact keep hl rfl hk he rfl
  | accept _ hl _ hk he _ => exact keep hl rfl hk he rfl
  | @home d0 fd rc eid payload heid hl _ hk he _ =>
    obtain ⟨l, k1, k2⟩ := rxMessage_log net d0 eid payload
    obtain ⟨b1, b2, -⟩ := rxMessage_same net d0 eid payload
    refine keep (l := [.received fd rc (eid :: payload)] ++ .arrived eid payload :: l) (by rw [k1, hl, List.append_assoc]) (none_of fun e he => ?_)
      (b1.trans hk) (b2.trans he) rfl
    rw [h.base.eid] at heid
    rcases List.mem_append.mp he with he | he
    · rw [List.mem_singleton.mp he]
      simp [clientSend, heid]
    · rcases List.mem_cons.mp he with rfl | he
      · rfl
      · have := k2 e he
        cases e <;> first | rfl | exact absurd this id
  | @send d'' fd rc rc' eid payload e heid hl _ hk he _ =>
    rw [h.base.eid] at heid
    refine ⟨hist ++ [.core (.send eid true 0 payload)], slog ++ [⟨.core (.send eid true 0 payload), e, rc'⟩], serialRun_snoc h1 (op := .core (.send eid true 0 payload)) hk, ?_, ?_, ?_, ?_, ?_⟩
    · intro op ho
      rcases List.mem_append.mp ho with ho | ho
      · exact h2 op ho
      · rw [List.mem_singleton.mp ho]
        exact Nat.zero_le 7
    · intro op ho
      rcases List.mem_append.mp ho with ho | ho
      · exact h2' op ho
      · rw [SerialOp.core.inj (List.mem_singleton.mp ho)]
        exact ⟨fun _ => by simp, fun _ => by simp⟩
    · rw [sendsOf_append, h3, hl]
      simp [clientMsgs, clientSends, clientSend, heid, sendsOf]
    · rw [bytesIn_append, h4]; simp [bytesIn]
    · rw [serialEvents_snoc, h5, he]
  | @input y c e rc hx =>
    obtain ⟨-, -, -, c4, c5, -, c7⟩ := deliver_arrives (d := { d with core := c, evs := d.evs ++ e }) net e h.base.last h.base.echo
    cases y with
    | none =>
      simp only [serialProc, Core.serialRead, Except.ok.injEq, Prod.mk.injEq] at hx
      obtain ⟨rfl, rfl, -⟩ := hx
      refine ⟨hist, slog, by rw [c4]; exact h1, h2, h2', by rw [c7]; exact h3, by simpa using h4, by rw [c5]; simpa using h5⟩
    | some bs =>
      have hs : d.core.serialStep (.rx bs) = .ok (c, e, rc) := hx
      refine ⟨hist ++ [.rx bs], slog ++ [⟨.rx bs, e, rc⟩], by rw [c4]; exact serialRun_snoc h1 hs, ?_, ?_, ?_, ?_, ?_⟩
      · intro op ho
        rcases List.mem_append.mp ho with ho | ho
        · exact h2 op ho
        · rw [List.mem_singleton.mp ho]; trivial
      · intro op ho
        rcases List.mem_append.mp ho with ho | ho
        · exact h2' op ho
        · simp at ho
      · rw [sendsOf_append, h3, c7]; simp [sendsOf]
      · rw [bytesIn_append, h4]; simp [bytesIn]
      · rw [serialEvents_snoc, h5, c5]

theorem LInv.moves {le : Int} {c0 : Core SerialSt} {net : Net W} {d d' : Daemon W SerialSt} {ys : List (Option (List Byte))}
    (hm : Moves net serialOps serialProc d ys d') : ∀ {xs}, LInv le c0 xs d → LInv le c0 (xs ++ ys) d' := by
  induction hm with
  | refl => intro xs h; simpa using h
  | tail _ hm2 ih => intro xs h; rw [← List.append_assoc]; exact (ih h).move hm2

theorem SerialEndpoint.hasRx {eid : Byte} {mx : Nat} {wr : Nat → List Byte → Int} {mem : Mem} {c0 : Core SerialSt}
    (h : SerialEndpoint eid mx wr mem c0) : c0.setRxAll true = c0 := by
  have := h.configured.flags.1
  unfold Core.setRxAll
  cases c0
  simp only at this ⊢
  rw [this]

theorem LInv.init {eid : Byte} {mx : Nat} {wr : Nat → List Byte → Int} {mem : Mem} {c0 : Core SerialSt} (h : SerialEndpoint eid mx wr mem c0) (w : W) (le : Int) :
    LInv le c0 [] (Daemon.init w c0 le) :=
  ⟨NInv.init w c0 le, [], [], by rw [show (Daemon.init w c0 le).core = c0 from h.hasRx]; rfl, by simp, by simp, rfl, rfl, rfl⟩

/-- The processes of two daemons, on a line from 8 to 9. -/
def DaemonDemo.serialStart (eid : Byte) (w : Script) : Daemon Script SerialSt := Daemon.init w (Demo.serialCore eid blockingWrite) eid.toNat

/-- **C102** Two daemons with serial bindings, for every behaviour of the clients of both, of their operating systems and of the line towards A.  B reads the
bytes A has written, or a first part of them, in any pieces.  Then the messages that arrive at B from the line are the messages the clients of A sent to B (those that are not
empty), or the first of them: each once, in order, with the EID of A and the content the client gave.  They are all of them if B has read everything, and
no read and no accept of B failed.  (Messages of more than half of B's limit, and messages to other EIDs, are not covered.) -/
theorem C102_two_daemons {V : Type} {eidA eidB : Byte} {mxA mxB : Nat} {wrA wrB : Nat → List Byte → Int} {memA memB : Mem} {cA cB : Core SerialSt}
    (hA : SerialEndpoint eidA mxA wrA memA cA) (hclA : Clean memA) (hwA : WrGood wrA)
    (hB : SerialEndpoint eidB mxB wrB memB cB) (hclB : Clean memB) (hwB : WrOk wrB)
    {netA : Net W} {netB : Net V} {wA : W} {wB : V} {rsA rsB : List (Ready (Option (List Byte)))} {dA : Daemon W SerialSt} {dB : Daemon V SerialSt}
    (hrA : (Daemon.init wA cA eidA.toNat).run netA serialOps serialProc rsA = .ok dA)
    (hrB : (Daemon.init wB cB eidB.toNat).run netB serialOps serialProc rsB = .ok dB)
    (hsrc : eidA ≠ 0) (hmx1 : 4096 ≤ mxB) (hmx2 : mxB < 2 ^ 64)
    (hms : ∀ p ∈ clientSends eidA.toNat dA.log, Local eidB p.1 ∧ 2 * p.2.length ≤ mxB)
    (hwire : lineBytes rsB <+: wireOf dA.core) :
    let want := ((clientSends eidA.toNat dA.log).filter (fun p => p.2 ≠ [])).map fun p => (eidA, p.2)
    netArrivals eidB.toNat dB.log <+: want ∧
      (lineBytes rsB = wireOf dA.core → (∀ r ∈ rsB, r.binding ≠ some none) → AllAccepted dB.log → netArrivals eidB.toNat dB.log = want) := by
  intro want
  obtain ⟨xsA, mA, -, -⟩ := run_moves hrA
  obtain ⟨xsB, mB, pB, fB⟩ := run_moves hrB
  obtain ⟨hNA, histA, slogA, a1, a2, a3, a4, a5, a6⟩ := LInv.moves mA (LInv.init hA wA eidA.toNat)
  obtain ⟨hNB, histB, slogB, b1, b2, b3, b4, b5, b6⟩ := LInv.moves mB (LInv.init hB wB eidB.toNat)
  obtain ⟨s1, s2, s3⟩ := serial_sender hA hclA hwA a2 a1
  rw [List.nil_append] at b5
  have hpre : bytesIn histB <+: wireOf dA.core := by
    refine List.IsPrefix.trans ?_ hwire
    rw [b5]
    obtain ⟨rest, hrest⟩ := pB
    exact ⟨rest.flatMap (·.getD []), by rw [← List.flatMap_append, hrest]; rfl⟩
  obtain ⟨q1, q2⟩ := C47_end_to_end hA hclA hwA (fun o ho => (a2 _ ho).app o rfl) a1 hB hclB hwB (fun o ho => (b2 _ ho).app o rfl) b3 b1 hsrc hmx1 hmx2
    (by
      rw [s2, a4]
      intro m hm
      obtain ⟨p, hp, rfl⟩ := List.mem_map.mp hm
      exact hms p hp) hpre
  have hgot : (serialEvents slogB).filterMap handed = ((serialEvents slogB).filter (fun ev => (delivered ev).isSome)).filterMap handed := by
    generalize serialEvents slogB = evs
    induction evs with
    | nil => rfl
    | cons ev evs ih =>
      cases ev with
      | rxMsg src own tag msg => exact congrArg (List.cons (src, msg)) ih
      | _ => exact ih
  have hwant : (((accepted 68 (coreLog slogA)).filter (fun m => m.data ≠ [])).map (fun m => Event.rxMsg eidA m.own m.tag m.data)).filterMap handed = want := by
    rw [s2, a4]
    show _ = ((clientSends eidA.toNat dA.log).filter (fun p => p.2 ≠ [])).map fun p => (eidA, p.2)
    generalize clientSends eidA.toNat dA.log = ms
    induction ms with
    | nil => rfl
    | cons p ms ih =>
      by_cases hp : p.2 = []
      · simpa [clientMsgs, hp] using ih
      · simpa [clientMsgs, hp, handed] using ih
  have harr : netArrivals eidB.toNat dB.log = (serialEvents slogB).filterMap handed := by rw [b6]; exact hNB.arr
  refine ⟨?_, fun hfull hgood hacc => ?_⟩
  · rw [harr, hgot, ← hwant]
    exact q1.filterMap _
  · have hx : xsB = inputs rsB := by
      refine fB ?_ hacc
      intro x hx c c' e rc hp
      obtain ⟨r, hr, hrx⟩ := List.mem_filterMap.mp hx
      cases x with
      | none => exact absurd hrx (hgood r hr)
      | some bs =>
        simp only [serialProc, Core.serialRead] at hp
        obtain ⟨v, -, hp⟩ := Res.bind_eq_ok.mp hp
        simp only [Except.ok.injEq, Prod.mk.injEq] at hp
        exact hp.2.2.symm
    rw [harr, hgot, q2 s1 (by rw [b5, hx, ← hfull]; rfl), hwant]

/-- The value of a computation, if it does not fault. -/
def DaemonDemo.opt {α : Type} : Res α → Option α
  | .ok a => some a
  | .error _ => none

theorem DaemonDemo.opt_ok {α γ : Type} {r : Res α} {f : α → γ} {y : γ} (h : (DaemonDemo.opt r).map f = some y) : ∃ a, r = .ok a ∧ f a = y := by
  cases r with
  | ok a => exact ⟨a, rfl, by simpa [DaemonDemo.opt] using h⟩
  | error f => simp [DaemonDemo.opt] at h

/-- The hypotheses are met: a client of the daemon with EID 8 sends a message of type 5 to EID 9, and a client of that daemon, registered for the type, gets it. -/
example : ∃ dA dB, ∃ rsB : List (Ready (Option (List Byte))),
    (DaemonDemo.serialStart 8 { accepts := [10], reads := [(1, 5)], peeks := [4], recvs := [[9, 5, 7, 0x7e]] }).run DaemonDemo.net serialOps serialProc
      [⟨none, fun _ => false, true⟩, ⟨none, fun _ => true, false⟩, ⟨none, fun _ => true, false⟩] = .ok dA ∧
    (DaemonDemo.serialStart 9 { accepts := [20], reads := [(1, 5)], sends := [4] }).run DaemonDemo.net serialOps serialProc rsB = .ok dB ∧
    lineBytes rsB = wireOf dA.core ∧ (∀ r ∈ rsB, r.binding ≠ some none) ∧ clientSends 8 dA.log = [(9, [5, 7, 0x7e])] ∧
    netArrivals 9 dB.log = [(8, [5, 7, 0x7e])] ∧ sendsIn dB.log = [(20, [8, 5, 7, 0x7e])] ∧
    SerialEndpoint 8 65536 blockingWrite {} (Demo.serialCore 8 blockingWrite) ∧ SerialEndpoint 9 65536 blockingWrite {} (Demo.serialCore 9 blockingWrite) ∧
    Clean {} ∧ WrGood blockingWrite := by
  obtain ⟨dA, hA, eA⟩ := DaemonDemo.opt_ok (r := (DaemonDemo.serialStart 8 { accepts := [10], reads := [(1, 5)], peeks := [4], recvs := [[9, 5, 7, 0x7e]] }).run
      DaemonDemo.net serialOps serialProc [⟨none, fun _ => false, true⟩, ⟨none, fun _ => true, false⟩, ⟨none, fun _ => true, false⟩])
      (f := fun d => (wireOf d.core, clientSends 8 d.log))
      (y := ([126, 1, 7, 1, 9, 8, 200, 5, 7, 125, 94, 79, 32, 126], [(9, [5, 7, 0x7e])])) (by decide +kernel)
  obtain ⟨dB, hB, eB⟩ := DaemonDemo.opt_ok (r := (DaemonDemo.serialStart 9 { accepts := [20], reads := [(1, 5)], sends := [4] }).run
      DaemonDemo.net serialOps serialProc [⟨none, fun _ => false, true⟩, ⟨some (some [126, 1, 7, 1, 9]), fun _ => true, false⟩,
        ⟨some (some [8, 200, 5, 7, 125, 94, 79, 32, 126]), fun _ => false, false⟩])
      (f := fun d => (netArrivals 9 d.log, sendsIn d.log))
      (y := ([(8, [5, 7, 0x7e])], [(20, [8, 5, 7, 0x7e])])) (by decide +kernel)
  simp only [Prod.mk.injEq] at eA eB
  exact ⟨dA, dB, _, hA, hB, by rw [eA.1]; rfl, by simp, eA.2, eB.1, eB.2, Demo.serialEndpoint 8 _, Demo.serialEndpoint 9 _, clean_empty, blockingWrite_good⟩

end Mctp
