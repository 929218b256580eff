import Verif.Proofs.Daemon
import Verif.Props.Demo
import Verif.Props.Serial
import Verif.Props.Astlpc5

/-!
# The demultiplexing daemon (C65–C68, C74–C78)
-/

namespace Mctp

open Spec

variable {W β π E : Type}

/-! ## A scripted operating system, for witnesses -/

namespace DaemonDemo

/-- Results of the calls still to come; when a list is used up, calls fail. -/
structure Script where
  accepts : List Int := []
  sends   : List Int := []
  reads   : List (Int × Byte) := []
  peeks   : List Int := []
  recvs   : List (List Byte) := []
  deriving DecidableEq

def net : Net Script where
  accept w := (w.accepts.headD (-1), { w with accepts := w.accepts.tail })
  send w _ _ := (w.sends.headD (-1), { w with sends := w.sends.tail })
  readByte w _ := ((w.reads.headD (-1, 0)).1, (w.reads.headD (-1, 0)).2, { w with reads := w.reads.tail })
  peek w _ := (w.peeks.headD (-1), { w with peeks := w.peeks.tail })
  recv w _ _ := ((w.recvs.headD []).length, w.recvs.headD [], { w with recvs := w.recvs.tail })
  grow w := (true, w)
  junk w := (false, w)

/-- A binding without a device. -/
def proc : Unit → Core Unit → Res (Core Unit × List Event × Int) := fun _ c => .ok (c, [], 0)

def start (w : Script) : Daemon Script Unit := Daemon.init w Demo.core 8

/-- poll() reports the client entries at these positions. -/
def clients (is : List Nat) : Ready Unit := { binding := none, client := fun i => is.contains i, sock := false }

/-- poll() reports a connection. -/
def connect : Ready Unit := { binding := none, client := fun _ => false, sock := true }

/-- The record of a history. -/
def logOf (w : Script) (rs : List (Ready Unit)) : Option (List SockEv) :=
  match (start w).run net Demo.ops proc rs with
  | .ok d => some d.log
  | .error _ => none

theorem logOf_ok {w : Script} {rs : List (Ready Unit)} {l : List SockEv} (h : logOf w rs = some l) :
    ∃ d, (start w).run net Demo.ops proc rs = .ok d ∧ d.log = l := by
  unfold logOf at h
  split at h
  · rename_i d hd; exact ⟨d, hd, Option.some.inj h⟩
  · cases h

end DaemonDemo

/-! ## C65: forwarding by type -/

/-- **C65**, for every record of the daemon: a message is sent only to a client that is connected, and whose
registered type is the type of the message. -/
theorem C65_only_partial {net : Net W} {ops : Ops β} {proc : π → Core β → Res (Core β × List Event × Int)} {rs : List (Ready π)}
    {w : W} {core : Core β} {eid : Int} {d : Daemon W β} (h : (Daemon.init w core eid).run net ops proc rs = .ok d)
    (hfresh : Each FreshAccept [] d.log) {pre post : List SockEv} {fd : Int} {bs : List Byte} {rc : Int}
    (hl : d.log = pre ++ .sent fd bs rc :: post) :
    (∃ src x rest, bs = src :: typeOf fd pre :: x :: rest) ∧ acceptedOn fd pre = closedOn fd pre + 1 :=
  Each.split ((daemonRun_inv (DInv.init net w core eid) h).typed hfresh).2 hl fd bs rc rfl

/-- **C65**, the other direction: in every state the daemon reaches, a message of at least two bytes is sent, after the EID of its
source, exactly once to each connected client whose registered type is the type of the message, and nothing else is sent. -/
theorem C65_forward_partial {net : Net W} {ops : Ops β} {proc : π → Core β → Res (Core β × List Event × Int)} {rs : List (Ready π)}
    {w : W} {core : Core β} {eid : Int} {d : Daemon W β} (h : (Daemon.init w core eid).run net ops proc rs = .ok d)
    (hfresh : Each FreshAccept [] d.log) (src type x : Byte) (rest : List Byte) :
    ∃ l, (d.rxMessage net src (type :: x :: rest)).log = d.log ++ l ∧
      (∀ s ∈ sendsIn l, s.2 = src :: type :: x :: rest) ∧
      ∀ fd, 0 ≤ fd → (sendsIn l).count (fd, src :: type :: x :: rest) =
        if acceptedOn fd d.log = closedOn fd d.log + 1 ∧ typeOf fd d.log = type then 1 else 0 := by
  have hI := daemonRun_inv (DInv.init net w core eid) h
  obtain ⟨ht, -⟩ := hI.typed hfresh
  obtain ⟨l, hE, hs, -⟩ := rxMessage_effect net d src (type :: x :: rest)
  refine ⟨l, hE.log, ?_, fun fd hfd => ?_⟩
  · rw [hs]
    intro s hm
    obtain ⟨c, -, rfl⟩ := List.mem_map.mp hm
    rfl
  · rw [hs]
    have hw : (wanted d.clients src (type :: x :: rest)).count (fd, src :: type :: x :: rest) =
        ((d.clients.filter (fun c => c.type = type)).map (·.sock)).count fd := by
      unfold wanted
      simp only [List.count_eq_countP, List.countP_map]
      congr 1
      funext c
      by_cases hcf : c.sock = fd
      · simp [hcf]
      · rw [Bool.eq_iff_iff]; simp [hcf]
    rw [hw]
    split
    · rename_i hcond
      have hc := hI.count fd hfd
      have hpos : 0 < (d.clients.map (·.sock)).count fd := by omega
      obtain ⟨c, hcm, hcs⟩ := List.mem_map.mp (List.count_pos_iff.mp hpos)
      refine Nat.le_antisymm ?_ ?_
      · refine Nat.le_trans (((List.filter_sublist (p := fun c : Client => decide (c.type = type))).map _).count_le fd) ?_
        exact List.nodup_iff_count.mp ht.nodup fd
      · refine List.count_pos_iff.mpr (List.mem_map.mpr ⟨c, List.mem_filter.mpr ⟨hcm, ?_⟩, hcs⟩)
        rw [ht.types c hcm, hcs, hcond.2]
        simp
    · rename_i hcond
      rw [List.count_eq_zero]
      intro hm
      obtain ⟨c, hc, hcs⟩ := List.mem_map.mp hm
      obtain ⟨hcm, hct⟩ := List.mem_filter.mp hc
      refine hcond ⟨hcs ▸ ht.conn c hcm, ?_⟩
      rw [← hcs, ← ht.types c hcm]
      simpa using hct

/-- **C65** Shorter messages are not passed on. -/
theorem C65_short (net : Net W) (d : Daemon W β) (src : Byte) {msg : List Byte} (hm : msg.length < 2) :
    (d.rxMessage net src msg).log = d.log ++ [.arrived src msg] := by
  match msg with
  | [] => rfl
  | [x] => rfl
  | _ :: _ :: _ => simp at hm; omega

/-- **C65** is false of the code as it is stated: a message of type 0 (MCTP control) is sent to clients that have not registered
for anything. -/
theorem C65_refuted : ∃ (w : DaemonDemo.Script) (rs : List (Ready Unit)) (d : _) (pre post : List SockEv),
    (DaemonDemo.start w).run DaemonDemo.net Demo.ops DaemonDemo.proc rs = .ok d ∧
    d.log = pre ++ .sent 11 [8, 0, 7] 3 :: post ∧ (∀ rc b, SockEv.readByte 11 rc b ∉ d.log) := by
  obtain ⟨d, h1, h2⟩ := DaemonDemo.logOf_ok (w := { accepts := [10, 11], reads := [(1, 5)], peeks := [3], recvs := [[8, 0, 7]], sends := [3] })
    (rs := [DaemonDemo.connect, DaemonDemo.connect, DaemonDemo.clients [0], DaemonDemo.clients [0]])
    (l := [.polled [] [], .accepted 10, .polled [10] [], .accepted 11, .polled [10, 11] [10], .readByte 10 1 5, .polled [10, 11] [10],
      .peeked 10 3, .received 10 3 [8, 0, 7], .arrived 8 [0, 7], .sent 11 [8, 0, 7] 3]) (by decide +kernel)
  refine ⟨_, _, d, [.polled [] [], .accepted 10, .polled [10] [], .accepted 11, .polled [10, 11] [10], .readByte 10 1 5,
    .polled [10, 11] [10], .peeked 10 3, .received 10 3 [8, 0, 7], .arrived 8 [0, 7]], [], h1, by rw [h2]; rfl, ?_⟩
  intro rc b
  rw [h2]
  simp

/-- The hypotheses are met: two clients register for type 5, and one sends a message of that type to the local EID. -/
example : ∃ d, (DaemonDemo.start { accepts := [10, 11], reads := [(1, 5), (1, 5)], peeks := [3], recvs := [[8, 5, 7]], sends := [3, 3] }).run
    DaemonDemo.net Demo.ops DaemonDemo.proc [DaemonDemo.connect, DaemonDemo.connect, DaemonDemo.clients [0, 1], DaemonDemo.clients [0]] = .ok d ∧
    sendsIn d.log = [(10, [8, 5, 7]), (11, [8, 5, 7])] ∧ typeOf 10 d.log = 5 ∧ Each FreshAccept [] d.log := by
  obtain ⟨d, h1, h2⟩ := DaemonDemo.logOf_ok (w := { accepts := [10, 11], reads := [(1, 5), (1, 5)], peeks := [3], recvs := [[8, 5, 7]], sends := [3, 3] })
    (rs := [DaemonDemo.connect, DaemonDemo.connect, DaemonDemo.clients [0, 1], DaemonDemo.clients [0]])
    (l := [.polled [] [], .accepted 10, .polled [10] [], .accepted 11, .polled [10, 11] [10, 11], .readByte 10 1 5, .readByte 11 1 5,
      .polled [10, 11] [10], .peeked 10 3, .received 10 3 [8, 5, 7], .arrived 8 [5, 7], .sent 10 [8, 5, 7] 3, .sent 11 [8, 5, 7] 3]) (by decide +kernel)
  refine ⟨d, h1, by rw [h2]; decide, by rw [h2]; decide, ?_⟩
  rw [h2]
  simp only [Each, FreshAccept, and_true]
  refine ⟨?_, ?_, ?_, ?_, ?_, ?_, ?_, ?_, ?_, ?_, ?_, ?_, ?_⟩ <;> intro fd h0 _ <;> cases h0 <;> rfl

/-! ## C66: removal of clients -/

/-- **C66**, as far as it is true: a removal pass keeps every active client, in order, closes exactly the sockets of the
clients it removes, which are inactive, and removes at least half of the inactive ones, and all of them unless two
of them are neighbours. -/
theorem C66_removal_partial (d : Daemon W β) :
    ∃ closed : List Int, d.removeInactive.log = d.log ++ closed.map .closed ∧
      d.removeInactive.clients.filter (·.active) = d.clients.filter (·.active) ∧
      d.removeInactive.clients.Sublist d.clients ∧
      closed.Sublist ((d.clients.filter (fun c => !c.active)).map (·.sock)) ∧
      (∀ fd, closed.count fd + (d.removeInactive.clients.map (·.sock)).count fd = (d.clients.map (·.sock)).count fd) ∧
      2 * (d.removeInactive.clients.filter (fun c => !c.active)).length ≤ (d.clients.filter (fun c => !c.active)).length ∧
      (NoTwoInactive d.clients → ∀ c ∈ d.removeInactive.clients, c.active = true) := by
  have hp := prune_ok d.clients
  have hl : removeLoop 0 d.clients = prune d.clients := removeLoop_prune _
  refine ⟨(prune d.clients).2, by simp only [Daemon.removeInactive, hl], ?_⟩
  simp only [Daemon.removeInactive, hl]
  exact ⟨hp.active, hp.sub, hp.dead, hp.count, hp.half, hp.none⟩

/-- **C66** is false of the code: of two neighbours that are inactive, the second stays. -/
theorem C66_refuted : ∃ d : Daemon DaemonDemo.Script Unit, ∃ c ∈ d.removeInactive.clients, c.active = false := by
  refine ⟨{ DaemonDemo.start {} with clients := [⟨false, 10, 5⟩, ⟨false, 11, 5⟩, ⟨true, 12, 5⟩] }, ⟨false, 11, 5⟩, ?_, rfl⟩
  rw [show (Daemon.removeInactive _).clients = _ from congrArg Prod.fst (removeLoop_prune _)]
  decide

/-- It happens: two clients of the same type break, a message for both arrives, and one of them stays connected. -/
theorem C66_refuted_history : ∃ (w : DaemonDemo.Script) (rs : List (Ready Unit)) (d : _),
    (DaemonDemo.start w).run DaemonDemo.net Demo.ops DaemonDemo.proc rs = .ok d ∧
    .sent 11 [8, 5, 7] (-1) ∈ d.log ∧ SockEv.closed 11 ∉ d.log ∧ .closed 10 ∈ d.log := by
  obtain ⟨d, h1, h2⟩ := DaemonDemo.logOf_ok
    (w := { accepts := [10, 11], reads := [(1, 5), (1, 5)], peeks := [3], recvs := [[8, 5, 7]], sends := [-1, -1] })
    (rs := [DaemonDemo.connect, DaemonDemo.connect, DaemonDemo.clients [0, 1], DaemonDemo.clients [0]])
    (l := [.polled [] [], .accepted 10, .polled [10] [], .accepted 11, .polled [10, 11] [10, 11], .readByte 10 1 5, .readByte 11 1 5,
      .polled [10, 11] [10], .peeked 10 3, .received 10 3 [8, 5, 7], .arrived 8 [5, 7], .sent 10 [8, 5, 7] (-1), .sent 11 [8, 5, 7] (-1), .closed 10])
    (by decide +kernel)
  exact ⟨_, _, d, h1, by rw [h2]; decide, by rw [h2]; decide, by rw [h2]; decide⟩

/-! ## C67: messages from clients -/

theorem takeMessage_route {net : Net W} {ops : Ops β} {d d' : Daemon W β} {i : Nat} {c : Client} {rc : Int}
    (h : d.takeMessage net ops i c = .ok (d', rc)) :
    ∃ l, d'.log = d.log ++ l ∧ ∀ fd n eid payload, .received fd n (eid :: payload) ∈ l →
      fd = c.sock ∧ n = (payload.length : Int) + 1 ∧ rc = 0 ∧
      ((eid.toNat : Int) = d.localEid → sendsIn l = wanted d.clients eid payload ∧ d'.core = d.core ∧ d'.evs = d.evs) ∧
      ((eid.toNat : Int) ≠ d.localEid → sendsIn l = [] ∧ d'.clients = d.clients ∧
        ∃ e r, d.core.messageTx ops eid true 0 payload = .ok (d'.core, e, r) ∧ d'.evs = d.evs ++ e) := by
  unfold Daemon.takeMessage at h
  generalize hz : net.recv d.w c.sock d.bufSize = z at h
  obtain ⟨rc2, bs, w3⟩ := z
  dsimp only at h
  have hmlen : ∀ (k : Nat) (b : List Byte), (exactly k b).length = k := by intro k b; simp [exactly]
  generalize hm : exactly (min rc2 ↑d.bufSize).toNat bs = m at h
  have hlen : m.length = (min rc2 ↑d.bufSize).toNat := by rw [← hm]; exact hmlen _ _
  split at h
  · cases h
    refine ⟨[.received c.sock (min rc2 ↑d.bufSize) []], rfl, ?_⟩
    intro fd n eid payload hmem
    simp at hmem
  · rename_i eid payload
    have hn : min rc2 ↑d.bufSize = (payload.length : Int) + 1 := by
      simp only [List.length_cons] at hlen
      omega
    split at h
    · rename_i hloc
      cases h
      obtain ⟨l3, k1, k2, k3, k4, k5, k6, k7⟩ := rxMessage_effect net
        (Daemon.mk w3 (d.log ++ [.received c.sock (min rc2 ↑d.bufSize) (eid :: payload)]) d.core d.evs d.localEid d.bufSize
          d.clients d.pollfds d.changed) eid payload
      refine ⟨.received c.sock (min rc2 ↑d.bufSize) (eid :: payload) :: l3, by rw [k1.log]; simp, ?_⟩
      intro fd n eid' payload' hmem
      rcases List.mem_cons.mp hmem with he | hmem
      · cases he
        refine ⟨rfl, hn, rfl, fun _ => ⟨?_, k5, k6⟩, fun hx => absurd hloc hx⟩
        have : sendsIn (.received c.sock (min rc2 ↑d.bufSize) (eid :: payload) :: l3) = sendsIn l3 := rfl
        rw [this, k2]
      · have := k3 _ hmem; cases this
    · rename_i hloc
      obtain ⟨d3, h3, h⟩ := Res.bind_eq_ok.mp h
      cases h
      obtain ⟨c3, e3, rc3, k1, rfl⟩ := txMessage_ok h3
      refine ⟨[.received c.sock (min rc2 ↑d.bufSize) (eid :: payload)], rfl, ?_⟩
      intro fd n eid' payload' hmem
      cases List.mem_singleton.mp hmem
      exact ⟨rfl, hn, rfl, fun hx => absurd hx hloc, fun _ => ⟨rfl, rfl, e3, rc3, k1, rfl⟩⟩

/-- **C67** A message (EID and payload) read from a registered client: if the EID is the local one, the payload is sent to the local
clients of its type, as a message from the local EID, and the core is not involved.  Otherwise nothing is sent to clients,
and the payload is transmitted by the core to that EID, as the tag owner, with tag 0. -/
theorem C67_route {net : Net W} {ops : Ops β} {d d' : Daemon W β} {i : Nat} {c : Client} {rc : Int}
    (hc : d.clients[i]? = some c) (hreg : c.type ≠ 0) (h : d.clientProcessRecv net ops i = .ok (d', rc)) :
    ∃ l, d'.log = d.log ++ l ∧ ∀ fd n eid payload, .received fd n (eid :: payload) ∈ l →
      fd = c.sock ∧ n = (payload.length : Int) + 1 ∧ rc = 0 ∧
      ((eid.toNat : Int) = d.localEid → sendsIn l = wanted d.clients eid payload ∧ d'.core = d.core ∧ d'.evs = d.evs) ∧
      ((eid.toNat : Int) ≠ d.localEid → sendsIn l = [] ∧ d'.clients = d.clients ∧
        ∃ e r, d.core.messageTx ops eid true 0 payload = .ok (d'.core, e, r) ∧ d'.evs = d.evs ++ e) := by
  unfold Daemon.clientProcessRecv at h
  split at h
  · rename_i h0; rw [hc] at h0; cases h0
  rename_i c' h0
  rw [hc] at h0
  cases h0
  rw [if_neg hreg] at h
  generalize hx : net.peek d.w c.sock = x at h
  obtain ⟨len, w⟩ := x
  dsimp only at h
  split at h
  · cases h
    refine ⟨_, rfl, ?_⟩
    intro fd n eid payload hmem; simp at hmem
  · generalize hy : (if decide (len.toNat > d.bufSize) = true then net.grow w else (true, w)) = y at h
    obtain ⟨ok, w2⟩ := y
    dsimp only at h
    generalize hq : (if decide (len.toNat > d.bufSize) = true then [SockEv.resized c.sock ok] else []) = q at h
    have hq1 : ∀ e ∈ q, e = .resized c.sock ok := by
      intro e he
      rw [← hq] at he
      split at he
      · exact List.mem_singleton.mp he
      · cases he
    split at h
    · cases h
      refine ⟨[.peeked c.sock len] ++ q, by simp [Daemon.setClient], ?_⟩
      intro fd n eid payload hmem
      rcases List.mem_append.mp hmem with he | he
      · simp at he
      · have := hq1 _ he; cases this
    · generalize hd1 : (if decide (len.toNat > d.bufSize) = true then
          (Daemon.mk w2 (d.log ++ [.peeked c.sock len] ++ q) d.core d.evs d.localEid len.toNat d.clients d.pollfds d.changed)
        else (Daemon.mk w2 (d.log ++ [.peeked c.sock len] ++ q) d.core d.evs d.localEid d.bufSize d.clients d.pollfds d.changed)) = d1 at h
      have e : d1.log = d.log ++ ([.peeked c.sock len] ++ q) ∧ d1.localEid = d.localEid ∧
          d1.clients = d.clients ∧ d1.core = d.core ∧ d1.evs = d.evs := by
        rw [← hd1]
        split <;> exact ⟨List.append_assoc .., rfl, rfl, rfl, rfl⟩
      clear hd1
      obtain ⟨e1, e2, e3, e4, e5⟩ := e
      obtain ⟨l, hl, hr⟩ := takeMessage_route h
      refine ⟨[.peeked c.sock len] ++ q ++ l, by rw [hl, e1, List.append_assoc], ?_⟩
      have hsnd : sendsIn ([.peeked c.sock len] ++ q ++ l) = sendsIn l := by
        unfold sendsIn
        rw [List.filterMap_append, List.filterMap_append]
        have : q.filterMap sendOf = [] := by
          rw [List.filterMap_eq_nil_iff]
          intro e he; rw [hq1 e he]; rfl
        rw [this]; rfl
      intro fd n eid payload hmem
      rw [hsnd, ← e2, ← e3, ← e4, ← e5]
      rcases List.mem_append.mp hmem with he | he
      · rcases List.mem_append.mp he with he | he
        · simp at he
        · have := hq1 _ he; cases this
      · exact hr fd n eid payload he

/-- The hypotheses are met: a client's message to EID 9 is transmitted. -/
example : ∃ d d' : Daemon DaemonDemo.Script Unit, d.clients[0]? = some ⟨true, 10, 5⟩ ∧
    d.clientProcessRecv DaemonDemo.net Demo.ops 0 = .ok (d', 0) ∧ .received 10 3 [9, 5, 7] ∈ d'.log ∧
    d'.evs = [.tx 0 [1, 9, 8, 0xc8, 5, 7] 0 false] := by
  let d : Daemon DaemonDemo.Script Unit := { DaemonDemo.start { peeks := [3], recvs := [[9, 5, 7]] } with clients := [⟨true, 10, 5⟩] }
  let look : Res (Daemon DaemonDemo.Script Unit × Int) → Option (Int × List SockEv × List Event) := fun r =>
    match r with
    | .ok (d, rc) => some (rc, d.log, d.evs)
    | .error _ => none
  have h : look (d.clientProcessRecv DaemonDemo.net Demo.ops 0) =
      some (0, [.peeked 10 3, .received 10 3 [9, 5, 7]], [.tx 0 [1, 9, 8, 0xc8, 5, 7] 0 false]) := by decide +kernel
  generalize hg : d.clientProcessRecv DaemonDemo.net Demo.ops 0 = g at h
  match g, h with
  | .ok (d', rc), h =>
    simp only [look, Option.some.injEq, Prod.mk.injEq] at h
    obtain ⟨rfl, h2, h3⟩ := h
    exact ⟨d, d', rfl, hg, by rw [h2]; decide, h3⟩

/-! ## C68: what the daemon waits for -/

/-- **C68**, as far as it is true: as long as no delivery has failed (and the uninitialised variable of `rx_message` is read as
false), whenever the daemon waits for events it watches each descriptor as often as a connection was accepted on it and not
closed. -/
theorem C68_polls_partial {net : Net W} {ops : Ops β} {proc : π → Core β → Res (Core β × List Event × Int)} {rs : List (Ready π)}
    {w : W} {core : Core β} {eid : Int} {d : Daemon W β} (h : (Daemon.init w core eid).run net ops proc rs = .ok d)
    (hjunk : ∀ w, (net.junk w).1 = false) {pre post : List SockEv} {fds rep : List Int}
    (hl : d.log = pre ++ .polled fds rep :: post) (hgood : NoFailedSend pre) {fd : Int} (hfd : 0 ≤ fd) :
    fds.count fd + closedOn fd pre = acceptedOn fd pre :=
  Each.split ((daemonRun_inv (DInv.init net w core eid) h).happy hjunk).2.1 hl hgood fds rep rfl fd hfd

/-- **C68** is false of the code: after a failed delivery the poll array is not rebuilt.  Descriptor 10 is watched although it is closed,
and the connected client on descriptor 11 is not. -/
theorem C68_refuted : ∃ (w : DaemonDemo.Script) (rs : List (Ready Unit)) (d : _) (pre : List SockEv),
    (DaemonDemo.start w).run DaemonDemo.net Demo.ops DaemonDemo.proc rs = .ok d ∧
    d.log = pre ++ [.polled [10] []] ∧ acceptedOn 10 pre = closedOn 10 pre ∧ acceptedOn 11 pre = 1 ∧ closedOn 11 pre = 0 := by
  obtain ⟨d, h1, h2⟩ := DaemonDemo.logOf_ok
    (w := { accepts := [10, 11], reads := [(1, 5), (1, 6)], peeks := [3], recvs := [[8, 5, 7]], sends := [-1] })
    (rs := [DaemonDemo.connect, DaemonDemo.connect, DaemonDemo.clients [0, 1], DaemonDemo.clients [1], DaemonDemo.clients []])
    (l := [.polled [] [], .accepted 10, .polled [10] [], .accepted 11, .polled [10, 11] [10, 11], .readByte 10 1 5, .readByte 11 1 6,
      .polled [10, 11] [11], .peeked 11 3, .received 11 3 [8, 5, 7], .arrived 8 [5, 7], .sent 10 [8, 5, 7] (-1), .closed 10, .polled [10] []])
    (by decide +kernel)
  exact ⟨_, _, d, [.polled [] [], .accepted 10, .polled [10] [], .accepted 11, .polled [10, 11] [10, 11], .readByte 10 1 5, .readByte 11 1 6,
      .polled [10, 11] [11], .peeked 11 3, .received 11 3 [8, 5, 7], .arrived 8 [5, 7], .sent 10 [8, 5, 7] (-1), .closed 10], h1, by rw [h2]; rfl, by decide, by decide, by decide⟩

/-- The hypotheses are met: two clients connect, one leaves, and the other is still watched. -/
example : ∃ d pre, (DaemonDemo.start { accepts := [10, 11], reads := [(1, 5)], peeks := [-1] }).run
    DaemonDemo.net Demo.ops DaemonDemo.proc [DaemonDemo.connect, DaemonDemo.connect, DaemonDemo.clients [0], DaemonDemo.clients [0], DaemonDemo.clients []] = .ok d ∧
    d.log = pre ++ [.polled [11] []] ∧ NoFailedSend pre ∧ closedOn 10 pre = 1 := by
  obtain ⟨d, h1, h2⟩ := DaemonDemo.logOf_ok (w := { accepts := [10, 11], reads := [(1, 5)], peeks := [-1] })
    (rs := [DaemonDemo.connect, DaemonDemo.connect, DaemonDemo.clients [0], DaemonDemo.clients [0], DaemonDemo.clients []])
    (l := [.polled [] [], .accepted 10, .polled [10] [], .accepted 11, .polled [10, 11] [10], .readByte 10 1 5, .polled [10, 11] [10],
      .peeked 10 (-1), .closed 10, .polled [11] []]) (by decide +kernel)
  refine ⟨d, [.polled [] [], .accepted 10, .polled [10] [], .accepted 11, .polled [10, 11] [10], .readByte 10 1 5, .polled [10, 11] [10],
      .peeked 10 (-1), .closed 10], h1, by rw [h2]; rfl, ?_, by decide⟩
  simp [NoFailedSend, failedSend]

/-! ## C74: nothing a client does crashes the daemon -/

/-- The cores of a serial endpoint. -/
def SerialSafe (eid : Byte) (base : List Nat) (c : Core SerialSt) : Prop := ∃ leak evs r, SerInv eid base leak evs r c

theorem serialSafe_step {eid : Byte} {base : List Nat} {c : Core SerialSt} (h : SerialSafe eid base c) (op : SerialOp)
    (hop : SerialHist [op]) : ∃ c' e rc, c.serialStep op = .ok (c', e, rc) ∧ SerialSafe eid base c' := by
  obtain ⟨leak, evs, r, hi⟩ := h
  obtain ⟨c', log, leak', h1, h2, h3, -⟩ := serialRun_core hi hop
  unfold Core.serialRun at h1
  obtain ⟨⟨c1, e, rc⟩, h4, h1⟩ := Res.bind_eq_ok.mp h1
  obtain ⟨⟨c2, log2⟩, h5, h1⟩ := Res.bind_eq_ok.mp h1
  simp only [Core.serialRun, Except.ok.injEq, Prod.mk.injEq] at h5 h1
  obtain ⟨rfl, rfl⟩ := h5
  obtain ⟨rfl, -⟩ := h1
  exact ⟨c1, e, rc, h4, _, _, _, h3⟩

theorem serial_safeCores (eid : Byte) (base : List Nat) : SafeCores serialOps (fun res c => c.serialRead 0 res) (SerialSafe eid base) := by
  refine ⟨fun c hc dest msg => ?_, fun c hc x => ?_⟩
  · obtain ⟨c', e, rc, h1, h2⟩ := serialSafe_step hc (.core (.send dest true 0 msg)) (by
      intro op hop; simp only [List.mem_singleton, SerialOp.core.injEq] at hop; subst hop; trivial)
    exact ⟨c', e, rc, h1, h2⟩
  · cases x with
    | none => exact ⟨c, [], -1, rfl, hc⟩
    | some bs =>
      obtain ⟨c', e, rc, h1, h2⟩ := serialSafe_step hc (.rx bs) (by intro op hop; simp at hop)
      refine ⟨c', e, rc, ?_, h2⟩
      exact h1

/-- **C74** With the serial binding, for every behaviour of the clients, of the operating system and of the serial device: the daemon does not
crash (all accesses to its arrays and to the library's memory are valid, and no assertion fails). -/
theorem C74_serial {eid : Byte} {mx : Nat} {wr : Nat → List Byte → Int} {mem : Mem} {c0 : Core SerialSt}
    (h : SerialEndpoint eid mx wr mem c0) (hcl : Clean mem) (hw : WrOk wr) (net : Net W) (w : W) (localEid : Int)
    (rs : List (Ready (Option (List Byte)))) :
    ∃ d, (Daemon.init w c0 localEid).run net serialOps (fun res c => c.serialRead 0 res) rs = .ok d := by
  have hs : SafeCores serialOps (fun res c => c.serialRead 0 res) (SerialSafe eid mem.live) := serial_safeCores eid mem.live
  have h0 : SerialSafe eid mem.live c0 := ⟨[], [], .hunt, h.serInv hcl hw⟩
  obtain ⟨c', e, rc, h1, h2⟩ := serialSafe_step h0 (.core (.setRx true)) (by
    intro op hop; simp only [List.mem_singleton, SerialOp.core.injEq] at hop; subst hop; trivial)
  simp only [Core.serialStep, Core.step, Except.ok.injEq, Prod.mk.injEq] at h1
  obtain ⟨rfl, -⟩ := h1
  obtain ⟨d, hd, -⟩ := daemonRun_total (net := net) hs (rs := rs) (Daemon.init w c0 localEid) (DInv.init net w c0 localEid) h2
  exact ⟨d, hd⟩

theorem ast_safe_step {hw : Hw E} {mtu : Nat} {base : List Nat} {c : Core (AstSt E)} (h : ∃ bus, AstMem hw .bmc mtu base c bus) (op : AstOp) :
    ∃ c' e rc, c.astStep hw op = .ok (c', e, rc) ∧ ∃ bus, AstMem hw .bmc mtu base c' bus := by
  obtain ⟨bus, hm⟩ := h
  obtain ⟨c', e, rc, bus', h1, h2⟩ := astStep_total hw hm (by simp) op
  exact ⟨c', e, rc, h1, bus', h2⟩

theorem ast_safeCores (hw : Hw E) (mtu : Nat) (base : List Nat) :
    SafeCores (astOps hw) (fun (_ : Unit) c => c.astPoll hw 0) (fun c => ∃ bus, AstMem hw .bmc mtu base c bus) :=
  ⟨fun _ hc dest msg => ast_safe_step hc (.send dest true 0 msg), fun _ hc _ => ast_safe_step hc .poll⟩

/-- **C74** With the astlpc binding (which the daemon uses on the BMC side), for every behaviour of the clients, of the operating
system, of the host and of the KCS and LPC devices: the daemon does not crash. -/
theorem C74_astlpc {hw : Hw E} {env : E} {eid : Byte} {mx : Nat} {mtu : Nat} {mem : Mem} {c0 : Core (AstSt E)}
    (h : AstEndpoint hw env eid mx .bmc mtu mem c0) (hcl : Clean mem) (net : Net W) (w : W) (localEid : Int)
    (rs : List (Ready Unit)) :
    ∃ d, (Daemon.init w c0 localEid).run net (astOps hw) (fun _ c => c.astPoll hw 0) rs = .ok d := by
  have hs := ast_safeCores hw mtu mem.live
  obtain ⟨c', e, rc, h1, h2⟩ := ast_safe_step (h.mem hcl (by simp)) (.setRx true)
  simp only [Core.astStep, AstOp.core, Core.step, Except.ok.injEq, Prod.mk.injEq] at h1
  obtain ⟨rfl, -⟩ := h1
  obtain ⟨d, hd, -⟩ := daemonRun_total (net := net) hs (rs := rs) (Daemon.init w c0 localEid) (DInv.init net w c0 localEid) h2
  exact ⟨d, hd⟩

/-- The hypotheses are met. -/
example : ∃ c0, SerialEndpoint 8 65536 Demo.slowWrite {} c0 ∧ Clean {} :=
  ⟨_, Demo.serialEndpoint _ _, Demo.clean⟩

/-! ## C75: disconnections -/

/-- **C75** A client is disconnected only for a reason: since it connected, it closed or broke its connection, registered for type 0,
sent a message for which there was no memory, or a delivery to it failed. -/
theorem C75_reason {net : Net W} {ops : Ops β} {proc : π → Core β → Res (Core β × List Event × Int)} {rs : List (Ready π)}
    {w : W} {core : Core β} {eid : Int} {d : Daemon W β} (h : (Daemon.init w core eid).run net ops proc rs = .ok d)
    (hfresh : Each FreshAccept [] d.log) {pre post : List SockEv} {fd : Int} (hl : d.log = pre ++ .closed fd :: post) :
    ∃ e ∈ since fd pre, badOn fd e :=
  Each.split ((daemonRun_inv (DInv.init net w core eid) h).just hfresh).shut hl fd rfl

/-- **C75** The books balance: descriptors are closed at most as often as connections were accepted on them, and the rest are the sockets of
the clients. -/
theorem C75_books {net : Net W} {ops : Ops β} {proc : π → Core β → Res (Core β × List Event × Int)} {rs : List (Ready π)}
    {w : W} {core : Core β} {eid : Int} {d : Daemon W β} (h : (Daemon.init w core eid).run net ops proc rs = .ok d)
    {fd : Int} (hfd : 0 ≤ fd) : (d.clients.map (·.sock)).count fd + closedOn fd d.log = acceptedOn fd d.log :=
  (daemonRun_inv (DInv.init net w core eid) h).count fd hfd

/-! ## C76: reading -/

/-- **C76**, as far as it is true: as long as no delivery has failed (and the uninitialised variable of `rx_message` is read as
false), the daemon reads only from sockets that poll() reported. -/
theorem C76_reads_partial {net : Net W} {ops : Ops β} {proc : π → Core β → Res (Core β × List Event × Int)} {rs : List (Ready π)}
    {w : W} {core : Core β} {eid : Int} {d : Daemon W β} (h : (Daemon.init w core eid).run net ops proc rs = .ok d)
    (hjunk : ∀ w, (net.junk w).1 = false) {pre post : List SockEv} {e : SockEv}
    (hl : d.log = pre ++ e :: post) (hgood : NoFailedSend pre) {fd : Int} (hfd : readFrom e = some fd) :
    fd ∈ lastReported pre :=
  Each.split ((daemonRun_inv (DInv.init net w core eid) h).happy hjunk).2.2 hl hgood fd hfd

/-- **C76** is false of the code: a failed delivery to the first client shifts the other clients, the daemon reads from the client on
descriptor 12, which poll() did not report; the (non-blocking) read has nothing to give, and the client is disconnected,
although it has done nothing wrong. -/
theorem C76_refuted : ∃ (w : DaemonDemo.Script) (rs : List (Ready Unit)) (d : _) (pre post : List SockEv),
    (DaemonDemo.start w).run DaemonDemo.net Demo.ops DaemonDemo.proc rs = .ok d ∧
    d.log = pre ++ .peeked 12 (-1) :: post ∧ lastReported pre = [11] ∧ .closed 12 ∈ post := by
  obtain ⟨d, h1, h2⟩ := DaemonDemo.logOf_ok
    (w := { accepts := [10, 11, 12], reads := [(1, 5), (1, 6), (1, 6)], peeks := [3, -1], recvs := [[8, 5, 7]], sends := [-1] })
    (rs := [DaemonDemo.connect, DaemonDemo.connect, DaemonDemo.connect, DaemonDemo.clients [0, 1, 2], DaemonDemo.clients [1],
      DaemonDemo.clients [1]])
    (l := [.polled [] [], .accepted 10, .polled [10] [], .accepted 11, .polled [10, 11] [], .accepted 12,
      .polled [10, 11, 12] [10, 11, 12], .readByte 10 1 5, .readByte 11 1 6, .readByte 12 1 6,
      .polled [10, 11, 12] [11], .peeked 11 3, .received 11 3 [8, 5, 7], .arrived 8 [5, 7], .sent 10 [8, 5, 7] (-1), .closed 10,
      .polled [10, 11] [11], .peeked 12 (-1), .closed 12])
    (by decide +kernel)
  exact ⟨_, _, d, [.polled [] [], .accepted 10, .polled [10] [], .accepted 11, .polled [10, 11] [], .accepted 12,
      .polled [10, 11, 12] [10, 11, 12], .readByte 10 1 5, .readByte 11 1 6, .readByte 12 1 6,
      .polled [10, 11, 12] [11], .peeked 11 3, .received 11 3 [8, 5, 7], .arrived 8 [5, 7], .sent 10 [8, 5, 7] (-1), .closed 10,
      .polled [10, 11] [11]], [.closed 12], h1, by rw [h2]; rfl, by decide, by decide⟩

/-! ## C77: clients that leave -/

theorem clientLoop_skip {net : Net W} {ops : Ops β} {ready : Nat → Bool} {fuel : Nat} : ∀ {i : Nat} {d : Daemon W β},
    d.clients.length ≤ d.pollfds.length → d.clients.length ≤ i + fuel → (∀ j, i ≤ j → ready j = false) →
    d.clientLoop net ops ready fuel i = .ok d := by
  induction fuel with
  | zero =>
    intro i d _ hf _
    unfold Daemon.clientLoop
    rw [if_neg (by omega)]
  | succ fuel ih =>
    intro i d hl hf hr
    unfold Daemon.clientLoop
    split
    · rw [if_pos (by omega), if_neg (by rw [hr i (Nat.le_refl _)]; simp)]
      exact ih hl (by omega) fun j hj => hr j (by omega)
    · rfl

theorem clientLoop_one {net : Net W} {ops : Ops β} {k : Nat} {fuel : Nat} : ∀ {i : Nat} {d d' : Daemon W β} {rc : Int},
    i ≤ k → k < d.clients.length → d.clients.length ≤ d.pollfds.length → d.clients.length ≤ i + fuel →
    d.clientProcessRecv net ops k = .ok (d', rc) →
    d.clientLoop net ops (fun j => decide (j = k)) fuel i = .ok (if rc ≠ 0 then { d' with changed := true } else d') := by
  induction fuel with
  | zero => intro i d d' rc h1 h2 h3 h4; omega
  | succ fuel ih =>
    intro i d d' rc h1 h2 h3 h4 h5
    unfold Daemon.clientLoop
    rw [if_pos (by omega), if_pos (by omega)]
    by_cases hik : i = k
    · subst hik
      rw [if_pos (by simp), h5]
      obtain ⟨_, _, _, hE, _⟩ := clientProcessRecv_effect h5
      have g1 := hE.len
      have g2 := hE.poll
      refine clientLoop_skip ?_ ?_ fun j hj => by simp; omega
      · split <;> (try dsimp only) <;> rw [g2] <;> omega
      · split <;> (try dsimp only) <;> omega
    · rw [if_neg (by simp [hik])]
      exact ih (by omega) h2 h3 (by omega) h5

/-- The client has closed or broken its connection: the next reads from it say so. -/
def Gone (net : Net W) (d : Daemon W β) (fd : Int) : Prop :=
  (net.peek d.w fd).1 < 0 ∨ ((net.peek d.w fd).1 = 0 ∧ (net.recv (net.peek d.w fd).2 fd d.bufSize).1 ≤ 0)

theorem takeMessage_gone {net : Net W} {ops : Ops β} {d : Daemon W β} {i : Nat} {c : Client}
    (hg : (net.recv d.w c.sock d.bufSize).1 ≤ 0) :
    ∃ d', d.takeMessage net ops i c = .ok (d', -1) ∧ d'.clients = d.clients.set i { c with active := false } := by
  unfold Daemon.takeMessage
  generalize net.recv d.w c.sock d.bufSize = z at hg
  obtain ⟨rc, bs, w3⟩ := z
  dsimp only at hg ⊢
  have h1 : exactly (min rc ↑d.bufSize).toNat bs = [] := by
    have : (min rc ↑d.bufSize).toNat = 0 := by omega
    rw [this]; rfl
  rw [h1]
  exact ⟨_, rfl, rfl⟩

theorem clientProcessRecv_gone {net : Net W} {ops : Ops β} {d : Daemon W β} {i : Nat} {c : Client}
    (hc : d.clients[i]? = some c) (hreg : c.type ≠ 0) (hg : Gone net d c.sock) :
    ∃ d', d.clientProcessRecv net ops i = .ok (d', -1) ∧ d'.clients = d.clients.set i { c with active := false } := by
  unfold Daemon.clientProcessRecv
  split
  · rename_i h0; rw [hc] at h0; cases h0
  rename_i c' h0
  rw [hc] at h0
  cases h0
  rw [if_neg hreg]
  unfold Gone at hg
  generalize net.peek d.w c.sock = x at hg
  obtain ⟨len, w⟩ := x
  dsimp only at hg ⊢
  rcases hg with hg | ⟨rfl, hg⟩
  · rw [if_pos hg]
    exact ⟨_, rfl, rfl⟩
  · have h0 : decide ((0 : Int).toNat > d.bufSize) = false := by simp
    simp only [h0, Bool.false_eq_true, if_false, Bool.not_true, List.append_nil, Int.lt_irrefl]
    exact takeMessage_gone hg

theorem noTwo_active {cs : List Client} (h : ∀ c ∈ cs, c.active = true) : NoTwoInactive cs := by
  induction cs with
  | nil => trivial
  | cons a rest ih =>
    cases rest with
    | nil => trivial
    | cons b r => exact ⟨.inl (h a List.mem_cons_self), ih fun c hc => h c (List.mem_cons_of_mem _ hc)⟩

theorem noTwo_set {cs : List Client} (h : ∀ c ∈ cs, c.active = true) : ∀ (i : Nat) (x : Client), NoTwoInactive (cs.set i x) := by
  induction cs with
  | nil => intro i x; trivial
  | cons a rest ih =>
    intro i x
    have hr : ∀ c ∈ rest, c.active = true := fun c hc => h c (List.mem_cons_of_mem _ hc)
    cases i with
    | zero =>
      rw [List.set_cons_zero]
      cases rest with
      | nil => trivial
      | cons b r => exact ⟨.inr (hr b List.mem_cons_self), noTwo_active hr⟩
    | succ i =>
      rw [List.set_cons_succ]
      have := ih hr i x
      generalize hg : rest.set i x = q at this
      cases q with
      | nil => trivial
      | cons b r => exact ⟨.inl (h a List.mem_cons_self), this⟩

theorem filter_set_inactive {cs : List Client} (h : ∀ c ∈ cs, c.active = true) : ∀ {i : Nat} {x : Client}, x.active = false →
    i < cs.length → (cs.set i x).filter (·.active) = cs.eraseIdx i ∧ (cs.set i x).filter (fun c => !c.active) = [x] := by
  have hall : ∀ {l : List Client}, (∀ c ∈ l, c.active = true) → l.filter (·.active) = l ∧ l.filter (fun c => !c.active) = [] := by
    intro l hl
    refine ⟨List.filter_eq_self.mpr hl, List.filter_eq_nil_iff.mpr fun c hc => by simp [hl c hc]⟩
  induction cs with
  | nil => intro i x _ hi; simp at hi
  | cons a rest ih =>
    intro i x hx hi
    have hr : ∀ c ∈ rest, c.active = true := fun c hc => h c (List.mem_cons_of_mem _ hc)
    have ha := h a List.mem_cons_self
    cases i with
    | zero => simp [List.filter_cons, hx, hall hr]
    | succ i =>
      obtain ⟨h1, h2⟩ := ih hr (i := i) hx (by simpa using hi)
      rw [List.set_cons_succ, List.filter_cons, List.filter_cons, if_pos ha, if_neg (by simp [ha]), h1, h2]
      exact ⟨rfl, rfl⟩

/-- **C77**, as far as it is true: in every state the daemon reaches, if all clients are active and poll() reports only one client, which is
registered and has closed or broken its connection, then the daemon disconnects it, and only it, in this iteration. -/
theorem C77_disconnect_partial {net : Net W} {ops : Ops β} {proc : π → Core β → Res (Core β × List Event × Int)} {rs : List (Ready π)}
    {w : W} {core : Core β} {eid : Int} {d : Daemon W β} (h : (Daemon.init w core eid).run net ops proc rs = .ok d)
    (hact : ∀ c ∈ d.clients, c.active = true) {i : Nat} {c : Client} (hc : d.clients[i]? = some c) (hreg : c.type ≠ 0)
    (hgone : Gone net d c.sock) :
    ∃ d' l, d.run net ops proc [{ binding := none, client := fun j => decide (j = i), sock := false }] = .ok d' ∧
      d'.clients = d.clients.eraseIdx i ∧ d'.log = d.log ++ l ∧ .closed c.sock ∈ l ∧
      ∀ fd, .closed fd ∈ l → fd = c.sock := by
  have hI := daemonRun_inv (DInv.init net w core eid) h
  obtain ⟨hi, hci⟩ := List.getElem?_eq_some_iff.mp hc
  unfold Daemon.run
  let r : Ready π := { binding := none, client := fun j => decide (j = i), sock := false }
  have hpoll : ∃ d1 f p, d.poll r = .ok d1 ∧ d1.clients = d.clients ∧ d1.w = d.w ∧ d1.bufSize = d.bufSize ∧
      d1.clients.length ≤ d1.pollfds.length ∧ d1.log = d.log ++ [.polled f p] := by
    obtain ⟨d1, h1, hP, -, h2⟩ := hI.poll r
    have hlen := hP.len
    have h1' := h1
    unfold Daemon.poll at h1'
    cases hch : d.changed <;> simp only [hch, if_true, Bool.false_eq_true, if_false] at h1'
    all_goals
      split at h1'
      · have h3 := Except.ok.inj h1'
        exact ⟨d1, _, _, h1, h2, (congrArg Daemon.w h3).symm, (congrArg Daemon.bufSize h3).symm, hlen, (congrArg Daemon.log h3).symm⟩
      · cases h1'
  obtain ⟨d1, f, p, h1, h2, h3, h4, h5, h6⟩ := hpoll
  have hgone1 : Gone net d1 c.sock := by unfold Gone; rw [h3, h4]; exact hgone
  obtain ⟨d2, h7, h8⟩ := clientProcessRecv_gone (ops := ops) (d := d1) (i := i) (by rw [h2]; exact hc) hreg hgone1
  obtain ⟨_, l2, hc2, hE, hG, hR, hch⟩ := clientProcessRecv_effect h7
  have hloop := clientLoop_one (fuel := d1.clients.length) (i := 0) (Nat.zero_le i) (by rw [h2]; exact hi) h5 (by omega) h7
  rw [if_pos (by decide)] at hloop
  have hnone : ∀ fd, SockEv.closed fd ∉ l2 := by
    intro fd hm
    have g1 := hE.count fd
    have g2 : d2.clients.map (·.sock) = d1.clients.map (·.sock) := by
      rw [h8, List.map_set, h2]
      refine set_self ?_
      rw [List.getElem?_map, hc]; rfl
    rw [g2] at g1
    have : 0 < closedOn fd l2 := List.countP_pos_iff.mpr ⟨_, hm, by simp⟩
    omega
  have hx : ({ c with active := false } : Client).active = false := rfl
  obtain ⟨k1, k2⟩ := filter_set_inactive hact hx hi
  have hp := prune_ok d2.clients
  have hnt : NoTwoInactive d2.clients := by rw [h8, h2]; exact noTwo_set hact i _
  have hleft : (prune d2.clients).1 = d.clients.eraseIdx i := by
    rw [← k1, ← h2, ← h8, ← hp.active]
    exact (List.filter_eq_self.mpr (hp.none hnt)).symm
  have hclosed : (prune d2.clients).2 = [c.sock] := by
    rw [hp.all hnt, h8, h2, k2]; rfl
  refine ⟨({ d2 with changed := true } : Daemon W β).removeInactive, .polled f p :: (l2 ++ [.closed c.sock]), ?_, ?_, ?_, by simp, ?_⟩
  · show (d.poll r >>= fun d => _) = _
    rw [h1]
    simp only [bind, Except.bind, Daemon.react, Daemon.bindingProcess, r]
    simp only [Bool.false_eq_true, if_false]
    simp only [hloop, if_true, Daemon.run]
    exact ite_self _
  · simp only [Daemon.removeInactive, removeLoop_prune, hleft]
  · simp only [Daemon.removeInactive, removeLoop_prune, hclosed, hE.log, h6]
    simp
  · intro fd hm
    rcases List.mem_cons.mp hm with hm | hm
    · cases hm
    · rcases List.mem_append.mp hm with hm | hm
      · exact absurd hm (hnone fd)
      · cases List.mem_singleton.mp hm; rfl

/-- The first client connects. -/
theorem DaemonDemo.first_client (re : List (Int × Byte)) (rest : List (Ready Unit)) :
    (DaemonDemo.start { accepts := [10], reads := re }).run DaemonDemo.net Demo.ops DaemonDemo.proc (DaemonDemo.connect :: rest) =
    (Daemon.mk (DaemonDemo.Script.mk [] [] re [] []) [.polled [] [], .accepted 10] (Demo.core.setRxAll true) [] 8 4096 [⟨true, 10, 0⟩] []
      true).run DaemonDemo.net Demo.ops DaemonDemo.proc rest := by
  have hr : ∀ d : Daemon DaemonDemo.Script Unit, d.clients = [⟨true, 10, 0⟩] → d.removeInactive = d := by
    intro d hd
    unfold Daemon.removeInactive
    rw [hd, removeLoop_prune]
    show Daemon.mk d.w (d.log ++ []) d.core d.evs d.localEid d.bufSize [⟨true, 10, 0⟩] d.pollfds d.changed = d
    rw [List.append_nil, ← hd]
  show Daemon.run DaemonDemo.net Demo.ops DaemonDemo.proc (Daemon.removeInactive (Daemon.mk (DaemonDemo.Script.mk [] [] re [] [])
    [.polled [] [], .accepted 10] (Demo.core.setRxAll true) [] 8 4096 [⟨true, 10, 0⟩] [] true)) rest = _
  rw [hr _ rfl]

/-- **C77** is false of the code: a client that leaves before it has registered is never disconnected.  However often the daemon polls,
poll() reports its socket, the daemon finds the end of the stream again, and does not close the socket. -/
theorem C77_refuted (n : Nat) : ∃ d, (DaemonDemo.start { accepts := [10], reads := List.replicate n (0, 0) }).run
    DaemonDemo.net Demo.ops DaemonDemo.proc (DaemonDemo.connect :: List.replicate n (DaemonDemo.clients [0])) = .ok d ∧
    d.log.count (.readByte 10 0 0) = n ∧ SockEv.closed 10 ∉ d.log := by
  have step : ∀ (ac se : List Int) (re : List (Int × Byte)) (pe : List Int) (rv : List (List Byte)) (log : List SockEv) (core : Core Unit)
      (evs : List Event) (le : Int) (bs : Nat) (a : Bool) (pf : List Int) (ch : Bool) (rest : List (Ready Unit)), (ch = true ∨ pf = [10]) →
      (Daemon.mk (DaemonDemo.Script.mk ac se ((0, 0) :: re) pe rv) log core evs le bs [⟨a, 10, 0⟩] pf ch).run DaemonDemo.net Demo.ops
        DaemonDemo.proc (DaemonDemo.clients [0] :: rest) =
      (Daemon.mk (DaemonDemo.Script.mk ac se re pe rv) (log ++ [.polled [10] [10]] ++ [.readByte 10 0 0]) core evs le bs [⟨false, 10, 0⟩] [10]
        false).run DaemonDemo.net Demo.ops DaemonDemo.proc rest := by
    intro ac se re pe rv log core evs le bs a pf ch rest h
    rcases h with rfl | rfl
    · rfl
    · cases ch <;> rfl
  have key : ∀ (n : Nat) (ac se : List Int) (pe : List Int) (rv : List (List Byte)) (log : List SockEv) (core : Core Unit)
      (evs : List Event) (le : Int) (bs : Nat) (a : Bool) (pf : List Int) (ch : Bool), (ch = true ∨ pf = [10]) → SockEv.closed 10 ∉ log →
      ∃ d, (Daemon.mk (DaemonDemo.Script.mk ac se (List.replicate n (0, 0)) pe rv) log core evs le bs [⟨a, 10, 0⟩] pf ch).run DaemonDemo.net
        Demo.ops DaemonDemo.proc (List.replicate n (DaemonDemo.clients [0])) = .ok d ∧
        d.log.count (.readByte 10 0 0) = log.count (.readByte 10 0 0) + n ∧ SockEv.closed 10 ∉ d.log := by
    intro n
    induction n with
    | zero => intro ac se pe rv log core evs le bs a pf ch _ hn; exact ⟨_, rfl, rfl, hn⟩
    | succ n ih =>
      intro ac se pe rv log core evs le bs a pf ch h hn
      obtain ⟨d, h1, h2, h3⟩ := ih ac se pe rv (log ++ [.polled [10] [10]] ++ [.readByte 10 0 0]) core evs le bs false [10] false (.inr rfl)
        (by simp [hn])
      refine ⟨d, ?_, ?_, h3⟩
      · rw [List.replicate_succ, List.replicate_succ, step _ _ _ _ _ _ _ _ _ _ _ _ _ _ h]
        exact h1
      · rw [h2]
        simp
        omega
  obtain ⟨d, h1, h2, h3⟩ := key n [] [] [] [] [.polled [] [], .accepted 10] (Demo.core.setRxAll true) [] 8 4096 true [] true (.inl rfl) (by simp)
  refine ⟨d, ?_, by simpa using h2, h3⟩
  rw [← h1]
  exact DaemonDemo.first_client _ _

/-! ## C78: the end of the daemon -/

/-- **C78**, as far as it is true: the daemon leaves its loop only when the binding's `process` function reports an error, or accept() fails. -/
theorem C78_stop_partial {net : Net W} {ops : Ops β} {proc : π → Core β → Res (Core β × List Event × Int)} {d d' : Daemon W β} {r : Ready π}
    (h : d.react net ops proc r = .ok (d', true)) :
    (∃ x c e rc, r.binding = some x ∧ proc x d.core = .ok (c, e, rc) ∧ rc ≠ 0) ∨
    (r.sock = true ∧ ∃ fd, fd < 0 ∧ .accepted fd ∈ d'.log) := by
  unfold Daemon.react at h
  obtain ⟨⟨d1, s1⟩, h1, h⟩ := Res.bind_eq_ok.mp h
  dsimp only at h
  unfold Daemon.bindingProcess at h1
  split at h
  · rename_i hs
    left
    split at h1
    · rename_i x hb
      obtain ⟨⟨c, e, rc⟩, h2, h1⟩ := Res.bind_eq_ok.mp h1
      simp only [Except.ok.injEq, Prod.mk.injEq] at h1
      refine ⟨x, c, e, rc, hb, h2, ?_⟩
      rw [← h1.2] at hs
      simpa using hs
    · simp only [Except.ok.injEq, Prod.mk.injEq] at h1
      rw [← h1.2] at hs; cases hs
  · right
    obtain ⟨d2, h2, h⟩ := Res.bind_eq_ok.mp h
    by_cases hs : r.sock = true
    · refine ⟨hs, ?_⟩
      rw [if_pos hs] at h
      simp only [Daemon.socketProcess] at h
      by_cases hfd : (net.accept d2.w).1 < 0
      · simp only [if_pos hfd] at h
        cases h
        exact ⟨_, hfd, by simp⟩
      · simp only [if_neg hfd] at h
        simp at h
    · rw [if_neg hs] at h
      simp at h

/-- **C78** is false of the code: when accept() fails once (for example because the process has too many open files), the daemon ends,
and all its clients lose their connections. -/
theorem C78_refuted : ∃ (w : DaemonDemo.Script) (d d1 d' : Daemon DaemonDemo.Script Unit),
    (DaemonDemo.start w).run DaemonDemo.net Demo.ops DaemonDemo.proc [DaemonDemo.connect] = .ok d ∧ d.clients = [⟨true, 10, 0⟩] ∧
    d.poll DaemonDemo.connect = .ok d1 ∧ d1.react DaemonDemo.net Demo.ops DaemonDemo.proc DaemonDemo.connect = .ok (d', true) :=
  ⟨{ accepts := [10] }, _, _, _, DaemonDemo.first_client [] [], rfl, rfl, rfl⟩

end Mctp
