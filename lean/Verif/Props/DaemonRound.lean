import Verif.Props.Daemon
import Verif.Proofs.DaemonRound

/-!
# Clients that have failed (C108)
-/

namespace Mctp

open Spec

variable {W β π : Type}

/-- The two specifications of a failure agree. -/
theorem failedOn_iff {fd : Int} {e : SockEv} : failedOn e = some fd ↔ badOn fd e := by
  cases e <;> simp only [failedOn, badOn] <;> try simp
  all_goals first
    | (split <;> rename_i h <;> simp_all)
    | exact and_comm
    | skip

/-- **C108**, as far as it is true: in every history of the daemon in which at most one client at a time has failed, and
none hangs up before it has registered, all clients that have failed are disconnected before the daemon waits again. -/
theorem C108_settled_partial {net : Net W} {ops : Ops β} {proc : π → Core β → Res (Core β × List Event × Int)} {rs : List (Ready π)}
    {w : W} {core : Core β} {eid : Int} {d : Daemon W β} (h : (Daemon.init w core eid).run net ops proc rs = .ok d)
    (hF : Each FreshAccept [] d.log) (hS : Each OneAtATime [] d.log) :
    ∀ pre f r post, d.log = pre ++ .polled f r :: post → stillOpen pre = [] := by
  intro pre f r post he
  have := Rnd.run (Rnd.init w core eid) (DInv.init net w core eid) rfl h hS hF
  rw [he] at this
  have := (Each.append.mp this).2.1
  exact this f r rfl

/-- Clients that fail in every way, one after the other: the hypotheses hold, and each is disconnected. -/
example : ∃ d, (DaemonDemo.start { accepts := [10, 11, 12], reads := [(1, 5), (-1, 0), (1, 0)], peeks := [3], recvs := [[8, 5, 7]], sends := [-1] }).run
    DaemonDemo.net Demo.ops DaemonDemo.proc
    [DaemonDemo.connect, DaemonDemo.clients [0], DaemonDemo.connect, DaemonDemo.clients [1], DaemonDemo.connect, DaemonDemo.clients [1],
      DaemonDemo.clients [0], DaemonDemo.clients []] = .ok d ∧ Each FreshAccept [] d.log ∧ Each OneAtATime [] d.log ∧
    .closed 10 ∈ d.log ∧ .closed 11 ∈ d.log ∧ .closed 12 ∈ d.log := by
  obtain ⟨d, h1, h2⟩ := DaemonDemo.logOf_ok
    (w := { accepts := [10, 11, 12], reads := [(1, 5), (-1, 0), (1, 0)], peeks := [3], recvs := [[8, 5, 7]], sends := [-1] })
    (rs := [DaemonDemo.connect, DaemonDemo.clients [0], DaemonDemo.connect, DaemonDemo.clients [1], DaemonDemo.connect, DaemonDemo.clients [1],
      DaemonDemo.clients [0], DaemonDemo.clients []])
    (l := [.polled [] [], .accepted 10, .polled [10] [10], .readByte 10 1 5, .polled [10] [], .accepted 11, .polled [10, 11] [11],
      .readByte 11 (-1) 0, .closed 11, .polled [10] [], .accepted 12, .polled [10, 12] [12], .readByte 12 1 0, .closed 12,
      .polled [10] [10], .peeked 10 3, .received 10 3 [8, 5, 7], .arrived 8 [5, 7], .sent 10 [8, 5, 7] (-1), .closed 10, .polled [] []])
    (by decide +kernel)
  refine ⟨d, h1, ?_, ?_, by rw [h2]; decide, by rw [h2]; decide, by rw [h2]; decide⟩
  · rw [h2]
    simp only [Each, FreshAccept, and_true]
    refine ⟨?_, ?_, ?_, ?_, ?_, ?_, ?_, ?_, ?_, ?_, ?_, ?_, ?_, ?_, ?_, ?_, ?_, ?_, ?_, ?_, ?_⟩ <;> intro fd h0 _ <;> cases h0 <;> rfl
  · rw [h2]
    have hone : ∀ pre e, (stillOpen (pre ++ [e])).all (fun a => (stillOpen (pre ++ [e])).all fun b => a = b) = true →
        (match e with | .readByte _ rc _ => rc ≠ 0 | _ => True) → OneAtATime pre e := by
      intro pre e ha hb
      refine ⟨fun a h1 b h2 => by simpa using List.all_eq_true.mp (List.all_eq_true.mp ha a h1) b h2, ?_⟩
      rintro fd b rfl
      exact hb rfl
    simp only [Each, and_true]
    refine ⟨?_, ?_, ?_, ?_, ?_, ?_, ?_, ?_, ?_, ?_, ?_, ?_, ?_, ?_, ?_, ?_, ?_, ?_, ?_, ?_, ?_⟩ <;> exact hone _ _ (by decide) (by decide)

/-! ### The exceptions -/

namespace HangUp

/-- An operating system on which a client connects, on descriptor 5, and closes its connection at once: every read gives end of file. -/
def net : Net Unit where
  accept _ := (5, ())
  send _ _ _ := (-1, ())
  readByte _ _ := (0, 0, ())
  peek _ _ := (0, ())
  recv _ _ _ := (0, [], ())
  grow _ := (true, ())
  junk _ := (false, ())

def rounds (n : Nat) : List (Ready Unit) := DaemonDemo.connect :: List.replicate n (DaemonDemo.clients [0])

/-- The record of one round. -/
def round : List SockEv := [.polled [5] [5], .readByte 5 0 0]

theorem spin (n : Nat) : ∀ d : Daemon Unit Unit, (∃ a, d.clients = [⟨a, 5, 0⟩]) → (d.changed = true ∨ d.pollfds = [5]) →
    ∃ d', d.run net Demo.ops DaemonDemo.proc (List.replicate n (DaemonDemo.clients [0])) = .ok d' ∧
      d'.log = d.log ++ (List.replicate n round).flatten := by
  induction n with
  | zero => intro d _ _; exact ⟨d, rfl, by simp⟩
  | succ n ih =>
    rintro ⟨w, log, core, evs, le, bs, cs, pf, ch⟩ ⟨a, hcs⟩ hch
    dsimp only at hcs
    subst hcs
    have hstep : ∃ d1 d2 : Daemon Unit Unit, (Daemon.mk w log core evs le bs [⟨a, 5, 0⟩] pf ch).poll (DaemonDemo.clients [0]) = .ok d1 ∧
        d1.react net Demo.ops DaemonDemo.proc (DaemonDemo.clients [0]) = .ok (d2, false) ∧ d2.clients = [⟨false, 5, 0⟩] ∧ d2.pollfds = [5] ∧
        d2.log = log ++ round := by
      refine ⟨⟨w, log ++ [.polled [5] [5]], core, evs, le, bs, [⟨a, 5, 0⟩], [5], false⟩,
        ⟨w, log ++ [.polled [5] [5]] ++ [.readByte 5 0 0], core, evs, le, bs, [⟨false, 5, 0⟩], [5], false⟩, ?_, ?_, rfl, rfl, by simp [round]⟩
      · cases ch with
        | true => rfl
        | false =>
          rcases hch with h | h
          · cases h
          · dsimp only at h; subst h; rfl
      · rfl
    obtain ⟨d1, d2, h1, h2, h3, h4, h5⟩ := hstep
    obtain ⟨d', hd', hl⟩ := ih d2 ⟨_, h3⟩ (.inr h4)
    refine ⟨d', ?_, ?_⟩
    · rw [List.replicate_succ, Daemon.run, h1, Res.bind_ok, h2, Res.bind_ok]
      exact hd'
    · rw [hl, h5, List.replicate_succ]
      simp

end HangUp

/-- **C108** is false of the code: a client that connects and closes its connection before it has registered is never
disconnected, however often poll() reports it and reading from it gives end of file (so that the daemon does nothing else but run around its loop). -/
theorem C108_refuted (n : Nat) : ∃ d, (Daemon.init () Demo.core 8).run HangUp.net Demo.ops DaemonDemo.proc (HangUp.rounds n) = .ok d ∧
    Each FreshAccept [] d.log ∧ d.log.count (.readByte 5 0 0) = n ∧ d.log.count (.polled [5] [5]) = n ∧ SockEv.closed 5 ∉ d.log := by
  have hstep : ∃ d1 d2 : Daemon Unit Unit, (Daemon.init () Demo.core 8).poll DaemonDemo.connect = .ok d1 ∧
      d1.react HangUp.net Demo.ops DaemonDemo.proc DaemonDemo.connect = .ok (d2, false) ∧ d2.clients = [⟨true, 5, 0⟩] ∧ d2.changed = true ∧
      d2.log = [.polled [] [], .accepted 5] := by
    refine ⟨_, _, rfl, rfl, rfl, rfl, rfl⟩
  obtain ⟨d1, d2, h1, h2, h3, h4, h5⟩ := hstep
  obtain ⟨d, hd, hl⟩ := HangUp.spin n d2 ⟨_, h3⟩ (.inl h4)
  rw [h5] at hl
  refine ⟨d, ?_, ?_, ?_, ?_, ?_⟩
  · rw [HangUp.rounds, Daemon.run, h1, Res.bind_ok, h2, Res.bind_ok]
    exact hd
  · rw [hl]
    refine ⟨fun fd h => (nomatch h), fun fd h _ => by cases h; rfl, Each.intro ?_⟩
    intro a e b hab fd he _
    exfalso
    have hab : (List.replicate n HangUp.round).flatten = a ++ e :: b := hab
    have : e ∈ (List.replicate n HangUp.round).flatten := by rw [hab]; simp
    obtain ⟨l, hl, hm⟩ := List.mem_flatten.mp this
    rw [List.eq_of_mem_replicate hl, he] at hm
    simp [HangUp.round] at hm
  · rw [hl, List.count_append]
    clear hd hl
    induction n with
    | zero => rfl
    | succ n ih => rw [List.replicate_succ, List.flatten_cons, List.count_append] ; simp [HangUp.round, List.count_cons] at ih ⊢; omega
  · rw [hl, List.count_append]
    clear hd hl
    induction n with
    | zero => rfl
    | succ n ih => rw [List.replicate_succ, List.flatten_cons, List.count_append] ; simp [HangUp.round, List.count_cons] at ih ⊢; omega
  · rw [hl]
    intro hm
    rcases List.mem_append.mp hm with hm | hm
    · simp at hm
    · obtain ⟨l, hl, hm⟩ := List.mem_flatten.mp hm
      rw [List.eq_of_mem_replicate hl] at hm
      simp [HangUp.round] at hm

/-- It is also false when two neighbours fail in one round: the daemon waits while one of them is still connected. -/
theorem C108_refuted_two : ∃ (w : DaemonDemo.Script) (rs : List (Ready Unit)) (d : _) (pre post : List SockEv) (f r : List Int),
    (DaemonDemo.start w).run DaemonDemo.net Demo.ops DaemonDemo.proc rs = .ok d ∧ Each FreshAccept [] d.log ∧
    (∀ fd b, SockEv.readByte fd 0 b ∉ d.log) ∧ d.log = pre ++ .polled f r :: post ∧ stillOpen pre = [11] := by
  obtain ⟨d, h1, h2⟩ := DaemonDemo.logOf_ok
    (w := { accepts := [10, 11], reads := [(-1, 0), (-1, 0)] })
    (rs := [DaemonDemo.connect, DaemonDemo.connect, DaemonDemo.clients [0, 1], DaemonDemo.clients []])
    (l := [.polled [] [], .accepted 10, .polled [10] [], .accepted 11, .polled [10, 11] [10, 11], .readByte 10 (-1) 0, .readByte 11 (-1) 0,
      .closed 10, .polled [11] []])
    (by decide +kernel)
  refine ⟨_, _, d, [.polled [] [], .accepted 10, .polled [10] [], .accepted 11, .polled [10, 11] [10, 11], .readByte 10 (-1) 0, .readByte 11 (-1) 0,
      .closed 10], [], [11], [], h1, ?_, ?_, h2, by decide⟩
  · rw [h2]
    simp only [Each, FreshAccept, and_true]
    refine ⟨?_, ?_, ?_, ?_, ?_, ?_, ?_, ?_, ?_⟩ <;> intro fd h0 _ <;> cases h0 <;> rfl
  · rw [h2]
    intro fd b hm
    simp at hm

end Mctp
