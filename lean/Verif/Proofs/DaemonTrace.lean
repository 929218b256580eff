import Verif.Proofs.Daemon

/-!
# The daemon as a relay: lemmas
-/

namespace Mctp

open Spec

variable {W β π : Type}

/-! ## Elementary steps -/

/-- Calls that change neither the table of clients nor what is forwarded. -/
def Silent : SockEv → Prop
  | .polled _ _ => True
  | .peeked _ _ => True
  | .resized _ _ => True
  | .accepted fd => fd < 0
  | .readByte _ rc _ => rc ≤ 0
  | .received _ _ bs => bs = []
  | _ => False

/-- The elementary steps of the daemon; the label is the input of the binding. -/
inductive Move (net : Net W) (ops : Ops β) (proc : π → Core β → Res (Core β × List Event × Int)) :
    Daemon W β → Option π → Daemon W β → Prop
  | quiet {d d' : Daemon W β} {l : List SockEv} (hl : d'.log = d.log ++ l) (hq : ∀ e ∈ l, Silent e) (hc : d'.clients = d.clients)
      (hk : d'.core = d.core) (he : d'.evs = d.evs) (hi : d'.localEid = d.localEid) : Move net ops proc d none d'
  | mark {d : Daemon W β} {i : Nat} {c : Client} (hc : d.clients[i]? = some c) :
      Move net ops proc d none (d.setClient i { c with active := false })
  | prune {d : Daemon W β} : Move net ops proc d none d.removeInactive
  | register {d d' : Daemon W β} {i : Nat} {c c' : Client} {rc : Int} (hc : d.clients[i]? = some c) (ht : c.type = 0) (hs : c'.sock = c.sock)
      (hrc : 0 < rc) (hl : d'.log = d.log ++ [.readByte c.sock rc c'.type]) (hcs : d'.clients = d.clients.set i c')
      (hk : d'.core = d.core) (he : d'.evs = d.evs) (hi : d'.localEid = d.localEid) : Move net ops proc d none d'
  | accept {d d' : Daemon W β} {fd : Int} (hfd : 0 ≤ fd) (hl : d'.log = d.log ++ [.accepted fd])
      (hcs : d'.clients = d.clients ++ [⟨true, fd, 0⟩])
      (hk : d'.core = d.core) (he : d'.evs = d.evs) (hi : d'.localEid = d.localEid) : Move net ops proc d none d'
  | home {d d0 : Daemon W β} {fd rc : Int} {eid : Byte} {payload : List Byte} (heid : (eid.toNat : Int) = d.localEid)
      (hl : d0.log = d.log ++ [.received fd rc (eid :: payload)]) (hcs : d0.clients = d.clients)
      (hk : d0.core = d.core) (he : d0.evs = d.evs) (hi : d0.localEid = d.localEid) : Move net ops proc d none (d0.rxMessage net eid payload)
  | send {d d' : Daemon W β} {fd rc rc' : Int} {eid : Byte} {payload : List Byte} {e : List Event} (heid : ¬ (eid.toNat : Int) = d.localEid)
      (hl : d'.log = d.log ++ [.received fd rc (eid :: payload)]) (hcs : d'.clients = d.clients)
      (hk : d.core.messageTx ops eid true 0 payload = .ok (d'.core, e, rc')) (he : d'.evs = d.evs ++ e) (hi : d'.localEid = d.localEid) :
      Move net ops proc d none d'
  | input {d : Daemon W β} {x : π} {c : Core β} {e : List Event} {rc : Int} (hx : proc x d.core = .ok (c, e, rc)) :
      Move net ops proc d (some x) ({ d with core := c, evs := d.evs ++ e }.deliver net e)

/-- Any number of them, with the inputs of the binding. -/
inductive Moves (net : Net W) (ops : Ops β) (proc : π → Core β → Res (Core β × List Event × Int)) :
    Daemon W β → List π → Daemon W β → Prop
  | refl (d : Daemon W β) : Moves net ops proc d [] d
  | tail {d d1 d2 : Daemon W β} {xs : List π} {x : Option π} (h : Moves net ops proc d xs d1) (hm : Move net ops proc d1 x d2) :
      Moves net ops proc d (xs ++ x.toList) d2

variable {net : Net W} {ops : Ops β} {proc : π → Core β → Res (Core β × List Event × Int)}

theorem Moves.trans {d d1 d2 : Daemon W β} {xs ys : List π} (h1 : Moves net ops proc d xs d1) (h2 : Moves net ops proc d1 ys d2) :
    Moves net ops proc d (xs ++ ys) d2 := by
  induction h2 with
  | refl => simpa using h1
  | tail h hm ih => rw [← List.append_assoc]; exact ih.tail hm

theorem Move.one {d d1 : Daemon W β} (h : Move net ops proc d none d1) : Moves net ops proc d [] d1 := by
  simpa using (Moves.refl d).tail h

theorem Moves.then {d d1 d2 : Daemon W β} {xs : List π} (h1 : Moves net ops proc d xs d1) (h2 : Moves net ops proc d1 [] d2) :
    Moves net ops proc d xs d2 := by
  simpa using h1.trans h2

theorem takeMessage_moves {d d' : Daemon W β} {i : Nat} {c : Client} {rc : Int} (hc : d.clients[i]? = some c)
    (h : d.takeMessage net ops i c = .ok (d', rc)) : Moves net ops proc d [] d' := by
  unfold Daemon.takeMessage at h
  generalize net.recv d.w c.sock d.bufSize = r at h
  obtain ⟨n, bs, w⟩ := r
  simp only at h
  generalize exactly (min n (d.bufSize : Int)).toNat bs = msg at h
  cases msg with
  | nil =>
    simp only [Except.ok.injEq, Prod.mk.injEq] at h
    rw [← h.1]
    refine Moves.then (Move.one (Move.quiet (d' := { d with w := w, log := d.log ++ [SockEv.received c.sock (min n ↑d.bufSize) []] })
      rfl (by simp [Silent]) rfl rfl rfl rfl)) (Move.one (Move.mark hc))
  | cons eid payload =>
    simp only at h
    split at h
    · rename_i heid
      simp only [Except.ok.injEq, Prod.mk.injEq] at h
      rw [← h.1]
      exact Move.one (Move.home (d := d) heid rfl rfl rfl rfl rfl)
    · rename_i heid
      obtain ⟨d1, h1, h⟩ := Res.bind_eq_ok.mp h
      simp only [Except.ok.injEq, Prod.mk.injEq] at h
      obtain ⟨co, e, rc', h2, rfl⟩ := txMessage_ok h1
      rw [← h.1]
      exact Move.one (Move.send (d := d) heid rfl rfl h2 rfl rfl)

theorem clientProcessRecv_moves {d d' : Daemon W β} {i : Nat} {rc : Int} (h : d.clientProcessRecv net ops i = .ok (d', rc)) :
    Moves net ops proc d [] d' := by
  unfold Daemon.clientProcessRecv at h
  split at h
  · cases h
  · rename_i c hc
    split at h
    · rename_i ht
      generalize net.readByte d.w c.sock = r at h
      obtain ⟨n, b, w⟩ := r
      simp only at h
      split at h
      · rename_i hn
        simp only [Except.ok.injEq, Prod.mk.injEq] at h
        rw [← h.1]
        exact (Move.one (Move.quiet (d' := { d with w := w, log := d.log ++ [SockEv.readByte c.sock n b] })
          rfl (by simpa [Silent] using hn) rfl rfl rfl rfl)).then (Move.one (Move.mark hc))
      · rename_i hn
        split at h
        · rename_i hb
          simp only [Except.ok.injEq, Prod.mk.injEq] at h
          rw [← h.1]
          exact Move.one (Move.register (c' := { c with active := false }) (rc := n) hc ht rfl (by omega) (by simp [Daemon.setClient, hb, ht]) rfl rfl rfl rfl)
        · simp only [Except.ok.injEq, Prod.mk.injEq] at h
          rw [← h.1]
          exact Move.one (Move.register (c' := { c with type := b }) (rc := n) hc ht rfl (by omega) rfl rfl rfl rfl rfl)
    · generalize net.peek d.w c.sock = r at h
      obtain ⟨len, w⟩ := r
      simp only at h
      split at h
      · simp only [Except.ok.injEq, Prod.mk.injEq] at h
        rw [← h.1]
        exact (Move.one (Move.quiet (d' := { d with w := w, log := d.log ++ [SockEv.peeked c.sock len] })
          rfl (by simp [Silent]) rfl rfl rfl rfl)).then (Move.one (Move.mark hc))
      · have hq : ∀ ok, ∀ e ∈ [SockEv.peeked c.sock len] ++ (if decide (len.toNat > d.bufSize) = true then [SockEv.resized c.sock ok] else []), Silent e := by
          intro ok e he
          rcases List.mem_append.mp he with he | he
          · rw [List.mem_singleton.mp he]; trivial
          · split at he
            · rw [List.mem_singleton.mp he]; trivial
            · cases he
        generalize (if decide (len.toNat > d.bufSize) = true then net.grow w else (true, w)) = r2 at h
        obtain ⟨ok, w2⟩ := r2
        simp only at h
        split at h
        · simp only [Except.ok.injEq, Prod.mk.injEq] at h
          rw [← h.1]
          refine (Move.one (Move.quiet (d' := { d with w := w2, log := d.log ++ [SockEv.peeked c.sock len] ++
            (if decide (len.toNat > d.bufSize) = true then [SockEv.resized c.sock ok] else []) }) (List.append_assoc ..) (hq ok) rfl rfl rfl rfl)).then
            (Move.one (Move.mark hc))
        · refine Moves.then (Move.one (Move.quiet (l := [SockEv.peeked c.sock len] ++
            (if decide (len.toNat > d.bufSize) = true then [SockEv.resized c.sock ok] else [])) ?_ (hq ok) ?_ ?_ ?_ ?_)) (takeMessage_moves ?_ h)
          all_goals (by_cases hx : len.toNat > d.bufSize <;> simp only [hx, decide_true, decide_false, if_true, if_false, Bool.false_eq_true,
            List.append_assoc] <;> first | rfl | exact hc)

theorem clientLoop_moves {ready : Nat → Bool} {fuel i : Nat} {d d' : Daemon W β} (h : d.clientLoop net ops ready fuel i = .ok d') :
    Moves net ops proc d [] d' := by
  induction fuel generalizing i d with
  | zero =>
    unfold Daemon.clientLoop at h
    split at h
    · cases h
    · cases h; exact .refl _
  | succ fuel ih =>
    unfold Daemon.clientLoop at h
    split at h
    · split at h
      · split at h
        · obtain ⟨⟨d1, rc⟩, h1, h⟩ := Res.bind_eq_ok.mp h
          refine (clientProcessRecv_moves h1).then (Moves.then ?_ (ih h))
          split
          · exact Move.one (Move.quiet (l := []) (by simp) (by simp) rfl rfl rfl rfl)
          · exact .refl _
        · exact ih h
      · cases h
    · cases h; exact .refl _

theorem poll_moves {d d' : Daemon W β} {r : Ready π} (h : d.poll r = .ok d') : Moves net ops proc d [] d' := by
  unfold Daemon.poll at h
  generalize hd1 : (if d.changed = true then { d with pollfds := d.clients.map (·.sock), changed := false } else d : Daemon W β) = d1 at h
  have hsame : d1.log = d.log ∧ d1.clients = d.clients ∧ d1.core = d.core ∧ d1.evs = d.evs ∧ d1.localEid = d.localEid := by
    rw [← hd1]; split <;> exact ⟨rfl, rfl, rfl, rfl, rfl⟩
  simp only at h
  split at h
  · simp only [Except.ok.injEq] at h
    rw [← h]
    refine Move.one (Move.quiet (l := [_]) (by rw [← hsame.1]) (by intro e he; rw [List.mem_singleton.mp he]; trivial) hsame.2.1 hsame.2.2.1
      hsame.2.2.2.1 hsame.2.2.2.2)
  · cases h

theorem react_moves {d d' : Daemon W β} {r : Ready π} {stop : Bool} (h : d.react net ops proc r = .ok (d', stop)) :
    Moves net ops proc d r.binding.toList d' ∧
    (stop = true → (∃ x c c' e rc, r.binding = some x ∧ proc x c = .ok (c', e, rc) ∧ rc ≠ 0) ∨ ∃ fd < 0, SockEv.accepted fd ∈ d'.log) := by
  unfold Daemon.react at h
  obtain ⟨⟨d1, s1⟩, h1, h⟩ := Res.bind_eq_ok.mp h
  have hb : Moves net ops proc d r.binding.toList d1 ∧ (s1 = true → ∃ x c c' e rc, r.binding = some x ∧ proc x c = .ok (c', e, rc) ∧ rc ≠ 0) := by
    unfold Daemon.bindingProcess at h1
    split at h1
    · rename_i x hx
      obtain ⟨⟨c, e, rc⟩, h2, h1⟩ := Res.bind_eq_ok.mp h1
      simp only [Except.ok.injEq, Prod.mk.injEq] at h1
      rw [hx, ← h1.1]
      exact ⟨by simpa using (Moves.refl d).tail (Move.input h2), fun hs => ⟨x, _, _, _, _, rfl, h2, by simpa [← h1.2] using hs⟩⟩
    · rename_i hx
      simp only [Except.ok.injEq, Prod.mk.injEq] at h1
      rw [hx, ← h1.1]
      exact ⟨.refl _, fun hs => by simp [← h1.2] at hs⟩
  simp only at h
  split at h
  · rename_i hs
    simp only [Except.ok.injEq, Prod.mk.injEq] at h
    rw [← h.1]
    exact ⟨hb.1, fun _ => .inl (hb.2 hs)⟩
  · obtain ⟨d2, h2, h⟩ := Res.bind_eq_ok.mp h
    have m2 := hb.1.then (clientLoop_moves (proc := proc) h2)
    by_cases hr : r.sock = true
    · simp only [hr, if_true] at h
      unfold Daemon.socketProcess at h
      generalize net.accept d2.w = a at h
      obtain ⟨fd, w⟩ := a
      simp only at h
      by_cases hfd : fd < 0
      · simp only [hfd, if_true] at h
        simp only [Int.reduceNeg, ne_eq, Int.reduceEq, not_false_eq_true, if_true, Except.ok.injEq, Prod.mk.injEq] at h
        rw [← h.1]
        exact ⟨m2.then (Move.one (Move.quiet (l := [_]) rfl (by intro e he; rw [List.mem_singleton.mp he]; exact hfd) rfl rfl rfl rfl)),
          fun _ => .inr ⟨fd, hfd, by simp⟩⟩
      · simp only [hfd, if_false] at h
        simp only [ne_eq, not_true_eq_false, if_false, if_true, Except.ok.injEq, Prod.mk.injEq, Bool.false_eq_true] at h
        rw [← h.1]
        refine ⟨(m2.then (Move.one (Move.accept (d' := { d2 with w := w, log := d2.log ++ [SockEv.accepted fd], clients := d2.clients ++ [⟨true, fd, 0⟩], changed := true }) (Int.not_lt.mp hfd) rfl rfl rfl rfl rfl))).then (Move.one .prune), fun hs => by simp [← h.2] at hs⟩
    · simp only [hr, if_false] at h
      simp only [if_false, Except.ok.injEq, Prod.mk.injEq, Bool.false_eq_true] at h
      rw [← h.1]
      refine ⟨m2.then ?_, fun hs => by simp [← h.2] at hs⟩
      split
      · exact Move.one .prune
      · exact .refl _

/-- What the device of the binding gives. -/
def inputs (rs : List (Ready π)) : List π := rs.filterMap (·.binding)

theorem Move.grows {d d' : Daemon W β} {x : Option π} (h : Move net ops proc d x d') : ∃ l, d'.log = d.log ++ l := by
  cases h with
  | quiet hl => exact ⟨_, hl⟩
  | mark => exact ⟨[], by simp [Daemon.setClient]⟩
  | prune => exact ⟨_, rfl⟩
  | register _ _ _ _ hl => exact ⟨_, hl⟩
  | accept _ hl => exact ⟨_, hl⟩
  | home _ hl =>
    obtain ⟨l, h1, -⟩ := rxMessage_effect net _ _ _
    exact ⟨_, by rw [h1.log, hl, List.append_assoc]⟩
  | send _ hl => exact ⟨_, hl⟩
  | input =>
    obtain ⟨l, h1, -⟩ := deliver_effect net _ _
    exact ⟨l, h1.log⟩

theorem Moves.grows {d d' : Daemon W β} {xs : List π} (h : Moves net ops proc d xs d') : ∃ l, d'.log = d.log ++ l := by
  induction h with
  | refl => exact ⟨[], by simp⟩
  | tail _ hm ih =>
    obtain ⟨l, hl⟩ := ih
    obtain ⟨l', hl'⟩ := hm.grows
    exact ⟨l ++ l', by rw [hl', hl, List.append_assoc]⟩

/-- The run of the daemon in elementary steps.  The binding gets all of the inputs unless it reports an error, or a connection could not be accepted. -/
theorem run_moves {rs : List (Ready π)} : ∀ {d d' : Daemon W β}, d.run net ops proc rs = .ok d' →
    ∃ xs, Moves net ops proc d xs d' ∧ xs <+: inputs rs ∧
      ((∀ x ∈ inputs rs, ∀ c c' e rc, proc x c = .ok (c', e, rc) → rc = 0) → AllAccepted d'.log → xs = inputs rs) := by
  induction rs with
  | nil =>
    intro d d' h
    simp only [Daemon.run, Except.ok.injEq] at h
    subst h
    exact ⟨[], .refl _, List.prefix_refl _, fun _ _ => rfl⟩
  | cons r rest ih =>
    intro d d' h
    unfold Daemon.run at h
    obtain ⟨d1, h1, h⟩ := Res.bind_eq_ok.mp h
    obtain ⟨⟨d2, stop⟩, h2, h⟩ := Res.bind_eq_ok.mp h
    obtain ⟨m2, hstop⟩ := react_moves h2
    have m2 := (poll_moves (proc := proc) h1).trans m2
    rw [List.nil_append] at m2
    have hin : inputs (r :: rest) = r.binding.toList ++ inputs rest := by
      unfold inputs
      cases hb : r.binding <;> simp [hb]
    simp only at h
    split at h
    · rename_i hs
      simp only [Except.ok.injEq] at h
      subst h
      refine ⟨_, m2, by rw [hin]; exact List.prefix_append _ _, fun hgood hacc => ?_⟩
      rcases hstop hs with ⟨x, c, c', e, rc, hx, hp, hrc⟩ | ⟨fd, hfd, hm⟩
      · exact absurd (hgood x (by rw [hin, hx]; simp) c c' e rc hp) hrc
      · have := hacc fd hm; omega
    · obtain ⟨xs, k1, k2, k3⟩ := ih h
      refine ⟨_, m2.trans k1, by rw [hin]; exact (List.prefix_append_right_inj _).mpr k2, fun hgood hacc => ?_⟩
      rw [hin, k3 (fun x hx => hgood x (by rw [hin]; exact List.mem_append_right _ hx)) hacc]

/-! ## The relay -/

theorem relay_append {a b : List SockEv} : ∀ {t : List (Int × Byte)} {due : List (Int × List Byte)},
    Relay t due a → Relay (a.foldl updateTable t) [] b → Relay t due (a ++ b) := by
  induction a with
  | nil => intro t due h1 h2; simp only [Relay] at h1; subst h1; exact h2
  | cons e rest ih =>
    intro t due h1 h2
    cases e with
    | sent fd bs rc => exact ⟨h1.1, ih h1.2 h2⟩
    | arrived src msg => exact ⟨h1.1, ih h1.2 h2⟩
    | _ => exact ⟨h1.1, ih h1.2 h2⟩

theorem relay_owed {log : List SockEv} : ∀ {t : List (Int × Byte)} {due : List (Int × List Byte)},
    Relay t due log → sendsIn log = due ++ owedFrom t log := by
  induction log with
  | nil => intro t due h; simp only [Relay] at h; subst h; rfl
  | cons e rest ih =>
    intro t due h
    cases e with
    | sent fd bs rc =>
      have := ih h.2
      obtain ⟨x, hx⟩ := List.head?_eq_some_iff.mp h.1
      rw [hx] at this ⊢
      simp only [sendsIn, List.filterMap_cons, sendOf, List.cons_append, List.cons.injEq, true_and]
      simp only [sendsIn, List.tail_cons] at this
      rw [this]
      rfl
    | arrived src msg =>
      have := ih h.2
      simp only [sendsIn, List.filterMap_cons, sendOf] at this ⊢
      rw [this, h.1]; rfl
    | _ =>
      have := ih h.2
      simp only [sendsIn, List.filterMap_cons, sendOf] at this ⊢
      rw [this, h.1]; rfl

/-- Sends exactly what is due. -/
theorem relay_sends {t : List (Int × Byte)} {l : List SockEv} : ∀ {due : List (Int × List Byte)}, (∀ e ∈ l, (sendOf e).isSome = true) →
    sendsIn l = due → Relay t due l := by
  induction l with
  | nil => intro due _ h; simp only [Relay]; rw [← h]; rfl
  | cons e rest ih =>
    intro due ha h
    have h0 := ha e List.mem_cons_self
    cases e with
    | sent fd bs rc =>
      subst h
      exact ⟨rfl, ih (fun e he => ha e (List.mem_cons_of_mem _ he)) rfl⟩
    | _ => simp [sendOf] at h0

theorem relay_silent {t : List (Int × Byte)} {l : List SockEv} (h : ∀ e ∈ l, Silent e) : Relay t [] l ∧ l.foldl updateTable t = t := by
  induction l with
  | nil => exact ⟨rfl, rfl⟩
  | cons e rest ih =>
    have h0 := h e List.mem_cons_self
    have hu : updateTable t e = t := by
      cases e <;> first | rfl | exact absurd h0 id | skip
      · exact if_neg (Int.not_le.mpr h0)
      · exact if_neg (Int.not_lt.mpr h0)
    obtain ⟨h1, h2⟩ := ih fun e he => h e (List.mem_cons_of_mem _ he)
    refine ⟨?_, by rw [List.foldl_cons, hu]; exact h2⟩
    cases e <;> first | exact absurd h0 id | exact ⟨rfl, by rw [hu]; exact h1⟩

theorem relay_closed {t : List (Int × Byte)} {l : List Int} :
    Relay t [] (l.map .closed) ∧ (l.map SockEv.closed).foldl updateTable t = t.filter (fun p => p.1 ∉ l) := by
  induction l generalizing t with
  | nil => exact ⟨rfl, (List.filter_eq_self.mpr (by simp)).symm⟩
  | cons x rest ih =>
    obtain ⟨h1, h2⟩ := ih (t := t.filter (fun p => p.1 ≠ x))
    refine ⟨⟨rfl, h1⟩, ?_⟩
    rw [List.map_cons, List.foldl_cons]
    show List.foldl updateTable (t.filter (fun p => p.1 ≠ x)) _ = _
    rw [h2, List.filter_filter]
    congr 1
    funext p
    by_cases hp : p.1 = x <;> simp [hp]

/-- The table of the clients the daemon knows. -/
def tableOf (cs : List Client) : List (Int × Byte) := cs.map fun c => (c.sock, c.type)

theorem tableOf_fst (cs : List Client) : (tableOf cs).map Prod.fst = cs.map (·.sock) := by simp [tableOf]

/-- With different sockets, what a sublist keeps is what its sockets are. -/
theorem sublist_filter {left cs : List Client} (h : left.Sublist cs) (hn : (cs.map (·.sock)).Nodup) :
    left = cs.filter (fun c => c.sock ∈ left.map (·.sock)) := by
  induction h with
  | slnil => rfl
  | @cons l1 l2 a h ih =>
    rw [List.map_cons, List.nodup_cons] at hn
    rw [List.filter_cons, if_neg]
    · exact ih hn.2
    · intro hm
      exact hn.1 ((h.map (·.sock)).subset (of_decide_eq_true hm))
  | @cons_cons l1 l2 a h ih =>
    rw [List.map_cons, List.nodup_cons] at hn
    rw [List.filter_cons, if_pos (by simp)]
    congr 1
    rw [← List.filter_congr (p := fun c => decide (c.sock ∈ l1.map (·.sock)))]
    · exact ih hn.2
    · intro c hc
      have : c.sock ≠ a.sock := fun he => hn.1 (he ▸ List.mem_map_of_mem hc)
      simp [this]

theorem prune_table {cs : List Client} (hn : (cs.map (·.sock)).Nodup) :
    tableOf (prune cs).1 = (tableOf cs).filter (fun p => p.1 ∉ (prune cs).2) := by
  have hp := prune_ok cs
  have := sublist_filter hp.sub hn
  rw [tableOf, this, tableOf, List.filter_map]
  congr 1
  refine List.filter_congr fun c hc => ?_
  have h1 := hp.count c.sock
  have h2 : (cs.map (·.sock)).count c.sock = 1 :=
    Nat.le_antisymm (List.nodup_iff_count.mp hn _) (List.count_pos_iff.mpr (List.mem_map_of_mem hc))
  have h3 : c.sock ∈ (prune cs).1.map (·.sock) ↔ c.sock ∉ (prune cs).2 := by
    rw [← List.count_pos_iff, ← List.count_eq_zero]; omega
  simp only [Function.comp, decide_eq_decide]
  exact h3

/-- The invariant of the relay. -/
structure RInv (d : Daemon W β) : Prop where
  nodup : (d.clients.map (·.sock)).Nodup
  count : ∀ fd, 0 ≤ fd → (d.clients.map (·.sock)).count fd + closedOn fd d.log = acceptedOn fd d.log
  table : d.log.foldl updateTable [] = tableOf d.clients
  relay : Relay [] [] d.log

theorem RInv.snoc {d d' : Daemon W β} {l : List SockEv} (h : RInv d) (hl : d'.log = d.log ++ l)
    (hs : (d'.clients.map (·.sock)).Nodup)
    (hc : ∀ fd, 0 ≤ fd → (d'.clients.map (·.sock)).count fd + closedOn fd l = (d.clients.map (·.sock)).count fd + acceptedOn fd l)
    (ht : l.foldl updateTable (tableOf d.clients) = tableOf d'.clients) (hr : Relay (tableOf d.clients) [] l) : RInv d' where
  nodup := hs
  count fd h0 := by
    rw [hl, closedOn_append, acceptedOn_append]
    have := h.count fd h0
    have := hc fd h0
    omega
  table := by rw [hl, List.foldl_append, h.table, ht]
  relay := by rw [hl]; exact relay_append h.relay (by rw [h.table]; exact hr)

theorem RInv.prune {d : Daemon W β} (h : RInv d) : RInv d.removeInactive := by
  have hl : removeLoop 0 d.clients = Mctp.prune d.clients := removeLoop_prune _
  have hp := prune_ok d.clients
  have hd : d.removeInactive.clients = (Mctp.prune d.clients).1 := by simp only [Daemon.removeInactive, hl]
  refine h.snoc (l := (Mctp.prune d.clients).2.map .closed) (by simp only [Daemon.removeInactive, hl]) ?_ ?_ ?_ relay_closed.1
  · rw [hd]; exact h.nodup.sublist (hp.sub.map _)
  · intro fd _
    rw [hd, closedOn_closed, acceptedOn_none (by simp), ← hp.count fd]; omega
  · rw [relay_closed.2, hd, prune_table h.nodup]

theorem RInv.forward {d : Daemon W β} {src : Byte} {msg : List Byte} (h : RInv d) (d0 : Daemon W β) (hl : d0.log = d.log ++ [.arrived src msg]) (hcs : d0.clients = d.clients)
    (junk : Bool) : RInv (d0.forward net junk src msg) := by
  unfold Daemon.forward
  split
  · rename_i type x rest
    obtain ⟨cs', w', l, r, h1, h2, h3, h4, h5, -, -⟩ := forwardLoop_spec net src type (type :: x :: rest) d0.clients d0.w
    rw [h1]
    have htab : tableOf cs' = tableOf d.clients := by
      have e1 : tableOf cs' = (cs'.map (·.sock)).zip (cs'.map (·.type)) := by simp [tableOf, List.zip_map']
      have e2 : tableOf d.clients = (d.clients.map (·.sock)).zip (d.clients.map (·.type)) := by simp [tableOf, List.zip_map']
      rw [e1, e2, h4, h5, hcs]
    have hk : RInv ({ d0 with w := w', clients := cs', log := d0.log ++ l } : Daemon W β) := by
      refine h.snoc (l := .arrived src (type :: x :: rest) :: l) (by simp [hl]) ?_ ?_ ?_ ?_
      · show (cs'.map (·.sock)).Nodup
        rw [h4, hcs]; exact h.nodup
      · intro fd _
        show (cs'.map (·.sock)).count fd + _ = _
        have a1 : closedOn fd (.arrived src (type :: x :: rest) :: l) = 0 := by
          unfold closedOn
          rw [List.countP_eq_zero]
          intro e he
          rcases List.mem_cons.mp he with rfl | he
          · simp
          · obtain ⟨f, n, rfl⟩ := h3 e he; simp
        have a2 : acceptedOn fd (.arrived src (type :: x :: rest) :: l) = 0 := by
          unfold acceptedOn
          rw [List.countP_eq_zero]
          intro e he
          rcases List.mem_cons.mp he with rfl | he
          · simp
          · obtain ⟨f, n, rfl⟩ := h3 e he; simp
        rw [h4, hcs, a1, a2]
      · show _ = tableOf cs'
        rw [htab, List.foldl_cons]
        show List.foldl updateTable (tableOf d.clients) l = _
        have : ∀ (l : List SockEv), (∀ e ∈ l, ∃ fd rc, e = SockEv.sent fd (src :: type :: x :: rest) rc) →
            l.foldl updateTable (tableOf d.clients) = tableOf d.clients := by
          intro l
          induction l with
          | nil => intro _; rfl
          | cons e l ih =>
            intro h
            obtain ⟨f, n, rfl⟩ := h e List.mem_cons_self
            exact ih fun e he => h e (List.mem_cons_of_mem _ he)
        exact this l h3
      · refine ⟨rfl, relay_sends ?_ ?_⟩
        · intro e he
          obtain ⟨f, n, rfl⟩ := h3 e he; rfl
        · rw [h2, hcs, dueFor, tableOf, List.filter_map, List.map_map]
          rfl
    simp only
    split
    · exact hk.prune
    · exact hk
  · rename_i hm
    refine h.snoc hl (by rw [hcs]; exact h.nodup) ?_ ?_ ?_
    · intro fd _
      rw [hcs]; rfl
    · rw [hcs]; rfl
    · refine ⟨rfl, ?_⟩
      have : dueFor (tableOf d.clients) src msg = [] := by
        unfold dueFor
        split
        · exact absurd rfl (hm _ _ _)
        · rfl
      rw [this]; rfl

theorem RInv.rxMessage {d d0 : Daemon W β} (h : RInv d) (hl : d0.log = d.log) (hcs : d0.clients = d.clients) (net : Net W)
    (src : Byte) (msg : List Byte) : RInv (d0.rxMessage net src msg) := by
  exact h.forward (src := src) (msg := msg) { d0 with w := (net.junk d0.w).2, log := d0.log ++ [SockEv.arrived src msg] } (by simp [hl]) hcs (net.junk d0.w).1

theorem RInv.of {d d0 : Daemon W β} (h : RInv d) (hl : d0.log = d.log) (hcs : d0.clients = d.clients) : RInv d0 :=
  ⟨by rw [hcs]; exact h.nodup, by rw [hcs, hl]; exact h.count, by rw [hcs, hl]; exact h.table, by rw [hl]; exact h.relay⟩

theorem RInv.deliver (net : Net W) (evs : List Event) : ∀ {d : Daemon W β}, RInv d → RInv (d.deliver net evs) := by
  induction evs with
  | nil => intro d h; exact h
  | cons ev rest ih =>
    intro d h
    cases ev with
    | rxMsg src own tag msg => exact ih (h.rxMessage rfl rfl net src msg)
    | _ => exact ih h

theorem RInv.move {d d' : Daemon W β} {x : Option π} (h : RInv d) (hm : Move net ops proc d x d') (hf : Each FreshAccept [] d'.log) : RInv d' := by
  cases hm with
  | @quiet _ l hl hq hc =>
    refine h.snoc hl (by rw [hc]; exact h.nodup) ?_ ?_ (relay_silent hq).1
    · intro fd h0
      have a1 : closedOn fd l = 0 := by
        unfold closedOn
        rw [List.countP_eq_zero]
        intro e he hh
        have := hq e he
        rw [beq_iff_eq.mp hh] at this
        exact this
      have a2 : acceptedOn fd l = 0 := by
        unfold acceptedOn
        rw [List.countP_eq_zero]
        intro e he hh
        have := hq e he
        rw [beq_iff_eq.mp hh] at this
        simp only [Silent] at this
        omega
      rw [hc, a1, a2]
    · rw [(relay_silent hq).2, hc]
  | @mark i c hc =>
    have ht : tableOf (d.clients.set i { c with active := false }) = tableOf d.clients := by
      unfold tableOf
      rw [List.map_set]
      exact set_self (by rw [List.getElem?_map, hc]; rfl)
    have hs : (d.clients.set i { c with active := false }).map (·.sock) = d.clients.map (·.sock) := by
      rw [← tableOf_fst, ht, tableOf_fst]
    refine ⟨?_, ?_, ?_, h.relay⟩
    · show ((d.clients.set i { c with active := false }).map (·.sock)).Nodup
      rw [hs]; exact h.nodup
    · show ∀ fd, 0 ≤ fd → ((d.clients.set i { c with active := false }).map (·.sock)).count fd + _ = _
      rw [hs]; exact h.count
    · show _ = tableOf (d.clients.set i { c with active := false })
      rw [ht]; exact h.table
  | prune => exact h.prune
  | @register _ i c c' rc hc ht hs hrc hl hcs =>
    have hsock : (d.clients.set i c').map (·.sock) = d.clients.map (·.sock) := by
      rw [List.map_set]
      exact set_self (by rw [List.getElem?_map, hc, hs]; rfl)
    refine h.snoc hl (by rw [hcs, hsock]; exact h.nodup) ?_ ?_ ⟨rfl, rfl⟩
    · intro fd _
      rw [hcs, hsock]; rfl
    · rw [hcs]
      simp only [List.foldl_cons, List.foldl_nil, updateTable, if_pos hrc]
      refine List.ext_getElem? fun j => ?_
      simp only [tableOf, List.getElem?_map, List.getElem?_set, List.map_map]
      obtain ⟨hi, hget⟩ := List.getElem?_eq_some_iff.mp hc
      by_cases hj : i = j
      · subst hj
        rw [if_pos rfl, if_pos hi, hc]
        simp [hs]
      · rw [if_neg hj]
        cases hcj : d.clients[j]? with
        | none => rfl
        | some cj =>
          have : cj.sock ≠ c.sock := by
            intro he
            obtain ⟨hjl, hgetj⟩ := List.getElem?_eq_some_iff.mp hcj
            have hpw := List.pairwise_iff_getElem.mp h.nodup
            rcases Nat.lt_or_gt_of_ne hj with hlt | hlt
            · exact hpw i j (by simpa using hi) (by simpa using hjl) hlt (by simp [hget, hgetj, he])
            · exact hpw j i (by simpa using hjl) (by simpa using hi) hlt (by simp [hget, hgetj, he])
          simp [this]
  | @accept _ fd hfd hl hcs =>
    have hfresh : acceptedOn fd d.log = closedOn fd d.log := by
      rw [hl] at hf
      exact (Each.append.mp hf).2.1 fd rfl hfd
    have h0 : fd ∉ d.clients.map (·.sock) := by
      intro hm
      have := List.count_pos_iff.mpr hm
      have := h.count fd hfd
      omega
    refine h.snoc hl ?_ ?_ ?_ ⟨rfl, rfl⟩
    · rw [hcs, List.map_append, List.nodup_append]
      refine ⟨h.nodup, by simp, ?_⟩
      intro a ha b hb hab
      simp only [List.map_cons, List.map_nil, List.mem_singleton] at hb
      exact h0 (hb ▸ hab ▸ ha)
    · intro f _
      rw [hcs, List.map_append, List.count_append]
      have hz : closedOn f [SockEv.accepted fd] = 0 := rfl
      rw [hz]
      by_cases hff : fd = f
      · subst hff; simp [acceptedOn]
      · simp [acceptedOn, hff]
    · rw [hcs]
      simp [updateTable, hfd, tableOf]
  | @home d0 fd rc eid payload heid hl hcs =>
    have : RInv d0 := by
      refine h.snoc hl (by rw [hcs]; exact h.nodup) ?_ (by rw [hcs]; rfl) ⟨rfl, rfl⟩
      intro fd _
      rw [hcs]; rfl
    exact this.rxMessage rfl rfl net _ _
  | send heid hl hcs =>
    refine h.snoc hl (by rw [hcs]; exact h.nodup) ?_ (by rw [hcs]; rfl) ⟨rfl, rfl⟩
    intro fd _
    rw [hcs]; rfl
  | input =>
    exact RInv.deliver net _ (h.of rfl rfl)

theorem RInv.moves {d d' : Daemon W β} {xs : List π} (h : RInv d) (hm : Moves net ops proc d xs d') (hf : Each FreshAccept [] d'.log) : RInv d' := by
  induction hm with
  | refl => exact h
  | tail hm1 hm2 ih =>
    obtain ⟨l, hl⟩ := hm2.grows
    exact (ih (by rw [hl] at hf; exact (Each.append.mp hf).1)).move hm2 hf

theorem RInv.init (w : W) (core : Core β) (eid : Int) : RInv (Daemon.init w core eid) :=
  ⟨List.nodup_nil, fun _ _ => rfl, rfl, rfl⟩

/-! ## What arrives from where -/

/-- Calls that only pass a message on. -/
def PassesOn : SockEv → Prop
  | .sent _ _ _ => True
  | .closed _ => True
  | _ => False

theorem forward_log (net : Net W) (d : Daemon W β) (junk : Bool) (src : Byte) (msg : List Byte) :
    ∃ l, (d.forward net junk src msg).log = d.log ++ l ∧ ∀ e ∈ l, PassesOn e := by
  unfold Daemon.forward
  split
  · rename_i type x rest
    obtain ⟨cs', w', l, r, h1, h2, h3, -⟩ := forwardLoop_spec net src type (type :: x :: rest) d.clients d.w
    rw [h1]
    have hl : ∀ e ∈ l, PassesOn e := by
      intro e he
      obtain ⟨f, n, rfl⟩ := h3 e he; trivial
    simp only
    split
    · refine ⟨l ++ (removeLoop 0 cs').2.map .closed, by simp [Daemon.removeInactive], ?_⟩
      intro e he
      rcases List.mem_append.mp he with he | he
      · exact hl e he
      · obtain ⟨f, -, rfl⟩ := List.mem_map.mp he; trivial
    · exact ⟨l, rfl, hl⟩
  · exact ⟨[], by simp, by simp⟩

theorem forward_same (net : Net W) (d : Daemon W β) (junk : Bool) (src : Byte) (msg : List Byte) :
    (d.forward net junk src msg).core = d.core ∧ (d.forward net junk src msg).evs = d.evs ∧ (d.forward net junk src msg).localEid = d.localEid := by
  unfold Daemon.forward
  split
  · simp only
    split <;> exact ⟨rfl, rfl, rfl⟩
  · exact ⟨rfl, rfl, rfl⟩

theorem rxMessage_log (net : Net W) (d : Daemon W β) (src : Byte) (msg : List Byte) :
    ∃ l, (d.rxMessage net src msg).log = d.log ++ .arrived src msg :: l ∧ ∀ e ∈ l, PassesOn e := by
  obtain ⟨l, h1, h2⟩ := forward_log net { d with w := (net.junk d.w).2, log := d.log ++ [SockEv.arrived src msg] } (net.junk d.w).1 src msg
  exact ⟨l, by rw [show (d.rxMessage net src msg).log = _ from h1]; simp, h2⟩

theorem rxMessage_same (net : Net W) (d : Daemon W β) (src : Byte) (msg : List Byte) :
    (d.rxMessage net src msg).core = d.core ∧ (d.rxMessage net src msg).evs = d.evs ∧ (d.rxMessage net src msg).localEid = d.localEid :=
  forward_same net { d with w := (net.junk d.w).2, log := d.log ++ [SockEv.arrived src msg] } (net.junk d.w).1 src msg

/-- The arrivals a list of calls adds, when the calls are appended. -/
theorem arrivals_append {le : Int} {a b : List SockEv} : ∀ {own : Bool},
    arrivalsFrom le own (a ++ b) = arrivalsFrom le own a ++ arrivalsFrom le ((a.getLast?.map (toSelf le)).getD own) b := by
  induction a with
  | nil => intro own; rfl
  | cons e rest ih =>
    intro own
    have hlast : ∀ o : Bool, o = toSelf le e → ((rest.getLast?.map (toSelf le)).getD o) = (((e :: rest).getLast?.map (toSelf le)).getD own) := by
      intro o ho
      cases rest with
      | nil => simp [ho]
      | cons x xs => simp [List.getLast?_cons]
    cases e with
    | arrived src msg =>
      simp only [List.cons_append, arrivalsFrom, List.append_assoc]
      rw [ih, hlast false rfl]
    | _ =>
      simp only [List.cons_append, arrivalsFrom]
      rw [ih, hlast _ rfl]

theorem arrivals_none {le : Int} {l : List SockEv} (h : ∀ e ∈ l, ∀ src msg, e ≠ .arrived src msg) : ∀ {own : Bool}, arrivalsFrom le own l = [] := by
  induction l with
  | nil => intro own; rfl
  | cons e rest ih =>
    intro own
    have := ih (fun e he => h e (List.mem_cons_of_mem _ he)) (own := toSelf le e)
    cases e with
    | arrived src msg => exact absurd rfl (h _ List.mem_cons_self src msg)
    | _ => exact this

theorem getLast?_append_of {α : Type} {a b : List α} (h : b ≠ []) : (a ++ b).getLast? = b.getLast? := by
  rw [List.getLast?_append]
  cases b with
  | nil => exact absurd rfl h
  | cons x xs => simp [List.getLast?_cons]

theorem echoed_append {le : Int} {a b : List SockEv} (ha : Echoed le a) (hb : Echoed le b) : Echoed le (a ++ b) := by
  induction a with
  | nil => exact hb
  | cons e rest ih =>
    refine ⟨fun fd rc eid payload he hle => ?_, ih ha.2⟩
    obtain ⟨post, hp⟩ := ha.1 fd rc eid payload he hle
    exact ⟨post ++ b, by rw [hp]; rfl⟩

theorem echoed_none {le : Int} {l : List SockEv} (h : ∀ e ∈ l, toSelf le e = false) : Echoed le l := by
  induction l with
  | nil => trivial
  | cons e rest ih =>
    refine ⟨fun fd rc eid payload he hle => ?_, ih fun e he => h e (List.mem_cons_of_mem _ he)⟩
    have := h e List.mem_cons_self
    rw [he] at this
    simp [toSelf, hle] at this

/-- The invariant of the arrivals. -/
structure NInv (le : Int) (d : Daemon W β) : Prop where
  eid  : d.localEid = le
  last : (d.log.getLast?.map (toSelf le)).getD false = false
  arr  : netArrivals le d.log = d.evs.filterMap handed
  echo : Echoed le d.log

/-- Calls that neither bring a message nor are a client's message to the daemon. -/
def Dull (le : Int) (e : SockEv) : Prop := toSelf le e = false ∧ ∀ src msg, e ≠ .arrived src msg

theorem NInv.snoc {le : Int} {d d' : Daemon W β} {l : List SockEv} (h : NInv le d) (hl : d'.log = d.log ++ l) (hd : ∀ e ∈ l, Dull le e)
    (he : d'.evs.filterMap handed = d.evs.filterMap handed) (hi : d'.localEid = d.localEid) : NInv le d' where
  eid := hi.trans h.eid
  last := by
    rw [hl]
    cases l with
    | nil => simpa using h.last
    | cons x xs =>
      rw [getLast?_append_of (by simp), List.getLast?_eq_some_getLast (by simp)]
      exact (hd _ (List.getLast_mem _)).1
  arr := by
    rw [hl, he, netArrivals, arrivals_append, arrivals_none (fun e he => (hd e he).2), List.append_nil]
    exact h.arr
  echo := by
    rw [hl]
    exact echoed_append h.echo (echoed_none fun e he => (hd e he).1)

theorem passesOn_dull {le : Int} {e : SockEv} (h : PassesOn e) : Dull le e := by
  cases e <;> first | exact absurd h id | exact ⟨rfl, fun _ _ => by simp⟩

theorem silent_dull {le : Int} {e : SockEv} (h : Silent e) : Dull le e := by
  cases e with
  | received fd rc bs =>
    have : bs = [] := h
    subst this
    exact ⟨rfl, fun _ _ => by simp⟩
  | _ => first | exact absurd h id | exact ⟨rfl, fun _ _ => by simp⟩

/-- A message that arrives from the core. -/
theorem rxMessage_arrives {le : Int} {d : Daemon W β} (net : Net W) (src : Byte) (msg : List Byte) (hlast : (d.log.getLast?.map (toSelf le)).getD false = false)
    (hecho : Echoed le d.log) :
    netArrivals le (d.rxMessage net src msg).log = netArrivals le d.log ++ [(src, msg)] ∧
      (((d.rxMessage net src msg).log.getLast?.map (toSelf le)).getD false = false) ∧ Echoed le (d.rxMessage net src msg).log := by
  obtain ⟨l, h1, h2⟩ := rxMessage_log net d src msg
  refine ⟨?_, ?_, ?_⟩
  · rw [h1, netArrivals, arrivals_append, hlast]
    simp only [arrivalsFrom, Bool.false_eq_true, if_false]
    rw [arrivals_none (fun e he => (passesOn_dull (le := le) (h2 e he)).2)]
    rfl
  · rw [h1, getLast?_append_of (by simp), List.getLast?_eq_some_getLast (by simp)]
    have := List.getLast_mem (l := SockEv.arrived src msg :: l) (by simp)
    rcases List.mem_cons.mp this with hx | hx
    · rw [hx]; rfl
    · exact (passesOn_dull (le := le) (h2 _ hx)).1
  · rw [h1]
    refine echoed_append hecho (echoed_none ?_)
    intro e he
    rcases List.mem_cons.mp he with rfl | he
    · rfl
    · exact (passesOn_dull (le := le) (h2 _ he)).1

theorem deliver_arrives {le : Int} (net : Net W) (evs : List Event) : ∀ {d : Daemon W β}, (d.log.getLast?.map (toSelf le)).getD false = false →
    Echoed le d.log →
    netArrivals le (d.deliver net evs).log = netArrivals le d.log ++ evs.filterMap handed ∧
      (((d.deliver net evs).log.getLast?.map (toSelf le)).getD false = false) ∧ Echoed le (d.deliver net evs).log ∧
      (d.deliver net evs).core = d.core ∧ (d.deliver net evs).evs = d.evs ∧ (d.deliver net evs).localEid = d.localEid ∧
      clientSends le (d.deliver net evs).log = clientSends le d.log := by
  induction evs with
  | nil => intro d h he; exact ⟨by simp [Daemon.deliver], h, he, rfl, rfl, rfl, rfl⟩
  | cons ev rest ih =>
    intro d h he
    cases ev with
    | rxMsg src own tag msg =>
      obtain ⟨a1, a2, a3⟩ := rxMessage_arrives net src msg h he
      obtain ⟨b1, b2, b3⟩ := rxMessage_same net d src msg
      obtain ⟨c1, c2, c3, c4, c5, c6, c7⟩ := ih a2 a3
      obtain ⟨l, l1, l2⟩ := rxMessage_log net d src msg
      refine ⟨?_, c2, c3, c4.trans b1, c5.trans b2, c6.trans b3, c7.trans ?_⟩
      · show netArrivals le ((d.rxMessage net src msg).deliver net rest).log = _
        rw [c1, a1, List.append_assoc]
        rfl
      · rw [l1, clientSends, List.filterMap_append]
        have : (SockEv.arrived src msg :: l).filterMap (clientSend le) = [] := by
          rw [List.filterMap_eq_nil_iff]
          intro e he
          rcases List.mem_cons.mp he with rfl | he
          · rfl
          · have := l2 e he
            cases e <;> first | rfl | exact absurd this id
        rw [this, List.append_nil]; rfl
    | _ => exact ih h he

theorem txEvents_handed {e : List Event} (h : ∀ x ∈ e, IsTxEvent x) : e.filterMap handed = [] := by
  rw [List.filterMap_eq_nil_iff]
  intro x hx
  have := h x hx
  cases x <;> first | rfl | exact absurd this (by simp [IsTxEvent])

theorem NInv.move {le : Int} {d d' : Daemon W β} {x : Option π} (h : NInv le d) (hm : Move net ops proc d x d') : NInv le d' := by
  cases hm with
  | quiet hl hq _ _ he hi => exact h.snoc hl (fun e he => silent_dull (hq e he)) (by rw [he]) hi
  | mark hc => exact h.snoc (l := []) (by simp [Daemon.setClient]) (by simp) rfl rfl
  | prune =>
    refine h.snoc (d' := d.removeInactive) rfl ?_ rfl rfl
    intro e he
    obtain ⟨f, -, rfl⟩ := List.mem_map.mp he
    exact ⟨rfl, fun _ _ => by simp⟩
  | register _ _ _ _ hl _ _ he hi =>
    refine h.snoc hl ?_ (by rw [he]) hi
    intro e he
    rw [List.mem_singleton.mp he]
    exact ⟨rfl, fun _ _ => by simp⟩
  | accept _ hl _ _ he hi =>
    refine h.snoc hl ?_ (by rw [he]) hi
    intro e he
    rw [List.mem_singleton.mp he]
    exact ⟨rfl, fun _ _ => by simp⟩
  | @home d0 fd rc eid payload heid hl _ _ he hi =>
    obtain ⟨l, h1, h2⟩ := rxMessage_log net d0 eid payload
    obtain ⟨b1, b2, b3⟩ := rxMessage_same net d0 eid payload
    rw [h.eid] at heid
    have hs : toSelf le (.received fd rc (eid :: payload)) = true := by simp [toSelf, heid]
    have hall : (d0.rxMessage net eid payload).log = d.log ++ .received fd rc (eid :: payload) :: .arrived eid payload :: l := by
      rw [h1, hl]; simp
    refine ⟨b3.trans (hi.trans h.eid), ?_, ?_, ?_⟩
    · rw [h1, getLast?_append_of (by simp), List.getLast?_eq_some_getLast (by simp)]
      have := List.getLast_mem (l := SockEv.arrived eid payload :: l) (by simp)
      rcases List.mem_cons.mp this with hx | hx
      · rw [hx]; rfl
      · exact (passesOn_dull (le := le) (h2 _ hx)).1
    · rw [hall, netArrivals, arrivals_append, h.last, b2, he]
      simp only [arrivalsFrom, hs, if_true]
      rw [arrivals_none (fun e he => (passesOn_dull (le := le) (h2 e he)).2), List.append_nil, List.append_nil]
      exact h.arr
    · rw [hall]
      refine echoed_append h.echo ⟨fun fd rc eid payload he _ => ?_, echoed_none ?_⟩
      · cases he; exact ⟨l, rfl⟩
      · intro e he
        rcases List.mem_cons.mp he with rfl | he
        · rfl
        · exact (passesOn_dull (le := le) (h2 _ he)).1
  | send heid hl _ hk he hi =>
    rw [h.eid] at heid
    refine h.snoc hl ?_ ?_ hi
    · intro e he
      rw [List.mem_singleton.mp he]
      exact ⟨by simp [toSelf, heid], fun _ _ => by simp⟩
    · rw [he, List.filterMap_append, txEvents_handed (messageTx_events hk), List.append_nil]
  | @input x c e rc hx =>
    obtain ⟨c1, c2, c3, c4, c5, c6, -⟩ := deliver_arrives (d := { d with core := c, evs := d.evs ++ e }) net e h.last h.echo
    refine ⟨c6.trans h.eid, c2, ?_, c3⟩
    rw [c1, c5, List.filterMap_append]
    congr 1
    exact h.arr

theorem NInv.moves {le : Int} {d d' : Daemon W β} {xs : List π} (h : NInv le d) (hm : Moves net ops proc d xs d') : NInv le d' := by
  induction hm with
  | refl => exact h
  | tail _ hm2 ih => exact ih.move hm2

theorem NInv.init (w : W) (core : Core β) (eid : Int) : NInv eid (Daemon.init w core eid) := ⟨rfl, rfl, rfl, trivial⟩

/-! ## One client -/

theorem snoc_cases {α : Type} {P : List α → Prop} (h0 : P []) (h1 : ∀ l a, P l → P (l ++ [a])) (l : List α) : P l := by
  have : ∀ r : List α, P r.reverse := by
    intro r
    induction r with
    | nil => exact h0
    | cons a r ih => rw [List.reverse_cons]; exact h1 _ _ ih
  simpa using this l.reverse

/-- Calls that change the entry of a client. -/
def Touches (fd : Int) : SockEv → Prop
  | .accepted f => f = fd
  | .closed f => f = fd
  | .readByte f _ _ => f = fd
  | _ => False

theorem updateTable_other {t : List (Int × Byte)} {fd : Int} {e : SockEv} (h : ¬ Touches fd e) :
    (updateTable t e).filter (fun p => p.1 = fd) = t.filter (fun p => p.1 = fd) := by
  cases e with
  | accepted f =>
    have hff : ¬ f = fd := h
    simp only [updateTable]
    split
    · simp [List.filter_append, hff]
    · rfl
  | closed f =>
    have hff : ¬ f = fd := h
    rw [updateTable, List.filter_filter]
    refine List.filter_congr fun p _ => ?_
    by_cases hp : p.1 = fd
    · simpa [hp] using fun h : fd = f => hff h.symm
    · simp [hp]
  | readByte f rc b =>
    have hff : ¬ f = fd := h
    simp only [updateTable]
    split
    · induction t with
      | nil => rfl
      | cons p t ih =>
        by_cases hp : p.1 = f
        · simp [hp, ih, hff]
        · simp [hp, ih, List.filter_cons]
    · rfl
  | _ => rfl

/-- The entry of a client in the table. -/
theorem table_entry {fd : Int} (hfd : 0 ≤ fd) : ∀ (log : List SockEv), Each FreshAccept [] log →
    acceptedOn fd log ≤ closedOn fd log + 1 ∧
    (log.foldl updateTable []).filter (fun p => p.1 = fd) = if acceptedOn fd log = closedOn fd log + 1 then [(fd, typeOf fd log)] else [] := by
  intro log
  induction log using snoc_cases with
  | h0 => intro _; exact ⟨Nat.zero_le _, rfl⟩
  | h1 log e ih =>
    intro hf
    obtain ⟨hf1, hf2⟩ := Each.append.mp hf
    obtain ⟨h1, h2⟩ := ih hf1
    have hf2 := hf2.1
    rw [List.nil_append] at hf2
    rw [List.foldl_append, acceptedOn_append, closedOn_append, typeOf_snoc]
    simp only [List.foldl_cons, List.foldl_nil]
    generalize log.foldl updateTable [] = t at h2
    have plain : (∀ f, e ≠ .accepted f) → (∀ f, e ≠ .closed f) → acceptedOn fd [e] = 0 ∧ closedOn fd [e] = 0 := by
      intro ha hb
      constructor
      · exact acceptedOn_none (by simpa using fun h => ha fd h.symm)
      · unfold closedOn
        rw [List.countP_eq_zero]
        intro x hx hh
        rw [List.mem_singleton.mp hx] at hh
        exact hb fd (beq_iff_eq.mp hh)
    cases e with
    | accepted f =>
      have hc : closedOn fd [SockEv.accepted f] = 0 := rfl
      by_cases hff : f = fd
      · subst hff
        have ha : acceptedOn f [SockEv.accepted f] = 1 := by simp [acceptedOn]
        have := hf2 f rfl hfd
        rw [ha, hc]
        refine ⟨by omega, ?_⟩
        rw [if_pos (by omega)]
        rw [if_neg (by omega)] at h2
        simp only [updateTable, if_pos hfd, List.filter_append, h2]
        simp
      · have ha : acceptedOn fd [SockEv.accepted f] = 0 := by simp [acceptedOn, hff]
        rw [ha, hc]
        refine ⟨by omega, ?_⟩
        simp only [Nat.add_zero, if_neg hff]
        rw [← h2, updateTable]
        split
        · simp [List.filter_append, hff]
        · rfl
    | closed f =>
      have ha : acceptedOn fd [SockEv.closed f] = 0 := rfl
      by_cases hff : f = fd
      · subst hff
        have hc : closedOn f [SockEv.closed f] = 1 := by simp [closedOn]
        rw [ha, hc]
        refine ⟨by omega, ?_⟩
        rw [if_neg (by omega)]
        simp [updateTable, List.filter_filter]
      · have hc : closedOn fd [SockEv.closed f] = 0 := by simp [closedOn, hff]
        rw [ha, hc]
        refine ⟨by omega, ?_⟩
        simp only [Nat.add_zero]
        rw [← h2, updateTable_other (e := .closed f) (fun h => hff h)]
    | readByte f rc b =>
      obtain ⟨ha, hc⟩ := plain (by simp) (by simp)
      rw [ha, hc]
      refine ⟨by omega, ?_⟩
      simp only [Nat.add_zero]
      by_cases hff : f = fd
      · subst hff
        by_cases hrc : 0 < rc
        · have hb : (if f = f ∧ 0 < rc then b else typeOf f log) = b := if_pos ⟨rfl, hrc⟩
          rw [hb]
          simp only [updateTable, if_pos hrc]
          have : ∀ t : List (Int × Byte), (t.map (fun p => if p.1 = f then (f, b) else p)).filter (fun p => p.1 = f) =
              (t.filter (fun p => p.1 = f)).map (fun _ => (f, b)) := by
            intro t
            induction t with
            | nil => rfl
            | cons p t ih =>
              by_cases hp : p.1 = f
              · simp [hp, ih]
              · simp [hp, ih]
          rw [this, h2]
          split <;> rfl
        · have hb : (if f = f ∧ 0 < rc then b else typeOf f log) = typeOf f log := if_neg (fun h => hrc h.2)
          rw [hb]
          simp only [updateTable, if_neg hrc]
          exact h2
      · have hb : (if f = fd ∧ 0 < rc then b else typeOf fd log) = typeOf fd log := if_neg (fun h => hff h.1)
        rw [hb, updateTable_other (e := .readByte f rc b) (fun h => hff h)]
        exact h2
    | _ =>
      obtain ⟨ha, hc⟩ := plain (by simp) (by simp)
      rw [ha, hc]
      exact ⟨by omega, h2⟩

theorem relay_split {a b : List SockEv} : ∀ {t : List (Int × Byte)} {due : List (Int × List Byte)}, Relay t due (a ++ b) →
    ∃ due', Relay (a.foldl updateTable t) due' b := by
  induction a with
  | nil => intro t due h; exact ⟨due, h⟩
  | cons e rest ih =>
    intro t due h
    cases e with
    | sent fd bs rc => exact ih h.2
    | arrived src msg => exact ih h.2
    | _ => exact ih h.2

/-- What a connected client with a fixed registration is sent. -/
theorem relay_one {fd : Int} {ty : Byte} {l : List SockEv} : ∀ {t : List (Int × Byte)} {due : List (Int × List Byte)},
    Relay t due l → t.filter (fun p => p.1 = fd) = [(fd, ty)] → (∀ e ∈ l, ¬ Touches fd e) →
    l.filterMap (sentTo fd) = ((due.filter (fun p => p.1 = fd)).map Prod.snd) ++ ((l.filterMap arrivalOf).filter (ofType ty)).map (fun p => p.1 :: p.2) := by
  induction l with
  | nil => intro t due h _ _; simp only [Relay] at h; subst h; rfl
  | cons e rest ih =>
    intro t due h ht hno
    have hno' : ∀ e ∈ rest, ¬ Touches fd e := fun e he => hno e (List.mem_cons_of_mem _ he)
    cases e with
    | sent f bs rc =>
      have := ih h.2 ht hno'
      obtain ⟨x, hx⟩ := List.head?_eq_some_iff.mp h.1
      rw [hx, List.tail_cons] at this
      rw [hx]
      simp only [List.filterMap_cons, sentTo, arrivalOf]
      by_cases hf : f = fd
      · simp only [hf, if_true, this]
        simp
      · simp only [hf, if_false, this]
        simp [hf]
    | arrived src msg =>
      have := ih h.2 ht hno'
      rw [h.1]
      simp only [List.filterMap_cons, sentTo, arrivalOf, List.filter_nil, List.map_nil, List.nil_append]
      rw [this]
      have hdue : ((dueFor t src msg).filter (fun p => p.1 = fd)).map Prod.snd = if ofType ty (src, msg) = true then [src :: msg] else [] := by
        unfold dueFor ofType
        split
        · rename_i type x r
          have e1 : (((t.filter (fun p => p.2 = type)).map fun p => (p.1, src :: type :: x :: r)).filter (fun p => p.1 = fd)).map Prod.snd =
              (((t.filter (fun p => p.1 = fd)).filter (fun p => p.2 = type))).map (fun _ => src :: type :: x :: r) := by
            rw [List.filter_map, List.map_map, List.filter_filter, List.filter_filter]
            congr 1
            refine List.filter_congr fun p _ => ?_
            simp only [Function.comp, Bool.and_comm]
          rw [e1, ht]
          by_cases hty : ty = type
          · subst hty; simp
          · have hty' : ¬ type = ty := fun h => hty h.symm
            simp [hty, hty']
        · rename_i hm
          simp
      rw [hdue, List.filter_cons]
      split
      · simp
      · simp
    | _ =>
      have := ih h.2 (by rw [updateTable_other (hno _ List.mem_cons_self)]; exact ht) hno'
      rw [h.1]
      exact this

end Mctp
