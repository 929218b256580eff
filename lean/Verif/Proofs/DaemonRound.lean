import Verif.Proofs.DaemonTrace

/-!
# The disconnection of clients that have failed
-/

namespace Mctp

open Spec

variable {W β π : Type} {net : Net W} {ops : Ops β} {proc : π → Core β → Res (Core β × List Event × Int)}

/-! ## The clients that have failed -/

theorem stillOpen_append (a b : List SockEv) : stillOpen (a ++ b) = b.foldl updateFailed (stillOpen a) := by
  simp [stillOpen, List.foldl_append]

theorem failed_fold {l : List SockEv} (hl : ∀ fd, SockEv.closed fd ∉ l) : ∀ {s : List Int},
    l.foldl updateFailed s = s ++ l.filterMap failedOn := by
  induction l with
  | nil => intro s; simp
  | cons e rest ih =>
    intro s
    have he : updateFailed s e = s ++ (failedOn e).toList := by
      cases e <;> first | rfl | (rename_i fd; exact absurd List.mem_cons_self (hl fd))
    rw [List.foldl_cons, he, ih fun fd h => hl fd (List.mem_cons_of_mem _ h), List.filterMap_cons]
    cases failedOn e <;> simp

theorem mem_stillOpen {a l : List SockEv} (hl : ∀ fd, SockEv.closed fd ∉ l) {fd : Int} :
    fd ∈ stillOpen (a ++ l) ↔ fd ∈ stillOpen a ∨ ∃ e ∈ l, failedOn e = some fd := by
  rw [stillOpen_append, failed_fold hl, List.mem_append, List.mem_filterMap]

theorem closed_fold {l : List Int} : ∀ {s : List Int}, (l.map SockEv.closed).foldl updateFailed s = s.filter (· ∉ l) := by
  induction l with
  | nil => intro s; simp [List.filter_eq_self.mpr]
  | cons x rest ih =>
    intro s
    rw [List.map_cons, List.foldl_cons, ih]
    simp only [updateFailed, List.filter_filter]
    congr 1
    funext a
    by_cases h : a = x <;> simp [h]

theorem mem_stillOpen_closed {a : List SockEv} {l : List Int} {fd : Int} :
    fd ∈ stillOpen (a ++ l.map .closed) ↔ fd ∈ stillOpen a ∧ fd ∉ l := by
  rw [stillOpen_append, closed_fold, List.mem_filter]; simp

/-- The last call of a record. -/
theorem OneAtATime.last {log : List SockEv} (h : Each OneAtATime [] log) :
    ∀ a ∈ stillOpen log, ∀ b ∈ stillOpen log, a = b := by
  rcases List.eq_nil_or_concat log with rfl | ⟨l, x, rfl⟩
  · intro a ha; cases ha
  · rw [List.concat_eq_append] at h ⊢
    have := (Each.append.mp h).2
    rw [List.nil_append] at this
    exact this.1.1

theorem OneAtATime.hangup {log : List SockEv} (h : Each OneAtATime [] log) {fd : Int} {b : Byte} : SockEv.readByte fd 0 b ∉ log := by
  intro hm
  obtain ⟨s, t, rfl⟩ := List.append_of_mem hm
  exact (Each.append.mp h).2.1.2 fd b rfl

/-! ## The invariant of a round -/

/-- The invariant: exactly the clients that have failed and are connected are marked; and if there are any, the daemon will make a removal pass
before it waits. -/
structure Rnd (d : Daemon W β) : Prop where
  nodup : (d.clients.map (·.sock)).Nodup
  marks : ∀ fd, fd ∈ stillOpen d.log ↔ ∃ c ∈ d.clients, c.active = false ∧ c.sock = fd
  flag  : stillOpen d.log ≠ [] → d.changed = true
  waits : Each Settled [] d.log

theorem settled_append {a l : List SockEv} (h : Each Settled [] a) (hl : ∀ f r, SockEv.polled f r ∉ l) : Each Settled [] (a ++ l) :=
  Each.append.mpr ⟨h, Each.intro fun p e s hp f r he => absurd (by rw [hp, he]; simp) (hl f r)⟩

theorem noTwo_of {cs : List Client} (hn : (cs.map (·.sock)).Nodup)
    (h1 : ∀ a ∈ cs, ∀ b ∈ cs, a.active = false → b.active = false → a.sock = b.sock) : NoTwoInactive cs := by
  induction cs with
  | nil => trivial
  | cons a rest ih =>
    have hn' := (List.nodup_cons.mp (by simpa using hn : (a.sock :: rest.map (·.sock)).Nodup))
    cases rest with
    | nil => trivial
    | cons b rest =>
      refine ⟨?_, ih hn'.2 fun x hx y hy => h1 x (List.mem_cons_of_mem _ hx) y (List.mem_cons_of_mem _ hy)⟩
      by_cases ha : a.active = true
      · exact .inl ha
      · by_cases hb : b.active = true
        · exact .inr hb
        · exfalso
          refine hn'.1 ?_
          rw [h1 a List.mem_cons_self b (by simp) (by simpa using ha) (by simpa using hb)]
          simp

/-- A removal pass when at most one client has failed. -/
theorem Rnd.pruned {d d' : Daemon W β} (hn : (d.clients.map (·.sock)).Nodup)
    (hm : ∀ fd, fd ∈ stillOpen d.log ↔ ∃ c ∈ d.clients, c.active = false ∧ c.sock = fd) (hw : Each Settled [] d.log)
    (h1 : ∀ a ∈ stillOpen d.log, ∀ b ∈ stillOpen d.log, a = b) (he : d' = d.removeInactive) :
    Rnd d' ∧ stillOpen d'.log = [] := by
  subst he
  have hp := prune_ok d.clients
  have htwo : NoTwoInactive d.clients := noTwo_of hn fun a ha b hb ia ib =>
    h1 _ ((hm _).mpr ⟨a, ha, ia, rfl⟩) _ ((hm _).mpr ⟨b, hb, ib, rfl⟩)
  have hlog : d.removeInactive.log = d.log ++ (prune d.clients).2.map .closed := by
    simp only [Daemon.removeInactive, removeLoop_prune]
  have hcs : d.removeInactive.clients = (prune d.clients).1 := by simp only [Daemon.removeInactive, removeLoop_prune]
  have hnone : stillOpen d.removeInactive.log = [] := by
    apply List.eq_nil_iff_forall_not_mem.mpr
    intro fd hfd
    rw [hlog, mem_stillOpen_closed] at hfd
    obtain ⟨c, hc, ha, rfl⟩ := (hm fd).mp hfd.1
    refine hfd.2 ?_
    rw [hp.all htwo]
    exact List.mem_map_of_mem (List.mem_filter.mpr ⟨hc, by simp [ha]⟩)
  refine ⟨⟨by rw [hcs]; exact hn.sublist (hp.sub.map _), fun fd => ?_, fun h => absurd hnone h, ?_⟩, hnone⟩
  · rw [hnone, hcs]
    refine ⟨fun h => (nomatch h), ?_⟩
    rintro ⟨c, hc, ha, -⟩
    rw [hp.none htwo c hc] at ha; cases ha
  · rw [hlog]; exact settled_append hw (by simp)

/-- Calls that concern no failure, with the clients unchanged (but for their types). -/
theorem Rnd.quiet {d d' : Daemon W β} {l : List SockEv} (h : Rnd d) (hl : d'.log = d.log ++ l) (hc : ∀ fd, SockEv.closed fd ∉ l)
    (hf : ∀ e ∈ l, failedOn e = none) (hp : ∀ f r, SockEv.polled f r ∉ l)
    (hcs : d'.clients.map (fun c => (c.sock, c.active)) = d.clients.map (fun c => (c.sock, c.active)))
    (hch : d.changed = true → d'.changed = true) : Rnd d' := by
  have hm : ∀ fd, fd ∈ stillOpen d'.log ↔ fd ∈ stillOpen d.log := by
    intro fd
    rw [hl, mem_stillOpen hc]
    exact ⟨fun h => h.elim id fun ⟨e, he, hh⟩ => (by rw [hf e he] at hh; cases hh), .inl⟩
  have hs : ∀ fd (ds : List Client), (∃ c ∈ ds, c.active = false ∧ c.sock = fd) ↔ (fd, false) ∈ ds.map (fun c => (c.sock, c.active)) := by
    intro fd ds
    rw [List.mem_map]
    exact ⟨fun ⟨c, h1, h2, h3⟩ => ⟨c, h1, by rw [h2, h3]⟩, fun ⟨c, h1, h2⟩ => ⟨c, h1, (Prod.mk.inj h2).2, (Prod.mk.inj h2).1⟩⟩
  refine ⟨?_, fun fd => ?_, fun hne => hch (h.flag fun h0 => hne ?_), by rw [hl]; exact settled_append h.waits hp⟩
  · have := congrArg (List.map Prod.fst) hcs
    simp only [List.map_map, Function.comp_def] at this
    rw [this]; exact h.nodup
  · rw [hm, h.marks, hs, hs, hcs]
  · apply List.eq_nil_iff_forall_not_mem.mpr
    intro fd hfd
    have := (hm fd).mp hfd
    rw [h0] at this; cases this

/-- A client is marked. -/
theorem Rnd.mark {d d' : Daemon W β} {l : List SockEv} {i : Nat} {c : Client} (h : Rnd d) (hi : d.clients[i]? = some c) (hl : d'.log = d.log ++ l)
    (hc : ∀ fd, SockEv.closed fd ∉ l) (hp : ∀ f r, SockEv.polled f r ∉ l) (hf : ∀ e ∈ l, ∀ fd, failedOn e = some fd → fd = c.sock)
    (hb : ∃ e ∈ l, failedOn e = some c.sock) (hcs : d'.clients = d.clients.set i { c with active := false })
    (hch : d'.changed = true) : Rnd d' := by
  have hin : c ∈ d.clients := List.mem_of_getElem? hi
  have hmap : d'.clients.map (·.sock) = d.clients.map (·.sock) := by
    rw [hcs, List.map_set]
    exact set_self (by rw [List.getElem?_map, hi]; rfl)
  refine ⟨by rw [hmap]; exact h.nodup, fun fd => ?_, fun _ => hch, by rw [hl]; exact settled_append h.waits hp⟩
  rw [hl, mem_stillOpen hc, h.marks, hcs]
  have hlt : i < d.clients.length := (List.getElem?_eq_some_iff.mp hi).1
  have hget := (List.getElem?_eq_some_iff.mp hi).2
  constructor
  · rintro (⟨c1, h1, h2, rfl⟩ | ⟨e, he, hfd⟩)
    · obtain ⟨j, hj, hjc⟩ := List.mem_iff_getElem.mp h1
      by_cases hij : i = j
      · subst hij
        refine ⟨{ c with active := false }, List.mem_iff_getElem.mpr ⟨i, by simpa using hlt, by simp⟩, rfl, ?_⟩
        rw [← hget, hjc]
      · exact ⟨c1, List.mem_iff_getElem.mpr ⟨j, by simpa using hj, by simp [List.getElem_set, hij, hjc]⟩, h2, rfl⟩
    · rw [hf e he fd hfd]
      exact ⟨{ c with active := false }, List.mem_iff_getElem.mpr ⟨i, by simpa using hlt, by simp⟩, rfl, rfl⟩
  · rintro ⟨c1, h1, h2, rfl⟩
    obtain ⟨j, hj, hjc⟩ := List.mem_iff_getElem.mp h1
    rw [List.getElem_set] at hjc
    split at hjc
    · rw [← hjc]
      obtain ⟨e, he, hh⟩ := hb
      exact .inr ⟨e, he, hh⟩
    · exact .inl ⟨c1, List.mem_iff_getElem.mpr ⟨j, by simpa using hj, hjc⟩, h2, rfl⟩

/-! ## The parts of a round -/

/-- Who is marked by the loop over the clients. -/
theorem forwardLoop_marks (net : Net W) (eid type : Byte) (msg : List Byte) (cs : List Client) : ∀ (w : W) {cs' : List Client} {w' : W}
    {l : List SockEv} {r : Bool}, forwardLoop net eid type msg w cs = (cs', w', l, r) →
    (∀ fd, (∃ c ∈ cs', c.active = false ∧ c.sock = fd) ↔ (∃ c ∈ cs, c.active = false ∧ c.sock = fd) ∨ ∃ e ∈ l, failedOn e = some fd) ∧
    (r = false → ∀ e ∈ l, failedOn e = none) := by
  induction cs with
  | nil => intro w cs' w' l r h; simp only [forwardLoop, Prod.mk.injEq] at h; obtain ⟨rfl, -, rfl, -⟩ := h; simp
  | cons c rest ih =>
    intro w cs' w' l r h
    by_cases hty : c.type = type
    · rw [forwardLoop, if_neg (by simp [hty])] at h
      generalize hx : forwardLoop net eid type msg (net.send w c.sock (eid :: msg)).2 rest = x at h
      obtain ⟨cs1, w1, l1, r1⟩ := x
      have hI := ih _ hx
      generalize hs : net.send w c.sock (eid :: msg) = s at h hx
      obtain ⟨rc, ws⟩ := s
      simp only [hx, Prod.mk.injEq] at h
      obtain ⟨rfl, -, rfl, rfl⟩ := h
      have hfo : failedOn (.sent c.sock (eid :: msg) rc) = if rc = (msg.length : Int) + 1 then none else some c.sock := by
        simp [failedOn]
      by_cases hrc : rc = (msg.length : Int) + 1
      · rw [if_pos hrc] at hfo
        simp only [hrc, ne_eq, not_true_eq_false, decide_false, Bool.false_eq_true, if_false, Bool.false_or]
        rw [hrc] at hfo
        refine ⟨fun fd => ?_, fun h0 e he => ?_⟩
        · simp only [List.mem_cons, exists_eq_or_imp, hfo]
          rw [hI.1 fd]
          simp [or_assoc]
        · rcases List.mem_cons.mp he with rfl | he
          · exact hfo
          · exact hI.2 h0 e he
      · rw [if_neg hrc] at hfo
        simp only [hrc, ne_eq, not_false_eq_true, decide_true, if_true, Bool.true_or]
        refine ⟨fun fd => ?_, fun h0 => (nomatch h0)⟩
        simp only [List.mem_cons, exists_eq_or_imp, hfo]
        rw [hI.1 fd]
        simp only [true_and, Option.some.injEq]
        constructor
        · rintro (rfl | h | h)
          · exact .inr (.inl rfl)
          · exact .inl (.inr h)
          · exact .inr (.inr h)
        · rintro ((⟨-, rfl⟩ | h) | rfl | h)
          · exact .inl rfl
          · exact .inr (.inl h)
          · exact .inl rfl
          · exact .inr (.inr h)
    · rw [forwardLoop, if_pos (by simp [hty])] at h
      generalize hx : forwardLoop net eid type msg w rest = x at h
      obtain ⟨cs1, w1, l1, r1⟩ := x
      have hI := ih _ hx
      simp only [Prod.mk.injEq] at h
      obtain ⟨rfl, -, rfl, rfl⟩ := h
      refine ⟨fun fd => ?_, hI.2⟩
      simp only [List.mem_cons, exists_eq_or_imp]
      rw [hI.1 fd, or_assoc]

theorem Rnd.rxMessage {d : Daemon W β} (h : Rnd d) (eid : Byte) (msg : List Byte) (hS : Each OneAtATime [] (d.rxMessage net eid msg).log) :
    Rnd (d.rxMessage net eid msg) := by
  unfold Daemon.rxMessage at hS ⊢
  generalize net.junk d.w = j at hS ⊢
  obtain ⟨junk, w⟩ := j
  dsimp only at hS ⊢
  have h0 : Rnd { d with w := w, log := d.log ++ [SockEv.arrived eid msg] } :=
    h.quiet (l := [.arrived eid msg]) rfl (by simp) (by simp [failedOn]) (by simp) rfl id
  generalize hd0 : ({ d with w := w, log := d.log ++ [SockEv.arrived eid msg] } : Daemon W β) = d0 at hS h0 ⊢
  clear hd0
  unfold Daemon.forward at hS ⊢
  match msg, hS with
  | [], hS => exact h0
  | [_], hS => exact h0
  | ty :: m :: rest, hS =>
    dsimp only at hS ⊢
    obtain ⟨cs, w1, l, r, hx, -, hsent, hsk, -, -, -⟩ := forwardLoop_spec net eid ty (ty :: m :: rest) d0.clients d0.w
    have hmk := forwardLoop_marks net eid ty (ty :: m :: rest) d0.clients d0.w hx
    simp only [hx] at hS ⊢
    have hc : ∀ fd, SockEv.closed fd ∉ l := fun fd hm => by obtain ⟨_, _, he⟩ := hsent _ hm; cases he
    have hp : ∀ f r, SockEv.polled f r ∉ l := fun f r hm => by obtain ⟨_, _, he⟩ := hsent _ hm; cases he
    generalize hd1 : ({ d0 with w := w1, clients := cs, log := d0.log ++ l } : Daemon W β) = d1 at hS ⊢
    have hlog : d1.log = d0.log ++ l := by rw [← hd1]
    have hcs : d1.clients = cs := by rw [← hd1]
    have hch : d1.changed = d0.changed := by rw [← hd1]
    have hmarks : ∀ fd, fd ∈ stillOpen d1.log ↔ ∃ c ∈ d1.clients, c.active = false ∧ c.sock = fd := by
      intro fd
      rw [hlog, mem_stillOpen hc, hcs, hmk.1 fd, h0.marks]
    have hn : (d1.clients.map (·.sock)).Nodup := by rw [hcs, hsk]; exact h0.nodup
    have hw : Each Settled [] d1.log := by rw [hlog]; exact settled_append h0.waits hp
    split
    · rename_i hr
      rw [if_pos hr] at hS
      have hS1 : Each OneAtATime [] d1.log := by
        obtain ⟨l', hE, -⟩ := removeInactive_effect d1
        rw [hE.log] at hS
        exact (Each.append.mp hS).1
      exact (Rnd.pruned hn hmarks hw (OneAtATime.last hS1) rfl).1
    · rename_i hr
      have hr : r = false := by simp only [Bool.or_eq_true, not_or] at hr; simpa using hr.2
      refine ⟨hn, hmarks, fun hne => ?_, hw⟩
      rw [hch]
      refine h0.flag fun h00 => hne ?_
      rw [hlog, stillOpen_append, failed_fold hc, h00, List.nil_append, List.filterMap_eq_nil_iff]
      exact hmk.2 hr

theorem rxMessage_grows (d : Daemon W β) (eid : Byte) (msg : List Byte) : ∃ l, (d.rxMessage net eid msg).log = d.log ++ l := by
  obtain ⟨l, hE, -⟩ := rxMessage_effect net d eid msg
  exact ⟨l, hE.log⟩

theorem Rnd.deliver (evs : List Event) : ∀ {d : Daemon W β}, Rnd d → Each OneAtATime [] (d.deliver net evs).log → Rnd (d.deliver net evs) := by
  induction evs with
  | nil => intro d h _; exact h
  | cons e rest ih =>
    intro d h hS
    cases e with
    | rxMsg src o t msg =>
      rw [Daemon.deliver] at hS ⊢
      obtain ⟨l, hE, -⟩ := deliver_effect net rest (d.rxMessage net src msg)
      refine ih (h.rxMessage src msg ?_) hS
      rw [hE.log] at hS
      exact (Each.append.mp hS).1
    | _ => exact ih h hS

/-- What the loop over the clients does with a result. -/
def noteRc (d : Daemon W β) (rc : Int) : Daemon W β := if rc ≠ 0 then { d with changed := true } else d

theorem noteRc_log (d : Daemon W β) (rc : Int) : (noteRc d rc).log = d.log := by unfold noteRc; split <;> rfl
theorem noteRc_clients (d : Daemon W β) (rc : Int) : (noteRc d rc).clients = d.clients := by unfold noteRc; split <;> rfl

theorem Rnd.takeMessage {d d' : Daemon W β} {i : Nat} {c : Client} {rc : Int} (h : Rnd d) (hc : d.clients[i]? = some c)
    (ht : d.takeMessage net ops i c = .ok (d', rc)) (hS : Each OneAtATime [] d'.log) : Rnd (noteRc d' rc) := by
  unfold Daemon.takeMessage at ht
  generalize net.recv d.w c.sock d.bufSize = r at ht
  obtain ⟨n, bs, w⟩ := r
  simp only at ht
  generalize exactly (min n (d.bufSize : Int)).toNat bs = msg at ht
  cases msg with
  | nil =>
    simp only [Except.ok.injEq, Prod.mk.injEq] at ht
    obtain ⟨rfl, rfl⟩ := ht
    exact h.mark (l := [.received c.sock (min n ↑d.bufSize) []]) hc rfl (by simp) (by simp) (by simp [failedOn]) (by simp [failedOn]) rfl rfl
  | cons eid payload =>
    simp only at ht
    have h0 : Rnd ({ d with w := w, log := d.log ++ [SockEv.received c.sock (min n ↑d.bufSize) (eid :: payload)] } : Daemon W β) :=
      h.quiet (l := [.received c.sock (min n ↑d.bufSize) (eid :: payload)]) rfl (by simp) (by simp [failedOn]) (by simp) rfl id
    split at ht
    · simp only [Except.ok.injEq, Prod.mk.injEq] at ht
      obtain ⟨rfl, rfl⟩ := ht
      exact h0.rxMessage eid payload hS
    · obtain ⟨d1, h1, ht⟩ := Res.bind_eq_ok.mp ht
      simp only [Except.ok.injEq, Prod.mk.injEq] at ht
      obtain ⟨co, e, rc', h2, rfl⟩ := txMessage_ok h1
      obtain ⟨rfl, rfl⟩ := ht
      exact h0.quiet (l := []) (by simp [noteRc]) (by simp) (by simp) (by simp) rfl id

theorem Rnd.client {d d' : Daemon W β} {i : Nat} {rc : Int} (h : Rnd d) (hr : d.clientProcessRecv net ops i = .ok (d', rc))
    (hS : Each OneAtATime [] d'.log) : Rnd (noteRc d' rc) := by
  unfold Daemon.clientProcessRecv at hr
  split at hr
  · cases hr
  · rename_i c hc
    split at hr
    · rename_i ht
      generalize net.readByte d.w c.sock = r at hr
      obtain ⟨n, b, w⟩ := r
      simp only at hr
      split at hr
      · rename_i hn
        simp only [Except.ok.injEq, Prod.mk.injEq] at hr
        obtain ⟨rfl, rfl⟩ := hr
        have hn0 : n ≠ 0 := by
          rintro rfl
          exact OneAtATime.hangup hS (fd := c.sock) (b := b) (by simp [Daemon.setClient])
        refine h.mark (l := [.readByte c.sock n b]) hc (noteRc_log _ _) (by simp) (by simp) (by simp [failedOn, hn]) (by simp [failedOn, hn])
          (noteRc_clients _ _) (by simp [noteRc, hn0])
      · rename_i hn
        split at hr
        · rename_i hb
          simp only [Except.ok.injEq, Prod.mk.injEq] at hr
          obtain ⟨rfl, rfl⟩ := hr
          exact h.mark (l := [.readByte c.sock n b]) hc rfl (by simp) (by simp) (by simp [failedOn, hb]) (by simp [failedOn, hb]) rfl rfl
        · rename_i hb
          simp only [Except.ok.injEq, Prod.mk.injEq] at hr
          obtain ⟨rfl, rfl⟩ := hr
          refine h.quiet (l := [.readByte c.sock n b]) rfl (by simp) (by intro e he; cases List.mem_singleton.mp he; simp only [failedOn]; rw [if_neg (not_or.mpr ⟨hn, hb⟩)]) (by simp) ?_ id
          rw [noteRc_clients]
          simp only [Daemon.setClient, List.map_set]
          exact set_self (by rw [List.getElem?_map, hc]; rfl)
    · generalize net.peek d.w c.sock = r at hr
      obtain ⟨len, w⟩ := r
      simp only at hr
      split at hr
      · rename_i hlen
        simp only [Except.ok.injEq, Prod.mk.injEq] at hr
        obtain ⟨rfl, rfl⟩ := hr
        exact h.mark (l := [.peeked c.sock len]) hc rfl (by simp) (by simp) (by simp [failedOn, hlen]) (by simp [failedOn, hlen]) rfl rfl
      · rename_i hlen
        generalize hg : (if decide (len.toNat > d.bufSize) = true then net.grow w else (true, w)) = r2 at hr
        obtain ⟨ok, w2⟩ := r2
        simp only at hr
        split at hr
        · rename_i hok
          have hok : ok = false := by simpa using hok
          have hx : len.toNat > d.bufSize := by
            by_cases hx : len.toNat > d.bufSize
            · exact hx
            · simp only [hx, decide_false, Bool.false_eq_true, if_false, Prod.mk.injEq] at hg
              rw [hok] at hg; simp at hg
          simp only [Except.ok.injEq, Prod.mk.injEq] at hr
          obtain ⟨rfl, rfl⟩ := hr
          simp only [hx, decide_true, if_true]
          refine h.mark (l := [.peeked c.sock len, .resized c.sock ok]) hc (by simp [noteRc, Daemon.setClient]) (by simp) (by simp)
            (by simp [failedOn, hlen, hok]) (by simp [failedOn, hok]) rfl rfl
        · rename_i hok
          have hok : ok = true := by simpa using hok
          refine Rnd.takeMessage (h.quiet (l := [SockEv.peeked c.sock len] ++
            (if decide (len.toNat > d.bufSize) = true then [SockEv.resized c.sock ok] else [])) ?_ ?_ ?_ ?_ ?_ ?_) ?_ hr hS
          all_goals (by_cases hx : len.toNat > d.bufSize <;> simp only [hx, decide_true, decide_false, if_true, if_false, Bool.false_eq_true,
            List.append_assoc, hok] <;> first | rfl | exact hc | exact id | simp [failedOn, hlen] | simp)

theorem Rnd.clients {ready : Nat → Bool} {fuel i : Nat} {d d' : Daemon W β} (h : Rnd d) (hl : d.clientLoop net ops ready fuel i = .ok d')
    (hS : Each OneAtATime [] d'.log) : Rnd d' := by
  induction fuel generalizing i d with
  | zero =>
    unfold Daemon.clientLoop at hl
    split at hl
    · cases hl
    · cases hl; exact h
  | succ fuel ih =>
    unfold Daemon.clientLoop at hl
    split at hl
    · split at hl
      · split at hl
        · obtain ⟨⟨d1, rc⟩, h1, hl⟩ := Res.bind_eq_ok.mp hl
          refine ih (h.client h1 ?_) hl
          obtain ⟨l, hE, -⟩ := clientLoop_effect hl
          have := hE.log
          rw [show (if rc ≠ 0 then { d1 with changed := true } else d1 : Daemon W β).log = d1.log from noteRc_log d1 rc] at this
          rw [this] at hS
          exact (Each.append.mp hS).1
        · exact ih h hl
      · cases hl
    · cases hl; exact h

/-- A round. -/
theorem Rnd.react {r : Ready π} {d d' : Daemon W β} {stop : Bool} (h : Rnd d) (hP : Polled net r d) (hr : d.react net ops proc r = .ok (d', stop))
    (hS : Each OneAtATime [] d'.log) (hF : Each FreshAccept [] d'.log) : Each Settled [] d'.log ∧ (stop = false → Rnd d' ∧ stillOpen d'.log = []) := by
  unfold Daemon.react at hr
  obtain ⟨⟨d1, s1⟩, h1, hr⟩ := Res.bind_eq_ok.mp hr
  have hfin : ∀ d3 : Daemon W β, Rnd d3 → Each OneAtATime [] d3.log →
      Rnd (if d3.changed then d3.removeInactive else d3) ∧ stillOpen (if d3.changed then d3.removeInactive else d3).log = [] := by
    intro d3 h3 hS3
    split
    · exact Rnd.pruned h3.nodup h3.marks h3.waits (OneAtATime.last hS3) rfl
    · rename_i hc
      exact ⟨h3, Classical.byContradiction fun hne => hc (h3.flag hne)⟩
  have hpre : ∀ d3 : Daemon W β, Each OneAtATime [] (if d3.changed then d3.removeInactive else d3).log → Each OneAtATime [] d3.log := by
    intro d3 hS3
    split at hS3
    · obtain ⟨l, hE, -⟩ := removeInactive_effect d3
      rw [hE.log] at hS3
      exact (Each.append.mp hS3).1
    · exact hS3
  have hb : (Each OneAtATime [] d1.log → Rnd d1) ∧ Polled net r d1 := by
    unfold Daemon.bindingProcess at h1
    split at h1
    · obtain ⟨⟨c, e, rc⟩, -, h1⟩ := Res.bind_eq_ok.mp h1
      cases h1
      exact ⟨Rnd.deliver e (h.quiet (l := []) (by simp) (by simp) (by simp) (by simp) rfl id), hP.deliver c e⟩
    · cases h1; exact ⟨fun _ => h, hP⟩
  dsimp only at hr
  split at hr
  · cases hr
    exact ⟨(hb.1 hS).waits, fun h => by cases h⟩
  · obtain ⟨d2, h2, hr⟩ := Res.bind_eq_ok.mp hr
    have hI2 : DInv net d2 := hb.2.clients h2
    have hone : Each OneAtATime [] d2.log → Rnd d2 := by
      intro hS2
      obtain ⟨l, hE, -⟩ := clientLoop_effect h2
      refine (hb.1 ?_).clients h2 hS2
      rw [hE.log] at hS2
      exact (Each.append.mp hS2).1
    split at hr
    · simp only [Daemon.socketProcess] at hr
      by_cases hfd : (net.accept d2.w).1 < 0
      · simp only [if_pos hfd] at hr
        cases hr
        refine ⟨settled_append (hone (Each.append.mp hS).1).waits (by simp), fun h => by cases h⟩
      · simp only [if_neg hfd] at hr
        simp only [ne_eq, not_true_eq_false, if_false, Bool.false_eq_true] at hr
        cases hr
        rw [if_pos trivial] at hS hF ⊢
        generalize hd3 : (Daemon.mk (net.accept d2.w).2 (d2.log ++ [.accepted (net.accept d2.w).1]) d2.core d2.evs d2.localEid d2.bufSize
          (d2.clients ++ [{ active := true, sock := (net.accept d2.w).1, type := 0 }]) d2.pollfds true) = d3 at hS hF ⊢
        have hlog : d3.log = d2.log ++ [.accepted (net.accept d2.w).1] := by rw [← hd3]
        have hcs : d3.clients = d2.clients ++ [{ active := true, sock := (net.accept d2.w).1, type := 0 }] := by rw [← hd3]
        have hch : d3.changed = true := by rw [← hd3]
        have hS3 := hpre d3 (by rw [if_pos hch]; exact hS)
        have hF3 : Each FreshAccept [] d3.log := by
          obtain ⟨l, hE, -⟩ := removeInactive_effect d3
          rw [hE.log] at hF
          exact (Each.append.mp hF).1
        have hR2 : Rnd d2 := hone (by rw [hlog] at hS3; exact (Each.append.mp hS3).1)
        have hmem : ∀ fd, fd ∈ stillOpen d3.log ↔ fd ∈ stillOpen d2.log := by
          intro fd
          rw [hlog, mem_stillOpen (by simp)]
          simp [failedOn]
        have hI3 : DInv net d3 := hI2.accepted hlog (by rw [← hd3]) (.inr ⟨by omega, hcs, hch⟩)
        have hR3 : Rnd d3 := by
          refine ⟨(hI3.typed hF3).1.nodup, fun fd => ?_, fun _ => hch, by rw [hlog]; exact settled_append hR2.waits (by simp)⟩
          rw [hmem, hR2.marks, hcs]
          simp
        have := hfin d3 hR3 hS3
        rw [if_pos hch] at this
        exact ⟨this.1.waits, fun _ => this⟩
    · dsimp only at hr
      rw [if_neg (by simp)] at hr
      cases hr
      have := hfin d2 (hone (hpre d2 hS)) (hpre d2 hS)
      exact ⟨this.1.waits, fun _ => this⟩

theorem Rnd.poll {d d' : Daemon W β} {r : Ready π} (h : Rnd d) (h0 : stillOpen d.log = []) (hp : d.poll r = .ok d') : Rnd d' := by
  unfold Daemon.poll at hp
  generalize hd1 : (if d.changed = true then { d with pollfds := d.clients.map (·.sock), changed := false } else d : Daemon W β) = d1 at hp
  have hsame : d1.log = d.log ∧ d1.clients = d.clients := by rw [← hd1]; split <;> exact ⟨rfl, rfl⟩
  simp only at hp
  split at hp
  · simp only [Except.ok.injEq] at hp
    rw [← hp]
    have hs : ∀ x : SockEv, (∃ f r, x = .polled f r) → stillOpen (d1.log ++ [x]) = [] := by
      rintro x ⟨f, r, rfl⟩
      rw [stillOpen_append, hsame.1, h0]; rfl
    refine ⟨by dsimp only; rw [hsame.2]; exact h.nodup, fun fd => ?_, fun hne => absurd (hs _ ⟨_, _, rfl⟩) hne, ?_⟩
    · dsimp only
      rw [hs _ ⟨_, _, rfl⟩, hsame.2, ← h.marks, h0]
    · dsimp only
      rw [hsame.1]
      exact Each.append.mpr ⟨h.waits, fun f r he => h0, trivial⟩
  · cases hp

theorem Rnd.run {rs : List (Ready π)} : ∀ {d d' : Daemon W β}, Rnd d → DInv net d → stillOpen d.log = [] → d.run net ops proc rs = .ok d' →
    Each OneAtATime [] d'.log → Each FreshAccept [] d'.log → Each Settled [] d'.log := by
  induction rs with
  | nil => intro d d' h _ _ hr _ _; cases hr; exact h.waits
  | cons r rest ih =>
    intro d d' h hI h0 hr hS hF
    unfold Daemon.run at hr
    obtain ⟨d1, h1, hr⟩ := Res.bind_eq_ok.mp hr
    obtain ⟨⟨d2, s⟩, h2, hr⟩ := Res.bind_eq_ok.mp hr
    obtain ⟨d1', g1, hP, -, -⟩ := hI.poll r
    rw [h1] at g1
    cases g1
    have hR1 := h.poll h0 h1
    have hI2 := react_inv hP h2
    dsimp only at hr
    split at hr
    · cases hr
      exact (hR1.react hP h2 hS hF).1
    · rename_i hs
      obtain ⟨xs, hm, -⟩ := run_moves hr
      obtain ⟨l, hl⟩ := hm.grows
      rw [hl] at hS hF
      have := (hR1.react hP h2 (Each.append.mp hS).1 (Each.append.mp hF).1).2 (by simpa using hs)
      rw [← hl] at hS hF
      exact ih this.1 hI2 this.2 hr hS hF

theorem Rnd.init (w : W) (core : Core β) (eid : Int) : Rnd (Daemon.init w core eid) :=
  ⟨by simp [Daemon.init], fun fd => by simp [Daemon.init, stillOpen], fun h => absurd rfl h, trivial⟩

end Mctp
