import Verif.Spec.Daemon
import Verif.Proofs.RxCases
import Verif.Proofs.MemInv

/-!
# The demultiplexing daemon: lemmas
-/

namespace Mctp

open Spec

variable {W β π : Type}

/-! ## Logs -/

theorem Each.append {P : List SockEv → SockEv → Prop} {pre a b : List SockEv} :
    Each P pre (a ++ b) ↔ Each P pre a ∧ Each P (pre ++ a) b := by
  induction a generalizing pre with
  | nil => simp [Each]
  | cons e rest ih => simp only [List.cons_append, Each, ih, and_assoc, List.append_assoc, List.nil_append]

theorem Each.split {P : List SockEv → SockEv → Prop} {log pre post : List SockEv} {e : SockEv}
    (h : Each P [] log) (hl : log = pre ++ e :: post) : P pre e := by
  subst hl
  exact ((Each.append.mp h).2).1

theorem Each.mono {P Q : List SockEv → SockEv → Prop} {pre l : List SockEv} (h : Each P pre l)
    (hpq : ∀ pre e, e ∈ l → P pre e → Q pre e) : Each Q pre l := by
  induction l generalizing pre with
  | nil => trivial
  | cons e rest ih =>
    exact ⟨hpq _ _ List.mem_cons_self h.1, ih h.2 fun p e he => hpq p e (List.mem_cons_of_mem _ he)⟩

theorem Each.intro {P : List SockEv → SockEv → Prop} {pre l : List SockEv}
    (h : ∀ a e b, l = a ++ e :: b → P (pre ++ a) e) : Each P pre l := by
  induction l generalizing pre with
  | nil => trivial
  | cons e rest ih =>
    refine ⟨by simpa using h [] e rest rfl, ih fun a e' b hb => ?_⟩
    have := h (e :: a) e' b (by simp [hb])
    simpa [List.append_assoc] using this

theorem NoFailedSend.append {a b : List SockEv} : NoFailedSend (a ++ b) ↔ NoFailedSend a ∧ NoFailedSend b := by
  simp only [NoFailedSend, List.mem_append]
  exact ⟨fun h => ⟨fun e he => h e (.inl he), fun e he => h e (.inr he)⟩, fun h e he => he.elim (h.1 e) (h.2 e)⟩

theorem acceptedOn_append (fd : Int) (a b : List SockEv) : acceptedOn fd (a ++ b) = acceptedOn fd a + acceptedOn fd b :=
  List.countP_append ..

theorem closedOn_append (fd : Int) (a b : List SockEv) : closedOn fd (a ++ b) = closedOn fd a + closedOn fd b :=
  List.countP_append ..

theorem closedOn_closed (fd : Int) (l : List Int) : closedOn fd (l.map .closed) = l.count fd := by
  induction l with
  | nil => rfl
  | cons x xs ih =>
    simp only [List.map_cons, closedOn, List.countP_cons, List.count_cons] at ih ⊢
    rw [ih]
    congr 1
    by_cases h : x = fd
    · subst h; simp
    · rw [if_neg, if_neg] <;> simp [h]

theorem lastReported_append {a b : List SockEv} (h : ∀ f r, SockEv.polled f r ∉ b) : lastReported (a ++ b) = lastReported a := by
  unfold lastReported
  rw [List.filterMap_append]
  have : b.filterMap reportedBy = [] := by
    rw [List.filterMap_eq_nil_iff]
    intro e he
    cases e <;> first | rfl | exact absurd he (h _ _)
  rw [this, List.append_nil]

theorem lastReported_polled {a : List SockEv} (f r : List Int) : lastReported (a ++ [.polled f r]) = r := by
  unfold lastReported
  rw [List.filterMap_append]
  simp [reportedBy]

/-! ## `client_remove_inactive` -/

/-- The removal pass as a recursion over the list: after a removal the next client is skipped. -/
def prune : List Client → List Client × List Int
  | [] => ([], [])
  | c :: rest =>
    if c.active then (c :: (prune rest).1, (prune rest).2)
    else match rest with
      | [] => ([], [c.sock])
      | d :: rest' => (d :: (prune rest').1, c.sock :: (prune rest').2)

theorem prune_active {c : Client} (hc : c.active = true) (rest : List Client) :
    prune (c :: rest) = (c :: (prune rest).1, (prune rest).2) := by
  rw [prune.eq_def]; simp only [hc, if_true]

theorem prune_skip {c : Client} (hc : ¬ c.active = true) (d : Client) (rest : List Client) :
    prune (c :: d :: rest) = (d :: (prune rest).1, c.sock :: (prune rest).2) := by
  rw [prune.eq_def]; simp only [hc, Bool.false_eq_true, if_false]

theorem removeFrom_eq (n : Nat) : ∀ (cs A : List Client), cs.length ≤ n →
    removeFrom n A.length (A ++ cs) = (A ++ (prune cs).1, (prune cs).2) := by
  induction n with
  | zero =>
    intro cs A h
    have : cs = [] := List.length_eq_zero_iff.mp (Nat.le_zero.mp h)
    subst this
    simp [removeFrom, prune]
  | succ n ih =>
    intro cs A h
    match cs with
    | [] =>
      have : (A ++ ([] : List Client))[A.length]? = none := by simp
      rw [removeFrom, this]
      simp [prune]
    | c :: rest =>
      have hg : (A ++ c :: rest)[A.length]? = some c := by simp
      simp only [List.length_cons] at h
      rw [removeFrom, hg]
      by_cases hc : c.active = true
      · simp only [hc, if_true]
        have ih := ih rest (A ++ [c]) (by omega)
        rw [List.length_append, List.length_singleton, List.append_assoc, List.singleton_append] at ih
        rw [ih, prune_active hc]
        simp only [List.append_assoc, List.singleton_append]
      · simp only [hc, Bool.false_eq_true, if_false]
        have he : (A ++ c :: rest).eraseIdx A.length = A ++ rest := by
          rw [List.eraseIdx_append_of_length_le (Nat.le_refl _), Nat.sub_self]; rfl
        rw [he]
        match rest with
        | [] =>
          have : (A ++ ([] : List Client))[A.length + 1]? = none := by simp
          have hr : removeFrom n (A.length + 1) (A ++ []) = (A ++ [], []) := by
            cases n with
            | zero => rfl
            | succ n => rw [removeFrom, this]
          rw [hr, prune.eq_def]
          simp only [hc, Bool.false_eq_true, if_false]
        | e :: rest' =>
          simp only [List.length_cons] at h
          have ih := ih rest' (A ++ [e]) (by omega)
          rw [List.length_append, List.length_singleton, List.append_assoc, List.singleton_append] at ih
          rw [ih, prune_skip hc]
          simp only [List.append_assoc, List.singleton_append]

theorem removeLoop_prune (cs : List Client) : removeLoop 0 cs = prune cs := removeFrom_eq cs.length cs [] (Nat.le_refl _)

/-- Everything about the removal pass. -/
structure Pruned (cs left : List Client) (closed : List Int) : Prop where
  sub    : left.Sublist cs
  active : left.filter (·.active) = cs.filter (·.active)
  count  : ∀ fd, closed.count fd + (left.map (·.sock)).count fd = (cs.map (·.sock)).count fd
  dead   : closed.Sublist ((cs.filter (fun c => !c.active)).map (·.sock))
  half   : 2 * (left.filter (fun c => !c.active)).length ≤ (cs.filter (fun c => !c.active)).length
  none   : NoTwoInactive cs → ∀ c ∈ left, c.active = true
  all    : NoTwoInactive cs → closed = (cs.filter (fun c => !c.active)).map (·.sock)

theorem noTwo_tail {c : Client} {cs : List Client} (h : NoTwoInactive (c :: cs)) : NoTwoInactive cs := by
  cases cs with
  | nil => trivial
  | cons d rest => exact h.2

theorem prune_ok (cs : List Client) : Pruned cs (prune cs).1 (prune cs).2 := by
  match cs with
  | [] => exact ⟨.slnil, rfl, fun _ => rfl, .slnil, Nat.le_refl _, fun _ c hc => absurd hc List.not_mem_nil, fun _ => rfl⟩
  | c :: rest =>
    by_cases hc : c.active = true
    · obtain ⟨h1, h2, h3, h4, h5, h6, h7⟩ := prune_ok rest
      rw [prune_active hc]
      refine ⟨h1.cons_cons _, ?_, fun fd => ?_, ?_, ?_, fun hn d hd => ?_, fun hn => ?_⟩
      · simp only [List.filter_cons, hc, if_true, h2]
      · have := h3 fd
        simp only [List.map_cons, List.count_cons]
        omega
      · simpa [List.filter_cons, hc] using h4
      · simpa [List.filter_cons, hc] using h5
      · rcases List.mem_cons.mp hd with rfl | hd
        · exact hc
        · exact h6 (noTwo_tail hn) d hd
      · simpa [List.filter_cons, hc] using h7 (noTwo_tail hn)
    · match rest with
      | [] =>
        rw [prune.eq_def]
        simp only [hc, Bool.false_eq_true, if_false]
        refine ⟨List.nil_sublist _, by simp [hc], fun fd => by simp, by simp [hc], by simp, by simp, by simp [hc]⟩
      | d :: rest' =>
        obtain ⟨h1, h2, h3, h4, h5, h6, h7⟩ := prune_ok rest'
        rw [prune_skip hc]
        have hc' : (!c.active) = true := by simp [hc]
        refine ⟨(h1.cons_cons d).cons c, ?_, fun fd => ?_, ?_, ?_, fun hn e he => ?_, fun hn => ?_⟩
        · simp only [List.filter_cons, hc, Bool.false_eq_true, if_false, h2]
        · have := h3 fd
          simp only [List.map_cons, List.count_cons]
          omega
        · simp only [List.filter_cons, hc', if_true, List.map_cons]
          refine List.Sublist.cons_cons _ (h4.trans ?_)
          split
          · exact List.sublist_cons_self _ _
          · exact List.Sublist.refl _
        · simp only [List.filter_cons, hc', if_true]
          split <;> simp only [List.length_cons] <;> omega
        · rcases List.mem_cons.mp he with rfl | he
          · rcases hn.1 with h | h
            · exact absurd h hc
            · exact h
          · exact h6 (noTwo_tail (noTwo_tail hn)) e he
        · have hd : d.active = true := by
            rcases hn.1 with h | h
            · exact absurd h hc
            · exact h
          simp only [List.filter_cons, hc', if_true, hd, Bool.not_true, Bool.false_eq_true, if_false, List.map_cons]
          rw [h7 (noTwo_tail (noTwo_tail hn))]
termination_by cs.length

/-! ## Effects of the parts of the daemon -/

theorem since_append {fd : Int} {a l : List SockEv} (h : SockEv.accepted fd ∉ l) : since fd (a ++ l) = since fd a ++ l := by
  unfold since
  rw [List.foldl_append]
  generalize List.foldl _ [] a = acc
  induction l generalizing acc with
  | nil => simp
  | cons e rest ih =>
    rw [List.foldl_cons, if_neg (fun h' => h (by rw [h']; simp)), ih (fun h' => h (List.mem_cons_of_mem _ h'))]
    simp

theorem since_left {fd : Int} {a l : List SockEv} (h : SockEv.accepted fd ∉ l) {e : SockEv} (he : e ∈ since fd a) :
    e ∈ since fd (a ++ l) := by rw [since_append h]; exact List.mem_append_left _ he

theorem since_right {fd : Int} {a l : List SockEv} (h : SockEv.accepted fd ∉ l) {e : SockEv} (he : e ∈ l) :
    e ∈ since fd (a ++ l) := by rw [since_append h]; exact List.mem_append_right _ he

theorem since_other {fd fd' : Int} (a : List SockEv) (h : fd' ≠ fd) : since fd (a ++ [.accepted fd']) = since fd a ++ [.accepted fd'] :=
  since_append (by simpa using fun h' => h h'.symm)

/-- What one call does to the registered type. -/
theorem typeOf_snoc (fd : Int) (log : List SockEv) (e : SockEv) : typeOf fd (log ++ [e]) =
    match e with
    | .accepted f => if f = fd then 0 else typeOf fd log
    | .readByte f rc b => if f = fd ∧ 0 < rc then b else typeOf fd log
    | _ => typeOf fd log := by
  unfold typeOf
  rw [List.foldl_append]
  cases e <;> rfl

/-- Calls that do not register. -/
def setsType (fd : Int) : SockEv → Prop
  | .accepted f => f = fd
  | .readByte f rc _ => f = fd ∧ 0 < rc
  | _ => False

theorem typeOf_append {fd : Int} {l : List SockEv} : ∀ {log : List SockEv}, (∀ e ∈ l, ¬ setsType fd e) →
    typeOf fd (log ++ l) = typeOf fd log := by
  induction l with
  | nil => intro log _; rw [List.append_nil]
  | cons e rest ih =>
    intro log h
    have h1 := h e List.mem_cons_self
    rw [← List.singleton_append, ← List.append_assoc, ih fun x hx => h x (List.mem_cons_of_mem _ hx), typeOf_snoc]
    cases e <;> first | rfl | exact if_neg h1

/-- The clients have different descriptors, and the types they registered for. -/
structure Typed (log : List SockEv) (cs : List Client) : Prop where
  nodup : (cs.map (·.sock)).Nodup
  types : ∀ c ∈ cs, c.type = typeOf c.sock log
  conn  : ∀ c ∈ cs, acceptedOn c.sock log = closedOn c.sock log + 1

/-- Calls without a connection. -/
theorem acceptedOn_none {l : List SockEv} {fd : Int} (h : SockEv.accepted fd ∉ l) : acceptedOn fd l = 0 := by
  unfold acceptedOn
  rw [List.countP_eq_zero]
  intro e he hh
  simp only [beq_iff_eq] at hh
  exact h (hh ▸ he)

/-- The clients left are still connected. -/
theorem conn_keep {log l : List SockEv} {cs cs' : List Client} (hn : (cs.map (·.sock)).Nodup)
    (hc : ∀ c ∈ cs, acceptedOn c.sock log = closedOn c.sock log + 1)
    (hcount : ∀ fd, (cs'.map (·.sock)).count fd + closedOn fd l = (cs.map (·.sock)).count fd)
    (ha : ∀ f, SockEv.accepted f ∉ l) : ∀ c ∈ cs', acceptedOn c.sock (log ++ l) = closedOn c.sock (log ++ l) + 1 := by
  intro c hcm
  have h1 : 0 < (cs'.map (·.sock)).count c.sock := List.count_pos_iff.mpr (List.mem_map_of_mem hcm)
  have h2 := hcount c.sock
  have h3 : (cs.map (·.sock)).count c.sock ≤ 1 := List.nodup_iff_count.mp hn _
  have h4 : 0 < (cs.map (·.sock)).count c.sock := by omega
  obtain ⟨c0, h5, h6⟩ := List.mem_map.mp (List.count_pos_iff.mp h4)
  have h7 := hc c0 h5
  rw [h6] at h7
  rw [acceptedOn_append, closedOn_append, acceptedOn_none (ha _)]
  omega

/-- The calls on behalf of one client. -/
def ownOf : SockEv → Option Int
  | .readByte fd _ _ => some fd
  | .peeked fd _ => some fd
  | .resized fd _ => some fd
  | .received fd _ _ => some fd
  | _ => none

/-- The record is justified: a reason is on record for every inactive client and for every disconnection. -/
structure Just (log : List SockEv) (cs : List Client) : Prop where
  dead : ∀ c ∈ cs, c.active = false → ∃ e ∈ since c.sock log, badOn c.sock e
  shut : Each (fun pre e => ∀ fd, e = .closed fd → ∃ x ∈ since fd pre, badOn fd x) [] log

/-- The effect of a part of the daemon other than poll and accept. -/
structure Effect (d d' : Daemon W β) (l : List SockEv) : Prop where
  log   : d'.log = d.log ++ l
  polls : ∀ f r, SockEv.polled f r ∉ l
  accs  : ∀ f, SockEv.accepted f ∉ l
  count : ∀ fd, (d'.clients.map (·.sock)).count fd + closedOn fd l = (d.clients.map (·.sock)).count fd
  len   : d'.clients.length ≤ d.clients.length
  same  : (∀ fd, SockEv.closed fd ∉ l) → d'.clients.map (·.sock) = d.clients.map (·.sock)
  just  : Just d.log d.clients → Just d'.log d'.clients
  typed : Typed d.log d.clients → Typed d'.log d'.clients
  sends : Typed d.log d.clients → Each SentRegistered d.log l
  poll  : d'.pollfds = d.pollfds
  eid   : d'.localEid = d.localEid

theorem Effect.refl (d : Daemon W β) : Effect d d [] :=
  ⟨by simp, by simp, by simp, fun _ => rfl, Nat.le_refl _, fun _ => rfl, id, id, fun _ => trivial, rfl, rfl⟩

theorem Effect.trans {d d1 d2 : Daemon W β} {l1 l2 : List SockEv} (h1 : Effect d d1 l1)
    (h2 : Effect d1 d2 l2) : Effect d d2 (l1 ++ l2) where
  log := by rw [h2.log, h1.log, List.append_assoc]
  polls f r h := (List.mem_append.mp h).elim (h1.polls f r) (h2.polls f r)
  accs f h := (List.mem_append.mp h).elim (h1.accs f) (h2.accs f)
  count fd := by have := h1.count fd; have := h2.count fd; rw [closedOn_append]; omega
  len := Nat.le_trans h2.len h1.len
  same hf := by
    rw [h2.same fun fd h => hf fd (List.mem_append_right _ h), h1.same fun fd h => hf fd (List.mem_append_left _ h)]
  just h := h2.just (h1.just h)
  typed h := h2.typed (h1.typed h)
  sends h := Each.append.mpr ⟨h1.sends h, h1.log ▸ h2.sends (h1.typed h)⟩
  poll := h2.poll.trans h1.poll
  eid := h2.eid.trans h1.eid

/-- A change of fields that do not matter. -/
theorem Effect.of {d d' d2 : Daemon W β} {l : List SockEv} (h : Effect d d' l)
    (h1 : d2.log = d'.log) (h2 : d2.clients = d'.clients) (h4 : d2.pollfds = d'.pollfds)
    (h5 : d2.localEid = d'.localEid) : Effect d d2 l where
  log := h1.trans h.log
  polls := h.polls
  accs := h.accs
  count := by rw [h2]; exact h.count
  len := by rw [h2]; exact h.len
  same := by rw [h2]; exact h.same
  just := by rw [h1, h2]; exact h.just
  typed := by rw [h1, h2]; exact h.typed
  sends := h.sends
  poll := h4.trans h.poll
  eid := h5.trans h.eid

theorem Effect.before {d d0 d' : Daemon W β} {l : List SockEv} (h : Effect d0 d' l)
    (h1 : d0.log = d.log) (h2 : d0.clients = d.clients) (h4 : d0.pollfds = d.pollfds)
    (h5 : d0.localEid = d.localEid) : Effect d d' l := by
  have := Effect.of (d2 := d0) (Effect.refl d) h1 h2 h4 h5
  simpa using this.trans h

theorem noSends {pre l : List SockEv} (h : ∀ fd bs rc, SockEv.sent fd bs rc ∉ l) : Each SentRegistered pre l :=
  Each.intro fun a e b hab fd bs rc he => absurd (by rw [hab, he]; simp) (h fd bs rc)

theorem removeInactive_effect (d : Daemon W β) :
    ∃ l, Effect d d.removeInactive l ∧ sendsIn l = [] ∧ (∀ e ∈ l, readFrom e = none) := by
  have hp := prune_ok d.clients
  have hl : (removeLoop 0 d.clients) = prune d.clients := removeLoop_prune _
  have hin : ∀ fd ∈ (prune d.clients).2, ∃ c ∈ d.clients, c.active = false ∧ c.sock = fd := by
    intro fd hfd
    have := hp.dead.subset hfd
    obtain ⟨c, hc, rfl⟩ := List.mem_map.mp this
    obtain ⟨hc, ha⟩ := List.mem_filter.mp hc
    exact ⟨c, hc, by simpa using ha, rfl⟩
  refine ⟨(prune d.clients).2.map .closed, ⟨?_, by simp, by simp, fun fd => ?_, ?_, ?_, ?_, ?_, fun _ => noSends (by simp), rfl, rfl⟩, ?_, ?_⟩
  · simp only [Daemon.removeInactive, hl]
  · simp only [Daemon.removeInactive, hl]
    rw [closedOn_closed, ← hp.count fd]; omega
  · simp only [Daemon.removeInactive, hl]; exact hp.sub.length_le
  · intro hno
    have he : (prune d.clients).2 = [] := by
      cases hx : (prune d.clients).2 with
      | nil => rfl
      | cons a b => exact absurd (by rw [hx]; simp) (hno a)
    simp only [Daemon.removeInactive, hl]
    have hcount := hp.count
    rw [he] at hcount
    have hs : ((prune d.clients).1.map (·.sock)).Sublist (d.clients.map (·.sock)) := hp.sub.map _
    refine hs.eq_of_length ?_
    have hperm : ((prune d.clients).1.map (·.sock)).Perm (d.clients.map (·.sock)) :=
      List.perm_iff_count.mpr fun fd => by simpa using hcount fd
    exact hperm.length_eq
  · intro hj
    simp only [Daemon.removeInactive, hl]
    have hna : ∀ fd, SockEv.accepted fd ∉ (prune d.clients).2.map SockEv.closed := by simp
    refine ⟨fun c hc ha => ?_, Each.append.mpr ⟨hj.shut, Each.intro ?_⟩⟩
    · obtain ⟨e, he, hb⟩ := hj.dead c (hp.sub.subset hc) ha
      exact ⟨e, since_left (hna _) he, hb⟩
    · rintro a e b hab fd rfl
      have : SockEv.closed fd ∈ (prune d.clients).2.map SockEv.closed := by rw [hab]; simp
      obtain ⟨f, hf, hfe⟩ := List.mem_map.mp this
      cases hfe
      obtain ⟨c, hc, ha, rfl⟩ := hin _ hf
      obtain ⟨e, he, hb⟩ := hj.dead c hc ha
      refine ⟨e, ?_, hb⟩
      rw [List.nil_append]
      exact since_left (fun hm => hna c.sock (by rw [hab]; exact List.mem_append_left _ hm)) he
  · intro ht
    simp only [Daemon.removeInactive, hl]
    refine ⟨ht.nodup.sublist (hp.sub.map _), fun c hc => ?_, conn_keep ht.nodup ht.conn
      (fun fd => by rw [closedOn_closed, ← hp.count fd]; omega) (by simp)⟩
    rw [ht.types c (hp.sub.subset hc), typeOf_append]
    intro e he
    obtain ⟨f, -, rfl⟩ := List.mem_map.mp he
    exact id
  · simp [sendsIn, sendOf, List.filterMap_map]
  · intro e he
    obtain ⟨f, -, rfl⟩ := List.mem_map.mp he
    rfl

/-! ### `rx_message` -/

/-- The loop over the clients: who gets the message, who is marked. -/
theorem forwardLoop_spec (net : Net W) (eid type : Byte) (msg : List Byte) (cs : List Client) : ∀ (w : W),
    ∃ cs' w' l r, forwardLoop net eid type msg w cs = (cs', w', l, r) ∧
      sendsIn l = (cs.filter (fun c => c.type = type)).map (fun c => (c.sock, eid :: msg)) ∧
      (∀ e ∈ l, ∃ fd rc, e = .sent fd (eid :: msg) rc) ∧
      cs'.map (·.sock) = cs.map (·.sock) ∧ cs'.map (·.type) = cs.map (·.type) ∧
      (r = true ↔ ¬ NoFailedSend l) ∧
      (∀ c' ∈ cs', c'.active = false → (∃ c ∈ cs, c.active = false ∧ c.sock = c'.sock) ∨ ∃ e ∈ l, badOn c'.sock e) := by
  induction cs with
  | nil =>
    intro w
    exact ⟨[], w, [], false, rfl, rfl, by simp, rfl, rfl, by simp [NoFailedSend], by simp⟩
  | cons c rest ih =>
    intro w
    by_cases hty : c.type = type
    · obtain ⟨cs', w', l, r, h1, h2, h3, h4, h5, h6, h7⟩ := ih (net.send w c.sock (eid :: msg)).2
      have hfs : failedSend (.sent c.sock (eid :: msg) (net.send w c.sock (eid :: msg)).1) =
          decide ((net.send w c.sock (eid :: msg)).1 ≠ (msg.length : Int) + 1) := rfl
      have hfw : forwardLoop net eid type msg w (c :: rest) =
          ((if decide ((net.send w c.sock (eid :: msg)).1 ≠ (msg.length : Int) + 1) then { c with active := false } else c) :: cs',
            w', .sent c.sock (eid :: msg) (net.send w c.sock (eid :: msg)).1 :: l,
            decide ((net.send w c.sock (eid :: msg)).1 ≠ (msg.length : Int) + 1) || r) := by
        rw [forwardLoop, if_neg (by simp [hty])]
        simp only [h1]
      refine ⟨_, _, _, _, hfw, ?_, ?_, ?_, ?_, ?_, ?_⟩
      · simp only [sendsIn, List.filterMap_cons, sendOf, List.filter_cons, hty, decide_true, if_true, List.map_cons]
        rw [← h2]; rfl
      · intro e he
        rcases List.mem_cons.mp he with rfl | he
        · exact ⟨_, _, rfl⟩
        · exact h3 e he
      · simp only [List.map_cons, h4]; split <;> rfl
      · simp only [List.map_cons, h5]; split <;> rfl
      · have hcons : ∀ (x : SockEv) (l : List SockEv), NoFailedSend (x :: l) ↔ failedSend x = false ∧ NoFailedSend l := by
          intro x l; simp [NoFailedSend]
        rw [hcons, hfs, Bool.or_eq_true, h6]
        by_cases hb : (net.send w c.sock (eid :: msg)).1 = (msg.length : Int) + 1 <;> simp [hb]
      · intro c' hc' ha
        rcases List.mem_cons.mp hc' with rfl | hc'
        · split at ha
          · rename_i hb
            refine .inr ⟨_, List.mem_cons_self, ?_⟩
            rw [if_pos hb]
            exact ⟨rfl, by simpa using hb⟩
          · rename_i hb
            rw [if_neg hb]
            exact .inl ⟨c, List.mem_cons_self, ha, rfl⟩
        · rcases h7 c' hc' ha with ⟨x, hx, hh⟩ | ⟨e, he, hb⟩
          · exact .inl ⟨x, List.mem_cons_of_mem _ hx, hh⟩
          · exact .inr ⟨e, List.mem_cons_of_mem _ he, hb⟩
    · obtain ⟨cs', w', l, r, h1, h2, h3, h4, h5, h6, h7⟩ := ih w
      have hfw : forwardLoop net eid type msg w (c :: rest) = (c :: cs', w', l, r) := by
        rw [forwardLoop, if_pos (by simp [hty])]
        simp only [h1]
      refine ⟨_, _, _, _, hfw, ?_, h3, ?_, ?_, h6, ?_⟩
      · simp only [List.filter_cons, hty, decide_false, Bool.false_eq_true, if_false]; exact h2
      · simp only [List.map_cons, h4]
      · simp only [List.map_cons, h5]
      · intro c' hc' ha
        rcases List.mem_cons.mp hc' with rfl | hc'
        · exact .inl ⟨_, List.mem_cons_self, ha, rfl⟩
        · rcases h7 c' hc' ha with ⟨x, hx, hh⟩ | hh
          · exact .inl ⟨x, List.mem_cons_of_mem _ hx, hh⟩
          · exact .inr hh

/-- A call of `rx_message` is recorded. -/
theorem Effect.arrived (d : Daemon W β) (src : Byte) (msg : List Byte)
    {w : W} : Effect d { d with w := w, log := d.log ++ [.arrived src msg] } [.arrived src msg] := by
  refine ⟨rfl, by simp, by simp, fun fd => rfl, Nat.le_refl _, fun _ => rfl, fun hj => ⟨fun c hc ha => ?_, Each.append.mpr ⟨hj.shut, ?_, trivial⟩⟩,
    fun ht => ⟨ht.nodup, fun c hc => ?_, fun c hc => ?_⟩, fun _ => noSends (by simp), rfl, rfl⟩
  · obtain ⟨e, he, hb⟩ := hj.dead c hc ha
    exact ⟨e, since_left (by simp) he, hb⟩
  · intro fd h; cases h
  · rw [ht.types c hc, typeOf_append (by simp [setsType])]
  · rw [acceptedOn_append, closedOn_append]
    exact ht.conn c hc

theorem forward_effect (net : Net W) (d : Daemon W β) (junk : Bool) (eid : Byte) (msg : List Byte) :
    ∃ l, Effect d (d.forward net junk eid msg) l ∧ sendsIn l = wanted d.clients eid msg ∧ (∀ e ∈ l, readFrom e = none) ∧
      (junk = false → NoFailedSend l → ∀ fd, SockEv.closed fd ∉ l) ∧
      (d.forward net junk eid msg).core = d.core ∧ (d.forward net junk eid msg).evs = d.evs ∧
      (d.forward net junk eid msg).changed = d.changed := by
  unfold Daemon.forward
  match msg with
  | [] => exact ⟨_, Effect.refl d, rfl, by simp, by simp, rfl, rfl, rfl⟩
  | [x] => exact ⟨_, Effect.refl d, rfl, by simp, by simp, rfl, rfl, rfl⟩
  | type :: y :: rest =>
    obtain ⟨cs, w', l, r, h1, h2, h3, h4, h5, h6, h7⟩ := forwardLoop_spec net eid type (type :: y :: rest) d.clients d.w
    simp only [h1]
    have hna : ∀ fd, SockEv.accepted fd ∉ l := by intro fd hm; obtain ⟨_, _, h⟩ := h3 _ hm; cases h
    have hcl : ∀ fd, closedOn fd l = 0 := by
      intro fd
      unfold closedOn
      rw [List.countP_eq_zero]
      intro e he
      obtain ⟨_, _, rfl⟩ := h3 e he
      simp
    have hE : Effect d { d with w := w', clients := cs, log := d.log ++ l } l := by
      refine ⟨rfl, ?_, ?_, fun fd => ?_, ?_, fun _ => h4, fun hj => ⟨fun c hc ha => ?_, Each.append.mpr ⟨hj.shut, Each.intro ?_⟩⟩,
        fun ht => ⟨by rw [h4]; exact ht.nodup, fun c hc => ?_, conn_keep ht.nodup ht.conn (fun fd => by rw [h4, hcl]; rfl) hna⟩,
        fun ht => Each.intro fun a e b hab fd bs rc he => ?_, rfl, rfl⟩
      · intro f r hm; obtain ⟨_, _, h⟩ := h3 _ hm; cases h
      · intro f hm; obtain ⟨_, _, h⟩ := h3 _ hm; cases h
      · have : closedOn fd l = 0 := by
          unfold closedOn
          rw [List.countP_eq_zero]
          intro e he
          obtain ⟨_, _, rfl⟩ := h3 e he
          simp
        rw [this, h4]; rfl
      · have := congrArg List.length h4
        simp only [List.length_map] at this
        simp only [this, Nat.le_refl]
      · rcases h7 c hc ha with ⟨x, hx, hxa, hxs⟩ | ⟨e, he, hb⟩
        · obtain ⟨e, he, hb⟩ := hj.dead x hx hxa
          exact ⟨e, since_left (hna _) (hxs ▸ he), hxs ▸ hb⟩
        · exact ⟨e, since_right (hna _) he, hb⟩
      · rintro a e b hab fd rfl
        obtain ⟨_, _, h⟩ := h3 (.closed fd) (by rw [hab]; simp)
        cases h
      · obtain ⟨j, hj, rfl⟩ := List.getElem_of_mem hc
        have hlen : cs.length = d.clients.length := by simpa using congrArg List.length h4
        have g4 : cs[j].sock = (d.clients[j]'(hlen ▸ hj)).sock := by
          have := congrArg (·[j]?) h4
          simpa [hj, hlen ▸ hj] using this
        have g5 : cs[j].type = (d.clients[j]'(hlen ▸ hj)).type := by
          have := congrArg (·[j]?) h5
          simpa [hj, hlen ▸ hj] using this
        rw [g4, g5, ht.types _ (List.getElem_mem _), typeOf_append]
        intro e he
        obtain ⟨_, _, rfl⟩ := h3 e he
        exact id
      · have hin : (fd, bs) ∈ sendsIn l := by
          unfold sendsIn
          exact List.mem_filterMap.mpr ⟨.sent fd bs rc, by rw [hab, he]; simp, rfl⟩
        rw [h2] at hin
        obtain ⟨c, hc, hcp⟩ := List.mem_map.mp hin
        obtain ⟨hc, hct⟩ := List.mem_filter.mp hc
        cases hcp
        have hct : c.type = type := by simpa using hct
        have ha : ∀ x ∈ a, ∃ fd rc, x = .sent fd (eid :: type :: y :: rest) rc := fun x hx => h3 x (by rw [hab]; simp [hx])
        have h8 : typeOf c.sock (d.log ++ a) = typeOf c.sock d.log := typeOf_append fun x hx => by
          obtain ⟨_, _, rfl⟩ := ha x hx; exact id
        have h9 : closedOn c.sock a = 0 := by
          have := hcl c.sock
          rw [hab, closedOn_append] at this
          omega
        refine ⟨⟨eid, y, rest, ?_⟩, ?_⟩
        · rw [h8, ← ht.types c hc, hct]
        · rw [acceptedOn_append, closedOn_append, h9, acceptedOn_none (l := a) fun hm => ?_]
          · exact ht.conn c hc
          · obtain ⟨_, _, h⟩ := ha _ hm; cases h
    have hno : ∀ fd, SockEv.closed fd ∉ l := by intro fd hm; obtain ⟨_, _, h⟩ := h3 _ hm; cases h
    have hnr : ∀ e ∈ l, readFrom e = none := by intro e hm; obtain ⟨_, _, rfl⟩ := h3 _ hm; rfl
    split
    · rename_i hjr
      obtain ⟨l2, hE2, hs2, hr2⟩ := removeInactive_effect ({ d with w := w', clients := cs, log := d.log ++ l } : Daemon W β)
      refine ⟨l ++ l2, hE.trans hE2, ?_, ?_, ?_, rfl, rfl, rfl⟩
      · simp only [sendsIn, List.filterMap_append] at hs2 h2 ⊢
        rw [h2, hs2, List.append_nil]; rfl
      · intro e he
        rcases List.mem_append.mp he with he | he
        · exact hnr e he
        · exact hr2 e he
      · intro hj hf
        obtain ⟨f1, -⟩ := NoFailedSend.append.mp hf
        rw [hj, Bool.false_or] at hjr
        exact absurd f1 (h6.mp hjr)
    · exact ⟨l, hE, h2, hnr, fun _ _ => hno, rfl, rfl, rfl⟩

theorem rxMessage_effect (net : Net W) (d : Daemon W β) (eid : Byte) (msg : List Byte) :
    ∃ l, Effect d (d.rxMessage net eid msg) l ∧ sendsIn l = wanted d.clients eid msg ∧ (∀ e ∈ l, readFrom e = none) ∧
      ((∀ w, (net.junk w).1 = false) → NoFailedSend l → ∀ fd, SockEv.closed fd ∉ l) ∧
      (d.rxMessage net eid msg).core = d.core ∧ (d.rxMessage net eid msg).evs = d.evs ∧
      (d.rxMessage net eid msg).changed = d.changed := by
  obtain ⟨l, h1, h2, h3, h4, h5, h6, h7⟩ := forward_effect net
    ({ d with w := (net.junk d.w).2, log := d.log ++ [.arrived eid msg] } : Daemon W β) (net.junk d.w).1 eid msg
  refine ⟨[SockEv.arrived eid msg] ++ l, (Effect.arrived d eid msg).trans h1, ?_, ?_, ?_, h5, h6, h7⟩
  · rw [← h2]; rfl
  · intro e he
    rcases List.mem_append.mp he with he | he
    · cases List.mem_singleton.mp he; rfl
    · exact h3 e he
  · intro hj hf fd hm
    rcases List.mem_append.mp hm with hm | hm
    · simp at hm
    · exact h4 (hj _) (NoFailedSend.append.mp hf).2 fd hm

/-- Without uninitialised values and failed deliveries, nothing is closed. -/
def Gentle (net : Net W) (l : List SockEv) : Prop :=
  (∀ w, (net.junk w).1 = false) → NoFailedSend l → ∀ fd, SockEv.closed fd ∉ l

theorem Gentle.append {net : Net W} {a b : List SockEv} (ha : Gentle net a) (hb : Gentle net b) : Gentle net (a ++ b) := by
  intro hj hf fd hm
  obtain ⟨f1, f2⟩ := NoFailedSend.append.mp hf
  exact (List.mem_append.mp hm).elim (ha hj f1 fd) (hb hj f2 fd)

theorem deliver_effect (net : Net W) (evs : List Event) : ∀ (d : Daemon W β),
    ∃ l, Effect d (d.deliver net evs) l ∧ (∀ e ∈ l, readFrom e = none) ∧ Gentle net l ∧
      (d.deliver net evs).core = d.core ∧ (d.deliver net evs).evs = d.evs ∧ (d.deliver net evs).changed = d.changed := by
  induction evs with
  | nil => intro d; exact ⟨[], Effect.refl d, by simp, fun _ _ fd => by simp, rfl, rfl, rfl⟩
  | cons ev rest ih =>
    intro d
    cases ev with
    | rxMsg src own tag msg =>
      obtain ⟨l1, h1, -, h3, h4, h5, h6, h7⟩ := rxMessage_effect net d src msg
      obtain ⟨l2, g1, g3, g4, g5, g6, g7⟩ := ih (d.rxMessage net src msg)
      refine ⟨l1 ++ l2, h1.trans g1, ?_, Gentle.append h4 g4, g5.trans h5, g6.trans h6, g7.trans h7⟩
      intro e he
      exact (List.mem_append.mp he).elim (h3 e) (g3 e)
    | recv a b => exact ih d
    | ctrlRx a b c e f => exact ih d
    | capture a b => exact ih d
    | tx a b c e => exact ih d

theorem deliver_none (net : Net W) {evs : List Event} : ∀ (d : Daemon W β), (∀ e ∈ evs, IsTxEvent e) → d.deliver net evs = d := by
  induction evs with
  | nil => intro d _; rfl
  | cons ev rest ih =>
    intro d h
    have h0 := h ev List.mem_cons_self
    have h1 := ih d fun e he => h e (List.mem_cons_of_mem _ he)
    cases ev with
    | rxMsg src own tag msg => simp [IsTxEvent] at h0
    | recv a b => exact h1
    | ctrlRx a b c e f => exact h1
    | capture a b => exact h1
    | tx a b c e => exact h1

theorem messageTx_events {ops : Ops β} {c c' : Core β} {eid : Byte} {own : Bool} {tag : Byte} {msg : List Byte}
    {e : List Event} {rc : Int} (h : c.messageTx ops eid own tag msg = .ok (c', e, rc)) : ∀ x ∈ e, IsTxEvent x := by
  unfold Core.messageTx at h
  split at h
  · simp only [Except.ok.injEq, Prod.mk.injEq] at h; rw [← h.2.1]; simp
  · split at h
    · simp only [Except.ok.injEq, Prod.mk.injEq] at h; rw [← h.2.1]; simp
    · obtain ⟨bus, -, h⟩ := Res.bind_eq_ok.mp h
      exact (messageTxOnBus_ok h).1

/-- `tx_message` only uses the core. -/
theorem txMessage_ok {net : Net W} {ops : Ops β} {d d' : Daemon W β} {eid : Byte} {msg : List Byte}
    (h : d.txMessage net ops eid msg = .ok d') :
    ∃ c e rc, d.core.messageTx ops eid true 0 msg = .ok (c, e, rc) ∧ d' = { d with core := c, evs := d.evs ++ e } := by
  unfold Daemon.txMessage at h
  obtain ⟨⟨c, e, rc⟩, h1, h⟩ := Res.bind_eq_ok.mp h
  simp only [Except.ok.injEq] at h
  rw [deliver_none net _ (messageTx_events h1)] at h
  exact ⟨c, e, rc, h1, h.symm⟩

/-- A read from client `i` and an update of it. -/
theorem Effect.update {d d' : Daemon W β} {i : Nat} {c c' : Client} {l : List SockEv} (hc : d.clients[i]? = some c)
    (hlog : d'.log = d.log ++ l) (hcs : d'.clients = d.clients.set i c') (hs : c'.sock = c.sock)
    (hl : ∀ e ∈ l, ownOf e = some c.sock) (ha : c'.active = false → c.active = false ∨ ∃ e ∈ l, badOn c.sock e)
    (ht : c.type = typeOf c.sock d.log → c'.type = typeOf c.sock (d.log ++ l))
    (hp : d'.pollfds = d.pollfds) (he : d'.localEid = d.localEid) : Effect d d' l := by
  have hna : ∀ fd, SockEv.accepted fd ∉ l := by intro f hm; have := hl _ hm; cases this
  have hsocks : d'.clients.map (·.sock) = d.clients.map (·.sock) := by
    rw [hcs, List.map_set, hs]
    apply List.ext_getElem?
    intro j
    rw [List.getElem?_set]
    split
    · rename_i hij
      subst hij
      rw [List.getElem?_map, hc]
      have := (List.getElem?_eq_some_iff.mp hc).1
      simp [this]
    · rfl
  have hcl : ∀ fd, closedOn fd l = 0 := by
    intro fd
    unfold closedOn
    rw [List.countP_eq_zero]
    intro e he' hh
    have := hl e he'
    simp only [beq_iff_eq] at hh
    subst hh
    cases this
  refine ⟨hlog, ?_, ?_, fun fd => ?_, ?_, fun _ => hsocks, fun hj => ⟨fun x hx hxa => ?_, ?_⟩,
    fun hty => ⟨by rw [hsocks]; exact hty.nodup, fun x hx => ?_, hlog ▸ conn_keep hty.nodup hty.conn
      (fun fd => by rw [hsocks, hcl]; rfl) hna⟩, fun _ => noSends fun f b r hm => ?_, hp, he⟩
  · intro f r hm; have := hl _ hm; cases this
  · intro f hm; have := hl _ hm; cases this
  · have : closedOn fd l = 0 := by
      unfold closedOn
      rw [List.countP_eq_zero]
      intro e he' hh
      have := hl e he'
      simp only [beq_iff_eq] at hh
      subst hh
      cases this
    rw [this, hsocks]; rfl
  · rw [hcs, List.length_set]; exact Nat.le_refl _
  · rw [hlog]
    rw [hcs] at hx
    rcases List.mem_or_eq_of_mem_set hx with hx | rfl
    · obtain ⟨e, he, hbad⟩ := hj.dead x hx hxa
      exact ⟨e, since_left (hna _) he, hbad⟩
    · rcases ha hxa with h | ⟨e, he, hbad⟩
      · obtain ⟨e, he, hbad⟩ := hj.dead c (List.mem_of_getElem? hc) h
        exact ⟨e, since_left (hna _) (hs ▸ he), hs ▸ hbad⟩
      · exact ⟨e, since_right (hna _) he, hs ▸ hbad⟩
  · rw [hlog]
    refine Each.append.mpr ⟨hj.shut, Each.intro ?_⟩
    rintro a e b hab fd rfl
    have := hl (.closed fd) (by rw [hab]; simp)
    cases this
  · rw [hlog]
    rw [hcs] at hx
    obtain ⟨j, hj⟩ := List.getElem?_of_mem hx
    rw [List.getElem?_set] at hj
    have hci := List.getElem?_eq_some_iff.mp hc
    obtain ⟨hi, hci⟩ := hci
    split at hj
    · rename_i hij
      cases hj
      rw [hs]
      exact ht (hty.types c (List.mem_of_getElem? hc))
    · rename_i hij
      obtain ⟨hj1, hj2⟩ := List.getElem?_eq_some_iff.mp hj
      have hne : x.sock ≠ c.sock := by
        intro heq
        have := (List.getElem?_inj (i := i) (j := j) (l := d.clients.map (·.sock)) (by simpa using hi) hty.nodup).mp
          (by rw [List.getElem?_map, List.getElem?_map, hc, hj]; simp [heq])
        exact hij this
      rw [hty.types x (List.mem_of_getElem? hj), typeOf_append]
      intro e he hst
      have := hl e he
      cases e <;> simp only [ownOf, setsType, Option.some.injEq, reduceCtorEq] at this hst
      exact hne (hst.1 ▸ this)
  · have := hl _ hm; cases this

theorem set_self {α : Type} {l : List α} {i : Nat} {a : α} (h : l[i]? = some a) : l.set i a = l := by
  apply List.ext_getElem?
  intro j
  rw [List.getElem?_set]
  split
  · rename_i hij
    subst hij
    have := (List.getElem?_eq_some_iff.mp h).1
    simp [this, h]
    exact (List.getElem?_eq_some_iff.mp h).2.symm
  · rfl

theorem reads_own {l : List SockEv} {fd : Int} (h : ∀ e ∈ l, ownOf e = some fd) : ∀ e ∈ l, ∀ f, readFrom e = some f → f = fd := by
  intro e he f hf
  have := h e he
  cases e <;> simp only [ownOf, readFrom, Option.some.injEq, reduceCtorEq] at this hf <;> rw [← hf, ← this]

theorem gentle_reads {net : Net W} {l : List SockEv} {fd : Int} (h : ∀ e ∈ l, ownOf e = some fd) : Gentle net l := by
  intro _ _ f hm
  have := h _ hm
  cases this

theorem takeMessage_effect {net : Net W} {ops : Ops β} {d d' : Daemon W β} {i : Nat} {c : Client} {rc : Int}
    (hc : d.clients[i]? = some c) (h : d.takeMessage net ops i c = .ok (d', rc)) :
    ∃ l, Effect d d' l ∧ Gentle net l ∧ (∀ e ∈ l, ∀ fd, readFrom e = some fd → fd = c.sock) ∧ d'.changed = d.changed := by
  unfold Daemon.takeMessage at h
  generalize hz : net.recv d.w c.sock d.bufSize = z at h
  obtain ⟨rc2, bs, w3⟩ := z
  dsimp only at h
  generalize hm : exactly (min rc2 ↑d.bufSize).toNat bs = m at h
  have hl2 : ∀ e ∈ [SockEv.received c.sock (min rc2 ↑d.bufSize) m], ownOf e = some c.sock := by
    simp [ownOf]
  split at h
  · cases h
    exact ⟨_, Effect.update hc rfl rfl rfl hl2
      (fun _ => .inr ⟨.received c.sock (min rc2 ↑d.bufSize) [], by simp, rfl, rfl⟩) (fun h => h.trans (typeOf_append (by simp [setsType])).symm) rfl rfl,
      gentle_reads hl2, reads_own hl2, rfl⟩
  · rename_i eid payload
    have hE : ∀ d2 : Daemon W β, d2.log = d.log ++ [.received c.sock (min rc2 ↑d.bufSize) (eid :: payload)] →
        d2.clients = d.clients → d2.pollfds = d.pollfds → d2.localEid = d.localEid →
        Effect d d2 [.received c.sock (min rc2 ↑d.bufSize) (eid :: payload)] := by
      intro d2 g1 g2 g4 g5
      exact Effect.update hc g1 (by rw [g2, set_self hc]) rfl hl2 (fun ha => .inl ha) (fun h => h.trans (typeOf_append (by simp [setsType])).symm) g4 g5
    split at h
    · cases h
      obtain ⟨l3, k1, -, k3, k4, k5, k6, k7⟩ := rxMessage_effect net
        (Daemon.mk w3 (d.log ++ [.received c.sock (min rc2 ↑d.bufSize) (eid :: payload)]) d.core d.evs d.localEid d.bufSize
          d.clients d.pollfds d.changed) eid payload
      refine ⟨_, (hE (Daemon.mk w3 (d.log ++ [.received c.sock (min rc2 ↑d.bufSize) (eid :: payload)]) d.core d.evs d.localEid
        d.bufSize d.clients d.pollfds d.changed) rfl rfl rfl rfl).trans k1, Gentle.append (gentle_reads hl2) k4, ?_, k7⟩
      intro e he fd hfd
      rcases List.mem_append.mp he with he | he
      · exact reads_own hl2 e he fd hfd
      · rw [k3 e he] at hfd; cases hfd
    · obtain ⟨d3, h3, h⟩ := Res.bind_eq_ok.mp h
      cases h
      obtain ⟨c3, e3', rc3, k1, rfl⟩ := txMessage_ok h3
      exact ⟨_, (hE (Daemon.mk w3 (d.log ++ [.received c.sock (min rc2 ↑d.bufSize) (eid :: payload)]) d.core d.evs d.localEid
        d.bufSize d.clients d.pollfds d.changed) rfl rfl rfl rfl).of rfl rfl rfl rfl, gentle_reads hl2, reads_own hl2, rfl⟩

theorem clientProcessRecv_effect {net : Net W} {ops : Ops β} {d d' : Daemon W β} {i : Nat} {rc : Int}
    (h : d.clientProcessRecv net ops i = .ok (d', rc)) :
    ∃ c l, d.clients[i]? = some c ∧ Effect d d' l ∧ Gentle net l ∧ (∀ e ∈ l, ∀ fd, readFrom e = some fd → fd = c.sock) ∧
      d'.changed = d.changed := by
  unfold Daemon.clientProcessRecv at h
  split at h
  · cases h
  rename_i c hc
  refine ⟨c, ?_⟩
  split at h
  · rename_i hty0
    generalize hx : net.readByte d.w c.sock = x at h
    obtain ⟨rc1, b, w⟩ := x
    dsimp only at h
    have hl : ∀ e ∈ [SockEv.readByte c.sock rc1 b], ownOf e = some c.sock := by simp [ownOf]
    split at h
    · rename_i h0
      cases h
      exact ⟨_, hc, Effect.update hc rfl rfl rfl hl (fun _ => .inr ⟨_, List.mem_singleton_self _, rfl, .inl h0⟩)
        (fun h => h.trans (typeOf_append (by simp [setsType]; omega)).symm) rfl rfl,
        gentle_reads hl, reads_own hl, rfl⟩
    · split at h
      · rename_i h0
        cases h
        exact ⟨_, hc, Effect.update hc rfl rfl rfl hl (fun _ => .inr ⟨_, List.mem_singleton_self _, rfl, .inr h0⟩)
          (fun h => by rw [typeOf_snoc]; dsimp only; rw [hty0]; split <;> simp_all) rfl rfl,
          gentle_reads hl, reads_own hl, rfl⟩
      · cases h
        exact ⟨_, hc, Effect.update hc rfl rfl rfl hl (fun ha => .inl ha)
          (fun _ => by rw [typeOf_snoc]; dsimp only; rw [if_pos ⟨rfl, by omega⟩]) rfl rfl, gentle_reads hl, reads_own hl, rfl⟩
  · generalize hx : net.peek d.w c.sock = x at h
    obtain ⟨len, w⟩ := x
    dsimp only at h
    have hl : ∀ e ∈ [SockEv.peeked c.sock len], ownOf e = some c.sock := by simp [ownOf]
    split at h
    · rename_i h0
      cases h
      exact ⟨_, hc, Effect.update hc rfl rfl rfl hl (fun _ => .inr ⟨_, List.mem_singleton_self _, rfl, h0⟩)
        (fun h => h.trans (typeOf_append (by simp [setsType])).symm) rfl rfl,
        gentle_reads hl, reads_own hl, rfl⟩
    · generalize hy : (if decide (len.toNat > d.bufSize) = true then net.grow w else (true, w)) = y at h
      obtain ⟨ok, w2⟩ := y
      dsimp only at h
      generalize hq : (if decide (len.toNat > d.bufSize) = true then [SockEv.resized c.sock ok] else []) = q at h
      have hl2 : ∀ e ∈ [SockEv.peeked c.sock len] ++ q, ownOf e = some c.sock := by
        intro e he
        rcases List.mem_append.mp he with he | he
        · exact hl e he
        · rw [← hq] at he
          split at he
          · cases List.mem_singleton.mp he; rfl
          · cases he
      have hst : ∀ e ∈ [SockEv.peeked c.sock len] ++ q, ¬ setsType c.sock e := by
        intro e he
        rcases List.mem_append.mp he with he | he
        · cases List.mem_singleton.mp he; exact id
        · rw [← hq] at he
          split at he
          · cases List.mem_singleton.mp he; exact id
          · cases he
      split at h
      · rename_i hok
        cases h
        have hok : ok = false := by simpa using hok
        have hin : SockEv.resized c.sock false ∈ q := by
          rw [← hq]
          by_cases hn : decide (len.toNat > d.bufSize) = true
          · rw [if_pos hn, hok]; simp
          · rw [if_neg hn] at hy; cases hy; simp at hok
        refine ⟨[.peeked c.sock len] ++ q, hc, Effect.update hc (by simp [Daemon.setClient]) rfl rfl hl2
          (fun _ => .inr ⟨_, List.mem_append_right _ hin, rfl, rfl⟩) (fun h => h.trans (typeOf_append hst).symm) rfl rfl, gentle_reads hl2, reads_own hl2, rfl⟩
      · generalize hd1 : (if decide (len.toNat > d.bufSize) = true then
            (Daemon.mk w2 (d.log ++ [.peeked c.sock len] ++ q) d.core d.evs d.localEid len.toNat d.clients d.pollfds d.changed)
          else (Daemon.mk w2 (d.log ++ [.peeked c.sock len] ++ q) d.core d.evs d.localEid d.bufSize d.clients d.pollfds d.changed)) = d1 at h
        have e : d1.log = d.log ++ ([.peeked c.sock len] ++ q) ∧ d1.localEid = d.localEid ∧
            d1.clients = d.clients ∧ d1.pollfds = d.pollfds ∧ d1.changed = d.changed := by
          rw [← hd1]
          split <;> exact ⟨List.append_assoc .., rfl, rfl, rfl, rfl⟩
        clear hd1
        obtain ⟨e1, e4, e6, e7, e8⟩ := e
        obtain ⟨l2, k1, k2, k3, k4⟩ := takeMessage_effect (by rw [e6]; exact hc) h
        have hE : Effect d d1 ([.peeked c.sock len] ++ q) :=
          Effect.update hc e1 (by rw [e6, set_self hc]) rfl hl2 (fun ha => .inl ha) (fun h => h.trans (typeOf_append hst).symm) e7 e4
        refine ⟨_, hc, hE.trans k1, Gentle.append (gentle_reads hl2) k2, ?_, k4.trans e8⟩
        intro e he fd hfd
        rcases List.mem_append.mp he with he | he
        · exact reads_own hl2 e he fd hfd
        · exact k3 e he fd hfd

/-! ### The loop over the clients -/

/-- What a read may look like, given the calls before it. -/
def ReadReported (pre : List SockEv) (e : SockEv) : Prop :=
  NoFailedSend pre → ∀ fd, readFrom e = some fd → fd ∈ lastReported pre

theorem Effect.reported {d d' : Daemon W β} {l : List SockEv} (h : Effect d d' l) : lastReported d'.log = lastReported d.log := by
  rw [h.log, lastReported_append h.polls]

theorem clientLoop_effect {net : Net W} {ops : Ops β} {ready : Nat → Bool} {fuel i : Nat} {d d' : Daemon W β}
    (h : d.clientLoop net ops ready fuel i = .ok d') :
    ∃ l, Effect d d' l ∧ Gentle net l ∧ (d.changed = true → d'.changed = true) ∧
      ((∀ w, (net.junk w).1 = false) → (NoFailedSend d.log → d.pollfds = d.clients.map (·.sock)) →
        (NoFailedSend d.log → ∀ j fd, d.pollfds[j]? = some fd → ready j = true → fd ∈ lastReported d.log) →
        Each ReadReported d.log l) := by
  induction fuel generalizing i d with
  | zero =>
    unfold Daemon.clientLoop at h
    split at h
    · cases h
    · cases h
      exact ⟨[], Effect.refl _, by intro _ _; simp, id, fun _ _ _ => trivial⟩
  | succ fuel ih =>
    unfold Daemon.clientLoop at h
    split at h
    case isFalse =>
      cases h
      exact ⟨[], Effect.refl _, by intro _ _; simp, id, fun _ _ _ => trivial⟩
    case isTrue hi =>
      split at h
      case isFalse => cases h
      case isTrue hip =>
        split at h
        case isFalse => exact ih h
        case isTrue hrd =>
          obtain ⟨⟨d1, rc⟩, h1, h⟩ := Res.bind_eq_ok.mp h
          obtain ⟨c, l1, hc, hE, hG, hR, hch⟩ := clientProcessRecv_effect h1
          dsimp only at h
          generalize hd2 : (if rc ≠ 0 then { d1 with changed := true } else d1) = d2 at h
          have e : d2.log = d1.log ∧ d2.clients = d1.clients ∧ d2.bufSize = d1.bufSize ∧ d2.pollfds = d1.pollfds ∧
              d2.localEid = d1.localEid ∧ (d1.changed = true → d2.changed = true) := by
            rw [← hd2]; split <;> exact ⟨rfl, rfl, rfl, rfl, rfl, by simp⟩
          obtain ⟨e1, e2, e3, e4, e5, e6⟩ := e
          have hE2 : Effect d d2 l1 := hE.of e1 e2 e4 e5
          obtain ⟨l2, g1, g2, g3, g4⟩ := ih h
          refine ⟨l1 ++ l2, hE2.trans g1, Gentle.append hG g2, fun hc => g3 (e6 (hch.trans hc)), ?_⟩
          intro hj hp hrp
          refine Each.append.mpr ⟨Each.intro ?_, ?_⟩
          · intro a e b hab hnf fd hfd
            have hnf0 := (NoFailedSend.append.mp hnf).1
            have hfd' := hR e (by rw [hab]; simp) fd hfd
            have hpa : ∀ f r, SockEv.polled f r ∉ a := fun f r hm => hE.polls f r (by rw [hab]; simp [hm])
            rw [lastReported_append hpa]
            refine hrp hnf0 i fd ?_ hrd
            rw [hp hnf0, List.getElem?_map, hc, hfd']; rfl
          · rw [← hE2.log]
            refine g4 hj ?_ ?_
            · intro hnf
              rw [hE2.log] at hnf
              obtain ⟨n1, n2⟩ := NoFailedSend.append.mp hnf
              rw [hE2.poll, hp n1, hE2.same (hG hj n2)]
            · intro hnf j fd
              rw [hE2.log] at hnf
              rw [hE2.poll, hE2.reported]
              exact hrp (NoFailedSend.append.mp hnf).1 j fd

/-! ### The loop of the daemon -/

/-- What poll() must be asked to watch, given the calls before it. -/
def PollsOpen (pre : List SockEv) (e : SockEv) : Prop :=
  NoFailedSend pre → ∀ f r, e = .polled f r → ∀ fd, 0 ≤ fd → f.count fd + closedOn fd pre = acceptedOn fd pre

/-- The invariant of the daemon between iterations. -/
structure DInv (net : Net W) (d : Daemon W β) : Prop where
  just  : Each FreshAccept [] d.log → Just d.log d.clients
  typed : Each FreshAccept [] d.log → Typed d.log d.clients ∧ Each SentRegistered [] d.log
  count : ∀ fd, 0 ≤ fd → (d.clients.map (·.sock)).count fd + closedOn fd d.log = acceptedOn fd d.log
  socks : ∀ c ∈ d.clients, 0 ≤ c.sock
  len   : d.changed = false → d.clients.length ≤ d.pollfds.length
  happy : (∀ w, (net.junk w).1 = false) →
    (NoFailedSend d.log → d.changed = false → d.pollfds = d.clients.map (·.sock)) ∧
    Each PollsOpen [] d.log ∧ Each ReadReported [] d.log

theorem Effect.opened {d d' : Daemon W β} {l : List SockEv} (h : Effect d d' l) : Each PollsOpen d.log l :=
  Each.intro fun a e b hab _ f r he => absurd (by rw [hab, he]; simp) (h.polls f r)

theorem Effect.dcount {d d' : Daemon W β} {l : List SockEv} (h : Effect d d' l) {fd : Int}
    (hc : (d.clients.map (·.sock)).count fd + closedOn fd d.log = acceptedOn fd d.log) :
    (d'.clients.map (·.sock)).count fd + closedOn fd d'.log = acceptedOn fd d'.log := by
  have h0 : acceptedOn fd l = 0 := by
    unfold acceptedOn
    rw [List.countP_eq_zero]
    intro e he hh
    simp only [beq_iff_eq] at hh
    exact h.accs fd (hh ▸ he)
  have := h.count fd
  rw [h.log, closedOn_append, acceptedOn_append, h0]
  omega

/-- Preservation by a part without reads. -/
theorem DInv.step {net : Net W} {d d' : Daemon W β} {l : List SockEv} (hI : DInv net d) (h : Effect d d' l)
    (hch : d.changed = true → d'.changed = true)
    (hG : Gentle net l ∨ d'.changed = true)
    (hr : (∀ w, (net.junk w).1 = false) → Each ReadReported d.log l) : DInv net d' where
  just hf := h.just (hI.just (Each.append.mp (h.log ▸ hf)).1)
  typed hf := by
    obtain ⟨h1, h2⟩ := hI.typed (Each.append.mp (h.log ▸ hf)).1
    refine ⟨h.typed h1, ?_⟩
    rw [h.log]
    exact Each.append.mpr ⟨h2, by simpa using h.sends h1⟩
  count fd hfd := h.dcount (hI.count fd hfd)
  socks c hc := by
    have h1 : 0 < (d'.clients.map (·.sock)).count c.sock := List.count_pos_iff.mpr (List.mem_map_of_mem hc)
    have h2 := h.count c.sock
    have h3 : 0 < (d.clients.map (·.sock)).count c.sock := by omega
    obtain ⟨c0, h4, h5⟩ := List.mem_map.mp (List.count_pos_iff.mp h3)
    rw [← h5]; exact hI.socks c0 h4
  len hc := by
    rw [h.poll]
    refine Nat.le_trans h.len (hI.len ?_)
    cases hd : d.changed
    · rfl
    · rw [hch hd] at hc; cases hc
  happy hj := by
    obtain ⟨h1, h2, h3⟩ := hI.happy hj
    refine ⟨fun hnf hc => ?_, ?_, ?_⟩
    · rcases hG with hG | hG
      · rw [h.log] at hnf
        obtain ⟨n1, n2⟩ := NoFailedSend.append.mp hnf
        rw [h.poll, h.same (hG hj n2)]
        refine h1 n1 ?_
        cases hd : d.changed
        · rfl
        · rw [hch hd] at hc; cases hc
      · rw [hG] at hc; cases hc
    · rw [h.log]; exact Each.append.mpr ⟨h2, by simpa using h.opened⟩
    · rw [h.log]; exact Each.append.mpr ⟨h3, by simpa using hr hj⟩

theorem noReads_reported {pre l : List SockEv} (h : ∀ e ∈ l, readFrom e = none) : Each ReadReported pre l :=
  Each.intro fun a e b hab _ fd hfd => by rw [h e (by rw [hab]; simp)] at hfd; cases hfd

theorem mem_reported {f : Nat → Bool} {fds : List Int} : ∀ {i j : Nat} {fd : Int}, fds[j]? = some fd → f (i + j) = true →
    fd ∈ reported f i fds := by
  induction fds with
  | nil => intro i j fd h; cases h
  | cons x xs ih =>
    intro i j fd h hf
    unfold reported
    cases j with
    | zero =>
      simp only [List.getElem?_cons_zero, Option.some.injEq] at h
      rw [Nat.add_zero] at hf
      rw [if_pos hf, h]
      simp
    | succ j =>
      simp only [List.getElem?_cons_succ] at h
      refine List.mem_append_right _ (ih h ?_)
      rw [← hf]; congr 1; omega

/-- What holds after poll(), besides the invariant. -/
structure Polled (net : Net W) (r : Ready π) (d : Daemon W β) : Prop where
  inv  : DInv net d
  len  : d.clients.length ≤ d.pollfds.length
  same : (∀ w, (net.junk w).1 = false) → NoFailedSend d.log → d.pollfds = d.clients.map (·.sock)
  rep  : (∀ w, (net.junk w).1 = false) → NoFailedSend d.log →
    ∀ j fd, d.pollfds[j]? = some fd → r.client j = true → fd ∈ lastReported d.log

theorem DInv.poll {net : Net W} {d : Daemon W β} (hI : DInv net d) (r : Ready π) :
    ∃ d', d.poll r = .ok d' ∧ Polled net r d' ∧ d'.core = d.core ∧ d'.clients = d.clients := by
  unfold Daemon.poll
  generalize hd1 : (if d.changed = true then { d with pollfds := d.clients.map (·.sock), changed := false } else d) = d1
  have e : d1.log = d.log ∧ d1.clients = d.clients ∧ d1.bufSize = d.bufSize ∧ d1.core = d.core ∧ d1.changed = false ∧
      d1.clients.length ≤ d1.pollfds.length ∧
      ((∀ w, (net.junk w).1 = false) → NoFailedSend d.log → d1.pollfds = d1.clients.map (·.sock)) := by
    rw [← hd1]
    split
    · refine ⟨rfl, rfl, rfl, rfl, rfl, ?_, fun _ _ => rfl⟩
      simp
    · rename_i hc
      have hc : d.changed = false := by simpa using hc
      exact ⟨rfl, rfl, rfl, rfl, hc, hI.len hc, fun hj hn => (hI.happy hj).1 hn hc⟩
  clear hd1
  obtain ⟨e1, e2, e3, e4, e5, e6, e7⟩ := e
  dsimp only
  rw [if_pos e6]
  have hx : ∀ (x : SockEv), (∃ f r, x = .polled f r) → ∀ fd, closedOn fd (d1.log ++ [x]) = closedOn fd d.log ∧
      acceptedOn fd (d1.log ++ [x]) = acceptedOn fd d.log := by
    rintro x ⟨f, r, rfl⟩ fd
    rw [closedOn_append, acceptedOn_append, e1]
    exact ⟨rfl, rfl⟩
  have hnf : ∀ (f r : List Int), NoFailedSend (d1.log ++ [.polled f r]) → NoFailedSend d.log := by
    intro f r h; rw [e1] at h; exact (NoFailedSend.append.mp h).1
  have hfr : ∀ (f r : List Int), Each FreshAccept [] (d1.log ++ [.polled f r]) → Each FreshAccept [] d.log := by
    intro f r h; rw [e1] at h; exact (Each.append.mp h).1
  refine ⟨_, rfl, ⟨⟨fun hf => ⟨?_, ?_⟩, fun hf => ?_, ?_, fun c hc => hI.socks c (e2 ▸ hc), fun _ => e6, fun hj => ⟨fun h _ => e7 hj (hnf _ _ h), ?_, ?_⟩⟩, e6,
    fun hj h => e7 hj (hnf _ _ h), ?_⟩, e4, e2⟩
  · intro c hc ha
    dsimp only at hc ⊢
    rw [e2] at hc
    obtain ⟨e, he, hb⟩ := (hI.just (hfr _ _ hf)).dead c hc ha
    exact ⟨e, by rw [e1]; exact since_left (by simp) he, hb⟩
  · dsimp only
    rw [e1]
    refine Each.append.mpr ⟨(hI.just (hfr _ _ hf)).shut, ?_, trivial⟩
    intro fd h; cases h
  · obtain ⟨ht, hs⟩ := hI.typed (hfr _ _ hf)
    refine ⟨⟨by dsimp only; rw [e2]; exact ht.nodup, fun c hc => ?_, fun c hc => ?_⟩, ?_⟩
    · dsimp only at hc ⊢
      rw [e1, ht.types c (e2 ▸ hc), typeOf_append]
      intro e he; cases List.mem_singleton.mp he; exact id
    · dsimp only at hc ⊢
      rw [(hx _ ⟨_, _, rfl⟩ _).1, (hx _ ⟨_, _, rfl⟩ _).2]
      exact ht.conn c (e2 ▸ hc)
    · dsimp only
      rw [e1]
      refine Each.append.mpr ⟨hs, ?_, trivial⟩
      intro fd bs rc h; cases h
  · intro fd hfd
    dsimp only
    rw [(hx _ ⟨_, _, rfl⟩ fd).1, (hx _ ⟨_, _, rfl⟩ fd).2, e2]
    exact hI.count fd hfd
  · dsimp only
    rw [e1]
    refine Each.append.mpr ⟨(hI.happy hj).2.1, ?_, trivial⟩
    intro hn f r he fd hfd
    rw [List.nil_append] at hn ⊢
    cases he
    rw [e7 hj hn, List.take_of_length_le (by simp), e2]
    exact hI.count fd hfd
  · dsimp only
    rw [e1]
    refine Each.append.mpr ⟨(hI.happy hj).2.2, ?_, trivial⟩
    intro hn fd hfd; cases hfd
  · intro hj hn j fd hjf hr
    dsimp only at hjf hn ⊢
    rw [lastReported_polled]
    refine mem_reported (i := 0) (j := j) ?_ (by rw [Nat.zero_add]; exact hr)
    rw [List.take_of_length_le]
    · exact hjf
    · rw [e7 hj (hnf _ _ hn)]; simp

/-- The `proc` part. -/
theorem Polled.deliver {net : Net W} {r : Ready π} {d : Daemon W β} (hP : Polled net r d) (c : Core β) (e : List Event) :
    Polled net r (({ d with core := c, evs := d.evs ++ e } : Daemon W β).deliver net e) := by
  obtain ⟨l, h1, h2, h3, h4, h5, h6⟩ := deliver_effect net e ({ d with core := c, evs := d.evs ++ e } : Daemon W β)
  have hE := h1.before (d := d) rfl rfl rfl rfl
  refine ⟨hP.inv.step hE (fun h => h6.trans h) (.inl h3) (fun _ => noReads_reported h2), ?_, ?_, ?_⟩
  · rw [hE.poll]; exact Nat.le_trans hE.len hP.len
  · intro hj hn
    rw [hE.log] at hn
    obtain ⟨n1, n2⟩ := NoFailedSend.append.mp hn
    rw [hE.poll, hE.same (h3 hj n2), hP.same hj n1]
  · intro hj hn
    rw [hE.log] at hn
    obtain ⟨n1, n2⟩ := NoFailedSend.append.mp hn
    rw [hE.poll, hE.reported]
    exact hP.rep hj n1

theorem Polled.clients {net : Net W} {ops : Ops β} {r : Ready π} {d d' : Daemon W β} {fuel i : Nat} (hP : Polled net r d)
    (h : d.clientLoop net ops r.client fuel i = .ok d') : DInv net d' := by
  obtain ⟨l, h1, h2, h3, h4⟩ := clientLoop_effect h
  exact hP.inv.step h1 h3 (.inl h2) fun hj => h4 hj (hP.same hj) (hP.rep hj)

/-- A call of accept() that failed, and one that gave a client. -/
theorem DInv.accepted {net : Net W} {d d' : Daemon W β} (hI : DInv net d) {fd : Int}
    (hlog : d'.log = d.log ++ [.accepted fd]) (hpoll : d'.pollfds = d.pollfds)
    (hcs : (fd < 0 ∧ d'.clients = d.clients ∧ d'.changed = d.changed) ∨
      (0 ≤ fd ∧ d'.clients = d.clients ++ [{ active := true, sock := fd, type := 0 }] ∧ d'.changed = true)) : DInv net d' := by
  have hnf : NoFailedSend d'.log → NoFailedSend d.log := by rw [hlog]; exact fun h => (NoFailedSend.append.mp h).1
  refine ⟨fun hf => ⟨?_, ?_⟩, fun hf => ?_, ?_, ?_, ?_, fun hj => ⟨fun h hc => ?_, ?_, ?_⟩⟩
  · intro c hc ha
    rw [hlog] at hf
    obtain ⟨hf1, hf2, -⟩ := Each.append.mp hf
    have hin : c ∈ d.clients := by
      rcases hcs with ⟨-, h, -⟩ | ⟨-, h, -⟩
      · rw [h] at hc; exact hc
      · rw [h] at hc
        rcases List.mem_append.mp hc with hc | hc
        · exact hc
        · cases List.mem_singleton.mp hc; cases ha
    have hne : fd ≠ c.sock := by
      intro he
      have hpos : 0 < (d.clients.map (·.sock)).count fd := List.count_pos_iff.mpr (he ▸ List.mem_map_of_mem hin)
      by_cases h0 : 0 ≤ fd
      · have h1 := hI.count fd h0
        have h2 := hf2 fd rfl h0
        rw [List.nil_append] at h2
        omega
      · have := hI.socks c hin; omega
    obtain ⟨e, he, hb⟩ := (hI.just hf1).dead c hin ha
    refine ⟨e, ?_, hb⟩
    rw [hlog, since_other _ hne]
    exact List.mem_append_left _ he
  · rw [hlog] at hf ⊢
    refine Each.append.mpr ⟨(hI.just (Each.append.mp hf).1).shut, ?_, trivial⟩
    intro fd h; cases h
  · rw [hlog] at hf
    obtain ⟨hf1, hf2, -⟩ := Each.append.mp hf
    obtain ⟨ht, hs⟩ := hI.typed hf1
    have hold : ∀ c ∈ d.clients, fd ≠ c.sock := by
      intro c hin he
      have hpos : 0 < (d.clients.map (·.sock)).count fd := List.count_pos_iff.mpr (he ▸ List.mem_map_of_mem hin)
      by_cases h0 : 0 ≤ fd
      · have h1 := hI.count fd h0
        have h2 := hf2 fd rfl h0
        rw [List.nil_append] at h2
        omega
      · have := hI.socks c hin; omega
    have hold2 : ∀ c ∈ d.clients, c.type = typeOf c.sock d'.log ∧ acceptedOn c.sock d'.log = closedOn c.sock d'.log + 1 := by
      intro c hc
      rw [hlog]
      refine ⟨?_, ?_⟩
      · rw [ht.types c hc, typeOf_append]
        intro e he; cases List.mem_singleton.mp he; exact hold c hc
      · rw [acceptedOn_append, closedOn_append, ht.conn c hc, acceptedOn_none (l := [.accepted fd])]
        · rfl
        · simpa using fun h => hold c hc h.symm
    refine ⟨?_, ?_⟩
    · rcases hcs with ⟨-, h, -⟩ | ⟨h0, h, -⟩
      · exact ⟨by rw [h]; exact ht.nodup, fun c hc => (hold2 c (h ▸ hc)).1, fun c hc => (hold2 c (h ▸ hc)).2⟩
      · have hall : ∀ c ∈ d'.clients, c.type = typeOf c.sock d'.log ∧ acceptedOn c.sock d'.log = closedOn c.sock d'.log + 1 := by
          intro c hc
          rw [h] at hc
          rcases List.mem_append.mp hc with hc | hc
          · exact hold2 c hc
          · cases List.mem_singleton.mp hc
            dsimp only
            rw [hlog, typeOf_snoc, acceptedOn_append, closedOn_append]
            have h2 := hf2 fd rfl h0
            rw [List.nil_append] at h2
            refine ⟨by simp, ?_⟩
            rw [h2]
            simp [acceptedOn, closedOn]
        refine ⟨?_, fun c hc => (hall c hc).1, fun c hc => (hall c hc).2⟩
        rw [h, List.map_append, List.nodup_append]
        refine ⟨ht.nodup, by simp, ?_⟩
        intro x hx y hy
        obtain ⟨c, hc, rfl⟩ := List.mem_map.mp hx
        simp only [List.map_cons, List.map_nil, List.mem_singleton] at hy
        rw [hy]
        exact fun h => hold c hc h.symm
    · rw [hlog]
      refine Each.append.mpr ⟨hs, ?_, trivial⟩
      intro f bs rc h; cases h
  · intro f hf
    rw [hlog, closedOn_append, acceptedOn_append]
    have := hI.count f hf
    have h0 : closedOn f [.accepted fd] = 0 := rfl
    have h1 : acceptedOn f [.accepted fd] = if fd = f then 1 else 0 := by
      by_cases h : fd = f
      · subst h; simp [acceptedOn]
      · rw [if_neg h]; simp [acceptedOn, h]
    rw [h0, h1]
    rcases hcs with ⟨h, hc, -⟩ | ⟨h, hc, -⟩
    · rw [hc, if_neg (by omega)]; omega
    · rw [hc, List.map_append, List.count_append]
      by_cases he : fd = f
      · subst he; rw [if_pos rfl]; simp; omega
      · rw [if_neg he]; simp [he]; omega
  · intro c hc
    rcases hcs with ⟨-, h, -⟩ | ⟨h0, h, -⟩
    · rw [h] at hc; exact hI.socks c hc
    · rw [h] at hc
      rcases List.mem_append.mp hc with hc | hc
      · exact hI.socks c hc
      · cases List.mem_singleton.mp hc; exact h0
  · intro hc
    rcases hcs with ⟨-, h, h'⟩ | ⟨-, -, h'⟩
    · rw [hpoll, h]; exact hI.len (h' ▸ hc)
    · rw [h'] at hc; cases hc
  · rcases hcs with ⟨-, h', h''⟩ | ⟨-, -, h''⟩
    · rw [hpoll, h']; exact (hI.happy hj).1 (hnf h) (h'' ▸ hc)
    · rw [h''] at hc; cases hc
  · rw [hlog]
    refine Each.append.mpr ⟨(hI.happy hj).2.1, ?_, trivial⟩
    intro _ f r he; cases he
  · rw [hlog]
    refine Each.append.mpr ⟨(hI.happy hj).2.2, ?_, trivial⟩
    intro _ f he; cases he

theorem react_inv {net : Net W} {ops : Ops β} {proc : π → Core β → Res (Core β × List Event × Int)} {r : Ready π}
    {d d' : Daemon W β} {stop : Bool} (hP : Polled net r d) (h : d.react net ops proc r = .ok (d', stop)) : DInv net d' := by
  unfold Daemon.react at h
  obtain ⟨⟨d1, s1⟩, h1, h⟩ := Res.bind_eq_ok.mp h
  have hP1 : Polled net r d1 := by
    unfold Daemon.bindingProcess at h1
    split at h1
    · obtain ⟨⟨c, e, rc⟩, -, h1⟩ := Res.bind_eq_ok.mp h1
      cases h1
      exact hP.deliver c e
    · cases h1; exact hP
  dsimp only at h
  split at h
  · cases h; exact hP1.inv
  · obtain ⟨d2, h2, h⟩ := Res.bind_eq_ok.mp h
    have hI2 := hP1.clients h2
    have hfin : ∀ d3 : Daemon W β, DInv net d3 → DInv net (if d3.changed then d3.removeInactive else d3) := by
      intro d3 hI3
      split
      · rename_i hc
        obtain ⟨l, hE, -, hr⟩ := removeInactive_effect d3
        exact hI3.step hE (fun h => h) (.inr hc) fun _ => noReads_reported hr
      · exact hI3
    split at h
    · simp only [Daemon.socketProcess] at h
      by_cases hfd : (net.accept d2.w).1 < 0
      · simp only [if_pos hfd] at h
        cases h
        exact hI2.accepted (fd := (net.accept d2.w).1) rfl rfl (.inl ⟨hfd, rfl, rfl⟩)
      · simp only [if_neg hfd] at h
        simp only [ne_eq, not_true_eq_false, if_false, Bool.false_eq_true] at h
        cases h
        rw [if_pos trivial]
        have := hfin (Daemon.mk (net.accept d2.w).2 (d2.log ++ [.accepted (net.accept d2.w).1]) d2.core d2.evs d2.localEid d2.bufSize
          (d2.clients ++ [{ active := true, sock := (net.accept d2.w).1, type := 0 }]) d2.pollfds true)
        rw [if_pos rfl] at this
        refine this ?_
        exact hI2.accepted (fd := (net.accept d2.w).1) rfl rfl (.inr ⟨by omega, rfl, rfl⟩)
    · dsimp only at h
      rw [if_neg (by simp)] at h
      cases h
      exact hfin _ hI2

theorem daemonRun_inv {net : Net W} {ops : Ops β} {proc : π → Core β → Res (Core β × List Event × Int)} {rs : List (Ready π)} :
    ∀ {d d' : Daemon W β}, DInv net d → d.run net ops proc rs = .ok d' → DInv net d' := by
  induction rs with
  | nil => intro d d' hI h; cases h; exact hI
  | cons r rest ih =>
    intro d d' hI h
    unfold Daemon.run at h
    obtain ⟨d1, h1, h⟩ := Res.bind_eq_ok.mp h
    obtain ⟨⟨d2, s⟩, h2, h⟩ := Res.bind_eq_ok.mp h
    obtain ⟨d1', g1, hP, -, -⟩ := hI.poll r
    rw [h1] at g1
    cases g1
    have hI2 := react_inv hP h2
    dsimp only at h
    split at h
    · cases h; exact hI2
    · exact ih hI2 h

theorem DInv.init (net : Net W) (w : W) (core : Core β) (eid : Int) : DInv net (Daemon.init w core eid) where
  just _ := ⟨by simp [Daemon.init], trivial⟩
  typed _ := ⟨⟨by simp [Daemon.init], by simp [Daemon.init], by simp [Daemon.init]⟩, trivial⟩
  count fd _ := rfl
  socks := by simp [Daemon.init]
  len _ := Nat.le_refl _
  happy _ := ⟨fun _ _ => rfl, trivial, trivial⟩

/-! ### Totality -/

/-- A set of cores that the binding's `process` function and the transmission of messages do not leave, and on which they do not crash. -/
structure SafeCores (ops : Ops β) (proc : π → Core β → Res (Core β × List Event × Int)) (I : Core β → Prop) : Prop where
  tx   : ∀ c, I c → ∀ eid msg, ∃ c' e rc, c.messageTx ops eid true 0 msg = .ok (c', e, rc) ∧ I c'
  proc : ∀ c, I c → ∀ x, ∃ c' e rc, proc x c = .ok (c', e, rc) ∧ I c'

theorem txMessage_total {net : Net W} {ops : Ops β} {proc : π → Core β → Res (Core β × List Event × Int)} {I : Core β → Prop}
    (hs : SafeCores ops proc I) (d : Daemon W β) (hd : I d.core) (eid : Byte) (msg : List Byte) :
    ∃ d', d.txMessage net ops eid msg = .ok d' ∧ I d'.core := by
  obtain ⟨c', e, rc, h1, h2⟩ := hs.tx d.core hd eid msg
  have h3 : d.txMessage net ops eid msg = .ok (({ d with core := c', evs := d.evs ++ e } : Daemon W β).deliver net e) := by
    unfold Daemon.txMessage
    rw [h1]; rfl
  refine ⟨_, h3, ?_⟩
  rw [deliver_none net _ (messageTx_events h1)]
  exact h2

theorem rxMessage_core (net : Net W) (d : Daemon W β) (eid : Byte) (msg : List Byte) : (d.rxMessage net eid msg).core = d.core := by
  obtain ⟨_, _, _, _, _, h, _⟩ := rxMessage_effect net d eid msg
  exact h

theorem takeMessage_total {net : Net W} {ops : Ops β} {proc : π → Core β → Res (Core β × List Event × Int)} {I : Core β → Prop}
    (hs : SafeCores ops proc I) (d : Daemon W β) (hd : I d.core) (i : Nat) (c : Client) :
    ∃ d' rc, d.takeMessage net ops i c = .ok (d', rc) ∧ I d'.core := by
  unfold Daemon.takeMessage
  generalize net.recv d.w c.sock d.bufSize = z
  obtain ⟨rc2, bs, w3⟩ := z
  dsimp only
  split
  · exact ⟨_, _, rfl, hd⟩
  · rename_i eid payload _
    split
    · exact ⟨_, _, rfl, by rw [rxMessage_core]; exact hd⟩
    · obtain ⟨d', h1, h2⟩ := txMessage_total (net := net) hs
        (Daemon.mk w3 (d.log ++ [.received c.sock (min rc2 ↑d.bufSize) (exactly (min rc2 ↑d.bufSize).toNat bs)]) d.core d.evs d.localEid d.bufSize
          d.clients d.pollfds d.changed) hd eid payload
      exact ⟨d', 0, by rw [h1]; rfl, h2⟩

theorem clientProcessRecv_total {net : Net W} {ops : Ops β} {proc : π → Core β → Res (Core β × List Event × Int)} {I : Core β → Prop}
    (hs : SafeCores ops proc I) (d : Daemon W β) (hd : I d.core) (i : Nat) (hi : i < d.clients.length) :
    ∃ d' rc, d.clientProcessRecv net ops i = .ok (d', rc) ∧ I d'.core := by
  unfold Daemon.clientProcessRecv
  rw [List.getElem?_eq_getElem hi]
  dsimp only
  split
  · split
    · exact ⟨_, _, rfl, hd⟩
    · split
      · exact ⟨_, _, rfl, hd⟩
      · exact ⟨_, _, rfl, hd⟩
  · split
    · exact ⟨_, _, rfl, hd⟩
    · split
      · split
        · exact ⟨_, _, rfl, hd⟩
        · refine takeMessage_total hs _ ?_ i _; exact hd
      · rw [if_neg (by simp)]
        refine takeMessage_total hs _ ?_ i _; exact hd

theorem clientLoop_total {net : Net W} {ops : Ops β} {proc : π → Core β → Res (Core β × List Event × Int)} {I : Core β → Prop}
    (hs : SafeCores ops proc I) {ready : Nat → Bool} {fuel : Nat} : ∀ {i : Nat} (d : Daemon W β), I d.core → d.clients.length ≤ d.pollfds.length →
      d.clients.length ≤ i + fuel → ∃ d', d.clientLoop net ops ready fuel i = .ok d' ∧ I d'.core := by
  induction fuel with
  | zero =>
    intro i d hd _ hf
    unfold Daemon.clientLoop
    rw [if_neg (by omega)]
    exact ⟨d, rfl, hd⟩
  | succ fuel ih =>
    intro i d hd hl hf
    unfold Daemon.clientLoop
    split
    case isFalse => exact ⟨d, rfl, hd⟩
    case isTrue hi =>
      rw [if_pos (by omega)]
      split
      case isFalse => exact ih d hd hl (by omega)
      case isTrue =>
        obtain ⟨d1, rc, h1, h2⟩ := clientProcessRecv_total (net := net) hs d hd i hi
        obtain ⟨_, _, _, hE, _⟩ := clientProcessRecv_effect h1
        rw [h1]
        refine ih (if rc ≠ 0 then { d1 with changed := true } else d1) ?_ ?_ ?_
        · split <;> exact h2
        · have h3 := hE.len; have h4 := hE.poll
          split <;> (try dsimp only) <;> rw [h4] <;> omega
        · have h3 := hE.len
          split <;> (try dsimp only) <;> omega

theorem removeInactive_core (d : Daemon W β) : d.removeInactive.core = d.core := rfl

theorem react_total {net : Net W} {ops : Ops β} {proc : π → Core β → Res (Core β × List Event × Int)} {I : Core β → Prop}
    (hs : SafeCores ops proc I) {r : Ready π} {d : Daemon W β} (hP : Polled net r d) (hd : I d.core) :
    ∃ d' stop, d.react net ops proc r = .ok (d', stop) ∧ I d'.core := by
  have h1 : ∃ d1 s1, d.bindingProcess net proc r = .ok (d1, s1) ∧ Polled net r d1 ∧ I d1.core := by
    unfold Daemon.bindingProcess
    cases hb : r.binding with
    | none => exact ⟨d, false, rfl, hP, hd⟩
    | some x =>
      obtain ⟨c', e, rc, h1, h2⟩ := hs.proc d.core hd x
      refine ⟨({ d with core := c', evs := d.evs ++ e } : Daemon W β).deliver net e, decide (rc ≠ 0), ?_, hP.deliver c' e, ?_⟩
      · simp only [h1]; rfl
      · obtain ⟨_, _, _, _, h, _⟩ := deliver_effect net e ({ d with core := c', evs := d.evs ++ e } : Daemon W β)
        rw [h]; exact h2
  obtain ⟨d1, s1, h1, hP1, hI1⟩ := h1
  unfold Daemon.react
  simp only [h1]
  simp only [bind, Except.bind]
  split
  · exact ⟨_, _, rfl, hI1⟩
  · obtain ⟨d2, h2, hI2⟩ := clientLoop_total (net := net) (ready := r.client) hs (i := 0) (fuel := d1.clients.length) d1 hI1 hP1.len (by omega)
    simp only [h2]
    have hrm : ∀ d3 : Daemon W β, d3.core = d2.core → I (if d3.changed then d3.removeInactive else d3).core := by
      intro d3 h3; split
      · rw [removeInactive_core, h3]; exact hI2
      · rw [h3]; exact hI2
    cases r.sock with
    | false => exact ⟨_, _, rfl, hrm _ rfl⟩
    | true =>
      by_cases hfd : (net.accept d2.w).1 < 0
      · simp only [if_true, Daemon.socketProcess, if_pos hfd]
        exact ⟨_, _, rfl, hI2⟩
      · simp only [if_true, Daemon.socketProcess, if_neg hfd]
        exact ⟨_, _, rfl, hI2⟩

theorem daemonRun_total {net : Net W} {ops : Ops β} {proc : π → Core β → Res (Core β × List Event × Int)} {I : Core β → Prop}
    (hs : SafeCores ops proc I) {rs : List (Ready π)} : ∀ (d : Daemon W β), DInv net d → I d.core →
      ∃ d', d.run net ops proc rs = .ok d' ∧ I d'.core := by
  induction rs with
  | nil => intro d _ hd; exact ⟨d, rfl, hd⟩
  | cons r rest ih =>
    intro d hI hd
    obtain ⟨d1, h1, hP, hc, -⟩ := hI.poll r
    obtain ⟨d2, s, h2, hc2⟩ := react_total hs hP (by rw [hc]; exact hd)
    unfold Daemon.run
    simp only [h1, bind, Except.bind, h2]
    split
    · exact ⟨d2, rfl, hc2⟩
    · exact ih d2 (react_inv hP h2) hc2

end Mctp
