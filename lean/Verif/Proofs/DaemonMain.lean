import Verif.Spec.DaemonMain
import Verif.Proofs.Daemon

namespace Mctp

variable {W β π : Type}

/-- The captures that are open when the binding starts. -/
def openEvs (s : Settings) : List LifeEv :=
  (if s.capBinding.isSome then [.pcapOpened false, .dumpOpened false] else []) ++
  (if s.capSocket.isSome then [.pcapOpened true, .dumpOpened true] else [])

def closeEvs (s : Settings) : List LifeEv :=
  (if s.capSocket.isSome then captureClose true else []) ++ (if s.capBinding.isSome then captureClose false else [])

theorem cleanPcapSocket_eq (l : Life W β) (s : Settings) (rc : Int) :
    l.cleanPcapSocket s rc = { l with evs := l.evs ++ closeEvs s, status := some (if rc ≠ 0 then 1 else 0) } := by
  unfold Life.cleanPcapSocket Life.cleanPcapBinding closeEvs
  simp

/-- The captures work: `main` goes on to the binding. -/
theorem daemonMain_binding {boot : Boot} {s : Settings} (h : boot.capturesWork s) (net : Net W) (ops : Ops β)
    (bd : Option (BindingDef β π)) (n : Nat) (core : Core β) (w : W) (wakes : List (Wake π)) :
    daemonMain boot net ops bd s n core w wakes =
      Life.binding { evs := openEvs s, core := withCapture s core, daemon := none, status := none } boot net ops bd s n w wakes := by
  obtain ⟨h1, h2, h3⟩ := h
  unfold daemonMain Life.capBinding Life.capSocket openEvs capturePrepare withCapture
  cases hb : s.capBinding <;> cases hs : s.capSocket <;> simp_all

/-- They do not: the process ends with status 1. -/
theorem daemonMain_captures {boot : Boot} {s : Settings} (h : ¬ boot.capturesWork s) (net : Net W) (ops : Ops β)
    (bd : Option (BindingDef β π)) (n : Nat) (core : Core β) (w : W) (wakes : List (Wake π)) :
    ∃ evs c, daemonMain boot net ops bd s n core w wakes = .ok { evs := evs, core := c, daemon := none, status := some 1 } ∧
      (c = core ∨ c = core.setCapture true) ∧
      (evs = [] ∨ evs = [.pcapOpened false] ∨ evs = [.pcapOpened true] ∨
       (s.capBinding.isSome ∧ (evs = [.pcapOpened false, .dumpOpened false] ++ captureClose false ∨
        evs = [.pcapOpened false, .dumpOpened false, .pcapOpened true] ++ captureClose false))) := by
  unfold daemonMain Life.capBinding Life.capSocket capturePrepare captureClose
  unfold Boot.capturesWork at h
  cases hb : s.capBinding <;> cases hs : s.capSocket <;> cases h0 : boot.pcapInit <;>
    cases h1 : boot.openDead false <;> cases h2 : boot.dumpOpen false <;> cases h3 : boot.openDead true <;>
    cases h4 : boot.dumpOpen true <;> simp_all [Life.cleanPcapBinding, captureClose] <;>
    exact ⟨_, _, ⟨rfl, rfl⟩, by simp, by simp⟩

/-- The socket works: `main` goes on to the loop. -/
theorem life_socket {boot : Boot} (h : boot.socketWorks) (l : Life W β) (net : Net W) (ops : Ops β) (bd : BindingDef β π)
    (s : Settings) (w : W) (wakes : List (Wake π)) :
    l.socket boot net ops bd s w wakes =
      (((Daemon.init w l.core s.localEid).loop net ops (bd.proc.getD fun _ c => .ok (c, [], 0)) wakes).bind fun (d, rc) =>
        let l := { l with evs := l.evs ++ (if boot.listenFds ≤ 0 then [.sockOpened] else []) ++ [.loop], core := d.core, daemon := some d }
        match rc with
        | none => .ok l
        | some rc => l.cleanBinding bd s rc) := by
  obtain ⟨h1, h2⟩ := h
  unfold Life.socket
  by_cases hf : boot.listenFds ≤ 0
  · obtain ⟨a, b, c⟩ := h1 hf
    simp only [hf, if_true, socketInit, a, b, c]
    rw [if_neg (by simp)]
    unfold Life.runDaemon
    simp only [h2]
    rfl
  · rw [if_neg hf, if_neg hf]
    unfold Life.runDaemon
    simp only [h2, List.append_nil]
    rfl

/-- It does not: the process cleans up and ends. -/
theorem life_nosocket {boot : Boot} (h : ¬ boot.socketWorks) (l : Life W β) (net : Net W) (ops : Ops β) (bd : BindingDef β π)
    (s : Settings) (w : W) (wakes : List (Wake π)) :
    ∃ e, (e = [] ∨ e = [.sockOpened] ∨ e = [.sockOpened, .sockClosed]) ∧
      l.socket boot net ops bd s w wakes = Life.cleanBinding { l with evs := l.evs ++ e } bd s (-1) := by
  unfold Boot.socketWorks at h
  unfold Life.socket
  by_cases hf : boot.listenFds ≤ 0
  · rw [if_pos hf]
    unfold socketInit
    cases h1 : boot.socket <;> cases h2 : boot.bind <;> cases h3 : boot.listen <;> cases h4 : boot.sigmask <;>
      simp_all [Life.runDaemon] <;> first | exact ⟨[], by simp, by simp⟩ | exact ⟨[.sockOpened, .sockClosed], by simp, by simp⟩ | exact ⟨[.sockOpened], by simp, by simp⟩
  · rw [if_neg hf]
    have : boot.sigmask = false := by simp_all
    exact ⟨[], .inl rfl, by simp [Life.runDaemon, this]⟩

theorem cleanBinding_ok {l l' : Life W β} {bd : BindingDef β π} {s : Settings} {rc : Int} (h : l.cleanBinding bd s rc = .ok l') :
    l'.evs = l.evs ++ (if bd.destroy.isSome then [.bindingDown] else []) ++ closeEvs s ∧ l'.daemon = l.daemon ∧
      l'.status = some (if rc ≠ 0 then 1 else 0) ∧
      (match bd.destroy with | none => l'.core = l.core | some f => f l.core = .ok (l'.core, l'.left)) := by
  unfold Life.cleanBinding at h
  cases hd : bd.destroy with
  | none =>
    rw [hd] at h
    simp only [cleanPcapSocket_eq, Except.ok.injEq] at h
    subst h
    simp
  | some f =>
    rw [hd] at h
    obtain ⟨⟨c, left⟩, hc, h⟩ := Res.bind_eq_ok.mp h
    simp only [cleanPcapSocket_eq, Except.ok.injEq] at h
    subst h
    simp [hc]

/-- The loop, up to the event that ends it. -/
theorem loop_spec {net : Net W} {ops : Ops β} {proc : π → Core β → Res (Core β × List Event × Int)} :
    ∀ {wakes : List (Wake π)} {d d' : Daemon W β} {rc : Option Int}, d.loop net ops proc wakes = .ok (d', rc) →
      ∃ rs, d.run net ops proc rs = .ok d' ∧
        match rc with
        | none => wakes = rs.map .ready
        | some 0 => ∃ post, wakes = rs.map .ready ++ .signal true :: post ∧ d.loop net ops proc (rs.map .ready) = .ok (d', none)
        | some rc => rc = -1 ∧ ((∃ post, wakes = rs.map .ready ++ post ∧ rs ≠ [] ∧
              d.loop net ops proc (rs.map .ready) = .ok (d', some (-1))) ∨
            (∃ post, (wakes = rs.map .ready ++ .failed :: post ∨ wakes = rs.map .ready ++ .signal false :: post) ∧
              d.loop net ops proc (rs.map .ready) = .ok (d', none))) := by
  intro wakes
  induction wakes with
  | nil =>
    intro d d' rc h
    simp only [Daemon.loop, Except.ok.injEq, Prod.mk.injEq] at h
    obtain ⟨rfl, rfl⟩ := h
    exact ⟨[], rfl, rfl⟩
  | cons wk rest ih =>
    intro d d' rc h
    cases wk with
    | failed =>
      simp only [Daemon.loop, Except.ok.injEq, Prod.mk.injEq] at h
      obtain ⟨rfl, rfl⟩ := h
      exact ⟨[], rfl, rfl, .inr ⟨rest, .inl rfl, rfl⟩⟩
    | signal full =>
      simp only [Daemon.loop, Except.ok.injEq, Prod.mk.injEq] at h
      obtain ⟨rfl, rfl⟩ := h
      cases full with
      | true => exact ⟨[], rfl, rest, rfl, rfl⟩
      | false => exact ⟨[], rfl, rfl, .inr ⟨rest, .inr rfl, rfl⟩⟩
    | ready r =>
      unfold Daemon.loop at h
      obtain ⟨d1, h1, h⟩ := Res.bind_eq_ok.mp h
      obtain ⟨⟨d2, stop⟩, h2, h⟩ := Res.bind_eq_ok.mp h
      cases stop with
      | true =>
        simp only [if_true, Except.ok.injEq, Prod.mk.injEq] at h
        obtain ⟨rfl, rfl⟩ := h
        refine ⟨[r], ?_, rfl, .inl ⟨rest, rfl, by simp, ?_⟩⟩
        · simp [Daemon.run, h1, h2, Res.bind_ok]
        · simp [Daemon.loop, h1, h2, Res.bind_ok]
      | false =>
        simp only [Bool.false_eq_true, if_false] at h
        obtain ⟨rs, hr, hm⟩ := ih h
        have hrun : d.run net ops proc (r :: rs) = .ok d' := by simp [Daemon.run, h1, h2, Res.bind_ok, hr]
        have hloop : ∀ x, d2.loop net ops proc (rs.map .ready) = .ok x → d.loop net ops proc ((r :: rs).map .ready) = .ok x := by
          intro x hx
          simp [Daemon.loop, h1, h2, Res.bind_ok, hx]
        refine ⟨r :: rs, hrun, ?_⟩
        split at hm
        · rw [hm]; rfl
        · obtain ⟨post, e, hl⟩ := hm
          exact ⟨post, by rw [e]; rfl, hloop _ hl⟩
        · obtain ⟨hrc, hm⟩ := hm
          refine ⟨hrc, ?_⟩
          rcases hm with ⟨post, e, -, hl⟩ | ⟨post, e, hl⟩
          · exact .inl ⟨post, by rw [e]; rfl, by simp, hloop _ hl⟩
          · refine .inr ⟨post, ?_, hloop _ hl⟩
            rcases e with e | e
            · exact .inl (by rw [e]; rfl)
            · exact .inr (by rw [e]; rfl)

/-- A round that does not end the loop: no device and no connection failed. -/
theorem react_served {net : Net W} {ops : Ops β} {proc : π → Core β → Res (Core β × List Event × Int)} {r : Ready π} {d d' : Daemon W β}
    (h : d.react net ops proc r = .ok (d', false)) :
    (Spec.AllAccepted d.log → Spec.AllAccepted d'.log) ∧ ∀ x, r.binding = some x → ∃ k k' e, proc x k = .ok (k', e, 0) := by
  have hap : ∀ {a l : List SockEv}, (∀ f, SockEv.accepted f ∉ l) → Spec.AllAccepted a → Spec.AllAccepted (a ++ l) := by
    intro a l hl ha fd hm
    rcases List.mem_append.mp hm with hm | hm
    · exact ha fd hm
    · exact absurd hm (hl fd)
  have hpr : ∀ d3 : Daemon W β, Spec.AllAccepted d3.log → Spec.AllAccepted d3.removeInactive.log := by
    intro d3 h3
    obtain ⟨l, hE, -⟩ := removeInactive_effect d3
    rw [hE.log]; exact hap hE.accs h3
  unfold Daemon.react at h
  obtain ⟨⟨d1, s1⟩, h1, h⟩ := Res.bind_eq_ok.mp h
  have hb : (Spec.AllAccepted d.log → Spec.AllAccepted d1.log) ∧ (s1 = false → ∀ x, r.binding = some x → ∃ k k' e, proc x k = .ok (k', e, 0)) := by
    unfold Daemon.bindingProcess at h1
    split at h1
    · rename_i x hx
      obtain ⟨⟨c, e, rc⟩, h2, h1⟩ := Res.bind_eq_ok.mp h1
      simp only [Except.ok.injEq, Prod.mk.injEq] at h1
      obtain ⟨rfl, rfl⟩ := h1
      refine ⟨fun ha => ?_, fun hs y hy => ?_⟩
      · obtain ⟨l, hE, -⟩ := deliver_effect net e ({ d with core := c, evs := d.evs ++ e } : Daemon W β)
        rw [hE.log]; exact hap hE.accs ha
      · rw [hx] at hy
        cases hy
        have : rc = 0 := by simpa using hs
        subst this
        exact ⟨_, _, _, h2⟩
    · rename_i hx
      cases h1
      exact ⟨id, fun _ x hx' => by rw [hx] at hx'; cases hx'⟩
  dsimp only at h
  split at h
  · cases h
  · rename_i hs
    have hs : s1 = false := by simpa using hs
    obtain ⟨d2, h2, h⟩ := Res.bind_eq_ok.mp h
    refine ⟨fun ha => ?_, hb.2 hs⟩
    have ha2 : Spec.AllAccepted d2.log := by
      obtain ⟨l, hE, -⟩ := clientLoop_effect h2
      rw [hE.log]; exact hap hE.accs (hb.1 ha)
    split at h
    · simp only [Daemon.socketProcess] at h
      by_cases hfd : (net.accept d2.w).1 < 0
      · simp only [if_pos hfd] at h
        cases h
      · simp only [if_neg hfd] at h
        simp only [ne_eq, not_true_eq_false, if_false, Bool.false_eq_true] at h
        cases h
        rw [if_pos trivial]
        refine hpr _ fun fd hm => ?_
        rcases List.mem_append.mp hm with hm | hm
        · exact ha2 fd hm
        · cases List.mem_singleton.mp hm; exact Int.not_lt.mp hfd
    · dsimp only at h
      rw [if_neg (by simp)] at h
      cases h
      split
      · exact hpr _ ha2
      · exact ha2

theorem poll_accepted {d d' : Daemon W β} {r : Ready π} (h : d.poll r = .ok d') (ha : Spec.AllAccepted d.log) : Spec.AllAccepted d'.log := by
  unfold Daemon.poll at h
  generalize hd1 : (if d.changed = true then { d with pollfds := d.clients.map (·.sock), changed := false } else d : Daemon W β) = d1 at h
  have hsame : d1.log = d.log := by rw [← hd1]; split <;> rfl
  simp only at h
  split at h
  · simp only [Except.ok.injEq] at h
    rw [← h]
    intro fd hm
    dsimp only at hm
    rcases List.mem_append.mp hm with hm | hm
    · exact ha fd (hsame ▸ hm)
    · cases List.mem_singleton.mp hm
  · cases h

theorem loop_served {net : Net W} {ops : Ops β} {proc : π → Core β → Res (Core β × List Event × Int)} {rs : List (Ready π)} :
    ∀ {d d' : Daemon W β}, d.loop net ops proc (rs.map .ready) = .ok (d', none) →
    (Spec.AllAccepted d.log → Spec.AllAccepted d'.log) ∧ ∀ r ∈ rs, ∀ x, r.binding = some x → ∃ k k' e, proc x k = .ok (k', e, 0) := by
  induction rs with
  | nil => intro d d' h; cases h; exact ⟨id, fun r hr => (nomatch hr)⟩
  | cons r rest ih =>
    intro d d' h
    rw [List.map_cons, Daemon.loop] at h
    obtain ⟨d1, h1, h⟩ := Res.bind_eq_ok.mp h
    obtain ⟨⟨d2, stop⟩, h2, h⟩ := Res.bind_eq_ok.mp h
    cases stop with
    | true => simp at h
    | false =>
      simp only [Bool.false_eq_true, if_false] at h
      have hr := react_served h2
      have hi := ih h
      refine ⟨fun ha => hi.1 (hr.1 (poll_accepted h1 ha)), fun q hq => ?_⟩
      rcases List.mem_cons.mp hq with rfl | hq
      · exact hr.2
      · exact hi.2 q hq

end Mctp

namespace Mctp

variable {W β π : Type}

/-! ## Order of the events of a life -/

/-- Every closing comes after the opening, and nothing that uses the thing closed comes after it. -/
def inOrder (seen : List LifeEv) : List LifeEv → Bool
  | [] => true
  | e :: rest =>
    (match e with
      | .dumpClosed k => seen.contains (.dumpOpened k) && !rest.contains .loop && !rest.contains .bindingUp && !rest.contains .bindingDown
      | .bindingDown => seen.contains .bindingUp && !rest.contains .loop
      | .loop => seen.contains .bindingUp
      | _ => true) && inOrder (seen ++ [e]) rest

theorem inOrder_split {pre : List LifeEv} : ∀ {seen post : List LifeEv} {e : LifeEv}, inOrder seen (pre ++ e :: post) = true →
    (∀ k, e = .dumpClosed k → .dumpOpened k ∈ seen ++ pre ∧ .loop ∉ post ∧ .bindingUp ∉ post ∧ .bindingDown ∉ post) ∧
    (e = .bindingDown → .bindingUp ∈ seen ++ pre ∧ .loop ∉ post) ∧ (e = .loop → .bindingUp ∈ seen ++ pre) := by
  induction pre with
  | nil =>
    intro seen post e h
    simp only [List.nil_append, inOrder, Bool.and_eq_true] at h
    refine ⟨?_, ?_, ?_⟩
    · rintro k rfl; simpa [and_assoc] using h.1
    · rintro rfl; simpa using h.1
    · rintro rfl; simpa using h.1
  | cons a pre ih =>
    intro seen post e h
    simp only [List.cons_append, inOrder, Bool.and_eq_true] at h
    have := ih h.2
    simpa using this

/-- The record of a life is in order, and complete if the process has ended (`hd`: the binding has a destructor). -/
def tidy (hd done : Bool) (evs : List LifeEv) : Bool :=
  inOrder [] evs &&
  [true, false].all (fun k => decide (opened k evs ≤ 1) && (shut k evs == if done then opened k evs else 0)) &&
  decide (evs.count .bindingUp ≤ 1) && (evs.count .bindingDown == if done && hd then evs.count .bindingUp else 0)

theorem daemonMain_tidy {boot : Boot} {net : Net W} {ops : Ops β} {bd : Option (BindingDef β π)} {s : Settings} {n : Nat} {core : Core β}
    {w : W} {wakes : List (Wake π)} {l : Life W β} (h : daemonMain boot net ops bd s n core w wakes = .ok l) :
    tidy (bd.any fun b => b.destroy.isSome) l.status.isSome l.evs = true := by
  by_cases hcap : boot.capturesWork s
  · rw [daemonMain_binding hcap] at h
    unfold Life.binding at h
    cases bd with
    | none =>
      simp only [cleanPcapSocket_eq, Except.ok.injEq] at h
      subst h
      simp only [Option.any, Option.isSome_some]
      unfold openEvs closeEvs
      generalize s.capBinding.isSome = a
      generalize s.capSocket.isSome = b
      revert a b; decide +kernel
    | some bd1 =>
      obtain ⟨⟨c, rc⟩, hi, h⟩ := Res.bind_eq_ok.mp h
      simp only at h hi
      simp only [Option.any]
      by_cases hrc : rc = 0
      · subst hrc
        rw [if_neg (by simp)] at h
        by_cases hsk : boot.socketWorks
        · rw [life_socket hsk] at h
          obtain ⟨⟨d', rc⟩, hl, h⟩ := Res.bind_eq_ok.mp h
          simp only at h hl
          cases rc with
          | none =>
            simp only [Except.ok.injEq] at h
            subst h
            simp only [Option.isSome_some, Option.isSome_none]
            unfold openEvs
            generalize s.capBinding.isSome = a
            generalize s.capSocket.isSome = b
            generalize bd1.destroy.isSome = z
            by_cases hf : boot.listenFds ≤ 0
            all_goals (first | rw [if_pos hf] | rw [if_neg hf])
            all_goals (revert a b z; decide +kernel)
          | some rc =>
            obtain ⟨h1, -, h3, -⟩ := cleanBinding_ok h
            rw [h1, h3]
            simp only [Option.isSome_some, Option.isSome_none]
            unfold openEvs closeEvs
            generalize s.capBinding.isSome = a
            generalize s.capSocket.isSome = b
            generalize bd1.destroy.isSome = z
            by_cases hf : boot.listenFds ≤ 0
            all_goals (first | rw [if_pos hf] | rw [if_neg hf])
            all_goals (revert a b z; decide +kernel)
        · obtain ⟨e, hecase, he⟩ := life_nosocket (W := W) (β := β) (π := π) hsk
            { evs := openEvs s ++ [.bindingUp], core := c, daemon := none, status := none } net ops bd1 s w wakes
          rw [he] at h
          obtain ⟨h1, -, h3, -⟩ := cleanBinding_ok h
          rw [h1, h3]
          simp only [Option.isSome_some, Option.isSome_none]
          unfold openEvs closeEvs
          generalize s.capBinding.isSome = a
          generalize s.capSocket.isSome = b
          generalize bd1.destroy.isSome = z
          rcases hecase with rfl | rfl | rfl
          all_goals (revert a b z; decide +kernel)
      · rw [if_pos (by simpa using hrc)] at h
        simp only [cleanPcapSocket_eq, Except.ok.injEq] at h
        subst h
        simp only [Option.isSome_some, Option.isSome_none]
        unfold openEvs closeEvs
        generalize s.capBinding.isSome = a
        generalize s.capSocket.isSome = b
        generalize bd1.destroy.isSome = z
        all_goals (revert a b z; decide +kernel)
  · obtain ⟨evs, c, he, -, hev⟩ := daemonMain_captures hcap net ops bd n core w wakes
    rw [he] at h
    simp only [Except.ok.injEq] at h
    subst h
    simp only [Option.isSome_some, Option.isSome_none]
    generalize (Option.any _ bd) = x
    rcases hev with rfl | rfl | rfl | ⟨-, rfl | rfl⟩ <;> cases x <;> decide +kernel

theorem loop_total {net : Net W} {ops : Ops β} {proc : π → Core β → Res (Core β × List Event × Int)} {I : Core β → Prop}
    (hs : SafeCores ops proc I) {wakes : List (Wake π)} : ∀ (d : Daemon W β), DInv net d → I d.core →
      ∃ d' rc, d.loop net ops proc wakes = .ok (d', rc) ∧ I d'.core := by
  induction wakes with
  | nil => intro d _ hd; exact ⟨d, none, rfl, hd⟩
  | cons wk rest ih =>
    intro d hI hd
    cases wk with
    | failed => exact ⟨d, _, rfl, hd⟩
    | signal full => exact ⟨d, _, rfl, hd⟩
    | ready r =>
      obtain ⟨d1, h1, hP, hc, -⟩ := hI.poll r
      obtain ⟨d2, s, h2, hc2⟩ := react_total hs hP (by rw [hc]; exact hd)
      unfold Daemon.loop
      simp only [h1, h2, Res.bind_ok]
      cases s with
      | true => exact ⟨d2, some (-1), rfl, hc2⟩
      | false =>
        obtain ⟨d', rc, h3, h4⟩ := ih d2 (react_inv hP h2) hc2
        exact ⟨d', rc, by simp [h3], h4⟩

/-- A life does not crash if the binding starts, works and stops without a crash. -/
theorem daemonMain_total (boot : Boot) (net : Net W) (ops : Ops β) (bd : BindingDef β π) (s : Settings) (n : Nat) (core : Core β) (w : W)
    (wakes : List (Wake π)) {I J : Core β → Prop}
    (hs : SafeCores ops (bd.proc.getD fun _ c => .ok (c, [], 0)) I)
    (hinit : ∃ c rc, bd.init (withCapture s core) (BitVec.ofInt 8 s.localEid) n = .ok (c, rc) ∧ (rc = 0 → I (c.setRxAll true) ∧ J c))
    (hIJ : ∀ c, I c → J c)
    (hdes : ∀ f, bd.destroy = some f → ∀ c, J c → ∃ x, f c = .ok x) :
    ∃ l, daemonMain boot net ops (some bd) s n core w wakes = .ok l := by
  have hclean : ∀ (l : Life W β) rc, J l.core → ∃ l', l.cleanBinding bd s rc = .ok l' := by
    intro l rc hJ
    unfold Life.cleanBinding
    cases hd : bd.destroy with
    | none => exact ⟨_, rfl⟩
    | some f =>
      obtain ⟨⟨c', left⟩, hc'⟩ := hdes f hd l.core hJ
      exact ⟨_, by simp only [hc', Res.bind_ok]; rfl⟩
  by_cases hcap : boot.capturesWork s
  · rw [daemonMain_binding hcap]
    unfold Life.binding
    obtain ⟨c, rc, hi, hI⟩ := hinit
    simp only [hi, Res.bind_ok]
    by_cases hrc : rc = 0
    · obtain ⟨hI, hJ⟩ := hI hrc
      rw [if_neg (by simpa using hrc)]
      by_cases hsk : boot.socketWorks
      · rw [life_socket hsk]
        obtain ⟨d', rc', hl, hd⟩ := loop_total hs (wakes := wakes) (Daemon.init w c s.localEid) (DInv.init net w c s.localEid) hI
        simp only [hl, Except.bind]
        cases rc' with
        | none => exact ⟨_, rfl⟩
        | some rc' => exact hclean _ _ (hIJ _ hd)
      · obtain ⟨e, -, he⟩ := life_nosocket (W := W) (β := β) (π := π) hsk
          { evs := openEvs s ++ [.bindingUp], core := c, daemon := none, status := none } net ops bd s w wakes
        rw [he]
        exact hclean _ _ hJ
    · rw [if_pos (by simpa using hrc)]
      exact ⟨_, rfl⟩
  · obtain ⟨evs, c, he, -⟩ := daemonMain_captures hcap net ops (some bd) n core w wakes
    exact ⟨_, he⟩

/-- How a life ends in which the binding was started. -/
theorem daemonMain_end (boot : Boot) (net : Net W) (ops : Ops β) (bd : BindingDef β π) (s : Settings) (n : Nat) (core : Core β) (w : W)
    (wakes : List (Wake π)) {I J : Core β → Prop}
    (hs : SafeCores ops (bd.proc.getD fun _ c => .ok (c, [], 0)) I)
    (hinit : ∀ c, bd.init (withCapture s core) (BitVec.ofInt 8 s.localEid) n = .ok (c, 0) → I (c.setRxAll true) ∧ J c)
    (hIJ : ∀ c, I c → J c) {l : Life W β} (h : daemonMain boot net ops (some bd) s n core w wakes = .ok l)
    (hup : .bindingUp ∈ l.evs) (hend : l.status ≠ none) :
    ∃ c, J c ∧ (∀ d, l.daemon = some d → d.core = c) ∧ ∀ f, bd.destroy = some f → f c = .ok (l.core, l.left) := by
  by_cases hcap : boot.capturesWork s
  · rw [daemonMain_binding hcap] at h
    unfold Life.binding at h
    obtain ⟨⟨c, rc⟩, hi, h⟩ := Res.bind_eq_ok.mp h
    simp only at h hi
    by_cases hrc : rc = 0
    · subst hrc
      obtain ⟨hI, hJ⟩ := hinit c hi
      rw [if_neg (by simp)] at h
      by_cases hsk : boot.socketWorks
      · rw [life_socket hsk] at h
        obtain ⟨d', rc', hl, hd⟩ := loop_total hs (wakes := wakes) (Daemon.init w c s.localEid) (DInv.init net w c s.localEid) hI
        simp only [hl, Except.bind] at h
        cases rc' with
        | none =>
          simp only [Except.ok.injEq] at h
          subst h
          exact absurd rfl hend
        | some rc' =>
          obtain ⟨-, h2, -, h4⟩ := cleanBinding_ok h
          refine ⟨d'.core, hIJ _ hd, ?_, ?_⟩
          · intro d hd
            rw [h2] at hd
            cases hd
            rfl
          · intro f hf
            rw [hf] at h4
            exact h4
      · obtain ⟨e, -, he⟩ := life_nosocket (W := W) (β := β) (π := π) hsk
          { evs := openEvs s ++ [.bindingUp], core := c, daemon := none, status := none } net ops bd s w wakes
        rw [he] at h
        obtain ⟨-, h2, -, h4⟩ := cleanBinding_ok h
        refine ⟨c, hJ, ?_, ?_⟩
        · intro d hd
          rw [h2] at hd
          cases hd
        · intro f hf
          rw [hf] at h4
          exact h4
    · rw [if_pos (by simpa using hrc)] at h
      simp only [cleanPcapSocket_eq, Except.ok.injEq] at h
      subst h
      exfalso
      revert hup
      unfold openEvs closeEvs captureClose
      cases s.capBinding <;> cases s.capSocket <;> simp
  · obtain ⟨evs, c, he, -, hev⟩ := daemonMain_captures hcap net ops (some bd) n core w wakes
    rw [he] at h
    simp only [Except.ok.injEq] at h
    subst h
    exfalso
    rcases hev with rfl | rfl | rfl | ⟨-, rfl | rfl⟩ <;> simp [captureClose] at hup

end Mctp
