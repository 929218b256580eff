import Verif.Model.Detached
import Verif.Props.Astlpc
import Verif.Props.AstDemo

/-!
# C91: a registration that fails
-/

namespace Mctp

open Spec

/-- C91: when `mctp_register_bus` fails because the binding's start fails, the core is the one before the call: no bus,
the same memory, the same contexts, handlers and limits; it can be used to register a binding again. -/
theorem C91_core_unchanged {β : Type} {ops : Ops β} {c c' : Core β} {b : Binding β} {eid : Byte} {rc : Int}
    (hn : c.nBusses = 0) (hb : c.busses = []) (hp : c.bussesPtr = none) (hbr : c.bridge = false)
    (hm : c.mem.ok c.mem.next = true)
    (h : c.registerBus ops b eid = .ok (c', rc)) (hrc : rc < 0) :
    c' = { c with mem := { c.mem with next := c.mem.next + 1 } } := by
  unfold Core.registerBus at h
  rw [if_neg (by simp [hn])] at h
  simp only [Mem.alloc, if_pos hm] at h
  obtain ⟨⟨bus', rc'⟩, hs, h⟩ := Res.bind_eq_ok.mp h
  simp only at h
  split at h
  · obtain ⟨mem', hf, h⟩ := Res.bind_eq_ok.mp h
    simp only [Except.ok.injEq, Prod.mk.injEq] at h
    obtain ⟨rfl, rfl⟩ := h
    simp [Mem.free] at hf
    subst hf
    cases c
    simp_all
  · rename_i hneg
    simp only [Except.ok.injEq, Prod.mk.injEq] at h
    exact absurd hrc (h.2 ▸ hneg)

/-- A BMC's binding whose registration has failed: `mctp_astlpc_start_bmc` returned an error. -/
def Unregistered {E : Type} (hw : Hw E) (env : E) (mtu : Nat) (b : Binding (AstSt E)) : Prop :=
  ∃ rc s, astStart hw (astInit env .bmc mtu).st = .ok (rc, s) ∧ rc < 0 ∧ b = { astInit env .bmc mtu with st := s }

/-- What stays true of it. -/
def Loose {E : Type} (b : Binding (AstSt E)) : Prop :=
  b.st.mode = .bmc ∧ b.st.proto = some 3 ∧ b.st.rx.state = .idle ∧ b.st.tx.state = .idle

theorem Unregistered.loose {E : Type} {hw : Hw E} {env : E} {mtu : Nat} {b : Binding (AstSt E)}
    (h : Unregistered hw env mtu b) : Loose b := by
  obtain ⟨rc, s, hs, -, rfl⟩ := h
  have hs : initBmc hw { (astInit env .bmc mtu).st with proto := some astVerCur } = .ok (rc, s) := hs
  unfold initBmc at hs
  obtain ⟨sz, hsz, hs⟩ := Res.bind_eq_ok.mp hs
  obtain ⟨valid, hv, hs⟩ := Res.bind_eq_ok.mp hs
  simp only at hs
  split at hs
  · simp only [Except.ok.injEq, Prod.mk.injEq] at hs
    obtain ⟨-, rfl⟩ := hs
    exact ⟨rfl, rfl, rfl, rfl⟩
  · obtain ⟨⟨r1, s1⟩, hw1, hs⟩ := Res.bind_eq_ok.mp hs
    have hs1 := (lpcWrite_ok hw1).1
    simp only [Except.ok.injEq] at hs
    obtain ⟨hs2, -⟩ := kcsSetStatus_adds hs
    have := hs1.trans hs2
    exact ⟨this.mode, this.proto, by rw [this.rx]; rfl, by rw [this.tx]; rfl⟩

/-- Only the KCS registers, and only reads. -/
def OnlyReads (l : List Access) : Prop := ∀ a ∈ l, ∃ reg r v, a = .kcsRead reg r v

theorem astRetry_idle {E : Type} {hw : Hw E} {s : AstSt E} (h1 : s.rx.state = .idle) (h2 : s.tx.state = .idle) :
    astRetry hw s = s := by
  unfold astRetry
  simp only [h1, h2, reduceCtorEq, if_false]

theorem loosePoll_quiet {E : Type} {hw : Hw E} (hno : ∀ e, (hw.kcsRead e .data).2.1 ≠ 0) {b : Binding (AstSt E)}
    (h : Loose b) :
    ∃ b' rc l, loosePoll hw b = .ok (b', rc) ∧ Loose b' ∧ (rc = 0 ∨ rc = -1) ∧ Adds b.st b'.st l ∧ OnlyReads l := by
  obtain ⟨h1, h2, h3, h4⟩ := h
  unfold loosePoll
  simp only [astRetry_idle h3 h4]
  have ha : Adds b.st (kcsRead hw b.st .status).2.2
      [.kcsRead .status (kcsRead hw b.st .status).1 (kcsRead hw b.st .status).2.1] := by
    simp [kcsRead, Adds, AstSt.accs]
  have hs : SameSt b.st (kcsRead hw b.st .status).2.2 := rfl
  generalize hk : kcsRead hw b.st .status = q at ha hs
  obtain ⟨r, v, s⟩ := q
  simp only at ha hs
  have hmode : s.mode = .bmc := by rw [hs.mode, h1]
  have loose : ∀ {s'}, SameSt b.st s' → Loose { b with st := s' } := fun hs =>
    ⟨by rw [hs.mode, h1], by rw [hs.proto, h2], by simp only; rw [hs.rx, h3], by simp only; rw [hs.tx, h4]⟩
  by_cases hr : r = 0
  · rw [if_neg (by simp [hr])]
    cases hrd : kcsReady s.mode v false
    · simp only [Bool.not_false, if_true]
      exact ⟨_, _, _, rfl, loose hs, .inl rfl, ha, by intro a ha; simp at ha; exact ⟨_, _, _, ha⟩⟩
    · simp only [Bool.not_true, Bool.false_eq_true, if_false]
      have ha2 : Adds s (kcsRead hw s .data).2.2 [.kcsRead .data (kcsRead hw s .data).1 (kcsRead hw s .data).2.1] := by
        simp [kcsRead, Adds, AstSt.accs]
      have hs2 : SameSt s (kcsRead hw s .data).2.2 := rfl
      have hd : (kcsRead hw s .data).2.1 ≠ 0 := hno s.env
      generalize hk2 : kcsRead hw s .data = q at ha2 hs2 hd
      obtain ⟨r2, d, s2⟩ := q
      simp only at ha2 hs2 hd
      have hss := hs.trans hs2
      have haa := ha.trans ha2
      have hon : OnlyReads ([.kcsRead .status r v] ++ [.kcsRead .data r2 d]) := by
        intro a ha
        simp at ha
        rcases ha with rfl | rfl <;> exact ⟨_, _, _, rfl⟩
      by_cases hr2 : r2 = 0
      · rw [if_neg (by simp [hr2])]
        have hproto : s2.proto = some 3 := by rw [hss.proto, h2]
        have hm2 : s2.mode = .bmc := by rw [hss.mode, h1]
        have hrx2 : s2.rx.state = .idle := by rw [hss.rx, h3]
        have htx2 : s2.tx.state = .idle := by rw [hss.tx, h4]
        simp only [hproto, protoVersion, Res.bind_ok]
        rw [if_neg (by simp)]
        unfold looseCommand
        rw [if_neg (by exact hd)]
        by_cases e1 : d = cmdTxBegin
        · rw [if_pos e1, if_pos (by simp [hrx2]), Res.bind_ok]
          exact ⟨_, _, _, rfl, loose hss, .inl rfl, haa, hon⟩
        · rw [if_neg e1]
          by_cases e2 : d = cmdRxComplete
          · rw [if_pos e2, if_pos (by simp [htx2]), Res.bind_ok]
            exact ⟨_, _, _, rfl, loose hss, .inl rfl, haa, hon⟩
          · rw [if_neg e2]
            have hh : ¬ (s2.mode = .host) := by rw [hm2]; decide
            simp only [if_neg hh, ite_self, Res.bind_ok, Bool.false_eq_true, if_false, hh, false_and]
            exact ⟨_, _, _, rfl, loose hss, .inl rfl, haa, hon⟩
      · rw [if_pos hr2]
        exact ⟨_, _, _, rfl, loose hss, .inr rfl, haa, hon⟩
  · rw [if_pos hr]
    exact ⟨_, _, _, rfl, loose hs, .inr rfl, ha, by intro a ha; simp at ha; exact ⟨_, _, _, ha⟩⟩

/-- C91, the part that holds for the binding: as long as the host does not ask for a channel (the data register never
reads 0), any number of polls return, report no more than a failed access, write nothing and do not touch the
window. -/
theorem C91_polls_partial {E : Type} {hw : Hw E} {env : E} {mtu : Nat} {b : Binding (AstSt E)}
    (h : Unregistered hw env mtu b) (hno : ∀ e, (hw.kcsRead e .data).2.1 ≠ 0) (n : Nat) :
    ∃ b' rcs l, loosePolls hw n b = .ok (b', rcs) ∧ (∀ rc ∈ rcs, rc = 0 ∨ rc = -1) ∧
      b'.st.log.map Logged.acc = b.st.log.map Logged.acc ++ l ∧ OnlyReads l := by
  have key : ∀ (n : Nat) (b : Binding (AstSt E)), Loose b → ∃ b' rcs l, loosePolls hw n b = .ok (b', rcs) ∧
      (∀ rc ∈ rcs, rc = 0 ∨ rc = -1) ∧ Adds b.st b'.st l ∧ OnlyReads l := by
    intro n
    induction n with
    | zero => intro b _; exact ⟨b, [], [], rfl, by simp, Adds.refl _, by intro a ha; cases ha⟩
    | succ n ih =>
      intro b hb
      obtain ⟨b1, rc, l1, hp, hb1, hrc, ha1, ho1⟩ := loosePoll_quiet hno hb
      obtain ⟨b2, rcs, l2, hps, hrcs, ha2, ho2⟩ := ih b1 hb1
      refine ⟨b2, rc :: rcs, l1 ++ l2, ?_, ?_, ha1.trans ha2, ?_⟩
      · simp only [loosePolls, hp, Res.bind_ok, hps]
      · intro x hx
        rcases List.mem_cons.mp hx with rfl | hx
        · exact hrc
        · exact hrcs x hx
      · intro a ha
        rcases List.mem_append.mp ha with ha | ha
        · exact ho1 a ha
        · exact ho2 a ha
  exact key n b h.loose

theorem looseInitChannel_error {E : Type} (hw : Hw E) (b : Binding (AstSt E)) : ∃ f, looseInitChannel hw b = .error f := by
  unfold looseInitChannel
  cases initChannel hw b with
  | error f => exact ⟨f, rfl⟩
  | ok q => exact ⟨.nullDeref, rfl⟩

/-- C91 does not hold: when the host asks for a channel, the poll crashes.  (`mctp-demux-daemon` polls the binding
without having looked at the result of the registration.) -/
theorem C91_crash {E : Type} {hw : Hw E} {env : E} {mtu : Nat} {b : Binding (AstSt E)} (h : Unregistered hw env mtu b)
    {v : Byte} {e1 e2 : E} (hst : hw.kcsRead b.st.env .status = (0, v, e1)) (hv : inputFull .bmc v = true)
    (hd : hw.kcsRead e1 .data = (0, 0, e2)) : ∃ f, loosePoll hw b = .error f := by
  obtain ⟨h1, h2, h3, h4⟩ := h.loose
  have hready : ∀ v : Byte, inputFull .bmc v = true → kcsReady .bmc v false = true := by decide
  unfold loosePoll
  simp only [astRetry_idle h3 h4, kcsRead, hst, hd, h1, hready v hv, h2, protoVersion, Res.bind_ok]
  rw [if_neg (by simp), if_neg (by simp), if_neg (by simp), if_neg (by simp)]
  unfold looseCommand
  rw [if_pos (show (0 : Byte) = cmdInitialise from rfl)]
  obtain ⟨f, hf⟩ := looseInitChannel_error hw _
  rw [hf]
  exact ⟨f, rfl⟩

/-- A host's binding whose registration failed because there was no BMC: the status register could not be read, or the
BMC was not ready. -/
def NoBmc {E : Type} (hw : Hw E) (env : E) (mtu : Nat) (b : Binding (AstSt E)) : Prop :=
  ∃ rc v e, hw.kcsRead env .status = (rc, v, e) ∧ (rc < 0 ∨ rc = 0 ∧ v.getLsbD 7 = false) ∧
    ∃ rc' s, astStart hw (astInit env .host mtu).st = .ok (rc', s) ∧ rc' < 0 ∧ b = { astInit env .host mtu with st := s }

/-- C91 does not hold for a host either: if it polls the binding although the registration failed, the first byte from
the BMC - which sends one when it comes up - crashes the poll. -/
theorem C91_host_crash {E : Type} {hw : Hw E} {env : E} {mtu : Nat} {b : Binding (AstSt E)} (h : NoBmc hw env mtu b)
    {v d : Byte} {e1 e2 : E} (hst : hw.kcsRead b.st.env .status = (0, v, e1)) (hv : inputFull .host v = true)
    (hd : hw.kcsRead e1 .data = (0, d, e2)) : loosePoll hw b = .error .nullDeref := by
  obtain ⟨rc, w, e, hr, hcase, rc', s, hs, hneg, rfl⟩ := h
  have hz : ∀ w : Byte, w.getLsbD 7 = false → w &&& kcsBmcReady = 0 := by decide
  have hready : ∀ v : Byte, inputFull .host v = true → kcsReady .host v false = true := by decide
  have hs' : s.mode = .host ∧ s.proto = none ∧ s.rx.state = .idle ∧ s.tx.state = .idle := by
    have hs : initHost hw (astInit env .host mtu).st = .ok (rc', s) := hs
    unfold initHost at hs
    simp only [kcsRead, astInit, hr] at hs
    rcases hcase with hc | ⟨hc, hc2⟩
    · rw [if_pos (by omega)] at hs
      cases hs
      exact ⟨rfl, rfl, rfl, rfl⟩
    · rw [if_neg (by simp [hc]), if_pos (hz w hc2)] at hs
      cases hs
      exact ⟨rfl, rfl, rfl, rfl⟩
  obtain ⟨h1, h2, h3, h4⟩ := hs'
  unfold loosePoll
  simp only [astRetry_idle h3 h4, kcsRead, hst, hd, h1, hready v hv, h2, protoVersion]
  rfl

/-- Where the poll of a binding without a bus returns, it does what the poll of a registered binding in the same state
does: the difference is the crash. -/
theorem C91_otherwise {E : Type} {hw : Hw E} {b b' : Binding (AstSt E)} {rc : Int} (h : loosePoll hw b = .ok (b', rc))
    {c : Core (AstSt E)} {bus : Bus (AstSt E)} (hb : c.busAt 0 = .ok bus) (hbus : bus.binding = b) :
    c.astPoll hw 0 = .ok (c.setBinding 0 bus b', [], rc) := by
  subst hbus
  have hset : ∀ s, c.setSt 0 bus s = c.setBinding 0 bus { bus.binding with st := s } := fun _ => rfl
  -- the bus of the core after the binding's state was stored
  have hat : ∀ s, (c.setSt 0 bus s).busAt 0 = .ok { bus with binding := { bus.binding with st := s } } := by
    intro s
    unfold Core.busAt at hb ⊢
    split at hb
    · rename_i hlt
      rw [if_pos (show 0 < (c.setSt 0 bus s).nBusses from hlt)]
      simp only [Core.setSt, Core.setBus]
      cases hd : c.mem.deref c.bussesPtr with
      | error e => rw [hd] at hb; cases hb
      | ok u =>
        rw [hd] at hb
        simp only at hb ⊢
        cases hc : c.busses with
        | nil => rw [hc] at hb; cases hb
        | cons x l => simp
    · cases hb
  have hset2 : ∀ s s', (c.setSt 0 bus s).setSt 0 { bus with binding := { bus.binding with st := s } } s' = c.setSt 0 bus s' := by
    intro s s'
    simp only [Core.setSt, Core.setBus, List.set_set]
  -- the update of the channel
  have hupd : ∀ {s : AstSt E} {status : Byte} {b' : Binding (AstSt E)} {rc : Int},
      looseUpdateChannel hw { bus.binding with st := s } status = .ok (b', rc) →
      (c.setSt 0 bus s).astUpdateChannel hw 0 status = .ok (c.setBinding 0 bus b', [], rc) := by
    intro s status b' rc h
    unfold looseUpdateChannel at h
    unfold Core.astUpdateChannel
    rw [hat, Res.bind_ok]
    simp only at h ⊢
    by_cases h1 : s.mode ≠ .host
    · rw [if_pos h1] at h; cases h
    rw [if_neg h1] at h ⊢
    by_cases h2 : (s.kcsStatus ^^^ status) &&& kcsBmcReady ≠ 0
    · rw [if_pos h2] at h ⊢
      by_cases h3 : status &&& kcsBmcReady ≠ 0
      · rw [if_pos h3] at h ⊢
        obtain ⟨⟨r, s'⟩, hs, h⟩ := Res.bind_eq_ok.mp h
        rw [hs, Res.bind_ok]
        simp only [Except.ok.injEq, Prod.mk.injEq] at h ⊢
        obtain ⟨rfl, rfl⟩ := h
        exact ⟨hset2 _ _, trivial, rfl⟩
      · rw [if_neg h3] at h
        cases h
    · rw [if_neg h2] at h ⊢
      unfold Core.astUpdateActive
      rw [hat, Res.bind_ok]
      simp only
      obtain ⟨ver, hver, h⟩ := Res.bind_eq_ok.mp h
      rw [hver, Res.bind_ok]
      by_cases h3 : ver = 0 ∨ (s.kcsStatus ^^^ status) &&& kcsChannelActive ≠ 0
      · rw [if_pos h3] at h
        obtain ⟨x, -, h⟩ := Res.bind_eq_ok.mp h
        cases h
      · rw [if_neg h3] at h ⊢
        simp only [Except.ok.injEq, Prod.mk.injEq] at h ⊢
        obtain ⟨rfl, rfl⟩ := h
        exact ⟨hset2 _ _, trivial, rfl⟩
  unfold loosePoll at h
  unfold Core.astPoll
  rw [hb, Res.bind_ok]
  dsimp only at h ⊢
  generalize astRetry hw bus.binding.st = s at h ⊢
  generalize kcsRead hw s .status = q at h ⊢
  obtain ⟨r1, status, s⟩ := q
  simp only at h ⊢
  by_cases g1 : r1 ≠ 0
  · rw [if_pos g1] at h ⊢
    cases h; rfl
  rw [if_neg g1] at h ⊢
  by_cases g2 : (!kcsReady s.mode status false) = true
  · rw [if_pos g2] at h ⊢
    cases h; rfl
  rw [if_neg g2] at h ⊢
  generalize kcsRead hw s .data = q at h ⊢
  obtain ⟨r2, data, s⟩ := q
  simp only at h ⊢
  by_cases g3 : r2 ≠ 0
  · rw [if_pos g3] at h ⊢
    cases h; rfl
  rw [if_neg g3] at h ⊢
  obtain ⟨ver, hver, h⟩ := Res.bind_eq_ok.mp h
  rw [hver, Res.bind_ok]
  by_cases g4 : ver = 0 ∧ ¬ (data = cmdInitialise ∨ data = cmdDummy)
  · rw [if_pos g4] at h ⊢
    cases h; rfl
  rw [if_neg g4] at h ⊢
  obtain ⟨⟨b1, rc1, stop⟩, hc, h⟩ := Res.bind_eq_ok.mp h
  -- the command
  have hcmd : (c.setSt 0 bus s).astCommand hw 0 status data = .ok (c.setBinding 0 bus b1, [], rc1, stop) ∧
      (b1 = { bus.binding with st := s } ∨ data = cmdDummy ∧ s.mode = .host ∧ looseUpdateChannel hw { bus.binding with st := s } status = .ok (b1, rc1)) := by
    unfold looseCommand at hc
    unfold Core.astCommand
    rw [hat, Res.bind_ok]
    simp only at hc ⊢
    by_cases c1 : data = cmdInitialise
    · rw [if_pos c1] at hc
      obtain ⟨f, hf⟩ := looseInitChannel_error hw { bus.binding with st := s }
      rw [hf] at hc
      cases hc
    rw [if_neg c1] at hc ⊢
    by_cases c2 : data = cmdTxBegin
    · rw [if_pos c2] at hc ⊢
      by_cases c3 : s.rx.state ≠ .released
      · rw [if_pos c3] at hc ⊢
        cases hc; exact ⟨rfl, .inl rfl⟩
      · rw [if_neg c3] at hc; cases hc
    rw [if_neg c2] at hc ⊢
    by_cases c4 : data = cmdRxComplete
    · rw [if_pos c4] at hc ⊢
      by_cases c5 : s.tx.state ≠ .released
      · rw [if_pos c5] at hc ⊢
        cases hc; exact ⟨rfl, .inl rfl⟩
      · rw [if_neg c5] at hc; cases hc
    rw [if_neg c4] at hc ⊢
    by_cases c6 : data = cmdDummy
    · rw [if_pos c6] at hc ⊢
      by_cases c7 : s.mode = .host
      · rw [if_pos c7] at hc ⊢
        obtain ⟨⟨b2, rc2⟩, hu, hc⟩ := Res.bind_eq_ok.mp hc
        simp only [Except.ok.injEq, Prod.mk.injEq] at hc
        obtain ⟨rfl, rfl, rfl⟩ := hc
        rw [hupd hu, Res.bind_ok]
        exact ⟨rfl, .inr ⟨c6, c7, hu⟩⟩
      · rw [if_neg c7] at hc ⊢
        cases hc; exact ⟨rfl, .inl rfl⟩
    · rw [if_neg c6] at hc ⊢
      cases hc; exact ⟨rfl, .inl rfl⟩
  rw [hcmd.1, Res.bind_ok]
  simp only at h ⊢
  cases stop with
  | true =>
    simp only [if_true, Except.ok.injEq, Prod.mk.injEq] at h ⊢
    obtain ⟨rfl, rfl⟩ := h
    exact ⟨rfl, trivial, rfl⟩
  | false =>
    simp only [Bool.false_eq_true, if_false] at h ⊢
    unfold Core.astAfter
    by_cases g5 : s.mode = .host ∧ ¬ (status &&& kcsBmcReady ≠ 0 ∧ data = cmdDummy)
    · rw [if_pos g5] at h ⊢
      have : (c.setBinding 0 bus b1).astUpdateChannel hw 0 status = .ok (c.setBinding 0 bus b', [], rc) := by
        rcases hcmd.2 with rfl | ⟨-, -, hu⟩
        · exact hupd h
        · -- the binding is the one before, with another state
          obtain ⟨s1, hs1⟩ : ∃ s1, b1 = { bus.binding with st := s1 } := by
            unfold looseUpdateChannel at hu
            simp only at hu
            split at hu
            · cases hu
            · split at hu
              · split at hu
                · obtain ⟨x, -, hu⟩ := Res.bind_eq_ok.mp hu
                  cases hu; exact ⟨_, rfl⟩
                · cases hu
              · obtain ⟨x, -, hu⟩ := Res.bind_eq_ok.mp hu
                split at hu
                · obtain ⟨y, -, hu⟩ := Res.bind_eq_ok.mp hu
                  cases hu
                · cases hu; exact ⟨_, rfl⟩
          subst hs1
          exact hupd h
      rw [this]
      rfl
    · rw [if_neg g5] at h ⊢
      cases h
      rfl

/-- The hypotheses are met: the status register cannot be written when the BMC starts, so the registration fails; the
first polls find nothing and a dummy value, the last one a host that asks for a channel. -/
def AstDemo.failedScript : AstDemo.Script :=
  { wr := [-1], stat := [(0, 0), (0, 2), (0, 2)], data := [(0, 255), (0, 0)], reads := [AstDemo.hdr64, AstDemo.hdr64] }

example : (AstDemo.register .bmc 0 AstDemo.failedScript).toOption.map (fun x => (x.2, x.1.busses.length)) = some (-1, 0) := by
  decide +kernel

example : (match astStart AstDemo.hw (astInit AstDemo.failedScript .bmc 0).st with
    | .ok (rc, s) =>
      let b := { astInit AstDemo.failedScript .bmc 0 with st := s }
      (decide (rc < 0), (loosePolls AstDemo.hw 2 b).toOption.map (·.2),
        match loosePolls AstDemo.hw 3 b with | .error f => some f | .ok _ => none)
    | .error _ => (false, none, none)) = (true, some [0, 0], some .nullDeref) := by
  decide +kernel

/-- The hypotheses of `C91_host_crash` are met: there is no BMC when the host registers its binding; then the BMC comes
up, sets its flag and writes the dummy value. -/
def AstDemo.earlyScript : AstDemo.Script := { stat := [(0, 0), (0, 0x81)], data := [(0, 255)], reads := [] }

example : (match astStart AstDemo.hw (astInit AstDemo.earlyScript .host 64).st with
    | .ok (rc, s) =>
      (rc, match loosePoll AstDemo.hw { astInit AstDemo.earlyScript .host 64 with st := s } with
        | .error f => some f | .ok _ => none)
    | .error _ => (0, none)) = (-112, some .nullDeref) := by
  decide +kernel

end Mctp
