import Verif.Proofs.AstPollRx

/-!
# A poll that reads a transmit-begin, and one that reads a command that does not fit
-/

namespace Mctp

open Spec

variable {E : Type}

theorem split_unique {α : Type} {x : α} : ∀ {a a' b b' : List α}, a ++ x :: b = a' ++ x :: b' → x ∉ a' → x ∉ b' →
    a = a' ∧ b = b'
  | [], [], b, b', h, _, _ => by simp at h; exact ⟨rfl, h⟩
  | [], y :: a', b, b', h, ha, _ => by
    simp only [List.nil_append, List.cons_append, List.cons.injEq] at h
    exact absurd h.1 (fun hh => ha (by simp [hh]))
  | y :: a, [], b, b', h, _, hb => by
    simp only [List.nil_append, List.cons_append, List.cons.injEq] at h
    exact absurd (show x ∈ b' by rw [← h.2]; simp) hb
  | y :: a, z :: a', b, b', h, ha, hb => by
    simp only [List.cons_append, List.cons.injEq] at h
    obtain ⟨h1, h2⟩ := split_unique h.2 (fun hh => ha (List.mem_cons_of_mem _ hh)) hb
    exact ⟨by rw [h.1, h1], h2⟩

theorem astUpdateActive_events {hw : Hw E} {c c' : Core (AstSt E)} {i : Nat} {e : List Event} {status updated : Byte} {rc : Int}
    (he : c.astUpdateActive hw i status updated = .ok (c', e, rc)) : ∀ x ∈ e, IsTxEvent x := by
  unfold Core.astUpdateActive at he
  obtain ⟨bus1, hbus, he⟩ := Res.bind_eq_ok.mp he
  obtain ⟨version, hver, he⟩ := Res.bind_eq_ok.mp he
  simp only at he
  split at he
  · obtain ⟨⟨rc1, b1⟩, hf, he⟩ := Res.bind_eq_ok.mp he
    obtain ⟨⟨c1, e1⟩, hset, he⟩ := Res.bind_eq_ok.mp he
    obtain ⟨bus2, hbus2, he⟩ := Res.bind_eq_ok.mp he
    simp only [Except.ok.injEq, Prod.mk.injEq] at he
    obtain ⟨-, rfl, -⟩ := he
    exact setTxEnabled_events hset
  · simp only [Except.ok.injEq, Prod.mk.injEq] at he
    obtain ⟨-, rfl, -⟩ := he
    simp

theorem astUpdateChannel_events {hw : Hw E} {c c' : Core (AstSt E)} {i : Nat} {e : List Event} {status : Byte} {rc : Int}
    (he : c.astUpdateChannel hw i status = .ok (c', e, rc)) : ∀ x ∈ e, IsTxEvent x := by
  unfold Core.astUpdateChannel at he
  obtain ⟨bus1, hbus, he⟩ := Res.bind_eq_ok.mp he
  simp only at he
  split at he
  · cases he
  · split at he
    · split at he
      · obtain ⟨⟨rc1, s1⟩, hs, he⟩ := Res.bind_eq_ok.mp he
        simp only [Except.ok.injEq, Prod.mk.injEq] at he
        obtain ⟨-, rfl, -⟩ := he
        simp
      · obtain ⟨⟨c1, e1⟩, hset, he⟩ := Res.bind_eq_ok.mp he
        obtain ⟨⟨c2, e2, rc2⟩, hu, he⟩ := Res.bind_eq_ok.mp he
        simp only [Except.ok.injEq, Prod.mk.injEq] at he
        obtain ⟨-, rfl, -⟩ := he
        intro x hx
        rcases List.mem_append.mp hx with hx | hx
        · exact setTxEnabled_events hset x hx
        · exact astUpdateActive_events hu x hx
    · exact astUpdateActive_events he

theorem astAfter_events {hw : Hw E} {c c' : Core (AstSt E)} {i : Nat} {e : List Event} {status d : Byte} {rc rc' : Int}
    {md : AstMode} (he : c.astAfter hw i md status d rc = .ok (c', e, rc')) : ∀ x ∈ e, IsTxEvent x := by
  unfold Core.astAfter at he
  split at he
  · exact astUpdateChannel_events he
  · simp only [Except.ok.injEq, Prod.mk.injEq] at he
    obtain ⟨-, rfl, -⟩ := he; simp

/-- The retry leaves a receive buffer that is not waiting alone. -/
theorem astRetry_rx (hw : Hw E) (s : AstSt E) (h : s.rx.state ≠ .prepared) : (astRetry hw s).rx = s.rx := by
  obtain ⟨l1, l2, -, hr1, -, -⟩ := astRetry_adds hw s
  rcases hr1 with ⟨h1, -⟩ | ⟨-, -, h1⟩
  · exact absurd h1 h
  · exact h1

theorem astRetry_tx (hw : Hw E) (s : AstSt E) (h : s.tx.state ≠ .prepared) : (astRetry hw s).tx = s.tx := by
  obtain ⟨l1, l2, -, -, hr2, -⟩ := astRetry_adds hw s
  rcases hr2 with ⟨h1, -⟩ | ⟨-, -, h1⟩
  · exact absurd h1 h
  · exact h1

/-- If the receive buffer is with the other side after the retry. -/
theorem astRetry_rx_released (hw : Hw E) (s : AstSt E) (h : (astRetry hw s).rx.state = .released) :
    (astRetry hw s).rx = { s.rx with state := .released } := by
  obtain ⟨l1, l2, -, hr1, -, -⟩ := astRetry_adds hw s
  rcases hr1 with ⟨h1, rc, -, h2⟩ | ⟨-, -, h1⟩
  · rw [h2] at h ⊢
    simp only at h ⊢
    rw [h]
  · rw [h1] at h ⊢; rw [← h]

/-- A poll that reads a transmit-begin while the receive buffer is with the other side, on an
established channel. -/
theorem poll_begin {hw : Hw E} {mode : AstMode} {mtu : Nat} {c c' : Core (AstSt E)}
    {bus bus' : Bus (AstSt E)} {e : List Event} {rc : Int} {v : Nat} (hb : c.busses = [bus]) (hbr : c.bridge = false)
    (hj : AstJ mode mtu bus) (hp : bus.binding.st.proto = some v) (hv : v ≠ 0)
    (hrx : (astRetry hw bus.binding.st).rx.state = .released)
    (he : c.astPoll hw 0 = .ok (c', e, rc)) (hb' : c'.busses = [bus']) {new : List Access}
    (hnew : Adds bus.binding.st bus'.binding.st new) (hd : Access.kcsRead .data 0 1 ∈ new) :
    ∃ pre st r0 lenBytes body after e1 e2 rx1,
      new = pre ++ .kcsRead .data 0 1 :: (.lpcRead bus.binding.st.rx.offset lenBytes r0 :: body ++ after) ∧
      (∀ a ∈ pre, ∀ d, a ≠ .kcsRead .data 0 d) ∧ (∀ a ∈ body ++ after, Plain a) ∧ .kcsRead .status 0 st ∈ new ∧
      e = e1 ++ e2 ∧ (∀ x ∈ e2, IsTxEvent x) ∧ (lenBytes.length = 4 ∧ LaySafe bus.binding.st) ∧
      (mode = .bmc ∨ SameBits bus.binding.st.kcsStatus st →
        e2 = [] ∧ after = [] ∧ bus'.binding.st.rx = rx1 ∧ bus'.state = bus.state ∧ bus'.queue = bus.queue ∧
        bus'.binding.st.proto = bus.binding.st.proto) ∧
      (((bus.binding.st.rx.size - overhead v < fromBe lenBytes ∨ bus.binding.pktSize < fromBe lenBytes ∨
            (pktbufAlloc c.mem c.fill bus.binding.pktSize bus.binding.pktHeader bus.binding.pktTrailer
              (fromBe lenBytes + (overhead v - 4))).1 = none) ∧
          body = [] ∧ rx1 = { bus.binding.st.rx with state := .released } ∧ e1 = []) ∨
       (fromBe lenBytes ≤ bus.binding.st.rx.size - overhead v ∧ fromBe lenBytes ≤ bus.binding.pktSize ∧
        ∃ r1 bytes rcs l, bytes.length = fromBe lenBytes + (overhead v - 4) ∧
          body = .lpcRead (bus.binding.st.rx.offset + 4) bytes r1 :: l ∧ Sends mode 2 rcs l ∧
          rx1 = { bus.binding.st.rx with state := if rcs = 0 then .released else .prepared } ∧
          ((¬ (firstByte c.fill bus.binding.pktHeader bytes = 1 ∧ Intact v bytes) ∧ e1 = []) ∨
           (firstByte c.fill bus.binding.pktHeader bytes = 1 ∧ Intact v bytes ∧
            packetsIn e1 = [bytes.take (fromBe lenBytes)] ∧ ∀ j, offers j e1 = [])))) := by
  obtain ⟨l0, st, s, hs, ha0, ha1, hmem, hjs, hcase⟩ := poll_cmd hb hbr hj he hb' hnew hd
  have hl0 : ∀ a ∈ l0, ∀ d, a ≠ Access.kcsRead .data 0 d := by
    obtain ⟨l, hl, hn⟩ := astRetry_noData hw bus.binding.st
    rw [ha0.inj hl]; exact hn
  obtain ⟨_, _, -, -, -, hret⟩ := astRetry_adds hw bus.binding.st
  have hsrx : s.rx = { bus.binding.st.rx with state := .released } := hs.rx.trans (astRetry_rx_released hw _ hrx)
  have hsproto : s.proto = bus.binding.st.proto := hs.proto.trans (by rw [hret])
  have hskcs : s.kcsStatus = bus.binding.st.kcsStatus := hs.kcs.trans (by rw [hret])
  have hsmode : s.mode = mode := hjs.1.mode
  have hmode : bus.binding.st.mode = mode := hj.1.mode
  rcases hcase with ⟨⟨h0, -⟩, -⟩ | ⟨-, hw1, c1, e1, rc1, stop, hcmd, hfr, hfin⟩
  · rw [hp] at h0; simp only [Option.some.injEq] at h0; exact absurd h0 hv
  unfold Core.astCommand at hcmd
  obtain ⟨bus2, hbus2, hcmd⟩ := Res.bind_eq_ok.mp hcmd
  obtain ⟨-, rfl⟩ := busAt_single rfl hbus2
  rw [if_neg (show (1 : Byte) ≠ cmdInitialise by decide), if_pos (show (1 : Byte) = cmdTxBegin from rfl)] at hcmd
  simp only at hcmd
  rw [if_neg (by rw [hsrx]; simp)] at hcmd
  obtain ⟨⟨c2, e2⟩, hrs, hcmd⟩ := Res.bind_eq_ok.mp hcmd
  simp only [Except.ok.injEq, Prod.mk.injEq] at hcmd
  obtain ⟨rfl, rfl, rfl, rfl⟩ := hcmd
  obtain ⟨-, hlay, v', r0, lenBytes, st', m, t, hv', -, hv4, hlen, hc2, hst', hcases⟩ := astRxStart_trace rfl (by exact hbr) hjs.1 hrs
  simp only at hv' hcases hst' hlay
  rw [hsproto, hp] at hv'
  simp only [Option.some.injEq] at hv'
  subst hv'
  rw [hsrx, hsmode] at hcases
  obtain ⟨e2', haf, hee⟩ : ∃ e2', c2.astAfter hw 0 mode st 1 0 = .ok (c', e2', rc) ∧ e = e2 ++ e2' := by
    rcases hfin with ⟨h, -⟩ | ⟨-, e2', haf, hee⟩
    · cases h
    · rw [hmode] at haf; exact ⟨e2', haf, hee⟩
  obtain ⟨bus1, m1, t1, hc1, hj2⟩ := hfr
  have hb2 : c2.busses = [bus1] := by rw [hc1]
  have hbus1 : bus1 = { bus with binding := { bus.binding with st := st' } } := by
    rw [hc2] at hb2; simpa using hb2.symm
  obtain ⟨b3, hb3, la, hga, hpa⟩ := astAfter_growC hb2 hj2 haf
  have : b3 = bus' := by rw [hb'] at hb3; simpa using hb3.symm
  subst this
  have hfinal : mode = .bmc ∨ SameBits bus.binding.st.kcsStatus st →
      e2' = [] ∧ la = [] ∧ b3.binding.st.rx = st'.rx ∧ b3.state = bus.state ∧ b3.queue = bus.queue ∧
        b3.binding.st.proto = bus.binding.st.proto := by
    intro hm
    have hst'k : st'.kcsStatus = bus.binding.st.kcsStatus := by rw [hst']; exact hskcs
    have hst'p : st'.proto = some v := by rw [hst']; exact hsproto.trans hp
    obtain ⟨h1, k, hk, -⟩ := astAfter_same hb2 (v := v) (by rw [hbus1]; exact hst'p) hv (by rw [hbus1]; simp only; rw [hst'k]; exact hm) haf
    rw [hbus1] at hk
    have hb3' : b3 = { bus with binding := { bus.binding with st := { st' with kcsStatus := k } } } := by
      rw [hk] at hb'; simpa using hb'.symm
    refine ⟨h1, ?_, ?_, ?_, ?_, ?_⟩
    · rw [hbus1, hb3'] at hga
      have := hga.inj (show Adds _ _ [] from (Adds.refl st').congr rfl rfl)
      exact this
    · rw [hb3']
    · rw [hb3']
    · rw [hb3']
    · rw [hb3']; exact hst'p.trans hp.symm
  rw [hbus1] at hga
  have hlen : lenBytes.length = 4 ∧ LaySafe bus.binding.st := by
    refine ⟨hlen, hlay.congr (by rw [hsrx]) (by rw [hsrx]) ?_ ?_⟩ <;> rw [hs.tx]
    all_goals
      obtain ⟨_, _, -, -, htx, -⟩ := astRetry_adds hw bus.binding.st
      rcases htx with ⟨-, _, -, htx⟩ | ⟨-, -, htx⟩ <;> rw [htx]
  rcases hcases with ⟨hbig, hadd, hrx', he0⟩ | ⟨hf1, hf2, r1, bytes, rcs, l, hbl, hadd, hsend, hrx', hdel⟩
  · have hall := hnew.inj (((ha0.trans ha1).trans hadd).trans hga)
    refine ⟨l0 ++ [.kcsRead .status 0 st], st, r0, lenBytes, [], la, e2, e2', st'.rx, by rw [hall]; simp, ?_, ?_, hmem, hee, astAfter_events haf, hlen, hfinal,
      .inl ⟨hbig, rfl, hrx', he0⟩⟩
    · intro a ha
      rcases List.mem_append.mp ha with ha | ha
      · exact hl0 a ha
      · simp only [List.mem_singleton] at ha; subst ha; simp
    · simpa using hpa
  · have hall := hnew.inj (((ha0.trans ha1).trans hadd).trans hga)
    refine ⟨l0 ++ [.kcsRead .status 0 st], st, r0, lenBytes, .lpcRead (bus.binding.st.rx.offset + 4) bytes r1 :: l, la, e2, e2', st'.rx, by rw [hall]; simp, ?_, ?_, hmem, hee, astAfter_events haf, hlen, hfinal,
      .inr ⟨hf1, hf2, r1, bytes, rcs, l, hbl, rfl, hsend, hrx', hdel⟩⟩
    · intro a ha
      rcases List.mem_append.mp ha with ha | ha
      · exact hl0 a ha
      · simp only [List.mem_singleton] at ha; subst ha; simp
    · intro a ha
      simp only [List.cons_append, List.mem_cons, List.mem_append] at ha
      rcases ha with rfl | ha | ha
      · trivial
      · exact hsend.plain a ha
      · exact hpa a ha

/-- A poll that reads a command that does not fit. -/
theorem poll_unfit {hw : Hw E} {mode : AstMode} {mtu : Nat} {c c' : Core (AstSt E)}
    {bus bus' : Bus (AstSt E)} {e : List Event} {rc : Int} (hb : c.busses = [bus]) (hbr : c.bridge = false)
    (hj : AstJ mode mtu bus)
    (he : c.astPoll hw 0 = .ok (c', e, rc)) (hb' : c'.busses = [bus']) {new : List Access}
    (hnew : Adds bus.binding.st bus'.binding.st new) {d : Byte} (hd : Access.kcsRead .data 0 d ∈ new)
    (hun : (bus.binding.st.proto = some 0 ∧ d ≠ 0 ∧ d ≠ 255) ∨
      (d = 1 ∧ (astRetry hw bus.binding.st).rx.state ≠ .released) ∨
      (d = 2 ∧ (astRetry hw bus.binding.st).tx.state ≠ .released) ∨
      (d ≠ 0 ∧ d ≠ 1 ∧ d ≠ 2 ∧ d ≠ 255 ∧
        (mode = .bmc ∨ ∀ st, Access.kcsRead .status 0 st ∈ new → SameBits bus.binding.st.kcsStatus st))) :
    e = [] ∧ rc = 0 ∧ ∃ l0 st env log k, new = l0 ++ [.kcsRead .status 0 st, .kcsRead .data 0 d] ∧
      Adds bus.binding.st (astRetry hw bus.binding.st) l0 ∧
      c' = { c with busses := [{ bus with binding := { bus.binding with st := { bus.binding.st with env := env, log := log, rx := (astRetry hw bus.binding.st).rx, tx := (astRetry hw bus.binding.st).tx, kcsStatus := k } } }] } := by
  obtain ⟨l0, st, s, hs, ha0, ha1, hmem, hjs, hcase⟩ := poll_cmd hb hbr hj he hb' hnew hd
  obtain ⟨_, _, -, -, -, hret⟩ := astRetry_adds hw bus.binding.st
  have hmode : bus.binding.st.mode = mode := hj.1.mode
  have hsproto : s.proto = bus.binding.st.proto := hs.proto.trans (by rw [hret])
  have hskcs : s.kcsStatus = bus.binding.st.kcsStatus := hs.kcs.trans (by rw [hret])
  have hs' : s = { bus.binding.st with env := s.env, log := s.log, rx := (astRetry hw bus.binding.st).rx, tx := (astRetry hw bus.binding.st).tx } := by
    have h := hs
    unfold SameSt at h
    generalize astRetry hw bus.binding.st = s0 at h hret
    generalize s0.env = ev0 at hret
    generalize s0.log = lg0 at hret
    generalize s0.rx = rx0 at hret
    generalize s0.tx = tx0 at hret
    subst hret
    generalize s.env = ev at h
    generalize s.log = lg at h
    subst h
    rfl
  have hfin : ∀ k rc', c' = { c with busses := [{ bus with binding := { bus.binding with st := { s with kcsStatus := k } } }] } → rc' = (0 : Int) → e = [] → rc = rc' → 
      e = [] ∧ rc = 0 ∧ ∃ l0 st env log k, new = l0 ++ [.kcsRead .status 0 st, .kcsRead .data 0 d] ∧
      Adds bus.binding.st (astRetry hw bus.binding.st) l0 ∧
      c' = { c with busses := [{ bus with binding := { bus.binding with st := { bus.binding.st with env := env, log := log, rx := (astRetry hw bus.binding.st).rx, tx := (astRetry hw bus.binding.st).tx, kcsStatus := k } } }] } := by
    intro k rc' hc hrc' he0 hrc
    refine ⟨he0, hrc.trans hrc', l0, st, s.env, s.log, k, ?_, ha0, ?_⟩
    · have hbb : bus' = { bus with binding := { bus.binding with st := { s with kcsStatus := k } } } := by
        rw [hc] at hb'; simpa using hb'.symm
      rw [hbb] at hnew
      exact hnew.inj ((ha0.trans ha1).congr rfl rfl)
    · rw [hc]
      generalize astRetry hw bus.binding.st = s0 at hs'
      generalize s.env = ev at hs'
      generalize s.log = lg at hs'
      subst hs'
      rfl
  have hself : ∀ c'', c'' = { c with busses := [{ bus with binding := { bus.binding with st := s } }] } →
      c'' = { c with busses := [{ bus with binding := { bus.binding with st := { s with kcsStatus := s.kcsStatus } } }] } := fun _ h => h
  obtain ⟨-, hview⟩ := astPoll_view hb hj he
  rcases hcase with ⟨-, hrc0, he0, hc'⟩ | ⟨⟨ver, hver, hver0⟩, hw1, c1, e1, rc1, stop, hcmd, hfr, hfn⟩
  · refine hfin _ 0 (hself _ hc') rfl he0 ?_
    exact hrc0
  rcases hun with ⟨h0, hd0, hd255⟩ | hun
  · rw [hver] at h0; simp only [Option.some.injEq] at h0
    rcases hver0 h0 with h | h
    · exact absurd h hd0
    · exact absurd h hd255
  unfold Core.astCommand at hcmd
  obtain ⟨bus2, hbus2, hcmd⟩ := Res.bind_eq_ok.mp hcmd
  obtain ⟨-, rfl⟩ := busAt_single rfl hbus2
  simp only at hcmd
  rcases hun with ⟨rfl, hrx⟩ | ⟨rfl, htx⟩ | ⟨d0, d1, d2, d255, hsame⟩
  · rw [if_neg (show (1 : Byte) ≠ cmdInitialise by decide), if_pos (show (1 : Byte) = cmdTxBegin from rfl),
      if_pos (by rw [hs.rx]; exact hrx)] at hcmd
    simp only [Except.ok.injEq, Prod.mk.injEq] at hcmd
    obtain ⟨rfl, rfl, rfl, rfl⟩ := hcmd
    rcases hfn with ⟨-, hc', he0, hrc⟩ | ⟨h, -⟩
    · exact hfin _ 0 (hself _ hc') rfl he0 hrc
    · cases h
  · rw [if_neg (show (2 : Byte) ≠ cmdInitialise by decide), if_neg (show (2 : Byte) ≠ cmdTxBegin by decide),
      if_pos (show (2 : Byte) = cmdRxComplete from rfl), if_pos (by rw [hs.tx]; exact htx)] at hcmd
    simp only [Except.ok.injEq, Prod.mk.injEq] at hcmd
    obtain ⟨rfl, rfl, rfl, rfl⟩ := hcmd
    rcases hfn with ⟨-, hc', he0, hrc⟩ | ⟨h, -⟩
    · exact hfin _ 0 (hself _ hc') rfl he0 hrc
    · cases h
  · rw [if_neg (show d ≠ cmdInitialise from d0), if_neg (show d ≠ cmdTxBegin from d1),
      if_neg (show d ≠ cmdRxComplete from d2), if_neg (show d ≠ cmdDummy from d255)] at hcmd
    simp only [Except.ok.injEq, Prod.mk.injEq] at hcmd
    obtain ⟨rfl, rfl, rfl, rfl⟩ := hcmd
    rcases hfn with ⟨h, -⟩ | ⟨-, e2, haf, hee⟩
    · cases h
    · have hver1 : ver ≠ 0 := by
        intro h
        rcases hver0 h with h | h
        · exact d0 h
        · exact d255 h
      have haf' := haf
      obtain ⟨h1, k, hk, -⟩ := astAfter_same rfl (v := ver) (by exact hsproto.trans hver) hver1 (by
        rw [hmode]
        rcases hsame with h | h
        · exact .inl h
        · right; simp only; rw [hskcs]; exact h st hmem) haf
      subst h1
      refine hfin k rc hk ?_ (by rw [hee]; rfl) rfl
      unfold Core.astAfter at haf
      split at haf
      · rename_i hc
        exact (astUpdateChannel_same rfl (v := ver) (by exact hsproto.trans hver) hver1 (by
          rcases hsame with h | h
          · rw [hmode, h] at hc; cases hc.1
          · simp only; rw [hskcs]; exact h st hmem) haf).2.1
      · simp only [Except.ok.injEq, Prod.mk.injEq] at haf
        exact haf.2.2.symm

/-- Commands other than transmit-begin only cause transmissions. -/
theorem astCommand_events {hw : Hw E} {c c' : Core (AstSt E)} {st d : Byte} {e : List Event} {rc : Int} {stop : Bool}
    {bus : Bus (AstSt E)} (hb : c.busses = [bus])
    (he : c.astCommand hw 0 st d = .ok (c', e, rc, stop)) (h : d ≠ 1 ∨ bus.binding.st.rx.state ≠ .released) :
    ∀ x ∈ e, IsTxEvent x := by
  unfold Core.astCommand at he
  obtain ⟨bus1, hbus, he⟩ := Res.bind_eq_ok.mp he
  obtain ⟨-, rfl⟩ := busAt_single hb hbus
  simp only at he
  split at he
  · obtain ⟨⟨c1, e1⟩, hi, he⟩ := Res.bind_eq_ok.mp he
    simp only [Except.ok.injEq, Prod.mk.injEq] at he
    obtain ⟨-, rfl, -⟩ := he
    unfold Core.astInitChannel at hi
    obtain ⟨bus2, hbus2, hi⟩ := Res.bind_eq_ok.mp hi
    obtain ⟨⟨on, b⟩, hic, hi⟩ := Res.bind_eq_ok.mp hi
    exact setTxEnabled_events hi
  · split at he
    · rename_i hd
      split at he
      · simp only [Except.ok.injEq, Prod.mk.injEq] at he
        obtain ⟨-, rfl, -⟩ := he; simp
      · rename_i hr
        rcases h with h | h
        · exact absurd hd h
        · exact absurd h hr
    · split at he
      · split at he
        · simp only [Except.ok.injEq, Prod.mk.injEq] at he
          obtain ⟨-, rfl, -⟩ := he; simp
        · obtain ⟨⟨c1, e1⟩, hi, he⟩ := Res.bind_eq_ok.mp he
          simp only [Except.ok.injEq, Prod.mk.injEq] at he
          obtain ⟨-, rfl, -⟩ := he
          unfold Core.astTxComplete at hi
          obtain ⟨bus2, hbus2, hi⟩ := Res.bind_eq_ok.mp hi
          exact setTxEnabled_events hi
      · split at he
        · split at he
          · obtain ⟨⟨c1, e1, rc1⟩, hi, he⟩ := Res.bind_eq_ok.mp he
            simp only [Except.ok.injEq, Prod.mk.injEq] at he
            obtain ⟨-, rfl, -⟩ := he
            exact astUpdateChannel_events hi
          · simp only [Except.ok.injEq, Prod.mk.injEq] at he
            obtain ⟨-, rfl, -⟩ := he; simp
        · simp only [Except.ok.injEq, Prod.mk.injEq] at he
          obtain ⟨-, rfl, -⟩ := he; simp

/-- A poll does something for the receiver only if it reads a transmit-begin while the receive buffer is
with the other side, on an established channel. -/
theorem poll_recv {hw : Hw E} {mode : AstMode} {mtu : Nat} {c c' : Core (AstSt E)}
    {bus bus' : Bus (AstSt E)} {e : List Event} {rc : Int} (hb : c.busses = [bus]) (hbr : c.bridge = false)
    (hj : AstJ mode mtu bus) (he : c.astPoll hw 0 = .ok (c', e, rc)) (hb' : c'.busses = [bus']) {new : List Access}
    (hnew : Adds bus.binding.st bus'.binding.st new) :
    (∀ x ∈ e, IsTxEvent x) ∨
    (Access.kcsRead .data 0 1 ∈ new ∧ (astRetry hw bus.binding.st).rx.state = .released ∧
      ∃ v, bus.binding.st.proto = some v ∧ v ≠ 0) := by
  obtain ⟨-, hcase⟩ := astPoll_view hb hj he
  obtain ⟨l, hl, -⟩ := astRetry_noData hw bus.binding.st
  rcases hcase with ⟨r, w, s, hs, ha, hj1, hcond, hrc, rfl, rfl⟩ | ⟨w, r, d', s, hs, ha, hj1, hrd, hcase⟩
  · left; simp
  · rcases hcase with ⟨hcond, hrc, rfl, rfl⟩ | ⟨rfl, ⟨ver, hver, hver0⟩, hw1, c1, e1, rc1, stop, hcmd, hfin⟩
    · left; simp
    · by_cases hd : d' ≠ 1 ∨ (astRetry hw bus.binding.st).rx.state ≠ .released
      · left
        have h1 := astCommand_events rfl hcmd (by simp only; rw [hs.rx]; exact hd)
        rcases hfin with ⟨-, -, rfl, -⟩ | ⟨-, e2, haf, rfl⟩
        · exact h1
        · intro x hx
          rcases List.mem_append.mp hx with hx | hx
          · exact h1 x hx
          · exact astAfter_events haf x hx
      · right
        have hd1 : d' = 1 := Classical.not_not.mp (fun h => hd (.inl h))
        have hr1 : (astRetry hw bus.binding.st).rx.state = .released := Classical.not_not.mp (fun h => hd (.inr h))
        subst hd1
        refine ⟨?_, hr1, ver, hver, fun h0 => by simpa using hver0 h0⟩
        obtain ⟨bus1, m1, t1, hc1, hj2⟩ := astCommand_frame rfl (by exact hbr) hj1 hw1 hcmd
        obtain ⟨b1, hb1, l1, g1, -⟩ := astCommand_growC rfl (by exact hbr) hj1 hw1 hcmd
        rcases hfin with ⟨-, rfl, -⟩ | ⟨-, e2, haf, -⟩
        · rw [hb'] at hb1; simp only [List.cons.injEq, and_true] at hb1; subst hb1
          rw [hnew.inj ((hl.trans ha).trans g1)]; simp
        · have hb1' : c1.busses = [bus1] := by rw [hc1]
          have : b1 = bus1 := by rw [hb1] at hb1'; simpa using hb1'
          subst this
          obtain ⟨b2, hb2, l2, g2, -⟩ := astAfter_growC hb1' hj2 haf
          rw [hb'] at hb2; simp only [List.cons.injEq, and_true] at hb2; subst hb2
          rw [hnew.inj (((hl.trans ha).trans g1).trans g2)]; simp

theorem astRetry_released (hw : Hw E) {s : AstSt E} (h : s.rx.state = .released) :
    (astRetry hw s).rx.state = .released := by
  rw [astRetry_rx hw s (by rw [h]; simp)]; exact h

end Mctp
