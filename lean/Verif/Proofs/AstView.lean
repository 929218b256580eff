import Verif.Proofs.AstDelta

/-!
# The shape of a poll
-/

namespace Mctp

open Spec

variable {E : Type}

/-- The accesses made to transmit. -/
def IsTxAccess : Access → Prop
  | .kcsRead .status _ _ => True
  | .kcsWrite .data v _ => v = 1
  | .lpcWrite off _ _ => 256 ≤ off
  | _ => False

/-- A bus after transmissions: only the state of the transmit buffer, the environment and the trace of
the binding differ, and the gate and the queue of the bus. -/
structure TxOnly (bus bus' : Bus (AstSt E)) : Prop where
  eid  : bus'.eid = bus.eid
  bind : bus'.binding = { bus.binding with st := bus'.binding.st }
  mode : bus'.binding.st.mode = bus.binding.st.mode
  mtu  : bus'.binding.st.mtu = bus.binding.st.mtu
  prot : bus'.binding.st.proto = bus.binding.st.proto
  rx   : bus'.binding.st.rx = bus.binding.st.rx
  txo  : bus'.binding.st.tx.offset = bus.binding.st.tx.offset
  txs  : bus'.binding.st.tx.size = bus.binding.st.tx.size
  kcs  : bus'.binding.st.kcsStatus = bus.binding.st.kcsStatus
  adds : ∃ l, Adds bus.binding.st bus'.binding.st l ∧ ∀ a ∈ l, IsTxAccess a

theorem TxOnly.refl (bus : Bus (AstSt E)) : TxOnly bus bus :=
  ⟨rfl, rfl, rfl, rfl, rfl, rfl, rfl, rfl, rfl, [], Adds.refl _, by simp⟩

theorem TxOnly.trans {a b c : Bus (AstSt E)} (h : TxOnly a b) (h' : TxOnly b c) : TxOnly a c := by
  obtain ⟨e1, b1, m1, u1, p1, r1, o1, s1, k1, l1, d1, q1⟩ := h
  obtain ⟨e2, b2, m2, u2, p2, r2, o2, s2, k2, l2, d2, q2⟩ := h'
  refine ⟨e2.trans e1, by rw [b2, b1], m2.trans m1, u2.trans u1, p2.trans p1, r2.trans r1, o2.trans o1, s2.trans s1,
    k2.trans k1, l1 ++ l2, d1.trans d2, ?_⟩
  intro a ha
  rcases List.mem_append.mp ha with ha | ha
  · exact q1 a ha
  · exact q2 a ha

theorem Sends.isTx {mode : AstMode} {rc : Int} {l : List Access} (h : Sends mode 1 rc l) : ∀ a ∈ l, IsTxAccess a := by
  cases h <;> simp [IsTxAccess]

theorem TxWrites.isTx {s : AstSt E} {rc : Int} {len bytes : List Byte} {l : List Access} (h : TxWrites s rc len bytes l)
    (ho : 256 ≤ s.tx.offset) : ∀ a ∈ l, IsTxAccess a := by
  obtain ⟨r1, r2, l', rfl, h⟩ := h
  intro a ha
  simp only [List.cons_append, List.nil_append, List.mem_cons] at ha
  rcases ha with rfl | rfl | ha
  · exact ho
  · show 256 ≤ s.tx.offset + 4; omega
  · exact h.isTx a ha

theorem txOnly_keeps (hw : Hw E) (mode : AstMode) (mtu : Nat) (bus0 : Bus (AstSt E)) :
    Keeps (astOps hw) (fun _ bus => AstJ mode mtu bus ∧ TxOnly bus0 bus) where
  tx := by
    intro os bus p rest out hj hst hq he
    obtain ⟨hj, ho⟩ := hj
    refine ⟨(astJ_keeps hw mode mtu).tx (os := []) hj hst hq he, ho.trans ?_⟩
    obtain ⟨-, hl⟩ := hj.2 hst
    obtain ⟨v, hv, hv0, hc⟩ := astTx_adds hl he
    rcases hc with ⟨-, rfl⟩ | ⟨-, pkt1, bytes, rc, l, -, -, ha, hwr, -, -, -, h1, h2, h3, h4, h5, h6⟩
    · exact ⟨rfl, rfl, rfl, rfl, rfl, rfl, rfl, rfl, rfl, [], Adds.refl _, by simp⟩
    · exact ⟨rfl, rfl, h3, h4, h5, h2, by simp only [afterTx]; rw [h1], by simp only [afterTx]; rw [h1], h6, l, ha,
        hwr.isTx hl.2.1.1.1⟩
  push := fun hj hst _ => ⟨hj.1, hj.2.trans ⟨rfl, rfl, rfl, rfl, rfl, rfl, rfl, rfl, rfl, [], Adds.refl _, by simp⟩⟩
  off := fun hj hst => ⟨⟨hj.1.1, by simp⟩, hj.2.trans ⟨rfl, rfl, rfl, rfl, rfl, rfl, rfl, rfl, rfl, [], Adds.refl _, by simp⟩⟩

theorem setTxEnabled_events {β : Type} {ops : Ops β} {c c' : Core β} {i : Nat} {on : Bool} {e : List Event}
    (h : c.setTxEnabled ops i on = .ok (c', e)) : ∀ x ∈ e, IsTxEvent x := by
  unfold Core.setTxEnabled at h
  obtain ⟨bus, hbus, h⟩ := Res.bind_eq_ok.mp h
  split at h
  · split at h
    · simp only [Except.ok.injEq, Prod.mk.injEq] at h; rw [← h.2]; simp
    · split at h <;> simp only [Except.ok.injEq, Prod.mk.injEq] at h <;> rw [← h.2] <;> simp
  · split at h <;> simp only [Except.ok.injEq, Prod.mk.injEq] at h <;> rw [← h.2] <;> simp
  · split at h
    · simp only [Except.ok.injEq, Prod.mk.injEq] at h; rw [← h.2]; simp
    · exact (sendTxQueue_ok h).1

/-- Enabling or disabling transmission. -/
theorem setTxEnabled_only {hw : Hw E} {mode : AstMode} {mtu : Nat} {c c' : Core (AstSt E)} {i : Nat} {on : Bool}
    {bus : Bus (AstSt E)} {e : List Event} (hb : c.busses = [bus]) (hi : AstInv mode mtu bus.binding.st)
    (hon : on = true → bus.binding.st.tx.state = .acquired ∧ LaySafe bus.binding.st)
    (he : c.setTxEnabled (astOps hw) i on = .ok (c', e)) :
    ∃ bus' m, c' = { c with mem := m, busses := [bus'] } ∧ TxOnly bus bus' ∧ AstJ mode mtu bus' ∧
      (on = false → bus'.binding = bus.binding ∧ bus'.state ≠ .txEnabled ∧ e = []) ∧ (∀ x ∈ e, IsTxEvent x) := by
  have hev := setTxEnabled_events he
  cases on with
  | false =>
    obtain ⟨rfl, rfl, rfl⟩ := setTxEnabled_false hb he
    refine ⟨_, c.mem, rfl, ⟨rfl, rfl, rfl, rfl, rfl, rfl, rfl, rfl, rfl, [], Adds.refl _, by simp⟩, ⟨hi, ?_⟩, fun _ => ⟨rfl, ?_, rfl⟩, by simp⟩
    · simp only; split <;> simp
    · simp only; split <;> simp
  | true =>
    have hj : AstJ mode mtu bus := ⟨hi, fun _ => hon rfl⟩
    obtain ⟨bus', m, rfl, hj', ho⟩ := setTxEnabled_keeps (txOnly_keeps hw mode mtu bus) hb (os := []) ⟨hj, TxOnly.refl bus⟩
      (fun _ => ⟨⟨hi, fun _ => hon rfl⟩, ⟨rfl, rfl, rfl, rfl, rfl, rfl, rfl, rfl, rfl, [], Adds.refl _, by simp⟩⟩) he
    exact ⟨bus', m, rfl, ho, hj', by simp, hev⟩

theorem astRetry_adds (hw : Hw E) (s : AstSt E) :
    ∃ l1 l2, Adds s (astRetry hw s) (l1 ++ l2) ∧
      (s.rx.state = .prepared ∧ (∃ rc, Sends s.mode 2 rc l1 ∧ (astRetry hw s).rx = { s.rx with state := if rc = 0 then .released else .prepared }) ∨
        s.rx.state ≠ .prepared ∧ l1 = [] ∧ (astRetry hw s).rx = s.rx) ∧
      (s.tx.state = .prepared ∧ (∃ rc, Sends s.mode 1 rc l2 ∧ (astRetry hw s).tx = { s.tx with state := if rc = 0 then .released else .prepared }) ∨
        s.tx.state ≠ .prepared ∧ l2 = [] ∧ (astRetry hw s).tx = s.tx) ∧
      (astRetry hw s) = { s with env := (astRetry hw s).env, log := (astRetry hw s).log, rx := (astRetry hw s).rx, tx := (astRetry hw s).tx } := by
  have hfirst : ∃ s1 : AstSt E, (if s.rx.state = .prepared then
        (let r := kcsSend hw s cmdRxComplete
         if r.1 = 0 then { r.2 with rx := { r.2.rx with state := .released } } else r.2) else s) = s1 ∧
      ∃ l1, Adds s s1 l1 ∧
      (s.rx.state = .prepared ∧ (∃ rc, Sends s.mode 2 rc l1 ∧ s1.rx = { s.rx with state := if rc = 0 then .released else .prepared }) ∨
        s.rx.state ≠ .prepared ∧ l1 = [] ∧ s1.rx = s.rx) ∧ s1 = { s with env := s1.env, log := s1.log, rx := s1.rx } := by
    refine ⟨_, rfl, ?_⟩
    split
    · rename_i hsr
      generalize hk : kcsSend hw s cmdRxComplete = r
      obtain ⟨rc, s1⟩ := r
      obtain ⟨hs, l, ha, hsend⟩ := kcsSend_adds hk
      refine ⟨l, ha.congr rfl (by simp only; split <;> rfl), .inl ⟨hsr, rc, hsend, ?_⟩, ?_⟩
      · simp only; split
        · simp only [hs.rx]
        · rw [hs.rx, ← hsr]
      · simp only; split
        · rw [hs]
        · rw [hs]
    · rename_i hsr
      exact ⟨[], Adds.refl s, .inr ⟨hsr, rfl, rfl⟩, rfl⟩
  obtain ⟨s1, hs1, l1, ha1, hc1, he1⟩ := hfirst
  have hret : astRetry hw s = (if s1.tx.state = .prepared then
        (let r := kcsSend hw s1 cmdTxBegin
         if r.1 = 0 then { r.2 with tx := { r.2.tx with state := .released } } else r.2) else s1) := by
    unfold astRetry; rw [← hs1]
  have htx : s1.tx = s.tx := by rw [he1]
  have hmo : s1.mode = s.mode := by rw [he1]
  rw [hret]
  split
  · rename_i hsr
    generalize hk : kcsSend hw s1 cmdTxBegin = r
    obtain ⟨rc, s2⟩ := r
    obtain ⟨hs, l, ha, hsend⟩ := kcsSend_adds hk
    rw [hmo] at hsend
    rw [htx] at hsr
    refine ⟨l1, l, (ha1.trans ha).congr rfl (by simp only; split <;> rfl), ?_, .inl ⟨hsr, rc, hsend, ?_⟩, ?_⟩
    · have : ∀ x : AstSt E, x.rx = s2.rx → x.rx = s1.rx := fun x h => h.trans hs.rx
      simp only
      split
      · simp only [hs.rx]; exact hc1
      · rw [hs.rx]; exact hc1
    · simp only; split
      · simp only [hs.tx, htx]
      · rw [hs.tx, htx, ← hsr]
    · simp only; split
      · rw [hs, he1]
      · rw [hs, he1]
  · rename_i hsr
    rw [htx] at hsr
    exact ⟨l1, [], by simpa using ha1, hc1, .inr ⟨hsr, rfl, htx⟩, by rw [he1]⟩

/-- The three ways a poll can end, with what it has read. -/
theorem astPoll_view {hw : Hw E} {mode : AstMode} {mtu : Nat} {c c' : Core (AstSt E)} {i : Nat}
    {bus : Bus (AstSt E)} {e : List Event} {rc : Int} (hb : c.busses = [bus]) (hj : AstJ mode mtu bus)
    (he : c.astPoll hw i = .ok (c', e, rc)) :
    i = 0 ∧
    ((∃ r v s, SameSt (astRetry hw bus.binding.st) s ∧ Adds (astRetry hw bus.binding.st) s [.kcsRead .status r v] ∧
        AstJ mode mtu { bus with binding := { bus.binding with st := s } } ∧
        (r ≠ 0 ∨ kcsReady bus.binding.st.mode v false = false) ∧ rc = (if r = 0 then 0 else -1) ∧ e = [] ∧
        c' = { c with busses := [{ bus with binding := { bus.binding with st := s } }] }) ∨
     (∃ v r d s, SameSt (astRetry hw bus.binding.st) s ∧
        Adds (astRetry hw bus.binding.st) s [.kcsRead .status 0 v, .kcsRead .data r d] ∧
        AstJ mode mtu { bus with binding := { bus.binding with st := s } } ∧
        kcsReady bus.binding.st.mode v false = true ∧
        (((r ≠ 0 ∨ bus.binding.st.proto = some 0 ∧ d ≠ 0 ∧ d ≠ 255) ∧ rc = (if r = 0 then 0 else -1) ∧ e = [] ∧
          c' = { c with busses := [{ bus with binding := { bus.binding with st := s } }] }) ∨
         (r = 0 ∧ (∃ ver, bus.binding.st.proto = some ver ∧ (ver = 0 → d = 0 ∨ d = 255)) ∧
          (∃ w, Traced s w ∧ Phase s w ∧ (d = 1 → w.rx = true) ∧ (d = 2 → s.tx.state = .released → w.tx = .free)) ∧
          ∃ c1 e1 rc1 stop,
            Core.astCommand hw { c with busses := [{ bus with binding := { bus.binding with st := s } }] } 0 v d =
              .ok (c1, e1, rc1, stop) ∧
            ((stop = true ∧ c' = c1 ∧ e = e1 ∧ rc = rc1) ∨
             (stop = false ∧ ∃ e2, c1.astAfter hw 0 bus.binding.st.mode v d rc1 = .ok (c', e2, rc) ∧ e = e1 ++ e2)))))) := by
  unfold Core.astPoll at he
  obtain ⟨bus1, hbus, he⟩ := Res.bind_eq_ok.mp he
  obtain ⟨rfl, rfl⟩ := busAt_single hb hbus
  refine ⟨rfl, ?_⟩
  have hsame : ∀ s : AstSt E, SameSt (astRetry hw bus1.binding.st) s →
      s.mode = bus1.binding.st.mode ∧ s.proto = bus1.binding.st.proto := by
    intro s hs
    obtain ⟨_, _, _, _, _, hr⟩ := astRetry_adds hw bus1.binding.st
    exact ⟨hs.mode.trans (by rw [hr]), hs.proto.trans (by rw [hr])⟩
  obtain ⟨hi, hrp, hrk, hra, hrl⟩ := astRetry_inv (hw := hw) hj.1
  -- any state with the same buffers
  have step : ∀ {s : AstSt E} {w : Watch}, s.mode = mode → s.mtu = mtu → s.rx = (astRetry hw bus1.binding.st).rx →
      s.tx = (astRetry hw bus1.binding.st).tx → s.proto = (astRetry hw bus1.binding.st).proto → Traced s w → Phase s w →
      AstJ mode mtu { bus1 with binding := { bus1.binding with st := s } } := by
    intro s w a1 a2 a3 a4 a5 ht hp
    refine ⟨⟨a1, a2, by rw [a5]; exact hi.proto, ?_, ?_, w, ht, hp⟩, fun hst => ?_⟩
    · rcases hi.lay with hl | hl
      · exact .inl (hl.congr (by rw [a3]) (by rw [a3]) (by rw [a4]) (by rw [a4]))
      · exact .inr (hl.congr (by rw [a3]) (by rw [a3]) (by rw [a4]) (by rw [a4]))
    · rw [a4]; intro hb'; exact (hi.busy hb').congr (by rw [a3]) (by rw [a3]) (by rw [a4]) (by rw [a4])
    · obtain ⟨h1, h2⟩ := hj.2 hst
      exact ⟨by simp only; rw [a4]; exact hra h1, (hrl h2).congr (by simp only; rw [a3]) (by simp only; rw [a3]) (by simp only; rw [a4]) (by simp only; rw [a4])⟩
  obtain ⟨hm, hmt, hpr, hlay, hbusy, w, htr, hph⟩ := hi
  have ht1 := kcsRead_status (hw := hw) htr
  have h1 := kcsRead_adds hw (astRetry hw bus1.binding.st) .status
  have hs1 := kcsRead_same hw (astRetry hw bus1.binding.st) .status
  simp only at he
  generalize hr1 : kcsRead hw (astRetry hw bus1.binding.st) .status = r at h1 hs1 ht1 he
  obtain ⟨rc1, status, s1⟩ := r
  simp only at h1 hs1 ht1 he
  have hj1 := step (hs1.mode.trans hm) (hs1.mtu.trans hmt) hs1.rx hs1.tx hs1.proto ht1
    (hph.quiet (by rw [hs1.tx]) (by rw [hs1.rx]) rfl rfl)
  rw [(hsame s1 hs1).1] at he
  split at he
  · rename_i hz
    simp only [Except.ok.injEq, Prod.mk.injEq] at he
    obtain ⟨rfl, rfl, rfl⟩ := he
    exact .inl ⟨_, _, s1, hs1, h1, hj1, .inl hz, by rw [if_neg hz], rfl, setSt_single hb _⟩
  · rename_i hz
    have hz : rc1 = 0 := Decidable.not_not.mp hz
    subst hz
    split at he
    · rename_i hrd
      simp only [Except.ok.injEq, Prod.mk.injEq] at he
      obtain ⟨rfl, rfl, rfl⟩ := he
      exact .inl ⟨_, _, s1, hs1, h1, hj1, .inr (by simpa using hrd), rfl, rfl, setSt_single hb _⟩
    · rename_i hrd
      right
      have h2 := kcsRead_adds hw s1 .data
      have hs2 := kcsRead_same hw s1 .data
      have hrd' : kcsReady s1.mode status false = true := by rw [(hsame s1 hs1).1]; simpa using hrd
      have ht2 := kcsRead_data (hw := hw) ht1 (sawInput_of hrd')
      generalize hr2 : kcsRead hw s1 .data = r at h2 hs2 ht2 he
      obtain ⟨rc2, data, s2⟩ := r
      simp only at h2 hs2 ht2 he
      have hs12 := hs1.trans hs2
      have hph2 : Phase s2 (Watch.mk (some (.kcsRead .data rc2 data))
          (if rc2 = 0 ∧ data = 2 ∧ w.tx = .handed then .free else w.tx)
          (if rc2 = 0 ∧ data = 1 then true else w.rx)) := by
        obtain ⟨p1, p2, p3, p4, p5⟩ := hph
        rw [← hs12.tx] at p1 p2 p3
        rw [← hs12.rx] at p5
        refine ⟨fun a => ?_, fun a => ?_, fun a => ?_, ?_, fun a => ?_⟩
        · simp only [p1 a]; simp
        · simp only [p2 a]; simp
        · rcases p3 a with hh | hh
          · simp only [hh]; split <;> simp
          · simp only [hh]; simp
        · simp only; split
          · simp
          · exact p4
        · simp only [p5 a]; simp
      have hj2 := step (hs12.mode.trans hm) (hs12.mtu.trans hmt) hs12.rx hs12.tx hs12.proto ht2 hph2
      refine ⟨status, rc2, data, s2, hs12, h1.trans h2, hj2, by simpa using hrd, ?_⟩
      rw [setSt_single hb] at he
      split at he
      · rename_i hz2
        simp only [Except.ok.injEq, Prod.mk.injEq] at he
        obtain ⟨rfl, rfl, rfl⟩ := he
        exact .inl ⟨.inl hz2, by rw [if_neg hz2], rfl, rfl⟩
      · rename_i hz2
        have hz2 : rc2 = 0 := Decidable.not_not.mp hz2
        subst hz2
        rw [(hsame s2 hs12).2, (hsame s2 hs12).1] at he
        obtain ⟨version, hver, he⟩ := Res.bind_eq_ok.mp he
        have hpv : bus1.binding.st.proto = some version := by
          unfold protoVersion at hver
          split at hver
          · cases hver
          · rename_i hp; simp only [Except.ok.injEq] at hver; rw [hp, hver]
        split at he
        · rename_i hcond
          simp only [Except.ok.injEq, Prod.mk.injEq] at he
          obtain ⟨rfl, rfl, rfl⟩ := he
          obtain ⟨rfl, hd⟩ := hcond
          simp only [not_or] at hd
          exact .inl ⟨.inr ⟨hpv, hd⟩, rfl, rfl, rfl⟩
        · rename_i hcond
          right
          have hq1 : data = 1 → (if (0 : Int) = 0 ∧ data = 1 then true else w.rx) = true := by
            intro hd; subst hd; rfl
          have hq2 : data = 2 → s2.tx.state = .released →
              (if (0 : Int) = 0 ∧ data = 2 ∧ w.tx = .handed then TxPhase.free else w.tx) = .free := by
            intro hd hrel
            subst hd
            rw [hs12.tx] at hrel
            rcases hph.rel hrel with hh | hh
            · rw [hh]; rfl
            · rw [hh]; rfl
          refine ⟨rfl, ⟨version, hpv, ?_⟩, ⟨_, ht2, hph2, hq1, hq2⟩, ?_⟩
          · intro hv; simp only [not_and, Decidable.not_not] at hcond; exact hcond hv
          · obtain ⟨⟨c2, e2, rc3, stop⟩, hcmd, he⟩ := Res.bind_eq_ok.mp he
            refine ⟨c2, e2, rc3, stop, hcmd, ?_⟩
            simp only at he
            split at he
            · rename_i hstop
              simp only [Except.ok.injEq, Prod.mk.injEq] at he
              obtain ⟨rfl, rfl, rfl⟩ := he
              exact .inl ⟨hstop, rfl, rfl, rfl⟩
            · rename_i hstop
              obtain ⟨⟨c4, e4, rc4⟩, haf, he⟩ := Res.bind_eq_ok.mp he
              simp only [Except.ok.injEq, Prod.mk.injEq] at he
              obtain ⟨rfl, rfl, rfl⟩ := he
              exact .inr ⟨by simpa using hstop, e4, haf, rfl⟩

end Mctp
