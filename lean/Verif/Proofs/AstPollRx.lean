import Verif.Proofs.AstGrow
import Verif.Spec.Serial

/-!
# Polls in an established channel: the command that was read
-/

namespace Mctp

open Spec

variable {E : Type}

theorem and_xor_eq (a b m : Byte) (h : a &&& m = b &&& m) : (a ^^^ b) &&& m = 0 := by
  apply BitVec.eq_of_getLsbD_eq
  intro i hi
  have h1 := congrArg (fun x => BitVec.getLsbD x i) h
  simp only [BitVec.getLsbD_and, BitVec.getLsbD_xor] at h1 ⊢
  revert h1
  cases a.getLsbD i <;> cases b.getLsbD i <;> cases m.getLsbD i <;> simp

/-- The two status bits that the host watches. -/
def SameBits (a b : Byte) : Prop := a &&& 0x80 = b &&& 0x80 ∧ a &&& 0x40 = b &&& 0x40

/-- With unchanged status bits the host only stores the status. -/
theorem astUpdateChannel_same {hw : Hw E} {c c' : Core (AstSt E)} {i : Nat} {bus : Bus (AstSt E)} {e : List Event}
    {status : Byte} {rc : Int} (hb : c.busses = [bus]) {v : Nat} (hp : bus.binding.st.proto = some v) (hv : v ≠ 0)
    (hs : SameBits bus.binding.st.kcsStatus status)
    (he : c.astUpdateChannel hw i status = .ok (c', e, rc)) :
    e = [] ∧ rc = 0 ∧
      c' = { c with busses := [{ bus with binding := { bus.binding with st := { bus.binding.st with kcsStatus := status } } }] } := by
  unfold Core.astUpdateChannel at he
  obtain ⟨bus1, hbus, he⟩ := Res.bind_eq_ok.mp he
  obtain ⟨rfl, rfl⟩ := busAt_single hb hbus
  simp only at he
  split at he
  · cases he
  · have h1 := and_xor_eq _ _ _ hs.1
    have h2 := and_xor_eq _ _ _ hs.2
    rw [if_neg (by rw [Decidable.not_not]; exact h1)] at he
    unfold Core.astUpdateActive at he
    obtain ⟨bus2, hbus2, he⟩ := Res.bind_eq_ok.mp he
    obtain ⟨-, rfl⟩ := busAt_single hb hbus2
    obtain ⟨ver, hver, he⟩ := Res.bind_eq_ok.mp he
    rw [hp] at hver
    simp only [protoVersion, Except.ok.injEq] at hver
    subst hver
    rw [if_neg (by simp only [not_or, Decidable.not_not]; exact ⟨hv, h2⟩)] at he
    simp only [Except.ok.injEq, Prod.mk.injEq] at he
    obtain ⟨rfl, rfl, rfl⟩ := he
    exact ⟨rfl, rfl, setSt_single hb _⟩

/-- After a packet command on an established channel nothing more happens, except that the host stores
the status. -/
theorem astAfter_same {hw : Hw E} {c c' : Core (AstSt E)} {bus : Bus (AstSt E)} {e : List Event}
    {status d : Byte} {rc rc' : Int} {mode : AstMode} (hb : c.busses = [bus]) {v : Nat} (hp : bus.binding.st.proto = some v) (hv : v ≠ 0)
    (hs : mode = .bmc ∨ SameBits bus.binding.st.kcsStatus status)
    (he : c.astAfter hw 0 mode status d rc = .ok (c', e, rc')) :
    e = [] ∧ ∃ k, c' = { c with busses := [{ bus with binding := { bus.binding with st := { bus.binding.st with kcsStatus := k } } }] } ∧
      (k = bus.binding.st.kcsStatus ∨ mode = .host ∧ k = status) := by
  unfold Core.astAfter at he
  split at he
  · rename_i hc
    have hs : SameBits bus.binding.st.kcsStatus status := by
      rcases hs with rfl | hs
      · cases hc.1
      · exact hs
    obtain ⟨rfl, -, rfl⟩ := astUpdateChannel_same hb hp hv hs he
    exact ⟨rfl, status, rfl, .inr ⟨hc.1, rfl⟩⟩
  · simp only [Except.ok.injEq, Prod.mk.injEq] at he
    obtain ⟨rfl, rfl, rfl⟩ := he
    refine ⟨rfl, bus.binding.st.kcsStatus, ?_, .inl rfl⟩
    show c = { c with busses := [bus] }
    cases c; simp only at hb; subst hb; rfl

theorem Adds.inj {a b : AstSt E} {l l' : List Access} (h : Adds a b l) (h' : Adds a b l') : l = l' := by
  unfold Adds at h h'
  rw [h] at h'
  exact List.append_cancel_left h'

theorem sends_noData {mode : AstMode} {cmd : Byte} {rc : Int} {l : List Access} (h : Sends mode cmd rc l) :
    ∀ a ∈ l, ∀ d, a ≠ Access.kcsRead .data 0 d := by
  cases h <;> simp

/-- The deferred hand-overs never read the data register. -/
theorem astRetry_noData (hw : Hw E) (s : AstSt E) :
    ∃ l, Adds s (astRetry hw s) l ∧ ∀ a ∈ l, ∀ d, a ≠ Access.kcsRead .data 0 d := by
  obtain ⟨l1, l2, hadds, hr1, hr2, -⟩ := astRetry_adds hw s
  refine ⟨_, hadds, ?_⟩
  intro a ha
  rcases List.mem_append.mp ha with h | h
  · rcases hr1 with ⟨-, rc, hs, -⟩ | ⟨-, rfl, -⟩
    · exact sends_noData hs a h
    · simp at h
  · rcases hr2 with ⟨-, rc, hs, -⟩ | ⟨-, rfl, -⟩
    · exact sends_noData hs a h
    · simp at h

theorem astAfter_growC {hw : Hw E} {mode : AstMode} {mtu : Nat} {c c' : Core (AstSt E)} {i : Nat}
    {bus : Bus (AstSt E)} {e : List Event} {status d : Byte} {rc rc' : Int} {md : AstMode} (hb : c.busses = [bus])
    (hj : AstJ mode mtu bus) (he : c.astAfter hw i md status d rc = .ok (c', e, rc')) : GrowC bus c' := by
  unfold Core.astAfter at he
  split at he
  · exact astUpdateChannel_growC hb hj he
  · simp only [Except.ok.injEq, Prod.mk.injEq] at he
    obtain ⟨rfl, -⟩ := he
    exact ⟨bus, hb, Grow.refl _⟩

/-- A poll that read the command `d`: the retries, the status and the data register, then the command. -/
theorem poll_cmd {hw : Hw E} {mode : AstMode} {mtu : Nat} {c c' : Core (AstSt E)} {i : Nat}
    {bus : Bus (AstSt E)} {e : List Event} {rc : Int} (hb : c.busses = [bus]) (hbr : c.bridge = false)
    (hj : AstJ mode mtu bus)
    (he : c.astPoll hw i = .ok (c', e, rc)) {bus' : Bus (AstSt E)} (hb' : c'.busses = [bus']) {new : List Access}
    (hnew : Adds bus.binding.st bus'.binding.st new) {d : Byte}
    (hd : Access.kcsRead .data 0 d ∈ new) :
    ∃ l0 st s, SameSt (astRetry hw bus.binding.st) s ∧ Adds bus.binding.st (astRetry hw bus.binding.st) l0 ∧
      Adds (astRetry hw bus.binding.st) s [.kcsRead .status 0 st, .kcsRead .data 0 d] ∧
      Access.kcsRead .status 0 st ∈ new ∧
      AstJ mode mtu { bus with binding := { bus.binding with st := s } } ∧
      (((bus.binding.st.proto = some 0 ∧ d ≠ 0 ∧ d ≠ 255) ∧ rc = 0 ∧ e = [] ∧
          c' = { c with busses := [{ bus with binding := { bus.binding with st := s } }] }) ∨
       ((∃ ver, bus.binding.st.proto = some ver ∧ (ver = 0 → d = 0 ∨ d = 255)) ∧
        (∃ w, Traced s w ∧ Phase s w ∧ (d = 1 → w.rx = true) ∧ (d = 2 → s.tx.state = .released → w.tx = .free)) ∧
        ∃ c1 e1 rc1 stop,
          Core.astCommand hw { c with busses := [{ bus with binding := { bus.binding with st := s } }] } 0 st d =
            .ok (c1, e1, rc1, stop) ∧ Frame mode mtu { c with busses := [{ bus with binding := { bus.binding with st := s } }] } c1 ∧
          ((stop = true ∧ c' = c1 ∧ e = e1 ∧ rc = rc1) ∨
           (stop = false ∧ ∃ e2, c1.astAfter hw 0 bus.binding.st.mode st d rc1 = .ok (c', e2, rc) ∧ e = e1 ++ e2)))) := by
  obtain ⟨rfl, hcase⟩ := astPoll_view hb hj he
  obtain ⟨l0, hadds, hl0⟩ := astRetry_noData hw bus.binding.st
  rcases hcase with ⟨r, w, s, hs, ha, hj1, hcond, hrc, rfl, rfl⟩ | ⟨w, r, d', s, hs, ha, hj1, hrd, hcase⟩
  · simp only [List.cons.injEq, and_true] at hb'
    subst hb'
    have := hnew.inj (hadds.trans ha)
    subst this
    rcases List.mem_append.mp hd with hd | hd
    · exact absurd rfl (hl0 _ hd _)
    · simp at hd
  · rcases hcase with ⟨hcond, hrc, rfl, rfl⟩ | ⟨rfl, hver, hw1, c1, e1, rc1, stop, hcmd, hfin⟩
    · simp only [List.cons.injEq, and_true] at hb'
      subst hb'
      have := hnew.inj (hadds.trans ha)
      subst this
      simp only [List.mem_append, List.mem_cons, List.not_mem_nil, or_false] at hd
      rcases hd with hd | hd | hd
      · exact absurd rfl (hl0 _ hd _)
      · simp at hd
      · simp only [Access.kcsRead.injEq, true_and] at hd
        obtain ⟨rfl, rfl⟩ := hd
        refine ⟨l0, w, s, hs, hadds, ha, by simp, hj1, .inl ⟨?_, hrc, rfl, rfl⟩⟩
        rcases hcond with h | h
        · exact absurd rfl h
        · exact h
    · obtain ⟨bus1, m1, t1, hc1, hj2⟩ := astCommand_frame rfl (by exact hbr) hj1 hw1 hcmd
      have hg1 := astCommand_growC rfl (by exact hbr) hj1 hw1 hcmd
      have hg : Grow s bus'.binding.st := by
        obtain ⟨b1, hb1, g1⟩ := hg1
        rcases hfin with ⟨-, rfl, -⟩ | ⟨-, e2, haf, -⟩
        · rw [hb'] at hb1; simp only [List.cons.injEq, and_true] at hb1; subst hb1; exact g1
        · have hb1' : c1.busses = [bus1] := by rw [hc1]
          have : b1 = bus1 := by rw [hb1] at hb1'; simpa using hb1'
          subst this
          obtain ⟨b2, hb2, g2⟩ := astAfter_growC hb1' hj2 haf
          rw [hb'] at hb2; simp only [List.cons.injEq, and_true] at hb2; subst hb2
          exact g1.trans g2
      obtain ⟨l3, ha3, hl3⟩ := hg
      have := hnew.inj ((hadds.trans ha).trans ha3)
      subst this
      have hdd : d' = d := by
        simp only [List.mem_append, List.mem_cons, List.not_mem_nil, or_false] at hd
        rcases hd with (hd | hd | hd) | hd
        · exact absurd rfl (hl0 _ hd _)
        · simp at hd
        · simp only [Access.kcsRead.injEq, true_and] at hd; exact hd.symm
        · exact absurd (hl3 _ hd) (by simp [Plain])
      subst hdd
      exact ⟨l0, w, s, hs, hadds, ha, by simp, hj1, .inr ⟨hver, hw1, c1, e1, rc1, stop, hcmd, ⟨bus1, m1, t1, hc1, hj2⟩, hfin⟩⟩

theorem afterRead_adds (hw : Hw E) (s : AstSt E) :
    ∃ rc l, Sends s.mode 2 rc l ∧ Adds s (afterRead hw s) l ∧
      (afterRead hw s) = { s with env := (afterRead hw s).env, log := (afterRead hw s).log, rx := { s.rx with state := if rc = 0 then .released else .prepared } } := by
  unfold afterRead
  generalize hk : kcsSend hw { s with rx := { s.rx with state := .prepared } } cmdRxComplete = r
  obtain ⟨rc, s3⟩ := r
  obtain ⟨hs, l, ha, hsend⟩ := kcsSend_adds hk
  refine ⟨rc, l, hsend, ?_, ?_⟩
  · simp only; split
    · exact ha
    · exact ha
  · unfold SameSt at hs
    generalize s3.env = ev at hs
    generalize s3.log = lg at hs
    subst hs
    simp only
    split <;> rfl

/-- Everything the receive path does: the length is read, and then the packet is read and the buffer is
handed back, or nothing more is done. -/
theorem astRxStart_trace {hw : Hw E} {mode : AstMode} {mtu : Nat} {c c' : Core (AstSt E)} {i : Nat}
    {bus : Bus (AstSt E)} {e : List Event} (hb : c.busses = [bus]) (hbr : c.bridge = false)
    (hi : AstInv mode mtu bus.binding.st) (he : c.astRxStart hw i = .ok (c', e)) :
    i = 0 ∧ LaySafe bus.binding.st ∧ ∃ v r0 lenBytes st' m t, bus.binding.st.proto = some v ∧ v ≠ 0 ∧ v < 4 ∧
      lenBytes.length = 4 ∧
      c' = { c with busses := [{ bus with binding := { bus.binding with st := st' } }], mem := m, ctxs := t } ∧
      st' = { bus.binding.st with env := st'.env, log := st'.log, rx := st'.rx } ∧
      (((bus.binding.st.rx.size - overhead v < fromBe lenBytes ∨ bus.binding.pktSize < fromBe lenBytes ∨
            (pktbufAlloc c.mem c.fill bus.binding.pktSize bus.binding.pktHeader bus.binding.pktTrailer
              (fromBe lenBytes + (overhead v - 4))).1 = none) ∧
          Adds bus.binding.st st' [.lpcRead bus.binding.st.rx.offset lenBytes r0] ∧ st'.rx = bus.binding.st.rx ∧ e = []) ∨
       (fromBe lenBytes ≤ bus.binding.st.rx.size - overhead v ∧ fromBe lenBytes ≤ bus.binding.pktSize ∧
        ∃ r1 bytes rcs l, bytes.length = fromBe lenBytes + (overhead v - 4) ∧
          Adds bus.binding.st st' ([.lpcRead bus.binding.st.rx.offset lenBytes r0,
            .lpcRead (bus.binding.st.rx.offset + 4) bytes r1] ++ l) ∧
          Sends bus.binding.st.mode 2 rcs l ∧
          st'.rx = { bus.binding.st.rx with state := if rcs = 0 then .released else .prepared } ∧
          ((¬ (firstByte c.fill bus.binding.pktHeader bytes = 1 ∧ Intact v bytes) ∧ e = []) ∨
           (firstByte c.fill bus.binding.pktHeader bytes = 1 ∧ Intact v bytes ∧
            packetsIn e = [bytes.take (fromBe lenBytes)] ∧ ∀ j, offers j e = [])))) := by
  obtain ⟨rfl, hl, v, r0, lenBytes, s1, hv, hv0, hv4, hr0, hcases⟩ := astRxStart_cases hb hi he
  obtain ⟨hs1, hlen4, -, -, -⟩ := lpcRead_ok hr0
  have ha1 := lpcRead_adds hr0
  have same : ∀ {a b : AstSt E}, SameSt a b → b = { a with env := b.env, log := b.log, rx := b.rx } := by
    intro a b h
    unfold SameSt at h
    generalize b.env = ev at h
    generalize b.log = lg at h
    subst h
    rfl
  refine ⟨rfl, hl, v, r0, lenBytes, ?_⟩
  rcases hcases with ⟨hbig, rfl, rfl⟩ | ⟨hfit, hfit2, hcases⟩
  · refine ⟨s1, c.mem, c.ctxs, hv, hv0, hv4, hlen4, setSt_single hb _, same hs1, .inl ⟨?_, ha1, hs1.rx, rfl⟩⟩
    rcases hbig with h | h
    · exact .inl h
    · exact .inr (.inl h)
  · rcases hcases with ⟨m, rfl, rfl, hnone⟩ | ⟨r1, bytes, s2, hr1, hblen, hcases⟩
    · exact ⟨s1, m, c.ctxs, hv, hv0, hv4, hlen4, setSt_single (by exact hb) _, same hs1,
        .inl ⟨.inr (.inr hnone), ha1, hs1.rx, rfl⟩⟩
    · obtain ⟨hs2, -, -, -, -⟩ := lpcRead_ok hr1
      have ha2 := lpcRead_adds hr1
      have hs12 := hs1.trans hs2
      obtain ⟨rcs, l, hsend, ha3, heq⟩ := afterRead_adds hw s2
      rw [hs12.mode] at hsend
      have hadds := (ha1.trans ha2).trans ha3
      have hst : afterRead hw s2 = { bus.binding.st with env := (afterRead hw s2).env, log := (afterRead hw s2).log, rx := (afterRead hw s2).rx } := by
        have h := same hs12
        generalize afterRead hw s2 = s3 at heq
        generalize s3.env = ev at heq
        generalize s3.log = lg at heq
        subst heq
        generalize s2.env = ev2 at h
        generalize s2.log = lg2 at h
        generalize s2.rx = rx2 at h
        subst h
        rfl
      have hrx : (afterRead hw s2).rx = { bus.binding.st.rx with state := if rcs = 0 then .released else .prepared } := by
        rw [heq, ← hs12.rx]
      rcases hcases with ⟨hbad, ⟨m, rfl⟩, rfl⟩ | ⟨h1, h2, m, pkt, hp, hrx'⟩
      · exact ⟨_, m, c.ctxs, hv, hv0, hv4, hlen4, setSt_single (by exact hb) _, hst,
          .inr ⟨hfit, hfit2, r1, bytes, rcs, l, hblen, hadds, hsend, hrx, .inl ⟨hbad, rfl⟩⟩⟩
      · rw [setSt_single (by exact hb)] at hrx'
        obtain ⟨m2, t, rfl, ho, hpk⟩ := busRx_busses rfl (by exact hbr) hp hrx'
        refine ⟨_, m2, t, hv, hv0, hv4, hlen4, rfl, hst,
          .inr ⟨hfit, hfit2, r1, bytes, rcs, l, hblen, hadds, hsend, hrx, .inr ⟨h1, h2, ?_, ho⟩⟩⟩
        have : ∀ l : List Event, packetsIn l = (l.filterMap (fun ev => match ev with | .recv j p => some (j, p) | _ => none)).map Prod.snd := by
          intro l
          rw [List.map_filterMap]
          unfold packetsIn
          congr 1
          funext ev
          cases ev <;> rfl
        exact (this _).trans (congrArg (List.map Prod.snd) hpk)

end Mctp
