import Verif.Proofs.AstChan

/-! The invariant of the astlpc binding through `mctp_astlpc_poll`. -/

namespace Mctp

open Spec

variable {E : Type}

theorem setSt_single {β : Type} {c : Core β} {bus : Bus β} (hb : c.busses = [bus]) (st : β) :
    c.setSt 0 bus st = { c with busses := [{ bus with binding := { bus.binding with st := st } }] } := by
  simp [Core.setSt, Core.setBus, hb]

theorem setBinding_single {β : Type} {c : Core β} {bus : Bus β} (hb : c.busses = [bus]) (b : Binding β) :
    c.setBinding 0 bus b = { c with busses := [{ bus with binding := b }] } := by
  simp [Core.setBinding, Core.setBus, hb]

/-! ## Receiving -/

/-- The bytes read from a packet buffer are an intact packet of the version. -/
def Intact (v : Nat) (bytes : List Byte) : Prop :=
  v = 3 → bytes.drop (bytes.length - 4) = be32 (crc32 (bytes.take (bytes.length - 4))).toNat

theorem take_take_eq {α : Type} {l : List α} {n k : Nat} (h : k ≤ n) (m : List α) (hm : l.take n = m) :
    l.take k = m.take k := by
  rw [← hm, List.take_take, Nat.min_eq_left h]

/-- The check of the packet and the packet that remains. -/
theorem protoValidate_ok {v : Nat} (hv : v ≠ 0) (hv4 : v < 4) {pkt pkt' : Pktbuf} {bs : List Byte} {r : Bool}
    (hp : PktIs pkt bs) (he : protoValidate (some v) pkt = .ok (r, pkt')) :
    (r = true ↔ Intact v bs) ∧ PktIs pkt' (bs.take (bs.length - (overhead v - 4))) ∧ pkt'.id = pkt.id := by
  match v, hv, hv4, he with
  | 1, _, _, he =>
    cases (show Except.ok (true, pkt) = .ok (r, pkt') from he)
    refine ⟨by simp [Intact], ?_, rfl⟩
    rw [show overhead 1 - 4 = 0 from rfl, Nat.sub_zero, List.take_length]; exact hp
  | 2, _, _, he =>
    cases (show Except.ok (true, pkt) = .ok (r, pkt') from he)
    refine ⟨by simp [Intact], ?_, rfl⟩
    rw [show overhead 2 - 4 = 0 from rfl, Nat.sub_zero, List.take_length]; exact hp
  | 3, _, _, he =>
    unfold protoValidate at he
    simp only at he
    split at he
    · cases he
    · rename_i hlen
      rw [hp.len] at hlen he
      obtain ⟨body, hb, he⟩ := Res.bind_eq_ok.mp he
      have hr := hp.read 0 (bs.length - 4) (by omega)
      rw [Nat.add_zero] at hr
      rw [hr] at hb
      simp only [Except.ok.injEq, List.drop_zero] at hb
      have hpop : pkt.pop 4 = (some (pkt.«end» - 4), { pkt with «end» := pkt.«end» - 4 }) := by
        unfold Pktbuf.pop; rw [hp.len, if_neg (by omega)]
      rw [hpop] at he
      simp only at he
      obtain ⟨chk, hc, he⟩ := Res.bind_eq_ok.mp he
      have hr2 := hp.read (bs.length - 4) 4 (by omega)
      have hoff : pkt.hdrOff + (bs.length - 4) = pkt.«end» - 4 := by rw [hp.hdr, hp.fin]; omega
      rw [hoff] at hr2
      rw [hr2] at hc
      simp only [Except.ok.injEq] at hc he
      have hdl : (bs.drop (bs.length - 4)).take 4 = bs.drop (bs.length - 4) := by
        rw [List.take_of_length_le]; simp; omega
      rw [hdl] at hc
      cases he
      refine ⟨?_, ?_, rfl⟩
      · simp only [Intact, decide_eq_true_eq, hb, hc, true_implies]
        exact eq_comm
      · have h4 : overhead 3 - 4 = 4 := rfl
        rw [h4]
        refine ⟨hp.hdr, ?_, ?_, ?_⟩
        · simp only [hp.fin, List.length_take]; omega
        · simp only; have := hp.fits; omega
        · simp only [List.length_take]
          rw [Nat.min_eq_left (by omega)]
          exact take_take_eq (by omega) bs hp.cont

theorem protoValidate_total {v : Nat} (hv : v ≠ 0) (hv4 : v < 4) {pkt : Pktbuf} {bs : List Byte}
    (hp : PktIs pkt bs) (h : v = 3 → 4 ≤ bs.length) :
    ∃ r pkt', protoValidate (some v) pkt = .ok (r, pkt') := by
  match v, hv, hv4, h with
  | 1, _, _, _ => exact ⟨_, _, rfl⟩
  | 2, _, _, _ => exact ⟨_, _, rfl⟩
  | 3, _, _, h =>
    have h := h rfl
    unfold protoValidate
    simp only
    rw [if_neg (by rw [hp.len]; omega)]
    have hr := hp.read 0 (bs.length - 4) (by omega)
    rw [Nat.add_zero] at hr
    rw [hp.len, hr]
    have hpop : pkt.pop 4 = (some (pkt.«end» - 4), { pkt with «end» := pkt.«end» - 4 }) := by
      unfold Pktbuf.pop; rw [hp.len, if_neg (by omega)]
    simp only [Res.bind_ok, hpop]
    have hr2 := hp.read (bs.length - 4) 4 (by omega)
    have hoff : pkt.hdrOff + (bs.length - 4) = pkt.«end» - 4 := by rw [hp.hdr, hp.fin]; omega
    rw [hoff] at hr2
    rw [hr2]
    exact ⟨_, _, rfl⟩

/-- The state after a packet has been read from the receive buffer. -/
def afterRead (hw : Hw E) (s : AstSt E) : AstSt E :=
  let r := kcsSend hw { s with rx := { s.rx with state := .prepared } } cmdRxComplete
  if r.1 = 0 then { r.2 with rx := { r.2.rx with state := .released } } else r.2

/-- The first byte the receiver looks at: of the packet, or of the fresh buffer if the packet is empty. -/
def firstByte (fill : Nat → Byte) (hdr : Nat) (bytes : List Byte) : Byte := bytes.headD (fill hdr)

theorem fresh_first {m m' : Mem} {fill : Nat → Byte} {s h t len : Nat} {p p' : Pktbuf} {bs : List Byte} {ver : List Byte}
    (hp : pktbufAlloc m fill s h t len = (some p, m')) (hw : p.write p.hdrOff bs = .ok p')
    (hr : p'.read p'.hdrOff 1 = .ok ver) : ver = [firstByte fill h bs] := by
  obtain ⟨_, _, _, _, ho, _, hl⟩ := pktbufAlloc_some hp
  obtain ⟨hb, hp'⟩ := write_ok hw
  have hd : p.data = (List.range (s + h + t)).map fill := by
    unfold pktbufAlloc at hp
    simp only at hp
    split at hp
    · cases hp
    · split at hp
      · cases hp
      · simp at hp; obtain ⟨rfl, _⟩ := hp; rfl
  unfold Pktbuf.read at hr
  split at hr
  · rename_i hfit
    simp only [Except.ok.injEq] at hr
    subst hr
    subst hp'
    simp only [ho] at hb hfit ⊢
    rw [List.append_assoc, List.drop_append_of_le_length (by simp; omega), List.drop_of_length_le (by simp; omega),
      List.nil_append]
    cases bs with
    | cons x xs => simp [firstByte]
    | nil =>
      simp only [List.nil_append, List.length_nil, Nat.add_zero, firstByte, List.headD_nil]
      have hlt : h < p.data.length := by simp at hfit; omega
      rw [List.drop_eq_getElem_cons hlt, List.take_succ_cons, List.take_zero]
      simp [hd]
  · cases hr

/-- What `mctp_astlpc_rx_start` does. -/
theorem astRxStart_cases {hw : Hw E} {mode : AstMode} {mtu : Nat} {c c' : Core (AstSt E)} {i : Nat}
    {bus : Bus (AstSt E)} {e : List Event} (hb : c.busses = [bus]) (hi : AstInv mode mtu bus.binding.st)
    (he : c.astRxStart hw i = .ok (c', e)) :
    i = 0 ∧ LaySafe bus.binding.st ∧ ∃ v r0 lenBytes s1, bus.binding.st.proto = some v ∧ v ≠ 0 ∧ v < 4 ∧
      lpcRead hw bus.binding.st bus.binding.st.rx.offset 4 = .ok (r0, lenBytes, s1) ∧
      (((bus.binding.st.rx.size - overhead v < fromBe lenBytes ∨ bus.binding.pktSize < fromBe lenBytes) ∧
          c' = c.setSt 0 bus s1 ∧ e = []) ∨
       (fromBe lenBytes ≤ bus.binding.st.rx.size - overhead v ∧ fromBe lenBytes ≤ bus.binding.pktSize ∧
        ((∃ m, c' = ({ c with mem := m }).setSt 0 bus s1 ∧ e = [] ∧
            (pktbufAlloc c.mem c.fill bus.binding.pktSize bus.binding.pktHeader bus.binding.pktTrailer
              (fromBe lenBytes + (overhead v - 4))).1 = none) ∨
         (∃ r1 bytes s2, lpcRead hw s1 (bus.binding.st.rx.offset + 4) (fromBe lenBytes + (overhead v - 4)) = .ok (r1, bytes, s2) ∧
           bytes.length = fromBe lenBytes + (overhead v - 4) ∧
           ((¬ (firstByte c.fill bus.binding.pktHeader bytes = 1 ∧ Intact v bytes) ∧
              (∃ m, c' = ({ c with mem := m }).setSt 0 bus (afterRead hw s2)) ∧ e = []) ∨
            (firstByte c.fill bus.binding.pktHeader bytes = 1 ∧ Intact v bytes ∧
              ∃ m pkt, PktIs pkt (bytes.take (fromBe lenBytes)) ∧
                (({ c with mem := m }).setSt 0 bus (afterRead hw s2)).busRx (astOps hw) 0 pkt = .ok (c', e))))))) := by
  unfold Core.astRxStart at he
  obtain ⟨bus1, hbus, he⟩ := Res.bind_eq_ok.mp he
  obtain ⟨rfl, rfl⟩ := busAt_single hb hbus
  refine ⟨rfl, ?_⟩
  obtain ⟨⟨r0, lenBytes, s1⟩, hr0, he⟩ := Res.bind_eq_ok.mp he
  obtain ⟨hs1, hlen4, -, -, -⟩ := lpcRead_ok hr0
  obtain ⟨most, hmost, he⟩ := Res.bind_eq_ok.mp he
  simp only at hmost he
  have hszlt : bus1.binding.st.rx.size < 2 ^ 32 := by
    rcases hi.lay with hl | hl
    · rw [hl.2.1]; decide
    · exact hl.lt.2.1
  rw [hs1.proto, hs1.rx] at hmost
  obtain ⟨v, hv, hv0, hov, rfl⟩ := protoBodySize_inv hszlt hmost
  have h84 := overhead_le v
  have hl : LaySafe bus1.binding.st := by
    rcases hi.lay with hl | hl
    · rw [hl.2.1] at hov; omega
    · exact hl
  refine ⟨hl, v, r0, lenBytes, s1, hv, hv0, hi.proto v hv, hr0, ?_⟩
  have hwin := hl.1.1.2
  unfold winSize at hwin
  split at he
  · rename_i hbig
    simp only [Except.ok.injEq, Prod.mk.injEq] at he
    obtain ⟨rfl, rfl⟩ := he
    exact .inl ⟨.inl hbig, rfl, rfl⟩
  · rename_i hfit
    split at he
    · rename_i hbig
      simp only [Except.ok.injEq, Prod.mk.injEq] at he
      obtain ⟨rfl, rfl⟩ := he
      exact .inl ⟨.inr hbig, rfl, rfl⟩
    · rename_i hfit2
      refine .inr ⟨by omega, by omega, ?_⟩
      obtain ⟨packet, hpk, he⟩ := Res.bind_eq_ok.mp he
      rw [hs1.proto, hv] at hpk
      obtain ⟨v', hv', _, _, rfl⟩ := protoPacketSize_inv (by omega) hpk
      cases hv'
      have hsub : fromBe lenBytes + overhead v - 4 = fromBe lenBytes + (overhead v - 4) := by omega
      simp only [hsub] at he
      split at he
      · rename_i m hal
        simp only [Except.ok.injEq, Prod.mk.injEq] at he
        obtain ⟨rfl, rfl⟩ := he
        exact .inl ⟨m, rfl, rfl, by rw [hal]⟩
      · rename_i pkt m hal
        right
        obtain ⟨⟨r1, bytes, s2⟩, hr1, he⟩ := Res.bind_eq_ok.mp he
        have hoff : u32 (s1.rx.offset + 4) = bus1.binding.st.rx.offset + 4 := by
          rw [hs1.rx]; apply u32_of_lt; omega
        rw [hoff] at hr1
        obtain ⟨hs2, hblen, -, -, -⟩ := lpcRead_ok hr1
        refine ⟨r1, bytes, s2, hr1, hblen, ?_⟩
        obtain ⟨pkt1, hpw, he⟩ := Res.bind_eq_ok.mp he
        simp only at hpw he
        generalize hk : kcsSend hw { s2 with rx := { s2.rx with state := .prepared } } cmdRxComplete = r at he
        obtain ⟨rc, s3⟩ := r
        have har : afterRead hw s2 = (if rc = 0 then { s3 with rx := { s3.rx with state := .released } } else s3) := by
          unfold afterRead; rw [hk]
        simp only at he
        rw [← har] at he
        obtain ⟨ver, hver, he⟩ := Res.bind_eq_ok.mp he
        obtain ⟨_, _, hst, hend, hho, _, _⟩ := pktbufAlloc_some hal
        have hpi : PktIs pkt1 bytes := pktIs_of_write (by rw [hho, hst]) (by rw [hend, hst, hblen]) hpw
        have hver' := fresh_first hal hpw hver
        split at he
        · rename_i hne
          obtain ⟨m2, hm2, he⟩ := Res.bind_eq_ok.mp he
          simp only [Except.ok.injEq, Prod.mk.injEq] at he
          obtain ⟨rfl, rfl⟩ := he
          refine .inl ⟨fun hh => hne (by rw [hver', hh.1]), ⟨m2, ?_⟩, rfl⟩
          simp [Core.setSt, Core.setBus]
        · rename_i heq
          have heq : ver = [1] := Decidable.not_not.mp heq
          have hfst : firstByte c.fill bus1.binding.pktHeader bytes = 1 := by
            rw [hver'] at heq; simpa using heq
          obtain ⟨⟨ok, pkt2⟩, hval, he⟩ := Res.bind_eq_ok.mp he
          have hpp : (afterRead hw s2).proto = some v := by
            have : (afterRead hw s2).proto = s2.proto := by
              rw [har]
              have h1 : s3.proto = s2.proto := by
                have : s3 = (kcsSend hw { s2 with rx := { s2.rx with state := .prepared } } cmdRxComplete).2 := by rw [hk]
                rw [this]
                unfold kcsSend
                simp only
                split
                · rfl
                · split
                  · rfl
                  · split <;> rfl
              split <;> simp [h1]
            rw [this, hs2.proto, hs1.proto, hv]
          rw [hpp] at hval
          obtain ⟨h1, h2, h3⟩ := protoValidate_ok hv0 (hi.proto v hv) hpi hval
          have hsub2 : bytes.length - (overhead v - 4) = fromBe lenBytes := by rw [hblen]; omega
          rw [hsub2] at h2
          simp only at he
          split at he
          · rename_i hok
            exact .inr ⟨hfst, h1.mp hok, m, pkt2, h2, he⟩
          · rename_i hok
            obtain ⟨m2, hm2, he⟩ := Res.bind_eq_ok.mp he
            simp only [Except.ok.injEq, Prod.mk.injEq] at he
            obtain ⟨rfl, rfl⟩ := he
            refine .inl ⟨fun hh => hok (h1.mpr hh.2), ⟨m2, ?_⟩, rfl⟩
            simp [Core.setSt, Core.setBus]

/-- Handing the buffer back keeps the invariant. -/
theorem afterRead_inv {hw : Hw E} {mode : AstMode} {mtu : Nat} {s : AstSt E} {w : Watch}
    (hm : s.mode = mode) (hmt : s.mtu = mtu) (hpr : ∀ v, s.proto = some v → v < 4) (hl : LaySafe s)
    (htr : Traced s w) (hph : Phase s w) (hr : w.rx = true) :
    AstInv mode mtu (afterRead hw s) ∧ LaySafe (afterRead hw s) ∧ (afterRead hw s).tx = s.tx ∧
      (afterRead hw s).proto = s.proto ∧ (afterRead hw s).kcsStatus = s.kcsStatus ∧
      (afterRead hw s).rx.offset = s.rx.offset ∧ (afterRead hw s).rx.size = s.rx.size ∧
      ((afterRead hw s).rx.state = .prepared ∨ (afterRead hw s).rx.state = .released) := by
  have htr' : Traced { s with rx := { s.rx with state := .prepared } } w := htr.congr rfl rfl
  unfold afterRead
  generalize hk : kcsSend hw { s with rx := { s.rx with state := .prepared } } cmdRxComplete = r
  obtain ⟨rc, s3⟩ := r
  obtain ⟨hs3, hrc, w3, ht3, hx3, hy3⟩ := kcsSend_traced htr' (.inr ⟨rfl, hr⟩) hk
  rw [if_neg (by simp [cmdRxComplete])] at hx3
  have e1 := hs3.rx
  have e2 := hs3.tx
  have e3 := hs3.proto
  have e4 := hs3.kcs
  simp only at e1 e2 e3 e4
  have hsafe : ∀ (s4 : AstSt E), s4.rx.offset = s.rx.offset → s4.rx.size = s.rx.size → s4.tx = s.tx →
      LaySafe s4 := fun s4 a b d => hl.congr a b (by rw [d]) (by rw [d])
  have ph : ∀ (s4 : AstSt E) , s4.tx = s.tx → (s4.rx.state = .prepared → w3.rx = true) → Phase s4 w3 := by
    intro s4 a b
    obtain ⟨p1, p2, p3, p4, p5⟩ := hph
    exact ⟨by rw [a, hx3]; exact p1, by rw [a, hx3]; exact p2, by rw [a, hx3]; exact p3, by rw [hx3]; exact p4, b⟩
  by_cases hz : rc = 0
  · simp only [hz, if_true]
    have := hsafe { s3 with rx := { s3.rx with state := .released } } (by simp [e1]) (by simp [e1]) (by simp [e2])
    refine ⟨⟨hs3.mode.trans hm, hs3.mtu.trans hmt, by simp only [e3]; exact hpr, .inr this, fun _ => this, w3,
      ht3.congr rfl rfl, ph _ (by simp [e2]) (by simp)⟩, this, e2, e3, e4, by simp [e1], by simp [e1], .inr trivial⟩
  · simp only [hz, if_false]
    have := hsafe s3 (by simp [e1]) (by simp [e1]) e2
    rw [if_neg (by simp [hz])] at hy3
    refine ⟨⟨hs3.mode.trans hm, hs3.mtu.trans hmt, by rw [e3]; exact hpr, .inr this, fun _ => this, w3,
      ht3, ph _ e2 (fun _ => hy3.trans hr)⟩, this, e2, e3, e4, by simp [e1], by simp [e1], .inl (by simp [e1])⟩

/-- Receiving keeps the invariant. -/
theorem astRxStart_inv {hw : Hw E} {mode : AstMode} {mtu : Nat} {c c' : Core (AstSt E)} {i : Nat}
    {bus : Bus (AstSt E)} {e : List Event} (hb : c.busses = [bus]) (hbr : c.bridge = false)
    (hj : AstJ mode mtu bus) (hw1 : ∃ w, Traced bus.binding.st w ∧ Phase bus.binding.st w ∧ w.rx = true)
    (he : c.astRxStart hw i = .ok (c', e)) :
    ∃ bus' m t, c' = { c with mem := m, ctxs := t, busses := [bus'] } ∧ AstJ mode mtu bus' ∧
      (∀ j, offers j e = []) := by
  obtain ⟨hi, hen⟩ := hj
  obtain ⟨w, htr, hph, hwr⟩ := hw1
  obtain ⟨rfl, hl, v, r0, lenBytes, s1, hv, hv0, hv4, hr0, hcases⟩ := astRxStart_cases hb hi he
  have h1 := hl.1.2
  have h84 := overhead_le v
  have ho1 : overhead 1 = 4 := rfl
  obtain ⟨hs1, -, w1, ht1, hx1, hy1⟩ := lpcRead_pkt htr hl (by unfold Within; omega) hwr hr0
  have hph1 : Phase s1 w1 := hph.quiet (by rw [hs1.tx]) (by rw [hs1.rx]) hx1 hy1
  have hl1 : LaySafe s1 := hl.congr (by rw [hs1.rx]) (by rw [hs1.rx]) (by rw [hs1.tx]) (by rw [hs1.tx])
  have hi1 : AstInv mode mtu s1 :=
    ⟨hs1.mode.trans hi.mode, hs1.mtu.trans hi.mtu, by rw [hs1.proto]; exact hi.proto, .inr hl1, fun _ => hl1, w1, ht1, hph1⟩
  have hj1 : AstJ mode mtu { bus with binding := { bus.binding with st := s1 } } :=
    ⟨hi1, fun hst => ⟨by simp only; rw [hs1.tx]; exact (hen hst).1, hl1⟩⟩
  have hoff : ∀ j, offers j ([] : List Event) = [] := fun _ => rfl
  rcases hcases with ⟨-, rfl, rfl⟩ | ⟨hfit, -, hcases⟩
  · exact ⟨_, c.mem, c.ctxs, by rw [setSt_single hb], hj1, hoff⟩
  · rcases hcases with ⟨m, rfl, rfl, -⟩ | ⟨r1, bytes, s2, hr1, hblen, hcases⟩
    · exact ⟨_, m, c.ctxs, by rw [setSt_single (by exact hb)], hj1, hoff⟩
    · obtain ⟨hs2, -, w2, ht2, hx2, hy2⟩ := lpcRead_pkt ht1 hl1 (by rw [hs1.rx]; unfold Within; omega)
        (hy1.trans hwr) hr1
      have hl2 : LaySafe s2 := hl1.congr (by rw [hs2.rx]) (by rw [hs2.rx]) (by rw [hs2.tx]) (by rw [hs2.tx])
      obtain ⟨g1, g2, g3, -⟩ := afterRead_inv (hw := hw) (hs2.mode.trans hi1.mode) (hs2.mtu.trans hi1.mtu)
        (by rw [hs2.proto]; exact hi1.proto) hl2 ht2
        (hph1.quiet (by rw [hs2.tx]) (by rw [hs2.rx]) hx2 hy2) (hy2.trans (hy1.trans hwr))
      have hj2 : AstJ mode mtu { bus with binding := { bus.binding with st := afterRead hw s2 } } :=
        ⟨g1, fun hst => ⟨by simp only; rw [g3, hs2.tx, hs1.tx]; exact (hen hst).1, g2⟩⟩
      rcases hcases with ⟨-, ⟨m, rfl⟩, rfl⟩ | ⟨-, -, m, pkt, hp, hrx⟩
      · exact ⟨_, m, c.ctxs, by rw [setSt_single (by exact hb)], hj2, hoff⟩
      · rw [setSt_single (by exact hb)] at hrx
        have hbr' := hbr
        generalize hc1 : Core.mk _ _ _ _ _ [_] _ _ _ _ _ = c1 at hrx
        have hb1 : c1.bridge = false := by rw [← hc1]; exact hbr
        obtain ⟨m2, t, rfl, ho, -⟩ := busRx_busses (by rw [← hc1]) hb1 hp hrx
        rw [← hc1]
        exact ⟨_, m2, t, rfl, hj2, ho⟩

/-! ## Polling -/

/-- The deferred hand-overs keep the invariant. -/
theorem astRetry_inv {hw : Hw E} {mode : AstMode} {mtu : Nat} {s : AstSt E} (h : AstInv mode mtu s) :
    AstInv mode mtu (astRetry hw s) ∧ (astRetry hw s).proto = s.proto ∧ (astRetry hw s).kcsStatus = s.kcsStatus ∧
      (s.tx.state = .acquired → (astRetry hw s).tx.state = .acquired) ∧
      (LaySafe s → LaySafe (astRetry hw s)) := by
  have one : ∀ {s : AstSt E}, AstInv mode mtu s → ∀ (hsr : s.rx.state = .prepared) (rc : Int) (s1 : AstSt E),
      kcsSend hw s cmdRxComplete = (rc, s1) →
      ∀ s2, s2 = (if rc = 0 then { s1 with rx := { s1.rx with state := .released } } else s1) →
      AstInv mode mtu s2 ∧ s2.proto = s.proto ∧ s2.kcsStatus = s.kcsStatus ∧ s2.tx = s.tx ∧
        (LaySafe s → LaySafe s2) := by
    intro s h hsr rc s1 hk s2 hs2
    obtain ⟨hm, hmt, hpr, hlay, hbusy, w, htr, hph⟩ := h
    obtain ⟨hs1, hrc, w1, ht1, hx1, hy1⟩ := kcsSend_traced htr (.inr ⟨rfl, hph.rxp hsr⟩) hk
    rw [if_neg (by simp [cmdRxComplete])] at hx1
    have a1 : s2.rx.offset = s.rx.offset := by rw [hs2]; split <;> simp [hs1.rx]
    have a2 : s2.rx.size = s.rx.size := by rw [hs2]; split <;> simp [hs1.rx]
    have a3 : s2.tx = s.tx := by rw [hs2]; split <;> simp [hs1.tx]
    have a4 : s2.mode = s.mode := by rw [hs2]; split <;> simp [hs1.mode]
    have a5 : s2.log = s1.log := by rw [hs2]; split <;> rfl
    have a6 : s2.proto = s.proto := by rw [hs2]; split <;> simp [hs1.proto]
    have a7 : s2.kcsStatus = s.kcsStatus := by rw [hs2]; split <;> simp [hs1.kcs]
    have a8 : s2.mtu = s.mtu := by rw [hs2]; split <;> simp [hs1.mtu]
    have a9 : s2.rx.state = .prepared → rc ≠ 0 := by
      intro hh h0; rw [hs2, if_pos h0] at hh; simp at hh
    refine ⟨⟨a4.trans hm, a8.trans hmt, by rw [a6]; exact hpr, ?_, ?_, w1, ht1.congr (by rw [a4, hs1.mode]) a5, ?_⟩, a6, a7, a3,
      fun hl => hl.congr a1 a2 (by rw [a3]) (by rw [a3])⟩
    · rcases hlay with hl | hl
      · exact .inl (hl.congr a1 a2 (by rw [a3]) (by rw [a3]))
      · exact .inr (hl.congr a1 a2 (by rw [a3]) (by rw [a3]))
    · rw [a3]; intro hb; exact (hbusy hb).congr a1 a2 (by rw [a3]) (by rw [a3])
    · obtain ⟨p1, p2, p3, p4, p5⟩ := hph
      refine ⟨by rw [a3, hx1]; exact p1, by rw [a3, hx1]; exact p2, by rw [a3, hx1]; exact p3, by rw [hx1]; exact p4, ?_⟩
      intro hh
      rw [hy1, if_neg (by simp [a9 hh])]
      exact p5 hsr
  have two : ∀ {s : AstSt E}, AstInv mode mtu s → ∀ (hsr : s.tx.state = .prepared) (rc : Int) (s1 : AstSt E),
      kcsSend hw s cmdTxBegin = (rc, s1) →
      ∀ s2, s2 = (if rc = 0 then { s1 with tx := { s1.tx with state := .released } } else s1) →
      AstInv mode mtu s2 ∧ s2.proto = s.proto ∧ s2.kcsStatus = s.kcsStatus ∧ (LaySafe s → LaySafe s2) := by
    intro s h hsr rc s1 hk s2 hs2
    obtain ⟨hm, hmt, hpr, hlay, hbusy, w, htr, hph⟩ := h
    obtain ⟨hs1, hrc, w1, ht1, hx1, hy1⟩ := kcsSend_traced htr (.inl ⟨rfl, hph.prep hsr⟩) hk
    rw [if_neg (by simp [cmdTxBegin])] at hy1
    have a1 : s2.tx.offset = s.tx.offset := by rw [hs2]; split <;> simp [hs1.tx]
    have a2 : s2.tx.size = s.tx.size := by rw [hs2]; split <;> simp [hs1.tx]
    have a3 : s2.rx = s.rx := by rw [hs2]; split <;> simp [hs1.rx]
    have a4 : s2.mode = s.mode := by rw [hs2]; split <;> simp [hs1.mode]
    have a5 : s2.log = s1.log := by rw [hs2]; split <;> rfl
    have a6 : s2.proto = s.proto := by rw [hs2]; split <;> simp [hs1.proto]
    have a7 : s2.kcsStatus = s.kcsStatus := by rw [hs2]; split <;> simp [hs1.kcs]
    have a8 : s2.mtu = s.mtu := by rw [hs2]; split <;> simp [hs1.mtu]
    have hl := hbusy (.inl hsr)
    have hl2 : LaySafe s2 := hl.congr (by rw [a3]) (by rw [a3]) a1 a2
    refine ⟨⟨a4.trans hm, a8.trans hmt, by rw [a6]; exact hpr, .inr hl2, fun _ => hl2, w1,
      ht1.congr (by rw [a4, hs1.mode]) a5, ?_⟩, a6, a7, fun _ => hl2⟩
    by_cases hz : rc = 0
    · have a9 : s2.tx.state = .released := by rw [hs2, if_pos hz]
      rw [if_pos ⟨rfl, hz⟩] at hx1
      exact ⟨by simp [a9], by simp [a9], fun _ => .inl hx1, by rw [hx1]; simp, by rw [a3, hy1]; exact hph.rxp⟩
    · have a9 : s2.tx.state = .prepared := by rw [hs2, if_neg hz, hs1.tx]; exact hsr
      rw [if_neg (by simp [hz]), hph.prep hsr] at hx1
      exact ⟨by simp [a9], fun _ => hx1, by simp [a9], by rw [hx1]; simp, by rw [a3, hy1]; exact hph.rxp⟩
  -- first the receive buffer
  have hfirst : ∃ s1 : AstSt E, (if s.rx.state = .prepared then
        (let r := kcsSend hw s cmdRxComplete
         if r.1 = 0 then { r.2 with rx := { r.2.rx with state := .released } } else r.2) else s) = s1 ∧
      AstInv mode mtu s1 ∧ s1.proto = s.proto ∧ s1.kcsStatus = s.kcsStatus ∧ s1.tx = s.tx ∧ (LaySafe s → LaySafe s1) := by
    refine ⟨_, rfl, ?_⟩
    split
    · rename_i hsr
      exact one h hsr _ _ (by exact (Prod.eta _).symm) _ rfl
    · exact ⟨h, rfl, rfl, rfl, id⟩
  obtain ⟨s1, hs1, g1, g2, g3, g4, g5⟩ := hfirst
  have hret : astRetry hw s = (if s1.tx.state = .prepared then
        (let r := kcsSend hw s1 cmdTxBegin
         if r.1 = 0 then { r.2 with tx := { r.2.tx with state := .released } } else r.2) else s1) := by
    unfold astRetry; rw [← hs1]
  rw [hret]
  split
  · rename_i hsr
    obtain ⟨k1, k2, k3, k4⟩ := two g1 hsr _ _ (by exact (Prod.eta _).symm) _ rfl
    refine ⟨k1, k2.trans g2, k3.trans g3, ?_, fun hh => k4 (g5 hh)⟩
    intro hh
    rw [← g4, hsr] at hh
    cases hh
  · exact ⟨g1, g2, g3, fun hh => by rw [g4]; exact hh, g5⟩

/-- What a function of the binding leaves of the core. -/
def Frame (mode : AstMode) (mtu : Nat) (c c' : Core (AstSt E)) : Prop :=
  ∃ bus' m t, c' = { c with mem := m, ctxs := t, busses := [bus'] } ∧ AstJ mode mtu bus'

theorem Frame.trans {mode : AstMode} {mtu : Nat} {c c1 c2 : Core (AstSt E)} (h1 : Frame mode mtu c c1)
    (h2 : Frame mode mtu c1 c2) : Frame mode mtu c c2 := by
  obtain ⟨b1, m1, t1, rfl, -⟩ := h1
  obtain ⟨b2, m2, t2, rfl, hj⟩ := h2
  exact ⟨b2, m2, t2, rfl, hj⟩

theorem setTxEnabled_frame {hw : Hw E} {mode : AstMode} {mtu : Nat} {c c' : Core (AstSt E)} {i : Nat} {on : Bool}
    {bus : Bus (AstSt E)} {e : List Event} (hb : c.busses = [bus]) (hi : AstInv mode mtu bus.binding.st)
    (hon : on = true → bus.binding.st.tx.state = .acquired ∧ LaySafe bus.binding.st)
    (he : c.setTxEnabled (astOps hw) i on = .ok (c', e)) :
    Frame mode mtu c c' := by
  cases on with
  | false =>
    obtain ⟨-, rfl, rfl⟩ := setTxEnabled_false hb he
    refine ⟨_, c.mem, c.ctxs, rfl, hi, ?_⟩
    simp only
    split <;> simp
  | true =>
    have hj : AstJ mode mtu bus := ⟨hi, fun _ => hon rfl⟩
    obtain ⟨bus', m, rfl, hj'⟩ := setTxEnabled_keeps (astJ_keeps hw mode mtu) hb (os := []) hj
      (fun _ => ⟨hi, fun _ => hon rfl⟩) he
    exact ⟨bus', m, c.ctxs, rfl, hj'⟩

theorem AstInv.states {mode : AstMode} {mtu : Nat} {s : AstSt E} (h : AstInv mode mtu s) :
    AstInv mode mtu { s with rx := { s.rx with state := .idle }, tx := { s.tx with state := .idle } } := by
  obtain ⟨hm, hmt, hpr, hlay, hbusy, w, htr, hph⟩ := h
  refine ⟨hm, hmt, hpr, ?_, by simp, w, htr.congr rfl rfl, by simp, by simp, by simp, hph.half, by simp⟩
  rcases hlay with hl | hl
  · exact .inl hl
  · exact .inr hl

theorem AstInv.kcs {mode : AstMode} {mtu : Nat} {s : AstSt E} (h : AstInv mode mtu s) (k : Byte) :
    AstInv mode mtu { s with kcsStatus := k } := by
  obtain ⟨hm, hmt, hpr, hlay, hbusy, w, htr, hph⟩ := h
  exact ⟨hm, hmt, hpr, hlay, hbusy, w, htr.congr rfl rfl, ⟨hph.acq, hph.prep, hph.rel, hph.half, hph.rxp⟩⟩

theorem AstJ.kcs {mode : AstMode} {mtu : Nat} {bus : Bus (AstSt E)} (h : AstJ mode mtu bus) (k : Byte) :
    AstJ mode mtu { bus with binding := { bus.binding with st := { bus.binding.st with kcsStatus := k } } } :=
  ⟨h.1.kcs k, h.2⟩

theorem astUpdateActive_frame {hw : Hw E} {mode : AstMode} {mtu : Nat} {c c' : Core (AstSt E)} {i : Nat}
    {bus : Bus (AstSt E)} {e : List Event} {status updated : Byte} {rc : Int} (hb : c.busses = [bus]) (hj : AstJ mode mtu bus)
    (he : c.astUpdateActive hw i status updated = .ok (c', e, rc)) : Frame mode mtu c c' := by
  unfold Core.astUpdateActive at he
  obtain ⟨bus1, hbus, he⟩ := Res.bind_eq_ok.mp he
  obtain ⟨rfl, rfl⟩ := busAt_single hb hbus
  obtain ⟨version, hver, he⟩ := Res.bind_eq_ok.mp he
  split at he
  · obtain ⟨⟨rc1, b1⟩, hf, he⟩ := Res.bind_eq_ok.mp he
    obtain ⟨h1, h2, h3⟩ := finaliseChannel_inv (b := { bus1.binding with st := _ }) hj.1.states rfl rfl hf
    obtain ⟨⟨c1, e1⟩, hs, he⟩ := Res.bind_eq_ok.mp he
    rw [setBinding_single hb] at hs
    have hfr := setTxEnabled_frame (mode := mode) (mtu := mtu) rfl h1 (by
      intro hon
      simp only [decide_eq_true_eq] at hon
      rcases h3 with ⟨-, h4, -, v, -, -, h5⟩ | ⟨h4, -⟩
      · exact ⟨h4, h5.one⟩
      · omega) hs
    obtain ⟨b2, m2, t2, rfl, hj2⟩ := hfr
    obtain ⟨bus2, hbus2, he⟩ := Res.bind_eq_ok.mp he
    obtain ⟨-, rfl⟩ := busAt_single rfl hbus2
    simp only [Except.ok.injEq, Prod.mk.injEq] at he
    obtain ⟨rfl, -, -⟩ := he
    exact ⟨_, m2, t2, by rw [setSt_single rfl], hj2.kcs status⟩
  · simp only [Except.ok.injEq, Prod.mk.injEq] at he
    obtain ⟨rfl, -, -⟩ := he
    exact ⟨_, c.mem, c.ctxs, by rw [setSt_single hb], hj.kcs status⟩

theorem astUpdateChannel_frame {hw : Hw E} {mode : AstMode} {mtu : Nat} {c c' : Core (AstSt E)} {i : Nat}
    {bus : Bus (AstSt E)} {e : List Event} {status : Byte} {rc : Int} (hb : c.busses = [bus]) (hj : AstJ mode mtu bus)
    (he : c.astUpdateChannel hw i status = .ok (c', e, rc)) : Frame mode mtu c c' := by
  unfold Core.astUpdateChannel at he
  obtain ⟨bus1, hbus, he⟩ := Res.bind_eq_ok.mp he
  obtain ⟨rfl, rfl⟩ := busAt_single hb hbus
  simp only at he
  split at he
  · cases he
  · rename_i hmode
    have hmode : bus1.binding.st.mode = .host := Decidable.not_not.mp hmode
    split at he
    · split at he
      · obtain ⟨⟨rc1, s1⟩, hs, he⟩ := Res.bind_eq_ok.mp he
        simp only [Except.ok.injEq, Prod.mk.injEq] at he
        obtain ⟨rfl, -, -⟩ := he
        have hmo : mode = .host := hj.1.mode.symm.trans hmode
        subst hmo
        have hst : astStart hw { bus1.binding.st with kcsStatus := status } = initHost hw { bus1.binding.st with kcsStatus := status } := by
          unfold astStart; simp only [hmode]
        rw [hst] at hs
        obtain ⟨h1, h2, h3⟩ := initHost_inv (hj.1.kcs status) hs
        refine ⟨_, c.mem, c.ctxs, by rw [setSt_single hb], h1, fun hen => ?_⟩
        obtain ⟨h4, h5⟩ := hj.2 hen
        exact ⟨by simp only; rw [h3]; exact h4, h5.congr (by simp only; rw [h2]) (by simp only; rw [h2]) (by simp only; rw [h3]) (by simp only; rw [h3])⟩
      · obtain ⟨⟨c1, e1⟩, hs, he⟩ := Res.bind_eq_ok.mp he
        obtain ⟨⟨c2, e2, rc2⟩, hu, he⟩ := Res.bind_eq_ok.mp he
        simp only [Except.ok.injEq, Prod.mk.injEq] at he
        obtain ⟨rfl, -, -⟩ := he
        rw [setSt_single hb] at hs
        have hf1 := setTxEnabled_frame (mode := mode) (mtu := mtu) rfl hj.1.states (by simp) hs
        obtain ⟨b1, m1, t1, rfl, hj1⟩ := hf1
        obtain ⟨b2, m2, t2, rfl, hj2⟩ := astUpdateActive_frame rfl hj1 hu
        exact ⟨b2, m2, t2, rfl, hj2⟩
    · exact astUpdateActive_frame hb hj he

theorem astCommand_frame {hw : Hw E} {mode : AstMode} {mtu : Nat} {c c' : Core (AstSt E)} {i : Nat}
    {bus : Bus (AstSt E)} {e : List Event} {status data : Byte} {rc : Int} {stop : Bool} (hb : c.busses = [bus])
    (hbr : c.bridge = false) (hj : AstJ mode mtu bus)
    (hw1 : ∃ w, Traced bus.binding.st w ∧ Phase bus.binding.st w ∧ (data = 1 → w.rx = true) ∧
      (data = 2 → bus.binding.st.tx.state = .released → w.tx = .free))
    (he : c.astCommand hw i status data = .ok (c', e, rc, stop)) : Frame mode mtu c c' := by
  have hc : Frame mode mtu c c := ⟨bus, c.mem, c.ctxs, by cases c; simp_all, hj⟩
  obtain ⟨w, htr, hph, hd1, hd2⟩ := hw1
  unfold Core.astCommand at he
  obtain ⟨bus1, hbus, he⟩ := Res.bind_eq_ok.mp he
  obtain ⟨rfl, rfl⟩ := busAt_single hb hbus
  simp only at he
  split at he
  · obtain ⟨⟨c1, e1⟩, hs, he⟩ := Res.bind_eq_ok.mp he
    simp only [Except.ok.injEq, Prod.mk.injEq] at he
    obtain ⟨rfl, -⟩ := he
    unfold Core.astInitChannel at hs
    obtain ⟨bus2, hbus2, hs⟩ := Res.bind_eq_ok.mp hs
    obtain ⟨-, rfl⟩ := busAt_single hb hbus2
    obtain ⟨⟨on, b⟩, hin, hs⟩ := Res.bind_eq_ok.mp hs
    obtain ⟨h1, -, h2, h3, h4⟩ := initChannel_inv hj.1 hin
    simp only at hs
    rw [setBinding_single hb] at hs
    obtain ⟨b2, m2, t2, rfl, hj2⟩ := setTxEnabled_frame (mode := mode) (mtu := mtu) rfl h1 (by
      intro hon
      obtain ⟨v, -, -, h5⟩ := h4 hon
      exact ⟨h2, h5.one⟩) hs
    exact ⟨b2, m2, t2, rfl, hj2⟩
  · split at he
    · rename_i hdata
      split at he
      · simp only [Except.ok.injEq, Prod.mk.injEq] at he
        obtain ⟨rfl, -⟩ := he; exact hc
      · obtain ⟨⟨c1, e1⟩, hs, he⟩ := Res.bind_eq_ok.mp he
        simp only [Except.ok.injEq, Prod.mk.injEq] at he
        obtain ⟨rfl, -⟩ := he
        obtain ⟨b, m, t, h1, h2, -⟩ := astRxStart_inv hb hbr hj ⟨w, htr, hph, hd1 hdata⟩ hs
        exact ⟨b, m, t, h1, h2⟩
    · split at he
      · rename_i hdata
        split at he
        · simp only [Except.ok.injEq, Prod.mk.injEq] at he
          obtain ⟨rfl, -⟩ := he; exact hc
        · rename_i hrel
          have hrel : bus1.binding.st.tx.state = .released := Decidable.not_not.mp hrel
          obtain ⟨⟨c1, e1⟩, hs, he⟩ := Res.bind_eq_ok.mp he
          simp only [Except.ok.injEq, Prod.mk.injEq] at he
          obtain ⟨rfl, -⟩ := he
          unfold Core.astTxComplete at hs
          obtain ⟨bus2, hbus2, hs⟩ := Res.bind_eq_ok.mp hs
          obtain ⟨-, rfl⟩ := busAt_single hb hbus2
          simp only at hs
          rw [setSt_single hb] at hs
          have hl : LaySafe bus2.binding.st := hj.1.busy (.inr hrel)
          have hl2 : LaySafe { bus2.binding.st with tx := { bus2.binding.st.tx with state := .acquired } } :=
            hl.congr rfl rfl rfl rfl
          obtain ⟨b2, m2, t2, rfl, hj2⟩ := setTxEnabled_frame (mode := mode) (mtu := mtu) rfl
            (bus := { bus2 with binding := { bus2.binding with st := { bus2.binding.st with tx := { bus2.binding.st.tx with state := .acquired } } } })
            ⟨hj.1.mode, hj.1.mtu, hj.1.proto, .inr hl2, fun _ => hl2, w, htr.congr rfl rfl,
              fun _ => hd2 hdata hrel, by simp, by simp, hph.half, hph.rxp⟩ (fun _ => ⟨rfl, hl2⟩) hs
          exact ⟨b2, m2, t2, rfl, hj2⟩
      · split at he
        · split at he
          · obtain ⟨⟨c1, e1, rc1⟩, hs, he⟩ := Res.bind_eq_ok.mp he
            simp only [Except.ok.injEq, Prod.mk.injEq] at he
            obtain ⟨rfl, -⟩ := he
            exact astUpdateChannel_frame hb hj hs
          · simp only [Except.ok.injEq, Prod.mk.injEq] at he
            obtain ⟨rfl, -⟩ := he; exact hc
        · simp only [Except.ok.injEq, Prod.mk.injEq] at he
          obtain ⟨rfl, -⟩ := he; exact hc

/-- `mctp_astlpc_poll` keeps the invariant. -/
theorem astPoll_frame {hw : Hw E} {mode : AstMode} {mtu : Nat} {c c' : Core (AstSt E)} {i : Nat}
    {bus : Bus (AstSt E)} {e : List Event} {rc : Int} (hb : c.busses = [bus]) (hbr : c.bridge = false)
    (hj : AstJ mode mtu bus) (he : c.astPoll hw i = .ok (c', e, rc)) : Frame mode mtu c c' := by
  unfold Core.astPoll at he
  obtain ⟨bus1, hbus, he⟩ := Res.bind_eq_ok.mp he
  obtain ⟨rfl, rfl⟩ := busAt_single hb hbus
  obtain ⟨hi, hrp, hrk, hra, hrl⟩ := astRetry_inv (hw := hw) hj.1
  -- any state with the same buffers
  have step : ∀ {s : AstSt E} {w : Watch}, s.mode = mode → s.mtu = mtu → s.rx = (astRetry hw bus1.binding.st).rx →
      s.tx = (astRetry hw bus1.binding.st).tx → s.proto = (astRetry hw bus1.binding.st).proto → Traced s w → Phase s w →
      AstJ mode mtu { bus1 with binding := { bus1.binding with st := s } } := by
    intro s w a1 a2 a3 a4 a5 ht hp
    refine ⟨⟨a1, a2, by rw [a5]; exact hi.proto, ?_, ?_, w, ht, hp⟩, fun hst => ?_⟩
    · rcases hi.lay with hl | hl
      · exact .inl (hl.congr (by rw [a3]) (by rw [a3]) (by rw [a4]) (by rw [a4]))
      · exact .inr (hl.congr (by rw [a3]) (by rw [a3]) (by rw [a4]) (by rw [a4]))
    · rw [a4]; intro hb'; exact (hi.busy hb').congr (by rw [a3]) (by rw [a3]) (by rw [a4]) (by rw [a4])
    · obtain ⟨h1, h2⟩ := hj.2 hst
      exact ⟨by simp only; rw [a4]; exact hra h1, (hrl h2).congr (by simp only; rw [a3]) (by simp only; rw [a3]) (by simp only; rw [a4]) (by simp only; rw [a4])⟩
  obtain ⟨hm, hmt, hpr, hlay, hbusy, w, htr, hph⟩ := hi
  have h1 := kcsRead_status (hw := hw) htr
  have hs1 := kcsRead_same hw (astRetry hw bus1.binding.st) .status
  simp only at he
  generalize hr1 : kcsRead hw (astRetry hw bus1.binding.st) .status = r at h1 hs1 he
  obtain ⟨rc1, status, s1⟩ := r
  simp only at h1 hs1 he
  have hj1 := step (hs1.mode.trans hm) (hs1.mtu.trans hmt) hs1.rx hs1.tx hs1.proto h1
    (hph.quiet (by rw [hs1.tx]) (by rw [hs1.rx]) rfl rfl)
  split at he
  · simp only [Except.ok.injEq, Prod.mk.injEq] at he
    obtain ⟨rfl, -⟩ := he
    exact ⟨_, c.mem, c.ctxs, by rw [setSt_single hb], hj1⟩
  · rename_i hz
    have hz : rc1 = 0 := Decidable.not_not.mp hz
    subst hz
    split at he
    · simp only [Except.ok.injEq, Prod.mk.injEq] at he
      obtain ⟨rfl, -⟩ := he
      exact ⟨_, c.mem, c.ctxs, by rw [setSt_single hb], hj1⟩
    · rename_i hrd
      have hrd : kcsReady s1.mode status false = true := by simpa using hrd
      have h2 := kcsRead_data (hw := hw) h1 (sawInput_of hrd)
      have hs2 := kcsRead_same hw s1 .data
      generalize hr2 : kcsRead hw s1 .data = r at h2 hs2 he
      obtain ⟨rc2, data, s2⟩ := r
      simp only at h2 hs2 he
      have hs12 := hs1.trans hs2
      have hph2 : Phase s2 (Watch.mk (some (.kcsRead .data rc2 data))
          (if rc2 = 0 ∧ data = 2 ∧ w.tx = .handed then .free else w.tx)
          (if rc2 = 0 ∧ data = 1 then true else w.rx)) := by
        obtain ⟨p1, p2, p3, p4, p5⟩ := hph
        rw [← hs12.tx] at p1 p2 p3
        rw [← hs12.rx] at p5
        refine ⟨fun a => ?_, fun a => ?_, fun a => ?_, ?_, fun a => ?_⟩
        · simp only [p1 a]; simp
        · simp only [p2 a]; simp
        · rcases p3 a with hh | hh
          · simp only [hh]; split <;> simp
          · simp only [hh]; simp
        · simp only; split
          · simp
          · exact p4
        · simp only [p5 a]; simp
      have hj2 := step (hs12.mode.trans hm) (hs12.mtu.trans hmt) hs12.rx hs12.tx hs12.proto h2 hph2
      rw [setSt_single hb] at he
      split at he
      · simp only [Except.ok.injEq, Prod.mk.injEq] at he
        obtain ⟨rfl, -⟩ := he
        exact ⟨_, c.mem, c.ctxs, rfl, hj2⟩
      · rename_i hz2
        have hz2 : rc2 = 0 := Decidable.not_not.mp hz2
        subst hz2
        obtain ⟨version, hver, he⟩ := Res.bind_eq_ok.mp he
        split at he
        · simp only [Except.ok.injEq, Prod.mk.injEq] at he
          obtain ⟨rfl, -⟩ := he
          exact ⟨_, c.mem, c.ctxs, rfl, hj2⟩
        · obtain ⟨⟨c2, e2, rc3, stop⟩, hcmd, he⟩ := Res.bind_eq_ok.mp he
          have hq1 : data = 1 → (if (0 : Int) = 0 ∧ data = 1 then true else w.rx) = true := by
            intro hd; subst hd; rfl
          have hq2 : data = 2 → s2.tx.state = .released →
              (if (0 : Int) = 0 ∧ data = 2 ∧ w.tx = .handed then TxPhase.free else w.tx) = .free := by
            intro hd hrel
            subst hd
            rw [hs12.tx] at hrel
            rcases hph.rel hrel with hh | hh
            · rw [hh]; rfl
            · rw [hh]; rfl
          obtain ⟨b3, m3, t3, rfl, hj3⟩ := astCommand_frame rfl (by exact hbr) hj2 ⟨_, h2, hph2, hq1, hq2⟩ hcmd
          simp only at he
          split at he
          · simp only [Except.ok.injEq, Prod.mk.injEq] at he
            obtain ⟨rfl, -⟩ := he
            exact ⟨b3, m3, t3, rfl, hj3⟩
          · obtain ⟨⟨c4, e4, rc4⟩, haf, he⟩ := Res.bind_eq_ok.mp he
            simp only [Except.ok.injEq, Prod.mk.injEq] at he
            obtain ⟨rfl, -⟩ := he
            unfold Core.astAfter at haf
            split at haf
            · obtain ⟨b5, m5, t5, rfl, hj5⟩ := astUpdateChannel_frame rfl hj3 haf
              exact ⟨b5, m5, t5, rfl, hj5⟩
            · simp only [Except.ok.injEq, Prod.mk.injEq] at haf
              obtain ⟨rfl, -⟩ := haf
              exact ⟨b3, m3, t3, rfl, hj3⟩

end Mctp
