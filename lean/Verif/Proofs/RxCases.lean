import Verif.Proofs.Packet

/-! What one received packet does, in terms of its decoded fields. -/

namespace Mctp

open Spec

variable {β : Type}

/-- The capture event of an incoming packet. -/
def capIn (c : Core β) (p : List Byte) : List Event :=
  if c.hasCapture then [.capture false p] else []

theorem parse_none {bs : List Byte} : parse bs = none ↔ bs.length ≤ 4 := by
  match bs with
  | [] | [_] | [_, _] | [_, _, _] | [_, _, _, _] => simp [parse]
  | _ :: _ :: _ :: _ :: _ :: _ => simp [parse]

theorem parse_some {bs : List Byte} {f : Frag} (h : parse bs = some f) :
    ∃ v d s g, bs = v :: d :: s :: g :: f.payload ∧ f.payload ≠ [] ∧ f.src = s ∧ f.dest = d ∧
      hdrTag g = BitVec.ofNat 8 f.tag ∧ hdrSeq g = BitVec.ofNat 8 f.seq ∧ hdrTO g = f.tagOwner ∧
      hdrSom g = f.som ∧ hdrEom g = f.eom ∧ f.tag < 8 ∧ f.seq < 4 := by
  match bs with
  | [] | [_] | [_, _] | [_, _, _] | [_, _, _, _] => simp [parse] at h
  | v :: d :: s :: g :: b :: rest =>
    simp only [parse, Option.some.injEq] at h
    subst h
    refine ⟨v, d, s, g, rfl, by simp, rfl, rfl, hdrTag_ofNat g, hdrSeq_ofNat g, hdrTO_eq g,
      hdrSom_eq g, hdrEom_eq g, ?_, ?_⟩ <;> simp <;> omega

/-- The body of `mctp_bus_rx` on a buffer holding a decodable packet. -/
theorem busRxBody_parse (ops : Ops β) (c : Core β) (i : Nat) (bus : Bus β) {pkt : Pktbuf}
    {bs : List Byte} {f : Frag} (hp : PktIs pkt bs) (hf : parse bs = some f) :
    c.busRxBody ops i bus pkt =
      (if c.bridge = false ∧ ¬ Local bus.eid f.dest then .ok (c, [])
       else if f.single then
         c.rx ops i bus f.src f.dest f.tagOwner (BitVec.ofNat 8 f.tag) f.payload
       else c.rxFrag ops i bus pkt f.src f.dest (BitVec.ofNat 8 f.tag) (BitVec.ofNat 8 f.seq)
              f.tagOwner f.som f.eom) := by
  obtain ⟨v, d, s, g, rfl, hne, h1, h2, h3, h4, h5, h6, h7, -, -⟩ := parse_some hf
  rw [busRxBody_eq]
  have hr := hp.read 0 4 (by simp)
  simp only [Nat.add_zero, List.drop_zero, List.take_succ_cons, List.take_zero] at hr
  rw [show hdrSize = 4 from rfl, hr]
  have hr2 := hp.read 4 f.payload.length (by simp; omega)
  have hle : pkt.«end» - pkt.hdrOff - 4 = f.payload.length := by
    rw [hp.fin, hp.hdr]; simp
  simp only [hle, hr2, List.drop_succ_cons, List.drop_zero, List.take_length]
  rw [h3, h4, h5, h6, h7, ← h1, ← h2]
  have hloc : (!destIsLocal bus.eid f.dest) = true ↔ ¬ Local bus.eid f.dest := by
    rw [← destIsLocal_iff]; simp
  by_cases hb : c.bridge = false ∧ ¬ Local bus.eid f.dest
  · rw [if_pos hb, if_pos]
    simp only [Bool.and_eq_true]; exact ⟨by simp [hb.1], hloc.mpr hb.2⟩
  · rw [if_neg hb, if_neg]
    · rfl
    · intro hh
      simp only [Bool.and_eq_true] at hh
      exact hb ⟨by simpa using hh.1, hloc.mp hh.2⟩

/-- Outcome of `mctp_bus_rx` on a buffer holding the packet `bs`. -/
theorem busRx_cases {ops : Ops β} {c c' : Core β} {i : Nat} {pkt : Pktbuf} {bs : List Byte}
    {e : List Event} (hp : PktIs pkt bs) (h : c.busRx ops i pkt = .ok (c', e)) :
    ∃ bus, c.busAt i = .ok bus ∧
     ((parse bs = none ∧ e = [.recv i bs] ∧ ∃ m, c.mem.free (some pkt.id) = .ok m ∧
        c' = { c with mem := m }) ∨
      (∃ f c1 e1 m, parse bs = some f ∧ c.busRxBody ops i bus pkt = .ok (c1, e1) ∧
        c1.mem.free (some pkt.id) = .ok m ∧ c' = { c1 with mem := m } ∧
        e = .recv i bs :: (capIn c bs ++ e1))) := by
  unfold Core.busRx at h
  simp only [pktbufFree] at h
  split at h
  · cases h
  · obtain ⟨bus, hbus, h⟩ := Res.bind_eq_ok.mp h
    obtain ⟨_, _, h⟩ := Res.bind_eq_ok.mp h
    refine ⟨bus, hbus, ?_⟩
    rw [hp.len, hp.bytes] at h
    split at h
    · rename_i hlen
      obtain ⟨m, hm, h⟩ := Res.bind_eq_ok.mp h
      simp only [Except.ok.injEq, Prod.mk.injEq] at h
      exact .inl ⟨parse_none.mpr hlen, h.2.symm, m, hm, h.1.symm⟩
    · rename_i hlen
      obtain ⟨⟨c1, e1⟩, hb, h⟩ := Res.bind_eq_ok.mp h
      obtain ⟨m, hm, h⟩ := Res.bind_eq_ok.mp h
      simp only [Except.ok.injEq, Prod.mk.injEq] at h
      cases hf : parse bs with
      | none => exact absurd (parse_none.mp hf) hlen
      | some f =>
        exact .inr ⟨f, c1, e1, m, rfl, hb, hm, h.1.symm, h.2.symm⟩

/-- Outcome of receiving the bytes of a packet. -/
theorem rxPacket_cases {ops : Ops β} {c c' : Core β} {i : Nat} {bs : List Byte} {e : List Event}
    (h : c.rxPacket ops i bs = .ok (c', e)) :
    (∃ bus m, c.busAt i = .ok bus ∧
      (c.mem.alloc.1 = none ∨
        bus.binding.pktSize + bus.binding.pktHeader + bus.binding.pktTrailer < bs.length) ∧
      c' = { c with mem := m } ∧ e = []) ∨
    (∃ bus m pkt, c.busAt i = .ok bus ∧ c.mem.alloc = (some pkt.id, m) ∧ PktIs pkt bs ∧
      ({ c with mem := m } : Core β).busRx ops i pkt = .ok (c', e)) := by
  unfold Core.rxPacket at h
  obtain ⟨bus, hbus, h⟩ := Res.bind_eq_ok.mp h
  split at h
  · rename_i m hpa
    simp only [Except.ok.injEq, Prod.mk.injEq] at h
    refine .inl ⟨bus, m, hbus, ?_, h.1.symm, h.2.symm⟩
    unfold pktbufAlloc at hpa
    simp only at hpa
    split at hpa
    · exact .inr (by omega)
    · split at hpa
      · rename_i ha; exact .inl (by rw [ha])
      · cases hpa
  · rename_i pkt m hpa
    obtain ⟨pkt', hw, h⟩ := Res.bind_eq_ok.mp h
    obtain ⟨_, ha, hs, he, ho, _, _⟩ := pktbufAlloc_some hpa
    refine .inr ⟨bus, m, pkt', hbus, ?_, ?_, h⟩
    · rw [(write_ok hw).2]; exact ha
    · exact pktIs_of_write (by rw [ho, hs]) (by rw [he, hs]) hw

/-! ## Events of the transmit path -/

/-- Events that the transmit path can produce. -/
def IsTxEvent : Event → Prop
  | .capture true _ => True
  | .tx _ _ _ _ => True
  | _ => False

theorem sendQueue_events {ops : Ops β} {cap : Bool} {i : Nat} {m : Mem} {bus : Bus β}
    {q : List Pktbuf} {m' : Mem} {bus' : Bus β} {e : List Event}
    (h : sendQueue ops cap i m bus q = .ok (m', bus', e)) : ∀ x ∈ e, IsTxEvent x := by
  induction q generalizing m bus m' bus' e with
  | nil => simp only [sendQueue, Except.ok.injEq, Prod.mk.injEq] at h; rw [← h.2.2]; simp
  | cons p q ih =>
    unfold sendQueue at h
    split at h
    · simp only [Except.ok.injEq, Prod.mk.injEq] at h; rw [← h.2.2]; simp
    · obtain ⟨_, _, h⟩ := Res.bind_eq_ok.mp h
      obtain ⟨out, ho, h⟩ := Res.bind_eq_ok.mp h
      simp only at h
      split at h
      · obtain ⟨m1, hm1, h⟩ := Res.bind_eq_ok.mp h
        obtain ⟨⟨m2, b2, e2⟩, hr, h⟩ := Res.bind_eq_ok.mp h
        simp only [Except.ok.injEq, Prod.mk.injEq] at h
        have := ih hr
        rw [← h.2.2]
        intro x hx
        simp only [List.mem_append] at hx
        rcases hx with (hx | hx) | hx
        · split at hx
          · simp at hx; subst hx; trivial
          · cases hx
        · simp at hx; subst hx; trivial
        · exact this x hx
      · simp only [Except.ok.injEq, Prod.mk.injEq] at h
        rw [← h.2.2]
        intro x hx
        simp only [List.mem_append] at hx
        rcases hx with hx | hx
        · split at hx
          · simp at hx; subst hx; trivial
          · cases hx
        · simp at hx; subst hx; trivial

theorem sendQueue_bus {ops : Ops β} {cap : Bool} {i : Nat} {m : Mem} {bus : Bus β}
    {q : List Pktbuf} {m' : Mem} {bus' : Bus β} {e : List Event}
    (h : sendQueue ops cap i m bus q = .ok (m', bus', e)) :
    bus'.eid = bus.eid ∧ (∃ st, bus'.binding = { bus.binding with st := st }) ∧
      (bus.state = .constructed ↔ bus'.state = .constructed) := by
  induction q generalizing m bus m' bus' e with
  | nil =>
    simp only [sendQueue, Except.ok.injEq, Prod.mk.injEq] at h
    rw [← h.2.1]; exact ⟨rfl, ⟨_, rfl⟩, Iff.rfl⟩
  | cons p q ih =>
    unfold sendQueue at h
    split at h
    · simp only [Except.ok.injEq, Prod.mk.injEq] at h
      rw [← h.2.1]; exact ⟨rfl, ⟨_, rfl⟩, Iff.rfl⟩
    · rename_i hst
      obtain ⟨_, _, h⟩ := Res.bind_eq_ok.mp h
      obtain ⟨out, ho, h⟩ := Res.bind_eq_ok.mp h
      simp only at h
      have hst' : bus.state = .txEnabled := Decidable.not_not.mp hst
      split at h
      · obtain ⟨m1, hm1, h⟩ := Res.bind_eq_ok.mp h
        obtain ⟨⟨m2, b2, e2⟩, hr, h⟩ := Res.bind_eq_ok.mp h
        simp only [Except.ok.injEq, Prod.mk.injEq] at h
        obtain ⟨h1, ⟨st, h2⟩, h3⟩ := ih hr
        rw [← h.2.1]
        refine ⟨h1, ⟨st, h2⟩, ?_⟩
        rw [← h3, hst']; simp only; split <;> simp
      · simp only [Except.ok.injEq, Prod.mk.injEq] at h
        rw [← h.2.1]
        refine ⟨rfl, ⟨_, rfl⟩, ?_⟩
        rw [hst']; simp only; split <;> simp

theorem busAt_ok {c : Core β} {i : Nat} {bus : Bus β} (h : c.busAt i = .ok bus) :
    i < c.nBusses ∧ c.busses[i]? = some bus ∧ c.mem.deref c.bussesPtr = .ok () := by
  unfold Core.busAt at h
  split at h
  · rename_i hi
    split at h
    · cases h
    · rename_i u hd
      split at h
      · rename_i b hb
        simp only [Except.ok.injEq] at h
        subst h
        exact ⟨hi, hb, hd⟩
      · cases h
  · cases h

theorem map_set_eq {γ : Type} {bs : List (Bus β)} {i : Nat} {b b' : Bus β} {f : Bus β → γ}
    (h : bs[i]? = some b) (he : f b' = f b) : (bs.set i b').map f = bs.map f := by
  apply List.ext_getElem?
  intro n
  simp only [List.getElem?_map, List.getElem?_set]
  split
  · rename_i hin
    subst hin
    obtain ⟨h1, h2⟩ := List.getElem?_eq_some_iff.mp h
    simp [he, h1, h2]
  · rfl

theorem sendTxQueue_ok {ops : Ops β} {c c' : Core β} {i : Nat} {e : List Event}
    (h : c.sendTxQueue ops i = .ok (c', e)) :
    (∀ x ∈ e, IsTxEvent x) ∧ ∃ m bs, c' = { c with mem := m, busses := bs } ∧
      bs.map Bus.eid = c.busses.map Bus.eid := by
  unfold Core.sendTxQueue at h
  obtain ⟨bus, hbus, h⟩ := Res.bind_eq_ok.mp h
  obtain ⟨⟨m, b, e'⟩, hs, h⟩ := Res.bind_eq_ok.mp h
  simp only [Except.ok.injEq, Prod.mk.injEq] at h
  obtain ⟨h1, rfl⟩ := h
  exact ⟨sendQueue_events hs, m, _, h1.symm, map_set_eq (busAt_ok hbus).2.1 (sendQueue_bus hs).1⟩

theorem messageTxOnBus_ok {ops : Ops β} {c c' : Core β} {i : Nat} {s d : Byte} {to : Bool}
    {g : Byte} {msg : List Byte} {e : List Event} {rc : Int}
    (h : c.messageTxOnBus ops i s d to g msg = .ok (c', e, rc)) :
    (∀ x ∈ e, IsTxEvent x) ∧ ∃ m bs, c' = { c with mem := m, busses := bs } ∧
      bs.map Bus.eid = c.busses.map Bus.eid := by
  unfold Core.messageTxOnBus at h
  obtain ⟨bus, hbus, h⟩ := Res.bind_eq_ok.mp h
  split at h
  · simp only [Except.ok.injEq, Prod.mk.injEq] at h
    obtain ⟨rfl, rfl, -⟩ := h; exact ⟨by simp, _, _, rfl, rfl⟩
  · split at h
    · simp only [Except.ok.injEq, Prod.mk.injEq] at h
      obtain ⟨rfl, rfl, -⟩ := h; exact ⟨by simp, _, _, rfl, rfl⟩
    · simp only at h
      split at h
      · cases h
      · obtain ⟨⟨m, q⟩, hl, h⟩ := Res.bind_eq_ok.mp h
        obtain ⟨⟨c1, e1⟩, hs, h⟩ := Res.bind_eq_ok.mp h
        simp only [Except.ok.injEq, Prod.mk.injEq] at h
        obtain ⟨rfl, rfl, -⟩ := h
        obtain ⟨h1, m', bs', h2, h3⟩ := sendTxQueue_ok hs
        refine ⟨h1, m', bs', h2, h3.trans ?_⟩
        exact map_set_eq (busAt_ok hbus).2.1 rfl

theorem bridgeLoop_ok {ops : Ops β} {n : Nat} {s d : Byte} {to : Bool} {g : Byte}
    {msg : List Byte} {js : List Nat} {c c' : Core β} {e : List Event}
    (h : bridgeLoop ops n s d to g msg js c = .ok (c', e)) :
    (∀ x ∈ e, IsTxEvent x) ∧ ∃ m bs, c' = { c with mem := m, busses := bs } ∧
      bs.map Bus.eid = c.busses.map Bus.eid := by
  induction js generalizing c c' e with
  | nil => simp [bridgeLoop] at h; obtain ⟨rfl, rfl⟩ := h; exact ⟨by simp, _, _, rfl, rfl⟩
  | cons j js ih =>
    unfold bridgeLoop at h
    split at h
    · exact ih h
    · obtain ⟨⟨c1, e1, _⟩, h1, h⟩ := Res.bind_eq_ok.mp h
      obtain ⟨⟨c2, e2⟩, h2, h⟩ := Res.bind_eq_ok.mp h
      simp only [Except.ok.injEq, Prod.mk.injEq] at h
      obtain ⟨rfl, rfl⟩ := h
      obtain ⟨ha, m1, bs1, rfl, hm1⟩ := messageTxOnBus_ok h1
      obtain ⟨hb, m2, bs2, rfl, hm2⟩ := ih h2
      refine ⟨?_, m2, bs2, rfl, hm2.trans hm1⟩
      intro x hx
      rcases List.mem_append.mp hx with hx | hx
      · exact ha x hx
      · exact hb x hx

/-- What routing a message at an endpoint does. -/
def routeEvents (c : Core β) (i : Nat) (bus : Bus β) (s : Byte) (to : Bool) (g : Byte)
    (msg : List Byte) : List Event :=
  if ctrlHandled bus.binding.controlRx msg then
    [.ctrlRx i s (g != 0) (if to then 1 else 0) msg]
  else if c.hasRx then [.rxMsg s to g msg] else []

theorem rx_endpoint (ops : Ops β) {c : Core β} (hb : c.bridge = false) (i : Nat) (bus : Bus β)
    (s d : Byte) (to : Bool) (g : Byte) (msg : List Byte) :
    c.rx ops i bus s d to g msg =
      .ok (c, if destIsLocal bus.eid d then routeEvents c i bus s to g msg else []) := by
  unfold Core.rx routeEvents
  simp only [hb, Bool.false_eq_true, if_false]
  repeat' split
  all_goals first | rfl | simp_all

/-- Frame property of `Core.rx`. -/
theorem rx_ok {ops : Ops β} {c c' : Core β} {i : Nat} {bus : Bus β} {s d : Byte} {to : Bool}
    {g : Byte} {msg : List Byte} {e : List Event}
    (h : c.rx ops i bus s d to g msg = .ok (c', e)) :
    (∀ j p, Event.recv j p ∉ e) ∧ ∃ m bs, c' = { c with mem := m, busses := bs } ∧
      bs.map Bus.eid = c.busses.map Bus.eid := by
  by_cases hb : c.bridge = false
  · rw [rx_endpoint ops hb] at h
    simp only [Except.ok.injEq, Prod.mk.injEq] at h
    obtain ⟨rfl, rfl⟩ := h
    refine ⟨?_, _, _, rfl, rfl⟩
    intro j p
    unfold routeEvents
    repeat' split
    all_goals simp
  · unfold Core.rx at h
    rw [if_pos (by simpa using hb)] at h
    obtain ⟨h1, h2⟩ := bridgeLoop_ok h
    exact ⟨fun j p hm => h1 _ hm, h2⟩

end Mctp
