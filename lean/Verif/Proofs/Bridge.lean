import Verif.Proofs.TxSpec
import Verif.Proofs.Refine
import Verif.Spec.Bridge

/-! A bridge refines the ideal bridge. -/

namespace Mctp

open Spec

variable {β : Type}

/-- The transmit side of each bus. -/
def absTx (c : Core β) : Nat → TxState := fun i =>
  match c.busses[i]? with
  | some b => absBus b
  | none => ⟨.never, [], 0⟩

def absBridge (c : Core β) : BridgeState := ⟨abs c.ctxs, absTx c⟩

theorem absTx_get {c : Core β} {i : Nat} {b : Bus β} (h : c.busses[i]? = some b) : absTx c i = absBus b := by
  unfold absTx; rw [h]

theorem absTx_set {c c' : Core β} {i : Nat} {b : Bus β} (hb : c'.busses = c.busses.set i b)
    (hi : i < c.busses.length) : absTx c' i = absBus b ∧ ∀ j, j ≠ i → absTx c' j = absTx c j := by
  constructor
  · exact absTx_get (by rw [hb]; simp [hi])
  · intro j hj
    unfold absTx
    rw [hb, List.getElem?_set_ne (Ne.symm hj)]

/-- The binding versions of a bridge. -/
def Versions (ver : Nat → Byte) (c : Core β) : Prop :=
  ∀ i b, c.busses[i]? = some b → b.binding.version = ver i ∧ b.eid = 0

theorem Versions.set {ver : Nat → Byte} {c c' : Core β} {i : Nat} {b b' : Bus β} (h : Versions ver c)
    (hi : c.busses[i]? = some b) (hb : c'.busses = c.busses.set i b')
    (hv : b'.binding.version = b.binding.version) (he : b'.eid = b.eid) : Versions ver c' := by
  intro j x hx
  rw [hb, List.getElem?_set] at hx
  split at hx
  · rename_i hij
    subst hij
    split at hx
    · simp only [Option.some.injEq] at hx
      subst hx
      obtain ⟨h1, h2⟩ := h _ b hi
      exact ⟨hv.trans h1, he.trans h2⟩
    · cases hx
  · exact h j x hx

/-- Forwarding: `mctp_message_tx_on_bus` on bus `j`, seen by the transmitters. -/
theorem messageTxOnBus_transmit {ops : Ops β} (hk : KeepsPacket ops) {c c' : Core β} {j : Nat}
    {s d : Byte} {own : Bool} {g : Byte} {msg : List Byte} {e : List Event} {rc : Int}
    {ver : Nat → Byte} (hver : Versions ver c)
    (hsz : ∀ b ∈ c.busses, b.state ≠ .constructed → BindOk b.binding) (hg : g.toNat < 8)
    (h : c.messageTxOnBus ops j s d own g msg = .ok (c', e, rc)) :
    transmit (ver j) s d own g (absTx c j) msg (offers j e) = some (absTx c' j) ∧
      (∀ i, i ≠ j → absTx c' i = absTx c i ∧ offers i e = []) ∧ c'.ctxs = c.ctxs ∧
      c'.bridge = c.bridge ∧ c'.maxSize = c.maxSize ∧ deliveries e = [] ∧ (∀ i p, Event.recv i p ∉ e) ∧
      Versions ver c' ∧ c'.busses.length = c.busses.length := by
  obtain ⟨htx, m, bs, hc', hmap⟩ := messageTxOnBus_ok h
  have hd := isTx_not_delivered htx
  have hnr : ∀ i p, Event.recv i p ∉ e := fun i p hm => htx _ hm
  have hlen : c'.busses.length = c.busses.length := by
    have := congrArg List.length hmap
    rw [hc']; simpa using this
  have hctx : c'.ctxs = c.ctxs := by rw [hc']
  have hbr : c'.bridge = c.bridge := by rw [hc']
  have hmx : c'.maxSize = c.maxSize := by rw [hc']
  obtain ⟨bus, hget, hh⟩ := messageTxOnBus_spec hk hsz h
  have hab := absTx_get hget
  rcases hh with ⟨hst, rfl, rfl, rfl⟩ | ⟨_, hgt, _⟩ | ⟨hst, _, rfl, bus', hbs', he', hv', hf, hoth⟩
  · refine ⟨?_, fun i _ => ⟨rfl, rfl⟩, rfl, rfl, rfl, rfl, by simp, hver, rfl⟩
    unfold transmit
    rw [hab, if_pos (by simp [absBus, hst, gateOf])]
    rfl
  · omega
  · have hj : j < c.busses.length := (List.getElem?_eq_some_iff.mp hget).1
    obtain ⟨t1, t2⟩ := absTx_set hbs' hj
    refine ⟨?_, fun i hi => ⟨t2 i hi, hoth i hi⟩, hctx, hbr, hmx, hd, hnr, hver.set hget hbs' hv' he', hlen⟩
    unfold transmit
    rw [hab, if_neg (by cases hs : bus.state <;> simp_all [absBus, gateOf]), t1, ← hf, ← (hver _ _ hget).1]
    rfl

/-- The bridge loop of two busses transmits on the other bus. -/
theorem bridgeLoop_two {ops : Ops β} {c c' : Core β} {i : Nat} {s d : Byte} {own : Bool} {g : Byte}
    {msg : List Byte} {e : List Event} (hi : i < 2)
    (h : bridgeLoop ops i s d own g msg (List.range 2) c = .ok (c', e)) :
    ∃ rc, c.messageTxOnBus ops (1 - i) s d own g msg = .ok (c', e, rc) := by
  rw [show List.range 2 = [0, 1] from rfl] at h
  have h01 : i = 0 ∨ i = 1 := by omega
  rcases h01 with rfl | rfl
  · simp only [bridgeLoop, if_true] at h
    rw [if_neg (by decide)] at h
    obtain ⟨⟨c1, e1, rc⟩, h1, h⟩ := Res.bind_eq_ok.mp h
    simp only [Res.bind_ok, Except.ok.injEq, Prod.mk.injEq, List.append_nil] at h
    obtain ⟨rfl, rfl⟩ := h
    exact ⟨rc, h1⟩
  · simp only [bridgeLoop, if_true] at h
    rw [if_neg (by decide)] at h
    obtain ⟨⟨c1, e1, rc⟩, h1, h⟩ := Res.bind_eq_ok.mp h
    simp only [Res.bind_ok, Except.ok.injEq, Prod.mk.injEq, List.append_nil] at h
    obtain ⟨rfl, rfl⟩ := h
    exact ⟨rc, h1⟩

theorem rx_bridge {ops : Ops β} {c c' : Core β} {i : Nat} {bus : Bus β} {s d : Byte} {own : Bool}
    {g : Byte} {msg : List Byte} {e : List Event} (hb : c.bridge = true) (hn : c.nBusses = 2) (hi : i < 2)
    (h : c.rx ops i bus s d own g msg = .ok (c', e)) :
    ∃ rc, c.messageTxOnBus ops (1 - i) s d own g msg = .ok (c', e, rc) := by
  unfold Core.rx at h
  rw [if_pos hb, hn] at h
  exact bridgeLoop_two hi h

/-- Invariant of a bridge. -/
structure BrInv {ops : Ops β} (K : Contract ops) (ver : Nat → Byte) (mx : Nat) (A : Nat → Prop) (base : List Nat) (evs : List Event)
    (c : Core β) : Prop where
  bridge : c.bridge = true
  two    : c.busses.length = 2
  tbl    : TblInv (fun _ => True) evs c.ctxs
  mem    : MemInv K base c
  vers   : Versions ver c
  max    : c.maxSize = mx
  all    : ∀ x ∈ c.ctxs, A x.allocSize

theorem offers_recv (j i : Nat) (p : List Byte) (e : List Event) : offers j (.recv i p :: e) = offers j e := rfl

theorem offers_capIn (j : Nat) (c : Core β) (p : List Byte) : offers j (capIn c p) = [] := by
  unfold capIn; split <;> rfl

/-- Receiving a packet on bus `i` of a bridge. -/
theorem rxPacket_bridge {ops : Ops β} (hk : KeepsPacket ops) {ver : Nat → Byte} {mx : Nat}
    {A P : Nat → Prop} {lim : Nat → Bool → Prop} (hpol : Pol mx A P lim) {base : List Nat}
    {evs : List Event} {c c' : Core β} {i : Nat} {bs : List Byte} {e : List Event}
    (hI : BrInv K ver mx A base evs c) (hm' : MemInv K base c') (hP : P (bs.length - 4))
    (hfit : ∃ bus, c.busses[i]? = some bus ∧ bs.length ≤ bus.binding.pktSize + bus.binding.pktTrailer)
    (h : c.rxPacket ops i bs = .ok (c', e)) :
    i < 2 ∧ deliveries e = [] ∧ BrInv K ver mx A base (evs ++ e) c' ∧
      ∃ out, BridgePkt lim ver (absBridge c) i bs (fun j => offers j e) (absBridge c') out := by
  obtain ⟨hbr, htwo, htbl, hmi, hver, hmax, hall⟩ := hI
  have hi : i < 2 := by
    obtain ⟨bus, hb, _⟩ := hfit
    rw [← htwo]; exact (List.getElem?_eq_some_iff.mp hb).1
  have hnb : c.nBusses = 2 := by rw [hmi.nb, htwo]
  refine ⟨hi, ?_⟩
  rcases rxPacket_cases h with ⟨bus, m, hb, hcause, _, _⟩ | ⟨bus, m0, pkt, hbus, ha, hp, hr⟩
  · exfalso
    obtain ⟨bus', hg, hle⟩ := hfit
    obtain ⟨_, hg', _⟩ := busAt_ok hb
    rw [hg] at hg'; simp at hg'; subst hg'
    rcases hcause with hn | hlt
    · simp [Mem.alloc, hmi.ok c.mem.next] at hn
    · omega
  · obtain ⟨bus', hbus', hh⟩ := busRx_cases hp hr
    rcases hh with ⟨hpn, rfl, m', _, rfl⟩ | ⟨f, c1, e1, m', hf, hb, hm, rfl, rfl⟩
    · refine ⟨rfl, ⟨hbr, htwo, ⟨htbl.len, htbl.uniq, htbl.locd, fun j x hx hx0 => ?_⟩, hm', hver, hmax, hall⟩, none, ?_⟩
      · rw [stream_append_none hpn]; exact htbl.run j x hx hx0
      · unfold BridgePkt; rw [hpn]; exact ⟨rfl, rfl, fun _ => rfl⟩
    · obtain ⟨v, d, s, g, hbs, hne, _, _, _, _, _, _, _, htag, hsq⟩ := parse_some hf
      rw [busRxBody_parse ops _ i bus' hp hf] at hb
      rw [if_neg (by simp [hbr])] at hb
      have hgl : (BitVec.ofNat 8 f.tag).toNat < 8 := by simp; omega
      have hev : ∀ z, evs ++ Event.recv i bs :: z = (evs ++ [.recv i bs]) ++ z := by simp
      have hoff : ∀ j (z : List Event), offers j (.recv i bs :: (capIn ({ c with mem := m0 } : Core β) bs ++ z)) = offers j z := by
        intro j z
        rw [offers_recv, offers_append, offers_capIn, List.nil_append]
      have hdel : ∀ (z : List Event), deliveries (.recv i bs :: (capIn ({ c with mem := m0 } : Core β) bs ++ z)) = deliveries z := by
        intro z
        rw [deliveries_recv, deliveries_append, deliveries_capIn, List.nil_append]
      have hnrec : ∀ z : List Event, (∀ i p, Event.recv i p ∉ z) →
          ∀ i p, Event.recv i p ∉ capIn ({ c with mem := m0 } : Core β) bs ++ z := by
        intro z hz i p hm
        rcases List.mem_append.mp hm with hm | hm
        · exact capIn_noRecv _ _ _ _ hm
        · exact hz i p hm
      by_cases hsg : f.single = true
      · rw [if_pos hsg] at hb
        obtain ⟨rc, hmt⟩ := rx_bridge (by exact hbr) (by exact hnb) hi hb
        obtain ⟨t1, t2, t3, t4, t5, t6, t7, t8, t9⟩ :=
          messageTxOnBus_transmit hk (ver := ver) (by exact hver) (by exact hmi.bus) hgl hmt
        have hi1 : i ≠ 1 - i := by omega
        refine ⟨by rw [hdel]; exact t6, ⟨t4.trans hbr, t9.trans htwo, ?_, hm', t8, t5.trans hmax, ?_⟩,
          some (f, f.payload), ?_⟩
        · rw [hev]
          refine TblInv.other ?_ (hnrec _ t7)
          simp only [t3]
          refine ⟨htbl.len, htbl.uniq, htbl.locd, fun j x hx hx0 => ?_⟩
          rw [stream_append_single hf hsg]; exact htbl.run j x hx hx0
        · simp only [t3]; exact hall
        · unfold BridgePkt
          rw [hf]
          simp only [hoff]
          rw [if_pos hsg]
          refine ⟨⟨?_, trivial⟩, (t2 i hi1).1, (t2 i hi1).2, t1⟩
          simp only [absBridge, t3]
      · rw [if_neg hsg] at hb
        have hsg' : f.single = false := by simpa using hsg
        unfold Core.rxFrag at hb
        obtain ⟨⟨m1, t, out⟩, hc, hb⟩ := Res.bind_eq_ok.mp hb
        simp only at hb hc
        have htb := (ctxRx_inv (i := i) htbl hf hsg' trivial hp hc).1
        obtain ⟨q1, q2, q3⟩ := ctxRx_fragStep (c := { c with mem := m0 }) hpol (hmi.alloc ha).ok hmi.ctxs htbl htb hmax hall hP hp hf hc
        cases out with
        | none =>
          simp only [Except.ok.injEq, Prod.mk.injEq] at hb
          obtain ⟨rfl, rfl⟩ := hb
          refine ⟨by rw [hdel]; rfl, ⟨hbr, htwo, ?_, hm', hver, hmax, q3⟩, none, ?_⟩
          · rw [hev]
            exact htb.other (hnrec _ (by simp))
          · unfold BridgePkt
            rw [hf]
            simp only [hoff]
            rw [if_neg hsg]
            refine ⟨?_, rfl, rfl, rfl, rfl⟩
            split
            · rename_i hs0; exact ⟨q1 hs0, by simp⟩
            · rename_i hs0; exact ⟨none, q2 hs0, rfl⟩
        | some msg =>
          simp only at hb
          obtain ⟨rc, hmt⟩ := rx_bridge (by exact hbr) (by exact hnb) hi hb
          obtain ⟨t1, t2, t3, t4, t5, t6, t7, t8, t9⟩ :=
            messageTxOnBus_transmit hk (ver := ver) (by exact hver) (by exact hmi.bus) hgl hmt
          have hi1 : i ≠ 1 - i := by omega
          refine ⟨by rw [hdel]; exact t6, ⟨t4.trans hbr, t9.trans htwo, ?_, hm', t8, t5.trans hmax, ?_⟩,
            some (f, msg), ?_⟩
          · rw [hev]
            simp only [t3]
            exact htb.other (hnrec _ t7)
          · simp only [t3]; exact q3
          · unfold BridgePkt
            rw [hf]
            simp only [hoff]
            rw [if_neg hsg]
            refine ⟨?_, (t2 i hi1).1, (t2 i hi1).2, t1⟩
            simp only [absBridge, t3]
            split
            · rename_i hs0
              refine ⟨q1 hs0, ?_⟩
              intro o ho
              simp only [Option.some.injEq] at ho
              subst ho; rfl
            · rename_i hs0; exact ⟨some msg, q2 hs0, rfl⟩

/-- Enabling or disabling a bus, seen by its transmitter. -/
theorem setTxEnabled_switch {ops : Ops β} (hk : KeepsPacket ops) {c c' : Core β} {i : Nat} {on : Bool}
    {e : List Event} {ver : Nat → Byte} (hver : Versions ver c)
    (h : c.setTxEnabled ops i on = .ok (c', e)) :
    switch (absTx c i) on (offers i e) = some (absTx c' i) ∧
      (∀ j, j ≠ i → absTx c' j = absTx c j ∧ offers j e = []) ∧ Versions ver c' ∧
      c'.busses.length = c.busses.length := by
  unfold Core.setTxEnabled at h
  obtain ⟨bus, hbus, hs⟩ := Res.bind_eq_ok.mp h
  have hget := (busAt_ok hbus).2.1
  have hlen : i < c.busses.length := (List.getElem?_eq_some_iff.mp hget).1
  have hab := absTx_get hget
  have hset : ∀ st, (c.setBus i { bus with state := st }).busses = c.busses.set i { bus with state := st } :=
    fun _ => rfl
  split at hs
  · rename_i hst
    split at hs
    · rename_i hon
      simp only [Except.ok.injEq, Prod.mk.injEq] at hs
      obtain ⟨rfl, rfl⟩ := hs
      have : on = false := by simpa using hon
      refine ⟨?_, fun j _ => ⟨rfl, rfl⟩, hver, rfl⟩
      rw [hab]; simp [switch, absBus, hst, gateOf, this, offers]
    · rename_i hon
      have hon' : on = true := by simpa using hon
      split at hs
      · rename_i hlt
        simp only [Except.ok.injEq, Prod.mk.injEq] at hs
        obtain ⟨rfl, rfl⟩ := hs
        refine ⟨?_, fun j _ => ⟨rfl, rfl⟩, hver, rfl⟩
        have h68 : ¬ 68 ≤ bus.binding.pktSize := by
          simp only [packetSize, Mctp.btu, hdrSize] at hlt; omega
        rw [hab]; simp [switch, absBus, hst, gateOf, hon', offers, h68]
      · rename_i hlt
        simp only [Except.ok.injEq, Prod.mk.injEq] at hs
        obtain ⟨rfl, rfl⟩ := hs
        have h68 : 68 ≤ bus.binding.pktSize := by
          simp only [packetSize, Mctp.btu, hdrSize] at hlt; omega
        obtain ⟨t1, t2⟩ := absTx_set (hset .txEnabled) hlen
        refine ⟨?_, fun j hj => ⟨t2 j hj, rfl⟩, hver.set hget (hset _) rfl rfl, by simp [Core.setBus]⟩
        rw [hab, t1]; simp [switch, absBus, hst, gateOf, hon', offers, h68]
  · rename_i hst
    split at hs
    · rename_i hon
      simp only [Except.ok.injEq, Prod.mk.injEq] at hs
      obtain ⟨rfl, rfl⟩ := hs
      refine ⟨?_, fun j _ => ⟨rfl, rfl⟩, hver, rfl⟩
      rw [hab]; simp [switch, absBus, hst, gateOf, hon, offers]
    · rename_i hon
      have hon' : on = false := by simpa using hon
      simp only [Except.ok.injEq, Prod.mk.injEq] at hs
      obtain ⟨rfl, rfl⟩ := hs
      obtain ⟨t1, t2⟩ := absTx_set (hset .txDisabled) hlen
      refine ⟨?_, fun j hj => ⟨t2 j hj, rfl⟩, hver.set hget (hset _) rfl rfl, by simp [Core.setBus]⟩
      rw [hab, t1]; simp [switch, absBus, hst, gateOf, hon', offers]
  · rename_i hst
    split at hs
    · rename_i hon
      simp only [Except.ok.injEq, Prod.mk.injEq] at hs
      obtain ⟨rfl, rfl⟩ := hs
      have : on = false := by simpa using hon
      refine ⟨?_, fun j _ => ⟨rfl, rfl⟩, hver, rfl⟩
      rw [hab]; simp [switch, absBus, hst, gateOf, this, offers]
    · rename_i hon
      have hon' : on = true := by simpa using hon
      obtain ⟨bus1, bus', hb1, hbs', he', hv', hf, hoth⟩ := sendTxQueue_flush hk hs
      rw [hset, List.getElem?_set_self hlen] at hb1
      simp only [Option.some.injEq] at hb1
      subst hb1
      have hbs2 : c'.busses = c.busses.set i bus' := by rw [hbs', hset]; simp
      obtain ⟨t1, t2⟩ := absTx_set hbs2 hlen
      refine ⟨?_, fun j hj => ⟨t2 j hj, hoth j hj⟩, hver.set hget hbs2 hv' he', by rw [hbs2]; simp⟩
      rw [hab, t1, ← hf]; simp [switch, absBus, hst, gateOf, hon']

/-- One call on a bridge. -/
theorem step_bridge {ops : Ops β} (hk : KeepsPacket ops) (K : Contract ops) {ver : Nat → Byte}
    {mx : Nat} {A P : Nat → Prop} {lim : Nat → Bool → Prop} (hpol : Pol mx A P lim) {base : List Nat}
    {evs : List Event} {c : Core β} (hI : BrInv K ver mx A base evs c) {op : Op β} (hop : OpOk K c op)
    (hP : PktP P op) :
    ∃ c' e rc out, c.step ops op = .ok (c', e, rc) ∧ BrInv K ver mx A base (evs ++ e) c' ∧
      BridgeStep lim ver (absBridge c) ⟨op, e, rc⟩ (absBridge c') out := by
  obtain ⟨c', e, rc, hs, hm⟩ := step_total K hI.mem hop
  by_cases hr : ∃ i bs, op = .recv i bs
  · obtain ⟨i, bs, rfl⟩ := hr
    have hs0 := hs
    simp only [Core.step] at hs
    obtain ⟨⟨c1, e1⟩, hrx, h⟩ := Res.bind_eq_ok.mp hs
    simp only [Except.ok.injEq, Prod.mk.injEq] at h
    obtain ⟨rfl, rfl, rfl⟩ := h
    obtain ⟨g1, g2, g3, out, g4⟩ := rxPacket_bridge hk hpol hI hm hP hop hrx
    exact ⟨c1, e1, 0, out, hs0, g3, g2, g1, g4⟩
  · have hr' : ∀ i bs, op ≠ .recv i bs := fun i bs h => hr ⟨i, bs, h⟩
    obtain ⟨htxe, m, bs, hr2, hc2, mx2, hc', _, hmx, _⟩ := step_frame hr' hs
    have e1 : mx2 = c.maxSize := hmx (by rintro n rfl; exact hP)
    have hd := isTx_not_delivered htxe
    have hnr : ∀ i p, Event.recv i p ∉ e := fun i p hm => htxe _ hm
    have hctx : c'.ctxs = c.ctxs := by rw [hc']
    have hasm : (absBridge c').asm = (absBridge c).asm := by simp only [absBridge, hctx]
    have mk : Versions ver c' → c'.busses.length = 2 → BrInv K ver mx A base (evs ++ e) c' := by
      intro hv hl
      refine ⟨by rw [hc']; exact hI.bridge, hl, by rw [hctx]; exact hI.tbl.other hnr, hm, hv, ?_, by rw [hctx]; exact hI.all⟩
      rw [hc']; exact e1.trans hI.max
    refine ⟨c', e, rc, none, hs, ?_⟩
    cases op with
    | recv i bs => exact absurd rfl (hr' i bs)
    | enable i on =>
      simp only [Core.step] at hs
      obtain ⟨⟨c1, e1⟩, hen, h⟩ := Res.bind_eq_ok.mp hs
      simp only [Except.ok.injEq, Prod.mk.injEq] at h
      obtain ⟨rfl, rfl, rfl⟩ := h
      obtain ⟨t1, t2, t3, t4⟩ := setTxEnabled_switch hk hI.vers hen
      exact ⟨mk t3 (t4.trans hI.two), hd, rfl, hasm, t1, t2⟩
    | send d own g msg =>
      simp only [Core.step, Core.messageTx] at hs
      split at hs
      · rename_i hg
        simp only [Except.ok.injEq, Prod.mk.injEq] at hs
        obtain ⟨rfl, rfl, rfl⟩ := hs
        have : ¬ g.toNat < 8 := fun h => hg (tag_small_iff.mpr h)
        refine ⟨mk hI.vers hI.two, hd, rfl, hasm, fun j _ => ⟨rfl, rfl⟩, ?_⟩
        rw [if_pos (by omega)]
        exact ⟨rfl, rfl, rfl⟩
      · rename_i hg
        have hg' : g.toNat < 8 := tag_small_iff.mp (Decidable.not_not.mp hg)
        rw [if_neg (by have := hI.mem.pos; omega)] at hs
        obtain ⟨bus, hbus, hs⟩ := Res.bind_eq_ok.mp hs
        have hget := (busAt_ok hbus).2.1
        obtain ⟨t1, t2, t3, t4, t5, t6, t7, t8, t9⟩ :=
          messageTxOnBus_transmit hk hI.vers hI.mem.bus hg' hs
        rw [(hI.vers _ _ hget).2] at t1
        refine ⟨mk t8 (t9.trans hI.two), hd, rfl, hasm, t2, ?_⟩
        rw [if_neg (by omega)]
        exact t1
    | rebind i st ps ph pt cr =>
      simp only [Core.step] at hs
      obtain ⟨bus, hbus, h⟩ := Res.bind_eq_ok.mp hs
      simp only [Except.ok.injEq, Prod.mk.injEq] at h
      obtain ⟨hc1, rfl, rfl⟩ := h
      have hget := (busAt_ok hbus).2.1
      have hlen : i < c.busses.length := (List.getElem?_eq_some_iff.mp hget).1
      have hb : c'.busses = c.busses.set i { bus with binding := { bus.binding with st := st, pktSize := ps, pktHeader := ph, pktTrailer := pt, controlRx := cr } } := by
        rw [← hc1]; rfl
      obtain ⟨t1, t2⟩ := absTx_set hb hlen
      refine ⟨mk (hI.vers.set hget hb rfl rfl) (by rw [hb]; simp [hI.two]), hd, rfl, hasm, ?_, t2, fun _ => rfl⟩
      show absTx c' i = { absTx c i with size := ps }
      rw [t1, absTx_get hget]; rfl
    | setMax n => exact absurd hP (by simp [PktP])
    | setRx n => exact absurd hP (by simp [PktP])
    | setCapture n =>
      simp only [Core.step, Except.ok.injEq, Prod.mk.injEq] at hs
      obtain ⟨rfl, rfl, rfl⟩ := hs
      exact ⟨mk hI.vers hI.two, hd, rfl, rfl, fun _ => rfl⟩

theorem run_bridge {ops : Ops β} (hk : KeepsPacket ops) (K : Contract ops) {ver : Nat → Byte}
    {mx : Nat} {A P : Nat → Prop} {lim : Nat → Bool → Prop} (hpol : Pol mx A P lim) {base : List Nat}
    {hist : List (Op β)} : ∀ {evs : List Event} {c : Core β}, BrInv K ver mx A base evs c →
    HistOk K c hist → (∀ op ∈ hist, PktP P op) →
    ∃ c' log outs, c.run ops hist = .ok (c', log) ∧ BrInv K ver mx A base (evs ++ events log) c' ∧
      log.map (·.op) = hist ∧ outs.length = log.length ∧
      BridgeRun lim ver (absBridge c) (log.zip outs) (absBridge c') := by
  induction hist with
  | nil => intro evs c hI _ _; exact ⟨c, [], [], rfl, by simpa [events] using hI, rfl, rfl, rfl⟩
  | cons op rest ih =>
    intro evs c hI hok hP
    obtain ⟨c1, e, rc, out, hs, hI1, hst⟩ := step_bridge hk K hpol hI hok.1 (hP op (by simp))
    obtain ⟨c2, log, outs, hr, hI2, hops, hlen, hre⟩ := ih hI1 (hok.2 _ _ _ hs) (fun o ho => hP o (by simp [ho]))
    refine ⟨c2, ⟨op, e, rc⟩ :: log, out :: outs, ?_, ?_, by simp [hops], by simp [hlen], ?_⟩
    · simp only [Core.run, hs, Res.bind_ok, hr]
    · simpa [events] using hI2
    · exact ⟨_, hst, hre⟩

/-! ## Setting up a bridge -/

/-- `mctp_init`, `mctp_set_max_message_size(mx)` and a successful `mctp_bridge_busses`. -/
def Bridged (ops : Ops β) (mx : Nat) (mem : Mem) (c0 : Core β) : Prop :=
  ∃ fill c b1 b2 rc, Core.init β mem fill = some c ∧
    (c.setMaxMessageSize mx).bridgeBusses ops b1 b2 = .ok (c0, rc) ∧ 0 ≤ rc

theorem bridgeBusses_ok {ops : Ops β} {c c0 : Core β} {b1 b2 : Binding β} {rc : Int}
    (h : c.bridgeBusses ops b1 b2 = .ok (c0, rc)) (hrc : 0 ≤ rc) :
    ∃ id m x y, c.mem.alloc = (some id, m) ∧
      c0 = { c with mem := m, nBusses := 2, bussesPtr := some id, busses := [x, y], bridge := true } ∧
      (∀ z ∈ [x, y], z.eid = 0 ∧ z.queue = [] ∧ (z.state ≠ .constructed → 68 ≤ z.binding.pktSize)) := by
  unfold Core.bridgeBusses at h
  split at h
  · cases h
  · split at h
    · simp only [Except.ok.injEq, Prod.mk.injEq] at h
      obtain ⟨_, rfl⟩ := h; simp [ENOMEM] at hrc
    · rename_i id m ha
      simp only at h
      obtain ⟨⟨x, rc1⟩, hs1, h⟩ := Res.bind_eq_ok.mp h
      simp only at h
      split at h
      · simp only [Except.ok.injEq, Prod.mk.injEq] at h
        obtain ⟨_, rfl⟩ := h; omega
      · obtain ⟨⟨y, rc2⟩, hs2, h⟩ := Res.bind_eq_ok.mp h
        simp only [Except.ok.injEq, Prod.mk.injEq] at h
        obtain ⟨rfl, rfl⟩ := h
        refine ⟨id, m, x, y, ha, rfl, ?_⟩
        have hx : ∀ z, (∃ b rc, startBus ops { eid := 0, binding := b, state := .constructed, queue := [] } = .ok (z, rc)) →
            z.eid = 0 ∧ z.queue = [] ∧ (z.state ≠ .constructed → 68 ≤ z.binding.pktSize) := by
          rintro z ⟨b, rc, hz⟩
          obtain ⟨h1, h2, h3⟩ := startBus_ok hz
          refine ⟨h1, h2, fun hne => ?_⟩
          rcases h3 with h3 | h3
          · exact absurd h3 hne
          · exact h3.2
        intro z hz
        simp only [List.mem_cons, List.not_mem_nil, or_false] at hz
        rcases hz with rfl | rfl
        · exact hx _ ⟨_, _, hs1⟩
        · exact hx _ ⟨_, _, hs2⟩

theorem Bridged.brInv {ops : Ops β} {K : Contract ops} {mx : Nat} {mem : Mem} {c0 : Core β} (h : Bridged ops mx mem c0)
    (hcl : Clean mem) (hsz : SizesOk K c0) {A P : Nat → Prop} {lim : Nat → Bool → Prop}
    (hpol : Pol mx A P lim) {b1 b2 : Bus β} (hb : c0.busses = [b1, b2]) :
    BrInv K (fun i => if i = 0 then b1.binding.version else b2.binding.version) mx A mem.live [] c0 ∧
      absBridge c0 = ⟨State.empty, fun i => if i = 0 then absBus b1 else if i = 1 then absBus b2 else ⟨.never, [], 0⟩⟩ ∧
      b1.queue = [] ∧ b2.queue = [] := by
  obtain ⟨fill, c, bb1, bb2, rc, hi, hr, hrc⟩ := h
  obtain ⟨id, m, ha, rfl⟩ := init_ok hi
  obtain ⟨id2, m2, x, y, ha2, rfl, hxy⟩ := bridgeBusses_ok hr hrc
  simp only [List.cons.injEq, and_true] at hb
  obtain ⟨rfl, rfl⟩ := hb
  have h0 : Owns mem mem.live := ⟨fun _ => rfl, hcl.fresh, hcl.nd⟩
  obtain ⟨m1, e1, o1, k1⟩ := h0.alloc hcl.ok
  rw [ha] at e1
  simp only [Prod.mk.injEq, Option.some.injEq] at e1
  obtain ⟨rfl, rfl⟩ := e1
  have hok1 : AllOk m := by intro n; rw [k1]; exact hcl.ok n
  obtain ⟨m3, e3, o3, k3⟩ := o1.alloc hok1
  simp only [Core.setMaxMessageSize] at ha2
  rw [e3] at ha2
  simp only [Prod.mk.injEq, Option.some.injEq] at ha2
  obtain ⟨rfl, rfl⟩ := ha2
  have hqx := (hxy x (by simp)).2.1
  have hqy := (hxy y (by simp)).2.1
  refine ⟨⟨rfl, rfl, tblInv_init _, ⟨o3.congr fun i => ?_, ?_, ?_, rfl, by simp, ⟨_, rfl⟩, ?_, ?_, fun b hb => (hsz b hb).2.2⟩, ?_, rfl, ?_⟩, ?_, hqx, hqy⟩
  · have : ctxBufs (List.replicate 16 Ctx.zero) = [] := by decide
    simp only [owned, Core.setMaxMessageSize, this, queueIds, hqx, hqy, List.flatMap_cons, List.flatMap_nil, List.map_nil,
      Option.toList, List.count_append, List.count_cons, List.count_nil]
    omega
  · intro n; show m3.ok n = true; rw [k3]; exact hok1 n
  · intro x hx
    simp only [Core.setMaxMessageSize] at hx
    rw [List.eq_of_mem_replicate hx]
    exact ⟨by simp [Ctx.zero], fun _ => rfl⟩
  · intro b hb hne
    exact ⟨(hxy b hb).2.2 hne, (hsz b hb).1⟩
  · intro b hb
    exact ⟨(hsz b hb).2.1, by rw [(hxy b hb).2.1]; simp⟩
  · intro i b hget
    have hlt := (List.getElem?_eq_some_iff.mp hget).1
    simp only [List.length_cons, List.length_nil] at hlt
    have h01 : i = 0 ∨ i = 1 := by omega
    rcases h01 with rfl | rfl
    · simp only [List.getElem?_cons_zero, Option.some.injEq] at hget
      subst hget; exact ⟨rfl, (hxy x (by simp)).1⟩
    · simp only [List.getElem?_cons_succ, List.getElem?_cons_zero, Option.some.injEq] at hget
      subst hget; exact ⟨rfl, (hxy y (by simp)).1⟩
  · intro z hz
    simp only [Core.setMaxMessageSize] at hz
    rw [List.eq_of_mem_replicate hz]
    exact hpol.zero
  · simp only [absBridge, Core.setMaxMessageSize, abs_init]
    congr 1
    funext i
    unfold absTx
    match i with
    | 0 => rfl
    | 1 => rfl
    | n + 2 => simp

end Mctp
