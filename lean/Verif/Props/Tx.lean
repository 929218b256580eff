import Verif.Proofs.TxSpec
import Verif.Proofs.RoundTrip

/-!
# Properties of the transmit path (C18-C24)
-/

namespace Mctp

open Spec

variable {β : Type}

/-- The packets waiting in the transmit queue of an endpoint. -/
def pending (c : Core β) : List (List Byte) := c.busses.flatMap fun b => b.queue.map Pktbuf.bytes

theorem Registered.txInv {ops : Ops β} {eid : Byte} {mem : Mem} {c0 : Core β}
    (h : Registered ops eid mem c0) {b0 : Bus β} (hb : c0.busses = [b0]) :
    TxInv b0.binding.version eid ⟨gateOf b0.state, [], b0.binding.pktSize⟩ c0 := by
  obtain ⟨fill, c, b, rc, hi, hr, hrc⟩ := h
  obtain ⟨id, m, bus, ha, rfl, h1, h2, h3⟩ := registerBus_ok hr hrc
  simp only [List.cons.injEq, and_true] at hb
  subst hb
  exact ⟨bus, rfl, h1, rfl, by simp [absBus, h2]⟩

theorem pending_one {c : Core β} {b : Bus β} (h : c.busses = [b]) :
    pending c = b.queue.map Pktbuf.bytes := by
  simp [pending, h]

/-! ## C22, C23, C24: the transmit queue -/

/-- **C22** (refinement) Whatever the binding answers, an endpoint's transmit side is the ideal
transmitter of `Spec/Transmit.lean`: it accepts the log of every history, offer by offer, and ends with
the library's queue and gate. -/
theorem C22_ideal_transmitter {ops : Ops β} (hk : KeepsPacket ops) (K : Contract ops) {eid : Byte}
    {mem : Mem} {c0 : Core β} {b0 : Bus β} (hreg : Registered ops eid mem c0) (hcl : Clean mem)
    (hsz : SizesOk K c0) (hb0 : c0.busses = [b0]) {hist : List (Op β)} (hok : HistOk K c0 hist) :
    ∃ c log b, c0.run ops hist = .ok (c, log) ∧ log.map (·.op) = hist ∧ c.busses = [b] ∧
      txRun b0.binding.version eid ⟨gateOf b0.state, [], b0.binding.pktSize⟩ log =
        some ⟨gateOf b.state, pending c, b.binding.pktSize⟩ := by
  obtain ⟨c, log, s', h1, h2, h3, ⟨b, h4, _, _, h5⟩, _⟩ :=
    run_tx hk K (hreg.memInv hcl hsz) hreg.epInv.noBridge (hreg.txInv hb0) hok
  refine ⟨c, log, b, h1, h2, h4, ?_⟩
  rw [h3, ← h5, pending_one h4]; rfl

theorem flush_fifo {os : List Offer} : ∀ {s s' : TxState}, flush s os = some s' →
    (os.filter Offer.consumed).map Offer.pkt ++ s'.queue = s.queue ∧ s'.size = s.size := by
  induction os with
  | nil =>
    intro s s' h
    simp only [flush] at h
    split at h
    · cases h
    · simp only [Option.some.injEq] at h; subst h; simp
  | cons o os ih =>
    intro s s' h
    unfold flush at h
    split at h
    · rename_i p q hg hq
      split at h
      · rename_i hp
        simp only at h
        split at h
        · rename_i hc
          obtain ⟨h1, h2⟩ := ih h
          rw [List.filter_cons, if_pos hc, List.map_cons, List.cons_append, h1, hp, hq]
          exact ⟨rfl, h2⟩
        · rename_i hc
          split at h
          · rename_i hr
            simp only [Option.some.injEq] at h; subst h
            rw [List.filter_cons, if_neg hc, hr]; simp
          · cases h
      · cases h
    · cases h

theorem flush_gate {os : List Offer} {s s' : TxState} (h : flush s os = some s') (hg : s.gate ≠ .opened) :
    os = [] ∧ s' = s := by
  cases os with
  | nil =>
    simp only [flush] at h
    rw [if_neg (fun hh => hg hh.1)] at h
    simpa using h.symm
  | cons o os =>
    unfold flush at h
    split at h
    · rename_i hg' _; exact absurd hg' hg
    · cases h

theorem txRun_fifo {ver eid : Byte} {log : List (Rec β)} : ∀ {s s' : TxState},
    txRun ver eid s log = some s' →
    consumed log ++ s'.queue = s.queue ++ (accepted s.size log).flatMap (Msg.packets ver eid) := by
  induction log with
  | nil => intro s s' h; simp only [txRun, Option.some.injEq] at h; subst h; simp [consumed, offers, accepted]
  | cons r log ih =>
    intro s s' h
    simp only [txRun] at h
    obtain ⟨s1, h1, h2⟩ := Option.bind_eq_some_iff.mp h
    have ih' := ih h2
    have hcons : consumed (r :: log) = ((offers 0 r.evs).filter Offer.consumed).map Offer.pkt ++ consumed log := by
      unfold consumed
      rw [List.flatMap_cons, offers_append, List.filter_append, List.map_append]
    rw [hcons, List.append_assoc, ih']
    unfold txStep at h1
    cases hop : r.op with
    | send d own g msg =>
      simp only [hop] at h1
      simp only [accepted, hop]
      split at h1
      · split at h1
        · rename_i hc
          simp only [Option.some.injEq] at h1; subst h1
          rw [hc.2, if_neg (by rw [hc.1]; decide)]; simp
        · cases h1
      · split at h1
        · split at h1
          · rename_i hc
            simp only [Option.some.injEq] at h1; subst h1
            rw [hc.2, if_neg (by rw [hc.1]; decide)]; simp
          · cases h1
        · split at h1
          · rename_i hrc
            obtain ⟨f1, f2⟩ := flush_fifo h1
            rw [f2, ← List.append_assoc, f1, if_pos hrc]
            simp [Msg.packets]
          · cases h1
    | enable i on =>
      simp only [hop] at h1
      simp only [accepted, hop]
      split at h1
      · split at h1
        · rename_i ho
          simp only [Option.some.injEq] at h1; subst h1
          rw [ho]; split <;> simp
        · cases h1
      · split at h1
        · rename_i ho
          simp only [Option.some.injEq] at h1; subst h1
          rw [ho]; simp
        · cases h1
      · obtain ⟨f1, f2⟩ := flush_fifo h1
        rw [f2, ← List.append_assoc, f1]
      · split at h1
        · rename_i ho
          simp only [Option.some.injEq] at h1; subst h1
          rw [ho]; simp
        · cases h1
    | rebind i st ps ph pt cr =>
      simp only [hop] at h1
      simp only [accepted, hop]
      split at h1
      · rename_i ho
        simp only [Option.some.injEq] at h1; subst h1
        rw [ho]; simp
      · cases h1
    | _ =>
      simp only [hop] at h1
      simp only [accepted, hop]
      split at h1
      · rename_i ho
        simp only [Option.some.injEq] at h1; subst h1
        rw [ho]; simp
      · cases h1

/-- **C22** The packets the binding took (or rejected as too large), followed by the packets still
queued, are exactly the packets of the accepted messages, in order: nothing is lost, duplicated or
reordered, whatever the binding answered. -/
theorem C22_fifo {ops : Ops β} (hk : KeepsPacket ops) (K : Contract ops) {eid : Byte}
    {mem : Mem} {c0 : Core β} {b0 : Bus β} (hreg : Registered ops eid mem c0) (hcl : Clean mem)
    (hsz : SizesOk K c0) (hb0 : c0.busses = [b0]) {hist : List (Op β)} (hok : HistOk K c0 hist) :
    ∃ c log, c0.run ops hist = .ok (c, log) ∧ log.map (·.op) = hist ∧
      consumed log ++ pending c =
        (accepted b0.binding.pktSize log).flatMap (Msg.packets b0.binding.version eid) := by
  obtain ⟨c, log, b, h1, h2, h3, h4⟩ := C22_ideal_transmitter hk K hreg hcl hsz hb0 hok
  exact ⟨c, log, h1, h2, txRun_fifo h4⟩

/-- A binding that is busy for every packet with an odd flags byte and refuses packets whose flags byte
is 0xc0 as too large; it keeps the packets. -/
def Demo.pickyOps : Ops Unit where
  start := some fun b => .ok { binding := b, rc := 0, enableTx := true }
  tx := fun _ p =>
    let rc : Int := if p.bytes[3]? = some 0xc0 then -90
      else if (p.bytes[3]?.getD 0).toNat % 2 = 1 then -16 else 0
    .ok { st := (), pkt := p, rc := rc, disableTx := false }

def Demo.pickyK : Contract Demo.pickyOps := Contract.ofTotal fun _ _ => ⟨_, rfl⟩

theorem Demo.picky_keeps : KeepsPacket Demo.pickyOps := by
  intro b p out h _ _
  simp only [Demo.pickyOps, Except.ok.injEq] at h
  subst h; rfl

theorem Demo.picky_registered : Registered Demo.pickyOps 8 {} { Demo.core with hasRx := false } :=
  ⟨fun _ => 0xaa, _, Demo.binding, 0, rfl, rfl, by decide⟩

/-- A concrete history for C22: a packet is refused as too large, one is taken, and one stays queued
because the binding is busy. -/
example :
    let hist : List (Op Unit) := [.send 9 false 0 [1], .send 9 false 2 [2], .send 9 false 1 [3]]
    HistOk Demo.pickyK { Demo.core with hasRx := false } hist ∧
    (match Core.run Demo.pickyOps { Demo.core with hasRx := false } hist with
     | .ok (c, log) => (consumed log, pending c)
     | .error _ => ([], [])) = ([Demo.pkt 8 9 0xc0 [1], Demo.pkt 8 9 0xc2 [2]], [Demo.pkt 8 9 0xc1 [3]]) :=
  ⟨Demo.histOk (by decide +kernel), by decide +kernel⟩

/-- What a single call does to the transmit side, in a state reached by any history. -/
theorem reached {ops : Ops β} (hk : KeepsPacket ops) (K : Contract ops) {eid : Byte}
    {mem : Mem} {c0 c c' : Core β} {b0 : Bus β} (hreg : Registered ops eid mem c0) (hcl : Clean mem)
    (hsz : SizesOk K c0) (hb0 : c0.busses = [b0]) {hist : List (Op β)} {log : List (Rec β)}
    (hok : HistOk K c0 hist) (hrun : c0.run ops hist = .ok (c, log)) {op : Op β} {e : List Event}
    {rc : Int} (hs : c.step ops op = .ok (c', e, rc)) :
    ∃ b b', c.busses = [b] ∧ c'.busses = [b'] ∧ MemInv K mem.live c ∧ c.bridge = false ∧
      b.eid = eid ∧ b.binding.version = b0.binding.version ∧
      txStep b0.binding.version eid ⟨gateOf b.state, pending c, b.binding.pktSize⟩ ⟨op, e, rc⟩ =
        some ⟨gateOf b'.state, pending c', b'.binding.pktSize⟩ := by
  obtain ⟨c1, log1, s1, h1, h2, h3, ⟨b, h4, h6, h7, h5⟩, hm⟩ :=
    run_tx hk K (hreg.memInv hcl hsz) hreg.epInv.noBridge (hreg.txInv hb0) hok
  rw [hrun] at h1
  simp only [Except.ok.injEq, Prod.mk.injEq] at h1
  obtain ⟨rfl, rfl⟩ := h1
  have hbr := (run_epInv hreg.epInv hrun).noBridge
  obtain ⟨_, s', hst, ⟨b', g1, g2, g3, g4⟩⟩ := step_tx hk hm hbr ⟨b, h4, h6, h7, h5⟩ hs
  refine ⟨b, b', h4, g1, hm, hbr, h6, h7, ?_⟩
  rw [pending_one h4, pending_one g1]
  subst h5
  subst g4
  exact hst

/-- **C23** Transmission is gated, in every reachable state: while it is not enabled no call other than
enabling makes an offer; the first enabling fails for a packet size below 68 (nothing changes);
re-enabling with a packet queued offers the oldest one first; after the binding disabled transmission
during an offer, no further offer is made in that call. -/
theorem C23_gating {ops : Ops β} (hk : KeepsPacket ops) (K : Contract ops) {eid : Byte}
    {mem : Mem} {c0 c c' : Core β} {b0 b : Bus β} (hreg : Registered ops eid mem c0) (hcl : Clean mem)
    (hsz : SizesOk K c0) (hb0 : c0.busses = [b0]) {hist : List (Op β)} {log : List (Rec β)}
    (hok : HistOk K c0 hist) (hrun : c0.run ops hist = .ok (c, log)) {op : Op β} {e : List Event}
    {rc : Int} (hs : c.step ops op = .ok (c', e, rc)) (hb : c.busses = [b]) :
    (b.state ≠ .txEnabled → (∀ i, op ≠ .enable i true) → offers 0 e = []) ∧
    (b.state = .constructed → b.binding.pktSize < 68 → ∀ i on, op = .enable i on → c' = c ∧ e = []) ∧
    (b.state = .txDisabled → (∃ i, op = .enable i true) → ∀ p q, pending c = p :: q →
      ∃ o os, offers 0 e = o :: os ∧ o.pkt = p) ∧
    (∀ a o rest, offers 0 e = a ++ o :: rest → o.off = true → rest = []) := by
  obtain ⟨b1, b', h1, h2, hm, hbr, heid, hver, hst⟩ := reached hk K hreg hcl hsz hb0 hok hrun hs
  rw [hb] at h1
  simp only [List.cons.injEq, and_true] at h1
  subst h1
  have hoff : ∀ (os : List Offer) (s s' : TxState), flush s os = some s' →
      ∀ a o rest, os = a ++ o :: rest → o.off = true → rest = [] := by
    intro os
    induction os with
    | nil => intro s s' _ a o rest h; simp at h
    | cons x os ih =>
      intro s s' h a o rest ho hof
      cases a with
      | nil =>
        simp only [List.nil_append, List.cons.injEq] at ho
        obtain ⟨rfl, rfl⟩ := ho
        unfold flush at h
        split at h
        · split at h
          · simp only at h
            split at h
            · exact (flush_gate h (by simp [hof])).1
            · split at h
              · assumption
              · cases h
          · cases h
        · cases h
      | cons y a =>
        simp only [List.cons_append, List.cons.injEq] at ho
        obtain ⟨rfl, rfl⟩ := ho
        unfold flush at h
        split at h
        · split at h
          · simp only at h
            split at h
            · exact ih _ _ h a o rest rfl hof
            · split at h
              · rename_i hh; simp at hh
              · cases h
          · cases h
        · cases h
  have hnil : ∀ {os : List Offer}, os = [] → ∀ a o rest, os = a ++ o :: rest → o.off = true → rest = [] := by
    intro os h a o rest hh; simp [h] at hh
  refine ⟨?_, ?_, ?_, ?_⟩
  · intro hst' hne
    have hg : gateOf b.state ≠ .opened := by cases hs : b.state <;> simp_all [gateOf]
    unfold txStep at hst
    cases op with
    | send d own g msg =>
      simp only at hst
      split at hst
      · split at hst
        · rename_i hc; exact hc.2
        · cases hst
      · split at hst
        · split at hst
          · rename_i hc; exact hc.2
          · cases hst
        · split at hst
          · exact (flush_gate hst hg).1
          · cases hst
    | enable i on =>
      cases on with
      | true => exact absurd rfl (hne i)
      | false =>
        simp only at hst
        split at hst
        all_goals first
          | (split at hst
             · assumption
             · cases hst)
          | simp_all
    | _ =>
      simp only at hst
      split at hst
      · assumption
      · cases hst
  · intro hc h68 i on hop
    subst hop
    simp only [Core.step, Core.setTxEnabled] at hs
    obtain ⟨⟨c1, e1⟩, hs2, h⟩ := Res.bind_eq_ok.mp hs
    simp only [Except.ok.injEq, Prod.mk.injEq] at h
    obtain ⟨rfl, rfl, rfl⟩ := h
    obtain ⟨bus, hbus, hs3⟩ := Res.bind_eq_ok.mp hs2
    have hbb : bus = b := by
      have hget := (busAt_ok hbus).2.1
      have := List.mem_of_getElem? hget
      rw [hb] at this; simpa using this
    subst hbb
    rw [hc] at hs3
    simp only at hs3
    split at hs3
    · simp only [Except.ok.injEq, Prod.mk.injEq] at hs3; exact ⟨hs3.1.symm, hs3.2.symm⟩
    · rw [if_pos (by simp only [packetSize, Mctp.btu, hdrSize]; omega)] at hs3
      simp only [Except.ok.injEq, Prod.mk.injEq] at hs3; exact ⟨hs3.1.symm, hs3.2.symm⟩
  · rintro hd ⟨i, rfl⟩ p q hq
    unfold txStep at hst
    rw [hd] at hst
    simp only [gateOf] at hst
    cases hof : offers 0 e with
    | nil =>
      rw [hof] at hst
      simp only [flush] at hst
      rw [if_pos (by simp [hq])] at hst; cases hst
    | cons o os =>
      rw [hof] at hst
      unfold flush at hst
      simp only [hq] at hst
      split at hst
      · rename_i hp; exact ⟨o, os, rfl, hp⟩
      · cases hst
  · unfold txStep at hst
    cases op with
    | send d own g msg =>
      simp only at hst
      split at hst
      · split at hst
        · rename_i hc; exact hnil hc.2
        · cases hst
      · split at hst
        · split at hst
          · rename_i hc; exact hnil hc.2
          · cases hst
        · split at hst
          · exact hoff _ _ _ hst
          · cases hst
    | enable i on =>
      simp only at hst
      split at hst
      · split at hst
        · rename_i hc; exact hnil hc
        · cases hst
      · split at hst
        · rename_i hc; exact hnil hc
        · cases hst
      · exact hoff _ _ _ hst
      · split at hst
        · rename_i hc; exact hnil hc
        · cases hst
    | _ =>
      simp only at hst
      split at hst
      · rename_i hc; exact hnil hc
      · cases hst

/-- **C24** A packet the binding rejects as too large (-EMSGSIZE) does not hold up the others: unless the
binding disabled transmission, it is never the last offer of a call while packets remain (and by C22 the
next offer is the next packet in order). -/
theorem C24_oversized_skipped {ops : Ops β} (hk : KeepsPacket ops) (K : Contract ops) {eid : Byte}
    {mem : Mem} {c0 c c' : Core β} {b0 : Bus β} (hreg : Registered ops eid mem c0) (hcl : Clean mem)
    (hsz : SizesOk K c0) (hb0 : c0.busses = [b0]) {hist : List (Op β)} {log : List (Rec β)}
    (hok : HistOk K c0 hist) (hrun : c0.run ops hist = .ok (c, log)) {op : Op β} {e : List Event}
    {rc : Int} (hs : c.step ops op = .ok (c', e, rc)) {a : List Offer} {o : Offer}
    (ho : offers 0 e = a ++ [o]) (hrc : o.rc = -90) (hoff : o.off = false) : pending c' = [] := by
  obtain ⟨b, b', h1, h2, hm, hbr, heid, hver, hst⟩ := reached hk K hreg hcl hsz hb0 hok hrun hs
  have key : ∀ (a : List Offer) (s s' : TxState), flush s (a ++ [o]) = some s' → s'.queue = [] := by
    intro a
    induction a with
    | nil =>
      intro s s' h
      simp only [List.nil_append] at h
      unfold flush at h
      split at h
      · split at h
        · have hc : o.consumed = true := by simp [Offer.consumed, hrc]
          simp only [hc, hoff, if_true, flush, Bool.false_eq_true, if_false] at h
          split at h
          · cases h
          · rename_i hh
            simp only [Option.some.injEq] at h; subst h
            simpa using hh
        · cases h
      · cases h
    | cons x a ih =>
      intro s s' h
      simp only [List.cons_append] at h
      unfold flush at h
      split at h
      · split at h
        · simp only at h
          split at h
          · exact ih _ _ h
          · split at h
            · rename_i hh; simp at hh
            · cases h
        · cases h
      · cases h
  have hne : offers 0 e ≠ [] := by rw [ho]; simp
  unfold txStep at hst
  cases op with
  | send d own g msg =>
    simp only at hst
    split at hst
    · split at hst
      · rename_i hc; exact absurd hc.2 hne
      · cases hst
    · split at hst
      · split at hst
        · rename_i hc; exact absurd hc.2 hne
        · cases hst
      · split at hst
        · rw [ho] at hst; exact key _ _ _ hst
        · cases hst
  | enable i on =>
    simp only at hst
    split at hst
    · rw [if_neg hne] at hst; cases hst
    · rw [if_neg hne] at hst; cases hst
    · rw [ho] at hst; exact key _ _ _ hst
    · rw [if_neg hne] at hst; cases hst
  | _ =>
    simp only at hst
    rw [if_neg hne] at hst; cases hst

/-! ## C18, C20, C21: one transmission -/

/-- **C18** and **C21** (partial: for a core with a registered bus) In every reachable state, if
`mctp_message_tx` returns 0, then the packets `ps` appended behind the queued ones are a well-formed
fragmentation of the message for the bus's MTU (packet size minus header) with the bus EID as source,
and all of them were either taken by the binding in this call or are queued. -/
theorem C18_fragmentation {ops : Ops β} (hk : KeepsPacket ops) (K : Contract ops) {eid : Byte}
    {mem : Mem} {c0 c c' : Core β} {b0 b : Bus β} (hreg : Registered ops eid mem c0) (hcl : Clean mem)
    (hsz : SizesOk K c0) (hb0 : c0.busses = [b0]) {hist : List (Op β)} {log : List (Rec β)}
    (hok : HistOk K c0 hist) (hrun : c0.run ops hist = .ok (c, log)) (hb : c.busses = [b])
    {dest tag : Byte} {own : Bool} {msg : List Byte} {e : List Event}
    (hs : c.step ops (.send dest own tag msg) = .ok (c', e, 0)) :
    ∃ ps, IsFragmentation b.binding.version eid dest own tag.toNat (b.binding.pktSize - 4) msg ps ∧
      ((offers 0 e).filter Offer.consumed).map Offer.pkt ++ pending c' = pending c ++ ps := by
  obtain ⟨b1, b', h1, h2, hm, hbr, heid, hver, hst⟩ := reached hk K hreg hcl hsz hb0 hok hrun hs
  rw [hb] at h1
  simp only [List.cons.injEq, and_true] at h1
  subst h1
  unfold txStep at hst
  simp only at hst
  split at hst
  · rw [if_neg (by simp)] at hst; cases hst
  · rename_i ht
    split at hst
    · rw [if_neg (by simp)] at hst; cases hst
    · rename_i hg
      rw [if_pos (by trivial)] at hst
      have hne : b.state ≠ .constructed := by intro h; rw [h] at hg; exact hg rfl
      have hbo := hm.bus b (by rw [hb]; simp) hne
      have hbtu := hbo.btu
      refine ⟨_, fragments_isFragmentation (by omega) (by omega), ?_⟩
      rw [(flush_fifo hst).1, hver]

/-- **C18** (success) In every reachable state in which the bus has been enabled and the tag is at most 7
the transmission is accepted: the return value is 0. -/
theorem C18_accepts {ops : Ops β} (hk : KeepsPacket ops) (K : Contract ops) {eid : Byte}
    {mem : Mem} {c0 c : Core β} {b0 b : Bus β} (hreg : Registered ops eid mem c0) (hcl : Clean mem)
    (hsz : SizesOk K c0) (hb0 : c0.busses = [b0]) {hist : List (Op β)} {log : List (Rec β)}
    (hok : HistOk K c0 hist) (hrun : c0.run ops hist = .ok (c, log)) (hb : c.busses = [b])
    (hst : b.state ≠ .constructed) {dest tag : Byte} (htag : tag.toNat ≤ 7) (own : Bool)
    (msg : List Byte) : ∃ c' e, c.step ops (.send dest own tag msg) = .ok (c', e, 0) := by
  obtain ⟨c1, log1, s1, h1, h2, h3, _, hm⟩ :=
    run_tx hk K (hreg.memInv hcl hsz) hreg.epInv.noBridge (hreg.txInv hb0) hok
  rw [hrun] at h1
  simp only [Except.ok.injEq, Prod.mk.injEq] at h1
  obtain ⟨rfl, rfl⟩ := h1
  obtain ⟨c', e, rc, hs, _⟩ := step_total K hm (op := .send dest own tag msg) trivial
  obtain ⟨b1, b', h1, h2, _, hbr, heid, hver, htst⟩ := reached hk K hreg hcl hsz hb0 hok hrun hs
  rw [hb] at h1
  simp only [List.cons.injEq, and_true] at h1
  subst h1
  unfold txStep at htst
  simp only at htst
  rw [if_neg (by omega), if_neg (by cases hh : b.state <;> simp_all [gateOf])] at htst
  split at htst
  · rename_i h0; rw [h0] at hs; exact ⟨c', e, hs⟩
  · cases htst

/-- **C21** (partial) see `C18_fragmentation`: success means that all packets of the message were taken
or are queued, for a core with a registered bus. -/
theorem C21_success_accepted_partial {ops : Ops β} (hk : KeepsPacket ops) (K : Contract ops)
    {eid : Byte} {mem : Mem} {c0 c c' : Core β} {b0 : Bus β} (hreg : Registered ops eid mem c0)
    (hcl : Clean mem) (hsz : SizesOk K c0) (hb0 : c0.busses = [b0]) {hist : List (Op β)}
    {log : List (Rec β)} (hok : HistOk K c0 hist) (hrun : c0.run ops hist = .ok (c, log))
    {dest tag : Byte} {own : Bool} {msg : List Byte} {e : List Event}
    (hs : c.step ops (.send dest own tag msg) = .ok (c', e, 0)) :
    ∃ ps, (((offers 0 e).filter Offer.consumed).map Offer.pkt ++ pending c' = pending c ++ ps) ∧
      (ps.flatMap fun p => p.drop 4) = msg := by
  obtain ⟨b, b', h1, -⟩ := reached hk K hreg hcl hsz hb0 hok hrun hs
  obtain ⟨ps, hp, hq⟩ := C18_fragmentation hk K hreg hcl hsz hb0 hok hrun h1 hs
  exact ⟨ps, hq, hp.content⟩

/-- **C21** is false for a core without a bus: `mctp_message_tx` returns 0 for every valid tag and every
message although the message goes nowhere (no event, no state change). -/
theorem C21_no_bus_reports_success {ops : Ops β} {mem : Mem} {fill : Nat → Byte} {c : Core β}
    (h : Core.init β mem fill = some c) {dest tag : Byte} (htag : tag.toNat ≤ 7) (own : Bool)
    (msg : List Byte) : c.step ops (.send dest own tag msg) = .ok (c, [], 0) := by
  obtain ⟨id, m, ha, rfl⟩ := init_ok h
  have : ¬ (tag &&& 0x7 ≠ tag) := not_not.mpr (tag_small_iff.mpr (by omega))
  simp only [Core.step, Core.messageTx]
  rw [if_neg this, if_pos (by trivial)]

example : ∃ c, Core.init Unit {} (fun _ => 0) = some c := ⟨_, rfl⟩

/-- **C20** In every reachable state: transmitting with a tag above 7 returns -EINVAL, and transmitting
on a bus that was never enabled returns -ENXIO; nothing is queued, offered, captured or changed. -/
theorem C20_invalid_refused {ops : Ops β} {eid : Byte} {mem : Mem} {c0 c : Core β}
    (K : Contract ops) (hreg : Registered ops eid mem c0) (hcl : Clean mem) (hsz : SizesOk K c0)
    {hist : List (Op β)} {log : List (Rec β)} (hok : HistOk K c0 hist)
    (hrun : c0.run ops hist = .ok (c, log)) (dest tag : Byte) (own : Bool) (msg : List Byte) :
    (7 < tag.toNat → c.step ops (.send dest own tag msg) = .ok (c, [], -22)) ∧
    (tag.toNat ≤ 7 → (∀ b ∈ c.busses, b.state = .constructed) →
      c.step ops (.send dest own tag msg) = .ok (c, [], -6)) := by
  constructor
  · intro ht
    have : tag &&& 0x7 ≠ tag := fun h => by have := tag_small_iff.mp h; omega
    simp only [Core.step, Core.messageTx]
    rw [if_pos this]; rfl
  · intro ht hc
    obtain ⟨c1, log1, h1, hm⟩ := run_total K (hreg.memInv hcl hsz) hok
    rw [hrun] at h1
    simp only [Except.ok.injEq, Prod.mk.injEq] at h1
    obtain ⟨rfl, rfl⟩ := h1
    have hn : ¬ (tag &&& 0x7 ≠ tag) := not_not.mpr (tag_small_iff.mpr (by omega))
    obtain ⟨b, hb, _, hmem⟩ := hm.busAt hm.pos
    simp only [Core.step, Core.messageTx, Core.messageTxOnBus]
    rw [if_neg hn, if_neg (by have := hm.pos; omega), hb]
    simp only [Res.bind_ok]
    rw [if_pos (hc b hmem)]; rfl

/-- The hypotheses are met: a binding without a start function is never enabled. -/
example : (match Core.registerBus { start := none, tx := Demo.ops.tx }
      { Demo.core with nBusses := 0, busses := [], bussesPtr := none, mem := { next := 1, live := [0] } }
      Demo.binding 8 with
    | .ok (c, rc) => (decide (∀ b ∈ c.busses, b.state = .constructed), c.busses.length, rc)
    | .error _ => (false, 0, 0)) = (true, 1, 0) := by decide +kernel

/-! ## C19: round trip -/

/-- Packets that all fit are received without precondition failures. -/
theorem histOk_recvs {ops : Ops β} {K : Contract ops} {b : Bus β} : ∀ {ps : List (List Byte)} {c : Core β} {evs : List Event}
    {eid : Byte}, EpInv eid evs c → c.busses = [b] →
    (∀ p ∈ ps, p.length ≤ b.binding.pktSize + b.binding.pktTrailer) →
    HistOk K c (ps.map (.recv 0)) := by
  intro ps
  induction ps with
  | nil => intros; trivial
  | cons p ps ih =>
    intro c evs eid hi hb hf
    refine ⟨⟨b, by rw [hb]; rfl, hf p (by simp)⟩, ?_⟩
    intro c' e rc hs
    have hi' := step_epInv hi hs
    refine ih hi' ?_ (fun q hq => hf q (by simp [hq]))
    simp only [Core.step] at hs
    obtain ⟨⟨c1, e1⟩, hr, h⟩ := Res.bind_eq_ok.mp hs
    simp only [Except.ok.injEq, Prod.mk.injEq] at h
    obtain ⟨rfl, rfl, rfl⟩ := h
    rw [(rxPacket_noTx hi.noBridge hi.eids hr).1, hb]

theorem filter_singleton_of {e : List Event} {ev : Event} {x : Byte × List Byte}
    (h1 : ev ∈ e) (h2 : delivered ev = some x) (h3 : deliveries e = [x]) :
    e.filter (fun ev => (delivered ev).isSome) = [ev] := by
  induction e with
  | nil => cases h1
  | cons y e ih =>
    rw [deliveries, List.filterMap_cons] at h3
    rcases List.mem_cons.mp h1 with rfl | h1
    · rw [h2] at h3
      simp only [List.cons.injEq, true_and] at h3
      rw [List.filter_cons, if_pos (by rw [h2]; rfl)]
      congr 1
      rw [List.filter_eq_nil_iff]
      intro z hz
      have := List.filterMap_eq_nil_iff.mp h3 z hz
      simp [this]
    · cases hy : delivered y with
      | none =>
        rw [hy] at h3
        rw [List.filter_cons, if_neg (by simp [hy])]
        exact ih h1 h3
      | some z =>
        rw [hy] at h3
        simp only [List.cons.injEq] at h3
        have := List.filterMap_eq_nil_iff.mp h3.2 ev h1
        rw [h2] at this; cases this

/-- The deliveries of a run, as callback invocations. -/
theorem deliveries_evs {ops : Ops β} {eid : Byte} {ms : List (List Byte)} :
    ∀ {hist : List (Op β)} {c c' : Core β} {evs : List Event} {log : List (Rec β)} {bus : Bus β}, EpInv eid evs c →
    (∀ op ∈ hist, ∃ i p, op = .recv i p) → c.busses = [bus] →
    c.run ops hist = .ok (c', log) →
    (∀ r ∈ log, ∀ x ∈ deliveries r.evs, x.2 ∈ ms) →
    (∀ m ∈ ms, ¬ (IsTransportRequest m ∧ bus.binding.controlRx = true)) →
    (events log).filter (fun ev => (delivered ev).isSome) = (rxTrace log).flatMap evOf := by
  intro hist
  induction hist with
  | nil =>
    intro c c' evs log bus _ _ _ h _ _
    simp only [Core.run, Except.ok.injEq, Prod.mk.injEq] at h
    obtain ⟨rfl, rfl⟩ := h
    rfl
  | cons op rest ih =>
    intro c c' evs log bus hi hrecv hb h hm1 hm2
    simp only [Core.run] at h
    obtain ⟨⟨c1, e, rc⟩, hs, h⟩ := Res.bind_eq_ok.mp h
    obtain ⟨⟨c2, log2⟩, hr, h⟩ := Res.bind_eq_ok.mp h
    simp only [Except.ok.injEq, Prod.mk.injEq] at h
    obtain ⟨rfl, rfl⟩ := h
    obtain ⟨i, p, rfl⟩ := hrecv op (by simp)
    have hi' := step_epInv hi hs
    have hb' : c1.busses = [bus] := by
      have hs' := hs
      simp only [Core.step] at hs'
      obtain ⟨⟨c3, e3⟩, hr3, h3⟩ := Res.bind_eq_ok.mp hs'
      simp only [Except.ok.injEq, Prod.mk.injEq] at h3
      obtain ⟨rfl, rfl, rfl⟩ := h3
      rw [(rxPacket_noTx hi.noBridge hi.eids hr3).1, hb]
    have ih' := ih hi' (fun o ho => hrecv o (by simp [ho])) hb' hr
      (fun r hr => hm1 r (by simp [hr])) hm2
    have htr : rxTrace (⟨.recv i p, e, rc⟩ :: log2) = (p, deliveries e) :: rxTrace log2 := rfl
    rw [htr, List.flatMap_cons, ← ih']
    have heq : events (⟨.recv i p, e, rc⟩ :: log2) = e ++ events log2 := rfl
    rw [heq, List.filter_append]
    congr 1
    -- one record
    by_cases hd : ∃ ev ∈ e, ∃ x, delivered ev = some x
    · obtain ⟨ev, hev, ⟨s, m⟩, hx⟩ := hd
      obtain ⟨bs, f, h1, h2, h3, h4, h5, h6, h7⟩ := delivery_sound hi hs hev hx
      simp only [Op.recv.injEq] at h1
      obtain ⟨rfl, rfl⟩ := h1
      rw [filter_singleton_of hev hx h5, h5]
      have hdis := (dispatch_core hi hb hs hev hx).1
      have hmm : m ∈ ms := hm1 ⟨.recv 0 p, e, rc⟩ (by simp) (s, m) (by rw [h5]; simp)
      rcases h6 with rfl | ⟨o, g, rfl⟩
      · simp [evOf, h2, h4]
      · subst h4
        exact absurd (hdis.mp ⟨o, g, rfl⟩) (hm2 m hmm)
    · have hnone : ∀ ev ∈ e, delivered ev = none := by
        intro ev hev
        cases h : delivered ev with
        | none => rfl
        | some x => exact absurd ⟨ev, hev, x, h⟩ hd
      have h1 : deliveries e = [] := List.filterMap_eq_nil_iff.mpr hnone
      rw [h1, List.filter_eq_nil_iff.mpr (by intro ev hev; simp [hnone ev hev])]
      unfold evOf
      split <;> rfl

/-- **C19** (receiving side) The packets of any list of messages, received back to back by an endpoint in
any state with a free reassembly context, make it deliver exactly these (non-empty) messages, once each
and in order, with the sender's EID, tag owner and tag. -/
theorem C19_receive_messages {ops : Ops β} (K : Contract ops) {eid : Byte} {mx : Nat} {mem : Mem}
    {c0 : Core β} (hc : Configured ops eid mx mem c0) (hcl : Clean mem) (hsz : SizesOk K c0)
    {b : Bus β} (hb : c0.busses = [b])
    (hmx1 : 4096 ≤ mx) (hmx2 : mx < 2 ^ 64) {ver src : Byte} (hsrc : src ≠ 0) {ms : List Msg}
    (hms : ∀ m ∈ ms, 0 < m.mtu ∧ m.mtu + 4 ≤ b.binding.pktSize + b.binding.pktTrailer ∧ m.tag.toNat ≤ 7 ∧
      Local eid m.dest ∧ 2 * m.data.length ≤ mx ∧ ¬ (IsTransportRequest m.data ∧ b.binding.controlRx = true)) :
    ∃ c log, c0.run ops ((ms.flatMap (Msg.packets ver src)).map (.recv 0)) = .ok (c, log) ∧
      (events log).filter (fun ev => (delivered ev).isSome) =
        (ms.filter (fun m => m.data ≠ [])).map (fun m => .rxMsg src m.own m.tag m.data) := by
  have hfit : ∀ p ∈ ms.flatMap (Msg.packets ver src), p.length ≤ b.binding.pktSize + b.binding.pktTrailer := by
    intro p hp
    obtain ⟨m, hm, hp⟩ := List.mem_flatMap.mp hp
    obtain ⟨h1, h2, h3, _⟩ := hms m hm
    have hfr := fragments_isFragmentation (ver := ver) (src := src) (dest := m.dest) (own := m.own)
      (tag := m.tag) (msg := m.data) h1 (by omega)
    obtain ⟨i, hi⟩ := List.mem_iff_getElem?.mp hp
    obtain ⟨f, hf, _, _, _, _, _, _, _, _, _, _, hle⟩ := hfr.packets i p hi
    have : p.length = f.payload.length + 4 := by
      obtain ⟨v, d, s, g, rfl, _⟩ := parse_some hf
      simp
    omega
  have hok := histOk_recvs (K := K) hc.epInv hb hfit
  have hst : Steady ((ms.flatMap (Msg.packets ver src)).map (Op.recv (β := β) 0)) := by
    intro op hop
    obtain ⟨p, _, rfl⟩ := List.mem_map.mp hop
    constructor
    · intro n h; cases h
    · intro n h; cases h
  obtain ⟨c, log, h1, h2, h3, h4, h5⟩ := run_ref K (Pol.loose hmx2)
    (hc.refInv hcl hsz (Pol.loose hmx2)) hok (hst.pktP fun _ _ _ => trivial)
  rw [hc.flags.2.2, abs_init] at h3
  refine ⟨c, log, h1, ?_⟩
  have htr : (rxTrace log).map (·.1) = ms.flatMap (Msg.packets ver src) := by
    have : ∀ (log : List (Rec β)) (l : List (List Byte)), log.map (·.op) = l.map (Op.recv (β := β) 0) →
        (rxTrace log).map (·.1) = l := by
      intro log
      induction log with
      | nil => intro l h; simp at h; subst h; rfl
      | cons r log ih =>
        intro l h
        cases l with
        | nil => simp at h
        | cons p l =>
          simp only [List.map_cons, List.cons.injEq] at h
          have := ih l h.2
          simp only [rxTrace, List.filterMap_cons, h.1, List.map_cons] at this ⊢
          rw [this]
    exact this log _ h4
  obtain ⟨q1, q2, q3⟩ := reasm_many hsrc (fun m hm => by
    obtain ⟨g1, g2, g3, g4, g5, g6⟩ := hms m hm
    exact ⟨g1, by omega, g4, fun n b hn hl => hl.2 hmx1 (by omega)⟩) h3 htr (by
      rintro ⟨ks, _, hlen, hks⟩
      cases ks with
      | nil => simp at hlen
      | cons k ks => exact hks k (by simp) rfl)
  rw [← q1]
  refine deliveries_evs (ms := ms.map (·.data)) hc.epInv ?_ hb h1 ?_ ?_
  · intro op hop
    obtain ⟨p, _, rfl⟩ := List.mem_map.mp hop
    exact ⟨0, p, rfl⟩
  · intro r hr x hx
    have hx' : x ∈ (rxTrace log).flatMap (·.2) := by
      obtain ⟨p, hp⟩ : ∃ p, r.op = .recv 0 p := by
        have : r.op ∈ log.map (·.op) := List.mem_map.mpr ⟨r, hr, rfl⟩
        rw [h4] at this
        obtain ⟨p, _, h⟩ := List.mem_map.mp this
        exact ⟨p, h.symm⟩
      refine List.mem_flatMap.mpr ⟨(p, deliveries r.evs), List.mem_filterMap.mpr ⟨r, hr, by rw [hp]⟩, hx⟩
    rw [q2] at hx'
    obtain ⟨m, hm, rfl⟩ := List.mem_map.mp hx'
    exact List.mem_map.mpr ⟨m, (List.mem_filter.mp hm).1, rfl⟩
  · intro d hd
    obtain ⟨m, hm, rfl⟩ := List.mem_map.mp hd
    exact (hms m hm).2.2.2.2.2

/-- **C19** (round trip) Endpoint A (any history of calls, any binding that keeps refused packets) whose
binding in the end took every packet; endpoint B receives these packets in order. Then B's user gets
exactly the messages whose transmission A accepted, in order, each once, with A's EID, the tag owner and
the tag. -/
theorem C19_round_trip {α : Type} {opsA : Ops α} (hkA : KeepsPacket opsA) (KA : Contract opsA)
    {eidA : Byte} {memA : Mem} {a0 : Core α} {ba : Bus α} (hregA : Registered opsA eidA memA a0)
    (hclA : Clean memA) (hszA : SizesOk KA a0) (hba : a0.busses = [ba]) {histA : List (Op α)}
    (hokA : HistOk KA a0 histA)
    {opsB : Ops β} (KB : Contract opsB) {eidB : Byte} {mx : Nat} {memB : Mem}
    {b0 : Core β} (hcB : Configured opsB eidB mx memB b0) (hclB : Clean memB) (hszB : SizesOk KB b0)
    {bb : Bus β} (hbb : b0.busses = [bb]) (hmx1 : 4096 ≤ mx) (hmx2 : mx < 2 ^ 64)
    (hsrc : eidA ≠ 0) :
    ∃ a logA, a0.run opsA histA = .ok (a, logA) ∧ (pending a = [] →
      (∀ m ∈ accepted ba.binding.pktSize logA, 0 < m.mtu ∧
        m.mtu + 4 ≤ bb.binding.pktSize + bb.binding.pktTrailer ∧ m.tag.toNat ≤ 7 ∧
        Local eidB m.dest ∧ 2 * m.data.length ≤ mx ∧
        ¬ (IsTransportRequest m.data ∧ bb.binding.controlRx = true)) →
      ∃ b logB, b0.run opsB ((consumed logA).map (.recv 0)) = .ok (b, logB) ∧
        (events logB).filter (fun ev => (delivered ev).isSome) =
          ((accepted ba.binding.pktSize logA).filter (fun m => m.data ≠ [])).map
            (fun m => .rxMsg eidA m.own m.tag m.data)) := by
  obtain ⟨a, logA, h1, h2, h3⟩ := C22_fifo hkA KA hregA hclA hszA hba hokA
  refine ⟨a, logA, h1, fun hp hm => ?_⟩
  rw [hp, List.append_nil] at h3
  rw [h3]
  exact C19_receive_messages KB hcB hclB hszB hbb hmx1 hmx2 hsrc hm

/-- A concrete round trip: a 100-byte message (two packets) and a one-byte message. -/
example :
    let hist : List (Op Unit) := [.send 8 true 3 (List.replicate 100 7), .send 8 false 1 [5]]
    HistOk Demo.K { Demo.core with hasRx := false } hist ∧
    (match Core.run Demo.ops { Demo.core with hasRx := false } hist with
     | .ok (c, log) => (pending c, accepted 68 log)
     | .error _ => ([], [])) =
      ([], [⟨8, true, 3, 64, List.replicate 100 7⟩, ⟨8, false, 1, 64, [5]⟩]) :=
  ⟨Demo.histOk (by decide +kernel), by decide +kernel⟩

end Mctp
