import Verif.Proofs.Bridge
import Verif.Proofs.Capture
import Verif.Proofs.RoundTrip
import Verif.Props.Tx

/-!
# C25, C26, C27: packet capture and bridging
-/

namespace Mctp

open Spec

variable {β : Type}

/-! ## C25 -/

/-- **C25** In every history, on any core (endpoint or bridge) that has no capture handler at first: the
events of each call are exactly its other events with the required capture events inserted, if a handler
is set at that moment, and contain no capture event otherwise.  A call that receives a packet starts with
the arrival of that packet. -/
theorem C25_capture_complete {ops : Ops β} {c0 c : Core β} (h0 : c0.hasCapture = false)
    {hist : List (Op β)} {pre post : List (Rec β)} {r : Rec β}
    (hrun : c0.run ops hist = .ok (c, pre ++ r :: post)) :
    (if captureSet false (pre.map (·.op)) then r.evs = withCapture (uncaptured r.evs)
     else r.evs = uncaptured r.evs) ∧
    (∀ i bs, r.op = .recv i bs → r.evs ≠ [] → received r.evs = [(i, bs)]) ∧
    ((∀ i bs, r.op ≠ .recv i bs) → received r.evs = []) := by
  obtain ⟨c1, c2, h1, h2, rfl, g1, g2, g3⟩ := run_split hrun
  have hc := run_capture g1
  have hops : ∀ {hist : List (Op β)} {c c' : Core β} {log : List (Rec β)},
      c.run ops hist = .ok (c', log) → log.map (·.op) = hist := by
    intro hist
    induction hist with
    | nil => intro c c' log h; simp only [Core.run, Except.ok.injEq, Prod.mk.injEq] at h; rw [← h.2]; rfl
    | cons op rest ih =>
      intro c c' log h
      simp only [Core.run] at h
      obtain ⟨⟨c1, e, rc⟩, hs, h⟩ := Res.bind_eq_ok.mp h
      obtain ⟨⟨c2, log2⟩, hr, h⟩ := Res.bind_eq_ok.mp h
      simp only [Except.ok.injEq, Prod.mk.injEq] at h
      rw [← h.2, List.map_cons, ih hr]
  rw [hops g1, ← h0, ← hc]
  obtain ⟨k1, k2, k3⟩ := step_captured g2
  refine ⟨?_, ?_, k3⟩
  · unfold Captured at k1
    split
    · rename_i hcap; rw [if_pos hcap] at k1; exact k1
    · rename_i hcap; rw [if_neg hcap] at k1; exact k1
  · intro i bs hop hne
    rw [hop] at g2
    simp only [Core.step] at g2
    obtain ⟨⟨c3, e3⟩, hr, g2⟩ := Res.bind_eq_ok.mp g2
    simp only [Except.ok.injEq, Prod.mk.injEq] at g2
    obtain ⟨-, g2, -⟩ := g2
    rw [g2] at hr
    rcases (rxPacket_captured hr).2.2 with h | h
    · exact h
    · exact absurd h.1 hne

/-- **C25** While allocations succeed and the packet fits the binding's buffer, no received packet is
missed: the call's events do contain its arrival. -/
theorem C25_every_packet_arrives {ops : Ops β} {c c' : Core β} {e : List Event} {rc : Int} {i : Nat}
    {bs : List Byte} {bus : Bus β} (hok : AllOk c.mem) (hbus : c.busAt i = .ok bus)
    (hfit : bs.length ≤ bus.binding.pktSize + bus.binding.pktTrailer)
    (hs : c.step ops (.recv i bs) = .ok (c', e, rc)) : received e = [(i, bs)] := by
  simp only [Core.step] at hs
  obtain ⟨⟨c3, e3⟩, hr, hs⟩ := Res.bind_eq_ok.mp hs
  simp only [Except.ok.injEq, Prod.mk.injEq] at hs
  obtain ⟨-, rfl, -⟩ := hs
  rcases (rxPacket_captured hr).2.2 with h | ⟨-, b, hb, h⟩
  · exact h
  · rw [hbus] at hb
    simp only [Except.ok.injEq] at hb
    subst hb
    rcases h with h | h
    · simp [Mem.alloc, hok c.mem.next] at h
    · omega

/-- C25 on a concrete history: handler set; a packet for somebody else, a runt, a delivered packet and a
transmission; handler removed. -/
example :
    Demo.run Demo.core [.setCapture true, .recv 0 (Demo.pkt 9 77 0xc8 [5]), .recv 0 (Demo.pkt 9 8 0xc8 []),
        .recv 0 (Demo.pkt 9 8 0xc8 [5]), .send 9 true 1 [7], .setCapture false, .recv 0 (Demo.pkt 9 8 0xc8 [6])] =
      some [.recv 0 (Demo.pkt 9 77 0xc8 [5]), .capture false (Demo.pkt 9 77 0xc8 [5]),
        .recv 0 (Demo.pkt 9 8 0xc8 []),
        .recv 0 (Demo.pkt 9 8 0xc8 [5]), .capture false (Demo.pkt 9 8 0xc8 [5]), .rxMsg 9 true 0 [5],
        .capture true (Demo.pkt 8 9 0xc9 [7]), .tx 0 (Demo.pkt 8 9 0xc9 [7]) 0 false,
        .recv 0 (Demo.pkt 9 8 0xc8 [6]), .rxMsg 9 true 0 [6]] := by decide +kernel

/-! ## C26 -/

/-- The packets queued on bus `j`. -/
def pendingOn (c : Core β) (j : Nat) : List (List Byte) :=
  match c.busses[j]? with
  | some b => b.queue.map Pktbuf.bytes
  | none => []

/-- The packets the binding of bus `j` consumed. -/
def consumedOn (j : Nat) (evs : List Event) : List (List Byte) :=
  ((offers j evs).filter Offer.consumed).map Offer.pkt

/-- The calls allowed between the packets: everything but changing the size limit (and the receive
callback, which a bridge does not use). -/
def Calm (hist : List (Op β)) : Prop := ∀ op ∈ hist, (∀ n, op ≠ .setMax n) ∧ ∀ b, op ≠ .setRx b

theorem Calm.pktP {hist : List (Op β)} (h : Calm hist) : ∀ op ∈ hist, PktP (fun _ => True) op := by
  intro op ho
  have := h op ho
  cases op with
  | setMax n => exact absurd rfl (this.1 n)
  | setRx b => exact absurd rfl (this.2 b)
  | _ => trivial

/-- **C26** (refinement) Every history of a bridge is a run of the ideal bridge of `Spec/Bridge.lean`. -/
theorem C26_ideal_bridge {ops : Ops β} (hk : KeepsPacket ops) (K : Contract ops) {mx : Nat}
    (hmx : mx < 2 ^ 64) {mem : Mem} {c0 : Core β} (hbr : Bridged ops mx mem c0) (hcl : Clean mem)
    (hsz : SizesOk K c0) {b1 b2 : Bus β} (hb : c0.busses = [b1, b2]) {hist : List (Op β)}
    (hok : HistOk K c0 hist) (hcalm : Calm hist) :
    ∃ c log outs, c0.run ops hist = .ok (c, log) ∧ log.map (·.op) = hist ∧ outs.length = log.length ∧
      BridgeRun (loose mx) (fun i => if i = 0 then b1.binding.version else b2.binding.version)
        ⟨State.empty, fun i => if i = 0 then ⟨gateOf b1.state, [], b1.binding.pktSize⟩
          else if i = 1 then ⟨gateOf b2.state, [], b2.binding.pktSize⟩ else ⟨.never, [], 0⟩⟩
        (log.zip outs) (absBridge c) ∧
      ∀ j, j < 2 → (absBridge c).tx j =
        ⟨match c.busses[j]? with | some b => gateOf b.state | none => .never, pendingOn c j,
         match c.busses[j]? with | some b => b.binding.pktSize | none => 0⟩ := by
  obtain ⟨hI, ha, hq1, hq2⟩ := hbr.brInv hcl hsz (Pol.loose hmx) hb
  obtain ⟨c, log, outs, h1, h2, h3, h4, h5⟩ := run_bridge hk K (Pol.loose hmx) hI hok hcalm.pktP
  refine ⟨c, log, outs, h1, h3, h4, ?_, ?_⟩
  · rw [ha] at h5
    simp only [absBus, hq1, hq2, List.map_nil] at h5
    exact h5
  · intro j hj
    simp only [absBridge, absTx, pendingOn]
    cases hc : c.busses[j]? with
    | some b => simp [absBus]
    | none => rfl

theorem transmit_fifo {ver src dest : Byte} {own : Bool} {tag : Byte} {s s' : TxState} {msg : List Byte}
    {os : List Offer} (h : transmit ver src dest own tag s msg os = some s') (hg : s.gate ≠ .never) :
    (os.filter Offer.consumed).map Offer.pkt ++ s'.queue =
      s.queue ++ fragments ver src dest own tag (s.size - 4) msg ∧ s'.size = s.size ∧ s'.gate ≠ .never := by
  unfold transmit at h
  rw [if_neg hg] at h
  obtain ⟨h1, h2⟩ := flush_fifo h
  refine ⟨h1, h2, ?_⟩
  have : ∀ (os : List Offer) (s s' : TxState), flush s os = some s' → s.gate ≠ .never → s'.gate ≠ .never := by
    intro os
    induction os with
    | nil =>
      intro s s' h hg
      simp only [flush] at h
      split at h
      · cases h
      · simp only [Option.some.injEq] at h; subst h; exact hg
    | cons o os ih =>
      intro s s' h hg
      unfold flush at h
      split at h
      · split at h
        · simp only at h
          split at h
          · refine ih _ _ h ?_
            simp only; split <;> simp
          · split at h
            · simp only [Option.some.injEq] at h; subst h
              simp only; split <;> simp
            · cases h
        · cases h
      · cases h
  exact this os _ _ h hg

theorem bridgePkt_step {lim : Nat → Bool → Prop} {ver : Nat → Byte} {s s' : BridgeState} {i : Nat}
    {p : List Byte} {os : Nat → List Offer} {out : Option (Frag × List Byte)} {eid : Byte}
    (h : BridgePkt lim ver s i p os s' out) (hd : ∀ f, parse p = some f → Local eid f.dest) :
    PktStep lim eid s.asm p s'.asm (out.map fun o => (o.1.src, o.2)).toList := by
  unfold BridgePkt at h
  unfold PktStep
  cases hf : parse p with
  | none => rw [hf] at h; obtain ⟨rfl, rfl, -⟩ := h; exact ⟨rfl, rfl⟩
  | some f =>
    rw [hf] at h
    obtain ⟨h1, -⟩ := h
    simp only
    rw [if_neg (by simpa using hd f hf)]
    split at h1
    · rename_i hs
      obtain ⟨q1, rfl⟩ := h1
      rw [if_pos hs]
      exact ⟨q1, rfl⟩
    · rename_i hs
      rw [if_neg hs]
      split at h1
      · rename_i hz; rw [if_pos hz]; exact h1.1
      · rename_i hz
        rw [if_neg hz]
        obtain ⟨m, q1, rfl⟩ := h1
        refine ⟨m, q1, ?_⟩
        cases m <;> rfl

/-- A bridge receiving packets on bus `i`, all with this destination, tag owner and tag: reassembly and
the transmitter of the other bus. -/
theorem bridge_packets {lim : Nat → Bool → Prop} {ver : Nat → Byte} {i : Nat} {src dest : Byte} {own : Bool}
    {tag : Byte} : ∀ {log : List (Rec β × Option (Frag × List Byte))} {s s' : BridgeState}
    (_ : BridgeRun lim ver s log s') (ps : List (List Byte))
    (_ : log.map (·.1.op) = ps.map (.recv i))
    (_ : ∀ p ∈ ps, ∃ f, parse p = some f ∧ f.src = src ∧ f.dest = dest ∧ f.tagOwner = own ∧ f.tag = tag.toNat)
    (_ : (s.tx (1 - i)).gate ≠ .never),
    ∃ tr : List (List Byte × List (Byte × List Byte)), tr.map (·.1) = ps ∧
      Reasm lim dest s.asm tr s'.asm ∧
      consumedOn (1 - i) (log.flatMap (·.1.evs)) ++ (s'.tx (1 - i)).queue =
        (s.tx (1 - i)).queue ++ (tr.flatMap (·.2)).flatMap (fun o =>
          fragments (ver (1 - i)) src dest own tag ((s.tx (1 - i)).size - 4) o.2) ∧
      s'.tx i = s.tx i ∧ offers i (log.flatMap (·.1.evs)) = [] ∧ deliveries (log.flatMap (·.1.evs)) = [] := by
  intro log
  induction log with
  | nil =>
    intro s s' hr ps hps _ _
    cases ps with
    | cons => simp at hps
    | nil => subst hr; exact ⟨[], rfl, rfl, by simp [consumedOn, offers], rfl, rfl, rfl⟩
  | cons x log ih =>
    obtain ⟨r, out⟩ := x
    intro s s' hr ps hps hh hg
    obtain ⟨s1, hst, hr⟩ := hr
    cases ps with
    | nil => simp at hps
    | cons p ps =>
      simp only [List.map_cons, List.cons.injEq] at hps
      obtain ⟨hop, hps⟩ := hps
      obtain ⟨f, hf, f1, f2, f3, f4⟩ := hh p (by simp)
      obtain ⟨hdel, hst⟩ := hst
      rw [hop] at hst
      obtain ⟨hi2, hst⟩ := hst
      have hpk := bridgePkt_step (eid := dest) hst (by
        intro g hg; rw [hf] at hg; cases hg; exact .inl f2)
      have hst' := hst
      unfold BridgePkt at hst'
      rw [hf] at hst'
      simp only at hst'
      obtain ⟨q1, q2, q3, q4⟩ := hst'
      have hcur : consumedOn (1 - i) r.evs ++ (s1.tx (1 - i)).queue =
          (s.tx (1 - i)).queue ++ ((out.map fun o => (o.1.src, o.2)).toList).flatMap (fun o =>
            fragments (ver (1 - i)) src dest own tag ((s.tx (1 - i)).size - 4) o.2) ∧
          (s1.tx (1 - i)).size = (s.tx (1 - i)).size ∧ (s1.tx (1 - i)).gate ≠ .never := by
        cases out with
        | none =>
          simp only at q4
          rw [consumedOn, q4.2, q4.1]
          simp [hg]
        | some o =>
          simp only at q4
          rw [f1, f2, f3, f4] at q4
          have ht : BitVec.ofNat 8 tag.toNat = tag := by simp
          rw [ht] at q4
          obtain ⟨t1, t2, t3⟩ := transmit_fifo q4 hg
          refine ⟨?_, t2, t3⟩
          simpa [consumedOn] using t1
      obtain ⟨tr, t1, t2, t3, t4, t5, t6⟩ := ih hr ps hps (fun p hp => hh p (by simp [hp])) hcur.2.2
      have happ : ∀ (j : Nat) (a b : List Event), offers j (a ++ b) = offers j a ++ offers j b := by
        intro j a b; simp [offers, List.filterMap_append]
      refine ⟨(p, _) :: tr, by simp [t1], ⟨s1.asm, hpk, t2⟩, ?_, t4.trans q2, ?_, ?_⟩
      · have hcat : consumedOn (1 - i) (((r, out) :: log).flatMap (·.1.evs)) =
            consumedOn (1 - i) r.evs ++ consumedOn (1 - i) (log.flatMap (·.1.evs)) := by
          simp [consumedOn, happ]
        rw [hcat, List.append_assoc, t3, ← List.append_assoc, hcur.1, hcur.2.1]
        simp [List.flatMap_append]
      · rw [List.flatMap_cons, happ, q3, t5]; rfl
      · rw [List.flatMap_cons, deliveries_append, hdel, t6]; rfl

/-- The streams of the start packets (of multi-packet messages) in a history. -/
def starts (hist : List (Op β)) : List Key :=
  hist.filterMap fun op => match op with
    | .recv _ p => (parse p).bind fun f => if f.som && !f.eom then some f.key else none
    | _ => none

/-- Only start packets open a stream. -/
theorem bridge_opened {lim : Nat → Bool → Prop} {ver : Nat → Byte} :
    ∀ {log : List (Rec β × Option (Frag × List Byte))} {s s' : BridgeState},
    BridgeRun lim ver s log s' → ∀ k, s'.asm k ≠ none → s.asm k ≠ none ∨ k ∈ starts (log.map (·.1.op)) := by
  intro log
  induction log with
  | nil => intro s s' h k hk; cases h; exact .inl hk
  | cons x log ih =>
    obtain ⟨r, out⟩ := x
    intro s s' h k hk
    obtain ⟨s1, ⟨-, hst⟩, hr⟩ := h
    have hmono : k ∈ starts (log.map (·.1.op)) → k ∈ starts (((r, out) :: log).map (·.1.op)) := by
      intro hm
      simp only [starts, List.map_cons, List.filterMap_cons] at hm ⊢
      split
      · exact hm
      · exact List.mem_cons_of_mem _ hm
    rcases ih hr k hk with h1 | h1
    · cases hop : r.op with
      | recv i p =>
        rw [hop] at hst
        obtain ⟨-, hst⟩ := hst
        unfold BridgePkt at hst
        cases hf : parse p with
        | none => rw [hf] at hst; rw [hst.1] at h1; exact .inl h1
        | some f =>
          rw [hf] at hst
          obtain ⟨q, -⟩ := hst
          split at q
          · rw [q.1] at h1; exact .inl h1
          · rename_i hsg
            split at q
            · rw [q.1] at h1; exact .inl h1
            · obtain ⟨m, ⟨room, fits, e1, e2, e3, e4⟩, -⟩ := q
              by_cases hkf : k = f.key
              · subst hkf
                by_cases hs : s.asm f.key = none
                · right
                  have hsom : f.som = true := by
                    by_contra hns
                    unfold own at e3
                    rw [if_neg hns, hs] at e3
                    simp only [Prod.mk.injEq] at e3
                    exact h1 e3.1
                  have heom : f.eom = false := by
                    simp only [Frag.single, hsom, Bool.true_and, Bool.not_eq_true] at hsg; exact hsg
                  simp [starts, hop, hf, hsom, heom]
                · exact .inl hs
              · rw [e4 k hkf] at h1; exact .inl h1
      | enable i on => rw [hop] at hst; rw [hst.2.1] at h1; exact .inl h1
      | send d o t m => rw [hop] at hst; rw [hst.2.1] at h1; exact .inl h1
      | rebind i st a b c d => rw [hop] at hst; rw [hst.2.1] at h1; exact .inl h1
      | setMax n => rw [hop] at hst; rw [hst.2.1] at h1; exact .inl h1
      | setRx n => rw [hop] at hst; rw [hst.2.1] at h1; exact .inl h1
      | setCapture n => rw [hop] at hst; rw [hst.2.1] at h1; exact .inl h1
    · exact .inr (hmono h1)

theorem run_append {ops : Ops β} {h1 h2 : List (Op β)} : ∀ {c : Core β} {c' : Core β} {log : List (Rec β)},
    c.run ops (h1 ++ h2) = .ok (c', log) → ∃ c1 l1 l2, c.run ops h1 = .ok (c1, l1) ∧
      c1.run ops h2 = .ok (c', l2) ∧ log = l1 ++ l2 := by
  induction h1 with
  | nil => intro c c' log h; exact ⟨c, [], log, rfl, h, rfl⟩
  | cons op rest ih =>
    intro c c' log h
    simp only [List.cons_append, Core.run] at h
    obtain ⟨⟨c1, e, rc⟩, hs, h⟩ := Res.bind_eq_ok.mp h
    obtain ⟨⟨c2, log2⟩, hr, h⟩ := Res.bind_eq_ok.mp h
    simp only [Except.ok.injEq, Prod.mk.injEq] at h
    obtain ⟨rfl, rfl⟩ := h
    obtain ⟨c3, l1, l2, q1, q2, rfl⟩ := ih hr
    exact ⟨c3, ⟨op, e, rc⟩ :: l1, l2, by simp only [Core.run, hs, Res.bind_ok, q1], q2, rfl⟩

theorem histOk_append {ops : Ops β} {K : Contract ops} {h1 h2 : List (Op β)} : ∀ {c : Core β}, HistOk K c (h1 ++ h2) →
    HistOk K c h1 ∧ ∀ c' log, c.run ops h1 = .ok (c', log) → HistOk K c' h2 := by
  induction h1 with
  | nil =>
    intro c h
    refine ⟨trivial, fun c' log hr => ?_⟩
    simp only [Core.run, Except.ok.injEq, Prod.mk.injEq] at hr
    rw [← hr.1]; exact h
  | cons op rest ih =>
    intro c h
    refine ⟨⟨h.1, fun c' e rc hs => (ih (h.2 c' e rc hs)).1⟩, fun c' log hr => ?_⟩
    simp only [Core.run] at hr
    obtain ⟨⟨c1, e, rc⟩, hs, hr⟩ := Res.bind_eq_ok.mp hr
    obtain ⟨⟨c2, log2⟩, hr2, hr⟩ := Res.bind_eq_ok.mp hr
    simp only [Except.ok.injEq, Prod.mk.injEq] at hr
    obtain ⟨rfl, -⟩ := hr
    exact (ih (h.2 _ _ _ hs)).2 _ _ hr2

/-- **C26** After any earlier traffic: the packets of a message (any sender, any fragment size) received
back to back on bus `i` make the bridge append to the other bus exactly the packets of the same message
(same source, destination, tag owner, tag, content), fragmented for that bus; nothing is offered to or
queued on the receiving bus, and no callback is invoked.  (`hroom`: fewer than sixteen streams started a
message before; `hmsg`: the size limit admits it, see C12.) -/
theorem C26_message_forwarded {ops : Ops β} (hk : KeepsPacket ops) (K : Contract ops) {mx : Nat}
    (hmx1 : 4096 ≤ mx) (hmx2 : mx < 2 ^ 64) {mem : Mem} {c0 : Core β} (hbr : Bridged ops mx mem c0)
    (hcl : Clean mem) (hsz : SizesOk K c0) {pre : List (Op β)} {i : Nat} (hi : i < 2)
    {ver src dest : Byte} {own : Bool} {tag : Byte} {mtu : Nat} {msg : List Byte} (hm : 0 < mtu)
    (htag : tag.toNat ≤ 7) (hsrc : src ≠ 0) (hne : msg ≠ []) (hmsg : 2 * msg.length ≤ mx)
    (hok : HistOk K c0 (pre ++ (fragments ver src dest own tag mtu msg).map (.recv i))) (hcalm : Calm pre)
    (hroom : ∀ ks : List Key, ks.Nodup → (∀ k ∈ ks, k ∈ starts pre) → ks.length < 16) :
    ∃ c1 l1, c0.run ops pre = .ok (c1, l1) ∧
    ∀ bo, c1.busses[1 - i]? = some bo → bo.state ≠ .constructed →
    ∃ c l, c1.run ops ((fragments ver src dest own tag mtu msg).map (.recv i)) = .ok (c, l) ∧
      consumedOn (1 - i) (events l) ++ pendingOn c (1 - i) =
        pendingOn c1 (1 - i) ++
          fragments bo.binding.version src dest own tag (bo.binding.pktSize - 4) msg ∧
      offers i (events l) = [] ∧ pendingOn c i = pendingOn c1 i ∧ deliveries (events l) = [] := by
  have hpol := Pol.loose hmx2
  obtain ⟨b1, b2, hb⟩ : ∃ b1 b2, c0.busses = [b1, b2] := by
    obtain ⟨fill, c, bb1, bb2, rc, hi, hr, hrc⟩ := hbr
    obtain ⟨id, m, x, y, -, rfl, -⟩ := bridgeBusses_ok hr hrc
    exact ⟨x, y, rfl⟩
  obtain ⟨hI, ha, -, -⟩ := hbr.brInv hcl hsz hpol hb
  obtain ⟨hok1, hok2⟩ := histOk_append hok
  obtain ⟨c1, l1, outs1, r1, I1, ops1, len1, br1⟩ := run_bridge hk K hpol hI hok1 hcalm.pktP
  refine ⟨c1, l1, r1, fun bo hbo hst => ?_⟩
  obtain ⟨c, l, outs, r2, I2, ops2, len2, br2⟩ := run_bridge hk K hpol I1 (hok2 _ _ r1) (by
    intro op ho
    obtain ⟨p, -, rfl⟩ := List.mem_map.mp ho
    trivial)
  refine ⟨c, l, r2, ?_⟩
  have hfst : (l.zip outs).map (·.1) = l := by
    rw [List.map_fst_zip]; omega
  have hfst1 : (l1.zip outs1).map (·.1) = l1 := by
    rw [List.map_fst_zip]; omega
  have hev : (l.zip outs).flatMap (·.1.evs) = events l := by
    rw [events, ← List.flatMap_map (f := fun x : Rec β × _ => x.1) (g := (·.evs)), hfst]
  have hgate : ((absBridge c1).tx (1 - i)).gate ≠ .never := by
    simp only [absBridge, absTx_get hbo, absBus]
    cases hs : bo.state <;> simp_all [gateOf]
  obtain ⟨tr, t1, t2, t3, t4, t5, t6⟩ := bridge_packets (src := src) (dest := dest) (own := own) (tag := tag)
    br2 (fragments ver src dest own tag mtu msg)
    (by rw [← ops2, ← hfst, List.map_map]; simp [hfst]) (by
      intro p hp
      obtain ⟨j, hj, rfl⟩ := List.mem_map.mp hp
      exact ⟨_, parse_fragment hm (by omega) (by simpa using hj), rfl, rfl, rfl, rfl⟩) hgate
  have hnf : ¬ Full (absBridge c1).asm := by
    rintro ⟨ks, k1, k2, k3⟩
    have := hroom ks k1 fun k hk => by
      rcases bridge_opened br1 k (k3 k hk) with h | h
      · rw [ha] at h; exact absurd rfl h
      · rw [show (l1.zip outs1).map (·.1.op) = pre by
          rw [← ops1]
          conv_rhs => rw [← hfst1]
          rw [List.map_map]; rfl] at h
        exact h
    omega
  obtain ⟨-, g2, -⟩ := reasm_one hm (by omega) (.inl rfl) hsrc (lim := loose mx) (by
    intro n b hn hl
    exact hl.2 hmx1 (by omega)) t2 t1 hnf
  rw [if_neg hne] at g2
  have hpend : ∀ (c : Core β) j, ((absBridge c).tx j).queue = pendingOn c j := by
    intro c j
    simp only [absBridge, absTx, pendingOn]
    cases c.busses[j]? <;> rfl
  rw [hev] at t3 t5 t6
  rw [hpend, hpend, g2] at t3
  have hv := (I1.vers _ _ hbo).1
  simp only [List.flatMap_cons, List.flatMap_nil, List.append_nil, absBridge, absTx_get hbo, absBus] at t3
  rw [hv]
  refine ⟨t3, t5, ?_, t6⟩
  rw [← hpend, ← hpend, t4]

/-- A bridge between a bus with 64-byte payloads and one with 68-byte payloads. -/
def Demo.bridge : Core Unit :=
  { mem := { next := 2, live := [1, 0] }, fill := fun _ => 0xaa, self := 0, nBusses := 2,
    bussesPtr := some 1,
    busses := [{ eid := 0, binding := Demo.binding, state := .txEnabled, queue := [] },
               { eid := 0, binding := { Demo.binding with pktSize := 72 }, state := .txEnabled, queue := [] }],
    hasRx := false, hasCapture := false, ctxs := List.replicate 16 Ctx.zero, bridge := true,
    maxSize := 65536 }

theorem Demo.bridged : Bridged Demo.ops 65536 {} Demo.bridge :=
  ⟨fun _ => 0xaa, _, Demo.binding, { Demo.binding with pktSize := 72 }, 0, rfl, rfl, by decide⟩

theorem Demo.keeps : KeepsPacket Demo.ops := by
  intro b p out h h1 _
  simp only [Demo.ops, Except.ok.injEq] at h
  subst h; exact absurd rfl h1

theorem Demo.bridge_sizes : SizesOk Demo.K Demo.bridge := by
  intro b hb
  simp only [Demo.bridge, List.mem_cons, List.not_mem_nil, or_false] at hb
  rcases hb with rfl | rfl <;> exact ⟨by decide, trivial, fun _ => trivial⟩

/-- A 130-byte message. -/
def Demo.msg130 : List Byte := (List.range 130).map (BitVec.ofNat 8)

/-- C26 on a concrete case: the hypotheses hold, and the message, received in 3 packets of at most 64
bytes on bus 0 (after a lone start packet of another stream), leaves on bus 1 in 2 packets of at most 68
bytes. -/
example :
    let pre : List (Op Unit) := [.recv 1 (Demo.pkt 7 9 0x80 [1, 2])]
    let frs : List (Op Unit) := (fragments 1 20 30 true 5 64 Demo.msg130).map (.recv 0)
    HistOk Demo.K Demo.bridge (pre ++ frs) ∧ Calm pre ∧ starts pre = [⟨7, 9, 0⟩] ∧
    (Demo.run Demo.bridge (pre ++ frs)).map (offers 1) =
      some ((fragments 1 20 30 true 5 68 Demo.msg130).map fun p => ⟨p, 0, false⟩) := by
  refine ⟨Demo.histOk (by decide +kernel), ?_, by decide +kernel, by decide +kernel⟩
  intro op ho
  simp only [List.mem_singleton] at ho
  subst ho
  exact ⟨by simp, by simp⟩

/-! ## C27: the bus a packet came from is not part of its stream -/

/-- **C27** (the property is false) A start packet received on bus 0 and an end packet received on bus 1
with the same source, destination and tag are joined into one message, which is sent out on bus 0. -/
theorem C27_busses_mixed :
    Demo.run Demo.bridge [.recv 0 (Demo.pkt 20 30 0x80 [1, 2]), .recv 1 (Demo.pkt 20 30 0x50 [3])] =
      some [.recv 0 (Demo.pkt 20 30 0x80 [1, 2]), .recv 1 (Demo.pkt 20 30 0x50 [3]),
            .tx 0 (Demo.pkt 20 30 0xc0 [1, 2, 3]) 0 false] ∧
    HistOk Demo.K Demo.bridge [.recv 0 (Demo.pkt 20 30 0x80 [1, 2]), .recv 1 (Demo.pkt 20 30 0x50 [3])] :=
  ⟨by decide +kernel, Demo.histOk (by decide +kernel)⟩

/-- The fragments of stream `k` received on bus `i`. -/
def fragsOn (i : Nat) (k : Key) (hist : List (Op β)) : List Frag :=
  hist.filterMap fun op => match op with
    | .recv j p => if j = i then fragB k p else none
    | _ => none

/-- An incomplete message is the content of the latest fragments of its stream. -/
def PartialOf (p : Option Partial) (fs : List Frag) : Prop :=
  ∀ q, p = some q → ∃ before start mids, fs = before ++ start :: mids ∧ (start.som = true ∧ start.eom = false) ∧
    (∀ m ∈ mids, m.som = false ∧ m.eom = false) ∧ (∀ m ∈ mids, m.payload.length = start.payload.length) ∧
    SeqChain start.seq mids ∧ q.lastSeq = (mids.getLast?.map (·.seq)).getD start.seq ∧
    q.data = content (start :: mids) ∧ q.fragLen = start.payload.length

theorem own_sound {room fits : Bool} {f : Frag} (hsg : f.single = false) {p : Option Partial} {fs : List Frag}
    (h : PartialOf p fs) : PartialOf (own room fits f p).1 (fs ++ [f]) ∧
      ∀ msg, (own room fits f p).2 = some msg → ∃ before start mids,
        fs ++ [f] = before ++ (start :: mids ++ [f]) ∧ IsMessage start mids f ∧
        msg = content (start :: mids ++ [f]) := by
  have hnone : PartialOf none (fs ++ [f]) := by intro q hq; cases hq
  unfold own
  split
  · rename_i hsom
    have heom : f.eom = false := by
      cases he : f.eom with
      | false => rfl
      | true => simp [Frag.single, hsom, he] at hsg
    split
    · exact ⟨hnone, by simp⟩
    · split
      · refine ⟨?_, by simp⟩
        intro q hq
        simp only [Option.some.injEq] at hq
        subst hq
        exact ⟨fs, f, [], rfl, ⟨hsom, heom⟩, by simp, by simp, trivial, rfl, by simp [content], rfl⟩
      · exact ⟨hnone, by simp⟩
  · rename_i hsom
    have hsom : f.som = false := by simpa using hsom
    cases p with
    | none => exact ⟨hnone, by simp⟩
    | some q =>
      obtain ⟨before, start, mids, hfs, hstart, hmid, hlen, hchain, hlast, hdata, hfl⟩ := h q rfl
      simp only
      by_cases hc : f.seq = (q.lastSeq + 1) % 4 ∧ fits = true ∧
         (if f.eom then f.payload.length ≤ q.fragLen else f.payload.length = q.fragLen)
      · rw [if_pos hc]
        obtain ⟨hseq, -, hlen'⟩ := hc
        have hch : SeqChain start.seq (mids ++ [f]) := by
          rw [SeqChain_append]
          exact ⟨hchain, by rw [← hlast]; exact hseq⟩
        have hcont : q.data ++ f.payload = content (start :: mids ++ [f]) := by
          rw [hdata]; simp [content]
        by_cases heom : f.eom = true
        · rw [if_pos heom] at hlen' ⊢
          refine ⟨hnone, ?_⟩
          intro msg hm
          simp only [Option.some.injEq] at hm
          subst hm
          exact ⟨before, start, mids, by rw [hfs]; simp, ⟨hstart, hmid, ⟨hsom, heom⟩, hlen, by omega, hch⟩, hcont⟩
        · rw [if_neg heom] at hlen' ⊢
          refine ⟨?_, by simp⟩
          intro q' hq'
          simp only [Option.some.injEq] at hq'
          subst hq'
          refine ⟨before, start, mids ++ [f], by rw [hfs]; simp, hstart, ?_, ?_, hch, by simp, hcont, hfl⟩
          · intro m hm
            rcases List.mem_append.mp hm with hm | hm
            · exact hmid m hm
            · simp only [List.mem_singleton] at hm; subst hm; exact ⟨hsom, by simpa using heom⟩
          · intro m hm
            rcases List.mem_append.mp hm with hm | hm
            · exact hlen m hm
            · simp only [List.mem_singleton] at hm; subst hm; omega
      · rw [if_neg hc]; exact ⟨hnone, by simp⟩

/-- Soundness of the ideal bridge. -/
theorem bridgeRun_sound {lim : Nat → Bool → Prop} {ver : Nat → Byte} {k : Key} (hs : k.src ≠ 0)
    {log : List (Rec β × Option (Frag × List Byte))} : ∀ {s s' : BridgeState} {fs : List Frag},
    BridgeRun lim ver s log s' → PartialOf (s.asm k) fs →
    ∀ pre r post i p f out msg, log = pre ++ (r, out) :: post → r.op = .recv i p → parse p = some f → f.key = k →
      f.single = false → out = some (f, msg) → ∃ before start mids,
        fs ++ opFrags k ((pre.map (·.1.op)) ++ [r.op]) = before ++ (start :: mids ++ [f]) ∧
        IsMessage start mids f ∧ msg = content (start :: mids ++ [f]) := by
  induction log with
  | nil => intro s s' fs _ _ pre r post i p f out msg h; simp at h
  | cons x log ih =>
    obtain ⟨r0, o0⟩ := x
    intro s s' fs hrun hpart pre r post i p f out msg hlog hop hf hk hsg hout
    obtain ⟨s1, ⟨-, hst⟩, hrun⟩ := hrun
    -- effect of the first call
    have hstep : PartialOf (s1.asm k) (fs ++ opFrags k [r0.op]) ∧
        ∀ i p f msg, r0.op = .recv i p → parse p = some f → f.key = k → f.single = false → o0 = some (f, msg) →
          ∃ before start mids, fs ++ opFrags k [r0.op] = before ++ (start :: mids ++ [f]) ∧
            IsMessage start mids f ∧ msg = content (start :: mids ++ [f]) := by
      cases hop0 : r0.op with
      | recv i p =>
        rw [hop0] at hst
        obtain ⟨-, hst⟩ := hst
        have hofr : opFrags k [Op.recv (β := β) i p] = (fragB k p).toList := by
          simp only [opFrags, List.filterMap_cons, List.filterMap_nil]
          cases fragB k p <;> rfl
        rw [hofr]
        unfold BridgePkt at hst
        cases hpf : parse p with
        | none =>
          rw [hpf] at hst
          have : fragB k p = none := by unfold fragB fragOf; simp [hpf]
          rw [this, hst.1]
          refine ⟨by simpa using hpart, ?_⟩
          intro i' p' f msg he hf
          simp only [Op.recv.injEq] at he
          obtain ⟨-, rfl⟩ := he
          rw [hpf] at hf; cases hf
        | some g =>
          rw [hpf] at hst
          obtain ⟨q, -⟩ := hst
          by_cases hg : g.key = k ∧ g.single = false
          · have hfb : fragB k p = some g := by
              unfold fragB fragOf; simp [hpf, hg.1, hg.2]
            have hgs : g.src ≠ 0 := by
              intro h; apply hs; rw [← hg.1]; exact h
            rw [if_neg (by simp [hg.2]), if_neg hgs] at q
            obtain ⟨m, ⟨room, fits, -, -, hown, -⟩, ho⟩ := q
            rw [hg.1] at hown
            obtain ⟨hp1, hp2⟩ := own_sound (room := room) (fits := fits) hg.2 hpart
            rw [hfb]
            simp only [Option.toList]
            refine ⟨by rw [← congrArg Prod.fst hown] at hp1; exact hp1, ?_⟩
            intro i' p' f msg he hf hfk _ ho0
            simp only [Op.recv.injEq] at he
            obtain ⟨-, rfl⟩ := he
            rw [hpf] at hf
            simp only [Option.some.injEq] at hf
            subst hf
            rw [ho] at ho0
            have hm : m = some msg := by
              cases m with
              | none => cases ho0
              | some b => simp only [Option.map_some, Option.some.injEq, Prod.mk.injEq, true_and] at ho0; rw [ho0]
            exact hp2 msg (by rw [← congrArg Prod.snd hown]; exact hm)
          · have hfb : fragB k p = none := by
              unfold fragB fragOf; simp only [hpf]; rw [if_neg hg]
            rw [hfb]
            refine ⟨?_, ?_⟩
            · have : s1.asm k = s.asm k := by
                split at q
                · rw [q.1]
                · rename_i hsg'
                  split at q
                  · rw [q.1]
                  · obtain ⟨m, ⟨_, _, _, _, _, e4⟩, -⟩ := q
                    exact e4 k fun h => hg ⟨h.symm, by simpa using hsg'⟩
              rw [this]; simpa using hpart
            · intro i' p' f msg he hf hfk hfs _
              simp only [Op.recv.injEq] at he
              obtain ⟨-, rfl⟩ := he
              rw [hpf] at hf
              simp only [Option.some.injEq] at hf
              subst hf
              exact absurd ⟨hfk, hfs⟩ hg
      | enable j on => rw [hop0] at hst; rw [hst.2.1]; exact ⟨by simpa [opFrags] using hpart, fun _ _ _ _ h => by cases h⟩
      | send d own tag m => rw [hop0] at hst; rw [hst.2.1]; exact ⟨by simpa [opFrags] using hpart, fun _ _ _ _ h => by cases h⟩
      | rebind j a b c d e => rw [hop0] at hst; rw [hst.2.1]; exact ⟨by simpa [opFrags] using hpart, fun _ _ _ _ h => by cases h⟩
      | _ => rw [hop0] at hst; rw [hst.2.1]; exact ⟨by simpa [opFrags] using hpart, fun _ _ _ _ h => by cases h⟩
    cases pre with
    | nil =>
      simp only [List.nil_append, List.cons.injEq, Prod.mk.injEq] at hlog
      obtain ⟨⟨rfl, rfl⟩, rfl⟩ := hlog
      exact hstep.2 i p f msg hop hf hk hsg hout
    | cons y pre =>
      simp only [List.cons_append, List.cons.injEq] at hlog
      obtain ⟨rfl, rfl⟩ := hlog
      obtain ⟨before, start, mids, h1, h2, h3⟩ := ih hrun hstep.1 pre r post i p f out msg rfl hop hf hk hsg hout
      refine ⟨before, start, mids, ?_, h2, h3⟩
      rw [← h1, List.append_assoc]
      congr 1
      unfold opFrags
      rw [← List.filterMap_append]
      rfl

theorem fragsOn_all {i : Nat} {k : Key} {hist : List (Op β)} (h : ∀ j p, Op.recv j p ∈ hist → j ≠ i → fragB k p = none) :
    opFrags k hist = fragsOn i k hist := by
  unfold opFrags fragsOn
  apply List.filterMap_congr
  intro o ho
  cases o with
  | recv j p =>
    simp only
    split
    · rfl
    · rename_i hne; exact h j p ho hne
  | _ => rfl

/-- **C27** (partial: what holds) If all the fragments of a (source, destination, tag) arrived on one bus
`i`, then a multi-packet message completed by such a fragment, which is what the bridge sends out on the
other bus, is the concatenation of an uninterrupted run of fragments received on bus `i`: start packet,
middle packets and the end packet just received; packets of the other bus contribute nothing.  `outs` are
the messages completed, call by call: the log is a run of the ideal bridge of `Spec/Bridge.lean` that
completes these messages.  Missing: the same when the busses share such a triple, which is false
(`C27_busses_mixed`). -/
theorem C27_one_bus_partial {ops : Ops β} (hk : KeepsPacket ops) (K : Contract ops) {mx : Nat}
    (hmx : mx < 2 ^ 64) {mem : Mem} {c0 : Core β} (hbr : Bridged ops mx mem c0) (hcl : Clean mem)
    (hsz : SizesOk K c0) {b1 b2 : Bus β} (hb : c0.busses = [b1, b2]) {hist : List (Op β)}
    (hok : HistOk K c0 hist) (hcalm : Calm hist) :
    ∃ c log outs, c0.run ops hist = .ok (c, log) ∧ log.map (·.op) = hist ∧ outs.length = log.length ∧
      BridgeRun (loose mx) (fun i => if i = 0 then b1.binding.version else b2.binding.version)
        ⟨State.empty, fun i => if i = 0 then ⟨gateOf b1.state, [], b1.binding.pktSize⟩
          else if i = 1 then ⟨gateOf b2.state, [], b2.binding.pktSize⟩ else ⟨.never, [], 0⟩⟩
        (log.zip outs) (absBridge c) ∧
      ∀ pre r out post i p f msg, log.zip outs = pre ++ (r, out) :: post → r.op = .recv i p → parse p = some f →
        f.single = false → f.src ≠ 0 → out = some (f, msg) →
        (∀ j q, Op.recv j q ∈ pre.map (·.1.op) → j ≠ i → fragB f.key q = none) →
        ∃ before start mids, fragsOn i f.key (pre.map (·.1.op) ++ [.recv i p]) = before ++ (start :: mids ++ [f]) ∧
          IsMessage start mids f ∧ msg = content (start :: mids ++ [f]) := by
  obtain ⟨c, log, outs, h1, h2, h3, h4, -⟩ := C26_ideal_bridge hk K hmx hbr hcl hsz hb hok hcalm
  refine ⟨c, log, outs, h1, h2, h3, h4, ?_⟩
  intro pre r out post i p f msg hlog hop hf hsg hsrc hout hone
  have := bridgeRun_sound (k := f.key) hsrc (fs := []) h4 (fun q hq => by cases hq) pre r post i p f out msg hlog hop hf rfl hsg hout
  rw [hop, List.nil_append, fragsOn_all (i := i)] at this
  · exact this
  · intro j q hm hne
    rcases List.mem_append.mp hm with hm | hm
    · exact hone j q hm hne
    · simp only [List.mem_singleton, Op.recv.injEq] at hm
      exact absurd hm.1 hne

/-- C27 on a concrete case: a two-packet message on bus 0 with a fragment of another stream on bus 1 in
between. -/
example :
    let hist : List (Op Unit) := [.recv 0 (Demo.pkt 20 30 0x80 [1, 2]), .recv 1 (Demo.pkt 21 30 0x80 [9, 9]),
      .recv 0 (Demo.pkt 20 30 0x50 [3])]
    HistOk Demo.K Demo.bridge hist ∧ fragB ⟨20, 30, 0⟩ (Demo.pkt 21 30 0x80 [9, 9]) = none ∧
    (fragsOn 0 ⟨20, 30, 0⟩ hist).map (·.payload) = [[1, 2], [3]] ∧
    (Demo.run Demo.bridge hist).map (offers 1) = some [⟨Demo.pkt 20 30 0xc0 [1, 2, 3], 0, false⟩] :=
  ⟨Demo.histOk (by decide +kernel), by decide +kernel, by decide +kernel, by decide +kernel⟩

end Mctp
