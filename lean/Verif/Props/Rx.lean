import Verif.Proofs.Trace
import Verif.Props.Demo

/-!
# Properties of the receive path (C01-C17)

The packets and messages of the statements are those of `Spec/Packet.lean` and
`Spec/Reassembler.lean`.
-/

namespace Mctp

open Spec

variable {β : Type}

/-! ## C01: soundness of reassembly -/

/-- **C01** Every message handed to the user, at any point of any history of a registered endpoint, is
accounted for: it is the payload of the single packet just received, or (non-null source, see C04) the
concatenation of an uninterrupted run of its stream: start packet, middle packets, and the end packet
just received. One packet causes at most one delivery, with that packet's source, tag owner and tag. -/
theorem C01_reassembly_sound {ops : Ops β} {eid : Byte} {mem : Mem} {c0 c : Core β}
    {hist : List (Op β)} {pre post : List (Rec β)} {r : Rec β}
    (hreg : Registered ops eid mem c0) (hrun : c0.run ops hist = .ok (c, pre ++ r :: post))
    {ev : Event} (hev : ev ∈ r.evs) {src : Byte} {msg : List Byte}
    (hd : delivered ev = some (src, msg)) :
    ∃ bytes f, r.op = .recv 0 bytes ∧ parse bytes = some f ∧ Local eid f.dest ∧ src = f.src ∧
      deliveries r.evs = [(src, msg)] ∧
      (ev = .rxMsg f.src f.tagOwner (BitVec.ofNat 8 f.tag) msg ∨
        ∃ o g, ev = .ctrlRx 0 f.src o g msg) ∧
      (f.single = true ∧ msg = f.payload ∨
       f.single = false ∧ f.eom = true ∧ (f.src ≠ 0 → ∃ before start mids,
          stream f.key (events (pre ++ [r])) = before ++ (start :: mids ++ [f]) ∧
          IsMessage start mids f ∧ msg = content (start :: mids ++ [f]))) := by
  obtain ⟨c1, c2, h1, h2, -, hr1, hs, -⟩ := run_split hrun
  have hi := run_epInv hreg.epInv hr1
  have := delivery_sound hi hs hev hd
  simpa [events] using this

/-- The two-packet message `[1,2]++[3]` from EID 9 with tag 2 is delivered: the hypotheses of C01 are
met by a concrete run. -/
def Demo.twoPackets : List (Op Unit) :=
  [.setRx true, .recv 0 (Demo.pkt 9 8 0x8a [1, 2]), .recv 0 (Demo.pkt 9 8 0x5a [3])]

example : Demo.run { Demo.core with hasRx := false } Demo.twoPackets =
    some [.recv 0 (Demo.pkt 9 8 0x8a [1, 2]), .recv 0 (Demo.pkt 9 8 0x5a [3]),
          .rxMsg 9 true 2 [1, 2, 3]] := by decide +kernel

/-! ## C06-C09: consequences for damaged streams -/

/-- Helper: a delivery caused by a fragment of a multi-packet message. -/
theorem multi_delivery {ops : Ops β} {eid : Byte} {mem : Mem} {c0 c : Core β}
    {hist : List (Op β)} {pre post : List (Rec β)} {r : Rec β}
    (hreg : Registered ops eid mem c0) (hrun : c0.run ops hist = .ok (c, pre ++ r :: post))
    {i : Nat} {bytes : List Byte} {f : Frag} (hop : r.op = .recv i bytes) (hf : parse bytes = some f)
    (hsg : f.single = false) (hsrc : f.src ≠ 0) {x : Byte × List Byte} (hx : x ∈ deliveries r.evs) :
    ∃ before start mids, stream f.key (events (pre ++ [r])) = before ++ (start :: mids ++ [f]) ∧
      IsMessage start mids f ∧ x = (f.src, content (start :: mids ++ [f])) ∧
      deliveries r.evs = [x] := by
  obtain ⟨ev, hev, hd⟩ := List.mem_filterMap.mp hx
  obtain ⟨src, msg⟩ := x
  obtain ⟨bytes', f', h1, h2, h3, h4, h5, h6, h7⟩ := C01_reassembly_sound hreg hrun hev hd
  rw [hop] at h1
  simp only [Op.recv.injEq] at h1
  obtain ⟨rfl, rfl⟩ := h1
  rw [hf] at h2
  simp only [Option.some.injEq] at h2
  subst h2
  rcases h7 with ⟨h7, -⟩ | ⟨-, -, h7⟩
  · rw [hsg] at h7; cases h7
  · obtain ⟨before, start, mids, q1, q2, rfl⟩ := h7 hsrc
    exact ⟨before, start, mids, q1, q2, by rw [h4], h5⟩

theorem _root_.Mctp.Spec.IsMessage.tail_som {start last : Frag} {mids : List Frag} (h : IsMessage start mids last) :
    ∀ x ∈ mids ++ [last], x.som = false := by
  intro x hx
  rcases List.mem_append.mp hx with hx | hx
  · exact (h.mid_flags x hx).1
  · simp only [List.mem_singleton] at hx; subst hx; exact h.last_flags.1

/-- **C06** If in a stream (non-null source) a packet `b` that is not a start packet follows a packet
`g` and its sequence number is not one more modulo 4, then neither `b` nor any later packet of the
stream delivers anything until a new start packet: at every point where `b` and all its successors
`rest` in the stream are not start packets, the packet just received (the last of `b :: rest`)
delivers nothing. -/
theorem C06_sequence_error_drops {ops : Ops β} {eid : Byte} {mem : Mem} {c0 c : Core β}
    {hist : List (Op β)} {pre post : List (Rec β)} {r : Rec β}
    (hreg : Registered ops eid mem c0) (hrun : c0.run ops hist = .ok (c, pre ++ r :: post))
    {i : Nat} {bytes : List Byte} {f : Frag} (hop : r.op = .recv i bytes) (hf : parse bytes = some f)
    (hsg : f.single = false) (hsrc : f.src ≠ 0)
    {before rest : List Frag} {g b : Frag}
    (hst : stream f.key (events (pre ++ [r])) = before ++ g :: b :: rest)
    (hb : b.som = false) (hseq : b.seq ≠ (g.seq + 1) % 4) (hrest : ∀ x ∈ rest, x.som = false) :
    deliveries r.evs = [] := by
  cases hd : deliveries r.evs with
  | nil => rfl
  | cons x xs =>
    exfalso
    obtain ⟨bef, start, mids, h1, h2, -, -⟩ := multi_delivery hreg hrun hop hf hsg hsrc (x := x) (by rw [hd]; simp)
    rw [hst] at h1
    have hms := h2.tail_som
    -- locate `g :: b :: rest` relative to the run
    rcases List.append_eq_append_iff.mp h1 with ⟨as, hbef, h⟩ | ⟨bs, hbef, h⟩
    · cases as with
      | nil =>
        have hc := List.cons.inj h
        have hseqs := h2.seqs
        rw [← hc.1] at hseqs
        have : mids ++ [f] = b :: rest := hc.2.symm
        rw [this] at hseqs
        exact hseq hseqs.1
      | cons a as =>
        -- the start packet of the run comes after `g`
        have hc := List.cons.inj h
        cases as with
        | nil =>
          have hc2 := List.cons.inj hc.2
          rw [hc2.1, h2.start_flags.1] at hb; cases hb
        | cons a2 as =>
          have hc2 := List.cons.inj hc.2
          have := hrest start (by rw [hc2.2]; simp)
          rw [h2.start_flags.1] at this; cases this
    · cases bs with
      | nil =>
        have hc := List.cons.inj h
        have hseqs := h2.seqs
        rw [hc.1] at hseqs
        have : mids ++ [f] = b :: rest := hc.2
        rw [this] at hseqs
        exact hseq hseqs.1
      | cons a as =>
        have hc := List.cons.inj h
        have hseqs := h2.seqs
        have : mids ++ [f] = as ++ g :: b :: rest := hc.2
        rw [this] at hseqs
        have h3 := (SeqChain_append'.mp hseqs).2
        exact hseq h3.2.1

/-- **C08** If after the latest start packet `st` of a stream a middle packet with a different length,
or an end packet longer than `st`, arrives (`b`), nothing is delivered for it or for any later packet
of the stream before a new start packet. -/
theorem C08_length_error_drops {ops : Ops β} {eid : Byte} {mem : Mem} {c0 c : Core β}
    {hist : List (Op β)} {pre post : List (Rec β)} {r : Rec β}
    (hreg : Registered ops eid mem c0) (hrun : c0.run ops hist = .ok (c, pre ++ r :: post))
    {i : Nat} {bytes : List Byte} {f : Frag} (hop : r.op = .recv i bytes) (hf : parse bytes = some f)
    (hsg : f.single = false) (hsrc : f.src ≠ 0)
    {before mid rest : List Frag} {st b : Frag}
    (hst : stream f.key (events (pre ++ [r])) = before ++ st :: (mid ++ b :: rest))
    (hs : st.som = true) (hb : b.som = false)
    (hlen : b.eom = false ∧ b.payload.length ≠ st.payload.length ∨
            b.eom = true ∧ st.payload.length < b.payload.length)
    (hmid : ∀ x ∈ mid, x.som = false) (hrest : ∀ x ∈ rest, x.som = false) :
    deliveries r.evs = [] := by
  cases hd : deliveries r.evs with
  | nil => rfl
  | cons x xs =>
    exfalso
    obtain ⟨bef, start, mids, h1, h2, -, -⟩ := multi_delivery hreg hrun hop hf hsg hsrc (x := x) (by rw [hd]; simp)
    rw [hst] at h1
    obtain ⟨rfl, h3⟩ := run_unique (h1 : before ++ st :: (mid ++ b :: rest) = bef ++ start :: (mids ++ [f])) hs h2.start_flags.1
      (by
        intro y hy
        rcases List.mem_append.mp hy with hy | hy
        · exact hmid y hy
        · rcases List.mem_cons.mp hy with rfl | hy
          · exact hb
          · exact hrest y hy) h2.tail_som
    have h3 : mid ++ b :: rest = mids ++ [f] := h3
    have hbm : b ∈ mids ++ [f] := by rw [← h3]; simp
    rcases List.mem_append.mp hbm with hbm | hbm
    · rcases hlen with ⟨_, hl⟩ | ⟨he, _⟩
      · exact hl (h2.mid_len b hbm)
      · rw [(h2.mid_flags b hbm).2] at he; cases he
    · simp only [List.mem_singleton] at hbm
      subst hbm
      rcases hlen with ⟨he, _⟩ | ⟨_, hl⟩
      · rw [h2.last_flags.2] at he; cases he
      · have := h2.last_len; omega

/-- **C09** What is delivered begins with the latest start packet of the stream: nothing received
before it is part of the message. -/
theorem C09_start_restarts {ops : Ops β} {eid : Byte} {mem : Mem} {c0 c : Core β}
    {hist : List (Op β)} {pre post : List (Rec β)} {r : Rec β}
    (hreg : Registered ops eid mem c0) (hrun : c0.run ops hist = .ok (c, pre ++ r :: post))
    {i : Nat} {bytes : List Byte} {f : Frag} (hop : r.op = .recv i bytes) (hf : parse bytes = some f)
    (hsg : f.single = false) (hsrc : f.src ≠ 0)
    {before after : List Frag} {st : Frag}
    (hst : stream f.key (events (pre ++ [r])) = before ++ st :: after)
    (hs : st.som = true) (hafter : ∀ x ∈ after, x.som = false)
    {x : Byte × List Byte} (hx : x ∈ deliveries r.evs) :
    x = (f.src, content (st :: after)) := by
  obtain ⟨bef, start, mids, h1, h2, h3, -⟩ := multi_delivery hreg hrun hop hf hsg hsrc hx
  rw [hst] at h1
  obtain ⟨rfl, h4⟩ := run_unique (h1 : before ++ st :: after = bef ++ start :: (mids ++ [f])) hs
    h2.start_flags.1 hafter h2.tail_som
  rw [h3, h4]; rfl

/-- **C07** Loss detection: of a message `start, a, lost, b, last` the packets `lost` do not arrive. If
their number is not a multiple of 4, nothing is delivered for the rest. -/
theorem C07_loss_detected {ops : Ops β} {eid : Byte} {mem : Mem} {c0 c : Core β}
    {hist : List (Op β)} {pre post : List (Rec β)} {r : Rec β}
    (hreg : Registered ops eid mem c0) (hrun : c0.run ops hist = .ok (c, pre ++ r :: post))
    {i : Nat} {bytes : List Byte} {last : Frag} (hop : r.op = .recv i bytes)
    (hf : parse bytes = some last) (hsrc : last.src ≠ 0)
    {start : Frag} {a lost b : List Frag} (hmsg : IsMessage start (a ++ lost ++ b) last)
    {before : List Frag}
    (hst : stream last.key (events (pre ++ [r])) = before ++ start :: (a ++ b ++ [last]))
    (hloss : lost.length % 4 ≠ 0) :
    deliveries r.evs = [] := by
  have hsg : last.single = false := by simp [Frag.single, hmsg.last_flags.1]
  have hseq4 : start.seq < 4 ∨ True := .inr trivial
  cases hd : deliveries r.evs with
  | nil => rfl
  | cons x xs =>
    exfalso
    obtain ⟨bef, st', mids, h1, h2, -, -⟩ := multi_delivery hreg hrun hop hf hsg hsrc (x := x) (by rw [hd]; simp)
    rw [hst] at h1
    obtain ⟨rfl, h3⟩ := run_unique (h1 : before ++ start :: (a ++ b ++ [last]) = bef ++ st' :: (mids ++ [last]))
      hmsg.start_flags.1 h2.start_flags.1
      (by
        intro y hy
        apply hmsg.tail_som
        simp only [List.mem_append, List.mem_singleton] at hy ⊢
        tauto) h2.tail_som
    have s1 := hmsg.seqs
    have s2 := h2.seqs
    have h3 : a ++ b ++ [last] = mids ++ [last] := h3
    rw [← h3] at s2
    rw [show a ++ lost ++ b ++ [last] = a ++ (lost ++ (b ++ [last])) by simp] at s1
    rw [show a ++ b ++ [last] = a ++ (b ++ [last]) by simp] at s2
    have s1' := (SeqChain_append'.mp s1).2
    have s2' := (SeqChain_append'.mp s2).2
    generalize (a.getLast?.map (·.seq)).getD start.seq = q at s1' s2'
    have t1 := SeqChain_append'.mp s1'
    -- the packet after the gap
    cases lost with
    | nil => simp at hloss
    | cons l ls =>
      have hq : ∀ y ys, b ++ [last] = y :: ys → False := by
        intro y ys hy
        rw [hy] at s2' t1
        have e1 := s2'.1
        have e2 := t1.2.1
        have hl4 : l.seq < 4 := by have := t1.1.1; omega
        have e3 := SeqChain_last hl4 t1.1.2
        have e4 : ((List.getLast? (l :: ls)).map (·.seq)).getD q = (l.seq + ls.length) % 4 := by
          rw [← e3]
          cases ls <;> simp [List.getLast?_cons]
        rw [e4] at e2
        have e5 := t1.1.1
        simp only [List.length_cons] at hloss
        omega
      cases hb : b ++ [last] with
      | nil => simp at hb
      | cons y ys => exact hq y ys hb

/-- **C07** (second half) Loss of a multiple of four middle packets cannot be noticed: what arrives is
again a well-formed message (and is delivered, by C02). -/
theorem C07_loss_of_four_undetectable {start last : Frag} {a lost b : List Frag}
    (hmsg : IsMessage start (a ++ lost ++ b) last) (hloss : lost.length % 4 = 0)
    (hs4 : start.seq < 4) : IsMessage start (a ++ b) last := by
  refine ⟨hmsg.start_flags, ?_, hmsg.last_flags, ?_, hmsg.last_len, ?_⟩
  · intro m hm; apply hmsg.mid_flags; simp only [List.mem_append] at hm ⊢; tauto
  · intro m hm; apply hmsg.mid_len; simp only [List.mem_append] at hm ⊢; tauto
  · have s1 := hmsg.seqs
    rw [show a ++ lost ++ b ++ [last] = a ++ (lost ++ (b ++ [last])) by simp] at s1
    rw [show a ++ b ++ [last] = a ++ (b ++ [last]) by simp, SeqChain_append']
    obtain ⟨s1a, s1b⟩ := SeqChain_append'.mp s1
    refine ⟨s1a, ?_⟩
    have hq := SeqChain_last hs4 s1a
    generalize (a.getLast?.map (·.seq)).getD start.seq = q at s1b hq ⊢
    have hq4 : q < 4 := by omega
    obtain ⟨s2a, s2b⟩ := SeqChain_append'.mp s1b
    rw [SeqChain_last hq4 s2a] at s2b
    have : (q + lost.length) % 4 = q := by omega
    rwa [this] at s2b

/-! ## The endpoint refines the ideal reassembler (C03, C10) -/

/-- The history changes neither the size limit nor the receive handler. -/
def Steady (hist : List (Op β)) : Prop :=
  ∀ op ∈ hist, (∀ n, op ≠ .setMax n) ∧ (∀ b, op ≠ .setRx b)

theorem Steady.pktP {hist : List (Op β)} (h : Steady hist) {P : Nat → Prop}
    (hP : ∀ i bs, Op.recv i bs ∈ hist → P (bs.length - 4)) : ∀ op ∈ hist, PktP P op := by
  intro op hop
  have := h op hop
  cases op with
  | recv i bs => exact hP i bs hop
  | setMax n => exact absurd rfl (this.1 n)
  | setRx b => exact absurd rfl (this.2 b)
  | _ => trivial

/-- **C03** For every history of a configured endpoint (no allocation failure, any interleaving of
packets, transmissions, enabling, capture, binding changes), what it delivers is what the ideal
reassembler delivers, whose streams are independent by definition: a fragment changes only the state
of its own stream, and nothing else does; fragments with a null source change no other stream. -/
theorem C03_streams_isolated {ops : Ops β} (K : Contract ops) {eid : Byte} {mx : Nat} {mem : Mem}
    {c0 : Core β} (hc : Configured ops eid mx mem c0) (hcl : Clean mem) (hsz : SizesOk K c0)
    (hmx : mx < 2 ^ 64) {hist : List (Op β)} (hok : HistOk K c0 hist) (hst : Steady hist) :
    ∃ c log, c0.run ops hist = .ok (c, log) ∧ log.map (·.op) = hist ∧
      (∃ σ, Reasm (loose mx) eid State.empty (rxTrace log) σ) ∧
      (∀ r ∈ log, (∀ i bs, r.op ≠ .recv i bs) → deliveries r.evs = []) := by
  obtain ⟨c, log, h1, _, h3, h4, h5⟩ := run_ref K (Pol.loose hmx)
    (hc.refInv hcl hsz (Pol.loose hmx)) hok (hst.pktP fun _ _ _ => trivial)
  rw [hc.flags.2.2, abs_init] at h3
  exact ⟨c, log, h1, h4, ⟨_, h3⟩, h5⟩

/-- In the ideal reassembler a packet that is not a fragment of stream `k` leaves stream `k` alone
(this is what "isolated" means). -/
theorem ideal_isolated {lim : Nat → Bool → Prop} {eid : Byte} {σ σ' : State} {p : List Byte}
    {out : List (Byte × List Byte)} (h : PktStep lim eid σ p σ' out) {k : Key}
    (hk : ∀ f, parse p = some f → f.key = k → f.single = true) : σ' k = σ k := by
  refine PktStep_other h ?_
  cases hf : fragB k p with
  | none => rfl
  | some f =>
    obtain ⟨h1, h2, h3⟩ := fragB_some hf
    rw [hk f h1 h2] at h3; cases h3

/-- With a limit of `4096·2^k` bytes (the default is `4096·2^4`) and packets with at most 4096 payload
bytes, the endpoint *is* the ideal reassembler with exactly that limit. -/
theorem C03_exact_refinement {ops : Ops β} (K : Contract ops) {eid : Byte} {mx k : Nat} {mem : Mem}
    {c0 : Core β} (hc : Configured ops eid mx mem c0) (hcl : Clean mem) (hsz : SizesOk K c0)
    (hk : mx = 4096 * 2 ^ k) (hmx : mx < 2 ^ 64) {hist : List (Op β)} (hok : HistOk K c0 hist)
    (hst : Steady hist) (hsmall : ∀ i bs, Op.recv i bs ∈ hist → bs.length ≤ 4100) :
    ∃ c log, c0.run ops hist = .ok (c, log) ∧ log.map (·.op) = hist ∧
      (∃ σ, Reasm (exact mx) eid State.empty (rxTrace log) σ) ∧
      (∀ r ∈ log, (∀ i bs, r.op ≠ .recv i bs) → deliveries r.evs = []) := by
  obtain ⟨c, log, h1, _, h3, h4, h5⟩ := run_ref K (Pol.exact hk hmx)
    (hc.refInv hcl hsz (Pol.exact hk hmx)) hok
    (hst.pktP fun i bs h => by have := hsmall i bs h; omega)
  rw [hc.flags.2.2, abs_init] at h3
  exact ⟨c, log, h1, h4, ⟨_, h3⟩, h5⟩

/-- A concrete history meets the hypotheses: two interleaved messages and a transmission. -/
def Demo.interleaved : List (Op Unit) :=
  [.recv 0 (Demo.pkt 9 8 0x8a [1, 2]), .recv 0 (Demo.pkt 10 8 0x8a [7, 7]),
   .send 9 true 3 [5], .recv 0 (Demo.pkt 9 8 0x5a [3]), .recv 0 (Demo.pkt 10 8 0x5a [8])]

example : HistOk Demo.K Demo.core Demo.interleaved ∧ Steady Demo.interleaved ∧
    Demo.run Demo.core Demo.interleaved =
      some [.recv 0 (Demo.pkt 9 8 0x8a [1, 2]), .recv 0 (Demo.pkt 10 8 0x8a [7, 7]),
            .tx 0 (Demo.pkt 8 9 0xcb [5]) 0 false,
            .recv 0 (Demo.pkt 9 8 0x5a [3]), .rxMsg 9 true 2 [1, 2, 3],
            .recv 0 (Demo.pkt 10 8 0x5a [8]), .rxMsg 10 true 2 [7, 7, 8]] :=
  ⟨Demo.histOk (by decide +kernel), by simp [Steady, Demo.interleaved], by decide +kernel⟩

/-! ## C02: completeness -/

/-- The fragments of stream `k` in a list of calls. -/
def opFrags (k : Key) (hist : List (Op β)) : List Frag :=
  hist.filterMap fun o => match o with
    | .recv _ bs => fragB k bs
    | _ => none

/-- The record is the reception of a fragment of stream `k`. -/
def ofStream (k : Key) (r : Rec β) : Bool :=
  match r.op with
  | .recv _ bs => (fragB k bs).isSome
  | _ => false

theorem rxTrace_frags (k : Key) (log : List (Rec β)) :
    (rxTrace log).filterMap (fun x => fragB k x.1) = opFrags k (log.map (·.op)) := by
  unfold rxTrace opFrags
  rw [List.filterMap_filterMap, List.filterMap_map]
  congr 1
  funext r
  simp only [Function.comp]
  cases r.op <;> rfl

/-- Completeness for any size policy. -/
theorem complete_core {ops : Ops β} (K : Contract ops) {eid : Byte} {mx : Nat} {mem : Mem}
    {c0 : Core β} (hc : Configured ops eid mx mem c0) (hcl : Clean mem) (hsz : SizesOk K c0)
    {A P : Nat → Prop} {lim : Nat → Bool → Prop} (hpol : Pol mx A P lim)
    {pre rest : List (Op β)} {p : List Byte}
    (hok : HistOk K c0 (pre ++ .recv 0 p :: rest)) (hP : ∀ op ∈ pre ++ .recv 0 p :: rest, PktP P op)
    {start last : Frag} {mids : List Frag} (hmsg : IsMessage start mids last)
    (hsrc : start.src ≠ 0) (hloc : Local eid start.dest) (hp : parse p = some start)
    (hrest : opFrags start.key rest = mids ++ [last])
    (hlim : ∀ n b, n ≤ (content (start :: mids ++ [last])).length → lim n b → b = true) :
    ∃ c logp r0 logr σ, c0.run ops (pre ++ .recv 0 p :: rest) = .ok (c, logp ++ r0 :: logr) ∧
      logp.map (·.op) = pre ∧ r0.op = .recv 0 p ∧ logr.map (·.op) = rest ∧
      Reasm lim eid State.empty (rxTrace logp) σ ∧
      (σ start.key ≠ none ∨ ¬ Full σ →
        ((r0 :: logr).filter (ofStream start.key)).flatMap (fun r => deliveries r.evs) =
          [(start.src, content (start :: mids ++ [last]))]) := by
  obtain ⟨c, log, h1, _, h3, h4, h5⟩ := run_ref K hpol (hc.refInv hcl hsz hpol) hok hP
  rw [hc.flags.2.2, abs_init] at h3
  obtain ⟨logp, l2, rfl, hlp, hl2⟩ := List.map_eq_append_iff.mp h4
  obtain ⟨r0, logr, rfl, hr0, hlr⟩ := List.map_eq_cons_iff.mp hl2
  have hsplit : rxTrace (logp ++ r0 :: logr) =
      rxTrace logp ++ (p, deliveries r0.evs) :: rxTrace logr := by
    simp only [rxTrace, List.filterMap_append, List.filterMap_cons, hr0]
  rw [hsplit] at h3
  have happ : ∀ {a b : List (List Byte × List (Byte × List Byte))} {σ σ' : State},
      Reasm lim eid σ (a ++ b) σ' → ∃ σ1, Reasm lim eid σ a σ1 ∧ Reasm lim eid σ1 b σ' := by
    intro a
    induction a with
    | nil => intro b σ σ' h; exact ⟨σ, rfl, h⟩
    | cons x a ih =>
      intro b σ σ' ⟨σ1, h1, h2⟩
      obtain ⟨σ2, h3, h4⟩ := ih h2
      exact ⟨σ2, ⟨σ1, h1, h3⟩, h4⟩
  obtain ⟨σ, hσ1, hσ2⟩ := happ h3
  refine ⟨c, logp, r0, logr, σ, h1, hlp, hr0, hlr, hσ1, fun havail => ?_⟩
  have hsg : start.single = false := by simp [Frag.single, hmsg.start_flags.2]
  have hfp : fragB start.key p = some start := by
    unfold fragB fragOf; simp [hp, hsg]
  have hfr : (rxTrace logr).filterMap (fun x => fragB start.key x.1) = mids ++ [last] := by
    rw [rxTrace_frags, hlr]; exact hrest
  have hcomp := reasm_complete (k := start.key) hloc hsrc hmsg hσ2 hfp havail hfr hlim
  -- from records to fragments
  have hkey : ∀ l : List (Rec β),
      (∀ x ∈ rxTrace l, ∀ f, fragB start.key x.1 = some f →
        x.2 = if f.eom then [(start.src, content (start :: mids ++ [last]))] else []) →
      (l.filter (ofStream start.key)).flatMap (fun r => deliveries r.evs) =
        ((rxTrace l).filterMap (fun x => fragB start.key x.1)).flatMap
          (fun f => if f.eom then [(start.src, content (start :: mids ++ [last]))] else []) := by
    intro l
    induction l with
    | nil => intro _; rfl
    | cons r l ih =>
      intro h
      have hl : ∀ x ∈ rxTrace l, ∀ f, fragB start.key x.1 = some f →
          x.2 = if f.eom then [(start.src, content (start :: mids ++ [last]))] else [] := by
        intro x hx
        apply h
        unfold rxTrace at hx ⊢
        rw [List.filterMap_cons]
        split
        · exact hx
        · exact List.mem_cons_of_mem _ hx
      have ih := ih hl
      cases hop : r.op with
      | recv i bs =>
        have hx := h (bs, deliveries r.evs) (by simp [rxTrace, hop])
        have ho : ofStream start.key r = (fragB start.key bs).isSome := by simp [ofStream, hop]
        cases hfb : fragB start.key bs with
        | none =>
          rw [hfb] at ho
          rw [List.filter_cons, ho]
          simp only [rxTrace, List.filterMap_cons, hop, hfb] at ih ⊢
          simpa using ih
        | some f =>
          rw [hfb] at ho
          rw [List.filter_cons, ho]
          simp only [rxTrace, List.filterMap_cons, hop, hfb] at ih ⊢
          simp only [Option.isSome_some, if_true, List.flatMap_cons, ih]
          have := hx f hfb
          simp only at this
          rw [this]
      | _ =>
        have ho : ofStream start.key r = false := by simp [ofStream, hop]
        rw [List.filter_cons, ho]
        simp only [rxTrace, List.filterMap_cons, hop] at ih ⊢
        simpa using ih
  have htr : rxTrace (r0 :: logr) = (p, deliveries r0.evs) :: rxTrace logr := by
    simp only [rxTrace, List.filterMap_cons, hr0]
  rw [hkey (r0 :: logr) (by rw [htr]; exact hcomp), htr, List.filterMap_cons]
  simp only [hfp, hfr, List.flatMap_cons, List.flatMap_append, hmsg.start_flags.2, hmsg.last_flags.2,
    List.flatMap_nil]
  have : mids.flatMap (fun f => if f.eom then [(start.src, content (start :: mids ++ [last]))] else []) = [] := by
    rw [List.flatMap_eq_nil_iff]
    intro m hm
    simp [(hmsg.mid_flags m hm).2]
  rw [this]; simp

/-- Fewer than sixteen streams had a start packet so far: there is room. -/
theorem room_of_few {lim : Nat → Bool → Prop} {eid : Byte} {logp : List (Rec β)} {σ : State}
    (hre : Reasm lim eid State.empty (rxTrace logp) σ) {ks : List Key} (hks : ks.length ≤ 15)
    (h : ∀ i bs f, Op.recv i bs ∈ logp.map (·.op) → parse bs = some f → f.som = true →
      f.eom = false → f.key ∈ ks) : ¬ Full σ := by
  rintro ⟨l, hnd, hlen, hl⟩
  have hsub : l ⊆ ks := by
    intro k hk
    refine reasm_open hre (ks := ks) (by intro k h; exact absurd rfl h) ?_ k (hl k hk)
    intro x hx f hf h1 h2
    obtain ⟨r, hr, hrx⟩ := List.mem_filterMap.mp hx
    cases hop : r.op with
    | recv i bs =>
      rw [hop] at hrx
      simp only [Option.some.injEq] at hrx
      subst hrx
      exact h i bs f (List.mem_map.mpr ⟨r, hr, hop⟩) hf h1 h2
    | _ => rw [hop] at hrx; cases hrx
  have := List.Subperm.length_le (List.subperm_of_subset hnd hsub)
  omega

/-- **C02** A message whose packets arrive in order, interleaved with arbitrary calls and packets of
other streams, is delivered completely and exactly once (the deliveries caused by packets of its
stream are exactly this one message; C01 gives the tag and tag owner), provided fewer than 16 other
streams were started before, the message is at most half the size limit, and the limit is at least
4096 (see C12 for limits of the form `4096·2^k`, where the whole limit can be used). -/
theorem C02_reassembly_complete {ops : Ops β} (K : Contract ops) {eid : Byte} {mx : Nat} {mem : Mem}
    {c0 : Core β} (hc : Configured ops eid mx mem c0) (hcl : Clean mem) (hsz : SizesOk K c0)
    (hmx1 : 4096 ≤ mx) (hmx2 : mx < 2 ^ 64)
    {pre rest : List (Op β)} {p : List Byte}
    (hok : HistOk K c0 (pre ++ .recv 0 p :: rest)) (hst : Steady (pre ++ .recv 0 p :: rest))
    {start last : Frag} {mids : List Frag} (hmsg : IsMessage start mids last)
    (hsrc : start.src ≠ 0) (hloc : Local eid start.dest) (hp : parse p = some start)
    (hrest : opFrags start.key rest = mids ++ [last])
    (hlen : 2 * (content (start :: mids ++ [last])).length ≤ mx)
    {ks : List Key} (hks : ks.length ≤ 15)
    (hfew : ∀ i bs f, Op.recv i bs ∈ pre → parse bs = some f → f.som = true → f.eom = false →
      f.key ∈ ks) :
    ∃ c logp r0 logr, c0.run ops (pre ++ .recv 0 p :: rest) = .ok (c, logp ++ r0 :: logr) ∧
      logp.map (·.op) = pre ∧ r0.op = .recv 0 p ∧ logr.map (·.op) = rest ∧
      ((r0 :: logr).filter (ofStream start.key)).flatMap (fun r => deliveries r.evs) =
        [(start.src, content (start :: mids ++ [last]))] := by
  obtain ⟨c, logp, r0, logr, σ, h1, h2, h3, h4, h5, h6⟩ := complete_core K hc hcl hsz
    (Pol.loose hmx2) hok (hst.pktP fun _ _ _ => trivial) hmsg hsrc hloc hp hrest
    (fun n b hn hb => hb.2 hmx1 (by omega))
  exact ⟨c, logp, r0, logr, h1, h2, h3, h4, h6 (.inr (room_of_few h5 hks (by rw [h2]; exact hfew)))⟩

/-- **C12** (partial) With a limit of the form `4096·2^k` (the default limit is one) and packets of at
most 4096 payload bytes, every message of at most the limit is accepted. For other limits the claim is
false, see `C12_limit_not_usable` and `C12_small_limit_refuses_all`. -/
theorem C12_limit_accepts_partial {ops : Ops β} (K : Contract ops) {eid : Byte} {mx k : Nat}
    {mem : Mem} {c0 : Core β} (hc : Configured ops eid mx mem c0) (hcl : Clean mem)
    (hsz : SizesOk K c0) (hk : mx = 4096 * 2 ^ k) (hmx2 : mx < 2 ^ 64)
    {pre rest : List (Op β)} {p : List Byte}
    (hok : HistOk K c0 (pre ++ .recv 0 p :: rest)) (hst : Steady (pre ++ .recv 0 p :: rest))
    (hsmall : ∀ i bs, Op.recv i bs ∈ pre ++ .recv 0 p :: rest → bs.length ≤ 4100)
    {start last : Frag} {mids : List Frag} (hmsg : IsMessage start mids last)
    (hsrc : start.src ≠ 0) (hloc : Local eid start.dest) (hp : parse p = some start)
    (hrest : opFrags start.key rest = mids ++ [last])
    (hlen : (content (start :: mids ++ [last])).length ≤ mx)
    {ks : List Key} (hks : ks.length ≤ 15)
    (hfew : ∀ i bs f, Op.recv i bs ∈ pre → parse bs = some f → f.som = true → f.eom = false →
      f.key ∈ ks) :
    ∃ c logp r0 logr, c0.run ops (pre ++ .recv 0 p :: rest) = .ok (c, logp ++ r0 :: logr) ∧
      logp.map (·.op) = pre ∧ r0.op = .recv 0 p ∧ logr.map (·.op) = rest ∧
      ((r0 :: logr).filter (ofStream start.key)).flatMap (fun r => deliveries r.evs) =
        [(start.src, content (start :: mids ++ [last]))] := by
  obtain ⟨c, logp, r0, logr, σ, h1, h2, h3, h4, h5, h6⟩ := complete_core K hc hcl hsz
    (Pol.exact hk hmx2) hok (hst.pktP fun i bs h => by have := hsmall i bs h; omega)
    hmsg hsrc hloc hp hrest (fun n b hn hb => hb.mpr (by omega))
  exact ⟨c, logp, r0, logr, h1, h2, h3, h4, h6 (.inr (room_of_few h5 hks (by rw [h2]; exact hfew)))⟩

/-- The hypotheses of C02 and C12 are met by the interleaved demo history (message `[1,2]++[3]` of
stream 9, another message and a transmission in between). -/
example : ∃ (start last : Frag) (rest : List (Op Unit)),
    Demo.interleaved = [] ++ .recv 0 (Demo.pkt 9 8 0x8a [1, 2]) :: rest ∧
    IsMessage start [] last ∧ start.src ≠ 0 ∧ Local 8 start.dest ∧
    parse (Demo.pkt 9 8 0x8a [1, 2]) = some start ∧ opFrags start.key rest = [] ++ [last] ∧
    content (start :: [] ++ [last]) = [1, 2, 3] :=
  ⟨⟨9, 8, 2, 0, true, true, false, [1, 2]⟩, ⟨9, 8, 2, 1, true, false, true, [3]⟩, _, rfl,
    ⟨by decide, by simp, by decide, by simp, by decide, by simp [SeqChain]⟩, by decide, by decide, by decide,
    by decide, by decide⟩

/-! ## C10: sixteen contexts -/

/-- **C10** In the ideal reassembler (which the endpoint refines, C03) at most sixteen messages are in
assembly. -/
theorem ideal_at_most_sixteen {lim : Nat → Bool → Prop} {eid : Byte} :
    ∀ {tr : List (List Byte × List (Byte × List Byte))} {σ σ' : State}, Reasm lim eid σ tr σ' →
      (∀ ks : List Key, ks.Nodup → (∀ k ∈ ks, σ k ≠ none) → ks.length ≤ 16) →
      ∀ ks : List Key, ks.Nodup → (∀ k ∈ ks, σ' k ≠ none) → ks.length ≤ 16 := by
  intro tr
  induction tr with
  | nil => intro σ σ' h h1; cases h; exact h1
  | cons y tr ih =>
    intro σ σ' ⟨σ1, hst, hre⟩ h1
    refine ih hre ?_
    intro ks hnd hks
    -- which keys can be newly open
    by_cases hall : ∀ k ∈ ks, σ k ≠ none
    · exact h1 ks hnd hall
    · have hex : ∃ k0 ∈ ks, σ k0 = none := by
        by_contra hno
        exact hall fun k hk hn => hno ⟨k, hk, hn⟩
      obtain ⟨k0, hk0, hn0⟩ := hex
      have hopen := hks k0 hk0
      cases hfp : fragB k0 y.1 with
      | none => rw [PktStep_other hst hfp, hn0] at hopen; exact absurd rfl hopen
      | some g =>
        obtain ⟨hpg, hgk, hgs⟩ := fragB_some hfp
        unfold PktStep at hst
        rw [hpg] at hst
        simp only at hst
        split at hst
        · rw [hst.1, hn0] at hopen; exact absurd rfl hopen
        · split at hst
          · rw [hst.1, hn0] at hopen; exact absurd rfl hopen
          · split at hst
            · rw [hst, hn0] at hopen; exact absurd rfl hopen
            · obtain ⟨m, ⟨room, fits, hroom, _, hown, hoth⟩, _⟩ := hst
              rw [hgk, hn0] at hown
              rw [hgk] at hoth
              have hr : room = true := by
                cases room with
                | true => rfl
                | false =>
                  exfalso
                  unfold own at hown
                  split at hown
                  · rw [if_pos ⟨rfl, rfl⟩] at hown
                    exact hopen (Prod.mk.inj hown).1
                  · exact hopen (Prod.mk.inj hown).1
              have hnf := hroom.mp hr
              by_contra hgt
              apply hnf
              have h16 : 16 ≤ (ks.erase k0).length := by
                rw [List.length_erase_of_mem hk0]; omega
              refine ⟨(ks.erase k0).take 16, (List.take_sublist _ _).nodup (hnd.erase k0), by simp; omega, ?_⟩
              intro k hk
              have hk' := List.mem_of_mem_take hk
              have hne : k ≠ k0 := fun h => by
                rw [h] at hk'; exact (List.Nodup.not_mem_erase hnd) hk'
              rw [← hoth k hne]
              exact hks k (List.mem_of_mem_erase hk')

/-- **C10** A start packet of a further stream is dropped and changes nothing when sixteen messages are
in assembly. -/
theorem ideal_seventeenth_dropped {lim : Nat → Bool → Prop} {eid : Byte} {σ σ' : State}
    {p : List Byte} {out : List (Byte × List Byte)} {f : Frag} (hfull : Full σ)
    (hp : parse p = some f) (hsg : f.single = false) (hsrc : f.src ≠ 0) (hnew : σ f.key = none)
    (h : PktStep lim eid σ p σ' out) : σ' = σ ∧ out = [] := by
  unfold PktStep at h
  rw [hp] at h
  simp only at h
  split at h
  · exact h
  · rw [if_neg (by simp [hsg])] at h
    obtain ⟨m, ⟨room, fits, hroom, _, hown, hoth⟩, hout⟩ := h
    have hr : room = false := by
      cases room with
      | false => rfl
      | true => exact absurd hfull (hroom.mp rfl)
    rw [hnew] at hown
    have hboth : σ' f.key = none ∧ m = none := by
      unfold own at hown
      split at hown
      · rw [if_pos ⟨rfl, hr⟩] at hown; exact Prod.mk.inj hown
      · exact Prod.mk.inj hown
    refine ⟨?_, by rw [hout, hboth.2]; rfl⟩
    funext k
    by_cases hk : k = f.key
    · rw [hk, hboth.1, hnew]
    · exact hoth k hk

/-- **C10** When a message of the sixteen finishes or fails there is room again. -/
theorem ideal_room_again {σ σ' : State} {k : Key} (hmax : ∀ ks : List Key, ks.Nodup →
      (∀ k ∈ ks, σ k ≠ none) → ks.length ≤ 16)
    (hk : σ k ≠ none) (hk' : σ' k = none) (hoth : ∀ k', k' ≠ k → σ' k' = σ k') : ¬ Full σ' := by
  rintro ⟨ks, hnd, hlen, hks⟩
  have hnk : k ∉ ks := fun h => hks k h hk'
  have := hmax (k :: ks) (List.nodup_cons.mpr ⟨hnk, hnd⟩) (by
    intro k' hm
    rcases List.mem_cons.mp hm with rfl | hm
    · exact hk
    · have hne : k' ≠ k := fun h => hnk (h ▸ hm)
      rw [← hoth k' hne]; exact hks k' hm)
  simp only [List.length_cons] at this
  omega

end Mctp
