import Verif.Model.TxQueue
import Verif.Proofs.Keeps
import Verif.Proofs.MemInv

/-!
# The linked list of the transmit queue behaves like a list
-/

namespace Mctp

variable {β : Type}

/-- The buffers reachable from pointer `h` are those of the list, in order. -/
def Chain (heap : Nat → Option Node) : Option Nat → List Pktbuf → Prop
  | h, [] => h = none
  | h, p :: rest => h = some p.id ∧ ∃ n, heap p.id = some n ∧ n.pkt = p ∧ Chain heap n.next rest

/-- The numbers of the packet buffers of a queue are distinct, allocated, and not ahead of the allocator. -/
structure QIds (mem : Mem) (q : List Pktbuf) : Prop where
  nodup : (q.map Pktbuf.id).Nodup
  live  : ∀ p ∈ q, p.id ∈ mem.live
  old   : ∀ p ∈ q, p.id < mem.next

/-- The linked list is the queue `q`; the tail pointer is right unless the queue is empty. -/
structure PQ0 (pq : PQueue) (q : List Pktbuf) : Prop where
  chain : Chain pq.heap pq.head q
  tail  : ∀ p, q.getLast? = some p → pq.tail = some p.id

/-- The linked list is the queue `q`. -/
structure PQ (pq : PQueue) (q : List Pktbuf) : Prop extends PQ0 pq q where
  empty : q = [] → pq.tail = none

theorem Chain.mono {heap heap' : Nat → Option Node} {q : List Pktbuf} :
    ∀ {h : Option Nat}, Chain heap h q → (∀ p ∈ q, heap' p.id = heap p.id) → Chain heap' h q := by
  induction q with
  | nil => intro h hc _; exact hc
  | cons p q ih =>
    intro h hc hm
    obtain ⟨h1, n, h2, h3, h4⟩ := hc
    exact ⟨h1, n, by rw [hm p (by simp), h2], h3, ih h4 (fun x hx => hm x (by simp [hx]))⟩

theorem PQ0.cleanup {pq : PQueue} {q : List Pktbuf} (h : PQ0 pq q) : PQ pq.cleanup q := by
  cases q with
  | nil =>
    have hh : pq.head = none := h.chain
    have he : pq.cleanup = { pq with tail := none } := by unfold PQueue.cleanup; rw [hh]
    rw [he]
    exact ⟨⟨hh, by simp⟩, fun _ => rfl⟩
  | cons p q =>
    have hh : pq.head = some p.id := h.chain.1
    have he : pq.cleanup = pq := by unfold PQueue.cleanup; rw [hh]
    rw [he]
    exact ⟨h, by simp⟩

theorem QIds.node {mem : Mem} {pq : PQueue} {p : Pktbuf} {q : List Pktbuf} {h : Option Nat}
    (hi : p.id ∈ mem.live) (hc : Chain pq.heap h (p :: q)) :
    ∃ n, pq.node mem (some p.id) = .ok (p.id, n) ∧ n.pkt = p ∧ Chain pq.heap n.next q := by
  obtain ⟨_, n, h2, h3, h4⟩ := hc
  exact ⟨n, by simp [PQueue.node, hi, h2], h3, h4⟩

theorem free_live {mem mem' : Mem} {i : Nat} (h : mem.free (some i) = .ok mem') :
    i ∈ mem.live ∧ mem' = { mem with live := mem.live.erase i } := by
  simp only [Mem.free] at h
  split at h
  · rename_i hm; cases h; exact ⟨hm, rfl⟩
  · cases h

theorem QIds.tail_free {mem : Mem} {p : Pktbuf} {q : List Pktbuf} (h : QIds mem (p :: q)) :
    QIds { mem with live := mem.live.erase p.id } q := by
  have hn := h.nodup
  simp only [List.map_cons, List.nodup_cons] at hn
  refine ⟨hn.2, fun x hx => ?_, fun x hx => h.old x (by simp [hx])⟩
  have hne : x.id ≠ p.id := fun he => hn.1 (he ▸ List.mem_map_of_mem hx)
  exact (List.mem_erase_of_ne hne).mpr (h.live x (by simp [hx]))

/-- The loop of `mctp_send_tx_queue`. -/
theorem sendQueueP_eq {ops : Ops β} {cap : Bool} {i : Nat} {q : List Pktbuf} :
    ∀ {fuel : Nat} {mem mem' : Mem} {bus bus' b' : Bus β} {pq : PQueue} {e : List Event},
    q.length < fuel → QIds mem q → PQ0 pq q →
    { bus' with queue := [] } = { bus with queue := [] } →
    sendQueue ops cap i mem bus q = .ok (mem', b', e) →
    ∃ bp pq', sendQueueP ops cap i fuel mem bus' pq = .ok (mem', bp, pq', e) ∧
      { bp with queue := b'.queue } = b' ∧ PQ pq' b'.queue ∧ QIds mem' b'.queue := by
  induction q with
  | nil =>
    intro fuel mem mem' bus bus' b' pq e hf hi hq hb h
    obtain ⟨f, rfl⟩ : ∃ f, fuel = f + 1 := ⟨fuel - 1, by simp at hf; omega⟩
    have hh : pq.head = none := hq.chain
    cases h
    refine ⟨bus', pq.cleanup, ?_, hb, hq.cleanup, ⟨by simp, by simp, by simp⟩⟩
    simp [sendQueueP, hh]
  | cons p q ih =>
    intro fuel mem mem' bus bus' b' pq e hf hi hq hb h
    obtain ⟨f, rfl⟩ : ∃ f, fuel = f + 1 := ⟨fuel - 1, by simp at hf; omega⟩
    have hh : pq.head = some p.id := hq.chain.1
    have hb' := hb
    simp only [Bus.mk.injEq, and_true] at hb'
    obtain ⟨heid, hbi, hst⟩ := hb'
    unfold sendQueue at h
    split at h
    · rename_i hen
      cases h
      refine ⟨bus', pq.cleanup, by simp [sendQueueP, hh, hst, hen], ?_, hq.cleanup, hi⟩
      cases bus; cases bus'; simp_all
    · rename_i hen
      have hl : p.id ∈ mem.live := hi.live p (by simp)
      obtain ⟨n, hn, hnp, hch⟩ := QIds.node (mem := mem) (pq := pq) hl (hh ▸ hq.chain)
      obtain ⟨_, hd, h⟩ := Res.bind_eq_ok.mp h
      obtain ⟨out, ho, h⟩ := Res.bind_eq_ok.mp h
      have hput : ∀ x ∈ q, (pq.put p.id { n with pkt := { out.pkt with id := p.id } }).heap x.id = pq.heap x.id := by
        intro x hx
        have hnd := hi.nodup
        simp only [List.map_cons, List.nodup_cons] at hnd
        have hne : x.id ≠ p.id := fun he => hnd.1 (he ▸ List.mem_map_of_mem hx)
        simp [PQueue.put, hne]
      have hnode2 : (pq.put p.id { n with pkt := { out.pkt with id := p.id } }).node mem (some p.id)
          = .ok (p.id, { n with pkt := { out.pkt with id := p.id } }) := by
        simp [PQueue.node, hl, PQueue.put]
      dsimp only at h
      split at h
      · rename_i hrc
        obtain ⟨m1, hm1, h⟩ := Res.bind_eq_ok.mp h
        obtain ⟨⟨m2, b2, e2⟩, h2, h⟩ := Res.bind_eq_ok.mp h
        cases h
        have hfr := free_live hm1
        have hm1' := hm1
        unfold pktbufFree at hm1'
        have hch2 : Chain (pq.put p.id { n with pkt := { out.pkt with id := p.id } }).heap n.next q := hch.mono hput
        have htl : ∀ x, q.getLast? = some x → pq.tail = some x.id := by
          intro x hx
          apply hq.tail
          cases q with
          | nil => simp at hx
          | cons y ys => rw [List.getLast?_cons_cons]; exact hx
        obtain ⟨bp, pq', hs, hbp, hpq, hids⟩ := ih (fuel := f)
          (bus' := { bus' with binding := { bus'.binding with st := out.st },
                               state := if out.disableTx then .txDisabled else .txEnabled })
          (pq := { pq.put p.id { n with pkt := { out.pkt with id := p.id } } with head := n.next })
          (by simp at hf; omega) (hfr.2 ▸ hi.tail_free) ⟨hch2, htl⟩
          (by simp [hbi, heid]) h2
        refine ⟨bp, pq', ?_, hbp, hpq, hids⟩
        simp only [sendQueueP, hh, hst]
        rw [if_neg hen]
        simp only [hn, bind, Except.bind, hbi, hnp, ho]
        rw [if_pos hrc]
        simp only [hnode2, hm1']
        have hs' := hs
        rw [hbi] at hs'
        rw [hs']
      · rename_i hrc
        cases h
        refine ⟨{ bus' with binding := { bus'.binding with st := out.st },
                            state := if out.disableTx then .txDisabled else .txEnabled },
          (pq.put p.id { n with pkt := { out.pkt with id := p.id } }).cleanup, ?_, by simp [hbi, heid], ?_, ?_⟩
        · simp only [sendQueueP, hh, hst]
          rw [if_neg hen]
          simp only [hn, bind, Except.bind, hbi, hnp, ho]
          rw [if_neg hrc]
        · apply PQ0.cleanup
          refine ⟨⟨hh, { n with pkt := { out.pkt with id := p.id } }, by simp [PQueue.put], rfl, hch.mono hput⟩, ?_⟩
          intro x hx
          cases q with
          | nil =>
            simp only [List.getLast?_singleton, Option.some.injEq] at hx
            subst hx
            exact hq.tail p (by simp)
          | cons y ys =>
            rw [List.getLast?_cons_cons] at hx
            exact hq.tail x (by rw [List.getLast?_cons_cons]; exact hx)
        · refine ⟨hi.nodup, ?_, ?_⟩
          · intro x hx
            rcases List.mem_cons.mp hx with rfl | hx
            · exact hl
            · exact hi.live x (by simp [hx])
          · intro x hx
            rcases List.mem_cons.mp hx with rfl | hx
            · exact hi.old p (by simp)
            · exact hi.old x (by simp [hx])

theorem Chain.append {heap : Nat → Option Node} {pkt t : Pktbuf} {q : List Pktbuf} :
    ∀ {h : Option Nat}, Chain heap h q → q.getLast? = some t → (q.map Pktbuf.id).Nodup →
    heap pkt.id = some ⟨pkt, none⟩ → pkt.id ∉ q.map Pktbuf.id →
    ∃ n, heap t.id = some n ∧
      Chain (fun j => if j = t.id then some { n with next := some pkt.id } else heap j) h (q ++ [pkt]) := by
  induction q with
  | nil => intro h _ hl; simp at hl
  | cons p q ih =>
    intro h hc hl hn hp hnew
    obtain ⟨h1, n, h2, h3, h4⟩ := hc
    simp only [List.map_cons, List.mem_cons, not_or] at hnew
    simp only [List.map_cons, List.nodup_cons] at hn
    cases q with
    | nil =>
      simp only [List.getLast?_singleton, Option.some.injEq] at hl
      subst hl
      refine ⟨n, h2, h1, { n with next := some pkt.id }, if_pos rfl, h3, ?_⟩
      refine ⟨rfl, ⟨pkt, none⟩, ?_, rfl, rfl⟩
      show (if pkt.id = p.id then _ else heap pkt.id) = _
      rw [if_neg hnew.1]
      exact hp
    | cons y ys =>
      rw [List.getLast?_cons_cons] at hl
      obtain ⟨n', hn', hch⟩ := ih h4 hl hn.2 hp hnew.2
      have hne : p.id ≠ t.id := by
        intro he
        have : t ∈ y :: ys := List.mem_of_getLast? hl
        exact hn.1 (he ▸ List.mem_map_of_mem this)
      exact ⟨n', hn', h1, n, by show (if p.id = t.id then _ else heap p.id) = _; rw [if_neg hne]; exact h2, h3, hch⟩

/-- Adding a packet buffer. -/
theorem PQ.add {mem : Mem} {pq : PQueue} {q : List Pktbuf} {pkt : Pktbuf} (h : PQ pq q) (hi : QIds mem q)
    (hnew : pkt.id ∉ q.map Pktbuf.id) : ∃ pq', pq.add mem pkt = .ok pq' ∧ PQ pq' (q ++ [pkt]) := by
  unfold PQueue.add
  cases hl : q.getLast? with
  | none =>
    have hq : q = [] := List.getLast?_eq_none_iff.mp hl
    subst hq
    have ht : pq.tail = none := h.empty rfl
    refine ⟨{ pq.put pkt.id ⟨pkt, none⟩ with head := some pkt.id, tail := some pkt.id }, ?_, ?_⟩
    · simp [PQueue.put, ht]
    · refine ⟨⟨⟨rfl, ⟨pkt, none⟩, by simp [PQueue.put], rfl, rfl⟩, ?_⟩, by simp⟩
      intro p hp
      simp at hp
      subst hp
      rfl
  | some t =>
    have ht : pq.tail = some t.id := h.tail t hl
    have htm : t ∈ q := List.mem_of_getLast? hl
    have hch : Chain (pq.put pkt.id ⟨pkt, none⟩).heap pq.head q := by
      refine h.chain.mono fun p hp => ?_
      have hne : p.id ≠ pkt.id := fun he => hnew (he ▸ List.mem_map_of_mem hp)
      simp [PQueue.put, hne]
    obtain ⟨n, hn, hch'⟩ := hch.append hl hi.nodup (by simp [PQueue.put]) hnew
    refine ⟨{ (pq.put pkt.id ⟨pkt, none⟩).put t.id { n with next := some pkt.id } with tail := some pkt.id }, ?_, ?_⟩
    · have h1 : (pq.put pkt.id ⟨pkt, none⟩).tail = some t.id := ht
      have h2 : (pq.put pkt.id ⟨pkt, none⟩).node mem (some t.id) = .ok (t.id, n) := by
        simp only [PQueue.node, hi.live t htm, if_true, hn]
      simp only [h1, h2, bind, Except.bind]
    · refine ⟨⟨hch', ?_⟩, by simp⟩
      intro p hp
      simp at hp
      subst hp
      rfl

theorem write_id {p p' : Pktbuf} {off : Nat} {bs : List Byte} (h : p.write off bs = .ok p') : p'.id = p.id := by
  unfold Pktbuf.write at h
  split at h
  · cases h; rfl
  · cases h

theorem pktbufAlloc_id {mem mem1 : Mem} {fill : Nat → Byte} {a b c n : Nat} {pkt : Pktbuf}
    (h : pktbufAlloc mem fill a b c n = (some pkt, mem1)) :
    pkt.id = mem.next ∧ mem1 = { mem with next := mem.next + 1, live := mem.next :: mem.live } := by
  unfold pktbufAlloc at h
  dsimp only at h
  split at h
  · simp at h
  · unfold Mem.alloc at h
    split at h
    · simp at h
    · rename_i hx
      split at hx
      · simp only [Prod.mk.injEq, Option.some.injEq] at hx h
        rw [← h.1, ← h.2, ← hx.1, ← hx.2]
        exact ⟨rfl, rfl⟩
      · simp at hx

/-- The packetisation loop. -/
theorem txLoopP_eq {fill : Nat → Byte} {b : Binding β} {src dest : Byte} {to : Bool} {tag : Byte} {mp : Nat}
    {msg : List Byte} {fuel : Nat} :
    ∀ {p i : Nat} {mem mem' : Mem} {pq : PQueue} {q q' : List Pktbuf}, QIds mem q → PQ pq q →
    txLoop fill b src dest to tag mp msg fuel p i mem q = .ok (mem', q') →
    ∃ pq', txLoopP fill b src dest to tag mp msg fuel p i mem pq = .ok (mem', pq') ∧ PQ pq' q' ∧ QIds mem' q' := by
  induction fuel with
  | zero =>
    intro p i mem mem' pq q q' hi hq h
    unfold txLoop at h
    unfold txLoopP
    split at h
    · cases h
    · rename_i hp
      cases h
      rw [if_neg hp]
      exact ⟨pq, rfl, hq, hi⟩
  | succ fuel ih =>
    intro p i mem mem' pq q q' hi hq h
    unfold txLoop at h
    unfold txLoopP
    split at h
    · rename_i hp
      rw [if_pos hp]
      dsimp only at h ⊢
      cases ha : pktbufAlloc mem fill b.pktSize b.pktHeader b.pktTrailer
          ((if msg.length - p > mp then mp else msg.length - p) + hdrSize) with
      | mk o mem1 =>
        rw [ha] at h
        cases o with
        | none => cases h
        | some pkt =>
          dsimp only at h ⊢
          have hal : pkt.id = mem.next ∧ mem1 = { mem with next := mem.next + 1, live := mem.next :: mem.live } := by
            exact pktbufAlloc_id ha
          cases hw1 : pkt.write pkt.hdrOff
              [b.version &&& 0xf, dest, src, flagsSeqTag to tag (i == 0)
                (decide (p + (if msg.length - p > mp then mp else msg.length - p) ≥ msg.length)) i] with
          | error e => rw [hw1] at h; cases h
          | ok pkt1 =>
            rw [hw1] at h
            dsimp only at h ⊢
            cases hw2 : pkt1.write (pkt1.hdrOff + hdrSize)
                ((msg.drop p).take (if msg.length - p > mp then mp else msg.length - p)) with
            | error e => rw [hw2] at h; cases h
            | ok pkt2 =>
              rw [hw2] at h
              dsimp only at h ⊢
              have hid : pkt2.id = mem.next := by rw [write_id hw2, write_id hw1, hal.1]
              have hnew : pkt2.id ∉ q.map Pktbuf.id := by
                intro hm
                obtain ⟨x, hx, he⟩ := List.mem_map.mp hm
                have := hi.old x hx
                omega
              have hi1 : QIds mem1 q := by
                rw [hal.2]
                refine ⟨hi.nodup, fun x hx => ?_, fun x hx => ?_⟩
                · exact List.mem_cons_of_mem _ (hi.live x hx)
                · exact Nat.lt_succ_of_lt (hi.old x hx)
              obtain ⟨pq1, hadd, hq1⟩ := hq.add hi1 hnew
              rw [hadd]
              dsimp only
              refine ih ?_ hq1 h
              refine ⟨?_, ?_, ?_⟩
              · rw [List.map_append, List.nodup_append]
                refine ⟨hi.nodup, by simp, ?_⟩
                intro a ha1 c hc
                simp only [List.map_cons, List.map_nil, List.mem_singleton] at hc
                subst hc
                exact fun he => hnew (he ▸ ha1)
              · intro x hx
                rcases List.mem_append.mp hx with hx | hx
                · exact hi1.live x hx
                · simp only [List.mem_singleton] at hx
                  subst hx
                  rw [hal.2, hid]; simp
              · intro x hx
                rcases List.mem_append.mp hx with hx | hx
                · exact hi1.old x hx
                · simp only [List.mem_singleton] at hx
                  subst hx
                  rw [hal.2, hid]; simp
    · rename_i hp
      cases h
      rw [if_neg hp]
      exact ⟨pq, rfl, hq, hi⟩

/-- The two cores are the same, with the queue of bus `i` once as a list and once as a linked list. -/
structure QRel (i : Nat) (c : Core β) (p : PCore β) (pb : Bus β) (q : List Pktbuf) : Prop where
  bus  : p.core.busses[i]? = some pb
  same : c = p.core.setBus i { pb with queue := q }
  list : PQ p.q q
  ids  : QIds p.core.mem q

theorem set_get {α : Type} {l : List α} {i : Nat} {a b : α} (h : l[i]? = some a) : (l.set i b)[i]? = some b := by
  have := (List.getElem?_eq_some_iff.mp h).1
  simp [List.getElem?_set, this]

theorem QRel.busAt {i : Nat} {c : Core β} {p : PCore β} {pb bus : Bus β} {q : List Pktbuf} (h : QRel i c p pb q)
    (hb : c.busAt i = .ok bus) : p.core.busAt i = .ok pb ∧ bus = { pb with queue := q } := by
  obtain ⟨h1, h2, h3⟩ := busAt_ok hb
  rw [h.same] at h1 h2 h3
  simp only [Core.setBus] at h1 h2 h3
  rw [set_get h.bus] at h2
  cases h2
  refine ⟨?_, rfl⟩
  simp only [Core.busAt, h1, if_true, h3, h.bus]

theorem setBus_setBus (c : Core β) (i : Nat) (a b : Bus β) : (c.setBus i a).setBus i b = c.setBus i b := by
  simp [Core.setBus, List.set_set]

theorem nodup_le {α : Type} [DecidableEq α] {l : List α} : ∀ {m : List α}, l.Nodup → (∀ x ∈ l, x ∈ m) →
    l.length ≤ m.length := by
  induction l with
  | nil => intro m _ _; simp
  | cons a l ih =>
    intro m hn hm
    simp only [List.nodup_cons] at hn
    have ha : a ∈ m := hm a (by simp)
    have h1 : l.length ≤ (m.erase a).length := by
      refine ih hn.2 fun x hx => ?_
      have hne : x ≠ a := fun he => hn.1 (he ▸ hx)
      exact (List.mem_erase_of_ne hne).mpr (hm x (by simp [hx]))
    rw [List.length_erase_of_mem ha] at h1
    have : 0 < m.length := List.length_pos_of_mem ha
    simp only [List.length_cons]
    omega

theorem QIds.length {mem : Mem} {q : List Pktbuf} (h : QIds mem q) : q.length < mem.live.length + 1 := by
  have := nodup_le h.nodup (m := mem.live) (by
    intro x hx
    obtain ⟨y, hy, rfl⟩ := List.mem_map.mp hx
    exact h.live y hy)
  rw [List.length_map] at this
  omega

theorem sendTxQueueP_eq {ops : Ops β} {i : Nat} {c c' : Core β} {p : PCore β} {pb : Bus β} {q : List Pktbuf}
    {e : List Event} (h : QRel i c p pb q) (hs : c.sendTxQueue ops i = .ok (c', e)) :
    ∃ p' pb' q', p.sendTxQueue ops i = .ok (p', e) ∧ QRel i c' p' pb' q' := by
  unfold Core.sendTxQueue at hs
  obtain ⟨bus, hb, hs⟩ := Res.bind_eq_ok.mp hs
  obtain ⟨⟨m, b, e1⟩, hq, hs⟩ := Res.bind_eq_ok.mp hs
  cases hs
  obtain ⟨hpb, rfl⟩ := h.busAt hb
  have hmem : c.mem = p.core.mem := by rw [h.same]; rfl
  have hcap : c.hasCapture = p.core.hasCapture := by rw [h.same]; rfl
  rw [hmem, hcap] at hq
  obtain ⟨bp, pq', h1, h2, h3, h4⟩ := sendQueueP_eq (bus := { pb with queue := q }) (bus' := pb) (fuel := p.core.mem.live.length + 1) h.ids.length h.ids
    h.list.toPQ0 rfl hq
  refine ⟨{ core := { p.core with mem := m }.setBus i bp, q := pq' }, bp, b.queue, ?_, ?_, ?_, h3, h4⟩
  · simp only [PCore.sendTxQueue, hpb, bind, Except.bind, h1]
  · exact set_get h.bus
  · rw [h2, h.same]
    simp [Core.setBus, List.set_set]

theorem setTxEnabledP_eq {ops : Ops β} {i : Nat} {c c' : Core β} {p : PCore β} {pb : Bus β} {q : List Pktbuf}
    {on : Bool} {e : List Event} (h : QRel i c p pb q) (hs : c.setTxEnabled ops i on = .ok (c', e)) :
    ∃ p' pb' q', p.setTxEnabled ops i on = .ok (p', e) ∧ QRel i c' p' pb' q' := by
  unfold Core.setTxEnabled at hs
  obtain ⟨bus, hb, hs⟩ := Res.bind_eq_ok.mp hs
  obtain ⟨hpb, rfl⟩ := h.busAt hb
  have hset : ∀ st : BusState, QRel i (c.setBus i { pb with queue := q, state := st })
      { p with core := p.core.setBus i { pb with state := st } } { pb with state := st } q := by
    intro st
    refine ⟨set_get h.bus, ?_, h.list, h.ids⟩
    rw [h.same, setBus_setBus, setBus_setBus]
  cases hst : pb.state with
  | constructed =>
    simp only [hst] at hs
    split at hs
    · rename_i hon
      cases hs
      exact ⟨p, pb, q, by simp only [PCore.setTxEnabled, hpb, bind, Except.bind, hst, hon, if_true], h⟩
    · rename_i hon
      split at hs
      · rename_i hsz
        cases hs
        refine ⟨p, pb, q, ?_, h⟩
        simp only [PCore.setTxEnabled, hpb, bind, Except.bind, hst, hon]
        rw [if_neg (by simp), if_pos hsz]
      · rename_i hsz
        cases hs
        refine ⟨_, _, q, ?_, hset .txEnabled⟩
        simp only [PCore.setTxEnabled, hpb, bind, Except.bind, hst, hon]
        rw [if_neg (by simp), if_neg hsz]
  | txEnabled =>
    simp only [hst] at hs
    split at hs
    · rename_i hon
      cases hs
      exact ⟨p, pb, q, by simp only [PCore.setTxEnabled, hpb, bind, Except.bind, hst, hon, if_true], h⟩
    · rename_i hon
      cases hs
      refine ⟨_, _, q, ?_, hset .txDisabled⟩
      simp only [PCore.setTxEnabled, hpb, bind, Except.bind, hst, hon]
      rw [if_neg (by simp)]
  | txDisabled =>
    simp only [hst] at hs
    split at hs
    · rename_i hon
      cases hs
      exact ⟨p, pb, q, by simp only [PCore.setTxEnabled, hpb, bind, Except.bind, hst, hon, if_true], h⟩
    · rename_i hon
      obtain ⟨p', pb', q', h1, h2⟩ := sendTxQueueP_eq (hset .txEnabled) hs
      refine ⟨p', pb', q', ?_, h2⟩
      simp only [PCore.setTxEnabled, hpb, bind, Except.bind, hst, hon]
      rw [if_neg (by simp)]
      exact h1

theorem messageTxOnBusP_eq {ops : Ops β} {i : Nat} {c c' : Core β} {p : PCore β} {pb : Bus β} {q : List Pktbuf}
    {src dest : Byte} {to : Bool} {tag : Byte} {msg : List Byte} {e : List Event} {rc : Int} (h : QRel i c p pb q)
    (hs : c.messageTxOnBus ops i src dest to tag msg = .ok (c', e, rc)) :
    ∃ p' pb' q', p.messageTxOnBus ops i src dest to tag msg = .ok (p', e, rc) ∧ QRel i c' p' pb' q' := by
  unfold Core.messageTxOnBus at hs
  obtain ⟨bus, hb, hs⟩ := Res.bind_eq_ok.mp hs
  obtain ⟨hpb, rfl⟩ := h.busAt hb
  dsimp only at hs
  split at hs
  · rename_i hst
    cases hs
    refine ⟨p, pb, q, ?_, h⟩
    simp only [PCore.messageTxOnBus, hpb, bind, Except.bind]
    rw [if_pos hst]
  · rename_i hst
    split at hs
    · rename_i ht
      cases hs
      refine ⟨p, pb, q, ?_, h⟩
      simp only [PCore.messageTxOnBus, hpb, bind, Except.bind]
      rw [if_neg hst, if_pos ht]
    · rename_i ht
      split at hs
      · cases hs
      · rename_i hsz
        obtain ⟨⟨mem, q1⟩, hl, hs⟩ := Res.bind_eq_ok.mp hs
        obtain ⟨⟨c1, e1⟩, h1, hs⟩ := Res.bind_eq_ok.mp hs
        cases hs
        have hmem : c.mem = p.core.mem := by rw [h.same]; rfl
        have hfill : c.fill = p.core.fill := by rw [h.same]; rfl
        rw [hmem, hfill] at hl
        obtain ⟨pq1, hl', hq1, hi1⟩ := txLoopP_eq h.ids h.list hl
        have hrel : QRel i ({ c with mem := mem }.setBus i { pb with queue := q1 })
            { core := { p.core with mem := mem }, q := pq1 } pb q1 := by
          refine ⟨h.bus, ?_, hq1, hi1⟩
          rw [h.same]
          simp [Core.setBus, List.set_set]
        obtain ⟨p', pb', q', h2, h3⟩ := sendTxQueueP_eq hrel h1
        refine ⟨p', pb', q', ?_, h3⟩
        simp only [PCore.messageTxOnBus, hpb, bind, Except.bind]
        rw [if_neg hst, if_neg ht, if_neg hsz]
        simp only [hl', h2]

theorem rx_busses {ops : Ops β} {c : Core β} (hbr : c.bridge = false) (bs : List (Bus β)) (i : Nat) (bus bus' : Bus β)
    (h1 : bus'.eid = bus.eid) (h2 : bus'.binding = bus.binding) (src dest : Byte) (to : Bool) (tag : Byte)
    (msg : List Byte) :
    ({ c with busses := bs } : Core β).rx ops i bus' src dest to tag msg =
      (c.rx ops i bus src dest to tag msg).map (fun r => ({ r.1 with busses := bs }, r.2)) := by
  unfold Core.rx
  simp only [hbr, h1, h2, Bool.false_eq_true, if_false]
  split
  · split
    · simp [Except.map, hbr]
    · split <;> simp [Except.map, hbr]
  · simp [Except.map, hbr]

theorem busRxBody_busses {ops : Ops β} {c : Core β} (hbr : c.bridge = false) (bs : List (Bus β)) (i : Nat)
    (bus bus' : Bus β) (h1 : bus'.eid = bus.eid) (h2 : bus'.binding = bus.binding) (pkt : Pktbuf) :
    ({ c with busses := bs } : Core β).busRxBody ops i bus' pkt =
      (c.busRxBody ops i bus pkt).map (fun r => ({ r.1 with busses := bs }, r.2)) := by
  rw [busRxBody_eq, busRxBody_eq]
  split
  · rfl
  · simp only [h1]
    split
    · rfl
    · split
      · split
        · rfl
        · exact rx_busses hbr bs i bus bus' h1 h2 ..
      · unfold Core.rxFrag
        dsimp only
        cases ctxRx c.mem c.ctxs c.maxSize pkt _ _ _ _ _ _ with
        | error e => rfl
        | ok r =>
          obtain ⟨m, t, out⟩ := r
          simp only [Res.bind_ok]
          cases out with
          | none => rfl
          | some msg =>
            exact rx_busses (c := { c with mem := m, ctxs := t }) hbr bs i bus bus' h1 h2 ..
  · rfl

theorem rx_keeps {ops : Ops β} {c c' : Core β} (hbr : c.bridge = false) {i : Nat} {bus : Bus β} {src dest : Byte}
    {to : Bool} {tag : Byte} {msg : List Byte} {e : List Event}
    (h : c.rx ops i bus src dest to tag msg = .ok (c', e)) : c' = c := by
  unfold Core.rx at h
  simp only [hbr, Bool.false_eq_true, if_false] at h
  split at h
  · split at h
    · cases h; rfl
    · split at h <;> (cases h; rfl)
  · cases h; rfl

theorem busRxBody_keeps {ops : Ops β} {c c' : Core β} (hbr : c.bridge = false) {i : Nat} {bus : Bus β} {pkt : Pktbuf}
    {e : List Event} (h : c.busRxBody ops i bus pkt = .ok (c', e)) :
    c'.busses = c.busses ∧ c'.bridge = c.bridge := by
  rw [busRxBody_eq] at h
  split at h
  · cases h
  · split at h
    · cases h; exact ⟨rfl, rfl⟩
    · split at h
      · split at h
        · cases h
        · rw [rx_keeps hbr h]; exact ⟨rfl, rfl⟩
      · unfold Core.rxFrag at h
        obtain ⟨⟨m, t, out⟩, _, h⟩ := Res.bind_eq_ok.mp h
        cases out with
        | none => cases h; exact ⟨rfl, rfl⟩
        | some msg =>
          have := rx_keeps (c := { c with mem := m, ctxs := t }) hbr h
          rw [this]; exact ⟨rfl, rfl⟩
  · cases h

/-- Receiving a packet on an endpoint does not depend on the transmit queue. -/
theorem QRel.rxPacket {ops : Ops β} {c c' : Core β} {p : PCore β} {pb : Bus β} {q : List Pktbuf} {i : Nat}
    {bytes : List Byte} {e : List Event} (h : QRel 0 c p pb q) (hbr : c.bridge = false)
    (hone : p.core.busses = [pb]) (hs : c.rxPacket ops i bytes = .ok (c', e)) :
    ∃ core', p.core.rxPacket ops i bytes = .ok (core', e) ∧ core'.busses = [pb] ∧
      c' = core'.setBus 0 { pb with queue := q } := by
  unfold Core.rxPacket at hs
  obtain ⟨bus, hb, hs⟩ := Res.bind_eq_ok.mp hs
  have hcb : c.busses = [{ pb with queue := q }] := by rw [h.same]; simp [Core.setBus, hone]
  obtain ⟨rfl, hbus⟩ := busAt_single hcb hb
  obtain ⟨hpb, _⟩ := h.busAt hb
  have hmem : c.mem = p.core.mem := by rw [h.same]; rfl
  have hfill : c.fill = p.core.fill := by rw [h.same]; rfl
  rw [hbus] at hs
  dsimp only at hs
  unfold Core.rxPacket
  simp only [hpb, Res.bind_ok]
  cases ha : pktbufAlloc p.core.mem p.core.fill pb.binding.pktSize pb.binding.pktHeader pb.binding.pktTrailer
      bytes.length with
  | mk o m1 =>
    rw [hmem, show c.fill = p.core.fill from hfill, ha] at hs
    rw [← hfill] at hs
    cases o with
    | none =>
      cases hs
      refine ⟨_, rfl, hone, ?_⟩
      rw [h.same]; rfl
    | some pkt =>
      obtain ⟨pkt', hw, hs⟩ := Res.bind_eq_ok.mp hs
      dsimp only
      rw [hw]
      simp only [Res.bind_ok]
      have hc : ({ c with mem := m1 } : Core β) =
          { ({ p.core with mem := m1 } : Core β) with busses := [{ pb with queue := q }] } := by
        rw [h.same]; simp [Core.setBus, hone]
      rw [hc] at hs
      have hbr' : p.core.bridge = false := by rw [h.same] at hbr; exact hbr
      unfold Core.busRx at hs ⊢
      dsimp only at hs ⊢
      split at hs
      · cases hs
      · rename_i hn
        rw [if_neg hn]
        obtain ⟨bus2, hb2, hs⟩ := Res.bind_eq_ok.mp hs
        obtain ⟨hx1, hx2, hx3⟩ := busAt_ok hb2
        simp only [List.getElem?_cons_zero, Option.some.injEq] at hx2
        have hpb2 : ({ p.core with mem := m1 } : Core β).busAt 0 = .ok pb := by
          unfold Core.busAt
          dsimp only at hx1 hx3 ⊢
          rw [if_pos hx1, hx3, hone]
          rfl
        rw [hpb2]
        obtain ⟨_, hd, hs⟩ := Res.bind_eq_ok.mp hs
        simp only [Res.bind_ok]
        rw [hd]
        simp only [Res.bind_ok]
        split at hs
        · rename_i hlen
          rw [if_pos hlen]
          obtain ⟨m2, hm2, hs⟩ := Res.bind_eq_ok.mp hs
          cases hs
          rw [hm2]
          simp only [Res.bind_ok]
          exact ⟨_, rfl, hone, by simp [Core.setBus, hone]⟩
        · rename_i hlen
          rw [if_neg hlen]
          obtain ⟨⟨c1, e1⟩, h1, hs⟩ := Res.bind_eq_ok.mp hs
          obtain ⟨m2, hm2, hs⟩ := Res.bind_eq_ok.mp hs
          cases hs
          rw [busRxBody_busses (c := { p.core with mem := m1 }) hbr' _ 0 pb bus2 (by rw [← hx2]) (by rw [← hx2])] at h1
          cases hr : ({ p.core with mem := m1 } : Core β).busRxBody ops 0 pb pkt' with
          | error x => rw [hr] at h1; cases h1
          | ok r =>
            obtain ⟨c3, e3⟩ := r
            rw [hr] at h1
            cases h1
            have hk := busRxBody_keeps (c := { p.core with mem := m1 }) hbr' hr
            simp only [Res.bind_ok]
            dsimp only at hm2
            rw [hm2]
            simp only [Res.bind_ok]
            refine ⟨_, rfl, ?_, ?_⟩
            · rw [hk.1]; exact hone
            · simp only [Core.setBus, hk.1, hone, List.set_cons_zero]

theorem sendTxQueue_bridge {ops : Ops β} {i : Nat} {c c' : Core β} {e : List Event}
    (h : c.sendTxQueue ops i = .ok (c', e)) :
    c'.bridge = c.bridge ∧ c'.busses.length = c.busses.length := by
  obtain ⟨bus, _, h⟩ := Res.bind_eq_ok.mp h
  obtain ⟨⟨m, b, e1⟩, _, h⟩ := Res.bind_eq_ok.mp h
  cases h; simp [Core.setBus]

theorem setTxEnabled_bridge {ops : Ops β} {i : Nat} {c c' : Core β} {on : Bool} {e : List Event}
    (h : c.setTxEnabled ops i on = .ok (c', e)) :
    c'.bridge = c.bridge ∧ c'.busses.length = c.busses.length := by
  obtain ⟨bus, _, h⟩ := Res.bind_eq_ok.mp h
  split at h
  · split at h
    · cases h; simp [Core.setBus]
    · split at h <;> (cases h; simp [Core.setBus])
  · split at h <;> (cases h; simp [Core.setBus])
  · split at h
    · cases h; simp [Core.setBus]
    · simpa [Core.setBus] using sendTxQueue_bridge h

theorem messageTx_bridge {ops : Ops β} {c c' : Core β} {eid : Byte} {to : Bool} {tag : Byte} {msg : List Byte}
    {e : List Event} {rc : Int} (h : c.messageTx ops eid to tag msg = .ok (c', e, rc)) :
    c'.bridge = c.bridge ∧ c'.busses.length = c.busses.length := by
  unfold Core.messageTx at h
  split at h
  · cases h; simp [Core.setBus]
  · split at h
    · cases h; simp [Core.setBus]
    · obtain ⟨bus, _, h⟩ := Res.bind_eq_ok.mp h
      unfold Core.messageTxOnBus at h
      obtain ⟨bus, _, h⟩ := Res.bind_eq_ok.mp h
      split at h
      · cases h; simp [Core.setBus]
      · dsimp only at h
        split at h
        · cases h
        · obtain ⟨⟨mem, q1⟩, _, h⟩ := Res.bind_eq_ok.mp h
          obtain ⟨⟨c1, e1⟩, h1, h⟩ := Res.bind_eq_ok.mp h
          cases h
          simpa [Core.setBus] using sendTxQueue_bridge h1

/-- The two endpoints are the same, with the queue once as a list and once as a linked list. -/
structure QSame (c : Core β) (p : PCore β) (pb : Bus β) (q : List Pktbuf) : Prop where
  one    : p.core.busses = [pb]
  same   : c = p.core.setBus 0 { pb with queue := q }
  list   : PQ p.q q
  noBr   : p.core.bridge = false

theorem MemInv.qids {ops : Ops β} {K : Contract ops} {base : List Nat} {c : Core β} (h : MemInv K base c) {bus : Bus β}
    (hb : bus ∈ c.busses) : QIds c.mem bus.queue := by
  have hsub : ∀ i, (bus.queue.map Pktbuf.id).count i ≤ c.mem.live.count i := by
    intro i
    rw [h.owns.cnt]
    have h1 : (bus.queue.map Pktbuf.id).count i ≤ (queueIds c.busses).count i := by
      unfold queueIds
      obtain ⟨a, b, hab⟩ := List.append_of_mem hb
      rw [hab]
      simp only [List.flatMap_append, List.flatMap_cons, List.count_append]
      omega
    simp only [owned, List.count_append, List.count_cons]
    omega
  have hlive : ∀ p ∈ bus.queue, p.id ∈ c.mem.live := by
    intro p hp
    have h1 : 0 < (bus.queue.map Pktbuf.id).count p.id := List.count_pos_iff.mpr (List.mem_map_of_mem hp)
    exact List.count_pos_iff.mp (Nat.lt_of_lt_of_le h1 (hsub p.id))
  refine ⟨?_, hlive, fun p hp => h.owns.fresh _ (hlive p hp)⟩
  rw [List.nodup_iff_count]
  intro i
  exact Nat.le_trans (hsub i) (List.nodup_iff_count.mp h.owns.nd i)

theorem QSame.rel {ops : Ops β} {K : Contract ops} {base : List Nat} {c : Core β} {p : PCore β} {pb : Bus β}
    {q : List Pktbuf} (h : QSame c p pb q) (hm : MemInv K base c) : QRel 0 c p pb q := by
  refine ⟨by rw [h.one]; rfl, h.same, h.list, ?_⟩
  have h1 : ({ pb with queue := q } : Bus β) ∈ c.busses := by rw [h.same]; simp [Core.setBus, h.one]
  have := hm.qids h1
  rw [h.same] at this
  exact this

theorem QRel.toSame {c : Core β} {p : PCore β} {pb : Bus β} {q : List Pktbuf} (h : QRel 0 c p pb q)
    (h1 : p.core.busses.length = 1) (h2 : c.bridge = false) : QSame c p pb q := by
  refine ⟨?_, h.same, h.list, ?_⟩
  · have h3 := h.bus
    match hb : p.core.busses, h1 with
    | [x], _ => rw [hb] at h3; simp at h3; rw [h3]
  · rw [h.same] at h2; exact h2

theorem QRel.length {i : Nat} {c : Core β} {p : PCore β} {pb : Bus β} {q : List Pktbuf} (h : QRel i c p pb q) :
    c.busses.length = p.core.busses.length := by
  rw [h.same]; simp [Core.setBus]

/-- One API call. -/
theorem stepP_eq {ops : Ops β} {K : Contract ops} {base : List Nat} {c : Core β} {p : PCore β} {pb : Bus β}
    {q : List Pktbuf} (h : QSame c p pb q) (hm : MemInv K base c) {op : Op β} (hop : OpOk K c op) :
    ∃ c' p' e rc pb' q', c.step ops op = .ok (c', e, rc) ∧ p.step ops op = .ok (p', e, rc) ∧ MemInv K base c' ∧
      QSame c' p' pb' q' := by
  obtain ⟨c', e, rc, hs, hm'⟩ := step_total K hm hop
  have hr := h.rel hm
  have hbr : c.bridge = false := by rw [h.same]; exact h.noBr
  have hcb : c.busses = [{ pb with queue := q }] := by rw [h.same]; simp [Core.setBus, h.one]
  have hlen : c.busses.length = 1 := by rw [hcb]; rfl
  refine ⟨c', ?_⟩
  cases op with
  | recv i bytes =>
    obtain ⟨⟨c1, e1⟩, h1, hs'⟩ := Res.bind_eq_ok.mp hs
    cases hs'
    obtain ⟨core', h2, h3, h4⟩ := hr.rxPacket hbr h.one h1
    refine ⟨{ p with core := core' }, e, 0, pb, q, hs, by simp only [PCore.step, Core.step, h2, Res.bind_ok], hm', h3, h4,
      h.list, ?_⟩
    show core'.bridge = false
    obtain ⟨bus, hb, h2⟩ := Res.bind_eq_ok.mp h2
    split at h2
    · cases h2; exact h.noBr
    · obtain ⟨pkt', hw, h2⟩ := Res.bind_eq_ok.mp h2
      unfold Core.busRx at h2
      split at h2
      · cases h2
      · obtain ⟨bus2, hb2, h2⟩ := Res.bind_eq_ok.mp h2
        obtain ⟨_, _, h2⟩ := Res.bind_eq_ok.mp h2
        split at h2
        · obtain ⟨m2, _, h2⟩ := Res.bind_eq_ok.mp h2
          cases h2; exact h.noBr
        · dsimp only at h2
          obtain ⟨⟨c3, e3⟩, h5, h2⟩ := Res.bind_eq_ok.mp h2
          obtain ⟨m2, _, h2⟩ := Res.bind_eq_ok.mp h2
          cases h2
          have := (fun hb => busRxBody_keeps hb h5) h.noBr
          dsimp only at this ⊢
          rw [this.2]; exact h.noBr
  | send eid to tag msg =>
    have hs0 : c.messageTx ops eid to tag msg = .ok (c', e, rc) := hs
    have hbr' := messageTx_bridge hs0
    have hl' : c'.busses.length = 1 := by rw [hbr'.2, hlen]
    unfold Core.messageTx at hs0
    have hnb : p.core.nBusses = c.nBusses := by rw [h.same]; rfl
    split at hs0
    · rename_i ht
      cases hs0
      refine ⟨p, _, _, pb, q, hs, ?_, hm', h⟩
      simp only [PCore.step, PCore.messageTx]
      rw [if_pos ht]
    · rename_i ht
      split at hs0
      · rename_i hn
        have := hm.pos
        omega
      · rename_i hn
        obtain ⟨bus, hb, hs1⟩ := Res.bind_eq_ok.mp hs0
        obtain ⟨hpb, hbus⟩ := hr.busAt hb
        rw [hbus] at hs1
        obtain ⟨p', pb', q', h1, h2⟩ := messageTxOnBusP_eq hr hs1
        refine ⟨p', e, rc, pb', q', hs, ?_, hm', h2.toSame (by rw [← h2.length]; exact hl') (by rw [hbr'.1, hbr])⟩
        simp only [PCore.step, PCore.messageTx]
        rw [if_neg ht, hnb, if_neg hn]
        simp only [hpb, Res.bind_ok]
        exact h1
  | enable i on =>
    obtain ⟨⟨c1, e1⟩, h1, hs'⟩ := Res.bind_eq_ok.mp hs
    cases hs'
    have hi : i = 0 := by
      obtain ⟨bus, hb, _⟩ := Res.bind_eq_ok.mp h1
      exact (busAt_single hcb hb).1
    subst hi
    have hl' : c'.busses.length = 1 := by rw [(setTxEnabled_bridge h1).2, hlen]
    obtain ⟨p', pb', q', h2, h3⟩ := setTxEnabledP_eq hr h1
    exact ⟨p', e, 0, pb', q', hs, by simp only [PCore.step, h2, Res.bind_ok], hm',
      h3.toSame (by rw [← h3.length]; exact hl') (by rw [(setTxEnabled_bridge h1).1, hbr])⟩
  | setMax n =>
    cases hs
    refine ⟨{ p with core := p.core.setMaxMessageSize n }, _, _, pb, q, rfl, rfl, hm', h.one, ?_, h.list, h.noBr⟩
    rw [h.same]; rfl
  | setCapture on =>
    cases hs
    refine ⟨{ p with core := p.core.setCapture on }, _, _, pb, q, rfl, rfl, hm', h.one, ?_, h.list, h.noBr⟩
    rw [h.same]; rfl
  | setRx on =>
    cases hs
    refine ⟨{ p with core := p.core.setRxAll on }, _, _, pb, q, rfl, rfl, hm', h.one, ?_, h.list, h.noBr⟩
    rw [h.same]; rfl
  | rebind i st ps ph pt cr =>
    obtain ⟨b, hb, hs'⟩ := Res.bind_eq_ok.mp hs
    cases hs'
    obtain ⟨rfl, hbus⟩ := busAt_single hcb hb
    obtain ⟨hpb, _⟩ := hr.busAt hb
    refine ⟨{ p with core := p.core.setBus 0 { pb with binding :=
              { pb.binding with st := st, pktSize := ps, pktHeader := ph, pktTrailer := pt, controlRx := cr } } }, [], 0,
      { pb with binding := { pb.binding with
          st := st, pktSize := ps, pktHeader := ph, pktTrailer := pt, controlRx := cr } }, q, hs, ?_, hm', ?_, ?_,
      h.list, h.noBr⟩
    · simp only [PCore.step, Core.step, hpb, Res.bind_ok]
    · simp [Core.setBus, h.one]
    · rw [h.same, hbus]; simp [Core.setBus, h.one]

theorem runP_eq {ops : Ops β} {K : Contract ops} {base : List Nat} {hist : List (Op β)} :
    ∀ {c : Core β} {p : PCore β} {pb : Bus β} {q : List Pktbuf}, QSame c p pb q → MemInv K base c → HistOk K c hist →
    ∃ c' p' log pb' q', c.run ops hist = .ok (c', log) ∧ p.run ops hist = .ok (p', log) ∧ MemInv K base c' ∧
      QSame c' p' pb' q' := by
  induction hist with
  | nil => intro c p pb q h hm _; exact ⟨c, p, [], pb, q, rfl, rfl, hm, h⟩
  | cons op rest ih =>
    intro c p pb q h hm hv
    obtain ⟨c1, p1, e, rc, pb1, q1, h1, h2, h3, h4⟩ := stepP_eq h hm hv.1
    obtain ⟨c2, p2, log, pb2, q2, h5, h6, h7, h8⟩ := ih h4 h3 (hv.2 c1 e rc h1)
    exact ⟨c2, p2, { op := op, evs := e, rc := rc } :: log, pb2, q2, by simp only [Core.run, h1, Res.bind_ok, h5],
      by simp only [PCore.run, h2, Res.bind_ok, h6], h7, h8⟩

theorem Chain.walk {pq : PQueue} {q : List Pktbuf} : ∀ {h : Option Nat} {n : Nat}, Chain pq.heap h q → q.length ≤ n →
    pq.walk n h = q := by
  induction q with
  | nil =>
    intro h n hc _
    have : h = none := hc
    subst this
    cases n <;> rfl
  | cons p q ih =>
    intro h n hc hn
    obtain ⟨rfl, x, h2, h3, h4⟩ := hc
    obtain ⟨m, rfl⟩ : ∃ m, n = m + 1 := ⟨n - 1, by simp at hn; omega⟩
    simp only [PQueue.walk, h2, h3]
    rw [ih h4 (by simp at hn; omega)]

/-- `mctp_bus_destroy`. -/
theorem freeQueueP_eq {q : List Pktbuf} : ∀ {fuel : Nat} {mem mem' : Mem} {pq : PQueue}, q.length < fuel → QIds mem q →
    Chain pq.heap pq.head q → freeQueue mem q = .ok mem' →
    ∃ pq', freeQueueP fuel mem pq = .ok (mem', pq') ∧ pq'.head = none := by
  induction q with
  | nil =>
    intro fuel mem mem' pq hf hi hc h
    obtain ⟨f, rfl⟩ : ∃ f, fuel = f + 1 := ⟨fuel - 1, by simp at hf; omega⟩
    cases h
    have hh : pq.head = none := hc
    exact ⟨pq, by simp [freeQueueP, hh], hh⟩
  | cons p q ih =>
    intro fuel mem mem' pq hf hi hc h
    obtain ⟨f, rfl⟩ : ∃ f, fuel = f + 1 := ⟨fuel - 1, by simp at hf; omega⟩
    obtain ⟨m1, hm1, h⟩ := Res.bind_eq_ok.mp h
    have hh : pq.head = some p.id := hc.1
    obtain ⟨n, hn, hnp, hch⟩ := QIds.node (mem := mem) (pq := pq) (hi.live p (by simp)) (hh ▸ hc)
    have hfr := free_live hm1
    obtain ⟨pq', h1, h2⟩ := ih (fuel := f) (pq := { pq with head := n.next }) (by simp at hf; omega)
      (hfr.2 ▸ hi.tail_free) hch h
    refine ⟨pq', ?_, h2⟩
    unfold pktbufFree at hm1
    simp only [freeQueueP, hh, hn, hm1, bind, Except.bind, h1]

theorem Owns.qids {m : Mem} {q : List Pktbuf} {o : List Nat} (h : Owns m (q.map Pktbuf.id ++ o)) : QIds m q := by
  have hlive : ∀ p ∈ q, p.id ∈ m.live := fun p hp => h.mem (by
    rw [List.mem_append]; exact Or.inl (List.mem_map_of_mem hp))
  refine ⟨?_, hlive, fun p hp => h.fresh _ (hlive p hp)⟩
  rw [List.nodup_iff_count]
  intro i
  have h1 := List.nodup_iff_count.mp h.nd i
  rw [h.cnt, List.count_append] at h1
  omega

theorem QSame.destroy {ops : Ops β} {K : Contract ops} {base : List Nat} {c : Core β} {p : PCore β} {pb : Bus β}
    {q : List Pktbuf} (h : QSame c p pb q) (hm : MemInv K base c) :
    ∃ m, c.destroy = .ok m ∧ p.destroy = .ok m ∧ Owns m base := by
  have hcb : c.busses = [{ pb with queue := q }] := by rw [h.same]; simp [Core.setBus, h.one]
  have hmem : p.core.mem = c.mem := by rw [h.same]; rfl
  have hctxs : p.core.ctxs = c.ctxs := by rw [h.same]; rfl
  have hself : p.core.self = c.self := by rw [h.same]; rfl
  have hptr : p.core.bussesPtr = c.bussesPtr := by rw [h.same]; rfl
  have hnb : p.core.nBusses = c.nBusses := by rw [h.same]; rfl
  have hn1 : c.nBusses = 1 := by rw [hm.nb, hcb]; rfl
  have h0 : Owns c.mem (ctxBufs c.ctxs ++ (q.map Pktbuf.id ++ (c.self :: c.bussesPtr.toList ++ base))) :=
    hm.owns.congr fun j => by
      simp only [owned, queueIds, hcb, List.flatMap_cons, List.flatMap_nil, List.append_nil, List.count_append]
      omega
  obtain ⟨m1, h1, h2⟩ := freeCtxs_total h0
  obtain ⟨id, hid⟩ := hm.ptr
  obtain ⟨m2, h3, h4⟩ := freeQueue_total h2
  obtain ⟨pq', h3', _⟩ := freeQueueP_eq (fuel := m1.live.length + 1) h2.qids.length h2.qids h.list.chain h3
  have hd : m1.deref c.bussesPtr = .ok () := by
    rw [hid]; exact h2.deref (by simp [hid])
  have h5 : Owns m2 (id :: c.self :: base) := h4.congr fun j => by
    simp [hid, List.count_cons]; omega
  obtain ⟨m3, h6, h7, -⟩ := h5.free
  obtain ⟨m4, h8, h9, -⟩ := h7.free
  rw [← hid] at h6
  refine ⟨m4, ?_, ?_, h9⟩
  · unfold Core.destroy
    rw [h1]
    simp only [Res.bind_ok]
    rw [if_pos hm.pos, hd]
    simp only [Res.bind_ok, hn1, hcb, List.take_succ_cons, List.take_zero, List.reverse_cons, List.reverse_nil,
      List.nil_append, freeBusses, h3, h6, h8]
  · unfold PCore.destroy
    rw [hmem, hctxs, hptr, hself, hnb, h1]
    simp only [Res.bind_ok]
    rw [if_pos hm.pos, hd]
    simp only [Res.bind_ok, h3', h6, h8]

end Mctp
