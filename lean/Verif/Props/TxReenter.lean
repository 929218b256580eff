import Verif.Spec.TxReenter
import Verif.Proofs.Keeps
import Verif.Props.TxQueue

/-!
# C85: sending from inside the binding's `tx`
-/

namespace Mctp

open Spec

variable {β : Type}

theorem txLoop_binding {fill : Nat → Byte} {b b' : Binding β} {src dest : Byte} {o : Bool} {tag : Byte} {mp : Nat} {msg : List Byte}
    (h1 : b'.version = b.version) (h2 : b'.pktSize = b.pktSize) (h3 : b'.pktHeader = b.pktHeader) (h4 : b'.pktTrailer = b.pktTrailer) :
    ∀ {n p i : Nat} {m : Mem} {q : List Pktbuf}, txLoop fill b' src dest o tag mp msg n p i m q = txLoop fill b src dest o tag mp msg n p i m q := by
  intro n
  induction n with
  | zero => intros; rfl
  | succ n ih =>
    intro p i m q
    simp only [txLoop, h1, h2, h3, h4, ih]

/-- **C85** (partial) If a binding disables transmission before it lets a message be sent from inside its `tx`, the send is safe
and the linked list is right: for every queue and every behaviour of the binding, no packet buffer is reached after it
was freed, every loop ends, and the queue afterwards is the list of the ideal (`sendThen`): the packet that was being offered
leaves from the front if it was taken, the message is appended, and the memory in use is that of the queue.
Missing: a binding that lets a message be sent while transmission is enabled (false, below). -/
theorem C85_disabled_partial {tx : Binding β → Pktbuf → Res (TxOutR β)} {fill : Nat → Byte} {cap : Bool} {i : Nat}
    (htx : ∀ b p, ∃ out, tx b p = .ok out)
    (hoff : ∀ b p out d o t m, tx b p = .ok out → out.send = some (d, o, t, m) → out.disableTx = true ∧ t.toNat ≤ 7)
    {q : List Pktbuf} : ∀ {fuel : Nat} {mem : Mem} {bus : Bus β} {pq : PQueue} {others : List Nat},
    q.length + 1 < fuel → Owns mem (q.map Pktbuf.id ++ others) → AllOk mem → PQ pq q → 68 ≤ bus.binding.pktSize ∧ bus.binding.pktSize < 2 ^ 64 →
    ∃ mem' b' e bp pq', sendThen tx fill cap i mem bus q = .ok (mem', b', e) ∧
      sendQueueR tx fill cap i fuel mem bus pq = .ok (mem', bp, pq', e) ∧ { bp with queue := b'.queue } = b' ∧
      PQ pq' b'.queue ∧ Owns mem' (b'.queue.map Pktbuf.id ++ others) := by
  -- the loop's invariant: the tail pointer may be stale if the queue is empty
  suffices H : ∀ {fuel : Nat} {mem : Mem} {bus : Bus β} {pq : PQueue} {others : List Nat},
      q.length + 1 < fuel → Owns mem (q.map Pktbuf.id ++ others) → AllOk mem → PQ0 pq q → 68 ≤ bus.binding.pktSize ∧ bus.binding.pktSize < 2 ^ 64 →
      ∃ mem' b' e bp pq', sendThen tx fill cap i mem bus q = .ok (mem', b', e) ∧
        sendQueueR tx fill cap i fuel mem bus pq = .ok (mem', bp, pq', e) ∧ { bp with queue := b'.queue } = b' ∧
        PQ pq' b'.queue ∧ Owns mem' (b'.queue.map Pktbuf.id ++ others) by
    intro fuel mem bus pq others h1 h2 h3 h4 h5
    exact H h1 h2 h3 h4.toPQ0 h5
  induction q with
  | nil =>
    intro fuel mem bus pq others hf ho hall hq hsz
    obtain ⟨f, rfl⟩ : ∃ f, fuel = f + 1 := ⟨fuel - 1, by omega⟩
    have hh : pq.head = none := hq.chain
    exact ⟨mem, _, [], bus, pq.cleanup, rfl, by simp [sendQueueR, hh], by cases bus; rfl, hq.cleanup, ho⟩
  | cons p q ih =>
    intro fuel mem bus pq others hf ho hall hq hsz
    obtain ⟨f, rfl⟩ : ∃ f, fuel = f + 1 := ⟨fuel - 1, by omega⟩
    have hh : pq.head = some p.id := hq.chain.1
    have hids : QIds mem (p :: q) := by
      have hnd := ho.nd
      refine ⟨?_, fun x hx => ho.mem (by simp only [List.mem_append]; exact .inl (List.mem_map_of_mem hx)), fun x hx => ho.fresh _ (ho.mem (by simp only [List.mem_append]; exact .inl (List.mem_map_of_mem hx)))⟩
      rw [List.nodup_iff_count]
      intro a
      have h1 := ho.cnt a
      have h2 := List.nodup_iff_count.mp hnd a
      rw [List.count_append] at h1
      omega
    unfold sendThen sendQueueR
    rw [hh]
    simp only
    by_cases hen : bus.state ≠ .txEnabled
    · rw [if_pos hen, if_pos hen]
      exact ⟨mem, _, [], bus, pq.cleanup, rfl, rfl, by cases bus; rfl, hq.cleanup, ho⟩
    · rw [if_neg hen, if_neg hen]
      have hl : p.id ∈ mem.live := hids.live p (by simp)
      obtain ⟨n, hn, hnp, hch⟩ := QIds.node (mem := mem) (pq := pq) hl (hh ▸ hq.chain)
      obtain ⟨out, hout⟩ := htx bus.binding p
      have hput : ∀ x ∈ q, (pq.put p.id { n with pkt := { out.pkt with id := p.id } }).heap x.id = pq.heap x.id := by
        intro x hx
        have hnd := hids.nodup
        simp only [List.map_cons, List.nodup_cons] at hnd
        have hne : x.id ≠ p.id := fun he => hnd.1 (he ▸ List.mem_map_of_mem hx)
        simp [PQueue.put, hne]
      have hpq1 : PQ (pq.put p.id { n with pkt := { out.pkt with id := p.id } }) ({ out.pkt with id := p.id } :: q) := by
        refine ⟨⟨⟨hh, { n with pkt := { out.pkt with id := p.id } }, by simp [PQueue.put], rfl, hch.mono hput⟩, ?_⟩, by simp⟩
        intro x hx
        cases q with
        | nil =>
          simp only [List.getLast?_singleton, Option.some.injEq] at hx
          subst hx
          exact hq.tail p (by simp)
        | cons y ys =>
          rw [List.getLast?_cons_cons] at hx
          exact hq.tail x (by rw [List.getLast?_cons_cons]; exact hx)
      have ho1 : Owns mem (({ out.pkt with id := p.id } :: q : List Pktbuf).map Pktbuf.id ++ others) := ho
      simp only [hn, Res.bind_ok, hnp, hout]
      cases hsend : out.send with
      | none =>
        simp only [Res.bind_ok]
        by_cases hrc : out.rc = 0 ∨ out.rc = -EMSGSIZE
        · have hdec : (decide (out.rc = 0 ∨ out.rc = -EMSGSIZE)) = true := by simpa using hrc
          rw [if_pos hdec, if_pos hrc]
          have hnode2 : (pq.put p.id { n with pkt := { out.pkt with id := p.id } }).node mem (some p.id)
              = .ok (p.id, { n with pkt := { out.pkt with id := p.id } }) := by
            simp [PQueue.node, hl, PQueue.put]
          obtain ⟨m1, f1, f2, f3⟩ := Owns.free (m := mem) (i := p.id) (o := q.map Pktbuf.id ++ others) ho
          rw [hnode2, f1]
          simp only [Res.bind_ok]
          have htl : ∀ x, q.getLast? = some x → pq.tail = some x.id := by
            intro x hx
            apply hq.tail
            cases q with
            | nil => simp at hx
            | cons y ys => rw [List.getLast?_cons_cons]; exact hx
          obtain ⟨mem', b', e, bp, pq', r1, r2, r3, r4, r5⟩ := ih (fuel := f) (mem := m1)
            (bus := { bus with binding := { bus.binding with st := out.st }, state := if out.disableTx then .txDisabled else .txEnabled })
            (pq := { pq.put p.id { n with pkt := { out.pkt with id := p.id } } with head := n.next })
            (others := others) (by simp at hf; omega) f2 (fun k => by rw [f3]; exact hall k) ⟨hch.mono hput, htl⟩ hsz
          rw [r1, r2]
          exact ⟨mem', b', _, bp, pq', rfl, by simp only [Res.bind_ok, List.append_nil], r3, r4, r5⟩
        · have hdec : ¬ (decide (out.rc = 0 ∨ out.rc = -EMSGSIZE)) = true := by simpa using hrc
          rw [if_neg hdec, if_neg hrc]
          exact ⟨mem, _, _, { bus with binding := { bus.binding with st := out.st }, state := if out.disableTx then .txDisabled else .txEnabled },
            (pq.put p.id { n with pkt := { out.pkt with id := p.id } }).cleanup, rfl, by simp only [List.append_nil], rfl, hpq1.toPQ0.cleanup, ho1⟩
      | some snd =>
        obtain ⟨dest, own, tag, msg⟩ := snd
        obtain ⟨hdis, htag⟩ := hoff _ _ _ _ _ _ _ hout hsend
        have htag' : ¬ (tag &&& 0x7 ≠ tag) := by
          rw [Decidable.not_not]
          apply BitVec.eq_of_toNat_eq
          rw [BitVec.toNat_and]
          have : (7 : Byte).toNat = 2 ^ 3 - 1 := rfl
          rw [this, Nat.and_two_pow_sub_one_eq_mod]
          omega
        have hbody : bodySize bus.binding.pktSize = bus.binding.pktSize - 4 := by
          simp only [bodySize, hdrSize, sizeMod]; omega
        have hmtu : ¬ bodySize bus.binding.pktSize < btu := by
          rw [hbody]; simp only [btu]; omega
        have hmtu0 : 0 < bodySize bus.binding.pktSize := by
          rw [hbody]; omega
        obtain ⟨m2, ps, t1, t2, t3, -⟩ := txLoop_total (fill := fill) (b := bus.binding) (src := bus.eid) (dest := dest) («to» := own) (tag := tag)
          (msg := msg) hmtu0 (by rw [hbody]; omega) (fuel := msg.length) (p := 0) (i := 0) (m := mem)
          (q := { out.pkt with id := p.id } :: q) (by omega) ho1 hall
        have hids1 : QIds mem ({ out.pkt with id := p.id } :: q) := by
          refine ⟨hids.nodup, ?_, ?_⟩
          · intro x hx
            rcases List.mem_cons.mp hx with rfl | hx
            · exact hl
            · exact hids.live x (by simp [hx])
          · intro x hx
            rcases List.mem_cons.mp hx with rfl | hx
            · exact hids.old p (by simp)
            · exact hids.old x (by simp [hx])
        have t1' : txLoop fill ({ bus.binding with st := out.st } : Binding β) bus.eid dest own tag (bodySize bus.binding.pktSize) msg msg.length 0 0 mem
            ({ out.pkt with id := p.id } :: q) = .ok (m2, ({ out.pkt with id := p.id } :: q) ++ ps) :=
          (txLoop_binding (b := bus.binding) (b' := { bus.binding with st := out.st }) rfl rfl rfl rfl).trans t1
        obtain ⟨pq2, u1, u2, u3⟩ := txLoopP_eq hids1 hpq1 t1'
        simp only [t1, Res.bind_ok]
        have hst : ∀ (qq : PQueue) (mm : Mem), sendQueueR tx fill cap i f mm
            { bus with binding := { bus.binding with st := out.st }, state := .txDisabled } qq =
            .ok (mm, { bus with binding := { bus.binding with st := out.st }, state := .txDisabled }, qq.cleanup, []) := by
          intro qq mm
          obtain ⟨g, rfl⟩ : ∃ g, f = g + 1 := ⟨f - 1, by simp at hf; omega⟩
          unfold sendQueueR
          split
          · rfl
          · rw [if_pos (by simp)]
        rw [if_neg htag', if_neg hmtu]
        simp only [u1, Res.bind_ok, hdis, if_true, hst]
        have hcl : pq2.cleanup = pq2 := by
          have : pq2.head = some p.id := u2.chain.1
          simp [PQueue.cleanup, this]
        rw [hcl]
        have ho2 : Owns m2 (p.id :: ((q ++ ps).map Pktbuf.id ++ others)) := t2.congr fun a => by
          simp only [List.map_cons, List.map_append, List.cons_append, List.count_cons, List.count_append]; omega
        by_cases hrc : out.rc = 0 ∨ out.rc = -EMSGSIZE
        · have hdec : (decide (out.rc = 0 ∨ out.rc = -EMSGSIZE)) = true := by simpa using hrc
          rw [if_pos hdec, if_pos hrc]
          obtain ⟨n2, hn2, -, hch2⟩ := QIds.node (mem := m2) (pq := pq2) (p := { out.pkt with id := p.id }) (q := q ++ ps) (ho2.mem (by simp)) u2.chain
          have hn2' : pq2.node m2 (some p.id) = .ok (p.id, n2) := hn2
          obtain ⟨m3, f1, f2, f3⟩ := Owns.free (m := m2) (i := p.id) ho2
          rw [f1, hn2']
          simp only [Res.bind_ok, f1, hst]
          refine ⟨m3, _, _, { bus with binding := { bus.binding with st := out.st }, state := .txDisabled },
            ({ pq2 with head := n2.next } : PQueue).cleanup, rfl, by simp, rfl, ?_, f2⟩
          apply PQ0.cleanup
          refine ⟨hch2, ?_⟩
          intro x hx
          apply u2.tail
          show ({ out.pkt with id := p.id } :: (q ++ ps)).getLast? = some x
          have hx' : (q ++ ps).getLast? = some x := hx
          cases hqp : q ++ ps with
          | nil => rw [hqp] at hx'; simp at hx'
          | cons y ys => rw [hqp] at hx'; rw [List.getLast?_cons_cons]; exact hx'
        · have hdec : ¬ (decide (out.rc = 0 ∨ out.rc = -EMSGSIZE)) = true := by simpa using hrc
          rw [if_neg hdec, if_neg hrc]
          refine ⟨m2, _, _, { bus with binding := { bus.binding with st := out.st }, state := .txDisabled }, pq2.cleanup, rfl, by simp, rfl, ?_, ?_⟩
          · rw [hcl]; exact u2
          · refine ho2.congr fun a => ?_
            simp only [List.map_cons, List.map_append, List.cons_append, List.count_cons, List.count_append]

/-! ## The hypotheses are met, and what goes wrong otherwise -/

/-- A bus with packets of 68 bytes whose binding counts the calls of `tx`. -/
def Demo.bus : Bus Nat :=
  { eid := 8, binding := { version := 1, pktSize := 68, pktHeader := 0, pktTrailer := 0, controlRx := false, st := 0 }, state := .txEnabled,
    queue := [] }

/-- The first call of `tx` makes the application send a message to EID 9, in two packets; `off`: after disabling transmission. -/
def Demo.loopTx (off : Bool) : Binding Nat → Pktbuf → Res (TxOutR Nat) := fun b p =>
  .ok { st := b.st + 1, pkt := p, rc := 0, disableTx := off && b.st == 0, send := if b.st = 0 then some (9, true, 1, List.replicate 70 5) else none }

/-- Two queued packets, made by the transmit path, in the allocations 2 and 3. -/
def Demo.twoQueued : Res (Mem × PQueue) := do
  let (m, q) ← txLoopP (fun _ => 0) Demo.bus.binding 8 9 true 2 64 [1, 2] 2 0 0 { next := 2, live := [1, 0] } ⟨none, none, fun _ => none⟩
  txLoopP (fun _ => 0) Demo.bus.binding 8 9 true 3 64 [3] 1 0 0 m q

/-- **C85** (the property is false) The application sends a message from inside the binding's `tx` while transmission is
enabled: the packet being offered is still at the head of the queue, is offered a second time, taken, and freed, and the
outer loop then reads its `next` member. -/
theorem C85_refuted :
    (do
      let (m, q) ← Demo.twoQueued
      let (_, b, _, _) ← sendQueueR (Demo.loopTx false) (fun _ => 0) false 0 10 m Demo.bus q
      .ok b.state : Res _) = .error .useAfterFree := by decide +kernel

/-- The same with transmission disabled first: the first packet is taken, the second and the two of the new message stay. -/
example : (do
    let (m, q) ← Demo.twoQueued
    let (m', b, q', e) ← sendQueueR (Demo.loopTx true) (fun _ => 0) false 0 10 m Demo.bus q
    .ok ((q'.walk 9 q'.head).map Pktbuf.bytes, m'.live, b.state, e.length) : Res _) =
    .ok ([Demo.pkt 8 9 0xcb [3], Demo.pkt 8 9 0x89 (List.replicate 64 5), Demo.pkt 8 9 0x59 (List.replicate 6 5)], [5, 4, 3, 1, 0], .txDisabled, 1) := by
  decide +kernel

example : (∀ b p, ∃ out, Demo.loopTx true b p = .ok out) ∧
    (∀ b p out d o t m, Demo.loopTx true b p = .ok out → out.send = some (d, o, t, m) → out.disableTx = true ∧ t.toNat ≤ 7) := by
  refine ⟨fun b p => ⟨_, rfl⟩, ?_⟩
  intro b p out d o t m h hs
  simp only [Demo.loopTx, Except.ok.injEq] at h
  subst h
  simp only at hs ⊢
  split at hs
  · rename_i h0
    simp only [Option.some.injEq, Prod.mk.injEq] at hs
    obtain ⟨-, -, rfl, -⟩ := hs
    exact ⟨by simp [h0], by decide⟩
  · cases hs

end Mctp
