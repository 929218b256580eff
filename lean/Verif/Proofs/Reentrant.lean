import Verif.Spec.Reentrant
import Verif.Proofs.Setup

/-!
# Calls from inside the receive callback are calls made right after it
-/

namespace Mctp

open Spec

variable {β S : Type}

/-- The allocation `p` has been released already. -/
def Mem.less (m : Mem) (p : Nat) : Mem := { m with live := m.live.erase p }

theorem Mem.less_mem {m : Mem} {p i : Nat} (h : i ≠ p) : i ∈ (m.less p).live ↔ i ∈ m.live :=
  List.mem_erase_of_ne h

theorem deref_less {m : Mem} {p i : Nat} (h : i ≠ p) : (m.less p).deref (some i) = m.deref (some i) := by
  unfold Mem.deref
  simp only [Mem.less_mem h]

theorem free_less {m m' : Mem} {p i : Nat} (h : i ≠ p) (hf : m.free (some i) = .ok m') : (m.less p).free (some i) = .ok (m'.less p) ∧ m'.next = m.next := by
  unfold Mem.free at hf ⊢
  simp only at hf ⊢
  split at hf
  · rename_i hi
    cases hf
    rw [if_pos ((Mem.less_mem h).mpr hi)]
    refine ⟨?_, rfl⟩
    simp only [Mem.less, List.erase_comm]
  · cases hf

theorem alloc_less {m : Mem} {p : Nat} (h : p < m.next) : (m.less p).alloc = (m.alloc.1, m.alloc.2.less p) ∧
    m.next ≤ m.alloc.2.next ∧ (∀ i, m.alloc.1 = some i → i ≠ p) := by
  unfold Mem.alloc Mem.less
  simp only
  split
  · refine ⟨?_, by simp, by intro i hi; simp at hi; omega⟩
    simp only [Prod.mk.injEq, true_and, Mem.mk.injEq, and_true]
    rw [List.erase_cons_tail (by simp; omega)]
  · exact ⟨rfl, by simp, by simp⟩

theorem pktbufAlloc_less {m : Mem} {p : Nat} (h : p < m.next) (fill : Nat → Byte) (a b d l : Nat) :
    pktbufAlloc (m.less p) fill a b d l = ((pktbufAlloc m fill a b d l).1, (pktbufAlloc m fill a b d l).2.less p) ∧
    m.next ≤ (pktbufAlloc m fill a b d l).2.next ∧ (∀ x, (pktbufAlloc m fill a b d l).1 = some x → x.id ≠ p) := by
  unfold pktbufAlloc
  simp only
  split
  · exact ⟨rfl, Nat.le_refl _, by simp⟩
  · obtain ⟨h1, h2, h3⟩ := alloc_less h
    rw [h1]
    generalize hr : m.alloc = r at h2 h3 ⊢
    obtain ⟨r1, r2⟩ := r
    cases r1 with
    | none => exact ⟨rfl, h2, by simp⟩
    | some id => exact ⟨rfl, h2, by intro x hx; simp at hx; subst hx; exact h3 id rfl⟩

theorem sendQueue_less {ops : Ops β} {cap : Bool} {i p : Nat} {q : List Pktbuf} :
    ∀ {m m' : Mem} {bus bus' : Bus β} {e : List Event}, (∀ x ∈ q, x.id ≠ p) →
    sendQueue ops cap i m bus q = .ok (m', bus', e) → sendQueue ops cap i (m.less p) bus q = .ok (m'.less p, bus', e) := by
  induction q with
  | nil =>
    intro m m' bus bus' e _ h
    simp only [sendQueue, Except.ok.injEq, Prod.mk.injEq] at h ⊢
    obtain ⟨rfl, rfl, rfl⟩ := h
    simp
  | cons x rest ih =>
    intro m m' bus bus' e hq h
    have hx := hq x (by simp)
    unfold sendQueue at h ⊢
    split at h
    · rename_i hs
      rw [if_pos hs]
      simp only [Except.ok.injEq, Prod.mk.injEq] at h ⊢
      obtain ⟨rfl, rfl, rfl⟩ := h
      simp
    · rename_i hs
      rw [if_neg hs]
      obtain ⟨u, hd, h⟩ := Res.bind_eq_ok.mp h
      obtain ⟨out, ht, h⟩ := Res.bind_eq_ok.mp h
      rw [deref_less hx, hd, ht]
      simp only [Res.bind_ok] at h ⊢
      split at h
      · rename_i hrc
        rw [if_pos hrc]
        obtain ⟨m1, hf, h⟩ := Res.bind_eq_ok.mp h
        obtain ⟨⟨m2, b2, e2⟩, hr, h⟩ := Res.bind_eq_ok.mp h
        unfold pktbufFree at hf ⊢
        rw [(free_less hx hf).1]
        simp only [Res.bind_ok]
        rw [ih (fun y hy => hq y (by simp [hy])) hr]
        simp only [Except.ok.injEq, Prod.mk.injEq, Res.bind_ok] at h ⊢
        obtain ⟨rfl, rfl, rfl⟩ := h
        simp
      · rename_i hrc
        rw [if_neg hrc]
        simp only [Except.ok.injEq, Prod.mk.injEq] at h ⊢
        obtain ⟨rfl, rfl, rfl⟩ := h
        simp

theorem write_ident {p x : Pktbuf} {o : Nat} {bs : List Byte} (h : p.write o bs = .ok x) : x.id = p.id := by
  unfold Pktbuf.write at h
  split at h
  · cases h; rfl
  · cases h

theorem txLoop_less {fill : Nat → Byte} {b : Binding β} {src dest : Byte} {o : Bool} {tag : Byte} {mp p : Nat} {msg : List Byte} {fuel : Nat} :
    ∀ {pos i : Nat} {m m' : Mem} {q q' : List Pktbuf}, p < m.next → (∀ x ∈ q, x.id ≠ p) →
    txLoop fill b src dest o tag mp msg fuel pos i m q = .ok (m', q') →
    txLoop fill b src dest o tag mp msg fuel pos i (m.less p) q = .ok (m'.less p, q') ∧ ∀ x ∈ q', x.id ≠ p := by
  induction fuel with
  | zero =>
    intro pos i m m' q q' hn hq h
    unfold txLoop at h ⊢
    split at h
    · cases h
    · rename_i hlt
      rw [if_neg hlt]
      simp only [Except.ok.injEq, Prod.mk.injEq] at h ⊢
      obtain ⟨rfl, rfl⟩ := h
      exact ⟨⟨rfl, rfl⟩, hq⟩
  | succ fuel ih =>
    intro pos i m m' q q' hn hq h
    unfold txLoop at h ⊢
    split at h
    · rename_i hlt
      rw [if_pos hlt]
      simp only at h ⊢
      obtain ⟨a1, a2, a3⟩ := pktbufAlloc_less hn fill b.pktSize b.pktHeader b.pktTrailer ((if msg.length - pos > mp then mp else msg.length - pos) + hdrSize)
      rw [a1]
      generalize pktbufAlloc m fill b.pktSize b.pktHeader b.pktTrailer ((if msg.length - pos > mp then mp else msg.length - pos) + hdrSize) = r at h a2 a3 ⊢
      obtain ⟨r1, r2⟩ := r
      cases r1 with
      | none => cases h
      | some pkt =>
        simp only at h a2 a3 ⊢
        split at h
        · cases h
        · rename_i pkt1 hw1
          split at h
          · cases h
          · rename_i pkt2 hw2
            refine ih (by omega) ?_ h
            intro x hx
            rcases List.mem_append.mp hx with hx | hx
            · exact hq x hx
            · simp only [List.mem_singleton] at hx
              subst hx
              have e1 : pkt1.id = pkt.id := write_ident hw1
              have e2 : x.id = pkt1.id := write_ident hw2
              rw [e2, e1]
              exact a3 pkt rfl
    · rename_i hlt
      rw [if_neg hlt]
      simp only [Except.ok.injEq, Prod.mk.injEq] at h ⊢
      obtain ⟨rfl, rfl⟩ := h
      exact ⟨⟨rfl, rfl⟩, hq⟩

/-- The state in which the packet `p` is released and the contexts are updated already. -/
def Core.past (p : Nat) (f : List Ctx → List Ctx) (c : Core β) : Core β := { c with mem := c.mem.less p, ctxs := f c.ctxs }

/-- The allocation `p` is nothing the transmit path uses. -/
structure Apart (p : Nat) (c : Core β) : Prop where
  next  : p < c.mem.next
  ptr   : c.bussesPtr ≠ some p
  queue : ∀ b ∈ c.busses, ∀ x ∈ b.queue, x.id ≠ p

theorem busAt_past {p : Nat} {f : List Ctx → List Ctx} {c : Core β} (ha : c.bussesPtr ≠ some p) (i : Nat) :
    (c.past p f).busAt i = c.busAt i := by
  unfold Core.busAt Core.past
  simp only
  have : (c.mem.less p).deref c.bussesPtr = c.mem.deref c.bussesPtr := by
    cases hp : c.bussesPtr with
    | none => rfl
    | some j => exact deref_less (by intro e; exact ha (by rw [hp, e]))
  rw [this]

theorem busAt_memb {c : Core β} {i : Nat} {b : Bus β} (h : c.busAt i = .ok b) : b ∈ c.busses := by
  unfold Core.busAt at h
  split at h
  · split at h
    · cases h
    · split at h
      · rename_i x hx
        cases h
        exact List.mem_of_getElem? hx
      · cases h
  · cases h

theorem sendTxQueue_past {ops : Ops β} {p : Nat} {f : List Ctx → List Ctx} {c c' : Core β} {i : Nat} {e : List Event}
    (h1 : c.bussesPtr ≠ some p) (h2 : ∀ b, c.busAt i = .ok b → ∀ x ∈ b.queue, x.id ≠ p)
    (h : c.sendTxQueue ops i = .ok (c', e)) : (c.past p f).sendTxQueue ops i = .ok (c'.past p f, e) ∧ c'.ctxs = c.ctxs := by
  unfold Core.sendTxQueue at h ⊢
  obtain ⟨bus, hb, h⟩ := Res.bind_eq_ok.mp h
  obtain ⟨⟨m, b', e'⟩, hs, h⟩ := Res.bind_eq_ok.mp h
  rw [busAt_past h1, hb]
  simp only [Res.bind_ok]
  have := sendQueue_less (h2 bus hb) hs
  simp only [Core.past] at this ⊢
  rw [this]
  simp only [Res.bind_ok, Except.ok.injEq, Prod.mk.injEq] at h ⊢
  obtain ⟨rfl, rfl⟩ := h
  simp [Core.setBus]

theorem messageTxOnBus_past {ops : Ops β} {p : Nat} {f : List Ctx → List Ctx} {c c' : Core β} {i : Nat} {src dest : Byte} {o : Bool}
    {tag : Byte} {msg : List Byte} {e : List Event} {rc : Int} (ha : Apart p c)
    (h : c.messageTxOnBus ops i src dest o tag msg = .ok (c', e, rc)) :
    (c.past p f).messageTxOnBus ops i src dest o tag msg = .ok (c'.past p f, e, rc) ∧ c'.ctxs = c.ctxs := by
  unfold Core.messageTxOnBus at h ⊢
  obtain ⟨bus, hb, h⟩ := Res.bind_eq_ok.mp h
  rw [busAt_past ha.ptr, hb]
  simp only [Res.bind_ok]
  split at h
  · rename_i hs
    rw [if_pos hs]
    simp only [Except.ok.injEq, Prod.mk.injEq] at h ⊢
    obtain ⟨rfl, rfl, rfl⟩ := h
    simp
  · rename_i hs
    rw [if_neg hs]
    split at h
    · rename_i ht
      rw [if_pos ht]
      simp only [Except.ok.injEq, Prod.mk.injEq] at h ⊢
      obtain ⟨rfl, rfl, rfl⟩ := h
      simp
    · rename_i ht
      rw [if_neg ht]
      simp only at h ⊢
      split at h
      · cases h
      · rename_i hm
        rw [if_neg hm]
        obtain ⟨⟨m1, q1⟩, hl, h⟩ := Res.bind_eq_ok.mp h
        obtain ⟨⟨c2, e2⟩, hq, h⟩ := Res.bind_eq_ok.mp h
        obtain ⟨l1, l2⟩ := txLoop_less ha.next (ha.queue bus (busAt_memb hb)) hl
        have hl' : txLoop (c.past p f).fill bus.binding src dest o tag (bodySize bus.binding.pktSize) msg msg.length 0 0 (c.past p f).mem bus.queue = .ok (m1.less p, q1) := l1
        rw [hl']
        simp only [Res.bind_ok]
        obtain ⟨s1, s2⟩ := sendTxQueue_past (c := { c with mem := m1 }.setBus i { bus with queue := q1 }) (p := p) (f := f)
          ha.ptr (by
            intro b hb2
            have : b = { bus with queue := q1 } := by
              unfold Core.busAt Core.setBus at hb2
              simp only at hb2
              split at hb2
              · split at hb2
                · cases hb2
                · split at hb2
                  · rename_i y hy
                    cases hb2
                    rw [List.getElem?_set] at hy
                    simp only [if_true] at hy
                    split at hy
                    · simpa using hy.symm
                    · cases hy
                  · cases hb2
              · cases hb2
            subst this
            exact l2) hq
        have hs1 : ({ c.past p f with mem := m1.less p }.setBus i { bus with queue := q1 } : Core β).sendTxQueue ops i = .ok (c2.past p f, e2) := s1
        rw [hs1]
        simp only [Res.bind_ok, Except.ok.injEq, Prod.mk.injEq] at h ⊢
        obtain ⟨rfl, rfl, rfl⟩ := h
        exact ⟨⟨rfl, rfl, rfl⟩, s2⟩

/-- The application's calls do not depend on the packet buffer and the contexts. -/
theorem step_past {ops : Ops β} {p : Nat} {f : List Ctx → List Ctx} {c c' : Core β} {op : Op β} {e : List Event} {rc : Int}
    (ha : Apart p c) (hop : match op with | .send .. | .setMax _ | .setCapture _ | .setRx _ => True | _ => False)
    (h : c.step ops op = .ok (c', e, rc)) : (c.past p f).step ops op = .ok (c'.past p f, e, rc) ∧ c'.ctxs = c.ctxs := by
  cases op with
  | send eid o tag msg =>
    simp only [Core.step, Core.messageTx] at h ⊢
    split at h
    · rename_i ht
      rw [if_pos ht]
      simp only [Except.ok.injEq, Prod.mk.injEq] at h ⊢
      obtain ⟨rfl, rfl, rfl⟩ := h
      simp
    · rename_i ht
      rw [if_neg ht]
      have hn : (c.past p f).nBusses = c.nBusses := rfl
      rw [hn]
      split at h
      · rename_i hz
        rw [if_pos hz]
        simp only [Except.ok.injEq, Prod.mk.injEq] at h ⊢
        obtain ⟨rfl, rfl, rfl⟩ := h
        simp
      · rename_i hz
        rw [if_neg hz]
        obtain ⟨bus, hb, h⟩ := Res.bind_eq_ok.mp h
        rw [busAt_past ha.ptr, hb]
        simp only [Res.bind_ok]
        exact messageTxOnBus_past ha h
  | setMax n =>
    simp only [Core.step, Except.ok.injEq, Prod.mk.injEq] at h ⊢
    obtain ⟨rfl, rfl, rfl⟩ := h
    exact ⟨⟨rfl, rfl, rfl⟩, rfl⟩
  | setCapture n =>
    simp only [Core.step, Except.ok.injEq, Prod.mk.injEq] at h ⊢
    obtain ⟨rfl, rfl, rfl⟩ := h
    exact ⟨⟨rfl, rfl, rfl⟩, rfl⟩
  | setRx n =>
    simp only [Core.step, Except.ok.injEq, Prod.mk.injEq] at h ⊢
    obtain ⟨rfl, rfl, rfl⟩ := h
    exact ⟨⟨rfl, rfl, rfl⟩, rfl⟩
  | recv i bs => exact absurd hop (by simp)
  | enable i on => exact absurd hop (by simp)
  | rebind i st ps ph pt cr => exact absurd hop (by simp)

theorem MemInv.apart {ops : Ops β} {K : Contract ops} {base : List Nat} {c : Core β} {p : Nat} (h : MemInv K (p :: base) c) : Apart p c := by
  have hp : p ∈ c.mem.live := h.owns.mem (by simp)
  have hc := h.owns.cnt p
  have hn := List.nodup_iff_count.mp h.owns.nd p
  have hno : p ∉ owned c := by
    intro ho
    have := List.count_pos_iff.mpr ho
    simp only [List.count_append, List.count_cons_self] at hc
    omega
  refine ⟨h.owns.fresh p hp, ?_, ?_⟩
  · intro e
    exact hno (by simp [owned, e])
  · intro b hb x hx e
    refine hno ?_
    simp only [owned, List.mem_append, queueIds, List.mem_flatMap, List.mem_map]
    exact .inr (.inl ⟨b, hb, x, hx, e⟩)

/-- A callback reads its message and makes its calls; it is as if the calls were made afterwards. -/
theorem callback_past {ops : Ops β} {K : Contract ops} {base : List Nat} {p j : Nat} (f : List Ctx → List Ctx) {sc : Script β S} :
    ∀ {c : Core β}, MemInv K (p :: base) c → sc.AppOnly → (j = p ∨ j ∈ ctxBufs c.ctxs) →
    ∃ c' s' e, c.callback ops (some j) sc = .ok (c', s', e) ∧ (c.past p f).calls ops sc = .ok (c'.past p f, s', e) ∧
      MemInv K (p :: base) c' ∧ c'.ctxs = c.ctxs := by
  induction sc with
  | done s =>
    intro c h _ hj
    have hd : c.mem.deref (some j) = .ok () := h.owns.deref (by
      rcases hj with rfl | hj
      · simp
      · simp [owned, hj])
    exact ⟨c, s, [], by simp [Core.callback, hd, Res.bind_ok], rfl, h, rfl⟩
  | call op k ih =>
    intro c h ⟨hop, hk⟩ hj
    have hd : c.mem.deref (some j) = .ok () := h.owns.deref (by
      rcases hj with rfl | hj
      · simp
      · simp [owned, hj])
    obtain ⟨c1, e1, rc, h1, i1⟩ := step_total K h (op := op) (by cases op <;> first | trivial | exact absurd hop (by simp))
    obtain ⟨p1, t1⟩ := step_past (f := f) h.apart hop h1
    obtain ⟨c2, s2, e2, r1, r2, r3, r4⟩ := ih rc i1 (hk rc) (by rw [t1]; exact hj)
    refine ⟨c2, s2, e1 ++ e2, ?_, ?_, r3, r4.trans t1⟩
    · simp only [Core.callback, hd, h1, r1, Res.bind_ok]
    · simp only [Core.calls, p1, r2, Res.bind_ok]

/-- All events of these are callbacks. -/
theorem route_callbacks (c : Core β) (i : Nat) (bus : Bus β) (s : Byte) (o : Bool) (g : Byte) (msg : List Byte) :
    (routeEvents c i bus s o g msg).filter Event.isCallback = routeEvents c i bus s o g msg := by
  unfold routeEvents
  split
  · rfl
  · split <;> rfl

theorem rxH_past {ops : Ops β} {K : Contract ops} {app : App β S} (happ : ∀ s ev, (app s ev).AppOnly) {base : List Nat} {p j : Nat}
    (f : List Ctx → List Ctx) {c : Core β} (hbr : c.bridge = false) (h : MemInv K (p :: base) c) (hj : j = p ∨ j ∈ ctxBufs c.ctxs)
    (s : S) (i : Nat) (bus : Bus β) (src dest : Byte) (o : Bool) (tag : Byte) (msg : List Byte) {c1 : Core β} {e1 : List Event}
    (hr : c.rx ops i bus src dest o tag msg = .ok (c1, e1)) :
    c1 = c ∧ ∃ c' s' e, c.rxH ops app s (some j) i bus src dest o tag msg = .ok (c', s', e1 ++ e) ∧
      Core.react ops app (c.past p f) s (e1.filter Event.isCallback) = .ok (c'.past p f, s', e) ∧
      MemInv K (p :: base) c' ∧ c'.ctxs = c.ctxs := by
  rw [rx_endpoint ops hbr] at hr
  simp only [Except.ok.injEq, Prod.mk.injEq] at hr
  obtain ⟨rfl, rfl⟩ := hr
  refine ⟨rfl, ?_⟩
  unfold Core.rxH
  rw [if_neg (by simp [hbr])]
  split
  · rename_i hl
    rw [route_callbacks]
    unfold routeEvents
    split
    · obtain ⟨c', s', e, r1, r2, r3, r4⟩ := callback_past f (sc := app s (.ctrlRx i src (tag != 0) (if o then 1 else 0) msg)) h (happ _ _) hj
      refine ⟨c', s', e, by simp only [r1, Res.bind_ok]; rfl, ?_, r3, r4⟩
      simp only [Core.react, r2, Res.bind_ok, List.append_nil]
    · split
      · obtain ⟨c', s', e, r1, r2, r3, r4⟩ := callback_past f (sc := app s (.rxMsg src o tag msg)) h (happ _ _) hj
        refine ⟨c', s', e, by simp [r1, Res.bind_ok], ?_, r3, r4⟩
        simp only [Core.react, r2, Res.bind_ok, List.append_nil]
      · exact ⟨c, s, [], by simp, rfl, h, rfl⟩
  · rename_i hl
    exact ⟨c, s, [], by simp, rfl, h, rfl⟩

/-- The contexts may change as long as they hold the same storage. -/
theorem MemInv.setCtxs {ops : Ops β} {K : Contract ops} {base : List Nat} {c : Core β} (h : MemInv K base c) {t : List Ctx}
    (h1 : ctxBufs t = ctxBufs c.ctxs) (h2 : ∀ x ∈ t, CtxOk x) : MemInv K base { c with ctxs := t } := by
  refine ⟨?_, h.ok, h2, h.nb, h.pos, h.ptr, h.bus, h.inv, h.gate⟩
  have := h.owns
  unfold owned at this ⊢
  simp only [h1]
  exact this

theorem ctxBufs_modify (t : List Ctx) (k : Nat) : ctxBufs (t.modify k Ctx.drop) = ctxBufs t := by
  induction t generalizing k with
  | nil => cases k <;> rfl
  | cons x t ih =>
    cases k with
    | zero => rfl
    | succ k =>
      show ctxBufs (x :: t.modify k Ctx.drop) = _
      unfold ctxBufs at ih ⊢
      rw [List.filterMap_cons, List.filterMap_cons, ih]

theorem CtxOk.undrop {x : Ctx} (h : CtxOk x.drop) : CtxOk x := ⟨h.fits, h.null⟩
theorem CtxOk.drop {x : Ctx} (h : CtxOk x) : CtxOk x.drop := ⟨h.fits, h.null⟩

theorem ctxOk_modify {t : List Ctx} {k : Nat} (h : ∀ x ∈ t, CtxOk x) : ∀ x ∈ t.modify k Ctx.drop, CtxOk x := by
  intro x hx
  obtain ⟨n, hn⟩ := List.getElem?_of_mem hx
  rw [List.getElem?_modify] at hn
  cases ht : t[n]? with
  | none => simp [ht] at hn
  | some y =>
    have hy := h y (List.mem_of_getElem? ht)
    rw [ht] at hn
    simp only [Option.map_eq_map, Option.map_some, Option.some.injEq] at hn
    split at hn <;> subst hn
    · exact hy.drop
    · exact hy

theorem set_modify {t : List Ctx} {k : Nat} {x : Ctx} : (t.set k x).modify k Ctx.drop = t.set k x.drop := by
  apply List.ext_getElem?
  intro n
  simp only [List.getElem?_set, List.getElem?_modify]
  by_cases hk : k = n
  · subst hk
    simp only [if_true]
    split <;> simp_all
  · simp [hk]

theorem past_id (p : Nat) (c : Core β) : c.past p id = { c with mem := c.mem.less p } := rfl

theorem bodyH {ops : Ops β} {K : Contract ops} {app : App β S} (happ : ∀ s ev, (app s ev).AppOnly) {base : List Nat} {X : Pktbuf}
    {c : Core β} (hbr : c.bridge = false) (h : MemInv K (X.id :: base) c) (s : S) {i : Nat} {bus : Bus β} {c1 : Core β} {e1 : List Event}
    (hr : c.busRxBody ops i bus X = .ok (c1, e1)) (h1 : MemInv K (X.id :: base) c1) :
    ∃ c' s' e, c.busRxBodyH ops app s i bus X = .ok (c', s', e1 ++ e) ∧
      Core.react ops app (c1.past X.id id) s (e1.filter Event.isCallback) = .ok (c'.past X.id id, s', e) ∧
      MemInv K (X.id :: base) c' := by
  unfold Core.busRxBody at hr
  unfold Core.busRxBodyH
  obtain ⟨hdr, h0, hr⟩ := Res.bind_eq_ok.mp hr
  rw [h0]
  simp only [Res.bind_ok]
  match hdr with
  | [] | [_] | [_, _] | [_, _, _] | _ :: _ :: _ :: _ :: _ :: _ => cases hr
  | [v, dest, src, g] =>
    simp only at hr ⊢
    split at hr
    · rename_i hl
      rw [if_pos hl]
      simp only [Except.ok.injEq, Prod.mk.injEq] at hr
      obtain ⟨rfl, rfl⟩ := hr
      exact ⟨c, s, [], rfl, rfl, h⟩
    · rename_i hl
      rw [if_neg hl]
      generalize hdrSom g = so at hr ⊢
      generalize hdrEom g = eo at hr ⊢
      cases so <;> cases eo <;> simp only at hr ⊢
      · obtain ⟨c2, h2, hr⟩ := Res.bind_eq_ok.mp hr
        simp only [Except.ok.injEq, Prod.mk.injEq] at hr
        obtain ⟨rfl, rfl⟩ := hr
        rw [h2]
        exact ⟨c2, s, [], rfl, rfl, h1⟩
      · unfold Core.rxEom at hr
        unfold Core.rxEomH
        cases hlk : ctxLookup c.ctxs src dest (hdrTag g) with
        | none =>
          rw [hlk] at hr
          simp only [Except.ok.injEq, Prod.mk.injEq] at hr
          obtain ⟨rfl, rfl⟩ := hr
          exact ⟨c, s, [], rfl, rfl, h⟩
        | some k =>
          rw [hlk] at hr
          simp only at hr ⊢
          cases hx : c.ctxs[k]? with
          | none => rw [hx] at hr; cases hr
          | some x =>
            rw [hx] at hr
            simp only at hr ⊢
            split at hr
            · rename_i hs
              rw [if_pos hs]
              simp only [Except.ok.injEq, Prod.mk.injEq] at hr
              obtain ⟨rfl, rfl⟩ := hr
              exact ⟨_, s, [], rfl, rfl, h1⟩
            · rename_i hs
              rw [if_neg hs]
              split at hr
              · rename_i hf
                rw [if_pos hf]
                simp only [Except.ok.injEq, Prod.mk.injEq] at hr
                obtain ⟨rfl, rfl⟩ := hr
                exact ⟨_, s, [], rfl, rfl, h1⟩
              · rename_i hf
                rw [if_neg hf]
                obtain ⟨⟨m, x', ok⟩, ha, hr⟩ := Res.bind_eq_ok.mp hr
                rw [ha]
                simp only [Res.bind_ok] at hr ⊢
                cases ok with
                | false =>
                  simp only [Bool.false_eq_true, if_false] at hr ⊢
                  simp only [Except.ok.injEq, Prod.mk.injEq] at hr
                  obtain ⟨rfl, rfl⟩ := hr
                  exact ⟨_, s, [], rfl, rfl, h1⟩
                | true =>
                  simp only [if_true] at hr ⊢
                  obtain ⟨⟨c2, e2⟩, hrx, hr⟩ := Res.bind_eq_ok.mp hr
                  simp only [Except.ok.injEq, Prod.mk.injEq] at hr
                  obtain ⟨rfl, rfl⟩ := hr
                  obtain ⟨b, hb⟩ : ∃ b, x'.buf = some b := by
                    rcases ctxAddPkt_cases ha with ⟨h1, -⟩ | ⟨h1, -⟩ | ⟨-, b, n, pl, -, -, -, -, -, -, -, -, rfl⟩ | ⟨-, -, b, pl, hb, -, -, -, -, rfl⟩
                    · cases h1
                    · cases h1
                    · exact ⟨b, rfl⟩
                    · exact ⟨b, hb⟩
                  have hk : k < c.ctxs.length := (List.getElem?_eq_some_iff.mp hx).1
                  have hc2 : c2 = { c with mem := m }.setCtx k x' := by
                    have := rx_endpoint ops (c := { c with mem := m }.setCtx k x') hbr i bus x'.src x'.dest (hdrTO g) (hdrTag g) x'.data
                    rw [this] at hrx
                    simp only [Except.ok.injEq, Prod.mk.injEq] at hrx
                    exact hrx.1.symm
                  have hset : (c.ctxs.set k x').set k x'.drop = c.ctxs.set k x'.drop := List.set_set ..
                  have hA : MemInv K (X.id :: base) ({ c with mem := m }.setCtx k x') := by
                    rw [hc2] at h1
                    have := h1.setCtxs (t := c.ctxs.set k x') (by
                      simp only [Core.setCtx]
                      rw [hset, ← set_modify, ctxBufs_modify]) (by
                      intro y hy
                      have hok : ∀ z ∈ c.ctxs.set k x'.drop, CtxOk z := by
                        have := h1.ctxs
                        simp only [Core.setCtx] at this
                        rw [hset] at this
                        exact this
                      obtain ⟨n, hn⟩ := List.getElem?_of_mem hy
                      rw [List.getElem?_set] at hn
                      split at hn
                      · simp only [Option.some.injEq] at hn
                        subst hn
                        exact (hok x'.drop (List.mem_of_getElem? (i := k) (by simp [List.getElem?_set, hk]))).undrop
                      · rename_i hne
                        exact hok y (List.mem_of_getElem? (i := n) (by rw [List.getElem?_set, if_neg hne]; exact hn)))
                    exact this
                  have hbuf : b ∈ ctxBufs ({ c with mem := m }.setCtx k x' : Core β).ctxs := by
                    simp only [Core.setCtx, ctxBufs, List.mem_filterMap]
                    exact ⟨x', List.mem_of_getElem? (i := k) (by simp [List.getElem?_set, hk]), hb⟩
                  obtain ⟨-, c', s', e, r1, r2, r3, r4⟩ := rxH_past happ (fun t => t.modify k Ctx.drop) (j := b) (c := { c with mem := m }.setCtx k x')
                    hbr hA (.inr hbuf) s i bus x'.src x'.dest (hdrTO g) (hdrTag g) x'.data hrx
                  refine ⟨{ c' with ctxs := c'.ctxs.modify k Ctx.drop }, s', e, ?_, ?_, r3.setCtxs (ctxBufs_modify _ _) (ctxOk_modify r3.ctxs)⟩
                  · rw [hb, r1]; rfl
                  · rw [← show ({ c with mem := m }.setCtx k x' : Core β).past X.id (fun t => t.modify k Ctx.drop) = (c2.setCtx k x'.drop).past X.id id by
                      rw [hc2]
                      simp only [Core.past, Core.setCtx, set_modify, id, hset]]
                    exact r2
      · obtain ⟨c2, h2, hr⟩ := Res.bind_eq_ok.mp hr
        simp only [Except.ok.injEq, Prod.mk.injEq] at hr
        obtain ⟨rfl, rfl⟩ := hr
        rw [h2]
        exact ⟨c2, s, [], rfl, rfl, h1⟩
      · obtain ⟨msg, h2, hr⟩ := Res.bind_eq_ok.mp hr
        rw [h2]
        simp only [Res.bind_ok]
        obtain ⟨rfl, c', s', e, r1, r2, r3, r4⟩ := rxH_past happ id hbr h (.inl rfl) s i bus src dest (hdrTO g) (hdrTag g) msg hr
        exact ⟨c', s', e, r1, r2, r3⟩

theorem MemInv.released {ops : Ops β} {K : Contract ops} {base : List Nat} {c : Core β} {p : Nat} (h : MemInv K (p :: base) c) :
    c.mem.free (some p) = .ok (c.mem.less p) ∧ MemInv K base (c.past p id) := by
  have ho : Owns c.mem (p :: (owned c ++ base)) := h.owns.congr fun j => by
    simp only [List.count_append, List.count_cons]; omega
  obtain ⟨m, r1, r2, r3⟩ := ho.free
  have e : m = c.mem.less p := by
    unfold Mem.free at r1
    simp only at r1
    split at r1
    · cases r1; rfl
    · cases r1
  subst e
  exact ⟨r1, r2, fun n => h.ok n, h.ctxs, h.nb, h.pos, h.ptr, h.bus, h.inv, h.gate⟩

theorem busRxBody_total {ops : Ops β} (K : Contract ops) {base : List Nat} {c : Core β} {X : Pktbuf}
    {bs : List Byte} (h : MemInv K (X.id :: base) c) (hpk : PktIs X bs) (hlen : ¬ bs.length ≤ hdrSize) (i : Nat) (bus : Bus β) :
    ∃ c1 e1, c.busRxBody ops i bus X = .ok (c1, e1) ∧ MemInv K (X.id :: base) c1 := by
  cases hf : parse bs with
  | none => exact absurd (parse_none.mp hf) hlen
  | some f =>
    rw [busRxBody_parse ops _ i bus hpk hf]
    split
    · exact ⟨_, _, rfl, h⟩
    · split
      · obtain ⟨c', e, h1, h2, -⟩ := rx_total K h i bus f.src f.dest f.tagOwner (BitVec.ofNat 8 f.tag) f.payload
        exact ⟨c', e, h1, h2⟩
      · unfold Core.rxFrag
        have hoct : Owns c.mem (ctxBufs c.ctxs ++ (queueIds c.busses ++ (c.self :: c.bussesPtr.toList) ++ (X.id :: base))) :=
          h.owns.congr fun j => by
            simp only [owned, List.count_append]; omega
        obtain ⟨m', t', out, r1, r2, r3, r4, r5⟩ := ctxRx_total (mx := c.maxSize) hoct h.ok h.ctxs hpk
          (by simp only [hdrSize] at hlen; omega) f.src f.dest (BitVec.ofNat 8 f.tag) (BitVec.ofNat 8 f.seq) f.som f.eom
        simp only [r1, Res.bind_ok]
        have hinv2 : MemInv K (X.id :: base) ({ c with mem := m', ctxs := t' } : Core β) := by
          refine ⟨?_, ?_, r4, h.nb, h.pos, h.ptr, h.bus, h.inv, h.gate⟩
          · refine r2.congr fun j => ?_
            simp only [owned, List.count_append]; omega
          · intro n; simp only; rw [r3]; exact h.ok n
        cases out with
        | none => exact ⟨_, _, rfl, hinv2⟩
        | some msg =>
          obtain ⟨c', e, h1, h2, -⟩ := rx_total K hinv2 i bus f.src f.dest f.tagOwner (BitVec.ofNat 8 f.tag) msg
          exact ⟨c', e, h1, h2⟩

theorem busRxH_after {ops : Ops β} {K : Contract ops} {app : App β S} (happ : ∀ s ev, (app s ev).AppOnly) {base : List Nat} {X : Pktbuf}
    {bs : List Byte} {c : Core β} (hbr : c.bridge = false) (h : MemInv K (X.id :: base) c) (hpk : PktIs X bs) (s : S) {i : Nat}
    (hi : i < c.nBusses) :
    ∃ c1 e1 c' s' e, c.busRx ops i X = .ok (c1, e1) ∧ c.busRxH ops app s i X = .ok (c', s', e1 ++ e) ∧
      Core.react ops app c1 s (e1.filter Event.isCallback) = .ok (c', s', e) ∧ MemInv K base c' := by
  obtain ⟨cf, ef, t1, t2, -⟩ := busRx_total K h hpk hi
  refine ⟨cf, ef, ?_⟩
  have t1' := t1
  unfold Core.busRx at t1
  unfold Core.busRxH
  rw [if_neg (by omega)] at t1 ⊢
  obtain ⟨bus, hb, t1⟩ := Res.bind_eq_ok.mp t1
  obtain ⟨u, hd, t1⟩ := Res.bind_eq_ok.mp t1
  rw [hb, hd]
  simp only [Res.bind_ok] at t1 ⊢
  split at t1
  · rename_i hl
    rw [if_pos hl]
    obtain ⟨m, hf, t1⟩ := Res.bind_eq_ok.mp t1
    simp only [Except.ok.injEq, Prod.mk.injEq] at t1
    obtain ⟨rfl, rfl⟩ := t1
    rw [hf]
    exact ⟨_, s, [], t1', rfl, rfl, t2⟩
  · rename_i hl
    rw [if_neg hl]
    obtain ⟨⟨cb, eb⟩, hbody, t1⟩ := Res.bind_eq_ok.mp t1
    obtain ⟨m, hf, t1⟩ := Res.bind_eq_ok.mp t1
    simp only [Except.ok.injEq, Prod.mk.injEq] at t1
    obtain ⟨rfl, rfl⟩ := t1
    have hm : m = cb.mem.less X.id := by
      unfold pktbufFree Mem.free at hf
      simp only at hf
      split at hf
      · cases hf; rfl
      · cases hf
    subst hm
    have hcb : MemInv K (X.id :: base) cb := by
      obtain ⟨cb', eb', hb', hi'⟩ := busRxBody_total K h hpk (by rw [← hpk.len]; exact hl) i bus
      rw [hbody] at hb'
      simp only [Except.ok.injEq, Prod.mk.injEq] at hb'
      rw [hb'.1]
      exact hi'
    obtain ⟨c', s', e, r1, r2, r3⟩ := bodyH happ hbr h s hbody hcb
    obtain ⟨q1, q2⟩ := r3.released
    refine ⟨c'.past X.id id, s', e, t1', ?_, ?_, q2⟩
    · rw [r1]
      simp only [Res.bind_ok, pktbufFree, q1, past_id]
      simp
    · have : ((Event.recv i X.bytes :: ((if c.hasCapture = true then [Event.capture false X.bytes] else []) ++ eb)).filter Event.isCallback)
        = eb.filter Event.isCallback := by
        rw [List.filter_cons_of_neg (by simp [Event.isCallback]), List.filter_append]
        split <;> simp [Event.isCallback]
      rw [this]
      exact r2

theorem rxPacketH_after {ops : Ops β} {K : Contract ops} {app : App β S} (happ : ∀ s ev, (app s ev).AppOnly) {base : List Nat}
    {c : Core β} (hbr : c.bridge = false) (h : MemInv K base c) (s : S) {i : Nat} {bus : Bus β} (hget : c.busses[i]? = some bus) {bs : List Byte}
    (hfit : bs.length ≤ bus.binding.pktSize + bus.binding.pktTrailer) :
    ∃ c1 e1 c' s' e, c.rxPacket ops i bs = .ok (c1, e1) ∧ c.rxPacketH ops app s i bs = .ok (c', s', e1 ++ e) ∧
      Core.react ops app c1 s (e1.filter Event.isCallback) = .ok (c', s', e) ∧ MemInv K base c' := by
  have hi : i < c.nBusses := by rw [h.nb]; exact (List.getElem?_eq_some_iff.mp hget).1
  obtain ⟨bus', hbus, hget', hmem⟩ := h.busAt hi
  have : bus' = bus := by rw [hget] at hget'; simpa using hget'.symm
  subst this
  obtain ⟨m1, h1, h2, h3⟩ := h.owns.alloc h.ok
  unfold Core.rxPacket Core.rxPacketH
  rw [hbus]
  simp only [Res.bind_ok]
  obtain ⟨p0, X, hpa, hwr, hpk, hXid⟩ := recvBuf (fill := c.fill) h1 (ph := bus'.binding.pktHeader) hfit
  rw [hpa]
  simp only [hwr, Res.bind_ok]
  have hinv1 : MemInv K (X.id :: base) ({ c with mem := m1 } : Core β) := h.alloc (by rw [hXid]; exact h1)
  exact busRxH_after (c := { c with mem := m1 }) happ hbr hinv1 hpk s hi

/-- One call: never a fault, and the same as with the application's calls made afterwards. -/
theorem stepH_after {ops : Ops β} {K : Contract ops} {app : App β S} (happ : ∀ s ev, (app s ev).AppOnly) {base : List Nat}
    {c : Core β} (hbr : c.bridge = false) (h : MemInv K base c) (s : S) {op : Op β} (hop : OpOk K c op) :
    ∃ c' s' e rc, c.stepH ops app s op = .ok (c', s', e, rc) ∧ c.stepAfter ops app s op = .ok (c', s', e, rc) ∧ MemInv K base c' := by
  have other : (∀ i bs, op ≠ .recv i bs) → ∃ c' e rc, c.step ops op = .ok (c', e, rc) ∧ c.stepAfter ops app s op = .ok (c', s, e, rc) ∧
      MemInv K base c' := by
    intro hne
    obtain ⟨c', e, rc, h1, h2⟩ := step_total K h hop
    refine ⟨c', e, rc, h1, ?_, h2⟩
    have hev := (step_frame hne h1).1
    have : e.filter Event.isCallback = [] := by
      rw [List.filter_eq_nil_iff]
      intro x hx
      have := hev x hx
      cases x <;> simp_all [IsTxEvent, Event.isCallback]
    unfold Core.stepAfter
    rw [h1]
    simp only [Res.bind_ok, this, Core.react, List.append_nil]
  cases op with
  | recv i bs =>
    obtain ⟨bus, hget, hfit⟩ := hop
    obtain ⟨c1, e1, c', s', e, h1, h2, h3, h4⟩ := rxPacketH_after happ hbr h s hget hfit
    refine ⟨c', s', e1 ++ e, 0, ?_, ?_, h4⟩
    · simp only [Core.stepH, h2, Res.bind_ok]
    · simp only [Core.stepAfter, Core.step, h1, h3, Res.bind_ok]
  | _ =>
    obtain ⟨c', e, rc, h1, h2, h3⟩ := other (by simp)
    exact ⟨c', s, e, rc, by simp only [Core.stepH, h1, Res.bind_ok], h2, h3⟩

/-- Each call made outside the callbacks meets its preconditions in the state in which it is made. -/
def HistOkH {ops : Ops β} (K : Contract ops) (app : App β S) : Core β → S → List (Op β) → Prop
  | _, _, [] => True
  | c, s, op :: rest => OpOk K c op ∧ ∀ c' s' e rc, c.stepH ops app s op = .ok (c', s', e, rc) → HistOkH K app c' s' rest

/-- The calls about an event are a history. -/
theorem calls_flat {ops : Ops β} (K : Contract ops) {sc : Script β S} : ∀ {c c' : Core β} {s' : S} {e : List Event}, sc.AppOnly →
    c.calls ops sc = .ok (c', s', e) → ∃ hist log, c.run ops hist = .ok (c', log) ∧ events log = e ∧ sc.Log log s' ∧
      ∀ op ∈ hist, ∀ c : Core β, OpOk K c op := by
  induction sc with
  | done s =>
    intro c c' s' e _ h
    simp only [Core.calls, Except.ok.injEq, Prod.mk.injEq] at h
    obtain ⟨rfl, rfl, rfl⟩ := h
    exact ⟨[], [], rfl, rfl, ⟨rfl, rfl⟩, by simp⟩
  | call op k ih =>
    intro c c' s' e ha h
    simp only [Core.calls] at h
    obtain ⟨⟨c1, e1, rc⟩, h1, h⟩ := Res.bind_eq_ok.mp h
    obtain ⟨⟨c2, s2, e2⟩, h2, h⟩ := Res.bind_eq_ok.mp h
    simp only [Except.ok.injEq, Prod.mk.injEq] at h
    obtain ⟨rfl, rfl, rfl⟩ := h
    obtain ⟨hist, log, r1, r2, r4, r3⟩ := ih rc (ha.2 rc) h2
    refine ⟨op :: hist, ⟨op, e1, rc⟩ :: log, by simp only [Core.run, h1, r1, Res.bind_ok], ?_, ⟨e1, rc, log, rfl, r4⟩, ?_⟩
    · simp only [events, List.flatMap_cons] at r2 ⊢
      rw [r2]
    · intro o ho c
      rcases List.mem_cons.mp ho with rfl | ho
      · have := ha.1
        cases o <;> first | trivial | exact absurd this (by simp)
      · exact r3 o ho c

theorem run_append' {ops : Ops β} {h1 h2 : List (Op β)} : ∀ {c c1 c2 : Core β} {l1 l2 : List (Rec β)}, c.run ops h1 = .ok (c1, l1) →
    c1.run ops h2 = .ok (c2, l2) → c.run ops (h1 ++ h2) = .ok (c2, l1 ++ l2) := by
  induction h1 with
  | nil =>
    intro c c1 c2 l1 l2 a b
    simp only [Core.run, Except.ok.injEq, Prod.mk.injEq] at a
    obtain ⟨rfl, rfl⟩ := a
    exact b
  | cons op rest ih =>
    intro c c1 c2 l1 l2 a b
    simp only [Core.run] at a
    obtain ⟨⟨cx, e, rc⟩, a1, a⟩ := Res.bind_eq_ok.mp a
    obtain ⟨⟨cy, l⟩, a2, a⟩ := Res.bind_eq_ok.mp a
    simp only [Except.ok.injEq, Prod.mk.injEq] at a
    obtain ⟨rfl, rfl⟩ := a
    simp only [List.cons_append, Core.run, a1, ih a2 b, Res.bind_ok]

theorem react_flat {ops : Ops β} (K : Contract ops) {app : App β S} (happ : ∀ s ev, (app s ev).AppOnly) {evs : List Event} :
    ∀ {c c' : Core β} {s s' : S} {e : List Event}, Core.react ops app c s evs = .ok (c', s', e) →
    ∃ hist log, c.run ops hist = .ok (c', log) ∧ events log = e ∧ Reacts app s evs log s' ∧ ∀ op ∈ hist, ∀ c : Core β, OpOk K c op := by
  induction evs with
  | nil =>
    intro c c' s s' e h
    simp only [Core.react, Except.ok.injEq, Prod.mk.injEq] at h
    obtain ⟨rfl, rfl, rfl⟩ := h
    exact ⟨[], [], rfl, rfl, ⟨rfl, rfl⟩, by simp⟩
  | cons ev rest ih =>
    intro c c' s s' e h
    simp only [Core.react] at h
    obtain ⟨⟨c1, s1, e1⟩, h1, h⟩ := Res.bind_eq_ok.mp h
    obtain ⟨⟨c2, s2, e2⟩, h2, h⟩ := Res.bind_eq_ok.mp h
    simp only [Except.ok.injEq, Prod.mk.injEq] at h
    obtain ⟨rfl, rfl, rfl⟩ := h
    obtain ⟨ha, la, a1, a2, a4, a3⟩ := calls_flat K (happ _ _) h1
    obtain ⟨hb, lb, b1, b2, b4, b3⟩ := ih h2
    refine ⟨ha ++ hb, la ++ lb, run_append' a1 b1, ?_, ⟨la, lb, s1, rfl, a4, b4⟩, ?_⟩
    · rw [← a2, ← b2]; simp [events]
    · intro o ho
      rcases List.mem_append.mp ho with ho | ho
      · exact a3 o ho
      · exact b3 o ho

theorem HistOk.append {ops : Ops β} {K : Contract ops} {h1 h2 : List (Op β)} : ∀ {c : Core β}, (∀ op ∈ h1, ∀ c : Core β, OpOk K c op) →
    (∀ c' l, c.run ops h1 = .ok (c', l) → HistOk K c' h2) → HistOk K c (h1 ++ h2) := by
  induction h1 with
  | nil => intro c _ h; exact h c [] rfl
  | cons op rest ih =>
    intro c ha h
    refine ⟨ha op (by simp) c, fun c' e rc hs => ih (fun o ho => ha o (by simp [ho])) fun c'' l hr => ?_⟩
    exact h c'' (⟨op, e, rc⟩ :: l) (by simp only [Core.run, hs, hr, Res.bind_ok])

/-- A history with an application that calls from its callbacks: no fault, the same as with the calls made afterwards, and
the same as a history of calls none of which is made from a callback. -/
theorem runH_after {ops : Ops β} {K : Contract ops} {app : App β S} (happ : ∀ s ev, (app s ev).AppOnly) {base : List Nat} {eid : Byte}
    {hist : List (Op β)} : ∀ {c : Core β} {s : S} {evs : List Event}, MemInv K base c → EpInv eid evs c → HistOkH K app c s hist →
    ∃ c' s' log flat flog, c.runH ops app s hist = .ok (c', s', log) ∧ c.runAfter ops app s hist = .ok (c', s', log) ∧
      c.run ops flat = .ok (c', flog) ∧ events flog = events log ∧ HistOk K c flat ∧ Flat app s hist flog s' ∧ MemInv K base c' := by
  induction hist with
  | nil => intro c s evs h _ _; exact ⟨c, s, [], [], [], rfl, rfl, rfl, rfl, trivial, ⟨rfl, rfl⟩, h⟩
  | cons op rest ih =>
    intro c s evs h he hok
    obtain ⟨c1, s1, e, rc, h1, h2, h3⟩ := stepH_after happ he.noBridge h s hok.1
    have h2' := h2
    unfold Core.stepAfter at h2'
    obtain ⟨⟨cs, es, rcs⟩, a1, h2'⟩ := Res.bind_eq_ok.mp h2'
    obtain ⟨⟨cr, sr, er⟩, a2, h2'⟩ := Res.bind_eq_ok.mp h2'
    simp only [Except.ok.injEq, Prod.mk.injEq] at h2'
    obtain ⟨rfl, rfl, rfl, rfl⟩ := h2'
    obtain ⟨fh, fl, f1, f2, f4, f3⟩ := react_flat K happ a2
    have hrun : c.run ops (op :: fh) = .ok (cr, ⟨op, es, rcs⟩ :: fl) := by simp only [Core.run, a1, f1, Res.bind_ok]
    obtain ⟨c', s', log, flat, flog, r1, r2, r3, r4, r5, r6, r7⟩ := ih h3 (run_epInv he hrun) (hok.2 _ _ _ _ h1)
    refine ⟨c', s', ⟨op, es ++ er, rcs⟩ :: log, (op :: fh) ++ flat, (⟨op, es, rcs⟩ :: fl) ++ flog, ?_, ?_, run_append' hrun r3, ?_, ?_, ?_, r7⟩
    · simp only [Core.runH, h1, r1, Res.bind_ok]
    · simp only [Core.runAfter, h2, r2, Res.bind_ok]
    · simp only [events, List.flatMap_append, List.flatMap_cons] at f2 r4 ⊢
      rw [f2, r4]
    · refine ⟨hok.1, fun c'' e'' rc'' hs => HistOk.append f3 fun c3 l3 hr3 => ?_⟩
      rw [a1] at hs
      simp only [Except.ok.injEq, Prod.mk.injEq] at hs
      obtain ⟨rfl, rfl, rfl⟩ := hs
      rw [f1] at hr3
      simp only [Except.ok.injEq, Prod.mk.injEq] at hr3
      obtain ⟨rfl, rfl⟩ := hr3
      exact r5
    · exact ⟨es, rcs, fl, flog, _, rfl, f4, r6⟩

end Mctp
