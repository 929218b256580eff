import Verif.Proofs.Reentrant2
import Verif.Proofs.Reasm

/-!
# Receiving while a message is being delivered from its context

While the callback runs, the context still holds the message and its stream.  Packets of other streams neither use nor move
it, so that what they do is the same whatever message the context holds.
-/

namespace Mctp

open Spec

variable {β S : Type}

/-- The core with another context in place `k`. -/
def Core.slot (k : Nat) (z : Ctx) (c : Core β) : Core β := { c with ctxs := c.ctxs.set k z }

/-- For the same stream. -/
structure Twin (x z : Ctx) : Prop where
  src  : z.src = x.src
  dest : z.dest = x.dest
  tag  : z.tag = x.tag

theorem findIdx_slot {p : Ctx → Bool} {z x : Ctx} (hp : p z = p x) : ∀ {t : List Ctx} {k : Nat}, t[k]? = some x →
    (t.set k z).findIdx? p = t.findIdx? p
  | [], _, h => by simp at h
  | y :: t, 0, h => by
    simp only [List.getElem?_cons_zero, Option.some.injEq] at h
    subst h
    simp only [List.set_cons_zero, List.findIdx?_cons, hp]
  | y :: t, k + 1, h => by
    simp only [List.getElem?_cons_succ] at h
    simp only [List.set_cons_succ, List.findIdx?_cons, findIdx_slot hp h]

theorem lookup_slot {t : List Ctx} {k : Nat} {x z : Ctx} (hx : t[k]? = some x) (hz : Twin x z) (s d g : Byte) :
    ctxLookup (t.set k z) s d g = ctxLookup t s d g := by
  unfold ctxLookup
  exact findIdx_slot (by simp only [hz.src, hz.dest, hz.tag]) hx

theorem somSlot_slot {t : List Ctx} {k : Nat} {x z : Ctx} (hx : t[k]? = some x) (hz : Twin x z) {s d g : Byte}
    (hne : ¬ (x.src = s ∧ x.dest = d ∧ x.tag = g)) (hx0 : x.src ≠ 0) (len : Nat) :
    somSlot (t.set k z) s d g len = somSlot t s d g len ∧ ∀ j y, somSlot t s d g len = some (j, y) → j ≠ k := by
  have hget : ∀ j, j ≠ k → (t.set k z)[j]? = t[j]? := fun j hj => by
    rw [List.getElem?_set, if_neg (fun h => hj h.symm)]
  unfold somSlot
  rw [lookup_slot hx hz, findIdx_slot (t := t) (p := fun c => c.src == 0) (by simp only [hz.src]) hx]
  cases hl : ctxLookup t s d g with
  | some j =>
    obtain ⟨y, hy, h1, h2, h3⟩ := lookup_lt hl
    have hj : j ≠ k := by
      rintro rfl
      rw [hx] at hy
      simp only [Option.some.injEq] at hy
      subst hy
      exact hne ⟨h1, h2, h3⟩
    simp only [hget j hj]
    refine ⟨trivial, fun j' y' h => ?_⟩
    rw [hy] at h
    simp only [Option.map_some, Option.some.injEq, Prod.mk.injEq] at h
    rw [← h.1]; exact hj
  | none =>
    cases hf : t.findIdx? fun c => c.src == 0 with
    | none => simp
    | some j =>
      obtain ⟨h1, h2, h3⟩ := List.findIdx?_eq_some_iff_getElem.mp hf
      have hj : j ≠ k := by
        rintro rfl
        rw [List.getElem?_eq_getElem h1] at hx
        simp only [Option.some.injEq] at hx
        rw [hx] at h2
        exact hx0 (by simpa using h2)
      simp only [hget j hj]
      refine ⟨trivial, fun j' y' h => ?_⟩
      rw [List.getElem?_eq_getElem h1] at h
      simp only [Option.map_some, Option.some.injEq, Prod.mk.injEq] at h
      rw [← h.1]; exact hj

theorem ctxRx_slot {m m1 : Mem} {t t1 : List Ctx} {k : Nat} {x z : Ctx} (hx : t[k]? = some x) (hz : Twin x z) {s d g : Byte}
    (hne : ¬ (x.src = s ∧ x.dest = d ∧ x.tag = g)) (hx0 : x.src ≠ 0) {mx : Nat} {pkt : Pktbuf} {q : Byte} {som eom : Bool}
    {out : Option (List Byte)} (h : ctxRx m t mx pkt s d g q som eom = .ok (m1, t1, out)) :
    t1[k]? = some x ∧ ctxRx m (t.set k z) mx pkt s d g q som eom = .ok (m1, t1.set k z, out) := by
  have hset : ∀ j (y : Ctx), j ≠ k → (t.set j y)[k]? = some x ∧ (t.set k z).set j y = (t.set j y).set k z := fun j y hj => by
    refine ⟨by rw [List.getElem?_set, if_neg hj, hx], List.set_comm _ _ (fun h => hj h.symm)⟩
  unfold ctxRx at h ⊢
  cases som with
  | true =>
    simp only [if_true] at h ⊢
    obtain ⟨h1, h2⟩ := somSlot_slot hx hz hne hx0 pkt.len
    rw [h1]
    cases hs : somSlot t s d g pkt.len with
    | none =>
      rw [hs] at h
      simp only [Except.ok.injEq, Prod.mk.injEq] at h
      obtain ⟨rfl, rfl, rfl⟩ := h
      exact ⟨hx, rfl⟩
    | some r =>
      obtain ⟨j, y⟩ := r
      have hj := h2 j y hs
      rw [hs] at h
      simp only at h ⊢
      obtain ⟨⟨m2, y', ok⟩, ha, h⟩ := Res.bind_eq_ok.mp h
      simp only [Except.ok.injEq, Prod.mk.injEq] at h
      obtain ⟨rfl, rfl, rfl⟩ := h
      rw [ha]
      simp only [Res.bind_ok, (hset j _ hj).2]
      exact ⟨(hset j _ hj).1, trivial⟩
  | false =>
    simp only [Bool.false_eq_true, if_false] at h ⊢
    rw [lookup_slot hx hz]
    cases hl : ctxLookup t s d g with
    | none =>
      rw [hl] at h
      simp only [Except.ok.injEq, Prod.mk.injEq] at h
      obtain ⟨rfl, rfl, rfl⟩ := h
      exact ⟨hx, rfl⟩
    | some j =>
      obtain ⟨y, hy, h1, h2, h3⟩ := lookup_lt hl
      have hj : j ≠ k := by
        rintro rfl
        rw [hx] at hy
        simp only [Option.some.injEq] at hy
        subst hy
        exact hne ⟨h1, h2, h3⟩
      have hgj : (t.set k z)[j]? = some y := by
        rw [List.getElem?_set, if_neg (fun h => hj h.symm), hy]
      rw [hl] at h
      simp only [hy, hgj] at h ⊢
      by_cases hseq : BitVec.ofNat 8 ((y.lastSeq.toNat + 1) % 4) ≠ q
      · rw [if_pos hseq] at h ⊢
        simp only [Except.ok.injEq, Prod.mk.injEq] at h
        obtain ⟨rfl, rfl, rfl⟩ := h
        exact ⟨(hset j _ hj).1, by rw [(hset j _ hj).2]⟩
      · rw [if_neg hseq] at h ⊢
        by_cases hlen : (if eom then pkt.len > y.fragSize else pkt.len ≠ y.fragSize)
        · rw [if_pos hlen] at h ⊢
          simp only [Except.ok.injEq, Prod.mk.injEq] at h
          obtain ⟨rfl, rfl, rfl⟩ := h
          exact ⟨(hset j _ hj).1, by rw [(hset j _ hj).2]⟩
        · rw [if_neg hlen] at h ⊢
          obtain ⟨⟨m2, y', ok⟩, ha, h⟩ := Res.bind_eq_ok.mp h
          rw [ha]
          simp only [Res.bind_ok] at h ⊢
          cases eom with
          | true =>
            simp only [if_true, Except.ok.injEq, Prod.mk.injEq] at h ⊢
            obtain ⟨rfl, rfl, rfl⟩ := h
            exact ⟨(hset j _ hj).1, rfl, (hset j _ hj).2, rfl⟩
          | false =>
            simp only [Bool.false_eq_true, if_false, Except.ok.injEq, Prod.mk.injEq] at h ⊢
            obtain ⟨rfl, rfl, rfl⟩ := h
            exact ⟨(hset j _ hj).1, rfl, (hset j _ hj).2, rfl⟩

theorem body_slot {ops : Ops β} {c c1 : Core β} {i : Nat} {bus : Bus β} {X : Pktbuf} {bs : List Byte} {f : Frag} {e : List Event}
    (hbr : c.bridge = false) {k : Nat} {x z : Ctx} (hx : c.ctxs[k]? = some x) (hz : Twin x z) (hx0 : x.src ≠ 0)
    (hp : PktIs X bs) (hf : parse bs = some f) (hne : fragB (keyOf x) bs = none) (h : c.busRxBody ops i bus X = .ok (c1, e)) :
    c1.ctxs[k]? = some x ∧ (c.slot k z).busRxBody ops i bus X = .ok (c1.slot k z, e) := by
  obtain ⟨_, _, _, _, _, _, _, _, _, _, _, _, _, htag, _⟩ := parse_some hf
  rw [busRxBody_parse ops _ i bus hp hf] at h ⊢
  rw [show (c.slot k z).bridge = c.bridge from rfl]
  split at h
  · rename_i hl
    rw [if_pos hl]
    simp only [Except.ok.injEq, Prod.mk.injEq] at h
    obtain ⟨rfl, rfl⟩ := h
    exact ⟨hx, rfl⟩
  · rename_i hl
    rw [if_neg hl]
    split at h
    · rename_i hs
      rw [if_pos hs]
      rw [rx_endpoint ops hbr] at h
      rw [rx_endpoint ops (c := c.slot k z) hbr]
      simp only [Except.ok.injEq, Prod.mk.injEq] at h
      obtain ⟨rfl, rfl⟩ := h
      exact ⟨hx, rfl⟩
    · rename_i hs
      rw [if_neg hs]
      have hkey : ¬ (x.src = f.src ∧ x.dest = f.dest ∧ x.tag = BitVec.ofNat 8 f.tag) := fun hh =>
        fragB_none hne hf (by simpa using hs) ((keyOf_eq_iff htag).mpr hh).symm
      unfold Core.rxFrag at h ⊢
      obtain ⟨⟨m, t, out⟩, hc, h⟩ := Res.bind_eq_ok.mp h
      obtain ⟨r1, r2⟩ := ctxRx_slot hx hz hkey hx0 hc
      rw [show (c.slot k z).mem = c.mem from rfl, show (c.slot k z).ctxs = c.ctxs.set k z from rfl,
        show (c.slot k z).maxSize = c.maxSize from rfl, r2]
      simp only [Res.bind_ok] at h ⊢
      cases out with
      | none =>
        simp only [Except.ok.injEq, Prod.mk.injEq] at h
        obtain ⟨rfl, rfl⟩ := h
        exact ⟨r1, rfl⟩
      | some msg =>
        simp only at h ⊢
        rw [rx_endpoint ops (by exact hbr)] at h
        simp only [Except.ok.injEq, Prod.mk.injEq] at h
        obtain ⟨rfl, rfl⟩ := h
        refine ⟨r1, ?_⟩
        rw [rx_endpoint ops (by exact hbr)]
        rfl

theorem busRx_slot {ops : Ops β} {c c1 : Core β} {i : Nat} {X : Pktbuf} {bs : List Byte} {e : List Event}
    (hbr : c.bridge = false) {k : Nat} {x z : Ctx} (hx : c.ctxs[k]? = some x) (hz : Twin x z) (hx0 : x.src ≠ 0)
    (hp : PktIs X bs) (hne : fragB (keyOf x) bs = none) (h : c.busRx ops i X = .ok (c1, e)) :
    c1.ctxs[k]? = some x ∧ (c.slot k z).busRx ops i X = .ok (c1.slot k z, e) := by
  unfold Core.busRx at h ⊢
  rw [show (c.slot k z).nBusses = c.nBusses from rfl, show (c.slot k z).busAt i = c.busAt i from rfl,
    show (c.slot k z).mem = c.mem from rfl, show (c.slot k z).hasCapture = c.hasCapture from rfl]
  split at h
  · cases h
  · rename_i hn
    rw [if_neg hn]
    obtain ⟨bus, hb, h⟩ := Res.bind_eq_ok.mp h
    obtain ⟨u, hd, h⟩ := Res.bind_eq_ok.mp h
    rw [hb, hd]
    simp only [Res.bind_ok]
    split at h
    · rename_i hl
      rw [if_pos hl]
      obtain ⟨m, hm, h⟩ := Res.bind_eq_ok.mp h
      simp only [Except.ok.injEq, Prod.mk.injEq] at h
      obtain ⟨rfl, rfl⟩ := h
      rw [hm]
      exact ⟨hx, rfl⟩
    · rename_i hl
      rw [if_neg hl]
      obtain ⟨⟨c2, e2⟩, hbody, h⟩ := Res.bind_eq_ok.mp h
      obtain ⟨m, hm, h⟩ := Res.bind_eq_ok.mp h
      simp only [Except.ok.injEq, Prod.mk.injEq] at h
      obtain ⟨rfl, rfl⟩ := h
      cases hf : parse bs with
      | none => exact absurd (parse_none.mp hf) (by rw [← hp.len]; exact hl)
      | some f =>
        obtain ⟨r1, r2⟩ := body_slot hbr hx hz hx0 hp hf hne hbody
        rw [r2]
        simp only [Res.bind_ok]
        rw [show (c2.slot k z).mem = c2.mem from rfl, hm]
        exact ⟨r1, rfl⟩

/-- A call an application makes that does not receive a packet of stream `κ`, nor one longer than `size`. -/
def OtherOp (κ : Key) (size : Nat) : Op β → Prop
  | .send .. | .setCapture _ => True
  | .recv i bs => i = 0 ∧ bs.length ≤ size ∧ fragB κ bs = none
  | _ => False

theorem step_slot {ops : Ops β} {c c1 : Core β} {op : Op β} {size : Nat} {e : List Event} {rc : Int}
    (hbr : c.bridge = false) {k : Nat} {x z : Ctx} (hx : c.ctxs[k]? = some x) (hz : Twin x z) (hx0 : x.src ≠ 0)
    (hop : OtherOp (keyOf x) size op)
    (h : c.step ops op = .ok (c1, e, rc)) :
    c1.ctxs[k]? = some x ∧ (c.slot k z).step ops op = .ok (c1.slot k z, e, rc) := by
  cases op with
  | recv i bs =>
    simp only [Core.step] at h ⊢
    obtain ⟨⟨c2, e2⟩, hr, h⟩ := Res.bind_eq_ok.mp h
    simp only [Except.ok.injEq, Prod.mk.injEq] at h
    obtain ⟨rfl, rfl, rfl⟩ := h
    suffices hh : c2.ctxs[k]? = some x ∧ (c.slot k z).rxPacket ops i bs = .ok (c2.slot k z, e2) by
      rw [hh.2]
      exact ⟨hh.1, rfl⟩
    unfold Core.rxPacket at hr ⊢
    obtain ⟨bus, hb, hr⟩ := Res.bind_eq_ok.mp hr
    rw [show (c.slot k z).busAt i = c.busAt i from rfl, hb]
    rw [show (c.slot k z).mem = c.mem from rfl, show (c.slot k z).fill = c.fill from rfl]
    simp only [Res.bind_ok]
    split at hr
    · rename_i m hpa
      simp only [Except.ok.injEq, Prod.mk.injEq] at hr
      obtain ⟨rfl, rfl⟩ := hr
      exact ⟨hx, rfl⟩
    · rename_i pkt m hpa
      obtain ⟨X, hw, hr⟩ := Res.bind_eq_ok.mp hr
      obtain ⟨_, ha, hs, he, ho, _, _⟩ := pktbufAlloc_some hpa
      have hp : PktIs X bs := pktIs_of_write (by rw [ho, hs]) (by rw [he, hs]) hw
      obtain ⟨r1, r2⟩ := busRx_slot (c := { c with mem := m }) hbr hx hz hx0 hp hop.2.2 hr
      refine ⟨r1, ?_⟩
      rw [hw]
      simp only [Res.bind_ok]
      exact r2
  | send d o g msg =>
    simp only [Core.step, Core.messageTx] at h ⊢
    rw [show (c.slot k z).nBusses = c.nBusses from rfl, show (c.slot k z).busAt 0 = c.busAt 0 from rfl]
    split at h
    · rename_i hg
      rw [if_pos hg]
      simp only [Except.ok.injEq, Prod.mk.injEq] at h
      obtain ⟨rfl, rfl, rfl⟩ := h
      exact ⟨hx, rfl⟩
    · rename_i hg
      rw [if_neg hg]
      split at h
      · rename_i hn
        rw [if_pos hn]
        simp only [Except.ok.injEq, Prod.mk.injEq] at h
        obtain ⟨rfl, rfl, rfl⟩ := h
        exact ⟨hx, rfl⟩
      · rename_i hn
        rw [if_neg hn]
        obtain ⟨bus, hb, h⟩ := Res.bind_eq_ok.mp h
        rw [hb]
        simp only [Res.bind_ok]
        have hc := messageTxOnBus_ctxs ops c (c.ctxs.set k z) 0 bus.eid d o g msg
        rw [h] at hc
        obtain ⟨-, m, bs, rfl, -⟩ := messageTxOnBus_ok h
        exact ⟨hx, hc⟩
  | setCapture on =>
    simp only [Core.step, Except.ok.injEq, Prod.mk.injEq] at h ⊢
    obtain ⟨rfl, rfl, rfl⟩ := h
    exact ⟨hx, rfl, rfl, rfl⟩
  | _ => exact hop.elim

/-- Whatever the results of its calls, the script makes only such calls. -/
def Script.Others (κ : Key) (size : Nat) : Script β S → Prop
  | .done _ => True
  | .call op k => OtherOp κ size op ∧ ∀ rc, (k rc).Others κ size

/-- The sizes that decide whether a packet fits. -/
def busSizes (c : Core β) : List (Nat × Nat) := c.busses.map fun b => (b.binding.pktSize, b.binding.pktTrailer)

/-- Packets of up to `size` bytes fit the first bus. -/
def Fits (size : Nat) (c : Core β) : Prop := ∃ bus, c.busses[0]? = some bus ∧ size ≤ bus.binding.pktSize + bus.binding.pktTrailer

theorem Fits.of_sizes {size : Nat} {c c1 : Core β} (h : Fits size c) (hs : busSizes c1 = busSizes c) : Fits size c1 := by
  obtain ⟨bus, hb, hf⟩ := h
  have h0 : (busSizes c1)[0]? = some (bus.binding.pktSize, bus.binding.pktTrailer) := by
    rw [hs]
    unfold busSizes
    rw [List.getElem?_map, hb]
    rfl
  unfold busSizes at h0
  rw [List.getElem?_map] at h0
  cases h1 : c1.busses[0]? with
  | none => rw [h1] at h0; cases h0
  | some b1 =>
    rw [h1] at h0
    simp only [Option.map_some, Option.some.injEq, Prod.mk.injEq] at h0
    exact ⟨b1, h1, by rw [h0.1, h0.2]; exact hf⟩

theorem busSizes_set {c : Core β} {i : Nat} {b b' : Bus β} (hb : c.busses[i]? = some b)
    (h : (b'.binding.pktSize, b'.binding.pktTrailer) = (b.binding.pktSize, b.binding.pktTrailer)) : busSizes (c.setBus i b') = busSizes c := by
  unfold busSizes
  exact map_set_eq hb h

theorem sendTxQueue_sizes {ops : Ops β} {c c1 : Core β} {i : Nat} {e : List Event} (hs : c.sendTxQueue ops i = .ok (c1, e)) :
    busSizes c1 = busSizes c := by
  unfold Core.sendTxQueue at hs
  obtain ⟨b1, hb1, hs⟩ := Res.bind_eq_ok.mp hs
  obtain ⟨⟨m2, b2, e3⟩, hq, hs⟩ := Res.bind_eq_ok.mp hs
  simp only [Except.ok.injEq, Prod.mk.injEq] at hs
  obtain ⟨rfl, -⟩ := hs
  obtain ⟨-, ⟨st, hst⟩, -⟩ := sendQueue_bus hq
  exact busSizes_set (c := { c with mem := m2 }) (busAt_ok hb1).2.1 (by rw [hst])

/-- Only `rebind` changes the sizes. -/
theorem step_sizes {ops : Ops β} {c c1 : Core β} {op : Op β} {e : List Event} {rc : Int} {eid : Byte}
    (hbr : c.bridge = false) (heid : c.busses.map Bus.eid = [eid]) (hop : ∀ i st a b d cr, op ≠ .rebind i st a b d cr)
    (h : c.step ops op = .ok (c1, e, rc)) : busSizes c1 = busSizes c := by
  cases op with
  | recv i bs =>
    simp only [Core.step] at h
    obtain ⟨⟨c2, e2⟩, hr, h⟩ := Res.bind_eq_ok.mp h
    simp only [Except.ok.injEq, Prod.mk.injEq] at h
    obtain ⟨rfl, rfl, rfl⟩ := h
    rcases rxPacket_cases hr with ⟨_, m, _, _, rfl, _⟩ | ⟨bus, m0, pkt, _, _, hp, hh⟩
    · rfl
    · obtain ⟨_, _, _, _, hc⟩ := busRx_endpoint (c := { c with mem := m0 }) hbr heid hp hh
      rcases hc with ⟨_, _, m, rfl⟩ | ⟨f, _, ⟨_, _, m, rfl⟩ | ⟨_, _, _, m, rfl⟩ | ⟨_, _, m1, m2, t, out, _, _, rfl, _⟩⟩ <;> rfl
  | send d o g msg =>
    simp only [Core.step, Core.messageTx] at h
    split at h
    · simp only [Except.ok.injEq, Prod.mk.injEq] at h
      obtain ⟨rfl, -, -⟩ := h
      rfl
    · split at h
      · simp only [Except.ok.injEq, Prod.mk.injEq] at h
        obtain ⟨rfl, -, -⟩ := h
        rfl
      · obtain ⟨bus, hb, h⟩ := Res.bind_eq_ok.mp h
        unfold Core.messageTxOnBus at h
        obtain ⟨bus', hb', h⟩ := Res.bind_eq_ok.mp h
        split at h
        · simp only [Except.ok.injEq, Prod.mk.injEq] at h
          obtain ⟨rfl, -, -⟩ := h
          rfl
        · dsimp only at h
          split at h
          · cases h
          · obtain ⟨⟨m, q⟩, hl, h⟩ := Res.bind_eq_ok.mp h
            obtain ⟨⟨c2, e2⟩, hs, h⟩ := Res.bind_eq_ok.mp h
            simp only [Except.ok.injEq, Prod.mk.injEq] at h
            obtain ⟨rfl, -, -⟩ := h
            rw [sendTxQueue_sizes hs]
            exact busSizes_set (c := { c with mem := m }) (busAt_ok hb').2.1 rfl
  | enable i on =>
    simp only [Core.step, Core.setTxEnabled] at h
    obtain ⟨⟨c2, e2⟩, h1, h⟩ := Res.bind_eq_ok.mp h
    simp only [Except.ok.injEq, Prod.mk.injEq] at h
    obtain ⟨rfl, -, -⟩ := h
    obtain ⟨bus, hb, h1⟩ := Res.bind_eq_ok.mp h1
    have hset : ∀ st, busSizes (c.setBus i { bus with state := st }) = busSizes c := fun st => busSizes_set (busAt_ok hb).2.1 rfl
    split at h1
    · split at h1
      · cases h1; rfl
      · split at h1
        · cases h1; rfl
        · cases h1; exact hset _
    · split at h1
      · cases h1; rfl
      · cases h1; exact hset _
    · split at h1
      · cases h1; rfl
      · rw [sendTxQueue_sizes h1]; exact hset _
  | rebind i st a b d cr => exact absurd rfl (hop _ _ _ _ _ _)
  | _ =>
    simp only [Core.step, Except.ok.injEq, Prod.mk.injEq] at h
    obtain ⟨rfl, -, -⟩ := h
    rfl

/-- The callback for a message in place `k` of the table, whose application makes only such calls: what the calls do is what
they do while the message is not yet complete. -/
theorem callback_others {ops : Ops β} {K : Contract ops} {eid : Byte} {mx : Nat} {A : Nat → Prop} {lim : Nat → Bool → Prop}
    (hpol : Pol mx A (fun _ => True) lim) {base : List Nat} {k b size : Nat} {y z : Ctx} (hz : Twin y z) (hy0 : y.src ≠ 0)
    (hyb : y.buf = some b) {sc : Script β S} :
    ∀ {c : Core β} {evs : List Event}, RefInv K eid mx A base evs c → c.ctxs[k]? = some y → Fits size c → sc.Others (keyOf y) size →
    ∃ c' s' log, (c.slot k z).callback ops (some b) sc = .ok (c'.slot k z, s', events log) ∧ sc.Log log s' ∧
      RefInv K eid mx A base (evs ++ events log) c' ∧ c'.ctxs[k]? = some y ∧ Fits size c' ∧
      Reasm lim eid (abs c.ctxs) (rxTrace log) (abs c'.ctxs) ∧ ∀ r ∈ log, OtherOp (keyOf y) size r.op := by
  induction sc with
  | done s =>
    intro c evs hI hk hf _
    have hmem : b ∈ owned c ++ base := by
      refine List.mem_append.mpr (.inl ?_)
      exact List.mem_append.mpr (.inl (List.mem_filterMap.mpr ⟨y, List.mem_of_getElem? hk, hyb⟩))
    have hd : (c.slot k z).mem.deref (some b) = .ok () := hI.mem.owns.deref hmem
    refine ⟨c, s, [], ?_, ⟨rfl, rfl⟩, by simpa [events] using hI, hk, hf, rfl, by simp⟩
    simp [Core.callback, hd, Res.bind_ok, events]
  | call op next ih =>
    intro c evs hI hk hf ⟨hop, hnext⟩
    have hmem : b ∈ owned c ++ base := by
      refine List.mem_append.mpr (.inl ?_)
      exact List.mem_append.mpr (.inl (List.mem_filterMap.mpr ⟨y, List.mem_of_getElem? hk, hyb⟩))
    have hd : (c.slot k z).mem.deref (some b) = .ok () := hI.mem.owns.deref hmem
    have hok : OpOk K c op := by
      cases op with
      | recv i bs =>
        obtain ⟨rfl, hl, _⟩ := hop
        obtain ⟨bus, h1, h2⟩ := hf
        exact ⟨bus, h1, by omega⟩
      | send => trivial
      | setCapture => trivial
      | _ => exact hop.elim
    have hP : PktP (fun _ => True) op := by
      cases op <;> first | trivial | exact hop.elim
    obtain ⟨c1, e1, rc, h1, hI1, hst⟩ := step_ref K hpol hI hok hP
    obtain ⟨hk1, h1'⟩ := step_slot hI.ep.noBridge hk hz hy0 hop h1
    have hf1 := hf.of_sizes (step_sizes hI.ep.noBridge hI.ep.eids (by rintro _ _ _ _ _ _ rfl; exact hop) h1)
    obtain ⟨c', s', log, r1, r2, r3, r4, r5, r6, r7⟩ := ih rc hI1 hk1 hf1 (hnext rc)
    refine ⟨c', s', ⟨op, e1, rc⟩ :: log, ?_, ⟨e1, rc, log, rfl, r2⟩, ?_, r4, r5, ?_, ?_⟩
    · simp only [Core.callback, hd, h1', r1, Res.bind_ok]
      simp [events]
    · simpa [events, List.append_assoc] using r3
    · cases op with
      | recv i bs => exact ⟨_, hst, r6⟩
      | send =>
        simp only [rxTrace, List.filterMap_cons] at r6 ⊢
        rw [hst.1] at r6; exact r6
      | setCapture =>
        simp only [rxTrace, List.filterMap_cons] at r6 ⊢
        rw [hst.1] at r6; exact r6
      | _ => exact hop.elim
    · intro r hr
      rcases List.mem_cons.mp hr with rfl | hr
      · exact hop
      · exact r7 r hr

end Mctp
