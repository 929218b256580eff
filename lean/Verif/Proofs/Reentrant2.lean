import Verif.Proofs.Reentrant

/-!
# Receiving commutes with the release of a packet buffer
-/

namespace Mctp

open Spec

variable {β S : Type}

theorem realloc_less {m m1 : Mem} {p : Nat} {b r : Option Nat} (hp : p < m.next) (hb : b ≠ some p)
    (h : m.realloc b = .ok (r, m1)) : (m.less p).realloc b = .ok (r, m1.less p) ∧ r ≠ some p := by
  unfold Mem.realloc at h ⊢
  cases b with
  | none =>
    simp only [Except.ok.injEq] at h ⊢
    obtain ⟨a1, -, a3⟩ := alloc_less hp
    rw [a1, h]
    rw [h] at a3
    exact ⟨rfl, fun hr => a3 p hr rfl⟩
  | some i =>
    have hi : i ≠ p := fun e => hb (by rw [e])
    simp only at h ⊢
    split at h
    · rename_i hl
      rw [if_pos ((Mem.less_mem hi).mpr hl)]
      have e1 : (m.less p).ok (m.less p).next = m.ok m.next := rfl
      rw [e1]
      split at h
      · rename_i ho
        rw [if_pos ho]
        simp only [Except.ok.injEq, Prod.mk.injEq] at h
        obtain ⟨rfl, rfl⟩ := h
        refine ⟨?_, by simp only [ne_eq, Option.some.injEq]; omega⟩
        simp only [Mem.less, Except.ok.injEq, Prod.mk.injEq, true_and, Mem.mk.injEq, and_true]
        rw [List.erase_cons_tail (by simp; omega), List.erase_comm]
      · rename_i ho
        rw [if_neg ho]
        simp only [Except.ok.injEq, Prod.mk.injEq] at h
        obtain ⟨rfl, rfl⟩ := h
        exact ⟨rfl, by simp⟩
    · cases h

theorem ctxAppend_less {m : Mem} {p : Nat} {x x' : Ctx} {pkt : Pktbuf} {len : Nat} (hb : x.buf ≠ some p)
    (h : ctxAppend m x pkt len = .ok x') : ctxAppend (m.less p) x pkt len = .ok x' := by
  have e : (m.less p).deref x.buf = m.deref x.buf := by
    cases hx : x.buf with
    | none => rfl
    | some i => exact deref_less fun e => hb (by rw [hx, e])
  unfold ctxAppend at h ⊢
  rw [e]
  exact h

theorem ctxAddPkt_less {m m1 : Mem} {p : Nat} {x x' : Ctx} {pkt : Pktbuf} {mx : Nat} {ok : Bool} (hp : p < m.next) (hb : x.buf ≠ some p)
    (h : ctxAddPkt m x pkt mx = .ok (m1, x', ok)) : ctxAddPkt (m.less p) x pkt mx = .ok (m1.less p, x', ok) := by
  unfold ctxAddPkt at h ⊢
  simp only at h ⊢
  split at h
  · rename_i h1
    rw [if_pos h1]
    simp only [Except.ok.injEq, Prod.mk.injEq] at h ⊢
    obtain ⟨rfl, rfl, rfl⟩ := h
    simp
  · rename_i h1
    rw [if_neg h1]
    split at h
    · rename_i h2
      rw [if_pos h2]
      split at h
      · rename_i h3
        rw [if_pos h3]
        simp only [Except.ok.injEq, Prod.mk.injEq] at h ⊢
        obtain ⟨rfl, rfl, rfl⟩ := h
        simp
      · rename_i h3
        rw [if_neg h3]
        split at h
        · cases h
        · rename_i b mm hre
          obtain ⟨r1, r2⟩ := realloc_less hp hb hre
          rw [r1]
          simp only
          split at h
          · cases h
          · rename_i y hy
            rw [ctxAppend_less (by simpa using r2) hy]
            simp only [Except.ok.injEq, Prod.mk.injEq] at h ⊢
            obtain ⟨rfl, rfl, rfl⟩ := h
            simp
        · rename_i mm hre
          obtain ⟨r1, r2⟩ := realloc_less hp hb hre
          rw [r1]
          simp only
          split at h
          · cases h
          · rename_i m2 hf
            have hf2 : (mm.less p).free x.buf = .ok (m2.less p) := by
              cases hx : x.buf with
              | none =>
                rw [hx] at hf
                simp only [Mem.free, Except.ok.injEq] at hf ⊢
                rw [hf]
              | some i =>
                rw [hx] at hf
                exact (free_less (fun e => hb (by rw [hx, e])) hf).1
            rw [hf2]
            simp only [Except.ok.injEq, Prod.mk.injEq] at h ⊢
            obtain ⟨rfl, rfl, rfl⟩ := h
            simp
    · rename_i h2
      rw [if_neg h2]
      split at h
      · cases h
      · rename_i y hy
        rw [ctxAppend_less hb hy]
        simp only [Except.ok.injEq, Prod.mk.injEq] at h ⊢
        obtain ⟨rfl, rfl, rfl⟩ := h
        simp

theorem somSlot_buf {t : List Ctx} {s d g : Byte} {l k : Nat} {x : Ctx} (h : somSlot t s d g l = some (k, x)) : ∃ y ∈ t, x.buf = y.buf := by
  unfold somSlot at h
  split at h
  · obtain ⟨y, hy, he⟩ := Option.map_eq_some_iff.mp h
    simp only [Prod.mk.injEq] at he
    obtain ⟨-, rfl⟩ := he
    exact ⟨y, List.mem_of_getElem? hy, rfl⟩
  · split at h
    · cases h
    · obtain ⟨y, hy, he⟩ := Option.map_eq_some_iff.mp h
      simp only [Prod.mk.injEq] at he
      obtain ⟨-, rfl⟩ := he
      exact ⟨y, List.mem_of_getElem? hy, rfl⟩

theorem ctxRx_less {m m1 : Mem} {p : Nat} {t t1 : List Ctx} {mx : Nat} {pkt : Pktbuf} {s d g q : Byte} {som eom : Bool} {out : Option (List Byte)}
    (hp : p < m.next) (hb : ∀ x ∈ t, x.buf ≠ some p) (h : ctxRx m t mx pkt s d g q som eom = .ok (m1, t1, out)) :
    ctxRx (m.less p) t mx pkt s d g q som eom = .ok (m1.less p, t1, out) := by
  unfold ctxRx at h ⊢
  split at h
  · rename_i h1
    rw [if_pos h1]
    cases hsl : somSlot t s d g pkt.len with
    | none =>
      rw [hsl] at h
      simp only [Except.ok.injEq, Prod.mk.injEq] at h ⊢
      obtain ⟨rfl, rfl, rfl⟩ := h
      simp
    | some kx =>
      obtain ⟨k, x⟩ := kx
      rw [hsl] at h
      simp only at h ⊢
      obtain ⟨⟨m2, x', ok⟩, ha, h⟩ := Res.bind_eq_ok.mp h
      obtain ⟨y, hy, e⟩ := somSlot_buf hsl
      rw [ctxAddPkt_less hp (by rw [e]; exact hb y hy) ha]
      simp only [Res.bind_ok, Except.ok.injEq, Prod.mk.injEq] at h ⊢
      obtain ⟨rfl, rfl, rfl⟩ := h
      simp
  · rename_i h1
    rw [if_neg h1]
    cases hlk : ctxLookup t s d g with
    | none =>
      rw [hlk] at h
      simp only [Except.ok.injEq, Prod.mk.injEq] at h ⊢
      obtain ⟨rfl, rfl, rfl⟩ := h
      simp
    | some k =>
      rw [hlk] at h
      simp only at h ⊢
      cases hx : t[k]? with
      | none => rw [hx] at h; cases h
      | some x =>
        rw [hx] at h
        simp only at h ⊢
        split at h
        · rename_i h2
          rw [if_pos h2]
          simp only [Except.ok.injEq, Prod.mk.injEq] at h ⊢
          obtain ⟨rfl, rfl, rfl⟩ := h
          simp
        · rename_i h2
          rw [if_neg h2]
          by_cases h3 : (if eom then pkt.len > x.fragSize else pkt.len ≠ x.fragSize)
          · rw [if_pos h3] at h ⊢
            simp only [Except.ok.injEq, Prod.mk.injEq] at h ⊢
            obtain ⟨rfl, rfl, rfl⟩ := h
            simp
          · rw [if_neg h3] at h ⊢
            obtain ⟨⟨m2, x', ok⟩, ha, h⟩ := Res.bind_eq_ok.mp h
            rw [ctxAddPkt_less hp (hb x (List.mem_of_getElem? hx)) ha]
            simp only [Res.bind_ok] at h ⊢
            split at h
            · rename_i h4
              rw [if_pos h4]
              simp only [Except.ok.injEq, Prod.mk.injEq] at h ⊢
              obtain ⟨rfl, rfl, rfl⟩ := h
              simp
            · rename_i h4
              rw [if_neg h4]
              simp only [Except.ok.injEq, Prod.mk.injEq] at h ⊢
              obtain ⟨rfl, rfl, rfl⟩ := h
              simp

theorem routeEvents_past (p : Nat) (c : Core β) (i : Nat) (bus : Bus β) (s : Byte) (o : Bool) (g : Byte) (msg : List Byte) :
    routeEvents (c.past p id) i bus s o g msg = routeEvents c i bus s o g msg := rfl

/-- The processing of a packet other than the one in allocation `p`. -/
theorem body_past {ops : Ops β} {p : Nat} {c c1 : Core β} {i : Nat} {bus : Bus β} {X : Pktbuf} {bs : List Byte} {f : Frag} {e : List Event}
    (hbr : c.bridge = false) (hp : p < c.mem.next) (hb : ∀ x ∈ c.ctxs, x.buf ≠ some p) (hpk : PktIs X bs) (hf : parse bs = some f)
    (h : c.busRxBody ops i bus X = .ok (c1, e)) : (c.past p id).busRxBody ops i bus X = .ok (c1.past p id, e) := by
  rw [busRxBody_parse ops _ i bus hpk hf] at h ⊢
  have hbr' : (c.past p id).bridge = false := hbr
  rw [hbr'] 
  rw [hbr] at h
  split at h
  · rename_i hl
    rw [if_pos hl]
    simp only [Except.ok.injEq, Prod.mk.injEq] at h ⊢
    obtain ⟨rfl, rfl⟩ := h
    simp
  · rename_i hl
    rw [if_neg hl]
    split at h
    · rename_i hs
      rw [if_pos hs]
      rw [rx_endpoint ops hbr] at h
      rw [rx_endpoint ops hbr']
      simp only [Except.ok.injEq, Prod.mk.injEq] at h ⊢
      obtain ⟨rfl, rfl⟩ := h
      exact ⟨rfl, rfl⟩
    · rename_i hs
      rw [if_neg hs]
      unfold Core.rxFrag at h ⊢
      obtain ⟨⟨m1, t, out⟩, hc, h⟩ := Res.bind_eq_ok.mp h
      have hc' : ctxRx (c.past p id).mem (c.past p id).ctxs (c.past p id).maxSize X f.src f.dest (BitVec.ofNat 8 f.tag) (BitVec.ofNat 8 f.seq) f.som f.eom
          = .ok (m1.less p, t, out) := ctxRx_less hp hb hc
      rw [hc']
      simp only [Res.bind_ok] at h ⊢
      cases out with
      | none =>
        simp only [Except.ok.injEq, Prod.mk.injEq] at h ⊢
        obtain ⟨rfl, rfl⟩ := h
        exact ⟨rfl, rfl⟩
      | some msg =>
        simp only at h ⊢
        rw [rx_endpoint ops (by exact hbr)] at h
        rw [rx_endpoint ops (by exact hbr')]
        simp only [Except.ok.injEq, Prod.mk.injEq] at h ⊢
        obtain ⟨rfl, rfl⟩ := h
        exact ⟨rfl, rfl⟩

theorem busRx_past {ops : Ops β} {p : Nat} {c c1 : Core β} {i : Nat} {X : Pktbuf} {bs : List Byte} {e : List Event}
    (hbr : c.bridge = false) (ha : Apart p c) (hb : ∀ x ∈ c.ctxs, x.buf ≠ some p) (hX : X.id ≠ p) (hpk : PktIs X bs)
    (h : c.busRx ops i X = .ok (c1, e)) : (c.past p id).busRx ops i X = .ok (c1.past p id, e) := by
  unfold Core.busRx at h ⊢
  have hn : (c.past p id).nBusses = c.nBusses := rfl
  rw [hn]
  split at h
  · cases h
  · rename_i hi
    rw [if_neg hi]
    obtain ⟨bus, hbus, h⟩ := Res.bind_eq_ok.mp h
    obtain ⟨u, hd, h⟩ := Res.bind_eq_ok.mp h
    have hd' : (c.past p id).mem.deref (some X.id) = .ok u := by
      rw [← hd]; exact deref_less hX
    rw [busAt_past ha.ptr, hbus, hd']
    simp only [Res.bind_ok] at h ⊢
    split at h
    · rename_i hl
      rw [if_pos hl]
      obtain ⟨m, hf, h⟩ := Res.bind_eq_ok.mp h
      simp only [Except.ok.injEq, Prod.mk.injEq] at h
      obtain ⟨rfl, rfl⟩ := h
      have : pktbufFree (c.past p id).mem X = .ok (m.less p) := (free_less hX hf).1
      rw [this]
      rfl
    · rename_i hl
      rw [if_neg hl]
      obtain ⟨⟨cb, eb⟩, hbody, h⟩ := Res.bind_eq_ok.mp h
      obtain ⟨m, hf, h⟩ := Res.bind_eq_ok.mp h
      simp only [Except.ok.injEq, Prod.mk.injEq] at h
      obtain ⟨rfl, rfl⟩ := h
      obtain ⟨f, hpf⟩ : ∃ f, parse bs = some f := by
        rw [← Option.isSome_iff_exists]
        rw [hpk.len] at hl
        match bs with
        | [] | [_] | [_, _] | [_, _, _] | [_, _, _, _] => simp [hdrSize] at hl
        | _ :: _ :: _ :: _ :: _ :: _ => rfl
      rw [body_past hbr ha.next hb hpk hpf hbody]
      simp only [Res.bind_ok]
      have : pktbufFree (cb.past p id).mem X = .ok (m.less p) := (free_less hX hf).1
      rw [this]
      rfl

/-- Receiving a packet, with or without the packet buffer `p`. -/
theorem recv_past {ops : Ops β} {K : Contract ops} {base : List Nat} {p : Nat} {c c1 : Core β} {i : Nat} {bs : List Byte} {e : List Event} {rc : Int}
    (hbr : c.bridge = false) (h : MemInv K (p :: base) c) (hop : OpOk K c (.recv i bs)) (hs : c.step ops (.recv i bs) = .ok (c1, e, rc)) :
    (c.past p id).step ops (.recv i bs) = .ok (c1.past p id, e, rc) := by
  obtain ⟨bus, hget, hfit⟩ := hop
  have hi : i < c.nBusses := by rw [h.nb]; exact (List.getElem?_eq_some_iff.mp hget).1
  obtain ⟨bus', hbus, hget', hmem⟩ := h.busAt hi
  have : bus' = bus := by rw [hget] at hget'; simpa using hget'.symm
  subst this
  simp only [Core.step] at hs ⊢
  obtain ⟨⟨c2, e2⟩, hr, hs⟩ := Res.bind_eq_ok.mp hs
  simp only [Except.ok.injEq, Prod.mk.injEq] at hs
  obtain ⟨rfl, rfl, rfl⟩ := hs
  obtain ⟨m1, h1, h2, h3⟩ := h.owns.alloc h.ok
  obtain ⟨p0, X, hpa, hwr, hpk, hXid⟩ := recvBuf (fill := c.fill) h1 (ph := bus'.binding.pktHeader) hfit
  have hap := h.apart
  have hrx : c.rxPacket ops i bs = ({ c with mem := m1 } : Core β).busRx ops i X := by
    unfold Core.rxPacket
    rw [hbus]
    simp only [Res.bind_ok, hpa, hwr]
  have hrx2 : (c.past p id).rxPacket ops i bs = ({ c with mem := m1 }.past p id : Core β).busRx ops i X := by
    unfold Core.rxPacket
    rw [busAt_past hap.ptr, hbus]
    have : pktbufAlloc (c.past p id).mem (c.past p id).fill bus'.binding.pktSize bus'.binding.pktHeader bus'.binding.pktTrailer bs.length
        = (some p0, m1.less p) := by
      have := (pktbufAlloc_less hap.next c.fill bus'.binding.pktSize bus'.binding.pktHeader bus'.binding.pktTrailer bs.length).1
      rw [hpa] at this
      exact this
    simp only [Res.bind_ok, this, hwr]
    rfl
  rw [hrx2]
  have hinv1 : MemInv K (X.id :: p :: base) ({ c with mem := m1 } : Core β) := h.alloc (by rw [hXid]; exact h1)
  have hcnt := hinv1.owns.cnt
  have hnd := List.nodup_iff_count.mp hinv1.owns.nd
  have hXp : X.id ≠ p := by
    intro e
    have a := hcnt p
    have b := hnd p
    simp only [e, List.count_append, List.count_cons_self] at a b
    change List.count p m1.live ≤ 1 at b
    omega
  have hbufs : ∀ x ∈ c.ctxs, x.buf ≠ some p := by
    intro x hx e
    have a := h.owns.cnt p
    have b := List.nodup_iff_count.mp h.owns.nd p
    have hin : p ∈ owned c := by
      simp only [owned, List.mem_append]
      refine .inl ?_
      unfold ctxBufs
      rw [List.mem_filterMap]
      exact ⟨x, hx, e⟩
    have := List.count_pos_iff.mpr hin
    simp only [List.count_append, List.count_cons_self] at a
    omega
  have hap1 : Apart p ({ c with mem := m1 } : Core β) :=
    ⟨hinv1.owns.fresh p (hinv1.owns.mem (by simp)), hap.ptr, hap.queue⟩
  rw [hrx] at hr
  rw [busRx_past (c := { c with mem := m1 }) hbr hap1 hbufs hXp hpk hr]
  rfl

/-- The calls of a script meet their preconditions when made one after the other from the state `c`: sending, settings and
receiving. -/
def Script.OkIn {ops : Ops β} (K : Contract ops) : Core β → Script β S → Prop
  | _, .done _ => True
  | c, .call op k => (match op with | .send .. | .setMax _ | .setCapture _ | .setRx _ | .recv .. => True | _ => False) ∧ OpOk K c op ∧
      ∀ c' e rc, c.step ops op = .ok (c', e, rc) → (k rc).OkIn K c'

theorem callback_polls {ops : Ops β} {K : Contract ops} {base : List Nat} {p : Nat} {eid : Byte} {sc : Script β S} :
    ∀ {c : Core β} {evs : List Event}, MemInv K (p :: base) c → EpInv eid evs c → sc.OkIn K (c.past p id) →
    ∃ c' s' e, c.callback ops (some p) sc = .ok (c', s', e) ∧ (c.past p id).calls ops sc = .ok (c'.past p id, s', e) ∧
      MemInv K (p :: base) c' := by
  induction sc with
  | done s =>
    intro c evs h he _
    have hd : c.mem.deref (some p) = .ok () := h.owns.deref (by simp)
    exact ⟨c, s, [], by simp [Core.callback, hd, Res.bind_ok], rfl, h⟩
  | call op k ih =>
    intro c evs h he ⟨hop, hok, hk⟩
    have hd : c.mem.deref (some p) = .ok () := h.owns.deref (by simp)
    have hok' : OpOk K c op := by
      cases op <;> exact hok
    obtain ⟨c1, e1, rc, h1, i1⟩ := step_total K h hok'
    have p1 : (c.past p id).step ops op = .ok (c1.past p id, e1, rc) := by
      cases op with
      | recv i bs => exact recv_past he.noBridge h hok' h1
      | enable i on => exact absurd hop (by simp)
      | rebind i st ps ph pt cr => exact absurd hop (by simp)
      | _ => exact (step_past (f := id) h.apart trivial h1).1
    obtain ⟨c2, s2, e2, r1, r2, r3⟩ := ih rc i1 (step_epInv he h1) (hk _ _ _ p1)
    refine ⟨c2, s2, e1 ++ e2, ?_, ?_, r3⟩
    · simp only [Core.callback, hd, h1, r1, Res.bind_ok]
    · simp only [Core.calls, p1, r2, Res.bind_ok]

/-- The calls of a script, one after the other, are a history. -/
theorem calls_hist {ops : Ops β} {K : Contract ops} {sc : Script β S} : ∀ {c c' : Core β} {s' : S} {e : List Event}, sc.OkIn K c →
    c.calls ops sc = .ok (c', s', e) → ∃ hist log, c.run ops hist = .ok (c', log) ∧ events log = e ∧ HistOk K c hist ∧ sc.Log log s' := by
  induction sc with
  | done s =>
    intro c c' s' e _ h
    simp only [Core.calls, Except.ok.injEq, Prod.mk.injEq] at h
    obtain ⟨rfl, rfl, rfl⟩ := h
    exact ⟨[], [], rfl, rfl, trivial, rfl, rfl⟩
  | call op k ih =>
    intro c c' s' e ⟨_, hok, hk⟩ h
    simp only [Core.calls] at h
    obtain ⟨⟨c1, e1, rc⟩, h1, h⟩ := Res.bind_eq_ok.mp h
    obtain ⟨⟨c2, s2, e2⟩, h2, h⟩ := Res.bind_eq_ok.mp h
    simp only [Except.ok.injEq, Prod.mk.injEq] at h
    obtain ⟨rfl, rfl, rfl⟩ := h
    obtain ⟨hist, log, r1, r2, r3, r4⟩ := ih rc (hk _ _ _ h1) h2
    refine ⟨op :: hist, ⟨op, e1, rc⟩ :: log, ?_, ?_, ⟨hok, fun c3 e3 rc3 h3 => ?_⟩, e1, rc, log, rfl, r4⟩
    · simp only [Core.run, h1, r1, Res.bind_ok]
    · simp only [events, List.flatMap_cons] at r2 ⊢
      rw [r2]
    · rw [h1] at h3
      simp only [Except.ok.injEq, Prod.mk.injEq] at h3
      obtain ⟨rfl, rfl, rfl⟩ := h3
      exact r3

theorem histOk_andThen {ops : Ops β} {K : Contract ops} {h1 h2 : List (Op β)} : ∀ {c c1 : Core β} {l1 : List (Rec β)}, HistOk K c h1 →
    c.run ops h1 = .ok (c1, l1) → HistOk K c1 h2 → HistOk K c (h1 ++ h2) := by
  induction h1 with
  | nil =>
    intro c c1 l1 _ h h3
    simp only [Core.run, Except.ok.injEq, Prod.mk.injEq] at h
    obtain ⟨rfl, -⟩ := h
    exact h3
  | cons op rest ih =>
    intro c c1 l1 hok h h3
    simp only [Core.run] at h
    obtain ⟨⟨c2, e, rc⟩, g1, h⟩ := Res.bind_eq_ok.mp h
    obtain ⟨⟨c3, l⟩, g2, h⟩ := Res.bind_eq_ok.mp h
    simp only [Except.ok.injEq, Prod.mk.injEq] at h
    obtain ⟨rfl, -⟩ := h
    refine ⟨hok.1, fun c' e' rc' hs => ?_⟩
    rw [g1] at hs
    simp only [Except.ok.injEq, Prod.mk.injEq] at hs
    obtain ⟨rfl, rfl, rfl⟩ := hs
    exact ih (hok.2 _ _ _ g1) g2 h3

/-- A message of one packet, in the callback for which packets are received. -/
theorem single_polls {ops : Ops β} {K : Contract ops} {app : App β S} {base : List Nat} {eid : Byte} {evs : List Event} {c c1 : Core β} {s : S} {i : Nat}
    {bs : List Byte} {f : Frag} {e1 : List Event} {rc : Int} (h : MemInv K base c) (he : EpInv eid evs c) (hop : OpOk K c (.recv i bs)) (hf : parse bs = some f)
    (hsg : f.single = true) (hs : c.step ops (.recv i bs) = .ok (c1, e1, rc))
    (hsc : ∀ ev ∈ e1, ev.isCallback = true → (app s ev).OkIn K c1) :
    ∃ c' s' e2, c.stepH ops app s (.recv i bs) = .ok (c', s', e1 ++ e2, rc) ∧
      Core.react ops app c1 s (e1.filter Event.isCallback) = .ok (c', s', e2) ∧ MemInv K base c' ∧
      ((e1.filter Event.isCallback = [] ∧ c' = c1 ∧ s' = s ∧ e2 = []) ∨ ∃ ev, e1.filter Event.isCallback = [ev] ∧
        (app s ev).OkIn K c1 ∧ c1.calls ops (app s ev) = .ok (c', s', e2)) := by
  have hop0 := hop
  obtain ⟨bus, hget, hfit⟩ := hop
  have hi : i < c.nBusses := by rw [h.nb]; exact (List.getElem?_eq_some_iff.mp hget).1
  obtain ⟨bus', hbus, hget', hmem⟩ := h.busAt hi
  have : bus' = bus := by rw [hget] at hget'; simpa using hget'.symm
  subst this
  obtain ⟨cs, es, rcs, hst, hm1⟩ := step_total K h hop0
  rw [hs] at hst
  simp only [Except.ok.injEq, Prod.mk.injEq] at hst
  obtain ⟨rfl, rfl, rfl⟩ := hst
  obtain ⟨m1, h1, h2, h3⟩ := h.owns.alloc h.ok
  obtain ⟨p0, X, hpa, hwr, hpk, hXid⟩ := recvBuf (fill := c.fill) h1 (ph := bus'.binding.pktHeader) hfit
  have hinv1 : MemInv K (X.id :: base) ({ c with mem := m1 } : Core β) := h.alloc (by rw [hXid]; exact h1)
  have hlen : ¬ X.len ≤ hdrSize := by
    obtain ⟨_, _, _, _, rfl, hne, -⟩ := parse_some hf
    rw [hpk.len]
    simp only [List.length_cons, hdrSize]
    have := List.length_pos_iff.mpr hne
    omega
  have hbx : X.bytes = bs := hpk.bytes
  obtain ⟨q1, q2⟩ := hinv1.released
  have hderef : ({ c with mem := m1 } : Core β).mem.deref (some X.id) = .ok () := hinv1.owns.deref (by simp)
  have hrx : c.rxPacket ops i bs = ({ c with mem := m1 } : Core β).busRx ops i X := by
    unfold Core.rxPacket
    rw [hbus]
    simp only [Res.bind_ok, hpa, hwr]
  have hrxH : c.rxPacketH ops app s i bs = ({ c with mem := m1 } : Core β).busRxH ops app s i X := by
    unfold Core.rxPacketH
    rw [hbus]
    simp only [Res.bind_ok, hpa, hwr]
  have hbus1 : ({ c with mem := m1 } : Core β).busAt i = .ok bus' := by
    obtain ⟨b, g1, g2, -⟩ := hinv1.busAt (i := i) hi
    have : b = bus' := by
      have : c.busses[i]? = some b := g2
      rw [hget] at this; simpa using this.symm
    rw [g1, this]
  have hcb : ({ c with mem := m1 } : Core β).bridge = false := he.noBridge
  -- the body, with and without the application's calls
  have hbody : ({ c with mem := m1 } : Core β).busRxBody ops i bus' X = .ok ({ c with mem := m1 },
      if destIsLocal bus'.eid f.dest then routeEvents c i bus' f.src f.tagOwner (BitVec.ofNat 8 f.tag) f.payload else []) := by
    rw [busRxBody_parse ops _ i bus' hpk hf, if_pos hsg, rx_endpoint ops hcb]
    by_cases hl : Local bus'.eid f.dest
    · rw [if_neg (by simp [hl])]; rfl
    · have : destIsLocal bus'.eid f.dest = false := by
        cases hd : destIsLocal bus'.eid f.dest with
        | true => exact absurd ((destIsLocal_iff _ _).mp hd) hl
        | false => rfl
      rw [if_pos ⟨hcb, hl⟩, this]; rfl
  have hcs : c.step ops (.recv i bs) = .ok ({ c with mem := m1.less X.id }, .recv i bs :: ((if c.hasCapture then [Event.capture false bs] else []) ++
      if destIsLocal bus'.eid f.dest then routeEvents c i bus' f.src f.tagOwner (BitVec.ofNat 8 f.tag) f.payload else []), 0) := by
    simp only [Core.step, hrx]
    unfold Core.busRx
    rw [if_neg (by show ¬ c.nBusses ≤ i; omega), hbus1, hderef]
    simp only [Res.bind_ok]
    rw [if_neg hlen, hbody]
    simp only [Res.bind_ok, pktbufFree]
    have : m1.free (some X.id) = .ok (m1.less X.id) := q1
    rw [this]
    simp only [Res.bind_ok, hbx]
  rw [hs] at hcs
  simp only [Except.ok.injEq, Prod.mk.injEq] at hcs
  obtain ⟨rfl, he1, rfl⟩ := hcs
  have hfilt : e1.filter Event.isCallback = if destIsLocal bus'.eid f.dest then routeEvents c i bus' f.src f.tagOwner (BitVec.ofNat 8 f.tag) f.payload else [] := by
    rw [he1, List.filter_cons_of_neg (by simp [Event.isCallback]), List.filter_append]
    have : (if c.hasCapture = true then [Event.capture false bs] else []).filter Event.isCallback = [] := by
      split <;> simp [Event.isCallback]
    rw [this, List.nil_append]
    split
    · exact route_callbacks _ _ _ _ _ _ _
    · rfl
  have hfirst : ∀ (c2 : Core β) (s2 : S) (e2 : List Event), ({ c with mem := m1 } : Core β).busRxBodyH ops app s i bus' X =
      .ok (c2, s2, (e1.filter Event.isCallback) ++ e2) → MemInv K (X.id :: base) c2 →
      c.stepH ops app s (.recv i bs) = .ok (c2.past X.id id, s2, e1 ++ e2, 0) ∧ MemInv K base (c2.past X.id id) := by
    intro c2 s2 e2 hb2 hm2
    obtain ⟨f1, f2⟩ := hm2.released
    refine ⟨?_, f2⟩
    simp only [Core.stepH, hrxH]
    unfold Core.busRxH
    rw [if_neg (by show ¬ c.nBusses ≤ i; omega), hbus1, hderef]
    simp only [Res.bind_ok]
    rw [if_neg hlen, hb2]
    simp only [Res.bind_ok, pktbufFree, f1, hbx, past_id]
    rw [he1] at hfilt ⊢
    rw [hfilt]
    simp
  have hbodyH : ({ c with mem := m1 } : Core β).busRxBodyH ops app s i bus' X =
      if !destIsLocal bus'.eid f.dest then .ok ({ c with mem := m1 }, s, []) else
        ({ c with mem := m1 } : Core β).rxH ops app s (some X.id) i bus' f.src f.dest f.tagOwner (BitVec.ofNat 8 f.tag) f.payload := by
    obtain ⟨v, d, sr, g, hbs, hne, g1, g2, g3, g4, g5, g6, g7, -, -⟩ := parse_some hf
    subst hbs
    unfold Core.busRxBodyH
    have hr := hpk.read 0 4 (by simp)
    simp only [Nat.add_zero, List.drop_zero, List.take_succ_cons, List.take_zero] at hr
    rw [show hdrSize = 4 from rfl, hr]
    have hr2 := hpk.read 4 f.payload.length (by simp; omega)
    have hle : X.«end» - X.hdrOff - 4 = f.payload.length := by
      rw [hpk.fin, hpk.hdr]; simp
    simp only [hle, hr2, List.drop_succ_cons, List.drop_zero, List.take_length, Res.bind_ok]
    have hsom : f.som = true ∧ f.eom = true := by
      unfold Frag.single at hsg
      simpa using hsg
    rw [g3, g5, g6, g7, ← g1, ← g2, hsom.1, hsom.2, hcb]
    simp only [Bool.not_false, Bool.true_and]
  rw [hbodyH] at hfirst
  rcases hld : destIsLocal bus'.eid f.dest with _ | _
  · rw [hld] at hfilt hfirst
    simp only [Bool.false_eq_true, if_false] at hfilt
    rw [hfilt] at hfirst ⊢
    obtain ⟨a1, a2⟩ := hfirst _ s [] rfl hinv1
    exact ⟨_, s, [], a1, rfl, a2, .inl ⟨rfl, rfl, rfl, rfl⟩⟩
  · rw [hld] at hfilt hfirst
    simp only [if_true] at hfilt
    have main : ∀ ev, e1.filter Event.isCallback = [ev] →
        (({ c with mem := m1 } : Core β).rxH ops app s (some X.id) i bus' f.src f.dest f.tagOwner (BitVec.ofNat 8 f.tag) f.payload =
          (do let (c1, s1, e) ← ({ c with mem := m1 } : Core β).callback ops (some X.id) (app s ev); .ok (c1, s1, ev :: e))) →
        ∃ c' s' e2, c.stepH ops app s (.recv i bs) = .ok (c', s', e1 ++ e2, 0) ∧
          Core.react ops app { c with mem := m1.less X.id } s (e1.filter Event.isCallback) = .ok (c', s', e2) ∧ MemInv K base c' ∧
          ((e1.filter Event.isCallback = [] ∧ c' = { c with mem := m1.less X.id } ∧ s' = s ∧ e2 = []) ∨ ∃ ev, e1.filter Event.isCallback = [ev] ∧
            (app s ev).OkIn K { c with mem := m1.less X.id } ∧
            ({ c with mem := m1.less X.id } : Core β).calls ops (app s ev) = .ok (c', s', e2)) := by
      intro ev hev hrxh
      have hmem : ev ∈ e1.filter Event.isCallback := by rw [hev]; simp
      have hok := hsc ev (List.mem_filter.mp hmem).1 (List.mem_filter.mp hmem).2
      have hep1 : EpInv eid evs ({ c with mem := m1 } : Core β) := ⟨he.noBridge, he.eids, he.tbl⟩
      obtain ⟨c2, s2, e2, r1, r2, r3⟩ := callback_polls (sc := app s ev) hinv1 hep1 hok
      obtain ⟨a1, a2⟩ := hfirst c2 s2 e2 (by
        simp only [Bool.not_true, Bool.false_eq_true, if_false]
        rw [hrxh, r1, hev]
        rfl) r3
      refine ⟨_, s2, e2, a1, ?_, a2, .inr ⟨ev, hev, hok, r2⟩⟩
      rw [hev]
      have r2' : ({ c with mem := m1.less X.id } : Core β).calls ops (app s ev) = .ok (c2.past X.id id, s2, e2) := r2
      simp only [Core.react, r2', Res.bind_ok, List.append_nil]
    unfold routeEvents at hfilt
    simp only [Bool.not_true, Bool.false_eq_true, if_false] at hfirst
    unfold Core.rxH at hfirst main
    rw [if_neg (by simp [he.noBridge]), hld, if_pos rfl] at hfirst
    rw [if_neg (by simp [he.noBridge]), hld, if_pos rfl] at main
    by_cases hct : ctrlHandled bus'.binding.controlRx f.payload = true
    · rw [if_pos hct] at hfilt main
      exact main _ hfilt rfl
    · rw [if_neg hct] at hfilt hfirst main
      by_cases hrxo : c.hasRx = true
      · rw [if_pos hrxo] at hfilt
        rw [if_pos (by exact hrxo)] at main
        exact main _ hfilt rfl
      · rw [if_neg hrxo] at hfilt
        rw [if_neg (by exact hrxo)] at hfirst
        rw [hfilt] at hfirst ⊢
        obtain ⟨a1, a2⟩ := hfirst _ s [] rfl hinv1
        exact ⟨_, s, [], a1, rfl, a2, .inl ⟨rfl, rfl, rfl, rfl⟩⟩

end Mctp
