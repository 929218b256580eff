import Verif.Proofs.MemInv

/-! Memory safety with failing allocations: everything except growing an existing reassembly buffer (and
allocating a packet for transmission) may fail. -/

namespace Mctp

open Spec

variable {β : Type}

theorem Owns.allocAny {m : Mem} {o : List Nat} (h : Owns m o) :
    (∃ m', m.alloc = (some m.next, m') ∧ Owns m' (m.next :: o) ∧ m'.ok = m.ok ∧ m'.next = m.next + 1) ∨
    (∃ m', m.alloc = (none, m') ∧ Owns m' o ∧ m'.ok = m.ok ∧ m'.next = m.next + 1) := by
  by_cases hk : m.ok m.next = true
  · left
    refine ⟨{ m with next := m.next + 1, live := m.next :: m.live }, by simp [Mem.alloc, hk], ⟨?_, ?_, ?_⟩, rfl, rfl⟩
    · intro i; simp [List.count_cons, h.cnt i]
    · intro i hi
      simp only [List.mem_cons] at hi
      rcases hi with rfl | hi
      · simp
      · have := h.fresh i hi; simp only; omega
    · refine List.nodup_cons.mpr ⟨fun hi => ?_, h.nd⟩
      have := h.fresh _ hi; omega
  · right
    refine ⟨{ m with next := m.next + 1 }, by simp [Mem.alloc, hk], ⟨h.cnt, ?_, h.nd⟩, rfl, rfl⟩
    intro i hi
    have := h.fresh i hi; simp only; omega

theorem Owns.reallocAny {m : Mem} {o : List Nat} {p : Option Nat} (h : Owns m (p.toList ++ o))
    (ha : p = none ∨ m.ok m.next = true) :
    (∃ m', m.realloc p = .ok (some m.next, m') ∧ Owns m' (m.next :: o) ∧ m'.ok = m.ok) ∨
    (∃ m', m.realloc p = .ok (none, m') ∧ p = none ∧ Owns m' o ∧ m'.ok = m.ok) := by
  cases p with
  | none =>
    rcases h.allocAny with ⟨m', h1, h2, h3, -⟩ | ⟨m', h1, h2, h3, -⟩
    · exact .inl ⟨m', by simp [Mem.realloc, h1], h2, h3⟩
    · exact .inr ⟨m', by simp [Mem.realloc, h1], rfl, h2, h3⟩
  | some i =>
    have hk : m.ok m.next = true := by rcases ha with ha | ha; cases ha; exact ha
    have hi : i ∈ m.live := h.mem (by simp)
    refine .inl ⟨{ m with next := m.next + 1, live := m.next :: m.live.erase i },
      by simp [Mem.realloc, hi, hk], ⟨?_, ?_, ?_⟩, rfl⟩
    · intro j
      have := h.cnt j
      simp only [Option.toList, List.cons_append, List.nil_append, List.count_cons] at this
      simp only [List.count_cons, List.count_erase, this]
      by_cases hij : i = j
      · subst hij; simp
      · simp [hij]
    · intro j hj
      simp only [List.mem_cons] at hj
      rcases hj with rfl | hj
      · simp
      · have := h.fresh j (List.mem_of_mem_erase hj); simp only; omega
    · refine List.nodup_cons.mpr ⟨fun hi => ?_, h.nd.erase i⟩
      have := h.fresh _ (List.mem_of_mem_erase hi); omega

theorem ctxAddPkt_safe {m : Mem} {x : Ctx} {r : List Nat} {pkt : Pktbuf} {bs : List Byte}
    {mx : Nat} (hm : Owns m (x.buf.toList ++ r)) (ha : x.buf = none ∨ m.ok m.next = true) (hx : CtxOk x)
    (hp : PktIs pkt bs) (hlen : 4 < bs.length) :
    ∃ m' x' ok, ctxAddPkt m x pkt mx = .ok (m', x', ok) ∧ CtxOk x' ∧
      Owns m' (x'.buf.toList ++ r) ∧ m'.ok = m.ok := by
  have hl : pkt.len - hdrSize = bs.length - 4 := by rw [hp.len]; rfl
  have hread : pkt.read (pkt.hdrOff + hdrSize) (bs.length - 4) = .ok (bs.drop 4) := by
    have := hp.read 4 (bs.length - 4) (by omega)
    rw [show hdrSize = 4 from rfl, this]
    rw [List.take_of_length_le (by simp)]
  unfold ctxAddPkt
  simp only [hl]
  split
  · exact ⟨m, x, false, rfl, hx, hm, rfl⟩
  · rename_i h1
    split
    · rename_i h2
      split
      · exact ⟨m, x, false, rfl, hx, hm, rfl⟩
      · rename_i h3
        have hge := newAllocSize_ge x.allocSize x.data.length (bs.length - 4) hx.fits
        rcases hm.reallocAny ha with ⟨m', hr, ho, hok⟩ | ⟨m', hr, hn, ho, hok⟩
        · rw [hr]
          simp only [ctxAppend, hread, ho.deref (List.mem_cons_self ..)]
          rw [if_pos hge]
          refine ⟨m', _, true, rfl, ⟨?_, by simp⟩, by simpa using ho, hok⟩
          simp only [List.length_append, List.length_drop]; exact hge
        · rw [hr]
          simp only [hn, Mem.free]
          refine ⟨m', x, false, rfl, hx, ?_, hok⟩
          rw [hn]; simpa using ho
    · rename_i h2
      cases hb : x.buf with
      | none => have := hx.null hb; omega
      | some i =>
        have hd : m.deref (some i) = .ok () := hm.deref (by simp [hb])
        simp only [ctxAppend, hread, hb, hd]
        rw [if_pos (by omega)]
        refine ⟨m, _, true, rfl, ⟨?_, by simp⟩, by simpa [hb] using hm, rfl⟩
        simp only [List.length_append, List.length_drop]; omega

theorem ctxRx_safe {m : Mem} {t : List Ctx} {r : List Nat} {pkt : Pktbuf} {bs : List Byte}
    {mx : Nat} (hm : Owns m (ctxBufs t ++ r)) (ha : m.ok m.next = true ∨ ∀ x ∈ t, x.buf = none)
    (ht : ∀ x ∈ t, CtxOk x)
    (hp : PktIs pkt bs) (hlen : 4 < bs.length) (s d g q : Byte) (som eom : Bool) :
    ∃ m' t' out, ctxRx m t mx pkt s d g q som eom = .ok (m', t', out) ∧
      Owns m' (ctxBufs t' ++ r) ∧ m'.ok = m.ok ∧ (∀ x ∈ t', CtxOk x) ∧ t'.length = t.length := by
  have key : ∀ (k : Nat) (x y : Ctx), t[k]? = some x → y.buf = x.buf → CtxOk y →
      ∃ m' x' ok, ctxAddPkt m y pkt mx = .ok (m', x', ok) ∧ m'.ok = m.ok ∧
        ∀ z : Ctx, z.buf = x'.buf → z.data = x'.data → z.allocSize = x'.allocSize →
          Owns m' (ctxBufs (t.set k z) ++ r) ∧ (∀ w ∈ t.set k z, CtxOk w) := by
    intro k x y hx hyb hyo
    have hsplit : ∃ r1 : List Nat, ∀ i, r1.count i + x.buf.toList.count i = (ctxBufs t ++ r).count i := by
      refine ⟨(ctxBufs (t.set k { x with buf := none })) ++ r, fun i => ?_⟩
      have := ctxBufs_set (y := { x with buf := none }) hx i
      simp only [List.count_append, Option.toList, List.count_nil] at this ⊢
      omega
    obtain ⟨r1, hr1⟩ := hsplit
    have hm1 : Owns m (y.buf.toList ++ r1) := hm.congr fun i => by
      have := hr1 i
      rw [hyb]
      simp only [List.count_append] at this ⊢
      omega
    have ha' : y.buf = none ∨ m.ok m.next = true := by
      rcases ha with ha | ha
      · exact .inr ha
      · exact .inl (hyb.trans (ha x (List.mem_of_getElem? hx)))
    obtain ⟨m', x', ok, h1, h2, h3, h4⟩ := ctxAddPkt_safe (mx := mx) hm1 ha' hyo hp hlen
    refine ⟨m', x', ok, h1, h4, fun z hz1 hz2 hz3 => ⟨?_, ?_⟩⟩
    · exact ctxBufs_owns hx hr1 (by rw [hz1]; exact h3)
    · intro w hw
      rcases mem_set_cases hw with hw | rfl
      · exact ht w hw
      · exact ⟨by rw [hz2, hz3]; exact h2.fits, by rw [hz1, hz3]; exact h2.null⟩
  unfold ctxRx
  split
  · split
    · exact ⟨m, t, none, rfl, hm, rfl, ht, rfl⟩
    · rename_i k y hslot
      have hy : ∃ x, t[k]? = some x ∧ y.buf = x.buf ∧ CtxOk y := by
        unfold somSlot at hslot
        split at hslot
        · rename_i k0 hl
          obtain ⟨x, hx, -⟩ := lookup_lt hl
          simp only [hx, Option.map_some, Option.some.injEq, Prod.mk.injEq] at hslot
          obtain ⟨rfl, rfl⟩ := hslot
          exact ⟨x, hx, rfl, by simp, (ht x (List.mem_of_getElem? hx)).null⟩
        · split at hslot
          · cases hslot
          · rename_i k0 hk0
            obtain ⟨h1, h2, h3⟩ := List.findIdx?_eq_some_iff_getElem.mp hk0
            have hx : t[k0]? = some t[k0] := by simp [h1]
            simp only [hx, Option.map_some, Option.some.injEq, Prod.mk.injEq] at hslot
            obtain ⟨rfl, rfl⟩ := hslot
            exact ⟨t[k0], hx, rfl, by simp, (ht _ (List.mem_of_getElem? hx)).null⟩
      obtain ⟨x, hx, hyb, hyo⟩ := hy
      obtain ⟨m', x', ok, h1, h2, h3⟩ := key k x y hx hyb hyo
      obtain ⟨h4, h5⟩ := h3 (if ok then { x' with lastSeq := q } else x'.drop)
        (by cases ok <;> rfl) (by cases ok <;> rfl) (by cases ok <;> rfl)
      exact ⟨m', _, none, by rw [h1]; rfl, h4, h2, h5, by simp⟩
  · split
    · exact ⟨m, t, none, rfl, hm, rfl, ht, rfl⟩
    · rename_i k hl
      obtain ⟨x, hx, -⟩ := lookup_lt hl
      have hxo := ht x (List.mem_of_getElem? hx)
      have hdrop : Owns m (ctxBufs (t.set k x.drop) ++ r) ∧ (∀ w ∈ t.set k x.drop, CtxOk w) := by
        refine ⟨hm.congr fun i => ?_, ?_⟩
        · have := ctxBufs_set (y := x.drop) hx i
          simp only [Ctx.drop, List.count_append] at this ⊢; omega
        · intro w hw
          rcases mem_set_cases hw with hw | rfl
          · exact ht w hw
          · exact ⟨hxo.fits, hxo.null⟩
      simp only [hx]
      split
      · exact ⟨m, _, none, rfl, hdrop.1, rfl, hdrop.2, by simp⟩
      · by_cases hfl : (if eom then pkt.len > x.fragSize else pkt.len ≠ x.fragSize)
        · rw [if_pos hfl]
          exact ⟨m, _, none, rfl, hdrop.1, rfl, hdrop.2, by simp⟩
        · rw [if_neg hfl]
          obtain ⟨m', x', ok, h1, h2, h3⟩ := key k x x hx rfl hxo
          rw [h1]
          simp only [Res.bind_ok]
          split
          · obtain ⟨h4, h5⟩ := h3 x'.drop rfl rfl rfl
            exact ⟨m', _, _, rfl, h4, h2, h5, by simp⟩
          · obtain ⟨h4, h5⟩ := h3 (if ok then { x' with lastSeq := q } else x'.drop)
              (by cases ok <;> rfl) (by cases ok <;> rfl) (by cases ok <;> rfl)
            exact ⟨m', _, none, rfl, h4, h2, h5, by simp⟩

/-- `MemInv` of an endpoint, without the assumption that allocations succeed. -/
structure MemSafe (base : List Nat) (c : Core β) : Prop where
  owns  : Owns c.mem (owned c ++ base)
  ctxs  : ∀ x ∈ c.ctxs, CtxOk x
  nb    : c.nBusses = c.busses.length
  pos   : 0 < c.nBusses
  ptr   : ∃ id, c.bussesPtr = some id
  ep    : c.bridge = false

theorem MemSafe.busAt {base : List Nat} {c : Core β} (h : MemSafe base c) {i : Nat}
    (hi : i < c.nBusses) : ∃ bus, c.busAt i = .ok bus ∧ c.busses[i]? = some bus ∧ bus ∈ c.busses := by
  obtain ⟨id, hid⟩ := h.ptr
  have hd : c.mem.deref c.bussesPtr = .ok () := by
    rw [hid]; exact h.owns.deref (by simp [owned, hid])
  have hl : i < c.busses.length := by rw [← h.nb]; exact hi
  refine ⟨c.busses[i], ?_, by simp [hl], List.getElem_mem hl⟩
  unfold Core.busAt
  rw [if_pos hi, hd]
  simp [hl]

/-- Receiving a packet at an endpoint never faults, and leaks nothing, whichever allocations fail,
provided growing an existing reassembly buffer (the second allocation of the call) succeeds. -/
theorem rxPacket_safe {ops : Ops β} {base : List Nat} {c : Core β}
    (h : MemSafe base c) {i : Nat} {bus : Bus β} (hget : c.busses[i]? = some bus) {bs : List Byte}
    (hfit : bs.length ≤ bus.binding.pktSize + bus.binding.pktTrailer)
    (hgrow : c.mem.ok (c.mem.next + 1) = true ∨ ∀ x ∈ c.ctxs, x.buf = none) :
    ∃ c' e, c.rxPacket ops i bs = .ok (c', e) ∧ MemSafe base c' ∧ c'.busses = c.busses ∧
      c'.mem.ok = c.mem.ok := by
  have hi : i < c.nBusses := by rw [h.nb]; exact (List.getElem?_eq_some_iff.mp hget).1
  obtain ⟨bus', hbus, hget', hmem⟩ := h.busAt hi
  have : bus' = bus := by rw [hget] at hget'; simpa using hget'.symm
  subst this
  unfold Core.rxPacket
  rw [hbus]
  simp only [Res.bind_ok]
  rcases h.owns.allocAny with ⟨m1, h1, h2, h3, h3n⟩ | ⟨m1, h1, h2, h3, h3n⟩
  rotate_left
  · have : pktbufAlloc c.mem c.fill bus'.binding.pktSize bus'.binding.pktHeader bus'.binding.pktTrailer
        bs.length = (none, m1) := by
      unfold pktbufAlloc
      simp only [h1]
      rw [if_neg (by omega)]
    rw [this]
    exact ⟨_, _, rfl, ⟨h2, h.ctxs, h.nb, h.pos, h.ptr, h.ep⟩, rfl, h3⟩
  obtain ⟨p0, X, hpa, hwr, hpk, hXid⟩ := recvBuf (fill := c.fill) h1 (ph := bus'.binding.pktHeader) hfit
  rw [hpa]
  simp only [hwr, Res.bind_ok]
  have hinv1 : MemSafe (X.id :: base) ({ c with mem := m1 } : Core β) := by
    refine ⟨?_, h.ctxs, h.nb, h.pos, h.ptr, h.ep⟩
    refine h2.congr fun j => ?_
    simp only [owned, List.count_append, List.count_cons, hXid]; omega
  have hfin : ∀ c1 : Core β, MemSafe (X.id :: base) c1 → c1.mem.ok = c.mem.ok →
      ∃ m, c1.mem.free (some X.id) = .ok m ∧ MemSafe base { c1 with mem := m } ∧ m.ok = c.mem.ok := by
    intro c1 hc1 hok
    have ho : Owns c1.mem (X.id :: (owned c1 ++ base)) := hc1.owns.congr fun j => by
      simp only [List.count_append, List.count_cons]; omega
    obtain ⟨m, r1, r2, r3⟩ := ho.free
    exact ⟨m, r1, ⟨r2, hc1.ctxs, hc1.nb, hc1.pos, hc1.ptr, hc1.ep⟩, r3.trans hok⟩
  unfold Core.busRx
  rw [if_neg (by simp only; omega)]
  obtain ⟨bus2, hbus2, hget2, -⟩ := hinv1.busAt (i := i) hi
  rw [hbus2, hinv1.owns.deref (by simp [owned])]
  simp only [Res.bind_ok, pktbufFree]
  rw [hpk.len]
  split
  · obtain ⟨m, r1, r2, r3⟩ := hfin _ hinv1 h3
    simp only at r1
    rw [r1]
    exact ⟨_, _, rfl, r2, rfl, r3⟩
  · rename_i hlen
    cases hf : parse bs with
    | none => exact absurd (parse_none.mp hf) hlen
    | some f =>
      rw [busRxBody_parse ops _ i bus2 hpk hf]
      have hbody : ∃ c1 e1,
          (if ({ c with mem := m1 } : Core β).bridge = false ∧ ¬ Local bus2.eid f.dest then
              (.ok (({ c with mem := m1 } : Core β), []) : Res (Core β × List Event))
            else if f.single then
              ({ c with mem := m1 } : Core β).rx ops i bus2 f.src f.dest f.tagOwner (BitVec.ofNat 8 f.tag) f.payload
            else ({ c with mem := m1 } : Core β).rxFrag ops i bus2 X f.src f.dest (BitVec.ofNat 8 f.tag)
              (BitVec.ofNat 8 f.seq) f.tagOwner f.som f.eom) = .ok (c1, e1) ∧
          MemSafe (X.id :: base) c1 ∧ c1.busses = c.busses ∧ c1.mem.ok = c.mem.ok := by
        split
        · exact ⟨_, _, rfl, hinv1, rfl, h3⟩
        · split
          · rw [rx_endpoint ops (c := ({ c with mem := m1 } : Core β)) h.ep]; exact ⟨_, _, rfl, hinv1, rfl, h3⟩
          · unfold Core.rxFrag
            have hoct : Owns m1 (ctxBufs c.ctxs ++ (queueIds c.busses ++ (c.self :: c.bussesPtr.toList) ++ (X.id :: base))) :=
              hinv1.owns.congr fun j => by
                simp only [owned, List.count_append]; omega
            obtain ⟨m', t', out, r1, r2, r3, r4, r5⟩ := ctxRx_safe (mx := c.maxSize) hoct
              (by rw [h3, h3n]; exact hgrow) h.ctxs hpk
              (by simp only [hdrSize] at hlen; omega) f.src f.dest (BitVec.ofNat 8 f.tag) (BitVec.ofNat 8 f.seq) f.som f.eom
            simp only [r1, Res.bind_ok]
            have hinv2 : MemSafe (X.id :: base) ({ c with mem := m', ctxs := t' } : Core β) := by
              refine ⟨?_, r4, h.nb, h.pos, h.ptr, h.ep⟩
              refine r2.congr fun j => ?_
              simp only [owned, List.count_append]; omega
            cases out with
            | none => exact ⟨_, _, rfl, hinv2, rfl, r3.trans h3⟩
            | some msg =>
              simp only
              rw [rx_endpoint ops (c := ({ c with mem := m', ctxs := t' } : Core β)) h.ep]
              exact ⟨_, _, rfl, hinv2, rfl, r3.trans h3⟩
      obtain ⟨c1, e1, b1, b2, b3, b4⟩ := hbody
      obtain ⟨m, r1, r2, r3⟩ := hfin c1 b2 b4
      rw [b1]
      simp only [Res.bind_ok, r1]
      exact ⟨_, _, rfl, r2, b3, r3⟩

theorem destroy_safe {base : List Nat} {c : Core β} (h : MemSafe base c) :
    ∃ m, c.destroy = .ok m ∧ Owns m base := by
  have h0 : Owns c.mem (ctxBufs c.ctxs ++ (queueIds c.busses.reverse ++ (c.self :: c.bussesPtr.toList ++ base))) :=
    h.owns.congr fun j => by
      have := queueIds_reverse_count c.busses j
      simp only [owned, List.count_append]; omega
  obtain ⟨m1, h1, h2⟩ := freeCtxs_total h0
  obtain ⟨id, hid⟩ := h.ptr
  unfold Core.destroy
  rw [h1]
  simp only [Res.bind_ok]
  rw [if_pos h.pos, hid, h2.deref (by simp [hid])]
  simp only [Res.bind_ok]
  rw [List.take_of_length_le (by rw [h.nb]; exact Nat.le_refl _)]
  obtain ⟨m2, h3, h4⟩ := freeBusses_total h2
  rw [h3]
  simp only [Res.bind_ok]
  have h5 : Owns m2 (id :: c.self :: base) := h4.congr fun j => by
    simp [hid, List.count_cons]; omega
  obtain ⟨m3, h6, h7, -⟩ := h5.free
  rw [h6]
  simp only [Res.bind_ok]
  obtain ⟨m4, h8, h9, -⟩ := h7.free
  exact ⟨m4, h8, h9⟩

/-- The preconditions of a history of received packets: each packet fits, and growing a buffer works. -/
def RecvOk (ops : Ops β) : Core β → List (Nat × List Byte) → Prop
  | _, [] => True
  | c, (i, bs) :: rest =>
    (∃ bus, c.busses[i]? = some bus ∧ bs.length ≤ bus.binding.pktSize + bus.binding.pktTrailer) ∧
    (c.mem.ok (c.mem.next + 1) = true ∨ ∀ x ∈ c.ctxs, x.buf = none) ∧
    ∀ c' e, c.rxPacket ops i bs = .ok (c', e) → RecvOk ops c' rest

theorem recvs_safe {ops : Ops β} {base : List Nat} {ps : List (Nat × List Byte)} : ∀ {c : Core β},
    MemSafe base c → RecvOk ops c ps →
    ∃ c' log, c.run ops (ps.map fun p => .recv p.1 p.2) = .ok (c', log) ∧ MemSafe base c' := by
  induction ps with
  | nil => intro c h _; exact ⟨c, [], rfl, h⟩
  | cons p ps ih =>
    obtain ⟨i, bs⟩ := p
    intro c h hr
    obtain ⟨⟨bus, hb, hf⟩, hg, hr⟩ := hr
    obtain ⟨c1, e, h1, h2, -, -⟩ := rxPacket_safe (ops := ops) h hb hf hg
    obtain ⟨c2, log, h3, h4⟩ := ih h2 (hr _ _ h1)
    exact ⟨c2, ⟨.recv i bs, e, 0⟩ :: log, by
      simp only [List.map_cons, Core.run, Core.step, h1, Res.bind_ok, h3], h4⟩

end Mctp
