import Verif.Proofs.RxCases

/-! Memory ledger: what is live is exactly what the state owns. -/

namespace Mctp

open Spec

variable {β : Type}

/-- The live allocations are exactly those listed in `o` (as multisets), all older than `next`. -/
structure Owns (m : Mem) (o : List Nat) : Prop where
  cnt   : ∀ i, m.live.count i = o.count i
  fresh : ∀ i ∈ m.live, i < m.next
  nd    : m.live.Nodup

/-- Every allocation request succeeds. -/
def AllOk (m : Mem) : Prop := ∀ n, m.ok n = true

theorem Owns.congr {m : Mem} {o o' : List Nat} (h : Owns m o) (hc : ∀ i, o.count i = o'.count i) :
    Owns m o' := ⟨fun i => (h.cnt i).trans (hc i), h.fresh, h.nd⟩

theorem Owns.mem {m : Mem} {o : List Nat} {i : Nat} (h : Owns m o) (hi : i ∈ o) : i ∈ m.live := by
  have h1 := h.cnt i
  have h2 := List.count_pos_iff.mpr hi
  exact List.count_pos_iff.mp (by omega)

theorem Owns.alloc {m : Mem} {o : List Nat} (h : Owns m o) (ha : AllOk m) :
    ∃ m', m.alloc = (some m.next, m') ∧ Owns m' (m.next :: o) ∧ m'.ok = m.ok := by
  refine ⟨{ m with next := m.next + 1, live := m.next :: m.live }, by simp [Mem.alloc, ha m.next], ⟨?_, ?_, ?_⟩, rfl⟩
  · intro i; simp [List.count_cons, h.cnt i]
  · intro i hi
    simp only [List.mem_cons] at hi
    rcases hi with rfl | hi
    · simp
    · have := h.fresh i hi; simp only; omega
  · refine List.nodup_cons.mpr ⟨fun hi => ?_, h.nd⟩
    have := h.fresh _ hi; omega

theorem Owns.free {m : Mem} {o : List Nat} {i : Nat} (h : Owns m (i :: o)) :
    ∃ m', m.free (some i) = .ok m' ∧ Owns m' o ∧ m'.ok = m.ok := by
  have hi : i ∈ m.live := h.mem (by simp)
  refine ⟨{ m with live := m.live.erase i }, by simp [Mem.free, hi], ⟨?_, ?_, h.nd.erase i⟩, rfl⟩
  · intro j
    have := h.cnt j
    simp only [List.count_erase]
    simp only [List.count_cons] at this
    rw [this]
    by_cases hij : i = j
    · subst hij; simp
    · simp [hij]
  · intro j hj; exact h.fresh j (List.mem_of_mem_erase hj)

theorem Owns.realloc {m : Mem} {o : List Nat} {p : Option Nat} (h : Owns m (p.toList ++ o))
    (ha : AllOk m) :
    ∃ m', m.realloc p = .ok (some m.next, m') ∧ Owns m' (m.next :: o) ∧ m'.ok = m.ok := by
  cases p with
  | none =>
    obtain ⟨m', h1, h2, h3⟩ := h.alloc ha
    exact ⟨m', by simp [Mem.realloc, h1], h2, h3⟩
  | some i =>
    have hi : i ∈ m.live := h.mem (by simp)
    refine ⟨{ m with next := m.next + 1, live := m.next :: m.live.erase i },
      by simp [Mem.realloc, hi, ha m.next], ⟨?_, ?_, ?_⟩, rfl⟩
    · intro j
      have := h.cnt j
      simp only [Option.toList, List.cons_append, List.nil_append, List.count_cons] at this
      simp only [List.count_cons, List.count_erase, this]
      by_cases hij : i = j
      · subst hij; simp
      · simp [hij]
    · intro j hj
      simp only [List.mem_cons] at hj
      rcases hj with rfl | hj
      · simp
      · have := h.fresh j (List.mem_of_mem_erase hj); simp only; omega
    · refine List.nodup_cons.mpr ⟨fun hi => ?_, h.nd.erase i⟩
      have := h.fresh _ (List.mem_of_mem_erase hi); omega

theorem Owns.deref {m : Mem} {o : List Nat} {i : Nat} (h : Owns m o) (hi : i ∈ o) :
    m.deref (some i) = .ok () := by
  simp [Mem.deref, h.mem hi]

/-! ## Contexts -/

/-- A context's bookkeeping is consistent. -/
structure CtxOk (x : Ctx) : Prop where
  fits : x.data.length ≤ x.allocSize
  null : x.buf = none → x.allocSize = 0

/-- The size condition under which a fragment of `len` bytes is taken. -/
def Admits (mx : Nat) (x : Ctx) (len : Nat) : Prop :=
  len + x.data.length < sizeMod ∧
  (x.data.length + len ≤ x.allocSize ∨ newAllocSize x.allocSize x.data.length len ≤ mx)

theorem newAllocSize_ge (a b n : Nat) (_h : b ≤ a) : b + n ≤ newAllocSize a b n := by
  unfold newAllocSize
  split
  · omega
  · omega

/-- Adding a fragment never faults when memory is consistent and allocations succeed. -/
theorem ctxAddPkt_total {m : Mem} {x : Ctx} {r : List Nat} {pkt : Pktbuf} {bs : List Byte}
    {mx : Nat} (hm : Owns m (x.buf.toList ++ r)) (ha : AllOk m) (hx : CtxOk x) (hp : PktIs pkt bs)
    (hlen : 4 < bs.length) :
    ∃ m' x' ok, ctxAddPkt m x pkt mx = .ok (m', x', ok) ∧ CtxOk x' ∧
      Owns m' (x'.buf.toList ++ r) ∧ m'.ok = m.ok ∧
      (ok = true ↔ Admits mx x (bs.length - 4)) ∧
      (ok = true → x'.data = x.data ++ bs.drop 4) := by
  have hl : pkt.len - hdrSize = bs.length - 4 := by rw [hp.len]; rfl
  have hread : pkt.read (pkt.hdrOff + hdrSize) (bs.length - 4) = .ok (bs.drop 4) := by
    have := hp.read 4 (bs.length - 4) (by omega)
    rw [show hdrSize = 4 from rfl, this]
    rw [List.take_of_length_le (by simp)]
  unfold ctxAddPkt
  simp only [hl]
  split
  · rename_i h
    exact ⟨m, x, false, rfl, hx, hm, rfl, by simp [Admits]; omega, by simp⟩
  · rename_i h1
    split
    · rename_i h2
      split
      · rename_i h3
        exact ⟨m, x, false, rfl, hx, hm, rfl, by simp [Admits]; omega, by simp⟩
      · rename_i h3
        obtain ⟨m', hr, ho, hok⟩ := hm.realloc ha
        have hge := newAllocSize_ge x.allocSize x.data.length (bs.length - 4) hx.fits
        rw [hr]
        simp only [ctxAppend, hread, ho.deref (List.mem_cons_self ..)]
        rw [if_pos hge]
        refine ⟨m', _, true, rfl, ⟨?_, by simp⟩, by simpa using ho, hok, ?_, by simp⟩
        · simp only [List.length_append, List.length_drop]; exact hge
        · simp [Admits]; omega
    · rename_i h2
      cases hb : x.buf with
      | none => have := hx.null hb; omega
      | some i =>
        have hd : m.deref (some i) = .ok () := hm.deref (by simp [hb])
        simp only [ctxAppend, hread, hb, hd]
        rw [if_pos (by omega)]
        refine ⟨m, _, true, rfl, ⟨?_, by simp⟩, by simpa [hb] using hm, rfl, ?_, by simp⟩
        · simp only [List.length_append, List.length_drop]; omega
        · simp [Admits]; omega

/-- The storage held by the contexts. -/
def ctxBufs (t : List Ctx) : List Nat := t.filterMap (·.buf)

theorem ctxBufs_set {t : List Ctx} {k : Nat} {x y : Ctx} (h : t[k]? = some x) (i : Nat) :
    (ctxBufs (t.set k y)).count i + x.buf.toList.count i =
      (ctxBufs t).count i + y.buf.toList.count i := by
  induction t generalizing k with
  | nil => simp at h
  | cons z t ih =>
    cases k with
    | zero =>
      simp at h; subst h
      simp only [List.set_cons_zero, ctxBufs, List.filterMap_cons]
      cases z.buf <;> cases y.buf <;> simp [List.count_cons] <;> omega
    | succ k =>
      simp at h
      have := ih h
      simp only [List.set_cons_succ, ctxBufs, List.filterMap_cons] at this ⊢
      cases z.buf <;> simp [List.count_cons] <;> omega

/-- Context update keeps the ledger. -/
theorem ctxBufs_owns {t : List Ctx} {k : Nat} {x y : Ctx} {m : Mem} {r : List Nat}
    (h : t[k]? = some x) {r' : List Nat}
    (hr : ∀ i, r.count i + x.buf.toList.count i = (ctxBufs t ++ r').count i)
    (ho : Owns m (y.buf.toList ++ r)) : Owns m (ctxBufs (t.set k y) ++ r') := by
  refine ho.congr fun i => ?_
  have := ctxBufs_set (y := y) h i
  have := hr i
  simp only [List.count_append] at *
  omega

theorem mem_set_cases {t : List Ctx} {k : Nat} {y z : Ctx} (h : z ∈ t.set k y) : z ∈ t ∨ z = y :=
  List.mem_or_eq_of_mem_set h

/-- A fragment never faults; the ledger and the contexts stay consistent. -/
theorem ctxRx_total {m : Mem} {t : List Ctx} {r : List Nat} {pkt : Pktbuf} {bs : List Byte}
    {mx : Nat} (hm : Owns m (ctxBufs t ++ r)) (ha : AllOk m) (ht : ∀ x ∈ t, CtxOk x)
    (hp : PktIs pkt bs) (hlen : 4 < bs.length) (s d g q : Byte) (som eom : Bool) :
    ∃ m' t' out, ctxRx m t mx pkt s d g q som eom = .ok (m', t', out) ∧
      Owns m' (ctxBufs t' ++ r) ∧ m'.ok = m.ok ∧ (∀ x ∈ t', CtxOk x) ∧ t'.length = t.length := by
  -- the common part: add the fragment to a prepared context at slot `k`
  have key : ∀ (k : Nat) (x y : Ctx), t[k]? = some x → y.buf = x.buf → CtxOk y →
      ∃ m' x' ok, ctxAddPkt m y pkt mx = .ok (m', x', ok) ∧ m'.ok = m.ok ∧
        ∀ z : Ctx, z.buf = x'.buf → z.data = x'.data → z.allocSize = x'.allocSize →
          Owns m' (ctxBufs (t.set k z) ++ r) ∧ (∀ w ∈ t.set k z, CtxOk w) := by
    intro k x y hx hyb hyo
    have hsplit : ∃ r1 : List Nat, ∀ i, r1.count i + x.buf.toList.count i = (ctxBufs t ++ r).count i := by
      refine ⟨(ctxBufs (t.set k { x with buf := none })) ++ r, fun i => ?_⟩
      have := ctxBufs_set (y := { x with buf := none }) hx i
      simp only [List.count_append, Option.toList, List.count_nil] at this ⊢
      omega
    obtain ⟨r1, hr1⟩ := hsplit
    have hm1 : Owns m (y.buf.toList ++ r1) := hm.congr fun i => by
      have := hr1 i
      rw [hyb]
      simp only [List.count_append] at this ⊢
      omega
    obtain ⟨m', x', ok, h1, h2, h3, h4, -, -⟩ := ctxAddPkt_total (mx := mx) hm1 ha hyo hp hlen
    refine ⟨m', x', ok, h1, h4, fun z hz1 hz2 hz3 => ⟨?_, ?_⟩⟩
    · exact ctxBufs_owns hx hr1 (by rw [hz1]; exact h3)
    · intro w hw
      rcases mem_set_cases hw with hw | rfl
      · exact ht w hw
      · exact ⟨by rw [hz2, hz3]; exact h2.fits, by rw [hz1, hz3]; exact h2.null⟩
  unfold ctxRx
  split
  · split
    · exact ⟨m, t, none, rfl, hm, rfl, ht, rfl⟩
    · rename_i k y hslot
      have hy : ∃ x, t[k]? = some x ∧ y.buf = x.buf ∧ CtxOk y := by
        unfold somSlot at hslot
        split at hslot
        · rename_i k0 hl
          obtain ⟨x, hx, -⟩ := lookup_lt hl
          simp only [hx, Option.map_some, Option.some.injEq, Prod.mk.injEq] at hslot
          obtain ⟨rfl, rfl⟩ := hslot
          exact ⟨x, hx, rfl, by simp, (ht x (List.mem_of_getElem? hx)).null⟩
        · split at hslot
          · cases hslot
          · rename_i k0 hk0
            obtain ⟨h1, h2, h3⟩ := List.findIdx?_eq_some_iff_getElem.mp hk0
            have hx : t[k0]? = some t[k0] := by simp [h1]
            simp only [hx, Option.map_some, Option.some.injEq, Prod.mk.injEq] at hslot
            obtain ⟨rfl, rfl⟩ := hslot
            exact ⟨t[k0], hx, rfl, by simp, (ht _ (List.mem_of_getElem? hx)).null⟩
      obtain ⟨x, hx, hyb, hyo⟩ := hy
      obtain ⟨m', x', ok, h1, h2, h3⟩ := key k x y hx hyb hyo
      obtain ⟨h4, h5⟩ := h3 (if ok then { x' with lastSeq := q } else x'.drop)
        (by cases ok <;> rfl) (by cases ok <;> rfl) (by cases ok <;> rfl)
      exact ⟨m', _, none, by rw [h1]; rfl, h4, h2, h5, by simp⟩
  · split
    · exact ⟨m, t, none, rfl, hm, rfl, ht, rfl⟩
    · rename_i k hl
      obtain ⟨x, hx, -⟩ := lookup_lt hl
      have hxo := ht x (List.mem_of_getElem? hx)
      have hdrop : Owns m (ctxBufs (t.set k x.drop) ++ r) ∧ (∀ w ∈ t.set k x.drop, CtxOk w) := by
        refine ⟨hm.congr fun i => ?_, ?_⟩
        · have := ctxBufs_set (y := x.drop) hx i
          simp only [Ctx.drop, List.count_append] at this ⊢; omega
        · intro w hw
          rcases mem_set_cases hw with hw | rfl
          · exact ht w hw
          · exact ⟨hxo.fits, hxo.null⟩
      simp only [hx]
      split
      · exact ⟨m, _, none, rfl, hdrop.1, rfl, hdrop.2, by simp⟩
      · by_cases hfl : (if eom then pkt.len > x.fragSize else pkt.len ≠ x.fragSize)
        · rw [if_pos hfl]
          exact ⟨m, _, none, rfl, hdrop.1, rfl, hdrop.2, by simp⟩
        · rw [if_neg hfl]
          obtain ⟨m', x', ok, h1, h2, h3⟩ := key k x x hx rfl hxo
          rw [h1]
          simp only [Res.bind_ok]
          split
          · obtain ⟨h4, h5⟩ := h3 x'.drop rfl rfl rfl
            exact ⟨m', _, _, rfl, h4, h2, h5, by simp⟩
          · obtain ⟨h4, h5⟩ := h3 (if ok then { x' with lastSeq := q } else x'.drop)
              (by cases ok <;> rfl) (by cases ok <;> rfl) (by cases ok <;> rfl)
            exact ⟨m', _, none, rfl, h4, h2, h5, by simp⟩

end Mctp
