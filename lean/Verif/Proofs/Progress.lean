import Verif.Proofs.MemInv

/-! Progress of individual streams. -/

namespace Mctp

open Spec

variable {β : Type}

/-- The context of stream `k`. -/
def prog (t : List Ctx) (k : Key) : Option Ctx := t.find? fun x => decide (keyOf x = k)

/-- Distinct active contexts are for distinct streams. -/
def Uniq (t : List Ctx) : Prop :=
  ∀ (j k : Nat) x y, t[j]? = some x → t[k]? = some y → x.src ≠ 0 → keyOf x = keyOf y → j = k

theorem prog_some_iff {t : List Ctx} {k : Key} {x : Ctx} (hu : Uniq t) (hk : k.src ≠ 0) :
    prog t k = some x ↔ ∃ j : Nat, t[j]? = some x ∧ keyOf x = k := by
  unfold prog
  constructor
  · intro h
    have h1 := List.find?_some h
    have h2 := List.mem_of_find?_eq_some h
    obtain ⟨j, hj, rfl⟩ := List.mem_iff_getElem.mp h2
    exact ⟨j, by simp [hj], by simpa using h1⟩
  · rintro ⟨j, hj, hx⟩
    cases h : t.find? (fun x => decide (keyOf x = k)) with
    | none =>
      rw [List.find?_eq_none] at h
      have := h x (List.mem_of_getElem? hj)
      simp [hx] at this
    | some y =>
      have h1 := List.find?_some h
      have h2 := List.mem_of_find?_eq_some h
      obtain ⟨l, hl, rfl⟩ := List.mem_iff_getElem.mp h2
      have hy : t[l]? = some t[l] := by simp [hl]
      have hxs : x.src ≠ 0 := by rw [show x.src = k.src from congrArg Key.src hx]; exact hk
      have h1' : keyOf t[l] = k := by simpa using h1
      have := hu j l x t[l] hj hy hxs (hx.trans h1'.symm)
      subst this
      rw [hj] at hy; exact hy.symm

theorem prog_none_iff {t : List Ctx} {k : Key} :
    prog t k = none ↔ ∀ (j : Nat) x, t[j]? = some x → keyOf x ≠ k := by
  unfold prog
  rw [List.find?_eq_none]
  constructor
  · intro h j x hx
    simpa using h x (List.mem_of_getElem? hx)
  · intro h x hx
    obtain ⟨j, hj, rfl⟩ := List.mem_iff_getElem.mp hx
    simpa using h j t[j] (by simp [hj])

theorem getElem?_set_cases {t : List Ctx} {k j : Nat} {x y : Ctx} (h : (t.set k y)[j]? = some x) :
    (j = k ∧ x = y ∧ k < t.length) ∨ (j ≠ k ∧ t[j]? = some x) := by
  rw [List.getElem?_set] at h
  split at h
  · rename_i hjk
    split at h
    · simp at h; exact .inl ⟨hjk.symm, h.symm, by assumption⟩
    · cases h
  · rename_i hjk; exact .inr ⟨fun h => hjk h.symm, h⟩

/-- Changing a slot of another stream (or a free one) does not change `prog`. -/
theorem prog_set_other {t : List Ctx} {k : Key} {j : Nat} {x y : Ctx} (hu : Uniq t)
    (hu' : Uniq (t.set j y)) (hk : k.src ≠ 0) (hx : t[j]? = some x) (hxk : keyOf x ≠ k)
    (hyk : keyOf y ≠ k) : prog (t.set j y) k = prog t k := by
  have hjl := (List.getElem?_eq_some_iff.mp hx).1
  have : ∀ z, prog (t.set j y) k = some z ↔ prog t k = some z := by
    intro z
    rw [prog_some_iff hu hk, prog_some_iff hu' hk]
    constructor
    · rintro ⟨l, hl, hz⟩
      rcases getElem?_set_cases hl with ⟨rfl, rfl, _⟩ | ⟨hne, hl⟩
      · exact absurd hz hyk
      · exact ⟨l, hl, hz⟩
    · rintro ⟨l, hl, hz⟩
      by_cases hlj : l = j
      · subst hlj; rw [hx] at hl; simp at hl; subst hl; exact absurd hz hxk
      · exact ⟨l, by rw [List.getElem?_set, if_neg (fun h => hlj h.symm)]; exact hl, hz⟩
  exact Option.ext this

theorem TblInv.uniq' {loc : Byte → Prop} {evs : List Event} {t : List Ctx} (h : TblInv loc evs t) :
    Uniq t := h.uniq

/-- A fragment changes at most one slot: a free one or one of its own stream. -/
theorem ctxRx_shape {m m' : Mem} {t t' : List Ctx} {mx : Nat} {pkt : Pktbuf} {f : Frag}
    {out : Option (List Byte)} (ht : f.tag < 8)
    (h : ctxRx m t mx pkt f.src f.dest (BitVec.ofNat 8 f.tag) (BitVec.ofNat 8 f.seq) f.som f.eom
      = .ok (m', t', out)) :
    t' = t ∨ ∃ (j : Nat) (x y : Ctx), t[j]? = some x ∧ (x.src = 0 ∨ keyOf x = f.key) ∧
      (y.src = 0 ∨ keyOf y = f.key) ∧ t' = t.set j y := by
  unfold ctxRx at h
  split at h
  · split at h
    · simp only [Except.ok.injEq, Prod.mk.injEq] at h; exact .inl h.2.1.symm
    · rename_i k x hslot
      obtain ⟨⟨m1, x1, ok⟩, hadd, h⟩ := Res.bind_eq_ok.mp h
      simp only [Except.ok.injEq, Prod.mk.injEq] at h
      obtain ⟨hf1, hf2, hf3, _⟩ := ctxAddPkt_fields hadd
      have hxk : keyOf x = f.key ∧ ∃ z, t[k]? = some z ∧ (z.src = 0 ∨ keyOf z = f.key) := by
        unfold somSlot at hslot
        split at hslot
        · rename_i k0 hl
          obtain ⟨y, hy, hyk⟩ := lookup_some_key ht hl
          simp only [hy, Option.map_some, Option.some.injEq, Prod.mk.injEq] at hslot
          obtain ⟨rfl, rfl⟩ := hslot
          exact ⟨hyk, y, hy, .inr hyk⟩
        · split at hslot
          · cases hslot
          · rename_i k0 hk0
            obtain ⟨h1, h2, h3⟩ := List.findIdx?_eq_some_iff_getElem.mp hk0
            have hy : t[k0]? = some t[k0] := by simp [h1]
            simp only [hy, Option.map_some, Option.some.injEq, Prod.mk.injEq] at hslot
            obtain ⟨rfl, rfl⟩ := hslot
            exact ⟨(keyOf_eq_iff ht).mpr ⟨rfl, rfl, rfl⟩, t[k0], hy, .inl (by simpa using h2)⟩
      obtain ⟨hkey, z, hz, hz'⟩ := hxk
      obtain ⟨hk1, hk2, hk3⟩ := (keyOf_eq_iff ht).mp hkey
      refine .inr ⟨k, z, _, hz, hz', ?_, h.2.1.symm⟩
      cases ok with
      | false => exact .inl rfl
      | true => exact .inr ((keyOf_eq_iff ht).mpr ⟨hf1.trans hk1, hf2.trans hk2, hf3.trans hk3⟩)
  · split at h
    · simp only [Except.ok.injEq, Prod.mk.injEq] at h; exact .inl h.2.1.symm
    · rename_i k hl
      obtain ⟨x, hx, hkey⟩ := lookup_some_key ht hl
      obtain ⟨hk1, hk2, hk3⟩ := (keyOf_eq_iff ht).mp hkey
      simp only [hx] at h
      split at h
      · simp only [Except.ok.injEq, Prod.mk.injEq] at h
        exact .inr ⟨k, x, x.drop, hx, .inr hkey, .inl rfl, h.2.1.symm⟩
      · by_cases hfl : (if f.eom then pkt.len > x.fragSize else pkt.len ≠ x.fragSize)
        · rw [if_pos hfl] at h
          simp only [Except.ok.injEq, Prod.mk.injEq] at h
          exact .inr ⟨k, x, x.drop, hx, .inr hkey, .inl rfl, h.2.1.symm⟩
        · rw [if_neg hfl] at h
          obtain ⟨⟨m1, x1, ok⟩, hadd, h⟩ := Res.bind_eq_ok.mp h
          obtain ⟨hf1, hf2, hf3, _⟩ := ctxAddPkt_fields hadd
          simp only at h
          split at h
          · simp only [Except.ok.injEq, Prod.mk.injEq] at h
            exact .inr ⟨k, x, x1.drop, hx, .inr hkey, .inl rfl, h.2.1.symm⟩
          · simp only [Except.ok.injEq, Prod.mk.injEq] at h
            refine .inr ⟨k, x, _, hx, .inr hkey, ?_, h.2.1.symm⟩
            cases ok with
            | false => exact .inl rfl
            | true => exact .inr ((keyOf_eq_iff ht).mpr ⟨hf1.trans hk1, hf2.trans hk2, hf3.trans hk3⟩)

/-- Fragments of one stream do not touch another (non-null) stream. -/
theorem ctxRx_isolated {m m' : Mem} {t t' : List Ctx} {mx : Nat} {pkt : Pktbuf} {f : Frag}
    {out : Option (List Byte)} (ht : f.tag < 8) (hu : Uniq t) (hu' : Uniq t')
    (h : ctxRx m t mx pkt f.src f.dest (BitVec.ofNat 8 f.tag) (BitVec.ofNat 8 f.seq) f.som f.eom
      = .ok (m', t', out)) {k : Key} (hk : k.src ≠ 0) (hne : f.key ≠ k) :
    prog t' k = prog t k := by
  rcases ctxRx_shape ht h with rfl | ⟨j, x, y, hx, hx', hy', rfl⟩
  · rfl
  · have : ∀ z : Ctx, (z.src = 0 ∨ keyOf z = f.key) → keyOf z ≠ k := by
      intro z hz hzk
      rcases hz with hz | hz
      · exact hk (by rw [← show z.src = k.src from congrArg Key.src hzk]; exact hz)
      · exact hne (hz.symm.trans hzk)
    exact prog_set_other hu hu' hk hx (this x hx') (this y hy')

/-! ## What a fragment does to its own stream, when memory is available -/

theorem lookup_of_prog {t : List Ctx} {f : Frag} {x : Ctx} (ht : f.tag < 8) (hu : Uniq t)
    (hs : f.src ≠ 0) (h : prog t f.key = some x) :
    ∃ k, ctxLookup t f.src f.dest (BitVec.ofNat 8 f.tag) = some k ∧ t[k]? = some x := by
  obtain ⟨j, hj, hkey⟩ := (prog_some_iff hu hs).mp h
  cases hl : ctxLookup t f.src f.dest (BitVec.ofNat 8 f.tag) with
  | none => exact absurd hkey (lookup_none_key ht hl j x hj)
  | some k =>
    obtain ⟨y, hy, hyk⟩ := lookup_some_key ht hl
    have hxs : x.src ≠ 0 := by rw [show x.src = f.src from congrArg Key.src hkey]; exact hs
    have := hu j k x y hj hy hxs (hkey.trans hyk.symm)
    subst this
    exact ⟨j, rfl, hj⟩

theorem lookup_none_of_prog {t : List Ctx} {f : Frag} (ht : f.tag < 8)
    (h : prog t f.key = none) : ctxLookup t f.src f.dest (BitVec.ofNat 8 f.tag) = none := by
  cases hl : ctxLookup t f.src f.dest (BitVec.ofNat 8 f.tag) with
  | none => rfl
  | some k =>
    obtain ⟨y, hy, hyk⟩ := lookup_some_key ht hl
    exact absurd hyk (prog_none_iff.mp h k y hy)

/-- Some context is not in use. -/
def HasFree (t : List Ctx) : Prop := ∃ x ∈ t, x.src = 0

section own
variable {m : Mem} {t : List Ctx} {r : List Nat} {pkt : Pktbuf} {bs : List Byte} {mx : Nat} {f : Frag}

private theorem splitBufs {k : Nat} {x : Ctx} (hx : t[k]? = some x) :
    ∃ r1 : List Nat, ∀ i, r1.count i + x.buf.toList.count i = (ctxBufs t ++ r).count i := by
  refine ⟨(ctxBufs (t.set k { x with buf := none })) ++ r, fun i => ?_⟩
  have := ctxBufs_set (y := { x with buf := none }) hx i
  simp only [List.count_append, Option.toList, List.count_nil] at this ⊢
  omega

/-- A prepared context receives the fragment. -/
theorem addAt (hm : Owns m (ctxBufs t ++ r)) (ha : AllOk m)
    (hp : PktIs pkt bs) (hf : parse bs = some f) {k : Nat} {x y : Ctx} (hx : t[k]? = some x)
    (hyb : y.buf = x.buf) (hyo : CtxOk y) :
    ∃ m' x' ok, ctxAddPkt m y pkt mx = .ok (m', x', ok) ∧
      (ok = true ↔ Admits mx y f.payload.length) ∧ (ok = true → x'.data = y.data ++ f.payload) := by
  obtain ⟨r1, hr1⟩ := splitBufs (r := r) hx
  have hm1 : Owns m (y.buf.toList ++ r1) := hm.congr fun i => by
    have := hr1 i
    rw [hyb]
    simp only [List.count_append] at this ⊢
    omega
  obtain ⟨v, d, s, g, hbs, hne, _⟩ := parse_some hf
  have hlen : bs.length = f.payload.length + 4 := by rw [hbs]; simp
  have : 0 < f.payload.length := List.length_pos_iff.mpr hne
  obtain ⟨m', x', ok, h1, h2, h3, h4, h5, h6⟩ := ctxAddPkt_total (mx := mx) hm1 ha hyo hp (by omega)
  refine ⟨m', x', ok, h1, ?_, ?_⟩
  · rw [h5, show bs.length - 4 = f.payload.length by omega]
  · intro hok; rw [h6 hok, hbs]; rfl

/-- A start packet opens its stream. -/
theorem ctxRx_start (hm : Owns m (ctxBufs t ++ r)) (ha : AllOk m) (ht : ∀ x ∈ t, CtxOk x)
    (hu : Uniq t) (hp : PktIs pkt bs) (hf : parse bs = some f) (hs : f.src ≠ 0)
    (hsom : f.som = true) (hslot : prog t f.key ≠ none ∨ HasFree t)
    (hadm : ∀ x ∈ t, Admits mx { x with data := [] } f.payload.length) :
    ∃ m' t' x', ctxRx m t mx pkt f.src f.dest (BitVec.ofNat 8 f.tag) (BitVec.ofNat 8 f.seq)
        f.som f.eom = .ok (m', t', none) ∧
      (Uniq t' → prog t' f.key = some x') ∧ x'.data = f.payload ∧ x'.lastSeq.toNat = f.seq ∧
      x'.fragSize = f.payload.length + 4 := by
  obtain ⟨v, d, s, g, hbs, hne, _, _, _, _, _, _, _, htag, hseq⟩ := parse_some hf
  have hlen : pkt.len = f.payload.length + 4 := by rw [hp.len, hbs]; simp
  have hslot' : ∃ k x y, somSlot t f.src f.dest (BitVec.ofNat 8 f.tag) pkt.len = some (k, y) ∧
      t[k]? = some x ∧ y.buf = x.buf ∧ y.data = [] ∧ y.allocSize = x.allocSize ∧ keyOf y = f.key ∧
      y.fragSize = pkt.len := by
    unfold somSlot
    cases hpr : prog t f.key with
    | some x =>
      obtain ⟨k, hl, hx⟩ := lookup_of_prog htag hu hs hpr
      obtain ⟨y, hy, hyk⟩ := lookup_some_key htag hl
      rw [hx] at hy; simp at hy; subst hy
      exact ⟨k, x, { x with data := [], fragSize := pkt.len }, by simp [hl, hx], hx, rfl, rfl, rfl, hyk, rfl⟩
    | none =>
      rw [lookup_none_of_prog htag hpr]
      have hfree : HasFree t := by
        rcases hslot with h | h
        · exact absurd hpr h
        · exact h
      obtain ⟨x0, hx0, hx0s⟩ := hfree
      cases hfi : t.findIdx? (fun c => c.src == 0) with
      | none =>
        rw [List.findIdx?_eq_none_iff] at hfi
        have := hfi x0 hx0; simp [hx0s] at this
      | some k =>
        obtain ⟨h1, h2, h3⟩ := List.findIdx?_eq_some_iff_getElem.mp hfi
        have hy : t[k]? = some t[k] := by simp [h1]
        refine ⟨k, t[k], { t[k] with src := f.src, dest := f.dest, tag := BitVec.ofNat 8 f.tag, data := [], fragSize := pkt.len }, by simp [hy], hy, rfl, rfl, rfl, ?_, rfl⟩
        exact (keyOf_eq_iff htag).mpr ⟨rfl, rfl, rfl⟩
  obtain ⟨k, x, y, hsl, hx, hyb, hyd, hya, hyk, hyf⟩ := hslot'
  have hyo : CtxOk y := ⟨by simp [hyd], by rw [hyb, hya]; exact (ht x (List.mem_of_getElem? hx)).null⟩
  obtain ⟨m', x', ok, h1, h2, h3⟩ := addAt (mx := mx) hm ha hp hf hx hyb hyo
  have hok : ok = true := by
    rw [h2]
    have := hadm x (List.mem_of_getElem? hx)
    unfold Admits at this ⊢
    rw [hyd, hya]; exact this
  subst hok
  obtain ⟨g1, g2, g3, g4, g5, _, _⟩ := ctxAddPkt_fields h1
  refine ⟨m', t.set k { x' with lastSeq := BitVec.ofNat 8 f.seq }, { x' with lastSeq := BitVec.ofNat 8 f.seq }, ?_, ?_, ?_, ?_, ?_⟩
  · unfold ctxRx
    rw [if_pos hsom, hsl]
    simp only [h1, Res.bind_ok, if_true]
  · intro hu'
    refine (prog_some_iff hu' hs).mpr ⟨k, ?_, ?_⟩
    · rw [List.getElem?_set, if_pos rfl, if_pos (List.getElem?_eq_some_iff.mp hx).1]
    · obtain ⟨k1, k2, k3⟩ := (keyOf_eq_iff htag).mp hyk
      exact (keyOf_eq_iff htag).mpr ⟨g1.trans k1, g2.trans k2, g3.trans k3⟩
  · show x'.data = _; rw [h3 rfl, hyd]; rfl
  · simp; omega
  · show x'.fragSize = _; rw [g5, hyf, hlen]

/-- A fragment that continues its stream is added; an end packet completes the message. -/
theorem ctxRx_cont (hm : Owns m (ctxBufs t ++ r)) (ha : AllOk m) (ht : ∀ x ∈ t, CtxOk x)
    (hu : Uniq t) (hp : PktIs pkt bs) (hf : parse bs = some f) (hs : f.src ≠ 0)
    (hsom : f.som = false) {x : Ctx} (hx : prog t f.key = some x)
    (hseq : f.seq = (x.lastSeq.toNat + 1) % 4)
    (hlen : if f.eom then f.payload.length + 4 ≤ x.fragSize else f.payload.length + 4 = x.fragSize)
    (hadm : Admits mx x f.payload.length) :
    ∃ m' t' out, ctxRx m t mx pkt f.src f.dest (BitVec.ofNat 8 f.tag) (BitVec.ofNat 8 f.seq)
        f.som f.eom = .ok (m', t', out) ∧
      (f.eom = true → out = some (x.data ++ f.payload) ∧ (Uniq t' → prog t' f.key = none)) ∧
      (f.eom = false → out = none ∧ ∃ x', (Uniq t' → prog t' f.key = some x') ∧
        x'.data = x.data ++ f.payload ∧ x'.lastSeq.toNat = f.seq ∧ x'.fragSize = x.fragSize) := by
  obtain ⟨v, d, s, g, hbs, hne, _, _, _, _, _, _, _, htag, hsq4⟩ := parse_some hf
  have hplen : pkt.len = f.payload.length + 4 := by rw [hp.len, hbs]; simp
  obtain ⟨k, hl, hxk⟩ := lookup_of_prog htag hu hs hx
  have hkey : keyOf x = f.key := by
    obtain ⟨y, hy, hyk⟩ := lookup_some_key htag hl
    rw [hxk] at hy; simp at hy; subst hy; exact hyk
  obtain ⟨k1, k2, k3⟩ := (keyOf_eq_iff htag).mp hkey
  obtain ⟨m', x', ok, h1, h2, h3⟩ := addAt (mx := mx) hm ha hp hf hxk rfl (ht x (List.mem_of_getElem? hxk))
  have hok : ok = true := h2.mpr hadm
  subst hok
  obtain ⟨g1, g2, g3, g4, g5, _, _⟩ := ctxAddPkt_fields h1
  have hseq' : ¬ (BitVec.ofNat 8 ((x.lastSeq.toNat + 1) % 4) ≠ BitVec.ofNat 8 f.seq) := by
    rw [hseq]; simp
  have hfl : ¬ (if f.eom then pkt.len > x.fragSize else pkt.len ≠ x.fragSize) := by
    rw [hplen]
    by_cases he : f.eom
    · simp only [he, if_true] at hlen ⊢; omega
    · simp only [he] at hlen ⊢; simp at hlen ⊢; omega
  have hkl := (List.getElem?_eq_some_iff.mp hxk).1
  unfold ctxRx
  rw [if_neg (by simp [hsom])]
  simp only [hl, hxk]
  rw [if_neg hseq', if_neg hfl, h1]
  simp only [Res.bind_ok, if_true]
  cases heom : f.eom with
  | true =>
    refine ⟨m', _, _, rfl, ?_, by simp⟩
    intro _
    refine ⟨by rw [h3 rfl], fun hu' => ?_⟩
    cases hpr : prog (t.set k x'.drop) f.key with
    | none => rfl
    | some z =>
      obtain ⟨j, hj, hz⟩ := (prog_some_iff hu' hs).mp hpr
      rcases getElem?_set_cases hj with ⟨rfl, rfl, _⟩ | ⟨hne, hj⟩
      · exact absurd (congrArg Key.src hz) (fun h => hs h.symm)
      · have hzs : z.src ≠ 0 := by rw [show z.src = f.src from congrArg Key.src hz]; exact hs
        exact absurd (hu j k z x hj hxk hzs (hz.trans hkey.symm)) hne
  | false =>
    refine ⟨m', _, _, rfl, by simp, ?_⟩
    intro _
    refine ⟨rfl, { x' with lastSeq := BitVec.ofNat 8 f.seq }, fun hu' => ?_, h3 rfl, by simp; omega, g5⟩
    refine (prog_some_iff hu' hs).mpr ⟨k, ?_, ?_⟩
    · simp [hkl]
    · exact (keyOf_eq_iff htag).mpr ⟨g1.trans k1, g2.trans k2, g3.trans k3⟩

end own

end Mctp
