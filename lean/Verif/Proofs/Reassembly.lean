import Verif.Proofs.RxCases

/-! Reassembly invariant: every active context holds an uninterrupted run of its stream. -/

namespace Mctp

open Spec

variable {β : Type}

/-- The stream a context is for. -/
def keyOf (x : Ctx) : Key := { src := x.src, dest := x.dest, tag := x.tag.toNat }

/-- The sequence number of the last of a run of fragments. -/
def lastSeqOf (start : Frag) (mids : List Frag) : Nat := ((start :: mids).getLast (by simp)).seq

/-- The context holds a proper prefix of a message that is the end of the stream `fs`. -/
def Run (fs : List Frag) (x : Ctx) : Prop :=
  ∃ before start mids, fs = before ++ start :: mids ∧
    start.som = true ∧ start.eom = false ∧
    (∀ m ∈ mids, m.som = false ∧ m.eom = false) ∧
    (∀ m ∈ mids, m.payload.length = start.payload.length) ∧
    SeqChain start.seq mids ∧ x.lastSeq.toNat = lastSeqOf start mids ∧
    x.fragSize = start.payload.length + 4 ∧ x.data = content (start :: mids)

/-- Invariant of the context table after the events `evs`. -/
structure TblInv (loc : Byte → Prop) (evs : List Event) (t : List Ctx) : Prop where
  len  : t.length = 16
  uniq : ∀ (j k : Nat) x y, t[j]? = some x → t[k]? = some y → x.src ≠ 0 → keyOf x = keyOf y → j = k
  locd : ∀ (j : Nat) x, t[j]? = some x → x.src ≠ 0 → loc x.dest
  run  : ∀ (j : Nat) x, t[j]? = some x → x.src ≠ 0 → Run (stream (keyOf x) evs) x

theorem SeqChain_append {s : Nat} {fs : List Frag} {f : Frag} :
    SeqChain s (fs ++ [f]) ↔ SeqChain s fs ∧ f.seq = (((fs.getLast?.map (·.seq)).getD s) + 1) % 4 := by
  induction fs generalizing s with
  | nil => simp [SeqChain]
  | cons g gs ih =>
    simp only [List.cons_append, SeqChain, ih, and_assoc]
    cases gs <;> simp [List.getLast?_cons]

theorem lastSeqOf_eq (start : Frag) (mids : List Frag) :
    lastSeqOf start mids = (mids.getLast?.map (·.seq)).getD start.seq := by
  unfold lastSeqOf
  cases h : mids.getLast? with
  | none => simp at h; subst h; rfl
  | some x =>
    obtain ⟨ys, rfl⟩ := List.getLast?_eq_some_iff.mp h
    rw [show (start :: (ys ++ [x])).getLast (by simp) = x from List.getLast_concat (l := start :: ys)]
    simp

theorem stream_append (k : Key) (a b : List Event) : stream k (a ++ b) = stream k a ++ stream k b := by
  simp [stream]

theorem stream_recv {k : Key} {i : Nat} {bs : List Byte} {f : Frag}
    (hf : parse bs = some f) (hs : f.single = false) :
    stream k [.recv i bs] = if f.key = k then [f] else [] := by
  simp only [stream, List.filterMap_cons, List.filterMap_nil, fragOf, hf, hs, and_true]
  by_cases h : f.key = k <;> simp [h]

theorem stream_append_recv {k : Key} {evs : List Event} {i : Nat} {bs : List Byte} {f : Frag}
    (hf : parse bs = some f) (hs : f.single = false) :
    stream k (evs ++ [.recv i bs]) = stream k evs ++ (if f.key = k then [f] else []) := by
  rw [stream_append, stream_recv hf hs]

theorem stream_append_single {k : Key} {evs : List Event} {i : Nat} {bs : List Byte} {f : Frag}
    (hf : parse bs = some f) (hs : f.single = true) :
    stream k (evs ++ [.recv i bs]) = stream k evs := by
  simp [stream, fragOf, hf, hs]

theorem stream_append_none {k : Key} {evs : List Event} {i : Nat} {bs : List Byte}
    (hf : parse bs = none) : stream k (evs ++ [.recv i bs]) = stream k evs := by
  simp [stream, fragOf, hf]

theorem stream_other {k : Key} {e : List Event} (h : ∀ j p, Event.recv j p ∉ e) :
    stream k e = [] := by
  unfold stream
  rw [List.filterMap_eq_nil_iff]
  intro a ha
  cases a with
  | recv i p => exact absurd ha (h i p)
  | _ => rfl

theorem stream_append_other {k : Key} {evs e : List Event} (h : ∀ j p, Event.recv j p ∉ e) :
    stream k (evs ++ e) = stream k evs := by
  rw [stream_append, stream_other h, List.append_nil]

theorem TblInv.other {loc : Byte → Prop} {evs e : List Event} {t : List Ctx}
    (h : TblInv loc evs t) (he : ∀ j p, Event.recv j p ∉ e) : TblInv loc (evs ++ e) t := by
  refine ⟨h.len, h.uniq, h.locd, fun j x hx hs => ?_⟩
  rw [stream_append_other he]; exact h.run j x hx hs

/-- Updating the slot of the fragment's stream. -/
theorem TblInv.update {loc : Byte → Prop} {evs : List Event} {t : List Ctx} {i : Nat}
    {bs : List Byte} {f : Frag} (h : TblInv loc evs t) (hf : parse bs = some f)
    (hs : f.single = false) {k : Nat} {y : Ctx} (hk : k < t.length)
    (hoth : ∀ (j : Nat) x, j ≠ k → t[j]? = some x → x.src ≠ 0 → keyOf x ≠ f.key)
    (hy : y.src ≠ 0 → keyOf y = f.key ∧ loc y.dest ∧ Run (stream f.key evs ++ [f]) y) :
    TblInv loc (evs ++ [.recv i bs]) (t.set k y) := by
  have hget : ∀ (j : Nat) x, (t.set k y)[j]? = some x → (j = k ∧ x = y) ∨ (j ≠ k ∧ t[j]? = some x) := by
    intro j x hx
    rw [List.getElem?_set] at hx
    split at hx
    · rename_i hjk
      simp at hx; exact .inl ⟨hjk.symm, hx.symm⟩
    · rename_i hjk; exact .inr ⟨fun h => hjk h.symm, hx⟩
  refine ⟨by simp [h.len], ?_, ?_, ?_⟩
  · intro j l x z hx hz hx0 hxz
    have hz0 : z.src ≠ 0 := by
      have : x.src = z.src := congrArg Key.src hxz
      rwa [← this]
    rcases hget j x hx with ⟨hj, hjx⟩ | ⟨hjk, hx'⟩ <;>
      rcases hget l z hz with ⟨hl, hlz⟩ | ⟨hlk, hz'⟩
    · rw [hj, hl]
    · subst hjx
      exact absurd (hxz ▸ (hy hx0).1) (hoth l z hlk hz' hz0)
    · subst hlz
      exact absurd (hxz.trans (hy hz0).1) (hoth j x hjk hx' hx0)
    · exact h.uniq j l x z hx' hz' hx0 hxz
  · intro j x hx hx0
    rcases hget j x hx with ⟨rfl, rfl⟩ | ⟨hjk, hx⟩
    · exact (hy hx0).2.1
    · exact h.locd j x hx hx0
  · intro j x hx hx0
    rw [stream_append_recv hf hs]
    rcases hget j x hx with ⟨rfl, rfl⟩ | ⟨hjk, hx⟩
    · obtain ⟨h1, _, h3⟩ := hy hx0
      rw [h1, if_pos rfl]; exact h3
    · rw [if_neg (fun h => hoth j x hjk hx hx0 h.symm), List.append_nil]
      exact h.run j x hx hx0

/-- A fragment that finds no context of its stream leaves the table correct. -/
theorem TblInv.skip {loc : Byte → Prop} {evs : List Event} {t : List Ctx} {i : Nat}
    {bs : List Byte} {f : Frag} (h : TblInv loc evs t) (hf : parse bs = some f)
    (hs : f.single = false)
    (hoth : ∀ (j : Nat) x, t[j]? = some x → x.src ≠ 0 → keyOf x ≠ f.key) :
    TblInv loc (evs ++ [.recv i bs]) t := by
  refine ⟨h.len, h.uniq, h.locd, fun j x hx hx0 => ?_⟩
  rw [stream_append_recv hf hs, if_neg (fun hh => hoth j x hx hx0 hh.symm), List.append_nil]
  exact h.run j x hx hx0

theorem keyOf_eq_iff {x : Ctx} {f : Frag} (ht : f.tag < 8) :
    keyOf x = f.key ↔ x.src = f.src ∧ x.dest = f.dest ∧ x.tag = BitVec.ofNat 8 f.tag := by
  unfold keyOf Frag.key
  simp only [Key.mk.injEq]
  refine and_congr_right fun _ => and_congr_right fun _ => ?_
  constructor
  · intro h; rw [← h]; simp
  · intro h; rw [h]; simp; omega

theorem lookup_none_key {t : List Ctx} {f : Frag} (ht : f.tag < 8)
    (h : ctxLookup t f.src f.dest (BitVec.ofNat 8 f.tag) = none) :
    ∀ (j : Nat) x, t[j]? = some x → keyOf x ≠ f.key := by
  intro j x hx hk
  unfold ctxLookup at h
  rw [List.findIdx?_eq_none_iff] at h
  have := h x (List.mem_of_getElem? hx)
  obtain ⟨h1, h2, h3⟩ := (keyOf_eq_iff ht).mp hk
  simp [h1, h2, h3] at this

theorem lookup_some_key {t : List Ctx} {f : Frag} {k : Nat} (ht : f.tag < 8)
    (h : ctxLookup t f.src f.dest (BitVec.ofNat 8 f.tag) = some k) :
    ∃ x, t[k]? = some x ∧ keyOf x = f.key := by
  obtain ⟨x, hx, h1, h2, h3⟩ := lookup_lt h
  exact ⟨x, hx, (keyOf_eq_iff ht).mpr ⟨h1, h2, h3⟩⟩

theorem lookup_some_others {loc : Byte → Prop} {evs : List Event} {t : List Ctx} {f : Frag} {k : Nat}
    (ht : f.tag < 8) (hi : TblInv loc evs t)
    (h : ctxLookup t f.src f.dest (BitVec.ofNat 8 f.tag) = some k) :
    ∀ (j : Nat) x, j ≠ k → t[j]? = some x → x.src ≠ 0 → keyOf x ≠ f.key := by
  intro j x hjk hx hx0 hkey
  obtain ⟨y, hy, hykey⟩ := lookup_some_key ht h
  exact hjk (hi.uniq j k x y hx hy hx0 (hkey.trans hykey.symm))

theorem content_append (a b : List Frag) : content (a ++ b) = content a ++ content b := by
  simp [content]

/-- Effect of a fragment on the invariant, and what is completed. -/
theorem ctxRx_inv {loc : Byte → Prop} {evs : List Event} {t t' : List Ctx} {i : Nat}
    {bs : List Byte} {f : Frag} {pkt : Pktbuf} {m m' : Mem} {mx : Nat} {out : Option (List Byte)}
    (hi : TblInv loc evs t) (hf : parse bs = some f) (hs : f.single = false) (hloc : loc f.dest)
    (hp : PktIs pkt bs)
    (h : ctxRx m t mx pkt f.src f.dest (BitVec.ofNat 8 f.tag) (BitVec.ofNat 8 f.seq) f.som f.eom
      = .ok (m', t', out)) :
    TblInv loc (evs ++ [.recv i bs]) t' ∧
    ∀ msg, out = some msg → f.src ≠ 0 →
      ∃ before start mids, stream f.key (evs ++ [.recv i bs]) = before ++ (start :: mids ++ [f]) ∧
        IsMessage start mids f ∧ msg = content (start :: mids ++ [f]) := by
  obtain ⟨v, d, s, g, hbs, hne, _, _, _, _, _, _, _, htag, hseq⟩ := parse_some hf
  have hlen : pkt.len = f.payload.length + 4 := by rw [hp.len, hbs]; simp
  have hread : ∀ pl, pkt.read (pkt.hdrOff + hdrSize) (pkt.len - hdrSize) = .ok pl → pl = f.payload := by
    intro pl hpl
    have := hp.read 4 f.payload.length (by rw [hbs]; simp; omega)
    rw [show pkt.len - hdrSize = f.payload.length by rw [hlen]; rfl,
      show hdrSize = 4 from rfl, this] at hpl
    simp [hbs] at hpl
    exact hpl.symm
  unfold ctxRx at h
  split at h
  · -- start packet
    rename_i hsom
    have heom : f.eom = false := by
      unfold Frag.single at hs; rw [hsom] at hs; simpa using hs
    split at h
    · -- no slot
      rename_i hslot
      simp only [Except.ok.injEq, Prod.mk.injEq] at h
      obtain ⟨-, rfl, rfl⟩ := h
      refine ⟨?_, by simp⟩
      unfold somSlot at hslot
      split at hslot
      · rename_i k hl
        obtain ⟨x, hx, -⟩ := lookup_lt hl
        simp [hx] at hslot
      · rename_i hl
        exact hi.skip hf hs fun j x hx _ => lookup_none_key htag hl j x hx
    · rename_i k x hslot
      obtain ⟨⟨m1, x1, ok⟩, hadd, h⟩ := Res.bind_eq_ok.mp h
      simp only [Except.ok.injEq, Prod.mk.injEq] at h
      obtain ⟨-, rfl, rfl⟩ := h
      refine ⟨?_, by simp⟩
      obtain ⟨hf1, hf2, hf3, hf4, hf5, hf6, hf7⟩ := ctxAddPkt_fields hadd
      have hxk : k < t.length ∧ keyOf x = f.key ∧ x.data = [] ∧ x.fragSize = pkt.len ∧
          ∀ (j : Nat) x, j ≠ k → t[j]? = some x → x.src ≠ 0 → keyOf x ≠ f.key := by
        unfold somSlot at hslot
        split at hslot
        · rename_i k0 hl
          obtain ⟨y, hy, hyk⟩ := lookup_some_key htag hl
          simp only [hy, Option.map_some, Option.some.injEq, Prod.mk.injEq] at hslot
          obtain ⟨rfl, rfl⟩ := hslot
          exact ⟨(List.getElem?_eq_some_iff.mp hy).1, hyk, rfl, rfl, lookup_some_others htag hi hl⟩
        · rename_i hl
          split at hslot
          · cases hslot
          · rename_i k0 hk0
            obtain ⟨h1, h2, h3⟩ := List.findIdx?_eq_some_iff_getElem.mp hk0
            have hy : t[k0]? = some t[k0] := by simp [h1]
            simp only [hy, Option.map_some, Option.some.injEq, Prod.mk.injEq] at hslot
            obtain ⟨rfl, rfl⟩ := hslot
            exact ⟨h1, (keyOf_eq_iff htag).mpr ⟨rfl, rfl, rfl⟩, rfl, rfl,
              fun j x _ hx _ => lookup_none_key htag hl j x hx⟩
      obtain ⟨hk, hkey, hdata, hfrag, hoth⟩ := hxk
      obtain ⟨hk1, hk2, hk3⟩ := (keyOf_eq_iff htag).mp hkey
      refine hi.update hf hs hk hoth ?_
      cases ok with
      | false => intro h0; simp [Ctx.drop] at h0
      | true =>
        intro h0
        simp only [if_true] at h0 ⊢
        refine ⟨(keyOf_eq_iff htag).mpr ⟨hf1.trans hk1, hf2.trans hk2, hf3.trans hk3⟩, ?_, ?_⟩
        · show loc x1.dest; rw [hf2, hk2]; exact hloc
        · obtain ⟨pl, hpl, hd, -⟩ := hf7 rfl
          refine ⟨stream f.key evs, f, [], rfl, hsom, heom, by simp, by simp, trivial, ?_, ?_, ?_⟩
          · simp [lastSeqOf]; omega
          · show x1.fragSize = _; rw [hf5, hfrag, hlen]
          · show x1.data = _; rw [hd, hdata, hread pl hpl]; simp [content]
  · -- middle or end packet
    rename_i hsom
    have hsom : f.som = false := by simpa using hsom
    split at h
    · rename_i hl
      simp only [Except.ok.injEq, Prod.mk.injEq] at h
      obtain ⟨-, rfl, rfl⟩ := h
      exact ⟨hi.skip hf hs fun j x hx _ => lookup_none_key htag hl j x hx, by simp⟩
    · rename_i k hl
      obtain ⟨x, hx, hkey⟩ := lookup_some_key htag hl
      have hk : k < t.length := (List.getElem?_eq_some_iff.mp hx).1
      have hoth := lookup_some_others htag hi hl
      obtain ⟨hk1, hk2, hk3⟩ := (keyOf_eq_iff htag).mp hkey
      have hdrop : ∀ z : Ctx, TblInv loc (evs ++ [.recv i bs]) (t.set k z.drop) := by
        intro z
        refine hi.update hf hs hk hoth ?_
        intro h0; simp [Ctx.drop] at h0
      simp only [hx] at h
      split at h
      · simp only [Except.ok.injEq, Prod.mk.injEq] at h
        obtain ⟨-, rfl, rfl⟩ := h
        exact ⟨hdrop x, by simp⟩
      · rename_i hsq
        by_cases hfl : (if f.eom then pkt.len > x.fragSize else pkt.len ≠ x.fragSize)
        · rw [if_pos hfl] at h
          simp only [Except.ok.injEq, Prod.mk.injEq] at h
          obtain ⟨-, rfl, rfl⟩ := h
          exact ⟨hdrop x, by simp⟩
        · rw [if_neg hfl] at h
          obtain ⟨⟨m1, x1, ok⟩, hadd, h⟩ := Res.bind_eq_ok.mp h
          obtain ⟨hf1, hf2, hf3, hf4, hf5, hf6, hf7⟩ := ctxAddPkt_fields hadd
          have hseq' : f.seq = (x.lastSeq.toNat + 1) % 4 := by
            have := congrArg BitVec.toNat (Decidable.not_not.mp hsq)
            simp at this; omega
          simp only at h
          split at h
          · rename_i heom
            simp only [Except.ok.injEq, Prod.mk.injEq] at h
            obtain ⟨-, rfl, rfl⟩ := h
            refine ⟨hdrop x1, ?_⟩
            intro msg hmsg hsrc
            have hx0 : x.src ≠ 0 := by rw [hk1]; exact hsrc
            obtain ⟨before, start, mids, hst, r1, r2, r3, r4, r5, r6, r7, r8⟩ := hi.run k x hx hx0
            cases ok with
            | false => simp at hmsg
            | true =>
              simp only [if_true, Option.some.injEq] at hmsg
              obtain ⟨pl, hpl, hd, -⟩ := hf7 rfl
              refine ⟨before, start, mids, ?_, ?_, ?_⟩
              · rw [stream_append_recv hf hs, if_pos rfl, ← hkey, hst]; simp
              · simp only [heom, if_true, gt_iff_lt, Nat.not_lt] at hfl
                refine ⟨⟨r1, r2⟩, r3, ⟨hsom, heom⟩, r4, by omega, ?_⟩
                rw [SeqChain_append]
                exact ⟨r5, by rw [← lastSeqOf_eq, ← r6]; exact hseq'⟩
              · rw [← hmsg, hd, hread pl hpl, content_append, r8]; simp [content]
          · rename_i heom
            have heom : f.eom = false := by simpa using heom
            simp only [Except.ok.injEq, Prod.mk.injEq] at h
            obtain ⟨-, rfl, rfl⟩ := h
            refine ⟨?_, by simp⟩
            cases ok with
            | false => exact hdrop x1
            | true =>
              simp only [if_true]
              refine hi.update hf hs hk hoth ?_
              intro h0
              have hx0 : x.src ≠ 0 := by rw [← hf1]; exact h0
              obtain ⟨before, start, mids, hst, r1, r2, r3, r4, r5, r6, r7, r8⟩ := hi.run k x hx hx0
              obtain ⟨pl, hpl, hd, -⟩ := hf7 rfl
              refine ⟨(keyOf_eq_iff htag).mpr ⟨hf1.trans hk1, hf2.trans hk2, hf3.trans hk3⟩, ?_, ?_⟩
              · show loc x1.dest; rw [hf2, hk2]; exact hloc
              · simp only [heom, Bool.false_eq_true, if_false, ne_eq, Decidable.not_not] at hfl
                refine ⟨before, start, mids ++ [f], ?_, r1, r2, ?_, ?_, ?_, ?_, ?_, ?_⟩
                · rw [← hkey, hst]; simp
                · intro z hz
                  rcases List.mem_append.mp hz with hz | hz
                  · exact r3 z hz
                  · simp at hz; subst hz; exact ⟨hsom, heom⟩
                · intro z hz
                  rcases List.mem_append.mp hz with hz | hz
                  · exact r4 z hz
                  · simp at hz; subst hz; omega
                · rw [SeqChain_append]
                  exact ⟨r5, by rw [← lastSeqOf_eq, ← r6]; exact hseq'⟩
                · rw [lastSeqOf_eq]; simp; omega
                · show x1.fragSize = _; rw [hf5]; exact r7
                · show x1.data = _
                  rw [hd, hread pl hpl, r8, ← List.cons_append, content_append]; simp [content]

/-! ## Lifting to histories -/

/-- Invariant of an endpoint with address `eid` after the events `evs`. -/
structure EpInv (eid : Byte) (evs : List Event) (c : Core β) : Prop where
  noBridge : c.bridge = false
  eids     : c.busses.map Bus.eid = [eid]
  tbl      : TblInv (Local eid) evs c.ctxs

/-- What delivering a packet buffer does to the contexts (endpoint). -/
theorem busRx_endpoint {ops : Ops β} {c c' : Core β} {i : Nat} {pkt : Pktbuf} {bs : List Byte}
    {e : List Event} {eid : Byte} (hnb : c.bridge = false) (heid : c.busses.map Bus.eid = [eid])
    (hp : PktIs pkt bs) (h : c.busRx ops i pkt = .ok (c', e)) :
    ∃ bus, i = 0 ∧ bus.eid = eid ∧ c.busAt 0 = .ok bus ∧
     ((parse bs = none ∧ e = [.recv i bs] ∧ ∃ m, c' = { c with mem := m }) ∨
      (∃ f, parse bs = some f ∧
        ((¬ Local eid f.dest ∧ e = .recv i bs :: capIn c bs ∧ ∃ m, c' = { c with mem := m }) ∨
         (Local eid f.dest ∧ f.single = true ∧
            e = .recv i bs :: (capIn c bs ++
                  routeEvents c i bus f.src f.tagOwner (BitVec.ofNat 8 f.tag) f.payload) ∧
            ∃ m, c' = { c with mem := m }) ∨
         (Local eid f.dest ∧ f.single = false ∧ ∃ m1 m2 t out,
            ctxRx c.mem c.ctxs c.maxSize pkt f.src f.dest (BitVec.ofNat 8 f.tag)
              (BitVec.ofNat 8 f.seq) f.som f.eom = .ok (m1, t, out) ∧
            m1.free (some pkt.id) = .ok m2 ∧
            c' = { c with mem := m2, ctxs := t } ∧
            e = .recv i bs :: (capIn c bs ++
              match out with
              | none => []
              | some msg => routeEvents c i bus f.src f.tagOwner (BitVec.ofNat 8 f.tag) msg))))) := by
  obtain ⟨bus, hbus, h⟩ := busRx_cases hp h
  have hbe : i = 0 ∧ bus.eid = eid := by
    have h1 := (busAt_ok hbus).2.1
    have h2 : (c.busses.map Bus.eid)[i]? = some bus.eid := by simp [h1]
    rw [heid] at h2
    have h3 := (List.getElem?_eq_some_iff.mp h2).1
    simp at h3
    subst h3
    simp at h2
    exact ⟨rfl, h2.symm⟩
  obtain ⟨rfl, hbe⟩ := hbe
  refine ⟨bus, rfl, hbe, hbus, ?_⟩
  rcases h with ⟨h1, h2, m, -, h3⟩ | ⟨f, c1, e1, m, h1, h2, h3, h4, h5⟩
  · exact .inl ⟨h1, h2, m, h3⟩
  · right
    refine ⟨f, h1, ?_⟩
    rw [busRxBody_parse ops _ 0 bus hp h1] at h2
    have hcond : (c.bridge = false ∧ ¬ Local bus.eid f.dest) ↔
        ¬ Local eid f.dest := by simp [hnb, hbe]
    split at h2
    · rename_i hl
      rw [hcond] at hl
      simp only [Except.ok.injEq, Prod.mk.injEq] at h2
      obtain ⟨rfl, rfl⟩ := h2
      exact .inl ⟨hl, by rw [h5]; simp [capIn], m, h4⟩
    · rename_i hl
      rw [hcond] at hl
      have hl : Local eid f.dest := Decidable.not_not.mp hl
      have hld : destIsLocal bus.eid f.dest = true := by rw [hbe]; exact (destIsLocal_iff _ _).mpr hl
      split at h2
      · rename_i hsg
        rw [rx_endpoint ops (by exact hnb), hld] at h2
        simp only [if_true, Except.ok.injEq, Prod.mk.injEq] at h2
        obtain ⟨rfl, rfl⟩ := h2
        exact .inr (.inl ⟨hl, hsg, by rw [h5], m, h4⟩)
      · rename_i hsg
        refine .inr (.inr ⟨hl, by simpa using hsg, ?_⟩)
        unfold Core.rxFrag at h2
        obtain ⟨⟨m1, t, out⟩, hc, h2⟩ := Res.bind_eq_ok.mp h2
        simp only at h2 hc
        cases out with
        | none =>
          simp only [Except.ok.injEq, Prod.mk.injEq] at h2
          obtain ⟨rfl, rfl⟩ := h2
          exact ⟨m1, m, t, none, hc, h3, h4, by rw [h5]⟩
        | some msg =>
          simp only at h2
          rw [rx_endpoint ops (by exact hnb), hld] at h2
          simp only [if_true, Except.ok.injEq, Prod.mk.injEq] at h2
          obtain ⟨rfl, rfl⟩ := h2
          exact ⟨m1, m, t, some msg, hc, h3, h4, by rw [h5]; rfl⟩

/-- What receiving one packet does to the contexts (endpoint). -/
theorem rxPacket_endpoint {ops : Ops β} {c c' : Core β} {i : Nat} {bs : List Byte} {e : List Event}
    {eid : Byte} (hnb : c.bridge = false) (heid : c.busses.map Bus.eid = [eid])
    (h : c.rxPacket ops i bs = .ok (c', e)) :
    (∃ bus m, c.busAt i = .ok bus ∧
      (c.mem.alloc.1 = none ∨
        bus.binding.pktSize + bus.binding.pktHeader + bus.binding.pktTrailer < bs.length) ∧
      c' = { c with mem := m } ∧ e = []) ∨
    (∃ bus m0 pkt, i = 0 ∧ bus.eid = eid ∧ c.busAt 0 = .ok bus ∧ c.mem.alloc = (some pkt.id, m0) ∧
      PktIs pkt bs ∧
     ((parse bs = none ∧ e = [.recv i bs] ∧ ∃ m, c' = { c with mem := m }) ∨
      (∃ f, parse bs = some f ∧
        ((¬ Local eid f.dest ∧ e = .recv i bs :: capIn c bs ∧ ∃ m, c' = { c with mem := m }) ∨
         (Local eid f.dest ∧ f.single = true ∧
            e = .recv i bs :: (capIn c bs ++
                  routeEvents c i bus f.src f.tagOwner (BitVec.ofNat 8 f.tag) f.payload) ∧
            ∃ m, c' = { c with mem := m }) ∨
         (Local eid f.dest ∧ f.single = false ∧ ∃ m1 m2 t out,
            ctxRx m0 c.ctxs c.maxSize pkt f.src f.dest (BitVec.ofNat 8 f.tag)
              (BitVec.ofNat 8 f.seq) f.som f.eom = .ok (m1, t, out) ∧
            m1.free (some pkt.id) = .ok m2 ∧
            c' = { c with mem := m2, ctxs := t } ∧
            e = .recv i bs :: (capIn c bs ++
              match out with
              | none => []
              | some msg => routeEvents c i bus f.src f.tagOwner (BitVec.ofNat 8 f.tag) msg)))))) := by
  rcases rxPacket_cases h with ⟨bus, m, hb, h0, h1, h2⟩ | ⟨bus, m0, pkt, hbus, ha, hp, h⟩
  · exact .inl ⟨bus, m, hb, h0, h1, h2⟩
  right
  obtain ⟨bus', rfl, hbe, hbus', hh⟩ := busRx_endpoint (eid := eid) (by exact hnb) (by exact heid) hp h
  have : bus' = bus := by
    have h1 := (busAt_ok hbus).2.1
    have h2 := (busAt_ok hbus').2.1
    simp only at h2
    rw [h1] at h2; simpa using h2.symm
  subst this
  exact ⟨bus', m0, pkt, rfl, hbe, hbus, ha, hp, hh⟩

theorem capIn_noRecv (c : Core β) (bs : List Byte) : ∀ j p, Event.recv j p ∉ capIn c bs := by
  intro j p; unfold capIn; split <;> simp

theorem routeEvents_noRecv (c : Core β) (i : Nat) (bus : Bus β) (s : Byte) (to : Bool) (g : Byte)
    (msg : List Byte) : ∀ j p, Event.recv j p ∉ routeEvents c i bus s to g msg := by
  intro j p; unfold routeEvents; repeat' split
  all_goals simp

theorem routeEvents_delivered (c : Core β) (i : Nat) (bus : Bus β) (s : Byte) (to : Bool) (g : Byte)
    (msg : List Byte) : ∀ ev ∈ routeEvents c i bus s to g msg, delivered ev = some (s, msg) := by
  intro ev; unfold routeEvents; repeat' split
  all_goals simp
  all_goals rintro rfl; rfl

theorem capIn_delivered (c : Core β) (bs : List Byte) : ∀ ev ∈ capIn c bs, delivered ev = none := by
  intro ev; unfold capIn; split <;> simp
  rintro rfl; rfl

/-- Delivering a packet buffer preserves the endpoint invariant. -/
theorem busRx_epInv {ops : Ops β} {c c' : Core β} {eid : Byte} {evs e : List Event} {i : Nat}
    {pkt : Pktbuf} {bs : List Byte} (hi : EpInv eid evs c) (hp : PktIs pkt bs)
    (h : c.busRx ops i pkt = .ok (c', e)) : EpInv eid (evs ++ e) c' := by
  obtain ⟨h1, h2, h3⟩ := hi
  obtain ⟨bus, rfl, hbe, hbus, hh⟩ := busRx_endpoint h1 h2 hp h
  rcases hh with ⟨hpn, rfl, m, rfl⟩ | ⟨f, hf, hh⟩
  · refine ⟨h1, h2, h3.len, h3.uniq, h3.locd, fun j x hx hx0 => ?_⟩
    rw [stream_append_none hpn]; exact h3.run j x hx hx0
  · rcases hh with ⟨hl, rfl, m, rfl⟩ | ⟨hl, hsg, rfl, m, rfl⟩ | ⟨hl, hsg, m1, m2, t, out, hc, -, rfl, rfl⟩
    · refine ⟨h1, h2, ?_⟩
      rw [show evs ++ Event.recv 0 bs :: capIn c bs = (evs ++ [.recv 0 bs]) ++ capIn c bs by simp]
      refine TblInv.other ?_ (capIn_noRecv c bs)
      cases hsg : f.single with
      | true =>
        refine ⟨h3.len, h3.uniq, h3.locd, fun j x hx hx0 => ?_⟩
        rw [stream_append_single hf hsg]; exact h3.run j x hx hx0
      | false =>
        refine h3.skip hf hsg ?_
        intro j x hx hx0 hk
        have := h3.locd j x hx hx0
        have hd : x.dest = f.dest := congrArg Key.dest hk
        rw [hd] at this; exact hl this
    · refine ⟨h1, h2, ?_⟩
      rw [show ∀ z, evs ++ Event.recv 0 bs :: z = (evs ++ [.recv 0 bs]) ++ z by simp]
      refine TblInv.other ?_ ?_
      · refine ⟨h3.len, h3.uniq, h3.locd, fun j x hx hx0 => ?_⟩
        rw [stream_append_single hf hsg]; exact h3.run j x hx hx0
      · intro j p hm
        rcases List.mem_append.mp hm with hm | hm
        · exact capIn_noRecv _ _ _ _ hm
        · exact routeEvents_noRecv _ _ _ _ _ _ _ _ _ hm
    · refine ⟨h1, h2, ?_⟩
      rw [show ∀ z, evs ++ Event.recv 0 bs :: z = (evs ++ [.recv 0 bs]) ++ z by simp]
      refine TblInv.other (ctxRx_inv h3 hf hsg hl hp hc).1 ?_
      intro j p hm
      rcases List.mem_append.mp hm with hm | hm
      · exact capIn_noRecv _ _ _ _ hm
      · cases out with
        | none => cases hm
        | some msg => exact routeEvents_noRecv _ _ _ _ _ _ _ _ _ hm

/-- One API call preserves the endpoint invariant. -/
theorem step_epInv {ops : Ops β} {c c' : Core β} {eid : Byte} {evs e : List Event} {op : Op β}
    {rc : Int} (hi : EpInv eid evs c) (h : c.step ops op = .ok (c', e, rc)) :
    EpInv eid (evs ++ e) c' := by
  obtain ⟨h1, h2, h3⟩ := hi
  have frame : ∀ (m : Mem) (bs : List (Bus β)) (hr hc : Bool) (mx : Nat) (e : List Event),
      bs.map Bus.eid = c.busses.map Bus.eid → (∀ j p, Event.recv j p ∉ e) →
      EpInv eid (evs ++ e) { c with mem := m, busses := bs, hasRx := hr, hasCapture := hc, maxSize := mx } :=
    fun m bs _ _ _ e hb he => ⟨h1, by simpa [hb] using h2, h3.other he⟩
  cases op with
  | recv i bs =>
    simp only [Core.step] at h
    obtain ⟨⟨c1, e1⟩, hrx, h⟩ := Res.bind_eq_ok.mp h
    simp only [Except.ok.injEq, Prod.mk.injEq] at h
    obtain ⟨rfl, rfl, -⟩ := h
    rcases rxPacket_cases hrx with ⟨_, m, _, _, rfl, rfl⟩ | ⟨bus, m0, pkt, hbus, ha, hp, hh⟩
    · exact frame m _ _ _ _ [] rfl (by simp)
    · exact busRx_epInv (c := { c with mem := m0 }) ⟨h1, h2, h3⟩ hp hh
  | send d to g msg =>
    simp only [Core.step, Core.messageTx] at h
    split at h
    · simp only [Except.ok.injEq, Prod.mk.injEq] at h
      obtain ⟨rfl, rfl, -⟩ := h
      exact frame c.mem _ _ _ _ [] rfl (by simp)
    · split at h
      · simp only [Except.ok.injEq, Prod.mk.injEq] at h
        obtain ⟨rfl, rfl, -⟩ := h
        exact frame c.mem _ _ _ _ [] rfl (by simp)
      · obtain ⟨bus, hbus, h⟩ := Res.bind_eq_ok.mp h
        obtain ⟨he, m, bs, rfl, hb⟩ := messageTxOnBus_ok h
        exact frame m bs _ _ _ e hb fun j p hm => he _ hm
  | enable i on =>
    simp only [Core.step, Core.setTxEnabled] at h
    obtain ⟨⟨c1, e1⟩, hs, h⟩ := Res.bind_eq_ok.mp h
    simp only [Except.ok.injEq, Prod.mk.injEq] at h
    obtain ⟨rfl, rfl, -⟩ := h
    obtain ⟨bus, hbus, hs⟩ := Res.bind_eq_ok.mp hs
    have hset : ∀ st, (c.busses.set i { bus with state := st }).map Bus.eid = c.busses.map Bus.eid :=
      fun st => map_set_eq (busAt_ok hbus).2.1 rfl
    split at hs
    · split at hs
      · simp only [Except.ok.injEq, Prod.mk.injEq] at hs
        obtain ⟨rfl, rfl⟩ := hs
        exact frame c.mem _ _ _ _ [] rfl (by simp)
      · split at hs
        · simp only [Except.ok.injEq, Prod.mk.injEq] at hs
          obtain ⟨rfl, rfl⟩ := hs
          exact frame c.mem _ _ _ _ [] rfl (by simp)
        · simp only [Except.ok.injEq, Prod.mk.injEq] at hs
          obtain ⟨rfl, rfl⟩ := hs
          exact frame c.mem _ _ _ _ [] (hset _) (by simp)
    · split at hs
      · simp only [Except.ok.injEq, Prod.mk.injEq] at hs
        obtain ⟨rfl, rfl⟩ := hs
        exact frame c.mem _ _ _ _ [] rfl (by simp)
      · simp only [Except.ok.injEq, Prod.mk.injEq] at hs
        obtain ⟨rfl, rfl⟩ := hs
        exact frame c.mem _ _ _ _ [] (hset _) (by simp)
    · split at hs
      · simp only [Except.ok.injEq, Prod.mk.injEq] at hs
        obtain ⟨rfl, rfl⟩ := hs
        exact frame c.mem _ _ _ _ [] rfl (by simp)
      · obtain ⟨he, m, bs, rfl, hb⟩ := sendTxQueue_ok hs
        exact frame m bs _ _ _ _ (hb.trans (hset _)) fun j p hm => he _ hm
  | setMax n =>
    simp only [Core.step, Except.ok.injEq, Prod.mk.injEq] at h
    obtain ⟨rfl, rfl, -⟩ := h
    exact frame c.mem _ _ _ _ [] rfl (by simp)
  | setCapture n =>
    simp only [Core.step, Except.ok.injEq, Prod.mk.injEq] at h
    obtain ⟨rfl, rfl, -⟩ := h
    exact frame c.mem _ _ _ _ [] rfl (by simp)
  | setRx n =>
    simp only [Core.step, Except.ok.injEq, Prod.mk.injEq] at h
    obtain ⟨rfl, rfl, -⟩ := h
    exact frame c.mem _ _ _ _ [] rfl (by simp)
  | rebind i st ps ph pt cr =>
    simp only [Core.step] at h
    obtain ⟨bus, hbus, h⟩ := Res.bind_eq_ok.mp h
    simp only [Except.ok.injEq, Prod.mk.injEq] at h
    obtain ⟨rfl, rfl, -⟩ := h
    exact frame c.mem _ _ _ _ [] (map_set_eq (busAt_ok hbus).2.1 rfl) (by simp)

theorem run_epInv {ops : Ops β} {hist : List (Op β)} {c c' : Core β} {eid : Byte} {evs : List Event}
    {log : List (Rec β)} (hi : EpInv eid evs c) (h : c.run ops hist = .ok (c', log)) :
    EpInv eid (evs ++ events log) c' := by
  induction hist generalizing c evs log with
  | nil =>
    simp only [Core.run, Except.ok.injEq, Prod.mk.injEq] at h
    obtain ⟨rfl, rfl⟩ := h; simpa [events] using hi
  | cons op rest ih =>
    simp only [Core.run] at h
    obtain ⟨⟨c1, e, rc⟩, hs, h⟩ := Res.bind_eq_ok.mp h
    obtain ⟨⟨c2, log2⟩, hr, h⟩ := Res.bind_eq_ok.mp h
    simp only [Except.ok.injEq, Prod.mk.injEq] at h
    obtain ⟨rfl, rfl⟩ := h
    have := ih (step_epInv hi hs) hr
    simpa [events] using this

end Mctp
