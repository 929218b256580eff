import Verif.Proofs.Reentrant3

/-!
# A message of several packets, in the callback for which packets of other streams are received
-/

namespace Mctp

open Spec

variable {β S : Type}

/-- Appending again, to a context that has the storage already. -/
theorem ctxAddPkt_again {m m1 : Mem} {x x' : Ctx} {pkt : Pktbuf} {mx : Nat} (h : ctxAddPkt m x pkt mx = .ok (m1, x', true)) :
    ∃ b, x'.buf = some b ∧ x'.src = x.src ∧ x'.dest = x.dest ∧ x'.tag = x.tag ∧ x.data.length ≤ x'.allocSize ∧
      ∀ m2 : Mem, m2.deref (some b) = .ok () →
        ctxAddPkt m2 { x with buf := x'.buf, allocSize := x'.allocSize } pkt mx = .ok (m2, x', true) := by
  unfold ctxAddPkt at h
  simp only at h
  split at h
  · simp at h
  · rename_i h0
    have fin : ∀ {mm : Mem} {b n : Option Nat × Nat} {y : Ctx}, ctxAppend mm { x with buf := b.1, allocSize := b.2 } pkt (pkt.len - hdrSize) = .ok y →
        ∃ b', y.buf = some b' ∧ y.src = x.src ∧ y.dest = x.dest ∧ y.tag = x.tag ∧ x.data.length ≤ y.allocSize ∧
        ∀ m2 : Mem, m2.deref (some b') = .ok () →
          ctxAddPkt m2 { x with buf := y.buf, allocSize := y.allocSize } pkt mx = .ok (m2, y, true) := by
      intro mm b n y hy
      unfold ctxAppend at hy
      split at hy
      · cases hy
      · rename_i pl hpl
        simp only at hy
        split at hy
        · cases hy
        · rename_i hd
          split at hy
          · rename_i hle
            simp only [Except.ok.injEq] at hy
            subst hy
            obtain ⟨b', hb'⟩ : ∃ b', b.1 = some b' := by
              cases hb : b.1 with
              | none => rw [hb] at hd; simp [Mem.deref] at hd
              | some b' => exact ⟨b', rfl⟩
            refine ⟨b', hb', rfl, rfl, rfl, by simp only; omega, fun m2 h2 => ?_⟩
            unfold ctxAddPkt
            simp only
            rw [if_neg h0, if_neg (by omega)]
            unfold ctxAppend
            rw [hpl]
            simp only [hb', h2]
            rw [if_pos hle]
          · cases hy
    split at h
    · split at h
      · simp at h
      · split at h
        · cases h
        · rename_i b mm _
          split at h
          · cases h
          · rename_i y hy
            simp only [Except.ok.injEq, Prod.mk.injEq, and_true] at h
            obtain ⟨-, rfl⟩ := h
            exact fin (b := (some b, _)) (n := (none, 0)) hy
        · split at h
          · cases h
          · simp at h
    · split at h
      · cases h
      · rename_i y hy
        simp only [Except.ok.injEq, Prod.mk.injEq, and_true] at h
        obtain ⟨-, rfl⟩ := h
        exact fin (b := (x.buf, x.allocSize)) (n := (none, 0)) hy

theorem ctxRx_some {m m1 : Mem} {t t1 : List Ctx} {mx : Nat} {pkt : Pktbuf} {s d g q : Byte} {som eom : Bool} {msg : List Byte}
    (h : ctxRx m t mx pkt s d g q som eom = .ok (m1, t1, some msg)) :
    som = false ∧ eom = true ∧ ∃ k x x', ctxLookup t s d g = some k ∧ t[k]? = some x ∧
      BitVec.ofNat 8 ((x.lastSeq.toNat + 1) % 4) = q ∧ ¬ pkt.len > x.fragSize ∧ ctxAddPkt m x pkt mx = .ok (m1, x', true) ∧
      t1 = t.set k x'.drop ∧ msg = x'.data := by
  unfold ctxRx at h
  split at h
  · split at h
    · simp at h
    · obtain ⟨⟨m2, x', ok⟩, _, h⟩ := Res.bind_eq_ok.mp h
      simp at h
  · rename_i hs
    refine ⟨by simpa using hs, ?_⟩
    split at h
    · simp at h
    · rename_i k hk
      split at h
      · cases h
      · rename_i x hx
        split at h
        · simp at h
        · rename_i hq
          by_cases hl : (if eom then pkt.len > x.fragSize else pkt.len ≠ x.fragSize)
          · rw [if_pos hl] at h
            simp at h
          · rw [if_neg hl] at h
            obtain ⟨⟨m2, x', ok⟩, ha, h⟩ := Res.bind_eq_ok.mp h
            cases eom with
            | false => simp at h
            | true =>
              cases ok with
              | false => simp at h
              | true =>
                simp only [if_true, Except.ok.injEq, Prod.mk.injEq, Option.some.injEq] at h hl
                obtain ⟨rfl, rfl, rfl⟩ := h
                exact ⟨rfl, k, x, x', hk, hx, by simpa using hq, hl, ha, rfl, rfl⟩

theorem ctxRx_again {m m1 : Mem} {t : List Ctx} {mx : Nat} {pkt : Pktbuf} {s d g q : Byte} {k : Nat} {y x' : Ctx}
    (hl : ctxLookup t s d g = some k) (hy : t[k]? = some y) (hq : BitVec.ofNat 8 ((y.lastSeq.toNat + 1) % 4) = q)
    (hlen : ¬ pkt.len > y.fragSize) (ha : ctxAddPkt m y pkt mx = .ok (m1, x', true)) :
    ctxRx m t mx pkt s d g q false true = .ok (m1, t.set k x'.drop, some x'.data) := by
  unfold ctxRx
  simp only [Bool.false_eq_true, if_false, hl, hy, if_true]
  rw [if_neg (by simpa using hq), if_neg hlen, ha]
  rfl

theorem lookup_uniq {t : List Ctx} {k : Nat} {y : Ctx} {s d g : Byte} (hu : Uniq t) (hy : t[k]? = some y) (hy0 : y.src ≠ 0)
    (h1 : y.src = s) (h2 : y.dest = d) (h3 : y.tag = g) : ctxLookup t s d g = some k := by
  cases hl : ctxLookup t s d g with
  | none =>
    unfold ctxLookup at hl
    rw [List.findIdx?_eq_none_iff] at hl
    have := hl y (List.mem_of_getElem? hy)
    simp [h1, h2, h3] at this
  | some j =>
    obtain ⟨x, hx, q1, q2, q3⟩ := lookup_lt hl
    have : j = k := hu j k x y hx hy (by rw [q1, ← h1]; exact hy0) (by simp only [keyOf]; rw [q1, q2, q3, h1, h2, h3])
    rw [this]

theorem prog_slot {x y : Ctx} (hk : keyOf y = keyOf x) (hab : absCtx y = absCtx x) (κ : Key) :
    ∀ {t : List Ctx} {k : Nat}, t[k]? = some x → (prog (t.set k y) κ).map absCtx = (prog t κ).map absCtx
  | [], _, h => by simp at h
  | z :: t, 0, h => by
    simp only [List.getElem?_cons_zero, Option.some.injEq] at h
    subst h
    unfold prog
    simp only [List.set_cons_zero, List.find?_cons, hk]
    split
    · simp [hab]
    · rfl
  | z :: t, k + 1, h => by
    simp only [List.getElem?_cons_succ] at h
    have ih := prog_slot hk hab κ h
    unfold prog at ih ⊢
    simp only [List.set_cons_succ, List.find?_cons]
    split
    · rfl
    · exact ih

/-- A context with other storage. -/
structure Same (x y : Ctx) : Prop where
  src  : y.src = x.src
  dest : y.dest = x.dest
  tag  : y.tag = x.tag
  seq  : y.lastSeq = x.lastSeq
  frag : y.fragSize = x.fragSize
  data : y.data = x.data

theorem TblInv.slot {loc : Byte → Prop} {evs : List Event} {t : List Ctx} (h : TblInv loc evs t) {k : Nat} {x y : Ctx}
    (hx : t[k]? = some x) (hs : Same x y) : TblInv loc evs (t.set k y) := by
  have hk : keyOf y = keyOf x := by simp only [keyOf, hs.src, hs.dest, hs.tag]
  have back : ∀ {j : Nat} {z : Ctx}, (t.set k y)[j]? = some z → ∃ z', t[j]? = some z' ∧ Same z' z := by
    intro j z hz
    rw [List.getElem?_set] at hz
    split at hz
    · rename_i hkj
      subst hkj
      split at hz
      · simp only [Option.some.injEq] at hz
        subst hz
        exact ⟨x, hx, hs⟩
      · cases hz
    · exact ⟨z, hz, ⟨rfl, rfl, rfl, rfl, rfl, rfl⟩⟩
  have key : ∀ {a b : Ctx}, Same a b → keyOf b = keyOf a := fun hs => by simp only [keyOf, hs.src, hs.dest, hs.tag]
  refine ⟨by rw [List.length_set]; exact h.len, ?_, ?_, ?_⟩
  · intro i j a b ha hb ha0 hab
    obtain ⟨a', ha', sa⟩ := back ha
    obtain ⟨b', hb', sb⟩ := back hb
    exact h.uniq i j a' b' ha' hb' (by rw [← sa.src]; exact ha0) (by rw [← key sa, ← key sb, hab])
  · intro j a ha ha0
    obtain ⟨a', ha', sa⟩ := back ha
    rw [sa.dest]
    exact h.locd j a' ha' (by rw [← sa.src]; exact ha0)
  · intro j a ha ha0
    obtain ⟨a', ha', sa⟩ := back ha
    rw [key sa]
    obtain ⟨b, st, mids, q1, q2, q3, q4, q5, q6, q7, q8, q9⟩ := h.run j a' ha' (by rw [← sa.src]; exact ha0)
    exact ⟨b, st, mids, q1, q2, q3, q4, q5, q6, by rw [sa.seq]; exact q7, by rw [sa.frag]; exact q8, by rw [sa.data]; exact q9⟩

theorem bodyH_eom {ops : Ops β} {app : App β S} {c : Core β} {s : S} {i : Nat} {bus : Bus β} {X : Pktbuf} {bs : List Byte} {f : Frag}
    (hp : PktIs X bs) (hf : parse bs = some f) (hl : Local bus.eid f.dest) (hsom : f.som = false) (heom : f.eom = true) :
    c.busRxBodyH ops app s i bus X = c.rxEomH ops app s i bus X f.src f.dest (BitVec.ofNat 8 f.tag) (BitVec.ofNat 8 f.seq) f.tagOwner := by
  obtain ⟨v, d, sr, g, hbs, hne, g1, g2, g3, g4, g5, g6, g7, -, -⟩ := parse_some hf
  subst hbs
  unfold Core.busRxBodyH
  have hr := hp.read 0 4 (by simp)
  simp only [Nat.add_zero, List.drop_zero, List.take_succ_cons, List.take_zero] at hr
  rw [show hdrSize = 4 from rfl, hr]
  simp only [Res.bind_ok]
  rw [g3, g4, g5, g6, g7, ← g1, ← g2, hsom, heom, (destIsLocal_iff _ _).mpr hl]
  simp only [Bool.not_true, Bool.and_false, Bool.false_eq_true, if_false]

theorem rxH_route {ops : Ops β} {app : App β S} {c : Core β} {st : S} {buf : Option Nat} {i : Nat} {bus : Bus β} {s d : Byte} {o : Bool}
    {g : Byte} {msg : List Byte} (hbr : c.bridge = false) (hrx : c.hasRx = true) (hl : Local bus.eid d) :
    ∃ ev, ev.isCallback = true ∧ (∀ c2 : Core β, c2.hasRx = true → routeEvents c2 i bus s o g msg = [ev]) ∧
      c.rxH ops app st buf i bus s d o g msg = (do
        let (c1, s1, e) ← c.callback ops buf (app st ev)
        .ok (c1, s1, ev :: e)) := by
  unfold Core.rxH
  rw [if_neg (by simp [hbr]), (destIsLocal_iff _ _).mpr hl, if_pos rfl]
  by_cases hct : ctrlHandled bus.binding.controlRx msg = true
  · rw [if_pos hct]
    exact ⟨_, rfl, fun c2 h2 => by unfold routeEvents; rw [if_pos hct], rfl⟩
  · rw [if_neg hct, if_pos hrx]
    exact ⟨_, rfl, fun c2 h2 => by unfold routeEvents; rw [if_neg hct, if_pos h2], rfl⟩

/-- The last packet of a message of several packets, in the callback for which only packets of other streams are received:
as if these packets had been received before it. -/
theorem busRxH_others {ops : Ops β} {K : Contract ops} {app : App β S} {eid : Byte} {mx size : Nat} {A : Nat → Prop} {lim : Nat → Bool → Prop}
    (hpol : Pol mx A (fun _ => True) lim) {base : List Nat} {evs : List Event} {c c1 : Core β} {s : S} {X : Pktbuf} {bs : List Byte} {f : Frag}
    {e1 : List Event} (hI : RefInv K eid mx A (X.id :: base) evs c) (hp : PktIs X bs) (hf : parse bs = some f) (hsg : f.single = false)
    (hsrc : f.src ≠ 0) (hr : c.busRx ops 0 X = .ok (c1, e1)) {ev : Event} (hev : ev ∈ e1) (hcb : ev.isCallback = true)
    (hfit : Fits size c) (hsc : (app s ev).Others f.key size) :
    ∃ c' s' log eC, c.busRxH ops app s 0 X = .ok (c', s', e1 ++ events log) ∧ (app s ev).Log log s' ∧
      RefInv K eid mx A base (evs ++ events log ++ eC) c' ∧ Fits size c' ∧ (∀ r ∈ log, OtherOp f.key size r.op) ∧ f.som = false ∧ f.eom = true ∧
      ∃ σ, Reasm lim eid (abs c.ctxs) (rxTrace log) σ ∧ PktStep lim eid σ bs (abs c'.ctxs) (deliveries e1) := by
  obtain ⟨_, _, _, _, _, hne, _, _, _, _, _, _, _, htag, _⟩ := parse_some hf
  have hlen : ¬ X.len ≤ hdrSize := by
    have hh : ¬ bs.length ≤ 4 := fun h => by rw [parse_none.mpr h] at hf; cases hf
    rw [hp.len]; exact hh
  obtain ⟨cf, ef, g1, gI, -⟩ := busRx_ref K hpol hI hp trivial
  rw [hr] at g1
  simp only [Except.ok.injEq, Prod.mk.injEq] at g1
  obtain ⟨rfl, rfl⟩ := g1
  have hbx : X.bytes = bs := hp.bytes
  obtain ⟨bus, -, hbe, hbus, hh⟩ := busRx_endpoint hI.ep.noBridge hI.ep.eids hp hr
  rcases hh with ⟨hpn, -, -⟩ | ⟨f', hf', hh⟩
  · rw [hf] at hpn; cases hpn
  rw [hf] at hf'
  simp only [Option.some.injEq] at hf'
  subst hf'
  have nocb : ∀ {ev}, ev ∈ Event.recv 0 bs :: capIn c bs → ev.isCallback = true → False := by
    intro ev h1 h2
    unfold capIn at h1
    split at h1 <;> simp only [List.mem_cons, List.mem_nil_iff, or_false] at h1
    · rcases h1 with rfl | rfl <;> cases h2
    · subst h1; cases h2
  rcases hh with ⟨-, rfl, -⟩ | ⟨-, hs, -⟩ | ⟨hl, -, m1, m2, t, out, hc, hfree, rfl, he⟩
  · exact (nocb hev hcb).elim
  · rw [hsg] at hs; cases hs
  cases out with
  | none =>
    simp only [List.append_nil] at he
    subst he
    exact (nocb hev hcb).elim
  | some msg =>
  obtain ⟨hsom, heom, k, x, x', hlk, hx, hq, hfs, ha, rfl, rfl⟩ := ctxRx_some hc
  obtain ⟨b, hb, a1, a2, a3, a4, again⟩ := ctxAddPkt_again ha
  obtain ⟨x2, hx2, k1, k2, k3⟩ := lookup_lt hlk
  rw [hx] at hx2
  simp only [Option.some.injEq] at hx2
  subst hx2
  have hk : k < c.ctxs.length := (List.getElem?_eq_some_iff.mp hx).1
  have hkey : keyOf x = f.key := (keyOf_eq_iff htag).mpr ⟨k1, k2, k3⟩
  have hl' : Local bus.eid f.dest := by rw [hbe]; exact hl
  -- the callback
  let y : Ctx := { x with buf := x'.buf, allocSize := x'.allocSize }
  have hsame : Same x y := ⟨rfl, rfl, rfl, rfl, rfl, rfl⟩
  have htw : Twin y x' := ⟨a1, a2, a3⟩
  have hy0 : y.src ≠ 0 := by show x.src ≠ 0; rw [k1]; exact hsrc
  let cB : Core β := { c with mem := m1, ctxs := c.ctxs.set k y }
  have hcAB : { c with mem := m1 }.setCtx k x' = cB.slot k x' := by
    simp only [Core.setCtx, Core.slot, cB, List.set_set]
  have hyk : cB.ctxs[k]? = some y := by simp [cB, List.getElem?_set, hk]
  have hbody : c.busRxBody ops 0 bus X = .ok ({ c with mem := m1, ctxs := c.ctxs.set k x'.drop },
      if destIsLocal bus.eid f.dest then routeEvents c 0 bus f.src f.tagOwner (BitVec.ofNat 8 f.tag) x'.data else []) := by
    rw [busRxBody_parse ops _ 0 bus hp hf, if_neg (by simp [hl']), if_neg (by simp [hsg])]
    unfold Core.rxFrag
    rw [hc]
    simp only [Res.bind_ok]
    rw [rx_endpoint ops (by exact hI.ep.noBridge)]
    rfl
  have hmB : MemInv K (X.id :: base) cB := by
    obtain ⟨cb, eb, h1, h2⟩ := busRxBody_total K hI.mem hp (by rw [← hp.len]; exact hlen) 0 bus
    rw [hbody] at h1
    simp only [Except.ok.injEq, Prod.mk.injEq] at h1
    obtain ⟨rfl, -⟩ := h1
    have hok : ∀ z ∈ c.ctxs.set k x'.drop, CtxOk z := h2.ctxs
    refine h2.setCtxs (t := c.ctxs.set k y) ?_ ?_
    · show ctxBufs (c.ctxs.set k y) = ctxBufs (c.ctxs.set k x'.drop)
      unfold ctxBufs
      have : ∀ (t : List Ctx) (k : Nat), (t.set k y).filterMap Ctx.buf = (t.set k x'.drop).filterMap Ctx.buf := by
        intro t
        induction t with
        | nil => intro k; cases k <;> rfl
        | cons z t ih =>
          intro k
          cases k with
          | zero => rfl
          | succ k => simp only [List.set_cons_succ, List.filterMap_cons, ih k]
      exact this _ _
    · intro z hz
      obtain ⟨n, hn⟩ := List.getElem?_of_mem hz
      rw [List.getElem?_set] at hn
      split at hn
      · simp only [Option.some.injEq] at hn
        subst hn
        exact ⟨a4, fun h => by simp only [y, hb] at h; cases h⟩
      · rename_i hne
        exact hok z (List.mem_of_getElem? (i := n) (by rw [List.getElem?_set, if_neg hne]; exact hn))
  have hIB : RefInv K eid mx A (X.id :: base) evs cB := by
    refine ⟨⟨hI.ep.noBridge, hI.ep.eids, hI.ep.tbl.slot hx hsame⟩, hmB, hI.rx, hI.max, ?_⟩
    intro z hz
    obtain ⟨n, hn⟩ := List.getElem?_of_mem hz
    simp only [cB, List.getElem?_set] at hn
    split at hn
    · simp only [Option.some.injEq] at hn
      subst hn
      exact gI.all x'.drop (List.mem_of_getElem? (i := k) (by simp [List.getElem?_set, hk]))
    · exact hI.all z (List.mem_of_getElem? hn)
  have habs : abs cB.ctxs = abs c.ctxs := by
    funext κ
    unfold abs
    rw [show prog cB.ctxs κ = prog (c.ctxs.set k y) κ from rfl, prog_slot (x := x) (y := y) rfl rfl κ hx]
  obtain ⟨ev', v1, v2, v3⟩ := rxH_route (ops := ops) (app := app) (c := { c with mem := m1 }.setCtx k x') (st := s) (buf := x'.buf) (i := 0) (bus := bus)
    (s := x'.src) (d := x'.dest) (o := f.tagOwner) (g := BitVec.ofNat 8 f.tag) (msg := x'.data) hI.ep.noBridge hI.rx
    (by rw [a2, k2]; exact hl')
  have he' : e1 = Event.recv 0 bs :: (capIn c bs ++ [ev']) := by
    rw [he, ← v2 c hI.rx, ← a1.trans k1]
  have hevv : ev = ev' := by
    rw [he'] at hev
    rw [← List.cons_append, List.mem_append] at hev
    rcases hev with h | h
    · exact (nocb h hcb).elim
    · simpa using h
  subst hevv
  have hde : deliveries e1 = [(f.src, x'.data)] := by
    rw [he, deliveries_recv, deliveries_append, deliveries_capIn, deliveries_route hI.rx]; rfl
  obtain ⟨cB', s', log, r1, r2, r3, r4, r5, r6, r7⟩ := callback_others hpol htw hy0 hb hIB hyk hfit (by rw [show keyOf y = f.key from hkey]; exact hsc)
  have hslot : (cB'.ctxs.set k x').modify k Ctx.drop = cB'.ctxs.set k x'.drop := set_modify
  -- the last packet, after these
  obtain ⟨cC, eC, w1, wI, wS⟩ := busRx_ref K hpol r3 hp trivial
  have hdb : cB'.mem.deref (some b) = .ok () := by
    refine r3.mem.owns.deref (List.mem_append.mpr (.inl ?_))
    exact List.mem_append.mpr (.inl (List.mem_filterMap.mpr ⟨y, List.mem_of_getElem? r4, hb⟩))
  have hcC : cC = { cB' with mem := cB'.mem.less X.id, ctxs := cB'.ctxs.set k x'.drop } ∧ deliveries eC = [(f.src, x'.data)] := by
    obtain ⟨bus2, -, hbe2, hbus2, hh⟩ := busRx_endpoint r3.ep.noBridge r3.ep.eids hp w1
    have hgo : ctxRx cB'.mem cB'.ctxs cB'.maxSize X f.src f.dest (BitVec.ofNat 8 f.tag) (BitVec.ofNat 8 f.seq) f.som f.eom =
        .ok (cB'.mem, cB'.ctxs.set k x'.drop, some x'.data) := by
      rw [hsom, heom]
      refine ctxRx_again (lookup_uniq r3.ep.tbl.uniq r4 hy0 k1 k2 k3) r4 hq hfs ?_
      rw [r3.max, ← hI.max]
      exact again _ hdb
    rcases hh with ⟨hpn, -, -⟩ | ⟨f', hf', hh⟩
    · rw [hf] at hpn; cases hpn
    rw [hf] at hf'
    simp only [Option.some.injEq] at hf'
    subst hf'
    rcases hh with ⟨h, -, -⟩ | ⟨-, hs, -⟩ | ⟨-, -, ma, mb, ta, out, hca, hfa, hcc, hee⟩
    · exact absurd hl h
    · rw [hsg] at hs; cases hs
    · rw [hgo] at hca
      simp only [Except.ok.injEq, Prod.mk.injEq] at hca
      obtain ⟨rfl, rfl, rfl⟩ := hca
      obtain ⟨q1, -⟩ := r3.mem.released
      rw [q1] at hfa
      simp only [Except.ok.injEq] at hfa
      subst hfa
      refine ⟨hcc, ?_⟩
      rw [hee, deliveries_recv, deliveries_append, deliveries_capIn, deliveries_route r3.rx]; rfl
  obtain ⟨hcC, hdC⟩ := hcC
  refine ⟨cC, s', log, eC, ?_, r2, wI, by rw [hcC]; exact r5, by rw [← hkey]; exact r7, hsom, heom, abs cB'.ctxs, by rw [← habs]; exact r6, by rw [hde, ← hdC]; exact wS⟩
  obtain ⟨q1, -⟩ := r3.mem.released
  unfold Core.busRxH
  have hd : c.mem.deref (some X.id) = .ok () := hI.mem.owns.deref (by simp)
  have hpos := hI.mem.pos
  rw [if_neg (by omega), hbus, hd]
  simp only [Res.bind_ok]
  rw [if_neg hlen, bodyH_eom hp hf hl' hsom heom]
  unfold Core.rxEomH
  simp only [hlk, hx, hq, ne_eq, not_true_eq_false, if_false, hfs, ha, Res.bind_ok, if_true]
  rw [v3, hcAB, hb, r1]
  simp only [Res.bind_ok, Core.slot, hslot, pktbufFree, q1]
  rw [hcC, he', hbx]
  simp [capIn]

theorem stepH_others {ops : Ops β} {K : Contract ops} {app : App β S} {eid : Byte} {mx size : Nat} {A : Nat → Prop} {lim : Nat → Bool → Prop}
    (hpol : Pol mx A (fun _ => True) lim) {base : List Nat} {evs : List Event} {c c1 : Core β} {s : S} {bs : List Byte} {f : Frag}
    {e1 : List Event} {rc : Int} (hI : RefInv K eid mx A base evs c) (hop : OpOk K c (.recv 0 bs)) (hf : parse bs = some f)
    (hsg : f.single = false) (hsrc : f.src ≠ 0) (hs : c.step ops (.recv 0 bs) = .ok (c1, e1, rc)) {ev : Event} (hev : ev ∈ e1)
    (hcb : ev.isCallback = true) (hfit : Fits size c) (hsc : (app s ev).Others f.key size) :
    ∃ c' s' log eC, c.stepH ops app s (.recv 0 bs) = .ok (c', s', e1 ++ events log, rc) ∧ (app s ev).Log log s' ∧
      RefInv K eid mx A base (evs ++ events log ++ eC) c' ∧ Fits size c' ∧ (∀ r ∈ log, OtherOp f.key size r.op) ∧ f.som = false ∧ f.eom = true ∧
      ∃ σ, Reasm lim eid (abs c.ctxs) (rxTrace log) σ ∧ PktStep lim eid σ bs (abs c'.ctxs) (deliveries e1) := by
  obtain ⟨bus, hget, hfits⟩ := hop
  obtain ⟨bus', hbus, hget', -⟩ := hI.mem.busAt (i := 0) hI.mem.pos
  have : bus' = bus := by rw [hget] at hget'; simpa using hget'.symm
  subst this
  obtain ⟨m1, h1, h2, h3⟩ := hI.mem.owns.alloc hI.mem.ok
  obtain ⟨p0, X, hpa, hwr, hpk, hXid⟩ := recvBuf (fill := c.fill) h1 (ph := bus'.binding.pktHeader) hfits
  have hI1 : RefInv K eid mx A (X.id :: base) evs ({ c with mem := m1 } : Core β) := hI.alloc (by rw [hXid]; exact h1)
  have hrx : c.rxPacket ops 0 bs = ({ c with mem := m1 } : Core β).busRx ops 0 X := by
    unfold Core.rxPacket
    rw [hbus]
    simp only [Res.bind_ok, hpa, hwr]
  have hrxH : c.rxPacketH ops app s 0 bs = ({ c with mem := m1 } : Core β).busRxH ops app s 0 X := by
    unfold Core.rxPacketH
    rw [hbus]
    simp only [Res.bind_ok, hpa, hwr]
  simp only [Core.step, hrx] at hs
  obtain ⟨⟨c2, e2⟩, hr, hs⟩ := Res.bind_eq_ok.mp hs
  simp only [Except.ok.injEq, Prod.mk.injEq] at hs
  obtain ⟨rfl, rfl, rfl⟩ := hs
  obtain ⟨c', s', log, eC, r1, r2, r3, r4, r5⟩ := busRxH_others hpol hI1 hpk hf hsg hsrc hr hev hcb hfit hsc
  exact ⟨c', s', log, eC, by simp only [Core.stepH, hrxH, r1, Res.bind_ok], r2, r3, r4, r5⟩

end Mctp
