import Verif.Proofs.AstMicro

/-!
# What an astlpc endpoint delivers is what the ideal reassembler delivers for the packets it received
-/

namespace Mctp

open Spec

variable {E : Type}

theorem ctxRx_ctxOk {m m' : Mem} {t t' : List Ctx} {mx : Nat} {pkt : Pktbuf} {bs : List Byte} {f : Frag} {s d g q : Byte}
    {som eom : Bool} {out : Option (List Byte)} (ha : AllOk m) (hp : PktIs pkt bs) (hf : parse bs = some f)
    (ht : ∀ x ∈ t, CtxOk x) (h : ctxRx m t mx pkt s d g q som eom = .ok (m', t', out)) : ∀ x ∈ t', CtxOk x := by
  have hadd : ∀ x x1 m1 ok, CtxOk x → ctxAddPkt m x pkt mx = .ok (m1, x1, ok) → CtxOk x1 :=
    fun x x1 m1 ok hx h1 => (addOk ha hp hf hx h1).2.2
  have hset : ∀ k (y : Ctx), CtxOk y → ∀ z ∈ t.set k y, CtxOk z := by
    intro k y hy z hz
    rcases mem_set_cases hz with hz | rfl
    · exact ht z hz
    · exact hy
  unfold ctxRx at h
  split at h
  · split at h
    · simp only [Except.ok.injEq, Prod.mk.injEq] at h
      obtain ⟨_, rfl, _⟩ := h; exact ht
    · rename_i k y hsl
      have hy : CtxOk y := by
        unfold somSlot at hsl
        split at hsl
        · cases hx : t[‹Nat›]? with
          | none => rw [hx] at hsl; cases hsl
          | some x =>
            rw [hx] at hsl
            simp only [Option.map_some, Option.some.injEq, Prod.mk.injEq] at hsl
            obtain ⟨_, rfl⟩ := hsl
            exact ⟨Nat.zero_le _, (ht x (List.mem_of_getElem? hx)).null⟩
        · split at hsl
          · cases hsl
          · cases hx : t[‹Nat›]? with
            | none => rw [hx] at hsl; cases hsl
            | some x =>
              rw [hx] at hsl
              simp only [Option.map_some, Option.some.injEq, Prod.mk.injEq] at hsl
              obtain ⟨_, rfl⟩ := hsl
              exact ⟨Nat.zero_le _, (ht x (List.mem_of_getElem? hx)).null⟩
      obtain ⟨⟨m1, x1, ok⟩, h1, h⟩ := Res.bind_eq_ok.mp h
      simp only [Except.ok.injEq, Prod.mk.injEq] at h
      obtain ⟨_, rfl, _⟩ := h
      have := hadd y x1 m1 ok hy h1
      refine hset _ _ ?_
      split <;> exact ⟨this.fits, this.null⟩
  · split at h
    · simp only [Except.ok.injEq, Prod.mk.injEq] at h
      obtain ⟨_, rfl, _⟩ := h; exact ht
    · split at h
      · cases h
      · rename_i k _ x hx
        have hxA := ht x (List.mem_of_getElem? hx)
        split at h
        · simp only [Except.ok.injEq, Prod.mk.injEq] at h
          obtain ⟨_, rfl, _⟩ := h; exact hset _ _ ⟨hxA.fits, hxA.null⟩
        · by_cases hfl : (if eom then pkt.len > x.fragSize else pkt.len ≠ x.fragSize)
          · rw [if_pos hfl] at h
            simp only [Except.ok.injEq, Prod.mk.injEq] at h
            obtain ⟨_, rfl, _⟩ := h; exact hset _ _ ⟨hxA.fits, hxA.null⟩
          · rw [if_neg hfl] at h
            obtain ⟨⟨m1, x1, ok⟩, h1, h⟩ := Res.bind_eq_ok.mp h
            have := hadd x x1 m1 ok hxA h1
            simp only at h
            split at h
            · simp only [Except.ok.injEq, Prod.mk.injEq] at h
              obtain ⟨_, rfl, _⟩ := h
              exact hset _ _ ⟨this.fits, this.null⟩
            · simp only [Except.ok.injEq, Prod.mk.injEq] at h
              obtain ⟨_, rfl, _⟩ := h
              refine hset _ _ ?_
              split <;> exact ⟨this.fits, this.null⟩

/-- What is kept about a receiving endpoint (allocations succeed). -/
structure RecvInv (eid : Byte) (mx : Nat) (A : Nat → Prop) (evs : List Event) (c : Core (AstSt E)) : Prop where
  ep   : EpInv eid evs c
  mem  : AllOk c.mem
  ctx  : ∀ x ∈ c.ctxs, CtxOk x
  cfg  : RxCfg mx A c
  bus  : ∃ bus, c.busses = [bus] ∧ bus.eid = eid ∧ bus.binding.controlRx = false

/-- Calls that transmit only. -/
theorem RecvInv.tx {eid : Byte} {mx : Nat} {A : Nat → Prop} {evs e : List Event} {c c' : Core (AstSt E)} (h : RecvInv eid mx A evs c)
    (hev : ∀ x ∈ e, IsTxEvent x) (hmem : c'.mem.ok = c.mem.ok) (hc : c'.ctxs = c.ctxs) (hbr : c'.bridge = c.bridge)
    (hrx : c'.hasRx = c.hasRx) (hmx : c'.maxSize = c.maxSize)
    (hbus : ∃ bus, c'.busses = [bus] ∧ bus.eid = eid ∧ bus.binding.controlRx = false) {lim : Nat → Bool → Prop} :
    RecvInv eid mx A (evs ++ e) c' ∧ Explains lim eid c c' e := by
  obtain ⟨bus, hb, he, hcr⟩ := hbus
  have hpk := packetsIn_isTx hev
  refine ⟨⟨⟨hbr.trans h.ep.noBridge, by rw [hb]; simp [he], ?_⟩, fun n => by rw [hmem]; exact h.mem n, by rw [hc]; exact h.ctx,
    ⟨hrx.trans h.cfg.rx, hmx.trans h.cfg.max, by rw [hc]; exact h.cfg.all⟩, bus, hb, he, hcr⟩, .none hc hpk ?_⟩
  · rw [hc]
    refine h.ep.tbl.other ?_
    intro j q hx
    have := hev _ hx
    simp [IsTxEvent] at this
  · rw [List.filter_eq_nil_iff]
    intro x hx
    have := hev x hx
    cases x <;> simp_all [IsTxEvent, isDel, delivered]

theorem Chunk.recv {hw : Hw E} {c c' : Core (AstSt E)} {e : List Event} (h : Chunk hw c e c') {eid : Byte} {mx : Nat}
    {A P : Nat → Prop} {lim : Nat → Bool → Prop} (hpol : Pol mx A P lim) (hP : ∀ p ∈ packetsIn e, P (p.length - 4)) :
    ∀ {evs : List Event}, RecvInv eid mx A evs c → RecvInv eid mx A (evs ++ e) c' ∧ Explains lim eid c c' e := by
  induction h with
  | @quiet c bus0 b m hb hk hm =>
    intro evs h
    obtain ⟨bus, hb', he, hcr⟩ := h.bus
    rw [hb] at hb'; simp only [List.cons.injEq, and_true] at hb'; subst hb'
    exact h.tx (c' := { c with mem := m, busses := [{ bus0 with binding := b }] }) (e := []) (by simp) hm rfl rfl rfl rfl
      ⟨_, rfl, he, hk.2.trans hcr⟩
  | @enable c c' e on he =>
    intro evs h
    obtain ⟨bus, hb, hbe, hcr⟩ := h.bus
    have hs := (Chunk.enable he).single hb h.ep.noBridge
    obtain ⟨h1, h2, h3, h4, bus', hb', h5, h6⟩ := hs
    have hev := setTxEnabled_events he
    obtain ⟨_, m, rfl, -⟩ := setTxEnabled_keeps (any_keeps _) hb (os := []) trivial (fun _ => trivial) he
    exact h.tx hev h4 rfl rfl rfl rfl ⟨bus', hb', h5.trans hbe, h6.2.trans hcr⟩
  | @rx c c' e pkt bs hp hx =>
    intro evs h
    obtain ⟨bus, hb, hbe, hcr⟩ := h.bus
    have hep1 := busRx_epInv h.ep hp hx
    obtain ⟨g1, g2, g3, g4⟩ := PktStep_weak hpol h.ep h.mem h.ctx h.cfg.rx h.cfg.max h.cfg.all hep1.tbl (hP _ (by rw [packetsIn_busRx h.ep.noBridge h.ep.eids hp hx]; simp)) hp hx
    have hm := busRx_memOk hx
    obtain ⟨s1, -, -, -⟩ := busRx_single hb h.ep.noBridge hp hx
    have hctx : ∀ x ∈ c'.ctxs, CtxOk x := by
      obtain ⟨_, -, -, -, hh⟩ := busRx_endpoint h.ep.noBridge h.ep.eids hp hx
      rcases hh with ⟨hpn, rfl, m, rfl⟩ | ⟨f, hf, hh⟩
      · exact h.ctx
      · rcases hh with ⟨hl, rfl, m, rfl⟩ | ⟨hl, hsg, rfl, m, rfl⟩ | ⟨hl, hsg, m1, m2, t, out, hc, -, rfl, rfl⟩
        · exact h.ctx
        · exact h.ctx
        · exact ctxRx_ctxOk h.mem hp hf h.ctx hc
    refine ⟨⟨hep1, fun n => by rw [hm]; exact h.mem n, hctx, ⟨g2, g3, g4⟩, bus, s1.trans hb, hbe, hcr⟩, [(bs, deliveries e)], ?_, ⟨_, g1, rfl⟩, ?_⟩
    · rw [packetsIn_busRx h.ep.noBridge h.ep.eids hp hx]; rfl
    · rw [busRx_evOf h.ep.noBridge hb hbe hcr h.cfg.rx hp hx]; simp
  | trans _ _ ih1 ih2 =>
    intro evs h
    obtain ⟨a1, a2⟩ := ih1 (fun p hp => hP p (by rw [packetsIn_append]; exact List.mem_append_left _ hp)) h
    obtain ⟨b1, b2⟩ := ih2 (fun p hp => hP p (by rw [packetsIn_append]; exact List.mem_append_right _ hp)) a1
    exact ⟨by rw [← List.append_assoc]; exact b1, a2.trans b2⟩

end Mctp
