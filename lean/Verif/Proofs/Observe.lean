import Verif.Proofs.TxSpec

/-! Relating the private state of a binding to the offers made to it. -/

namespace Mctp

open Spec

variable {β : Type}

/-- The relation `R` between a binding and the offers made to it so far is kept up by the transmit
function. -/
def Tracks {ops : Ops β} (K : Contract ops) (R : Binding β → List Offer → Prop) : Prop :=
  ∀ b p out os, K.I b → K.P p → R b os → ops.tx b p = .ok out →
    R { b with st := out.st } (os ++ [⟨p.bytes, out.rc, out.disableTx⟩])

theorem sendQueue_tracks {ops : Ops β} {K : Contract ops} {R : Binding β → List Offer → Prop}
    (hR : Tracks K R) {cap : Bool} {i : Nat} {q : List Pktbuf} :
    ∀ {m m' : Mem} {bus bus' : Bus β} {e : List Event} {os : List Offer}, K.I bus.binding →
    (bus.state = .txEnabled → K.T bus.binding) →
    (∀ p ∈ q, K.P p) → R bus.binding os → sendQueue ops cap i m bus q = .ok (m', bus', e) →
    R bus'.binding (os ++ offers i e) := by
  induction q with
  | nil =>
    intro m m' bus bus' e os _ _ _ hr h
    simp only [sendQueue, Except.ok.injEq, Prod.mk.injEq] at h
    obtain ⟨rfl, rfl, rfl⟩ := h
    simpa [offers] using hr
  | cons p q ih =>
    intro m m' bus bus' e os hI hT hP hr h
    unfold sendQueue at h
    split at h
    · simp only [Except.ok.injEq, Prod.mk.injEq] at h
      obtain ⟨rfl, rfl, rfl⟩ := h
      simpa [offers] using hr
    · rename_i hen
      obtain ⟨_, _, h⟩ := Res.bind_eq_ok.mp h
      obtain ⟨out, ho, h⟩ := Res.bind_eq_ok.mp h
      have hr' := hR _ _ _ _ hI (hP p (by simp)) hr ho
      obtain ⟨out', ho', hI', -, hT'⟩ := K.tx _ _ hI (hT (Decidable.not_not.mp hen)) (hP p (by simp))
      rw [ho] at ho'
      simp only [Except.ok.injEq] at ho'
      subst ho'
      simp only at h
      split at h
      · obtain ⟨m1, hm1, h⟩ := Res.bind_eq_ok.mp h
        obtain ⟨⟨m2, b2, e2⟩, hs, h⟩ := Res.bind_eq_ok.mp h
        simp only [Except.ok.injEq, Prod.mk.injEq] at h
        obtain ⟨rfl, rfl, rfl⟩ := h
        have := ih (m := m1)
          hI' (fun h => by
            cases hd : out.disableTx
            · exact hT' hd
            · rw [hd] at h; cases h) (fun x hx => hP x (by simp [hx])) hr' hs
        rw [offers_append, offers_append, offers_cap, offers_tx, if_pos rfl]
        simpa using this
      · simp only [Except.ok.injEq, Prod.mk.injEq] at h
        obtain ⟨rfl, rfl, rfl⟩ := h
        rw [offers_append, offers_cap, offers_tx, if_pos rfl]
        exact hr'

theorem sendTxQueue_tracks {ops : Ops β} {K : Contract ops} {R : Binding β → List Offer → Prop}
    (hR : Tracks K R) {base : List Nat} {c c' : Core β} (hm : MemInv K base c) {bus : Bus β}
    (hb : c.busses = [bus]) {os : List Offer} (hr : R bus.binding os) {e : List Event}
    (h : c.sendTxQueue ops 0 = .ok (c', e)) :
    ∃ bus', c'.busses = [bus'] ∧ R bus'.binding (os ++ offers 0 e) := by
  unfold Core.sendTxQueue at h
  obtain ⟨bus1, hbus, h⟩ := Res.bind_eq_ok.mp h
  obtain ⟨⟨m, b, e'⟩, hs, h⟩ := Res.bind_eq_ok.mp h
  simp only [Except.ok.injEq, Prod.mk.injEq] at h
  obtain ⟨rfl, rfl⟩ := h
  have : bus1 = bus := by
    have := List.mem_of_getElem? (busAt_ok hbus).2.1
    rw [hb] at this; simpa using this
  subst this
  obtain ⟨hI, hP⟩ := hm.inv bus1 (by simp [hb])
  exact ⟨b, by simp [Core.setBus, hb], sendQueue_tracks hR hI (hm.gate bus1 (by simp [hb])) hP hr hs⟩

theorem messageTxOnBus_tracks {ops : Ops β} {K : Contract ops} {R : Binding β → List Offer → Prop}
    (hR : Tracks K R) {base : List Nat} {c c' : Core β} (h : MemInv K base c) {bus : Bus β}
    (hb : c.busses = [bus]) {os : List Offer} (hr : R bus.binding os) {e : List Event} {rc : Int}
    {s d : Byte} {own : Bool} {g : Byte} {msg : List Byte}
    (hh : c.messageTxOnBus ops 0 s d own g msg = .ok (c', e, rc)) :
    ∃ bus', c'.busses = [bus'] ∧ R bus'.binding (os ++ offers 0 e) := by
  obtain ⟨bus1, hbus, hget, hmem⟩ := h.busAt h.pos
  have : bus1 = bus := by rw [hb] at hmem; simpa using hmem
  subst this
  unfold Core.messageTxOnBus at hh
  rw [hbus] at hh
  simp only [Res.bind_ok] at hh
  split at hh
  · simp only [Except.ok.injEq, Prod.mk.injEq] at hh
    obtain ⟨rfl, rfl, rfl⟩ := hh
    exact ⟨bus1, hb, by simpa [offers] using hr⟩
  · rename_i hst
    split at hh
    · simp only [Except.ok.injEq, Prod.mk.injEq] at hh
      obtain ⟨rfl, rfl, rfl⟩ := hh
      exact ⟨bus1, hb, by simpa [offers] using hr⟩
    · have hbo := h.bus bus1 hmem hst
      have hbs : bodySize bus1.binding.pktSize = bus1.binding.pktSize - 4 :=
        bodySize_eq (by have := hbo.btu; omega) (by have := hbo.wrap; omega)
      rw [hbs, if_neg (by simp only [btu]; have := hbo.btu; omega)] at hh
      obtain ⟨m', ps, h1, h2, h3, hmd⟩ := txLoop_total (fill := c.fill) (b := bus1.binding) (src := s)
        (dest := d) (to := own) (tag := g) (mtu := bus1.binding.pktSize - 4) (msg := msg)
        (by have := hbo.btu; omega) (by have := hbo.btu; omega) (fuel := msg.length) (p := 0) (i := 0)
        (q := bus1.queue) (by omega) h.owns h.ok
      rw [h1] at hh
      simp only [Res.bind_ok] at hh
      have hinv : MemInv K base (({ c with mem := m' } : Core β).setBus 0 { bus1 with queue := bus1.queue ++ ps }) := by
        refine ⟨?_, ?_, h.ctxs, ?_, h.pos, h.ptr, ?_, h.setInv (h.inv bus1 hmem).1 ?_, h.setGate (h.gate bus1 hmem)⟩
        rotate_left 4
        · intro x hx
          rcases List.mem_append.mp hx with hx | hx
          · exact (h.inv bus1 hmem).2 x hx
          · exact K.made _ _ (h.inv bus1 hmem).1 hbo (hmd x hx)
        · refine h2.congr fun j => ?_
          have e2 := queueIds_set (b' := { bus1 with queue := bus1.queue ++ ps }) hget j
          simp only [owned, Core.setBus, List.count_append, List.map_append] at e2 ⊢
          omega
        · intro n; simp only [Core.setBus]; rw [h3]; exact h.ok n
        · simp only [Core.setBus, List.length_set]; exact h.nb
        · intro b hb hst
          simp only [Core.setBus] at hb
          rcases List.mem_or_eq_of_mem_set hb with hb | rfl
          · exact h.bus b hb hst
          · exact hbo
      obtain ⟨⟨c1, e1⟩, hs, hh⟩ := Res.bind_eq_ok.mp hh
      simp only [Except.ok.injEq, Prod.mk.injEq] at hh
      obtain ⟨rfl, rfl, rfl⟩ := hh
      exact sendTxQueue_tracks hR hinv (bus := { bus1 with queue := bus1.queue ++ ps })
        (by simp [Core.setBus, hb]) hr hs

/-- One API call (other than the binding changing itself). -/
theorem step_tracks {ops : Ops β} {K : Contract ops} {R : Binding β → List Offer → Prop}
    (hR : Tracks K R) {base : List Nat} {c c' : Core β} (hm : MemInv K base c) (hbr : c.bridge = false)
    {bus : Bus β} (hb : c.busses = [bus]) {os : List Offer} (hr : R bus.binding os) {op : Op β}
    {e : List Event} {rc : Int} (hop : ∀ i st ps ph pt cr, op ≠ .rebind i st ps ph pt cr) (hpre : OpOk K c op)
    (h : c.step ops op = .ok (c', e, rc)) :
    ∃ bus', c'.busses = [bus'] ∧ R bus'.binding (os ++ offers 0 e) := by
  have triv : ∀ {c1 : Core β}, c1.busses = c.busses → ∃ bus', c1.busses = [bus'] ∧
      R bus'.binding (os ++ offers 0 []) := fun h => ⟨bus, by rw [h, hb], by simpa [offers] using hr⟩
  cases op with
  | recv i bs =>
    simp only [Core.step] at h
    obtain ⟨⟨c1, e1⟩, hrx, h⟩ := Res.bind_eq_ok.mp h
    simp only [Except.ok.injEq, Prod.mk.injEq] at h
    obtain ⟨rfl, rfl, rfl⟩ := h
    obtain ⟨g1, g2⟩ := rxPacket_noTx (eid := bus.eid) hbr (by rw [hb]; rfl) hrx
    exact ⟨bus, by rw [g1, hb], by rw [g2]; simpa using hr⟩
  | send d own g msg =>
    simp only [Core.step, Core.messageTx] at h
    split at h
    · simp only [Except.ok.injEq, Prod.mk.injEq] at h
      obtain ⟨rfl, rfl, rfl⟩ := h
      exact triv rfl
    · rw [if_neg (by have := hm.pos; omega)] at h
      obtain ⟨bus', hbus, h⟩ := Res.bind_eq_ok.mp h
      exact messageTxOnBus_tracks hR hm hb hr h
  | enable i on =>
    simp only [Core.step, Core.setTxEnabled] at h
    obtain ⟨⟨c1, e1⟩, hs, h⟩ := Res.bind_eq_ok.mp h
    simp only [Except.ok.injEq, Prod.mk.injEq] at h
    obtain ⟨rfl, rfl, rfl⟩ := h
    obtain ⟨bus1, hbus, hs⟩ := Res.bind_eq_ok.mp hs
    have hget := (busAt_ok hbus).2.1
    have hi0 : i = 0 := by
      have := (List.getElem?_eq_some_iff.mp hget).1
      rw [hb] at this; simpa using this
    subst hi0
    rw [hb] at hget
    simp only [List.getElem?_cons_zero, Option.some.injEq] at hget
    subst hget
    split at hs
    · split at hs
      · simp only [Except.ok.injEq, Prod.mk.injEq] at hs
        obtain ⟨rfl, rfl⟩ := hs
        exact triv rfl
      · split at hs
        · simp only [Except.ok.injEq, Prod.mk.injEq] at hs
          obtain ⟨rfl, rfl⟩ := hs
          exact triv rfl
        · simp only [Except.ok.injEq, Prod.mk.injEq] at hs
          obtain ⟨rfl, rfl⟩ := hs
          exact ⟨{ bus with state := .txEnabled }, by simp [Core.setBus, hb], by simpa [offers] using hr⟩
    · split at hs
      · simp only [Except.ok.injEq, Prod.mk.injEq] at hs
        obtain ⟨rfl, rfl⟩ := hs
        exact triv rfl
      · simp only [Except.ok.injEq, Prod.mk.injEq] at hs
        obtain ⟨rfl, rfl⟩ := hs
        exact ⟨{ bus with state := .txDisabled }, by simp [Core.setBus, hb], by simpa [offers] using hr⟩
    · rename_i hst
      split at hs
      · simp only [Except.ok.injEq, Prod.mk.injEq] at hs
        obtain ⟨rfl, rfl⟩ := hs
        exact triv rfl
      · have hne : bus.state ≠ .constructed := by rw [hst]; simp
        have hinv : MemInv K base (c.setBus 0 { bus with state := .txEnabled }) := by
          obtain ⟨bus2, hget2, -, hT2⟩ := hpre
          have : bus = bus2 := by rw [hb] at hget2; simpa using hget2
          subst this
          obtain ⟨h1, h2, h3, h4, h5, h6, h7, h8, h9⟩ := id hm
          refine ⟨h1.congr fun j => ?_, h2, h3, by simpa [Core.setBus] using h4, h5, h6, ?_, ?_,
            hm.setGate fun _ => hT2 (by simp_all)⟩
          · simp only [owned, Core.setBus, hb, queueIds, List.set_cons_zero, List.flatMap_cons]
          · intro b hb' _
            simp only [Core.setBus, hb, List.set_cons_zero, List.mem_singleton] at hb'
            subst hb'
            exact h7 bus (by simp [hb]) hne
          · intro b hb'
            simp only [Core.setBus, hb, List.set_cons_zero, List.mem_singleton] at hb'
            subst hb'
            exact h8 bus (by simp [hb])
        exact sendTxQueue_tracks hR hinv (bus := { bus with state := .txEnabled })
          (by simp [Core.setBus, hb]) hr hs
  | setMax n =>
    simp only [Core.step, Except.ok.injEq, Prod.mk.injEq] at h
    obtain ⟨rfl, rfl, -⟩ := h
    exact triv rfl
  | setCapture n =>
    simp only [Core.step, Except.ok.injEq, Prod.mk.injEq] at h
    obtain ⟨rfl, rfl, -⟩ := h
    exact triv rfl
  | setRx n =>
    simp only [Core.step, Except.ok.injEq, Prod.mk.injEq] at h
    obtain ⟨rfl, rfl, -⟩ := h
    exact triv rfl
  | rebind i st ps ph pt cr => exact absurd rfl (hop i st ps ph pt cr)

theorem run_tracks {ops : Ops β} {K : Contract ops} {R : Binding β → List Offer → Prop}
    (hR : Tracks K R) {base : List Nat} {hist : List (Op β)} :
    ∀ {c c' : Core β} {log : List (Rec β)} {bus : Bus β} {os : List Offer} {evs : List Event} {eid : Byte},
    MemInv K base c → EpInv eid evs c → c.busses = [bus] → R bus.binding os →
    HistOk K c hist → (∀ i st ps ph pt cr, .rebind i st ps ph pt cr ∉ hist) →
    c.run ops hist = .ok (c', log) →
    ∃ bus', c'.busses = [bus'] ∧ R bus'.binding (os ++ offers 0 (events log)) := by
  induction hist with
  | nil =>
    intro c c' log bus os evs eid _ _ hb hr _ _ h
    simp only [Core.run, Except.ok.injEq, Prod.mk.injEq] at h
    obtain ⟨rfl, rfl⟩ := h
    exact ⟨bus, hb, by simpa [events, offers] using hr⟩
  | cons op rest ih =>
    intro c c' log bus os evs eid hm hep hb hr hok hno h
    obtain ⟨c1, e, rc, h1, h2⟩ := step_total K hm hok.1
    simp only [Core.run, h1, Res.bind_ok] at h
    obtain ⟨⟨c2, log2⟩, hs, h⟩ := Res.bind_eq_ok.mp h
    simp only [Except.ok.injEq, Prod.mk.injEq] at h
    obtain ⟨rfl, rfl⟩ := h
    obtain ⟨b1, hb1, hr1⟩ := step_tracks hR hm hep.noBridge hb hr
      (fun i st ps ph pt cr hh => hno i st ps ph pt cr (by simp [hh])) hok.1 h1
    obtain ⟨b2, hb2, hr2⟩ := ih h2 (step_epInv hep h1) hb1 hr1 (hok.2 _ _ _ h1)
      (fun i st ps ph pt cr hh => hno i st ps ph pt cr (by simp [hh])) hs
    refine ⟨b2, hb2, ?_⟩
    rw [List.append_assoc, ← offers_append] at hr2
    exact hr2

end Mctp
