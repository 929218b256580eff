import Verif.Proofs.LinkUpdate
import Verif.Proofs.Memory

/-! The code keeps to the detailed monitor: receiving a packet. -/

namespace Mctp

open Spec

variable {E : Type}

/-- Reading the length of a packet. -/
theorem read_len {g : LinkCfg} {f : Fine} {bs : List Byte} {r : Int} (hrxo : 256 ≤ g.rxo) (ht : f.todo = []) (hb : f.rxp = .begun)
    (hw : f.w.rx = true) (hl : bs.length = 4) (hr : Rely g f (.lpcRead g.rxo bs r)) :
    r = 0 ∧ fromBe bs + 8 ≤ g.sz ∧
      f.step g (.lpcRead g.rxo bs r) = some { f with w := ⟨some (.lpcRead g.rxo bs r), f.w.tx, f.w.rx⟩, rxp := .len bs } := by
  obtain ⟨h0, -, h1⟩ := hr
  refine ⟨h0, (h1 ht).2 hb rfl hl, ?_⟩
  rw [Fine.step_free ht (w := ⟨some (.lpcRead g.rxo bs r), f.w.tx, f.w.rx⟩)
    (by rw [Watch.step]; simp only; rw [if_neg (by omega), if_pos hw])]
  unfold Fine.free
  rw [if_neg (by omega)]
  simp only [hb]
  rw [if_pos ⟨trivial, hl⟩]

/-- Reading the packet. -/
theorem read_pkt {g : LinkCfg} {f : Fine} {n bs : List Byte} {r : Int} (hrxo : 256 ≤ g.rxo) (ht : f.todo = []) (hb : f.rxp = .len n)
    (hw : f.w.rx = true) (hl : bs.length = fromBe n + 4) :
    f.step g (.lpcRead (g.rxo + 4) bs r) =
      some { f with w := ⟨some (.lpcRead (g.rxo + 4) bs r), f.w.tx, f.w.rx⟩, rxp := .done, got := f.got ++ [(n, bs)] } := by
  rw [Fine.step_free ht (w := ⟨some (.lpcRead (g.rxo + 4) bs r), f.w.tx, f.w.rx⟩)
    (by rw [Watch.step]; simp only; rw [if_neg (by omega), if_pos hw])]
  unfold Fine.free
  rw [if_neg (by omega)]
  simp only [hb]
  rw [if_pos ⟨trivial, hl⟩]

theorem alloc_some {m : Mem} (h : AllOk m) {fill : Nat → Byte} {s hd tl n : Nat} (hn : n ≤ s + hd + tl) :
    (pktbufAlloc m fill s hd tl n).1 ≠ none := by
  unfold pktbufAlloc
  simp only
  rw [if_neg (by omega)]
  unfold Mem.alloc
  rw [if_pos (h _)]
  simp

/-- A packet is received. -/
theorem rx_rel {hw : Hw E} {mode : AstMode} {mtu : Nat} {g : LinkCfg} {U : AstSt E → Prop} {c c' : Core (AstSt E)} {i : Nat}
    {bus : Bus (AstSt E)} {e : List Event} {v k : Byte} {os : List Offer} {rs : List (List Byte)} (hrxo : 256 ≤ g.rxo)
    (hb : c.busses = [bus]) (hbr : c.bridge = false) (hj : AstJ mode mtu bus) (hmode : g.mode = mode)
    (hls : g.lossy = true → g.mode = .bmc) (hmem : g.lossy = false → AllOk c.mem)
    (h : Obeys g bus.binding.st (fun f => bus.binding.st.rx.state = .released ∧ ∃ f0 a, Rel g U (some v) k os rs bus f0 ∧ f0.opened = true ∧ f0.rxp = .away ∧
      f = { f0 with w := ⟨a, f0.w.tx, true⟩, rxp := .begun }))
    (he : c.astRxStart hw i = .ok (c', e)) :
    ∃ bus', c'.busses = [bus'] ∧ bus'.binding.st.kcsStatus = bus.binding.st.kcsStatus ∧
      Obeys g bus'.binding.st (Rel g U (some v) k (os ++ offers 0 e) (rs ++ packetsIn e) bus') := by
  obtain ⟨-, -, pv, r0, lenBytes, st', m, t, hpv, -, -, hlen, rfl, hst', hcase⟩ := astRxStart_trace hb hbr hj.1 he
  have k1 : st'.mode = bus.binding.st.mode := by rw [hst']
  have k3 : st'.proto = bus.binding.st.proto := by rw [hst']
  have k4 : st'.tx = bus.binding.st.tx := by rw [hst']
  have k5 : st'.kcsStatus = bus.binding.st.kcsStatus := by rw [hst']
  refine ⟨_, rfl, k5, ?_⟩
  clear hst'
  rcases hcase with ⟨hwhy, ha, hrx, rfl⟩ | ⟨-, -, r1, bytes, rcs, l, hblen, ha, hsend, hrx, hev⟩
  · rw [show offers 0 ([] : List Event) = [] from rfl, show packetsIn ([] : List Event) = [] from rfl, List.append_nil, List.append_nil]
    refine h.step ha ?_
    rintro f ⟨hrel, f0, a, hf0, ho, haway, rfl⟩ hr
    obtain ⟨e1, e2, e3, e4, e5, e6⟩ := hf0.lay ho
    rw [hpv] at e1
    cases e1
    rw [e4] at hr ⊢
    obtain ⟨-, hfit, hstep⟩ := read_len (f := { f0 with w := ⟨a, f0.w.tx, true⟩, rxp := .begun }) hrxo hf0.todo rfl rfl hlen hr
    refine ⟨_, hstep, ?_⟩
    have hlossy : g.lossy = true := by
      rcases Bool.eq_false_or_eq_true g.lossy with h | h
      · exact h
      · exfalso
        rcases hwhy with hx | hx | hx
        · rw [e5, show overhead 3 = 8 from rfl] at hx; omega
        · omega
        · refine alloc_some (hmem h) ?_ hx
          rw [hf0.hdr, hf0.tlr, show overhead 3 = 8 from rfl]; omega
    have hbmc := hls hlossy
    have hst : f0.stale = false := by
      rcases Bool.eq_false_or_eq_true f0.stale with hs | hs
      · have := (hf0.stale hs).1; rw [hbmc] at this; cases this
      · exact hs
    exact
      { todo := hf0.todo, started := hf0.started, fin := hf0.fin, ver := hf0.ver, hdr := hf0.hdr, tlr := hf0.tlr,
        mode := k1.trans hf0.mode, sent := hf0.sent, fit := hf0.fit, all := hf0.all, got := hf0.got, coh := by simp,
        queue := hf0.queue, kcs := hf0.kcs, mid := hf0.mid, stale := hf0.stale,
        shut := by
          rintro (h | h)
          · simp only at h; rw [ho] at h; cases h
          · simp only at h; rw [hst] at h; cases h
        closed := by intro h; simp only at h; rw [ho] at h; cases h
        lay := by simp only; rw [k3, k4, hrx]; exact hf0.lay
        tx := by simp only; rw [k4]; exact hf0.tx
        rx := fun _ => .inl ⟨by simp only; rw [hrx]; exact hrel, .inr ⟨hlossy, _, rfl⟩⟩
        can := by simp only; rw [k4]; exact hf0.can }
  · have hoff : os ++ offers 0 e = os := by
      rcases hev with ⟨-, rfl⟩ | ⟨-, -, -, h⟩
      · exact List.append_nil _
      · rw [h 0, List.append_nil]
    rw [hoff]
    refine h.adds ha ?_
    rintro f ⟨hrel, f0, a, hf0, ho, haway, rfl⟩
    obtain ⟨e1, e2, e3, e4, e5, e6⟩ := hf0.lay ho
    rw [hpv] at e1
    cases e1
    rw [e4]
    rw [show overhead 3 - 4 = 4 from rfl] at hblen
    rw [hf0.mode] at hsend
    intro hr
    obtain ⟨-, hfit, hstep⟩ := read_len (f := { f0 with w := ⟨a, f0.w.tx, true⟩, rxp := .begun }) hrxo hf0.todo rfl rfl hlen hr
    refine ⟨_, hstep, fun hr2 => ⟨_, read_pkt hrxo hf0.todo rfl rfl hblen, ?_⟩⟩
    have hfin : f0.stale = true → g.mode = .host ∧ f0.fin = true := by
      intro hs
      have hm := (hf0.stale hs).1
      exact ⟨hm, by rw [hf0.fin, hs, hm]; simp⟩
    have hgot : rs ++ packetsIn e = (f0.got ++ [(lenBytes, bytes)]).filterMap recvd := by
      rw [List.filterMap_append, ← hf0.got]
      congr 1
      have hne : bytes ≠ [] := by
        intro h0; rw [h0] at hblen; simp at hblen
      have hfb : firstByte c.fill bus.binding.pktHeader bytes = 1 ↔ bytes.head? = some 1 := by
        unfold firstByte
        cases bytes with
        | nil => exact absurd rfl hne
        | cons b bs => simp
      have hin : Intact 3 bytes ↔ bytes.drop (bytes.length - 4) = be32 (crc32 (bytes.take (bytes.length - 4))).toNat := by
        unfold Intact; simp
      rw [hfb, hin] at hev
      rw [show [(lenBytes, bytes)].filterMap recvd = (recvd (lenBytes, bytes)).toList by
        rw [List.filterMap_cons]; cases recvd (lenBytes, bytes) <;> rfl]
      unfold recvd
      simp only
      rcases hev with ⟨h1, rfl⟩ | ⟨h1, h2, h3, -⟩
      · rw [if_neg h1]; rfl
      · rw [if_pos ⟨h1, h2⟩, h3]; rfl
    rw [hgot]
    refine (accepts_sends2 (g := g) (f := { f0 with w := ⟨some (.lpcRead (g.rxo + 4) bytes r1), f0.w.tx, true⟩, rxp := .done, got := f0.got ++ [(lenBytes, bytes)] }) hf0.todo hf0.started ho hfin rfl rfl hsend).mono ?_
    rintro f' ⟨a', t', h6, hf'⟩
    have hmid : ∀ w, some v = some w → g.mode = .host → w.getLsbD 7 = true ∧ t'.getLsbD 6 = w.getLsbD 6 ∧ (f0.opened = true → w.getLsbD 6 = true) := by
      intro w hw' hm
      obtain ⟨m1, m2, m3⟩ := hf0.mid w hw' hm
      exact ⟨m1, by rw [m3 ho]; exact h6 hm, m3⟩
    have hclosed : ∀ X : Prop, f0.opened = false → X := by
      intro X h; rw [ho] at h; cases h
    have htx : f0.opened = true → (st'.tx.state = .acquired ∧ f0.w.tx = .free) ∨
                (st'.tx.state = .prepared ∧ f0.w.tx = .full) ∨ (st'.tx.state = .released ∧ f0.w.tx = .handed) := by
      rw [k4]; exact hf0.tx
    have hlay : f0.opened = true → st'.proto = some 3 ∧ st'.tx.offset = g.txo ∧ st'.tx.size = g.sz ∧
                st'.rx.offset = g.rxo ∧ st'.rx.size = g.sz ∧ bus.binding.pktSize + 8 = g.sz := by
      rw [k3, k4, hrx]; exact hf0.lay
    have hcan : f0.opened = true → f0.stale = false → st'.tx.state = .acquired → bus.state = .txEnabled := by
      rw [k4]; exact hf0.can
    rcases hf' with ⟨rfl, rfl⟩ | ⟨rfl, hst, rfl⟩
    · exact
        { todo := hf0.todo, started := hf0.started, fin := hf0.fin, ver := hf0.ver, hdr := hf0.hdr, tlr := hf0.tlr,
          mode := k1.trans hf0.mode, sent := hf0.sent, fit := hf0.fit, all := hf0.all, got := rfl, coh := rfl, queue := hf0.queue, kcs := hf0.kcs,
          mid := hmid, stale := hf0.stale, closed := hclosed _, lay := hlay, tx := htx, can := hcan,
          shut := fun h => by
            obtain ⟨s1, s2, s3, s4⟩ := hf0.shut h
            exact ⟨s1, s2, rfl, s4⟩
          rx := fun _ => .inl ⟨by simp only; rw [hrx]; rfl, .inl rfl⟩ }
    · exact
        { todo := hf0.todo, started := hf0.started, fin := hf0.fin, ver := hf0.ver, hdr := hf0.hdr, tlr := hf0.tlr,
          mode := k1.trans hf0.mode, sent := hf0.sent, fit := hf0.fit, all := hf0.all, got := rfl, coh := by simp,
          queue := hf0.queue, kcs := hf0.kcs,
          mid := hmid, stale := hf0.stale, closed := hclosed _, lay := hlay, tx := htx, can := hcan,
          shut := by
            rintro (h | h)
            · exact hclosed _ h
            · simp only at h hst; rw [hst] at h; cases h
          rx := fun _ => .inr ⟨by simp only; rw [hrx]; rfl, rfl⟩ }

end Mctp
