import Verif.Proofs.MemOk

/-! The code keeps to the detailed monitor: whole histories, and two endpoints on one link. -/

namespace Mctp

open Spec

variable {E : Type}

theorem AstOp.isApp {op : AstOp} {o : Op (AstSt E)} (h : op.core = some o) : IsApp o := by
  cases op <;> simp only [AstOp.core, Option.some.injEq, reduceCtorEq] at h <;> subst h <;> trivial

theorem app_rel {hw : Hw E} {mode : AstMode} {mtu : Nat} {g : LinkCfg} {U : AstSt E → Prop} {c c' : Core (AstSt E)} {bus : Bus (AstSt E)}
    {o : Op (AstSt E)} {e : List Event} {rc : Int} {os : List Offer} {rs : List (List Byte)}
    (hoff : 256 ≤ g.txo) (hsz : g.sz < 2 ^ 31) (h12 : 12 ≤ g.sz) (hop : IsApp o)
    (hb : c.busses = [bus]) (hj : AstJ mode mtu bus)
    (h : Obeys g bus.binding.st (Rel g U none bus.binding.st.kcsStatus os rs bus))
    (he : c.step (astOps hw) o = .ok (c', e, rc)) :
    Follows g U none (os ++ offers 0 e) (rs ++ packetsIn e) c' := by
  obtain ⟨bus', m, hx, hc, mx, rfl, hj', hev⟩ := step_keepsOn
    (rel_keeps hw mode mtu (g := g) (U := U) (φ := none) (k := bus.binding.st.kcsStatus) (k0 := bus.binding.st.kcsStatus) (rs := rs) hoff hsz h12)
    hb ⟨hj, rfl, h⟩ hop he
  rw [packetsIn_isTx hev, List.append_nil]
  exact ⟨bus', rfl, by rw [hj'.2.1]; exact hj'.2.2⟩

theorem run_bmc {hw : Hw E} {mtu H : Nat} (hmtu : mtu < 4294967284) (hH1 : 76 ≤ H) (hH2 : H ≤ bmcRoom mtu) {hist : List AstOp} :
    ∀ {c c' : Core (AstSt E)} {bus : Bus (AstSt E)} {log : List AstRec} {os : List Offer} {rs : List (List Byte)},
      c.busses = [bus] → c.bridge = false → AstJ .bmc mtu bus → (ls = false → AllOk c.mem) →
      Follows (cfgB (bmcRoom mtu) H ls) (BmcClosed mtu) none os rs c → c.astRun hw hist = .ok (c', log) →
      Follows (cfgB (bmcRoom mtu) H ls) (BmcClosed mtu) none (os ++ offers 0 (astEvents log)) (rs ++ packetsIn (astEvents log)) c' := by
  have hB := bmcRoom_le mtu
  induction hist with
  | nil =>
    intro c c' bus log os rs hb hbr hj hmem hf he
    simp only [Core.astRun, Except.ok.injEq, Prod.mk.injEq] at he
    obtain ⟨rfl, rfl⟩ := he
    simpa [astEvents, offers, packetsIn] using hf
  | cons op rest ih =>
    intro c c' bus log os rs hb hbr hj hmem hf he
    simp only [Core.astRun] at he
    obtain ⟨⟨c1, e1, rc1⟩, h1, he⟩ := Res.bind_eq_ok.mp he
    obtain ⟨⟨c2, log2⟩, h2, he⟩ := Res.bind_eq_ok.mp he
    simp only [Except.ok.injEq, Prod.mk.injEq] at he
    obtain ⟨rfl, rfl⟩ := he
    obtain ⟨b1, hb1, hbr1, hj1⟩ := astStep_inv hb hbr hj h1
    have hmem1 : ls = false → AllOk c1.mem := by
      have := astStep_memOk h1
      intro hl n
      simp only at this
      rw [this]; exact hmem hl n
    have hstep : Follows (cfgB (bmcRoom mtu) H ls) (BmcClosed mtu) none (os ++ offers 0 e1) (rs ++ packetsIn e1) c1 := by
      obtain ⟨bus', hb', ho⟩ := hf
      have : bus' = bus := by rw [hb] at hb'; simpa using hb'.symm
      subst this
      unfold Core.astStep at h1
      split at h1
      · rename_i o hop
        exact app_rel (by simp only [cfgB]; omega) (by simp only [cfgB]; omega) (by simp only [cfgB]; omega) (AstOp.isApp hop) hb hj ho h1
      · exact poll_bmc hmtu hH1 hH2 hmem hb hbr hj ho h1
    have := ih hb1 hbr1 hj1 hmem1 hstep h2
    simpa [astEvents, offers_append, packetsIn_append, List.append_assoc] using this

theorem run_host {hw : Hw E} {mtu B H : Nat} (hH1 : 76 ≤ H) (hH2 : H ≤ B) (hB : B ≤ 524156) {hist : List AstOp} :
    ∀ {c c' : Core (AstSt E)} {bus : Bus (AstSt E)} {log : List AstRec} {os : List Offer} {rs : List (List Byte)},
      c.busses = [bus] → c.bridge = false → AstJ .host mtu bus → AllOk c.mem →
      Follows (cfgH B H) HostClosed none os rs c → c.astRun hw hist = .ok (c', log) →
      Follows (cfgH B H) HostClosed none (os ++ offers 0 (astEvents log)) (rs ++ packetsIn (astEvents log)) c' := by
  induction hist with
  | nil =>
    intro c c' bus log os rs hb hbr hj hmem hf he
    simp only [Core.astRun, Except.ok.injEq, Prod.mk.injEq] at he
    obtain ⟨rfl, rfl⟩ := he
    simpa [astEvents, offers, packetsIn] using hf
  | cons op rest ih =>
    intro c c' bus log os rs hb hbr hj hmem hf he
    simp only [Core.astRun] at he
    obtain ⟨⟨c1, e1, rc1⟩, h1, he⟩ := Res.bind_eq_ok.mp he
    obtain ⟨⟨c2, log2⟩, h2, he⟩ := Res.bind_eq_ok.mp he
    simp only [Except.ok.injEq, Prod.mk.injEq] at he
    obtain ⟨rfl, rfl⟩ := he
    obtain ⟨b1, hb1, hbr1, hj1⟩ := astStep_inv hb hbr hj h1
    have hmem1 : AllOk c1.mem := by
      have := astStep_memOk h1
      intro n
      simp only at this
      rw [this]; exact hmem n
    have hstep : Follows (cfgH B H) HostClosed none (os ++ offers 0 e1) (rs ++ packetsIn e1) c1 := by
      obtain ⟨bus', hb', ho⟩ := hf
      have : bus' = bus := by rw [hb] at hb'; simpa using hb'.symm
      subst this
      unfold Core.astStep at h1
      split at h1
      · rename_i o hop
        exact app_rel (by simp only [cfgH]; omega) (by simp only [cfgH]; omega) (by simp only [cfgH]; omega) (AstOp.isApp hop) hb hj ho h1
      · exact poll_host hH1 hH2 hB hmem hb hbr hj ho h1
    have := ih hb1 hbr1 hj1 hmem1 hstep h2
    simpa [astEvents, offers_append, packetsIn_append, List.append_assoc] using this

theorem AstEndpoint.mtu_lt {hw : Hw E} {env : E} {eid : Byte} {mx : Nat} {mode : AstMode} {mtu : Nat} {mem : Mem}
    {c0 : Core (AstSt E)} (h : AstEndpoint hw env eid mx mode mtu mem c0) : mtu < 2 ^ 32 := by
  obtain ⟨_, _, _, hm, _⟩ := h; exact hm

theorem AstEndpoint.memOk {hw : Hw E} {env : E} {eid : Byte} {mx : Nat} {mode : AstMode} {mtu : Nat} {mem : Mem}
    {c0 : Core (AstSt E)} (h : AstEndpoint hw env eid mx mode mtu mem c0) : c0.mem.ok = mem.ok := by
  obtain ⟨fill, c, rc, -, h1, h2, h3⟩ := h
  obtain ⟨id, m, ha, rfl⟩ := init_ok h1
  have e1 : m.ok = mem.ok := by have := mem.alloc_memOk; rw [ha] at this; exact this
  unfold Core.registerBus at h2
  split at h2
  · cases h2
  · simp only [Core.setRxAll, Core.setMaxMessageSize] at h2
    have e2 := m.alloc_memOk
    split at h2
    · rename_i m2 hal
      rw [hal] at e2
      cases h2; exact e2.trans e1
    · rename_i p m2 hal
      rw [hal] at e2
      obtain ⟨⟨bus', rc'⟩, hs, h2⟩ := Res.bind_eq_ok.mp h2
      simp only at h2
      split at h2
      · obtain ⟨m3, hf, h2⟩ := Res.bind_eq_ok.mp h2
        cases h2
        exact ((Mem.free_memOk hf).trans e2).trans e1
      · cases h2; exact e2.trans e1

theorem endpoint_bmc {hw : Hw E} {env : E} {eid : Byte} {mx : Nat} {mtu : Nat} {mem : Mem}
    {c0 c : Core (AstSt E)} (h : AstEndpoint hw env eid mx .bmc mtu mem c0) {hist : List AstOp} {log : List AstRec}
    (hr : c0.astRun hw hist = .ok (c, log)) (hmem : ls = false → AllOk mem) :
    76 ≤ bmcRoom mtu ∧ ∀ H, 76 ≤ H → H ≤ bmcRoom mtu →
      Follows (cfgB (bmcRoom mtu) H ls) (BmcClosed mtu) none (offers 0 (astEvents log)) (packetsIn (astEvents log)) c := by
  obtain ⟨bus, hb, hbr, hj⟩ := h.inv
  obtain ⟨rc, s, hrc, hs, hb', -⟩ := h.start
  have hs : initBmc hw { astZero env .bmc mtu with proto := some astVerCur } = .ok (rc, s) := hs
  have hready := fun H => initBmc_ready (ls := ls) (H := H) h.mtu_lt (s := { astZero env .bmc mtu with proto := some astVerCur }) rfl rfl rfl rfl hs hrc
  refine ⟨(hready 0).1, fun H hH1 hH2 => ?_⟩
  obtain ⟨h76, hmtu, hob, hp, hm, hmt, htx, hrx⟩ := hready H
  have hf : Follows (cfgB (bmcRoom mtu) H ls) (BmcClosed mtu) none [] [] c0 := by
    refine ⟨_, hb', hob.mono ?_⟩
    rintro f ⟨f1, f2, f3, f4, f5, f6, f7, f8, f9, f10⟩
    have hno : ∀ {X : Prop}, f.opened = true → X := by intro X h; rw [f3] at h; cases h
    exact
      { todo := f1, started := f2, fin := by rw [f5]; rfl, ver := rfl, hdr := rfl, tlr := rfl, mode := hm, sent := f9,
        fit := by intro p hp; simp [taken] at hp
        all := by intro o ho; simp at ho
        got := by rw [f10]; rfl
        coh := by rw [f8, f6]; rfl
        queue := by intro p hp; simp at hp
        kcs := fun h => (nomatch h)
        mid := fun v h => (nomatch h)
        stale := by intro h; rw [f4] at h; cases h
        shut := fun _ => ⟨rfl, rfl, f6, f7⟩
        closed := fun _ => ⟨⟨hmt, hp, by simp only; rw [htx], by simp only; rw [htx], by simp only; rw [hrx], by simp only; rw [hrx]⟩, by simp only; rw [hrx]; rfl, by simp only; rw [htx]; rfl, f9, f10⟩
        lay := hno
        tx := hno
        rx := hno
        can := hno }
  have hm0 : ls = false → AllOk c0.mem := fun hl n => by rw [h.memOk]; exact hmem hl n
  simpa using run_bmc hmtu hH1 hH2 hb hbr hj hm0 hf hr

/-- The size of the host's buffers (if its MTU does not fit, anything). -/
def hostRoom (B mtu : Nat) : Nat := if 64 ≤ mtu ∧ mtu + 12 ≤ B then mtu + 12 else 76

theorem endpoint_host {hw : Hw E} {env : E} {eid : Byte} {mx : Nat} {mtu : Nat} {mem : Mem} (hmem : AllOk mem) {B : Nat}
    (hB1 : 76 ≤ B) (hB2 : B ≤ 524156)
    {c0 c : Core (AstSt E)} (h : AstEndpoint hw env eid mx .host mtu mem c0) {hist : List AstOp} {log : List AstRec}
    (hr : c0.astRun hw hist = .ok (c, log)) :
    76 ≤ hostRoom B mtu ∧ hostRoom B mtu ≤ B ∧
      ∃ bus, c.busses = [bus] ∧ Obeys (cfgH B (hostRoom B mtu)) bus.binding.st (fun f => HostFits B mtu ∧
        Rel (cfgH B (hostRoom B mtu)) HostClosed none bus.binding.st.kcsStatus (offers 0 (astEvents log)) (packetsIn (astEvents log)) bus f) := by
  obtain ⟨bus, hb, hbr, hj⟩ := h.inv
  obtain ⟨rc, s, hrc, hs, hb', -⟩ := h.start
  have hs : initHost hw (astZero env .host mtu) = .ok (rc, s) := hs
  have hob := initHost_ready (H := hostRoom B mtu) hB1 hB2 h.mtu_lt (by intro hF; unfold HostFits at hF; unfold hostRoom; rw [if_pos hF]) rfl rfl rfl hs hrc
  have hR1 : 76 ≤ hostRoom B mtu := by unfold hostRoom; split <;> omega
  have hR2 : hostRoom B mtu ≤ B := by unfold hostRoom; split <;> omega
  refine ⟨hR1, hR2, ?_⟩
  have hm0 : AllOk c0.mem := fun n => by rw [h.memOk]; exact hmem n
  have hst : bus.binding.st = s := by rw [hb] at hb'; simp only [List.cons.injEq, and_true] at hb'; rw [hb']
  rcases hob.fact (fun f hf => hf.2.1) with hF | hno
  · have hf : Follows (cfgH B (hostRoom B mtu)) HostClosed none [] [] c0 := by
      refine ⟨_, hb', hob.mono ?_⟩
      rintro f ⟨⟨f1, f2, f3, f4, f5, f6, f7, f8, f9, f10⟩, -, hk, hp, hrx, htx, hm⟩
      have hno : ∀ {X : Prop}, f.opened = true → X := by intro X h; rw [f3] at h; cases h
      exact
        { todo := f1, started := f2, fin := by rw [f5]; rfl, ver := rfl, hdr := rfl, tlr := rfl, mode := hm, sent := f9,
          fit := by intro p hp; simp [taken] at hp
          all := by intro o ho; simp at ho
          got := by rw [f10]; rfl
          coh := by rw [f8, f6]; rfl
          queue := by intro p hp; simp at hp
          kcs := fun _ => ⟨hk, hno⟩
          mid := fun v h => (nomatch h)
          stale := by intro h; rw [f4] at h; cases h
          shut := fun _ => ⟨rfl, rfl, f6, f7⟩
          closed := fun _ => ⟨hp, by simp only; rw [hrx]; rfl, by simp only; rw [htx]; rfl, f9, f10⟩
          lay := hno
          tx := hno
          rx := hno
          can := hno }
    obtain ⟨b', hb1, ho⟩ := run_host hR1 hR2 hB2 hb hbr hj hm0 hf hr
    exact ⟨b', hb1, ho.mono fun f hf => ⟨hF, by simpa using hf⟩⟩
  · obtain ⟨b', l, hb1, hl, -⟩ := astRun_shut hb hbr hj hr
    exact ⟨b', hb1, (hno.congr (s' := bus.binding.st) (by rw [hst])).never hl⟩

/-! ## Two endpoints on one link -/

variable {EB EH : Type}

/-- What holds at the end of an execution of two endpoints on one link. -/
structure Both (ls : Bool) (mtuB mtuH : Nat) (logB logH : List AstRec) (cB : Core (AstSt EB)) (cH : Core (AstSt EH)) (h : Lpc) : Prop where
  fits : HostFits (bmcRoom mtuB) mtuH
  ends : ∃ busB busH b t, cB.busses = [busB] ∧ cH.busses = [busH] ∧
    Joint (bmcRoom mtuB) (mtuH + 12) h b t ∧
    Rel (cfgB (bmcRoom mtuB) (mtuH + 12) ls) (BmcClosed mtuB) none busB.binding.st.kcsStatus (offers 0 (astEvents logB)) (packetsIn (astEvents logB)) busB b ∧
    Rel (cfgH (bmcRoom mtuB) (mtuH + 12)) HostClosed none busH.binding.st.kcsStatus (offers 0 (astEvents logH)) (packetsIn (astEvents logH)) busH t

theorem step_lossy {B H : Nat} {ls : Bool} {f : Fine} {a : Access} : f.step (cfgB B H ls) a = f.step (cfgB B H) a := rfl

theorem accepts_lossy {B H : Nat} {ls : Bool} {P : Fine → Prop} : ∀ {l : List Access} {f : Fine},
    Accepts (cfgB B H ls) f l P = Accepts (cfgB B H) f l P
  | [], _ => rfl
  | a :: l, f => by
    simp only [Accepts, step_lossy, accepts_lossy (l := l)]
    rfl

theorem link_both {hwB : Hw EB} {envB : EB} {eidB : Byte} {mxB mtuB : Nat} {memB : Mem} {b0 cB : Core (AstSt EB)} {histB : List AstOp} {logB : List AstRec}
    {hwH : Hw EH} {envH : EH} {eidH : Byte} {mxH mtuH : Nat} {memH : Mem} {h0 cH : Core (AstSt EH)} {histH : List AstOp} {logH : List AstRec}
    {wr : Bool} {win : Nat → Byte} {T1 T2 : List (AstMode × Access)} {h : Lpc}
    (hB : AstEndpoint hwB envB eidB mxB .bmc mtuB memB b0) (rB : b0.astRun hwB histB = .ok (cB, logB))
    (hH : AstEndpoint hwH envH eidH mxH .host mtuH memH h0) (rH : h0.astRun hwH histH = .ok (cH, logH)) (hmemB : ls = false → AllOk memB) (hmem : AllOk memH)
    (eB : ∀ bus, cB.busses = [bus] → bus.binding.st.accs = of .bmc (T1 ++ T2))
    (eH : ∀ bus, cH.busses = [bus] → bus.binding.st.accs = of .host (T1 ++ T2))
    (hrun : Lpc.run wr (Lpc.reset win) (T1 ++ T2) = some h) :
    Both ls mtuB mtuH logB logH cB cH h ∧
    ∃ h1 b1 t1, Lpc.run wr (Lpc.reset win) T1 = some h1 ∧ Joint (bmcRoom mtuB) (mtuH + 12) h1 b1 t1 ∧
      watch .bmc Watch.zero (of .bmc T1) = some b1.w ∧ watch .host Watch.zero (of .host T1) = some t1.w := by
  obtain ⟨h76, fB⟩ := endpoint_bmc hB rB hmemB
  obtain ⟨r1, r2, busH, hbH, oH⟩ := endpoint_host hmem h76 (bmcRoom_le mtuB) hH rH
  obtain ⟨busB, hbB, oB⟩ := fB _ r1 r2
  unfold Obeys at oB oH
  rw [accepts_lossy] at oB
  rw [eB _ hbB] at oB
  rw [eH _ hbH] at oH
  obtain ⟨h1, b1, t1, b', t', e1, e2, e3, J1, e4, e5, J, hP, hF, hQ⟩ := link_prefix (by omega) r2 (joint_zero _ _ win) hrun oB oH
  have hR : hostRoom (bmcRoom mtuB) mtuH = mtuH + 12 := by
    unfold HostFits at hF
    unfold hostRoom; rw [if_pos hF]
  rw [hR] at J J1 hP hQ e2 e3
  exact ⟨⟨hF, busB, busH, b', t', hbB, hbH, J, hP, hQ⟩, h1, b1, t1, e1, J1, Fine.run_watch e2, Fine.run_watch e3⟩

/-! ## What was sent and what was received -/

theorem recvd_wire {p : List Byte} (h1 : p.head? = some 1) (h2 : p.length < 2 ^ 32) : recvd (be32 p.length, wire 3 p) = some p := by
  have hfb : fromBe (be32 p.length) = p.length := by rw [fromBe_be32]; exact u32_of_lt h2
  unfold recvd
  have hw : wire 3 p = p ++ be32 (crc32 p).toNat := rfl
  simp only [hw, hfb]
  rw [if_pos]
  · simp
  · constructor
    · cases p with
      | nil => simp at h1
      | cons x p => simpa using h1
    · simp [be32]

theorem recvd_all {ps : List (List Byte)} (h : ∀ p ∈ ps, p.head? = some 1 ∧ p.length < 2 ^ 32) :
    (ps.map fun p => (be32 p.length, wire 3 p)).filterMap recvd = ps := by
  induction ps with
  | nil => rfl
  | cons p ps ih =>
    obtain ⟨h1, h2⟩ := h p (by simp)
    simp only [List.map_cons, List.filterMap_cons, recvd_wire h1 h2]
    rw [ih fun q hq => h q (by simp [hq])]

/-- The packets delivered are the packets taken, except for the last one if it is still under way. -/
theorem dir_packets {sz o : Nat} {win : Nat → Byte} {r1 r2 : Option Byte} {s r : Fine} {ps rs : List (List Byte)}
    (hd : Dir sz o win r1 r2 s r) (hs : s.sent = ps.map (fun p => (be32 p.length, wire 3 p)))
    (hp : ∀ p ∈ ps, p.head? = some 1 ∧ p.length < 2 ^ 32) (hr : rs = r.got.filterMap recvd) :
    ∃ last, ps = rs ++ last ∧ last.length ≤ 1 ∧ (s.w.tx = .free → last = []) := by
  have hall := recvd_all hp
  rw [← hs] at hall
  have heq : s.sent = r.got → ∃ last, ps = rs ++ last ∧ last.length ≤ 1 ∧ (s.w.tx = .free → last = []) := by
    intro h
    exact ⟨[], by rw [← hall, h, hr, List.append_nil], by simp, fun _ => rfl⟩
  have hmore : ∀ {x}, s.sent = r.got ++ [x] → s.w.tx ≠ .free → ∃ last, ps = rs ++ last ∧ last.length ≤ 1 ∧ (s.w.tx = .free → last = []) := by
    intro x h hne
    refine ⟨[x].filterMap recvd, ?_, ?_, fun hf => absurd hf hne⟩
    · rw [← hall, h, hr, List.filterMap_append]
    · exact List.length_filterMap_le _ _
  cases hd with
  | free _ _ _ _ h => exact heq h
  | half _ _ _ _ h => exact heq h
  | full h1 _ _ _ h => exact hmore h (by rw [h1]; simp)
  | begin h1 _ _ _ h => exact hmore h (by rw [h1]; simp)
  | begun h1 _ _ _ h => exact hmore h (by rw [h1]; simp)
  | len h1 _ _ _ h => exact hmore h (by rw [h1]; simp)
  | done _ _ _ _ h => exact heq h
  | complete _ _ _ _ h => exact heq h

end Mctp
