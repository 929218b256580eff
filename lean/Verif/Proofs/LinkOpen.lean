import Verif.Proofs.LinkReady

/-! The code keeps to the detailed monitor: opening the channel. -/

namespace Mctp

open Spec

variable {E : Type}

/-- The binding once the channel is open. -/
def BmcOpen (B H : Nat) (b b' : Binding (AstSt E)) : Prop :=
  b'.version = b.version ∧ b'.pktHeader = b.pktHeader ∧ b'.pktTrailer = b.pktTrailer ∧ b'.controlRx = b.controlRx ∧
    b'.pktSize = H - 8 ∧ b'.st.proto = some 3 ∧ b'.st.mode = b.st.mode ∧ b'.st.mtu = b.st.mtu ∧
    b'.st.tx = ⟨256, H, .acquired⟩ ∧ b'.st.rx = ⟨256 + B, H, .released⟩

theorem calculateMtu_link {s : AstSt E} {l : AstLayout} {H mtu n : Nat} (hmtu : mtu < 4294967284) (hH1 : 76 ≤ H)
    (hH2 : H ≤ bmcRoom mtu) (hm : s.mtu = mtu) (hp : s.proto = some 3) (ht : s.tx.offset = 256)
    (hr : s.rx.offset = 256 + bmcRoom mtu) (hl : l.tx.size = H) (he : calculateMtu s l = .ok n) : n = H - 12 := by
  have hB := bmcRoom_le mtu
  unfold calculateMtu at he
  obtain ⟨limit, h1, he⟩ := Res.bind_eq_ok.mp he
  have hlim : limit = bmcRoom mtu := by
    rw [ht, hr, hm, hp] at h1
    split at h1
    · rename_i h0
      rw [u32_of_lt (by unfold packetSize hdrSize; omega), protoPacketSize_ok (by decide) (by unfold packetSize hdrSize; omega)] at h1
      cases h1
      rw [show overhead 3 = 8 from rfl]
      unfold bmcRoom packetSize hdrSize
      rw [if_neg h0]
      omega
    · cases h1; omega
  obtain ⟨body, h2, he⟩ := Res.bind_eq_ok.mp he
  rw [hlim, hl, hp, Nat.min_eq_right hH2, protoBodySize_ok (by decide) (by omega) (by omega)] at h2
  rw [show overhead 3 = 8 from rfl] at h2
  simp only [Except.ok.injEq] at h2 he
  rw [← he, ← h2]
  unfold u32 bodySize hdrSize sizeMod
  omega

theorem negotiateLayoutBmc_ready {hw : Hw E} {H mtu : Nat} {b b' : Binding (AstSt E)} {rc : Int} {rest : List Access}
    {x y : BufState} {P : Fine → Prop} (hmtu : mtu < 4294967284) (hH1 : 76 ≤ H) (hH2 : H ≤ bmcRoom mtu)
    (hm : b.st.mtu = mtu) (hp : b.st.proto = some 3) (hmode : b.st.mode = .bmc)
    (ht : b.st.tx = ⟨256, bmcRoom mtu, x⟩) (hr : b.st.rx = ⟨256 + bmcRoom mtu, bmcRoom mtu, y⟩)
    (h : Obeys (cfgB (bmcRoom mtu) H ls) b.st P)
    (hP : ∀ f, P f → Starting true (.lpcRead 0 (hdr1 (bmcRoom mtu) H) 0 :: .lpcWrite 16 (layB (bmcRoom mtu) H) 0 :: rest) f)
    (he : negotiateLayoutBmc hw b = .ok (rc, b')) :
    Obeys (cfgB (bmcRoom mtu) H ls) b'.st (fun f => Starting true rest f ∧ rc = 0 ∧ b'.version = b.version ∧
      b'.pktHeader = b.pktHeader ∧ b'.pktTrailer = b.pktTrailer ∧ b'.controlRx = b.controlRx ∧ b'.pktSize = H - 8 ∧
      b'.st.proto = some 3 ∧ b'.st.mode = b.st.mode ∧ b'.st.mtu = b.st.mtu ∧
      b'.st.tx = ⟨256, H, x⟩ ∧ b'.st.rx = ⟨256 + bmcRoom mtu, H, y⟩) := by
  have hB := bmcRoom_le mtu
  generalize hBe : bmcRoom mtu = B at *
  unfold negotiateLayoutBmc at he
  obtain ⟨version, hversion, he⟩ := Res.bind_eq_ok.mp he
  rw [hp] at hversion
  cases hversion
  rw [if_neg (by decide)] at he
  obtain ⟨⟨r1, l, s1⟩, hr1, he⟩ := Res.bind_eq_ok.mp he
  obtain ⟨hdr, hlen, hs1, ha1, hl⟩ := layoutRead_ok hr1
  rw [hmode] at hl
  simp only at hl he
  have h1 := h.start hP ha1 (fun f hf hr => rely_read hr (hP f hf).1 (by rw [hlen]; exact lhdr_length ..))
    (fun f hf => step_hdrRead (lhdr_length ..))
  have hno : ¬ (hdr = hdr1 B H ∧ r1 = 0) → Obeys (cfgB B H ls) s1 (fun _ => False) := fun hn =>
    h1.mono fun f hf => hn (by have := hf.2.1; cases this; exact ⟨rfl, rfl⟩)
  obtain ⟨-, -, -, -, f16, f20, f24, f28⟩ := lhdr_fields 1 3 0 H (256 + B) B
  rw [u32_of_lt (by omega)] at f20 f24 f28
  have hmode1 : s1.mode = .bmc := hs1.mode.trans hmode
  by_cases hok : hdr = hdr1 B H ∧ r1 = 0
  · obtain ⟨rfl, rfl⟩ := hok
    rw [if_neg (by decide)] at he
    simp only [hdr1, f16, f20, f24, f28] at hl
    rw [hs1.proto, hp] at he
    obtain ⟨valid, hval, he⟩ := Res.bind_eq_ok.mp he
    have hsafe := link_safe (B := B) hB hH1 hH2 (by omega : 76 ≤ B) (Nat.le_refl _)
    have hiff := validate_iff hval (by rw [hl]; simp only; omega) (by rw [hl]; simp only; omega) (by rw [hl]; simp only; omega)
      (by rw [hl]; simp only; omega)
    have hv : valid = true := hiff.mpr (by rw [hl]; exact hsafe.2)
    subst hv
    rw [if_neg (by decide)] at he
    obtain ⟨n, hn, he⟩ := Res.bind_eq_ok.mp he
    have hn' : n = H - 12 := calculateMtu_link hmtu hH1 (by rw [hBe]; exact hH2) (hs1.mtu.trans hm) (hs1.proto.trans hp)
      (by rw [hs1.tx, ht]) (by rw [hs1.rx, hr, hBe]) (by rw [hl]) hn
    subst hn'
    obtain ⟨sz, hsz, he⟩ := Res.bind_eq_ok.mp he
    rw [u32_of_lt (by unfold packetSize hdrSize; omega), protoPacketSize_ok (by decide) (by unfold packetSize hdrSize; omega),
      show overhead 3 = 8 from rfl, show packetSize (H - 12) + 8 = H by unfold packetSize hdrSize; omega] at hsz
    cases hsz
    obtain ⟨valid, hval, he⟩ := Res.bind_eq_ok.mp he
    have hsafe2 := link_safe (B := B) hB hH1 hH2 hH1 hH2
    have hiff := validate_iff hval (by simp only; rw [hs1.rx, hr]; simp only; omega) (by simp only; omega)
      (by simp only; rw [hs1.tx, ht]; simp only; omega) (by simp only; omega)
    have hv : valid = true := hiff.mpr (by simp only; rw [hs1.rx, hr, hs1.tx, ht]; exact hsafe2.2)
    subst hv
    simp only [if_true] at he
    obtain ⟨⟨r2, s2⟩, hr2, he⟩ := Res.bind_eq_ok.mp he
    unfold layoutWrite at hr2
    simp only [hmode1] at hr2
    obtain ⟨hs2, -⟩ := lpcWrite_ok hr2
    have ha2 := lpcWrite_adds hr2
    have h2 := h1.start (e := .lpcWrite 16 (layB B H) 0) (fun f hf => hf.1) (ha2.congr rfl rfl)
      (fun f hf hr' => by
        have hr' : r2 = 0 := hr'
        rw [hr', hs1.tx, ht, hs1.rx, hr]; rfl)
      (fun f hf => step_hdrWrite (by simp [layB, be32]) (by decide))
    simp only at he
    split at he
    · rename_i hneg
      simp only [Except.ok.injEq, Prod.mk.injEq] at he
      obtain ⟨rfl, rfl⟩ := he
      exact h2.mono fun f hf => absurd hneg (by have := hf.2.1; simp only [Access.lpcWrite.injEq] at this; omega)
    · rw [if_pos (by decide)] at he
      simp only [Except.ok.injEq, Prod.mk.injEq] at he
      obtain ⟨rfl, rfl⟩ := he
      refine h2.mono fun f hf => ⟨hf.1, rfl, rfl, rfl, rfl, rfl, ?_, ?_, ?_, ?_, ?_, ?_⟩
      · simp only [packetSize, hdrSize]; omega
      · exact hs2.proto
      · exact hs2.mode.trans hmode.symm
      · exact hs2.mtu.trans hs1.mtu
      · rw [hs2.tx]; simp only; rw [hs1.tx, ht]
      · rw [hs2.rx]; simp only; rw [hs1.rx, hr]
  · have hnever := hno hok
    split at he
    · simp only [Except.ok.injEq, Prod.mk.injEq] at he
      obtain ⟨rfl, rfl⟩ := he
      exact hnever.mono fun f hf => hf.elim
    · obtain ⟨valid, hval, he⟩ := Res.bind_eq_ok.mp he
      split at he
      · simp only [Except.ok.injEq, Prod.mk.injEq] at he
        obtain ⟨rfl, rfl⟩ := he
        exact hnever.mono fun f hf => hf.elim
      · obtain ⟨n, hn, he⟩ := Res.bind_eq_ok.mp he
        obtain ⟨sz, hsz, he⟩ := Res.bind_eq_ok.mp he
        obtain ⟨valid, hval, he⟩ := Res.bind_eq_ok.mp he
        split at he
        · obtain ⟨⟨r2, s2⟩, hr2, he⟩ := Res.bind_eq_ok.mp he
          obtain ⟨l2, ha2, -⟩ := layoutWrite_still hr2
          have := hnever.never (P := fun _ => False) (ha2.congr rfl rfl)
          simp only at he
          split at he
          · simp only [Except.ok.injEq, Prod.mk.injEq] at he
            obtain ⟨rfl, rfl⟩ := he
            exact this.mono fun f hf => hf.elim
          · split at he <;>
            · simp only [Except.ok.injEq, Prod.mk.injEq] at he
              obtain ⟨rfl, rfl⟩ := he
              exact this.mono fun f hf => hf.elim
        · simp only [Except.ok.injEq, Prod.mk.injEq] at he
          obtain ⟨rfl, rfl⟩ := he
          exact hnever.mono fun f hf => hf.elim

/-- The BMC opens the channel. -/
theorem initChannel_ready {hw : Hw E} {H mtu : Nat} {b b' : Binding (AstSt E)} {on : Bool}
    {x y : BufState} {P : Fine → Prop} (hmtu : mtu < 4294967284) (hH1 : 76 ≤ H) (hH2 : H ≤ bmcRoom mtu)
    (hm : b.st.mtu = mtu) (hmode : b.st.mode = .bmc)
    (ht : b.st.tx = ⟨256, bmcRoom mtu, x⟩) (hr : b.st.rx = ⟨256 + bmcRoom mtu, bmcRoom mtu, y⟩)
    (h : Obeys (cfgB (bmcRoom mtu) H ls) b.st P)
    (hP : ∀ f, P f → Starting true (cfgB (bmcRoom mtu) H ls).init f)
    (he : initChannel hw b = .ok (on, b')) :
    Obeys (cfgB (bmcRoom mtu) H ls) b'.st (fun f => Starting true [] f ∧ on = true ∧ BmcOpen (bmcRoom mtu) H b b') := by
  unfold initChannel at he
  obtain ⟨⟨r1, hdr, s1⟩, hr1, he⟩ := Res.bind_eq_ok.mp he
  obtain ⟨hs1, hlen, -⟩ := lpcRead_ok hr1
  have ha1 := lpcRead_adds hr1
  simp only at he
  have h1 := h.start (e := .lpcRead 0 (hdr1 (bmcRoom mtu) H) 0) hP ha1
    (fun f hf hr => rely_read hr (hP f hf).1 (by rw [hlen]; exact lhdr_length ..))
    (fun f hf => step_hdrRead (lhdr_length ..))
  have hneg : hdr = hdr1 (bmcRoom mtu) H → negotiateVersion astVerMin astVerCur (field16 hdr offHostMin) (field16 hdr offHostCur) = 3 := by
    rintro rfl
    obtain ⟨-, -, f8, f10, -⟩ := lhdr_fields 1 3 0 H (256 + bmcRoom mtu) (bmcRoom mtu)
    simp only [hdr1, offHostMin, offHostCur, f8, f10]
    rfl
  generalize negotiateVersion astVerMin astVerCur (field16 hdr offHostMin) (field16 hdr offHostCur) = n at hneg he
  split at he
  · cases he
  · obtain ⟨⟨r2, b2⟩, hr2, he2⟩ := Res.bind_eq_ok.mp he
    obtain ⟨⟨r3, s3⟩, hr3, he3⟩ := Res.bind_eq_ok.mp he2
    clear he he2
    simp only at hr2 hr3 he3
    simp only [Except.ok.injEq, Prod.mk.injEq] at he3
    obtain ⟨hon, hb'⟩ := he3
    generalize hks : kcsSetStatus hw { s3 with tx := { s3.tx with state := .acquired }, rx := { s3.rx with state := .released } }
      (if (if r2 < 0 then 0 else n) > 0 then kcsBmcReady ||| kcsObf ||| kcsChannelActive else kcsBmcReady ||| kcsObf) = q at hb'
    obtain ⟨r4, s4⟩ := q
    simp only at hb'
    by_cases hn3 : n = 3
    · subst hn3
      have h2 := negotiateLayoutBmc_ready (b := { b with st := { s1 with proto := some 3 } }) (x := x) (y := y) hmtu hH1 hH2
        (hs1.mtu.trans hm) rfl (hs1.mode.trans hmode) (hs1.tx.trans ht) (hs1.rx.trans hr) (h1.congr rfl) (fun f hf => hf.1) hr2
      have h3 := h2.start (e := .lpcWrite 12 (be16 3) 0) (fun f hf => hf.1) (lpcWrite_adds hr3)
        (fun f hf hr => by
          have hr : r3 = 0 := hr
          rw [hr, hf.2.1]; rfl)
        (fun f hf => by
          obtain ⟨-, -, -, -, -, -, e1, e2, -⟩ := hf.1
          rw [Watch.step]
          simp [be16, e1, e2])
      by_cases hr0 : r2 = 0
      · subst hr0
        obtain ⟨h4, hs4⟩ := kcsSetStatus_ready (v := 0xc1) (h3.congr (s' := { s3 with tx := { s3.tx with state := .acquired }, rx := { s3.rx with state := .released } }) rfl)
          (fun f hf => hf.1) hks
        have hs3 := (lpcWrite_ok hr3).1
        subst hb'
        refine h4.mono fun f hf => ?_
        obtain ⟨hf, f3, -, -, ⟨f2, -, -, e1, e2, e3, e4, e5, e6, e7, e8, e9, e10⟩, -⟩ := hf
        refine ⟨hf, by rw [← hon]; simp [kcsBmcReady, kcsObf, kcsChannelActive], e1, e2, e3, e4, e5, ?_, ?_, ?_, ?_, ?_⟩
        · exact hs4.proto.trans (hs3.proto.trans e6)
        · exact hs4.mode.trans (hs3.mode.trans (e7.trans hs1.mode))
        · exact hs4.mtu.trans (hs3.mtu.trans (e8.trans hs1.mtu))
        · simp only; rw [hs4.tx]; simp only; rw [hs3.tx, e9]
        · simp only; rw [hs4.rx]; simp only; rw [hs3.rx, e10]
      · obtain ⟨-, -, l4, ha4, -⟩ := kcsSetStatus_adds hks
        have : Obeys (cfgB (bmcRoom mtu) H ls) s3 (fun _ => False) := h3.mono fun f hf => by
          obtain ⟨-, -, ⟨f2, hf2⟩, -⟩ := hf
          exact hr0 hf2.2.1
        subst hb'
        exact this.never (ha4.congr rfl rfl)
    · have hnever : Obeys (cfgB (bmcRoom mtu) H ls) s1 (fun _ => False) :=
        h1.mono fun f hf => hn3 (hneg (by have := hf.2.1; cases this; rfl))
      obtain ⟨⟨l2, ha2, -⟩, -⟩ := negotiateLayoutBmc_still hr2
      obtain ⟨-, -, l4, ha4, -⟩ := kcsSetStatus_adds hks
      subst hb'
      exact hnever.never ((((ha2.congr rfl rfl).trans (lpcWrite_adds hr3)).trans (ha4.congr rfl rfl)))

/-- The binding of the host once the channel is open. -/
def HostOpen (B H : Nat) (b b' : Binding (AstSt E)) : Prop :=
  b'.version = b.version ∧ b'.pktHeader = b.pktHeader ∧ b'.pktTrailer = b.pktTrailer ∧ b'.controlRx = b.controlRx ∧
    b'.pktSize = H - 8 ∧ b'.st.proto = some 3 ∧ b'.st.mode = b.st.mode ∧ b'.st.mtu = b.st.mtu ∧
    b'.st.kcsStatus = b.st.kcsStatus ∧
    b'.st.tx = ⟨256 + B, H, .acquired⟩ ∧ b'.st.rx = ⟨256, H, .released⟩

theorem be16_zero_ne : be16 0 ≠ be16 3 := by decide

/-- The host opens the channel. -/
theorem finaliseChannel_ready {hw : Hw E} {B H : Nat} {b b' : Binding (AstSt E)} {rc : Int} {P : Fine → Prop}
    (hH1 : 76 ≤ H) (hH2 : H ≤ B) (hB : B ≤ 524156) (hmode : b.st.mode = .host)
    (h : Obeys (cfgH B H) b.st P)
    (hP : ∀ f, P f → f.todo = [] ∧ f.fin = true ∧ f.rxp = .away)
    (he : finaliseChannel hw b = .ok (rc, b')) :
    Obeys (cfgH B H) b'.st (fun f => ∃ f0, P f0 ∧
      ((rc = 0 ∧ HostOpen B H b b' ∧ ∃ a, f = { f0 with w := ⟨a, .free, false⟩, fin := false, opened := true, stale := !f0.stat.getLsbD 6, todo := [] }) ∨
       (rc < 0 ∧ f0.opened = false ∧ SameSt b.st b'.st ∧ b' = { b with st := b'.st } ∧
          ∃ a, f = { f0 with w := ⟨a, .free, false⟩, fin := false }))) := by
  unfold finaliseChannel at he
  obtain ⟨⟨r1, ver, s1⟩, hr1, he⟩ := Res.bind_eq_ok.mp he
  obtain ⟨hs1, hlen, -⟩ := lpcRead_ok hr1
  have ha1 := lpcRead_adds hr1
  simp only at he
  have h1 : Obeys (cfgH B H) s1 (fun f => ∃ f0, P f0 ∧ r1 = 0 ∧ f0.fin = true ∧ f0.rxp = .away ∧ 
      ((ver = be16 3 ∧ f = { f0 with w := ⟨some (.lpcRead 12 ver r1), .free, false⟩, fin := false, opened := true, stale := !f0.stat.getLsbD 6, todo := (cfgH B H).init }) ∨
       (ver = be16 0 ∧ f0.opened = false ∧ f = { f0 with w := ⟨some (.lpcRead 12 ver r1), .free, false⟩, fin := false }))) := by
    refine h.step ha1 fun f hf hr => ?_
    obtain ⟨e1, e2, e3⟩ := hP f hf
    obtain ⟨hr0, -, hrr⟩ := hr
    have hv := (hrr e1).1 rfl hlen e2
    have hw1 : f.w.step (cfgH B H).mode (.lpcRead offNegotiated ver r1) = some ⟨some (.lpcRead 12 ver r1), .free, false⟩ := by
      rw [Watch.step]; simp [offNegotiated, hlen]
    rw [Fine.step_free e1 hw1]
    have hlen' : ver.length = 2 := hlen
    rcases hv with rfl | ⟨ho, rfl⟩
    · exact ⟨_, by unfold Fine.free; rw [if_pos (by decide : offNegotiated = 12), if_pos ⟨e2, e3, hlen'⟩, if_pos (rfl : be16 3 = be16 3)], f, hf, hr0, e2, e3, Or.inl ⟨rfl, rfl⟩⟩
    · exact ⟨_, by unfold Fine.free; rw [if_pos (by decide : offNegotiated = 12), if_pos ⟨e2, e3, hlen'⟩, if_neg be16_zero_ne], f, hf, hr0, e2, e3, Or.inr ⟨rfl, ho, rfl⟩⟩
  by_cases hz : r1 = 0
  · subst hz
    rw [if_neg (by decide)] at he
    by_cases hv0 : ver = be16 0
    · subst hv0
      rw [if_pos (Or.inl (by decide))] at he
      simp only [Except.ok.injEq, Prod.mk.injEq] at he
      obtain ⟨rfl, rfl⟩ := he
      refine h1.mono ?_
      rintro f ⟨f0, hf0, -, -, -, ⟨hc, -⟩ | ⟨-, ho, hf⟩⟩
      · exact absurd hc be16_zero_ne
      · exact ⟨f0, hf0, Or.inr ⟨by decide, ho, hs1, rfl, _, hf⟩⟩
    · by_cases hv3 : ver = be16 3
      · subst hv3
        have h1' : Obeys (cfgH B H) s1 (fun f => ∃ f0, P f0 ∧ f0.rxp = .away ∧ f = { f0 with w := ⟨some (.lpcRead 12 (be16 3) 0), .free, false⟩, fin := false, opened := true, stale := !f0.stat.getLsbD 6, todo := (cfgH B H).init }) := by
          refine h1.mono ?_
          rintro f ⟨f0, hf0, -, -, e3, ⟨-, hf⟩ | ⟨hc, -⟩⟩
          · exact ⟨f0, hf0, e3, hf⟩
          · exact absurd hc.symm be16_zero_ne
        rw [if_neg (by decide)] at he
        obtain ⟨⟨r2, l, s2⟩, hr2, he2⟩ := Res.bind_eq_ok.mp he
        clear he
        obtain ⟨hdr, hlen2, hs2, ha2, hl⟩ := layoutRead_ok hr2
        rw [show (AstSt.mode _) = .host from hs1.mode.trans hmode] at hl
        simp only at hl he2
        have h2 : Obeys (cfgH B H) s2 (fun f => hdr = hdr2 B H ∧ r2 = 0 ∧ ∃ f0, P f0 ∧ ∃ a, f = { f0 with w := ⟨a, .free, false⟩, fin := false, opened := true, stale := !f0.stat.getLsbD 6, todo := [] }) := by
          refine (h1'.congr (s' := { s1 with proto := some (fromBe (be16 3)) }) rfl).step ha2 ?_
          rintro f ⟨f0, hf0, e3, rfl⟩ hr
          have := rely_read (bs' := hdr2 B H) (rest := []) hr rfl (by rw [hlen2]; exact lhdr_length ..)
          cases this
          exact ⟨_, Fine.step_script rfl (step_hdrRead (lhdr_length ..)), rfl, rfl, f0, hf0, _, rfl⟩
        by_cases hok : hdr = hdr2 B H ∧ r2 = 0
        · obtain ⟨rfl, rfl⟩ := hok
          obtain ⟨-, -, -, -, f16, f20, f24, f28⟩ := lhdr_fields 1 3 3 H (256 + B) H
          rw [u32_of_lt (by omega)] at f20 f24 f28
          simp only [hdr2, f16, f20, f24, f28] at hl
          rw [if_neg (by decide)] at he2
          obtain ⟨valid, hval, he3⟩ := Res.bind_eq_ok.mp he2
          rw [show s2.proto = some 3 from hs2.proto] at hval he3
          have hsafe := link_safe (B := B) hB hH1 hH2 hH1 hH2
          have hiff := validate_iff hval (by rw [hl]; simp only; omega) (by rw [hl]; simp only; omega) (by rw [hl]; simp only; omega)
            (by rw [hl]; simp only; omega)
          have hv : valid = true := hiff.mpr (by rw [hl]; exact hsafe.1)
          subst hv
          rw [if_neg (by decide)] at he3
          obtain ⟨most, hmost, he4⟩ := Res.bind_eq_ok.mp he3
          rw [if_pos (by decide), show l.tx.size = H by rw [hl], protoBodySize_ok (by decide) (by omega) (by omega)] at hmost
          simp only [Except.ok.injEq, Prod.mk.injEq] at hmost he4
          obtain ⟨rfl, rfl⟩ := he4
          refine h2.congr (s' := _) rfl |>.mono ?_
          rintro f ⟨-, -, f0, hf0, hf⟩
          exact ⟨f0, hf0, Or.inl ⟨rfl, ⟨rfl, rfl, rfl, rfl, hmost.symm, rfl, hs2.mode.trans hs1.mode, hs2.mtu.trans hs1.mtu,
            hs2.kcs.trans hs1.kcs, by simp only; rw [hl], by simp only; rw [hl]⟩, hf⟩⟩
        · have hnever : Obeys (cfgH B H) s2 (fun _ => False) := h2.mono fun f hf => hok ⟨hf.1, hf.2.1⟩
          have : b'.st.log = s2.log := by
            split at he2
            · cases he2; rfl
            · obtain ⟨valid, hval, he3⟩ := Res.bind_eq_ok.mp he2
              split at he3
              · cases he3; rfl
              · obtain ⟨most, hmost, he4⟩ := Res.bind_eq_ok.mp he3
                cases he4; rfl
          exact (hnever.congr this).mono fun f hf => hf.elim
      · have hnever : Obeys (cfgH B H) s1 (fun _ => False) := h1.mono (by
          rintro f ⟨f0, -, -, -, -, ⟨hc, -⟩ | ⟨hc, -⟩⟩
          · exact hv3 hc
          · exact hv0 hc)
        split at he
        · cases he; exact hnever.mono fun f hf => hf.elim
        · obtain ⟨⟨r2, l, s2⟩, hr2, he2⟩ := Res.bind_eq_ok.mp he
          obtain ⟨hdr, -, -, ha2, -⟩ := layoutRead_ok hr2
          simp only at he2
          have : b'.st.log = s2.log := by
            split at he2
            · cases he2; rfl
            · obtain ⟨valid, hval, he3⟩ := Res.bind_eq_ok.mp he2
              split at he3
              · cases he3; rfl
              · obtain ⟨most, hmost, he4⟩ := Res.bind_eq_ok.mp he3
                cases he4; rfl
          exact ((hnever.never (P := fun _ => False) (ha2.congr rfl rfl)).congr this).mono fun f hf => hf.elim
  · have hnever : Obeys (cfgH B H) s1 (fun _ => False) := h1.mono (by
      rintro f ⟨f0, -, hc, -⟩
      exact hz hc)
    split at he
    · cases he; exact hnever.mono fun f hf => hf.elim
    · split at he
      · cases he; exact hnever.mono fun f hf => hf.elim
      · obtain ⟨⟨r2, l, s2⟩, hr2, he2⟩ := Res.bind_eq_ok.mp he
        obtain ⟨hdr, -, -, ha2, -⟩ := layoutRead_ok hr2
        simp only at he2
        have : b'.st.log = s2.log := by
          split at he2
          · cases he2; rfl
          · obtain ⟨valid, hval, he3⟩ := Res.bind_eq_ok.mp he2
            split at he3
            · cases he3; rfl
            · obtain ⟨most, hmost, he4⟩ := Res.bind_eq_ok.mp he3
              cases he4; rfl
        exact ((hnever.never (P := fun _ => False) (ha2.congr rfl rfl)).congr this).mono fun f hf => hf.elim

end Mctp
