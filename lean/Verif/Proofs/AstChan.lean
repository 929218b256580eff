import Verif.Proofs.AstInv

/-! The invariant of the astlpc binding through channel set-up. -/

namespace Mctp

open Spec

variable {E : Type}

/-- Like `SameSt`, and the monitor's view of the buffers is the same. -/
def Quiet (s : AstSt E) (w : Watch) (s' : AstSt E) : Prop :=
  SameSt s s' ∧ ∃ w', Traced s' w' ∧ w'.tx = w.tx ∧ w'.rx = w.rx

theorem Quiet.refl {s : AstSt E} {w : Watch} (h : Traced s w) : Quiet s w s := ⟨rfl, w, h, rfl, rfl⟩

theorem Phase.quiet {s s' : AstSt E} {w w' : Watch} (h : Phase s w) (h1 : s'.tx.state = s.tx.state)
    (h2 : s'.rx.state = s.rx.state) (h3 : w'.tx = w.tx) (h4 : w'.rx = w.rx) : Phase s' w' := by
  obtain ⟨a, b, c, d, e⟩ := h
  exact ⟨by rw [h1, h3]; exact a, by rw [h1, h3]; exact b, by rw [h1, h3]; exact c, by rw [h3]; exact d,
    by rw [h2, h4]; exact e⟩

theorem layoutRead_quiet {hw : Hw E} {s s' : AstSt E} {w : Watch} {rc : Int} {l : AstLayout}
    (h : Traced s w) (he : layoutRead hw s = .ok (rc, l, s')) :
    Quiet s w s' ∧ l.rx.offset < 2 ^ 32 ∧ l.rx.size < 2 ^ 32 ∧ l.tx.offset < 2 ^ 32 ∧ l.tx.size < 2 ^ 32 := by
  unfold layoutRead at he
  obtain ⟨⟨r, hdr, s1⟩, hr, he⟩ := Res.bind_eq_ok.mp he
  obtain ⟨h1, -, h2⟩ := lpcRead_hdr h (by decide) (by decide) hr
  simp only at he
  split at he <;> simp only [Except.ok.injEq, Prod.mk.injEq] at he <;> obtain ⟨rfl, rfl, rfl⟩ := he <;>
    exact ⟨⟨h1, h2⟩, field32_lt _ _, field32_lt _ _, field32_lt _ _, field32_lt _ _⟩

theorem layoutWrite_quiet {hw : Hw E} {s s' : AstSt E} {w : Watch} {rc : Int} {l : AstLayout}
    (h : Traced s w) (he : layoutWrite hw s l = .ok (rc, s')) : Quiet s w s' := by
  unfold layoutWrite at he
  split at he
  · exact lpcWrite_hdr h (by simp [offLayout, be32]) (by decide) he
  · exact lpcWrite_hdr h (by simp [offRxSize, be32]) (by decide) he

theorem Quiet.trans {s s1 s2 : AstSt E} {w : Watch} (h : Quiet s w s1)
    (h' : ∀ w', Traced s1 w' → Quiet s1 w' s2) : Quiet s w s2 := by
  obtain ⟨a, w1, b, c, d⟩ := h
  obtain ⟨a', w2, b', c', d'⟩ := h' w1 b
  exact ⟨a.trans a', w2, b', c'.trans c, d'.trans d⟩

theorem negotiateLayoutHost_quiet {hw : Hw E} {s s' : AstSt E} {w : Watch} {rc : Int}
    (h : Traced s w) (he : negotiateLayoutHost hw s = .ok (rc, s')) : Quiet s w s' := by
  unfold negotiateLayoutHost at he
  obtain ⟨⟨r, l, s1⟩, hr, he⟩ := Res.bind_eq_ok.mp he
  have h1 := (layoutRead_quiet h hr).1
  simp only at he
  split at he
  · simp only [Except.ok.injEq, Prod.mk.injEq] at he
    obtain ⟨rfl, rfl⟩ := he; exact h1
  · obtain ⟨v1, hv1, he⟩ := Res.bind_eq_ok.mp he
    split at he
    · simp only [Except.ok.injEq, Prod.mk.injEq] at he
      obtain ⟨rfl, rfl⟩ := he; exact h1
    · obtain ⟨sz, hsz, he⟩ := Res.bind_eq_ok.mp he
      obtain ⟨v2, hv2, he⟩ := Res.bind_eq_ok.mp he
      split at he
      · simp only [Except.ok.injEq, Prod.mk.injEq] at he
        obtain ⟨rfl, rfl⟩ := he; exact h1
      · exact h1.trans fun w' hw' => layoutWrite_quiet hw' he

/-- The host's side of the negotiation changes neither buffers nor their ownership. -/
theorem initHost_inv {hw : Hw E} {mtu : Nat} {s s' : AstSt E} {rc : Int}
    (h : AstInv .host mtu s) (he : initHost hw s = .ok (rc, s')) :
    AstInv .host mtu s' ∧ s'.rx = s.rx ∧ s'.tx = s.tx := by
  obtain ⟨hm, hmt, hpr, hlay, hbusy, w, htr, hph⟩ := h
  -- any quiet continuation, with some table entry and status byte
  have fin : ∀ {s1 : AstSt E} (p : Option Nat) (k : Byte), (∀ v, p = some v → v < 4) →
      (∃ w', Traced s1 w' ∧ w'.tx = w.tx ∧ w'.rx = w.rx) → s1.mode = s.mode → s1.mtu = s.mtu →
      s1.rx = s.rx → s1.tx = s.tx →
      ∀ s2 : AstSt E, s2 = { s1 with proto := p, kcsStatus := k } →
      AstInv .host mtu s2 ∧ s2.rx = s.rx ∧ s2.tx = s.tx := by
    intro s1 p k hp hw1 a b c d s2 hs2
    obtain ⟨w', h1, h2, h3⟩ := hw1
    have e1 : s2.rx = s.rx := by rw [hs2]; exact c
    have e2 : s2.tx = s.tx := by rw [hs2]; exact d
    refine ⟨⟨by rw [hs2]; exact a.trans hm, by rw [hs2]; exact b.trans hmt, by rw [hs2]; exact hp, ?_, ?_, w', ?_, ?_⟩, e1, e2⟩
    · rcases hlay with hl | hl
      · exact .inl (hl.congr (by rw [e1]) (by rw [e1]) (by rw [e2]) (by rw [e2]))
      · exact .inr (hl.congr (by rw [e1]) (by rw [e1]) (by rw [e2]) (by rw [e2]))
    · rw [e2]; intro hb
      exact (hbusy hb).congr (by rw [e1]) (by rw [e1]) (by rw [e2]) (by rw [e2])
    · exact h1.congr (by rw [hs2]) (by rw [hs2])
    · exact hph.quiet (by rw [e2]) (by rw [e1]) h2 h3
  have h1 := kcsRead_status (hw := hw) htr
  have hsame := kcsRead_same hw s .status
  unfold initHost at he
  generalize hr : kcsRead hw s .status = r at h1 hsame he
  obtain ⟨r1, st, s1⟩ := r
  simp only at h1 hsame he
  split at he
  · simp only [Except.ok.injEq, Prod.mk.injEq] at he
    obtain ⟨rfl, rfl⟩ := he
    exact fin s1.proto s1.kcsStatus (by rw [hsame.proto]; exact hpr) ⟨_, h1, rfl, rfl⟩ hsame.mode hsame.mtu hsame.rx hsame.tx _ rfl
  · split at he
    · simp only [Except.ok.injEq, Prod.mk.injEq] at he
      obtain ⟨rfl, rfl⟩ := he
      exact fin s1.proto st (by rw [hsame.proto]; exact hpr) ⟨_, h1, rfl, rfl⟩ hsame.mode hsame.mtu hsame.rx hsame.tx _ rfl
    · obtain ⟨⟨r2, hdr, s2⟩, hr2, he⟩ := Res.bind_eq_ok.mp he
      have h1' : Traced { s1 with kcsStatus := st } _ := h1.congr rfl rfl
      obtain ⟨hs2, -, w2, ht2, hx2, hy2⟩ := lpcRead_hdr h1' (by decide) (by decide) hr2
      simp only at he
      have e2m : s2.mode = s.mode := hs2.mode.trans hsame.mode
      have e2u : s2.mtu = s.mtu := hs2.mtu.trans hsame.mtu
      have e2r : s2.rx = s.rx := hs2.rx.trans hsame.rx
      have e2t : s2.tx = s.tx := hs2.tx.trans hsame.tx
      have e2k : s2.kcsStatus = st := hs2.kcs
      have e2p : s2.proto = s.proto := hs2.proto.trans hsame.proto
      generalize hn : negotiateVersion (field16 hdr offBmcMin) (field16 hdr offBmcCur) astVerMin astVerCur = n at he
      split at he
      · simp only [Except.ok.injEq, Prod.mk.injEq] at he
        obtain ⟨rfl, rfl⟩ := he
        exact fin s2.proto s2.kcsStatus (by rw [e2p]; exact hpr) ⟨_, ht2, hx2, hy2⟩ e2m e2u e2r e2t _ rfl
      · split at he
        · cases he
        · rename_i hn4
          obtain ⟨⟨r3, s3⟩, hr3, he⟩ := Res.bind_eq_ok.mp he
          have ht2' : Traced { s2 with proto := some n } w2 := ht2.congr rfl rfl
          have hq : Quiet { s2 with proto := some n } w2 s3 := by
            split at hr3
            · exact negotiateLayoutHost_quiet ht2' hr3
            · simp only [Except.ok.injEq, Prod.mk.injEq] at hr3
              obtain ⟨-, rfl⟩ := hr3
              exact Quiet.refl ht2'
          obtain ⟨hs3, w3, ht3, hx3, hy3⟩ := hq
          have e3m : s3.mode = s.mode := hs3.mode.trans e2m
          have e3u : s3.mtu = s.mtu := hs3.mtu.trans e2u
          have e3r : s3.rx = s.rx := hs3.rx.trans e2r
          have e3t : s3.tx = s.tx := hs3.tx.trans e2t
          have e3k : s3.kcsStatus = st := hs3.kcs.trans e2k
          have e3p : s3.proto = some n := hs3.proto
          simp only at he
          split at he
          · simp only [Except.ok.injEq, Prod.mk.injEq] at he
            obtain ⟨rfl, rfl⟩ := he
            exact fin s3.proto s3.kcsStatus (by rw [e3p]; intro v hv; cases hv; omega)
              ⟨_, ht3, hx3.trans hx2, hy3.trans hy2⟩ e3m e3u e3r e3t _ rfl
          · obtain ⟨⟨r4, s4⟩, hr4, he⟩ := Res.bind_eq_ok.mp he
            obtain ⟨⟨r5, s5⟩, hr5, he⟩ := Res.bind_eq_ok.mp he
            obtain ⟨hs4, w4, ht4, hx4, hy4⟩ := lpcWrite_hdr ht3 (by simp [offHostMin, be16]) (by decide) hr4
            obtain ⟨hs5, w5, ht5, hx5, hy5⟩ := lpcWrite_hdr ht4 (by simp [offHostCur, be16]) (by decide) hr5
            have hs35 := hs4.trans hs5
            have hmode5 : s5.mode = .host := hs35.mode.trans (e3m.trans hm)
            have ht6 : Traced (kcsWrite hw s5 .data cmdInitialise).2
                { w5 with last := some (.kcsWrite .data cmdInitialise (kcsWrite hw s5 .data cmdInitialise).1) } :=
              ht5.snoc rfl rfl (by rw [hmode5]; rfl) trivial
            have hs6 := kcsWrite_same hw s5 .data cmdInitialise
            simp only [Except.ok.injEq, Prod.mk.injEq] at he
            obtain ⟨rfl, rfl⟩ := he
            have hs36 := hs35.trans hs6
            exact fin (some 0) (kcsWrite hw s5 .data cmdInitialise).2.kcsStatus (by simp)
              ⟨_, ht6, hx5.trans (hx4.trans (hx3.trans hx2)), hy5.trans (hy4.trans (hy3.trans hy2))⟩
              (hs36.mode.trans e3m) (hs36.mtu.trans e3u) (hs36.rx.trans e3r) (hs36.tx.trans e3t) _ rfl

/-- A successful start of the BMC. -/
theorem initBmc_inv {hw : Hw E} {mode : AstMode} {mtu : Nat} {s s' : AstSt E} {rc : Int}
    (h : AstInv mode mtu s) (hp : s.proto = some 3) (hmtu : mtu < 2 ^ 32)
    (he : initBmc hw s = .ok (rc, s')) (hrc : 0 ≤ rc) :
    AstInv mode mtu s' ∧ s'.rx.state = s.rx.state ∧ s'.tx.state = s.tx.state ∧
      SafeLayout 3 s'.rx.offset s'.rx.size s'.tx.offset s'.tx.size ∧ s'.proto = some 3 := by
  obtain ⟨hm, hmt, hpr, hlay, hbusy, w, htr, hph⟩ := h
  unfold initBmc at he
  obtain ⟨sz, hsz, he⟩ := Res.bind_eq_ok.mp he
  obtain ⟨valid, hv, he⟩ := Res.bind_eq_ok.mp he
  simp only at he hv
  have hszlt : sz < 2 ^ 32 := by
    rw [hp, bmcBufferSize_pos] at hsz
    split at hsz
    · obtain ⟨r, hr, hsz⟩ := Res.bind_eq_ok.mp hsz
      obtain ⟨_, _, _, h1, h2⟩ := protoPacketSize_inv (u32_lt _) hr
      simp only [Except.ok.injEq] at hsz
      omega
    · simp only [Except.ok.injEq] at hsz
      omega
  split at he
  · simp only [Except.ok.injEq, Prod.mk.injEq] at he
    obtain ⟨rfl, -⟩ := he; simp [EINVAL] at hrc
  · rename_i hval
    have hval : valid = true := by simpa using hval
    subst hval
    rw [hp] at hv
    obtain ⟨v, hv', -, hsafe⟩ := layoutValidate_true hv (u32_lt _) hszlt (by simp [controlSize]) hszlt
    cases hv'
    obtain ⟨⟨r1, s1⟩, hr1, he⟩ := Res.bind_eq_ok.mp he
    have htr0 : Traced { s with tx := ⟨controlSize, sz, s.tx.state⟩, rx := ⟨u32 (controlSize + sz), sz, s.rx.state⟩ } w :=
      htr.congr rfl rfl
    obtain ⟨hs1, w1, ht1, hx1, hy1⟩ := lpcWrite_hdr htr0 (by simp [be32, be16]) (by decide) hr1
    simp only [Except.ok.injEq] at he
    obtain ⟨hs2, -, w2, ht2, hx2, hy2⟩ := kcsSetStatus_traced ht1 he
    have hs := hs1.trans hs2
    have e1 := hs.rx
    have e2 := hs.tx
    simp only at e1 e2
    have hsafe' : SafeLayout 3 s'.rx.offset s'.rx.size s'.tx.offset s'.tx.size := by rw [e1, e2]; exact hsafe
    refine ⟨⟨hs.mode.trans hm, hs.mtu.trans hmt, by rw [hs.proto]; exact hpr, .inr hsafe'.one,
      fun _ => hsafe'.one, w2, ht2, hph.quiet (by rw [e2]) (by rw [e1]) (hx2.trans hx1) (hy2.trans hy1)⟩,
      by rw [e1], by rw [e2], hsafe', by rw [hs.proto]; exact hp⟩

/-- The host completes the handshake. -/
theorem finaliseChannel_inv {hw : Hw E} {mode : AstMode} {mtu : Nat} {b b' : Binding (AstSt E)} {rc : Int}
    (h : AstInv mode mtu b.st) (hidle : b.st.tx.state = .idle) (hidle2 : b.st.rx.state = .idle)
    (he : finaliseChannel hw b = .ok (rc, b')) :
    AstInv mode mtu b'.st ∧ b'.st.kcsStatus = b.st.kcsStatus ∧
      (rc = 0 ∧ b'.st.tx.state = .acquired ∧ b'.st.rx.state = .released ∧
        (∃ v, b'.st.proto = some v ∧ v ≠ 0 ∧
          SafeLayout v b'.st.rx.offset b'.st.rx.size b'.st.tx.offset b'.st.tx.size) ∨
       rc < 0 ∧ b'.st.tx = b.st.tx ∧ b'.st.rx = b.st.rx) := by
  obtain ⟨hm, hmt, hpr, hlay, hbusy, w, htr, hph⟩ := h
  unfold finaliseChannel at he
  obtain ⟨⟨r1, ver, s1⟩, hr1, he⟩ := Res.bind_eq_ok.mp he
  obtain ⟨hs1, hlen, w1, ht1, hx1, hy1⟩ := lpcRead_ver htr (by decide) hr1
  have hph0 : ∀ {s2 : AstSt E} {w2 : Watch}, s2.tx = b.st.tx → s2.rx = b.st.rx → w2.tx = .free →
      Phase s2 w2 := fun e1 e2 e3 =>
    ⟨by rw [e1, hidle]; simp, by rw [e1, hidle]; simp, by rw [e1, hidle]; simp, by rw [e3]; simp,
      by rw [e2, hidle2]; simp⟩
  have fin : ∀ {s2 : AstSt E} (p : Option Nat), (∀ v, p = some v → v < 4) →
      (∃ w', Traced s2 w' ∧ w'.tx = .free) → s2.mode = b.st.mode → s2.mtu = b.st.mtu →
      s2.tx = b.st.tx → s2.rx = b.st.rx → s2.proto = p → AstInv mode mtu s2 := by
    intro s2 p hp hw2 a1 a2 a3 a4 a5
    obtain ⟨w', g1, g2⟩ := hw2
    refine ⟨a1.trans hm, a2.trans hmt, by rw [a5]; exact hp, ?_, ?_, w', g1, hph0 a3 a4 g2⟩
    · rcases hlay with hl | hl
      · exact .inl (hl.congr (by rw [a4]) (by rw [a4]) (by rw [a3]) (by rw [a3]))
      · exact .inr (hl.congr (by rw [a4]) (by rw [a4]) (by rw [a3]) (by rw [a3]))
    · rw [a3, hidle]; simp
  simp only at he
  split at he
  · rename_i hneg
    simp only [Except.ok.injEq, Prod.mk.injEq] at he
    obtain ⟨rfl, rfl⟩ := he
    exact ⟨fin s1.proto (by rw [hs1.proto]; exact hpr) ⟨_, ht1, hx1⟩ hs1.mode hs1.mtu hs1.tx hs1.rx rfl,
      hs1.kcs, .inr ⟨hneg, hs1.tx, hs1.rx⟩⟩
  · split at he
    · simp only [Except.ok.injEq, Prod.mk.injEq] at he
      obtain ⟨rfl, rfl⟩ := he
      exact ⟨fin s1.proto (by rw [hs1.proto]; exact hpr) ⟨_, ht1, hx1⟩ hs1.mode hs1.mtu hs1.tx hs1.rx rfl,
        hs1.kcs, .inr ⟨by decide, hs1.tx, hs1.rx⟩⟩
    · rename_i hver
      obtain ⟨⟨r2, l, s2⟩, hr2, he⟩ := Res.bind_eq_ok.mp he
      have ht1' : Traced { s1 with proto := some (fromBe ver) } w1 := ht1.congr rfl rfl
      obtain ⟨⟨hs2, w2, ht2, hx2, hy2⟩, l1, l2, l3, l4⟩ := layoutRead_quiet ht1' hr2
      have a1 : s2.mode = b.st.mode := hs2.mode.trans hs1.mode
      have a2 : s2.mtu = b.st.mtu := hs2.mtu.trans hs1.mtu
      have a3 : s2.tx = b.st.tx := hs2.tx.trans hs1.tx
      have a4 : s2.rx = b.st.rx := hs2.rx.trans hs1.rx
      have a5 : s2.proto = some (fromBe ver) := hs2.proto
      have a6 : s2.kcsStatus = b.st.kcsStatus := hs2.kcs.trans hs1.kcs
      have hp4 : ∀ v, (some (fromBe ver)) = some v → v < 4 := by
        intro v hv; cases hv; simp only [astVerCur, astVerMin] at hver; omega
      have hf : AstInv mode mtu s2 := fin _ hp4 ⟨_, ht2, hx2.trans hx1⟩ a1 a2 a3 a4 a5
      simp only at he
      split at he
      · rename_i hneg
        simp only [Except.ok.injEq, Prod.mk.injEq] at he
        obtain ⟨rfl, rfl⟩ := he
        exact ⟨hf, a6, .inr ⟨hneg, a3, a4⟩⟩
      · obtain ⟨valid, hv, he⟩ := Res.bind_eq_ok.mp he
        split at he
        · simp only [Except.ok.injEq, Prod.mk.injEq] at he
          obtain ⟨rfl, rfl⟩ := he
          exact ⟨hf, a6, .inr ⟨by decide, a3, a4⟩⟩
        · rename_i hval
          have hval : valid = true := by simpa using hval
          subst hval
          obtain ⟨v, hv', hv0, hsafe⟩ := layoutValidate_true hv l1 l2 l3 l4
          obtain ⟨most, hmost, he⟩ := Res.bind_eq_ok.mp he
          simp only [Except.ok.injEq, Prod.mk.injEq] at he
          obtain ⟨rfl, rfl⟩ := he
          refine ⟨⟨a1.trans hm, a2.trans hmt, by simp only; rw [a5]; exact hp4, .inr hsafe.one, fun _ => hsafe.one, w2,
            ht2.congr rfl rfl, ?_⟩, a6, .inl ⟨rfl, rfl, rfl, v, hv', hv0, hsafe⟩⟩
          exact ⟨fun _ => hx2.trans hx1, by simp, by simp, by rw [hx2, hx1]; simp, by simp⟩

/-- The BMC's side of the layout negotiation. -/
theorem negotiateLayoutBmc_inv {hw : Hw E} {mode : AstMode} {mtu : Nat} {b b' : Binding (AstSt E)} {rc : Int}
    (h : AstInv mode mtu b.st) (he : negotiateLayoutBmc hw b = .ok (rc, b')) :
    AstInv mode mtu b'.st ∧ b'.st.kcsStatus = b.st.kcsStatus ∧ b'.st.proto = b.st.proto ∧
      b'.st.tx.state = b.st.tx.state ∧ b'.st.rx.state = b.st.rx.state ∧
      (rc = 0 ∧ (∃ v, b.st.proto = some v ∧ v ≠ 0 ∧
        SafeLayout v b'.st.rx.offset b'.st.rx.size b'.st.tx.offset b'.st.tx.size) ∨ rc < 0) := by
  have hinv := h
  obtain ⟨hm, hmt, hpr, hlay, hbusy, w, htr, hph⟩ := h
  have hlt : b.st.rx.offset < 2 ^ 32 ∧ b.st.tx.offset < 2 ^ 32 := by
    rcases hlay with hl | hl
    · obtain ⟨h1, _, h2, _⟩ := hl; omega
    · exact ⟨hl.lt.1, hl.lt.2.2.1⟩
  unfold negotiateLayoutBmc at he
  obtain ⟨version, hversion, he⟩ := Res.bind_eq_ok.mp he
  split at he
  · simp only [Except.ok.injEq, Prod.mk.injEq] at he
    obtain ⟨rfl, rfl⟩ := he
    exact ⟨hinv, rfl, rfl, rfl, rfl, .inr (by decide)⟩
  · obtain ⟨⟨r1, l, s1⟩, hr1, he⟩ := Res.bind_eq_ok.mp he
    obtain ⟨⟨hs1, w1, ht1, hx1, hy1⟩, l1, l2, l3, l4⟩ := layoutRead_quiet htr hr1
    have hi1 : AstInv mode mtu s1 := by
      refine ⟨hs1.mode.trans hm, hs1.mtu.trans hmt, by rw [hs1.proto]; exact hpr, ?_, ?_, w1, ht1,
        hph.quiet (by rw [hs1.tx]) (by rw [hs1.rx]) hx1 hy1⟩
      · rcases hlay with hl | hl
        · exact .inl (hl.congr (by rw [hs1.rx]) (by rw [hs1.rx]) (by rw [hs1.tx]) (by rw [hs1.tx]))
        · exact .inr (hl.congr (by rw [hs1.rx]) (by rw [hs1.rx]) (by rw [hs1.tx]) (by rw [hs1.tx]))
      · rw [hs1.tx]; intro hb
        exact (hbusy hb).congr (by rw [hs1.rx]) (by rw [hs1.rx]) (by rw [hs1.tx]) (by rw [hs1.tx])
    have hres : ∀ rc' : Int, rc' < 0 → AstInv mode mtu s1 ∧ s1.kcsStatus = b.st.kcsStatus ∧ s1.proto = b.st.proto ∧
        s1.tx.state = b.st.tx.state ∧ s1.rx.state = b.st.rx.state ∧
        (rc' = 0 ∧ (∃ v, b.st.proto = some v ∧ v ≠ 0 ∧
          SafeLayout v s1.rx.offset s1.rx.size s1.tx.offset s1.tx.size) ∨ rc' < 0) :=
      fun rc' hn => ⟨hi1, hs1.kcs, hs1.proto, by rw [hs1.tx], by rw [hs1.rx], .inr hn⟩
    simp only at he
    split at he
    · rename_i hneg
      simp only [Except.ok.injEq, Prod.mk.injEq] at he
      obtain ⟨rfl, rfl⟩ := he
      exact hres _ hneg
    · obtain ⟨valid, hv, he⟩ := Res.bind_eq_ok.mp he
      split at he
      · simp only [Except.ok.injEq, Prod.mk.injEq] at he
        obtain ⟨rfl, rfl⟩ := he
        exact hres _ (by decide)
      · obtain ⟨m, hmm, he⟩ := Res.bind_eq_ok.mp he
        obtain ⟨sz, hsz, he⟩ := Res.bind_eq_ok.mp he
        obtain ⟨valid2, hv2, he⟩ := Res.bind_eq_ok.mp he
        obtain ⟨_, _, _, hszlt1, hszlt2⟩ := protoPacketSize_inv (u32_lt _) hsz
        split at he
        · rename_i hval
          have hval : valid2 = true := by simpa using hval
          subst hval
          obtain ⟨v, hv', hv0, hsafe⟩ := layoutValidate_true hv2 (by simp only; rw [hs1.rx]; exact hlt.1) (by simp only; omega)
            (by simp only; rw [hs1.tx]; exact hlt.2) (by simp only; omega)
          simp only at hsafe
          obtain ⟨⟨r2, s2⟩, hr2, he⟩ := Res.bind_eq_ok.mp he
          have ht1' : Traced { s1 with rx := { s1.rx with size := sz }, tx := { s1.tx with size := sz } } w1 :=
            ht1.congr rfl rfl
          obtain ⟨hs2, w2, ht2, hx2, hy2⟩ := layoutWrite_quiet ht1' hr2
          have e1 := hs2.rx
          have e2 := hs2.tx
          simp only at e1 e2
          have hsafe2 : SafeLayout v s2.rx.offset s2.rx.size s2.tx.offset s2.tx.size := by rw [e1, e2]; exact hsafe
          have hi2 : AstInv mode mtu s2 := by
            refine ⟨hs2.mode.trans (hs1.mode.trans hm), hs2.mtu.trans (hs1.mtu.trans hmt),
              by rw [hs2.proto]; simp only; rw [hs1.proto]; exact hpr, .inr hsafe2.one, fun _ => hsafe2.one, w2, ht2, ?_⟩
            exact hph.quiet (by rw [e2]; simp only; rw [hs1.tx]) (by rw [e1]; simp only; rw [hs1.rx]) (hx2.trans hx1) (hy2.trans hy1)
          have hkc : s2.kcsStatus = b.st.kcsStatus := hs2.kcs.trans hs1.kcs
          have hpo : s2.proto = b.st.proto := hs2.proto.trans hs1.proto
          have htx : s2.tx.state = b.st.tx.state := by rw [e2]; simp only; rw [hs1.tx]
          have hrx : s2.rx.state = b.st.rx.state := by rw [e1]; simp only; rw [hs1.rx]
          simp only at he
          split at he
          · rename_i hneg
            simp only [Except.ok.injEq, Prod.mk.injEq] at he
            obtain ⟨rfl, rfl⟩ := he
            exact ⟨hi2, hkc, hpo, htx, hrx, .inr hneg⟩
          · have hvp : b.st.proto = some v := by rw [← hs1.proto]; exact hv'
            split at he <;> simp only [Except.ok.injEq, Prod.mk.injEq] at he <;> obtain ⟨rfl, rfl⟩ := he <;>
              exact ⟨hi2, hkc, hpo, htx, hrx, .inl ⟨rfl, v, hvp, hv0, hsafe2⟩⟩
        · simp only [Except.ok.injEq, Prod.mk.injEq] at he
          obtain ⟨rfl, rfl⟩ := he
          exact hres _ (by decide)

/-- Channel initialisation as the BMC does it. -/
theorem initChannel_inv {hw : Hw E} {mode : AstMode} {mtu : Nat} {b b' : Binding (AstSt E)} {on : Bool}
    (h : AstInv mode mtu b.st) (he : initChannel hw b = .ok (on, b')) :
    AstInv mode mtu b'.st ∧ b'.st.kcsStatus = b.st.kcsStatus ∧ b'.st.tx.state = .acquired ∧
      b'.st.rx.state = .released ∧
      (on = true → ∃ v, b'.st.proto = some v ∧ v ≠ 0 ∧
          SafeLayout v b'.st.rx.offset b'.st.rx.size b'.st.tx.offset b'.st.tx.size) := by
  obtain ⟨hm, hmt, hpr, hlay, hbusy, w, htr, hph⟩ := h
  unfold initChannel at he
  obtain ⟨⟨r1, hdr, s1⟩, hr1, he⟩ := Res.bind_eq_ok.mp he
  obtain ⟨hs1, -, w1, ht1, hx1, hy1⟩ := lpcRead_hdr htr (by decide) (by decide) hr1
  simp only at he
  generalize hn : negotiateVersion astVerMin astVerCur (field16 hdr offHostMin) (field16 hdr offHostCur) = n at he
  split at he
  · cases he
  · rename_i hn4
    have hi1 : AstInv mode mtu { s1 with proto := some n } := by
      refine ⟨hs1.mode.trans hm, hs1.mtu.trans hmt, by intro v hv; cases hv; omega, ?_, ?_, w1, ht1.congr rfl rfl,
        hph.quiet (by simp only; rw [hs1.tx]) (by simp only; rw [hs1.rx]) hx1 hy1⟩
      · rcases hlay with hl | hl
        · exact .inl (hl.congr (by simp only; rw [hs1.rx]) (by simp only; rw [hs1.rx]) (by simp only; rw [hs1.tx]) (by simp only; rw [hs1.tx]))
        · exact .inr (hl.congr (by simp only; rw [hs1.rx]) (by simp only; rw [hs1.rx]) (by simp only; rw [hs1.tx]) (by simp only; rw [hs1.tx]))
      · simp only; rw [hs1.tx]; intro hb
        exact (hbusy hb).congr (by rw [hs1.rx]) (by rw [hs1.rx]) (by simp) (by simp)
    obtain ⟨⟨rc, b2⟩, hr2, he⟩ := Res.bind_eq_ok.mp he
    obtain ⟨hi2, hk2, hp2, htx2, hrx2, hres⟩ := negotiateLayoutBmc_inv (b := { b with st := { s1 with proto := some n } }) hi1 hr2
    obtain ⟨hm2, hmt2, hpr2, hlay2, hbusy2, w2, htr2, hph2⟩ := hi2
    obtain ⟨⟨r3, s3⟩, hr3, he⟩ := Res.bind_eq_ok.mp he
    obtain ⟨hs3, w3, ht3, hx3, hy3⟩ := lpcWrite_ver htr2 (by simp [be16]) hr3
    simp only at he
    have ht3' : Traced { s3 with tx := { s3.tx with state := .acquired }, rx := { s3.rx with state := .released } } w3 :=
      ht3.congr rfl rfl
    generalize hst : (if (if rc < 0 then 0 else n) > 0 then kcsBmcReady ||| kcsObf ||| kcsChannelActive else kcsBmcReady ||| kcsObf) = st at he
    generalize hk : kcsSetStatus hw { s3 with tx := { s3.tx with state := .acquired }, rx := { s3.rx with state := .released } } st = r at he
    obtain ⟨r4, s4⟩ := r
    obtain ⟨hs4, -, w4, ht4, hx4, hy4⟩ := kcsSetStatus_traced ht3' hk
    simp only [Except.ok.injEq, Prod.mk.injEq] at he
    obtain ⟨rfl, rfl⟩ := he
    have e1 := hs4.rx
    have e2 := hs4.tx
    simp only at e1 e2
    have e1o : s4.rx.offset = b2.st.rx.offset := by rw [e1]; simp only; rw [hs3.rx]
    have e1s : s4.rx.size = b2.st.rx.size := by rw [e1]; simp only; rw [hs3.rx]
    have e2o : s4.tx.offset = b2.st.tx.offset := by rw [e2]; simp only; rw [hs3.tx]
    have e2s : s4.tx.size = b2.st.tx.size := by rw [e2]; simp only; rw [hs3.tx]
    have hta : s4.tx.state = .acquired := by rw [e2]
    have hra : s4.rx.state = .released := by rw [e1]
    have hpp : s4.proto = b2.st.proto := hs4.proto.trans hs3.proto
    refine ⟨⟨hs4.mode.trans (hs3.mode.trans hm2), hs4.mtu.trans (hs3.mtu.trans hmt2), by rw [hpp]; exact hpr2, ?_, ?_, w4, ht4, ?_⟩,
      ?_, hta, hra, ?_⟩
    · rcases hlay2 with hl | hl
      · exact .inl (hl.congr e1o e1s e2o e2s)
      · exact .inr (hl.congr e1o e1s e2o e2s)
    · simp only; rw [hta]; simp
    · exact ⟨fun _ => hx4.trans hx3, by simp [hta], by simp [hta], by rw [hx4, hx3]; simp, by simp [hra]⟩
    · exact hs4.kcs.trans (hs3.kcs.trans (hk2.trans hs1.kcs))
    · intro hon
      rcases hres with ⟨-, v, hv, hv0, hsafe⟩ | hneg
      · exact ⟨v, by simp only; rw [hpp, hp2]; exact hv, hv0, by simp only; rw [e1o, e1s, e2o, e2s]; exact hsafe⟩
      · rw [if_pos hneg] at hst
        subst hst
        exact absurd hon (by decide)

end Mctp
