import Verif.Proofs.AstShut
import Verif.Proofs.AstBegin

/-!
# A poll that reads a given command; starting and refusing a channel
-/

namespace Mctp

open Spec

variable {E : Type}

/-- A poll that read the status `v` and the command `d`. -/
theorem poll_split {hw : Hw E} {mode : AstMode} {mtu : Nat} {c c' : Core (AstSt E)}
    {bus bus' : Bus (AstSt E)} {e : List Event} {rc : Int} (hb : c.busses = [bus]) (hbr : c.bridge = false)
    (hj : AstJ mode mtu bus) (he : c.astPoll hw 0 = .ok (c', e, rc)) (hb' : c'.busses = [bus']) {pre post : List Access}
    {v d : Byte}
    (hnew : Adds bus.binding.st bus'.binding.st (pre ++ .kcsRead .status 0 v :: .kcsRead .data 0 d :: post)) :
    Adds bus.binding.st (astRetry hw bus.binding.st) pre ∧
    ∃ s, SameSt (astRetry hw bus.binding.st) s ∧ AstJ mode mtu { bus with binding := { bus.binding with st := s } } ∧
      Adds s bus'.binding.st post ∧
      (((bus.binding.st.proto = some 0 ∧ d ≠ 0 ∧ d ≠ 255) ∧ rc = 0 ∧ e = [] ∧ post = [] ∧
          c' = { c with busses := [{ bus with binding := { bus.binding with st := s } }] }) ∨
       ((∃ ver, bus.binding.st.proto = some ver ∧ (ver = 0 → d = 0 ∨ d = 255)) ∧
        (∃ w, Traced s w ∧ Phase s w ∧ (d = 1 → w.rx = true) ∧ (d = 2 → s.tx.state = .released → w.tx = .free)) ∧
        ∃ c1 e1 rc1 stop bus1,
          Core.astCommand hw { c with busses := [{ bus with binding := { bus.binding with st := s } }] } 0 v d =
            .ok (c1, e1, rc1, stop) ∧ c1.busses = [bus1] ∧ AstJ mode mtu bus1 ∧
          ((stop = true ∧ c' = c1 ∧ e = e1 ∧ rc = rc1) ∨
           (stop = false ∧ ∃ e2, c1.astAfter hw 0 bus.binding.st.mode v d rc1 = .ok (c', e2, rc) ∧ e = e1 ++ e2)))) := by
  obtain ⟨l0, st, s, hs, ha0, ha1, -, hjs, hcase⟩ := poll_cmd hb hbr hj he hb' hnew (d := d) (by simp)
  obtain ⟨l0', ha0', hnd⟩ := astRetry_noData hw bus.binding.st
  have := ha0.inj ha0'
  subst this
  -- the rest of the poll does not read the data register
  have hrest : Grow s bus'.binding.st := by
    rcases hcase with ⟨-, -, -, rfl⟩ | ⟨-, hw1, c1, e1, rc1, stop, hcmd, hfr, hfin⟩
    · simp only [List.cons.injEq, and_true] at hb'
      subst hb'
      exact Grow.refl _
    · obtain ⟨bus1, m1, t1, hc1, hj2⟩ := hfr
      obtain ⟨b1, hb1, g1⟩ := astCommand_growC rfl (by exact hbr) hjs hw1 hcmd
      rcases hfin with ⟨-, rfl, -⟩ | ⟨-, e2, haf, -⟩
      · rw [hb'] at hb1; simp only [List.cons.injEq, and_true] at hb1; subst hb1; exact g1
      · have hb1' : c1.busses = [bus1] := by rw [hc1]
        have : b1 = bus1 := by rw [hb1] at hb1'; simpa using hb1'
        subst this
        obtain ⟨b2, hb2, g2⟩ := astAfter_growC hb1' hj2 haf
        rw [hb'] at hb2; simp only [List.cons.injEq, and_true] at hb2; subst hb2
        exact g1.trans g2
  obtain ⟨l3, ha3, hl3⟩ := hrest
  have heq := hnew.inj ((ha0.trans ha1).trans ha3)
  have heq : (pre ++ [.kcsRead .status 0 v]) ++ .kcsRead .data 0 d :: post =
      (l0 ++ [.kcsRead .status 0 st]) ++ .kcsRead .data 0 d :: l3 := by simpa using heq
  obtain ⟨h1, rfl⟩ := split_unique heq
    (by
      intro hm
      rcases List.mem_append.mp hm with hm | hm
      · exact hnd _ hm _ rfl
      · simp at hm)
    (fun hm => hl3 _ hm)
  obtain ⟨rfl, h2⟩ := List.append_inj' h1 rfl
  simp only [List.cons.injEq, Access.kcsRead.injEq, true_and, and_true] at h2
  subst h2
  refine ⟨ha0, s, hs, hjs, ha3, ?_⟩
  rcases hcase with ⟨h1, h2, h3, h4⟩ | ⟨h1, h2, c1, e1, rc1, stop, hcmd, hfr, hfin⟩
  · refine .inl ⟨h1, h2, h3, ?_, h4⟩
    rw [h4] at hb'
    simp only [List.cons.injEq, and_true] at hb'
    subst hb'
    exact (ha3.inj (Adds.refl _))
  · obtain ⟨bus1, m1, t1, hc1, hj2⟩ := hfr
    exact .inr ⟨h1, h2, c1, e1, rc1, stop, bus1, hcmd, by rw [hc1], hj2, hfin⟩

/-- A packet command that fits, or an unknown one, leaves the known status alone and does not end the poll. -/
theorem astCommand_known {hw : Hw E} {mode : AstMode} {mtu : Nat} {c c' : Core (AstSt E)}
    {bus bus' : Bus (AstSt E)} {e : List Event} {status d : Byte} {rc : Int} {stop : Bool} (hb : c.busses = [bus])
    (hbr : c.bridge = false) (hj : AstJ mode mtu bus)
    (hw1 : ∃ w, Traced bus.binding.st w ∧ Phase bus.binding.st w ∧ (d = 1 → w.rx = true) ∧
      (d = 2 → bus.binding.st.tx.state = .released → w.tx = .free))
    (h0 : d ≠ 0) (h255 : d ≠ 255) (h1 : d = 1 → bus.binding.st.rx.state = .released)
    (h2 : d = 2 → bus.binding.st.tx.state = .released)
    (he : c.astCommand hw 0 status d = .ok (c', e, rc, stop)) (hb' : c'.busses = [bus']) :
    bus'.binding.st.kcsStatus = bus.binding.st.kcsStatus ∧ stop = false ∧ (d ≠ 2 → offers 0 e = []) := by
  have huniq : ∀ {b : Bus (AstSt E)}, c'.busses = [b] → bus' = b := by
    intro b h; rw [hb'] at h; simpa using h
  obtain ⟨w, htr, hph, hd1, hd2⟩ := hw1
  unfold Core.astCommand at he
  obtain ⟨bus1, hbus, he⟩ := Res.bind_eq_ok.mp he
  obtain ⟨-, rfl⟩ := busAt_single hb hbus
  simp only at he
  split at he
  · rename_i h; exact absurd h h0
  · split at he
    · rename_i hd
      rw [if_neg (by rw [h1 hd]; simp)] at he
      obtain ⟨⟨c1, e1⟩, hrx, he⟩ := Res.bind_eq_ok.mp he
      simp only [Except.ok.injEq, Prod.mk.injEq] at he
      obtain ⟨rfl, rfl, -, rfl⟩ := he
      obtain ⟨-, hl, v, r0, lenBytes, s1, hv, hv0, hv4, hr0, hcases⟩ := astRxStart_cases hb hj.1 hrx
      have e1k : s1.kcsStatus = bus1.binding.st.kcsStatus := (lpcRead_ok hr0).1.kcs
      have hafter : ∀ s2 : AstSt E, (afterRead hw s2).kcsStatus = s2.kcsStatus := by
        intro s2
        unfold afterRead
        generalize hk : kcsSend hw { s2 with rx := { s2.rx with state := .prepared } } cmdRxComplete = r
        obtain ⟨rc, s3⟩ := r
        have ht : s3.kcsStatus = s2.kcsStatus := (kcsSend_adds hk).1.kcs
        simp only
        split <;> exact ht
      rcases hcases with ⟨-, rfl, rfl⟩ | ⟨hfit, -, hcases⟩
      · rw [setSt_single hb] at huniq; rw [huniq rfl]; exact ⟨e1k, rfl, fun _ => rfl⟩
      · rcases hcases with ⟨m, rfl, rfl, -⟩ | ⟨r1, bytes, s2, hr1, hblen, hcases⟩
        · rw [setSt_single (by exact hb)] at huniq; rw [huniq rfl]; exact ⟨e1k, rfl, fun _ => rfl⟩
        · have e2 : (afterRead hw s2).kcsStatus = bus1.binding.st.kcsStatus :=
            (hafter s2).trans ((lpcRead_ok hr1).1.kcs.trans e1k)
          rcases hcases with ⟨-, ⟨m, rfl⟩, rfl⟩ | ⟨-, -, m, pkt, hp, hrx⟩
          · rw [setSt_single (by exact hb)] at huniq; rw [huniq rfl]; exact ⟨e2, rfl, fun _ => rfl⟩
          · rw [setSt_single (by exact hb)] at hrx
            obtain ⟨m2, t, rfl, ho, -⟩ := busRx_busses rfl (by exact hbr) hp hrx
            rw [huniq rfl]; exact ⟨e2, rfl, fun _ => ho 0⟩
    · split at he
      · rename_i hd
        have hrel := h2 hd
        rw [if_neg (by rw [hrel]; simp)] at he
        obtain ⟨⟨c1, e1⟩, hrx, he⟩ := Res.bind_eq_ok.mp he
        simp only [Except.ok.injEq, Prod.mk.injEq] at he
        obtain ⟨rfl, rfl, -, rfl⟩ := he
        unfold Core.astTxComplete at hrx
        obtain ⟨bus2, hbus2, hrx⟩ := Res.bind_eq_ok.mp hrx
        obtain ⟨-, rfl⟩ := busAt_single hb hbus2
        simp only at hrx
        rw [setSt_single hb] at hrx
        have hl : LaySafe bus2.binding.st := hj.1.busy (.inr hrel)
        have hl2 : LaySafe { bus2.binding.st with tx := { bus2.binding.st.tx with state := .acquired } } :=
          hl.congr rfl rfl rfl rfl
        obtain ⟨b2, m2, hc2, hto, -⟩ := setTxEnabled_only (mode := mode) (mtu := mtu) rfl
          (bus := { bus2 with binding := { bus2.binding with st := { bus2.binding.st with tx := { bus2.binding.st.tx with state := .acquired } } } })
          ⟨hj.1.mode, hj.1.mtu, hj.1.proto, .inr hl2, fun _ => hl2, w, htr.congr rfl rfl,
            fun _ => hd2 hd hrel, by simp, by simp, hph.half, hph.rxp⟩ (fun _ => ⟨rfl, hl2⟩) hrx
        rw [huniq (by rw [hc2])]
        exact ⟨hto.kcs, rfl, fun h => absurd hd h⟩
      · rw [if_neg (show ¬ d = cmdDummy from h255)] at he
        simp only [Except.ok.injEq, Prod.mk.injEq] at he
        obtain ⟨rfl, rfl, -, rfl⟩ := he
        rw [huniq hb]; exact ⟨rfl, rfl, fun _ => rfl⟩

/-- What a host does when it starts a handshake. -/
theorem initHost_view {hw : Hw E} {s s' : AstSt E} {rc : Int} (hmode : s.mode = .host) (he : initHost hw s = .ok (rc, s')) :
    ∃ r st rest, Adds s s' (.kcsRead .status r st :: rest) ∧
      (r = 0 → st.getLsbD 7 = true → ∃ hdr r1 rest1, rest = .lpcRead 0 hdr r1 :: rest1 ∧ hdr.length = 32 ∧
        ∀ n, n = negotiateVersion (field16 hdr 4) (field16 hdr 6) 1 3 → n ≠ 0 →
          let hello := fun l : List Access => ∃ r4 r5, l = [.lpcWrite 8 (be16 1) r4, .lpcWrite 10 (be16 3) r5, .kcsWrite .data 0 rc]
          (n = 1 → hello rest1) ∧
          (2 ≤ n → ∃ hdr2 r2 rest2, rest1 = .lpcRead 0 hdr2 r2 :: rest2 ∧ hdr2.length = 32 ∧
            (0 ≤ r2 → ∀ sz, sz = s.mtu + 4 + overhead n → sz < 2 ^ 32 →
              SafeLayout n (field32 hdr2 16) (field32 hdr2 20) (field32 hdr2 24) (field32 hdr2 28) →
              SafeLayout n (field32 hdr2 16) sz (field32 hdr2 24) (field32 hdr2 28) →
              ∃ r3 rest3, rest2 = .lpcWrite 20 (be32 sz) r3 :: rest3 ∧ (0 ≤ r3 → hello rest3)))) := by
  unfold initHost at he
  have h1 := kcsRead_adds hw s .status
  have hs1 := kcsRead_same hw s .status
  generalize hr1 : kcsRead hw s .status = r at h1 he hs1
  obtain ⟨rc1, st, s1⟩ := r
  simp only at h1 he hs1
  have hbit : ∀ x : Byte, x.getLsbD 7 = true → ¬ (x &&& kcsBmcReady = 0) := fun x h => bit_ready h
  split at he
  · rename_i hne
    simp only [Except.ok.injEq, Prod.mk.injEq] at he
    obtain ⟨rfl, rfl⟩ := he
    exact ⟨rc1, st, [], h1, fun h => absurd h hne⟩
  · split at he
    · rename_i h7
      simp only [Except.ok.injEq, Prod.mk.injEq] at he
      obtain ⟨rfl, rfl⟩ := he
      exact ⟨rc1, st, [], h1.congr rfl rfl, fun _ h => absurd h7 (hbit st h)⟩
    · obtain ⟨⟨r2, hdr, s2⟩, hr2, he⟩ := Res.bind_eq_ok.mp he
      obtain ⟨hs2, hlen, -⟩ := lpcRead_ok hr2
      have h2 : Adds s s2 ([.kcsRead .status rc1 st] ++ [.lpcRead 0 hdr r2]) := h1.trans ((lpcRead_adds hr2).congr rfl rfl)
      have em2 : s2.mode = .host := hs2.mode.trans (hs1.mode.trans hmode)
      have et2 : s2.mtu = s.mtu := hs2.mtu.trans hs1.mtu
      simp only at he
      generalize hn : negotiateVersion (field16 hdr offBmcMin) (field16 hdr offBmcCur) astVerMin astVerCur = n at he
      have hn : negotiateVersion (field16 hdr 4) (field16 hdr 6) 1 3 = n := hn
      split at he
      · rename_i hn0
        simp only [Except.ok.injEq, Prod.mk.injEq] at he
        obtain ⟨rfl, rfl⟩ := he
        refine ⟨rc1, st, _, h2, fun _ _ => ⟨hdr, r2, [], rfl, hlen, ?_⟩⟩
        intro n' hn' hne
        exact absurd (hn'.trans (hn.trans hn0)) hne
      · rename_i hn0
        split at he
        · cases he
        · obtain ⟨⟨r3, s3⟩, hr3, he⟩ := Res.bind_eq_ok.mp he
          -- the last steps of the handshake
          have hhello : ∀ {l3 : List Access}, Adds s2 s3 l3 → (r3 < 0 → Adds s s' ([.kcsRead .status rc1 st] ++ [.lpcRead 0 hdr r2] ++ l3)) ∧
              (¬ r3 < 0 → ∃ r4 r5, Adds s s' ([.kcsRead .status rc1 st] ++ [.lpcRead 0 hdr r2] ++ l3 ++
                [.lpcWrite 8 (be16 1) r4, .lpcWrite 10 (be16 3) r5, .kcsWrite .data 0 rc])) := by
            intro l3 h3
            simp only at he
            constructor
            · intro hneg
              rw [if_pos hneg] at he
              simp only [Except.ok.injEq, Prod.mk.injEq] at he
              obtain ⟨-, rfl⟩ := he
              exact h2.trans h3
            · intro hneg
              rw [if_neg hneg] at he
              obtain ⟨⟨r4, s4⟩, hr4, he⟩ := Res.bind_eq_ok.mp he
              obtain ⟨⟨r5, s5⟩, hr5, he⟩ := Res.bind_eq_ok.mp he
              have h6 := kcsWrite_adds hw s5 .data cmdInitialise
              generalize kcsWrite hw s5 .data cmdInitialise = r6 at h6 he
              obtain ⟨rc6, s6⟩ := r6
              simp only [Except.ok.injEq, Prod.mk.injEq] at he
              obtain ⟨rfl, rfl⟩ := he
              refine ⟨r4, r5, ?_⟩
              have := (((h2.trans h3).trans (lpcWrite_adds hr4)).trans (lpcWrite_adds hr5)).trans (h6.congr rfl rfl)
              have := this.congr (a' := s) (b' := { s6 with proto := some 0 }) rfl rfl
              simpa [offHostMin, offHostCur, astVerMin, astVerCur, cmdInitialise] using this
          by_cases h2n : 2 ≤ n
          · rw [if_pos h2n] at hr3
            unfold negotiateLayoutHost at hr3
            obtain ⟨⟨r7, lay, s7⟩, hr7, hr3⟩ := Res.bind_eq_ok.mp hr3
            unfold layoutRead at hr7
            obtain ⟨⟨r7', hdr2, s7'⟩, hrd, hr7⟩ := Res.bind_eq_ok.mp hr7
            obtain ⟨hs7, hlen2, -⟩ := lpcRead_ok hrd
            simp only [em2, Except.ok.injEq, Prod.mk.injEq] at hr7
            obtain ⟨rfl, rfl, rfl⟩ := hr7
            have h7 := lpcRead_adds hrd
            have hp7 : s7'.proto = some n := hs7.proto
            have hm7 : s7'.mode = .host := hs7.mode.trans em2
            have hmt7 : s7'.mtu = s.mtu := hs7.mtu.trans et2
            simp only at hr3
            -- from the layout read to the result
            have hl3 : ∃ l3, Adds s7' s3 l3 ∧ (0 ≤ r7' → ∀ sz, sz = s.mtu + 4 + overhead n → sz < 2 ^ 32 →
                SafeLayout n (field32 hdr2 16) (field32 hdr2 20) (field32 hdr2 24) (field32 hdr2 28) →
                SafeLayout n (field32 hdr2 16) sz (field32 hdr2 24) (field32 hdr2 28) →
                l3 = [.lpcWrite 20 (be32 sz) r3]) := by
              have hf : ∀ o, field32 hdr2 o < 2 ^ 32 := fun o => field32_lt hdr2 o
              split at hr3
              · rename_i hneg
                simp only [Except.ok.injEq, Prod.mk.injEq] at hr3
                obtain ⟨rfl, rfl⟩ := hr3
                exact ⟨[], Adds.refl _, fun h => absurd h (by omega)⟩
              · obtain ⟨valid, hv, hr3⟩ := Res.bind_eq_ok.mp hr3
                rw [hp7] at hv
                obtain ⟨rr, hrr, hiff⟩ := layoutValidate_eq (l := { rx := { offset := field32 hdr2 offRxOffset, size := field32 hdr2 offRxSize, state := .idle }, tx := { offset := field32 hdr2 offTxOffset, size := field32 hdr2 offTxSize, state := .idle } }) hn0 (hf _) (hf _) (hf _) (hf _)
                rw [hrr] at hv
                simp only [Except.ok.injEq] at hv
                subst hv
                split at hr3
                · rename_i hval
                  simp only [Except.ok.injEq, Prod.mk.injEq] at hr3
                  obtain ⟨rfl, rfl⟩ := hr3
                  refine ⟨[], Adds.refl _, fun _ sz _ _ hsafe => ?_⟩
                  rw [hiff.mpr hsafe] at hval
                  cases hval
                · obtain ⟨psz, hpsz, hr3⟩ := Res.bind_eq_ok.mp hr3
                  rw [hp7, hmt7] at hpsz
                  obtain ⟨valid2, hv2, hr3⟩ := Res.bind_eq_ok.mp hr3
                  rw [hp7] at hv2
                  have hpl : psz < 2 ^ 32 := by
                    obtain ⟨v, hv, hv0, h1, h2⟩ := protoPacketSize_inv (u32_lt _) hpsz
                    omega
                  obtain ⟨rr2, hrr2, hiff2⟩ := layoutValidate_eq (l := { rx := { offset := field32 hdr2 offRxOffset, size := psz, state := .idle }, tx := { offset := field32 hdr2 offTxOffset, size := field32 hdr2 offTxSize, state := .idle } }) hn0 (hf _) (by exact hpl) (hf _) (hf _)
                  rw [hrr2] at hv2
                  simp only [Except.ok.injEq] at hv2
                  subst hv2
                  have hszeq : ∀ sz, sz = s.mtu + 4 + overhead n → sz < 2 ^ 32 → psz = sz := by
                    intro sz hsz hlt
                    obtain ⟨v, hv, hv0, -, hm⟩ := protoPacketSize_inv (u32_lt _) hpsz
                    simp only [Option.some.injEq] at hv
                    subst hv
                    have hps : packetSize s.mtu = s.mtu + 4 := rfl
                    rw [hm, hps, u32_of_lt (by omega), hsz]
                  split at hr3
                  · rename_i hval
                    simp only [Except.ok.injEq, Prod.mk.injEq] at hr3
                    obtain ⟨rfl, rfl⟩ := hr3
                    refine ⟨[], Adds.refl _, fun _ sz hsz hlt _ hsafe => ?_⟩
                    have hq := hszeq sz hsz hlt
                    subst hq
                    rw [hiff2.mpr hsafe] at hval
                    cases hval
                  · unfold layoutWrite at hr3
                    rw [hm7] at hr3
                    refine ⟨_, lpcWrite_adds hr3, fun _ sz hsz hlt _ _ => ?_⟩
                    have hq := hszeq sz hsz hlt
                    subst hq
                    rfl
            obtain ⟨l3, hl3, hcond⟩ := hl3
            have h7' : Adds s2 s7' [.lpcRead 0 hdr2 r7'] := h7.congr rfl rfl
            have hh := hhello (h7'.trans hl3)
            by_cases hneg : r3 < 0
            · refine ⟨rc1, st, _, hh.1 hneg, fun _ _ => ⟨hdr, r2, _, rfl, hlen, ?_⟩⟩
              intro n' hn' hne
              rw [hn] at hn'
              subst hn'
              refine ⟨fun h => absurd h (by omega), fun _ => ⟨hdr2, r7', l3, rfl, hlen2, ?_⟩⟩
              intro hpos sz hsz hlt hs1 hs2
              exact ⟨r3, [], hcond hpos sz hsz hlt hs1 hs2, fun h => absurd h (by omega)⟩
            · obtain ⟨r4, r5, hadds⟩ := hh.2 hneg
              refine ⟨rc1, st, _, by simpa using hadds, fun _ _ => ⟨hdr, r2, _, rfl, hlen, ?_⟩⟩
              intro n' hn' hne
              rw [hn] at hn'
              subst hn'
              refine ⟨fun h => absurd h (by omega), fun _ => ⟨hdr2, r7', _, rfl, hlen2, ?_⟩⟩
              intro hpos sz hsz hlt hs1 hs2
              rw [hcond hpos sz hsz hlt hs1 hs2]
              exact ⟨r3, _, rfl, fun _ => ⟨r4, r5, rfl⟩⟩
          · rw [if_neg h2n] at hr3
            simp only [Except.ok.injEq, Prod.mk.injEq] at hr3
            obtain ⟨rfl, rfl⟩ := hr3
            have hh := hhello (l3 := []) ((Adds.refl _).congr rfl rfl)
            obtain ⟨r4, r5, hadds⟩ := hh.2 (by omega)
            refine ⟨rc1, st, _, by simpa using hadds, fun _ _ => ⟨hdr, r2, _, rfl, hlen, ?_⟩⟩
            intro n' hn' hne
            rw [hn] at hn'
            subst hn'
            exact ⟨fun _ => ⟨r4, r5, rfl⟩, fun h => absurd h h2n⟩

/-- The BMC refuses a channel when there is no common version or the layout is unsafe. -/
theorem initChannel_refuses {hw : Hw E} {b b' : Binding (AstSt E)} {on : Bool} (hmode : b.st.mode = .bmc)
    (he : initChannel hw b = .ok (on, b')) {hdr : List Byte} {r1 : Int} {rest : List Access}
    (ha : Adds b.st b'.st (.lpcRead 0 hdr r1 :: rest))
    (hbad : negotiateVersion 1 3 (field16 hdr 8) (field16 hdr 10) = 0 ∨
      ∃ hdr2 r2 rest2, rest = .lpcRead 0 hdr2 r2 :: rest2 ∧
        (r2 < 0 ∨ ¬ SafeLayout (negotiateVersion 1 3 (field16 hdr 8) (field16 hdr 10))
          (field32 hdr2 16) (field32 hdr2 20) (field32 hdr2 24) (field32 hdr2 28))) : on = false := by
  have hview := initChannel_view he
  unfold initChannel at he
  obtain ⟨⟨q1, h1, s1⟩, hr1, he⟩ := Res.bind_eq_ok.mp he
  have a1 := lpcRead_adds hr1
  have hs1 := (lpcRead_ok hr1).1
  simp only at he
  generalize hn : negotiateVersion astVerMin astVerCur (field16 h1 offHostMin) (field16 h1 offHostCur) = n at he
  split at he
  · cases he
  · obtain ⟨⟨rc, b2⟩, hr2, he⟩ := Res.bind_eq_ok.mp he
    obtain ⟨⟨mid, a2, hmid⟩, hprot⟩ := negotiateLayoutBmc_still hr2
    have a2 : Adds s1 b2.st mid := a2.congr rfl rfl
    obtain ⟨⟨r3, s3⟩, hr3, he⟩ := Res.bind_eq_ok.mp he
    have a3 := lpcWrite_adds hr3
    simp only at he
    generalize hst : (if (if rc < 0 then 0 else n) > 0 then kcsBmcReady ||| kcsObf ||| kcsChannelActive else kcsBmcReady ||| kcsObf) = st at he
    generalize hk : kcsSetStatus hw { s3 with tx := { s3.tx with state := .acquired }, rx := { s3.rx with state := .released } } st = r at he
    obtain ⟨r4, s4⟩ := r
    obtain ⟨hs4, -, l, a4, hset⟩ := kcsSetStatus_adds hk
    have a4 : Adds s3 s4 l := a4.congr rfl rfl
    simp only [Except.ok.injEq, Prod.mk.injEq] at he
    obtain ⟨rfl, rfl⟩ := he
    have heq := ha.inj (((a1.trans a2).trans a3).trans a4)
    simp only [List.cons_append, List.nil_append, List.cons.injEq, Access.lpcRead.injEq, true_and] at heq
    obtain ⟨⟨rfl, rfl⟩, heq⟩ := heq
    -- it suffices that the version or the layout was refused
    have key : (if rc < 0 then 0 else n) = 0 := by
      rcases hbad with hbad | ⟨hdr2, r2, rest2, hrest, hbad⟩
      · have : n = 0 := hn.symm.trans hbad
        split <;> simp_all
      · by_cases hn0 : n = 0
        · split <;> simp_all
        · have hneg : rc < 0 := by
            unfold negotiateLayoutBmc at hr2
            simp only [protoVersion, Res.bind_ok] at hr2
            rw [if_neg hn0] at hr2
            obtain ⟨⟨r7, lay, s7⟩, hr7, hr2⟩ := Res.bind_eq_ok.mp hr2
            unfold layoutRead at hr7
            obtain ⟨⟨r7', h2, s7'⟩, hrd, hr7⟩ := Res.bind_eq_ok.mp hr7
            have hms : s1.mode = .bmc := hs1.mode.trans hmode
            have hp7 : s7'.proto = some n := (lpcRead_ok hrd).1.proto
            simp only [hms, Except.ok.injEq, Prod.mk.injEq] at hr7
            obtain ⟨rfl, rfl, rfl⟩ := hr7
            have a7 := (lpcRead_adds hrd).congr (a' := s1) (b' := s7') rfl rfl
            -- the second access is this read
            have hmid2 : ∃ l', mid = .lpcRead 0 h2 r7' :: l' := by
              have hafter : ∃ l', Adds s7' b2.st l' := by
                simp only at hr2
                split at hr2
                · simp only [Except.ok.injEq, Prod.mk.injEq] at hr2
                  obtain ⟨-, rfl⟩ := hr2
                  exact ⟨[], Adds.refl _⟩
                · obtain ⟨valid, -, hr2⟩ := Res.bind_eq_ok.mp hr2
                  split at hr2
                  · simp only [Except.ok.injEq, Prod.mk.injEq] at hr2
                    obtain ⟨-, rfl⟩ := hr2
                    exact ⟨[], Adds.refl _⟩
                  · obtain ⟨mt, -, hr2⟩ := Res.bind_eq_ok.mp hr2
                    obtain ⟨sz, -, hr2⟩ := Res.bind_eq_ok.mp hr2
                    obtain ⟨valid2, -, hr2⟩ := Res.bind_eq_ok.mp hr2
                    split at hr2
                    · obtain ⟨⟨r8, s8⟩, hr8, hr2⟩ := Res.bind_eq_ok.mp hr2
                      obtain ⟨l8, a8, -⟩ := layoutWrite_still hr8
                      have a8 := a8.congr (a' := s7') (b' := s8) rfl rfl
                      simp only at hr2
                      split at hr2
                      · simp only [Except.ok.injEq, Prod.mk.injEq] at hr2
                        obtain ⟨-, rfl⟩ := hr2
                        exact ⟨l8, a8⟩
                      · split at hr2 <;> simp only [Except.ok.injEq, Prod.mk.injEq] at hr2 <;>
                          obtain ⟨-, rfl⟩ := hr2 <;> exact ⟨l8, a8⟩
                    · simp only [Except.ok.injEq, Prod.mk.injEq] at hr2
                      obtain ⟨-, rfl⟩ := hr2
                      exact ⟨[], Adds.refl _⟩
              obtain ⟨l', hl'⟩ := hafter
              exact ⟨l', a2.inj (a7.trans hl')⟩
            obtain ⟨l', rfl⟩ := hmid2
            rw [hrest] at heq
            simp only [List.cons_append, List.cons.injEq, Access.lpcRead.injEq, true_and] at heq
            obtain ⟨⟨rfl, rfl⟩, -⟩ := heq
            simp only at hr2
            split at hr2
            · rename_i hneg
              simp only [Except.ok.injEq, Prod.mk.injEq] at hr2
              rw [← hr2.1]; exact hneg
            · rename_i hneg
              have hf : ∀ o, field32 hdr2 o < 2 ^ 32 := fun o => field32_lt hdr2 o
              obtain ⟨valid, hv, hr2⟩ := Res.bind_eq_ok.mp hr2
              rw [hp7] at hv
              obtain ⟨rr, hrr, hiff⟩ := layoutValidate_eq (l := { rx := { offset := field32 hdr2 offTxOffset, size := field32 hdr2 offTxSize, state := .idle }, tx := { offset := field32 hdr2 offRxOffset, size := field32 hdr2 offRxSize, state := .idle } }) hn0 (hf _) (hf _) (hf _) (hf _)
              rw [hrr] at hv
              simp only [Except.ok.injEq] at hv
              subst hv
              split at hr2
              · simp only [Except.ok.injEq, Prod.mk.injEq] at hr2
                rw [← hr2.1]; simp [EINVAL]
              · rename_i hval
                have hval : rr = true := by simpa using hval
                rcases hbad with hbad | hbad
                · exact absurd hbad hneg
                · exfalso
                  apply hbad
                  obtain ⟨x1, x2, x3⟩ := hiff.mp hval
                  have hn : negotiateVersion 1 3 (field16 hdr 8) (field16 hdr 10) = n := hn
                  rw [hn]
                  exact ⟨x2, x1, x3.symm⟩
          rw [if_pos hneg]
    rw [key] at hst
    subst hst
    decide

end Mctp
