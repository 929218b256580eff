import Verif.Proofs.LinkCmd

/-! The code keeps to the detailed monitor: a poll of either side. -/

namespace Mctp

open Spec

variable {E : Type}

section
variable {g : LinkCfg} {U : AstSt E → Prop} {os : List Offer} {rs : List (List Byte)}

/-- The two reads of a poll. -/
theorem poll_data (hw : Hw E) (hU : Stable U) {bus : Bus (AstSt E)} {k v d : Byte} {r : Int} {s : AstSt E}
    (hmode : bus.binding.st.mode = g.mode)
    (h : Obeys g bus.binding.st (Rel g U none k os rs bus))
    (hs : SameSt (astRetry hw bus.binding.st) s)
    (ha : Adds (astRetry hw bus.binding.st) s [.kcsRead .status 0 v, .kcsRead .data r d]) (hrd : kcsReady g.mode v false = true) :
    Obeys g s (fun f => r = 0 ∧ DataAt g U v k os rs { bus with binding := { bus.binding with st := s } } d f) := by
  have h0 := retry_rel hw hU hmode h
  generalize astRetry hw bus.binding.st = s0 at *
  have ha1 : Adds s0 { s with log := s0.log ++ [⟨s.rx, s.tx, .kcsRead .status 0 v⟩] } [.kcsRead .status 0 v] := by
    unfold Adds AstSt.accs; simp
  have hs1 : SameSt s0 { s with log := s0.log ++ [⟨s.rx, s.tx, .kcsRead .status 0 v⟩] } := by
    unfold SameSt at *
    generalize s.env = ev at hs
    generalize s.log = lg at hs
    subst hs; rfl
  have ha2 : Adds { s with log := s0.log ++ [⟨s.rx, s.tx, .kcsRead .status 0 v⟩] } s [.kcsRead .data r d] := by
    unfold Adds at *
    rw [ha]
    unfold AstSt.accs; simp
  have h1 := status_rel (bus := { bus with binding := { bus.binding with st := s0 } }) hU h0 ha1 hs1
  exact data_rel (bus := { bus with binding := { bus.binding with st := { s with log := s0.log ++ [⟨s.rx, s.tx, .kcsRead .status 0 v⟩] } } })
    (r0 := 0) hU h1 ha2 rfl hrd

theorem poll_status (hw : Hw E) (hU : Stable U) {bus : Bus (AstSt E)} {k v : Byte} {r : Int} {s : AstSt E}
    (hmode : bus.binding.st.mode = g.mode)
    (h : Obeys g bus.binding.st (Rel g U none k os rs bus))
    (hs : SameSt (astRetry hw bus.binding.st) s)
    (ha : Adds (astRetry hw bus.binding.st) s [.kcsRead .status r v]) :
    Obeys g s (Rel g U none k os rs { bus with binding := { bus.binding with st := s } }) := by
  have h0 := retry_rel hw hU hmode h
  generalize astRetry hw bus.binding.st = s0 at *
  exact (status_rel (bus := { bus with binding := { bus.binding with st := s0 } }) hU h0 ha hs).mono fun f hf => hf.2.1

theorem DataAt.open {v k d : Byte} {bus : Bus (AstSt E)} {f : Fine} (h : DataAt g U v k os rs bus d f) (h0 : d ≠ 0) (h255 : d ≠ 255) :
    bus.binding.st.proto = some 3 := by
  rcases h with ⟨-, h, -⟩ | ⟨-, h, -⟩ | ⟨-, -, ho, -, hf⟩ | ⟨-, -, f0, a, hf, ho, -⟩
  · exact absurd h h0
  · exact absurd h h255
  · exact (hf.lay ho).1
  · exact (hf.lay ho).1

/-- The two commands of packet exchange. -/
theorem cmd_rel {hw : Hw E} {mode : AstMode} {mtu : Nat} {c c' : Core (AstSt E)} {i : Nat}
    {bus : Bus (AstSt E)} {e : List Event} {v d : Byte} {rc : Int} {stop : Bool}
    (hoff : 256 ≤ g.txo) (hrxo : 256 ≤ g.rxo) (hsz : g.sz < 2 ^ 31) (h76 : 76 ≤ g.sz)
    (hb : c.busses = [bus]) (hbr : c.bridge = false) (hj : AstJ mode mtu bus) (hmode : g.mode = mode)
    (hls : g.lossy = true → g.mode = .bmc) (hmem : g.lossy = false → AllOk c.mem)
    (hw1 : ∃ w, Traced bus.binding.st w ∧ Phase bus.binding.st w ∧ (d = 1 → w.rx = true) ∧
      (d = 2 → bus.binding.st.tx.state = .released → w.tx = .free))
    (h : Obeys g bus.binding.st (DataAt g U v bus.binding.st.kcsStatus os rs bus d)) (hd : d ≠ 0 ∧ d ≠ 255)
    (he : c.astCommand hw i v d = .ok (c', e, rc, stop)) :
    (stop = false ∧ Follows g U (some v) (os ++ offers 0 e) (rs ++ packetsIn e) c') ∨ Obeys g bus.binding.st (fun _ => False) := by
  obtain ⟨w, htr, hph, hd1, hd2⟩ := hw1
  unfold Core.astCommand at he
  obtain ⟨bus1, hbus, he2⟩ := Res.bind_eq_ok.mp he
  clear he
  obtain ⟨rfl, rfl⟩ := busAt_single hb hbus
  simp only at he2
  rw [if_neg (show ¬ d = cmdInitialise from hd.1)] at he2
  split at he2
  · rename_i hdata
    have hdata : d = 1 := hdata
    subst hdata
    have h1 := h.mono (Q := fun f => bus1.binding.st.rx.state = .released ∧ ∃ f0 a, Rel g U (some v) bus1.binding.st.kcsStatus os rs bus1 f0 ∧
        f0.opened = true ∧ f0.rxp = .away ∧ f = { f0 with w := ⟨a, f0.w.tx, true⟩, rxp := .begun }) (by
      rintro f (⟨-, h, -⟩ | ⟨-, h, -⟩ | ⟨h, -⟩ | ⟨-, h⟩)
      · exact absurd h (by decide)
      · exact absurd h (by decide)
      · exact absurd h (by decide)
      · exact h)
    rcases h1.fact (fun f hf => hf.1) with hrel | hno
    · rw [if_neg (not_not_intro hrel)] at he2
      obtain ⟨⟨c1, e1⟩, hs, he2⟩ := Res.bind_eq_ok.mp he2
      simp only [Except.ok.injEq, Prod.mk.injEq] at he2
      obtain ⟨rfl, rfl, -, rfl⟩ := he2
      obtain ⟨bus', hb', hk, ho⟩ := rx_rel hrxo hb hbr hj hmode hls hmem h1 hs
      exact .inl ⟨rfl, bus', hb', by rw [hk]; exact ho⟩
    · exact .inr hno
  · rename_i hn1
    split at he2
    · rename_i hdata
      have hdata : d = 2 := hdata
      subst hdata
      have h1 := h.mono (Q := fun f => bus1.binding.st.tx.state = .released ∧ f.opened = true ∧ f.stale = false ∧
          Rel g U (some v) bus1.binding.st.kcsStatus os rs { bus1 with state := .txEnabled, binding := { bus1.binding with st := { bus1.binding.st with tx := { bus1.binding.st.tx with state := .acquired } } } } f) (by
        rintro f (⟨-, h, -⟩ | ⟨-, h, -⟩ | ⟨-, h⟩ | ⟨h, -⟩)
        · exact absurd h (by decide)
        · exact absurd h (by decide)
        · exact h
        · exact absurd h (by decide))
      rcases h1.fact (fun f hf => hf.1) with hrel | hno
      · rw [if_neg (not_not_intro hrel)] at he2
        obtain ⟨⟨c1, e1⟩, hs, he2⟩ := Res.bind_eq_ok.mp he2
        simp only [Except.ok.injEq, Prod.mk.injEq] at he2
        obtain ⟨rfl, rfl, -, rfl⟩ := he2
        obtain ⟨bus', hb', hk, ho⟩ := tx_rel hoff hsz h76 hb hj hrel ⟨w, htr, hph, hd2 rfl hrel⟩ (h1.mono fun f hf => hf.2) hs
        exact .inl ⟨rfl, bus', hb', by rw [hk]; exact ho⟩
      · exact .inr hno
    · rename_i hn2
      right
      refine h.mono ?_
      rintro f (⟨-, h, -⟩ | ⟨-, h, -⟩ | ⟨h, -⟩ | ⟨h, -⟩)
      · exact hd.1 h
      · exact hd.2 h
      · exact hn2 h
      · exact hn1 h

theorem Rel.bmc_done {φ φ' : Option Byte} {k k' : Byte} {bus : Bus (AstSt E)} {f : Fine} (hm : g.mode = .bmc)
    (h : Rel g U φ k os rs bus f) : Rel g U φ' k' os rs bus f :=
  { h with
    fin := by rw [h.fin, hm]; simp
    kcs := by rw [hm]; exact fun h => (nomatch h)
    mid := by rw [hm]; exact fun _ _ h => (nomatch h) }

end

/-- A poll of the BMC. -/
theorem poll_bmc {hw : Hw E} {mtu H : Nat} {c c' : Core (AstSt E)} {bus : Bus (AstSt E)} {e : List Event} {rc : Int}
    {os : List Offer} {rs : List (List Byte)}
    (hmtu : mtu < 4294967284) (hH1 : 76 ≤ H) (hH2 : H ≤ bmcRoom mtu) (hmem : ls = false → AllOk c.mem)
    (hb : c.busses = [bus]) (hbr : c.bridge = false) (hj : AstJ .bmc mtu bus)
    (h : Obeys (cfgB (bmcRoom mtu) H ls) bus.binding.st (Rel (cfgB (bmcRoom mtu) H ls) (BmcClosed mtu) none bus.binding.st.kcsStatus os rs bus))
    (he : c.astPoll hw 0 = .ok (c', e, rc)) :
    Follows (cfgB (bmcRoom mtu) H ls) (BmcClosed mtu) none (os ++ offers 0 e) (rs ++ packetsIn e) c' := by
  have hB := bmcRoom_le mtu
  have hU := bmcClosed_stable (E := E) mtu
  have hm0 : bus.binding.st.mode = (cfgB (bmcRoom mtu) H ls).mode := hj.1.mode
  have hproto : ∀ s, SameSt (astRetry hw bus.binding.st) s → s.proto = bus.binding.st.proto ∧ s.kcsStatus = bus.binding.st.kcsStatus := by
    intro s hs
    obtain ⟨_, _, _, _, _, hr⟩ := astRetry_adds hw bus.binding.st
    exact ⟨hs.proto.trans (by rw [hr]), hs.kcs.trans (by rw [hr])⟩
  obtain ⟨-, hcase⟩ := astPoll_view hb hj he
  rcases hcase with ⟨r, v, s, hs, ha, hj1, -, -, rfl, rfl⟩ | ⟨v, r, d, s, hs, ha, hj1, hrd, hcase⟩
  · refine ⟨_, rfl, ?_⟩
    rw [show offers 0 ([] : List Event) = [] from rfl, show packetsIn ([] : List Event) = [] from rfl, List.append_nil, List.append_nil]
    simp only [(hproto s hs).2]
    exact poll_status hw hU hm0 h hs ha
  · have hp := poll_data hw hU hm0 h hs ha (by rw [← hm0]; exact hrd)
    rw [← (hproto s hs).2] at hp
    rcases hcase with ⟨hcond, -, rfl, rfl⟩ | ⟨rfl, -, hw1, c1, e1, rc1, stop, hcmd, hfin⟩
    · refine ⟨_, rfl, ?_⟩
      refine hp.mono ?_
      rintro f ⟨hr0, hf⟩
      exfalso
      rcases hcond with h | ⟨h1, h2, h3⟩
      · exact h hr0
      · have := hf.open h2 h3
        simp only at this
        rw [(hproto s hs).1, h1] at this
        cases this
    · have hp := hp.mono fun f hf => hf.2
      have hg1 := astCommand_growC rfl (by exact hbr) hj1 hw1 hcmd
      have hX : (stop = false ∧ Follows (cfgB (bmcRoom mtu) H ls) (BmcClosed mtu) (some v) (os ++ offers 0 e1) (rs ++ packetsIn e1) c1) ∨
          Obeys (cfgB (bmcRoom mtu) H ls) s (fun _ => False) := by
        by_cases hd0 : d = 0
        · subst hd0
          have hp1 := hp.mono (Q := fun f => Starting true (cfgB (bmcRoom mtu) H ls).init f ∧ BmcClosed mtu s ∧ (taken os = [] ∧ ∀ o ∈ os, o.rc = 0) ∧ rs = [] ∧ bus.binding.version = 1 ∧
              bus.binding.pktHeader = 4 ∧ bus.binding.pktTrailer = 4 ∧ bus.state = .constructed ∧ bus.queue = []) (by
            rintro f (⟨-, -, h1, h2, h3, h4, h5, h6, h7, -, h8, h9⟩ | ⟨-, h, -⟩ | ⟨h, -⟩ | ⟨h, -⟩)
            · exact ⟨h1, h2, h3, h4, h5, h6, h7, h8, h9⟩
            · exact absurd h (by decide)
            · exact absurd h (by decide)
            · exact absurd h (by decide))
          rcases hp1.fact (fun f hf => hf.2) with hX | hno
          · unfold Core.astCommand at hcmd
            obtain ⟨bus1, hbus, hcmd⟩ := Res.bind_eq_ok.mp hcmd
            rw [if_pos (by rfl)] at hcmd
            obtain ⟨⟨c2, e2⟩, hs2, hcmd⟩ := Res.bind_eq_ok.mp hcmd
            simp only [Except.ok.injEq, Prod.mk.injEq] at hcmd
            obtain ⟨rfl, rfl, -, rfl⟩ := hcmd
            obtain ⟨bus', hb', hk, ho⟩ := init_rel (v := v) (k := s.kcsStatus) (os := os) (rs := rs) hmtu hH1 hH2 (by rfl) hj1 hX (hp1.mono fun f hf => hf.1) hs2
            exact .inl ⟨rfl, bus', hb', by rw [hk]; exact ho⟩
          · exact .inr hno
        · by_cases hd255 : d = 255
          · subst hd255
            right
            refine hp.mono ?_
            rintro f (⟨-, h, -⟩ | ⟨h, -, -⟩ | ⟨h, -⟩ | ⟨h, -⟩)
            · exact absurd h (by decide)
            · cases h
            · exact absurd h (by decide)
            · exact absurd h (by decide)
          · exact cmd_rel (by simp only [cfgB]; omega) (by simp only [cfgB]; omega) (by simp only [cfgB]; omega) (by simp only [cfgB]; omega)
              (by rfl) (by exact hbr) hj1 rfl (fun _ => rfl) (by exact hmem) hw1 hp ⟨hd0, hd255⟩ hcmd
      have hdone : c' = c1 ∧ e = e1 := by
        rcases hfin with ⟨-, h1, h2, -⟩ | ⟨-, e2, haf, rfl⟩
        · exact ⟨h1, h2⟩
        · unfold Core.astAfter at haf
          rw [if_neg (by rw [hj.1.mode]; rintro ⟨h, -⟩; cases h)] at haf
          simp only [Except.ok.injEq, Prod.mk.injEq] at haf
          obtain ⟨rfl, rfl, -⟩ := haf
          exact ⟨rfl, List.append_nil _⟩
      obtain ⟨rfl, rfl⟩ := hdone
      rcases hX with ⟨-, bus', hb', ho⟩ | hno
      · exact ⟨bus', hb', ho.mono fun f hf => hf.bmc_done rfl⟩
      · exact .never (bus := { bus with binding := { bus.binding with st := s } }) hno hg1

/-- A poll of the host. -/
theorem poll_host {hw : Hw E} {mtu B H : Nat} {c c' : Core (AstSt E)} {bus : Bus (AstSt E)} {e : List Event} {rc : Int}
    {os : List Offer} {rs : List (List Byte)}
    (hH1 : 76 ≤ H) (hH2 : H ≤ B) (hB : B ≤ 524156) (hmem : AllOk c.mem)
    (hb : c.busses = [bus]) (hbr : c.bridge = false) (hj : AstJ .host mtu bus)
    (h : Obeys (cfgH B H) bus.binding.st (Rel (cfgH B H) HostClosed none bus.binding.st.kcsStatus os rs bus))
    (he : c.astPoll hw 0 = .ok (c', e, rc)) :
    Follows (cfgH B H) HostClosed none (os ++ offers 0 e) (rs ++ packetsIn e) c' := by
  have hU := hostClosed_stable (E := E)
  have hm0 : bus.binding.st.mode = (cfgH B H).mode := hj.1.mode
  have hproto : ∀ s, SameSt (astRetry hw bus.binding.st) s → s.proto = bus.binding.st.proto ∧ s.kcsStatus = bus.binding.st.kcsStatus := by
    intro s hs
    obtain ⟨_, _, _, _, _, hr⟩ := astRetry_adds hw bus.binding.st
    exact ⟨hs.proto.trans (by rw [hr]), hs.kcs.trans (by rw [hr])⟩
  obtain ⟨-, hcase⟩ := astPoll_view hb hj he
  rcases hcase with ⟨r, v, s, hs, ha, hj1, -, -, rfl, rfl⟩ | ⟨v, r, d, s, hs, ha, hj1, hrd, hcase⟩
  · refine ⟨_, rfl, ?_⟩
    rw [show offers 0 ([] : List Event) = [] from rfl, show packetsIn ([] : List Event) = [] from rfl, List.append_nil, List.append_nil]
    simp only [(hproto s hs).2]
    exact poll_status hw hU hm0 h hs ha
  · have hp := poll_data hw hU hm0 h hs ha (by rw [← hm0]; exact hrd)
    rw [← (hproto s hs).2] at hp
    rcases hcase with ⟨hcond, -, rfl, rfl⟩ | ⟨rfl, -, hw1, c1, e1, rc1, stop, hcmd, hfin⟩
    · refine ⟨_, rfl, ?_⟩
      refine hp.mono ?_
      rintro f ⟨hr0, hf⟩
      exfalso
      rcases hcond with h | ⟨h1, h2, h3⟩
      · exact h hr0
      · have := hf.open h2 h3
        simp only at this
        rw [(hproto s hs).1, h1] at this
        cases this
    · have hp := hp.mono fun f hf => hf.2
      have hg1 := astCommand_growC rfl (by exact hbr) hj1 hw1 hcmd
      obtain ⟨bus1, m1, t1, hc1, hj2⟩ := astCommand_frame rfl (by exact hbr) hj1 hw1 hcmd
      have hb1 : c1.busses = [bus1] := by rw [hc1]
      have hgrow : GrowC { bus with binding := { bus.binding with st := s } } c' := by
        rcases hfin with ⟨-, rfl, -⟩ | ⟨-, e2, haf, -⟩
        · exact hg1
        · obtain ⟨b1, hb1', g1⟩ := hg1
          have : b1 = bus1 := by rw [hb1] at hb1'; simpa using hb1'.symm
          subst this
          obtain ⟨b2, hb2, g2⟩ := astAfter_growC hb1 hj2 haf
          exact ⟨b2, hb2, g1.trans g2⟩
      by_cases hd255 : d = 255
      · subst hd255
        have hp1 := hp.mono (Q := Rel (cfgH B H) HostClosed (some v) s.kcsStatus os rs { bus with binding := { bus.binding with st := s } }) (by
          rintro f (⟨h, -⟩ | ⟨-, -, h⟩ | ⟨h, -⟩ | ⟨h, -⟩)
          · cases h
          · exact h
          · exact absurd h (by decide)
          · exact absurd h (by decide))
        rcases hp1.fact (X := v.getLsbD 7 = true) (fun f hf => (hf.mid v rfl rfl).1) with hv7 | hno
        · unfold Core.astCommand at hcmd
          obtain ⟨bus2, hbus, hcmd⟩ := Res.bind_eq_ok.mp hcmd
          obtain ⟨-, rfl⟩ := busAt_single (bus := { bus with binding := { bus.binding with st := s } }) (by rfl) hbus
          rw [if_neg (by decide), if_neg (by decide), if_neg (by decide), if_pos (by rfl), if_pos hj1.1.mode] at hcmd
          obtain ⟨⟨c2, e2, rc2⟩, hs2, hcmd⟩ := Res.bind_eq_ok.mp hcmd
          simp only [Except.ok.injEq, Prod.mk.injEq] at hcmd
          obtain ⟨rfl, rfl, -, -⟩ := hcmd
          have hup := update_rel hH1 hH2 hB (by rfl) hj1 hp1 hs2
          have hdone : c' = c2 ∧ e = e2 := by
            rcases hfin with ⟨-, h1, h2, -⟩ | ⟨-, e3, haf, rfl⟩
            · exact ⟨h1, h2⟩
            · unfold Core.astAfter at haf
              rw [if_neg (by
                rintro ⟨-, hn⟩
                refine hn ⟨?_, rfl⟩
                rw [ne_eq, bit7, hv7]; simp)] at haf
              simp only [Except.ok.injEq, Prod.mk.injEq] at haf
              obtain ⟨rfl, rfl, -⟩ := haf
              exact ⟨rfl, List.append_nil _⟩
          obtain ⟨rfl, rfl⟩ := hdone
          rw [packetsIn_isTx (astUpdateChannel_events hs2), List.append_nil]
          exact hup
        · exact .never (bus := { bus with binding := { bus.binding with st := s } }) hno hgrow
      · by_cases hd0 : d = 0
        · subst hd0
          refine .never (bus := { bus with binding := { bus.binding with st := s } }) ?_ hgrow
          refine hp.mono ?_
          rintro f (⟨h, -⟩ | ⟨-, h, -⟩ | ⟨h, -⟩ | ⟨h, -⟩)
          · cases h
          · exact absurd h (by decide)
          · exact absurd h (by decide)
          · exact absurd h (by decide)
        · rcases cmd_rel (by simp only [cfgH]; omega) (by simp only [cfgH]; omega) (by simp only [cfgH]; omega) (by simp only [cfgH]; omega)
              (by rfl) (by exact hbr) hj1 rfl (by intro h; simp [cfgH] at h) (by exact fun _ => hmem) hw1 hp ⟨hd0, hd255⟩ hcmd with ⟨rfl, b1, hb1', ho⟩ | hno
          · have : b1 = bus1 := by rw [hb1] at hb1'; simpa using hb1'.symm
            subst this
            rcases hfin with ⟨h, -⟩ | ⟨-, e2, haf, rfl⟩
            · cases h
            · unfold Core.astAfter at haf
              rw [if_pos ⟨hj.1.mode, fun h => hd255 h.2⟩] at haf
              have hup := update_rel hH1 hH2 hB hb1 hj2 ho haf
              rw [offers_append, packetsIn_append, packetsIn_isTx (astUpdateChannel_events haf), List.append_nil, ← List.append_assoc]
              exact hup
          · exact .never (bus := { bus with binding := { bus.binding with st := s } }) hno hgrow

end Mctp
