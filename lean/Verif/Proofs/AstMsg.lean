import Verif.Proofs.AstSend
import Verif.Proofs.RoundTrip

/-!
# Messages across the LPC link
-/

namespace Mctp

open Spec

variable {E : Type}

/-! ## The receiving side -/

/-- The ideal reassembler can always continue. -/
theorem reasm_total {mx : Nat} {eid : Byte} : ∀ (ps : List (List Byte)) (σ : State),
    ∃ tr σ', tr.map (·.1) = ps ∧ Reasm (loose mx) eid σ tr σ' := by
  intro ps
  induction ps with
  | nil => intro σ; exact ⟨[], σ, rfl, rfl⟩
  | cons p ps ih =>
    intro σ
    have hstep : ∃ σ1 out, PktStep (loose mx) eid σ p σ1 out := by
      unfold PktStep
      cases hp : parse p with
      | none => exact ⟨σ, [], rfl, rfl⟩
      | some f =>
        simp only
        by_cases h1 : ¬ Local eid f.dest
        · exact ⟨σ, [], by rw [if_pos h1]; exact ⟨rfl, rfl⟩⟩
        by_cases h2 : f.single
        · exact ⟨σ, [(f.src, f.payload)], by rw [if_neg h1, if_pos h2]; exact ⟨rfl, rfl⟩⟩
        by_cases h3 : f.src = 0
        · exact ⟨σ, [], by rw [if_neg h1, if_neg h2, if_pos h3]⟩
        have hroom : ∃ room : Bool, room = true ↔ ¬ Full σ := by
          by_cases h : Full σ
          · exact ⟨false, by simp [h]⟩
          · exact ⟨true, by simp [h]⟩
        obtain ⟨room, hr⟩ := hroom
        refine ⟨fun k => if k = f.key then (own room (decide (total (σ f.key) f ≤ mx)) f (σ f.key)).1 else σ k,
          ((own room (decide (total (σ f.key) f ≤ mx)) f (σ f.key)).2.map fun b => (f.src, b)).toList, ?_⟩
        rw [if_neg h1, if_neg h2, if_neg h3]
        refine ⟨_, ⟨room, _, hr, ⟨fun h => of_decide_eq_true h, fun _ h => ?_⟩, ?_, fun k hk => if_neg hk⟩, rfl⟩
        · exact decide_eq_true (by omega)
        · simp
    obtain ⟨σ1, out, hs⟩ := hstep
    obtain ⟨tr, σ', h1, h2⟩ := ih σ1
    exact ⟨(p, out) :: tr, σ', by simp [h1], σ1, hs, h2⟩

/-- The calls that leave the receive callback and the size limit alone. -/
def KeepsRx (hist : List AstOp) : Prop := ∀ op ∈ hist, (∀ n, op ≠ .setMax n) ∧ (∀ n, op ≠ .setRx n)

theorem astStep_recv {hw : Hw E} {mode : AstMode} {mtu : Nat} {eid : Byte} {mx : Nat} {A P : Nat → Prop} {lim : Nat → Bool → Prop}
    (hpol : Pol mx A P lim) {c c' : Core (AstSt E)} {bus : Bus (AstSt E)} {op : AstOp} {e evs : List Event} {rc : Int}
    (hP : ∀ p ∈ packetsIn e, P (p.length - 4)) (hop : (∀ n, op ≠ .setMax n) ∧ (∀ n, op ≠ .setRx n)) (hb : c.busses = [bus]) (hj : AstJ mode mtu bus)
    (h : RecvInv eid mx A evs c) (he : c.astStep hw op = .ok (c', e, rc)) :
    RecvInv eid mx A (evs ++ e) c' ∧ Explains lim eid c c' e := by
  have hm := astStep_memOk he
  simp only at hm
  unfold Core.astStep at he
  split at he
  · rename_i o ho
    have happ : IsApp o := AstOp.isApp ho
    obtain ⟨b0, hb0, hbe, hcr⟩ := h.bus
    rw [hb] at hb0; simp only [List.cons.injEq, and_true] at hb0; subst hb0
    obtain ⟨bus', m, hx, hc, mx', hc', ⟨k1, k2⟩, hev⟩ := step_keeps (J := fun _ b => b.eid = bus.eid ∧ b.binding.controlRx = bus.binding.controlRx)
      ⟨⟨fun h _ _ _ => ⟨h.1, h.2⟩, fun h _ _ => h⟩, fun h _ => h⟩ hb (os := []) ⟨rfl, rfl⟩ happ he
    have hno : (∀ i bs, o ≠ .recv i bs) ∧ (∀ n, o ≠ .setMax n) ∧ (∀ n, o ≠ .setRx n) := by
      cases op with
      | setMax n => exact absurd rfl (hop.1 n)
      | setRx n => exact absurd rfl (hop.2 n)
      | poll => simp [AstOp.core] at ho
      | _ => simp only [AstOp.core, Option.some.injEq] at ho; subst ho; simp
    obtain ⟨-, m2, bs2, hr2, hc2, mx2, hc2', -, q1, q2⟩ := step_frame hno.1 he
    have e1 := q1 hno.2.1
    have e2 := q2 hno.2.2
    subst e1 e2
    have f1 : c'.hasRx = c.hasRx := by rw [hc2']
    have f2 : c'.maxSize = c.maxSize := by rw [hc2']
    have f3 : c'.ctxs = c.ctxs := by rw [hc2']
    have f4 : c'.bridge = c.bridge := by rw [hc2']
    have f5 : c'.busses = [bus'] := by rw [hc']
    exact h.tx hev hm f3 f4 f1 f2 ⟨bus', f5, k1.trans hbe, k2.trans hcr⟩
  · exact (astPoll_chunk hb h.ep.noBridge hj he).recv hpol hP h

theorem Explains.refl {β : Type} {lim : Nat → Bool → Prop} {eid : Byte} (c : Core β) : Explains lim eid c c [] := ⟨[], rfl, rfl, rfl⟩

theorem astRun_recv {hw : Hw E} {mode : AstMode} {mtu : Nat} {eid : Byte} {mx : Nat} {A P : Nat → Prop} {lim : Nat → Bool → Prop}
    (hpol : Pol mx A P lim) {hist : List AstOp} :
    ∀ {c c' : Core (AstSt E)} {bus : Bus (AstSt E)} {log : List AstRec} {evs : List Event},
      (∀ p ∈ packetsIn (astEvents log), P (p.length - 4)) → KeepsRx hist → c.busses = [bus] →
      AstJ mode mtu bus → RecvInv eid mx A evs c → c.astRun hw hist = .ok (c', log) →
      RecvInv eid mx A (evs ++ astEvents log) c' ∧ Explains lim eid c c' (astEvents log) := by
  induction hist with
  | nil =>
    intro c c' bus log evs hP hk hb hj h he
    simp only [Core.astRun, Except.ok.injEq, Prod.mk.injEq] at he
    obtain ⟨rfl, rfl⟩ := he
    exact ⟨by simpa [astEvents] using h, Explains.refl c⟩
  | cons op rest ih =>
    intro c c' bus log evs hP hk hb hj h he
    simp only [Core.astRun] at he
    obtain ⟨⟨c1, e1, rc1⟩, h1, he⟩ := Res.bind_eq_ok.mp he
    obtain ⟨⟨c2, log2⟩, h2, he⟩ := Res.bind_eq_ok.mp he
    simp only [Except.ok.injEq, Prod.mk.injEq] at he
    obtain ⟨rfl, rfl⟩ := he
    obtain ⟨b1, hb1, hbr1, hj1⟩ := astStep_inv hb h.ep.noBridge hj h1
    have hev : astEvents (⟨op, e1, rc1⟩ :: log2) = e1 ++ astEvents log2 := rfl
    rw [hev, packetsIn_append] at hP
    obtain ⟨a1, a2⟩ := astStep_recv hpol (fun p hp => hP p (List.mem_append_left _ hp)) (hk op (by simp)) hb hj h h1
    obtain ⟨d1, d2⟩ := ih (fun p hp => hP p (List.mem_append_right _ hp)) (fun o ho => hk o (by simp [ho])) hb1 hj1 a1 h2
    refine ⟨?_, a2.trans d2⟩
    rw [hev, ← List.append_assoc]
    exact d1

theorem AstEndpoint.configured {hw : Hw E} {env : E} {eid : Byte} {mx : Nat} {mode : AstMode} {mtu : Nat} {mem : Mem}
    {c0 : Core (AstSt E)} (h : AstEndpoint hw env eid mx mode mtu mem c0) : Configured (astOps hw) eid mx mem c0 := by
  obtain ⟨fill, c, rc, -, h1, h2, h3⟩ := h
  exact ⟨fill, c, _, rc, h1, h2, h3⟩

theorem AstEndpoint.recvInv {hw : Hw E} {env : E} {eid : Byte} {mx : Nat} {mode : AstMode} {mtu : Nat} {mem : Mem}
    {c0 : Core (AstSt E)} (h : AstEndpoint hw env eid mx mode mtu mem c0) (hmem : AllOk mem) {A P : Nat → Prop} {lim : Nat → Bool → Prop}
    (hpol : Pol mx A P lim) : RecvInv eid mx A [] c0 := by
  obtain ⟨rc, s, hrc, hs, hb, -⟩ := h.start
  obtain ⟨f1, f2, f3⟩ := h.configured.flags
  refine ⟨h.configured.epInv, fun n => by rw [h.memOk]; exact hmem n, ?_, ⟨f1, f2, ?_⟩, _, hb, rfl, rfl⟩
  · rw [f3]; intro x hx; rw [List.eq_of_mem_replicate hx]; exact ⟨Nat.zero_le _, fun _ => rfl⟩
  · rw [f3]; intro x hx; rw [List.eq_of_mem_replicate hx]; exact hpol.zero

/-- If the packets an endpoint has received are the first of the packets of messages for it, it has delivered the
first of these messages; if they are all of them, all. -/
theorem AstEndpoint.delivers {hw : Hw E} {env : E} {eid : Byte} {mx : Nat} {mode : AstMode} {mtu : Nat} {mem : Mem}
    {c0 c : Core (AstSt E)} (h : AstEndpoint hw env eid mx mode mtu mem c0) (hmem : AllOk mem) {hist : List AstOp} {log : List AstRec}
    (hk : KeepsRx hist) (hr : c0.astRun hw hist = .ok (c, log)) (hmx1 : 4096 ≤ mx) (hmx2 : mx < 2 ^ 64) {src ver : Byte} (hsrc : src ≠ 0)
    {ms : List Msg} (hms : ∀ m ∈ ms, 0 < m.mtu ∧ m.tag.toNat < 8 ∧ Local eid m.dest ∧ 2 * m.data.length ≤ mx)
    {rest : List (List Byte)} (hps : ms.flatMap (Msg.packets ver src) = packetsIn (astEvents log) ++ rest) :
    ∃ more, (ms.filter (fun m => m.data ≠ [])).map (fun m => Event.rxMsg src m.own m.tag m.data) =
      (astEvents log).filter (fun ev => (delivered ev).isSome) ++ more ∧ (rest = [] → more = []) := by
  have hpol := Pol.loose hmx2
  obtain ⟨bus, hb, hbr, hj⟩ := h.inv
  obtain ⟨-, tr, t1, t2, t3⟩ := astRun_recv hpol (fun _ _ => trivial) hk hb hj (h.recvInv hmem hpol) hr
  rw [h.configured.flags.2.2, abs_init] at t2
  obtain ⟨tr2, σ', r1, r2⟩ := reasm_total (mx := mx) (eid := eid) rest (abs c.ctxs)
  obtain ⟨q1, -, -⟩ := reasm_many (ms := ms) hsrc (fun m hm =>
    ⟨(hms m hm).1, (hms m hm).2.1, (hms m hm).2.2.1, fun n b hn hl => hl.2 hmx1 (by have := (hms m hm).2.2.2; omega)⟩)
    (Mctp.Reasm.trans t2 r2) (by rw [List.map_append, t1, r1, hps]) (by
      rintro ⟨ks, _, hlen, hks⟩
      cases ks with
      | nil => simp at hlen
      | cons k ks => exact hks k (by simp) rfl)
  refine ⟨tr2.flatMap evOf, ?_, ?_⟩
  · rw [← q1, List.flatMap_append, ← t3]; rfl
  · rintro rfl
    simp only [List.map_eq_nil_iff] at r1
    rw [r1]; rfl

/-! ## The sending side -/

theorem stepOk_bmc (hw : Hw E) {mtu H : Nat} (hmtu : mtu < 4294967284) (hH1 : 76 ≤ H) (hH2 : H ≤ bmcRoom mtu) :
    StepOk hw (cfgB (bmcRoom mtu) H) (BmcClosed mtu) (fun c => ∃ bus, c.busses = [bus] ∧ c.bridge = false ∧ AstJ .bmc mtu bus) where
  inv := by rintro c c' op e rc ⟨bus, hb, hbr, hj⟩ h; exact astStep_inv hb hbr hj h
  step := by
    rintro c c' op e rc os rs ⟨bus, hb, hbr, hj⟩ ⟨bus', hb', ho⟩ h1
    have hB := bmcRoom_le mtu
    have : bus' = bus := by rw [hb] at hb'; simpa using hb'.symm
    subst this
    unfold Core.astStep at h1
    split at h1
    · rename_i o hop
      exact app_rel (by simp only [cfgB]; omega) (by simp only [cfgB]; omega) (by simp only [cfgB]; omega) (AstOp.isApp hop) hb hj ho h1
    · exact poll_bmc hmtu hH1 hH2 (fun h => (nomatch h)) hb hbr hj ho h1

theorem stepOk_host (hw : Hw E) {mtu B H : Nat} (hH1 : 76 ≤ H) (hH2 : H ≤ B) (hB : B ≤ 524156) :
    StepOk hw (cfgH B H) HostClosed (fun c => AllOk c.mem ∧ ∃ bus, c.busses = [bus] ∧ c.bridge = false ∧ AstJ .host mtu bus) where
  inv := by
    rintro c c' op e rc ⟨hm, bus, hb, hbr, hj⟩ h
    refine ⟨?_, astStep_inv hb hbr hj h⟩
    have := astStep_memOk h
    intro n
    simp only at this
    rw [this]; exact hm n
  step := by
    rintro c c' op e rc os rs ⟨hmem, bus, hb, hbr, hj⟩ ⟨bus', hb', ho⟩ h1
    have : bus' = bus := by rw [hb] at hb'; simpa using hb'.symm
    subst this
    unfold Core.astStep at h1
    split at h1
    · rename_i o hop
      exact app_rel (by simp only [cfgH]; omega) (by simp only [cfgH]; omega) (by simp only [cfgH]; omega) (AstOp.isApp hop) hb hj ho h1
    · exact poll_host hH1 hH2 hB hmem hb hbr hj ho h1

theorem AstEndpoint.bmc_mtu {hw : Hw E} {env : E} {eid : Byte} {mx : Nat} {mtu : Nat} {mem : Mem}
    {c0 : Core (AstSt E)} (h : AstEndpoint hw env eid mx .bmc mtu mem c0) : mtu < 4294967284 := by
  obtain ⟨rc, s, hrc, hs, -⟩ := h.start
  have hs : initBmc hw { astZero env .bmc mtu with proto := some astVerCur } = .ok (rc, s) := hs
  exact (initBmc_ready (ls := true) (H := 0) h.mtu_lt (s := { astZero env .bmc mtu with proto := some astVerCur }) rfl rfl rfl rfl hs hrc).2.1

/-- What an endpoint has accepted is what its binding took and what is queued. -/
def Accounted (eid : Byte) (mtu : Nat) (log : List AstRec) (c : Core (AstSt E)) : Prop :=
  (∀ m ∈ acceptedBy mtu log, m.tag.toNat < 8) ∧
  (acceptedBy mtu log).flatMap (Msg.packets 1 eid) = taken (offers 0 (astEvents log)) ++ pending c ∧ TakesAll (astEvents log)

theorem taken_all {os : List Offer} (h : ∀ o ∈ os, o.rc = 0) : taken os = os.map Offer.pkt := by
  unfold taken
  rw [List.filter_eq_self.mpr]
  intro o ho
  simp [h o ho]

theorem AstEndpoint.accounted {hw : Hw E} {env : E} {eid : Byte} {mx : Nat} {mode : AstMode} {mtu : Nat} {mem : Mem}
    {c0 c : Core (AstSt E)} (h : AstEndpoint hw env eid mx mode mtu mem c0) {g : LinkCfg} {U : AstSt E → Prop} {I : Core (AstSt E) → Prop}
    (hok : StepOk hw g U I) (h76 : 76 ≤ g.sz) (h31 : g.sz < 2 ^ 31) (hI : I c0) (hf : Follows g U none [] [] c0)
    {hist : List AstOp} {log : List AstRec} (hr : c0.astRun hw hist = .ok (c, log)) :
    ∃ bus, c.busses = [bus] ∧ (Obeys g bus.binding.st (fun _ => False) ∨ Accounted eid (g.sz - 12) log c) := by
  obtain ⟨bus, hb, hbr, hj⟩ := h.inv
  obtain ⟨rc, s, hrc, hs, hb', -, hn, -⟩ := h.start
  obtain ⟨bus', hbe, hx⟩ := astRun_took hok h76 h31 hb hbr (by rw [hn]; decide) hj hI hf hr
  refine ⟨bus', hbe, hx.imp_right ?_⟩
  rintro ⟨-, t1, -, t2, t3⟩
  rw [hb] at hb'; simp only [List.cons.injEq, and_true] at hb'; subst hb'
  refine ⟨t2, ?_, t1⟩
  rw [taken_all t1, pending_one hbe]
  simpa using t3

variable {EB EH : Type}

/-- On a link, both endpoints account for what they have accepted. -/
theorem link_accounted {hwB : Hw EB} {envB : EB} {eidB : Byte} {mxB mtuB : Nat} {memB : Mem} {b0 cB : Core (AstSt EB)} {histB : List AstOp} {logB : List AstRec}
    {hwH : Hw EH} {envH : EH} {eidH : Byte} {mxH mtuH : Nat} {memH : Mem} {h0 cH : Core (AstSt EH)} {histH : List AstOp} {logH : List AstRec}
    {wr : Bool} {win : Nat → Byte} {T : List (AstMode × Access)} {h : Lpc}
    (hB : AstEndpoint hwB envB eidB mxB .bmc mtuB memB b0) (rB : b0.astRun hwB histB = .ok (cB, logB))
    (hH : AstEndpoint hwH envH eidH mxH .host mtuH memH h0) (rH : h0.astRun hwH histH = .ok (cH, logH)) (hmem : AllOk memH)
    (eB : ∀ bus, cB.busses = [bus] → bus.binding.st.accs = of .bmc T)
    (eH : ∀ bus, cH.busses = [bus] → bus.binding.st.accs = of .host T)
    (hrun : Lpc.run wr (Lpc.reset win) T = some h) :
    HostFits (bmcRoom mtuB) mtuH ∧ Accounted eidB mtuH logB cB ∧ Accounted eidH mtuH logH cH := by
  have hBr := bmcRoom_le mtuB
  obtain ⟨h76, fB⟩ := endpoint_bmc (ls := true) hB rB (fun h => (nomatch h))
  obtain ⟨r1, r2, busH, hbH, oH⟩ := endpoint_host hmem h76 hBr hH rH
  obtain ⟨busB, hbB, oB⟩ := fB _ r1 r2
  have f0B := (endpoint_bmc (ls := true) hB (hist := []) (log := []) (c := b0) rfl (fun h => (nomatch h))).2 _ r1 r2
  obtain ⟨-, -, busH0, hbH0, oH0⟩ := endpoint_host hmem h76 hBr hH (hist := []) (log := []) (c := h0) rfl
  have f0H : Follows (cfgH (bmcRoom mtuB) (hostRoom (bmcRoom mtuB) mtuH)) HostClosed none [] [] h0 := ⟨busH0, hbH0, oH0.mono fun f hf => hf.2⟩
  obtain ⟨b1, hb1, aB⟩ := hB.accounted (stepOk_bmc hwB hB.bmc_mtu r1 r2) (by simp only [cfgB]; omega) (by simp only [cfgB]; omega) hB.inv f0B rB
  obtain ⟨b2, hb2, aH⟩ := hH.accounted (stepOk_host hwH (mtu := mtuH) r1 r2 hBr) (by simp only [cfgH]; omega) (by simp only [cfgH]; omega)
    ⟨fun n => by rw [hH.memOk]; exact hmem n, hH.inv⟩ f0H rH
  rw [hbB] at hb1; simp only [List.cons.injEq, and_true] at hb1; subst hb1
  rw [hbH] at hb2; simp only [List.cons.injEq, and_true] at hb2; subst hb2
  have hrun' : Lpc.run wr (Lpc.reset win) (T ++ []) = some h := by rw [List.append_nil]; exact hrun
  have both : ∀ {P Q : Fine → Prop}, Obeys (cfgB (bmcRoom mtuB) (hostRoom (bmcRoom mtuB) mtuH)) busB.binding.st P →
      Obeys (cfgH (bmcRoom mtuB) (hostRoom (bmcRoom mtuB) mtuH)) busH.binding.st Q → (∃ f, P f) ∧ ∃ f, Q f := by
    intro P Q oB oH
    unfold Obeys at oB oH
    rw [eB _ hbB, ← List.append_nil T] at oB
    rw [eH _ hbH, ← List.append_nil T] at oH
    obtain ⟨h1, b1, t1, b', t', -, -, -, -, -, -, -, hP, hQ⟩ := link_prefix (by omega) r2 (joint_zero _ _ win) hrun' oB oH
    exact ⟨⟨_, hP⟩, ⟨_, hQ⟩⟩
  obtain ⟨-, f, hF, -⟩ := both oB oH
  have hR : hostRoom (bmcRoom mtuB) mtuH = mtuH + 12 := by
    have hF := hF
    unfold HostFits at hF
    unfold hostRoom; rw [if_pos hF]
  refine ⟨hF, ?_, ?_⟩
  · rcases aB with h | h
    · obtain ⟨⟨_, h⟩, -⟩ := both h oH; exact h.elim
    · simpa [cfgB, hR] using h
  · rcases aH with h | h
    · obtain ⟨-, _, h⟩ := both oB h; exact h.elim
    · simpa [cfgH, hR] using h

end Mctp
