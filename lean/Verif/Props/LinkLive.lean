import Verif.Proofs.LinkUp
import Verif.Props.LinkMsg

/-!
# Progress on the astlpc link (C93)

The same setting as for C54, C55 and C81, with all allocations successful on both sides.  Once the two applications
only poll, everything they have accepted is delivered after a number of rounds that depends only on the number of
packets.  A round is a stretch of the execution in which each side completes a poll; nothing else is assumed about
the schedule: a side may poll more often, and the accesses of the two polls may be interleaved in any way.
-/

namespace Mctp

open Spec

variable {E : Type}

/-- The execution has come to `T0`.  The stretch `R` that follows contains a whole poll of the side, one of the `n`
polls after the calls `hist`: in front of it the side has made the accesses of `hist` and `k` polls, behind it those
of `hist` and `k + 1` polls. -/
def WholePoll (hw : Hw E) (c0 : Core (AstSt E)) (hist : List AstOp) (n : Nat) (side : AstMode) (T0 R : List (AstMode × Access)) : Prop :=
  ∃ k c log c' log' before poll after, k < n ∧ R = before ++ poll ++ after ∧
    c0.astRun hw (hist ++ List.replicate k .poll) = .ok (c, log) ∧ of side (T0 ++ before) = accessesOf c ∧
    c0.astRun hw (hist ++ List.replicate (k + 1) .poll) = .ok (c', log') ∧ of side (T0 ++ before ++ poll) = accessesOf c'

/-- The packets of the messages an endpoint has accepted. -/
def acceptedPackets (eid : Byte) (mtu : Nat) (log : List AstRec) : List (List Byte) :=
  (acceptedBy mtu log).flatMap (Msg.packets 1 eid)

/-! ## Histories that end with polls -/

theorem astRun_append {hw : Hw E} : ∀ {h1 h2 : List AstOp} {c c' : Core (AstSt E)} {log : List AstRec},
    c.astRun hw (h1 ++ h2) = .ok (c', log) →
    ∃ c1 l1 l2, c.astRun hw h1 = .ok (c1, l1) ∧ c1.astRun hw h2 = .ok (c', l2) ∧ log = l1 ++ l2
  | [], _, c, _, log, h => ⟨c, [], log, rfl, h, rfl⟩
  | op :: h1, h2, c, c', log, h => by
    simp only [List.cons_append, Core.astRun] at h ⊢
    obtain ⟨⟨c1, e1, rc1⟩, hs, h⟩ := Res.bind_eq_ok.mp h
    obtain ⟨⟨c2, log2⟩, hr, h⟩ := Res.bind_eq_ok.mp h
    simp only [Except.ok.injEq, Prod.mk.injEq] at h
    obtain ⟨rfl, rfl⟩ := h
    obtain ⟨c3, l1, l2, a1, a2, rfl⟩ := astRun_append hr
    refine ⟨c3, ⟨op, e1, rc1⟩ :: l1, l2, ?_, a2, rfl⟩
    exact Res.bind_eq_ok.mpr ⟨_, hs, Res.bind_eq_ok.mpr ⟨_, a1, rfl⟩⟩

theorem acceptedBy_polls {hw : Hw E} {mtu : Nat} : ∀ {n : Nat} {c c' : Core (AstSt E)} {log : List AstRec},
    c.astRun hw (List.replicate n .poll) = .ok (c', log) → acceptedBy mtu log = []
  | 0, _, _, _, h => by simp only [List.replicate_zero, Core.astRun, Except.ok.injEq, Prod.mk.injEq] at h; rw [← h.2]; rfl
  | n + 1, c, c', log, h => by
    simp only [List.replicate_succ, Core.astRun] at h
    obtain ⟨⟨c1, e1, rc1⟩, hs, h⟩ := Res.bind_eq_ok.mp h
    obtain ⟨⟨c2, log2⟩, hr, h⟩ := Res.bind_eq_ok.mp h
    simp only [Except.ok.injEq, Prod.mk.injEq] at h
    obtain ⟨rfl, rfl⟩ := h
    rw [acceptedBy_cons, acceptedBy_polls hr]; rfl

theorem acceptedBy_append (mtu : Nat) (a b : List AstRec) : acceptedBy mtu (a ++ b) = acceptedBy mtu a ++ acceptedBy mtu b := by
  unfold acceptedBy; exact List.filterMap_append

/-- After fewer polls: the same messages have been accepted, and fewer packets taken. -/
theorem polls_le {hw : Hw E} {mtu k n : Nat} {hist : List AstOp} {c0 c c' : Core (AstSt E)} {log log' : List AstRec} (hk : k ≤ n)
    (h : c0.astRun hw (hist ++ List.replicate k .poll) = .ok (c, log)) (h' : c0.astRun hw (hist ++ List.replicate n .poll) = .ok (c', log')) :
    acceptedBy mtu log' = acceptedBy mtu log ∧ ∃ more, log' = log ++ more := by
  have e : hist ++ List.replicate n AstOp.poll = (hist ++ List.replicate k .poll) ++ List.replicate (n - k) .poll := by
    rw [List.append_assoc, List.replicate_append_replicate, Nat.add_sub_cancel' hk]
  rw [e] at h'
  obtain ⟨c1, l1, l2, a1, a2, rfl⟩ := astRun_append h'
  rw [h] at a1
  simp only [Except.ok.injEq, Prod.mk.injEq] at a1
  obtain ⟨rfl, rfl⟩ := a1
  exact ⟨by rw [acceptedBy_append, acceptedBy_polls a2, List.append_nil], _, rfl⟩

/-- One poll more. -/
theorem polls_step {hw : Hw E} {k : Nat} {hist : List AstOp} {c0 c c' : Core (AstSt E)} {log log' : List AstRec}
    (h : c0.astRun hw (hist ++ List.replicate k .poll) = .ok (c, log)) (h' : c0.astRun hw (hist ++ List.replicate (k + 1) .poll) = .ok (c', log')) :
    ∃ e rc, c.astPoll hw 0 = .ok (c', e, rc) := by
  have e : hist ++ List.replicate (k + 1) AstOp.poll = (hist ++ List.replicate k .poll) ++ [.poll] := by
    rw [List.append_assoc, List.replicate_succ']
  rw [e] at h'
  obtain ⟨c1, l1, l2, a1, a2, rfl⟩ := astRun_append h'
  rw [h] at a1
  simp only [Except.ok.injEq, Prod.mk.injEq] at a1
  obtain ⟨rfl, rfl⟩ := a1
  simp only [Core.astRun] at a2
  obtain ⟨⟨c2, e2, rc2⟩, hs, a2⟩ := Res.bind_eq_ok.mp a2
  obtain ⟨⟨c3, l3⟩, hr, a2⟩ := Res.bind_eq_ok.mp a2
  simp only [Except.ok.injEq, Prod.mk.injEq] at a2 hr
  obtain ⟨rfl, rfl⟩ := a2
  obtain ⟨rfl, -⟩ := hr
  exact ⟨_, _, hs⟩

/-! ## The end of the transfer -/

theorem of_append_mem {side : AstMode} {T : List (AstMode × Access)} (hn : ∀ x ∈ T, isCtl x.2 = false) : ∀ a ∈ of side T, isCtl a = false :=
  fun _ ha => hn _ (mem_of ha)

/-- What is left to say about one direction: the sender had nothing left at some moment between its polls. -/
theorem settle {ES ER : Type} {gS : LinkCfg} {US : AstSt ES → Prop} {mtuS m : Nat} {eidS : Byte} {log log' more : List AstRec} {c c' : Core (AstSt ES)}
    {gR : LinkCfg} {UR : AstSt ER → Prop} {mtuR m' : Nat} {eidR : Byte} {logR : List AstRec} {cR : Core (AstSt ER)}
    {s s' r r' : Fine} {sz o : Nat} {w : Nat → Byte} {r1 r2 : Option Byte}
    (h1 : AtRest gS US mtuS eidS m log c s) (h2 : AtRest gS US mtuS eidS m log' c' s') (h3 : AtRest gR UR mtuR eidR m' logR cR r')
    (hsz : gS.sz < 2 ^ 31) (hfree : s.w.tx = .free) (heq : s.sent = r.got) (hgr : r.got <+: r'.got) (hd : Dir sz o w r1 r2 s' r')
    (ha : acceptedBy m log' = acceptedBy m log) (hlog : log' = log ++ more) :
    (pending c' = [] ∧ sentBy log' = gotBy logR) ∧ s'.sent = s.sent := by
  have hp := h1.empty hfree
  obtain ⟨bus, hb, -, -, k1, ⟨-, a1, -⟩, -⟩ := h1
  obtain ⟨bus', hb', -, -, k2, ⟨-, a2, -⟩, -⟩ := h2
  obtain ⟨busR, hbR, -, -, k3, -, -⟩ := h3
  rw [ha, a1, hp, List.append_nil, hlog] at a2
  have happ : taken (offers 0 (astEvents (log ++ more))) = taken (offers 0 (astEvents log)) ++ taken (offers 0 (astEvents more)) := by
    rw [← taken_append, ← offers_append]
    simp [astEvents]
  rw [happ, List.append_assoc] at a2
  have hnil := List.self_eq_append_right.mp a2
  obtain ⟨hx, hy⟩ := List.append_eq_nil_iff.mp hnil
  rw [hx, List.append_nil, ← hlog] at happ
  have hs : s'.sent = s.sent := by rw [k2.sent, k1.sent, happ]
  refine ⟨⟨hy, ?_⟩, hs⟩
  have hg : r'.got = s'.sent := by
    have p1 := hd.got_le
    have p2 : s'.sent <+: r'.got := by rw [hs, heq]; exact hgr
    exact p1.eq_of_length_le p2.length_le
  show taken (offers 0 (astEvents log')) = packetsIn (astEvents logR)
  rw [k3.got, hg, k2.sent]
  exact (recvd_all fun p hp => ⟨(k2.fit p hp).1, by have := (k2.fit p hp).2; omega⟩).symm

section

variable {EB EH : Type} {hwB : Hw EB} {envB : EB} {eidB : Byte} {mxB mtuB : Nat} {memB : Mem} {b0 cB : Core (AstSt EB)} {histB : List AstOp} {nB : Nat} {logB : List AstRec}
    {hwH : Hw EH} {envH : EH} {eidH : Byte} {mxH mtuH : Nat} {memH : Mem} {h0 cH : Core (AstSt EH)} {histH : List AstOp} {nH : Nat} {logH : List AstRec}
    {wr : Bool} {win : Nat → Byte} {h : Lpc}

/-- Both sides at the end. -/
theorem Linked.rest {T : List (AstMode × Access)}
    (hB : AstEndpoint hwB envB eidB mxB .bmc mtuB memB b0) (rB : b0.astRun hwB histB = .ok (cB, logB))
    (hH : AstEndpoint hwH envH eidH mxH .host mtuH memH h0) (rH : h0.astRun hwH histH = .ok (cH, logH))
    (hmemB : AllOk memB) (hmemH : AllOk memH) (hl : Linked wr win T h cB cH) :
    HostFits (bmcRoom mtuB) mtuH ∧ ∃ b t P Q, Accepts (cfgB (bmcRoom mtuB) (mtuH + 12)) (Fine.zero (cfgB (bmcRoom mtuB) (mtuH + 12))) (of .bmc T) P ∧
      Accepts (cfgH (bmcRoom mtuB) (mtuH + 12)) (Fine.zero (cfgH (bmcRoom mtuB) (mtuH + 12))) (of .host T) Q ∧
      Fine.run (cfgB (bmcRoom mtuB) (mtuH + 12)) (Fine.zero (cfgB (bmcRoom mtuB) (mtuH + 12))) (of .bmc T) = some b ∧
      Fine.run (cfgH (bmcRoom mtuB) (mtuH + 12)) (Fine.zero (cfgH (bmcRoom mtuB) (mtuH + 12))) (of .host T) = some t ∧
      Joint (bmcRoom mtuB) (mtuH + 12) h b t ∧ AtRest (cfgB (bmcRoom mtuB) (mtuH + 12) false) (BmcClosed mtuB) mtuB eidB mtuH logB cB b ∧
      AtRest (cfgH (bmcRoom mtuB) (mtuH + 12)) HostClosed mtuH eidH mtuH logH cH t := by
  have hF := (hl.accounted hB rB hH rH hmemH).1
  have hF' := hF
  unfold HostFits at hF'
  have h76 := (endpoint_bmc (ls := true) hB rB (fun h => (nomatch h))).1
  have hBr := bmcRoom_le mtuB
  have hR : hostRoom (bmcRoom mtuB) mtuH = mtuH + 12 := by unfold hostRoom; rw [if_pos hF']
  obtain ⟨r1, r2, busH, hbH, oH⟩ := endpoint_host hmemH h76 hBr hH rH
  obtain ⟨busB, hbB, oB⟩ := (endpoint_bmc (ls := true) hB rB (fun _ => hmemB)).2 (mtuH + 12) (by omega) (by omega)
  rw [hR] at oH
  unfold Obeys at oB oH
  rw [← accessesOf_single hbB, ← hl.bmc] at oB
  rw [← accessesOf_single hbH, ← hl.host] at oH
  obtain ⟨b, t, e1, e2, e3, e4, -⟩ := mid_bmc hB hmemB rB (by omega) (by omega) hl.bmc hl.run oH
  obtain ⟨b', t', f1, f2, f3, f4, -⟩ := mid_host hH hmemH rH h76 hBr hF hl.host hl.run oB
  rw [e1] at f1; cases f1
  rw [e2] at f2; cases f2
  exact ⟨hF, b, t, _, _, oB, oH, e1, e2, e3, e4, f4⟩

/-- A round without use of the registers. -/
theorem quiet_round {T0 R T1 : List (AstMode × Access)}
    (hB : AstEndpoint hwB envB eidB mxB .bmc mtuB memB b0) (rB : b0.astRun hwB (histB ++ List.replicate nB .poll) = .ok (cB, logB))
    (hH : AstEndpoint hwH envH eidH mxH .host mtuH memH h0) (rH : h0.astRun hwH (histH ++ List.replicate nH .poll) = .ok (cH, logH))
    (hmemB : AllOk memB) (hmemH : AllOk memH) (hl : Linked wr win (T0 ++ (R ++ T1)) h cB cH)
    (pB : WholePoll hwB b0 histB nB .bmc T0 R) (pH : WholePoll hwH h0 histH nH .host T0 R) (hn : ∀ x ∈ R, isCtl x.2 = false) :
    ((pending cB = [] ∧ sentBy logB = gotBy logH) ∧ (pending cH = [] ∧ sentBy logH = gotBy logB)) ∧
    ∃ b t, AtRest (cfgB (bmcRoom mtuB) (mtuH + 12) false) (BmcClosed mtuB) mtuB eidB mtuH logB cB b ∧
      AtRest (cfgH (bmcRoom mtuB) (mtuH + 12)) HostClosed mtuH eidH mtuH logH cH t ∧ Joint (bmcRoom mtuB) (mtuH + 12) h b t ∧ Deaf t ∧
      b.opened = true ∧ t.opened = true ∧ (b.w.tx = .free ∨ b.w.tx = .half) ∧ (t.w.tx = .free ∨ t.w.tx = .half) := by
  obtain ⟨hF, b, t, P, Q, oB, oH, eb, et, J, restB, restH⟩ := hl.rest hB rB hH rH hmemB hmemH
  have hF' := hF
  unfold HostFits at hF'
  have h76 := (endpoint_bmc (ls := true) hB rB (fun h => (nomatch h))).1
  have hBr := bmcRoom_le mtuB
  obtain ⟨k, c1, l1, c1', l1', A, X, C, hk, hR1, q1, q2, q3, q4⟩ := pB
  obtain ⟨k', c2, l2, c2', l2', A', X', C', hk', hR2, q1', q2', q3', q4'⟩ := pH
  obtain ⟨e1, rc1, hp1⟩ := polls_step q1 q3
  obtain ⟨e2, rc2, hp2⟩ := polls_step q1' q3'
  -- the execution up to the two polls
  have hT1 : T0 ++ (R ++ T1) = (T0 ++ A) ++ (X ++ (C ++ T1)) := by rw [hR1]; simp [List.append_assoc]
  have hT2 : T0 ++ (R ++ T1) = (T0 ++ A') ++ (X' ++ (C' ++ T1)) := by rw [hR2]; simp [List.append_assoc]
  obtain ⟨g0, u0, v0⟩ := Lpc.run_append hl.run
  have hrun1 := hl.run
  rw [hT1] at hrun1
  obtain ⟨g1, u1, v1⟩ := Lpc.run_append hrun1
  have hrun2 := hl.run
  rw [hT2] at hrun2
  obtain ⟨g2, u2, v2⟩ := Lpc.run_append hrun2
  obtain ⟨g1', w1, -⟩ := Lpc.run_append v1
  obtain ⟨g2', w2, -⟩ := Lpc.run_append v2
  obtain ⟨g0', z1, z1'⟩ := Lpc.run_append u1
  rw [u0] at z1; cases z1
  obtain ⟨g0', z2, z2'⟩ := Lpc.run_append u2
  rw [u0] at z2; cases z2
  have mA : ∀ x ∈ A, isCtl x.2 = false := fun x hx => hn x (by rw [hR1]; simp [hx])
  have mX : ∀ x ∈ X, isCtl x.2 = false := fun x hx => hn x (by rw [hR1]; simp [hx])
  have mA' : ∀ x ∈ A', isCtl x.2 = false := fun x hx => hn x (by rw [hR2]; simp [hx])
  have mX' : ∀ x ∈ X', isCtl x.2 = false := fun x hx => hn x (by rw [hR2]; simp [hx])
  obtain ⟨o1, i1, -⟩ := run_still z1' mA
  obtain ⟨o2, i2, -⟩ := run_still z2' mA'
  obtain ⟨-, -, s1⟩ := run_still w1 mX
  obtain ⟨-, -, s2⟩ := run_still w2 mX'
  rw [o1, i1] at s1
  rw [o2, i2] at s2
  have oB1 := oB
  have oH1 := oH
  have oB2 := oB
  rw [hT1, of_append] at oH1
  rw [hT2, of_append] at oB2
  obtain ⟨b1, t1, x1, y1, J1, rest1, -⟩ := mid_bmc hB hmemB q1 (by omega) (by omega) q2 u1 oH1.split
  obtain ⟨b2, t2, x2, y2, J2, rest2, -⟩ := mid_host hH hmemH q1' h76 hBr hF q2' u2 oB2.split
  obtain ⟨iB, rB1⟩ := rest1.poll (l' := of .bmc X) rfl hp1 q2 (by rw [← of_append]; exact q4)
    (fun a ha => ⟨mX _ (mem_of ha), fun r v he => by subst he; exact s1 _ _ _ (mem_of ha)⟩)
  obtain ⟨iH, rH1⟩ := rest2.poll (l' := of .host X') rfl hp2 q2' (by rw [← of_append]; exact q4')
    (fun a ha => ⟨mX' _ (mem_of ha), fun r v he => by subst he; exact s2 _ _ _ (mem_of ha)⟩)
  have hi : g0.ibf = false := iB
  have ho : g0.obf = false := iH
  obtain ⟨b1r, b1t⟩ := rB1 ho
  obtain ⟨t2r, t2t⟩ := rH1 hi
  have n1 : outReg g1 = none ∧ inReg g1 = none := by simp [outReg, inReg, o1, i1, ho, hi]
  have n2 : outReg g2 = none ∧ inReg g2 = none := by simp [outReg, inReg, o2, i2, ho, hi]
  have fB : b1.todo = [] ∧ b1.fin = false ∧ b1.started = true := by
    obtain ⟨_, -, -, -, r, -⟩ := rest1; exact ⟨r.todo, by rw [r.fin]; rfl, r.started⟩
  have fH : t2.todo = [] ∧ t2.fin = false ∧ t2.started = true := by
    obtain ⟨_, -, -, -, r, -⟩ := rest2; exact ⟨r.todo, by rw [r.fin]; rfl, r.started⟩
  have opn := J2.opened (by rw [i2]; exact hi) (by rw [o2]; exact ho) fH.1 fH.2.1 fH.2.2
  have key : (b1.w.tx ≠ .handed ∧ t2.w.tx ≠ .handed) ∧ t2.opened = true := by
    rcases List.prefix_or_prefix_of_prefix (l₁ := A) (l₂ := A') (l₃ := R) ⟨X ++ C, by rw [hR1]; simp⟩ ⟨X' ++ C', by rw [hR2]; simp⟩ with ⟨D, hD⟩ | ⟨D, hD⟩
    · have mD : ∀ x ∈ D, isCtl x.2 = false := fun x hx => mA' x (by rw [← hD]; simp [hx])
      rw [← hD, ← List.append_assoc, of_append, Fine.run_append, x1] at x2
      simp only [Option.bind_some] at x2
      obtain ⟨d1, d2⟩ := run_quiet x2 (of_append_mem mD) fB.1 fB.2.1 b1r fB.2.2
      have D1 := J2.dirB
      have D2 := J2.dirH
      rw [n2.1, n2.2] at D1 D2
      have d3 := run_quiet_todo x2 (of_append_mem mD) fB.1 fB.2.1 b1r fB.2.2
      refine ⟨⟨fun hh => D1.idle t2r (d2 hh), D2.idle d1⟩, ?_⟩
      rcases opn.2 with h | ⟨pre, h⟩
      · exact h
      · rw [d3] at h; simp at h
    · have mD : ∀ x ∈ D, isCtl x.2 = false := fun x hx => mA x (by rw [← hD]; simp [hx])
      rw [← hD, ← List.append_assoc, of_append, Fine.run_append, y2] at y1
      simp only [Option.bind_some] at y1
      obtain ⟨d1, d2⟩ := run_quiet y1 (of_append_mem mD) fH.1 fH.2.1 t2r fH.2.2
      have D1 := J1.dirB
      have D2 := J1.dirH
      rw [n1.1, n1.2] at D1 D2
      refine ⟨⟨D1.idle d1, fun hh => D2.idle b1r (d2 hh)⟩, ?_⟩
      rcases opn.2 with h | ⟨pre, h⟩
      · exact h
      · rw [← hD, ← List.append_assoc, of_append, Fine.run_append, x2] at x1
        simp only [Option.bind_some] at x1
        exact absurd fB.1 (run_todo rfl x1 (of_append_mem mD) h)
  have hb1 : b1.w.tx = .free := b1t.resolve_right key.1.1
  have ht2 : t2.w.tx = .free := t2t.resolve_right key.1.2
  have eb' := eb
  have et' := et
  rw [hT1, of_append, Fine.run_append, x1] at eb'
  rw [hT2, of_append, Fine.run_append, y2] at et'
  have gr1 : t1.got <+: t.got := by
    rw [hT1, of_append, Fine.run_append, y1] at et
    exact (run_grows et).2
  have eb2 := eb
  rw [hT2, of_append, Fine.run_append, x2] at eb2
  have gr2 : b2.got <+: b.got := (run_grows eb2).2
  obtain ⟨a1, m1, lg1⟩ := polls_le (mtu := mtuH) (Nat.le_of_lt hk) q1 rB
  obtain ⟨a2, m2, lg2⟩ := polls_le (mtu := mtuH) (Nat.le_of_lt hk') q1' rH
  obtain ⟨s1, z1⟩ := settle rest1 restB restH (by simp only [cfgB]; omega) hb1 (J1.dirB.settled hb1) gr1 J.dirB a1 lg1
  obtain ⟨s2, z2⟩ := settle rest2 restH restB (by simp only [cfgH]; omega) ht2 (J2.dirH.settled ht2) gr2 J.dirH a2 lg2
  have len1 : (hdr0 (bmcRoom mtuB)).length = 32 := rfl
  have len2 : (layB (bmcRoom mtuB) (mtuH + 12)).length = 16 := rfl
  have len3 : ∀ n, (be16 n).length = 2 := fun _ => rfl
  have len4 : ∀ n, (be32 n).length = 4 := fun _ => rfl
  exact ⟨⟨s1, s2⟩, b, t, restB, restH, J, link_deaf (by omega) (by omega) (joint_zero _ _ win) ⟨fun _ _ => rfl, fun _ => rfl⟩ hl.run eb et,
    run_opened eb2 opn.1, run_opened et' key.2,
    run_keepsTx ⟨by simp [cfgB, Low, len1], by simp [cfgB, Low, len2, len3], by rw [fB.1]; exact fun _ hx => (nomatch hx)⟩ eb' (.inl hb1) z1,
    run_keepsTx ⟨by simp [cfgH, Low, len3, len4], by simp [cfgH, Low], by rw [fH.1]; exact fun _ hx => (nomatch hx)⟩ et' (.inl ht2) z2⟩

/-- If a register is used in every round, the registers are used at least once for each round. -/
theorem ctls_rounds : ∀ (Rs : List (List (AstMode × Access))), (∀ R ∈ Rs, ∃ x ∈ R, isCtl x.2 = true) →
    Rs.length ≤ ctls (Rs.flatten.map (·.2))
  | [], _ => Nat.zero_le _
  | R :: Rs, h => by
    have ih := ctls_rounds Rs fun R' hR' => h R' (List.mem_cons_of_mem _ hR')
    obtain ⟨x, hx, hc⟩ := h R (List.mem_cons_self ..)
    have : 1 ≤ ctls (R.map (·.2)) := by
      unfold ctls
      exact List.length_pos_of_mem (List.mem_filter.mpr ⟨List.mem_map_of_mem hx, hc⟩)
    rw [List.flatten_cons, List.map_append, ctls_append, List.length_cons]
    omega

/-- One of the rounds is such a round. -/
theorem comes_to_rest {T0 T1 : List (AstMode × Access)} {Rs : List (List (AstMode × Access))}
    (hB : AstEndpoint hwB envB eidB mxB .bmc mtuB memB b0) (rB : b0.astRun hwB (histB ++ List.replicate nB .poll) = .ok (cB, logB))
    (hH : AstEndpoint hwH envH eidH mxH .host mtuH memH h0) (rH : h0.astRun hwH (histH ++ List.replicate nH .poll) = .ok (cH, logH))
    (hmemB : ∀ n, memB.ok n = true) (hmemH : ∀ n, memH.ok n = true) (hl : Linked wr win (T0 ++ (Rs.flatten ++ T1)) h cB cH)
    (hrounds : ∀ i (hi : i < Rs.length), WholePoll hwB b0 histB nB .bmc (T0 ++ (Rs.take i).flatten) Rs[i] ∧
      WholePoll hwH h0 histH nH .host (T0 ++ (Rs.take i).flatten) Rs[i])
    (hmany : 4 * ((acceptedPackets eidB mtuH logB).length + (acceptedPackets eidH mtuH logH).length) + 15 ≤ Rs.length) :
    (pending cB = [] ∧ gotBy logH = acceptedPackets eidB mtuH logB ∧
    pending cH = [] ∧ gotBy logB = acceptedPackets eidH mtuH logH) ∧
    ∃ b t, AtRest (cfgB (bmcRoom mtuB) (mtuH + 12) false) (BmcClosed mtuB) mtuB eidB mtuH logB cB b ∧
      AtRest (cfgH (bmcRoom mtuB) (mtuH + 12)) HostClosed mtuH eidH mtuH logH cH t ∧ Joint (bmcRoom mtuB) (mtuH + 12) h b t ∧ Deaf t ∧
      b.opened = true ∧ t.opened = true ∧ (b.w.tx = .free ∨ b.w.tx = .half) ∧ (t.w.tx = .free ∨ t.w.tx = .half) := by
  obtain ⟨hF, b, t, P, Q, oB, oH, eb, et, J, restB, restH⟩ := hl.rest hB rB hH rH hmemB hmemH
  have hBr := bmcRoom_le mtuB
  obtain ⟨accB, accH⟩ := C81_nothing_dropped hB rB hH rH hmemH hl
  have hF' := hF
  unfold HostFits at hF'
  have hcnt := link_ctls (by omega) (by omega) hl.run eb et J
  have lenB : b.sent.length ≤ (acceptedPackets eidB mtuH logB).length := by
    obtain ⟨_, -, -, -, r, -⟩ := restB
    unfold acceptedPackets
    rw [r.sent, List.length_map, accB, List.length_append]
    exact Nat.le_add_right _ _
  have lenH : t.sent.length ≤ (acceptedPackets eidH mtuH logH).length := by
    obtain ⟨_, -, -, -, r, -⟩ := restH
    unfold acceptedPackets
    rw [r.sent, List.length_map, accH, List.length_append]
    exact Nat.le_add_right _ _
  have hq : ∃ R ∈ Rs, ∀ x ∈ R, isCtl x.2 = false := by
    rcases Classical.em (∃ R ∈ Rs, ∀ x ∈ R, isCtl x.2 = false) with hq | hq
    · exact hq
    · exfalso
      have := ctls_rounds Rs fun R hR => by
        rcases Classical.em (∃ x ∈ R, isCtl x.2 = true) with hx | hx
        · exact hx
        · exact absurd ⟨R, hR, fun x hm => by
            cases hc : isCtl x.2 with
            | false => rfl
            | true => exact absurd ⟨x, hm, hc⟩ hx⟩ hq
      rw [List.map_append, ctls_append, List.map_append, ctls_append] at hcnt
      omega
  obtain ⟨R, hR, hn⟩ := hq
  obtain ⟨i, hi, rfl⟩ := List.mem_iff_getElem.mp hR
  have hsplit : T0 ++ (Rs.flatten ++ T1) = (T0 ++ (Rs.take i).flatten) ++ (Rs[i] ++ ((Rs.drop (i + 1)).flatten ++ T1)) := by
    have hf : Rs.flatten = (Rs.take i).flatten ++ (Rs[i] ++ (Rs.drop (i + 1)).flatten) := by
      rw [← List.flatten_cons, ← List.drop_eq_getElem_cons hi, ← List.flatten_append, List.take_append_drop]
    rw [hf]
    simp only [List.append_assoc]
  rw [hsplit] at hl
  obtain ⟨⟨⟨a1, a2⟩, a3, a4⟩, rest⟩ := quiet_round hB rB hH rH hmemB hmemH hl (hrounds i hi).1 (hrounds i hi).2 hn
  rw [a1, List.append_nil] at accB
  rw [a3, List.append_nil] at accH
  exact ⟨⟨a1, by rw [← a2]; exact accB.symm, a3, by rw [← a4]; exact accH.symm⟩, rest⟩

/-- **C93** Once both applications only poll, `4 * p + 15` rounds are enough to deliver the `p` packets that have been
accepted: nothing is left in a queue, and each side has received exactly what the other has sent. -/
theorem C93_all_delivered {T0 T1 : List (AstMode × Access)} {Rs : List (List (AstMode × Access))}
    (hB : AstEndpoint hwB envB eidB mxB .bmc mtuB memB b0) (rB : b0.astRun hwB (histB ++ List.replicate nB .poll) = .ok (cB, logB))
    (hH : AstEndpoint hwH envH eidH mxH .host mtuH memH h0) (rH : h0.astRun hwH (histH ++ List.replicate nH .poll) = .ok (cH, logH))
    (hmemB : ∀ n, memB.ok n = true) (hmemH : ∀ n, memH.ok n = true) (hl : Linked wr win (T0 ++ (Rs.flatten ++ T1)) h cB cH)
    (hrounds : ∀ i (hi : i < Rs.length), WholePoll hwB b0 histB nB .bmc (T0 ++ (Rs.take i).flatten) Rs[i] ∧
      WholePoll hwH h0 histH nH .host (T0 ++ (Rs.take i).flatten) Rs[i])
    (hmany : 4 * ((acceptedPackets eidB mtuH logB).length + (acceptedPackets eidH mtuH logH).length) + 15 ≤ Rs.length) :
    pending cB = [] ∧ gotBy logH = acceptedPackets eidB mtuH logB ∧
    pending cH = [] ∧ gotBy logB = acceptedPackets eidH mtuH logH :=
  (comes_to_rest hB rB hH rH hmemB hmemH hl hrounds hmany).1

theorem acceptedBy_mtu {mtu : Nat} {log : List AstRec} {m : Msg} (hm : m ∈ acceptedBy mtu log) : m.mtu = mtu := by
  obtain ⟨r, -, hr⟩ := List.mem_filterMap.mp hm
  split at hr
  · split at hr
    · cases hr; rfl
    · cases hr
  · cases hr

/-- An application has seen the messages when its binding has received their packets. -/
theorem messages_of_packets {hw : Hw E} {env : E} {eid src : Byte} {mx mtu mtu' : Nat} {mode : AstMode} {mem : Mem} {c0 c : Core (AstSt E)}
    {hist : List AstOp} {log log' : List AstRec} (he : AstEndpoint hw env eid mx mode mtu mem c0) (hr : c0.astRun hw hist = .ok (c, log))
    (hmem : AllOk mem) (hk : KeepsRx hist) (hsrc : src ≠ 0) (hmx1 : 4096 ≤ mx) (hmx2 : mx < 2 ^ 64) (h0 : 0 < mtu')
    (htag : ∀ m ∈ acceptedBy mtu' log', m.tag.toNat < 8) (hms : ∀ m ∈ acceptedBy mtu' log', Local eid m.dest ∧ 2 * m.data.length ≤ mx)
    (hg : gotBy log = acceptedPackets src mtu' log') : deliveredTo log = expected src (acceptedBy mtu' log') := by
  obtain ⟨more, q1, q2⟩ := he.delivers hmem hk hr hmx1 hmx2 (ver := 1) (rest := []) hsrc
    (fun m hm => ⟨by rw [acceptedBy_mtu hm]; exact h0, htag m hm, (hms m hm).1, (hms m hm).2⟩) (by rw [List.append_nil]; exact hg.symm)
  rw [q2 rfl, List.append_nil] at q1
  exact q1.symm

/-- **C93** The messages: each application has seen exactly the messages the other side has accepted, in order, with
the sender's EID, the tag owner, the tag and the content. -/
theorem C93_all_messages {T0 T1 : List (AstMode × Access)} {Rs : List (List (AstMode × Access))}
    (hB : AstEndpoint hwB envB eidB mxB .bmc mtuB memB b0) (rB : b0.astRun hwB (histB ++ List.replicate nB .poll) = .ok (cB, logB))
    (hH : AstEndpoint hwH envH eidH mxH .host mtuH memH h0) (rH : h0.astRun hwH (histH ++ List.replicate nH .poll) = .ok (cH, logH))
    (hmemB : ∀ n, memB.ok n = true) (hmemH : ∀ n, memH.ok n = true) (hl : Linked wr win (T0 ++ (Rs.flatten ++ T1)) h cB cH)
    (hrounds : ∀ i (hi : i < Rs.length), WholePoll hwB b0 histB nB .bmc (T0 ++ (Rs.take i).flatten) Rs[i] ∧
      WholePoll hwH h0 histH nH .host (T0 ++ (Rs.take i).flatten) Rs[i])
    (hmany : 4 * ((acceptedPackets eidB mtuH logB).length + (acceptedPackets eidH mtuH logH).length) + 15 ≤ Rs.length)
    (kB : KeepsRx histB) (kH : KeepsRx histH) (sB : eidB ≠ 0) (sH : eidH ≠ 0)
    (xB : 4096 ≤ mxB ∧ mxB < 2 ^ 64) (xH : 4096 ≤ mxH ∧ mxH < 2 ^ 64)
    (msB : ∀ m ∈ acceptedBy mtuH logB, Local eidH m.dest ∧ 2 * m.data.length ≤ mxH)
    (msH : ∀ m ∈ acceptedBy mtuH logH, Local eidB m.dest ∧ 2 * m.data.length ≤ mxB) :
    deliveredTo logH = expected eidB (acceptedBy mtuH logB) ∧ deliveredTo logB = expected eidH (acceptedBy mtuH logH) := by
  obtain ⟨-, a2, -, a4⟩ := C93_all_delivered hB rB hH rH hmemB hmemH hl hrounds hmany
  obtain ⟨hF, ⟨t1, -⟩, ⟨t2, -⟩⟩ := hl.accounted hB rB hH rH hmemH
  unfold HostFits at hF
  have keeps : ∀ {hist : List AstOp} {n : Nat}, KeepsRx hist → KeepsRx (hist ++ List.replicate n .poll) := by
    intro hist n hk op ho
    rcases List.mem_append.mp ho with ho | ho
    · exact hk op ho
    · rw [List.eq_of_mem_replicate ho]; simp
  exact ⟨messages_of_packets hH rH hmemH (keeps kH) sB xH.1 xH.2 (by omega) t1 msB a2,
    messages_of_packets hB rB hmemB (keeps kB) sH xB.1 xB.2 (by omega) t2 msH a4⟩

end

namespace LinkDemo

open AstDemo

/-- The same endpoint with different histories. -/
theorem runs_ok {mode : AstMode} {mtu : Nat} {eid : Byte} {env : List Access} (hm : mtu < 2 ^ 32) (h : (run mode mtu eid env []).isSome = true) :
    ∃ c0, AstEndpoint replay env eid 65536 mode mtu {} c0 ∧ ∀ hist log accs done, run mode mtu eid env hist = some (log, accs, done) →
      ∃ c, c0.astRun replay hist = .ok (c, log) ∧ accessesOf c = accs := by
  unfold run at h
  split at h
  · rename_i c rc hreg
    split at h
    · cases h
    · rename_i hrc
      refine ⟨c, ⟨fun _ => 0xaa, _, rc, hm, rfl, hreg, by omega⟩, fun hist log accs done hr => ?_⟩
      unfold run at hr
      simp only [hreg] at hr
      rw [if_neg hrc] at hr
      split at hr
      · rename_i c' log' hrun
        simp only [Option.some.injEq, Prod.mk.injEq] at hr
        obtain ⟨rfl, rfl, rfl⟩ := hr
        exact ⟨c', hrun, rfl⟩
      · cases hr
  · cases h

/-- The handshake; the host sends 70 bytes, the first of two packets is in its buffer; the BMC sends two bytes. -/
def before3 : List (AstMode × Access) := T2.take 30

/-- Three rounds, their accesses interleaved, take the packets across, 24 more change nothing. -/
def rounds3 : List (List (AstMode × Access)) :=
  [[(.host, .kcsRead .status 0 0xc3), (.bmc, .kcsRead .status 0 0xc3), (.bmc, .kcsRead .data 0 1), (.host, .kcsRead .data 0 1),
    (.bmc, .lpcRead 332 (be32 68) 0), (.host, .lpcRead 256 (be32 6) 0), (.bmc, .lpcRead 336 (pktL1 ++ [0xf9, 0xf9, 0xf1, 0xd9]) 0),
    (.host, .lpcRead 260 (pktS ++ [0x17, 0x4e, 0x3e, 0xe2]) 0), (.host, .kcsRead .status 0 0xc0), (.host, .kcsWrite .data 2 0),
    (.bmc, .kcsRead .status 0 0xc2), (.bmc, .kcsWrite .data 2 0)],
   [(.bmc, .kcsRead .status 0 0xc3), (.bmc, .kcsRead .data 0 2), (.host, .kcsRead .status 0 0xc1), (.host, .kcsRead .data 0 2),
    (.host, .lpcWrite 332 (be32 10) 0), (.host, .lpcWrite 336 (pktL2 ++ [0xf8, 0x0a, 0xd7, 0xef]) 0), (.host, .kcsRead .status 0 0xc0),
    (.host, .kcsWrite .data 1 0)],
   [(.bmc, .kcsRead .status 0 0xc2), (.bmc, .kcsRead .data 0 1), (.bmc, .lpcRead 332 (be32 10) 0),
    (.bmc, .lpcRead 336 (pktL2 ++ [0xf8, 0x0a, 0xd7, 0xef]) 0), (.bmc, .kcsRead .status 0 0xc0), (.bmc, .kcsWrite .data 2 0),
    (.host, .kcsRead .status 0 0xc1), (.host, .kcsRead .data 0 2)]] ++
  List.replicate 24 [(.host, .kcsRead .status 0 0xc0), (.bmc, .kcsRead .status 0 0xc0)]

def T3 : List (AstMode × Access) := before3 ++ (rounds3.flatten ++ [])

def histB3 : List AstOp := [.poll, .send 9 false 3 [7, 9]]
def histH3 : List AstOp := [.poll, .send 8 true 1 long]

/-- The accesses made after the history and `k` polls. -/
def accs3 (mode : AstMode) (eid : Byte) (hist : List AstOp) (k : Nat) : Option (List Access) :=
  (run mode 64 eid (of mode T3) (hist ++ List.replicate k .poll)).map (·.2.1)

set_option synthInstance.maxSize 512 in
theorem accs_bmc : ∀ k < 28, accs3 .bmc 8 histB3 k = some (of .bmc (before3 ++ (rounds3.take k).flatten)) := by decide +kernel
set_option synthInstance.maxSize 512 in
theorem accs_host : ∀ k < 28, accs3 .host 9 histH3 k = some (of .host (before3 ++ (rounds3.take k).flatten)) := by decide +kernel
theorem run_lpc3 : ((Lpc.run false (Lpc.reset fun _ => 0) T3).isSome) = true := by decide +kernel

def packets3 (mode : AstMode) (eid : Byte) (hist : List AstOp) : Option (Nat × List Msg) :=
  (run mode 64 eid (of mode T3) (hist ++ List.replicate 27 .poll)).map fun x => ((acceptedPackets eid 64 x.1).length, acceptedBy 64 x.1)

set_option synthInstance.maxSize 512 in
theorem packets_bmc : packets3 .bmc 8 histB3 = some (1, [⟨9, false, 3, 64, [7, 9]⟩]) := by decide +kernel
set_option synthInstance.maxSize 512 in
theorem packets_host : packets3 .host 9 histH3 = some (2, [⟨8, true, 1, 64, long⟩]) := by decide +kernel

/-- Every round contains a whole poll. -/
theorem whole3 {mode : AstMode} {eid : Byte} {hist : List AstOp} {c0 : Core (AstSt (List Access))}
    (hc : ∀ h log accs done, run mode 64 eid (of mode T3) h = some (log, accs, done) → ∃ c, c0.astRun replay h = .ok (c, log) ∧ accessesOf c = accs)
    (ha : ∀ k < 28, accs3 mode eid hist k = some (of mode (before3 ++ (rounds3.take k).flatten))) (i : Nat) (hi : i < rounds3.length) :
    WholePoll replay c0 hist 27 mode (before3 ++ (rounds3.take i).flatten) rounds3[i] := by
  have hlen : rounds3.length = 27 := rfl
  have get : ∀ k < 28, ∃ c log, c0.astRun replay (hist ++ List.replicate k .poll) = .ok (c, log) ∧ accessesOf c = of mode (before3 ++ (rounds3.take k).flatten) := by
    intro k hk
    have := ha k hk
    unfold accs3 at this
    obtain ⟨⟨log, accs, done⟩, h1, h2⟩ := Option.map_eq_some_iff.mp this
    simp only at h2
    subst h2
    obtain ⟨c, h3, h4⟩ := hc _ _ _ _ h1
    exact ⟨c, log, h3, h4⟩
  obtain ⟨c, log, h1, h2⟩ := get i (by omega)
  obtain ⟨c', log', h3, h4⟩ := get (i + 1) (by omega)
  refine ⟨i, c, log, c', log', [], rounds3[i], [], by omega, by simp, h1, by rw [List.append_nil, h2], h3, ?_⟩
  rw [List.append_nil, h4, List.append_assoc]
  congr 2
  rw [List.take_succ_eq_append_getElem hi, List.flatten_append]
  simp

/-- The hypotheses of C93 are met by this execution: three packets, 27 rounds. -/
theorem linked3 : ∃ b0 cB h0 cH h logB logH,
    AstEndpoint replay (of .bmc T3) 8 65536 .bmc 64 {} b0 ∧ b0.astRun replay (histB3 ++ List.replicate 27 .poll) = .ok (cB, logB) ∧
    AstEndpoint replay (of .host T3) 9 65536 .host 64 {} h0 ∧ h0.astRun replay (histH3 ++ List.replicate 27 .poll) = .ok (cH, logH) ∧
    (∀ n, ({} : Mem).ok n = true) ∧ Linked false (fun _ => 0) (before3 ++ (rounds3.flatten ++ [])) h cB cH ∧
    (∀ i (hi : i < rounds3.length), WholePoll replay b0 histB3 27 .bmc (before3 ++ (rounds3.take i).flatten) rounds3[i] ∧
      WholePoll replay h0 histH3 27 .host (before3 ++ (rounds3.take i).flatten) rounds3[i]) ∧
    4 * ((acceptedPackets 8 64 logB).length + (acceptedPackets 9 64 logH).length) + 15 ≤ rounds3.length ∧
    acceptedBy 64 logB = [⟨9, false, 3, 64, [7, 9]⟩] ∧ acceptedBy 64 logH = [⟨8, true, 1, 64, long⟩] ∧ KeepsRx histB3 ∧ KeepsRx histH3 := by
  obtain ⟨b0, eB, cB⟩ := runs_ok (mode := .bmc) (mtu := 64) (eid := 8) (env := of .bmc T3) (by decide) (by decide +kernel)
  obtain ⟨h0, eH, cH⟩ := runs_ok (mode := .host) (mtu := 64) (eid := 9) (env := of .host T3) (by decide) (by decide +kernel)
  obtain ⟨⟨logB, aB, dB⟩, p1, p2⟩ := Option.map_eq_some_iff.mp packets_bmc
  obtain ⟨⟨logH, aH, dH⟩, q1, q2⟩ := Option.map_eq_some_iff.mp packets_host
  simp only [Prod.mk.injEq] at p2 q2
  have hB := accs_bmc 27 (by decide)
  have hH := accs_host 27 (by decide)
  unfold accs3 at hB hH
  rw [p1] at hB
  rw [q1] at hH
  simp only [Option.map_some, Option.some.injEq] at hB hH
  obtain ⟨x, x1, x2⟩ := cB _ _ _ _ p1
  obtain ⟨y, y1, y2⟩ := cH _ _ _ _ q1
  obtain ⟨h, hh⟩ := Option.isSome_iff_exists.mp run_lpc3
  have all : before3 ++ (rounds3.flatten ++ []) = before3 ++ (rounds3.take 27).flatten := by rw [List.append_nil]; rfl
  have hk : ∀ hist : List AstOp, (∀ op ∈ hist, (match op with | .setMax _ => false | .setRx _ => false | _ => true) = true) → KeepsRx hist := by
    intro hist h op ho
    have := h op ho
    cases op <;> simp at this ⊢
  refine ⟨b0, x, h0, y, h, logB, logH, eB, x1, eH, y1, fun _ => rfl, ⟨?_, ?_, hh⟩, fun i hi => ⟨whole3 cB accs_bmc i hi, whole3 cH accs_host i hi⟩,
    ?_, p2.2, q2.2, hk _ (by decide), hk _ (by decide)⟩
  · rw [all, x2, hB]
  · rw [all, y2, hH]
  · rw [p2.1, q2.1]; decide

end LinkDemo

end Mctp
