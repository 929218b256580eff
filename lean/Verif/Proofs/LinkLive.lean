import Verif.Proofs.AstDrain
import Verif.Proofs.LinkCount
import Verif.Proofs.AstMsg
import Verif.Props.FileIo
import Verif.Props.Link

/-! A round of polls in which the registers are not used ends the transfer. -/

namespace Mctp

open Spec

variable {E : Type}

/-! ## The hardware during such a round -/

theorem access_still {wr : Bool} {h h' : Lpc} {side : AstMode} {a : Access} (hr : h.access wr side a = some h') (hn : isCtl a = false) :
    h'.obf = h.obf ∧ h'.ibf = h.ibf ∧ ∀ r v, a = .kcsRead .status r v → r = 0 ∧ v.getLsbD 0 = h.obf ∧ v.getLsbD 1 = h.ibf := by
  cases a with
  | kcsRead reg rc v =>
    cases reg with
    | data => cases hn
    | status =>
      simp only [Lpc.access] at hr
      split at hr
      · rename_i hc
        cases hr
        obtain ⟨h1, h2, -⟩ := shown_bits h
        refine ⟨rfl, rfl, fun r w he => ?_⟩
        cases he
        rw [hc.2]
        exact ⟨hc.1, h1, h2⟩
      · cases hr
  | kcsWrite reg v rc => cases hn
  | lpcRead off bs rc =>
    simp only [Lpc.access] at hr
    split at hr
    · cases hr; exact ⟨rfl, rfl, fun _ _ he => (nomatch he)⟩
    · cases hr
  | lpcWrite off bs rc =>
    simp only [Lpc.access] at hr
    split at hr
    · cases hr; exact ⟨rfl, rfl, fun _ _ he => (nomatch he)⟩
    · cases hr

theorem run_still {wr : Bool} : ∀ {T : List (AstMode × Access)} {h h' : Lpc}, Lpc.run wr h T = some h' →
    (∀ x ∈ T, isCtl x.2 = false) → h'.obf = h.obf ∧ h'.ibf = h.ibf ∧
      ∀ side r v, (side, Access.kcsRead .status r v) ∈ T → r = 0 ∧ v.getLsbD 0 = h.obf ∧ v.getLsbD 1 = h.ibf
  | [], h, h', hr, _ => by cases hr; exact ⟨rfl, rfl, fun _ _ _ hm => (nomatch hm)⟩
  | (s, a) :: T, h, h', hr, hn => by
    simp only [Lpc.run] at hr
    split at hr
    · rename_i h1 ha
      obtain ⟨a1, a2, a3⟩ := access_still ha (hn (s, a) (List.mem_cons_self ..))
      obtain ⟨b1, b2, b3⟩ := run_still hr (fun x hx => hn x (List.mem_cons_of_mem _ hx))
      refine ⟨b1.trans a1, b2.trans a2, fun side r v hm => ?_⟩
      rcases List.mem_cons.mp hm with he | hm
      · cases he; exact a3 _ _ rfl
      · have := b3 _ _ _ hm
        rw [a1, a2] at this
        exact this
    · cases hr

/-! ## A side during such a round -/

/-- The flag of the register a side reads. -/
def inBit (m : AstMode) (o i : Bool) : Bool := match m with | .bmc => i | .host => o
/-- The flag of the register a side writes. -/
def outBit (m : AstMode) (o i : Bool) : Bool := match m with | .bmc => o | .host => i

theorem ready_in (m : AstMode) (v : Byte) : kcsReady m v false = inBit m (v.getLsbD 0) (v.getLsbD 1) := by
  cases m
  · exact (ready_read v).1
  · exact (ready_read v).2

theorem ready_out (m : AstMode) (v : Byte) : kcsReady m v true = !outBit m (v.getLsbD 0) (v.getLsbD 1) := by
  cases m
  · exact (ready_write v).1
  · exact (ready_write v).2

/-- Only reads of the status, all with the same flags. -/
def Seen (o i : Bool) (l : List Access) : Prop :=
  ∀ a ∈ l, isCtl a = false ∧ ∀ r v, a = .kcsRead .status r v → r = 0 ∧ v.getLsbD 0 = o ∧ v.getLsbD 1 = i

theorem Sends.seen {m : AstMode} {cmd : Byte} {rc : Int} {l : List Access} {o i : Bool} (h : Sends m cmd rc l) (hs : Seen o i l) :
    outBit m o i = true := by
  cases h with
  | @unread r v hr => exact absurd ((hs _ (List.mem_cons_self ..)).2 _ _ rfl).1 hr
  | @busy v hr =>
    obtain ⟨-, h1, h2⟩ := (hs _ (List.mem_cons_self ..)).2 _ _ rfl
    rw [ready_out, h1, h2] at hr
    simpa using hr
  | @sent v hr => exact absurd (hs (.kcsWrite .data cmd 0) (by simp)).1 (by simp [isCtl])
  | @unsent v r hr => exact absurd (hs (.kcsWrite .data cmd r) (by simp)).1 (by simp [isCtl])

/-- A poll that did not use the registers: there was nothing to read, and if there was room, nothing to hand over. -/
theorem quiet_poll {hw : Hw E} {mode : AstMode} {mtu : Nat} {c c' : Core (AstSt E)} {bus bus' : Bus (AstSt E)} {e : List Event} {rc : Int}
    {l : List Access} {o i : Bool}
    (hb : c.busses = [bus]) (hbr : c.bridge = false) (hj : AstJ mode mtu bus) (hp : c.astPoll hw 0 = .ok (c', e, rc)) (hb' : c'.busses = [bus'])
    (ha : bus'.binding.st.accs = bus.binding.st.accs ++ l) (hs : Seen o i l) :
    inBit mode o i = false ∧ (outBit mode o i = false → bus.binding.st.rx.state ≠ .prepared ∧ bus.binding.st.tx.state ≠ .prepared) := by
  obtain ⟨l1, l2, hadd, hrx, htx, -⟩ := astRetry_adds hw bus.binding.st
  have hmode : bus.binding.st.mode = mode := hj.1.mode
  have hsub : ∀ {m : List Access}, Adds (astRetry hw bus.binding.st) bus'.binding.st m → l = (l1 ++ l2) ++ m := by
    intro m hm
    have hm : bus'.binding.st.accs = (astRetry hw bus.binding.st).accs ++ m := hm
    have hadd : (astRetry hw bus.binding.st).accs = bus.binding.st.accs ++ (l1 ++ l2) := hadd
    rw [ha, hadd, List.append_assoc] at hm
    exact List.append_cancel_left hm
  have room : (l1 ++ l2) <+: l → outBit mode o i = false → bus.binding.st.rx.state ≠ .prepared ∧ bus.binding.st.tx.state ≠ .prepared := by
    intro hpre ho
    have s1 : Seen o i l1 := fun a hm => hs a (hpre.subset (List.mem_append_left _ hm))
    have s2 : Seen o i l2 := fun a hm => hs a (hpre.subset (List.mem_append_right _ hm))
    constructor
    · rcases hrx with ⟨-, rc, h, -⟩ | ⟨h, -⟩
      · rw [hmode] at h; rw [h.seen s1] at ho; cases ho
      · exact h
    · rcases htx with ⟨-, rc, h, -⟩ | ⟨h, -⟩
      · rw [hmode] at h; rw [h.seen s2] at ho; cases ho
      · exact h
  obtain ⟨r, v, hx⟩ := poll_reads hb hbr hj hp hb'
  rcases hx with ⟨s, hm, -, hc, -⟩ | ⟨-, hrd, r', d, rest, hm⟩
  · have hl := hsub hm
    refine ⟨?_, room ⟨_, hl.symm⟩⟩
    obtain ⟨h0, h1, h2⟩ := (hs (.kcsRead .status r v) (by rw [hl]; simp)).2 _ _ rfl
    rcases hc with hc | hc
    · exact absurd h0 hc
    · rw [ready_in, h1, h2, hmode] at hc; exact hc
  · have hl := hsub hm
    exact absurd (hs (.kcsRead .data r' d) (by rw [hl]; simp)).1 (by simp [isCtl])

/-! ## The monitor during such a round -/

theorem step_quiet {g : LinkCfg} {f f' : Fine} {a : Access} (h : f.step g a = some f') (hn : isCtl a = false) (h1 : f.todo = []) (h2 : f.fin = false)
    (h3 : f.rxp = .away) (h4 : f.started = true) : f'.todo = [] ∧ f'.fin = false ∧ f'.rxp = .away ∧ f'.started = true ∧ (f.w.tx = .handed → f'.w.tx = .handed) := by
  unfold Fine.step at h
  split at h
  · cases h
  · rename_i w hw
    rw [h1] at h
    simp only at h
    cases a with
    | kcsRead reg rc v =>
      cases reg with
      | data => cases hn
      | status =>
        simp only [Fine.free, h4, if_true] at h
        rw [if_neg (by rw [h2]; rintro ⟨h, -⟩; cases h)] at h
        simp only [Watch.step, Option.some.injEq] at hw h
        subst h
        exact ⟨h1, h2, h3, rfl, by rw [← hw]; exact id⟩
    | kcsWrite reg v rc => cases hn
    | lpcRead off bs rc =>
      simp only [Fine.free, h2, h3] at h
      split at h
      · rw [if_neg (by rintro ⟨h, -⟩; cases h)] at h; cases h
      · cases h
    | lpcWrite off bs rc =>
      simp only [Fine.free] at h
      split at h
      · split at h
        · rename_i hc
          cases h
          exact ⟨h1, h2, h3, h4, fun hh => by rw [hc.2.2] at hh; cases hh⟩
        · split at h
          · rename_i hc
            cases h
            exact ⟨h1, h2, h3, h4, fun hh => by rw [hc.2.1] at hh; cases hh⟩
          · cases h
      · cases h

theorem run_quiet {g : LinkCfg} : ∀ {l : List Access} {f f' : Fine}, Fine.run g f l = some f' → (∀ a ∈ l, isCtl a = false) → f.todo = [] → f.fin = false →
    f.rxp = .away → f.started = true → f'.rxp = .away ∧ (f.w.tx = .handed → f'.w.tx = .handed)
  | [], f, f', h, _, _, _, h3, _ => by cases h; exact ⟨h3, id⟩
  | a :: l, f, f', h, hn, h1, h2, h3, h4 => by
    simp only [Fine.run] at h
    split at h
    · rename_i f1 hs
      obtain ⟨a1, a2, a3, a4, a5⟩ := step_quiet hs (hn a (List.mem_cons_self ..)) h1 h2 h3 h4
      obtain ⟨b1, b2⟩ := run_quiet h (fun x hx => hn x (List.mem_cons_of_mem _ hx)) a1 a2 a3 a4
      exact ⟨b1, fun hh => b2 (a5 hh)⟩
    · cases h

theorem step_grows {g : LinkCfg} {f f' : Fine} {a : Access} (h : f.step g a = some f') : f.sent <+: f'.sent ∧ f.got <+: f'.got := by
  unfold Fine.step at h
  split at h
  · cases h
  · split at h
    · split at h
      · cases h; exact ⟨List.prefix_refl _, List.prefix_refl _⟩
      · cases h
    · unfold Fine.free at h
      split at h <;> (repeat' split at h) <;>
        (first | (cases h; done) | (cases h; first | exact ⟨List.prefix_refl _, List.prefix_refl _⟩ | exact ⟨List.prefix_append _ _, List.prefix_refl _⟩ | exact ⟨List.prefix_refl _, List.prefix_append _ _⟩))

theorem run_grows {g : LinkCfg} : ∀ {l : List Access} {f f' : Fine}, Fine.run g f l = some f' → f.sent <+: f'.sent ∧ f.got <+: f'.got
  | [], f, f', h => by cases h; exact ⟨List.prefix_refl _, List.prefix_refl _⟩
  | a :: l, f, f', h => by
    simp only [Fine.run] at h
    split at h
    · rename_i f1 hs
      obtain ⟨a1, a2⟩ := step_grows hs
      obtain ⟨b1, b2⟩ := run_grows h
      exact ⟨a1.trans b1, a2.trans b2⟩
    · cases h

theorem Dir.idle {sz o : Nat} {win : Nat → Byte} {s r : Fine} (h : Dir sz o win none none s r) (hr : r.rxp = .away) : s.w.tx ≠ .handed := by
  cases h with
  | free p1 => rw [p1]; simp
  | half p1 => rw [p1]; simp
  | full p1 => rw [p1]; simp
  | begin p1 p2 => cases p2
  | begun p1 p2 p3 => rw [hr] at p3; cases p3
  | len p1 p2 p3 => rw [hr] at p3; cases p3
  | done p1 p2 p3 => rw [hr] at p3; cases p3
  | complete p1 p2 p3 p4 => cases p4

theorem Dir.settled {sz o : Nat} {win : Nat → Byte} {r1 r2 : Option Byte} {s r : Fine} (h : Dir sz o win r1 r2 s r) (hs : s.w.tx = .free) : s.sent = r.got := by
  cases h with
  | free p1 p2 p3 p4 p5 => exact p5
  | _ p1 => rw [hs] at p1; cases p1

theorem Dir.got_le {sz o : Nat} {win : Nat → Byte} {r1 r2 : Option Byte} {s r : Fine} (h : Dir sz o win r1 r2 s r) : r.got <+: s.sent := by
  cases h with
  | free p1 p2 p3 p4 p5 => rw [p5]
  | half p1 p2 p3 p4 p5 => rw [p5]
  | full p1 p2 p3 p4 p5 => rw [p5]; exact List.prefix_append _ _
  | begin p1 p2 p3 p4 p5 => rw [p5]; exact List.prefix_append _ _
  | begun p1 p2 p3 p4 p5 => rw [p5]; exact List.prefix_append _ _
  | len p1 p2 p3 p4 p5 => rw [p5]; exact List.prefix_append _ _
  | done p1 p2 p3 p4 p5 => rw [p5]
  | complete p1 p2 p3 p4 p5 => rw [p5]

/-! ## A side between its calls -/

/-- With nothing to hand over, nothing is being received, and the transmit buffer is free or given away. -/
theorem Rel.idle {g : LinkCfg} {U : AstSt E → Prop} {k : Byte} {os : List Offer} {rs : List (List Byte)} {bus : Bus (AstSt E)} {f : Fine}
    (h : Rel g U none k os rs bus f) (hl : g.lossy = false) (h1 : bus.binding.st.rx.state ≠ .prepared) (h2 : bus.binding.st.tx.state ≠ .prepared) :
    f.rxp = .away ∧ (f.w.tx = .free ∨ f.w.tx = .handed) := by
  cases ho : f.opened with
  | false =>
    obtain ⟨-, -, a, b⟩ := h.shut (.inl ho)
    exact ⟨a, .inl b⟩
  | true =>
    constructor
    · rcases h.rx ho with ⟨-, ha | ⟨hb, -⟩⟩ | ⟨ha, -⟩
      · exact ha
      · rw [hl] at hb; cases hb
      · exact absurd ha h1
    · rcases h.tx ho with ⟨-, ha⟩ | ⟨ha, -⟩ | ⟨-, ha⟩
      · exact .inl ha
      · exact absurd ha h2
      · exact .inr ha

/-- With the buffer free nothing is queued. -/
theorem Rel.drained {g : LinkCfg} {U : AstSt E → Prop} {k : Byte} {os : List Offer} {rs : List (List Byte)} {c : Core (AstSt E)} {bus : Bus (AstSt E)} {f : Fine}
    (h : Rel g U none k os rs bus f) (hb : c.busses = [bus]) (hf : Flushed c) (h1 : f.w.tx = .free) : bus.queue = [] := by
  obtain ⟨bus', hb', hq⟩ := hf
  rw [hb] at hb'; simp only [List.cons.injEq, and_true] at hb'; subst hb'
  cases ho : f.opened with
  | false => exact (h.shut (.inl ho)).2.1
  | true =>
    cases hs : f.stale with
    | true => exact (h.shut (.inr hs)).2.1
    | false =>
      rcases h.tx ho with ⟨ha, -⟩ | ⟨-, ha⟩ | ⟨-, ha⟩
      · apply hq; rw [h.can ho hs ha]; simp
      · rw [h1] at ha; cases ha
      · rw [h1] at ha; cases ha

/-- A side between its calls, with its monitor. -/
def AtRest (g : LinkCfg) (U : AstSt E → Prop) (mtu : Nat) (eid : Byte) (m : Nat) (log : List AstRec) (c : Core (AstSt E)) (f : Fine) : Prop :=
  ∃ bus, c.busses = [bus] ∧ c.bridge = false ∧ AstJ g.mode mtu bus ∧
    Rel g U none bus.binding.st.kcsStatus (offers 0 (astEvents log)) (packetsIn (astEvents log)) bus f ∧
    Accounted eid m log c ∧ Flushed c

section

variable {EB EH : Type} {hwB : Hw EB} {envB : EB} {eidB : Byte} {mxB mtuB : Nat} {memB : Mem} {b0 cB : Core (AstSt EB)} {histB : List AstOp} {logB : List AstRec}
    {hwH : Hw EH} {envH : EH} {eidH : Byte} {mxH mtuH : Nat} {memH : Mem} {h0 cH : Core (AstSt EH)} {histH : List AstOp} {logH : List AstRec}
    {wr : Bool} {win : Nat → Byte} {A : List (AstMode × Access)} {h : Lpc}

/-- The BMC between two of its calls, the host anywhere. -/
theorem mid_bmc (hB : AstEndpoint hwB envB eidB mxB .bmc mtuB memB b0) (hmem : AllOk memB) (rB : b0.astRun hwB histB = .ok (cB, logB))
    {H : Nat} (hH1 : 76 ≤ H) (hH2 : H ≤ bmcRoom mtuB) (hacc : of .bmc A = accessesOf cB)
    (hrun : Lpc.run wr (Lpc.reset win) A = some h) {Q : Fine → Prop}
    (hQ : Accepts (cfgH (bmcRoom mtuB) H) (Fine.zero (cfgH (bmcRoom mtuB) H)) (of .host A) Q) :
    ∃ b t, Fine.run (cfgB (bmcRoom mtuB) H) (Fine.zero (cfgB (bmcRoom mtuB) H)) (of .bmc A) = some b ∧
      Fine.run (cfgH (bmcRoom mtuB) H) (Fine.zero (cfgH (bmcRoom mtuB) H)) (of .host A) = some t ∧
      Joint (bmcRoom mtuB) H h b t ∧ AtRest (cfgB (bmcRoom mtuB) H false) (BmcClosed mtuB) mtuB eidB (H - 12) logB cB b ∧ Q t := by
  have hBr := bmcRoom_le mtuB
  obtain ⟨busB, hbB, oB⟩ := (endpoint_bmc (ls := false) hB rB (fun _ => hmem)).2 H hH1 hH2
  have f0B := (endpoint_bmc (ls := true) hB (hist := []) (log := []) (c := b0) rfl (fun _ => hmem)).2 H hH1 hH2
  obtain ⟨b1, hb1, aB⟩ := hB.accounted (stepOk_bmc hwB hB.bmc_mtu hH1 hH2) (by simp only [cfgB]; omega) (by simp only [cfgB]; omega)
    hB.inv f0B rB
  obtain ⟨b2, hb2, hbr, hj⟩ := hB.reached rB
  rw [hbB] at hb1 hb2; simp only [List.cons.injEq, and_true] at hb1 hb2; subst hb1; subst hb2
  have go : ∀ {P : Fine → Prop}, Obeys (cfgB (bmcRoom mtuB) H) busB.binding.st P → ∃ b t, Fine.run (cfgB (bmcRoom mtuB) H) (Fine.zero (cfgB (bmcRoom mtuB) H)) (of .bmc A) = some b ∧
      Fine.run (cfgH (bmcRoom mtuB) H) (Fine.zero (cfgH (bmcRoom mtuB) H)) (of .host A) = some t ∧ Joint (bmcRoom mtuB) H h b t ∧ P b ∧ Q t := by
    intro P o
    unfold Obeys at o
    rw [← accessesOf_single hbB, ← hacc] at o
    exact link_run (by omega) hH2 (joint_zero _ _ win) hrun o hQ
  unfold Obeys at oB
  rw [accepts_lossy] at oB
  obtain ⟨b, t, e1, e2, e3, e4, e5⟩ := go oB
  refine ⟨b, t, e1, e2, e3, ⟨busB, hbB, hbr, hj, e4, ?_, hB.flushed rB e4.all⟩, e5⟩
  rcases aB with hx | hx
  · obtain ⟨_, _, -, -, -, hx, -⟩ := go hx; exact hx.elim
  · exact hx

/-- The host between two of its calls, the BMC anywhere. -/
theorem mid_host (hH : AstEndpoint hwH envH eidH mxH .host mtuH memH h0) (hmem : AllOk memH) (rH : h0.astRun hwH histH = .ok (cH, logH))
    {B : Nat} (hB1 : 76 ≤ B) (hB2 : B ≤ 524156) (hF : HostFits B mtuH) (hacc : of .host A = accessesOf cH)
    (hrun : Lpc.run wr (Lpc.reset win) A = some h) {P : Fine → Prop}
    (hP : Accepts (cfgB B (mtuH + 12)) (Fine.zero (cfgB B (mtuH + 12))) (of .bmc A) P) :
    ∃ b t, Fine.run (cfgB B (mtuH + 12)) (Fine.zero (cfgB B (mtuH + 12))) (of .bmc A) = some b ∧
      Fine.run (cfgH B (mtuH + 12)) (Fine.zero (cfgH B (mtuH + 12))) (of .host A) = some t ∧
      Joint B (mtuH + 12) h b t ∧ AtRest (cfgH B (mtuH + 12)) HostClosed mtuH eidH mtuH logH cH t ∧ P b := by
  have hR : hostRoom B mtuH = mtuH + 12 := by
    have hF := hF
    unfold HostFits at hF
    unfold hostRoom; rw [if_pos hF]
  obtain ⟨r1, r2, busH, hbH, oH⟩ := endpoint_host hmem hB1 hB2 hH rH
  obtain ⟨-, -, busH0, hbH0, oH0⟩ := endpoint_host hmem hB1 hB2 hH (hist := []) (log := []) (c := h0) rfl
  rw [hR] at r1 r2 oH oH0
  have f0H : Follows (cfgH B (mtuH + 12)) HostClosed none [] [] h0 := ⟨busH0, hbH0, oH0.mono fun f hf => hf.2⟩
  obtain ⟨b1, hb1, aH⟩ := hH.accounted (stepOk_host hwH (mtu := mtuH) r1 r2 hB2) (by simp only [cfgH]; omega) (by simp only [cfgH]; omega)
    ⟨fun n => by rw [hH.memOk]; exact hmem n, hH.inv⟩ f0H rH
  obtain ⟨b2, hb2, hbr, hj⟩ := hH.reached rH
  rw [hbH] at hb1 hb2; simp only [List.cons.injEq, and_true] at hb1 hb2; subst hb1; subst hb2
  have go : ∀ {Q : Fine → Prop}, Obeys (cfgH B (mtuH + 12)) busH.binding.st Q → ∃ b t, Fine.run (cfgB B (mtuH + 12)) (Fine.zero (cfgB B (mtuH + 12))) (of .bmc A) = some b ∧
      Fine.run (cfgH B (mtuH + 12)) (Fine.zero (cfgH B (mtuH + 12))) (of .host A) = some t ∧ Joint B (mtuH + 12) h b t ∧ P b ∧ Q t := by
    intro Q o
    unfold Obeys at o
    rw [← accessesOf_single hbH, ← hacc] at o
    exact link_run (by omega) r2 (joint_zero _ _ win) hrun hP o
  obtain ⟨b, t, e1, e2, e3, e4, -, e5⟩ := go oH
  refine ⟨b, t, e1, e2, e3, ⟨busH, hbH, hbr, hj, e5, ?_, hH.flushed rH e5.all⟩, e4⟩
  rcases aH with hx | hx
  · obtain ⟨_, _, -, -, -, -, hx⟩ := go hx; exact hx.elim
  · simpa [cfgH] using hx

end

/-- A side that has completed a poll without using the registers. -/
theorem AtRest.poll {hw : Hw E} {g : LinkCfg} {U : AstSt E → Prop} {mtu m : Nat} {eid : Byte} {log : List AstRec} {c c' : Core (AstSt E)} {f : Fine}
    {e : List Event} {rc : Int} {l l' : List Access} {o i : Bool}
    (hx : AtRest g U mtu eid m log c f) (hl : g.lossy = false) (hp : c.astPoll hw 0 = .ok (c', e, rc)) (h1 : l = accessesOf c)
    (h2 : l ++ l' = accessesOf c') (hs : Seen o i l') :
    inBit g.mode o i = false ∧ (outBit g.mode o i = false → f.rxp = .away ∧ (f.w.tx = .free ∨ f.w.tx = .handed)) := by
  obtain ⟨bus, hb, hbr, hj, hrel, -, -⟩ := hx
  obtain ⟨bus', hb', hbr', hj'⟩ := astStep_inv (op := .poll) hb hbr hj hp
  obtain ⟨q1, q2⟩ := quiet_poll (l := l') hb hbr hj hp hb' (by rw [← accessesOf_single hb', ← accessesOf_single hb, ← h2, h1]) hs
  exact ⟨q1, fun ho => hrel.idle hl (q2 ho).1 (q2 ho).2⟩

theorem AtRest.empty {g : LinkCfg} {U : AstSt E → Prop} {mtu m : Nat} {eid : Byte} {log : List AstRec} {c : Core (AstSt E)} {f : Fine}
    (hx : AtRest g U mtu eid m log c f) (hf : f.w.tx = .free) : pending c = [] := by
  obtain ⟨bus, hb, hbr, hj, hrel, -, hfl⟩ := hx
  rw [pending_one hb, hrel.drained hb hfl hf]; rfl

end Mctp
