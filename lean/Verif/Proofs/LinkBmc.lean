import Verif.Proofs.LinkJoint

/-! The invariant is kept by the BMC's accesses. -/

namespace Mctp

open Spec

theorem joint_quietB {B H : Nat} {h h' : Lpc} {b b' t : Fine} (hH : 4 ≤ H) (J : Joint B H h b t)
    (hb : b'.w.tx = b.w.tx ∧ b'.w.rx = b.w.rx ∧ b'.rxp = b.rxp ∧ b'.sent = b.sent ∧ b'.got = b.got ∧ b'.lenB = b.lenB ∧
      b'.started = b.started ∧ b'.stale = b.stale ∧ b'.fin = b.fin)
    (hw : ∀ i, 256 ≤ i → h'.win i = h.win i)
    (ho : ∀ c : Byte, c = 1 ∨ c = 2 → (outReg h' = some c ↔ outReg h = some c))
    (hi : ∀ c : Byte, c = 1 ∨ c = 2 → (inReg h' = some c ↔ inReg h = some c))
    (hf : Flags h' b' t) (hs : StA B H h' b' t ∨ StB B H h' b' t) : Joint B H h' b' t := by
  obtain ⟨b1, b2, b3, b4, b5, b6, b7, b8, b9⟩ := hb
  refine ⟨J.dirB.neutral hH (fun i h1 _ => hw i h1) (ho 1 (.inl rfl)) (hi 2 (.inr rfl)) ⟨b1, b4, b6⟩ ⟨rfl, rfl⟩,
    J.dirH.neutral hH (fun i h1 _ => hw i (by omega)) (hi 1 (.inl rfl)) (ho 2 (.inr rfl)) ⟨rfl, rfl, rfl⟩ ⟨b3, b5⟩,
    by rw [b2, b3]; exact J.cohB, J.cohT, by rw [b7, b8, b9]; exact J.bs, J.ns, hf, hs⟩

/-- The same with the registers unchanged. -/
theorem regs_same {h h' : Lpc} (h1 : h'.obf = h.obf) (h2 : h'.odr = h.odr) : outReg h' = outReg h := by
  unfold outReg; rw [h1, h2]

theorem out_255 {h : Lpc} (hd : h.obf = true → h.odr = 255) (c : Byte) (hc : c = 1 ∨ c = 2) : outReg h ≠ some c := by
  unfold outReg
  split
  · rename_i ho; rw [hd ho]; rcases hc with rfl | rfl <;> decide
  · simp

theorem out_of {h : Lpc} (ho : h.obf = true) : outReg h = some h.odr := by simp [outReg, ho]
theorem in_of {h : Lpc} (ho : h.ibf = true) : inReg h = some h.idr := by simp [inReg, ho]
theorem out_none {h : Lpc} (ho : h.obf = false) : outReg h = none := by simp [outReg, ho]
theorem in_none {h : Lpc} (ho : h.ibf = false) : inReg h = none := by simp [inReg, ho]

theorem poke_low {win : Nat → Byte} {o : Nat} {bs : List Byte} (h : o + bs.length ≤ 256) :
    ∀ i, 256 ≤ i → poke win o bs i = win i := fun i hi => poke_other (by omega)

/-- What the access tells about the hardware afterwards. -/
theorem access_bmc {wr : Bool} {h h' : Lpc} {a : Access} (ha : h.access wr .bmc a = some h') :
    (∀ off bs rc, a = .lpcWrite off bs rc → rc = 0 ∧ h' = { h with win := poke h.win off bs }) ∧
    (∀ off bs rc, a = .lpcRead off bs rc → rc = 0 ∧ h' = h ∧ bs = region h.win off bs.length) ∧
    (∀ rc v, a = .kcsRead .status rc v → rc = 0 ∧ h' = h ∧ v = h.shown) ∧
    (∀ rc v, a = .kcsRead .data rc v → rc = 0 ∧ h' = { h with ibf := false } ∧ v = h.idr) ∧
    (∀ rc v, a = .kcsWrite .status v rc → rc = 0 ∧ h' = { h with status := v, obf := if wr then v.getLsbD 0 else h.obf, ibf := if wr then v.getLsbD 1 else h.ibf }) ∧
    (∀ rc v, a = .kcsWrite .data v rc → rc = 0 ∧ h' = { h with odr := v, obf := true }) := by
  refine ⟨?_, ?_, ?_, ?_, ?_, ?_⟩ <;> intros <;> subst a <;> simp only [Lpc.access] at ha <;> split at ha <;>
    first
    | (cases ha; done)
    | (rename_i hc; simp only [Option.some.injEq] at ha; subst ha
       first | exact ⟨hc, rfl⟩ | exact ⟨hc.1, rfl, hc.2⟩)

theorem hdr_poke {win : Nat → Byte} {o : Nat} {bs hd : List Byte} (h : o + bs.length ≤ 32) (hr : region win 0 32 = hd) :
    region (poke win o bs) 0 32 = hd.take o ++ bs ++ hd.drop (o + bs.length) := by
  have := region_poke_in (win := win) (o := 0) (m := 32) (a := o) (bs := bs) h
  rw [Nat.zero_add] at this
  rw [this, hr]

/-- The BMC starts. -/
theorem joint_bmc_start {wr : Bool} {B H : Nat} {h h' : Lpc} {b b' t : Fine} {a : Access} (hH : 4 ≤ H) (J : Joint B H h b t)
    (S : StA B H h b t) (hn : b.todo ≠ []) (ha : h.access wr .bmc a = some h') (hs : b.step (cfgB B H) a = some b') :
    Joint B H h' b' t := by
  obtain ⟨A1, A2, A3, A4, A5, A6⟩ := access_bmc ha
  have hwat := Fine.step_watch hs
  have hlast := Watch.step_last hwat
  unfold Fine.step at hs
  split at hs
  · cases hs
  · rename_i w hw
    rcases S.at_ with ⟨htd, hst, ho, hi, t1, t2, t3⟩ | ⟨⟨htd, ho, hfin⟩ | ⟨htd, -⟩, hst, hfo, ht⟩
    · rcases htd with htd | ⟨htd, hrg⟩ <;> rw [htd] at hs
      · -- the header
        simp only [cfgB] at hs
        split at hs
        · rename_i hae
          obtain ⟨-, rfl⟩ := A1 _ _ _ hae
          subst hae
          have hw' : w = { b.w with last := some (.lpcWrite 0 (hdr0 B) 0) } := by
            have : (hdr0 B).length = 32 := rfl
            simp [Watch.step, this] at hw; exact hw.symm
          subst hw'
          simp only [Option.some.injEq] at hs
          subst hs
          refine joint_quietB hH J ⟨rfl, rfl, rfl, rfl, rfl, rfl, rfl, rfl, rfl⟩ (poke_low (by rw [show (hdr0 B).length = 32 from rfl]; omega)) (fun _ _ => Iff.rfl) (fun _ _ => Iff.rfl)
            (J.fl.bmc rfl trivial id id id) (.inl ⟨S.bo, S.to, S.bx, S.tx, .inl ⟨.inr ⟨rfl, ?_⟩, hst, ho, hi, t1, t2, t3⟩⟩)
          exact region_poke h.win 0 (hdr0 B)
        · cases hs
      · -- ready
        simp only at hs
        split at hs
        · rename_i hae
          obtain ⟨-, rfl⟩ := A5 _ _ hae
          subst hae
          have hw' : w = { b.w with last := some (.kcsWrite .status 0x80 0) } := by
            simp [Watch.step] at hw; exact hw.symm
          subst hw'
          simp only [Option.some.injEq] at hs
          subst hs
          have e1 : (if wr = true then (0x80 : Byte).getLsbD 0 else h.obf) = false := by split; rfl; exact ho
          have e2 : (if wr = true then (0x80 : Byte).getLsbD 1 else h.ibf) = false := by split; rfl; exact hi
          rw [e1, e2]
          refine joint_quietB hH J ⟨rfl, rfl, rfl, rfl, rfl, rfl, rfl, rfl, rfl⟩ (fun _ _ => rfl) (fun _ _ => by rw [out_none ho, out_none rfl]) (fun _ _ => by rw [in_none hi, in_none rfl])
            (J.fl.bmc rfl trivial (fun hh => by rw [ho] at hh; cases hh) (fun _ => rfl) (fun hh => by rw [hst] at hh; cases hh))
            (.inl ⟨S.bo, S.to, S.bx, S.tx, .inr ⟨.inl ⟨rfl, rfl, t3⟩, rfl, fun _ => rfl, .inl ⟨t1, t2, t3, rfl, hrg⟩⟩⟩)
        · cases hs
    · rw [htd] at hs
      simp only at hs
      split at hs
      · rename_i hae
        obtain ⟨-, rfl⟩ := A6 _ _ hae
        subst hae
        have hw' : w = { b.w with last := some (.kcsWrite .data 0xff 0) } := by
          simp [Watch.step] at hw; exact hw.2.symm
        subst hw'
        simp only [Option.some.injEq] at hs
        subst hs
        refine joint_quietB hH J ⟨rfl, rfl, rfl, rfl, rfl, rfl, rfl, rfl, rfl⟩ (fun _ _ => rfl)
          (fun c hc => by rw [out_none ho, out_of rfl]; rcases hc with rfl | rfl <;> simp) (fun _ _ => Iff.rfl)
          (J.fl.bmc rfl trivial (fun _ => rfl) id id)
          (.inl ⟨S.bo, S.to, S.bx, S.tx, .inr ⟨.inr ⟨rfl, rfl⟩, hst, (fun hh => by rw [hfin] at hh; cases hh), ht⟩⟩)
      · cases hs
    · exact absurd htd hn

theorem initAt_open {B H : Nat} {l : List Access} {v : Byte} (h : InitAt B H l (hdr2 B H) v) : l.length ≤ 2 := by
  generalize hg : hdr2 B H = x at h
  cases h
  case i4 | i5 | i6 => simp
  all_goals
    have : be16 3 = be16 0 := congrArg (fun l : List Byte => (l.drop 12).take 2) hg
    exact absurd this (by decide)

/-- The BMC initialises the channel. -/
theorem joint_bmc_init {wr : Bool} {B H : Nat} {h h' : Lpc} {b b' t : Fine} {a : Access} (hH : 4 ≤ H) (J : Joint B H h b t)
    (S : StB B H h b t) (hn : b.todo ≠ []) (ha : h.access wr .bmc a = some h') (hs : b.step (cfgB B H) a = some b') :
    Joint B H h' b' t := by
  obtain ⟨A1, A2, A3, A4, A5, A6⟩ := access_bmc ha
  obtain ⟨bo, ts, hat, hb1, r1, r2, t0, no, yes, act, st, sr⟩ := S
  obtain ⟨x1, x2, x3⟩ := hb1 hn
  have hfb : b.w.rx = false := by rw [J.cohB, x2]; rfl
  unfold Fine.step at hs
  split at hs
  · cases hs
  · rename_i w hw
    have h255 : ∀ c : Byte, c = 1 ∨ c = 2 → outReg h ≠ some c := out_255 (fun _ => x3)
    generalize htd : b.todo = td at hat
    generalize hreg : region h.win 0 32 = rg at hat
    generalize hsv : h.status = sv at hat
    -- a header access that only moves on
    have read : ∀ {rest}, b.todo = .lpcRead 0 (hdr1 B H) 0 :: rest → InitAt B H rest (region h.win 0 32) h.status →
        3 ≤ rest.length → Joint B H h' b' t := by
      intro rest htd hat' hrest
      have hopen : t.opened = false := by
        cases ho : t.opened
        · rfl
        · have := initAt_open (yes ho); rw [htd] at this; simp at this; omega
      rw [htd] at hs
      simp only at hs
      split at hs
      · rename_i hae
        obtain ⟨-, rfl, -⟩ := A2 _ _ _ hae
        subst hae
        have hw' : w = { b.w with last := some (.lpcRead 0 (hdr1 B H) 0) } := by
          have : (hdr1 B H).length = 32 := rfl
          simp [Watch.step, this] at hw; exact hw.symm
        subst hw'
        simp only [Option.some.injEq] at hs
        subst hs
        exact joint_quietB hH J ⟨rfl, rfl, rfl, rfl, rfl, rfl, rfl, rfl, rfl⟩ (fun _ _ => rfl) (fun _ _ => Iff.rfl) (fun _ _ => Iff.rfl)
          (J.fl.bmc rfl trivial id id id) (.inr ⟨bo, ts, hat', fun _ => ⟨x1, x2, x3⟩, r1, r2, t0,
            (fun hh => ⟨(no hh).1, (no hh).2.1, (no hh).2.2.1, (fun h0 => by
              have h0 : rest = [] := h0
              rw [h0] at hrest; simp at hrest), (no hh).2.2.2.2⟩),
            (fun hh => by rw [hopen] at hh; cases hh), act, st, sr⟩)
      · cases hs
    cases hat with
    | i0 => exact read htd (by rw [hreg, hsv]; exact .i1) (by simp)
    | i1 => exact read htd (by rw [hreg, hsv]; exact .i2) (by simp)
    | i2 =>
      have hopen : t.opened = false := by
        cases ho : t.opened
        · rfl
        · have := initAt_open (yes ho); rw [htd] at this; simp at this
      rw [htd] at hs
      simp only at hs
      split at hs
      · rename_i hae
        obtain ⟨-, rfl⟩ := A1 _ _ _ hae
        subst hae
        have hl : (layB B H).length = 16 := rfl
        have hw' : w = { b.w with last := some (.lpcWrite 16 (layB B H) 0) } := by
          simp [Watch.step, hl] at hw; exact hw.symm
        subst hw'
        simp only [Option.some.injEq] at hs
        subst hs
        refine joint_quietB hH J ⟨rfl, rfl, rfl, rfl, rfl, rfl, rfl, rfl, rfl⟩ (poke_low (by rw [hl]; omega)) (fun _ _ => Iff.rfl) (fun _ _ => Iff.rfl)
          (J.fl.bmc rfl trivial id id id) (.inr ⟨bo, ts, ?_, fun _ => ⟨x1, x2, x3⟩, r1, r2, t0,
            (fun hh => ⟨(no hh).1, (no hh).2.1, (no hh).2.2.1, (fun h0 => by cases h0), (no hh).2.2.2.2⟩),
            (fun hh => by rw [hopen] at hh; cases hh), act, st, sr⟩)
        have hr : region (poke h.win 16 (layB B H)) 0 32 = lhdr 1 3 0 H (256 + B) H := by
          rw [hdr_poke (by rw [hl]; omega) hreg]; rfl
        show InitAt B H _ (region (poke h.win 16 (layB B H)) 0 32) h.status
        rw [hr, hsv]; exact .i3
      · cases hs
    | i3 =>
      have hopen : t.opened = false := by
        cases ho : t.opened
        · rfl
        · have := initAt_open (yes ho); rw [htd] at this; simp at this
      rw [htd] at hs
      simp only at hs
      split at hs
      · rename_i hae
        obtain ⟨-, rfl⟩ := A1 _ _ _ hae
        subst hae
        have hl : (be16 3).length = 2 := rfl
        have hw' : w = { last := some (.lpcWrite 12 (be16 3) 0), tx := .free, rx := false } := by
          simp [Watch.step, hl] at hw; exact hw.symm
        subst hw'
        simp only [Option.some.injEq] at hs
        subst hs
        refine joint_quietB hH J ⟨x1.symm, hfb.symm, rfl, rfl, rfl, rfl, rfl, rfl, rfl⟩ (poke_low (by rw [hl]; omega)) (fun _ _ => Iff.rfl) (fun _ _ => Iff.rfl)
          (J.fl.bmc rfl trivial id id id) (.inr ⟨bo, ts, ?_, fun _ => ⟨rfl, x2, x3⟩, r1, r2, t0,
            (fun hh => ⟨(no hh).1, (no hh).2.1, (no hh).2.2.1, (fun h0 => by cases h0), (no hh).2.2.2.2⟩),
            (fun hh => by rw [hopen] at hh; cases hh), act, st, sr⟩)
        have hr : region (poke h.win 12 (be16 3)) 0 32 = hdr2 B H := by
          rw [hdr_poke (by rw [hl]; omega) hreg]; rfl
        show InitAt B H _ (region (poke h.win 12 (be16 3)) 0 32) h.status
        rw [hr, hsv]; exact .i4
      · cases hs
    | i4 =>
      have hibf : h.ibf = false := by
        cases ho : t.opened
        · exact (no ho).2.2.1
        · cases hst : t.stale
          · have := (act ho hst).2; rw [hsv] at this; cases this
          · rcases (st ho hst).2.2.2 with hi | ⟨_, _, hi⟩
            · exact hi
            · cases hib : h.ibf
              · rfl
              · have := (J.dirB.back (s' := { b with w := { b.w with tx := .free } }) (by rw [in_of hib, hi]) ⟨rfl, rfl⟩).1
                rw [x1] at this; cases this
      rw [htd] at hs
      simp only at hs
      split at hs
      · rename_i hae
        obtain ⟨-, rfl⟩ := A5 _ _ hae
        subst hae
        have hw' : w = { b.w with last := some (.kcsWrite .status 0xc1 0) } := by
          simp [Watch.step] at hw; exact hw.symm
        subst hw'
        simp only [Option.some.injEq] at hs
        subst hs
        have e2 : (if wr = true then (0xc1 : Byte).getLsbD 1 else h.ibf) = false := by split; rfl; exact hibf
        have e1 : h.obf = true → (if wr = true then (0xc1 : Byte).getLsbD 0 else h.obf) = true := by
          intro hh; split; rfl; exact hh
        rw [e2]
        refine joint_quietB hH J ⟨rfl, rfl, rfl, rfl, rfl, rfl, rfl, rfl, rfl⟩ (fun _ _ => rfl)
          (fun c hc => ⟨fun hh => (out_255 (fun _ => by exact x3) c hc hh).elim, fun hh => absurd hh (h255 c hc)⟩)
          (fun _ _ => by rw [in_none hibf, in_none rfl])
          (J.fl.bmc rfl trivial e1 (fun _ => rfl) (fun _ => rfl)) (.inr ⟨bo, ts, ?_, fun _ => ⟨x1, x2, x3⟩, (fun _ => .inl x3), (fun hh => by cases hh), t0,
            (fun hh => ⟨(no hh).1, (no hh).2.1, rfl, (fun h0 => by cases h0), (fun _ _ => rfl)⟩),
            (fun _ => .i5), (fun h1 h2 => ⟨(act h1 h2).1, rfl⟩), (fun h1 h2 => ⟨(st h1 h2).1, (fun _ => rfl), (st h1 h2).2.2.1, .inl rfl⟩), sr⟩)
        show InitAt B H _ (region h.win 0 32) 0xc1
        rw [hreg]; exact .i5
      · cases hs
    | i5 =>
      rw [htd] at hs
      simp only at hs
      split at hs
      · rename_i hae
        obtain ⟨-, rfl⟩ := A6 _ _ hae
        subst hae
        have hw' : w = { b.w with last := some (.kcsWrite .data 0xff 0) } := by
          simp [Watch.step] at hw; exact hw.2.symm
        subst hw'
        simp only [Option.some.injEq] at hs
        subst hs
        refine joint_quietB hH J ⟨rfl, rfl, rfl, rfl, rfl, rfl, rfl, rfl, rfl⟩ (fun _ _ => rfl)
          (fun c hc => ⟨fun hh => (out_255 (fun _ => by rfl) c hc hh).elim, fun hh => absurd hh (h255 c hc)⟩)
          (fun _ _ => Iff.rfl)
          (J.fl.bmc rfl trivial (fun _ => rfl) id id) (.inr ⟨bo, ts, ?_, (fun hh => absurd rfl hh), (fun _ => .inl rfl), r2, t0,
            (fun hh => ⟨(no hh).1, (no hh).2.1, (no hh).2.2.1, (fun _ => .inl ⟨rfl, rfl⟩), (fun _ _ => hsv)⟩),
            (fun _ => by show InitAt B H [] _ h.status; rw [hsv]; exact .i6), act, (fun h1 h2 => ⟨(st h1 h2).1, (fun _ => hsv), (st h1 h2).2.2⟩), sr⟩)
        show InitAt B H _ (region h.win 0 32) h.status
        rw [hreg, hsv]; exact .i6
      · cases hs
    | i6 => exact absurd htd hn

theorem Watch.step_begin {m : AstMode} {w w' : Watch} {rc : Int} (h : w.step m (.kcsWrite .data 1 rc) = some w') :
    w.sawRoom m = true ∧ w.tx = .full := by
  simp only [Watch.step, if_true] at h
  split at h
  · assumption
  · cases h

theorem Watch.step_complete {m : AstMode} {w w' : Watch} {rc : Int} (h : w.step m (.kcsWrite .data 2 rc) = some w') :
    w.sawRoom m = true ∧ w.rx = true := by
  simp only [Watch.step, show ¬ ((2 : Byte) = 1) by decide, if_true, if_false] at h
  split at h
  · assumption
  · cases h

/-- The BMC reads the status. -/
theorem Flags.bmcStatus {h : Lpc} {b b' t : Fine} {rc : Int} (f : Flags h b t)
    (hl : b'.w.last = some (.kcsRead .status rc h.shown)) : Flags h b' t where
  bi := fun hh => by
    unfold Watch.sawInput at hh
    rw [hl] at hh
    simp only [Bool.and_eq_true] at hh
    rw [← (shown_bits h).2.1]; exact hh.2
  br := fun hh => by
    unfold Watch.sawRoom at hh
    rw [hl] at hh
    simp only [Bool.and_eq_true, Bool.not_eq_true'] at hh
    rw [← (shown_bits h).1]; exact hh.2
  ti := f.ti
  tr := f.tr
  t6 := f.t6
  s6 := f.s6

/-- The BMC moves on when the channel is open. -/
theorem StB.steadyB {B H : Nat} {h h' : Lpc} {b b' t : Fine} (S : StB B H h b t) (hn : b.todo = [])
    (h1 : b'.opened = b.opened) (h2 : b'.todo = []) (h3 : region h'.win 0 32 = region h.win 0 32) (h4 : h'.status = h.status)
    (h5 : h'.ibf = true → h.ibf = true ∧ h'.idr = h.idr)
    (h6 : (h'.obf = h.obf ∧ h'.odr = h.odr) ∨ (h.obf = false ∧ h'.obf = true ∧ (h'.odr = 1 ∨ h'.odr = 2))) : StB B H h' b' t := by
  obtain ⟨bo, ts, hat, hb1, r1, r2, t0, no, yes, act, st, sr⟩ := S
  have hc1 : h.status = 0xc1 := by
    rw [hn] at hat
    generalize region h.win 0 32 = rg at hat
    generalize h.status = sv at hat
    cases hat; rfl
  have hib : h.ibf = false → h'.ibf = false := by
    intro hh
    cases hi : h'.ibf
    · rfl
    · rw [(h5 hi).1] at hh; cases hh
  refine ⟨h1.trans bo, ts, by rw [h2, h3, h4, ← hn]; exact hat, fun hh => absurd h2 hh, ?_, fun hh => by rw [(h5 hh).2]; exact r2 (h5 hh).1, t0, ?_, ?_, ?_, ?_, sr⟩
  · intro hh
    rcases h6 with ⟨e1, e2⟩ | ⟨_, _, e⟩
    · rw [e2]; exact r1 (e1 ▸ hh)
    · exact .inr e
  · intro hh
    obtain ⟨n1, n2, n3, n4, n5⟩ := no hh
    refine ⟨n1, n2, hib n3, fun _ => ?_, fun _ _ => h4.trans hc1⟩
    rcases n4 hn with ⟨m1, m2⟩ | m
    · rcases h6 with ⟨e1, e2⟩ | ⟨e, _⟩
      · exact .inl ⟨e1.trans m1, e2.trans m2⟩
      · rw [m1] at e; cases e
    · exact .inr m
  · intro hh; rw [h2, h4, ← hn]; exact yes hh
  · intro a1 a2; exact ⟨(act a1 a2).1, h4.trans hc1⟩
  · intro a1 a2
    obtain ⟨s1, s2, s3, s4⟩ := st a1 a2
    refine ⟨s1, fun _ => h4.trans hc1, s3, ?_⟩
    rcases s4 with s4 | ⟨s4, s5, s6⟩
    · exact .inl (hib s4)
    · cases hi : h'.ibf
      · exact .inl rfl
      · exact .inr ⟨s4, s5, by rw [(h5 hi).2]; exact s6⟩

/-- The BMC is idle or works on the channel. -/
theorem joint_bmc_open {wr : Bool} {B H : Nat} {h h' : Lpc} {b b' t : Fine} {a : Access} (hH : 4 ≤ H) (hHB : H ≤ B) (J : Joint B H h b t)
    (hn : b.todo = []) (ha : h.access wr .bmc a = some h') (hs : b.step (cfgB B H) a = some b') :
    Joint B H h' b' t := by
  obtain ⟨A1, A2, A3, A4, A5, A6⟩ := access_bmc ha
  obtain ⟨bs1, bs2, bs3⟩ := J.bs
  unfold Fine.step at hs
  split at hs
  · cases hs
  rename_i w hw
  rw [hn] at hs
  simp only [Fine.free.eq_def] at hs
  cases a with
  | kcsRead reg rc v =>
    cases reg with
    | status =>
      obtain ⟨h0, rfl, hv⟩ := A3 _ _ rfl
      simp only at hs
      rw [if_pos bs1, if_neg (by rw [bs3]; simp)] at hs
      simp only [Option.some.injEq] at hs
      have hw' : w = { b.w with last := some (.kcsRead .status rc v) } := by
        simp [Watch.step] at hw; exact hw.symm
      subst hw' hs hv
      refine joint_quietB hH J ⟨rfl, rfl, rfl, rfl, rfl, rfl, rfl, rfl, rfl⟩ (fun _ _ => rfl) (fun _ _ => Iff.rfl) (fun _ _ => Iff.rfl)
        (J.fl.bmcStatus rfl) ?_
      rcases J.st with S | S
      · obtain ⟨y1, y2, y3, y4, y5⟩ := S
        exact .inl ⟨y1, y2, y3, y4, y5⟩
      · exact .inr (S.steadyB hn rfl hn rfl rfl (fun hh => ⟨hh, rfl⟩) (.inl ⟨rfl, rfl⟩))
    | data =>
      obtain ⟨h0, rfl, hv⟩ := A4 _ _ rfl
      have hsaw : b.w.sawInput .bmc = true := by
        cases hh : b.w.sawInput .bmc
        · simp [Watch.step, hh, cfgB] at hw
        · rfl
      have hibf := J.fl.bi hsaw
      simp only at hs
      rw [if_pos ⟨bs1, bs3⟩] at hs
      rcases J.st with S | S
      · -- the host asks for the channel
        rw [if_neg (by rw [S.bo]; simp)] at hs
        simp only [cfgB] at hs
        split at hs
        · rename_i hv0
          simp only [Option.some.injEq] at hs
          have hw' : w = { b.w with last := some (.kcsRead .data rc v) } := by
            simp [Watch.step, hsaw, cfgB, hv0] at hw; rw [hv0]; exact hw.symm
          subst hw' hs
          obtain ⟨y1, y2, y3, y4, y5⟩ := S
          rcases y5 with ⟨_, _, _, hi, _⟩ | ⟨z1, z2, z3, z4⟩
          · rw [hibf] at hi; cases hi
          rcases z1 with ⟨z1, _⟩ | ⟨z1, zo⟩
          · rw [hn] at z1; cases z1
          rcases z4 with ⟨_, _, _, hi, _⟩ | ⟨_, _, _, hi⟩ | ⟨w1, w2, w3, w4, w5⟩
          · rw [hibf] at hi; cases hi
          · rw [hibf] at hi; cases hi
          · refine joint_quietB hH J ⟨rfl, rfl, rfl, rfl, rfl, rfl, rfl, rfl, rfl⟩ (fun _ _ => rfl) (fun _ _ => Iff.rfl)
              (fun c hc => by rw [in_none rfl, in_of hibf, w4]; rcases hc with rfl | rfl <;> simp)
              (J.fl.bmc rfl trivial id (fun _ => rfl) id) (.inr ?_)
            refine ⟨rfl, w1, ?_, fun _ => ⟨y3.1, y3.2, zo⟩, fun _ => .inl zo, (fun hh => by cases hh), .inl w2, ?_, (fun hh => by rw [y2] at hh; cases hh),
              (fun hh => by rw [y2] at hh; cases hh), (fun hh => by rw [y2] at hh; cases hh), (fun hh => by rw [y2] at hh; cases hh)⟩
            · show InitAt B H _ (region h.win 0 32) h.status
              rw [w5, z2]; exact .i0
            · intro _
              refine ⟨y4.1, y4.2, rfl, (fun hh => by cases hh), fun h1 h2 => ?_⟩
              have := z3 h1
              rw [show h.obf = true from h2] at this; cases this
        · cases hs
      · -- a command
        rw [if_pos S.bo] at hs
        have hin : inReg h = some h.idr := in_of hibf
        have hS : ∀ b' : Fine, b'.opened = b.opened → b'.todo = [] → StB B H { h with ibf := false } b' t := fun b' e1 e2 =>
          S.steadyB hn e1 e2 rfl rfl (fun hh => by cases hh) (.inl ⟨rfl, rfl⟩)
        have hno : inReg { h with ibf := false } = none := in_none rfl
        rcases S.r2 hibf with hi | hi
        · have hv1 : v = 1 := hv.trans hi
          have hw' : w = { b.w with last := some (.kcsRead .data rc v), rx := true } := by
            simp [Watch.step, hsaw, cfgB, hv1, h0] at hw; rw [hv1, h0]; exact hw.symm
          rw [if_pos hv1] at hs
          simp only [Option.some.injEq] at hs
          subst hw' hs
          have hd := (J.dirH.take (r' := { b with rxp := .begun }) (by rw [hin, hi]) ⟨rfl, rfl⟩).2
          refine ⟨J.dirB.neutral hH (fun _ _ _ => rfl) Iff.rfl (by rw [hno, hin, hi]; simp) ⟨rfl, rfl, rfl⟩ ⟨rfl, rfl⟩,
            hd.neutral hH (fun _ _ _ => rfl) (by rw [hno]) Iff.rfl ⟨rfl, rfl, rfl⟩ ⟨rfl, rfl⟩,
            rfl, J.cohT, ⟨bs1, bs2, bs2⟩, J.ns, J.fl.bmc rfl trivial id (fun _ => rfl) id, .inr (hS _ rfl hn)⟩
        · have hv1 : v = 2 := hv.trans hi
          have hd := J.dirB.back (s' := { b with w := { b.w with tx := .free } }) (by rw [hin, hi]) ⟨rfl, rfl⟩
          have hw' : w = { b.w with last := some (.kcsRead .data rc v), tx := .free } := by
            simp [Watch.step, hsaw, cfgB, hv1, h0, hd.1] at hw; rw [hv1, h0]; exact hw.symm
          rw [if_neg (by rw [hv1]; decide)] at hs
          simp only [Option.some.injEq] at hs
          subst hw' hs
          refine ⟨hd.2.neutral hH (fun _ _ _ => rfl) Iff.rfl (by rw [hno]) ⟨rfl, rfl, rfl⟩ ⟨rfl, rfl⟩,
            J.dirH.neutral hH (fun _ _ _ => rfl) (by rw [hno, hin, hi]; simp) Iff.rfl ⟨rfl, rfl, rfl⟩ ⟨rfl, rfl⟩,
            J.cohB, J.cohT, ⟨bs1, bs2, bs2⟩, J.ns, J.fl.bmc rfl trivial id (fun _ => rfl) id, .inr (hS _ rfl hn)⟩
  | kcsWrite reg v rc =>
    cases reg with
    | status => cases hs
    | data =>
      obtain ⟨h0, rfl⟩ := A6 _ _ rfl
      simp only at hs
      by_cases hv : v = 1
      · rw [if_pos hv] at hs
        split at hs
        · rename_i ho
          simp only [Option.some.injEq] at hs
          have hrm : b.w.sawRoom .bmc = true ∧ b.w.tx = .full := by
            rw [hv] at hw; exact Watch.step_begin hw
          have hw' : w = { b.w with last := some (.kcsWrite .data v rc), tx := .handed } := by
            simp [Watch.step, cfgB, hv, h0, hrm] at hw; rw [hv, h0]; exact hw.symm
          subst hw' hs
          have hob := J.fl.br hrm.1
          rcases J.st with S | S
          · rw [S.bo] at ho; cases ho.1
          refine ⟨by rw [out_of rfl]; show Dir _ _ _ (some v) _ _ _; rw [hv]; exact J.dirB.announce hrm.2 ⟨rfl, rfl⟩,
            J.dirH.neutral hH (fun _ _ _ => rfl) Iff.rfl (by rw [out_none hob, out_of rfl]; show some v = _ ↔ _; rw [hv]; simp) ⟨rfl, rfl, rfl⟩ ⟨rfl, rfl⟩,
            J.cohB, J.cohT, ⟨bs1, bs2, bs3⟩, J.ns, J.fl.bmc rfl trivial (fun _ => rfl) id id,
            .inr (S.steadyB hn rfl hn rfl rfl (fun hh => ⟨hh, rfl⟩) (.inr ⟨hob, rfl, .inl hv⟩))⟩
        · cases hs
      · rw [if_neg hv] at hs
        by_cases hv2 : v = 2
        · rw [if_pos hv2] at hs
          split at hs
          · rename_i ho
            simp only [Option.some.injEq] at hs
            have hrm : b.w.sawRoom .bmc = true ∧ b.w.rx = true := by
              rw [hv2] at hw; exact Watch.step_complete hw
            have hw' : w = { b.w with last := some (.kcsWrite .data v rc), rx := false } := by
              simp [Watch.step, cfgB, hv2, h0, hrm] at hw; rw [hv2, h0]; exact hw.symm
            subst hw' hs
            have hob := J.fl.br hrm.1
            rcases J.st with S | S
            · rw [S.bo] at ho; cases ho.1
            refine ⟨J.dirB.neutral hH (fun _ _ _ => rfl) (by rw [out_none hob, out_of rfl]; show some v = _ ↔ _; rw [hv2]; simp) Iff.rfl ⟨rfl, rfl, rfl⟩ ⟨rfl, rfl⟩,
              by rw [out_of rfl]; show Dir _ _ _ _ (some v) _ _; rw [hv2]; exact J.dirH.handBack ho.2 ⟨rfl, rfl⟩,
              rfl, J.cohT, ⟨bs1, bs2, bs3⟩, J.ns, J.fl.bmc rfl trivial (fun _ => rfl) id id,
              .inr (S.steadyB hn rfl hn rfl rfl (fun hh => ⟨hh, rfl⟩) (.inr ⟨hob, rfl, .inr hv2⟩))⟩
          · cases hs
        · rw [if_neg hv2] at hs; cases hs
  | lpcRead off bs rc =>
    obtain ⟨h0, rfl, hb⟩ := A2 _ _ _ rfl
    simp only at hs
    rw [if_neg (c := b.fin = true ∧ b.rxp = .away ∧ bs.length = 2) (by rw [bs3]; simp)] at hs
    split at hs
    · cases hs
    have hopen : b.rxp ≠ .away → StB B H h' b t := by
      intro hr
      rcases J.st with S | S
      · exact absurd S.bx.2 hr
      · exact S
    split at hs
    · rename_i hr
      split at hs
      · rename_i hc
        simp only [Option.some.injEq] at hs
        have S := hopen (by rw [hr]; simp)
        have ho : off = 256 + B := hc.1
        have hw' : w = { b.w with last := some (.lpcRead off bs rc) } := by
          have hrx : b.w.rx = true := by rw [J.cohB, hr]; rfl
          have : ¬ (off + bs.length ≤ 32) := by omega
          simp only [Watch.step] at hw; rw [if_neg this, if_pos hrx] at hw; simpa using hw.symm
        subst hw' hs
        rw [hc.2, ho] at hb
        refine ⟨J.dirB.neutral hH (fun _ _ _ => rfl) Iff.rfl Iff.rfl ⟨rfl, rfl, rfl⟩ ⟨rfl, rfl⟩,
          J.dirH.readLen hr hb ⟨rfl, rfl⟩, by show b.w.rx = _; rw [J.cohB, hr]; rfl, J.cohT, ⟨bs1, bs2, bs3⟩, J.ns, J.fl.bmc rfl trivial id id id,
          .inr (S.steadyB hn rfl hn rfl rfl (fun hh => ⟨hh, rfl⟩) (.inl ⟨rfl, rfl⟩))⟩
      · cases hs
    · rename_i n hr
      split at hs
      · rename_i hc
        simp only [Option.some.injEq] at hs
        have S := hopen (by rw [hr]; simp)
        have ho : off = 256 + B + 4 := hc.1
        have hw' : w = { b.w with last := some (.lpcRead off bs rc) } := by
          have hrx : b.w.rx = true := by rw [J.cohB, hr]; rfl
          have : ¬ (off + bs.length ≤ 32) := by omega
          simp only [Watch.step] at hw; rw [if_neg this, if_pos hrx] at hw; simpa using hw.symm
        subst hw' hs
        rw [ho] at hb
        refine ⟨J.dirB.neutral hH (fun _ _ _ => rfl) Iff.rfl Iff.rfl ⟨rfl, rfl, rfl⟩ ⟨rfl, rfl⟩,
          J.dirH.readBody hr hb hc.2 ⟨rfl, rfl⟩, by show b.w.rx = _; rw [J.cohB, hr]; rfl, J.cohT, ⟨bs1, bs2, bs3⟩, J.ns, J.fl.bmc rfl trivial id id id,
          .inr (S.steadyB hn rfl hn rfl rfl (fun hh => ⟨hh, rfl⟩) (.inl ⟨rfl, rfl⟩))⟩
      · cases hs
    · cases hs
  | lpcWrite off bs rc =>
    obtain ⟨h0, rfl⟩ := A1 _ _ _ rfl
    simp only at hs
    split at hs
    · rename_i hop
      have S : StB B H h b t := by
        rcases J.st with S | S
        · rw [S.bo] at hop; cases hop.1
        · exact S
      have hreg : ∀ {o : Nat} {l : List Byte}, 256 ≤ o → region (poke h.win o l) 0 32 = region h.win 0 32 :=
        fun ho => region_poke_apart (by omega)
      split at hs
      · rename_i hc
        obtain ⟨ho, hl, hf⟩ := hc
        have ho : off = 256 := ho
        simp only [Option.some.injEq] at hs
        have hw' : w = { b.w with last := some (.lpcWrite off bs rc), tx := .half } := by
          have : ¬ (off + bs.length ≤ 32) := by omega
          simp [Watch.step, this, hf] at hw; exact hw.symm
        subst hw' hs ho
        refine ⟨J.dirB.writeLen hf hl ⟨rfl, rfl, rfl⟩,
          J.dirH.neutral hH (fun i h1 _ => poke_other (by omega)) Iff.rfl Iff.rfl ⟨rfl, rfl, rfl⟩ ⟨rfl, rfl⟩,
          J.cohB, J.cohT, ⟨bs1, bs2, bs3⟩, J.ns, J.fl.bmc rfl trivial id id id,
          .inr (S.steadyB hn rfl hn (hreg (by omega)) rfl (fun hh => ⟨hh, rfl⟩) (.inl ⟨rfl, rfl⟩))⟩
      · split at hs
        · rename_i hc
          obtain ⟨ho, hf, hl, hz⟩ := hc
          have ho : off = 256 + 4 := ho
          have hz : bs.length + 4 ≤ H := hz
          simp only [Option.some.injEq] at hs
          have hw' : w = { b.w with last := some (.lpcWrite off bs rc), tx := .full } := by
            have : ¬ (off + bs.length ≤ 32) := by omega
            simp [Watch.step, this, hf] at hw; exact hw.symm
          subst hw' hs ho
          refine ⟨J.dirB.writeBody hf ⟨hl, hz⟩ ⟨rfl, rfl⟩,
            J.dirH.neutral hH (fun i h1 _ => poke_other (by omega)) Iff.rfl Iff.rfl ⟨rfl, rfl, rfl⟩ ⟨rfl, rfl⟩,
            J.cohB, J.cohT, ⟨bs1, bs2, bs3⟩, J.ns, J.fl.bmc rfl trivial id id id,
            .inr (S.steadyB hn rfl hn (hreg (by omega)) rfl (fun hh => ⟨hh, rfl⟩) (.inl ⟨rfl, rfl⟩))⟩
        · cases hs
    · cases hs

/-- Any access of the BMC. -/
theorem joint_bmc {wr : Bool} {B H : Nat} {h h' : Lpc} {b b' t : Fine} {a : Access} (hH : 4 ≤ H) (hHB : H ≤ B) (J : Joint B H h b t)
    (ha : h.access wr .bmc a = some h') (hs : b.step (cfgB B H) a = some b') : Joint B H h' b' t := by
  by_cases hn : b.todo = []
  · exact joint_bmc_open hH hHB J hn ha hs
  · rcases J.st with S | S
    · exact joint_bmc_start hH J S hn ha hs
    · exact joint_bmc_init hH J S hn ha hs

end Mctp
