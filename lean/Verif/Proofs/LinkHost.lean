import Verif.Proofs.LinkBmc

/-! The invariant and the host's accesses. -/

namespace Mctp

open Spec

theorem access_host {wr : Bool} {h h' : Lpc} {a : Access} (ha : h.access wr .host a = some h') :
    (∀ off bs rc, a = .lpcWrite off bs rc → rc = 0 ∧ h' = { h with win := poke h.win off bs }) ∧
    (∀ off bs rc, a = .lpcRead off bs rc → rc = 0 ∧ h' = h ∧ bs = region h.win off bs.length) ∧
    (∀ rc v, a = .kcsRead .status rc v → rc = 0 ∧ h' = h ∧ v = h.shown) ∧
    (∀ rc v, a = .kcsRead .data rc v → rc = 0 ∧ h' = { h with obf := false } ∧ v = h.odr) ∧
    (∀ rc v, a = .kcsWrite .data v rc → rc = 0 ∧ h' = { h with idr := v, ibf := true }) := by
  refine ⟨?_, ?_, ?_, ?_, ?_⟩ <;> intros <;> subst a <;> simp only [Lpc.access] at ha <;> split at ha <;>
    first
    | (cases ha; done)
    | (rename_i hc; simp only [Option.some.injEq] at ha; subst ha
       first | exact ⟨hc, rfl⟩ | exact ⟨hc.1, rfl, hc.2⟩)

theorem InitAt.unique {B H : Nat} {l : List Access} {x y : List Byte} {v w : Byte} (h : InitAt B H l x v) (h' : InitAt B H l y w) :
    x = y ∧ v = w := by
  cases h <;> cases h' <;> exact ⟨rfl, rfl⟩

theorem InitAt.status {B H : Nat} {l : List Access} {x : List Byte} {v : Byte} (h : InitAt B H l x v) :
    v = 0x80 ∨ v = 0xc1 := by
  cases h <;> first | exact .inl rfl | exact .inr rfl

/-- The negotiated version in the window. -/
theorem InitAt.version {B H : Nat} {l : List Access} {x : List Byte} {v : Byte} (h : InitAt B H l x v) :
    ((x.drop 12).take 2 = be16 0 ∧ l ≠ []) ∨ ((x.drop 12).take 2 = be16 3 ∧ x = hdr2 B H) := by
  cases h
  case i4 | i5 | i6 => exact .inr ⟨rfl, rfl⟩
  all_goals exact .inl ⟨rfl, by simp⟩

theorem region_version (win : Nat → Byte) : region win 12 2 = ((region win 0 32).drop 12).take 2 := by
  have := region_sub (win := win) (o := 0) (m := 32) (a := 12) (n := 2) (by omega)
  rw [Nat.zero_add] at this
  exact this

/-- The data register to the host, when it is full and the host expects something. -/
theorem joint_odr {B H : Nat} {h : Lpc} {b t : Fine} (J : Joint B H h b t) (hts : t.started = true) (hf : t.fin = false) (ho : h.obf = true) :
    (t.opened = true ∧ ((h.odr = 1 ∧ t.rxp = .away) ∨ (h.odr = 2 ∧ t.w.tx = .handed) ∨ h.odr = 255)) ∨
    (t.opened = false ∧ h.odr = 255) := by
  rcases J.st with S | S
  · refine .inr ⟨S.to, ?_⟩
    rcases S.at_ with ⟨_, _, h1, _⟩ | ⟨⟨_, h1, _⟩ | ⟨_, h1⟩, _⟩
    · rw [ho] at h1; cases h1
    · rw [ho] at h1; cases h1
    · exact h1
  · cases hop : t.opened
    · refine .inr ⟨rfl, ?_⟩
      by_cases hn : b.todo = []
      · rcases (S.no hop).2.2.2.1 hn with ⟨_, h1⟩ | h1
        · exact h1
        · rw [hf] at h1; cases h1
      · exact (S.b1 hn).2.2
    · refine .inl ⟨rfl, ?_⟩
      have hout := out_of ho
      rcases S.r1 ho with h1 | h1 | h1
      · exact .inr (.inr h1)
      · exact .inl ⟨h1, (J.dirB.take (r' := { t with rxp := .begun }) (by rw [hout, h1]) ⟨rfl, rfl⟩).1⟩
      · exact .inr (.inl ⟨h1, (J.dirH.back (s' := { t with w := { t.w with tx := .free } }) (by rw [hout, h1]) ⟨rfl, rfl⟩).1⟩)

/-- What holds of the host's answers. -/
theorem joint_rely_host {B H : Nat} {h h' : Lpc} {b t : Fine} {wr : Bool} {a : Access} (J : Joint B H h b t)
    (ha : h.access wr .host a = some h') : Rely (cfgH B H) t a := by
  obtain ⟨A1, A2, A3, A4, A6⟩ := access_host ha
  cases a with
  | kcsRead reg rc v =>
    cases reg with
    | status =>
      obtain ⟨h0, -, hv⟩ := A3 _ _ rfl
      refine ⟨h0, fun _ hts hf => ?_⟩
      obtain ⟨b0, b1, b6, b7⟩ := shown_bits h
      rw [hv, b0, b1, b6, b7]
      rcases J.st with S | S
      · refine ⟨?_, fun hh => by rw [S.to] at hh; cases hh⟩
        rcases S.at_ with ⟨_, _, _, _, h1, _⟩ | ⟨_, h1, _⟩
        · rw [hts] at h1; cases h1
        · rw [h1]; rfl
      · refine ⟨by rcases S.at_.status with e | e <;> rw [e] <;> rfl, fun hop => ?_⟩
        split
        · rename_i hst
          obtain ⟨s1, s2, s3, s4⟩ := S.st hop hst
          refine ⟨?_, fun ho => by
            rcases ho with ho | ho
            · rw [s2 ho]; rfl
            · rw [J.fl.s6 (s3 ho)]; rfl⟩
          rcases s4 with s4 | ⟨s4, s5, _⟩
          · exact s4
          · rcases hf with hf | hf
            · rw [s4] at hf; cases hf
            · exact absurd s5 hf
        · rename_i hst
          rw [(S.act hop (by simpa using hst)).2]; rfl
    | data =>
      obtain ⟨h0, -, hv⟩ := A4 _ _ rfl
      refine ⟨h0, fun htodo hts hf hsaw => ?_⟩
      rcases joint_odr J hts hf (J.fl.ti hsaw) with ⟨ho, hx⟩ | ⟨ho, hx⟩
      · rw [if_pos ho, hv]
        rcases hx with hx | hx | hx
        · exact .inl hx
        · exact .inr (.inl hx)
        · exact .inr (.inr ⟨rfl, hx⟩)
      · rw [if_neg (by rw [ho]; simp), hv]; exact hx
  | kcsWrite reg v rc =>
    cases reg <;> simp only [Lpc.access] at ha <;> split at ha <;> first | (rename_i hc; exact hc) | cases ha
  | lpcWrite off bs rc => exact (A1 _ _ _ rfl).1
  | lpcRead off bs rc =>
    obtain ⟨h0, -, hv⟩ := A2 _ _ _ rfl
    refine ⟨h0, ?_, fun htodo => ⟨?_, ?_⟩⟩
    · intro e rest htodo bs' rc' he hl
      subst he
      rcases J.st with S | S
      · rcases S.at_ with ⟨_, _, _, _, _, hx, _⟩ | ⟨_, _, _, ⟨_, hx, _⟩ | ⟨_, hx, _⟩ | ⟨_, hx, _⟩⟩
        · rw [htodo] at hx; cases hx
        · rw [htodo] at hx; cases hx
        · rw [htodo] at hx
          generalize hreg : region h.win 0 32 = rg at hx
          cases hx <;> exact hdr_read hl rfl hv hreg
        · rw [htodo] at hx; cases hx
      · rcases S.t0 with hx | ⟨hx, ho, _⟩
        · rw [htodo] at hx; cases hx
        · rw [htodo] at hx
          have := (S.at_.unique (S.yes ho)).1
          cases hx; exact hdr_read hl rfl hv this
    · intro ho hl hf
      rw [ho, hl, region_version] at hv
      rcases J.st with S | S
      · refine .inr ⟨S.to, ?_⟩
        rcases S.at_ with ⟨_, _, _, _, _, _, hx⟩ | ⟨_, _, _, ⟨_, _, hx, _⟩ | ⟨_, _, hx, _⟩ | ⟨_, _, _, _, hx⟩⟩
        · rw [hf] at hx; cases hx
        · rw [hf] at hx; cases hx
        · rw [hf] at hx; cases hx
        · rw [hv, hx]; rfl
      · rcases S.at_.version with ⟨hx, _⟩ | ⟨hx, _⟩
        · cases hop : t.opened
          · exact .inr ⟨rfl, hv.trans hx⟩
          · have := (S.at_.unique (S.yes hop)).1
            exact .inl (by rw [hv, this]; rfl)
        · exact .inl (hv.trans hx)
    · intro hb ho hl
      rw [hl] at hv
      rw [hv, ho]
      exact J.dirB.lenFits hb

theorem joint_quietH {B H : Nat} {h h' : Lpc} {b t t' : Fine} (hH : 4 ≤ H) (J : Joint B H h b t)
    (ht : t'.w.tx = t.w.tx ∧ t'.w.rx = t.w.rx ∧ t'.rxp = t.rxp ∧ t'.sent = t.sent ∧ t'.got = t.got ∧ t'.lenB = t.lenB)
    (hw : ∀ i, 256 ≤ i → h'.win i = h.win i)
    (ho : ∀ c : Byte, c = 1 ∨ c = 2 → (outReg h' = some c ↔ outReg h = some c))
    (hi : ∀ c : Byte, c = 1 ∨ c = 2 → (inReg h' = some c ↔ inReg h = some c))
    (hns : t'.opened = false → t'.stale = false)
    (hf : Flags h' b t') (hs : StA B H h' b t' ∨ StB B H h' b t') : Joint B H h' b t' := by
  obtain ⟨b1, b2, b3, b4, b5, b6⟩ := ht
  exact ⟨J.dirB.neutral hH (fun i h1 _ => hw i h1) (ho 1 (.inl rfl)) (hi 2 (.inr rfl)) ⟨rfl, rfl, rfl⟩ ⟨b3, b5⟩,
    J.dirH.neutral hH (fun i h1 _ => hw i (by omega)) (hi 1 (.inl rfl)) (ho 2 (.inr rfl)) ⟨b1, b4, b6⟩ ⟨rfl, rfl⟩,
    J.cohB, by rw [b2, b3]; exact J.cohT, J.bs, hns, hf, hs⟩

/-- The host reads the status. -/
theorem Flags.hostStatus {h : Lpc} {b t t' : Fine} {rc : Int} (f : Flags h b t)
    (hl : t'.w.last = some (.kcsRead .status rc h.shown)) (hst : t'.stat = h.shown) (h6 : h.status.getLsbD 6 = true → h.status = 0xc1)
    (hx : h.obf = true → t'.opened = true → t'.stale = true → h.status = 0xc1) : Flags h b t' := by
  have ti : t'.w.sawInput .host = true → h.obf = true := fun hh => by
    unfold Watch.sawInput at hh
    rw [hl] at hh
    simp only [Bool.and_eq_true] at hh
    rw [← (shown_bits h).1]; exact hh.2
  refine ⟨f.bi, f.br, ti, fun hh => ?_, fun h1 h2 h3 => ?_, fun hh => ?_⟩
  · unfold Watch.sawRoom at hh
    rw [hl] at hh
    simp only [Bool.and_eq_true, Bool.not_eq_true'] at hh
    rw [← (shown_bits h).2.1]; exact hh.2
  · rw [hst, (shown_bits h).2.2.1, hx (ti h1) h2 h3]; rfl
  · rw [hst, (shown_bits h).2.2.1] at hh; exact h6 hh

theorem status6 {h : Lpc} (hs : h.status = 0 ∨ h.status = 0x80 ∨ h.status = 0xc1) : h.status.getLsbD 6 = true → h.status = 0xc1 := by
  intro hh
  rcases hs with e | e | e
  · rw [e] at hh; exact absurd hh (by decide)
  · rw [e] at hh; exact absurd hh (by decide)
  · exact e

/-- The host before the BMC initialises the channel. -/
theorem joint_host_start {wr : Bool} {B H : Nat} {h h' : Lpc} {b t t' : Fine} {a : Access} (hH : 4 ≤ H) (J : Joint B H h b t)
    (S : StA B H h b t) (ha : h.access wr .host a = some h') (hs : t.step (cfgH B H) a = some t') :
    Joint B H h' b t' := by
  obtain ⟨A1, A2, A3, A4, A6⟩ := access_host ha
  have htx := S.tx
  have hto := S.to
  have hrx : t.w.rx = false := by rw [J.cohT, htx.2]; rfl
  have hns := J.ns hto
  have hsv : h.status = 0 ∨ h.status = 0x80 ∨ h.status = 0xc1 := by
    rcases S.at_ with ⟨_, e, _⟩ | ⟨_, e, _⟩
    · exact .inl e
    · exact .inr (.inl e)
  unfold Fine.step at hs
  split at hs
  · cases hs
  rename_i w hw
  by_cases hn : t.todo = []
  · -- nothing scripted
    rw [hn] at hs
    simp only [Fine.free.eq_def] at hs
    cases a with
    | kcsRead reg rc v =>
      cases reg with
      | status =>
        obtain ⟨h0, rfl, hv⟩ := A3 _ _ rfl
        have hw' : w = { t.w with last := some (.kcsRead .status rc v) } := by
          simp [Watch.step] at hw; exact hw.symm
        simp only at hs
        by_cases hst : t.started = true
        · rw [if_pos hst] at hs
          split at hs
          · cases hs
          · simp only [Option.some.injEq] at hs
            subst hw' hs hv
            refine joint_quietH hH J ⟨rfl, rfl, rfl, rfl, rfl, rfl⟩ (fun _ _ => rfl) (fun _ _ => Iff.rfl) (fun _ _ => Iff.rfl)
              J.ns (J.fl.hostStatus rfl rfl (status6 hsv) (fun _ hh => by rw [hto] at hh; cases hh)) (.inl ?_)
            obtain ⟨y1, y2, y3, y4, y5⟩ := S
            exact ⟨y1, y2, y3, y4, y5⟩
        · rw [if_neg hst] at hs
          simp only [Option.some.injEq] at hs
          subst hw' hs hv
          refine joint_quietH hH J ⟨rfl, rfl, rfl, rfl, rfl, rfl⟩ (fun _ _ => rfl) (fun _ _ => Iff.rfl) (fun _ _ => Iff.rfl)
            J.ns (J.fl.hostStatus rfl rfl (status6 hsv) (fun _ hh => by rw [hto] at hh; cases hh)) (.inl ?_)
          obtain ⟨y1, y2, y3, y4, y5⟩ := S
          refine ⟨y1, y2, y3, y4, ?_⟩
          rw [(shown_bits h').2.2.2]
          rcases y5 with ⟨z1, z2, z3, z4, z5, z6, z7⟩ | ⟨z1, z2, z3, z4⟩
          · refine .inl ⟨z1, z2, z3, z4, ?_, ?_, z7⟩
            · rw [z2]; rfl
            · rw [z2]; rfl
          · refine .inr ⟨z1, z2, z3, ?_⟩
            rcases z4 with ⟨q1, q2, q3, q4, q5⟩ | ⟨q1, _⟩ | ⟨q1, _⟩
            · refine .inr (.inl ⟨?_, ?_, q3, q4⟩)
              · rw [z2]; rfl
              · rw [z2, q5]; exact .s0
            · exact absurd q1 hst
            · exact absurd q1 hst
      | data =>
        obtain ⟨h0, rfl, hv⟩ := A4 _ _ rfl
        have hsaw : t.w.sawInput .host = true := by
          cases hh : t.w.sawInput .host
          · simp [Watch.step, hh, cfgH] at hw
          · rfl
        have hobf := J.fl.ti hsaw
        simp only at hs
        split at hs
        · rename_i hsf
          rw [if_neg (by rw [hto]; simp)] at hs
          simp only [cfgH, Option.some.injEq] at hs
          rcases joint_odr J hsf.1 hsf.2 hobf with ⟨hx, _⟩ | ⟨_, hx⟩
          · rw [hto] at hx; cases hx
          have hv1 : v = 255 := hv.trans hx
          have hw' : w = { t.w with last := some (.kcsRead .data rc v) } := by
            simp [Watch.step, hsaw, cfgH, hv1] at hw; rw [hv1]; exact hw.symm
          subst hw' hs
          refine joint_quietH hH J ⟨rfl, rfl, rfl, rfl, rfl, rfl⟩ (fun _ _ => rfl)
            (fun c hc => by rw [out_none rfl, out_of hobf, hx]; rcases hc with rfl | rfl <;> simp) (fun _ _ => Iff.rfl)
            J.ns (J.fl.host rfl trivial id (fun _ => rfl) rfl rfl) (.inl ?_)
          obtain ⟨y1, y2, y3, y4, y5⟩ := S
          refine ⟨y1, y2, y3, y4, ?_⟩
          rcases y5 with ⟨_, _, z3, _⟩ | ⟨z1, z2, z3, z4⟩
          · rw [hobf] at z3; cases z3
          rcases z1 with ⟨_, z1, _⟩ | z1
          · rw [hobf] at z1; cases z1
          refine .inr ⟨.inr z1, z2, fun _ => rfl, ?_⟩
          rcases z4 with ⟨q1, _⟩ | ⟨q1, q2, q3, q4⟩ | ⟨q1, q2, q3, q4, q5⟩
          · rw [hsf.1] at q1; cases q1
          · rw [hn] at q2
            generalize region h.win 0 32 = rg at q2
            cases q2
          · exact .inr (.inr ⟨q1, q2, q3, q4, q5⟩)
        · cases hs
    | kcsWrite reg v rc =>
      cases reg with
      | status => cases hs
      | data =>
        simp only [hto, Bool.false_eq_true, false_and, if_false] at hs
        split at hs
        · cases hs
        · split at hs <;> cases hs
    | lpcWrite off bs rc =>
      simp only [hto, Bool.false_eq_true, false_and, if_false] at hs
      cases hs
    | lpcRead off bs rc =>
      obtain ⟨h0, rfl, hv⟩ := A2 _ _ _ rfl
      simp only at hs
      by_cases ho : off = 12
      · rw [if_pos ho] at hs
        split at hs
        · rename_i hc
          obtain ⟨hfin, -, hl⟩ := hc
          have hreg : t.started = true ∧ h'.ibf = true ∧ h'.idr = 0 ∧ region h'.win 0 32 = hdr1 B H := by
            rcases S.at_ with ⟨_, _, _, _, _, _, hx⟩ | ⟨_, _, _, ⟨_, _, hx, _⟩ | ⟨_, _, hx, _⟩ | ⟨hx, _, h2, h3, h4⟩⟩
            · rw [hfin] at hx; cases hx
            · rw [hfin] at hx; cases hx
            · rw [hfin] at hx; cases hx
            · exact ⟨hx, h2, h3, h4⟩
          rw [ho, hl, region_version, hreg.2.2.2] at hv
          have hb0 : bs = be16 0 := hv
          rw [if_neg (by rw [hb0]; decide)] at hs
          simp only [Option.some.injEq] at hs
          have hw' : w = { last := some (.lpcRead off bs rc), tx := .free, rx := false } := by
            simp [Watch.step, ho, hl] at hw; rw [ho]; exact hw.symm
          subst hw' hs
          refine joint_quietH hH J ⟨htx.1.symm, hrx.symm, rfl, rfl, rfl, rfl⟩ (fun _ _ => rfl) (fun _ _ => Iff.rfl) (fun _ _ => Iff.rfl)
            J.ns (J.fl.host rfl trivial id id rfl rfl) (.inl ?_)
          obtain ⟨y1, y2, y3, y4, y5⟩ := S
          refine ⟨y1, y2, y3, ⟨rfl, y4.2⟩, ?_⟩
          rcases y5 with ⟨_, _, _, z3, _⟩ | ⟨z1, z2, z3, z4⟩
          · rw [hreg.2.1] at z3; cases z3
          refine .inr ⟨?_, z2, (fun hh => by cases hh), .inr (.inr ⟨hreg.1, hn, hreg.2⟩)⟩
          rcases z1 with ⟨_, _, z1⟩ | z1
          · rw [hfin] at z1; cases z1
          · exact .inr z1
        · cases hs
      · rw [if_neg ho, htx.2] at hs
        cases hs
  · -- the host starts
    obtain ⟨y1, y2, y3, y4, y5⟩ := S
    rcases y5 with ⟨_, _, _, _, _, hx, _⟩ | ⟨z1, z2, z3, z4⟩
    · exact absurd hx hn
    rcases z4 with ⟨_, hx, _⟩ | ⟨q1, q2, q3, q4⟩ | ⟨_, hx, _⟩
    · exact absurd hx hn
    · generalize htd : t.todo = td at q2
      generalize hreg : region h.win 0 32 = rg at q2
      have z1' : ∀ {o : Bool} {d : Byte}, o = h.obf → d = h.odr → ((b.todo = [.kcsWrite .data 0xff 0] ∧ o = false ∧ t.fin = false) ∨ (b.todo = [] ∧ d = 255)) := by
        intro o d e1 e2; rw [e1, e2]; exact z1
      have read : ∀ {rest}, t.todo = .lpcRead 0 (hdr0 B) 0 :: rest → HostAt B H rest (region h.win 0 32) → Joint B H h' b t' := by
        intro rest htd hat
        rw [htd] at hs
        simp only at hs
        split at hs
        · rename_i hae
          obtain ⟨-, rfl, -⟩ := A2 _ _ _ hae
          subst hae
          have hw' : w = { t.w with last := some (.lpcRead 0 (hdr0 B) 0) } := by
            have : (hdr0 B).length = 32 := rfl
            simp [Watch.step, this] at hw; exact hw.symm
          subst hw'
          simp only [Option.some.injEq] at hs
          subst hs
          exact joint_quietH hH J ⟨rfl, rfl, rfl, rfl, rfl, rfl⟩ (fun _ _ => rfl) (fun _ _ => Iff.rfl) (fun _ _ => Iff.rfl)
            J.ns (J.fl.host rfl trivial id id rfl rfl) (.inl ⟨y1, y2, y3, y4, .inr ⟨z1, z2, z3, .inr (.inl ⟨q1, hat, q3, q4⟩)⟩⟩)
        · cases hs
      have write : ∀ {rest o bs hd}, t.todo = .lpcWrite o bs 0 :: rest → o + bs.length ≤ 32 → o ≠ 12 →
          (region h.win 0 32).take o ++ bs ++ (region h.win 0 32).drop (o + bs.length) = hd → HostAt B H rest hd → Joint B H h' b t' := by
        intro rest o bs hd htd hob h12 hhd hat
        rw [htd] at hs
        simp only at hs
        split at hs
        · rename_i hae
          obtain ⟨-, rfl⟩ := A1 _ _ _ hae
          subst hae
          have hw' : w = { t.w with last := some (.lpcWrite o bs 0) } := by
            simp [Watch.step, hob, h12] at hw; exact hw.symm
          subst hw'
          simp only [Option.some.injEq] at hs
          subst hs
          refine joint_quietH hH J ⟨rfl, rfl, rfl, rfl, rfl, rfl⟩ (poke_low (by omega)) (fun _ _ => Iff.rfl) (fun _ _ => Iff.rfl)
            J.ns (J.fl.host rfl trivial id id rfl rfl) (.inl ⟨y1, y2, y3, y4, .inr ⟨z1, z2, z3, .inr (.inl ⟨q1, ?_, q3, q4⟩)⟩⟩)
          show HostAt B H rest (region (poke h.win o bs) 0 32)
          rw [hdr_poke hob rfl, hhd]; exact hat
        · cases hs
      cases q2 with
      | s0 => exact read htd (by rw [hreg]; exact .s1)
      | s1 => exact read htd (by rw [hreg]; exact .s2)
      | s2 => exact write htd (by show 20 + 4 ≤ 32; omega) (by decide) (by rw [hreg]; rfl) .s3
      | s3 => exact write htd (by show 8 + 2 ≤ 32; omega) (by decide) (by rw [hreg]; rfl) .s4
      | s4 => exact write htd (by show 10 + 2 ≤ 32; omega) (by decide) (by rw [hreg]; rfl) .s5
      | s5 =>
        rw [htd] at hs
        simp only at hs
        split at hs
        · rename_i hae
          obtain ⟨-, rfl⟩ := A6 _ _ hae
          subst hae
          have hw' : w = { t.w with last := some (.kcsWrite .data 0 0) } := by
            simp [Watch.step, cfgH] at hw; exact hw.symm
          subst hw'
          simp only [Option.some.injEq] at hs
          subst hs
          exact joint_quietH hH J ⟨rfl, rfl, rfl, rfl, rfl, rfl⟩ (fun _ _ => rfl) (fun _ _ => Iff.rfl)
            (fun c hc => by rw [in_none q4, in_of rfl]; rcases hc with rfl | rfl <;> simp)
            J.ns (J.fl.host rfl trivial (fun _ => rfl) id rfl rfl) (.inl ⟨y1, y2, y3, y4, .inr ⟨z1, z2, z3, .inr (.inr ⟨q1, rfl, rfl, rfl, hreg⟩)⟩⟩)
        · cases hs
    · exact absurd hx hn

/-- Reads and writes of the buffers by the host. -/
theorem StB.steadyH {B H : Nat} {h h' : Lpc} {b t t' : Fine} (S : StB B H h b t)
    (h1 : t'.opened = t.opened ∧ t'.stale = t.stale ∧ t'.started = t.started ∧ t'.fin = t.fin ∧ t'.stat = t.stat ∧ t'.todo = t.todo)
    (ho : t.opened = true) (h2 : t.stale = true → t'.w.tx = t.w.tx) (h3 : t.stale = true → (t'.rxp = .away ↔ t.rxp = .away))
    (h4 : region h'.win 0 32 = region h.win 0 32) (h5 : h'.status = h.status ∧ h'.ibf = h.ibf ∧ h'.obf = h.obf ∧ h'.idr = h.idr ∧ h'.odr = h.odr) :
    StB B H h' b t' := by
  obtain ⟨bo, ts, hat, hb1, r1, r2, t0, no, yes, act, st, sr⟩ := S
  obtain ⟨a1, a2, a3, a4, a5, a6⟩ := h1
  obtain ⟨c1, c2, c3, c4, c5⟩ := h5
  refine ⟨bo, a3.trans ts, by rw [h4, c1]; exact hat, by rw [c5]; exact hb1, by rw [c3, c5]; exact r1, by rw [c2, c4]; exact r2,
    by rw [a6, a1, a4]; exact t0, (fun hh => by rw [a1, ho] at hh; cases hh), by rw [a1, c1]; exact yes, by rw [a1, a2, a4, c1]; exact act, ?_, ?_⟩
  · rw [a1, a2, a4, a5, c1, c2, c3, c4]
    intro e1 e2
    rw [h2 e2, h3 e2]; exact st e1 e2
  · rw [a1, a2, a4]
    intro e1 e2
    rw [ne_eq, h3 e2]; exact sr e1 e2

/-- The host once the BMC initialises the channel. -/
theorem joint_host_open {wr : Bool} {B H : Nat} {h h' : Lpc} {b t t' : Fine} {a : Access} (hH : 4 ≤ H) (hHB : H ≤ B) (J : Joint B H h b t)
    (S : StB B H h b t) (ha : h.access wr .host a = some h') (hs : t.step (cfgH B H) a = some t') :
    Joint B H h' b t' := by
  obtain ⟨A1, A2, A3, A4, A6⟩ := access_host ha
  have hts := S.ts
  have hsv : h.status = 0 ∨ h.status = 0x80 ∨ h.status = 0xc1 := .inr S.at_.status
  unfold Fine.step at hs
  split at hs
  · cases hs
  rename_i w hw
  by_cases hn : t.todo = []
  · rw [hn] at hs
    simp only [Fine.free.eq_def] at hs
    cases a with
    | kcsRead reg rc v =>
      cases reg with
      | status =>
        obtain ⟨h0, rfl, hv⟩ := A3 _ _ rfl
        have hw' : w = { t.w with last := some (.kcsRead .status rc v) } := by
          simp [Watch.step] at hw; exact hw.symm
        simp only at hs
        rw [if_pos hts] at hs
        split at hs
        · cases hs
        simp only [Option.some.injEq] at hs
        subst hw' hs hv
        refine joint_quietH hH J ⟨rfl, rfl, rfl, rfl, rfl, rfl⟩ (fun _ _ => rfl) (fun _ _ => Iff.rfl) (fun _ _ => Iff.rfl)
          J.ns (J.fl.hostStatus rfl rfl (status6 hsv) (fun h1 h2 h3 => (S.st h2 h3).2.1 h1)) (.inr ?_)
        obtain ⟨bo, ts, hat, hb1, r1, r2, t0, no, yes, act, st, sr⟩ := S
        refine ⟨bo, ts, hat, hb1, r1, r2, t0, no, yes, act, fun e1 e2 => ?_, sr⟩
        obtain ⟨s1, s2, s3, s4⟩ := st e1 e2
        refine ⟨s1, s2, fun e3 => ?_, s4⟩
        show h'.shown.getLsbD 6 = true
        rw [(shown_bits h').2.2.1, J.fl.s6 (s3 e3)]; rfl
      | data =>
        obtain ⟨h0, rfl, hv⟩ := A4 _ _ rfl
        have hsaw : t.w.sawInput .host = true := by
          cases hh : t.w.sawInput .host
          · simp [Watch.step, hh, cfgH] at hw
          · rfl
        have hobf := J.fl.ti hsaw
        simp only at hs
        split at hs
        · rename_i hsf
          obtain ⟨bo, ts, hat, hb1, r1, r2, t0, no, yes, act, st, sr⟩ := S
          have hout := out_of hobf
          have hno : outReg { h with obf := false } = none := out_none rfl
          rcases joint_odr J hsf.1 hsf.2 hobf with ⟨hop, hx⟩ | ⟨hop, hx⟩
          · rw [if_pos hop] at hs
            -- the state of the handshake
            have hB : ∀ t' : Fine, t'.opened = t.opened → t'.stale = t.stale → t'.started = t.started → t'.fin = t.stale → t'.stat = t.stat →
                t'.todo = t.todo → (t.stale = true → t'.w.tx = t.w.tx) → StB B H { h with obf := false } b t' := by
              intro t' e1 e2 e3 e4 e5 e6 e7
              refine ⟨bo, e3.trans ts, hat, hb1, (fun hh => by cases hh), r2, .inl (e6.trans hn), (fun hh => by rw [e1, hop] at hh; cases hh),
                fun _ => yes hop, fun _ hh => ⟨?_, ?_⟩, fun _ hh => ?_, fun _ hh _ => ?_⟩
              · rw [e4, ← e2]; exact hh
              · exact (act hop (e2 ▸ hh)).2
              · obtain ⟨s1, s2, s3, s4⟩ := st hop (e2 ▸ hh)
                refine ⟨by rw [e7 (e2 ▸ hh)]; exact s1, (fun hh => by cases hh), fun _ => by rw [e5]; exact J.fl.t6 hsaw hop (e2 ▸ hh), .inl ?_⟩
                rcases s4 with s4 | ⟨s4, _⟩
                · exact s4
                · rw [hsf.2] at s4; cases s4
              · rw [e4, ← e2]; exact hh
            rcases hx with ⟨hi, hra⟩ | ⟨hi, htxh⟩ | hi
            · have hv1 : v = 1 := hv.trans hi
              have hw' : w = { t.w with last := some (.kcsRead .data rc v), rx := true } := by
                simp [Watch.step, hsaw, cfgH, hv1, h0] at hw; rw [hv1, h0]; exact hw.symm
              rw [if_pos hv1] at hs
              simp only [Option.some.injEq] at hs
              subst hw' hs
              have hd := (J.dirB.take (r' := { t with rxp := .begun }) (by rw [hout, hi]) ⟨rfl, rfl⟩).2
              exact ⟨hd.neutral hH (fun _ _ _ => rfl) (by rw [hno]) Iff.rfl ⟨rfl, rfl, rfl⟩ ⟨rfl, rfl⟩,
                J.dirH.neutral hH (fun _ _ _ => rfl) Iff.rfl (by rw [hno, hout, hi]; simp) ⟨rfl, rfl, rfl⟩ ⟨rfl, rfl⟩,
                J.cohB, rfl, J.bs, J.ns, J.fl.host rfl trivial id (fun _ => rfl) rfl rfl, .inr (hB _ rfl rfl rfl rfl rfl rfl (fun _ => rfl))⟩
            · have hv1 : v = 2 := hv.trans hi
              have hd := J.dirH.back (s' := { t with w := { t.w with tx := .free } }) (by rw [hout, hi]) ⟨rfl, rfl⟩
              have hw' : w = { t.w with last := some (.kcsRead .data rc v), tx := .free } := by
                simp [Watch.step, hsaw, cfgH, hv1, h0, hd.1] at hw; rw [hv1, h0]; exact hw.symm
              rw [if_neg (by rw [hv1]; decide)] at hs
              simp only [Option.some.injEq] at hs
              subst hw' hs
              exact ⟨J.dirB.neutral hH (fun _ _ _ => rfl) (by rw [hno, hout, hi]; simp) Iff.rfl ⟨rfl, rfl, rfl⟩ ⟨rfl, rfl⟩,
                hd.2.neutral hH (fun _ _ _ => rfl) Iff.rfl (by rw [hno]) ⟨rfl, rfl, rfl⟩ ⟨rfl, rfl⟩,
                J.cohB, J.cohT, J.bs, J.ns, J.fl.host rfl trivial id (fun _ => rfl) rfl rfl, .inr (hB _ rfl rfl rfl rfl rfl rfl
                  (fun hh => by have := (st hop hh).1; rw [htxh] at this; cases this))⟩
            · have hv1 : v = 255 := hv.trans hi
              have hw' : w = { t.w with last := some (.kcsRead .data rc v) } := by
                simp [Watch.step, hsaw, cfgH, hv1] at hw; rw [hv1]; exact hw.symm
              rw [if_neg (by rw [hv1]; decide)] at hs
              simp only [Option.some.injEq] at hs
              subst hw' hs
              exact joint_quietH hH J ⟨rfl, rfl, rfl, rfl, rfl, rfl⟩ (fun _ _ => rfl)
                (fun c hc => by rw [hno, hout, hi]; rcases hc with rfl | rfl <;> simp) (fun _ _ => Iff.rfl)
                J.ns (J.fl.host rfl trivial id (fun _ => rfl) rfl rfl) (.inr (hB _ rfl rfl rfl rfl rfl rfl (fun _ => rfl)))
          · rw [if_neg (by rw [hop]; simp)] at hs
            simp only [cfgH, Option.some.injEq] at hs
            have hv1 : v = 255 := hv.trans hx
            have hw' : w = { t.w with last := some (.kcsRead .data rc v) } := by
              simp [Watch.step, hsaw, cfgH, hv1] at hw; rw [hv1]; exact hw.symm
            subst hw' hs
            obtain ⟨n1, n2, n3, n4, n5⟩ := no hop
            refine joint_quietH hH J ⟨rfl, rfl, rfl, rfl, rfl, rfl⟩ (fun _ _ => rfl)
              (fun c hc => by rw [hno, hout, hx]; rcases hc with rfl | rfl <;> simp) (fun _ _ => Iff.rfl)
              J.ns (J.fl.host rfl trivial id (fun _ => rfl) rfl rfl) (.inr ?_)
            exact ⟨bo, ts, hat, hb1, (fun hh => by cases hh), r2, .inl hn, fun _ => ⟨n1, n2, n3, fun _ => .inr rfl, (fun _ hh => by cases hh)⟩,
              (fun hh => by have hh : t.opened = true := hh; rw [hop] at hh; cases hh),
              (fun hh => by have hh : t.opened = true := hh; rw [hop] at hh; cases hh),
              (fun hh => by have hh : t.opened = true := hh; rw [hop] at hh; cases hh),
              (fun hh => by have hh : t.opened = true := hh; rw [hop] at hh; cases hh)⟩
        · cases hs
    | kcsWrite reg v rc =>
      cases reg with
      | status => cases hs
      | data =>
        obtain ⟨h0, rfl⟩ := A6 _ _ rfl
        obtain ⟨bo, ts, hat, hb1, r1, r2, t0, no, yes, act, st, sr⟩ := S
        simp only at hs
        by_cases hv : v = 1
        · rw [if_pos hv] at hs
          split at hs
          · rename_i ho
            simp only [Option.some.injEq] at hs
            have hrm : t.w.sawRoom .host = true ∧ t.w.tx = .full := by
              rw [hv] at hw; exact Watch.step_begin hw
            have hw' : w = { t.w with last := some (.kcsWrite .data v rc), tx := .handed } := by
              simp [Watch.step, cfgH, hv, h0, hrm] at hw; rw [hv, h0]; exact hw.symm
            subst hw' hs
            have hib := J.fl.tr hrm.1
            refine ⟨J.dirB.neutral hH (fun _ _ _ => rfl) Iff.rfl (by rw [in_none hib, in_of rfl]; show some v = _ ↔ _; rw [hv]; simp) ⟨rfl, rfl, rfl⟩ ⟨rfl, rfl⟩,
              by rw [in_of rfl]; show Dir _ _ _ (some v) _ _ _; rw [hv]; exact J.dirH.announce hrm.2 ⟨rfl, rfl⟩,
              J.cohB, J.cohT, J.bs, J.ns, J.fl.host rfl trivial (fun _ => rfl) id rfl rfl, .inr ?_⟩
            exact ⟨bo, ts, hat, hb1, r1, fun _ => .inl hv, t0, (fun hh => by have hh : t.opened = false := hh; rw [ho.1] at hh; cases hh), yes, act,
              (fun _ hh => by have hh : t.stale = true := hh; rw [ho.2] at hh; cases hh), sr⟩
          · cases hs
        · rw [if_neg hv] at hs
          by_cases hv2 : v = 2
          · rw [if_pos hv2] at hs
            split at hs
            · rename_i ho
              simp only [Option.some.injEq] at hs
              have hrm : t.w.sawRoom .host = true ∧ t.w.rx = true := by
                rw [hv2] at hw; exact Watch.step_complete hw
              have hw' : w = { t.w with last := some (.kcsWrite .data v rc), rx := false } := by
                simp [Watch.step, cfgH, hv2, h0, hrm] at hw; rw [hv2, h0]; exact hw.symm
              subst hw' hs
              have hib := J.fl.tr hrm.1
              refine ⟨by rw [in_of rfl]; show Dir _ _ _ _ (some v) _ _; rw [hv2]; exact J.dirB.handBack ho.2 ⟨rfl, rfl⟩,
                J.dirH.neutral hH (fun _ _ _ => rfl) (by rw [in_none hib, in_of rfl]; show some v = _ ↔ _; rw [hv2]; simp) Iff.rfl ⟨rfl, rfl, rfl⟩ ⟨rfl, rfl⟩,
                J.cohB, rfl, J.bs, J.ns, J.fl.host rfl trivial (fun _ => rfl) id rfl rfl, .inr ?_⟩
              refine ⟨bo, ts, hat, hb1, r1, fun _ => .inr hv2, t0, (fun hh => by have hh : t.opened = false := hh; rw [ho.1] at hh; cases hh), yes, act,
                fun e1 e2 => ?_, fun _ _ hh => absurd rfl hh⟩
              obtain ⟨s1, s2, s3, _⟩ := st e1 e2
              exact ⟨s1, s2, s3, .inr ⟨sr e1 e2 (by rw [ho.2]; simp), rfl, hv2⟩⟩
            · cases hs
          · rw [if_neg hv2] at hs; cases hs
    | lpcRead off bs rc =>
      obtain ⟨h0, rfl, hb⟩ := A2 _ _ _ rfl
      simp only at hs
      by_cases ho : off = 12
      · rw [if_pos ho] at hs
        split at hs
        · rename_i hc
          obtain ⟨hfin, haw, hl⟩ := hc
          have hrx : t.w.rx = false := by rw [J.cohT, haw]; rfl
          have hw' : w = { last := some (.lpcRead off bs rc), tx := .free, rx := false } := by
            simp [Watch.step, ho, hl] at hw; rw [ho]; exact hw.symm
          rw [ho, hl, region_version] at hb
          have htx : t.w.tx = .free := by
            cases hop : t.opened
            · exact (S.no hop).1
            · cases hst : t.stale
              · have := (S.act hop hst).1; rw [hfin] at this; cases this
              · exact (S.st hop hst).1
          have hver : (bs = be16 0 ∧ b.todo ≠ [] ∧ t.opened = false) ∨ (bs = be16 3 ∧ region h'.win 0 32 = hdr2 B H) := by
            rcases S.at_.version with ⟨e1, e2⟩ | ⟨e1, e2⟩
            · cases hop : t.opened
              · exact .inl ⟨hb.trans e1, e2, rfl⟩
              · have := (S.at_.unique (S.yes hop)).1
                exact .inr ⟨by rw [hb, this]; rfl, this⟩
            · exact .inr ⟨hb.trans e1, e2⟩
          obtain ⟨bo, ts, hat, hb1, r1, r2, t0, no, yes, act, st, sr⟩ := S
          split at hs
          · rename_i hb3
            simp only [Option.some.injEq] at hs
            subst hw' hs
            have hreg : region h'.win 0 32 = hdr2 B H := by
              rcases hver with ⟨e, _⟩ | ⟨_, e⟩
              · rw [e] at hb3; exact absurd hb3 (by decide)
              · exact e
            refine joint_quietH hH J ⟨htx.symm, hrx.symm, rfl, rfl, rfl, rfl⟩ (fun _ _ => rfl) (fun _ _ => Iff.rfl) (fun _ _ => Iff.rfl)
              (fun hh => by cases hh) (J.fl.host rfl trivial id id rfl rfl) (.inr ?_)
            refine ⟨bo, ts, hat, hb1, r1, r2, .inr ⟨rfl, rfl, rfl⟩, (fun hh => by cases hh), fun _ => by rw [← hreg]; exact hat, fun _ hh => ⟨rfl, ?_⟩,
              fun _ hh => ⟨rfl, ?_, (fun hh => by cases hh), .inl ?_⟩, fun _ _ hh => absurd haw hh⟩
            · have hh : (!t.stat.getLsbD 6) = false := hh
              exact J.fl.s6 (by simpa using hh)
            · intro hobf
              cases hop : t.opened
              · exact (no hop).2.2.2.2 hfin hobf
              · cases hst : t.stale
                · have := (act hop hst).1; rw [hfin] at this; cases this
                · exact (st hop hst).2.1 hobf
            · have hh : (!t.stat.getLsbD 6) = true := hh
              cases hop : t.opened
              · exact (no hop).2.2.1
              · cases hst : t.stale
                · have := (act hop hst).1; rw [hfin] at this; cases this
                · rw [(st hop hst).2.2.1 hfin] at hh; cases hh
          · rename_i hb3
            simp only [Option.some.injEq] at hs
            subst hw' hs
            obtain ⟨-, hbt, hop⟩ : bs = be16 0 ∧ b.todo ≠ [] ∧ t.opened = false := by
              rcases hver with e | ⟨e, _⟩
              · exact e
              · exact absurd e hb3
            refine joint_quietH hH J ⟨htx.symm, hrx.symm, rfl, rfl, rfl, rfl⟩ (fun _ _ => rfl) (fun _ _ => Iff.rfl) (fun _ _ => Iff.rfl)
              J.ns (J.fl.host rfl trivial id id rfl rfl) (.inr ?_)
            obtain ⟨n1, n2, n3, n4, n5⟩ := no hop
            exact ⟨bo, ts, hat, hb1, r1, r2, .inl hn, fun _ => ⟨rfl, n2, n3, fun hh => absurd hh hbt, (fun hh => by cases hh)⟩,
              (fun hh => by have hh : t.opened = true := hh; rw [hop] at hh; cases hh),
              (fun hh => by have hh : t.opened = true := hh; rw [hop] at hh; cases hh),
              (fun hh => by have hh : t.opened = true := hh; rw [hop] at hh; cases hh),
              (fun hh => by have hh : t.opened = true := hh; rw [hop] at hh; cases hh)⟩
        · cases hs
      · rw [if_neg ho] at hs
        have hopen : t.rxp ≠ .away → t.opened = true := by
          intro hh
          cases hop : t.opened
          · exact absurd (S.no hop).2.1 hh
          · rfl
        split at hs
        · rename_i hr
          split at hs
          · rename_i hc
            simp only [Option.some.injEq] at hs
            have ho : off = 256 := hc.1
            have hw' : w = { t.w with last := some (.lpcRead off bs rc) } := by
              have hrx : t.w.rx = true := by rw [J.cohT, hr]; rfl
              have : ¬ (off + bs.length ≤ 32) := by omega
              simp only [Watch.step] at hw; rw [if_neg this, if_pos hrx] at hw; simpa using hw.symm
            subst hw' hs
            rw [hc.2, ho] at hb
            exact ⟨J.dirB.readLen hr hb ⟨rfl, rfl⟩,
              J.dirH.neutral hH (fun _ _ _ => rfl) Iff.rfl Iff.rfl ⟨rfl, rfl, rfl⟩ ⟨rfl, rfl⟩,
              J.cohB, by show t.w.rx = _; rw [J.cohT, hr]; rfl, J.bs, J.ns, J.fl.host rfl trivial id id rfl rfl,
              .inr (S.steadyH ⟨rfl, rfl, rfl, rfl, rfl, rfl⟩ (hopen (by rw [hr]; simp)) (fun _ => rfl) (fun _ => by rw [hr]; simp) rfl ⟨rfl, rfl, rfl, rfl, rfl⟩)⟩
          · cases hs
        · rename_i n hr
          split at hs
          · rename_i hc
            simp only [Option.some.injEq] at hs
            have ho : off = 256 + 4 := hc.1
            have hw' : w = { t.w with last := some (.lpcRead off bs rc) } := by
              have hrx : t.w.rx = true := by rw [J.cohT, hr]; rfl
              have : ¬ (off + bs.length ≤ 32) := by omega
              simp only [Watch.step] at hw; rw [if_neg this, if_pos hrx] at hw; simpa using hw.symm
            subst hw' hs
            rw [ho] at hb
            exact ⟨J.dirB.readBody hr hb hc.2 ⟨rfl, rfl⟩,
              J.dirH.neutral hH (fun _ _ _ => rfl) Iff.rfl Iff.rfl ⟨rfl, rfl, rfl⟩ ⟨rfl, rfl⟩,
              J.cohB, by show t.w.rx = _; rw [J.cohT, hr]; rfl, J.bs, J.ns, J.fl.host rfl trivial id id rfl rfl,
              .inr (S.steadyH ⟨rfl, rfl, rfl, rfl, rfl, rfl⟩ (hopen (by rw [hr]; simp)) (fun _ => rfl) (fun _ => by rw [hr]; simp) rfl ⟨rfl, rfl, rfl, rfl, rfl⟩)⟩
          · cases hs
        · cases hs
    | lpcWrite off bs rc =>
      obtain ⟨h0, rfl⟩ := A1 _ _ _ rfl
      simp only at hs
      split at hs
      · rename_i hop
        have hreg : ∀ {o : Nat} {l : List Byte}, 256 ≤ o → region (poke h.win o l) 0 32 = region h.win 0 32 :=
          fun ho => region_poke_apart (by omega)
        split at hs
        · rename_i hc
          obtain ⟨ho, hl, hf⟩ := hc
          have ho : off = 256 + B := ho
          simp only [Option.some.injEq] at hs
          have hw' : w = { t.w with last := some (.lpcWrite off bs rc), tx := .half } := by
            have : ¬ (off + bs.length ≤ 32) := by omega
            simp [Watch.step, this, hf] at hw; exact hw.symm
          subst hw' hs ho
          exact ⟨J.dirB.neutral hH (fun i h1 _ => poke_other (by omega)) Iff.rfl Iff.rfl ⟨rfl, rfl, rfl⟩ ⟨rfl, rfl⟩,
            J.dirH.writeLen hf hl ⟨rfl, rfl, rfl⟩,
            J.cohB, J.cohT, J.bs, J.ns, J.fl.host rfl trivial id id rfl rfl,
            .inr (S.steadyH ⟨rfl, rfl, rfl, rfl, rfl, rfl⟩ hop.1 (fun hh => by rw [hop.2] at hh; cases hh) (fun _ => Iff.rfl) (hreg (by omega)) ⟨rfl, rfl, rfl, rfl, rfl⟩)⟩
        · split at hs
          · rename_i hc
            obtain ⟨ho, hf, hl, hz⟩ := hc
            have ho : off = 256 + B + 4 := ho
            have hz : bs.length + 4 ≤ H := hz
            simp only [Option.some.injEq] at hs
            have hw' : w = { t.w with last := some (.lpcWrite off bs rc), tx := .full } := by
              have : ¬ (off + bs.length ≤ 32) := by omega
              simp [Watch.step, this, hf] at hw; exact hw.symm
            subst hw' hs ho
            exact ⟨J.dirB.neutral hH (fun i h1 _ => poke_other (by omega)) Iff.rfl Iff.rfl ⟨rfl, rfl, rfl⟩ ⟨rfl, rfl⟩,
              J.dirH.writeBody hf ⟨hl, hz⟩ ⟨rfl, rfl⟩,
              J.cohB, J.cohT, J.bs, J.ns, J.fl.host rfl trivial id id rfl rfl,
              .inr (S.steadyH ⟨rfl, rfl, rfl, rfl, rfl, rfl⟩ hop.1 (fun hh => by rw [hop.2] at hh; cases hh) (fun _ => Iff.rfl) (hreg (by omega)) ⟨rfl, rfl, rfl, rfl, rfl⟩)⟩
          · cases hs
      · cases hs
  · rcases S.t0 with hx | ⟨hx, hop, hfin⟩
    · exact absurd hx hn
    rw [hx] at hs
    simp only at hs
    split at hs
    · rename_i hae
      obtain ⟨-, rfl, -⟩ := A2 _ _ _ hae
      subst hae
      have hw' : w = { t.w with last := some (.lpcRead 0 (hdr2 B H) 0) } := by
        have : (hdr2 B H).length = 32 := rfl
        simp [Watch.step, this] at hw; exact hw.symm
      subst hw'
      simp only [Option.some.injEq] at hs
      subst hs
      refine joint_quietH hH J ⟨rfl, rfl, rfl, rfl, rfl, rfl⟩ (fun _ _ => rfl) (fun _ _ => Iff.rfl) (fun _ _ => Iff.rfl)
        J.ns (J.fl.host rfl trivial id id rfl rfl) (.inr ?_)
      obtain ⟨bo, ts, hat, hb1, r1, r2, t0, no, yes, act, st, sr⟩ := S
      exact ⟨bo, ts, hat, hb1, r1, r2, .inl rfl, no, yes, act, st, sr⟩
    · cases hs

/-- Any access of the host. -/
theorem joint_host {wr : Bool} {B H : Nat} {h h' : Lpc} {b t t' : Fine} {a : Access} (hH : 4 ≤ H) (hHB : H ≤ B) (J : Joint B H h b t)
    (ha : h.access wr .host a = some h') (hs : t.step (cfgH B H) a = some t') : Joint B H h' b t' := by
  rcases J.st with S | S
  · exact joint_host_start hH J S ha hs
  · exact joint_host_open hH hHB J S ha hs

end Mctp
