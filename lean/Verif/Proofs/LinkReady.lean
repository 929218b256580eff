import Verif.Proofs.LinkRun
import Verif.Proofs.AstRun
import Verif.Proofs.AstWrote
import Verif.Proofs.AstPollRx
import Verif.Proofs.AstCmd

/-! The code keeps to the detailed monitor: general rules, and the start of both sides. -/

namespace Mctp

open Spec

variable {E : Type}

/-- The accesses so far are allowed (as long as the other side behaves), and the monitor is in a state with
`P`. -/
def Obeys (g : LinkCfg) (s : AstSt E) (P : Fine → Prop) : Prop := Accepts g (Fine.zero g) s.accs P

theorem Obeys.mono {g : LinkCfg} {s : AstSt E} {P Q : Fine → Prop} (h : Obeys g s P) (hk : ∀ f, P f → Q f) : Obeys g s Q :=
  Accepts.mono hk h

theorem Obeys.congr {g : LinkCfg} {s s' : AstSt E} {P : Fine → Prop} (h : Obeys g s P) (hl : s'.log = s.log) : Obeys g s' P := by
  unfold Obeys AstSt.accs at *; rw [hl]; exact h

theorem Obeys.step {g : LinkCfg} {s s' : AstSt E} {P Q : Fine → Prop} {a : Access} (h : Obeys g s P) (ha : Adds s s' [a])
    (hk : ∀ f, P f → Rely g f a → ∃ f', f.step g a = some f' ∧ Q f') : Obeys g s' Q := by
  unfold Obeys at *
  rw [show s'.accs = s.accs ++ [a] from ha]
  exact h.bind fun f hf hr => hk f hf hr

theorem Accepts.never {g : LinkCfg} {P : Fine → Prop} : ∀ {l : List Access} {f : Fine}, Accepts g f l (fun _ => False) →
    ∀ l', Accepts g f (l ++ l') P
  | [], _, h, _ => h.elim
  | _ :: _, _, h, l' => fun hr => by
    obtain ⟨f', h1, h2⟩ := h hr
    exact ⟨f', h1, h2.never l'⟩

/-- What cannot happen allows everything. -/
theorem Obeys.never {g : LinkCfg} {s s' : AstSt E} {P : Fine → Prop} {l : List Access} (h : Obeys g s (fun _ => False))
    (ha : Adds s s' l) : Obeys g s' P := by
  unfold Obeys at *
  rw [show s'.accs = s.accs ++ l from ha]
  exact Accepts.never h l

/-- The next access of a script. -/
theorem Fine.step_script {g : LinkCfg} {f : Fine} {e : Access} {rest : List Access} {w : Watch} (ht : f.todo = e :: rest)
    (hw : f.w.step g.mode e = some w) : f.step g e = some { f with w := w, todo := rest } := by
  unfold Fine.step
  rw [hw]
  simp only
  rw [ht]
  simp

/-- An access outside the scripts. -/
theorem Fine.step_free {g : LinkCfg} {f : Fine} {a : Access} {w : Watch} (ht : f.todo = [])
    (hw : f.w.step g.mode a = some w) : f.step g a = f.free g w a := by
  unfold Fine.step
  rw [hw]
  simp only
  rw [ht]

/-! ## The header -/

theorem lhdr_fields (hm hc neg s1 o2 s2 : Nat) :
    field16 (lhdr hm hc neg s1 o2 s2) 4 = 1 ∧ field16 (lhdr hm hc neg s1 o2 s2) 6 = 3 ∧
    field16 (lhdr hm hc neg s1 o2 s2) 8 = hm % 2 ^ 16 ∧ field16 (lhdr hm hc neg s1 o2 s2) 10 = hc % 2 ^ 16 ∧
    field32 (lhdr hm hc neg s1 o2 s2) 16 = 256 ∧ field32 (lhdr hm hc neg s1 o2 s2) 20 = u32 s1 ∧
    field32 (lhdr hm hc neg s1 o2 s2) 24 = u32 o2 ∧ field32 (lhdr hm hc neg s1 o2 s2) 28 = u32 s2 := by
  refine ⟨fromBe_be16 1, fromBe_be16 3, ?_, ?_, fromBe_be32 256, ?_, ?_, ?_⟩
  · exact fromBe_be16 hm
  · exact fromBe_be16 hc
  · exact fromBe_be32 s1
  · exact fromBe_be32 o2
  · exact fromBe_be32 s2

/-! ## Starting -/

/-- During the start of a side (`o`: the channel is being opened). -/
def Starting (o : Bool) (todo : List Access) (f : Fine) : Prop :=
  f.todo = todo ∧ f.started = true ∧ f.opened = o ∧ f.stale = false ∧ f.fin = false ∧ f.rxp = .away ∧
    f.w.tx = .free ∧ f.w.rx = false ∧ f.sent = [] ∧ f.got = []

/-- The next scripted access, not to offset 12, with a quiet effect on the coarse monitor. -/
theorem Obeys.start {g : LinkCfg} {o : Bool} {s s' : AstSt E} {P : Fine → Prop} {a e : Access} {rest : List Access} (h : Obeys g s P)
    (hP : ∀ f, P f → Starting o (e :: rest) f) (ha : Adds s s' [a])
    (heq : ∀ f, P f → Rely g f a → a = e)
    (hq : ∀ f, P f → f.w.step g.mode e = some { f.w with last := some e }) :
    Obeys g s' (fun f => Starting o rest f ∧ a = e ∧ (∃ f0, P f0) ∧ f.w.last = some e) := by
  refine h.step ha fun f hf hr => ?_
  have ha' := heq f hf hr
  obtain ⟨h1, h2, h3, h4, h5, h6, h7, h8, h9, h10⟩ := hP f hf
  rw [ha']
  exact ⟨_, Fine.step_script h1 (hq f hf), ⟨rfl, h2, h3, h4, h5, h6, h7, h8, h9, h10⟩, rfl, ⟨f, hf⟩, rfl⟩

theorem step_hdrRead {mode : AstMode} {w : Watch} {bs : List Byte} {rc : Int} (h : bs.length = 32) :
    w.step mode (.lpcRead 0 bs rc) = some { w with last := some (.lpcRead 0 bs rc) } := by
  simp [Watch.step, h]

theorem step_hdrWrite {mode : AstMode} {w : Watch} {off : Nat} {bs : List Byte} {rc : Int} (h : off + bs.length ≤ 32) (hn : off ≠ 12) :
    w.step mode (.lpcWrite off bs rc) = some { w with last := some (.lpcWrite off bs rc) } := by
  simp [Watch.step, h, hn]

theorem rely_read {g : LinkCfg} {f : Fine} {off : Nat} {bs bs' : List Byte} {rc : Int} {rest : List Access}
    (hr : Rely g f (.lpcRead off bs rc)) (ht : f.todo = .lpcRead off bs' 0 :: rest) (hl : bs'.length = bs.length) :
    Access.lpcRead off bs rc = .lpcRead off bs' 0 := by
  obtain ⟨h0, h1, -⟩ := hr
  rw [h1 _ _ ht _ _ rfl hl, h0]

/-- Reading the layout. -/
theorem layoutRead_ok {hw : Hw E} {s s' : AstSt E} {rc : Int} {l : AstLayout} (he : layoutRead hw s = .ok (rc, l, s')) :
    ∃ hdr, hdr.length = 32 ∧ SameSt s s' ∧ Adds s s' [.lpcRead 0 hdr rc] ∧
      l = (match s.mode with
        | .bmc => ⟨⟨field32 hdr 24, field32 hdr 28, .idle⟩, ⟨field32 hdr 16, field32 hdr 20, .idle⟩⟩
        | .host => ⟨⟨field32 hdr 16, field32 hdr 20, .idle⟩, ⟨field32 hdr 24, field32 hdr 28, .idle⟩⟩) := by
  unfold layoutRead at he
  obtain ⟨⟨r, hdr, s1⟩, h1, he⟩ := Res.bind_eq_ok.mp he
  refine ⟨hdr, (lpcRead_ok h1).2.1, ?_⟩
  simp only at he
  split at he <;> simp only [Except.ok.injEq, Prod.mk.injEq] at he <;> obtain ⟨rfl, rfl, rfl⟩ := he
  · rename_i hm; rw [hm]; exact ⟨(lpcRead_ok h1).1, lpcRead_adds h1, rfl⟩
  · rename_i hm; rw [hm]; exact ⟨(lpcRead_ok h1).1, lpcRead_adds h1, rfl⟩

/-- The layout of the link is safe. -/
theorem link_safe {B h1 h2 : Nat} (hB : B ≤ 524156) (a1 : 76 ≤ h1) (a2 : h1 ≤ B) (b1 : 76 ≤ h2) (b2 : h2 ≤ B) :
    SafeLayout 3 256 h1 (256 + B) h2 ∧ SafeLayout 3 (256 + B) h2 256 h1 := by
  unfold SafeLayout SafeBuffer InWindow winSize controlArea Apart
  rw [show overhead 3 = 8 from rfl]
  omega

theorem validate_iff {l : AstLayout} {r : Bool} (h : layoutValidate (some 3) l = .ok r)
    (h1 : l.rx.offset < 2 ^ 32) (h2 : l.rx.size < 2 ^ 32) (h3 : l.tx.offset < 2 ^ 32) (h4 : l.tx.size < 2 ^ 32) :
    r = true ↔ SafeLayout 3 l.rx.offset l.rx.size l.tx.offset l.tx.size := by
  obtain ⟨r', e, i⟩ := layoutValidate_eq (v := 3) (by decide) h1 h2 h3 h4
  rw [e] at h; cases h; exact i

/-- A size the host can ask for. -/
def HostFits (B mtu : Nat) : Prop := 64 ≤ mtu ∧ mtu + 12 ≤ B

theorem negotiateLayoutHost_ready {hw : Hw E} {B H mtu : Nat} {s s' : AstSt E} {rc : Int} {rest : List Access}
    (hB1 : 76 ≤ B) (hB2 : B ≤ 524156) (hmtu : mtu < 2 ^ 32) (hH : HostFits B mtu → H = mtu + 12)
    (hmode : s.mode = .host) (hm : s.mtu = mtu) (hp : s.proto = some 3)
    (h : Obeys (cfgH B H) s (Starting false (.lpcRead 0 (hdr0 B) 0 :: .lpcWrite 20 (be32 H) 0 :: rest)))
    (he : negotiateLayoutHost hw s = .ok (rc, s')) :
    Obeys (cfgH B H) s' (fun f => 0 ≤ rc → Starting false rest f ∧ HostFits B mtu) ∧ SameSt s s' := by
  unfold negotiateLayoutHost at he
  obtain ⟨⟨r1, l, s1⟩, hr1, he⟩ := Res.bind_eq_ok.mp he
  obtain ⟨hdr, hlen, hs1, ha1, hl⟩ := layoutRead_ok hr1
  rw [hmode] at hl
  simp only at hl he
  have h1 := h.start (fun f hf => hf) ha1 (fun f hf hr => rely_read hr hf.1 (by rw [hlen]; exact lhdr_length ..))
    (fun f hf => step_hdrRead (lhdr_length ..))
  have hmode1 : s1.mode = .host := hs1.mode.trans hmode
  rw [hs1.proto, hp, hs1.mtu, hm] at he
  have hlo := (field32_lt hdr 16)
  have hls := (field32_lt hdr 20)
  have hto := (field32_lt hdr 24)
  have hts := (field32_lt hdr 28)
  obtain ⟨-, -, -, -, f16, f20, f24, f28⟩ := lhdr_fields 0 0 0 B (256 + B) B
  rw [u32_of_lt (by omega)] at f20 f24 f28
  have hsafe := (link_safe (B := B) hB2 hB1 (Nat.le_refl _) hB1 (Nat.le_refl _)).1
  split at he
  · rename_i hneg
    simp only [Except.ok.injEq, Prod.mk.injEq] at he
    obtain ⟨rfl, rfl⟩ := he
    exact ⟨h1.mono fun f hf hge => absurd hneg (by omega), hs1⟩
  · obtain ⟨valid, hval, he⟩ := Res.bind_eq_ok.mp he
    have hiff := validate_iff hval (by rw [hl]; exact hlo) (by rw [hl]; exact hls) (by rw [hl]; exact hto) (by rw [hl]; exact hts)
    split at he
    · simp only [Except.ok.injEq, Prod.mk.injEq] at he
      obtain ⟨rfl, rfl⟩ := he
      exact ⟨h1.mono fun f hf hge => absurd hge (by decide), hs1⟩
    · obtain ⟨sz, hsz, he⟩ := Res.bind_eq_ok.mp he
      obtain ⟨v, hv, hv0, hlt, rfl⟩ := protoPacketSize_inv (u32_lt _) hsz
      cases hv
      rw [show overhead 3 = 8 from rfl] at hlt he
      obtain ⟨valid2, hval2, he⟩ := Res.bind_eq_ok.mp he
      have hiff2 := validate_iff hval2 (by rw [hl]; exact hlo) hlt (by rw [hl]; exact hto) (by rw [hl]; exact hts)
      split at he
      · simp only [Except.ok.injEq, Prod.mk.injEq] at he
        obtain ⟨rfl, rfl⟩ := he
        exact ⟨h1.mono fun f hf hge => absurd hge (by decide), hs1⟩
      · rename_i hv2
        have hs2 := hiff2.mp (by simpa using hv2)
        unfold layoutWrite at he
        rw [hmode1] at he
        simp only at he
        obtain ⟨hs3, -, -, -⟩ := lpcWrite_ok he
        have ha2 := lpcWrite_adds he
        refine ⟨?_, hs1.trans hs3⟩
        have hfit : hdr = hdr0 B → HostFits B mtu ∧ u32 (packetSize mtu) + 8 = H := by
          rintro rfl
          rw [hl] at hs2
          simp only [hdr0, f16, f24, f28] at hs2
          have hw : u32 (packetSize mtu) = mtu + 4 ∨ u32 (packetSize mtu) < 4 := by
            unfold u32 packetSize hdrSize; omega
          have hF : HostFits B mtu := by
            unfold SafeLayout SafeBuffer InWindow winSize controlArea Apart at hs2
            rw [show overhead 3 = 8 from rfl] at hs2
            unfold HostFits
            omega
          refine ⟨hF, ?_⟩
          rw [hH hF]
          unfold SafeLayout SafeBuffer at hs2
          rw [show overhead 3 = 8 from rfl] at hs2
          omega
        refine (h1.start (fun f hf => hf.1) ha2 (fun f hf hr => ?_) (fun f hf => step_hdrWrite (by simp [be32]) (by decide))).mono ?_
        · have hd : hdr = hdr0 B := by have := hf.2.1; cases this; rfl
          rw [(hfit hd).2]
          have hr : rc = 0 := hr
          rw [hr]; rfl
        · rintro f ⟨hf1, hf2, ⟨f0, hf0⟩, -⟩ -
          have hd : hdr = hdr0 B := by have := hf0.2.1; cases this; rfl
          exact ⟨hf1, (hfit hd).1⟩

theorem Obeys.zero {g : LinkCfg} {s : AstSt E} (h : s.log = []) : Obeys g s (fun f => f = Fine.zero g) := by
  unfold Obeys AstSt.accs; rw [h]; exact rfl

theorem initHost_ready {hw : Hw E} {B H mtu : Nat} {s s' : AstSt E} {rc : Int}
    (hB1 : 76 ≤ B) (hB2 : B ≤ 524156) (hmtu : mtu < 2 ^ 32) (hH : HostFits B mtu → H = mtu + 12)
    (hmode : s.mode = .host) (hm : s.mtu = mtu) (hlog : s.log = [])
    (he : initHost hw s = .ok (rc, s')) (hrc : 0 ≤ rc) :
    Obeys (cfgH B H) s' (fun f => Starting false [] f ∧ HostFits B mtu ∧ s'.kcsStatus.getLsbD 7 = true ∧ s'.proto = some 0 ∧
      s'.rx = s.rx ∧ s'.tx = s.tx ∧ s'.mode = .host) := by
  unfold initHost at he
  have ha0 := kcsRead_adds hw s .status
  have hs0 := kcsRead_same hw s .status
  simp only at he
  generalize hk : kcsRead hw s .status = r at ha0 hs0 he
  obtain ⟨r0, v0, s0⟩ := r
  simp only at ha0 hs0 he
  have h0 : Obeys (cfgH B H) s0 (fun f => r0 = 0 ∧ (v0.getLsbD 7 = true → Starting false (cfgH B H).start f)) := by
    refine (Obeys.zero (g := cfgH B H) hlog).step ha0 ?_
    rintro f rfl hr
    refine ⟨_, (Fine.step_free rfl rfl).trans rfl, hr.1, fun hb => ?_⟩
    simp only [Starting, Fine.zero, hb, Watch.zero]
    simp [cfgH]
  split at he
  · rename_i hz
    simp only [Except.ok.injEq, Prod.mk.injEq] at he
    obtain ⟨rfl, rfl⟩ := he
    exact h0.mono fun f hf => absurd hf.1 hz
  · split at he
    · simp only [Except.ok.injEq, Prod.mk.injEq] at he
      rw [← he.1] at hrc
      exact absurd hrc (by decide)
    · rename_i hz hrdy
      have hb7 : v0.getLsbD 7 = true := by
        cases hb : v0.getLsbD 7 with
        | true => rfl
        | false => exact absurd (ready_bit hb) hrdy
      obtain ⟨⟨r1, hdr, s1⟩, hr1, he⟩ := Res.bind_eq_ok.mp he
      obtain ⟨hs1, hlen, -, -, -⟩ := lpcRead_ok hr1
      have ha1 := (lpcRead_adds hr1).congr (a' := s0) rfl rfl
      simp only at he
      have h1 := h0.start (e := .lpcRead 0 (hdr0 B) 0) (fun f hf => hf.2 hb7) ha1
        (fun f hf hr => rely_read hr (hf.2 hb7).1 (by rw [hlen]; exact lhdr_length ..))
        (fun f hf => step_hdrRead (lhdr_length ..))
      have e1m : s1.mode = .host := hs1.mode.trans (hs0.mode.trans hmode)
      have e1t : s1.mtu = mtu := hs1.mtu.trans (hs0.mtu.trans hm)
      have e1r : s1.rx = s.rx := hs1.rx.trans hs0.rx
      have e1x : s1.tx = s.tx := hs1.tx.trans hs0.tx
      have e1k : s1.kcsStatus = v0 := hs1.kcs
      have hneg : hdr = hdr0 B → negotiateVersion (field16 hdr offBmcMin) (field16 hdr offBmcCur) astVerMin astVerCur = 3 := by
        rintro rfl
        obtain ⟨f4, f6, -⟩ := lhdr_fields 0 0 0 B (256 + B) B
        simp only [hdr0, offBmcMin, offBmcCur, f4, f6]
        rfl
      generalize negotiateVersion (field16 hdr offBmcMin) (field16 hdr offBmcCur) astVerMin astVerCur = n at hneg he
      split at he
      · simp only [Except.ok.injEq, Prod.mk.injEq] at he
        rw [← he.1] at hrc
        exact absurd hrc (by decide)
      · split at he
        · cases he
        · obtain ⟨⟨r2, s2⟩, hr2, he2⟩ := Res.bind_eq_ok.mp he
          by_cases hn3 : n = 3
          · subst hn3
            rw [if_pos (by decide)] at hr2
            obtain ⟨h2, hs2⟩ := negotiateLayoutHost_ready (s := { s1 with proto := some 3 }) hB1 hB2 hmtu hH e1m e1t rfl
              ((h1.mono fun f hf => hf.1).congr rfl) hr2
            simp only at he2
            split at he2
            · rename_i hr2n
              simp only [Except.ok.injEq, Prod.mk.injEq] at he2
              obtain ⟨rfl, -⟩ := he2
              exact absurd hr2n (by omega)
            · rename_i hr2p
              obtain ⟨⟨r3, s3⟩, hr3, he⟩ := Res.bind_eq_ok.mp he2
              obtain ⟨⟨r4, s4⟩, hr4, he⟩ := Res.bind_eq_ok.mp he
              simp only at hr4 he
              have ha5 := kcsWrite_adds hw s4 .data cmdInitialise
              have hs5 := kcsWrite_same hw s4 .data cmdInitialise
              generalize hk5 : kcsWrite hw s4 .data cmdInitialise = q at ha5 hs5 he
              obtain ⟨r5, s5⟩ := q
              simp only [Except.ok.injEq, Prod.mk.injEq] at he ha5 hs5
              obtain ⟨rfl, rfl⟩ := he
              have h3 := h2.start (e := .lpcWrite 8 (be16 1) 0) (fun f hf => (hf (by omega)).1) (lpcWrite_adds hr3)
                (fun f hf hr => by have hr : r3 = 0 := hr; rw [hr]; rfl) (fun f hf => step_hdrWrite (by decide) (by decide))
              have h4 := h3.start (e := .lpcWrite 10 (be16 3) 0) (fun f hf => hf.1) (lpcWrite_adds hr4)
                (fun f hf hr => by have hr : r4 = 0 := hr; rw [hr]; rfl) (fun f hf => step_hdrWrite (by decide) (by decide))
              have h5 := h4.start (e := .kcsWrite .data 0 0) (fun f hf => hf.1) ha5
                (fun f hf hr => by have hr : r5 = 0 := hr; rw [hr]; rfl) (fun f hf => by simp [Watch.step, cfgH])
              have hs25 := (((lpcWrite_ok hr3).1).trans (lpcWrite_ok hr4).1).trans hs5
              have hs := hs2.trans hs25
              refine (h5.congr (s' := { s5 with proto := some 0 }) rfl).mono ?_
              rintro f ⟨hf, -, ⟨f4, -, -, ⟨f3, -, -, ⟨f2, hf2⟩, -⟩, -⟩, -⟩
              exact ⟨hf, (hf2 (by omega)).2, by simp only; rw [hs.kcs]; simp only; rw [e1k]; exact hb7, rfl,
                hs.rx.trans e1r, hs.tx.trans e1x, hs.mode.trans e1m⟩
          · have hnever : Obeys (cfgH B H) s1 (fun _ => False) :=
              h1.mono fun f hf => hn3 (hneg (by have := hf.2.1; cases this; rfl))
            have ha2 : ∃ l, Adds s1 s2 l := by
              split at hr2
              · obtain ⟨l, hl, -⟩ := negotiateLayoutHost_still hr2
                exact ⟨l, hl.congr rfl rfl⟩
              · simp only [Except.ok.injEq, Prod.mk.injEq] at hr2
                obtain ⟨-, rfl⟩ := hr2
                exact ⟨[], (Adds.refl s1).congr rfl rfl⟩
            obtain ⟨l2, ha2⟩ := ha2
            simp only at he2
            split at he2
            · rename_i hr2n
              simp only [Except.ok.injEq, Prod.mk.injEq] at he2
              obtain ⟨rfl, -⟩ := he2
              exact absurd hr2n (by omega)
            · obtain ⟨⟨r3, s3⟩, hr3, he⟩ := Res.bind_eq_ok.mp he2
              obtain ⟨⟨r4, s4⟩, hr4, he⟩ := Res.bind_eq_ok.mp he
              simp only at hr4 he
              have ha5 := kcsWrite_adds hw s4 .data cmdInitialise
              simp only [Except.ok.injEq, Prod.mk.injEq] at he
              obtain ⟨-, rfl⟩ := he
              exact hnever.never ((((ha2.trans (lpcWrite_adds hr3)).trans (lpcWrite_adds hr4)).trans ha5).congr rfl rfl)

/-- The size of the buffers the BMC publishes. -/
def bmcRoom (mtu : Nat) : Nat := (if mtu = 0 then 524144 else min mtu 524144) + 12

theorem bmcRoom_le (mtu : Nat) : bmcRoom mtu ≤ 524156 := by unfold bmcRoom; split <;> omega

theorem kcsSetStatus_ready {hw : Hw E} {g : LinkCfg} {o : Bool} {s s' : AstSt E} {v : Byte} {rc : Int} {rest : List Access} {P : Fine → Prop}
    (h : Obeys g s P) (hP : ∀ f, P f → Starting o (.kcsWrite .status v 0 :: .kcsWrite .data 0xff 0 :: rest) f)
    (he : kcsSetStatus hw s v = (rc, s')) :
    Obeys g s' (fun f => Starting o rest f ∧ (∃ f0, P f0)) ∧ SameSt s s' := by
  have hsame := (kcsSetStatus_adds he).1
  refine ⟨?_, hsame⟩
  have a1 := kcsWrite_adds hw s .status v
  unfold kcsSetStatus at he
  generalize kcsWrite hw s .status v = r at a1 he
  obtain ⟨r1, s1⟩ := r
  simp only at a1 he
  have h1 := h.start (e := .kcsWrite .status v 0) hP a1
    (fun f hf hr => by have hr : r1 = 0 := hr; rw [hr]) (fun f hf => by simp [Watch.step])
  split at he
  · rename_i hn
    simp only [Prod.mk.injEq] at he
    obtain ⟨-, rfl⟩ := he
    exact h1.mono fun f hf => absurd (by have := hf.2.1; cases this; rfl) hn
  · have a2 := kcsWrite_adds hw s1 .data cmdDummy
    generalize kcsWrite hw s1 .data cmdDummy = r at a2 he
    obtain ⟨r2, s2⟩ := r
    simp only at a2 he
    have h2 := h1.start (e := .kcsWrite .data 0xff 0) (fun f hf => hf.1) a2
      (fun f hf hr => by have hr : r2 = 0 := hr; rw [hr]; rfl)
      (fun f hf => by simp [Watch.step, Watch.wroteStatus, hf.2.2.2])
    have : s2 = s' := by split at he <;> (cases he; rfl)
    subst this
    exact h2.mono fun f hf => ⟨hf.1, by obtain ⟨f0, hf0⟩ := hf.2.2.1; exact hf0.2.2.1⟩

theorem initBmc_ready {hw : Hw E} {H mtu : Nat} {s s' : AstSt E} {rc : Int} (hmtu : mtu < 2 ^ 32)
    (hm : s.mtu = mtu) (hlog : s.log = []) (hp : s.proto = some 3) (hmode : s.mode = .bmc)
    (he : initBmc hw s = .ok (rc, s')) (hrc : 0 ≤ rc) :
    76 ≤ bmcRoom mtu ∧ mtu < 4294967284 ∧
    Obeys (cfgB (bmcRoom mtu) H ls) s' (fun f => Starting false [] f) ∧ s'.proto = some 3 ∧ s'.mode = .bmc ∧ s'.mtu = mtu ∧
      s'.tx = ⟨256, bmcRoom mtu, s.tx.state⟩ ∧ s'.rx = ⟨256 + bmcRoom mtu, bmcRoom mtu, s.rx.state⟩ := by
  unfold initBmc at he
  obtain ⟨sz, hsz, he⟩ := Res.bind_eq_ok.mp he
  simp only at he
  rw [hp, hm] at hsz
  have hszle : sz ≤ 524156 := by
    rw [bmcBufferSize_pos] at hsz
    split at hsz
    · obtain ⟨r, -, h⟩ := Res.bind_eq_ok.mp hsz
      cases h; omega
    · cases hsz; omega
  obtain ⟨valid, hval, he⟩ := Res.bind_eq_ok.mp he
  have hu : u32 (controlSize + sz) = 256 + sz := u32_of_lt (by unfold controlSize; omega)
  rw [hp] at hval
  simp only [hu] at hval
  have hiff := validate_iff hval (by simp only; omega) (by simp only; omega) (by simp only [controlSize]; omega) (by simp only; omega)
  split at he
  · simp only [Except.ok.injEq, Prod.mk.injEq] at he
    rw [← he.1] at hrc
    exact absurd hrc (by decide)
  · rename_i hv
    have hsafe := hiff.mp (by simpa using hv)
    have h76 : 76 ≤ sz := by
      unfold SafeLayout SafeBuffer at hsafe
      rw [show overhead 3 = 8 from rfl] at hsafe
      simp only at hsafe
      omega
    have ⟨hroom, hmtu'⟩ : sz = bmcRoom mtu ∧ mtu < 4294967284 := by
      unfold bmcRoom
      by_cases h0 : mtu = 0
      · rw [h0, bmcBufferSize_zero] at hsz
        cases hsz
        exact ⟨by simp [h0], by omega⟩
      · by_cases h1 : 4294967292 ≤ mtu
        · obtain ⟨n, hn, hlt⟩ := bmcBufferSize_wrap hmtu h1
          rw [hn] at hsz; cases hsz; omega
        · by_cases h2 : 4294967284 ≤ mtu
          · rw [bmcBufferSize_abort h2 (by omega)] at hsz; cases hsz
          · rw [bmcBufferSize_ok h0 (by omega)] at hsz; cases hsz
            exact ⟨by simp [h0], by omega⟩
    refine ⟨by omega, hmtu', ?_⟩
    obtain ⟨⟨r1, s1⟩, hw1, he⟩ := Res.bind_eq_ok.mp he
    simp only [Except.ok.injEq] at he
    have hs1 := (lpcWrite_ok hw1).1
    have ha1 := lpcWrite_adds hw1
    simp only [hu] at ha1
    have h0 : Obeys (cfgB (bmcRoom mtu) H ls) s (fun f => Starting false (cfgB (bmcRoom mtu) H ls).start f) :=
      (Obeys.zero hlog).mono (by rintro f rfl; exact ⟨rfl, rfl, rfl, rfl, rfl, rfl, rfl, rfl, rfl, rfl⟩)
    have h1 := (h0.congr (s' := { s with tx := { s.tx with offset := controlSize, size := sz }, rx := { s.rx with offset := 256 + sz, size := sz } }) rfl).start
      (e := .lpcWrite 0 (hdr0 (bmcRoom mtu)) 0) (fun f hf => hf) (ha1.congr rfl rfl)
      (fun f hf hr => by
        have hr : r1 = 0 := hr
        rw [hr, ← hroom]; rfl)
      (fun f hf => step_hdrWrite (by rw [show (hdr0 (bmcRoom mtu)).length = 32 from lhdr_length ..]; decide) (by decide))
    obtain ⟨h2, hs2⟩ := kcsSetStatus_ready h1 (fun f hf => hf.1) he
    have hs := hs1.trans hs2
    refine ⟨h2.mono fun f hf => hf.1, hs.proto.trans hp, hs.mode.trans hmode, hs.mtu.trans hm, ?_, ?_⟩
    · rw [hs.tx, ← hroom]; rfl
    · rw [hs.rx, ← hroom, ← hu]

end Mctp
