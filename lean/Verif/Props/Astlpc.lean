import Verif.Proofs.AstWatch
import Verif.Proofs.AstPollRx
import Verif.Props.AstDemo

/-!
# Properties of the astlpc binding, one side (C48-C50, C53, C59, C63)

`hw` is the environment: any behaviour of the accessors given to `mctp_astlpc_init`, so the theorems hold
whatever the other side writes into the window and the registers, and whatever the accessors return.
-/

namespace Mctp

open Spec

variable {E : Type}

/-- The accessor calls made by the endpoint so far. -/
def accessesOf (c : Core (AstSt E)) : List Access := c.busses.flatMap fun b => b.binding.st.log.map Logged.acc

/-- The same with the buffers of the binding at the time of each call. -/
def loggedOf (c : Core (AstSt E)) : List Logged := c.busses.flatMap fun b => b.binding.st.log

theorem accessesOf_single {c : Core (AstSt E)} {bus : Bus (AstSt E)} (h : c.busses = [bus]) :
    accessesOf c = bus.binding.st.accs := by simp [accessesOf, h, AstSt.accs]

theorem AstDemo.endpoint {mode : AstMode} {mtu : Nat} {s : AstDemo.Script} {c : Core (AstSt AstDemo.Script)} {rc : Int}
    (hm : mtu < 2 ^ 32) (h : AstDemo.register mode mtu s = .ok (c, rc)) (hr : 0 ≤ rc) :
    AstEndpoint AstDemo.hw s 8 65536 mode mtu {} c :=
  ⟨fun _ => 0xaa, _, rc, hm, rfl, h, hr⟩

/-- A scripted run that ends without a fault is a run of an endpoint. -/
theorem AstDemo.run_ok {mode : AstMode} {mtu : Nat} {s : AstDemo.Script} {hist : List AstOp} {log : List AstRec}
    {accs : List Access} (hm : mtu < 2 ^ 32) (h : AstDemo.run mode mtu s hist = some (log, accs)) :
    ∃ c0 c, AstEndpoint AstDemo.hw s 8 65536 mode mtu {} c0 ∧ c0.astRun AstDemo.hw hist = .ok (c, log) ∧
      accessesOf c = accs := by
  unfold AstDemo.run at h
  split at h
  · rename_i c rc hreg
    split at h
    · cases h
    · rename_i hrc
      split at h
      · rename_i c' log' hrun
        simp only [Option.some.injEq, Prod.mk.injEq] at h
        obtain ⟨rfl, rfl⟩ := h
        exact ⟨c, c', AstDemo.endpoint hm hreg (by omega), hrun, rfl⟩
      · cases h
  · cases h

/-! ## C48: version negotiation -/

/-- C48: negotiation between the ranges `a..b` and `c..d` yields the largest version in both ranges, if
there is one and both ranges are valid (they do not start at 0), and 0 otherwise. -/
theorem C48_negotiate (a b c d n : Nat) :
    negotiateVersion a b c d = n ↔
      (0 < a ∧ 0 < c ∧ CommonVersion a b c d n ∧ ∀ v, CommonVersion a b c d v → v ≤ n) ∨
      (n = 0 ∧ ¬ (0 < a ∧ 0 < c ∧ ∃ v, CommonVersion a b c d v)) := by
  rcases negotiateVersion_spec a b c d with ⟨h0, hno⟩ | ⟨ha, hc, hcom, hmax⟩
  · constructor
    · rintro rfl; exact .inr ⟨h0, hno⟩
    · rintro (⟨h1, h2, h3, -⟩ | ⟨rfl, -⟩)
      · exact absurd ⟨h1, h2, n, h3⟩ hno
      · exact h0
  · constructor
    · rintro rfl; exact .inl ⟨ha, hc, hcom, hmax⟩
    · rintro (⟨h1, h2, h3, h4⟩ | ⟨rfl, hno⟩)
      · exact Nat.le_antisymm (h4 _ hcom) (hmax _ h3)
      · exact absurd ⟨ha, hc, _, hcom⟩ hno

example : negotiateVersion 1 3 2 7 = 3 := by decide
example : negotiateVersion 1 3 4 7 = 0 := by decide

/-- C48: the version an endpoint uses is in the table of supported versions (0 while there is none),
whatever the other side announces. -/
theorem C48_supported {hw : Hw E} {env : E} {eid : Byte} {mx : Nat} {mode : AstMode} {mtu : Nat} {mem : Mem}
    {c0 c : Core (AstSt E)} (h : AstEndpoint hw env eid mx mode mtu mem c0) {hist : List AstOp} {log : List AstRec}
    (hr : c0.astRun hw hist = .ok (c, log)) :
    ∀ b ∈ c.busses, ∀ v, b.binding.st.proto = some v → v ≤ 3 := by
  obtain ⟨bus, hb, -, hj⟩ := h.reached hr
  intro b hbm v hv
  rw [hb, List.mem_singleton] at hbm
  subst hbm
  have := hj.1.proto v hv
  omega

/-- C48: when a BMC reads the initialise command, it reads the header, and writes the negotiated version
`n`: the largest version in the range 1..3 and in the range announced by the host, if the buffers can be
used; otherwise 0.  It then sets Channel Active exactly if `n` is not 0. -/
theorem C48_bmc {hw : Hw E} {env : E} {eid : Byte} {mx : Nat} {mtu : Nat} {mem : Mem}
    {c0 c c' : Core (AstSt E)} (h : AstEndpoint hw env eid mx .bmc mtu mem c0) {hist : List AstOp} {log : List AstRec}
    (hr : c0.astRun hw hist = .ok (c, log)) {e : List Event} {rc : Int}
    (hp : c.astStep hw .poll = .ok (c', e, rc)) {new : List Access} (hnew : accessesOf c' = accessesOf c ++ new)
    (hd : Access.kcsRead .data 0 0 ∈ new) :
    ∃ pre hdr r1 mid n r2 fin r3 post, new = pre ++ [.kcsRead .data 0 0, .lpcRead 0 hdr r1] ++ mid ++
        [.lpcWrite 12 (be16 n) r2, .kcsWrite .status fin r3] ++ post ∧
      fin = (if n = 0 then 0x81 else 0xc1) ∧
      (n ≠ 0 → n = negotiateVersion 1 3 (field16 hdr 8) (field16 hdr 10) ∧ ∀ b ∈ c'.busses, b.binding.st.proto = some n) := by
  obtain ⟨bus, hb, hbr, hj⟩ := h.reached hr
  obtain ⟨bus', hb', -, hj'⟩ := astStep_inv hb hbr hj hp
  rw [accessesOf_single hb, accessesOf_single hb'] at hnew
  have hp : c.astPoll hw 0 = .ok (c', e, rc) := hp
  obtain ⟨l0, st, s, hs, ha0, ha1, -, hjs, hcase⟩ := poll_cmd hb hbr hj hp hb' hnew hd
  rcases hcase with ⟨⟨-, h0, -⟩, -⟩ | ⟨-, -, c1, e1, rc1, stop, hcmd, hfr, hfin⟩
  · exact absurd rfl h0
  unfold Core.astCommand at hcmd
  obtain ⟨bus2, hbus2, hcmd⟩ := Res.bind_eq_ok.mp hcmd
  obtain ⟨-, rfl⟩ := busAt_single rfl hbus2
  rw [if_pos (show (0 : Byte) = cmdInitialise from rfl)] at hcmd
  obtain ⟨⟨c2, e2⟩, hini, hcmd⟩ := Res.bind_eq_ok.mp hcmd
  simp only [Except.ok.injEq, Prod.mk.injEq] at hcmd
  obtain ⟨rfl, rfl, rfl, rfl⟩ := hcmd
  unfold Core.astInitChannel at hini
  obtain ⟨bus3, hbus3, hini⟩ := Res.bind_eq_ok.mp hini
  obtain ⟨-, rfl⟩ := busAt_single rfl hbus3
  obtain ⟨⟨on, b⟩, hic, hini⟩ := Res.bind_eq_ok.mp hini
  simp only at hini hic
  rw [setBinding_single rfl] at hini
  obtain ⟨r1, hdr, mid, r2, n, fin, l, haccs, -, hset, hn, hon, hfin', hta, -⟩ := initChannel_view hic
  obtain ⟨hi1, -, -, -, hsafe⟩ := initChannel_inv hjs.1 hic
  obtain ⟨bus4, m, hc4, hto, hj4, -⟩ := setTxEnabled_only rfl hi1 (fun h => ⟨hta, by obtain ⟨v, _, _, hs⟩ := hsafe h; exact hs.one⟩) hini
  obtain ⟨lt, hat, -⟩ := hto.adds
  have hmode : bus.binding.st.mode = .bmc := hj.1.mode
  have hc' : c' = c2 := by
    rcases hfin with ⟨h, -⟩ | ⟨-, e2', haf, -⟩
    · cases h
    · unfold Core.astAfter at haf
      rw [if_neg (by rw [hmode]; simp)] at haf
      simp only [Except.ok.injEq, Prod.mk.injEq] at haf
      exact haf.1.symm
  have hbus4 : bus' = bus4 := by
    have : c'.busses = [bus4] := by rw [hc', hc4]
    rw [hb'] at this; simpa using this
  subst hbus4
  have hl : ∃ r3 post, l = .kcsWrite .status fin r3 :: post := by
    cases hset
    · exact ⟨_, [], rfl⟩
    · exact ⟨_, _, rfl⟩
  obtain ⟨r3, post, rfl⟩ := hl
  have hall := ((ha0.trans ha1).trans (c := b.st)
    (l' := [.lpcRead 0 hdr r1] ++ mid ++ [.lpcWrite 12 (be16 n) r2] ++ .kcsWrite .status fin r3 :: post) (by unfold Adds; rw [haccs]; simp)).trans hat
  have hnew2 := Adds.inj hnew hall
  refine ⟨l0 ++ [.kcsRead .status 0 st], hdr, r1, mid, n, r2, fin, r3, post ++ lt, by rw [hnew2]; simp, ?_, ?_⟩
  · cases on with
    | false => simp only [Bool.false_eq_true, if_false] at hn hfin'; rw [hn, hfin']; rfl
    | true => obtain ⟨hn0, -⟩ := hon rfl; rw [if_neg hn0, hfin']; rfl
  · intro hn0
    cases on with
    | false => exact absurd hn hn0
    | true =>
      refine ⟨hn, ?_⟩
      intro b' hbm
      rw [hb', List.mem_singleton] at hbm
      subst hbm
      rw [hto.prot]
      exact (hon rfl).2

/-- The hypotheses are met: a BMC reads the initialise command and negotiates version 3. -/
example : ∃ log accs, AstDemo.run .bmc 64 AstDemo.bmcScript [.poll] = some (log, accs) ∧
    Access.kcsRead .data 0 0 ∈ accs ∧ Access.lpcWrite 12 (be16 3) 0 ∈ accs ∧ Access.kcsWrite .status 0xc1 0 ∈ accs :=
  ⟨_, _, rfl, by decide, by decide, by decide⟩

/-! ## C49: accepted layouts -/

/-- C49: a layout is accepted for a version exactly if both buffers lie inside the window and outside the
control area, hold a packet with a payload of 64 bytes, and do not overlap. -/
theorem C49_accepted {v : Nat} (hv : v ≠ 0) (l : AstLayout)
    (h1 : l.rx.offset < 2 ^ 32) (h2 : l.rx.size < 2 ^ 32) (h3 : l.tx.offset < 2 ^ 32) (h4 : l.tx.size < 2 ^ 32) :
    ∃ r, layoutValidate (some v) l = .ok r ∧
      (r = true ↔ SafeLayout v l.rx.offset l.rx.size l.tx.offset l.tx.size) := layoutValidate_eq hv h1 h2 h3 h4

example : layoutValidate (some 3) { rx := ⟨256, 76, .idle⟩, tx := ⟨332, 76, .idle⟩ } = .ok true := rfl
example : layoutValidate (some 3) { rx := ⟨256, 77, .idle⟩, tx := ⟨332, 76, .idle⟩ } = .ok false := rfl

/-- C49: an endpoint that transmits, or that has a packet in its transmit buffer, uses a safe layout. -/
theorem C49_used {hw : Hw E} {env : E} {eid : Byte} {mx : Nat} {mode : AstMode} {mtu : Nat} {mem : Mem}
    {c0 c : Core (AstSt E)} (h : AstEndpoint hw env eid mx mode mtu mem c0) {hist : List AstOp} {log : List AstRec}
    (hr : c0.astRun hw hist = .ok (c, log)) :
    ∀ b ∈ c.busses, b.state = .txEnabled ∨ b.binding.st.tx.state = .prepared ∨ b.binding.st.tx.state = .released →
      SafeLayout 1 b.binding.st.rx.offset b.binding.st.rx.size b.binding.st.tx.offset b.binding.st.tx.size := by
  obtain ⟨bus, hb, -, hj⟩ := h.reached hr
  intro b hbm hst
  rw [hb, List.mem_singleton] at hbm
  subst hbm
  rcases hst with hst | hst
  · exact (hj.2 hst).2
  · exact hj.1.busy hst

/-! ## C50: the layout the BMC proposes -/

/-- The MTU of a version 3 packet buffer: without the length, the packet header and the checksum. -/
def bufferMtu (size : Nat) : Nat := size - 12

/-- What `mctp_astlpc_start_bmc` does. -/
theorem initBmc_view {hw : Hw E} {s s' : AstSt E} {rc : Int} (hp : s.proto = some 3) (hm : s.mtu < 2 ^ 32)
    (he : initBmc hw s = .ok (rc, s')) :
    ((0 < s.mtu ∧ s.mtu < 64 ∨ 4294967292 ≤ s.mtu) ∧ rc = -EINVAL) ∨
    ((s.mtu = 0 ∨ 64 ≤ s.mtu ∧ s.mtu < 4294967284) ∧
      ∃ sz r l, sz = (if s.mtu = 0 then 524144 else min s.mtu 524144) + 12 ∧ SetsStatus 0x80 l ∧ (rc = 0 ∨ rc = -1) ∧
        (rc = 0 → l = [.kcsWrite .status 0x80 0, .kcsWrite .data 0xff 0]) ∧
        Adds s s' (.lpcWrite 0 (be32 0x4d435450 ++ be16 1 ++ be16 3 ++ be16 0 ++ be16 0 ++ be16 0 ++ be16 0 ++
          be32 256 ++ be32 sz ++ be32 (256 + sz) ++ be32 sz) r :: l) ∧
        s'.tx.offset = 256 ∧ s'.tx.size = sz ∧ s'.rx.offset = 256 + sz ∧ s'.rx.size = sz) := by
  unfold initBmc at he
  obtain ⟨sz, hsz, he⟩ := Res.bind_eq_ok.mp he
  obtain ⟨valid, hv, he⟩ := Res.bind_eq_ok.mp he
  simp only at he hv
  rw [hp] at hsz hv
  have hcs : controlSize = 256 := rfl
  rw [hcs] at hv he
  have hdec : ∀ sz, sz < 524157 → (layoutValidate (some 3) { rx := { s.rx with offset := u32 (256 + sz), size := sz }, tx := { s.tx with offset := 256, size := sz } } = .ok valid) →
      (valid = true ↔ 76 ≤ sz) := by
    intro sz hlt hv
    have hu : u32 (256 + sz) = 256 + sz := u32_of_lt (by omega)
    rw [hu] at hv
    obtain ⟨r, hr, hiff⟩ := layoutValidate_eq (v := 3) (by decide) (l := { rx := { s.rx with offset := 256 + sz, size := sz }, tx := { s.tx with offset := 256, size := sz } })
      (by simp only; omega) (by simp only; omega) (by simp only; omega) (by simp only; omega)
    rw [hv] at hr
    simp only [Except.ok.injEq] at hr
    rw [hr, hiff]
    unfold SafeLayout SafeBuffer InWindow Apart
    simp only [show overhead 3 = 8 from rfl, show controlArea = 256 from rfl, show winSize = 1048576 from rfl]
    omega
  have good : ∀ sz0, sz0 < 524157 → 76 ≤ sz0 → sz = sz0 → 
      sz0 = (if s.mtu = 0 then 524144 else min s.mtu 524144) + 12 →
      ∃ sz r l, sz = (if s.mtu = 0 then 524144 else min s.mtu 524144) + 12 ∧ SetsStatus 0x80 l ∧ (rc = 0 ∨ rc = -1) ∧
        (rc = 0 → l = [.kcsWrite .status 0x80 0, .kcsWrite .data 0xff 0]) ∧
        Adds s s' (.lpcWrite 0 (be32 0x4d435450 ++ be16 1 ++ be16 3 ++ be16 0 ++ be16 0 ++ be16 0 ++ be16 0 ++
          be32 256 ++ be32 sz ++ be32 (256 + sz) ++ be32 sz) r :: l) ∧
        s'.tx.offset = 256 ∧ s'.tx.size = sz ∧ s'.rx.offset = 256 + sz ∧ s'.rx.size = sz := by
    intro sz0 hlt hge heq hval
    subst heq
    have hvt : valid = true := (hdec sz hlt hv).mpr hge
    subst hvt
    simp only [Bool.not_true, Bool.false_eq_true, if_false] at he
    obtain ⟨⟨r1, s1⟩, hw1, he⟩ := Res.bind_eq_ok.mp he
    have ha1 := lpcWrite_adds hw1
    have hs1 := (lpcWrite_ok hw1).1
    simp only [Except.ok.injEq] at he
    obtain ⟨hs2, hrc, l, ha2, hset⟩ := kcsSetStatus_adds he
    have hu : u32 (256 + sz) = 256 + sz := u32_of_lt (by omega)
    refine ⟨sz, r1, l, hval, hset, ?_, ?_, ?_, ?_, ?_, ?_, ?_⟩
    · exact hrc
    · intro h0; subst h0; exact kcsSetStatus_done he ha2
    · have := (ha1.congr (a' := s) rfl rfl).trans ha2
      simpa [hu, astMagic, astVerMin, astVerCur] using this
    · rw [hs2.tx, hs1.tx]
    · rw [hs2.tx, hs1.tx]
    · rw [hs2.rx, hs1.rx]; exact hu
    · rw [hs2.rx, hs1.rx]
  by_cases h0 : s.mtu = 0
  · right
    rw [h0, bmcBufferSize_zero] at hsz
    simp only [Except.ok.injEq] at hsz
    exact ⟨.inl h0, good 524156 (by decide) (by decide) hsz.symm (by rw [if_pos h0])⟩
  · by_cases h1 : s.mtu < 4294967284
    · rw [bmcBufferSize_ok h0 h1] at hsz
      simp only [Except.ok.injEq] at hsz
      by_cases h2 : 64 ≤ s.mtu
      · exact .inr ⟨.inr ⟨h2, h1⟩, good _ (by omega) (by omega) hsz.symm (by rw [if_neg h0])⟩
      · left
        refine ⟨.inl ⟨by omega, by omega⟩, ?_⟩
        subst hsz
        have hvf : valid = false := by
          cases valid
          · rfl
          · have := (hdec _ (by omega) hv).mp rfl; omega
        subst hvf
        simp only [Bool.not_false, if_true, Except.ok.injEq, Prod.mk.injEq] at he
        exact he.1.symm
    · by_cases h2 : s.mtu < 4294967292
      · rw [bmcBufferSize_abort (by omega) h2] at hsz; cases hsz
      · left
        refine ⟨.inr (by omega), ?_⟩
        obtain ⟨n, hn, hlt⟩ := bmcBufferSize_wrap hm (by omega : 4294967292 ≤ s.mtu)
        rw [hn] at hsz
        simp only [Except.ok.injEq] at hsz
        subst hsz
        have hvf : valid = false := by
          cases valid
          · rfl
          · have := (hdec _ (by omega) hv).mp rfl; omega
        subst hvf
        simp only [Bool.not_false, if_true, Except.ok.injEq, Prod.mk.injEq] at he
        exact he.1.symm

theorem initBmc_total {hw : Hw E} {s : AstSt E} (hp : s.proto = some 3) (hm : s.mtu < 2 ^ 32)
    (hgap : ¬ (4294967284 ≤ s.mtu ∧ s.mtu < 4294967292)) : ∃ rc s', initBmc hw s = .ok (rc, s') := by
  have hsz : ∃ sz, bmcBufferSize (some 3) s.mtu = .ok sz ∧ sz < 2 ^ 32 := by
    by_cases h0 : s.mtu = 0
    · rw [h0]; exact ⟨_, bmcBufferSize_zero, by decide⟩
    · by_cases h1 : s.mtu < 4294967284
      · exact ⟨_, bmcBufferSize_ok h0 h1, by omega⟩
      · obtain ⟨n, hn, hl⟩ := bmcBufferSize_wrap hm (by omega : 4294967292 ≤ s.mtu)
        exact ⟨n, hn, by omega⟩
  obtain ⟨sz, hsz, hlt⟩ := hsz
  obtain ⟨r, hr, -⟩ := layoutValidate_eq (v := 3) (by decide) (l := { rx := { s.rx with offset := u32 (controlSize + sz), size := sz }, tx := { s.tx with offset := controlSize, size := sz } })
    (by simp only; exact u32_lt _) (by simp only; omega) (by simp only; decide) (by simp only; omega)
  unfold initBmc
  rw [hp, hsz, Res.bind_ok]
  dsimp only
  rw [hr, Res.bind_ok]
  cases r with
  | false => exact ⟨_, _, rfl⟩
  | true =>
    simp only [Bool.not_true, Bool.false_eq_true, if_false]
    unfold lpcWrite
    rw [if_pos (by simp [be32, be16, lpcWinSize])]
    exact ⟨_, _, rfl⟩

/-- C50: a BMC that was registered has published, as its first access, a header with a layout whose
buffers are safe and whose MTU is not above the requested one; without a request the MTU is a multiple
of 16. -/
theorem C50_published {hw : Hw E} {env : E} {eid : Byte} {mx : Nat} {mtu : Nat} {mem : Mem}
    {c0 : Core (AstSt E)} (h : AstEndpoint hw env eid mx .bmc mtu mem c0) :
    ∃ off1 size1 off2 size2 r, accessesOf c0 =
        [.lpcWrite 0 (be32 0x4d435450 ++ be16 1 ++ be16 3 ++ be16 0 ++ be16 0 ++ be16 0 ++ be16 0 ++
          be32 off1 ++ be32 size1 ++ be32 off2 ++ be32 size2) r, .kcsWrite .status 0x80 0, .kcsWrite .data 0xff 0] ∧
      SafeLayout 3 off1 size1 off2 size2 ∧
      (mtu ≠ 0 → bufferMtu size1 ≤ mtu ∧ bufferMtu size2 ≤ mtu) ∧
      (mtu = 0 → 16 ∣ bufferMtu size1 ∧ 16 ∣ bufferMtu size2) ∧
      (64 ≤ mtu → mtu ≤ 524144 → bufferMtu size1 = mtu ∧ bufferMtu size2 = mtu) := by
  have hm : mtu < 2 ^ 32 := by obtain ⟨_, _, _, hm, _⟩ := h; exact hm
  obtain ⟨rc, s, hrc, hs, hb, -⟩ := h.start
  have hs : initBmc hw { astZero env .bmc mtu with proto := some astVerCur } = .ok (rc, s) := hs
  rcases initBmc_view rfl hm hs with ⟨-, rfl⟩ | ⟨hmtu, sz, r, l, hsz, -, hrc2, hl, ha, -⟩
  · simp [EINVAL] at hrc
  · have hrc0 : rc = 0 := by omega
    have hmtu : mtu = 0 ∨ 64 ≤ mtu ∧ mtu < 4294967284 := hmtu
    have hsz : sz = (if mtu = 0 then 524144 else min mtu 524144) + 12 := hsz
    refine ⟨256, sz, 256 + sz, sz, r, ?_, ?_, ?_, ?_, ?_⟩
    · rw [accessesOf_single hb]
      rw [hl hrc0] at ha
      exact ha
    · unfold SafeLayout SafeBuffer InWindow Apart
      simp only [show overhead 3 = 8 from rfl, show controlArea = 256 from rfl, show winSize = 1048576 from rfl]
      split at hsz <;> omega
    · intro h0; rw [if_neg h0] at hsz; unfold bufferMtu; omega
    · intro h0; rw [if_pos h0] at hsz; subst hsz; decide
    · intro h1 h2; rw [if_neg (by omega)] at hsz; unfold bufferMtu; omega

/-- The hypotheses are met. -/
example : ∃ log accs, AstDemo.run .bmc 1024 {} [] = some (log, accs) ∧ accs.length = 3 := ⟨_, _, rfl, rfl⟩

/-- C50, what is true of every request: a registration of a BMC with any requested MTU below 2^32, except
the eight in the gap, is refused with -EINVAL (MTU 1 to 63, or so large that the size wraps around), fails
because the status register cannot be written, or publishes a layout (`C50_published`). -/
theorem C50_start_partial {hw : Hw E} {env : E} {mtu : Nat} (hm : mtu < 2 ^ 32)
    (hgap : ¬ (4294967284 ≤ mtu ∧ mtu < 4294967292)) :
    ∃ rc s, astStart hw (astInit env .bmc mtu).st = .ok (rc, s) ∧
      (rc = -EINVAL ↔ (0 < mtu ∧ mtu < 64 ∨ 4294967292 ≤ mtu)) ∧ (rc = -EINVAL ∨ rc = 0 ∨ rc = -1) := by
  have hok : ∃ rc s, initBmc hw { astZero env .bmc mtu with proto := some astVerCur } = .ok (rc, s) := initBmc_total rfl hm hgap
  obtain ⟨rc, s, hs⟩ := hok
  refine ⟨rc, s, hs, ?_⟩
  rcases initBmc_view rfl hm hs with ⟨h1, rfl⟩ | ⟨hmtu, sz, r, l, -, -, hrc2, -⟩
  · exact ⟨⟨fun _ => h1, fun _ => rfl⟩, .inl rfl⟩
  · have hmtu : mtu = 0 ∨ 64 ≤ mtu ∧ mtu < 4294967284 := hmtu
    refine ⟨⟨fun h => ?_, fun h => ?_⟩, .inr hrc2⟩
    · rcases hrc2 with h2 | h2 <;> rw [h2] at h <;> simp [EINVAL] at h
    · omega

/-- C50 does not hold: for a requested MTU in the gap the program aborts (an assertion in
`astlpc_packet_size` fails) instead of reporting an error. -/
theorem C50_aborts {hw : Hw E} {env : E} {mtu : Nat} (h1 : 4294967284 ≤ mtu) (h2 : mtu < 4294967292) :
    astStart hw (astInit env .bmc mtu).st = .error .assertFail := by
  show initBmc hw { astZero env .bmc mtu with proto := some astVerCur } = _
  unfold initBmc
  show (bmcBufferSize (some 3) mtu >>= _) = _
  rw [bmcBufferSize_abort h1 h2]
  rfl

/-! ## C53: accesses stay inside the buffers -/

/-- C53: every access to the window is inside its first 32 bytes, or reads inside the receive buffer, or
writes inside the transmit buffer; and the buffers are then disjoint and inside the window. -/
theorem C53_bounds {hw : Hw E} {env : E} {eid : Byte} {mx : Nat} {mode : AstMode} {mtu : Nat} {mem : Mem}
    {c0 c : Core (AstSt E)} (h : AstEndpoint hw env eid mx mode mtu mem c0) {hist : List AstOp} {log : List AstRec}
    (hr : c0.astRun hw hist = .ok (c, log)) : ∀ x ∈ loggedOf c, InBounds x := by
  obtain ⟨bus, hb, -, hj⟩ := h.reached hr
  obtain ⟨-, -, -, -, -, w, htr, -⟩ := hj.1
  intro x hx
  simp only [loggedOf, hb, List.flatMap_cons, List.flatMap_nil, List.append_nil] at hx
  exact htr.bounds x hx

/-- The hypotheses are met: after the handshake a packet is written to the transmit buffer. -/
example : ∃ log accs, AstDemo.run .bmc 64 AstDemo.bmcScript [.poll, .send 9 true 0 [1, 2, 3]] = some (log, accs) ∧
    Access.lpcWrite 256 (be32 7) 0 ∈ accs ∧ Access.kcsWrite .data 1 0 ∈ accs :=
  ⟨_, _, rfl, by decide, by decide⟩

/-! ## C59: flow control -/

/-- The whole trace obeys the protocol. -/
theorem C59_disciplined {hw : Hw E} {env : E} {eid : Byte} {mx : Nat} {mode : AstMode} {mtu : Nat} {mem : Mem}
    {c0 c : Core (AstSt E)} (h : AstEndpoint hw env eid mx mode mtu mem c0) {hist : List AstOp} {log : List AstRec}
    (hr : c0.astRun hw hist = .ok (c, log)) : Disciplined mode (accessesOf c) := by
  obtain ⟨bus, hb, -, hj⟩ := h.reached hr
  obtain ⟨hm, -, -, -, -, w, htr, -⟩ := hj.1
  rw [accessesOf_single hb]
  exact ⟨w, hm ▸ htr.watch⟩

/-- C59: a hand-over command is written to the data register only directly after the status register has
shown that the previous value was read. -/
theorem C59_write {hw : Hw E} {env : E} {eid : Byte} {mx : Nat} {mode : AstMode} {mtu : Nat} {mem : Mem}
    {c0 c : Core (AstSt E)} (h : AstEndpoint hw env eid mx mode mtu mem c0) {hist : List AstOp} {log : List AstRec}
    (hr : c0.astRun hw hist = .ok (c, log)) {pre post : List Access} {cmd : Byte} {rc : Int}
    (ht : accessesOf c = pre ++ .kcsWrite .data cmd rc :: post) (hcmd : cmd = 1 ∨ cmd = 2) :
    ∃ (pre' : List Access) (v : Byte), pre = pre' ++ [.kcsRead .status 0 v] ∧ outputFull mode v = false := by
  obtain ⟨w, hw'⟩ := C59_disciplined h hr
  rw [ht] at hw'
  obtain ⟨w1, w2, h1, h2, -⟩ := watch_split hw'
  refine sawRoom_last h1 ?_
  unfold Watch.step at h2
  simp only at h2
  rcases hcmd with rfl | rfl
  · rw [if_pos rfl] at h2
    split at h2
    · rename_i hc; exact hc.1
    · cases h2
  · rw [if_neg (by decide), if_pos rfl] at h2
    split at h2
    · rename_i hc; exact hc.1
    · cases h2

/-- C59: the data register is read only directly after the status register has shown input. -/
theorem C59_read {hw : Hw E} {env : E} {eid : Byte} {mx : Nat} {mode : AstMode} {mtu : Nat} {mem : Mem}
    {c0 c : Core (AstSt E)} (h : AstEndpoint hw env eid mx mode mtu mem c0) {hist : List AstOp} {log : List AstRec}
    (hr : c0.astRun hw hist = .ok (c, log)) {pre post : List Access} {d : Byte} {rc : Int}
    (ht : accessesOf c = pre ++ .kcsRead .data rc d :: post) :
    ∃ (pre' : List Access) (v : Byte), pre = pre' ++ [.kcsRead .status 0 v] ∧ inputFull mode v = true := by
  obtain ⟨w, hw'⟩ := C59_disciplined h hr
  rw [ht] at hw'
  obtain ⟨w1, w2, h1, h2, -⟩ := watch_split hw'
  refine sawInput_last h1 ?_
  unfold Watch.step at h2
  simp only at h2
  split at h2
  · rename_i hc; exact hc
  · cases h2

theorem sends_start {mode : AstMode} {cmd : Byte} {rc : Int} {l : List Access} (h : Sends mode cmd rc l) :
    (∃ r v, l = [.kcsRead .status r v] ∧ (r ≠ 0 ∨ outputFull mode v = true)) ∧ rc ≠ 0 ∨
    (∃ v r, l = [.kcsRead .status 0 v, .kcsWrite .data cmd r] ∧ outputFull mode v = false ∧ (rc = 0 ↔ r = 0)) := by
  have hready : ∀ v, kcsReady mode v true = !outputFull mode v := by
    have : ∀ v : Byte, kcsReady .bmc v true = !outputFull .bmc v ∧ kcsReady .host v true = !outputFull .host v := by decide
    intro v; cases mode
    · exact (this v).1
    · exact (this v).2
  cases h with
  | unread h => exact .inl ⟨⟨_, _, rfl, .inl h⟩, by simp [EIO]⟩
  | busy h => rw [hready] at h; exact .inl ⟨⟨_, _, rfl, .inr (by simpa using h)⟩, by simp [EBUSY]⟩
  | sent h => rw [hready] at h; exact .inr ⟨_, _, rfl, by simpa using h, by simp⟩
  | unsent h h2 => rw [hready] at h; exact .inr ⟨_, _, rfl, by simpa using h, by simp [EIO, h2]⟩

/-- The first accesses of a poll. -/
theorem poll_prefix {hw : Hw E} {mode : AstMode} {mtu : Nat} {c c' : Core (AstSt E)}
    {bus bus' : Bus (AstSt E)} {e : List Event} {rc : Int} (hb : c.busses = [bus]) (hbr : c.bridge = false)
    (hj : AstJ mode mtu bus) (he : c.astPoll hw 0 = .ok (c', e, rc)) (hb' : c'.busses = [bus']) {new : List Access}
    (hnew : Adds bus.binding.st bus'.binding.st new) {l : List Access}
    (hl : Adds bus.binding.st (astRetry hw bus.binding.st) l) : l <+: new := by
  obtain ⟨-, hcase⟩ := astPoll_view hb hj he
  rcases hcase with ⟨r, w, s, hs, ha, hj1, hcond, hrc, rfl, rfl⟩ | ⟨w, r, d', s, hs, ha, hj1, hrd, hcase⟩
  · simp only [List.cons.injEq, and_true] at hb'
    subst hb'
    rw [hnew.inj (hl.trans ha)]
    exact List.prefix_append _ _
  · rcases hcase with ⟨hcond, hrc, rfl, rfl⟩ | ⟨rfl, hver, hw1, c1, e1, rc1, stop, hcmd, hfin⟩
    · simp only [List.cons.injEq, and_true] at hb'
      subst hb'
      rw [hnew.inj (hl.trans ha)]
      exact List.prefix_append _ _
    · obtain ⟨bus1, m1, t1, hc1, hj2⟩ := astCommand_frame rfl (by exact hbr) hj1 hw1 hcmd
      obtain ⟨b1, hb1, l1, g1, -⟩ := astCommand_growC rfl (by exact hbr) hj1 hw1 hcmd
      rcases hfin with ⟨-, rfl, -⟩ | ⟨-, e2, haf, -⟩
      · rw [hb'] at hb1; simp only [List.cons.injEq, and_true] at hb1; subst hb1
        rw [hnew.inj ((hl.trans ha).trans g1), List.append_assoc]
        exact List.prefix_append _ _
      · have hb1' : c1.busses = [bus1] := by rw [hc1]
        have : b1 = bus1 := by rw [hb1] at hb1'; simpa using hb1'
        subst this
        obtain ⟨b2, hb2, l2, g2, -⟩ := astAfter_growC hb1' hj2 haf
        rw [hb'] at hb2; simp only [List.cons.injEq, and_true] at hb2; subst hb2
        rw [hnew.inj (((hl.trans ha).trans g1).trans g2), List.append_assoc, List.append_assoc]
        exact List.prefix_append _ _

/-- C59: a hand-over that was deferred is retried at the next poll, before anything else: the status
register is read, and if it shows that the previous value was read, the command is written.  (First the
receive buffer, then the transmit buffer.) -/
theorem C59_retry {hw : Hw E} {env : E} {eid : Byte} {mx : Nat} {mode : AstMode} {mtu : Nat} {mem : Mem}
    {c0 c c' : Core (AstSt E)} (h : AstEndpoint hw env eid mx mode mtu mem c0) {hist : List AstOp} {log : List AstRec}
    (hr : c0.astRun hw hist = .ok (c, log)) {bus : Bus (AstSt E)} (hb : c.busses = [bus])
    {e : List Event} {rc : Int} (hp : c.astStep hw .poll = .ok (c', e, rc)) :
    ∃ l1 l2 rest, accessesOf c' = accessesOf c ++ (l1 ++ l2 ++ rest) ∧
      (if bus.binding.st.rx.state = .prepared then
        (∃ r v, l1 = [.kcsRead .status r v] ∧ (r ≠ 0 ∨ outputFull mode v = true)) ∨
        (∃ v r, l1 = [.kcsRead .status 0 v, .kcsWrite .data 2 r] ∧ outputFull mode v = false)
       else l1 = []) ∧
      (if bus.binding.st.tx.state = .prepared then
        (∃ r v, l2 = [.kcsRead .status r v] ∧ (r ≠ 0 ∨ outputFull mode v = true)) ∨
        (∃ v r, l2 = [.kcsRead .status 0 v, .kcsWrite .data 1 r] ∧ outputFull mode v = false)
       else l2 = []) := by
  obtain ⟨bus1, hb1, hbr, hj⟩ := h.reached hr
  have : bus1 = bus := by rw [hb] at hb1; simpa using hb1.symm
  subst this
  obtain ⟨bus', hb', -, hj'⟩ := astStep_inv hb hbr hj hp
  have hp : c.astPoll hw 0 = .ok (c', e, rc) := hp
  obtain ⟨l1, l2, hadds, hr1, hr2, -⟩ := astRetry_adds hw bus1.binding.st
  obtain ⟨f, hf⟩ := astPoll_frame hb hbr hj hp
  have hgrow : ∃ new, Adds bus1.binding.st bus'.binding.st new := by
    obtain ⟨-, hcase⟩ := astPoll_view hb hj hp
    rcases hcase with ⟨r, w, s, hs, ha, hj1, hcond, hrc, rfl, rfl⟩ | ⟨w, r, d', s, hs, ha, hj1, hrd, hcase⟩
    · simp only [List.cons.injEq, and_true] at hb'
      subst hb'; exact ⟨_, hadds.trans ha⟩
    · rcases hcase with ⟨hcond, hrc, rfl, rfl⟩ | ⟨rfl, hver, hw1, c1, e1, rc1, stop, hcmd, hfin⟩
      · simp only [List.cons.injEq, and_true] at hb'
        subst hb'; exact ⟨_, hadds.trans ha⟩
      · obtain ⟨bus2, m1, t1, hc1, hj2⟩ := astCommand_frame rfl (by exact hbr) hj1 hw1 hcmd
        obtain ⟨b1, hb1, k1, g1, -⟩ := astCommand_growC rfl (by exact hbr) hj1 hw1 hcmd
        rcases hfin with ⟨-, rfl, -⟩ | ⟨-, e2, haf, -⟩
        · rw [hb'] at hb1; simp only [List.cons.injEq, and_true] at hb1; subst hb1
          exact ⟨_, (hadds.trans ha).trans g1⟩
        · have hb1' : c1.busses = [bus2] := by rw [hc1]
          have : b1 = bus2 := by rw [hb1] at hb1'; simpa using hb1'
          subst this
          obtain ⟨b2, hb2, k2, g2, -⟩ := astAfter_growC hb1' hj2 haf
          rw [hb'] at hb2; simp only [List.cons.injEq, and_true] at hb2; subst hb2
          exact ⟨_, ((hadds.trans ha).trans g1).trans g2⟩
  obtain ⟨new, hnew⟩ := hgrow
  obtain ⟨rest, hrest⟩ := poll_prefix hb hbr hj hp hb' hnew hadds
  have hmode : bus1.binding.st.mode = mode := hj.1.mode
  rw [hmode] at hr1 hr2
  refine ⟨l1, l2, rest, ?_, ?_, ?_⟩
  · rw [accessesOf_single hb, accessesOf_single hb', hrest]; exact hnew
  · rcases hr1 with ⟨hs, rc1, hsend, -⟩ | ⟨hs, hl, -⟩
    · rw [if_pos hs]
      rcases sends_start hsend with ⟨h, -⟩ | ⟨v, r, h1, h2, -⟩
      · exact .inl h
      · exact .inr ⟨v, r, h1, h2⟩
    · rw [if_neg hs]; exact hl
  · rcases hr2 with ⟨hs, rc1, hsend, -⟩ | ⟨hs, hl, -⟩
    · rw [if_pos hs]
      rcases sends_start hsend with ⟨h, -⟩ | ⟨v, r, h1, h2, -⟩
      · exact .inl h
      · exact .inr ⟨v, r, h1, h2⟩
    · rw [if_neg hs]; exact hl

/-! ## C63: one packet in flight -/

/-- C63: between announcing a packet and the next write to the packet buffer, the other side has handed
the buffer back (2 was read from the data register) or a new channel was started. -/
theorem C63_one_in_flight {hw : Hw E} {env : E} {eid : Byte} {mx : Nat} {mode : AstMode} {mtu : Nat} {mem : Mem}
    {c0 c : Core (AstSt E)} (h : AstEndpoint hw env eid mx mode mtu mem c0) {hist : List AstOp} {log : List AstRec}
    (hr : c0.astRun hw hist = .ok (c, log)) {pre mid post : List Access} {off : Nat} {bs : List Byte} {rc : Int}
    (ht : accessesOf c = pre ++ .kcsWrite .data 1 0 :: mid ++ .lpcWrite off bs rc :: post) (hoff : 32 < off + bs.length) :
    Access.kcsRead .data 0 2 ∈ mid ∨ ∃ a ∈ mid, NewChannel a := by
  obtain ⟨w, hw'⟩ := C59_disciplined h hr
  rw [ht, List.append_assoc, List.cons_append] at hw'
  obtain ⟨w1, w2, h1, h2, h3⟩ := watch_split hw'
  obtain ⟨w3, w4, h4, h5, -⟩ := watch_split h3
  have htx : w2.tx = .handed := by
    unfold Watch.step at h2
    simp only at h2
    rw [if_pos trivial] at h2
    split at h2
    · simp only [Option.some.injEq] at h2; subst h2; rfl
    · cases h2
  by_cases hm : ∀ a ∈ mid, a ≠ .kcsRead .data 0 2 ∧ ¬ NewChannel a
  · have h6 := watch_handed h4 htx hm
    unfold Watch.step at h5
    simp only [h6] at h5
    rw [if_neg (by omega)] at h5
    cases h5
  · rw [Classical.not_forall] at hm
    obtain ⟨a, hm⟩ := hm
    rw [Classical.not_imp] at hm
    obtain ⟨ha, hm⟩ := hm
    rw [Classical.not_and_iff_not_or_not, Classical.not_not, Classical.not_not] at hm
    rcases hm with rfl | hm
    · exact .inl ha
    · exact .inr ⟨a, ha, hm⟩

end Mctp
