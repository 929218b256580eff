import Verif.Proofs.AstGeo
import Verif.Proofs.AstWrote
import Verif.Proofs.LinkReady
import Verif.Proofs.AstSafe
import Verif.Spec.AstSize

/-!
# The packet size and the buffer sizes of an open channel
-/

namespace Mctp

open Spec

variable {E : Type}

/-- The channel is open: the bus may transmit, or a packet is on its way. -/
def ChanOpen (bus : Bus (AstSt E)) : Prop :=
  bus.state = .txEnabled ∨ bus.binding.st.tx.state = .prepared ∨ bus.binding.st.tx.state = .released

/-- The sizes of an open channel. -/
def Sz (mode : AstMode) (mtu : Nat) (b : Binding (AstSt E)) : Prop :=
  ∃ v h, b.st.proto = some v ∧ v ≠ 0 ∧ v < 4 ∧ (2 ≤ v → b.pktSize + overhead v = b.st.tx.size) ∧
    lastHeader b.st.accs = some h ∧
    (mode = .bmc → b.st.rx.size = b.st.tx.size ∧ b.st.tx.size ≤ rxSizeOf h ∧
      (mtu ≠ 0 → b.st.tx.size ≤ mtu + 4 + overhead v)) ∧
    (mode = .host → b.st.tx.size = txSizeOf h ∧ b.st.rx.size = rxSizeOf h)

theorem lastHeader_append {a b : List Access} (h : ∀ x ∈ b, headerOf x = none) : lastHeader (a ++ b) = lastHeader a := by
  unfold lastHeader
  have : b.filterMap headerOf = [] := by
    rw [List.filterMap_eq_nil_iff]; exact h
  rw [List.filterMap_append, this, List.append_nil]

theorem lastHeader_read (a : List Access) (bs : List Byte) (rc : Int) : lastHeader (a ++ [.lpcRead 0 bs rc]) = some bs := by
  unfold lastHeader
  rw [List.filterMap_append]
  simp [headerOf]

theorem IsTxAccess.noHdr {a : Access} (h : IsTxAccess a) : headerOf a = none := by
  unfold IsTxAccess at h; split at h <;> first | rfl | exact h.elim

theorem Sends.noHdr {mode : AstMode} {cmd : Byte} {rc : Int} {l : List Access} (h : Sends mode cmd rc l) :
    ∀ x ∈ l, headerOf x = none := by
  cases h <;> simp [headerOf]

/-- Nothing the sizes depend on has changed, and no header was read. -/
structure SizeSame (b b' : Binding (AstSt E)) : Prop where
  pk   : b'.pktSize = b.pktSize
  prot : b'.st.proto = b.st.proto
  tx   : b'.st.tx.size = b.st.tx.size
  rx   : b'.st.rx.size = b.st.rx.size
  log  : lastHeader b'.st.accs = lastHeader b.st.accs

theorem Sz.same {mode : AstMode} {mtu : Nat} {b b' : Binding (AstSt E)} (h : Sz mode mtu b) (hs : SizeSame b b') :
    Sz mode mtu b' := by
  obtain ⟨v, hd, h1, h2, h3, h4, h5, h6, h7⟩ := h
  refine ⟨v, hd, hs.prot.trans h1, h2, h3, ?_, hs.log.trans h5, ?_, ?_⟩
  · rw [hs.pk, hs.tx]; exact h4
  · rw [hs.tx, hs.rx]; exact h6
  · rw [hs.tx, hs.rx]; exact h7

theorem SizeSame.adds {b b' : Binding (AstSt E)} {l : List Access} (h0 : b'.pktSize = b.pktSize) (h1 : b'.st.proto = b.st.proto)
    (h2 : b'.st.tx.size = b.st.tx.size) (h3 : b'.st.rx.size = b.st.rx.size) (ha : Adds b.st b'.st l)
    (hl : ∀ x ∈ l, headerOf x = none) : SizeSame b b' := by
  refine ⟨h0, h1, h2, h3, ?_⟩
  rw [ha, lastHeader_append hl]

theorem SizeSame.refl (b : Binding (AstSt E)) : SizeSame b b := ⟨rfl, rfl, rfl, rfl, rfl⟩
theorem SizeSame.trans {a b c : Binding (AstSt E)} (h : SizeSame a b) (h' : SizeSame b c) : SizeSame a c :=
  ⟨h'.pk.trans h.pk, h'.prot.trans h.prot, h'.tx.trans h.tx, h'.rx.trans h.rx, h'.log.trans h.log⟩

theorem TxOnly.size {bus bus' : Bus (AstSt E)} (h : TxOnly bus bus') : SizeSame bus.binding bus'.binding := by
  obtain ⟨l, ha, hl⟩ := h.adds
  exact SizeSame.adds (by rw [h.bind]) h.prot h.txs (by rw [h.rx]) ha (fun x hx => (hl x hx).noHdr)

theorem negotiateLayoutBmc_size {hw : Hw E} {mtu : Nat} {b b' : Binding (AstSt E)}
    (h : AstInv .bmc mtu b.st) (he : negotiateLayoutBmc hw b = .ok (0, b')) : Sz .bmc mtu b' := by
  obtain ⟨hm, hmt, hpr, hlay, hbusy, w, htr, hph⟩ := h
  have hlt : b.st.rx.offset < 2 ^ 32 ∧ b.st.tx.offset < 2 ^ 32 := by
    rcases hlay with hl | hl
    · obtain ⟨h1, _, h2, _⟩ := hl; omega
    · exact ⟨hl.lt.1, hl.lt.2.2.1⟩
  unfold negotiateLayoutBmc at he
  obtain ⟨version, hversion, he⟩ := Res.bind_eq_ok.mp he
  split at he
  · simp [EINVAL] at he
  · obtain ⟨⟨r1, l, s1⟩, hr1, he⟩ := Res.bind_eq_ok.mp he
    obtain ⟨l1, l2, l3, l4⟩ := layoutRead_lt hr1
    obtain ⟨hd, hlen, hs1, ha1, hl⟩ := layoutRead_ok hr1
    rw [hm] at hl
    simp only at he hl
    split at he
    · rename_i hneg
      simp only [Except.ok.injEq, Prod.mk.injEq] at he
      omega
    · obtain ⟨valid, hv, he⟩ := Res.bind_eq_ok.mp he
      split at he
      · simp [EINVAL] at he
      · obtain ⟨m, hmm, he⟩ := Res.bind_eq_ok.mp he
        obtain ⟨sz, hsz, he⟩ := Res.bind_eq_ok.mp he
        obtain ⟨valid2, hv2, he⟩ := Res.bind_eq_ok.mp he
        obtain ⟨v, hv', hv0, hszlt1, hszlt2⟩ := protoPacketSize_inv (u32_lt _) hsz
        split at he
        · rename_i hval
          have hval : valid2 = true := by simpa using hval
          subst hval
          obtain ⟨v2, hv2', -, hsafe⟩ := layoutValidate_true hv2 (by simp only; rw [hs1.rx]; exact hlt.1) (by simp only; omega)
            (by simp only; rw [hs1.tx]; exact hlt.2) (by simp only; omega)
          rw [hv'] at hv2'
          cases hv2'
          have hge := hsafe.1.2
          simp only at hge
          obtain ⟨⟨r2, s2⟩, hr2, he⟩ := Res.bind_eq_ok.mp he
          have hmode1 : s1.mode = .bmc := hs1.mode.trans hm
          unfold layoutWrite at hr2
          simp only [hmode1] at hr2
          obtain ⟨hs2, -⟩ := lpcWrite_ok hr2
          have ha2 := lpcWrite_adds hr2
          -- the size
          unfold calculateMtu at hmm
          obtain ⟨limit, h1, hmm⟩ := Res.bind_eq_ok.mp hmm
          obtain ⟨body, h2, hmm⟩ := Res.bind_eq_ok.mp hmm
          simp only [Except.ok.injEq] at hmm
          obtain ⟨v3, hv3, -, hov, hbody⟩ := protoBodySize_inv (by omega) h2
          rw [hv'] at hv3
          cases hv3
          have hlim : s1.mtu ≠ 0 → limit ≤ s1.mtu + 4 + overhead v := by
            intro hne
            rw [if_pos hne] at h1
            obtain ⟨rp, h3, h1⟩ := Res.bind_eq_ok.mp h1
            obtain ⟨v4, hv4, -, -, hrp⟩ := protoPacketSize_inv (u32_lt _) h3
            rw [hv'] at hv4
            cases hv4
            simp only [Except.ok.injEq] at h1
            have : u32 (packetSize s1.mtu) ≤ s1.mtu + 4 := Nat.mod_le _ _
            omega
          have hbig : 4 ≤ body := by
            rcases Nat.lt_or_ge body 4 with hlt4 | h4
            · exfalso
              have : u32 (packetSize m) = body := by
                rw [← hmm]; unfold u32 packetSize bodySize hdrSize sizeMod; omega
              omega
            · exact h4
          have hsize : packetSize m = body ∧ sz = body + overhead v := by
            have hb32 : body < 2 ^ 32 := by omega
            have : packetSize m = body := by
              rw [← hmm]; unfold u32 packetSize bodySize hdrSize sizeMod; omega
            exact ⟨this, by rw [hszlt2, this, u32_of_lt hb32]⟩
          have hp2 : s2.proto = some v := hs2.proto.trans hv'
          have ht2 : s2.tx.size = sz := by rw [hs2.tx]
          have hr2' : s2.rx.size = sz := by rw [hs2.rx]
          have hlog : lastHeader s2.accs = some hd := by
            have ha2' : Adds s1 s2 _ := ha2.congr rfl rfl
            rw [ha2', lastHeader_append (by simp [headerOf]), ha1, lastHeader_read]
          have hle : sz ≤ rxSizeOf hd := by
            have : l.tx.size = rxSizeOf hd := by rw [hl]; rfl
            omega
          have hle2 : mtu ≠ 0 → sz ≤ mtu + 4 + overhead v := by
            intro hne
            have h5 : s1.mtu = mtu := hs1.mtu.trans hmt
            have := hlim (by rw [h5]; exact hne)
            rw [h5] at this
            omega
          have hv4 : v < 4 := hpr v (by rw [← hs1.proto]; exact hv')
          have hver : version = v := by
            rw [← hs1.proto, hv'] at hversion
            simpa [protoVersion] using hversion.symm
          subst hver
          simp only at he
          split at he
          · rename_i hneg
            simp only [Except.ok.injEq, Prod.mk.injEq] at he
            omega
          · split at he
            · simp only [Except.ok.injEq, Prod.mk.injEq, true_and] at he
              subst he
              refine ⟨version, hd, hp2, hv0, hv4, fun _ => ?_, hlog, fun _ => ⟨?_, ?_, ?_⟩, by simp⟩
              · simp only; rw [ht2, hsize.1, hsize.2]
              · simp only; rw [ht2, hr2']
              · simp only; rw [ht2]; exact hle
              · simp only; rw [ht2]; exact hle2
            · rename_i hv2
              simp only [Except.ok.injEq, Prod.mk.injEq, true_and] at he
              subst he
              refine ⟨version, hd, hp2, hv0, hv4, fun hh => absurd hh hv2, hlog, fun _ => ⟨?_, ?_, ?_⟩, by simp⟩
              · simp only; rw [ht2, hr2']
              · simp only; rw [ht2]; exact hle
              · simp only; rw [ht2]; exact hle2
        · simp [EINVAL] at he

theorem initChannel_size {hw : Hw E} {mtu : Nat} {b b' : Binding (AstSt E)}
    (h : AstInv .bmc mtu b.st) (he : initChannel hw b = .ok (true, b')) : Sz .bmc mtu b' := by
  obtain ⟨hm, hmt, hpr, hlay, hbusy, w, htr, hph⟩ := h
  unfold initChannel at he
  obtain ⟨⟨r1, hdr, s1⟩, hr1, he⟩ := Res.bind_eq_ok.mp he
  obtain ⟨hs1, -, w1, ht1, hx1, hy1⟩ := lpcRead_hdr htr (by decide) (by decide) hr1
  simp only at he
  generalize hn : negotiateVersion astVerMin astVerCur (field16 hdr offHostMin) (field16 hdr offHostCur) = n at he
  split at he
  · cases he
  · rename_i hn4
    have hi1 : AstInv .bmc mtu { s1 with proto := some n } := by
      refine ⟨hs1.mode.trans hm, hs1.mtu.trans hmt, by intro v hv; cases hv; omega, ?_, ?_, w1, ht1.congr rfl rfl,
        hph.quiet (by simp only; rw [hs1.tx]) (by simp only; rw [hs1.rx]) hx1 hy1⟩
      · rcases hlay with hl | hl
        · exact .inl (hl.congr (by simp only; rw [hs1.rx]) (by simp only; rw [hs1.rx]) (by simp only; rw [hs1.tx]) (by simp only; rw [hs1.tx]))
        · exact .inr (hl.congr (by simp only; rw [hs1.rx]) (by simp only; rw [hs1.rx]) (by simp only; rw [hs1.tx]) (by simp only; rw [hs1.tx]))
      · simp only; rw [hs1.tx]; intro hb
        exact (hbusy hb).congr (by rw [hs1.rx]) (by rw [hs1.rx]) (by simp) (by simp)
    obtain ⟨⟨rc, b2⟩, hr2, he⟩ := Res.bind_eq_ok.mp he
    obtain ⟨⟨r3, s3⟩, hr3, he⟩ := Res.bind_eq_ok.mp he
    obtain ⟨hs3, -⟩ := lpcWrite_ok hr3
    have ha3 := lpcWrite_adds hr3
    simp only at he
    generalize hst : (if (if rc < 0 then 0 else n) > 0 then kcsBmcReady ||| kcsObf ||| kcsChannelActive else kcsBmcReady ||| kcsObf) = st at he
    generalize hk : kcsSetStatus hw { s3 with tx := { s3.tx with state := .acquired }, rx := { s3.rx with state := .released } } st = r at he
    obtain ⟨r4, s4⟩ := r
    obtain ⟨hs4, -, l4, ha4, hl4⟩ := kcsSetStatus_adds hk
    simp only [Except.ok.injEq, Prod.mk.injEq, decide_eq_true_eq] at he
    obtain ⟨hact, rfl⟩ := he
    have hrc : rc = 0 := by
      obtain ⟨-, -, -, -, -, hres⟩ := negotiateLayoutBmc_inv (b := { b with st := { s1 with proto := some n } }) hi1 hr2
      rcases hres with ⟨h0, -⟩ | hneg
      · exact h0
      · exfalso
        rw [if_pos hneg, if_neg (by decide)] at hst
        rw [← hst] at hact
        exact hact (by decide)
    subst hrc
    have hz := negotiateLayoutBmc_size (b := { b with st := { s1 with proto := some n } }) hi1 hr2
    refine hz.same ?_
    have ha5 : Adds b2.st s4 _ := (ha3.congr (b' := { s3 with tx := { s3.tx with state := .acquired }, rx := { s3.rx with state := .released } }) rfl rfl).trans ha4
    refine SizeSame.adds rfl (hs4.proto.trans hs3.proto) (by simp only; rw [hs4.tx]; simp only; rw [hs3.tx])
      (by simp only; rw [hs4.rx]; simp only; rw [hs3.rx]) ha5 ?_
    intro x hx
    rcases List.mem_append.mp hx with hx | hx
    · simp only [List.mem_singleton] at hx; subst hx; rfl
    · cases hl4 <;> simp only [List.mem_cons, List.not_mem_nil, or_false] at hx
      · subst hx; rfl
      · rcases hx with rfl | rfl <;> rfl

theorem finaliseChannel_size {hw : Hw E} {mtu : Nat} {b b' : Binding (AstSt E)} (hm : b.st.mode = .host)
    (he : finaliseChannel hw b = .ok (0, b')) : Sz .host mtu b' := by
  unfold finaliseChannel at he
  obtain ⟨⟨rc1, ver, s1⟩, hr, he⟩ := Res.bind_eq_ok.mp he
  simp only at he
  obtain ⟨hs1, -⟩ := lpcRead_ok hr
  split at he
  · rename_i hneg
    simp only [Except.ok.injEq, Prod.mk.injEq] at he
    omega
  · split at he
    · simp [EINVAL] at he
    · rename_i hver
      obtain ⟨⟨rc2, l, s2⟩, hl, he⟩ := Res.bind_eq_ok.mp he
      obtain ⟨hd, hlen, hs2, ha2, hl'⟩ := layoutRead_ok hl
      have hm1 : s1.mode = .host := hs1.mode.trans hm
      simp only [hm1] at hl'
      simp only at he
      split at he
      · rename_i hneg
        simp only [Except.ok.injEq, Prod.mk.injEq] at he
        omega
      · obtain ⟨valid, hv, he⟩ := Res.bind_eq_ok.mp he
        split at he
        · simp [EINVAL] at he
        · rename_i hval
          obtain ⟨most, hmo, he⟩ := Res.bind_eq_ok.mp he
          simp only [Except.ok.injEq, Prod.mk.injEq, true_and] at he
          subst he
          obtain ⟨l1, l2, l3, l4⟩ := layoutRead_lt hl
          have hp : s2.proto = some (fromBe ver) := hs2.proto
          simp only [astVerMin, astVerCur] at hver
          refine ⟨fromBe ver, hd, hp, by omega, by omega, fun h2 => ?_, ?_, by simp, fun _ => ⟨?_, ?_⟩⟩
          · rw [if_pos h2, hp] at hmo
            obtain ⟨v, hv1, -, hov, hm2⟩ := protoBodySize_inv l4 hmo
            cases hv1
            simp only
            omega
          · show lastHeader s2.accs = _
            have ha2' : Adds s1 s2 _ := ha2.congr rfl rfl
            rw [ha2', lastHeader_read]
          · simp only [hl']; rfl
          · simp only [hl']; rfl

/-- The invariant: what holds when the channel is open. -/
def SzInv (mode : AstMode) (mtu : Nat) (bus : Bus (AstSt E)) : Prop :=
  ChanOpen bus → Sz mode mtu bus.binding ∧ (mode = .host → IsReady bus.binding.st.kcsStatus)

/-- The only bus of `c'` satisfies the invariant. -/
def SzC (mode : AstMode) (mtu : Nat) (c' : Core (AstSt E)) : Prop := ∃ bus', c'.busses = [bus'] ∧ SzInv mode mtu bus'

theorem setTxEnabled_szC {hw : Hw E} {mode : AstMode} {mtu : Nat} {c c' : Core (AstSt E)} {i : Nat} {on : Bool}
    {bus : Bus (AstSt E)} {e : List Event} (hb : c.busses = [bus]) (hi : AstInv mode mtu bus.binding.st)
    (hta : bus.binding.st.tx.state = .acquired ∨ bus.binding.st.tx.state = .idle)
    (hon : on = true → bus.binding.st.tx.state = .acquired ∧ LaySafe bus.binding.st)
    (hz : on = true → Sz mode mtu bus.binding ∧ (mode = .host → IsReady bus.binding.st.kcsStatus))
    (he : c.setTxEnabled (astOps hw) i on = .ok (c', e)) : SzC mode mtu c' := by
  cases on with
  | false =>
    obtain ⟨rfl, rfl, rfl⟩ := setTxEnabled_false hb he
    refine ⟨_, rfl, fun ho => ?_⟩
    rcases ho with ho | ho | ho
    · simp only at ho; split at ho <;> cases ho
    · simp only at ho; rcases hta with h | h <;> rw [h] at ho <;> cases ho
    · simp only at ho; rcases hta with h | h <;> rw [h] at ho <;> cases ho
  | true =>
    obtain ⟨bus', m, rfl, ho, -⟩ := setTxEnabled_only hb hi hon he
    obtain ⟨h1, h2⟩ := hz rfl
    exact ⟨bus', rfl, fun _ => ⟨h1.same ho.size, fun hm => by rw [ho.kcs]; exact h2 hm⟩⟩

theorem astUpdateActive_szC {hw : Hw E} {mtu : Nat} {c c' : Core (AstSt E)} {i : Nat}
    {bus : Bus (AstSt E)} {e : List Event} {status updated : Byte} {rc : Int} (hb : c.busses = [bus])
    (hj : AstJ .host mtu bus) (hz : SzInv .host mtu bus) (hact : status &&& kcsChannelActive ≠ 0 → IsReady status)
    (hrd : IsReady bus.binding.st.kcsStatus → ChanOpen bus → IsReady status)
    (he : c.astUpdateActive hw i status updated = .ok (c', e, rc)) : SzC .host mtu c' := by
  unfold Core.astUpdateActive at he
  obtain ⟨bus1, hbus, he⟩ := Res.bind_eq_ok.mp he
  obtain ⟨rfl, rfl⟩ := busAt_single hb hbus
  obtain ⟨version, hver, he⟩ := Res.bind_eq_ok.mp he
  simp only at he
  split at he
  · obtain ⟨⟨rc1, b1⟩, hf, he⟩ := Res.bind_eq_ok.mp he
    have hi0 := hj.1.states
    obtain ⟨hi1, hk1, hres⟩ := finaliseChannel_inv (b := { bus1.binding with st := { bus1.binding.st with rx := { bus1.binding.st.rx with state := .idle }, tx := { bus1.binding.st.tx with state := .idle } } }) hi0 rfl rfl hf
    obtain ⟨⟨c1, e1⟩, hset, he⟩ := Res.bind_eq_ok.mp he
    rw [setBinding_single hb] at hset
    have hta : b1.st.tx.state = .acquired ∨ b1.st.tx.state = .idle := by
      rcases hres with ⟨_, ha, _⟩ | ⟨_, ha, _⟩
      · exact .inl ha
      · exact .inr (by rw [ha])
    obtain ⟨bus2, hbus2, he⟩ := Res.bind_eq_ok.mp he
    simp only [Except.ok.injEq, Prod.mk.injEq] at he
    obtain ⟨rfl, -⟩ := he
    by_cases hd : status &&& kcsChannelActive ≠ 0 ∧ rc1 = 0
    · obtain ⟨hac, rfl⟩ := hd
      have hsz := finaliseChannel_size (mtu := mtu) (by exact hj.1.mode) hf
      have hon : b1.st.tx.state = .acquired ∧ LaySafe b1.st := by
        rcases hres with ⟨_, ha, _, v, _, _, hs⟩ | ⟨hneg, _⟩
        · exact ⟨ha, hs.one⟩
        · omega
      obtain ⟨bus', m, rfl, ho, -⟩ := setTxEnabled_only rfl hi1 (fun _ => hon) hset
      obtain ⟨-, rfl⟩ := busAt_single rfl hbus2
      rw [setSt_single rfl]
      refine ⟨_, rfl, fun _ => ⟨(hsz.same ho.size).same ⟨rfl, rfl, rfl, rfl, rfl⟩, fun _ => hact hac⟩⟩
    · rw [decide_eq_false hd] at hset
      obtain ⟨rfl, -, rfl⟩ := setTxEnabled_false rfl hset
      obtain ⟨-, rfl⟩ := busAt_single rfl hbus2
      rw [setSt_single rfl]
      refine ⟨_, rfl, fun ho => ?_⟩
      rcases ho with ho | ho | ho
      · simp only at ho; split at ho <;> cases ho
      · simp only at ho; rcases hta with h | h <;> rw [h] at ho <;> cases ho
      · simp only at ho; rcases hta with h | h <;> rw [h] at ho <;> cases ho
  · simp only [Except.ok.injEq, Prod.mk.injEq] at he
    obtain ⟨rfl, -⟩ := he
    rw [setSt_single hb]
    refine ⟨_, rfl, fun ho => ?_⟩
    have ho' : ChanOpen bus1 := ho
    obtain ⟨h1, h2⟩ := hz ho'
    exact ⟨h1.same ⟨rfl, rfl, rfl, rfl, rfl⟩, fun _ => hrd (h2 rfl) ho'⟩

theorem astUpdateChannel_szC {hw : Hw E} {mtu : Nat} {c c' : Core (AstSt E)} {i : Nat}
    {bus : Bus (AstSt E)} {e : List Event} {status : Byte} {rc : Int} (hb : c.busses = [bus])
    (hj : AstJ .host mtu bus) (hz : SzInv .host mtu bus) (hact : status &&& kcsChannelActive ≠ 0 → IsReady status)
    (he : c.astUpdateChannel hw i status = .ok (c', e, rc)) : SzC .host mtu c' := by
  unfold Core.astUpdateChannel at he
  obtain ⟨bus1, hbus, he⟩ := Res.bind_eq_ok.mp he
  obtain ⟨rfl, rfl⟩ := busAt_single hb hbus
  simp only at he
  split at he
  · cases he
  · split at he
    · rename_i hflip
      rw [ready_flip] at hflip
      split at he
      · rename_i hr
        have hr : IsReady status := hr
        have hnr : ¬ IsReady bus1.binding.st.kcsStatus := fun h => hflip ⟨fun _ => hr, fun _ => h⟩
        have hno : ¬ ChanOpen bus1 := fun ho => hnr ((hz ho).2 rfl)
        obtain ⟨⟨rc1, s1⟩, hs, he⟩ := Res.bind_eq_ok.mp he
        simp only [Except.ok.injEq, Prod.mk.injEq] at he
        obtain ⟨rfl, -⟩ := he
        rw [setSt_single hb]
        have hmo : bus1.binding.st.mode = .host := hj.1.mode
        unfold astStart at hs
        simp only [hmo] at hs
        have hi : AstInv .host mtu { bus1.binding.st with kcsStatus := status } := by
          obtain ⟨h1, h2, h3, h4, h5, w, h6, h7⟩ := hj.1
          exact ⟨h1, h2, h3, h4, h5, w, h6.congr rfl rfl, h7.1, h7.2, h7.3, h7.4, h7.5⟩
        obtain ⟨-, hrx, htx⟩ := initHost_inv hi (by simpa [hmo] using hs)
        refine ⟨_, rfl, fun ho => absurd ?_ hno⟩
        unfold ChanOpen at ho ⊢
        simp only [htx] at ho
        exact ho
      · rename_i hr
        obtain ⟨⟨c1, e1⟩, hset, he⟩ := Res.bind_eq_ok.mp he
        obtain ⟨⟨c2, e2, rc2⟩, hu, he⟩ := Res.bind_eq_ok.mp he
        simp only [Except.ok.injEq, Prod.mk.injEq] at he
        obtain ⟨rfl, -⟩ := he
        rw [setSt_single hb] at hset
        obtain ⟨bus', m, rfl, ho, hj', -⟩ := setTxEnabled_only rfl hj.1.states (by simp) hset
        obtain ⟨b3, hb3, hz3⟩ := setTxEnabled_szC (mode := .host) (mtu := mtu) rfl hj.1.states (.inr rfl) (by simp) (by simp) hset
        simp only [List.cons.injEq, and_true] at hb3
        subst hb3
        have hno : ¬ ChanOpen bus' := by
          obtain ⟨-, -, hcc⟩ := setTxEnabled_false rfl hset
          have := congrArg Core.busses hcc
          simp only [List.cons.injEq, and_true] at this
          rw [this]
          rintro (h | h | h)
          · simp only at h; split at h <;> cases h
          · cases h
          · cases h
        exact astUpdateActive_szC rfl hj' hz3 hact (fun _ h => absurd h hno) hu
    · rename_i hflip
      have heq : IsReady bus1.binding.st.kcsStatus ↔ IsReady status := by
        rw [ready_flip] at hflip; exact Classical.not_not.mp hflip
      exact astUpdateActive_szC hb hj hz hact (fun h _ => heq.mp h) he

theorem astCommand_szC {hw : Hw E} {mode : AstMode} {mtu : Nat} {c c' : Core (AstSt E)} {i : Nat}
    {bus : Bus (AstSt E)} {e : List Event} {status data : Byte} {rc : Int} {stop : Bool} (hb : c.busses = [bus])
    (hbr : c.bridge = false) (hj : AstJ mode mtu bus) (hz : SzInv mode mtu bus)
    (hsane : mode = .host → (status &&& kcsChannelActive ≠ 0 → IsReady status) ∧ data ≠ cmdInitialise)
    (hw1 : ∃ w, Traced bus.binding.st w ∧ Phase bus.binding.st w ∧ (data = 1 → w.rx = true) ∧
      (data = 2 → bus.binding.st.tx.state = .released → w.tx = .free))
    (he : c.astCommand hw i status data = .ok (c', e, rc, stop)) : SzC mode mtu c' := by
  have hc : SzC mode mtu c := ⟨bus, hb, hz⟩
  obtain ⟨w, htr, hph, hd1, hd2⟩ := hw1
  unfold Core.astCommand at he
  obtain ⟨bus1, hbus, he⟩ := Res.bind_eq_ok.mp he
  obtain ⟨rfl, rfl⟩ := busAt_single hb hbus
  simp only at he
  split at he
  · rename_i hd
    have hmode : mode = .bmc := by
      cases mode
      · rfl
      · exact absurd hd (hsane rfl).2
    subst hmode
    obtain ⟨⟨c1, e1⟩, h1, he⟩ := Res.bind_eq_ok.mp he
    simp only [Except.ok.injEq, Prod.mk.injEq] at he
    obtain ⟨rfl, -⟩ := he
    unfold Core.astInitChannel at h1
    obtain ⟨bus2, hbus2, h1⟩ := Res.bind_eq_ok.mp h1
    obtain ⟨-, rfl⟩ := busAt_single hb hbus2
    obtain ⟨⟨on, b⟩, hic, h1⟩ := Res.bind_eq_ok.mp h1
    obtain ⟨hi1, -, hta, -, hon⟩ := initChannel_inv hj.1 hic
    simp only at h1
    rw [setBinding_single hb] at h1
    exact setTxEnabled_szC (mode := .bmc) (mtu := mtu) rfl hi1 (.inl hta)
      (fun h => ⟨hta, by obtain ⟨v, _, _, hs⟩ := hon h; exact hs.one⟩)
      (fun h => ⟨initChannel_size hj.1 (by rw [← h]; exact hic), by simp⟩) h1
  · split at he
    · split at he
      · simp only [Except.ok.injEq, Prod.mk.injEq] at he
        obtain ⟨rfl, -⟩ := he; exact hc
      · obtain ⟨⟨c1, e1⟩, h1, he⟩ := Res.bind_eq_ok.mp he
        simp only [Except.ok.injEq, Prod.mk.injEq] at he
        obtain ⟨rfl, -⟩ := he
        obtain ⟨-, hl, v, r0, lb, st', m, t, -, -, -, -, hc', hst', hcase⟩ := astRxStart_trace hb hbr hj.1 h1
        rw [hc']
        have htx : st'.tx = bus1.binding.st.tx := by rw [hst']
        have hlog : ∃ l, Adds bus1.binding.st st' l ∧ (∀ x ∈ l, headerOf x = none) ∧ st'.rx.size = bus1.binding.st.rx.size := by
          have hoff : bus1.binding.st.rx.offset ≠ 0 := by
            have := hl.1.1.1; unfold controlArea at this; omega
          have hno : ∀ (o : Nat) bs rc, o ≠ 0 → headerOf (.lpcRead o bs rc) = none := by
            intro o bs rc ho
            unfold headerOf
            split
            · rename_i heq; cases heq; exact absurd rfl ho
            · rfl
          rcases hcase with ⟨-, ha, hrx, -⟩ | ⟨-, -, r1, bytes, rcs, l, -, ha, hse, hrx, -⟩
          · exact ⟨_, ha, by simpa using hno _ _ _ hoff, by rw [hrx]⟩
          · refine ⟨_, ha, ?_, by rw [hrx]⟩
            intro x hx
            simp only [List.cons_append, List.nil_append, List.mem_cons] at hx
            rcases hx with rfl | rfl | hx
            · exact hno _ _ _ hoff
            · exact hno _ _ _ (by omega)
            · exact hse.noHdr x hx
        obtain ⟨l, ha, hno, hrs⟩ := hlog
        refine ⟨_, rfl, fun ho => ?_⟩
        have ho' : ChanOpen bus1 := by unfold ChanOpen at ho ⊢; simpa only [htx] using ho
        obtain ⟨h1, h2⟩ := hz ho'
        refine ⟨h1.same (SizeSame.adds rfl (by rw [hst']) (by simp only; rw [htx]) hrs ha hno), fun hm => ?_⟩
        have : st'.kcsStatus = bus1.binding.st.kcsStatus := by rw [hst']
        simp only [this]
        exact h2 hm
    · split at he
      · rename_i hdata
        split at he
        · simp only [Except.ok.injEq, Prod.mk.injEq] at he
          obtain ⟨rfl, -⟩ := he; exact hc
        · rename_i hrel
          have hrel : bus1.binding.st.tx.state = .released := Decidable.not_not.mp hrel
          obtain ⟨⟨c1, e1⟩, h1, he⟩ := Res.bind_eq_ok.mp he
          simp only [Except.ok.injEq, Prod.mk.injEq] at he
          obtain ⟨rfl, -⟩ := he
          unfold Core.astTxComplete at h1
          obtain ⟨bus2, hbus2, h1⟩ := Res.bind_eq_ok.mp h1
          obtain ⟨-, rfl⟩ := busAt_single hb hbus2
          simp only at h1
          rw [setSt_single hb] at h1
          have hl : LaySafe bus2.binding.st := hj.1.busy (.inr hrel)
          have hl2 : LaySafe { bus2.binding.st with tx := { bus2.binding.st.tx with state := .acquired } } :=
            hl.congr rfl rfl rfl rfl
          obtain ⟨hz1, hz2⟩ := hz (.inr (.inr hrel))
          exact setTxEnabled_szC (mode := mode) (mtu := mtu) rfl
            (bus := { bus2 with binding := { bus2.binding with st := { bus2.binding.st with tx := { bus2.binding.st.tx with state := .acquired } } } })
            ⟨hj.1.mode, hj.1.mtu, hj.1.proto, .inr hl2, fun _ => hl2, w, htr.congr rfl rfl,
              fun _ => hd2 hdata hrel, by simp, by simp, hph.half, hph.rxp⟩ (.inl rfl) (fun _ => ⟨rfl, hl2⟩)
            (fun _ => ⟨hz1.same ⟨rfl, rfl, rfl, rfl, rfl⟩, hz2⟩) h1
      · split at he
        · split at he
          · rename_i hmode
            have hmode : mode = .host := by rw [← hj.1.mode]; exact hmode
            subst hmode
            obtain ⟨⟨c1, e1, rc1⟩, h1, he⟩ := Res.bind_eq_ok.mp he
            simp only [Except.ok.injEq, Prod.mk.injEq] at he
            obtain ⟨rfl, -⟩ := he
            exact astUpdateChannel_szC hb hj hz (hsane rfl).1 h1
          · simp only [Except.ok.injEq, Prod.mk.injEq] at he
            obtain ⟨rfl, -⟩ := he; exact hc
        · simp only [Except.ok.injEq, Prod.mk.injEq] at he
          obtain ⟨rfl, -⟩ := he; exact hc

theorem active_bit6 (v : Byte) : v &&& kcsChannelActive ≠ 0 ↔ v.getLsbD 6 = true := by revert v; decide +kernel
theorem ready_bit7 (v : Byte) : IsReady v ↔ v.getLsbD 7 = true := by unfold IsReady; revert v; decide +kernel

theorem _root_.Mctp.Spec.SaneTrace.sub {l l' : List Access} (h : SaneTrace l') (hl : ∀ x ∈ l, x ∈ l') : SaneTrace l :=
  ⟨fun r v hm => h.1 r v (hl _ hm), fun r hm => h.2 r (hl _ hm)⟩

theorem astPoll_szC {hw : Hw E} {mode : AstMode} {mtu : Nat} {c c' : Core (AstSt E)}
    {bus : Bus (AstSt E)} {e : List Event} {rc : Int} (hb : c.busses = [bus]) (hbr : c.bridge = false)
    (hj : AstJ mode mtu bus) (hz : SzInv mode mtu bus)
    (hsane : mode = .host → ∀ bus', c'.busses = [bus'] → SaneTrace bus'.binding.st.accs)
    (he : c.astPoll hw 0 = .ok (c', e, rc)) : SzC mode mtu c' := by
  obtain ⟨l1, l2, har, h1, h2, hret⟩ := astRetry_adds hw bus.binding.st
  -- after the retries and the reads
  have hmid : ∀ s l, SameSt (astRetry hw bus.binding.st) s → Adds (astRetry hw bus.binding.st) s l →
      (∀ x ∈ l, headerOf x = none) → SzInv mode mtu { bus with binding := { bus.binding with st := s } } := by
    intro s l hs ha hl ho
    have htx : s.tx.size = bus.binding.st.tx.size ∧
        (s.tx.state = .prepared ∨ s.tx.state = .released → bus.binding.st.tx.state = .prepared ∨ bus.binding.st.tx.state = .released) := by
      rw [hs.tx]
      rcases h2 with ⟨hp, rc, -, ht⟩ | ⟨-, -, ht⟩
      · rw [ht]; exact ⟨rfl, fun _ => .inl hp⟩
      · rw [ht]; exact ⟨rfl, id⟩
    have hrx : s.rx.size = bus.binding.st.rx.size := by
      rw [hs.rx]
      rcases h1 with ⟨hp, rc, -, ht⟩ | ⟨-, -, ht⟩ <;> rw [ht]
    have ho' : ChanOpen bus := by
      rcases ho with ho | ho
      · exact .inl ho
      · exact .inr (htx.2 ho)
    obtain ⟨g1, g2⟩ := hz ho'
    have hall : ∀ x ∈ l1 ++ l2 ++ l, headerOf x = none := by
      intro x hx
      simp only [List.mem_append] at hx
      rcases hx with (hx | hx) | hx
      · rcases h1 with ⟨-, rc, hse, -⟩ | ⟨-, rfl, -⟩
        · exact hse.noHdr x hx
        · simp at hx
      · rcases h2 with ⟨-, rc, hse, -⟩ | ⟨-, rfl, -⟩
        · exact hse.noHdr x hx
        · simp at hx
      · exact hl x hx
    refine ⟨g1.same (SizeSame.adds rfl ?_ htx.1 hrx (har.trans ha) hall), fun hm => ?_⟩
    · simp only; rw [hs.proto, hret]
    · simp only; rw [hs.kcs, hret]; exact g2 hm
  obtain ⟨-, hcase⟩ := astPoll_view hb hj he
  rcases hcase with ⟨r, w, s, hs, ha, hj1, hcond, hrc, rfl, rfl⟩ | ⟨w, r, d', s, hs, ha, hj1, hrd, hcase⟩
  · exact ⟨_, rfl, hmid s _ hs ha (by simp [headerOf])⟩
  · have hz1 := hmid s _ hs ha (by simp [headerOf])
    rcases hcase with ⟨hcond, hrc, rfl, rfl⟩ | ⟨rfl, hver, hw1, c1, e1, rc1, stop, hcmd, hfin⟩
    · exact ⟨_, rfl, hz1⟩
    · obtain ⟨bus1, m1, t1, hc1, hj2⟩ := astCommand_frame rfl (by exact hbr) hj1 hw1 hcmd
      have hb1' : c1.busses = [bus1] := by rw [hc1]
      obtain ⟨bg, hbg, lg, hag, -⟩ := astCommand_growC rfl (by exact hbr) hj1 hw1 hcmd
      have : bg = bus1 := by rw [hbg] at hb1'; simpa using hb1'
      subst this
      have hsane1 : mode = .host → (w &&& kcsChannelActive ≠ 0 → IsReady w) ∧ d' ≠ cmdInitialise := by
        intro hm
        have hin : ∀ b' l, c'.busses = [b'] → Adds bg.binding.st b'.binding.st l →
            (w &&& kcsChannelActive ≠ 0 → IsReady w) ∧ d' ≠ cmdInitialise := by
          intro b' l hb' hl
          have hst := hsane hm b' hb'
          have hacc : b'.binding.st.accs = (bus.binding.st.accs ++ (l1 ++ l2) ++ [.kcsRead .status 0 w, .kcsRead .data 0 d']) ++ lg ++ l := by
            rw [hl, hag]; simp only; rw [ha, har]
          rw [hacc] at hst
          refine ⟨fun hac => (ready_bit7 w).mpr (hst.1 0 w (by simp) ((active_bit6 w).mp hac)), fun hd => ?_⟩
          refine hst.2 0 ?_
          rw [hd]
          simp [cmdInitialise]
        rcases hfin with ⟨-, rfl, -⟩ | ⟨-, e2, haf, -⟩
        · exact hin bg [] hb1' (Adds.refl _)
        · obtain ⟨b2, hb2, l, hl, -⟩ := astAfter_growC hb1' hj2 haf
          exact hin b2 l hb2 hl
      obtain ⟨b1, hb1, g1⟩ := astCommand_szC rfl (by exact hbr) hj1 hz1 hsane1 hw1 hcmd
      have : b1 = bg := by rw [hb1] at hb1'; simpa using hb1'
      subst this
      rcases hfin with ⟨-, rfl, -⟩ | ⟨-, e2, haf, -⟩
      · exact ⟨b1, hb1, g1⟩
      · unfold Core.astAfter at haf
        split at haf
        · rename_i hh
          have hm : mode = .host := by rw [← hj.1.mode]; exact hh.1
          subst hm
          exact astUpdateChannel_szC hb1 hj2 g1 (hsane1 rfl).1 haf
        · simp only [Except.ok.injEq, Prod.mk.injEq] at haf
          obtain ⟨rfl, -⟩ := haf
          exact ⟨b1, hb1, g1⟩

/-- Transmission keeps the sizes, and opens nothing. -/
theorem open_keeps (hw : Hw E) (mode : AstMode) (mtu : Nat) (bus0 : Bus (AstSt E)) :
    Keeps (astOps hw) (fun _ bus => (AstJ mode mtu bus ∧ TxOnly bus0 bus) ∧ (ChanOpen bus → ChanOpen bus0)) where
  tx := by
    intro os bus p rest out hj hst hq he
    exact ⟨(txOnly_keeps hw mode mtu bus0).tx (os := os) hj.1 hst hq he, fun _ => hj.2 (.inl hst)⟩
  push := fun {os bus ps} hj h1 h2 => ⟨(txOnly_keeps hw mode mtu bus0).push (os := os) hj.1 h1 h2, hj.2⟩
  off := by
    intro os bus hj hst
    exact ⟨(txOnly_keeps hw mode mtu bus0).off (os := os) hj.1 hst, fun _ => hj.2 (.inl hst)⟩

theorem astStep_szC {hw : Hw E} {mode : AstMode} {mtu : Nat} {c c' : Core (AstSt E)} {bus : Bus (AstSt E)}
    {op : AstOp} {e : List Event} {rc : Int} (hb : c.busses = [bus]) (hbr : c.bridge = false)
    (hj : AstJ mode mtu bus) (hz : SzInv mode mtu bus)
    (hsane : mode = .host → ∀ bus', c'.busses = [bus'] → SaneTrace bus'.binding.st.accs)
    (he : c.astStep hw op = .ok (c', e, rc)) : SzC mode mtu c' := by
  unfold Core.astStep at he
  split at he
  · rename_i o ho
    have hop : IsApp o := by
      cases op <;> simp only [AstOp.core, Option.some.injEq, reduceCtorEq] at ho <;> subst ho <;> trivial
    obtain ⟨bus', m, hx, hc, mx, rfl, hj', -⟩ := step_keeps (open_keeps hw mode mtu bus) hb (os := []) ⟨⟨hj, TxOnly.refl _⟩, id⟩ hop he
    refine ⟨bus', rfl, fun hop => ?_⟩
    obtain ⟨g1, g2⟩ := hz (hj'.2 hop)
    exact ⟨g1.same hj'.1.2.size, fun hm => by rw [hj'.1.2.kcs]; exact g2 hm⟩
  · exact astPoll_szC hb hbr hj hz hsane he

theorem astRun_szC {hw : Hw E} {mode : AstMode} {mtu : Nat} {hist : List AstOp} :
    ∀ {c c' : Core (AstSt E)} {bus : Bus (AstSt E)} {log : List AstRec}, c.busses = [bus] → c.bridge = false →
      AstJ mode mtu bus → SzInv mode mtu bus → GeoOk bus →
      (mode = .host → ∀ bus', c'.busses = [bus'] → SaneTrace bus'.binding.st.accs) →
      c.astRun hw hist = .ok (c', log) → SzC mode mtu c' := by
  induction hist with
  | nil =>
    intro c c' bus log hb hbr hj hz hgeo hsane he
    simp only [Core.astRun, Except.ok.injEq, Prod.mk.injEq] at he
    obtain ⟨rfl, -⟩ := he
    exact ⟨bus, hb, hz⟩
  | cons op rest ih =>
    intro c c' bus log hb hbr hj hz hgeo hsane he
    simp only [Core.astRun] at he
    obtain ⟨⟨c1, e1, rc1⟩, h1, he⟩ := Res.bind_eq_ok.mp he
    obtain ⟨⟨c2, log2⟩, h2, he⟩ := Res.bind_eq_ok.mp he
    simp only [Except.ok.injEq, Prod.mk.injEq] at he
    obtain ⟨rfl, -⟩ := he
    obtain ⟨b1, hb1, hbr1, hj1⟩ := astStep_inv hb hbr hj h1
    obtain ⟨bg, hbg, hg⟩ := astStep_geoC hb hbr hj h1
    have : b1 = bg := by rw [hb1] at hbg; simpa using hbg
    subst this
    have hgeo1 := hgeo.geo hg
    have hs1 : mode = .host → ∀ bus', c1.busses = [bus'] → SaneTrace bus'.binding.st.accs := by
      intro hm b' hb'
      have : b' = b1 := by rw [hb1] at hb'; simpa using hb'.symm
      subst this
      obtain ⟨b2, hb2, -, hw2⟩ := astRun_wc hb1 hbr1 hj1 h2
      obtain ⟨l, ha, -⟩ := hw2 hgeo1
      refine Spec.SaneTrace.sub (hsane hm b2 hb2) fun x hx => ?_
      rw [ha]; exact List.mem_append_left _ hx
    obtain ⟨b1', hb1', hz1⟩ := astStep_szC hb hbr hj hz hs1 h1
    have : b1 = b1' := by rw [hb1] at hb1'; simpa using hb1'
    subst this
    exact ih hb1 hbr1 hj1 hz1 hgeo1 hsane h2

/-- The channel is not open after registration, and the sizes are right whenever it is open. -/
theorem AstEndpoint.sized {hw : Hw E} {env : E} {eid : Byte} {mx : Nat} {mode : AstMode} {mtu : Nat} {mem : Mem}
    {c0 c : Core (AstSt E)} (h : AstEndpoint hw env eid mx mode mtu mem c0) {hist : List AstOp} {log : List AstRec}
    (hr : c0.astRun hw hist = .ok (c, log)) {bus : Bus (AstSt E)} (hb : c.busses = [bus])
    (hsane : mode = .host → SaneTrace bus.binding.st.accs) : SzInv mode mtu bus := by
  obtain ⟨b0, hb0, hbr, hj⟩ := h.inv
  have hg : GeoOk b0 := by
    have := h.geo (hist := []) rfl hb0
    exact this
  obtain ⟨b1, hb1, hz⟩ := astRun_szC hb0 hbr hj (by
      obtain ⟨rc, s, hrc, hs, hb2, -⟩ := h.start
      rw [hb0] at hb2
      simp only [List.cons.injEq, and_true] at hb2
      intro ho
      exfalso
      have htx : s.tx.state = .idle ∨ s.tx.state = .acquired := by
        have hmtu : mtu < 2 ^ 32 := by obtain ⟨_, _, _, hm, _⟩ := h; exact hm
        have h0 := astZero_inv env mode mtu
        unfold astStart at hs
        have hm0 : (astZero env mode mtu).mode = mode := rfl
        rw [hm0] at hs
        cases mode with
        | bmc =>
          obtain ⟨hm, hmt, hpr, hlay, hbusy, w, htr, hph⟩ := h0
          have h1 : AstInv .bmc mtu { astZero env .bmc mtu with proto := some astVerCur } :=
            ⟨hm, hmt, fun v hv => by simp only [Option.some.injEq] at hv; subst hv; decide, hlay, hbusy, w, htr.congr rfl rfl,
              hph.quiet rfl rfl rfl rfl⟩
          exact .inl (initBmc_inv h1 rfl hmtu hs hrc).2.2.1
        | host => exact .inl (by rw [(initHost_inv h0 hs).2.2]; rfl)
      rw [hb2] at ho
      rcases ho with ho | ho | ho
      · cases ho
      · simp only at ho; rcases htx with h | h <;> rw [h] at ho <;> cases ho
      · simp only at ho; rcases htx with h | h <;> rw [h] at ho <;> cases ho) hg
    (fun hm b' hb' => by
      have : b' = bus := by rw [hb] at hb'; simpa using hb'.symm
      subst this; exact hsane hm) hr
  have : b1 = bus := by rw [hb1] at hb; simpa using hb
  subst this
  exact hz

end Mctp
