import Verif.Model.Detached
import Verif.Proofs.Ghost
import Verif.Proofs.AstGrow

/-!
# Starting an astlpc binding that was started before in vain
-/

namespace Mctp

variable {E : Type}

theorem lpcRead_proto (hw : Hw E) (s : AstSt E) (q : Option Nat) (off len : Nat) :
    lpcRead hw { s with proto := q } off len =
      Except.map (fun x => (x.1, x.2.1, { x.2.2 with proto := q })) (lpcRead hw s off len) := by
  simp only [lpcRead, Res.map_ite]
  rfl

theorem same_split (r : Res (Int × AstSt E)) : (∃ f, r = .error f ∧ r = .error f) ∨
    ∃ rc s1 s2, r = .ok (rc, s1) ∧ r = .ok (rc, s2) ∧ (rc = 0 → s2 = s1) ∧
      ∃ q' v', s2 = { s1 with proto := q', kcsStatus := v' } := by
  cases r with
  | error f => exact .inl ⟨f, rfl, rfl⟩
  | ok y => exact .inr ⟨y.1, y.2, y.2, rfl, rfl, fun _ => rfl, y.2.proto, y.2.kcsStatus, rfl⟩

/-- What an earlier attempt left in `proto` and `kcs_status` does not matter to the host's start. -/
theorem initHost_stale (hw : Hw E) (s : AstSt E) (q : Option Nat) (v : Byte) :
    (∃ f, initHost hw s = .error f ∧ initHost hw { s with proto := q, kcsStatus := v } = .error f) ∨
    ∃ rc s1 s2, initHost hw s = .ok (rc, s1) ∧ initHost hw { s with proto := q, kcsStatus := v } = .ok (rc, s2) ∧
      (rc = 0 → s2 = s1) ∧ ∃ q' v', s2 = { s1 with proto := q', kcsStatus := v' } := by
  unfold initHost
  have e1 : kcsRead hw { s with proto := q, kcsStatus := v } .status =
      ((kcsRead hw s .status).1, (kcsRead hw s .status).2.1,
        { (kcsRead hw s .status).2.2 with proto := q, kcsStatus := v }) := rfl
  rw [e1]
  generalize kcsRead hw s .status = a
  obtain ⟨rc, st, s⟩ := a
  simp only
  by_cases h1 : rc ≠ 0
  · right
    rw [if_pos h1, if_pos h1]
    exact ⟨_, _, _, rfl, rfl, fun h => absurd h h1, q, v, rfl⟩
  rw [if_neg h1, if_neg h1]
  by_cases h2 : st &&& kcsBmcReady = 0
  · right
    rw [if_pos h2, if_pos h2]
    exact ⟨_, _, _, rfl, rfl, fun h => absurd h (by decide), q, st, rfl⟩
  rw [if_neg h2, if_neg h2]
  have e2 := lpcRead_proto hw { s with kcsStatus := st } q 0 lpcHdrSize
  simp only at e2
  rw [e2]
  cases lpcRead hw { s with kcsStatus := st } 0 lpcHdrSize with
  | error f => exact .inl ⟨f, rfl, rfl⟩
  | ok x =>
    obtain ⟨r, hdr, s⟩ := x
    simp only [Res.map_ok, Res.bind_ok]
    by_cases h3 : negotiateVersion (field16 hdr offBmcMin) (field16 hdr offBmcCur) astVerMin astVerCur = 0
    · right
      rw [if_pos h3, if_pos h3]
      exact ⟨_, _, _, rfl, rfl, fun h => absurd h (by decide), q, s.kcsStatus, rfl⟩
    rw [if_neg h3, if_neg h3]
    by_cases h4 : 4 ≤ negotiateVersion (field16 hdr offBmcMin) (field16 hdr offBmcCur) astVerMin astVerCur
    · rw [if_pos h4]
      exact .inl ⟨_, rfl, rfl⟩
    rw [if_neg h4]
    exact same_split _

/-- The mode, the MTU and the buffers. -/
def Kept (s s' : AstSt E) : Prop := s'.mode = s.mode ∧ s'.mtu = s.mtu ∧ s'.rx = s.rx ∧ s'.tx = s.tx

theorem SameSt.kept {s s' : AstSt E} (h : SameSt s s') : Kept s s' := by
  unfold SameSt at h
  rw [h]
  exact ⟨rfl, rfl, rfl, rfl⟩

theorem Kept.trans {a b c : AstSt E} (h : Kept a b) (h' : Kept b c) : Kept a c :=
  ⟨h'.1.trans h.1, h'.2.1.trans h.2.1, h'.2.2.1.trans h.2.2.1, h'.2.2.2.trans h.2.2.2⟩

theorem negotiateLayoutHost_kept {hw : Hw E} {s s' : AstSt E} {rc : Int}
    (he : negotiateLayoutHost hw s = .ok (rc, s')) : Kept s s' := by
  unfold negotiateLayoutHost at he
  obtain ⟨⟨r, l, s1⟩, hr, he⟩ := Res.bind_eq_ok.mp he
  have h1 := (layoutRead_same hr).kept
  simp only at he
  split at he
  · cases he; exact h1
  · obtain ⟨v, -, he⟩ := Res.bind_eq_ok.mp he
    split at he
    · cases he; exact h1
    · obtain ⟨sz, -, he⟩ := Res.bind_eq_ok.mp he
      obtain ⟨v, -, he⟩ := Res.bind_eq_ok.mp he
      split at he
      · cases he; exact h1
      · exact h1.trans (layoutWrite_same he).kept

theorem initHost_kept {hw : Hw E} {s s' : AstSt E} {rc : Int} (he : initHost hw s = .ok (rc, s')) : Kept s s' := by
  unfold initHost at he
  have h0 : Kept s (kcsRead hw s .status).2.2 := ⟨rfl, rfl, rfl, rfl⟩
  generalize kcsRead hw s .status = a at he h0
  obtain ⟨r, st, s1⟩ := a
  simp only at he h0
  split at he
  · cases he; exact h0
  · split at he
    · cases he; exact h0
    · obtain ⟨⟨r, hdr, s2⟩, hr, he⟩ := Res.bind_eq_ok.mp he
      have h1 : Kept s s2 := h0.trans (b := s1) (Kept.trans (b := { s1 with kcsStatus := st }) ⟨rfl, rfl, rfl, rfl⟩ (lpcRead_ok hr).1.kept)
      simp only at he
      split at he
      · cases he; exact h1
      · split at he
        · cases he
        · obtain ⟨⟨r, s3⟩, hn, he⟩ := Res.bind_eq_ok.mp he
          have h2 : Kept s s3 := by
            split at hn
            · have := negotiateLayoutHost_kept hn
              exact h1.trans this
            · cases hn; exact h1
          simp only at he
          split at he
          · cases he; exact h2
          · obtain ⟨⟨r, s4⟩, hw1, he⟩ := Res.bind_eq_ok.mp he
            obtain ⟨⟨r, s5⟩, hw2, he⟩ := Res.bind_eq_ok.mp he
            cases he
            have := (h2.trans (lpcWrite_ok hw1).1.kept).trans (lpcWrite_ok hw2).1.kept
            exact this

/-- The BMC's start computes the buffers anew. -/
theorem initBmc_stale (hw : Hw E) (s : AstSt E) (o1 s1 o2 s2 : Nat) :
    initBmc hw { s with rx := { s.rx with offset := o1, size := s1 }, tx := { s.tx with offset := o2, size := s2 } } =
      initBmc hw s := rfl

/-- A binding that was created with `mctp_astlpc_init(mode, mtu)` and whose registration has so far failed. -/
structure Tried (mode : AstMode) (mtu : Nat) (b : Binding (AstSt E)) : Prop where
  outer : b = { astInit b.st.env mode mtu with st := b.st }
  hmode : b.st.mode = mode
  hmtu  : b.st.mtu = mtu
  rxs   : b.st.rx.state = .idle
  txs   : b.st.tx.state = .idle
  host  : mode = .host → b.st.rx = ⟨0, 0, .idle⟩ ∧ b.st.tx = ⟨0, 0, .idle⟩
  bmc   : mode = .bmc → b.st.kcsStatus = 0

theorem Tried.init (env : E) (mode : AstMode) (mtu : Nat) : Tried mode mtu (astInit env mode mtu) :=
  ⟨rfl, rfl, rfl, rfl, rfl, fun _ => ⟨rfl, rfl⟩, fun _ => rfl⟩

theorem initBmc_shape {hw : Hw E} {s s' : AstSt E} {rc : Int} (he : initBmc hw s = .ok (rc, s')) :
    s'.mode = s.mode ∧ s'.mtu = s.mtu ∧ s'.rx.state = s.rx.state ∧ s'.tx.state = s.tx.state ∧ s'.kcsStatus = s.kcsStatus ∧
      rc ≤ 0 := by
  unfold initBmc at he
  obtain ⟨sz, hsz, he⟩ := Res.bind_eq_ok.mp he
  obtain ⟨valid, hv, he⟩ := Res.bind_eq_ok.mp he
  simp only at he
  split at he
  · cases he; exact ⟨rfl, rfl, rfl, rfl, rfl, by decide⟩
  · obtain ⟨⟨r1, s1⟩, hw1, he⟩ := Res.bind_eq_ok.mp he
    have hs1 := (lpcWrite_ok hw1).1
    simp only [Except.ok.injEq] at he
    obtain ⟨hs2, -⟩ := kcsSetStatus_adds he
    have := hs1.trans hs2
    have hrc : rc ≤ 0 := by
      unfold kcsSetStatus at he
      simp only at he
      split at he
      · cases he; decide
      · split at he <;> (cases he; decide)
    unfold SameSt at this
    rw [this]
    exact ⟨rfl, rfl, rfl, rfl, rfl, hrc⟩

/-- Starting it again is starting it for the first time. -/
theorem astStart_tried {hw : Hw E} {mode : AstMode} {mtu : Nat} {b : Binding (AstSt E)} (h : Tried mode mtu b) :
    (∃ f, astStart hw (astInit b.st.env mode mtu).st = .error f ∧ astStart hw b.st = .error f) ∨
    ∃ rc s1 s2, astStart hw (astInit b.st.env mode mtu).st = .ok (rc, s1) ∧ astStart hw b.st = .ok (rc, s2) ∧
      (rc = 0 → s2 = s1.relog b.st.log) ∧ Tried mode mtu { b with st := s2 } := by
  obtain ⟨ho, hm, hmt, hrx, htx, hh, hb⟩ := h
  cases mode with
  | bmc =>
    have hb := hb rfl
    have e : astStart hw b.st = Except.map (onSnd (AstSt.relog b.st.log)) (astStart hw (astInit b.st.env .bmc mtu).st) := by
      rw [← astStart_relog]
      unfold astStart
      rw [hm]
      show _ = initBmc hw (AstSt.mk b.st.env (b.st.log ++ []) .bmc mtu (some astVerCur) ⟨0, 0, .idle⟩ ⟨0, 0, .idle⟩ 0)
      rw [← initBmc_stale hw (AstSt.mk b.st.env (b.st.log ++ []) .bmc mtu (some astVerCur) ⟨0, 0, .idle⟩ ⟨0, 0, .idle⟩ 0)
        b.st.rx.offset b.st.rx.size b.st.tx.offset b.st.tx.size]
      refine congrArg (initBmc hw) ?_
      generalize b.st = s at hm hmt hrx htx hb
      obtain ⟨env, log, mode, mtu', proto, ⟨ro, rs, rst⟩, ⟨to', ts, tst⟩, k⟩ := s
      simp only at hm hmt hrx htx hb
      subst hm hmt hrx htx hb
      simp
    rw [e]
    cases hs : astStart hw (astInit b.st.env .bmc mtu).st with
    | error f => exact .inl ⟨f, rfl, rfl⟩
    | ok q =>
      obtain ⟨rc, s1⟩ := q
      refine .inr ⟨rc, s1, s1.relog b.st.log, rfl, rfl, fun _ => rfl, ?_⟩
      have hs' : initBmc hw { (astInit b.st.env .bmc mtu).st with proto := some astVerCur } = .ok (rc, s1) := hs
      obtain ⟨a1, a2, a3, a4, a5, -⟩ := initBmc_shape hs'
      refine ⟨?_, a1, a2, a3, a4, (fun h => nomatch h), fun _ => a5⟩
      rw [ho]
      rfl
  | host =>
    obtain ⟨r0, t0⟩ := hh rfl
    have e : b.st = { ((astInit b.st.env .host mtu).st.relog b.st.log) with proto := b.st.proto, kcsStatus := b.st.kcsStatus } := by
      generalize b.st = s at hm hmt r0 t0
      obtain ⟨env, log, mode, mtu', proto, rx, tx, k⟩ := s
      simp only at hm hmt r0 t0
      subst hm hmt r0 t0
      simp [astInit, AstSt.relog]
    have e1 : astStart hw b.st = initHost hw b.st := by unfold astStart; rw [hm]
    have e2 : astStart hw (astInit b.st.env .host mtu).st = initHost hw (astInit b.st.env .host mtu).st := rfl
    rw [e1, e2]
    have key := initHost_stale hw ((astInit b.st.env .host mtu).st.relog b.st.log) b.st.proto b.st.kcsStatus
    rw [← e, initHost_relog] at key
    cases hs : initHost hw (astInit b.st.env .host mtu).st with
    | error f =>
      rw [hs] at key
      rcases key with ⟨f', h1, h2⟩ | ⟨rc, s1, s2, h1, -⟩
      · cases h1; exact .inl ⟨f, rfl, h2⟩
      · cases h1
    | ok q =>
      obtain ⟨rc, s1⟩ := q
      rw [hs] at key
      rcases key with ⟨f', h1, h2⟩ | ⟨rc', s1', s2, h1, h2, h3, h4⟩
      · cases h1
      · cases h1
        refine .inr ⟨rc, s1, s2, rfl, h2, h3, ?_⟩
        obtain ⟨k1, k2, k3, k4⟩ := initHost_kept h2
        refine ⟨?_, k1.trans hm, k2.trans hmt, ?_, ?_, fun _ => ⟨k3.trans r0, k4.trans t0⟩, (fun h => nomatch h)⟩
        · rw [ho]; rfl
        · show s2.rx.state = _; rw [k3]; exact hrx
        · show s2.tx.state = _; rw [k4]; exact htx

end Mctp
