import Verif.Spec.AstlpcLog
import Verif.Proofs.AstPure
import Verif.Proofs.Keeps

/-! The accesses of the astlpc binding obey the monitor. -/

namespace Mctp

open Spec

variable {E : Type}

theorem watch_append (mode : AstMode) : ∀ (a b : List Access) (w : Watch),
    watch mode w (a ++ b) = match watch mode w a with | some w' => watch mode w' b | none => none := by
  intro a
  induction a with
  | nil => intro b w; rfl
  | cons x a ih =>
    intro b w
    simp only [List.cons_append, watch]
    split
    · exact ih b _
    · rfl

theorem watch_snoc {mode : AstMode} {l : List Access} {w : Watch} {x : Access} {w' : Watch}
    (h : watch mode Watch.zero l = some w) (hs : w.step mode x = some w') :
    watch mode Watch.zero (l ++ [x]) = some w' := by
  rw [watch_append, h]; simp [watch, hs]

/-- The trace so far is accepted, and the monitor is in state `w`. -/
structure Traced (s : AstSt E) (w : Watch) : Prop where
  watch  : watch s.mode Watch.zero (s.log.map Logged.acc) = some w
  bounds : ∀ x ∈ s.log, InBounds x

/-- Only the environment and the trace differ. -/
def SameSt (s s' : AstSt E) : Prop := s' = { s with env := s'.env, log := s'.log }

theorem SameSt.refl (s : AstSt E) : SameSt s s := rfl
theorem SameSt.trans {a b c : AstSt E} (h : SameSt a b) (h' : SameSt b c) : SameSt a c := by
  unfold SameSt at *; rw [h', h]

theorem SameSt.mode {s s' : AstSt E} (h : SameSt s s') : s'.mode = s.mode := by rw [h]
theorem SameSt.rx {s s' : AstSt E} (h : SameSt s s') : s'.rx = s.rx := by rw [h]
theorem SameSt.tx {s s' : AstSt E} (h : SameSt s s') : s'.tx = s.tx := by rw [h]
theorem SameSt.proto {s s' : AstSt E} (h : SameSt s s') : s'.proto = s.proto := by rw [h]
theorem SameSt.mtu {s s' : AstSt E} (h : SameSt s s') : s'.mtu = s.mtu := by rw [h]
theorem SameSt.kcs {s s' : AstSt E} (h : SameSt s s') : s'.kcsStatus = s.kcsStatus := by rw [h]

/-- Only the mode and the trace matter. -/
theorem Traced.congr {s s' : AstSt E} {w : Watch} (h : Traced s w) (h1 : s'.mode = s.mode)
    (h2 : s'.log = s.log) : Traced s' w :=
  ⟨by rw [h1, h2]; exact h.watch, by rw [h2]; exact h.bounds⟩

theorem Traced.snoc {s s' : AstSt E} {w w' : Watch} {a : Access} (h : Traced s w)
    (hm : s'.mode = s.mode) (hl : s'.log = s.log ++ [⟨s.rx, s.tx, a⟩])
    (hs : w.step s.mode a = some w') (hb : InBounds ⟨s.rx, s.tx, a⟩) : Traced s' w' := by
  refine ⟨?_, ?_⟩
  · rw [hm, hl, List.map_append]; exact watch_snoc h.watch hs
  · rw [hl]
    intro x hx
    rcases List.mem_append.mp hx with hx | hx
    · exact h.bounds x hx
    · simp only [List.mem_singleton] at hx; subst hx; exact hb

theorem kcsRead_same (hw : Hw E) (s : AstSt E) (reg : KcsReg) : SameSt s (kcsRead hw s reg).2.2 := rfl
theorem kcsWrite_same (hw : Hw E) (s : AstSt E) (reg : KcsReg) (v : Byte) :
    SameSt s (kcsWrite hw s reg v).2 := rfl

theorem kcsRead_status {hw : Hw E} {s : AstSt E} {w : Watch} (h : Traced s w) :
    Traced (kcsRead hw s .status).2.2
      { w with last := some (.kcsRead .status (kcsRead hw s .status).1 (kcsRead hw s .status).2.1) } :=
  h.snoc rfl rfl rfl trivial

theorem kcsRead_data {hw : Hw E} {s : AstSt E} {w : Watch} (h : Traced s w) (hi : w.sawInput s.mode = true) :
    Traced (kcsRead hw s .data).2.2
      { last := some (.kcsRead .data (kcsRead hw s .data).1 (kcsRead hw s .data).2.1),
        tx := if (kcsRead hw s .data).1 = 0 ∧ (kcsRead hw s .data).2.1 = 2 ∧ w.tx = .handed then .free else w.tx,
        rx := if (kcsRead hw s .data).1 = 0 ∧ (kcsRead hw s .data).2.1 = 1 then true else w.rx } :=
  h.snoc (a := .kcsRead .data (kcsRead hw s .data).1 (kcsRead hw s .data).2.1) rfl rfl
    (by rw [Watch.step]; simp only [hi, if_true]) trivial

/-- The flag tests of `__mctp_astlpc_kcs_ready`. -/
theorem ready_write : ∀ (v : Byte), kcsReady .bmc v true = !v.getLsbD 0 ∧ kcsReady .host v true = !v.getLsbD 1 := by
  decide +kernel
theorem ready_read : ∀ (v : Byte), kcsReady .bmc v false = v.getLsbD 1 ∧ kcsReady .host v false = v.getLsbD 0 := by
  decide +kernel

theorem sawRoom_of {mode : AstMode} {v : Byte} {w : Watch} (h : kcsReady mode v true = true) :
    Watch.sawRoom mode { w with last := some (.kcsRead .status 0 v) } = true := by
  cases mode
  · rw [(ready_write v).1] at h; simpa [Watch.sawRoom] using h
  · rw [(ready_write v).2] at h; simpa [Watch.sawRoom] using h

theorem sawInput_of {mode : AstMode} {v : Byte} {w : Watch} (h : kcsReady mode v false = true) :
    Watch.sawInput mode { w with last := some (.kcsRead .status 0 v) } = true := by
  cases mode
  · rw [(ready_read v).1] at h; simpa [Watch.sawInput] using h
  · rw [(ready_read v).2] at h; simpa [Watch.sawInput] using h

/-- Sending a command. -/
theorem kcsSend_traced {hw : Hw E} {s s' : AstSt E} {w : Watch} {cmd : Byte} {rc : Int} (h : Traced s w)
    (hc : (cmd = 1 ∧ w.tx = .full) ∨ (cmd = 2 ∧ w.rx = true)) (he : kcsSend hw s cmd = (rc, s')) :
    SameSt s s' ∧ (rc = 0 ∨ rc = -EBUSY ∨ rc = -EIO) ∧ ∃ w', Traced s' w' ∧
      w'.tx = (if cmd = 1 ∧ rc = 0 then .handed else w.tx) ∧
      w'.rx = (if cmd = 2 ∧ rc = 0 then false else w.rx) := by
  have h1 := kcsRead_status (hw := hw) h
  have hsame := kcsRead_same hw s .status
  unfold kcsSend at he
  generalize hr : kcsRead hw s .status = r at h1 hsame he
  obtain ⟨r1, v, s1⟩ := r
  simp only at h1 hsame he
  split at he
  · simp only [Prod.mk.injEq] at he
    obtain ⟨rfl, rfl⟩ := he
    exact ⟨hsame, by simp, _, h1, by simp [EIO], by simp [EIO]⟩
  · rename_i hz
    have hz : r1 = 0 := Decidable.not_not.mp hz
    subst hz
    split at he
    · simp only [Prod.mk.injEq] at he
      obtain ⟨rfl, rfl⟩ := he
      exact ⟨hsame, by simp, _, h1, by simp [EBUSY], by simp [EBUSY]⟩
    · rename_i hrd
      have hrd : kcsReady s1.mode v true = true := by simpa using hrd
      have hroom := sawRoom_of (w := w) hrd
      have hsame2 := kcsWrite_same hw s1 .data cmd
      have h2 : ∃ w', Traced (kcsWrite hw s1 .data cmd).2 w' ∧
          w'.tx = (if cmd = 1 ∧ (kcsWrite hw s1 .data cmd).1 = 0 then .handed else w.tx) ∧
          w'.rx = (if cmd = 2 ∧ (kcsWrite hw s1 .data cmd).1 = 0 then false else w.rx) := by
        rcases hc with ⟨rfl, ht⟩ | ⟨rfl, ht⟩
        · refine ⟨{ last := some (.kcsWrite .data 1 (kcsWrite hw s1 .data 1).1),
                    tx := if (kcsWrite hw s1 .data 1).1 = 0 then .handed else .full, rx := w.rx },
            h1.snoc (a := .kcsWrite .data 1 (kcsWrite hw s1 .data 1).1) rfl rfl ?_ trivial, ?_, ?_⟩
          · rw [ht] at hroom; simp [Watch.step, hroom, ht]
          · simp [ht]
          · simp
        · refine ⟨{ last := some (.kcsWrite .data 2 (kcsWrite hw s1 .data 2).1), tx := w.tx,
                    rx := decide ((kcsWrite hw s1 .data 2).1 ≠ 0) },
            h1.snoc (a := .kcsWrite .data 2 (kcsWrite hw s1 .data 2).1) rfl rfl ?_ trivial, ?_, ?_⟩
          · rw [ht] at hroom; simp [Watch.step, hroom, ht]
          · simp
          · simp only [true_and, ht]; split <;> simp_all
      generalize hr2 : kcsWrite hw s1 .data cmd = r at h2 hsame2 he
      obtain ⟨r2, s2⟩ := r
      simp only at h2 hsame2 he
      obtain ⟨w', h3, h4, h5⟩ := h2
      split at he
      · rename_i hz
        simp only [Prod.mk.injEq] at he
        obtain ⟨rfl, rfl⟩ := he
        exact ⟨hsame.trans hsame2, by simp, w', h3, by simp [h4, hz, EIO], by simp [h5, hz, EIO]⟩
      · rename_i hz
        simp only [Prod.mk.injEq] at he
        obtain ⟨rfl, rfl⟩ := he
        have hz : r2 = 0 := Decidable.not_not.mp hz
        exact ⟨hsame.trans hsame2, by simp, w', h3, by simp [h4, hz], by simp [h5, hz]⟩

/-- Setting the status. -/
theorem kcsSetStatus_traced {hw : Hw E} {s s' : AstSt E} {w : Watch} {v : Byte} {rc : Int} (h : Traced s w)
    (he : kcsSetStatus hw s v = (rc, s')) :
    SameSt s s' ∧ (rc = 0 ∨ rc = -1) ∧ ∃ w', Traced s' w' ∧ w'.tx = w.tx ∧ w'.rx = w.rx := by
  have h1 : Traced (kcsWrite hw s .status v).2 { w with last := some (.kcsWrite .status v (kcsWrite hw s .status v).1) } :=
    h.snoc rfl rfl rfl trivial
  have hsame := kcsWrite_same hw s .status v
  unfold kcsSetStatus at he
  generalize hr : kcsWrite hw s .status v = r at h1 hsame he
  obtain ⟨r1, s1⟩ := r
  simp only at h1 hsame he
  split at he
  · simp only [Prod.mk.injEq] at he
    obtain ⟨rfl, rfl⟩ := he
    exact ⟨hsame, by simp, _, h1, rfl, rfl⟩
  · rename_i hz
    have hz : r1 = 0 := Decidable.not_not.mp hz
    subst hz
    have h2 : Traced (kcsWrite hw s1 .data cmdDummy).2
        { w with last := some (.kcsWrite .data cmdDummy (kcsWrite hw s1 .data cmdDummy).1) } :=
      h1.snoc rfl rfl (by simp [Watch.step, Watch.wroteStatus, cmdDummy, kcsWrite]) trivial
    have hsame2 := kcsWrite_same hw s1 .data cmdDummy
    generalize hr2 : kcsWrite hw s1 .data cmdDummy = r at h2 hsame2 he
    obtain ⟨r2, s2⟩ := r
    simp only at h2 hsame2 he
    split at he <;> simp only [Prod.mk.injEq] at he <;> obtain ⟨rfl, rfl⟩ := he
    · exact ⟨hsame.trans hsame2, by simp, _, h2, rfl, rfl⟩
    · exact ⟨hsame.trans hsame2, by simp, _, h2, rfl, rfl⟩

theorem exactly_length (n : Nat) (bs : List Byte) : (exactly n bs).length = n := by
  simp [exactly]

theorem lpcRead_ok {hw : Hw E} {s s' : AstSt E} {off len : Nat} {rc : Int} {bs : List Byte}
    (he : lpcRead hw s off len = .ok (rc, bs, s')) :
    SameSt s s' ∧ bs.length = len ∧ off + len ≤ lpcWinSize ∧ s'.mode = s.mode ∧
      s'.log = s.log ++ [⟨s.rx, s.tx, .lpcRead off bs rc⟩] := by
  unfold lpcRead at he
  split at he
  · simp only [Except.ok.injEq, Prod.mk.injEq] at he
    obtain ⟨rfl, rfl, rfl⟩ := he
    exact ⟨rfl, exactly_length _ _, by assumption, rfl, rfl⟩
  · cases he

theorem lpcWrite_ok {hw : Hw E} {s s' : AstSt E} {off : Nat} {rc : Int} {bs : List Byte}
    (he : lpcWrite hw s off bs = .ok (rc, s')) :
    SameSt s s' ∧ off + bs.length ≤ lpcWinSize ∧ s'.mode = s.mode ∧
      s'.log = s.log ++ [⟨s.rx, s.tx, .lpcWrite off bs rc⟩] := by
  unfold lpcWrite at he
  split at he
  · simp only [Except.ok.injEq, Prod.mk.injEq] at he
    obtain ⟨rfl, rfl⟩ := he
    exact ⟨rfl, by assumption, rfl, rfl⟩
  · cases he

/-- Reading the header, other than at offset 12. -/
theorem lpcRead_hdr {hw : Hw E} {s s' : AstSt E} {w : Watch} {off len : Nat} {rc : Int} {bs : List Byte}
    (h : Traced s w) (ho : off + len ≤ 32) (hn : off ≠ 12) (he : lpcRead hw s off len = .ok (rc, bs, s')) :
    SameSt s s' ∧ bs.length = len ∧ ∃ w', Traced s' w' ∧ w'.tx = w.tx ∧ w'.rx = w.rx := by
  obtain ⟨h1, h2, h3, h4, h5⟩ := lpcRead_ok he
  refine ⟨h1, h2, { w with last := some (.lpcRead off bs rc) }, h.snoc h4 h5 ?_ ?_, rfl, rfl⟩
  · simp [Watch.step, h2, ho, hn]
  · left; simp only [Within, h2]; omega

/-- Reading the negotiated version. -/
theorem lpcRead_ver {hw : Hw E} {s s' : AstSt E} {w : Watch} {len : Nat} {rc : Int} {bs : List Byte}
    (h : Traced s w) (ho : len ≤ 20) (he : lpcRead hw s 12 len = .ok (rc, bs, s')) :
    SameSt s s' ∧ bs.length = len ∧ ∃ w', Traced s' w' ∧ w'.tx = .free ∧ w'.rx = false := by
  obtain ⟨h1, h2, h3, h4, h5⟩ := lpcRead_ok he
  refine ⟨h1, h2, ⟨some (.lpcRead 12 bs rc), .free, false⟩, h.snoc h4 h5 ?_ ?_, rfl, rfl⟩
  · simp only [Watch.step, h2]; rw [if_pos (by omega)]; simp
  · left; simp only [Within, h2]; omega

theorem lpcWrite_hdr {hw : Hw E} {s s' : AstSt E} {w : Watch} {off : Nat} {rc : Int} {bs : List Byte}
    (h : Traced s w) (ho : off + bs.length ≤ 32) (hn : off ≠ 12) (he : lpcWrite hw s off bs = .ok (rc, s')) :
    SameSt s s' ∧ ∃ w', Traced s' w' ∧ w'.tx = w.tx ∧ w'.rx = w.rx := by
  obtain ⟨h1, h3, h4, h5⟩ := lpcWrite_ok he
  refine ⟨h1, { w with last := some (.lpcWrite off bs rc) }, h.snoc h4 h5 ?_ ?_, rfl, rfl⟩
  · simp [Watch.step, ho, hn]
  · left; simp only [Within]; omega

theorem lpcWrite_ver {hw : Hw E} {s s' : AstSt E} {w : Watch} {rc : Int} {bs : List Byte}
    (h : Traced s w) (ho : bs.length ≤ 20) (he : lpcWrite hw s 12 bs = .ok (rc, s')) :
    SameSt s s' ∧ ∃ w', Traced s' w' ∧ w'.tx = .free ∧ w'.rx = false := by
  obtain ⟨h1, h3, h4, h5⟩ := lpcWrite_ok he
  refine ⟨h1, ⟨some (.lpcWrite 12 bs rc), .free, false⟩, h.snoc h4 h5 ?_ ?_, rfl, rfl⟩
  · simp only [Watch.step]; rw [if_pos (by omega)]; simp
  · left; simp only [Within]; omega

/-- The layout is usable. -/
def LaySafe (s : AstSt E) : Prop := SafeLayout 1 s.rx.offset s.rx.size s.tx.offset s.tx.size

theorem lpcRead_pkt {hw : Hw E} {s s' : AstSt E} {w : Watch} {off len : Nat} {rc : Int} {bs : List Byte}
    (h : Traced s w) (hl : LaySafe s) (hi : Within off len s.rx.offset s.rx.size) (hr : w.rx = true)
    (he : lpcRead hw s off len = .ok (rc, bs, s')) :
    SameSt s s' ∧ bs.length = len ∧ ∃ w', Traced s' w' ∧ w'.tx = w.tx ∧ w'.rx = w.rx := by
  obtain ⟨h1, h2, h3, h4, h5⟩ := lpcRead_ok he
  have hoff : ¬ off + len ≤ 32 := by
    have := hl.1.1.1; unfold controlArea at this; unfold Within at hi; omega
  refine ⟨h1, h2, { w with last := some (.lpcRead off bs rc) }, h.snoc h4 h5 ?_ ?_, rfl, rfl⟩
  · simp [Watch.step, h2, hoff, hr]
  · right; simp only [h2]; exact ⟨hi, hl⟩

theorem lpcWrite_pkt {hw : Hw E} {s s' : AstSt E} {w : Watch} {off : Nat} {rc : Int} {bs : List Byte}
    (h : Traced s w) (hl : LaySafe s) (hi : Within off bs.length s.tx.offset s.tx.size)
    (hr : w.tx = .free ∨ w.tx = .half)
    (he : lpcWrite hw s off bs = .ok (rc, s')) :
    SameSt s s' ∧ ∃ w', Traced s' w' ∧ w'.tx = (if w.tx = .free then .half else .full) ∧ w'.rx = w.rx := by
  obtain ⟨h1, h3, h4, h5⟩ := lpcWrite_ok he
  have hoff : ¬ off + bs.length ≤ 32 := by
    have := hl.2.1.1.1; unfold controlArea at this; unfold Within at hi; omega
  refine ⟨h1, { w with last := some (.lpcWrite off bs rc), tx := if w.tx = .free then .half else .full },
    h.snoc h4 h5 ?_ ?_, rfl, rfl⟩
  · rcases hr with hr | hr <;> simp [Watch.step, hoff, hr]
  · right; exact ⟨hi, hl⟩

end Mctp
