import Verif.Proofs.LinkDir

/-! The invariant of the two sides together, from reset on. -/

namespace Mctp

open Spec

/-! ## The header of the window and the scripts of the handshake

`B` is the size of the buffers the BMC proposes, `H` the size the host asks for. -/

/-- The header of the window: host versions, negotiated version, and the layout. -/
def lhdr (hm hc neg s1 o2 s2 : Nat) : List Byte :=
  be32 astMagic ++ be16 1 ++ be16 3 ++ be16 hm ++ be16 hc ++ be16 neg ++ be16 0 ++ be32 256 ++ be32 s1 ++ be32 o2 ++ be32 s2

/-- As published by the BMC. -/
def hdr0 (B : Nat) : List Byte := lhdr 0 0 0 B (256 + B) B
/-- With the host's wishes. -/
def hdr1 (B H : Nat) : List Byte := lhdr 1 3 0 H (256 + B) B
/-- As agreed. -/
def hdr2 (B H : Nat) : List Byte := lhdr 1 3 3 H (256 + B) H

/-- The layout written by the BMC. -/
def layB (B H : Nat) : List Byte := be32 256 ++ be32 H ++ be32 (256 + B) ++ be32 H

/-- The BMC. -/
def cfgB (B H : Nat) (ls : Bool := true) : LinkCfg where
  lossy := ls
  mode := .bmc
  txo := 256
  rxo := 256 + B
  sz := H
  start := [.lpcWrite 0 (hdr0 B) 0, .kcsWrite .status 0x80 0, .kcsWrite .data 0xff 0]
  init := [.lpcRead 0 (hdr1 B H) 0, .lpcRead 0 (hdr1 B H) 0, .lpcWrite 16 (layB B H) 0, .lpcWrite 12 (be16 3) 0,
    .kcsWrite .status 0xc1 0, .kcsWrite .data 0xff 0]

/-- The host. -/
def cfgH (B H : Nat) : LinkCfg where
  lossy := false
  mode := .host
  txo := 256 + B
  rxo := 256
  sz := H
  start := [.lpcRead 0 (hdr0 B) 0, .lpcRead 0 (hdr0 B) 0, .lpcWrite 20 (be32 H) 0, .lpcWrite 8 (be16 1) 0,
    .lpcWrite 10 (be16 3) 0, .kcsWrite .data 0 0]
  init := [.lpcRead 0 (hdr2 B H) 0]

/-- Progress of the host's start: what is left, and the header of the window. -/
inductive HostAt (B H : Nat) : List Access → List Byte → Prop
  | s0 : HostAt B H [.lpcRead 0 (hdr0 B) 0, .lpcRead 0 (hdr0 B) 0, .lpcWrite 20 (be32 H) 0, .lpcWrite 8 (be16 1) 0,
      .lpcWrite 10 (be16 3) 0, .kcsWrite .data 0 0] (hdr0 B)
  | s1 : HostAt B H [.lpcRead 0 (hdr0 B) 0, .lpcWrite 20 (be32 H) 0, .lpcWrite 8 (be16 1) 0,
      .lpcWrite 10 (be16 3) 0, .kcsWrite .data 0 0] (hdr0 B)
  | s2 : HostAt B H [.lpcWrite 20 (be32 H) 0, .lpcWrite 8 (be16 1) 0, .lpcWrite 10 (be16 3) 0, .kcsWrite .data 0 0] (hdr0 B)
  | s3 : HostAt B H [.lpcWrite 8 (be16 1) 0, .lpcWrite 10 (be16 3) 0, .kcsWrite .data 0 0] (lhdr 0 0 0 H (256 + B) B)
  | s4 : HostAt B H [.lpcWrite 10 (be16 3) 0, .kcsWrite .data 0 0] (lhdr 1 0 0 H (256 + B) B)
  | s5 : HostAt B H [.kcsWrite .data 0 0] (hdr1 B H)

/-- Progress of the BMC's initialisation of the channel: what is left, the header of the window, the
status. -/
inductive InitAt (B H : Nat) : List Access → List Byte → Byte → Prop
  | i0 : InitAt B H [.lpcRead 0 (hdr1 B H) 0, .lpcRead 0 (hdr1 B H) 0, .lpcWrite 16 (layB B H) 0, .lpcWrite 12 (be16 3) 0,
      .kcsWrite .status 0xc1 0, .kcsWrite .data 0xff 0] (hdr1 B H) 0x80
  | i1 : InitAt B H [.lpcRead 0 (hdr1 B H) 0, .lpcWrite 16 (layB B H) 0, .lpcWrite 12 (be16 3) 0,
      .kcsWrite .status 0xc1 0, .kcsWrite .data 0xff 0] (hdr1 B H) 0x80
  | i2 : InitAt B H [.lpcWrite 16 (layB B H) 0, .lpcWrite 12 (be16 3) 0,
      .kcsWrite .status 0xc1 0, .kcsWrite .data 0xff 0] (hdr1 B H) 0x80
  | i3 : InitAt B H [.lpcWrite 12 (be16 3) 0, .kcsWrite .status 0xc1 0, .kcsWrite .data 0xff 0]
      (lhdr 1 3 0 H (256 + B) H) 0x80
  | i4 : InitAt B H [.kcsWrite .status 0xc1 0, .kcsWrite .data 0xff 0] (hdr2 B H) 0x80
  | i5 : InitAt B H [.kcsWrite .data 0xff 0] (hdr2 B H) 0xc1
  | i6 : InitAt B H [] (hdr2 B H) 0xc1

/-- The register to the host, if it is full. -/
def outReg (h : Lpc) : Option Byte := if h.obf then some h.odr else none
/-- The register to the BMC, if it is full. -/
def inReg (h : Lpc) : Option Byte := if h.ibf then some h.idr else none

/-- Before the BMC is told to initialise the channel. -/
structure StA (B H : Nat) (h : Lpc) (b t : Fine) : Prop where
  bo : b.opened = false
  «to» : t.opened = false
  bx : b.w.tx = .free ∧ b.rxp = .away
  tx : t.w.tx = .free ∧ t.rxp = .away
  at_ : (((b.todo = (cfgB B H).start) ∨
          (b.todo = [.kcsWrite .status 0x80 0, .kcsWrite .data 0xff 0] ∧ region h.win 0 32 = hdr0 B)) ∧
        h.status = 0 ∧ h.obf = false ∧ h.ibf = false ∧ t.started = false ∧ t.todo = [] ∧ t.fin = false) ∨
      (((b.todo = [.kcsWrite .data 0xff 0] ∧ h.obf = false ∧ t.fin = false) ∨ (b.todo = [] ∧ h.odr = 255)) ∧
        h.status = 0x80 ∧ (t.fin = true → h.obf = false) ∧
        ((t.started = false ∧ t.todo = [] ∧ t.fin = false ∧ h.ibf = false ∧ region h.win 0 32 = hdr0 B) ∨
         (t.started = true ∧ HostAt B H t.todo (region h.win 0 32) ∧ t.fin = false ∧ h.ibf = false) ∨
         (t.started = true ∧ t.todo = [] ∧ h.ibf = true ∧ h.idr = 0 ∧ region h.win 0 32 = hdr1 B H)))

/-- After that. -/
structure StB (B H : Nat) (h : Lpc) (b t : Fine) : Prop where
  bo  : b.opened = true
  ts  : t.started = true
  at_ : InitAt B H b.todo (region h.win 0 32) h.status
  b1  : b.todo ≠ [] → b.w.tx = .free ∧ b.rxp = .away ∧ h.odr = 255
  r1  : h.obf = true → h.odr = 255 ∨ h.odr = 1 ∨ h.odr = 2
  r2  : h.ibf = true → h.idr = 1 ∨ h.idr = 2
  t0  : t.todo = [] ∨ (t.todo = [.lpcRead 0 (hdr2 B H) 0] ∧ t.opened = true ∧ t.fin = false)
  no  : t.opened = false → t.w.tx = .free ∧ t.rxp = .away ∧ h.ibf = false ∧
          (b.todo = [] → (h.obf = true ∧ h.odr = 255) ∨ t.fin = true) ∧ (t.fin = true → h.obf = true → h.status = 0xc1)
  yes : t.opened = true → InitAt B H b.todo (hdr2 B H) h.status
  act : t.opened = true → t.stale = false → t.fin = false ∧ h.status = 0xc1
  st  : t.opened = true → t.stale = true → t.w.tx = .free ∧ (h.obf = true → h.status = 0xc1) ∧
          (t.fin = true → t.stat.getLsbD 6 = true) ∧ (h.ibf = false ∨ (t.fin = true ∧ t.rxp = .away ∧ h.idr = 2))
  sr  : t.opened = true → t.stale = true → t.rxp ≠ .away → t.fin = true

/-- What the sides know from the status they have just read. -/
structure Flags (h : Lpc) (b t : Fine) : Prop where
  bi : b.w.sawInput .bmc = true → h.ibf = true
  br : b.w.sawRoom .bmc = true → h.obf = false
  ti : t.w.sawInput .host = true → h.obf = true
  tr : t.w.sawRoom .host = true → h.ibf = false
  t6 : t.w.sawInput .host = true → t.opened = true → t.stale = true → t.stat.getLsbD 6 = true
  s6 : t.stat.getLsbD 6 = true → h.status = 0xc1

/-- The invariant. -/
structure Joint (B H : Nat) (h : Lpc) (b t : Fine) : Prop where
  dirB : Dir H 256 h.win (outReg h) (inReg h) b t
  dirH : Dir H (256 + B) h.win (inReg h) (outReg h) t b
  cohB : b.w.rx = decide (b.rxp ≠ .away)
  cohT : t.w.rx = decide (t.rxp ≠ .away)
  bs   : b.started = true ∧ b.stale = false ∧ b.fin = false
  ns   : t.opened = false → t.stale = false
  fl   : Flags h b t
  st   : StA B H h b t ∨ StB B H h b t

theorem joint_zero (B H : Nat) (win : Nat → Byte) :
    Joint B H (Lpc.reset win) (Fine.zero (cfgB B H)) (Fine.zero (cfgH B H)) := by
  refine ⟨.free rfl (by simp [outReg, Lpc.reset]) rfl (by simp [inReg, Lpc.reset]) rfl,
    .free rfl (by simp [inReg, Lpc.reset]) rfl (by simp [outReg, Lpc.reset]) rfl, rfl, rfl, ⟨rfl, rfl, rfl⟩, fun _ => rfl, ?_, .inl ?_⟩
  · constructor <;> simp [Fine.zero, Watch.zero, Watch.sawInput, Watch.sawRoom]
  · exact ⟨rfl, rfl, ⟨rfl, rfl⟩, ⟨rfl, rfl⟩, .inl ⟨.inl rfl, rfl, rfl, rfl, rfl, rfl, rfl⟩⟩

/-! ## Facts about the pieces -/

theorem shown_bits (h : Lpc) : h.shown.getLsbD 0 = h.obf ∧ h.shown.getLsbD 1 = h.ibf ∧
    h.shown.getLsbD 6 = h.status.getLsbD 6 ∧ h.shown.getLsbD 7 = h.status.getLsbD 7 := by
  have key : ∀ (s : Byte) (o i : Bool),
      ((s &&& 0xfc) ||| (if o then 1 else 0) ||| (if i then 2 else 0)).getLsbD 0 = o ∧
      ((s &&& 0xfc) ||| (if o then 1 else 0) ||| (if i then 2 else 0)).getLsbD 1 = i ∧
      ((s &&& 0xfc) ||| (if o then 1 else 0) ||| (if i then 2 else 0)).getLsbD 6 = s.getLsbD 6 ∧
      ((s &&& 0xfc) ||| (if o then 1 else 0) ||| (if i then 2 else 0)).getLsbD 7 = s.getLsbD 7 := by
    decide +kernel
  exact key h.status h.obf h.ibf

theorem Watch.step_last {m : AstMode} {w w' : Watch} {a : Access} (h : w.step m a = some w') : w'.last = some a := by
  unfold Watch.step at h
  cases a with
  | kcsRead reg rc v =>
    cases reg <;> simp only at h
    · split at h <;> simp at h
      subst h; rfl
    · simp at h; subst h; rfl
  | kcsWrite reg v rc =>
    cases reg <;> simp only at h
    · repeat' split at h
      all_goals simp at h
      all_goals (subst h; rfl)
    · simp at h; subst h; rfl
  | lpcRead off bs rc =>
    simp only at h
    repeat' split at h
    all_goals simp at h
    all_goals (subst h; rfl)
  | lpcWrite off bs rc =>
    simp only at h
    repeat' split at h
    all_goals simp at h
    all_goals (subst h; rfl)

/-- Not a read of the status register. -/
def NotStatus : Access → Prop
  | .kcsRead .status _ _ => False
  | _ => True

theorem sawInput_not {m : AstMode} {w : Watch} {a : Access} (h : w.last = some a) (hn : NotStatus a) : w.sawInput m = false := by
  unfold Watch.sawInput
  rw [h]
  cases a with
  | kcsRead reg rc v => cases reg <;> first | rfl | cases hn
  | _ => rfl

theorem sawRoom_not {m : AstMode} {w : Watch} {a : Access} (h : w.last = some a) (hn : NotStatus a) : w.sawRoom m = false := by
  unfold Watch.sawRoom
  rw [h]
  cases a with
  | kcsRead reg rc v => cases reg <;> first | rfl | cases hn
  | _ => rfl

/-- The BMC did something other than reading the status. -/
theorem Flags.bmc {h h' : Lpc} {b b' t : Fine} {a : Access} (f : Flags h b t) (hl : b'.w.last = some a) (hn : NotStatus a)
    (h1 : h.obf = true → h'.obf = true) (h2 : h.ibf = false → h'.ibf = false) (h3 : h.status = 0xc1 → h'.status = 0xc1) :
    Flags h' b' t where
  bi := fun hh => by rw [sawInput_not hl hn] at hh; cases hh
  br := fun hh => by rw [sawRoom_not hl hn] at hh; cases hh
  ti := fun hh => h1 (f.ti hh)
  tr := fun hh => h2 (f.tr hh)
  t6 := f.t6
  s6 := fun hh => h3 (f.s6 hh)

/-- The host did something other than reading the status. -/
theorem Flags.host {h h' : Lpc} {b t t' : Fine} {a : Access} (f : Flags h b t) (hl : t'.w.last = some a) (hn : NotStatus a)
    (h1 : h.ibf = true → h'.ibf = true) (h2 : h.obf = false → h'.obf = false) (h3 : h'.status = h.status) (h4 : t'.stat = t.stat) :
    Flags h' b t' where
  ti := fun hh => by rw [sawInput_not hl hn] at hh; cases hh
  tr := fun hh => by rw [sawRoom_not hl hn] at hh; cases hh
  bi := fun hh => h1 (f.bi hh)
  br := fun hh => h2 (f.br hh)
  t6 := fun hh => by rw [sawInput_not hl hn] at hh; cases hh
  s6 := fun hh => by rw [h3]; rw [h4] at hh; exact f.s6 hh

theorem lhdr_length (a b c d e f : Nat) : (lhdr a b c d e f).length = 32 := rfl

/-- A read of the whole header. -/
theorem hdr_read {win : Nat → Byte} {bs hd : List Byte} (hl : hd.length = bs.length) (h32 : hd.length = 32) (hb : bs = region win 0 bs.length)
    (hr : region win 0 32 = hd) : bs = hd := by
  rw [hb, ← hl, h32, hr]

/-- What holds of the BMC's answers. -/
theorem joint_rely_bmc {B H : Nat} {h h' : Lpc} {b t : Fine} {wr : Bool} {a : Access} (J : Joint B H h b t)
    (ha : h.access wr .bmc a = some h') : Rely (cfgB B H) b a := by
  cases a with
  | kcsRead reg rc v =>
    cases reg with
    | status =>
      simp only [Lpc.access] at ha
      split at ha
      · rename_i hc; exact ⟨hc.1, fun hm => by cases hm⟩
      · cases ha
    | data =>
      simp only [Lpc.access] at ha
      split at ha
      · rename_i hc
        obtain ⟨h0, hv⟩ := hc
        refine ⟨h0, fun htodo _ _ hsaw => ?_⟩
        have hibf := J.fl.bi hsaw
        rcases J.st with hs | hs
        · rw [if_neg (by rw [hs.bo]; simp)]
          show v = 0
          rcases hs.at_ with ⟨_, _, _, hi, _⟩ | ⟨_, _, _, hx⟩
          · rw [hibf] at hi; cases hi
          · rcases hx with ⟨_, _, _, hi, _⟩ | ⟨_, _, _, hi⟩ | ⟨_, _, _, hi, _⟩
            · rw [hibf] at hi; cases hi
            · rw [hibf] at hi; cases hi
            · rw [hv, hi]
        · rw [if_pos hs.bo]
          have hin : inReg h = some h.idr := by simp [inReg, hibf]
          rcases hs.r2 hibf with h1 | h2
          · exact .inl ⟨hv.trans h1, (J.dirH.take (r' := { b with rxp := .begun }) (by rw [hin, h1]) ⟨rfl, rfl⟩).1⟩
          · exact .inr (.inl ⟨hv.trans h2, (J.dirB.back (s' := { b with w := { b.w with tx := .free } }) (by rw [hin, h2]) ⟨rfl, rfl⟩).1⟩)
      · cases ha
  | kcsWrite reg v rc =>
    cases reg <;> simp only [Lpc.access] at ha <;> split at ha <;> first | (rename_i hc; exact hc) | cases ha
  | lpcWrite off bs rc =>
    simp only [Lpc.access] at ha
    split at ha
    · rename_i hc; exact hc
    · cases ha
  | lpcRead off bs rc =>
    simp only [Lpc.access] at ha
    split at ha
    · rename_i hc
      obtain ⟨h0, hv⟩ := hc
      refine ⟨h0, ?_, fun htodo => ⟨(fun _ _ hf => by rw [J.bs.2.2] at hf; cases hf), ?_⟩⟩
      · intro e rest htodo bs' rc' he hl
        subst he
        rcases J.st with hs | hs
        · rcases hs.at_ with ⟨hx | ⟨hx, _⟩, _⟩ | ⟨⟨hx, _⟩ | ⟨hx, _⟩, _⟩ <;> rw [htodo] at hx <;> cases hx
        · have hat := hs.at_
          rw [htodo] at hat
          generalize hreg : region h.win 0 32 = rg at hat
          generalize h.status = sv at hat
          cases hat <;> exact hdr_read hl rfl hv hreg
      · intro hb ho hl
        rw [hl] at hv
        rw [hv, ho]
        exact J.dirH.lenFits hb
    · cases ha

end Mctp
