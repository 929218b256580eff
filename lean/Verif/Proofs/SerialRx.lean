import Verif.Spec.Serial
import Verif.Proofs.Crc

/-! The serial receiver as a pure machine on bytes: what it extracts from a byte stream. -/

namespace Mctp

open Spec

/-- States of the receiver, with the packet bytes so far. -/
inductive Rx
  | hunt
  | rev
  | len
  | body (n : Nat) (esc : Bool) (p : List Byte)
  | fcs1 (p : List Byte)
  | fcs2 (p : List Byte) (hi : Byte)
  | fin (p : List Byte) (hi lo : Byte)

def Rx.next (n : Nat) (p : List Byte) : Rx := if p.length = n then .fcs1 p else .body n false p

def rxStep (max : Nat) : Rx → Byte → Rx × List (List Byte)
  | .hunt, c => (if c = 0x7e then .rev else .hunt, [])
  | .rev, c => (if c = 0x01 then .len else if c = 0x7e then .rev else .hunt, [])
  | .len, c => (if c.toNat > max ∨ c.toNat < 4 then .hunt else .body c.toNat false [], [])
  | .body n false p, c => (if c = 0x7d then .body n true p else .next n (p ++ [c]), [])
  | .body n true p, c => (.next n (p ++ [c ^^^ 0x20]), [])
  | .fcs1 p, c => (.fcs2 p c, [])
  | .fcs2 p hi, c => (.fin p hi c, [])
  | .fin p hi lo, c => (.hunt, if fcsBytes p = [hi, lo] ∧ c = 0x7e then [p] else [])

def rxRun (max : Nat) : Rx → List Byte → Rx × List (List Byte)
  | r, [] => (r, [])
  | r, c :: cs => ((rxRun max (rxStep max r c).1 cs).1,
                   (rxStep max r c).2 ++ (rxRun max (rxStep max r c).1 cs).2)

theorem rxRun_append (max : Nat) (xs ys : List Byte) : ∀ r : Rx,
    rxRun max r (xs ++ ys) = ((rxRun max (rxRun max r xs).1 ys).1,
      (rxRun max r xs).2 ++ (rxRun max (rxRun max r xs).1 ys).2) := by
  induction xs with
  | nil => intro r; simp [rxRun]
  | cons c cs ih => intro r; simp [rxRun, ih]

/-- The states the receiver can be in. -/
def Rx.Ok (max : Nat) : Rx → Prop
  | .hunt | .rev | .len => True
  | .body n _ p => 4 ≤ n ∧ n ≤ max ∧ p.length < n
  | .fcs1 p | .fcs2 p _ | .fin p _ _ => 4 ≤ p.length ∧ p.length ≤ max

theorem Rx.next_ok {max n : Nat} {p : List Byte} (h4 : 4 ≤ n) (hm : n ≤ max) (h : p.length ≤ n) :
    (Rx.next n p).Ok max := by
  unfold Rx.next
  split
  · simp [Rx.Ok]; omega
  · simp [Rx.Ok]; omega

theorem rxStep_ok {max : Nat} {r : Rx} (h : r.Ok max) (c : Byte) : (rxStep max r c).1.Ok max := by
  match r, h with
  | .hunt, _ => simp only [rxStep]; split <;> trivial
  | .rev, _ => simp only [rxStep]; split <;> [skip; split] <;> trivial
  | .len, _ =>
    simp only [rxStep]; split
    · trivial
    · simp [Rx.Ok]; omega
  | .body n false p, h =>
    simp only [Rx.Ok] at h
    simp only [rxStep]; split
    · exact h
    · exact Rx.next_ok h.1 h.2.1 (by simp; omega)
  | .body n true p, h =>
    simp only [Rx.Ok] at h
    exact Rx.next_ok h.1 h.2.1 (by simp; omega)
  | .fcs1 p, h => exact h
  | .fcs2 p hi, h => exact h
  | .fin p hi lo, h => trivial

theorem rxRun_ok {max : Nat} (xs : List Byte) : ∀ {r : Rx}, r.Ok max → (rxRun max r xs).1.Ok max := by
  induction xs with
  | nil => intro r h; exact h
  | cons c cs ih => intro r h; exact ih (rxStep_ok h c)

/-! ## A transmitted frame -/

theorem rxRun_body {max n : Nat} {w q : List Byte} (hd : Decodes w q) : ∀ {p : List Byte},
    p.length + q.length = n → q ≠ [] → rxRun max (.body n false p) w = (.fcs1 (p ++ q), []) := by
  induction hd with
  | nil => intro p _ h; exact absurd rfl h
  | @plain w q b hb hd ih =>
    intro p hl _
    simp only [rxRun, rxStep, if_neg hb, Rx.next, List.nil_append]
    cases q with
    | nil =>
      cases hd
      rw [if_pos (by simpa using hl)]
      simp [rxRun]
    | cons x q =>
      simp only [List.length_cons] at hl
      rw [if_neg (by simp; omega), ih (by simp; omega) (by simp)]
      simp
  | @esc w q b hd ih =>
    intro p hl _
    simp only [rxRun, rxStep, if_pos, Rx.next, List.nil_append]
    cases q with
    | nil =>
      cases hd
      rw [if_pos (by simpa using hl)]
      simp [rxRun]
    | cons x q =>
      simp only [List.length_cons] at hl
      rw [if_neg (by simp; omega), ih (by simp; omega) (by simp)]
      simp

theorem esc_inv : ∀ b : Byte, b = 0x7e ∨ b = 0x7d → b ^^^ 0x20 ^^^ 0x20 = b := by
  intro b _; rw [BitVec.xor_assoc]; simp

theorem decodes_escaped (p : List Byte) : Decodes (escaped p) p := by
  induction p with
  | nil => exact .nil
  | cons b p ih =>
    simp only [escaped, List.flatMap_cons, escape]
    split
    · rename_i h
      have := Decodes.esc (b ^^^ 0x20) ih
      rw [esc_inv b h] at this
      exact this
    · rename_i h
      exact Decodes.plain b (by simp_all) ih

theorem toNat_len {n : Nat} (h : n < 256) : (BitVec.ofNat 8 n).toNat = n := by
  simp; omega

theorem rxRun_validFrame {max : Nat} (hmax : max < 256) {w p : List Byte} (h : ValidFrame max w p) :
    rxRun max .hunt w = (.hunt, [p]) := by
  obtain ⟨h4, hm, body, hd, rfl⟩ := h
  have hb := rxRun_body (max := max) (n := p.length) hd (p := []) (by simp)
    (by intro h; simp [h] at h4)
  have e1 : rxRun max .hunt [0x7e, 0x01, BitVec.ofNat 8 p.length]
      = (.body p.length false [], []) := by
    simp only [rxRun, rxStep]
    simp only [if_pos]
    rw [toNat_len (by omega), if_neg (by omega)]
    rfl
  rw [rxRun_append, rxRun_append, rxRun_append, e1]
  simp only [hb]
  simp [rxRun, rxStep, fcsBytes]

theorem validFrame_frame {max : Nat} {p : List Byte} (h4 : 4 ≤ p.length) (hm : p.length ≤ max) :
    ValidFrame max (frame p) p :=
  ⟨h4, hm, escaped p, decodes_escaped p, rfl⟩

theorem rxRun_frame {max : Nat} (hmax : max < 256) {p : List Byte} (h4 : 4 ≤ p.length)
    (hm : p.length ≤ max) : rxRun max .hunt (frame p) = (.hunt, [p]) :=
  rxRun_validFrame hmax (validFrame_frame h4 hm)

theorem rxRun_frames {max : Nat} (hmax : max < 256) (ps : List (List Byte))
    (h : ∀ p ∈ ps, 4 ≤ p.length ∧ p.length ≤ max) :
    rxRun max .hunt (ps.flatMap frame) = (.hunt, ps) := by
  induction ps with
  | nil => rfl
  | cons p ps ih =>
    obtain ⟨h4, hm⟩ := h p (by simp)
    rw [List.flatMap_cons, rxRun_append, rxRun_frame hmax h4 hm, ih (fun q hq => h q (by simp [hq]))]
    rfl

/-! ## Soundness: whatever is extracted was framed -/

theorem _root_.Mctp.Spec.Decodes.snoc_plain {w p : List Byte} (h : Decodes w p) {b : Byte} (hb : b ≠ 0x7d) :
    Decodes (w ++ [b]) (p ++ [b]) := by
  induction h with
  | nil => exact .plain b hb .nil
  | plain x hx _ ih => exact .plain x hx ih
  | esc x _ ih => exact .esc x ih

theorem _root_.Mctp.Spec.Decodes.snoc_esc {w p : List Byte} (h : Decodes w p) (b : Byte) :
    Decodes (w ++ [0x7d, b]) (p ++ [b ^^^ 0x20]) := by
  induction h with
  | nil => exact .esc b .nil
  | plain x hx _ ih => exact .plain x hx ih
  | esc x _ ih => exact .esc x ih

/-- `s` is the part of the current frame read so far. -/
def Prefix (max : Nat) : Rx → List Byte → Prop
  | .hunt, s => s = []
  | .rev, s => s = [0x7e]
  | .len, s => s = [0x7e, 0x01]
  | .body n esc p, s => 4 ≤ n ∧ n ≤ max ∧ p.length < n ∧ ∃ w, Decodes w p ∧
      s = [0x7e, 0x01, BitVec.ofNat 8 n] ++ w ++ (if esc then [0x7d] else [])
  | .fcs1 p, s => 4 ≤ p.length ∧ p.length ≤ max ∧ ∃ w, Decodes w p ∧
      s = [0x7e, 0x01, BitVec.ofNat 8 p.length] ++ w
  | .fcs2 p hi, s => 4 ≤ p.length ∧ p.length ≤ max ∧ ∃ w, Decodes w p ∧
      s = [0x7e, 0x01, BitVec.ofNat 8 p.length] ++ w ++ [hi]
  | .fin p hi lo, s => 4 ≤ p.length ∧ p.length ≤ max ∧ ∃ w, Decodes w p ∧
      s = [0x7e, 0x01, BitVec.ofNat 8 p.length] ++ w ++ [hi, lo]

theorem prefix_next {max n : Nat} {p w : List Byte} (h4 : 4 ≤ n) (hm : n ≤ max)
    (hl : p.length ≤ n) (hd : Decodes w p) :
    Prefix max (.next n p) ([0x7e, 0x01, BitVec.ofNat 8 n] ++ w) := by
  unfold Rx.next
  split
  · rename_i h; subst h; exact ⟨h4, hm, w, hd, rfl⟩
  · exact ⟨h4, hm, by omega, w, hd, by simp⟩

/-- After each step the bytes read split into junk and the current frame, and an extracted packet's
frame is what was just completed. -/
theorem rxStep_prefix {max : Nat} {r : Rx} {s : List Byte} (h : Prefix max r s) (c : Byte) :
    (∃ junk s', s ++ [c] = junk ++ s' ∧ Prefix max (rxStep max r c).1 s') ∧
    ∀ p ∈ (rxStep max r c).2, (rxStep max r c) = (.hunt, [p]) ∧ ValidFrame max (s ++ [c]) p := by
  have toEnd : ∀ s, Prefix max .hunt [] → ∃ junk s', s = junk ++ s' ∧ Prefix max .hunt s' :=
    fun s h => ⟨s, [], by simp, h⟩
  match r, h with
  | .hunt, h =>
    simp only [Prefix] at h; subst h
    simp only [rxStep]
    refine ⟨?_, by simp⟩
    split
    · rename_i hc; exact ⟨[], [c], rfl, by simp [Prefix, hc]⟩
    · exact toEnd _ rfl
  | .rev, h =>
    simp only [Prefix] at h; subst h
    simp only [rxStep]
    refine ⟨?_, by simp⟩
    split
    · rename_i hc; exact ⟨[], _, rfl, by simp [Prefix, hc]⟩
    · split
      · rename_i hc; exact ⟨[0x7e], [c], rfl, by simp [Prefix, hc]⟩
      · exact toEnd _ rfl
  | .len, h =>
    simp only [Prefix] at h; subst h
    simp only [rxStep]
    refine ⟨?_, by simp⟩
    split
    · exact toEnd _ rfl
    · refine ⟨[], _, rfl, ?_⟩
      refine ⟨by omega, by omega, by simp; omega, [], .nil, ?_⟩
      simp
  | .body n false p, h =>
    obtain ⟨h4, hm, hl, w, hd, rfl⟩ := h
    simp only [rxStep]
    refine ⟨?_, by simp⟩
    by_cases hc : c = 0x7d
    · rw [if_pos hc]
      refine ⟨[], _, rfl, ?_⟩
      exact ⟨h4, hm, hl, w, hd, by simp [hc]⟩
    · rw [if_neg hc]
      have := prefix_next (max := max) h4 hm (p := p ++ [c]) (by simp; omega) (hd.snoc_plain hc)
      exact ⟨[], _, rfl, by simpa using this⟩
  | .body n true p, h =>
    obtain ⟨h4, hm, hl, w, hd, rfl⟩ := h
    simp only [rxStep]
    refine ⟨?_, by simp⟩
    have := prefix_next (max := max) h4 hm (p := p ++ [c ^^^ 0x20]) (by simp; omega) (hd.snoc_esc c)
    exact ⟨[], _, rfl, by simpa using this⟩
  | .fcs1 p, h =>
    obtain ⟨h4, hm, w, hd, rfl⟩ := h
    simp only [rxStep]
    exact ⟨⟨[], _, rfl, h4, hm, w, hd, rfl⟩, by simp⟩
  | .fcs2 p hi, h =>
    obtain ⟨h4, hm, w, hd, rfl⟩ := h
    simp only [rxStep]
    exact ⟨⟨[], _, rfl, h4, hm, w, hd, by simp⟩, by simp⟩
  | .fin p hi lo, h =>
    obtain ⟨h4, hm, w, hd, rfl⟩ := h
    simp only [rxStep]
    refine ⟨toEnd _ rfl, ?_⟩
    split
    · rename_i hc
      intro q hq
      simp only [List.mem_singleton] at hq; subst hq
      refine ⟨rfl, h4, hm, w, hd, ?_⟩
      rw [hc.1, hc.2]
    · simp

theorem _root_.Mctp.Spec.Frames.junk {max : Nat} {s : List Byte} {ps : List (List Byte)} (h : Frames max s ps)
    (j : List Byte) : Frames max (j ++ s) ps := by
  cases h with
  | none s => exact .none _
  | frame junk w rest p hv hr =>
    have := Frames.frame (j ++ junk) w rest p hv hr
    simpa using this

theorem rxRun_frames_sound {max : Nat} (xs : List Byte) : ∀ {r : Rx} {s : List Byte},
    Prefix max r s → Frames max (s ++ xs) (rxRun max r xs).2 := by
  induction xs with
  | nil => intro r s _; exact .none _
  | cons c cs ih =>
    intro r s h
    obtain ⟨⟨junk, s', hs, hp⟩, hq⟩ := rxStep_prefix h c
    have hrest := ih hp
    simp only [rxRun]
    have e : s ++ c :: cs = (s ++ [c]) ++ cs := by simp
    rw [e]
    cases hd : (rxStep max r c).2 with
    | nil =>
      rw [hs, List.append_assoc]
      exact hrest.junk junk
    | cons p ps =>
      obtain ⟨he, hv⟩ := hq p (by simp [hd])
      rw [he] at hd hp hrest ⊢
      simp only [List.cons.injEq] at hd
      simp only [Prefix] at hp; subst hp
      obtain ⟨_, rfl⟩ := hd
      have := Frames.frame [] (s ++ [c]) cs p hv hrest
      simpa [he] using this

/-! ## Resynchronisation -/

/-- An upper bound of the number of bytes other than 0x7e until the receiver hunts for a frame. -/
def Rx.rank (max : Nat) : Rx → Nat
  | .hunt => 0
  | .rev => 2 * max + 5
  | .len => 2 * max + 4
  | .body n esc p => 2 * (n - p.length) + 3 - esc.toNat
  | .fcs1 _ => 3
  | .fcs2 _ _ => 2
  | .fin _ _ _ => 1

theorem next_rank {max n : Nat} {p : List Byte} (h : p.length ≤ n) :
    (Rx.next n p).rank max ≤ 2 * (n - p.length) + 3 := by
  unfold Rx.next
  split <;> simp [Rx.rank]

theorem rxStep_rank {max : Nat} {r : Rx} (hr : r.Ok max) {c : Byte} (hc : c ≠ 0x7e) :
    (rxStep max r c).2 = [] ∧ (rxStep max r c).1.rank max ≤ r.rank max - 1 := by
  match r, hr with
  | .hunt, _ => simp only [rxStep, if_neg hc, Rx.rank]; simp
  | .rev, _ =>
    simp only [rxStep, if_neg hc]
    refine ⟨trivial, ?_⟩
    split <;> simp [Rx.rank]
  | .len, _ =>
    simp only [rxStep]
    refine ⟨trivial, ?_⟩
    split <;> simp [Rx.rank]; omega
  | .body n false p, h =>
    simp only [Rx.Ok] at h
    simp only [rxStep]
    refine ⟨trivial, ?_⟩
    split
    · simp [Rx.rank]
    · have := next_rank (max := max) (n := n) (p := p ++ [c]) (by simp; omega)
      simp [Rx.rank] at this ⊢; omega
  | .body n true p, h =>
    simp only [Rx.Ok] at h
    simp only [rxStep]
    refine ⟨trivial, ?_⟩
    have := next_rank (max := max) (n := n) (p := p ++ [c ^^^ 0x20]) (by simp; omega)
    simp [Rx.rank] at this ⊢; omega
  | .fcs1 p, h => simp [rxStep, Rx.rank]
  | .fcs2 p hi, h => simp [rxStep, Rx.rank]
  | .fin p hi lo, h => simp only [rxStep, Rx.rank]; simp; exact fun _ => hc

theorem Rx.rank_zero {max : Nat} {r : Rx} (hr : r.Ok max) (h : r.rank max = 0) : r = .hunt := by
  match r, hr with
  | .hunt, _ => rfl
  | .body n esc p, hr =>
    simp only [Rx.Ok] at hr
    cases esc <;> simp [Rx.rank] at h

theorem rxRun_idle {max : Nat} (xs : List Byte) (hx : ∀ c ∈ xs, c ≠ 0x7e) : ∀ {r : Rx}, r.Ok max →
    (rxRun max r xs).2 = [] ∧ (rxRun max r xs).1.rank max ≤ r.rank max - xs.length := by
  induction xs with
  | nil => intro r _; simp [rxRun]
  | cons c cs ih =>
    intro r hr
    obtain ⟨h1, h2⟩ := rxStep_rank hr (hx c (by simp))
    obtain ⟨h3, h4⟩ := ih (fun x hx' => hx x (by simp [hx'])) (rxStep_ok hr c)
    simp only [rxRun, h1, h3, List.length_cons]
    exact ⟨rfl, by omega⟩

theorem Rx.rank_le {max : Nat} {r : Rx} (hr : r.Ok max) : r.rank max ≤ 2 * max + 5 := by
  match r, hr with
  | .hunt, _ => simp [Rx.rank]
  | .rev, _ => simp [Rx.rank]
  | .len, _ => simp [Rx.rank]
  | .body n esc p, hr => simp only [Rx.Ok] at hr; simp only [Rx.rank]; omega
  | .fcs1 p, h => simp [Rx.rank]
  | .fcs2 p hi, h => simp [Rx.rank]
  | .fin p hi lo, h => simp [Rx.rank]

theorem rxRun_resync {max : Nat} (xs : List Byte) (hx : ∀ c ∈ xs, c ≠ 0x7e)
    (hl : 2 * max + 5 ≤ xs.length) {r : Rx} (hr : r.Ok max) : rxRun max r xs = (.hunt, []) := by
  obtain ⟨h1, h2⟩ := rxRun_idle xs hx hr
  have := Rx.rank_le hr
  have h3 := Rx.rank_zero (rxRun_ok xs hr) (by omega)
  exact Prod.ext h3 h1

end Mctp
