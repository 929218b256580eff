import Verif.Proofs.RxTable
import Verif.Spec.Packet

/-! Packet buffers holding given bytes; header fields against the specification. -/

namespace Mctp

open Spec

theorem hdrTag_toNat : ∀ f : Byte, (hdrTag f).toNat = f.toNat % 8 := by decide +kernel
theorem hdrSeq_toNat : ∀ f : Byte, (hdrSeq f).toNat = f.toNat / 16 % 4 := by decide +kernel
theorem hdrTO_eq : ∀ f : Byte, hdrTO f = (f.toNat / 8 % 2 == 1) := by decide +kernel
theorem hdrEom_eq : ∀ f : Byte, hdrEom f = (f.toNat / 64 % 2 == 1) := by decide +kernel
theorem hdrSom_eq : ∀ f : Byte, hdrSom f = (f.toNat / 128 == 1) := by decide +kernel

theorem hdrTag_ofNat (f : Byte) : hdrTag f = BitVec.ofNat 8 (f.toNat % 8) := by
  apply BitVec.eq_of_toNat_eq; rw [hdrTag_toNat]; simp; omega
theorem hdrSeq_ofNat (f : Byte) : hdrSeq f = BitVec.ofNat 8 (f.toNat / 16 % 4) := by
  apply BitVec.eq_of_toNat_eq; rw [hdrSeq_toNat]; simp; omega

theorem destIsLocal_iff (eid dest : Byte) : destIsLocal eid dest = true ↔ Local eid dest := by
  unfold destIsLocal Local eidNull eidBroadcast
  simp only [Bool.or_eq_true, beq_iff_eq, or_assoc]
  constructor
  · rintro (h | h | h) <;> simp [h]
  · rintro (h | h | h)
    · simp [h]
    · exact .inr (.inl (BitVec.eq_of_toNat_eq (by simpa using h)))
    · exact .inr (.inr (BitVec.eq_of_toNat_eq (by simpa using h)))

/-- The buffer holds exactly the packet `bs` (between `start` and `end`, inside its storage, with the
header at `start`). -/
structure PktIs (p : Pktbuf) (bs : List Byte) : Prop where
  hdr   : p.hdrOff = p.start
  fin   : p.«end» = p.start + bs.length
  fits  : p.«end» ≤ p.data.length
  cont  : (p.data.drop p.start).take bs.length = bs

theorem PktIs.len {p : Pktbuf} {bs : List Byte} (h : PktIs p bs) : p.len = bs.length := by
  simp [Pktbuf.len, h.fin]

theorem PktIs.bytes {p : Pktbuf} {bs : List Byte} (h : PktIs p bs) : p.bytes = bs := by
  simp [Pktbuf.bytes, h.len, h.cont]

theorem PktIs.read {p : Pktbuf} {bs : List Byte} (h : PktIs p bs) (off n : Nat)
    (hn : off + n ≤ bs.length) : p.read (p.hdrOff + off) n = .ok ((bs.drop off).take n) := by
  have := h.fits; have := h.fin
  rw [Pktbuf.read, if_pos (by rw [h.hdr]; omega), h.hdr]
  have hc : ((p.data.drop p.start).take bs.length).drop off = bs.drop off := by rw [h.cont]
  rw [List.drop_take, List.drop_drop] at hc
  have : (bs.drop off).take n = ((p.data.drop (p.start + off)).take (bs.length - off)).take n := by
    rw [hc]
  rw [this, List.take_take, Nat.min_eq_left (by omega)]

/-- The buffer a binding fills with a received packet. -/
theorem pktbufAlloc_some {m : Mem} {fill : Nat → Byte} {s h t len : Nat} {p : Pktbuf} {m' : Mem}
    (hp : pktbufAlloc m fill s h t len = (some p, m')) :
    len ≤ s + h + t ∧ m.alloc = (some p.id, m') ∧ p.start = h ∧ p.«end» = h + len ∧
    p.hdrOff = h ∧ p.size = s + h + t ∧ p.data.length = s + h + t := by
  unfold pktbufAlloc at hp
  simp only at hp
  split at hp
  · cases hp
  · split at hp
    · cases hp
    · rename_i id m2 ha
      simp at hp
      obtain ⟨rfl, rfl⟩ := hp
      simp [ha]
      omega

theorem write_ok {p p' : Pktbuf} {off : Nat} {bs : List Byte} (h : p.write off bs = .ok p') :
    off + bs.length ≤ p.data.length ∧
    p' = { p with data := p.data.take off ++ bs ++ p.data.drop (off + bs.length) } := by
  unfold Pktbuf.write at h
  split at h
  · rename_i hl; simp only [Except.ok.injEq] at h; exact ⟨hl, h.symm⟩
  · cases h

theorem write_eq {p : Pktbuf} {off : Nat} {bs : List Byte} (h : off + bs.length ≤ p.data.length) :
    p.write off bs =
      .ok { p with data := p.data.take off ++ bs ++ p.data.drop (off + bs.length) } := by
  unfold Pktbuf.write; rw [if_pos h]

theorem pktIs_of_write {p p' : Pktbuf} {bs : List Byte} (hs : p.hdrOff = p.start)
    (he : p.«end» = p.start + bs.length) (h : p.write p.hdrOff bs = .ok p') : PktIs p' bs := by
  obtain ⟨hl, rfl⟩ := write_ok h
  refine ⟨hs, he, ?_, ?_⟩
  · simp only [he]; simp; omega
  · simp only
    rw [hs] at hl ⊢
    rw [List.append_assoc, List.drop_append_of_le_length (by simp; omega)]
    rw [List.drop_of_length_le (by simp; omega)]
    simp

end Mctp
