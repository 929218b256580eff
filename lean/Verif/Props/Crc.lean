import Verif.Proofs.Crc
/-!
# Properties C35-C37: checksums
-/

namespace Mctp
open Spec

/-- **C35.** The table-driven frame check sequence is the bit-serial FCS-16 of RFC 1662, for every
start value and every byte string. -/
theorem C35_fcs_is_rfc1662 (fcs : BitVec 16) (bs : List Byte) :
    crc16 fcs bs = crcBits 0x8408 fcs (bits bs) := Crc.crc16_bits fcs bs

/-- Check value of the algorithm ("123456789" gives 0x906e after the final complement). -/
example : crc16 fcsInit [0x31, 0x32, 0x33, 0x34, 0x35, 0x36, 0x37, 0x38, 0x39] ^^^ 0xffff = 0x906e := by
  decide

/-- **C36 (bursts).** If all differing bits of two byte strings of equal length lie within 16
consecutive bits, their check sequences differ. -/
theorem C36_burst (xs ys : List Byte) (hl : xs.length = ys.length) (h : Burst 16 (diffBits xs ys)) :
    crc16 fcsInit xs ≠ crc16 fcsInit ys := by
  apply Crc.ne_of_xor
  rw [Crc.crc16_diff _ hl]
  exact Crc.crcBits_burst (by decide) (by decide) h

/-- **C36 (odd number of bits).** -/
theorem C36_odd (xs ys : List Byte) (hl : xs.length = ys.length)
    (h : (diffBits xs ys).count true % 2 = 1) : crc16 fcsInit xs ≠ crc16 fcsInit ys := by
  apply Crc.ne_of_xor
  rw [Crc.crc16_diff _ hl]
  intro h0
  have := Crc.parity_bits 0 (diffBits xs ys)
  rw [h0, h] at this
  revert this
  decide

/-- **C36 (two bits).** For strings of up to 4095 bytes (a serial packet has at most 255). -/
theorem C36_two (xs ys : List Byte) (hl : xs.length = ys.length) (hs : xs.length ≤ 4095)
    (h : (diffBits xs ys).count true = 2) : crc16 fcsInit xs ≠ crc16 fcsInit ys := by
  apply Crc.ne_of_xor
  rw [Crc.crc16_diff _ hl]
  refine Crc.crcBits_two (by decide) (by decide) h ?_
  intro n h0 hn
  rw [Crc.diffBits_length hl] at hn
  exact Crc.period16 h0 (by omega)

theorem diffBits_append {a b c d : List Byte} (h : a.length = c.length) :
    diffBits (a ++ b) (c ++ d) = diffBits a c ++ diffBits b d := by
  unfold diffBits
  have e : ∀ x y : List Byte, bits (x ++ y) = bits x ++ bits y := by intros; simp [bits]
  rw [e, e, List.zipWith_append (by rw [Crc.bits_length, Crc.bits_length, h])]

theorem diffBits_self (a : List Byte) : diffBits a a = List.replicate (8 * a.length) false := by
  apply List.ext_getElem
  · rw [Crc.diffBits_length rfl, List.length_replicate]
  · intro i h1 h2
    simp [diffBits]

theorem bits_inj : ∀ {a b : List Byte}, bits a = bits b → a = b
  | [], [], _ => rfl
  | [], b :: bs, h => by simp [bits, byteBits] at h
  | a :: as, [], h => by simp [bits, byteBits] at h
  | a :: as, b :: bs, h => by
    have e : ∀ (x : Byte) (xs : List Byte), bits (x :: xs) = byteBits x ++ bits xs := by
      intros; rfl
    rw [e, e] at h
    have h1 := List.append_inj h rfl
    have : a = b := by
      apply BitVec.eq_of_getLsbD_eq
      intro i hi
      have := congrArg (fun l => l.getD i false) h1.1
      simpa [byteBits, List.getD, hi] using this
    rw [this, bits_inj h1.2]

theorem diffBits_ne {a b : List Byte} (hl : a.length = b.length) (h : a ≠ b) :
    true ∈ diffBits a b := by
  by_contra hn
  apply h
  apply bits_inj
  apply List.ext_getElem
  · rw [Crc.bits_length, Crc.bits_length, hl]
  · intro i h1 h2
    by_contra hne
    apply hn
    have hi : i < (diffBits a b).length := by simp [diffBits, h1, h2]
    have : (diffBits a b)[i] = true := by simp [diffBits, hne]
    rw [← this]
    exact List.getElem_mem hi

/-- Replacing `n` consecutive bytes by different ones is a burst of at most `8 n` bits. -/
theorem burst_of_bytes (p m m' s : List Byte) (hl : m.length = m'.length) (hne : m ≠ m') :
    Burst (8 * m.length) (diffBits (p ++ m ++ s) (p ++ m' ++ s)) := by
  refine ⟨8 * p.length, diffBits m m', 8 * s.length, ?_, ?_, diffBits_ne hl hne⟩
  · rw [diffBits_append (by simp [hl]), diffBits_append rfl, diffBits_self, diffBits_self]
  · rw [Crc.diffBits_length hl]

theorem burst_mono {m n : Nat} {d : List Bool} (h : Burst m d) (hmn : m ≤ n) : Burst n d := by
  obtain ⟨a, x, b, e, hx, ht⟩ := h
  exact ⟨a, x, b, e, by omega, ht⟩

/-- **C36 (consecutive bytes).** Any change confined to two consecutive bytes is detected. -/
theorem C36_two_bytes (p m m' s : List Byte) (hl : m.length = m'.length) (h2 : m.length ≤ 2)
    (hne : m ≠ m') : crc16 fcsInit (p ++ m ++ s) ≠ crc16 fcsInit (p ++ m' ++ s) :=
  C36_burst _ _ (by simp [hl]) (burst_mono (burst_of_bytes p m m' s hl hne) (by omega))

/-- The hypotheses are met by a flipped bit pair in different bytes and by a burst over a byte
boundary. -/
example : (diffBits [1, 2, 3] [1, 0, 2]).count true = 2 := by decide
example : Burst 16 (diffBits [0x00, 0xff, 0x00] [0x80, 0x0f, 0x00]) :=
  ⟨7, true :: List.replicate 4 false ++ [true, true, true, true], 8, by decide, by decide, by decide⟩

/-- **C37 (equality).** The packet checksum of the LPC binding is the bit-serial CRC-32. -/
theorem C37_crc32 (bs : List Byte) :
    crc32 bs = crcBits 0xEDB88320 0xffffffff (bits bs) ^^^ 0xffffffff := Crc.crc32_bits bs

/-- The CRC-32 check value. -/
example : crc32 [0x31, 0x32, 0x33, 0x34, 0x35, 0x36, 0x37, 0x38, 0x39] = 0xcbf43926 := by
  decide +kernel

/-- **C37 (bursts).** -/
theorem C37_burst (xs ys : List Byte) (hl : xs.length = ys.length) (h : Burst 32 (diffBits xs ys)) :
    crc32 xs ≠ crc32 ys := by
  apply Crc.ne_of_xor
  rw [Crc.crc32_diff hl]
  exact Crc.crcBits_burst (by decide) (by decide) h

/-- **C37 (consecutive bytes).** -/
theorem C37_four_bytes (p m m' s : List Byte) (hl : m.length = m'.length) (h2 : m.length ≤ 4)
    (hne : m ≠ m') : crc32 (p ++ m ++ s) ≠ crc32 (p ++ m' ++ s) :=
  C37_burst _ _ (by simp [hl]) (burst_mono (burst_of_bytes p m m' s hl hne) (by omega))

/-- **C37 (two bits).** For strings of up to 512 MiB less one byte; the window has 1 MiB. -/
theorem C37_two (xs ys : List Byte) (hl : xs.length = ys.length) (hs : xs.length < 2 ^ 29)
    (h : (diffBits xs ys).count true = 2) : crc32 xs ≠ crc32 ys := by
  apply Crc.ne_of_xor
  rw [Crc.crc32_diff hl]
  refine Crc.crcBits_two (by decide) (by decide) h ?_
  intro n h0 hn
  rw [Crc.diffBits_length hl] at hn
  exact Crc.period32 h0 (by omega)

/-- **C37 (one bit).** A single flipped bit is a burst of one bit. -/
theorem C37_one (xs ys : List Byte) (hl : xs.length = ys.length)
    (h : (diffBits xs ys).count true = 1) : crc32 xs ≠ crc32 ys := by
  apply C37_burst _ _ hl
  obtain ⟨a, b, e⟩ := Crc.one_true _ h
  exact ⟨a, [true], b, by simpa using e, by simp, by simp⟩

end Mctp
