import Verif.Model.Crc
import Verif.Spec.Crc
import Mathlib.Dynamics.PeriodicPts.Lemmas
import Mathlib.Tactic.NormNum.Prime
import Mathlib.Tactic.Ring
/-!
# Checksums: equality with the bit-serial definition, linearity, error detection
-/

namespace Mctp
open Spec

namespace Crc
variable {w : Nat}

/-- The register update without input. -/
def L (p r : BitVec w) : BitVec w := crcStep p r false

theorem step_bit (p r : BitVec w) (b : Bool) (i : Nat) :
    (crcStep p r b).getLsbD i = (r.getLsbD (i + 1) ^^ ((r.getLsbD 0 != b) && p.getLsbD i)) := by
  unfold crcStep
  rw [BitVec.getLsbD_xor, BitVec.getLsbD_ushiftRight, Nat.add_comm]
  by_cases h : (r.getLsbD 0 != b) = true
  · simp [h]
  · simp only [h]; simp at h; simp [h]

theorem L_xor (p a b : BitVec w) : L p (a ^^^ b) = L p a ^^^ L p b := by
  apply BitVec.eq_of_getLsbD_eq
  intro i hi
  simp only [L, step_bit, BitVec.getLsbD_xor]
  generalize a.getLsbD (i+1) = u; generalize b.getLsbD (i+1) = v
  generalize a.getLsbD 0 = x; generalize b.getLsbD 0 = y
  generalize p.getLsbD i = z
  revert u v x y z; decide

theorem zx (r : BitVec w) : (0 : BitVec w) ^^^ r = r := by simp

theorem L_zero (p : BitVec w) : L p 0 = 0 := by
  unfold L crcStep; simp

theorem step_xor (p a b : BitVec w) (x y : Bool) :
    crcStep p (a ^^^ b) (x != y) = crcStep p a x ^^^ crcStep p b y := by
  apply BitVec.eq_of_getLsbD_eq
  intro i hi
  simp only [step_bit, BitVec.getLsbD_xor]
  generalize a.getLsbD (i+1) = u; generalize b.getLsbD (i+1) = v
  generalize a.getLsbD 0 = s; generalize b.getLsbD 0 = t
  generalize p.getLsbD i = z
  revert u v x y z s t; decide

theorem crcBits_xor (p : BitVec w) : ∀ (xs ys : List Bool) (a b : BitVec w),
    xs.length = ys.length →
    crcBits p (a ^^^ b) (List.zipWith (· != ·) xs ys) = crcBits p a xs ^^^ crcBits p b ys
  | [], [], a, b, _ => rfl
  | x :: xs, y :: ys, a, b, h => by
    simp only [List.zipWith_cons_cons, crcBits, List.foldl_cons, step_xor]
    exact crcBits_xor p xs ys _ _ (by simpa using h)

theorem crcBits_append (p r : BitVec w) (xs ys : List Bool) :
    crcBits p r (xs ++ ys) = crcBits p (crcBits p r xs) ys := by
  simp [crcBits]

theorem crcBits_false (p r : BitVec w) (n : Nat) :
    crcBits p r (List.replicate n false) = (L p)^[n] r := by
  induction n generalizing r with
  | zero => rfl
  | succ n ih =>
    rw [List.replicate_succ, Function.iterate_succ_apply]
    exact ih _

theorem L_iter_zero (p : BitVec w) (n : Nat) : (L p)^[n] 0 = 0 := by
  induction n with
  | zero => rfl
  | succ n ih => rw [Function.iterate_succ_apply, L_zero, ih]

theorem L_iter_xor (p a b : BitVec w) (n : Nat) :
    (L p)^[n] (a ^^^ b) = (L p)^[n] a ^^^ (L p)^[n] b := by
  induction n generalizing a b with
  | zero => rfl
  | succ n ih => simp only [Function.iterate_succ_apply, L_xor, ih]

/-- With the top bit of the (reflected) generator set, the register update loses nothing. -/
theorem L_eq_zero {p r : BitVec w} (hw : 0 < w) (hp : p.getLsbD (w - 1) = true)
    (h : L p r = 0) : r = 0 := by
  have h0 : r.getLsbD 0 = false := by
    cases hr : r.getLsbD 0
    · rfl
    · have := congrArg (fun v => v.getLsbD (w - 1)) h
      simp [L, crcStep, hr, hp] at this
      have h2 : r.getLsbD (1 + (w - 1)) = false := BitVec.getLsbD_of_ge _ _ (by omega)
      simp [h2] at this
  apply BitVec.eq_of_getLsbD_eq
  intro i hi
  show r.getLsbD i = (0#w).getLsbD i
  rw [BitVec.getLsbD_zero]
  cases i with
  | zero => exact h0
  | succ i =>
    have := congrArg (fun v => v.getLsbD i) h
    simpa [L, crcStep, h0, Nat.add_comm] using this

theorem L_iter_eq_zero {p r : BitVec w} (hw : 0 < w) (hp : p.getLsbD (w - 1) = true) {n : Nat}
    (h : (L p)^[n] r = 0) : r = 0 := by
  induction n generalizing r with
  | zero => exact h
  | succ n ih => rw [Function.iterate_succ_apply] at h; exact L_eq_zero hw hp (ih h)

theorem L_inj {p : BitVec w} (hw : 0 < w) (hp : p.getLsbD (w - 1) = true) :
    Function.Injective (L p) := by
  intro a b h
  have : L p (a ^^^ b) = 0 := by rw [L_xor, h, BitVec.xor_self]; rfl
  have := L_eq_zero hw hp this
  have h2 : a ^^^ b ^^^ b = b := by rw [this]; simp
  rw [BitVec.xor_assoc, BitVec.xor_self] at h2
  simpa using h2

/-- A single bit as a register value. -/
def unit (b : Bool) : BitVec w := if b then 1 else 0

theorem step_eq (p r : BitVec w) (b : Bool) (hw : 0 < w) :
    crcStep p r b = L p (r ^^^ unit b) := by
  apply BitVec.eq_of_getLsbD_eq
  intro i hi
  have h1 : (1#w).getLsbD 0 = true := by simp [BitVec.getLsbD_one, hw]
  have h2 : (1#w).getLsbD (i + 1) = false := by simp [BitVec.getLsbD_one]
  simp only [L, step_bit, BitVec.getLsbD_xor]
  cases b with
  | false => simp [unit]
  | true => simp [unit, h1, h2]

/-- A list of bits as a register value, first bit least significant. -/
def pack : List Bool → BitVec w
  | [] => 0
  | b :: bs => (pack bs <<< 1) ^^^ unit b

theorem pack_getLsbD (bs : List Bool) (i : Nat) (hi : i < w) :
    (pack bs : BitVec w).getLsbD i = bs.getD i false := by
  induction bs generalizing i with
  | nil => simp [pack]
  | cons b bs ih =>
    simp only [pack, BitVec.getLsbD_xor, BitVec.getLsbD_shiftLeft]
    cases i with
    | zero => cases b <;> simp [unit, hi, BitVec.getLsbD_one]
    | succ i =>
      simp only [hi, decide_true, Bool.true_and, Nat.add_sub_cancel]
      rw [ih i (by omega)]
      cases b <;> simp [unit, BitVec.getLsbD_one]

theorem pack_high (bs : List Bool) (i : Nat) (h : bs.length ≤ i) :
    (pack bs : BitVec w).getLsbD i = false := by
  by_cases hi : i < w
  · rw [pack_getLsbD _ _ hi]; simp [h]
  · exact BitVec.getLsbD_of_ge _ _ (by omega)

theorem L_shl (p r : BitVec w) (h : r.getLsbD (w - 1) = false) (hw : 0 < w) :
    L p (r <<< 1) = r := by
  unfold L crcStep
  ext i hi
  simp only [BitVec.getElem_xor, BitVec.getElem_ushiftRight, BitVec.getLsbD_shiftLeft]
  by_cases h1 : 1 + i < w
  · simp [h1, BitVec.getLsbD_eq_getElem hi]
  · have : i = w - 1 := by omega
    subst this
    simp [h1, ← BitVec.getLsbD_eq_getElem, h]

/-- Feeding at most `w` bits is the same as xoring them in at once and then updating. -/
theorem crcBits_pack (p : BitVec w) (hw : 0 < w) : ∀ (bs : List Bool) (r : BitVec w),
    bs.length ≤ w → crcBits p r bs = (L p)^[bs.length] (r ^^^ pack bs)
  | [], r, _ => by simp [crcBits, pack]
  | b :: bs, r, h => by
    simp only [List.length_cons] at h
    have : crcBits p r (b :: bs) = crcBits p (crcStep p r b) bs := rfl
    rw [this, crcBits_pack p hw bs _ (by omega), step_eq _ _ _ hw, List.length_cons,
      Function.iterate_succ_apply]
    congr 1
    rw [pack, BitVec.xor_comm (pack bs <<< 1), ← BitVec.xor_assoc, L_xor p (r ^^^ unit b),
      L_shl _ _ (pack_high _ _ (by omega)) hw]

theorem pack_ne_zero {bs : List Bool} (h : bs.length ≤ w) (ht : true ∈ bs) :
    (pack bs : BitVec w) ≠ 0 := by
  intro h0
  obtain ⟨i, hi, he⟩ := List.getElem_of_mem ht
  have := congrArg (fun v => v.getLsbD i) h0
  have hz : (0 : BitVec w).getLsbD i = false := by simp
  simp only [hz] at this
  rw [pack_getLsbD _ _ (by omega)] at this
  simp [hi, he] at this

/-- A burst error of at most `w` bits changes the register. -/
theorem crcBits_burst {p : BitVec w} (hw : 0 < w) (hp : p.getLsbD (w - 1) = true) {d : List Bool}
    (h : Burst w d) : crcBits p 0 d ≠ 0 := by
  obtain ⟨a, m, b, rfl, hm, ht⟩ := h
  rw [crcBits_append, crcBits_append, crcBits_false, crcBits_false, L_iter_zero,
    crcBits_pack p hw m _ hm]
  intro h0
  have := L_iter_eq_zero hw hp (L_iter_eq_zero hw hp h0)
  rw [zx] at this
  exact pack_ne_zero hm ht this

/-! ### Two flipped bits -/

/-- A bit list with exactly one set bit. -/
theorem one_true : ∀ d : List Bool, d.count true = 1 →
    ∃ a b, d = List.replicate a false ++ true :: List.replicate b false := by
  intro d
  induction d with
  | nil => simp
  | cons x d ih =>
    cases x with
    | false =>
      intro h
      obtain ⟨a, b, rfl⟩ := ih (by simpa using h)
      exact ⟨a + 1, b, by simp [List.replicate_succ]⟩
    | true =>
      intro h
      have h0 : d.count true = 0 := by simpa using h
      refine ⟨0, d.length, ?_⟩
      have : d = List.replicate d.length false := by
        apply List.eq_replicate_of_mem
        intro x hx
        cases x with
        | false => rfl
        | true => exact absurd hx (List.count_eq_zero.mp h0)
      simpa using this

/-- A bit list with exactly two set bits. -/
theorem two_true : ∀ (d : List Bool), d.count true = 2 →
    ∃ a k b, d = List.replicate a false ++ true :: (List.replicate k false ++
      true :: List.replicate b false) := by
  intro d
  induction d with
  | nil => simp
  | cons x d ih =>
    cases x with
    | false =>
      intro h
      obtain ⟨a, k, b, rfl⟩ := ih (by simpa using h)
      exact ⟨a + 1, k, b, by simp [List.replicate_succ]⟩
    | true =>
      intro h
      obtain ⟨a, b, rfl⟩ := one_true d (by simpa using h)
      exact ⟨0, a, b, by simp⟩

/-- Two flipped bits at a distance at which the register has not come round are detected. -/
theorem crcBits_two {p : BitVec w} (hw : 0 < w) (hp : p.getLsbD (w - 1) = true) {d : List Bool}
    (h2 : d.count true = 2) (hper : ∀ n, 0 < n → n < d.length → (L p)^[n] 1 ≠ 1) :
    crcBits p 0 d ≠ 0 := by
  obtain ⟨a, k, b, rfl⟩ := two_true d h2
  rw [crcBits_append, crcBits_false, L_iter_zero]
  have e : crcBits p 0 (true :: (List.replicate k false ++ true :: List.replicate b false)) =
      (L p)^[b] (L p ((L p)^[k + 1] 1 ^^^ 1)) := by
    have : crcBits p 0 (true :: (List.replicate k false ++ true :: List.replicate b false)) =
      crcBits p (crcStep p 0 true) (List.replicate k false ++ true :: List.replicate b false) := rfl
    rw [this, crcBits_append, crcBits_false]
    have : ∀ r : BitVec w, crcBits p r (true :: List.replicate b false) =
      crcBits p (crcStep p r true) (List.replicate b false) := fun _ => rfl
    rw [this, crcBits_false, step_eq _ _ _ hw, step_eq _ _ _ hw]
    simp only [unit, if_true, zx, Function.iterate_succ_apply]
  rw [e]
  intro h0
  have h1 := L_eq_zero hw hp (L_iter_eq_zero hw hp h0)
  have h2 : (L p)^[k + 1] 1 ^^^ 1 ^^^ 1 = (1 : BitVec w) := by rw [h1]; simp
  rw [BitVec.xor_assoc, BitVec.xor_self] at h2
  refine hper (k + 1) (by omega) ?_ (by simpa using h2)
  simp; omega

/-! ### The period of the register

The powers of the update map are computed as matrices (lists of columns), so that the kernel can
evaluate `2^32 - 1` updates by repeated squaring. -/

/-- A linear map on registers given by the images of the unit vectors. -/
def apply : List (BitVec w) → BitVec w → BitVec w
  | [], _ => 0
  | c :: cs, v => (if v.getLsbD 0 then c else 0) ^^^ apply cs (v >>> 1)

/-- The images of `n` unit vectors starting with the `s`-th. -/
def cols (f : BitVec w → BitVec w) : Nat → Nat → List (BitVec w)
  | _, 0 => []
  | s, n + 1 => f (1#w <<< s) :: cols f (s + 1) n

structure Lin (f : BitVec w → BitVec w) : Prop where
  zero : f 0 = 0
  xor : ∀ a b, f (a ^^^ b) = f a ^^^ f b

theorem apply_cols {f : BitVec w → BitVec w} (hf : Lin f) : ∀ (n s : Nat) (v : BitVec w),
    (∀ i, n ≤ i → v.getLsbD i = false) → apply (cols f s n) v = f (v <<< s)
  | 0, s, v, h => by
    have : v = 0 := by
      apply BitVec.eq_of_getLsbD_eq; intro i _; simp [h i (Nat.zero_le _)]
    subst this
    simp [cols, apply]; exact hf.zero.symm
  | n + 1, s, v, h => by
    rw [cols, apply, apply_cols hf n (s + 1) (v >>> 1)]
    · have e : v <<< s = (if v.getLsbD 0 then 1#w <<< s else 0) ^^^
          ((v >>> 1) <<< (s + 1)) := by
        apply BitVec.eq_of_getLsbD_eq
        intro i hi
        rw [BitVec.getLsbD_xor]
        simp only [BitVec.getLsbD_shiftLeft, BitVec.getLsbD_ushiftRight, hi, decide_true,
          Bool.true_and]
        by_cases h1 : i < s
        · simp only [h1, decide_true, Bool.not_true, Bool.false_and]
          have h2 : i < s + 1 := by omega
          simp only [h2, decide_true, Bool.not_true, Bool.false_and]
          split
          · simp [h1]
          · simp
        · by_cases h2 : i = s
          · subst h2
            simp
            cases h3 : v.getLsbD 0
            · simp
            · have : 0 < w := by
                rcases Nat.eq_zero_or_pos w with h | h
                · subst h; simp at hi
                · exact h
              simp [this, hi]
          · have h3 : ¬ i < s + 1 := by omega
            simp only [h1, h3, decide_false, Bool.not_false, Bool.true_and]
            rw [show 1 + (i - (s + 1)) = i - s from by omega]
            have h4 : ¬ (i - s = 0) := by omega
            split
            · simp [BitVec.getLsbD_one, h4]
            · simp
      rw [e, hf.xor]
      congr 1
      split
      · rfl
      · exact hf.zero.symm
    · intro i hi
      rw [BitVec.getLsbD_ushiftRight]
      exact h _ (by omega)

theorem apply_cols_full {f : BitVec w → BitVec w} (hf : Lin f) (v : BitVec w) :
    apply (cols f 0 w) v = f v := by
  rw [apply_cols hf w 0 v (fun i hi => BitVec.getLsbD_of_ge _ _ hi)]
  simp

theorem cols_map (f g : BitVec w → BitVec w) : ∀ n s, (cols f s n).map g = cols (g ∘ f) s n
  | 0, _ => rfl
  | n + 1, s => by simp [cols, cols_map f g n]

/-- `M ^ e` applied to `v`, the exponent given by its bits, least significant first. -/
def powv : List Bool → List (BitVec w) → BitVec w → BitVec w
  | [], _, v => v
  | b :: bs, M, v => powv bs (M.map (apply M)) (if b then apply M v else v)

/-- The number with the given bits, least significant first. -/
def val : List Bool → Nat
  | [] => 0
  | b :: bs => (if b then 1 else 0) + 2 * val bs

theorem powv_cols {f : BitVec w → BitVec w} (hf : Lin f) : ∀ (e : List Bool) (v : BitVec w),
    powv e (cols f 0 w) v = f^[val e] v := by
  intro e
  induction e generalizing f with
  | nil => intro v; rfl
  | cons b bs ih =>
    intro v
    have hff : Lin (f ∘ f) := ⟨by rw [Function.comp_apply, hf.zero, hf.zero], by simp [hf.xor]⟩
    have hm : (cols f 0 w).map (apply (cols f 0 w)) = cols (f ∘ f) 0 w := by
      rw [cols_map]
      congr 1
      funext v
      exact apply_cols_full hf _
    rw [powv, hm, ih hff, val]
    have h2 : (f ∘ f) = f^[2] := rfl
    rw [h2, ← Function.iterate_mul]
    cases b with
    | false => simp
    | true =>
      simp only [if_true, apply_cols_full hf]
      rw [Nat.add_comm, Function.iterate_succ_apply]

theorem lin_L (p : BitVec w) : Lin (L p) := ⟨L_zero p, L_xor p⟩

/-- If `N` updates lead back but `N / q` do not for each prime factor `q`, no smaller number does. -/
theorem no_period {α : Type} {f : α → α} {x : α} {N : Nat} (h : f^[N] x = x)
    (hq : ∀ q, q.Prime → q ∣ N → f^[N / q] x ≠ x) {n : Nat} (h0 : 0 < n) (hn : n < N) :
    f^[n] x ≠ x := by
  intro hp
  have h1 : Function.minimalPeriod f x ∣ N := Function.IsPeriodicPt.minimalPeriod_dvd h
  have h2 : Function.minimalPeriod f x ∣ n := Function.IsPeriodicPt.minimalPeriod_dvd hp
  have hle := Nat.le_of_dvd h0 h2
  obtain ⟨k, hk⟩ := h1
  have hk1 : k ≠ 1 := by rintro rfl; omega
  obtain ⟨q, hqp, hqk⟩ := Nat.exists_prime_and_dvd hk1
  obtain ⟨j, rfl⟩ := hqk
  have hqpos := hqp.pos
  refine hq q hqp ⟨Function.minimalPeriod f x * j, by rw [hk]; ring⟩ ?_
  have : N / q = Function.minimalPeriod f x * j := by
    rw [hk, show Function.minimalPeriod f x * (q * j) = q * (Function.minimalPeriod f x * j) by ring]
    exact Nat.mul_div_cancel_left _ hqpos
  rw [this]
  exact Function.IsPeriodicPt.mul_const (Function.isPeriodicPt_minimalPeriod f x) j

/-- Bits of a number, least significant first (`n` of them). -/
def expBits (k : Nat) : Nat → List Bool
  | 0 => []
  | n + 1 => (k % 2 == 1) :: expBits (k / 2) n

theorem val_expBits : ∀ (n k : Nat), k < 2 ^ n → val (expBits k n) = k
  | 0, k, h => by simp [expBits, val]; omega
  | n + 1, k, h => by
    rw [expBits, val, val_expBits n (k / 2) (by omega)]
    rcases Nat.mod_two_eq_zero_or_one k with h | h <;> simp [h] <;> omega

theorem iter_eq (p : BitVec w) (k n : Nat) (h : k < 2 ^ n) (v : BitVec w) :
    (L p)^[k] v = powv (expBits k n) (cols (L p) 0 w) v := by
  rw [powv_cols (lin_L p), val_expBits n k h]

theorem period16 {n : Nat} (h0 : 0 < n) (hn : n < 32767) : (L poly16)^[n] 1 ≠ 1 := by
  refine no_period (N := 32767) ?_ ?_ h0 hn
  · rw [iter_eq _ _ 15 (by decide)]; decide +kernel
  · intro q hq hd
    rw [show 32767 = 7 * (31 * 151) by rfl, hq.dvd_mul, hq.dvd_mul,
      Nat.prime_dvd_prime_iff_eq hq (by norm_num), Nat.prime_dvd_prime_iff_eq hq (by norm_num),
      Nat.prime_dvd_prime_iff_eq hq (by norm_num)] at hd
    rcases hd with rfl | rfl | rfl
    all_goals rw [iter_eq _ _ 15 (by decide)]; decide +kernel

theorem period32 {n : Nat} (h0 : 0 < n) (hn : n < 2 ^ 32 - 1) : (L poly32)^[n] 1 ≠ 1 := by
  refine no_period (N := 2 ^ 32 - 1) ?_ ?_ h0 hn
  · rw [iter_eq _ _ 32 (by decide)]; decide +kernel
  · intro q hq hd
    rw [show 2 ^ 32 - 1 = 3 * (5 * (17 * (257 * 65537))) by rfl, hq.dvd_mul, hq.dvd_mul, hq.dvd_mul,
      hq.dvd_mul,
      Nat.prime_dvd_prime_iff_eq hq (by norm_num), Nat.prime_dvd_prime_iff_eq hq (by norm_num),
      Nat.prime_dvd_prime_iff_eq hq (by norm_num), Nat.prime_dvd_prime_iff_eq hq (by norm_num),
      Nat.prime_dvd_prime_iff_eq hq (by norm_num)] at hd
    rcases hd with rfl | rfl | rfl | rfl | rfl
    all_goals rw [iter_eq _ _ 32 (by decide)]; decide +kernel

/-! ### The code computes the bit-serial checksum -/

theorem byteBits_length (b : Byte) : (byteBits b).length = 8 := rfl

theorem pack_byteBits (hw : 8 ≤ w) (b : Byte) : (pack (byteBits b) : BitVec w) = b.setWidth w := by
  apply BitVec.eq_of_getLsbD_eq
  intro i hi
  rw [pack_getLsbD _ _ hi, BitVec.getLsbD_setWidth]
  simp only [byteBits, hi, decide_true, Bool.true_and]
  by_cases h : i < 8
  · simp [List.getD, h]
  · simp [List.getD, h, BitVec.getLsbD_of_ge b i (by omega)]

theorem crcBits_byte (p r : BitVec w) (hw : 8 ≤ w) (b : Byte) :
    crcBits p r (byteBits b) = (L p)^[8] (r ^^^ b.setWidth w) := by
  rw [crcBits_pack p (by omega) _ _ (by rw [byteBits_length]; omega), pack_byteBits hw,
    byteBits_length]

theorem table16 : ∀ i : Fin 256, crc16Table.getD i.val 0 =
    L poly16 (L poly16 (L poly16 (L poly16 (L poly16 (L poly16 (L poly16 (L poly16
      (BitVec.ofNat 16 i.val)))))))) := by
  decide +kernel

theorem L8_shift {p x : BitVec w} (hw : 0 < w) : ∀ (n : Nat),
    (∀ i, w - n ≤ i → x.getLsbD i = false) → (L p)^[n] (x <<< n) = x
  | 0, _ => by simp
  | n + 1, h => by
    rw [Function.iterate_succ_apply, BitVec.shiftLeft_add, L_shl _ _ _ hw]
    · exact L8_shift hw n (fun i hi => h i (by omega))
    · rw [BitVec.getLsbD_shiftLeft]
      simp [h (w - 1 - n) (by omega)]

theorem crc16Byte_eq (fcs : BitVec 16) (c : Byte) :
    crc16Byte fcs c = crcBits poly16 fcs (byteBits c) := by
  rw [crcBits_byte _ _ (by omega)]
  have e : fcs ^^^ c.setWidth 16 =
      ((fcs ^^^ c.setWidth 16) &&& 0xff#16) ^^^ ((fcs >>> 8) <<< 8) := by
    apply BitVec.eq_of_getLsbD_eq
    intro i hi
    simp only [BitVec.getLsbD_xor, BitVec.getLsbD_and, BitVec.getLsbD_shiftLeft,
      BitVec.getLsbD_ushiftRight, BitVec.getLsbD_setWidth, hi, decide_true, Bool.true_and]
    have hm : (0xff#16).getLsbD i = decide (i < 8) := by
      have : ∀ j : Fin 16, (0xff#16).getLsbD j.val = decide (j.val < 8) := by decide
      exact this ⟨i, hi⟩
    rw [hm]
    by_cases h : i < 8
    · simp [h]
    · simp [h, BitVec.getLsbD_of_ge c i (by omega), show 8 + (i - 8) = i by omega]
  rw [e, L_iter_xor, L8_shift (by omega)]
  · rw [crc16Byte, BitVec.xor_comm]
    congr 1
    have hlt : ((fcs ^^^ c.setWidth 16) &&& 0xff#16).toNat < 256 := by
      rw [BitVec.toNat_and]
      exact Nat.lt_of_le_of_lt Nat.and_le_right (by decide)
    have := table16 ⟨_, hlt⟩
    simp only [BitVec.ofNat_toNat, BitVec.setWidth_eq] at this
    rw [this]
    rfl
  · intro i hi
    rw [BitVec.getLsbD_ushiftRight]
    exact BitVec.getLsbD_of_ge _ _ (by omega)

theorem crc16_bits (fcs : BitVec 16) (bs : List Byte) :
    crc16 fcs bs = crcBits poly16 fcs (bits bs) := by
  induction bs generalizing fcs with
  | nil => rfl
  | cons b bs ih =>
    have : crc16 fcs (b :: bs) = crc16 (crc16Byte fcs b) bs := rfl
    rw [this, ih, crc16Byte_eq, ← crcBits_append]
    rfl

theorem crc32Bit_eq (r : BitVec 32) : crc32Bit r = L poly32 r := by
  unfold crc32Bit L crcStep
  have : r &&& 1#32 = if r.getLsbD 0 then 1#32 else 0#32 := by
    apply BitVec.eq_of_getLsbD_eq
    intro i hi
    rw [BitVec.getLsbD_and]
    cases i with
    | zero => cases r.getLsbD 0 <;> simp
    | succ i => cases h : r.getLsbD 0 <;> simp [BitVec.getLsbD_one]
  rw [this]
  cases r.getLsbD 0 <;> simp [poly32]

theorem crc32Byte_eq (r : BitVec 32) (b : Byte) :
    crc32Byte r b = crcBits poly32 r (byteBits b) := by
  rw [crcBits_byte _ _ (by omega), crc32Byte]
  have : (crc32Bit : BitVec 32 → BitVec 32) = L poly32 := funext crc32Bit_eq
  rw [this]
  rfl

theorem crc32_bits (bs : List Byte) :
    crc32 bs = crcBits poly32 0xffffffff#32 (bits bs) ^^^ 0xffffffff#32 := by
  unfold crc32
  congr 1
  generalize (0xffffffff#32) = r
  induction bs generalizing r with
  | nil => rfl
  | cons b bs ih =>
    rw [List.foldl_cons, ih, crc32Byte_eq, ← crcBits_append]
    rfl

/-! ### Differences -/

theorem bits_length (xs : List Byte) : (bits xs).length = 8 * xs.length := by
  induction xs with
  | nil => rfl
  | cons b bs ih =>
    have : bits (b :: bs) = byteBits b ++ bits bs := rfl
    rw [this, List.length_append, ih, byteBits_length, List.length_cons]; omega

theorem diffBits_length {xs ys : List Byte} (h : xs.length = ys.length) :
    (diffBits xs ys).length = 8 * xs.length := by
  simp [diffBits, bits_length, h]

theorem crc16_diff {xs ys : List Byte} (f : BitVec 16) (h : xs.length = ys.length) :
    crc16 f xs ^^^ crc16 f ys = crcBits poly16 0 (diffBits xs ys) := by
  rw [crc16_bits, crc16_bits, ← crcBits_xor poly16 _ _ _ _ (by rw [bits_length, bits_length, h]),
    BitVec.xor_self]
  rfl

theorem crc32_diff {xs ys : List Byte} (h : xs.length = ys.length) :
    crc32 xs ^^^ crc32 ys = crcBits poly32 0 (diffBits xs ys) := by
  rw [crc32_bits, crc32_bits]
  have : ∀ a b c : BitVec 32, (a ^^^ c) ^^^ (b ^^^ c) = a ^^^ b := by
    intro a b c
    rw [BitVec.xor_assoc, BitVec.xor_comm b c, ← BitVec.xor_assoc c c b, BitVec.xor_self]
    simp
  rw [this, ← crcBits_xor poly32 _ _ _ _ (by rw [bits_length, bits_length, h]), BitVec.xor_self]
  rfl

theorem ne_of_xor {a b : BitVec w} (h : a ^^^ b ≠ 0) : a ≠ b := by
  rintro rfl; simp at h

/-! ### Parity (FCS-16 only: the generator has a factor x + 1) -/

/-- Parity of the number of set bits of a register. -/
def parity (r : BitVec 16) : Bool := (List.range 16).foldl (fun a i => a ^^ r.getLsbD i) false

theorem parity_step (r : BitVec 16) (b : Bool) :
    parity (crcStep poly16 r b) = (parity r ^^ b) := by
  have hp : ∀ i, poly16.getLsbD i = (i == 3 || i == 10 || i == 15) := by
    intro i
    by_cases h : i < 16
    · have : ∀ j : Fin 16, poly16.getLsbD j.val = (j.val == 3 || j.val == 10 || j.val == 15) := by
        decide
      exact this ⟨i, h⟩
    · rw [BitVec.getLsbD_of_ge _ _ (by omega)]; symm; simp; omega
  simp only [parity, List.range, List.range.loop, List.foldl, step_bit, hp]
  have h16 : r.getLsbD 16 = false := BitVec.getLsbD_of_ge _ _ (by omega)
  rw [h16]
  generalize r.getLsbD 0 = x0; generalize r.getLsbD 1 = x1; generalize r.getLsbD 2 = x2
  generalize r.getLsbD 3 = x3; generalize r.getLsbD 4 = x4; generalize r.getLsbD 5 = x5
  generalize r.getLsbD 6 = x6; generalize r.getLsbD 7 = x7; generalize r.getLsbD 8 = x8
  generalize r.getLsbD 9 = x9; generalize r.getLsbD 10 = x10; generalize r.getLsbD 11 = x11
  generalize r.getLsbD 12 = x12; generalize r.getLsbD 13 = x13; generalize r.getLsbD 14 = x14
  generalize r.getLsbD 15 = x15
  cases x0 <;> cases b <;> simp

theorem parity_bits (r : BitVec 16) (d : List Bool) :
    parity (crcBits poly16 r d) = (parity r ^^ (d.count true % 2 == 1)) := by
  induction d generalizing r with
  | nil => simp [crcBits]
  | cons b d ih =>
    have : crcBits poly16 r (b :: d) = crcBits poly16 (crcStep poly16 r b) d := rfl
    rw [this, ih, parity_step]
    cases b with
    | false => simp
    | true =>
      rw [List.count_cons]
      rcases Nat.mod_two_eq_zero_or_one (d.count true) with h | h
      · have h2 : (d.count true + 1) % 2 = 1 := by omega
        simp [h, h2]
      · have h2 : (d.count true + 1) % 2 = 0 := by omega
        simp [h, h2]

end Crc
end Mctp
