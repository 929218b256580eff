import Verif.Model.Astlpc
import Verif.Spec.Astlpc
import Verif.Proofs.Basic

/-! The pure parts of astlpc.c: versions, layouts, sizes. -/

namespace Mctp

open Spec

theorem packetSize_eq (n : Nat) : packetSize n = n + 4 := rfl

theorem u32_lt (n : Nat) : u32 n < 2 ^ 32 := Nat.mod_lt _ (by decide)
theorem u32_of_lt {n : Nat} (h : n < 2 ^ 32) : u32 n = n := Nat.mod_eq_of_lt h

theorem usub32_eq {a b : Nat} (ha : a < 2 ^ 32) (hb : b ≤ a) : usub32 a b = a - b := by
  unfold usub32; omega

theorem usub32_wrap {a b : Nat} (hb : b ≤ 8) (h : a < b) : a ≤ usub32 a b := by
  unfold usub32; omega

theorem u32_add {a b : Nat} (ha : a < 2 ^ 32) (hb : b ≤ 8) :
    u32 (a + b) = if a + b < 2 ^ 32 then a + b else a + b - 2 ^ 32 := by
  unfold u32; split <;> omega

theorem overhead_le (v : Nat) : overhead v = 4 ∨ overhead v = 8 := by unfold overhead; split <;> simp

/-- The table, for the versions with functions. -/
theorem protoPacketSize_eq {v : Nat} (hv : v ≠ 0) (body : Nat) :
    protoPacketSize (some v) body =
      if u32 (body + overhead v) > body then .ok (u32 (body + overhead v)) else .error .assertFail := by
  unfold protoPacketSize overhead
  split
  · simp_all
  · simp_all
  · rename_i h; simp only [Option.some.injEq] at h; subst h; rfl
  · rename_i _ h1 h2 h3 h4
    simp only [Option.some.injEq] at h4
    subst h4
    have : v ≠ 3 := fun e => h3 (by rw [e])
    simp only [this, if_false]

theorem protoBodySize_eq {v : Nat} (hv : v ≠ 0) (packet : Nat) :
    protoBodySize (some v) packet =
      if usub32 packet (overhead v) < packet then .ok (usub32 packet (overhead v)) else .error .assertFail := by
  unfold protoBodySize overhead
  split
  · simp_all
  · simp_all
  · rename_i h; simp only [Option.some.injEq] at h; subst h; rfl
  · rename_i _ h1 h2 h3 h4
    simp only [Option.some.injEq] at h4
    subst h4
    have : v ≠ 3 := fun e => h3 (by rw [e])
    simp only [this, if_false]

theorem protoPacketSize_ok {v body : Nat} (hv : v ≠ 0) (h : body + 8 < 2 ^ 32) :
    protoPacketSize (some v) body = .ok (body + overhead v) := by
  have := overhead_le v
  rw [protoPacketSize_eq hv, u32_add (by omega) (by omega), if_pos (by omega : body + overhead v < 2 ^ 32), if_pos (by omega)]

theorem protoBodySize_ok {v n : Nat} (hv : v ≠ 0) (h : 8 ≤ n) (h2 : n < 2 ^ 32) :
    protoBodySize (some v) n = .ok (n - overhead v) := by
  have := overhead_le v
  rw [protoBodySize_eq hv, usub32_eq h2 (by omega), if_pos (by omega)]

theorem protoBodySize_inv {p : Option Nat} {n m : Nat} (hn : n < 2 ^ 32)
    (h : protoBodySize p n = .ok m) : ∃ v, p = some v ∧ v ≠ 0 ∧ overhead v ≤ n ∧ m = n - overhead v := by
  match p with
  | none => exact absurd (show (Except.error Fault.nullDeref : Res Nat) = .ok m from h) (by simp)
  | some 0 => exact absurd (show (Except.error Fault.nullDeref : Res Nat) = .ok m from h) (by simp)
  | some (k + 1) =>
    have := overhead_le (k + 1)
    rw [protoBodySize_eq (by omega)] at h
    by_cases hle : overhead (k + 1) ≤ n
    · rw [usub32_eq hn hle] at h
      split at h
      · simp only [Except.ok.injEq] at h
        exact ⟨k + 1, rfl, by omega, hle, h.symm⟩
      · simp at h
    · have := usub32_wrap (a := n) (b := overhead (k + 1)) (by omega) (by omega)
      rw [if_neg (Nat.not_lt.mpr this)] at h; simp at h

theorem protoPacketSize_inv {p : Option Nat} {n m : Nat} (hn : n < 2 ^ 32)
    (h : protoPacketSize p n = .ok m) :
    ∃ v, p = some v ∧ v ≠ 0 ∧ n + overhead v < 2 ^ 32 ∧ m = n + overhead v := by
  match p with
  | none => exact absurd (show (Except.error Fault.nullDeref : Res Nat) = .ok m from h) (by simp)
  | some 0 => exact absurd (show (Except.error Fault.nullDeref : Res Nat) = .ok m from h) (by simp)
  | some (k + 1) =>
    have := overhead_le (k + 1)
    rw [protoPacketSize_eq (by omega), u32_add hn (by omega)] at h
    split at h
    · split at h
      · simp only [Except.ok.injEq] at h
        exact ⟨k + 1, rfl, by omega, by assumption, h.symm⟩
      · simp at h
    · rw [if_neg (by omega)] at h; simp at h

theorem bufferValidate_eq {v : Nat} (hv : v ≠ 0) {b : AstBuf} (ho : b.offset < 2 ^ 32) (hs : b.size < 2 ^ 32) :
    ∃ r, bufferValidate (some v) b = .ok r ∧ (r = true ↔ SafeBuffer v b.offset b.size) := by
  have hp : protoPacketSize (some v) (u32 (packetSize btu)) = .ok (68 + overhead v) := by
    rw [show u32 (packetSize btu) = 68 from rfl]; exact protoPacketSize_ok hv (by decide)
  have h8 : overhead v ≤ 8 := by unfold overhead; split <;> decide
  unfold bufferValidate
  rw [hp]
  have hu : u32 (b.offset + b.size) = (b.offset + b.size) % 2 ^ 32 := rfl
  have hw : lpcWinSize = 1048576 := rfl
  have hc : controlSize = 256 := rfl
  simp only [SafeBuffer, InWindow, winSize, controlArea, Res.bind_ok]
  by_cases h1 : u32 (b.offset + b.size) < b.offset
  · rw [if_pos h1]; exact ⟨_, rfl, by simp; omega⟩
  · rw [if_neg h1]
    by_cases h2 : u32 (b.offset + b.size) > lpcWinSize
    · rw [if_pos h2]; exact ⟨_, rfl, by simp; omega⟩
    · rw [if_neg h2]
      by_cases h3 : b.size < 68 + overhead v
      · rw [if_pos h3]; exact ⟨_, rfl, by simp; omega⟩
      · rw [if_neg h3]
        by_cases h4 : b.offset < controlSize
        · rw [if_pos h4]; exact ⟨_, rfl, by simp; omega⟩
        · rw [if_neg h4]; exact ⟨_, rfl, by simp; omega⟩

/-- The layout check decides the safety of the layout. -/
theorem layoutValidate_eq {v : Nat} (hv : v ≠ 0) {l : AstLayout}
    (h1 : l.rx.offset < 2 ^ 32) (h2 : l.rx.size < 2 ^ 32) (h3 : l.tx.offset < 2 ^ 32) (h4 : l.tx.size < 2 ^ 32) :
    ∃ r, layoutValidate (some v) l = .ok r ∧
      (r = true ↔ SafeLayout v l.rx.offset l.rx.size l.tx.offset l.tx.size) := by
  obtain ⟨r1, e1, i1⟩ := bufferValidate_eq hv h1 h2
  obtain ⟨r2, e2, i2⟩ := bufferValidate_eq hv h3 h4
  simp only [layoutValidate, e1, e2, Res.bind_ok, SafeLayout, ← i1, ← i2]
  cases r1 <;> cases r2 <;> simp only [Bool.and_true, Bool.and_false, Bool.not_true, Bool.not_false, if_true]
  · exact ⟨_, rfl, by simp⟩
  · exact ⟨_, rfl, by simp⟩
  · exact ⟨_, rfl, by simp⟩
  · have s1 := i1.mp rfl
    have s2 := i2.mp rfl
    simp only [SafeBuffer, InWindow, winSize, controlArea] at s1 s2
    refine ⟨_, rfl, ?_⟩
    have hu1 : u32 (l.rx.offset + l.rx.size) = l.rx.offset + l.rx.size := u32_of_lt (by omega)
    have hu2 : u32 (l.tx.offset + l.tx.size) = l.tx.offset + l.tx.size := u32_of_lt (by omega)
    rw [Bool.not_eq_true', Bool.or_eq_false_iff, decide_eq_false_iff_not, decide_eq_false_iff_not, hu1, hu2]
    simp only [Apart, true_and]
    omega

theorem layoutValidate_true {p : Option Nat} {l : AstLayout} (h : layoutValidate p l = .ok true)
    (h1 : l.rx.offset < 2 ^ 32) (h2 : l.rx.size < 2 ^ 32) (h3 : l.tx.offset < 2 ^ 32) (h4 : l.tx.size < 2 ^ 32) :
    ∃ v, p = some v ∧ v ≠ 0 ∧ SafeLayout v l.rx.offset l.rx.size l.tx.offset l.tx.size := by
  have hb : ∀ b r, b.offset < 2 ^ 32 → bufferValidate p b = .ok r → r = true → ∃ v, p = some v ∧ v ≠ 0 := by
    intro b r hb h hr
    unfold bufferValidate at h
    split at h
    · simp_all
    · split at h
      · simp_all
      · obtain ⟨n, hn, -⟩ := Res.bind_eq_ok.mp h
        obtain ⟨v, h1, h2, -⟩ := protoPacketSize_inv (by decide) hn
        exact ⟨v, h1, h2⟩
  have hv : ∃ v, p = some v ∧ v ≠ 0 := by
    unfold layoutValidate at h
    obtain ⟨r1, e1, h⟩ := Res.bind_eq_ok.mp h
    obtain ⟨r2, e2, h⟩ := Res.bind_eq_ok.mp h
    refine hb _ r1 h1 e1 ?_
    cases r1 with
    | true => rfl
    | false => simp at h
  obtain ⟨v, rfl, hv⟩ := hv
  obtain ⟨r, e, i⟩ := layoutValidate_eq hv h1 h2 h3 h4
  rw [e] at h
  exact ⟨v, rfl, hv, i.mp (by simpa using h)⟩

theorem fromBe_be32 (n : Nat) : fromBe (be32 n) = u32 n := by
  simp only [fromBe, be32, List.foldl_cons, List.foldl_nil, BitVec.toNat_ofNat, u32]
  omega

theorem fromBe_be16 (n : Nat) : fromBe (be16 n) = n % 2 ^ 16 := by
  simp only [fromBe, be16, List.foldl_cons, List.foldl_nil, BitVec.toNat_ofNat]
  omega

theorem fromBe_lt32 {bs : List Byte} (h : bs.length ≤ 4) : fromBe bs < 2 ^ 32 := by
  match bs, h with
  | [], _ => decide
  | [a], _ => have := a.isLt; simp only [fromBe, List.foldl_cons, List.foldl_nil]; omega
  | [a, b], _ => have := a.isLt; have := b.isLt; simp only [fromBe, List.foldl_cons, List.foldl_nil]; omega
  | [a, b, c], _ =>
    have := a.isLt; have := b.isLt; have := c.isLt
    simp only [fromBe, List.foldl_cons, List.foldl_nil]; omega
  | [a, b, c, d], _ =>
    have := a.isLt; have := b.isLt; have := c.isLt; have := d.isLt
    simp only [fromBe, List.foldl_cons, List.foldl_nil]; omega

theorem field32_lt (bs : List Byte) (off : Nat) : field32 bs off < 2 ^ 32 :=
  fromBe_lt32 (by simp; omega)

theorem fromBe_lt16 {bs : List Byte} (h : bs.length ≤ 2) : fromBe bs < 2 ^ 16 := by
  match bs, h with
  | [], _ => decide
  | [a], _ => have := a.isLt; simp only [fromBe, List.foldl_cons, List.foldl_nil]; omega
  | [a, b], _ => have := a.isLt; have := b.isLt; simp only [fromBe, List.foldl_cons, List.foldl_nil]; omega

/-- The negotiated version. -/
theorem negotiateVersion_spec (a b c d : Nat) :
    (negotiateVersion a b c d = 0 ∧ ¬ (0 < a ∧ 0 < c ∧ ∃ v, CommonVersion a b c d v)) ∨
    (0 < a ∧ 0 < c ∧ CommonVersion a b c d (negotiateVersion a b c d) ∧
      ∀ v, CommonVersion a b c d v → v ≤ negotiateVersion a b c d) := by
  unfold negotiateVersion
  cases hv : validateVersion a b c d with
  | false =>
    left
    refine ⟨rfl, ?_⟩
    rintro ⟨h1, h2, v, h3⟩
    simp only [CommonVersion] at h3
    revert hv
    unfold validateVersion
    split
    · omega
    · split
      · omega
      · split
        · omega
        · split
          · omega
          · simp
  | true =>
    right
    revert hv
    unfold validateVersion
    intro hv
    split at hv
    · simp at hv
    · split at hv
      · simp at hv
      · split at hv
        · simp at hv
        · split at hv
          · simp at hv
          · simp only [Bool.not_true, Bool.false_eq_true, if_false, CommonVersion]
            split <;> exact ⟨by omega, by omega, by omega, fun v hv => by omega⟩

theorem negotiateVersion_lt (a b : Nat) : negotiateVersion a b 1 3 < 4 ∧ negotiateVersion 1 3 a b < 4 := by
  constructor
  · rcases negotiateVersion_spec a b 1 3 with h | ⟨_, _, h, _⟩
    · omega
    · unfold CommonVersion at h; omega
  · rcases negotiateVersion_spec 1 3 a b with h | ⟨_, _, h, _⟩
    · omega
    · unfold CommonVersion at h; omega

theorem bmcBufferSize_pos {mtu : Nat} :
    bmcBufferSize (some 3) mtu =
      if mtu ≠ 0 then protoPacketSize (some 3) (u32 (mtu + 4)) >>= fun rpkt => .ok (min 524156 rpkt)
      else .ok 524156 := by
  have h1 : protoBodySize (some 3) (u32 ((lpcWinSize - controlSize) / 2)) = .ok 524152 := by
    rw [show u32 ((lpcWinSize - controlSize) / 2) = 524160 by decide]
    exact protoBodySize_ok (by decide) (by decide) (by decide)
  have h2 : protoPacketSize (some 3) (u32 (packetSize (u32 (bodySize 524152) &&& 0xfffffff0))) = .ok 524156 := by
    rw [show u32 (packetSize (u32 (bodySize 524152) &&& 0xfffffff0)) = 524148 by decide]
    exact protoPacketSize_ok (by decide) (by decide)
  unfold bmcBufferSize
  rw [h1, Res.bind_ok]
  dsimp only
  rw [h2, Res.bind_ok]
  rfl

theorem bmcBufferSize_zero : bmcBufferSize (some 3) 0 = .ok 524156 := by
  rw [bmcBufferSize_pos, if_neg (by decide)]

/-- A request whose sum with the header wraps around. -/
theorem bmcBufferSize_wrap {mtu : Nat} (hm : mtu < 2 ^ 32) (h : 4294967292 ≤ mtu) :
    ∃ n, bmcBufferSize (some 3) mtu = .ok n ∧ n < 12 := by
  rw [bmcBufferSize_pos, if_pos (by omega), protoPacketSize_eq (by decide), show overhead 3 = 8 from rfl]
  have h1 : u32 (mtu + 4) < 4 := by unfold u32; omega
  rw [u32_add (by omega) (by omega), if_pos (by omega : u32 (mtu + 4) + 8 < 2 ^ 32), if_pos (by omega)]
  exact ⟨_, rfl, by omega⟩

/-- A request whose buffer size overflows. -/
theorem bmcBufferSize_abort {mtu : Nat} (h1 : 4294967284 ≤ mtu) (h2 : mtu < 4294967292) :
    bmcBufferSize (some 3) mtu = .error .assertFail := by
  rw [bmcBufferSize_pos, if_pos (by omega), protoPacketSize_eq (by decide), show overhead 3 = 8 from rfl]
  have h3 : u32 (mtu + 4) = mtu + 4 := u32_of_lt (by omega)
  have h4 : u32 (mtu + 4 + 8) < 8 := by unfold u32; omega
  rw [h3, if_neg (by omega)]
  rfl

/-- Any other request. -/
theorem bmcBufferSize_ok {mtu : Nat} (h0 : mtu ≠ 0) (h : mtu < 4294967284) :
    bmcBufferSize (some 3) mtu = .ok (min mtu 524144 + 12) := by
  have h3 : u32 (mtu + 4) = mtu + 4 := u32_of_lt (by omega)
  rw [bmcBufferSize_pos, if_pos h0, h3, protoPacketSize_ok (by decide) (by omega), Res.bind_ok, show overhead 3 = 8 from rfl]
  congr 1; omega

end Mctp
