import Verif.Proofs.Reasm
import Verif.Spec.Transmit

/-! The fragments of a message, read back as packets. -/

namespace Mctp

open Spec

theorem fragFlags_toNat {own : Bool} {tag : Byte} {i n : Nat} (ht : tag.toNat < 8) :
    (fragFlags own tag i n).toNat = (if i = 0 then 128 else 0) + (if i + 1 = n then 64 else 0)
      + 16 * (i % 4) + (if own then 8 else 0) + tag.toNat := by
  unfold fragFlags
  rw [BitVec.toNat_ofNat]
  apply Nat.mod_eq_of_lt
  have : i % 4 < 4 := Nat.mod_lt _ (by decide)
  split <;> split <;> split <;> omega

theorem flag_bits (s e o : Bool) {q t : Nat} (hq : q < 4) (ht : t < 8) :
    let n := (if s = true then 128 else 0) + (if e = true then 64 else 0) + 16 * q + (if o = true then 8 else 0) + t
    n % 8 = t ∧ n / 16 % 4 = q ∧ (n / 8 % 2 == 1) = o ∧ (n / 128 == 1) = s ∧ (n / 64 % 2 == 1) = e := by
  cases s <;> cases e <;> cases o <;> simp <;> omega

/-- Fragment `i` as packet contents. -/
def fragAt (src dest : Byte) (own : Bool) (tag : Byte) (mtu : Nat) (msg : List Byte) (i : Nat) : Frag :=
  { src := src, dest := dest, tag := tag.toNat, seq := i % 4, tagOwner := own,
    som := decide (i = 0), eom := decide (i + 1 = nFrags mtu msg.length),
    payload := (msg.drop (i * mtu)).take mtu }

theorem frag_payload_len {mtu : Nat} {msg : List Byte} {i : Nat} (hm : 0 < mtu)
    (hi : i < nFrags mtu msg.length) :
    1 ≤ ((msg.drop (i * mtu)).take mtu).length ∧ ((msg.drop (i * mtu)).take mtu).length ≤ mtu ∧
    (i + 1 < nFrags mtu msg.length → ((msg.drop (i * mtu)).take mtu).length = mtu) := by
  have h1 := (lt_nFrags hm).mp hi
  rw [List.length_take, List.length_drop]
  refine ⟨by omega, by omega, fun h => ?_⟩
  have h2 := (lt_nFrags hm).mp h
  rw [Nat.add_mul] at h2
  omega

theorem parse_fragment {ver src dest : Byte} {own : Bool} {tag : Byte} {mtu : Nat} {msg : List Byte}
    {i : Nat} (hm : 0 < mtu) (ht : tag.toNat < 8) (hi : i < nFrags mtu msg.length) :
    parse (fragment ver src dest own tag mtu msg i) = some (fragAt src dest own tag mtu msg i) := by
  have hl := (frag_payload_len hm hi).1
  unfold fragment
  cases hp : (msg.drop (i * mtu)).take mtu with
  | nil => rw [hp] at hl; simp at hl
  | cons b rest =>
    simp only [List.cons_append, List.nil_append, parse, fragAt, hp, Option.some.injEq, Frag.mk.injEq,
      true_and, fragFlags_toNat ht]
    obtain ⟨h1, h2, h3, h4, h5⟩ := flag_bits (decide (i = 0)) (decide (i + 1 = nFrags mtu msg.length)) own
      (q := i % 4) (t := tag.toNat) (Nat.mod_lt _ (by decide)) ht
    simp only [decide_eq_true_eq] at h1 h2 h3 h4 h5
    exact ⟨h1, h2, h3, h4, h5, trivial⟩

theorem chunks {mtu : Nat} (hm : 0 < mtu) (msg : List Byte) : ∀ n i, nFrags mtu msg.length = i + n →
    ((List.range' i n).flatMap fun j => (msg.drop (j * mtu)).take mtu) = msg.drop (i * mtu) := by
  intro n
  induction n with
  | zero =>
    intro i h
    have := (nFrags_le (mtu := mtu) (len := msg.length) (i := i) hm).mp (by omega)
    simp [List.drop_of_length_le this]
  | succ n ih =>
    intro i h
    rw [List.range'_succ, List.flatMap_cons, ih (i + 1) (by omega), Nat.add_mul, Nat.one_mul,
      ← List.drop_drop, List.take_append_drop]

theorem fragments_isFragmentation {ver src dest : Byte} {own : Bool} {tag : Byte} {mtu : Nat}
    {msg : List Byte} (hm : 0 < mtu) (ht : tag.toNat < 8) :
    IsFragmentation ver src dest own tag.toNat mtu msg (fragments ver src dest own tag mtu msg) := by
  have hlen : (fragments ver src dest own tag mtu msg).length = nFrags mtu msg.length := by
    simp [fragments]
  refine ⟨by rw [hlen]; rfl, ?_, ?_⟩
  · intro i p hp
    have hi : i < nFrags mtu msg.length := by rw [← hlen]; exact (List.getElem?_eq_some_iff.mp hp).1
    have hpe : p = fragment ver src dest own tag mtu msg i := by
      simp only [fragments, List.getElem?_map, List.getElem?_range hi, Option.map_some, Option.some.injEq] at hp
      exact hp.symm
    subst hpe
    obtain ⟨l1, l2, l3⟩ := frag_payload_len hm hi
    refine ⟨_, parse_fragment hm ht hi, by simp [fragment], rfl, rfl, rfl, rfl, rfl, by simp [fragAt],
      by simp [fragAt, hlen], fun h => l3 (by omega), l1, l2⟩
  · have := chunks hm msg (nFrags mtu msg.length) 0 (by simp)
    rw [fragments, List.flatMap_map, List.range_eq_range']
    simpa [fragment] using this

/-- The tail fragments of a message of at least two packets, from number `i`. -/
theorem seqChain_frags {src dest : Byte} {own : Bool} {tag : Byte} {mtu : Nat} {msg : List Byte} :
    ∀ n i, SeqChain (i % 4) ((List.range' (i + 1) n).map (fragAt src dest own tag mtu msg)) := by
  intro n
  induction n with
  | zero => intro i; simp [SeqChain]
  | succ n ih =>
    intro i
    rw [List.range'_succ, List.map_cons]
    refine ⟨by simp only [fragAt]; omega, ih (i + 1)⟩

/-- The fragments of a message of at least two packets form a message. -/
theorem frags_isMessage {src dest : Byte} {own : Bool} {tag : Byte} {mtu : Nat} {msg : List Byte}
    (hm : 0 < mtu) {n : Nat} (hn : nFrags mtu msg.length = n + 2) :
    IsMessage (fragAt src dest own tag mtu msg 0)
      ((List.range' 1 n).map (fragAt src dest own tag mtu msg)) (fragAt src dest own tag mtu msg (n + 1)) := by
  have l : ∀ i, i < n + 2 → _ := fun i h => frag_payload_len (msg := msg) hm (i := i) (by omega)
  have l0 := l 0 (by omega)
  refine ⟨by simp [fragAt, hn], ?_, by simp [fragAt, hn], ?_, ?_, ?_⟩
  · intro m h
    simp only [List.mem_map, List.mem_range'_1] at h
    obtain ⟨i, ⟨h1, h2⟩, rfl⟩ := h
    simp only [fragAt, decide_eq_false_iff_not, hn]
    omega
  · intro m h
    simp only [List.mem_map, List.mem_range'_1] at h
    obtain ⟨i, ⟨h1, h2⟩, rfl⟩ := h
    simp only [fragAt]
    rw [(l i (by omega)).2.2 (by omega), l0.2.2 (by omega)]
  · simp only [fragAt]
    rw [l0.2.2 (by omega)]
    exact (l (n + 1) (by omega)).2.1
  · have := seqChain_frags (src := src) (dest := dest) (own := own) (tag := tag) (mtu := mtu) (msg := msg) (n + 1) 0
    rw [List.range'_concat] at this
    rw [List.map_append, List.map_cons, List.map_nil] at this
    rw [show n + 1 = 0 + 1 + 1 * n by omega]
    exact this

theorem frags_content {src dest : Byte} {own : Bool} {tag : Byte} {mtu : Nat} {msg : List Byte}
    (hm : 0 < mtu) :
    content ((List.range (nFrags mtu msg.length)).map (fragAt src dest own tag mtu msg)) = msg := by
  have := chunks hm msg (nFrags mtu msg.length) 0 (by simp)
  rw [content, List.flatMap_map, List.range_eq_range']
  simpa [fragAt] using this

end Mctp
