import Verif.Proofs.LinkAuto

/-! One direction of the link: who holds the buffer, and what is in it. -/

namespace Mctp

open Spec

/-! ## The window -/

theorem region_length (win : Nat → Byte) (o n : Nat) : (region win o n).length = n := by simp [region]

theorem region_congr {win win' : Nat → Byte} {o n : Nat} (h : ∀ i, o ≤ i → i < o + n → win' i = win i) :
    region win' o n = region win o n := by
  unfold region
  apply List.map_congr_left
  intro i hi
  exact h _ (by omega) (by have := List.mem_range.mp hi; omega)

theorem region_poke (win : Nat → Byte) (o : Nat) (bs : List Byte) : region (poke win o bs) o bs.length = bs := by
  apply List.ext_getElem
  · simp [region]
  · intro i h1 h2
    simp only [region, List.getElem_map, List.getElem_range, poke]
    rw [if_pos ⟨by omega, by omega⟩]
    simp [List.getD, h2]

theorem poke_other {win : Nat → Byte} {o : Nat} {bs : List Byte} {i : Nat} (h : i < o ∨ o + bs.length ≤ i) :
    poke win o bs i = win i := by
  unfold poke
  rw [if_neg (by omega)]

theorem region_poke_apart {win : Nat → Byte} {o : Nat} {bs : List Byte} {o' n : Nat}
    (h : o' + n ≤ o ∨ o + bs.length ≤ o') : region (poke win o bs) o' n = region win o' n :=
  region_congr fun i h1 h2 => poke_other (by omega)

theorem region_append (win : Nat → Byte) (o n m : Nat) : region win o (n + m) = region win o n ++ region win (o + n) m := by
  unfold region
  rw [List.range_add, List.map_append, List.map_map]
  congr 1
  apply List.map_congr_left
  intro i _
  simp [Nat.add_assoc]

theorem region_sub {win : Nat → Byte} {o m a n : Nat} (h : a + n ≤ m) :
    region win (o + a) n = ((region win o m).drop a).take n := by
  obtain ⟨k, rfl⟩ : ∃ k, m = a + (n + k) := ⟨m - a - n, by omega⟩
  rw [region_append, region_append, List.drop_left' (region_length _ _ _), List.take_left' (region_length _ _ _)]

/-- Writing inside a region. -/
theorem region_poke_in {win : Nat → Byte} {o m a : Nat} {bs : List Byte} (h : a + bs.length ≤ m) :
    region (poke win (o + a) bs) o m = (region win o m).take a ++ bs ++ (region win o m).drop (a + bs.length) := by
  obtain ⟨k, rfl⟩ : ∃ k, m = a + (bs.length + k) := ⟨m - a - bs.length, by omega⟩
  rw [region_append, region_append, region_append, region_append]
  rw [region_poke_apart (by omega), region_poke, region_poke_apart (by omega)]
  rw [List.take_left' (region_length _ _ _)]
  rw [← List.drop_drop, List.drop_left' (region_length _ _ _), List.drop_left' (region_length _ _ _), List.append_assoc]

/-! ## The buffer of one direction -/

/-- The packet is in the buffer. -/
def Stored (win : Nat → Byte) (o : Nat) (x : List Byte × List Byte) : Prop :=
  region win o 4 = x.1 ∧ region win (o + 4) x.2.length = x.2

/-- The packet has a proper length and fits. -/
def Fit (sz : Nat) (x : List Byte × List Byte) : Prop :=
  x.1.length = 4 ∧ x.2.length = fromBe x.1 + 4 ∧ x.2.length + 4 ≤ sz

/-- Where the buffer at `o` is: `r1` and `r2` are the registers from the sender `s` to the receiver `r` and
back, as far as they hold a value. -/
inductive Dir (sz o : Nat) (win : Nat → Byte) (r1 r2 : Option Byte) (s r : Fine) : Prop
  | free : s.w.tx = .free → r1 ≠ some 1 → r.rxp = .away → r2 ≠ some 2 → s.sent = r.got → Dir sz o win r1 r2 s r
  | half : s.w.tx = .half → r1 ≠ some 1 → r.rxp = .away → r2 ≠ some 2 → s.sent = r.got → s.lenB.length = 4 →
      region win o 4 = s.lenB → Dir sz o win r1 r2 s r
  | full {x} : s.w.tx = .full → r1 ≠ some 1 → r.rxp = .away → r2 ≠ some 2 → s.sent = r.got ++ [x] → Fit sz x →
      Stored win o x → Dir sz o win r1 r2 s r
  | begin {x} : s.w.tx = .handed → r1 = some 1 → r.rxp = .away → r2 ≠ some 2 → s.sent = r.got ++ [x] → Fit sz x →
      Stored win o x → Dir sz o win r1 r2 s r
  | begun {x} : s.w.tx = .handed → r1 ≠ some 1 → r.rxp = .begun → r2 ≠ some 2 → s.sent = r.got ++ [x] → Fit sz x →
      Stored win o x → Dir sz o win r1 r2 s r
  | len {x} : s.w.tx = .handed → r1 ≠ some 1 → r.rxp = .len x.1 → r2 ≠ some 2 → s.sent = r.got ++ [x] → Fit sz x →
      Stored win o x → Dir sz o win r1 r2 s r
  | done : s.w.tx = .handed → r1 ≠ some 1 → r.rxp = .done → r2 ≠ some 2 → s.sent = r.got → Dir sz o win r1 r2 s r
  | complete : s.w.tx = .handed → r1 ≠ some 1 → r.rxp = .away → r2 = some 2 → s.sent = r.got → Dir sz o win r1 r2 s r

theorem Stored.congr {win win' : Nat → Byte} {o sz : Nat} {x : List Byte × List Byte} (h : Stored win o x) (hf : Fit sz x)
    (hw : ∀ i, o ≤ i → i < o + sz → win' i = win i) : Stored win' o x := by
  obtain ⟨h1, h2, h3⟩ := hf
  refine ⟨(region_congr fun i a b => hw i a (by omega)).trans h.1, (region_congr fun i a b => hw i (by omega) (by omega)).trans h.2⟩

/-- Something that does not concern this direction. -/
theorem Dir.neutral {sz o : Nat} {win win' : Nat → Byte} {r1 r2 r1' r2' : Option Byte} {s r s' r' : Fine}
    (h : Dir sz o win r1 r2 s r) (hsz : 4 ≤ sz) (hw : ∀ i, o ≤ i → i < o + sz → win' i = win i)
    (h1 : r1' = some 1 ↔ r1 = some 1) (h2 : r2' = some 2 ↔ r2 = some 2)
    (hs : s'.w.tx = s.w.tx ∧ s'.sent = s.sent ∧ s'.lenB = s.lenB) (hr : r'.rxp = r.rxp ∧ r'.got = r.got) :
    Dir sz o win' r1' r2' s' r' := by
  obtain ⟨a1, a2, a3⟩ := hs
  obtain ⟨b1, b2⟩ := hr
  have n1 : ∀ {P : Prop}, r1 ≠ some 1 → r1' ≠ some 1 := fun h hh => h (h1.mp hh)
  cases h with
  | free p1 p2 p3 p4 p5 =>
    exact .free (by rw [a1, p1]) (fun hh => p2 (h1.mp hh)) (by rw [b1, p3]) (fun hh => p4 (h2.mp hh)) (by rw [a2, b2, p5])
  | half p1 p2 p3 p4 p5 p6 p7 =>
    exact .half (by rw [a1, p1]) (fun hh => p2 (h1.mp hh)) (by rw [b1, p3]) (fun hh => p4 (h2.mp hh)) (by rw [a2, b2, p5])
      (by rw [a3, p6]) (by rw [a3, ← p7]; exact region_congr fun i x y => hw i x (by omega))
  | full p1 p2 p3 p4 p5 p6 p7 =>
    exact .full (by rw [a1, p1]) (fun hh => p2 (h1.mp hh)) (by rw [b1, p3]) (fun hh => p4 (h2.mp hh)) (by rw [a2, b2, p5])
      p6 (p7.congr p6 hw)
  | begin p1 p2 p3 p4 p5 p6 p7 =>
    exact .begin (by rw [a1, p1]) (h1.mpr p2) (by rw [b1, p3]) (fun hh => p4 (h2.mp hh)) (by rw [a2, b2, p5])
      p6 (p7.congr p6 hw)
  | begun p1 p2 p3 p4 p5 p6 p7 =>
    exact .begun (by rw [a1, p1]) (fun hh => p2 (h1.mp hh)) (by rw [b1, p3]) (fun hh => p4 (h2.mp hh)) (by rw [a2, b2, p5])
      p6 (p7.congr p6 hw)
  | len p1 p2 p3 p4 p5 p6 p7 =>
    exact .len (by rw [a1, p1]) (fun hh => p2 (h1.mp hh)) (by rw [b1, p3]) (fun hh => p4 (h2.mp hh)) (by rw [a2, b2, p5])
      p6 (p7.congr p6 hw)
  | done p1 p2 p3 p4 p5 =>
    exact .done (by rw [a1, p1]) (fun hh => p2 (h1.mp hh)) (by rw [b1, p3]) (fun hh => p4 (h2.mp hh)) (by rw [a2, b2, p5])
  | complete p1 p2 p3 p4 p5 =>
    exact .complete (by rw [a1, p1]) (fun hh => p2 (h1.mp hh)) (by rw [b1, p3]) (h2.mpr p4) (by rw [a2, b2, p5])

/-- The sender writes the length. -/
theorem Dir.writeLen {sz o : Nat} {win : Nat → Byte} {r1 r2 : Option Byte} {s r s' : Fine} {bs : List Byte}
    (h : Dir sz o win r1 r2 s r) (ht : s.w.tx = .free) (hb : bs.length = 4)
    (hs : s'.w.tx = .half ∧ s'.sent = s.sent ∧ s'.lenB = bs) : Dir sz o (poke win o bs) r1 r2 s' r := by
  obtain ⟨a1, a2, a3⟩ := hs
  cases h with
  | free p1 p2 p3 p4 p5 =>
    exact .half a1 p2 p3 p4 (by rw [a2, p5]) (by rw [a3, hb]) (by rw [a3, ← hb]; exact region_poke win o bs)
  | _ p1 => rw [ht] at p1; cases p1

/-- The sender writes the packet. -/
theorem Dir.writeBody {sz o : Nat} {win : Nat → Byte} {r1 r2 : Option Byte} {s r s' : Fine} {bs : List Byte}
    (h : Dir sz o win r1 r2 s r) (ht : s.w.tx = .half) (hb : bs.length = fromBe s.lenB + 4 ∧ bs.length + 4 ≤ sz)
    (hs : s'.w.tx = .full ∧ s'.sent = s.sent ++ [(s.lenB, bs)]) : Dir sz o (poke win (o + 4) bs) r1 r2 s' r := by
  obtain ⟨a1, a2⟩ := hs
  cases h with
  | half p1 p2 p3 p4 p5 p6 p7 =>
    refine .full a1 p2 p3 p4 (by rw [a2, p5]) ⟨p6, hb.1, hb.2⟩ ⟨?_, region_poke win (o + 4) bs⟩
    rw [region_poke_apart (by omega)]; exact p7
  | _ p1 => rw [ht] at p1; cases p1

/-- The sender announces the packet. -/
theorem Dir.announce {sz o : Nat} {win : Nat → Byte} {r1 r2 : Option Byte} {s r s' : Fine}
    (h : Dir sz o win r1 r2 s r) (ht : s.w.tx = .full) (hs : s'.w.tx = .handed ∧ s'.sent = s.sent) :
    Dir sz o win (some 1) r2 s' r := by
  obtain ⟨a1, a2⟩ := hs
  cases h with
  | full p1 p2 p3 p4 p5 p6 p7 => exact .begin a1 rfl p3 p4 (by rw [a2, p5]) p6 p7
  | _ p1 => rw [ht] at p1; cases p1

/-- The sender gets the buffer back. -/
theorem Dir.back {sz o : Nat} {win : Nat → Byte} {r1 r2 : Option Byte} {s r s' : Fine}
    (h : Dir sz o win r1 r2 s r) (h2 : r2 = some 2) (hs : s'.w.tx = .free ∧ s'.sent = s.sent) :
    s.w.tx = .handed ∧ Dir sz o win r1 none s' r := by
  obtain ⟨a1, a2⟩ := hs
  cases h with
  | complete p1 p2 p3 p4 p5 => exact ⟨p1, .free a1 p2 p3 (by simp) (by rw [a2, p5])⟩
  | free _ _ _ p4 | half _ _ _ p4 | full _ _ _ p4 | begin _ _ _ p4 | begun _ _ _ p4 | len _ _ _ p4 | done _ _ _ p4 => exact absurd h2 p4

/-- The receiver reads the announcement. -/
theorem Dir.take {sz o : Nat} {win : Nat → Byte} {r1 r2 : Option Byte} {s r r' : Fine}
    (h : Dir sz o win r1 r2 s r) (h1 : r1 = some 1) (hr : r'.rxp = .begun ∧ r'.got = r.got) :
    r.rxp = .away ∧ Dir sz o win none r2 s r' := by
  obtain ⟨a1, a2⟩ := hr
  cases h with
  | begin p1 p2 p3 p4 p5 p6 p7 => exact ⟨p3, .begun p1 (by simp) a1 p4 (by rw [a2, p5]) p6 p7⟩
  | free _ p2 | half _ p2 | full _ p2 | complete _ p2 | begun _ p2 | len _ p2 | done _ p2 => exact absurd h1 p2

/-- The receiver reads the length. -/
theorem Dir.readLen {sz o : Nat} {win : Nat → Byte} {r1 r2 : Option Byte} {s r r' : Fine} {bs : List Byte}
    (h : Dir sz o win r1 r2 s r) (ht : r.rxp = .begun) (hb : bs = region win o 4)
    (hr : r'.rxp = .len bs ∧ r'.got = r.got) : Dir sz o win r1 r2 s r' := by
  obtain ⟨a1, a2⟩ := hr
  cases h with
  | begun p1 p2 p3 p4 p5 p6 p7 => exact .len p1 p2 (by rw [a1, hb, p7.1]) p4 (by rw [a2, p5]) p6 p7
  | free _ _ p3 | half _ _ p3 | full _ _ p3 | complete _ _ p3 | begin _ _ p3 | len _ _ p3 | done _ _ p3 => rw [ht] at p3; cases p3

theorem Dir.lenFits {sz o : Nat} {win : Nat → Byte} {r1 r2 : Option Byte} {s r : Fine}
    (h : Dir sz o win r1 r2 s r) (ht : r.rxp = .begun) : fromBe (region win o 4) + 8 ≤ sz := by
  cases h with
  | begun p1 p2 p3 p4 p5 p6 p7 => rw [p7.1]; have := p6.2; omega
  | free _ _ p3 | half _ _ p3 | full _ _ p3 | complete _ _ p3 | begin _ _ p3 | len _ _ p3 | done _ _ p3 => rw [ht] at p3; cases p3

/-- The receiver reads the packet. -/
theorem Dir.readBody {sz o : Nat} {win : Nat → Byte} {r1 r2 : Option Byte} {s r r' : Fine} {n bs : List Byte}
    (h : Dir sz o win r1 r2 s r) (ht : r.rxp = .len n) (hb : bs = region win (o + 4) bs.length)
    (hl : bs.length = fromBe n + 4) (hr : r'.rxp = .done ∧ r'.got = r.got ++ [(n, bs)]) : Dir sz o win r1 r2 s r' := by
  obtain ⟨a1, a2⟩ := hr
  cases h with
  | @len x p1 p2 p3 p4 p5 p6 p7 =>
    rw [ht] at p3
    simp only [RxPos.len.injEq] at p3
    subst p3
    have hbx : bs = x.2 := by
      rw [hb, hl, ← p6.2.1]; exact p7.2
    exact .done p1 p2 a1 p4 (by rw [a2, p5, hbx])
  | free _ _ p3 | half _ _ p3 | full _ _ p3 | complete _ _ p3 | begin _ _ p3 | begun _ _ p3 | done _ _ p3 => rw [ht] at p3; cases p3

/-- The receiver hands the buffer back. -/
theorem Dir.handBack {sz o : Nat} {win : Nat → Byte} {r1 r2 : Option Byte} {s r r' : Fine}
    (h : Dir sz o win r1 r2 s r) (ht : r.rxp = .done) (hr : r'.rxp = .away ∧ r'.got = r.got) :
    Dir sz o win r1 (some 2) s r' := by
  obtain ⟨a1, a2⟩ := hr
  cases h with
  | done p1 p2 p3 p4 p5 => exact .complete p1 p2 a1 rfl (by rw [a2, p5])
  | free _ _ p3 | half _ _ p3 | full _ _ p3 | complete _ _ p3 | begin _ _ p3 | begun _ _ p3 | len _ _ p3 => rw [ht] at p3; cases p3

end Mctp
