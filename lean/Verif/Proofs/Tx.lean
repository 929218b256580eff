import Verif.Proofs.Memory
import Verif.Spec.Fragment

/-! The transmit path. -/

namespace Mctp

open Spec

variable {β : Type}

theorem flagsSeqTag_eq' : ∀ (to s e : Bool) (g : BitVec 3) (q : Fin 4),
    flagsSeqTag to (g.setWidth 8) s e q.val =
      BitVec.ofNat 8 ((if s then 128 else 0) + (if e then 64 else 0) + 16 * q.val
        + (if to then 8 else 0) + g.toNat) := by decide +kernel

theorem tag_small {g : Byte} (h : g &&& 0x7 = g) : g.toNat < 8 := by
  have := congrArg BitVec.toNat h
  simp only [BitVec.toNat_and] at this
  have h7 : (7#8).toNat = 7 := rfl
  have := Nat.and_le_right (n := g.toNat) (m := 7)
  simp at *; omega

theorem tag_small_iff {g : Byte} : g &&& 0x7 = g ↔ g.toNat < 8 := by
  refine ⟨tag_small, fun h => ?_⟩
  apply BitVec.eq_of_toNat_eq
  rw [BitVec.toNat_and]
  show g.toNat &&& 7 = _
  rw [show (7 : Nat) = 2 ^ 3 - 1 from rfl, Nat.and_two_pow_sub_one_eq_mod]
  omega

theorem flagsSeqTag_eq (to s e : Bool) (g : Byte) (i : Nat) (hg : g.toNat < 8) :
    flagsSeqTag to g s e i =
      BitVec.ofNat 8 ((if s then 128 else 0) + (if e then 64 else 0) + 16 * (i % 4)
        + (if to then 8 else 0) + g.toNat) := by
  have h1 := flagsSeqTag_eq' to s e (g.setWidth 3) ⟨i % 4, by omega⟩
  have h2 : (g.setWidth 3).setWidth 8 = g := by
    apply BitVec.eq_of_toNat_eq
    simp; omega
  have h3 : (g.setWidth 3).toNat = g.toNat := by simp; omega
  rw [h2, h3] at h1
  rw [← h1]
  simp [flagsSeqTag]

theorem nFrags_le {mtu len i : Nat} (hm : 0 < mtu) : nFrags mtu len ≤ i ↔ len ≤ i * mtu := by
  unfold nFrags
  have := Nat.div_lt_iff_lt_mul (x := len + mtu - 1) (y := i + 1) hm
  rw [Nat.add_mul] at this
  omega

theorem lt_nFrags {mtu len i : Nat} (hm : 0 < mtu) : i < nFrags mtu len ↔ i * mtu < len := by
  have := nFrags_le (mtu := mtu) (len := len) (i := i) hm
  omega

/-- One packet buffer filled by the transmit loop. -/
theorem two_writes {p p1 p2 : Pktbuf} {a b : List Byte} (hs : p.hdrOff = p.start) (ha : a.length = 4)
    (he : p.«end» = p.start + (b.length + 4)) (h1 : p.write p.hdrOff a = .ok p1)
    (h2 : p1.write (p1.hdrOff + hdrSize) b = .ok p2) : PktIs p2 (a ++ b) ∧ p2.id = p.id := by
  obtain ⟨l1, rfl⟩ := write_ok h1
  obtain ⟨l2, rfl⟩ := write_ok h2
  simp only [hs, ha, hdrSize] at l1 l2 ⊢
  refine ⟨⟨rfl, by simp [he, ha]; omega, ?_, ?_⟩, trivial⟩
  · simp at l2 ⊢; omega
  · simp only
    have hlen : (p.data.take p.start).length = p.start := by simp; omega
    have hA : List.take (p.start + 4) (List.take p.start p.data ++ a ++ p.data.drop (p.start + 4))
        = List.take p.start p.data ++ a := by
      rw [List.take_append_of_le_length (by simp [ha]; omega), List.take_of_length_le (by simp [ha]; omega)]
    rw [hA]
    simp only [List.append_assoc]
    rw [List.drop_append_of_le_length (by omega), List.drop_of_length_le (by omega), List.nil_append,
      ← List.append_assoc]
    exact List.take_left

/-- What the packetisation loop queues, whenever it completes. -/
theorem txLoop_ok {fill : Nat → Byte} {b : Binding β} {src dest : Byte} {to : Bool} {tag : Byte}
    {mtu : Nat} {msg : List Byte} (hmtu : 0 < mtu) (htag : tag.toNat < 8) :
    ∀ {fuel p i : Nat} {m m' : Mem} {q q' : List Pktbuf},
      p = min (i * mtu) msg.length →
      txLoop fill b src dest to tag mtu msg fuel p i m q = .ok (m', q') →
      ∃ ps, q' = q ++ ps ∧ (∀ x ∈ ps, PktIs x x.bytes) ∧
        ps.map Pktbuf.bytes =
          (List.range' i (nFrags mtu msg.length - i)).map
            (fragment b.version src dest to tag mtu msg) := by
  intro fuel
  induction fuel with
  | zero =>
    intro p i m m' q q' hp h
    unfold txLoop at h
    split at h
    · cases h
    · rename_i hlt
      simp only [Except.ok.injEq, Prod.mk.injEq] at h
      have : nFrags mtu msg.length ≤ i := (nFrags_le hmtu).mpr (by omega)
      exact ⟨[], by simp [h.2], by simp, by rw [Nat.sub_eq_zero_of_le this]; simp⟩
  | succ fuel ih =>
    intro p i m m' q q' hp h
    unfold txLoop at h
    split at h
    · rename_i hlt
      have hpi : p = i * mtu := by omega
      simp only at h
      split at h
      · cases h
      · rename_i pkt m1 hpa
        split at h
        · cases h
        · rename_i pkt1 hw1
          split at h
          · cases h
          · rename_i pkt2 hw2
            obtain ⟨_, _, hs, he, ho, _, _⟩ := pktbufAlloc_some hpa
            have hin : i < nFrags mtu msg.length := (lt_nFrags hmtu).mpr (by omega)
            have hmul : (i + 1) * mtu = i * mtu + mtu := by rw [Nat.add_mul]; omega
            have hp' : p + (if msg.length - p > mtu then mtu else msg.length - p)
                = min ((i + 1) * mtu) msg.length := by
              rw [hmul]; split <;> omega
            obtain ⟨ps, h1, h2, h3⟩ := ih hp' h
            have hchunk : (msg.drop p).take (if msg.length - p > mtu then mtu else msg.length - p)
                = (msg.drop (i * mtu)).take mtu := by
              rw [← hpi]
              split
              · rfl
              · rw [List.take_of_length_le (by simp), List.take_of_length_le (by simp; omega)]
            have hcl : ((msg.drop p).take (if msg.length - p > mtu then mtu else msg.length - p)).length
                = (if msg.length - p > mtu then mtu else msg.length - p) := by
              rw [List.length_take, List.length_drop]; split <;> omega
            have hpk := two_writes (by rw [ho, hs]) rfl (by rw [he, hs, hcl]; rfl) hw1 hw2
            have hfrag : [b.version &&& 0xf, dest, src,
                flagsSeqTag to tag (i == 0) (decide (p + (if msg.length - p > mtu then mtu else msg.length - p) ≥ msg.length)) i]
                ++ (msg.drop p).take (if msg.length - p > mtu then mtu else msg.length - p)
                = fragment b.version src dest to tag mtu msg i := by
              rw [hchunk]
              unfold fragment fragFlags
              congr 1
              rw [flagsSeqTag_eq _ _ _ _ _ htag]
              have hv : b.version &&& 0xf = BitVec.ofNat 8 (b.version.toNat % 16) := by
                apply BitVec.eq_of_toNat_eq
                rw [BitVec.toNat_and]
                show b.version.toNat &&& 15 = _
                rw [show (15 : Nat) = 2 ^ 4 - 1 from rfl, Nat.and_two_pow_sub_one_eq_mod]
                simp; omega
              have heom : (p + (if msg.length - p > mtu then mtu else msg.length - p) ≥ msg.length)
                  ↔ i + 1 = nFrags mtu msg.length := by
                have h1 := nFrags_le (mtu := mtu) (len := msg.length) (i := i + 1) hmtu
                rw [hmul] at h1
                constructor
                · intro hge
                  have : nFrags mtu msg.length ≤ i + 1 := h1.mpr (by split at hge <;> omega)
                  omega
                · intro heq
                  have := h1.mp (by omega)
                  split <;> omega
              simp only [heom, beq_iff_eq, decide_eq_true_eq, hv]
            refine ⟨pkt2 :: ps, by rw [h1]; simp, ?_, ?_⟩
            · intro x hx
              rcases List.mem_cons.mp hx with rfl | hx
              · rw [hpk.1.bytes]; exact hpk.1
              · exact h2 x hx
            · rw [List.map_cons, h3, hpk.1.bytes, hfrag]
              rw [show nFrags mtu msg.length - i = (nFrags mtu msg.length - (i + 1)) + 1 by omega,
                List.range'_succ, List.map_cons]
    · rename_i hlt
      simp only [Except.ok.injEq, Prod.mk.injEq] at h
      have : nFrags mtu msg.length ≤ i := (nFrags_le hmtu).mpr (by omega)
      exact ⟨[], by simp [h.2], by simp, by rw [Nat.sub_eq_zero_of_le this]; simp⟩

/-- A packet buffer filled by the transmit loop for binding `b`: header space left free in front,
trailer space behind, and 5 to `pkt_size` bytes in between. -/
structure Made (b : Binding β) (p : Pktbuf) : Prop where
  start : p.start = b.pktHeader
  hdr   : p.hdrOff = b.pktHeader
  size  : p.size = b.pktSize + b.pktHeader + b.pktTrailer
  data  : p.data.length = b.pktSize + b.pktHeader + b.pktTrailer
  lo    : b.pktHeader + 5 ≤ p.«end»
  hi    : p.«end» ≤ b.pktHeader + b.pktSize

/-- The packetisation loop completes when allocations succeed and packets fit. -/
theorem txLoop_total {fill : Nat → Byte} {b : Binding β} {src dest : Byte} {to : Bool} {tag : Byte}
    {mtu : Nat} {msg : List Byte} (hmtu : 0 < mtu) (hsz : mtu + 4 ≤ b.pktSize) :
    ∀ {fuel p i : Nat} {m : Mem} {q : List Pktbuf} {o : List Nat},
      msg.length - p ≤ fuel → Owns m o → AllOk m →
      ∃ m' ps, txLoop fill b src dest to tag mtu msg fuel p i m q = .ok (m', q ++ ps) ∧
        Owns m' (ps.map Pktbuf.id ++ o) ∧ m'.ok = m.ok ∧ ∀ x ∈ ps, Made b x := by
  intro fuel
  induction fuel with
  | zero =>
    intro p i m q o hf ho ha
    refine ⟨m, [], ?_, by simpa using ho, rfl, by simp⟩
    unfold txLoop; rw [if_neg (by omega)]; simp
  | succ fuel ih =>
    intro p i m q o hf ho ha
    unfold txLoop
    split
    · rename_i hlt
      simp only
      obtain ⟨m1, h1, h2, h3⟩ := ho.alloc ha
      generalize hpl : (if msg.length - p > mtu then mtu else msg.length - p) = pl
      have hpl1 : 0 < pl ∧ pl ≤ mtu ∧ pl ≤ msg.length - p := by split at hpl <;> omega
      have hal : pktbufAlloc m fill b.pktSize b.pktHeader b.pktTrailer (pl + hdrSize) =
          (some { id := m.next, size := b.pktSize + b.pktHeader + b.pktTrailer, start := b.pktHeader,
                  «end» := b.pktHeader + (pl + hdrSize), hdrOff := b.pktHeader,
                  data := (List.range (b.pktSize + b.pktHeader + b.pktTrailer)).map fill }, m1) := by
        unfold pktbufAlloc
        simp only [h1]
        rw [if_neg (by simp only [hdrSize]; omega)]
      rw [hal]
      simp only
      rw [write_eq (by simp; omega)]
      simp only
      have hcl : (List.take pl (List.drop p msg)).length = pl := by simp; omega
      rw [write_eq (by rw [hcl]; simp [hdrSize]; omega)]
      simp only
      have ha' : AllOk m1 := fun n => by rw [h3]; exact ha n
      have key : ∀ X : Pktbuf, X.id = m.next → Made b X →
          ∃ m' ps, txLoop fill b src dest to tag mtu msg fuel (p + pl) (i + 1) m1 (q ++ [X]) =
            .ok (m', q ++ ps) ∧ Owns m' (ps.map Pktbuf.id ++ o) ∧ m'.ok = m.ok ∧ ∀ x ∈ ps, Made b x := by
        intro X hX hM
        obtain ⟨m2, ps, r1, r2, r3, r4⟩ := ih (p := p + pl) (i := i + 1) (q := q ++ [X]) (by omega) h2 ha'
        refine ⟨m2, X :: ps, ?_, ?_, r3.trans h3, by
          intro x hx; rcases List.mem_cons.mp hx with rfl | hx
          · exact hM
          · exact r4 x hx⟩
        · rw [r1]; simp
        · refine r2.congr fun j => ?_
          simp only [List.map_cons, List.count_append, List.cons_append, List.count_cons, hX]
          omega
      exact key _ rfl ⟨rfl, rfl, rfl, by simp [hcl, hdrSize]; omega, by simp only [hdrSize]; omega,
        by simp only [hdrSize]; omega⟩
    · exact ⟨m, [], by simp, by simpa using ho, rfl, by simp⟩

end Mctp
