import Verif.Proofs.AstGeo

/-!
# The packets offered to the binding are those written to the window
-/

namespace Mctp

open Spec

variable {E : Type}

theorem bufferWrites_append (a b : List Access) : bufferWrites (a ++ b) = bufferWrites a ++ bufferWrites b := by
  simp [bufferWrites]

theorem _root_.Mctp.Spec.Wrote.append {P : Nat → Nat → Prop} {ps qs : List (List Byte)} {ws us : List (Nat × List Byte)}
    (h : Wrote P ps ws) (h' : Wrote P qs us) : Wrote P (ps ++ qs) (ws ++ us) := by
  induction h with
  | nil => exact h'
  | cons hp _ ih => exact .cons hp ih

theorem _root_.Mctp.Spec.Wrote.mono {P Q : Nat → Nat → Prop} (hpq : ∀ v o, P v o → Q v o) {ps : List (List Byte)}
    {ws : List (Nat × List Byte)} (h : Wrote P ps ws) : Wrote Q ps ws := by
  induction h with
  | nil => exact .nil
  | cons hp _ ih => exact .cons (hpq _ _ hp) ih

/-- A packet buffer as made by the transmit loop: the packet, and room for four more bytes. -/
structure Fresh (p : Pktbuf) : Prop where
  is   : PktIs p p.bytes
  st   : p.start = 4
  room : p.«end» + 4 ≤ p.size
  size : p.data.length = p.size

theorem Fresh.of_made {b : Binding (AstSt E)} (hh : b.pktHeader = 4) (ht : b.pktTrailer = 4) {p : Pktbuf}
    (h : Made b p) (hp : PktIs p p.bytes) : Fresh p := by
  obtain ⟨h1, h2, h3, h4, h5, h6⟩ := h
  exact ⟨hp, by omega, by omega, by omega⟩

/-- Protecting a fresh packet. -/
theorem fresh_wire {p p1 : Pktbuf} {v : Nat} {bytes : List Byte} (hf : Fresh p) (hv : v ≠ 0)
    (hlen : p.len < 2 ^ 31) (h1 : protoProtect (some v) p = .ok p1)
    (h2 : p1.read p1.hdrOff (u32 p1.len) = .ok bytes) : bytes = wire v p.bytes := by
  obtain ⟨hi, hst, hroom, hsz⟩ := hf
  have hl := hi.len
  by_cases h3 : v = 3
  · subst h3
    unfold protoProtect at h1
    simp only at h1
    obtain ⟨bs, hbs, h1⟩ := Res.bind_eq_ok.mp h1
    obtain ⟨⟨r, q⟩, hq, h1⟩ := Res.bind_eq_ok.mp h1
    simp only [Except.ok.injEq] at h1
    subst h1
    have hbs' : bs = p.bytes := by
      have := hi.read 0 p.bytes.length (by omega)
      rw [Nat.add_zero, ← hl, hbs] at this
      simp only [Except.ok.injEq, List.drop_zero, hl, List.take_length] at this
      exact this
    subst hbs'
    have hb4 : (be32 (crc32 p.bytes).toNat).length = 4 := rfl
    have hfin := hi.fin
    have hmod : (p.«end» + 4) % sizeMod = p.«end» + 4 := by
      apply Nat.mod_eq_of_lt; unfold sizeMod; omega
    unfold Pktbuf.push at hq
    rw [hb4, hmod, if_neg (by omega)] at hq
    obtain ⟨p', hp', hq⟩ := Res.bind_eq_ok.mp hq
    simp only [Except.ok.injEq, Prod.mk.injEq] at hq
    obtain ⟨-, rfl⟩ := hq
    obtain ⟨hw1, rfl⟩ := write_ok hp'
    have hlen1 : (Pktbuf.len { p with data := p.data.take p.«end» ++ be32 (crc32 p.bytes).toNat ++ p.data.drop (p.«end» + (be32 (crc32 p.bytes).toNat).length), «end» := p.«end» + 4 }) = p.bytes.length + 4 := by
      simp only [Pktbuf.len]; omega
    rw [hlen1, u32_of_lt (by omega)] at h2
    unfold Pktbuf.read at h2
    simp only at h2
    split at h2
    · simp only [Except.ok.injEq] at h2
      subst h2
      unfold wire
      rw [if_pos rfl]
      have hc := hi.cont
      rw [hi.hdr, List.append_assoc, List.drop_append_of_le_length (by simp; omega), List.drop_take]
      have hd : p.«end» - p.start = p.bytes.length := by omega
      rw [hd, hc, ← List.append_assoc, List.take_append_of_le_length (by simp [hb4]), List.take_of_length_le (by simp [hb4])]
    · cases h2
  · have hp : p1 = p := by
      match v, hv, h3, h1 with
      | 1, _, _, h => cases (show Except.ok p = .ok p1 from h); rfl
      | 2, _, _, h => cases (show Except.ok p = .ok p1 from h); rfl
      | n + 4, _, _, h => have h' : (Except.ok p : Res Pktbuf) = .ok p1 := h; cases h'; rfl
    subst hp
    rw [u32_of_lt (by omega)] at h2
    have := hi.read 0 p1.bytes.length (by omega)
    rw [Nat.add_zero, ← hl, h2] at this
    simp only [Except.ok.injEq, List.drop_zero, hl, List.take_length] at this
    unfold wire
    rw [if_neg h3, this]

/-- Every offer was taken by the binding (or skipped as too large), and no packet is longer than 2^31. -/
def AllTaken (os : List Offer) : Prop := ∀ x ∈ os, (x.rc = 0 ∨ x.rc = -EMSGSIZE) ∧ x.pkt.length < 2 ^ 31

/-- The packets that were taken. -/
def taken (os : List Offer) : List (List Byte) := (os.filter fun x => x.rc = 0).map Offer.pkt

theorem taken_append (a b : List Offer) : taken (a ++ b) = taken a ++ taken b := by simp [taken]

theorem AllTaken.append {a b : List Offer} : AllTaken (a ++ b) ↔ AllTaken a ∧ AllTaken b := by
  simp only [AllTaken, List.mem_append]
  constructor
  · intro h; exact ⟨fun x hx => h x (.inl hx), fun x hx => h x (.inr hx)⟩
  · rintro ⟨h1, h2⟩ x (hx | hx)
    · exact h1 x hx
    · exact h2 x hx

/-- The bus has room for headers and trailers. -/
def GeoOk (bus : Bus (AstSt E)) : Prop :=
  bus.binding.pktHeader = 4 ∧ bus.binding.pktTrailer = 4 ∧ 4 ≤ bus.binding.pktSize

/-- All queued packets are as made. -/
def FreshQ (bus : Bus (AstSt E)) : Prop := ∀ p ∈ bus.queue, Fresh p

/-- `v` and `o` are the version and the transmit buffer of the bus. -/
def AtBuf (bus : Bus (AstSt E)) (v o : Nat) : Prop :=
  v ≠ 0 ∧ bus.binding.st.proto = some v ∧ o = bus.binding.st.tx.offset

theorem Sends.noWrites {mode : AstMode} {cmd : Byte} {rc : Int} {l : List Access} (h : Sends mode cmd rc l) :
    bufferWrites l = [] := by
  cases h <;> rfl

theorem be32_u32 (n : Nat) : be32 (u32 n) = be32 n := by
  have h : ∀ a b : Nat, a % 256 = b % 256 → BitVec.ofNat 8 a = BitVec.ofNat 8 b := by
    intro a b hab
    apply BitVec.eq_of_toNat_eq
    simpa using hab
  unfold be32 u32
  rw [h (n % 2 ^ 32 / 2 ^ 24) (n / 2 ^ 24) (by omega), h (n % 2 ^ 32 / 2 ^ 16) (n / 2 ^ 16) (by omega),
    h (n % 2 ^ 32 / 2 ^ 8) (n / 2 ^ 8) (by omega), h (n % 2 ^ 32) n (by omega)]

/-- Every offer that was not taken comes with a failed access to a KCS register. -/
def Caused (os : List Offer) (l : List Access) : Prop :=
  ∀ x ∈ os, ¬ (x.rc = 0 ∨ x.rc = -EMSGSIZE) → ∃ a ∈ l, KcsFailed a

theorem Caused.append {os os' : List Offer} {l l' : List Access} (h : Caused os l) (h' : Caused os' l') :
    Caused (os ++ os') (l ++ l') := by
  intro x hx hn
  rcases List.mem_append.mp hx with hx | hx
  · obtain ⟨a, ha, hf⟩ := h x hx hn
    exact ⟨a, List.mem_append.mpr (.inl ha), hf⟩
  · obtain ⟨a, ha, hf⟩ := h' x hx hn
    exact ⟨a, List.mem_append.mpr (.inr ha), hf⟩

theorem Caused.nil (l : List Access) : Caused [] l := by intro x hx; cases hx

theorem Sends.cause {mode : AstMode} {cmd : Byte} {rc : Int} {l : List Access} (h : Sends mode cmd rc l) :
    rc = 0 ∨ rc = -EBUSY ∨ ∃ a ∈ l, KcsFailed a := by
  cases h with
  | @unread r v h => exact .inr (.inr ⟨.kcsRead .status r v, by simp, h⟩)
  | busy => exact .inr (.inl rfl)
  | sent => exact .inl rfl
  | @unsent v r _ h => exact .inr (.inr ⟨.kcsWrite .data cmd r, by simp, h⟩)

theorem wrote_keepsF (hw : Hw E) (mode : AstMode) (mtu : Nat) (bus0 : Bus (AstSt E)) (hg0 : GeoOk bus0) :
    Keeps (astOps hw) (fun os bus => AstJ mode mtu bus ∧ TxOnly bus0 bus ∧
      ∃ l, Adds bus0.binding.st bus.binding.st l ∧ Caused os l ∧
      (AllTaken os → FreshQ bus0 → FreshQ bus ∧ Wrote (AtBuf bus0) (taken os) (bufferWrites l))) where
  tx := by
    intro os bus p rest out ⟨hj, ho, l, ha, hca, hcond⟩ hst hq he
    have hk := (txOnly_keeps hw mode mtu bus0).tx (os := []) ⟨hj, ho⟩ hst hq he
    refine ⟨hk.1, hk.2, ?_⟩
    obtain ⟨-, hl⟩ := hj.2 hst
    obtain ⟨v, hv, hv0, hc⟩ := astTx_adds hl he
    have hfr : AllTaken (os ++ [⟨p.bytes, out.rc, out.disableTx⟩]) → FreshQ bus0 →
        FreshQ (afterTx bus p rest out) ∧ Fresh p ∧ (out.rc = 0 ∨ out.rc = -EMSGSIZE) ∧ p.bytes.length < 2 ^ 31 ∧
          Wrote (AtBuf bus0) (taken os) (bufferWrites l) := by
      intro hall hf0
      rw [AllTaken.append] at hall
      obtain ⟨hall, hone⟩ := hall
      obtain ⟨hone, hlt⟩ := hone _ (List.mem_singleton.mpr rfl)
      obtain ⟨hfq, hwr⟩ := hcond hall hf0
      simp only at hone hlt
      refine ⟨?_, hfq p (by rw [hq]; simp), hone, hlt, hwr⟩
      intro x hx
      simp only [afterTx] at hx
      rw [if_pos hone] at hx
      exact hfq x (by rw [hq]; exact List.mem_cons_of_mem _ hx)
    rcases hc with ⟨-, rfl⟩ | ⟨hfit, pkt1, bytes, rc, l', hprot, hrd, ha', hwr', -, -, hrc, h1, h2, h3, h4, h5, h6⟩
    · refine ⟨l, ha, ?_, fun hall hf0 => ⟨(hfr hall hf0).1, ?_⟩⟩
      · intro x hx hn
        rcases List.mem_append.mp hx with hx | hx
        · exact hca x hx hn
        · simp only [List.mem_singleton] at hx
          subst hx
          exact absurd (.inr rfl) hn
      · have hwr := (hfr hall hf0).2.2.2.2
        rw [taken_append]
        simpa [taken, EMSGSIZE] using hwr
    · refine ⟨l ++ l', ha.trans ha', hca.append ?_, fun hall hf0 => ⟨(hfr hall hf0).1, ?_⟩⟩
      · intro x hx hn
        simp only [List.mem_singleton] at hx
        subst hx
        simp only at hn
        obtain ⟨r1, r2, l2, rfl, hs⟩ := hwr'
        rcases hs.cause with h | h | ⟨a, ha2, hf⟩
        · subst h; exact absurd (.inl (by rw [hrc]; simp [EBUSY])) hn
        · subst h; exact absurd (.inl (by rw [hrc]; simp)) hn
        · exact ⟨a, List.mem_append.mpr (.inr ha2), hf⟩
      · obtain ⟨-, hfp, hone, hlt, hwr⟩ := hfr hall hf0
        have hrc0 : out.rc = 0 := by
          rcases hone with h | h
          · exact h
          · exfalso
            obtain ⟨r1, r2, l2, -, hs⟩ := hwr'
            rw [hrc] at h
            split at h
            · simp [EMSGSIZE] at h
            · cases hs <;> simp [EMSGSIZE, EIO, EBUSY] at h
        rw [taken_append, bufferWrites_append]
        refine hwr.append ?_
        have hlen := hfp.is.len
        have hbytes := fresh_wire hfp hv0 (by omega) hprot hrd
        obtain ⟨r1, r2, l2, rfl, hs⟩ := hwr'
        have hoff := hl.2.1.1.1
        unfold controlArea at hoff
        have hw1 : bufferWrites ([.lpcWrite bus.binding.st.tx.offset (be32 (u32 p.len)) r1,
            .lpcWrite (bus.binding.st.tx.offset + 4) bytes r2] ++ l2) =
            [(bus.binding.st.tx.offset, be32 p.bytes.length), (bus.binding.st.tx.offset + 4, wire v p.bytes)] := by
          rw [bufferWrites_append, hs.noWrites]
          simp only [bufferWrites, List.filterMap_cons, List.filterMap_nil, List.append_nil]
          rw [if_neg (by omega), if_neg (by omega), be32_u32, hlen, hbytes]
        rw [hw1]
        have ht : taken [⟨p.bytes, out.rc, out.disableTx⟩] = [p.bytes] := by simp [taken, hrc0]
        rw [ht]
        exact .cons ⟨hv0, by rw [← ho.prot]; exact hv, ho.txo⟩ .nil
  push := by
    intro os bus ps ⟨hj, ho, l, ha, hca, hcond⟩ hst hmade
    have hk := (txOnly_keeps hw mode mtu bus0).push (os := os) (ps := ps) ⟨hj, ho⟩ hst hmade
    refine ⟨hk.1, hk.2, l, ha, hca, fun hall hf0 => ?_⟩
    obtain ⟨hfq, hwr⟩ := hcond hall hf0
    refine ⟨fun x hx => ?_, hwr⟩
    simp only [List.mem_append] at hx
    rcases hx with hx | hx
    · exact hfq x hx
    · obtain ⟨g1, g2, g3⟩ := hg0
      have hb : bus.binding.pktHeader = 4 ∧ bus.binding.pktTrailer = 4 ∧ 4 ≤ bus.binding.pktSize := by
        rw [ho.bind]; exact ⟨g1, g2, g3⟩
      obtain ⟨hm, hp, -⟩ := hmade hb.2.2 x hx
      exact .of_made hb.1 hb.2.1 hm hp
  off := by
    intro os bus ⟨hj, ho, hcond⟩ hst
    have hk := (txOnly_keeps hw mode mtu bus0).off (os := os) ⟨hj, ho⟩ hst
    exact ⟨hk.1, hk.2, hcond⟩

end Mctp
