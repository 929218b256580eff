import Verif.Proofs.RoundTrip

/-!
# Messages received back to back: also those for other endpoints and those over the limit
-/

namespace Mctp

open Spec

/-- Nothing came of these packets. -/
def NoOutput (tr : List (List Byte × List (Byte × List Byte))) : Prop := ∀ x ∈ tr, x.2 = []

theorem NoOutput.out {tr : List (List Byte × List (Byte × List Byte))} (h : NoOutput tr) : tr.flatMap evOf = [] ∧ tr.flatMap (·.2) = [] := by
  refine ⟨List.flatMap_eq_nil_iff.mpr fun x hx => ?_, List.flatMap_eq_nil_iff.mpr h⟩
  unfold evOf
  rw [h x hx]
  split <;> rfl

theorem NoOutput.cons {x : List Byte × List (Byte × List Byte)} {tr : List (List Byte × List (Byte × List Byte))} (h1 : x.2 = []) (h : NoOutput tr) :
    NoOutput (x :: tr) := by
  intro y hy
  rcases List.mem_cons.mp hy with rfl | hy
  · exact h1
  · exact h y hy

/-- Nothing came of these packets, and the stream is closed after them; the other streams are untouched. -/
def StreamShut (key : Key) (tr : List (List Byte × List (Byte × List Byte))) (σ σ' : State) : Prop :=
  NoOutput tr ∧ σ' key = none ∧ ∀ k, k ≠ key → σ' k = σ k

theorem StreamShut.cons {key : Key} {x : List Byte × List (Byte × List Byte)} {tr : List (List Byte × List (Byte × List Byte))} {σ σ1 σ' : State}
    (h1 : x.2 = []) (h2 : ∀ k, k ≠ key → σ1 k = σ k) (h : StreamShut key tr σ1 σ') : StreamShut key (x :: tr) σ σ' :=
  ⟨h.1.cons h1, h.2.1, fun k hk => (h.2.2 k hk).trans (h2 k hk)⟩

section
variable {lim : Nat → Bool → Prop} {eid ver src dest : Byte} {own : Bool} {tag : Byte} {mtu : Nat} {msg : List Byte}

/-- Packets for another endpoint. -/
theorem reasm_foreign (hm : 0 < mtu) (ht : tag.toNat < 8) (hl : ¬ Local eid dest) :
    ∀ (is : List Nat) (tr : List (List Byte × List (Byte × List Byte))) (σ σ' : State), (∀ i ∈ is, i < nFrags mtu msg.length) →
      Reasm lim eid σ tr σ' → tr.map (·.1) = is.map (fragment ver src dest own tag mtu msg) → NoOutput tr ∧ σ' = σ := by
  intro is
  induction is with
  | nil =>
    intro tr σ σ' _ hre htr
    simp only [List.map_nil, List.map_eq_nil_iff] at htr
    subst htr
    cases hre
    exact ⟨by simp [NoOutput], rfl⟩
  | cons i is ih =>
    intro tr σ σ' hi hre htr
    cases tr with
    | nil => simp at htr
    | cons x tr =>
      obtain ⟨p, out⟩ := x
      simp only [List.map_cons, List.cons.injEq] at htr
      obtain ⟨rfl, htr⟩ := htr
      obtain ⟨σ1, hst, hre⟩ := hre
      have hpf := parse_fragment (ver := ver) (src := src) (dest := dest) (own := own) (tag := tag) hm ht (hi i (by simp))
      unfold PktStep at hst
      rw [hpf] at hst
      simp only at hst
      rw [if_pos (show ¬ Local eid (fragAt src dest own tag mtu msg i).dest from hl)] at hst
      obtain ⟨rfl, rfl⟩ := hst
      obtain ⟨h1, h2⟩ := ih tr σ1 σ' (fun j hj => hi j (by simp [hj])) hre htr
      exact ⟨h1.cons rfl, h2⟩

/-- Later fragments without a stream. -/
theorem reasm_dead (hm : 0 < mtu) (ht : tag.toNat < 8) (hl : Local eid dest) (hs : src ≠ 0) :
    ∀ (is : List Nat) (tr : List (List Byte × List (Byte × List Byte))) (σ σ' : State), (∀ i ∈ is, 1 ≤ i ∧ i < nFrags mtu msg.length) →
      Reasm lim eid σ tr σ' → tr.map (·.1) = is.map (fragment ver src dest own tag mtu msg) → σ ⟨src, dest, tag.toNat⟩ = none → StreamShut ⟨src, dest, tag.toNat⟩ tr σ σ' := by
  intro is
  induction is with
  | nil =>
    intro tr σ σ' _ hre htr hq
    simp only [List.map_nil, List.map_eq_nil_iff] at htr
    subst htr
    cases hre
    exact ⟨by simp [NoOutput], hq, fun _ _ => rfl⟩
  | cons i is ih =>
    intro tr σ σ' hi hre htr hq
    cases tr with
    | nil => simp at htr
    | cons x tr =>
      obtain ⟨p, out⟩ := x
      simp only [List.map_cons, List.cons.injEq] at htr
      obtain ⟨rfl, htr⟩ := htr
      obtain ⟨σ1, hst, hre⟩ := hre
      obtain ⟨hi1, hi2⟩ := hi i (by simp)
      have hpf := parse_fragment (ver := ver) (src := src) (dest := dest) (own := own) (tag := tag) hm ht hi2
      have hsg : (fragAt src dest own tag mtu msg i).single = false := by
        simp [fragAt, Frag.single]; omega
      unfold PktStep at hst
      rw [hpf] at hst
      simp only at hst
      rw [if_neg (not_not.mpr (show Local eid (fragAt src dest own tag mtu msg i).dest from hl)), if_neg (by simp [hsg]), if_neg (show (fragAt src dest own tag mtu msg i).src ≠ 0 from hs)] at hst
      obtain ⟨m, ⟨room, fits, _, hlm, hown, hoth⟩, rfl⟩ := hst
      have hkey : (fragAt src dest own tag mtu msg i).key = ⟨src, dest, tag.toNat⟩ := rfl
      have hsom : (fragAt src dest own tag mtu msg i).som = false := by simp [fragAt]; omega
      rw [hkey, hq] at hown
      rw [hkey] at hoth
      unfold Spec.own at hown
      rw [if_neg (by simp [hsom])] at hown
      simp only [Prod.mk.injEq] at hown
      obtain ⟨hσ, rfl⟩ := hown
      exact StreamShut.cons rfl hoth (ih tr σ1 σ' (fun j hj => hi j (by simp [hj])) hre htr hσ)

/-- The later fragments of a message that is too long. -/
theorem reasm_long_tail (hm : 0 < mtu) (ht : tag.toNat < 8) (hl : Local eid dest) (hs : src ≠ 0) (hlim : ¬ lim msg.length true) :
    ∀ n i (tr : List (List Byte × List (Byte × List Byte))) (σ σ' : State) (q : Partial),
      1 ≤ i → 1 ≤ n → i + n = nFrags mtu msg.length →
      Reasm lim eid σ tr σ' → tr.map (·.1) = (List.range' i n).map (fragment ver src dest own tag mtu msg) →
      σ ⟨src, dest, tag.toNat⟩ = some q → q.data = msg.take (i * mtu) → StreamShut ⟨src, dest, tag.toNat⟩ tr σ σ' := by
  intro n
  induction n with
  | zero => intro i tr σ σ' q _ h; omega
  | succ n ih =>
    intro i tr σ σ' q h1 _ hn hre htr hq hqd
    rw [List.range'_succ, List.map_cons] at htr
    cases tr with
    | nil => simp at htr
    | cons x tr =>
      obtain ⟨p, out⟩ := x
      simp only [List.map_cons, List.cons.injEq] at htr
      obtain ⟨rfl, htr⟩ := htr
      obtain ⟨σ1, hst, hre⟩ := hre
      have hi : i < nFrags mtu msg.length := by omega
      have hpf := parse_fragment (ver := ver) (src := src) (dest := dest) (own := own) (tag := tag) hm ht hi
      have hsg : (fragAt src dest own tag mtu msg i).single = false := by
        simp [fragAt, Frag.single]; omega
      unfold PktStep at hst
      rw [hpf] at hst
      simp only at hst
      rw [if_neg (not_not.mpr (show Local eid (fragAt src dest own tag mtu msg i).dest from hl)), if_neg (by simp [hsg]), if_neg (show (fragAt src dest own tag mtu msg i).src ≠ 0 from hs)] at hst
      obtain ⟨m, ⟨room, fits, _, hlm, hown, hoth⟩, rfl⟩ := hst
      have hkey : (fragAt src dest own tag mtu msg i).key = ⟨src, dest, tag.toNat⟩ := rfl
      have hsom : (fragAt src dest own tag mtu msg i).som = false := by simp [fragAt]; omega
      rw [hkey, hq] at hlm hown
      rw [hkey] at hoth
      have heom : (fragAt src dest own tag mtu msg i).eom = decide (n = 0) := by
        simp only [fragAt, decide_eq_decide]; omega
      have hpay : q.data ++ (fragAt src dest own tag mtu msg i).payload = msg.take ((i + 1) * mtu) := by
        rw [hqd]; exact drop_take_succ i
      have hdead : σ1 ⟨src, dest, tag.toNat⟩ = none → m = none →
          StreamShut ⟨src, dest, tag.toNat⟩ ((fragment ver src dest own tag mtu msg i, (m.map fun b => ((fragAt src dest own tag mtu msg i).src, b)).toList) :: tr) σ σ' := by
        intro hσ hm'
        subst hm'
        refine StreamShut.cons rfl hoth (reasm_dead hm ht hl hs _ tr σ1 σ' (fun j hj => ?_) hre htr hσ)
        rw [List.mem_range'_1] at hj
        omega
      unfold Spec.own at hown
      rw [if_neg (by simp [hsom])] at hown
      simp only at hown
      rw [heom] at hown
      by_cases h0 : n = 0
      · have hall : msg.take ((i + 1) * mtu) = msg := List.take_of_length_le ((nFrags_le hm).mp (by omega))
        have htot : total (some q) (fragAt src dest own tag mtu msg i) = msg.length := by
          unfold total
          rw [if_neg (by simp [hsom])]
          have := congrArg List.length hpay
          rw [hall, List.length_append] at this
          simpa using this
        rw [htot] at hlm
        have hf : fits = false := by
          cases fits with
          | false => rfl
          | true => exact absurd hlm hlim
        rw [hf, if_neg (fun h => absurd h.2.1 (by decide))] at hown
        simp only [Prod.mk.injEq] at hown
        exact hdead hown.1 hown.2
      · simp only [h0, decide_false, Bool.false_eq_true, if_false] at hown
        split at hown
        · simp only [Prod.mk.injEq] at hown
          obtain ⟨hσ, rfl⟩ := hown
          exact StreamShut.cons rfl hoth (ih (i + 1) tr σ1 σ' _ (by omega) (by omega) (by omega) hre htr hσ hpay)
        · simp only [Prod.mk.injEq] at hown
          exact hdead hown.1 hown.2

/-- A message that is too long and takes more than one packet: nothing comes of it. -/
theorem reasm_long (hm : 0 < mtu) (ht : tag.toNat < 8) (hl : Local eid dest) (hs : src ≠ 0) (hlim : ¬ lim msg.length true) (hbig : mtu < msg.length)
    {tr : List (List Byte × List (Byte × List Byte))} {σ σ' : State}
    (hre : Reasm lim eid σ tr σ') (htr : tr.map (·.1) = fragments ver src dest own tag mtu msg) (hroom : ¬ Full σ) :
    tr.flatMap evOf = [] ∧ tr.flatMap (·.2) = [] ∧ ¬ Full σ' := by
  unfold fragments at htr
  rw [List.range_eq_range'] at htr
  have hN : 1 < nFrags mtu msg.length := (lt_nFrags (mtu := mtu) (len := msg.length) (i := 1) hm).mpr (by omega)
  obtain ⟨n, hn⟩ : ∃ n, nFrags mtu msg.length = n + 2 := ⟨nFrags mtu msg.length - 2, by omega⟩
  rw [hn, List.range'_succ, List.map_cons] at htr
  cases tr with
  | nil => simp at htr
  | cons x tr =>
    obtain ⟨p, out⟩ := x
    simp only [List.map_cons, List.cons.injEq] at htr
    obtain ⟨rfl, htr⟩ := htr
    obtain ⟨σ1, hst, hre⟩ := hre
    have hi : 0 < nFrags mtu msg.length := by omega
    have hpf := parse_fragment (ver := ver) (src := src) (dest := dest) (own := own) (tag := tag) hm ht hi
    obtain ⟨l1, l2, l3⟩ := frag_payload_len hm hi
    have hsg : (fragAt src dest own tag mtu msg 0).single = false := by
      simp [fragAt, Frag.single, hn]
    unfold PktStep at hst
    rw [hpf] at hst
    simp only at hst
    rw [if_neg (not_not.mpr (show Local eid (fragAt src dest own tag mtu msg 0).dest from hl)), if_neg (by simp [hsg]), if_neg (show (fragAt src dest own tag mtu msg 0).src ≠ 0 from hs)] at hst
    obtain ⟨m, ⟨room, fits, hrm, hlm, hown, hoth⟩, rfl⟩ := hst
    have hkey : (fragAt src dest own tag mtu msg 0).key = ⟨src, dest, tag.toNat⟩ := rfl
    have hsom : (fragAt src dest own tag mtu msg 0).som = true := by simp [fragAt]
    rw [hkey] at hlm hown hoth
    have hc : StreamShut ⟨src, dest, tag.toNat⟩ tr σ1 σ' ∧ m = none := by
      unfold Spec.own at hown
      rw [if_pos hsom, if_neg (by rw [hrm.mpr hroom]; simp)] at hown
      split at hown
      · simp only [Prod.mk.injEq] at hown
        obtain ⟨hσ, rfl⟩ := hown
        exact ⟨reasm_long_tail (ver := ver) hm ht hl hs hlim (n + 1) 1 tr σ1 σ' _ (by omega) (by omega) (by omega) hre htr hσ (by simp [fragAt]), rfl⟩
      · simp only [Prod.mk.injEq] at hown
        obtain ⟨hσ, rfl⟩ := hown
        refine ⟨reasm_dead (ver := ver) hm ht hl hs _ tr σ1 σ' (fun j hj => ?_) hre htr hσ, rfl⟩
        rw [List.mem_range'_1] at hj
        omega
    obtain ⟨hc, rfl⟩ := hc
    have hcl := StreamShut.cons (x := (fragment ver src dest own tag mtu msg 0, [])) rfl hoth hc
    refine ⟨hcl.1.out.1, hcl.1.out.2, fun hf => hroom (full_mono (fun k hk => ?_) hf)⟩
    by_cases hkk : k = ⟨src, dest, tag.toNat⟩
    · rw [hkk, hcl.2.1] at hk; exact absurd rfl hk
    · rw [hcl.2.2 k hkk] at hk; exact hk
end

/-- What is delivered of messages received back to back: those for this endpoint, with content, and not over the limit. -/
def kept (eid : Byte) (mx : Nat) (m : Msg) : Bool := decide (m.data ≠ [] ∧ Local eid m.dest ∧ m.data.length ≤ mx)

/-- The fragments of several messages, received back to back, with an exact limit. -/
theorem reasm_all {mx : Nat} {eid ver src : Byte} (hs : src ≠ 0) :
    ∀ {ms : List Msg}, (∀ m ∈ ms, 0 < m.mtu ∧ m.mtu ≤ mx ∧ m.tag.toNat < 8) →
    ∀ {tr : List (List Byte × List (Byte × List Byte))} {σ σ' : State},
    Reasm (exact mx) eid σ tr σ' → tr.map (·.1) = ms.flatMap (Msg.packets ver src) → ¬ Full σ →
    tr.flatMap evOf = (ms.filter (kept eid mx)).map (fun m => .rxMsg src m.own m.tag m.data) ∧ ¬ Full σ' := by
  intro ms
  induction ms with
  | nil =>
    intro _ tr σ σ' h htr hf
    simp only [List.flatMap_nil, List.map_eq_nil_iff] at htr
    subst htr
    cases h
    exact ⟨rfl, hf⟩
  | cons m ms ih =>
    intro hms tr σ σ' h htr hf
    rw [List.flatMap_cons] at htr
    obtain ⟨a, b, rfl, ha, hb⟩ := List.map_eq_append_iff.mp htr
    obtain ⟨σ1, h1, h2⟩ := reasm_append h
    obtain ⟨m1, m2, m3⟩ := hms m (by simp)
    have one : a.flatMap evOf = (if kept eid mx m then [.rxMsg src m.own m.tag m.data] else []) ∧ ¬ Full σ1 := by
      by_cases hl : Local eid m.dest
      · by_cases hle : m.data.length ≤ mx
        · obtain ⟨r1, -, r3⟩ := reasm_one m1 m3 hl hs (fun n b hn hb => hb.mpr (by omega)) h1 ha hf
          refine ⟨?_, fun hh => hf (full_mono r3 hh)⟩
          rw [r1]
          by_cases hd : m.data = [] <;> simp [kept, hd, hl, hle]
        · obtain ⟨r1, -, r3⟩ := reasm_long m1 m3 hl hs (lim := exact mx) (fun hh => hle (hh.mp rfl)) (by omega) h1 ha hf
          refine ⟨?_, r3⟩
          rw [r1]
          simp [kept, hle]
      · obtain ⟨r1, rfl⟩ := reasm_foreign m1 m3 hl _ a _ σ1 (fun i hi => List.mem_range.mp hi) h1 ha
        refine ⟨?_, hf⟩
        rw [r1.out.1]
        simp [kept, hl]
    obtain ⟨q1, q2⟩ := ih (fun m hm => hms m (by simp [hm])) h2 hb one.2
    rw [List.flatMap_append, one.1, q1]
    refine ⟨?_, q2⟩
    by_cases hk : kept eid mx m = true <;> simp [hk]

end Mctp
