import Verif.Proofs.Frag
import Verif.Props.Rx2

/-! Receiving the fragments of messages. -/

namespace Mctp

open Spec

variable {β : Type}

/-- The callback invocations for the deliveries caused by a packet. -/
def evOf (x : List Byte × List (Byte × List Byte)) : List Event :=
  match parse x.1 with
  | some f => x.2.map fun y => .rxMsg y.1 f.tagOwner (BitVec.ofNat 8 f.tag) y.2
  | none => []

section
variable {lim : Nat → Bool → Prop} {eid ver src dest : Byte} {own : Bool} {tag : Byte} {mtu : Nat}
  {msg : List Byte}

theorem drop_take_succ (i : Nat) :
    msg.take (i * mtu) ++ (msg.drop (i * mtu)).take mtu = msg.take ((i + 1) * mtu) := by
  rw [Nat.add_mul, Nat.one_mul, List.take_add]

/-- The fragments from number `i ≥ 1` on complete the message. -/
theorem reasm_tail (hm : 0 < mtu) (ht : tag.toNat < 8) (hl : Local eid dest) (hs : src ≠ 0)
    (hlim : ∀ n b, n ≤ msg.length → lim n b → b = true) :
    ∀ n i (tr : List (List Byte × List (Byte × List Byte))) (σ σ' : State) (q : Partial),
      1 ≤ i → 1 ≤ n → i + n = nFrags mtu msg.length →
      Reasm lim eid σ tr σ' → tr.map (·.1) = (List.range' i n).map (fragment ver src dest own tag mtu msg) →
      σ ⟨src, dest, tag.toNat⟩ = some q → q.data = msg.take (i * mtu) → i % 4 = (q.lastSeq + 1) % 4 →
      q.fragLen = mtu →
      tr.flatMap evOf = [.rxMsg src own tag msg] ∧ tr.flatMap (·.2) = [(src, msg)] ∧
      σ' ⟨src, dest, tag.toNat⟩ = none ∧ ∀ k, k ≠ ⟨src, dest, tag.toNat⟩ → σ' k = σ k := by
  intro n
  induction n with
  | zero => intro i tr σ σ' q _ h; omega
  | succ n ih =>
    intro i tr σ σ' q h1 _ hn hre htr hq hqd hqs hqf
    rw [List.range'_succ, List.map_cons] at htr
    cases tr with
    | nil => simp at htr
    | cons x tr =>
      obtain ⟨p, out⟩ := x
      simp only [List.map_cons, List.cons.injEq] at htr
      obtain ⟨rfl, htr⟩ := htr
      obtain ⟨σ1, hst, hre⟩ := hre
      have hi : i < nFrags mtu msg.length := by omega
      have hpf := parse_fragment (ver := ver) (src := src) (dest := dest) (own := own) (tag := tag) hm ht hi
      obtain ⟨l1, l2, l3⟩ := frag_payload_len hm hi
      have hsg : (fragAt src dest own tag mtu msg i).single = false := by
        simp [fragAt, Frag.single]; omega
      unfold PktStep at hst
      rw [hpf] at hst
      simp only at hst
      rw [if_neg (not_not.mpr (show Local eid (fragAt src dest own tag mtu msg i).dest from hl)), if_neg (by simp [hsg]), if_neg (show (fragAt src dest own tag mtu msg i).src ≠ 0 from hs)] at hst
      obtain ⟨m, ⟨room, fits, _, hlm, hown, hoth⟩, rfl⟩ := hst
      have hkey : (fragAt src dest own tag mtu msg i).key = ⟨src, dest, tag.toNat⟩ := rfl
      have hsom : (fragAt src dest own tag mtu msg i).som = false := by simp [fragAt]; omega
      rw [hkey, hq] at hlm hown
      rw [hkey] at hoth
      have htot : total (some q) (fragAt src dest own tag mtu msg i) ≤ msg.length := by
        unfold total
        rw [if_neg (by simp [hsom])]
        simp only [Option.map_some, Option.getD_some, fragAt, hqd]
        simp only [List.length_take, List.length_drop]
        omega
      have hfit : fits = true := hlim _ _ htot hlm
      unfold Spec.own at hown
      rw [if_neg (by simp [hsom])] at hown
      simp only at hown
      have heom : (fragAt src dest own tag mtu msg i).eom = decide (n = 0) := by
        simp only [fragAt, decide_eq_decide]; omega
      rw [if_pos ⟨by simp only [fragAt]; exact hqs, hfit, by
        rw [heom, hqf]
        split
        · exact l2
        · rename_i hne; exact l3 (by simp at hne; omega)⟩, heom] at hown
      have hpay : q.data ++ (fragAt src dest own tag mtu msg i).payload = msg.take ((i + 1) * mtu) := by
        rw [hqd]; exact drop_take_succ i
      rw [hpay] at hown
      cases n with
      | zero =>
        simp only [List.range'_zero, List.map_nil, List.map_eq_nil_iff] at htr
        subst htr
        cases hre
        simp only [decide_true, if_true, Prod.mk.injEq] at hown
        obtain ⟨hσ, rfl⟩ := hown
        have hall : msg.take ((i + 1) * mtu) = msg :=
          List.take_of_length_le ((nFrags_le hm).mp (by omega))
        rw [hall]
        refine ⟨?_, by simp [fragAt], hσ, hoth⟩
        simp only [List.flatMap_cons, List.flatMap_nil, evOf, hpf, fragAt, Option.map_some, Option.toList,
          List.map_cons, List.map_nil, List.append_nil]
        simp
      | succ n =>
        rw [if_neg (by simp)] at hown
        simp only [Prod.mk.injEq] at hown
        obtain ⟨hσ, rfl⟩ := hown
        obtain ⟨r1, r2, r3, r4⟩ := ih (i + 1) tr σ1 σ' _ (by omega) (by omega) (by omega) hre htr hσ rfl
          (by simp only [fragAt]; omega) hqf
        refine ⟨?_, ?_, r3, fun k hk => (r4 k hk).trans (hoth k hk)⟩
        · rw [List.flatMap_cons, r1]; simp [evOf, hpf]
        · rw [List.flatMap_cons, r2]; simp

/-- The fragments of one message, received back to back. -/
theorem reasm_one (hm : 0 < mtu) (ht : tag.toNat < 8) (hl : Local eid dest) (hs : src ≠ 0)
    (hlim : ∀ n b, n ≤ msg.length → lim n b → b = true)
    {tr : List (List Byte × List (Byte × List Byte))} {σ σ' : State}
    (hre : Reasm lim eid σ tr σ') (htr : tr.map (·.1) = fragments ver src dest own tag mtu msg)
    (hroom : ¬ Full σ) :
    tr.flatMap evOf = (if msg = [] then [] else [.rxMsg src own tag msg]) ∧
      tr.flatMap (·.2) = (if msg = [] then [] else [(src, msg)]) ∧
      ∀ k, σ' k ≠ none → σ k ≠ none := by
  unfold fragments at htr
  rw [List.range_eq_range'] at htr
  cases hN : nFrags mtu msg.length with
  | zero =>
    have hz : msg = [] := by
      have := (nFrags_le (mtu := mtu) (len := msg.length) (i := 0) hm).mp (by omega)
      simpa using this
    rw [hN] at htr
    simp only [List.range'_zero, List.map_nil, List.map_eq_nil_iff] at htr
    subst htr
    cases hre
    simp [hz]
  | succ n =>
    have hne : msg ≠ [] := by
      intro h
      have := (lt_nFrags (mtu := mtu) (len := msg.length) (i := 0) hm).mp (by omega)
      simp [h] at this
    rw [if_neg hne, if_neg hne]
    rw [hN, List.range'_succ, List.map_cons] at htr
    cases tr with
    | nil => simp at htr
    | cons x tr =>
      obtain ⟨p, out⟩ := x
      simp only [List.map_cons, List.cons.injEq] at htr
      obtain ⟨rfl, htr⟩ := htr
      obtain ⟨σ1, hst, hre⟩ := hre
      have hi : 0 < nFrags mtu msg.length := by omega
      have hpf := parse_fragment (ver := ver) (src := src) (dest := dest) (own := own) (tag := tag) hm ht hi
      obtain ⟨l1, l2, l3⟩ := frag_payload_len hm hi
      unfold PktStep at hst
      rw [hpf] at hst
      simp only at hst
      rw [if_neg (not_not.mpr (show Local eid (fragAt src dest own tag mtu msg 0).dest from hl))] at hst
      cases n with
      | zero =>
        have hsg : (fragAt src dest own tag mtu msg 0).single = true := by
          simp [fragAt, Frag.single, hN]
        rw [if_pos hsg] at hst
        simp only [List.range'_zero, List.map_nil, List.map_eq_nil_iff] at htr
        subst htr
        cases hre
        obtain ⟨rfl, rfl⟩ := hst
        have hall : (fragAt src dest own tag mtu msg 0).payload = msg := by
          have := (nFrags_le (mtu := mtu) (len := msg.length) (i := 1) hm).mp (by omega)
          simp only [fragAt, Nat.zero_mul, List.drop_zero]
          exact List.take_of_length_le (by omega)
        rw [hall]
        refine ⟨?_, by simp [fragAt], fun _ h => h⟩
        simp only [List.flatMap_cons, List.flatMap_nil, evOf, hpf, List.map_cons, List.map_nil,
          List.append_nil]
        simp [fragAt]
      | succ n =>
        have hsg : (fragAt src dest own tag mtu msg 0).single = false := by
          simp [fragAt, Frag.single, hN]
        rw [if_neg (by simp [hsg]), if_neg (show (fragAt src dest own tag mtu msg 0).src ≠ 0 from hs)] at hst
        obtain ⟨m, ⟨room, fits, hrm, hlm, hown, hoth⟩, rfl⟩ := hst
        have hkey : (fragAt src dest own tag mtu msg 0).key = ⟨src, dest, tag.toNat⟩ := rfl
        have hsom : (fragAt src dest own tag mtu msg 0).som = true := by simp [fragAt]
        rw [hkey] at hlm hown hoth
        have hfit : fits = true := by
          refine hlim _ _ ?_ hlm
          unfold total
          rw [if_pos hsom]
          simp only [fragAt, List.length_take, List.length_drop]
          omega
        unfold Spec.own at hown
        rw [if_pos hsom, if_neg (by rw [hrm.mpr hroom]; simp), if_pos hfit] at hown
        simp only [Prod.mk.injEq] at hown
        obtain ⟨hσ, rfl⟩ := hown
        obtain ⟨r1, r2, r3, r4⟩ := reasm_tail (ver := ver) hm ht hl hs hlim (n + 1) 1 tr σ1 σ' _ (by omega) (by omega)
          (by omega) hre htr hσ (by simp [fragAt]) (by simp [fragAt])
          (by simp only [fragAt]; exact l3 (by omega))
        refine ⟨?_, ?_, ?_⟩
        · rw [List.flatMap_cons, r1]; simp [evOf, hpf]
        · rw [List.flatMap_cons, r2]; simp
        · intro k hk
          by_cases hkk : k = ⟨src, dest, tag.toNat⟩
          · rw [hkk, r3] at hk; exact absurd rfl hk
          · rw [r4 k hkk, hoth k hkk] at hk; exact hk

end

theorem full_mono {σ σ' : State} (h : ∀ k, σ' k ≠ none → σ k ≠ none) (hf : Full σ') : Full σ := by
  obtain ⟨ks, h1, h2, h3⟩ := hf
  exact ⟨ks, h1, h2, fun k hk => h k (h3 k hk)⟩

theorem reasm_append {lim : Nat → Bool → Prop} {eid : Byte} :
    ∀ {a b : List (List Byte × List (Byte × List Byte))} {σ σ' : State}, Reasm lim eid σ (a ++ b) σ' →
    ∃ σ1, Reasm lim eid σ a σ1 ∧ Reasm lim eid σ1 b σ' := by
  intro a
  induction a with
  | nil => intro b σ σ' h; exact ⟨σ, rfl, h⟩
  | cons x a ih =>
    intro b σ σ' h
    obtain ⟨σ1, h1, h2⟩ := h
    obtain ⟨σ2, h3, h4⟩ := ih h2
    exact ⟨σ2, ⟨σ1, h1, h3⟩, h4⟩

/-- The fragments of several messages, received back to back. -/
theorem reasm_many {lim : Nat → Bool → Prop} {eid ver src : Byte} (hs : src ≠ 0) :
    ∀ {ms : List Msg}, (∀ m ∈ ms, 0 < m.mtu ∧ m.tag.toNat < 8 ∧ Local eid m.dest ∧
      ∀ n b, n ≤ m.data.length → lim n b → b = true) →
    ∀ {tr : List (List Byte × List (Byte × List Byte))} {σ σ' : State},
    Reasm lim eid σ tr σ' → tr.map (·.1) = ms.flatMap (Msg.packets ver src) → ¬ Full σ →
    tr.flatMap evOf = (ms.filter (fun m => m.data ≠ [])).map (fun m => .rxMsg src m.own m.tag m.data) ∧
    tr.flatMap (·.2) = (ms.filter (fun m => m.data ≠ [])).map (fun m => (src, m.data)) ∧ ¬ Full σ' := by
  intro ms
  induction ms with
  | nil =>
    intro _ tr σ σ' h htr hf
    simp only [List.flatMap_nil, List.map_eq_nil_iff] at htr
    subst htr
    cases h
    exact ⟨rfl, rfl, hf⟩
  | cons m ms ih =>
    intro hms tr σ σ' h htr hf
    rw [List.flatMap_cons] at htr
    obtain ⟨a, b, rfl, ha, hb⟩ := List.map_eq_append_iff.mp htr
    obtain ⟨σ1, h1, h2⟩ := reasm_append h
    obtain ⟨m1, m2, m3, m4⟩ := hms m (by simp)
    obtain ⟨r1, r2, r3⟩ := reasm_one m1 m2 m3 hs m4 h1 ha hf
    obtain ⟨q1, q2, q3⟩ := ih (fun m hm => hms m (by simp [hm])) h2 hb (fun hh => hf (full_mono r3 hh))
    rw [List.flatMap_append, List.flatMap_append, r1, r2, q1, q2]
    refine ⟨?_, ?_, q3⟩ <;> by_cases hd : m.data = [] <;> simp [hd]

end Mctp
