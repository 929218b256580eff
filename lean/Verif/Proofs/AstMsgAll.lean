import Verif.Proofs.AstMsg
import Verif.Proofs.RoundTripAll

/-!
# Messages across the LPC link: also those for other endpoints and those over the limit
-/

namespace Mctp

open Spec

variable {E : Type}

/-- The ideal reassembler with an exact limit can always continue. -/
theorem reasm_total_exact {mx : Nat} {eid : Byte} : ∀ (ps : List (List Byte)) (σ : State),
    ∃ tr σ', tr.map (·.1) = ps ∧ Reasm (exact mx) eid σ tr σ' := by
  intro ps
  induction ps with
  | nil => intro σ; exact ⟨[], σ, rfl, rfl⟩
  | cons p ps ih =>
    intro σ
    have hstep : ∃ σ1 out, PktStep (exact mx) eid σ p σ1 out := by
      unfold PktStep
      cases hp : parse p with
      | none => exact ⟨σ, [], rfl, rfl⟩
      | some f =>
        simp only
        by_cases h1 : ¬ Local eid f.dest
        · exact ⟨σ, [], by rw [if_pos h1]; exact ⟨rfl, rfl⟩⟩
        by_cases h2 : f.single
        · exact ⟨σ, [(f.src, f.payload)], by rw [if_neg h1, if_pos h2]; exact ⟨rfl, rfl⟩⟩
        by_cases h3 : f.src = 0
        · exact ⟨σ, [], by rw [if_neg h1, if_neg h2, if_pos h3]⟩
        have hroom : ∃ room : Bool, room = true ↔ ¬ Full σ := by
          by_cases h : Full σ
          · exact ⟨false, by simp [h]⟩
          · exact ⟨true, by simp [h]⟩
        obtain ⟨room, hr⟩ := hroom
        refine ⟨fun k => if k = f.key then (own room (decide (total (σ f.key) f ≤ mx)) f (σ f.key)).1 else σ k,
          ((own room (decide (total (σ f.key) f ≤ mx)) f (σ f.key)).2.map fun b => (f.src, b)).toList, ?_⟩
        rw [if_neg h1, if_neg h2, if_neg h3]
        refine ⟨_, ⟨room, _, hr, decide_eq_true_iff, ?_, fun k hk => if_neg hk⟩, rfl⟩
        simp
    obtain ⟨σ1, out, hs⟩ := hstep
    obtain ⟨tr, σ', h1, h2⟩ := ih σ1
    exact ⟨(p, out) :: tr, σ', by simp [h1], σ1, hs, h2⟩

/-- No packet of a message has more content than its MTU. -/
theorem packets_short {ver src : Byte} {m : Msg} (hm : 0 < m.mtu) : ∀ p ∈ m.packets ver src, p.length - 4 ≤ m.mtu := by
  intro p hp
  obtain ⟨i, hi, rfl⟩ := List.mem_map.mp hp
  rw [List.mem_range] at hi
  obtain ⟨-, l2, -⟩ := frag_payload_len hm hi
  simp only [fragment, List.length_append, List.length_cons, List.length_nil]
  omega

/-- If the packets an endpoint has received are the first of the packets of messages, it has delivered the first of those of these messages that are for it, have content
and are not longer than its limit; if they are all of them, all. -/
theorem AstEndpoint.deliversAll {hw : Hw E} {env : E} {eid : Byte} {mx k : Nat} {mode : AstMode} {mtu : Nat} {mem : Mem}
    {c0 c : Core (AstSt E)} (h : AstEndpoint hw env eid mx mode mtu mem c0) (hmem : AllOk mem) {hist : List AstOp} {log : List AstRec}
    (hk : KeepsRx hist) (hr : c0.astRun hw hist = .ok (c, log)) (hmx1 : mx = 4096 * 2 ^ k) (hmx2 : mx < 2 ^ 64) {src ver : Byte} (hsrc : src ≠ 0)
    {ms : List Msg} (hms : ∀ m ∈ ms, 0 < m.mtu ∧ m.mtu ≤ 4096 ∧ m.tag.toNat < 8)
    {rest : List (List Byte)} (hps : ms.flatMap (Msg.packets ver src) = packetsIn (astEvents log) ++ rest) :
    ∃ more, (ms.filter (kept eid mx)).map (fun m => Event.rxMsg src m.own m.tag m.data) =
      (astEvents log).filter (fun ev => (delivered ev).isSome) ++ more ∧ (rest = [] → more = []) := by
  have hpol := Pol.exact hmx1 hmx2
  obtain ⟨bus, hb, hbr, hj⟩ := h.inv
  have hshort : ∀ p ∈ packetsIn (astEvents log), p.length - 4 ≤ 4096 := by
    intro p hp
    have : p ∈ ms.flatMap (Msg.packets ver src) := by rw [hps]; exact List.mem_append_left _ hp
    obtain ⟨m, hm, hp⟩ := List.mem_flatMap.mp this
    obtain ⟨m1, m2, -⟩ := hms m hm
    exact Nat.le_trans (packets_short m1 p hp) m2
  obtain ⟨-, tr, t1, t2, t3⟩ := astRun_recv hpol hshort hk hb hj (h.recvInv hmem hpol) hr
  rw [h.configured.flags.2.2, abs_init] at t2
  obtain ⟨tr2, σ', r1, r2⟩ := reasm_total_exact (mx := mx) (eid := eid) rest (abs c.ctxs)
  obtain ⟨q1, -⟩ := reasm_all (ms := ms) hsrc (fun m hm =>
    ⟨(hms m hm).1, by have := (hms m hm).2.1; have := Nat.one_le_two_pow (n := k); omega, (hms m hm).2.2⟩)
    (Mctp.Reasm.trans t2 r2) (by rw [List.map_append, t1, r1, hps]) (by
      rintro ⟨ks, _, hlen, hks⟩
      cases ks with
      | nil => simp at hlen
      | cons k ks => exact hks k (by simp) rfl)
  refine ⟨tr2.flatMap evOf, ?_, ?_⟩
  · rw [← q1, List.flatMap_append, ← t3]; rfl
  · rintro rfl
    simp only [List.map_eq_nil_iff] at r1
    rw [r1]; rfl

end Mctp
