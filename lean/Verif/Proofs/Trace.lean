import Verif.Proofs.Reasm

/-! Facts about deliveries at the level of logs. -/

namespace Mctp

open Spec

variable {β : Type}

theorem mem_deliveries {ev : Event} {e : List Event} {x : Byte × List Byte} (h : ev ∈ e)
    (hd : delivered ev = some x) : x ∈ deliveries e :=
  List.mem_filterMap.mpr ⟨ev, h, hd⟩

theorem route_single {c : Core β} {i : Nat} {bus : Bus β} {s : Byte} {own : Bool} {g : Byte}
    {msg : List Byte} {ev : Event} (h : ev ∈ routeEvents c i bus s own g msg) :
    deliveries (routeEvents c i bus s own g msg) = [(s, msg)] ∧
    (ev = .rxMsg s own g msg ∨ ∃ o t, ev = .ctrlRx i s o t msg) ∧
    delivered ev = some (s, msg) := by
  unfold routeEvents at h ⊢
  split at h
  · simp only [List.mem_singleton] at h
    rename_i hc
    rw [if_pos hc]
    subst h
    exact ⟨rfl, .inr ⟨_, _, rfl⟩, rfl⟩
  · rename_i hc
    rw [if_neg hc]
    split at h
    · simp only [List.mem_singleton] at h
      subst h
      rename_i hr; rw [if_pos hr]
      exact ⟨rfl, .inl rfl, rfl⟩
    · cases h

theorem recv_mem_cases {ev : Event} {c : Core β} {bs : List Byte} {i : Nat} {rest : List Event}
    {x : Byte × List Byte} (h : ev ∈ Event.recv i bs :: (capIn c bs ++ rest))
    (hd : delivered ev = some x) : ev ∈ rest := by
  rcases List.mem_cons.mp h with rfl | h
  · cases hd
  · rcases List.mem_append.mp h with h | h
    · rw [capIn_delivered c bs ev h] at hd; cases hd
    · exact h

/-- One delivery, fully accounted for. -/
theorem delivery_sound {ops : Ops β} {eid : Byte} {c c' : Core β} {evs : List Event} {op : Op β}
    {e : List Event} {rc : Int} (hi : EpInv eid evs c) (h : c.step ops op = .ok (c', e, rc))
    {ev : Event} (hev : ev ∈ e) {src : Byte} {msg : List Byte}
    (hd : delivered ev = some (src, msg)) :
    ∃ bs f, op = .recv 0 bs ∧ parse bs = some f ∧ Local eid f.dest ∧ src = f.src ∧
      deliveries e = [(src, msg)] ∧
      (ev = .rxMsg f.src f.tagOwner (BitVec.ofNat 8 f.tag) msg ∨
        ∃ o g, ev = .ctrlRx 0 f.src o g msg) ∧
      (f.single = true ∧ msg = f.payload ∨
       f.single = false ∧ f.eom = true ∧ (f.src ≠ 0 → ∃ before start mids,
          stream f.key (evs ++ e) = before ++ (start :: mids ++ [f]) ∧
          IsMessage start mids f ∧ msg = content (start :: mids ++ [f]))) := by
  by_cases hr : ∃ i bs, op = .recv i bs
  · obtain ⟨i, bs, rfl⟩ := hr
    simp only [Core.step] at h
    obtain ⟨⟨c1, e1⟩, hrx, h⟩ := Res.bind_eq_ok.mp h
    simp only [Except.ok.injEq, Prod.mk.injEq] at h
    obtain ⟨rfl, rfl, -⟩ := h
    rcases rxPacket_endpoint hi.noBridge hi.eids hrx with ⟨_, m, _, _, rfl, rfl⟩ | ⟨bus, m0, pkt, rfl, hbe, hbus, ha, hp, hh⟩
    · cases hev
    · rcases hh with ⟨hpn, rfl, m, rfl⟩ | ⟨f, hf, hh⟩
      · simp only [List.mem_singleton] at hev; subst hev; cases hd
      · rcases hh with ⟨hl, rfl, m, rfl⟩ | ⟨hl, hsg, rfl, m, rfl⟩ | ⟨hl, hsg, m1, m2, t, out, hc, -, rfl, rfl⟩
        · have := recv_mem_cases (rest := []) (by simpa using hev) hd
          cases this
        · have h1 := recv_mem_cases hev hd
          obtain ⟨k1, k2, k3⟩ := route_single h1
          rw [hd] at k3
          simp only [Option.some.injEq, Prod.mk.injEq] at k3
          obtain ⟨rfl, rfl⟩ := k3
          refine ⟨bs, f, rfl, hf, hl, rfl, ?_, k2, .inl ⟨hsg, rfl⟩⟩
          rw [deliveries_recv, deliveries_append, deliveries_capIn, k1]; rfl
        · have h1 := recv_mem_cases hev hd
          cases out with
          | none => cases h1
          | some m =>
            simp only at h1
            obtain ⟨k1, k2, k3⟩ := route_single h1
            rw [hd] at k3
            simp only [Option.some.injEq, Prod.mk.injEq] at k3
            obtain ⟨rfl, rfl⟩ := k3
            refine ⟨bs, f, rfl, hf, hl, rfl, ?_, k2, .inr ⟨hsg, ?_, ?_⟩⟩
            · rw [deliveries_recv, deliveries_append, deliveries_capIn, k1]; rfl
            · cases he : f.eom with
              | true => rfl
              | false =>
                exfalso
                unfold ctxRx at hc
                rw [he] at hc
                split at hc
                · split at hc
                  · simp at hc
                  · obtain ⟨⟨_, _, _⟩, _, hc⟩ := Res.bind_eq_ok.mp hc
                    simp at hc
                · split at hc
                  · simp at hc
                  · split at hc
                    · cases hc
                    · split at hc
                      · simp at hc
                      · simp only [Bool.false_eq_true, if_false] at hc
                        split at hc
                        · simp at hc
                        · obtain ⟨⟨_, _, _⟩, _, hc⟩ := Res.bind_eq_ok.mp hc
                          simp at hc
            · intro hs
              obtain ⟨before, start, mids, q1, q2, q3⟩ := (ctxRx_inv (i := 0) hi.tbl hf hsg hl hp hc).2 _ rfl hs
              refine ⟨before, start, mids, ?_, q2, q3⟩
              rw [show ∀ z, evs ++ Event.recv 0 bs :: z = (evs ++ [.recv 0 bs]) ++ z by simp,
                stream_append_other, q1]
              intro j p hm
              rcases List.mem_append.mp hm with hm | hm
              · exact capIn_noRecv _ _ _ _ hm
              · exact routeEvents_noRecv _ _ _ _ _ _ _ _ _ hm
  · have hr' : ∀ i bs, op ≠ .recv i bs := fun i bs h => hr ⟨i, bs, h⟩
    obtain ⟨htxe, -⟩ := step_frame hr' h
    have := mem_deliveries hev hd
    rw [isTx_not_delivered htxe] at this
    cases this

theorem events_append (a b : List (Rec β)) : events (a ++ b) = events a ++ events b := by
  simp [events]

/-- Two runs that end a stream and start with a start packet are the same. -/
theorem run_unique {s1 s2 : List Frag} {st1 st2 : Frag} {r1 r2 : List Frag}
    (h : s1 ++ st1 :: r1 = s2 ++ st2 :: r2) (h1 : st1.som = true) (h2 : st2.som = true)
    (hr1 : ∀ x ∈ r1, x.som = false) (hr2 : ∀ x ∈ r2, x.som = false) : st1 = st2 ∧ r1 = r2 := by
  induction s1 generalizing s2 with
  | nil =>
    cases s2 with
    | nil => exact List.cons.inj h
    | cons a s2 =>
      have h' := List.cons.inj h
      have := hr1 st2 (by rw [h'.2]; simp)
      rw [h2] at this; cases this
  | cons a s1 ih =>
    cases s2 with
    | nil =>
      have h' := List.cons.inj h
      have := hr2 st1 (by rw [← h'.2]; simp)
      rw [h1] at this; cases this
    | cons b s2 => exact ih (List.cons.inj h).2

theorem SeqChain_append' {s : Nat} {a b : List Frag} :
    SeqChain s (a ++ b) ↔ SeqChain s a ∧ SeqChain ((a.getLast?.map (·.seq)).getD s) b := by
  induction a generalizing s with
  | nil => simp [SeqChain]
  | cons g gs ih =>
    simp only [List.cons_append, SeqChain, ih, and_assoc]
    cases gs <;> simp [List.getLast?_cons]

theorem SeqChain_last {s : Nat} {a : List Frag} (hs : s < 4) (h : SeqChain s a) :
    (a.getLast?.map (·.seq)).getD s = (s + a.length) % 4 := by
  induction a generalizing s with
  | nil => simp; omega
  | cons g gs ih =>
    obtain ⟨h1, h2⟩ := h
    have := ih (by omega) h2
    cases gs with
    | nil => simp [h1]
    | cons x xs =>
      rw [List.getLast?_cons_cons]
      have h3 : ((x :: xs).getLast?.map (·.seq)).getD s = ((x :: xs).getLast?.map (·.seq)).getD g.seq := by
        simp [List.getLast?_cons]
      rw [h3, this, h1]; simp; omega

end Mctp
