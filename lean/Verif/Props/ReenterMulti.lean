import Verif.Proofs.Reentrant4
import Verif.Props.Rx
import Verif.Props.Reentrant

/-!
# C84: receiving packets of other streams inside the callback for a message of several packets
-/

namespace Mctp

open Spec

variable {β S : Type}

theorem Reasm.append {lim : Nat → Bool → Prop} {eid : Byte} {a b : List (List Byte × List (Byte × List Byte))} :
    ∀ {σ σ1 σ2 : State}, Reasm lim eid σ a σ1 → Reasm lim eid σ1 b σ2 → Reasm lim eid σ (a ++ b) σ2 := by
  induction a with
  | nil => intro σ σ1 σ2 h1 h2; cases h1; exact h2
  | cons x a ih => intro σ σ1 σ2 ⟨τ, h0, h1⟩ h2; exact ⟨τ, h0, ih h1 h2⟩

/-- The ideal reassembler without stream `κ`. -/
def State.without (κ : Key) (σ : State) : State := fun k => if k = κ then none else σ k

/-- With at most 16 streams there is always room. -/
theorem room_always {σ : State} {ks : List Key} (hks : ks.length ≤ 16) (hop : ∀ k, σ k ≠ none → k ∈ ks) {k : Key} (hk : k ∈ ks)
    (h0 : σ k = none) : ¬ Full σ := by
  rintro ⟨l, hnd, hlen, hl⟩
  have h1 : k ∉ l := fun h => hl k h h0
  have h2 : (k :: l).Nodup := List.nodup_cons.mpr ⟨h1, hnd⟩
  have h3 : (k :: l) ⊆ ks := by
    intro j hj
    rcases List.mem_cons.mp hj with rfl | hj
    · exact hk
    · exact hop j (hl j hj)
  have := (h2.subperm h3).length_le
  simp only [List.length_cons, hlen] at this
  omega

theorem own_room {r1 r2 fits : Bool} {f : Frag} {p : Option Partial} (h : f.som = true → p = none → r1 = true ∧ r2 = true) :
    own r1 fits f p = own r2 fits f p := by
  unfold own
  cases hs : f.som with
  | false => rfl
  | true =>
    simp only [if_true]
    cases p with
    | none =>
      obtain ⟨rfl, rfl⟩ := h hs rfl
      rfl
    | some q => simp

/-- A packet of another stream, with and without stream `κ`. -/
theorem PktStep.without {lim : Nat → Bool → Prop} {eid : Byte} {σ σ' : State} {p : List Byte} {out : List (Byte × List Byte)} {κ : Key}
    (h : PktStep lim eid σ p σ' out) (hne : fragB κ p = none) {ks : List Key} (hks : ks.length ≤ 16) (hop : ∀ k, σ k ≠ none → k ∈ ks)
    (hst : ∀ f, parse p = some f → f.som = true → f.eom = false → f.key ∈ ks) :
    PktStep lim eid (State.without κ σ) p (State.without κ σ') out := by
  unfold PktStep at h ⊢
  cases hf : parse p with
  | none => rw [hf] at h; obtain ⟨rfl, rfl⟩ := h; exact ⟨rfl, rfl⟩
  | some f =>
    rw [hf] at h
    simp only at h ⊢
    split at h
    · rename_i hl
      rw [if_pos hl]
      obtain ⟨rfl, rfl⟩ := h; exact ⟨rfl, rfl⟩
    · rename_i hl
      rw [if_neg hl]
      split at h
      · rename_i hs
        rw [if_pos hs]
        obtain ⟨rfl, rfl⟩ := h; exact ⟨rfl, rfl⟩
      · rename_i hs
        rw [if_neg hs]
        split at h
        · rename_i h0
          rw [if_pos h0]
          rw [h]
        · rename_i h0
          rw [if_neg h0]
          obtain ⟨m, ⟨room, fits, q1, q2, q3, q4⟩, rfl⟩ := h
          have hk : f.key ≠ κ := fragB_none hne hf (by simpa using hs)
          have e1 : State.without κ σ f.key = σ f.key := by unfold State.without; rw [if_neg hk]
          have e2 : State.without κ σ' f.key = σ' f.key := by unfold State.without; rw [if_neg hk]
          refine ⟨m, ⟨(by classical exact decide (¬ Full (State.without κ σ))), fits, by simp, by rw [e1]; exact q2, ?_, ?_⟩, rfl⟩
          · rw [e1, e2, q3]
            refine own_room fun hsom hnone => ?_
            have heom : f.eom = false := by
              cases he : f.eom with
              | false => rfl
              | true => simp [Frag.single, hsom, he] at hs
            have hmem := hst f hf hsom heom
            refine ⟨q1.mpr (room_always hks hop hmem hnone), ?_⟩
            have : ¬ Full (State.without κ σ) := by
              refine room_always hks (fun k hk => hop k fun hn => hk ?_) hmem (e1.trans hnone)
              unfold State.without
              split <;> simp [hn]
            simp [this]
          · intro k hkf
            unfold State.without
            split
            · rfl
            · exact q4 k hkf

theorem Reasm.without {lim : Nat → Bool → Prop} {eid : Byte} {κ : Key} {ks : List Key} (hks : ks.length ≤ 16)
    {tr : List (List Byte × List (Byte × List Byte))} : ∀ {σ σ' : State}, Reasm lim eid σ tr σ' → (∀ x ∈ tr, fragB κ x.1 = none) →
    (∀ k, σ k ≠ none → k ∈ ks) → (∀ x ∈ tr, ∀ f, parse x.1 = some f → f.som = true → f.eom = false → f.key ∈ ks) →
    Reasm lim eid (State.without κ σ) tr (State.without κ σ') := by
  induction tr with
  | nil => intro σ σ' h _ _ _; cases h; rfl
  | cons x tr ih =>
    intro σ σ' h h1 h2 h3
    obtain ⟨τ, g1, g2⟩ := h
    refine ⟨_, PktStep.without g1 (h1 x (by simp)) hks h2 (h3 x (by simp)), ih g2 (fun y hy => h1 y (by simp [hy])) ?_ fun y hy => h3 y (by simp [hy])⟩
    exact reasm_open (tr := [x]) ⟨τ, g1, rfl⟩ h2 (by
      intro y hy
      simp only [List.mem_singleton] at hy
      subst hy
      exact h3 y (by simp))

/-- The last packet of a message ends its stream, whatever the packets of other streams before it. -/
theorem PktStep.last {lim : Nat → Bool → Prop} {eid : Byte} {σ0 σ1 σ2 : State} {p : List Byte} {f : Frag} {out : List (Byte × List Byte)}
    (h : PktStep lim eid σ1 p σ2 out) (hf : parse p = some f) (hl : Local eid f.dest) (hsom : f.som = false) (heom : f.eom = true)
    (h0 : f.src ≠ 0) (heq : σ1 f.key = σ0 f.key) :
    PktStep lim eid σ0 p (State.without f.key σ0) out ∧ σ2 = State.without f.key σ1 := by
  unfold PktStep at h ⊢
  rw [hf] at h ⊢
  have hs : ¬ f.single = true := by simp [Frag.single, hsom]
  simp only at h ⊢
  rw [if_neg (not_not.mpr hl), if_neg hs, if_neg h0] at h ⊢
  obtain ⟨m, ⟨room, fits, q1, q2, q3, q4⟩, rfl⟩ := h
  have hnone : ∀ (r fits : Bool) (p : Option Partial), (own r fits f p).1 = none := by
    intro r fits p
    unfold own
    rw [hsom, heom]
    cases p with
    | none => rfl
    | some q =>
      simp only [Bool.false_eq_true, if_false, if_true]
      split <;> rfl
  have hk : σ2 f.key = none := by
    have := hnone room fits (σ1 f.key)
    rw [← q3] at this
    exact this
  refine ⟨⟨m, ⟨(by classical exact decide (¬ Full σ0)), fits, by simp, by rw [← heq]; exact q2, ?_, ?_⟩, rfl⟩, ?_⟩
  · rw [← heq, own_room (r2 := room) (fun h _ => by rw [hsom] at h; cases h), ← q3, hk]
    unfold State.without
    simp
  · intro k hk
    unfold State.without
    rw [if_neg hk]
  · funext k
    unfold State.without
    split
    · rename_i h; rw [h]; exact hk
    · rename_i h; exact q4 k h

theorem rxTrace_append (a b : List (Rec β)) : rxTrace (a ++ b) = rxTrace a ++ rxTrace b := by simp [rxTrace]

/-- At most 16 streams have a first packet of several among the packets received. -/
def FewStreams (log : List (Rec β)) : Prop :=
  ∃ ks : List Key, ks.length ≤ 16 ∧ ∀ r ∈ log, ∀ i p f, r.op = .recv i p → parse p = some f → f.som = true → f.eom = false → f.key ∈ ks

theorem FewStreams.trace {log : List (Rec β)} {ks : List Key}
    (h : ∀ r ∈ log, ∀ i p f, r.op = .recv i p → parse p = some f → f.som = true → f.eom = false → f.key ∈ ks) :
    ∀ x ∈ rxTrace log, ∀ f, parse x.1 = some f → f.som = true → f.eom = false → f.key ∈ ks := by
  intro x hx f hf h1 h2
  obtain ⟨r, hr, hrx⟩ := List.mem_filterMap.mp hx
  cases hop : r.op with
  | recv i bs =>
    rw [hop] at hrx
    simp only [Option.some.injEq] at hrx
    subst hrx
    exact h r hr i bs f hop hf h1 h2
  | _ => rw [hop] at hrx; cases hrx

/-- **C84** (partial) Receiving from inside the callback also works for a message of several packets as long as the packets
received there are of other streams: in every state reached by any history, while the application's callback reads the message
that the packet `bs` completes, it may send and may receive packets of any other stream (`Others`), complete or not, short or
long.  There is no memory fault (the message stays where it is until the callback returns) and `mctp_destroy` releases
everything; everything delivered, in the callback and in any history afterwards, is what the ideal reassembler delivers when
it receives the packets of the callback just before `bs`, and, unless more than 16 streams are about, also when it receives them
just after `bs`.  Missing: packets of the message's own stream (false: `C84_use_after_free`, `C84_message_lost`); callbacks that act
again for the messages received inside a callback. -/
theorem C84_other_streams_partial {ops : Ops β} (K : Contract ops) {eid : Byte} {mx size : Nat} {mem : Mem} {c0 c c1 : Core β}
    (hc : Configured ops eid mx mem c0) (hcl : Clean mem) (hsz : SizesOk K c0) (hmx : mx < 2 ^ 64) {hist : List (Op β)} {log : List (Rec β)}
    (hok : HistOk K c0 hist) (hst : Steady hist) (hrun : c0.run ops hist = .ok (c, log)) {bs : List Byte} {f : Frag}
    (hop : OpOk K c (.recv 0 bs)) (hf : parse bs = some f) (hsg : f.single = false) (hsrc : f.src ≠ 0) {e1 : List Event} {rc : Int}
    (hs : c.step ops (.recv 0 bs) = .ok (c1, e1, rc)) {app : App β S} {s : S} {ev : Event} (hev : ev ∈ e1) (hcb : ev.isCallback = true)
    (hfit : Fits size c) (hsc : (app s ev).Others f.key size) :
    ∃ c' s' log2, c.stepH ops app s (.recv 0 bs) = .ok (c', s', e1 ++ events log2, rc) ∧ (app s ev).Log log2 s' ∧
      (∃ m, c'.destroy = .ok m ∧ ∀ id, m.live.count id = mem.live.count id) ∧
      ∀ later : List (Op β), HistOk K c' later → Steady later → ∃ c2 log3, c'.run ops later = .ok (c2, log3) ∧ log3.map (·.op) = later ∧
        (∃ σ, Reasm (loose mx) eid State.empty (rxTrace (log ++ (log2 ++ ⟨.recv 0 bs, e1, rc⟩ :: log3))) σ) ∧
        (FewStreams (log ++ log2) → ∃ σ, Reasm (loose mx) eid State.empty (rxTrace (log ++ ⟨.recv 0 bs, e1, rc⟩ :: (log2 ++ log3))) σ) := by
  obtain ⟨c2, log', h1, hI, hre, -, -⟩ := run_ref K (Pol.loose hmx) (hc.refInv hcl hsz (Pol.loose hmx)) hok (hst.pktP fun _ _ _ => trivial)
  rw [hrun] at h1
  simp only [Except.ok.injEq, Prod.mk.injEq] at h1
  obtain ⟨rfl, rfl⟩ := h1
  rw [hc.flags.2.2, abs_init] at hre
  obtain ⟨c', s', log2, eC, r1, r2, r3, -, r4, r5, r6, σ1, r7, r8⟩ := stepH_others (Pol.loose hmx) hI hop hf hsg hsrc hs hev hcb hfit hsc
  obtain ⟨m, d1, d2⟩ := destroy_total r3.mem
  refine ⟨c', s', log2, r1, r2, ⟨m, d1, d2.cnt⟩, fun later l1 l2 => ?_⟩
  obtain ⟨c2, log3, t1, -, t2, t3, -⟩ := run_ref K (Pol.loose hmx) r3 l1 (l2.pktP fun _ _ _ => trivial)
  have hbs : ∀ l : List (Rec β), rxTrace (⟨.recv 0 bs, e1, rc⟩ :: l) = (bs, deliveries e1) :: rxTrace l := fun l => rfl
  refine ⟨c2, log3, t1, t3, ⟨abs c2.ctxs, ?_⟩, ?_⟩
  · rw [rxTrace_append, rxTrace_append, hbs]
    exact Reasm.append hre (Reasm.append r7 ⟨_, r8, t2⟩)
  · rintro ⟨ks, hks, hin⟩
    have hl : Local eid f.dest := by
      refine Classical.byContradiction fun hn => ?_
      simp only [Core.step] at hs
      obtain ⟨⟨c3, e3⟩, hr, hs⟩ := Res.bind_eq_ok.mp hs
      simp only [Except.ok.injEq, Prod.mk.injEq] at hs
      obtain ⟨rfl, rfl, rfl⟩ := hs
      rcases rxPacket_cases hr with ⟨_, _, _, _, _, rfl⟩ | ⟨bus, m1, pkt, _, _, hp, hb⟩
      · cases hev
      · obtain ⟨bus', -, -, -, hcs⟩ := busRx_endpoint (c := { c with mem := m1 }) hI.ep.noBridge hI.ep.eids hp hb
        have nocb : ev ∈ Event.recv 0 bs :: capIn { c with mem := m1 } bs → False := by
          intro h1
          unfold capIn at h1
          split at h1 <;> simp only [List.mem_cons, List.mem_nil_iff, or_false] at h1
          · rcases h1 with rfl | rfl <;> cases hcb
          · subst h1; cases hcb
        rcases hcs with ⟨-, rfl, -⟩ | ⟨f', hf', hcs⟩
        · simp only [List.mem_singleton] at hev; subst hev; cases hcb
        · rw [hf] at hf'
          simp only [Option.some.injEq] at hf'
          subst hf'
          rcases hcs with ⟨-, rfl, -⟩ | ⟨h, -⟩ | ⟨h, -⟩
          · exact nocb hev
          · exact hn h
          · exact hn h
    have hne : ∀ x ∈ rxTrace log2, fragB f.key x.1 = none := by
      intro x hx
      obtain ⟨r, hr, hrx⟩ := List.mem_filterMap.mp hx
      have hq := r4 r hr
      cases hop : r.op with
      | recv i p =>
        rw [hop] at hrx hq
        simp only [Option.some.injEq] at hrx
        subst hrx
        exact hq.2.2
      | _ => rw [hop] at hrx; cases hrx
    have hsame : ∀ {tr : List (List Byte × List (Byte × List Byte))} {σ σ' : State}, Reasm (loose mx) eid σ tr σ' → (∀ x ∈ tr, fragB f.key x.1 = none) →
        σ' f.key = σ f.key := by
      intro tr
      induction tr with
      | nil => intro σ σ' h _; cases h; rfl
      | cons x tr ih =>
        intro σ σ' h h2
        obtain ⟨τ, g1, g2⟩ := h
        rw [ih g2 fun y hy => h2 y (by simp [hy]), PktStep_other g1 (h2 x (by simp))]
    obtain ⟨q1, q2⟩ := PktStep.last (σ0 := abs c.ctxs) r8 hf hl r5 r6 hsrc (hsame r7 hne)
    have q3 := Reasm.without hks r7 hne
      (reasm_open hre (ks := ks) (by intro k h; exact absurd rfl h) (FewStreams.trace fun r hr => hin r (by simp [hr])))
      (FewStreams.trace fun r hr => hin r (by simp [hr]))
    rw [← q2] at q3
    refine ⟨abs c2.ctxs, ?_⟩
    rw [rxTrace_append, hbs, rxTrace_append]
    exact Reasm.append hre ⟨_, q1, Reasm.append q3 t2⟩

/-- The hypotheses of C84: a message of two packets, in whose callback the application receives a message of two packets of
another stream, and the first packet of a third one, which ends after the callback. -/
example :
    let app := Demo.poller [Demo.pkt 9 8 0x89 [5], Demo.pkt 9 8 0x59 [6], Demo.pkt 7 8 0x89 [7]]
    ∃ c log c1 e1 ev, Demo.core.run Demo.ops [.recv 0 (Demo.pkt 9 8 0x8a [1])] = .ok (c, log) ∧
    c.step Demo.ops (.recv 0 (Demo.pkt 9 8 0x5a [2])) = .ok (c1, e1, 0) ∧ ev ∈ e1 ∧ ev.isCallback = true ∧ Fits 68 c ∧
    (app false ev).Others ⟨9, 8, 2⟩ 68 ∧ (parse (Demo.pkt 9 8 0x5a [2])).map Frag.key = some ⟨9, 8, 2⟩ ∧
    (match c.runH Demo.ops app false [.recv 0 (Demo.pkt 9 8 0x5a [2]), .recv 0 (Demo.pkt 7 8 0x59 [8])] with
     | .ok (_, s, log) => (s, deliveries (events log))
     | .error _ => (false, [])) = (true, [(9, [1, 2]), (9, [5, 6]), (7, [7, 8])]) := by
  refine ⟨_, _, _, _, .rxMsg 9 true 2 [1, 2], rfl, rfl, by decide +kernel, rfl, ⟨_, rfl, by decide⟩, ?_, rfl, by decide +kernel⟩
  exact ⟨⟨rfl, by decide, by decide +kernel⟩, fun _ => ⟨⟨rfl, by decide, by decide +kernel⟩, fun _ => ⟨⟨rfl, by decide, by decide +kernel⟩, fun _ => trivial⟩⟩⟩

end Mctp
