import Verif.Props.Rx2

/-!
# Properties of the receive path stated on the code (C03, C04, C10)

The theorems of this file combine the refinement C03 with facts about the ideal reassembler, so that
their conclusions speak of runs of the code.
-/

namespace Mctp

open Spec

variable {β : Type}

theorem Reasm_append {lim : Nat → Bool → Prop} {eid : Byte} :
    ∀ {a b : List (List Byte × List (Byte × List Byte))} {σ σ' : State},
      Reasm lim eid σ (a ++ b) σ' → ∃ σ1, Reasm lim eid σ a σ1 ∧ Reasm lim eid σ1 b σ' := by
  intro a
  induction a with
  | nil => intro b σ σ' h; exact ⟨σ, rfl, h⟩
  | cons x a ih =>
    intro b σ σ' ⟨σ1, h1, h2⟩
    obtain ⟨σ2, h3, h4⟩ := ih h2
    exact ⟨σ2, ⟨σ1, h1, h3⟩, h4⟩

theorem rxTrace_append (a b : List (Rec β)) : rxTrace (a ++ b) = rxTrace a ++ rxTrace b := by
  simp [rxTrace]

/-! ## C03: what is delivered on a stream depends on that stream only -/

/-- The messages completed by the fragments `fs` of one stream, starting from the incomplete message
`p`, one answer for each fragment: what a receiver with no other streams and size limit `mx` does. -/
def soloRun (mx : Nat) : Option Partial → List Frag → List (Option (List Byte))
  | _, [] => []
  | p, f :: fs =>
    (own true (decide (total p f ≤ mx)) f p).2 :: soloRun mx (own true (decide (total p f ≤ mx)) f p).1 fs

theorem reasm_solo {mx : Nat} {eid : Byte} {k : Key} (hl : Local eid k.dest) (hs : k.src ≠ 0)
    {ks : List Key} (hks : ks.length ≤ 15) :
    ∀ {tr : List (List Byte × List (Byte × List Byte))} {σ σ' : State}, Reasm (exact mx) eid σ tr σ' →
      (∀ x ∈ tr, ∀ f, parse x.1 = some f → f.som = true → f.eom = false → f.key ≠ k → f.key ∈ ks) →
      (∀ k', σ k' ≠ none → k' ≠ k → k' ∈ ks) →
      tr.filterMap (fun x => (fragB k x.1).map fun _ => x.2) =
        (soloRun mx (σ k) (tr.filterMap fun x => fragB k x.1)).map
          fun m => (m.map fun b => (k.src, b)).toList := by
  intro tr
  induction tr with
  | nil => intro σ σ' _ _ _; rfl
  | cons x tr ih =>
    intro σ σ' ⟨σ1, hst, hre⟩ hfew hopen
    have hopen1 : ∀ k', σ1 k' ≠ none → k' ≠ k → k' ∈ ks := by
      intro k' hk' hne
      have h1 : Reasm (exact mx) eid σ [x] σ1 := ⟨σ1, hst, rfl⟩
      by_contra hnot
      refine hnot ?_
      have := reasm_open h1 (ks := k :: ks) (by
        intro k2 h2
        by_cases he : k2 = k
        · simp [he]
        · exact List.mem_cons_of_mem _ (hopen k2 h2 he)) (by
        intro y hy f hf h2 h3
        simp only [List.mem_singleton] at hy
        subst hy
        by_cases he : f.key = k
        · simp [he]
        · exact List.mem_cons_of_mem _ (hfew y (by simp) f hf h2 h3 he)) k' hk'
      rcases List.mem_cons.mp this with h | h
      · exact absurd h hne
      · exact h
    have ih' := ih hre (fun y hy => hfew y (by simp [hy])) hopen1
    cases hfp : fragB k x.1 with
    | none =>
      simp only [List.filterMap_cons, hfp, Option.map_none]
      rw [ih', PktStep_other hst hfp]
    | some f =>
      obtain ⟨m, ⟨room, fits, hroom, hlim, hown, hoth⟩, hout⟩ := PktStep_own hst hfp hl hs
      obtain ⟨hpf, hkf, hsg⟩ := fragB_some hfp
      have hfits : fits = decide (total (σ f.key) f ≤ mx) := by
        unfold exact at hlim
        cases fits with
        | true => exact (decide_eq_true (hlim.mp rfl)).symm
        | false => exact (decide_eq_false (fun h => by have := hlim.mpr h; cases this)).symm
      have hrm : own room fits f (σ f.key) = own true fits f (σ f.key) := by
        cases hr : room with
        | true => rfl
        | false =>
          unfold own
          by_cases hn : σ f.key = none
          · exfalso
            have hfull : Full σ := by
              by_contra h; have := hroom.mpr h; rw [hr] at this; cases this
            obtain ⟨l, hnd, hlen, hl'⟩ := hfull
            have hsub : l ⊆ ks := by
              intro k' hk'
              refine hopen k' (hl' k' hk') fun he => hl' k' hk' ?_
              rw [he, ← hkf]; exact hn
            have := List.Subperm.length_le (List.subperm_of_subset hnd hsub)
            omega
          · simp [hn]
      rw [hrm, hfits] at hown
      rw [hkf] at hown
      simp only [List.filterMap_cons, hfp, Option.map_some, soloRun, List.map_cons]
      have h1 : σ1 k = (own true (decide (total (σ k) f ≤ mx)) f (σ k)).1 := by rw [← hown]
      have h2 : m = (own true (decide (total (σ k) f ≤ mx)) f (σ k)).2 := by rw [← hown]
      rw [ih', hout, h2, h1]

/-- The deliveries caused by the fragments of stream `k` in a log, one list for each fragment. -/
def streamDeliveries (k : Key) (log : List (Rec β)) : List (List (Byte × List Byte)) :=
  (log.filter (ofStream k)).map fun r => deliveries r.evs

theorem streamDeliveries_trace (k : Key) (log : List (Rec β)) :
    streamDeliveries k log = (rxTrace log).filterMap fun x => (fragB k x.1).map fun _ => x.2 := by
  induction log with
  | nil => rfl
  | cons r log ih =>
    have hf : (r :: log).filter (ofStream k) = [r].filter (ofStream k) ++ log.filter (ofStream k) := by
      rw [← List.filter_append]; rfl
    have ht : rxTrace (r :: log) = rxTrace [r] ++ rxTrace log := rxTrace_append [r] log
    unfold streamDeliveries at ih ⊢
    rw [hf, ht, List.map_append, List.filterMap_append, ih]
    congr 1
    cases hop : r.op with
    | recv i bs =>
      have h1 : rxTrace [r] = [(bs, deliveries r.evs)] := by simp [rxTrace, hop]
      have h2 : ofStream k r = (fragB k bs).isSome := by unfold ofStream; rw [hop]
      rw [h1, List.filter_singleton, h2]
      cases hfb : fragB k bs with
      | none => simp [hfb]
      | some f => simp [hfb]
    | _ =>
      have h2 : ofStream k r = false := by unfold ofStream; rw [hop]
      have h1 : rxTrace [r] = [] := by simp [rxTrace, hop]
      rw [h1, List.filter_singleton, h2]
      rfl

/-- Start packets of streams other than `k` all belong to the (at most fifteen) streams `ks`. -/
def FewOthers (k : Key) (ks : List Key) (hist : List (Op β)) : Prop :=
  ks.length ≤ 15 ∧ ∀ i bs f, Op.recv i bs ∈ hist → parse bs = some f → f.som = true → f.eom = false →
    f.key ≠ k → f.key ∈ ks

theorem solo_run {ops : Ops β} (K : Contract ops) {eid : Byte} {mx n : Nat} {mem : Mem}
    {c0 : Core β} (hc : Configured ops eid mx mem c0) (hcl : Clean mem) (hsz : SizesOk K c0)
    (hn : mx = 4096 * 2 ^ n) (hmx : mx < 2 ^ 64) {hist : List (Op β)} (hok : HistOk K c0 hist)
    (hst : Steady hist) (hsmall : ∀ i bs, Op.recv i bs ∈ hist → bs.length ≤ 4100)
    {k : Key} (hl : Local eid k.dest) (hs : k.src ≠ 0) {ks : List Key} (hfew : FewOthers k ks hist) :
    ∃ c log, c0.run ops hist = .ok (c, log) ∧ log.map (·.op) = hist ∧
      streamDeliveries k log = (soloRun mx none (opFrags k hist)).map
        fun m => (m.map fun b => (k.src, b)).toList := by
  obtain ⟨c, log, h1, h2, ⟨σ, h3⟩, -⟩ := C03_exact_refinement K hc hcl hsz hn hmx hok hst hsmall
  refine ⟨c, log, h1, h2, ?_⟩
  have := reasm_solo hl hs hfew.1 h3 (by
    intro x hx f hf h4 h5 h6
    obtain ⟨r, hr, hrx⟩ := List.mem_filterMap.mp hx
    cases hop : r.op with
    | recv i bs =>
      rw [hop] at hrx
      simp only [Option.some.injEq] at hrx
      subst hrx
      exact hfew.2 i bs f (by rw [← h2]; exact List.mem_map.mpr ⟨r, hr, hop⟩) hf h4 h5 h6
    | _ => rw [hop] at hrx; cases hrx) (fun k' h => absurd rfl h)
  rw [streamDeliveries_trace, this, rxTrace_frags, h2]
  rfl

/-- **C03** (noninterference) Take any two histories of two endpoints (possibly with different bindings)
that have the same address and size limit, and a stream `k` with a non-null source.  If both receive the
same fragments of stream `k`, in the same order, then the deliveries these fragments cause are the same,
fragment by fragment, no matter what packets of at most fifteen other streams arrive, what is sent, and
what the bindings do in between. (With sixteen other streams see C10; limit `4096·2^n` and packets of at
most 4096 payload bytes, see C12 for other limits.) -/
theorem C03_noninterference {β γ : Type} {ops : Ops β} {ops' : Ops γ} (K : Contract ops) (K' : Contract ops')
    {eid : Byte} {mx n : Nat} {mem mem' : Mem} {c0 : Core β} {c0' : Core γ}
    (hc : Configured ops eid mx mem c0) (hcl : Clean mem) (hsz : SizesOk K c0)
    (hc' : Configured ops' eid mx mem' c0') (hcl' : Clean mem') (hsz' : SizesOk K' c0')
    (hn : mx = 4096 * 2 ^ n) (hmx : mx < 2 ^ 64)
    {hist : List (Op β)} (hok : HistOk K c0 hist) (hst : Steady hist)
    (hsmall : ∀ i bs, Op.recv i bs ∈ hist → bs.length ≤ 4100)
    {hist' : List (Op γ)} (hok' : HistOk K' c0' hist') (hst' : Steady hist')
    (hsmall' : ∀ i bs, Op.recv i bs ∈ hist' → bs.length ≤ 4100)
    {k : Key} (hs : k.src ≠ 0) (hsame : opFrags k hist = opFrags k hist')
    {ks ks' : List Key} (hfew : FewOthers k ks hist) (hfew' : FewOthers k ks' hist') :
    ∃ c log c' log', c0.run ops hist = .ok (c, log) ∧ c0'.run ops' hist' = .ok (c', log') ∧
      streamDeliveries k log = streamDeliveries k log' := by
  by_cases hl : Local eid k.dest
  · obtain ⟨c, log, h1, -, h3⟩ := solo_run K hc hcl hsz hn hmx hok hst hsmall hl hs hfew
    obtain ⟨c', log', h1', -, h3'⟩ := solo_run K' hc' hcl' hsz' hn hmx hok' hst' hsmall' hl hs hfew'
    exact ⟨c, log, c', log', h1, h1', by rw [h3, h3', hsame]⟩
  · obtain ⟨c, log, h1, h2, ⟨σ, h3⟩, -⟩ := C03_exact_refinement K hc hcl hsz hn hmx hok hst hsmall
    obtain ⟨c', log', h1', h2', ⟨σ', h3'⟩, -⟩ := C03_exact_refinement K' hc' hcl' hsz' hn hmx hok' hst' hsmall'
    refine ⟨c, log, c', log', h1, h1', ?_⟩
    have key : ∀ {tr : List (List Byte × List (Byte × List Byte))} {σ σ' : State},
        Reasm (exact mx) eid σ tr σ' → tr.filterMap (fun x => (fragB k x.1).map fun _ => x.2) =
          (tr.filterMap fun x => fragB k x.1).map fun _ => [] := by
      intro tr
      induction tr with
      | nil => intro _ _ _; rfl
      | cons x tr ih =>
        intro σ σ' ⟨σ1, hst, hre⟩
        have ih' := ih hre
        cases hfp : fragB k x.1 with
        | none => simp only [List.filterMap_cons, hfp, Option.map_none]; exact ih'
        | some f =>
          obtain ⟨hpf, rfl, hsg⟩ := fragB_some hfp
          simp only [List.filterMap_cons, hfp, Option.map_some, List.map_cons]
          rw [ih']
          unfold PktStep at hst
          rw [hpf] at hst
          simp only at hst
          rw [if_pos (show ¬ Local eid f.dest from hl)] at hst
          rw [hst.2]
    rw [streamDeliveries_trace, streamDeliveries_trace, key h3, key h3', rxTrace_frags, rxTrace_frags, h2, h2', hsame]

/-- C03 on a concrete pair of histories: stream (9, 8, 2) alone, and interleaved with stream (10, 8, 2)
and a transmission; the hypotheses hold and the message `[1,2,3]` is delivered in both. -/
example :
    let alone : List (Op Unit) := [.recv 0 (Demo.pkt 9 8 0x8a [1, 2]), .recv 0 (Demo.pkt 9 8 0x5a [3])]
    opFrags ⟨9, 8, 2⟩ alone = opFrags ⟨9, 8, 2⟩ Demo.interleaved ∧ (opFrags ⟨9, 8, 2⟩ alone).length = 2 ∧
    HistOk Demo.K Demo.core alone ∧ HistOk Demo.K Demo.core Demo.interleaved ∧ Steady Demo.interleaved ∧
    FewOthers ⟨9, 8, 2⟩ [⟨10, 8, 2⟩] Demo.interleaved ∧
    ((Demo.core.run Demo.ops Demo.interleaved).toOption.map fun x => streamDeliveries ⟨9, 8, 2⟩ x.2) =
      some [[], [(9, [1, 2, 3])]] := by
  refine ⟨by decide +kernel, by decide +kernel, Demo.histOk (by decide +kernel), Demo.histOk (by decide +kernel),
    by simp [Steady, Demo.interleaved], ⟨by decide, ?_⟩, by decide +kernel⟩
  intro i bs f hm hf h1 h2 h3
  have key : ∀ o ∈ Demo.interleaved, match o with
      | .recv _ bs => ∀ f, parse bs = some f → f.key = ⟨9, 8, 2⟩ ∨ f.key = ⟨10, 8, 2⟩
      | _ => True := by
    intro o ho
    simp only [Demo.interleaved, List.mem_cons, List.not_mem_nil, or_false] at ho
    rcases ho with rfl | rfl | rfl | rfl | rfl
    · exact fun f hf => by cases hf; exact .inl rfl
    · exact fun f hf => by cases hf; exact .inr rfl
    · trivial
    · exact fun f hf => by cases hf; exact .inl rfl
    · exact fun f hf => by cases hf; exact .inr rfl
  rcases key _ hm f hf with h | h
  · exact absurd h h3
  · simp [h]

/-! ## C04: null-source packets do not disturb other sources -/

/-- A packet of a multi-packet message whose source is the null EID. -/
def nullFrag (p : List Byte) : Bool :=
  match parse p with
  | some f => f.src == 0 && !f.single
  | none => false

/-- The packets received, without those of null-source multi-packet messages. -/
def sourced (hist : List (Op β)) : List (List Byte) :=
  hist.filterMap fun o => match o with
    | .recv _ bs => if nullFrag bs then none else some bs
    | _ => none

/-- The packets received, without those of null-source multi-packet messages, each with the deliveries it
caused. -/
def sourcedTrace (log : List (Rec β)) : List (List Byte × List (Byte × List Byte)) :=
  (rxTrace log).filter fun x => !nullFrag x.1

theorem sourcedTrace_fst (log : List (Rec β)) : (sourcedTrace log).map (·.1) = sourced (log.map (·.op)) := by
  unfold sourcedTrace sourced rxTrace
  rw [List.filterMap_map]
  induction log with
  | nil => rfl
  | cons r log ih =>
    simp only [List.filterMap_cons, Function.comp]
    cases hop : r.op with
    | recv i bs =>
      simp only [List.filter_cons]
      by_cases h : nullFrag bs = true
      · simp [h, ih]
      · simp [h, ih]
    | _ => exact ih

theorem ideal_null_source {lim : Nat → Bool → Prop} {eid : Byte} {σ σ' : State}
    {p : List Byte} {out : List (Byte × List Byte)} (hp : nullFrag p = true)
    (h : PktStep lim eid σ p σ' out) : σ' = σ := by
  unfold nullFrag at hp
  unfold PktStep at h
  cases hf : parse p with
  | none => rw [hf] at hp; cases hp
  | some f =>
    rw [hf] at hp h
    simp only [Bool.and_eq_true, beq_iff_eq, Bool.not_eq_true'] at hp
    simp only at h
    split at h
    · exact h.1
    · rw [if_neg (by simp [hp.2]), if_pos hp.1] at h
      exact h

theorem Reasm_sourced {lim : Nat → Bool → Prop} {eid : Byte} :
    ∀ {tr : List (List Byte × List (Byte × List Byte))} {σ σ' : State}, Reasm lim eid σ tr σ' →
      Reasm lim eid σ (tr.filter fun x => !nullFrag x.1) σ' := by
  intro tr
  induction tr with
  | nil => intro σ σ' h; exact h
  | cons x tr ih =>
    intro σ σ' ⟨σ1, hst, hre⟩
    by_cases hn : nullFrag x.1 = true
    · rw [List.filter_cons_of_neg (by simp [hn])]
      rw [ideal_null_source hn hst] at hre
      exact ih hre
    · rw [List.filter_cons_of_pos (by simp [hn])]
      exact ⟨σ1, hst, ih hre⟩

theorem PktStep_det {mx : Nat} {eid : Byte} {σ σ1 σ2 : State} {p : List Byte}
    {o1 o2 : List (Byte × List Byte)} (hp : nullFrag p = false) (h1 : PktStep (exact mx) eid σ p σ1 o1)
    (h2 : PktStep (exact mx) eid σ p σ2 o2) : σ1 = σ2 ∧ o1 = o2 := by
  unfold nullFrag at hp
  unfold PktStep at h1 h2
  cases hf : parse p with
  | none => rw [hf] at h1 h2; exact ⟨h1.1.trans h2.1.symm, h1.2.trans h2.2.symm⟩
  | some f =>
    rw [hf] at hp h1 h2
    simp only at hp h1 h2
    split at h1
    · rename_i hl; rw [if_pos hl] at h2; exact ⟨h1.1.trans h2.1.symm, h1.2.trans h2.2.symm⟩
    · rename_i hl
      rw [if_neg hl] at h2
      split at h1
      · rename_i hsg; rw [if_pos hsg] at h2; exact ⟨h1.1.trans h2.1.symm, h1.2.trans h2.2.symm⟩
      · rename_i hsg
        rw [if_neg hsg] at h2
        have hs : f.src ≠ 0 := by
          intro h0
          rw [h0] at hp
          simp [hsg] at hp
        rw [if_neg hs] at h1 h2
        obtain ⟨m1, ⟨r1, f1, hr1, hl1, ho1, hoth1⟩, rfl⟩ := h1
        obtain ⟨m2, ⟨r2, f2, hr2, hl2, ho2, hoth2⟩, rfl⟩ := h2
        have hr : r1 = r2 := by
          rw [Bool.eq_iff_iff, hr1, hr2]
        have hf : f1 = f2 := by
          unfold exact at hl1 hl2
          rw [Bool.eq_iff_iff, hl1, hl2]
        subst hr; subst hf
        have := ho1.trans ho2.symm
        simp only [Prod.mk.injEq] at this
        obtain ⟨hk, rfl⟩ := this
        refine ⟨?_, rfl⟩
        funext k
        by_cases h : k = f.key
        · rw [h]; exact hk
        · rw [hoth1 k h, hoth2 k h]

theorem Reasm_det {mx : Nat} {eid : Byte} :
    ∀ {t1 t2 : List (List Byte × List (Byte × List Byte))} {σ σ1 σ2 : State},
      Reasm (exact mx) eid σ t1 σ1 → Reasm (exact mx) eid σ t2 σ2 → t1.map (·.1) = t2.map (·.1) →
      (∀ x ∈ t1, nullFrag x.1 = false) → t1 = t2 := by
  intro t1
  induction t1 with
  | nil => intro t2 σ σ1 σ2 _ _ h _; simpa using h.symm
  | cons x t1 ih =>
    intro t2 σ σ1 σ2 ⟨s1, h1, h1'⟩ h2 h hn
    cases t2 with
    | nil => simp at h
    | cons y t2 =>
      obtain ⟨s2, h2, h2'⟩ := h2
      simp only [List.map_cons, List.cons.injEq] at h
      obtain ⟨hxy, h⟩ := h
      rw [← hxy] at h2
      obtain ⟨rfl, ho⟩ := PktStep_det (hn x (by simp)) h1 h2
      rw [ih h1' h2' h (fun z hz => hn z (by simp [hz]))]
      rw [show x = y from Prod.ext hxy ho]

/-- **C04** (partial) The second half of the claim holds: packets with source EID 0 never disturb another
source's message.  Take any two histories of an endpoint in which the same packets arrive, in the same
order, apart from packets of null-source multi-packet messages (any number of which may be added, removed
or moved); then every other packet causes the same deliveries in both.  Missing: that the deliveries
caused by the null-source packets contain no bytes of other sources, which is false
(`C04_null_source_leak`); limit `4096·2^n` and packets of at most 4096 payload bytes. -/
theorem C04_null_source_harmless_partial {ops : Ops β} (K : Contract ops) {eid : Byte} {mx n : Nat}
    {mem : Mem} {c0 : Core β} (hc : Configured ops eid mx mem c0) (hcl : Clean mem) (hsz : SizesOk K c0)
    (hn : mx = 4096 * 2 ^ n) (hmx : mx < 2 ^ 64)
    {hist hist' : List (Op β)} (hok : HistOk K c0 hist) (hst : Steady hist)
    (hsmall : ∀ i bs, Op.recv i bs ∈ hist → bs.length ≤ 4100)
    (hok' : HistOk K c0 hist') (hst' : Steady hist')
    (hsmall' : ∀ i bs, Op.recv i bs ∈ hist' → bs.length ≤ 4100)
    (hsame : sourced hist = sourced hist') :
    ∃ c log c' log', c0.run ops hist = .ok (c, log) ∧ c0.run ops hist' = .ok (c', log') ∧
      sourcedTrace log = sourcedTrace log' := by
  obtain ⟨c, log, h1, h2, ⟨σ, h3⟩, -⟩ := C03_exact_refinement K hc hcl hsz hn hmx hok hst hsmall
  obtain ⟨c', log', h1', h2', ⟨σ', h3'⟩, -⟩ := C03_exact_refinement K hc hcl hsz hn hmx hok' hst' hsmall'
  refine ⟨c, log, c', log', h1, h1', Reasm_det (Reasm_sourced h3) (Reasm_sourced h3') ?_ ?_⟩
  · have e1 := sourcedTrace_fst log
    have e2 := sourcedTrace_fst log'
    rw [h2] at e1; rw [h2'] at e2
    exact e1.trans (hsame.trans e2.symm)
  · intro x hx
    have := (List.mem_filter.mp hx).2
    simpa using this

/-- C04 on a concrete pair of histories: null-source fragments inside a message of source 9. -/
example :
    let plain : List (Op Unit) := [.recv 0 (Demo.pkt 9 8 0x8a [1, 2]), .recv 0 (Demo.pkt 9 8 0x5a [3])]
    let mixed : List (Op Unit) := [.recv 0 (Demo.pkt 9 8 0x8a [1, 2]), .recv 0 (Demo.pkt 0 8 0x8a [7]),
      .recv 0 (Demo.pkt 0 8 0x5a [7]), .recv 0 (Demo.pkt 9 8 0x5a [3])]
    sourced plain = sourced mixed ∧ HistOk Demo.K Demo.core plain ∧ HistOk Demo.K Demo.core mixed ∧
    ((Demo.core.run Demo.ops mixed).toOption.map fun x => sourcedTrace x.2) =
      some [(Demo.pkt 9 8 0x8a [1, 2], []), (Demo.pkt 9 8 0x5a [3], [(9, [1, 2, 3])])] :=
  ⟨by decide +kernel, Demo.histOk (by decide +kernel), Demo.histOk (by decide +kernel), by decide +kernel⟩

/-! ## C10: at most sixteen messages in assembly -/

/-- **C10** At every point of every history of an endpoint where a packet arrives, with `σ` and `σ'` the
messages in assembly before and after it (as collected by the ideal reassembler, whose answer is that of
the code):
* at most sixteen messages are in assembly;
* if sixteen are, then a packet of another stream delivers nothing and changes none of the sixteen;
* whenever a message leaves assembly there is room for a new one, and if there is room, the start packet
  of a new stream (of at most half the size limit) is accepted. -/
theorem C10_sixteen {ops : Ops β} (K : Contract ops) {eid : Byte} {mx : Nat} {mem : Mem}
    {c0 : Core β} (hc : Configured ops eid mx mem c0) (hcl : Clean mem) (hsz : SizesOk K c0)
    (hmx : mx < 2 ^ 64) {hist : List (Op β)} (hok : HistOk K c0 hist) (hst : Steady hist) :
    ∃ c log, c0.run ops hist = .ok (c, log) ∧ log.map (·.op) = hist ∧
      ∀ pre r post i bytes, log = pre ++ r :: post → r.op = .recv i bytes →
        ∃ σ σ', Reasm (loose mx) eid State.empty (rxTrace pre) σ ∧
          PktStep (loose mx) eid σ bytes σ' (deliveries r.evs) ∧
          (∀ ks : List Key, ks.Nodup → (∀ k ∈ ks, σ k ≠ none) → ks.length ≤ 16) ∧
          (∀ f, Full σ → parse bytes = some f → f.single = false → f.src ≠ 0 → σ f.key = none →
            σ' = σ ∧ deliveries r.evs = []) ∧
          (∀ k, σ k ≠ none → σ' k = none → ¬ Full σ') ∧
          (∀ f, ¬ Full σ → parse bytes = some f → Local eid f.dest → f.som = true → f.eom = false → f.src ≠ 0 →
            4096 ≤ mx → 2 * f.payload.length ≤ mx →
            σ' f.key = some ⟨f.payload, f.seq, f.payload.length⟩) := by
  obtain ⟨c, log, h1, h2, ⟨σe, h3⟩, -⟩ := C03_streams_isolated K hc hcl hsz hmx hok hst
  refine ⟨c, log, h1, h2, ?_⟩
  rintro pre r post i bytes rfl hop
  rw [rxTrace_append] at h3
  obtain ⟨σ, hpre, h3⟩ := Reasm_append h3
  have hr : rxTrace (r :: post) = (bytes, deliveries r.evs) :: rxTrace post := by
    simp [rxTrace, List.filterMap_cons, hop]
  rw [hr] at h3
  obtain ⟨σ', hstep, -⟩ := h3
  have h16 := ideal_at_most_sixteen hpre (by
    intro ks _ h
    cases ks with
    | nil => simp
    | cons k ks => exact absurd rfl (h k (by simp)))
  refine ⟨σ, σ', hpre, hstep, h16, ?_, ?_, ?_⟩
  · intro f hfull hf hsg hsrc hnew
    exact ideal_seventeenth_dropped hfull hf hsg hsrc hnew hstep
  · intro k hk hk'
    refine ideal_room_again h16 hk hk' ?_
    intro k' hne
    by_contra hch
    have hfk : ∀ k2, σ' k2 ≠ σ k2 → (fragB k2 bytes).isSome := by
      intro k2 h
      cases hfb : fragB k2 bytes with
      | none => exact absurd (PktStep_other hstep hfb) h
      | some f => rfl
    obtain ⟨f1, hf1⟩ := Option.isSome_iff_exists.mp (hfk k (by rw [hk']; exact hk.symm))
    obtain ⟨f2, hf2⟩ := Option.isSome_iff_exists.mp (hfk k' hch)
    obtain ⟨p1, rfl, -⟩ := fragB_some hf1
    obtain ⟨p2, rfl, -⟩ := fragB_some hf2
    rw [p1] at p2
    simp only [Option.some.injEq] at p2
    exact hne (by rw [p2])
  · intro f hroom hf hl hsom heom hsrc hmx1 hlen
    have hsg : f.single = false := by simp [Frag.single, heom]
    have hfb : fragB f.key bytes = some f := by unfold fragB fragOf; simp [hf, hsg]
    obtain ⟨m, ⟨room, fits, hrm, hlim, hown, -⟩, -⟩ := PktStep_own hstep hfb hl hsrc
    have hr1 : room = true := hrm.mpr hroom
    have hf1 : fits = true := hlim.2 hmx1 (by simp only [total, hsom, if_true]; exact hlen)
    have := congrArg Prod.fst hown
    simp only [own, hsom, hr1, hf1, if_true] at this
    simpa using this

/-- Sixteen start packets of different sources, one of a seventeenth, its end packet (nothing is
delivered), and the end packet of the first (delivered). -/
example :
    let starts : List (Op Unit) := (List.range 16).map fun n => .recv 0 (Demo.pkt (BitVec.ofNat 8 (n + 10)) 8 0x88 [1, 2])
    let hist : List (Op Unit) := starts ++ [.recv 0 (Demo.pkt 50 8 0x88 [3, 4]), .recv 0 (Demo.pkt 50 8 0x58 [5]),
      .recv 0 (Demo.pkt 10 8 0x58 [6]), .recv 0 (Demo.pkt 50 8 0x88 [3, 4]), .recv 0 (Demo.pkt 50 8 0x58 [5])]
    HistOk Demo.K Demo.core hist ∧
    ((Demo.core.run Demo.ops hist).toOption.map fun x => (x.2.map fun r => deliveries r.evs).drop 16) =
      some [[], [], [(10, [1, 2, 6])], [], [(50, [3, 4, 5])]] :=
  ⟨Demo.histOk (by decide +kernel), by decide +kernel⟩

end Mctp
