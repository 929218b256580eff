import Verif.Proofs.Refine

/-! Facts about the ideal reassembler. -/

namespace Mctp

open Spec

/-- The fragment of stream `k` in a packet. -/
abbrev fragB (k : Key) (p : List Byte) : Option Frag := fragOf k (.recv 0 p)

theorem fragB_some {k : Key} {p : List Byte} {f : Frag} (h : fragB k p = some f) :
    parse p = some f ∧ f.key = k ∧ f.single = false := by
  unfold fragB fragOf at h
  simp only at h
  split at h
  · rename_i g hg
    split at h
    · rename_i hc
      simp only [Option.some.injEq] at h; subst h; exact ⟨hg, hc⟩
    · cases h
  · cases h

theorem fragB_none {k : Key} {p : List Byte} (h : fragB k p = none) {f : Frag} (hf : parse p = some f)
    (hs : f.single = false) : f.key ≠ k := by
  intro hk
  unfold fragB fragOf at h
  simp only [hf] at h
  rw [if_pos ⟨hk, hs⟩] at h
  cases h

/-- A packet that is not a fragment of stream `k` does not affect it. -/
theorem PktStep_other {lim : Nat → Bool → Prop} {eid : Byte} {σ σ' : State} {p : List Byte}
    {out : List (Byte × List Byte)} (h : PktStep lim eid σ p σ' out) {k : Key}
    (hk : fragB k p = none) : σ' k = σ k := by
  unfold PktStep at h
  split at h
  · rw [h.1]
  · rename_i f hf
    split at h
    · rw [h.1]
    · split at h
      · rw [h.1]
      · rename_i hs
        split at h
        · rw [h]
        · obtain ⟨m, ⟨room, fits, _, _, _, h4⟩, _⟩ := h
          exact h4 k (fun he => fragB_none hk hf (by simpa using hs) he.symm)

/-- A fragment of stream `k`. -/
theorem PktStep_own {lim : Nat → Bool → Prop} {eid : Byte} {σ σ' : State} {p : List Byte}
    {out : List (Byte × List Byte)} (h : PktStep lim eid σ p σ' out) {k : Key} {f : Frag}
    (hk : fragB k p = some f) (hl : Local eid k.dest) (hs : k.src ≠ 0) :
    ∃ m, FragStep lim σ f σ' m ∧ out = (m.map fun b => (k.src, b)).toList := by
  obtain ⟨hf, rfl, hsg⟩ := fragB_some hk
  unfold PktStep at h
  rw [hf] at h
  simp only at h
  have hl' : Local eid f.dest := hl
  have hs' : f.src ≠ 0 := hs
  rw [if_neg (not_not.mpr hl'), if_neg (by simp [hsg]), if_neg hs'] at h
  exact h

theorem content_cons (f : Frag) (fs : List Frag) : content (f :: fs) = f.payload ++ content fs := rfl

theorem reasm_mid {lim : Nat → Bool → Prop} {eid : Byte} {k : Key} (hl : Local eid k.dest)
    (hs : k.src ≠ 0) {last : Frag} :
    ∀ {tr : List (List Byte × List (Byte × List Byte))} {σ σ' : State} {q : Partial}
      {mids : List Frag}, Reasm lim eid σ tr σ' → σ k = some q →
      tr.filterMap (fun x => fragB k x.1) = mids ++ [last] →
      (∀ m ∈ mids, m.som = false ∧ m.eom = false ∧ m.payload.length = q.fragLen) →
      last.som = false → last.eom = true → last.payload.length ≤ q.fragLen →
      SeqChain q.lastSeq (mids ++ [last]) →
      (∀ n b, n ≤ (q.data ++ content (mids ++ [last])).length → lim n b → b = true) →
      ∀ x ∈ tr, ∀ f, fragB k x.1 = some f →
        x.2 = if f.eom then [(k.src, q.data ++ content (mids ++ [last]))] else [] := by
  intro tr
  induction tr with
  | nil => intro σ σ' q mids _ _ hfr; simp at hfr
  | cons y tr ih =>
    obtain ⟨p, out⟩ := y
    intro σ σ' q mids hre hq hfr hmid hls hle hll hseq hlim
    obtain ⟨σ1, hst, hre⟩ := hre
    cases hfp : fragB k p with
    | none =>
      simp only [List.filterMap_cons, hfp] at hfr
      have hq' : σ1 k = some q := by rw [PktStep_other hst hfp]; exact hq
      intro x hx f hf
      rcases List.mem_cons.mp hx with rfl | hx
      · simp only [hfp] at hf; cases hf
      · exact ih hre hq' hfr hmid hls hle hll hseq hlim x hx f hf
    | some g =>
      simp only [List.filterMap_cons, hfp] at hfr
      obtain ⟨hpg, hgk, hgs⟩ := fragB_some hfp
      obtain ⟨m, ⟨room, fits, _, hlimf, hown, hoth⟩, hout⟩ := PktStep_own hst hfp hl hs
      rw [hgk, hq] at hown hlimf
      cases mids with
      | nil =>
        simp only [List.nil_append, List.cons.injEq] at hfr
        obtain ⟨rfl, hrest⟩ := hfr
        simp only [List.nil_append, SeqChain] at hseq
        have hft : fits = true := by
          refine hlim _ _ ?_ hlimf
          simp [total, hls, content]
        unfold own at hown
        rw [if_neg (by simp [hls])] at hown
        simp only [hft, hle, if_true] at hown
        rw [if_pos ⟨hseq.1, trivial, hll⟩] at hown
        simp only [Prod.mk.injEq] at hown
        intro x hx f hf
        rcases List.mem_cons.mp hx with rfl | hx
        · simp only [hfp, Option.some.injEq] at hf
          subst hf
          simp only [hout, hown.2, hle, if_true]
          simp [content]
        · have : f ∈ tr.filterMap (fun x => fragB k x.1) := List.mem_filterMap.mpr ⟨x, hx, hf⟩
          rw [hrest] at this; cases this
      | cons m0 mids =>
        simp only [List.cons_append, List.cons.injEq] at hfr
        obtain ⟨rfl, hrest⟩ := hfr
        obtain ⟨hg1, hg2, hg3⟩ := hmid g (by simp)
        simp only [List.cons_append, SeqChain] at hseq
        have hft : fits = true := by
          refine hlim _ _ ?_ hlimf
          simp [total, hg1, content_cons]
        unfold own at hown
        rw [if_neg (by simp [hg1])] at hown
        simp only [hft, hg2] at hown
        rw [if_pos ⟨hseq.1, trivial, by simpa using hg3⟩] at hown
        have hown := And.intro (congrArg Prod.fst hown) (congrArg Prod.snd hown)
        simp only at hown
        have hrec := ih (q := ⟨q.data ++ g.payload, g.seq, q.fragLen⟩) (mids := mids) hre
          (by have := hown.1; simpa using this) hrest
          (fun m hm => hmid m (by simp [hm])) hls hle hll hseq.2
          (fun n b hn hb => hlim n b (by simpa [content_cons] using hn) hb)
        have hcont : (q.data ++ g.payload) ++ content (mids ++ [last]) =
            q.data ++ content (g :: mids ++ [last]) := by simp [content_cons]
        intro x hx f hf
        rcases List.mem_cons.mp hx with rfl | hx
        · simp only [hfp, Option.some.injEq] at hf
          subst hf
          simp only [hout, hown.2, hg2]
          simp
        · rw [hrec x hx f hf, hcont]

theorem reasm_complete {lim : Nat → Bool → Prop} {eid : Byte} {k : Key} (hl : Local eid k.dest)
    (hs : k.src ≠ 0) {start last : Frag} {mids : List Frag} (hmsg : IsMessage start mids last)
    {tr : List (List Byte × List (Byte × List Byte))} {σ σ' : State} {p : List Byte}
    {out : List (Byte × List Byte)}
    (hre : Reasm lim eid σ ((p, out) :: tr) σ') (hp : fragB k p = some start)
    (hroom : σ k ≠ none ∨ ¬ Full σ)
    (hfr : tr.filterMap (fun x => fragB k x.1) = mids ++ [last])
    (hlim : ∀ n b, n ≤ (content (start :: mids ++ [last])).length → lim n b → b = true) :
    ∀ x ∈ (p, out) :: tr, ∀ f, fragB k x.1 = some f →
      x.2 = if f.eom then [(k.src, content (start :: mids ++ [last]))] else [] := by
  obtain ⟨σ1, hst, hre⟩ := hre
  obtain ⟨hpg, hgk, hgs⟩ := fragB_some hp
  obtain ⟨m, ⟨room, fits, hrm, hlimf, hown, hoth⟩, hout⟩ := PktStep_own hst hp hl hs
  rw [hgk] at hown hlimf
  have hsom := hmsg.start_flags.1
  have hft : fits = true := by
    refine hlim _ _ ?_ hlimf
    simp [total, hsom, content_cons]
  unfold own at hown
  rw [if_pos hsom, if_neg (by
    rintro ⟨h1, h2⟩
    rcases hroom with h | h
    · exact h h1
    · rw [hrm.mpr h] at h2; cases h2), if_pos hft] at hown
  simp only [Prod.mk.injEq] at hown
  have := reasm_mid hl hs hre hown.1 hfr
    (fun m hm => ⟨(hmsg.mid_flags m hm).1, (hmsg.mid_flags m hm).2, hmsg.mid_len m hm⟩)
    hmsg.last_flags.1 hmsg.last_flags.2 hmsg.last_len hmsg.seqs
    (fun n b hn hb => hlim n b (by simpa [content_cons] using hn) hb)
  intro x hx f hf
  rcases List.mem_cons.mp hx with rfl | hx
  · simp only [hp, Option.some.injEq] at hf
    subst hf
    simp only [hout, hown.2, hmsg.start_flags.2]; simp
  · rw [this x hx f hf]; simp [content_cons]

/-- Only streams that had a start packet are open. -/
theorem reasm_open {lim : Nat → Bool → Prop} {eid : Byte} {ks : List Key} :
    ∀ {tr : List (List Byte × List (Byte × List Byte))} {σ σ' : State}, Reasm lim eid σ tr σ' →
      (∀ k, σ k ≠ none → k ∈ ks) →
      (∀ x ∈ tr, ∀ f, parse x.1 = some f → f.som = true → f.eom = false → f.key ∈ ks) →
      ∀ k, σ' k ≠ none → k ∈ ks := by
  intro tr
  induction tr with
  | nil => intro σ σ' h h1 _; cases h; exact h1
  | cons y tr ih =>
    intro σ σ' ⟨σ1, hst, hre⟩ h1 h2
    refine ih hre ?_ (fun x hx => h2 x (by simp [hx]))
    intro k hk
    cases hfp : fragB k y.1 with
    | none => rw [PktStep_other hst hfp] at hk; exact h1 k hk
    | some g =>
      obtain ⟨hpg, hgk, hgs⟩ := fragB_some hfp
      by_cases hg : g.som = true ∧ g.eom = false
      · rw [← hgk]; exact h2 y (by simp) g hpg hg.1 hg.2
      · refine h1 k fun hn => hk ?_
        have hsom : g.som = false := by
          cases hsm : g.som with
          | false => rfl
          | true =>
            exfalso; apply hg; refine ⟨hsm, ?_⟩
            cases he : g.eom with
            | false => rfl
            | true => simp [Frag.single, hsm, he] at hgs
        unfold PktStep at hst
        rw [hpg] at hst
        simp only at hst
        split at hst
        · rw [hst.1]; exact hn
        · split at hst
          · rw [hst.1]; exact hn
          · split at hst
            · rw [hst]; exact hn
            · obtain ⟨m, ⟨room, fits, _, _, hown, _⟩, _⟩ := hst
              rw [hgk, hn] at hown
              unfold own at hown
              rw [if_neg (by simp [hsom])] at hown
              exact (Prod.mk.inj hown).1

end Mctp
