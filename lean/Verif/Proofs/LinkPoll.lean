import Verif.Proofs.LinkRel

/-! The code keeps to the detailed monitor: polls. -/

namespace Mctp

open Spec

variable {E : Type}

/-- The property only depends on the buffers, the protocol and the configuration. -/
def Stable (U : AstSt E → Prop) : Prop :=
  ∀ s s' : AstSt E, s'.mode = s.mode → s'.mtu = s.mtu → s'.proto = s.proto → s'.rx.offset = s.rx.offset → s'.rx.size = s.rx.size →
    s'.tx.offset = s.tx.offset → s'.tx.size = s.tx.size → U s → U s'

section
variable {g : LinkCfg} {U : AstSt E → Prop} {φ : Option Byte} {k : Byte} {os : List Offer} {rs : List (List Byte)}

/-- Another state with the same buffers. -/
theorem Rel.congr (hU : Stable U) {bus : Bus (AstSt E)} {f : Fine} (h : Rel g U φ k os rs bus f) {s : AstSt E}
    (h1 : s.mode = bus.binding.st.mode) (h2 : s.mtu = bus.binding.st.mtu) (h3 : s.proto = bus.binding.st.proto)
    (h4 : s.rx = bus.binding.st.rx) (h5 : s.tx = bus.binding.st.tx) :
    Rel g U φ k os rs { bus with binding := { bus.binding with st := s } } f where
  todo := h.todo
  started := h.started
  fin := h.fin
  ver := h.ver
  hdr := h.hdr
  tlr := h.tlr
  mode := h1.trans h.mode
  sent := h.sent
  fit := h.fit
  all := h.all
  got := h.got
  coh := h.coh
  queue := h.queue
  kcs := h.kcs
  mid := h.mid
  stale := h.stale
  shut := h.shut
  closed := fun ho => by
    obtain ⟨a, b, c, d⟩ := h.closed ho
    exact ⟨hU _ _ h1 h2 h3 (by rw [h4]) (by rw [h4]) (by rw [h5]) (by rw [h5]) a, by simp only; rw [h4]; exact b,
      by simp only; rw [h5]; exact c, d⟩
  lay := by simp only; rw [h3, h4, h5]; exact h.lay
  tx := by simp only; rw [h5]; exact h.tx
  rx := by simp only; rw [h4]; exact h.rx
  can := by simp only; rw [h5]; exact h.can

theorem Rel.same (hU : Stable U) {bus : Bus (AstSt E)} {f : Fine} (h : Rel g U φ k os rs bus f) {s : AstSt E}
    (hs : SameSt bus.binding.st s) : Rel g U φ k os rs { bus with binding := { bus.binding with st := s } } f :=
  h.congr hU hs.mode hs.mtu hs.proto hs.rx hs.tx

/-- A deferred announcement. -/
theorem rel_sends1 {bus : Bus (AstSt E)} {f : Fine} {rc : Int} {l : List Access} (h : Rel g U φ k os rs bus f)
    (hp : bus.binding.st.tx.state = .prepared) (hs : Sends g.mode 1 rc l) {s : AstSt E}
    (h1 : s.mode = bus.binding.st.mode) (h3 : s.proto = bus.binding.st.proto)
    (h4 : s.rx = bus.binding.st.rx) (h5 : s.tx = { bus.binding.st.tx with state := if rc = 0 then .released else .prepared }) :
    Accepts g f l (Rel g U φ k os rs { bus with binding := { bus.binding with st := s } }) := by
  have ho : f.opened = true := by
    cases ho : f.opened with
    | true => rfl
    | false => have := (h.closed ho).2.2.1; rw [hp] at this; cases this
  have hfull : f.w.tx = .full := by
    rcases h.tx ho with ⟨a, _⟩ | ⟨_, a⟩ | ⟨a, _⟩
    · rw [hp] at a; cases a
    · exact a
    · rw [hp] at a; cases a
  have hst : f.stale = false := by
    cases hs : f.stale with
    | false => rfl
    | true => have := (h.shut (.inr hs)).2.2.2; rw [hfull] at this; cases this
  refine (accepts_sends1 h.todo h.started (by rw [h.fin, ho, hst]; simp) ho hst hfull hs).mono ?_
  rintro f' ⟨hrc, a, t, h6, rfl⟩
  refine { todo := h.todo, started := h.started, fin := h.fin, ver := h.ver, hdr := h.hdr, tlr := h.tlr,
           mode := h1.trans h.mode, sent := h.sent, fit := h.fit, all := h.all, got := h.got, coh := h.coh, queue := h.queue, kcs := h.kcs,
           mid := ?_, stale := h.stale, shut := ?_, closed := ?_, lay := ?_, tx := ?_, rx := ?_, can := ?_ }
  · intro w hw' hm
    obtain ⟨m1, m2, m3⟩ := h.mid w hw' hm
    exact ⟨m1, by rw [m3 ho]; exact h6 hm, m3⟩
  · rintro (h | h)
    · simp only at h; rw [ho] at h; cases h
    · simp only at h; rw [hst] at h; cases h
  · intro h; simp only at h; rw [ho] at h; cases h
  · intro _; simp only; rw [h3, h4, h5]; exact h.lay ho
  · intro _
    simp only; rw [h5]
    rcases hrc with rfl | rfl
    · exact .inr (.inr ⟨rfl, rfl⟩)
    · exact .inr (.inl ⟨rfl, rfl⟩)
  · intro _; simp only; rw [h4]; exact h.rx ho
  · intro _ _ hac
    simp only at hac
    rw [h5] at hac
    rcases hrc with rfl | rfl <;> cases hac

/-- A deferred hand-over. -/
theorem rel_sends2 {bus : Bus (AstSt E)} {f : Fine} {rc : Int} {l : List Access} (h : Rel g U φ k os rs bus f)
    (hp : bus.binding.st.rx.state = .prepared) (hs : Sends g.mode 2 rc l) {s : AstSt E}
    (h1 : s.mode = bus.binding.st.mode) (h3 : s.proto = bus.binding.st.proto)
    (h4 : s.tx = bus.binding.st.tx) (h5 : s.rx = { bus.binding.st.rx with state := if rc = 0 then .released else .prepared }) :
    Accepts g f l (Rel g U φ k os rs { bus with binding := { bus.binding with st := s } }) := by
  have ho : f.opened = true := by
    cases ho : f.opened with
    | true => rfl
    | false => have := (h.closed ho).2.1; rw [hp] at this; cases this
  have hd : f.rxp = .done := by
    rcases h.rx ho with ⟨a, _⟩ | ⟨_, a⟩
    · rw [hp] at a; cases a
    · exact a
  have hst : f.stale = false := by
    cases hs : f.stale with
    | false => rfl
    | true => have := (h.shut (.inr hs)).2.2.1; rw [hd] at this; cases this
  refine (accepts_sends2 h.todo h.started ho (by rw [hst]; simp) hd (by rw [h.coh, hd]; rfl) hs).mono ?_
  rintro f' ⟨a, t, h6, hf'⟩
  have hmid : ∀ v, φ = some v → g.mode = .host → v.getLsbD 7 = true ∧ t.getLsbD 6 = v.getLsbD 6 ∧ (f.opened = true → v.getLsbD 6 = true) := by
    intro w hw' hm
    obtain ⟨m1, m2, m3⟩ := h.mid w hw' hm
    exact ⟨m1, by rw [m3 ho]; exact h6 hm, m3⟩
  have hclosed : ∀ X : Prop, f.opened = false → X := by
    intro X h; rw [ho] at h; cases h
  have hshut : ∀ X : Prop, (f.opened = false ∨ f.stale = true) → X := by
    rintro X (h | h)
    · rw [ho] at h; cases h
    · rw [hst] at h; cases h
  have htx : f.opened = true → (s.tx.state = .acquired ∧ f.w.tx = .free) ∨
              (s.tx.state = .prepared ∧ f.w.tx = .full) ∨ (s.tx.state = .released ∧ f.w.tx = .handed) := by
    rw [h4]; exact h.tx
  have hlay : f.opened = true → s.proto = some 3 ∧ s.tx.offset = g.txo ∧ s.tx.size = g.sz ∧
              s.rx.offset = g.rxo ∧ s.rx.size = g.sz ∧ bus.binding.pktSize + 8 = g.sz := by
    rw [h3, h4, h5]; exact h.lay
  have hcan : f.opened = true → f.stale = false → s.tx.state = .acquired → bus.state = .txEnabled := by
    rw [h4]; exact h.can
  rcases hf' with ⟨rfl, rfl⟩ | ⟨rfl, -, rfl⟩
  · exact
      { todo := h.todo, started := h.started, fin := h.fin, ver := h.ver, hdr := h.hdr, tlr := h.tlr,
        mode := h1.trans h.mode, sent := h.sent, fit := h.fit, all := h.all, got := h.got, coh := rfl, queue := h.queue, kcs := h.kcs,
        mid := hmid, stale := h.stale, shut := hshut _, closed := hclosed _, lay := hlay, tx := htx, can := hcan,
        rx := fun _ => .inl ⟨by simp only; rw [h5]; rfl, .inl rfl⟩ }
  · exact
      { todo := h.todo, started := h.started, fin := h.fin, ver := h.ver, hdr := h.hdr, tlr := h.tlr,
        mode := h1.trans h.mode, sent := h.sent, fit := h.fit, all := h.all, got := h.got, coh := by simp only; rw [hd]; rfl,
        queue := h.queue, kcs := h.kcs,
        mid := hmid, stale := h.stale, shut := hshut _, closed := hclosed _, lay := hlay, tx := htx, can := hcan,
        rx := fun _ => .inr ⟨by simp only; rw [h5]; rfl, hd⟩ }

/-- The deferred hand-overs at the start of a poll. -/
theorem retry_rel (hw : Hw E) (hU : Stable U) {bus : Bus (AstSt E)} (hmode : bus.binding.st.mode = g.mode)
    (h : Obeys g bus.binding.st (Rel g U φ k os rs bus)) :
    Obeys g (astRetry hw bus.binding.st) (Rel g U φ k os rs { bus with binding := { bus.binding with st := astRetry hw bus.binding.st } }) := by
  obtain ⟨l1, l2, hadds, hr1, hr2, heq⟩ := astRetry_adds hw bus.binding.st
  rw [hmode] at hr1 hr2
  refine h.adds hadds fun f hf => ?_
  generalize astRetry hw bus.binding.st = s at *
  have e1 : s.mode = bus.binding.st.mode := by rw [heq]
  have e2 : s.mtu = bus.binding.st.mtu := by rw [heq]
  have e3 : s.proto = bus.binding.st.proto := by rw [heq]
  have hmid : Accepts g f l1 (Rel g U φ k os rs { bus with binding := { bus.binding with st := { bus.binding.st with rx := s.rx } } }) := by
    rcases hr1 with ⟨hp, rc, hs, hrx⟩ | ⟨-, rfl, hrx⟩
    · exact rel_sends2 hf hp hs rfl rfl rfl hrx
    · exact hf.congr hU rfl rfl rfl hrx rfl
  refine hmid.bind fun f1 hf1 => ?_
  rcases hr2 with ⟨hp, rc, hs, htx⟩ | ⟨-, rfl, htx⟩
  · exact rel_sends1 hf1 hp hs e1 e3 rfl htx
  · exact hf1.congr hU e1 e2 e3 rfl htx

/-- Reading the status in a poll. -/
theorem status_rel (hU : Stable U) {bus : Bus (AstSt E)} {s : AstSt E} {r : Int} {v : Byte}
    (h : Obeys g bus.binding.st (Rel g U none k os rs bus)) (ha : Adds bus.binding.st s [.kcsRead .status r v])
    (hs : SameSt bus.binding.st s) :
    Obeys g s (fun f => r = 0 ∧ Rel g U none k os rs { bus with binding := { bus.binding with st := s } } f ∧
      f.w.last = some (.kcsRead .status r v) ∧ f.stat = v ∧
      (g.mode = .host → v.getLsbD 7 = true ∧ (f.opened = true → v.getLsbD 0 = true → v.getLsbD 6 = true))) := by
  refine h.step ha fun f hf hr => ?_
  have hfin : f.fin = false := by rw [hf.fin]; rfl
  obtain ⟨h0, h1, h2⟩ := status_step hf.todo hf.started (.inl hfin) hr
  refine ⟨_, h1, h0, ?_, rfl, rfl, fun hm => ⟨(h2 hm).1, fun ho hv => ?_⟩⟩
  · have hf := hf.same hU hs
    exact { hf with mid := fun v hv => by cases hv }
  · have := (h2 hm).2 ho
    cases hst : f.stale with
    | false => rw [hst] at this; exact this
    | true => rw [hst] at this; exact this.2 (.inl hv)

/-- After reading a command. -/
def DataAt (g : LinkCfg) (U : AstSt E → Prop) (v k : Byte) (os : List Offer) (rs : List (List Byte)) (bus : Bus (AstSt E)) (d : Byte)
    (f : Fine) : Prop :=
  (g.mode = .bmc ∧ d = 0 ∧ Starting true g.init f ∧ U bus.binding.st ∧ (taken os = [] ∧ ∀ o ∈ os, o.rc = 0) ∧ rs = [] ∧ bus.binding.version = 1 ∧
    bus.binding.pktHeader = 4 ∧ bus.binding.pktTrailer = 4 ∧ bus.binding.st.mode = .bmc ∧ bus.state = .constructed ∧ bus.queue = []) ∨
  (g.mode = .host ∧ d = 255 ∧ Rel g U (some v) k os rs bus f) ∨
  (d = 2 ∧ bus.binding.st.tx.state = .released ∧ f.opened = true ∧ f.stale = false ∧
    Rel g U (some v) k os rs { bus with state := .txEnabled, binding := { bus.binding with st := { bus.binding.st with tx := { bus.binding.st.tx with state := .acquired } } } } f) ∨
  (d = 1 ∧ bus.binding.st.rx.state = .released ∧ ∃ f0 a, Rel g U (some v) k os rs bus f0 ∧ f0.opened = true ∧ f0.rxp = .away ∧
    f = { f0 with w := ⟨a, f0.w.tx, true⟩, rxp := .begun })

/-- Reading a command. -/
theorem data_rel (hU : Stable U) {bus : Bus (AstSt E)} {s : AstSt E} {r0 r : Int} {v d : Byte}
    (h : Obeys g bus.binding.st (fun f => r0 = 0 ∧ Rel g U none k os rs bus f ∧
      f.w.last = some (.kcsRead .status 0 v) ∧ f.stat = v ∧
      (g.mode = .host → v.getLsbD 7 = true ∧ (f.opened = true → v.getLsbD 0 = true → v.getLsbD 6 = true))))
    (ha : Adds bus.binding.st s [.kcsRead .data r d]) (hs : SameSt bus.binding.st s) (hrd : kcsReady g.mode v false = true) :
    Obeys g s (fun f => r = 0 ∧ DataAt g U v k os rs { bus with binding := { bus.binding with st := s } } d f) := by
  refine h.step ha ?_
  rintro f ⟨-, hf, hlast, hstat, h7⟩ hr
  have hfin : f.fin = false := by rw [hf.fin]; rfl
  have hsaw : f.w.sawInput g.mode = true := by
    have := sawInput_of (w := f.w) hrd
    rw [← hlast] at this
    exact this
  obtain ⟨hr0, hr1⟩ := hr
  have hr1 := hr1 hf.todo hf.started hfin hsaw
  subst hr0
  have hmid : ∀ w, some v = some w → g.mode = .host → w.getLsbD 7 = true ∧ f.stat.getLsbD 6 = w.getLsbD 6 ∧
      (f.opened = true → w.getLsbD 6 = true) := by
    intro w hw hm
    simp only [Option.some.injEq] at hw
    subst hw
    refine ⟨(h7 hm).1, by rw [hstat], fun ho => (h7 hm).2 ho ?_⟩
    rw [hm, (ready_read v).2] at hrd
    exact hrd
  have hwst : f.w.step g.mode (.kcsRead .data 0 d) =
      some ⟨some (.kcsRead .data 0 d), if d = 2 ∧ f.w.tx = .handed then .free else f.w.tx, if d = 1 then true else f.w.rx⟩ := by
    rw [Watch.step]
    simp only [hsaw, if_true, true_and]
  have hfs := hf.same hU hs
  rw [Fine.step_free hf.todo hwst]
  unfold Fine.free
  rw [if_pos ⟨hf.started, hfin⟩]
  rcases Bool.eq_false_or_eq_true f.opened with ho | ho
  · rw [if_pos ho] at hr1 ⊢
    refine ⟨_, rfl, rfl, ?_⟩
    have hfin' : f.stale = ((some v).isSome && decide (g.mode = .host) && (!f.opened || f.stale)) := by
      rw [ho]
      rcases Bool.eq_false_or_eq_true f.stale with hst | hst
      · simp [(hf.stale hst).1, hst]
      · simp [hst]
    rcases hr1 with ⟨rfl, haway⟩ | ⟨rfl, hhand⟩ | ⟨hm, rfl⟩
    · have hrel : s.rx.state = .released := by
        rcases hfs.rx ho with ⟨a, _⟩ | ⟨_, a⟩
        · exact a
        · rw [haway] at a; cases a
      refine .inr (.inr (.inr ⟨rfl, hrel, { f with fin := f.stale }, some (.kcsRead .data 0 1), ?_, ho, haway, ?_⟩))
      · exact { hfs with fin := hfin', mid := hmid }
      · simp
    · have hrel : s.tx.state = .released := by
        rcases hfs.tx ho with ⟨_, a⟩ | ⟨_, a⟩ | ⟨a, _⟩
        · rw [hhand] at a; cases a
        · rw [hhand] at a; cases a
        · exact a
      have hst : f.stale = false := by
        rcases Bool.eq_false_or_eq_true f.stale with hst | hst
        · have := (hf.shut (.inr hst)).2.2.2; rw [hhand] at this; cases this
        · exact hst
      refine .inr (.inr (.inl ⟨rfl, hrel, ho, hst, ?_⟩))
      refine { hfs with fin := hfin', mid := hmid, shut := ?_, closed := ?_, lay := hfs.lay, tx := ?_, rx := ?_, coh := ?_, can := fun _ _ _ => rfl }
      · simpa using hfs.coh
      · rintro (h | h)
        · simp only at h; rw [ho] at h; cases h
        · simp only at h; rw [hst] at h; cases h
      · intro h; simp only at h; rw [ho] at h; cases h
      · intro _; exact .inl ⟨rfl, by simp [hhand]⟩
      · simpa using hfs.rx
    · refine .inr (.inl ⟨hm, rfl, ?_⟩)
      refine { hfs with fin := hfin', mid := hmid, shut := ?_, tx := ?_, rx := ?_, coh := ?_ }
      · simpa using hfs.coh
      · simpa using hfs.shut
      · simpa using hfs.tx
      · simpa using hfs.rx
  · rw [if_neg (by rw [ho]; simp)] at hr1 ⊢
    obtain ⟨u1, u2, u3, u4, u5⟩ := hfs.closed ho
    obtain ⟨s1, s2, s3, s4⟩ := hfs.shut (.inl ho)
    have hcoh : f.w.rx = false := by rw [hf.coh, s3]; rfl
    have hmode : g.mode = .bmc ∨ g.mode = .host := by cases g.mode <;> simp
    rcases hmode with hm | hm
    · rw [hm] at hr1 ⊢
      simp only at hr1
      subst hr1
      refine ⟨_, if_pos rfl, rfl, .inl ⟨hm, rfl, ⟨rfl, hf.started, rfl, ?_, hfin, s3, ?_, ?_, u4, u5⟩, u1, ?_, ?_, hf.ver, hf.hdr, hf.tlr,
        (hs.mode.trans hf.mode).trans hm, s1, s2⟩⟩
      · rcases Bool.eq_false_or_eq_true f.stale with hst | hst
        · have := (hf.stale hst).1; rw [hm] at this; cases this
        · exact hst
      · simp [s4]
      · simp [hcoh]
      · have := hf.sent
        rw [u4] at this
        exact ⟨List.map_eq_nil_iff.mp this.symm, hf.all⟩
      · rw [hf.got, u5]; rfl
    · rw [hm] at hr1 ⊢
      simp only at hr1
      subst hr1
      refine ⟨_, rfl, rfl, .inr (.inl ⟨hm, rfl, ?_⟩)⟩
      refine { hfs with fin := ?_, mid := hmid, shut := ?_, tx := ?_, coh := ?_ }
      · simp [hm, ho]
      · simpa using hfs.coh
      · intro _
        exact ⟨s1, s2, s3, by simp [s4]⟩
      · intro h; simp only at h; rw [ho] at h; cases h

end

end Mctp
