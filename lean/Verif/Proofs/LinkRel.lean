import Verif.Proofs.LinkOpen
import Verif.Proofs.AstWritten

/-! The code keeps to the detailed monitor: how the state of a side is related to the state of its monitor,
and the steps of packet exchange. -/

namespace Mctp

open Spec

variable {E : Type}

theorem Obeys.adds {g : LinkCfg} {s s' : AstSt E} {P Q : Fine → Prop} {l : List Access} (h : Obeys g s P) (ha : Adds s s' l)
    (hk : ∀ f, P f → Accepts g f l Q) : Obeys g s' Q := by
  unfold Obeys at *
  rw [show s'.accs = s.accs ++ l from ha]
  exact h.bind hk

/-- What the receiving side does with what it read from its buffer. -/
def recvd (x : List Byte × List Byte) : Option (List Byte) :=
  if x.2.head? = some 1 ∧ x.2.drop (x.2.length - 4) = be32 (crc32 (x.2.take (x.2.length - 4))).toNat then
    some (x.2.take (fromBe x.1)) else none

/-- The state of a side and of its monitor.  `φ` is the status read in the current poll, until the host has
acted on it; `k` is the status the host acted on last; `os` and `rs` are the offers to the binding and the
packets delivered so far. -/
structure Rel (g : LinkCfg) (U : AstSt E → Prop) (φ : Option Byte) (k : Byte) (os : List Offer) (rs : List (List Byte))
    (bus : Bus (AstSt E)) (f : Fine) : Prop where
  todo    : f.todo = []
  started : f.started = true
  fin     : f.fin = (φ.isSome && decide (g.mode = .host) && (!f.opened || f.stale))
  ver     : bus.binding.version = 1
  hdr     : bus.binding.pktHeader = 4
  tlr     : bus.binding.pktTrailer = 4
  mode    : bus.binding.st.mode = g.mode
  sent    : f.sent = (taken os).map (fun p => (be32 p.length, wire 3 p))
  fit     : ∀ p ∈ taken os, p.head? = some 1 ∧ p.length + 8 ≤ g.sz
  all     : ∀ o ∈ os, o.rc = 0
  got     : rs = f.got.filterMap recvd
  coh     : f.w.rx = decide (f.rxp ≠ .away)
  queue   : ∀ p ∈ bus.queue, Fresh p ∧ p.bytes.length + 8 ≤ g.sz ∧ p.bytes.head? = some 1
  kcs     : g.mode = .host → k.getLsbD 7 = true ∧ (f.opened = true → k.getLsbD 6 = !f.stale)
  mid     : ∀ v, φ = some v → g.mode = .host → v.getLsbD 7 = true ∧ f.stat.getLsbD 6 = v.getLsbD 6 ∧
              (f.opened = true → v.getLsbD 6 = true)
  stale   : f.stale = true → g.mode = .host ∧ f.opened = true
  shut    : f.opened = false ∨ f.stale = true → bus.state = .constructed ∧ bus.queue = [] ∧ f.rxp = .away ∧ f.w.tx = .free
  closed  : f.opened = false → U bus.binding.st ∧ bus.binding.st.rx.state = .idle ∧ bus.binding.st.tx.state = .idle ∧
              f.sent = [] ∧ f.got = []
  lay     : f.opened = true → bus.binding.st.proto = some 3 ∧ bus.binding.st.tx.offset = g.txo ∧ bus.binding.st.tx.size = g.sz ∧
              bus.binding.st.rx.offset = g.rxo ∧ bus.binding.st.rx.size = g.sz ∧ bus.binding.pktSize + 8 = g.sz
  tx      : f.opened = true → (bus.binding.st.tx.state = .acquired ∧ f.w.tx = .free) ∨
              (bus.binding.st.tx.state = .prepared ∧ f.w.tx = .full) ∨ (bus.binding.st.tx.state = .released ∧ f.w.tx = .handed)
  rx      : f.opened = true → (bus.binding.st.rx.state = .released ∧ (f.rxp = .away ∨ (g.lossy = true ∧ ∃ n, f.rxp = .len n))) ∨
              (bus.binding.st.rx.state = .prepared ∧ f.rxp = .done)
  can     : f.opened = true → f.stale = false → bus.binding.st.tx.state = .acquired → bus.state = .txEnabled

/-- Reading the status. -/
theorem status_step {g : LinkCfg} {f : Fine} {v : Byte} {rc : Int} (ht : f.todo = []) (hs : f.started = true)
    (hok : f.fin = false ∨ f.rxp ≠ .away) (hr : Rely g f (.kcsRead .status rc v)) :
    rc = 0 ∧ f.step g (.kcsRead .status rc v) = some { f with w := ⟨some (.kcsRead .status rc v), f.w.tx, f.w.rx⟩, stat := v } ∧
      (g.mode = .host → v.getLsbD 7 = true ∧ (f.opened = true →
        if f.stale then v.getLsbD 1 = false ∧ (v.getLsbD 0 = true ∨ f.fin = true → v.getLsbD 6 = true) else v.getLsbD 6 = true)) := by
  obtain ⟨h0, h1⟩ := hr
  refine ⟨h0, ?_, fun hm => h1 hm hs hok⟩
  rw [Fine.step_free ht (w := ⟨some (.kcsRead .status rc v), f.w.tx, f.w.rx⟩) rfl]
  unfold Fine.free
  simp only [hs, if_true]
  rw [if_neg (by rintro ⟨a, b⟩; rcases hok with h | h; · rw [h] at a; cases a
                 · exact h b)]

/-- Announcing a packet. -/
theorem accepts_sends1 {g : LinkCfg} {f : Fine} {rc : Int} {l : List Access} (ht : f.todo = []) (hs : f.started = true)
    (hf : f.fin = false) (ho : f.opened = true) (hst : f.stale = false) (hw : f.w.tx = .full) (h : Sends g.mode 1 rc l) :
    Accepts g f l (fun f' => (rc = 0 ∨ rc = -EBUSY) ∧ ∃ a t, (g.mode = .host → t.getLsbD 6 = true) ∧
      f' = { f with w := ⟨a, if rc = 0 then .handed else .full, f.w.rx⟩, stat := t }) := by
  cases h with
  | @unread r v hr =>
    intro hrel
    obtain ⟨h0, -, -⟩ := status_step ht hs (.inl hf) hrel
    exact absurd h0 hr
  | @busy v hr =>
    intro hrel
    obtain ⟨-, hstep, h6⟩ := status_step ht hs (.inl hf) hrel
    refine ⟨_, hstep, .inr rfl, some (.kcsRead .status 0 v), v, fun hm => ?_, ?_⟩
    · have := (h6 hm).2 ho
      rw [hst] at this
      exact this
    · rw [if_neg (by decide), hw]
  | @sent v hr =>
    intro hrel
    obtain ⟨-, hstep, h6⟩ := status_step ht hs (.inl hf) hrel
    refine ⟨_, hstep, fun hrel2 => ?_⟩
    refine ⟨{ f with w := ⟨some (.kcsWrite .data 1 0), .handed, f.w.rx⟩, stat := v }, Eq.trans (Fine.step_free (w := ⟨some (.kcsWrite .data 1 0), .handed, f.w.rx⟩) ht ?_) ?_, .inl rfl, ?_⟩
    · have := sawRoom_of (w := f.w) hr
      rw [Watch.step]
      simp only [if_true]
      rw [if_pos ⟨this, hw⟩]
    · unfold Fine.free
      simp only [if_true]
      rw [if_pos ⟨ho, hst⟩]
    · refine ⟨_, v, fun hm => ?_, rfl⟩
      have := (h6 hm).2 ho
      rw [hst] at this
      exact this
  | @unsent v r hr hr0 =>
    intro hrel
    obtain ⟨-, hstep, h6⟩ := status_step ht hs (.inl hf) hrel
    exact ⟨_, hstep, fun hrel2 => absurd hrel2 hr0⟩

/-- Handing back the buffer. -/
theorem accepts_sends2 {g : LinkCfg} {f : Fine} {rc : Int} {l : List Access} (ht : f.todo = []) (hs : f.started = true)
    (ho : f.opened = true) (hst : f.stale = true → g.mode = .host ∧ f.fin = true) (hd : f.rxp = .done) (hw : f.w.rx = true)
    (h : Sends g.mode 2 rc l) :
    Accepts g f l (fun f' => ∃ a t, (g.mode = .host → t.getLsbD 6 = true) ∧
      ((rc = 0 ∧ f' = { f with w := ⟨a, f.w.tx, false⟩, stat := t, rxp := .away }) ∨
       (rc = -EBUSY ∧ f.stale = false ∧ f' = { f with w := ⟨a, f.w.tx, true⟩, stat := t }))) := by
  have hok : f.fin = false ∨ f.rxp ≠ .away := .inr (by rw [hd]; simp)
  have h6' : ∀ v : Byte, (g.mode = .host → v.getLsbD 7 = true ∧ (f.opened = true →
        if f.stale then v.getLsbD 1 = false ∧ (v.getLsbD 0 = true ∨ f.fin = true → v.getLsbD 6 = true) else v.getLsbD 6 = true)) →
      g.mode = .host → v.getLsbD 6 = true := by
    intro v h hm
    have := (h hm).2 ho
    cases hs : f.stale with
    | false => rw [hs] at this; exact this
    | true => rw [hs] at this; exact this.2 (.inr (hst hs).2)
  cases h with
  | @unread r v hr =>
    intro hrel
    obtain ⟨h0, -, -⟩ := status_step ht hs hok hrel
    exact absurd h0 hr
  | @busy v hr =>
    intro hrel
    obtain ⟨-, hstep, h6⟩ := status_step ht hs hok hrel
    refine ⟨_, hstep, some (.kcsRead .status 0 v), v, h6' v h6, .inr ⟨rfl, ?_, by rw [hw]⟩⟩
    cases hs : f.stale with
    | false => rfl
    | true =>
      have hm := (hst hs).1
      have := (h6 hm).2 ho
      rw [hs] at this
      rw [hm, (ready_write v).2, this.1] at hr
      cases hr
  | @sent v hr =>
    intro hrel
    obtain ⟨-, hstep, h6⟩ := status_step ht hs hok hrel
    refine ⟨_, hstep, fun hrel2 => ?_⟩
    refine ⟨{ f with w := ⟨some (.kcsWrite .data 2 0), f.w.tx, false⟩, stat := v, rxp := .away }, Eq.trans (Fine.step_free (w := ⟨some (.kcsWrite .data 2 0), f.w.tx, false⟩) ht ?_) ?_, ?_⟩
    · have := sawRoom_of (w := f.w) hr
      rw [Watch.step]
      simp only [show ¬ ((2 : Byte) = 1) by decide, if_false, if_true]
      rw [if_pos ⟨this, hw⟩]
      rfl
    · unfold Fine.free
      simp only [show ¬ ((2 : Byte) = 1) by decide, if_false, if_true]
      rw [if_pos ⟨ho, hd⟩]
    · exact ⟨_, v, h6' v h6, .inl ⟨rfl, rfl⟩⟩
  | @unsent v r hr hr0 =>
    intro hrel
    obtain ⟨-, hstep, h6⟩ := status_step ht hs hok hrel
    exact ⟨_, hstep, fun hrel2 => absurd hrel2 hr0⟩

/-- Writing a packet and announcing it. -/
theorem accepts_packet {g : LinkCfg} {f : Fine} {rc r1 r2 : Int} {p : List Byte} {l : List Access} (ht : f.todo = []) (hs : f.started = true)
    (hf : f.fin = false) (ho : f.opened = true) (hst : f.stale = false) (hw : f.w.tx = .free) (h : Sends g.mode 1 rc l)
    (hoff : 256 ≤ g.txo) (hp : p.length + 8 ≤ g.sz) (hsz : g.sz < 2 ^ 32) :
    Accepts g f (.lpcWrite g.txo (be32 p.length) r1 :: .lpcWrite (g.txo + 4) (wire 3 p) r2 :: l)
      (fun f' => (rc = 0 ∨ rc = -EBUSY) ∧ ∃ a t, (g.mode = .host → t.getLsbD 6 = true) ∧
      f' = { f with w := ⟨a, if rc = 0 then .handed else .full, f.w.rx⟩, stat := t, lenB := be32 p.length, sent := f.sent ++ [(be32 p.length, wire 3 p)] }) := by
  intro hr1
  refine ⟨{ f with w := ⟨some (.lpcWrite g.txo (be32 p.length) r1), .half, f.w.rx⟩, lenB := be32 p.length }, Eq.trans (Fine.step_free (w := ⟨some (.lpcWrite g.txo (be32 p.length) r1), .half, f.w.rx⟩) ht ?_) ?_, fun hr2 => ?_⟩
  · rw [Watch.step]
    simp only
    rw [if_neg (by omega), hw]
  · unfold Fine.free
    rw [if_pos ⟨ho, hst⟩, if_pos ⟨rfl, rfl, hw⟩]
  · have hwl : (wire 3 p).length = p.length + 4 := by simp [wire, be32]
    have hfb : fromBe (be32 p.length) = p.length := by rw [fromBe_be32]; exact u32_of_lt (by omega)
    refine ⟨{ f with w := ⟨some (.lpcWrite (g.txo + 4) (wire 3 p) r2), .full, f.w.rx⟩, lenB := be32 p.length, sent := f.sent ++ [(be32 p.length, wire 3 p)] }, Eq.trans (Fine.step_free (w := ⟨some (.lpcWrite (g.txo + 4) (wire 3 p) r2), .full, f.w.rx⟩) ht ?_) ?_, ?_⟩
    · rw [Watch.step]
      simp only
      rw [if_neg (by omega)]
    · unfold Fine.free
      rw [if_pos ⟨ho, hst⟩, if_neg (by rintro ⟨h, -⟩; omega)]
      rw [if_pos ⟨rfl, rfl, by rw [hwl, hfb], by rw [hwl]; omega⟩]
    · exact (accepts_sends1 (f := { f with w := ⟨some (.lpcWrite (g.txo + 4) (wire 3 p) r2), .full, f.w.rx⟩, lenB := be32 p.length, sent := f.sent ++ [(be32 p.length, wire 3 p)] }) ht hs hf ho hst rfl h)

/-- What may be enabled is open. -/
theorem Rel.live {g : LinkCfg} {U : AstSt E → Prop} {φ : Option Byte} {k : Byte} {os : List Offer} {rs : List (List Byte)}
    {bus : Bus (AstSt E)} {f : Fine} (h : Rel g U φ k os rs bus f) (hs : bus.state ≠ .constructed) :
    f.opened = true ∧ f.stale = false ∧ f.fin = false := by
  have h1 : f.opened = true := by
    cases ho : f.opened with
    | true => rfl
    | false => exact absurd (h.shut (.inl ho)).1 hs
  have h2 : f.stale = false := by
    cases ho : f.stale with
    | false => rfl
    | true => exact absurd (h.shut (.inr ho)).1 hs
  exact ⟨h1, h2, by rw [h.fin, h1, h2]; simp⟩

theorem taken_snoc_ok {os : List Offer} {p : List Byte} {d : Bool} : taken (os ++ [⟨p, 0, d⟩]) = taken os ++ [p] := by
  rw [taken_append]; rfl

/-- Transmission. -/
theorem rel_keeps (hw : Hw E) (mode : AstMode) (mtu : Nat) {g : LinkCfg} {U : AstSt E → Prop} {φ : Option Byte} {k k0 : Byte}
    {rs : List (List Byte)} (hoff : 256 ≤ g.txo) (hsz : g.sz < 2 ^ 31) (h12 : 12 ≤ g.sz) :
    KeepsOn (astOps hw) (fun os bus => AstJ mode mtu bus ∧ bus.binding.st.kcsStatus = k0 ∧
      Obeys g bus.binding.st (Rel g U φ k os rs bus)) where
  tx := by
    intro os bus p rest out hj hst hq he
    obtain ⟨hj, hk, hr⟩ := hj
    have hj' := (astJ_keeps hw mode mtu).tx (os := []) hj hst hq he
    obtain ⟨-, hl⟩ := hj.2 hst
    obtain ⟨v, hv, hv0, hc⟩ := astTx_adds hl he
    have hne : bus.state ≠ .constructed := by rw [hst]; simp
    have hacq := (hj.2 hst).1
    rcases hc with ⟨hbig, rfl⟩ | ⟨hfit, pkt1, bytes, rc, l, hprot, hread, ha, hwr, hpk, hdis, hrc, h1, h2, h3, h4, h5, h6⟩
    · refine ⟨hj', hk, hr.mono fun f hf => ?_⟩
      obtain ⟨ho, -, -⟩ := hf.live hne
      obtain ⟨e1, -, e3, -⟩ := hf.lay ho
      obtain ⟨q1, q2, -⟩ := hf.queue p (by rw [hq]; simp)
      rw [hv] at e1
      cases e1
      rw [e3, show overhead 3 = 8 from rfl, q1.is.len, u32_of_lt (by omega)] at hbig
      omega
    · refine ⟨hj', h6.trans hk, hr.adds ha fun f hf => ?_⟩
      obtain ⟨ho, hs, hfn⟩ := hf.live hne
      obtain ⟨e1, e2, e3, e4, e5, e6⟩ := hf.lay ho
      obtain ⟨q1, q2, q3⟩ := hf.queue p (by rw [hq]; simp)
      rw [hv] at e1
      cases e1
      have hlen := q1.is.len
      have hbytes := fresh_wire q1 (by decide) (by omega) hprot hread
      obtain ⟨r1, r2, l', rfl, hsend⟩ := hwr
      rw [hbytes, e2, be32_u32, hlen]
      rw [hf.mode] at hsend
      have hfree : f.w.tx = .free := by
        rcases hf.tx ho with ⟨_, h⟩ | ⟨h, _⟩ | ⟨h, _⟩
        · exact h
        · rw [hacq] at h; cases h
        · rw [hacq] at h; cases h
      refine (accepts_packet hf.todo hf.started hfn ho hs hfree hsend hoff q2 (by omega)).mono ?_
      rintro f' ⟨hrc2, a, t, ht6, rfl⟩
      have hrc0 : out.rc = 0 := by
        rw [hrc]; rcases hrc2 with rfl | rfl
        · rfl
        · rw [if_pos rfl]
      rw [hrc0]
      have htk : taken (os ++ [⟨p.bytes, 0, out.disableTx⟩]) = taken os ++ [p.bytes] := taken_snoc_ok
      refine { todo := hf.todo, started := hf.started, fin := hf.fin, ver := hf.ver, hdr := hf.hdr, tlr := hf.tlr,
               mode := h3.trans hf.mode, sent := ?_, fit := ?_, all := ?_, got := hf.got, coh := hf.coh, queue := ?_, kcs := hf.kcs,
               mid := ?_, stale := hf.stale, shut := ?_, closed := ?_, lay := ?_, tx := ?_, rx := ?_, can := ?_ }
      · rw [htk, List.map_append, ← hf.sent]; rfl
      · rw [htk]
        intro q hq'
        rcases List.mem_append.mp hq' with h | h
        · exact hf.fit q h
        · simp only [List.mem_singleton] at h; subst h; exact ⟨q3, q2⟩
      · intro o ho
        rcases List.mem_append.mp ho with h | h
        · exact hf.all o h
        · simp only [List.mem_singleton] at h; subst h; rfl
      · simp only [afterTx]
        rw [if_pos (.inl hrc0)]
        intro q hq'
        exact hf.queue q (by rw [hq]; exact List.mem_cons_of_mem _ hq')
      · intro w hw' hm
        obtain ⟨m1, m2, m3⟩ := hf.mid w hw' hm
        exact ⟨m1, by rw [m3 ho]; exact ht6 hm, m3⟩
      · rintro (h | h)
        · simp only at h; rw [ho] at h; cases h
        · simp only at h; rw [hs] at h; cases h
      · intro h; simp only at h; rw [ho] at h; cases h
      · intro _
        simp only [afterTx]
        rw [h5, h1, h2]
        exact hf.lay ho
      · intro _
        simp only [afterTx]
        rw [h1]
        rcases hrc2 with rfl | rfl
        · exact .inr (.inr ⟨rfl, rfl⟩)
        · exact .inr (.inl ⟨rfl, rfl⟩)
      · intro _
        simp only [afterTx]
        rw [h2]
        exact hf.rx ho
      · intro _ _ hac
        simp only [afterTx] at hac
        rw [h1] at hac
        rcases hrc2 with rfl | rfl <;> cases hac
  push := by
    intro os bus ps hj hst hps
    obtain ⟨hj, hk, hr⟩ := hj
    refine ⟨hj, hk, hr.mono fun f hf => ?_⟩
    obtain ⟨ho, hs, hfn⟩ := hf.live hst
    obtain ⟨e1, e2, e3, e4, e5, e6⟩ := hf.lay ho
    refine { hf with queue := ?_, shut := ?_ }
    · intro p hp
      rcases List.mem_append.mp hp with h | h
      · exact hf.queue p h
      · obtain ⟨q1, q2, q3⟩ := hps (by omega) p h
        have hF := Fresh.of_made hf.hdr hf.tlr q1 q2
        refine ⟨hF, ?_, ?_⟩
        · have a := q1.hi
          have b := q2.fin
          have c := hF.st
          rw [hf.hdr] at a
          omega
        · rw [q3, hf.ver]; rfl
    · rintro (h | h)
      · rw [ho] at h; cases h
      · rw [hs] at h; cases h

end Mctp
