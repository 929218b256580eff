import Verif.Proofs.Reentrant5
import Verif.Props.ReenterMulti

/-!
# C84, for whole histories: every callback may receive packets
-/

namespace Mctp

open Spec

variable {β S : Type}

/-- A call that a callback may make when `bad` are the streams that its message may be of and `ks` are the streams that messages
of several packets are received on: sending, setting the capture handler, and receiving a packet that fits and is not
part of a message of several packets of one of the streams `bad`. -/
def PollOp (size : Nat) (bad : Key → Prop) (ks : List Key) : Op β → Prop
  | .send .. | .setCapture _ => True
  | .recv i bs => i = 0 ∧ bs.length ≤ size ∧ ∀ f, parse bs = some f → f.single = false → ¬ bad f.key ∧ (f.som = true → f.key ∈ ks)
  | _ => False

/-- Only such calls, and afterwards the state of the application is one of `J`. -/
def Script.Polls (size : Nat) (bad : Key → Prop) (ks : List Key) (J : S → Prop) : Script β S → Prop
  | .done s => J s
  | .call op k => PollOp size bad ks op ∧ ∀ rc, (k rc).Polls size bad ks J

/-- In the callback for a message the application makes only such calls, for the streams the message may be of; `J` are the
states it can be in. -/
def Polls (size : Nat) (ks : List Key) (J : S → Prop) (app : App β S) : Prop :=
  ∀ s ev, J s → ev.isCallback = true → (app s ev).Polls size (OfMessage ev) ks J

theorem PollOp.other {size : Nat} {bad : Key → Prop} {ks : List Key} {κ : Key} {op : Op β} (h : PollOp size bad ks op) (hb : bad κ) :
    OtherOp κ size op := by
  cases op with
  | recv i bs =>
    refine ⟨h.1, h.2.1, ?_⟩
    cases hf : fragB κ bs with
    | none => rfl
    | some f =>
      obtain ⟨h1, h2, h3⟩ := fragB_some hf
      exact absurd (by rw [h2]; exact hb) (h.2.2 f h1 h3).1
  | send => trivial
  | setCapture => trivial
  | _ => exact h.elim

theorem Script.Polls.others {J : S → Prop} {size : Nat} {bad : Key → Prop} {ks : List Key} {κ : Key} {sc : Script β S} (h : sc.Polls size bad ks J) (hb : bad κ) :
    sc.Others κ size := by
  induction sc with
  | done s => trivial
  | call op k ih => exact ⟨h.1.other hb, fun rc => ih rc (h.2 rc)⟩

theorem Script.Polls.log {J : S → Prop} {size : Nat} {bad : Key → Prop} {ks : List Key} {sc : Script β S} : ∀ {log : List (Rec β)} {s' : S},
    sc.Polls size bad ks J → sc.Log log s' → ∀ r ∈ log, PollOp size bad ks r.op := by
  induction sc with
  | done s => rintro log s' _ ⟨rfl, -⟩ r hr; cases hr
  | call op k ih =>
    rintro log s' h ⟨e, rc, rest, rfl, hl⟩ r hr
    rcases List.mem_cons.mp hr with rfl | hr
    · exact h.1
    · exact ih rc (h.2 rc) hl r hr

theorem Script.Polls.after {J : S → Prop} {size : Nat} {bad : Key → Prop} {ks : List Key} {sc : Script β S} : ∀ {log : List (Rec β)} {s' : S},
    sc.Polls size bad ks J → sc.Log log s' → J s' := by
  induction sc with
  | done s => rintro log s' h ⟨-, rfl⟩; exact h
  | call op k ih =>
    rintro log s' h ⟨e, rc, rest, -, hl⟩
    exact ih rc (h.2 rc) hl

theorem Script.Polls.okIn {J : S → Prop} {ops : Ops β} (K : Contract ops) {eid : Byte} {size : Nat} {bad : Key → Prop} {ks : List Key} {sc : Script β S} :
    ∀ {c : Core β} {evs : List Event}, EpInv eid evs c → Fits size c → sc.Polls size bad ks J → sc.OkIn K c := by
  induction sc with
  | done s => intros; trivial
  | call op k ih =>
    intro c evs he hf h
    refine ⟨?_, ?_, fun c' e rc hs => ih rc (step_epInv he hs) (hf.of_sizes (step_sizes he.noBridge he.eids ?_ hs)) (h.2 rc)⟩
    · have := h.1
      cases op <;> first | trivial | exact this.elim
    · have := h.1
      cases op with
      | recv i bs =>
        obtain ⟨rfl, h2, -⟩ := this
        obtain ⟨bus, b1, b2⟩ := hf
        exact ⟨bus, b1, by omega⟩
      | send => trivial
      | setCapture => trivial
      | _ => exact this.elim
    · have := h.1
      intro i st a b d cr hop
      subst hop
      exact this.elim

theorem run_sizes {ops : Ops β} {eid : Byte} {hist : List (Op β)} : ∀ {c c' : Core β} {evs : List Event} {log : List (Rec β)}, EpInv eid evs c →
    (∀ op ∈ hist, ∀ i st a b d cr, op ≠ .rebind i st a b d cr) → c.run ops hist = .ok (c', log) → busSizes c' = busSizes c := by
  induction hist with
  | nil =>
    intro c c' evs log _ _ h
    simp only [Core.run, Except.ok.injEq, Prod.mk.injEq] at h
    obtain ⟨rfl, -⟩ := h; rfl
  | cons op rest ih =>
    intro c c' evs log he hr h
    simp only [Core.run] at h
    obtain ⟨⟨c1, e, rc⟩, h1, h⟩ := Res.bind_eq_ok.mp h
    obtain ⟨⟨c2, l⟩, h2, h⟩ := Res.bind_eq_ok.mp h
    simp only [Except.ok.injEq, Prod.mk.injEq] at h
    obtain ⟨rfl, -⟩ := h
    rw [ih (step_epInv he h1) (fun o ho => hr o (by simp [ho])) h2]
    exact step_sizes he.noBridge he.eids (hr op (by simp)) h1

theorem Reacts.one {app : App β S} {s s' : S} {ev : Event} {log : List (Rec β)} (h : (app s ev).Log log s') : Reacts app s [ev] log s' :=
  ⟨log, [], s', by simp, h, rfl, rfl⟩

theorem NoCall.filter {e : List Event} (h : NoCall e) : e.filter Event.isCallback = [] := by
  rw [List.filter_eq_nil_iff]
  intro ev hev
  simp [h ev hev]

theorem IsTxEvent.noCall {e : List Event} (h : ∀ x ∈ e, IsTxEvent x) : NoCall e := by
  intro ev hev
  have := h ev hev
  cases ev <;> first | rfl | exact this.elim

/-- A call made outside the callbacks in such a history: no `mctp_set_rx_all`, no change of the maximal message size or of the binding,
and of the packets received that are part of messages of several packets, none has the null EID as its source and the first ones are of
the streams `ks`. -/
def Usual (ks : List Key) : Op β → Prop
  | .setMax _ | .setRx _ | .rebind .. => False
  | .recv _ bs => ∀ f, parse bs = some f → f.single = false → f.src ≠ 0 ∧ (f.som = true → f.key ∈ ks)
  | _ => True

theorem Usual.notRebind {ks : List Key} {op : Op β} (h : Usual ks op) : ∀ i st a b d cr, op ≠ .rebind i st a b d cr := by
  intro i st a b d cr hop
  subst hop
  exact h.elim

theorem Usual.pktP {ks : List Key} {op : Op β} (h : Usual ks op) : PktP (fun _ => True) op := by
  cases op with
  | recv => trivial
  | setMax => exact h
  | setRx => exact h
  | _ => trivial

theorem Frag.not_single {f : Frag} (h : f.eom = false) : f.single = false := by simp [Frag.single, h]

/-- One call made outside the callbacks, with what the application does in its callback, is as if it did so afterwards. -/
theorem stepH_polls {ops : Ops β} {K : Contract ops} {app : App β S} {eid : Byte} {mx size : Nat} (hmx : mx < 2 ^ 64) {ks : List Key}
    (hks : ks.length ≤ 16) {J : S → Prop} (happ : Polls size ks J app) {base : List Nat} {evs : List Event} {c : Core β} {s : S}
    (hJ : J s) (hI : RefInv K eid mx (fun a => a ≤ mx) base evs c) (hfit : Fits size c) (hopn : ∀ k, abs c.ctxs k ≠ none → k ∈ ks) {op : Op β}
    (hop : OpOk K c op) (hus : Usual ks op) :
    ∃ c' s' e rc log evs', c.stepH ops app s op = .ok (c', s', e ++ events log, rc) ∧ J s' ∧ Reacts app s (e.filter Event.isCallback) log s' ∧
      RefInv K eid mx (fun a => a ≤ mx) base evs' c' ∧ Fits size c' ∧ (∀ k, abs c'.ctxs k ≠ none → k ∈ ks) ∧
      Reasm (loose mx) eid (abs c.ctxs) (rxTrace (⟨op, e, rc⟩ :: log)) (abs c'.ctxs) := by
  obtain ⟨c1, e1, rc, h1, hI1, hst⟩ := step_ref K (Pol.loose hmx) hI hop hus.pktP
  have hfit1 := hfit.of_sizes (step_sizes hI.ep.noBridge hI.ep.eids hus.notRebind h1)
  by_cases hr : ∃ i bs, op = .recv i bs
  · obtain ⟨i, bs, rfl⟩ := hr
    simp only at hst
    have hopn1 : ∀ k, abs c1.ctxs k ≠ none → k ∈ ks := by
      refine reasm_open (tr := [(bs, deliveries e1)]) ⟨_, hst, rfl⟩ hopn ?_
      intro x hx f hf g1 g2
      simp only [List.mem_singleton] at hx
      subst hx
      exact (hus f hf (Frag.not_single g2)).2 g1
    have hi : i = 0 := by
      obtain ⟨bus, hget, -⟩ := hop
      have := (List.getElem?_eq_some_iff.mp hget).1
      have hl := congrArg List.length hI.ep.eids
      simp at hl
      omega
    subst hi
    have hcons : ∀ l : List (Rec β), rxTrace (⟨.recv 0 bs, e1, rc⟩ :: l) = (bs, deliveries e1) :: rxTrace l := fun l => rfl
    by_cases hn : NoCall e1
    · refine ⟨c1, s, e1, rc, [], _, ?_, hJ, ?_, hI1, hfit1, hopn1, ⟨_, hst, rfl⟩⟩
      · rw [stepH_quiet hI.ep.noBridge s h1 hn]; simp [events]
      · rw [hn.filter]; exact ⟨rfl, rfl⟩
    · obtain ⟨ev, hev, hcb⟩ : ∃ ev ∈ e1, ev.isCallback = true := by
        refine Classical.byContradiction fun h => hn fun ev hev => ?_
        cases hc : ev.isCallback with
        | false => rfl
        | true => exact absurd ⟨ev, hev, hc⟩ h
      obtain ⟨f, hf, hl, hfil, hof⟩ := callback_of hI.ep h1 hev hcb
      have hpo := happ s ev hJ hcb
      have hlogks : ∀ {l : List (Rec β)}, (∀ r ∈ l, PollOp size (OfMessage ev) ks r.op) →
          ∀ x ∈ rxTrace l, ∀ f, parse x.1 = some f → f.som = true → f.eom = false → f.key ∈ ks := by
        intro l hl
        refine FewStreams.trace fun r hr i p g hrop hg g1 g2 => ?_
        have := hl r hr
        rw [hrop] at this
        exact (this.2.2 g hg (Frag.not_single g2)).2 g1
      cases hsg : f.single with
      | true =>
        obtain ⟨c', s', e2, q1, -, -, q4⟩ := single_polls (app := app) (s := s) hI.mem hI.ep hop hf hsg h1 (by
          intro ev' hev' hcb'
          exact (happ s ev' hJ hcb').okIn K hI1.ep hfit1)
        rw [hfil] at q4
        rcases q4 with ⟨q, -⟩ | ⟨ev', hq, hok, hcall⟩
        · cases q
        · simp only [List.cons.injEq, and_true] at hq
          subst hq
          obtain ⟨more, lm, a1, a2, a3, a4⟩ := calls_hist hok hcall
          have hmap := run_ops a1
          have hpl := hpo.log a4
          have hpm : ∀ op ∈ more, PollOp size (OfMessage ev) ks op := by
            intro op hop
            rw [← hmap] at hop
            obtain ⟨r, hr, rfl⟩ := List.mem_map.mp hop
            exact hpl r hr
          obtain ⟨c2, l2, b1, b2, b3, -, -⟩ := run_ref K (Pol.loose hmx) hI1 a3 (by
            intro op hop
            have := hpm op hop
            cases op <;> first | trivial | exact this.elim)
          rw [a1] at b1
          simp only [Except.ok.injEq, Prod.mk.injEq] at b1
          obtain ⟨rfl, rfl⟩ := b1
          refine ⟨c', s', e1, rc, lm, _, by rw [q1, a2], hpo.after a4, by rw [hfil]; exact Reacts.one a4, b2, ?_, ?_, ?_⟩
          · refine hfit1.of_sizes (run_sizes hI1.ep ?_ a1)
            intro op hop i st a b d cr h
            have := hpm op hop
            rw [h] at this
            exact this.elim
          · exact reasm_open b3 hopn1 (hlogks hpl)
          · rw [hcons]; exact ⟨_, hst, b3⟩
      | false =>
        obtain ⟨hsrc, -⟩ := hus f hf hsg
        obtain ⟨c', s', log, eC, r1, r2, r3, r4, r5, r6, r7, σ1, r8, r9⟩ :=
          stepH_others (Pol.loose hmx) hI hop hf hsg hsrc h1 hev hcb hfit (hpo.others hof)
        have hne : ∀ x ∈ rxTrace log, fragB f.key x.1 = none := by
          intro x hx
          obtain ⟨r, hr, hrx⟩ := List.mem_filterMap.mp hx
          have hq := r5 r hr
          cases hop : r.op with
          | recv i p =>
            rw [hop] at hrx hq
            simp only [Option.some.injEq] at hrx
            subst hrx
            exact hq.2.2
          | _ => rw [hop] at hrx; cases hrx
        have hsame : ∀ {tr : List (List Byte × List (Byte × List Byte))} {σ σ' : State}, Reasm (loose mx) eid σ tr σ' →
            (∀ x ∈ tr, fragB f.key x.1 = none) → σ' f.key = σ f.key := by
          intro tr
          induction tr with
          | nil => intro σ σ' h _; cases h; rfl
          | cons x tr ih =>
            intro σ σ' h h2
            obtain ⟨τ, g1, g2⟩ := h
            rw [ih g2 fun y hy => h2 y (by simp [hy]), PktStep_other g1 (h2 x (by simp))]
        obtain ⟨q1, q2⟩ := PktStep.last (σ0 := abs c.ctxs) r9 hf hl r6 r7 hsrc (hsame r8 hne)
        have q3 := Reasm.without hks r8 hne hopn (hlogks (hpo.log r2))
        rw [← q2] at q3
        have q4 : Reasm (loose mx) eid (abs c.ctxs) (rxTrace (⟨.recv 0 bs, e1, rc⟩ :: log)) (abs c'.ctxs) := by
          rw [hcons]; exact ⟨_, q1, q3⟩
        refine ⟨c', s', e1, rc, log, _, r1, hpo.after r2, by rw [hfil]; exact Reacts.one r2, r3, r4, ?_, q4⟩
        refine reasm_open q4 hopn ?_
        rw [hcons]
        intro x hx g hg g1 g2
        rcases List.mem_cons.mp hx with rfl | hx
        · exact (hus g hg (Frag.not_single g2)).2 g1
        · exact hlogks (hpo.log r2) x hx g hg g1 g2
  · have hop' : ∀ i bs, op ≠ .recv i bs := fun i bs h => hr ⟨i, bs, h⟩
    have hn := IsTxEvent.noCall (step_frame hop' h1).1
    have hst' : abs c1.ctxs = abs c.ctxs := by
      cases op with
      | recv i bs => exact absurd rfl (hop' i bs)
      | _ => exact hst.1
    refine ⟨c1, s, e1, rc, [], _, ?_, hJ, ?_, hI1, hfit1, by rw [hst']; exact hopn, ?_⟩
    · rw [stepH_quiet hI.ep.noBridge s h1 hn]; simp [events]
    · rw [hn.filter]; exact ⟨rfl, rfl⟩
    · have : rxTrace [(⟨op, e1, rc⟩ : Rec β)] = [] := by
        cases op with
        | recv i bs => exact absurd rfl (hop' i bs)
        | _ => rfl
      rw [this]
      exact hst'

theorem runH_polls {ops : Ops β} {K : Contract ops} {app : App β S} {eid : Byte} {mx size : Nat} (hmx : mx < 2 ^ 64) {ks : List Key}
    (hks : ks.length ≤ 16) {J : S → Prop} (happ : Polls size ks J app) {base : List Nat} {hist : List (Op β)} : ∀ {evs : List Event} {c : Core β} {s : S},
    J s → RefInv K eid mx (fun a => a ≤ mx) base evs c → Fits size c → (∀ k, abs c.ctxs k ≠ none → k ∈ ks) →
    HistOkH K app c s hist → (∀ op ∈ hist, Usual ks op) →
    ∃ c' s' log flat evs', c.runH ops app s hist = .ok (c', s', log) ∧ Flat app s hist flat s' ∧ events flat = events log ∧
      RefInv K eid mx (fun a => a ≤ mx) base evs' c' ∧ Reasm (loose mx) eid (abs c.ctxs) (rxTrace flat) (abs c'.ctxs) := by
  induction hist with
  | nil => intro evs c s _ hI _ _ _ _; exact ⟨c, s, [], [], evs, rfl, ⟨rfl, rfl⟩, rfl, hI, rfl⟩
  | cons op rest ih =>
    intro evs c s hJ hI hfit hopn hok hus
    obtain ⟨c1, s1, e, rc, l1, evs1, a1, aJ, a2, a3, a4, a5, a6⟩ := stepH_polls hmx hks happ hJ hI hfit hopn hok.1 (hus op (by simp))
    obtain ⟨c2, s2, log, flat, evs2, b1, b2, b3, b4, b5⟩ := ih aJ a3 a4 a5 (hok.2 _ _ _ _ a1) fun o ho => hus o (by simp [ho])
    refine ⟨c2, s2, ⟨op, e ++ events l1, rc⟩ :: log, ⟨op, e, rc⟩ :: (l1 ++ flat), evs2, ?_, ⟨e, rc, l1, flat, s1, rfl, a2, b2⟩, ?_, b4, ?_⟩
    · simp only [Core.runH, a1, b1, Res.bind_ok]
    · rw [show (⟨op, e, rc⟩ :: (l1 ++ flat) : List (Rec β)) = (⟨op, e, rc⟩ :: l1) ++ flat from rfl]
      simp [events] at b3 ⊢
      exact b3
    · rw [show (⟨op, e, rc⟩ :: (l1 ++ flat) : List (Rec β)) = (⟨op, e, rc⟩ :: l1) ++ flat from rfl, rxTrace_append]
      exact Reasm.append a6 b5

/-- **C84** (partial) An endpoint whose application receives packets from inside its callbacks, in any history: as long as the
packets it receives while it handles a message are not part of another message of several packets of the same stream (`Polls`), and
messages of several packets come on at most 16 streams (`ks`), there is no memory fault and no failed assertion, `mctp_destroy`
releases everything, and everything delivered, in callbacks and outside, is what the ideal reassembler delivers when it is given the
packets one after the other: each packet of the history, followed by those received in its callback (`flat`).
Missing: packets of the stream of the message being handled (false: `C84_use_after_free`, `C84_message_lost`); callbacks that act again
for the messages received inside a callback. -/
theorem C84_whole_history_partial {ops : Ops β} (K : Contract ops) {eid : Byte} {mx size : Nat} {mem : Mem} {c0 : Core β}
    (hc : Configured ops eid mx mem c0) (hcl : Clean mem) (hsz : SizesOk K c0) (hmx : mx < 2 ^ 64) (hfit : Fits size c0) {ks : List Key}
    (hks : ks.length ≤ 16) {app : App β S} {J : S → Prop} (happ : Polls size ks J app) {s0 : S} (hJ : J s0) {hist : List (Op β)} (hok : HistOkH K app c0 s0 hist)
    (hus : ∀ op ∈ hist, Usual ks op) :
    ∃ c s log flat, c0.runH ops app s0 hist = .ok (c, s, log) ∧ Flat app s0 hist flat s ∧ events flat = events log ∧
      (∃ σ, Reasm (loose mx) eid State.empty (rxTrace flat) σ) ∧ ∃ m, c.destroy = .ok m ∧ ∀ id, m.live.count id = mem.live.count id := by
  have h0 : abs c0.ctxs = State.empty := by rw [hc.flags.2.2, abs_init]
  obtain ⟨c, s, log, flat, evs, a1, a2, a3, a4, a5⟩ := runH_polls hmx hks happ hJ (hc.refInv hcl hsz (Pol.loose hmx)) hfit
    (by rw [h0]; intro k h; exact absurd rfl h) hok hus
  obtain ⟨m, d1, d2⟩ := destroy_total a4.mem
  rw [h0] at a5
  exact ⟨c, s, log, flat, a1, a2, a3, ⟨_, a5⟩, m, d1, d2.cnt⟩

/-- An application that, in the callback for each message that source 9 sends it, receives the next two packets and sends an answer in
between. -/
def Demo.taker : App Unit (List (List Byte)) := fun s ev =>
  match s, ev with
  | a :: b :: rest, .rxMsg 9 _ tag msg => .call (.recv 0 a) fun _ => .call (.send 9 false tag msg) fun _ => .call (.recv 0 b) fun _ => .done rest
  | s, _ => .done s

/-- Packets that are not of messages of several packets from source 9. -/
def Demo.Foreign (s : List (List Byte)) : Prop :=
  ∀ p ∈ s, p.length ≤ 68 ∧ ∀ f, parse p = some f → f.single = false → f.key.src ≠ 9 ∧ (f.som = true → f.key ∈ [⟨9, 8, 2⟩, ⟨7, 8, 1⟩])

theorem Demo.taker_polls : Polls 68 [⟨9, 8, 2⟩, ⟨7, 8, 1⟩] Demo.Foreign Demo.taker := by
  intro s ev hJ hcb
  unfold Demo.taker
  split
  · rename_i a b rest o tag msg
    have key : ∀ p ∈ a :: b :: rest, PollOp 68 (OfMessage (.rxMsg 9 o tag msg)) [⟨9, 8, 2⟩, ⟨7, 8, 1⟩] (.recv 0 p : Op Unit) := by
      intro p hp
      obtain ⟨h1, h2⟩ := hJ p hp
      exact ⟨rfl, h1, fun f hf hs => ⟨fun h => (h2 f hf hs).1 h.1, (h2 f hf hs).2⟩⟩
    exact ⟨key a (by simp), fun _ => ⟨trivial, fun _ => ⟨key b (by simp), fun _ => fun p hp => hJ p (by simp [hp])⟩⟩⟩
  · exact hJ

/-- Decides `HistOkH` for the bindings of `Demo.K`. -/
def Demo.callsOkB (app : App Unit S) : Core Unit → S → List (Op Unit) → Bool
  | _, _, [] => true
  | c, s, op :: rest => Demo.opOkB c op && (match c.stepH Demo.ops app s op with
    | .ok (c', s', _, _) => callsOkB app c' s' rest
    | .error _ => true)

theorem Demo.callsOk {app : App Unit S} : ∀ {hist : List (Op Unit)} {c : Core Unit} {s : S},
    Demo.callsOkB app c s hist = true → HistOkH Demo.K app c s hist := by
  intro hist
  induction hist with
  | nil => intros; trivial
  | cons op rest ih =>
    intro c s h
    unfold Demo.callsOkB at h
    rw [Bool.and_eq_true] at h
    refine ⟨Demo.opOk h.1, fun c' s' e rc hs => ?_⟩
    have h2 := h.2
    rw [hs] at h2
    exact ih h2

/-- A history for C84: a message of two packets and one of one packet, in the callbacks for which the two packets of another
message, a packet for another endpoint and a message of one packet are received. -/
def Demo.takes : List (Op Unit) :=
  [.recv 0 (Demo.pkt 9 8 0x8a [1]), .recv 0 (Demo.pkt 9 8 0x5a [2]), .enable 0 true, .recv 0 (Demo.pkt 9 8 0xc9 [3])]

/-- The packets received in the callbacks. -/
def Demo.taken : List (List Byte) :=
  [Demo.pkt 7 8 0x89 [4], Demo.pkt 7 8 0x59 [5], Demo.pkt 7 5 0x40 [6], Demo.pkt 9 8 0xca [7]]

/-- `parse` decides. -/
theorem Demo.usual_iff {P : Frag → Prop} [DecidablePred P] {p : List Byte} (h : (match parse p with | some f => decide (P f) | none => true) = true) :
    ∀ f, parse p = some f → P f := by
  intro f hf
  rw [hf] at h
  simpa using h

example : Polls 68 [⟨9, 8, 2⟩, ⟨7, 8, 1⟩] Demo.Foreign Demo.taker ∧ Demo.Foreign Demo.taken ∧ Fits 68 Demo.core ∧
    HistOkH Demo.K Demo.taker Demo.core Demo.taken Demo.takes ∧ (∀ op ∈ Demo.takes, Usual [⟨9, 8, 2⟩, ⟨7, 8, 1⟩] op) ∧
    (match Demo.core.runH Demo.ops Demo.taker Demo.taken Demo.takes with
     | .ok (_, s, log) => (s, deliveries (events log))
     | .error _ => ([], [])) = ([], [(9, [1, 2]), (7, [4, 5]), (9, [3]), (9, [7])]) := by
  refine ⟨Demo.taker_polls, ?_, ⟨_, rfl, by decide⟩, Demo.callsOk (by decide +kernel), ?_, by decide +kernel⟩
  · intro p hp
    refine ⟨?_, Demo.usual_iff (P := fun f => f.single = false → f.key.src ≠ 9 ∧ (f.som = true → f.key ∈ _)) ?_⟩ <;>
      · revert hp
        revert p
        decide +kernel
  · intro op hop
    simp only [Demo.takes, List.mem_cons, List.mem_nil_iff, or_false] at hop
    rcases hop with rfl | rfl | rfl | rfl <;> first | trivial |
      exact Demo.usual_iff (P := fun f => f.single = false → f.src ≠ 0 ∧ (f.som = true → f.key ∈ _)) (by decide +kernel)

end Mctp
