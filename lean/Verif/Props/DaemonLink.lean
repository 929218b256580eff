import Verif.Props.DaemonTrace
import Verif.Props.LinkLive
import Verif.Props.LinkDemo
import Verif.Props.LinkCapture
import Verif.Props.Util

/-!
# The daemon of a BMC and the application of the host (C104)
-/

namespace Mctp

open Spec

variable {W V E : Type}

/-- `binding_astlpc_process` of the daemon (utils/mctp-demux-daemon.c:250-253): what the devices answer is in the state of the binding. -/
abbrev astProc (hw : Hw E) : Unit → Core (AstSt E) → Res (Core (AstSt E) × List Event × Int) := fun _ c => c.astPoll hw 0

/-- The channel has been set up: messages can be sent. -/
def Begun (c : Core (AstSt E)) : Prop := ∀ bus ∈ c.busses, bus.state ≠ .constructed

theorem begun_single {c : Core (AstSt E)} {bus : Bus (AstSt E)} (hb : c.busses = [bus]) : Begun c ↔ bus.state ≠ .constructed := by
  unfold Begun; rw [hb]; simp

theorem begun_keeps {β : Type} (ops : Ops β) : Keeps ops (fun _ b => b.state ≠ .constructed) where
  tx := by
    intro os bus p rest out h h1 h2 h3
    unfold afterTx
    simp only
    split <;> simp
  push := fun h _ _ => h
  off := fun _ _ => by simp

theorem Chunk.begun {hw : Hw E} {c c' : Core (AstSt E)} {e : List Event} (h : Chunk hw c e c') :
    ∀ {bus : Bus (AstSt E)}, c.busses = [bus] → c.bridge = false → Begun c → Begun c' := by
  induction h with
  | @quiet c bus0 b m hb hk hm =>
    intro bus hb' _ hg
    rw [begun_single hb] at hg
    intro x hx
    rw [List.mem_singleton.mp hx]
    exact hg
  | enable he =>
    intro bus hb _ hg
    obtain ⟨bus', m, rfl, hJ⟩ := setTxEnabled_keeps (begun_keeps _) hb (os := []) ((begun_single hb).mp hg) (fun _ => by simp) he
    exact (begun_single rfl).mpr hJ
  | rx hp hx =>
    intro bus hb hbr hg
    obtain ⟨h1, -⟩ := busRx_single hb hbr hp hx
    rw [begun_single hb] at hg
    exact (begun_single (h1.trans hb)).mpr hg
  | trans x1 x2 ih1 ih2 =>
    intro bus hb hbr hg
    obtain ⟨hbr1, -, -, -, b1, hb1, -⟩ := x1.single hb hbr
    exact ih2 hb1 hbr1 (ih1 hb hbr hg)

/-- A message is accepted exactly if the channel has been set up, and that does not change. -/
theorem messageTx_begun {hw : Hw E} {c c' : Core (AstSt E)} {bus : Bus (AstSt E)} {d : Byte} {msg : List Byte} {e : List Event} {rc : Int}
    (hb : c.busses = [bus]) (hn : c.nBusses ≠ 0) (h : c.messageTx (astOps hw) d true 0 msg = .ok (c', e, rc)) :
    (rc = 0 ↔ Begun c) ∧ (Begun c' ↔ Begun c) ∧ c'.nBusses ≠ 0 := by
  have hJ : Begun c → Begun c' := by
    intro hg
    obtain ⟨bus', m, hx, hc, mx, rfl, k, -⟩ := step_keeps (begun_keeps _) hb (os := []) ((begun_single hb).mp hg) (op := .send d true 0 msg) trivial h
    exact (begun_single rfl).mpr k
  have hnb : c'.nBusses ≠ 0 := by
    obtain ⟨bus', m, hx, hc, mx, rfl, k, -⟩ := step_keeps (any_keeps _) hb (os := []) trivial (op := .send d true 0 msg) trivial h
    exact hn
  refine ⟨?_, ⟨fun hg => ?_, hJ⟩, hnb⟩
  all_goals
    unfold Core.messageTx at h
    rw [if_neg (by decide), if_neg hn] at h
    obtain ⟨b1, hb1, h⟩ := Res.bind_eq_ok.mp h
    obtain ⟨-, rfl⟩ := busAt_single hb hb1
    unfold Core.messageTxOnBus at h
    obtain ⟨b2, hb2, h⟩ := Res.bind_eq_ok.mp h
    obtain ⟨-, rfl⟩ := busAt_single hb hb2
    split at h
  · rename_i hs
    simp only [Except.ok.injEq, Prod.mk.injEq] at h
    rw [begun_single hb, ← h.2.2]
    simp [hs, ENXIO]
  · rename_i hs
    rw [if_neg (by decide)] at h
    simp only at h
    split at h
    · cases h
    · obtain ⟨⟨m, q⟩, -, h⟩ := Res.bind_eq_ok.mp h
      obtain ⟨⟨c1, e1⟩, -, h⟩ := Res.bind_eq_ok.mp h
      simp only [Except.ok.injEq, Prod.mk.injEq] at h
      rw [begun_single hb, ← h.2.2]
      simp [hs]
  · simp only [Except.ok.injEq, Prod.mk.injEq] at h
    rw [h.1]; exact hg
  · rename_i hs
    exact (begun_single hb).mpr hs

/-- The messages of clients, as the core sends them. -/
def clientMsgsFor (mtu : Nat) (ms : List (Byte × List Byte)) : List Msg := ms.map fun p => ⟨p.1, true, 0, mtu, p.2⟩

theorem clientMsgsFor_append (mtu : Nat) (a b : List (Byte × List Byte)) : clientMsgsFor mtu (a ++ b) = clientMsgsFor mtu a ++ clientMsgsFor mtu b := by
  simp [clientMsgsFor]

/-- The daemon's core as an endpoint: the first `k` messages of the clients were refused. -/
structure BInv (hw : Hw E) (le : Int) (c0 : Core (AstSt E)) (cap : Bool) (k : Nat) (d : Daemon W (AstSt E)) : Prop where
  base : NInv le d
  nb   : d.core.nBusses ≠ 0
  hist : ∃ hist log, c0.astRun hw (.setCapture cap :: hist) = .ok (d.core, log) ∧ (KeepsRx hist ∧ KeepsCapture cap hist) ∧ astEvents log = d.evs ∧
    ∀ mtu, acceptedBy mtu log = clientMsgsFor mtu ((clientSends le d.log).drop k)
  few  : k ≤ (clientSends le d.log).length
  down : ¬ Begun d.core → k = (clientSends le d.log).length

theorem astRun_snoc {hw : Hw E} {c0 c c' : Core (AstSt E)} {hist : List AstOp} {log : List AstRec} {op : AstOp} {e : List Event} {rc : Int}
    (h : c0.astRun hw hist = .ok (c, log)) (hs : c.astStep hw op = .ok (c', e, rc)) :
    c0.astRun hw (hist ++ [op]) = .ok (c', log ++ [⟨op, e, rc⟩]) := by
  induction hist generalizing c0 log with
  | nil =>
    simp only [Core.astRun, Except.ok.injEq, Prod.mk.injEq] at h
    obtain ⟨rfl, rfl⟩ := h
    simp [Core.astRun, hs, Res.bind_ok]
  | cons o rest ih =>
    simp only [Core.astRun] at h
    obtain ⟨⟨c1, e1, rc1⟩, h1, h⟩ := Res.bind_eq_ok.mp h
    obtain ⟨⟨c2, l2⟩, h2, h⟩ := Res.bind_eq_ok.mp h
    simp only [Except.ok.injEq, Prod.mk.injEq] at h
    obtain ⟨rfl, rfl⟩ := h
    simp only [List.cons_append, Core.astRun, h1, Res.bind_ok, ih h2]

theorem astEvents_cat (a b : List AstRec) : astEvents (a ++ b) = astEvents a ++ astEvents b := by simp [astEvents]

theorem BInv.move {hw : Hw E} {env : E} {eid : Byte} {mx mtu : Nat} {mode : AstMode} {mem : Mem} {c0 : Core (AstSt E)} {cap : Bool}
    (hep : AstEndpoint hw env eid mx mode mtu mem c0) {le : Int} {net : Net W} {k : Nat} {d d' : Daemon W (AstSt E)} {x : Option Unit}
    (h : BInv hw le c0 cap k d) (hm : Move net (astOps hw) (astProc hw) d x d') :
    ∃ k', BInv hw le c0 cap k' d' ∧ k ≤ k' ∧ (Begun d.core → k' = k ∧ Begun d'.core) := by
  have hb := h.base.move hm
  obtain ⟨hist, log, h1, h2, h3, h4⟩ := h.hist
  obtain ⟨bus, hbus, hbr, hj⟩ := hep.reached h1
  have keep : ∀ {l : List SockEv}, d'.log = d.log ++ l → l.filterMap (clientSend le) = [] → d'.core = d.core → d'.evs = d.evs →
      ∃ k', BInv hw le c0 cap k' d' ∧ k ≤ k' ∧ (Begun d.core → k' = k ∧ Begun d'.core) := by
    intro l hl hn hk he
    have hs : clientSends le d'.log = clientSends le d.log := by rw [hl, clientSends, List.filterMap_append, hn, List.append_nil]; rfl
    exact ⟨k, ⟨hb, by rw [hk]; exact h.nb, ⟨hist, log, by rw [hk]; exact h1, h2, by rw [he]; exact h3, by rw [hs]; exact h4⟩, by rw [hs]; exact h.few,
      by rw [hs, hk]; exact h.down⟩, Nat.le_refl _, fun hg => ⟨rfl, by rw [hk]; exact hg⟩⟩
  have none_of : ∀ {l : List SockEv}, (∀ e ∈ l, clientSend le e = none) → l.filterMap (clientSend le) = [] := fun h => List.filterMap_eq_nil_iff.mpr h
  cases hm with
  | quiet hl hq _ hk he _ =>
    refine keep hl (none_of fun e he => ?_) hk he
    have := hq e he
    cases e with
    | received fd rc bs => have hbs : bs = [] := this; subst hbs; rfl
    | _ => rfl
  | mark _ => exact keep (l := []) (by simp [Daemon.setClient]) rfl rfl rfl
  | prune =>
    refine keep rfl (none_of fun e he => ?_) rfl rfl
    obtain ⟨f, -, rfl⟩ := List.mem_map.mp he
    rfl
  | register _ _ _ _ hl _ hk he _ => exact keep hl rfl hk he
  | accept _ hl _ hk he _ => exact keep hl rfl hk he
  | @home d0 fd rc eid payload heid hl _ hk he _ =>
    obtain ⟨l, k1, k2⟩ := rxMessage_log net d0 eid payload
    obtain ⟨b1, b2, -⟩ := rxMessage_same net d0 eid payload
    refine keep (l := [.received fd rc (eid :: payload)] ++ .arrived eid payload :: l) (by rw [k1, hl, List.append_assoc]) (none_of fun e he => ?_)
      (b1.trans hk) (b2.trans he)
    rw [h.base.eid] at heid
    rcases List.mem_append.mp he with he | he
    · rw [List.mem_singleton.mp he]
      simp [clientSend, heid]
    · rcases List.mem_cons.mp he with rfl | he
      · rfl
      · have := k2 e he
        cases e <;> first | rfl | exact absurd this id
  | @send d'' fd rc rc' dest payload e heid hl _ hk he _ =>
    rw [h.base.eid] at heid
    obtain ⟨g1, g2, g3⟩ := messageTx_begun hbus h.nb hk
    have hs : clientSends le d'.log = clientSends le d.log ++ [(dest, payload)] := by
      rw [hl, clientSends, List.filterMap_append]; simp [clientSends, clientSend, heid]
    have hrun := astRun_snoc h1 (op := .send dest true 0 payload) hk
    have hkeep : KeepsRx (hist ++ [.send dest true 0 payload]) ∧ KeepsCapture cap (hist ++ [.send dest true 0 payload]) := by
      refine ⟨fun op ho => ?_, fun op ho => ?_⟩
      all_goals rcases List.mem_append.mp ho with ho | ho
      · exact h2.1 op ho
      · rw [List.mem_singleton.mp ho]; simp
      · exact h2.2 op ho
      · rw [List.mem_singleton.mp ho]; simp
    have hev : astEvents (log ++ [⟨.send dest true 0 payload, e, rc'⟩]) = d'.evs := by
      rw [astEvents_cat, h3, he]; simp [astEvents]
    by_cases hg : Begun d.core
    · refine ⟨k, ⟨hb, g3, ⟨_, _, hrun, hkeep, hev, fun m => ?_⟩, by rw [hs, List.length_append]; have := h.few; omega,
        fun hx => absurd (g2.mpr hg) hx⟩, Nat.le_refl _, fun _ => ⟨rfl, g2.mpr hg⟩⟩
      rw [acceptedBy_append, h4, hs, List.drop_append_of_le_length h.few, clientMsgsFor_append]
      congr 1
      simp [acceptedBy, g1.mpr hg, clientMsgsFor]
    · have hk' := h.down hg
      refine ⟨k + 1, ⟨hb, g3, ⟨_, _, hrun, hkeep, hev, fun m => ?_⟩, by rw [hs, List.length_append, ← hk']; exact Nat.le_refl _,
        fun _ => by rw [hs, List.length_append, ← hk']; rfl⟩, Nat.le_succ _, fun hx => absurd hx hg⟩
      have hr : rc' ≠ 0 := fun h0 => hg (g1.mp h0)
      rw [acceptedBy_append, h4, hs, List.drop_of_length_le (by omega), List.drop_of_length_le (by rw [List.length_append, ← hk']; exact Nat.le_refl _)]
      simp [acceptedBy, hr, clientMsgsFor]
  | @input y c e rc hx =>
    obtain ⟨-, -, -, c4, c5, -, c7⟩ := deliver_arrives (d := { d with core := c, evs := d.evs ++ e }) net e h.base.last h.base.echo
    have hs : d.core.astStep hw .poll = .ok (c, e, rc) := hx
    have hch := astPoll_chunk hbus hbr hj hx
    have hcs : clientSends le (Daemon.deliver net { d with core := c, evs := d.evs ++ e } e).log = clientSends le d.log := c7
    have hnb : c.nBusses ≠ 0 := by
      obtain ⟨bus0, m, t, rfl, -⟩ := astPoll_frame hbus hbr hj hx
      exact h.nb
    refine ⟨k, ⟨hb, by rw [c4]; exact hnb, ⟨hist ++ [.poll], log ++ [⟨.poll, e, rc⟩], by rw [c4]; exact astRun_snoc h1 hs, ?_, ?_, fun m => ?_⟩,
      by rw [hcs]; exact h.few, fun hg => ?_⟩, Nat.le_refl _, fun hg => ⟨rfl, by rw [c4]; exact hch.begun hbus hbr hg⟩⟩
    · refine ⟨fun op ho => ?_, fun op ho => ?_⟩
      all_goals rcases List.mem_append.mp ho with ho | ho
      · exact h2.1 op ho
      · rw [List.mem_singleton.mp ho]; simp
      · exact h2.2 op ho
      · rw [List.mem_singleton.mp ho]; simp
    · rw [astEvents_cat, h3, c5]; simp [astEvents]
    · rw [acceptedBy_append, h4, hcs]; simp [acceptedBy]
    · rw [hcs]
      refine h.down fun hg' => hg ?_
      rw [c4]; exact hch.begun hbus hbr hg'

theorem BInv.moves {hw : Hw E} {env : E} {eid : Byte} {mx mtu : Nat} {mode : AstMode} {mem : Mem} {c0 : Core (AstSt E)} {cap : Bool}
    (hep : AstEndpoint hw env eid mx mode mtu mem c0) {le : Int} {net : Net W} {k : Nat} {d d' : Daemon W (AstSt E)} {xs : List Unit}
    (hm : Moves net (astOps hw) (astProc hw) d xs d') (h : BInv hw le c0 cap k d) :
    ∃ k', BInv hw le c0 cap k' d' ∧ k ≤ k' ∧ (Begun d.core → k' = k ∧ Begun d'.core) := by
  induction hm with
  | refl => exact ⟨k, h, Nat.le_refl _, fun hg => ⟨rfl, hg⟩⟩
  | tail _ hm2 ih =>
    obtain ⟨k1, i1, il, i2⟩ := ih
    obtain ⟨k2, j1, jl, j2⟩ := i1.move hep hm2
    refine ⟨k2, j1, Nat.le_trans il jl, fun hg => ?_⟩
    obtain ⟨rfl, hg1⟩ := i2 hg
    exact j2 hg1

theorem AstEndpoint.hasRx {hw : Hw E} {env : E} {eid : Byte} {mx mtu : Nat} {mode : AstMode} {mem : Mem} {c0 : Core (AstSt E)}
    (h : AstEndpoint hw env eid mx mode mtu mem c0) : c0.setRxAll true = c0 := by
  obtain ⟨_, _, _, _, _, _, _, _, this, _⟩ := h.start
  unfold Core.setRxAll
  cases c0
  simp only at this ⊢
  rw [this]

theorem AstEndpoint.hasRx' {hw : Hw E} {env : E} {eid : Byte} {mx mtu : Nat} {mode : AstMode} {mem : Mem} {c0 : Core (AstSt E)}
    (h : AstEndpoint hw env eid mx mode mtu mem c0) (cap : Bool) : (c0.setCapture cap).setRxAll true = c0.setCapture cap :=
  congrArg (fun c => Core.setCapture c cap) h.hasRx

theorem BInv.init {hw : Hw E} {env : E} {eid : Byte} {mx mtu : Nat} {mode : AstMode} {mem : Mem} {c0 : Core (AstSt E)}
    (h : AstEndpoint hw env eid mx mode mtu mem c0) (cap : Bool) (w : W) (le : Int) : BInv hw le c0 cap 0 (Daemon.init w (c0.setCapture cap) le) where
  base := NInv.init w (c0.setCapture cap) le
  nb := by
    obtain ⟨_, _, _, _, _, _, hn, _⟩ := h.start
    rw [show (Daemon.init w (c0.setCapture cap) le).core = c0.setCapture cap from h.hasRx' cap, show (c0.setCapture cap).nBusses = c0.nBusses from rfl, hn]; decide
  hist := ⟨[], [⟨.setCapture cap, [], 0⟩], by rw [show (Daemon.init w (c0.setCapture cap) le).core = c0.setCapture cap from h.hasRx' cap]; rfl,
    ⟨by intro op ho; simp at ho, by intro op ho; simp at ho⟩, rfl, fun _ => rfl⟩
  few := Nat.zero_le _
  down := fun _ => rfl

/-! ## C104 -/

section

variable {hwB : Hw E} {envB : E} {eidB : Byte} {mxB mtuB : Nat} {memB : Mem} {b0 : Core (AstSt E)}
    {hwH : Hw V} {envH : V} {eidH : Byte} {mxH mtuH : Nat} {memH : Mem} {h0 cH : Core (AstSt V)} {histH : List AstOp} {logH : List AstRec}
    {wr : Bool} {win : Nat → Byte} {T : List (AstMode × Access)} {h : Lpc}
    {net : Net W} {cap : Bool} {w : W} {rs1 rs2 rs : List (Ready Unit)} {d1 d : Daemon W (AstSt E)}

/-- **C104** A daemon on the BMC, for every behaviour of its clients and its operating system, and an application on the host, for every interleaving of their
accesses to the link.  The messages the host's application gets are the messages the daemon's clients sent to other endpoints, or the first of them, each once, in order, with the EID of the
daemon and unchanged; all of them when the daemon has nothing queued and its `mctp_astlpc_tx_done` is true.  Only the first `k` messages, sent before the channel had ever
been set up, are missing: if it was up at some moment (`d1`), then every message sent after this moment is among those delivered; if it was not, none of those sent before it is. -/
theorem C104_to_host
    (hB : AstEndpoint hwB envB eidB mxB .bmc mtuB memB b0) (r1 : (Daemon.init w (b0.setCapture cap) eidB.toNat).run net (astOps hwB) (astProc hwB) rs1 = .ok d1)
    (r2 : d1.run net (astOps hwB) (astProc hwB) rs2 = .ok d)
    (hH : AstEndpoint hwH envH eidH mxH .host mtuH memH h0) (rH : h0.astRun hwH histH = .ok (cH, logH))
    (hmem : ∀ n, memH.ok n = true) (hl : Linked wr win T h d.core cH)
    (hk : KeepsRx histH) (hsrc : eidB ≠ 0) (hmx1 : 4096 ≤ mxH) (hmx2 : mxH < 2 ^ 64)
    (hms : ∀ p ∈ clientSends eidB.toNat d.log, Local eidH p.1 ∧ 2 * p.2.length ≤ mxH) :
    ∃ k ≤ (clientSends eidB.toNat d.log).length, (Begun d1.core → k ≤ (clientSends eidB.toNat d1.log).length) ∧ (¬ Begun d1.core → (clientSends eidB.toNat d1.log).length ≤ k) ∧
      deliveredTo logH <+: expected eidB (clientMsgsFor mtuH ((clientSends eidB.toNat d.log).drop k)) ∧
      (pending d.core = [] → txDone d.core → deliveredTo logH = expected eidB (clientMsgsFor mtuH ((clientSends eidB.toNat d.log).drop k))) := by
  obtain ⟨xs1, m1, -, -⟩ := run_moves r1
  obtain ⟨xs2, m2, -, -⟩ := run_moves r2
  obtain ⟨k1, i1, -⟩ := (BInv.init hB cap w eidB.toNat).moves hB m1
  obtain ⟨k, i2, hkk, hup⟩ := i1.moves hB m2
  obtain ⟨histB, logB, a1, a2, a3, a4⟩ := i2.hist
  refine ⟨k, i2.few, fun hg => by rw [(hup hg).1]; exact i1.few, fun hg => by rw [← i1.down hg]; exact hkk, ?_⟩
  have := C81_bmc_to_host hB a1 hH rH hmem hl hk hsrc hmx1 hmx2 (by
    rw [a4]
    intro m hm
    obtain ⟨p, hp, rfl⟩ := List.mem_map.mp hm
    exact hms p (List.mem_of_mem_drop hp))
  rw [a4] at this
  exact this

/-- **C104** The other direction: the messages that arrive at the daemon (and that it passes on as described by C101) are those the host's application has sent, or the first of
them, each once, in order, with the host's EID and unchanged; all of them when the host has nothing queued and its `mctp_astlpc_tx_done` is true. -/
theorem C104_from_host
    (hB : AstEndpoint hwB envB eidB mxB .bmc mtuB memB b0) (r1 : (Daemon.init w (b0.setCapture cap) eidB.toNat).run net (astOps hwB) (astProc hwB) rs = .ok d)
    (hH : AstEndpoint hwH envH eidH mxH .host mtuH memH h0) (rH : h0.astRun hwH histH = .ok (cH, logH))
    (hmemB : ∀ n, memB.ok n = true) (hmem : ∀ n, memH.ok n = true) (hl : Linked wr win T h d.core cH)
    (hsrc : eidH ≠ 0) (hmx1 : 4096 ≤ mxB) (hmx2 : mxB < 2 ^ 64)
    (hms : ∀ m ∈ acceptedBy mtuH logH, Local eidB m.dest ∧ 2 * m.data.length ≤ mxB) :
    let want := ((acceptedBy mtuH logH).filter (fun m => m.data ≠ [])).map (fun m => (eidH, m.data))
    netArrivals eidB.toNat d.log <+: want ∧ (pending cH = [] → txDone cH → netArrivals eidB.toNat d.log = want) := by
  intro want
  obtain ⟨xs, m, -, -⟩ := run_moves r1
  obtain ⟨k, i, -⟩ := (BInv.init hB cap w eidB.toNat).moves hB m
  obtain ⟨histB, logB, a1, a2, a3, a4⟩ := i.hist
  obtain ⟨q1, q2⟩ := C81_host_to_bmc hB a1 hH rH hmemB hmem hl (fun op ho => by
    rcases List.mem_cons.mp ho with rfl | ho
    · simp
    · exact a2.1 op ho) hsrc hmx1 hmx2 hms
  have hgot : (astEvents logB).filterMap handed = (deliveredTo logB).filterMap handed := by
    unfold deliveredTo
    generalize astEvents logB = evs
    induction evs with
    | nil => rfl
    | cons ev evs ih =>
      cases ev with
      | rxMsg src own tag msg => exact congrArg (List.cons (src, msg)) ih
      | _ => exact ih
  have hwant : (expected eidH (acceptedBy mtuH logH)).filterMap handed = want := by
    show (List.map _ _).filterMap handed = List.map _ _
    rw [List.filterMap_map]
    exact List.filterMap_eq_map ▸ rfl
  have harr : netArrivals eidB.toNat d.log = (deliveredTo logB).filterMap handed := by rw [← hgot, a3]; exact i.base.arr
  rw [harr, ← hwant]
  exact ⟨q1.filterMap _, fun hp hd => by rw [q2 hp hd]⟩

/-! ## C109: the capture of the daemon's binding -/

/-- **C109** The daemon on the BMC with `--capture-binding`.  Its file has a record for each captured packet; those captured as outgoing are the packets of its clients' messages
to other endpoints (from the moment the channel was up, as in C104), in order and each once, up to the ones still queued, and they are the packets the host has got, except for at most one on its way;
those captured as incoming are the packets of the messages the host's application has sent, except for at most one on its way and the ones still queued. -/
theorem C109_daemon
    (hB : AstEndpoint hwB envB eidB mxB .bmc mtuB memB b0) (r1 : (Daemon.init w (b0.setCapture true) eidB.toNat).run net (astOps hwB) (astProc hwB) rs1 = .ok d1)
    (r2 : d1.run net (astOps hwB) (astProc hwB) rs2 = .ok d)
    (hH : AstEndpoint hwH envH eidH mxH .host mtuH memH h0) (rH : h0.astRun hwH histH = .ok (cH, logH))
    (hmem : ∀ n, memH.ok n = true) (hl : Linked wr win T h d.core cH) (junk : Nat → Byte) {fmem : Mem} (hfm : ∀ n, fmem.ok n = true) :
    (∃ fmem', captureFile true junk fmem d.evs = .ok ((capturedPackets d.evs).map fun p => packetRecord p.1 p.2, fmem')) ∧
    (∃ k ≤ (clientSends eidB.toNat d.log).length, (Begun d1.core → k ≤ (clientSends eidB.toNat d1.log).length) ∧ (¬ Begun d1.core → (clientSends eidB.toNat d1.log).length ≤ k) ∧
      (clientMsgsFor mtuH ((clientSends eidB.toNat d.log).drop k)).flatMap (Msg.packets 1 eidB) = outgoingOf (capturedPackets d.evs) ++ pending d.core) ∧
    (∃ last, outgoingOf (capturedPackets d.evs) = gotBy logH ++ last ∧ last.length ≤ 1 ∧ (txDone d.core → last = [])) ∧
    (∃ last, (acceptedBy mtuH logH).flatMap (Msg.packets 1 eidH) = incomingOf (capturedPackets d.evs) ++ last ++ pending cH ∧ last.length ≤ 1 ∧ (txDone cH → last = [])) := by
  obtain ⟨m', hfile, -⟩ := C70_capture_file junk d.evs hfm
  refine ⟨⟨m', hfile⟩, ?_⟩
  obtain ⟨xs1, m1, -, -⟩ := run_moves r1
  obtain ⟨xs2, m2, -, -⟩ := run_moves r2
  obtain ⟨k1, i1, -⟩ := (BInv.init hB true w eidB.toNat).moves hB m1
  obtain ⟨k, i2, hkk, hup⟩ := i1.moves hB m2
  obtain ⟨histB, logB, a1, a2, a3, a4⟩ := i2.hist
  obtain ⟨b1, b2⟩ := captured_bmc hB a1 a2.2 hH rH hmem hl
  obtain ⟨n1, n2⟩ := C81_nothing_dropped hB a1 hH rH hmem hl
  obtain ⟨e1, ⟨last, e2, e3, e4⟩⟩ := C55_exactly_once hB a1 hH rH hmem hl
  rw [a4, ← b1] at n1
  rw [e2, ← b2] at n2
  rw [← b1] at e1
  simp only [capturedOut, capturedIn, a3] at n1 n2 e1
  exact ⟨⟨k, i2.few, fun hg => by rw [(hup hg).1]; exact i1.few, fun hg => by rw [← i1.down hg]; exact hkk, n1⟩, e1, last, n2, e3, e4⟩

/-- **C109** Without `--capture-binding`, nothing is captured. -/
theorem C109_daemon_off
    (hB : AstEndpoint hwB envB eidB mxB .bmc mtuB memB b0) (r1 : (Daemon.init w (b0.setCapture false) eidB.toNat).run net (astOps hwB) (astProc hwB) rs = .ok d) :
    capturedPackets d.evs = [] := by
  obtain ⟨xs1, m1, -, -⟩ := run_moves r1
  obtain ⟨k, i, -⟩ := (BInv.init hB false w eidB.toNat).moves hB m1
  obtain ⟨histB, logB, a1, a2, a3, a4⟩ := i.hist
  have := (hB.captured a2.2 a1).1.none
  rw [a3] at this
  exact this

end

/-! ## The hypotheses are met -/

namespace DaemonLinkDemo

open AstDemo LinkDemo

/-- From the host to the BMC: message 05 01 02. -/
def pktH : List Byte := [0x01, 0x08, 0x09, 0xc9, 0x05, 0x01, 0x02]
/-- From a client of the daemon to the host: message 05 07. -/
def pktB : List Byte := [0x01, 0x09, 0x08, 0xc8, 0x05, 0x07]

/-- The accesses of both sides: those of `LinkDemo.T`, with other packets. -/
def T : List (AstMode × Access) := LinkDemo.T.map fun x => match x with
  | (m, .lpcWrite 336 _ rc) => (m, .lpcWrite 336 (pktH ++ [0x20, 0xc3, 0x07, 0xdc]) rc)
  | (m, .lpcRead 336 _ rc) => (m, .lpcRead 336 (pktH ++ [0x20, 0xc3, 0x07, 0xdc]) rc)
  | (m, .lpcWrite 260 _ rc) => (m, .lpcWrite 260 (pktB ++ [0xce, 0x95, 0x9e, 0x86]) rc)
  | (m, .lpcRead 260 _ rc) => (m, .lpcRead 260 (pktB ++ [0xce, 0x95, 0x9e, 0x86]) rc)
  | x => x

def histH : List AstOp := [.poll, .send 8 true 1 [5, 1, 2], .poll, .poll]
def logH : List AstRec :=
  [⟨.poll, [], 0⟩, ⟨.send 8 true 1 [5, 1, 2], [.tx 0 pktH 0 true], 0⟩,
   ⟨.poll, [.recv 0 pktB, .rxMsg 8 true 0 [5, 7]], 0⟩, ⟨.poll, [], 0⟩]

set_option synthInstance.maxSize 512 in
theorem host_run : run .host 64 9 (of .host T) histH = some (logH, of .host T, [(true, some 3, 68)]) := by decide +kernel
theorem run_lpc : ((Lpc.run false (Lpc.reset fun _ => 0) T).isSome) = true := by decide +kernel

/-- A client connects and, while the channel is set up, registers for type 5. -/
def rs1 : List (Ready Unit) := [⟨none, fun _ => false, true⟩, ⟨some (), fun _ => true, false⟩]
/-- It sends a message to the host; the BMC polls twice. -/
def rs2 : List (Ready Unit) := [⟨none, fun _ => true, false⟩, ⟨some (), fun _ => false, false⟩, ⟨some (), fun _ => false, false⟩]

def script : DaemonDemo.Script := { accepts := [10], reads := [(1, 5)], peeks := [3], recvs := [[9, 5, 7]], sends := [4] }

/-- The daemon's process, up to the end of `rs1` and to the end of `rs2`. -/
def daemon : Res (Core (AstSt (List Access)) × Int × Daemon DaemonDemo.Script (AstSt (List Access)) × Daemon DaemonDemo.Script (AstSt (List Access))) := do
  let (c, rc) ← register .bmc 64 8 (of .bmc T)
  let d1 ← (Daemon.init script (c.setCapture true) 8).run DaemonDemo.net (astOps replay) (astProc replay) rs1
  let d ← d1.run DaemonDemo.net (astOps replay) (astProc replay) rs2
  .ok (c, rc, d1, d)

set_option synthInstance.maxSize 2000 in
set_option synthInstance.maxHeartbeats 200000 in
theorem daemon_run : (DaemonDemo.opt daemon).map (fun x => ((x.2.1, x.2.2.1.core.busses.map (·.state), clientSends 8 x.2.2.1.log),
      (accessesOf x.2.2.2.core, pending x.2.2.2.core, x.2.2.2.core.busses.map fun b => astTxDone b.binding.st),
      (clientSends 8 x.2.2.2.log, netArrivals 8 x.2.2.2.log, sendsIn x.2.2.2.log, capturedPackets x.2.2.2.evs))) =
    some ((0, [.txEnabled], []), (of .bmc T, [], [true]), ([(9, [5, 7])], [(9, [5, 1, 2])], [(10, [9, 5, 1, 2])], [(true, pktB), (false, pktH)])) := by decide +kernel

end DaemonLinkDemo

open DaemonLinkDemo in
/-- A client of the daemon sends a message to the host, and gets one from the host; both are in the capture. -/
example : ∃ b0 d1 d h0 cH h, AstEndpoint LinkDemo.replay (of .bmc T) 8 65536 .bmc 64 {} b0 ∧
    (Daemon.init script (b0.setCapture true) 8).run DaemonDemo.net (astOps LinkDemo.replay) (astProc LinkDemo.replay) rs1 = .ok d1 ∧
    d1.run DaemonDemo.net (astOps LinkDemo.replay) (astProc LinkDemo.replay) rs2 = .ok d ∧ Begun d1.core ∧
    AstEndpoint LinkDemo.replay (of .host T) 9 65536 .host 64 {} h0 ∧ h0.astRun LinkDemo.replay histH = .ok (cH, logH) ∧
    Linked false (fun _ => 0) T h d.core cH ∧ KeepsRx histH ∧ clientSends 8 d.log = [(9, [5, 7])] ∧ pending d.core = [] ∧ txDone d.core ∧
    deliveredTo logH = expected 8 (clientMsgsFor 64 [(9, [5, 7])]) ∧ netArrivals 8 d.log = [(9, [5, 1, 2])] ∧ sendsIn d.log = [(10, [9, 5, 1, 2])] ∧
    capturedPackets d.evs = [(true, pktB), (false, pktH)] := by
  obtain ⟨⟨b0, rc, d1, d⟩, hd, he⟩ := DaemonDemo.opt_ok daemon_run
  simp only [Prod.mk.injEq] at he
  obtain ⟨⟨e1, e2, e3⟩, ⟨e4, e8, e9⟩, e5, e6, e7, e10⟩ := he
  obtain ⟨⟨c, rc'⟩, hreg, hd⟩ := Res.bind_eq_ok.mp hd
  obtain ⟨d1', hr1, hd⟩ := Res.bind_eq_ok.mp hd
  obtain ⟨d', hr2, hd⟩ := Res.bind_eq_ok.mp hd
  simp only [Except.ok.injEq, Prod.mk.injEq] at hd
  obtain ⟨rfl, rfl, rfl, rfl⟩ := hd
  obtain ⟨h0, cH, f1, f2, f3, f4⟩ := LinkDemo.run_ok (by decide) host_run
  obtain ⟨h, hh⟩ := Option.isSome_iff_exists.mp run_lpc
  refine ⟨c, d1', d', h0, cH, h, ⟨fun _ => 0xaa, _, rc', by decide, rfl, hreg, by rw [e1]⟩, hr1, hr2, ?_, f1, f2, ⟨e4.symm, f3.symm, hh⟩, ?_, e5, e8, ?_,
    rfl, e6, e7, e10⟩
  · intro bus hb
    have : bus.state ∈ d1'.core.busses.map (·.state) := List.mem_map.mpr ⟨bus, hb, rfl⟩
    rw [e2] at this
    simp at this
    rw [this]; simp
  · intro op ho
    simp only [histH, List.mem_cons, List.not_mem_nil, or_false] at ho
    rcases ho with rfl | rfl | rfl | rfl <;> simp
  · intro bus hb
    have : astTxDone bus.binding.st ∈ d'.core.busses.map fun b => astTxDone b.binding.st := List.mem_map.mpr ⟨bus, hb, rfl⟩
    rw [e9] at this
    simpa using this

end Mctp
