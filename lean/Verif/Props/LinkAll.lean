import Verif.Proofs.AstMsgAll
import Verif.Props.DaemonPath

/-!
# The astlpc link, every message (C81, C93, C104, C111)

No condition on the messages: some may go to other endpoints, some may be longer than the receiver's limit.
-/

namespace Mctp

open Spec

variable {EB EH E V W : Type}

/-- What the application of the other side should see of messages: those that have content, go to its EID (or the null or broadcast EID) and are not longer than
its limit; for each of these, one call with the sender's EID, the tag owner, the tag and the content. -/
def expectedOf (src eid : Byte) (limit : Nat) (ms : List Msg) : List Event :=
  (ms.filter (fun m => decide (m.data ≠ [] ∧ Local eid m.dest ∧ m.data.length ≤ limit))).map (fun m => .rxMsg src m.own m.tag m.data)

section

variable {hwB : Hw EB} {envB : EB} {eidB : Byte} {mxB mtuB : Nat} {memB : Mem} {b0 cB : Core (AstSt EB)} {histB : List AstOp} {logB : List AstRec}
    {hwH : Hw EH} {envH : EH} {eidH : Byte} {mxH mtuH : Nat} {memH : Mem} {h0 cH : Core (AstSt EH)} {histH : List AstOp} {logH : List AstRec}
    {wr : Bool} {win : Nat → Byte} {T : List (AstMode × Access)} {h : Lpc}

/-- **C81** From the BMC's application to the host's, every message, for a host with a limit of 4096 times a power of two (the default is 65536) and packets of at most 4096 bytes.
The messages delivered are those of the accepted ones that are for the host and not too long, or the first of them, in order, each once; all of them when the BMC has nothing queued
and its `mctp_astlpc_tx_done` is true. -/
theorem C81_every_message_to_host {k : Nat}
    (hB : AstEndpoint hwB envB eidB mxB .bmc mtuB memB b0) (rB : b0.astRun hwB histB = .ok (cB, logB))
    (hH : AstEndpoint hwH envH eidH mxH .host mtuH memH h0) (rH : h0.astRun hwH histH = .ok (cH, logH))
    (hmem : ∀ n, memH.ok n = true) (hl : Linked wr win T h cB cH)
    (hk : KeepsRx histH) (hsrc : eidB ≠ 0) (hmx1 : mxH = 4096 * 2 ^ k) (hmx2 : mxH < 2 ^ 64) (hmtu : mtuH ≤ 4096) :
    deliveredTo logH <+: expectedOf eidB eidH mxH (acceptedBy mtuH logB) ∧
    (pending cB = [] → txDone cB → deliveredTo logH = expectedOf eidB eidH mxH (acceptedBy mtuH logB)) := by
  obtain ⟨hF, ⟨h1, h2, -⟩, -⟩ := hl.accounted hB rB hH rH hmem
  obtain ⟨⟨last, e1, -, e2⟩, -⟩ := C55_exactly_once hB rB hH rH hmem hl
  have e1 : taken (offers 0 (astEvents logB)) = packetsIn (astEvents logH) ++ last := e1
  rw [e1, List.append_assoc] at h2
  unfold HostFits at hF
  obtain ⟨more, q1, q2⟩ := hH.deliversAll hmem hk rH hmx1 hmx2 hsrc
    (fun m hm => ⟨by rw [acceptedBy_mtu hm]; omega, by rw [acceptedBy_mtu hm]; exact hmtu, h1 m hm⟩) h2
  refine ⟨⟨more, q1.symm⟩, fun hp hd => ?_⟩
  rw [q2 (by rw [e2 hd, hp]; rfl), List.append_nil] at q1
  exact q1.symm

/-- **C81** From the host's application to the BMC's, every message. -/
theorem C81_every_message_to_bmc {k : Nat}
    (hB : AstEndpoint hwB envB eidB mxB .bmc mtuB memB b0) (rB : b0.astRun hwB histB = .ok (cB, logB))
    (hH : AstEndpoint hwH envH eidH mxH .host mtuH memH h0) (rH : h0.astRun hwH histH = .ok (cH, logH))
    (hmemB : ∀ n, memB.ok n = true) (hmem : ∀ n, memH.ok n = true) (hl : Linked wr win T h cB cH)
    (hk : KeepsRx histB) (hsrc : eidH ≠ 0) (hmx1 : mxB = 4096 * 2 ^ k) (hmx2 : mxB < 2 ^ 64) (hmtu : mtuH ≤ 4096) :
    deliveredTo logB <+: expectedOf eidH eidB mxB (acceptedBy mtuH logH) ∧
    (pending cH = [] → txDone cH → deliveredTo logB = expectedOf eidH eidB mxB (acceptedBy mtuH logH)) := by
  obtain ⟨hF, -, ⟨h1, h2, -⟩⟩ := hl.accounted hB rB hH rH hmem
  obtain ⟨-, ⟨last, e1, -, e2⟩⟩ := C55_exactly_once hB rB hH rH hmem hl
  have e1 : taken (offers 0 (astEvents logH)) = packetsIn (astEvents logB) ++ last := e1
  rw [e1, List.append_assoc] at h2
  unfold HostFits at hF
  obtain ⟨more, q1, q2⟩ := hB.deliversAll hmemB hk rB hmx1 hmx2 hsrc
    (fun m hm => ⟨by rw [acceptedBy_mtu hm]; omega, by rw [acceptedBy_mtu hm]; exact hmtu, h1 m hm⟩) h2
  refine ⟨⟨more, q1.symm⟩, fun hp hd => ?_⟩
  rw [q2 (by rw [e2 hd, hp]; rfl), List.append_nil] at q1
  exact q1.symm

/-- An application has seen the messages when its binding has received their packets. -/
theorem messages_of_all_packets {hw : Hw E} {env : E} {eid src : Byte} {mx k mtu mtu' : Nat} {mode : AstMode} {mem : Mem} {c0 c : Core (AstSt E)}
    {hist : List AstOp} {log : List AstRec} {ms : List Msg} (he : AstEndpoint hw env eid mx mode mtu mem c0) (hr : c0.astRun hw hist = .ok (c, log))
    (hmem : AllOk mem) (hk : KeepsRx hist) (hsrc : src ≠ 0) (hmx1 : mx = 4096 * 2 ^ k) (hmx2 : mx < 2 ^ 64) (h0 : 0 < mtu') (hmtu : mtu' ≤ 4096)
    (hms : ∀ m ∈ ms, m.mtu = mtu' ∧ m.tag.toNat < 8) (hg : gotBy log = ms.flatMap (Msg.packets 1 src)) :
    deliveredTo log = expectedOf src eid mx ms := by
  obtain ⟨more, q1, q2⟩ := he.deliversAll hmem hk hr hmx1 hmx2 (ver := 1) (rest := []) hsrc
    (fun m hm => ⟨by rw [(hms m hm).1]; exact h0, by rw [(hms m hm).1]; exact hmtu, (hms m hm).2⟩) (by rw [List.append_nil]; exact hg.symm)
  rw [q2 rfl, List.append_nil] at q1
  exact q1.symm

/-- **C93** Every message: each application has seen exactly the messages the other side has accepted that are for it and not too long, in order, with the sender's EID, the tag owner, the
tag and the content. -/
theorem C93_every_message {nB nH kB kH : Nat} {T0 T1 : List (AstMode × Access)} {Rs : List (List (AstMode × Access))}
    (hB : AstEndpoint hwB envB eidB mxB .bmc mtuB memB b0) (rB : b0.astRun hwB (histB ++ List.replicate nB .poll) = .ok (cB, logB))
    (hH : AstEndpoint hwH envH eidH mxH .host mtuH memH h0) (rH : h0.astRun hwH (histH ++ List.replicate nH .poll) = .ok (cH, logH))
    (hmemB : ∀ n, memB.ok n = true) (hmemH : ∀ n, memH.ok n = true) (hl : Linked wr win (T0 ++ (Rs.flatten ++ T1)) h cB cH)
    (hrounds : ∀ i (hi : i < Rs.length), WholePoll hwB b0 histB nB .bmc (T0 ++ (Rs.take i).flatten) Rs[i] ∧
      WholePoll hwH h0 histH nH .host (T0 ++ (Rs.take i).flatten) Rs[i])
    (hmany : 4 * ((acceptedPackets eidB mtuH logB).length + (acceptedPackets eidH mtuH logH).length) + 15 ≤ Rs.length)
    (keepB : KeepsRx histB) (keepH : KeepsRx histH) (sB : eidB ≠ 0) (sH : eidH ≠ 0)
    (xB : mxB = 4096 * 2 ^ kB ∧ mxB < 2 ^ 64) (xH : mxH = 4096 * 2 ^ kH ∧ mxH < 2 ^ 64) (hmtu : mtuH ≤ 4096) :
    deliveredTo logH = expectedOf eidB eidH mxH (acceptedBy mtuH logB) ∧ deliveredTo logB = expectedOf eidH eidB mxB (acceptedBy mtuH logH) := by
  obtain ⟨-, a2, -, a4⟩ := C93_all_delivered hB rB hH rH hmemB hmemH hl hrounds hmany
  obtain ⟨hF, ⟨t1, -⟩, ⟨t2, -⟩⟩ := hl.accounted hB rB hH rH hmemH
  unfold HostFits at hF
  have keeps : ∀ {hist : List AstOp} {n : Nat}, KeepsRx hist → KeepsRx (hist ++ List.replicate n .poll) := by
    intro hist n hk op ho
    rcases List.mem_append.mp ho with ho | ho
    · exact hk op ho
    · rw [List.eq_of_mem_replicate ho]; simp
  exact ⟨messages_of_all_packets hH rH hmemH (keeps keepH) sB xH.1 xH.2 (by omega) hmtu (fun m hm => ⟨acceptedBy_mtu hm, t1 m hm⟩) a2,
    messages_of_all_packets hB rB hmemB (keeps keepB) sH xB.1 xB.2 (by omega) hmtu (fun m hm => ⟨acceptedBy_mtu hm, t2 m hm⟩) a4⟩

end

/-! ## The daemon on the BMC -/

section

variable {hwB : Hw E} {envB : E} {eidB : Byte} {mxB mtuB : Nat} {memB : Mem} {b0 : Core (AstSt E)}
    {hwH : Hw V} {envH : V} {eidH : Byte} {mxH mtuH : Nat} {memH : Mem} {h0 cH : Core (AstSt V)} {histH : List AstOp} {logH : List AstRec}
    {wr : Bool} {win : Nat → Byte} {T : List (AstMode × Access)} {h : Lpc}
    {net : Net W} {cap : Bool} {w : W} {rs1 rs2 rs : List (Ready Unit)} {d1 d : Daemon W (AstSt E)}

/-- **C104** To the host, every message. -/
theorem C104_every_message_to_host {j : Nat}
    (hB : AstEndpoint hwB envB eidB mxB .bmc mtuB memB b0) (r1 : (Daemon.init w (b0.setCapture cap) eidB.toNat).run net (astOps hwB) (astProc hwB) rs1 = .ok d1)
    (r2 : d1.run net (astOps hwB) (astProc hwB) rs2 = .ok d)
    (hH : AstEndpoint hwH envH eidH mxH .host mtuH memH h0) (rH : h0.astRun hwH histH = .ok (cH, logH))
    (hmem : ∀ n, memH.ok n = true) (hl : Linked wr win T h d.core cH)
    (hk : KeepsRx histH) (hsrc : eidB ≠ 0) (hmx1 : mxH = 4096 * 2 ^ j) (hmx2 : mxH < 2 ^ 64) (hmtu : mtuH ≤ 4096) :
    ∃ k ≤ (clientSends eidB.toNat d.log).length, (Begun d1.core → k ≤ (clientSends eidB.toNat d1.log).length) ∧ (¬ Begun d1.core → (clientSends eidB.toNat d1.log).length ≤ k) ∧
      deliveredTo logH <+: expectedOf eidB eidH mxH (clientMsgsFor mtuH ((clientSends eidB.toNat d.log).drop k)) ∧
      (pending d.core = [] → txDone d.core → deliveredTo logH = expectedOf eidB eidH mxH (clientMsgsFor mtuH ((clientSends eidB.toNat d.log).drop k))) := by
  obtain ⟨xs1, m1, -, -⟩ := run_moves r1
  obtain ⟨xs2, m2, -, -⟩ := run_moves r2
  obtain ⟨k1, i1, -⟩ := (BInv.init hB cap w eidB.toNat).moves hB m1
  obtain ⟨k, i2, hkk, hup⟩ := i1.moves hB m2
  obtain ⟨histB, logB, a1, a2, a3, a4⟩ := i2.hist
  refine ⟨k, i2.few, fun hg => by rw [(hup hg).1]; exact i1.few, fun hg => by rw [← i1.down hg]; exact hkk, ?_⟩
  have := C81_every_message_to_host hB a1 hH rH hmem hl hk hsrc hmx1 hmx2 hmtu
  rw [a4] at this
  exact this

theorem handed_delivered (evs : List Event) : evs.filterMap handed = (evs.filter (fun ev => (delivered ev).isSome)).filterMap handed := by
  induction evs with
  | nil => rfl
  | cons ev evs ih =>
    cases ev with
    | rxMsg src own tag msg => exact congrArg (List.cons (src, msg)) ih
    | _ => exact ih

/-- **C104** From the host, every message. -/
theorem C104_every_message_from_host {j : Nat}
    (hB : AstEndpoint hwB envB eidB mxB .bmc mtuB memB b0) (r1 : (Daemon.init w (b0.setCapture cap) eidB.toNat).run net (astOps hwB) (astProc hwB) rs = .ok d)
    (hH : AstEndpoint hwH envH eidH mxH .host mtuH memH h0) (rH : h0.astRun hwH histH = .ok (cH, logH))
    (hmemB : ∀ n, memB.ok n = true) (hmem : ∀ n, memH.ok n = true) (hl : Linked wr win T h d.core cH)
    (hsrc : eidH ≠ 0) (hmx1 : mxB = 4096 * 2 ^ j) (hmx2 : mxB < 2 ^ 64) (hmtu : mtuH ≤ 4096) :
    let want := ((acceptedBy mtuH logH).filter (fun m => decide (m.data ≠ [] ∧ Local eidB m.dest ∧ m.data.length ≤ mxB))).map (fun m => (eidH, m.data))
    netArrivals eidB.toNat d.log <+: want ∧ (pending cH = [] → txDone cH → netArrivals eidB.toNat d.log = want) := by
  intro want
  obtain ⟨xs, m, -, -⟩ := run_moves r1
  obtain ⟨k, i, -⟩ := (BInv.init hB cap w eidB.toNat).moves hB m
  obtain ⟨histB, logB, a1, a2, a3, a4⟩ := i.hist
  obtain ⟨q1, q2⟩ := C81_every_message_to_bmc hB a1 hH rH hmemB hmem hl (fun op ho => by
    rcases List.mem_cons.mp ho with rfl | ho
    · simp
    · exact a2.1 op ho) hsrc hmx1 hmx2 hmtu
  have hgot : (astEvents logB).filterMap handed = (deliveredTo logB).filterMap handed := handed_delivered _
  have hwant : (expectedOf eidH eidB mxB (acceptedBy mtuH logH)).filterMap handed = want := by
    show (List.map _ _).filterMap handed = List.map _ _
    rw [List.filterMap_map]
    exact List.filterMap_eq_map ▸ rfl
  have harr : netArrivals eidB.toNat d.log = (deliveredTo logB).filterMap handed := by rw [← hgot, a3]; exact i.base.arr
  rw [harr, ← hwant]
  exact ⟨q1.filterMap _, fun hp hd => by rw [q2 hp hd]⟩

end

section

variable {mem : Mem} {fill : Nat → Byte} {dev : Devices E} {boot : Boot} {net : Net W} {items : List Item} {path : List Char} {w : W}
  {wakes wakes1 wakes2 : List (Wake (Option (List Byte)))} {o o1 : Outcome} {log log1 : List SockEv}
  {hwH : Hw V} {envH : V} {eidH : Byte} {mxH mtuH : Nat} {memH : Mem} {h0 cH : Core (AstSt V)} {histH : List AstOp} {logH : List AstRec}
  {wr : Bool} {win : Nat → Byte} {T : List (AstMode × Access)} {h : Lpc}

/-- **C111** From the daemon's clients to the host's application, every message: as `C111_to_host`, without a condition on the messages. -/
theorem C111_every_message_to_host {j : Nat} (hcl : Clean mem) (hopens : dev.astOpens = true) (hw : ∀ i ∈ items, Works i) (hp : plainOf items = ["astlpc".toList, path])
    (hreg : ∀ core : Core (AstSt E), Core.init (AstSt E) mem fill = some core → ∃ c1 rc, 0 ≤ rc ∧
      core.registerBus (astOps dev.hw) (astInit dev.env .bmc 0) (BitVec.ofInt 8 ((askedOf items).foldl Ask.apply {}).localEid) = .ok (c1, rc))
    {eid : Byte} (heid : ((askedOf items).foldl Ask.apply {}).localEid = (eid.toNat : Int)) (hsrc : eid ≠ 0)
    (r1 : processMain dev boot net mem fill (items.flatMap Item.words) w wakes1 = .ok o1) (l1 : o1.log = some log1) (st1 : o1.status = none)
    (r : processMain dev boot net mem fill (items.flatMap Item.words) w (wakes1 ++ wakes2) = .ok o) (lo : o.log = some log)
    (hH : AstEndpoint hwH envH eidH mxH .host mtuH memH h0) (rH : h0.astRun hwH histH = .ok (cH, logH))
    (hmem : ∀ n, memH.ok n = true) (hl : OnLink wr win T h o cH) (hk : KeepsRx histH) (hmx1 : mxH = 4096 * 2 ^ j) (hmx2 : mxH < 2 ^ 64) (hmtu : mtuH ≤ 4096) :
    ∃ k ≤ (clientSends eid.toNat log).length,
      ((∃ a ∈ o1.kcs, ShowsActive a) → k ≤ (clientSends eid.toNat log1).length) ∧
      ((∀ a ∈ o1.kcs, ¬ ShowsActive a) → (clientSends eid.toNat log1).length ≤ k) ∧
      (let sent := clientMsgsFor mtuH ((clientSends eid.toNat log).drop k)
       deliveredTo logH <+: expectedOf eid eidH mxH sent ∧
         (gotBy logH = sent.flatMap (Msg.packets 1 eid) → deliveredTo logH = expectedOf eid eidH mxH sent)) := by
  obtain ⟨c0, e, hB, he, hrun⟩ := astProcess hcl hopens hw hp hreg (boot := boot) (net := net) w
  have : e = eid := by
    apply BitVec.eq_of_toNat_eq
    have : (e.toNat : Int) = (eid.toNat : Int) := he.symm.trans heid
    omega
  subst this
  obtain ⟨d1, rc1, bye1, a1, a2, rfl, -, a5, a6⟩ := hrun wakes1 o1 log1 r1 l1
  obtain ⟨d, rc, bye, b1, b2, rfl, -, b5, b6⟩ := hrun (wakes1 ++ wakes2) o log r lo
  rw [heid] at a1 b1
  have h1 := a2.mp st1
  subst h1
  rw [List.map_append, loop_cat a1] at b1
  obtain ⟨rs1, u1, -⟩ := loop_spec a1
  obtain ⟨rs2, u2, -⟩ := loop_spec b1
  have hlink : Linked wr win T h d.core cH := by
    obtain ⟨bye', q1, q2⟩ := hl.bmc
    exact ⟨(b6.unique q2 (b5.symm.trans q1)).symm, hl.host, hl.run⟩
  obtain ⟨xs1, m1, -, -⟩ := run_moves u1
  obtain ⟨k1, i1, -⟩ := (BInv.init hB _ w e.toNat).moves hB m1
  obtain ⟨hist1, lg1, g1, -⟩ := i1.hist
  have hbeg := hB.begun_iff hcl g1
  rw [← show o1.kcs = accessesOf d1.core by rw [a5, a6.1 st1, List.append_nil]] at hbeg
  obtain ⟨k, hk1, hk2, hk3, hk4, -⟩ := C104_every_message_to_host hB u1 u2 hH rH hmem hlink hk hsrc hmx1 hmx2 hmtu
  refine ⟨k, hk1, fun hx => hk2 (hbeg.mpr hx), fun hx => hk3 fun hb => ?_, hk4, fun hgot => ?_⟩
  · obtain ⟨a, ha, hs⟩ := hbeg.mp hb
    exact hx a ha hs
  · have hF : 0 < mtuH := by
      obtain ⟨xs2, m2, -, -⟩ := run_moves u2
      obtain ⟨k2, i2, -⟩ := i1.moves hB m2
      obtain ⟨hist2, lg2, g2, -⟩ := i2.hist
      obtain ⟨hF, -, -⟩ := hlink.accounted hB g2 hH rH hmem
      unfold HostFits at hF
      omega
    exact messages_of_all_packets hH rH hmem hk hsrc hmx1 hmx2 hF hmtu (fun m hm => by
      obtain ⟨p, hp, rfl⟩ := List.mem_map.mp hm
      exact ⟨rfl, by show (0 : Byte).toNat < 8; decide⟩) hgot

/-- **C111** From the host's application to the daemon, every message: those to the daemon's EID (or the null or broadcast EID), of 1 to 65536 bytes, or the first of them, each once, in order,
with the host's EID and unchanged; all of them when the host has nothing queued and its `mctp_astlpc_tx_done` is true. -/
theorem C111_every_message_from_host (hcl : Clean mem) (hopens : dev.astOpens = true) (hw : ∀ i ∈ items, Works i) (hp : plainOf items = ["astlpc".toList, path])
    (hreg : ∀ core : Core (AstSt E), Core.init (AstSt E) mem fill = some core → ∃ c1 rc, 0 ≤ rc ∧
      core.registerBus (astOps dev.hw) (astInit dev.env .bmc 0) (BitVec.ofInt 8 ((askedOf items).foldl Ask.apply {}).localEid) = .ok (c1, rc))
    {eid : Byte} (heid : ((askedOf items).foldl Ask.apply {}).localEid = (eid.toNat : Int))
    (r : processMain dev boot net mem fill (items.flatMap Item.words) w wakes = .ok o) (lo : o.log = some log)
    (hH : AstEndpoint hwH envH eidH mxH .host mtuH memH h0) (rH : h0.astRun hwH histH = .ok (cH, logH))
    (hmem : ∀ n, memH.ok n = true) (hl : OnLink wr win T h o cH) (hsrc : eidH ≠ 0) (hmtu : mtuH ≤ 4096) :
    let want := ((acceptedBy mtuH logH).filter (fun m => decide (m.data ≠ [] ∧ Local eid m.dest ∧ m.data.length ≤ 65536))).map (fun m => (eidH, m.data))
    netArrivals eid.toNat log <+: want ∧ (pending cH = [] → txDone cH → netArrivals eid.toNat log = want) ∧
      (Each FreshAccept [] log → sendsIn log = owed log) := by
  obtain ⟨c0, e, hB, he, hrun⟩ := astProcess hcl hopens hw hp hreg (boot := boot) (net := net) w
  have : e = eid := by
    apply BitVec.eq_of_toNat_eq
    have : (e.toNat : Int) = (eid.toNat : Int) := he.symm.trans heid
    omega
  subst this
  obtain ⟨d, rc, bye, b1, b2, rfl, -, b5, b6⟩ := hrun wakes o log r lo
  rw [heid] at b1
  obtain ⟨rs, u, -⟩ := loop_spec b1
  have hlink : Linked wr win T h d.core cH := by
    obtain ⟨bye', q1, q2⟩ := hl.bmc
    exact ⟨(b6.unique q2 (b5.symm.trans q1)).symm, hl.host, hl.run⟩
  obtain ⟨q1, q2⟩ := C104_every_message_from_host (j := 4) hB u hH rH hcl.1 hmem hlink hsrc (by decide) (by decide) hmtu
  exact ⟨q1, q2, fun hf => (C101_relay u hf).2⟩

end

/-! ## The hypotheses are met -/

namespace ForeignDemo

open AstDemo LinkDemo

def pktF : List Byte := [0x01, 30, 0x08, 0xc3, 0x07, 0x09]

/-- As `LinkDemo.T2`, but the BMC's message is for EID 30. -/
def T3 : List (AstMode × Access) := T2.map fun x => match x with
  | (m, .lpcWrite 260 _ rc) => (m, .lpcWrite 260 (pktF ++ [0xc5, 0x8e, 0x75, 0x70]) rc)
  | (m, .lpcRead 260 _ rc) => (m, .lpcRead 260 (pktF ++ [0xc5, 0x8e, 0x75, 0x70]) rc)
  | x => x

def histB3 : List AstOp := [.poll, .send 30 false 3 [7, 9], .poll, .poll, .poll]

def logB3 : List AstRec :=
  [⟨.poll, [], 0⟩, ⟨.send 30 false 3 [7, 9], [.tx 0 pktF 0 true], 0⟩, ⟨.poll, [.recv 0 pktL1], 0⟩, ⟨.poll, [], 0⟩,
   ⟨.poll, [.recv 0 pktL2, .rxMsg 9 true 1 long], 0⟩]

def logH3 : List AstRec :=
  [⟨.poll, [], 0⟩, ⟨.send 8 true 1 long, [.tx 0 pktL1 0 true], 0⟩, ⟨.poll, [.recv 0 pktF], 0⟩,
   ⟨.poll, [], 0⟩, ⟨.poll, [.tx 0 pktL2 0 true], 0⟩, ⟨.poll, [], 0⟩]

set_option synthInstance.maxSize 512 in
theorem run_bmc3 : LinkDemo.run .bmc 64 8 (of .bmc T3) histB3 = some (logB3, of .bmc T3, [(true, some 3, 68)]) := by decide +kernel
set_option synthInstance.maxSize 512 in
theorem run_host3 : LinkDemo.run .host 64 9 (of .host T3) histH2 = some (logH3, of .host T3, [(true, some 3, 68)]) := by decide +kernel
theorem run_lpc3 : ((Lpc.run false (Lpc.reset fun _ => 0) T3).isSome) = true := by decide +kernel

/-- The host's message is delivered, the BMC's, for an endpoint that is not there, is received and dropped. -/
theorem linked3 : ∃ b0 cB h0 cH h,
    AstEndpoint replay (of .bmc T3) 8 65536 .bmc 64 {} b0 ∧ b0.astRun replay histB3 = .ok (cB, logB3) ∧
    AstEndpoint replay (of .host T3) 9 65536 .host 64 {} h0 ∧ h0.astRun replay histH2 = .ok (cH, logH3) ∧
    Linked false (fun _ => 0) T3 h cB cH ∧ KeepsRx histB3 ∧ KeepsRx histH2 ∧ 65536 = 4096 * 2 ^ 4 ∧
    acceptedBy 64 logB3 = [⟨30, false, 3, 64, [7, 9]⟩] ∧ deliveredTo logB3 = [.rxMsg 9 true 1 long] ∧ deliveredTo logB3 = expectedOf 9 8 65536 (acceptedBy 64 logH3) ∧
    acceptedBy 64 logH3 = [⟨8, true, 1, 64, long⟩] ∧ gotBy logH3 = [pktF] ∧ deliveredTo logH3 = [] ∧ expectedOf 8 9 65536 (acceptedBy 64 logB3) = [] := by
  obtain ⟨b0, cB, e1, e2, e3, e4⟩ := LinkDemo.run_ok (by decide) run_bmc3
  obtain ⟨h0, cH, f1, f2, f3, f4⟩ := LinkDemo.run_ok (by decide) run_host3
  obtain ⟨h, hh⟩ := Option.isSome_iff_exists.mp run_lpc3
  have hk : ∀ hist : List AstOp, (∀ op ∈ hist, (match op with | .setMax _ => false | .setRx _ => false | _ => true) = true) → KeepsRx hist := by
    intro hist h op ho
    have := h op ho
    cases op <;> simp at this ⊢
  exact ⟨b0, cB, h0, cH, h, e1, e2, f1, f2, ⟨e3.symm, f3.symm, hh⟩, hk _ (by decide), hk _ (by decide), rfl, by decide, by decide +kernel, by decide +kernel, by decide +kernel,
    by decide +kernel, by decide +kernel, by decide +kernel⟩

end ForeignDemo

end Mctp
