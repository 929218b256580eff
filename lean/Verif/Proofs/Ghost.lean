import Verif.Model.Astlpc
import Verif.Model.Api

/-!
# The log of device accesses is a ghost

Whatever was recorded before, the library and the astlpc binding do the same: every function of the model commutes
with putting further accesses in front of the log.
-/

namespace Mctp

section generic

variable {β : Type}

def Binding.mapSt (f : β → β) (b : Binding β) : Binding β := { b with st := f b.st }
def Bus.mapSt (f : β → β) (b : Bus β) : Bus β := { b with binding := b.binding.mapSt f }
def TxOut.mapSt (f : β → β) (o : TxOut β) : TxOut β := { o with st := f o.st }
def Core.mapSt (f : β → β) (c : Core β) : Core β := { c with busses := c.busses.map (Bus.mapSt f) }

/-- On the first component of a result. -/
def onFst {α γ : Type} (f : α → α) (x : α × γ) : α × γ := (f x.1, x.2)

theorem Res.map_bind' {α γ δ : Type} (x : Res α) (k : α → Res γ) (f : γ → δ) :
    Except.map f (x >>= k) = x >>= fun a => Except.map f (k a) := by
  cases x <;> rfl

theorem Res.bind_map' {α γ δ : Type} (x : Res α) (f : α → γ) (k : γ → Res δ) :
    (Except.map f x >>= k) = x >>= fun a => k (f a) := by
  cases x <;> rfl

theorem Res.map_ok {α γ : Type} (f : α → γ) (a : α) : Except.map f (.ok a : Res α) = .ok (f a) := rfl
theorem Res.map_error {α γ : Type} (f : α → γ) (e : Fault) : Except.map f (.error e : Res α) = .error e := rfl

theorem Res.map_ite {α γ : Type} (f : α → γ) (p : Prop) [Decidable p] (x y : Res α) :
    Except.map f (if p then x else y) = if p then Except.map f x else Except.map f y := by
  split <;> rfl

/-- The binding's transmit function does not look at what `f` changes. -/
def Blind (f : β → β) (ops : Ops β) : Prop :=
  ∀ b pkt, ops.tx (b.mapSt f) pkt = Except.map (TxOut.mapSt f) (ops.tx b pkt)

theorem Core.busAt_map (f : β → β) (c : Core β) (i : Nat) :
    (c.mapSt f).busAt i = Except.map (Bus.mapSt f) (c.busAt i) := by
  unfold Core.busAt
  simp only [Core.mapSt, List.getElem?_map, Res.map_ite]
  congr 1
  cases c.mem.deref c.bussesPtr with
  | error e => rfl
  | ok _ => cases c.busses[i]? <;> rfl

theorem Core.setBus_map (f : β → β) (c : Core β) (i : Nat) (b : Bus β) :
    (c.mapSt f).setBus i (b.mapSt f) = (c.setBus i b).mapSt f := by
  simp only [Core.mapSt, Core.setBus, List.map_set]

theorem Core.mapSt_mem (f : β → β) (c : Core β) (m : Mem) :
    { c.mapSt f with mem := m } = ({ c with mem := m } : Core β).mapSt f := rfl

theorem sendQueue_map {f : β → β} {ops : Ops β} (hf : Blind f ops) (cap : Bool) (i : Nat) :
    ∀ (q : List Pktbuf) (mem : Mem) (bus : Bus β),
      sendQueue ops cap i mem (bus.mapSt f) q =
        Except.map (fun x => (x.1, x.2.1.mapSt f, x.2.2)) (sendQueue ops cap i mem bus q)
  | [], mem, bus => rfl
  | pkt :: rest, mem, bus => by
    have ih := sendQueue_map hf cap i rest
    unfold sendQueue
    by_cases hs : bus.state ≠ .txEnabled
    · rw [if_pos hs, if_pos (show (bus.mapSt f).state ≠ .txEnabled from hs)]; rfl
    · rw [if_neg hs, if_neg (show ¬ (bus.mapSt f).state ≠ .txEnabled from hs), Res.map_bind']
      congr 1; funext _
      rw [show (bus.mapSt f).binding = bus.binding.mapSt f from rfl, hf, Res.bind_map', Res.map_bind']
      congr 1; funext out
      simp only [Res.map_ite, Res.map_bind']
      have e : ∀ st, ({ (bus.mapSt f) with binding := { bus.binding.mapSt f with st := f out.st }, state := st } : Bus β)
          = Bus.mapSt f { bus with binding := { bus.binding with st := out.st }, state := st } := fun _ => rfl
      simp only [TxOut.mapSt, e, ih, Res.bind_map']
      rfl

theorem Core.sendTxQueue_map {f : β → β} {ops : Ops β} (hf : Blind f ops) (c : Core β) (i : Nat) :
    (c.mapSt f).sendTxQueue ops i = Except.map (onFst (Core.mapSt f)) (c.sendTxQueue ops i) := by
  unfold Core.sendTxQueue
  rw [Core.busAt_map, Res.bind_map', Res.map_bind']
  congr 1; funext bus
  rw [show (c.mapSt f).hasCapture = c.hasCapture from rfl, show (c.mapSt f).mem = c.mem from rfl,
    show (bus.mapSt f).queue = bus.queue from rfl, sendQueue_map hf, Res.bind_map', Res.map_bind']
  congr 1; funext x
  exact congrArg (fun y => Except.ok (y, x.2.2)) (Core.setBus_map f { c with mem := x.1 } i x.2.1)

theorem Core.setTxEnabled_map {f : β → β} {ops : Ops β} (hf : Blind f ops) (c : Core β) (i : Nat) (on : Bool) :
    (c.mapSt f).setTxEnabled ops i on = Except.map (onFst (Core.mapSt f)) (c.setTxEnabled ops i on) := by
  unfold Core.setTxEnabled
  rw [Core.busAt_map, Res.bind_map', Res.map_bind']
  congr 1; funext bus
  have e : ∀ st, ({ bus.mapSt f with state := st } : Bus β) = Bus.mapSt f { bus with state := st } := fun _ => rfl
  rw [show (bus.mapSt f).state = bus.state from rfl]
  cases bus.state <;> simp only [Res.map_ite, e, Core.setBus_map, Core.sendTxQueue_map hf] <;> rfl

theorem txLoop_map (f : β → β) (fill : Nat → Byte) (b : Binding β) (src dest : Byte) (o : Bool) (tag : Byte) (mp : Nat)
    (msg : List Byte) : ∀ (fuel p i : Nat) (mem : Mem) (q : List Pktbuf),
      txLoop fill (b.mapSt f) src dest o tag mp msg fuel p i mem q = txLoop fill b src dest o tag mp msg fuel p i mem q
  | 0, _, _, _, _ => rfl
  | fuel + 1, p, i, mem, q => by
    have ih := txLoop_map f fill b src dest o tag mp msg fuel
    unfold txLoop
    simp only [ih]
    rfl

theorem Core.messageTxOnBus_map {f : β → β} {ops : Ops β} (hf : Blind f ops) (c : Core β) (i : Nat) (src dest : Byte)
    (o : Bool) (tag : Byte) (msg : List Byte) :
    (c.mapSt f).messageTxOnBus ops i src dest o tag msg =
      Except.map (onFst (Core.mapSt f)) (c.messageTxOnBus ops i src dest o tag msg) := by
  unfold Core.messageTxOnBus
  rw [Core.busAt_map, Res.bind_map', Res.map_bind']
  congr 1; funext bus
  have e : ∀ m q, ({ c.mapSt f with mem := m } : Core β).setBus i { bus.mapSt f with queue := q } =
      (({ c with mem := m } : Core β).setBus i { bus with queue := q }).mapSt f :=
    fun m q => Core.setBus_map f { c with mem := m } i { bus with queue := q }
  have hb : (bus.mapSt f).binding = bus.binding.mapSt f := rfl
  have key : ∀ m q, (({ c.mapSt f with mem := m } : Core β).setBus i { bus.mapSt f with queue := q }).sendTxQueue ops i =
      Except.map (onFst (Core.mapSt f)) ((({ c with mem := m } : Core β).setBus i { bus with queue := q }).sendTxQueue ops i) := by
    intro m q
    rw [e, Core.sendTxQueue_map hf]
  have fin : ∀ (x : Mem × List Pktbuf), (do
      let y ← (({ c.mapSt f with mem := x.1 } : Core β).setBus i { bus.mapSt f with queue := x.2 }).sendTxQueue ops i
      Except.ok (y.1, y.2, (0 : Int))) = (do
      let y ← (({ c with mem := x.1 } : Core β).setBus i { bus with queue := x.2 }).sendTxQueue ops i
      Except.map (onFst (Core.mapSt f)) (Except.ok (y.1, y.2, (0 : Int)))) := by
    intro x
    rw [key, Res.bind_map']
    rfl
  by_cases h1 : bus.state = .constructed
  · rw [if_pos h1, if_pos (show (bus.mapSt f).state = .constructed from h1)]; rfl
  rw [if_neg h1, if_neg (show ¬ (bus.mapSt f).state = .constructed from h1)]
  by_cases h2 : tag &&& 0x7 ≠ tag
  · rw [if_pos h2, if_pos h2]; rfl
  rw [if_neg h2, if_neg h2]
  by_cases h3 : bodySize bus.binding.pktSize < btu
  · rw [if_pos h3, if_pos (show bodySize (bus.mapSt f).binding.pktSize < btu from h3)]; rfl
  rw [if_neg h3, if_neg (show ¬ bodySize (bus.mapSt f).binding.pktSize < btu from h3), hb, txLoop_map, Res.map_bind']
  congr 1; funext x
  rw [Res.map_bind']
  exact fin x

theorem Core.messageTx_map {f : β → β} {ops : Ops β} (hf : Blind f ops) (c : Core β) (eid : Byte)
    (o : Bool) (tag : Byte) (msg : List Byte) :
    (c.mapSt f).messageTx ops eid o tag msg = Except.map (onFst (Core.mapSt f)) (c.messageTx ops eid o tag msg) := by
  unfold Core.messageTx
  simp only [Res.map_ite, Core.busAt_map, Res.bind_map', Res.map_bind', Core.messageTxOnBus_map hf]
  rfl

theorem bridgeLoop_map {f : β → β} {ops : Ops β} (hf : Blind f ops) (ib : Nat) (src dest : Byte)
    (o : Bool) (tag : Byte) (msg : List Byte) : ∀ (l : List Nat) (c : Core β),
    bridgeLoop ops ib src dest o tag msg l (c.mapSt f) =
      Except.map (onFst (Core.mapSt f)) (bridgeLoop ops ib src dest o tag msg l c)
  | [], c => rfl
  | j :: js, c => by
    have ih := bridgeLoop_map hf ib src dest o tag msg js
    unfold bridgeLoop
    simp only [Res.map_ite, ih, Core.messageTxOnBus_map hf, Res.bind_map', Res.map_bind', onFst]
    rfl

theorem Core.rx_map {f : β → β} {ops : Ops β} (hf : Blind f ops) (c : Core β) (i : Nat) (bus : Bus β) (src dest : Byte)
    (o : Bool) (tag : Byte) (msg : List Byte) :
    (c.mapSt f).rx ops i (bus.mapSt f) src dest o tag msg =
      Except.map (onFst (Core.mapSt f)) (c.rx ops i bus src dest o tag msg) := by
  unfold Core.rx
  simp only [Res.map_ite, show (c.mapSt f).nBusses = c.nBusses from rfl, bridgeLoop_map hf]
  rfl

theorem Core.rxSom_map (f : β → β) (c : Core β) (pkt : Pktbuf) (src dest tag seq : Byte) :
    (c.mapSt f).rxSom pkt src dest tag seq = Except.map (Core.mapSt f) (c.rxSom pkt src dest tag seq) := by
  unfold Core.rxSom
  simp only [show (c.mapSt f).ctxs = c.ctxs from rfl, show (c.mapSt f).mem = c.mem from rfl,
    show (c.mapSt f).maxSize = c.maxSize from rfl]
  split
  · rfl
  · split
    · rfl
    · rw [Res.map_bind']; rfl

theorem Core.rxMid_map (f : β → β) (c : Core β) (pkt : Pktbuf) (src dest tag seq : Byte) :
    (c.mapSt f).rxMid pkt src dest tag seq = Except.map (Core.mapSt f) (c.rxMid pkt src dest tag seq) := by
  unfold Core.rxMid
  simp only [show (c.mapSt f).ctxs = c.ctxs from rfl, show (c.mapSt f).mem = c.mem from rfl,
    show (c.mapSt f).maxSize = c.maxSize from rfl]
  split
  · rfl
  · split
    · rfl
    · simp only [Res.map_ite, Res.map_bind']; rfl

theorem Core.rxEom_map {f : β → β} {ops : Ops β} (hf : Blind f ops) (c : Core β) (i : Nat) (bus : Bus β) (pkt : Pktbuf)
    (src dest tag seq : Byte) (o : Bool) :
    (c.mapSt f).rxEom ops i (bus.mapSt f) pkt src dest tag seq o =
      Except.map (onFst (Core.mapSt f)) (c.rxEom ops i bus pkt src dest tag seq o) := by
  unfold Core.rxEom
  simp only [show (c.mapSt f).ctxs = c.ctxs from rfl, show (c.mapSt f).mem = c.mem from rfl,
    show (c.mapSt f).maxSize = c.maxSize from rfl]
  split
  · rfl
  · split
    · rfl
    · rename_i k _ _ x _
      by_cases h1 : BitVec.ofNat 8 ((x.lastSeq.toNat + 1) % 4) ≠ seq
      · rw [if_pos h1, if_pos h1]; rfl
      rw [if_neg h1, if_neg h1]
      by_cases h2 : pkt.len > x.fragSize
      · rw [if_pos h2, if_pos h2]; rfl
      rw [if_neg h2, if_neg h2, Res.map_bind']
      congr 1; funext y
      by_cases h3 : y.2.2 = true
      · rw [if_pos h3, if_pos h3]
        have := Core.rx_map hf (({ c with mem := y.1 } : Core β).setCtx k y.2.1) i bus y.2.1.src y.2.1.dest o tag y.2.1.data
        refine Eq.trans (congrArg (· >>= _) this) ?_
        rw [Res.bind_map', Res.map_bind']
        rfl
      · rw [if_neg h3, if_neg h3]; rfl

theorem Core.busRxBody_map {f : β → β} {ops : Ops β} (hf : Blind f ops) (c : Core β) (i : Nat) (bus : Bus β)
    (pkt : Pktbuf) :
    (c.mapSt f).busRxBody ops i (bus.mapSt f) pkt =
      Except.map (onFst (Core.mapSt f)) (c.busRxBody ops i bus pkt) := by
  unfold Core.busRxBody
  rw [Res.map_bind']
  congr 1; funext hdr
  split
  · simp only [Res.map_ite]
    rename_i d s fl
    cases hdrSom fl <;> cases hdrEom fl <;>
      simp only [Core.rxSom_map, Core.rxMid_map, Core.rxEom_map hf, Core.rx_map hf, Res.map_bind', Res.bind_map'] <;> rfl
  · rfl

theorem Core.busRx_map {f : β → β} {ops : Ops β} (hf : Blind f ops) (c : Core β) (i : Nat) (pkt : Pktbuf) :
    (c.mapSt f).busRx ops i pkt = Except.map (onFst (Core.mapSt f)) (c.busRx ops i pkt) := by
  unfold Core.busRx
  simp only [Res.map_ite, Core.busAt_map, Res.bind_map', Res.map_bind', Core.busRxBody_map hf]
  rfl

end generic

variable {E : Type}

/-- The state with further accesses in front of the log. -/
def AstSt.relog (p : List Logged) (s : AstSt E) : AstSt E := { s with log := p ++ s.log }

theorem kcsRead_relog (hw : Hw E) (p : List Logged) (s : AstSt E) (r : KcsReg) :
    kcsRead hw (s.relog p) r = ((kcsRead hw s r).1, (kcsRead hw s r).2.1, (kcsRead hw s r).2.2.relog p) := by
  simp only [kcsRead, AstSt.relog, List.append_assoc]

theorem kcsWrite_relog (hw : Hw E) (p : List Logged) (s : AstSt E) (r : KcsReg) (v : Byte) :
    kcsWrite hw (s.relog p) r v = ((kcsWrite hw s r v).1, (kcsWrite hw s r v).2.relog p) := by
  simp only [kcsWrite, AstSt.relog, List.append_assoc]

theorem lpcRead_relog (hw : Hw E) (p : List Logged) (s : AstSt E) (off len : Nat) :
    lpcRead hw (s.relog p) off len =
      Except.map (fun x => (x.1, x.2.1, x.2.2.relog p)) (lpcRead hw s off len) := by
  simp only [lpcRead, Res.map_ite, AstSt.relog, Res.map_ok, List.append_assoc]; rfl

theorem lpcWrite_relog (hw : Hw E) (p : List Logged) (s : AstSt E) (off : Nat) (bs : List Byte) :
    lpcWrite hw (s.relog p) off bs = Except.map (fun x => (x.1, x.2.relog p)) (lpcWrite hw s off bs) := by
  simp only [lpcWrite, Res.map_ite, AstSt.relog, Res.map_ok, List.append_assoc]; rfl

theorem kcsSetStatus_relog (hw : Hw E) (p : List Logged) (s : AstSt E) (v : Byte) :
    kcsSetStatus hw (s.relog p) v = ((kcsSetStatus hw s v).1, (kcsSetStatus hw s v).2.relog p) := by
  simp only [kcsSetStatus, kcsWrite_relog]
  split
  · rfl
  · split <;> rfl

theorem kcsSend_relog (hw : Hw E) (p : List Logged) (s : AstSt E) (v : Byte) :
    kcsSend hw (s.relog p) v = ((kcsSend hw s v).1, (kcsSend hw s v).2.relog p) := by
  simp only [kcsSend, kcsRead_relog, kcsWrite_relog]
  split
  · rfl
  · rw [show ((kcsRead hw s .status).2.2.relog p).mode = (kcsRead hw s .status).2.2.mode from rfl]
    split
    · rfl
    · split <;> rfl

theorem layoutRead_relog (hw : Hw E) (p : List Logged) (s : AstSt E) :
    layoutRead hw (s.relog p) = Except.map (fun x => (x.1, x.2.1, x.2.2.relog p)) (layoutRead hw s) := by
  unfold layoutRead
  rw [lpcRead_relog, Res.bind_map', Res.map_bind']
  congr 1; funext x
  rw [show (s.relog p).mode = s.mode from rfl]
  cases s.mode <;> rfl

theorem layoutWrite_relog (hw : Hw E) (p : List Logged) (s : AstSt E) (l : AstLayout) :
    layoutWrite hw (s.relog p) l = Except.map (fun x => (x.1, x.2.relog p)) (layoutWrite hw s l) := by
  unfold layoutWrite
  rw [show (s.relog p).mode = s.mode from rfl]
  cases s.mode <;> simp only [lpcWrite_relog]

theorem initBmc_relog (hw : Hw E) (p : List Logged) (s : AstSt E) :
    initBmc hw (s.relog p) = Except.map (fun x => (x.1, x.2.relog p)) (initBmc hw s) := by
  unfold initBmc
  have e : ∀ (tx rx : AstBuf), ({ s.relog p with tx := tx, rx := rx } : AstSt E) =
      AstSt.relog p { s with tx := tx, rx := rx } := fun _ _ => rfl
  simp only [Res.map_bind', e, Res.map_ite, lpcWrite_relog, kcsSetStatus_relog, Res.bind_map']
  rfl

theorem negotiateLayoutHost_relog (hw : Hw E) (p : List Logged) (s : AstSt E) :
    negotiateLayoutHost hw (s.relog p) = Except.map (fun x => (x.1, x.2.relog p)) (negotiateLayoutHost hw s) := by
  unfold negotiateLayoutHost
  simp only [Res.map_bind', Res.map_ite, layoutRead_relog, layoutWrite_relog, Res.bind_map']
  rfl

/-- On the second component. -/
def onSnd {α γ : Type} (f : γ → γ) (x : α × γ) : α × γ := (x.1, f x.2)

theorem initHost_relog (hw : Hw E) (p : List Logged) (s : AstSt E) :
    initHost hw (s.relog p) = Except.map (onSnd (AstSt.relog p)) (initHost hw s) := by
  unfold initHost
  simp only [kcsRead_relog]
  generalize kcsRead hw s .status = q
  obtain ⟨rc, status, s⟩ := q
  simp only
  by_cases h1 : rc ≠ 0
  · rw [if_pos h1, if_pos h1]; rfl
  rw [if_neg h1, if_neg h1]
  by_cases h2 : status &&& kcsBmcReady = 0
  · rw [if_pos h2, if_pos h2]; rfl
  rw [if_neg h2, if_neg h2]
  have e1 := lpcRead_relog hw p { s with kcsStatus := status } 0 lpcHdrSize
  refine Eq.trans (congrArg (· >>= _) e1) ?_
  rw [Res.bind_map', Res.map_bind']
  congr 1; funext x
  obtain ⟨_, hdr, s⟩ := x
  simp only
  split
  · rfl
  split
  · rfl
  have hr : ∀ n, (if 2 ≤ n then negotiateLayoutHost hw { s.relog p with proto := some n }
        else .ok (0, { s.relog p with proto := some n })) =
      Except.map (onSnd (AstSt.relog p))
        (if 2 ≤ n then negotiateLayoutHost hw { s with proto := some n } else .ok (0, { s with proto := some n })) := by
    intro n
    rw [Res.map_ite]
    congr 1
    exact negotiateLayoutHost_relog hw p { s with proto := some n }
  rw [hr, Res.bind_map', Res.map_bind']
  congr 1; funext x
  obtain ⟨rc, s⟩ := x
  by_cases h3 : rc < 0
  · rw [if_pos h3, if_pos (show (onSnd (AstSt.relog p) (rc, s)).1 < 0 from h3)]; rfl
  rw [if_neg h3, if_neg (show ¬ (onSnd (AstSt.relog p) (rc, s)).1 < 0 from h3)]
  simp only [onSnd]
  rw [lpcWrite_relog, Res.bind_map', Res.map_bind']
  congr 1; funext x
  simp only
  rw [lpcWrite_relog, Res.bind_map', Res.map_bind']
  congr 1; funext x
  simp only [kcsWrite_relog]
  rfl

theorem astStart_relog (hw : Hw E) (p : List Logged) (s : AstSt E) :
    astStart hw (s.relog p) = Except.map (onSnd (AstSt.relog p)) (astStart hw s) := by
  unfold astStart
  rw [show (s.relog p).mode = s.mode from rfl]
  cases hm : s.mode
  · simp only
    rw [← hm]
    exact initBmc_relog hw p { s with proto := some astVerCur }
  · exact initHost_relog hw p s

theorem astTx_relog (hw : Hw E) (p : List Logged) : Blind (AstSt.relog p) (astOps hw) := by
  intro b pkt
  show astTx hw _ _ = Except.map _ (astTx hw b pkt)
  unfold astTx
  rw [show (b.mapSt (AstSt.relog p)).st = b.st.relog p from rfl]
  generalize b.st = s
  simp only
  rw [Res.map_bind']
  refine congrArg _ ?_
  funext most
  split
  · rfl
  rw [lpcWrite_relog, Res.bind_map', Res.map_bind']
  congr 1; funext x
  simp only
  rw [Res.map_bind']
  congr 1; funext pkt
  rw [Res.map_bind']
  congr 1; funext bytes
  have e := lpcWrite_relog hw p x.2 (u32 (x.2.tx.offset + 4)) bytes
  refine Eq.trans (congrArg (· >>= _) e) ?_
  rw [Res.bind_map', Res.map_bind']
  congr 1; funext y
  have e2 := kcsSend_relog hw p { y.2 with tx := { y.2.tx with state := .prepared } } cmdTxBegin
  simp only
  generalize hq : kcsSend hw { y.2 with tx := { y.2.tx with state := .prepared } } cmdTxBegin = q at e2 ⊢
  generalize hq2 : kcsSend hw { y.2.relog p with tx := { (y.2.relog p).tx with state := .prepared } } cmdTxBegin = q2
  have : q2 = (q.1, q.2.relog p) := by rw [← hq2, ← e2]; rfl
  subst this
  obtain ⟨rc, s⟩ := q
  simp only [Res.map_ok, TxOut.mapSt]
  split <;> rfl

/-- The binding with further accesses in front of its log. -/
abbrev Binding.relog (p : List Logged) (b : Binding (AstSt E)) : Binding (AstSt E) := b.mapSt (AstSt.relog p)

theorem negotiateLayoutBmc_relog (hw : Hw E) (p : List Logged) (b : Binding (AstSt E)) :
    negotiateLayoutBmc hw (b.relog p) = Except.map (onSnd (Binding.relog p)) (negotiateLayoutBmc hw b) := by
  unfold negotiateLayoutBmc
  rw [Res.map_bind']
  congr 1; funext version
  split
  · rfl
  refine Eq.trans (congrArg (· >>= _) (layoutRead_relog hw p b.st)) ?_
  rw [Res.bind_map', Res.map_bind']
  congr 1; funext x
  obtain ⟨rc, proposed, s⟩ := x
  simp only
  split
  · rfl
  rw [Res.map_bind']
  congr 1; funext valid
  split
  · rfl
  rw [Res.map_bind']
  refine congrArg _ ?_
  funext mtu
  rw [Res.map_bind']
  congr 1; funext sz
  rw [Res.map_bind']
  congr 1; funext valid
  split
  · refine Eq.trans (congrArg (· >>= _) (layoutWrite_relog hw p
      { s with rx := { s.rx with size := sz }, tx := { s.tx with size := sz } } _)) ?_
    rw [Res.bind_map', Res.map_bind']
    congr 1; funext y
    simp only
    split
    · rfl
    split <;> rfl
  · rfl

theorem initChannel_relog (hw : Hw E) (p : List Logged) (b : Binding (AstSt E)) :
    initChannel hw (b.relog p) = Except.map (onSnd (Binding.relog p)) (initChannel hw b) := by
  unfold initChannel
  refine Eq.trans (congrArg (· >>= _) (lpcRead_relog hw p b.st 0 lpcHdrSize)) ?_
  rw [Res.bind_map', Res.map_bind']
  congr 1; funext x
  obtain ⟨_, hdr, s⟩ := x
  simp only
  split
  · rfl
  refine Eq.trans (congrArg (· >>= _) (negotiateLayoutBmc_relog hw p { b with st := { s with proto := some _ } })) ?_
  rw [Res.bind_map', Res.map_bind']
  congr 1; funext x
  obtain ⟨rc, b⟩ := x
  simp only [onSnd]
  refine Eq.trans (congrArg (· >>= _) (lpcWrite_relog hw p b.st _ _)) ?_
  rw [Res.bind_map', Res.map_bind']
  congr 1; funext y
  obtain ⟨_, s⟩ := y
  simp only
  have e := fun v => kcsSetStatus_relog hw p { s with tx := { s.tx with state := .acquired }, rx := { s.rx with state := .released } } v
  rw [Res.map_ok]
  refine congrArg Except.ok ?_
  refine congrArg (Prod.mk _) ?_
  refine Eq.trans (congrArg (fun q => ({ b.relog p with st := q.2 } : Binding (AstSt E))) (e _)) ?_
  rfl

theorem finaliseChannel_relog (hw : Hw E) (p : List Logged) (b : Binding (AstSt E)) :
    finaliseChannel hw (b.relog p) = Except.map (onSnd (Binding.relog p)) (finaliseChannel hw b) := by
  unfold finaliseChannel
  refine Eq.trans (congrArg (· >>= _) (lpcRead_relog hw p b.st offNegotiated 2)) ?_
  rw [Res.bind_map', Res.map_bind']
  congr 1; funext x
  obtain ⟨rc, ver, s⟩ := x
  simp only
  split
  · rfl
  split
  · rfl
  refine Eq.trans (congrArg (· >>= _) (layoutRead_relog hw p { s with proto := some _ })) ?_
  rw [Res.bind_map', Res.map_bind']
  congr 1; funext x
  obtain ⟨rc, l, s⟩ := x
  simp only
  split
  · rfl
  rw [Res.map_bind']
  congr 1; funext valid
  split
  · rfl
  rw [Res.map_bind']
  congr 1

/-- The core with further accesses in front of the log. -/
abbrev Core.relog (p : List Logged) (c : Core (AstSt E)) : Core (AstSt E) := c.mapSt (AstSt.relog p)

theorem Core.setBinding_relog (p : List Logged) (c : Core (AstSt E)) (i : Nat) (bus : Bus (AstSt E)) (b : Binding (AstSt E)) :
    (c.relog p).setBinding i (bus.mapSt (AstSt.relog p)) (b.relog p) = (c.setBinding i bus b).relog p :=
  Core.setBus_map (AstSt.relog p) c i { bus with binding := b }

theorem Core.astInitChannel_relog (hw : Hw E) (p : List Logged) (c : Core (AstSt E)) (i : Nat) :
    (c.relog p).astInitChannel hw i = Except.map (onFst (Core.relog p)) (c.astInitChannel hw i) := by
  unfold Core.astInitChannel
  rw [Core.busAt_map, Res.bind_map', Res.map_bind']
  congr 1; funext bus
  refine Eq.trans (congrArg (· >>= _) (initChannel_relog hw p bus.binding)) ?_
  rw [Res.bind_map', Res.map_bind']
  congr 1; funext x
  simp only [onSnd, Core.setBinding_relog]
  exact Core.setTxEnabled_map (astTx_relog hw p) _ _ _

theorem Core.setSt_relog (p : List Logged) (c : Core (AstSt E)) (i : Nat) (bus : Bus (AstSt E)) (s : AstSt E) :
    (c.relog p).setSt i (bus.mapSt (AstSt.relog p)) (s.relog p) = (c.setSt i bus s).relog p :=
  Core.setBus_map (AstSt.relog p) c i { bus with binding := { bus.binding with st := s } }

theorem Core.astTxComplete_relog (hw : Hw E) (p : List Logged) (c : Core (AstSt E)) (i : Nat) :
    (c.relog p).astTxComplete hw i = Except.map (onFst (Core.relog p)) (c.astTxComplete hw i) := by
  unfold Core.astTxComplete
  rw [Core.busAt_map, Res.bind_map', Res.map_bind']
  congr 1; funext bus
  have e := Core.setSt_relog p c i bus { bus.binding.st with tx := { bus.binding.st.tx with state := .acquired } }
  refine Eq.trans (congrArg (fun c => Core.setTxEnabled (astOps hw) c i true) e) ?_
  exact Core.setTxEnabled_map (astTx_relog hw p) _ _ _

theorem Core.astRxStart_relog (hw : Hw E) (p : List Logged) (c : Core (AstSt E)) (i : Nat) :
    (c.relog p).astRxStart hw i = Except.map (onFst (Core.relog p)) (c.astRxStart hw i) := by
  unfold Core.astRxStart
  rw [Core.busAt_map, Res.bind_map', Res.map_bind']
  congr 1; funext bus
  refine Eq.trans (congrArg (· >>= _) (lpcRead_relog hw p bus.binding.st _ 4)) ?_
  rw [Res.bind_map', Res.map_bind']
  congr 1; funext x
  obtain ⟨_, bodyBe, s⟩ := x
  simp only
  rw [Res.map_bind']
  refine congrArg _ ?_
  funext most
  by_cases h1 : fromBe bodyBe > most
  · rw [if_pos h1, if_pos h1, Core.setSt_relog]; rfl
  rw [if_neg h1, if_neg h1]
  by_cases h2 : fromBe bodyBe > bus.binding.pktSize
  · rw [if_pos h2, if_pos (show fromBe bodyBe > (bus.mapSt (AstSt.relog p)).binding.pktSize from h2),
      Core.setSt_relog]; rfl
  rw [if_neg h2, if_neg (show ¬ fromBe bodyBe > (bus.mapSt (AstSt.relog p)).binding.pktSize from h2), Res.map_bind']
  refine congrArg _ ?_
  funext packet
  show (match pktbufAlloc c.mem c.fill bus.binding.pktSize bus.binding.pktHeader bus.binding.pktTrailer (packet - 4) with
    | (none, mem) => _ | (some pkt, mem) => _) = _
  cases pktbufAlloc c.mem c.fill bus.binding.pktSize bus.binding.pktHeader bus.binding.pktTrailer (packet - 4) with
  | mk o mem =>
    cases o with
    | none => exact congrArg (fun c => Except.ok (c, [])) (Core.setSt_relog p { c with mem := mem } i bus s)
    | some pkt =>
      simp only
      refine Eq.trans (congrArg (· >>= _) (lpcRead_relog hw p s _ _)) ?_
      rw [Res.bind_map', Res.map_bind']
      congr 1; funext x
      obtain ⟨_, bytes, s⟩ := x
      simp only
      rw [Res.map_bind']
      congr 1; funext pkt
      have e2 := kcsSend_relog hw p { s with rx := { s.rx with state := .prepared } } cmdRxComplete
      generalize hq : kcsSend hw { s with rx := { s.rx with state := .prepared } } cmdRxComplete = q at e2 ⊢
      generalize hq2 : kcsSend hw { s.relog p with rx := { (s.relog p).rx with state := .prepared } } cmdRxComplete = q2
      have : q2 = (q.1, q.2.relog p) := by rw [← hq2, ← e2]; rfl
      subst this
      obtain ⟨rc, s⟩ := q
      simp only
      have e3 : (if rc = 0 then { s.relog p with rx := { (s.relog p).rx with state := .released } } else s.relog p) =
          (if rc = 0 then ({ s with rx := { s.rx with state := .released } } : AstSt E) else s).relog p := by
        split <;> rfl
      rw [e3]
      generalize (if rc = 0 then ({ s with rx := { s.rx with state := .released } } : AstSt E) else s) = s
      have e4 : ({ c.relog p with mem := mem } : Core (AstSt E)).setSt i (bus.mapSt (AstSt.relog p)) (s.relog p) =
          (({ c with mem := mem } : Core (AstSt E)).setSt i bus s).relog p := Core.setSt_relog p { c with mem := mem } i bus s
      rw [e4]
      generalize (({ c with mem := mem } : Core (AstSt E)).setSt i bus s) = c
      rw [Res.map_bind']
      congr 1; funext ver
      by_cases h3 : ver ≠ [1]
      · rw [if_pos h3, if_pos h3, Res.map_bind']; rfl
      rw [if_neg h3, if_neg h3, Res.map_bind']
      refine congrArg _ ?_
      funext y
      by_cases h4 : y.1 = true
      · simp only [h4, if_true]
        exact Core.busRx_map (astTx_relog hw p) _ _ _
      · simp only [h4, Bool.false_eq_true, if_false]
        rw [Res.map_bind']; rfl

theorem Core.astUpdateActive_relog (hw : Hw E) (p : List Logged) (c : Core (AstSt E)) (i : Nat) (status updated : Byte) :
    (c.relog p).astUpdateActive hw i status updated =
      Except.map (onFst (Core.relog p)) (c.astUpdateActive hw i status updated) := by
  unfold Core.astUpdateActive
  rw [Core.busAt_map, Res.bind_map', Res.map_bind']
  congr 1; funext bus
  simp only
  rw [Res.map_bind']
  refine congrArg _ ?_
  funext version
  by_cases h1 : version = 0 ∨ updated &&& kcsChannelActive ≠ 0
  · rw [if_pos h1, if_pos h1]
    refine Eq.trans (congrArg (· >>= _) (finaliseChannel_relog hw p { bus.binding with st :=
      { bus.binding.st with rx := { bus.binding.st.rx with state := .idle }, tx := { bus.binding.st.tx with state := .idle } } })) ?_
    rw [Res.bind_map', Res.map_bind']
    congr 1; funext x
    obtain ⟨rc, b⟩ := x
    simp only [onSnd, Core.setBinding_relog]
    rw [Core.setTxEnabled_map (astTx_relog hw p), Res.bind_map', Res.map_bind']
    refine congrArg _ ?_
    funext y
    obtain ⟨c, e⟩ := y
    simp only [onFst]
    rw [Core.busAt_map, Res.bind_map', Res.map_bind']
    congr 1; funext bus
    exact congrArg (fun c => Except.ok (c, e, rc)) (Core.setSt_relog p c i bus { bus.binding.st with kcsStatus := status })
  · rw [if_neg h1, if_neg h1]
    exact congrArg (fun c => Except.ok (c, [], (0 : Int)))
      (Core.setSt_relog p c i bus { bus.binding.st with kcsStatus := status })

theorem Core.astUpdateChannel_relog (hw : Hw E) (p : List Logged) (c : Core (AstSt E)) (i : Nat) (status : Byte) :
    (c.relog p).astUpdateChannel hw i status =
      Except.map (onFst (Core.relog p)) (c.astUpdateChannel hw i status) := by
  unfold Core.astUpdateChannel
  rw [Core.busAt_map, Res.bind_map', Res.map_bind']
  congr 1; funext bus
  simp only
  show (if bus.binding.st.mode ≠ .host then _ else
    if (bus.binding.st.kcsStatus ^^^ status) &&& kcsBmcReady ≠ 0 then _ else _) = _
  by_cases h1 : bus.binding.st.mode ≠ .host
  · rw [if_pos h1, if_pos h1]; rfl
  rw [if_neg h1, if_neg h1]
  by_cases h2 : (bus.binding.st.kcsStatus ^^^ status) &&& kcsBmcReady ≠ 0
  · rw [if_pos h2, if_pos h2]
    by_cases h3 : status &&& kcsBmcReady ≠ 0
    · rw [if_pos h3, if_pos h3]
      refine Eq.trans (congrArg (· >>= _) (astStart_relog hw p { bus.binding.st with kcsStatus := status })) ?_
      rw [Res.bind_map', Res.map_bind']
      congr 1; funext x
      exact congrArg (fun c => Except.ok (c, [], x.1)) (Core.setSt_relog p c i bus x.2)
    · rw [if_neg h3, if_neg h3]
      refine Eq.trans (congrArg (fun c => Core.setTxEnabled (astOps hw) c i false >>= _) (Core.setSt_relog p c i bus
        { bus.binding.st with rx := { bus.binding.st.rx with state := .idle }, tx := { bus.binding.st.tx with state := .idle } })) ?_
      rw [Core.setTxEnabled_map (astTx_relog hw p), Res.bind_map', Res.map_bind']
      congr 1; funext x
      refine Eq.trans (congrArg (· >>= _) (Core.astUpdateActive_relog hw p x.1 i status _)) ?_
      rw [Res.bind_map', Res.map_bind']
      rfl
  · rw [if_neg h2, if_neg h2]
    exact Core.astUpdateActive_relog hw p c i status _

theorem astRetry_relog (hw : Hw E) (p : List Logged) (s : AstSt E) :
    astRetry hw (s.relog p) = (astRetry hw s).relog p := by
  have half1 : ∀ s : AstSt E, (if (s.relog p).rx.state = .prepared then
        (if (kcsSend hw (s.relog p) cmdRxComplete).1 = 0 then
          { (kcsSend hw (s.relog p) cmdRxComplete).2 with rx := { (kcsSend hw (s.relog p) cmdRxComplete).2.rx with state := .released } }
          else (kcsSend hw (s.relog p) cmdRxComplete).2) else s.relog p) =
      (if s.rx.state = .prepared then
        (if (kcsSend hw s cmdRxComplete).1 = 0 then
          { (kcsSend hw s cmdRxComplete).2 with rx := { (kcsSend hw s cmdRxComplete).2.rx with state := .released } }
          else (kcsSend hw s cmdRxComplete).2) else s).relog p := by
    intro s
    rw [kcsSend_relog]
    by_cases h1 : s.rx.state = .prepared
    · rw [if_pos h1, if_pos (show (s.relog p).rx.state = .prepared from h1)]
      split <;> rfl
    · rw [if_neg h1, if_neg (show ¬ (s.relog p).rx.state = .prepared from h1)]
  have half2 : ∀ s : AstSt E, (if (s.relog p).tx.state = .prepared then
        (if (kcsSend hw (s.relog p) cmdTxBegin).1 = 0 then
          { (kcsSend hw (s.relog p) cmdTxBegin).2 with tx := { (kcsSend hw (s.relog p) cmdTxBegin).2.tx with state := .released } }
          else (kcsSend hw (s.relog p) cmdTxBegin).2) else s.relog p) =
      (if s.tx.state = .prepared then
        (if (kcsSend hw s cmdTxBegin).1 = 0 then
          { (kcsSend hw s cmdTxBegin).2 with tx := { (kcsSend hw s cmdTxBegin).2.tx with state := .released } }
          else (kcsSend hw s cmdTxBegin).2) else s).relog p := by
    intro s
    rw [kcsSend_relog]
    by_cases h1 : s.tx.state = .prepared
    · rw [if_pos h1, if_pos (show (s.relog p).tx.state = .prepared from h1)]
      split <;> rfl
    · rw [if_neg h1, if_neg (show ¬ (s.relog p).tx.state = .prepared from h1)]
  unfold astRetry
  have h1 := half1 s
  refine Eq.trans ?_ (half2 _)
  rw [← h1]

theorem Core.astAfter_relog (hw : Hw E) (p : List Logged) (c : Core (AstSt E)) (i : Nat) (mode : AstMode)
    (status data : Byte) (rc : Int) :
    (c.relog p).astAfter hw i mode status data rc =
      Except.map (onFst (Core.relog p)) (c.astAfter hw i mode status data rc) := by
  unfold Core.astAfter
  rw [Core.astUpdateChannel_relog, Res.map_ite]
  rfl

theorem Core.astCommand_relog (hw : Hw E) (p : List Logged) (c : Core (AstSt E)) (i : Nat) (status data : Byte) :
    (c.relog p).astCommand hw i status data =
      Except.map (onFst (Core.relog p)) (c.astCommand hw i status data) := by
  unfold Core.astCommand
  rw [Core.busAt_map, Res.bind_map', Res.map_bind']
  congr 1; funext bus
  simp only [Core.astInitChannel_relog, Core.astRxStart_relog, Core.astTxComplete_relog, Core.astUpdateChannel_relog,
    Res.map_ite, Res.map_bind', Res.bind_map', onFst]
  rfl

theorem Core.astPoll_relog (hw : Hw E) (p : List Logged) (c : Core (AstSt E)) (i : Nat) :
    (c.relog p).astPoll hw i = Except.map (onFst (Core.relog p)) (c.astPoll hw i) := by
  unfold Core.astPoll
  rw [Core.busAt_map, Res.bind_map', Res.map_bind']
  congr 1; funext bus
  rw [show (bus.mapSt (AstSt.relog p)).binding.st = bus.binding.st.relog p from rfl, astRetry_relog]
  generalize astRetry hw bus.binding.st = s
  simp only [kcsRead_relog]
  generalize kcsRead hw s .status = q
  obtain ⟨rc, status, s⟩ := q
  simp only
  by_cases h1 : rc ≠ 0
  · rw [if_pos h1, if_pos h1, Core.setSt_relog]; rfl
  rw [if_neg h1, if_neg h1]
  by_cases h2 : (!kcsReady s.mode status false) = true
  · rw [if_pos h2, if_pos (show (!kcsReady (s.relog p).mode status false) = true from h2), Core.setSt_relog]; rfl
  rw [if_neg h2, if_neg (show ¬ (!kcsReady (s.relog p).mode status false) = true from h2)]
  generalize kcsRead hw s .data = q
  obtain ⟨rc, data, s⟩ := q
  simp only [Core.setSt_relog]
  by_cases h3 : rc ≠ 0
  · rw [if_pos h3, if_pos h3]; rfl
  rw [if_neg h3, if_neg h3, Res.map_bind']
  refine congrArg _ ?_
  funext version
  by_cases h4 : version = 0 ∧ ¬ (data = cmdInitialise ∨ data = cmdDummy)
  · rw [if_pos h4, if_pos h4]; rfl
  rw [if_neg h4, if_neg h4, Core.astCommand_relog, Res.bind_map', Res.map_bind']
  congr 1; funext x
  obtain ⟨c, e1, rc, stop⟩ := x
  simp only [onFst]
  cases stop
  · simp only [Bool.false_eq_true, if_false]
    rw [Core.astAfter_relog, Res.bind_map', Res.map_bind']
    rfl
  · rfl

theorem Core.astStep_relog (hw : Hw E) (p : List Logged) (c : Core (AstSt E)) (op : AstOp) :
    (c.relog p).astStep hw op = Except.map (onFst (Core.relog p)) (c.astStep hw op) := by
  unfold Core.astStep
  cases op with
  | send eid o tag msg => exact Core.messageTx_map (astTx_relog hw p) c eid o tag msg
  | setMax n => rfl
  | setCapture on => rfl
  | setRx on => rfl
  | poll => exact Core.astPoll_relog hw p c 0

/-- Any history: the same events, return codes and faults, and the same accesses after those recorded before. -/
theorem Core.astRun_relog (hw : Hw E) (p : List Logged) : ∀ (hist : List AstOp) (c : Core (AstSt E)),
    (c.relog p).astRun hw hist = Except.map (onFst (Core.relog p)) (c.astRun hw hist)
  | [], c => rfl
  | op :: rest, c => by
    have ih := Core.astRun_relog hw p rest
    unfold Core.astRun
    rw [Core.astStep_relog, Res.bind_map', Res.map_bind']
    congr 1; funext x
    simp only [onFst, ih]
    rw [Res.bind_map', Res.map_bind']
    rfl

end Mctp
