import Verif.Proofs.Basic

/-!
# The receive path, factored

`ctxRx` is the effect of one fragment of a multi-packet message on the reassembly contexts; the model's
`Core.busRxBody` is shown equal to it followed by `Core.rx`.
-/

namespace Mctp

variable {β : Type}

/-- The slot a start packet uses, with its contents already prepared. -/
def somSlot (t : List Ctx) (src dest tag : Byte) (len : Nat) : Option (Nat × Ctx) :=
  match ctxLookup t src dest tag with
  | some k => (t[k]?).map fun x => (k, { x with data := [], fragSize := len })
  | none =>
    match t.findIdx? fun c => c.src == 0 with
    | none => none
    | some k => (t[k]?).map fun x =>
        (k, { x with src := src, dest := dest, tag := tag, data := [], fragSize := len })

/-- Effect of one non-single fragment on allocator and contexts; the message completed, if any. -/
def ctxRx (m : Mem) (t : List Ctx) (maxSize : Nat) (pkt : Pktbuf) (src dest tag seq : Byte)
    (som eom : Bool) : Res (Mem × List Ctx × Option (List Byte)) :=
  if som then
    match somSlot t src dest tag pkt.len with
    | none => .ok (m, t, none)
    | some (k, x) => do
      let (m', x', ok) ← ctxAddPkt m x pkt maxSize
      .ok (m', t.set k (if ok then { x' with lastSeq := seq } else x'.drop), none)
  else
    match ctxLookup t src dest tag with
    | none => .ok (m, t, none)
    | some k =>
      match t[k]? with
      | none => .error .outOfBounds
      | some x =>
        if BitVec.ofNat 8 ((x.lastSeq.toNat + 1) % 4) ≠ seq then .ok (m, t.set k x.drop, none)
        else if (if eom then pkt.len > x.fragSize else pkt.len ≠ x.fragSize) then
          .ok (m, t.set k x.drop, none)
        else do
          let (m', x', ok) ← ctxAddPkt m x pkt maxSize
          if eom then .ok (m', t.set k x'.drop, if ok then some x'.data else none)
          else .ok (m', t.set k (if ok then { x' with lastSeq := seq } else x'.drop), none)

theorem lookup_lt {t : List Ctx} {s d g : Byte} {k : Nat} (h : ctxLookup t s d g = some k) :
    ∃ x, t[k]? = some x ∧ x.src = s ∧ x.dest = d ∧ x.tag = g := by
  unfold ctxLookup at h
  obtain ⟨h1, h2, h3⟩ := List.findIdx?_eq_some_iff_getElem.mp h
  refine ⟨t[k], by simp [h1], ?_⟩
  simpa [and_assoc] using h2

theorem ctxAppend_eq_ok {m : Mem} {x : Ctx} {pkt : Pktbuf} {len : Nat} {x' : Ctx}
    (h : ctxAppend m x pkt len = .ok x') :
    ∃ pl i, pkt.read (pkt.hdrOff + hdrSize) len = .ok pl ∧ pl.length = len ∧
      x.buf = some i ∧ i ∈ m.live ∧
      x.data.length + len ≤ x.allocSize ∧ x' = { x with data := x.data ++ pl } := by
  unfold ctxAppend at h
  split at h
  · cases h
  · rename_i pl hr
    have hl : pl.length = len := by
      unfold Pktbuf.read at hr
      split at hr
      · simp at hr; subst hr; simp; omega
      · cases hr
    cases hb : x.buf with
    | none => simp [Mem.deref, hb] at h
    | some i =>
      by_cases hi : i ∈ m.live
      · by_cases hle : x.data.length + len ≤ x.allocSize
        · simp [Mem.deref, hb, hi, hle] at h
          exact ⟨pl, i, hr, hl, rfl, hi, hle, by rw [← h, ← hb]⟩
        · simp [Mem.deref, hb, hi, hle] at h
      · simp [Mem.deref, hb, hi] at h

/-- All outcomes of adding a fragment to a context. -/
theorem ctxAddPkt_cases {m : Mem} {x : Ctx} {pkt : Pktbuf} {mx : Nat} {m' : Mem} {x' : Ctx}
    {ok : Bool} (h : ctxAddPkt m x pkt mx = .ok (m', x', ok)) :
    (ok = false ∧ m' = m ∧ x' = x) ∨
    (ok = false ∧ x' = x ∧ ∃ m1, m.realloc x.buf = .ok (none, m1) ∧ m1.free x.buf = .ok m') ∨
    (ok = true ∧ ∃ b n pl, x.data.length + (pkt.len - hdrSize) > x.allocSize ∧
        n = newAllocSize x.allocSize x.data.length (pkt.len - hdrSize) ∧ n ≤ mx ∧
        m.realloc x.buf = .ok (some b, m') ∧
        pkt.read (pkt.hdrOff + hdrSize) (pkt.len - hdrSize) = .ok pl ∧
        pl.length = pkt.len - hdrSize ∧ x.data.length + pl.length ≤ n ∧ b ∈ m'.live ∧
        x' = { x with buf := some b, allocSize := n, data := x.data ++ pl }) ∨
    (ok = true ∧ m' = m ∧ ∃ i pl, x.buf = some i ∧ i ∈ m.live ∧
        pkt.read (pkt.hdrOff + hdrSize) (pkt.len - hdrSize) = .ok pl ∧
        pl.length = pkt.len - hdrSize ∧ x.data.length + pl.length ≤ x.allocSize ∧
        x' = { x with data := x.data ++ pl }) := by
  unfold ctxAddPkt at h
  simp only at h
  split at h
  · simp at h; obtain ⟨rfl, rfl, rfl⟩ := h; simp
  · split at h
    · rename_i hgt
      split at h
      · simp at h; obtain ⟨rfl, rfl, rfl⟩ := h; simp
      · rename_i hmx
        split at h
        · cases h
        · rename_i b m1 hre
          split at h
          · cases h
          · rename_i c' happ
            simp at h; obtain ⟨rfl, rfl, rfl⟩ := h
            obtain ⟨pl, i, h1, h2, h3, h4, h5, h6⟩ := ctxAppend_eq_ok happ
            simp at h3; subst h3
            simp at h5
            refine .inr (.inr (.inl ⟨rfl, b, _, pl, hgt, rfl, by omega, hre, h1, h2, ?_, h4, h6⟩))
            omega
        · rename_i m1 hre
          split at h
          · cases h
          · rename_i m2 hf
            simp at h; obtain ⟨rfl, rfl, rfl⟩ := h
            exact .inr (.inl ⟨rfl, rfl, m1, hre, hf⟩)
    · split at h
      · cases h
      · rename_i c' happ
        simp at h; obtain ⟨rfl, rfl, rfl⟩ := h
        obtain ⟨pl, i, h1, h2, h3, h4, h5, h6⟩ := ctxAppend_eq_ok happ
        exact .inr (.inr (.inr ⟨rfl, rfl, i, pl, h3, h4, h1, h2, by omega, h6⟩))

theorem ctxAddPkt_fields {m : Mem} {x : Ctx} {pkt : Pktbuf} {mx : Nat} {m' : Mem} {x' : Ctx}
    {ok : Bool} (h : ctxAddPkt m x pkt mx = .ok (m', x', ok)) :
    x'.src = x.src ∧ x'.dest = x.dest ∧ x'.tag = x.tag ∧ x'.lastSeq = x.lastSeq ∧
    x'.fragSize = x.fragSize ∧
    (ok = false → x' = x) ∧
    (ok = true → ∃ pl, pkt.read (pkt.hdrOff + hdrSize) (pkt.len - hdrSize) = .ok pl ∧
      x'.data = x.data ++ pl ∧ x'.data.length ≤ x'.allocSize) := by
  rcases ctxAddPkt_cases h with ⟨h1, h2, h3⟩ | ⟨h1, h2, h3⟩ | ⟨h1, b, n, pl, _, _, _, _, h5, h6, h7, _, h8⟩ |
    ⟨h1, h2, i, pl, h3, h4, h5, h6, h7, h8⟩
  all_goals subst_vars; simp_all

/-- Replacing the contexts commutes with an operation that neither reads nor writes them. -/
theorem busAt_ctxs (c : Core β) (t : List Ctx) (i : Nat) :
    ({ c with ctxs := t } : Core β).busAt i = c.busAt i := rfl

theorem sendTxQueue_ctxs (ops : Ops β) (c : Core β) (t : List Ctx) (i : Nat) :
    ({ c with ctxs := t } : Core β).sendTxQueue ops i =
      (c.sendTxQueue ops i).map (fun r => ({ r.1 with ctxs := t }, r.2)) := by
  unfold Core.sendTxQueue
  rw [busAt_ctxs]
  cases c.busAt i with
  | error e => rfl
  | ok bus =>
    simp only [Res.bind_ok]
    cases sendQueue ops c.hasCapture i c.mem bus bus.queue <;> rfl

theorem messageTxOnBus_ctxs (ops : Ops β) (c : Core β) (t : List Ctx) (i : Nat) (src dest : Byte)
    (to : Bool) (tag : Byte) (msg : List Byte) :
    ({ c with ctxs := t } : Core β).messageTxOnBus ops i src dest to tag msg =
      (c.messageTxOnBus ops i src dest to tag msg).map
        (fun r => ({ r.1 with ctxs := t }, r.2)) := by
  unfold Core.messageTxOnBus
  rw [busAt_ctxs]
  cases c.busAt i with
  | error e => rfl
  | ok bus =>
    simp only [Res.bind_ok]
    split
    · rfl
    · split
      · rfl
      · split
        · rfl
        · cases txLoop c.fill bus.binding src dest to tag (bodySize bus.binding.pktSize) msg
            msg.length 0 0 c.mem bus.queue with
          | error e => rfl
          | ok r =>
            simp only [Res.bind_ok]
            have := sendTxQueue_ctxs ops
              (({ c with mem := r.1 } : Core β).setBus i { bus with queue := r.2 }) t i
            simp only [Core.setBus] at this ⊢
            rw [this]
            cases Core.sendTxQueue ops { c with mem := r.1, busses := c.busses.set i { bus with queue := r.2 } } i <;> rfl

theorem bridgeLoop_ctxs (ops : Ops β) (inBus : Nat) (src dest : Byte) (to : Bool) (tag : Byte)
    (msg : List Byte) (t : List Ctx) (js : List Nat) (c : Core β) :
    bridgeLoop ops inBus src dest to tag msg js { c with ctxs := t } =
      (bridgeLoop ops inBus src dest to tag msg js c).map
        (fun r => ({ r.1 with ctxs := t }, r.2)) := by
  induction js generalizing c with
  | nil => rfl
  | cons j js ih =>
    unfold bridgeLoop
    split
    · exact ih c
    · rw [messageTxOnBus_ctxs]
      cases h : c.messageTxOnBus ops j src dest to tag msg with
      | error e => rfl
      | ok r =>
        simp only [Except.map, Res.bind_ok]
        rw [ih]
        cases bridgeLoop ops inBus src dest to tag msg js r.1 <;> rfl

theorem rx_ctxs (ops : Ops β) (c : Core β) (t : List Ctx) (i : Nat) (bus : Bus β) (src dest : Byte)
    (to : Bool) (tag : Byte) (msg : List Byte) :
    ({ c with ctxs := t } : Core β).rx ops i bus src dest to tag msg =
      (c.rx ops i bus src dest to tag msg).map (fun r => ({ r.1 with ctxs := t }, r.2)) := by
  unfold Core.rx
  simp only
  split
  · exact bridgeLoop_ctxs ..
  · split
    · split
      · rfl
      · split <;> rfl
    · rfl

/-- The contexts are not changed by routing a message. -/
theorem rx_ctxs_eq {ops : Ops β} {c : Core β} {i : Nat} {bus : Bus β} {src dest : Byte} {to : Bool}
    {tag : Byte} {msg : List Byte} {c' : Core β} {e : List Event}
    (h : c.rx ops i bus src dest to tag msg = .ok (c', e)) : c'.ctxs = c.ctxs := by
  have := rx_ctxs ops c c.ctxs i bus src dest to tag msg
  rw [show ({ c with ctxs := c.ctxs } : Core β) = c from rfl, h] at this
  simp [Except.map] at this
  rw [this]

/-- `mctp_bus_rx` after the address filter, for fragments of multi-packet messages. -/
def Core.rxFrag (ops : Ops β) (c : Core β) (i : Nat) (bus : Bus β) (pkt : Pktbuf)
    (src dest tag seq : Byte) (to som eom : Bool) : Res (Core β × List Event) := do
  let (m, t, out) ← ctxRx c.mem c.ctxs c.maxSize pkt src dest tag seq som eom
  let c' := { c with mem := m, ctxs := t }
  match out with
  | none => .ok (c', [])
  | some msg => c'.rx ops i bus src dest to tag msg

theorem modify_set {t : List Ctx} {k : Nat} {x y : Ctx} {f : Ctx → Ctx} (_h : t[k]? = some x) :
    (t.modify k f).set k y = t.set k y := by
  apply List.ext_getElem?
  intro n
  simp only [List.getElem?_set, List.getElem?_modify, List.length_modify]
  split
  · rfl
  · simp_all

theorem rxSom_eq (ops : Ops β) (c : Core β) (i : Nat) (bus : Bus β) (pkt : Pktbuf)
    (src dest tag seq : Byte) (to eom : Bool) :
    (c.rxSom pkt src dest tag seq).map (fun c' => (c', ([] : List Event))) =
      c.rxFrag ops i bus pkt src dest tag seq to true eom := by
  unfold Core.rxSom Core.rxFrag ctxRx somSlot
  simp only [if_true]
  cases hl : ctxLookup c.ctxs src dest tag with
  | some k =>
    obtain ⟨x, hx, -⟩ := lookup_lt hl
    simp only [hx, Option.map_some, List.getElem?_modify, if_true, Option.map_eq_map, Option.map_some, Ctx.reset]
    cases ctxAddPkt c.mem { x with data := [], fragSize := pkt.len } pkt c.maxSize with
    | error e => rfl
    | ok r => simp only [Res.bind_ok, Except.map]; rw [modify_set hx]
  | none =>
    simp only [ctxCreate]
    cases hf : List.findIdx? (fun c => c.src == 0) c.ctxs with
    | none => simp only [Res.bind_ok, Except.map]
    | some k =>
      obtain ⟨h1, h2, h3⟩ := List.findIdx?_eq_some_iff_getElem.mp hf
      have hx : c.ctxs[k]? = some c.ctxs[k] := by simp [h1]
      simp only [hx, Option.map_some, List.getElem?_modify, if_true, Option.map_eq_map, Option.map_some]
      cases ctxAddPkt c.mem { c.ctxs[k] with src := src, dest := dest, tag := tag, data := [], fragSize := pkt.len } pkt c.maxSize with
      | error e => rfl
      | ok r => simp only [Res.bind_ok, Except.map]; rw [modify_set hx]

theorem rxEom_eq (ops : Ops β) (c : Core β) (i : Nat) (bus : Bus β) (pkt : Pktbuf)
    (src dest tag seq : Byte) (to : Bool) :
    c.rxEom ops i bus pkt src dest tag seq to =
      c.rxFrag ops i bus pkt src dest tag seq to false true := by
  unfold Core.rxEom Core.rxFrag ctxRx
  cases hl : ctxLookup c.ctxs src dest tag with
  | none => rfl
  | some k =>
    obtain ⟨x, hx, hs, hd, ht⟩ := lookup_lt hl
    simp only [hx, Bool.false_eq_true, if_false, if_true]
    split
    · rfl
    · split
      · rfl
      · cases ha : ctxAddPkt c.mem x pkt c.maxSize with
        | error e => rfl
        | ok r =>
          obtain ⟨m', x', ok⟩ := r
          have hfld := ctxAddPkt_fields ha
          simp only [Res.bind_ok, Core.setCtx]
          cases ok with
          | false => simp
          | true =>
            simp only [if_true]
            rw [hfld.1, hfld.2.1, hs, hd]
            have h1 := rx_ctxs ops { c with mem := m' } (c.ctxs.set k x') i bus src dest to tag x'.data
            have h2 := rx_ctxs ops { c with mem := m' } (c.ctxs.set k x'.drop) i bus src dest to tag x'.data
            simp only at h1 h2
            rw [h1, h2]
            cases Core.rx ops { c with mem := m' } i bus src dest to tag x'.data with
            | error e => rfl
            | ok r => simp [Except.map, Res.bind_ok]

theorem rxMid_eq (ops : Ops β) (c : Core β) (i : Nat) (bus : Bus β) (pkt : Pktbuf)
    (src dest tag seq : Byte) (to : Bool) :
    (c.rxMid pkt src dest tag seq).map (fun c' => (c', ([] : List Event))) =
      c.rxFrag ops i bus pkt src dest tag seq to false false := by
  unfold Core.rxMid Core.rxFrag ctxRx
  cases hl : ctxLookup c.ctxs src dest tag with
  | none => rfl
  | some k =>
    obtain ⟨x, hx, hs, hd, ht⟩ := lookup_lt hl
    simp only [hx, Bool.false_eq_true, if_false]
    split
    · rfl
    · split
      · rfl
      · cases ha : ctxAddPkt c.mem x pkt c.maxSize with
        | error e => rfl
        | ok r => rfl

/-- `busRxBody`, factored. -/
theorem busRxBody_eq (ops : Ops β) (c : Core β) (i : Nat) (bus : Bus β) (pkt : Pktbuf) :
    c.busRxBody ops i bus pkt =
      (match pkt.read pkt.hdrOff hdrSize with
       | .error e => .error e
       | .ok [_, dest, src, f] =>
         if !c.bridge && !destIsLocal bus.eid dest then .ok (c, [])
         else if hdrSom f && hdrEom f then
           match pkt.read (pkt.hdrOff + hdrSize) (pkt.«end» - pkt.hdrOff - hdrSize) with
           | .error e => .error e
           | .ok msg => c.rx ops i bus src dest (hdrTO f) (hdrTag f) msg
         else c.rxFrag ops i bus pkt src dest (hdrTag f) (hdrSeq f) (hdrTO f) (hdrSom f) (hdrEom f)
       | .ok _ => .error .outOfBounds) := by
  unfold Core.busRxBody
  cases hr : pkt.read pkt.hdrOff hdrSize with
  | error e => rfl
  | ok hdr =>
    simp only [Res.bind_ok]
    match hdr with
    | [] => rfl
    | [_] => rfl
    | [_, _] => rfl
    | [_, _, _] => rfl
    | _ :: _ :: _ :: _ :: _ :: _ => rfl
    | [v, dest, src, f] =>
      simp only
      split
      · rfl
      · cases hs : hdrSom f <;> cases he : hdrEom f <;> simp only [Bool.and_true, Bool.and_false, Bool.false_eq_true, if_false, if_true]
        · rw [← rxMid_eq ops c i bus pkt]
          cases c.rxMid pkt src dest (hdrTag f) (hdrSeq f) <;> rfl
        · exact rxEom_eq ..
        · rw [← rxSom_eq ops c i bus pkt]
          cases c.rxSom pkt src dest (hdrTag f) (hdrSeq f) <;> rfl
        · cases pkt.read (pkt.hdrOff + hdrSize) (pkt.«end» - pkt.hdrOff - hdrSize) <;> rfl

end Mctp
