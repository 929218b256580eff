import Verif.Props.Rx
import Verif.Spec.Control

/-!
# Properties of the receive path (C04, C05, C11-C17)
-/

namespace Mctp

open Spec

variable {β : Type}

/-! ## C04, C05: null sources and the tag-owner bit -/

/-- **C04** is false: source 9 sends a start packet with payload `[0x53, 0x45]`; a sequence error drops
its message; an end packet with source EID 0 then makes the endpoint deliver the bytes of source 9,
attributed to source 0. -/
theorem C04_null_source_leak :
    Demo.run Demo.core
      [.recv 0 (Demo.pkt 9 8 0x81 [0x53, 0x45]), .recv 0 (Demo.pkt 9 8 0x31 [0x00, 0x00]),
       .recv 0 (Demo.pkt 0 8 0x51 [0x21])] =
    some [.recv 0 (Demo.pkt 9 8 0x81 [0x53, 0x45]), .recv 0 (Demo.pkt 9 8 0x31 [0x00, 0x00]),
          .recv 0 (Demo.pkt 0 8 0x51 [0x21]), .rxMsg 0 false 1 [0x53, 0x45, 0x21]] := by
  decide +kernel

/-- **C05** is false: two messages from source 9 with tag 1, one with tag owner set and one without,
interleaved: the second start packet discards the first message, whose end packet is then appended to
the second; the end packet of the second message is lost. -/
theorem C05_tag_owner_not_separated :
    Demo.run Demo.core
      [.recv 0 (Demo.pkt 9 8 0x89 [1, 1]), .recv 0 (Demo.pkt 9 8 0x81 [2, 2]),
       .recv 0 (Demo.pkt 9 8 0x59 [3]), .recv 0 (Demo.pkt 9 8 0x51 [4])] =
    some [.recv 0 (Demo.pkt 9 8 0x89 [1, 1]), .recv 0 (Demo.pkt 9 8 0x81 [2, 2]),
          .recv 0 (Demo.pkt 9 8 0x59 [3]), .rxMsg 9 true 1 [2, 2, 3],
          .recv 0 (Demo.pkt 9 8 0x51 [4])] := by
  decide +kernel

/-- **C05** (what holds) As long as the two kinds of messages are not interleaved the tag-owner bit is respected: a message whose packets all have
the tag-owner bit `o` and between whose packets no packet with the same source, destination and tag arrives is delivered once, with that
bit, whatever was received before: complete or incomplete messages with either value of the bit.  (A message that starts with a control type may
go to the control handler, see C17.)  The full property would allow the packets of a message with the other value in between. -/
theorem C05_in_turn_partial {ops : Ops β} (K : Contract ops) {eid : Byte} {mx : Nat} {mem : Mem}
    {c0 : Core β} (hc : Configured ops eid mx mem c0) (hcl : Clean mem) (hsz : SizesOk K c0)
    (hmx1 : 4096 ≤ mx) (hmx2 : mx < 2 ^ 64)
    {pre rest : List (Op β)} {p : List Byte}
    (hok : HistOk K c0 (pre ++ .recv 0 p :: rest)) (hst : Steady (pre ++ .recv 0 p :: rest))
    {start last : Frag} {mids : List Frag} (hmsg : IsMessage start mids last)
    (hsrc : start.src ≠ 0) (hloc : Local eid start.dest) (hp : parse p = some start)
    (hrest : opFrags start.key rest = mids ++ [last])
    (hlen : 2 * (content (start :: mids ++ [last])).length ≤ mx)
    {ks : List Key} (hks : ks.length ≤ 15)
    (hfew : ∀ i bs f, Op.recv i bs ∈ pre → parse bs = some f → f.som = true → f.eom = false →
      f.key ∈ ks)
    {o : Bool} (ho : ∀ f ∈ start :: mids ++ [last], f.tagOwner = o) :
    ∃ c logp r0 logr, c0.run ops (pre ++ .recv 0 p :: rest) = .ok (c, logp ++ r0 :: logr) ∧
      logp.map (·.op) = pre ∧ r0.op = .recv 0 p ∧ logr.map (·.op) = rest ∧
      ∃ ev, (((r0 :: logr).filter (ofStream start.key)).flatMap (·.evs)).filter (fun ev => (delivered ev).isSome) = [ev] ∧
        (ev = .rxMsg start.src o (BitVec.ofNat 8 start.tag) (content (start :: mids ++ [last])) ∨
          ∃ o' g, ev = .ctrlRx 0 start.src o' g (content (start :: mids ++ [last]))) := by
  obtain ⟨c, logp, r0, logr, h1, h2, h3, h4, h5⟩ := C02_reassembly_complete K hc hcl hsz hmx1 hmx2 hok hst hmsg hsrc hloc hp hrest hlen hks hfew
  refine ⟨c, logp, r0, logr, h1, h2, h3, h4, ?_⟩
  have hfm : ∀ l : List (Rec β), (l.flatMap (·.evs)).filterMap delivered = l.flatMap (fun r => deliveries r.evs) := by
    intro l
    induction l with
    | nil => rfl
    | cons r l ih => rw [List.flatMap_cons, List.filterMap_append, ih]; rfl
  rw [← hfm] at h5
  have hone : ∀ (l : List Event) (x : Byte × List Byte), l.filterMap delivered = [x] →
      ∃ ev, l.filter (fun ev => (delivered ev).isSome) = [ev] ∧ delivered ev = some x ∧ ev ∈ l := by
    intro l
    induction l with
    | nil => intro x h; cases h
    | cons ev l ih =>
      intro x h
      rw [List.filterMap_cons] at h
      cases hd : delivered ev with
      | none =>
        rw [hd] at h
        obtain ⟨ev', a, b, cc⟩ := ih x h
        exact ⟨ev', by rw [List.filter_cons, hd]; exact a, b, List.mem_cons_of_mem _ cc⟩
      | some y =>
        rw [hd] at h
        simp only [List.cons.injEq] at h
        obtain ⟨rfl, h⟩ := h
        refine ⟨ev, ?_, hd, List.mem_cons_self ..⟩
        rw [List.filter_cons, hd]
        simp only [Option.isSome_some, if_true, List.cons.injEq, true_and]
        rw [List.filter_eq_nil_iff]
        intro z hz hs
        have := List.filterMap_eq_nil_iff.mp h z hz
        rw [this] at hs; cases hs
  obtain ⟨ev, e1, e2, e3⟩ := hone _ _ h5
  refine ⟨ev, e1, ?_⟩
  obtain ⟨r, hr, hev⟩ := List.mem_flatMap.mp e3
  obtain ⟨hr, hof⟩ := List.mem_filter.mp hr
  obtain ⟨l1, l2, hl⟩ := List.append_of_mem hr
  rw [hl, ← List.append_assoc] at h1
  obtain ⟨c1, c2, H1, H2, -, hr1, hs, -⟩ := run_split h1
  obtain ⟨bytes, f, a1, a2, a3, a4, -, a6, -⟩ := delivery_sound (run_epInv hc.epInv hr1) hs hev e2
  have hf : f ∈ start :: mids ++ [last] := by
    have hfb : (fragB start.key bytes).isSome = true := by
      unfold ofStream at hof
      rw [a1] at hof
      exact hof
    obtain ⟨f', hf'⟩ := Option.isSome_iff_exists.mp hfb
    obtain ⟨b1, -, -⟩ := fragB_some hf'
    rw [a2] at b1
    cases b1
    rcases List.mem_cons.mp hr with rfl | hr
    · rw [h3] at a1
      cases a1
      rw [hp] at a2
      cases a2
      simp
    · have : f ∈ opFrags start.key rest := by
        unfold opFrags
        rw [← h4]
        exact List.mem_filterMap.mpr ⟨r.op, List.mem_map_of_mem hr, by rw [a1]; exact hf'⟩
      rw [hrest] at this
      simp only [List.cons_append, List.mem_cons]
      exact .inr this
  have hk : f.key = start.key := by
    have hfb : (fragB start.key bytes).isSome = true := by
      unfold ofStream at hof
      rw [a1] at hof
      exact hof
    obtain ⟨f', hf'⟩ := Option.isSome_iff_exists.mp hfb
    obtain ⟨b1, b2, -⟩ := fragB_some hf'
    rw [a2] at b1
    cases b1
    exact b2
  have htag : f.tag = start.tag := by have := congrArg Key.tag hk; exact this
  rw [← a4, ho f hf, htag] at a6
  rcases a6 with a6 | ⟨x, y, a6⟩
  · exact .inl a6
  · exact .inr ⟨x, y, a6⟩

/-- The hypotheses are met: an incomplete message with the bit clear, then a message with the same source and tag and the bit set. -/
example : Demo.run Demo.core
      [.recv 0 (Demo.pkt 9 8 0x81 [2, 2]), .recv 0 (Demo.pkt 9 8 0x89 [1, 1]), .recv 0 (Demo.pkt 9 8 0x59 [3])] =
    some [.recv 0 (Demo.pkt 9 8 0x81 [2, 2]), .recv 0 (Demo.pkt 9 8 0x89 [1, 1]), .recv 0 (Demo.pkt 9 8 0x59 [3]),
      .rxMsg 9 true 1 [1, 1, 3]] ∧
    opFrags (β := Unit) ⟨9, 8, 1⟩ [.recv 0 (Demo.pkt 9 8 0x59 [3])] = [⟨9, 8, 1, 1, true, false, true, [3]⟩] := by
  decide +kernel

/-! ## C11: the size limit -/

theorem ctxRx_bound {m m' : Mem} {t t' : List Ctx} {mx L : Nat} {pkt : Pktbuf} {s d g q : Byte}
    {som eom : Bool} {out : Option (List Byte)} (hA : ∀ x ∈ t, x.allocSize ≤ L) (hmx : mx ≤ L)
    (h : ctxRx m t mx pkt s d g q som eom = .ok (m', t', out)) :
    (∀ x ∈ t', x.allocSize ≤ L) ∧ ∀ msg, out = some msg → msg.length ≤ L := by
  have hadd : ∀ x x1 m1 ok, x.allocSize ≤ L → ctxAddPkt m x pkt mx = .ok (m1, x1, ok) →
      x1.allocSize ≤ L ∧ (ok = true → x1.data.length ≤ L) := by
    intro x x1 m1 ok hxA h1
    have hf := (ctxAddPkt_fields h1).2.2.2.2.2.2
    rcases ctxAddPkt_cases h1 with ⟨_, _, rfl⟩ | ⟨_, rfl, _⟩ | ⟨_, b, n, pl, _, rfl, hle, _, _, _, hfit, _, rfl⟩ | ⟨_, _, i, pl, _, _, _, _, hfit, rfl⟩
    · exact ⟨hxA, fun h => by obtain ⟨_, _, _, h⟩ := hf h; omega⟩
    · exact ⟨hxA, fun h => by obtain ⟨_, _, _, h⟩ := hf h; omega⟩
    · refine ⟨by simp only; omega, fun h => ?_⟩
      simp only [List.length_append]; omega
    · refine ⟨hxA, fun h => ?_⟩
      simp only [List.length_append]; omega
  have hset : ∀ k (y : Ctx), y.allocSize ≤ L → ∀ z ∈ t.set k y, z.allocSize ≤ L := by
    intro k y hy z hz
    rcases mem_set_cases hz with hz | rfl
    · exact hA z hz
    · exact hy
  unfold ctxRx at h
  split at h
  · split at h
    · simp only [Except.ok.injEq, Prod.mk.injEq] at h
      obtain ⟨_, rfl, rfl⟩ := h; exact ⟨hA, by simp⟩
    · rename_i k y hsl
      have hy : y.allocSize ≤ L := by
        unfold somSlot at hsl
        split at hsl
        · cases hx : t[‹Nat›]? with
          | none => rw [hx] at hsl; cases hsl
          | some x =>
            rw [hx] at hsl
            simp only [Option.map_some, Option.some.injEq, Prod.mk.injEq] at hsl
            obtain ⟨_, rfl⟩ := hsl
            exact hA x (List.mem_of_getElem? hx)
        · split at hsl
          · cases hsl
          · cases hx : t[‹Nat›]? with
            | none => rw [hx] at hsl; cases hsl
            | some x =>
              rw [hx] at hsl
              simp only [Option.map_some, Option.some.injEq, Prod.mk.injEq] at hsl
              obtain ⟨_, rfl⟩ := hsl
              exact hA x (List.mem_of_getElem? hx)
      obtain ⟨⟨m1, x1, ok⟩, h1, h⟩ := Res.bind_eq_ok.mp h
      simp only [Except.ok.injEq, Prod.mk.injEq] at h
      obtain ⟨_, rfl, rfl⟩ := h
      have := (hadd y x1 m1 ok hy h1).1
      refine ⟨hset _ _ ?_, by simp⟩
      split <;> exact this
  · split at h
    · simp only [Except.ok.injEq, Prod.mk.injEq] at h
      obtain ⟨_, rfl, rfl⟩ := h; exact ⟨hA, by simp⟩
    · split at h
      · cases h
      · rename_i k _ x hx
        have hxA := hA x (List.mem_of_getElem? hx)
        split at h
        · simp only [Except.ok.injEq, Prod.mk.injEq] at h
          obtain ⟨_, rfl, rfl⟩ := h; exact ⟨hset _ _ hxA, by simp⟩
        · by_cases hfl : (if eom then pkt.len > x.fragSize else pkt.len ≠ x.fragSize)
          · rw [if_pos hfl] at h
            simp only [Except.ok.injEq, Prod.mk.injEq] at h
            obtain ⟨_, rfl, rfl⟩ := h; exact ⟨hset _ _ hxA, by simp⟩
          · rw [if_neg hfl] at h
            obtain ⟨⟨m1, x1, ok⟩, h1, h⟩ := Res.bind_eq_ok.mp h
            obtain ⟨k1, k2⟩ := hadd x x1 m1 ok hxA h1
            simp only at h
            split at h
            · simp only [Except.ok.injEq, Prod.mk.injEq] at h
              obtain ⟨_, rfl, rfl⟩ := h
              refine ⟨hset _ _ k1, ?_⟩
              intro msg hm
              split at hm
              · rename_i hok
                simp only [Option.some.injEq] at hm
                subst hm; exact k2 hok
              · cases hm
            · simp only [Except.ok.injEq, Prod.mk.injEq] at h
              obtain ⟨_, rfl, rfl⟩ := h
              refine ⟨hset _ _ ?_, by simp⟩
              split <;> exact k1

/-- All limits set in the history are at most `L`. -/
def LimitsLe (L : Nat) (hist : List (Op β)) : Prop := ∀ n, Op.setMax n ∈ hist → n ≤ L

theorem step_bound {ops : Ops β} {eid : Byte} {evs : List Event} {c c' : Core β} {op : Op β}
    {e : List Event} {rc : Int} {L : Nat} (hi : EpInv eid evs c)
    (hA : ∀ x ∈ c.ctxs, x.allocSize ≤ L) (hmx : c.maxSize ≤ L) (hop : ∀ n, op = .setMax n → n ≤ L)
    (h : c.step ops op = .ok (c', e, rc)) :
    (∀ x ∈ c'.ctxs, x.allocSize ≤ L) ∧ c'.maxSize ≤ L ∧
      ∀ i bs f, op = .recv i bs → parse bs = some f → f.single = false →
        ∀ d ∈ deliveries e, d.2.length ≤ L := by
  by_cases hr : ∃ i bs, op = .recv i bs
  · obtain ⟨i, bs, rfl⟩ := hr
    simp only [Core.step] at h
    obtain ⟨⟨c1, e1⟩, hrx, h⟩ := Res.bind_eq_ok.mp h
    simp only [Except.ok.injEq, Prod.mk.injEq] at h
    obtain ⟨rfl, rfl, -⟩ := h
    rcases rxPacket_endpoint hi.noBridge hi.eids hrx with ⟨_, m, _, _, rfl, rfl⟩ | ⟨bus, m0, pkt, rfl, hbe, hbus, ha, hp, hh⟩
    · exact ⟨hA, hmx, by simp [deliveries]⟩
    · rcases hh with ⟨hpn, rfl, m, rfl⟩ | ⟨f, hf, hh⟩
      · exact ⟨hA, hmx, by simp [deliveries, delivered]⟩
      · rcases hh with ⟨hl, rfl, m, rfl⟩ | ⟨hl, hsg, rfl, m, rfl⟩ | ⟨hl, hsg, m1, m2, t, out, hc, -, rfl, rfl⟩
        · exact ⟨hA, hmx, by
            intro i bs' f' _ _ _ d hd
            rw [deliveries_recv, deliveries_capIn] at hd; cases hd⟩
        · refine ⟨hA, hmx, ?_⟩
          intro i' bs' f' he hf' hsg'
          simp only [Op.recv.injEq] at he
          rw [← he.2, hf] at hf'
          simp only [Option.some.injEq] at hf'
          rw [← hf', hsg] at hsg'; cases hsg'
        · obtain ⟨k1, k2⟩ := ctxRx_bound hA hmx hc
          refine ⟨k1, hmx, ?_⟩
          intro i' bs' f' _ _ _ d hd
          rw [deliveries_recv, deliveries_append, deliveries_capIn] at hd
          cases out with
          | none => cases hd
          | some msg =>
            obtain ⟨ev, hev, hdv⟩ := List.mem_filterMap.mp (show d ∈ deliveries _ from hd)
            rw [routeEvents_delivered _ _ _ _ _ _ _ ev hev] at hdv
            simp only [Option.some.injEq] at hdv
            rw [← hdv]; exact k2 msg rfl
  · have hr' : ∀ i bs, op ≠ .recv i bs := fun i bs h => hr ⟨i, bs, h⟩
    by_cases hm : ∃ n, op = .setMax n
    · obtain ⟨n, rfl⟩ := hm
      simp only [Core.step, Except.ok.injEq, Prod.mk.injEq] at h
      obtain ⟨rfl, rfl, -⟩ := h
      exact ⟨hA, hop n rfl, fun i bs f he => absurd he (hr' i bs)⟩
    · obtain ⟨htxe, m, bs, hr2, hc2, mx2, rfl, _, hmx2, _⟩ := step_frame hr' h
      refine ⟨hA, ?_, fun i bs f he => absurd he (hr' i bs)⟩
      show mx2 ≤ L
      rw [hmx2 fun n hn => hm ⟨n, hn⟩]; exact hmx

theorem run_bound {ops : Ops β} {eid : Byte} {L : Nat} {hist : List (Op β)} :
    ∀ {evs : List Event} {c c' : Core β} {log : List (Rec β)}, EpInv eid evs c →
    (∀ x ∈ c.ctxs, x.allocSize ≤ L) → c.maxSize ≤ L → LimitsLe L hist →
    c.run ops hist = .ok (c', log) →
    (∀ x ∈ c'.ctxs, x.allocSize ≤ L) ∧
      ∀ r ∈ log, ∀ i bs f, r.op = .recv i bs → parse bs = some f → f.single = false →
        ∀ d ∈ deliveries r.evs, d.2.length ≤ L := by
  induction hist with
  | nil =>
    intro evs c c' log hi hA hmx _ h
    simp only [Core.run, Except.ok.injEq, Prod.mk.injEq] at h
    obtain ⟨rfl, rfl⟩ := h; exact ⟨hA, by simp⟩
  | cons op rest ih =>
    intro evs c c' log hi hA hmx hL h
    simp only [Core.run] at h
    obtain ⟨⟨c1, e, rc⟩, hs, h⟩ := Res.bind_eq_ok.mp h
    obtain ⟨⟨c2, log2⟩, hr, h⟩ := Res.bind_eq_ok.mp h
    simp only [Except.ok.injEq, Prod.mk.injEq] at h
    obtain ⟨rfl, rfl⟩ := h
    obtain ⟨k1, k2, k3⟩ := step_bound hi hA hmx (fun n hn => hL n (by simp [hn])) hs
    obtain ⟨j1, j2⟩ := ih (step_epInv hi hs) k1 k2 (fun n hn => hL n (by simp [hn])) hr
    refine ⟨j1, ?_⟩
    intro r hr
    rcases List.mem_cons.mp hr with rfl | hr
    · exact k3
    · exact j2 r hr

/-- **C11** If all limits in force so far (the default 65536 and those set) are at most `L`, no
multi-packet message longer than `L` is delivered, and the reassembly buffers hold at most `16·L`
bytes in total. (No assumption on allocation success.) -/
theorem C11_size_limit {ops : Ops β} {eid : Byte} {mem : Mem} {c0 c : Core β} {L : Nat}
    {hist : List (Op β)} {log : List (Rec β)}
    (hreg : Registered ops eid mem c0) (hdef : 65536 ≤ L) (hL : LimitsLe L hist)
    (hrun : c0.run ops hist = .ok (c, log)) :
    (c.ctxs.map Ctx.allocSize).sum ≤ 16 * L ∧
      ∀ r ∈ log, ∀ i bs f, r.op = .recv i bs → parse bs = some f → f.single = false →
        ∀ d ∈ deliveries r.evs, d.2.length ≤ L := by
  have hi := hreg.epInv
  have h0 : (∀ x ∈ c0.ctxs, x.allocSize ≤ L) ∧ c0.maxSize ≤ L := by
    obtain ⟨fill, c, b, rc, h1, h2, h3⟩ := hreg
    obtain ⟨id, m, ha, rfl⟩ := init_ok h1
    obtain ⟨id2, m2, bus, ha2, rfl, -⟩ := registerBus_ok h2 h3
    refine ⟨fun x hx => ?_, hdef⟩
    rw [List.eq_of_mem_replicate hx]; simp [Ctx.zero]
  obtain ⟨k1, k2⟩ := run_bound hi h0.1 h0.2 hL hrun
  refine ⟨?_, k2⟩
  have hlen := (run_epInv hi hrun).tbl.len
  have : ∀ l : List Ctx, (∀ x ∈ l, x.allocSize ≤ L) → (l.map Ctx.allocSize).sum ≤ l.length * L := by
    intro l
    induction l with
    | nil => simp
    | cons x l ih =>
      intro h
      have h1 := h x (by simp)
      have h2 := ih fun y hy => h y (by simp [hy])
      simp only [List.map_cons, List.sum_cons, List.length_cons, Nat.add_mul]; omega
  have := this c.ctxs k1
  rwa [hlen] at this

/-- The same for a limit configured before registration. -/
theorem C11_size_limit_configured {ops : Ops β} {eid : Byte} {mem : Mem} {c0 c : Core β} {mx L : Nat}
    {hist : List (Op β)} {log : List (Rec β)}
    (hc : Configured ops eid mx mem c0) (hdef : mx ≤ L) (hL : LimitsLe L hist)
    (hrun : c0.run ops hist = .ok (c, log)) :
    ∀ r ∈ log, ∀ i bs f, r.op = .recv i bs → parse bs = some f → f.single = false →
      ∀ d ∈ deliveries r.evs, d.2.length ≤ L := by
  refine (run_bound hc.epInv ?_ (by rw [hc.flags.2.1]; exact hdef) hL hrun).2
  intro x hx
  rw [hc.flags.2.2] at hx
  rw [List.eq_of_mem_replicate hx]; simp [Ctx.zero]

/-- Non-vacuity: the two-packet demo message is delivered under the limit 65536. -/
example : Registered Demo.ops 8 {} { Demo.core with hasRx := false } ∧
    LimitsLe 65536 Demo.twoPackets := ⟨Demo.registered, by simp [LimitsLe, Demo.twoPackets]⟩

/-! ## C12: limits that cannot be used -/

theorem Pol.tiny {mx : Nat} (hmx : mx < 4096) :
    Pol mx (fun a => a = 0) (fun _ => True) (fun n b => 0 < n → b = false) where
  zero := rfl
  grow := by
    intro a b n ha hb _ _ h
    subst ha
    unfold newAllocSize at h
    simp only [if_true] at h
    omega
  dec := by
    intro a b n fits ha hb _ hf hn
    subst ha
    cases fits with
    | false => rfl
    | true =>
      have := (hf.mp rfl).2
      unfold newAllocSize at this
      simp only [if_true] at this
      omega

/-- **C12** is false for limits below 4096: no multi-packet message is delivered at all, however short
(the buffer is allocated in units of at least 4096 bytes). -/
theorem C12_small_limit_refuses_all {ops : Ops β} (K : Contract ops) {eid : Byte} {mx : Nat}
    {mem : Mem} {c0 : Core β} (hc : Configured ops eid mx mem c0) (hcl : Clean mem)
    (hsz : SizesOk K c0) (hmx : mx < 4096) {hist : List (Op β)} (hok : HistOk K c0 hist)
    (hst : Steady hist) :
    ∃ c log, c0.run ops hist = .ok (c, log) ∧
      ∀ r ∈ log, ∀ i bs f, r.op = .recv i bs → parse bs = some f → f.single = false → f.src ≠ 0 →
        deliveries r.evs = [] := by
  obtain ⟨c, log, h1, _, h3, h4, h5⟩ := run_ref K (Pol.tiny hmx)
    (hc.refInv hcl hsz (Pol.tiny hmx)) hok (hst.pktP fun _ _ _ => trivial)
  rw [hc.flags.2.2, abs_init] at h3
  refine ⟨c, log, h1, ?_⟩
  have key : ∀ (tr : List (List Byte × List (Byte × List Byte))) (σ' : State),
      Reasm (fun n b => 0 < n → b = false) eid State.empty tr σ' →
      ∀ x ∈ tr, ∀ f, parse x.1 = some f → f.single = false → f.src ≠ 0 → x.2 = [] := by
    intro tr
    induction tr with
    | nil => intro _ _ x hx; cases hx
    | cons y tr ih =>
      intro σ' ⟨σ1, hst, hre⟩
      have hboth : σ1 = State.empty ∧ ∀ f, parse y.1 = some f → f.single = false → f.src ≠ 0 → y.2 = [] := by
        unfold PktStep at hst
        split at hst
        · rename_i hn
          exact ⟨hst.1, fun f hf => by rw [hn] at hf; cases hf⟩
        · rename_i g hg
          split at hst
          · exact ⟨hst.1, fun _ _ _ _ => hst.2⟩
          · split at hst
            · rename_i hsg
              refine ⟨hst.1, fun f hf hsf => ?_⟩
              rw [hg] at hf; simp only [Option.some.injEq] at hf
              rw [← hf, hsg] at hsf; cases hsf
            · split at hst
              · rename_i hs0
                refine ⟨hst, fun f hf _ hsf => ?_⟩
                rw [hg] at hf; simp only [Option.some.injEq] at hf
                rw [← hf] at hsf; exact absurd hs0 hsf
              · obtain ⟨m, ⟨room, fits, _, hlim, hown, hoth⟩, hout⟩ := hst
                obtain ⟨v, d, s, g', _, hne, -⟩ := parse_some hg
                have hpos : 0 < g.payload.length := List.length_pos_iff.mpr hne
                have hf : fits = false := hlim (by unfold total; split <;> omega)
                have : own room fits g (State.empty g.key) = (none, none) := by
                  unfold own State.empty
                  rw [hf]
                  split
                  · split <;> simp
                  · rfl
                rw [this] at hown
                obtain ⟨q1, q2⟩ := Prod.mk.inj hown
                refine ⟨?_, fun _ _ _ _ => by rw [hout, q2]; rfl⟩
                funext k
                by_cases hk : k = g.key
                · rw [hk, q1]; rfl
                · exact hoth k hk
      intro x hx
      rcases List.mem_cons.mp hx with rfl | hx
      · exact hboth.2
      · rw [hboth.1] at hre
        exact ih σ' hre x hx
  intro r hr i bs f hop hf hsg hsrc
  have hx : (bs, deliveries r.evs) ∈ rxTrace log := by
    unfold rxTrace
    exact List.mem_filterMap.mpr ⟨r, hr, by rw [hop]⟩
  exact key _ _ h3 _ hx f hf hsg hsrc

example : Demo.run (Demo.coreOf Demo.binding 100)
    [.recv 0 (Demo.pkt 9 8 0x8a [1, 2]), .recv 0 (Demo.pkt 9 8 0x5a [3])] =
    some [.recv 0 (Demo.pkt 9 8 0x8a [1, 2]), .recv 0 (Demo.pkt 9 8 0x5a [3])] := by decide +kernel

/-- A binding with packets of up to 3004 bytes. -/
def Demo.bigBinding : Binding Unit := { Demo.binding with pktSize := 3004 }

/-- **C12** is false for limits above 4096 that are not of the form `4096·2^k`: with the limit 5000, a
message of 4500 bytes in two packets is not delivered. -/
theorem C12_limit_not_usable :
    (Demo.run (Demo.coreOf Demo.bigBinding 5000)
      [.recv 0 (Demo.pkt 9 8 0x8a (List.replicate 3000 1)),
       .recv 0 (Demo.pkt 9 8 0x5a (List.replicate 1500 2))]).map deliveries = some [] := by
  decide +kernel

/-- The same two packets are delivered with the limit 8192. -/
example :
    ((Demo.run (Demo.coreOf Demo.bigBinding 8192)
      [.recv 0 (Demo.pkt 9 8 0x8a (List.replicate 3000 1)),
       .recv 0 (Demo.pkt 9 8 0x5a (List.replicate 1500 2))]).map deliveries).map
      (fun l => l.map fun d => d.2.length) = some [4500] := by
  decide +kernel

/-! ## C13-C17 -/

/-- **C13** At an endpoint, a packet addressed neither to its EID nor to 0 nor 255 delivers nothing and
changes nothing but the allocator. -/
theorem C13_address_filter {ops : Ops β} {eid : Byte} {mem : Mem} {c0 c c' : Core β}
    {hist : List (Op β)} {log : List (Rec β)} {i : Nat} {p : List Byte} {f : Frag}
    {e : List Event} {rc : Int}
    (hreg : Registered ops eid mem c0) (hrun : c0.run ops hist = .ok (c, log))
    (hp : parse p = some f) (hl : ¬ Local eid f.dest)
    (hs : c.step ops (.recv i p) = .ok (c', e, rc)) :
    deliveries e = [] ∧ ∃ m, c' = { c with mem := m } := by
  have hi := run_epInv hreg.epInv hrun
  simp only [Core.step] at hs
  obtain ⟨⟨c1, e1⟩, hrx, h⟩ := Res.bind_eq_ok.mp hs
  simp only [Except.ok.injEq, Prod.mk.injEq] at h
  obtain ⟨rfl, rfl, -⟩ := h
  rcases rxPacket_endpoint hi.noBridge hi.eids hrx with ⟨_, m, _, _, rfl, rfl⟩ | ⟨bus, m0, pkt, rfl, hbe, hbus, ha, hp', hh⟩
  · exact ⟨rfl, m, rfl⟩
  · rcases hh with ⟨hpn, rfl, m, rfl⟩ | ⟨f', hf, hh⟩
    · exact ⟨rfl, m, rfl⟩
    · rw [hp] at hf
      simp only [Option.some.injEq] at hf
      subst hf
      rcases hh with ⟨_, rfl, m, rfl⟩ | ⟨hl', _⟩ | ⟨hl', _⟩
      · exact ⟨by rw [deliveries_recv, deliveries_capIn], m, rfl⟩
      · exact absurd hl' hl
      · exact absurd hl' hl

example : Demo.run Demo.core [.recv 0 (Demo.pkt 9 77 0xca [1])] = some [.recv 0 (Demo.pkt 9 77 0xca [1])] := by
  decide +kernel

/-- **C15** A packet without payload (at most 4 bytes) causes no callback (no delivery, no capture) and
changes nothing but the allocator. -/
theorem C15_runt_ignored {ops : Ops β} {eid : Byte} {mem : Mem} {c0 c c' : Core β}
    {hist : List (Op β)} {log : List (Rec β)} {i : Nat} {p : List Byte}
    {e : List Event} {rc : Int}
    (hreg : Registered ops eid mem c0) (hrun : c0.run ops hist = .ok (c, log))
    (hp : p.length ≤ 4) (hs : c.step ops (.recv i p) = .ok (c', e, rc)) :
    (∀ ev ∈ e, ev = .recv i p) ∧ ∃ m, c' = { c with mem := m } := by
  have hi := run_epInv hreg.epInv hrun
  simp only [Core.step] at hs
  obtain ⟨⟨c1, e1⟩, hrx, h⟩ := Res.bind_eq_ok.mp hs
  simp only [Except.ok.injEq, Prod.mk.injEq] at h
  obtain ⟨rfl, rfl, -⟩ := h
  rcases rxPacket_endpoint hi.noBridge hi.eids hrx with ⟨_, m, _, _, rfl, rfl⟩ | ⟨bus, m0, pkt, rfl, hbe, hbus, ha, hp', hh⟩
  · exact ⟨by simp, m, rfl⟩
  · rcases hh with ⟨hpn, rfl, m, rfl⟩ | ⟨f', hf, hh⟩
    · exact ⟨by simp, m, rfl⟩
    · rw [parse_none.mpr hp] at hf; cases hf

theorem transport_iff (h : Bool) (msg : List Byte) :
    ctrlHandled h msg = true ↔ IsTransportRequest msg ∧ h = true := by
  have hbit : ∀ b : Byte, (b &&& 0x80 != 0) = true ↔ 128 ≤ b.toNat := by decide +kernel
  have hcmd : ∀ b : Byte, (decide (0xF0#8 ≤ b) && decide (b ≤ 0xFF#8)) = true ↔ 240 ≤ b.toNat := by
    decide +kernel
  unfold ctrlHandled
  split
  · rename_i ty rq cmd cc rest
    rw [Bool.and_eq_true, Bool.and_eq_true]
    unfold ctrlIsRequest ctrlIsTransport
    rw [Bool.and_eq_true, hbit, hcmd]
    constructor
    · rintro ⟨⟨⟨h1, h2⟩, h3⟩, h4⟩
      have : ty = 0 := by simpa using h1
      subst this
      exact ⟨⟨rq, cmd, cc, rest, rfl, h2, h3⟩, h4⟩
    · rintro ⟨⟨rq', cmd', cc', rest', he, h2, h3⟩, h4⟩
      simp only [List.cons.injEq] at he
      obtain ⟨rfl, rfl, rfl, rfl, rfl⟩ := he
      exact ⟨⟨⟨by simp, h2⟩, h3⟩, h4⟩
  · rename_i hno
    constructor
    · intro h; cases h
    · rintro ⟨⟨rq, cmd, cc, rest, rfl, _⟩, _⟩
      exact absurd rfl (hno _ _ _ _ _)

/-- Exact effect of a single packet at a reachable endpoint. -/
theorem single_packet_effect {ops : Ops β} (K : Contract ops) {eid : Byte} {mem : Mem}
    {c0 c : Core β} {hist : List (Op β)} {log : List (Rec β)} {p : List Byte} {f : Frag}
    (hreg : Registered ops eid mem c0) (hcl : Clean mem) (hsz : SizesOk K c0)
    (hok : HistOk K c0 hist) (hrun : c0.run ops hist = .ok (c, log))
    (hop : OpOk K c (.recv 0 p)) (hp : parse p = some f) (hl : Local eid f.dest)
    (hsg : f.single = true) :
    ∃ m bus, c.busses = [bus] ∧ c.step ops (.recv 0 p) = .ok ({ c with mem := m },
      .recv 0 p :: (capIn c p ++ routeEvents c 0 bus f.src f.tagOwner (BitVec.ofNat 8 f.tag) f.payload), 0) := by
  have hi := run_epInv hreg.epInv hrun
  have hm : MemInv K mem.live c := by
    obtain ⟨c2, log2, h1, h2⟩ := run_total K (hreg.memInv hcl hsz) hok
    rw [hrun] at h1
    simp only [Except.ok.injEq, Prod.mk.injEq] at h1
    rw [h1.1]; exact h2
  obtain ⟨c', e, rc, hs, -⟩ := step_total K hm hop
  have hs0 := hs
  simp only [Core.step] at hs
  obtain ⟨⟨c1, e1⟩, hrx, h⟩ := Res.bind_eq_ok.mp hs
  simp only [Except.ok.injEq, Prod.mk.injEq] at h
  obtain ⟨rfl, rfl, rfl⟩ := h
  rcases rxPacket_endpoint hi.noBridge hi.eids hrx with ⟨bus, m, hb, hcause, rfl, rfl⟩ | ⟨bus, m0, pkt, _, hbe, hbus, ha, hp', hh⟩
  · exfalso
    obtain ⟨bus', hg, hle⟩ := hop
    obtain ⟨_, hg', _⟩ := busAt_ok hb
    rw [hg] at hg'; simp at hg'; subst hg'
    rcases hcause with hn | hlt
    · simp [Mem.alloc, hm.ok c.mem.next] at hn
    · omega
  · have hbl : c.busses = [bus] := by
      have h1 := hi.eids
      have h2 := (busAt_ok hbus).2.1
      match hb : c.busses, h1, h2 with
      | [b], _, h2 => simp at h2; rw [h2]
    rcases hh with ⟨hpn, _⟩ | ⟨f', hf, hh⟩
    · rw [hp] at hpn; cases hpn
    · rw [hp] at hf
      simp only [Option.some.injEq] at hf
      subst hf
      rcases hh with ⟨hl', _⟩ | ⟨_, _, rfl, m, rfl⟩ | ⟨_, hsg', _⟩
      · exact absurd hl hl'
      · exact ⟨m, bus, hbl, hs0⟩
      · rw [hsg] at hsg'; cases hsg'

/-- **C14** A single-packet message addressed to the endpoint is delivered at once, exactly once, with
exactly its payload, source, tag and tag owner to the receive handler (unless it is a control request
for the binding, see C16), and changes nothing (in particular no message in assembly). -/
theorem C14_single_packet_delivered {ops : Ops β} (K : Contract ops) {eid : Byte} {mem : Mem}
    {c0 c : Core β} {hist : List (Op β)} {log : List (Rec β)} {p : List Byte} {f : Frag}
    (hreg : Registered ops eid mem c0) (hcl : Clean mem) (hsz : SizesOk K c0)
    (hok : HistOk K c0 hist) (hrun : c0.run ops hist = .ok (c, log))
    (hop : OpOk K c (.recv 0 p)) (hp : parse p = some f) (hl : Local eid f.dest)
    (hsg : f.single = true) (hrx : c.hasRx = true) :
    ∃ m e, c.step ops (.recv 0 p) = .ok ({ c with mem := m }, e, 0) ∧
      deliveries e = [(f.src, f.payload)] ∧
      (¬ IsTransportRequest f.payload →
        e.filter (fun ev => (delivered ev).isSome) =
          [.rxMsg f.src f.tagOwner (BitVec.ofNat 8 f.tag) f.payload]) := by
  obtain ⟨m, bus, hb, hs⟩ := single_packet_effect K hreg hcl hsz hok hrun hop hp hl hsg
  refine ⟨m, _, hs, ?_, ?_⟩
  · rw [deliveries_recv, deliveries_append, deliveries_capIn, deliveries_route hrx]; rfl
  · intro hnt
    have h1 : ctrlHandled bus.binding.controlRx f.payload ≠ true := by
      rw [Ne, transport_iff]; exact fun h => hnt h.1
    have hcap : (capIn c p).filter (fun ev => (delivered ev).isSome) = [] := by
      rw [List.filter_eq_nil_iff]
      intro ev hev
      rw [capIn_delivered c p ev hev]; simp
    rw [List.filter_cons, List.filter_append, hcap]
    unfold routeEvents
    rw [if_neg h1, if_pos hrx]
    rfl

example : Demo.run Demo.core [.recv 0 (Demo.pkt 9 8 0xca [1, 2, 3])] =
    some [.recv 0 (Demo.pkt 9 8 0xca [1, 2, 3]), .rxMsg 9 true 2 [1, 2, 3]] := by decide +kernel

/-- Where a delivery goes (helper for C16, from the endpoint invariant). -/
theorem dispatch_core {ops : Ops β} {eid : Byte} {evs : List Event} {c c' : Core β}
    {op : Op β} {e : List Event} {rc : Int} {bus : Bus β}
    (hi : EpInv eid evs c) (hbus : c.busses = [bus]) (hs : c.step ops op = .ok (c', e, rc))
    {ev : Event} (hev : ev ∈ e) {src : Byte} {msg : List Byte}
    (hd : delivered ev = some (src, msg)) :
    ((∃ o g, ev = .ctrlRx 0 src o g msg) ↔ IsTransportRequest msg ∧ bus.binding.controlRx = true) ∧
    ((∃ o g, ev = .rxMsg src o g msg) ↔ ¬ (IsTransportRequest msg ∧ bus.binding.controlRx = true)) ∧
    deliveries e = [(src, msg)] := by
  have hone : deliveries e = [(src, msg)] := by
    obtain ⟨bs, f, h1, h2, h3, h4, h5, h6, h7⟩ := delivery_sound hi hs hev hd
    exact h5
  have hroute : ∃ s own g m b', c.busAt 0 = .ok b' ∧ ev ∈ routeEvents c 0 b' s own g m := by
    by_cases hr : ∃ i bs, op = .recv i bs
    · obtain ⟨i, bs, rfl⟩ := hr
      simp only [Core.step] at hs
      obtain ⟨⟨c1, e1⟩, hrx, h⟩ := Res.bind_eq_ok.mp hs
      simp only [Except.ok.injEq, Prod.mk.injEq] at h
      obtain ⟨rfl, rfl, -⟩ := h
      rcases rxPacket_endpoint hi.noBridge hi.eids hrx with ⟨_, m, _, _, rfl, rfl⟩ | ⟨bus', m0, pkt, rfl, hbe, hbus', ha, hp, hh⟩
      · cases hev
      · rcases hh with ⟨hpn, rfl, m, rfl⟩ | ⟨f, hf, hh⟩
        · simp only [List.mem_singleton] at hev; subst hev; cases hd
        · rcases hh with ⟨hl, rfl, m, rfl⟩ | ⟨hl, hsg, rfl, m, rfl⟩ | ⟨hl, hsg, m1, m2, t, out, hc, -, rfl, rfl⟩
          · have := recv_mem_cases (rest := []) (by simpa using hev) hd
            cases this
          · exact ⟨_, _, _, _, bus', hbus', recv_mem_cases hev hd⟩
          · have h1 := recv_mem_cases hev hd
            cases out with
            | none => cases h1
            | some m => exact ⟨_, _, _, _, bus', hbus', h1⟩
    · have hr' : ∀ i bs, op ≠ .recv i bs := fun i bs h => hr ⟨i, bs, h⟩
      obtain ⟨htxe, -⟩ := step_frame hr' hs
      have := mem_deliveries hev hd
      rw [isTx_not_delivered htxe] at this
      cases this
  obtain ⟨s, own, g, m, b', hb', hmem⟩ := hroute
  have hbb : b' = bus := by
    have := (busAt_ok hb').2.1
    rw [hbus] at this; simpa using this.symm
  subst hbb
  have hdm := routeEvents_delivered _ _ _ _ _ _ _ ev hmem
  rw [hd] at hdm
  simp only [Option.some.injEq, Prod.mk.injEq] at hdm
  obtain ⟨rfl, rfl⟩ := hdm
  rw [← transport_iff]
  unfold routeEvents at hmem
  split at hmem
  · rename_i hc
    simp only [List.mem_singleton] at hmem
    subst hmem
    refine ⟨⟨fun _ => hc, fun _ => ⟨_, _, rfl⟩⟩, ⟨?_, fun h => absurd hc h⟩, hone⟩
    rintro ⟨o, g', h⟩; cases h
  · rename_i hc
    split at hmem
    · simp only [List.mem_singleton] at hmem
      subst hmem
      refine ⟨⟨?_, fun h => absurd h hc⟩, ⟨fun _ => hc, fun _ => ⟨_, _, rfl⟩⟩, hone⟩
      rintro ⟨o, g', h⟩; cases h
    · cases hmem

/-- **C16** Whatever is delivered at an endpoint with bus `bus`: it goes to the binding's control
handler exactly if it is a transport control request and a handler is registered, otherwise to the
receive callback; and a packet causes only one delivery. -/
theorem C16_control_dispatch {ops : Ops β} {eid : Byte} {mem : Mem} {c0 c c' : Core β}
    {hist : List (Op β)} {log : List (Rec β)} {op : Op β} {e : List Event} {rc : Int} {bus : Bus β}
    (hreg : Registered ops eid mem c0) (hrun : c0.run ops hist = .ok (c, log))
    (hbus : c.busses = [bus]) (hs : c.step ops op = .ok (c', e, rc))
    {ev : Event} (hev : ev ∈ e) {src : Byte} {msg : List Byte}
    (hd : delivered ev = some (src, msg)) :
    ((∃ o g, ev = .ctrlRx 0 src o g msg) ↔ IsTransportRequest msg ∧ bus.binding.controlRx = true) ∧
    ((∃ o g, ev = .rxMsg src o g msg) ↔ ¬ (IsTransportRequest msg ∧ bus.binding.controlRx = true)) ∧
    deliveries e = [(src, msg)] := by
  exact dispatch_core (run_epInv hreg.epInv hrun) hbus hs hev hd

/-- A binding with a control handler. -/
def Demo.ctrlBinding : Binding Unit := { Demo.binding with controlRx := true }

/-- **C17** is false: a control request from source 9 with tag 3 and tag owner clear reaches the
control handler with tag owner *set* and tag 0 (core.c:462 passes the two arguments in the wrong
order). -/
theorem C17_control_args_swapped :
    Demo.run (Demo.coreOf Demo.ctrlBinding 65536) [.recv 0 (Demo.pkt 9 8 0xc3 [0, 0x80, 0xf0, 0])] =
    some [.recv 0 (Demo.pkt 9 8 0xc3 [0, 0x80, 0xf0, 0]), .ctrlRx 0 9 true 0 [0, 0x80, 0xf0, 0]] := by
  decide +kernel

/-- **C17** (partial) What the control handler really receives: source and content are right; its
tag-owner parameter says whether the tag is non-zero and its tag parameter is the owner bit.  So both
are right exactly for tag 0 without and tag 1 with tag owner. -/
theorem C17_control_args_partial {ops : Ops β} {eid : Byte} {mem : Mem} {c0 c c' : Core β}
    {hist : List (Op β)} {log : List (Rec β)} {op : Op β} {e : List Event} {rc : Int}
    (hreg : Registered ops eid mem c0) (hrun : c0.run ops hist = .ok (c, log))
    (hs : c.step ops op = .ok (c', e, rc))
    {i : Nat} {src g : Byte} {o : Bool} {msg : List Byte} (hev : .ctrlRx i src o g msg ∈ e) :
    ∃ bs f, op = .recv 0 bs ∧ parse bs = some f ∧ i = 0 ∧ src = f.src ∧ o = decide (f.tag ≠ 0) ∧
      g = (if f.tagOwner then 1 else 0) := by
  have hi := run_epInv hreg.epInv hrun
  have key : ∀ (bus : Bus β) (s : Byte) (own : Bool) (t : Nat) (m : List Byte), t < 8 →
      Event.ctrlRx i src o g msg ∈ routeEvents c 0 bus s own (BitVec.ofNat 8 t) m →
      i = 0 ∧ src = s ∧ o = decide (t ≠ 0) ∧ g = (if own then 1 else 0) := by
    intro bus s own t m ht hm
    unfold routeEvents at hm
    split at hm
    · simp only [List.mem_singleton, Event.ctrlRx.injEq] at hm
      obtain ⟨rfl, rfl, rfl, rfl, rfl⟩ := hm
      refine ⟨rfl, rfl, ?_, rfl⟩
      have : ∀ t : Fin 8, (BitVec.ofNat 8 t.val != 0) = decide (t.val ≠ 0) := by decide
      exact this ⟨t, ht⟩
    · split at hm
      · simp at hm
      · cases hm
  by_cases hr : ∃ i bs, op = .recv i bs
  · obtain ⟨j, bs, rfl⟩ := hr
    simp only [Core.step] at hs
    obtain ⟨⟨c1, e1⟩, hrx, h⟩ := Res.bind_eq_ok.mp hs
    simp only [Except.ok.injEq, Prod.mk.injEq] at h
    obtain ⟨rfl, rfl, -⟩ := h
    rcases rxPacket_endpoint hi.noBridge hi.eids hrx with ⟨_, m, _, _, rfl, rfl⟩ | ⟨bus', m0, pkt, rfl, hbe, hbus', ha, hp, hh⟩
    · cases hev
    · rcases hh with ⟨hpn, rfl, m, rfl⟩ | ⟨f, hf, hh⟩
      · simp at hev
      · obtain ⟨_, _, _, _, _, _, _, _, _, _, _, _, _, htag, _⟩ := parse_some hf
        rcases hh with ⟨hl, rfl, m, rfl⟩ | ⟨hl, hsg, rfl, m, rfl⟩ | ⟨hl, hsg, m1, m2, t, out, hc, -, rfl, rfl⟩
        · simp only [capIn] at hev
          split at hev <;> simp at hev
        · exact ⟨bs, f, rfl, hf, key _ _ _ _ _ htag (recv_mem_cases (x := (src, msg)) hev rfl)⟩
        · have h1 := recv_mem_cases (x := (src, msg)) hev rfl
          cases out with
          | none => cases h1
          | some m => exact ⟨bs, f, rfl, hf, key _ _ _ _ _ htag h1⟩
  · have hr' : ∀ i bs, op ≠ .recv i bs := fun i bs h => hr ⟨i, bs, h⟩
    obtain ⟨htxe, -⟩ := step_frame hr' hs
    exact absurd (htxe _ hev) (by simp [IsTxEvent])

end Mctp
