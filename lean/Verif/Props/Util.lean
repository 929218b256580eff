import Verif.Spec.Util
import Verif.Proofs.Setup
import Verif.Props.Bridge

/-!
# Properties of the utilities: C69, C70 (capture records), C71 (allocator hooks), C72 (logging)
-/

namespace Mctp

open Spec

/-! ## C71: allocator hooks -/

theorem hookAlloc_like {o : Hooks Mem} (h : LikeMalloc o) (m : Mem) {n : Nat} (hn : 0 < n) :
    hookAlloc o m n = .ok m.alloc := by
  unfold hookAlloc
  split
  · rename_i f hf; exact h.alloc f hf m n
  · obtain ⟨g, hg, h1, -⟩ := h.realloc
    rw [hg]
    exact h1 m none n hn

theorem hookFree_like {o : Hooks Mem} (h : LikeMalloc o) (m : Mem) (p : Option Nat) :
    hookFree o m p = m.free p := by
  unfold hookFree
  split
  · rename_i f hf; exact h.free f hf m p
  · obtain ⟨g, hg, -, h2⟩ := h.realloc
    rw [hg]
    simp only [h2]
    cases m.free p <;> rfl

theorem hookRealloc_like {o : Hooks Mem} (h : LikeMalloc o) (m : Mem) (p : Option Nat) {n : Nat} (hn : 0 < n) :
    hookRealloc o m p n = m.realloc p := by
  obtain ⟨g, hg, h1, -⟩ := h.realloc
  unfold hookRealloc
  rw [hg]
  exact h1 m p n hn

/-- C71: with hooks that behave like `malloc`, `free` and `realloc` (the first two may be missing, and the hooks may
be exchanged at any time), every sequence of requests behaves as with `malloc`, `free` and `realloc`. -/
theorem C71_same_as_malloc (ops : List (AllocOp Mem)) : ∀ {o : Hooks Mem} (m : Mem), LikeMalloc o →
    (∀ o', AllocOp.set o' ∈ ops → LikeMalloc o') →
    (∀ n, AllocOp.alloc n ∈ ops → 0 < n) → (∀ p n, AllocOp.realloc p n ∈ ops → 0 < n) →
    hookRun o m ops = mallocRun m ops := by
  induction ops with
  | nil => intro o m _ _ _ _; rfl
  | cons op rest ih =>
    intro o m ho hs ha hr
    have ih' := fun {o : Hooks Mem} (m : Mem) (ho : LikeMalloc o) =>
      ih m ho (fun o' h => hs o' (List.mem_cons_of_mem _ h)) (fun n h => ha n (List.mem_cons_of_mem _ h))
        (fun p n h => hr p n (List.mem_cons_of_mem _ h))
    cases op with
    | set o' => simp only [hookRun, mallocRun, ih' m (hs o' List.mem_cons_self)]
    | alloc n =>
      simp only [hookRun, mallocRun, hookAlloc_like ho m (ha n List.mem_cons_self), Res.bind_ok, ih' _ ho]
    | free p =>
      simp only [hookRun, mallocRun, hookFree_like ho m p]
      cases m.free p with
      | error e => rfl
      | ok m' => simp only [Res.bind_ok, ih' m' ho]
    | realloc p n =>
      simp only [hookRun, mallocRun, hookRealloc_like ho m p (hr p n List.mem_cons_self)]
      cases m.realloc p with
      | error e => rfl
      | ok m' => simp only [Res.bind_ok, ih' m'.2 ho]

/-- C71, the calls: each request calls exactly one hook, which is set; a request for which no hook is set fails an
assertion without calling any.  `alloc` falls back to `realloc(NULL, n)`, `free` to `realloc(p, 0)`; `realloc` has no
replacement. -/
theorem C71_hook_calls (a f r : Bool) (ans : HookCall → Option Nat) (h : List HookCall) (p : Option Nat) (n : Nat) :
    hookAlloc (recorder a f r ans) h n =
      (if a then .ok (ans (.alloc n), h ++ [.alloc n])
       else if r then .ok (ans (.realloc none n), h ++ [.realloc none n]) else .error .assertFail) ∧
    hookFree (recorder a f r ans) h p =
      (if f then .ok (h ++ [.free p]) else if r then .ok (h ++ [.realloc p 0]) else .error .assertFail) ∧
    hookRealloc (recorder a f r ans) h p n =
      (if r then .ok (ans (.realloc p n), h ++ [.realloc p n]) else .error .assertFail) := by
  cases a <;> cases f <;> cases r <;> exact ⟨rfl, rfl, rfl⟩

/-- Hooks with only `realloc` are enough. -/
def onlyRealloc : Hooks Mem where
  alloc := none
  free := none
  realloc := some fun m p n => if n = 0 then (m.free p).map fun m => (none, m) else m.realloc p

/-- The hypothesis is met by the hooks that only provide `realloc`. -/
example : LikeMalloc onlyRealloc where
  alloc := by intro f h; cases h
  free := by intro f h; cases h
  realloc := ⟨_, rfl, by intro m p n hn; rw [if_neg (by omega)], by intro m p; rfl⟩

example : hookRun onlyRealloc {} [.alloc 16, .alloc 8, .free (some 0), .realloc none 4096, .realloc (some 2) 8192] =
    .ok ([some (some 0), some (some 1), none, some (some 2), some (some 3)],
      { next := 4, live := [3, 1], ok := fun _ => true }) := rfl

/-! ## C72: logging -/

theorem lastLogConfig_cons (op : LogOp) (rest : List LogOp) :
    lastLogConfig (op :: rest) = (lastLogConfig rest).or (if isLogConfig op then some op else none) := by
  unfold lastLogConfig
  cases hop : isLogConfig op <;> simp only [List.filter_cons, hop, if_true, Bool.false_eq_true, if_false]
  · cases (List.filter isLogConfig rest).getLast? <;> rfl
  · rw [List.getLast?_cons]
    cases (List.filter isLogConfig rest).getLast? <;> rfl

/-- The state agrees with the configuration in force (`none`: nothing was configured yet). -/
def LogAgrees (s : LogSt) : Option LogOp → Prop
  | some (.setStdio l) => s.type = .stdio ∧ s.level = l
  | some .setSyslog => s.type = .syslog
  | some (.setCustom f) => s.type = .custom ∧ s.fn = f
  | some (.log _ _) => False
  | none => s.type = .none

theorem logRun_agrees {b : LogBuild} (ops : List LogOp) : ∀ {s s' : LogSt} {cfg : Option LogOp} {os : List (List LogOut)},
    LogAgrees s cfg → logRun b s ops = .ok (s', os) → LogAgrees s' ((lastLogConfig ops).or cfg) := by
  induction ops with
  | nil =>
    intro s s' cfg os h hr
    simp only [logRun, Except.ok.injEq, Prod.mk.injEq] at hr
    rw [← hr.1]
    exact h
  | cons op rest ih =>
    intro s s' cfg os h hr
    simp only [logRun] at hr
    obtain ⟨⟨s1, o⟩, h1, hr⟩ := Res.bind_eq_ok.mp hr
    obtain ⟨⟨s2, os2⟩, h2, hr⟩ := Res.bind_eq_ok.mp hr
    simp only [Except.ok.injEq, Prod.mk.injEq] at hr
    rw [← hr.1, lastLogConfig_cons, Option.or_assoc]
    refine ih (cfg := (if isLogConfig op then some op else none).or cfg) ?_ h2
    cases op with
    | log l t =>
      simp only [logStep] at h1
      obtain ⟨x, -, h1⟩ := Res.bind_eq_ok.mp h1
      simp only [Except.ok.injEq, Prod.mk.injEq] at h1
      rw [← h1.1]
      exact h
    | setStdio l => simp only [logStep, Except.ok.injEq, Prod.mk.injEq] at h1; rw [← h1.1]; exact ⟨rfl, rfl⟩
    | setSyslog => simp only [logStep, Except.ok.injEq, Prod.mk.injEq] at h1; rw [← h1.1]; exact rfl
    | setCustom f => simp only [logStep, Except.ok.injEq, Prod.mk.injEq] at h1; rw [← h1.1]; exact ⟨rfl, rfl⟩

theorem logRun_append {b : LogBuild} (pre : List LogOp) : ∀ {s s' : LogSt} {post : List LogOp} {os : List (List LogOut)},
    logRun b s (pre ++ post) = .ok (s', os) → ∃ s1 o1 o2, logRun b s pre = .ok (s1, o1) ∧ logRun b s1 post = .ok (s', o2) ∧
      os = o1 ++ o2 ∧ o1.length = pre.length := by
  induction pre with
  | nil => intro s s' post os h; exact ⟨s, [], os, rfl, h, rfl, rfl⟩
  | cons op rest ih =>
    intro s s' post os h
    simp only [List.cons_append, logRun] at h
    obtain ⟨⟨s1, o⟩, h1, h⟩ := Res.bind_eq_ok.mp h
    obtain ⟨⟨s2, os2⟩, h2, h⟩ := Res.bind_eq_ok.mp h
    simp only [Except.ok.injEq, Prod.mk.injEq] at h
    obtain ⟨rfl, rfl⟩ := h
    obtain ⟨t1, p1, p2, g1, g2, rfl, g3⟩ := ih h2
    refine ⟨t1, o :: p1, p2, ?_, g2, rfl, by simp [g3]⟩
    simp only [logRun, h1, Res.bind_ok, g1]

/-- C72: in every history of configurations and messages, each message does exactly what the configuration in force
demands: with stdio logging at level L it is printed iff its level is at most L, a custom handler gets all messages, and
before any configuration nothing is logged. -/
theorem C72_log_filter {b : LogBuild} {pre post : List LogOp} {level : Int} {text : List Byte} {s : LogSt}
    {outs : List (List LogOut)} (h : logRun b {} (pre ++ .log level text :: post) = .ok (s, outs)) :
    outs[pre.length]? = some (logExpected b (lastLogConfig pre) level text) := by
  obtain ⟨s1, o1, o2, h1, h2, rfl, hl⟩ := logRun_append pre h
  have ha := logRun_agrees (cfg := none) pre (show LogAgrees {} none from rfl) h1
  rw [Option.or_none] at ha
  simp only [logRun, logStep] at h2
  obtain ⟨⟨s2, o⟩, h3, h2⟩ := Res.bind_eq_ok.mp h2
  obtain ⟨x, h4, h3⟩ := Res.bind_eq_ok.mp h3
  obtain ⟨⟨s5, os5⟩, h5, h2⟩ := Res.bind_eq_ok.mp h2
  simp only [Except.ok.injEq, Prod.mk.injEq] at h2 h3
  obtain ⟨-, rfl⟩ := h2
  obtain ⟨-, rfl⟩ := h3
  rw [← hl, List.getElem?_append_right (Nat.le_refl _), Nat.sub_self, List.getElem?_cons_zero]
  congr 1
  cases hc : lastLogConfig pre with
  | none =>
    rw [hc] at ha
    simp only [prlog, show s1.type = .none from ha, Except.ok.injEq] at h4
    rw [← h4]; rfl
  | some cfg =>
    rw [hc] at ha
    cases cfg with
    | log l t => exact ha.elim
    | setSyslog =>
      simp only [prlog, show s1.type = .syslog from ha] at h4
      simp only [logExpected]
      split at h4 <;> (simp only [Except.ok.injEq] at h4; simp_all)
    | setStdio l =>
      simp only [prlog, show s1.type = .stdio from ha.1, show s1.level = l from ha.2] at h4
      simp only [logExpected]
      split at h4 <;> (simp only [Except.ok.injEq] at h4; simp_all)
    | setCustom f =>
      simp only [prlog, show s1.type = .custom from ha.1, show s1.fn = f from ha.2] at h4
      cases f with
      | none => simp at h4
      | some f => simp only [Except.ok.injEq] at h4; rw [← h4]; rfl

/-- C72, the rest: configuring calls log nothing, and the only fault is a message while the custom handler is NULL. -/
theorem C72_log_faults {b : LogBuild} (hist : List LogOp) :
    (∀ pre post op s outs, hist = pre ++ op :: post → isLogConfig op = true → logRun b {} hist = .ok (s, outs) →
      outs[pre.length]? = some []) ∧
    (∀ f, logRun b {} hist = .error f → f = .nullDeref ∧
      ∃ pre l t post, hist = pre ++ .log l t :: post ∧ lastLogConfig pre = some (.setCustom none)) := by
  refine ⟨?_, ?_⟩
  · rintro pre post op s outs rfl hc h
    obtain ⟨s1, o1, o2, h1, h2, rfl, hl⟩ := logRun_append pre h
    simp only [logRun] at h2
    obtain ⟨⟨s2, o⟩, h3, h2⟩ := Res.bind_eq_ok.mp h2
    obtain ⟨⟨s5, os5⟩, h5, h2⟩ := Res.bind_eq_ok.mp h2
    simp only [Except.ok.injEq, Prod.mk.injEq] at h2
    obtain ⟨-, rfl⟩ := h2
    rw [← hl, List.getElem?_append_right (Nat.le_refl _), Nat.sub_self, List.getElem?_cons_zero]
    cases op <;> simp only [isLogConfig, Bool.false_eq_true] at hc <;>
      (simp only [logStep, Except.ok.injEq, Prod.mk.injEq] at h3; rw [← h3.2])
  · intro f
    have key : ∀ (ops : List LogOp) (s : LogSt) (cfg : Option LogOp), LogAgrees s cfg → logRun b s ops = .error f →
        f = .nullDeref ∧ ∃ pre l t post, ops = pre ++ .log l t :: post ∧
          (lastLogConfig pre).or cfg = some (.setCustom none) := by
      intro ops
      induction ops with
      | nil => intro s cfg _ h; cases h
      | cons op rest ih =>
        intro s cfg ha h
        cases h1 : logStep b s op with
        | ok x =>
          simp only [logRun, h1, Res.bind_ok] at h
          have h' : logRun b x.1 rest = .error f := by
            cases hx : logRun b x.1 rest with
            | ok y => rw [hx] at h; cases h
            | error g => rw [hx] at h; exact h
          have hx : LogAgrees x.1 ((if isLogConfig op then some op else none).or cfg) := by
            have := logRun_agrees (b := b) [op] ha (s' := x.1) (os := [x.2])
              (by simp only [logRun, h1, Res.bind_ok])
            rw [lastLogConfig_cons] at this
            exact this
          obtain ⟨hf, pre, l, t, post, rfl, hc⟩ := ih x.1 _ hx h'
          exact ⟨hf, op :: pre, l, t, post, rfl, by rw [lastLogConfig_cons, Option.or_assoc]; exact hc⟩
        | error g =>
          simp only [logRun, h1] at h
          have hgf : g = f := by cases h; rfl
          subst hgf
          cases op with
          | setStdio l => cases h1
          | setSyslog => cases h1
          | setCustom l => cases h1
          | log l t =>
            simp only [logStep] at h1
            have h2 : prlog b s l t = .error g := by
              cases hx : prlog b s l t with
              | ok y => rw [hx] at h1; cases h1
              | error g' => rw [hx] at h1; cases h1; rfl
            unfold prlog at h2
            split at h2
            · cases h2
            · split at h2 <;> cases h2
            · split at h2 <;> cases h2
            · rename_i hty
              split at h2
              · cases h2
              · rename_i hfn
                cases h2
                refine ⟨rfl, [], l, t, rest, rfl, ?_⟩
                simp only [lastLogConfig, List.filter_nil, List.getLast?_nil, Option.none_or]
                cases cfg with
                | none => have ha : s.type = .none := ha; rw [ha] at hty; cases hty
                | some c =>
                  cases c with
                  | log _ _ => exact ha.elim
                  | setStdio _ => have ha := ha.1; rw [ha] at hty; cases hty
                  | setSyslog => have ha : s.type = .syslog := ha; rw [ha] at hty; cases hty
                  | setCustom f' => have ha := ha.2; rw [hfn] at ha; rw [← ha]
    intro h
    obtain ⟨h1, pre, l, t, post, h2, h3⟩ := key hist {} none rfl h
    exact ⟨h1, pre, l, t, post, h2, by rwa [Option.or_none] at h3⟩

example : logRun ⟨true, true⟩ {} [.log 3 [1], .setStdio 5, .log 5 [2], .log 6 [3], .setCustom (some 7), .log 9 [4], .setStdio 2,
    .log 3 [5]] = .ok ({ type := .stdio, level := 2, fn := some 7 },
      [[], [], [.printed [2]], [], [], [.handler 7 9 [4]], [], []]) := rfl

/-! ## C69, C70: capture records -/

theorem uninit_length (fill : Nat → Byte) (n : Nat) : (uninit fill n).length = n := by simp [uninit]

theorem blit_ok {buf bs : List Byte} {off : Nat} (h : off + bs.length ≤ buf.length) :
    blit buf off bs = .ok (buf.take off ++ bs ++ buf.drop (off + bs.length)) := if_pos h

/-- A write into the middle of a buffer. -/
theorem blit_mid (H A B B' C : List Byte) {off : Nat} (h : off = H.length + A.length) (hl : B.length = B'.length) :
    blit (H ++ (A ++ B ++ C)) off B' = .ok (H ++ (A ++ B' ++ C)) := by
  rw [blit_ok (by simp only [List.length_append]; omega)]
  have e : H ++ (A ++ B ++ C) = (H ++ A) ++ (B ++ C) := by simp [List.append_assoc]
  rw [e, List.take_left' (by rw [h, List.length_append]), ← List.drop_drop, List.drop_left' (by rw [h, List.length_append]),
    List.drop_left' hl]
  simp [List.append_assoc]

/-- A fresh block of at least 20 bytes gets its link header. -/
theorem sll2Fill_ok (outgoing : Bool) (buf : List Byte) (h : 20 ≤ buf.length) :
    sll2Fill buf outgoing = .ok (sll2Header outgoing ++ buf.drop 20) := by
  obtain ⟨a, b, rfl, ha⟩ : ∃ a b, buf = a ++ b ∧ a.length = 20 := ⟨buf.take 20, buf.drop 20, by simp, by simp; omega⟩
  match a, ha with
  | [x0, x1, x2, x3, x4, x5, x6, x7, x8, x9, x10, x11, x12, x13, x14, x15, x16, x17, x18, x19], _ =>
    simp only [List.cons_append, List.nil_append, List.drop_succ_cons, List.drop_zero]
    cases outgoing <;> simp [sll2Fill, blit, sll2Header, Res.bind_ok]

/-- C70: whatever fresh memory contains, the record of a packet is the link header with its direction followed by
exactly the packet's bytes, and the memory is released; no record is written iff the clock or the allocation fails. -/
theorem C70_packet_record (clock : Bool) (fill : Nat → Byte) (mem : Mem) (outgoing : Bool) (pkt : List Byte) :
    ∃ recs mem', captureBinding clock fill mem outgoing pkt = .ok (recs, mem') ∧
      (∀ i, mem'.live.count i = mem.live.count i) ∧
      recs = if clock = true ∧ mem.ok mem.next = true then [packetRecord outgoing pkt] else [] := by
  unfold captureBinding
  cases clock with
  | false => exact ⟨_, _, rfl, fun _ => rfl, rfl⟩
  | true =>
    simp only [Bool.not_true, Bool.false_eq_true, if_false, true_and]
    cases hok : mem.ok mem.next with
    | false => simp only [Mem.alloc, hok, Bool.false_eq_true, if_false]; exact ⟨_, _, rfl, fun _ => rfl, rfl⟩
    | true =>
      simp only [Mem.alloc, hok, if_true]
      rw [sll2Fill_ok _ _ (by rw [uninit_length]; unfold sll2Size; omega)]
      simp only [Res.bind_ok]
      have hlen : (sll2Header outgoing).length = 20 := rfl
      have hdl : ((uninit fill (sll2Size + pkt.length)).drop 20).length = pkt.length := by
        rw [List.length_drop, uninit_length]; unfold sll2Size; omega
      have hdl' : ((uninit fill (sll2Size + pkt.length)).drop sll2Size).length = pkt.length := hdl
      rw [blit_ok (by rw [List.length_append, hlen, hdl]; unfold sll2Size; omega)]
      simp only [Res.bind_ok, Mem.free, List.mem_cons_self, if_true]
      refine ⟨_, _, rfl, fun i => by simp, ?_⟩
      congr 1
      rw [show sll2Size = 20 from rfl, List.take_left' hlen, List.drop_of_length_le (by rw [List.length_append, hlen, show (20 : Nat) = sll2Size from rfl, hdl']; exact Nat.le_refl _),
        List.append_nil]
      rfl

/-- C70 over a whole run of the core: with a working clock and successful allocations, the capture file consists of
one record for each invocation of the capture handler, in order, each with exactly the bytes of that packet. -/
theorem C70_capture_file (fill : Nat → Byte) (evs : List Event) : ∀ {mem : Mem}, (∀ n, mem.ok n = true) →
    ∃ mem', captureFile true fill mem evs = .ok ((capturedPackets evs).map fun p => packetRecord p.1 p.2, mem') ∧
      ∀ i, mem'.live.count i = mem.live.count i := by
  induction evs with
  | nil => intro mem _; exact ⟨mem, rfl, fun _ => rfl⟩
  | cons e rest ih =>
    intro mem hok
    cases e with
    | capture o p =>
      obtain ⟨recs, m1, h1, h2, h3⟩ := C70_packet_record true fill mem o p
      rw [if_pos ⟨rfl, hok _⟩] at h3
      subst h3
      have hok1 : ∀ n, m1.ok n = true := by
        unfold captureBinding at h1
        simp only [Bool.not_true, Bool.false_eq_true, if_false, Mem.alloc, hok, if_true] at h1
        obtain ⟨b1, -, h1⟩ := Res.bind_eq_ok.mp h1
        obtain ⟨b2, -, h1⟩ := Res.bind_eq_ok.mp h1
        simp only [Mem.free, List.mem_cons_self, if_true, Res.bind_ok, Except.ok.injEq, Prod.mk.injEq] at h1
        rw [← h1.2]
        exact hok
      obtain ⟨m2, h4, h5⟩ := ih hok1
      refine ⟨m2, ?_, fun i => (h5 i).trans (h2 i)⟩
      simp only [captureFile, h1, Res.bind_ok, h4]
      rfl
    | recv i p => exact ih hok
    | rxMsg a b c d => exact ih hok
    | ctrlRx a b c d e => exact ih hok
    | tx a b c d => exact ih hok

/-- C69, as far as it is true: the record of a client's message (`eid` byte, then the payload) begins with the link
header, the fabricated MCTP header and the payload; one more byte follows, which is uninitialised memory. -/
theorem C69_record_partial (fill : Nat → Byte) {mem : Mem} (hok : mem.ok mem.next = true) (outgoing : Bool) (eid : Byte)
    (first : Byte) (payload : List Byte) :
    ∃ mem', captureSocket true fill mem (first :: payload) outgoing eid =
      .ok ([messageRecord outgoing eid payload ++ [fill (24 + payload.length)]], mem') ∧
      ∀ i, mem'.live.count i = mem.live.count i := by
  unfold captureSocket
  simp only [Bool.not_true, Bool.false_eq_true, if_false, Mem.alloc, hok, if_true, List.length_cons, Nat.add_eq_zero_iff, and_false,
    List.drop_succ_cons, List.drop_zero, reduceCtorEq, Nat.succ_ne_zero]
  have hsz : sll2Size + hdrSize + (payload.length + 1) = 24 + (payload.length + 1) := rfl
  rw [hsz]
  have hsplit : uninit fill (24 + (payload.length + 1)) =
      uninit fill 24 ++ (((List.range payload.length).map fun i => fill (24 + i)) ++ [fill (24 + payload.length)]) := by
    unfold uninit
    rw [List.range_add, List.map_append, List.map_map, List.range_succ (n := payload.length), List.map_append]
    rfl
  rw [sll2Fill_ok _ _ (by rw [uninit_length]; omega), hsplit]
  have h24 : (uninit fill 24).drop 20 = [fill 20, fill 21, fill 22, fill 23] := rfl
  rw [List.drop_append_of_le_length (by rw [uninit_length]; omega), h24]
  generalize hg : (List.range payload.length).map (fun i => fill (24 + i)) = g
  have hgl : g.length = payload.length := by rw [← hg]; simp
  have hlen : (sll2Header outgoing).length = 20 := rfl
  unfold messageRecord
  generalize sll2Header outgoing = H at hlen
  have w0 : ∀ x a b c d, blit (H ++ ([a, b, c, d] ++ (g ++ [fill (24 + payload.length)]))) sll2Size [x] =
      .ok (H ++ ([x, b, c, d] ++ (g ++ [fill (24 + payload.length)]))) := fun x a b c d =>
    blit_mid H [] [a] [x] _ (by simp [hlen, sll2Size]) rfl
  have w1 : ∀ x a b c d, blit (H ++ ([a, b, c, d] ++ (g ++ [fill (24 + payload.length)]))) (sll2Size + 1) [x] =
      .ok (H ++ ([a, x, c, d] ++ (g ++ [fill (24 + payload.length)]))) := fun x a b c d =>
    blit_mid H [a] [b] [x] _ (by simp [hlen, sll2Size]) rfl
  have w2 : ∀ x a b c d, blit (H ++ ([a, b, c, d] ++ (g ++ [fill (24 + payload.length)]))) (sll2Size + 2) [x] =
      .ok (H ++ ([a, b, x, d] ++ (g ++ [fill (24 + payload.length)]))) := fun x a b c d =>
    blit_mid H [a, b] [c] [x] _ (by simp [hlen, sll2Size]) rfl
  have w3 : ∀ x a b c d, blit (H ++ ([a, b, c, d] ++ (g ++ [fill (24 + payload.length)]))) (sll2Size + 3) [x] =
      .ok (H ++ ([a, b, c, x] ++ (g ++ [fill (24 + payload.length)]))) := fun x a b c d =>
    blit_mid H [a, b, c] [d] [x] _ (by simp [hlen, sll2Size]) rfl
  have w4 : ∀ a b c d, blit (H ++ ([a, b, c, d] ++ (g ++ [fill (24 + payload.length)]))) (sll2Size + hdrSize) payload =
      .ok (H ++ ([a, b, c, d] ++ (payload ++ [fill (24 + payload.length)]))) := fun a b c d =>
    blit_mid H [a, b, c, d] g payload _ (by simp [hlen, sll2Size, hdrSize]) hgl
  cases outgoing <;>
  · simp only [Res.bind_ok, w0, w3, w1, w2, w4, Bool.false_eq_true, if_false, if_true, Mem.free, List.mem_cons_self,
      List.append_assoc]
    exact ⟨_, rfl, fun i => by simp⟩

/-- C69 is false of the code: no record of a client's message is what it should be, and what it ends with is whatever
the fresh memory contained. -/
theorem C69_refuted (fill : Nat → Byte) {mem mem' : Mem} (hok : mem.ok mem.next = true) (outgoing : Bool) (eid first : Byte)
    (payload : List Byte) {recs : List CapRec}
    (h : captureSocket true fill mem (first :: payload) outgoing eid = .ok (recs, mem')) :
    recs ≠ [messageRecord outgoing eid payload] ∧ ∃ r, recs = [r] ∧ r.getLast? = some (fill (24 + payload.length)) := by
  obtain ⟨m, h1, -⟩ := C69_record_partial fill hok outgoing eid first payload
  rw [h1] at h
  simp only [Except.ok.injEq, Prod.mk.injEq] at h
  obtain ⟨rfl, -⟩ := h
  refine ⟨fun hh => ?_, _, rfl, by simp⟩
  have := congrArg (fun l : List CapRec => l.map List.length) hh
  simp at this

/-- C70 for a run of the library with the daemon's capture handler: while it is set, each call adds to the capture file
exactly one record for each packet received with a payload and one for each packet given to a binding, with exactly the
bytes of that packet, in this order. -/
theorem C70_run {β : Type} {ops : Ops β} {c0 c : Core β} (h0 : c0.hasCapture = false)
    {hist : List (Op β)} {pre post : List (Rec β)} {r : Rec β}
    (hrun : c0.run ops hist = .ok (c, pre ++ r :: post)) (hset : captureSet false (pre.map (·.op)) = true)
    (fill : Nat → Byte) {mem : Mem} (hmem : ∀ n, mem.ok n = true) :
    ∃ mem', captureFile true fill mem r.evs = .ok ((uncaptured r.evs).flatMap (fun e => match e with
      | .recv _ p => if 4 < p.length then [packetRecord false p] else []
      | .tx _ p _ _ => [packetRecord true p]
      | _ => []), mem') := by
  obtain ⟨hc, -⟩ := C25_capture_complete h0 hrun
  rw [if_pos hset] at hc
  obtain ⟨m', h1, -⟩ := C70_capture_file fill r.evs hmem
  refine ⟨m', h1.trans ?_⟩
  have key : ∀ l : List Event, (∀ e ∈ l, isCapture e = false) →
      (capturedPackets (withCapture l)).map (fun p => packetRecord p.1 p.2) = l.flatMap (fun e => match e with
      | .recv _ p => if 4 < p.length then [packetRecord false p] else []
      | .tx _ p _ _ => [packetRecord true p]
      | _ => []) := by
    intro l hl
    induction l with
    | nil => rfl
    | cons e rest ih =>
      have ih := ih fun e he => hl e (List.mem_cons_of_mem _ he)
      have he := hl e List.mem_cons_self
      unfold withCapture at ih ⊢
      rw [List.flatMap_cons, List.flatMap_cons, capturedPackets, List.filterMap_append, List.map_append]
      rw [capturedPackets] at ih
      rw [ih]
      congr 1
      cases e with
      | capture o p => cases he
      | recv i p => simp only; split <;> rfl
      | rxMsg a b c d => rfl
      | ctrlRx a b c d e => rfl
      | tx a b c d => rfl
  congr 2
  rw [← key (uncaptured r.evs) (by intro e he; simpa [uncaptured] using (List.mem_filter.mp he).2), ← hc]

/-- A capture file with an incoming and an outgoing packet. -/
example : captureFile true (fun _ => 0xaa) {} [.recv 0 [1, 8, 9, 0xc8, 5], .capture false [1, 8, 9, 0xc8, 5],
    .capture true [1, 9, 8, 0xc0, 7]] = .ok ([
      [0, 0xfa, 0, 0, 0, 0, 0, 0, 0, 0, 0, 0, 0, 0, 0, 0, 0, 0, 0, 0, 1, 8, 9, 0xc8, 5],
      [0, 0xfa, 0, 0, 0, 0, 0, 0, 0, 0, 4, 0, 0, 0, 0, 0, 0, 0, 0, 0, 1, 9, 8, 0xc0, 7]],
      { next := 2, live := [], ok := fun _ => true }) := rfl

end Mctp
