import Verif.Proofs.Tools
import Verif.Spec.Tools

/-!
# Properties of the programs `mctp-pipe` and `mctp-in` (C95, C96)
-/

namespace Mctp

open Spec

/-! ## C95: mctp-pipe -/

theorem run2_copies {fill : Nat → Byte} {cap : Nat} : ∀ (turns : List Turn) {p : Pipe}, PipeInv fill p → Live2 p →
    ∃ p' s, p.run cap turns = .ok (p', s) ∧ PipeInv fill p' ∧ p'.inp = p.inp ∧
      (s = .finished → p'.toB = (wireOf p'.a).length) := by
  intro turns
  induction turns with
  | nil => intro p h _; exact ⟨p, .running, rfl, h, rfl, nofun⟩
  | cons t rest ih =>
    intro p h hl
    cases ht : t.pollOk with
    | false =>
      simp only [Pipe.run, turn_fail cap ht, Res.bind_ok, reduceCtorEq, if_false]
      exact ⟨p, .failed, rfl, h, rfl, nofun⟩
    | true =>
      obtain ⟨p1, s1, k1, k2, k3, k4, k5, k6⟩ := turn2_spec h hl cap ht
      simp only [Pipe.run, k1, Res.bind_ok]
      by_cases hlt : p.toB < (wireOf p.a).length
      · obtain ⟨rfl, g1, g2⟩ := k5 hlt
        simp only [if_true]
        obtain ⟨p2, s2, q1, q2, q3, q4⟩ := ih k2 g1
        exact ⟨p2, s2, q1, q2, q3.trans k3, q4⟩
      · have hle := h.le
        obtain ⟨rfl, g1⟩ := k6 (by omega)
        simp only [reduceCtorEq, if_false]
        exact ⟨p1, _, rfl, k2, k3, fun _ => by rw [g1, k4]; omega⟩

theorem run3_copies {fill : Nat → Byte} {cap : Nat} : ∀ (turns : List Turn) {p : Pipe}, PipeInv fill p → Live3 p →
    ∃ p' s, p.run cap turns = .ok (p', s) ∧ PipeInv fill p' ∧ p'.inp <+: p.inp ++ stdinOf turns ∧
      (s = .finished → p'.inp = p.inp ++ stdinOf turns ∧ p'.toB = (wireOf p'.a).length) := by
  intro turns
  induction turns with
  | nil => intro p h _; exact ⟨p, .running, rfl, h, by simp [stdinOf], nofun⟩
  | cons t rest ih =>
    intro p h hl
    cases ht : t.pollOk with
    | false =>
      simp only [Pipe.run, turn_fail cap ht, Res.bind_ok, reduceCtorEq, if_false]
      exact ⟨p, .failed, rfl, h, List.prefix_append _ _, nofun⟩
    | true =>
      obtain ⟨p1, s1, k1, k2, k3, k4⟩ := turn3_spec h hl cap ht
      simp only [Pipe.run, k1, Res.bind_ok]
      unfold stdinOf
      cases hs : t.stdin with
      | none =>
        rw [hs] at k4
        obtain ⟨rfl, g1, g2, g3⟩ := k4
        simp only [if_true]
        obtain ⟨p2, s2, q1, q2, q3, q4⟩ := ih k2 g1
        rw [g2] at q3 q4
        exact ⟨p2, s2, q1, q2, q3, q4⟩
      | some got =>
        cases got with
        | none =>
          rw [hs] at k4
          obtain ⟨rfl, g1⟩ := k4
          simp only [reduceCtorEq, if_false]
          exact ⟨p1, _, rfl, k2, by rw [g1]; exact List.prefix_append _ _, nofun⟩
        | some buf =>
          cases buf with
          | nil =>
            rw [hs] at k4
            obtain ⟨rfl, g1, g2, g3⟩ := k4
            simp only [if_true]
            obtain ⟨p2, s2, q1, q2, q3, q4⟩ := run2_copies rest k2 g1 (cap := cap)
            refine ⟨p2, s2, q1, q2, ?_, fun hf => ⟨?_, q4 hf⟩⟩
            · rw [q3, g2]; exact List.prefix_append _ _
            · rw [q3, g2, List.append_nil]
          | cons x xs =>
            rw [hs] at k4
            obtain ⟨g0, g1, g2, -, -⟩ := k4
            by_cases hr : s1 = .running
            · rw [if_pos hr]
              obtain ⟨p2, s2, q1, q2, q3, q4⟩ := ih k2 g1
              rw [g2, List.append_assoc] at q3 q4
              exact ⟨p2, s2, q1, q2, q3, q4⟩
            · rw [if_neg hr]
              refine ⟨p1, s1, rfl, k2, ?_, ?_⟩
              · rw [g2]
                exact (List.prefix_append_right_inj _).mpr (List.prefix_append _ _)
              · rintro rfl
                split at g0 <;> cases g0

/-- **C95** (what holds) Whatever the operating system does (which descriptors `poll` reports, how many bytes the reads return, when the
standard input ends, how much the socket holds): the program does not fault, the bytes it writes to the standard output are the first of those
it has read from the standard input, and when it ends successfully it has copied all of the input.  The full property also says that it gets there,
see `C95_refuted` and `C95_finishes_partial`. -/
theorem C95_copies_partial (fill : Nat → Byte) (cap : Nat) (turns : List Turn) :
    ∃ p0 p s, Pipe.start fill = .ok p0 ∧ p0.run cap turns = .ok (p, s) ∧ p.out <+: p.inp ∧ p.inp <+: stdinOf turns ∧
      (s = .finished → p.out = stdinOf turns) := by
  obtain ⟨p, s, h1, h2, h3, h4⟩ := run3_copies (cap := cap) turns (pipe_init fill) ⟨rfl, rfl, rfl, rfl⟩
  refine ⟨_, p, s, pipe_start fill, h1, h2.prefix.1, h3, fun hf => ?_⟩
  obtain ⟨g1, g2⟩ := h4 hf
  rw [h2.prefix.2 g2, g1]; rfl

theorem run2_finishes {fill : Nat → Byte} {cap : Nat} : ∀ (turns : List Turn) {p : Pipe}, PipeInv fill p → Live2 p →
    (∀ t ∈ turns, t.pollOk = true) → (wireOf p.a).length - p.toB < turns.length →
    ∃ p', p.run cap turns = .ok (p', .finished) := by
  intro turns
  induction turns with
  | nil => intro p _ _ _ h; simp at h
  | cons t rest ih =>
    intro p h hl ht hlen
    obtain ⟨p1, s1, k1, k2, k3, k4, k5, k6⟩ := turn2_spec h hl cap (ht t (by simp))
    simp only [Pipe.run, k1, Res.bind_ok]
    simp only [List.length_cons] at hlen
    by_cases hlt : p.toB < (wireOf p.a).length
    · obtain ⟨rfl, g1, g2⟩ := k5 hlt
      simp only [if_true]
      exact ih k2 g1 (fun x hx => ht x (by simp [hx])) (by rw [k4]; omega)
    · have hle := h.le
      obtain ⟨rfl, g1⟩ := k6 (by omega)
      simp only [reduceCtorEq, if_false]
      exact ⟨p1, rfl⟩

/-- A read of the standard input that returns bytes, or no read. -/
def GivesBytes (t : Turn) : Prop := t.stdin = none ∨ ∃ x xs, t.stdin = some (some (x :: xs))

theorem run3_finishes {fill : Nat → Byte} {cap : Nat} {eof : Turn} {post : List Turn} (he : eof.pollOk = true)
    (heof : eof.stdin = some (some [])) (hp : ∀ t ∈ post, t.pollOk = true) : ∀ (pre : List Turn) {p : Pipe}, PipeInv fill p → Live3 p →
    (∀ t ∈ pre, t.pollOk = true ∧ GivesBytes t) → (wireOf p.a).length ≤ 16 * p.inp.length →
    16 * (p.inp.length + (stdinOf pre).length) ≤ cap → 16 * (p.inp.length + (stdinOf pre).length) < post.length →
    ∃ p', p.run cap (pre ++ eof :: post) = .ok (p', .finished) := by
  intro pre
  induction pre with
  | nil =>
    intro p h hl _ hw hcap hpost
    obtain ⟨p1, s1, k1, k2, k3, k4⟩ := turn3_spec h hl cap he
    simp only [List.nil_append, Pipe.run, k1, Res.bind_ok]
    rw [heof] at k4
    obtain ⟨rfl, g1, g2, g3⟩ := k4
    simp only [if_true]
    refine run2_finishes post k2 g1 hp ?_
    rw [g3]; simp only [stdinOf, List.length_nil] at hpost; omega
  | cons t pre ih =>
    intro p h hl ht hw hcap hpost
    obtain ⟨t1, t2⟩ := ht t (by simp)
    obtain ⟨p1, s1, k1, k2, k3, k4⟩ := turn3_spec h hl cap t1
    simp only [List.cons_append, Pipe.run, k1, Res.bind_ok]
    have ht' : ∀ t ∈ pre, t.pollOk = true ∧ GivesBytes t := fun x hx => ht x (by simp [hx])
    rcases t2 with hs | ⟨x, xs, hs⟩
    · rw [hs] at k4
      obtain ⟨rfl, g1, g2, g3⟩ := k4
      simp only [if_true]
      simp only [stdinOf, hs] at hcap hpost
      exact ih k2 g1 ht' (by rw [g2, g3]; exact hw) (by rw [g2]; exact hcap) (by rw [g2]; exact hpost)
    · rw [hs] at k4
      obtain ⟨g0, g1, g2, g3, g4⟩ := k4
      simp only [stdinOf, hs, List.length_append] at hcap hpost
      have hl1 : 1 ≤ ((x :: xs).take 1024).length := by simp
      generalize hb : (x :: xs).take 1024 = b at *
      have hi : p1.inp.length = p.inp.length + b.length := by rw [g2, List.length_append]
      have hw1 : (wireOf p1.a).length ≤ 16 * p1.inp.length := by rw [hi]; omega
      rw [if_pos (by omega)] at g0
      subst g0
      simp only [if_true]
      exact ih k2 g1 ht' hw1 (by rw [hi]; omega) (by rw [hi]; omega)

/-- **C95** (what holds) If the socket holds 16 bytes for every byte of the input, the program copies the whole input and ends
successfully: after the end of the input, at the latest after one more iteration than the socket holds bytes. -/
theorem C95_finishes_partial (fill : Nat → Byte) (cap : Nat) {pre post : List Turn} {eof : Turn}
    (hpre : ∀ t ∈ pre, t.pollOk = true ∧ GivesBytes t) (he : eof.pollOk = true) (heof : eof.stdin = some (some []))
    (hpost : ∀ t ∈ post, t.pollOk = true) (hcap : 16 * (stdinOf pre).length ≤ cap)
    (hlong : 16 * (stdinOf pre).length < post.length) :
    ∃ p0 p, Pipe.start fill = .ok p0 ∧ p0.run cap (pre ++ eof :: post) = .ok (p, .finished) ∧ p.out = stdinOf pre := by
  obtain ⟨p, h⟩ := run3_finishes (fill := fill) (cap := cap) he heof hpost pre (pipe_init fill) ⟨rfl, rfl, rfl, rfl⟩ hpre
    (Nat.zero_le _) (by simpa using hcap) (by simpa using hlong)
  obtain ⟨p0', p', s', q1, q2, q3, q4, q5⟩ := C95_copies_partial fill cap (pre ++ eof :: post)
  rw [pipe_start fill] at q1
  cases q1
  rw [h] at q2
  cases q2
  refine ⟨_, p, pipe_start fill, h, ?_⟩
  rw [q5 rfl]
  have : ∀ l : List Turn, (∀ t ∈ l, GivesBytes t) → stdinOf (l ++ eof :: post) = stdinOf l := by
    intro l
    induction l with
    | nil => intro _; simp [stdinOf, heof]
    | cons t l ih =>
      intro hg
      have ih' := ih (fun x hx => hg x (by simp [hx]))
      rcases hg t (by simp) with hs | ⟨x, xs, hs⟩ <;> simp only [List.cons_append, stdinOf, hs, ih']
  exact this pre (fun t ht => (hpre t ht).2)

theorem run_stuck {fill : Nat → Byte} {cap : Nat} : ∀ (turns : List Turn) {p : Pipe}, PipeInv fill p → Live3 p →
    (∀ t ∈ turns, t.pollOk = true ∧ ∃ x, x.length = 1024 ∧ t.stdin = some (some x)) →
    (wireOf p.a).length - p.toB ≤ cap → cap < (wireOf p.a).length - p.toB + 160 * turns.length →
    ∃ p', (∀ more, p.run cap (turns ++ more) = .ok (p', .stuck)) ∧ PipeInv fill p' ∧
      p'.inp <+: p.inp ++ stdinOf turns := by
  intro turns
  induction turns with
  | nil => intro p _ _ _ h1 h2; simp at h2; omega
  | cons t rest ih =>
    intro p h hl ht h1 h2
    obtain ⟨t1, x, t2, t3⟩ := ht t (by simp)
    obtain ⟨p1, s1, k1, k2, k3, k4⟩ := turn3_spec h hl cap t1
    cases x with
    | nil => simp at t2
    | cons y ys =>
      rw [t3] at k4
      obtain ⟨g0, g1, g2, g3, g4⟩ := k4
      have hlen : ((y :: ys).take 1024).length = 1024 := by rw [List.length_take, t2]; rfl
      rw [hlen] at g3
      have hst : stdinOf (t :: rest) = (y :: ys).take 1024 ++ stdinOf rest := by simp only [stdinOf, t3]
      simp only [List.length_cons] at h2
      by_cases hc : (wireOf p1.a).length - p1.toB ≤ cap
      · rw [if_pos hc] at g0
        subst g0
        have hle := h.le
        obtain ⟨p', q1, q2, q3⟩ := ih k2 g1 (fun x hx => ht x (by simp [hx])) hc (by omega)
        refine ⟨p', fun more => ?_, q2, ?_⟩
        · simp only [List.cons_append, Pipe.run, k1, Res.bind_ok, if_true]; exact q1 more
        · rw [hst, ← List.append_assoc, ← g2]; exact q3
      · rw [if_neg hc] at g0
        subst g0
        refine ⟨p1, fun more => ?_, k2, ?_⟩
        · simp only [List.cons_append, Pipe.run, k1, Res.bind_ok, reduceCtorEq, if_false]
        · rw [hst, g2]
          exact (List.prefix_append_right_inj _).mpr (List.prefix_append _ _)

/-- **C95** (refuted) However much the socket holds: with a standard input that always has 1024 bytes ready (any bytes) the program stops for ever in
`write`, and the rest of the input is never copied.  (Each iteration writes at least 1184 bytes to the socket and reads at most 1024 from
it.) -/
theorem C95_refuted (fill : Nat → Byte) (cap : Nat) {turns : List Turn} (hlen : cap < 160 * turns.length)
    (ht : ∀ t ∈ turns, t.pollOk = true ∧ ∃ x, x.length = 1024 ∧ t.stdin = some (some x)) :
    ∃ p0 p, Pipe.start fill = .ok p0 ∧ ∀ more, p0.run cap (turns ++ more) = .ok (p, .stuck) ∧
      (stdinOf more ≠ [] → p.out ≠ stdinOf (turns ++ more)) := by
  obtain ⟨p, h1, h2, h3⟩ := run_stuck (cap := cap) turns (pipe_init fill) ⟨rfl, rfl, rfl, rfl⟩ ht (Nat.zero_le _)
    (by exact Nat.lt_of_lt_of_le hlen (Nat.le_add_left _ _))
  refine ⟨_, p, pipe_start fill, fun more => ⟨h1 more, fun hm he => ?_⟩⟩
  have e : ∀ l : List Turn, (∀ t ∈ l, t.pollOk = true ∧ ∃ x, x.length = 1024 ∧ t.stdin = some (some x)) →
      stdinOf (l ++ more) = stdinOf l ++ stdinOf more := by
    intro l
    induction l with
    | nil => intro _; rfl
    | cons t l ih =>
      intro hl
      obtain ⟨-, x, x1, x2⟩ := hl t (by simp)
      cases x with
      | nil => simp at x1
      | cons y ys =>
        simp only [List.cons_append, stdinOf, x2, ih (fun q hq => hl q (by simp [hq])), List.append_assoc]
  have l1 := (h2.prefix.1.trans h3).length_le
  rw [he, e turns ht] at l1
  simp only [List.length_append, List.nil_append] at l1
  have := List.length_pos_iff.mpr hm
  omega

/-- With the default size of a socket buffer, 212992 bytes, 1332 reads of 1024 bytes are enough. -/
example : ∃ turns : List Turn, 212992 < 160 * turns.length ∧ turns.length = 1332 ∧
    ∀ t ∈ turns, t.pollOk = true ∧ ∃ x, x.length = 1024 ∧ t.stdin = some (some x) := by
  refine ⟨List.replicate 1332 ⟨true, 1024, 1024, some (some (List.replicate 1024 0x41))⟩, by rw [List.length_replicate]; decide, List.length_replicate, ?_⟩
  intro t ht
  rw [List.eq_of_mem_replicate ht]
  exact ⟨rfl, _, List.length_replicate, rfl⟩

/-- A short input: the text is read in two parts, and the socket is read one byte at a time. -/
example :
    let pre : List Turn := [⟨true, 0, 0, some (some [0x68, 0x65])⟩, ⟨true, 0, 0, none⟩, ⟨true, 0, 0, some (some [0x7e])⟩]
    ((Pipe.start (fun _ => 0)).bind fun p =>
      (p.run 100 (pre ++ ⟨true, 0, 0, some (some [])⟩ :: List.replicate 49 ⟨true, 0, 0, none⟩)).map fun r => (r.1.out, r.2)) =
      .ok ([0x68, 0x65, 0x7e], .finished) := by
  decide +kernel

/-! ## C96: mctp-in -/

theorem mctpIn_start (fill : Nat → Byte) (wr : Nat → List Byte → Int) :
    ∃ c, mctpInStart fill wr = .ok c ∧ SerialEndpoint 8 65536 wr {} c :=
  ⟨_, rfl, fill, _, 256, 0, rfl, by decide, rfl, by decide⟩

/-- What the reads of the standard input return, up to its end or an error. -/
def readsOf : List (Option (List Byte)) → List Byte
  | [] => []
  | got :: rest =>
    match got with
    | none => []
    | some [] => []
    | some (x :: xs) => (x :: xs).take 1024 ++ readsOf rest

/-- Does the program end? -/
def endsIn : List (Option (List Byte)) → Bool
  | [] => false
  | got :: rest =>
    match got with
    | none => true
    | some [] => true
    | some (_ :: _) => endsIn rest

theorem mctpIn_run {eid : Byte} {mx : Nat} {wr : Nat → List Byte → Int} {mem : Mem} {c0 : Core SerialSt}
    (hE : SerialEndpoint eid mx wr mem c0) (hcl : Clean mem) (hw : WrOk wr) : ∀ (reads : List (Option (List Byte)))
    {hist : List SerialOp} {log : List SerialRec} {c : Core SerialSt}, c0.serialRun hist = .ok (c, log) →
    (∀ op ∈ hist, ∃ ch, op = .rx ch) →
    ∃ hist' log' c' out, mctpInRun c reads = .ok (c', out, endsIn reads) ∧ c0.serialRun hist' = .ok (c', log') ∧
      (∀ op ∈ hist', ∃ ch, op = .rx ch) ∧ bytesIn hist' = bytesIn hist ++ readsOf reads ∧
      printed (serialEvents log') = printed (serialEvents log) ++ out := by
  intro reads
  induction reads with
  | nil =>
    intro hist log c h1 h2
    exact ⟨hist, log, c, [], rfl, h1, h2, by simp [readsOf], by simp⟩
  | cons got rest ih =>
    intro hist log c h1 h2
    have hend : ∀ {g : Option (List Byte)}, ((g.getD []).take 1024) = [] →
        mctpInRun c (g :: rest) = .ok (c, [], true) := by
      intro g hg
      simp [mctpInRun, hg, Core.serialRead, printed, Res.bind_ok]
    match got with
    | none => exact ⟨hist, log, c, [], hend rfl, h1, h2, by simp [readsOf], by simp⟩
    | some [] => exact ⟨hist, log, c, [], hend rfl, h1, h2, by simp [readsOf], by simp⟩
    | some (x :: xs) =>
      obtain ⟨c', e, rc, s1, s2⟩ := hE.step hcl hw (fun o ho => (rxs_sends h2 _ ho).app o rfl) h1
        (op := .rx ((x :: xs).take 1024)) (by intro o ho; cases ho)
      simp only [Core.serialStep] at s1
      obtain ⟨⟨c1, e1⟩, s3, s4⟩ := Res.bind_eq_ok.mp s1
      simp only [Except.ok.injEq, Prod.mk.injEq] at s4
      obtain ⟨rfl, rfl, rfl⟩ := s4
      obtain ⟨hist', log', c2, out, q1, q2, q3, q4, q5⟩ := ih s2 (by
        intro op ho
        rcases List.mem_append.mp ho with ho | ho
        · exact h2 op ho
        · rw [List.mem_singleton] at ho; exact ⟨_, ho⟩)
      refine ⟨hist', log', c2, printed e1 ++ out, ?_, q2, q3, ?_, ?_⟩
      · have hne : (x :: xs).take 1024 ≠ [] := by simp
        simp only [mctpInRun, Option.getD_some, if_neg hne, Core.serialRead, s3, Res.bind_ok, endsIn, q1]
        simp
      · rw [q4, bytesIn_append]
        simp [bytesIn, readsOf, List.append_assoc]
      · rw [q5, serialEvents, List.flatMap_append, printed_append, serialEvents]
        simp

/-- **C96** The program `mctp-in` never faults, whatever the standard input brings and in whatever pieces; it ends exactly at the end of the
input or at a read error.  If the input is what another endpoint has written to its serial line, or the first part of it, and that endpoint's
messages are addressed to EID 8 (or to 0 or 255), the output consists of the contents of the first of its messages, in order; of all of them if
everything was read and the endpoint has nothing left to send. -/
theorem C96_prints (fill : Nat → Byte) {wr : Nat → List Byte → Int} (hwr : WrOk wr) (reads : List (Option (List Byte))) :
    ∃ c0 c out, mctpInStart fill wr = .ok c0 ∧ mctpInRun c0 reads = .ok (c, out, endsIn reads) ∧
      ∀ {eidA : Byte} {mxA : Nat} {wrA : Nat → List Byte → Int} {memA : Mem} {a0 a : Core SerialSt},
        SerialEndpoint eidA mxA wrA memA a0 → Clean memA → WrGood wrA →
        ∀ {histA : List SerialOp}, SerialHist histA → ∀ {logA : List SerialRec}, a0.serialRun histA = .ok (a, logA) →
        eidA ≠ 0 → (∀ m ∈ accepted 68 (coreLog logA), Local 8 m.dest ∧ m.data.length ≤ 32768) →
        readsOf reads <+: wireOf a →
        out <+: (accepted 68 (coreLog logA)).flatMap (·.data) ∧
          (pending a = [] → readsOf reads = wireOf a → out = (accepted 68 (coreLog logA)).flatMap (·.data)) := by
  obtain ⟨c0, h0, hE⟩ := mctpIn_start fill wr
  obtain ⟨hist, log, c, out, q1, q2, q3, q4, q5⟩ := mctpIn_run hE clean_empty hwr reads (hist := []) (log := []) rfl
    (by intro op ho; cases ho)
  refine ⟨c0, c, out, h0, q1, ?_⟩
  intro eidA mxA wrA memA a0 a hA hclA hwA histA hhA logA hrA hsrc hms hwire
  rw [show bytesIn [] = [] from rfl, List.nil_append] at q4
  obtain ⟨r1, r2⟩ := C47_end_to_end hA hclA hwA hhA hrA hE clean_empty hwr (fun o ho => (rxs_sends q3 _ ho).app o rfl)
    (by intro op ho; obtain ⟨ch, hc⟩ := q3 _ ho; cases hc) q2 hsrc (by decide) (by decide)
    (fun m hm => ⟨(hms m hm).1, by have := (hms m hm).2; omega⟩) (by rw [q4]; exact hwire)
  have e1 := printed_filter (serialEvents log)
  have e2 := printed_msgs eidA (accepted 68 (coreLog logA))
  have e3 : printed (serialEvents log) = out := by rw [q5]; rfl
  refine ⟨?_, fun hp hb => ?_⟩
  · have := printed_prefix r1
    rwa [e1, e2, e3] at this
  · have := congrArg printed (r2 hp (by rw [q4, hb]))
    rwa [e1, e2, e3] at this

/-- Noise, and a message of two packets read in three pieces. -/
example :
    let msg := List.replicate 100 (0x7e : Byte)
    let w := (match (Demo.serialCore 9 Demo.slowWrite).serialRun [.core (.send 8 true 3 msg)] with
      | .ok (a, _) => wireOf a
      | .error _ => [])
    ((mctpInStart (fun _ => 0) Demo.slowWrite).bind fun c =>
      (mctpInRun c [some [1, 2], some (w.take 150), some (w.drop 150), some []]).map fun r => r.2) = .ok (msg, true) := by
  decide +kernel

end Mctp
