import Verif.Model.Serial

/-!
# Model of the programs `utils/mctp-pipe.c` and `utils/mctp-in.c`

Both use the serial binding.  The operating system appears as the results of `poll`, `read` and `write`.  All
allocations succeed (both programs use the C library's allocator; its failures are the subject of C31).
Not modelled: messages on stderr, the results of `write` on the standard output (a short or failed write is only
reported; the model records the bytes handed to `write`), and failures of `socketpair` (the program ends).
-/

namespace Mctp

/-- mctp-pipe.c:15-26 and mctp-in.c:15-26 `rx_message`: the bytes written to the standard output for the
callbacks of one call. -/
def printed (evs : List Event) : List Byte :=
  evs.flatMap fun e => match e with
    | .rxMsg _ _ _ msg => msg
    | _ => []

/-- `write` on a descriptor in blocking mode: it takes all the bytes (or does not return, see `Pipe.turn`). -/
def blockingWrite : Nat → List Byte → Int := fun _ buf => buf.length

/-- mctp-pipe.c:28-107: the variables of `main`.  `a` and `b` are `mctp[0]` and `mctp[1]` with their bindings; `toA`
and `toB` count the bytes read from `mctp_fds[0]` (written by `b`) and `mctp_fds[1]` (written by `a`); `n` is the number of
poll entries in use; `fd0` and `fd1` say that `pollfds[0].fd` and `pollfds[1].fd` are not -1; `open0` that `mctp_fds[0]` is
open.  `inp` and `out` are ghosts: the bytes read from the standard input and those handed to `write` for the standard output. -/
structure Pipe where
  a     : Core SerialSt
  b     : Core SerialSt
  toA   : Nat
  toB   : Nat
  n     : Nat
  fd0   : Bool
  fd1   : Bool
  open0 : Bool
  inp   : List Byte
  out   : List Byte

/-- What the operating system does in one iteration: does `poll` succeed; at most how many bytes do reads of the two
sockets return (at least one, if there is one); the standard input: not ready, `read` fails, or the bytes
`read` returns (none at the end of the file). -/
structure Turn where
  pollOk : Bool
  amt0   : Nat
  amt1   : Nat
  stdin  : Option (Option (List Byte))

/-- How far the program is: in its loop, ended with EXIT_FAILURE or EXIT_SUCCESS, or waiting for ever in `write`. -/
inductive Progress
  | running
  | failed
  | finished
  | stuck
  deriving DecidableEq, Repr

/-- The bytes written to one socket and not yet read from the other: the first `amt` (at least one, at most the 1024 that fit
the read buffer, serial.c:75). -/
def nextBytes (wire : List Byte) (done amt : Nat) : List Byte := (wire.drop done).take (min 1024 (max 1 amt))

/-- mctp-pipe.c:30-66: the state before the loop.  `fill`: the contents of fresh memory. -/
def Pipe.start (fill : Nat → Byte) : Res Pipe := do
  match Core.init SerialSt {} fill, Core.init SerialSt {} fill with
  | some a, some b =>
    let (a, _) ← a.registerBus serialOps (serialInit blockingWrite 256) 8
    let (b, _) ← b.registerBus serialOps (serialInit blockingWrite 256) 9
    .ok { a := a, b := b.setRxAll true, toA := 0, toB := 0, n := 3, fd0 := true, fd1 := true, open0 := true,
          inp := [], out := [] }
  | _, _ => .error .assertFail

/-- mctp-pipe.c:75-79: `mctp_serial_read(serial[0])`, when poll reported the socket.  (The socket of `b` is never
closed, so that `read` does not return 0.) -/
def Pipe.read0 (p : Pipe) (amt : Nat) : Res Pipe := do
  let got := nextBytes (wireOf p.b) p.toA amt
  let (a, e, rc) ← p.a.serialRead 0 (if got = [] then none else some got)
  .ok { p with a := a, toA := p.toA + got.length, fd0 := p.fd0 && decide (rc = 0), out := p.out ++ printed e }

/-- mctp-pipe.c:81-85: `mctp_serial_read(serial[1])`, when poll reported the socket: with no bytes left the other end has been
closed and `read` returns 0. -/
def Pipe.read1 (p : Pipe) (amt : Nat) : Res Pipe := do
  let got := nextBytes (wireOf p.a) p.toB amt
  let (b, e, rc) ← p.b.serialRead 0 (if got = [] then none else some got)
  .ok { p with b := b, toB := p.toB + got.length, fd1 := p.fd1 && decide (rc = 0), out := p.out ++ printed e }

/-- mctp-pipe.c:87-101: the standard input (the result of `read` into the buffer of 1024 bytes).  `cap`: the number of bytes the
socket holds; when the frames of a message do not fit, `write` waits for a reader.  (The only reader is this program, so that it waits
for ever; nothing is read while `mctp_message_tx` runs, so that it is enough to look at the total afterwards.) -/
def Pipe.input (cap : Nat) (p : Pipe) : Option (List Byte) → Res (Pipe × Progress)
  | none => .ok (p, .failed)
  | some [] => .ok ({ p with n := 2, open0 := false, fd0 := false }, .running)
  | some (x :: xs) => do
    let buf := (x :: xs).take 1024
    let (a, e, _) ← p.a.messageTx serialOps 9 true 0 buf
    .ok ({ p with a := a, inp := p.inp ++ buf, out := p.out ++ printed e },
      if (wireOf a).length - p.toB ≤ cap then .running else .stuck)

/-- mctp-pipe.c:75-79, if poll has reported the socket. -/
def Pipe.sock0 (p : Pipe) (ready : Bool) (amt : Nat) : Res Pipe := if ready then p.read0 amt else .ok p

/-- mctp-pipe.c:81-85, if poll has reported the socket. -/
def Pipe.sock1 (p : Pipe) (ready : Bool) (amt : Nat) : Res Pipe := if ready then p.read1 amt else .ok p

/-- mctp-pipe.c:87-101, if the entry is in use and reported. -/
def Pipe.keys (cap : Nat) (p : Pipe) (stdin : Option (Option (List Byte))) : Res (Pipe × Progress) :=
  match (if p.n > 2 then stdin else none) with
  | some got => p.input cap got
  | none => .ok (p, .running)

/-- mctp-pipe.c:68-105: one iteration.  poll reports a socket if there are bytes to read or the other end has been closed. -/
def Pipe.turn (cap : Nat) (p : Pipe) (t : Turn) : Res (Pipe × Progress) :=
  if !t.pollOk then .ok (p, .failed)
  else do
    let r0 := p.fd0 && decide (p.toA < (wireOf p.b).length)
    let r1 := p.fd1 && (decide (p.toB < (wireOf p.a).length) || !p.open0)
    let p ← p.sock0 r0 t.amt0
    let p ← p.sock1 r1 t.amt1
    let (p, s) ← p.keys cap t.stdin
    if s = .running ∧ p.n = 2 ∧ p.fd0 = false ∧ p.fd1 = false then .ok (p, .finished) else .ok (p, s)

/-- mctp-pipe.c:68-106: the loop, for these results of the system calls. -/
def Pipe.run (cap : Nat) (p : Pipe) : List Turn → Res (Pipe × Progress)
  | [] => .ok (p, .running)
  | t :: rest => do
    let (p, s) ← p.turn cap t
    if s = .running then p.run cap rest else .ok (p, s)

/-- mctp-in.c:30-44: the state before the loop: the endpoint, with the serial binding on the standard input.  `wr`: the
results of writes to the standard input (there are none). -/
def mctpInStart (fill : Nat → Byte) (wr : Nat → List Byte → Int) : Res (Core SerialSt) := do
  match Core.init SerialSt {} fill with
  | some c =>
    let (c, _) ← c.registerBus serialOps (serialInit wr 256) 8
    .ok (c.setRxAll true)
  | none => .error .assertFail

/-- mctp-in.c:46-52: the loop, for these results of `read` (`none`: failed; at most 1024 bytes, none at the end of the file).  The endpoint,
the bytes written to the standard output, and whether the program has ended. -/
def mctpInRun (c : Core SerialSt) : List (Option (List Byte)) → Res (Core SerialSt × List Byte × Bool)
  | [] => .ok (c, [], false)
  | got :: rest => do
    let bytes := (got.getD []).take 1024
    let (c, e, rc) ← c.serialRead 0 (if bytes = [] then none else some bytes)
    if rc ≠ 0 then .ok (c, printed e, true)
    else do
      let (c, out, done) ← mctpInRun c rest
      .ok (c, printed e ++ out, done)

end Mctp
