import Verif.Model.Api

/-!
# Model of `alloc.c`, `log.c` and `utils/mctp-capture.c`
-/

namespace Mctp

/-! ## alloc.c -/

/-- alloc.c:12-16 `alloc_ops`: the hooks of the application, on an arbitrary state `H` of the heap.  Pointers are
numbers, `none` is NULL; `none` for a hook is a NULL function pointer.  A hook may fault. -/
structure Hooks (H : Type) where
  alloc   : Option (H → Nat → Res (Option Nat × H))
  free    : Option (H → Option Nat → Res H)
  realloc : Option (H → Option Nat → Nat → Res (Option Nat × H))

/-- alloc.c:25-33 `__mctp_alloc`. -/
def hookAlloc {H : Type} (o : Hooks H) (h : H) (size : Nat) : Res (Option Nat × H) :=
  match o.alloc with
  | some f => f h size
  | none =>
    match o.realloc with
    | some f => f h none size
    | none => .error .assertFail

/-- alloc.c:35-43 `__mctp_free`. -/
def hookFree {H : Type} (o : Hooks H) (h : H) (p : Option Nat) : Res H :=
  match o.free with
  | some f => f h p
  | none =>
    match o.realloc with
    | some f => do
      let (_, h) ← f h p 0
      .ok h
    | none => .error .assertFail

/-- alloc.c:45-51 `__mctp_realloc`. -/
def hookRealloc {H : Type} (o : Hooks H) (h : H) (p : Option Nat) (size : Nat) : Res (Option Nat × H) :=
  match o.realloc with
  | some f => f h p size
  | none => .error .assertFail

/-- A request of the library, or the application changing the hooks. -/
inductive AllocOp (H : Type)
  /-- alloc.c:53-59 `mctp_set_alloc_ops` -/
  | set (o : Hooks H)
  /-- alloc.c:25 -/
  | alloc (size : Nat)
  /-- alloc.c:35 -/
  | free (p : Option Nat)
  /-- alloc.c:45 -/
  | realloc (p : Option Nat) (size : Nat)

/-- A sequence of requests: the pointers returned (`none` for calls that return none), and the state of the heap. -/
def hookRun {H : Type} (o : Hooks H) (h : H) : List (AllocOp H) → Res (List (Option (Option Nat)) × H)
  | [] => .ok ([], h)
  | .set o' :: rest => do
    let (rs, h) ← hookRun o' h rest
    .ok (none :: rs, h)
  | .alloc n :: rest => do
    let (p, h) ← hookAlloc o h n
    let (rs, h) ← hookRun o h rest
    .ok (some p :: rs, h)
  | .free p :: rest => do
    let h ← hookFree o h p
    let (rs, h) ← hookRun o h rest
    .ok (none :: rs, h)
  | .realloc p n :: rest => do
    let (q, h) ← hookRealloc o h p n
    let (rs, h) ← hookRun o h rest
    .ok (some q :: rs, h)

/-! ## log.c -/

/-- log.c:20-25 `log_type`. -/
inductive LogType
  | none
  | stdio
  | syslog
  | custom
  deriving DecidableEq, Repr

/-- log.c:20-28: the static variables.  `fn` is the number of the application's handler, `none` is NULL. -/
structure LogSt where
  type  : LogType := .none
  level : Int := 0
  fn    : Option Nat := none
  deriving DecidableEq, Repr

/-- What a log call does: a line on stderr, a call of `vsyslog`, a call of the application's handler. -/
inductive LogOut
  | printed (text : List Byte)
  | syslog (level : Int) (text : List Byte)
  | handler (fn : Nat) (level : Int) (text : List Byte)
  deriving DecidableEq, Repr

/-- The configuration of the build: `MCTP_HAVE_STDIO`, `MCTP_HAVE_SYSLOG`. -/
structure LogBuild where
  stdio  : Bool
  syslog : Bool
  deriving DecidableEq, Repr

/-- A call: the three configuration functions, or `mctp_prlog` with the formatted text. -/
inductive LogOp
  /-- log.c:60-64 `mctp_set_log_stdio` -/
  | setStdio (level : Int)
  /-- log.c:66-69 `mctp_set_log_syslog` -/
  | setSyslog
  /-- log.c:71-75 `mctp_set_log_custom` -/
  | setCustom (fn : Option Nat)
  /-- log.c:30-58 `mctp_prlog` -/
  | log (level : Int) (text : List Byte)
  deriving DecidableEq, Repr

/-- log.c:30-58 `mctp_prlog` (the formatting of the text is not modelled). -/
def prlog (b : LogBuild) (s : LogSt) (level : Int) (text : List Byte) : Res (List LogOut) :=
  match s.type with
  | .none => .ok []
  | .stdio => if b.stdio ∧ level ≤ s.level then .ok [.printed text] else .ok []
  | .syslog => if b.syslog then .ok [.syslog level text] else .ok []
  | .custom =>
    match s.fn with
    | some f => .ok [.handler f level text]
    | none => .error .nullDeref

/-- log.c:30-75: one call. -/
def logStep (b : LogBuild) (s : LogSt) : LogOp → Res (LogSt × List LogOut)
  | .setStdio l => .ok ({ s with type := .stdio, level := l }, [])
  | .setSyslog => .ok ({ s with type := .syslog }, [])
  | .setCustom f => .ok ({ s with type := .custom, fn := f }, [])
  | .log l t => do
    let out ← prlog b s l t
    .ok (s, out)

/-- A history and what it prints, call by call. -/
def logRun (b : LogBuild) (s : LogSt) : List LogOp → Res (LogSt × List (List LogOut))
  | [] => .ok (s, [])
  | op :: rest => do
    let (s, o) ← logStep b s op
    let (s, os) ← logRun b s rest
    .ok (s, o :: os)

/-! ## utils/mctp-capture.c -/

/-- `memcpy` into a buffer. -/
def blit (buf : List Byte) (off : Nat) (bs : List Byte) : Res (List Byte) :=
  if off + bs.length ≤ buf.length then .ok (buf.take off ++ bs ++ buf.drop (off + bs.length))
  else .error .outOfBounds

/-- `sizeof(struct sll2_header)` (pcap/sll.h: protocol 2, reserved 2, interface index 4, hardware type 2, packet type
1, address length 1, address 8). -/
def sll2Size : Nat := 20

/-- mctp-capture.c:70-81, 110-121: the fields of the link header, in the order in which they are written. -/
def sll2Fill (buf : List Byte) (outgoing : Bool) : Res (List Byte) := do
  let buf ← blit buf 0 [0x00, 0xfa]
  let buf ← blit buf 10 [if outgoing then 4 else 0]
  let buf ← blit buf 2 [0, 0]
  let buf ← blit buf 4 [0, 0, 0, 0]
  let buf ← blit buf 8 [0, 0]
  let buf ← blit buf 11 [0]
  blit buf 12 (List.replicate 8 0)

/-- A record of the capture file (the time stamp is not modelled). -/
abbrev CapRec := List Byte

/-- A fresh, uninitialised block of `n` bytes. -/
def uninit (fill : Nat → Byte) (n : Nat) : List Byte := (List.range n).map fill

/-- mctp-capture.c:55-92 `capture_binding`; `clock` says whether `gettimeofday` succeeds, `fill` is the content of
fresh memory.  The records written (none or one). -/
def captureBinding (clock : Bool) (fill : Nat → Byte) (mem : Mem) (outgoing : Bool) (pkt : List Byte) :
    Res (List CapRec × Mem) :=
  if !clock then .ok ([], mem)
  else
    let size := sll2Size + pkt.length
    match mem.alloc with
    | (none, mem) => .ok ([], mem)
    | (some id, mem) => do
      let buf ← sll2Fill (uninit fill size) outgoing
      let buf ← blit buf sll2Size pkt
      let mem ← mem.free (some id)
      .ok ([buf], mem)

/-- mctp-capture.c:94-145 `capture_socket`.  `buf` is the message of the client: an EID, then the payload.  For
an empty message the length of the copy wraps around. -/
def captureSocket (clock : Bool) (fill : Nat → Byte) (mem : Mem) (msg : List Byte) (outgoing : Bool) (eid : Byte) :
    Res (List CapRec × Mem) :=
  if !clock then .ok ([], mem)
  else
    let size := sll2Size + hdrSize + msg.length
    match mem.alloc with
    | (none, mem) => .ok ([], mem)
    | (some id, mem) => do
      let buf ← sll2Fill (uninit fill size) outgoing
      let buf ← blit buf sll2Size [1]
      let buf ← blit buf (sll2Size + 3) [0xc0]
      let buf ← (if outgoing then do
          let buf ← blit buf (sll2Size + 1) [eid]
          blit buf (sll2Size + 2) [0]
        else do
          let buf ← blit buf (sll2Size + 1) [0]
          blit buf (sll2Size + 2) [eid])
      let buf ← (if msg.length = 0 then .error .outOfBounds else blit buf (sll2Size + hdrSize) (msg.drop 1))
      let mem ← mem.free (some id)
      .ok ([buf], mem)

/-- utils/mctp-demux-daemon.c:663-664: the daemon's capture handler for the binding, applied to the events of the core. -/
def captureFile (clock : Bool) (fill : Nat → Byte) (mem : Mem) : List Event → Res (List CapRec × Mem)
  | [] => .ok ([], mem)
  | .capture outgoing pkt :: rest => do
    let (r1, mem) ← captureBinding clock fill mem outgoing pkt
    let (r2, mem) ← captureFile clock fill mem rest
    .ok (r1 ++ r2, mem)
  | _ :: rest => captureFile clock fill mem rest

end Mctp
