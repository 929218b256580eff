import Verif.Model.Daemon
import Verif.Model.Serial

/-!
# The life of the daemon: `main` of `utils/mctp-demux-daemon.c`

Command line, start-up, the loop of `run_daemon` with the events that end it, and the clean-up code.  The results of the
system calls of the start-up are inputs (`Boot`).

Not modelled: messages on stderr; the allocation of the message buffer and of the arrays (their failure is not
checked by the code); the block that holds the binding and the opening of its device (see `FileIo.lean`); an astlpc
binding whose registration has failed (see `Detached.lean`).
-/

namespace Mctp

/-! ## The command line -/

/-- getopt(3): does an option take an argument? -/
inductive ArgKind
  | no
  | required
  | optional
  deriving DecidableEq, Repr

/-- utils/mctp-demux-daemon.c:602: the string "b:es::v". -/
def shortOption : Char → Option ArgKind
  | 'b' => some .required
  | 'e' => some .no
  | 's' => some .optional
  | 'v' => some .no
  | _ => none

/-- utils/mctp-demux-daemon.c:568-576 `options`. -/
def longOption (name : List Char) : Option (ArgKind × Char) :=
  if name = "capture-binding".toList then some (.required, 'b')
  else if name = "capture-socket".toList then some (.required, 's')
  else if name = "binding-linktype".toList then some (.required, 'B')
  else if name = "socket-linktype".toList then some (.required, 'S')
  else if name = "verbose".toList then some (.no, 'v')
  else if name = "eid".toList then some (.required, 'e')
  else none

/-- A result of `getopt_long` and `optarg` (`none` for NULL). -/
abbrev Opt := Char × Option (List Char)

/-- getopt(3): the short options in one argument (after the `-`); `rest` are the arguments after it.  The options and the
arguments left. -/
def shortCluster : List Char → List (List Char) → List Opt × List (List Char)
  | [], rest => ([], rest)
  | c :: cs, rest =>
    match shortOption c with
    | none =>
      let (os, rest) := shortCluster cs rest
      (('?', none) :: os, rest)
    | some .no =>
      let (os, rest) := shortCluster cs rest
      ((c, none) :: os, rest)
    | some .optional => ([(c, if cs = [] then none else some cs)], rest)
    | some .required =>
      match cs, rest with
      | [], [] => ([('?', none)], [])
      | [], a :: rest => ([(c, some a)], rest)
      | cs, rest => ([(c, some cs)], rest)

/-- getopt_long(3): an argument that starts with `--`. -/
def longArg (text : List Char) (rest : List (List Char)) : List Opt × List (List Char) :=
  let name := text.takeWhile (· ≠ '=')
  let val := text.dropWhile (· ≠ '=')
  match longOption name, val, rest with
  | none, _, rest => ([('?', none)], rest)
  | some (.required, c), _ :: v, rest => ([(c, some v)], rest)
  | some (.required, c), [], a :: rest => ([(c, some a)], rest)
  | some (.required, _), [], [] => ([('?', none)], [])
  | some (_, c), [], rest => ([(c, none)], rest)
  | some (_, _), _ :: _, rest => ([('?', none)], rest)

theorem shortCluster_rest : ∀ (cs : List Char) (rest : List (List Char)), (shortCluster cs rest).2.length ≤ rest.length
  | [], _ => Nat.le_refl _
  | c :: cs, rest => by
    unfold shortCluster
    split
    · exact shortCluster_rest cs rest
    · exact shortCluster_rest cs rest
    · exact Nat.le_refl _
    · split <;> simp

theorem longArg_rest (text : List Char) (rest : List (List Char)) : (longArg text rest).2.length ≤ rest.length := by
  unfold longArg
  simp only
  split <;> simp

/-- getopt_long(3) of the C library on these arguments (without the name of the program): the results in order, and the
arguments that are not options, in order (they are moved to the end).  Simplified: long options must be written in full. -/
def getoptLong : List (List Char) → List Opt × List (List Char)
  | [] => ([], [])
  | ['-', '-'] :: rest => ([], rest)
  | ('-' :: '-' :: text) :: rest =>
    let p := longArg text rest
    let q := getoptLong p.2
    (p.1 ++ q.1, q.2)
  | ('-' :: c :: cs) :: rest =>
    let p := shortCluster (c :: cs) rest
    let q := getoptLong p.2
    (p.1 ++ q.1, q.2)
  | a :: rest =>
    let q := getoptLong rest
    (q.1, a :: q.2)
termination_by l => l.length
decreasing_by
  · have := longArg_rest text rest; simp only [List.length_cons]; omega
  · have := shortCluster_rest (c :: cs) rest; simp only [List.length_cons]; omega
  · simp

/-- The value of leading decimal digits. -/
def decimal : Nat → List Char → Nat
  | n, [] => n
  | n, c :: cs => if c.isDigit then decimal (10 * n + (c.toNat - '0'.toNat)) cs else n

/-- `(int)` of a `long`. -/
def toInt32 (n : Int) : Int := if n % 2 ^ 32 < 2 ^ 31 then n % 2 ^ 32 else n % 2 ^ 32 - 2 ^ 32

/-- atoi(3): `(int)strtol(s, NULL, 10)`, on 64-bit systems. -/
def atoi (s : List Char) : Int :=
  let s := s.dropWhile (fun c => c == ' ' || ('\t' ≤ c && c ≤ '\r'))
  match s with
  | '-' :: ds => toInt32 (max (-2 ^ 63) (-(decimal 0 ds : Int)))
  | '+' :: ds => toInt32 (min (2 ^ 63 - 1) (decimal 0 ds))
  | ds => toInt32 (min (2 ^ 63 - 1) (decimal 0 ds))

/-- utils/mctp-demux-daemon.c:62-80: the fields of `struct ctx` that are set from the command line. -/
structure Settings where
  capBinding : Option (List Char) := none
  capSocket  : Option (List Char) := none
  verbose    : Bool := false
  localEid   : Int := 8
  deriving DecidableEq, Repr

/-- utils/mctp-demux-daemon.c:605-629: one option; `none` is "Invalid argument". -/
def takeOption (s : Settings) : Opt → Res (Option Settings)
  | ('b', a) => .ok (some { s with capBinding := a })
  | ('s', a) => .ok (some { s with capSocket := a })
  | ('B', _) => .ok (some s)
  | ('S', _) => .ok (some s)
  | ('v', _) => .ok (some { s with verbose := true })
  | ('e', some a) => .ok (some { s with localEid := atoi a })
  | ('e', none) => .error .nullDeref
  | _ => .ok none

/-- utils/mctp-demux-daemon.c:601-630: the loop over the options. -/
def takeOptions (s : Settings) : List Opt → Res (Option Settings)
  | [] => .ok (some s)
  | o :: os => do
    match ← takeOption s o with
    | none => .ok none
    | some s => takeOptions s os

/-- utils/mctp-demux-daemon.c:588-636: the settings, the name of the binding and its parameters; `none`: the daemon exits
with EXIT_FAILURE. -/
def parseArgs (argv : List (List Char)) : Res (Option (Settings × List Char × List (List Char))) := do
  let (os, args) := getoptLong argv
  match ← takeOptions {} os with
  | none => .ok none
  | some s =>
    match args with
    | [] => .ok none
    | name :: params => .ok (some (s, name, params))

/-! ## Bindings -/

/-- utils/mctp-demux-daemon.c:46-54 `struct binding`: `init` gets the EID and the number of parameters.  The result of `destroy` is the core
and what is left of the binding (for the model only). -/
structure BindingDef (β π : Type) where
  init    : Core β → Byte → Nat → Res (Core β × Int)
  destroy : Option (Core β → Res (Core β × List β))
  proc    : Option (π → Core β → Res (Core β × List Event × Int))

/-- utils/mctp-demux-daemon.c:157-167 `binding_null_init`. -/
def nullDef : BindingDef Unit Unit where
  init c _ n := .ok (c, if n ≠ 0 then -1 else 0)
  destroy := none
  proc := none

/-- utils/mctp-demux-daemon.c:169-207 `binding_serial_init`, `binding_serial_process`.  The result of `mctp_register_bus` is not
used. -/
def serialDef (wr : Nat → List Byte → Int) (patience : Nat) : BindingDef SerialSt (Option (List Byte)) where
  init c eid n :=
    if n ≠ 1 then .ok (c, -1)
    else do
      let (c, _) ← c.registerBus serialOps (serialInit wr patience) eid
      .ok (c, 0)
  destroy := none
  proc := some fun res c => c.serialRead 0 res

/-- utils/mctp-demux-daemon.c:209-253 `binding_astlpc_init`, `binding_astlpc_destroy`, `binding_astlpc_process`.  The result of
`mctp_register_bus` is not used. -/
def astDef {E : Type} (hw : Hw E) (env : E) : BindingDef (AstSt E) Unit where
  init c eid n :=
    if n ≠ 1 then .ok (c, -1)
    else do
      let (c, _) ← c.registerBus (astOps hw) (astInit env .bmc 0) eid
      .ok (c, 0)
  destroy := some fun c => do
    let sts := c.busses.map fun b => b.binding.st
    let c ← c.unregisterBus
    .ok (c, sts.map (astDestroy hw))
  proc := some fun _ c => c.astPoll hw 0

/-! ## Start-up and clean-up -/

/-- The results of the system calls of the start-up: `pcapInit`: capture_init; `openDead`, `dumpOpen`: pcap_open_dead and
pcap_dump_open, for the binding's and for the clients' capture file; `listenFds`: sd_listen_fds; socket, bind, listen and
sigprocmask. -/
structure Boot where
  pcapInit  : Bool
  openDead  : Bool → Bool
  dumpOpen  : Bool → Bool
  listenFds : Int
  socket    : Bool
  bind      : Bool
  listen    : Bool
  sigmask   : Bool

/-- What `main` does, apart from the loop.  `sock` tells the capture file of the clients' messages (`true`) from the
one of the binding's packets. -/
inductive LifeEv
  | pcapOpened (sock : Bool)
  | dumpOpened (sock : Bool)
  | dumpClosed (sock : Bool)
  | pcapClosed (sock : Bool)
  | bindingUp
  | bindingDown
  | sockOpened
  | sockClosed
  /-- the loop is entered -/
  | loop
  deriving DecidableEq, Repr

/-- What ends a call of poll(): it fails, a signal (`full`: siginfo could be read), or descriptors are ready. -/
inductive Wake (π : Type)
  | failed
  | signal (full : Bool)
  | ready (r : Ready π)

variable {W β π : Type}

/-- utils/mctp-demux-daemon.c:488-561: the loop.  The result is `rc` of `run_daemon` (-1 for every value other than 0), and `none` as
long as the loop goes on. -/
def Daemon.loop (net : Net W) (ops : Ops β) (proc : π → Core β → Res (Core β × List Event × Int)) (d : Daemon W β) :
    List (Wake π) → Res (Daemon W β × Option Int)
  | [] => .ok (d, none)
  | .failed :: _ => .ok (d, some (-1))
  | .signal full :: _ => .ok (d, some (if full then 0 else -1))
  | .ready r :: rest => do
    let d ← d.poll r
    let (d, stop) ← d.react net ops proc r
    if stop then .ok (d, some (-1)) else d.loop net ops proc rest

/-- The process: what it did, its core, the state of the loop (once entered), what is left of the binding once it is destroyed, and the exit
status (once the process has ended). -/
structure Life (W β : Type) where
  evs    : List LifeEv
  core   : Core β
  daemon : Option (Daemon W β)
  left   : List β := []
  status : Option Nat

/-- utils/mctp-capture.c:31-46 `capture_prepare`: what it did and its result. -/
def capturePrepare (boot : Boot) (sock : Bool) : List LifeEv × Bool :=
  if boot.openDead sock then
    if boot.dumpOpen sock then ([.pcapOpened sock, .dumpOpened sock], true)
    else ([.pcapOpened sock], false)
  else ([], false)

/-- utils/mctp-capture.c:48-53 `capture_close`. -/
def captureClose (sock : Bool) : List LifeEv := [.dumpClosed sock, .pcapClosed sock]

/-- utils/mctp-demux-daemon.c:289-322 `socket_init`: what it did and its result. -/
def socketInit (boot : Boot) : List LifeEv × Int :=
  if boot.socket then
    if boot.bind then
      if boot.listen then ([.sockOpened], 0) else ([.sockOpened, .sockClosed], -1)
    else ([.sockOpened, .sockClosed], -1)
  else ([], -1)

/-- utils/mctp-demux-daemon.c:705-709: from `cleanup_pcap_binding`. -/
def Life.cleanPcapBinding (l : Life W β) (s : Settings) (rc : Int) : Life W β :=
  { l with evs := l.evs ++ (if s.capBinding.isSome then captureClose false else []),
           status := some (if rc ≠ 0 then 1 else 0) }

/-- utils/mctp-demux-daemon.c:701-709: from `cleanup_pcap_socket`. -/
def Life.cleanPcapSocket (l : Life W β) (s : Settings) (rc : Int) : Life W β :=
  { l with evs := l.evs ++ (if s.capSocket.isSome then captureClose true else []) }.cleanPcapBinding s rc

/-- utils/mctp-demux-daemon.c:698-709: from `cleanup_binding`. -/
def Life.cleanBinding (l : Life W β) (bd : BindingDef β π) (s : Settings) (rc : Int) : Res (Life W β) :=
  match bd.destroy with
  | none => .ok (l.cleanPcapSocket s rc)
  | some f => do
    let (c, left) ← f l.core
    .ok ({ l with core := c, left := left, evs := l.evs ++ [LifeEv.bindingDown] }.cleanPcapSocket s rc)

/-- utils/mctp-demux-daemon.c:457-565 `run_daemon`, and the clean-up.  (`signalfd` is not checked.) -/
def Life.runDaemon (l : Life W β) (boot : Boot) (net : Net W) (ops : Ops β) (bd : BindingDef β π) (s : Settings) (w : W)
    (wakes : List (Wake π)) : Res (Life W β) :=
  if !boot.sigmask then l.cleanBinding bd s (-1)
  else do
    let d := Daemon.init w l.core s.localEid
    let (d, rc) ← d.loop net ops (bd.proc.getD fun _ c => .ok (c, [], 0)) wakes
    let l := { l with evs := l.evs ++ [.loop], core := d.core, daemon := some d }
    match rc with
    | none => .ok l
    | some rc => l.cleanBinding bd s rc

/-- utils/mctp-demux-daemon.c:685-709: the socket, and what follows. -/
def Life.socket (l : Life W β) (boot : Boot) (net : Net W) (ops : Ops β) (bd : BindingDef β π) (s : Settings) (w : W)
    (wakes : List (Wake π)) : Res (Life W β) :=
  if boot.listenFds ≤ 0 then
    let (e, rc) := socketInit boot
    let l := { l with evs := l.evs ++ e }
    if rc ≠ 0 then l.cleanBinding bd s rc else l.runDaemon boot net ops bd s w wakes
  else l.runDaemon boot net ops bd s w wakes

/-- utils/mctp-demux-daemon.c:428-443, 677-709: `binding_init` (`none`: no such binding), and what follows. -/
def Life.binding (l : Life W β) (boot : Boot) (net : Net W) (ops : Ops β) (bd : Option (BindingDef β π)) (s : Settings) (nParams : Nat)
    (w : W) (wakes : List (Wake π)) : Res (Life W β) :=
  match bd with
  | none => .ok (l.cleanPcapSocket s 1)
  | some bd => do
    let (c, rc) ← bd.init l.core (BitVec.ofInt 8 s.localEid) nParams
    if rc ≠ 0 then .ok ({ l with core := c }.cleanPcapSocket s 1)
    else Life.socket { l with core := c, evs := l.evs ++ [.bindingUp] } boot net ops bd s w wakes

/-- utils/mctp-demux-daemon.c:667-709: the capture file of the clients' messages, and what follows. -/
def Life.capSocket (l : Life W β) (boot : Boot) (net : Net W) (ops : Ops β) (bd : Option (BindingDef β π)) (s : Settings)
    (nParams : Nat) (w : W) (wakes : List (Wake π)) : Res (Life W β) :=
  if s.capSocket.isSome then
    let (e, ok) := capturePrepare boot true
    let l := { l with evs := l.evs ++ e }
    if ok then l.binding boot net ops bd s nParams w wakes else .ok (l.cleanPcapBinding s 1)
  else l.binding boot net ops bd s nParams w wakes

/-- utils/mctp-demux-daemon.c:654-709: the capture file of the binding's packets, and what follows. -/
def Life.capBinding (l : Life W β) (boot : Boot) (net : Net W) (ops : Ops β) (bd : Option (BindingDef β π)) (s : Settings)
    (nParams : Nat) (w : W) (wakes : List (Wake π)) : Res (Life W β) :=
  if s.capBinding.isSome then
    let (e, ok) := capturePrepare boot false
    let l := { l with evs := l.evs ++ e }
    if ok then Life.capSocket { l with core := l.core.setCapture true } boot net ops bd s nParams w wakes
    else .ok { l with status := some 1 }
  else l.capSocket boot net ops bd s nParams w wakes

/-- utils/mctp-demux-daemon.c:588-713 `main` from line 644, with the core made by `mctp_init`. -/
def daemonMain (boot : Boot) (net : Net W) (ops : Ops β) (bd : Option (BindingDef β π)) (s : Settings) (nParams : Nat) (core : Core β)
    (w : W) (wakes : List (Wake π)) : Res (Life W β) :=
  let l : Life W β := { evs := [], core := core, daemon := none, status := none }
  if (s.capBinding.isSome || s.capSocket.isSome) && !boot.pcapInit then .ok { l with status := some 1 }
  else l.capBinding boot net ops bd s nParams w wakes

end Mctp
