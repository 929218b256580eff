import Verif.Model.DaemonMain

/-!
# The daemon as a process: from its command line to its exit

`main` of `utils/mctp-demux-daemon.c` with the table of bindings.  The type of a core depends on the binding, so what is visible of a life
is put into an `Outcome`.
-/

namespace Mctp

/-- utils/mctp-demux-daemon.c:255-272: the entries of `bindings`. -/
inductive BindingName
  | null
  | serial
  | astlpc
  deriving DecidableEq, Repr

/-- utils/mctp-demux-daemon.c:255-272: their names. -/
def BindingName.text : BindingName → List Char
  | .null => "null".toList
  | .serial => "serial".toList
  | .astlpc => "astlpc".toList

/-- utils/mctp-demux-daemon.c:274-287 `binding_lookup`: the first entry with that name. -/
def bindingLookup (name : List Char) : Option BindingName :=
  [BindingName.null, .serial, .astlpc].find? (fun b => b.text == name)

/-- The devices: the write function of the serial device and its patience (see `serialInit`), the KCS and LPC devices with their state, and whether
`mctp_astlpc_init_fileio` succeeds (see `FileIo.lean`; opening the serial device never fails, serial.c:351-359). -/
structure Devices (E : Type) where
  wr       : Nat → List Byte → Int
  patience : Nat
  hw       : Hw E
  env      : E
  astOpens : Bool

/-- utils/mctp-demux-daemon.c:216-227: a binding whose device cannot be opened. -/
def BindingDef.unopened {β π : Type} (bd : BindingDef β π) : BindingDef β π := { bd with init := fun c _ _ => .ok (c, -1) }

/-- What is visible of a life: what `main` did, the exit status, the calls of the loop (once entered), the events of the core, the bytes written to
the serial line, and the accesses to the KCS and LPC devices. -/
structure Outcome where
  evs    : List LifeEv
  status : Option Nat
  log    : Option (List SockEv)
  core   : List Event
  wire   : List Byte := []
  kcs    : List Access := []

variable {W β π E : Type}

/-- What is visible of a life. -/
def Life.outcome (l : Life W β) (wire : Life W β → List Byte) (kcs : Life W β → List Access) : Outcome :=
  { evs := l.evs, status := l.status, log := l.daemon.map (·.log), core := (l.daemon.map (·.evs)).getD [], wire := wire l, kcs := kcs l }

/-- A wake-up of a daemon whose device gives nothing. -/
def Wake.mute : Wake π → Wake Unit
  | .failed => .failed
  | .signal f => .signal f
  | .ready r => .ready { r with binding := r.binding.map fun _ => () }

/-- A wake-up of a daemon that does not ask for events of its device (mctp-demux-daemon.c:465-468, no `init_pollfd`). -/
def Wake.deaf : Wake π → Wake Unit
  | .failed => .failed
  | .signal f => .signal f
  | .ready r => .ready { r with binding := none }

/-- No binding is registered with the core: there are no functions to call. -/
def noOps : Ops Unit where
  start := none
  tx _ _ := .error .nullDeref

/-- utils/mctp-demux-daemon.c:588-713 `main`, from the command line; the memory and the operating system are as given.  `none`: `mctp_init`
fails (the assertion of line 645). -/
def processMain (dev : Devices E) (boot : Boot) (net : Net W) (mem : Mem) (fill : Nat → Byte) (argv : List (List Char)) (w : W)
    (wakes : List (Wake (Option (List Byte)))) : Res Outcome := do
  match ← parseArgs argv with
  | none => .ok { evs := [], status := some 1, log := none, core := [] }
  | some (s, name, params) =>
    match bindingLookup name with
    | some .serial =>
      match Core.init SerialSt mem fill with
      | none => .error .assertFail
      | some core => do
        let l ← daemonMain boot net serialOps (some (serialDef dev.wr dev.patience)) s params.length core w wakes
        .ok (l.outcome (fun l => l.core.busses.flatMap fun b => b.binding.st.wire) (fun _ => []))
    | some .astlpc =>
      match Core.init (AstSt E) mem fill with
      | none => .error .assertFail
      | some core => do
        let bd := astDef dev.hw dev.env
        let l ← daemonMain boot net (astOps dev.hw) (some (if dev.astOpens then bd else bd.unopened)) s params.length core w (wakes.map .mute)
        .ok (l.outcome (fun _ => []) (fun l => (l.left ++ l.core.busses.map (·.binding.st)).flatMap fun st => st.log.map (·.acc)))
    | other =>
      match Core.init Unit mem fill with
      | none => .error .assertFail
      | some core => do
        let l ← daemonMain boot net noOps (other.map fun _ => nullDef) s params.length core w (wakes.map .deaf)
        .ok (l.outcome (fun _ => []) (fun _ => []))

end Mctp
