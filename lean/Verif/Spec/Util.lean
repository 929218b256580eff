import Verif.Model.Util

/-!
# Specification: allocator hooks, logging and capture files
-/

namespace Mctp.Spec

/-! ## The allocator -/

/-- Hooks that are `malloc`, `free` and `realloc` of the ledger `Mem`, or not set; `realloc` is set.  As for the
C functions, `realloc(NULL, n)` allocates and `realloc(p, 0)` releases. -/
structure LikeMalloc (o : Hooks Mem) : Prop where
  alloc   : ∀ f, o.alloc = some f → ∀ m n, f m n = .ok m.alloc
  free    : ∀ f, o.free = some f → ∀ m p, f m p = m.free p
  realloc : ∃ f, o.realloc = some f ∧ (∀ m p n, 0 < n → f m p n = m.realloc p) ∧
    (∀ m p, f m p 0 = (m.free p).map fun m => (none, m))

/-- What a sequence of requests does with `malloc`, `free` and `realloc`. -/
def mallocRun (m : Mem) : List (AllocOp Mem) → Res (List (Option (Option Nat)) × Mem)
  | [] => .ok ([], m)
  | .set _ :: rest => do
    let (rs, m) ← mallocRun m rest
    .ok (none :: rs, m)
  | .alloc _ :: rest => do
    let (rs, m') ← mallocRun m.alloc.2 rest
    .ok (some m.alloc.1 :: rs, m')
  | .free p :: rest => do
    let m ← m.free p
    let (rs, m) ← mallocRun m rest
    .ok (none :: rs, m)
  | .realloc p _ :: rest => do
    let (q, m) ← m.realloc p
    let (rs, m) ← mallocRun m rest
    .ok (some q :: rs, m)

/-- A call of a hook. -/
inductive HookCall
  | alloc (size : Nat)
  | free (p : Option Nat)
  | realloc (p : Option Nat) (size : Nat)
  deriving DecidableEq, Repr

/-- Hooks that record their calls and return the answers of `f`; the Booleans say which ones are set. -/
def recorder (a f r : Bool) (ans : HookCall → Option Nat) : Hooks (List HookCall) where
  alloc := if a then some fun h n => .ok (ans (.alloc n), h ++ [.alloc n]) else none
  free := if f then some fun h p => .ok (h ++ [.free p]) else none
  realloc := if r then some fun h p n => .ok (ans (.realloc p n), h ++ [.realloc p n]) else none

/-! ## Logging -/

/-- A call that configures the destination. -/
def isLogConfig : LogOp → Bool
  | .log _ _ => false
  | _ => true

/-- The configuration in force after these calls: the last configuring call. -/
def lastLogConfig (ops : List LogOp) : Option LogOp := (ops.filter isLogConfig).getLast?

/-- What a message of this level must do under a configuration. -/
def logExpected (b : LogBuild) (cfg : Option LogOp) (level : Int) (text : List Byte) : List LogOut :=
  match cfg with
  | some (.setStdio l) => if b.stdio = true ∧ level ≤ l then [.printed text] else []
  | some .setSyslog => if b.syslog then [.syslog level text] else []
  | some (.setCustom (some f)) => [.handler f level text]
  | _ => []

/-! ## Capture records -/

/-- The "Linux cooked v2" header: protocol 0x00fa (MCTP), packet type 4 (outgoing) or 0 (to us), everything else zero. -/
def sll2Header (outgoing : Bool) : List Byte :=
  [0x00, 0xfa, 0, 0, 0, 0, 0, 0, 0, 0, if outgoing then 4 else 0, 0, 0, 0, 0, 0, 0, 0, 0, 0]

/-- The record of a packet. -/
def packetRecord (outgoing : Bool) (pkt : List Byte) : List Byte := sll2Header outgoing ++ pkt

/-- The record of a client's message: version 1, destination and source, and a single packet (start and end flags). -/
def messageRecord (outgoing : Bool) (eid : Byte) (payload : List Byte) : List Byte :=
  sll2Header outgoing ++ [1, if outgoing then eid else 0, if outgoing then 0 else eid, 0xc0] ++ payload

/-- The packets captured in a list of events. -/
def capturedPackets (evs : List Event) : List (Bool × List Byte) :=
  evs.filterMap fun e => match e with
    | .capture o p => some (o, p)
    | _ => none

/-- The packets sent, of a capture. -/
def outgoingOf (P : List (Bool × List Byte)) : List (List Byte) := (P.filter (·.1)).map (·.2)

/-- The packets received, of a capture. -/
def incomingOf (P : List (Bool × List Byte)) : List (List Byte) := (P.filter (fun p => !p.1)).map (·.2)

end Mctp.Spec
