import Verif.Model.Core

/-!
# Specification: MCTP packets and messages (DSP0236)

Independent of the model's helpers: packet fields are read off the four header bytes by arithmetic, and
a well-formed fragmented message is described directly.
-/

namespace Mctp.Spec

/-- The contents of an MCTP packet: header bytes `version, destination, source, flags`, where
`flags = 128·SOM + 64·EOM + 16·seq + 8·TO + tag`, then at least one payload byte. -/
structure Frag where
  src : Byte
  dest : Byte
  tag : Nat
  seq : Nat
  tagOwner : Bool
  som : Bool
  eom : Bool
  payload : List Byte
  deriving DecidableEq, Repr

/-- Decode a packet; packets without payload are not packets of any message. -/
def parse (p : List Byte) : Option Frag :=
  match p with
  | _ :: dest :: src :: flags :: b :: rest =>
    some { src := src, dest := dest, tag := flags.toNat % 8,
           tagOwner := flags.toNat / 8 % 2 == 1, seq := flags.toNat / 16 % 4,
           eom := flags.toNat / 64 % 2 == 1, som := flags.toNat / 128 == 1,
           payload := b :: rest }
  | _ => none

/-- The stream a packet of a multi-packet message belongs to. -/
structure Key where
  src : Byte
  dest : Byte
  tag : Nat
  deriving DecidableEq, Repr

def Frag.key (f : Frag) : Key := { src := f.src, dest := f.dest, tag := f.tag }

/-- A packet that is a complete message by itself. -/
def Frag.single (f : Frag) : Bool := f.som && f.eom

/-- The fragment of a multi-packet message of stream `k` received by this event, if it is one. -/
def fragOf (k : Key) : Event → Option Frag
  | .recv _ p =>
    match parse p with
    | some f => if f.key = k ∧ f.single = false then some f else none
    | none => none
  | _ => none

/-- The fragments of multi-packet messages with key `k`, in the order they were received. -/
def stream (k : Key) (evs : List Event) : List Frag := evs.filterMap (fragOf k)

/-- Sequence numbers go up by one modulo 4, from the predecessor `s`. -/
def SeqChain : Nat → List Frag → Prop
  | _, [] => True
  | s, f :: fs => f.seq = (s + 1) % 4 ∧ SeqChain f.seq fs

/-- `start`, `mids`, `last` are the fragments of one message. -/
structure IsMessage (start : Frag) (mids : List Frag) (last : Frag) : Prop where
  start_flags : start.som = true ∧ start.eom = false
  mid_flags   : ∀ m ∈ mids, m.som = false ∧ m.eom = false
  last_flags  : last.som = false ∧ last.eom = true
  mid_len     : ∀ m ∈ mids, m.payload.length = start.payload.length
  last_len    : last.payload.length ≤ start.payload.length
  seqs        : SeqChain start.seq (mids ++ [last])

/-- The message content of a list of fragments. -/
def content (fs : List Frag) : List Byte := fs.flatMap (·.payload)

/-- An endpoint address accepts its own EID, the null EID 0 and the broadcast EID 255. -/
def Local (eid dest : Byte) : Prop := dest = eid ∨ dest.toNat = 0 ∨ dest.toNat = 255

instance (eid dest : Byte) : Decidable (Local eid dest) := by unfold Local; infer_instance

/-- The message (source, content) a callback invocation hands to the user, if it is a delivery. -/
def delivered : Event → Option (Byte × List Byte)
  | .rxMsg src _ _ msg => some (src, msg)
  | .ctrlRx _ src _ _ msg => some (src, msg)
  | _ => none

/-- All deliveries in an event list. -/
def deliveries (evs : List Event) : List (Byte × List Byte) := evs.filterMap delivered

end Mctp.Spec
