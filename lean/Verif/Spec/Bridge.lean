import Verif.Spec.Transmit
import Verif.Spec.Reassembler

/-!
# Specification: the ideal bridge

Two busses with a transmitter each, and one reassembler fed by the packets of both busses.  A message
completed by a packet of one bus is handed to the transmitter of the other bus, with the source,
destination, tag owner, tag and content it came with; nothing is sent on the bus it came from and no
user callback is invoked.
-/

namespace Mctp.Spec

structure BridgeState where
  asm : State
  tx  : Nat → TxState

/-- Give a message to a transmitter; `os` are the offers it makes.  A bus that was never enabled drops
the message. -/
def transmit (ver src dest : Byte) (own : Bool) (tag : Byte) (s : TxState) (msg : List Byte)
    (os : List Offer) : Option TxState :=
  if s.gate = .never then (if os = [] then some s else none)
  else flush { s with queue := s.queue ++ fragments ver src dest own tag (s.size - 4) msg } os

/-- Enable or disable a transmitter. -/
def switch (s : TxState) (on : Bool) (os : List Offer) : Option TxState :=
  match s.gate, on with
  | .never, true =>
    if os = [] then some (if 68 ≤ s.size then { s with gate := .opened } else s) else none
  | .opened, false => if os = [] then some { s with gate := .closed } else none
  | .closed, true => flush { s with gate := .opened } os
  | _, _ => if os = [] then some s else none

/-- A packet received on bus `i`; `os j` are the offers made to bus `j`. (For fragments with a null
source nothing is said about which message they complete, see C04.) -/
def BridgePkt (lim : Nat → Bool → Prop) (ver : Nat → Byte) (s : BridgeState) (i : Nat) (p : List Byte)
    (os : Nat → List Offer) (s' : BridgeState) (out : Option (Frag × List Byte)) : Prop :=
  match parse p with
  | none => s' = s ∧ out = none ∧ ∀ j, os j = []
  | some f =>
    (if f.single then s'.asm = s.asm ∧ out = some (f, f.payload)
     else if f.src = 0 then s'.asm = s.asm ∧ (∀ o, out = some o → o.1 = f)
     else ∃ m, FragStep lim s.asm f s'.asm m ∧ out = m.map (Prod.mk f)) ∧
    s'.tx i = s.tx i ∧ os i = [] ∧
    match out with
    | none => s'.tx (1 - i) = s.tx (1 - i) ∧ os (1 - i) = []
    | some (_, msg) =>
      transmit (ver (1 - i)) f.src f.dest f.tagOwner (BitVec.ofNat 8 f.tag) (s.tx (1 - i)) msg (os (1 - i))
        = some (s'.tx (1 - i))

/-- One API call on a bridge with binding versions `ver`; `out` is the message completed. -/
def BridgeStep {β : Type} (lim : Nat → Bool → Prop) (ver : Nat → Byte) (s : BridgeState) (r : Rec β)
    (s' : BridgeState) (out : Option (Frag × List Byte)) : Prop :=
  deliveries r.evs = [] ∧
  match r.op with
  | .recv i p => i < 2 ∧ BridgePkt lim ver s i p (fun j => offers j r.evs) s' out
  | .enable i on => out = none ∧ s'.asm = s.asm ∧ switch (s.tx i) on (offers i r.evs) = some (s'.tx i) ∧
      ∀ j, j ≠ i → s'.tx j = s.tx j ∧ offers j r.evs = []
  | .send d own tag msg => out = none ∧ s'.asm = s.asm ∧
      (∀ j, j ≠ 0 → s'.tx j = s.tx j ∧ offers j r.evs = []) ∧
      (if 7 < tag.toNat then r.rc = -22 ∧ s'.tx 0 = s.tx 0 ∧ offers 0 r.evs = []
       else transmit (ver 0) 0 d own tag (s.tx 0) msg (offers 0 r.evs) = some (s'.tx 0))
  | .rebind i _ ps _ _ _ => out = none ∧ s'.asm = s.asm ∧ s'.tx i = { s.tx i with size := ps } ∧
      (∀ j, j ≠ i → s'.tx j = s.tx j) ∧ ∀ j, offers j r.evs = []
  | _ => out = none ∧ s' = s ∧ ∀ j, offers j r.evs = []

/-- A whole log; `outs` are the messages completed, call by call. -/
def BridgeRun {β : Type} (lim : Nat → Bool → Prop) (ver : Nat → Byte) :
    BridgeState → List (Rec β × Option (Frag × List Byte)) → BridgeState → Prop
  | s, [], s' => s' = s
  | s, (r, out) :: rest, s' => ∃ s1, BridgeStep lim ver s r s1 out ∧ BridgeRun lim ver s1 rest s'

end Mctp.Spec
