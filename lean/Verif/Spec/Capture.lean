import Verif.Model.Api

/-!
# Specification: what a capture handler must see

`withCapture` turns the events of a call into what they must be while a capture handler is set: the
packets received with a payload (more than the 4 header bytes) are captured as incoming right after
they arrive (so before any delivery), the packets offered to a binding are captured as outgoing right
before the offer, and nothing else is captured.
-/

namespace Mctp.Spec

/-- Is this an invocation of the capture handler? -/
def isCapture : Event → Bool
  | .capture _ _ => true
  | _ => false

/-- The events other than capture invocations. -/
def uncaptured (evs : List Event) : List Event := evs.filter fun e => !isCapture e

/-- The events with the required capture invocations inserted. -/
def withCapture (evs : List Event) : List Event :=
  evs.flatMap fun e =>
    match e with
    | .recv _ p => if 4 < p.length then [e, .capture false p] else [e]
    | .tx _ p _ _ => [.capture true p, e]
    | _ => [e]

/-- Whether a capture handler is set after these calls. -/
def captureSet {β : Type} (init : Bool) : List (Op β) → Bool
  | [] => init
  | .setCapture on :: rest => captureSet on rest
  | _ :: rest => captureSet init rest

/-- The packets received in an event list, with their bus. -/
def received (evs : List Event) : List (Nat × List Byte) :=
  evs.filterMap fun e => match e with
    | .recv i p => some (i, p)
    | _ => none

end Mctp.Spec
