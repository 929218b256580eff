import Verif.Model.Reentrant

/-!
# The ideal: calls are made after the callback has returned

The same application, but what it does in a callback is only noted and done when the call that received the packet has
returned.
-/

namespace Mctp

variable {β S : Type}

/-- A call of one of the receive callbacks. -/
def Event.isCallback : Event → Bool
  | .rxMsg .. | .ctrlRx .. => true
  | _ => false

/-- What the application does about some events, one after the other. -/
def Core.react (ops : Ops β) (app : App β S) : Core β → S → List Event → Res (Core β × S × List Event)
  | c, s, [] => .ok (c, s, [])
  | c, s, ev :: rest => do
    let (c1, s1, e1) ← c.calls ops (app s ev)
    let (c2, s2, e2) ← Core.react ops app c1 s1 rest
    .ok (c2, s2, e1 ++ e2)

/-- One API call, and then what the application does about the callbacks it saw. -/
def Core.stepAfter (ops : Ops β) (app : App β S) (c : Core β) (s : S) (op : Op β) : Res (Core β × S × List Event × Int) := do
  let (c1, e1, rc) ← c.step ops op
  let (c2, s2, e2) ← Core.react ops app c1 s (e1.filter Event.isCallback)
  .ok (c2, s2, e1 ++ e2, rc)

def Core.runAfter (ops : Ops β) (app : App β S) (c : Core β) (s : S) : List (Op β) → Res (Core β × S × List (Rec β))
  | [] => .ok (c, s, [])
  | op :: rest => do
    let (c1, s1, evs, rc) ← c.stepAfter ops app s op
    let (c2, s2, log) ← c1.runAfter ops app s1 rest
    .ok (c2, s2, { op := op, evs := evs, rc := rc } :: log)

/-- `log` is the log of the calls of a script, made one after the other, and `s'` the state of the application after them. -/
def Script.Log : Script β S → List (Rec β) → S → Prop
  | .done s, log, s' => log = [] ∧ s' = s
  | .call op k, log, s' => ∃ e rc rest, log = ⟨op, e, rc⟩ :: rest ∧ (k rc).Log rest s'

/-- `log` is the log of what the application, in state `s`, does about these calls of its callbacks. -/
def Reacts (app : App β S) : S → List Event → List (Rec β) → S → Prop
  | s, [], log, s' => log = [] ∧ s' = s
  | s, ev :: rest, log, s' => ∃ l1 l2 s1, log = l1 ++ l2 ∧ (app s ev).Log l1 s1 ∧ Reacts app s1 rest l2 s'

/-- `flat` is the log of a history of calls none of which is made in a callback: the calls `hist`, each followed by the calls
the application makes about the callbacks it has seen during that call. -/
def Flat (app : App β S) : S → List (Op β) → List (Rec β) → S → Prop
  | s, [], flat, s' => flat = [] ∧ s' = s
  | s, op :: hist, flat, s' => ∃ e rc l1 l2 s1, flat = ⟨op, e, rc⟩ :: (l1 ++ l2) ∧
      Reacts app s (e.filter Event.isCallback) l1 s1 ∧ Flat app s1 hist l2 s'

/-- Only calls an application makes: `mctp_message_tx` and the `mctp_set_*` functions. -/
def Script.AppOnly : Script β S → Prop
  | .done _ => True
  | .call op k => (match op with | .send .. | .setMax _ | .setCapture _ | .setRx _ => True | _ => False) ∧ ∀ rc, (k rc).AppOnly

end Mctp
