import Verif.Spec.Link
import Verif.Proofs.AstPure

/-!
# A detailed monitor for one side of the link

It extends `Watch` with the handshake, the position in the receive buffer, and the packets written and
read.  `Rely` is what a side may assume of the hardware's answers, `Accepts` says that the side's accesses
are allowed as long as the assumption holds.
-/

namespace Mctp

open Spec

/-- How much of the packet in the receive buffer has been read. -/
inductive RxPos
  | away
  | begun
  | len (bs : List Byte)
  | done
  deriving DecidableEq, Repr

/-- What a side is configured with: its buffers, and its scripted accesses; `lossy`: its allocations may fail. -/
structure LinkCfg where
  mode  : AstMode
  txo   : Nat
  rxo   : Nat
  sz    : Nat
  start : List Access
  init  : List Access
  lossy : Bool

/-- State of the monitor. -/
structure Fine where
  w       : Watch
  /-- scripted accesses that must come next -/
  todo    : List Access
  started : Bool
  opened  : Bool
  /-- the host has opened the channel, but has not seen that it is active -/
  stale   : Bool
  /-- the host must read the negotiated version next (after handing back a packet) -/
  fin     : Bool
  /-- the last status read -/
  stat    : Byte
  rxp     : RxPos
  /-- the length last written -/
  lenB    : List Byte
  sent    : List (List Byte × List Byte)
  got     : List (List Byte × List Byte)

def Fine.zero (g : LinkCfg) : Fine :=
  { w := Watch.zero, todo := if g.mode = .bmc then g.start else [], started := decide (g.mode = .bmc), opened := false,
    stale := false, fin := false, stat := 0, rxp := .away, lenB := [], sent := [], got := [] }

/-- An access outside the scripts; `w` is the next state of the coarse monitor. -/
def Fine.free (g : LinkCfg) (f : Fine) (w : Watch) : Access → Option Fine
  | .kcsRead .status _ v =>
    if f.started then
      if f.fin = true ∧ f.rxp = .away then none else some { f with w := w, stat := v }
    else some { f with w := w, stat := v, started := v.getLsbD 7, todo := if v.getLsbD 7 then g.start else [] }
  | .kcsRead .data _ v =>
    if f.started = true ∧ f.fin = false then
      if f.opened then some { f with w := w, rxp := if v = 1 then .begun else f.rxp, fin := f.stale }
      else match g.mode with
        | .bmc => if v = 0 then some { f with w := w, opened := true, todo := g.init } else none
        | .host => some { f with w := w, fin := true }
    else none
  | .kcsWrite .data v _ =>
    if v = 1 then if f.opened = true ∧ f.stale = false then some { f with w := w } else none
    else if v = 2 then if f.opened = true ∧ f.rxp = .done then some { f with w := w, rxp := .away } else none
    else none
  | .kcsWrite .status _ _ => none
  | .lpcRead off bs _ =>
    if off = 12 then
      if f.fin = true ∧ f.rxp = .away ∧ bs.length = 2 then
        if bs = be16 3 then
          some { f with w := w, fin := false, opened := true, stale := !f.stat.getLsbD 6, todo := g.init }
        else some { f with w := w, fin := false }
      else none
    else match f.rxp with
      | .begun => if off = g.rxo ∧ bs.length = 4 then some { f with w := w, rxp := .len bs } else none
      | .len n =>
        if off = g.rxo + 4 ∧ bs.length = fromBe n + 4 then
          some { f with w := w, rxp := .done, got := f.got ++ [(n, bs)] }
        else none
      | _ => none
  | .lpcWrite off bs _ =>
    if f.opened = true ∧ f.stale = false then
      if off = g.txo ∧ bs.length = 4 ∧ f.w.tx = .free then some { f with w := w, lenB := bs }
      else if off = g.txo + 4 ∧ f.w.tx = .half ∧ bs.length = fromBe f.lenB + 4 ∧ bs.length + 4 ≤ g.sz then
        some { f with w := w, sent := f.sent ++ [(f.lenB, bs)] }
      else none
    else none

/-- One access. -/
def Fine.step (g : LinkCfg) (f : Fine) (a : Access) : Option Fine :=
  match f.w.step g.mode a with
  | none => none
  | some w =>
    match f.todo with
    | e :: rest => if a = e then some { f with w := w, todo := rest } else none
    | [] => f.free g w a

/-- What a side may assume about the answer to its access. -/
def Rely (g : LinkCfg) (f : Fine) : Access → Prop
  | .kcsRead .status rc v => rc = 0 ∧ (g.mode = .host → f.started = true → f.fin = false ∨ f.rxp ≠ .away →
      v.getLsbD 7 = true ∧ (f.opened = true →
        if f.stale then v.getLsbD 1 = false ∧ (v.getLsbD 0 = true ∨ f.fin = true → v.getLsbD 6 = true) else v.getLsbD 6 = true))
  | .kcsRead .data rc v => rc = 0 ∧ (f.todo = [] → f.started = true → f.fin = false → f.w.sawInput g.mode = true →
      if f.opened then (v = 1 ∧ f.rxp = .away) ∨ (v = 2 ∧ f.w.tx = .handed) ∨ (g.mode = .host ∧ v = 255)
      else match g.mode with
        | .bmc => v = 0
        | .host => v = 255)
  | .kcsWrite _ _ rc => rc = 0
  | .lpcWrite _ _ rc => rc = 0
  | .lpcRead off bs rc => rc = 0 ∧
      (∀ e rest, f.todo = e :: rest → ∀ bs' rc', e = .lpcRead off bs' rc' → bs'.length = bs.length → bs = bs') ∧
      (f.todo = [] →
        (off = 12 → bs.length = 2 → f.fin = true → bs = be16 3 ∨ (f.opened = false ∧ bs = be16 0)) ∧
        (f.rxp = .begun → off = g.rxo → bs.length = 4 → fromBe bs + 8 ≤ g.sz))

/-- The accesses are allowed as long as the assumption holds, and then end in a state with `P`. -/
def Accepts (g : LinkCfg) : Fine → List Access → (Fine → Prop) → Prop
  | f, [], P => P f
  | f, a :: l, P => Rely g f a → ∃ f', f.step g a = some f' ∧ Accepts g f' l P

theorem Accepts.mono {g : LinkCfg} {P Q : Fine → Prop} (h : ∀ f, P f → Q f) :
    ∀ {l : List Access} {f : Fine}, Accepts g f l P → Accepts g f l Q
  | [], _, hp => h _ hp
  | _ :: _, _, hp => fun hr => by
    obtain ⟨f', h1, h2⟩ := hp hr
    exact ⟨f', h1, Accepts.mono h h2⟩

theorem Accepts.append {g : LinkCfg} {P : Fine → Prop} : ∀ {l l' : List Access} {f : Fine},
    Accepts g f l (fun f' => Accepts g f' l' P) → Accepts g f (l ++ l') P
  | [], _, _, h => h
  | _ :: _, _, _, h => fun hr => by
    obtain ⟨f', h1, h2⟩ := h hr
    exact ⟨f', h1, Accepts.append h2⟩

theorem Accepts.bind {g : LinkCfg} {P Q : Fine → Prop} {l l' : List Access} {f : Fine} (h : Accepts g f l P)
    (hq : ∀ f', P f' → Accepts g f' l' Q) : Accepts g f (l ++ l') Q :=
  (h.mono hq).append

/-- The detailed monitor follows the coarse one. -/
theorem Fine.step_watch {g : LinkCfg} {f f' : Fine} {a : Access} (h : f.step g a = some f') :
    f.w.step g.mode a = some f'.w := by
  unfold Fine.step at h
  split at h
  · cases h
  · rename_i w hw
    rw [hw]
    split at h
    · split at h
      · cases h; rfl
      · cases h
    · unfold Fine.free at h
      split at h <;> (repeat' split at h) <;> (first | (cases h; done) | (cases h; rfl))

end Mctp
