import Verif.Spec.Packet

/-!
# Specification: the ideal reassembler

What an endpoint should do with the packets it receives, as a machine whose state says, for each
stream, how much of a message has been collected.  It knows nothing of the library's fixed table of
contexts, of buffers, or of their allocation.
-/

namespace Mctp.Spec

/-- An incomplete message. -/
structure Partial where
  data    : List Byte
  lastSeq : Nat
  fragLen : Nat
  deriving DecidableEq, Repr

/-- For each stream with a non-null source, the incomplete message, if any. -/
abbrev State := Key → Option Partial

def State.empty : State := fun _ => none

/-- Sixteen messages are in assembly. -/
def Full (σ : State) : Prop :=
  ∃ ks : List Key, ks.Nodup ∧ ks.length = 16 ∧ ∀ k ∈ ks, σ k ≠ none

/-- The total length a message would have with this fragment added. -/
def total (p : Option Partial) (f : Frag) : Nat :=
  if f.som then f.payload.length else ((p.map (·.data.length)).getD 0) + f.payload.length

/-- What one fragment does to its own stream: the new partial message and the completed message.
`room`: a new stream can be opened; `fits`: the size limit admits the message. -/
def own (room fits : Bool) (f : Frag) (p : Option Partial) : Option Partial × Option (List Byte) :=
  if f.som then
    if p = none ∧ room = false then (none, none)
    else if fits then (some ⟨f.payload, f.seq, f.payload.length⟩, none) else (none, none)
  else
    match p with
    | none => (none, none)
    | some q =>
      if f.seq = (q.lastSeq + 1) % 4 ∧ fits = true ∧
         (if f.eom then f.payload.length ≤ q.fragLen else f.payload.length = q.fragLen) then
        if f.eom then (none, some (q.data ++ f.payload))
        else (some ⟨q.data ++ f.payload, f.seq, q.fragLen⟩, none)
      else (none, none)

/-- One fragment of a multi-packet message with non-null source; all other streams are untouched.
`lim n b`: the size limit may answer `b` for a message of (so far) `n` bytes. -/
def FragStep (lim : Nat → Bool → Prop) (σ : State) (f : Frag) (σ' : State)
    (out : Option (List Byte)) : Prop :=
  ∃ room fits : Bool, (room = true ↔ ¬ Full σ) ∧ lim (total (σ f.key) f) fits ∧
    (σ' f.key, out) = own room fits f (σ f.key) ∧ ∀ k, k ≠ f.key → σ' k = σ k

/-- One received packet at an endpoint with address `eid`; `out` is the message delivered.
(For fragments with a null source nothing is said about `out`, see property C04.) -/
def PktStep (lim : Nat → Bool → Prop) (eid : Byte) (σ : State) (p : List Byte) (σ' : State)
    (out : List (Byte × List Byte)) : Prop :=
  match parse p with
  | none => σ' = σ ∧ out = []
  | some f =>
    if ¬ Local eid f.dest then σ' = σ ∧ out = []
    else if f.single then σ' = σ ∧ out = [(f.src, f.payload)]
    else if f.src = 0 then σ' = σ
    else ∃ m, FragStep lim σ f σ' m ∧ out = (m.map fun b => (f.src, b)).toList

/-- A sequence of received packets, each with the messages delivered because of it. -/
def Reasm (lim : Nat → Bool → Prop) (eid : Byte) :
    State → List (List Byte × List (Byte × List Byte)) → State → Prop
  | σ, [], σ' => σ' = σ
  | σ, (p, out) :: rest, σ' => ∃ σ1, PktStep lim eid σ p σ1 out ∧ Reasm lim eid σ1 rest σ'

/-- Size limit: a message longer than `mx` is refused; if `mx` is at least 4096, a message of at most
`mx / 2` bytes is accepted. -/
def loose (mx : Nat) (n : Nat) (b : Bool) : Prop :=
  (b = true → n ≤ mx) ∧ (4096 ≤ mx → 2 * n ≤ mx → b = true)

/-- Size limit: exactly the messages of at most `mx` bytes are accepted. -/
def exact (mx : Nat) (n : Nat) (b : Bool) : Prop := b = true ↔ n ≤ mx

end Mctp.Spec
