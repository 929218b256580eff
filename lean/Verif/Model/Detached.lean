import Verif.Model.Astlpc

/-!
# An astlpc binding that is not registered with a core

`mctp_register_bus` sets `binding->bus` to NULL when the binding's start fails (core.c:375-380); the binding itself
stays usable by `mctp_astlpc_poll`.  `mctp_demux_daemon` does exactly this: it ignores the result of
`mctp_register_bus` (mctp-demux-daemon.c:191, 229) and polls the binding.
-/

namespace Mctp

variable {E : Type}

/-- core.c:701-730 `mctp_binding_set_tx_enabled` with `binding->bus == NULL`: the state of the bus is read. -/
def looseSetTxEnabled : Res Unit := .error .nullDeref

/-- astlpc.c:949-997 `mctp_astlpc_init_channel` for a binding without a bus. -/
def looseInitChannel (hw : Hw E) (b : Binding (AstSt E)) : Res (Binding (AstSt E)) := do
  let (_, b) ← initChannel hw b
  looseSetTxEnabled
  .ok b

/-- astlpc.c:1118-1157 `mctp_astlpc_update_channel` for a binding without a bus. -/
def looseUpdateChannel (hw : Hw E) (b : Binding (AstSt E)) (status : Byte) : Res (Binding (AstSt E) × Int) :=
  let s := b.st
  if s.mode ≠ .host then .error .assertFail
  else
    let updated := s.kcsStatus ^^^ status
    if updated &&& kcsBmcReady ≠ 0 then
      if status &&& kcsBmcReady ≠ 0 then do
        let (rc, s) ← astStart hw { s with kcsStatus := status }
        .ok ({ b with st := s }, rc)
      else do
        looseSetTxEnabled
        .ok (b, 0)
    else do
      let version ← protoVersion s.proto
      if version = 0 ∨ updated &&& kcsChannelActive ≠ 0 then do
        let s := { s with rx := { s.rx with state := .idle }, tx := { s.tx with state := .idle } }
        let (_, b) ← finaliseChannel hw { b with st := s }
        looseSetTxEnabled
        .ok (b, 0)
      else .ok ({ b with st := { s with kcsStatus := status } }, 0)

/-- astlpc.c:1203-1237 for a binding without a bus.  A binding without a bus never owns a packet of the other side:
a transmit-begin in the state `released` ends in `mctp_bus_rx`, which asserts that there is a bus (core.c:549), or
drops the packet; this case is reported as the failed assertion. -/
def looseCommand (hw : Hw E) (b : Binding (AstSt E)) (status data : Byte) : Res (Binding (AstSt E) × Int × Bool) :=
  if data = cmdInitialise then do
    let b ← looseInitChannel hw b
    .ok (b, 0, false)
  else if data = cmdTxBegin then
    if b.st.rx.state ≠ .released then .ok (b, 0, true) else .error .assertFail
  else if data = cmdRxComplete then
    if b.st.tx.state ≠ .released then .ok (b, 0, true)
    else do
      looseSetTxEnabled
      .ok (b, 0, false)
  else if data = cmdDummy then
    if b.st.mode = .host then do
      let (b, rc) ← looseUpdateChannel hw b status
      .ok (b, rc, decide (rc < 0))
    else .ok (b, 0, false)
  else .ok (b, 0, false)

/-- astlpc.c:1164-1246 `mctp_astlpc_poll` for a binding without a bus. -/
def loosePoll (hw : Hw E) (b : Binding (AstSt E)) : Res (Binding (AstSt E) × Int) :=
  let s := astRetry hw b.st
  let (rc, status, s) := kcsRead hw s .status
  if rc ≠ 0 then .ok ({ b with st := s }, -1)
  else if !kcsReady s.mode status false then .ok ({ b with st := s }, 0)
  else
    let (rc, data, s) := kcsRead hw s .data
    let b := { b with st := s }
    if rc ≠ 0 then .ok (b, -1)
    else do
      let version ← protoVersion s.proto
      if version = 0 ∧ ¬ (data = cmdInitialise ∨ data = cmdDummy) then .ok (b, 0)
      else do
        let (b, rc, stop) ← looseCommand hw b status data
        if stop then .ok (b, rc)
        else if s.mode = .host ∧ ¬ (status &&& kcsBmcReady ≠ 0 ∧ data = cmdDummy) then looseUpdateChannel hw b status
        else .ok (b, rc)

/-- `n` polls. -/
def loosePolls (hw : Hw E) : Nat → Binding (AstSt E) → Res (Binding (AstSt E) × List Int)
  | 0, b => .ok (b, [])
  | n + 1, b => do
    let (b, rc) ← loosePoll hw b
    let (b, rcs) ← loosePolls hw n b
    .ok (b, rc :: rcs)

/-- core.c:352-384 `mctp_register_bus` as the owner of an astlpc binding sees it: the core, the binding and the return
value.  (When the call fails, the binding is no longer reachable from the core.  The binding is what its start,
core.c:372-373, makes of it; the memory for the bus is assumed to be there.) -/
def Core.tryRegister (hw : Hw E) (c : Core (AstSt E)) (b : Binding (AstSt E)) (eid : Byte) :
    Res (Core (AstSt E) × Binding (AstSt E) × Int) := do
  let (_, s) ← astStart hw b.st
  let (c', rc) ← c.registerBus (astOps hw) b eid
  .ok (c', { b with st := s }, rc)

/-- Up to `n` calls of `mctp_register_bus`, until one succeeds; with the return values. -/
def Core.registerRetry (hw : Hw E) (eid : Byte) :
    Nat → Core (AstSt E) → Binding (AstSt E) → Res (Core (AstSt E) × Binding (AstSt E) × List Int)
  | 0, c, b => .ok (c, b, [])
  | n + 1, c, b => do
    let (c, b, rc) ← c.tryRegister hw b eid
    if rc < 0 then do
      let (c, b, rcs) ← Core.registerRetry hw eid n c b
      .ok (c, b, rc :: rcs)
    else .ok (c, b, [rc])

end Mctp
