import Verif.Model.Serial

/-!
# The ASPEED LPC binding (astlpc.c)

One definition per C function.  The KCS registers and the LPC window are reached only through the
accessors given to `mctp_astlpc_init` (or, for the window, through the direct mapping, which never
fails); they are the environment `Hw E`, any state machine.  Every accessor call is recorded in the
ghost field `log`, together with the buffers of the binding at the time of the call.

Not modelled here: debug output, `mctp_astlpc_init_fileio` and its helpers with the allocation of the structure
(`Model/FileIo.lean`).
`uint32_t` values are natural numbers below 2^32, reduced after every operation that can wrap.
-/

namespace Mctp

/-- libmctp-astlpc.h: the two KCS registers. -/
inductive KcsReg
  | data
  | status
  deriving DecidableEq, Repr

/-- The environment: the accessor functions `kcs_read`, `kcs_write`, `lpc_read`, `lpc_write`
(libmctp-astlpc.h, `struct mctp_binding_astlpc_ops`).  Reads also return the contents of the caller's
buffer afterwards (which are arbitrary if the accessor failed). -/
structure Hw (E : Type) where
  kcsRead  : E → KcsReg → Int × Byte × E
  kcsWrite : E → KcsReg → Byte → Int × E
  lpcRead  : E → Nat → Nat → Int × List Byte × E
  lpcWrite : E → Nat → List Byte → Int × E

/-- An accessor call, with its result. -/
inductive Access
  | kcsRead (reg : KcsReg) (rc : Int) (val : Byte)
  | kcsWrite (reg : KcsReg) (val : Byte) (rc : Int)
  | lpcRead (off : Nat) (bytes : List Byte) (rc : Int)
  | lpcWrite (off : Nat) (bytes : List Byte) (rc : Int)
  deriving DecidableEq, Repr

/-- astlpc.c:50-100 `enum mctp_astlpc_buffer_state`. -/
inductive BufState
  | idle
  | acquired
  | prepared
  | released
  deriving DecidableEq, Repr

/-- astlpc.c:102-106 `struct mctp_astlpc_buffer`. -/
structure AstBuf where
  offset : Nat
  size   : Nat
  state  : BufState
  deriving DecidableEq, Repr

/-- libmctp-astlpc.h: `MCTP_BINDING_ASTLPC_MODE_BMC`, `MCTP_BINDING_ASTLPC_MODE_HOST`. -/
inductive AstMode
  | bmc
  | host
  deriving DecidableEq, Repr

/-- Ghost record of an accessor call: the binding's receive and transmit buffer when it was made. -/
structure Logged where
  rx  : AstBuf
  tx  : AstBuf
  acc : Access
  deriving DecidableEq, Repr

/-- astlpc.c:121-139 `struct mctp_binding_astlpc` without the embedded `binding` (which is
`Binding.{version..}`).  `proto` is the index into `astlpc_protocol_version` (astlpc.c:236-265), `none`
for NULL.  `mtu` is `requested_mtu`.  `env` is the state of the environment, `log` the accessor calls so
far (a ghost). -/
structure AstSt (E : Type) where
  env       : E
  log       : List Logged
  mode      : AstMode
  mtu       : Nat
  proto     : Option Nat
  rx        : AstBuf
  tx        : AstBuf
  kcsStatus : Byte

/-- astlpc.c:44 `cmd_initialise`. -/
def cmdInitialise : Byte := 0x00
/-- astlpc.c:45 `cmd_tx_begin`. -/
def cmdTxBegin : Byte := 0x01
/-- astlpc.c:46 `cmd_rx_complete`. -/
def cmdRxComplete : Byte := 0x02
/-- astlpc.c:47 `cmd_dummy_value`. -/
def cmdDummy : Byte := 0xff

/-- astlpc.c:163 `ASTLPC_MCTP_MAGIC`. -/
def astMagic : Nat := 0x4d435450
/-- astlpc.c:165 `ASTLPC_VER_MIN`. -/
def astVerMin : Nat := 1
/-- astlpc.c:169 `ASTLPC_VER_CUR`. -/
def astVerCur : Nat := 3
/-- astlpc.c:285 `control_size`. -/
def controlSize : Nat := 0x100
/-- astlpc.c:287 `LPC_WIN_SIZE`. -/
def lpcWinSize : Nat := 1024 * 1024
/-- astlpc.c:289 `KCS_STATUS_BMC_READY`. -/
def kcsBmcReady : Byte := 0x80
/-- astlpc.c:290 `KCS_STATUS_CHANNEL_ACTIVE`. -/
def kcsChannelActive : Byte := 0x40
/-- astlpc.c:291 `KCS_STATUS_IBF`. -/
def kcsIbf : Byte := 0x02
/-- astlpc.c:292 `KCS_STATUS_OBF`. -/
def kcsObf : Byte := 0x01

/-- Conversion to `uint32_t`. -/
def u32 (n : Nat) : Nat := n % 2 ^ 32

/-- `uint32_t` subtraction. -/
def usub32 (a b : Nat) : Nat := (a + 2 ^ 32 - b) % 2 ^ 32

/-- `htobe32`/`htobe16` of a value, as the bytes in memory. -/
def be32 (n : Nat) : List Byte :=
  [BitVec.ofNat 8 (n / 2 ^ 24), BitVec.ofNat 8 (n / 2 ^ 16), BitVec.ofNat 8 (n / 2 ^ 8), BitVec.ofNat 8 n]
def be16 (n : Nat) : List Byte := [BitVec.ofNat 8 (n / 2 ^ 8), BitVec.ofNat 8 n]

/-- The number with these big-endian bytes. -/
def fromBe (bs : List Byte) : Nat := bs.foldl (fun n b => n * 256 + b.toNat) 0

/-- `be32toh`/`be16toh` of the field at offset `off` of a structure read from the window. -/
def field32 (bs : List Byte) (off : Nat) : Nat := fromBe ((bs.drop off).take 4)
def field16 (bs : List Byte) (off : Nat) : Nat := fromBe ((bs.drop off).take 2)

/-- astlpc.c:270: offset of `bmc_ver_min` in `struct mctp_lpcmap_hdr` (astlpc.c:267-283, packed). -/
def offBmcMin : Nat := 4
/-- astlpc.c:271: offset of `bmc_ver_cur`. -/
def offBmcCur : Nat := 6
/-- astlpc.c:272: offset of `host_ver_min`. -/
def offHostMin : Nat := 8
/-- astlpc.c:273: offset of `host_ver_cur`. -/
def offHostCur : Nat := 10
/-- astlpc.c:274: offset of `negotiated_ver`. -/
def offNegotiated : Nat := 12
/-- astlpc.c:277: offset of `layout`. -/
def offLayout : Nat := 16
/-- astlpc.c:278: offset of `layout.rx_offset`. -/
def offRxOffset : Nat := 16
/-- astlpc.c:279: offset of `layout.rx_size`. -/
def offRxSize : Nat := 20
/-- astlpc.c:280: offset of `layout.tx_offset`. -/
def offTxOffset : Nat := 24
/-- astlpc.c:281: offset of `layout.tx_size`. -/
def offTxSize : Nat := 28
/-- astlpc.c:267-283: `sizeof(struct mctp_lpcmap_hdr)`. -/
def lpcHdrSize : Nat := 32

/-! ## Protocol table (astlpc.c:177-265) -/

/-- `proto->packet_size(body)`: astlpc.c:177-182 (versions 1 and 2), 202-207 (version 3); the function
pointers of version 0 are NULL. -/
def protoPacketSize (proto : Option Nat) (body : Nat) : Res Nat :=
  match proto with
  | none => .error .nullDeref
  | some 0 => .error .nullDeref
  | some 3 => if u32 (body + 8) > body then .ok (u32 (body + 8)) else .error .assertFail
  | some _ => if u32 (body + 4) > body then .ok (u32 (body + 4)) else .error .assertFail

/-- `proto->body_size(packet)`: astlpc.c:184-189, 209-214. -/
def protoBodySize (proto : Option Nat) (packet : Nat) : Res Nat :=
  match proto with
  | none => .error .nullDeref
  | some 0 => .error .nullDeref
  | some 3 =>
    if usub32 packet 8 < packet then .ok (usub32 packet 8) else .error .assertFail
  | some _ =>
    if usub32 packet 4 < packet then .ok (usub32 packet 4) else .error .assertFail

/-- `proto->pktbuf_protect(pkt)`: astlpc.c:191-194, 216-223.  The result of the push is ignored. -/
def protoProtect (proto : Option Nat) (pkt : Pktbuf) : Res Pktbuf :=
  match proto with
  | none => .error .nullDeref
  | some 0 => .error .nullDeref
  | some 3 => do
    let bytes ← pkt.read pkt.hdrOff pkt.len
    let (_, pkt') ← pkt.push (be32 (crc32 bytes).toNat)
    .ok pkt'
  | some _ => .ok pkt

/-- `proto->pktbuf_validate(pkt)`: astlpc.c:196-200, 225-234.  For a packet
shorter than 4 bytes the `size_t` argument of `crc32` wraps and the read leaves the buffer. -/
def protoValidate (proto : Option Nat) (pkt : Pktbuf) : Res (Bool × Pktbuf) :=
  match proto with
  | none => .error .nullDeref
  | some 0 => .error .nullDeref
  | some 3 => if pkt.len < 4 then .error .outOfBounds else do
    let bytes ← pkt.read pkt.hdrOff (pkt.len - 4)
    match pkt.pop 4 with
    | (none, pkt') => .ok (false, pkt')
    | (some off, pkt') => do
      let check ← pkt.read off 4
      .ok (decide (be32 (crc32 bytes).toNat = check), pkt')
  | some _ => .ok (true, pkt)

/-- `proto->version`. -/
def protoVersion (proto : Option Nat) : Res Nat :=
  match proto with
  | none => .error .nullDeref
  | some v => .ok v

variable {E : Type}

/-! ## Accessors (astlpc.c:294-350) -/

/-- astlpc.c:301-306 `mctp_astlpc_kcs_read`. -/
def kcsRead (hw : Hw E) (s : AstSt E) (reg : KcsReg) : Int × Byte × AstSt E :=
  let (rc, v, e) := hw.kcsRead s.env reg
  (rc, v, { s with env := e, log := s.log ++ [⟨s.rx, s.tx, .kcsRead reg rc v⟩] })

/-- astlpc.c:294-299 `mctp_astlpc_kcs_write`. -/
def kcsWrite (hw : Hw E) (s : AstSt E) (reg : KcsReg) (v : Byte) : Int × AstSt E :=
  let (rc, e) := hw.kcsWrite s.env reg v
  (rc, { s with env := e, log := s.log ++ [⟨s.rx, s.tx, .kcsWrite reg v rc⟩] })

/-- Exactly `n` bytes: what a read of `n` bytes leaves in the caller's buffer. -/
def exactly (n : Nat) (bs : List Byte) : List Byte := (bs ++ List.replicate n 0).take n

/-- astlpc.c:330-350 `mctp_astlpc_lpc_read`.  An access outside the 1 MiB window is a fault. -/
def lpcRead (hw : Hw E) (s : AstSt E) (off len : Nat) : Res (Int × List Byte × AstSt E) :=
  if off + len ≤ lpcWinSize then
    let (rc, bs, e) := hw.lpcRead s.env off len
    let bs := exactly len bs
    .ok (rc, bs, { s with env := e, log := s.log ++ [⟨s.rx, s.tx, .lpcRead off bs rc⟩] })
  else .error .outOfBounds

/-- astlpc.c:308-328 `mctp_astlpc_lpc_write`. -/
def lpcWrite (hw : Hw E) (s : AstSt E) (off : Nat) (bs : List Byte) : Res (Int × AstSt E) :=
  if off + bs.length ≤ lpcWinSize then
    let (rc, e) := hw.lpcWrite s.env off bs
    .ok (rc, { s with env := e, log := s.log ++ [⟨s.rx, s.tx, .lpcWrite off bs rc⟩] })
  else .error .outOfBounds

/-- astlpc.c:363-392 `mctp_astlpc_kcs_set_status`. -/
def kcsSetStatus (hw : Hw E) (s : AstSt E) (status : Byte) : Int × AstSt E :=
  let (rc1, s1) := kcsWrite hw s .status status
  if rc1 ≠ 0 then (-1, s1)
  else
    let (rc2, s2) := kcsWrite hw s1 .data cmdDummy
    if rc2 ≠ 0 then (-1, s2) else (0, s2)

/-! ## Layout (astlpc.c:394-530) -/

/-- `struct mctp_astlpc_layout` (astlpc.c:108-111). -/
structure AstLayout where
  rx : AstBuf
  tx : AstBuf
  deriving DecidableEq, Repr

/-- astlpc.c:394-420 `mctp_astlpc_layout_read` (the buffer states of the result are not initialised by
the C code and not used). -/
def layoutRead (hw : Hw E) (s : AstSt E) : Res (Int × AstLayout × AstSt E) := do
  let (rc, hdr, s') ← lpcRead hw s 0 lpcHdrSize
  let hostRx : AstBuf := { offset := field32 hdr offRxOffset, size := field32 hdr offRxSize, state := .idle }
  let hostTx : AstBuf := { offset := field32 hdr offTxOffset, size := field32 hdr offTxSize, state := .idle }
  match s.mode with
  | .bmc => .ok (rc, { rx := hostTx, tx := hostRx }, s')
  | .host => .ok (rc, { rx := hostRx, tx := hostTx }, s')

/-- astlpc.c:422-456 `mctp_astlpc_layout_write`. -/
def layoutWrite (hw : Hw E) (s : AstSt E) (l : AstLayout) : Res (Int × AstSt E) :=
  match s.mode with
  | .bmc => lpcWrite hw s offLayout (be32 l.tx.offset ++ be32 l.tx.size ++ be32 l.rx.offset ++ be32 l.rx.size)
  | .host => lpcWrite hw s offRxSize (be32 l.rx.size)

/-- astlpc.c:458-504 `mctp_astlpc_buffer_validate`. -/
def bufferValidate (proto : Option Nat) (b : AstBuf) : Res Bool :=
  if u32 (b.offset + b.size) < b.offset then .ok false
  else if u32 (b.offset + b.size) > lpcWinSize then .ok false
  else do
    let least ← protoPacketSize proto (u32 (packetSize btu))
    if b.size < least then .ok false
    else if b.offset < controlSize then .ok false
    else .ok true

/-- astlpc.c:506-530 `mctp_astlpc_layout_validate`. -/
def layoutValidate (proto : Option Nat) (l : AstLayout) : Res Bool := do
  let rxValid ← bufferValidate proto l.rx
  let txValid ← bufferValidate proto l.tx
  if !(rxValid && txValid) then .ok false
  else
    .ok (!(decide (l.rx.offset ≤ l.tx.offset ∧ u32 (l.rx.offset + l.rx.size) > l.tx.offset) ||
           decide (l.tx.offset ≤ l.rx.offset ∧ u32 (l.tx.offset + l.tx.size) > l.rx.offset)))

/-! ## Initialisation (astlpc.c:532-779) -/

/-- astlpc.c:538-561: the size of the packet buffers the BMC proposes. -/
def bmcBufferSize (proto : Option Nat) (mtu : Nat) : Res Nat := do
  let body ← protoBodySize proto (u32 ((lpcWinSize - controlSize) / 2))
  let sz := u32 (bodySize body)
  let sz := sz &&& 0xfffffff0
  let sz ← protoPacketSize proto (u32 (packetSize sz))
  if mtu ≠ 0 then
    let rpkt ← protoPacketSize proto (u32 (packetSize mtu))
    .ok (min sz rpkt)
  else .ok sz

/-- astlpc.c:532-594 `mctp_astlpc_init_bmc`.  (The header is written as a whole: versions, zeros for the
host versions, the negotiated version and the padding, and the layout.) -/
def initBmc (hw : Hw E) (s : AstSt E) : Res (Int × AstSt E) := do
  let sz ← bmcBufferSize s.proto s.mtu
  let tx : AstBuf := { s.tx with offset := controlSize, size := sz }
  let rx : AstBuf := { s.rx with offset := u32 (controlSize + sz), size := sz }
  let s := { s with tx := tx, rx := rx }
  let valid ← layoutValidate s.proto { rx := s.rx, tx := s.tx }
  if !valid then .ok (-EINVAL, s)
  else
    let hdr := be32 astMagic ++ be16 astVerMin ++ be16 astVerCur ++ be16 0 ++ be16 0 ++ be16 0 ++ be16 0
      ++ be32 s.tx.offset ++ be32 s.tx.size ++ be32 s.rx.offset ++ be32 s.rx.size
    let (_, s) ← lpcWrite hw s 0 hdr
    .ok (kcsSetStatus hw s kcsBmcReady)

/-- astlpc.c:606-637 `mctp_astlpc_validate_version`. -/
def validateVersion (bmcMin bmcCur hostMin hostCur : Nat) : Bool :=
  if bmcMin = 0 ∨ bmcCur = 0 ∨ hostMin = 0 ∨ hostCur = 0 then false
  else if bmcMin > bmcCur then false
  else if hostMin > hostCur then false
  else if hostCur < bmcMin ∨ hostMin > bmcCur then false
  else true

/-- astlpc.c:684-697 `mctp_astlpc_negotiate_version`. -/
def negotiateVersion (bmcMin bmcCur hostMin hostCur : Nat) : Nat :=
  if !validateVersion bmcMin bmcCur hostMin hostCur then 0
  else if bmcCur < hostCur then bmcCur
  else hostCur

/-- astlpc.c:639-682 `mctp_astlpc_negotiate_layout_host`. -/
def negotiateLayoutHost (hw : Hw E) (s : AstSt E) : Res (Int × AstSt E) := do
  let (rc, l, s) ← layoutRead hw s
  if rc < 0 then .ok (rc, s)
  else do
    let valid ← layoutValidate s.proto l
    if !valid then .ok (-EINVAL, s)
    else do
      let sz ← protoPacketSize s.proto (u32 (packetSize s.mtu))
      let l := { l with rx := { l.rx with size := sz } }
      let valid ← layoutValidate s.proto l
      if !valid then .ok (-EINVAL, s)
      else layoutWrite hw s l

/-- astlpc.c:699-771 `mctp_astlpc_init_host`.  The table index is checked by an assertion. -/
def initHost (hw : Hw E) (s : AstSt E) : Res (Int × AstSt E) := do
  let (rc, status, s) := kcsRead hw s .status
  if rc ≠ 0 then .ok (rc, s)
  else
    let s := { s with kcsStatus := status }
    if status &&& kcsBmcReady = 0 then .ok (-EHOSTDOWN, s)
    else do
      let (_, hdr, s) ← lpcRead hw s 0 lpcHdrSize
      let negotiated := negotiateVersion (field16 hdr offBmcMin) (field16 hdr offBmcCur) astVerMin astVerCur
      if negotiated = 0 then .ok (-EINVAL, s)
      else if 4 ≤ negotiated then .error .assertFail
      else do
        let s := { s with proto := some negotiated }
        let (rc, s) ← (if 2 ≤ negotiated then negotiateLayoutHost hw s else .ok (0, s))
        if rc < 0 then .ok (rc, s)
        else do
          let (_, s) ← lpcWrite hw s offHostMin (be16 astVerMin)
          let (_, s) ← lpcWrite hw s offHostCur (be16 astVerCur)
          let (rc, s) := kcsWrite hw s .data cmdInitialise
          .ok (rc, { s with proto := some 0 })

/-- astlpc.c:596-604 `mctp_binding_astlpc_start_bmc` and astlpc.c:773-779
`mctp_binding_astlpc_start_host`: `binding.start` (astlpc.c:1274-1277). -/
def astStart (hw : Hw E) (s : AstSt E) : Res (Int × AstSt E) :=
  match s.mode with
  | .bmc => initBmc hw { s with proto := some astVerCur }
  | .host => initHost hw s

/-! ## Packet exchange (astlpc.c:781-871) -/

/-- astlpc.c:781-793 `__mctp_astlpc_kcs_ready`. -/
def kcsReady (mode : AstMode) (status : Byte) (isWrite : Bool) : Bool :=
  let isBmc := decide (mode = .bmc)
  let flag := if (isBmc ^^ isWrite) then kcsIbf else kcsObf
  decide (status &&& flag ≠ 0) == !isWrite

/-- astlpc.c:807-828 `mctp_astlpc_kcs_send`. -/
def kcsSend (hw : Hw E) (s : AstSt E) (cmd : Byte) : Int × AstSt E :=
  let (rc, status, s) := kcsRead hw s .status
  if rc ≠ 0 then (-EIO, s)
  else if !kcsReady s.mode status true then (-EBUSY, s)
  else
    let (rc, s) := kcsWrite hw s .data cmd
    if rc ≠ 0 then (-EIO, s) else (0, s)

/-- astlpc.c:830-871 `mctp_binding_astlpc_tx`. -/
def astTx (hw : Hw E) (b : Binding (AstSt E)) (pkt : Pktbuf) : Res (TxOut (AstSt E)) := do
  let s := b.st
  let len := u32 pkt.len
  let most ← protoBodySize s.proto s.tx.size
  if len > most then .ok { st := s, pkt := pkt, rc := -EMSGSIZE, disableTx := false }
  else do
    let (_, s) ← lpcWrite hw s s.tx.offset (be32 len)
    let pkt ← protoProtect s.proto pkt
    let bytes ← pkt.read pkt.hdrOff (u32 pkt.len)
    let (_, s) ← lpcWrite hw s (u32 (s.tx.offset + 4)) bytes
    let s := { s with tx := { s.tx with state := .prepared } }
    let (rc, s) := kcsSend hw s cmdTxBegin
    let s := if rc = 0 then { s with tx := { s.tx with state := .released } } else s
    .ok { st := s, pkt := pkt, rc := if rc = -EBUSY then 0 else rc, disableTx := true }

/-- astlpc.c:1273-1277: the binding's function table. -/
def astOps (hw : Hw E) : Ops (AstSt E) where
  start := some fun b => do
    let (rc, s) ← astStart hw b.st
    .ok { binding := { b with st := s }, rc := rc, enableTx := false }
  tx := astTx hw

/-- astlpc.c:1249-1285, 1292-1314 `__mctp_astlpc_init`, `mctp_astlpc_init` (the allocation succeeded). -/
def astInit (env : E) (mode : AstMode) (mtu : Nat) : Binding (AstSt E) :=
  { version := 1, pktSize := packetSize (if mtu > btu then mtu else btu), pktHeader := 4, pktTrailer := 4,
    controlRx := false,
    st := { env := env, log := [], mode := mode, mtu := mtu, proto := none,
            rx := { offset := 0, size := 0, state := .idle }, tx := { offset := 0, size := 0, state := .idle },
            kcsStatus := 0 } }

/-- astlpc.c:1324-1330 `mctp_astlpc_destroy` (up to freeing the structure). -/
def astDestroy (hw : Hw E) (s : AstSt E) : AstSt E :=
  match s.mode with
  | .bmc => (kcsSetStatus hw s 0).2
  | .host => s

/-- astlpc.c:873-894 `mctp_astlpc_calculate_mtu`. -/
def calculateMtu (s : AstSt E) (proposed : AstLayout) : Res Nat := do
  let low := min s.rx.offset s.tx.offset
  let high := max s.rx.offset s.tx.offset
  let limit := high - low
  let limit ← (if s.mtu ≠ 0 then do
      let rpkt ← protoPacketSize s.proto (u32 (packetSize s.mtu))
      .ok (min limit rpkt)
    else .ok limit)
  let body ← protoBodySize s.proto (min limit proposed.tx.size)
  .ok (u32 (bodySize body))

/-- astlpc.c:896-947 `mctp_astlpc_negotiate_layout_bmc`. -/
def negotiateLayoutBmc (hw : Hw E) (b : Binding (AstSt E)) : Res (Int × Binding (AstSt E)) := do
  let version ← protoVersion b.st.proto
  if version = 0 then .ok (-EINVAL, b)
  else do
    let (rc, proposed, s) ← layoutRead hw b.st
    let b := { b with st := s }
    if rc < 0 then .ok (rc, b)
    else do
      let valid ← layoutValidate s.proto proposed
      if !valid then .ok (-EINVAL, b)
      else do
        let mtu ← calculateMtu s proposed
        let sz ← protoPacketSize s.proto (u32 (packetSize mtu))
        let pending : AstLayout := { rx := { s.rx with size := sz }, tx := { s.tx with size := sz } }
        let valid ← layoutValidate s.proto pending
        if valid then do
          let s := { s with rx := pending.rx, tx := pending.tx }
          let (rc, s) ← layoutWrite hw s pending
          let b := { b with st := s }
          if rc < 0 then .ok (rc, b)
          else if 2 ≤ version then .ok (0, { b with pktSize := packetSize mtu })
          else .ok (0, b)
        else .ok (-EINVAL, b)

/-- astlpc.c:949-997: `mctp_astlpc_init_channel` up to its last statement, which is
`mctp_binding_set_tx_enabled` with the returned Boolean. -/
def initChannel (hw : Hw E) (b : Binding (AstSt E)) : Res (Bool × Binding (AstSt E)) := do
  let (_, hdr, s) ← lpcRead hw b.st 0 lpcHdrSize
  let negotiated := negotiateVersion astVerMin astVerCur (field16 hdr offHostMin) (field16 hdr offHostCur)
  if 4 ≤ negotiated then .error .assertFail
  else do
    let b := { b with st := { s with proto := some negotiated } }
    let (rc, b) ← negotiateLayoutBmc hw b
    let negotiated := if rc < 0 then 0 else negotiated
    let (_, s) ← lpcWrite hw b.st offNegotiated (be16 negotiated)
    let s := { s with tx := { s.tx with state := .acquired }, rx := { s.rx with state := .released } }
    let status := kcsBmcReady ||| kcsObf
    let status := if negotiated > 0 then status ||| kcsChannelActive else status
    let (_, s) := kcsSetStatus hw s status
    .ok (decide (status &&& kcsChannelActive ≠ 0), { b with st := s })

/-- astlpc.c:1070-1116 `mctp_astlpc_finalise_channel`. -/
def finaliseChannel (hw : Hw E) (b : Binding (AstSt E)) : Res (Int × Binding (AstSt E)) := do
  let (rc, ver, s) ← lpcRead hw b.st offNegotiated 2
  let b := { b with st := s }
  if rc < 0 then .ok (rc, b)
  else
    let negotiated := fromBe ver
    if negotiated = 0 ∨ negotiated < astVerMin ∨ negotiated > astVerCur then .ok (-EINVAL, b)
    else do
      let s := { s with proto := some negotiated }
      let (rc, l, s) ← layoutRead hw s
      let b := { b with st := s }
      if rc < 0 then .ok (rc, b)
      else do
        let valid ← layoutValidate s.proto l
        if !valid then .ok (-EINVAL, b)
        else do
          let most ← (if 2 ≤ negotiated then protoBodySize s.proto l.tx.size else .ok b.pktSize)
          let s := { s with rx := { l.rx with state := .released }, tx := { l.tx with state := .acquired } }
          .ok (0, { b with st := s, pktSize := most })

/-! ## On the core -/

/-- Store the binding of bus `i`. -/
def Core.setBinding {β : Type} (c : Core β) (i : Nat) (bus : Bus β) (b : Binding β) : Core β :=
  c.setBus i { bus with binding := b }

/-- astlpc.c:949-997 `mctp_astlpc_init_channel`. -/
def Core.astInitChannel (hw : Hw E) (c : Core (AstSt E)) (i : Nat) :
    Res (Core (AstSt E) × List Event) := do
  let bus ← c.busAt i
  let (on, b) ← initChannel hw bus.binding
  (c.setBinding i bus b).setTxEnabled (astOps hw) i on

/-- astlpc.c:999-1062 `mctp_astlpc_rx_start`.  In the C code the packet is read into the new buffer
before `Rx Complete` is sent. -/
def Core.astRxStart (hw : Hw E) (c : Core (AstSt E)) (i : Nat) :
    Res (Core (AstSt E) × List Event) := do
  let bus ← c.busAt i
  let (_, bodyBe, s) ← lpcRead hw bus.binding.st bus.binding.st.rx.offset 4
  let body := fromBe bodyBe
  let most ← protoBodySize s.proto s.rx.size
  if body > most then .ok (c.setSt i bus s, [])
  else if body > bus.binding.pktSize then .ok (c.setSt i bus s, [])
  else do
    let packet ← protoPacketSize s.proto body
    let packet := packet - 4
    match pktbufAlloc c.mem c.fill bus.binding.pktSize bus.binding.pktHeader bus.binding.pktTrailer packet with
    | (none, mem) => .ok (({ c with mem := mem }).setSt i bus s, [])
    | (some pkt, mem) => do
      let (_, bytes, s) ← lpcRead hw s (u32 (s.rx.offset + 4)) packet
      let pkt ← pkt.write pkt.hdrOff bytes
      let s := { s with rx := { s.rx with state := .prepared } }
      let (rc, s) := kcsSend hw s cmdRxComplete
      let s := if rc = 0 then { s with rx := { s.rx with state := .released } } else s
      let c := ({ c with mem := mem }).setSt i bus s
      let ver ← pkt.read pkt.hdrOff 1
      if ver ≠ [1] then do
        let mem ← pktbufFree c.mem pkt
        .ok ({ c with mem := mem }, [])
      else do
        let (valid, pkt) ← protoValidate s.proto pkt
        if valid then c.busRx (astOps hw) i pkt
        else do
          let mem ← pktbufFree c.mem pkt
          .ok ({ c with mem := mem }, [])

/-- astlpc.c:1064-1068 `mctp_astlpc_tx_complete`. -/
def Core.astTxComplete (hw : Hw E) (c : Core (AstSt E)) (i : Nat) :
    Res (Core (AstSt E) × List Event) := do
  let bus ← c.busAt i
  let s := bus.binding.st
  (c.setSt i bus { s with tx := { s.tx with state := .acquired } }).setTxEnabled (astOps hw) i true

/-- astlpc.c:1141-1156: the second half of `mctp_astlpc_update_channel`. -/
def Core.astUpdateActive (hw : Hw E) (c : Core (AstSt E)) (i : Nat) (status updated : Byte) :
    Res (Core (AstSt E) × List Event × Int) := do
  let bus ← c.busAt i
  let s := bus.binding.st
  let version ← protoVersion s.proto
  if version = 0 ∨ updated &&& kcsChannelActive ≠ 0 then do
    let s := { s with rx := { s.rx with state := .idle }, tx := { s.tx with state := .idle } }
    let (rc, b) ← finaliseChannel hw { bus.binding with st := s }
    let enable := decide (status &&& kcsChannelActive ≠ 0 ∧ rc = 0)
    let (c, e) ← (c.setBinding i bus b).setTxEnabled (astOps hw) i enable
    let bus ← c.busAt i
    .ok (c.setSt i bus { bus.binding.st with kcsStatus := status }, e, rc)
  else .ok (c.setSt i bus { s with kcsStatus := status }, [], 0)

/-- astlpc.c:1118-1157 `mctp_astlpc_update_channel`. -/
def Core.astUpdateChannel (hw : Hw E) (c : Core (AstSt E)) (i : Nat) (status : Byte) :
    Res (Core (AstSt E) × List Event × Int) := do
  let bus ← c.busAt i
  let s := bus.binding.st
  if s.mode ≠ .host then .error .assertFail
  else
    let updated := s.kcsStatus ^^^ status
    if updated &&& kcsBmcReady ≠ 0 then
      if status &&& kcsBmcReady ≠ 0 then do
        let (rc, s) ← astStart hw { s with kcsStatus := status }
        .ok (c.setSt i bus s, [], rc)
      else do
        let s := { s with rx := { s.rx with state := .idle }, tx := { s.tx with state := .idle } }
        let (c, e1) ← (c.setSt i bus s).setTxEnabled (astOps hw) i false
        let (c, e2, rc) ← c.astUpdateActive hw i status updated
        .ok (c, e1 ++ e2, rc)
    else c.astUpdateActive hw i status updated

/-- astlpc.c:1159-1162 `mctp_astlpc_tx_done`. -/
def astTxDone (s : AstSt E) : Bool := decide (s.tx.state = .acquired)

/-- astlpc.c:1169-1175: retry the hand-overs that were deferred. -/
def astRetry (hw : Hw E) (s : AstSt E) : AstSt E :=
  let s := if s.rx.state = .prepared then
      let (rc, s) := kcsSend hw s cmdRxComplete
      if rc = 0 then { s with rx := { s.rx with state := .released } } else s
    else s
  if s.tx.state = .prepared then
    let (rc, s) := kcsSend hw s cmdTxBegin
    if rc = 0 then { s with tx := { s.tx with state := .released } } else s
  else s

/-- astlpc.c:1239-1243: after the command has been handled, the host looks for a silent loss of
BMC-ready. -/
def Core.astAfter (hw : Hw E) (c : Core (AstSt E)) (i : Nat) (mode : AstMode) (status data : Byte) (rc : Int) :
    Res (Core (AstSt E) × List Event × Int) :=
  if mode = .host ∧ ¬ (status &&& kcsBmcReady ≠ 0 ∧ data = cmdDummy) then c.astUpdateChannel hw i status
  else .ok (c, [], rc)

/-- astlpc.c:1203-1237: the command read from the KCS data register (`switch`).  The Boolean says that
the function returns at once with the given value. -/
def Core.astCommand (hw : Hw E) (c : Core (AstSt E)) (i : Nat) (status data : Byte) :
    Res (Core (AstSt E) × List Event × Int × Bool) := do
  let bus ← c.busAt i
  let s := bus.binding.st
  if data = cmdInitialise then do
    let (c, e) ← c.astInitChannel hw i
    .ok (c, e, 0, false)
  else if data = cmdTxBegin then
    if s.rx.state ≠ .released then .ok (c, [], 0, true)
    else do
      let (c, e) ← c.astRxStart hw i
      .ok (c, e, 0, false)
  else if data = cmdRxComplete then
    if s.tx.state ≠ .released then .ok (c, [], 0, true)
    else do
      let (c, e) ← c.astTxComplete hw i
      .ok (c, e, 0, false)
  else if data = cmdDummy then
    if s.mode = .host then do
      let (c, e, rc) ← c.astUpdateChannel hw i status
      .ok (c, e, rc, decide (rc < 0))
    else .ok (c, [], 0, false)
  else .ok (c, [], 0, false)

/-- astlpc.c:1164-1246 `mctp_astlpc_poll`. -/
def Core.astPoll (hw : Hw E) (c : Core (AstSt E)) (i : Nat) : Res (Core (AstSt E) × List Event × Int) := do
  let bus ← c.busAt i
  let s := astRetry hw bus.binding.st
  let (rc, status, s) := kcsRead hw s .status
  if rc ≠ 0 then .ok (c.setSt i bus s, [], -1)
  else if !kcsReady s.mode status false then .ok (c.setSt i bus s, [], 0)
  else
    let (rc, data, s) := kcsRead hw s .data
    let c := c.setSt i bus s
    if rc ≠ 0 then .ok (c, [], -1)
    else do
      let version ← protoVersion s.proto
      if version = 0 ∧ ¬ (data = cmdInitialise ∨ data = cmdDummy) then .ok (c, [], 0)
      else do
        let (c, e1, rc, stop) ← c.astCommand hw i status data
        if stop then .ok (c, e1, rc)
        else do
          let (c, e2, rc) ← c.astAfter hw i s.mode status data rc
          .ok (c, e1 ++ e2, rc)

/-- astlpc.c:1448-1462 `mctp_astlpc_init_pollfd`: wait for the output register to be free (`true`,
POLLOUT) or for input (`false`, POLLIN). -/
def astPollOut (s : AstSt E) : Bool :=
  decide (s.rx.state = .prepared ∨ s.tx.state = .prepared)

/-! ## Histories of an endpoint with an astlpc binding on bus 0 -/

/-- A call made by the application: on the core, or `mctp_astlpc_poll`. -/
inductive AstOp
  | send (eid : Byte) (tagOwner : Bool) (tag : Byte) (msg : List Byte)
  | setMax (n : Nat)
  | setCapture (on : Bool)
  | setRx (on : Bool)
  | poll
  deriving DecidableEq, Repr

/-- The call on the core, if it is one. -/
def AstOp.core {β : Type} : AstOp → Option (Op β)
  | .send eid o tag msg => some (.send eid o tag msg)
  | .setMax n => some (.setMax n)
  | .setCapture on => some (.setCapture on)
  | .setRx on => some (.setRx on)
  | .poll => none

/-- One call. -/
def Core.astStep (hw : Hw E) (c : Core (AstSt E)) (op : AstOp) :
    Res (Core (AstSt E) × List Event × Int) :=
  match op.core with
  | some o => c.step (astOps hw) o
  | none => c.astPoll hw 0

/-- One call with its events and its return code. -/
structure AstRec where
  op  : AstOp
  evs : List Event
  rc  : Int
  deriving DecidableEq, Repr

/-- A history and its log. -/
def Core.astRun (hw : Hw E) (c : Core (AstSt E)) : List AstOp → Res (Core (AstSt E) × List AstRec)
  | [] => .ok (c, [])
  | op :: rest => do
    let (c1, e, rc) ← c.astStep hw op
    let (c2, log) ← c1.astRun hw rest
    .ok (c2, ⟨op, e, rc⟩ :: log)

/-- All events of a log, in order. -/
def astEvents (log : List AstRec) : List Event := log.flatMap (·.evs)

end Mctp
