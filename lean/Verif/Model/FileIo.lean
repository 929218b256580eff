import Verif.Model.Astlpc

/-!
# Device files: `mctp_astlpc_init_fileio` and the file-descriptor helpers of the serial binding

astlpc.c:1332-1500, serial.c:342-418.  The operating system is an arbitrary oracle for the results of
the system calls, with a ledger of the descriptors and mappings of the process.
-/

namespace Mctp

/-- The operating system as seen by the process.  `ok k` says whether the `k`-th system call succeeds,
`size k` is the size of the reserved memory if that call asks for it (a `uint32_t`).  `fds` and `maps` are
the descriptors and mappings the process holds (with the size of the mapping); both are named by the
number of the call that made them.  `window` is the range of firmware addresses last given to the LPC
controller: first address and size. -/
structure Os where
  ok     : Nat → Bool
  size   : Nat → Nat
  calls  : Nat := 0
  fds    : List Nat := []
  maps   : List (Nat × Nat) := []
  window : Option (Nat × Nat) := none

namespace Os

/-- `open`. -/
def «open» (o : Os) : Option Nat × Os :=
  if o.ok o.calls then (some o.calls, { o with calls := o.calls + 1, fds := o.calls :: o.fds })
  else (none, { o with calls := o.calls + 1 })

/-- `close` (its result is not used anywhere). -/
def close (o : Os) (fd : Nat) : Os := { o with calls := o.calls + 1, fds := o.fds.erase fd }

/-- `ioctl(fd, ASPEED_LPC_CTRL_IOCTL_GET_SIZE, &map)`: sets `map.size`, a `uint32_t`. -/
def ioctlSize (o : Os) : Option Nat × Os :=
  (if o.ok o.calls then some (u32 (o.size o.calls)) else none, { o with calls := o.calls + 1 })

/-- `ioctl(fd, ASPEED_LPC_CTRL_IOCTL_MAP, &map)`. -/
def ioctlMap (o : Os) (addr size : Nat) : Bool × Os :=
  if o.ok o.calls then (true, { o with calls := o.calls + 1, window := some (addr, size) })
  else (false, { o with calls := o.calls + 1 })

/-- `mmap`, which fails for the size 0. -/
def mmap (o : Os) (size : Nat) : Option Nat × Os :=
  if o.ok o.calls ∧ size ≠ 0 then
    (some o.calls, { o with calls := o.calls + 1, maps := (o.calls, size) :: o.maps })
  else (none, { o with calls := o.calls + 1 })

end Os

/-- astlpc.c:121-139: the fields of `struct mctp_binding_astlpc` used for files: the block that holds the
structure, `lpc_map` (a mapping and the distance from its start) and `kcs_fd` (`none` for a negative
number).  The other fields are those of `astInit`. -/
structure AstFile where
  block  : Nat
  lpcMap : Option (Nat × Int)
  kcsFd  : Option Nat
  deriving DecidableEq, Repr

/-- astlpc.c:1376: `0x0FFFFFFF & -map.size` on `uint32_t`. -/
def fwAddr (size : Nat) : Nat := 0x0FFFFFFF &&& usub32 0 size

/-- astlpc.c:1334-1410 `mctp_astlpc_init_fileio_lpc`. -/
def initFileioLpc (f : AstFile) (o : Os) : Int × AstFile × Os :=
  match o.open with
  | (none, o) => (-1, f, o)
  | (some fd, o) =>
    match o.ioctlSize with
    | (none, o) => (-1, f, o.close fd)
    | (some size, o) =>
      match o.ioctlMap (fwAddr size) size with
      | (false, o) => (-1, f, o.close fd)
      | (true, o) =>
        match o.mmap size with
        | (none, o) => (-1, f, o.close fd)
        | (some m, o) => (0, { f with lpcMap := some (m, (size : Int) - lpcWinSize) }, o.close fd)

/-- astlpc.c:1412-1420 `mctp_astlpc_init_fileio_kcs`. -/
def initFileioKcs (f : AstFile) (o : Os) : Int × AstFile × Os :=
  match o.open with
  | (none, o) => (-1, { f with kcsFd := none }, o)
  | (some fd, o) => (0, { f with kcsFd := some fd }, o)

/-- `free` of the C library, for a block that came from `__mctp_alloc`.  `custom`: the application has set
allocation functions of its own (`mctp_set_alloc_ops`), so that the block is not one of the C library. -/
def libcFree (custom : Bool) (m : Mem) (p : Nat) : Res Mem :=
  if custom then .error .doubleFree else m.free (some p)

/-- astlpc.c:1464-1499 `mctp_astlpc_init_fileio`.  (The binding proper is `astInit env .bmc 0`.) -/
def initFileio (custom : Bool) (mem : Mem) (o : Os) : Res (Option AstFile × Mem × Os) :=
  match mem.alloc with
  | (none, mem) => .ok (none, mem, o)
  | (some block, mem) =>
    match initFileioLpc { block := block, lpcMap := none, kcsFd := none } o with
    | (rc, f, o) =>
      if rc ≠ 0 then do
        let mem ← libcFree custom mem f.block
        .ok (none, mem, o)
      else
        match initFileioKcs f o with
        | (rc, f, o) =>
          if rc ≠ 0 then do
            let mem ← libcFree custom mem f.block
            .ok (none, mem, o)
          else .ok (some f, mem, o)

/-- astlpc.c:1324-1330 `mctp_astlpc_destroy`: what happens to the resources (the writes to the KCS registers
are in `astDestroy`).  `__mctp_free` uses the allocator the block came from. -/
def destroyFileio (f : AstFile) (mem : Mem) (o : Os) : Res (Mem × Os) := do
  let mem ← mem.free (some f.block)
  .ok (mem, o)

/-- libmctp-astlpc.h:14-17 `enum mctp_binding_astlpc_kcs_reg`: the register is the file offset. -/
def KcsReg.fileOffset : KcsReg → Nat
  | .data => 0
  | .status => 1

/-- The KCS device and the memory: `pread` and `pwrite` of one byte at an offset (result, byte, state) and
the contents of the mapping. -/
structure KcsFile (E : Type) where
  pread  : E → Nat → Int × Byte × E
  pwrite : E → Nat → Byte → Int × E
  load   : E → Nat → Nat → List Byte × E
  store  : E → Nat → List Byte → E

/-- astlpc.c:1422-1446 `__mctp_astlpc_fileio_kcs_read`, `__mctp_astlpc_fileio_kcs_write`; and, as there are no
`lpc_read` and `lpc_write` operations, the direct accesses of astlpc.c:308-350. -/
def fileHw {E : Type} (dev : KcsFile E) : Hw E where
  kcsRead e r :=
    let (n, v, e) := dev.pread e r.fileOffset
    (if n = 1 then 0 else -1, v, e)
  kcsWrite e r v :=
    let (n, e) := dev.pwrite e r.fileOffset v
    (if n = 1 then 0 else -1, e)
  lpcRead e off len :=
    let (bs, e) := dev.load e off len
    (0, bs, e)
  lpcWrite e off bs := (0, dev.store e off bs)

/-! ## Serial devices -/

/-- serial.c:65-92: the fields of `struct mctp_binding_serial` used for files: the block that holds the
structure and `fd` (`none` for a negative number). -/
structure SerialFile where
  block : Nat
  fd    : Option Nat
  deriving DecidableEq, Repr

/-- serial.c:392-399 `mctp_serial_init`: the result of the allocation is not checked before `memset`. -/
def serialFileInit (mem : Mem) : Res (SerialFile × Mem) :=
  match mem.alloc with
  | (none, _) => .error .nullDeref
  | (some block, mem) => .ok ({ block := block, fd := none }, mem)

/-- serial.c:351-359 `mctp_serial_open_path`. -/
def serialOpenPath (f : SerialFile) (o : Os) : Int × SerialFile × Os :=
  match o.open with
  | (fd, o) => (0, { f with fd := fd }, o)

/-- serial.c:361-364 `mctp_serial_open_fd`. -/
def serialOpenFd (f : SerialFile) (fd : Nat) : SerialFile := { f with fd := some fd }

/-- serial.c:415-418 `mctp_serial_destroy`: the resources. -/
def serialFileDestroy (f : SerialFile) (mem : Mem) (o : Os) : Res (Mem × Os) := do
  let mem ← mem.free (some f.block)
  .ok (mem, o)

/-- `EBADF`, the error of `write` and `read` for a descriptor that is not open. -/
def EBADF : Int := 9

/-- serial.c:52-57 `mctp_serial_write` on the descriptor of the binding: `-errno` if `write` fails.
`dev k buf` is the value returned for an open descriptor (a count or the negated error number). -/
def serialFileWrite (f : SerialFile) (dev : Nat → List Byte → Int) : Nat → List Byte → Int :=
  match f.fd with
  | none => fun _ _ => -EBADF
  | some _ => dev

/-- serial.c:324-340 `mctp_serial_read`: `got` is what `read` of at most 1024 bytes returned: `none` for an error,
`some []` for the end of the file. -/
def Core.serialFileRead (c : Core SerialSt) (i : Nat) (f : SerialFile) (got : Option (List Byte)) :
    Res (Core SerialSt × List Event × Int) :=
  match f.fd, got with
  | none, _ => c.serialRead i none
  | some _, none => c.serialRead i none
  | some _, some [] => c.serialRead i none
  | some _, some (b :: bs) => c.serialRead i (some ((b :: bs).take 1024))

end Mctp
