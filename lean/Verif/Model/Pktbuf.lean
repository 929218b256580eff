import Verif.Model.Base

/-!
# Packet buffers (core.c:96-180, libmctp.h:50-69)
-/

namespace Mctp

/-- `struct mctp_pktbuf` (libmctp.h:52-57).  `id` is the allocation the structure lives in; `data`
is the flexible array member, whose length is the number of bytes really allocated for it.
The `next` link is not here: the transmit queue is a list (see `Core.lean`). -/
structure Pktbuf where
  id     : Nat
  start  : Nat
  «end»  : Nat
  size   : Nat
  hdrOff : Nat
  data   : List Byte
  deriving DecidableEq, Repr

namespace Pktbuf

/-- core.c:136-139 `mctp_pktbuf_size` (`pkt->end - pkt->start`; `start ≤ end` for every buffer, so no
wrap-around). -/
def len (p : Pktbuf) : Nat := p.«end» - p.start

/-- A C access to `n` bytes of `pkt->data` at offset `off`: defined only inside the allocation. -/
def read (p : Pktbuf) (off n : Nat) : Res (List Byte) :=
  if off + n ≤ p.data.length then .ok ((p.data.drop off).take n) else .error .outOfBounds

/-- A C write (`memcpy`) of `bs` into `pkt->data` at offset `off`. -/
def write (p : Pktbuf) (off : Nat) (bs : List Byte) : Res Pktbuf :=
  if off + bs.length ≤ p.data.length then
    .ok { p with data := p.data.take off ++ bs ++ p.data.drop (off + bs.length) }
  else .error .outOfBounds

/-- The bytes between `start` and `end`: the packet as seen by `mctp_pktbuf_hdr`/`_size`. -/
def bytes (p : Pktbuf) : List Byte := (p.data.drop p.start).take p.len

/-- core.c:141-146 `mctp_pktbuf_alloc_start`: returns the offset of the new area. -/
def allocStart (p : Pktbuf) (size : Nat) : Res (Nat × Pktbuf) :=
  if size ≤ p.start then
    .ok (p.start - size, { p with start := p.start - size })
  else .error .assertFail

/-- core.c:148-156 `mctp_pktbuf_alloc_end`: returns the offset of the new area. -/
def allocEnd (p : Pktbuf) (size : Nat) : Res (Nat × Pktbuf) :=
  if size ≤ p.size - p.«end» then
    .ok (p.«end», { p with «end» := p.«end» + size })
  else .error .assertFail

/-- core.c:158-171 `mctp_pktbuf_push`; `false` is the return value -1.  The check
`pkt->end + len > pkt->size` is in `size_t` arithmetic and wraps.  `len` is the length argument; the
data argument supplies that many bytes. -/
def push (p : Pktbuf) (bs : List Byte) : Res (Bool × Pktbuf) :=
  if (p.«end» + bs.length) % sizeMod > p.size then .ok (false, p)
  else do
    let p' ← p.write p.«end» bs
    .ok (true, { p' with «end» := (p.«end» + bs.length) % sizeMod })

/-- core.c:173-180 `mctp_pktbuf_pop`: `none` is a NULL return; otherwise the offset of the popped
area. -/
def pop (p : Pktbuf) (n : Nat) : Option Nat × Pktbuf :=
  if n > p.len then (none, p)
  else (some (p.«end» - n), { p with «end» := p.«end» - n })

end Pktbuf

/-- core.c:96-119 `mctp_pktbuf_alloc` for a binding with the given packet size, header and trailer
sizes.  `fill` gives the (arbitrary) contents of fresh memory. -/
def pktbufAlloc (m : Mem) (fill : Nat → Byte) (pktSize pktHeader pktTrailer len : Nat) :
    Option Pktbuf × Mem :=
  let size := pktSize + pktHeader + pktTrailer
  if len > size then (none, m)
  else
    match m.alloc with
    | (none, m') => (none, m')
    | (some id, m') =>
      (some { id := id, size := size, start := pktHeader, «end» := pktHeader + len,
              hdrOff := pktHeader, data := (List.range size).map fill }, m')

/-- core.c:121-124 `mctp_pktbuf_free`. -/
def pktbufFree (m : Mem) (p : Pktbuf) : Res Mem := m.free (some p.id)

end Mctp
