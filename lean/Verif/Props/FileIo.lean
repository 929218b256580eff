import Verif.Model.FileIo
import Verif.Spec.FileIo
import Verif.Props.Astlpc2

/-!
# Device files: C86–C90
-/

namespace Mctp

open Spec

/-- What the process holds. -/
def held (m : Mem) (o : Os) : Held := ⟨m.live, o.fds, o.maps⟩

/-- The system calls of `mctp_astlpc_init_fileio`, in order: opening the LPC control device, asking for the size,
mapping the firmware window, mapping the memory; after closing the device, opening the KCS device. -/
def LpcOk (o : Os) : Prop :=
  o.ok o.calls ∧ o.ok (o.calls + 1) ∧ o.ok (o.calls + 2) ∧ o.ok (o.calls + 3) ∧ u32 (o.size (o.calls + 1)) ≠ 0

def KcsOk (o : Os) : Prop := o.ok (o.calls + 5)

theorem initFileioLpc_ok {f : AstFile} {o : Os} (h : LpcOk o) :
    initFileioLpc f o = (0, { f with lpcMap := some (o.calls + 3, (u32 (o.size (o.calls + 1)) : Int) - lpcWinSize) },
      { o with calls := o.calls + 5, maps := (o.calls + 3, u32 (o.size (o.calls + 1))) :: o.maps,
               window := some (fwAddr (u32 (o.size (o.calls + 1))), u32 (o.size (o.calls + 1))) }) := by
  obtain ⟨h0, h1, h2, h3, h4⟩ := h
  simp [initFileioLpc, Os.open, Os.ioctlSize, Os.ioctlMap, Os.mmap, Os.close, h0, h1, h2, h3, h4]

theorem initFileioLpc_fail {f : AstFile} {o : Os} (h : ¬ LpcOk o) :
    ∃ o', initFileioLpc f o = (-1, f, o') ∧ o'.fds = o.fds ∧ o'.maps = o.maps := by
  unfold LpcOk at h
  by_cases h0 : o.ok o.calls
  · by_cases h1 : o.ok (o.calls + 1)
    · by_cases h2 : o.ok (o.calls + 2)
      · by_cases h3 : o.ok (o.calls + 3)
        · have h4 : u32 (o.size (o.calls + 1)) = 0 := by
            by_cases h4 : u32 (o.size (o.calls + 1)) = 0
            · exact h4
            · exact absurd ⟨h0, h1, h2, h3, h4⟩ h
          simp [initFileioLpc, Os.open, Os.ioctlSize, Os.ioctlMap, Os.mmap, Os.close, h0, h1, h2, h3, h4]
        · simp [initFileioLpc, Os.open, Os.ioctlSize, Os.ioctlMap, Os.mmap, Os.close, h0, h1, h2, h3]
      · simp [initFileioLpc, Os.open, Os.ioctlSize, Os.ioctlMap, Os.mmap, Os.close, h0, h1, h2]
    · simp [initFileioLpc, Os.open, Os.ioctlSize, Os.ioctlMap, Os.mmap, Os.close, h0, h1]
  · simp [initFileioLpc, Os.open, Os.ioctlSize, Os.ioctlMap, Os.mmap, Os.close, h0]

theorem initFileio_ok (custom : Bool) {mem : Mem} {o : Os} (hm : mem.ok mem.next) (hl : LpcOk o) (hk : KcsOk o) :
    initFileio custom mem o =
      .ok (some ⟨mem.next, some (o.calls + 3, (u32 (o.size (o.calls + 1)) : Int) - lpcWinSize), some (o.calls + 5)⟩,
        { mem with next := mem.next + 1, live := mem.next :: mem.live },
        { o with calls := o.calls + 6, fds := (o.calls + 5) :: o.fds,
                 maps := (o.calls + 3, u32 (o.size (o.calls + 1))) :: o.maps,
                 window := some (fwAddr (u32 (o.size (o.calls + 1))), u32 (o.size (o.calls + 1))) }) := by
  have hk : o.ok (o.calls + 5) = true := hk
  unfold initFileio Mem.alloc
  rw [if_pos hm]
  simp only [initFileioLpc_ok hl, initFileioKcs, Os.open, hk]
  rfl

theorem initFileio_kcs {mem : Mem} {o : Os} (hm : mem.ok mem.next) (hl : LpcOk o) (hk : ¬ KcsOk o) :
    initFileio false mem o =
      .ok (none, { mem with next := mem.next + 1 },
        { o with calls := o.calls + 6, maps := (o.calls + 3, u32 (o.size (o.calls + 1))) :: o.maps,
                 window := some (fwAddr (u32 (o.size (o.calls + 1))), u32 (o.size (o.calls + 1))) }) := by
  have hk : o.ok (o.calls + 5) = false := by simpa [KcsOk] using hk
  unfold initFileio Mem.alloc
  rw [if_pos hm]
  simp only [initFileioLpc_ok hl, initFileioKcs, Os.open, hk]
  simp [libcFree, Mem.free, Bind.bind, Except.bind]

/-! ## C86: the resources of a file-backed astlpc binding -/

/-- C86, success: a binding is returned exactly if the allocation and all system calls succeed; the process then
holds one more block, one more descriptor (that of the KCS device) and one more mapping (all of the reserved
memory), and all three are in the binding. -/
theorem C86_created {mem : Mem} {o : Os} (custom : Bool) :
    (∃ f mem' o', initFileio custom mem o = .ok (some f, mem', o')) ↔ (mem.ok mem.next ∧ LpcOk o ∧ KcsOk o) := by
  constructor
  · rintro ⟨f, mem', o', h⟩
    unfold initFileio Mem.alloc at h
    by_cases hm : mem.ok mem.next
    · rw [if_pos hm] at h
      by_cases hl : LpcOk o
      · refine ⟨hm, hl, ?_⟩
        simp only [initFileioLpc_ok hl] at h
        by_cases hk : o.ok (o.calls + 5)
        · exact hk
        · exfalso
          simp only [initFileioKcs, Os.open, hk] at h
          cases custom <;> simp [libcFree, Mem.free, Bind.bind, Except.bind] at h
      · obtain ⟨o1, h1, -, -⟩ := initFileioLpc_fail (f := { block := mem.next, lpcMap := none, kcsFd := none }) hl
        simp only [h1] at h
        exfalso
        cases custom <;> simp [libcFree, Mem.free, Bind.bind, Except.bind] at h
    · rw [if_neg hm] at h
      simp at h
  · rintro ⟨hm, hl, hk⟩
    exact ⟨_, _, _, initFileio_ok custom hm hl hk⟩

theorem C86_holds {custom : Bool} {mem mem' : Mem} {o o' : Os} {f : AstFile}
    (h : initFileio custom mem o = .ok (some f, mem', o')) :
    ∃ (fd m size : Nat), f.kcsFd = some fd ∧ f.lpcMap = some (m, (size : Int) - winSize) ∧
      o'.window = some (fwAddr size, size) ∧ size = u32 (o.size (o.calls + 1)) ∧
      held mem' o' = ⟨f.block :: mem.live, fd :: o.fds, (m, size) :: o.maps⟩ := by
  obtain ⟨hm, hl, hk⟩ := (C86_created custom).mp ⟨f, mem', o', h⟩
  rw [initFileio_ok custom hm hl hk] at h
  simp only [Except.ok.injEq, Prod.mk.injEq, Option.some.injEq] at h
  obtain ⟨rfl, rfl, rfl⟩ := h
  exact ⟨_, _, _, rfl, rfl, rfl, rfl, rfl⟩

/-- C86, failure, with the default allocator: what is held is what was held before, except for the mapping if it
is the KCS device that cannot be opened. -/
theorem C86_failed_partial {mem mem' : Mem} {o o' : Os} (h : initFileio false mem o = .ok (none, mem', o'))
    (hleak : ¬ (mem.ok mem.next ∧ LpcOk o ∧ ¬ KcsOk o)) : held mem' o' = held mem o := by
  unfold initFileio Mem.alloc at h
  by_cases hm : mem.ok mem.next
  · rw [if_pos hm] at h
    by_cases hl : LpcOk o
    · exfalso
      have hk : o.ok (o.calls + 5) = true := Classical.byContradiction fun hk => hleak ⟨hm, hl, hk⟩
      simp only [initFileioLpc_ok hl, initFileioKcs, Os.open, hk] at h
      simp at h
    · obtain ⟨o1, h1, h2, h3⟩ := initFileioLpc_fail (f := { block := mem.next, lpcMap := none, kcsFd := none }) hl
      simp only [h1] at h
      simp [libcFree, Mem.free, Bind.bind, Except.bind] at h
      obtain ⟨rfl, rfl⟩ := h
      simp [held, h2, h3]
  · rw [if_neg hm] at h
    simp at h
    obtain ⟨rfl, rfl⟩ := h
    rfl

/-- The call always returns with the default allocator. -/
theorem C86_returns (mem : Mem) (o : Os) : ∃ r, initFileio false mem o = .ok r := by
  unfold initFileio Mem.alloc
  by_cases hm : mem.ok mem.next
  · rw [if_pos hm]
    by_cases hl : LpcOk o
    · simp only [initFileioLpc_ok hl, initFileioKcs, Os.open]
      by_cases hk : o.ok (o.calls + 5) <;> simp [hk, libcFree, Mem.free, Bind.bind, Except.bind]
    · obtain ⟨o1, h1, h2, h3⟩ := initFileioLpc_fail (f := { block := mem.next, lpcMap := none, kcsFd := none }) hl
      simp [h1, libcFree, Mem.free, Bind.bind, Except.bind]
  · rw [if_neg hm]
    exact ⟨_, rfl⟩

/-- C86 does not hold (1): when the KCS device cannot be opened, the memory stays mapped although no binding is
returned. -/
theorem C86_mapping_leaks {mem : Mem} {o : Os} (hm : mem.ok mem.next) (hl : LpcOk o) (hk : ¬ KcsOk o) :
    ∃ mem' o' m size, initFileio false mem o = .ok (none, mem', o') ∧
      held mem' o' = ⟨mem.live, o.fds, (m, size) :: o.maps⟩ := by
  exact ⟨_, _, _, _, initFileio_kcs hm hl hk, rfl⟩

/-- C86 does not hold (2): destroying a binding that was created leaves its descriptor open and its mapping in
place. -/
theorem C86_destroy_leaks {mem mem1 mem2 : Mem} {o o1 o2 : Os} {f : AstFile}
    (h : initFileio false mem o = .ok (some f, mem1, o1)) (hd : destroyFileio f mem1 o1 = .ok (mem2, o2)) :
    ∃ fd m size, held mem2 o2 = ⟨mem.live, fd :: o.fds, (m, size) :: o.maps⟩ := by
  obtain ⟨fd, m, size, -, -, -, -, hh⟩ := C86_holds h
  obtain ⟨h1, h2, h3⟩ : mem1.live = f.block :: mem.live ∧ o1.fds = fd :: o.fds ∧ o1.maps = (m, size) :: o.maps := by
    simpa [held] using hh
  simp [destroyFileio, Mem.free, h1, Bind.bind, Except.bind] at hd
  obtain ⟨rfl, rfl⟩ := hd
  exact ⟨fd, m, size, by simp [held, h2, h3]⟩

/-- C86 does not hold (3): with allocation functions of the application, a failed call gives a block obtained from
them to `free` of the C library. -/
theorem C86_wrong_allocator {mem : Mem} {o : Os} (hm : mem.ok mem.next) (hf : ¬ (LpcOk o ∧ KcsOk o)) :
    initFileio true mem o = .error .doubleFree := by
  unfold initFileio Mem.alloc
  rw [if_pos hm]
  by_cases hl : LpcOk o
  · have hk : o.ok (o.calls + 5) = false := by simpa [KcsOk, hl] using hf
    simp only [initFileioLpc_ok hl, initFileioKcs, Os.open, hk]
    rfl
  · obtain ⟨o1, h1, -, -⟩ := initFileioLpc_fail (f := { block := mem.next, lpcMap := none, kcsFd := none }) hl
    simp only [h1]
    rfl

/-- An operating system in which everything works, with 16 MiB of reserved memory. -/
def Demo.os16 : Os := { ok := fun _ => true, size := fun _ => 0x1000000, calls := 2, fds := [0, 1] }

example : (initFileio false {} Demo.os16).toOption.map (fun r => (r.1, held r.2.1 r.2.2, r.2.2.window)) =
    some (some ⟨0, some (5, 15728640), some 7⟩, ⟨[0], [7, 0, 1], [(5, 0x1000000)]⟩, some (0x0F000000, 0x1000000)) := by
  decide +kernel

example : (initFileio false {} { Demo.os16 with ok := fun k => decide (k ≠ 7) }).toOption.map
    (fun r => (r.1, held r.2.1 r.2.2)) = some (none, ⟨[], [0, 1], [(5, 0x1000000)]⟩) := by
  decide +kernel

example : (initFileio false {} { Demo.os16 with ok := fun k => decide (k ≠ 4) }).toOption.map
    (fun r => (r.1, held r.2.1 r.2.2)) = some (none, ⟨[], [0, 1], []⟩) := by
  decide +kernel

/-! ## C87: where the window is -/

theorem fwAddr_eq {size : Nat} (h1 : 0 < size) (h2 : size ≤ 2 ^ 28) : fwAddr size = 2 ^ 28 - size := by
  unfold fwAddr usub32
  rw [Nat.and_comm]
  show ((0 + 2 ^ 32 - size) % 2 ^ 32) &&& (2 ^ 28 - 1) = _
  rw [Nat.and_two_pow_sub_one_eq_mod]
  omega

/-- C87: when a binding was created and the reserved memory is not larger than the firmware address space, all of
the reserved memory is visible to the host at the end of that space, and the byte at offset `off` of the window is
the byte at the firmware address `0x0FF00000 + off`: `at` is its place in the mapping, `addr` the first firmware
address of the reserved memory. -/
theorem C87_window {custom : Bool} {mem mem' : Mem} {o o' : Os} {f : AstFile}
    (h : initFileio custom mem o = .ok (some f, mem', o')) {m size : Nat} {maps : List (Nat × Nat)}
    (hmap : o'.maps = (m, size) :: maps) (hsize : size ≤ fwEnd) :
    ∃ addr start, o'.window = some (addr, size) ∧ addr + size = fwEnd ∧ f.lpcMap = some (m, start) ∧
      ∀ off : Nat, (addr : Int) + (start + off) = 0x0FF00000 + off := by
  obtain ⟨fd, m1, size1, -, hl, hw, hs, hh⟩ := C86_holds h
  obtain ⟨-, -, h3⟩ : mem'.live = f.block :: mem.live ∧ o'.fds = fd :: o.fds ∧ o'.maps = (m1, size1) :: o.maps := by
    simpa [held] using hh
  rw [h3] at hmap
  simp only [List.cons.injEq, Prod.mk.injEq] at hmap
  obtain ⟨⟨rfl, rfl⟩, -⟩ := hmap
  obtain ⟨-, ⟨-, -, -, -, hne⟩, -⟩ := (C86_created custom).mp ⟨f, mem', o', h⟩
  have hpos : 0 < size1 := by omega
  have hfw := fwAddr_eq hpos hsize
  refine ⟨_, _, hw, ?_, hl, ?_⟩
  · rw [hfw]; unfold fwEnd at *; omega
  · intro off
    rw [hfw]
    simp only [winSize, fwEnd] at *
    omega

/-! ## C88: accesses stay inside the mapping -/

/-- The place in the mapping of an access to the window, with its length, for the pointer `start`. -/
def placed (start : Int) : Access → Option (Int × Nat)
  | .lpcRead off bs _ => some (start + off, bs.length)
  | .lpcWrite off bs _ => some (start + off, bs.length)
  | _ => none

/-- C88 for reserved memory of at least one MiB: an endpoint made with a file-backed binding never touches a byte
outside the mapping, whatever the host does. -/
theorem C88_inside_partial {E : Type} {custom : Bool} {mem0 mem1 : Mem} {o o' : Os} {f : AstFile}
    (hi : initFileio custom mem0 o = .ok (some f, mem1, o')) {m size : Nat} {maps : List (Nat × Nat)} {start : Int}
    (hmap : o'.maps = (m, size) :: maps) (hf : f.lpcMap = some (m, start)) (hsize : winSize ≤ size)
    {dev : KcsFile E} {env : E} {eid : Byte} {mx : Nat} {mem : Mem} {c0 c : Core (AstSt E)}
    (h : AstEndpoint (fileHw dev) env eid mx .bmc 0 mem c0) {hist : List AstOp} {log : List AstRec}
    (hr : c0.astRun (fileHw dev) hist = .ok (c, log)) :
    ∀ a ∈ accessesOf c, ∀ p len, placed start a = some (p, len) → InMapping size p len := by
  obtain ⟨fd, m1, size1, -, hl, -, -, hh⟩ := C86_holds hi
  obtain ⟨-, -, h3⟩ : mem1.live = f.block :: mem0.live ∧ o'.fds = fd :: o.fds ∧ o'.maps = (m1, size1) :: o.maps := by
    simpa [held] using hh
  rw [h3] at hmap
  simp only [List.cons.injEq, Prod.mk.injEq] at hmap
  obtain ⟨⟨rfl, rfl⟩, -⟩ := hmap
  rw [hl] at hf
  simp only [Option.some.injEq, Prod.mk.injEq, true_and] at hf
  subst hf
  have hb := C53_bounds h hr
  have key : ∀ off len : Nat, off + len ≤ winSize → InMapping size1 ((size1 : Int) - winSize + off) len := by
    intro off len hle
    unfold InMapping
    simp only [winSize] at *
    omega
  intro a ha p len hp
  have ha : ∃ x ∈ loggedOf c, x.acc = a := by
    simp only [accessesOf, List.mem_flatMap, List.mem_map] at ha
    obtain ⟨b, hb1, x, hx, rfl⟩ := ha
    exact ⟨x, by simp only [loggedOf, List.mem_flatMap]; exact ⟨b, hb1, hx⟩, rfl⟩
  obtain ⟨x, hx, rfl⟩ := ha
  have hin := hb x hx
  unfold InBounds at hin
  cases hacc : x.acc with
  | kcsRead => rw [hacc] at hp; simp [placed] at hp
  | kcsWrite => rw [hacc] at hp; simp [placed] at hp
  | lpcRead off bs rc =>
    rw [hacc] at hp hin
    simp only [placed, Option.some.injEq, Prod.mk.injEq] at hp
    obtain ⟨rfl, rfl⟩ := hp
    apply key
    simp only [Within, SafeLayout, SafeBuffer, InWindow, winSize] at *
    omega
  | lpcWrite off bs rc =>
    rw [hacc] at hp hin
    simp only [placed, Option.some.injEq, Prod.mk.injEq] at hp
    obtain ⟨rfl, rfl⟩ := hp
    apply key
    simp only [Within, SafeLayout, SafeBuffer, InWindow, winSize] at *
    omega

/-- C88 does not hold for smaller reserved memory: the very first access of every endpoint, the header written when the
binding is registered, is before the start of the mapping. -/
theorem C88_outside {E : Type} {custom : Bool} {mem0 mem1 : Mem} {o o' : Os} {f : AstFile}
    (hi : initFileio custom mem0 o = .ok (some f, mem1, o')) {m size : Nat} {maps : List (Nat × Nat)} {start : Int}
    (hmap : o'.maps = (m, size) :: maps) (hf : f.lpcMap = some (m, start)) (hsize : size < winSize)
    {dev : KcsFile E} {env : E} {eid : Byte} {mx : Nat} {mem : Mem} {c0 : Core (AstSt E)}
    (h : AstEndpoint (fileHw dev) env eid mx .bmc 0 mem c0) :
    ∃ a rest p, accessesOf c0 = a :: rest ∧ placed start a = some (p, 32) ∧ p < 0 := by
  obtain ⟨fd, m1, size1, -, hl, -, -, hh⟩ := C86_holds hi
  obtain ⟨-, -, h3⟩ : mem1.live = f.block :: mem0.live ∧ o'.fds = fd :: o.fds ∧ o'.maps = (m1, size1) :: o.maps := by
    simpa [held] using hh
  rw [h3] at hmap
  simp only [List.cons.injEq, Prod.mk.injEq] at hmap
  obtain ⟨⟨rfl, rfl⟩, -⟩ := hmap
  rw [hl] at hf
  simp only [Option.some.injEq, Prod.mk.injEq, true_and] at hf
  subst hf
  obtain ⟨off1, size1', off2, size2, r, ha, -⟩ := C50_published h
  refine ⟨_, _, _, ha, rfl, ?_⟩
  simp only [winSize] at *
  omega

/-! ## C89: waiting on the KCS device file -/

theorem astRetry_none {E : Type} {hw : Hw E} {s : AstSt E} (h : astPollOut s = false) : astRetry hw s = s := by
  simp only [astPollOut, decide_eq_false_iff_not, not_or] at h
  unfold astRetry
  simp only [if_neg h.1, if_neg h.2]

theorem fileReady_in (v : Byte) : kcsReady .bmc v false = FileReady false v := by
  revert v; decide

/-- The accesses of a poll: those of the deferred hand-overs, a read of the status register, and if that shows input
a read of the data register. -/
theorem poll_reads {E : Type} {hw : Hw E} {mode : AstMode} {mtu : Nat} {c c' : Core (AstSt E)} {bus bus' : Bus (AstSt E)}
    {e : List Event} {rc : Int} (hb : c.busses = [bus]) (hbr : c.bridge = false) (hj : AstJ mode mtu bus)
    (hp : c.astPoll hw 0 = .ok (c', e, rc)) (hb' : c'.busses = [bus']) :
    ∃ r v, (∃ s, Adds (astRetry hw bus.binding.st) bus'.binding.st [.kcsRead .status r v] ∧
          SameSt (astRetry hw bus.binding.st) s ∧ (r ≠ 0 ∨ kcsReady bus.binding.st.mode v false = false) ∧
          rc = (if r = 0 then 0 else -1) ∧ e = [] ∧
          c' = { c with busses := [{ bus with binding := { bus.binding with st := s } }] }) ∨
      (r = 0 ∧ kcsReady bus.binding.st.mode v false = true ∧ ∃ r' d rest,
        Adds (astRetry hw bus.binding.st) bus'.binding.st (.kcsRead .status 0 v :: .kcsRead .data r' d :: rest)) := by
  obtain ⟨-, hcase⟩ := astPoll_view hb hj hp
  rcases hcase with ⟨r, w, s, hs, ha, hj1, hcond, hrc, rfl, rfl⟩ | ⟨w, r, d', s, hs, ha, hj1, hrd, hcase⟩
  · simp only [List.cons.injEq, and_true] at hb'
    subst hb'
    exact ⟨r, w, .inl ⟨s, ha, hs, hcond, hrc, rfl, rfl⟩⟩
  · refine ⟨0, w, .inr ⟨rfl, hrd, r, d', ?_⟩⟩
    rcases hcase with ⟨hcond, hrc, rfl, rfl⟩ | ⟨rfl, hver, hw1, c1, e1, rc1, stop, hcmd, hfin⟩
    · simp only [List.cons.injEq, and_true] at hb'
      subst hb'; exact ⟨[], ha⟩
    · obtain ⟨bus2, m1, t1, hc1, hj2⟩ := astCommand_frame rfl (by exact hbr) hj1 hw1 hcmd
      obtain ⟨b1, hb1, k1, g1, -⟩ := astCommand_growC rfl (by exact hbr) hj1 hw1 hcmd
      rcases hfin with ⟨-, rfl, -⟩ | ⟨-, e2, haf, -⟩
      · rw [hb'] at hb1; simp only [List.cons.injEq, and_true] at hb1; subst hb1
        exact ⟨_, ha.trans g1⟩
      · have hb1' : c1.busses = [bus2] := by rw [hc1]
        have : b1 = bus2 := by rw [hb1] at hb1'; simpa using hb1'
        subst this
        obtain ⟨b2, hb2, k2, g2, -⟩ := astAfter_growC hb1' hj2 haf
        rw [hb'] at hb2; simp only [List.cons.injEq, and_true] at hb2; subst hb2
        exact ⟨_, by simpa using (ha.trans g1).trans g2⟩

/-- C89: when POLLIN is asked for and there is no input, `mctp_astlpc_poll` would do nothing: one read of the status
register, no packet and no command, no change of the core or of the buffers. -/
theorem C89_nothing_missed {E : Type} {hw : Hw E} {env : E} {eid : Byte} {mx : Nat} {mtu : Nat} {mem : Mem}
    {c0 c c' : Core (AstSt E)} (h : AstEndpoint hw env eid mx .bmc mtu mem c0) {hist : List AstOp} {log : List AstRec}
    (hr : c0.astRun hw hist = .ok (c, log)) {bus : Bus (AstSt E)} (hb : c.busses = [bus])
    (hin : astPollOut bus.binding.st = false) {e : List Event} {rc : Int}
    (hp : c.astStep hw .poll = .ok (c', e, rc)) {v : Byte} {post : List Access}
    (hnew : accessesOf c' = accessesOf c ++ .kcsRead .status 0 v :: post) (hv : FileReady false v = false) :
    post = [] ∧ e = [] ∧ rc = 0 ∧
      ∃ s, SameSt bus.binding.st s ∧ c' = { c with busses := [{ bus with binding := { bus.binding with st := s } }] } := by
  obtain ⟨bus1, hb1, hbr, hj⟩ := h.reached hr
  have : bus1 = bus := by rw [hb] at hb1; simpa using hb1.symm
  subst this
  obtain ⟨bus', hb', -, -⟩ := astStep_inv hb hbr hj hp
  have hp : c.astPoll hw 0 = .ok (c', e, rc) := hp
  have hmode : bus1.binding.st.mode = .bmc := hj.1.mode
  rw [accessesOf_single hb, accessesOf_single hb'] at hnew
  obtain ⟨r, w, hcase⟩ := poll_reads hb hbr hj hp hb'
  rw [astRetry_none hin, hmode] at hcase
  rcases hcase with ⟨s, ha, hs, hcond, hrc, he, hc⟩ | ⟨-, hrd, r', d, rest, ha⟩
  · have hl := Adds.inj hnew ha
    simp only [List.cons.injEq, Access.kcsRead.injEq, true_and] at hl
    obtain ⟨⟨rfl, rfl⟩, rfl⟩ := hl
    exact ⟨rfl, he, by simpa using hrc, s, hs, hc⟩
  · have hl := Adds.inj hnew ha
    simp only [List.cons.injEq, Access.kcsRead.injEq, true_and] at hl
    obtain ⟨rfl, -⟩ := hl
    rw [fileReady_in, hv] at hrd
    cases hrd

/-- C89: when POLLIN is asked for and there is input, the next poll reads it. -/
theorem C89_input_read {E : Type} {hw : Hw E} {env : E} {eid : Byte} {mx : Nat} {mtu : Nat} {mem : Mem}
    {c0 c c' : Core (AstSt E)} (h : AstEndpoint hw env eid mx .bmc mtu mem c0) {hist : List AstOp} {log : List AstRec}
    (hr : c0.astRun hw hist = .ok (c, log)) {bus : Bus (AstSt E)} (hb : c.busses = [bus])
    (hin : astPollOut bus.binding.st = false) {e : List Event} {rc : Int}
    (hp : c.astStep hw .poll = .ok (c', e, rc)) {v : Byte} {post : List Access}
    (hnew : accessesOf c' = accessesOf c ++ .kcsRead .status 0 v :: post) (hv : FileReady false v = true) :
    ∃ r d rest, post = .kcsRead .data r d :: rest := by
  obtain ⟨bus1, hb1, hbr, hj⟩ := h.reached hr
  have : bus1 = bus := by rw [hb] at hb1; simpa using hb1.symm
  subst this
  obtain ⟨bus', hb', -, -⟩ := astStep_inv hb hbr hj hp
  have hp : c.astPoll hw 0 = .ok (c', e, rc) := hp
  have hmode : bus1.binding.st.mode = .bmc := hj.1.mode
  rw [accessesOf_single hb, accessesOf_single hb'] at hnew
  obtain ⟨r, w, hcase⟩ := poll_reads hb hbr hj hp hb'
  rw [astRetry_none hin, hmode] at hcase
  rcases hcase with ⟨s, ha, hs, hcond, hrc, he, hc⟩ | ⟨-, hrd, r', d, rest, ha⟩
  · have hl := Adds.inj hnew ha
    simp only [List.cons.injEq, Access.kcsRead.injEq, true_and] at hl
    obtain ⟨⟨rfl, rfl⟩, rfl⟩ := hl
    rw [fileReady_in, hv] at hcond
    simp at hcond
  · have hl := Adds.inj hnew ha
    simp only [List.cons.injEq, Access.kcsRead.injEq, true_and] at hl
    exact ⟨_, _, _, hl.2⟩

/-- C89: when POLLOUT is asked for and the output register has been read, the next poll writes a hand-over command. -/
theorem C89_output_written {E : Type} {hw : Hw E} {env : E} {eid : Byte} {mx : Nat} {mtu : Nat} {mem : Mem}
    {c0 c c' : Core (AstSt E)} (h : AstEndpoint hw env eid mx .bmc mtu mem c0) {hist : List AstOp} {log : List AstRec}
    (hr : c0.astRun hw hist = .ok (c, log)) {bus : Bus (AstSt E)} (hb : c.busses = [bus])
    (hout : astPollOut bus.binding.st = true) {e : List Event} {rc : Int}
    (hp : c.astStep hw .poll = .ok (c', e, rc)) {v : Byte} {post : List Access}
    (hnew : accessesOf c' = accessesOf c ++ .kcsRead .status 0 v :: post) (hv : FileReady true v = true) :
    ∃ cmd r rest, post = .kcsWrite .data cmd r :: rest ∧ (cmd = 1 ∨ cmd = 2) := by
  obtain ⟨l1, l2, rest, ha, h1, h2⟩ := C59_retry h hr hb hp
  rw [hnew] at ha
  have hl := List.append_cancel_left ha
  have hv' : outputFull .bmc v = false := by
    revert hv; revert v; intro v; intros; rename_i hv
    have : ∀ v : Byte, FileReady true v = true → outputFull .bmc v = false := by decide
    exact this v hv
  have one : ∀ {cmd : Byte} {l tl : List Access}, (∃ r v, l = [.kcsRead .status r v] ∧ (r ≠ 0 ∨ outputFull .bmc v = true)) ∨
      (∃ v r, l = [.kcsRead .status 0 v, .kcsWrite .data cmd r] ∧ outputFull .bmc v = false) →
      .kcsRead .status 0 v :: post = l ++ tl → ∃ r rest, post = .kcsWrite .data cmd r :: rest := by
    intro cmd l tl hcase heq
    rcases hcase with ⟨r, w, rfl, hw'⟩ | ⟨w, r, rfl, -⟩
    · simp only [List.cons_append, List.nil_append, List.cons.injEq, Access.kcsRead.injEq, true_and] at heq
      obtain ⟨⟨rfl, rfl⟩, -⟩ := heq
      rw [hv'] at hw'
      simp at hw'
    · simp only [List.cons_append, List.nil_append, List.cons.injEq, Access.kcsRead.injEq, true_and] at heq
      exact ⟨_, _, heq.2⟩
  by_cases hrx : bus.binding.st.rx.state = .prepared
  · rw [if_pos hrx] at h1
    rw [List.append_assoc] at hl
    obtain ⟨r, rest, hh⟩ := one h1 hl
    exact ⟨2, r, rest, hh, .inr rfl⟩
  · rw [if_neg hrx] at h1
    have htx : bus.binding.st.tx.state = .prepared := by
      simp only [astPollOut, decide_eq_true_eq] at hout
      exact hout.resolve_left hrx
    rw [if_pos htx] at h2
    subst h1
    obtain ⟨r, rest, hh⟩ := one h2 hl
    exact ⟨1, r, rest, hh, .inl rfl⟩


/-- A BMC on an established channel that sends while the output register is full and then finds a packet of the
host. -/
def AstDemo.waitScript : AstDemo.Script :=
  { stat := [(0, 2), (0, 1), (0, 3), (0, 3), (0, 3)], data := [(0, 0), (0, 1)],
    reads := [AstDemo.hdr64, AstDemo.hdr64, be32 5, [1, 8, 9, 0xc8, 1] ++ be32 (crc32 [1, 8, 9, 0xc8, 1]).toNat] }

/-- The hypotheses of the positive parts are met: POLLOUT after the send; the register is then read, and the next poll
writes the deferred command. -/
example : (AstDemo.look .bmc 64 { AstDemo.waitScript with stat := [(0, 2), (0, 1), (0, 0)] } [.poll, .send 9 true 1 [6], .poll]).map
      (fun x => (x.2.1.drop 13, x.2.2.2.2)) =
    some ([.kcsRead .status 0 1, .kcsRead .status 0 0, .kcsWrite .data 1 0, .kcsRead .status 0 0], .released, .released) ∧
    FileReady true 0 = true := by
  decide +kernel

/-- C89 does not hold: a program that waits for POLLOUT is not woken by a packet of the host.  After the send a command
is deferred, so POLLOUT is asked for; the device is not ready to be written in any of the three status values that
follow, yet a poll would deliver the packet. -/
theorem C89_packet_waits :
    (AstDemo.look .bmc 64 AstDemo.waitScript [.poll, .send 9 true 1 [6]]).map (fun x => x.2.2.2.2) =
      some (.released, .prepared) ∧
    (∀ v ∈ [(3 : Byte)], FileReady true v = false) ∧
    (AstDemo.look .bmc 64 AstDemo.waitScript [.poll, .send 9 true 1 [6], .poll]).map
        (fun x => (x.2.1.drop 14, x.1.map fun r => packetsIn r.evs)) =
      some ([.kcsRead .status 0 3, .kcsRead .status 0 3, .kcsRead .data 0 1, .lpcRead 332 (be32 5) 0,
          .lpcRead 336 ([1, 8, 9, 0xc8, 1] ++ be32 (crc32 [1, 8, 9, 0xc8, 1]).toNat) 0, .kcsRead .status 0 3],
        [[], [], [[1, 8, 9, 0xc8, 1]]]) := by
  decide +kernel

/-! ## C90: serial devices -/

/-- C90: creating the binding needs one block, and crashes when there is none. -/
theorem C90_init (mem : Mem) :
    (mem.ok mem.next = false → serialFileInit mem = .error .nullDeref) ∧
    (mem.ok mem.next = true → ∃ f mem', serialFileInit mem = .ok (f, mem') ∧ f.fd = none ∧ mem'.live = f.block :: mem.live) := by
  constructor
  · intro h; simp [serialFileInit, Mem.alloc, h]
  · intro h
    exact ⟨_, _, by simp only [serialFileInit, Mem.alloc, h]; rfl, rfl, rfl⟩

/-- C90, the part that holds: when the device can be opened, the call returns 0 and the binding has the new descriptor. -/
theorem C90_opened_partial {f : SerialFile} {o : Os} (h : o.ok o.calls = true) :
    ∃ f' o' fd, serialOpenPath f o = (0, f', o') ∧ f'.fd = some fd ∧ o'.fds = fd :: o.fds := by
  exact ⟨_, _, _, by simp only [serialOpenPath, Os.open, h]; rfl, rfl, rfl⟩

/-- C90 does not hold (1): a device that cannot be opened is not reported. -/
theorem C90_unreported {f : SerialFile} {o : Os} (h : o.ok o.calls = false) :
    ∃ f' o', serialOpenPath f o = (0, f', o') ∧ f'.fd = none ∧ o'.fds = o.fds := by
  exact ⟨{ f with fd := none }, { o with calls := o.calls + 1 }, by simp [serialOpenPath, Os.open, h], rfl, rfl⟩

/-- ... and afterwards no packet gets out: every one that fits a frame fails with -EBADF, and not a byte is written. -/
theorem C90_nothing_written {f : SerialFile} (hf : f.fd = none) {dev : Nat → List Byte → Int} {b : Binding SerialSt}
    (hw : b.st.wr = serialFileWrite f dev) (hpat : 0 < b.st.patience) {pkt : Pktbuf} {out : TxOut SerialSt}
    (h : serialTx b pkt = .ok out) : (out.rc = -9 ∨ out.rc = -90) ∧ out.st.wire = b.st.wire := by
  unfold serialTx at h
  obtain ⟨t0, -, h⟩ := Res.bind_eq_ok.mp h
  obtain ⟨t1, -, h⟩ := Res.bind_eq_ok.mp h
  obtain ⟨t2, -, h⟩ := Res.bind_eq_ok.mp h
  obtain ⟨body, -, h⟩ := Res.bind_eq_ok.mp h
  obtain ⟨⟨a1, len1⟩, -, h⟩ := Res.bind_eq_ok.mp h
  simp only at h
  split at h
  · simp only [Except.ok.injEq] at h
    subst h
    exact ⟨.inr rfl, rfl⟩
  · rename_i hlen
    obtain ⟨⟨t3, n3⟩, -, h⟩ := Res.bind_eq_ok.mp h
    obtain ⟨t4, h4, h⟩ := Res.bind_eq_ok.mp h
    obtain ⟨t5, h5, h⟩ := Res.bind_eq_ok.mp h
    obtain ⟨t6, h6, h⟩ := Res.bind_eq_ok.mp h
    obtain ⟨⟨rc, k, wire⟩, hwa, h⟩ := Res.bind_eq_ok.mp h
    simp only [Except.ok.injEq] at h
    subst h
    have hne : t6.take (len1 + 6) ≠ [] := by
      unfold store at h6
      split at h6
      · rename_i hlt
        simp only [Except.ok.injEq] at h6
        subst h6
        intro hnil
        have := congrArg List.length hnil
        rw [List.length_take, List.length_set, List.length_nil] at this
        omega
      · cases h6
    obtain ⟨p, hp⟩ : ∃ p, b.st.patience = p + 1 := ⟨b.st.patience - 1, by omega⟩
    match hl : t6.take (len1 + 6), hne with
    | x :: xs, _ =>
      rw [hl, hp, hw] at hwa
      simp only [writeAll, serialFileWrite, hf] at hwa
      rw [if_pos (by decide)] at hwa
      simp only [Except.ok.injEq, Prod.mk.injEq] at hwa
      obtain ⟨rfl, rfl, rfl⟩ := hwa
      exact ⟨.inl rfl, rfl⟩

/-- C90: `mctp_serial_read` returns -1 and changes nothing when nothing could be read; otherwise it passes all the bytes
read, in order, to the receiver (C38) and returns 0. -/
theorem C90_read (c : Core SerialSt) (i : Nat) (f : SerialFile) (got : Option (List Byte))
    (hlen : ∀ bs, got = some bs → bs.length ≤ 1024) :
    (f.fd = none ∨ got = none ∨ got = some [] → c.serialFileRead i f got = .ok (c, [], -1)) ∧
    (∀ fd bs, f.fd = some fd → got = some bs → bs ≠ [] →
      ∀ c' e rc, c.serialFileRead i f got = .ok (c', e, rc) ↔ (c.serialRx i bs = .ok (c', e) ∧ rc = 0)) := by
  constructor
  · intro h
    unfold Core.serialFileRead
    split
    · rfl
    · rfl
    · rfl
    · rename_i fd b bs h1
      simp_all
  · intro fd bs hfd hg hne c' e rc
    cases bs with
    | nil => exact absurd rfl hne
    | cons b bs =>
      have hl := hlen _ hg
      unfold Core.serialFileRead
      rw [hfd, hg]
      simp only
      rw [List.take_of_length_le hl]
      unfold Core.serialRead
      simp only
      constructor
      · intro h
        obtain ⟨⟨c1, e1⟩, h1, h2⟩ := Res.bind_eq_ok.mp h
        simp only [Except.ok.injEq, Prod.mk.injEq] at h2
        obtain ⟨rfl, rfl, rfl⟩ := h2
        exact ⟨h1, rfl⟩
      · rintro ⟨h1, rfl⟩
        rw [h1]; rfl

/-- C90: a binding that was given a descriptor (`mctp_serial_open_fd`), whatever it had before, also right after
`mctp_serial_init`, uses it: every write of the transmit path goes to the device behind it, and `mctp_serial_read` passes
all the bytes read from it to the receiver. -/
theorem C90_given (f : SerialFile) (fd : Nat) :
    (serialOpenFd f fd).fd = some fd ∧ (serialOpenFd f fd).block = f.block ∧
    (∀ (dev : Nat → List Byte → Int) k buf, serialFileWrite (serialOpenFd f fd) dev k buf = dev k buf) ∧
    ∀ (c : Core SerialSt) (i : Nat) (bs : List Byte), bs ≠ [] → bs.length ≤ 1024 → ∀ c' e rc,
      c.serialFileRead i (serialOpenFd f fd) (some bs) = .ok (c', e, rc) ↔ (c.serialRx i bs = .ok (c', e) ∧ rc = 0) :=
  ⟨rfl, rfl, fun _ _ _ => rfl, fun c i bs hne hl c' e rc =>
    (C90_read c i (serialOpenFd f fd) (some bs) (by simpa using hl)).2 fd bs rfl rfl hne c' e rc⟩

/-- C90 does not hold (2): destroying the binding leaves the descriptor it opened open. -/
theorem C90_destroy_leaks {mem mem1 mem2 : Mem} {o o1 o2 : Os} {f f1 : SerialFile} {rc : Int}
    (hi : serialFileInit mem = .ok (f, mem1)) (ho : serialOpenPath f o = (rc, f1, o1)) (hok : o.ok o.calls = true)
    (hd : serialFileDestroy f1 mem1 o1 = .ok (mem2, o2)) :
    ∃ fd, held mem2 o2 = ⟨mem.live, fd :: o.fds, o.maps⟩ := by
  by_cases hm : mem.ok mem.next
  · simp [serialFileInit, Mem.alloc, hm] at hi
    obtain ⟨rfl, rfl⟩ := hi
    simp [serialOpenPath, Os.open, hok] at ho
    obtain ⟨-, rfl, rfl⟩ := ho
    simp [serialFileDestroy, Mem.free, Bind.bind, Except.bind] at hd
    obtain ⟨rfl, rfl⟩ := hd
    exact ⟨o.calls, rfl⟩
  · simp [serialFileInit, Mem.alloc, hm] at hi

/-- The hypotheses are met: a packet of seven bytes on a binding whose device could not be opened. -/
example : (serialTx (serialInit (serialFileWrite ⟨0, none⟩ (fun _ b => b.length)) 5)
      { id := 3, size := 76, start := 0, «end» := 7, hdrOff := 0, data := [1, 2, 3, 4, 0x7e, 6, 7] ++ List.replicate 69 0 }).toOption.map (fun o => (o.rc, o.st.wire)) = some (-9, []) := by
  decide +kernel

example : (serialTx (serialInit (serialFileWrite ⟨0, some 4⟩ (fun _ b => b.length)) 5)
      { id := 3, size := 76, start := 0, «end» := 7, hdrOff := 0, data := [1, 2, 3, 4, 0x7e, 6, 7] ++ List.replicate 69 0 }).toOption.map (fun o => (o.rc, o.st.wire.length)) = some (0, 14) := by
  decide +kernel

end Mctp
