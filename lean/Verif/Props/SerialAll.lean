import Verif.Proofs.RoundTripAll
import Verif.Props.Serial

/-!
# Two serial endpoints: every message (C47)
-/

namespace Mctp

open Spec

/-- **C47** Every message, for a receiver whose limit is 4096 times a power of two (the default is 65536).  Of the messages A accepts, B delivers exactly those that have content,
are not longer than the limit and go to B's EID (or the null or broadcast EID), each once, in order, with A's EID, their tag and their content: the first of them while the wire is
ahead of B's reads, all of them when B has read everything and nothing is pending at A.  Messages to others and messages that are too long do no harm to the rest. -/
theorem C47_every_message {eidA eidB : Byte} {mxA mxB k : Nat} {wrA wrB : Nat → List Byte → Int}
    {memA memB : Mem} {a0 a b0 b : Core SerialSt}
    (hA : SerialEndpoint eidA mxA wrA memA a0) (hclA : Clean memA) (hwA : WrGood wrA)
    {histA : List SerialOp} (hhA : SerialHist histA) {logA : List SerialRec}
    (hrA : a0.serialRun histA = .ok (a, logA))
    (hB : SerialEndpoint eidB mxB wrB memB b0) (hclB : Clean memB) (hwB : WrOk wrB)
    {histB : List SerialOp} (hhB : SerialHist histB)
    (hstB : ∀ op, .core op ∈ histB → (∀ n, op ≠ .setMax n) ∧ (∀ n, op ≠ .setRx n))
    {logB : List SerialRec} (hrB : b0.serialRun histB = .ok (b, logB))
    (hsrc : eidA ≠ 0) (hmx1 : mxB = 4096 * 2 ^ k) (hmx2 : mxB < 2 ^ 64)
    (hwire : bytesIn histB <+: wireOf a) :
    let want := ((accepted 68 (coreLog logA)).filter (fun m => decide (m.data ≠ [] ∧ Local eidB m.dest ∧ m.data.length ≤ mxB))).map
      (fun m => Event.rxMsg eidA m.own m.tag m.data)
    let got := (serialEvents logB).filter (fun ev => (delivered ev).isSome)
    got <+: want ∧ (pending a = [] → bytesIn histB = wireOf a → got = want) := by
  intro want got
  -- the sender
  obtain ⟨pat, _, hba⟩ := hA.bus
  have hsendInv : SendInv 1 eidA [] ⟨.opened, [], 68⟩ [] a0 :=
    ⟨_, hba, rfl, rfl, rfl, hwA, rfl, by intro o ho; cases ho⟩
  obtain ⟨sA, hA1, ⟨ba, hA2, hA3, hA4, hA5, hA6⟩, hA7⟩ :=
    serialRun_send (hA.serInv hclA hwA.ok) hsendInv hhA hrA
  obtain ⟨a', logA', _, hq1, hq2, _⟩ := serialRun_core (hA.serInv hclA hwA.ok) hhA
  rw [hrA] at hq1
  simp only [Except.ok.injEq, Prod.mk.injEq] at hq1
  obtain ⟨rfl, rfl⟩ := hq1
  have hfifo := txRun_fifo hA1
  have hpend : pending a = sA.queue := by rw [pending_one hA2, ← hA5]; rfl
  have hwireA : wireOf a = (consumed (coreLog logA)).flatMap frame := by
    have : wireOf a = ba.binding.st.wire := by simp [wireOf, hA2]
    rw [this, hA6.2.1, List.nil_append, List.nil_append, hA7]; rfl
  have hmtu : ∀ m ∈ accepted 68 (coreLog logA), m.mtu = 64 := accepted_mtu (size := 68) (by
    intro r hr i st ps ph pt cr he
    have := hhA r.op (coreLog_op hq2 r hr)
    rw [he] at this; exact this)
  have htag := accepted_tag (size := 68) hA1
  generalize hps : (accepted 68 (coreLog logA)).flatMap (Msg.packets 1 eidA) = ps at hfifo
  have hfifo' : consumed (coreLog logA) ++ sA.queue = ps := by simpa using hfifo
  have hpsz : ∀ p ∈ ps, 4 ≤ p.length ∧ p.length ≤ 68 := by
    rw [← hps]; intro p hp
    obtain ⟨m, hm, hp⟩ := List.mem_flatMap.mp hp
    exact packets_sizes (hmtu m hm) (htag m hm) p hp
  -- the receiver, continued with the rest of the bytes
  obtain ⟨rest, hrest⟩ : bytesIn histB <+: ps.flatMap frame := by
    refine hwire.trans ?_
    rw [hwireA, ← hfifo', List.flatMap_append]
    exact List.prefix_append _ _
  have hpol := Pol.exact hmx1 hmx2
  have hflags := hB.configured.flags
  have hcfg : RxCfg mxB (fun a => a ≤ mxB ∧ (a = 0 ∨ ∃ j, a = 4096 * 2 ^ j)) b0 := by
    refine ⟨hflags.1, hflags.2.1, ?_⟩
    rw [hflags.2.2]; intro x hx
    rw [List.eq_of_mem_replicate hx]
    exact hpol.zero
  obtain ⟨b', logB', _, k1, _, k3, _, k5, k6⟩ := serialRun_core (hB.serInv hclB hwB) hhB
  rw [hrB] at k1
  simp only [Except.ok.injEq, Prod.mk.injEq] at k1
  obtain ⟨rfl, rfl⟩ := k1
  obtain ⟨b2, e2, _, j1, _, _, j4, j5⟩ := serialRx_core rest k3
  have hrun := rxRun_frames (max := 68) (by decide) ps hpsz
  rw [← hrest, rxRun_append] at hrun
  have hboth : packetsIn (serialEvents logB) ++ packetsIn e2 = ps := by
    rw [k5, j4]; exact congrArg Prod.snd hrun
  have hshort : ∀ p, p ∈ packetsIn (serialEvents logB) ++ packetsIn e2 → p.length - 4 ≤ 4096 := by
    intro p hp
    rw [hboth] at hp
    have := (hpsz p hp).2
    omega
  obtain ⟨hcfg1, hex1⟩ := k6 hpol (fun p hp => hshort p (List.mem_append_left _ hp)) hstB hcfg
  obtain ⟨_, hex2⟩ := j5 hpol (fun p hp => hshort p (List.mem_append_right _ hp)) hcfg1
  obtain ⟨tr, t1, t2, t3⟩ := hex1.trans hex2
  rw [packetsIn_append, hboth] at t1
  rw [hflags.2.2, abs_init] at t2
  obtain ⟨q1, _⟩ := reasm_all hsrc (fun m hm =>
    ⟨by rw [hmtu m hm]; decide, by rw [hmtu m hm, hmx1]; have := Nat.one_le_two_pow (n := k); omega, by have := htag m hm; omega⟩) t2 (t1.trans hps.symm) (by
      rintro ⟨ks, _, hlen, hks⟩
      cases ks with
      | nil => simp at hlen
      | cons k ks => exact hks k (by simp) rfl)
  have hall : got ++ e2.filter (fun ev => (delivered ev).isSome) = want := by
    show _ = want
    rw [← List.filter_append]
    exact t3.trans q1
  refine ⟨⟨_, hall⟩, fun hp hb => ?_⟩
  have hq : sA.queue = [] := by rw [← hpend, hp]
  rw [hq, List.append_nil] at hfifo'
  have hre : rest = [] := by
    rw [hb, hwireA, hfifo'] at hrest
    simpa using hrest
  subst hre
  simp only [Core.serialRx, Except.ok.injEq, Prod.mk.injEq] at j1
  obtain ⟨_, rfl⟩ := j1
  simpa using hall

/-- A concrete run, with a limit of 4096: A sends a message of three packets to EID 30, one of 100 bytes, and an empty one; B reads the bytes in two chunks. -/
def EveryDemo.coreB : Core SerialSt := { Demo.serialCore 9 Demo.slowWrite with maxSize := 4096 }

def EveryDemo.histA : List SerialOp :=
  [.core (.send 30 true 3 (List.replicate 150 0x7e)), .core (.send 9 true 1 [5]), .core (.send 9 false 1 (List.replicate 100 0x7e)), .core (.send 9 true 2 [])]

theorem EveryDemo.runs : (match (Demo.serialCore 8 Demo.slowWrite).serialRun EveryDemo.histA with
    | .ok (a, logA) => decide (pending a = [] ∧ (accepted 68 (coreLog logA)).map (fun m => (m.dest, m.data.length)) = [(30, 150), (9, 1), (9, 100), (9, 0)]) &&
        decide ((Demo.serialTrace EveryDemo.coreB [.rx ((wireOf a).take 200), .rx ((wireOf a).drop 200)]).map (·.2.1) = some [.rxMsg 8 true 1 [5], .rxMsg 8 false 1 (List.replicate 100 0x7e)])
    | .error _ => false) = true := by decide +kernel

example : SerialEndpoint 9 4096 Demo.slowWrite {} EveryDemo.coreB ∧ 4096 = 4096 * 2 ^ 0 ∧ SerialHist EveryDemo.histA :=
  ⟨⟨fun _ => 0xaa, _, 256, 0, rfl, by decide, rfl, by decide⟩, rfl, by
    intro op hop
    simp only [EveryDemo.histA, List.mem_cons, SerialOp.core.injEq, List.not_mem_nil, or_false] at hop
    rcases hop with rfl | rfl | rfl | rfl <;> trivial⟩

end Mctp
