import Verif.Proofs.LinkAll

/-! How often the registers are used. -/

namespace Mctp

open Spec

/-- An access that changes the registers: reading a data register, or writing a register. -/
def isCtl : Access → Bool
  | .kcsRead .data _ _ => true
  | .kcsWrite _ _ _ => true
  | _ => false

/-- How much a write adds to what can be read. -/
def outW : Access → Nat
  | .kcsWrite .data _ _ => 1
  | .kcsWrite .status _ _ => 2
  | _ => 0

/-- A read of a data register. -/
def inW : Access → Nat
  | .kcsRead .data _ _ => 1
  | _ => 0

def outs (l : List Access) : Nat := (l.map outW).sum
def ins (l : List Access) : Nat := (l.map inW).sum
def ctls (l : List Access) : Nat := (l.filter isCtl).length

def bit (b : Bool) : Nat := if b then 1 else 0

theorem outs_cons (a : Access) (l : List Access) : outs (a :: l) = outW a + outs l := by simp [outs]
theorem ins_cons (a : Access) (l : List Access) : ins (a :: l) = inW a + ins l := by simp [ins]
theorem ctls_append (l l' : List Access) : ctls (l ++ l') = ctls l + ctls l' := by simp [ctls]

theorem ctls_le (l : List Access) : ctls l ≤ outs l + ins l := by
  induction l with
  | nil => simp [ctls]
  | cons a l ih =>
    rw [outs_cons, ins_cons]
    have : ctls (a :: l) = ctls [a] + ctls l := ctls_append [a] l
    rw [this]
    have : ctls [a] ≤ outW a + inW a := by
      cases a with
      | kcsRead r _ _ => cases r <;> simp [ctls, isCtl, outW, inW, List.filter]
      | kcsWrite r _ _ => cases r <;> simp [ctls, isCtl, outW, inW, List.filter]
      | _ => simp [ctls, isCtl, List.filter]
    omega

theorem outs_of (T : List (AstMode × Access)) : outs (T.map (·.2)) = outs (of .bmc T) + outs (of .host T) := by
  induction T with
  | nil => rfl
  | cons x T ih =>
    obtain ⟨s, a⟩ := x
    rw [List.map_cons, outs_cons, ih, of_cons, of_cons]
    cases s
    · rw [if_pos rfl, if_neg (by simp), outs_cons]; simp only; omega
    · rw [if_neg (by simp), if_pos rfl, outs_cons]; simp only; omega

/-! ## What a side still has to write -/

/-- A packet to be announced. -/
def fl : TxPhase → Nat
  | .full => 1
  | _ => 0

/-- A packet to be handed back. -/
def dn : RxPos → Nat
  | .done => 1
  | _ => 0

/-- A script that has not been started. -/
def later (b : Bool) (l : List Access) : Nat := if b then 0 else outs l

/-- Scripted writes to come, and the commands that are due. -/
def due (g : LinkCfg) (f : Fine) : Nat :=
  fl f.w.tx + dn f.rxp + outs f.todo + later f.started g.start + later f.opened g.init

theorem fl_le {x y : TxPhase} (h : x = .full → y = .full) : fl x ≤ fl y := by
  cases x with
  | full => rw [h rfl]
  | _ => exact Nat.zero_le _

/-- Scripted writes stay in the header. -/
def Low : Access → Prop
  | .lpcWrite off bs _ => off + bs.length ≤ 32
  | _ => True

/-- A side whose later scripts write nothing, or that runs them once. -/
structure Once (g : LinkCfg) (f : Fine) : Prop where
  once : outs g.init = 0 ∨ (g.mode = .bmc ∧ f.fin = false ∧ f.stale = false ∧ f.started = true)
  low  : (∀ a ∈ g.start, Low a) ∧ (∀ a ∈ g.init, Low a) ∧ ∀ a ∈ f.todo, Low a

theorem watch_full {m : AstMode} {w w' : Watch} {a : Access} (h : w.step m a = some w') (hw : w'.tx = .full) :
    w.tx = .full ∨ ∃ off bs rc, a = .lpcWrite off bs rc ∧ 32 < off + bs.length ∧ w.tx = .half := by
  cases a with
  | kcsRead reg rc v =>
    cases reg <;> simp only [Watch.step] at h
    · split at h
      · cases h; simp only at hw; split at hw
        · cases hw
        · exact .inl hw
      · cases h
    · cases h; exact .inl hw
  | kcsWrite reg v rc =>
    cases reg <;> simp only [Watch.step] at h
    · repeat' split at h
      all_goals first | (cases h; done) | (cases h; first | exact .inl hw | (simp only at *; exact .inl (by simp_all)))
    · cases h; exact .inl hw
  | lpcRead off bs rc =>
    simp only [Watch.step] at h
    repeat' split at h
    all_goals first | (cases h; done) | (cases h; first | exact .inl hw | cases hw)
  | lpcWrite off bs rc =>
    simp only [Watch.step] at h
    repeat' split at h
    all_goals first
      | (cases h; done)
      | (cases h; first | exact .inl hw | (cases hw; done) | (refine .inr ⟨_, _, _, rfl, by omega, ?_⟩; assumption))

theorem watch_begin {m : AstMode} {w w' : Watch} {rc : Int} (h : w.step m (.kcsWrite .data 1 rc) = some w') :
    w.tx = .full ∧ (rc = 0 → w'.tx = .handed) := by
  simp only [Watch.step, if_true] at h
  split at h
  · rename_i hc; cases h; exact ⟨hc.2, fun h0 => by rw [h0]; rfl⟩
  · cases h

theorem watch_read {m : AstMode} {w w' : Watch} {rc : Int} {v : Byte} (h : w.step m (.kcsRead .data rc v) = some w') :
    w.sawInput m = true := by
  simp only [Watch.step] at h
  split at h
  · assumption
  · cases h

theorem step_due {g : LinkCfg} {f f' : Fine} {a : Access} (ho : Once g f) (hrc : ∀ v rc, a = .kcsWrite .data v rc → rc = 0)
    (h : f.step g a = some f') :
    Once g f' ∧ outW a + due g f' + f.sent.length + f.got.length ≤ due g f + f'.sent.length + f'.got.length := by
  unfold Fine.step at h
  split at h
  · cases h
  · rename_i w hw
    have hfull : w.tx = .full → f.w.tx = .full ∨ ∃ off bs rc, a = .lpcWrite off bs rc ∧ 32 < off + bs.length ∧ f.w.tx = .half := watch_full hw
    have hle : (∀ off bs rc, a ≠ .lpcWrite off bs rc) → fl w.tx ≤ fl f.w.tx := by
      intro hn
      refine fl_le fun h => ?_
      rcases hfull h with h | ⟨off, bs, rc, h0, -⟩
      · exact h
      · exact absurd h0 (hn _ _ _)
    split at h
    · rename_i e rest htodo
      split at h
      · rename_i ha
        subst ha
        simp only [Option.some.injEq] at h
        subst h
        have hlow : Low a := ho.low.2.2 a (by rw [htodo]; simp)
        refine ⟨⟨ho.once, ho.low.1, ho.low.2.1, fun x hx => ho.low.2.2 x (by rw [htodo]; simp [hx])⟩, ?_⟩
        have : fl w.tx ≤ fl f.w.tx := by
          refine fl_le fun h => ?_
          rcases hfull h with h | ⟨off, bs, rc, rfl, h1, -⟩
          · exact h
          · simp only [Low] at hlow; omega
        simp only [due, htodo, outs_cons]
        omega
      · cases h
    · rename_i htodo
      have hto : outs f.todo = 0 := by rw [htodo]; rfl
      cases a with
      | kcsRead reg rc v =>
        have hle := hle (by simp)
        cases reg with
        | status =>
          simp only [Fine.free] at h
          split at h
          · split at h
            · cases h
            · cases h
              refine ⟨⟨ho.once, ho.low⟩, ?_⟩
              simp only [due, outW]; omega
          · rename_i hs
            cases h
            refine ⟨⟨ho.once.imp_right (fun h => absurd h.2.2.2 hs), ho.low.1, ho.low.2.1, ?_⟩, ?_⟩
            · simp only
              split
              · exact ho.low.1
              · intro x hx; cases hx
            · simp only [due, outW, hto]
              have hs : f.started = false := by simpa using hs
              rw [hs]
              cases hv : v.getLsbD 7
              · simp only [Bool.false_eq_true, if_false, later]
                have : outs [] = 0 := rfl
                omega
              · simp only [if_true, later, Bool.false_eq_true, if_false]
                omega
        | data =>
          simp only [Fine.free] at h
          split at h
          · rename_i hc
            split at h
            · rename_i hop
              cases h
              refine ⟨⟨?_, ho.low⟩, ?_⟩
              · exact ho.once.imp_right (fun h => ⟨h.1, h.2.2.1, h.2.2.1, h.2.2.2⟩)
              · simp only [due, outW]
                have : dn (if v = 1 then RxPos.begun else f.rxp) ≤ dn f.rxp := by
                  split
                  · simp [dn]
                  · exact Nat.le_refl _
                omega
            · rename_i hop
              have hop : f.opened = false := by simpa using hop
              split at h
              · split at h
                · cases h
                  refine ⟨⟨ho.once, ho.low.1, ho.low.2.1, ho.low.2.1⟩, ?_⟩
                  simp only [due, outW, hto]
                  rw [hop]
                  simp only [later, if_true, Bool.false_eq_true, if_false]
                  omega
                · cases h
              · rename_i hm
                cases h
                refine ⟨⟨ho.once.imp_right (fun h => by rw [hm] at h; cases h.1), ho.low⟩, ?_⟩
                simp only [due, outW]; omega
          · cases h
      | kcsWrite reg v rc =>
        have hle := hle (by simp)
        cases reg with
        | status => simp [Fine.free] at h
        | data =>
          simp only [Fine.free] at h
          split at h
          · rename_i hv
            subst hv
            obtain ⟨h1, h2⟩ := watch_begin hw
            have e1 : fl f.w.tx = 1 := by rw [h1]; rfl
            have e2 : fl w.tx = 0 := by rw [h2 (hrc _ _ rfl)]; rfl
            split at h
            · cases h
              refine ⟨⟨ho.once, ho.low⟩, ?_⟩
              simp only [due, outW]
              omega
            · cases h
          · split at h
            · rename_i hv2
              split at h
              · rename_i hd
                cases h
                have e1 : dn f.rxp = 1 := by rw [hd.2]; rfl
                have e2 : dn RxPos.away = 0 := rfl
                refine ⟨⟨ho.once, ho.low⟩, ?_⟩
                simp only [due, outW]
                omega
              · cases h
            · cases h
      | lpcRead off bs rc =>
        have hle := hle (by simp)
        simp only [Fine.free] at h
        split at h
        · split at h
          · rename_i hc
            split at h
            · cases h
              rcases ho.once with h0 | h0
              · refine ⟨⟨.inl h0, ho.low.1, ho.low.2.1, ho.low.2.1⟩, ?_⟩
                have hl : ∀ b, later b g.init = 0 := by intro b; unfold later; rw [h0, ite_self]
                simp only [due, outW, hto, h0, hl]
                omega
              · rw [h0.2.1] at hc; cases hc.1
            · cases h
              refine ⟨⟨ho.once.imp_right (fun h => ⟨h.1, rfl, h.2.2⟩), ho.low⟩, ?_⟩
              simp only [due, outW]; omega
          · cases h
        · split at h
          · rename_i hx
            split at h
            · cases h
              refine ⟨⟨ho.once, ho.low⟩, ?_⟩
              have e2 : dn (RxPos.len bs) = 0 := rfl
              simp only [due, outW]
              omega
            · cases h
          · rename_i hx
            split at h
            · cases h
              refine ⟨⟨ho.once, ho.low⟩, ?_⟩
              have e1 : dn f.rxp = 0 := by rw [hx]; rfl
              have e2 : dn RxPos.done = 1 := rfl
              simp only [due, outW, List.length_append, List.length_singleton]
              omega
            · cases h
          · cases h
      | lpcWrite off bs rc =>
        simp only [Fine.free] at h
        split at h
        · split at h
          · rename_i hc
            cases h
            refine ⟨⟨ho.once, ho.low⟩, ?_⟩
            have : fl w.tx ≤ fl f.w.tx := by
              refine fl_le fun h => ?_
              rcases hfull h with h | ⟨off, bs, rc, -, -, h⟩ <;> rw [hc.2.2] at h <;> cases h
            simp only [due, outW]
            omega
          · split at h
            · cases h
              refine ⟨⟨ho.once, ho.low⟩, ?_⟩
              have : fl w.tx ≤ 1 := by cases w.tx <;> simp [fl]
              simp only [due, outW, List.length_append, List.length_singleton]
              omega
            · cases h
        · cases h

theorem run_due {g : LinkCfg} : ∀ {l : List Access} {f f' : Fine}, Once g f → (∀ v rc, Access.kcsWrite .data v rc ∈ l → rc = 0) →
    Fine.run g f l = some f' →
    outs l + due g f' + f.sent.length + f.got.length ≤ due g f + f'.sent.length + f'.got.length
  | [], f, f', _, _, h => by cases h; simp [outs]
  | a :: l, f, f', ho, hrc, h => by
    simp only [Fine.run] at h
    split at h
    · rename_i f1 h1
      obtain ⟨ho1, hd⟩ := step_due ho (fun v rc he => hrc v rc (by rw [he]; simp)) h1
      have := run_due ho1 (fun v rc he => hrc v rc (List.mem_cons_of_mem _ he)) h
      rw [outs_cons]
      omega
    · cases h

/-! ## Reads -/

/-- A data register is read only when there is something in it. -/
theorem link_reads {wr : Bool} {B H : Nat} (hH : 4 ≤ H) (hHB : H ≤ B) :
    ∀ {T : List (AstMode × Access)} {h h' : Lpc} {b t b' t' : Fine}, Joint B H h b t → Lpc.run wr h T = some h' →
      Fine.run (cfgB B H) b (of .bmc T) = some b' → Fine.run (cfgH B H) t (of .host T) = some t' →
      ins (T.map (·.2)) + bit h'.obf + bit h'.ibf ≤ bit h.obf + bit h.ibf + outs (T.map (·.2))
  | [], h, h', b, t, b', t', J, hr, hb, ht => by
    simp only [Lpc.run, Option.some.injEq] at hr
    subst hr
    simp [ins, outs]
  | (side, a) :: T, h, h', b, t, b', t', J, hr, hb, ht => by
    simp only [Lpc.run] at hr
    split at hr
    · rename_i h1 ha
      simp only [List.map_cons, ins_cons, outs_cons]
      have hb1 : ∀ x : Bool, bit x ≤ 1 := by intro x; cases x <;> simp [bit]
      have key : ∀ {b1 t1 : Fine}, Joint B H h1 b1 t1 → Fine.run (cfgB B H) b1 (of .bmc T) = some b' → Fine.run (cfgH B H) t1 (of .host T) = some t' →
          inW a + bit h1.obf + bit h1.ibf ≤ bit h.obf + bit h.ibf + outW a →
          inW a + ins (T.map (·.2)) + bit h'.obf + bit h'.ibf ≤ bit h.obf + bit h.ibf + (outW a + outs (T.map (·.2))) := by
        intro b1 t1 J1 e1 e2 hk
        have := link_reads hH hHB J1 hr e1 e2
        omega
      cases side with
      | bmc =>
        rw [of_cons, if_pos rfl] at hb
        rw [of_cons, if_neg (by simp)] at ht
        simp only [Fine.run] at hb
        split at hb
        · rename_i b1 hs
          refine key (joint_bmc hH hHB J ha hs) hb ht ?_
          cases a with
          | kcsRead reg rc v =>
            cases reg with
            | status =>
              simp only [Lpc.access] at ha
              split at ha <;> cases ha
              simp [inW, outW]
            | data =>
              have hsaw : b.w.sawInput .bmc = true := by
                have := Fine.step_watch hs
                exact watch_read this
              have := J.fl.bi hsaw
              simp only [Lpc.access] at ha
              split at ha <;> cases ha
              simp only [inW, outW, this, bit]; simp; omega
          | kcsWrite reg v rc =>
            cases reg with
            | status =>
              simp only [Lpc.access] at ha
              split at ha <;> cases ha
              simp only [inW, outW]
              simp only at *
              have h1 := hb1 (if wr then v.getLsbD 0 else h.obf)
              have h2 := hb1 (if wr then v.getLsbD 1 else h.ibf)
              omega
            | data =>
              simp only [Lpc.access] at ha
              split at ha <;> cases ha
              have := hb1 h.obf
              simp only [inW, outW, bit]; simp; omega
          | lpcRead off bs rc =>
            simp only [Lpc.access] at ha
            split at ha <;> cases ha
            simp [inW, outW]
          | lpcWrite off bs rc =>
            simp only [Lpc.access] at ha
            split at ha <;> cases ha
            simp [inW, outW]
        · cases hb
      | host =>
        rw [of_cons, if_neg (by simp)] at hb
        rw [of_cons, if_pos rfl] at ht
        simp only [Fine.run] at ht
        split at ht
        · rename_i t1 hs
          refine key (joint_host hH hHB J ha hs) hb ht ?_
          cases a with
          | kcsRead reg rc v =>
            cases reg with
            | status =>
              simp only [Lpc.access] at ha
              split at ha <;> cases ha
              simp [inW, outW]
            | data =>
              have hsaw : t.w.sawInput .host = true := by
                have := Fine.step_watch hs
                exact watch_read this
              have := J.fl.ti hsaw
              simp only [Lpc.access] at ha
              split at ha <;> cases ha
              simp only [inW, outW, this, bit]; simp
          | kcsWrite reg v rc =>
            cases reg with
            | status =>
              simp only [Lpc.access] at ha
              split at ha <;> cases ha
              simp [inW, outW]
            | data =>
              simp only [Lpc.access] at ha
              split at ha <;> cases ha
              have := hb1 h.ibf
              simp only [inW, outW, bit]; simp
          | lpcRead off bs rc =>
            simp only [Lpc.access] at ha
            split at ha <;> cases ha
            simp [inW, outW]
          | lpcWrite off bs rc =>
            simp only [Lpc.access] at ha
            split at ha <;> cases ha
            simp [inW, outW]
        · cases ht
    · cases hr

/-! ## Both together -/

theorem write_ok_of {wr : Bool} : ∀ {T : List (AstMode × Access)} {h h' : Lpc}, Lpc.run wr h T = some h' →
    ∀ {side v rc}, (side, Access.kcsWrite .data v rc) ∈ T → rc = 0
  | [], _, _, _, _, _, _, hm => by cases hm
  | (s, a) :: T, h, h', hr, side, v, rc, hm => by
    simp only [Lpc.run] at hr
    split at hr
    · rename_i h1 ha
      rcases List.mem_cons.mp hm with he | hm
      · cases he
        simp only [Lpc.access] at ha
        split at ha <;> split at ha <;> first | assumption | cases ha
      · exact write_ok_of hr hm
    · cases hr

theorem mem_of {side : AstMode} {a : Access} {T : List (AstMode × Access)} (h : a ∈ of side T) : (side, a) ∈ T := by
  unfold of at h
  obtain ⟨x, hx, he⟩ := List.mem_filterMap.mp h
  split at he
  · rename_i hs
    cases he
    rw [← hs]; exact hx
  · cases he

theorem Dir.lengths {sz o : Nat} {win : Nat → Byte} {r1 r2 : Option Byte} {s r : Fine} (h : Dir sz o win r1 r2 s r) :
    r.got.length ≤ s.sent.length := by
  cases h with
  | free p1 p2 p3 p4 p5 => rw [p5]
  | half p1 p2 p3 p4 p5 p6 p7 => rw [p5]
  | full p1 p2 p3 p4 p5 p6 p7 => rw [p5]; simp
  | begin p1 p2 p3 p4 p5 p6 p7 => rw [p5]; simp
  | begun p1 p2 p3 p4 p5 p6 p7 => rw [p5]; simp
  | len p1 p2 p3 p4 p5 p6 p7 => rw [p5]; simp
  | done p1 p2 p3 p4 p5 => rw [p5]
  | complete p1 p2 p3 p4 p5 => rw [p5]

/-- The registers are used at most four times for each packet, and 14 times for the handshake. -/
theorem link_ctls {wr : Bool} {B H : Nat} (hH : 4 ≤ H) (hHB : H ≤ B) {T : List (AstMode × Access)} {win : Nat → Byte} {h' : Lpc} {b' t' : Fine}
    (hr : Lpc.run wr (Lpc.reset win) T = some h')
    (hb : Fine.run (cfgB B H) (Fine.zero (cfgB B H)) (of .bmc T) = some b') (ht : Fine.run (cfgH B H) (Fine.zero (cfgH B H)) (of .host T) = some t')
    (J : Joint B H h' b' t') : ctls (T.map (·.2)) ≤ 4 * (b'.sent.length + t'.sent.length) + 14 := by
  have h1 := link_reads hH hHB (joint_zero B H win) hr hb ht
  have len1 : (hdr0 B).length = 32 := rfl
  have len2 : (layB B H).length = 16 := rfl
  have len3 : ∀ n, (be16 n).length = 2 := fun _ => rfl
  have len4 : ∀ n, (be32 n).length = 4 := fun _ => rfl
  have h2 := ctls_le (T.map (·.2))
  have h3 := outs_of T
  have d1 := run_due (g := cfgB B H) (f := Fine.zero (cfgB B H)) ⟨.inr ⟨rfl, rfl, rfl, rfl⟩, by simp [cfgB, Low, len1], by simp [cfgB, Low, len2, len3], by simp [Fine.zero, cfgB, Low, len1]⟩
    (fun v rc hm => write_ok_of hr (mem_of hm)) hb
  have d2 := run_due (g := cfgH B H) (f := Fine.zero (cfgH B H)) ⟨.inl rfl, by simp [cfgH, Low, len3, len4], by simp [cfgH, Low], by simp [Fine.zero, cfgH]⟩
    (fun v rc hm => write_ok_of hr (mem_of hm)) ht
  have e1 : due (cfgB B H) (Fine.zero (cfgB B H)) = 6 := rfl
  have e2 : due (cfgH B H) (Fine.zero (cfgH B H)) = 1 := rfl
  have l1 := J.dirB.lengths
  have l2 := J.dirH.lengths
  rw [e1] at d1
  rw [e2] at d2
  simp only [Lpc.reset, bit, Fine.zero, List.length_nil] at h1 d1 d2
  simp at h1
  omega

end Mctp
