import Verif.Proofs.LinkLive

/-! Whether both sides have opened the channel. -/

namespace Mctp

open Spec

variable {E : Type}

/-! ## The monitor of one side -/

theorem step_opened {g : LinkCfg} {f f' : Fine} {a : Access} (h : f.step g a = some f') (ho : f.opened = true) : f'.opened = true := by
  unfold Fine.step at h
  split at h
  · cases h
  · split at h
    · split at h
      · cases h; exact ho
      · cases h
    · unfold Fine.free at h
      split at h <;> (repeat' split at h) <;> (first | (cases h; done) | (cases h; first | exact ho | rfl))

theorem run_opened {g : LinkCfg} : ∀ {l : List Access} {f f' : Fine}, Fine.run g f l = some f' → f.opened = true → f'.opened = true
  | [], f, f', h, ho => by cases h; exact ho
  | a :: l, f, f', h, ho => by
    simp only [Fine.run] at h
    split at h
    · rename_i f1 hs
      exact run_opened h (step_opened hs ho)
    · cases h

/-- Nothing scripted: no script is started unless the registers are used. -/
theorem run_quiet_todo {g : LinkCfg} : ∀ {l : List Access} {f f' : Fine}, Fine.run g f l = some f' → (∀ a ∈ l, isCtl a = false) → f.todo = [] → f.fin = false →
    f.rxp = .away → f.started = true → f'.todo = []
  | [], f, f', h, _, h1, _, _, _ => by cases h; exact h1
  | a :: l, f, f', h, hn, h1, h2, h3, h4 => by
    simp only [Fine.run] at h
    split at h
    · rename_i f1 hs
      obtain ⟨a1, a2, a3, a4, a5⟩ := step_quiet hs (hn a (List.mem_cons_self ..)) h1 h2 h3 h4
      exact run_quiet_todo h (fun x hx => hn x (List.mem_cons_of_mem _ hx)) a1 a2 a3 a4
    · cases h

/-- A script that ends with a use of the registers is not finished without. -/
theorem run_todo {g : LinkCfg} {x : Access} (hx : isCtl x = true) : ∀ {l : List Access} {f f' : Fine} {pre : List Access}, Fine.run g f l = some f' →
    (∀ a ∈ l, isCtl a = false) → f.todo = pre ++ [x] → f'.todo ≠ []
  | [], f, f', pre, h, _, h1 => by cases h; rw [h1]; simp
  | a :: l, f, f', pre, h, hn, h1 => by
    simp only [Fine.run] at h
    split at h
    · rename_i f1 hs
      unfold Fine.step at hs
      split at hs
      · cases hs
      · rw [h1] at hs
        cases pre with
        | nil =>
          simp only [List.nil_append] at hs
          split at hs
          · rename_i ha
            have := hn a (List.mem_cons_self ..)
            rw [ha, hx] at this; cases this
          · cases hs
        | cons p pre =>
          simp only [List.cons_append] at hs
          split at hs
          · cases hs
            exact run_todo hx h (fun y hy => hn y (List.mem_cons_of_mem _ hy)) rfl
          · cases hs
    · cases h

theorem step_once {g : LinkCfg} {f f' : Fine} {a : Access} (hl : (∀ a ∈ g.start, Low a) ∧ (∀ a ∈ g.init, Low a) ∧ ∀ a ∈ f.todo, Low a)
    (h : f.step g a = some f') : ∀ a ∈ f'.todo, Low a := by
  unfold Fine.step at h
  split at h
  · cases h
  · split at h
    · rename_i htodo
      split at h
      · cases h; exact fun x hx => hl.2.2 x (by rw [htodo]; exact List.mem_cons_of_mem _ hx)
      · cases h
    · rename_i htodo
      have hn : ∀ a ∈ f.todo, Low a := hl.2.2
      unfold Fine.free at h
      split at h <;> (repeat' split at h) <;> (first | (cases h; done) | (cases h; first | exact hn | exact hl.1 | exact hl.2.1 | skip))
      all_goals first
        | (split; exact hl.1; exact fun _ hx => (nomatch hx))
        | exact fun _ hx => (nomatch hx)

/-- The buffer stays with its owner until the next packet is written. -/
theorem step_keepsTx {g : LinkCfg} {f f' : Fine} {a : Access} (hl : ∀ a ∈ f.todo, Low a) (h : f.step g a = some f') (ht : f.w.tx = .free ∨ f.w.tx = .half) :
    (f'.w.tx = .free ∨ f'.w.tx = .half) ∨ ∃ x, f'.sent = f.sent ++ [x] := by
  have hw := Fine.step_watch h
  by_cases hfull : f'.w.tx = .full
  · rcases watch_full hw hfull with hx | ⟨off, bs, rc, rfl, hlen, -⟩
    · rcases ht with ht | ht <;> rw [ht] at hx <;> cases hx
    · right
      unfold Fine.step at h
      split at h
      · cases h
      · rename_i w hw'
        split at h
        · rename_i e rest htodo
          split at h
          · rename_i he
            have := hl e (by rw [htodo]; exact List.mem_cons_self ..)
            rw [← he] at this
            simp only [Low] at this; omega
          · cases h
        · simp only [Fine.free] at h
          split at h
          · split at h
            · rename_i hc
              cases h
              simp only [Watch.step] at hw'
              rw [if_neg (by omega), hc.2.2] at hw'
              simp only [Option.some.injEq] at hw'
              rw [← hw'] at hfull; cases hfull
            · split at h
              · cases h; exact ⟨_, rfl⟩
              · cases h
          · cases h
  · left
    have key : ∀ {m : AstMode} {w w' : Watch} {a : Access}, w.step m a = some w' → w.tx = .free ∨ w.tx = .half → w'.tx ≠ .full → w'.tx = .free ∨ w'.tx = .half := by
      intro m w w' a h ht hf
      cases a with
      | kcsRead reg rc v =>
        cases reg <;> simp only [Watch.step] at h
        · split at h
          · cases h; simp only; split
            · exact .inl rfl
            · exact ht
          · cases h
        · cases h; exact ht
      | kcsWrite reg v rc =>
        cases reg <;> simp only [Watch.step] at h
        · split at h
          · split at h
            · rename_i hc
              rcases ht with ht | ht <;> rw [ht] at hc <;> cases hc.2
            · cases h
          · repeat' split at h
            all_goals first | (cases h; done) | (cases h; exact ht)
        · cases h; exact ht
      | lpcRead off bs rc =>
        simp only [Watch.step] at h
        repeat' split at h
        all_goals first | (cases h; done) | (cases h; first | exact ht | exact .inl rfl)
      | lpcWrite off bs rc =>
        simp only [Watch.step] at h
        repeat' split at h
        all_goals first | (cases h; done) | (cases h; first | exact ht | exact .inl rfl | exact .inr rfl | exact absurd rfl hf)
    exact key hw ht hfull

theorem run_keepsTx {g : LinkCfg} : ∀ {l : List Access} {f f' : Fine}, (∀ a ∈ g.start, Low a) ∧ (∀ a ∈ g.init, Low a) ∧ (∀ a ∈ f.todo, Low a) →
    Fine.run g f l = some f' → f.w.tx = .free ∨ f.w.tx = .half → f'.sent = f.sent → f'.w.tx = .free ∨ f'.w.tx = .half
  | [], f, f', _, h, ht, _ => by cases h; exact ht
  | a :: l, f, f', hl, h, ht, hs => by
    simp only [Fine.run] at h
    split at h
    · rename_i f1 h1
      have g1 := (step_grows h1).1
      have g2 := (run_grows h).1
      rcases step_keepsTx hl.2.2 h1 ht with ht1 | ⟨x, hx⟩
      · have e1 : f1.sent = f.sent := by
          rw [hs] at g2
          exact (g1.eq_of_length_le g2.length_le).symm
        exact run_keepsTx ⟨hl.1, hl.2.1, step_once hl h1⟩ h ht1 (by rw [hs, e1])
      · have := g2.length_le
        rw [hs, hx, List.length_append, List.length_singleton] at this
        omega
    · cases h

/-! ## The host -/

/-- A host that has not seen that the channel is active has received nothing. -/
structure Deaf (t : Fine) : Prop where
  st : t.stale = true → t.fin = false → t.got = []
  no : t.opened = false → t.got = []

theorem deaf_host {wr : Bool} {B H : Nat} {h h' : Lpc} {b t t' : Fine} {a : Access} (J : Joint B H h b t)
    (ha : h.access wr .host a = some h') (hs : t.step (cfgH B H) a = some t') (d : Deaf t) : Deaf t' := by
  have hrel := joint_rely_host J ha
  have away : t.opened = false → t.rxp = .away := by
    intro ho
    rcases J.st with S | S
    · exact S.tx.2
    · exact (S.no ho).2.1
  have busy : t.opened = true → t.stale = true → t.rxp ≠ .away → t.fin = true := by
    intro ho
    rcases J.st with S | S
    · rw [S.to] at ho; cases ho
    · exact S.sr ho
  unfold Fine.step at hs
  split at hs
  · cases hs
  · rename_i w hw
    split at hs
    · split at hs
      · cases hs; exact ⟨d.st, d.no⟩
      · cases hs
    · rename_i htodo
      cases a with
      | kcsRead reg rc v =>
        cases reg with
        | status =>
          simp only [Fine.free] at hs
          repeat' split at hs
          all_goals first | (cases hs; done) | (cases hs; exact ⟨d.st, d.no⟩)
        | data =>
          simp only [Fine.free, cfgH] at hs
          split at hs
          · split at hs
            · rename_i ho
              cases hs
              exact ⟨fun h1 h2 => (by simp only at h1 h2; rw [h1] at h2; cases h2), fun h1 => (by simp only at h1; rw [ho] at h1; cases h1)⟩
            · cases hs
              exact ⟨fun _ h2 => (by cases h2), d.no⟩
          · cases hs
      | kcsWrite reg v rc =>
        cases reg <;> simp only [Fine.free] at hs <;> repeat' split at hs
        all_goals first | (cases hs; done) | (cases hs; exact ⟨d.st, d.no⟩)
      | lpcWrite off bs rc =>
        simp only [Fine.free] at hs
        repeat' split at hs
        all_goals first | (cases hs; done) | (cases hs; exact ⟨d.st, d.no⟩)
      | lpcRead off bs rc =>
        simp only [Fine.free] at hs
        split at hs
        · rename_i hoff
          split at hs
          · rename_i hc
            have hbs := (hrel.2.2 htodo).1 hoff hc.2.2 hc.1
            have k1 : t.opened = true → t.stat.getLsbD 6 = true := by
              intro ho
              rcases J.st with S | S
              · rw [S.to] at ho; cases ho
              · cases hst : t.stale
                · have := (S.act ho hst).1
                  rw [hc.1] at this; cases this
                · exact (S.st ho hst).2.2.1 hc.1
            split at hs
            · cases hs
              refine ⟨fun h1 _ => ?_, fun h1 => (by cases h1)⟩
              simp only [Bool.not_eq_true'] at h1
              cases ho : t.opened
              · exact d.no ho
              · rw [k1 ho] at h1; cases h1
            · rename_i hne
              cases hs
              rcases hbs with hbs | ⟨ho, -⟩
              · exact absurd hbs hne
              · exact ⟨fun _ _ => d.no ho, d.no⟩
          · cases hs
        · split at hs
          · split at hs
            · cases hs; exact ⟨d.st, d.no⟩
            · cases hs
          · rename_i n hrx
            split at hs
            · cases hs
              refine ⟨fun h1 h2 => ?_, fun h1 => ?_⟩
              · simp only at h1 h2
                cases ho : t.opened
                · rw [away ho] at hrx; cases hrx
                · have := busy ho h1 (by rw [hrx]; simp)
                  rw [h2] at this; cases this
              · rw [away h1] at hrx; cases hrx
            · cases hs
          · cases hs

theorem link_deaf {wr : Bool} {B H : Nat} (hH : 4 ≤ H) (hHB : H ≤ B) :
    ∀ {T : List (AstMode × Access)} {h h' : Lpc} {b t b' t' : Fine}, Joint B H h b t → Deaf t → Lpc.run wr h T = some h' →
      Fine.run (cfgB B H) b (of .bmc T) = some b' → Fine.run (cfgH B H) t (of .host T) = some t' → Deaf t'
  | [], h, h', b, t, b', t', J, d, hr, hb, ht => by cases ht; exact d
  | (side, a) :: T, h, h', b, t, b', t', J, d, hr, hb, ht => by
    simp only [Lpc.run] at hr
    split at hr
    · rename_i h1 ha
      cases side with
      | bmc =>
        rw [of_cons, if_pos rfl] at hb
        rw [of_cons, if_neg (by simp)] at ht
        simp only [Fine.run] at hb
        split at hb
        · rename_i b1 hs
          exact link_deaf hH hHB (joint_bmc hH hHB J ha hs) d hr hb ht
        · cases hb
      | host =>
        rw [of_cons, if_neg (by simp)] at hb
        rw [of_cons, if_pos rfl] at ht
        simp only [Fine.run] at ht
        split at ht
        · rename_i t1 hs
          exact link_deaf hH hHB (joint_host hH hHB J ha hs) (deaf_host J ha hs d) hr hb ht
        · cases ht
    · cases hr

/-! ## Both sides when the registers are empty -/

theorem InitAt.last {B H : Nat} {l : List Access} {x : List Byte} {v : Byte} (h : InitAt B H l x v) (hl : l ≠ []) :
    ∃ pre, l = pre ++ [.kcsWrite .data 0xff 0] := by
  cases h
  case i6 => exact absurd rfl hl
  case i0 => exact ⟨[_, _, _, _, _], rfl⟩
  case i1 => exact ⟨[_, _, _, _], rfl⟩
  case i2 => exact ⟨[_, _, _], rfl⟩
  case i3 => exact ⟨[_, _], rfl⟩
  case i4 => exact ⟨[_], rfl⟩
  case i5 => exact ⟨[], rfl⟩

/-- With empty registers and nothing scripted for the host, the BMC has been told to open the channel; and the host has opened it, or
the BMC has not finished. -/
theorem Joint.opened {B H : Nat} {h : Lpc} {b t : Fine} (J : Joint B H h b t) (hi : h.ibf = false) (ho : h.obf = false) (h1 : t.todo = [])
    (h2 : t.fin = false) (h3 : t.started = true) :
    b.opened = true ∧ (t.opened = true ∨ ∃ pre, b.todo = pre ++ [.kcsWrite .data 0xff 0]) := by
  rcases J.st with S | S
  · exfalso
    rcases S.at_ with ⟨_, _, _, _, hx, _⟩ | ⟨_, _, _, ⟨hx, _⟩ | ⟨_, hx, _⟩ | ⟨_, _, hx, _⟩⟩
    · rw [h3] at hx; cases hx
    · rw [h3] at hx; cases hx
    · rw [h1] at hx; cases hx
    · rw [hi] at hx; cases hx
  · refine ⟨S.bo, ?_⟩
    cases hop : t.opened with
    | true => exact .inl rfl
    | false =>
      by_cases hn : b.todo = []
      · rcases (S.no hop).2.2.2.1 hn with ⟨hx, _⟩ | hx
        · rw [ho] at hx; cases hx
        · rw [h2] at hx; cases hx
      · exact .inr (S.at_.last hn)

/-- A side that has opened the channel and has its buffer. -/
theorem AtRest.up {g : LinkCfg} {U : AstSt E → Prop} {mtu m : Nat} {eid : Byte} {log : List AstRec} {c : Core (AstSt E)} {f : Fine}
    (hx : AtRest g U mtu eid m log c f) (ho : f.opened = true) (ht : f.w.tx = .free ∨ f.w.tx = .half) :
    ∃ bus, c.busses = [bus] ∧ bus.binding.st.tx.state = .acquired ∧ bus.binding.st.proto = some 3 ∧ bus.binding.pktSize + 8 = g.sz ∧
      (f.stale = false → bus.state = .txEnabled) ∧ (f.stale = true → bus.state = .constructed) := by
  obtain ⟨bus, hb, -, -, hrel, -, -⟩ := hx
  have hacq : bus.binding.st.tx.state = .acquired := by
    rcases hrel.tx ho with ⟨ha, -⟩ | ⟨-, ha⟩ | ⟨-, ha⟩
    · exact ha
    · rcases ht with ht | ht <;> rw [ht] at ha <;> cases ha
    · rcases ht with ht | ht <;> rw [ht] at ha <;> cases ha
  obtain ⟨l1, -, -, -, -, l2⟩ := hrel.lay ho
  exact ⟨bus, hb, hacq, l1, l2, fun hs => hrel.can ho hs hacq, fun hs => (hrel.shut (.inr hs)).1⟩

end Mctp
