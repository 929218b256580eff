import Verif.Proofs.LinkHost

/-! Executions of both sides. -/

namespace Mctp

open Spec

/-- The detailed monitor on a list of accesses. -/
def Fine.run (g : LinkCfg) : Fine → List Access → Option Fine
  | f, [] => some f
  | f, a :: l =>
    match f.step g a with
    | some f' => Fine.run g f' l
    | none => none

theorem Fine.run_append {g : LinkCfg} : ∀ {l l' : List Access} {f : Fine},
    Fine.run g f (l ++ l') = (Fine.run g f l).bind fun f' => Fine.run g f' l'
  | [], _, _ => rfl
  | a :: l, l', f => by
    simp only [List.cons_append, Fine.run]
    split
    · exact Fine.run_append
    · rfl

theorem Fine.run_watch {g : LinkCfg} : ∀ {l : List Access} {f f' : Fine}, Fine.run g f l = some f' →
    watch g.mode f.w l = some f'.w
  | [], f, f', h => by cases h; rfl
  | a :: l, f, f', h => by
    simp only [Fine.run] at h
    split at h
    · rename_i f1 h1
      simp only [watch, Fine.step_watch h1]
      exact Fine.run_watch h
    · cases h

theorem of_cons (side : AstMode) (x : AstMode × Access) (T : List (AstMode × Access)) :
    of side (x :: T) = if x.1 = side then x.2 :: of side T else of side T := by
  unfold of
  rw [List.filterMap_cons]
  split
  · rename_i h
    split at h
    · cases h
    · rename_i h2; rw [if_neg h2]
  · rename_i h
    split at h
    · rename_i h2; rw [if_pos h2]; cases h; rfl
    · cases h

theorem of_append (side : AstMode) (T T' : List (AstMode × Access)) : of side (T ++ T') = of side T ++ of side T' := by
  unfold of; exact List.filterMap_append

/-- Two sides that both keep to their part on a common piece of hardware: whatever the schedule, the joint
invariant holds in the end. -/
theorem link_run {wr : Bool} {B H : Nat} (hH : 4 ≤ H) (hHB : H ≤ B) {P Q : Fine → Prop} :
    ∀ {T : List (AstMode × Access)} {h h' : Lpc} {b t : Fine}, Joint B H h b t → Lpc.run wr h T = some h' →
      Accepts (cfgB B H) b (of .bmc T) P → Accepts (cfgH B H) t (of .host T) Q →
      ∃ b' t', Fine.run (cfgB B H) b (of .bmc T) = some b' ∧ Fine.run (cfgH B H) t (of .host T) = some t' ∧
        Joint B H h' b' t' ∧ P b' ∧ Q t'
  | [], h, h', b, t, J, hr, hP, hQ => by
    simp only [Lpc.run, Option.some.injEq] at hr
    subst hr
    exact ⟨b, t, rfl, rfl, J, hP, hQ⟩
  | (side, a) :: T, h, h', b, t, J, hr, hP, hQ => by
    simp only [Lpc.run] at hr
    split at hr
    · rename_i h1 ha
      cases side with
      | bmc =>
        have eb : of .bmc ((AstMode.bmc, a) :: T) = a :: of .bmc T := by rw [of_cons, if_pos rfl]
        have eh : of .host ((AstMode.bmc, a) :: T) = of .host T := by rw [of_cons, if_neg (by simp)]
        rw [eb] at hP ⊢
        rw [eh] at hQ ⊢
        obtain ⟨b1, hs, hP⟩ := hP (joint_rely_bmc J ha)
        obtain ⟨b', t', e1, e2, e3⟩ := link_run hH hHB (joint_bmc hH hHB J ha hs) hr hP hQ
        exact ⟨b', t', by simp only [Fine.run, hs]; exact e1, e2, e3⟩
      | host =>
        have eb : of .bmc ((AstMode.host, a) :: T) = of .bmc T := by rw [of_cons, if_neg (by simp)]
        have eh : of .host ((AstMode.host, a) :: T) = a :: of .host T := by rw [of_cons, if_pos rfl]
        rw [eb] at hP ⊢
        rw [eh] at hQ ⊢
        obtain ⟨t1, hs, hQ⟩ := hQ (joint_rely_host J ha)
        obtain ⟨b', t', e1, e2, e3⟩ := link_run hH hHB (joint_host hH hHB J ha hs) hr hP hQ
        exact ⟨b', t', e1, by simp only [Fine.run, hs]; exact e2, e3⟩
    · cases hr

theorem Lpc.run_append {wr : Bool} : ∀ {T T' : List (AstMode × Access)} {h h' : Lpc}, Lpc.run wr h (T ++ T') = some h' →
    ∃ h1, Lpc.run wr h T = some h1 ∧ Lpc.run wr h1 T' = some h'
  | [], _, h, _, hr => ⟨h, rfl, hr⟩
  | (side, a) :: T, T', h, h', hr => by
    simp only [List.cons_append, Lpc.run] at hr ⊢
    split at hr
    · rename_i h1 ha
      obtain ⟨h2, e1, e2⟩ := Lpc.run_append hr
      exact ⟨h2, e1, e2⟩
    · cases hr

theorem Accepts.split {g : LinkCfg} {P : Fine → Prop} : ∀ {l l' : List Access} {f : Fine},
    Accepts g f (l ++ l') P → Accepts g f l (fun f' => Accepts g f' l' P)
  | [], _, _, h => h
  | _ :: _, _, _, h => fun hr => by
    obtain ⟨f', h1, h2⟩ := h hr
    exact ⟨f', h1, Accepts.split h2⟩

/-- The same at every intermediate point. -/
theorem link_prefix {wr : Bool} {B H : Nat} (hH : 4 ≤ H) (hHB : H ≤ B) {P Q : Fine → Prop}
    {T T' : List (AstMode × Access)} {h h' : Lpc} {b t : Fine} (J : Joint B H h b t) (hr : Lpc.run wr h (T ++ T') = some h')
    (hP : Accepts (cfgB B H) b (of .bmc (T ++ T')) P) (hQ : Accepts (cfgH B H) t (of .host (T ++ T')) Q) :
    ∃ h1 b1 t1 b' t', Lpc.run wr h T = some h1 ∧ Fine.run (cfgB B H) b (of .bmc T) = some b1 ∧
      Fine.run (cfgH B H) t (of .host T) = some t1 ∧ Joint B H h1 b1 t1 ∧
      Fine.run (cfgB B H) b1 (of .bmc T') = some b' ∧ Fine.run (cfgH B H) t1 (of .host T') = some t' ∧
      Joint B H h' b' t' ∧ P b' ∧ Q t' := by
  obtain ⟨h1, hr1, hr2⟩ := Lpc.run_append hr
  rw [of_append] at hP hQ
  obtain ⟨b1, t1, e1, e2, J1, hP1, hQ1⟩ := link_run hH hHB J hr1 hP.split hQ.split
  obtain ⟨b', t', e3, e4, J2, hP2, hQ2⟩ := link_run hH hHB J1 hr2 hP1 hQ1
  exact ⟨h1, b1, t1, b', t', hr1, e1, e2, J1, e3, e4, J2, hP2, hQ2⟩

end Mctp
