import Verif.Proofs.AstRun
import Verif.Proofs.AstDelta

/-!
# What an accepted trace looks like
-/

namespace Mctp

open Spec

variable {E : Type}

theorem watch_split {mode : AstMode} {w w' : Watch} {pre post : List Access} {a : Access}
    (h : watch mode w (pre ++ a :: post) = some w') :
    ∃ w1 w2, watch mode w pre = some w1 ∧ w1.step mode a = some w2 ∧ watch mode w2 post = some w' := by
  rw [watch_append] at h
  cases h1 : watch mode w pre with
  | none => rw [h1] at h; simp at h
  | some w1 =>
    rw [h1] at h
    simp only [watch] at h
    cases h2 : w1.step mode a with
    | none => rw [h2] at h; simp at h
    | some w2 => rw [h2] at h; exact ⟨w1, w2, rfl, h2, h⟩

theorem step_last {mode : AstMode} {w w' : Watch} {a : Access} (h : w.step mode a = some w') : w'.last = some a := by
  unfold Watch.step at h
  repeat' split at h
  all_goals first | (simp only [Option.some.injEq] at h; subst h; rfl) | (cases h)

theorem watch_last {mode : AstMode} : ∀ {l : List Access} {w w' : Watch}, watch mode w l = some w' →
    w'.last = match l.getLast? with | some a => some a | none => w.last
  | [], w, w', h => by simp only [watch, Option.some.injEq] at h; subst h; rfl
  | a :: l, w, w', h => by
    simp only [watch] at h
    split at h
    · rename_i w1 h1
      have := watch_last h
      rw [this, step_last h1]
      cases l with
      | nil => rfl
      | cons b l => rw [List.getLast?_cons_cons]; cases hh : (b :: l).getLast? with
        | none => simp at hh
        | some x => rfl
    · cases h

theorem sawInput_last {mode : AstMode} {pre : List Access} {w : Watch} (h : watch mode Watch.zero pre = some w)
    (hs : w.sawInput mode = true) :
    ∃ (pre' : List Access) (v : Byte), pre = pre' ++ [.kcsRead .status 0 v] ∧ inputFull mode v = true := by
  have hl := watch_last h
  unfold Watch.sawInput at hs
  split at hs
  · rename_i rc v he
    simp only [Bool.and_eq_true, decide_eq_true_eq] at hs
    rw [he] at hl
    cases hg : pre.getLast? with
    | none => rw [hg] at hl; cases hl
    | some a =>
      rw [hg] at hl
      simp only [Option.some.injEq] at hl
      subst hl
      obtain ⟨ys, rfl⟩ := List.getLast?_eq_some_iff.mp hg
      obtain ⟨rfl, h2⟩ := hs
      exact ⟨ys, v, rfl, by cases mode <;> simpa [inputFull] using h2⟩
  · cases hs

theorem sawRoom_last {mode : AstMode} {pre : List Access} {w : Watch} (h : watch mode Watch.zero pre = some w)
    (hs : w.sawRoom mode = true) :
    ∃ (pre' : List Access) (v : Byte), pre = pre' ++ [.kcsRead .status 0 v] ∧ outputFull mode v = false := by
  have hl := watch_last h
  unfold Watch.sawRoom at hs
  split at hs
  · rename_i rc v he
    simp only [Bool.and_eq_true, decide_eq_true_eq] at hs
    rw [he] at hl
    cases hg : pre.getLast? with
    | none => rw [hg] at hl; cases hl
    | some a =>
      rw [hg] at hl
      simp only [Option.some.injEq] at hl
      subst hl
      obtain ⟨ys, rfl⟩ := List.getLast?_eq_some_iff.mp hg
      obtain ⟨rfl, h2⟩ := hs
      exact ⟨ys, v, rfl, by cases mode <;> simpa [outputFull] using h2⟩
  · cases hs

/-- While nothing is handed back and no new channel is started, the transmit buffer stays handed over. -/
theorem watch_handed {mode : AstMode} : ∀ {l : List Access} {w w' : Watch}, watch mode w l = some w' →
    w.tx = .handed → (∀ a ∈ l, a ≠ .kcsRead .data 0 2 ∧ ¬ NewChannel a) → w'.tx = .handed
  | [], w, w', h, ht, _ => by simp only [watch, Option.some.injEq] at h; subst h; exact ht
  | a :: l, w, w', h, ht, hn => by
    simp only [watch] at h
    split at h
    · rename_i w1 h1
      refine watch_handed h ?_ (fun x hx => hn x (List.mem_cons_of_mem _ hx))
      obtain ⟨hn1, hn2⟩ := hn a List.mem_cons_self
      unfold Watch.step at h1
      cases a with
      | kcsRead reg rc v =>
        cases reg with
        | status => simp only [Option.some.injEq] at h1; subst h1; exact ht
        | data =>
          simp only at h1
          split at h1
          · simp only [Option.some.injEq] at h1; subst h1
            simp only
            rw [if_neg]
            · exact ht
            · rintro ⟨rfl, rfl, -⟩; exact hn1 rfl
          · cases h1
      | kcsWrite reg v rc =>
        cases reg with
        | status => simp only [Option.some.injEq] at h1; subst h1; exact ht
        | data =>
          simp only [ht] at h1
          repeat' split at h1
          all_goals first
            | (rename_i hh _; exact absurd hh.2 (by simp))
            | (simp only [Option.some.injEq] at h1; subst h1; first | rfl | exact ht)
            | (cases h1)
      | lpcRead off bs rc =>
        have hoff : off ≠ 12 := by rintro rfl; exact hn2 trivial
        simp only at h1
        repeat' split at h1
        all_goals first
          | (simp only [Option.some.injEq] at h1; subst h1; exact ht)
          | (cases h1)
          | (exact absurd ‹off = 12› hoff)
      | lpcWrite off bs rc =>
        have hoff : off ≠ 12 := by rintro rfl; exact hn2 trivial
        simp only [ht] at h1
        repeat' split at h1
        all_goals first
          | (simp only [Option.some.injEq] at h1; subst h1; first | rfl | exact ht)
          | (cases h1)
          | (exact absurd ‹off = 12› hoff)
    · cases h

end Mctp
