import Verif.Proofs.Setup
import Verif.Spec.Reassembler
import Mathlib.Data.List.Perm.Subperm
import Mathlib.Data.List.Nodup
import Mathlib.Tactic.ByContra

/-! The reassembly contexts refine the ideal reassembler. -/

namespace Mctp

open Spec

variable {β : Type}

/-- The abstract state of a context table. -/
def absCtx (x : Ctx) : Partial := ⟨x.data, x.lastSeq.toNat, x.fragSize - 4⟩

def abs (t : List Ctx) : State := fun k => if k.src = 0 then none else (prog t k).map absCtx

theorem abs_of_ne {t : List Ctx} {k : Key} (h : k.src ≠ 0) : abs t k = (prog t k).map absCtx := by
  unfold abs; rw [if_neg h]

theorem prog_set_self {t : List Ctx} {j : Nat} {y : Ctx} {k : Key} (hk : k.src ≠ 0)
    (hu : Uniq (t.set j y)) (hj : j < t.length) (hy : keyOf y = k) :
    prog (t.set j y) k = some y :=
  (prog_some_iff hu hk).mpr ⟨j, by simp [hj], hy⟩

theorem prog_set_free {t : List Ctx} {j : Nat} {x y : Ctx} {k : Key} (hk : k.src ≠ 0)
    (hu : Uniq t) (hx : t[j]? = some x) (hxk : keyOf x = k ∨ prog t k = none) (hy : y.src = 0) :
    prog (t.set j y) k = none := by
  rw [prog_none_iff]
  intro l z hl hz
  rcases getElem?_set_cases hl with ⟨rfl, rfl, _⟩ | ⟨hne, hl⟩
  · exact hk (by rw [← congrArg Key.src hz]; exact hy)
  · rcases hxk with hxk | hxk
    · exact hne (hu l j z x hl hx (by rw [show z.src = k.src from congrArg Key.src hz]; exact hk)
        (hz.trans hxk.symm))
    · exact prog_none_iff.mp hxk l z hl hz

/-- A free context exists exactly when fewer than sixteen messages are in assembly. -/
theorem hasFree_iff {t : List Ctx} (hl : t.length = 16) (hu : Uniq t) :
    HasFree t ↔ ¬ Full (abs t) := by
  constructor
  · rintro ⟨x, hx, hx0⟩ ⟨ks, hnd, hlen, hks⟩
    -- the keys of the non-free contexts
    have hsub : ks ⊆ ((t.filter fun c => c.src != 0).map keyOf) := by
      intro k hk
      have h1 := hks k hk
      have hk0 : k.src ≠ 0 := by intro h0; apply h1; unfold abs; rw [if_pos h0]
      rw [abs_of_ne hk0] at h1
      cases hp : prog t k with
      | none => rw [hp] at h1; exact absurd rfl h1
      | some y =>
        obtain ⟨j, hj, hy⟩ := (prog_some_iff hu hk0).mp hp
        rw [List.mem_map]
        refine ⟨y, ?_, hy⟩
        rw [List.mem_filter]
        refine ⟨List.mem_of_getElem? hj, ?_⟩
        have : y.src ≠ 0 := by rw [show y.src = k.src from congrArg Key.src hy]; exact hk0
        simpa using this
    have h1 := List.Subperm.length_le (List.subperm_of_subset hnd hsub)
    have h2 : (t.filter fun c => c.src != 0).length < t.length := by
      apply List.length_filter_lt_length_iff_exists.mpr
      exact ⟨x, hx, by simp [hx0]⟩
    simp only [List.length_map] at h1
    omega
  · intro hf
    by_contra hno
    apply hf
    have hall : ∀ x ∈ t, x.src ≠ 0 := fun x hx h0 => hno ⟨x, hx, h0⟩
    refine ⟨t.map keyOf, ?_, by simp [hl], ?_⟩
    · rw [List.nodup_iff_injective_getElem]
      intro i j hij
      apply Fin.ext
      simp only [List.getElem_map] at hij
      have hi := i.2; have hj := j.2
      simp only [List.length_map] at hi hj
      exact hu i j t[i.1] t[j.1] (by simp [hi]) (by simp [hj]) (hall _ (List.getElem_mem _)) hij
    · intro k hk
      obtain ⟨x, hx, rfl⟩ := List.mem_map.mp hk
      obtain ⟨j, hj, rfl⟩ := List.mem_iff_getElem.mp hx
      have hs : (keyOf t[j]).src ≠ 0 := hall _ hx
      rw [abs_of_ne hs, (prog_some_iff hu hs).mpr ⟨j, by simp [hj], rfl⟩]
      simp

section own
variable {m m' : Mem} {t t' : List Ctx} {r : List Nat} {pkt : Pktbuf} {bs : List Byte} {mx : Nat}
  {f : Frag} {out : Option (List Byte)}

/-- What adding a fragment did, when it returned: the size decides, and the content is appended. -/
theorem addOk (ha : AllOk m) (hp : PktIs pkt bs) (hf : parse bs = some f) {y x' : Ctx} {ok : Bool} (hyo : CtxOk y)
    (h : ctxAddPkt m y pkt mx = .ok (m', x', ok)) :
    (ok = true ↔ Admits mx y f.payload.length) ∧ (ok = true → x'.data = y.data ++ f.payload) ∧ CtxOk x' := by
  obtain ⟨v, d, s, g, hbs, hne, _⟩ := parse_some hf
  have hlen : bs.length = f.payload.length + 4 := by rw [hbs]; simp
  have hpos : 0 < f.payload.length := List.length_pos_iff.mpr hne
  have hl : pkt.len - hdrSize = f.payload.length := by rw [hp.len, hlen]; rfl
  have hread : pkt.read (pkt.hdrOff + hdrSize) f.payload.length = .ok f.payload := by
    have := hp.read 4 f.payload.length (by omega)
    rw [show hdrSize = 4 from rfl, this, hbs]
    simp
  unfold ctxAddPkt at h
  simp only [hl] at h
  split at h
  · cases h
    exact ⟨by simp [Admits]; omega, by simp, hyo⟩
  · rename_i h1
    split at h
    · rename_i h2
      split at h
      · cases h
        exact ⟨by simp [Admits]; omega, by simp, hyo⟩
      · rename_i h3
        have hge := newAllocSize_ge y.allocSize y.data.length f.payload.length hyo.fits
        split at h
        · cases h
        · split at h
          · cases h
          · rename_i happ
            cases h
            obtain ⟨pl, i, k1, k2, k3, k4, k5, k6⟩ := ctxAppend_eq_ok happ
            rw [hread] at k1
            cases k1
            subst k6
            refine ⟨by simp [Admits]; omega, fun _ => rfl, ⟨?_, by simp⟩⟩
            simp only [List.length_append]; exact hge
        · rename_i hr
          exfalso
          unfold Mem.realloc at hr
          split at hr
          · simp [Mem.alloc, ha m.next] at hr
          · split at hr
            · simp [ha m.next] at hr
            · cases hr
    · rename_i h2
      split at h
      · cases h
      · rename_i happ
        cases h
        obtain ⟨pl, i, k1, k2, k3, k4, k5, k6⟩ := ctxAppend_eq_ok happ
        rw [hread] at k1
        cases k1
        subst k6
        refine ⟨by simp [Admits]; omega, fun _ => rfl, ⟨?_, by simpa using hyo.null⟩⟩
        simp only [List.length_append]; omega

/-- The context whose limits decide whether the fragment is accepted. -/
def deciding (t : List Ctx) (f : Frag) (b a : Nat) : Prop :=
  ∃ x ∈ t, a = x.allocSize ∧
    b = (if f.som then 0 else x.data.length) ∧ (f.som = false → prog t f.key = some x)

/-- What one fragment does to its own stream, and the numbers that decide about its size. -/
theorem ctxRx_own (ha : AllOk m) (ht : ∀ x ∈ t, CtxOk x)
    (hu : Uniq t) (hu' : Uniq t') (hp : PktIs pkt bs) (hf : parse bs = some f) (hs : f.src ≠ 0)
    (hlen : t.length = 16)
    (h : ctxRx m t mx pkt f.src f.dest (BitVec.ofNat 8 f.tag) (BitVec.ofNat 8 f.seq) f.som f.eom
      = .ok (m', t', out)) :
    ∃ room fits : Bool, (room = true ↔ HasFree t) ∧
      (abs t' f.key, out) = own room fits f (abs t f.key) ∧
      ((∃ b a, deciding t f b a ∧ b + f.payload.length = total (abs t f.key) f ∧ b ≤ a ∧
         (fits = true ↔ f.payload.length + b < sizeMod ∧
           (b + f.payload.length ≤ a ∨ newAllocSize a b f.payload.length ≤ mx))) ∨
       (∀ room' fits', (room' = true ↔ HasFree t) →
          own room' fits' f (abs t f.key) = own room fits f (abs t f.key))) := by
  obtain ⟨v, d, s, g, hbs, hne, _, _, _, _, _, _, _, htag, hsq⟩ := parse_some hf
  have hplen : pkt.len = f.payload.length + 4 := by rw [hp.len, hbs]; simp
  have hks : f.key.src ≠ 0 := hs
  have hseqN : (BitVec.ofNat 8 f.seq).toNat = f.seq := by simp; omega
  obtain ⟨room, hroom⟩ : ∃ room : Bool, room = true ↔ HasFree t := by
    by_cases h : HasFree t
    · exact ⟨true, by simp [h]⟩
    · exact ⟨false, by simp [h]⟩
  unfold ctxRx at h
  by_cases hsom : f.som
  · -- start packet
    rw [if_pos hsom] at h
    cases hpr : prog t f.key with
    | some x =>
      obtain ⟨k, hl, hx⟩ := lookup_of_prog htag hu hs hpr
      obtain ⟨y, hy, hyk⟩ := lookup_some_key htag hl
      rw [hx] at hy; simp at hy; subst hy
      have hslot : somSlot t f.src f.dest (BitVec.ofNat 8 f.tag) pkt.len
          = some (k, { x with data := [], fragSize := pkt.len }) := by
        unfold somSlot; simp [hl, hx]
      rw [hslot] at h
      have hxm := List.mem_of_getElem? hx
      have hkl := (List.getElem?_eq_some_iff.mp hx).1
      have hyo : CtxOk { x with data := [], fragSize := pkt.len } := ⟨by simp, (ht x hxm).null⟩
      obtain ⟨⟨m1, x1, ok⟩, h1, h⟩ := Res.bind_eq_ok.mp h
      obtain ⟨h2, h3, -⟩ := addOk ha hp hf hyo h1
      simp only [Except.ok.injEq, Prod.mk.injEq] at h
      obtain ⟨rfl, rfl, rfl⟩ := h
      obtain ⟨g1, g2, g3, g4, g5, g6, _⟩ := ctxAddPkt_fields h1
      refine ⟨room, ok, hroom, ?_, .inl ⟨0, x.allocSize, ⟨x, hxm, rfl, by simp [hsom], by simp [hsom]⟩, ?_, by omega, ?_⟩⟩
      · rw [abs_of_ne hks, abs_of_ne hks, hpr]
        unfold own
        have hc : ¬ (Option.map absCtx (some x) = none ∧ room = false) := by simp
        rw [if_pos hsom, if_neg hc]
        cases ok with
        | true =>
          rw [if_pos rfl] at hu' ⊢
          obtain ⟨k1, k2, k3⟩ := (keyOf_eq_iff htag).mp hyk
          rw [prog_set_self hks hu' hkl ((keyOf_eq_iff htag).mpr ⟨g1.trans k1, g2.trans k2, g3.trans k3⟩)]
          simp only [Option.map_some, absCtx, h3 rfl, g5, hplen, hseqN, if_true]
          simp
        | false =>
          rw [if_neg (by simp), if_neg (by simp), prog_set_free hks hu hx (.inl hyk) rfl]; rfl
      · simp [total, hsom]
      · rw [h2]; unfold Admits; simp only [List.length_nil]
    | none =>
      have hl := lookup_none_of_prog htag hpr
      cases hfi : t.findIdx? (fun c => c.src == 0) with
      | none =>
        have hnf : ¬ HasFree t := by
          rintro ⟨x0, hx0, hx0s⟩
          rw [List.findIdx?_eq_none_iff] at hfi
          have := hfi x0 hx0; simp [hx0s] at this
        have hslot : somSlot t f.src f.dest (BitVec.ofNat 8 f.tag) pkt.len = none := by
          unfold somSlot; simp only [hl, hfi]
        rw [hslot] at h
        simp only [Except.ok.injEq, Prod.mk.injEq] at h
        obtain ⟨rfl, rfl, rfl⟩ := h
        have hrf : ∀ b : Bool, (b = true ↔ HasFree t) → b = false := by
          intro b hb; cases b <;> simp_all
        refine ⟨room, true, hroom, ?_, .inr ?_⟩
        · rw [abs_of_ne hks, hpr]
          unfold own
          rw [if_pos hsom, hrf room hroom]; simp
        · intro room' fits' hr'
          rw [abs_of_ne hks, hpr, hrf room' hr', hrf room hroom]
          unfold own; rw [if_pos hsom, if_pos hsom]; simp
      | some k =>
        obtain ⟨q1, q2, q3⟩ := List.findIdx?_eq_some_iff_getElem.mp hfi
        have hx : t[k]? = some t[k] := by simp [q1]
        have hx0 : t[k].src = 0 := by simpa using q2
        have hfree : HasFree t := ⟨t[k], List.getElem_mem _, hx0⟩
        have hrt : room = true := hroom.mpr hfree
        subst hrt
        have hslot : somSlot t f.src f.dest (BitVec.ofNat 8 f.tag) pkt.len
            = some (k, { t[k] with src := f.src, dest := f.dest, tag := BitVec.ofNat 8 f.tag, data := [], fragSize := pkt.len }) := by
          unfold somSlot; simp only [hl, hfi, hx, Option.map_some]
        rw [hslot] at h
        have hxm := List.mem_of_getElem? hx
        have hyo : CtxOk { t[k] with src := f.src, dest := f.dest, tag := BitVec.ofNat 8 f.tag, data := [], fragSize := pkt.len } := ⟨by simp, (ht t[k] hxm).null⟩
        obtain ⟨⟨m1, x1, ok⟩, h1, h⟩ := Res.bind_eq_ok.mp h
        obtain ⟨h2, h3, -⟩ := addOk ha hp hf hyo h1
        simp only [Except.ok.injEq, Prod.mk.injEq] at h
        obtain ⟨rfl, rfl, rfl⟩ := h
        obtain ⟨g1, g2, g3, g4, g5, g6, _⟩ := ctxAddPkt_fields h1
        refine ⟨true, ok, hroom, ?_, .inl ⟨0, t[k].allocSize, ⟨t[k], hxm, rfl, by simp [hsom], by simp [hsom]⟩, ?_, by omega, ?_⟩⟩
        · rw [abs_of_ne hks, abs_of_ne hks, hpr]
          unfold own
          have hc : ¬ (Option.map absCtx (none : Option Ctx) = none ∧ true = false) := by simp
          rw [if_pos hsom, if_neg hc]
          cases ok with
          | true =>
            rw [if_pos rfl] at hu' ⊢
            rw [prog_set_self hks hu' q1 ((keyOf_eq_iff htag).mpr ⟨g1, g2, g3⟩)]
            simp only [Option.map_some, absCtx, h3 rfl, g5, hplen, hseqN, if_true]
            simp
          | false =>
            rw [if_neg (by simp), if_neg (by simp), prog_set_free hks hu hx (.inr hpr) rfl]; rfl
        · simp [total, hsom]
        · rw [h2]; unfold Admits; simp only [List.length_nil]
  · -- middle or end packet
    rw [if_neg hsom] at h
    have hsf : f.som = false := by simpa using hsom
    cases hpr : prog t f.key with
    | none =>
      rw [lookup_none_of_prog htag hpr] at h
      simp only [Except.ok.injEq, Prod.mk.injEq] at h
      obtain ⟨rfl, rfl, rfl⟩ := h
      refine ⟨room, true, hroom, ?_, .inr ?_⟩
      · rw [abs_of_ne hks, hpr]; unfold own; simp [hsf]
      · intro room' fits' _
        rw [abs_of_ne hks, hpr]; unfold own; simp [hsf]
    | some x =>
      obtain ⟨k, hl, hx⟩ := lookup_of_prog htag hu hs hpr
      obtain ⟨y, hy, hyk⟩ := lookup_some_key htag hl
      rw [hx] at hy; simp at hy; subst hy
      have hxm := List.mem_of_getElem? hx
      have hkl := (List.getElem?_eq_some_iff.mp hx).1
      simp only [hl, hx] at h
      have hseqiff : (BitVec.ofNat 8 ((x.lastSeq.toNat + 1) % 4) ≠ BitVec.ofNat 8 f.seq) ↔
          ¬ f.seq = (x.lastSeq.toNat + 1) % 4 := by
        rw [not_iff_not]
        constructor
        · intro h
          have := congrArg BitVec.toNat h
          simp at this; omega
        · intro h; rw [h]
      have hdrop : prog (t.set k x.drop) f.key = none := prog_set_free hks hu hx (.inl hyk) rfl
      have hA : abs t f.key = some (absCtx x) := by rw [abs_of_ne hks, hpr]; rfl
      have hcx := ht x hxm
      by_cases hsq1 : f.seq = (x.lastSeq.toNat + 1) % 4
      · rw [if_neg (by rw [hseqiff]; simp [hsq1])] at h
        have hlenok : ¬ (if f.eom then pkt.len > x.fragSize else pkt.len ≠ x.fragSize) →
            (if f.eom then f.payload.length ≤ (absCtx x).fragLen else f.payload.length = (absCtx x).fragLen) := by
          rw [hplen]; unfold absCtx
          cases f.eom <;> simp <;> omega
        have hlenok' : (if f.eom then f.payload.length ≤ (absCtx x).fragLen else f.payload.length = (absCtx x).fragLen) → ¬ (if f.eom then pkt.len > x.fragSize else pkt.len ≠ x.fragSize) := by
          rw [hplen]; unfold absCtx
          have : 0 < f.payload.length := List.length_pos_iff.mpr hne
          cases f.eom <;> simp <;> omega
        by_cases hfl : (if f.eom then pkt.len > x.fragSize else pkt.len ≠ x.fragSize)
        · rw [if_pos hfl] at h
          simp only [Except.ok.injEq, Prod.mk.injEq] at h
          obtain ⟨rfl, rfl, rfl⟩ := h
          have hbad : ∀ b, own room b f (abs t f.key) = (none, none) := by
            intro b; rw [hA]; unfold own
            rw [if_neg hsom]; simp only
            rw [if_neg]; rintro ⟨-, -, h3⟩; exact hlenok' h3 hfl
          have hbad' : ∀ r b, own r b f (abs t f.key) = (none, none) := by
            intro r b; rw [hA]; unfold own
            rw [if_neg hsom]; simp only
            rw [if_neg]; rintro ⟨-, -, h3⟩; exact hlenok' h3 hfl
          refine ⟨room, true, hroom, ?_, .inr ?_⟩
          · rw [hbad' room, abs_of_ne hks, hdrop]; rfl
          · intro r b _; rw [hbad', hbad']
        · rw [if_neg hfl] at h
          obtain ⟨⟨m1, x1, ok⟩, h1, h⟩ := Res.bind_eq_ok.mp h
          obtain ⟨h2, h3, -⟩ := addOk ha hp hf (ht x hxm) h1
          obtain ⟨g1, g2, g3, g4, g5, g6, _⟩ := ctxAddPkt_fields h1
          simp only at h
          have hx1free : x1.drop.src = 0 := rfl
          refine ⟨room, ok, hroom, ?_, .inl ⟨x.data.length, x.allocSize, ⟨x, hxm, rfl, by simp [hsf], fun _ => hpr⟩, ?_, hcx.fits, ?_⟩⟩
          · rw [hA]
            unfold own
            rw [if_neg hsom]
            simp only
            cases ok with
            | false =>
              rw [if_neg (by simp)]
              split at h
              · simp only [Except.ok.injEq, Prod.mk.injEq] at h
                obtain ⟨rfl, rfl, rfl⟩ := h
                rw [abs_of_ne hks, prog_set_free hks hu hx (.inl hyk) hx1free]; simp
              · simp only [Except.ok.injEq, Prod.mk.injEq] at h
                obtain ⟨rfl, rfl, rfl⟩ := h
                rw [abs_of_ne hks, if_neg (by simp), prog_set_free hks hu hx (.inl hyk) hx1free]; simp
            | true =>
              rw [if_pos ⟨hsq1, rfl, hlenok hfl⟩]
              split at h
              · rename_i he
                simp only [Except.ok.injEq, Prod.mk.injEq, if_true] at h
                obtain ⟨rfl, rfl, rfl⟩ := h
                rw [abs_of_ne hks, prog_set_free hks hu hx (.inl hyk) hx1free, if_pos he, h3 rfl]; rfl
              · rename_i he
                simp only [Except.ok.injEq, Prod.mk.injEq, if_true] at h
                obtain ⟨rfl, rfl, rfl⟩ := h
                obtain ⟨k1, k2, k3⟩ := (keyOf_eq_iff htag).mp hyk
                rw [abs_of_ne hks, prog_set_self hks hu' hkl ((keyOf_eq_iff htag).mpr ⟨g1.trans k1, g2.trans k2, g3.trans k3⟩), if_neg he]
                simp only [Option.map_some, absCtx, h3 rfl, g5, hseqN]
          · simp [total, hsf, hA, absCtx]
          · rw [h2]; rfl
      · rw [if_pos (hseqiff.mpr hsq1)] at h
        simp only [Except.ok.injEq, Prod.mk.injEq] at h
        obtain ⟨rfl, rfl, rfl⟩ := h
        have hbad' : ∀ r b, own r b f (abs t f.key) = (none, none) := by
          intro r b; rw [hA]; unfold own
          rw [if_neg hsom]; simp only
          rw [if_neg]; rintro ⟨h1, -, -⟩; exact hsq1 h1
        refine ⟨room, true, hroom, ?_, .inr ?_⟩
        · rw [hbad', abs_of_ne hks, hdrop]; rfl
        · intro r b _; rw [hbad', hbad']

end own

/-! ## Allocation sizes -/

/-- A size policy: `A` holds of all buffer sizes, `P` of all payload lengths; then the library's
decision about the size satisfies `lim`. -/
structure Pol (mx : Nat) (A P : Nat → Prop) (lim : Nat → Bool → Prop) : Prop where
  zero : A 0
  grow : ∀ a b n, A a → b ≤ a → a < b + n → P n → newAllocSize a b n ≤ mx →
    A (newAllocSize a b n)
  dec  : ∀ a b n (fits : Bool), A a → b ≤ a → P n → 
    (fits = true ↔ n + b < sizeMod ∧ (b + n ≤ a ∨ newAllocSize a b n ≤ mx)) → lim (b + n) fits

theorem Pol.loose {mx : Nat} (hmx : mx < 2 ^ 64) :
    Pol mx (fun a => a ≤ mx) (fun _ => True) (loose mx) where
  zero := Nat.zero_le _
  grow := fun a b n _ _ _ _ h => h
  dec := by
    intro a b n fits ha hb _ hf
    have hge := newAllocSize_ge a b n hb
    refine ⟨fun h => ?_, fun h1 h2 => ?_⟩
    · have := hf.mp h; omega
    · rw [hf]
      refine ⟨by simp only [sizeMod]; omega, ?_⟩
      by_cases hle : b + n ≤ a
      · exact .inl hle
      · right; unfold newAllocSize; split <;> omega

theorem Pol.exact {mx k : Nat} (hk : mx = 4096 * 2 ^ k) (hmx : mx < 2 ^ 64) :
    Pol mx (fun a => a ≤ mx ∧ (a = 0 ∨ ∃ j, a = 4096 * 2 ^ j)) (fun n => n ≤ 4096) (exact mx) where
  zero := ⟨Nat.zero_le _, .inl rfl⟩
  grow := by
    intro a b n ⟨_, ha⟩ hb hlt hn h
    refine ⟨h, .inr ?_⟩
    unfold newAllocSize
    rcases ha with rfl | ⟨j, rfl⟩
    · exact ⟨0, by simp; omega⟩
    · have hpos : 1 ≤ 2 ^ j := Nat.one_le_two_pow
      refine ⟨j + 1, ?_⟩
      rw [if_neg (by omega), Nat.pow_succ]; omega
  dec := by
    intro a b n fits ⟨ham, ha⟩ hb hn hf
    have hge := newAllocSize_ge a b n hb
    unfold Mctp.Spec.exact
    rw [hf]
    refine ⟨fun h => by omega, fun h => ⟨by simp only [sizeMod]; omega, ?_⟩⟩
    by_cases hle : b + n ≤ a
    · exact .inl hle
    · right
      unfold newAllocSize
      have hkp : 1 ≤ 2 ^ k := Nat.one_le_two_pow
      rcases ha with rfl | ⟨j, rfl⟩
      · simp; omega
      · have hpos : 1 ≤ 2 ^ j := Nat.one_le_two_pow
        have hjk : j < k := by
          by_contra hc
          have := Nat.pow_le_pow_right (n := 2) (by omega) (Nat.le_of_not_lt hc)
          omega
        have h2 := Nat.pow_le_pow_right (n := 2) (by omega) (show j + 1 ≤ k from hjk)
        rw [if_neg (by omega), Nat.pow_succ] at *
        omega

theorem ctxRx_alloc {m m' : Mem} {t t' : List Ctx} {mx : Nat} {pkt : Pktbuf} {s d g q : Byte}
    {som eom : Bool} {out : Option (List Byte)} {A P : Nat → Prop} {lim : Nat → Bool → Prop}
    (hpol : Pol mx A P lim) (hA : ∀ x ∈ t, A x.allocSize) (ht : ∀ x ∈ t, CtxOk x)
    (hP : P (pkt.len - 4)) (h : ctxRx m t mx pkt s d g q som eom = .ok (m', t', out)) :
    ∀ x ∈ t', A x.allocSize := by
  have hadd : ∀ x x1 m1 ok, A x.allocSize → x.data.length ≤ x.allocSize →
      ctxAddPkt m x pkt mx = .ok (m1, x1, ok) → A x1.allocSize := by
    intro x x1 m1 ok hxA hxf h1
    rcases ctxAddPkt_cases h1 with ⟨_, _, rfl⟩ | ⟨_, rfl, _⟩ | ⟨_, b, n, pl, hgt, rfl, hle, _, _, _, _, _, rfl⟩ | ⟨_, _, i, pl, _, _, _, _, _, rfl⟩
    · exact hxA
    · exact hxA
    · exact hpol.grow _ _ _ hxA hxf hgt hP hle
    · exact hxA
  have hset : ∀ k (y : Ctx), A y.allocSize → ∀ z ∈ t.set k y, A z.allocSize := by
    intro k y hy z hz
    rcases mem_set_cases hz with hz | rfl
    · exact hA z hz
    · exact hy
  unfold ctxRx at h
  split at h
  · split at h
    · simp only [Except.ok.injEq, Prod.mk.injEq] at h
      obtain ⟨_, rfl, _⟩ := h; exact hA
    · rename_i k y hsl
      have hy : A y.allocSize ∧ y.data = [] := by
        unfold somSlot at hsl
        split at hsl
        · cases hx : t[‹Nat›]? with
          | none => rw [hx] at hsl; cases hsl
          | some x =>
            rw [hx] at hsl
            simp only [Option.map_some, Option.some.injEq, Prod.mk.injEq] at hsl
            obtain ⟨_, rfl⟩ := hsl
            exact ⟨hA x (List.mem_of_getElem? hx), rfl⟩
        · split at hsl
          · cases hsl
          · cases hx : t[‹Nat›]? with
            | none => rw [hx] at hsl; cases hsl
            | some x =>
              rw [hx] at hsl
              simp only [Option.map_some, Option.some.injEq, Prod.mk.injEq] at hsl
              obtain ⟨_, rfl⟩ := hsl
              exact ⟨hA x (List.mem_of_getElem? hx), rfl⟩
      obtain ⟨⟨m1, x1, ok⟩, h1, h⟩ := Res.bind_eq_ok.mp h
      simp only [Except.ok.injEq, Prod.mk.injEq] at h
      obtain ⟨_, rfl, _⟩ := h
      have := hadd y x1 m1 ok hy.1 (by simp [hy.2]) h1
      refine hset _ _ ?_
      split <;> exact this
  · split at h
    · simp only [Except.ok.injEq, Prod.mk.injEq] at h
      obtain ⟨_, rfl, _⟩ := h; exact hA
    · split at h
      · cases h
      · rename_i k _ x hx
        have hxm := List.mem_of_getElem? hx
        have hxA := hA x hxm
        split at h
        · simp only [Except.ok.injEq, Prod.mk.injEq] at h
          obtain ⟨_, rfl, _⟩ := h; exact hset _ _ hxA
        · by_cases hfl : (if eom then pkt.len > x.fragSize else pkt.len ≠ x.fragSize)
          · rw [if_pos hfl] at h
            simp only [Except.ok.injEq, Prod.mk.injEq] at h
            obtain ⟨_, rfl, _⟩ := h; exact hset _ _ hxA
          · rw [if_neg hfl] at h
            obtain ⟨⟨m1, x1, ok⟩, h1, h⟩ := Res.bind_eq_ok.mp h
            have := hadd x x1 m1 ok hxA (ht x hxm).fits h1
            simp only at h
            split at h
            · simp only [Except.ok.injEq, Prod.mk.injEq] at h
              obtain ⟨_, rfl, _⟩ := h
              exact hset _ _ this
            · simp only [Except.ok.injEq, Prod.mk.injEq] at h
              obtain ⟨_, rfl, _⟩ := h
              refine hset _ _ ?_
              split <;> exact this

/-! ## Lifting to histories -/

/-- A received packet satisfies the length predicate. -/
def PktP (P : Nat → Prop) (op : Op β) : Prop :=
  match op with
  | .recv _ bs => P (bs.length - 4)
  | .setMax _ => False
  | .setRx _ => False
  | _ => True

/-- Invariant for the refinement. -/
structure RefInv {ops : Ops β} (K : Contract ops) (eid : Byte) (mx : Nat) (A : Nat → Prop) (base : List Nat) (evs : List Event)
    (c : Core β) : Prop where
  ep   : EpInv eid evs c
  mem  : MemInv K base c
  rx   : c.hasRx = true
  max  : c.maxSize = mx
  all  : ∀ x ∈ c.ctxs, A x.allocSize

theorem deliveries_route {c : Core β} (hr : c.hasRx = true) (i : Nat) (bus : Bus β) (s : Byte)
    (own : Bool) (g : Byte) (msg : List Byte) :
    deliveries (routeEvents c i bus s own g msg) = [(s, msg)] := by
  unfold routeEvents
  split
  · rfl
  · rfl

theorem deliveries_capIn (c : Core β) (bs : List Byte) : deliveries (capIn c bs) = [] := by
  unfold deliveries
  rw [List.filterMap_eq_nil_iff]
  exact capIn_delivered c bs

theorem deliveries_append (a b : List Event) : deliveries (a ++ b) = deliveries a ++ deliveries b := by
  unfold deliveries; exact List.filterMap_append

theorem deliveries_recv (i : Nat) (p : List Byte) (e : List Event) :
    deliveries (.recv i p :: e) = deliveries e := by
  unfold deliveries; rfl

/-- What one fragment does, in terms of the ideal reassembler. -/
theorem ctxRx_fragStep {mx : Nat} {A P : Nat → Prop} {lim : Nat → Bool → Prop} (hpol : Pol mx A P lim)
    {evs evs' : List Event} {c : Core β} {loc loc' : Byte → Prop} {bs : List Byte}
    {m1 : Mem} {pkt : Pktbuf} {f : Frag} {t : List Ctx} {out : Option (List Byte)}
    (hok : AllOk c.mem) (hctx : ∀ x ∈ c.ctxs, CtxOk x) (htbl : TblInv loc evs c.ctxs) (hI' : TblInv loc' evs' t)
    (hmax : c.maxSize = mx) (hall : ∀ x ∈ c.ctxs, A x.allocSize) (hP : P (bs.length - 4))
    (hp : PktIs pkt bs) (hf : parse bs = some f)
    (hc : ctxRx c.mem c.ctxs c.maxSize pkt f.src f.dest (BitVec.ofNat 8 f.tag) (BitVec.ofNat 8 f.seq)
      f.som f.eom = .ok (m1, t, out)) :
    (f.src = 0 → abs t = abs c.ctxs) ∧ (f.src ≠ 0 → FragStep lim (abs c.ctxs) f (abs t) out) ∧
      (∀ x ∈ t, A x.allocSize) := by
  obtain ⟨v, d, s, g, hbs, hne, _, _, _, _, _, _, _, htag, hsq⟩ := parse_some hf
  have hblen : bs.length - 4 = f.payload.length := by rw [hbs]; simp
  have hplen : pkt.len - 4 = f.payload.length := by rw [hp.len]; exact hblen
  have hiso : ∀ k, k.src ≠ 0 → f.key ≠ k → abs t k = abs c.ctxs k := by
    intro k hk hne
    rw [abs_of_ne hk, abs_of_ne hk, ctxRx_isolated htag htbl.uniq' hI'.uniq' hc hk hne]
  have hzero : ∀ k (t : List Ctx), k.src = 0 → abs t k = none := by
    intro k t hk; unfold abs; rw [if_pos hk]
  refine ⟨?_, ?_, ?_⟩
  · intro hs0
    funext k
    by_cases hk : k.src = 0
    · rw [hzero _ _ hk, hzero _ _ hk]
    · refine hiso k hk ?_
      intro he; exact hk (by rw [← he]; exact hs0)
  · intro hs0
    obtain ⟨room, fits, hroom, heq, hdec⟩ := ctxRx_own hok hctx htbl.uniq' hI'.uniq' hp hf hs0 htbl.len hc
    have hroom' : room = true ↔ ¬ Full (abs c.ctxs) :=
      hroom.trans (hasFree_iff htbl.len htbl.uniq')
    have hother : ∀ k, k ≠ f.key → abs t k = abs c.ctxs k := by
      intro k hk
      by_cases hk0 : k.src = 0
      · rw [hzero _ _ hk0, hzero _ _ hk0]
      · exact hiso k hk0 (fun h => hk h.symm)
    rcases hdec with ⟨b, a, ⟨x, hxm, hax, -⟩, htot, hba, hfits⟩ | hany
    · refine ⟨room, fits, hroom', ?_, heq, hother⟩
      rw [← htot]
      rw [hmax] at hfits
      exact hpol.dec a b _ fits (by rw [hax]; exact hall x hxm) hba (by rw [← hblen]; exact hP) hfits
    · -- the size does not matter: answer as the policy would for an empty buffer
      obtain ⟨fits', hf'⟩ : ∃ fits', lim (total (abs c.ctxs f.key) f) fits' := by
        by_cases hsom : f.som = true
        · refine ⟨decide (f.payload.length + 0 < sizeMod ∧ (0 + f.payload.length ≤ 0 ∨ newAllocSize 0 0 f.payload.length ≤ mx)), ?_⟩
          have := hpol.dec 0 0 f.payload.length _ hpol.zero (Nat.le_refl _) (by rw [← hblen]; exact hP) decide_eq_true_iff
          simpa [total, hsom] using this
        · cases hq : prog c.ctxs f.key with
          | none =>
            refine ⟨decide (f.payload.length + 0 < sizeMod ∧ (0 + f.payload.length ≤ 0 ∨ newAllocSize 0 0 f.payload.length ≤ mx)), ?_⟩
            have := hpol.dec 0 0 f.payload.length _ hpol.zero (Nat.le_refl _) (by rw [← hblen]; exact hP) decide_eq_true_iff
            have hks : f.key.src ≠ 0 := hs0
            simpa [total, hsom, abs_of_ne hks, hq] using this
          | some y =>
            have hks : f.key.src ≠ 0 := hs0
            obtain ⟨j, hj, -⟩ := (prog_some_iff htbl.uniq' hks).mp hq
            have hym := List.mem_of_getElem? hj
            refine ⟨decide (f.payload.length + y.data.length < sizeMod ∧ (y.data.length + f.payload.length ≤ y.allocSize ∨ newAllocSize y.allocSize y.data.length f.payload.length ≤ mx)), ?_⟩
            have := hpol.dec y.allocSize y.data.length f.payload.length _ (hall y hym) (hctx y hym).fits (by rw [← hblen]; exact hP) decide_eq_true_iff
            simpa [total, hsom, abs_of_ne hks, hq, absCtx] using this
      exact ⟨room, fits', hroom', hf', by rw [heq, hany room fits' hroom], hother⟩
  · have hc' := hc
    rw [hmax] at hc'
    exact ctxRx_alloc hpol hall hctx (by rw [hplen, ← hblen]; exact hP) hc'

theorem PktStep_weak {ops : Ops β} {eid : Byte} {mx : Nat} {A P : Nat → Prop}
    {lim : Nat → Bool → Prop} (hpol : Pol mx A P lim)
    {evs e : List Event} {c c' : Core β} {i : Nat} {pkt : Pktbuf} {bs : List Byte}
    (hep : EpInv eid evs c) (hok : AllOk c.mem) (hctx : ∀ x ∈ c.ctxs, CtxOk x) (hrx : c.hasRx = true) (hmax : c.maxSize = mx)
    (hall : ∀ x ∈ c.ctxs, A x.allocSize) (hI' : TblInv (Local eid) (evs ++ e) c'.ctxs)
    (hP : P (bs.length - 4)) (hp : PktIs pkt bs)
    (h : c.busRx ops i pkt = .ok (c', e)) :
    PktStep lim eid (abs c.ctxs) bs (abs c'.ctxs) (deliveries e) ∧
      c'.hasRx = true ∧ c'.maxSize = mx ∧ (∀ x ∈ c'.ctxs, A x.allocSize) := by
  obtain ⟨bus, rfl, hbe, hbus, hh⟩ := busRx_endpoint hep.noBridge hep.eids hp h
  rcases hh with ⟨hpn, rfl, m, rfl⟩ | ⟨f, hf, hh⟩
  · refine ⟨?_, hrx, hmax, hall⟩
    unfold PktStep; rw [hpn]; exact ⟨rfl, rfl⟩
  · rcases hh with ⟨hl, rfl, m, rfl⟩ | ⟨hl, hsg, rfl, m, rfl⟩ | ⟨hl, hsg, m1, m2, t, out, hc, -, rfl, rfl⟩
    · refine ⟨?_, hrx, hmax, hall⟩
      unfold PktStep; rw [hf]; simp only; rw [if_pos hl]
      exact ⟨trivial, by rw [deliveries_recv, deliveries_capIn]⟩
    · refine ⟨?_, hrx, hmax, hall⟩
      unfold PktStep; rw [hf]; simp only; rw [if_neg (by simpa using hl), if_pos hsg]
      refine ⟨trivial, ?_⟩
      rw [deliveries_recv, deliveries_append, deliveries_capIn, deliveries_route hrx]; rfl
    · obtain ⟨q1, q2, q3⟩ := ctxRx_fragStep hpol hok hctx hep.tbl hI' hmax hall hP hp hf hc
      refine ⟨?_, hrx, hmax, q3⟩
      unfold PktStep; rw [hf]; simp only; rw [if_neg (by simpa using hl), if_neg (by simp [hsg])]
      split
      · rename_i hs0; exact q1 hs0
      · rename_i hs0
        refine ⟨out, q2 hs0, ?_⟩
        rw [deliveries_recv, deliveries_append, deliveries_capIn]
        cases out with
        | none => rfl
        | some msg => simp only [deliveries_route hrx]; rfl

theorem PktStep_of {ops : Ops β} {K : Contract ops} {eid : Byte} {mx : Nat} {A P : Nat → Prop}
    {lim : Nat → Bool → Prop} (hpol : Pol mx A P lim)
    {base : List Nat} {evs e : List Event} {c c' : Core β} {i : Nat} {pkt : Pktbuf} {bs : List Byte}
    (hI : RefInv K eid mx A (pkt.id :: base) evs c) (hI' : TblInv (Local eid) (evs ++ e) c'.ctxs)
    (hP : P (bs.length - 4)) (hp : PktIs pkt bs)
    (h : c.busRx ops i pkt = .ok (c', e)) :
    PktStep lim eid (abs c.ctxs) bs (abs c'.ctxs) (deliveries e) ∧
      c'.hasRx = true ∧ c'.maxSize = mx ∧ (∀ x ∈ c'.ctxs, A x.allocSize) :=
  PktStep_weak hpol hI.ep hI.mem.ok hI.mem.ctxs hI.rx hI.max hI.all hI' hP hp h

/-- Delivering a packet buffer: refinement of the ideal reassembler. -/
theorem busRx_ref {ops : Ops β} (K : Contract ops) {eid : Byte} {mx : Nat} {A P : Nat → Prop}
    {lim : Nat → Bool → Prop} (hpol : Pol mx A P lim) {base : List Nat} {evs : List Event}
    {c : Core β} {pkt : Pktbuf} {bs : List Byte} (hI : RefInv K eid mx A (pkt.id :: base) evs c)
    (hp : PktIs pkt bs) (hP : P (bs.length - 4)) :
    ∃ c' e, c.busRx ops 0 pkt = .ok (c', e) ∧ RefInv K eid mx A base (evs ++ e) c' ∧
      PktStep lim eid (abs c.ctxs) bs (abs c'.ctxs) (deliveries e) := by
  obtain ⟨c', e, hs, hm, -⟩ := busRx_total K hI.mem hp hI.mem.pos
  have hep := busRx_epInv hI.ep hp hs
  obtain ⟨h1, h2, h3, h4⟩ := PktStep_of hpol hI hep.tbl hP hp hs
  exact ⟨c', e, hs, ⟨hep, hm, h2, h3, h4⟩, h1⟩

/-- The state in which a received packet is handed to the core. -/
theorem RefInv.alloc {ops : Ops β} {K : Contract ops} {eid : Byte} {mx : Nat} {A : Nat → Prop}
    {base : List Nat} {evs : List Event} {c : Core β} (hI : RefInv K eid mx A base evs c) {id : Nat}
    {m : Mem} (ha : c.mem.alloc = (some id, m)) :
    RefInv K eid mx A (id :: base) evs { c with mem := m } :=
   ⟨⟨hI.ep.noBridge, hI.ep.eids, hI.ep.tbl⟩, hI.mem.alloc ha, hI.rx, hI.max, hI.all⟩

/-- Received packets with the messages delivered because of them. -/
def rxTrace (log : List (Rec β)) : List (List Byte × List (Byte × List Byte)) :=
  log.filterMap fun r => match r.op with
    | .recv _ bs => some (bs, deliveries r.evs)
    | _ => none

theorem step_ref {ops : Ops β} (K : Contract ops) {eid : Byte} {mx : Nat} {A P : Nat → Prop}
    {lim : Nat → Bool → Prop} (hpol : Pol mx A P lim) {base : List Nat} {evs : List Event}
    {c : Core β} (hI : RefInv K eid mx A base evs c) {op : Op β} (hop : OpOk K c op) (hP : PktP P op) :
    ∃ c' e rc, c.step ops op = .ok (c', e, rc) ∧ RefInv K eid mx A base (evs ++ e) c' ∧
      (match op with
       | .recv _ bs => PktStep lim eid (abs c.ctxs) bs (abs c'.ctxs) (deliveries e)
       | _ => abs c'.ctxs = abs c.ctxs ∧ deliveries e = []) := by
  obtain ⟨c', e, rc, hs, hm⟩ := step_total K hI.mem hop
  have hep := step_epInv hI.ep hs
  refine ⟨c', e, rc, hs, ?_⟩
  by_cases hr : ∃ i bs, op = .recv i bs
  · obtain ⟨i, bs, rfl⟩ := hr
    simp only [Core.step] at hs
    obtain ⟨⟨c1, e1⟩, hrx, h⟩ := Res.bind_eq_ok.mp hs
    simp only [Except.ok.injEq, Prod.mk.injEq] at h
    obtain ⟨rfl, rfl, -⟩ := h
    rcases rxPacket_cases hrx with ⟨bus, m, hb, hcause, _, _⟩ | ⟨bus, m0, pkt, hbus, ha, hp, hh⟩
    · exfalso
      obtain ⟨bus', hg, hle⟩ := hop
      obtain ⟨_, hg', _⟩ := busAt_ok hb
      rw [hg] at hg'; simp at hg'; subst hg'
      rcases hcause with hn | hlt
      · simp [Mem.alloc, hI.mem.ok c.mem.next] at hn
      · omega
    · obtain ⟨h1, h2, h3, h4⟩ := PktStep_of hpol (hI.alloc ha) hep.tbl hP hp hh
      exact ⟨⟨hep, hm, h2, h3, h4⟩, h1⟩
  · have hr' : ∀ i bs, op ≠ .recv i bs := fun i bs h => hr ⟨i, bs, h⟩
    obtain ⟨htxe, m, bs, hr2, hc2, mx2, rfl, _, hmx, hhr⟩ := step_frame hr' hs
    have e1 : mx2 = c.maxSize := hmx (by rintro n rfl; exact hP)
    have e2 : hr2 = c.hasRx := hhr (by rintro n rfl; exact hP)
    refine ⟨⟨hep, hm, by rw [← hI.rx]; exact e2, by rw [← hI.max]; exact e1, hI.all⟩, ?_⟩
    have hd := isTx_not_delivered htxe
    cases op with
    | recv i bs => exact absurd rfl (hr' i bs)
    | _ => exact ⟨rfl, hd⟩

theorem run_ref {ops : Ops β} (K : Contract ops) {eid : Byte} {mx : Nat} {A P : Nat → Prop}
    {lim : Nat → Bool → Prop} (hpol : Pol mx A P lim) {base : List Nat} {hist : List (Op β)} :
    ∀ {evs : List Event} {c : Core β}, RefInv K eid mx A base evs c → HistOk K c hist →
      (∀ op ∈ hist, PktP P op) →
    ∃ c' log, c.run ops hist = .ok (c', log) ∧ RefInv K eid mx A base (evs ++ events log) c' ∧
      Reasm lim eid (abs c.ctxs) (rxTrace log) (abs c'.ctxs) ∧ log.map (·.op) = hist ∧
      (∀ r ∈ log, (∀ i bs, r.op ≠ .recv i bs) → deliveries r.evs = []) := by
  induction hist with
  | nil => intro evs c hI _ _; exact ⟨c, [], rfl, by simpa [events] using hI, rfl, rfl, by simp⟩
  | cons op rest ih =>
    intro evs c hI hok hP
    obtain ⟨c1, e, rc, hs, hI1, hst⟩ := step_ref K hpol hI hok.1 (hP op (by simp))
    obtain ⟨c2, log, hr, hI2, hre, hops, hoth⟩ := ih hI1 (hok.2 _ _ _ hs) (fun o ho => hP o (by simp [ho]))
    refine ⟨c2, { op := op, evs := e, rc := rc } :: log, ?_, ?_, ?_, by simp [hops], ?_⟩
    · simp only [Core.run, hs, Res.bind_ok, hr]
    · simpa [events] using hI2
    · cases op with
      | recv i bs => exact ⟨_, hst, hre⟩
      | _ =>
        simp only [rxTrace, List.filterMap_cons] at hre ⊢
        rw [hst.1] at hre; exact hre
    · intro r hr hne
      rcases List.mem_cons.mp hr with rfl | hr
      · cases op with
        | recv i bs => exact absurd rfl (hne i bs)
        | _ => exact hst.2
      · exact hoth r hr hne

theorem abs_init : abs (List.replicate 16 Ctx.zero) = State.empty := by
  funext k
  unfold abs State.empty
  split
  · rfl
  · rename_i hk
    have : prog (List.replicate 16 Ctx.zero) k = none := by
      rw [prog_none_iff]
      intro j x hx h
      have := List.eq_of_mem_replicate (List.mem_of_getElem? hx)
      subst this
      exact hk (congrArg Key.src h).symm
    rw [this]; rfl

theorem Configured.refInv {ops : Ops β} {K : Contract ops} {eid : Byte} {mx : Nat} {mem : Mem} {c0 : Core β}
    (h : Configured ops eid mx mem c0) (hcl : Clean mem) (hsz : SizesOk K c0) {A P : Nat → Prop}
    {lim : Nat → Bool → Prop} (hpol : Pol mx A P lim) : RefInv K eid mx A mem.live [] c0 := by
  obtain ⟨h1, h2, h3⟩ := h.flags
  refine ⟨h.epInv, h.memInv hcl hsz, h1, h2, ?_⟩
  intro x hx
  rw [h3] at hx
  rw [List.eq_of_mem_replicate hx]
  exact hpol.zero

end Mctp
