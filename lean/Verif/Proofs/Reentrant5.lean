import Verif.Proofs.Reentrant4

/-!
# A call in which no callback is made, and what the callback is told
-/

namespace Mctp

open Spec

variable {β S : Type}

/-- No callback among the events. -/
def NoCall (e : List Event) : Prop := ∀ ev ∈ e, ev.isCallback = false

theorem rxH_quiet {ops : Ops β} {app : App β S} {c c1 : Core β} {s : S} {buf : Option Nat} {i : Nat} {bus : Bus β} {src d : Byte} {o : Bool}
    {g : Byte} {msg : List Byte} {e : List Event} (hbr : c.bridge = false) (h : c.rx ops i bus src d o g msg = .ok (c1, e)) (hn : NoCall e) :
    c.rxH ops app s buf i bus src d o g msg = .ok (c1, s, e) := by
  rw [rx_endpoint ops hbr] at h
  simp only [Except.ok.injEq, Prod.mk.injEq] at h
  obtain ⟨rfl, rfl⟩ := h
  unfold Core.rxH
  rw [if_neg (by simp [hbr])]
  by_cases hl : destIsLocal bus.eid d = true
  · rw [if_pos hl] at hn ⊢
    rw [if_pos hl]
    unfold routeEvents at hn ⊢
    split
    · rename_i hct
      rw [if_pos hct] at hn
      have := hn _ (List.mem_singleton.mpr rfl)
      cases this
    · rename_i hct
      rw [if_neg hct] at hn
      split
      · rename_i hrx
        rw [if_pos hrx] at hn
        have := hn _ (List.mem_singleton.mpr rfl)
        cases this
      · rfl
  · rw [if_neg hl]
    rw [if_neg hl]

theorem bodyH_quiet {ops : Ops β} {app : App β S} {c c1 : Core β} (hbr : c.bridge = false) (s : S) {i : Nat} {bus : Bus β} {X : Pktbuf} {e1 : List Event}
    (hr : c.busRxBody ops i bus X = .ok (c1, e1)) (hn : NoCall e1) : c.busRxBodyH ops app s i bus X = .ok (c1, s, e1) := by
  unfold Core.busRxBody at hr
  unfold Core.busRxBodyH
  obtain ⟨hdr, h0, hr⟩ := Res.bind_eq_ok.mp hr
  rw [h0]
  simp only [Res.bind_ok]
  match hdr with
  | [] | [_] | [_, _] | [_, _, _] | _ :: _ :: _ :: _ :: _ :: _ => cases hr
  | [v, dest, src, g] =>
    simp only at hr ⊢
    split at hr
    · rename_i hl
      rw [if_pos hl]
      cases hr; rfl
    · rename_i hl
      rw [if_neg hl]
      generalize hdrSom g = so at hr ⊢
      generalize hdrEom g = eo at hr ⊢
      cases so <;> cases eo <;> simp only at hr ⊢
      · obtain ⟨c2, h2, hr⟩ := Res.bind_eq_ok.mp hr
        cases hr
        rw [h2]; rfl
      · unfold Core.rxEom at hr
        unfold Core.rxEomH
        cases hlk : ctxLookup c.ctxs src dest (hdrTag g) with
        | none =>
          rw [hlk] at hr
          cases hr; rfl
        | some k =>
          rw [hlk] at hr
          simp only at hr ⊢
          cases hx : c.ctxs[k]? with
          | none => rw [hx] at hr; cases hr
          | some x =>
            rw [hx] at hr
            simp only at hr ⊢
            split at hr
            · rename_i hs
              rw [if_pos hs]
              cases hr; rfl
            · rename_i hs
              rw [if_neg hs]
              split at hr
              · rename_i hf
                rw [if_pos hf]
                cases hr; rfl
              · rename_i hf
                rw [if_neg hf]
                obtain ⟨⟨m, x', ok⟩, ha, hr⟩ := Res.bind_eq_ok.mp hr
                rw [ha]
                simp only [Res.bind_ok] at hr ⊢
                cases ok with
                | false =>
                  simp only [Bool.false_eq_true, if_false] at hr ⊢
                  cases hr; rfl
                | true =>
                  simp only [if_true] at hr ⊢
                  obtain ⟨⟨c2, e2⟩, hrx, hr⟩ := Res.bind_eq_ok.mp hr
                  simp only [Except.ok.injEq, Prod.mk.injEq] at hr
                  obtain ⟨rfl, rfl⟩ := hr
                  have hc2 : c2 = { c with mem := m }.setCtx k x' := by
                    have := rx_endpoint ops (c := { c with mem := m }.setCtx k x') hbr i bus x'.src x'.dest (hdrTO g) (hdrTag g) x'.data
                    rw [this] at hrx
                    simp only [Except.ok.injEq, Prod.mk.injEq] at hrx
                    exact hrx.1.symm
                  have hq := rxH_quiet (app := app) (s := s) (c := { c with mem := m }.setCtx k x') (buf := x'.buf) hbr hrx hn
                  rw [hq]
                  simp only [Res.bind_ok, hc2, Core.setCtx, set_modify, List.set_set]
      · obtain ⟨c2, h2, hr⟩ := Res.bind_eq_ok.mp hr
        cases hr
        rw [h2]; rfl
      · obtain ⟨msg, h2, hr⟩ := Res.bind_eq_ok.mp hr
        rw [h2]
        simp only [Res.bind_ok]
        exact rxH_quiet hbr hr hn

theorem stepH_quiet {ops : Ops β} {app : App β S} {c c1 : Core β} (hbr : c.bridge = false) (s : S) {op : Op β} {e1 : List Event} {rc : Int}
    (h : c.step ops op = .ok (c1, e1, rc)) (hn : NoCall e1) : c.stepH ops app s op = .ok (c1, s, e1, rc) := by
  cases op with
  | recv i bs =>
    simp only [Core.step] at h
    obtain ⟨⟨c2, e2⟩, hr, h⟩ := Res.bind_eq_ok.mp h
    simp only [Except.ok.injEq, Prod.mk.injEq] at h
    obtain ⟨rfl, rfl, rfl⟩ := h
    suffices hh : c.rxPacketH ops app s i bs = .ok (c2, s, e2) by simp only [Core.stepH, hh, Res.bind_ok]
    unfold Core.rxPacket at hr
    unfold Core.rxPacketH
    obtain ⟨bus, hb, hr⟩ := Res.bind_eq_ok.mp hr
    rw [hb]
    simp only [Res.bind_ok]
    split at hr
    · rename_i m hpa
      rw [hpa]
      cases hr; rfl
    · rename_i pkt m hpa
      rw [hpa]
      simp only
      obtain ⟨X, hw, hr⟩ := Res.bind_eq_ok.mp hr
      rw [hw]
      simp only [Res.bind_ok]
      unfold Core.busRx at hr
      unfold Core.busRxH
      split at hr
      · cases hr
      · rename_i hnb
        rw [if_neg hnb]
        obtain ⟨bus2, hb2, hr⟩ := Res.bind_eq_ok.mp hr
        obtain ⟨u, hd, hr⟩ := Res.bind_eq_ok.mp hr
        rw [hb2, hd]
        simp only [Res.bind_ok]
        split at hr
        · rename_i hl
          rw [if_pos hl]
          obtain ⟨mf, hf, hr⟩ := Res.bind_eq_ok.mp hr
          cases hr
          rw [hf]; rfl
        · rename_i hl
          rw [if_neg hl]
          obtain ⟨⟨cb, eb⟩, hbody, hr⟩ := Res.bind_eq_ok.mp hr
          obtain ⟨mf, hf, hr⟩ := Res.bind_eq_ok.mp hr
          simp only [Except.ok.injEq, Prod.mk.injEq] at hr
          obtain ⟨rfl, rfl⟩ := hr
          have := bodyH_quiet (app := app) (c := { c with mem := m }) hbr s hbody
            (fun ev hev => hn ev (List.mem_cons_of_mem _ (List.mem_append.mpr (.inr hev))))
          rw [this]
          simp only [Res.bind_ok, hf]
  | _ => simp only [Core.stepH, h, Res.bind_ok]

/-- The streams that the message a callback is called with may be of. -/
def OfMessage : Event → Key → Prop
  | .rxMsg src _ tag _, κ => κ.src = src ∧ κ.tag = tag.toNat
  | .ctrlRx _ src _ _ _, κ => κ.src = src
  | _, _ => False

theorem callback_of {ops : Ops β} {eid : Byte} {evs : List Event} {c c1 : Core β} {i : Nat} {bs : List Byte} {e1 : List Event} {rc : Int}
    (he : EpInv eid evs c) (hs : c.step ops (.recv i bs) = .ok (c1, e1, rc)) {ev : Event} (hev : ev ∈ e1) (hcb : ev.isCallback = true) :
    ∃ f, parse bs = some f ∧ Local eid f.dest ∧ e1.filter Event.isCallback = [ev] ∧ OfMessage ev f.key := by
  simp only [Core.step] at hs
  obtain ⟨⟨c3, e3⟩, hr, hs⟩ := Res.bind_eq_ok.mp hs
  simp only [Except.ok.injEq, Prod.mk.injEq] at hs
  obtain ⟨rfl, rfl, rfl⟩ := hs
  rcases rxPacket_cases hr with ⟨_, _, _, _, _, rfl⟩ | ⟨bus, m1, pkt, _, _, hp, hb⟩
  · cases hev
  · obtain ⟨bus', -, -, -, hcs⟩ := busRx_endpoint (c := { c with mem := m1 }) he.noBridge he.eids hp hb
    have nocb : (Event.recv i bs :: capIn { c with mem := m1 } bs).filter Event.isCallback = [] := by
      unfold capIn
      split <;> rfl
    have route : ∀ {f : Frag} {msg : List Byte}, f.tag < 8 →
        e3 = .recv i bs :: (capIn { c with mem := m1 } bs ++ routeEvents { c with mem := m1 } i bus' f.src f.tagOwner (BitVec.ofNat 8 f.tag) msg) →
        e3.filter Event.isCallback = [ev] ∧ OfMessage ev f.key := by
      intro f msg ht hh
      have hfl : e3.filter Event.isCallback = routeEvents { c with mem := m1 } i bus' f.src f.tagOwner (BitVec.ofNat 8 f.tag) msg := by
        rw [hh, ← List.cons_append, List.filter_append, nocb, List.nil_append, route_callbacks]
      have hmem : ev ∈ e3.filter Event.isCallback := List.mem_filter.mpr ⟨hev, hcb⟩
      rw [hfl] at hmem ⊢
      unfold routeEvents at hmem ⊢
      split
      · rename_i h1
        rw [if_pos h1, List.mem_singleton] at hmem
        subst hmem
        exact ⟨rfl, rfl⟩
      · rename_i h1
        rw [if_neg h1] at hmem
        split
        · rename_i h2
          rw [if_pos h2, List.mem_singleton] at hmem
          subst hmem
          refine ⟨rfl, rfl, ?_⟩
          simp only [Frag.key, BitVec.toNat_ofNat]
          omega
        · rename_i h2
          rw [if_neg h2] at hmem
          cases hmem
    have none_ : ev ∈ Event.recv i bs :: capIn { c with mem := m1 } bs → False := by
      intro h
      have : ev ∈ (Event.recv i bs :: capIn { c with mem := m1 } bs).filter Event.isCallback := List.mem_filter.mpr ⟨h, hcb⟩
      rw [nocb] at this
      cases this
    rcases hcs with ⟨-, rfl, -⟩ | ⟨f, hf, hcs⟩
    · simp only [List.mem_singleton] at hev; subst hev; cases hcb
    · obtain ⟨_, _, _, _, -, -, -, -, -, -, -, -, -, htag, -⟩ := parse_some hf
      rcases hcs with ⟨-, rfl, -⟩ | ⟨hl, -, he, -⟩ | ⟨hl, -, m2, m3, t, out, -, -, -, he⟩
      · exact (none_ hev).elim
      · exact ⟨f, hf, hl, route htag he⟩
      · cases out with
        | none =>
          simp only [List.append_nil] at he
          subst he
          exact (none_ hev).elim
        | some msg => exact ⟨f, hf, hl, route htag he⟩

end Mctp
