import Verif.Model.Watch
/-
A call only adds to the record of what handlers saw.
-/

namespace CppTrader
open Core

class Logged (α : Type) where
  seen : α → List Core

instance : Logged Watch := ⟨Watch.log⟩
instance {β : Type} : Logged (Watch × β) := ⟨fun x => x.1.log⟩

/-- Every outcome has the record `L` and possibly more. -/
def Grows {α : Type} [Logged α] (L : List Core) (r : Except Err α) : Prop := ∀ a, r = .ok a → L <+: Logged.seen a

namespace Grows
variable {α β : Type} [Logged α] [Logged β] {L : List Core}

theorem error {e : Err} : Grows L (.error e : Except Err α) := nofun
theorem ok {a : α} (h : L <+: Logged.seen a) : Grows L (.ok a) := fun _ ha => by cases ha; exact h
theorem bind {r : Except Err α} {f : α → Except Err β} (h : Grows L r) (k : ∀ a, L <+: Logged.seen a → Grows L (f a)) : Grows L (r >>= f) := by
  cases r with
  | error e => exact nofun
  | ok a => exact k a (h a rfl)
theorem bind' {γ : Type} {r : Except Err γ} {f : γ → Except Err β} (k : ∀ a, Grows L (f a)) : Grows L (r >>= f) := by
  cases r with
  | error e => exact nofun
  | ok a => exact k a
theorem ite {c : Prop} [Decidable c] {x y : Except Err α} (hx : Grows L x) (hy : Grows L y) : Grows L (if c then x else y) := by
  split
  · exact hx
  · exact hy
end Grows

namespace Watch
variable {L : List Core} {w : Watch}

theorem emit_grows (e : Event) (h : L <+: w.log) : L <+: (w.emit e).log := h.trans (List.prefix_append _ _)
theorem updateLevel_grows (u : LevelUpdate) (h : L <+: w.log) : L <+: (w.updateLevel u).log := emit_grows _ (emit_grows _ h)
theorem keep_grows (own : Bool) (o : Order) (h : L <+: w.log) : L <+: (w.keep own o).log := by cases own <;> exact h

theorem link_grows (o : Order) (h : L <+: w.log) : Grows L (w.link o) := by
  unfold link
  split
  · exact .error
  · refine .ok ?_
    split
    · exact updateLevel_grows _ h
    · exact h

theorem unlink_grows (o : Order) (h : L <+: w.log) : Grows L (w.unlink o) := by
  unfold unlink
  split
  · exact .error
  · split
    · exact .error
    · refine .ok ?_
      split
      · exact updateLevel_grows _ h
      · exact h

theorem shrink_grows (o : Order) (q hd v : Nat) (h : L <+: w.log) : Grows L (w.shrink o q hd v) := by
  unfold shrink
  split
  · exact .error
  · split
    · exact .error
    · refine .ok ?_
      split
      · exact updateLevel_grows _ h
      · exact h

theorem reduceBody_grows (o : Order) (q : Nat) (h : L <+: w.log) : Grows L (w.reduceBody o q) := by
  unfold reduceBody
  refine .bind (shrink_grows _ _ _ _ (emit_grows _ h)) fun a ha => .ok ?_
  split <;> exact ha

theorem reduceRec_grows (id q : Nat) (h : L <+: w.log) : Grows L (w.reduceRec id q) := by
  unfold reduceRec
  split
  · exact .ok h
  · split
    · exact .ok h
    · split
      · exact .error
      · exact .bind (reduceBody_grows _ _ h) fun a ha => .ok ha

theorem deleteBody_grows (o : Order) (h : L <+: w.log) : Grows L (w.deleteBody o) := by
  unfold deleteBody
  exact .bind (unlink_grows _ h) fun a ha => .ok (emit_grows _ ha)

theorem deleteRec_grows (id : Nat) (h : L <+: w.log) : Grows L (w.deleteRec id) := by
  unfold deleteRec
  split
  · exact .ok h
  · split
    · exact .ok h
    · split
      · exact .error
      · exact .bind (deleteBody_grows _ h) fun a ha => .ok ha

theorem execResting_grows (id p q : Nat) (h : L <+: w.log) : Grows L (w.execResting id p q) := by
  unfold execResting
  split
  · exact .error
  · exact .ok (emit_grows _ h)

theorem execTaker_grows (own : Bool) (t : Order) (p q : Nat) (h : L <+: w.log) : L <+: (execTaker own w t p q).1.log :=
  keep_grows own _ (emit_grows _ h)

theorem execChainOrder_grows (id p v : Nat) (h : L <+: w.log) : Grows L (w.execChainOrder id p v) := by
  unfold execChainOrder
  refine .bind' fun o => ?_
  split
  · exact .bind (execResting_grows _ _ _ h) fun a ha => .bind (deleteRec_grows _ ha) fun b hb => .ok hb
  · exact .bind (execResting_grows _ _ _ h) fun a ha => .bind (reduceRec_grows _ _ ha) fun b hb => .ok hb

theorem execChainIds_grows (p : Nat) : ∀ (ids : List Nat) {w : Watch} (v : Nat), L <+: w.log → Grows L (execChainIds p ids w v)
  | [], _, _, h => .ok h
  | _ :: ids, _, v, h => by
    unfold execChainIds
    split
    · exact .ok h
    · exact .bind (execChainOrder_grows _ _ _ h) fun a ha => execChainIds_grows p ids _ ha

theorem execChain_grows (p : Nat) : ∀ (ls : List Level) {w : Watch} (v : Nat), L <+: w.log → Grows L (execChain p ls w v)
  | [], _, _, h => .ok h
  | _ :: ls, _, v, h => by
    unfold execChain
    split
    · exact .ok h
    · exact .bind (execChainIds_grows p _ _ h) fun a ha => execChain_grows p ls _ ha

theorem matchLevel_grows (own : Bool) : ∀ (ids : List Nat) {w : Watch} (t : Order), L <+: w.log → Grows L (matchLevel own ids w t)
  | [], _, _, h => .ok h
  | _ :: ids, _, t, h => by
    unfold matchLevel
    refine .bind' fun o => ?_
    simp only
    split
    · exact .ok h
    · refine .bind (execResting_grows _ _ _ h) fun a ha => .bind (reduceRec_grows _ _ ha) fun b hb => ?_
      have := execTaker_grows own t o.price (min o.leaves t.leaves) hb
      split
      · exact .ok this
      · exact matchLevel_grows own ids _ this

theorem matchOrderN_grows (own : Bool) : ∀ (n : Nat) {w : Watch} (t : Order), L <+: w.log → Grows L (matchOrderN own n w t)
  | 0, _, _, _ => .error
  | n + 1, w, t, h => by
    unfold matchOrderN
    simp only
    split
    · exact .ok h
    · split
      · split
        · exact .error
        · split
          · refine .bind' fun c => ?_
            split
            · exact .ok h
            · exact .bind (execChain_grows _ _ _ h) fun a ha => .ok (execTaker_grows own _ _ _ ha)
          · refine .bind (matchLevel_grows own _ _ h) fun ⟨a1, a2⟩ ha => ?_
            dsimp only
            split
            · exact .ok ha
            · exact matchOrderN_grows own n _ ha
      · exact .ok h

theorem matchOrder_grows (own : Bool) (t : Order) (h : L <+: w.log) : Grows L (matchOrder own w t) := matchOrderN_grows own _ _ h

theorem matchMarket_grows (own : Bool) (t : Order) (h : L <+: w.log) : Grows L (matchMarket own w t) := by
  unfold matchMarket
  split
  · exact .ok h
  · exact matchOrder_grows own _ (keep_grows _ _ h)

theorem activateStop_grows (o : Order) (h : L <+: w.log) : Grows L (w.activateStop o) := by
  unfold activateStop
  exact .bind (unlink_grows _ h) fun a ha => .bind (matchMarket_grows true _ (emit_grows _ ha)) fun b hb => .ok (emit_grows _ hb)

theorem activateStopLimit_grows (o : Order) (h : L <+: w.log) : Grows L (w.activateStopLimit o) := by
  unfold activateStopLimit
  refine .bind (unlink_grows _ h) fun a ha => .bind (matchOrder_grows true _ (emit_grows _ ha)) fun ⟨b1, b2⟩ hb => ?_
  dsimp only
  split
  · exact link_grows _ hb
  · exact .ok (emit_grows _ hb)

theorem activateOrder_grows (id : Nat) (h : L <+: w.log) : Grows L (w.activateOrder id) := by
  unfold activateOrder
  refine .bind' fun o => ?_
  split
  · exact activateStop_grows _ h
  · exact activateStop_grows _ h
  · exact activateStopLimit_grows _ h
  · exact activateStopLimit_grows _ h
  · exact .error

theorem activateIds_grows : ∀ (ids : List Nat) {w : Watch} (r : Bool), L <+: w.log → Grows L (activateIds ids w r)
  | [], _, _, h => .ok h
  | _ :: ids, _, _, h => .bind (activateOrder_grows _ h) fun _ ha => activateIds_grows ids _ ha

theorem activateLevel_grows (k : Kind) (p : Nat) (h : L <+: w.log) : Grows L (w.activateLevel k p) := by
  unfold activateLevel
  split
  · exact .ok h
  · refine .ite ?_ (.ok h)
    split
    · exact .error
    · exact activateIds_grows _ _ h

theorem recalcIds_grows : ∀ (ids : List Nat) {w : Watch} (r : Bool), L <+: w.log → Grows L (recalcIds ids w r)
  | [], _, _, h => .ok h
  | _ :: ids, _, r, h => by
    unfold recalcIds
    refine .bind' fun o => ?_
    simp only
    split
    · exact .bind (unlink_grows _ h) fun a ha => .bind (link_grows _ (emit_grows _ ha)) fun b hb => recalcIds_grows ids _ hb
    · exact recalcIds_grows ids _ h

theorem recalcLoop_grows (k : Kind) : ∀ (n : Nat) {w : Watch} (a b : Option Nat), L <+: w.log → Grows L (recalcLoop k n w a b)
  | 0, _, _, _, _ => .error
  | _ + 1, _, _, none, h => .ok h
  | n + 1, w, p, some c, h => by
    unfold recalcLoop
    split
    · exact .error
    · refine .bind (recalcIds_grows _ _ h) fun ⟨a1, a2⟩ ha => ?_
      dsimp only
      split
      · exact recalcLoop_grows k n _ _ ha
      · exact recalcLoop_grows k n _ _ ha

theorem recalcBuy_grows (h : L <+: w.log) : Grows L w.recalcBuy := by
  unfold recalcBuy
  split
  · exact .ok h
  · simp only
    split
    · exact .ok h
    · exact recalcLoop_grows _ _ _ _ h

theorem recalcSell_grows (h : L <+: w.log) : Grows L w.recalcSell := by
  unfold recalcSell
  split
  · exact .ok h
  · simp only
    split
    · exact .ok h
    · exact recalcLoop_grows _ _ _ _ h

theorem activateEither_grows (k₁ k₂ : Kind) (f : Book → Nat) (h : L <+: w.log) : Grows L (w.activateEither k₁ k₂ f) := by
  unfold activateEither
  refine .bind (activateLevel_grows _ _ h) fun ⟨a1, a2⟩ ha => ?_
  dsimp only
  split
  · exact .ok ha
  · exact activateLevel_grows _ _ ha

theorem activateLoop_grows : ∀ (n : Nat) {w : Watch} (r : Bool), L <+: w.log → Grows L (activateLoop n w r)
  | 0, _, _, _ => .error
  | n + 1, w, r, h => by
    unfold activateLoop
    refine .bind (activateEither_grows _ _ _ h) fun a ha => .bind (recalcBuy_grows ha) fun b hb =>
      .bind (activateEither_grows _ _ _ hb) fun c hc => .bind (recalcSell_grows hc) fun d hd => ?_
    split
    · exact activateLoop_grows n _ hd
    · exact .ok hd

theorem activateAll_grows (h : L <+: w.log) : Grows L w.activateAll := activateLoop_grows _ _ h

theorem matchPair_grows (b a : Nat) (h : L <+: w.log) : Grows L (w.matchPair b a) := by
  unfold matchPair
  exact .bind' fun b => .bind' fun a => .bind (execResting_grows _ _ _ h) fun c hc => .bind (deleteRec_grows _ hc) fun d hd =>
    .bind (execResting_grows _ _ _ hd) fun e he => reduceRec_grows _ _ he

theorem matchPairs_grows (bp ap : Nat) : ∀ (bs as : List Nat) {w : Watch}, L <+: w.log → Grows L (matchPairs bp ap bs as w)
  | [], _, _, h => by unfold matchPairs; exact .ok h
  | _ :: _, [], _, h => by unfold matchPairs; exact .ok h
  | _ :: bs, _ :: as, _, h => by
    unfold matchPairs
    refine .bind' fun b => .bind' fun a => ?_
    simp only
    split
    · refine .bind' fun c => ?_
      split
      · exact .ok h
      · split
        · exact .bind (execChain_grows _ _ _ h) fun a ha => .bind (execChain_grows _ _ _ ha) fun b hb => .ok hb
        · exact .bind (execChain_grows _ _ _ h) fun a ha => .bind (execChain_grows _ _ _ ha) fun b hb => .ok hb
    · exact .bind (matchPair_grows _ _ h) fun a ha => matchPairs_grows bp ap bs as ha

theorem matchBookN_grows : ∀ (n : Nat) {w : Watch}, L <+: w.log → Grows L (matchBookN n w)
  | 0, _, _ => .error
  | n + 1, w, h => by
    unfold matchBookN
    split
    · split
      · refine .bind (matchPairs_grows _ _ _ _ h) fun ⟨a1, a2⟩ ha => ?_
        dsimp only
        split
        · exact .ok ha
        · exact .bind (activateLevel_grows _ _ ha) fun b hb => .bind (activateLevel_grows _ _ hb) fun c hc => matchBookN_grows n hc
      · exact .error
    · refine .bind (activateAll_grows h) fun ⟨a1, a2⟩ ha => ?_
      dsimp only
      split
      · exact matchBookN_grows n ha
      · exact .ok ha

theorem finish_grows (m : Bool) (h : L <+: w.log) : Grows L (w.finish m) := by
  unfold finish
  cases m with
  | true => exact .bind (matchBookN_grows _ h) fun a ha => .ok ha
  | false => exact .ok h

theorem insertNew_grows (m : Bool) (o : Order) (h : L <+: w.log) : Grows L (w.insertNew m o) := by
  unfold insertNew
  split
  · exact .ok (emit_grows _ h)
  · exact .bind (link_grows _ h) fun a ha => finish_grows m ha

theorem matchIf_grows (own m : Bool) (t : Order) (h : L <+: w.log) : Grows L (w.matchIf own m t) := by
  unfold matchIf
  split
  · exact matchOrder_grows own t h
  · exact .ok h

theorem restOrCancel_grows (m : Bool) (t : Order) (h : L <+: w.log) : Grows L (w.restOrCancel m t) := by
  unfold restOrCancel
  split
  · exact insertNew_grows m t h
  · exact finish_grows m (emit_grows _ h)

/-! ### What is called first -/

theorem addAny_first (m : Bool) (o : Order) : ∃ e, Grows (w.log ++ [w.now.emit e]) (w.addAny m o) := by
  unfold addAny
  have stop : ∃ e, Grows (w.log ++ [w.now.emit e]) (w.addStop m o) := by
    refine ⟨.addOrder (Core.initTrailing w.now.book o), ?_⟩
    unfold addStop
    simp only
    split
    · exact .bind (matchMarket_grows false _ (emit_grows _ (List.prefix_refl _))) fun a ha => finish_grows m (emit_grows _ ha)
    · split
      · exact insertNew_grows m _ (List.prefix_refl _)
      · exact finish_grows m (emit_grows _ (List.prefix_refl _))
  have stopLimit : ∃ e, Grows (w.log ++ [w.now.emit e]) (w.addStopLimit m o) := by
    refine ⟨.addOrder (Core.initTrailing w.now.book o), ?_⟩
    unfold addStopLimit
    simp only
    split
    · exact .bind (matchOrder_grows false _ (emit_grows _ (List.prefix_refl _))) fun a ha => restOrCancel_grows m _ ha
    · split
      · exact insertNew_grows m _ (List.prefix_refl _)
      · exact finish_grows m (emit_grows _ (List.prefix_refl _))
  split
  · refine ⟨.addOrder o, ?_⟩
    unfold addMarket
    cases m with
    | true => exact .bind (matchMarket_grows false _ (List.prefix_refl _)) fun a ha => finish_grows true (emit_grows _ ha)
    | false => exact finish_grows false (emit_grows _ (List.prefix_refl _))
  · refine ⟨.addOrder o, ?_⟩
    unfold addLimit
    exact .bind (matchIf_grows false m _ (List.prefix_refl _)) fun a ha => restOrCancel_grows m _ ha
  · exact stop
  · exact stop
  · exact stopLimit
  · exact stopLimit

theorem executeOp_first (m : Bool) (o : Order) (p q : Nat) : ∃ e, Grows (w.log ++ [w.now.emit e]) (w.executeOp m o p q) := by
  refine ⟨.exec o p (min q o.leaves), ?_⟩
  unfold executeOp
  refine .bind (shrink_grows _ _ _ _ (List.prefix_refl _)) fun a ha => ?_
  simp only
  refine finish_grows m ?_
  split
  · exact emit_grows _ ha
  · exact emit_grows _ ha

end Watch
end CppTrader
