import Verif.Props.Lines
import Verif.Props.Feeds
/-
C07, C52: how much of an incoming order is filled.
-/

namespace CppTrader
open Core

theorem available_cons {t r : Order} {rs} : t.available (r :: rs) = (if t.accepts r.price then r.leaves else 0) + t.available rs := by
  unfold Order.available
  by_cases h : t.accepts r.price <;> simp [h]

theorem available_none {t : Order} {rs : List Order} (h : ∀ r ∈ rs, ¬ t.accepts r.price) : t.available rs = 0 := by
  unfold Order.available
  rw [List.filter_eq_nil_iff.2 (by intro r hr; simpa using h r hr)]; rfl

/-- Without All-Or-None orders in line, a chain exists iff the acceptable volume suffices. -/
theorem chain_iff (rs : List Order) : ∀ {t : Order} {need : Nat}, (∀ r ∈ rs, r.isAON = false) → InLine t.side.other.limits rs → 0 < need →
    ((chain t need rs).isSome = true ↔ need ≤ t.available rs) := by
  induction rs with
  | nil => intro t need _ _ hp; unfold chain Order.available; simp; omega
  | cons a rs ih =>
    intro t need hn hso hp
    by_cases ha : t.accepts a.price
    · rw [chain_cons rs hp ha rfl, hn a (by simp), available_cons, if_pos ha]
      simp only [Bool.false_eq_true, if_false]
      by_cases h1 : min a.leaves need = need
      · rw [if_pos h1]; simp; omega
      · rw [if_neg h1, if_neg (by omega), Option.isSome_map,
          ih (fun r hr => hn r (by simp [hr])) (hso.sub (List.sublist_cons_self ..)) (by omega)]
        omega
    · rw [chain_reject (by intro r rs' h; cases h; exact ha), available_none (hso.worse ha)]
      simp; omega

/-- Without All-Or-None orders in line, greedy filling takes as much as is available. -/
theorem greedy_total (i : Nat) (rs : List Order) : ∀ {t : Order}, t.id = i → (∀ r ∈ rs, r.isAON = false ∧ r.id ≠ i) → InLine t.side.other.limits rs →
    execTotal ((greedy t rs).filter (fun x => x.1.id = i)) = min t.leaves (t.available rs) := by
  induction rs with
  | nil => intro t _ _ _; simp [greedy, Order.available, execTotal]
  | cons a rs ih =>
    intro t hid hn hso
    by_cases hst : t.stopsAt a
    · rw [(greedy_stop hst rs).1]
      rcases hst with h | h | h
      · rw [h]; simp [execTotal]
      · rw [available_none (hso.worse h)]; simp [execTotal]
      · rw [(hn a (by simp)).1] at h; cases h.1
    · have hacc : t.accepts a.price := Decidable.not_not.1 fun h => hst (.inr (.inl h))
      rw [(greedy_hit hst rs).1, available_cons, if_pos hacc, List.filter_cons_of_neg (by simpa using (hn a (by simp)).2),
        List.filter_cons_of_pos (by simpa using hid)]
      have := ih (t := t.afterExec (min a.leaves t.leaves)) hid (fun r hr => hn r (by simp [hr])) (hso.sub (List.sublist_cons_self ..))
      unfold execTotal at this ⊢
      rw [List.map_cons, List.sum_cons, this]
      show min a.leaves t.leaves + min (t.leaves - min a.leaves t.leaves) (t.available rs) = _
      omega

theorem accepted_leaves {g : Mgr} {o : Order} (hn : g.refusal (.addOrder o) = none) : 0 < o.leaves := by
  refine (validate_facts ?_).2.1
  simp only [Mgr.refusal] at hn
  by_cases h1 : o.validate = .ok
  · exact h1
  · simp [h1] at hn

/-- C52. In a book with nothing to match and no All-Or-None orders on the opposite side, an incoming limit or market order
that is not All-Or-None is filled exactly as far as the volume available at acceptable prices allows; if it is Fill-Or-Kill,
only if that volume suffices. -/
theorem C52_filled {g : Mgr} (hr : g.Reachable) {o : Order} {g' : Mgr} {e : ErrorCode} {evs : List Event} (ha : g.Admissible (.addOrder o))
    (hf : g.getOrder o.id = none) (hs : g.step (.addOrder o) = .ok (g', e)) (hev : g'.ev = g.ev ++ evs)
    (hn : g.refusal (.addOrder o) = none) (hm : g.matching = true) (hty : o.type = .limit ∨ o.type = .market) (haon : o.tif ≠ .aon)
    (hq : (g.lines o.symbolId).quiet) (hna : ∀ r ∈ g.resting o.symbolId o.side.other, r.tif ≠ .aon)
    {avail : Nat} (hav : avail = (o.capped (g.resting o.symbolId o.side.other)).available (g.resting o.symbolId o.side.other)) :
    execTotal (execsOfId o.id evs) = if o.tif = .fok ∧ avail < o.leaves then 0 else min o.leaves avail := by
  obtain ⟨evs', rest, h1, h2, h3⟩ := C11_incoming hr ha hs hn hm hty
  rw [hev] at h1
  cases List.append_cancel_left h1
  obtain ⟨rfl, _⟩ := h3 (quiet_arrival hr hq hna haon hty)
  have hl := accepted_leaves hn
  unfold execsOfId
  rw [h2, List.append_nil]
  have hln := lines_inLine hr o.symbolId o.side.other
  have hne : ∀ r ∈ g.resting o.symbolId o.side.other, r.isAON = false ∧ r.id ≠ o.id := by
    intro r hr'
    refine ⟨by have := hna r hr'; unfold Order.isAON; simpa using this, ?_⟩
    intro he
    cases hb : g.getBook o.symbolId with
    | none => unfold Mgr.resting at hr'; rw [lines_none (by exact hb)] at hr'; cases hr'
    | some b =>
      have := ((lines_complete hr (by rw [hb]; simp) (k := o.side.other.limits)).1 hr').1
      rw [he, hf] at this; cases this
  have hlv : (o.capped (g.resting o.symbolId o.side.other)).leaves = o.leaves := by unfold Order.capped; split <;> rfl
  have hti : (o.capped (g.resting o.symbolId o.side.other)).tif = o.tif := by unfold Order.capped; split <;> rfl
  have hidd : (o.capped (g.resting o.symbolId o.side.other)).id = o.id := by unfold Order.capped; split <;> rfl
  have hsd : (o.capped (g.resting o.symbolId o.side.other)).side = o.side := by unfold Order.capped; split <;> rfl
  change InLine _ (g.resting o.symbolId o.side.other) at hln
  generalize hR : g.resting o.symbolId o.side.other = R at *
  generalize hu : o.capped R = u at *
  rw [← hsd] at hln
  rw [← hlv] at hl ⊢
  unfold Order.fills
  by_cases hw : o.tif = .fok
  · rw [if_pos (by unfold Order.whole; rw [hti]; exact .inl hw)]
    have hc := chain_iff R (fun r hr' => (hne r hr').1) hln hl
    rw [← hav] at hc
    cases hch : chain u u.leaves R with
    | none =>
      rw [hch] at hc
      rw [if_pos ⟨hw, by simp at hc; omega⟩]; rfl
    | some xs =>
      rw [hch] at hc
      simp at hc
      rw [if_neg (by omega)]
      simp only [List.filter_append, hidd]
      have hx : ∀ {R : List Order} {need : Nat} {xs}, chain u need R = some xs → ∀ x ∈ xs, x.1 ∈ R := by
        intro R
        induction R with
        | nil => intro need xs h; cases h
        | cons a R ih =>
          intro need xs h x hx
          unfold chain at h
          split at h
          · cases h
          · generalize (if a.isAON = true then a.leaves else min a.leaves need) = q at h
            dsimp only at h
            split at h
            · cases h; simp at hx; simp [hx]
            · split at h
              · cases h
              · cases h' : chain u (need - q) R with
                | none => rw [h'] at h; cases h
                | some ys =>
                  rw [h'] at h; cases h
                  rcases List.mem_cons.1 hx with rfl | hx
                  · simp
                  · exact List.mem_cons_of_mem _ (ih h' x hx)
      rw [List.filter_eq_nil_iff.2 (by
        intro y hy
        obtain ⟨x, hx1, rfl⟩ := List.mem_map.1 hy
        simpa using (hne _ (hx hch x hx1)).2)]
      simp [execTotal, hidd]
      omega
  · rw [if_neg (by unfold Order.whole; rw [hti]; rintro (h | h); exact hw h; exact haon h), if_neg (fun h => hw h.1), hav]
    exact greedy_total o.id R hidd hne hln

/-- C07, the other half: a Fill-Or-Kill order is executed if and only if the available volume suffices. -/
theorem C07_complete {g : Mgr} (hr : g.Reachable) {o : Order} {g' : Mgr} {e : ErrorCode} {evs : List Event} (ha : g.Admissible (.addOrder o))
    (hf : g.getOrder o.id = none) (hs : g.step (.addOrder o) = .ok (g', e)) (hev : g'.ev = g.ev ++ evs)
    (hn : g.refusal (.addOrder o) = none) (hm : g.matching = true) (hty : o.type = .limit ∨ o.type = .market) (htif : o.tif = .fok)
    (hq : (g.lines o.symbolId).quiet) (hna : ∀ r ∈ g.resting o.symbolId o.side.other, r.tif ≠ .aon) :
    execsOfId o.id evs ≠ [] ↔
      o.leaves ≤ (o.capped (g.resting o.symbolId o.side.other)).available (g.resting o.symbolId o.side.other) := by
  have h := C52_filled hr ha hf hs hev hn hm hty (by rw [htif]; simp) hq hna rfl
  have h' := C07_submitted hr ha hf hs hev htif
  generalize (o.capped (g.resting o.symbolId o.side.other)).available (g.resting o.symbolId o.side.other) = A at *
  have hl : execsOfId o.id evs ≠ [] → 0 < execTotal (execsOfId o.id evs) := by
    intro hne
    rcases h' with h' | ⟨t, p, xs, B, C, h1, h2, _⟩
    · exact absurd h' hne
    · rw [h1]
      have := accepted_leaves hn
      simpa [execTotal] using this
  constructor
  · intro hne
    have := hl hne
    rw [h] at this
    split at this
    · omega
    · rename_i hc; exact Nat.le_of_not_lt fun h => hc ⟨htif, h⟩
  · intro hle hne
    have hc : ¬ (o.tif = .fok ∧ A < o.leaves) := by omega
    rw [if_neg hc, hne] at h
    have h2 := accepted_leaves hn
    have : execTotal [] = 0 := rfl
    omega

/-- C52, C07 apply: 12 lots stand at 100 and 101; a Fill-Or-Kill order for 12 is filled, ... -/
example : ∃ (g g' : Mgr) (e : ErrorCode), g.Reachable ∧ g.Admissible (.addOrder (.mkLimit 9 1 .buy 101 12 .fok)) ∧
    g.step (.addOrder (.mkLimit 9 1 .buy 101 12 .fok)) = .ok (g', e) ∧
    (decide (g.refusal (.addOrder (.mkLimit 9 1 .buy 101 12 .fok)) = none) && g.matching && (g.getOrder 9).isNone &&
      decide (Order.available (.mkLimit 9 1 .buy 101 12 .fok) (g.resting 1 .sell) = 12) &&
      decide (execTotal (execsOfId 9 (g'.ev.drop g.ev.length)) = 12)) = true :=
  demoStep (p := fun g g' _ => decide (g.refusal (.addOrder (.mkLimit 9 1 .buy 101 12 .fok)) = none) && g.matching && (g.getOrder 9).isNone &&
      decide (Order.available (.mkLimit 9 1 .buy 101 12 .fok) (g.resting 1 .sell) = 12) &&
      decide (execTotal (execsOfId 9 (g'.ev.drop g.ev.length)) = 12))
    (trading ++ [.addOrder (.mkLimit 1 1 .sell 101 7), .addOrder (.mkLimit 2 1 .sell 100 5), .addOrder (.mkLimit 3 1 .sell 102 10)])
    (.addOrder (.mkLimit 9 1 .buy 101 12 .fok)) (by decide +kernel)

/-- ... one for 13 is not. -/
example : ∃ (g g' : Mgr) (e : ErrorCode), g.Reachable ∧ g.Admissible (.addOrder (.mkLimit 9 1 .buy 101 13 .fok)) ∧
    g.step (.addOrder (.mkLimit 9 1 .buy 101 13 .fok)) = .ok (g', e) ∧
    (decide (g.refusal (.addOrder (.mkLimit 9 1 .buy 101 13 .fok)) = none) && g.matching && (g.getOrder 9).isNone &&
      decide (execsOfId 9 (g'.ev.drop g.ev.length) = [])) = true :=
  demoStep (p := fun g g' _ => decide (g.refusal (.addOrder (.mkLimit 9 1 .buy 101 13 .fok)) = none) && g.matching && (g.getOrder 9).isNone &&
      decide (execsOfId 9 (g'.ev.drop g.ev.length) = []))
    (trading ++ [.addOrder (.mkLimit 1 1 .sell 101 7), .addOrder (.mkLimit 2 1 .sell 100 5), .addOrder (.mkLimit 3 1 .sell 102 10)])
    (.addOrder (.mkLimit 9 1 .buy 101 13 .fok)) (by decide +kernel)

end CppTrader
