import Verif.Proof.Budget
/-
The trading place comes to rest in as many turns as it has orders: more turns change nothing.
-/

namespace CppTrader
namespace Budget

open Core

/-! ### Stop orders -/

theorem four_le {f g : Kind → Nat} (h : ∀ k, f k ≤ g k) : f .buyStop + f .sellStop + f .tBuyStop + f .tSellStop ≤ g .buyStop + g .sellStop + g .tBuyStop + g .tSellStop := by
  have h3 := h .buyStop; have h4 := h .sellStop; have h5 := h .tBuyStop; have h6 := h .tSellStop
  omega

theorem change_stops (l : Board) (id : Nat) (v : Option Order) : (l.change id v).stops ≤ l.stops :=
  four_le (f := fun k => ((l.change id v) k).length) (g := fun k => (l k).length) (fun k => chg_len id v (l k))

theorem change_stops_mem {l : Board} {k : Kind} (hk : k.isLimit = false) {r : Order} (h : r ∈ l k) : (l.change r.id none).stops + 1 ≤ l.stops := by
  have hl : ∀ k, ((l.change r.id none) k).length ≤ (l k).length := fun k => chg_len r.id none (l k)
  have hm : ((l.change r.id none) k).length + 1 ≤ (l k).length := chg_len_mem h
  have h3 := hl .buyStop; have h4 := hl .sellStop; have h5 := hl .tBuyStop; have h6 := hl .tSellStop
  unfold Board.stops
  cases k <;> first | (cases hk; done) | omega

theorem put_stops (l : Board) {k : Kind} (rs : List Order) (h : k.isLimit = true) : (l.put k rs).stops = l.stops := by
  unfold Board.put Board.stops
  cases k <;> first | (cases h; done) | rfl

theorem insert_stops (l : Board) (t : Order) : (l.insert t).stops ≤ l.stops + 1 := by
  rcases insert_cases l t with h | ⟨k, h⟩
  · rw [h]; omega
  · rw [h]
    have := enqueue_len k t (l k)
    unfold Board.put Board.stops
    cases k <;> simp <;> omega

/-- A limit or market order that is entered is no stop order. -/
theorem insert_limit (l : Board) {t : Order} (h : t.type = .limit ∨ t.type = .market) : (l.insert t).stops = l.stops := by
  have key : ∀ k, k.isLimit = false → t.home.map (·.1) ≠ some k := by
    intro k hk e
    unfold Order.home at e
    rcases h with h | h <;> cases hs : t.side <;> rw [h, hs] at e <;> cases k <;> first | (cases hk; done) | (cases e; done)
  have same : ∀ k, k.isLimit = false → (l.insert t) k = l k := fun k hk => by unfold Board.insert; rw [if_neg (key k hk)]
  unfold Board.stops
  rw [same _ rfl, same _ rfl, same _ rfl, same _ rfl]

theorem greedyLeft_type (rs : List Order) : ∀ t : Order, (greedyLeft t rs).type = t.type := by
  induction rs with
  | nil => intro t; rfl
  | cons r rs ih =>
    intro t
    unfold greedyLeft
    split
    · rfl
    · rw [ih]; rfl

theorem left_type (t : Order) (rs : List Order) : (t.left rs).type = t.type := by
  unfold Order.left
  split
  · split <;> rfl
  · exact greedyLeft_type rs t

theorem capped_type (t : Order) (rs : List Order) : (t.capped rs).type = t.type := by
  unfold Order.capped
  split
  · rfl
  · rfl

theorem strike_type (m : Bool) (p : Pit) (t : Order) : (p.strike m t).2.1.type = t.type := by
  show (p.board.strike m t).2.1.type = t.type
  unfold Board.strike
  cases m with
  | false => rfl
  | true => simp only [if_true]; rw [left_type, capped_type]

theorem released_type (o : Order) : o.released.type = .limit ∨ o.released.type = .market := by
  unfold Order.released
  cases h : o.type <;> simp [h]

theorem strike_stops (m : Bool) (p : Pit) (t : Order) : (p.strike m t).2.2.board.stops = p.board.stops := by
  show (p.board.strike m t).2.2.stops = _
  unfold Board.strike
  cases m with
  | false => rfl
  | true =>
    simp only [if_true]
    refine put_stops _ _ ?_
    cases t.side <;> rfl

theorem land_stops (p : Pit) {t : Order} (h : t.type = .limit ∨ t.type = .market) : (p.land t).board.stops = p.board.stops := by
  unfold Pit.land
  split
  · exact insert_limit _ h
  · rfl

theorem release_stops {p : Pit} {o : Order} {k : Kind} (hk : k.isLimit = false) (ho : o ∈ p.board k) : (p.release o).2.board.stops + 1 ≤ p.board.stops := by
  have h := change_stops_mem hk ho
  unfold Pit.release
  simp only []
  rw [land_stops _ (by rw [strike_type]; exact released_type o), strike_stops]
  exact h

theorem releaseAll_stops {k : Kind} (hk : k.isLimit = false) (os : List Order) : ∀ {p : Pit}, Fine p → (∀ o ∈ os, o ∈ p.board k) → (os.map (·.id)).Nodup →
    (Pit.releaseAll os p).2.board.stops + os.length ≤ p.board.stops := by
  induction os with
  | nil => intro p _ _ _; exact Nat.le_refl _
  | cons o os ih =>
    intro p hp h1 h2
    rw [List.map_cons, List.nodup_cons] at h2
    obtain ⟨g1, g2⟩ := Paid.release hp (h1 o List.mem_cons_self)
    have h := release_stops hk (h1 o List.mem_cons_self)
    have h' := ih g1.fine (fun x hx => g2 k hk x (h1 x (List.mem_cons_of_mem _ hx)) (fun e => h2.1 (List.mem_map.2 ⟨x, hx, e⟩))) h2.2
    simp only [Pit.releaseAll, List.length_cons]
    omega

theorem due_stops {p : Pit} (hp : Fine p) {k : Kind} (hk : k.isLimit = false) : (Pit.releaseAll (p.due k) p).2.board.stops + (p.due k).length ≤ p.board.stops :=
  releaseAll_stops hk _ hp (fun o ho => (due_sub p k).subset ho) (((due_sub p k).map _).nodup (hp.neat.line k))

theorem next_stops {p : Pit} (hp : Fine p) {k k' : Kind} (hk : k.isLimit = false) (hk' : k'.isLimit = false) :
    (Pit.releaseAll (p.next k k') p).2.board.stops + (p.next k k').length ≤ p.board.stops := by
  unfold Pit.next
  split
  · exact due_stops hp hk'
  · exact due_stops hp hk

theorem retrail_stops (m : Nat) {k : Kind} (hk : k.isLimit = false) (os : List Order) : ∀ {l : Board}, Neat l → (∀ o ∈ os, o ∈ l k) → (os.map (·.id)).Nodup →
    (Board.retrail m os l).stops ≤ l.stops := by
  induction os with
  | nil => intro l _ _ _; exact Nat.le_refl _
  | cons o os ih =>
    intro l h h1 h2
    rw [List.map_cons, List.nodup_cons] at h2
    have h1' : ∀ x ∈ os, x ∈ l k := fun x hx => h1 x (List.mem_cons_of_mem _ hx)
    unfold Board.retrail
    by_cases c : o.trailMoves m
    · rw [if_pos c]
      obtain ⟨e1, _⟩ := retrailed_same m o
      have a1 := change_stops_mem hk (h1 o List.mem_cons_self)
      have a2 := insert_stops (l.change o.id none) (o.retrailed m)
      have hn : Neat ((l.change o.id none).insert (o.retrailed m)) :=
        insert_neat (change_neat h (by intro x hx; cases hx)) (fun k r hr => by rw [e1]; exact change_gone hr)
      have b := ih hn (fun x hx => insert_keep (change_keep (h1' x hx) (fun e => h2.1 (List.mem_map.2 ⟨x, hx, e⟩)))) h2.2
      omega
    · rw [if_neg c]; exact ih h h1' h2.2

theorem followAsk_stops {p : Pit} (hp : Fine p) : p.followAsk.board.stops ≤ p.board.stops := by
  unfold Pit.followAsk
  split
  · exact Nat.le_refl _
  · simp only []
    split
    · exact retrail_stops _ rfl _ hp.neat (fun _ h => h) (hp.neat.line _)
    · exact Nat.le_refl _

theorem followBid_stops {p : Pit} (hp : Fine p) : p.followBid.board.stops ≤ p.board.stops := by
  unfold Pit.followBid
  split
  · exact Nat.le_refl _
  · simp only []
    split
    · exact retrail_stops _ rfl _ hp.neat (fun _ h => h) (hp.neat.line _)
    · exact Nat.le_refl _

theorem round_stops {p : Pit} (hp : Fine p) : p.round.2.2.board.stops ≤ p.board.stops ∧ (p.round.1 = true → p.round.2.2.board.stops < p.board.stops) := by
  unfold Pit.round
  simp only []
  have h1 : Paid p (Pit.releaseAll (p.next .buyStop .tBuyStop) p) := .next hp rfl rfl
  have s1 := next_stops hp (k := .buyStop) (k' := .tBuyStop) rfl rfl
  have h2 := Paid.followAsk h1.fine
  have s2 := followAsk_stops h1.fine
  have h3 := Paid.next h2.fine (k := .sellStop) (k' := .tSellStop) rfl rfl
  have s3 := next_stops h2.fine (k := .sellStop) (k' := .tSellStop) rfl rfl
  have s4 := followBid_stops h3.fine
  simp only [] at s3 s4 ⊢
  refine ⟨by omega, fun h => ?_⟩
  simp only [Bool.or_eq_true, Bool.not_eq_true', List.isEmpty_eq_false_iff] at h
  rcases h with h | h
  · have := List.length_pos_iff.2 h; omega
  · have := List.length_pos_iff.2 h; omega

theorem rounds_stops (n : Nat) : ∀ {p : Pit}, Fine p → (Pit.rounds n p).2.2.board.stops ≤ p.board.stops ∧
    ((Pit.rounds n p).1 = true → (Pit.rounds n p).2.2.board.stops < p.board.stops) := by
  induction n with
  | zero => intro p _; exact ⟨Nat.le_refl _, fun h => by cases h⟩
  | succ n ih =>
    intro p hp
    have h := Paid.round hp
    have hs := round_stops hp
    simp only [Pit.rounds]
    by_cases c : p.round.1 = true
    · rw [if_pos c]
      have := ih h.fine
      have := hs.2 c
      exact ⟨by simp only []; omega, fun _ => by simp only []; omega⟩
    · rw [if_neg c]; exact hs

/-! ### Orders that meet -/

theorem meet_stops (p : Pit) (b a : Order) : (p.meet b a).2.board.stops ≤ p.board.stops := by
  unfold Pit.meet
  simp only []
  exact Nat.le_trans (change_stops _ _ _) (change_stops _ _ _)

theorem draw_stops (p : Pit) {k : Kind} (hk : k.isLimit = true) (price n : Nat) : (p.draw k price n).2.board.stops = p.board.stops := by
  rw [(draw_board p k price n).1]; exact put_stops _ _ hk

theorem crossWhole_stops (p : Pit) (b a : Order) : (p.crossWhole b a).2.2.board.stops = p.board.stops := by
  unfold Pit.crossWhole
  simp only []
  split
  · rfl
  · cases b.isAON with
    | true => simp only [if_true]; rw [draw_stops _ rfl, draw_stops _ rfl]
    | false => simp only [Bool.false_eq_true, if_false]; rw [draw_stops _ rfl, draw_stops _ rfl]

theorem pairs_stops (bs : List Order) : ∀ (as : List Order) (p : Pit), (Pit.pairs bs as p).2.2.board.stops ≤ p.board.stops := by
  induction bs with
  | nil => intro as p; exact Nat.le_refl _
  | cons b bs ih =>
    intro as p
    cases as with
    | nil => exact Nat.le_refl _
    | cons a as =>
      simp only [Pit.pairs]
      split
      · exact Nat.le_of_eq (crossWhole_stops p b a)
      · exact Nat.le_trans (ih _ _) (meet_stops p b a)

/-- Unless nothing can be done, something is executed. -/
theorem crossWhole_some {p : Pit} {b a : Order} (hb : p.board .bid ≠ []) (ha : p.board .ask ≠ []) (h : (p.crossWhole b a).1 = false) : (p.crossWhole b a).2.1 ≠ [] := by
  unfold Pit.crossWhole at h ⊢
  simp only [] at h ⊢
  generalize crossing (p.board .bid) (p.board .ask) = n at h ⊢
  by_cases c : n = 0
  · rw [if_pos c] at h; cases h
  · rw [if_neg c] at h ⊢
    have key : ∀ k price, p.board k ≠ [] → (p.draw k price n).1 ≠ [] := by
      intro k price hk e
      have := (draw_board p k price n).2
      rw [e] at this
      cases hl : p.board k with
      | nil => exact hk hl
      | cons r rs => rw [hl] at this; simp only [drawn, if_neg c, List.length_cons, List.length_nil] at this; omega
    cases b.isAON with
    | true => simp only [if_true]; intro e; exact key .bid _ hb (List.append_eq_nil_iff.1 e).1
    | false => simp only [Bool.false_eq_true, if_false]; intro e; exact key .ask _ ha (List.append_eq_nil_iff.1 e).1

theorem pairs_some {p : Pit} {bs as : List Order} (h1 : bs ≠ []) (h2 : as ≠ []) (hb : p.board .bid ≠ []) (ha : p.board .ask ≠ [])
    (h : (Pit.pairs bs as p).1 = false) : (Pit.pairs bs as p).2.1 ≠ [] := by
  cases bs with
  | nil => exact absurd rfl h1
  | cons b bs =>
    cases as with
    | nil => exact absurd rfl h2
    | cons a as =>
      simp only [Pit.pairs] at h ⊢
      by_cases c : b.isAON = true ∨ a.isAON = true
      · rw [if_pos c] at h ⊢; exact crossWhole_some hb ha h
      · rw [if_neg c] at h ⊢
        intro e
        have := (List.append_eq_nil_iff.1 e).1
        unfold Pit.meet at this
        cases this

theorem groups_some {rs : List Order} (h : rs ≠ []) : (priceGroups rs).headD [] ≠ [] := by
  cases rs with
  | nil => exact absurd rfl h
  | cons o os =>
    unfold priceGroups
    split
    · split <;> simp
    · simp

/-! ### Turns -/

/-- How many turns it takes at most. -/
def turns (p : Pit) : Nat := cnt p.board + p.board.stops + 1

theorem settle_more (n : Nat) : ∀ (m : Nat) {p : Pit}, Fine p → turns p ≤ n → turns p ≤ m → p.settle n = p.settle m := by
  induction n with
  | zero => intro m p _ h; unfold turns at h; omega
  | succ n ih =>
    intro m p hp hn hm
    cases m with
    | zero => unfold turns at hm; omega
    | succ m =>
      unfold turns at hn hm
      simp only [Pit.settle]
      by_cases c : p.crossed
      · rw [if_pos c, if_pos c]
        have h := Paid.pairs ((priceGroups (p.board .bid)).headD []) ((priceGroups (p.board .ask)).headD []) hp
          (fun b hb => (groups_first _).subset hb) (fun a ha => (groups_first _).subset ha)
          (((groups_first _).map _).nodup (hp.neat.line .bid)) (((groups_first _).map _).nodup (hp.neat.line .ask))
        have hs := pairs_stops ((priceGroups (p.board .bid)).headD []) ((priceGroups (p.board .ask)).headD []) p
        have hx : (Pit.pairs ((priceGroups (p.board .bid)).headD []) ((priceGroups (p.board .ask)).headD []) p).1 = false →
            (Pit.pairs ((priceGroups (p.board .bid)).headD []) ((priceGroups (p.board .ask)).headD []) p).2.1 ≠ [] :=
          pairs_some (groups_some c.2.1) (groups_some c.2.2) c.2.1 c.2.2
        generalize Pit.pairs ((priceGroups (p.board .bid)).headD []) ((priceGroups (p.board .ask)).headD []) p = q at h hs hx ⊢
        by_cases d : q.1 = true
        · rw [if_pos d, if_pos d]
        · rw [if_neg d, if_neg d]
          have hl := List.length_pos_iff.2 (hx (by simpa using d))
          have h1 := Paid.due h.fine (k := .buyStop) rfl
          have s1 := due_stops h.fine (k := .buyStop) rfl
          have h2 := Paid.due h1.fine (k := .sellStop) rfl
          have s2 := due_stops h1.fine (k := .sellStop) rfl
          have e0 := h.paid
          have e1 := h1.paid
          have e2 := h2.paid
          rw [ih m h2.fine (by unfold turns; omega) (by unfold turns; omega)]
      · rw [if_neg c, if_neg c]
        have h := Paid.rounds (p.board.stops + 1) hp
        have hs := rounds_stops (p.board.stops + 1) hp
        generalize p.rounds (p.board.stops + 1) = q at h hs ⊢
        by_cases d : q.1 = true
        · rw [if_pos d, if_pos d]
          have := hs.2 d
          have e0 := h.paid
          rw [ih m h.fine (by unfold turns; omega) (by unfold turns; omega)]
        · rw [if_neg d, if_neg d]

end Budget
end CppTrader
