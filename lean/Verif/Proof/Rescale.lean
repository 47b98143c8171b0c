import Verif.Proof.Settle
import Verif.Rescale
/-
The reference exchange works alike on another price scale and in another lot size.
-/

namespace CppTrader
open Core

namespace Rescale
variable (c : Rescale)

def used (p : Nat) : Prop := c.SamePrices ∨ c.ticks p
def Good (o : Order) : Prop := c.SamePrices ∨ c.Uses o

theorem used_zero : c.used 0 ∧ c.price 0 = 0 := ⟨.inr c.bottom.1, c.bottom.2⟩
theorem used_top : c.used MAX64 ∧ c.price MAX64 = MAX64 := ⟨.inr c.top.1, c.top.2⟩

theorem Good.price {c : Rescale} {o : Order} (h : c.Good o) : c.used o.price := h.imp id (·.1)
theorem Good.stop {c : Rescale} {o : Order} (h : c.Good o) : c.used o.stopPrice := h.imp id (·.2.1)

/-- What matters of an order. -/
theorem Good.like {c : Rescale} {o t : Order} (h : c.Good o) (h1 : t.price = o.price) (h2 : t.stopPrice = o.stopPrice) (h3 : t.type = o.type)
    (h4 : t.slippage = o.slippage) : c.Good t := by
  rcases h with h | h
  · exact .inl h
  · unfold Uses at h
    rw [← h1, ← h2, ← h3, ← h4] at h
    exact .inr h

theorem Good.after {c : Rescale} {o : Order} (h : c.Good o) (q : Nat) : c.Good (o.afterExec q) := h.like rfl rfl rfl rfl

theorem le_map {a b : Nat} (ha : c.used a) (hb : c.used b) : c.price a ≤ c.price b ↔ a ≤ b := by
  rcases ha with h | ha
  · rw [h a, h b]
  · rcases hb with h | hb
    · rw [h a, h b]
    · exact c.order a b ha hb

theorem lt_map {a b : Nat} (ha : c.used a) (hb : c.used b) : c.price a < c.price b ↔ a < b := by
  have := c.le_map hb ha
  omega

theorem eq_map {a b : Nat} (ha : c.used a) (hb : c.used b) : c.price a = c.price b ↔ a = b := by
  have := c.le_map hb ha
  have := c.le_map ha hb
  omega

theorem max_map {a b : Nat} (ha : c.used a) (hb : c.used b) : max (c.price a) (c.price b) = c.price (max a b) ∧ c.used (max a b) := by
  have := c.le_map ha hb
  rcases Nat.le_total a b with h | h
  · rw [Nat.max_eq_right h, Nat.max_eq_right (this.2 h)]; exact ⟨rfl, hb⟩
  · rw [Nat.max_eq_left h, Nat.max_eq_left ((c.le_map hb ha).2 h)]; exact ⟨rfl, ha⟩

theorem min_map {a b : Nat} (ha : c.used a) (hb : c.used b) : min (c.price a) (c.price b) = c.price (min a b) ∧ c.used (min a b) := by
  have := c.le_map ha hb
  rcases Nat.le_total a b with h | h
  · rw [Nat.min_eq_left h, Nat.min_eq_left (this.2 h)]; exact ⟨rfl, ha⟩
  · rw [Nat.min_eq_right h, Nat.min_eq_right ((c.le_map hb ha).2 h)]; exact ⟨rfl, hb⟩

theorem lot_inj (a b : Nat) : c.lot * a = c.lot * b ↔ a = b := ⟨fun h => Nat.eq_of_mul_eq_mul_left c.positive h, fun h => by rw [h]⟩
theorem lot_lt (a b : Nat) : c.lot * a < c.lot * b ↔ a < b := Nat.mul_lt_mul_left c.positive
theorem lot_le (a b : Nat) : c.lot * a ≤ c.lot * b ↔ a ≤ b := by have := c.lot_lt b a; omega
theorem lot_zero (a : Nat) : c.lot * a = 0 ↔ a = 0 := by
  have := c.lot_inj a 0
  rwa [Nat.mul_zero] at this
theorem lot_min (a b : Nat) : min (c.lot * a) (c.lot * b) = c.lot * min a b := by
  rcases Nat.le_total a b with h | h
  · rw [Nat.min_eq_left h, Nat.min_eq_left (Nat.mul_le_mul_left _ h)]
  · rw [Nat.min_eq_right h, Nat.min_eq_right (Nat.mul_le_mul_left _ h)]

theorem counter_add (e q : Nat) : c.counter (add64 e q) = add64 (c.counter e) (c.lot * q) := by
  unfold counter add64
  by_cases h : c.lot = 1
  · rw [if_pos h, if_pos h, h, Nat.one_mul]
  · rw [if_neg h, if_neg h, Nat.mul_mod, Nat.mod_mod, ← Nat.mul_mod, Nat.mul_add, Nat.mod_add_mod]

theorem afterExec_map (o : Order) (q : Nat) : (c.ofOrder o).afterExec (c.lot * q) = c.ofOrder (o.afterExec q) := by
  unfold Order.afterExec ofOrder
  simp only
  rw [c.counter_add, Nat.mul_sub]

/-! ### Lines -/

def board (l : Board) : Board := fun k => (l k).map c.ofOrder
def quotes (q : Quotes) : Quotes := ⟨c.price q.bid, c.price q.ask⟩
def pit (p : Pit) : Pit := ⟨c.board p.board, c.quotes p.last, c.quotes p.heard, c.quotes p.seen⟩
def draws (l : List (Order × Nat)) : List (Order × Nat) := l.map (fun x => (c.ofOrder x.1, c.lot * x.2))
def groups (l : List (List Order)) : List (List Order) := l.map (·.map c.ofOrder)

structure AllGood (l : Board) : Prop where
  good : ∀ k, ∀ r ∈ l k, c.Good r
  none : c.SamePrices ∨ l .tBuyStop = [] ∧ l .tSellStop = []
def GoodQ (q : Quotes) : Prop := c.used q.bid ∧ c.used q.ask
def GoodX (xs : List Execution) : Prop := ∀ x ∈ xs, c.used x.2.1

/-- The prices of a trading place are in use. -/
structure Tidy (p : Pit) : Prop where
  board : c.AllGood p.board
  last : c.GoodQ p.last
  heard : c.GoodQ p.heard
  seen : c.GoodQ p.seen

theorem rank_used {o : Order} (h : c.Good o) : c.used o.rank ∧ (c.ofOrder o).rank = c.price o.rank := by
  unfold Order.rank
  by_cases ht : o.type = .limit
  · rw [if_pos ht, if_pos (show (c.ofOrder o).type = .limit from ht)]; exact ⟨h.price, rfl⟩
  · rw [if_neg ht, if_neg (show ¬ (c.ofOrder o).type = .limit from ht)]; exact ⟨h.stop, rfl⟩

theorem beats_map {t r : Order} (k : Kind) (ht : c.Good t) (hr : c.Good r) : (c.ofOrder t).beats k (c.ofOrder r) ↔ t.beats k r := by
  obtain ⟨a1, a2⟩ := c.rank_used ht
  obtain ⟨b1, b2⟩ := c.rank_used hr
  unfold Order.beats
  rw [a2, b2, c.lt_map a1 b1, c.lt_map b1 a1]

theorem enqueue_map (k : Kind) {t : Order} (ht : c.Good t) {rs : List Order} (hr : ∀ r ∈ rs, c.Good r) :
    enqueue k (c.ofOrder t) (rs.map c.ofOrder) = (enqueue k t rs).map c.ofOrder := by
  induction rs with
  | nil => rfl
  | cons r rs ih =>
    have e : ∀ t r rs, enqueue k t (r :: rs) = if t.beats k r then t :: r :: rs else r :: enqueue k t rs := fun _ _ _ => rfl
    rw [List.map_cons, e, e, ih (fun x h => hr x (List.mem_cons_of_mem _ h))]
    have hb := c.beats_map k ht (hr r List.mem_cons_self)
    by_cases h : t.beats k r
    · rw [if_pos h, if_pos (hb.2 h)]; rfl
    · rw [if_neg h, if_neg (fun x => h (hb.1 x))]; rfl

theorem home_map (t : Order) : (c.ofOrder t).home.map (·.1) = t.home.map (·.1) := by
  unfold Order.home
  rw [show (c.ofOrder t).type = t.type from rfl, show (c.ofOrder t).side = t.side from rfl]
  cases t.type <;> cases t.side <;> rfl

theorem insert_map {l : Board} (hl : c.AllGood l) {t : Order} (ht : c.Good t) : (c.board l).insert (c.ofOrder t) = c.board (l.insert t) := by
  funext k
  unfold Board.insert board
  rw [home_map]
  simp only
  split
  · exact c.enqueue_map k ht (hl.good k)
  · rfl

theorem insert_good {l : Board} (hl : c.AllGood l) {t : Order} (ht : c.Good t) : c.AllGood (l.insert t) := by
  refine ⟨fun k r hr => ?_, ?_⟩
  · unfold Board.insert at hr
    split at hr
    · rcases enqueue_mem.1 hr with rfl | h
      · exact ht
      · exact hl.good k r h
    · exact hl.good k r hr
  · rcases ht with h | ⟨_, _, h1, h2, _⟩
    · exact .inl h
    · refine hl.none.imp id (fun h => ?_)
      have key : ∀ k, k = .tBuyStop ∨ k = .tSellStop → (l.insert t) k = l k := by
        intro k hk
        unfold Board.insert
        refine if_neg (fun e => ?_)
        unfold Order.home at e
        rcases hk with rfl | rfl <;> cases ht : t.type <;> cases hs : t.side <;> rw [ht, hs] at e <;>
          first | exact h1 ht | exact h2 ht | (cases e; done)
      rw [key _ (.inl rfl), key _ (.inr rfl)]; exact h

theorem change_map (l : Board) (id : Nat) (v : Option Order) : (c.board l).change id (v.map c.ofOrder) = c.board (l.change id v) := by
  funext k
  show ((l k).map c.ofOrder).filterMap (fun r => if r.id = id then v.map c.ofOrder else some r) =
    ((l k).filterMap (fun r => if r.id = id then v else some r)).map c.ofOrder
  rw [List.filterMap_map, List.map_filterMap]
  congr 1
  funext r
  show (if r.id = id then v.map c.ofOrder else some (c.ofOrder r)) = (if r.id = id then v else some r).map c.ofOrder
  by_cases h : r.id = id
  · rw [if_pos h, if_pos h]
  · rw [if_neg h, if_neg h]; rfl

theorem change_good {l : Board} (hl : c.AllGood l) {id : Nat} {v : Option Order} (hv : ∀ o, v = some o → c.Good o) : c.AllGood (l.change id v) := by
  refine ⟨fun k r hr => ?_, hl.none.imp (fun h => h) (fun h => ?_)⟩
  · obtain ⟨x, hx, e⟩ := List.mem_filterMap.1 hr
    by_cases h : x.id = id
    · rw [if_pos h] at e; exact hv r e
    · rw [if_neg h, Option.some.injEq] at e; rw [← e]; exact hl.good k x hx
  · unfold Board.change; rw [h.1, h.2]; exact ⟨rfl, rfl⟩

theorem put_map (l : Board) (k : Kind) (rs : List Order) : (c.board l).put k (rs.map c.ofOrder) = c.board (l.put k rs) := by
  funext k'
  show (if k' = k then rs.map c.ofOrder else (l k').map c.ofOrder) = (if k' = k then rs else l k').map c.ofOrder
  split <;> rfl

theorem put_good {l : Board} (hl : c.AllGood l) {k : Kind} (hk : k.isLimit = true) {rs : List Order} (hr : ∀ r ∈ rs, c.Good r) : c.AllGood (l.put k rs) := by
  refine ⟨fun k' r h => ?_, hl.none.imp id (fun h => ?_)⟩
  · unfold Board.put at h
    split at h
    · exact hr r h
    · exact hl.good k' r h
  · unfold Board.put
    rw [if_neg (by rintro rfl; cases hk), if_neg (by rintro rfl; cases hk)]; exact h

/-! ### Incoming orders -/

theorem accepts_map {t : Order} {p : Nat} (ht : c.used t.price) (hp : c.used p) : (c.ofOrder t).accepts (c.price p) ↔ t.accepts p := by
  unfold Order.accepts
  rw [show (c.ofOrder t).side = t.side from rfl]
  cases t.side
  · exact c.le_map hp ht
  · exact c.le_map ht hp

theorem isAON_map (o : Order) : (c.ofOrder o).isAON = o.isAON := rfl

theorem stopsAt_map {t r : Order} (ht : c.used t.price) (hp : c.used r.price) : (c.ofOrder t).stopsAt (c.ofOrder r) ↔ t.stopsAt r := by
  unfold Order.stopsAt
  rw [isAON_map, show (c.ofOrder r).price = c.price r.price from rfl, c.accepts_map ht hp]
  show (c.lot * t.leaves = 0 ∨ _ ∨ _ ∧ c.lot * t.leaves < c.lot * r.leaves) ↔ _
  rw [c.lot_zero, c.lot_lt]

theorem greedy_map {rs : List Order} (hr : ∀ r ∈ rs, c.Good r) : ∀ {t : Order}, c.Good t →
    greedy (c.ofOrder t) (rs.map c.ofOrder) = (greedy t rs).map c.ofExec ∧
    greedyLeft (c.ofOrder t) (rs.map c.ofOrder) = c.ofOrder (greedyLeft t rs) ∧
    greedyRest (c.ofOrder t) (rs.map c.ofOrder) = (greedyRest t rs).map c.ofOrder ∧
    c.GoodX (greedy t rs) ∧ c.Good (greedyLeft t rs) ∧ ∀ r ∈ greedyRest t rs, c.Good r := by
  induction rs with
  | nil => intro t ht; exact ⟨rfl, rfl, rfl, fun _ h => (nomatch h), ht, fun _ h => (nomatch h)⟩
  | cons r rs ih =>
    intro t ht
    have hp := hr r (List.mem_cons_self ..)
    have e1 : ∀ (t r : Order) rs, greedy t (r :: rs) = if t.stopsAt r then [] else
      (r, r.price, min r.leaves t.leaves) :: (t, r.price, min r.leaves t.leaves) :: greedy (t.afterExec (min r.leaves t.leaves)) rs := fun _ _ _ => rfl
    have e2 : ∀ (t r : Order) rs, greedyLeft t (r :: rs) = if t.stopsAt r then t else greedyLeft (t.afterExec (min r.leaves t.leaves)) rs := fun _ _ _ => rfl
    have e3 : ∀ (t r : Order) rs, greedyRest t (r :: rs) = if t.stopsAt r then r :: rs else
      if min r.leaves t.leaves = r.leaves then greedyRest (t.afterExec (min r.leaves t.leaves)) rs else r.afterExec (min r.leaves t.leaves) :: rs := fun _ _ _ => rfl
    rw [List.map_cons, e1, e1, e2, e2, e3, e3]
    have hm : min (c.ofOrder r).leaves (c.ofOrder t).leaves = c.lot * min r.leaves t.leaves := c.lot_min _ _
    rw [hm, c.afterExec_map, c.afterExec_map]
    obtain ⟨i1, i2, i3, i4, i5, i6⟩ := ih (fun r h => hr r (List.mem_cons_of_mem _ h)) (ht.after (min r.leaves t.leaves))
    by_cases h : t.stopsAt r
    · have h' := (c.stopsAt_map ht.price hp.price).2 h
      rw [if_pos h, if_pos h, if_pos h, if_pos h', if_pos h', if_pos h']
      exact ⟨rfl, rfl, rfl, fun _ h => (nomatch h), ht, hr⟩
    · have h' : ¬ (c.ofOrder t).stopsAt (c.ofOrder r) := fun x => h ((c.stopsAt_map ht.price hp.price).1 x)
      rw [if_neg h, if_neg h, if_neg h, if_neg h', if_neg h', if_neg h', i1, i2, i3]
      have hq : c.lot * min r.leaves t.leaves = (c.ofOrder r).leaves ↔ min r.leaves t.leaves = r.leaves := c.lot_inj _ _
      refine ⟨rfl, rfl, ?_, ?_, i5, ?_⟩
      · by_cases h2 : min r.leaves t.leaves = r.leaves
        · rw [if_pos h2, if_pos (hq.2 h2)]
        · rw [if_neg h2, if_neg (fun x => h2 (hq.1 x))]; rfl
      · intro x hx
        rcases List.mem_cons.1 hx with rfl | hx
        · exact hp.price
        · rcases List.mem_cons.1 hx with rfl | hx
          · exact hp.price
          · exact i4 x hx
      · intro x hx
        split at hx
        · exact i6 x hx
        · rcases List.mem_cons.1 hx with rfl | hx
          · exact hp.after _
          · exact hr x (List.mem_cons_of_mem _ hx)

theorem chain_map {rs : List Order} (hr : ∀ r ∈ rs, c.Good r) {t : Order} (ht : c.Good t) : ∀ n,
    chain (c.ofOrder t) (c.lot * n) (rs.map c.ofOrder) = (chain t n rs).map c.draws := by
  induction rs with
  | nil => intro n; rfl
  | cons r rs ih =>
    intro n
    have hp := hr r (List.mem_cons_self ..)
    have ih := ih (fun r h => hr r (List.mem_cons_of_mem _ h))
    have e : ∀ (t r : Order) rs n, chain t n (r :: rs) = if n = 0 ∨ ¬ t.accepts r.price then none else
        if (if r.isAON then r.leaves else min r.leaves n) = n then some [(r, (if r.isAON then r.leaves else min r.leaves n))]
        else if n < (if r.isAON then r.leaves else min r.leaves n) then none
        else (chain t (n - (if r.isAON then r.leaves else min r.leaves n)) rs).map ((r, (if r.isAON then r.leaves else min r.leaves n)) :: ·) := fun _ _ _ _ => rfl
    rw [List.map_cons, e, e]
    have hq : (if (c.ofOrder r).isAON then (c.ofOrder r).leaves else min (c.ofOrder r).leaves (c.lot * n)) =
        c.lot * (if r.isAON then r.leaves else min r.leaves n) := by
      rw [isAON_map]
      split
      · rfl
      · exact c.lot_min _ _
    rw [hq]
    generalize (if r.isAON then r.leaves else min r.leaves n) = q
    have h0 : (c.lot * n = 0 ∨ ¬ (c.ofOrder t).accepts (c.ofOrder r).price) ↔ (n = 0 ∨ ¬ t.accepts r.price) := by
      rw [c.lot_zero, show (c.ofOrder r).price = c.price r.price from rfl, c.accepts_map ht.price hp.price]
    by_cases h : n = 0 ∨ ¬ t.accepts r.price
    · rw [if_pos h, if_pos (h0.2 h)]; rfl
    · rw [if_neg h, if_neg (fun x => h (h0.1 x))]
      by_cases h1 : q = n
      · rw [if_pos h1, if_pos ((c.lot_inj _ _).2 h1)]; rfl
      · rw [if_neg h1, if_neg (fun x => h1 ((c.lot_inj _ _).1 x))]
        by_cases h2 : n < q
        · rw [if_pos h2, if_pos ((c.lot_lt _ _).2 h2)]; rfl
        · rw [if_neg h2, if_neg (fun x => h2 ((c.lot_lt _ _).1 x)), ← Nat.mul_sub, ih]
          cases chain t (n - q) rs <;> rfl

theorem afterChain_map : ∀ (xs : List (Order × Nat)) (rs : List Order), afterChain (c.draws xs) (rs.map c.ofOrder) = (afterChain xs rs).map c.ofOrder := by
  intro xs
  induction xs with
  | nil => intro rs; rfl
  | cons x xs ih =>
    intro rs
    cases rs with
    | nil => rfl
    | cons r rs =>
      obtain ⟨o, q⟩ := x
      have e : ∀ (o : Order) q xs (r : Order) rs, afterChain ((o, q) :: xs) (r :: rs) = if q < r.leaves then r.afterExec q :: afterChain xs rs else afterChain xs rs := fun _ _ _ _ _ => rfl
      show afterChain ((c.ofOrder o, c.lot * q) :: c.draws xs) (c.ofOrder r :: rs.map c.ofOrder) = _
      rw [e, e, ih, c.afterExec_map]
      have hl : c.lot * q < (c.ofOrder r).leaves ↔ q < r.leaves := c.lot_lt _ _
      by_cases h : q < r.leaves
      · rw [if_pos h, if_pos (hl.2 h)]; rfl
      · rw [if_neg h, if_neg (fun x => h (hl.1 x))]

theorem afterChain_good : ∀ (xs : List (Order × Nat)) {rs : List Order}, (∀ r ∈ rs, c.Good r) → ∀ r ∈ afterChain xs rs, c.Good r := by
  intro xs
  induction xs with
  | nil => intro rs h; exact h
  | cons x xs ih =>
    intro rs h
    cases rs with
    | nil => exact h
    | cons r rs =>
      obtain ⟨o, q⟩ := x
      have ih := ih (fun r hr => h r (List.mem_cons_of_mem _ hr))
      intro y hy
      have e : afterChain ((o, q) :: xs) (r :: rs) = if q < r.leaves then r.afterExec q :: afterChain xs rs else afterChain xs rs := rfl
      rw [e] at hy
      split at hy
      · rcases List.mem_cons.1 hy with rfl | hy
        · exact (h r List.mem_cons_self).after q
        · exact ih y hy
      · exact ih y hy

theorem fills_map {rs : List Order} (hr : ∀ r ∈ rs, c.Good r) {t : Order} (ht : c.Good t) :
    (c.ofOrder t).fills (rs.map c.ofOrder) = (t.fills rs).map c.ofExec ∧
    (c.ofOrder t).left (rs.map c.ofOrder) = c.ofOrder (t.left rs) ∧
    (c.ofOrder t).leaveLine (rs.map c.ofOrder) = (t.leaveLine rs).map c.ofOrder ∧
    c.GoodX (t.fills rs) ∧ c.Good (t.left rs) ∧ ∀ r ∈ t.leaveLine rs, c.Good r := by
  obtain ⟨g1, g2, g3, g4, g5, g6⟩ := c.greedy_map hr ht
  have hc := c.chain_map hr ht t.leaves
  unfold Order.fills Order.left Order.leaveLine
  rw [show (c.ofOrder t).leaves = c.lot * t.leaves from rfl, hc, g1, g2, g3]
  by_cases h : t.whole
  · have h' : (c.ofOrder t).whole := h
    rw [if_pos h, if_pos h, if_pos h, if_pos h', if_pos h', if_pos h']
    cases chain t t.leaves rs with
    | none => exact ⟨rfl, rfl, rfl, fun _ h => (nomatch h), ht, hr⟩
    | some xs =>
      refine ⟨?_, c.afterExec_map _ _, c.afterChain_map _ _, ?_, ht.after _, c.afterChain_good xs hr⟩
      · simp only [Option.map_some, List.map_append, List.map_map, draws]
        rfl
      · intro x hx
        simp only [List.mem_append, List.mem_map, List.mem_singleton] at hx
        rcases hx with ⟨y, _, rfl⟩ | rfl
        · exact ht.price
        · exact ht.price
  · have h' : ¬ (c.ofOrder t).whole := h
    rw [if_neg h, if_neg h, if_neg h, if_neg h', if_neg h', if_neg h']
    exact ⟨rfl, rfl, rfl, g4, g5, g6⟩

/-- A market order without a slippage limit takes any price. -/
theorem bounded_map {t : Order} (ht : c.Good t) {p : Nat} (hp : c.used p) :
    (c.ofOrder t).bounded (c.price p) = c.ofOrder (t.bounded p) ∧ c.Good (t.bounded p) := by
  rcases ht with h | ht
  · refine ⟨?_, .inl h⟩
    unfold Order.bounded ofOrder
    simp only [h p]
    cases t.side
    · simp only [h (min (p + t.slippage) MAX64)]
    · simp only [h (p - t.slippage)]
  · rcases hp with h | hp
    · refine ⟨?_, .inl h⟩
      unfold Order.bounded ofOrder
      simp only [h p]
      cases t.side
      · simp only [h (min (p + t.slippage) MAX64)]
      · simp only [h (p - t.slippage)]
    · have h5 := ht.2.2.2.2
      have w1 := c.within p hp
      have w2 := (c.order _ _ hp c.top.1).2 w1
      rw [c.top.2] at w2
      have b1 : min (p + t.slippage) MAX64 = MAX64 := by omega
      have b2 : min (c.price p + t.slippage) MAX64 = MAX64 := by omega
      have b3 : p - t.slippage = 0 := by omega
      have b4 : c.price p - t.slippage = 0 := by omega
      unfold Order.bounded ofOrder
      simp only [b1, b2, b3, b4]
      cases t.side
      · exact ⟨by simp only [c.top.2], .inr ⟨c.top.1, ht.2⟩⟩
      · exact ⟨by simp only [c.bottom.2], .inr ⟨c.bottom.1, ht.2⟩⟩

theorem capped_map {t : Order} (ht : c.Good t) {rs : List Order} (hr : ∀ r ∈ rs, c.Good r) :
    (c.ofOrder t).capped (rs.map c.ofOrder) = c.ofOrder (t.capped rs) ∧ c.Good (t.capped rs) := by
  cases rs with
  | nil =>
    have e : ∀ t : Order, t.capped [] = t := by intro t; unfold Order.capped; split <;> first | rfl | contradiction
    rw [List.map_nil, e, e]
    exact ⟨rfl, ht⟩
  | cons r rs =>
    by_cases hm : t.type = .market
    · have e : ∀ {t : Order} {r rs}, t.type = .market → t.capped (r :: rs) = t.bounded r.price := by
        intro t r rs h; unfold Order.capped; rw [h]
      rw [List.map_cons, e hm, e (show (c.ofOrder t).type = .market from hm)]
      exact c.bounded_map ht (hr r (List.mem_cons_self ..)).price
    · have e : ∀ {t : Order} {rs}, t.type ≠ .market → t.capped rs = t := by
        intro t rs h; unfold Order.capped; split
        · rename_i h'; exact absurd h' h
        · rfl
      rw [e hm, e (show (c.ofOrder t).type ≠ .market from hm)]
      exact ⟨rfl, ht⟩

theorem strike_map (m : Bool) {l : Board} (hl : c.AllGood l) {t : Order} (ht : c.Good t) :
    (c.board l).strike m (c.ofOrder t) = ((l.strike m t).1.map c.ofExec, c.ofOrder (l.strike m t).2.1, c.board (l.strike m t).2.2) ∧
    c.GoodX (l.strike m t).1 ∧ c.Good (l.strike m t).2.1 ∧ c.AllGood (l.strike m t).2.2 := by
  unfold Board.strike
  cases m with
  | false => exact ⟨rfl, fun _ h => (nomatch h), ht, hl⟩
  | true =>
    simp only [if_true]
    show ((((c.ofOrder t).capped ((l t.side.other.limits).map c.ofOrder)).fills ((l t.side.other.limits).map c.ofOrder),
      ((c.ofOrder t).capped ((l t.side.other.limits).map c.ofOrder)).left ((l t.side.other.limits).map c.ofOrder),
      (c.board l).put t.side.other.limits (((c.ofOrder t).capped ((l t.side.other.limits).map c.ofOrder)).leaveLine ((l t.side.other.limits).map c.ofOrder))) = _) ∧ _
    obtain ⟨h1, h2⟩ := c.capped_map ht (hl.good t.side.other.limits)
    obtain ⟨f1, f2, f3, f4, f5, f6⟩ := c.fills_map (hl.good t.side.other.limits) h2
    rw [h1, f1, f2, f3, put_map]
    exact ⟨rfl, f4, f5, c.put_good hl (by cases t.side <;> rfl) f6⟩

theorem set_map (q : Quotes) (s : Side) (p : Nat) : c.quotes (q.set s p) = (c.quotes q).set s (c.price p) := by cases s <;> rfl

theorem set_good {q : Quotes} (hq : c.GoodQ q) (s : Side) {p : Nat} (hp : c.used p) : c.GoodQ (q.set s p) := by
  cases s
  · exact ⟨hp, hq.2⟩
  · exact ⟨hq.1, hp⟩

theorem blank_map : c.quotes .blank = .blank ∧ c.GoodQ .blank := by
  refine ⟨?_, c.used_zero.1, c.used_top.1⟩
  show (⟨c.price 0, c.price MAX64⟩ : Quotes) = ⟨0, MAX64⟩
  rw [c.bottom.2, c.top.2]

theorem after_map (xs : List Execution) : ∀ (q : Quotes), (c.quotes q).after (xs.map c.ofExec) = c.quotes (q.after xs) := by
  induction xs with
  | nil => intro q; rfl
  | cons x xs ih =>
    intro q
    show ((c.quotes q).set x.1.side (c.price x.2.1)).after (xs.map c.ofExec) = _
    rw [← c.set_map, ih]; rfl

theorem after_good {xs : List Execution} : ∀ {q : Quotes}, c.GoodQ q → c.GoodX xs → c.GoodQ (q.after xs) := by
  induction xs with
  | nil => intro q h _; exact h
  | cons x xs ih =>
    intro q h hx
    exact ih (c.set_good h _ (hx x List.mem_cons_self)) (fun y hy => hx y (List.mem_cons_of_mem _ hy))

theorem pit_strike (m : Bool) {p : Pit} (hp : c.Tidy p) {t : Order} (ht : c.Good t) :
    (c.pit p).strike m (c.ofOrder t) = ((p.strike m t).1.map c.ofExec, c.ofOrder (p.strike m t).2.1, c.pit (p.strike m t).2.2) ∧
    c.GoodX (p.strike m t).1 ∧ c.Good (p.strike m t).2.1 ∧ c.Tidy (p.strike m t).2.2 := by
  obtain ⟨h1, h2, h3, h4⟩ := c.strike_map m hp.board ht
  unfold Pit.strike
  simp only
  rw [show (c.pit p).board = c.board p.board from rfl, h1]
  generalize hr : p.board.strike m t = r at h1 h2 h3 h4 ⊢
  simp only
  have hh : (match (r.1.map c.ofExec).getLast? with
      | none => (c.pit p).heard
      | some x => Quotes.blank.set x.1.side x.2.1) = c.quotes (match r.1.getLast? with
      | none => p.heard
      | some x => Quotes.blank.set x.1.side x.2.1) := by
    rw [List.getLast?_map]
    cases r.1.getLast? with
    | none => rfl
    | some x =>
      show Quotes.blank.set x.1.side (c.price x.2.1) = c.quotes (Quotes.blank.set x.1.side x.2.1)
      rw [set_map, c.blank_map.1]
  have hg : c.GoodQ (match r.1.getLast? with
      | none => p.heard
      | some x => Quotes.blank.set x.1.side x.2.1) := by
    cases e : r.1.getLast? with
    | none => exact hp.heard
    | some x => exact c.set_good c.blank_map.2 _ (h2 x (List.mem_of_getLast? e))
  refine ⟨?_, h2, h3, ⟨h4, c.after_good hp.last h2, hg, hp.seen⟩⟩
  refine Prod.ext rfl (Prod.ext rfl ?_)
  exact (Pit.mk.injEq ..).mpr ⟨rfl, c.after_map _ _, hh, rfl⟩

theorem rests_map (t : Order) : (c.ofOrder t).rests ↔ t.rests := by
  unfold Order.rests
  have : 0 < (c.ofOrder t).leaves ↔ 0 < t.leaves := by
    have := c.lot_zero t.leaves
    show 0 < c.lot * t.leaves ↔ _
    omega
  rw [this]; rfl

theorem land_map {p : Pit} (hp : c.Tidy p) {t : Order} (ht : c.Good t) : (c.pit p).land (c.ofOrder t) = c.pit (p.land t) ∧ c.Tidy (p.land t) := by
  unfold Pit.land
  by_cases h : t.rests
  · rw [if_pos h, if_pos ((c.rests_map t).2 h)]
    refine ⟨?_, c.insert_good hp.board ht, hp.last, hp.heard, hp.seen⟩
    show (⟨(c.board p.board).insert (c.ofOrder t), _, _, _⟩ : Pit) = _
    rw [c.insert_map hp.board ht]; rfl
  · rw [if_neg h, if_neg (fun x => h ((c.rests_map t).1 x))]; exact ⟨rfl, hp⟩

theorem pit_change (p : Pit) (id : Nat) (v : Option Order) : (c.pit p).change id (v.map c.ofOrder) = c.pit (p.change id v) := by
  unfold Pit.change
  show (⟨(c.board p.board).change id (v.map c.ofOrder), _, _, _⟩ : Pit) = _
  rw [change_map]; rfl

theorem tidy_change {p : Pit} (hp : c.Tidy p) {id : Nat} {v : Option Order} (hv : ∀ o, v = some o → c.Good o) : c.Tidy (p.change id v) :=
  ⟨c.change_good hp.board hv, hp.last, hp.heard, hp.seen⟩

theorem pit_drop {p : Pit} (hp : c.Tidy p) (id : Nat) : (c.pit p).change id none = c.pit (p.change id none) ∧ c.Tidy (p.change id none) :=
  ⟨c.pit_change p id none, c.tidy_change hp (fun _ h => (nomatch h))⟩

end Rescale
end CppTrader
