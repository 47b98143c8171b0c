import Verif.Props.Textbook
import Verif.Redraw
/-
The textbook exchange works alike from the other side, on another price scale and in another lot size.
-/

namespace CppTrader
open Core

namespace Redraw
variable (c : Redraw)

def board (l : Board) : Board := fun k => (l (c.kind k)).map c.ofOrder

theorem kind_kind (k : Kind) : c.kind (c.kind k) = k := by
  unfold kind
  cases c.flip <;> cases k <;> rfl

theorem kind_iff (k k' : Kind) : c.kind k = k' ↔ k = c.kind k' := by
  constructor
  · rintro rfl; rw [kind_kind]
  · rintro rfl; rw [kind_kind]

theorem limits_side (s : Side) : (c.side s).limits = c.kind s.limits := by
  unfold side kind
  cases c.flip <;> cases s <;> rfl

theorem other_side (s : Side) : (c.side s).other = c.side s.other := by
  unfold side
  cases c.flip <;> cases s <;> rfl

theorem lot_inj (a b : Nat) : c.lot * a = c.lot * b ↔ a = b := ⟨fun h => Nat.eq_of_mul_eq_mul_left c.positive h, fun h => by rw [h]⟩
theorem lot_lt (a b : Nat) : c.lot * a < c.lot * b ↔ a < b := Nat.mul_lt_mul_left c.positive
theorem lot_zero (a : Nat) : c.lot * a = 0 ↔ a = 0 := by
  have := c.lot_inj a 0
  rwa [Nat.mul_zero] at this
theorem lot_min (a b : Nat) : min (c.lot * a) (c.lot * b) = c.lot * min a b := by
  rcases Nat.le_total a b with h | h
  · rw [Nat.min_eq_left h, Nat.min_eq_left (Nat.mul_le_mul_left _ h)]
  · rw [Nat.min_eq_right h, Nat.min_eq_right (Nat.mul_le_mul_left _ h)]

theorem afterExec_map (o : Order) (q : Nat) : (c.ofOrder o).afterExec (c.lot * q) = c.ofOrder (o.afterExec q) := by
  unfold Order.afterExec ofOrder
  simp only
  rw [c.counts, Nat.mul_sub]

theorem accepts_map {t : Order} {p : Nat} (ht : c.ticks t.price) (hp : c.ticks p) : (c.ofOrder t).accepts (c.price p) ↔ t.accepts p := by
  have h1 := c.order _ _ ht hp
  have h2 := c.order _ _ hp ht
  unfold Order.accepts ofOrder side
  simp only
  cases hf : c.flip <;> rw [hf] at h1 h2 <;> cases hs : t.side <;> simp [Side.other] at h1 h2 ⊢ <;> simp [h1, h2]

theorem isAON_map (o : Order) : (c.ofOrder o).isAON = o.isAON := rfl

theorem stopsAt_map {t r : Order} (ht : c.ticks t.price) (hp : c.ticks r.price) : (c.ofOrder t).stopsAt (c.ofOrder r) ↔ t.stopsAt r := by
  unfold Order.stopsAt
  rw [isAON_map, show (c.ofOrder r).price = c.price r.price from rfl, c.accepts_map ht hp]
  show (c.lot * t.leaves = 0 ∨ _ ∨ _ ∧ c.lot * t.leaves < c.lot * r.leaves) ↔ _
  rw [c.lot_zero, c.lot_lt]

theorem greedy_map {rs : List Order} (hr : ∀ r ∈ rs, c.ticks r.price) : ∀ {t : Order}, c.ticks t.price →
    greedy (c.ofOrder t) (rs.map c.ofOrder) = (greedy t rs).map c.ofExec ∧
    greedyLeft (c.ofOrder t) (rs.map c.ofOrder) = c.ofOrder (greedyLeft t rs) ∧
    greedyRest (c.ofOrder t) (rs.map c.ofOrder) = (greedyRest t rs).map c.ofOrder := by
  induction rs with
  | nil => intro t _; exact ⟨rfl, rfl, rfl⟩
  | cons r rs ih =>
    intro t ht
    have hp := hr r (List.mem_cons_self ..)
    have e1 : ∀ (t r : Order) rs, greedy t (r :: rs) = if t.stopsAt r then [] else
      (r, r.price, min r.leaves t.leaves) :: (t, r.price, min r.leaves t.leaves) :: greedy (t.afterExec (min r.leaves t.leaves)) rs := fun _ _ _ => rfl
    have e2 : ∀ (t r : Order) rs, greedyLeft t (r :: rs) = if t.stopsAt r then t else greedyLeft (t.afterExec (min r.leaves t.leaves)) rs := fun _ _ _ => rfl
    have e3 : ∀ (t r : Order) rs, greedyRest t (r :: rs) = if t.stopsAt r then r :: rs else
      if min r.leaves t.leaves = r.leaves then greedyRest (t.afterExec (min r.leaves t.leaves)) rs else r.afterExec (min r.leaves t.leaves) :: rs := fun _ _ _ => rfl
    rw [List.map_cons, e1, e1, e2, e2, e3, e3]
    have hm : min (c.ofOrder r).leaves (c.ofOrder t).leaves = c.lot * min r.leaves t.leaves := c.lot_min _ _
    rw [hm, c.afterExec_map, c.afterExec_map]
    obtain ⟨i1, i2, i3⟩ := ih (fun r h => hr r (List.mem_cons_of_mem _ h)) (t := t.afterExec (min r.leaves t.leaves)) ht
    by_cases h : t.stopsAt r
    · have h' := (c.stopsAt_map ht hp).2 h
      rw [if_pos h, if_pos h, if_pos h, if_pos h', if_pos h', if_pos h']
      exact ⟨rfl, rfl, rfl⟩
    · have h' : ¬ (c.ofOrder t).stopsAt (c.ofOrder r) := fun x => h ((c.stopsAt_map ht hp).1 x)
      rw [if_neg h, if_neg h, if_neg h, if_neg h', if_neg h', if_neg h', i1, i2, i3]
      refine ⟨rfl, rfl, ?_⟩
      have hq : c.lot * min r.leaves t.leaves = (c.ofOrder r).leaves ↔ min r.leaves t.leaves = r.leaves := c.lot_inj _ _
      by_cases h2 : min r.leaves t.leaves = r.leaves
      · rw [if_pos h2, if_pos (hq.2 h2)]
      · rw [if_neg h2, if_neg (fun x => h2 (hq.1 x))]; rfl

def draws (l : List (Order × Nat)) : List (Order × Nat) := l.map (fun x => (c.ofOrder x.1, c.lot * x.2))

theorem chain_map {rs : List Order} (hr : ∀ r ∈ rs, c.ticks r.price) {t : Order} (ht : c.ticks t.price) : ∀ n,
    chain (c.ofOrder t) (c.lot * n) (rs.map c.ofOrder) = (chain t n rs).map c.draws := by
  induction rs with
  | nil => intro n; rfl
  | cons r rs ih =>
    intro n
    have hp := hr r (List.mem_cons_self ..)
    have ih := ih (fun r h => hr r (List.mem_cons_of_mem _ h))
    have e : ∀ (t r : Order) rs n, chain t n (r :: rs) = if n = 0 ∨ ¬ t.accepts r.price then none else
        if (if r.isAON then r.leaves else min r.leaves n) = n then some [(r, (if r.isAON then r.leaves else min r.leaves n))]
        else if n < (if r.isAON then r.leaves else min r.leaves n) then none
        else (chain t (n - (if r.isAON then r.leaves else min r.leaves n)) rs).map ((r, (if r.isAON then r.leaves else min r.leaves n)) :: ·) := fun _ _ _ _ => rfl
    rw [List.map_cons, e, e]
    have hq : (if (c.ofOrder r).isAON then (c.ofOrder r).leaves else min (c.ofOrder r).leaves (c.lot * n)) =
        c.lot * (if r.isAON then r.leaves else min r.leaves n) := by
      rw [isAON_map]
      split
      · rfl
      · exact c.lot_min _ _
    rw [hq]
    generalize (if r.isAON then r.leaves else min r.leaves n) = q
    have h0 : (c.lot * n = 0 ∨ ¬ (c.ofOrder t).accepts (c.ofOrder r).price) ↔ (n = 0 ∨ ¬ t.accepts r.price) := by
      rw [c.lot_zero, show (c.ofOrder r).price = c.price r.price from rfl, c.accepts_map ht hp]
    by_cases h : n = 0 ∨ ¬ t.accepts r.price
    · rw [if_pos h, if_pos (h0.2 h)]; rfl
    · rw [if_neg h, if_neg (fun x => h (h0.1 x))]
      by_cases h1 : q = n
      · rw [if_pos h1, if_pos ((c.lot_inj _ _).2 h1)]; rfl
      · rw [if_neg h1, if_neg (fun x => h1 ((c.lot_inj _ _).1 x))]
        by_cases h2 : n < q
        · rw [if_pos h2, if_pos ((c.lot_lt _ _).2 h2)]; rfl
        · rw [if_neg h2, if_neg (fun x => h2 ((c.lot_lt _ _).1 x)), ← Nat.mul_sub, ih]
          cases chain t (n - q) rs <;> rfl

theorem afterChain_map : ∀ (xs : List (Order × Nat)) (rs : List Order), afterChain (c.draws xs) (rs.map c.ofOrder) = (afterChain xs rs).map c.ofOrder := by
  intro xs
  induction xs with
  | nil => intro rs; rfl
  | cons x xs ih =>
    intro rs
    cases rs with
    | nil => rfl
    | cons r rs =>
      obtain ⟨o, q⟩ := x
      have e : ∀ (o : Order) q xs (r : Order) rs, afterChain ((o, q) :: xs) (r :: rs) = if q < r.leaves then r.afterExec q :: afterChain xs rs else afterChain xs rs := fun _ _ _ _ _ => rfl
      show afterChain ((c.ofOrder o, c.lot * q) :: c.draws xs) (c.ofOrder r :: rs.map c.ofOrder) = _
      rw [e, e, ih, c.afterExec_map]
      have hl : c.lot * q < (c.ofOrder r).leaves ↔ q < r.leaves := c.lot_lt _ _
      by_cases h : q < r.leaves
      · rw [if_pos h, if_pos (hl.2 h)]; rfl
      · rw [if_neg h, if_neg (fun x => h (hl.1 x))]

theorem fills_map {rs : List Order} (hr : ∀ r ∈ rs, c.ticks r.price) {t : Order} (ht : c.ticks t.price) :
    (c.ofOrder t).fills (rs.map c.ofOrder) = (t.fills rs).map c.ofExec ∧
    (c.ofOrder t).left (rs.map c.ofOrder) = c.ofOrder (t.left rs) ∧
    (c.ofOrder t).leaveLine (rs.map c.ofOrder) = (t.leaveLine rs).map c.ofOrder := by
  obtain ⟨g1, g2, g3⟩ := c.greedy_map hr ht
  have hc := c.chain_map hr ht t.leaves
  unfold Order.fills Order.left Order.leaveLine
  rw [show (c.ofOrder t).leaves = c.lot * t.leaves from rfl, hc, g1, g2, g3]
  by_cases h : t.whole
  · have h' : (c.ofOrder t).whole := h
    rw [if_pos h, if_pos h, if_pos h, if_pos h', if_pos h', if_pos h']
    cases chain t t.leaves rs with
    | none => exact ⟨rfl, rfl, rfl⟩
    | some xs =>
      refine ⟨?_, c.afterExec_map _ _, c.afterChain_map _ _⟩
      simp only [Option.map_some, List.map_append, List.map_map, draws]
      rfl
  · have h' : ¬ (c.ofOrder t).whole := h
    rw [if_neg h, if_neg h, if_neg h, if_neg h', if_neg h', if_neg h']
    exact ⟨rfl, rfl, rfl⟩

/-- The price of what arrives is in use, and so is the price bound of a market order. -/
theorem capped_map {t : Order} (ht : c.Uses t) {rs : List Order} (hr : ∀ r ∈ rs, c.ticks r.price) :
    (c.ofOrder t).capped (rs.map c.ofOrder) = c.ofOrder (t.capped rs) ∧ c.ticks (t.capped rs).price := by
  cases rs with
  | nil =>
    have e : ∀ t : Order, t.capped [] = t := by intro t; unfold Order.capped; split <;> first | rfl | contradiction
    rw [List.map_nil, e, e]
    exact ⟨rfl, ht.1⟩
  | cons r rs =>
    by_cases hm : t.type = .market
    · have hp := hr r (List.mem_cons_self ..)
      obtain ⟨h1, h2⟩ := ht.2 hm _ hp
      have e : ∀ {t : Order} {r rs}, t.type = .market → t.capped (r :: rs) = t.bounded r.price := by
        intro t r rs h; unfold Order.capped; rw [h]
      rw [List.map_cons, e hm, e (show (c.ofOrder t).type = .market from hm)]
      refine ⟨?_, h1⟩
      show ({ c.ofOrder t with price := ((c.ofOrder t).bounded (c.price r.price)).price } : Order) = _
      rw [h2]; rfl
    · have e : ∀ {t : Order} {rs}, t.type ≠ .market → t.capped rs = t := by
        intro t rs h; unfold Order.capped; split
        · rename_i h'; exact absurd h' h
        · rfl
      rw [e hm, e (show (c.ofOrder t).type ≠ .market from hm)]
      exact ⟨rfl, ht.1⟩

theorem left_same (t : Order) (rs : List Order) : (t.left rs).type = t.type ∧ (t.left rs).price = t.price ∧ (t.left rs).tif = t.tif := by
  have hg : ∀ rs (t : Order), (greedyLeft t rs).type = t.type ∧ (greedyLeft t rs).price = t.price ∧ (greedyLeft t rs).tif = t.tif := by
    intro rs
    induction rs with
    | nil => intro t; exact ⟨rfl, rfl, rfl⟩
    | cons r rs ih =>
      intro t
      unfold greedyLeft
      split
      · exact ⟨rfl, rfl, rfl⟩
      · exact ih _
  unfold Order.left
  split
  · split <;> exact ⟨rfl, rfl, rfl⟩
  · exact hg _ _

/-! ### Lines -/

theorem rests_map (t : Order) : (c.ofOrder t).rests ↔ t.rests := by
  unfold Order.rests
  show (0 < c.lot * t.leaves ∧ _) ↔ _
  have := c.lot_lt 0 t.leaves
  rw [Nat.mul_zero] at this
  rw [this]
  rfl

theorem home_map {t : Order} (ht : t.type = .limit) (k : Kind) : (c.ofOrder t).home.map (·.1) = some k ↔ t.home.map (·.1) = some (c.kind k) := by
  unfold Order.home ofOrder side kind
  simp only [ht]
  cases c.flip <;> cases t.side <;> cases k <;> simp [Side.other]

theorem beats_map {t r : Order} (ht : t.type = .limit) (hr : r.type = .limit) (h1 : c.ticks t.price) (h2 : c.ticks r.price) {k : Kind} (hk : k = .bid ∨ k = .ask) :
    (c.ofOrder t).beats (c.kind k) (c.ofOrder r) ↔ t.beats k r := by
  have e1 : (c.ofOrder t).rank = c.price t.price := by unfold Order.rank; rw [if_pos (show (c.ofOrder t).type = .limit from ht)]; rfl
  have e2 : (c.ofOrder r).rank = c.price r.price := by unfold Order.rank; rw [if_pos (show (c.ofOrder r).type = .limit from hr)]; rfl
  have e3 : t.rank = t.price := by unfold Order.rank; rw [if_pos ht]
  have e4 : r.rank = r.price := by unfold Order.rank; rw [if_pos hr]
  have a := c.order _ _ h1 h2
  have b := c.order _ _ h2 h1
  unfold Order.beats
  rw [e1, e2, e3, e4]
  unfold kind
  cases hf : c.flip <;> rw [hf] at a b <;> rcases hk with rfl | rfl <;> simp [Kind.highestFirst, ← Nat.not_le] at a b ⊢ <;> simp [a, b]

theorem enqueue_map {t : Order} (ht : t.type = .limit) (h1 : c.ticks t.price) {k : Kind} (hk : k = .bid ∨ k = .ask) {rs : List Order}
    (hr : ∀ r ∈ rs, r.type = .limit ∧ c.ticks r.price) : enqueue (c.kind k) (c.ofOrder t) (rs.map c.ofOrder) = (enqueue k t rs).map c.ofOrder := by
  induction rs with
  | nil => rfl
  | cons r rs ih =>
    have e : ∀ k t r rs, enqueue k t (r :: rs) = if t.beats k r then t :: r :: rs else r :: enqueue k t rs := fun _ _ _ _ => rfl
    have hp := hr r (List.mem_cons_self ..)
    rw [List.map_cons, e, e, ih (fun r h => hr r (List.mem_cons_of_mem _ h))]
    have hb := c.beats_map ht hp.1 h1 hp.2 hk
    by_cases h : t.beats k r
    · rw [if_pos h, if_pos (hb.2 h)]; rfl
    · rw [if_neg h, if_neg (fun x => h (hb.1 x))]; rfl

/-- All orders in line are limit orders with a price in use. -/
def Fine (l : Board) : Prop := ∀ k, ∀ r ∈ l k, r.type = .limit ∧ c.ticks r.price

theorem insert_map {l : Board} (hl : c.Fine l) {t : Order} (ht : t.type = .limit) (h1 : c.ticks t.price) :
    (c.board l).insert (c.ofOrder t) = c.board (l.insert t) := by
  funext k
  show (if (c.ofOrder t).home.map (·.1) = some k then enqueue k (c.ofOrder t) ((l (c.kind k)).map c.ofOrder) else (l (c.kind k)).map c.ofOrder) =
    (if t.home.map (·.1) = some (c.kind k) then enqueue (c.kind k) t (l (c.kind k)) else l (c.kind k)).map c.ofOrder
  by_cases h : t.home.map (·.1) = some (c.kind k)
  · rw [if_pos h, if_pos ((c.home_map ht k).2 h)]
    have hk : c.kind k = .bid ∨ c.kind k = .ask := by
      unfold Order.home at h
      rw [ht] at h
      cases hs : t.side <;> simp [hs] at h
      · exact .inl h.symm
      · exact .inr h.symm
    have := c.enqueue_map ht h1 hk (hl (c.kind k))
    rw [c.kind_kind] at this
    exact this
  · rw [if_neg h, if_neg (fun x => h ((c.home_map ht k).1 x))]

theorem change_map (l : Board) (id : Nat) (v : Option Order) : (c.board l).change id (v.map c.ofOrder) = c.board (l.change id v) := by
  funext k
  show ((l (c.kind k)).map c.ofOrder).filterMap (fun r => if r.id = id then v.map c.ofOrder else some r) =
    ((l (c.kind k)).filterMap (fun r => if r.id = id then v else some r)).map c.ofOrder
  rw [List.filterMap_map, List.map_filterMap]
  congr 1
  funext r
  show (if r.id = id then v.map c.ofOrder else some (c.ofOrder r)) = (if r.id = id then v else some r).map c.ofOrder
  split <;> rfl

theorem put_map (l : Board) (k : Kind) (rs : List Order) : (c.board l).put (c.kind k) (rs.map c.ofOrder) = c.board (l.put k rs) := by
  funext k'
  show (if k' = c.kind k then rs.map c.ofOrder else (l (c.kind k')).map c.ofOrder) = (if c.kind k' = k then rs else l (c.kind k')).map c.ofOrder
  have := c.kind_iff k' k
  by_cases h : k' = c.kind k
  · rw [if_pos h, if_pos (this.2 h)]
  · rw [if_neg h, if_neg (fun x => h (this.1 x))]

theorem leaveLine_fine {t : Order} {rs : List Order} (hr : ∀ r ∈ rs, r.type = .limit ∧ c.ticks r.price) : ∀ r ∈ t.leaveLine rs, r.type = .limit ∧ c.ticks r.price := by
  have hg : ∀ (rs : List Order), (∀ r ∈ rs, r.type = .limit ∧ c.ticks r.price) → ∀ (t : Order), ∀ r ∈ greedyRest t rs, r.type = .limit ∧ c.ticks r.price := by
    intro rs
    induction rs with
    | nil => intro _ t r h; cases h
    | cons a rs ih =>
      intro hr t r h
      unfold greedyRest at h
      simp only at h
      split at h
      · exact hr r h
      · split at h
        · exact ih (fun r h => hr r (List.mem_cons_of_mem _ h)) _ r h
        · rcases List.mem_cons.1 h with rfl | h
          · exact hr a (List.mem_cons_self ..)
          · exact hr r (List.mem_cons_of_mem _ h)
  have hch : ∀ (xs : List (Order × Nat)) (rs : List Order), (∀ r ∈ rs, r.type = .limit ∧ c.ticks r.price) → ∀ r ∈ afterChain xs rs, r.type = .limit ∧ c.ticks r.price := by
    intro xs
    induction xs with
    | nil => intro rs hr; exact hr
    | cons x xs ih =>
      intro rs hr r h
      cases rs with
      | nil => cases h
      | cons a rs =>
        unfold afterChain at h
        have := ih rs (fun r h => hr r (List.mem_cons_of_mem _ h))
        split at h
        · rcases List.mem_cons.1 h with rfl | h
          · exact hr a (List.mem_cons_self ..)
          · exact this r h
        · exact this r h
  unfold Order.leaveLine
  split
  · split
    · exact hch _ _ hr
    · exact hr
  · exact hg _ hr _

theorem put_fine {l : Board} (hl : c.Fine l) {k : Kind} {rs : List Order} (hr : ∀ r ∈ rs, r.type = .limit ∧ c.ticks r.price) : c.Fine (l.put k rs) := by
  intro k' r h
  unfold Board.put at h
  split at h
  · exact hr r h
  · exact hl k' r h

theorem insert_fine {l : Board} (hl : c.Fine l) {t : Order} (ht : t.type = .limit) (h1 : c.ticks t.price) : c.Fine (l.insert t) := by
  intro k r h
  unfold Board.insert at h
  split at h
  · have hm : ∀ rs : List Order, r ∈ enqueue k t rs → r = t ∨ r ∈ rs := by
      intro rs
      induction rs with
      | nil => intro h; exact .inl (List.mem_singleton.1 h)
      | cons a rs ih =>
        intro h
        unfold enqueue at h
        split at h
        · exact List.mem_cons.1 h
        · rcases List.mem_cons.1 h with rfl | h
          · exact .inr (List.mem_cons_self ..)
          · exact (ih h).imp id (List.mem_cons_of_mem _)
    rcases hm _ h with rfl | h
    · exact ⟨ht, h1⟩
    · exact hl k r h
  · exact hl k r h

theorem change_fine {l : Board} (hl : c.Fine l) {id : Nat} {v : Option Order} (hv : ∀ o, v = some o → o.type = .limit ∧ c.ticks o.price) : c.Fine (l.change id v) := by
  intro k r h
  obtain ⟨a, h1, h2⟩ := List.mem_filterMap.1 h
  split at h2
  · exact hv r h2
  · cases h2; exact hl k _ h1

theorem arrive_map (m : Bool) {l : Board} (hl : c.Fine l) {t : Order} (ht : c.Uses t) (hp : Exchange.plain t) :
    (c.board l).arrive m (c.ofOrder t) = ((l.arrive m t).1.map c.ofExec, c.board (l.arrive m t).2) ∧ c.Fine (l.arrive m t).2 := by
  have rest : ∀ {u : Order}, u.type = t.type → u.rests → u.type = .limit := by
    intro u he hu
    rcases hp.1 with h | h
    · rw [he, h]
    · exact absurd (he.trans h) hu.2.1
  cases m with
  | false =>
    show ([], if (c.ofOrder t).rests then (c.board l).insert (c.ofOrder t) else c.board l) = ([], c.board (if t.rests then l.insert t else l)) ∧ c.Fine (if t.rests then l.insert t else l)
    by_cases h : t.rests
    · rw [if_pos h, if_pos ((c.rests_map t).2 h), c.insert_map hl (rest rfl h) ht.1]
      exact ⟨rfl, c.insert_fine hl (rest rfl h) ht.1⟩
    · rw [if_neg h, if_neg (fun x => h ((c.rests_map t).1 x))]
      exact ⟨rfl, hl⟩
  | true =>
    have e : ∀ (l : Board) (t : Order), l.arrive true t = ((t.capped (l t.side.other.limits)).fills (l t.side.other.limits),
        if ((t.capped (l t.side.other.limits)).left (l t.side.other.limits)).rests then
          (l.put t.side.other.limits ((t.capped (l t.side.other.limits)).leaveLine (l t.side.other.limits))).insert ((t.capped (l t.side.other.limits)).left (l t.side.other.limits))
        else l.put t.side.other.limits ((t.capped (l t.side.other.limits)).leaveLine (l t.side.other.limits))) := fun _ _ => rfl
    have hk : (c.ofOrder t).side.other.limits = c.kind t.side.other.limits := by
      show (c.side t.side).other.limits = _
      rw [c.other_side, c.limits_side]
    rw [e, e, hk]
    have hb : c.board l (c.kind t.side.other.limits) = (l t.side.other.limits).map c.ofOrder := by
      show (l (c.kind (c.kind _))).map _ = _
      rw [c.kind_kind]
    rw [hb]
    generalize t.side.other.limits = k
    have hr : ∀ r ∈ l k, c.ticks r.price := fun r h => (hl k r h).2
    obtain ⟨a1, a2⟩ := c.capped_map ht hr
    rw [a1]
    have ty : (t.capped (l k)).type = t.type := by unfold Order.capped; split <;> rfl
    generalize t.capped (l k) = u at a2 ty
    obtain ⟨b1, b2, b3⟩ := c.fills_map hr a2
    rw [b1, b2, b3, c.put_map]
    have hf : c.Fine (l.put k (u.leaveLine (l k))) := c.put_fine hl (c.leaveLine_fine (hl k))
    obtain ⟨l1, l2, _⟩ := left_same u (l k)
    by_cases h : (u.left (l k)).rests
    · have h3 : (u.left (l k)).type = .limit := rest (l1.trans ty) h
      have h4 : c.ticks (u.left (l k)).price := by rw [l2]; exact a2
      rw [if_pos h, if_pos ((c.rests_map _).2 h), c.insert_map hf h3 h4]
      exact ⟨rfl, c.insert_fine hf h3 h4⟩
    · rw [if_neg h, if_neg (fun x => h ((c.rests_map _).1 x))]
      exact ⟨rfl, hf⟩

end Redraw
end CppTrader
