import Verif.Budget
import Verif.Proof.Budget
/-
The reference exchange: every two executions are paid for by an order that goes.
-/

namespace CppTrader
namespace Budget

open Core

/-- The orders in the books. -/
def live (x : Venue) : Nat := (x.books.map (fun s => cnt (x.pits s).board)).sum

structure Sound (x : Venue) : Prop where
  books : x.books.Nodup
  fine : ∀ s ∈ x.books, Fine (x.pits s)

/-- What a call may do with the credit `c`. -/
structure Within (x : Venue) (c : Nat) (r : Venue.Answer) : Prop where
  sound : Sound r.2.2
  books : r.2.2.books = x.books
  ghosts : r.2.2.ghosts = x.ghosts
  paid : r.2.1.length + 2 * live r.2.2 ≤ 2 * live x + c

theorem sum_set {f : Nat → Nat} {sym v : Nat} {ss : List Nat} (hn : ss.Nodup) (hs : sym ∈ ss) :
    (ss.map (fun s => if s = sym then v else f s)).sum + f sym = (ss.map f).sum + v := by
  induction ss with
  | nil => cases hs
  | cons a ss ih =>
    rw [List.nodup_cons] at hn
    rw [List.map_cons, List.map_cons, List.sum_cons, List.sum_cons]
    rcases List.mem_cons.1 hs with h | h
    · subst h
      rw [if_pos rfl]
      have : ss.map (fun s => if s = sym then v else f s) = ss.map f := List.map_congr_left (fun s hs => by
        rw [if_neg (fun e => hn.1 (by rw [← e]; exact hs))])
      rw [this]; omega
    · rw [if_neg (fun e => hn.1 (by rw [e]; exact h))]
      have := ih hn.2 h
      omega

theorem live_set {x : Venue} (hx : x.books.Nodup) {sym : Nat} (hs : sym ∈ x.books) (p : Pit) :
    live (x.setPit sym p) + cnt (x.pits sym).board = live x + cnt p.board := by
  unfold live Venue.setPit
  have := sum_set (f := fun s => cnt (x.pits s).board) (v := cnt p.board) hx hs
  simp only [] at this ⊢
  rw [← this]
  congr 2
  exact List.map_congr_left (fun s _ => by split <;> rfl)

theorem Sound.set {x : Venue} (h : Sound x) {sym : Nat} {p : Pit} (hp : Fine p) : Sound (x.setPit sym p) :=
  ⟨h.books, fun s hs => by
    unfold Venue.setPit
    simp only []
    split
    · exact hp
    · exact h.fine s hs⟩

theorem Within.refuse {x : Venue} (h : Sound x) (c : Nat) (e : ErrorCode) : Within x c (x.refuse e) :=
  ⟨h, rfl, rfl, by simp only [Venue.refuse, List.length_nil]; omega⟩

theorem Within.done {x : Venue} (h : Sound x) {sym : Nat} (hs : sym ∈ x.books) {r : List Execution × Pit} {c : Nat} (hf : Fine r.2)
    (hp : r.1.length + 2 * cnt r.2.board ≤ 2 * cnt (x.pits sym).board + c) : Within x c (x.done sym r) := by
  have hc := Paid.close hf x.matching
  unfold Venue.done
  simp only []
  refine ⟨h.set hc.fine, rfl, rfl, ?_⟩
  have := live_set h.books hs (r.2.close x.matching).2
  have := hc.paid
  simp only [List.length_append]
  omega

theorem find_fresh {x : Venue} {id : Nat} (h : x.find id = none) {s : Nat} (hs : s ∈ x.books) {k : Kind} {r : Order} (hr : r ∈ (x.pits s).board k) : r.id ≠ id := by
  intro e
  unfold Venue.find at h
  have := List.find?_eq_none.1 h r (by
    unfold Venue.orders
    exact List.mem_append.2 (.inl (List.mem_flatMap.2 ⟨s, hs, board_orders.2 ⟨k, hr⟩⟩)))
  simp [e] at this

theorem Within.land {x : Venue} (h : Sound x) {sym : Nat} (hs : sym ∈ x.books) {r : List Execution × Order × Pit} {c : Nat} (hn : Neat r.2.2.board)
    (hv : r.2.2.board.size + r.2.1.leaves < W64)
    (hp : r.1.length + 2 * (cnt r.2.2.board + hand r.2.1) ≤ 2 * cnt (x.pits sym).board + c) : Within x c (x.land sym r) := by
  unfold Venue.land
  simp only []
  by_cases d : r.2.1.rests ∧ (x.setPit sym r.2.2).find r.2.1.id ≠ none
  · rw [if_pos d]
    have := live_set h.books hs r.2.2
    exact ⟨h.set ⟨hn, by omega⟩, rfl, rfl, by simp only []; omega⟩
  · rw [if_neg d]
    have key : Fine (r.2.2.land r.2.1) ∧ r.1.length + 2 * cnt (r.2.2.land r.2.1).board ≤ 2 * cnt (x.pits sym).board + c := by
      unfold Pit.land
      by_cases c : r.2.1.rests
      · rw [if_pos c]
        have hu : hand r.2.1 = 1 := by unfold hand; rw [if_neg (by have := c.1; omega)]
        have i1 := insert_cnt r.2.2.board r.2.1
        have i2 := insert_size r.2.2.board r.2.1
        have hnone : (x.setPit sym r.2.2).find r.2.1.id = none := Decidable.byContradiction (fun e => d ⟨c, e⟩)
        have i3 : Neat (r.2.2.board.insert r.2.1) := insert_neat hn (fun k q hq => find_fresh hnone hs (k := k) (by
          unfold Venue.setPit; simp only [if_true]; exact hq))
        exact ⟨⟨i3, by simp only []; omega⟩, by simp only []; omega⟩
      · rw [if_neg c]
        exact ⟨⟨hn, by omega⟩, by omega⟩
    exact Within.done h hs (r := (r.1, r.2.2.land r.2.1)) key.1 key.2

theorem Within.mono {x : Venue} {c c' : Nat} {r : Venue.Answer} (h : Within x c r) (hc : c ≤ c') : Within x c' r :=
  ⟨h.sound, h.books, h.ghosts, by have := h.paid; omega⟩

/-- Orders found in a book are in that book. -/
def Placed (x : Venue) : Prop := ∀ id o, x.find id = some o → o.id = id ∧ (o.symbolId ∈ x.books → ∃ k, o ∈ (x.pits o.symbolId).board k)

theorem Within.onOrder {x : Venue} (h : Sound x) (hp : Placed x) {id c : Nat} {f : Order → Pit → Venue.Answer}
    (hf : ∀ o k, x.find id = some o → o.id = id → o.symbolId ∈ x.books → o ∈ (x.pits o.symbolId).board k → Within x c (f o (x.pits o.symbolId))) :
    Within x c (x.onOrder id f) := by
  unfold Venue.onOrder
  cases e : x.find id with
  | none => exact .refuse h c _
  | some o =>
    simp only []
    by_cases hb : o.symbolId ∈ x.books
    · rw [if_pos hb]
      obtain ⟨k, hk⟩ := (hp id o e).2 hb
      exact hf o k e (hp id o e).1 hb hk
    · rw [if_neg hb]; exact .refuse h c _

theorem Within.withQty {x : Venue} (h : Sound x) {id q c : Nat} {r : Venue.Answer} (hr : Within x c r) : Within x c (x.withQty id q r) := by
  unfold Venue.withQty
  split
  · exact .refuse h c _
  · split
    · exact .refuse h c _
    · exact hr

/-- An order in the line leaves it, or is changed to a smaller one. -/
theorem change_fine {p : Pit} (hp : Fine p) {id : Nat} {v : Option Order} (h : ∀ o, v = some o → o.id = id ∧ ∀ k, ∀ r ∈ p.board k, r.id = id → o.leaves ≤ r.leaves) :
    Fine (p.change id v) := by
  have := change_size (l := p.board) (id := id) (v := v) (fun o ho => (h o ho).2)
  exact ⟨change_neat hp.neat (fun o ho => (h o ho).1), by have := hp.fits; show (p.board.change id v).size < W64; omega⟩

theorem smaller {p : Pit} (hp : Fine p) {o t : Order} {k : Kind} (ho : o ∈ p.board k) (hid : t.id = o.id) (ht : t.leaves ≤ o.leaves) :
    ∀ x, some t = some x → x.id = o.id ∧ ∀ k, ∀ r ∈ p.board k, r.id = o.id → x.leaves ≤ r.leaves := by
  intro x hx
  cases hx
  refine ⟨hid, fun k' r hr e => ?_⟩
  have hk := hp.neat.cross _ _ _ _ hr ho e
  subst hk
  rw [hp.neat.one hr ho e]
  exact ht

theorem strike_in {p : Pit} (hn : Neat p.board) (m : Bool) (t : Order) (hv : p.board.size + t.leaves < W64) :
    Neat (p.strike m t).2.2.board ∧ (p.strike m t).2.2.board.size + (p.strike m t).2.1.leaves < W64 ∧
    (p.strike m t).1.length + 2 * (cnt (p.strike m t).2.2.board + hand (p.strike m t).2.1) ≤ 2 * (cnt p.board + 1) := by
  obtain ⟨h1, h2, h3, h4, h5, _, _⟩ := strike_paid m hn t
  exact ⟨h2, by show (p.board.strike m t).2.2.size + (p.board.strike m t).2.1.leaves < W64; omega, h1⟩

theorem enter_paid (m : Bool) {p : Pit} (hp : Fine p) (o : Order) (hv : p.board.size + o.leaves < W64) :
    Neat (p.enter m o).2.2.board ∧ (p.enter m o).2.2.board.size + (p.enter m o).2.1.leaves < W64 ∧
    (p.enter m o).1.length + 2 * (cnt (p.enter m o).2.2.board + hand (p.enter m o).2.1) ≤ 2 * (cnt p.board + 1) := by
  have key : ∀ t : Order, t.leaves = o.leaves → ∀ c : Prop, [Decidable c] →
      Neat (if c then (([], t, p) : List Execution × Order × Pit) else p.strike m t.released).2.2.board ∧
      (if c then (([], t, p) : List Execution × Order × Pit) else p.strike m t.released).2.2.board.size +
        (if c then (([], t, p) : List Execution × Order × Pit) else p.strike m t.released).2.1.leaves < W64 ∧
      (if c then (([], t, p) : List Execution × Order × Pit) else p.strike m t.released).1.length +
        2 * (cnt (if c then (([], t, p) : List Execution × Order × Pit) else p.strike m t.released).2.2.board +
        hand (if c then (([], t, p) : List Execution × Order × Pit) else p.strike m t.released).2.1) ≤ 2 * (cnt p.board + 1) := by
    intro t ht c _
    by_cases hc : c
    · simp only [if_pos hc]
      have := hand_le t
      exact ⟨hp.neat, by omega, by simp only [List.length_nil]; omega⟩
    · simp only [if_neg hc]
      exact strike_in hp.neat m t.released (by rw [(released_same t).2]; omega)
  exact key _ (retrailed_same _ o).2 _

theorem Within.add {x : Venue} (h : Sound x) {o : Order} (hv : o.symbolId ∈ x.books → (x.pits o.symbolId).board.size + o.leaves < W64) :
    Within x 2 (x.add o) := by
  unfold Venue.add
  by_cases c1 : o.validate ≠ .ok
  · rw [if_pos c1]; exact .refuse h 2 _
  · rw [if_neg c1]
    by_cases c2 : o.symbolId ∉ x.books
    · rw [if_pos c2]; exact .refuse h 2 _
    · rw [if_neg c2]
      have hs : o.symbolId ∈ x.books := Decidable.byContradiction c2
      obtain ⟨a1, a2, a3⟩ := enter_paid x.matching (h.fine _ hs) o (hv hs)
      exact Within.land h hs a1 a2 (by omega)

theorem Within.delete {x : Venue} (h : Sound x) (hp : Placed x) (id : Nat) : Within x 0 (x.delete id) ∧
    ∀ s ∈ x.books, ((x.delete id).2.2.pits s).board.size ≤ (x.pits s).board.size := by
  unfold Venue.delete
  by_cases c : id = 0
  · rw [if_pos c]; exact ⟨.refuse h 0 _, fun _ _ => Nat.le_refl _⟩
  · rw [if_neg c]
    constructor
    · refine .onOrder h hp (fun o k _ hid hb hk => .done h hb (change_fine (h.fine _ hb) (by intro x hx; cases hx)) ?_)
      have := change_le (x.pits o.symbolId).board id none
      show 0 + 2 * cnt ((x.pits o.symbolId).board.change id none) ≤ _
      omega
    · intro s hs
      unfold Venue.onOrder
      cases e : x.find id with
      | none => exact Nat.le_refl _
      | some o =>
        simp only []
        by_cases hb : o.symbolId ∈ x.books
        · rw [if_pos hb]
          have hf : Fine ((x.pits o.symbolId).change id none) := change_fine (h.fine _ hb) (by intro x hx; cases hx)
          have hz : ((x.pits o.symbolId).change id none).board.size ≤ (x.pits o.symbolId).board.size :=
            change_size (l := (x.pits o.symbolId).board) (by intro o ho; cases ho)
          have hc := (Paid.close hf x.matching).size
          unfold Venue.done Venue.setPit
          simp only []
          by_cases es : s = o.symbolId
          · rw [if_pos es, es]; omega
          · rw [if_neg es]; exact Nat.le_refl _
        · rw [if_neg hb]; exact Nat.le_refl _

theorem Within.execute {x : Venue} (h : Sound x) (hp : Placed x) (id q : Nat) (price : Order → Nat) : Within x 1 (x.execute id q price) := by
  unfold Venue.execute
  refine .withQty h (.onOrder h hp (fun o k _ hid hb hk => ?_))
  have hf := h.fine _ hb
  have hv : ∀ y, (if q < o.leaves then some (o.afterExec q) else none) = some y →
      y.id = id ∧ ∀ k, ∀ r ∈ (x.pits o.symbolId).board k, r.id = id → y.leaves ≤ r.leaves := by
    intro y hy
    split at hy
    · rw [← hid]; exact smaller hf hk (t := o.afterExec q) rfl (by simp only [Order.afterExec]; omega) y hy
    · cases hy
  have hc := change_fine hf hv
  refine .done h hb ⟨hc.neat, hc.fits⟩ ?_
  have := change_le (x.pits o.symbolId).board id (if q < o.leaves then some (o.afterExec q) else none)
  simp only [List.length_cons, List.length_nil]
  omega

theorem Within.modify {x : Venue} (h : Sound x) {o t : Order} {k : Kind} (hb : o.symbolId ∈ x.books) (hk : o ∈ (x.pits o.symbolId).board k) (hid : t.id = o.id)
    (hv : (x.pits o.symbolId).board.size + t.leaves < W64) : Within x 0 (x.modify o (x.pits o.symbolId) t) := by
  have hf := h.fine _ hb
  have hc : Fine ((x.pits o.symbolId).change o.id none) := change_fine hf (by intro x hx; cases hx)
  have hz : ((x.pits o.symbolId).change o.id none).board.size ≤ (x.pits o.symbolId).board.size :=
    change_size (l := (x.pits o.symbolId).board) (by intro o ho; cases ho)
  have hl := change_lt hk
  obtain ⟨a1, a2, a3, a4⟩ := land_paid x.matching hc.neat (t := t) (fun k r hr => by rw [hid]; exact change_gone hr) (by omega)
  unfold Venue.modify
  refine .done h hb a1 ?_
  have hb' : ((x.pits o.symbolId).change o.id none).board = (x.pits o.symbolId).board.change o.id none := rfl
  rw [hb'] at a3
  exact Nat.le_trans a3 (by omega)

theorem Within.replace {x : Venue} (h : Sound x) {o t : Order} {k : Kind} {id : Nat} (hid : o.id = id) (hb : o.symbolId ∈ x.books)
    (hk : o ∈ (x.pits o.symbolId).board k)
    (hv : (x.pits o.symbolId).board.size + t.leaves < W64) :
    Within x 0 (x.land o.symbolId (((x.pits o.symbolId).change id none).strike x.matching t)) := by
  subst hid
  have hf := h.fine _ hb
  have hc : Fine ((x.pits o.symbolId).change o.id none) := change_fine hf (by intro x hx; cases hx)
  have hz : ((x.pits o.symbolId).change o.id none).board.size ≤ (x.pits o.symbolId).board.size :=
    change_size (l := (x.pits o.symbolId).board) (by intro o ho; cases ho)
  have hl := change_lt hk
  obtain ⟨a1, a2, a3⟩ := strike_in hc.neat x.matching t (by omega)
  refine .land h hb a1 a2 ?_
  have hb' : ((x.pits o.symbolId).change o.id none).board = (x.pits o.symbolId).board.change o.id none := rfl
  rw [hb'] at a3
  exact Nat.le_trans a3 (by omega)

theorem matchAll_paid (ss : List Nat) : ∀ {x : Venue}, Sound x → (∀ s ∈ ss, s ∈ x.books) →
    Within x 0 (.ok, Venue.matchAll ss x) := by
  induction ss with
  | nil => intro x h _; exact ⟨h, rfl, rfl, by simp [Venue.matchAll]⟩
  | cons s ss ih =>
    intro x h hs
    have hb := hs s List.mem_cons_self
    have hp := Paid.rest (h.fine s hb)
    have h1 := ih (h.set (sym := s) hp.fine) (fun a ha => hs a (List.mem_cons_of_mem _ ha))
    have hl := live_set h.books hb (x.pits s).rest.2
    have hq := hp.paid
    have hw := h1.paid
    simp only [] at hw
    exact ⟨h1.sound, h1.books, h1.ghosts, by simp only [Venue.matchAll, List.length_append]; omega⟩

/-- The number of stored orders: those in the books and those that deleted books left behind. -/
def stored (x : Venue) : Nat := live x + x.ghosts.length

theorem orders_length (x : Venue) : x.orders.length = stored x := by
  unfold Venue.orders stored live
  rw [List.length_append, List.length_flatMap]
  congr 3
  funext s
  exact cnt_eq _

/-- What a call costs. -/
structure Costs (x : Venue) (c : Nat) (r : Venue.Answer) : Prop where
  live : r.2.1.length + 2 * live r.2.2 ≤ 2 * live x + c
  all : r.2.1.length + 2 * stored r.2.2 ≤ 2 * stored x + c

theorem Within.costs {x : Venue} {c : Nat} {r : Venue.Answer} (h : Within x c r) : Costs x c r :=
  ⟨h.paid, by have := h.paid; unfold stored; rw [h.ghosts]; omega⟩

theorem live_congr {x y : Venue} (hb : y.books = x.books) (hp : y.pits = x.pits) : Budget.live y = Budget.live x := by
  unfold Budget.live; rw [hb, hp]

theorem same_costs {x y : Venue} {e : ErrorCode} (hb : y.books = x.books) (hp : y.pits = x.pits) (hg : y.ghosts = x.ghosts) : Costs x 0 (e, [], y) :=
  ⟨by simp only [List.length_nil]; rw [live_congr hb hp]; omega, by simp only [List.length_nil]; unfold stored; rw [live_congr hb hp, hg]; omega⟩

theorem sum_insert {f : Nat → Nat} {n : Nat} (ss : List Nat) : ((Venue.insert n ss).map f).sum = (ss.map f).sum + f n := by
  induction ss with
  | nil => simp [Venue.insert]
  | cons a ss ih =>
    unfold Venue.insert
    split
    · simp only [List.map_cons, List.sum_cons]; omega
    · simp only [List.map_cons, List.sum_cons, ih]; omega

theorem sum_filter {f : Nat → Nat} {n : Nat} {ss : List Nat} (hn : ss.Nodup) (h : n ∈ ss) :
    ((ss.filter (fun i => decide (i ≠ n))).map f).sum + f n = (ss.map f).sum := by
  induction ss with
  | nil => cases h
  | cons a ss ih =>
    rw [List.nodup_cons] at hn
    by_cases c : a = n
    · subst c
      have : ss.filter (fun i => decide (i ≠ a)) = ss := List.filter_eq_self.2 (fun i hi => by
        simp only [ne_eq, decide_eq_true_eq]; exact fun e => hn.1 (by rw [← e]; exact hi))
      rw [List.filter_cons_of_neg (by simp), this, List.map_cons, List.sum_cons]; omega
    · rw [List.filter_cons_of_pos (by simpa using c), List.map_cons, List.sum_cons, List.map_cons, List.sum_cons]
      have := ih hn.2 (by
        rcases List.mem_cons.1 h with h | h
        · exact absurd h.symm c
        · exact h)
      omega

theorem call_costs {x : Venue} (h : Sound x) (hp : Placed x) {op : Op}
    (ha : ∀ o, op = .addOrder o ∨ (∃ id, op = .replaceWith id o) → o.symbolId ∈ x.books → (x.pits o.symbolId).board.size + o.leaves < W64)
    (hm : ∀ id p q, (op = .modifyOrder id p q ∨ op = .mitigateOrder id p q ∨ ∃ n, op = .replaceOrder id n p q) → ∀ o, x.find id = some o → o.symbolId ∈ x.books →
      (x.pits o.symbolId).board.size + q < W64) : Costs x op.credit (x.call op) := by
  cases op with
  | addSymbol s =>
    simp only [Venue.call, Op.credit]
    split
    · exact (Within.refuse h 0 _).costs
    · exact same_costs rfl rfl rfl
  | deleteSymbol id =>
    simp only [Venue.call, Op.credit]
    split
    · exact same_costs rfl rfl rfl
    · exact (Within.refuse h 0 _).costs
  | addOrderBook s =>
    simp only [Venue.call, Op.credit]
    split
    · exact (Within.refuse h 0 _).costs
    · split
      · exact (Within.refuse h 0 _).costs
      · next c =>
        have e : Budget.live { x.setPit s.id .empty with books := Venue.insert s.id x.books } = Budget.live x := by
          unfold Budget.live
          simp only []
          rw [sum_insert]
          have h1 : x.books.map (fun i => cnt ((x.setPit s.id .empty).pits i).board) = x.books.map (fun i => cnt (x.pits i).board) :=
            List.map_congr_left (fun i hi => by
              unfold Venue.setPit
              simp only []
              rw [if_neg (fun e => c (by rw [← e]; exact hi))])
          rw [h1]
          unfold Venue.setPit
          simp only [if_true]
          rfl
        exact ⟨by rw [e]; simp, by unfold stored; rw [e]; simp only [List.length_nil]; show 0 + 2 * (Budget.live x + x.ghosts.length) ≤ _; omega⟩
  | deleteOrderBook id =>
    simp only [Venue.call, Op.credit]
    split
    · next c =>
      have e := sum_filter (f := fun s => cnt (x.pits s).board) h.books c
      have hl : Budget.live { x with books := x.books.filter (· ≠ id), ghosts := (x.pits id).board.orders ++ x.ghosts } + cnt (x.pits id).board = Budget.live x := e
      refine ⟨by simp only [List.length_nil]; omega, ?_⟩
      unfold stored
      simp only [List.length_nil, List.length_append, cnt_eq]
      omega
    · exact (Within.refuse h 0 _).costs
  | addOrder o => exact (Within.add h (ha o (.inl rfl))).costs
  | reduceOrder id q =>
    refine (Within.withQty h (.onOrder h hp (fun o k _ hid hb hk => ?_))).costs
    have hf := h.fine _ hb
    refine .done h hb (change_fine hf (fun y hy => ?_)) ?_
    · split at hy
      · rw [← hid]; exact smaller hf hk (t := { o with leaves := o.leaves - q }) rfl (by simp only []; omega) y hy
      · cases hy
    · have := change_le (x.pits o.symbolId).board id (if q < o.leaves then some { o with leaves := o.leaves - q } else none)
      show 0 + 2 * cnt ((x.pits o.symbolId).board.change id _) ≤ _
      omega
  | modifyOrder id p q =>
    refine (Within.withQty h (.onOrder h hp (fun o k hf hid hb hk => ?_))).costs
    exact .modify h hb hk rfl (hm id p q (.inl rfl) o hf hb)
  | mitigateOrder id p q =>
    refine (Within.withQty h (.onOrder h hp (fun o k hf hid hb hk => ?_))).costs
    refine .modify h hb hk rfl ?_
    have := hm id p q (.inr (.inl rfl)) o hf hb
    simp only []; omega
  | replaceOrder id n p q =>
    simp only [Venue.call, Op.credit]
    split
    · exact (Within.refuse h 0 _).costs
    · split
      · exact (Within.refuse h 0 _).costs
      · split
        · exact (Within.refuse h 0 _).costs
        · split
          · exact (Within.refuse h 0 _).costs
          · refine (Within.onOrder h hp (fun o k hf hid hb hk => ?_)).costs
            exact .replace h hid hb hk (hm id p q (.inr (.inr ⟨n, rfl⟩)) o hf hb)
  | replaceWith id o =>
    simp only [Venue.call, Op.credit]
    obtain ⟨h1, h2⟩ := Within.delete h hp id
    generalize x.delete id = r at h1 h2
    obtain ⟨e, xs, y⟩ := r
    have hgen : Costs x 2 (e, xs, y) := (h1.mono (by omega)).costs
    cases e with
    | ok =>
      simp only []
      have hb : y.books = x.books := h1.books
      have h3 := Within.add h1.sound (o := o) (fun hs => by
        simp only [] at hs ⊢
        rw [hb] at hs
        have := h2 _ hs
        have := ha o (.inr ⟨id, rfl⟩) hs
        simp only [] at *
        omega)
      have c1 := h1.costs
      have c2 := h3.costs
      exact ⟨by have := c1.live; have := c2.live; simp only [List.length_append] at *; omega,
        by have := c1.all; have := c2.all; simp only [List.length_append] at *; omega⟩
    | _ => exact hgen
  | deleteOrder id => exact (Within.delete h hp id).1.costs
  | executeOrder id q => exact (Within.execute h hp id q _).costs
  | executeOrderAt id p q => exact (Within.execute h hp id q _).costs
  | enableMatching =>
    have h' : Sound { x with matching := true } := ⟨h.books, h.fine⟩
    have := (matchAll_paid x.books h' (fun _ hs => hs)).costs
    exact ⟨this.live, this.all⟩
  | disableMatching => exact same_costs rfl rfl rfl
  | matchAll => exact (matchAll_paid x.books h (fun _ hs => hs)).costs

end Budget
end CppTrader
