import Verif.Proof.RescalePit
import Verif.Props.Budget
/-
The calls of the reference exchange on another price scale and in another lot size.
-/

namespace CppTrader
open Core Budget

namespace Rescale
variable (c : Rescale)

/-! ### Orders with something left -/

theorem Live.change {l : Board} (h : Live l) {id : Nat} {v : Option Order} (hv : ∀ o, v = some o → 0 < o.leaves) : Live (l.change id v) := by
  intro k r hr
  obtain ⟨x, hx, e⟩ := List.mem_filterMap.1 hr
  by_cases hi : x.id = id
  · rw [if_pos hi] at e; exact hv r e
  · rw [if_neg hi] at e; cases e; exact h k _ hx

theorem Live.put {l : Board} (h : Live l) {k : Kind} {rs : List Order} (hr : ∀ r ∈ rs, 0 < r.leaves) : Live (l.put k rs) := by
  intro k' r hm
  unfold Board.put at hm
  split at hm
  · exact hr r hm
  · exact h k' r hm

theorem enqueue_in {k : Kind} {t : Order} {rs : List Order} : ∀ r ∈ enqueue k t rs, r = t ∨ r ∈ rs := by
  induction rs with
  | nil => intro r hr; exact .inl (List.mem_singleton.1 hr)
  | cons x rs ih =>
    intro r hr
    unfold enqueue at hr
    split at hr
    · exact List.mem_cons.1 hr
    · rcases List.mem_cons.1 hr with h | h
      · exact .inr (by rw [h]; exact List.mem_cons_self)
      · exact (ih r h).imp (fun h => h) (List.mem_cons_of_mem _)

theorem Live.insert {l : Board} (h : Live l) {t : Order} (ht : 0 < t.leaves) : Live (l.insert t) := by
  intro k r hr
  unfold Board.insert at hr
  split at hr
  · rcases enqueue_in r hr with e | e
    · rw [e]; exact ht
    · exact h k r e
  · exact h k r hr

theorem afterChain_live (xs : List (Order × Nat)) : ∀ {rs : List Order}, (∀ r ∈ rs, 0 < r.leaves) → ∀ r ∈ afterChain xs rs, 0 < r.leaves := by
  induction xs with
  | nil => intro rs h; exact h
  | cons x xs ih =>
    intro rs h
    cases rs with
    | nil => intro r hr; cases hr
    | cons y rs =>
      have i := ih (fun r hr => h r (List.mem_cons_of_mem _ hr))
      intro r hr
      unfold afterChain at hr
      split at hr
      · rename_i hq
        rcases List.mem_cons.1 hr with e | e
        · rw [e]; simp only [Order.afterExec]; omega
        · exact i r e
      · exact i r hr

theorem greedyRest_live {rs : List Order} : ∀ {t : Order}, (∀ r ∈ rs, 0 < r.leaves) → ∀ r ∈ greedyRest t rs, 0 < r.leaves := by
  induction rs with
  | nil => intro t _ r hr; cases hr
  | cons y rs ih =>
    intro t h r hr
    unfold greedyRest at hr
    split at hr
    · exact h r hr
    · dsimp only at hr
      split at hr
      · exact ih (fun r hr => h r (List.mem_cons_of_mem _ hr)) r hr
      · rcases List.mem_cons.1 hr with e | e
        · rw [e]; simp only [Order.afterExec]; omega
        · exact h r (List.mem_cons_of_mem _ e)

theorem Live.strike {l : Board} (h : Live l) (m : Bool) (t : Order) : Live (l.strike m t).2.2 := by
  unfold Board.strike
  cases m with
  | false => exact h
  | true =>
    refine Live.put h ?_
    unfold Order.leaveLine
    split
    · split
      · exact afterChain_live _ (h _)
      · exact h _
    · exact greedyRest_live (h _)

theorem Live.land {p : Pit} (h : Live p.board) (t : Order) : Live (p.land t).board := by
  unfold Pit.land
  split
  · rename_i ht; exact Live.insert h ht.1
  · exact h

/-! ### The exchange -/

def venue (x : Venue) : Venue := { x with pits := fun s => c.pit (x.pits s), ghosts := x.ghosts.map c.ofOrder }
def answer (a : Venue.Answer) : Venue.Answer := (a.1, a.2.1.map c.ofExec, c.venue a.2.2)

/-- The prices in use everywhere. -/
structure Clean (x : Venue) : Prop where
  pits : ∀ s, c.Tidy (x.pits s)
  ghosts : ∀ o ∈ x.ghosts, c.Good o

/-- What a call may start from. -/
structure Set (x : Venue) : Prop where
  clean : c.Clean x
  sound : Sound x
  placed : Placed x
  fits : ∀ s ∈ x.books, c.lot * (x.pits s).board.size < W64
  live : ∀ s ∈ x.books, Live (x.pits s).board

/-- The answers correspond. -/
def Fair (a b : Venue.Answer) : Prop := b = c.answer a ∧ c.Clean a.2.2

theorem board_orders_map (l : Board) : (c.board l).orders = l.orders.map c.ofOrder := by
  unfold Board.orders
  rw [List.map_flatMap]
  rfl

theorem orders_map (x : Venue) : (c.venue x).orders = x.orders.map c.ofOrder := by
  unfold Venue.orders
  show x.books.flatMap (fun s => (c.board (x.pits s).board).orders) ++ x.ghosts.map c.ofOrder = _
  rw [List.map_append, List.map_flatMap]
  congr 1
  congr 1
  funext s
  exact c.board_orders_map _

theorem find_map (x : Venue) (id : Nat) : (c.venue x).find id = (x.find id).map c.ofOrder := by
  unfold Venue.find
  rw [orders_map, List.find?_map]
  rfl

theorem found_good {x : Venue} (h : c.Clean x) {id : Nat} {o : Order} (ho : x.find id = some o) : c.Good o := by
  have hm := List.mem_of_find?_eq_some ho
  rcases List.mem_append.1 hm with hm | hm
  · obtain ⟨s, _, hm⟩ := List.mem_flatMap.1 hm
    obtain ⟨k, hk⟩ := board_orders.1 hm
    exact (h.pits s).board.good k o hk
  · exact h.ghosts o hm

theorem setPit_map (x : Venue) (s : Nat) (p : Pit) : (c.venue x).setPit s (c.pit p) = c.venue (x.setPit s p) := by
  unfold Venue.setPit venue
  congr 1
  funext i
  show (if i = s then c.pit p else c.pit (x.pits i)) = c.pit (if i = s then p else x.pits i)
  split <;> rfl

theorem Clean.set {c : Rescale} {x : Venue} (h : c.Clean x) (s : Nat) {p : Pit} (hp : c.Tidy p) : c.Clean (x.setPit s p) :=
  ⟨fun i => by unfold Venue.setPit; simp only; split; exact hp; exact h.pits i, h.ghosts⟩

theorem refuse_map {x : Venue} (h : c.Clean x) (e : ErrorCode) : c.Fair (x.refuse e) ((c.venue x).refuse e) := ⟨rfl, h⟩

theorem done_map {x : Venue} (h : c.Clean x) (s : Nat) {r : List Execution × Pit} (hr : c.Ready r.2) : c.Fair (x.done s r) ((c.venue x).done s (c.step r)) := by
  obtain ⟨h1, h2⟩ := c.close_map x.matching hr
  unfold Venue.done Fair
  simp only
  rw [show (c.step r).2 = c.pit r.2 from rfl, show (c.venue x).matching = x.matching from rfl, h1]
  refine ⟨?_, h.set s h2⟩
  show (_, _ ++ _, (c.venue x).setPit s (c.pit _)) = _
  rw [setPit_map]
  show (_, r.1.map c.ofExec ++ ((r.2.close x.matching).1.map c.ofExec), _) = _
  rw [← List.map_append]
  rfl

def triple (r : List Execution × Order × Pit) : List Execution × Order × Pit := (r.1.map c.ofExec, c.ofOrder r.2.1, c.pit r.2.2)

theorem vland_map {x : Venue} (h : c.Clean x) {s : Nat} (hs : s ∈ x.books) {r : List Execution × Order × Pit} (hg : c.Good r.2.1) (ht : c.Tidy r.2.2) (hn : Neat r.2.2.board)
    (hv : c.lot * (r.2.2.board.size + r.2.1.leaves) < W64) (hl : Live r.2.2.board) : c.Fair (x.land s r) ((c.venue x).land s (c.triple r)) := by
  unfold Venue.land
  simp only
  obtain ⟨l1, l2⟩ := c.land_map ht hg
  rw [show (c.triple r).2.2 = c.pit r.2.2 from rfl, setPit_map, show (c.triple r).2.1 = c.ofOrder r.2.1 from rfl,
    show (c.ofOrder r.2.1).id = r.2.1.id from rfl, find_map, l1]
  by_cases d : r.2.1.rests ∧ (x.setPit s r.2.2).find r.2.1.id ≠ none
  · have d' : (c.ofOrder r.2.1).rests ∧ ((x.setPit s r.2.2).find r.2.1.id).map c.ofOrder ≠ none := ⟨(c.rests_map _).2 d.1, by simpa using d.2⟩
    rw [if_pos d, if_pos d']; exact ⟨rfl, h.set s ht⟩
  · have d' : ¬ ((c.ofOrder r.2.1).rests ∧ ((x.setPit s r.2.2).find r.2.1.id).map c.ofOrder ≠ none) := fun x => d ⟨(c.rests_map _).1 x.1, by simpa using x.2⟩
    rw [if_neg d, if_neg d']
    have hz : (r.2.2.land r.2.1).board.size ≤ r.2.2.board.size + r.2.1.leaves := by
      unfold Pit.land
      split
      · exact insert_size _ _
      · omega
    have hn' : Neat (r.2.2.land r.2.1).board := by
      unfold Pit.land
      by_cases e : r.2.1.rests
      · rw [if_pos e]
        have hnone : (x.setPit s r.2.2).find r.2.1.id = none := Decidable.byContradiction (fun e' => d ⟨e, e'⟩)
        exact insert_neat hn (fun k q hq => find_fresh hnone hs (k := k) (by
          unfold Venue.setPit; simp only [if_true]; exact hq))
      · rw [if_neg e]; exact hn
    exact c.done_map h s (r := (r.1, r.2.2.land r.2.1)) ⟨l2, ⟨hn', c.fit_one (c.fit hv hz)⟩, c.fit hv hz, Live.land hl _⟩

theorem onOrder_map {x : Venue} (h : c.Set x) (id : Nat) {F G : Order → Pit → Venue.Answer}
    (hf : ∀ o k, x.find id = some o → o.id = id → o.symbolId ∈ x.books → c.Good o → o ∈ (x.pits o.symbolId).board k → c.Ready (x.pits o.symbolId) →
      c.Fair (F o (x.pits o.symbolId)) (G (c.ofOrder o) (c.pit (x.pits o.symbolId)))) :
    c.Fair (x.onOrder id F) ((c.venue x).onOrder id G) := by
  unfold Venue.onOrder
  rw [find_map]
  cases hx : x.find id with
  | none => exact c.refuse_map h.clean _
  | some o =>
    obtain ⟨hid, hp⟩ := h.placed id o hx
    show c.Fair _ (if (c.ofOrder o).symbolId ∈ x.books then _ else _)
    by_cases hb : o.symbolId ∈ x.books
    · rw [if_pos (show (c.ofOrder o).symbolId ∈ x.books from hb)]
      simp only [if_pos hb]
      obtain ⟨k, hk⟩ := hp hb
      exact hf o k hx hid hb (c.found_good h.clean hx) hk ⟨h.clean.pits _, h.sound.fine _ hb, h.fits _ hb, h.live _ hb⟩
    · rw [if_neg (show ¬ (c.ofOrder o).symbolId ∈ x.books from hb)]
      simp only [if_neg hb]
      exact c.refuse_map h.clean _

theorem withQty_map {x : Venue} (h : c.Clean x) (id q : Nat) {a b : Venue.Answer} (hab : c.Fair a b) :
    c.Fair (x.withQty id q a) ((c.venue x).withQty id (c.lot * q) b) := by
  unfold Venue.withQty
  by_cases h1 : id = 0
  · rw [if_pos h1, if_pos h1]; exact c.refuse_map h _
  · rw [if_neg h1, if_neg h1]
    by_cases h2 : q = 0
    · rw [if_pos h2, if_pos ((c.lot_zero q).2 h2)]; exact c.refuse_map h _
    · rw [if_neg h2, if_neg (fun x => h2 ((c.lot_zero q).1 x))]; exact hab

theorem validate_map (o : Order) : (c.ofOrder o).validate = o.validate := by
  unfold Order.validate
  have h1 : (c.ofOrder o).quantity < (c.ofOrder o).leaves ↔ o.quantity < o.leaves := c.lot_lt _ _
  have h2 : (c.ofOrder o).leaves = 0 ↔ o.leaves = 0 := c.lot_zero _
  simp only [h1, h2]
  rfl

theorem enter_live {p : Pit} (h : Live p.board) (m : Bool) (o : Order) : Live (p.enter m o).2.2.board := by
  unfold Pit.enter
  simp only
  generalize o.retrailed _ = t
  split
  · exact h
  · exact Live.strike h m _

theorem enter_size (m : Bool) {p : Pit} (hp : Fine p) (o : Order) : (p.enter m o).2.2.board.size + (p.enter m o).2.1.leaves ≤ p.board.size + o.leaves := by
  have key : ∀ t : Order, t.leaves = o.leaves → ∀ d : Prop, [Decidable d] →
      (if d then (([], t, p) : List Execution × Order × Pit) else p.strike m t.released).2.2.board.size +
        (if d then (([], t, p) : List Execution × Order × Pit) else p.strike m t.released).2.1.leaves ≤ p.board.size + o.leaves := by
    intro t ht d _
    by_cases hc : d
    · simp only [if_pos hc]; omega
    · simp only [if_neg hc]
      obtain ⟨_, _, h3, _, h5, _, _⟩ := strike_paid m hp.neat t.released
      rw [(released_same t).2, ht] at h5
      exact Nat.add_le_add h3 h5
  exact key _ (retrailed_same _ o).2 _

theorem vadd_map {x : Venue} (h : c.Set x) {o : Order} (ho : c.Good o) (hv : o.symbolId ∈ x.books → c.lot * ((x.pits o.symbolId).board.size + o.leaves) < W64) :
    c.Fair (x.add o) ((c.venue x).add (c.ofOrder o)) := by
  unfold Venue.add
  rw [validate_map]
  by_cases h1 : o.validate ≠ .ok
  · rw [if_pos h1, if_pos h1]; exact c.refuse_map h.clean _
  · rw [if_neg h1, if_neg h1]
    by_cases h2 : o.symbolId ∉ x.books
    · rw [if_pos h2, if_pos (show (c.ofOrder o).symbolId ∉ (c.venue x).books from h2)]; exact c.refuse_map h.clean _
    · rw [if_neg h2, if_neg (show ¬ (c.ofOrder o).symbolId ∉ (c.venue x).books from h2)]
      have hs : o.symbolId ∈ x.books := Decidable.byContradiction h2
      obtain ⟨e1, e2, e3⟩ := c.enter_map x.matching (h.clean.pits o.symbolId) ho
      obtain ⟨a1, a2, a3⟩ := enter_paid x.matching (h.sound.fine _ hs) o (c.fit_one (hv hs))
      have hz := enter_size x.matching (h.sound.fine _ hs) o
      have := c.vland_map h.clean hs e2 e3 a1 (c.fit (hv hs) hz) (enter_live (h.live _ hs) _ _)
      show c.Fair _ ((c.venue x).land o.symbolId ((c.pit (x.pits o.symbolId)).enter x.matching (c.ofOrder o)))
      rw [e1]; exact this

theorem drop_ready {p : Pit} (h : c.Ready p) (id : Nat) : c.Ready (p.change id none) := by
  have hz : (p.change id none).board.size ≤ p.board.size := change_size (l := p.board) (by intro o ho; cases ho)
  exact ⟨(c.pit_drop h.tidy id).2, change_fine h.fine (by intro x hx; cases hx), c.fit h.fits hz, Live.change h.live (by intro o ho; cases ho)⟩

theorem delete_map {x : Venue} (h : c.Set x) (id : Nat) : c.Fair (x.delete id) ((c.venue x).delete id) := by
  unfold Venue.delete
  by_cases h1 : id = 0
  · rw [if_pos h1, if_pos h1]; exact c.refuse_map h.clean _
  · rw [if_neg h1, if_neg h1]
    refine c.onOrder_map h id fun o k _ hid hb hg hk hr => ?_
    rw [(c.pit_drop hr.tidy id).1]
    exact c.done_map h.clean o.symbolId (r := ([], (x.pits o.symbolId).change id none)) (c.drop_ready hr id)

theorem execute_map {x : Venue} (h : c.Set x) (id q : Nat) {f g : Order → Nat} (hf : ∀ o, c.Good o → g (c.ofOrder o) = c.price (f o) ∧ c.used (f o)) :
    c.Fair (x.execute id q f) ((c.venue x).execute id (c.lot * q) g) := by
  unfold Venue.execute
  refine c.withQty_map h.clean id q (c.onOrder_map h id fun o k _ hid hb hg hk hr => ?_)
  obtain ⟨f1, f2⟩ := hf o hg
  rw [f1]
  have h1 := c.change_map (x.pits o.symbolId).board id (if q < o.leaves then some (o.afterExec q) else none)
  have h3 : (if q < o.leaves then some (o.afterExec q) else none).map c.ofOrder =
      (if c.lot * q < (c.ofOrder o).leaves then some ((c.ofOrder o).afterExec (c.lot * q)) else none) := by
    by_cases e : q < o.leaves
    · rw [if_pos e, if_pos (show c.lot * q < (c.ofOrder o).leaves from (c.lot_lt _ _).2 e), afterExec_map]; rfl
    · rw [if_neg e, if_neg (show ¬ c.lot * q < (c.ofOrder o).leaves from fun y => e ((c.lot_lt _ _).1 y))]; rfl
  rw [h3] at h1
  have hv : ∀ y, (if q < o.leaves then some (o.afterExec q) else none) = some y →
      y.id = id ∧ ∀ k, ∀ r ∈ (x.pits o.symbolId).board k, r.id = id → y.leaves ≤ r.leaves := by
    intro y hy
    split at hy
    · rw [← hid]; exact smaller hr.fine hk (t := o.afterExec q) rfl (by simp only [Order.afterExec]; omega) y hy
    · cases hy
  have hc := change_fine hr.fine hv
  have hz : ((x.pits o.symbolId).board.change id (if q < o.leaves then some (o.afterExec q) else none)).size ≤ (x.pits o.symbolId).board.size :=
    change_size (fun y hy => (hv y hy).2)
  have hgood : c.AllGood ((x.pits o.symbolId).board.change id (if q < o.leaves then some (o.afterExec q) else none)) := by
    refine c.change_good hr.tidy.board (fun y hy => ?_)
    split at hy
    · cases hy; exact hg.after q
    · cases hy
  have hlive : Live ((x.pits o.symbolId).board.change id (if q < o.leaves then some (o.afterExec q) else none)) := by
    refine Live.change hr.live (fun y hy => ?_)
    split at hy
    · cases hy; simp only [Order.afterExec]; omega
    · cases hy
  have hd := c.done_map h.clean o.symbolId (r := ([(o, f o, min q o.leaves)],
      ({ x.pits o.symbolId with
        board := (x.pits o.symbolId).board.change id (if q < o.leaves then some (o.afterExec q) else none)
        last := (x.pits o.symbolId).last.set o.side (f o)
        heard := (x.pits o.symbolId).heard.set o.side (f o) } : Pit)))
    ⟨⟨hgood, c.set_good hr.tidy.last _ f2, c.set_good hr.tidy.heard _ f2, hr.tidy.seen⟩, ⟨hc.neat, hc.fits⟩, c.fit hr.fits hz, hlive⟩
  have e : c.step ([(o, f o, min q o.leaves)],
      ({ x.pits o.symbolId with
        board := (x.pits o.symbolId).board.change id (if q < o.leaves then some (o.afterExec q) else none)
        last := (x.pits o.symbolId).last.set o.side (f o)
        heard := (x.pits o.symbolId).heard.set o.side (f o) } : Pit)) =
      ([(c.ofOrder o, c.price (f o), min (c.lot * q) (c.ofOrder o).leaves)],
      ({ c.pit (x.pits o.symbolId) with
        board := (c.pit (x.pits o.symbolId)).board.change id (if c.lot * q < (c.ofOrder o).leaves then some ((c.ofOrder o).afterExec (c.lot * q)) else none)
        last := (c.pit (x.pits o.symbolId)).last.set o.side (c.price (f o))
        heard := (c.pit (x.pits o.symbolId)).heard.set o.side (c.price (f o)) } : Pit)) := by
    unfold step
    refine Prod.ext ?_ ?_
    · show [(c.ofOrder o, c.price (f o), c.lot * min q o.leaves)] = [(c.ofOrder o, c.price (f o), min (c.lot * q) (c.lot * o.leaves))]
      rw [c.lot_min]
    · exact (Pit.mk.injEq ..).mpr ⟨h1.symm, c.set_map _ _ _, c.set_map _ _ _, rfl⟩
  rw [e] at hd
  exact hd

theorem vmodify_map {x : Venue} (h : c.Clean x) {o t : Order} (hid : t.id = o.id) (ht : c.Good t) (hr : c.Ready (x.pits o.symbolId))
    (hv : c.lot * ((x.pits o.symbolId).board.size + t.leaves) < W64) :
    c.Fair (x.modify o (x.pits o.symbolId) t) ((c.venue x).modify (c.ofOrder o) (c.pit (x.pits o.symbolId)) (c.ofOrder t)) := by
  unfold Venue.modify
  simp only
  have hd := c.drop_ready hr o.id
  have hz : ((x.pits o.symbolId).change o.id none).board.size ≤ (x.pits o.symbolId).board.size :=
    change_size (l := (x.pits o.symbolId).board) (by intro o ho; cases ho)
  obtain ⟨s1, s2, s3, s4⟩ := c.pit_strike x.matching hd.tidy ht
  obtain ⟨l1, l2⟩ := c.land_map s4 s3
  obtain ⟨a1, a2, a3, a4⟩ := land_paid x.matching hd.fine.neat (t := t) (fun k r hr => by rw [hid]; exact change_gone hr)
    (c.fit_one (c.fit hv (by omega)))
  rw [show (c.ofOrder o).id = o.id from rfl, (c.pit_drop hr.tidy o.id).1, show (c.venue x).matching = x.matching from rfl, s1]
  simp only
  rw [l1]
  exact c.done_map h o.symbolId (r := ((((x.pits o.symbolId).change o.id none).strike x.matching t).1,
      ((((x.pits o.symbolId).change o.id none).strike x.matching t).2.2.land (((x.pits o.symbolId).change o.id none).strike x.matching t).2.1)))
    ⟨l2, a1, c.fit hv (Nat.le_trans a2 (by omega)), Live.land (Live.strike hd.live _ _) _⟩

theorem matchAll_map (l : List Nat) : ∀ {x : Venue}, c.Clean x → (∀ s ∈ l, c.Ready (x.pits s)) → l.Nodup →
    Venue.matchAll l (c.venue x) = ((Venue.matchAll l x).1.map c.ofExec, c.venue (Venue.matchAll l x).2) ∧ c.Clean (Venue.matchAll l x).2 := by
  induction l with
  | nil => intro x h _ _; exact ⟨rfl, h⟩
  | cons s l ih =>
    intro x h hr hn
    rw [List.nodup_cons] at hn
    have hx : ∀ (x : Venue), Venue.matchAll (s :: l) x =
      ((x.pits s).rest.1 ++ (Venue.matchAll l (x.setPit s (x.pits s).rest.2)).1, (Venue.matchAll l (x.setPit s (x.pits s).rest.2)).2) := fun _ => rfl
    obtain ⟨r1, r2⟩ := c.rest_map (hr s List.mem_cons_self)
    obtain ⟨i1, i2⟩ := ih (h.set s r2) (fun i hi => by
      have : ¬ i = s := fun e => hn.1 (by rw [← e]; exact hi)
      show c.Ready (if i = s then _ else _)
      rw [if_neg this]; exact hr i (List.mem_cons_of_mem _ hi)) hn.2
    rw [hx, hx, show (c.venue x).pits s = c.pit (x.pits s) from rfl, r1, show (c.step (x.pits s).rest).2 = c.pit (x.pits s).rest.2 from rfl, setPit_map, i1]
    simp only [List.map_append]
    exact ⟨rfl, i2⟩

theorem empty_map : c.pit .empty = .empty ∧ c.Tidy .empty := by
  obtain ⟨h1, h2⟩ := c.blank_map
  refine ⟨(Pit.mk.injEq ..).mpr ⟨rfl, h1, h1, h1⟩, ⟨⟨fun k r hr => ?_, ?_⟩, h2, h2, h2⟩⟩
  · cases hr
  · exact .inr ⟨rfl, rfl⟩

/-- The call fits in with the new quantities. -/
def Room (x : Venue) : Op → Prop
  | .addOrder o | .replaceWith _ o => o.symbolId ∈ x.books → c.lot * ((x.pits o.symbolId).board.size + o.leaves) < W64
  | .modifyOrder id _ q | .replaceOrder id _ _ q => ∀ o, x.find id = some o → o.symbolId ∈ x.books → c.lot * ((x.pits o.symbolId).board.size + q) < W64
  | .mitigateOrder id _ q => ∀ o, x.find id = some o → (c.lot = 1 ∨ c.lot * o.executed < W64) ∧ (o.symbolId ∈ x.books → c.lot * ((x.pits o.symbolId).board.size + q) < W64)
  | _ => True

theorem counter_sub {e q : Nat} (h : c.lot = 1 ∨ c.lot * e < W64) : c.lot * q - c.counter e = c.lot * (q - e) := by
  unfold counter
  by_cases h1 : c.lot = 1
  · rw [if_pos h1, h1]; omega
  · rw [if_neg h1, Nat.mod_eq_of_lt (h.resolve_left h1), Nat.mul_sub]

theorem Good.priced {c : Rescale} {o t : Order} (h : c.Good o) (hp : c.SamePrices ∨ c.ticks t.price) (h2 : t.stopPrice = o.stopPrice) (h3 : t.type = o.type) (h4 : t.slippage = o.slippage) : c.Good t := by
  rcases h with h | ⟨h5, h6, h7, h8, h9⟩
  · exact .inl h
  · rcases hp with hp | hp
    · exact .inl hp
    · exact .inr ⟨hp, by rw [h2]; exact h6, by rw [h3]; exact h7, by rw [h3]; exact h8, by rw [h4]; exact h9⟩

theorem call_map {x : Venue} (h : c.Set x) {op : Op} (hk : c.SamePrices ∨ c.Keeps op) (hroom : c.Room x op)
    (hdel : ∀ id o, op = .replaceWith id o → c.Set (x.delete id).2.2) :
    c.Fair (x.call op) ((c.venue x).call (c.op op)) := by
  cases op with
  | addSymbol s =>
    show c.Fair (if s.id ∈ x.symbols then _ else _) (if s.id ∈ x.symbols then _ else _)
    split <;> exact ⟨rfl, h.clean.pits, h.clean.ghosts⟩
  | deleteSymbol id =>
    show c.Fair (if id ∈ x.symbols then _ else _) (if id ∈ x.symbols then _ else _)
    split <;> exact ⟨rfl, h.clean.pits, h.clean.ghosts⟩
  | addOrderBook s =>
    show c.Fair (if s.id ∉ x.symbols then _ else if s.id ∈ x.books then _ else _) (if s.id ∉ x.symbols then _ else if s.id ∈ x.books then _ else _)
    split
    · exact ⟨rfl, h.clean⟩
    · split
      · exact ⟨rfl, h.clean⟩
      · have := c.setPit_map x s.id .empty
        rw [c.empty_map.1] at this
        have hcl := h.clean.set s.id c.empty_map.2
        rw [this]
        exact ⟨rfl, hcl.pits, hcl.ghosts⟩
  | deleteOrderBook id =>
    show c.Fair (if id ∈ x.books then _ else _) (if id ∈ x.books then _ else _)
    split
    · refine ⟨?_, h.clean.pits, fun o ho => ?_⟩
      · show (_, _, ({ x with books := _, pits := _, ghosts := (c.board (x.pits id).board).orders ++ x.ghosts.map c.ofOrder } : Venue)) = _
        rw [board_orders_map, ← List.map_append]; rfl
      · rcases List.mem_append.1 ho with ho | ho
        · obtain ⟨k, hk⟩ := board_orders.1 ho
          exact (h.clean.pits id).board.good k o hk
        · exact h.clean.ghosts o ho
    · exact ⟨rfl, h.clean⟩
  | addOrder o => exact c.vadd_map h hk hroom
  | reduceOrder id q =>
    refine c.withQty_map h.clean id q (c.onOrder_map h id fun o k _ hid hb hg hk hr => ?_)
    have h1 := c.pit_change (x.pits o.symbolId) id (if q < o.leaves then some { o with leaves := o.leaves - q } else none)
    have h3 : (if q < o.leaves then some { o with leaves := o.leaves - q } else none).map c.ofOrder =
        (if c.lot * q < (c.ofOrder o).leaves then some { c.ofOrder o with leaves := (c.ofOrder o).leaves - c.lot * q } else none) := by
      by_cases e : q < o.leaves
      · rw [if_pos e, if_pos (show c.lot * q < (c.ofOrder o).leaves from (c.lot_lt _ _).2 e)]
        show some ({ c.ofOrder o with leaves := c.lot * (o.leaves - q) } : Order) = some { c.ofOrder o with leaves := c.lot * o.leaves - c.lot * q }
        rw [Nat.mul_sub]
      · rw [if_neg e, if_neg (show ¬ c.lot * q < (c.ofOrder o).leaves from fun y => e ((c.lot_lt _ _).1 y))]; rfl
    rw [h3] at h1
    rw [h1]
    have hv : ∀ y, (if q < o.leaves then some { o with leaves := o.leaves - q } else none) = some y →
        y.id = id ∧ ∀ k, ∀ r ∈ (x.pits o.symbolId).board k, r.id = id → y.leaves ≤ r.leaves := by
      intro y hy
      split at hy
      · rw [← hid]; exact smaller hr.fine hk (t := { o with leaves := o.leaves - q }) rfl (by simp only; omega) y hy
      · cases hy
    have hc := change_fine hr.fine hv
    have hz := change_size (l := (x.pits o.symbolId).board) (fun y hy => (hv y hy).2)
    refine c.done_map h.clean o.symbolId (r := ([], (x.pits o.symbolId).change id (if q < o.leaves then some { o with leaves := o.leaves - q } else none)))
      ⟨c.tidy_change hr.tidy (fun y hy => ?_), hc, c.fit hr.fits hz, Live.change hr.live (fun y hy => ?_)⟩
    · split at hy
      · cases hy; exact hg.like rfl rfl rfl rfl
      · cases hy
    · split at hy
      · cases hy; simp only; omega
      · cases hy
  | modifyOrder id a q =>
    refine c.withQty_map h.clean id q (c.onOrder_map h id fun o k hx hid hb hg _ hr => ?_)
    exact c.vmodify_map h.clean (t := { o with price := a, quantity := q, leaves := q }) rfl (hg.priced hk rfl rfl rfl) hr (hroom o hx hb)
  | mitigateOrder id a q =>
    refine c.withQty_map h.clean id q (c.onOrder_map h id fun o k hx hid hb hg _ hr => ?_)
    obtain ⟨r1, r2⟩ := hroom o hx
    have := c.vmodify_map h.clean (o := o) (t := { o with price := a, quantity := q, leaves := q - o.executed }) rfl (hg.priced hk rfl rfl rfl) hr
      (c.fit (r2 hb) (by simp only; omega))
    have e : c.ofOrder { o with price := a, quantity := q, leaves := q - o.executed } =
        { c.ofOrder o with price := c.price a, quantity := c.lot * q, leaves := c.lot * q - (c.ofOrder o).executed } := by
      show ({ c.ofOrder o with price := c.price a, quantity := c.lot * q, leaves := c.lot * (q - o.executed) } : Order) =
        { c.ofOrder o with price := c.price a, quantity := c.lot * q, leaves := c.lot * q - c.counter o.executed }
      rw [c.counter_sub r1]
    rw [e] at this
    exact this
  | replaceOrder id n a q =>
    show c.Fair _ ((c.venue x).call (.replaceOrder id n (c.price a) (c.lot * q)))
    unfold Venue.call
    simp only
    by_cases h1 : id = 0 ∨ n = 0
    · rw [if_pos h1, if_pos h1]; exact c.refuse_map h.clean _
    · rw [if_neg h1, if_neg h1]
      by_cases h2 : q = 0
      · rw [if_pos h2, if_pos ((c.lot_zero q).2 h2)]; exact c.refuse_map h.clean _
      · rw [if_neg h2, if_neg (fun y => h2 ((c.lot_zero q).1 y)), find_map]
        cases hx : x.find id with
        | none => exact c.refuse_map h.clean _
        | some o =>
          simp only [Option.map_some]
          by_cases h3 : o.type ≠ .limit
          · rw [if_pos h3, if_pos (show (c.ofOrder o).type ≠ .limit from h3)]; exact c.refuse_map h.clean _
          · rw [if_neg h3, if_neg (show ¬ (c.ofOrder o).type ≠ .limit from h3)]
            refine c.onOrder_map h id fun o' k hx' hid hb hg hk' hr => ?_
            have ht : c.Good { o' with id := n, price := a, quantity := q, executed := 0, leaves := q } := hg.priced hk rfl rfl rfl
            have hd := c.drop_ready hr id
            have hz : ((x.pits o'.symbolId).change id none).board.size ≤ (x.pits o'.symbolId).board.size :=
              change_size (l := (x.pits o'.symbolId).board) (by intro o ho; cases ho)
            obtain ⟨s1, s2, s3, s4⟩ := c.pit_strike x.matching hd.tidy ht
            obtain ⟨b1, b2, b3, b4, b5, _, _⟩ := strike_paid x.matching hd.fine.neat { o' with id := n, price := a, quantity := q, executed := 0, leaves := q }
            have hsz : (((x.pits o'.symbolId).change id none).board.strike x.matching { o' with id := n, price := a, quantity := q, executed := 0, leaves := q }).2.2.size +
                (((x.pits o'.symbolId).change id none).board.strike x.matching { o' with id := n, price := a, quantity := q, executed := 0, leaves := q }).2.1.leaves ≤
                (x.pits o'.symbolId).board.size + q := Nat.add_le_add (Nat.le_trans b3 hz) b5
            have := c.vland_map h.clean hb (r := ((x.pits o'.symbolId).change id none).strike x.matching { o' with id := n, price := a, quantity := q, executed := 0, leaves := q })
              s3 s4 b2 (c.fit (hroom o' hx' hb) hsz) (Live.strike hd.live _ _)
            have e0 : c.ofOrder { o' with id := n, price := a, quantity := q, executed := 0, leaves := q } =
                { c.ofOrder o' with id := n, price := c.price a, quantity := c.lot * q, executed := 0, leaves := c.lot * q } := by
              show ({ c.ofOrder o' with id := n, price := c.price a, quantity := c.lot * q, executed := c.counter 0, leaves := c.lot * q } : Order) = _
              have : c.counter 0 = 0 := by unfold counter; split <;> rfl
              rw [this]
            rw [(c.pit_drop hr.tidy id).1]
            show c.Fair _ ((c.venue x).land o'.symbolId ((c.pit ((x.pits o'.symbolId).change id none)).strike x.matching
              { c.ofOrder o' with id := n, price := c.price a, quantity := c.lot * q, executed := 0, leaves := c.lot * q }))
            rw [← e0, s1]; exact this
  | replaceWith id o =>
    show c.Fair _ ((c.venue x).call (.replaceWith id (c.ofOrder o)))
    unfold Venue.call
    simp only
    obtain ⟨d1, d2⟩ := c.delete_map h id
    have hset := hdel id o rfl
    obtain ⟨w1, w2⟩ := Within.delete h.sound h.placed id
    have hsz : o.symbolId ∈ (x.delete id).2.2.books → c.lot * (((x.delete id).2.2.pits o.symbolId).board.size + o.leaves) < W64 := by
      intro hs
      rw [w1.books] at hs
      exact c.fit (hroom hs) (Nat.add_le_add_right (w2 _ hs) _)
    rw [d1]
    generalize x.delete id = a at hset hsz d2 ⊢
    obtain ⟨e, xs, x'⟩ := a
    obtain ⟨a1, a2⟩ := c.vadd_map hset (o := o) hk hsz
    cases e <;> first
      | exact ⟨rfl, d2⟩
      | (refine ⟨?_, a2⟩
         show (((c.venue x').add (c.ofOrder o)).1, xs.map c.ofExec ++ ((c.venue x').add (c.ofOrder o)).2.1, ((c.venue x').add (c.ofOrder o)).2.2) = _
         rw [a1]
         show (_, xs.map c.ofExec ++ (x'.add o).2.1.map c.ofExec, _) = _
         rw [← List.map_append]; rfl)
  | deleteOrder id => exact c.delete_map h id
  | executeOrder id q => exact c.execute_map h id q (fun o ho => ⟨rfl, ho.price⟩)
  | executeOrderAt id a q => exact c.execute_map h id q (fun o ho => ⟨rfl, hk⟩)
  | enableMatching =>
    have hc : c.Clean { x with matching := true } := ⟨h.clean.pits, h.clean.ghosts⟩
    obtain ⟨m1, m2⟩ := c.matchAll_map x.books hc (fun s hs => ⟨h.clean.pits s, h.sound.fine s hs, h.fits s hs, h.live s hs⟩) h.sound.books
    refine ⟨?_, m2⟩
    show (_, (Venue.matchAll x.books (c.venue { x with matching := true })).1, (Venue.matchAll x.books (c.venue { x with matching := true })).2) = _
    rw [m1]; rfl
  | disableMatching => exact ⟨rfl, h.clean.pits, h.clean.ghosts⟩
  | matchAll =>
    obtain ⟨m1, m2⟩ := c.matchAll_map x.books h.clean (fun s hs => ⟨h.clean.pits s, h.sound.fine s hs, h.fits s hs, h.live s hs⟩) h.sound.books
    refine ⟨?_, m2⟩
    show (_, (Venue.matchAll x.books (c.venue x)).1, (Venue.matchAll x.books (c.venue x)).2) = _
    rw [m1]; rfl

end Rescale
end CppTrader
