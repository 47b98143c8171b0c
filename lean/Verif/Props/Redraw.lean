import Verif.Proof.Redraw
import Verif.Props.Recast
/-
C70: buyers and sellers are treated alike, and neither the price scale nor the lot size matters.
-/

namespace CppTrader
open Core

namespace Redraw
variable (c : Redraw)

def exch (x : Exchange) : Exchange := { x with lines := fun s => c.board (x.lines s) }
def answer (a : ErrorCode × List Execution × Exchange) : ErrorCode × List Execution × Exchange := (a.1, a.2.1.map c.ofExec, c.exch a.2.2)

/-- What the calls rely on: lookups give the rewritten orders, and all orders in line are plain and use the prices in use. -/
structure Ready (x : Exchange) : Prop where
  find : ∀ id, (c.exch x).find id = (x.find id).map c.ofOrder
  own : ∀ id o, x.find id = some o → o.book ∧ c.ticks o.price
  fine : ∀ s, c.Fine (x.lines s)

theorem set_map (x : Exchange) (s : Nat) (l : Board) : (fun n => if n = s then c.board l else c.board (x.lines n)) = fun n => c.board (x.lines.set s l n) := by
  funext n
  unfold Lines.set
  split <;> rfl

theorem accept_map (x : Exchange) (s : Nat) (xs : List Execution) (l : Board) :
    (c.exch x).accept s (xs.map c.ofExec, c.board l) = c.answer (x.accept s (xs, l)) := by
  show (_, _, ({ x with lines := fun n => if n = s then c.board l else c.board (x.lines n) } : Exchange)) = _
  rw [set_map]; rfl

theorem set_fine {x : Exchange} (hx : ∀ s, c.Fine (x.lines s)) {s : Nat} {l : Board} (hl : c.Fine l) : ∀ n, c.Fine (x.lines.set s l n) := by
  intro n
  unfold Lines.set
  split
  · exact hl
  · exact hx n

/-- The outcome of a call is rewritten, and the lines stay fine. -/
def Alike (a b : ErrorCode × List Execution × Exchange) : Prop := b = c.answer a ∧ ∀ s, c.Fine (a.2.2.lines s)

theorem refuse_alike {x : Exchange} (hx : ∀ s, c.Fine (x.lines s)) (e : ErrorCode) : c.Alike (x.refuse e) ((c.exch x).refuse e) := ⟨rfl, hx⟩

theorem onOrder_alike {x : Exchange} (hx : c.Ready x) (id : Nat) {F G : Order → Board → List Execution × Board}
    (h : ∀ o l, o.id = id → o.book → c.ticks o.price → c.Fine l → G (c.ofOrder o) (c.board l) = ((F o l).1.map c.ofExec, c.board (F o l).2) ∧ c.Fine (F o l).2) :
    c.Alike (x.onOrder id F) ((c.exch x).onOrder id G) := by
  unfold Exchange.onOrder
  rw [hx.find]
  cases hf : x.find id with
  | none => exact c.refuse_alike hx.fine _
  | some o =>
    have hid : o.id = id := by
      obtain ⟨s, _, hs⟩ := List.exists_of_findSome?_eq_some hf
      simpa using List.find?_some hs
    obtain ⟨h1, h2⟩ := hx.own id o hf
    obtain ⟨a, b⟩ := h o (x.lines o.symbolId) hid h1 h2 (hx.fine _)
    simp only [Option.map_some]
    show c.Alike _ ((c.exch x).accept o.symbolId (G (c.ofOrder o) (c.board (x.lines o.symbolId))))
    rw [a, c.accept_map]
    exact ⟨rfl, c.set_fine hx.fine b⟩

theorem withQty_alike {x : Exchange} (hx : ∀ s, c.Fine (x.lines s)) (id q : Nat) {a b : ErrorCode × List Execution × Exchange} (h : c.Alike a b) :
    c.Alike (x.withQty id q a) ((c.exch x).withQty id (c.lot * q) b) := by
  unfold Exchange.withQty
  by_cases h1 : id = 0
  · rw [if_pos h1, if_pos h1]; exact c.refuse_alike hx _
  · rw [if_neg h1, if_neg h1]
    by_cases h2 : q = 0
    · rw [if_pos h2, if_pos ((c.lot_zero q).2 h2)]; exact c.refuse_alike hx _
    · rw [if_neg h2, if_neg (fun e => h2 ((c.lot_zero q).1 e))]; exact h

theorem validate_map (o : Order) : (c.ofOrder o).validate = o.validate := by
  have h1 : (c.ofOrder o).quantity < (c.ofOrder o).leaves ↔ o.quantity < o.leaves := c.lot_lt _ _
  have h2 : (c.ofOrder o).leaves = 0 ↔ o.leaves = 0 := c.lot_zero _
  unfold Order.validate
  rw [show (c.ofOrder o).id = o.id from rfl]
  by_cases a : o.id = 0
  · rw [if_pos a, if_pos a]
  · rw [if_neg a, if_neg a]
    by_cases b : o.quantity < o.leaves
    · rw [if_pos b, if_pos (h1.2 b)]
    · rw [if_neg b, if_neg (fun e => b (h1.1 e))]
      by_cases d : o.leaves = 0
      · rw [if_pos d, if_pos (h2.2 d)]
      · rw [if_neg d, if_neg (fun e => d (h2.1 e))]
        rfl

theorem add_alike {x : Exchange} (hx : ∀ s, c.Fine (x.lines s)) {o : Order} (hp : Exchange.plain o) (hu : c.Uses o) : c.Alike (x.add o) ((c.exch x).add (c.ofOrder o)) := by
  unfold Exchange.add
  rw [c.validate_map]
  by_cases h1 : o.validate ≠ .ok
  · rw [if_pos h1, if_pos h1]; exact c.refuse_alike hx _
  · rw [if_neg h1, if_neg h1]
    by_cases h2 : o.symbolId ∉ x.books
    · rw [if_pos h2, if_pos (show (c.ofOrder o).symbolId ∉ (c.exch x).books from h2)]; exact c.refuse_alike hx _
    · rw [if_neg h2, if_neg (show ¬ (c.ofOrder o).symbolId ∉ (c.exch x).books from h2)]
      obtain ⟨a, b⟩ := c.arrive_map x.matching (hx o.symbolId) hu hp
      show c.Alike _ ((c.exch x).accept o.symbolId ((c.board (x.lines o.symbolId)).arrive x.matching (c.ofOrder o)))
      rw [a, c.accept_map]
      exact ⟨rfl, c.set_fine hx b⟩

theorem drop_alike {l : Board} (hl : c.Fine l) (id : Nat) : (c.board l).change id none = c.board (l.change id none) ∧ c.Fine (l.change id none) :=
  ⟨c.change_map l id none, c.change_fine hl (fun o h => by cases h)⟩

theorem delete_alike {x : Exchange} (hx : c.Ready x) (id : Nat) : c.Alike (x.delete id) ((c.exch x).delete id) := by
  unfold Exchange.delete
  by_cases h1 : id = 0
  · rw [if_pos h1, if_pos h1]; exact c.refuse_alike hx.fine _
  · rw [if_neg h1, if_neg h1]
    refine c.onOrder_alike hx id fun o l _ _ _ hl => ?_
    obtain ⟨a, b⟩ := c.drop_alike hl id
    exact ⟨by rw [a]; rfl, b⟩

theorem execute_alike {x : Exchange} (hx : c.Ready x) (id q : Nat) {f g : Order → Nat} (hf : ∀ o, g (c.ofOrder o) = c.price (f o)) :
    c.Alike (x.execute id q f) ((c.exch x).execute id (c.lot * q) g) := by
  unfold Exchange.execute
  refine c.withQty_alike hx.fine id q (c.onOrder_alike hx id fun o l _ hb ht hl => ?_)
  have hq : c.lot * q < (c.ofOrder o).leaves ↔ q < o.leaves := c.lot_lt _ _
  have hv : (if c.lot * q < (c.ofOrder o).leaves then some ((c.ofOrder o).afterExec (c.lot * q)) else none) =
      (if q < o.leaves then some (o.afterExec q) else none).map c.ofOrder := by
    by_cases h : q < o.leaves
    · rw [if_pos h, if_pos (hq.2 h), c.afterExec_map]; rfl
    · rw [if_neg h, if_neg (fun e => h (hq.1 e))]; rfl
  rw [hv, c.change_map, hf, show min (c.lot * q) (c.ofOrder o).leaves = c.lot * min q o.leaves from c.lot_min _ _]
  refine ⟨rfl, c.change_fine hl ?_⟩
  intro r hr
  split at hr
  · cases hr; exact ⟨hb.1, ht⟩
  · cases hr

theorem modify_alike {x : Exchange} (hx : c.Ready x) (id p q : Nat) {t : Order → Order} {u : Order → Order} (hp : c.ticks p)
    (ht : ∀ o, o.book → (t o).type = .limit ∧ (t o).tif = .gtc ∧ (t o).price = p) (hu : ∀ o, u (c.ofOrder o) = c.ofOrder (t o)) :
    c.Alike (x.withQty id q (x.onOrder id fun o l => (l.change id none).arrive x.matching (t o)))
      ((c.exch x).withQty id (c.lot * q) ((c.exch x).onOrder id fun o l => (l.change id none).arrive x.matching (u o))) := by
  refine c.withQty_alike hx.fine id q (c.onOrder_alike hx id fun o l _ hb _ hl => ?_)
  obtain ⟨a, b⟩ := c.drop_alike hl id
  obtain ⟨t1, t2, t3⟩ := ht o hb
  rw [a, hu]
  refine c.arrive_map x.matching b ⟨by rw [t3]; exact hp, fun h => by rw [t1] at h; cases h⟩ ⟨.inl t1, fun h => by rw [t2] at h; cases h⟩

theorem call_alike {x : Exchange} (hx : c.Ready x) {op : Op} (hc : x.Covers op) (hk : c.Keeps op) : c.Alike (x.call op) ((c.exch x).call (c.op op)) := by
  have ref := fun e => c.refuse_alike hx.fine e
  cases op with
  | addSymbol s =>
    show c.Alike (if s.id ∈ x.symbols then _ else _) (if s.id ∈ x.symbols then _ else _)
    split
    · exact ref _
    · exact ⟨rfl, hx.fine⟩
  | deleteSymbol id =>
    show c.Alike (if id ∈ x.symbols then _ else _) (if id ∈ x.symbols then _ else _)
    split
    · exact ⟨rfl, hx.fine⟩
    · exact ref _
  | addOrderBook s =>
    show c.Alike (if s.id ∉ x.symbols then _ else if s.id ∈ x.books then _ else _) (if s.id ∉ x.symbols then _ else if s.id ∈ x.books then _ else _)
    split
    · exact ref _
    · split
      · exact ref _
      · exact ⟨rfl, hx.fine⟩
  | deleteOrderBook id => exact ref _
  | addOrder o => exact c.add_alike hx.fine hc.1 hk
  | reduceOrder id q =>
    refine c.withQty_alike hx.fine id q (c.onOrder_alike hx id fun o l _ hb ht hl => ?_)
    have hq : c.lot * q < (c.ofOrder o).leaves ↔ q < o.leaves := c.lot_lt _ _
    have hv : (if c.lot * q < (c.ofOrder o).leaves then some { c.ofOrder o with leaves := (c.ofOrder o).leaves - c.lot * q } else none) =
        (if q < o.leaves then some { o with leaves := o.leaves - q } else none).map c.ofOrder := by
      by_cases h : q < o.leaves
      · rw [if_pos h, if_pos (hq.2 h)]
        show some { c.ofOrder o with leaves := c.lot * o.leaves - c.lot * q } = _
        rw [← Nat.mul_sub]; rfl
      · rw [if_neg h, if_neg (fun e => h (hq.1 e))]; rfl
    rw [hv, c.change_map]
    refine ⟨rfl, c.change_fine hl ?_⟩
    intro r hr
    split at hr
    · cases hr; exact ⟨hb.1, ht⟩
    · cases hr
  | modifyOrder id p q => exact c.modify_alike hx id p q hk (fun o hb => ⟨hb.1, hb.2, rfl⟩) (fun o => rfl)
  | mitigateOrder id p q =>
    refine c.modify_alike hx id p q hk.1 (fun o hb => ⟨hb.1, hb.2, rfl⟩) (fun o => ?_)
    show ({ c.ofOrder o with price := _, quantity := _, leaves := c.lot * q - c.exec o.executed } : Order) = _
    rw [hk.2.2, hk.2.1, Nat.one_mul]
    unfold ofOrder
    simp only [hk.2.1, Nat.one_mul]
  | replaceOrder id n p q =>
    show c.Alike (if id = 0 ∨ n = 0 then _ else if q = 0 then _ else _) (if id = 0 ∨ n = 0 then _ else if c.lot * q = 0 then _ else _)
    by_cases h1 : id = 0 ∨ n = 0
    · rw [if_pos h1, if_pos h1]; exact ref _
    · rw [if_neg h1, if_neg h1]
      by_cases h2 : q = 0
      · rw [if_pos h2, if_pos ((c.lot_zero q).2 h2)]; exact ref _
      · rw [if_neg h2, if_neg (fun e => h2 ((c.lot_zero q).1 e))]
        refine c.onOrder_alike hx id fun o l _ hb _ hl => ?_
        obtain ⟨a, b⟩ := c.drop_alike hl id
        rw [a]
        have hu : ({ c.ofOrder o with id := n, price := c.price p, quantity := c.lot * q, executed := 0, leaves := c.lot * q } : Order) =
            c.ofOrder { o with id := n, price := p, quantity := q, executed := 0, leaves := q } := by
          unfold ofOrder
          simp only [c.fresh]
        rw [hu]
        exact c.arrive_map x.matching b ⟨hk, fun h => by rw [show o.type = .limit from hb.1] at h; cases h⟩
          ⟨.inl hb.1, fun h => by rw [show o.tif = .gtc from hb.2] at h; cases h⟩
  | replaceWith id o =>
    obtain ⟨h1, h2⟩ := c.delete_alike hx id
    show c.Alike ((x.call (.replaceWith id o))) ((c.exch x).call (.replaceWith id (c.ofOrder o)))
    unfold Exchange.call
    simp only
    rw [h1]
    generalize x.delete id = a at h2
    obtain ⟨e, xs, x'⟩ := a
    obtain ⟨a1, a2⟩ := c.add_alike (x := x') h2 hc.1 hk
    cases e <;> first
      | exact ⟨rfl, h2⟩
      | (refine ⟨?_, a2⟩
         show (((c.exch x').add (c.ofOrder o)).1, xs.map c.ofExec ++ ((c.exch x').add (c.ofOrder o)).2.1, ((c.exch x').add (c.ofOrder o)).2.2) = _
         rw [a1]
         show (_, xs.map c.ofExec ++ (x'.add o).2.1.map c.ofExec, _) = _
         rw [← List.map_append]; rfl)
  | deleteOrder id => exact c.delete_alike hx id
  | executeOrder id q => exact c.execute_alike hx id q (fun _ => rfl)
  | executeOrderAt id p q => exact c.execute_alike hx id q (fun _ => rfl)
  | enableMatching => exact ⟨rfl, hx.fine⟩
  | disableMatching => exact ⟨rfl, hx.fine⟩
  | matchAll => exact ⟨rfl, hx.fine⟩

/-! ### The engine -/

/-- Two managers that agree with an exchange and with its rewriting. -/
theorem ready {x : Exchange} {g h : Mgr} (hx : Agree x g) (hg : g.Reachable) (hy : Agree (c.exch x) h) (hh : h.Reachable) (hf : ∀ s, c.Fine (x.lines s)) : c.Ready x := by
  have mem : ∀ {x : Exchange} {g : Mgr}, Agree x g → g.Reachable → ∀ {id o}, g.getOrder id = some o → ∃ k, o ∈ x.lines o.symbolId k := by
    intro x g hx hg id o ho
    obtain ⟨k, hk⟩ := getOrder_kind hg ho
    have hid := own_id hg ho
    exact ⟨k, by rw [hx.lines]; exact (lines_complete hg (hx.kept id o ho) (k := k) (r := o)).2 ⟨by rw [hid]; exact ho, rfl, hk⟩⟩
  have get : ∀ {x : Exchange} {g : Mgr}, Agree x g → g.Reachable → ∀ {s k r}, r ∈ x.lines s k → g.getOrder r.id = some r := by
    intro x g hx hg s k r hm
    rw [hx.lines] at hm
    have hb : g.getBook s ≠ none := fun hb => by rw [lines_none (by exact hb)] at hm; cases hm
    exact ((lines_complete hg hb).1 hm).1
  refine ⟨?_, ?_, hf⟩
  · intro id
    rw [hy.find hh, hx.find hg]
    cases ho : g.getOrder id with
    | some o =>
      obtain ⟨k, hk⟩ := mem hx hg ho
      have hid := own_id hg ho
      have h1 : c.ofOrder o ∈ (c.exch x).lines o.symbolId (c.kind k) := by
        show c.ofOrder o ∈ (x.lines o.symbolId (c.kind (c.kind k))).map c.ofOrder
        rw [c.kind_kind]
        exact List.mem_map_of_mem hk
      have h2 := get hy hh h1
      rw [← hid]; exact h2
    | none =>
      cases hh' : h.getOrder id with
      | none => rfl
      | some r =>
        obtain ⟨k, hk⟩ := mem hy hh hh'
        have hid := own_id hh hh'
        obtain ⟨o, h1, h2⟩ := List.mem_map.1 (show r ∈ (x.lines r.symbolId (c.kind k)).map c.ofOrder from hk)
        have h3 := get hx hg h1
        have : o.id = id := by rw [← hid, ← h2]; rfl
        rw [this, ho] at h3; cases h3
  · intro id o ho
    rw [hx.find hg] at ho
    obtain ⟨k, hk⟩ := mem hx hg ho
    exact ⟨hx.plain id o ho, (hf _ k o hk).2⟩

theorem covers_map {x : Exchange} (hx : c.Ready x) {op : Op} (hc : x.Covers op) : (c.exch x).Covers (c.op op) := by
  have nf : ∀ {id}, x.find id = none → (c.exch x).find id = none := fun h => by rw [hx.find, h]; rfl
  have st : x.settled → (c.exch x).settled := by
    intro hs s hm b hb a ha
    obtain ⟨b', h1, rfl⟩ := List.mem_map.1 (show b ∈ (x.lines s (c.kind .bid)).map c.ofOrder from hb)
    obtain ⟨a', h2, rfl⟩ := List.mem_map.1 (show a ∈ (x.lines s (c.kind .ask)).map c.ofOrder from ha)
    have ta := (hx.fine s _ a' h2).2
    have tb := (hx.fine s _ b' h1).2
    have e := c.order _ _ ta tb
    have e' := c.order _ _ tb ta
    have hs := hs s hm
    show c.price b'.price < c.price a'.price
    unfold kind at h1 h2
    cases hfl : c.flip <;> rw [hfl] at e e' h1 h2
    · have := hs b' h1 a' h2
      simp at e e'
      omega
    · have := hs a' h2 b' h1
      simp at e e'
      omega
  cases op with
  | deleteOrderBook _ => exact hc
  | addOrder o => exact ⟨hc.1, nf hc.2⟩
  | replaceOrder id n p q => exact hc.imp (fun h => h) nf
  | replaceWith id o => exact ⟨hc.1, hc.2.imp (fun h => h) nf⟩
  | enableMatching => exact st hc
  | matchAll => exact st hc
  | _ => trivial

theorem records {g g' : Mgr} {l} (hl : Mgr.Records g l g') : ∀ {x : Exchange} {h h' : Mgr} {l'}, Agree x g → g.Reachable → Agree (c.exch x) h → h.Reachable →
    (∀ s, c.Fine (x.lines s)) → Mgr.Records h l' h' → l'.map (·.1) = l.map (fun r => c.op r.1) → x.CoversAll (l.map (·.1)) → (∀ r ∈ l, c.Keeps r.1) →
    l' = l.map c.entry ∧ ∃ x', Agree x' g' ∧ g'.Reachable ∧ Agree (c.exch x') h' ∧ h'.Reachable ∧ c.Ready x' := by
  induction hl with
  | nil =>
    intro x h h' l' hx hg hy hh hf hl' he _ _
    cases hl' with
    | nil => exact ⟨rfl, x, hx, hg, hy, hh, c.ready hx hg hy hh hf⟩
    | cons _ _ _ _ => cases he
  | cons ha hs hev _ ih =>
    rename_i g g1 g' op e evs l _
    intro x h h' l' hx hg hy hh hf hl' he hc hk
    cases hl' with
    | nil => cases he
    | cons ha' hs' hev' hl' =>
      rename_i h1 op' e' evs' l'
      obtain ⟨he1, he2⟩ := List.cons.inj he
      simp only at he1
      subst he1
      have hr := c.ready hx hg hy hh hf
      obtain ⟨a1, a2, a3⟩ := hx.step hg hc.1 ha hs hev
      obtain ⟨b1, b2, b3⟩ := hy.step hh (c.covers_map hr hc.1) ha' hs' hev'
      obtain ⟨k1, k2⟩ := c.call_alike hr hc.1 (hk _ (List.mem_cons_self ..))
      rw [k1] at b1 b2 b3
      obtain ⟨i1, i2⟩ := ih a3 (hg.step ha hs) b3 (hh.step ha' hs') k2 hl' he2 hc.2 (fun r h => hk r (List.mem_cons_of_mem _ h))
      refine ⟨?_, i2⟩
      rw [i1, List.map_cons]
      congr 1
      show _ = (c.op op, e, (execsOf evs).map c.ofExec)
      rw [← b1, ← b2, ← a1, ← a2]
      rfl

end Redraw

/-- C70. Two sessions from the empty manager, the second with the rewritten calls of the first. In the first the orders are
plain (limit or market, not All-Or-None) and come with ids not in use, no book is deleted, and `EnableMatching` and `Match` are
called only when no bid meets an ask; the prices are those in use. Then every call of the second session has the same result code and
the rewritten executions of the first, and afterwards the lines and the orders found by id are the rewritten ones. -/
theorem C70_redraw (c : Redraw) {g h : Mgr} {l l' : List (Op × ErrorCode × List Execution)}
    (hl : Mgr.Records Mgr.init l g) (hl' : Mgr.Records Mgr.init l' h) (ho : l'.map (·.1) = l.map (fun r => c.op r.1))
    (hc : Exchange.init.CoversAll (l.map (·.1))) (hk : ∀ r ∈ l, c.Keeps r.1) :
    l' = l.map c.entry ∧
    (∀ s k, h.lines s (c.kind k) = (g.lines s k).map c.ofOrder) ∧
    ∀ id, h.getOrder id = (g.getOrder id).map c.ofOrder := by
  have e0 : c.exch Exchange.init = Exchange.init := rfl
  obtain ⟨h1, x, hx, hg, hy, hh, hr⟩ := c.records hl agree_init .init (by rw [e0]; exact agree_init) .init (fun s k r hm => by cases hm) hl' ho hc hk
  refine ⟨h1, ?_, ?_⟩
  · intro s k
    rw [← hy.lines, ← hx.lines]
    show (x.lines s (c.kind (c.kind k))).map c.ofOrder = _
    rw [c.kind_kind]
  · intro id
    rw [← hy.find hh, ← hx.find hg]
    exact hr.find id

theorem mirror_uses {o : Order} (h : o.price < W64) : Redraw.mirror.Uses o := by
  have hw : W64 = MAX64 + 1 := rfl
  refine ⟨by show o.price ≤ MAX64; omega, fun _ p hp => ?_⟩
  have hp : p ≤ MAX64 := hp
  show (o.bounded p).price ≤ MAX64 ∧ ((Redraw.mirror.ofOrder o).bounded (MAX64 - p)).price = MAX64 - (o.bounded p).price
  have e : ∀ (o : Order) p, (o.bounded p).price = (match o.side with | .buy => min (p + o.slippage) MAX64 | .sell => p - o.slippage) := fun _ _ => rfl
  have e1 : (Redraw.mirror.ofOrder o).side = o.side.other := rfl
  have e2 : (Redraw.mirror.ofOrder o).slippage = o.slippage := rfl
  rw [e, e, e1, e2]
  cases o.side <;> simp only [Side.other] <;> omega

theorem mirror_keeps {g : Mgr} {op : Op} (ha : g.Admissible op) : Redraw.mirror.Keeps op := by
  have hw : W64 = MAX64 + 1 := rfl
  cases op with
  | addOrder o => exact mirror_uses ha.1.2.2.1
  | replaceWith id o => exact mirror_uses ha.1.2.2.1
  | modifyOrder id p q => have := ha.1; show p ≤ MAX64; omega
  | mitigateOrder id p q => have := ha.1; exact ⟨by show p ≤ MAX64; omega, rfl, fun _ => rfl⟩
  | replaceOrder id n p q => have := ha.2.1; show p ≤ MAX64; omega
  | _ => trivial

theorem Mgr.Records.admissible {g g' : Mgr} {l} (hl : Mgr.Records g l g') : ∀ r ∈ l, ∃ g1 : Mgr, g1.Admissible r.1 := by
  induction hl with
  | nil => intro r h; cases h
  | cons ha _ _ _ ih =>
    intro r h
    rcases List.mem_cons.1 h with rfl | h
    · exact ⟨_, ha⟩
    · exact ih r h

/-- C70, the two sides of the market. A second session in which buyers and sellers change sides and prices are counted from
the top: the same result codes and mirrored executions, and mirrored lines. -/
theorem C70_mirror {g h : Mgr} {l l' : List (Op × ErrorCode × List Execution)}
    (hl : Mgr.Records Mgr.init l g) (hl' : Mgr.Records Mgr.init l' h) (ho : l'.map (·.1) = l.map (fun r => Redraw.mirror.op r.1))
    (hc : Exchange.init.CoversAll (l.map (·.1))) :
    l' = l.map Redraw.mirror.entry ∧
    (∀ s, h.lines s .bid = (g.lines s .ask).map Redraw.mirror.ofOrder ∧ h.lines s .ask = (g.lines s .bid).map Redraw.mirror.ofOrder) ∧
    ∀ id, h.getOrder id = (g.getOrder id).map Redraw.mirror.ofOrder := by
  obtain ⟨h1, h2, h3⟩ := C70_redraw Redraw.mirror hl hl' ho hc (fun r hr => by
    obtain ⟨g1, ha⟩ := hl.admissible r hr
    exact mirror_keeps ha)
  exact ⟨h1, fun s => ⟨h2 s .ask, h2 s .bid⟩, h3⟩

/-- The prices of a call are among `P`, and its new order (if any) is not a market order with a slippage limit. -/
def Op.pricedIn (P : Nat → Prop) : Op → Prop
  | .addOrder o | .replaceWith _ o => P o.price ∧ (o.type = .market → o.slippage = MAX64)
  | .modifyOrder _ p _ | .replaceOrder _ _ p _ | .mitigateOrder _ p _ => P p
  | _ => True

/-- C70, the price scale and the lot size. Only the order of the prices in use matters, and multiplying all quantities
multiplies all executions. -/
theorem C70_scale (f : Nat → Nat) (k : Nat) (P : Nat → Prop) (hk : 0 < k) (hf : ∀ a b, P a → P b → (f a ≤ f b ↔ a ≤ b))
    (hP : ∀ a, P a → a ≤ MAX64) (h0 : P 0 ∧ f 0 = 0) (hM : P MAX64 ∧ f MAX64 = MAX64)
    {g h : Mgr} {l l' : List (Op × ErrorCode × List Execution)}
    (hl : Mgr.Records Mgr.init l g) (hl' : Mgr.Records Mgr.init l' h) (ho : l'.map (·.1) = l.map (fun r => (Redraw.scaled f k P hk hf).op r.1))
    (hc : Exchange.init.CoversAll (l.map (·.1))) (hp : ∀ r ∈ l, r.1.pricedIn P) (hm : k = 1 ∨ ∀ r ∈ l, ∀ id p q, r.1 ≠ .mitigateOrder id p q) :
    l' = l.map (Redraw.scaled f k P hk hf).entry ∧
    (∀ s sd, h.lines s sd = (g.lines s sd).map (Redraw.scaled f k P hk hf).ofOrder) ∧
    ∀ id, h.getOrder id = (g.getOrder id).map (Redraw.scaled f k P hk hf).ofOrder := by
  have uses : ∀ o : Order, P o.price ∧ (o.type = .market → o.slippage = MAX64) → (Redraw.scaled f k P hk hf).Uses o := by
    intro o ⟨h1, h2⟩
    refine ⟨h1, fun ht p hpp => ?_⟩
    have hp1 := hP p hpp
    have hp2 : f p ≤ MAX64 := by
      have := (hf p MAX64 hpp hM.1).2 hp1
      rwa [hM.2] at this
    show P (o.bounded p).price ∧ (((Redraw.scaled f k P hk hf).ofOrder o).bounded (f p)).price = f (o.bounded p).price
    have e : ∀ (o : Order) p, (o.bounded p).price = (match o.side with | .buy => min (p + o.slippage) MAX64 | .sell => p - o.slippage) := fun _ _ => rfl
    have e1 : ((Redraw.scaled f k P hk hf).ofOrder o).side = o.side := rfl
    have e2 : ((Redraw.scaled f k P hk hf).ofOrder o).slippage = o.slippage := rfl
    rw [e, e, e1, e2, h2 ht]
    cases o.side with
    | buy =>
      simp only
      rw [Nat.min_eq_right (by omega), Nat.min_eq_right (by omega)]
      exact ⟨hM.1, hM.2.symm⟩
    | sell =>
      simp only
      rw [Nat.sub_eq_zero_of_le hp1, Nat.sub_eq_zero_of_le hp2]
      exact ⟨h0.1, h0.2.symm⟩
  exact C70_redraw _ hl hl' ho hc (fun r hr => by
    have h1 := hp r hr
    have h2 : k = 1 ∨ ∀ id p q, r.1 ≠ .mitigateOrder id p q := hm.imp (fun h => h) (fun h => h r hr)
    generalize r.1 = op at h1 h2
    cases op with
    | addOrder o => exact uses o h1
    | replaceWith id o => exact uses o h1
    | modifyOrder id p q => exact h1
    | replaceOrder id n p q => exact h1
    | mitigateOrder id p q =>
      rcases h2 with h2 | h2
      · exact ⟨h1, h2, fun e => if_pos h2⟩
      · exact absurd rfl (h2 id p q)
    | _ => trivial)

theorem session_pair {ops ops' : List Op} (h : (checkRun true Mgr.init ops).isSome = true) (h' : (checkRun true Mgr.init ops').isSome = true) :
    ∃ (g : Mgr) (l : List (Op × ErrorCode × List Execution)) (d : Mgr) (l' : List (Op × ErrorCode × List Execution)),
      Mgr.Records Mgr.init l g ∧ Mgr.Records Mgr.init l' d ∧ l.map (·.1) = ops ∧ l'.map (·.1) = ops' := by
  obtain ⟨g, hg⟩ := Option.isSome_iff_exists.1 h
  obtain ⟨d, hd⟩ := Option.isSome_iff_exists.1 h'
  obtain ⟨l, h1, h2⟩ := checkRun_records .init (fun _ _ => rfl) hg
  obtain ⟨l', h3, h4⟩ := checkRun_records .init (fun _ _ => rfl) hd
  exact ⟨g, l, d, l', h1, h3, h2, h4⟩

/-- C70_mirror applies to the session of C51 (see there for its executions) followed by a market order with a slippage limit
that can fill only a part. -/
def mirrorSession : List Op := session ++ [.addOrder (.mkLimit 20 2 .sell 50 5), .addOrder (.mkLimit 21 2 .sell 52 5), .addOrder (.mkLimit 22 2 .sell 60 5),
  .addOrder (.mkMarket 23 2 .buy 20 3)]

example : ∃ (g : Mgr) (l : List (Op × ErrorCode × List Execution)) (h : Mgr) (l' : List (Op × ErrorCode × List Execution)),
    Mgr.Records Mgr.init l g ∧ Mgr.Records Mgr.init l' h ∧ l.map (·.1) = mirrorSession ∧ l'.map (·.1) = l.map (fun r => Redraw.mirror.op r.1) ∧
    Exchange.init.CoversAll (l.map (·.1)) ∧ (l'.map (·.2.2.length)).sum = 20 := by
  obtain ⟨g, l, h, l', h1, h2, h3, h4⟩ := session_pair (ops := mirrorSession) (ops' := mirrorSession.map Redraw.mirror.op) (by decide +kernel) (by decide +kernel)
  have hc : Exchange.init.CoversAll (l.map (·.1)) := by rw [h3]; decide +kernel
  have ho : l'.map (·.1) = l.map (fun r => Redraw.mirror.op r.1) := by rw [h4, ← h3, List.map_map]; rfl
  refine ⟨g, l, h, l', h1, h2, h3, ho, hc, ?_⟩
  rw [(C70_mirror h1 h2 ho hc).1]
  have h5 := (C51_textbook h1 hc).1
  rw [h3] at h5
  have : (l.map Redraw.mirror.entry).map (·.2.2.length) = (l.map (·.2)).map (·.2.length) := by
    rw [List.map_map, List.map_map]
    refine List.map_congr_left fun r _ => ?_
    show (r.2.2.map _).length = r.2.2.length
    rw [List.length_map]
  rw [this, h5]
  decide +kernel

/-- Cents instead of dollars, and seven times the quantity. -/
def inCents (p : Nat) : Nat := if p = MAX64 then MAX64 else 100 * p
def smallPrice (p : Nat) : Prop := p ≤ 1000 ∨ p = MAX64

instance (p : Nat) : Decidable (smallPrice p) := by unfold smallPrice; infer_instance
instance (op : Op) : Decidable (op.pricedIn smallPrice) := by cases op <;> unfold Op.pricedIn <;> infer_instance

theorem inCents_order (a b : Nat) (ha : smallPrice a) (hb : smallPrice b) : inCents a ≤ inCents b ↔ a ≤ b := by
  unfold smallPrice at ha hb
  unfold inCents
  split <;> split <;> omega

/-- C70_scale applies to the session of C51 in cents and with seven times the quantity. -/
example : ∃ (g : Mgr) (l : List (Op × ErrorCode × List Execution)) (h : Mgr) (l' : List (Op × ErrorCode × List Execution)),
    Mgr.Records Mgr.init l g ∧ Mgr.Records Mgr.init l' h ∧ l.map (·.1) = session ∧
    l'.map (·.1) = l.map (fun r => (Redraw.scaled inCents 7 smallPrice (by decide) inCents_order).op r.1) ∧
    Exchange.init.CoversAll (l.map (·.1)) ∧ (∀ r ∈ l, r.1.pricedIn smallPrice) ∧ (∀ r ∈ l, ∀ id p q, r.1 ≠ .mitigateOrder id p q) ∧
    (∀ a, smallPrice a → a ≤ MAX64) ∧ (smallPrice 0 ∧ inCents 0 = 0) ∧ smallPrice MAX64 ∧ inCents MAX64 = MAX64 := by
  obtain ⟨g, l, h, l', h1, h2, h3, h4⟩ := session_pair (ops := session)
    (ops' := session.map (Redraw.scaled inCents 7 smallPrice (by decide) inCents_order).op) (by decide +kernel) (by decide +kernel)
  have hall : ∀ op ∈ session, op.pricedIn smallPrice := by decide +kernel
  have hmit : ∀ op ∈ session, ∀ id p q, op ≠ .mitigateOrder id p q := by
    intro op hop id p q e
    subst e
    simp [session, opening] at hop
  have hm : ∀ r ∈ l, r.1 ∈ session := fun r hr => by rw [← h3]; exact List.mem_map_of_mem hr
  refine ⟨g, l, h, l', h1, h2, h3, ?_, ?_, fun r hr => hall _ (hm r hr), fun r hr => hmit _ (hm r hr), ?_, by decide, by decide⟩
  · rw [h4, ← h3, List.map_map]; rfl
  · rw [h3]; decide +kernel
  · intro a ha; unfold smallPrice at ha; omega

/-- A bid and an ask of the same size that meet while matching is off. -/
def tie : List Op := opening ++ [.addOrder (.mkLimit 1 1 .buy 101 5), .addOrder (.mkLimit 2 1 .sell 100 5), .enableMatching]

/-- Without the condition on `EnableMatching` the two sides are not alike: of two orders of the same size in a crossed book the
bid sets the price, on both sides of the mirror. -/
theorem C70_mirror_witness : ∃ (g : Mgr) (l : List (Op × ErrorCode × List Execution)) (h : Mgr) (l' : List (Op × ErrorCode × List Execution)),
    Mgr.Records Mgr.init l g ∧ Mgr.Records Mgr.init l' h ∧ l.map (·.1) = tie ∧ l'.map (·.1) = l.map (fun r => Redraw.mirror.op r.1) ∧
    (l.getLast?.map (fun r => r.2.2.map (fun x => (x.1.id, x.2)))) = some [(1, 101, 5), (2, 101, 5)] ∧
    (l'.getLast?.map (fun r => r.2.2.map (fun x => (x.1.id, x.2)))) = some [(2, MAX64 - 100, 5), (1, MAX64 - 100, 5)] := by
  obtain ⟨g, l, h, l', h1, h2, h3, h4⟩ := session_pair (ops := tie) (ops' := tie.map Redraw.mirror.op) (by decide +kernel) (by decide +kernel)
  have a := (seats_init.records MInv.init h1).1
  have b := (seats_init.records MInv.init h2).1
  rw [h3] at a
  rw [h4] at b
  have e : ∀ l : List (Op × ErrorCode × List Execution), l.getLast?.map (fun r => r.2.2.map (fun (x : Execution) => (x.1.id, x.2))) =
      (l.map (·.2)).getLast?.map (fun r => r.2.map (fun (x : Execution) => (x.1.id, x.2))) := by
    intro l
    rw [List.getLast?_map, Option.map_map]
    rfl
  refine ⟨g, l, h, l', h1, h2, h3, ?_, ?_, ?_⟩
  · rw [h4, ← h3, List.map_map]; rfl
  · rw [e, a]; decide +kernel
  · rw [e, b]; decide +kernel

end CppTrader
