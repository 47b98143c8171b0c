import Verif.Proof.Equiv
import Verif.Props.Shards
import Verif.Props.Venue
/-
C63: calls that mean the same. And C61: the order of calls to different managers of a division does not matter.
-/

namespace CppTrader
open Core

/-! ### C61: interleaving -/

/-- C61. Two histories that bring the same calls in the same order to every manager of a division, and are interleaved in
any way: every call has the same answer, and the managers show the same orders and lines. -/
theorem C61_interleaving {d : Division} {g g' : Mgr} {l l' : List (Op × ErrorCode × List Execution)} (hl : Mgr.Records Mgr.init l g)
    (hl' : Mgr.Records Mgr.init l' g') (hr : ∀ r ∈ l, d.respects r.1) (hr' : ∀ r ∈ l', d.respects r.1)
    (h : ∀ j, (d.part j l).map (·.1) = (d.part j l').map (·.1)) :
    (∀ j, d.part j l = d.part j l') ∧ (∀ id, g.getOrder id = g'.getOrder id) ∧ ∀ s, g.lines s = g'.lines s := by
  refine ⟨?_, ?_, ?_⟩
  · intro j
    obtain ⟨a, a1, _⟩ := C61_shards (j := j) hl hr
    obtain ⟨b, b1, _⟩ := C61_shards (j := j) hl' hr'
    have := (C60_function a1 b1 (h j)).1
    rw [zip_self (d.part j l), zip_self (d.part j l'), h j, this]
  · intro id
    obtain ⟨a, a1, _, a2, _⟩ := C61_shards (j := d.order id) hl hr
    obtain ⟨b, b1, _, b2, _⟩ := C61_shards (j := d.order id) hl' hr'
    rw [← a2 id rfl, ← b2 id rfl, (C60_function a1 b1 (h _)).2]
  · intro s
    obtain ⟨a, a1, _, _, a2⟩ := C61_shards (j := d.symbol s) hl hr
    obtain ⟨b, b1, _, _, b2⟩ := C61_shards (j := d.symbol s) hl' hr'
    rw [← ((a2 s).1 rfl).2.2, ← ((b2 s).1 rfl).2.2]
    obtain ⟨_, ha, hx⟩ := seats_init.records MInv.init a1
    obtain ⟨_, hb, hy⟩ := seats_init.records MInv.init b1
    rw [h] at hx
    exact (hx.shows ha hy hb).lines s

theorem part_calls (d : Division) (j : Nat) : ∀ l : List (Op × ErrorCode × List Execution),
    (d.part j l).map (·.1) = (l.map (·.1)).filter (fun op => d.of op = none ∨ d.of op = some j) := by
  intro l
  induction l with
  | nil => rfl
  | cons r l ih =>
    obtain ⟨op, e, xs⟩ := r
    unfold Division.part
    rw [List.map_cons, List.filter_cons]
    cases ho : d.of op with
    | none => simp [ho, ih]
    | some i =>
      by_cases h : i = j
      · simp [ho, h, ih]
      · simp [ho, h, ih]

/-- The session `twoSymbols` with the calls of the second symbol made earlier where possible. -/
def twoSymbolsOther : List Op := [.addSymbol ⟨2, 8⟩, .addOrderBook ⟨2, 8⟩] ++ opening ++ [
  .addOrder (.mkLimit 2 2 .buy 55 7), .addOrder (.mkLimit 4 2 .sell 55 2), .addOrder (.mkLimit 1 1 .buy 101 10), .addOrder (.mkLimit 3 1 .sell 100 4),
  .addOrder (.mkStop 6 2 .sell 50 3), .enableMatching, .addOrder (.mkMarket 5 1 .sell 3), .addOrder (.mkLimit 6 2 .sell 55 1),
  .addOrder (.mkLimit 2 2 .sell 60 1), .replaceWith 2 (.mkLimit 8 2 .buy 49 9), .matchAll]

/-- The two sessions are admissible, different, and bring the same calls to every manager of the division. -/
example : ∃ (g g' : Mgr) (l l' : List (Op × ErrorCode × List Execution)), Mgr.Records Mgr.init l g ∧ Mgr.Records Mgr.init l' g' ∧
    l.map (·.1) = twoSymbols ∧ l'.map (·.1) = twoSymbolsOther ∧ twoSymbols ≠ twoSymbolsOther ∧
    ∀ j, (oddEven.part j l).map (·.1) = (oddEven.part j l').map (·.1) := by
  cases hc : checkRun true Mgr.init twoSymbols with
  | none =>
    have : (checkRun true Mgr.init twoSymbols).isSome = true := by decide +kernel
    rw [hc] at this; cases this
  | some g =>
    cases hc' : checkRun true Mgr.init twoSymbolsOther with
    | none =>
      have : (checkRun true Mgr.init twoSymbolsOther).isSome = true := by decide +kernel
      rw [hc'] at this; cases this
    | some g' =>
      obtain ⟨l, h1, h2⟩ := checkRun_records .init (fun _ _ => rfl) hc
      obtain ⟨l', h1', h2'⟩ := checkRun_records .init (fun _ _ => rfl) hc'
      refine ⟨g, g', l, l', h1, h1', h2, h2', by decide, ?_⟩
      intro j
      rw [part_calls, part_calls, h2, h2']
      by_cases h0 : j = 0
      · subst h0; decide
      · by_cases h1 : j = 1
        · subst h1; decide
        · simp [twoSymbols, twoSymbolsOther, opening, Division.of, oddEven, Ne.symm h0, Ne.symm h1, Order.mkLimit, Order.mkStop, Order.mkMarket, Order.mk']

/-! ### C63 -/

theorem venue_onOrder {x : Venue} {id : Nat} {o : Order} (h : x.find id = some o) (f : Order → Pit → Venue.Answer) :
    x.onOrder id f = if o.symbolId ∈ x.books then f o (x.pits o.symbolId) else x.refuse .orderBookNotFound := by
  unfold Venue.onOrder; rw [h]

theorem onOrder_congr {x : Venue} {id : Nat} {f f' : Order → Pit → Venue.Answer} (h : ∀ o p, x.find id = some o → f o p = f' o p) :
    x.onOrder id f = x.onOrder id f' := by
  cases hf : x.find id with
  | none => unfold Venue.onOrder; rw [hf]
  | some o => rw [venue_onOrder hf, venue_onOrder hf, h o _ hf]

theorem records_one {g g' : Mgr} {op e xs} (h : g.Records [(op, e, xs)] g') : g.step op = .ok (g', e) := by
  cases h with
  | cons _ hs _ hn => cases hn; exact hs

/-- C63. ReduceOrder by all that is left, or more, is DeleteOrder. -/
theorem C63_reduce_all {g g' : Mgr} (hr : g.Reachable) {id q : Nat} {o : Order} (ho : g.getOrder id = some o) (hid : id ≠ 0) (hq : o.leaves ≤ q) (hq0 : q ≠ 0)
    {e xs} (hl : g.Records [(.reduceOrder id q, e, xs)] g') :
    ∃ g'', g.Records [(.deleteOrder id, e, xs)] g'' ∧ g'.Equivalent g'' := by
  obtain ⟨x, hx⟩ := hr.seats
  have ha : g.Admissible (.deleteOrder id) := trivial
  refine hx.law hr.minv hl ha ?_ (fun h => h) (fun h => h)
  show x.delete id = x.withQty id q _
  unfold Venue.delete Venue.withQty
  rw [if_neg hid, if_neg hid, if_neg hq0]
  refine onOrder_congr ?_
  intro o' p hf
  rw [hx.find hr.minv, ← hr.minv.getOrder, ho] at hf
  cases hf
  rw [if_neg (by omega)]

/-- C63. MitigateOrder of an order that has not been executed is ModifyOrder. -/
theorem C63_mitigate {g g' : Mgr} (hr : g.Reachable) {id p q : Nat} {o : Order} (ho : g.getOrder id = some o) (hx0 : o.executed = 0)
    {e xs} (hl : g.Records [(.mitigateOrder id p q, e, xs)] g') :
    ∃ g'', g.Records [(.modifyOrder id p q, e, xs)] g'' ∧ g'.Equivalent g'' := by
  obtain ⟨x, hx⟩ := hr.seats
  have ha : g.Admissible (.modifyOrder id p q) := (hx.one hr.minv hl).1
  refine hx.law hr.minv hl ha ?_ (fun h => h) (fun h => h)
  show x.withQty id q _ = x.withQty id q _
  congr 1
  refine onOrder_congr ?_
  intro o' p hf
  rw [hx.find hr.minv, ← hr.minv.getOrder, ho] at hf
  cases hf
  rw [hx0, Nat.sub_zero]

/-- C63. ExecuteOrder without a price is ExecuteOrder at the order's own price. -/
theorem C63_execute_price {g g' : Mgr} (hr : g.Reachable) {id q : Nat} {o : Order} (ho : g.getOrder id = some o)
    {e xs} (hl : g.Records [(.executeOrder id q, e, xs)] g') :
    ∃ g'', g.Records [(.executeOrderAt id o.price q, e, xs)] g'' ∧ g'.Equivalent g'' := by
  obtain ⟨x, hx⟩ := hr.seats
  have ha : g.Admissible (.executeOrderAt id o.price q) := trivial
  refine hx.law hr.minv hl ha ?_ (fun h => h) (fun h => h)
  show x.withQty id q _ = x.withQty id q _
  congr 1
  refine onOrder_congr ?_
  intro o' p hf
  rw [hx.find hr.minv, ← hr.minv.getOrder, ho] at hf
  cases hf
  rfl

/-- C63. ExecuteOrder of more than what is left is ExecuteOrder of what is left. -/
theorem C63_execute_all {g g' : Mgr} (hr : g.Reachable) {id p q : Nat} {o : Order} (ho : g.getOrder id = some o) (hq : o.leaves ≤ q)
    {e xs} (hl : g.Records [(.executeOrderAt id p q, e, xs)] g') :
    ∃ g'', g.Records [(.executeOrderAt id p o.leaves, e, xs)] g'' ∧ g'.Equivalent g'' := by
  obtain ⟨x, hx⟩ := hr.seats
  have ha : g.Admissible (.executeOrderAt id p o.leaves) := trivial
  have hpos : o.leaves ≠ 0 := by
    have := (hr.minv.orders id o (by rw [← hr.minv.getOrder]; exact ho)).2.leaves
    omega
  refine hx.law hr.minv hl ha ?_ (fun h => h) (fun h => h)
  show x.withQty id o.leaves _ = x.withQty id q _
  unfold Venue.withQty
  by_cases hid : id = 0
  · rw [if_pos hid, if_pos hid]
  · rw [if_neg hid, if_neg hid, if_neg hpos, if_neg (by omega)]
    refine onOrder_congr ?_
    intro o' p hf
    rw [hx.find hr.minv, ← hr.minv.getOrder, ho] at hf
    cases hf
    rw [if_neg (by omega), if_neg (by omega), Nat.min_self, Nat.min_eq_right hq]

/-- C63. ReplaceOrder by a new order is DeleteOrder followed by AddOrder. -/
theorem C63_replace {g g' : Mgr} (hr : g.Reachable) {id : Nat} {o r : Order} (ho : g.getOrder id = some o) (hid : id ≠ 0)
    (hb : g.getBook o.symbolId ≠ none) {e xs} (hl : g.Records [(.replaceWith id r, e, xs)] g') :
    ∃ (g'' : Mgr) (xs1 xs2 : List Execution), g.Records [(.deleteOrder id, .ok, xs1), (.addOrder r, e, xs2)] g'' ∧
      xs = xs1 ++ xs2 ∧ g'.Equivalent g'' := by
  obtain ⟨x, hx⟩ := hr.seats
  obtain ⟨ha, h1, h2, h3, h4⟩ := hx.one hr.minv hl
  have had : g.Admissible (.deleteOrder id) := trivial
  obtain ⟨g1, e1, a1, a2, a3⟩ := deleteOrder_mgr hr.minv id
  obtain ⟨g2, b1, b2, b3⟩ := hx.make hr.minv had
  have hok : (x.call (.deleteOrder id)).1 = .ok := by
    have hf : x.find id = some o := by rw [hx.find hr.minv, ← hr.minv.getOrder]; exact ho
    show (x.delete id).1 = .ok
    unfold Venue.delete
    rw [if_neg hid, venue_onOrder hf, if_pos ((hx.books _).2 hb)]
    rfl
  rw [hok] at b1
  have hg : g2 = g1 := by
    have hs := records_one b1
    rw [show g.step (.deleteOrder id) = .ok (g1, e1) from a1] at hs; cases hs; rfl
  subst hg
  have haa : g2.Admissible (.addOrder r) := ⟨ha.1, by
    intro b' hb'
    obtain ⟨b, c1, c2⟩ := a3 _ b' hb'
    have := ha.2 b c1
    omega⟩
  obtain ⟨g3, d1, d2, d3⟩ := b2.make b3 haa
  have hcall : x.call (.replaceWith id r) =
      (((x.call (.deleteOrder id)).2.2.call (.addOrder r)).1, (x.call (.deleteOrder id)).2.1 ++ ((x.call (.deleteOrder id)).2.2.call (.addOrder r)).2.1,
        ((x.call (.deleteOrder id)).2.2.call (.addOrder r)).2.2) := by
    show (match x.delete id with
      | (.ok, xs, x') => ((x'.add r).1, xs ++ (x'.add r).2.1, (x'.add r).2.2)
      | r => r) = _
    have hok' : (x.delete id).1 = .ok := hok
    show _ = (((x.delete id).2.2.add r).1, (x.delete id).2.1 ++ ((x.delete id).2.2.add r).2.1, ((x.delete id).2.2.add r).2.2)
    generalize x.delete id = a at hok'
    obtain ⟨e', ys, x'⟩ := a
    simp only at hok'
    subst hok'
    rfl
  rw [hcall] at h1 h2 h3
  have h1' : ((x.call (.deleteOrder id)).2.2.call (.addOrder r)).1 = e := h1
  rw [h1'] at d1
  refine ⟨g3, _, _, b1.trans d1, h2.symm, h3.equivalent h4 d2 d3 hr.minv hl (b1.trans d1) (fun r hr => ?_) (fun r hr => ?_)⟩
  · rw [List.mem_singleton.1 hr]; exact fun h => h
  · simp only [List.cons_append, List.nil_append, List.mem_cons, List.not_mem_nil, or_false] at hr
    rcases hr with rfl | rfl <;> exact fun h => h

/-- C63. While matching is off, ReplaceOrder with a new id, price and quantity is DeleteOrder followed by AddOrder of the
changed order. (While matching is on, the deletion alone may release stop orders, and the outcome may differ.) -/
theorem C63_replace_id {g g' : Mgr} (hr : g.Reachable) (hm : g.matching = false) {id n p q : Nat} {o : Order} (ho : g.getOrder id = some o) (hid : id ≠ 0)
    (hb : g.getBook o.symbolId ≠ none) (hn : n = id ∨ g.getOrder n = none) (ht : o.type = .limit)
    (hv : ({ o with id := n, price := p, quantity := q, executed := 0, leaves := q } : Order).validate = .ok)
    {e xs} (hl : g.Records [(.replaceOrder id n p q, e, xs)] g') :
    ∃ g'' : Mgr, g.Records [(.deleteOrder id, .ok, []), (.addOrder { o with id := n, price := p, quantity := q, executed := 0, leaves := q }, e, xs)] g'' ∧
      g'.Equivalent g'' := by
  obtain ⟨x, hx⟩ := hr.seats
  have hg := hr.minv
  obtain ⟨ha, h1, h2, h3, h4⟩ := hx.one hg hl
  have hf : x.find id = some o := by rw [hx.find hg, ← hg.getOrder]; exact ho
  have hbk : o.symbolId ∈ x.books := (hx.books _).2 hb
  have hxm : x.matching = false := hx.matching.trans hm
  have had : g.Admissible (.deleteOrder id) := trivial
  obtain ⟨g1, e1, a1, a2, a3⟩ := deleteOrder_mgr hg id
  obtain ⟨g2, b1, b2, b3⟩ := hx.make hg had
  have hdel : x.call (.deleteOrder id) = (.ok, [], x.setPit o.symbolId { (x.pits o.symbolId).change id none with heard := .blank }) := by
    show x.delete id = _
    unfold Venue.delete
    rw [if_neg hid, venue_onOrder hf, if_pos hbk]
    unfold Venue.done
    rw [hxm]
    rfl
  rw [hdel] at b1 b2
  have hg2 : g2 = g1 := by
    have hs := records_one b1
    rw [show g.step (.deleteOrder id) = .ok (g1, e1) from a1] at hs; cases hs; rfl
  subst hg2
  generalize hT : ({ o with id := n, price := p, quantity := q, executed := 0, leaves := q } : Order) = t at hv ⊢
  have tid : t.id = n := by rw [← hT]
  have tsym : t.symbolId = o.symbolId := by rw [← hT]
  have tty : t.type = .limit := by rw [← hT]; exact ht
  have hq0 : q ≠ 0 := by
    have := (validate_facts hv).2.1
    rw [← hT] at this
    have h0 : 0 < q := this
    omega
  have hn0 : n ≠ 0 := by
    have := (validate_facts hv).1
    rw [tid] at this; omega
  have haa : g2.Admissible (.addOrder t) := by
    obtain ⟨c1, c2, c3, c4⟩ := ha
    have hrep := (hg.orders id o (by rw [← hg.getOrder]; exact ho)).2.repr
    refine ⟨?_, ?_⟩
    · rw [← hT]
      obtain ⟨r1, r2, r3, r4, r5, r6, r7, r8, r9⟩ := hrep
      exact ⟨c1, r2, c2, r4, c3, (by decide : (0 : Nat) < W64), c3, r8, r9⟩
    · intro b' hb'
      rw [tsym] at hb'
      obtain ⟨b, d1, d2⟩ := a3 _ b' hb'
      have := c4 o ho b d1
      have hl : t.leaves = q := by rw [← hT]
      omega
  obtain ⟨g3, d1, d2, d3⟩ := b2.make b3 haa
  -- the two answers
  have hret : ∀ m, t.retrailed m = t := by
    intro m; unfold Order.retrailed; rw [if_neg]; rintro ⟨h | h, _⟩ <;> rw [tty] at h <;> cases h
  have hrel : t.released = t := by unfold Order.released; rw [tty]
  have henter : ∀ w : Pit, w.enter false t = ([], t, w) := by
    intro w
    unfold Pit.enter
    simp only [hret]
    rw [if_neg (by rintro ⟨⟨h, _⟩, _⟩; exact h tty), hrel]
    rfl
  have hstrike : ∀ w : Pit, w.strike false t = ([], t, w) := by intro w; rfl
  have hA : x.call (.replaceOrder id n p q) = x.land o.symbolId ([], t, (x.pits o.symbolId).change id none) := by
    unfold Venue.call
    simp only
    rw [if_neg (by omega), if_neg hq0, hf]
    simp only
    rw [if_neg (by simp [ht]), venue_onOrder hf, if_pos hbk, hT, hxm, hstrike]
  have hB : (x.setPit o.symbolId { (x.pits o.symbolId).change id none with heard := .blank }).call (.addOrder t) =
      (x.setPit o.symbolId { (x.pits o.symbolId).change id none with heard := .blank }).land o.symbolId
        ([], t, { (x.pits o.symbolId).change id none with heard := .blank }) := by
    show Venue.add _ t = _
    unfold Venue.add
    rw [if_neg (by rw [hv]; simp), tsym, if_neg (by exact fun h => h hbk)]
    rw [show (x.setPit o.symbolId { (x.pits o.symbolId).change id none with heard := .blank }).matching = false from hxm, henter]
    show Venue.land _ o.symbolId ([], t, if o.symbolId = o.symbolId then _ else _) = _
    rw [if_pos rfl]
  -- the id is free in both
  have fr : ∀ hq : Quotes, (x.setPit o.symbolId { (x.pits o.symbolId).change id none with heard := hq }).find t.id = none := by
    intro hq
    rw [venue_find_none, tid]
    intro r hr' e
    rw [venue_orders] at hr'
    have hold : r ∈ x.orders ∧ r.id ≠ id := by
      rcases hr' with ⟨s, s1, s2⟩ | s1
      · by_cases es : s = o.symbolId
        · subst es
          have s2' : r ∈ (if o.symbolId = o.symbolId then ({ (x.pits o.symbolId).change id none with heard := hq } : Pit) else x.pits o.symbolId).board.orders := s2
          rw [if_pos rfl] at s2'
          obtain ⟨k, hk⟩ := board_orders.1 s2'
          have hk' : r ∈ (x.pits o.symbolId).board.change id none k := hk
          unfold Board.change at hk'
          obtain ⟨r', m1, m2⟩ := List.mem_filterMap.1 hk'
          by_cases ei : r'.id = id
          · rw [if_pos ei] at m2; cases m2
          · rw [if_neg ei] at m2; cases m2
            exact ⟨venue_orders.2 (.inl ⟨_, s1, board_orders.2 ⟨k, m1⟩⟩), ei⟩
        · have s2' : r ∈ (if s = o.symbolId then ({ (x.pits o.symbolId).change id none with heard := hq } : Pit) else x.pits s).board.orders := s2
          rw [if_neg es] at s2'
          have s1' : s ∈ x.books := s1
          have hm' : r ∈ x.orders := venue_orders.2 (.inl ⟨s, s1', s2'⟩)
          refine ⟨hm', fun ei => ?_⟩
          obtain ⟨b, hb'⟩ := Option.ne_none_iff_exists'.1 ((hx.books s).1 s1)
          rw [hx.pits s b hb'] at s2'
          obtain ⟨w1, w2⟩ := (pit_orders hg hb').1 s2'
          rw [ei, ← hg.getOrder, ho] at w1
          cases w1
          exact es w2.symm
      · have s1' : r ∈ x.ghosts := s1
        refine ⟨venue_orders.2 (.inr s1'), fun ei => ?_⟩
        obtain ⟨w1, w2⟩ := (hx.ghosts r).1 s1'
        rw [ei, ← hg.getOrder, ho] at w1
        cases w1
        exact hb w2
    rcases hn with rfl | hn
    · exact hold.2 e
    · have := (hx.orders hg r).1 hold.1
      rw [e, ← hg.getOrder, hn] at this
      cases this
  have hland : ∀ (y : Venue) (w : Pit), y.matching = false → (y.setPit o.symbolId w).find t.id = none →
      y.land o.symbolId ([], t, w) = (.ok, [], y.setPit o.symbolId { w.land t with heard := .blank }) := by
    intro y w hy hfr
    unfold Venue.land
    simp only
    rw [if_neg (by rintro ⟨_, h⟩; exact h hfr)]
    unfold Venue.done
    rw [hy]
    rfl
  have fr1 : (x.setPit o.symbolId ((x.pits o.symbolId).change id none)).find t.id = none := fr (x.pits o.symbolId).heard
  rw [hA, hland x _ hxm fr1] at h1 h2 h3
  rw [hB, hland _ _ (by exact hxm) (by rw [setPit_setPit]; exact fr .blank), setPit_setPit] at d1 d2
  have hp : ({ Pit.land { (x.pits o.symbolId).change id none with heard := .blank } t with heard := .blank } : Pit) =
      { Pit.land ((x.pits o.symbolId).change id none) t with heard := .blank } := by
    unfold Pit.land
    by_cases h : t.rests
    · rw [if_pos h, if_pos h]
    · rw [if_neg h, if_neg h]
  simp only at d2
  rw [hp] at d2
  simp only at h1 h2
  subst h1; subst h2
  refine ⟨g3, b1.trans d1, h3.equivalent h4 d2 d3 hg hl (b1.trans d1) (fun r hr => ?_) (fun r hr => ?_)⟩
  · rw [List.mem_singleton.1 hr]; exact fun h => h
  · simp only [List.cons_append, List.nil_append, List.mem_cons, List.not_mem_nil, or_false] at hr
    rcases hr with rfl | rfl <;> exact fun h => h

/-- A record of the last call of a demonstration. -/
theorem record_of {g g' : Mgr} {op e} (hr : g.Reachable) (ha : g.Admissible op) (hs : g.step op = .ok (g', e)) :
    g.Records [(op, e, execsOf (g'.ev.drop g.ev.length))] g' := by
  obtain ⟨evs, hev⟩ := events_appended hr ha hs
  have : g'.ev.drop g.ev.length = evs := by rw [hev]; simp
  rw [this]
  exact .cons ha hs hev .nil

/-- The hypotheses of the laws are met: a resting order that keeps a stop order waiting is reduced by more than is left,
and the stop order is executed. -/
example : ∃ (g g' : Mgr) (o : Order) (e : ErrorCode) (xs : List Execution), g.Reachable ∧ g.getOrder 1 = some o ∧ o.leaves ≤ 20 ∧ o.executed = 0 ∧
    g.getBook o.symbolId ≠ none ∧ g.Records [(.reduceOrder 1 20, e, xs)] g' ∧ xs.length = 2 := by
  obtain ⟨g, g', e, hr, ha, hs, hp⟩ := demoStep
    (p := fun g g1 c => (g.getOrder 1).any (fun o => decide (o.leaves ≤ 20) && decide (o.executed = 0) && (g.getBook o.symbolId).isSome) &&
      decide ((execsOf (g1.ev.drop g.ev.length)).length = 2))
    (trading ++ [.addOrder (.mkLimit 1 1 .buy 100 10), .addOrder (.mkLimit 2 1 .buy 90 5), .addOrder (.mkStop 3 1 .sell 95 4)])
    (.reduceOrder 1 20) (by decide +kernel)
  simp only [Bool.and_eq_true, decide_eq_true_eq] at hp
  cases ho : g.getOrder 1 with
  | none => rw [ho] at hp; simp at hp
  | some o =>
    rw [ho] at hp
    simp at hp
    refine ⟨g, g', o, e, _, hr, ho, hp.1.1.1, hp.1.1.2, ?_, record_of hr ha hs, hp.2⟩
    intro hn
    rw [hn] at hp
    simp at hp

/-- While matching is off, a limit order is given a new id, price and quantity. -/
example : ∃ (g g' : Mgr) (o : Order) (e : ErrorCode) (xs : List Execution), g.Reachable ∧ g.matching = false ∧ g.getOrder 1 = some o ∧
    g.getBook o.symbolId ≠ none ∧ g.getOrder 9 = none ∧ o.type = .limit ∧
    ({ o with id := 9, price := 105, quantity := 30, executed := 0, leaves := 30 } : Order).validate = .ok ∧
    g.Records [(.replaceOrder 1 9 105 30, e, xs)] g' ∧ e = .ok ∧ (g'.getOrder 9).isSome := by
  obtain ⟨g, g', e, hr, ha, hs, hp⟩ := demoStep
    (p := fun g g1 c => (g.getOrder 1).any (fun o => (g.getBook o.symbolId).isSome && decide (o.type = .limit) &&
        decide (({ o with id := 9, price := 105, quantity := 30, executed := 0, leaves := 30 } : Order).validate = .ok)) &&
      (!g.matching && (g.getOrder 9).isNone && decide (c = .ok) && (g1.getOrder 9).isSome))
    (opening ++ [.addOrder (.mkLimit 1 1 .buy 100 10), .addOrder (.mkLimit 2 1 .sell 90 5)])
    (.replaceOrder 1 9 105 30) (by decide +kernel)
  simp only [Bool.and_eq_true, decide_eq_true_eq] at hp
  cases ho : g.getOrder 1 with
  | none => rw [ho] at hp; simp at hp
  | some o =>
    rw [ho] at hp
    simp at hp
    obtain ⟨⟨⟨h1, h2⟩, h3⟩, ⟨⟨h4, h5⟩, h6⟩, h7⟩ := hp
    refine ⟨g, g', o, e, _, hr, h4, ho, ?_, h5, h2, h3, record_of hr ha hs, h6, h7⟩
    intro hn
    rw [hn] at h1
    simp at h1

end CppTrader
