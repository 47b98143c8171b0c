import Verif.Saved
import Verif.Proof.Valid
import Verif.Proof.Volume
import Verif.Props.Laws
import Verif.Props.Logs
/-
C73: what a manager does next depends only on what can be read from it. C74: every order it holds is valid, and its books can be restored
from its orders.
-/

namespace CppTrader
open Core

/-- C73. The levels of a book with their volumes, and its best prices, follow from the orders in line: two managers with the same orders,
the same lines, the same symbols and books and the same remembered prices show the same in everything. -/
theorem C73_levels {g h : Mgr} (hg : g.Reachable) (hh : h.Reachable) (s : g.SameLines h) : g.Alike h := s.alike hg.minv hh.minv

/-- C73. There is no hidden state: managers from which the same can be read answer every sequence of calls with the same result codes and
the same callbacks, whatever their histories. -/
theorem C73_future {g h : Mgr} (hg : g.Reachable) (hh : h.Reachable) (s : g.Alike h) : g.Equivalent h := s.equivalent hg.minv hh.minv

/-- C74. Every order the manager holds passes `Validate`. -/
theorem C74_valid {g : Mgr} (hr : g.Reachable) {id : Nat} {o : Order} (ho : g.getOrder id = some o) : o.validate = .ok := by
  rw [hr.minv.getOrder] at ho
  have hp := hr.proper id o ho
  obtain ⟨h1, h2⟩ := hr.minv.orders id o ho
  refine (validate_ok_iff o).2 ⟨h2.idPos, ⟨h2.leaves, hp.quantity⟩, hp.marketTif, hp.noIceberg, hp.noSlippage, hp.stopNotAon, fun h => ?_⟩
  exact h2.trail ((isTrailing_iff o).2 h)

/-! Restoring. -/

theorem enqueue_end {k : Kind} {t : Order} : ∀ {l : List Order}, (∀ a ∈ l, ¬ t.beats k a) → enqueue k t l = l ++ [t]
  | [], _ => rfl
  | a :: l, h => by
    show (if t.beats k a then t :: a :: l else a :: enqueue k t l) = _
    rw [if_neg (h a (List.mem_cons_self ..)), enqueue_end fun b hb => h b (List.mem_cons_of_mem _ hb)]
    rfl

/-- The prices of a book without memory move no trailing order. -/
theorem retrailed_blank {o : Order} (hr : o.Repr64) (m : Nat) (hb : o.side = .buy → m = MAX64) (hl : o.side = .sell → m = 0) : o.retrailed m = o := by
  unfold Order.retrailed
  rw [if_neg]
  rintro ⟨_, h⟩
  unfold Order.trailMoves Order.trailTarget at h
  have hs : o.stopPrice < W64 := hr.2.2.2.1
  have hw : W64 = MAX64 + 1 := rfl
  cases hsd : o.side with
  | buy =>
    have := hb hsd
    simp only [hsd] at h
    omega
  | sell =>
    have := hl hsd
    simp only [hsd] at h
    omega

/-- The trading places while the orders `ps` have been restored. -/
structure Restored (bs : List Nat) (ps : List Order) (z : Venue) : Prop where
  matching : z.matching = false
  books : z.books = bs
  ghosts : z.ghosts = []
  pits : ∀ s ∈ bs, z.pits s = ⟨fun k => ps.filter (fun o => decide (o.symbolId = s ∧ o.home.map (·.1) = some k)), .blank, .blank, .blank⟩

theorem Restored.add {bs : List Nat} {ps qs : List Order} {r : Order} {z : Venue} (h : Restored bs ps z) {g : Mgr} (hr : g.Reachable) (hs : g.Saved (ps ++ r :: qs))
    (hb : ∀ s, g.getBook s ≠ none → s ∈ bs) :
    ∃ z', z.call (.addOrder r) = (.ok, [], z') ∧ Restored bs (ps ++ [r]) z' := by
  have hi := hr.minv
  have hg := hs.orders r (by simp)
  have hv := C74_valid hr hg
  have hg' : g.orders r.id = some r := by rw [← hi.getOrder]; exact hg
  have hok := (hi.orders _ _ hg').2
  obtain ⟨k, hk⟩ := getOrder_kind hr hg
  have hline := hs.lines r.symbolId k
  rw [List.filter_append, List.filter_cons, if_pos (by simp [hk])] at hline
  have hbook : g.getBook r.symbolId ≠ none := by
    intro hn
    rw [lines_none (g := g) hn] at hline
    simp at hline
  have hsb := hb _ hbook
  have hp := h.pits _ hsb
  -- the order is as it was
  have hret : ∀ m, (r.side = .buy → m = (z.pits r.symbolId).trailAsk) → (r.side = .sell → m = (z.pits r.symbolId).trailBid) → r.retrailed m = r := by
    intro m hm hm'
    refine retrailed_blank hok.repr m (fun hsd => ?_) (fun hsd => ?_)
    · rw [hm hsd, hp]
      show max MAX64 (Board.bestAsk _) = MAX64
      unfold Board.bestAsk
      simp only
      generalize hh : (List.head? _).map _ = w
      cases w with
      | none => simp
      | some v =>
        rw [Option.getD_some]
        obtain ⟨a, a1, a2⟩ := Option.map_eq_some_iff.1 hh
        have am := (List.mem_filter.1 (List.mem_of_head? a1)).1
        have := (hi.orders a.id a (by rw [← hi.getOrder]; exact hs.orders a (List.mem_append_left _ am))).2.repr.2.2.1
        rw [a2] at this
        have hw : W64 = MAX64 + 1 := rfl
        omega
    · rw [hm' hsd, hp]
      show min 0 (Board.bestBid _) = 0
      exact Nat.zero_min _
  have hrests : r.rests := ⟨hok.leaves, hok.notMarket, hok.tif⟩
  have hent : (z.pits r.symbolId).enter false r = ([], r, z.pits r.symbolId) := by
    unfold Pit.enter
    simp only
    rw [hret _ (fun h => by rw [h]) (fun h => by rw [h])]
    by_cases hw : r.waits
    · rw [if_pos ⟨hw, fun h => by cases h.1⟩]
    · rw [if_neg (fun h => hw h.1)]
      have : r.released = r := by
        unfold Order.released
        unfold Order.waits at hw
        cases ht : r.type <;> simp_all
      rw [this]; rfl
  -- its id is free
  have hfree : (z.setPit r.symbolId (z.pits r.symbolId)).find r.id = none := by
    rw [venue_find_none]
    intro a ha e
    rw [venue_orders] at ha
    rcases ha with ⟨s, s1, s2⟩ | s1
    · have s2' : a ∈ (z.pits s).board.orders := by
        have : (if s = r.symbolId then z.pits r.symbolId else z.pits s) = z.pits s := by
          by_cases h : s = r.symbolId
          · rw [if_pos h, h]
          · rw [if_neg h]
        rw [← this]; exact s2
      have s1' : s ∈ bs := by rw [← h.books]; exact s1
      rw [h.pits s s1'] at s2'
      obtain ⟨k', hk'⟩ := board_orders.1 s2'
      have am := List.mem_filter.1 hk'
      have ag := hs.orders a (List.mem_append_left _ am.1)
      rw [e, hg] at ag
      cases ag
      have hnd : ((g.lines r.symbolId k).map (·.id)).Nodup := by
        cases hbb : slot g.books r.symbolId with
        | none => exact absurd hbb hbook
        | some b =>
          rw [lines_core hi hbb, queue_of_line (hi.inv hbb).1]
          exact ((hi.inv hbb).1.book.kinds k).nodup
      rw [← hline, List.map_append, List.map_cons] at hnd
      have h1 : r.id ∈ (ps.filter (fun o => decide (o.symbolId = r.symbolId ∧ o.home.map (·.1) = some k))).map (·.id) :=
        List.mem_map_of_mem (List.mem_filter.2 ⟨am.1, by simp [hk]⟩)
      have h2 := (List.nodup_append.1 hnd).2.2 r.id h1 r.id (List.mem_cons_self ..)
      exact h2 rfl
    · have s1' : a ∈ z.ghosts := s1
      rw [h.ghosts] at s1'
      cases s1'
  refine ⟨z.setPit r.symbolId { (z.pits r.symbolId).land r with heard := .blank }, ?_, h.matching, h.books, h.ghosts, ?_⟩
  · show z.add r = _
    unfold Venue.add
    rw [if_neg (fun h => h hv), if_neg (fun hn => hn (by rw [h.books]; exact hsb)), h.matching, hent]
    unfold Venue.land
    simp only
    rw [if_neg (fun hn => hn.2 hfree)]
    unfold Venue.done
    rw [h.matching]
    rfl
  · intro s hsbs
    show (if s = r.symbolId then _ else z.pits s) = _
    by_cases e : s = r.symbolId
    · subst e
      rw [if_pos rfl]
      unfold Pit.land
      rw [if_pos hrests, hp]
      have : Board.insert (fun k => ps.filter (fun o => decide (o.symbolId = r.symbolId ∧ o.home.map (·.1) = some k))) r =
          fun k => (ps ++ [r]).filter (fun o => decide (o.symbolId = r.symbolId ∧ o.home.map (·.1) = some k)) := by
        funext k'
        unfold Board.insert
        rw [List.filter_append]
        by_cases e' : r.home.map (·.1) = some k'
        · rw [if_pos e', enqueue_end, List.filter_cons, if_pos (by simp [e']), List.filter_nil]
          intro a ha
          rw [hk] at e'
          cases e'
          have hso := lines_sorted hr r.symbolId k
          rw [← hline] at hso
          exact (List.pairwise_append.1 hso).2.2 a ha r (List.mem_cons_self ..)
        · rw [if_neg e', List.filter_cons, if_neg (by simp [e']), List.filter_nil, List.append_nil]
      rw [this]
    · rw [if_neg e, h.pits s hsbs]
      congr 1
      funext k'
      rw [List.filter_append, List.filter_cons, if_neg (by simp; intro h; exact absurd h.symm e), List.filter_nil, List.append_nil]

theorem Restored.all {bs : List Nat} {g : Mgr} (hr : g.Reachable) (hb : ∀ s, g.getBook s ≠ none → s ∈ bs) : ∀ {qs ps : List Order} {z : Venue}, Restored bs ps z →
    g.Saved (ps ++ qs) → (z.results (qs.map .addOrder) = qs.map fun _ => (.ok, [])) ∧ Restored bs (ps ++ qs) (z.after (qs.map .addOrder)) := by
  intro qs
  induction qs with
  | nil => intro ps z h _; exact ⟨rfl, by rw [List.append_nil]; exact h⟩
  | cons r qs ih =>
    intro ps z h hs
    obtain ⟨z', h1, h2⟩ := h.add hr hs hb
    obtain ⟨a1, a2⟩ := ih h2 (by rw [List.append_assoc]; exact hs)
    constructor
    · show ((z.call (.addOrder r)).1, (z.call (.addOrder r)).2.1) :: (z.call (.addOrder r)).2.2.results _ = _
      rw [h1, a1]; rfl
    · show Restored bs _ ((z.call (.addOrder r)).2.2.after _)
      rw [h1]
      rw [List.append_assoc] at a2
      exact a2

theorem logs_records {g g' : Mgr} {l} (h : Mgr.Logs g l g') : Mgr.Records g (l.map fun r => (r.1, r.2.1, execsOf r.2.2)) g' := by
  induction h with
  | nil => exact .nil
  | cons ha hs hev _ ih => exact .cons ha hs hev ih

/-- The lines of one symbol among some orders. -/
def linesOf (s : Nat) (os : List Order) : Board := fun k => os.filter (fun o => decide (o.symbolId = s ∧ o.home.map (·.1) = some k))

theorem linesOf_size (s : Nat) (xs ys : List Order) : (linesOf s (xs ++ ys)).size = (linesOf s xs).size + (linesOf s ys).size := by
  have : ∀ k, ((linesOf s (xs ++ ys) k).map (·.leaves)).sum = ((linesOf s xs k).map (·.leaves)).sum + ((linesOf s ys k).map (·.leaves)).sum := by
    intro k
    unfold linesOf
    rw [List.filter_append, List.map_append, List.sum_append]
  unfold Board.size Kind.all
  simp only [List.map_cons, List.map_nil, List.sum_cons, List.sum_nil, this]
  omega

theorem linesOf_one {r : Order} {k : Kind} (hk : r.home.map (·.1) = some k) : r.leaves ≤ (linesOf r.symbolId [r]).size := by
  have : ((linesOf r.symbolId [r] k).map (·.leaves)).sum = r.leaves := by
    unfold linesOf
    rw [List.filter_cons, if_pos (by simp [hk])]
    simp
  unfold Board.size Kind.all
  simp only [List.map_cons, List.map_nil, List.sum_cons, List.sum_nil]
  cases k <;> omega

theorem Restored.possible {bs : List Nat} {g : Mgr} (hr : g.Reachable) (hb : ∀ s, g.getBook s ≠ none → s ∈ bs) : ∀ {qs ps : List Order} {z : Venue} {h : Mgr}, Restored bs ps z →
    Seats z h → MInv h → g.Saved (ps ++ qs) → ∃ l h', h.Logs l h' ∧ l.map (·.1) = qs.map .addOrder := by
  intro qs
  induction qs with
  | nil => intro ps z h _ _ _ _; exact ⟨[], h, .nil, rfl⟩
  | cons r qs ih =>
    intro ps z h hz hx hi hs
    have hg := hr.minv
    have hgo := hs.orders r (by simp)
    have hok := (hg.orders _ _ (by rw [← hg.getOrder]; exact hgo)).2
    obtain ⟨k, hk⟩ := getOrder_kind hr hgo
    have ha : h.Admissible (.addOrder r) := by
      refine ⟨hok.repr, ?_⟩
      intro b h1
      have hsb : r.symbolId ∈ bs := by
        rw [← hz.books, hx.books]
        rw [show slot h.books r.symbolId = some b from h1]; exact fun h => by cases h
      have e1 := pit_size (hi.inv h1).1
      have e2 := hx.pits _ b h1
      rw [hz.pits _ hsb] at e2
      have e3 : (linesOf r.symbolId ps).size = volume b := by
        rw [show volume b = volume (h.core b).book from rfl, ← e1, ← e2]; rfl
      have hline : linesOf r.symbolId (ps ++ r :: qs) = g.lines r.symbolId := funext fun k => hs.lines r.symbolId k
      cases h2 : g.getBook r.symbolId with
      | none =>
        have := congrFun hline k
        rw [lines_none (g := g) h2] at this
        unfold linesOf at this
        rw [List.filter_append, List.filter_cons, if_pos (by simp [hk])] at this
        simp at this
      | some c =>
        have e4 := pit_size (hg.inv h2).1
        have e5 := (hg.inv h2).1.vol
        have e6 : (g.core c).pit.board = g.lines r.symbolId := (lines_board hg h2).symm
        rw [e6, ← hline, linesOf_size, show r :: qs = [r] ++ qs from rfl, linesOf_size] at e4
        have e7 := linesOf_one hk
        show volume b + r.leaves < W64
        omega
    obtain ⟨h1, e, hstep, _⟩ := step_ok hi _ ha
    have hE := hx.step hi ha hstep
    obtain ⟨z', c1, c2⟩ := hz.add hr hs hb
    obtain ⟨evs, c3, _⟩ := hE.ev
    have hse := hE.seats
    rw [c1] at hse
    obtain ⟨l, h', d1, d2⟩ := ih c2 hse hE.inv (by rw [List.append_assoc]; exact hs)
    exact ⟨_, h', .cons ha hstep c3 d1, by rw [List.map_cons, d2]; rfl⟩

theorem Restored.start {g h : Mgr} {y : Venue} (hy : Seats y h) (hh : MInv h) (hb : h.BlankFor g) : Restored y.books [] y ∧ ∀ s, g.getBook s ≠ none → s ∈ y.books := by
  refine ⟨⟨hy.matching.trans hb.matching, rfl, ?_, ?_⟩, ?_⟩
  · cases hgs : y.ghosts with
    | nil => rfl
    | cons r rs =>
      have := ((hy.ghosts r).1 (by rw [hgs]; exact List.mem_cons_self ..)).1
      rw [← hh.getOrder, hb.noOrder] at this
      cases this
  · intro s h1
    obtain ⟨b, hb1⟩ := Option.ne_none_iff_exists'.1 ((hy.books s).1 h1)
    obtain ⟨p1, p2, p3, p4, p5, p6⟩ := hb.noPrices s b hb1
    rw [hy.pits s b hb1]
    have hline : (h.core b).line = fun _ => [] := by
      funext k
      cases hln : (h.core b).line k with
      | nil => rfl
      | cons r rs =>
        have := ((line_mem (hh.inv hb1).1).1 (show r ∈ (h.core b).line k by rw [hln]; exact List.mem_cons_self ..)).1
        have h2 := hb.noOrder r.id
        rw [hh.getOrder] at h2
        rw [show (h.core b).orders r.id = h.orders r.id from rfl, h2] at this
        cases this
    unfold Core.pit
    rw [hline]
    show (⟨_, ⟨b.lastBid, b.lastAsk⟩, ⟨b.matchBid, b.matchAsk⟩, ⟨b.trailBid, b.trailAsk⟩⟩ : Pit) = _
    rw [p1, p2, p3, p4, p5, p6]
    rfl
  · intro s h1
    rw [hy.books]
    intro h2
    have := hb.title s
    rw [show h.getBook s = none from h2] at this
    exact h1 (Option.map_eq_none_iff.1 this.symm)

/-- C74. The saved orders can be given to the new manager: every call is admissible. -/
theorem C74_restorable {g h : Mgr} (hr : g.Reachable) (hrh : h.Reachable) (hb : h.BlankFor g) {os : List Order} (hs : g.Saved os) :
    ∃ (l : List (Op × ErrorCode × List Event)) (h' : Mgr), h.Logs l h' ∧ l.map (·.1) = os.map .addOrder := by
  obtain ⟨y, hy⟩ := hrh.seats
  obtain ⟨h0, hgb⟩ := Restored.start hy hrh.minv hb
  exact h0.possible hr hgb hy hrh.minv hs

/-- C74. Save the orders in the books of a manager, line by line or in any way that keeps the order of each line, and give them to a new
manager with the same symbols and books (matching off). Every order is accepted without an execution, and the new manager has the same
orders, lines, levels, volumes and best prices. If the first manager had matching off and its books remembered no prices, no sequence of
calls tells the two apart. -/
theorem C74_restore {g h h' : Mgr} (hr : g.Reachable) (hrh : h.Reachable) (hb : h.BlankFor g) {os : List Order} (hs : g.Saved os)
    (hn : ∀ id o, g.getOrder id = some o → g.getBook o.symbolId ≠ none)
    {l : List (Op × ErrorCode × List Event)} (hl : h.Logs l h') (hc : l.map (·.1) = os.map .addOrder) :
    (∀ r ∈ l, r.2.1 = .ok ∧ execsOf r.2.2 = []) ∧ (∀ id, h'.getOrder id = g.getOrder id) ∧ (∀ s, h'.lines s = g.lines s) ∧
    (∀ s, (h'.getBook s).map (fun b => (b.symbol, b.lv, b.best)) = (g.getBook s).map (fun b => (b.symbol, b.lv, b.best))) ∧
    (g.matching = false → (∀ s b, g.getBook s = some b → b.NoPrices) → g.Equivalent h') := by
  obtain ⟨y, hy⟩ := hrh.seats
  have hg := hr.minv
  have hh := hrh.minv
  obtain ⟨h0, hgb⟩ := Restored.start hy hh hb
  obtain ⟨a1, a2⟩ := h0.all hr hgb (qs := os) hs
  obtain ⟨b1, b2, b3⟩ := hy.records hh (logs_records hl)
  have hops : (l.map fun r => (r.1, r.2.1, execsOf r.2.2)).map (·.1) = os.map Op.addOrder := by rw [List.map_map]; exact hc
  rw [hops] at b1 b3
  rw [a1] at b1
  have codes : ∀ r ∈ l, r.2.1 = .ok ∧ execsOf r.2.2 = [] := by
    intro r h1
    have h2 : (r.2.1, execsOf r.2.2) ∈ (l.map fun r => (r.1, r.2.1, execsOf r.2.2)).map (·.2) := by
      rw [List.map_map]; exact List.mem_map_of_mem (f := (·.2) ∘ fun r : Op × ErrorCode × List Event => (r.1, r.2.1, execsOf r.2.2)) h1
    rw [b1] at h2
    obtain ⟨_, _, h3⟩ := List.mem_map.1 h2
    exact ⟨(Prod.mk.inj h3).1.symm, (Prod.mk.inj h3).2.symm⟩
  -- titles
  have htitle : (∀ s, h'.getSymbol s = h.getSymbol s) ∧ ∀ s, (h'.getBook s).map (·.symbol) = (h.getBook s).map (·.symbol) := by
    have key : ∀ {a g : Mgr} {l}, MInv a → a.Logs l g → (∀ r ∈ l, ¬ r.1.isRegistry) →
        (∀ s, g.getSymbol s = a.getSymbol s) ∧ ∀ s, (g.getBook s).map (·.symbol) = (a.getBook s).map (·.symbol) := by
      intro a g l ha hl
      induction hl with
      | nil => exact fun _ => ⟨fun _ => rfl, fun _ => rfl⟩
      | cons hm hs _ _ ih =>
        intro hn
        obtain ⟨k1, k2⟩ := titles_kept ha hm hs (hn _ (List.mem_cons_self ..))
        obtain ⟨k3, k4⟩ := ih ((step_eff ha hm hs).minv ha hm) (fun r hr => hn r (List.mem_cons_of_mem _ hr))
        exact ⟨fun s => (k3 s).trans (k1 s), fun s => (k4 s).trans (k2 s)⟩
    refine key hh hl fun r h1 => ?_
    have h2 : r.1 ∈ l.map (·.1) := List.mem_map_of_mem h1
    rw [hc] at h2
    obtain ⟨o, _, h3⟩ := List.mem_map.1 h2
    rw [← h3]
    exact fun h => h
  have hbook : ∀ s, (h'.getBook s).map (·.symbol) = (g.getBook s).map (·.symbol) := fun s => (htitle.2 s).trans (hb.title s)
  -- lines
  have hpit : ∀ s b, h'.getBook s = some b → (h'.core b).pit = ⟨g.lines s, .blank, .blank, .blank⟩ := by
    intro s b h1
    have h2 : s ∈ y.books := by
      rw [← a2.books]
      rw [b3.books]
      rw [show slot h'.books s = some b from h1]; exact fun h => by cases h
    rw [← b3.pits s b h1, a2.pits s h2]
    congr 1
    funext k
    exact hs.lines s k
  have hlines : ∀ s, h'.lines s = g.lines s := by
    intro s
    cases h1 : h'.getBook s with
    | none =>
      have := hbook s
      rw [h1] at this
      funext k
      rw [lines_none (g := h') h1, lines_none (g := g) (Option.map_eq_none_iff.1 this.symm)]
    | some b =>
      rw [lines_board b2 h1]
      exact congrArg (·.board) (hpit s b h1)
  have horders : ∀ id, h'.orders id = g.orders id := by
    have sub : ∀ id o, h'.orders id = some o → g.orders id = some o := by
      intro id o h1
      have hid := (b2.orders id o h1).1
      have h2 : o ∈ (y.after (os.map .addOrder)).orders := (b3.orders b2 o).2 (by rw [hid]; exact h1)
      rw [venue_orders] at h2
      rcases h2 with ⟨s, s1, s2⟩ | s1
      · rw [a2.pits s (by rw [← a2.books]; exact s1)] at s2
        obtain ⟨k, hk⟩ := board_orders.1 s2
        have := hs.orders o (List.mem_filter.1 hk).1
        rw [hg.getOrder, hid] at this
        exact this
      · rw [a2.ghosts] at s1; cases s1
    intro id
    cases h1 : h'.orders id with
    | some o => exact (sub id o h1).symm
    | none =>
      cases h2 : g.orders id with
      | none => rfl
      | some o =>
        exfalso
        have h2' : g.getOrder id = some o := by rw [hg.getOrder]; exact h2
        have hid := (hg.orders id o h2).1
        obtain ⟨k, hk⟩ := getOrder_kind hr h2'
        have hm := (lines_complete hr (hn id o h2') (r := o) (k := k)).2 ⟨by rw [hid]; exact h2', rfl, hk⟩
        rw [← hlines] at hm
        cases h3 : h'.getBook o.symbolId with
        | none => rw [lines_none (g := h') h3] at hm; cases hm
        | some b =>
          rw [lines_board b2 h3] at hm
          have := ((line_mem (b2.inv h3).1).1 hm).1
          rw [hid] at this
          rw [show (h'.core b).orders id = h'.orders id from rfl, h1] at this
          cases this
  refine ⟨codes, fun id => by rw [b2.getOrder, hg.getOrder]; exact horders id, hlines, ?_, ?_⟩
  · intro s
    have ht := hbook s
    cases h1 : g.getBook s with
    | none =>
      rw [h1] at ht
      rw [Option.map_eq_none_iff.1 ht]
    | some b =>
      cases h2 : h'.getBook s with
      | none => rw [h1, h2] at ht; cases ht
      | some b' =>
        rw [h1, h2] at ht
        have hsym := Option.some.inj ht
        have i1 := (hg.inv h1).1
        have i2 := (b2.inv h2).1
        have hl1 : (h'.core b').line = (g.core b).line := by rw [← lines_board b2 h2, ← lines_board hg h1]; exact hlines s
        have hlv : b'.lv = b.lv := by
          funext k
          have hq : flatOf (b'.lv k) = flatOf (b.lv k) := by
            show queue (h'.core b').book k = queue (g.core b).book k
            rw [← queue_of_line i2, ← queue_of_line i1, hl1]
          have k1 := i1.book.kinds k
          have k2 := i2.book.kinds k
          rw [show (g.core b).orders = (h'.core b').orders from (funext horders).symm, show (g.core b).book.symbol.id = (h'.core b').book.symbol.id from congrArg (·.id) hsym.symm] at k1
          exact levels_determined k2.sorted k1.sorted k2.levels k1.levels hq
        have hbest : b'.best = b.best := by
          funext k
          have k1 := (i1.book.kinds k).best
          have k2 := (i2.book.kinds k).best
          have e1 : b.best k = (b.lv k).head?.map (·.price) := k1
          have e2 : b'.best k = (b'.lv k).head?.map (·.price) := k2
          rw [e1, e2, hlv]
        have hsym' : b'.symbol = b.symbol := hsym
        simp only [Option.map_some, hsym', hlv, hbest]
  · intro hm hp
    refine Mgr.Alike.equivalent (Mgr.SameLines.alike ⟨?_, fun s => ?_, fun s => (hbook s).symm, fun id => ?_, fun s => (hlines s).symm, ?_, ?_, ?_⟩ hg b2) hg b2
    · rw [hm, ← b3.matching, a2.matching]
    · rw [htitle.1, hb.symbol]
    · rw [hg.getOrder, b2.getOrder, horders]
    all_goals
      intro s b c h1 h2
      obtain ⟨p1, p2, p3, p4, p5, p6⟩ := hp s b h1
      have hq := hpit s c h2
      unfold Core.pit at hq
      simp only [Pit.mk.injEq] at hq
      obtain ⟨_, q1, q2, q3⟩ := hq
      have q1' : (⟨c.lastBid, c.lastAsk⟩ : Quotes) = ⟨0, MAX64⟩ := q1
      have q2' : (⟨c.matchBid, c.matchAsk⟩ : Quotes) = ⟨0, MAX64⟩ := q2
      have q3' : (⟨c.trailBid, c.trailAsk⟩ : Quotes) = ⟨0, MAX64⟩ := q3
      simp only [Quotes.mk.injEq] at q1' q2' q3'
    · exact ⟨p1.trans q1'.1.symm, p2.trans q1'.2.symm⟩
    · exact ⟨p3.trans q2'.1.symm, p4.trans q2'.2.symm⟩
    · exact ⟨p5.trans q3'.1.symm, p6.trans q3'.2.symm⟩

/-! The hypotheses are met. -/

theorem filter_flatMap_none {α β : Type} {p : β → Bool} {f : α → List β} : ∀ {xs : List α}, (∀ x ∈ xs, (f x).filter p = []) → (xs.flatMap f).filter p = []
  | [], _ => rfl
  | x :: xs, h => by
    rw [List.flatMap_cons, List.filter_append, h x (List.mem_cons_self ..), filter_flatMap_none fun y hy => h y (List.mem_cons_of_mem _ hy)]; rfl

theorem filter_flatMap_one {α β : Type} {p : β → Bool} {f : α → List β} {a : α} : ∀ {xs : List α}, xs.Nodup → a ∈ xs → (∀ x ∈ xs, x ≠ a → (f x).filter p = []) →
    (xs.flatMap f).filter p = (f a).filter p
  | [], _, h, _ => by cases h
  | x :: xs, hn, hm, h => by
    rw [List.flatMap_cons, List.filter_append]
    obtain ⟨n1, n2⟩ := List.nodup_cons.1 hn
    rcases List.mem_cons.1 hm with rfl | hm
    · rw [filter_flatMap_none fun y hy => h y (List.mem_cons_of_mem _ hy) (by rintro rfl; exact n1 hy), List.append_nil]
    · rw [h x (List.mem_cons_self ..) (by rintro rfl; exact n1 hm), filter_flatMap_one n2 hm fun y hy => h y (List.mem_cons_of_mem _ hy)]
      rfl

/-- C74. Reading the lines of all books one after the other saves the orders. -/
theorem C74_saved {g : Mgr} (hr : g.Reachable) : g.Saved ((List.range g.books.length).flatMap fun s => Kind.all.flatMap fun k => g.lines s k) := by
  have hi := hr.minv
  have mem : ∀ {s k o}, o ∈ g.lines s k → g.getOrder o.id = some o ∧ o.symbolId = s ∧ o.home.map (·.1) = some k := by
    intro s k o ho
    refine (lines_complete hr ?_).1 ho
    intro hn
    rw [lines_none (g := g) hn] at ho
    cases ho
  constructor
  · intro o ho
    obtain ⟨s, _, h1⟩ := List.mem_flatMap.1 ho
    obtain ⟨k, _, h2⟩ := List.mem_flatMap.1 h1
    exact (mem h2).1
  · intro s k
    by_cases hs : s < g.books.length
    · rw [filter_flatMap_one List.nodup_range (List.mem_range.2 hs), filter_flatMap_one (a := k) (by decide) k.mem_all]
      · rw [List.filter_eq_self]
        intro o ho
        exact decide_eq_true (mem ho).2
      · intro k' _ hk
        rw [List.filter_eq_nil_iff]
        intro o ho
        have := (mem ho).2.2
        simp only [decide_eq_true_eq]
        rintro ⟨_, h⟩
        rw [this] at h
        exact hk (Option.some.inj h)
      · intro s' _ hss
        refine filter_flatMap_none fun k' _ => ?_
        rw [List.filter_eq_nil_iff]
        intro o ho
        have := (mem ho).2.1
        simp only [decide_eq_true_eq]
        rintro ⟨h, _⟩
        exact hss (this.symm.trans h)
    · rw [lines_none (g := g) (slot_none_of_len (Nat.le_of_not_lt hs))]
      refine filter_flatMap_none fun s' hs' => filter_flatMap_none fun k' _ => ?_
      rw [List.filter_eq_nil_iff]
      intro o ho
      have := (mem ho).2.1
      simp only [decide_eq_true_eq]
      rintro ⟨h, _⟩
      have h3 := List.mem_range.1 hs'
      omega

theorem logs_reachable {g g' : Mgr} {l} (h : Mgr.Logs g l g') : g.Reachable → g'.Reachable := by
  induction h with
  | nil => exact fun h => h
  | cons ha hs _ _ ih => exact fun h => ih (h.step ha hs)

/-- One symbol with an empty book. -/
def openedMgr : Mgr := ⟨[none, some ⟨1, 7⟩], [none, some (Book.new ⟨1, 7⟩)], fun _ => none, false, [.addSymbol ⟨1, 7⟩, .addBook ⟨1, 7⟩]⟩

theorem opened_book {s : Nat} {b : Book} (h : openedMgr.getBook s = some b) : s = 1 ∧ b = Book.new ⟨1, 7⟩ := by
  unfold Mgr.getBook slot openedMgr at h
  match s with
  | 0 => cases h
  | 1 => cases h; exact ⟨rfl, rfl⟩
  | s + 2 => simp at h

/-- Six orders entered while matching is off, some of them changed later; the book is crossed. -/
def unmatched : List Op := [.addOrder (.mkLimit 1 1 .buy 101 10), .addOrder (.mkLimit 2 1 .sell 100 30 .gtc 10), .addOrder (.mkLimit 3 1 .buy 101 4 .aon),
  .addOrder (.mkStop 4 1 .sell 95 8), .addOrder (.mkTrailingStop 5 1 .buy 120 6 10 5), .addOrder (.mkStopLimit 6 1 .sell 95 94 7 .ioc), .addOrder (.mkLimit 7 1 .buy 102 3),
  .reduceOrder 2 5, .modifyOrder 1 101 12, .deleteOrder 7]

/-- C73 and C74 apply: these orders are saved, and restored in a new manager. -/
example : ∃ (g h h' : Mgr) (os : List Order) (l : List (Op × ErrorCode × List Event)), g.Reachable ∧ h.Reachable ∧ h.BlankFor g ∧ g.Saved os ∧ os.length = 6 ∧
    os.map (·.id) ≠ [1, 2, 3, 4, 5, 6] ∧ (∀ id o, g.getOrder id = some o → g.getBook o.symbolId ≠ none) ∧ h.Logs l h' ∧ l.map (·.1) = os.map .addOrder ∧
    g.matching = false ∧ (∀ s b, g.getBook s = some b → b.NoPrices) ∧ g.Equivalent h' := by
  have ho : openedMgr.Reachable ∧ True := by
    obtain ⟨l, h1, _⟩ := checkRun_records (g' := openedMgr) .init (fun _ _ => rfl) (show checkRun true Mgr.init opening = some openedMgr by rfl)
    obtain ⟨_, h2, _⟩ := records_logs h1
    exact ⟨logs_reachable h2 .init, trivial⟩
  obtain ⟨g, l, h1, h2, h3⟩ : ∃ g l, Mgr.Logs openedMgr l g ∧ l.map (·.1) = unmatched ∧
      (decide (((List.range g.books.length).flatMap fun s => Kind.all.flatMap fun k => g.lines s k).map (·.id) = [3, 1, 2, 4, 6, 5]) && !g.matching &&
        (g.getBook 1).any (fun b => decide (b.lastBid = 0 ∧ b.lastAsk = MAX64 ∧ b.matchBid = 0 ∧ b.matchAsk = MAX64 ∧ b.trailBid = 0 ∧ b.trailAsk = MAX64))) = true := by
    cases hc : checkRun true openedMgr unmatched with
    | none => exact absurd hc (by
        have : (checkRun true openedMgr unmatched).isSome = true := by decide +kernel
        intro h; rw [h] at this; cases this)
    | some g =>
      obtain ⟨l, a1, a2⟩ := checkRun_records ho.1 (fun _ _ => rfl) hc
      obtain ⟨ll, a3, a4⟩ := records_logs a1
      refine ⟨g, ll, a3, a4.trans a2, ?_⟩
      have : (checkRun true openedMgr unmatched).any (fun g => (decide (((List.range g.books.length).flatMap fun s => Kind.all.flatMap fun k => g.lines s k).map (·.id) = [3, 1, 2, 4, 6, 5]) && !g.matching &&
        (g.getBook 1).any (fun b => decide (b.lastBid = 0 ∧ b.lastAsk = MAX64 ∧ b.matchBid = 0 ∧ b.matchAsk = MAX64 ∧ b.trailBid = 0 ∧ b.trailAsk = MAX64)))) = true := by decide +kernel
      rw [hc] at this
      exact this
  simp only [Bool.and_eq_true, decide_eq_true_eq, Bool.not_eq_true'] at h3
  obtain ⟨⟨h4, h5⟩, h6⟩ := h3
  have hreg : ∀ r ∈ l, ¬ r.1.isRegistry := by
    intro r hr
    have : r.1 ∈ l.map (·.1) := List.mem_map_of_mem hr
    rw [h2] at this
    revert this
    generalize r.1 = op
    intro hm
    simp only [unmatched, List.mem_cons, List.not_mem_nil, or_false] at hm
    rcases hm with rfl | rfl | rfl | rfl | rfl | rfl | rfl | rfl | rfl | rfl <;> exact fun h => h
  have key : ∀ {a g : Mgr} {l}, a.Reachable → a.Logs l g → a.Housed [] → (∀ r ∈ l, ¬ r.1.isRegistry) →
      g.Reachable ∧ g.Housed [] ∧ (∀ s, g.getSymbol s = a.getSymbol s) ∧ ∀ s, (g.getBook s).map (·.symbol) = (a.getBook s).map (·.symbol) := by
    intro a g l ha hl
    induction hl with
    | nil => exact fun h _ => ⟨ha, h, fun _ => rfl, fun _ => rfl⟩
    | cons hm hs _ _ ih =>
      rename_i op _ _ _ _ _
      intro hh hn
      have hno := hn _ (List.mem_cons_self ..)
      obtain ⟨k1, k2⟩ := titles_kept ha.minv hm hs hno
      have h7 := step_housed ha hm hs hh
      have h8 : op.removes = [] := by cases op <;> first | rfl | exact absurd trivial hno
      rw [h8] at h7
      obtain ⟨k5, k6, k3, k4⟩ := ih (ha.step hm hs) h7 (fun r hr => hn r (List.mem_cons_of_mem _ hr))
      exact ⟨k5, k6, fun s => (k3 s).trans (k1 s), fun s => (k4 s).trans (k2 s)⟩
  obtain ⟨k1, k2, k3, k4⟩ := key ho.1 h1 (fun i o h => by cases h) hreg
  have hb : openedMgr.BlankFor g := by
    refine ⟨rfl, fun s => (k3 s).symm, fun s => (k4 s).symm, fun id => ?_, fun s b hb => ?_⟩
    · unfold Mgr.getOrder; split <;> rfl
    · obtain ⟨_, rfl⟩ := opened_book hb
      exact ⟨rfl, rfl, rfl, rfl, rfl, rfl⟩
  have hn : ∀ id o, g.getOrder id = some o → g.getBook o.symbolId ≠ none := by
    intro id o h
    rw [k1.minv.getOrder] at h
    exact (k2 id o h).elim (fun h => h) (fun h => by cases h)
  have hp : ∀ s b, g.getBook s = some b → b.NoPrices := by
    intro s b hb
    have h7 := k4 s
    rw [hb] at h7
    cases h8 : openedMgr.getBook s with
    | none => rw [h8] at h7; cases h7
    | some c =>
      obtain ⟨rfl, _⟩ := opened_book h8
      rw [hb] at h6
      unfold Book.NoPrices
      simpa using h6
  have hsv := C74_saved k1
  obtain ⟨l', h', m1, m2⟩ := C74_restorable k1 ho.1 hb hsv
  obtain ⟨_, _, _, _, m3⟩ := C74_restore k1 ho.1 hb hsv hn m1 m2
  refine ⟨g, openedMgr, h', _, l', k1, ho.1, hb, hsv, ?_, by rw [h4]; decide, hn, m1, m2, h5, hp, m3 h5 hp⟩
  have := congrArg List.length h4
  rw [List.length_map] at this
  exact this

/-- C73, the remembered prices are needed: two managers without any order, one of which has seen an execution at 100. The same two calls put
the stop price of a trailing order at 90 in that one, and leave it at 50 in the other. -/
theorem C73_prices_witness : ∃ (g h g' h' : Mgr) (l l' : List (Op × ErrorCode × List Event)), g.Reachable ∧ h.Reachable ∧ (∀ s k, g.lines s k = []) ∧ (∀ s k, h.lines s k = []) ∧
    g.Logs l g' ∧ h.Logs l' h' ∧ l.map (·.1) = l'.map (·.1) ∧ (g'.getOrder 4).map (·.stopPrice) = some 90 ∧ (h'.getOrder 4).map (·.stopPrice) = some 50 := by
  have key : ∀ (ops : List Op) (n : Nat), (checkRun true Mgr.init ops).any (fun g => decide (g.books.length = 2) && Kind.all.all (fun k => decide (g.lines 0 k = [] ∧ g.lines 1 k = [])) &&
        (checkRun true Mgr.init (ops ++ [.addOrder (.mkLimit 3 1 .buy 100 5), .addOrder (.mkTrailingStop 4 1 .sell 50 6 10)])).any (fun g => decide ((g.getOrder 4).map (·.stopPrice) = some n))) = true →
      ∃ (g g' : Mgr) (l : List (Op × ErrorCode × List Event)), g.Reachable ∧ (∀ s k, g.lines s k = []) ∧ g.Logs l g' ∧
        l.map (·.1) = [.addOrder (.mkLimit 3 1 .buy 100 5), .addOrder (.mkTrailingStop 4 1 .sell 50 6 10)] ∧ (g'.getOrder 4).map (·.stopPrice) = some n := by
    intro ops n hn
    obtain ⟨g, l, h1, h2, h3⟩ := checkRun_logs hn
    simp only [Bool.and_eq_true] at h3
    obtain ⟨⟨h4, h5⟩, h6⟩ := h3
    obtain ⟨g', l', a1, a2, a3⟩ := checkRun_logs h6
    have split : ∀ {l1 : List Op} {g g' : Mgr} {l}, g.Logs l g' → ∀ {l2}, l.map (·.1) = l1 ++ l2 → ∃ m la lb, g.Logs la m ∧ m.Logs lb g' ∧ la.map (·.1) = l1 ∧ lb.map (·.1) = l2 := by
      intro l1
      induction l1 with
      | nil => intro g g' l hl l2 e; exact ⟨g, [], l, .nil, hl, rfl, e⟩
      | cons op l1 ih =>
        intro g g' l hl l2 e
        cases hl with
        | nil => cases e
        | cons ha hs hev hl =>
          rw [List.map_cons, List.cons_append] at e
          obtain ⟨e1, e2⟩ := List.cons.inj e
          obtain ⟨m, la, lb, b1, b2, b3, b4⟩ := ih hl e2
          exact ⟨m, _ :: la, lb, .cons ha hs hev b1, b2, by rw [List.map_cons, b3, e1], b4⟩
    obtain ⟨m, la, lb, b1, b2, b3, b4⟩ := split a1 a2
    obtain ⟨_, rfl⟩ := logs_function h1 b1 (h2.trans b3.symm)
    refine ⟨g, g', lb, logs_reachable h1 .init, ?_, b2, b4, of_decide_eq_true a3⟩
    intro s k
    have h7 := of_decide_eq_true (List.all_eq_true.1 h5 k k.mem_all)
    match s with
    | 0 => exact h7.1
    | 1 => exact h7.2
    | s + 2 => 
      have h8 : g.books.length = 2 := of_decide_eq_true h4
      exact lines_none (g := g) (sym := s + 2) (slot_none_of_len (by omega)) k
  obtain ⟨g, g', l, a1, a2, a3, a4, a5⟩ := key (trading ++ [.addOrder (.mkLimit 1 1 .sell 100 5), .addOrder (.mkLimit 2 1 .buy 100 5)]) 90 (by decide +kernel)
  obtain ⟨h, h', l', b1, b2, b3, b4, b5⟩ := key trading 50 (by decide +kernel)
  exact ⟨g, h, g', h', l, l', a1, b1, a2, b2, a3, b3, a4.trans b4.symm, a5, b5⟩

end CppTrader
