import Verif.Proof.Live
import Verif.Props.Prices
import Verif.Props.Textbook
/-
C81: the highest numbers of levels and of orders at a level.
-/

namespace CppTrader
namespace Moment

/-- A moment at which the books are in order. -/
def Tidy (x : Mgr) : Prop := ∀ s b sd, x.getBook s = some b → Sorted (sideKind sd) (b.lv (sideKind sd))

theorem trail_of {new : Option Nat} {g : Mgr} (pre : List Event) : ∀ (news : List Event) (seen : List Mgr) (d : List Event), seen.length = news.length →
    (∀ i x, seen[i]? = some x → x.ev = pre ++ (d ++ news.take (i + 1)) ∧ Glimpse new g (d ++ news.take (i + 1)) x) →
    Trail (d.foldl LevelView.next g.levels) news seen := by
  intro news
  induction news with
  | nil =>
    intro seen d hl _
    cases seen with
    | nil => exact .nil
    | cons x xs => cases hl
  | cons e es ih =>
    intro seen d hl h
    cases seen with
    | nil => cases hl
    | cons x xs =>
      obtain ⟨h1, h2⟩ := h 0 x rfl
      have ht : d ++ (e :: es).take (0 + 1) = d ++ [e] := by simp
      rw [ht] at h1 h2
      have hn : (d ++ [e]).foldl LevelView.next g.levels = (d.foldl LevelView.next g.levels).next e := by
        rw [List.foldl_append]; rfl
      refine .cons ?_ ?_ ?_ ?_ ?_
      · rw [h1, ← List.append_assoc, List.getLast?_concat]
      · rw [← hn]; exact h2.levels
      · intro s b sd hb; exact h2.sorted s b (sideKind sd) hb
      · intro s l t he
        exact h2.first s l t (by rw [List.getLast?_concat, he])
      · rw [← hn]
        refine ih xs (d ++ [e]) (by simpa using hl) ?_
        intro i y hy
        have := h (i + 1) y hy
        rw [show d ++ (e :: es).take (i + 1 + 1) = d ++ [e] ++ es.take (i + 1) by simp] at this
        exact this

theorem minv_tidy {g : Mgr} (hi : MInv g) : Tidy g :=
  fun _ _ sd hb => ((hi.inv hb).1.book.kinds (sideKind sd)).sorted

theorem levels_same {x g : Mgr} (h : x.books = g.books) : x.levels = g.levels := by
  unfold Mgr.levels Mgr.getBook; rw [h]

theorem tidy_same {x g : Mgr} (h : x.books = g.books) (ht : Tidy g) : Tidy x := by
  intro s b sd hb
  unfold Mgr.getBook at hb
  rw [h] at hb
  exact ht s b sd hb

/-- A callback of the registry. -/
def _root_.CppTrader.Event.notBookish : Event → Prop
  | .addSymbol _ | .deleteSymbol _ | .addBook _ | .deleteBook _ => True
  | _ => False

/-- What a call does to the counters. -/
structure Counted (c : Live) (g g' : Mgr) (seen : List Mgr) : Prop where
  done : Bounds (seen.foldl Live.see c) g'.levels
  each : ∀ x ∈ seen, Bounds (seen.foldl Live.see c) x.levels ∧ Tidy x
  told : ∀ x ∈ seen, ∀ s l t, x.ev.getLast? = some (.updateLevel s l t) → x.levels s l.isBid l.price = some l
  log : ∃ news, g'.ev = g.ev ++ news ∧ seen.map (·.ev.getLast?) = news.map some

theorem set_get (v : LevelView) (s : Nat) (l : LevelInfo) (t : Bool) : v.next (.updateLevel s l t) s l.isBid l.price = some l := by
  show LevelView.set _ _ _ s l.isBid l.price = some l
  unfold LevelView.set
  rw [if_pos rfl]
  unfold BookView.set
  rw [if_pos ⟨rfl, rfl⟩]

theorem Trail.told {v : LevelView} {es : List Event} {xs : List Mgr} (ht : Trail v es xs) :
    ∀ x ∈ xs, ∀ s l t, x.ev.getLast? = some (.updateLevel s l t) → x.levels s l.isBid l.price = some l := by
  induction ht with
  | nil => intro x hx; cases hx
  | @cons v ev es y ys last lev _ _ _ ih =>
    intro x hx s l t hlast
    rcases List.mem_cons.1 hx with e' | e'
    · rw [e', last] at hlast
      rw [e', lev, Option.some.inj hlast]
      exact set_get _ _ _ _
    · exact ih x e' s l t hlast

theorem Trail.log {v : LevelView} {es : List Event} {xs : List Mgr} (ht : Trail v es xs) : xs.map (·.ev.getLast?) = es.map some := by
  induction ht with
  | nil => rfl
  | @cons v ev es y ys last lev _ _ _ ih => rw [List.map_cons, List.map_cons, last, ih]

theorem call_counted {g : Mgr} (hr : g.Reachable) {op : Op} (ha : g.Admissible op) {g' : Mgr} {e : ErrorCode} {seen : List Mgr}
    (hs : g.step op = .ok (g', e)) (hw : g.watch op = .ok (g', e, seen)) {c : Live} (hb : Bounds c g.levels) : Counted c g g' seen := by
  by_cases hn : op.isRegistry
  · obtain ⟨seen', h1, h2, h3⟩ := C80_registry hn hs
    rw [hw] at h1
    cases h1
    have hr' : g'.Reachable := hr.step ha hs
    have key : ∀ (x : Mgr) (ev : Event), e = .ok → x.ev = g.ev ++ [ev] → g'.ev = g.ev ++ [ev] → ev.notBookish → (x.levels = g.levels ∨ x = g') → Tidy x → seen = [x] →
        Counted c g g' seen := by
      intro x ev _ hx hg he hlx htx hseen
      have hlev : g'.levels = g.levels.next ev := replays_fold _ (C24_level_feed hr ha hs hg)
      have hb' : Bounds c g'.levels := by
        rw [hlev]
        cases ev with
        | deleteBook sym =>
          have sub : ∀ s sd p i, g.levels.next (.deleteBook sym) s sd p = some i → g.levels s sd p = some i := by
            intro s sd p i hi
            change LevelView.set _ _ _ s sd p = some i at hi
            unfold LevelView.set at hi
            split at hi
            · cases hi
            · exact hi
          refine ⟨fun s sd ps hn hp => hb.levels s sd ps hn (fun p h => ?_), fun s sd p i hi => hb.queue s sd p i (sub s sd p i hi)⟩
          cases hz : g.levels.next (.deleteBook sym) s sd p with
          | none => exact absurd hz (hp p h)
          | some i => rw [sub s sd p i hz]; simp
        | _ => first | exact hb | cases he
      have hlast : x.ev.getLast? = some ev := by rw [hx, List.getLast?_concat]
      have habove := see_above c x
      subst hseen
      refine ⟨hb'.mono habove, ?_, ?_, [ev], hg, ?_⟩
      · intro y hy
        rw [List.mem_singleton.1 hy]
        refine ⟨?_, htx⟩
        rcases hlx with h | h
        · rw [h]; exact hb.mono habove
        · rw [h]; rw [h] at habove; exact hb'.mono habove
      · intro y hy s l t h
        rw [List.mem_singleton.1 hy, hlast] at h
        rw [Option.some.inj h] at he
        cases he
      · rw [List.map_singleton, hlast]; rfl
    have heff := hr.eff ha hs
    cases heff with
    | refused h =>
      obtain ⟨e1, e2, _⟩ := h
      rw [h2 e2, e1]
      exact ⟨hb, (fun x hx => by cases hx), (fun x hx => by cases hx), [], by simp, rfl⟩
    | addSymbol =>
      obtain ⟨x, hx1, hx2, _, _, hx5, _⟩ := h3 rfl
      exact key x _ rfl hx2 rfl trivial (.inr (hx5 (.inl ⟨_, rfl⟩))) (by rw [hx5 (.inl ⟨_, rfl⟩)]; exact minv_tidy hr'.minv) hx1
    | deleteSymbol =>
      obtain ⟨x, hx1, hx2, _, _, _, hx6⟩ := h3 rfl
      have hbk := (hx6 (.inl ⟨_, rfl⟩)).2
      exact key x _ rfl hx2 rfl trivial (.inl (levels_same hbk)) (tidy_same hbk (minv_tidy hr.minv)) hx1
    | addBook =>
      obtain ⟨x, hx1, hx2, _, _, hx5, _⟩ := h3 rfl
      exact key x _ rfl hx2 rfl trivial (.inr (hx5 (.inr ⟨_, rfl⟩))) (by rw [hx5 (.inr ⟨_, rfl⟩)]; exact minv_tidy hr'.minv) hx1
    | deleteBook =>
      obtain ⟨x, hx1, hx2, _, _, _, hx6⟩ := h3 rfl
      have hbk := (hx6 (.inr ⟨_, rfl⟩)).2
      exact key x _ rfl hx2 rfl trivial (.inl (levels_same hbk)) (tidy_same hbk (minv_tidy hr.minv)) hx1
    | book on h => cases op <;> first | exact absurd hn (fun h => h) | exact absurd on (by simp [Op.on])
    | replaceWith => cases hn
    | enable => cases hn
    | disable => cases hn
    | all => cases hn
  · obtain ⟨news, seen', h1, h2, h3, h4⟩ := C80_callbacks hr hn hs
    rw [hw] at h1
    cases h1
    have ht : Trail g.levels news seen := trail_of (new := op.adds) (g := g) g.ev news seen [] h3 (fun i x hx => by
      obtain ⟨a, _, b⟩ := h4 i x hx
      exact ⟨a, b⟩)
    obtain ⟨r1, r2⟩ := trail_bounds (C48_book_feed hr ha hs h2 hn) ht hb
    refine ⟨?_, ?_, ?_, news, h2, ?_⟩
    · rw [replays_fold _ (C24_level_feed hr ha hs h2)]; exact r1
    · intro x hx
      refine ⟨r2 x hx, ?_⟩
      obtain ⟨i, hi⟩ := List.getElem?_of_mem hx
      obtain ⟨_, _, b⟩ := h4 i x hi
      exact fun s b' sd hb => b.sorted s b' (sideKind sd) hb
    · exact ht.told
    · exact ht.log

/-! ### Sessions -/

theorem bounds_apply {c : Live} {x : Mgr} (h : Bounds c x.levels) (ht : Tidy x) {s : Nat} {b : Book} (hb : x.getBook s = some b) (sd : Bool) :
    (b.lv (sideKind sd)).length ≤ c.stats.maxLevels ∧ ∀ l ∈ b.lv (sideKind sd), l.count ≤ max 1 c.maxQueue := by
  have hl := getBook_levels hb
  refine ⟨book_atMost (ht s b sd hb) (by rw [← hl]; exact h.levels s sd), ?_⟩
  intro l hlm
  refine h.queue s sd l.price (Level.info (sideKind sd) l) ?_
  obtain ⟨as, bs, hsp⟩ := List.append_of_mem hlm
  have hst := ht s b sd hb
  rw [hsp] at hst
  rw [hl, view_at, hsp, findLevel_mid (sorted_mid hst)]
  rfl

/-- The counters are reached at some moment. -/
def Reached (c : Live) (xs : List Mgr) : Prop :=
  (c.stats.maxLevels = 0 ∨ ∃ x ∈ xs, ∃ s b sd, x.getBook s = some b ∧ (b.lv (sideKind sd)).length = c.stats.maxLevels) ∧
  (c.maxQueue = 0 ∨ ∃ x ∈ xs, ∃ s b sd l, x.getBook s = some b ∧ l ∈ b.lv (sideKind sd) ∧ l.count = c.maxQueue)

theorem reached_see {c : Live} {x : Mgr} {xs : List Mgr} (hx : x ∈ xs) (hc : Reached c xs)
    (ht : ∀ s l t, x.ev.getLast? = some (.updateLevel s l t) → x.levels s l.isBid l.price = some l) : Reached (c.see x) xs := by
  cases h : x.ev.getLast? with
  | none => unfold Live.see; rw [h]; exact hc
  | some e =>
    rw [see_of h]
    cases e with
    | updateBook sym t =>
      unfold Live.count
      dsimp only
      cases hb : x.getBook sym with
      | none => exact hc
      | some b =>
        refine ⟨?_, hc.2⟩
        dsimp only [Stats.updateBook]
        by_cases h1 : (b.lv .bid).length ≥ max (b.lv .ask).length c.stats.maxLevels
        · right; exact ⟨x, hx, sym, b, true, hb, by show (b.lv .bid).length = _; omega⟩
        · by_cases h2 : (b.lv .ask).length ≥ max (b.lv .bid).length c.stats.maxLevels
          · right; exact ⟨x, hx, sym, b, false, hb, by show (b.lv .ask).length = _; omega⟩
          · rw [show max (max (b.lv .bid).length (b.lv .ask).length) c.stats.maxLevels = c.stats.maxLevels by omega]
            exact hc.1
    | updateLevel sym l t =>
      refine ⟨hc.1, ?_⟩
      show max l.count c.maxQueue = 0 ∨ ∃ x ∈ xs, ∃ (s : Nat) (b : Book) (sd : Bool) (l' : Level), x.getBook s = some b ∧ l' ∈ b.lv (sideKind sd) ∧ l'.count = max l.count c.maxQueue
      by_cases h1 : l.count ≥ c.maxQueue
      · right
        rw [Nat.max_eq_left h1]
        have hv := ht sym l t h
        cases hb : x.getBook sym with
        | none => rw [getBook_levels_none hb] at hv; cases hv
        | some b =>
          rw [getBook_levels hb, view_at] at hv
          obtain ⟨l', hf, hi⟩ := Option.map_eq_some_iff.1 hv
          refine ⟨x, hx, sym, b, l.isBid, l', hb, List.mem_of_find?_eq_some (show List.find? _ _ = some l' from hf), ?_⟩
          rw [← hi]; rfl
      · rw [Nat.max_eq_right (by omega)]
        exact hc.2
    | _ => exact hc

theorem reached_fold {xs : List Mgr} : ∀ (ys : List Mgr) {c : Live}, (∀ x ∈ ys, x ∈ xs) → Reached c xs →
    (∀ x ∈ ys, ∀ s l t, x.ev.getLast? = some (.updateLevel s l t) → x.levels s l.isBid l.price = some l) → Reached (ys.foldl Live.see c) xs := by
  intro ys
  induction ys with
  | nil => intro c _ hc _; exact hc
  | cons y ys ih =>
    intro c hm hc ht
    exact ih (fun x hx => hm x (by simp [hx])) (reached_see (hm y (by simp)) hc (ht y (by simp))) (fun x hx => ht x (by simp [hx]))

/-- The other counters. -/
theorem see_stats {c : Live} {x : Mgr} {e : Event} (h : x.ev.getLast? = some e) (m : Nat) :
    { (c.see x).stats with maxLevels := m } = e.count { c.stats with maxLevels := m } := by
  rw [see_of h]
  cases e with
  | updateBook sym t =>
    unfold Live.count
    dsimp only
    cases x.getBook sym <;> rfl
  | _ => rfl

theorem fold_stats (m : Nat) : ∀ (news : List Event) (xs : List Mgr) (c : Live), xs.map (·.ev.getLast?) = news.map some →
    { (xs.foldl Live.see c).stats with maxLevels := m } = news.foldl Event.count { c.stats with maxLevels := m } := by
  intro news
  induction news with
  | nil =>
    intro xs c h
    cases xs with
    | nil => rfl
    | cons x xs => cases h
  | cons e es ih =>
    intro xs c h
    cases xs with
    | nil => cases h
    | cons x xs =>
      rw [List.map_cons, List.map_cons] at h
      injection h with h1 h2
      rw [List.foldl_cons, List.foldl_cons, ih xs _ h2, see_stats h1]

/-- What a session has counted. -/
structure Result (c : Live) (ops : List Op) (g : Mgr) (xs : List Mgr) (g' : Mgr) (c' : Live) : Prop where
  run : g.live ops c = .ok (g', c')
  above : Above c c'
  each : ∀ x ∈ xs, Bounds c' x.levels ∧ Tidy x
  stats : ∃ news, g'.ev = g.ev ++ news ∧ ∀ m, { c'.stats with maxLevels := m } = news.foldl Event.count { c.stats with maxLevels := m }
  reached : ∀ ys, (∀ x ∈ xs, x ∈ ys) → Reached c ys → Reached c' ys

theorem passes_result {g g' : Mgr} {ops : List Op} {xs : List Mgr} (h : g.Passes ops xs g') : ∀ {c : Live}, g.Reachable → Bounds c g.levels →
    ∃ c', Result c ops g xs g' c' := by
  induction h with
  | @nil g =>
    intro c _ hb
    exact ⟨c, rfl, .refl c, (fun x hx => by cases hx), ⟨[], by simp, fun m => rfl⟩, fun _ _ h => h⟩
  | @cons g g1 g' op ops e seen xs ha hs hw _ ih =>
    intro c hr hb
    have hc := call_counted hr ha hs hw hb
    obtain ⟨c', r⟩ := ih (hr.step ha hs) hc.done
    obtain ⟨n1, hn1, hl1⟩ := hc.log
    obtain ⟨n2, hn2, hl2⟩ := r.stats
    refine ⟨c', ?_, (fold_above seen c).trans r.above, ?_, ⟨n1 ++ n2, by rw [hn2, hn1, List.append_assoc], ?_⟩, ?_⟩
    · show (g.watch op >>= _) = _
      rw [hw, Except.bind_ok]
      exact r.run
    · intro x hx
      rcases List.mem_append.1 hx with hx | hx
      · exact ⟨(hc.each x hx).1.mono r.above, (hc.each x hx).2⟩
      · rcases List.mem_cons.1 hx with hx | hx
        · rw [hx]; exact ⟨hc.done.mono r.above, minv_tidy (hr.step ha hs).minv⟩
        · exact r.each x hx
    · intro m
      rw [hl2 m, fold_stats m n1 seen c hl1, List.foldl_append]
    · intro ys hys hcy
      refine r.reached ys (fun x hx => hys x (by simp [hx])) ?_
      exact reached_fold seen (fun x hx => hys x (by simp [hx])) hcy hc.told

end Moment

/-- C81: the statistics of the performance programs. Whatever calls are made, `_max_order_book_levels` is the highest number
of levels which any book had on either side at any moment (inside any callback or between calls), and
`_max_order_book_orders` the highest number of orders at any price level, except that a level of one order counts only
after a change of a level has been reported. The other counters are those of `Mgr.stats` (C69). -/
theorem C81_highest {ops : List Op} {xs : List Mgr} {g : Mgr} (h : Mgr.init.Passes ops xs g) :
    ∃ c, Mgr.init.live ops .zero = .ok (g, c) ∧
      (∀ x ∈ xs, ∀ s b, x.getBook s = some b → (b.lv .bid).length ≤ c.stats.maxLevels ∧ (b.lv .ask).length ≤ c.stats.maxLevels) ∧
      (c.stats.maxLevels = 0 ∨ ∃ x ∈ xs, ∃ s b, x.getBook s = some b ∧
        (c.stats.maxLevels = (b.lv .bid).length ∨ c.stats.maxLevels = (b.lv .ask).length)) ∧
      (∀ x ∈ xs, ∀ s b l, x.getBook s = some b → l ∈ b.lv .bid ∨ l ∈ b.lv .ask → l.count ≤ max 1 c.maxQueue) ∧
      (c.maxQueue = 0 ∨ ∃ x ∈ xs, ∃ s b l, x.getBook s = some b ∧ (l ∈ b.lv .bid ∨ l ∈ b.lv .ask) ∧ c.maxQueue = l.count) ∧
      c.stats = { g.stats with maxLevels := c.stats.maxLevels } := by
  have hb : Moment.Bounds .zero Mgr.init.levels := by
    have hn : ∀ s sd p, Mgr.init.levels s sd p = none := fun s sd p => rfl
    refine ⟨fun s sd ps _ hp => ?_, fun s sd p i hi => by rw [hn] at hi; cases hi⟩
    cases ps with
    | nil => exact Nat.zero_le _
    | cons p ps => exact absurd (hn s sd p) (hp p (by simp))
  obtain ⟨c, r⟩ := Moment.passes_result h .init hb
  obtain ⟨q1, q2⟩ := r.reached xs (fun _ hx => hx) ⟨.inl rfl, .inl rfl⟩
  refine ⟨c, r.run, ?_, ?_, ?_, ?_, ?_⟩
  · intro x hx s b hg
    obtain ⟨a, t⟩ := r.each x hx
    exact ⟨(Moment.bounds_apply a t hg true).1, (Moment.bounds_apply a t hg false).1⟩
  · rcases q1 with q1 | ⟨x, hx, s, b, sd, hg, hl⟩
    · exact .inl q1
    · refine .inr ⟨x, hx, s, b, hg, ?_⟩
      cases sd
      · exact .inr hl.symm
      · exact .inl hl.symm
  · intro x hx s b l hg hl
    obtain ⟨a, t⟩ := r.each x hx
    rcases hl with hl | hl
    · exact (Moment.bounds_apply a t hg true).2 l hl
    · exact (Moment.bounds_apply a t hg false).2 l hl
  · rcases q2 with q2 | ⟨x, hx, s, b, sd, l, hg, hl, hc⟩
    · exact .inl q2
    · refine .inr ⟨x, hx, s, b, l, hg, ?_, hc.symm⟩
      cases sd
      · exact .inr hl
      · exact .inl hl
  · obtain ⟨news, hn, hf⟩ := r.stats
    have hev : g.ev = news := hn
    have h1 := hf c.stats.maxLevels
    have h2 : ∀ (m : Nat) (es : List Event) (z : Stats), { es.foldl Event.count z with maxLevels := m } = es.foldl Event.count { z with maxLevels := m } := by
      intro m es
      induction es with
      | nil => intro z; rfl
      | cons e es ih =>
        intro z
        rw [List.foldl_cons, List.foldl_cons, ih]
        congr 1
        cases e <;> rfl
    show c.stats = { g.ev.foldl Event.count .zero with maxLevels := c.stats.maxLevels }
    rw [h2, hev]
    exact h1

theorem passes_of {g g' : Mgr} {l : List (Op × ErrorCode × List Execution)} (h : Mgr.Records g l g') : g.Reachable →
    ∃ xs, g.Passes (l.map (·.1)) xs g' := by
  induction h with
  | nil => intro _; exact ⟨[], .nil⟩
  | @cons g g1 g' op e evs l ha hs _ _ ih =>
    intro hr
    obtain ⟨xs, hx⟩ := ih (hr.step ha hs)
    by_cases hn : op.isRegistry
    · obtain ⟨seen, hw, _⟩ := C80_registry hn hs
      exact ⟨_, .cons ha hs hw hx⟩
    · obtain ⟨_, seen, hw, _⟩ := C80_callbacks hr hn hs
      exact ⟨_, .cons ha hs hw hx⟩

/-- C81 speaks about every session of admissible calls. -/
theorem C81_total {g : Mgr} {l : List (Op × ErrorCode × List Execution)} (h : Mgr.Records Mgr.init l g) :
    ∃ xs, Mgr.init.Passes (l.map (·.1)) xs g := passes_of h .init

/-- A session in which three orders wait at one price and two levels on a side are the most, all gone at the end: the
counters remember them. -/
def liveSession : List Op := trading ++ [
  .addOrder (.mkLimit 1 1 .buy 90 10), .addOrder (.mkLimit 2 1 .buy 90 10), .addOrder (.mkLimit 3 1 .buy 90 10),
  .addOrder (.mkLimit 4 1 .sell 100 10), .addOrder (.mkLimit 5 1 .sell 101 10), .addOrder (.mkLimit 6 1 .buy 101 20),
  .deleteOrder 1, .deleteOrder 2, .deleteOrder 3]

theorem live_demo {ops : List Op} {p : Mgr → Live → Bool} (h : (checkRun true Mgr.init ops).any (fun g =>
    match Mgr.init.live ops .zero with | .ok (_, c) => p g c | .error _ => false) = true) :
    ∃ xs g c, Mgr.init.Passes ops xs g ∧ Mgr.init.live ops .zero = .ok (g, c) ∧ p g c = true := by
  cases hc : checkRun true Mgr.init ops with
  | none => rw [hc] at h; cases h
  | some g =>
    rw [hc] at h
    obtain ⟨l, h1, h2⟩ := checkRun_records .init (fun _ _ => rfl) hc
    obtain ⟨xs, hx⟩ := C81_total h1
    rw [h2] at hx
    obtain ⟨c, hl, _⟩ := C81_highest hx
    refine ⟨xs, g, c, hx, hl, ?_⟩
    rw [hl] at h
    exact h

theorem C81_nonvacuous : ∃ xs g c, Mgr.init.Passes liveSession xs g ∧ Mgr.init.live liveSession .zero = .ok (g, c) ∧
    c.stats.maxLevels = 2 ∧ c.maxQueue = 3 ∧ (∃ b, g.getBook 1 = some b ∧ b.lv .bid = [] ∧ b.lv .ask = []) := by
  obtain ⟨xs, g, c, h1, h2, h3⟩ := live_demo (ops := liveSession) (p := fun g c => decide (c.stats.maxLevels = 2) && decide (c.maxQueue = 3) &&
    (g.getBook 1).any (fun b => (b.lv .bid).isEmpty && (b.lv .ask).isEmpty)) (by decide +kernel)
  simp only [Bool.and_eq_true, decide_eq_true_eq, Option.any_eq_true, List.isEmpty_iff] at h3
  obtain ⟨⟨a, b⟩, x, hx, h⟩ := h3
  exact ⟨xs, g, c, h1, h2, a, b, x, hx, h⟩

/-- The exception in C81 is real: a book with an order at each of two prices, and `_max_order_book_orders` is still 0. -/
theorem C81_witness : ∃ ops xs g c, Mgr.init.Passes ops xs g ∧ Mgr.init.live ops .zero = .ok (g, c) ∧ c.maxQueue = 0 ∧
    (∃ b l, g.getBook 1 = some b ∧ l ∈ b.lv .bid ∧ l.count = 1) := by
  obtain ⟨xs, g, c, h1, h2, h3⟩ := live_demo (ops := trading ++ [.addOrder (.mkLimit 1 1 .buy 90 10), .addOrder (.mkLimit 2 1 .buy 91 10)])
    (p := fun g c => decide (c.maxQueue = 0) && (g.getBook 1).any (fun b => (b.lv .bid).any (fun l => decide (l.count = 1)))) (by decide +kernel)
  simp only [Bool.and_eq_true, decide_eq_true_eq, Option.any_eq_true, List.any_eq_true] at h3
  obtain ⟨a, b, hb, l, hl, hc⟩ := h3
  exact ⟨_, xs, g, c, h1, h2, a, b, l, hb, hl, hc⟩

end CppTrader
