import Verif.Count
import Verif.Proof.Balance
import Verif.Props.Text
/-
C69: the registry as a client sees it, and the counters of the statistics handler on any history.
-/

namespace CppTrader

theorem Acts.within {A g g'} (h : Acts A g g') (hi : MInv g) : Acts (fun n l => A n l ∧ g.bookSymbol n ≠ none) g g' := by
  induction h with
  | refl => exact .refl _
  | @book g n b s' g' h1 h2 h3 ih =>
    have ih := ih (hi.put h1 h2)
    rw [put_bookSymbol hi h1 h2] at ih
    refine .book h1 (h2.mono fun l hl => ⟨hl, ?_⟩) ih
    intro h
    rw [bookSymbol_none] at h
    unfold Mgr.getBook at h
    rw [h1] at h; cases h

/-- The registry of a state. -/
def Mgr.registry (g : Mgr) : Registry := ⟨g.getSymbol, g.bookSymbol⟩

theorem BookFeed.mem {evs : List Event} (h : BookFeed evs) : ∀ e ∈ evs, e.isOrder = true ∨ e.isUpdateBook = true ∨ e.levelOf ≠ none := by
  induction h with
  | nil => intro e he; cases he
  | order e es h _ ih => intro x hx; exact (List.mem_cons.1 hx).elim (fun h' => h' ▸ .inl h) (ih x)
  | addLevel | updateLevel | deleteLevel =>
    rename_i ih; intro x hx
    rcases List.mem_cons.1 hx with rfl | hx
    · exact .inr (.inr (by intro h; cases h))
    · rcases List.mem_cons.1 hx with rfl | hx
      · exact .inr (.inl rfl)
      · exact ih x hx

theorem registry_idle {v : Registry} : ∀ {evs : List Event},
    (∀ e ∈ evs, (e.isOrder = true ∨ e.isUpdateBook = true ∨ e.levelOf ≠ none) ∧ v.books e.symbol ≠ none) →
    Replays Registry.ok Registry.next v evs v
  | [], _ => rfl
  | e :: es, h => by
    obtain ⟨h1, h2⟩ := h e (by simp)
    have h3 : v.ok e ∧ v.next e = v := by
      cases e <;> first
        | exact ⟨h2, rfl⟩
        | (exfalso; rcases h1 with h | h | h <;> first | cases h; done | exact h rfl)
    refine ⟨h3.1, ?_⟩
    rw [h3.2]
    exact registry_idle fun e he => h e (.tail _ he)

/-- C69, the registry: over every history, a client that only sees the callbacks knows exactly the registered symbols and the books, the
registration callbacks are exactly the successful registrations (no symbol or book is added twice or deleted without being there, books
belong to registered symbols when they are added), and all other callbacks concern books that exist at that moment. -/
theorem C69_registry {h : List (Op × ErrorCode)} {g : Mgr} (hh : g.History h) :
    Replays Registry.ok Registry.next .empty g.ev ⟨g.getSymbol, g.bookSymbol⟩ := by
  induction hh with
  | nil =>
    show Registry.empty = _
    unfold Registry.empty
    congr 1 <;> funext i
  | @snoc h g g' op e hh ha hs ih =>
    have hr := hh.reachable
    have hi := hr.minv
    by_cases hop : op.isRegistry
    · have heff := hr.eff ha hs
      cases heff with
      | refused h => rw [h.1]; exact ih
      | @addSymbol s v hn hv =>
        refine ih.append ⟨hn, ?_⟩
        show Registry.mk _ _ = Registry.mk _ _
        congr 1
        funext i
        exact (hv i).symm
      | @deleteSymbol id s v hn hv =>
        have hid : s.id = id := (hi.symbols _ _ hn).1
        refine ih.append ⟨by show slot _ s.id = _; rw [hid]; exact hn, ?_⟩
        show Registry.mk _ _ = Registry.mk _ _
        congr 1
        funext i
        show (if i = s.id then none else slot g.symbols i) = slot v i
        rw [hid]
        exact (hv i).symm
      | @addBook s reg v h1 hn hv =>
        have hid : reg.id = s.id := (hi.symbols _ _ h1).1
        refine ih.append ⟨⟨by show slot _ reg.id = _; rw [hid]; exact h1, ?_⟩, ?_⟩
        · show g.bookSymbol reg.id = none
          rw [bookSymbol_none, hid]; exact hn
        · show Registry.mk _ _ = Registry.mk _ _
          congr 1
          funext i
          show (if i = reg.id then some reg else g.bookSymbol i) = (slot v i).map (·.symbol)
          rw [hid, hv i]
          by_cases e : i = s.id
          · rw [if_pos e, if_pos e]; rfl
          · rw [if_neg e, if_neg e]; rfl
      | @deleteBook id b v hn hv =>
        have hid : b.symbol.id = id := (hi.inv hn).2
        refine ih.append ⟨?_, ?_⟩
        · show g.bookSymbol b.symbol.id = some b.symbol
          unfold Mgr.bookSymbol Mgr.getBook
          rw [hid, hn]; rfl
        · show Registry.mk _ _ = Registry.mk _ _
          congr 1
          funext i
          show (if i = b.symbol.id then none else g.bookSymbol i) = (slot v i).map (·.symbol)
          rw [hid, hv i]
          by_cases e : i = id
          · rw [if_pos e, if_pos e]; rfl
          · rw [if_neg e, if_neg e]; rfl
      | book on h => cases op <;> first | exact absurd hop (fun h => h) | exact absurd on (by simp [Op.on])
      | replaceWith => cases hop
      | enable => cases hop
      | disable => cases hop
      | all => cases hop
    · rcases (hr.eff ha hs).acts hi with ⟨_, h⟩ | ⟨g0, a, b, c, d, acts⟩
      · exact absurd h hop
      · have hi0 := hi.congr b c d
        have hreg : (⟨g'.getSymbol, g'.bookSymbol⟩ : Registry) = ⟨g.getSymbol, g.bookSymbol⟩ := by
          have h1 : g'.getSymbol = g.getSymbol := by funext i; unfold Mgr.getSymbol; rw [acts.symbols, d]
          have h2 : g'.bookSymbol = g.bookSymbol := by
            rw [acts.bookSymbol hi0]; funext i; unfold Mgr.bookSymbol Mgr.getBook; rw [c]
          rw [h1, h2]
        obtain ⟨evs, ls, h1⟩ := (acts.within hi0).events hi0
        rw [h1.ev, a, hreg]
        refine ih.append (registry_idle fun e he => ⟨h1.bfeed.mem e he, ?_⟩)
        obtain ⟨l, _, h2⟩ := h1.sym e he
        have : g0.bookSymbol = g.bookSymbol := by funext i; unfold Mgr.bookSymbol Mgr.getBook; rw [c]
        rw [this] at h2
        exact h2

/-! ### Counting -/

/-- A counter of something that comes and goes, and of its maximum. -/
structure Counter {σ : Type} (ok : σ → Event → Prop) (next : σ → Event → σ) (v0 : σ) (live : σ → Nat → Prop) (c m : Stats → Nat) : Prop where
  none : ∀ i, ¬ live v0 i
  zero : c .zero = 0 ∧ m .zero = 0
  step : ∀ v e, ok v e →
    (∃ id, ¬ live v id ∧ (∀ j, live (next v e) j ↔ j = id ∨ live v j) ∧
      ∀ s, c (e.count s) = add64 (c s) 1 ∧ m (e.count s) = max (add64 (c s) 1) (m s)) ∨
    (∃ id, live v id ∧ (∀ j, live (next v e) j ↔ j ≠ id ∧ live v j) ∧
      ∀ s, c (e.count s) = sub64 (c s) 1 ∧ m (e.count s) = m s) ∨
    (∀ j, live (next v e) j ↔ live v j) ∧ ∀ s, c (e.count s) = c s ∧ m (e.count s) = m s

theorem take_snoc {es : List Event} {e : Event} {k : Nat} (h : k ≤ es.length) : (es ++ [e]).take k = es.take k :=
  List.take_append_of_le_length h

theorem Counter.run {σ : Type} {ok next} {v0 : σ} {live c m} (h : Counter ok next v0 live c m) (rev : List Event) :
    rev.length < 2 ^ 64 → (∀ a e b, rev.reverse = a ++ e :: b → ok (a.foldl next v0) e) →
    Counts (live (rev.reverse.foldl next v0)) (c (rev.reverse.foldl Event.count .zero)) ∧ c (rev.reverse.foldl Event.count .zero) ≤ rev.length ∧
    Highest (fun k => live ((rev.reverse.take k).foldl next v0)) rev.length (m (rev.reverse.foldl Event.count .zero)) := by
  induction rev with
  | nil =>
    intro _ _
    have h0 : Counts (live v0) 0 := ⟨[], by simp, fun i => by simp [h.none i], rfl⟩
    simp only [List.reverse_nil, List.foldl_nil, h.zero.1, h.zero.2, List.take_nil]
    refine ⟨h0, Nat.le_refl _, ⟨0, Nat.le_refl _, h0⟩, ?_⟩
    intro k n _ hc
    exact Nat.le_of_eq (hc.unique h0)
  | cons e rev ih =>
    intro hl hok
    rw [List.length_cons] at hl
    rw [List.reverse_cons] at hok ⊢
    obtain ⟨i1, i2, ⟨k0, i3, i4⟩, i5⟩ := ih (by omega) (fun a x b hab => hok a x (b ++ [e]) (by rw [hab]; simp))
    have hstep := h.step _ _ (hok rev.reverse e [] (by simp))
    rw [List.foldl_append, List.foldl_append, List.length_cons]
    simp only [List.foldl_cons, List.foldl_nil]
    generalize hs : rev.reverse.foldl Event.count .zero = s at *
    generalize hv : rev.reverse.foldl next v0 = v at *
    have hlen : rev.reverse.length = rev.length := by simp
    have keep : ∀ {k}, k ≤ rev.length → (rev.reverse ++ [e]).take k = rev.reverse.take k := fun hk => take_snoc (by omega)
    have last : ((rev.reverse ++ [e]).take (rev.length + 1)).foldl next v0 = next v e := by
      rw [List.take_of_length_le (by simp), List.foldl_append, hv]; rfl
    have ext : ∀ {n n'}, Counts (live (next v e)) n → m s ≤ n' → (n' = m s ∨ n' = n) → n ≤ n' →
        Highest (fun k => live (((rev.reverse ++ [e]).take k).foldl next v0)) (rev.length + 1) n' := by
      intro n n' hc h1 h2 h3
      refine ⟨?_, ?_⟩
      · rcases h2 with rfl | rfl
        · exact ⟨k0, by omega, by show Counts (live (((rev.reverse ++ [e]).take k0).foldl next v0)) _; rw [keep i3]; exact i4⟩
        · exact ⟨rev.length + 1, Nat.le_refl _, by show Counts (live (((rev.reverse ++ [e]).take (rev.length + 1)).foldl next v0)) _; rw [last]; exact hc⟩
      · intro k n1 hk hn1
        have hn1 : Counts (live (((rev.reverse ++ [e]).take k).foldl next v0)) n1 := hn1
        by_cases hk' : k ≤ rev.length
        · rw [keep hk'] at hn1
          exact Nat.le_trans (i5 k n1 hk' hn1) h1
        · rw [show k = rev.length + 1 by omega, last] at hn1
          rw [hn1.unique hc]; exact h3
    have below : c s ≤ m s := i5 rev.length (c s) (Nat.le_refl _) (by
      show Counts (live ((rev.reverse.take rev.length).foldl next v0)) _
      rw [List.take_of_length_le (by omega), hv]; exact i1)
    rcases hstep with ⟨id, j1, j2, j3⟩ | ⟨id, j1, j2, j3⟩ | ⟨j2, j3⟩
    · have hc := i1.more j1 j2
      have ha : add64 (c s) 1 = c s + 1 := Nat.mod_eq_of_lt (by have : W64 = 2 ^ 64 := rfl; omega)
      rw [(j3 s).1, (j3 s).2, ha]
      exact ⟨hc, by omega, ext hc (by omega) (by omega) (by omega)⟩
    · obtain ⟨hp, hc⟩ := i1.less j1 j2
      have ha : sub64 (c s) 1 = c s - 1 := by
        unfold sub64
        have : W64 = 2 ^ 64 := rfl
        omega
      rw [(j3 s).1, (j3 s).2, ha]
      exact ⟨hc, by omega, ext hc (Nat.le_refl _) (.inl rfl) (by omega)⟩
    · have hc := i1.congr j2
      rw [(j3 s).1, (j3 s).2]
      exact ⟨hc, by omega, ext hc (Nat.le_refl _) (.inl rfl) below⟩

theorem Replays.views {σ : Type} {ok : σ → Event → Prop} {next} : ∀ {evs : List Event} {v v' : σ}, Replays ok next v evs v' →
    evs.foldl next v = v' ∧ ∀ a e b, evs = a ++ e :: b → ok (a.foldl next v) e
  | [], v, v', h => ⟨h, fun a e b h => by simp at h⟩
  | x :: evs, v, v', h => by
    obtain ⟨h1, h2⟩ := Replays.views h.2
    refine ⟨h1, fun a e b hab => ?_⟩
    cases a with
    | nil => cases hab; exact h.1
    | cons y a => cases hab; exact h2 a e b rfl

theorem Counter.result {σ : Type} {ok next} {v0 v' : σ} {live c m} (h : Counter ok next v0 live c m) {evs : List Event}
    (hr : Replays ok next v0 evs v') (hl : evs.length < 2 ^ 64) :
    Counts (live v') (c (evs.foldl Event.count .zero)) ∧
    Highest (fun k => live ((evs.take k).foldl next v0)) evs.length (m (evs.foldl Event.count .zero)) := by
  obtain ⟨h1, h2⟩ := hr.views
  have := h.run evs.reverse (by simpa using hl) (by rw [List.reverse_reverse]; exact h2)
  rw [List.reverse_reverse, List.length_reverse] at this
  rw [← h1]
  exact ⟨this.1, this.2.2⟩

theorem symbolCounter : Counter Registry.ok Registry.next .empty (fun v i => v.symbols i ≠ none) Stats.symbols Stats.maxSymbols := by
  refine ⟨fun i h => h rfl, ⟨rfl, rfl⟩, ?_⟩
  intro v e hok
  cases e
  case addSymbol s =>
    refine .inl ⟨s.id, fun h => h hok, fun j => ?_, fun _ => ⟨rfl, rfl⟩⟩
    show (if j = s.id then some s else v.symbols j) ≠ none ↔ _
    by_cases e : j = s.id <;> simp [e]
  case deleteSymbol s =>
    have hok : v.symbols s.id = some s := hok
    refine .inr (.inl ⟨s.id, by rw [hok]; simp, fun j => ?_, fun _ => ⟨rfl, rfl⟩⟩)
    show (if j = s.id then none else v.symbols j) ≠ none ↔ _
    by_cases e : j = s.id <;> simp [e]
  all_goals exact .inr (.inr ⟨fun j => Iff.rfl, fun _ => ⟨rfl, rfl⟩⟩)

theorem bookCounter : Counter Registry.ok Registry.next .empty (fun v i => v.books i ≠ none) Stats.books Stats.maxBooks := by
  refine ⟨fun i h => h rfl, ⟨rfl, rfl⟩, ?_⟩
  intro v e hok
  cases e
  case addBook s =>
    refine .inl ⟨s.id, fun h => h hok.2, fun j => ?_, fun _ => ⟨rfl, rfl⟩⟩
    show (if j = s.id then some s else v.books j) ≠ none ↔ _
    by_cases e : j = s.id <;> simp [e]
  case deleteBook s =>
    have hok : v.books s.id = some s := hok
    refine .inr (.inl ⟨s.id, by rw [hok]; simp, fun j => ?_, fun _ => ⟨rfl, rfl⟩⟩)
    show (if j = s.id then none else v.books j) ≠ none ↔ _
    by_cases e : j = s.id <;> simp [e]
  all_goals exact .inr (.inr ⟨fun j => Iff.rfl, fun _ => ⟨rfl, rfl⟩⟩)

theorem orderCounter (sc : Scope) :
    Counter (OrderView.ok sc) OrderView.next (fun _ => none) (fun v i => v i ≠ none) Stats.orders Stats.maxOrders := by
  refine ⟨fun i h => h rfl, ⟨rfl, rfl⟩, ?_⟩
  intro v e hok
  have idle : ∀ (o x : Order), v o.id ≠ none → ∀ j, v.set o.id (some x) j ≠ none ↔ v j ≠ none := by
    intro o x h j
    unfold OrderView.set
    by_cases e : j = o.id
    · simp [e, h]
    · simp [e]
  cases e
  case addOrder o =>
    refine .inl ⟨o.id, fun h => h hok, fun j => ?_, fun _ => ⟨rfl, rfl⟩⟩
    show (if j = o.id then some o else v j) ≠ none ↔ _
    by_cases e : j = o.id <;> simp [e]
  case deleteOrder o =>
    obtain ⟨x, hx, _⟩ := hok
    refine .inr (.inl ⟨o.id, by rw [hx]; simp, fun j => ?_, fun _ => ⟨rfl, rfl⟩⟩)
    show (if j = o.id then none else v j) ≠ none ↔ _
    by_cases e : j = o.id <;> simp [e]
  case updateOrder o =>
    obtain ⟨x, hx, _⟩ := hok
    exact .inr (.inr ⟨idle o o (by rw [hx]; simp), fun _ => ⟨rfl, rfl⟩⟩)
  case exec o p q =>
    obtain ⟨⟨x, hx, _⟩, _⟩ := hok
    exact .inr (.inr ⟨idle o _ (by rw [hx]; simp), fun _ => ⟨rfl, rfl⟩⟩)
  all_goals exact .inr (.inr ⟨fun j => Iff.rfl, fun _ => ⟨rfl, rfl⟩⟩)

theorem simple_counter {f : Stats → Nat} {p : Event → Bool} (h0 : f .zero = 0)
    (h : ∀ s e, f (e.count s) = if p e then add64 (f s) 1 else f s) (rev : List Event) (hl : rev.length < 2 ^ 64) :
    f (rev.reverse.foldl Event.count .zero) = rev.reverse.countP p := by
  induction rev with
  | nil => exact h0
  | cons e rev ih =>
    rw [List.length_cons] at hl
    have ih := ih (by omega)
    rw [List.reverse_cons, List.foldl_append, List.countP_append]
    simp only [List.foldl_cons, List.foldl_nil]
    rw [h, ih, List.countP_singleton]
    have := List.countP_le_length (p := p) (l := rev.reverse)
    rw [List.length_reverse] at this
    cases p e
    · rfl
    · rw [if_pos rfl, if_pos rfl]; exact Nat.mod_eq_of_lt (by have : W64 = 2 ^ 64 := rfl; omega)

theorem execs_count : ∀ evs : List Event, (execsOf evs).length = evs.countP (fun e => match e with | .exec .. => true | _ => false)
  | [] => rfl
  | e :: evs => by
    rw [List.countP_cons, ← execs_count evs]
    cases e <;> rfl

theorem history_balance {h : List (Op × ErrorCode)} {g : Mgr} (hh : g.History h) :
    ∃ n, Counts (alive g.orders) n ∧ addsN g.ev = n + delsN g.ev := by
  induction hh with
  | nil => exact ⟨0, ⟨[], by simp, fun i => by simp [alive, Mgr.init], rfl⟩, rfl⟩
  | @snoc h g g' op e hh ha hs ih =>
    have hr := hh.reachable
    have hi := hr.minv
    obtain ⟨n, h1, h2⟩ := ih
    have idle : ∀ {ev : Event}, g'.orders = g.orders → g'.ev = g.ev ++ [ev] → ev.isAddOrder = false → ev.isDeleteOrder = false →
        ∃ n, Counts (alive g'.orders) n ∧ addsN g'.ev = n + delsN g'.ev := by
      intro ev k1 k2 k3 k4
      refine ⟨n, by rw [k1]; exact h1, ?_⟩
      rw [k2, addsN_append, delsN_append, h2]
      have e1 : addsN [ev] = 0 := by unfold addsN; rw [List.countP_singleton, k3]; rfl
      have e2 : delsN [ev] = 0 := by unfold delsN; rw [List.countP_singleton, k4]; rfl
      omega
    have ofActs : ∀ {A g0}, g0.ev = g.ev → g0.orders = g.orders → g0.books = g.books → g0.symbols = g.symbols → Acts A g0 g' →
        ∃ n, Counts (alive g'.orders) n ∧ addsN g'.ev = n + delsN g'.ev := by
      intro A g0 a b c d acts
      obtain ⟨evs, k1, k2⟩ := acts.balance (hi.congr b c d)
      rw [b] at k2
      obtain ⟨n', k3, k4⟩ := k2 n h1
      refine ⟨n', k3, ?_⟩
      rw [k1, a, addsN_append, delsN_append, h2]
      unfold flying at k4
      omega
    have heff := hr.eff ha hs
    by_cases hop : op.isRegistry
    · cases heff with
      | refused h => rw [h.1]; exact ⟨n, h1, h2⟩
      | addSymbol => exact idle rfl rfl rfl rfl
      | deleteSymbol => exact idle rfl rfl rfl rfl
      | addBook => exact idle rfl rfl rfl rfl
      | deleteBook => exact idle rfl rfl rfl rfl
      | book on h => cases op <;> first | exact absurd hop (fun h => h) | exact absurd on (by simp [Op.on])
      | replaceWith => cases hop
      | enable => cases hop
      | disable => cases hop
      | all => cases hop
    · rcases heff.acts hi with ⟨_, h⟩ | ⟨g0, a, b, c, d, acts⟩
      · exact absurd h hop
      · exact ofActs a b c d acts

theorem counted_mod (evs : List Event) : ∀ s : Stats, s.orders < W64 → s.adds < W64 → s.deletes < W64 → (s.orders + s.deletes) % W64 = s.adds →
    (evs.foldl Event.count s).orders < W64 ∧
    ((evs.foldl Event.count s).orders + (evs.foldl Event.count s).deletes) % W64 = (evs.foldl Event.count s).adds := by
  induction evs with
  | nil => intro s h1 _ _ h2; exact ⟨h1, h2⟩
  | cons e evs ih =>
    intro s h1 h2 h3 h4
    rw [List.foldl_cons]
    have hw : W64 = 18446744073709551616 := rfl
    cases e
    case addOrder o =>
      refine ih _ (Nat.mod_lt _ (by omega)) (Nat.mod_lt _ (by omega)) h3 ?_
      show ((s.orders + 1) % W64 + s.deletes) % W64 = (s.adds + 1) % W64
      omega
    case deleteOrder o =>
      refine ih _ (Nat.mod_lt _ (by omega)) h2 (Nat.mod_lt _ (by omega)) ?_
      show (sub64 s.orders 1 + (s.deletes + 1) % W64) % W64 = s.adds
      unfold sub64
      omega
    all_goals exact ih _ h1 h2 h3 h4

/-- C69, the counters: over every history in which fewer than 2^64 callbacks were made, the market handler of
performance/market_manager.cpp and performance/matching_engine.cpp has counted the symbols and books registered, the orders stored, the highest
numbers of symbols and books at any moment between two callbacks, the orders added, changed and deleted, the executions, and all callbacks but
`onUpdateOrderBook`. The orders added are those stored and those deleted. -/
theorem C69_counters {h : List (Op × ErrorCode)} {g : Mgr} (hh : g.History h) (hl : g.ev.length < 2 ^ 64) :
    Counts (fun i => g.getSymbol i ≠ none) g.stats.symbols ∧
    Counts (fun i => g.getBook i ≠ none) g.stats.books ∧
    Counts (fun i => g.getOrder i ≠ none) g.stats.orders ∧
    Highest (fun k i => (Registry.after (g.ev.take k)).symbols i ≠ none) g.ev.length g.stats.maxSymbols ∧
    Highest (fun k i => (Registry.after (g.ev.take k)).books i ≠ none) g.ev.length g.stats.maxBooks ∧
    g.stats.adds = g.ev.countP Event.isAddOrder ∧ g.stats.changes = g.ev.countP Event.isUpdateOrder ∧
    g.stats.deletes = g.ev.countP Event.isDeleteOrder ∧ g.stats.execs = (execsOf g.ev).length ∧
    g.stats.updates = g.ev.countP (fun e => !e.isUpdateBook) ∧ g.stats.adds = g.stats.orders + g.stats.deletes := by
  have hreg := C69_registry hh
  obtain ⟨s1, s2⟩ := symbolCounter.result hreg hl
  obtain ⟨b1, b2⟩ := bookCounter.result hreg hl
  have simple : ∀ {f : Stats → Nat} {p : Event → Bool}, f .zero = 0 → (∀ s e, f (e.count s) = if p e then add64 (f s) 1 else f s) →
      f g.stats = g.ev.countP p := by
    intro f p h0 h1
    have := simple_counter h0 h1 g.ev.reverse (by simpa using hl)
    rw [List.reverse_reverse] at this
    exact this
  have ha := simple (f := Stats.adds) (p := Event.isAddOrder) rfl (by intro s e; cases e <;> rfl)
  have hd := simple (f := Stats.deletes) (p := Event.isDeleteOrder) rfl (by intro s e; cases e <;> rfl)
  obtain ⟨n, n1, n2⟩ := history_balance hh
  have hw : W64 = 18446744073709551616 := rfl
  obtain ⟨m1, m2⟩ := counted_mod g.ev .zero (by show 0 < W64; omega) (by show 0 < W64; omega) (by show 0 < W64; omega) rfl
  have m1 : g.stats.orders < W64 := m1
  have m2 : (g.stats.orders + g.stats.deletes) % W64 = g.stats.adds := m2
  have hle : addsN g.ev ≤ g.ev.length := List.countP_le_length
  have hn : n = g.stats.orders := by
    have ha' : g.stats.adds = addsN g.ev := ha
    have hd' : g.stats.deletes = delsN g.ev := hd
    rw [ha', hd'] at m2
    omega
  refine ⟨s1, b1.congr fun i => not_congr bookSymbol_none.symm, ?_, s2, b2, ha,
    simple (f := Stats.changes) rfl (by intro s e; cases e <;> rfl), hd,
    by rw [execs_count]; exact simple (f := Stats.execs) rfl (by intro s e; cases e <;> rfl),
    simple (f := Stats.updates) rfl (by intro s e; cases e <;> rfl), ?_⟩
  · rw [← hn]
    exact n1.congr fun i => by rw [hh.reachable.minv.getOrder]; exact Iff.rfl
  · rw [ha, hd, ← hn]; exact n2

/-- C69, the peak: if moreover new orders come under unused ids, the highest number of orders counted is the highest number of orders alive
at any moment between two callbacks. -/
theorem C69_peak {h : List (Op × ErrorCode)} {g : Mgr} (hh : g.FreshHistory h) (hl : g.ev.length < 2 ^ 64) :
    Highest (fun k i => OrderView.after (g.ev.take k) i ≠ none) g.ev.length g.stats.maxOrders :=
  ((orderCounter _).result (C45_order_feed_history hh) hl).2

/-- A history the theorems apply to: two symbols come and one goes, orders rest, trade, trigger, change and go; the counters are not
trivial. -/
example : ∃ (g : Mgr) (h : List (Op × ErrorCode)), g.FreshHistory h ∧
    (decide (g.ev.length < 2 ^ 64) && decide (g.stats = ⟨37, 1, 3, 1, 2, 0, 2, 3, 5, 6, 3, 5⟩)) = true :=
  demoFresh (p := fun g => decide (g.ev.length < 2 ^ 64) && decide (g.stats = ⟨37, 1, 3, 1, 2, 0, 2, 3, 5, 6, 3, 5⟩))
    (opening ++ [.addSymbol ⟨7, 7⟩, .addOrderBook ⟨7, 7⟩, .addSymbol ⟨9, 9⟩, .addSymbol ⟨9, 9⟩, .enableMatching,
      .addOrder (.mkLimit 1 1 .sell 100 10), .addOrder (.mkLimit 2 1 .sell 110 10), .addOrder (.mkStop 3 1 .buy 100 3),
      .addOrder (.mkMarket 5 1 .buy 4), .modifyOrder 2 111 6, .reduceOrder 1 1, .executeOrder 1 1, .addOrder (.mkLimit 6 1 .buy 80 2),
      .deleteOrder 6, .deleteOrderBook 7, .deleteSymbol 7, .deleteSymbol 9])
    (by decide +kernel)

/-- C69_counters also applies when an id is used twice: the refused order is counted as added and deleted. -/
example : ∃ (g g' : Mgr) (e : ErrorCode), g.Reachable ∧ g.Admissible (.addOrder (.mkLimit 1 1 .sell 101 10)) ∧
    g.step (.addOrder (.mkLimit 1 1 .sell 101 10)) = .ok (g', e) ∧
    (decide (e = .orderDuplicate) && decide (g'.stats.adds = 2 ∧ g'.stats.deletes = 1 ∧ g'.stats.orders = 1)) = true :=
  demoStep (p := fun _ g' e => decide (e = .orderDuplicate) && decide (g'.stats.adds = 2 ∧ g'.stats.deletes = 1 ∧ g'.stats.orders = 1))
    (opening ++ [.addOrder (.mkLimit 1 1 .sell 100 10)]) (.addOrder (.mkLimit 1 1 .sell 101 10)) (by decide +kernel)

end CppTrader
