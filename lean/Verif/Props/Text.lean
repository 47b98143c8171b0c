import Verif.Proof.Text
import Verif.Props.Prices
import Verif.Props.Feeds
/-
C66: the printed log.
-/

namespace CppTrader
open Text

/-- C66, orders: two orders are printed alike exactly if they tell the same: they differ in nothing but the trailing distance and
step of orders that are not trailing ones. -/
theorem C66_order_text (a b : Order) : order a = order b ↔ a.told = b.told := by
  constructor
  · intro h
    exact (order_cut (x := []) (y := []) (by rw [h])).1
  · intro h
    rw [← order_told a, ← order_told b, h]

/-- C66, the other classes: what is printed of levels, level updates, result codes, sides, types and times in force tells them. -/
theorem C66_texts : (∀ a b, level a = level b → a = b) ∧ (∀ a b, levelUpdate a = levelUpdate b → a = b) ∧ (∀ a b, error a = error b → a = b) ∧
    (∀ a b, side a = side b → a = b) ∧ (∀ a b, type a = type b → a = b) ∧ (∀ a b, tif a = tif b → a = b) :=
  ⟨fun a b h => (level_cut (x := []) (y := []) (by rw [h])).1, fun _ _ h => update_cut h, fun _ _ h => error_inj h,
    fun _ _ h => side_inj h, fun _ _ h => type_inj h, fun _ _ h => tif_inj h⟩

/-- The number of a callback. -/
def Event.tag : Event → Fin 12
  | .addSymbol _ => 0
  | .deleteSymbol _ => 1
  | .addBook _ => 2
  | .updateBook _ _ => 3
  | .deleteBook _ => 4
  | .addLevel _ _ _ => 5
  | .updateLevel _ _ _ => 6
  | .deleteLevel _ _ _ => 7
  | .addOrder _ => 8
  | .updateOrder _ => 9
  | .deleteOrder _ => 10
  | .exec _ _ _ => 11

/-- Some characters of each line. -/
def sample (l : List Char) : Option Char × Option Char × Option Char × Option Char × Option Char := (l[0]?, l[4]?, l[7]?, l[9]?, l[12]?)

def samples : Fin 12 → Option Char × Option Char × Option Char × Option Char × Option Char
  | 0 => sample "Add symbol: Symbol(Id=".toList
  | 1 => sample "Delete symbol: ".toList
  | 2 => sample "Add order book: ".toList
  | 3 => sample "Update order book: ".toList
  | 4 => sample "Delete order book: ".toList
  | 5 => sample "Add level: Level(".toList
  | 6 => sample "Update level: ".toList
  | 7 => sample "Delete level: ".toList
  | 8 => sample "Add order: Order(".toList
  | 9 => sample "Update order: ".toList
  | 10 => sample "Delete order: ".toList
  | 11 => sample "Execute order: ".toList

theorem sample_line (w : Nat → List Char) (x : Entry) : sample (line w x) = samples x.event.tag := by
  cases x with
  | mk e n z => cases e <;> rfl

theorem samples_inj : ∀ i j, samples i = samples j → i = j := by decide

theorem line_tag {w : Nat → List Char} {x y : Entry} (h : line w x = line w y) : x.event.tag = y.event.tag := by
  have := congrArg sample h
  rw [sample_line, sample_line] at this
  exact samples_inj _ _ this

/-- What an entry tells of itself: all but the book of a level. -/
def Text.Entry.alone (w : Nat → List Char) (x : Entry) : Told :=
  match x.event with
  | .addLevel _ l t => .other (.addLevel 0 l t)
  | .updateLevel _ l t => .other (.updateLevel 0 l t)
  | .deleteLevel _ l t => .other (.deleteLevel 0 l t)
  | _ => x.told w

theorem line_alone {w : Nat → List Char} {x y : Entry} (h : line w x = line w y) : x.alone w = y.alone w := by
  have ht := line_tag h
  obtain ⟨e, n, z⟩ := x
  obtain ⟨e', n', z'⟩ := y
  cases e <;> cases e' <;> first | (exfalso; revert ht; simp only [Event.tag]; decide; done) | skip
  case addSymbol.addSymbol s s' =>
    obtain ⟨h1, h2⟩ := symbol_inj (lit_cut _ h)
    show Told.symbol true s.id (w s.name) = Told.symbol true s'.id (w s'.name)
    rw [h1, h2]
  case deleteSymbol.deleteSymbol s s' =>
    obtain ⟨h1, h2⟩ := symbol_inj (lit_cut _ h)
    show Told.symbol false s.id (w s.name) = Told.symbol false s'.id (w s'.name)
    rw [h1, h2]
  case addBook.addBook s s' =>
    obtain ⟨h1, h2, h3⟩ := book_inj (lit_cut _ h)
    show Told.book true s.id (w s.name) z = Told.book true s'.id (w s'.name) z'
    rw [h1, h2, show z = z' from h3]
  case deleteBook.deleteBook s s' =>
    obtain ⟨h1, h2, h3⟩ := book_inj (lit_cut _ h)
    show Told.book false s.id (w s.name) z = Told.book false s'.id (w s'.name) z'
    rw [h1, h2, show z = z' from h3]
  case updateBook.updateBook s t s' t' =>
    obtain ⟨h1, h2, h3, h4⟩ := book_top (lit_cut _ h)
    show Told.updateBook s (w n) z t = Told.updateBook s' (w n') z' t'
    rw [show s = s' from h1, show w n = w n' from h2, show z = z' from h3, h4]
  case addLevel.addLevel s l t s' l' t' =>
    obtain ⟨h1, h2⟩ := level_cut (lit_cut _ h)
    show Told.other (.addLevel 0 l t) = Told.other (.addLevel 0 l' t')
    rw [h1, top_inj h2]
  case updateLevel.updateLevel s l t s' l' t' =>
    obtain ⟨h1, h2⟩ := level_cut (lit_cut _ h)
    show Told.other (.updateLevel 0 l t) = Told.other (.updateLevel 0 l' t')
    rw [h1, top_inj h2]
  case deleteLevel.deleteLevel s l t s' l' t' =>
    obtain ⟨h1, h2⟩ := level_cut (lit_cut _ h)
    show Told.other (.deleteLevel 0 l t) = Told.other (.deleteLevel 0 l' t')
    rw [h1, top_inj h2]
  case addOrder.addOrder o o' =>
    have h1 := (C66_order_text o o').1 (lit_cut _ h)
    show Told.other (.addOrder o.told) = Told.other (.addOrder o'.told)
    rw [h1]
  case updateOrder.updateOrder o o' =>
    have h1 := (C66_order_text o o').1 (lit_cut _ h)
    show Told.other (.updateOrder o.told) = Told.other (.updateOrder o'.told)
    rw [h1]
  case deleteOrder.deleteOrder o o' =>
    have h1 := (C66_order_text o o').1 (lit_cut _ h)
    show Told.other (.deleteOrder o.told) = Told.other (.deleteOrder o'.told)
    rw [h1]
  case exec.exec o p q o' p' q' =>
    obtain ⟨h1, h⟩ := order_cut (lit_cut _ h)
    have h := lit_cut _ h
    obtain ⟨h2, h⟩ := num_lit " and quantity " (c := ' ') rfl (by decide) h
    show Told.other (.exec o.told p q) = Told.other (.exec o'.told p' q')
    rw [h1, h2, num_inj h]

theorem lf_num (n : Nat) : '\n' ∉ num n := num_free (by decide) n

theorem lf_order (o : Order) : '\n' ∉ order o := by
  have h1 : ∀ t, '\n' ∉ type t := by intro t; cases t <;> decide
  have h2 : ∀ t, '\n' ∉ side t := by intro t; cases t <;> decide
  have h3 : ∀ t, '\n' ∉ tif t := by intro t; cases t <;> decide
  have h4 : ∀ n, '\n' ∉ int n := int_free (by decide) (by decide)
  have l : ∀ {a b : List Char}, '\n' ∉ a → '\n' ∉ b → '\n' ∉ a ++ b := by
    intro a b ha hb h
    rcases List.mem_append.1 h with h | h
    · exact ha h
    · exact hb h
  rw [order_eq]
  refine l (by decide) (l (lf_num _) (l (by decide) (l (lf_num _) (l (by decide) (l (h1 _) (l (by decide) (l (h2 _) (l (by decide) (l (lf_num _)
    (l (by decide) (l (lf_num _) (l (by decide) (l (lf_num _) (l (by decide) (l (lf_num _) (l (by decide) (l (lf_num _) (l (by decide) (l (h3 _)
    (l ?_ (l ?_ (l ?_ (by decide)))))))))))))))))))))))
  · by_cases h : (o.isTrailingStop || o.isTrailingStopLimit) = true
    · rw [if_pos h]; exact l (by decide) (l (h4 _) (l (by decide) (h4 _)))
    · rw [if_neg h]; exact List.not_mem_nil
  · by_cases h : (o.isHidden || o.isIceberg) = true
    · rw [if_pos h]; exact l (by decide) (lf_num _)
    · rw [if_neg h]; exact List.not_mem_nil
  · by_cases h : o.isSlippage = true
    · rw [if_pos h]; exact l (by decide) (lf_num _)
    · rw [if_neg h]; exact List.not_mem_nil

theorem lf_line (w : Nat → List Char) (x : Entry) (hn : ∀ n ∈ x.names, '\n' ∉ w n) : '\n' ∉ line w x := by
  have l : ∀ {a b : List Char}, '\n' ∉ a → '\n' ∉ b → '\n' ∉ a ++ b := by
    intro a b ha hb h
    rcases List.mem_append.1 h with h | h
    · exact ha h
    · exact hb h
  have sym : ∀ s : Symbol, '\n' ∉ w s.name → '\n' ∉ symbol w s := fun s h => l (by decide) (l (lf_num _) (l (by decide) (l h (by decide))))
  have siz : ∀ z, '\n' ∉ sizes z := fun z => l (l (l (l (l (l (l (l (l (l (l (by decide) (lf_num _)) (by decide)) (lf_num _)) (by decide)) (lf_num _)) (by decide)) (lf_num _))
    (by decide)) (lf_num _)) (by decide)) (lf_num _)
  have bk : ∀ (s : Symbol) z, '\n' ∉ w s.name → '\n' ∉ book w s z := fun s z h => l (by decide) (l (l (sym s h) (siz z)) (by decide))
  have tp : ∀ t, '\n' ∉ top t := by intro t; cases t <;> decide
  have side : ∀ b : Bool, '\n' ∉ (if b then "BID".toList else "ASK".toList) := by decide
  have lev : ∀ i : LevelInfo, '\n' ∉ level i := fun i => l (by decide) (l (side _) (l (by decide) (l (lf_num _) (l (by decide) (l (lf_num _) (l (by decide) (l (lf_num _)
    (l (by decide) (l (lf_num _) (l (by decide) (l (lf_num _) (by decide))))))))))))
  obtain ⟨e, n, z⟩ := x
  cases e with
  | addSymbol s => exact l (by decide) (sym s (hn _ (.head _)))
  | deleteSymbol s => exact l (by decide) (sym s (hn _ (.head _)))
  | addBook s => exact l (by decide) (bk s _ (hn _ (.head _)))
  | deleteBook s => exact l (by decide) (bk s _ (hn _ (.head _)))
  | updateBook s t => exact l (by decide) (l (bk ⟨s, n⟩ _ (hn _ (.head _))) (tp t))
  | addLevel s i t => exact l (by decide) (l (lev i) (tp t))
  | updateLevel s i t => exact l (by decide) (l (lev i) (tp t))
  | deleteLevel s i t => exact l (by decide) (l (lev i) (tp t))
  | addOrder o => exact l (by decide) (lf_order o)
  | updateOrder o => exact l (by decide) (lf_order o)
  | deleteOrder o => exact l (by decide) (lf_order o)
  | exec o p q => exact l (by decide) (l (lf_order o) (l (by decide) (l (lf_num _) (l (by decide) (lf_num _)))))

theorem output_lines {w : Nat → List Char} : ∀ {a b : List Entry}, (∀ x ∈ a, ∀ n ∈ x.names, '\n' ∉ w n) → (∀ x ∈ b, ∀ n ∈ x.names, '\n' ∉ w n) →
    output w a = output w b → a.map (·.alone w) = b.map (·.alone w)
  | [], [], _, _, _ => rfl
  | [], y :: b, _, _, h => by simp [output] at h
  | x :: a, [], _, _, h => by simp [output] at h
  | x :: a, y :: b, ha, hb, h => by
    have e : ∀ (x : Entry) l, output w (x :: l) = line w x ++ '\n' :: output w l := by intro x l; simp [output]
    rw [e, e] at h
    obtain ⟨h1, h2⟩ := cut (lf_line w x (ha x (.head _))) (lf_line w y (hb y (.head _))) h
    rw [List.map_cons, List.map_cons, line_alone h1,
      output_lines (fun x hx => ha x (.tail _ hx)) (fun x hx => hb x (.tail _ hx)) h2]

/-- The book of a level notification. -/
def Event.levelOf : Event → Option Nat
  | .addLevel sym _ _ => some sym
  | .updateLevel sym _ _ => some sym
  | .deleteLevel sym _ _ => some sym
  | _ => none

/-- Every level notification is followed by one about its book. -/
inductive Paired : List Event → Prop
  | nil : Paired []
  | cons {e es} : (∀ sym, e.levelOf = some sym → ∃ t r, es = .updateBook sym t :: r) → Paired es → Paired (e :: es)

theorem Paired.append {a b : List Event} (ha : Paired a) (hb : Paired b) : Paired (a ++ b) := by
  induction ha with
  | nil => exact hb
  | cons h _ ih =>
    refine .cons (fun sym hs => ?_) ih
    obtain ⟨t, r, rfl⟩ := h sym hs
    exact ⟨t, r ++ b, rfl⟩

theorem Paired.one {e : Event} (h : e.levelOf = none) : Paired [e] := .cons (fun s hs => by rw [h] at hs; cases hs) .nil

theorem BookFeed.paired {es : List Event} (h : BookFeed es) : Paired es := by
  induction h with
  | nil => exact .nil
  | order e es he _ ih =>
    refine .cons (fun s hs => ?_) ih
    cases e <;> first | (cases hs; done) | (cases he; done)
  | addLevel => rename_i ih; exact .cons (fun s hs => by cases hs; exact ⟨_, _, rfl⟩) (.cons (fun s hs => by cases hs) ih)
  | updateLevel => rename_i ih; exact .cons (fun s hs => by cases hs; exact ⟨_, _, rfl⟩) (.cons (fun s hs => by cases hs) ih)
  | deleteLevel => rename_i ih; exact .cons (fun s hs => by cases hs; exact ⟨_, _, rfl⟩) (.cons (fun s hs => by cases hs) ih)

theorem history_paired {h : List (Op × ErrorCode)} {g : Mgr} (hh : g.History h) : Paired g.ev := by
  induction hh with
  | nil => exact .nil
  | @snoc h g g' op e hh ha hs ih =>
    have hr := hh.reachable
    obtain ⟨evs, h1⟩ := events_appended hr ha hs
    by_cases hop : op.isRegistry
    · have heff := hr.eff ha hs
      cases heff with
      | refused h => rw [h.1]; exact ih
      | addSymbol hn hv => exact ih.append (.one rfl)
      | deleteSymbol hn hv => exact ih.append (.one rfl)
      | addBook h1 hn hv => exact ih.append (.one rfl)
      | deleteBook hn hv => exact ih.append (.one rfl)
      | book on h => cases op <;> first | exact absurd hop (fun h => h) | exact absurd on (by simp [Op.on])
      | replaceWith => cases hop
      | enable => cases hop
      | disable => cases hop
      | all => cases hop
    · rw [h1]; exact ih.append (C48_book_feed hr ha hs h1 hop).paired

theorem alone_told {w : Nat → List Char} : ∀ {a b : List Entry}, Paired (a.map (·.event)) → Paired (b.map (·.event)) →
    a.map (·.alone w) = b.map (·.alone w) → a.map (·.told w) = b.map (·.told w)
  | [], [], _, _, _ => rfl
  | [], y :: b, _, _, h => by cases h
  | x :: a, [], _, _, h => by cases h
  | x :: a, y :: b, ha, hb, h => by
    rw [List.map_cons, List.map_cons] at h
    rw [List.map_cons] at ha hb
    injection h with h1 h2
    cases ha with
    | cons ha1 ha2 =>
      cases hb with
      | cons hb1 hb2 =>
        rw [List.map_cons, List.map_cons, alone_told ha2 hb2 h2]
        refine congrArg (· :: _) ?_
        have key : ∀ s s', x.event.levelOf = some s → y.event.levelOf = some s' → s = s' := by
          intro s s' k k'
          obtain ⟨t, r, hr⟩ := ha1 s k
          obtain ⟨t', r', hr'⟩ := hb1 s' k'
          cases a with
          | nil => cases hr
          | cons x2 a =>
            cases b with
            | nil => cases hr'
            | cons y2 b =>
              rw [List.map_cons] at hr hr'
              injection hr with e1 _
              injection hr' with e2 _
              rw [List.map_cons, List.map_cons] at h2
              injection h2 with h3 _
              obtain ⟨e, n, z⟩ := x2
              obtain ⟨e', n', z'⟩ := y2
              subst e1 e2
              injection h3
        obtain ⟨e, n, z⟩ := x
        obtain ⟨e', n', z'⟩ := y
        cases e <;> cases e' <;> first
          | exact h1
          | (cases h1; cases key _ _ rfl rfl; rfl)
          | (injection h1 with h1; injection h1; done)
          | (cases h1; done)

/-- C66, the log: the program of examples/matching_engine.cpp prints one line per callback. If two runs of any calls print the
same, and no symbol name contains a line feed, they had the same callbacks in the same order: the same kinds, the same orders as told
(`Order.told`), the same levels of the same books, flags, prices, quantities, symbols and book sizes (`Text.Entry.told`). -/
theorem C66_log {w : Nat → List Char} {h h' : List (Op × ErrorCode)} {g g' : Mgr} (hh : g.History h) (hh' : g'.History h')
    {log log' : List Entry} (hl : log.map (·.event) = g.ev) (hl' : log'.map (·.event) = g'.ev)
    (hn : ∀ x ∈ log, ∀ n ∈ x.names, '\n' ∉ w n) (hn' : ∀ x ∈ log', ∀ n ∈ x.names, '\n' ∉ w n)
    (same : output w log = output w log') : log.map (·.told w) = log'.map (·.told w) :=
  alone_told (hl ▸ history_paired hh) (hl' ▸ history_paired hh') (output_lines hn hn' same)

/-- Replaying callbacks that tell the same keeps views that tell the same. -/
theorem told_next (v v' : OrderView) (hv : ∀ i, (v i).map Order.told = (v' i).map Order.told) (w : Nat → List Char) (x y : Entry)
    (h : x.told w = y.told w) (i : Nat) : (v.next x.event i).map Order.told = (v'.next y.event i).map Order.told := by
  have idt : ∀ o o' : Order, o.told = o'.told → o.id = o'.id := fun o o' h => by
    have := congrArg Order.id h; exact this
  have set : ∀ (o o' : Order) (z z' : Option Order), o.told = o'.told → z.map Order.told = z'.map Order.told →
      (v.set o.id z i).map Order.told = (v'.set o'.id z' i).map Order.told := by
    intro o o' z z' h1 h2
    unfold OrderView.set
    rw [← idt o o' h1]
    by_cases e : i = o.id
    · rw [if_pos e, if_pos e]; exact h2
    · rw [if_neg e, if_neg e]; exact hv i
  obtain ⟨e, n, z⟩ := x
  obtain ⟨e', n', z'⟩ := y
  cases e <;> cases e' <;> first
    | exact hv i
    | (injection h with h; injection h; done)
    | (injection h with h; injection h with h; exact set _ _ _ _ h (congrArg some h))
    | (injection h with h; injection h with h; exact set _ _ _ _ h rfl)
    | (injection h with h; injection h with h hp hq
       refine set _ _ _ _ h (congrArg some ?_)
       rename_i o p q o' p' q'
       subst hq
       have e1 : ∀ o : Order, (o.afterExec q).told = o.told.afterExec q := fun _ => rfl
       rw [e1, e1, h])
    | (cases h; done)

theorem told_replays {w : Nat → List Char} {ok ok' : OrderView → Event → Prop} : ∀ {a b : List Entry} {v v' u u' : OrderView},
    (∀ i, (v i).map Order.told = (v' i).map Order.told) → a.map (·.told w) = b.map (·.told w) →
    Replays ok OrderView.next v (a.map (·.event)) u → Replays ok' OrderView.next v' (b.map (·.event)) u' →
    ∀ i, (u i).map Order.told = (u' i).map Order.told
  | [], [], _, _, _, _, hv, _, h1, h2 => by
    rw [← (show _ = _ from h1), ← (show _ = _ from h2)]; exact hv
  | [], y :: b, _, _, _, _, _, h, _, _ => by cases h
  | x :: a, [], _, _, _, _, _, h, _, _ => by cases h
  | x :: a, y :: b, v, v', _, _, hv, h, h1, h2 => by
    rw [List.map_cons, List.map_cons] at h
    injection h with h3 h4
    exact told_replays (told_next v v' hv w x y h3) h4 h1.2 h2.2

/-- C66, the orders: if two runs print the same they hold the same live orders, as told: the log alone determines what `GetOrder`
returns, up to the trailing distance and step of orders that do not trail. -/
theorem C66_orders {w : Nat → List Char} {h h' : List (Op × ErrorCode)} {g g' : Mgr} (hh : g.FreshHistory h) (hh' : g'.FreshHistory h')
    {log log' : List Entry} (hl : log.map (·.event) = g.ev) (hl' : log'.map (·.event) = g'.ev)
    (hn : ∀ x ∈ log, ∀ n ∈ x.names, '\n' ∉ w n) (hn' : ∀ x ∈ log', ∀ n ∈ x.names, '\n' ∉ w n)
    (same : output w log = output w log') (id : Nat) : (g.getOrder id).map Order.told = (g'.getOrder id).map Order.told :=
  told_replays (fun _ => rfl) (C66_log hh.history hh'.history hl hl' hn hn' same)
    (hl ▸ C45_order_feed_history hh) (hl' ▸ C45_order_feed_history hh') id

theorem told_level (v : LevelView) (w : Nat → List Char) (x y : Entry) (h : x.told w = y.told w) : v.next x.event = v.next y.event := by
  obtain ⟨e, n, z⟩ := x
  obtain ⟨e', n', z'⟩ := y
  cases e <;> cases e' <;> first
    | rfl
    | (injection h with h; injection h; done)
    | (cases h; done)
    | (injection h with h; cases h; rfl)
    | (injection h with _ h1 _ _
       show v.set _ _ = v.set _ _
       rw [show _ = _ from h1])

theorem told_levels {w : Nat → List Char} {ok ok' : LevelView → Event → Prop} : ∀ {a b : List Entry} {v u u' : LevelView},
    a.map (·.told w) = b.map (·.told w) →
    Replays ok LevelView.next v (a.map (·.event)) u → Replays ok' LevelView.next v (b.map (·.event)) u' → u = u'
  | [], [], _, _, _, _, h1, h2 => by rw [← (show _ = _ from h1), ← (show _ = _ from h2)]
  | [], y :: b, _, _, _, h, _, _ => by cases h
  | x :: a, [], _, _, _, h, _, _ => by cases h
  | x :: a, y :: b, v, _, _, h, h1, h2 => by
    rw [List.map_cons, List.map_cons] at h
    injection h with h3 h4
    have h2' := h2.2
    rw [show v.next ((fun x : Entry => x.event) y) = v.next x.event from (told_level v w x y h3).symm] at h2'
    exact told_levels h4 h1.2 h2'

/-- C66, the levels: if two runs print the same they have the same bid and ask levels in every book: the log alone determines price,
volumes and number of orders of each. -/
theorem C66_levels {w : Nat → List Char} {h h' : List (Op × ErrorCode)} {g g' : Mgr} (hh : g.History h) (hh' : g'.History h')
    {log log' : List Entry} (hl : log.map (·.event) = g.ev) (hl' : log'.map (·.event) = g'.ev)
    (hn : ∀ x ∈ log, ∀ n ∈ x.names, '\n' ∉ w n) (hn' : ∀ x ∈ log', ∀ n ∈ x.names, '\n' ∉ w n)
    (same : output w log = output w log') : g.levels = g'.levels :=
  told_levels (C66_log hh hh' hl hl' hn hn' same) (hl ▸ C24_level_feed_history hh) (hl' ▸ C24_level_feed_history hh')

/-- What is printed of a run: a limit order meets a resting iceberg order. -/
example : ∃ (g : Mgr) (h : List (Op × ErrorCode)), g.FreshHistory h ∧
    decide (output (fun _ => "ABC".toList) ((g.ev.map (fun e => (⟨e, 0, ⟨1, 0, 0, 0, 0, 0⟩⟩ : Entry))).drop 8) =
      ("Update level: Level(Type=BID; Price=100; TotalVolume=7; HiddenVolume=3; VisibleVolume=4; Orders=1) - Top of the book!\n" ++
       "Update order book: OrderBook(Symbol=Symbol(Id=1; Name=ABC); Bids=1; Asks=0; BuyStop=0; SellStop=0; TrailingBuyStop=0; TrailingSellStop=0) - Top of the book!\n" ++
       "Execute order: Order(Id=2; SymbolId=1; Type=LIMIT; Side=SELL; Price=100; StopPrice=0; Quantity=3; ExecutedQuantity=0; LeavesQuantity=3; GTC) with price 100 and quantity 3\n" ++
       "Delete order: Order(Id=2; SymbolId=1; Type=LIMIT; Side=SELL; Price=100; StopPrice=0; Quantity=3; ExecutedQuantity=3; LeavesQuantity=0; GTC)\n").toList) = true :=
  demoFresh (p := fun g => decide (output (fun _ => "ABC".toList) ((g.ev.map (fun e => (⟨e, 0, ⟨1, 0, 0, 0, 0, 0⟩⟩ : Entry))).drop 8) = _))
    (trading ++ [.addOrder (.mkLimit 1 1 .buy 100 10 .gtc 4), .addOrder (.mkLimit 2 1 .sell 100 3)])
    (by decide +kernel)

end CppTrader
