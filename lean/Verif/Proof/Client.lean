import Verif.Client
import Verif.Proof.Feeds
import Verif.Proof.Prices
/-
The client of Verif/Client.lean follows the engine.
-/

namespace CppTrader
open Core

/-- Replay by the client. -/
abbrev CliEv (c : Client) (evs : List Event) (c' : Client) : Prop := Replays Client.ok Client.next c evs c'

theorem Order.Updated.calm {m r : Bool} {x o : Order} (h : x.Updated ⟨m, r, false⟩ o) : o.type = x.type ∧ o.stopPrice = x.stopPrice := by
  cases h with
  | same => exact ⟨rfl, rfl⟩
  | reduced q le ok => exact ⟨rfl, rfl⟩
  | modified p q l left ok => exact ⟨rfl, rfl⟩
  | toMarket ty ok => cases ok
  | toLimit ty ok => cases ok
  | trailStop sp ty dir ok => cases ok
  | trailStopLimit sp ty dir ok => cases ok

/-- Without activation and trailing the client has nothing to check. -/
theorem cliEv_calm {m r : Bool} {c : Client} {evs : List Event} {v' w'} (h1 : OrdEv ⟨m, r, false⟩ c.orders evs v')
    (h2 : Replays LevelView.ok LevelView.next c.levels evs w') : CliEv c evs ⟨v', w', evs.foldl nextLast c.last⟩ := by
  induction evs generalizing c with
  | nil => cases h1; cases h2; rfl
  | cons e es ih =>
    refine ⟨?_, ih (c := c.next e) h1.2 h2.2⟩
    cases e <;> try trivial
    rename_i t
    obtain ⟨x, a, b⟩ := h1.1
    have := b.calm
    exact ⟨x, a, fun h => absurd this.1 h, fun _ h => absurd this.2 h⟩

/-- What the events of a change of the book of `sym` do to last prices. -/
theorem foldl_nextLast {sym : Nat} {evs : List Event} (hf : BookFeed evs) (hs : ∀ e ∈ evs, e.symbol = sym) (l : Nat → Side → Nat) (i : Nat) (sd : Side) :
    evs.foldl nextLast l i sd = if i = sym then lastPx sd (l i sd) (execsOf evs) else l i sd := by
  induction hf generalizing l with
  | nil => simp [execsOf, lastPx]
  | order e es h tl ih =>
    have hes := fun e' he' => hs e' (List.mem_cons_of_mem _ he')
    have he := hs e (by simp)
    rw [List.foldl_cons, ih hes]
    cases e <;> try (cases h; done)
    all_goals simp only [execsOf]
    case exec o p q =>
      simp only [nextLast]
      have he : o.symbolId = sym := he
      rw [he]
      by_cases hi : i = sym
      · simp only [hi, true_and, if_true]
        unfold lastPx
        simp only [List.foldl_cons]
        by_cases hsd : sd = o.side
        · rw [if_pos hsd, if_pos hsd.symm]
        · rw [if_neg hsd, if_neg (Ne.symm hsd)]
      · simp only [hi, false_and, if_false]
    all_goals rfl
  | addLevel sym l top es tl ih => rw [List.foldl_cons, List.foldl_cons, ih (fun e' he' => hs e' (by simp [he']))]; rfl
  | updateLevel sym l top es tl ih => rw [List.foldl_cons, List.foldl_cons, ih (fun e' he' => hs e' (by simp [he']))]; rfl
  | deleteLevel sym l top es tl ih => rw [List.foldl_cons, List.foldl_cons, ih (fun e' he' => hs e' (by simp [he']))]; rfl

/-- The last price of a side of a book. -/
def Book.last (b : Book) : Side → Nat
  | .buy => b.lastBid
  | .sell => b.lastAsk

theorem Px.last {xs b b'} (h : Px xs b b') (sd : Side) : b'.last sd = lastPx sd (b.last sd) xs := by
  cases sd
  · exact h.lastBid
  · exact h.lastAsk

/-- The client's knowledge while one book is being changed. -/
structure Knows (c : Client) (s : Core) (t : Option Order) : Prop where
  orders : Over c.orders s.orders t
  levels : c.levels s.book.symbol.id = s.book.view
  last : ∀ sd, c.last s.book.symbol.id sd = s.book.last sd

/-- The client follows a change of the book of `sym`. -/
structure Follows (c : Client) (s : Core) (evs : List Event) (c' : Client) (s' : Core) (t' : Option Order) : Prop where
  run : CliEv c evs c'
  knows : Knows c' s' t'
  levels : ∀ i, i ≠ s.book.symbol.id → c'.levels i = c.levels i
  last : ∀ i sd, i ≠ s.book.symbol.id → c'.last i sd = c.last i sd

theorem best_none {b : Book} {m sym} {k : Kind} (hk : k.isLimit = true) (h : KindOK m sym k (b.lv k) (b.best k)) (hb : b.best k = none) (p : Nat) :
    b.view k.isBidType p = none := by
  have hl : b.lv k = [] := by
    have := h.best
    rw [hb] at this
    cases hl : b.lv k with
    | nil => rfl
    | cons x xs => rw [hl] at this; cases this
  rw [view_at, sideKind_type hk, hl]; rfl

theorem Knows.triggers {c : Client} {s : Core} {t : Option Order} {x : Order} (h : Knows c s t) (hi : Inv s) (hx : x.symbolId = s.book.symbol.id)
    (ht : Core.triggered s.book x = true) : c.triggers x := by
  unfold Core.triggered Order.isBuy Book.marketAsk Book.marketBid at ht
  unfold Client.triggers
  rw [hx, h.levels]
  cases hs : x.side <;> rw [hs] at ht <;> simp at ht <;> simp only
  · intro p hp
    cases hb : s.book.best .ask with
    | none => exact absurd (best_none (k := .ask) rfl (hi.book.kinds .ask) hb p) hp
    | some q =>
      have := (best_isTop (k := .ask) rfl (hi.book.kinds .ask) q).1 hb
      have := this.2 p hp
      rw [hb] at ht
      simp [Kind.isBidType] at this ht
      omega
  · intro p hp
    cases hb : s.book.best .bid with
    | none => exact absurd (best_none (k := .bid) rfl (hi.book.kinds .bid) hb p) hp
    | some q =>
      have := (best_isTop (k := .bid) rfl (hi.book.kinds .bid) q).1 hb
      have := this.2 p hp
      rw [hb] at ht
      simp [Kind.isBidType] at this ht
      omega

theorem Knows.best {c : Client} {s : Core} {t : Option Order} (h : Knows c s t) (hi : Inv s) {k : Kind} (hk : k.isLimit = true) (d : Nat) :
    (c.levels s.book.symbol.id).best k.isBidType d ((s.book.best k).getD d) := by
  rw [h.levels]
  cases hb : s.book.best k with
  | none => exact .inr ⟨best_none hk (hi.book.kinds k) hb, rfl⟩
  | some q => exact .inl ((best_isTop hk (hi.book.kinds k) q).1 hb)

theorem Knows.trail {c : Client} {s : Core} {t : Option Order} {x : Order} (h : Knows c s t) (hi : Inv s) (hx : x.symbolId = s.book.symbol.id) :
    c.trailMarket x (if x.isBuy then s.book.marketTrailAsk else s.book.marketTrailBid) := by
  unfold Client.trailMarket Order.isBuy
  rw [hx]
  cases hs : x.side <;> simp
  · exact ⟨_, h.best hi (k := .ask) rfl MAX64, by rw [h.last]; rfl⟩
  · exact ⟨_, h.best hi (k := .bid) rfl 0, by rw [h.last]; rfl⟩

theorem Step.client {l s t s' t'} (st : Step l s t s' t') (hc : CInv s t) {c : Client} (hk : Knows c s t) (hf : l.freshIn s.orders) :
    ∃ evs c', s'.ev = s.ev ++ evs ∧ Follows c s evs c' s' t' := by
  have one : ∀ (o u : Order), t = some o → t' = some u → s' = s.emit (.updateOrder u) → u.id = o.id → o.type ≠ .market →
      (u.type ≠ o.type → Core.triggered s.book o = true) →
      (u.type = o.type → u.stopPrice = s.book.calcTrailing o ∧ o.isTrailing = true) →
      ∃ evs c', s'.ev = s.ev ++ evs ∧ Follows c s evs c' s' t' := by
    rintro o u rfl rfl rfl hid hnm h1 h2
    obtain ⟨a1, x, a2, a3⟩ := hk.orders.fly
    have hx : x = o := by
      rcases a3 with rfl | ⟨a3, _⟩
      · rfl
      · exact absurd a3 hnm
    subst hx
    have hsym := (hc.fly _ rfl).sym
    refine ⟨[.updateOrder u], c.next (.updateOrder u), rfl, ⟨⟨x, by rw [hid]; exact a2, ?_, ?_⟩, rfl⟩, ⟨?_, hk.levels, hk.last⟩, fun _ _ => rfl, fun _ _ _ => rfl⟩
    · intro ht; exact hk.triggers hc.inv hsym (h1 ht)
    · intro ht hne
      obtain ⟨h3, h4⟩ := h2 ht
      have hs := trailPrice_spec (hc.fly _ rfl).repr ((hc.fly _ rfl).trail h4) (if x.isBuy then s.book.marketTrailAsk else s.book.marketTrailBid)
      have hmv : x.trailMoves (if x.isBuy then s.book.marketTrailAsk else s.book.marketTrailBid) :=
        Classical.byContradiction fun hn => hne (h3.trans (hs.2 hn))
      exact ⟨_, hk.trail hc.inv hsym, hmv, h3.trans (hs.1 hmv)⟩
    · exact hk.orders.update hid
  by_cases hl : l.inScope ⟨true, true, false⟩
  · obtain ⟨evs, h⟩ := st.events hc
    obtain ⟨v', h1, h2⟩ := h.orders _ c.orders hl hk.orders hf
    have h3 := h.ev.lv c.levels hk.levels
    refine ⟨evs, _, h.ev.ev, cliEv_calm h1 h3, ⟨h2, ?_, ?_⟩, ?_, ?_⟩
    · show (c.levels.set _ _) _ = _
      rw [h.ev.bsym]; simp
    · intro sd
      show evs.foldl nextLast c.last _ _ = _
      rw [h.ev.bsym, foldl_nextLast h.ev.feed h.ev.sym, if_pos rfl, hk.last sd, h.execs, (st.px hc).last]
    · intro i hi
      show (c.levels.set _ _) _ = _
      simp [LevelView.set, hi]
    · intro i sd hi
      show evs.foldl nextLast c.last _ _ = _
      rw [foldl_nextLast h.ev.feed h.ev.sym, if_neg hi]
  · cases st with
    | activate ty trig =>
      rename_i o t
      refine one o t rfl rfl rfl ?_ ?_ (fun _ => trig) ?_
      · rcases ty with ⟨_, rfl⟩ | ⟨_, rfl⟩ <;> rfl
      · intro e
        rcases ty with ⟨ty, _⟩ | ⟨ty, _⟩ <;>
          simp [Order.isStop, Order.isTrailingStop, Order.isStopLimit, Order.isTrailingStopLimit, e] at ty
      · intro e
        rcases ty with ⟨ty, rfl⟩ | ⟨ty, rfl⟩ <;>
          simp only [Core.toMarket, Core.toLimit] at e <;>
          simp [Order.isStop, Order.isTrailingStop, Order.isStopLimit, Order.isTrailingStopLimit, ← e] at ty
    | retrail ty ne =>
      rename_i o
      refine one o _ rfl rfl rfl (retrail_id ..) ?_ ?_ ?_
      · intro e; simp [Order.isTrailing, Order.isTrailingStop, Order.isTrailingStopLimit, e] at ty
      · intro e
        exact absurd (by unfold Core.retrail; split <;> rfl) e
      · intro _
        refine ⟨?_, ty⟩
        have : o.type = .trailingStop ∨ o.type = .trailingStopLimit := by
          simpa [Order.isTrailing, Order.isTrailingStop, Order.isTrailingStopLimit] using ty
        unfold Core.retrail
        rcases this with e | e <;> rw [e]
    | _ => exact absurd (by first | trivial | rfl) hl

theorem Follows.trans {c c1 c2 : Client} {s s1 s2 : Core} {e1 e2 t1 t2} (h : Follows c s e1 c1 s1 t1) (h' : Follows c1 s1 e2 c2 s2 t2)
    (hs : s1.book.symbol = s.book.symbol) : Follows c s (e1 ++ e2) c2 s2 t2 := by
  refine ⟨h.run.append h'.run, h'.knows, fun i hi => ?_, fun i sd hi => ?_⟩
  · rw [h'.levels i (by rw [hs]; exact hi), h.levels i hi]
  · rw [h'.last i sd (by rw [hs]; exact hi), h.last i sd hi]

theorem Steps.client {A : Lbl → Prop} {s t s' t'} (h : Steps (fun l => A l ∧ l.noArrive) s t s' t') (hc : CInv s t) {c : Client} (hk : Knows c s t) :
    ∃ evs c', s'.ev = s.ev ++ evs ∧ Follows c s evs c' s' t' := by
  induction h generalizing c with
  | refl s t => exact ⟨[], c, by simp, rfl, hk, fun _ _ => rfl, fun _ _ _ => rfl⟩
  | head a st tl ih =>
    obtain ⟨e1, c1, a1, a2⟩ := st.client hc hk (by rintro o rfl; exact a.2.elim)
    obtain ⟨e2, c2, b1, b2⟩ := ih (st.inv hc) a2.knows
    obtain ⟨_, h⟩ := st.events hc
    exact ⟨e1 ++ e2, c2, by rw [b1, a1, List.append_assoc], a2.trans b2 h.ev.bsym⟩

theorem Once.client {F A s s' n} (h : Once F A s none s' none n) (hi : Inv s) (hF : F) {c : Client} (hk : Knows c s none) :
    ∃ evs c', s'.ev = s.ev ++ evs ∧ Follows c s evs c' s' none := by
  have hc := CInv.none_iff.2 hi
  cases h with
  | no h => exact h.client hc hk
  | one o h a st h' fr =>
    obtain ⟨e1, c1, a1, a2⟩ := h.client hc hk
    have hc1 := h.inv hc
    obtain ⟨e2, c2, b1, b2⟩ := st.client hc1 a2.knows (by rintro o' e; cases e; exact fr hF)
    obtain ⟨e3, c3, d1, d2⟩ := h'.client (st.inv hc1) b2.knows
    obtain ⟨_, _, x1⟩ := h.stepsEv hc
    obtain ⟨_, x2⟩ := st.events hc1
    exact ⟨_, c3, by rw [d1, b1, a1, List.append_assoc, List.append_assoc], a2.trans (b2.trans d2 x2.ev.bsym) x1.ev.bsym⟩

/-! ### Public calls -/

/-- What is there to know, in terms of the model's state. -/
def Mgr.cli (g : Mgr) : Client := ⟨g.orders, g.levels, g.lasts⟩

theorem lasts_put {g : Mgr} {n b c} (hb : slot g.books n = some b) (i : Nat) (sd : Side) :
    (g.put n c).lasts i sd = if i = n then c.book.last sd else g.lasts i sd := by
  unfold Mgr.lasts Mgr.getBook
  by_cases e : i = n
  · subst e; rw [put_getBook_same hb, if_pos rfl]; cases sd <;> rfl
  · rw [put_getBook_other e, if_neg e]

theorem Mgr.cli_knows {g : Mgr} (hi : MInv g) {n b} (hb : slot g.books n = some b) : Knows g.cli (g.core b) none := by
  obtain ⟨h1, h2⟩ := hi.inv hb
  refine ⟨rfl, ?_, ?_⟩
  · show g.levels b.symbol.id = b.view
    rw [h2]; unfold Mgr.levels Mgr.getBook; rw [hb]
  · intro sd
    show g.lasts b.symbol.id sd = b.last sd
    rw [h2]; unfold Mgr.lasts Mgr.getBook; rw [hb]; cases sd <;> rfl

theorem Follows.put {g : Mgr} (hi : MInv g) {n b s' evs c'} (hb : slot g.books n = some b) (hsym : s'.book.symbol = b.symbol)
    (h : Follows g.cli (g.core b) evs c' s' none) : CliEv g.cli evs (g.put n s').cli := by
  obtain ⟨h1, h2⟩ := hi.inv hb
  have e : c' = (g.put n s').cli := by
    have k1 := h.knows.orders
    have k2 := h.knows.levels
    have k3 := h.knows.last
    rw [hsym, h2] at k2 k3
    have l1 : ∀ i, i ≠ n → c'.levels i = g.levels i := fun i hi' => h.levels i (by rw [show (g.core b).book.symbol.id = n from h2]; exact hi')
    have l2 : ∀ i sd, i ≠ n → c'.last i sd = g.lasts i sd := fun i sd hi' => h.last i sd (by rw [show (g.core b).book.symbol.id = n from h2]; exact hi')
    obtain ⟨o, lv, la⟩ := c'
    unfold Mgr.cli
    have e1 : o = (g.put n s').orders := k1
    have e2 : lv = (g.put n s').levels := by
      rw [levels_put hb]
      funext i
      unfold LevelView.set
      by_cases e : i = n
      · rw [if_pos e, e]; exact k2
      · rw [if_neg e]; exact l1 i e
    have e3 : la = (g.put n s').lasts := by
      funext i sd
      rw [lasts_put hb]
      by_cases e : i = n
      · rw [if_pos e, e]; exact k3 sd
      · rw [if_neg e]; exact l2 i sd e
    rw [e1, e2, e3]
  rw [← e]; exact h.run

/-- The client follows a call. -/
structure CallCli (g g' : Mgr) (evs : List Event) : Prop where
  ev : g'.ev = g.ev ++ evs
  run : CliEv g.cli evs g'.cli

theorem CallCli.trans {g g1 g2 e1 e2} (h : CallCli g g1 e1) (h' : CallCli g1 g2 e2) : CallCli g g2 (e1 ++ e2) :=
  ⟨by rw [h'.ev, h.ev, List.append_assoc], h.run.append h'.run⟩

theorem BookOp.client {tag sym g g' e} (h : BookOp tag sym g g' e) (hi : MInv g) (hf : tag.freshIn g.orders) :
    ∃ evs, CallCli g g' evs := by
  obtain ⟨b, s', k1, k2, rfl⟩ := h.ex
  obtain ⟨evs, c', a1, a2⟩ := k2.once.client (hi.inv k1).1 hf (Mgr.cli_knows hi k1)
  obtain ⟨_, _, x⟩ := k2.steps.stepsEv (CInv.none_iff.2 (hi.inv k1).1)
  exact ⟨evs, a1, a2.put hi k1 x.ev.bsym⟩

theorem Acts.client {g g'} (h : Acts (fun _ => EngL) g g') (hi : MInv g) : ∃ evs, CallCli g g' evs := by
  induction h with
  | refl g => exact ⟨[], by simp, rfl⟩
  | book hb hs tl ih =>
    have hc := CInv.none_iff.2 (hi.inv hb).1
    obtain ⟨e1, c', a1, a2⟩ := (hs.mono (B := fun l => EngL l ∧ l.noArrive) fun l h => ⟨h, h.noArrive⟩).client hc (Mgr.cli_knows hi hb)
    obtain ⟨_, _, x⟩ := hs.stepsEv hc
    obtain ⟨e2, b1⟩ := ih (hi.put hb hs)
    exact ⟨_, CallCli.trans ⟨a1, a2.put hi hb x.ev.bsym⟩ b1⟩

theorem CallCli.reg {g g' : Mgr} {ev : Event} (h1 : g'.ev = g.ev ++ [ev]) (h2 : Client.ok g.cli ev) (h3 : OrderView.next g.orders ev = g'.orders)
    (h4 : Replays LevelView.ok LevelView.next g.levels [ev] g'.levels) (h5 : ∀ i sd, nextLast g.lasts ev i sd = g'.lasts i sd) :
    ∃ evs, CallCli g g' evs := by
  refine ⟨[ev], h1, h2, ?_⟩
  have h4 : LevelView.next g.levels ev = g'.levels := h4.2
  have h5 : nextLast g.lasts ev = g'.lasts := funext fun i => funext fun sd => h5 i sd
  show (⟨OrderView.next g.orders ev, LevelView.next g.levels ev, nextLast g.lasts ev⟩ : Client) = ⟨g'.orders, g'.levels, g'.lasts⟩
  rw [h3, h4, h5]

theorem StepEff.client {g : Mgr} (hi : MInv g) {op : Op} {g' e} (h : StepEff g op g' e) (ha : g.Admissible op) (hs : g.step op = .ok (g', e))
    (hf : g.FreshId op) : ∃ evs, CallCli g g' evs := by
  cases h with
  | refused h => rw [h.1]; exact ⟨[], by simp, rfl⟩
  | addSymbol hn hv => exact CallCli.reg rfl trivial rfl ⟨trivial, rfl⟩ fun _ _ => rfl
  | deleteSymbol hn hv => exact CallCli.reg rfl trivial rfl ⟨trivial, rfl⟩ fun _ _ => rfl
  | addBook hr hn hv =>
    rename_i sym reg v
    refine CallCli.reg rfl trivial rfl ⟨trivial, ?_⟩ ?_
    · funext i
      unfold Mgr.levels Mgr.getBook
      simp only [LevelView.next, hv i]
      by_cases e : i = sym.id
      · rw [if_pos e, e, hn]
        funext b p
        unfold Book.view Book.new
        cases b <;> rfl
      · rw [if_neg e]
    · intro i sd
      unfold Mgr.lasts Mgr.getBook
      simp only [nextLast, hv i, show reg.id = sym.id from (hi.symbols _ _ hr).1]
      by_cases e : i = sym.id
      · rw [if_pos e, if_pos e]; cases sd <;> rfl
      · rw [if_neg e, if_neg e]
  | deleteBook hn hv =>
    rename_i id b v
    have hb := (hi.books _ _ hn).1
    refine CallCli.reg rfl trivial rfl ⟨trivial, ?_⟩ ?_
    · funext i
      unfold Mgr.levels Mgr.getBook
      simp only [LevelView.next, LevelView.set, hv i, hb]
      by_cases e : i = id
      · rw [if_pos e, if_pos e]
      · rw [if_neg e, if_neg e]
    · intro i sd
      unfold Mgr.lasts Mgr.getBook
      simp only [nextLast, hv i, hb]
      by_cases e : i = id
      · rw [if_pos e, if_pos e]
      · rw [if_neg e, if_neg e]
  | book on h => exact h.client hi (Op.on_fresh hi on hf)
  | @replaceWith id o old _ _ _ ho h1 h2 =>
    clear h1 h2
    obtain ⟨g1, e1, d1, d2, d3⟩ := deleteOrder_mgr hi id
    simp only [Mgr.step, Mgr.replaceWith] at hs
    rw [d1, Except.bind_ok] at hs
    simp only at hs
    by_cases he : e1 = .ok
    · subst he
      simp only [ne_eq, not_true, if_false] at hs
      rcases d2 with d2 | ⟨old, d2, d4⟩
      · exact absurd rfl d2.2.1
      · obtain ⟨ev1, f1, f2⟩ := d4.feed hi trivial (sc := ⟨true, true, true⟩) (fun _ => rfl) (fun _ => rfl) (fun _ => rfl)
        replace f2 : addsOf ev1 = [] := by
          rcases f2 with f2 | ⟨_, _, f2⟩
          · exact f2.1
          · cases f2
        obtain ⟨e1, c1⟩ := d4.client hi trivial
        obtain ⟨g2, e2, a1, a2⟩ := addOrder_mgr (d4.minv hi) ha.1 (fun b hb => by
          obtain ⟨b0, h1, h2⟩ := d3 _ b hb
          have := ha.2 b0 h1; omega)
        rw [a1] at hs
        cases hs
        rcases a2 with a2 | ⟨_, a2⟩
        · rw [a2.1]; exact ⟨e1, c1⟩
        · have hfr : g1.orders o.id = none := by
            by_cases e : o.id = id
            · rw [e]; exact delete_gone hi d1
            · rcases hf with hf | hf
              · exact absurd hf e
              · rw [hi.getOrder] at hf
                exact (f1.orders.absent hf (by rw [f2]; simp)).1
          obtain ⟨e2, c2⟩ := a2.client (d4.minv hi) hfr
          exact ⟨_, c1.trans c2⟩
    · simp only [he, ne_eq, not_false_eq_true, if_true] at hs
      cases hs
      rcases d2 with d2 | ⟨old, d2, d4⟩
      · rw [d2.1]; exact ⟨[], by simp, rfl⟩
      · exact d4.client hi trivial
  | enable acts all hm =>
    have hi' : MInv { g with matching := true } := ⟨hi.orders, hi.books, hi.symbols⟩
    obtain ⟨evs, h⟩ := acts.client hi'
    exact ⟨evs, h.ev, h.run⟩
  | disable => exact ⟨[], by simp, rfl⟩
  | all acts all hm => exact acts.client hi

end CppTrader
