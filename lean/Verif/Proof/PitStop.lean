import Verif.Proof.Pit
/-
Release of stop orders: the engine's activation and the reference.
-/

namespace CppTrader
open Core

theorem Step.plays {l s t s' t'} (st : Step l s t s' t') (hc : CInv s t) : Plays s (l.execs, s'.pit) s' := by
  obtain ⟨evs, h⟩ := st.events hc
  exact ⟨(st.inv hc).inv, rfl, (st.iso hc).1, evs, h.ev, h.execs⟩

theorem Plays.to {s s' xs p q} (h : Plays s (xs, p) s') (e : p = q) : Plays s (xs, q) s' := e ▸ h

theorem Plays.then {s s1 s2 xs q p} (h : Plays s ([], p) s1) (h' : Plays s1 (xs, q) s2) : Plays s (xs, q) s2 := by
  have := h.trans h'; rwa [List.nil_append] at this

theorem Plays.next {s s1 s2 xs q p} (h : Plays s (xs, p) s1) (h' : Plays s1 ([], q) s2) : Plays s (xs, q) s2 := by
  have := h.trans h'; rwa [List.append_nil] at this

theorem Plays.emit {s : Core} (hi : Inv s) {e : Event} (h1 : e.isOrder = true) (h2 : e.symbol = s.book.symbol.id) (h3 : execsOf [e] = []) :
    Plays s ([], s.pit) (s.emit e) := ⟨hi.emit e, rfl, .refl _ _, [e], Ev.emit s h1 h2, h3⟩

theorem pit_same {s s' : Core} {k} (h : Book.SameBut k s.book s'.book) : s'.pit = { s.pit with board := s'.line } := by
  unfold Core.pit
  rw [h.lastBid, h.lastAsk, h.matchBid, h.matchAsk, h.trailBid, h.trailAsk]

/-- An order is taken out. -/
theorem take_plays {s s1 : Core} {o : Order} (hi : Inv s) (mem : s.orders o.id = some o) (sym : o.symbolId = s.book.symbol.id)
    (run : s.unlink o = .ok s1) : Plays s ([], s.pit.change o.id none) s1 ∧ CInv s1 (some o) ∧ s1.orders o.id = none := by
  have st : Step (.take o) s none s1 (some o) := .take mem sym run
  obtain ⟨k, a1, a2, a3, a4, a5, a6⟩ := hi.take mem sym run
  refine ⟨(st.plays (CInv.none_iff.2 hi)).to ?_, st.inv (CInv.none_iff.2 hi), by rw [a3.orders]; simp⟩
  rw [pit_same a4, unlink_line hi mem sym run]
  rfl

/-- What is left of an order joins its line. -/
theorem link_plays {s s2 : Core} {t : Order} (hc : CInv s (some t)) (hr : t.rests) (hf : s.orders t.id = none) (hl : s.link t = .ok s2) :
    Plays s ([], s.pit.land t) s2 := by
  have st : Step (.put t) s (some t) s2 none := .put hf hr.1 hr.2.1 hr.2.2 hl
  obtain ⟨k, a1, a2, a3, a4, a5, a6⟩ := hc.inv.put (hc.fly _ rfl) hf hr.1 hr.2.1 hr.2.2 hl
  refine (st.plays hc).to ?_
  unfold Pit.land
  rw [pit_same a4, if_pos hr]
  have e : s2.line = s.pit.board.insert t := by
    funext k
    rw [line_put hc.inv (hc.fly _ rfl) hf hr.1 hr.2.1 hr.2.2 hl]
    unfold Board.insert
    rw [home_kind]
    rfl
  rw [e]

/-- What is left of an order is dropped. -/
theorem drop_plays {s : Core} {t : Order} (hc : CInv s (some t)) (hr : ¬ t.rests) : Plays s ([], s.pit.land t) (s.emit (.deleteOrder t)) := by
  have st : Step (.cancel t) s (some t) (s.emit (.deleteOrder t)) none := .cancel
  refine (st.plays hc).to ?_
  unfold Pit.land
  rw [if_neg hr]
  rfl

theorem Fly.toMarket {s : Core} {o : Order} (hf : Fly s o) : Fly s (toMarket o) := by
  refine hf.of_same ?_ rfl rfl rfl (Nat.le_refl _) (by simp [toMarket_not_trailing])
  have := hf.repr; unfold Order.Repr64 Core.toMarket at *; simp only; omega
theorem Fly.toLimit {s : Core} {o : Order} (hf : Fly s o) : Fly s (toLimit o) := by
  refine hf.of_same ?_ rfl rfl rfl (Nat.le_refl _) (by simp [toLimit_not_trailing])
  have := hf.repr; unfold Order.Repr64 Core.toLimit at *; simp only; omega

theorem released_market {o : Order} (h : o.type = .stop ∨ o.type = .trailingStop) : o.released = toMarket o := by
  unfold Order.released toMarket Order.isFOK
  rcases h with h | h <;> simp [h]
theorem released_limit {o : Order} (h : o.type = .stopLimit ∨ o.type = .trailingStopLimit) : o.released = toLimit o := by
  unfold Order.released toLimit
  rcases h with h | h <;> simp [h]

/-- The reference releases `o`. -/
theorem release_eq (p : Pit) (o : Order) : p.release o =
    (((p.change o.id none).strike true o.released).1, ((p.change o.id none).strike true o.released).2.2.land ((p.change o.id none).strike true o.released).2.1) := rfl

theorem Strikes.land {m s t s2 t2} (h : Strikes m s t s2 t2) {s3 : Core} (h3 : Plays s2 ([], s2.pit.land t2) s3) :
    Plays s ((s.pit.strike m t).1, (s.pit.strike m t).2.2.land (s.pit.strike m t).2.1) s3 := by
  refine h.plays.next ?_
  rw [← h.plays.pit, ← h.left]
  exact h3

theorem activateStop_plays {s s' : Core} {o : Order} (hi : Inv s) (mem : s.orders o.id = some o) (sym : o.symbolId = s.book.symbol.id)
    (ty : o.type = .stop ∨ o.type = .trailingStop) (run : s.activateStop o = .ok s') : Plays s (s.pit.release o) s' := by
  unfold activateStop at run
  obtain ⟨s1, h1, run⟩ := bind_inv run
  obtain ⟨p1, c1, n1⟩ := take_plays hi mem sym h1
  obtain ⟨⟨s2, t2⟩, h2, run⟩ := bind_inv run
  cases run
  have hpos := (hi.orders _ _ mem).2.leaves
  have hf := (c1.fly _ rfl).toMarket
  have c2 : CInv (s1.emit (.updateOrder (toMarket o))) (some (toMarket o)) :=
    ⟨c1.inv.emit _, fun t h => by cases h; exact ⟨hf.repr, hf.idPos, hf.sym, hf.vol, hf.trail⟩⟩
  have hst := matchMarket_strikes c2 hpos rfl h2
  rw [release_eq, released_market ty]
  refine p1.then ((Plays.emit c1.inv (e := .updateOrder (toMarket o)) rfl hf.sym rfl).then ?_)
  rw [show s.pit.change o.id none = s1.pit from p1.pit.symm]
  refine hst.land (drop_plays hst.hit.cinv ?_)
  intro hr
  exact hr.2.1 hst.hit.facts.2.1

theorem activateStopLimit_plays {s s' : Core} {o : Order} (hi : Inv s) (mem : s.orders o.id = some o) (sym : o.symbolId = s.book.symbol.id)
    (ty : o.type = .stopLimit ∨ o.type = .trailingStopLimit) (run : s.activateStopLimit o = .ok s') : Plays s (s.pit.release o) s' := by
  unfold activateStopLimit at run
  obtain ⟨s1, h1, run⟩ := bind_inv run
  obtain ⟨p1, c1, n1⟩ := take_plays hi mem sym h1
  obtain ⟨⟨s2, t2⟩, h2, run⟩ := bind_inv run
  have hpos := (hi.orders _ _ mem).2.leaves
  have hf := (c1.fly _ rfl).toLimit
  have c2 : CInv (s1.emit (.updateOrder (toLimit o))) (some (toLimit o)) :=
    ⟨c1.inv.emit _, fun t h => by cases h; exact ⟨hf.repr, hf.idPos, hf.sym, hf.vol, hf.trail⟩⟩
  have hst := matchIf_strikes (m := true) c2 hpos (by simp [toLimit]) (by unfold matchIf; exact h2)
  rw [release_eq, released_limit ty]
  refine p1.then ((Plays.emit c1.inv (e := .updateOrder (toLimit o)) rfl hf.sym rfl).then ?_)
  rw [show s.pit.change o.id none = s1.pit from p1.pit.symm]
  have hty : t2.type = .limit := hst.hit.facts.2.1
  have hiff := rests_limit hty
  simp only at run
  by_cases hr : (decide (t2.leaves > 0) && !t2.isIOC && !t2.isFOK) = true
  · rw [if_pos hr] at run
    refine hst.land (link_plays hst.hit.cinv (hiff.1 hr) ?_ run)
    rw [hst.hit.facts.1]
    exact hst.hit.none _ n1
  · rw [if_neg hr] at run
    cases run
    exact hst.land (drop_plays hst.hit.cinv fun h => hr (hiff.2 h))

theorem activateOrder_plays {s s' : Core} {o : Order} (hi : Inv s) (mem : s.orders o.id = some o) (sym : o.symbolId = s.book.symbol.id)
    (run : s.activateOrder o.id = .ok s') : Plays s (s.pit.release o) s' := by
  unfold activateOrder at run
  rw [Core.get_ok mem, Except.bind_ok] at run
  cases ht : o.type with
  | market => rw [ht] at run; cases run
  | limit => rw [ht] at run; cases run
  | stop => rw [ht] at run; exact activateStop_plays hi mem sym (.inl ht) run
  | trailingStop => rw [ht] at run; exact activateStop_plays hi mem sym (.inr ht) run
  | stopLimit => rw [ht] at run; exact activateStopLimit_plays hi mem sym (.inl ht) run
  | trailingStopLimit => rw [ht] at run; exact activateStopLimit_plays hi mem sym (.inr ht) run

/-! ### Several stop orders -/

theorem strike_facts (m : Bool) (p : Pit) (t : Order) : (p.strike m t).2.1.type = t.type ∧ (p.strike m t).2.1.id = t.id ∧
    (p.strike m t).2.1.side = t.side ∧ (p.strike m t).2.1.tif = t.tif := by
  unfold Pit.strike Board.strike
  cases m with
  | false => exact ⟨rfl, rfl, rfl, rfl⟩
  | true =>
    simp only [if_true]
    obtain ⟨a, b, c, d, e⟩ := left_facts (t.capped (p.board t.side.other.limits)) (p.board t.side.other.limits)
    rw [a, c, d, e]
    unfold Order.capped
    split <;> exact ⟨rfl, rfl, rfl, rfl⟩

theorem strike_other (m : Bool) (p : Pit) (t : Order) {k : Kind} (hk : k.isLimit = false) : (p.strike m t).2.2.board k = p.board k := by
  unfold Pit.strike Board.strike
  cases m with
  | false => rfl
  | true =>
    simp only [if_true]
    unfold Board.put
    rw [if_neg]
    intro e
    rw [e] at hk
    cases hs : t.side <;> simp [hs, Side.other, Side.limits, Kind.isLimit] at hk

theorem insert_other {l : Board} {t : Order} {k : Kind} (h : t.kind ≠ some k) : l.insert t k = l k := by
  unfold Board.insert; rw [home_kind, if_neg h]

theorem released_type {o : Order} (h : o.type ≠ .limit) (h' : o.type ≠ .market) : o.released.type = .limit ∨ o.released.type = .market := by
  unfold Order.released
  cases ht : o.type <;> simp_all

theorem land_stop {p : Pit} {t : Order} (h : t.type = .limit ∨ t.type = .market) {k : Kind} (hk : k.isLimit = false) : (p.land t).board k = p.board k := by
  unfold Pit.land
  split
  · refine insert_other ?_
    intro e
    rcases h with h | h
    · have := (kind_type e).2 h; rw [hk] at this; cases this
    · simp [Order.kind, h] at e
  · rfl

theorem release_stop (p : Pit) {o : Order} (h : o.type ≠ .limit) (h' : o.type ≠ .market) {k : Kind} (hk : k.isLimit = false) :
    (p.release o).2.board k = p.board.change o.id none k := by
  rw [release_eq]
  refine (land_stop ?_ hk).trans (strike_other _ _ _ hk)
  rw [(strike_facts _ _ _).1]
  exact released_type h h'

theorem stop_type {o : Order} {k} (h : o.kind = some k) (hk : k.isLimit = false) : o.type ≠ .limit ∧ o.type ≠ .market :=
  ⟨fun e => by (have := (kind_type h).2 e; rw [hk] at this; cases this), fun e => by simp [Order.kind, e] at h⟩

theorem chg_head {o : Order} {R : List Order} (h : ((o :: R).map (·.id)).Nodup) : chg o.id none (o :: R) = R := by
  have hn : ∀ r ∈ R, r.id ≠ o.id := by
    intro r hr e
    rw [List.map_cons, List.nodup_cons] at h
    exact h.1 (by rw [← e]; exact List.mem_map_of_mem hr)
  show List.filterMap _ (o :: R) = R
  rw [List.filterMap_cons, if_pos rfl]
  exact chg_id hn

theorem activateIds_plays {k : Kind} (hk : k.isLimit = false) (os : List Order) : ∀ {s s' : Core} {R : List Order} {r r' : Bool}, Inv s →
    s.line k = os ++ R → activateIds (os.map (·.id)) s r = .ok (s', r') → Plays s (Pit.releaseAll os s.pit) s' ∧ r' = (r || !os.isEmpty) := by
  induction os with
  | nil =>
    intro s s' R r r' hi _ run
    cases run
    exact ⟨.refl hi, by simp⟩
  | cons o os ih =>
    intro s s' R r r' hi hl run
    obtain ⟨s1, h1, run⟩ := bind_inv run
    obtain ⟨m1, m2, m3⟩ := (line_mem hi).1 (show o ∈ s.line k by rw [hl]; simp)
    obtain ⟨ty1, ty2⟩ := stop_type m3 hk
    have hp := activateOrder_plays hi m1 m2 h1
    have hl1 : s1.line k = os ++ R := by
      have : s1.pit.board k = _ := congrArg (fun p : Pit => p.board k) hp.pit
      rw [release_stop _ ty1 ty2 hk] at this
      rw [show s1.line k = s1.pit.board k from rfl, this]
      show chg o.id none (s.line k) = _
      rw [hl]
      refine chg_head ?_
      have := line_nodup hi k
      rw [hl] at this; exact this
    obtain ⟨g1, g2⟩ := ih hp.inv hl1 run
    refine ⟨?_, by rw [g2]; simp⟩
    rw [hp.pit] at g1
    exact hp.trans g1

/-! ### Price levels -/

theorem group_line {s : Core} (hi : Inv s) {k l} (hl : l ∈ s.book.lv k) : (restOf s l.ids).map (·.id) = l.ids ∧ restOf s l.ids ≠ [] ∧
    ∀ r ∈ restOf s l.ids, r.key = l.price := by
  have hok := (hi.book.kinds k).levels l hl
  have h1 : ∀ ids : List Nat, (∀ i ∈ ids, i ∈ l.ids) → (restOf s ids).map (·.id) = ids := by
    intro ids
    induction ids with
    | nil => intro _; rfl
    | cons i is ih =>
      intro h
      obtain ⟨o, g1, _⟩ := hok.mem i (h i (by simp))
      have e := (hi.orders i o g1).1
      unfold restOf at ih ⊢
      rw [List.filterMap_cons, g1]
      simp only [List.map_cons, e]
      rw [ih fun j hj => h j (by simp [hj])]
  have h2 := h1 l.ids fun _ h => h
  refine ⟨h2, ?_, ?_⟩
  · intro e
    rw [e] at h2
    exact hok.nonempty h2.symm
  · intro r hr
    obtain ⟨i, hi', hr⟩ := restOf_mem.1 hr
    obtain ⟨o, g1, _, _, g4⟩ := hok.mem i hi'
    rw [hr] at g1; cases g1
    exact g4

/-- The first level and the rest of the line. -/
theorem line_first {s : Core} (hi : Inv s) {k l ls} (hlv : s.book.lv k = l :: ls) :
    s.line k = restOf s l.ids ++ restOf s (flatOf ls) ∧ ∀ r ∈ restOf s (flatOf ls), r.key ≠ l.price := by
  refine ⟨by unfold Core.line queue; rw [hlv, flatOf_cons, restOf_append], ?_⟩
  intro r hr e
  obtain ⟨i, hi', hr⟩ := restOf_mem.1 hr
  obtain ⟨l', hl', hm⟩ := mem_flatOf.1 hi'
  have hs := (hi.book.kinds k).sorted
  rw [hlv] at hs
  have hb := List.rel_of_pairwise_cons hs hl'
  have hk := (group_line hi (show l' ∈ s.book.lv k by rw [hlv]; simp [hl'])).2.2 r (restOf_mem.2 ⟨i, hm, hr⟩)
  rw [← hk, e, better_irrefl] at hb
  cases hb

theorem takeWhile_first {α : Type} {p : α → Bool} {xs ys : List α} (h1 : ∀ x ∈ xs, p x = true) (h2 : ∀ y ∈ ys, p y = false) :
    (xs ++ ys).takeWhile p = xs := by
  induction xs with
  | nil =>
    cases ys with
    | nil => rfl
    | cons y ys => simp [h2 y (by simp)]
  | cons x xs ih =>
    rw [List.cons_append, List.takeWhile_cons, h1 x (by simp)]
    simp only [if_true]
    rw [ih fun x hx => h1 x (by simp [hx])]

/-- The price a stop collection reacts to. -/
def stopMarket (k : Kind) (b : Book) : Nat := if k.isBidType then b.marketBid else b.marketAsk

theorem reached_iff {s : Core} (hi : Inv s) {o : Order} {k : Kind} (h : o.kind = some k) (hk : k.isLimit = false) :
    s.pit.reached o ↔ if k.isBidType then stopMarket k s.book ≤ o.key else o.key ≤ stopMarket k s.book := by
  have hs := stop_side h hk
  have hkey := key_stop h hk
  unfold Pit.reached stopMarket
  rw [hs, hkey, pit_ask hi, pit_bid hi]
  unfold stopSide
  cases k.isBidType <;> simp

theorem due_first {s : Core} (hi : Inv s) {k l ls} (hk : k.isLimit = false) (hlv : s.book.lv k = l :: ls) :
    s.pit.due k = if (if k.isBidType then stopMarket k s.book ≤ l.price else l.price ≤ stopMarket k s.book) then restOf s l.ids else [] := by
  obtain ⟨h1, h2⟩ := line_first hi hlv
  obtain ⟨g1, g2, g3⟩ := group_line hi (show l ∈ s.book.lv k by rw [hlv]; simp)
  unfold Pit.due
  rw [show s.pit.board k = s.line k from rfl]
  cases hg : restOf s l.ids with
  | nil => exact absurd hg g2
  | cons o os =>
    rw [hg] at h1 g3
    rw [h1, List.cons_append]
    simp only
    have hm : ∀ r ∈ s.line k, r.kind = some k := fun r hr => ((line_mem hi).1 hr).2.2
    have ho := hm o (by rw [h1]; simp)
    have hko := g3 o (by simp)
    have hri := reached_iff hi ho hk
    rw [hko] at hri
    by_cases hr : s.pit.reached o
    · rw [if_pos hr, if_pos (hri.1 hr)]
      congr 1
      refine takeWhile_first ?_ ?_
      · intro x hx
        have e := g3 x (by simp [hx])
        rw [key_stop (hm x (by rw [h1]; simp [hx])) hk] at e
        rw [key_stop ho hk] at hko
        simp [e, hko]
      · intro y hy
        have e := h2 y hy
        rw [key_stop (hm y (by rw [h1]; simp [hy])) hk] at e
        rw [key_stop ho hk] at hko
        simp [e, hko]
    · rw [if_neg hr, if_neg (fun h => hr (hri.2 h))]

theorem activateLevel_plays {s s' : Core} {k : Kind} {p : Nat} {r : Bool} (hi : Inv s) (hk : k.isLimit = false) (hp : p = stopMarket k s.book)
    (run : s.activateLevel k p = .ok (s', r)) : Plays s (Pit.releaseAll (s.pit.due k) s.pit) s' ∧ r = !(s.pit.due k).isEmpty := by
  unfold activateLevel at run
  cases hb : s.book.best k with
  | none =>
    rw [hb] at run; cases run
    have : s.pit.due k = [] := by unfold Pit.due; rw [show s.pit.board k = s.line k from rfl, (best_empty hi k).1 hb]
    rw [this]
    exact ⟨.refl hi, rfl⟩
  | some b =>
    rw [hb] at run
    obtain ⟨l, ls, hlv, rfl⟩ := hi.best_level hb
    rw [due_first hi hk hlv, ← hp]
    simp only at run
    by_cases hc : (if k.isBidType = true then p ≤ l.price else l.price ≤ p)
    · rw [if_pos hc] at run ⊢
      rw [hlv, findLevel_head] at run
      simp only at run
      obtain ⟨g1, g2, g3⟩ := group_line hi (show l ∈ s.book.lv k by rw [hlv]; simp)
      rw [← g1] at run
      obtain ⟨a, b⟩ := activateIds_plays hk _ hi (line_first hi hlv).1 run
      exact ⟨a, by rw [b]; rfl⟩
    · rw [if_neg hc] at run ⊢
      cases run
      exact ⟨.refl hi, rfl⟩

theorem activateEither_plays {s s' : Core} {k k' : Kind} {f : Book → Nat} {r : Bool} (hi : Inv s) (hk : k.isLimit = false) (hk' : k'.isLimit = false)
    (hf : f = stopMarket k) (hf' : f = stopMarket k') (run : s.activateEither k k' f = .ok (s', r)) :
    Plays s (Pit.releaseAll (s.pit.next k k') s.pit) s' ∧ r = !(s.pit.next k k').isEmpty := by
  unfold activateEither at run
  obtain ⟨⟨s1, r1⟩, h1, run⟩ := bind_inv run
  obtain ⟨a, b⟩ := activateLevel_plays hi hk (by rw [hf]) h1
  unfold Pit.next
  cases hd : s.pit.due k with
  | cons o os =>
    rw [hd] at a b
    subst b
    cases run
    exact ⟨a, rfl⟩
  | nil =>
    rw [hd] at a b
    subst b
    rw [if_pos rfl]
    simp only [List.isEmpty_nil, Bool.not_true, Bool.false_eq_true, if_false] at run
    obtain ⟨c, d⟩ := activateLevel_plays a.inv hk' (by rw [hf']) run
    have e : s1.pit = s.pit := a.pit
    rw [e] at c d
    exact ⟨(show Plays s ([], s.pit) s1 from a).then c, d⟩

end CppTrader
