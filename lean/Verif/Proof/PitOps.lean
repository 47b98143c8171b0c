import Verif.Proof.PitCross
/-
The order operations on one book and the reference.
-/

namespace CppTrader
open Core

theorem reset_plays {s : Core} (hi : Inv s) : Plays s ([], { s.pit with heard := .blank }) s.reset := by
  have st : Step .reset s none s.reset none := .reset
  refine (st.plays (CInv.none_iff.2 hi)).to ?_
  rfl

theorem finish_plays {m : Bool} {s s' : Core} {e} (hi : Inv s) (run : s.finish m = .ok (s', e)) : e = .ok ∧ Plays s (s.pit.close m) s' := by
  unfold finish at run
  unfold Pit.close
  cases m with
  | false =>
    cases run
    exact ⟨rfl, reset_plays hi⟩
  | true =>
    simp only [if_true] at run ⊢
    obtain ⟨s1, h1, h2⟩ := bind_inv run
    cases h2
    refine ⟨rfl, ?_⟩
    have p := matchBook_plays hi h1
    have q := reset_plays p.inv
    rw [p.pit] at q
    exact Plays.next (xs := s.pit.rest.1) (p := s.pit.rest.2) p q

/-- A new order did what the reference says: what is left of it stays, unless its id is in use. -/
def Lands (m : Bool) (s : Core) (r : List Execution × Order × Pit) (s' : Core) (e : ErrorCode) : Prop :=
  ∃ s2, Plays s (r.1, r.2.2) s2 ∧
    (r.2.1.rests ∧ s2.orders r.2.1.id ≠ none ∧ e = .orderDuplicate ∧ Plays s2 ([], r.2.2) s' ∨
     ¬ (r.2.1.rests ∧ s2.orders r.2.1.id ≠ none) ∧ e = .ok ∧ Plays s2 ((r.2.2.land r.2.1).close m) s')

theorem finish_after {m : Bool} {s s1 s' : Core} {e p} (h : Plays s ([], p) s1) (run : s1.finish m = .ok (s', e)) : e = .ok ∧ Plays s (p.close m) s' := by
  obtain ⟨a, b⟩ := finish_plays h.inv run
  rw [h.pit] at b
  exact ⟨a, h.then b⟩

theorem insertNew_lands {m : Bool} {s s1 s' : Core} {t : Order} {e} {r : List Execution × Order × Pit} (h : Plays s (r.1, r.2.2) s1)
    (hc : CInv s1 (some t)) (ht : t = r.2.1) (hr : t.rests) (run : s1.insertNew m t = .ok (s', e)) : Lands m s r s' e := by
  subst ht
  refine ⟨s1, h, ?_⟩
  unfold insertNew at run
  cases ho : s1.orders r.2.1.id with
  | some x =>
    rw [ho] at run
    simp only at run
    cases run
    have st : Step (.cancel r.2.1) s1 (some r.2.1) (s1.emit (.deleteOrder r.2.1)) none := .cancel
    exact .inl ⟨hr, by simp, rfl, (st.plays hc).to h.pit⟩
  | none =>
    rw [ho] at run
    simp only at run
    obtain ⟨s2, h1, h2⟩ := bind_inv run
    have p := link_plays hc hr ho h1
    rw [h.pit] at p
    obtain ⟨a, b⟩ := finish_after p h2
    exact .inr ⟨fun h => h.2 rfl, a, b⟩

theorem drop_lands {m : Bool} {s s1 s' : Core} {t : Order} {e} {r : List Execution × Order × Pit} (h : Plays s (r.1, r.2.2) s1)
    (hc : CInv s1 (some t)) (ht : t = r.2.1) (hr : ¬ t.rests) (run : (s1.emit (.deleteOrder t)).finish m = .ok (s', e)) : Lands m s r s' e := by
  subst ht
  have p := drop_plays hc hr
  rw [h.pit] at p
  obtain ⟨a, b⟩ := finish_after p run
  exact ⟨s1, h, .inr ⟨fun h => hr h.1, a, b⟩⟩

theorem restOrCancel_lands {m : Bool} {s s1 s' : Core} {t : Order} {e} {r : List Execution × Order × Pit} (h : Plays s (r.1, r.2.2) s1)
    (hc : CInv s1 (some t)) (ht : t = r.2.1) (hl : t.type = .limit) (run : s1.restOrCancel m t = .ok (s', e)) : Lands m s r s' e := by
  unfold restOrCancel at run
  by_cases hr : (decide (t.leaves > 0) && !t.isIOC && !t.isFOK) = true
  · rw [if_pos hr] at run
    exact insertNew_lands h hc ht ((rests_limit hl).1 hr) run
  · rw [if_neg hr] at run
    exact drop_lands h hc ht (fun h => hr ((rests_limit hl).2 h)) run

theorem retrailed_plain {o : Order} (m : Nat) (h : ¬ o.trails) : o.retrailed m = o := by
  unfold Order.retrailed; rw [if_neg fun x => h x.1]

theorem retrailed_still {o : Order} (m : Nat) (h : ¬ o.trailMoves m) : o.retrailed m = o := by
  unfold Order.retrailed; rw [if_neg fun x => h x.2]

/-- The price trailing orders of a side follow. -/
def Pit.trail (p : Pit) (sd : Side) : Nat := match sd with | .buy => p.trailAsk | .sell => p.trailBid

theorem enter_eq (m : Bool) (p : Pit) (o : Order) : p.enter m o =
    if (o.retrailed (p.trail o.side)).waits ∧ ¬ (m = true ∧ p.reached (o.retrailed (p.trail o.side))) then ([], o.retrailed (p.trail o.side), p)
    else p.strike m (o.retrailed (p.trail o.side)).released := rfl

theorem enter_plain {m : Bool} {p : Pit} {o : Order} (h : o.type = .limit ∨ o.type = .market) : p.enter m o = p.strike m o := by
  have h1 : ¬ o.trails := by unfold Order.trails; rcases h with h | h <;> simp [h]
  rw [enter_eq, retrailed_plain _ h1, if_neg (fun x => by have := x.1; unfold Order.waits at this; rcases h with h | h <;> simp [h] at this)]
  unfold Order.released
  rcases h with h | h <;> simp [h]

theorem arrive_plays {s : Core} {o : Order} (st : Step (.arrive o) s none (s.emit (.addOrder o)) (some o)) (hi : Inv s) :
    Plays s ([], s.pit) (s.emit (.addOrder o)) := (st.plays (CInv.none_iff.2 hi)).to rfl

theorem addLimit_lands {m : Bool} {s s' : Core} {o : Order} {e} (hi : Inv s) (hv : o.validate = .ok) (hr : o.Repr64)
    (hs : o.symbolId = s.book.symbol.id) (hvol : volume s.book + o.leaves < W64) (ht : o.type = .limit)
    (h : s.addLimit m o = .ok (s', e)) : Lands m s (s.pit.enter m o) s' e := by
  have st := arrive_cinv hi hv hr hs hvol
  have hc := st.inv (CInv.none_iff.2 hi)
  obtain ⟨_, hpos, _⟩ := validate_facts hv
  unfold addLimit at h
  obtain ⟨⟨s2, t2⟩, h1, h2⟩ := bind_inv h
  have hit := matchIf_strikes hc hpos (by rw [ht]; simp) h1
  have hp : (s.emit (.addOrder o)).pit = s.pit := rfl
  have q := hit.plays
  have l := hit.left
  rw [hp] at q l
  rw [enter_plain (.inl ht)]
  exact restOrCancel_lands ((arrive_plays st hi).then q) hit.hit.cinv l (by rw [hit.hit.facts.2.1, ht]) h2

theorem addMarket_lands {m : Bool} {s s' : Core} {o : Order} {e} (hi : Inv s) (hv : o.validate = .ok) (hr : o.Repr64)
    (hs : o.symbolId = s.book.symbol.id) (hvol : volume s.book + o.leaves < W64) (ht : o.type = .market)
    (h : s.addMarket m o = .ok (s', e)) : Lands m s (s.pit.enter m o) s' e := by
  have st := arrive_cinv hi hv hr hs hvol
  have hc := st.inv (CInv.none_iff.2 hi)
  obtain ⟨_, hpos, _⟩ := validate_facts hv
  have h' : ((if m then (s.emit (.addOrder o)).matchMarket o else .ok (s.emit (.addOrder o), o)) >>= fun x =>
      (x.1.emit (.deleteOrder x.2)).finish m) = .ok (s', e) := by
    rw [← h]; unfold addMarket; cases m <;> rfl
  obtain ⟨⟨s2, t2⟩, h1, h2⟩ := bind_inv h'
  have hit : Strikes m (s.emit (.addOrder o)) o s2 t2 := by
    cases m with
    | false => cases h1; exact .idle hc
    | true => exact matchMarket_strikes hc hpos ht h1
  have hp : (s.emit (.addOrder o)).pit = s.pit := rfl
  have q := hit.plays
  have l := hit.left
  rw [hp] at q l
  rw [enter_plain (.inr ht)]
  exact drop_lands ((arrive_plays st hi).then q) hit.hit.cinv l (fun hr => hr.2.1 (by rw [hit.hit.facts.2.1, ht])) h2

theorem initTrailing_retrailed {s : Core} {o : Order} (hi : Inv s) (hr : o.Repr64) (hok : o.isTrailing = true → o.TrailOK) :
    initTrailing s.book o = o.retrailed (s.pit.trail o.side) := by
  unfold initTrailing
  by_cases ht : o.isTrailing = true
  · rw [if_pos ht]
    have hm : s.book.calcTrailing o = trailPrice o (s.pit.trail o.side) := by
      unfold Book.calcTrailing Pit.trail Order.isBuy
      rw [pit_trailAsk hi, pit_trailBid hi]
      cases o.side <;> simp
    rw [hm]
    by_cases hmv : o.trailMoves (s.pit.trail o.side)
    · exact (retrailed_spec hr (hok ht) (trails_iff.1 ht) hmv).1.symm
    · rw [retrailed_still _ hmv]
      have : trailPrice o (s.pit.trail o.side) = o.stopPrice := by
        by_cases e : trailPrice o (s.pit.trail o.side) = o.stopPrice
        · exact e
        · exact absurd ((moves_iff hr (hok ht)).2 e) hmv
      rw [this]
      unfold retrail
      have hp : o.price < W64 := hr.2.2.1
      have hsp : o.stopPrice < W64 := hr.2.2.2.1
      have h64 : add64 o.stopPrice (sub64 o.price o.stopPrice) = o.price := by unfold add64 sub64; omega
      rcases trails_iff.1 ht with h | h
      · simp [h]
        cases o; simp_all
      · simp [h, h64]
        cases o; simp_all
  · rw [if_neg ht]
    rw [retrailed_plain _ (fun h => ht (trails_iff.2 h))]

theorem triggered_reached {s : Core} (hi : Inv s) (o : Order) : triggered s.book o = true ↔ s.pit.reached o := by
  unfold triggered Pit.reached Order.isBuy
  rw [pit_bid hi, pit_ask hi]
  cases o.side <;> simp

theorem retrailed_type (o : Order) (m : Nat) : (o.retrailed m).type = o.type ∧ (o.retrailed m).leaves = o.leaves := by
  unfold Order.retrailed; split <;> exact ⟨rfl, rfl⟩

theorem addStopAny_lands {m : Bool} {s s' : Core} {o : Order} {e} (hi : Inv s) (hv : o.validate = .ok) (hr : o.Repr64)
    (hs : o.symbolId = s.book.symbol.id) (hvol : volume s.book + o.leaves < W64) (ht : o.type ≠ .limit ∧ o.type ≠ .market)
    (h : s.addAny m o = .ok (s', e)) : Lands m s (s.pit.enter m o) s' e := by
  obtain ⟨h1, h2, h3⟩ := validate_facts hv
  obtain ⟨g1, g2, g3, g4, g5, g6, g7, g8, g9⟩ := initTrailing_props hi hr h3
  have hret := initTrailing_retrailed hi hr h3
  have st : Step (.arrive (initTrailing s.book o)) s none (s.emit (.addOrder (initTrailing s.book o))) (some (initTrailing s.book o)) :=
    .arrive g1 (by omega) (by rw [g3]; exact hs) (by rw [g4]; exact hvol) (fun h => g7.2 (h3 (by rw [← isTrailing_congr g5]; exact h)))
  have hc := st.inv (CInv.none_iff.2 hi)
  have hpos : (initTrailing s.book o).leaves > 0 := by omega
  have hp := arrive_plays st hi
  rw [enter_eq, ← hret]
  have hw : (initTrailing s.book o).waits := by unfold Order.waits; rw [g5]; exact ht
  have hrest : (initTrailing s.book o).rests := ⟨hpos, by rw [g5]; exact ht.2, fun e => absurd (g5 ▸ e) ht.1⟩
  by_cases htr : (m && triggered s.book (initTrailing s.book o)) = true
  · have hm : m = true := by cases m <;> simp_all
    subst hm
    have htr' : triggered s.book (initTrailing s.book o) = true := by simpa using htr
    rw [if_neg (fun x => x.2 ⟨rfl, (triggered_reached hi _).1 htr'⟩)]
    generalize hT : initTrailing s.book o = t at *
    have hf := (hc.fly _ rfl)
    have hty : t.type = .stop ∨ t.type = .trailingStop ∨ t.type = .stopLimit ∨ t.type = .trailingStopLimit := by
      rw [g5]; cases hx : o.type <;> simp_all
    have hcase : (o.type = .stop ∨ o.type = .trailingStop) ∨ (o.type = .stopLimit ∨ o.type = .trailingStopLimit) := by
      rw [g5] at hty; rcases hty with h | h | h | h <;> simp [h]
    rcases hcase with hty | hty
    · have hadd : s.addStop true o = .ok (s', e) := by
        rw [← h]; unfold addAny; rcases hty with hty | hty <;> rw [hty]
      unfold addStop at hadd
      simp only [hT] at hadd
      rw [if_pos (by simpa [emit] using htr')] at hadd
      obtain ⟨⟨s2, t2⟩, r1, r2⟩ := bind_inv hadd
      have hfm := hf.toMarket
      have c2 : CInv ((s.emit (.addOrder t)).emit (.updateOrder (toMarket t))) (some (toMarket t)) :=
        ⟨hc.inv.emit _, fun t h => by cases h; exact ⟨hfm.repr, hfm.idPos, hfm.sym, hfm.vol, hfm.trail⟩⟩
      have hst := matchMarket_strikes c2 hpos rfl r1
      have hp2 := hp.then (Plays.emit hc.inv (e := .updateOrder (toMarket t)) rfl hfm.sym rfl)
      rw [released_market (by rw [g5]; exact hty)]
      have q := hst.plays
      have l := hst.left
      have he : ((s.emit (.addOrder t)).emit (.updateOrder (toMarket t))).pit = s.pit := rfl
      rw [he] at q l
      exact drop_lands (hp2.then q) hst.hit.cinv l (fun hr => hr.2.1 hst.hit.facts.2.1) r2
    · have hadd : s.addStopLimit true o = .ok (s', e) := by
        rw [← h]; unfold addAny; rcases hty with hty | hty <;> rw [hty]
      unfold addStopLimit at hadd
      simp only [hT] at hadd
      rw [if_pos (by simpa [emit] using htr')] at hadd
      obtain ⟨⟨s2, t2⟩, r1, r2⟩ := bind_inv hadd
      have hfm := hf.toLimit
      have c2 : CInv ((s.emit (.addOrder t)).emit (.updateOrder (toLimit t))) (some (toLimit t)) :=
        ⟨hc.inv.emit _, fun t h => by cases h; exact ⟨hfm.repr, hfm.idPos, hfm.sym, hfm.vol, hfm.trail⟩⟩
      have hst := matchIf_strikes (m := true) c2 hpos (by simp [toLimit]) (by unfold matchIf; rw [if_pos rfl]; exact r1)
      have hp2 := hp.then (Plays.emit hc.inv (e := .updateOrder (toLimit t)) rfl hfm.sym rfl)
      rw [released_limit (by rw [g5]; exact hty)]
      have q := hst.plays
      have l := hst.left
      have he : ((s.emit (.addOrder t)).emit (.updateOrder (toLimit t))).pit = s.pit := rfl
      rw [he] at q l
      exact restOrCancel_lands (hp2.then q) hst.hit.cinv l (by rw [hst.hit.facts.2.1]; rfl) r2
  · rw [if_pos ⟨hw, fun x => htr (by rw [x.1, (triggered_reached hi _).2 x.2]; rfl)⟩]
    have key : (s.emit (.addOrder (initTrailing s.book o))).insertNew m (initTrailing s.book o) = .ok (s', e) := by
      have hx : ¬ (m && triggered (s.emit (.addOrder (initTrailing s.book o))).book (initTrailing s.book o)) = true := htr
      unfold addAny at h
      cases hty : o.type with
      | limit => exact absurd hty ht.1
      | market => exact absurd hty ht.2
      | stop => rw [hty] at h; simp only [addStop] at h; rw [if_neg hx, if_pos hpos] at h; exact h
      | trailingStop => rw [hty] at h; simp only [addStop] at h; rw [if_neg hx, if_pos hpos] at h; exact h
      | stopLimit => rw [hty] at h; simp only [addStopLimit] at h; rw [if_neg hx, if_pos hpos] at h; exact h
      | trailingStopLimit => rw [hty] at h; simp only [addStopLimit] at h; rw [if_neg hx, if_pos hpos] at h; exact h
    exact insertNew_lands hp hc rfl hrest key

theorem addAny_lands {m : Bool} {s s' : Core} {o : Order} {e} (hi : Inv s) (hv : o.validate = .ok) (hr : o.Repr64)
    (hs : o.symbolId = s.book.symbol.id) (hvol : volume s.book + o.leaves < W64)
    (h : s.addAny m o = .ok (s', e)) : Lands m s (s.pit.enter m o) s' e := by
  by_cases h1 : o.type = .limit
  · exact addLimit_lands hi hv hr hs hvol h1 (by rw [← h]; unfold addAny; rw [h1])
  · by_cases h2 : o.type = .market
    · exact addMarket_lands hi hv hr hs hvol h2 (by rw [← h]; unfold addAny; rw [h2])
    · exact addStopAny_lands hi hv hr hs hvol ⟨h1, h2⟩ h

/-! ### Calls about a resting order -/

theorem reduceOp_plays {m : Bool} {s s' : Core} {o : Order} {q e} (hi : Inv s) (mem : s.orders o.id = some o)
    (sym : o.symbolId = s.book.symbol.id) (hq : 0 < q) (h : s.reduceOp m o q = .ok (s', e)) :
    e = .ok ∧ Plays s ((s.pit.change o.id (if q < o.leaves then some { o with leaves := o.leaves - q } else none)).close m) s' := by
  unfold reduceOp at h
  obtain ⟨s1, h1, h2⟩ := bind_inv h
  have st : Step (.reduce o q) s none s1 none := .reduce mem sym hq h1
  obtain ⟨k, a1, a2, a3, a4, a5, a6⟩ := hi.reduce mem sym h1
  have p := (st.plays (CInv.none_iff.2 hi)).to (q := s.pit.change o.id (if q < o.leaves then some { o with leaves := o.leaves - q } else none)) (by
    rw [pit_same a4, (reduceBody_line hi mem sym h1).1]
    rfl)
  exact finish_after p h2

theorem deleteOp_plays {m : Bool} {s s' : Core} {o : Order} {e} (hi : Inv s) (mem : s.orders o.id = some o)
    (sym : o.symbolId = s.book.symbol.id) (h : s.deleteOp m o = .ok (s', e)) :
    e = .ok ∧ Plays s ((s.pit.change o.id none).close m) s' := by
  unfold deleteOp deleteBody at h
  obtain ⟨s1, h1, h2⟩ := bind_inv h
  obtain ⟨s2, h3, h4⟩ := bind_inv h1
  cases h4
  obtain ⟨p, hc, _⟩ := take_plays hi mem sym h3
  have st : Step (.cancel o) s2 (some o) (s2.emit (.deleteOrder o)) none := .cancel
  have q := (st.plays hc).to (q := s2.pit) rfl
  rw [p.pit] at q
  exact finish_after (p.then q) h2

theorem executeOp_plays {m : Bool} {s s' : Core} {o : Order} {p q e} (hi : Inv s) (mem : s.orders o.id = some o)
    (sym : o.symbolId = s.book.symbol.id) (hq : 0 < q) (h : s.executeOp m o p q = .ok (s', e)) :
    e = .ok ∧ ∃ s1, Plays s ([(o, p, min q o.leaves)], { s.pit with
      board := s.pit.board.change o.id (if q < o.leaves then some (o.afterExec q) else none)
      last := s.pit.last.set o.side p
      heard := s.pit.heard.set o.side p }) s1 ∧ Plays s1 (s1.pit.close m) s' := by
  have hpos := (hi.orders _ o mem).2.leaves
  obtain ⟨k, s1, a1, a2, a3, a4, a5, a6, a7⟩ := hi.execute_ok mem sym p (min q o.leaves) (by omega)
  have st : Step (.execute o p (min q o.leaves)) s none _ none := .execute mem sym (by omega) (by omega) a2
  have hrun : ((s1.emit (if (o.filled (min q o.leaves)).leaves > 0 then .updateOrder (o.filled (min q o.leaves)) else .deleteOrder (o.filled (min q o.leaves)))).finish m) = .ok (s', e) := by
    unfold executeOp at h
    simp only at h
    rw [show ((s.emit (.exec o p (min q o.leaves))).setPrices o.side p).shrink
        { o with executed := add64 o.executed (min q o.leaves), leaves := o.leaves - min q o.leaves } (min q o.leaves)
        (o.hiddenQty - ({ o with executed := add64 o.executed (min q o.leaves), leaves := o.leaves - min q o.leaves } : Order).hiddenQty)
        (o.visibleQty - ({ o with executed := add64 o.executed (min q o.leaves), leaves := o.leaves - min q o.leaves } : Order).visibleQty)
        = .ok s1 from a2, Except.bind_ok] at h
    exact h
  have hv : (if q < o.leaves then some (o.afterExec q) else none) = afterFill o (min q o.leaves) := by
    unfold afterFill
    by_cases h : q < o.leaves
    · rw [if_pos h, if_neg (by omega), Nat.min_eq_left (by omega)]; rfl
    · rw [if_neg h, if_pos (by omega)]
  have hline : s1.line = Board.change s.line o.id (afterFill o (min q o.leaves)) := by
    funext k'
    have hi1 : Inv (s.reported o p (min q o.leaves)) := (hi.emit _).setPrices _ _
    have hcs : (s.reported o p (min q o.leaves)).line = s.line := by
      funext k''
      unfold Core.line
      have e1 : queue (s.reported o p (min q o.leaves)).book k'' = queue s.book k'' := by
        unfold queue
        show flatOf ((s.book.updatePrices o.side p).lv k'') = _
        rw [updatePrices_lv]
      rw [e1]; rfl
    rw [show Board.change s.line o.id (afterFill o (min q o.leaves)) k' = chg o.id (afterFill o (min q o.leaves)) (s.line k') from rfl, ← hcs]
    refine line_set hi1 a4 (by show s.orders o.id ≠ none; rw [mem]; simp) ?_ k'
    have e1 : queue (s.reported o p (min q o.leaves)).book k = queue s.book k := by
      unfold queue
      show flatOf ((s.book.updatePrices o.side p).lv k) = _
      rw [updatePrices_lv]
    rw [a7, e1]
    unfold afterFill
    by_cases h : o.leaves = min q o.leaves
    · rw [if_pos h, if_pos h]; simp
    · rw [if_neg h, if_neg h]; simp
  have hp := st.plays (CInv.none_iff.2 hi)
  refine ⟨(finish_plays hp.inv hrun).1, _, hp.to ?_, (finish_plays hp.inv hrun).2⟩
  show s1.pit = _
  rw [hv, pit_same (s := s.reported o p (min q o.leaves)) a5, hline]
  unfold Core.pit
  show Pit.mk _ ⟨(s.book.updatePrices o.side p).lastBid, (s.book.updatePrices o.side p).lastAsk⟩
    ⟨(s.book.updatePrices o.side p).matchBid, (s.book.updatePrices o.side p).matchAsk⟩
    ⟨(s.book.updatePrices o.side p).trailBid, (s.book.updatePrices o.side p).trailAsk⟩ = _
  unfold Book.updatePrices Quotes.set
  cases o.side <;> rfl

/-- An order comes back as `t`. -/
theorem modifyOp_plays {m : Bool} {s s' : Core} {o : Order} {p q : Nat} {mit : Bool} {e} (hi : Inv s) (mem : s.orders o.id = some o)
    (sym : o.symbolId = s.book.symbol.id) (hp : p < W64) (hq : q < W64) (hvol : volume s.book + q < W64)
    (h : s.modifyOp m o p q mit = .ok (s', e)) :
    e = .ok ∧ ∃ s2, Plays s (((s.pit.change o.id none).strike m (modified o p q mit)).1,
        ((s.pit.change o.id none).strike m (modified o p q mit)).2.2.land ((s.pit.change o.id none).strike m (modified o p q mit)).2.1) s2 ∧
      Plays s2 (s2.pit.close m) s' := by
  obtain ⟨s1, a1, a2, a3, a4, a5⟩ := take_steps (m := m) (tag := .modify) hi mem sym
  have hok := (hi.orders _ o mem).2
  have hle := modified_leaves_le o p q mit
  have hrep : (modified o p q mit).Repr64 := by
    have := hok.repr
    unfold Order.Repr64 at *
    refine ⟨this.1, this.2.1, hp, this.2.2.2.1, hq, this.2.2.2.2.2.1, by omega, this.2.2.2.2.2.2.2⟩
  obtain ⟨p1, hc1, _⟩ := take_plays hi mem sym a1
  unfold modifyOp at h
  rw [a1, Except.bind_ok] at h
  simp only at h
  by_cases hpos : (modified o p q mit).leaves > 0
  · simp only [hpos, if_true] at h
    have st : Step (.modify o (modified o p q mit)) s1 (some o) (s1.emit (.updateOrder (modified o p q mit)))
      (some (modified o p q mit)) := .modify hrep hpos (by omega)
    have hc2 := st.inv hc1
    have p2 := (st.plays hc1).to (q := s1.pit) rfl
    obtain ⟨⟨s2, t2⟩, h1, h2⟩ := bind_inv h
    have hit := matchIf_strikes hc2 hpos (show o.type ≠ .market from hok.notMarket) h1
    have hf := hit.hit.facts
    have he : (s1.emit (.updateOrder (modified o p q mit))).pit = s.pit.change o.id none := p1.pit
    simp only at h2
    have goal : ∃ s3, Plays s2 ([], s2.pit.land t2) s3 ∧ s3.finish m = .ok (s', e) := by
      by_cases hlv : t2.leaves > 0
      · simp only [hlv, if_true] at h2
        obtain ⟨s3, h3, h4⟩ := bind_inv h2
        refine ⟨s3, link_plays hit.hit.cinv ⟨hlv, by rw [hf.2.1]; exact hok.notMarket, by rw [hf.2.1, hf.2.2]; exact hok.tif⟩ ?_ h3, h4⟩
        refine hit.hit.none _ ?_
        show s1.orders t2.id = none
        rw [a3, hf.1]; show setO _ o.id _ o.id = _; simp
      · simp only [hlv, if_false] at h2
        exact ⟨_, drop_plays hit.hit.cinv (fun hr => hlv hr.1), h2⟩
    obtain ⟨s3, g1, g2⟩ := goal
    have g3 := hit.land g1
    rw [he] at g3
    have g4 := (p1.then p2).then g3
    exact ⟨(finish_plays g4.inv g2).1, s3, g4, (finish_plays g4.inv g2).2⟩
  · simp only [hpos, if_false] at h
    have st : Step (.vanish o (modified o p q mit)) s1 (some o) (s1.emit (.deleteOrder (modified o p q mit))) none :=
      .vanish (by omega)
    have p2 := p1.then ((st.plays hc1).to (q := s1.pit) rfl)
    rw [p1.pit] at p2
    refine ⟨(finish_plays p2.inv h).1, _, ?_, (finish_plays p2.inv h).2⟩
    have hz : (modified o p q mit).leaves = 0 := by omega
    have e1 : ((s.pit.change o.id none).strike m (modified o p q mit)) = ([], ((s.pit.change o.id none).strike m (modified o p q mit)).2.1, s.pit.change o.id none) ∧
        ((s.pit.change o.id none).strike m (modified o p q mit)).2.1.leaves = 0 := by
      unfold Pit.strike Board.strike
      cases m with
      | false => exact ⟨rfl, hz⟩
      | true =>
        simp only [if_true]
        have hcz : ∀ R, ((modified o p q mit).capped R).leaves = 0 := by intro R; unfold Order.capped; split <;> exact hz
        obtain ⟨b1, b2, b3⟩ := fills_zero (hcz ((s.pit.change o.id none).board (modified o p q mit).side.other.limits)) ((s.pit.change o.id none).board (modified o p q mit).side.other.limits)
        rw [b1, b2, b3]
        refine ⟨?_, hcz _⟩
        have : (s.pit.change o.id none).board.put (modified o p q mit).side.other.limits ((s.pit.change o.id none).board (modified o p q mit).side.other.limits) = (s.pit.change o.id none).board := by
          funext k; unfold Board.put; split
          · rename_i e; rw [e]
          · rfl
        rw [this]
        rfl
    obtain ⟨e1, e2⟩ := e1
    have e3 : ((s.pit.change o.id none).strike m (modified o p q mit)).2.2.land ((s.pit.change o.id none).strike m (modified o p q mit)).2.1 = s.pit.change o.id none := by
      unfold Pit.land
      rw [if_neg (fun hr => by have := hr.1; omega)]
      exact congrArg (·.2.2) e1
    rw [e3, show ((s.pit.change o.id none).strike m (modified o p q mit)).1 = [] from congrArg (·.1) e1]
    exact p2

theorem replaceOp_lands {m : Bool} {s s' : Core} {o : Order} {n p q : Nat} {e} (hi : Inv s) (mem : s.orders o.id = some o)
    (sym : o.symbolId = s.book.symbol.id) (hlim : o.type = .limit) (hn0 : 0 < n) (hn : n < W64) (hp : p < W64) (hq0 : 0 < q)
    (hq : q < W64) (hvol : volume s.book + q < W64)
    (h : s.replaceOp m o n p q = .ok (s', e)) :
    Lands m s ((s.pit.change o.id none).strike m { o with id := n, price := p, quantity := q, executed := 0, leaves := q }) s' e := by
  obtain ⟨s1, a1, a2, a3, a4, a5⟩ := take_steps (m := m) (tag := .modify) hi mem sym
  have hok := (hi.orders _ o mem).2
  obtain ⟨p1, hc1, _⟩ := take_plays hi mem sym a1
  have st1 : Step (.cancel o) s1 (some o) (s1.emit (.deleteOrder o)) none := .cancel
  have hc2 := st1.inv hc1
  have p2 := p1.then ((st1.plays hc1).to (q := s1.pit) rfl)
  unfold replaceOp at h
  rw [a1, Except.bind_ok] at h
  simp only at h
  have htl : ({ o with id := n, price := p, quantity := q, executed := 0, leaves := q } : Order).type = .limit := hlim
  have hleaves : 0 < ({ o with id := n, price := p, quantity := q, executed := 0, leaves := q } : Order).leaves := hq0
  have st2 : Step (.arrive { o with id := n, price := p, quantity := q, executed := 0, leaves := q }) (s1.emit (.deleteOrder o)) none
      ((s1.emit (.deleteOrder o)).emit (.addOrder { o with id := n, price := p, quantity := q, executed := 0, leaves := q }))
      (some { o with id := n, price := p, quantity := q, executed := 0, leaves := q }) := by
    refine .arrive ?_ hn0 ?_ ?_ ?_
    · have := hok.repr
      unfold Order.Repr64 at *
      exact ⟨hn, this.2.1, hp, this.2.2.2.1, hq, by simp, hq, this.2.2.2.2.2.2.2⟩
    · show o.symbolId = s1.book.symbol.id; rw [a4]; exact sym
    · show volume s1.book + q < _; omega
    · intro h; exact hok.trail h
  have htif : ({ o with id := n, price := p, quantity := q, executed := 0, leaves := q } : Order).tif = o.tif := rfl
  generalize ({ o with id := n, price := p, quantity := q, executed := 0, leaves := q } : Order) = t at *
  have hc3 := st2.inv hc2
  have p3 := p2.then (arrive_plays st2 hc2.inv)
  obtain ⟨⟨s2, t2⟩, h1, h2⟩ := bind_inv h
  have hit := matchIf_strikes hc3 hleaves (by rw [htl]; simp) h1
  have hf := hit.hit.facts
  have q := hit.plays
  have l := hit.left
  have he : ((s1.emit (.deleteOrder o)).emit (.addOrder t)).pit = s.pit.change o.id none := p1.pit
  rw [he] at q l
  simp only at h2
  by_cases hlv : t2.leaves > 0
  · simp only [hlv, if_true] at h2
    exact insertNew_lands (p3.then q) hit.hit.cinv l ⟨hlv, by rw [hf.2.1, htl]; simp, fun _ => by rw [hf.2.2, htif]; exact hok.tif hlim⟩ h2
  · simp only [hlv, if_false] at h2
    exact drop_lands (p3.then q) hit.hit.cinv l (fun hr => hlv hr.1) h2

end CppTrader
