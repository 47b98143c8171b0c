import Verif.Proof.PitStop
import Verif.Proof.Recalc
import Verif.Proof.Trailing
/-
Trailing stop orders: the engine's walk over the levels moves the same orders in the same sequence as the reference.
-/

namespace CppTrader
open Core

/-- The market price the trailing orders of a collection follow. -/
def trailMarket' (k : Kind) (b : Book) : Nat := if k.isBidType then b.marketTrailBid else b.marketTrailAsk

theorem calc_market {b : Book} {o : Order} {k : Kind} (h : o.kind = some k) (hk : k.isTrail = true) :
    b.calcTrailing o = trailPrice o (trailMarket' k b) := by
  have hs := stop_side h (isTrail_notLimit hk)
  unfold Book.calcTrailing trailMarket'
  unfold Order.isBuy
  rw [hs]; unfold stopSide
  cases k.isBidType <;> simp

theorem trails_iff {o : Order} : o.isTrailing = true ↔ o.trails := by
  unfold Order.isTrailing Order.trails Order.isTrailingStop Order.isTrailingStopLimit
  cases o.type <;> simp

/-- Moving an order. -/
theorem retrailed_spec {o : Order} (hr : o.Repr64) (hok : o.TrailOK) (ht : o.trails) {m : Nat} (hm : o.trailMoves m) :
    o.retrailed m = retrail o (trailPrice o m) ∧ trailPrice o m ≠ o.stopPrice := by
  have e := (trailPrice_spec hr hok m).1 hm
  constructor
  · unfold Order.retrailed retrail
    rw [if_pos ⟨ht, hm⟩, e]
    rcases ht with ht | ht <;> simp [ht]
  · rw [e]
    unfold Order.trailMoves at hm
    split at hm <;> omega

theorem moves_iff {o : Order} (hr : o.Repr64) (hok : o.TrailOK) {m : Nat} : o.trailMoves m ↔ trailPrice o m ≠ o.stopPrice := by
  constructor
  · intro hm
    rw [(trailPrice_spec hr hok m).1 hm]
    unfold Order.trailMoves at hm
    split at hm <;> omega
  · intro h
    exact Decidable.byContradiction fun hm => h ((trailPrice_spec hr hok m).2 hm)

/-! ### Lines -/

/-- The orders of a line that are about to move. -/
def movers (m : Nat) (rs : List Order) : List Order := rs.filter (fun r => decide (r.trailMoves m))

theorem filter_enqueue {k : Kind} {t : Order} {p : Order → Bool} (h : p t = false) (rs : List Order) : (enqueue k t rs).filter p = rs.filter p := by
  induction rs with
  | nil => simp [enqueue, h]
  | cons r rs ih =>
    unfold enqueue
    split
    · rw [List.filter_cons, if_neg (by simp [h])]
    · rw [List.filter_cons, List.filter_cons, ih]

theorem filter_chg {p : Order → Bool} {id : Nat} (rs : List Order) : (chg id none rs).filter p = chg id none (rs.filter p) := by
  unfold chg
  induction rs with
  | nil => rfl
  | cons r rs ih =>
    rw [List.filterMap_cons]
    by_cases e : r.id = id
    · rw [if_pos e]
      by_cases hp : p r = true
      · rw [List.filter_cons, if_pos hp, List.filterMap_cons, if_pos e]; exact ih
      · rw [List.filter_cons, if_neg hp]; exact ih
    · rw [if_neg e]
      by_cases hp : p r = true
      · simp only [List.filter_cons, if_pos hp, List.filterMap_cons, if_neg e, ih]
      · simp only [List.filter_cons, if_neg hp, ih]

theorem retrail_append (m : Nat) (V W : List Order) : ∀ l : Board, Board.retrail m (V ++ W) l = Board.retrail m W (Board.retrail m V l) := by
  induction V with
  | nil => intro l; rfl
  | cons o V ih =>
    intro l
    simp only [List.cons_append, Board.retrail]
    split <;> exact ih _

theorem retrail_movers (m : Nat) (V : List Order) : ∀ l : Board, Board.retrail m (movers m V) l = Board.retrail m V l := by
  induction V with
  | nil => intro l; rfl
  | cons o V ih =>
    intro l
    unfold movers at *
    rw [List.filter_cons]
    by_cases h : o.trailMoves m
    · rw [if_pos (by simpa using h)]
      simp only [Board.retrail, if_pos h]
      exact ih _
    · rw [if_neg (by simpa using h)]
      simp only [Board.retrail, if_neg h]
      exact ih _

/-- The orders `V` of the line `k` have moved. -/
structure Trailed (k : Kind) (m : Nat) (V : List Order) (s s' : Core) : Prop where
  plays : Plays s ([], { s.pit with board := Board.retrail m V s.line }) s'
  same : SameTr k s.book s'.book

theorem Trailed.refl {k m s} (hi : Inv s) : Trailed k m [] s s := ⟨.refl hi, .refl _ _⟩
theorem Trailed.trans {k m V W s s1 s2} (h : Trailed k m V s s1) (h' : Trailed k m W s1 s2) : Trailed k m (V ++ W) s s2 := by
  refine ⟨h.plays.then ?_, h.same.trans h'.same⟩
  refine h'.plays.to ?_
  have e1 : s1.line = Board.retrail m V s.line := congrArg Pit.board h.plays.pit
  rw [h.plays.pit, e1, retrail_append]

theorem SameTr.market {k b b'} (h : SameTr k b b') (hk : k.isTrail = true) : trailMarket' k b' = trailMarket' k b := by
  unfold trailMarket'; rw [h.marketTrailAsk hk, h.marketTrailBid hk]

theorem retrail_kind (o : Order) (p : Nat) : (retrail o p).kind = o.kind := by
  unfold retrail Order.kind Order.isBuy
  cases ht : o.type <;> simp [ht]

/-- One order moves. -/
theorem recalcOne_plays {k : Kind} (hk : k.isTrail = true) {s s1 s2 : Core} {o : Order} {m : Nat} (hi : Inv s) (hm : m = trailMarket' k s.book)
    (ho : o ∈ s.line k) (hmv : o.trailMoves m) (h1 : s.unlink o = .ok s1)
    (h2 : (s1.emit (.updateOrder (retrail o (s.book.calcTrailing o)))).link (retrail o (s.book.calcTrailing o)) = .ok s2) :
    Trailed k m [o] s s2 ∧ movers m (s2.line k) = chg o.id none (movers m (s.line k)) ∧ ∀ r ∈ s.line k, r.id ≠ o.id → r ∈ s2.line k := by
  obtain ⟨m1, m2, m3⟩ := (line_mem hi).1 ho
  have hok := (hi.orders _ _ m1).2
  have htr := kind_trailing m3 hk
  have hto := hok.trail htr
  have hcalc := calc_market (b := s.book) m3 hk
  rw [← hm] at hcalc
  obtain ⟨e1, e2⟩ := retrailed_spec hok.repr hto (trails_iff.1 htr) hmv
  have hidem : ¬ (o.retrailed m).trailMoves m := by
    rw [e1]
    obtain ⟨q, e⟩ := retrail_eq htr (trailPrice o m)
    have hrp : (retrail o (trailPrice o m)).Repr64 := retrail_repr hok.repr (by rw [← hcalc]; exact calcTrailing_lt hi hok.repr)
    have hto' : (retrail o (trailPrice o m)).TrailOK := by rw [e]; exact hto
    rw [moves_iff hrp hto', e, trailPrice_idem]
    simp
  rw [hcalc, ← e1] at h2
  obtain ⟨p1, c1, n1⟩ := take_plays hi m1 m2 h1
  have hne : s1.book.calcTrailing o ≠ o.stopPrice := by
    obtain ⟨k', a1, _, _, a4, _⟩ := hi.take m1 m2 h1
    rw [m3] at a1; cases a1
    rw [a4.toTr.calc hk, hcalc]; exact e2
  have hst := Step.retrail (s := s1) (o := o) htr hne
  have hcalc1 : s1.book.calcTrailing o = trailPrice o m := by
    obtain ⟨k', a1, _, _, a4, _⟩ := hi.take m1 m2 h1
    rw [m3] at a1; cases a1
    rw [a4.toTr.calc hk, hcalc]
  rw [hcalc1, ← e1] at hst
  have c2 := hst.inv c1
  have hid : (o.retrailed m).id = o.id := by rw [e1]; exact retrail_id ..
  have hkd : (o.retrailed m).kind = some k := by rw [e1, retrail_kind]; exact m3
  obtain ⟨t1, t2⟩ := stop_type hkd (isTrail_notLimit hk)
  have hrs : (o.retrailed m).rests := ⟨by rw [e1, retrail_leaves]; exact hok.leaves, t2, fun e => absurd e t1⟩
  have hl := link_plays c2 hrs (by rw [hid]; exact n1) h2
  have hpit : s1.pit = s.pit.change o.id none := p1.pit
  have hP : Plays s ([], { s.pit with board := Board.retrail m [o] s.line }) s2 := by
    refine p1.then ((hst.plays c1).then (hl.to ?_))
    show s1.pit.land _ = _
    rw [hpit]
    unfold Pit.land
    rw [if_pos hrs]
    simp only [Board.retrail, if_pos hmv]
    rfl
  have hline : s2.line k = enqueue k (o.retrailed m) (chg o.id none (s.line k)) := by
    have : s2.line = Board.retrail m [o] s.line := congrArg Pit.board hP.pit
    rw [this]
    simp only [Board.retrail, if_pos hmv]
    unfold Board.insert
    rw [home_kind, if_pos hkd]
    rfl
  refine ⟨⟨hP, ?_⟩, ?_, ?_⟩
  · obtain ⟨k', a1, _, _, a4, _⟩ := hi.take m1 m2 h1
    rw [m3] at a1; cases a1
    obtain ⟨k2, b1, _, _, b4, _⟩ := c2.inv.put (c2.fly _ rfl) (by rw [hid]; exact n1) hrs.1 hrs.2.1 hrs.2.2 h2
    rw [hkd] at b1; cases b1
    exact a4.toTr.trans b4.toTr
  · unfold movers
    rw [hline, filter_enqueue (by simpa using hidem), filter_chg]
  · intro r hr hne
    rw [hline, enqueue_mem]
    right
    unfold chg
    exact List.mem_filterMap.2 ⟨r, hr, by rw [if_neg hne]⟩

theorem recalcIds_plays {k : Kind} (hk : k.isTrail = true) (G : List Order) : ∀ {s s' : Core} {m : Nat} {rest : List Order} {r r' : Bool}, Inv s →
    m = trailMarket' k s.book → (∀ o ∈ G, o ∈ s.line k) → movers m (s.line k) = movers m G ++ rest → (G.map (·.id)).Nodup → recalcIds (G.map (·.id)) s r = .ok (s', r') →
    Trailed k m (movers m G) s s' ∧ movers m (s'.line k) = rest ∧ r' = (r || !(movers m G).isEmpty) ∧ (movers m G = [] → s' = s) := by
  induction G with
  | nil =>
    intro s s' m rest r r' hi _ _ hp _ run
    cases run
    exact ⟨.refl hi, hp, by simp [movers], fun _ => rfl⟩
  | cons o G ih =>
    intro s s' m rest r r' hi hm hmem hp hnd run
    have ho := hmem o (by simp)
    obtain ⟨m1, m2, m3⟩ := (line_mem hi).1 ho
    have hok := (hi.orders _ _ m1).2
    have hto := hok.trail (kind_trailing m3 hk)
    rw [List.map_cons] at run hnd
    unfold recalcIds at run
    rw [Core.get_ok m1, Except.bind_ok] at run
    simp only at run
    have hcalc := calc_market (b := s.book) m3 hk
    rw [← hm] at hcalc
    have hiff := moves_iff hok.repr hto (m := m)
    by_cases hmv : o.trailMoves m
    · rw [if_pos (by rw [hcalc]; exact hiff.1 hmv)] at run
      obtain ⟨s1, h1, run⟩ := bind_inv run
      obtain ⟨s2, h2, run⟩ := bind_inv run
      obtain ⟨a1, a2, a3⟩ := recalcOne_plays hk hi hm ho hmv h1 h2
      have hmo : movers m (o :: G) = o :: movers m G := by
        unfold movers; rw [List.filter_cons, if_pos (by simpa using hmv)]
      have hnd' : ((o :: (movers m G ++ rest)).map (·.id)).Nodup := by
        have h0 : ((movers m (s.line k)).map (·.id)).Nodup := by
          refine List.Nodup.sublist ?_ (line_nodup hi k)
          exact List.Sublist.map _ List.filter_sublist
        rw [hp, hmo] at h0
        exact h0
      have hne : ∀ x ∈ G, x.id ≠ o.id := fun x hx e => (List.nodup_cons.1 hnd).1 (e ▸ List.mem_map_of_mem hx)
      rw [hp, hmo, List.cons_append, chg_head hnd'] at a2
      obtain ⟨b1, b2, b3, b4⟩ := ih a1.plays.inv (by rw [a1.same.market hk]; exact hm)
        (fun x hx => a3 x (hmem x (by simp [hx])) (hne x hx)) a2 (List.nodup_cons.1 hnd).2 run
      rw [hmo]
      refine ⟨a1.trans b1, b2, ?_, fun h => by cases h⟩
      rw [b3]; simp
    · rw [if_neg (by rw [hcalc]; exact fun h => hmv (hiff.2 h))] at run
      have hmo : movers m (o :: G) = movers m G := by
        unfold movers; rw [List.filter_cons, if_neg (by simpa using hmv)]
      rw [hmo] at hp ⊢
      exact ih hi hm (fun x hx => hmem x (by simp [hx])) hp (List.nodup_cons.1 hnd).2 run

theorem recalcLoop_plays {k : Kind} (hk : k.isTrail = true) (n : Nat) : ∀ {s s' : Core} {m : Nat} (prev cur : Option Nat), Inv s →
    m = trailMarket' k s.book →
    (∀ c, cur = some c → ∀ r ∈ movers m (s.line k), k.better r.key c = false) →
    (cur = none → movers m (s.line k) = []) →
    (∀ p, prev = some p → ∀ r ∈ movers m (s.line k), k.better r.key p = false) →
    recalcLoop k n s prev cur = .ok s' → Trailed k m (movers m (s.line k)) s s' := by
  induction n with
  | zero => intro s s' m prev cur _ _ _ _ _ run; cases run
  | succ n ih =>
    intro s s' m prev cur hi hm hcur hdone hprev run
    cases cur with
    | none =>
      cases run
      rw [hdone rfl]
      exact .refl hi
    | some c =>
      unfold recalcLoop at run
      cases hf : findLevel (s.book.lv k) c with
      | none => rw [hf] at run; cases run
      | some l =>
        rw [hf] at run
        simp only at run
        have hko := hi.book.kinds k
        obtain ⟨xs, ys, hsp, rfl, hx, hy⟩ := findLevel_some hko.sorted hf
        obtain ⟨⟨s1, r⟩, h1, run2⟩ := bind_inv run
        clear run
        have run := run2
        clear run2
        have hl : l ∈ s.book.lv k := by rw [hsp]; simp
        obtain ⟨g1, g2, g3⟩ := group_line hi hl
        have hline : s.line k = restOf s (flatOf xs) ++ (restOf s l.ids ++ restOf s (flatOf ys)) := by
          unfold Core.line queue
          rw [hsp, flatOf_append, flatOf_cons, restOf_append, restOf_append]
        have hkey : ∀ zs : List Level, (∀ z ∈ zs, z ∈ s.book.lv k) → ∀ x ∈ restOf s (flatOf zs), ∃ z ∈ zs, x.key = z.price := by
          intro zs hz x hx
          obtain ⟨i, hi', hx⟩ := restOf_mem.1 hx
          obtain ⟨z, hz', hm'⟩ := mem_flatOf.1 hi'
          exact ⟨z, hz', (group_line hi (hz z hz')).2.2 x (restOf_mem.2 ⟨i, hm', hx⟩)⟩
        have hpend : movers m (s.line k) = movers m (restOf s l.ids) ++ movers m (restOf s (flatOf ys)) := by
          have hA : movers m (restOf s (flatOf xs)) = [] := by
            unfold movers
            rw [List.filter_eq_nil_iff]
            intro x hx' hmv
            have hin : x ∈ movers m (s.line k) := by
              unfold movers
              rw [List.mem_filter]
              exact ⟨by rw [hline]; simp [hx'], hmv⟩
            obtain ⟨z, hz, e⟩ := hkey xs (fun z hz => by rw [hsp]; simp [hz]) x hx'
            have := hcur l.price rfl x hin
            rw [e, hx z hz] at this
            cases this
          rw [hline]
          unfold movers at hA ⊢
          rw [List.filter_append, List.filter_append, hA, List.nil_append]
        have hnd : ((restOf s l.ids).map (·.id)).Nodup := by rw [g1]; exact (hko.levels l hl).nodup
        rw [← g1] at h1
        obtain ⟨a1, a2, a3, a4⟩ := recalcIds_plays hk _ hi hm
          (fun o ho => by rw [hline]; simp [ho]) hpend hnd h1
        have hsub : ∀ x ∈ movers m (s1.line k), x ∈ movers m (s.line k) := by
          intro x hx'
          rw [a2] at hx'
          rw [hpend]; simp [hx']
        have hm1 : m = trailMarket' k s1.book := by rw [a1.same.market hk]; exact hm
        simp only at run
        cases hr : r with
        | false =>
          rw [hr] at run a3
          simp only [Bool.false_eq_true, if_false] at run
          have hnil : movers m (restOf s l.ids) = [] := by simpa using a3
          have hs1 := a4 hnil
          subst hs1
          have hnext : nextLevel (s1.book.lv k) l.price = ys.head? := by
            rw [hsp]; exact nextLevel_mid (sorted_mid (hsp ▸ hko.sorted))
          rw [hnext] at run
          refine ih (some l.price) _ hi hm ?_ ?_ ?_ run
          · intro c hc x hx'
            rw [a2] at hx'
            cases ys with
            | nil => simp at hc
            | cons y ys =>
              simp at hc; subst hc
              have hx'' : x ∈ restOf s1 (flatOf (y :: ys)) := (List.mem_filter.1 hx').1
              obtain ⟨z, hz, e⟩ := hkey (y :: ys) (fun z hz => by rw [hsp]; simp only [List.mem_append, List.mem_cons] at hz ⊢; rcases hz with h | h <;> simp [h]) x hx''
              rw [e]
              have hsorted : Sorted k (l :: y :: ys) := by
                have := hko.sorted; rw [hsp] at this; exact (List.pairwise_append.1 this).2.1
              rcases List.mem_cons.1 hz with rfl | hz
              · exact better_irrefl _ _
              · exact better_asymm (List.rel_of_pairwise_cons (List.Pairwise.of_cons hsorted) hz)
          · intro hc
            cases ys with
            | nil => rw [a2]; rfl
            | cons y ys => simp at hc
          · intro p hp
            cases hp
            exact hcur l.price rfl
        | true =>
          rw [hr] at run
          simp only [if_true] at run
          rw [hpend, ← a2]
          refine a1.trans ?_
          cases prev with
          | some p =>
            have hp := hprev p rfl
            refine ih (some p) (some p) a1.plays.inv hm1 ?_ ?_ ?_ run
            · intro c hc x hx'; cases hc; exact hp x (hsub x hx')
            · intro hc; cases hc
            · intro c hc x hx'; cases hc; exact hp x (hsub x hx')
          | none =>
            refine ih none (s1.book.best k) a1.plays.inv hm1 ?_ ?_ ?_ run
            · intro c hc x hx'
              have hxl : x ∈ s1.line k := (List.mem_filter.1 hx').1
              obtain ⟨x1, x2, x3⟩ := (line_mem a1.plays.inv).1 hxl
              obtain ⟨p, q1, q2⟩ := a1.plays.inv.order_best x1 x2 x3
              rw [hc] at q1; cases q1
              exact q2
            · intro hc
              rw [(best_empty a1.plays.inv k).1 hc]; rfl
            · intro p hp; cases hp

theorem recalcStart_plays {k : Kind} (hk : k.isTrail = true) {s s' : Core} {n : Nat} (hi : Inv s)
    (run : recalcLoop k n s none (s.book.best k) = .ok s') :
    Plays s ([], { s.pit with board := Board.retrail (trailMarket' k s.book) (s.line k) s.line }) s' := by
  have := recalcLoop_plays hk n none (s.book.best k) hi rfl ?_ ?_ ?_ run
  · refine this.plays.to ?_
    rw [retrail_movers]
  · intro c hc x hx'
    have hxl : x ∈ s.line k := (List.mem_filter.1 hx').1
    obtain ⟨x1, x2, x3⟩ := (line_mem hi).1 hxl
    obtain ⟨p, q1, q2⟩ := hi.order_best x1 x2 x3
    rw [hc] at q1; cases q1
    exact q2
  · intro hc
    rw [(best_empty hi k).1 hc]; rfl
  · intro p hp; cases hp

theorem mark_plays {s : Core} (hi : Inv s) (tb ta : Nat) :
    Plays s ([], { s.pit with seen := ⟨tb, ta⟩ }) { s with book := { s.book with trailBid := tb, trailAsk := ta } } := by
  have st : Step .mark s none { s with book := { s.book with trailBid := tb, trailAsk := ta } } none := .mark
  exact (st.plays (CInv.none_iff.2 hi)).to rfl

theorem recalcBuy_plays {s s' : Core} (hi : Inv s) (run : s.recalcBuy = .ok s') : Plays s ([], s.pit.followAsk) s' := by
  unfold recalcBuy at run
  unfold Pit.followAsk
  rw [pit_trailAsk hi]
  cases hb : s.book.best .ask with
  | none =>
    rw [hb] at run; cases run
    rw [if_pos (show s.pit.board .ask = [] from (best_empty hi .ask).1 hb)]
    exact .refl hi
  | some a =>
    rw [hb] at run
    simp only at run
    rw [if_neg (fun e => by rw [(best_empty hi .ask).2 e] at hb; cases hb)]
    have hm := mark_plays hi s.book.trailBid s.book.marketTrailAsk
    by_cases hc : s.book.marketTrailAsk ≥ s.book.trailAsk
    · rw [if_pos hc] at run
      cases run
      refine hm.to ?_
      rw [if_neg (show ¬ s.book.marketTrailAsk < s.pit.seen.ask from Nat.not_lt.2 hc)]
      rfl
    · rw [if_neg hc] at run
      have := recalcStart_plays (k := .tBuyStop) rfl hm.inv run
      refine hm.then (this.to ?_)
      rw [if_pos (show s.book.marketTrailAsk < s.pit.seen.ask from Nat.lt_of_not_le hc)]
      rfl

theorem recalcSell_plays {s s' : Core} (hi : Inv s) (run : s.recalcSell = .ok s') : Plays s ([], s.pit.followBid) s' := by
  unfold recalcSell at run
  unfold Pit.followBid
  rw [pit_trailBid hi]
  cases hb : s.book.best .bid with
  | none =>
    rw [hb] at run; cases run
    rw [if_pos (show s.pit.board .bid = [] from (best_empty hi .bid).1 hb)]
    exact .refl hi
  | some a =>
    rw [hb] at run
    simp only at run
    rw [if_neg (fun e => by rw [(best_empty hi .bid).2 e] at hb; cases hb)]
    have hm := mark_plays hi s.book.marketTrailBid s.book.trailAsk
    by_cases hc : s.book.marketTrailBid ≤ s.book.trailBid
    · rw [if_pos hc] at run
      cases run
      refine hm.to ?_
      rw [if_neg (show ¬ s.pit.seen.bid < s.book.marketTrailBid from Nat.not_lt.2 hc)]
      rfl
    · rw [if_neg hc] at run
      have := recalcStart_plays (k := .tSellStop) rfl hm.inv run
      refine hm.then (this.to ?_)
      rw [if_pos (show s.pit.seen.bid < s.book.marketTrailBid from Nat.lt_of_not_le hc)]
      rfl

/-! ### Rounds -/

theorem activateLoop_plays (n : Nat) : ∀ {s s' : Core} {res r : Bool}, Inv s → activateLoop n s res = .ok (s', r) →
    Plays s (s.pit.rounds n).2 s' ∧ r = (res || (s.pit.rounds n).1) := by
  induction n with
  | zero => intro s s' res r _ run; cases run
  | succ n ih =>
    intro s s' res r hi run
    unfold activateLoop at run
    obtain ⟨⟨s1, r1⟩, h1, run⟩ := bind_inv run
    obtain ⟨s2, h2, run⟩ := bind_inv run
    obtain ⟨⟨s3, r3⟩, h3, run⟩ := bind_inv run
    obtain ⟨s4, h4, run⟩ := bind_inv run
    obtain ⟨a1, a2⟩ := activateEither_plays hi rfl rfl (by funext b; rfl) (by funext b; rfl) h1
    have b1 := recalcBuy_plays a1.inv h2
    obtain ⟨c1, c2⟩ := activateEither_plays b1.inv rfl rfl (by funext b; rfl) (by funext b; rfl) h3
    have d1 := recalcSell_plays c1.inv h4
    have e2 : s2.pit = s1.pit.followAsk := b1.pit
    rw [a1.pit] at e2
    have e3 : s3.pit = (Pit.releaseAll (s2.pit.next .sellStop .tSellStop) s2.pit).2 := c1.pit
    have hround : Plays s s.pit.round.2 s4 ∧ (r1 || r3) = s.pit.round.1 := by
      refine ⟨?_, ?_⟩
      · have := (a1.next (b1.to rfl)).trans ((c1.next d1))
        rw [e3, e2] at this
        exact this
      · rw [a2, c2, e2]; rfl
    obtain ⟨f1, f2⟩ := hround
    unfold Pit.rounds
    simp only
    rw [← f2]
    cases hrr : (r1 || r3) with
    | true =>
      rw [hrr] at run
      simp only [if_true] at run ⊢
      obtain ⟨g1, g2⟩ := ih f1.inv run
      rw [f1.pit] at g1 g2
      exact ⟨Plays.trans (xs := s.pit.round.2.1) (p := s.pit.round.2.2) f1 g1, by rw [g2]; simp⟩
    | false =>
      rw [hrr] at run f2
      simp only [Bool.false_eq_true, if_false] at run ⊢
      cases run
      exact ⟨f1, by rw [← f2]; simp⟩

theorem activateAll_plays {s s' : Core} {r : Bool} (hi : Inv s) (run : s.activateAll = .ok (s', r)) :
    Plays s (s.pit.rounds (s.pit.board.stops + 1)).2 s' ∧ r = (s.pit.rounds (s.pit.board.stops + 1)).1 := by
  rw [pit_stops hi]
  obtain ⟨a, b⟩ := activateLoop_plays _ hi run
  exact ⟨a, by rw [b]; rfl⟩

end CppTrader
