import Verif.Proof.PitMgr
import Verif.Recast
/-
The reference exchange works alike with other order ids and visible quantities.
-/

namespace CppTrader
open Core

namespace Recast
variable (c : Recast)

def board (l : Board) : Board := fun k => (l k).map c.order
def pit (p : Pit) : Pit := { p with board := c.board p.board }
def groups (l : List (List Order)) : List (List Order) := l.map (·.map c.order)
def draws (l : List (Order × Nat)) : List (Order × Nat) := l.map (fun x => (c.order x.1, x.2))

theorem ids (a b : Nat) : c.id a = c.id b ↔ a = b := ⟨c.inj a b, fun h => by rw [h]⟩

theorem id_zero (a : Nat) : c.id a = 0 ↔ a = 0 := by
  constructor
  · intro h; exact c.inj a 0 (by rw [h, c.zero])
  · rintro rfl; exact c.zero

/-! ### Lines -/

theorem enqueue_map (k : Kind) (t : Order) (rs : List Order) : enqueue k (c.order t) (rs.map c.order) = (enqueue k t rs).map c.order := by
  induction rs with
  | nil => rfl
  | cons r rs ih =>
    have e : ∀ t r rs, enqueue k t (r :: rs) = if t.beats k r then t :: r :: rs else r :: enqueue k t rs := fun _ _ _ => rfl
    rw [List.map_cons, e, e, ih]
    by_cases h : t.beats k r
    · rw [if_pos h, if_pos (show (c.order t).beats k (c.order r) from h)]; rfl
    · rw [if_neg h, if_neg (show ¬ (c.order t).beats k (c.order r) from h)]; rfl

theorem insert_map (l : Board) (t : Order) : (c.board l).insert (c.order t) = c.board (l.insert t) := by
  funext k
  show (if t.home.map (·.1) = some k then enqueue k (c.order t) ((l k).map c.order) else (l k).map c.order) =
    (if t.home.map (·.1) = some k then enqueue k t (l k) else l k).map c.order
  split
  · exact c.enqueue_map _ _ _
  · rfl

theorem change_map (l : Board) (id : Nat) (v : Option Order) : (c.board l).change (c.id id) (v.map c.order) = c.board (l.change id v) := by
  funext k
  show ((l k).map c.order).filterMap (fun r => if r.id = c.id id then v.map c.order else some r) =
    ((l k).filterMap (fun r => if r.id = id then v else some r)).map c.order
  rw [List.filterMap_map, List.map_filterMap]
  congr 1
  funext r
  show (if c.id r.id = c.id id then v.map c.order else some (c.order r)) = (if r.id = id then v else some r).map c.order
  by_cases h : r.id = id
  · rw [if_pos h, if_pos ((c.ids _ _).2 h)]
  · rw [if_neg h, if_neg (fun e => h ((c.ids _ _).1 e))]; rfl

theorem put_map (l : Board) (k : Kind) (rs : List Order) : (c.board l).put k (rs.map c.order) = c.board (l.put k rs) := by
  funext k'
  show (if k' = k then rs.map c.order else (l k').map c.order) = (if k' = k then rs else l k').map c.order
  split <;> rfl

/-! ### Incoming orders -/

theorem greedy_map (rs : List Order) : ∀ t : Order, greedy (c.order t) (rs.map c.order) = (greedy t rs).map c.exec := by
  induction rs with
  | nil => intro t; rfl
  | cons r rs ih =>
    intro t
    have e : ∀ t r rs, greedy t (r :: rs) = if t.stopsAt r then [] else
      (r, r.price, min r.leaves t.leaves) :: (t, r.price, min r.leaves t.leaves) :: greedy (t.afterExec (min r.leaves t.leaves)) rs := fun _ _ _ => rfl
    rw [List.map_cons, e, e]
    by_cases h : t.stopsAt r
    · rw [if_pos h, if_pos (show (c.order t).stopsAt (c.order r) from h)]; rfl
    · rw [if_neg h, if_neg (show ¬ (c.order t).stopsAt (c.order r) from h), List.map_cons, List.map_cons, ← ih]; rfl

theorem greedyLeft_map (rs : List Order) : ∀ t : Order, greedyLeft (c.order t) (rs.map c.order) = c.order (greedyLeft t rs) := by
  induction rs with
  | nil => intro t; rfl
  | cons r rs ih =>
    intro t
    have e : ∀ t r rs, greedyLeft t (r :: rs) = if t.stopsAt r then t else greedyLeft (t.afterExec (min r.leaves t.leaves)) rs := fun _ _ _ => rfl
    rw [List.map_cons, e, e]
    by_cases h : t.stopsAt r
    · rw [if_pos h, if_pos (show (c.order t).stopsAt (c.order r) from h)]
    · rw [if_neg h, if_neg (show ¬ (c.order t).stopsAt (c.order r) from h), ← ih]; rfl

theorem greedyRest_map (rs : List Order) : ∀ t : Order, greedyRest (c.order t) (rs.map c.order) = (greedyRest t rs).map c.order := by
  induction rs with
  | nil => intro t; rfl
  | cons r rs ih =>
    intro t
    have e : ∀ t r rs, greedyRest t (r :: rs) = if t.stopsAt r then r :: rs else
      if min r.leaves t.leaves = r.leaves then greedyRest (t.afterExec (min r.leaves t.leaves)) rs else r.afterExec (min r.leaves t.leaves) :: rs := fun _ _ _ => rfl
    rw [List.map_cons, e, e]
    by_cases h : t.stopsAt r
    · rw [if_pos h, if_pos (show (c.order t).stopsAt (c.order r) from h)]; rfl
    · rw [if_neg h, if_neg (show ¬ (c.order t).stopsAt (c.order r) from h)]
      by_cases h2 : min r.leaves t.leaves = r.leaves
      · rw [if_pos h2, if_pos (show min (c.order r).leaves (c.order t).leaves = (c.order r).leaves from h2), ← ih]; rfl
      · rw [if_neg h2, if_neg (show ¬ min (c.order r).leaves (c.order t).leaves = (c.order r).leaves from h2)]; rfl

theorem chain_map (t : Order) (rs : List Order) : ∀ need, chain (c.order t) need (rs.map c.order) = (chain t need rs).map c.draws := by
  induction rs with
  | nil => intro n; rfl
  | cons r rs ih =>
    intro n
    have e : ∀ t n r rs, chain t n (r :: rs) = if n = 0 ∨ ¬ t.accepts r.price then none else
      if (if r.isAON then r.leaves else min r.leaves n) = n then some [(r, if r.isAON then r.leaves else min r.leaves n)]
      else if n < (if r.isAON then r.leaves else min r.leaves n) then none
      else (chain t (n - (if r.isAON then r.leaves else min r.leaves n)) rs).map ((r, if r.isAON then r.leaves else min r.leaves n) :: ·) := fun _ _ _ _ => rfl
    rw [List.map_cons, e, e]
    show (if n = 0 ∨ ¬ t.accepts r.price then none else
      if (if r.isAON then r.leaves else min r.leaves n) = n then some [(c.order r, if r.isAON then r.leaves else min r.leaves n)]
      else if n < (if r.isAON then r.leaves else min r.leaves n) then none
      else (chain (c.order t) (n - (if r.isAON then r.leaves else min r.leaves n)) (rs.map c.order)).map ((c.order r, if r.isAON then r.leaves else min r.leaves n) :: ·)) = _
    generalize (if r.isAON then r.leaves else min r.leaves n) = q
    rw [ih]
    by_cases h : n = 0 ∨ ¬ t.accepts r.price
    · rw [if_pos h, if_pos h]; rfl
    · rw [if_neg h, if_neg h]
      by_cases h1 : q = n
      · rw [if_pos h1, if_pos h1]; rfl
      · rw [if_neg h1, if_neg h1]
        by_cases h2 : n < q
        · rw [if_pos h2, if_pos h2]; rfl
        · rw [if_neg h2, if_neg h2]
          cases chain t (n - q) rs <;> rfl

theorem afterChain_map (xs : List (Order × Nat)) : ∀ rs : List Order, afterChain (c.draws xs) (rs.map c.order) = (afterChain xs rs).map c.order := by
  induction xs with
  | nil => intro rs; rfl
  | cons x xs ih =>
    intro rs
    cases rs with
    | nil => rfl
    | cons r rs =>
      have e : ∀ (x : Order × Nat) xs r rs, afterChain (x :: xs) (r :: rs) = if x.2 < r.leaves then r.afterExec x.2 :: afterChain xs rs else afterChain xs rs := fun _ _ _ _ => rfl
      show afterChain ((c.order x.1, x.2) :: c.draws xs) (c.order r :: rs.map c.order) = _
      rw [e, e, ih]
      by_cases h : x.2 < r.leaves
      · rw [if_pos h, if_pos (show x.2 < (c.order r).leaves from h)]; rfl
      · rw [if_neg h, if_neg (show ¬ x.2 < (c.order r).leaves from h)]

theorem fills_map (t : Order) (rs : List Order) : (c.order t).fills (rs.map c.order) = (t.fills rs).map c.exec := by
  unfold Order.fills
  by_cases h : t.whole
  · rw [if_pos h, if_pos (show (c.order t).whole from h), show (c.order t).leaves = t.leaves from rfl, chain_map]
    cases chain t t.leaves rs with
    | none => rfl
    | some xs =>
      simp only [Option.map_some, List.map_append, draws, List.map_map]
      rfl
  · rw [if_neg h, if_neg (show ¬ (c.order t).whole from h), greedy_map]

theorem left_map (t : Order) (rs : List Order) : (c.order t).left (rs.map c.order) = c.order (t.left rs) := by
  unfold Order.left
  by_cases h : t.whole
  · rw [if_pos h, if_pos (show (c.order t).whole from h), show (c.order t).leaves = t.leaves from rfl, chain_map]
    cases chain t t.leaves rs <;> rfl
  · rw [if_neg h, if_neg (show ¬ (c.order t).whole from h), greedyLeft_map]

theorem leaveLine_map (t : Order) (rs : List Order) : (c.order t).leaveLine (rs.map c.order) = (t.leaveLine rs).map c.order := by
  unfold Order.leaveLine
  by_cases h : t.whole
  · rw [if_pos h, if_pos (show (c.order t).whole from h), show (c.order t).leaves = t.leaves from rfl, chain_map]
    cases chain t t.leaves rs with
    | none => rfl
    | some xs => exact c.afterChain_map _ _
  · rw [if_neg h, if_neg (show ¬ (c.order t).whole from h), greedyRest_map]

theorem capped_map (t : Order) (rs : List Order) : (c.order t).capped (rs.map c.order) = c.order (t.capped rs) := by
  unfold Order.capped
  cases rs with
  | nil => cases h : t.type <;> simp [h, show (c.order t).type = t.type from rfl]
  | cons r rs =>
    cases h : t.type <;> simp [h, show (c.order t).type = t.type from rfl]
    rfl

theorem strike_map (m : Bool) (l : Board) (t : Order) :
    (c.board l).strike m (c.order t) = ((l.strike m t).1.map c.exec, c.order (l.strike m t).2.1, c.board (l.strike m t).2.2) := by
  unfold Board.strike
  cases m with
  | false => rfl
  | true =>
    simp only [if_true]
    show (((c.order t).capped ((l t.side.other.limits).map c.order)).fills ((l t.side.other.limits).map c.order),
      ((c.order t).capped ((l t.side.other.limits).map c.order)).left ((l t.side.other.limits).map c.order),
      (c.board l).put t.side.other.limits (((c.order t).capped ((l t.side.other.limits).map c.order)).leaveLine ((l t.side.other.limits).map c.order))) = _
    rw [capped_map, fills_map, left_map, leaveLine_map, put_map]

theorem after_map (q : Quotes) (xs : List Execution) : q.after (xs.map c.exec) = q.after xs := by
  unfold Quotes.after
  rw [List.foldl_map]
  rfl

theorem pit_strike (m : Bool) (p : Pit) (t : Order) :
    (c.pit p).strike m (c.order t) = ((p.strike m t).1.map c.exec, c.order (p.strike m t).2.1, c.pit (p.strike m t).2.2) := by
  unfold Pit.strike
  simp only
  show (((c.board p.board).strike m (c.order t)).1, ((c.board p.board).strike m (c.order t)).2.1, _) = _
  rw [show (c.pit p).board = c.board p.board from rfl, strike_map]
  simp only
  rw [after_map, List.getLast?_map]
  cases (p.board.strike m t).1.getLast? <;> rfl

theorem land_map (p : Pit) (t : Order) : (c.pit p).land (c.order t) = c.pit (p.land t) := by
  unfold Pit.land
  by_cases h : t.rests
  · rw [if_pos h, if_pos (show (c.order t).rests from h)]
    show ({ p with board := (c.board p.board).insert (c.order t) } : Pit) = _
    rw [insert_map]; rfl
  · rw [if_neg h, if_neg (show ¬ (c.order t).rests from h)]

theorem pit_change (p : Pit) (id : Nat) (v : Option Order) : (c.pit p).change (c.id id) (v.map c.order) = c.pit (p.change id v) := by
  unfold Pit.change
  show ({ p with board := (c.board p.board).change (c.id id) (v.map c.order) } : Pit) = _
  rw [change_map]; rfl

theorem pit_drop (p : Pit) (id : Nat) : (c.pit p).change (c.id id) none = c.pit (p.change id none) := c.pit_change p id none

/-! ### Stop orders -/

theorem released_map (o : Order) : (c.order o).released = c.order o.released := by
  unfold Order.released
  show (match o.type with
    | .stop | .trailingStop => { c.order o with type := .market, price := 0, stopPrice := 0, tif := if o.tif = TIF.fok then TIF.fok else TIF.ioc }
    | .stopLimit | .trailingStopLimit => { c.order o with type := .limit, stopPrice := 0 }
    | _ => c.order o) = _
  cases o.type <;> rfl

theorem retrailed_map (m : Nat) (o : Order) : (c.order o).retrailed m = c.order (o.retrailed m) := by
  unfold Order.retrailed
  by_cases h : o.trails ∧ o.trailMoves m
  · rw [if_pos h, if_pos (show (c.order o).trails ∧ (c.order o).trailMoves m from h)]; rfl
  · rw [if_neg h, if_neg (show ¬ ((c.order o).trails ∧ (c.order o).trailMoves m) from h)]

theorem retrail_map (m : Nat) (os : List Order) : ∀ l : Board, Board.retrail m (os.map c.order) (c.board l) = c.board (Board.retrail m os l) := by
  induction os with
  | nil => intro l; rfl
  | cons o os ih =>
    intro l
    have e : ∀ o os l, Board.retrail m (o :: os) l = if o.trailMoves m then Board.retrail m os ((l.change o.id none).insert (o.retrailed m)) else Board.retrail m os l := fun _ _ _ => rfl
    rw [List.map_cons, e, e]
    by_cases h : o.trailMoves m
    · rw [if_pos h, if_pos (show (c.order o).trailMoves m from h), retrailed_map, ← ih, ← insert_map]
      have := c.change_map l o.id none
      rw [← this]; rfl
    · rw [if_neg h, if_neg (show ¬ (c.order o).trailMoves m from h), ih]

theorem bestBid_map (l : Board) : (c.board l).bestBid = l.bestBid := by
  show ((((l .bid).map c.order).head?).map (·.price)).getD 0 = _
  rw [List.head?_map]; unfold Board.bestBid; cases (l .bid).head? <;> rfl

theorem bestAsk_map (l : Board) : (c.board l).bestAsk = l.bestAsk := by
  show ((((l .ask).map c.order).head?).map (·.price)).getD MAX64 = _
  rw [List.head?_map]; unfold Board.bestAsk; cases (l .ask).head? <;> rfl

theorem bid_map (p : Pit) : (c.pit p).bid = p.bid := by show max _ (c.board p.board).bestBid = _; rw [bestBid_map]; rfl
theorem ask_map (p : Pit) : (c.pit p).ask = p.ask := by show min _ (c.board p.board).bestAsk = _; rw [bestAsk_map]; rfl
theorem trailBid_map (p : Pit) : (c.pit p).trailBid = p.trailBid := by show min _ (c.board p.board).bestBid = _; rw [bestBid_map]; rfl
theorem trailAsk_map (p : Pit) : (c.pit p).trailAsk = p.trailAsk := by show max _ (c.board p.board).bestAsk = _; rw [bestAsk_map]; rfl

theorem reached_map (p : Pit) (o : Order) : (c.pit p).reached (c.order o) ↔ p.reached o := by
  unfold Pit.reached
  rw [bid_map, ask_map]
  rfl

theorem due_map (p : Pit) (k : Kind) : (c.pit p).due k = (p.due k).map c.order := by
  unfold Pit.due
  rw [show (c.pit p).board k = (p.board k).map c.order from rfl]
  cases p.board k with
  | nil => rfl
  | cons o os =>
    simp only [List.map_cons]
    by_cases h : p.reached o
    · rw [if_pos h, if_pos ((c.reached_map p o).2 h), List.map_cons, List.takeWhile_map]; rfl
    · rw [if_neg h, if_neg (fun h' => h ((c.reached_map p o).1 h'))]; rfl

theorem next_map (p : Pit) (k k' : Kind) : (c.pit p).next k k' = (p.next k k').map c.order := by
  unfold Pit.next
  rw [due_map, due_map]
  by_cases h : p.due k = []
  · rw [if_pos h, if_pos (by rw [h]; rfl)]
  · rw [if_neg h, if_neg (by simpa using h)]

theorem release_map (p : Pit) (o : Order) : (c.pit p).release (c.order o) = ((p.release o).1.map c.exec, c.pit (p.release o).2) := by
  unfold Pit.release
  simp only
  rw [show (c.order o).id = c.id o.id from rfl, pit_drop, released_map, pit_strike]
  simp only
  rw [land_map]

theorem releaseAll_map (os : List Order) : ∀ p : Pit,
    Pit.releaseAll (os.map c.order) (c.pit p) = ((Pit.releaseAll os p).1.map c.exec, c.pit (Pit.releaseAll os p).2) := by
  induction os with
  | nil => intro p; rfl
  | cons o os ih =>
    intro p
    have e : ∀ o os p, Pit.releaseAll (o :: os) p = ((p.release o).1 ++ (Pit.releaseAll os (p.release o).2).1, (Pit.releaseAll os (p.release o).2).2) := fun _ _ _ => rfl
    rw [List.map_cons, e, e, release_map]
    simp only
    rw [ih]
    simp only [List.map_append]

theorem followAsk_map (p : Pit) : (c.pit p).followAsk = c.pit p.followAsk := by
  unfold Pit.followAsk
  rw [show (c.pit p).board .ask = (p.board .ask).map c.order from rfl, trailAsk_map]
  by_cases h : p.board .ask = []
  · rw [if_pos h, if_pos (by rw [h]; rfl)]
  · rw [if_neg h, if_neg (by simpa using h)]
    show ({ p with seen := _, board := if p.trailAsk < p.seen.ask then Board.retrail p.trailAsk ((p.board .tBuyStop).map c.order) (c.board p.board) else c.board p.board } : Pit) = _
    rw [retrail_map]
    by_cases h2 : p.trailAsk < p.seen.ask
    · simp only [if_pos h2]; rfl
    · simp only [if_neg h2]; rfl

theorem followBid_map (p : Pit) : (c.pit p).followBid = c.pit p.followBid := by
  unfold Pit.followBid
  rw [show (c.pit p).board .bid = (p.board .bid).map c.order from rfl, trailBid_map]
  by_cases h : p.board .bid = []
  · rw [if_pos h, if_pos (by rw [h]; rfl)]
  · rw [if_neg h, if_neg (by simpa using h)]
    show ({ p with seen := _, board := if p.seen.bid < p.trailBid then Board.retrail p.trailBid ((p.board .tSellStop).map c.order) (c.board p.board) else c.board p.board } : Pit) = _
    rw [retrail_map]
    by_cases h2 : p.seen.bid < p.trailBid
    · simp only [if_pos h2]; rfl
    · simp only [if_neg h2]; rfl

def turn (r : Bool × List Execution × Pit) : Bool × List Execution × Pit := (r.1, r.2.1.map c.exec, c.pit r.2.2)

theorem round_map (p : Pit) : (c.pit p).round = c.turn p.round := by
  unfold Pit.round turn
  simp only
  rw [next_map, releaseAll_map]
  simp only
  rw [followAsk_map, next_map, releaseAll_map]
  simp only
  rw [followBid_map, List.map_append, List.isEmpty_map, List.isEmpty_map]

theorem rounds_map (n : Nat) : ∀ p : Pit, Pit.rounds n (c.pit p) = c.turn (Pit.rounds n p) := by
  induction n with
  | zero => intro p; rfl
  | succ n ih =>
    intro p
    have e : ∀ p, Pit.rounds (n + 1) p = if p.round.1 then (true, p.round.2.1 ++ (Pit.rounds n p.round.2.2).2.1, (Pit.rounds n p.round.2.2).2.2) else p.round := fun _ => rfl
    rw [e, e, round_map]
    by_cases h : p.round.1 = true
    · rw [if_pos h, if_pos (show (c.turn p.round).1 = true from h), show (c.turn p.round).2.2 = c.pit p.round.2.2 from rfl, ih]
      show (_, _, _) = (_, _, _)
      rw [List.map_append]; rfl
    · rw [if_neg h, if_neg (show ¬ (c.turn p.round).1 = true from h)]

/-! ### A crossed book -/

theorem groups_map (os : List Order) : priceGroups (os.map c.order) = c.groups (priceGroups os) := by
  induction os with
  | nil => rfl
  | cons o os ih =>
    rw [List.map_cons]
    unfold priceGroups
    rw [ih]
    cases hg : priceGroups os with
    | nil => rfl
    | cons g gs =>
      cases g with
      | nil => rfl
      | cons r rs =>
        simp only [groups, List.map_cons]
        by_cases h : r.price = o.price
        · rw [if_pos h, if_pos (show (c.order r).price = (c.order o).price from h)]; rfl
        · rw [if_neg h, if_neg (show ¬ (c.order r).price = (c.order o).price from h)]; rfl

theorem headD_map (l : List (List Order)) : (c.groups l).headD [] = (l.headD []).map c.order := by cases l <;> rfl

theorem tally_map (n : Nat) : ∀ (L S : List (List Order)) (lo so : List Order) (need got : Nat),
    tally n (c.groups L) (c.groups S) (lo.map c.order) (so.map c.order) need got = tally n L S lo so need got := by
  induction n with
  | zero => intros; rfl
  | succ n ih =>
    intro L S lo so need got
    cases L with
    | nil => rfl
    | cons L LS =>
      cases S with
      | nil => rfl
      | cons S SS =>
        cases lo with
        | nil =>
          cases so with
          | nil =>
            show tally n (c.groups LS) (c.groups SS) ((c.groups LS).headD []) ((c.groups SS).headD []) need got = tally n LS SS (LS.headD []) (SS.headD []) need got
            rw [headD_map, headD_map, ih]
          | cons y so =>
            show tally n (c.groups LS) (c.groups (S :: SS)) ((c.groups LS).headD []) ((y :: so).map c.order) need got = tally n LS (S :: SS) (LS.headD []) (y :: so) need got
            rw [headD_map, ih]
        | cons x lo =>
          cases so with
          | nil =>
            show tally n (c.groups (L :: LS)) (c.groups SS) ((x :: lo).map c.order) ((c.groups SS).headD []) need got = tally n (L :: LS) SS (x :: lo) (SS.headD []) need got
            rw [headD_map, ih]
          | cons y so =>
            have e : ∀ L LS S SS x lo y so, tally (n + 1) (L :: LS) (S :: SS) (x :: lo) (y :: so) need got =
              (if need = add64 got (if y.isAON then y.leaves else min y.leaves (sub64 need got)) then need
               else if need < add64 got (if y.isAON then y.leaves else min y.leaves (sub64 need got)) then
                 tally n (L :: LS) (S :: SS) (y :: so) lo (add64 got (if y.isAON then y.leaves else min y.leaves (sub64 need got))) need
               else tally n (L :: LS) (S :: SS) (x :: lo) so need (add64 got (if y.isAON then y.leaves else min y.leaves (sub64 need got)))) := fun _ _ _ _ _ _ _ _ => rfl
            show tally (n + 1) (L.map c.order :: c.groups LS) (S.map c.order :: c.groups SS) (c.order x :: lo.map c.order) (c.order y :: so.map c.order) need got = _
            rw [e, e]
            show (if need = add64 got (if y.isAON then y.leaves else min y.leaves (sub64 need got)) then need
               else if need < add64 got (if y.isAON then y.leaves else min y.leaves (sub64 need got)) then
                 tally n (c.groups (L :: LS)) (c.groups (S :: SS)) ((y :: so).map c.order) (lo.map c.order) (add64 got (if y.isAON then y.leaves else min y.leaves (sub64 need got))) need
               else tally n (c.groups (L :: LS)) (c.groups (S :: SS)) ((x :: lo).map c.order) (so.map c.order) need (add64 got (if y.isAON then y.leaves else min y.leaves (sub64 need got)))) = _
            rw [ih, ih]

theorem groups_length (l : List (List Order)) : (c.groups l).length = l.length := by simp [groups]

theorem crossing_map (bs as : List Order) : crossing (bs.map c.order) (as.map c.order) = crossing bs as := by
  cases bs with
  | nil => rfl
  | cons b bs =>
    cases as with
    | nil => rfl
    | cons a as =>
      have e : ∀ b bs a as, crossing (b :: bs) (a :: as) =
        (if a.isAON ∧ (b.isAON → b.leaves < a.leaves) then
          tally ((b :: bs).length + (priceGroups (b :: bs)).length + ((a :: as).length + (priceGroups (a :: as)).length) + 1) (priceGroups (a :: as)) (priceGroups (b :: bs)) ((priceGroups (a :: as)).headD []) ((priceGroups (b :: bs)).headD []) a.leaves 0
         else tally ((b :: bs).length + (priceGroups (b :: bs)).length + ((a :: as).length + (priceGroups (a :: as)).length) + 1) (priceGroups (b :: bs)) (priceGroups (a :: as)) ((priceGroups (b :: bs)).headD []) ((priceGroups (a :: as)).headD []) b.leaves 0) := fun _ _ _ _ => rfl
      have g1 : priceGroups (c.order b :: bs.map c.order) = c.groups (priceGroups (b :: bs)) := c.groups_map (b :: bs)
      have g2 : priceGroups (c.order a :: as.map c.order) = c.groups (priceGroups (a :: as)) := c.groups_map (a :: as)
      rw [List.map_cons, List.map_cons, e, e, g1, g2, headD_map, headD_map, groups_length, groups_length, tally_map, tally_map]
      simp only [List.length_cons, List.length_map]
      rfl

theorem drawn_map (rs : List Order) : ∀ n, drawn n (rs.map c.order) = c.draws (drawn n rs) := by
  induction rs with
  | nil => intro n; rfl
  | cons r rs ih =>
    intro n
    have e : ∀ r rs, drawn n (r :: rs) = if n = 0 then [] else (r, if r.isAON then r.leaves else min r.leaves n) :: drawn (sub64 n (if r.isAON then r.leaves else min r.leaves n)) rs := fun _ _ => rfl
    rw [List.map_cons, e, e, ih]
    by_cases h : n = 0
    · rw [if_pos h, if_pos h]; rfl
    · rw [if_neg h, if_neg h]; rfl

def step (r : List Execution × Pit) : List Execution × Pit := (r.1.map c.exec, c.pit r.2)

theorem meet_map (p : Pit) (b a : Order) : (c.pit p).meet (c.order b) (c.order a) = c.step (p.meet b a) := by
  have key : ∀ e r : Order,
      (([(c.order e, e.price, e.leaves), (c.order r, e.price, e.leaves)],
        { c.pit p with
          board := ((c.pit p).board.change (c.id e.id) none).change (c.id r.id) (if e.leaves < r.leaves then some ((c.order r).afterExec e.leaves) else none)
          last := p.last.after [(c.order e, e.price, e.leaves), (c.order r, e.price, e.leaves)]
          heard := .blank }) : List Execution × Pit) =
      c.step ([(e, e.price, e.leaves), (r, e.price, e.leaves)],
        { p with
          board := (p.board.change e.id none).change r.id (if e.leaves < r.leaves then some (r.afterExec e.leaves) else none)
          last := p.last.after [(e, e.price, e.leaves), (r, e.price, e.leaves)]
          heard := .blank }) := by
    intro e r
    have h1 := c.change_map p.board e.id none
    have h2 := c.change_map (p.board.change e.id none) r.id (if e.leaves < r.leaves then some (r.afterExec e.leaves) else none)
    rw [← h1] at h2
    have h3 : (if e.leaves < r.leaves then some (r.afterExec e.leaves) else none).map c.order =
        (if e.leaves < r.leaves then some ((c.order r).afterExec e.leaves) else none) := by split <;> rfl
    rw [h3] at h2
    unfold step
    show (_, ({ p with board := _, last := _, heard := _ } : Pit)) = (_, ({ p with board := c.board _, last := _, heard := _ } : Pit))
    rw [← h2]
    rfl
  have e1 : (if (c.order a).leaves < (c.order b).leaves then c.order a else c.order b) = c.order (if a.leaves < b.leaves then a else b) := by
    by_cases h : a.leaves < b.leaves
    · rw [if_pos h, if_pos (show (c.order a).leaves < (c.order b).leaves from h)]
    · rw [if_neg h, if_neg (show ¬ (c.order a).leaves < (c.order b).leaves from h)]
  have e2 : (if (c.order a).leaves < (c.order b).leaves then c.order b else c.order a) = c.order (if a.leaves < b.leaves then b else a) := by
    by_cases h : a.leaves < b.leaves
    · rw [if_pos h, if_pos (show (c.order a).leaves < (c.order b).leaves from h)]
    · rw [if_neg h, if_neg (show ¬ (c.order a).leaves < (c.order b).leaves from h)]
  unfold Pit.meet
  simp only
  rw [e1, e2]
  exact key _ _

theorem draw_map (p : Pit) (k : Kind) (price n : Nat) : (c.pit p).draw k price n = c.step (p.draw k price n) := by
  unfold Pit.draw step
  simp only
  rw [show (c.pit p).board k = (p.board k).map c.order from rfl, drawn_map, afterChain_map]
  have h1 : (c.draws (drawn n (p.board k))).map (fun y => ((y.1, price, y.2) : Execution)) = ((drawn n (p.board k)).map (fun y => ((y.1, price, y.2) : Execution))).map c.exec := by
    simp only [draws, List.map_map]; rfl
  rw [h1, after_map, show (c.pit p).board = c.board p.board from rfl, put_map]
  generalize (drawn n (p.board k)).map (fun y => ((y.1, price, y.2) : Execution)) = xs
  cases xs <;> rfl

theorem crossWhole_map (p : Pit) (b a : Order) : (c.pit p).crossWhole (c.order b) (c.order a) = c.turn (p.crossWhole b a) := by
  unfold Pit.crossWhole
  simp only
  rw [show (c.pit p).board .bid = (p.board .bid).map c.order from rfl, show (c.pit p).board .ask = (p.board .ask).map c.order from rfl, crossing_map]
  by_cases h : crossing (p.board .bid) (p.board .ask) = 0
  · rw [if_pos h, if_pos h]; rfl
  · rw [if_neg h, if_neg h]
    by_cases hb : b.isAON = true
    · simp only [if_pos hb, if_pos (show (c.order b).isAON = true from hb)]
      rw [show (c.order b).price = b.price from rfl, draw_map]
      show (_, _, _) = (_, _, _)
      rw [show (c.step (p.draw .bid b.price (crossing (p.board .bid) (p.board .ask)))).2 = c.pit (p.draw .bid b.price (crossing (p.board .bid) (p.board .ask))).2 from rfl, draw_map]
      unfold step
      simp only [List.map_append]
    · simp only [if_neg hb, if_neg (show ¬ (c.order b).isAON = true from hb)]
      rw [show (c.order a).price = a.price from rfl, draw_map]
      show (_, _, _) = (_, _, _)
      rw [show (c.step (p.draw .ask a.price (crossing (p.board .bid) (p.board .ask)))).2 = c.pit (p.draw .ask a.price (crossing (p.board .bid) (p.board .ask))).2 from rfl, draw_map]
      unfold step
      simp only [List.map_append]

theorem pairs_map (bs : List Order) : ∀ (as : List Order) (p : Pit), Pit.pairs (bs.map c.order) (as.map c.order) (c.pit p) = c.turn (Pit.pairs bs as p) := by
  induction bs with
  | nil => intro as p; cases as <;> rfl
  | cons b bs ih =>
    intro as p
    cases as with
    | nil => rfl
    | cons a as =>
      have e : ∀ b bs a as p, Pit.pairs (b :: bs) (a :: as) p = if b.isAON ∨ a.isAON then p.crossWhole b a else
        ((Pit.pairs bs as (p.meet b a).2).1, (p.meet b a).1 ++ (Pit.pairs bs as (p.meet b a).2).2.1, (Pit.pairs bs as (p.meet b a).2).2.2) := fun _ _ _ _ _ => rfl
      rw [List.map_cons, List.map_cons, e, e]
      by_cases h : b.isAON ∨ a.isAON
      · rw [if_pos h, if_pos (show (c.order b).isAON ∨ (c.order a).isAON from h), crossWhole_map]
      · rw [if_neg h, if_neg (show ¬ ((c.order b).isAON ∨ (c.order a).isAON) from h), meet_map,
          show (c.step (p.meet b a)).2 = c.pit (p.meet b a).2 from rfl, ih]
        unfold turn step
        simp only [List.map_append]

theorem crossed_map (p : Pit) : (c.pit p).crossed ↔ p.crossed := by
  unfold Pit.crossed
  rw [show (c.pit p).board = c.board p.board from rfl, bestAsk_map, bestBid_map]
  show _ ∧ (p.board .bid).map c.order ≠ [] ∧ (p.board .ask).map c.order ≠ [] ↔ _
  simp

theorem stops_map (l : Board) : (c.board l).stops = l.stops := by
  show ((l .buyStop).map c.order).length + ((l .sellStop).map c.order).length + ((l .tBuyStop).map c.order).length + ((l .tSellStop).map c.order).length = _
  simp [Board.stops]

theorem size_map (l : Board) : (c.board l).size = l.size := by
  unfold Board.size
  congr 1
  refine List.map_congr_left ?_
  intro k _
  show (((l k).map c.order).map (·.leaves)).sum = _
  rw [List.map_map]; rfl

theorem settle_map (n : Nat) : ∀ p : Pit, Pit.settle n (c.pit p) = c.step (Pit.settle n p) := by
  induction n with
  | zero => intro p; rfl
  | succ n ih =>
    intro p
    have e1 : ∀ p : Pit, p.crossed → Pit.settle (n + 1) p =
      (let q := Pit.pairs ((priceGroups (p.board .bid)).headD []) ((priceGroups (p.board .ask)).headD []) p
       if q.1 then (q.2.1, q.2.2)
       else
        let r := Pit.releaseAll (q.2.2.due .buyStop) q.2.2
        let r' := Pit.releaseAll (r.2.due .sellStop) r.2
        let z := Pit.settle n r'.2
        (q.2.1 ++ r.1 ++ r'.1 ++ z.1, z.2)) := fun p h => if_pos h
    have e2 : ∀ p : Pit, ¬ p.crossed → Pit.settle (n + 1) p =
      (let q := p.rounds (p.board.stops + 1)
       if q.1 then
        let z := Pit.settle n q.2.2
        (q.2.1 ++ z.1, z.2)
       else (q.2.1, q.2.2)) := fun p h => if_neg h
    by_cases h : p.crossed
    · rw [e1 p h, e1 _ ((c.crossed_map p).2 h)]
      simp only
      rw [show (c.pit p).board .bid = (p.board .bid).map c.order from rfl, show (c.pit p).board .ask = (p.board .ask).map c.order from rfl,
        groups_map, groups_map, headD_map, headD_map, pairs_map]
      generalize Pit.pairs ((priceGroups (p.board .bid)).headD []) ((priceGroups (p.board .ask)).headD []) p = q
      by_cases hq : q.1 = true
      · rw [if_pos hq, if_pos (show (c.turn q).1 = true from hq)]; rfl
      · rw [if_neg hq, if_neg (show ¬ (c.turn q).1 = true from hq), show (c.turn q).2.2 = c.pit q.2.2 from rfl, due_map, releaseAll_map]
        simp only
        rw [due_map, releaseAll_map]
        simp only
        rw [ih]
        unfold turn step
        simp only [List.map_append]
    · rw [e2 p h, e2 _ (fun h' => h ((c.crossed_map p).1 h'))]
      simp only
      rw [show (c.pit p).board = c.board p.board from rfl, stops_map, rounds_map]
      generalize p.rounds (p.board.stops + 1) = q
      by_cases hq : q.1 = true
      · rw [if_pos hq, if_pos (show (c.turn q).1 = true from hq), show (c.turn q).2.2 = c.pit q.2.2 from rfl, ih]
        unfold turn step
        simp only [List.map_append]
      · rw [if_neg hq, if_neg (show ¬ (c.turn q).1 = true from hq)]; rfl

theorem rest_map (p : Pit) : (c.pit p).rest = c.step p.rest := by
  unfold Pit.rest
  rw [show (c.pit p).board = c.board p.board from rfl, size_map, stops_map, settle_map]

theorem close_map (m : Bool) (p : Pit) : (c.pit p).close m = c.step (p.close m) := by
  unfold Pit.close
  cases m with
  | false => rfl
  | true => simp only [if_true]; rw [rest_map]; rfl

theorem enter_map (m : Bool) (p : Pit) (o : Order) :
    (c.pit p).enter m (c.order o) = ((p.enter m o).1.map c.exec, c.order (p.enter m o).2.1, c.pit (p.enter m o).2.2) := by
  have key : ∀ t : Order, (if (c.order t).waits ∧ ¬ (m = true ∧ (c.pit p).reached (c.order t)) then (([] : List Execution), c.order t, c.pit p)
        else (c.pit p).strike m (c.order t).released) =
      (((if t.waits ∧ ¬ (m = true ∧ p.reached t) then (([] : List Execution), t, p) else p.strike m t.released).1.map c.exec),
        c.order (if t.waits ∧ ¬ (m = true ∧ p.reached t) then (([] : List Execution), t, p) else p.strike m t.released).2.1,
        c.pit (if t.waits ∧ ¬ (m = true ∧ p.reached t) then (([] : List Execution), t, p) else p.strike m t.released).2.2) := by
    intro t
    by_cases h : t.waits ∧ ¬ (m = true ∧ p.reached t)
    · have h' : (c.order t).waits ∧ ¬ (m = true ∧ (c.pit p).reached (c.order t)) := ⟨h.1, fun x => h.2 ⟨x.1, (c.reached_map p t).1 x.2⟩⟩
      rw [if_pos h, if_pos h']; rfl
    · have h' : ¬ ((c.order t).waits ∧ ¬ (m = true ∧ (c.pit p).reached (c.order t))) :=
        fun x => h ⟨x.1, fun y => x.2 ⟨y.1, (c.reached_map p t).2 y.2⟩⟩
      rw [if_neg h, if_neg h', released_map, pit_strike]
  unfold Pit.enter
  cases hs : o.side
  · simp only [hs, show (c.order o).side = Side.buy from hs]
    rw [trailAsk_map, retrailed_map]; exact key _
  · simp only [hs, show (c.order o).side = Side.sell from hs]
    rw [trailBid_map, retrailed_map]; exact key _

end Recast
end CppTrader
