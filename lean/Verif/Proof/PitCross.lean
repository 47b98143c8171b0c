import Verif.Proof.PitTrail
/-
A crossed book: pairs of resting orders, All-Or-None orders, and the book coming to rest.
-/

namespace CppTrader
open Core

/-! ### Price groups -/

theorem priceGroups_head (r : Order) (rs : List Order) : ∃ xs gs, priceGroups (r :: rs) = (r :: xs) :: gs := by
  unfold priceGroups
  split
  · split
    · exact ⟨_, _, rfl⟩
    · exact ⟨_, _, rfl⟩
  · exact ⟨_, _, rfl⟩

theorem priceGroups_append {p : Nat} (g : List Order) : ∀ {R : List Order}, g ≠ [] → (∀ r ∈ g, r.price = p) → (∀ r ∈ R, r.price ≠ p) →
    priceGroups (g ++ R) = g :: priceGroups R := by
  induction g with
  | nil => intro R h; exact absurd rfl h
  | cons o g ih =>
    intro R _ hg hR
    have ho := hg o (by simp)
    cases g with
    | nil =>
      show priceGroups (o :: R) = _
      cases R with
      | nil => rfl
      | cons r rs =>
        obtain ⟨xs, gs, e⟩ := priceGroups_head r rs
        have hr := hR r (by simp)
        show (match priceGroups (r :: rs) with
          | (r :: rs) :: gs => if r.price = o.price then (o :: r :: rs) :: gs else [o] :: (r :: rs) :: gs
          | gs => [o] :: gs) = _
        rw [e]
        simp only
        rw [if_neg (by rw [ho]; exact hr)]
    | cons o' g =>
      have h := ih (R := R) (by simp) (fun r hr => hg r (by simp [hr])) hR
      show (match priceGroups (o' :: g ++ R) with
        | (r :: rs) :: gs => if r.price = o.price then (o :: r :: rs) :: gs else [o] :: (r :: rs) :: gs
        | gs => [o] :: gs) = _
      rw [h]
      simp only
      rw [if_pos (by rw [ho]; exact hg o' (by simp))]

theorem groups_of {s : Core} (ls : List Level) (h : ∀ l ∈ ls, restOf s l.ids ≠ [] ∧ ∀ r ∈ restOf s l.ids, r.price = l.price)
    (hp : ls.Pairwise (fun a b => b.price ≠ a.price)) : priceGroups (restOf s (flatOf ls)) = ls.map (fun l => restOf s l.ids) := by
  induction ls with
  | nil => rfl
  | cons l ls ih =>
    rw [List.pairwise_cons] at hp
    rw [flatOf_cons, restOf_append, List.map_cons, ← ih (fun l' hl => h l' (by simp [hl])) hp.2]
    refine priceGroups_append (p := l.price) _ (h l (by simp)).1 (h l (by simp)).2 ?_
    intro r hr
    obtain ⟨i, hi', hr⟩ := restOf_mem.1 hr
    obtain ⟨l', hl', hm⟩ := mem_flatOf.1 hi'
    rw [(h l' (by simp [hl'])).2 r (restOf_mem.2 ⟨i, hm, hr⟩)]
    exact hp.1 l' hl'

/-- The price levels of a limit collection are the groups of its line. -/
theorem groups_line {s : Core} (hi : Inv s) {k : Kind} (hk : k.isLimit = true) :
    priceGroups (s.line k) = (s.book.lv k).map (fun l => restOf s l.ids) := by
  refine groups_of _ ?_ ?_
  · intro l hl
    obtain ⟨_, h2, h3⟩ := group_line hi hl
    refine ⟨h2, fun r hr => ?_⟩
    rw [← h3 r hr]
    have hm : r ∈ s.line k := by
      obtain ⟨i, hi', hr⟩ := restOf_mem.1 hr
      exact restOf_mem.2 ⟨i, mem_flatOf.2 ⟨l, hl, hi'⟩, hr⟩
    exact (key_price_of_limit ((line_mem hi).1 hm).2.2 hk).symm
  · refine (hi.book.kinds k).sorted.imp ?_
    intro a b hb e
    rw [e, better_irrefl] at hb
    cases hb

/-! ### Two orders meet -/

theorem fill_line {s s' : Core} {o : Order} {p q} (f : Fill s o p q s') (hi : Inv s) : s'.line = Board.change s.line o.id (afterFill o q) := by
  have e := f.eff hi
  funext k
  refine line_set (k := limKind o.side) hi ⟨e.orders, e.same⟩ (by rw [f.pre.mem]; simp) ?_ k
  rw [e.queue]
  unfold afterFill
  by_cases h : o.leaves = q <;> simp [h]

theorem afterFill_exec {r : Order} {q : Nat} (h : q ≤ r.leaves) : afterFill r q = if q < r.leaves then some (r.afterExec q) else none := by
  unfold afterFill
  by_cases e : r.leaves = q
  · rw [if_pos e, if_neg (by omega)]
  · rw [if_neg e, if_pos (by omega)]; rfl

theorem fill_pit {s s' : Core} {o : Order} {p q} (f : Fill s o p q s') (hi : Inv s) :
    s'.pit = { s.pit with board := s.pit.board.change o.id (afterFill o q), last := s.pit.last.set o.side p, heard := .blank } := by
  obtain ⟨m1, m2⟩ := f.matchPrices hi
  have hp := f.px hi
  have e := (f.eff hi).same
  have h1 : s'.pit = ⟨s'.line, ⟨s'.book.lastBid, s'.book.lastAsk⟩, ⟨s'.book.matchBid, s'.book.matchAsk⟩, ⟨s'.book.trailBid, s'.book.trailAsk⟩⟩ := rfl
  rw [h1, m1, m2, fill_line f hi, hp.lastBid, hp.lastAsk, e.trailBid, e.trailAsk, ← quotes_after ⟨s.book.lastBid, s.book.lastAsk⟩ [(o, p, q)]]
  rfl

theorem matchPair_plays {s s' : Core} {b a : Order} (hi : Inv s)
    (hb : s.orders b.id = some b) (hbs : b.symbolId = s.book.symbol.id) (hbl : b.type = .limit) (hbd : b.side = .buy)
    (ha : s.orders a.id = some a) (has : a.symbolId = s.book.symbol.id) (hal : a.type = .limit) (had : a.side = .sell)
    (hx : a.price ≤ b.price) (hba : b.isAON = false) (haa : a.isAON = false) (run : s.matchPair b.id a.id = .ok s') :
    Plays s (s.pit.meet b a) s' := by
  have main : ∀ e r : Order, s.orders e.id = some e → e.symbolId = s.book.symbol.id → e.type = .limit →
      s.orders r.id = some r → r.symbolId = s.book.symbol.id → r.type = .limit → e.side ≠ r.side → e.isAON = false →
      r.isAON = false → e.leaves ≤ r.leaves →
      (∀ b a, (b = e ∧ a = r ∨ b = r ∧ a = e) → b.side = .buy → a.price ≤ b.price) →
      (do
        let s ← s.execResting e.id e.price e.leaves
        let s ← s.deleteRec e.id
        let s ← s.execResting r.id e.price e.leaves
        s.reduceRec r.id e.leaves : Except Err Core) = .ok s' →
      Plays s ([(e, e.price, e.leaves), (r, e.price, e.leaves)], { s.pit with
        board := (s.pit.board.change e.id none).change r.id (if e.leaves < r.leaves then some (r.afterExec e.leaves) else none)
        last := s.pit.last.after [(e, e.price, e.leaves), (r, e.price, e.leaves)]
        heard := .blank }) s' := by
    intro e r he hes hel hr hrs hrl hne hea hra hle hc run
    have heok := (hi.orders _ e he).2
    have hid : e.id ≠ r.id := fun h => by rw [h, hr] at he; cases he; exact hne rfl
    obtain ⟨s1, f1, F1⟩ := hi.fill_del (o := e) (price := e.price) ⟨he, hes, hel, heok.leaves, Nat.le_refl _, fun _ => rfl⟩
    have E1 := F1.eff hi
    have hr1 : s1.orders r.id = some r := by rw [E1.orders, setO_other _ _ (Ne.symm hid)]; exact hr
    obtain ⟨s2, f2, F2⟩ := E1.inv.fill_red (o := r) (price := e.price) (q := e.leaves)
      ⟨hr1, by rw [E1.same.symbol]; exact hrs, hrl, heok.leaves, hle, fun h => by rw [hra] at h; cases h⟩
    have st : Step (.pair e r) s none s2 none := .pair F1 F2 hne hid hea hra hc
    have e2 : s2 = s' := by
      have : (do
        let s ← s.execResting e.id e.price e.leaves
        let s ← s.deleteRec e.id
        let s ← s.execResting r.id e.price e.leaves
        s.reduceRec r.id e.leaves : Except Err Core) = .ok s2 := by
        cases g1 : s.execResting e.id e.price e.leaves with
        | error x => unfold Core.execDel at f1; rw [g1] at f1; cases f1
        | ok sa =>
          unfold Core.execDel at f1; rw [g1, Except.bind_ok] at f1
          rw [Except.bind_ok, f1, Except.bind_ok]
          exact f2
      rw [run] at this; cases this; rfl
    subst e2
    refine (st.plays (CInv.none_iff.2 hi)).to ?_
    rw [fill_pit F2 E1.inv, fill_pit F1 hi]
    rw [afterFill_exec hle, show afterFill e e.leaves = none from if_pos rfl]
    rfl
  unfold matchPair at run
  simp only [Core.get_ok hb, Core.get_ok ha, Except.bind_ok] at run
  unfold Pit.meet
  by_cases hc : a.leaves < b.leaves
  · simp only [hc, if_true] at run ⊢
    have e := main a b ha has hal hb hbs hbl (by rw [had, hbd]; simp) haa hba (by omega) (by
      rintro b' a' (⟨rfl, rfl⟩ | ⟨rfl, rfl⟩) h
      · rw [had] at h; cases h
      · omega) run
    simp only [hc, if_true] at e
    exact e
  · simp only [hc, if_false] at run ⊢
    exact main b a hb hbs hbl ha has hal (by rw [had, hbd]; simp) hba haa (by omega) (by
      rintro b' a' (⟨rfl, rfl⟩ | ⟨rfl, rfl⟩) h
      · omega
      · rw [had] at h; cases h) run

/-! ### All-Or-None orders -/

theorem restOf_cons {s : Core} {i : Nat} {is : List Nat} {o : Order} (h : s.orders i = some o) : restOf s (i :: is) = o :: restOf s is := by
  unfold restOf; rw [List.filterMap_cons, h]

theorem frontIds_rest (s : Core) (ls : List Level) : restOf s (frontIds ls) = (ls.map (fun l => restOf s l.ids)).headD [] := by
  cases ls <;> rfl

theorem frontIds_live {s : Core} {ls : List Level} (h : ∀ i ∈ flatOf ls, s.orders i ≠ none) : ∀ i ∈ frontIds ls, s.orders i ≠ none := by
  cases ls with
  | nil => intro i hi; cases hi
  | cons l ls => intro i hi; exact h i (by rw [flatOf_cons]; exact List.mem_append_left _ hi)

theorem chainPair_tally {s : Core} : ∀ (n : Nat) (ll sl : List Level) (lo so : List Nat) (req avail : Nat) {r : Nat},
    (∀ i ∈ flatOf ll, s.orders i ≠ none) → (∀ i ∈ flatOf sl, s.orders i ≠ none) →
    (∀ i ∈ lo, s.orders i ≠ none) → (∀ i ∈ so, s.orders i ≠ none) →
    chainPair s n ll sl lo so req avail = .ok r →
    r = tally n (ll.map fun l => restOf s l.ids) (sl.map fun l => restOf s l.ids) (restOf s lo) (restOf s so) req avail := by
  intro n
  induction n with
  | zero => intro ll sl lo so req avail r _ _ _ _ h; cases h
  | succ n ih =>
    intro ll sl lo so req avail r h1 h2 h3 h4 h
    cases ll with
    | nil => simp only [chainPair] at h; cases h; simp [tally]
    | cons l ll =>
      cases sl with
      | nil => simp only [chainPair] at h; cases h; simp [tally]
      | cons m sl =>
        have h1' : ∀ i ∈ flatOf ll, s.orders i ≠ none := fun i hi => h1 i (by simp [hi])
        have h2' : ∀ i ∈ flatOf sl, s.orders i ≠ none := fun i hi => h2 i (by simp [hi])
        cases lo with
        | nil =>
          cases so with
          | nil =>
            simp only [chainPair] at h
            rw [ih ll sl _ _ req avail h1' h2' (frontIds_live h1') (frontIds_live h2') h, frontIds_rest, frontIds_rest]
            simp [restOf, tally]
          | cons sid so =>
            obtain ⟨y, hy⟩ := Option.ne_none_iff_exists'.1 (h4 sid (by simp))
            simp only [chainPair] at h
            rw [ih ll (m :: sl) _ _ req avail h1' h2 (frontIds_live h1') h4 h, frontIds_rest, restOf_cons hy]
            simp [show restOf s [] = [] from rfl, tally]
        | cons lid lo =>
          obtain ⟨x, hx⟩ := Option.ne_none_iff_exists'.1 (h3 lid (by simp))
          cases so with
          | nil =>
            simp only [chainPair] at h
            rw [ih (l :: ll) sl _ _ req avail h1 h2' h3 (frontIds_live h2') h, frontIds_rest, restOf_cons hx]
            simp [show restOf s [] = [] from rfl, tally]
          | cons sid so =>
            obtain ⟨y, hy⟩ := Option.ne_none_iff_exists'.1 (h4 sid (by simp))
            simp only [chainPair, Core.get_ok hy, Except.bind_ok] at h
            rw [restOf_cons hx, restOf_cons hy]
            simp only [List.map_cons, tally]
            generalize (if y.isAON = true then y.leaves else min y.leaves (sub64 req avail)) = q at h ⊢
            by_cases e1 : req = add64 avail q
            · rw [if_pos e1] at h ⊢; cases h; rfl
            · rw [if_neg e1] at h ⊢
              by_cases e2 : req < add64 avail q
              · rw [if_pos e2] at h ⊢
                rw [ih (l :: ll) (m :: sl) _ _ _ _ h1 h2 h4 (fun i hi => h3 i (by simp [hi])) h, restOf_cons hy]
                rfl
              · rw [if_neg e2] at h ⊢
                rw [ih (l :: ll) (m :: sl) _ _ _ _ h1 h2 h3 (fun i hi => h4 i (by simp [hi])) h, restOf_cons hx]
                rfl

theorem rest_length {s : Core} {ids : List Nat} (h : ∀ i ∈ ids, s.orders i ≠ none) : (restOf s ids).length = ids.length := by
  induction ids with
  | nil => rfl
  | cons i is ih =>
    obtain ⟨o, ho⟩ := Option.ne_none_iff_exists'.1 (h i (by simp))
    rw [restOf_cons ho, List.length_cons, ih fun i hi => h i (by simp [hi]), List.length_cons]

theorem levelsSize_eq (ls : List Level) : levelsSize ls = (flatOf ls).length + ls.length := by
  induction ls with
  | nil => rfl
  | cons l ls ih =>
    rw [flatOf_cons, List.length_append]
    simp only [levelsSize, List.map_cons, List.sum_cons, List.length_cons] at ih ⊢
    omega

theorem lv_live {s : Core} (hi : Inv s) (k : Kind) : ∀ i ∈ flatOf (s.book.lv k), s.orders i ≠ none := by
  intro i h
  obtain ⟨o, g, _⟩ := hi.book.queue_mem h
  rw [g]; simp

theorem chainCross_crossing {s : Core} (hi : Inv s) {r : Nat} (run : chainCross s (s.book.lv .bid) (s.book.lv .ask) = .ok r) :
    r = crossing (s.line .bid) (s.line .ask) := by
  have lb := lv_live hi .bid
  have la := lv_live hi .ask
  have hb := groups_line hi (k := .bid) rfl
  have ha := groups_line hi (k := .ask) rfl
  unfold chainCross at run
  cases hbf : frontIds (s.book.lv .bid) with
  | nil => rw [hbf] at run; simp only at run; cases run
  | cons bid bs =>
    cases haf : frontIds (s.book.lv .ask) with
    | nil => rw [hbf, haf] at run; simp only at run; cases run
    | cons ask as =>
      rw [hbf, haf] at run
      simp only at run
      obtain ⟨b, hbo⟩ := Option.ne_none_iff_exists'.1 (frontIds_live lb bid (by rw [hbf]; simp))
      obtain ⟨a, hao⟩ := Option.ne_none_iff_exists'.1 (frontIds_live la ask (by rw [haf]; simp))
      have lineb : ∃ R, s.line .bid = b :: R := by
        cases hlv : s.book.lv .bid with
        | nil => rw [hlv] at hbf; cases hbf
        | cons l ls =>
          rw [hlv] at hbf
          rw [(line_first hi hlv).1, show l.ids = bid :: bs from hbf, restOf_cons hbo]
          exact ⟨_, rfl⟩
      have linea : ∃ R, s.line .ask = a :: R := by
        cases hlv : s.book.lv .ask with
        | nil => rw [hlv] at haf; cases haf
        | cons l ls =>
          rw [hlv] at haf
          rw [(line_first hi hlv).1, show l.ids = ask :: as from haf, restOf_cons hao]
          exact ⟨_, rfl⟩
      simp only [Core.get_ok hbo, Core.get_ok hao, Except.bind_ok] at run
      rw [← hbf, ← haf] at run
      have hn : levelsSize (s.book.lv .bid) + levelsSize (s.book.lv .ask) + 1 =
          (s.line .bid).length + (priceGroups (s.line .bid)).length + ((s.line .ask).length + (priceGroups (s.line .ask)).length) + 1 := by
        rw [levelsSize_eq, levelsSize_eq, hb, ha, List.length_map, List.length_map]
        unfold Core.line queue
        rw [rest_length lb, rest_length la]
      rw [hn] at run
      have hcr : crossing (s.line .bid) (s.line .ask) =
          if a.isAON ∧ (b.isAON → b.leaves < a.leaves) then
            tally ((s.line .bid).length + (priceGroups (s.line .bid)).length + ((s.line .ask).length + (priceGroups (s.line .ask)).length) + 1)
              (priceGroups (s.line .ask)) (priceGroups (s.line .bid)) ((priceGroups (s.line .ask)).headD []) ((priceGroups (s.line .bid)).headD []) a.leaves 0
          else
            tally ((s.line .bid).length + (priceGroups (s.line .bid)).length + ((s.line .ask).length + (priceGroups (s.line .ask)).length) + 1)
              (priceGroups (s.line .bid)) (priceGroups (s.line .ask)) ((priceGroups (s.line .bid)).headD []) ((priceGroups (s.line .ask)).headD []) b.leaves 0 := by
        obtain ⟨R, e1⟩ := lineb
        obtain ⟨R', e2⟩ := linea
        rw [e1, e2]; rfl
      rw [hcr]
      generalize (s.line .bid).length + (priceGroups (s.line .bid)).length + ((s.line .ask).length + (priceGroups (s.line .ask)).length) + 1 = n at run ⊢
      rw [hb, ha, ← frontIds_rest, ← frontIds_rest]
      have A : ∀ {r}, chainPair s n (s.book.lv .ask) (s.book.lv .bid) (frontIds (s.book.lv .ask)) (frontIds (s.book.lv .bid)) a.leaves 0 = .ok r → r = _ :=
        fun h => chainPair_tally _ _ _ _ _ _ _ la lb (frontIds_live la) (frontIds_live lb) h
      have B : ∀ {r}, chainPair s n (s.book.lv .bid) (s.book.lv .ask) (frontIds (s.book.lv .bid)) (frontIds (s.book.lv .ask)) b.leaves 0 = .ok r → r = _ :=
        fun h => chainPair_tally _ _ _ _ _ _ _ lb la (frontIds_live lb) (frontIds_live la) h
      by_cases c1 : b.isAON = true
      · by_cases c2 : a.isAON = true
        · rw [c1, c2] at run
          simp only [Bool.and_self, if_true] at run
          by_cases c3 : b.leaves < a.leaves
          · rw [if_pos c3] at run
            rw [if_pos ⟨c2, fun _ => c3⟩]; exact A run
          · rw [if_neg c3] at run
            rw [if_neg (fun h => c3 (h.2 c1))]; exact B run
        · rw [if_neg (by simp [c2]), if_neg c2] at run
          rw [if_neg (fun h => c2 h.1)]; exact B run
      · rw [if_neg (by simp [c1])] at run
        by_cases c2 : a.isAON = true
        · rw [if_pos c2] at run
          rw [if_pos ⟨c2, fun h => absurd h c1⟩]; exact A run
        · rw [if_neg c2] at run
          rw [if_neg (fun h => c2 h.1)]; exact B run

theorem planIds_drawn {s : Core} (ids : List Nat) : ∀ {v : Nat}, (∀ i ∈ ids, s.orders i ≠ none) →
    (planIds s.orders ids v).1 = drawn v (restOf s ids) := by
  induction ids with
  | nil => intro v _; simp [planIds, restOf, drawn]
  | cons i is ih =>
    intro v h
    obtain ⟨o, ho⟩ := Option.ne_none_iff_exists'.1 (h i (by simp))
    rw [restOf_cons ho]
    unfold planIds drawn
    by_cases hv : v = 0
    · rw [if_pos hv, if_pos hv]
    · rw [if_neg hv, if_neg hv]
      simp only [ho]
      rw [ih fun i hi => h i (by simp [hi])]

theorem drawn_zero (R : List Order) : drawn 0 R = [] := by cases R <;> simp [drawn]

theorem Fills.drawn {p k} : ∀ {R : List Order} {n : Nat} {s s'}, Fills p s (drawn n R) s' → Inv s → (∀ r ∈ R, limKind r.side = k) →
    s.line k = R → s'.line k = afterChain (drawn n R) R := by
  intro R
  induction R with
  | nil =>
    intro n s s' f hi hk hR
    simp only [CppTrader.drawn] at f ⊢
    cases f
    exact hR
  | cons r rs ih =>
    intro n s s' f hi hk hR
    by_cases hn : n = 0
    · subst hn
      rw [drawn_zero] at f ⊢
      cases f
      exact hR
    · have hd : CppTrader.drawn n (r :: rs) = (r, if r.isAON then r.leaves else min r.leaves n) ::
          CppTrader.drawn (sub64 n (if r.isAON then r.leaves else min r.leaves n)) rs := by
        show (if n = 0 then [] else _) = _
        rw [if_neg hn]
      rw [hd] at f ⊢
      generalize hq : (if r.isAON = true then r.leaves else min r.leaves n) = q at f ⊢
      cases f with
      | cons f1 f2 =>
        have h3 := f1.rest hi (hk r (by simp)) hR
        have hle := f1.pre.le
        show _ = if q < r.leaves then r.afterExec q :: afterChain _ rs else afterChain _ rs
        by_cases h : q < r.leaves
        · have : q = n := by
            by_cases ha : r.isAON = true
            · rw [if_pos ha] at hq; omega
            · rw [if_neg ha] at hq; omega
          subst this
          have hz : sub64 q q = 0 := by
            unfold sub64
            by_cases hw : q ≤ W64 <;> omega
          rw [hz, drawn_zero] at f2 ⊢
          cases f2
          rw [if_pos h] at h3 ⊢
          exact h3
        · rw [if_neg h] at h3 ⊢
          exact ih f2 (f1.eff hi).inv (fun r hr => hk r (by simp [hr])) h3

theorem line_side {s : Core} (hi : Inv s) {sd : Side} {r : Order} (h : r ∈ s.line (limKind sd)) : r.side = sd ∧ r.type = .limit := by
  obtain ⟨_, _, h3⟩ := (line_mem hi).1 h
  have hl := (kind_type h3).1 (isLimit_limKind sd)
  have := kind_limit hl
  rw [h3] at this
  exact ⟨by revert this; cases sd <;> cases r.side <;> simp [limKind], hl⟩

theorem draw_pit {s s1 : Core} {sd : Side} {p v : Nat} (hi : Inv s) (run : execChain p (s.book.lv (limKind sd)) s v = .ok s1) :
    s1.pit = (s.pit.draw (limKind sd) p v).2 ∧ Fills p s (drawn v (s.line (limKind sd))) s1 ∧ Inv s1 ∧
    Book.SameLv (limKind sd) s.book s1.book ∧ ∀ k, k ≠ limKind sd → s1.line k = s.line k := by
  have hL : ∀ i ∈ flatOf (s.book.lv (limKind sd)), LimAt s sd i := by
    intro i hii
    obtain ⟨o, g1, g2, g3⟩ := hi.book.queue_mem (k := limKind sd) hii
    have hid := (hi.orders _ _ g1).1
    obtain ⟨h1, h2⟩ := line_side hi ((line_mem hi).2 ⟨by rw [hid]; exact g1, g2, g3⟩)
    exact ⟨o, g1, g2, h2, h1⟩
  obtain ⟨s', e1, F, E⟩ := execChain_ok (price := p) (s.book.lv (limKind sd)) (v := v) hi (hi.book.kinds (limKind sd)).nodup hL
  rw [run] at e1; cases e1
  rw [planIds_drawn _ (lv_live hi _)] at F
  have F' : Fills p s (drawn v (s.line (limKind sd))) s1 := F
  have other : ∀ k, k ≠ limKind sd → s1.line k = s.line k := by
    intro k hk
    unfold Core.line
    rw [queue_congr' (E.same.lv k hk)]
    refine restOf_congr fun i hii => E.others i fun hm => ?_
    obtain ⟨o, g1, g2, g3⟩ := hi.book.queue_mem hii
    obtain ⟨o', g1', g2', g3'⟩ := hi.book.queue_mem (k := limKind sd) hm
    rw [g1] at g1'; cases g1'
    rw [g3] at g3'; cases g3'
    exact hk rfl
  refine ⟨?_, F', E.inv, E.same, other⟩
  have hp := F'.px hi
  have hm := F'.matchPrices hi
  have hl : s1.line = s.pit.board.put (limKind sd) (afterChain (drawn v (s.line (limKind sd))) (s.line (limKind sd))) := by
    funext k
    unfold Board.put
    by_cases hk : k = limKind sd
    · subst hk
      rw [if_pos rfl]
      exact F'.drawn hi (fun r hr => by rw [(line_side hi hr).1]) rfl
    · rw [if_neg hk]; exact other k hk
  have h1 : s1.pit = ⟨s1.line, ⟨s1.book.lastBid, s1.book.lastAsk⟩, ⟨s1.book.matchBid, s1.book.matchAsk⟩, ⟨s1.book.trailBid, s1.book.trailAsk⟩⟩ := rfl
  rw [h1, hl, hp.lastBid, hp.lastAsk, E.same.trailBid, E.same.trailAsk,
    ← quotes_after ⟨s.book.lastBid, s.book.lastAsk⟩ ((drawn v (s.line (limKind sd))).map fun x => (x.1, p, x.2))]
  have hh : (⟨s1.book.matchBid, s1.book.matchAsk⟩ : Quotes) =
      if ((drawn v (s.line (limKind sd))).map fun x => (x.1, p, x.2)) = [] then s.pit.heard else .blank := by
    rcases hm with ⟨e, rfl⟩ | ⟨m1, m2⟩
    · rw [if_pos (by rw [e]; rfl)]; rfl
    · by_cases e : drawn v (s.line (limKind sd)) = []
      · rw [e] at F'
        cases F'
        rw [if_pos (by rw [e]; rfl)]; rfl
      · rw [if_neg (by simpa using e), m1, m2]; rfl
  rw [hh]
  rfl

theorem drawn_ne {v : Nat} {R : List Order} (hv : v ≠ 0) (hR : R ≠ []) : drawn v R ≠ [] := by
  cases R with
  | nil => exact absurd rfl hR
  | cons r rs => simp [drawn, hv]

theorem drawn_mem {v : Nat} {R : List Order} : ∀ {x}, x ∈ drawn v R → x.1 ∈ R := by
  induction R generalizing v with
  | nil => intro x h; simp [drawn] at h
  | cons r rs ih =>
    intro x h
    unfold drawn at h
    by_cases hv : v = 0
    · rw [if_pos hv] at h; cases h
    · rw [if_neg hv] at h
      simp only at h
      rcases List.mem_cons.1 h with rfl | h
      · simp
      · exact List.mem_cons_of_mem _ (ih h)

theorem cross_plays {s s1 s2 : Core} {sd sd' : Side} {p v : Nat} (hi : Inv s) (hsd : sd' ≠ sd) (haon : HasAON s) (hv : v ≠ 0)
    (hne : s.line (limKind sd) ≠ []) (run : execChain p (s.book.lv (limKind sd)) s v = .ok s1)
    (run' : execChain p (s.book.lv (limKind sd')) s1 v = .ok s2) :
    Plays s ((s.pit.draw (limKind sd) p v).1 ++ ((s.pit.draw (limKind sd) p v).2.draw (limKind sd') p v).1,
      ((s.pit.draw (limKind sd) p v).2.draw (limKind sd') p v).2) s2 := by
  obtain ⟨a1, a2, a3, a4, a5⟩ := draw_pit hi run
  have hk : limKind sd' ≠ limKind sd := by revert hsd; cases sd <;> cases sd' <;> simp [limKind]
  rw [← a4.lv _ hk] at run'
  obtain ⟨b1, b2, b3, b4, b5⟩ := draw_pit a3 run'
  have st : Step (.cross p _ _) s none s2 none := .cross a2 b2 (drawn_ne hv hne) haon ⟨sd, fun x hx => (line_side hi (drawn_mem hx)).1,
    fun x hx => by rw [(line_side a3 (drawn_mem hx)).1]; exact hsd⟩
  have hp := st.plays (CInv.none_iff.2 hi)
  rw [← a1, ← b1]
  exact hp

/-- The captured orders are at the best price, so the levels from there are all levels. -/
theorem levels_all {s : Core} (hi : Inv s) {k : Kind} {o : Order} (hm : o ∈ s.line k) (hb : ∀ r ∈ s.line k, ¬ k.better r.key o.key = true) :
    levelsFrom (s.book.lv k) o.key = s.book.lv k := by
  obtain ⟨h1, h2, h3⟩ := (line_mem hi).1 hm
  obtain ⟨xs, l, ys, e1, e2, e3⟩ := levelsFrom_of hi h1 h2 h3
  cases xs with
  | nil => rw [e2, e1]; rfl
  | cons x xs =>
    exfalso
    have hx : x ∈ s.book.lv k := by rw [e1]; simp
    obtain ⟨_, g2, g3⟩ := group_line hi hx
    obtain ⟨r, hr⟩ := List.exists_mem_of_ne_nil _ g2
    have hrl : r ∈ s.line k := by
      obtain ⟨i, hi', hr⟩ := restOf_mem.1 hr
      exact restOf_mem.2 ⟨i, mem_flatOf.2 ⟨x, hx, hi'⟩, hr⟩
    refine hb r hrl ?_
    rw [g3 r hr]
    have hs := (hi.book.kinds k).sorted
    rw [e1] at hs
    have := List.rel_of_pairwise_cons hs (show l ∈ xs ++ l :: ys by simp)
    rw [(level_price hi (show l ∈ s.book.lv k by rw [e1]; simp) e3 h1).1]
    exact this

/-! ### Pairs of orders -/

theorem chg_from {id : Nat} {v : Option Order} {l : List Order} {r : Order} (h : r ∈ chg id v l) : r ∈ l ∨ ∃ x ∈ l, x.id = id ∧ v = some r := by
  unfold chg at h
  obtain ⟨x, hx, e⟩ := List.mem_filterMap.1 h
  by_cases c : x.id = id
  · rw [if_pos c] at e; exact .inr ⟨x, hx, c, e⟩
  · rw [if_neg c] at e; cases e; exact .inl hx

theorem chg_keep {id : Nat} {v : Option Order} {l : List Order} {r : Order} (h : r ∈ l) (hne : r.id ≠ id) : r ∈ chg id v l := by
  unfold chg
  exact List.mem_filterMap.2 ⟨r, h, by rw [if_neg hne]⟩

theorem meet_board (p : Pit) (b a : Order) : ∃ e r v, (e = a ∧ r = b ∨ e = b ∧ r = a) ∧ (v = none ∨ v = some (r.afterExec e.leaves)) ∧
    ∀ k, (p.meet b a).2.board k = chg r.id v (chg e.id none (p.board k)) := by
  unfold Pit.meet
  by_cases h : a.leaves < b.leaves
  · refine ⟨a, b, _, .inl ⟨rfl, rfl⟩, ?_, fun k => by simp only [h, if_true]; rfl⟩
    exact .inr rfl
  · refine ⟨b, a, if b.leaves < a.leaves then some (a.afterExec b.leaves) else none, .inr ⟨rfl, rfl⟩, ?_, fun k => by simp only [h, if_false]; rfl⟩
    split
    · exact .inr rfl
    · exact .inl rfl

theorem meet_price {s : Core} (hi : Inv s) {b a x : Order} {k : Kind} (hb : s.orders b.id = some b) (ha : s.orders a.id = some a)
    (h : x ∈ (s.pit.meet b a).2.board k) : ∃ y ∈ s.line k, y.price = x.price := by
  obtain ⟨e, r, v, h1, h2, h3⟩ := meet_board s.pit b a
  rw [h3 k] at h
  have hr : s.orders r.id = some r := by rcases h1 with ⟨_, rfl⟩ | ⟨_, rfl⟩ <;> assumption
  rcases chg_from h with h | ⟨y, hy, hid, hv⟩
  · rcases chg_from h with h | ⟨y, _, _, hv⟩
    · exact ⟨x, h, rfl⟩
    · cases hv
  · rcases chg_from hy with hy | ⟨y', _, _, hv'⟩
    · have := ((line_mem hi).1 hy).1
      rw [hid, hr] at this
      cases this
      rcases h2 with rfl | rfl
      · cases hv
      · cases hv; exact ⟨r, hy, rfl⟩
    · cases hv'

theorem meet_keep (p : Pit) {b a x : Order} {k : Kind} (h : x ∈ p.board k) (h1 : x.id ≠ b.id) (h2 : x.id ≠ a.id) : x ∈ (p.meet b a).2.board k := by
  obtain ⟨e, r, v, g1, _, g3⟩ := meet_board p b a
  rw [g3 k]
  rcases g1 with ⟨rfl, rfl⟩ | ⟨rfl, rfl⟩
  · exact chg_keep (chg_keep h h2) h1
  · exact chg_keep (chg_keep h h1) h2

theorem matchPairs_plays {bp ap : Nat} (hx : ap ≤ bp) (bs : List Order) : ∀ (as : List Order) {s s' : Core} {ret : Bool}, Inv s →
    (bs.map (·.id)).Nodup → (as.map (·.id)).Nodup → (∀ b ∈ bs, b ∈ s.line .bid ∧ b.price = bp) → (∀ a ∈ as, a ∈ s.line .ask ∧ a.price = ap) →
    (∀ r ∈ s.line .bid, r.price ≤ bp) → (∀ r ∈ s.line .ask, ap ≤ r.price) →
    matchPairs bp ap (bs.map (·.id)) (as.map (·.id)) s = .ok (s', ret) →
    Plays s (Pit.pairs bs as s.pit).2 s' ∧ ret = (Pit.pairs bs as s.pit).1 := by
  induction bs with
  | nil =>
    intro as s s' ret hi _ _ _ _ _ _ run
    simp only [List.map_nil, matchPairs] at run
    cases run
    simp only [Pit.pairs]
    exact ⟨.refl hi, trivial⟩
  | cons b bs ih =>
    intro as s s' ret hi nb na hbs has hb ha run
    cases as with
    | nil =>
      simp only [List.map_nil, matchPairs] at run
      cases run
      simp only [Pit.pairs]
      exact ⟨.refl hi, trivial⟩
    | cons a as =>
      obtain ⟨mb, pb⟩ := hbs b (by simp)
      obtain ⟨ma, pa⟩ := has a (by simp)
      obtain ⟨b1, b2, b3⟩ := (line_mem hi).1 mb
      obtain ⟨a1, a2, a3⟩ := (line_mem hi).1 ma
      obtain ⟨b4, b5⟩ := line_side (sd := .buy) hi mb
      obtain ⟨a4, a5⟩ := line_side (sd := .sell) hi ma
      simp only [List.map_cons] at run nb na
      unfold matchPairs at run
      simp only [Core.get_ok b1, Core.get_ok a1, Except.bind_ok] at run
      unfold Pit.pairs
      by_cases haon : (b.isAON || a.isAON) = true
      · rw [if_pos haon] at run
        rw [if_pos (by simpa using haon)]
        have hA : HasAON s := by
          rcases (Bool.or_eq_true _ _).mp haon with h | h
          · exact ⟨b.id, b, b1, b2, b5, h⟩
          · exact ⟨a.id, a, a1, a2, a5, h⟩
        have lb : levelsFrom (s.book.lv .bid) bp = s.book.lv .bid := by
          rw [← pb, ← key_price_of_limit b3 rfl]
          refine levels_all hi mb fun r hr h => ?_
          have := hb r hr
          rw [key_price_of_limit ((line_mem hi).1 hr).2.2 rfl, key_price_of_limit b3 rfl] at h
          simp [Kind.better, Kind.isBidType] at h
          omega
        have la : levelsFrom (s.book.lv .ask) ap = s.book.lv .ask := by
          rw [← pa, ← key_price_of_limit a3 rfl]
          refine levels_all hi ma fun r hr h => ?_
          have := ha r hr
          rw [key_price_of_limit ((line_mem hi).1 hr).2.2 rfl, key_price_of_limit a3 rfl] at h
          simp [Kind.better, Kind.isBidType] at h
          omega
        rw [lb, la] at run
        obtain ⟨n, h1, run2⟩ := bind_inv run
        clear run
        have hn := chainCross_crossing hi h1
        unfold Pit.crossWhole
        have e : crossing (s.pit.board .bid) (s.pit.board .ask) = n := hn.symm
        rw [e]
        by_cases hz : n = 0
        · rw [if_pos hz] at run2
          cases run2
          simp only [hz, if_true]
          exact ⟨.refl hi, trivial⟩
        · rw [if_neg hz] at run2
          simp only [hz, if_false]
          by_cases hA' : b.isAON = true
          · rw [if_pos hA'] at run2
            obtain ⟨s1, r1, run3⟩ := bind_inv run2
            obtain ⟨s2, r2, run4⟩ := bind_inv run3
            cases run4
            simp only [hA', if_true]
            exact ⟨cross_plays (sd := .buy) (sd' := .sell) hi (by simp) hA hz (fun e => by rw [show s.line .bid = [] from e] at mb; cases mb) r1 r2, trivial⟩
          · rw [if_neg hA'] at run2
            obtain ⟨s1, r1, run3⟩ := bind_inv run2
            obtain ⟨s2, r2, run4⟩ := bind_inv run3
            cases run4
            simp only [hA', Bool.false_eq_true, if_false]
            exact ⟨cross_plays (sd := .sell) (sd' := .buy) hi (by simp) hA hz (fun e => by rw [show s.line .ask = [] from e] at ma; cases ma) r1 r2, trivial⟩
      · rw [if_neg haon] at run
        rw [if_neg (by simpa using haon)]
        simp only [Bool.or_eq_true, not_or, Bool.not_eq_true] at haon
        obtain ⟨s1, h1, run2⟩ := bind_inv run
        clear run
        have p1 := matchPair_plays hi b1 b2 b5 b4 a1 a2 a5 a4 (by omega) haon.1 haon.2 h1
        rw [List.nodup_cons] at nb na
        have hne : ∀ x ∈ s.line .bid, ∀ y ∈ s.line .ask, x.id ≠ y.id := by
          intro x hx y hy e
          obtain ⟨c1, _, c3⟩ := (line_mem hi).1 hx
          obtain ⟨d1, _, d3⟩ := (line_mem hi).1 hy
          rw [e, d1] at c1; cases c1
          rw [d3] at c3; cases c3
        have hbd : s1.line = (s.pit.meet b a).2.board := by
          have := congrArg Pit.board p1.pit
          exact this
        obtain ⟨g1, g2⟩ := ih as (s := s1) (s' := s') (ret := ret) p1.inv nb.2 na.2
          (fun x hx => by
            obtain ⟨m, e⟩ := hbs x (by simp [hx])
            refine ⟨?_, e⟩
            rw [hbd]
            exact meet_keep s.pit m (fun e => nb.1 (e ▸ List.mem_map_of_mem hx)) (hne x m a ma))
          (fun x hx => by
            obtain ⟨m, e⟩ := has x (by simp [hx])
            refine ⟨?_, e⟩
            rw [hbd]
            exact meet_keep s.pit m (fun e => hne b mb x m e.symm) (fun e => na.1 (e ▸ List.mem_map_of_mem hx)))
          (fun r hr => by
            rw [hbd] at hr
            obtain ⟨y, hy, e⟩ := meet_price hi b1 a1 hr
            rw [← e]; exact hb y hy)
          (fun r hr => by
            rw [hbd] at hr
            obtain ⟨y, hy, e⟩ := meet_price hi b1 a1 hr
            rw [← e]; exact ha y hy)
          run2
        rw [p1.pit] at g1 g2
        exact ⟨p1.trans g1, g2⟩

theorem crossed_iff {s : Core} (hi : Inv s) : s.pit.crossed ↔ crossed s.book ≠ none := by
  unfold Pit.crossed Core.crossed Board.bestAsk Board.bestBid
  rw [best_limit hi (k := .bid) rfl, best_limit hi (k := .ask) rfl]
  show _ ∧ s.line .bid ≠ [] ∧ s.line .ask ≠ [] ↔ _
  simp only [Core.pit]
  cases s.line .bid <;> cases s.line .ask <;> simp

theorem headD_groups {s : Core} (hi : Inv s) {k : Kind} (hk : k.isLimit = true) {l ls} (h : s.book.lv k = l :: ls) :
    (priceGroups (s.line k)).headD [] = restOf s l.ids := by
  rw [groups_line hi hk, h]; rfl

/-- The book comes to rest. -/
theorem matchBookN_plays (n : Nat) : ∀ {s s' : Core}, Inv s → matchBookN n s = .ok s' → Plays s (s.pit.settle n) s' := by
  induction n with
  | zero => intro s s' _ run; cases run
  | succ n ih =>
    intro s s' hi run
    unfold matchBookN at run
    unfold Pit.settle
    cases hcr : crossed s.book with
    | none =>
      rw [hcr] at run
      simp only at run
      rw [if_neg (fun h => (crossed_iff hi).1 h hcr)]
      obtain ⟨⟨s1, r⟩, h1, run2⟩ := bind_inv run
      clear run
      obtain ⟨p1, e1⟩ := activateAll_plays hi h1
      simp only at run2
      cases r with
      | true =>
        simp only [if_true] at run2
        have g := ih p1.inv run2
        simp only [← e1, if_true]
        rw [p1.pit] at g
        exact p1.trans g
      | false =>
        simp only [Bool.false_eq_true, if_false] at run2
        cases run2
        simp only [← e1, Bool.false_eq_true, if_false]
        exact p1
    | some c =>
      obtain ⟨bp, ap⟩ := c
      rw [hcr] at run
      simp only at run
      rw [if_pos ((crossed_iff hi).2 (by rw [hcr]; simp))]
      have hcr' : s.book.best .bid = some bp ∧ s.book.best .ask = some ap ∧ ap ≤ bp := by
        unfold crossed at hcr
        split at hcr
        · rename_i x y hb ha
          split at hcr
          · cases hcr; exact ⟨hb, ha, by assumption⟩
          · cases hcr
        · cases hcr
      obtain ⟨hb, ha, hle⟩ := hcr'
      obtain ⟨bl, bls, h1, rfl⟩ := hi.best_level hb
      obtain ⟨al, als, h2, rfl⟩ := hi.best_level ha
      have g1 : findLevel (s.book.lv .bid) bl.price = some bl := by rw [h1]; exact findLevel_head
      have g2 : findLevel (s.book.lv .ask) al.price = some al := by rw [h2]; exact findLevel_head
      simp only [g1, g2] at run
      have e1 : (priceGroups (s.pit.board .bid)).headD [] = restOf s bl.ids := headD_groups hi rfl h1
      have e2 : (priceGroups (s.pit.board .ask)).headD [] = restOf s al.ids := headD_groups hi rfl h2
      rw [e1, e2]
      obtain ⟨⟨s1, ret⟩, r1, run2⟩ := bind_inv run
      clear run
      have hlb : bl ∈ s.book.lv .bid := by rw [h1]; simp
      have hla : al ∈ s.book.lv .ask := by rw [h2]; simp
      obtain ⟨b1, b2, b3⟩ := group_line hi hlb
      obtain ⟨a1, a2, a3⟩ := group_line hi hla
      have lb := (hi.book.kinds .bid).levels bl hlb
      have la := (hi.book.kinds .ask).levels al hla
      have hm : ∀ {k l}, l ∈ s.book.lv k → ∀ r ∈ restOf s l.ids, r ∈ s.line k := by
        intro k l hl r hr
        obtain ⟨i, hi', hr⟩ := restOf_mem.1 hr
        exact restOf_mem.2 ⟨i, mem_flatOf.2 ⟨l, hl, hi'⟩, hr⟩
      have key : ∀ {k}, k.isLimit = true → ∀ r ∈ s.line k, r.key = r.price := fun hk r hr =>
        key_price_of_limit ((line_mem hi).1 hr).2.2 hk
      have best : ∀ {k l ls}, s.book.lv k = l :: ls → ∀ r ∈ s.line k, r.key = l.price ∨ k.better l.price r.key = true := by
        intro k l ls hlv r hr
        obtain ⟨i, hi', hr'⟩ := restOf_mem.1 hr
        obtain ⟨l', hl', hml⟩ := mem_flatOf.1 hi'
        rw [(level_price hi hl' hml hr').1]
        rw [hlv] at hl'
        have hs := (hi.book.kinds k).sorted
        rw [hlv] at hs
        rcases List.mem_cons.1 hl' with rfl | hx
        · exact .inl rfl
        · exact .inr (List.rel_of_pairwise_cons hs hx)
      rw [← b1, ← a1] at r1
      obtain ⟨p1, q1⟩ := matchPairs_plays hle (restOf s bl.ids) (restOf s al.ids) hi (by rw [b1]; exact lb.nodup) (by rw [a1]; exact la.nodup)
        (fun r hr => ⟨hm hlb r hr, by rw [← key rfl r (hm hlb r hr)]; exact b3 r hr⟩)
        (fun r hr => ⟨hm hla r hr, by rw [← key rfl r (hm hla r hr)]; exact a3 r hr⟩)
        (fun r hr => by
          rw [← key rfl r hr]
          rcases best h1 r hr with e | e
          · omega
          · simp [Kind.better, Kind.isBidType] at e; omega)
        (fun r hr => by
          rw [← key rfl r hr]
          rcases best h2 r hr with e | e
          · omega
          · simp [Kind.better, Kind.isBidType] at e; omega)
        r1
      simp only at run2
      cases ret with
      | true =>
        simp only [if_true] at run2
        cases run2
        simp only [← q1, if_true]
        exact p1
      | false =>
        simp only [Bool.false_eq_true, if_false] at run2
        obtain ⟨⟨s2, x2⟩, r2, run3⟩ := bind_inv run2
        obtain ⟨⟨s3, x3⟩, r3, run4⟩ := bind_inv run3
        simp only at run4
        simp only [← q1, Bool.false_eq_true, if_false]
        obtain ⟨p2, _⟩ := activateLevel_plays (k := .buyStop) p1.inv rfl rfl r2
        obtain ⟨p3, _⟩ := activateLevel_plays (k := .sellStop) p2.inv rfl rfl r3
        have g := ih p3.inv run4
        rw [p1.pit] at p2
        rw [p2.pit] at p3
        rw [p3.pit] at g
        have := ((p1.trans p2).trans p3).trans g
        exact this

theorem matchBook_plays {s s' : Core} (hi : Inv s) (run : s.matchBook = .ok s') : Plays s s.pit.rest s' := by
  unfold Pit.rest
  rw [pit_size hi, pit_stops hi]
  exact matchBookN_plays _ hi run

end CppTrader
