import Verif.Proof.Watch
/-
The watched engine against the engine, function by function.
-/

namespace CppTrader
namespace Watch

variable {K : Base}

/-! ### Elementary changes -/

theorem updateLevel_now (w : Watch) (u : LevelUpdate) : (w.updateLevel u).now = w.now.updateLevel u := rfl

/-- `c'` differs from `c` in book, events and the order `id`, and the watch follows. -/
structure Follows (K : Base) (c : Core) (w : Watch) (id : Nat) (v : Option Order) (c' : Core) (w' : Watch) : Prop where
  good : K.Good w'
  book : w'.now.book = c'.book
  ev : w'.now.ev = c'.ev
  same : w'.now.orders = w.now.orders
  orders : c'.orders = setO c.orders id v
  more : ∃ evs, w'.now.ev = w.now.ev ++ evs
  lined : Lined c'.orders c'.book

theorem link_run {c c' : Core} {w : Watch} (g : K.Good w) (hb : w.now.book = c.book) (he : w.now.ev = c.ev) {o : Order}
    (hl : Lined c.orders c.book) (hn : c.orders o.id = none) (hw : w.now.orders = setO c.orders o.id (some o)) (run : c.link o = .ok c') : ∃ w', w.link o = .ok w' ∧ Follows K c w o.id (some o) c' w' := by
  unfold Core.link at run
  unfold Watch.link
  cases hk : o.kind with
  | none => rw [hk] at run; cases run
  | some k =>
    rw [hk] at run
    simp only [Except.ok.injEq] at run ⊢
    refine ⟨_, rfl, ?_⟩
    have hq : Lined (setO c.orders o.id (some o)) (c.book.addOrder k o).1 :=
      add_lined hl (hl.free hn) hk (setO_at _ _ _) (fun i hi => setO_ne _ _ hi)
    have hg := g.change (add_change w.now.book k o) (by rw [hw, hb]; exact hq)
    refine ⟨hg, ?_, ?_, ?_, ?_, ?_, ?_⟩
    · rw [← run, ← hb]; cases k.isLimit <;> rfl
    · rw [← run, ← hb]
      cases k.isLimit
      · exact he
      · show w.now.ev ++ [_] ++ [_] = c.ev ++ [_] ++ [_]; rw [he]; rfl
    · cases k.isLimit <;> rfl
    · rw [← run]; cases k.isLimit <;> rfl
    · cases k.isLimit
      · exact ⟨[], by simp; rfl⟩
      · exact ⟨_, List.append_assoc _ _ _⟩
    · rw [← run]; cases k.isLimit <;> exact hq

theorem unlink_run {c c' : Core} {w : Watch} (g : K.Good w) (hb : w.now.book = c.book) (he : w.now.ev = c.ev) {o : Order}
    (hl : Lined c.orders c.book) (hx : ∀ i x, c.orders i = some x → w.now.orders i = some x) (run : c.unlink o = .ok c') : ∃ w', w.unlink o = .ok w' ∧ Follows K c w o.id none c' w' := by
  unfold Core.unlink at run
  unfold Watch.unlink
  cases hk : o.kind with
  | none => rw [hk] at run; cases run
  | some k =>
    rw [hk] at run
    dsimp only at run ⊢
    rw [hb]
    cases hd : c.book.deleteOrder k o with
    | error e => rw [hd] at run; cases run
    | ok x =>
      obtain ⟨b, u⟩ := x
      rw [hd] at run
      simp only [Except.ok.injEq] at run ⊢
      refine ⟨_, rfl, ?_⟩
      have hg := g.change (b := b) (u := u) (hb ▸ delete_change hd) (((hl.mono hx)).sub (delete_drop hd).sub)
      have hq : Lined (setO c.orders o.id none) b := (hl.sub (delete_drop hd).sub).set (.inl ((delete_drop hd).out trivial _ hl))
      refine ⟨hg, ?_, ?_, ?_, ?_, ?_, ?_⟩
      · rw [← run]; cases k.isLimit <;> rfl
      · rw [← run]
        cases k.isLimit
        · exact he
        · show w.now.ev ++ [_] ++ [_] = c.ev ++ [_] ++ [_]; rw [he]; rfl
      · cases k.isLimit <;> rfl
      · rw [← run]; cases k.isLimit <;> rfl
      · cases k.isLimit
        · exact ⟨[], by simp; rfl⟩
        · exact ⟨_, List.append_assoc _ _ _⟩
      · rw [← run]; cases k.isLimit <;> exact hq

theorem shrink_run {c c' : Core} {w : Watch} (g : K.Good w) (hb : w.now.book = c.book) (he : w.now.ev = c.ev) {o : Order}
    {q hd v : Nat} (hl : Lined c.orders c.book) (hlw : Lined w.now.orders c.book)
    {o0 : Order} (h0 : c.orders o.id = some o0) (hh : o.home = o0.home) (run : c.shrink o q hd v = .ok c') :
    ∃ w', w.shrink o q hd v = .ok w' ∧ Follows K c w o.id (if o.leaves = 0 then none else some o) c' w' := by
  unfold Core.shrink at run
  unfold Watch.shrink
  cases hk : o.kind with
  | none => rw [hk] at run; cases run
  | some k =>
    rw [hk] at run
    dsimp only at run ⊢
    rw [hb]
    cases hr : c.book.reduceOrder k o q hd v with
    | error e => rw [hr] at run; cases run
    | ok x =>
      obtain ⟨b, u⟩ := x
      rw [hr] at run
      simp only [Except.ok.injEq] at run ⊢
      refine ⟨_, rfl, ?_⟩
      have hg := g.change (b := b) (u := u) (hb ▸ reduce_change hr) (hlw.sub (reduce_drop hr).sub)
      have hq : Lined (setO c.orders o.id (if o.leaves = 0 then none else some o)) b := by
        refine (hl.sub (reduce_drop hr).sub).set ?_
        by_cases hz : o.leaves = 0
        · exact .inl ((reduce_drop hr).out hz _ hl)
        · rw [if_neg hz]; exact .inr ⟨o0, o, h0, rfl, hh⟩
      refine ⟨hg, ?_, ?_, ?_, ?_, ?_, ?_⟩
      · rw [← run]; cases k.isLimit <;> rfl
      · rw [← run]
        cases k.isLimit
        · exact he
        · show w.now.ev ++ [_] ++ [_] = c.ev ++ [_] ++ [_]; rw [he]; rfl
      · cases k.isLimit <;> rfl
      · rw [← run]; cases k.isLimit <;> rfl
      · cases k.isLimit
        · exact ⟨[], by simp; rfl⟩
        · exact ⟨_, List.append_assoc _ _ _⟩
      · rw [← run]; cases k.isLimit <;> exact hq

/-- The order was reported on. -/
def Men (K : Base) (w : Watch) (id : Nat) : Prop := ¬ Silent (K.news w.now) id

theorem men_emit (g : K.Good w) {e : Event} {o : Order} (h : e.about = some o) : Men K (w.emit e) o.id := by
  intro hs
  have : e ∈ K.news (w.emit e).now := by
    show e ∈ K.news (w.now.emit e)
    rw [news_emit _ _ g.len]; simp
  exact hs e this o h rfl

theorem Men.more {w w' : Watch} {id : Nat} (g : K.Good w) (h : Men K w id) (hm : ∃ evs, w'.now.ev = w.now.ev ++ evs) : Men K w' id := by
  obtain ⟨evs, hm⟩ := hm
  intro hs
  apply h
  intro e he o ho
  refine hs e ?_ o ho
  show e ∈ w'.now.ev.drop K.n
  rw [hm, List.drop_append_of_le_length g.len]
  exact List.mem_append_left _ he

theorem keyed_set {m : Nat → Option Order} (hk : ∀ i o, m i = some o → o.id = i) {i : Nat} {v : Option Order}
    (hv : ∀ o, v = some o → o.id = i) : ∀ j o, setO m i v j = some o → o.id = j := by
  intro j o h
  unfold setO at h
  split at h
  · rename_i e; rw [e]; exact hv o h
  · exact hk j o h

theorem reduce_aux {h : Option (Bool × Order)} {c c' : Core} {w : Watch} (r : Rel K h c w) {o o' : Order} {q hd v : Nat}
    (hid : o'.id = o.id) (hhome : o'.home = o.home) (ho : c.orders o.id = some o)
    (run : (c.emit (if o'.leaves > 0 then .updateOrder o' else .deleteOrder o')).shrink o' q hd v = .ok c') :
    ∃ w', (do
      let w ← ((w.store o').emit (if o'.leaves > 0 then .updateOrder o' else .deleteOrder o')).shrink o' q hd v
      .ok (if o'.leaves = 0 then w.erase o'.id else w) : Except Err Watch) = .ok w' ∧ Rel K h c' w' := by
  generalize hev : (if o'.leaves > 0 then Event.updateOrder o' else .deleteOrder o') = e at run ⊢
  have hab : e.about = some o' := by rw [← hev]; split <;> rfl
  have hnl : e.notLevel := by rw [← hev]; split <;> trivial
  have hw : w.now.orders o'.id = some o := by rw [hid]; exact r.orders.get ho
  have g1 := r.good.say o' e hnl hab (by rw [hw]; simp)
  obtain ⟨w2, h2, f⟩ := shrink_run (c := c.emit e) g1 r.book (show w.now.ev ++ [e] = c.ev ++ [e] by rw [r.ev]) r.lined
    ((r.lined.mono (fun i x hx => r.orders.get hx)).set (.inr ⟨o, o', hw, rfl, hhome⟩)) (by rw [hid]; exact ho) hhome run
  rw [h2, Except.bind_ok]
  refine ⟨_, rfl, ?_⟩
  have hmen : Men K w2 o'.id := by
    have : Men K ((w.store o').emit e) o'.id := by
      have hh := r.good.say o' e hnl hab (by rw [hw]; simp)
      intro hs
      refine hs e ?_ o' hab rfl
      show e ∈ K.news ((w.store o').now.emit e)
      rw [news_emit (w.store o').now e r.good.len]; simp
    exact this.more g1 f.more
  have hk : ∀ i x, c'.orders i = some x → x.id = i := by
    rw [f.orders]
    refine keyed_set r.keyed ?_
    intro x hx
    split at hx
    · cases hx
    · rw [← Option.some.inj hx]
  have hord : Ord K h (setO c.orders o'.id (if o'.leaves = 0 then none else some o')) (setO w.now.orders o'.id (if o'.leaves = 0 then none else some o')) :=
    r.orders.set (x := o) (by rw [hid]; exact ho) _
  have hw2 : w2.now.orders = setO w.now.orders o'.id (some o') := f.same
  by_cases h0 : o'.leaves = 0
  · rw [if_pos h0]
    refine ⟨f.good.put o'.id none (.inl hmen) (.inl rfl), f.book, f.ev, ?_, hk, f.lined⟩
    show Ord K h c'.orders (setO w2.now.orders o'.id none)
    rw [f.orders, hw2, setO_setO]
    rw [if_pos h0] at hord ⊢
    exact hord
  · rw [if_neg h0]
    refine ⟨f.good, f.book, f.ev, ?_, hk, f.lined⟩
    rw [f.orders, hw2]
    rw [if_neg h0] at hord ⊢
    exact hord

theorem reduceBody_run {h : Option (Bool × Order)} {c c' : Core} {w : Watch} (r : Rel K h c w) {o : Order} {q : Nat}
    (ho : c.orders o.id = some o) (run : c.reduceBody o q = .ok c') : ∃ w', w.reduceBody o q = .ok w' ∧ Rel K h c' w' :=
  reduce_aux r (o := o) (o' := { o with leaves := o.leaves - min q o.leaves }) rfl rfl ho run

theorem deleteBody_run {h : Option (Bool × Order)} {c c' : Core} {w : Watch} (r : Rel K h c w) {o : Order}
    (ho : c.orders o.id = some o) (run : c.deleteBody o = .ok c') : ∃ w', w.deleteBody o = .ok w' ∧ Rel K h c' w' := by
  unfold Core.deleteBody at run
  obtain ⟨c1, h1, run⟩ := bind_inv run
  cases run
  obtain ⟨w1, hw1, f⟩ := unlink_run r.good r.book r.ev r.lined (fun i x hx => r.orders.get hx) h1
  unfold Watch.deleteBody
  rw [hw1, Except.bind_ok]
  refine ⟨_, rfl, ?_⟩
  have hwo : w1.now.orders o.id = some o := by rw [f.same]; exact r.orders.get ho
  have g2 := f.good.emit (.deleteOrder o) trivial (fun o' ho' => by cases ho'; exact .inl hwo)
  refine ⟨g2.put o.id none (.inl (men_emit f.good rfl)) (.inl rfl), f.book, ?_, ?_, ?_, f.lined⟩
  · show w1.now.ev ++ _ = c1.ev ++ _
    rw [f.ev]
  · show Ord K h c1.orders (setO w1.now.orders o.id none)
    rw [f.same, f.orders]
    exact r.orders.set ho _
  · show ∀ i x, c1.orders i = some x → x.id = i
    rw [f.orders]
    exact keyed_set r.keyed (fun x hx => by cases hx)

theorem Rel.reset {h : Option (Bool × Order)} {c : Core} {w : Watch} (r : Rel K h c w) : Rel K h c.reset w.reset :=
  ⟨r.good.reset, by show w.now.book.resetMatching = _; rw [r.book]; rfl, r.ev, r.orders, r.keyed, r.lined.same rfl⟩

theorem Rel.emit {h : Option (Bool × Order)} {c : Core} {w : Watch} (r : Rel K h c w) (e : Event) (he : e.notLevel)
    (ht : ∀ o, e.about = some o → K.Fit w.now.orders o) (hq : e.onBook = none := by rfl) : Rel K h (c.emit e) (w.emit e) :=
  ⟨r.good.emit e he ht hq, r.book, by show w.now.ev ++ _ = c.ev ++ _; rw [r.ev], r.orders, r.keyed, r.lined⟩

theorem Rel.get {h : Option (Bool × Order)} {c : Core} {w : Watch} (r : Rel K h c w) {id : Nat} {o : Order} (hg : c.get id = .ok o) :
    w.now.get id = .ok o ∧ c.orders id = some o := by
  unfold Core.get at *
  cases hc : c.orders id with
  | none => rw [hc] at hg; cases hg
  | some x =>
    rw [hc] at hg
    cases hg
    rw [r.orders.get hc]
    exact ⟨rfl, rfl⟩

theorem execResting_run {h : Option (Bool × Order)} {c c' : Core} {w : Watch} (r : Rel K h c w) {id p q : Nat}
    (run : c.execResting id p q = .ok c') :
    (∃ w', w.execResting id p q = .ok w' ∧ Rel K h c' w') ∧ ∃ o, c'.orders id = some o := by
  unfold Core.execResting at run
  unfold Watch.execResting
  cases hc : c.orders id with
  | none => rw [hc] at run; cases run
  | some o =>
    rw [hc] at run
    rw [r.orders.get hc]
    dsimp only at run ⊢
    cases run
    refine ⟨⟨_, rfl, ?_⟩, ⟨_, setO_at _ _ _⟩⟩
    have hid := r.keyed _ _ hc
    have hwo : w.now.orders id = some o := r.orders.get hc
    have g1 := (r.good.emit (.exec o p q) trivial (fun o' ho' => by cases ho'; exact .inl (by rw [hid]; exact hwo))).prices o.side p
    have g2 := g1.put id (some { o with executed := add64 o.executed q }) (.inl (by
      have := men_emit r.good (e := .exec o p q) (o := o) rfl
      rw [hid] at this
      have g0 := r.good.emit (.exec o p q) trivial (fun o' ho' => by cases ho'; exact .inl (by rw [hid]; exact hwo))
      exact this.more g0 ⟨[], by simp; rfl⟩)) (.inr (.inl (by
        show w.now.orders id ≠ none
        rw [hwo]; simp)))
    have hln : Lined (setO c.orders id (some { o with executed := add64 o.executed q })) (c.book.updatePrices o.side p) :=
      (r.lined.set (.inr ⟨o, { o with executed := add64 o.executed q }, hc, rfl, rfl⟩)).same (by cases o.side <;> rfl)
    refine ⟨g2, ?_, ?_, ?_, ?_, hln⟩
    · show w.now.book.updatePrices _ _ = c.book.updatePrices _ _
      rw [r.book]
    · show w.now.ev ++ _ = c.ev ++ _
      rw [r.ev]
    · exact r.orders.set hc _
    · exact keyed_set r.keyed (fun x hx => by cases hx; exact hid)

theorem reduceRec_run {h : Option (Bool × Order)} {c c' : Core} {w : Watch} (r : Rel K h c w) {id q : Nat} (hin : ∃ o, c.orders id = some o)
    (run : c.reduceRec id q = .ok c') : ∃ w', w.reduceRec id q = .ok w' ∧ Rel K h c' w' := by
  obtain ⟨o, ho⟩ := hin
  unfold Core.reduceRec at run
  unfold Watch.reduceRec
  by_cases h0 : id = 0 ∨ q = 0
  · rw [if_pos h0] at run ⊢
    cases run
    exact ⟨w, rfl, r⟩
  · rw [if_neg h0] at run ⊢
    rw [ho] at run
    rw [r.orders.get ho]
    dsimp only at run ⊢
    rw [r.book]
    split at run
    · cases run
    · rename_i hs
      rw [if_neg hs]
      obtain ⟨c1, h1, run⟩ := bind_inv run
      cases run
      obtain ⟨w1, hw1, r1⟩ := reduceBody_run r (by rw [r.keyed _ _ ho]; exact ho) h1
      rw [hw1]
      exact ⟨_, rfl, r1.reset⟩

theorem deleteRec_run {h : Option (Bool × Order)} {c c' : Core} {w : Watch} (r : Rel K h c w) {id : Nat} (hin : ∃ o, c.orders id = some o)
    (run : c.deleteRec id = .ok c') : ∃ w', w.deleteRec id = .ok w' ∧ Rel K h c' w' := by
  obtain ⟨o, ho⟩ := hin
  unfold Core.deleteRec at run
  unfold Watch.deleteRec
  by_cases h0 : id = 0
  · rw [if_pos h0] at run ⊢
    cases run
    exact ⟨w, rfl, r⟩
  · rw [if_neg h0] at run ⊢
    rw [ho] at run
    rw [r.orders.get ho]
    dsimp only at run ⊢
    rw [r.book]
    split at run
    · cases run
    · rename_i hs
      rw [if_neg hs]
      obtain ⟨c1, h1, run⟩ := bind_inv run
      cases run
      obtain ⟨w1, hw1, r1⟩ := deleteBody_run r (by rw [r.keyed _ _ ho]; exact ho) h1
      rw [hw1]
      exact ⟨_, rfl, r1.reset⟩

theorem execTaker_run {own : Bool} {t : Order} {c : Core} {w : Watch} (r : Rel K (some (own, t)) c w) (p q : Nat) :
    Rel K (some (own, (c.execTaker t p q).2)) (c.execTaker t p q).1 (Watch.execTaker own w t p q).1 ∧
    (Watch.execTaker own w t p q).2 = (c.execTaker t p q).2 := by
  refine ⟨?_, rfl⟩
  have g0 := r.good.emit (.exec t p q) trivial (fun o' ho' => by cases ho'; exact r.orders.fit)
  have g1 := g0.prices t.side p
  have hln : Lined c.orders (c.book.updatePrices t.side p) := r.lined.same (by cases t.side <;> rfl)
  have hb : ((w.emit (.exec t p q)).setPrices t.side p).now.book = (c.book.updatePrices t.side p) := by
    show w.now.book.updatePrices _ _ = _
    rw [r.book]
  have he : ((w.emit (.exec t p q)).setPrices t.side p).now.ev = c.ev ++ [.exec t p q] := by
    show w.now.ev ++ _ = _
    rw [r.ev]
  cases own with
  | false =>
    refine ⟨g1, hb, he, ?_, r.keyed, hln⟩
    exact r.orders
  | true =>
    have hf : w.now.orders t.id = some t := by rw [r.orders.1, setO_at]
    refine ⟨g1.put t.id (some { t with executed := add64 t.executed q, leaves := t.leaves - q }) (.inl ?_) (.inr (.inl ?_)), hb, he, ?_, r.keyed, hln⟩
    · exact (men_emit r.good (e := .exec t p q) (o := t) rfl).more g0 ⟨[], by simp; rfl⟩
    · show w.now.orders t.id ≠ none
      rw [hf]; simp
    · obtain ⟨e, hn⟩ := r.orders
      refine ⟨?_, hn⟩
      show setO w.now.orders t.id _ = setO c.orders t.id _
      rw [e, setO_setO]; rfl

/-! ### Matching chains -/

theorem Rel.gets {h : Option (Bool × Order)} {c : Core} {w : Watch} (r : Rel K h c w) (id : Nat) (o : Order) (hg : c.get id = .ok o) :
    w.now.get id = .ok o := (r.get hg).1

theorem chainOrders_run {c d : Core} (hg : ∀ id o, c.get id = .ok o → d.get id = .ok o) (v : Nat) : ∀ (ids : List Nat) (a : Nat) {x},
    Core.chainOrders c v ids a = .ok x → Core.chainOrders d v ids a = .ok x := by
  intro ids
  induction ids with
  | nil => intro a x h; exact h
  | cons id rest ih =>
    intro a x h
    unfold Core.chainOrders at h ⊢
    obtain ⟨o, ho, h⟩ := bind_inv h
    rw [hg id o ho, Except.bind_ok]
    dsimp only at h ⊢
    generalize add64 a _ = a' at h ⊢
    split at h
    · rename_i h1; rw [if_pos h1]; exact h
    · rename_i h1
      rw [if_neg h1]
      split at h
      · rename_i h2; rw [if_pos h2]; exact h
      · rename_i h2; rw [if_neg h2]; exact ih _ h

theorem chainLevels_run {c d : Core} (hg : ∀ id o, c.get id = .ok o → d.get id = .ok o) (k : Kind) (p v : Nat) : ∀ (ls : List Level) (a : Nat) {x},
    Core.chainLevels c k p v ls a = .ok x → Core.chainLevels d k p v ls a = .ok x := by
  intro ls
  induction ls with
  | nil => intro a x h; exact h
  | cons l ls ih =>
    intro a x h
    unfold Core.chainLevels at h ⊢
    by_cases h1 : (if k.isBidType = true then p ≤ l.price else l.price ≤ p)
    · simp only [h1, if_true] at h ⊢
      obtain ⟨y, hy, h⟩ := bind_inv h
      rw [chainOrders_run hg v _ _ hy, Except.bind_ok]
      cases y with
      | inr r => exact h
      | inl a' => exact ih _ h
    · simp only [h1, if_false] at h ⊢; exact h

theorem chainPair_run {c d : Core} (hg : ∀ id o, c.get id = .ok o → d.get id = .ok o) : ∀ (n : Nat) (ll sl : List Level) (lo so : List Nat) (a b : Nat) {x},
    Core.chainPair c n ll sl lo so a b = .ok x → Core.chainPair d n ll sl lo so a b = .ok x := by
  intro n
  induction n with
  | zero => intro ll sl lo so a b x h; cases h
  | succ n ih =>
    intro ll sl lo so a b x h
    cases ll with
    | nil => exact h
    | cons l ll =>
      cases sl with
      | nil => exact h
      | cons m sl =>
        cases lo with
        | nil =>
          cases so with
          | nil => unfold Core.chainPair at h ⊢; exact ih _ _ _ _ _ _ h
          | cons s so => unfold Core.chainPair at h ⊢; exact ih _ _ _ _ _ _ h
        | cons lid lo =>
          cases so with
          | nil => unfold Core.chainPair at h ⊢; exact ih _ _ _ _ _ _ h
          | cons sid so =>
            unfold Core.chainPair at h ⊢
            obtain ⟨o, ho, h⟩ := bind_inv h
            rw [hg sid o ho, Except.bind_ok]
            dsimp only at h ⊢
            generalize add64 b _ = a' at h ⊢
            split at h
            · rename_i h1; rw [if_pos h1]; exact h
            · rename_i h1
              rw [if_neg h1]
              split at h
              · rename_i h2; rw [if_pos h2]; exact ih _ _ _ _ _ _ h
              · rename_i h2; rw [if_neg h2]; exact ih _ _ _ _ _ _ h

theorem chainCross_run {c d : Core} (hg : ∀ id o, c.get id = .ok o → d.get id = .ok o) (bids asks : List Level) {x}
    (h : Core.chainCross c bids asks = .ok x) : Core.chainCross d bids asks = .ok x := by
  unfold Core.chainCross at h ⊢
  cases hb : Core.frontIds bids with
  | nil => rw [hb] at h; cases h
  | cons bid bs =>
    cases ha : Core.frontIds asks with
    | nil => rw [hb, ha] at h; cases h
    | cons ask as =>
      rw [hb, ha] at h
      dsimp only at h ⊢
      obtain ⟨b, h1, h⟩ := bind_inv h
      obtain ⟨a, h2, h⟩ := bind_inv h
      rw [hg _ _ h1, Except.bind_ok, hg _ _ h2, Except.bind_ok]
      try dsimp only at h ⊢
      split at h
      · rename_i h3
        rw [if_pos h3]
        split at h
        · rename_i h4; rw [if_pos h4]; exact chainPair_run hg _ _ _ _ _ _ _ h
        · rename_i h4; rw [if_neg h4]; exact chainPair_run hg _ _ _ _ _ _ _ h
      · rename_i h3
        rw [if_neg h3]
        split at h
        · rename_i h4; rw [if_pos h4]; exact chainPair_run hg _ _ _ _ _ _ _ h
        · rename_i h4; rw [if_neg h4]; exact chainPair_run hg _ _ _ _ _ _ _ h

variable {h : Option (Bool × Order)}

theorem execChainOrder_run {c c' : Core} {w : Watch} (r : Rel K h c w) {id p v q : Nat}
    (run : c.execChainOrder id p v = .ok (c', q)) : ∃ w', w.execChainOrder id p v = .ok (w', q) ∧ Rel K h c' w' := by
  unfold Core.execChainOrder at run
  unfold Watch.execChainOrder
  obtain ⟨o, ho, run⟩ := bind_inv run
  rw [(r.get ho).1, Except.bind_ok]
  dsimp only at run ⊢
  split at run
  · rename_i h1
    rw [if_pos h1]
    obtain ⟨c1, hc1, run⟩ := bind_inv run
    obtain ⟨c2, hc2, run⟩ := bind_inv run
    cases run
    obtain ⟨⟨w1, hw1, r1⟩, hin⟩ := execResting_run r hc1
    obtain ⟨w2, hw2, r2⟩ := deleteRec_run r1 hin hc2
    rw [hw1, Except.bind_ok, hw2]
    exact ⟨_, rfl, r2⟩
  · rename_i h1
    rw [if_neg h1]
    obtain ⟨c1, hc1, run⟩ := bind_inv run
    obtain ⟨c2, hc2, run⟩ := bind_inv run
    cases run
    obtain ⟨⟨w1, hw1, r1⟩, hin⟩ := execResting_run r hc1
    obtain ⟨w2, hw2, r2⟩ := reduceRec_run r1 hin hc2
    rw [hw1, Except.bind_ok, hw2]
    exact ⟨_, rfl, r2⟩

theorem execChainIds_run (p : Nat) : ∀ (ids : List Nat) {c c' : Core} {w : Watch} {v v' : Nat}, Rel K h c w →
    Core.execChainIds p ids c v = .ok (c', v') → ∃ w', Watch.execChainIds p ids w v = .ok (w', v') ∧ Rel K h c' w' := by
  intro ids
  induction ids with
  | nil =>
    intro c c' w v v' r run
    cases run
    exact ⟨w, rfl, r⟩
  | cons id rest ih =>
    intro c c' w v v' r run
    unfold Core.execChainIds at run
    unfold Watch.execChainIds
    split at run
    · rename_i h0
      rw [if_pos h0]
      cases run
      exact ⟨w, rfl, r⟩
    · rename_i h0
      rw [if_neg h0]
      obtain ⟨⟨c1, q⟩, hc1, run⟩ := bind_inv run
      obtain ⟨w1, hw1, r1⟩ := execChainOrder_run r hc1
      rw [hw1, Except.bind_ok]
      exact ih r1 run

theorem execChain_run (p : Nat) : ∀ (ls : List Level) {c c' : Core} {w : Watch} {v : Nat}, Rel K h c w →
    Core.execChain p ls c v = .ok c' → ∃ w', Watch.execChain p ls w v = .ok w' ∧ Rel K h c' w' := by
  intro ls
  induction ls with
  | nil =>
    intro c c' w v r run
    cases run
    exact ⟨w, rfl, r⟩
  | cons l ls ih =>
    intro c c' w v r run
    unfold Core.execChain at run
    unfold Watch.execChain
    split at run
    · rename_i h0
      rw [if_pos h0]
      cases run
      exact ⟨w, rfl, r⟩
    · rename_i h0
      rw [if_neg h0]
      obtain ⟨⟨c1, q⟩, hc1, run⟩ := bind_inv run
      obtain ⟨w1, hw1, r1⟩ := execChainIds_run p l.ids r hc1
      rw [hw1, Except.bind_ok]
      exact ih r1 run

/-! ### The working order -/

theorem matchLevel_run (own : Bool) : ∀ (ids : List Nat) {c c' : Core} {w : Watch} {t t' : Order} {ret : Bool}, Rel K (some (own, t)) c w →
    Core.matchLevel ids c t = .ok (c', t', ret) →
    ∃ w', Watch.matchLevel own ids w t = .ok (w', t', ret) ∧ Rel K (some (own, t')) c' w' := by
  intro ids
  induction ids with
  | nil =>
    intro c c' w t t' ret r run
    cases run
    exact ⟨w, rfl, r⟩
  | cons id rest ih =>
    intro c c' w t t' ret r run
    unfold Core.matchLevel at run
    unfold Watch.matchLevel
    obtain ⟨o, ho, run⟩ := bind_inv run
    rw [(r.get ho).1, Except.bind_ok]
    dsimp only at run ⊢
    split at run
    · rename_i h1
      rw [if_pos h1]
      cases run
      exact ⟨w, rfl, r⟩
    · rename_i h1
      rw [if_neg h1]
      obtain ⟨c1, hc1, run⟩ := bind_inv run
      obtain ⟨c2, hc2, run⟩ := bind_inv run
      obtain ⟨⟨w1, hw1, r1⟩, hin⟩ := execResting_run r hc1
      obtain ⟨w2, hw2, r2⟩ := reduceRec_run r1 hin hc2
      rw [hw1, Except.bind_ok, hw2, Except.bind_ok]
      obtain ⟨r3, e3⟩ := execTaker_run r2 o.price (min o.leaves t.leaves)
      try dsimp only at run ⊢
      rw [e3]
      split at run
      · rename_i h2
        rw [if_pos h2]
        cases run
        exact ⟨_, rfl, r3⟩
      · rename_i h2
        rw [if_neg h2]
        exact ih r3 run

theorem matchOrderN_run (own : Bool) : ∀ (n : Nat) {c c' : Core} {w : Watch} {t t' : Order}, Rel K (some (own, t)) c w →
    Core.matchOrderN n c t = .ok (c', t') → ∃ w', Watch.matchOrderN own n w t = .ok (w', t') ∧ Rel K (some (own, t')) c' w' := by
  intro n
  induction n with
  | zero => intro c c' w t t' r run; cases run
  | succ n ih =>
    intro c c' w t t' r run
    unfold Core.matchOrderN at run
    unfold Watch.matchOrderN
    dsimp only at run ⊢
    rw [r.book]
    cases hb : c.book.best (Core.oppKind t) with
    | none =>
      rw [hb] at run
      cases run
      exact ⟨w, rfl, r⟩
    | some p =>
      rw [hb] at run
      dsimp only at run ⊢
      split at run
      · rename_i h1
        rw [if_pos h1]
        cases hl : levelsFrom (c.book.lv (Core.oppKind t)) p with
        | nil => rw [hl] at run; cases run
        | cons l ls =>
          rw [hl] at run
          dsimp only at run ⊢
          split at run
          · rename_i h2
            rw [if_pos h2]
            obtain ⟨ch, hch, run⟩ := bind_inv run
            rw [chainLevels_run r.gets _ _ _ _ _ hch, Except.bind_ok]
            split at run
            · rename_i h3
              rw [if_pos h3]
              cases run
              exact ⟨w, rfl, r⟩
            · rename_i h3
              rw [if_neg h3]
              obtain ⟨c1, hc1, run⟩ := bind_inv run
              obtain ⟨w1, hw1, r1⟩ := execChain_run t.price (l :: ls) r hc1
              rw [hw1, Except.bind_ok]
              obtain ⟨r2, e2⟩ := execTaker_run r1 t.price t.leaves
              have e := Except.ok.inj run
              have e3 : c' = (c1.execTaker t t.price t.leaves).1 := by rw [e]
              have e4 : t' = (c1.execTaker t t.price t.leaves).2 := by rw [e]
              rw [e3, e4]
              exact ⟨_, congrArg Except.ok (Prod.ext rfl e2), r2⟩
          · rename_i h2
            rw [if_neg h2]
            obtain ⟨⟨c1, t1, ret⟩, hc1, run⟩ := bind_inv run
            obtain ⟨w1, hw1, r1⟩ := matchLevel_run own l.ids r hc1
            rw [hw1, Except.bind_ok]
            dsimp only at run ⊢
            cases ret with
            | true => cases run; exact ⟨_, rfl, r1⟩
            | false => exact ih r1 run
      · rename_i h1
        rw [if_neg h1]
        cases run
        exact ⟨w, rfl, r⟩

theorem matchOrder_run (own : Bool) {c c' : Core} {w : Watch} {t t' : Order} (r : Rel K (some (own, t)) c w)
    (run : c.matchOrder t = .ok (c', t')) : ∃ w', Watch.matchOrder own w t = .ok (w', t') ∧ Rel K (some (own, t')) c' w' := by
  unfold Core.matchOrder at run
  unfold Watch.matchOrder
  rw [r.book]
  exact matchOrderN_run own _ r run

theorem matchMarket_run (own : Bool) {c c' : Core} {w : Watch} {t t' : Order} (r : Rel K (some (own, t)) c w) (hm : Men K w t.id)
    (run : c.matchMarket t = .ok (c', t')) : ∃ w', Watch.matchMarket own w t = .ok (w', t') ∧ Rel K (some (own, t')) c' w' := by
  unfold Core.matchMarket at run
  unfold Watch.matchMarket
  rw [r.book]
  cases hl : Core.marketLimit c.book t with
  | none =>
    rw [hl] at run
    cases run
    exact ⟨w, rfl, r⟩
  | some p =>
    rw [hl] at run
    dsimp only at run ⊢
    refine matchOrder_run own ?_ run
    cases own with
    | false => exact ⟨r.good, r.book, r.ev, r.orders, r.keyed, r.lined⟩
    | true =>
      have hf : w.now.orders t.id = some t := by rw [r.orders.1, setO_at]
      refine ⟨r.good.put t.id _ (.inl hm) (.inr (.inl (by rw [hf]; simp))), r.book, r.ev, ?_, r.keyed, r.lined⟩
      obtain ⟨e, hn⟩ := r.orders
      refine ⟨?_, hn⟩
      show setO w.now.orders t.id _ = setO c.orders t.id _
      rw [e, setO_setO]

/-- An order of the map becomes the working order: taken out of the book, changed in place and reported. -/
theorem take_run {c c1 : Core} {w : Watch} (r : Rel K none c w) {o : Order} (ho : c.orders o.id = some o) (run : c.unlink o = .ok c1) :
    ∃ w1, w.unlink o = .ok w1 ∧ ∀ (t : Order) (e : Event), t.id = o.id → e.notLevel → e.about = some t →
      Rel K (some (true, t)) (c1.emit e) ((w1.store t).emit e) ∧ Men K ((w1.store t).emit e) t.id := by
  obtain ⟨w1, hw1, f⟩ := unlink_run r.good r.book r.ev r.lined (fun i x hx => r.orders.get hx) run
  refine ⟨w1, hw1, ?_⟩
  intro t e hid hnl hab
  have hwo : w1.now.orders t.id = some o := by rw [f.same, hid]; exact r.orders.get ho
  have hord : w1.now.orders = c.orders := f.same.trans r.orders
  refine ⟨⟨f.good.say t e hnl hab (by rw [hwo]; simp), f.book, ?_, ?_, ?_, f.lined⟩, ?_⟩
  · show w1.now.ev ++ _ = c1.ev ++ _
    rw [f.ev]
  · refine ⟨?_, ?_⟩
    · show setO w1.now.orders t.id (some t) = setO c1.orders t.id (some t)
      rw [hord, f.orders, hid, setO_setO]
    · show c1.orders t.id = none
      rw [f.orders, hid, setO_at]
  · show ∀ i x, c1.orders i = some x → x.id = i
    rw [f.orders]
    exact keyed_set r.keyed (fun x hx => by cases hx)
  · intro hs
    refine hs e ?_ t hab rfl
    show e ∈ K.news ((w1.store t).now.emit e)
    rw [news_emit (w1.store t).now e f.good.len]; simp

/-- The working order goes back into the book. -/
theorem back_run {c c' : Core} {w : Watch} {t : Order} (r : Rel K (some (true, t)) c w) (run : c.link t = .ok c') :
    ∃ w', w.link t = .ok w' ∧ Rel K none c' w' := by
  obtain ⟨w1, hw1, f⟩ := link_run r.good r.book r.ev r.lined r.orders.2 r.orders.1 run
  refine ⟨w1, hw1, f.good, f.book, f.ev, ?_, ?_, f.lined⟩
  · show w1.now.orders = c'.orders
    rw [f.same, f.orders]; exact r.orders.1
  · rw [f.orders]
    exact keyed_set r.keyed (fun x hx => by rw [← Option.some.inj hx])

/-- The working order goes. -/
theorem gone_run {c : Core} {w : Watch} {t : Order} (r : Rel K (some (true, t)) c w) :
    Rel K none (c.emit (.deleteOrder t)) ((w.emit (.deleteOrder t)).erase t.id) := by
  have g1 := r.good.emit (.deleteOrder t) trivial (fun o ho => by cases ho; exact r.orders.fit)
  refine ⟨g1.put t.id none (.inl (men_emit r.good rfl)) (.inl rfl), r.book, ?_, ?_, r.keyed, r.lined⟩
  · show w.now.ev ++ _ = c.ev ++ _
    rw [r.ev]
  · show setO w.now.orders t.id none = c.orders
    rw [r.orders.1, setO_setO]
    exact setO_self r.orders.2

theorem activateStop_run {c c' : Core} {w : Watch} (r : Rel K none c w) {o : Order} (ho : c.orders o.id = some o)
    (run : c.activateStop o = .ok c') : ∃ w', w.activateStop o = .ok w' ∧ Rel K none c' w' := by
  unfold Core.activateStop at run
  unfold Watch.activateStop
  obtain ⟨c1, hc1, run⟩ := bind_inv run
  obtain ⟨w1, hw1, ht⟩ := take_run r ho hc1
  rw [hw1, Except.bind_ok]
  dsimp only at run ⊢
  obtain ⟨⟨c2, t2⟩, hc2, run⟩ := bind_inv run
  obtain ⟨r1, hm⟩ := ht (Core.toMarket o) (.updateOrder (Core.toMarket o)) rfl trivial rfl
  obtain ⟨w2, hw2, r2⟩ := matchMarket_run true r1 hm hc2
  rw [hw2, Except.bind_ok]
  cases run
  exact ⟨_, rfl, gone_run r2⟩

theorem activateStopLimit_run {c c' : Core} {w : Watch} (r : Rel K none c w) {o : Order} (ho : c.orders o.id = some o)
    (run : c.activateStopLimit o = .ok c') : ∃ w', w.activateStopLimit o = .ok w' ∧ Rel K none c' w' := by
  unfold Core.activateStopLimit at run
  unfold Watch.activateStopLimit
  obtain ⟨c1, hc1, run⟩ := bind_inv run
  obtain ⟨w1, hw1, ht⟩ := take_run r ho hc1
  rw [hw1, Except.bind_ok]
  dsimp only at run ⊢
  obtain ⟨⟨c2, t2⟩, hc2, run⟩ := bind_inv run
  obtain ⟨r1, hm⟩ := ht (Core.toLimit o) (.updateOrder (Core.toLimit o)) rfl trivial rfl
  obtain ⟨w2, hw2, r2⟩ := matchOrder_run true r1 hc2
  rw [hw2, Except.bind_ok]
  dsimp only at run ⊢
  split at run
  · rename_i h1
    rw [if_pos h1]
    exact back_run r2 run
  · rename_i h1
    rw [if_neg h1]
    cases run
    exact ⟨_, rfl, gone_run r2⟩

theorem activateOrder_run {c c' : Core} {w : Watch} (r : Rel K none c w) {id : Nat}
    (run : c.activateOrder id = .ok c') : ∃ w', w.activateOrder id = .ok w' ∧ Rel K none c' w' := by
  unfold Core.activateOrder at run
  unfold Watch.activateOrder
  obtain ⟨o, ho, run⟩ := bind_inv run
  obtain ⟨h1, h2⟩ := r.get ho
  have hk := r.keyed _ _ h2
  rw [h1, Except.bind_ok]
  have h3 : c.orders o.id = some o := by rw [hk]; exact h2
  try dsimp only at run ⊢
  cases ht : o.type <;> rw [ht] at run <;> dsimp only at run ⊢
  · cases run
  · cases run
  · exact activateStop_run r h3 run
  · exact activateStopLimit_run r h3 run
  · exact activateStop_run r h3 run
  · exact activateStopLimit_run r h3 run

theorem activateIds_run : ∀ (ids : List Nat) {c c' : Core} {w : Watch} {b b' : Bool}, Rel K none c w →
    Core.activateIds ids c b = .ok (c', b') → ∃ w', Watch.activateIds ids w b = .ok (w', b') ∧ Rel K none c' w' := by
  intro ids
  induction ids with
  | nil =>
    intro c c' w b b' r run
    cases run
    exact ⟨w, rfl, r⟩
  | cons id rest ih =>
    intro c c' w b b' r run
    unfold Core.activateIds at run
    unfold Watch.activateIds
    obtain ⟨c1, hc1, run⟩ := bind_inv run
    obtain ⟨w1, hw1, r1⟩ := activateOrder_run r hc1
    rw [hw1, Except.bind_ok]
    exact ih r1 run

theorem activateLevel_run {c c' : Core} {w : Watch} (r : Rel K none c w) {k : Kind} {p : Nat} {b : Bool}
    (run : c.activateLevel k p = .ok (c', b)) : ∃ w', w.activateLevel k p = .ok (w', b) ∧ Rel K none c' w' := by
  unfold Core.activateLevel at run
  unfold Watch.activateLevel
  rw [r.book]
  cases hb : c.book.best k with
  | none =>
    rw [hb] at run
    cases run
    exact ⟨w, rfl, r⟩
  | some q =>
    rw [hb] at run
    dsimp only at run ⊢
    by_cases h1 : (if k.isBidType = true then p ≤ q else q ≤ p)
    · simp only [h1, if_true] at run ⊢
      cases hf : findLevel (c.book.lv k) q with
      | none => rw [hf] at run; cases run
      | some l =>
        rw [hf] at run
        exact activateIds_run l.ids r run
    · simp only [h1, if_false] at run ⊢
      cases run
      exact ⟨w, rfl, r⟩

/-! ### Trailing stops -/

theorem retrail_id (o : Order) (p : Nat) : (Core.retrail o p).id = o.id := by
  unfold Core.retrail; split <;> rfl

theorem recalcIds_run : ∀ (ids : List Nat) {c c' : Core} {w : Watch} {b b' : Bool}, Rel K none c w →
    Core.recalcIds ids c b = .ok (c', b') → ∃ w', Watch.recalcIds ids w b = .ok (w', b') ∧ Rel K none c' w' := by
  intro ids
  induction ids with
  | nil =>
    intro c c' w b b' r run
    cases run
    exact ⟨w, rfl, r⟩
  | cons id rest ih =>
    intro c c' w b b' r run
    unfold Core.recalcIds at run
    unfold Watch.recalcIds
    obtain ⟨o, ho, run⟩ := bind_inv run
    obtain ⟨h1, h2⟩ := r.get ho
    have hk := r.keyed _ _ h2
    have h3 : c.orders o.id = some o := by rw [hk]; exact h2
    rw [h1, Except.bind_ok]
    dsimp only at run ⊢
    rw [r.book]
    split at run
    · rename_i h4
      rw [if_pos h4]
      obtain ⟨c1, hc1, run⟩ := bind_inv run
      obtain ⟨c2, hc2, run⟩ := bind_inv run
      obtain ⟨w1, hw1, ht⟩ := take_run r h3 hc1
      rw [hw1, Except.bind_ok]
      obtain ⟨r1, _⟩ := ht (Core.retrail o (c.book.calcTrailing o)) (.updateOrder (Core.retrail o (c.book.calcTrailing o))) (retrail_id _ _) trivial rfl
      obtain ⟨w2, hw2, r2⟩ := back_run r1 hc2
      rw [hw2, Except.bind_ok]
      exact ih r2 run
    · rename_i h4
      rw [if_neg h4]
      exact ih r run

theorem recalcLoop_run (k : Kind) : ∀ (n : Nat) {c c' : Core} {w : Watch} {p q : Option Nat}, Rel K none c w →
    Core.recalcLoop k n c p q = .ok c' → ∃ w', Watch.recalcLoop k n w p q = .ok w' ∧ Rel K none c' w' := by
  intro n
  induction n with
  | zero => intro c c' w p q r run; cases run
  | succ n ih =>
    intro c c' w p q r run
    cases q with
    | none =>
      cases run
      exact ⟨w, rfl, r⟩
    | some q =>
      unfold Core.recalcLoop at run
      unfold Watch.recalcLoop
      dsimp only at run ⊢
      rw [r.book]
      cases hf : findLevel (c.book.lv k) q with
      | none => rw [hf] at run; cases run
      | some l =>
        rw [hf] at run
        dsimp only at run ⊢
        obtain ⟨⟨c1, b1⟩, hc1, run⟩ := bind_inv run
        obtain ⟨w1, hw1, r1⟩ := recalcIds_run l.ids r hc1
        rw [hw1, Except.bind_ok]
        dsimp only at run ⊢
        rw [r1.book]
        cases b1 with
        | true => exact ih r1 run
        | false => exact ih r1 run

theorem Rel.mark {h : Option (Bool × Order)} {c : Core} {w : Watch} (r : Rel K h c w) {b : Book} (hs : b.symbol = c.book.symbol) (hl : b.lv = c.book.lv)
    (hb : b.best = c.book.best) : Rel K h { c with book := b } (w.setBook b) :=
  ⟨r.good.book (by rw [hs, r.book]) (by rw [hl, r.book]) (by rw [hb, r.book]), rfl, r.ev, r.orders, r.keyed, r.lined.same hl⟩

theorem recalcBuy_run {c c' : Core} {w : Watch} (r : Rel K none c w) (run : c.recalcBuy = .ok c') :
    ∃ w', w.recalcBuy = .ok w' ∧ Rel K none c' w' := by
  unfold Core.recalcBuy at run
  unfold Watch.recalcBuy
  rw [r.book]
  cases hb : c.book.best .ask with
  | none =>
    rw [hb] at run
    cases run
    exact ⟨w, rfl, r⟩
  | some p =>
    rw [hb] at run
    dsimp only at run ⊢
    have r1 := r.mark (b := { c.book with trailAsk := c.book.marketTrailAsk }) rfl rfl rfl
    split at run
    · rename_i h1
      rw [if_pos h1]
      cases run
      exact ⟨_, rfl, r1⟩
    · rename_i h1
      rw [if_neg h1]
      exact recalcLoop_run _ _ r1 run

theorem recalcSell_run {c c' : Core} {w : Watch} (r : Rel K none c w) (run : c.recalcSell = .ok c') :
    ∃ w', w.recalcSell = .ok w' ∧ Rel K none c' w' := by
  unfold Core.recalcSell at run
  unfold Watch.recalcSell
  rw [r.book]
  cases hb : c.book.best .bid with
  | none =>
    rw [hb] at run
    cases run
    exact ⟨w, rfl, r⟩
  | some p =>
    rw [hb] at run
    dsimp only at run ⊢
    have r1 := r.mark (b := { c.book with trailBid := c.book.marketTrailBid }) rfl rfl rfl
    split at run
    · rename_i h1
      rw [if_pos h1]
      cases run
      exact ⟨_, rfl, r1⟩
    · rename_i h1
      rw [if_neg h1]
      exact recalcLoop_run _ _ r1 run

theorem activateEither_run {c c' : Core} {w : Watch} (r : Rel K none c w) {k k' : Kind} {f : Book → Nat} {b : Bool}
    (run : c.activateEither k k' f = .ok (c', b)) : ∃ w', w.activateEither k k' f = .ok (w', b) ∧ Rel K none c' w' := by
  unfold Core.activateEither at run
  unfold Watch.activateEither
  rw [r.book]
  obtain ⟨⟨c1, b1⟩, hc1, run⟩ := bind_inv run
  obtain ⟨w1, hw1, r1⟩ := activateLevel_run r hc1
  rw [hw1, Except.bind_ok]
  dsimp only at run ⊢
  cases b1 with
  | true => cases run; exact ⟨_, rfl, r1⟩
  | false =>
    rw [r1.book]
    exact activateLevel_run r1 run

theorem activateLoop_run : ∀ (n : Nat) {c c' : Core} {w : Watch} {b b' : Bool}, Rel K none c w →
    Core.activateLoop n c b = .ok (c', b') → ∃ w', Watch.activateLoop n w b = .ok (w', b') ∧ Rel K none c' w' := by
  intro n
  induction n with
  | zero => intro c c' w b b' r run; cases run
  | succ n ih =>
    intro c c' w b b' r run
    unfold Core.activateLoop at run
    unfold Watch.activateLoop
    obtain ⟨⟨c1, b1⟩, hc1, run⟩ := bind_inv run
    obtain ⟨c2, hc2, run⟩ := bind_inv run
    obtain ⟨⟨c3, b3⟩, hc3, run⟩ := bind_inv run
    obtain ⟨c4, hc4, run⟩ := bind_inv run
    obtain ⟨w1, hw1, r1⟩ := activateEither_run r hc1
    obtain ⟨w2, hw2, r2⟩ := recalcBuy_run r1 hc2
    obtain ⟨w3, hw3, r3⟩ := activateEither_run r2 hc3
    obtain ⟨w4, hw4, r4⟩ := recalcSell_run r3 hc4
    rw [hw1, Except.bind_ok]
    dsimp only at run hc3 hw2 ⊢
    rw [hw2, Except.bind_ok, hw3, Except.bind_ok]
    dsimp only at run hw4 ⊢
    rw [hw4, Except.bind_ok]
    split at run
    · rename_i h1
      rw [if_pos h1]
      exact ih r4 run
    · rename_i h1
      rw [if_neg h1]
      cases run
      exact ⟨_, rfl, r4⟩

theorem activateAll_run {c c' : Core} {w : Watch} (r : Rel K none c w) {b : Bool} (run : c.activateAll = .ok (c', b)) :
    ∃ w', w.activateAll = .ok (w', b) ∧ Rel K none c' w' := by
  unfold Core.activateAll at run
  unfold Watch.activateAll
  rw [r.book]
  exact activateLoop_run _ r run

/-! ### Matching the book -/

theorem matchPair_run {c c' : Core} {w : Watch} (r : Rel K none c w) {bid ask : Nat} (run : c.matchPair bid ask = .ok c') :
    ∃ w', w.matchPair bid ask = .ok w' ∧ Rel K none c' w' := by
  unfold Core.matchPair at run
  unfold Watch.matchPair
  obtain ⟨b, hb, run⟩ := bind_inv run
  obtain ⟨a, ha, run⟩ := bind_inv run
  rw [(r.get hb).1, Except.bind_ok, (r.get ha).1, Except.bind_ok]
  dsimp only at run ⊢
  generalize (if b.leaves > a.leaves then (a, b) else (b, a)) = p at run ⊢
  obtain ⟨e, x⟩ := p
  dsimp only at run ⊢
  obtain ⟨c1, hc1, run⟩ := bind_inv run
  obtain ⟨c2, hc2, run⟩ := bind_inv run
  obtain ⟨c3, hc3, run⟩ := bind_inv run
  obtain ⟨⟨w1, hw1, r1⟩, i1⟩ := execResting_run r hc1
  obtain ⟨w2, hw2, r2⟩ := deleteRec_run r1 i1 hc2
  obtain ⟨⟨w3, hw3, r3⟩, i3⟩ := execResting_run r2 hc3
  obtain ⟨w4, hw4, r4⟩ := reduceRec_run r3 i3 run
  rw [hw1, Except.bind_ok, hw2, Except.bind_ok, hw3, Except.bind_ok]
  exact ⟨w4, hw4, r4⟩

theorem matchPairs_run (bp ap : Nat) : ∀ (bs as : List Nat) {c c' : Core} {w : Watch} {b : Bool}, Rel K none c w →
    Core.matchPairs bp ap bs as c = .ok (c', b) → ∃ w', Watch.matchPairs bp ap bs as w = .ok (w', b) ∧ Rel K none c' w' := by
  intro bs
  induction bs with
  | nil =>
    intro as c c' w b r run
    unfold Core.matchPairs at run
    unfold Watch.matchPairs
    cases run
    exact ⟨w, rfl, r⟩
  | cons bid bs ih =>
    intro as c c' w b r run
    cases as with
    | nil =>
      unfold Core.matchPairs at run
      unfold Watch.matchPairs
      cases run
      exact ⟨w, rfl, r⟩
    | cons ask as =>
      unfold Core.matchPairs at run
      unfold Watch.matchPairs
      obtain ⟨x, hx, run⟩ := bind_inv run
      obtain ⟨y, hy, run⟩ := bind_inv run
      rw [(r.get hx).1, Except.bind_ok, (r.get hy).1, Except.bind_ok]
      dsimp only at run ⊢
      rw [r.book]
      split at run
      · rename_i h1
        rw [if_pos h1]
        obtain ⟨ch, hch, run⟩ := bind_inv run
        rw [chainCross_run r.gets _ _ hch, Except.bind_ok]
        split at run
        · rename_i h2
          rw [if_pos h2]
          cases run
          exact ⟨w, rfl, r⟩
        · rename_i h2
          rw [if_neg h2]
          split at run
          · rename_i h3
            rw [if_pos h3]
            obtain ⟨c1, hc1, run⟩ := bind_inv run
            obtain ⟨c2, hc2, run⟩ := bind_inv run
            cases run
            obtain ⟨w1, hw1, r1⟩ := execChain_run _ _ r hc1
            obtain ⟨w2, hw2, r2⟩ := execChain_run _ _ r1 hc2
            rw [hw1, Except.bind_ok, hw2]
            exact ⟨_, rfl, r2⟩
          · rename_i h3
            rw [if_neg h3]
            obtain ⟨c1, hc1, run⟩ := bind_inv run
            obtain ⟨c2, hc2, run⟩ := bind_inv run
            cases run
            obtain ⟨w1, hw1, r1⟩ := execChain_run _ _ r hc1
            obtain ⟨w2, hw2, r2⟩ := execChain_run _ _ r1 hc2
            rw [hw1, Except.bind_ok, hw2]
            exact ⟨_, rfl, r2⟩
      · rename_i h1
        rw [if_neg h1]
        obtain ⟨c1, hc1, run⟩ := bind_inv run
        obtain ⟨w1, hw1, r1⟩ := matchPair_run r hc1
        rw [hw1, Except.bind_ok]
        exact ih as r1 run

theorem matchBookN_run : ∀ (n : Nat) {c c' : Core} {w : Watch}, Rel K none c w →
    Core.matchBookN n c = .ok c' → ∃ w', Watch.matchBookN n w = .ok w' ∧ Rel K none c' w' := by
  intro n
  induction n with
  | zero => intro c c' w r run; cases run
  | succ n ih =>
    intro c c' w r run
    unfold Core.matchBookN at run
    unfold Watch.matchBookN
    rw [r.book]
    cases hx : Core.crossed c.book with
    | some p =>
      obtain ⟨bp, ap⟩ := p
      rw [hx] at run
      dsimp only at run ⊢
      cases hb : findLevel (c.book.lv .bid) bp with
      | none => rw [hb] at run; cases run
      | some bl =>
        cases ha : findLevel (c.book.lv .ask) ap with
        | none => rw [hb, ha] at run; cases run
        | some al =>
          rw [hb, ha] at run
          dsimp only at run ⊢
          obtain ⟨⟨c1, b1⟩, hc1, run⟩ := bind_inv run
          obtain ⟨w1, hw1, r1⟩ := matchPairs_run bp ap _ _ r hc1
          rw [hw1, Except.bind_ok]
          dsimp only at run ⊢
          cases b1 with
          | true => cases run; exact ⟨_, rfl, r1⟩
          | false =>
            rw [r1.book]
            obtain ⟨⟨c2, b2⟩, hc2, run⟩ := bind_inv run
            obtain ⟨w2, hw2, r2⟩ := activateLevel_run r1 hc2
            obtain ⟨⟨c3, b3⟩, hc3, run⟩ := bind_inv run
            obtain ⟨w3, hw3, r3⟩ := activateLevel_run r2 hc3
            simp only [Bool.false_eq_true, if_false]
            rw [hw2, Except.bind_ok]
            dsimp only at hw3 run ⊢
            rw [r2.book, hw3, Except.bind_ok]
            exact ih r3 run
    | none =>
      rw [hx] at run
      dsimp only at run ⊢
      obtain ⟨⟨c1, b1⟩, hc1, run⟩ := bind_inv run
      obtain ⟨w1, hw1, r1⟩ := activateAll_run r hc1
      rw [hw1, Except.bind_ok]
      dsimp only at run ⊢
      cases b1 with
      | true => exact ih r1 run
      | false => cases run; exact ⟨_, rfl, r1⟩

theorem matchBook_run {c c' : Core} {w : Watch} (r : Rel K none c w) (run : c.matchBook = .ok c') :
    ∃ w', w.matchBook = .ok w' ∧ Rel K none c' w' := by
  unfold Core.matchBook at run
  unfold Watch.matchBook
  rw [r.book]
  exact matchBookN_run _ r run

end Watch
end CppTrader
