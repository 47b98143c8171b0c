import Verif.Proof.WatchOps
import Verif.Proof.MgrLines
/-
The watched calls against the calls.
-/

namespace CppTrader
namespace Watch

/-! ### Callbacks in a row -/

/-- What is left of a glimpse when no callback is running. -/
structure Rest (new : Option Nat) (g : Mgr) (evs : List Event) (x : Mgr) : Prop where
  levels : x.levels = evs.foldl LevelView.next g.levels
  others : ∀ id, some id ≠ new → Silent evs id → x.getOrder id = g.getOrder id
  absent : ∀ id, some id ≠ new → g.getOrder id = none → x.getOrder id = none
  symbols : x.symbols = g.symbols
  books : ∀ s, (x.getBook s).map (·.symbol) = (g.getBook s).map (·.symbol)

/-- From `g` to `g'` by the callbacks `news`, with the managers `seen`. -/
structure Span (new : Option Nat) (g g' : Mgr) (news : List Event) (seen : List Mgr) : Prop where
  ev : g'.ev = g.ev ++ news
  count : seen.length = news.length
  each : ∀ i x, seen[i]? = some x → x.ev = g.ev ++ news.take (i + 1) ∧ x.matching = g.matching ∧ Glimpse new g (news.take (i + 1)) x
  rest : Rest new g news g'
  zero : ∀ x ∈ seen, x.orders 0 = none

theorem Span.refl (new : Option Nat) (g : Mgr) : Span new g g [] [] :=
  ⟨by simp, rfl, fun i x h => (by simp at h), ⟨rfl, fun _ _ _ => rfl, fun _ _ h => h, rfl, fun _ => rfl⟩, fun x h => (by simp at h)⟩

theorem silent_parts {xs ys : List Event} {id : Nat} (h : Silent (xs ++ ys) id) : Silent xs id ∧ Silent ys id :=
  ⟨fun e he => h e (List.mem_append_left _ he), fun e he => h e (List.mem_append_right _ he)⟩

theorem Rest.trans {new : Option Nat} {g1 g2 g3 : Mgr} {n1 n2 : List Event} (h : Rest none g1 n1 g2) (h' : Rest new g2 n2 g3) :
    Rest new g1 (n1 ++ n2) g3 := by
  refine ⟨by rw [h'.levels, h.levels, List.foldl_append], ?_, ?_, h'.symbols.trans h.symbols, fun s => (h'.books s).trans (h.books s)⟩
  · intro id hn hs
    obtain ⟨s1, s2⟩ := silent_parts hs
    rw [h'.others id hn s2]
    exact h.others id (by simp) s1
  · intro id hn h0
    exact h'.absent id hn (h.absent id (by simp) h0)

theorem Glimpse.widen {new : Option Nat} {g : Mgr} {evs : List Event} {x : Mgr} (h : Glimpse none g evs x) : Glimpse new g evs x :=
  ⟨h.levels, h.bestBid, h.bestAsk, fun e o h1 h2 _ => h.order e o h1 h2 (by simp),
    fun e o h1 h2 _ _ => .inr (h.order e o h1 h2 (by simp)), fun id _ hs => h.others id (by simp) hs,
    fun id _ h0 => h.absent id (by simp) h0, h.sorted, h.queue, h.first, h.symbols, h.books⟩

theorem Glimpse.after {new : Option Nat} {g1 g2 x : Mgr} {n1 n2 : List Event} (h : Rest none g1 n1 g2) (h' : Glimpse new g2 n2 x)
    (hne : n2 ≠ []) : Glimpse new g1 (n1 ++ n2) x := by
  have hlast : (n1 ++ n2).getLast? = n2.getLast? := by
    rw [List.getLast?_append]
    cases hl : n2.getLast? with
    | none => exact absurd (List.getLast?_eq_none_iff.1 hl) hne
    | some e => rfl
  have r := h.trans ⟨h'.levels, h'.others, h'.absent, h'.symbols, h'.books⟩
  refine ⟨r.levels, h'.bestBid, h'.bestAsk, ?_, ?_, r.others, r.absent, h'.sorted, ?_, ?_, r.symbols, r.books⟩
  · intro e o h1 h2 h3
    exact h'.order e o (hlast ▸ h1) h2 h3
  · intro e o h1 h2 h3 h4
    exact h'.fresh e o (hlast ▸ h1) h2 h3 (h.absent _ (by simp) h4)
  · intro e s b k l id h1 h2 h3 h4 h5
    exact h'.queue e s b k l id (hlast ▸ h1) h2 h3 h4 h5
  · intro s l t h1
    exact h'.first s l t (hlast ▸ h1)

theorem Span.trans {new : Option Nat} {g1 g2 g3 : Mgr} {n1 n2 : List Event} {s1 s2 : List Mgr} (h : Span none g1 g2 n1 s1)
    (hm : g2.matching = g1.matching) (h' : Span new g2 g3 n2 s2) : Span new g1 g3 (n1 ++ n2) (s1 ++ s2) := by
  refine ⟨by rw [h'.ev, h.ev, List.append_assoc], by rw [List.length_append, List.length_append, h.count, h'.count], ?_, h.rest.trans h'.rest,
    fun x hx => (List.mem_append.1 hx).elim (h.zero x) (h'.zero x)⟩
  intro i x hx
  rw [List.getElem?_append] at hx
  split at hx
  · rename_i hi
    obtain ⟨a, b, c⟩ := h.each i x hx
    rw [List.take_append_of_le_length (by rw [← h.count]; omega)]
    exact ⟨a, b, Glimpse.widen c⟩
  · rename_i hi
    obtain ⟨a, b, c⟩ := h'.each _ x hx
    have hlt : i - s1.length < s2.length := (List.getElem?_eq_some_iff.1 hx).1
    have ht : (n1 ++ n2).take (i + 1) = n1 ++ n2.take (i - s1.length + 1) := by
      rw [List.take_append, List.take_of_length_le (by rw [← h.count]; omega)]
      congr 2
      rw [← h.count]; omega
    rw [ht]
    refine ⟨by rw [a, h.ev, List.append_assoc], b.trans hm, Glimpse.after h.rest c ?_⟩
    intro e
    have := congrArg List.length e
    rw [List.length_take, ← h'.count] at this
    simp only [List.length_nil] at this
    omega

theorem Span.widen {new : Option Nat} {g g' : Mgr} {n : List Event} {s : List Mgr} (h : Span none g g' n s) : Span new g g' n s :=
  ⟨h.ev, h.count, fun i x hx => ⟨(h.each i x hx).1, (h.each i x hx).2.1, Glimpse.widen (h.each i x hx).2.2⟩,
    ⟨h.rest.levels, fun id _ hs => h.rest.others id (by simp) hs, fun id _ h0 => h.rest.absent id (by simp) h0, h.rest.symbols, h.rest.books⟩, h.zero⟩

/-! ### One book -/

def base (g : Mgr) (new : Option Nat) (b : Book) : Base := ⟨g.ev.length, g.levels, g.orders, new, g.ev, b.symbol⟩

theorem start {g : Mgr} (hi : MInv g) {sym : Nat} {b : Book} (hb : slot g.books sym = some b) (new : Option Nat) :
    Rel (base g new b) none (g.core b) ⟨g.core b, []⟩ := by
  obtain ⟨h1, h2⟩ := hi.inv hb
  have hnews : (base g new b).news (g.core b) = [] := by
    show g.ev.drop g.ev.length = []
    rw [List.drop_length]
  refine ⟨⟨Nat.le_refl _, ?_, fun _ _ _ => rfl, fun _ _ h => h, fun k => ⟨(h1.book.kinds k).sorted, (h1.book.kinds k).best⟩, ?_, ?_, ?_, ?_, List.take_length, rfl⟩, rfl, rfl, rfl, ?_, ?_⟩
  · show List.foldl _ _ _ = _
    rw [hnews]
    show g.levels = g.levels.set b.symbol.id b.view
    rw [h2]
    funext i
    unfold LevelView.set
    by_cases e : i = sym
    · rw [if_pos e, e]
      unfold Mgr.levels Mgr.getBook
      rw [hb]
    · rw [if_neg e]
  · show 0 + g.ev.length = g.ev.length
    omega
  · intro i x hx; cases hx
  · intro x hx; cases hx
  · intro x hx; cases hx
  · intro i o ho
    exact (hi.orders i o ho).1
  · intro k l hl
    have hk := (h1.book.kinds k).levels l hl
    refine ⟨hk.nodup, fun id hid => ?_⟩
    obtain ⟨o, h3, _, h4, h5⟩ := hk.mem id hid
    exact ⟨o, h3, by rw [← h5]; exact home_eq h4⟩

theorem tops {g : Mgr} (hi : MInv g) {sym : Nat} {b : Book} (hb : slot g.books sym = some b) {c : Core} (hs : Shape c.book) (s : Nat) (b' : Book)
    (hb' : slot (g.put sym c).books s = some b') (p : Nat) :
    (b'.best .bid = some p ↔ ((g.put sym c).levels s).isTop true p) ∧ (b'.best .ask = some p ↔ ((g.put sym c).levels s).isTop false p) := by
  have hv : (g.put sym c).levels s = b'.view := by
    unfold Mgr.levels Mgr.getBook
    rw [hb']
  rw [hv]
  have hs' : Shape b' := by
    by_cases e : s = sym
    · rw [e, put_getBook_same hb] at hb'
      cases hb'
      exact hs
    · rw [put_getBook_other e] at hb'
      intro k
      exact ⟨((hi.inv hb').1.book.kinds k).sorted, ((hi.inv hb').1.book.kinds k).best⟩
  exact ⟨isTop_sorted rfl (hs' .bid).1 (hs' .bid).2 p, isTop_sorted rfl (hs' .ask).1 (hs' .ask).2 p⟩

theorem getOrder_of {x : Mgr} (id : Nat) : x.getOrder id = if id = 0 then none else x.orders id := rfl

/-- What a watched operation on one book leaves is a span. -/
theorem Rel.span {g : Mgr} (hi : MInv g) {sym : Nat} {b : Book} (hb : slot g.books sym = some b) {new : Option Nat} {c : Core} {w : Watch}
    (hz : new ≠ some 0) (r : Rel (base g new b) none c w) :
    g.at' sym w.now = g.put sym c ∧ ∃ news, Span new g (g.put sym c) news (w.log.map (g.at' sym)) := by
  have hnow : w.now = c := by
    obtain ⟨m, bk, ev⟩ := c
    have h1 := r.book; have h2 := r.ev; have h3 : w.now.orders = m := r.orders
    obtain ⟨⟨m', bk', ev'⟩, lg⟩ := w
    cases h1; cases h2; cases h3; rfl
  have hsid : b.symbol.id = sym := (hi.inv hb).2
  have h0 : g.orders 0 = none := by
    cases h : g.orders 0 with
    | none => rfl
    | some o =>
      obtain ⟨a, b⟩ := hi.orders 0 o h
      have := b.idPos
      omega
  have hg := r.good
  obtain ⟨now, log⟩ := w
  change now = c at hnow
  subst hnow
  have hlen : g.ev.length ≤ now.ev.length := hg.len
  have hpre : now.ev.take g.ev.length = g.ev := hg.pre
  have hev : now.ev = g.ev ++ now.ev.drop g.ev.length := by
    have := List.take_append_drop g.ev.length now.ev
    rw [hpre] at this
    exact this.symm
  have hcount : log.length + g.ev.length = now.ev.length := hg.count
  have hbk : ∀ (x : Core), x.book.symbol = b.symbol → ∀ s, (Mgr.getBook (g.put sym x) s).map (·.symbol) = (g.getBook s).map (·.symbol) := by
    intro x hx s
    unfold Mgr.getBook
    by_cases e : s = sym
    · rw [e, put_getBook_same hb, hb]
      exact congrArg some hx
    · rw [put_getBook_other e]
  have hlv : ∀ (x : Core), x.book.symbol = b.symbol → (base g new b).Levels x →
      (g.put sym x).levels = (x.ev.drop g.ev.length).foldl LevelView.next g.levels := by
    intro x hx hl
    rw [levels_put hb]
    have : (x.ev.drop g.ev.length).foldl LevelView.next g.levels = g.levels.set x.book.symbol.id x.book.view := hl
    rw [this, hx, hsid]
  have hot : ∀ (x : Core), (base g new b).Others x → ∀ id, some id ≠ new → Silent (x.ev.drop g.ev.length) id →
      (g.put sym x).getOrder id = g.getOrder id := by
    intro x hx id hn hs
    rw [getOrder_of, getOrder_of]
    rw [show (g.put sym x).orders id = g.orders id from hx id hn hs]
  have hab : ∀ (x : Core), (base g new b).Absent x → ∀ id, some id ≠ new → g.getOrder id = none → (g.put sym x).getOrder id = none := by
    intro x hx id hn h
    rw [getOrder_of] at h ⊢
    by_cases e : id = 0
    · rw [if_pos e]
    · rw [if_neg e] at h ⊢
      exact hx id hn h
  refine ⟨rfl, now.ev.drop g.ev.length, hev, ?_, ?_, ⟨hlv now hg.sym hg.levels, hot now hg.others, hab now hg.absent, rfl, hbk now hg.sym⟩, ?_⟩
  · rw [List.length_map, List.length_drop]
    show log.length = _
    omega
  · intro i x hx
    rw [List.getElem?_map] at hx
    obtain ⟨y, hy, e⟩ := Option.map_eq_some_iff.1 hx
    have hym := List.mem_of_getElem? hy
    have hf := hg.fine y hym
    have hys : y.book.symbol = b.symbol := (hg.symbol y hym).trans hg.sym
    have hyev : y.ev = now.ev.take (g.ev.length + i + 1) := hg.ticks i y hy
    have hyd : y.ev.drop g.ev.length = (now.ev.drop g.ev.length).take (i + 1) := by
      rw [hyev, List.drop_take]
      congr 1
      omega
    have hilt : i < log.length := (List.getElem?_eq_some_iff.1 hy).1
    have hyev2 : y.ev = g.ev ++ (now.ev.drop g.ev.length).take (i + 1) := by
      rw [← hyd]
      have this := List.take_append_drop g.ev.length y.ev
      have e1 : y.ev.take g.ev.length = g.ev := by
        rw [hyev, List.take_take, Nat.min_eq_left (by omega), hpre]
      rw [e1] at this
      exact this.symm
    have hlast : ((now.ev.drop g.ev.length).take (i + 1)).getLast? = y.ev.getLast? := by
      rw [hyev2, List.getLast?_append]
      cases hl : ((now.ev.drop g.ev.length).take (i + 1)).getLast? with
      | none =>
        have := congrArg List.length (List.getLast?_eq_none_iff.1 hl)
        rw [List.length_take, List.length_drop] at this
        simp only [List.length_nil] at this
        omega
      | some e => rfl
    have hput : x = g.put sym y := e.symm
    rw [hput]
    refine ⟨hyev2, rfl, ?_⟩
    rw [← hyd]
    refine ⟨hlv y hys hf.levels, fun s b' p h => (tops hi hb hf.shape s b' h p).1, fun s b' p h => (tops hi hb hf.shape s b' h p).2, ?_, ?_,
      hot y hf.others, hab y hf.absent, ?_, ?_, ?_, rfl, hbk y hys⟩
    · intro e o h1 h2 h3
      rw [hyd, hlast] at h1
      rcases hf.told e o h1 h2 with h4 | h4
      · rw [getOrder_of, if_neg]
        · exact h4
        · intro ez
          have : y.orders 0 = none := hf.absent 0 (by rw [← ez]; exact h3) h0
          rw [ez, this] at h4
          cases h4
      · exact absurd h4.1 h3
    · intro e o h1 h2 h3 h5
      rw [hyd, hlast] at h1
      rw [getOrder_of] at h5 ⊢
      by_cases ez : o.id = 0
      · rw [if_pos ez]; exact .inl rfl
      · rw [if_neg ez] at h5 ⊢
        rcases hf.told e o h1 h2 with h4 | h4
        · exact .inr h4
        · exact .inl (h4.2 h5)
    · intro s b' k h3
      unfold Mgr.getBook at h3
      by_cases es : s = sym
      · rw [es, put_getBook_same hb] at h3
        rw [← Option.some.inj h3]
        exact (hf.shape k).1
      · rw [put_getBook_other es] at h3
        exact ((hi.inv h3).1.book.kinds k).sorted
    · intro e s b' k l id h1 h2 h3 h4 h5
      rw [hyd, hlast] at h1
      obtain ⟨hs, hq, _⟩ := hf.queue e s h1 h2
      rw [show s = sym from hs.trans hsid] at h3
      have hb' : b' = y.book := by
        unfold Mgr.getBook at h3
        rw [put_getBook_same hb] at h3
        exact (Option.some.inj h3).symm
      rw [hb'] at h4
      obtain ⟨o, ho, hh⟩ := (hq k l h4).2 id h5
      refine ⟨o, ?_, hh⟩
      rw [getOrder_of, if_neg]
      · exact ho
      · intro ez
        have : y.orders 0 = none := hf.absent 0 (Ne.symm hz) h0
        rw [ez, this] at ho
        cases ho
    · intro s l t h1
      rw [hyd, hlast] at h1
      exact (hf.queue _ s h1 rfl).2.2 l t rfl
  · intro x hx
    obtain ⟨y, hy, e⟩ := List.mem_map.1 hx
    rw [← e]
    exact (hg.fine y hy).absent 0 (Ne.symm hz) h0

/-! ### The calls -/

theorem watchBook_run {g : Mgr} (hi : MInv g) {sym : Nat} {f : Core → Except Err (Core × ErrorCode)}
    {f' : Watch → Except Err (Watch × ErrorCode)} {new : Option Nat} (hz : new ≠ some 0)
    (hf : ∀ b c e, slot g.books sym = some b → f (g.core b) = .ok (c, e) →
      ∃ w, f' ⟨g.core b, []⟩ = .ok (w, e) ∧ Rel (base g new b) none c w)
    {g' : Mgr} {e : ErrorCode} (run : g.onBook sym f = .ok (g', e)) :
    ∃ news seen, g.watchBook sym f' = .ok (g', e, seen) ∧ Span new g g' news seen := by
  unfold Mgr.onBook at run
  unfold Mgr.watchBook
  cases hb : slot g.books sym with
  | none =>
    rw [hb] at run
    cases run
    exact ⟨[], [], rfl, .refl _ _⟩
  | some b =>
    rw [hb] at run
    dsimp only at run ⊢
    obtain ⟨⟨c, e1⟩, hc, run⟩ := bind_inv run
    cases run
    obtain ⟨w, hw, r⟩ := hf b c _ hb hc
    obtain ⟨h1, news, h2⟩ := r.span hi hb hz
    refine ⟨news, w.log.map (g.at' sym), ?_, h2⟩
    show (f' ⟨g.core b, []⟩ >>= _) = _
    rw [hw, Except.bind_ok]
    dsimp only
    rw [h1]; rfl

theorem watchOrder_run {g : Mgr} (hi : MInv g) {id : Nat} {f : Order → Core → Except Err (Core × ErrorCode)}
    {f' : Order → Watch → Except Err (Watch × ErrorCode)}
    (hf : ∀ (K : Base) o c w c' e, Rel K none c w → c.orders o.id = some o → f o c = .ok (c', e) →
      ∃ w', f' o w = .ok (w', e) ∧ Rel K none c' w')
    {g' : Mgr} {e : ErrorCode} (run : g.onOrder id f = .ok (g', e)) :
    ∃ news seen, g.watchOrder id f' = .ok (g', e, seen) ∧ Span none g g' news seen := by
  unfold Mgr.onOrder at run
  unfold Mgr.watchOrder
  cases ho : g.orders id with
  | none =>
    rw [ho] at run
    cases run
    exact ⟨[], [], rfl, .refl _ _⟩
  | some o =>
    rw [ho] at run
    refine watchBook_run hi (by simp) ?_ run
    intro b c e hb hc
    refine hf _ o _ _ c e (start hi hb none) ?_ hc
    show g.orders o.id = some o
    rw [(hi.orders id o ho).1]; exact ho

theorem watchAdd_run {g : Mgr} (hi : MInv g) {o : Order} {g' : Mgr} {e : ErrorCode} (run : g.addOrder o = .ok (g', e)) :
    ∃ news seen, g.watchAdd o = .ok (g', e, seen) ∧ Span (some o.id) g g' news seen := by
  unfold Mgr.addOrder at run
  unfold Mgr.watchAdd
  split at run
  · rename_i h
    rw [if_pos h]
    cases run
    exact ⟨[], [], rfl, .refl _ _⟩
  · rename_i h
    rw [if_neg h]
    refine watchBook_run hi (fun ez => ?_) ?_ run
    · exact h (by rw [show o.validate = .orderIdInvalid from by unfold Order.validate; rw [if_pos (Option.some.inj ez)]]; simp)
    intro b c e hb hc
    exact addAny_run g.matching (start hi hb _) ⟨rfl, fun h => h⟩ hc

theorem watchDelete_run {g : Mgr} (hi : MInv g) {id : Nat} {g' : Mgr} {e : ErrorCode} (run : g.deleteOrder id = .ok (g', e)) :
    ∃ news seen, g.watchDelete id = .ok (g', e, seen) ∧ Span none g g' news seen := by
  unfold Mgr.deleteOrder at run
  unfold Mgr.watchDelete
  split at run
  · rename_i h
    rw [if_pos h]
    cases run
    exact ⟨[], [], rfl, .refl _ _⟩
  · rename_i h
    rw [if_neg h]
    exact watchOrder_run hi (fun K o c w c' e r ho hc => deleteOp_run _ r ho hc) run

theorem watchModify_run {g : Mgr} (hi : MInv g) {id p q : Nat} {m : Bool} {g' : Mgr} {e : ErrorCode} (run : g.modifyOrder id p q m = .ok (g', e)) :
    ∃ news seen, g.watchModify id p q m = .ok (g', e, seen) ∧ Span none g g' news seen := by
  unfold Mgr.modifyOrder at run
  unfold Mgr.watchModify
  split at run
  · rename_i h
    rw [if_pos h]
    cases run
    exact ⟨[], [], rfl, .refl _ _⟩
  · rename_i h
    rw [if_neg h]
    split at run
    · rename_i h2
      rw [if_pos h2]
      cases run
      exact ⟨[], [], rfl, .refl _ _⟩
    · rename_i h2
      rw [if_neg h2]
      exact watchOrder_run hi (fun K o c w c' e r ho hc => modifyOp_run _ r ho hc) run

theorem watchAt_run {g : Mgr} (hi : MInv g) {i : Nat} {g' : Mgr} (run : g.matchAt i = .ok g') :
    ∃ news seen, g.watchAt i = .ok (g', seen) ∧ Span none g g' news seen := by
  unfold Mgr.matchAt at run
  unfold Mgr.watchAt
  cases hb : slot g.books i with
  | none =>
    rw [hb] at run
    cases run
    exact ⟨[], [], rfl, .refl _ _⟩
  | some b =>
    rw [hb] at run
    dsimp only at run ⊢
    obtain ⟨c, hc, run⟩ := bind_inv run
    cases run
    obtain ⟨w, hw, r⟩ := matchBook_run (start hi hb none) hc
    obtain ⟨h1, news, h2⟩ := r.span hi hb (by simp)
    refine ⟨news, w.log.map (g.at' i), ?_, h2⟩
    show (Watch.matchBook ⟨g.core b, []⟩ >>= _) = _
    rw [hw, Except.bind_ok]
    show Except.ok (g.at' i w.now, _) = _
    rw [h1]; rfl

theorem watchFrom_run : ∀ (is : List Nat) {g g' : Mgr}, MInv g → Mgr.matchFrom is g = .ok g' →
    ∃ news seen, Mgr.watchFrom is g = .ok (g', seen) ∧ Span none g g' news seen := by
  intro is
  induction is with
  | nil =>
    intro g g' hi run
    cases run
    exact ⟨[], [], rfl, .refl _ _⟩
  | cons i is ih =>
    intro g g' hi run
    unfold Mgr.matchFrom at run
    unfold Mgr.watchFrom
    obtain ⟨g1, h1, run⟩ := bind_inv run
    obtain ⟨n1, s1, hw1, sp1⟩ := watchAt_run hi h1
    obtain ⟨g1', a1, a2, _, _, _, _, a7, _⟩ := matchAt_ok hi i
    rw [h1] at a1
    cases a1
    obtain ⟨n2, s2, hw2, sp2⟩ := ih a2 run
    rw [hw1, Except.bind_ok]
    dsimp only
    rw [hw2, Except.bind_ok]
    exact ⟨n1 ++ n2, s1 ++ s2, rfl, sp1.trans a7 sp2⟩

theorem watchAll_run {g g' : Mgr} (hi : MInv g) (run : g.matchAll = .ok g') :
    ∃ news seen, g.watchAll = .ok (g', seen) ∧ Span none g g' news seen := watchFrom_run _ hi run

/-- A registry call. -/
theorem registry_run {g g' : Mgr} {op : Op} {e : ErrorCode} (hr : op.isRegistry) (run : g.step op = .ok (g', e)) :
    ∃ seen, g.watch op = .ok (g', e, seen) ∧ (e ≠ .ok → seen = []) ∧
      (e = .ok → ∃ x, seen = [x] ∧ x.ev = g'.ev ∧ x.orders = g.orders ∧ x.matching = g.matching ∧
        (((∃ s, op = .addSymbol s) ∨ (∃ s, op = .addOrderBook s)) → x = g') ∧
        (((∃ s, op = .deleteSymbol s) ∨ (∃ s, op = .deleteOrderBook s)) → x.symbols = g.symbols ∧ x.books = g.books)) := by
  cases op with
  | addSymbol s =>
    change g.addSymbol s = .ok (g', e) at run
    refine ⟨if e = .ok then [g'] else [], ?_, fun h => if_neg h, ?_⟩
    · show (g.addSymbol s >>= _) = _
      rw [run, Except.bind_ok]
    · intro h
      refine ⟨g', by rw [if_pos h], rfl, ?_, ?_, fun _ => rfl, fun h' => ?_⟩
      · unfold Mgr.addSymbol at run
        dsimp only at run
        split at run <;> cases run <;> rfl
      · unfold Mgr.addSymbol at run
        dsimp only at run
        split at run <;> cases run <;> rfl
      · rcases h' with ⟨_, h'⟩ | ⟨_, h'⟩ <;> cases h'
  | addOrderBook s =>
    change g.addOrderBook s = .ok (g', e) at run
    refine ⟨if e = .ok then [g'] else [], ?_, fun h => if_neg h, ?_⟩
    · show (g.addOrderBook s >>= _) = _
      rw [run, Except.bind_ok]
    · intro h
      have key : g'.orders = g.orders ∧ g'.matching = g.matching := by
        unfold Mgr.addOrderBook at run
        split at run
        · cases run; exact ⟨rfl, rfl⟩
        · dsimp only at run
          split at run <;> cases run <;> exact ⟨rfl, rfl⟩
      refine ⟨g', by rw [if_pos h], rfl, key.1, key.2, fun _ => rfl, fun h' => ?_⟩
      rcases h' with ⟨_, h'⟩ | ⟨_, h'⟩ <;> cases h'
  | deleteSymbol id =>
    change g.deleteSymbol id = .ok (g', e) at run
    unfold Mgr.deleteSymbol at run
    unfold Mgr.watch
    dsimp only
    cases hs : slot g.symbols id with
    | none =>
      rw [hs] at run
      cases run
      exact ⟨[], rfl, fun _ => rfl, fun h => by cases h⟩
    | some s =>
      rw [hs] at run
      cases run
      refine ⟨[g.emit (.deleteSymbol s)], rfl, fun h => absurd rfl h, fun _ => ⟨_, rfl, rfl, rfl, rfl, fun h' => ?_, fun _ => ⟨rfl, rfl⟩⟩⟩
      rcases h' with ⟨_, h'⟩ | ⟨_, h'⟩ <;> cases h'
  | deleteOrderBook id =>
    change g.deleteOrderBook id = .ok (g', e) at run
    unfold Mgr.deleteOrderBook at run
    unfold Mgr.watch
    dsimp only
    cases hs : slot g.books id with
    | none =>
      rw [hs] at run
      cases run
      exact ⟨[], rfl, fun _ => rfl, fun h => by cases h⟩
    | some s =>
      rw [hs] at run
      cases run
      refine ⟨[g.emit (.deleteBook s.symbol)], rfl, fun h => absurd rfl h, fun _ => ⟨_, rfl, rfl, rfl, rfl, fun h' => ?_, fun _ => ⟨rfl, rfl⟩⟩⟩
      rcases h' with ⟨_, h'⟩ | ⟨_, h'⟩ <;> cases h'
  | _ => cases hr

/-- Any other call. -/
theorem watch_run {g g' : Mgr} (hi : MInv g) {op : Op} {e : ErrorCode} (hr : ¬ op.isRegistry) (run : g.step op = .ok (g', e)) :
    ∃ news seen, g.watch op = .ok (g', e, seen) ∧
      Span op.adds { g with matching := decide (op = .enableMatching) || g.matching } g' news seen := by
  have id' : ∀ {P : Mgr → Prop}, op ≠ .enableMatching → P g → P { g with matching := decide (op = .enableMatching) || g.matching } := by
    intro P h hp
    have : ({ g with matching := decide (op = .enableMatching) || g.matching } : Mgr) = g := by
      rw [decide_eq_false h]; rfl
    rw [this]; exact hp
  have lift : ∀ {new : Option Nat} {r : Mgr.Seen}, op ≠ .enableMatching → (∃ news seen, r = .ok (g', e, seen) ∧ Span new g g' news seen) →
      ∃ news seen, r = .ok (g', e, seen) ∧ Span new { g with matching := decide (op = .enableMatching) || g.matching } g' news seen := by
    rintro new r h ⟨n, s, h1, h2⟩
    exact ⟨n, s, h1, id' (P := fun g => Span new g g' n s) h h2⟩
  cases op with
  | addSymbol s => exact absurd trivial hr
  | addOrderBook s => exact absurd trivial hr
  | deleteSymbol s => exact absurd trivial hr
  | deleteOrderBook s => exact absurd trivial hr
  | addOrder o => exact lift (by simp) (watchAdd_run hi run)
  | deleteOrder id => exact lift (by simp) (watchDelete_run hi run)
  | modifyOrder id p q => exact lift (by simp) (watchModify_run hi run)
  | mitigateOrder id p q => exact lift (by simp) (watchModify_run hi run)
  | reduceOrder id q =>
    refine lift (by simp) ?_
    change g.reduceOrder id q = .ok (g', e) at run
    unfold Mgr.reduceOrder at run
    unfold Mgr.watch
    dsimp only
    split at run
    · rename_i h
      rw [if_pos h]
      cases run
      exact ⟨[], [], rfl, .refl _ _⟩
    · rename_i h
      rw [if_neg h]
      split at run
      · rename_i h2
        rw [if_pos h2]
        cases run
        exact ⟨[], [], rfl, .refl _ _⟩
      · rename_i h2
        rw [if_neg h2]
        exact watchOrder_run hi (fun K o c w c' e r ho hc => reduceOp_run _ r ho hc) run
  | executeOrder id q =>
    refine lift (by simp) ?_
    change g.executeOrder id q = .ok (g', e) at run
    unfold Mgr.executeOrder at run
    unfold Mgr.watch
    dsimp only
    split at run
    · rename_i h
      rw [if_pos h]
      cases run
      exact ⟨[], [], rfl, .refl _ _⟩
    · rename_i h
      rw [if_neg h]
      split at run
      · rename_i h2
        rw [if_pos h2]
        cases run
        exact ⟨[], [], rfl, .refl _ _⟩
      · rename_i h2
        rw [if_neg h2]
        exact watchOrder_run hi (f := fun o c => c.executeOp g.matching o o.price q) (f' := fun o w => w.executeOp g.matching o o.price q)
          (fun K o c w c' e r ho hc => executeOp_run _ r ho hc) run
  | executeOrderAt id p q =>
    refine lift (by simp) ?_
    change g.executeOrderAt id p q = .ok (g', e) at run
    unfold Mgr.executeOrderAt at run
    unfold Mgr.watch
    dsimp only
    split at run
    · rename_i h
      rw [if_pos h]
      cases run
      exact ⟨[], [], rfl, .refl _ _⟩
    · rename_i h
      rw [if_neg h]
      split at run
      · rename_i h2
        rw [if_pos h2]
        cases run
        exact ⟨[], [], rfl, .refl _ _⟩
      · rename_i h2
        rw [if_neg h2]
        exact watchOrder_run hi (f := fun o c => c.executeOp g.matching o p q) (f' := fun o w => w.executeOp g.matching o p q)
          (fun K o c w c' e r ho hc => executeOp_run _ r ho hc) run
  | replaceOrder id n p q =>
    refine lift (by simp) ?_
    change g.replaceOrder id n p q = .ok (g', e) at run
    unfold Mgr.replaceOrder at run
    unfold Mgr.watch
    dsimp only
    by_cases h : id = 0
    · rw [if_pos h] at run ⊢
      cases run
      exact ⟨[], [], rfl, .refl _ _⟩
    · rw [if_neg h] at run ⊢
      by_cases h1 : n = 0
      · rw [if_pos h1] at run ⊢
        cases run
        exact ⟨[], [], rfl, .refl _ _⟩
      · rw [if_neg h1] at run ⊢
        by_cases h2 : q = 0
        · rw [if_pos h2] at run ⊢
          cases run
          exact ⟨[], [], rfl, .refl _ _⟩
        · rw [if_neg h2] at run ⊢
          cases ho : g.orders id with
          | none =>
            rw [ho] at run
            cases run
            exact ⟨[], [], rfl, .refl _ _⟩
          | some o =>
            rw [ho] at run
            dsimp only at run ⊢
            by_cases h3 : o.isLimit = true
            · rw [if_pos h3] at run ⊢
              refine watchBook_run hi (fun ez => h1 (Option.some.inj ez)) ?_ run
              intro b c e hb hc
              refine replaceOp_run g.matching (start hi hb _) ?_ rfl (fun h => h) hc
              show g.orders o.id = some o
              rw [(hi.orders id o ho).1]; exact ho
            · rw [if_neg h3] at run ⊢
              cases run
              exact ⟨[], [], rfl, .refl _ _⟩
  | replaceWith id o =>
    refine lift (by simp) ?_
    change g.replaceWith id o = .ok (g', e) at run
    unfold Mgr.replaceWith at run
    unfold Mgr.watch
    dsimp only
    obtain ⟨⟨g1, e1⟩, h1, run⟩ := bind_inv run
    obtain ⟨n1, s1, hw1, sp1⟩ := watchDelete_run hi h1
    rw [hw1, Except.bind_ok]
    dsimp only at run ⊢
    by_cases h2 : e1 ≠ .ok
    · rw [if_pos h2] at run ⊢
      cases run
      exact ⟨n1, s1, rfl, sp1.widen⟩
    · rw [if_neg h2] at run ⊢
      have ha : g.Admissible (.deleteOrder id) := trivial
      have hi1 : MInv g1 := (step_eff hi ha (op := .deleteOrder id) h1).minv hi ha
      obtain ⟨n2, s2, hw2, sp2⟩ := watchAdd_run hi1 run
      rw [hw2, Except.bind_ok]
      refine ⟨n1 ++ n2, s1 ++ s2, rfl, sp1.trans ?_ sp2⟩
      have := h1
      unfold Mgr.deleteOrder at this
      split at this
      · cases this; rfl
      · unfold Mgr.onOrder at this
        split at this
        · cases this; rfl
        · unfold Mgr.onBook at this
          split at this
          · cases this; rfl
          · obtain ⟨⟨c, e2⟩, _, h4⟩ := bind_inv this
            cases h4; rfl
  | enableMatching =>
    obtain ⟨g1, h1, run⟩ := bind_inv (show (({ g with matching := true } : Mgr).matchAll >>= fun s => .ok (s, ErrorCode.ok)) = .ok (g', e) from run)
    cases run
    obtain ⟨n, s, h2, h3⟩ := watchAll_run (hi.congr (g0 := { g with matching := true }) rfl rfl rfl) h1
    refine ⟨n, s, ?_, h3⟩
    show (({ g with matching := true } : Mgr).watchAll >>= _) = _
    rw [h2, Except.bind_ok]
  | disableMatching =>
    change Except.ok (({ g with matching := false } : Mgr), ErrorCode.ok) = .ok (g', e) at run
    cases run
    refine ⟨[], [], rfl, ?_⟩
    refine ⟨by simp, rfl, fun i x h => (by simp at h), ⟨rfl, fun _ _ _ => rfl, fun _ _ h => h, rfl, fun _ => rfl⟩, fun x h => (by simp at h)⟩
  | matchAll =>
    refine lift (by simp) ?_
    obtain ⟨g1, h1, run⟩ := bind_inv (show (g.matchAll >>= fun s => .ok (s, ErrorCode.ok)) = .ok (g', e) from run)
    cases run
    obtain ⟨n, s, h2, h3⟩ := watchAll_run hi h1
    refine ⟨n, s, ?_, h3⟩
    show (g.watchAll >>= _) = _
    rw [h2, Except.bind_ok]

end Watch
end CppTrader
