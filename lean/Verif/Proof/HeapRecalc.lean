import Verif.Proof.HeapStops
/-
Trailing stop orders on pointers.
-/

namespace CppTrader
namespace Ptr

open Core

variable {W : Col → List Level}

/-- A level of price `q` whose orders are all in place. -/
structure Fixed (k : Kind) (s : Core) (q : Nat) : Prop where
  still : ∀ i ∈ queue s.book k, ∀ o, s.orders i = some o → o.key = q → unst s i = false
  some : ∃ i ∈ queue s.book k, ∃ o, s.orders i = some o ∧ o.key = q

theorem mem_addOrder {b : Book} {k : Kind} {o : Order} {m : Level} (hs : Sorted k (b.lv k)) (hm : m ∈ b.lv k) (hp : m.price ≠ o.key) : m ∈ (b.addOrder k o).1.lv k := by
  unfold Book.addOrder
  cases hf : findLevel (b.lv k) o.key with
  | some l =>
    dsimp only
    obtain ⟨L1, L2, e, hlp, _⟩ := findLevel_some hs hf
    rw [setK_same]
    have hsp := sorted_mid (e ▸ hs)
    rw [e, replaceLevel_mid (n := l.push o) hsp rfl]
    rw [e] at hm
    rcases List.mem_append.mp hm with q | q
    · exact List.mem_append_left _ q
    · rcases List.mem_cons.mp q with q | q
      · exact absurd (q ▸ hlp) hp
      · simp [q]
  | none =>
    dsimp only
    have hne : ∀ l ∈ b.lv k, l.price ≠ ((Level.new o.key).push o).price := by
      intro l hl e
      have := findLevel_none.mp hf l hl
      exact this e
    obtain ⟨xs, ys, e1, e2, _⟩ := insertLevel_split hs hne
    unfold Book.addLevel
    dsimp only
    rw [setK_same, e2]
    rw [e1] at hm
    rcases List.mem_append.mp hm with q | q
    · exact List.mem_append_left _ q
    · simp [q]

theorem Tail.link {b : Book} {k : Kind} {o : Order} {c : Nat} {rest : List Nat} (hs : Sorted k (b.lv k)) (h : Tail b k c rest) (hc : c ≠ o.key) : Tail (b.addOrder k o).1 k c rest := by
  rcases h with h | ⟨l, h1, h2, h3⟩
  · exact .inl h
  · exact .inr ⟨l, mem_addOrder hs h1 (by rw [h2]; exact hc), h2, h3⟩

theorem trail_key {o : Order} {k : Kind} (hk : k.isTrail = true) (h : o.kind = some k) : o.key = o.stopPrice := by
  unfold Order.kind at h
  unfold Order.key
  cases ht : o.type <;> simp only [ht] at h ⊢
  all_goals first
    | rfl
    | (split at h <;> cases h <;> cases hk)
    | cases h

theorem recalcStep_run {s s1 s' : Core} {hs : HCore} (r : R W .idle s hs) {k : Kind} (hk : k.isTrail = true) {c id a : Nat} {rest : List Nat} {o : Order}
    (hT : Tail s.book k c (id :: rest)) (ho : s.orders id = some o) (ha : hs.heap.orders id = some a) (hne : s.book.calcTrailing o ≠ o.stopPrice)
    (run1 : s.unlink o = .ok s1) (run2 : (s1.emit (.updateOrder (retrail o (s.book.calcTrailing o)))).link (retrail o (s.book.calcTrailing o)) = .ok s') :
    ∃ hs1 n hs2 hs', hs.unlink a = .ok hs1 ∧ hs1.order a = .ok n ∧ n.order = o ∧ hs1.write a (retrail o (s.book.calcTrailing o)) = .ok hs2 ∧
      (hs2.emit (.updateOrder (retrail o (s.book.calcTrailing o)))).link a = .ok hs' ∧ Go W .idle s hs .idle s' hs' ∧ Tail s'.book k c rest ∧
      (∀ lb q, LAt hs.heap (hs.slot, k) lb q → Fixed k s q → LAt hs'.heap (hs'.slot, k) lb q ∧ Fixed k s' q) := by
  obtain ⟨_, x, _, _, hxo, _, hxid, hkind, hkey, hsym⟩ := r.first hT
  rw [ho] at hxo
  have hxo := Option.some.inj hxo
  subst hxo
  have hq : x.order.id ∈ queue s.book k := (r.inv.book.queue_iff (hxid ▸ ho) hsym k).mpr hkind
  obtain ⟨s1', s2', a1, a2, eff, a4, a5⟩ := recalcOne hk r.inv (hxid ▸ ho) hq hne
  rw [run1] at a1
  have a1 := Except.ok.inj a1
  subst a1
  rw [run2] at a2
  have a2 := Except.ok.inj a2
  subst a2
  have htr := kind_trailing hkind hk
  have hok := (r.inv.orders _ _ ho).2
  -- the steps of the order
  obtain ⟨kk, s1', z1, z2, z3, z4, z5, z6, z7⟩ := r.inv.unlink (hxid ▸ ho) hsym
  rw [run1] at z2
  have z2 := Except.ok.inj z2
  subst z2
  rw [hkind] at z1
  have z1 := Option.some.inj z1
  subst z1
  have hcalc := z5.toTr.calc (o := x.order) hk
  have st1 : Step (.take x.order) s none s1 (some x.order) := .take (hxid ▸ ho) hsym run1
  have st2 := Step.retrail (s := s1) (o := x.order) htr (by rw [hcalc]; exact hne)
  rw [hcalc] at st2
  have hstop : (retrail x.order (s.book.calcTrailing x.order)).stopPrice = s.book.calcTrailing x.order := retrail_stop htr _
  generalize ht : retrail x.order (s.book.calcTrailing x.order) = t at *
  have hc := st2.inv (st1.inv (CInv.none_iff.2 r.inv))
  have hfly : Fly (s1.emit (.updateOrder t)) t := hc.fly _ rfl
  have e1 : t.id = x.order.id := by rw [← ht]; exact retrail_id ..
  have e2 : t.leaves = x.order.leaves := by rw [← ht]; exact retrail_leaves ..
  have e3 : t.type = x.order.type := by rw [← ht]; exact retrail_type ..
  have e4 : t.kind = x.order.kind := by
    unfold Order.kind Order.isBuy; rw [e3, ← ht, retrail_side]
  have hnl : x.order.type ≠ .limit := fun e => by
    have := (kind_type hkind).2 e; rw [isTrail_notLimit hk] at this; cases this
  have hokt : OrderOK t := hfly.orderOK (by rw [e2]; exact hok.leaves) (by rw [e3]; exact hok.notMarket) (fun e => by rw [e3] at e; exact absurd e hnl)
  obtain ⟨hs1, k', p1, hk1, c1, b1, ord1, _⟩ := pick_run r ho hsym ha run1
  rw [hkind] at hk1
  have hk1 := Option.some.inj hk1
  subst hk1
  obtain ⟨n, hn, hno⟩ := kept_read c1.r
  obtain ⟨hs2, p2, c2, _⟩ := c1.r.store (t' := t) rfl e1 ⟨hfly.repr, hfly.idPos, hfly.sym, hfly.vol, hfly.trail⟩
  have c3 := c2.r.emit (.updateOrder t)
  obtain ⟨hs', k4, p4, hk4, g4, keep4, ord4, bk4, _, _⟩ := link_run c3.r hokt run2
  rw [e4, hkind] at hk4
  have hk4 := Option.some.inj hk4
  subst hk4
  have C := (c1.trans c2).trans c3
  have hkt : t.key ≠ c := by
    rw [trail_key hk (e4.trans hkind), hstop, ← hkey, trail_key hk hkind]
    exact hne
  have hT1 := b1.tail r.inv c1.r.inv (fun i hi => by rw [ord1]; exact setO_off _ _ hi) hT
  refine ⟨hs1, n, hs2, hs', p1, hn, hno, p2, p4, C.go.trans g4, ?_, ?_⟩
  · rw [bk4]
    exact Tail.link (b := (s1.emit (.updateOrder t)).book) (c1.r.inv.book.kinds k).sorted hT1 (fun e => hkt e.symm)
  · intro lb q hl hf
    have hother : ∀ i, unst s i = false → i ≠ id := by
      intro i hi e
      subst e
      unfold unst at hi
      rw [ho] at hi
      simp only [decide_eq_false_iff_not, Classical.not_not] at hi
      exact hne hi
    obtain ⟨i, hi, oi, hoi, hki⟩ := hf.some
    have hii := hother i (hf.still i hi oi hoi hki)
    constructor
    · rw [g4.slot, C.slot]
      refine keep4 _ _ _ (C.keep _ _ _ hl ?_)
      have hoi1 : s1.orders i = some oi := by rw [ord1, setO_off _ _ hii]; exact hoi
      obtain ⟨oi', y1, y2, y3⟩ := r.inv.book.queue_mem hi
      rw [hoi] at y1
      have y1 := Option.some.inj y1
      subst y1
      obtain ⟨k5, l5, w1, w2, w3⟩ := c1.r.inv.book.complete i oi hoi1 (by rw [b1.symbol]; exact y2)
      rw [y3] at w1
      have w1 := Option.some.inj w1
      subst w1
      obtain ⟨o6, v1, _, _, v4⟩ := ((c1.r.inv.book.kinds k).levels l5 w2).mem i w3
      rw [hoi1] at v1
      have v1 := Option.some.inj v1
      subst v1
      refine ⟨l5, ?_, v4.symm.trans hki⟩
      rw [← C.slot, lvs_at]
      exact w2
    · refine ⟨?_, i, eff.perm.mem_iff.2 hi, oi, by rw [a4 i (by rw [hxid]; exact hii)]; exact hoi, hki⟩
      intro j hj oj hoj hkj
      by_cases ej : j = x.order.id
      · rw [ej]; exact a5
      · rw [unst_congr eff.same hk (a4 j ej)]
        refine hf.still j (eff.perm.mem_iff.1 hj) oj ?_ hkj
        rw [← a4 j ej]; exact hoj

theorem recalcIds_run {k : Kind} (hk : k.isTrail = true) {c : Nat} (ids : List Nat) : ∀ {s s' : Core} {hs : HCore} {n : Nat} {b b' : Bool}, R W .idle s hs → ids.length < n →
    Tail s.book k c ids → Core.recalcIds ids s b = .ok (s', b') →
    ∃ hs', HCore.recalcIds n (ptr hs.heap ids) hs b = .ok (hs', b') ∧ Go W .idle s hs .idle s' hs' ∧ (b = true → b' = true) ∧ (b' = false → hs' = hs ∧ s' = s) ∧
      (∀ lb q, LAt hs.heap (hs.slot, k) lb q → Fixed k s q → LAt hs'.heap (hs'.slot, k) lb q ∧ Fixed k s' q) := by
  induction ids with
  | nil =>
    intro s s' hs n b b' r hn _ run
    unfold Core.recalcIds at run
    obtain ⟨e1, e2⟩ := Prod.mk.inj (Except.ok.inj run)
    subst e1; subst e2
    cases n with
    | zero => cases hn
    | succ n => exact ⟨hs, rfl, (Cut.refl r).go, fun h => h, fun _ => ⟨rfl, rfl⟩, fun _ _ h1 h2 => ⟨h1, h2⟩⟩
  | cons id rest ih =>
    intro s s' hs n b b' r hn hT run
    cases n with
    | zero => cases hn
    | succ n =>
      obtain ⟨a, x, h1, h2, h3, h4, _⟩ := r.first hT
      have he : ptr hs.heap (id :: rest) = some a := h1
      rw [he]
      unfold Core.recalcIds at run
      unfold HCore.recalcIds
      obtain ⟨o, ho, run⟩ := bind_inv run
      have ho := get_inv ho
      have ho' := ho
      rw [h3] at ho'
      have ho' := Option.some.inj ho'
      subst ho'
      rw [show hs.order a = .ok x from order_eq h2, Except.bind_ok, r.calcTrailing, Except.bind_ok]
      dsimp only at run
      by_cases hne : s.book.calcTrailing x.order ≠ x.order.stopPrice
      · rw [if_pos hne] at run ⊢
        obtain ⟨s1, r1, run⟩ := bind_inv run
        obtain ⟨s2, r2, run⟩ := bind_inv run
        obtain ⟨hs1, m, hs2, hs3, q1, q2, q3, q4, q5, g, hT2, keep⟩ := recalcStep_run r hk hT ho h1 hne r1 r2
        obtain ⟨hs', e2, g2, m2, f2, keep2⟩ := ih (n := n) g.r (by simp at hn; omega) hT2 run
        refine ⟨hs', ?_, g.trans g2, fun _ => m2 rfl, ?_, ?_⟩
        · rw [q1, Except.bind_ok, q2, Except.bind_ok, q3, q4, Except.bind_ok]
          dsimp only
          rw [q5, Except.bind_ok, h4, g.r.ptr_mono (f' := .idle) g.mono hT2]
          exact e2
        · intro h; rw [m2 rfl] at h; cases h
        · intro lb q hl hf
          obtain ⟨z1, z2⟩ := keep lb q hl hf
          exact keep2 lb q z1 z2
      · rw [if_neg hne] at run ⊢
        obtain ⟨hs', e2, g2, m2, f2, keep2⟩ := ih (n := n) r (by simp at hn; omega) hT.next run
        exact ⟨hs', by rw [h4]; exact e2, g2, m2, f2, keep2⟩

/-! ### The loop over the levels -/

/-- The level pointer `pp` is that of the level of price `pr`. -/
def PP (h : Heap) (x : Col) (pp pr : Option Nat) : Prop := (∀ c, pr = some c → ∃ la, pp = some la ∧ LAt h x la c) ∧ (pr = none → pp = none)

theorem PP.of {h : Heap} {x : Col} {lp : Option Nat} {ls : List Level} (hl : LP h x lp ls) : PP h x lp (ls.head?.map (·.price)) := by
  cases ls with
  | nil =>
    have : lp = none := hl
    exact ⟨(fun c e => by cases e), fun _ => this⟩
  | cons l ls =>
    obtain ⟨la, e, h⟩ := hl
    refine ⟨fun c ec => ?_, fun e => by cases e⟩
    have ec : l.price = c := Option.some.inj ec
    exact ⟨la, e, ec ▸ h⟩

theorem trail_col {k : Kind} (hk : k.isTrail = true) : (if k.isBidType then Kind.tSellStop else .tBuyStop) = k := by cases k <;> first | rfl | cases hk

theorem nextTrail_eq {hs : HCore} {k : Kind} (hk : k.isTrail = true) {la : Nat} {l : Level}
    (hl : hs.level la = .ok (lnodeOf hs.heap k l)) : hs.nextTrail la = .ok (Heap.after (hs.heap.tree (hs.slot, k)) la) := by
  unfold HCore.nextTrail
  rw [hl, Except.bind_ok]
  show Except.ok (Heap.after (hs.heap.tree (hs.col (if k.isBidType then .tSellStop else .tBuyStop))) la) = _
  rw [trail_col hk]; rfl

theorem recalcLoop_run {k : Kind} (hk : k.isTrail = true) (n : Nat) : ∀ {s s' : Core} {hs : HCore} {prev cur pp cp : Option Nat}, R W .idle s hs →
    PP hs.heap (hs.slot, k) pp prev → PP hs.heap (hs.slot, k) cp cur → (∀ q, prev = some q → Fixed k s q) → Core.recalcLoop k n s prev cur = .ok s' →
    ∃ hs', HCore.recalcLoop k n hs pp cp = .ok hs' ∧ Go W .idle s hs .idle s' hs' := by
  induction n with
  | zero => intro s s' hs prev cur pp cp _ _ _ _ run; unfold Core.recalcLoop at run; cases run
  | succ n ih =>
    intro s s' hs prev cur pp cp r hpp hcp hfix run
    cases cur with
    | none =>
      have := hcp.2 rfl
      subst this
      unfold Core.recalcLoop at run
      have run := Except.ok.inj run
      subst run
      exact ⟨hs, rfl, (Cut.refl r).go⟩
    | some c =>
      obtain ⟨la, e, hla⟩ := hcp.1 c rfl
      subst e
      unfold Core.recalcLoop at run
      cases hf : findLevel (s.book.lv k) c with
      | none => rw [hf] at run; cases run
      | some l =>
        rw [hf] at run
        dsimp only at run
        obtain ⟨L1, L2, ex, hlp, _⟩ := findLevel_some (r.inv.book.kinds k).sorted hf
        have hl : l ∈ s.book.lv k := by rw [ex]; simp
        obtain ⟨la', ela, hla', hlev, hnext⟩ := r.level ex (lp := some la) ⟨la, rfl, hlp ▸ hla⟩
        have ela := Option.some.inj ela
        subst ela
        obtain ⟨⟨s1, b⟩, r1, run2⟩ := bind_inv run
        clear run
        obtain ⟨hs1, e1, g1, _, f1, keep⟩ := recalcIds_run hk (c := c) l.ids (n := (lnodeOf hs.heap k l).count + 1) r (by
          show _ < l.count + 1
          rw [r.count hl]; omega) (hlp ▸ Tail.whole hl) r1
        unfold HCore.recalcLoop
        rw [hlev, Except.bind_ok, show HCore.recalcIds ((lnodeOf hs.heap k l).count + 1) (lnodeOf hs.heap k l).front hs false = _ from e1, Except.bind_ok]
        dsimp only at run2 ⊢
        cases b with
        | true =>
          simp only [if_true] at run2 ⊢
          cases prev with
          | some p =>
            obtain ⟨pa, epp, hpa⟩ := hpp.1 p rfl
            subst epp
            dsimp only at run2 ⊢
            obtain ⟨z1, z2⟩ := keep pa p hpa (hfix p rfl)
            have hp1 : PP hs1.heap (hs1.slot, k) (some pa) (some p) := ⟨fun c ec => ⟨pa, rfl, (Option.some.inj ec) ▸ z1⟩, fun e => by cases e⟩
            obtain ⟨hs2, e2, g2⟩ := ih g1.r hp1 hp1 (fun q eq => (Option.some.inj eq) ▸ z2) run2
            exact ⟨hs2, e2, g1.trans g2⟩
          | none =>
            have := hpp.2 rfl
            subst this
            dsimp only at run2 ⊢
            rw [g1.r.best] at run2
            have hp1 : PP hs1.heap (hs1.slot, k) none none := ⟨(fun c ec => by cases ec), fun _ => rfl⟩
            obtain ⟨hs2, e2, g2⟩ := ih g1.r hp1 (PP.of (g1.r.top k)) (fun q eq => by cases eq) run2
            exact ⟨hs2, e2, g1.trans g2⟩
        | false =>
          simp only [Bool.false_eq_true, if_false] at run2 ⊢
          obtain ⟨q1, q2⟩ := f1 rfl
          subst q1; subst q2
          rw [nextTrail_eq hk hlev, Except.bind_ok]
          have hsp := sorted_mid (ex ▸ (r.inv.book.kinds k).sorted)
          have hn : nextLevel (s1.book.lv k) c = L2.head? := by rw [ex, ← hlp]; exact nextLevel_mid hsp
          rw [hn] at run2
          have hlq : ∀ i ∈ l.ids, i ∈ queue s1.book k := fun i h => mem_flatOf.2 ⟨l, hl, h⟩
          obtain ⟨s2', r2', b1, _, b3, _⟩ := recalcIds_ok hk l.ids false r.inv hlq
          rw [r1] at b1
          obtain ⟨w1, w2⟩ := Prod.mk.inj (Except.ok.inj b1)
          subst w1
          have hfx : Fixed k s1 c := by
            refine ⟨?_, ?_⟩
            · intro i hi o ho hko
              refine b3 i ?_
              obtain ⟨l', hl', hil⟩ := mem_flatOf.1 hi
              obtain ⟨g1, _, _⟩ := level_price r.inv hl' hil ho
              have : l' = l := sorted_price_inj (r.inv.book.kinds k).sorted hl' hl (g1.symm.trans (hko.trans hlp.symm))
              rw [← this]; exact hil
            · cases hids : l.ids with
              | nil => exact absurd hids ((r.inv.book.kinds k).levels l hl).nonempty
              | cons i is =>
                have hil : i ∈ l.ids := by rw [hids]; simp
                obtain ⟨o, g1, _, _, g4⟩ := ((r.inv.book.kinds k).levels l hl).mem i hil
                exact ⟨i, hlq i hil, o, g1, g4.trans hlp⟩
          have hp1 : PP hs1.heap (hs1.slot, k) (some la) (some c) := ⟨fun c' ec => ⟨la, rfl, (Option.some.inj ec) ▸ hla⟩, fun e => by cases e⟩
          exact ih r hp1 (PP.of hnext) (fun q eq => (Option.some.inj eq) ▸ hfx) run2

theorem R.recalcFuel {f : Seat} {s : Core} {hs : HCore} (r : R W f s hs) (k : Kind) : hs.recalcFuel k = Core.recalcFuel s.book k := by
  unfold HCore.recalcFuel Core.recalcFuel; rw [r.kindCount]

theorem best_none {f : Seat} {s : Core} {hs : HCore} (r : R W f s hs) (k : Kind) : PP hs.heap (hs.slot, k) (hs.heap.best (hs.col k)) (s.book.best k) := by
  rw [r.best]; exact PP.of (r.top k)

theorem recalcBuy_run {s s' : Core} {hs : HCore} (r : R W .idle s hs) (run : s.recalcBuy = .ok s') : ∃ hs', hs.recalcBuy = .ok hs' ∧ Go W .idle s hs .idle s' hs' := by
  unfold Core.recalcBuy at run
  unfold HCore.recalcBuy
  have hb := best_none r .ask
  cases hbest : s.book.best .ask with
  | none =>
    rw [hbest] at run hb
    rw [hb.2 rfl]
    have run := Except.ok.inj run
    subst run
    exact ⟨hs, rfl, (Cut.refl r).go⟩
  | some p =>
    rw [hbest] at run hb
    obtain ⟨la, e, _⟩ := hb.1 p rfl
    rw [e]
    dsimp only at run ⊢
    rw [r.marketTrailAsk, Except.bind_ok]
    have c := r.calm (s' := { s with book := { s.book with trailAsk := s.book.marketTrailAsk } })
      (hs' := { hs with book := { hs.book with trailAsk := s.book.marketTrailAsk } }) rfl rfl rfl rfl rfl rfl rfl (by rw [r.book]; rfl) r.ev
    have ho : hs.book.trailAsk = s.book.trailAsk := by rw [r.book]; rfl
    rw [ho]
    by_cases hge : s.book.marketTrailAsk ≥ s.book.trailAsk
    · rw [if_pos hge] at run ⊢
      have run := Except.ok.inj run
      subst run
      exact ⟨_, rfl, c.go⟩
    · rw [if_neg hge] at run ⊢
      rw [← c.r.recalcFuel] at run
      obtain ⟨hs2, e2, g2⟩ := recalcLoop_run (k := .tBuyStop) rfl _ c.r (pp := none) ⟨(fun c ec => by cases ec), fun _ => rfl⟩ (best_none c.r .tBuyStop) (fun q eq => by cases eq) run
      exact ⟨hs2, e2, c.go.trans g2⟩

theorem recalcSell_run {s s' : Core} {hs : HCore} (r : R W .idle s hs) (run : s.recalcSell = .ok s') : ∃ hs', hs.recalcSell = .ok hs' ∧ Go W .idle s hs .idle s' hs' := by
  unfold Core.recalcSell at run
  unfold HCore.recalcSell
  have hb := best_none r .bid
  cases hbest : s.book.best .bid with
  | none =>
    rw [hbest] at run hb
    rw [hb.2 rfl]
    have run := Except.ok.inj run
    subst run
    exact ⟨hs, rfl, (Cut.refl r).go⟩
  | some p =>
    rw [hbest] at run hb
    obtain ⟨la, e, _⟩ := hb.1 p rfl
    rw [e]
    dsimp only at run ⊢
    rw [r.marketTrailBid, Except.bind_ok]
    have c := r.calm (s' := { s with book := { s.book with trailBid := s.book.marketTrailBid } })
      (hs' := { hs with book := { hs.book with trailBid := s.book.marketTrailBid } }) rfl rfl rfl rfl rfl rfl rfl (by rw [r.book]; rfl) r.ev
    have ho : hs.book.trailBid = s.book.trailBid := by rw [r.book]; rfl
    rw [ho]
    by_cases hge : s.book.marketTrailBid ≤ s.book.trailBid
    · rw [if_pos hge] at run ⊢
      have run := Except.ok.inj run
      subst run
      exact ⟨_, rfl, c.go⟩
    · rw [if_neg hge] at run ⊢
      rw [← c.r.recalcFuel] at run
      obtain ⟨hs2, e2, g2⟩ := recalcLoop_run (k := .tSellStop) rfl _ c.r (pp := none) ⟨(fun c ec => by cases ec), fun _ => rfl⟩ (best_none c.r .tSellStop) (fun q eq => by cases eq) run
      exact ⟨hs2, e2, c.go.trans g2⟩

theorem activateEither_run {s s' : Core} {hs : HCore} (r : R W .idle s hs) {k₁ k₂ : Kind} (h1 : k₁.isLimit = false) (h2 : k₂.isLimit = false) {price : Book → Nat}
    {hp : HCore → Except Err Nat} (hprice : ∀ {s hs}, R W .idle s hs → hp hs = .ok (price s.book)) {b : Bool} (run : s.activateEither k₁ k₂ price = .ok (s', b)) :
    ∃ hs', hs.activateEither k₁ k₂ hp = .ok (hs', b) ∧ Go W .idle s hs .idle s' hs' := by
  unfold Core.activateEither at run
  unfold HCore.activateEither
  obtain ⟨⟨s1, b1⟩, r1, run⟩ := bind_inv run
  obtain ⟨hs1, e1, g1⟩ := activateLevel_run r h1 r1
  rw [hprice r, Except.bind_ok, e1, Except.bind_ok]
  dsimp only at run ⊢
  cases b1 with
  | true =>
    simp only [if_true] at run ⊢
    obtain ⟨w1, w2⟩ := Prod.mk.inj (Except.ok.inj run)
    subst w1; subst w2
    exact ⟨hs1, rfl, g1⟩
  | false =>
    simp only [Bool.false_eq_true, if_false] at run ⊢
    obtain ⟨hs2, e2, g2⟩ := activateLevel_run g1.r h2 run
    rw [hprice g1.r, Except.bind_ok]
    exact ⟨hs2, e2, g1.trans g2⟩

theorem activateLoop_run (n : Nat) : ∀ {s s' : Core} {hs : HCore} {b b' : Bool}, R W .idle s hs → Core.activateLoop n s b = .ok (s', b') →
    ∃ hs', HCore.activateLoop n hs b = .ok (hs', b') ∧ Go W .idle s hs .idle s' hs' := by
  induction n with
  | zero => intro s s' hs b b' _ run; unfold Core.activateLoop at run; cases run
  | succ n ih =>
    intro s s' hs b b' r run
    unfold Core.activateLoop at run
    unfold HCore.activateLoop
    obtain ⟨⟨s1, b1⟩, r1, run⟩ := bind_inv run
    obtain ⟨s2, r2, run⟩ := bind_inv run
    obtain ⟨⟨s3, b3⟩, r3, run⟩ := bind_inv run
    obtain ⟨s4, r4, run⟩ := bind_inv run
    obtain ⟨hs1, e1, g1⟩ := activateEither_run r (k₁ := .buyStop) (k₂ := .tBuyStop) rfl rfl (hp := HCore.marketAsk) (fun h => h.marketAsk) r1
    obtain ⟨hs2, e2, g2⟩ := recalcBuy_run g1.r r2
    obtain ⟨hs3, e3, g3⟩ := activateEither_run g2.r (k₁ := .sellStop) (k₂ := .tSellStop) rfl rfl (hp := HCore.marketBid) (fun h => h.marketBid) r3
    obtain ⟨hs4, e4, g4⟩ := recalcSell_run g3.r r4
    have G := ((g1.trans g2).trans g3).trans g4
    rw [e1, Except.bind_ok]
    dsimp only
    rw [e2, Except.bind_ok, e3, Except.bind_ok]
    dsimp only
    rw [e4, Except.bind_ok]
    by_cases hc : (b1 || b3) = true
    · rw [if_pos hc] at run ⊢
      obtain ⟨hs5, e5, g5⟩ := ih g4.r run
      exact ⟨hs5, e5, G.trans g5⟩
    · rw [if_neg hc] at run ⊢
      obtain ⟨w1, w2⟩ := Prod.mk.inj (Except.ok.inj run)
      subst w1; subst w2
      exact ⟨hs4, rfl, G⟩

theorem activateAll_run {s s' : Core} {hs : HCore} {b' : Bool} (r : R W .idle s hs) (run : s.activateAll = .ok (s', b')) :
    ∃ hs', hs.activateAll = .ok (hs', b') ∧ Go W .idle s hs .idle s' hs' := by
  unfold HCore.activateAll
  rw [r.stopCount]
  exact activateLoop_run _ r run

end Ptr
end CppTrader
