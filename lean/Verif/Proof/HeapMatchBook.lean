import Verif.Proof.HeapRecalc
/-
`Match(book)` on pointers.
-/

namespace CppTrader
namespace Ptr

open Core

variable {W : Col → List Level}

theorem Hit.addr {f : Seat} {s s' : Core} {hs hs' : HCore} {id : Nat} (h : Hit W f s hs id s' hs') {i a : Nat} {o : Order} (ha : hs.heap.orders i = some a) (ho : s'.orders i = some o) :
    hs'.heap.orders i = some a := by
  obtain ⟨_, a', n, ha', _⟩ := h.cut.r.addr ho
  have := orders_some (h.cut.mono _ _ ha') ha
  rw [← this]; exact ha'

/-- One crossed pair. -/
theorem pair_run {f : Seat} {s s1 s2 s3 s' : Core} {hs : HCore} (r : R W f s hs) {e d ae ad p q : Nat} (he : hs.heap.orders e = some ae) (hd : hs.heap.orders d = some ad)
    (r1 : s.execResting e p q = .ok s1) (r2 : s1.deleteRec e = .ok s2) (r3 : s2.execResting d p q = .ok s3) (r4 : s3.reduceRec d q = .ok s') :
    ∃ hs1 hs', hs.matchPair ae ad p q = .ok hs' ∧ Hit W f s hs e s2 hs1 ∧ Hit W f s2 hs1 d s' hs' := by
  obtain ⟨h1, n, h2, q1, q2, q3, hh⟩ := execDel_run r he r1 r2
  cases ho : s2.orders d with
  | none => unfold Core.execResting at r3; rw [ho] at r3; cases r3
  | some o =>
    obtain ⟨h3, m, h4, q4, q5, q6, hh2⟩ := execRed_run hh.cut.r (hh.addr hd ho) r3 r4
    refine ⟨h2, h4, ?_, hh, hh2⟩
    unfold HCore.matchPair
    rw [q1, Except.bind_ok, q2, Except.bind_ok, q3, Except.bind_ok, q4, Except.bind_ok, q5, Except.bind_ok]
    exact q6

/-- The level of orders still to be visited. -/
theorem Tail.level {b : Book} {k : Kind} {p i : Nat} {r : List Nat} (h : Tail b k p (i :: r)) : ∃ m ∈ b.lv k, m.price = p := by
  rcases h with h | ⟨l, h1, h2, _⟩
  · cases h
  · exact ⟨l, h1, h2⟩

theorem Cut.level {f f' : Seat} {s s' : Core} {hs hs' : HCore} (c : Cut W f s hs f' s' hs') {k : Kind} {la p : Nat} (h : LAt hs.heap (hs.slot, k) la p) {rest : List Nat}
    (hT : Tail s'.book k p rest) (hne : rest ≠ []) : LAt hs'.heap (hs'.slot, k) la p := by
  cases rest with
  | nil => exact absurd rfl hne
  | cons i is =>
    obtain ⟨m, hm, hp⟩ := hT.level
    rw [c.slot]
    refine c.keep _ _ _ h ⟨m, ?_, hp⟩
    rw [← c.slot, lvs_at]; exact hm

theorem bid_ask : Kind.bid ≠ Kind.ask := by intro h; cases h

theorem matchPairs_run {bp ap bl al : Nat} (bs : List Nat) : ∀ {as : List Nat} {s s' : Core} {hs : HCore} {n : Nat} {ret : Bool}, R W .idle s hs → bs.length < n →
    Tail s.book .bid bp bs → Tail s.book .ask ap as → (bs ≠ [] → LAt hs.heap (hs.slot, .bid) bl bp) → (as ≠ [] → LAt hs.heap (hs.slot, .ask) al ap) →
    Core.matchPairs bp ap bs as s = .ok (s', ret) →
    ∃ hs', HCore.matchPairs bl al n (ptr hs.heap bs) (ptr hs.heap as) hs = .ok (hs', ret) ∧ Cut W .idle s hs .idle s' hs' := by
  induction bs with
  | nil =>
    intro as s s' hs n ret r hn _ _ _ _ run
    simp only [Core.matchPairs] at run
    obtain ⟨e1, e2⟩ := Prod.mk.inj (Except.ok.inj run)
    subst e1; subst e2
    cases n with
    | zero => cases hn
    | succ n => exact ⟨hs, by rw [ptr_nil]; simp only [HCore.matchPairs], .refl r⟩
  | cons bid bs ih =>
    intro as s s' hs n ret r hn hB hA lB lA run
    cases n with
    | zero => cases hn
    | succ n =>
      cases as with
      | nil =>
        simp only [Core.matchPairs] at run
        obtain ⟨e1, e2⟩ := Prod.mk.inj (Except.ok.inj run)
        subst e1; subst e2
        refine ⟨hs, ?_, .refl r⟩
        rw [ptr_nil]
        cases ptr hs.heap (bid :: bs) <;> simp only [HCore.matchPairs]
      | cons ask as =>
        obtain ⟨b, x, h1, h2, h3, h4, h5, h6, h7, _⟩ := r.first hB
        obtain ⟨a, y, g1, g2, g3, g4, g5, g6, g7, _⟩ := r.first hA
        have eb : ptr hs.heap (bid :: bs) = some b := h1
        have ea : ptr hs.heap (ask :: as) = some a := g1
        rw [eb, ea]
        unfold Core.matchPairs at run
        unfold HCore.matchPairs
        obtain ⟨o, ho, run⟩ := bind_inv run
        have ho := get_inv ho
        rw [h3] at ho
        have ho := Option.some.inj ho
        subst ho
        obtain ⟨o, ho, run⟩ := bind_inv run
        have ho := get_inv ho
        rw [g3] at ho
        have ho := Option.some.inj ho
        subst ho
        rw [show hs.order b = .ok x from order_eq h2, Except.bind_ok, show hs.order a = .ok y from order_eq g2, Except.bind_ok]
        by_cases haon : (x.order.isAON || y.order.isAON) = true
        · rw [if_pos haon] at run ⊢
          dsimp only at run
          obtain ⟨lb, hlb, hlbp⟩ := hB.level
          obtain ⟨lk, hlk, hlkp⟩ := hA.level
          obtain ⟨pb, ys, eB⟩ := mem_split hlb
          obtain ⟨pa, zs, eA⟩ := mem_split hlk
          have fB : levelsFrom (s.book.lv .bid) bp = lb :: ys := by
            rw [eB, ← hlbp]; exact levelsFrom_mid (sorted_mid (eB ▸ (r.inv.book.kinds .bid).sorted))
          have fA : levelsFrom (s.book.lv .ask) ap = lk :: zs := by
            rw [eA, ← hlkp]; exact levelsFrom_mid (sorted_mid (eA ▸ (r.inv.book.kinds .ask).sorted))
          rw [fB, fA] at run
          have pB : LP hs.heap (hs.slot, .bid) (some bl) (lb :: ys) := ⟨bl, rfl, hlbp ▸ lB (by simp)⟩
          have pA : LP hs.heap (hs.slot, .ask) (some al) (lk :: zs) := ⟨al, rfl, hlkp ▸ lA (by simp)⟩
          have nB : (lb :: ys).length < (hs.heap.tree (hs.col .bid)).length + 1 := by
            have := r.treeLength .bid
            rw [eB] at this
            show _ < (hs.heap.tree (hs.slot, .bid)).length + 1
            rw [this]; simp; omega
          have nA : (lk :: zs).length < (hs.heap.tree (hs.col .ask)).length + 1 := by
            have := r.treeLength .ask
            rw [eA] at this
            show _ < (hs.heap.tree (hs.slot, .ask)).length + 1
            rw [this]; simp; omega
          obtain ⟨chain, c1, run⟩ := bind_inv run
          rw [chainCross_run r eB eA pB pA c1, Except.bind_ok]
          dsimp only
          by_cases h0 : chain = 0
          · rw [if_pos h0] at run ⊢
            obtain ⟨e1, e2⟩ := Prod.mk.inj (Except.ok.inj run)
            subst e1; subst e2
            exact ⟨hs, rfl, .refl r⟩
          · rw [if_neg h0] at run ⊢
            by_cases hbA : x.order.isAON = true
            · rw [if_pos hbA] at run ⊢
              obtain ⟨s1, w1, run⟩ := bind_inv run
              obtain ⟨s2, w2, run⟩ := bind_inv run
              obtain ⟨e1, e2⟩ := Prod.mk.inj (Except.ok.inj run)
              subst e1; subst e2
              obtain ⟨hs1, q1, d1, oth⟩ := execChain_run (k := .bid) rfl (lb :: ys) (pre := pb) r nB eB pB w1
              have eA1 : s1.book.lv .ask = pa ++ lk :: zs := (oth .ask (fun h => bid_ask h.symm)).trans eA
              obtain ⟨hs2, q2, d2, _⟩ := execChain_run (k := .ask) rfl (lk :: zs) (pre := pa) d1.r nA eA1 (d1.lp eA1 pA) w2
              refine ⟨hs2, ?_, d1.trans d2⟩
              rw [q1, Except.bind_ok, q2, Except.bind_ok]
            · rw [if_neg hbA] at run ⊢
              obtain ⟨s1, w1, run⟩ := bind_inv run
              obtain ⟨s2, w2, run⟩ := bind_inv run
              obtain ⟨e1, e2⟩ := Prod.mk.inj (Except.ok.inj run)
              subst e1; subst e2
              obtain ⟨hs1, q1, d1, oth⟩ := execChain_run (k := .ask) rfl (lk :: zs) (pre := pa) r nA eA pA w1
              have eB1 : s1.book.lv .bid = pb ++ lb :: ys := (oth .bid bid_ask).trans eB
              obtain ⟨hs2, q2, d2, _⟩ := execChain_run (k := .bid) rfl (lb :: ys) (pre := pb) d1.r nB eB1 (d1.lp eB1 pB) w2
              refine ⟨hs2, ?_, d1.trans d2⟩
              rw [q1, Except.bind_ok, q2, Except.bind_ok]
        · rw [if_neg haon] at run ⊢
          obtain ⟨s2, w, run⟩ := bind_inv run
          have fin : ∀ {hs2 : HCore}, Cut W .idle s hs .idle s2 hs2 → Tail s2.book .bid bp bs → Tail s2.book .ask ap as →
              ∃ hs', HCore.matchPairs bl al n x.next y.next hs2 = .ok (hs', ret) ∧ Cut W .idle s hs .idle s' hs' := by
            intro hs2 c t1 t2
            obtain ⟨hs', e, c'⟩ := ih (n := n) c.r (by simp at hn; omega) t1 t2 (fun h => c.level (lB (by simp)) t1 h) (fun h => c.level (lA (by simp)) t2 h) run
            refine ⟨hs', ?_, c.trans c'⟩
            rw [h4, g4, c.r.ptr_mono (f' := .idle) c.mono t1, c.r.ptr_mono (f' := .idle) c.mono t2]
            exact e
          unfold Core.matchPair at w
          obtain ⟨o, ho, w⟩ := bind_inv w
          have ho := get_inv ho
          rw [h3] at ho
          have ho := Option.some.inj ho
          subst ho
          obtain ⟨o, ho, w⟩ := bind_inv w
          have ho := get_inv ho
          rw [g3] at ho
          have ho := Option.some.inj ho
          subst ho
          by_cases hgt : x.order.leaves > y.order.leaves
          · rw [if_pos hgt]
            simp only [if_pos hgt] at w
            obtain ⟨s3, w1, w⟩ := bind_inv w
            obtain ⟨s4, w2, w⟩ := bind_inv w
            obtain ⟨s5, w3, w⟩ := bind_inv w
            rw [g5] at w1 w2
            rw [h5] at w3 w
            obtain ⟨hs1, hs2, q, hh1, hh2⟩ := pair_run r g1 h1 w1 w2 w3 w
            have t1 : Tail s4.book .ask ap as := hh1.tail r hA
            have t2 : Tail s4.book .bid bp (bid :: bs) := hB.same (hh1.other r hA .bid bid_ask)
            obtain ⟨hs', e, c⟩ := fin (hh1.cut.trans hh2.cut) (hh2.tail hh1.cut.r t2) (t1.same (hh2.other hh1.cut.r t2 .ask (fun h => bid_ask h.symm)))
            exact ⟨hs', by rw [q]; exact e, c⟩
          · rw [if_neg hgt]
            simp only [if_neg hgt] at w
            obtain ⟨s3, w1, w⟩ := bind_inv w
            obtain ⟨s4, w2, w⟩ := bind_inv w
            obtain ⟨s5, w3, w⟩ := bind_inv w
            rw [h5] at w1 w2
            rw [g5] at w3 w
            obtain ⟨hs1, hs2, q, hh1, hh2⟩ := pair_run r h1 g1 w1 w2 w3 w
            have t1 : Tail s4.book .bid bp bs := hh1.tail r hB
            have t2 : Tail s4.book .ask ap (ask :: as) := hA.same (hh1.other r hB .ask (fun h => bid_ask h.symm))
            obtain ⟨hs', e, c⟩ := fin (hh1.cut.trans hh2.cut) (t1.same (hh2.other hh1.cut.r t2 .bid bid_ask)) (hh2.tail hh1.cut.r t2)
            exact ⟨hs', by rw [q]; exact e, c⟩

theorem matchBookN_run (n : Nat) : ∀ {s s' : Core} {hs : HCore}, R W .idle s hs → Core.matchBookN n s = .ok s' →
    ∃ hs', HCore.matchBookN n hs = .ok hs' ∧ Go W .idle s hs .idle s' hs' := by
  induction n with
  | zero => intro s s' hs _ run; unfold Core.matchBookN at run; cases run
  | succ n ih =>
    intro s s' hs r run
    unfold Core.matchBookN at run
    unfold HCore.matchBookN
    have none_case : (s.activateAll >>= fun x => if x.2 = true then Core.matchBookN n x.1 else .ok x.1) = .ok s' →
        ∃ hs', (hs.activateAll >>= fun x => if x.2 = true then HCore.matchBookN n x.1 else .ok x.1) = .ok hs' ∧ Go W .idle s hs .idle s' hs' := by
      intro run
      obtain ⟨⟨s1, b⟩, r1, run⟩ := bind_inv run
      obtain ⟨hs1, e1, g1⟩ := activateAll_run r r1
      rw [e1, Except.bind_ok]
      dsimp only at run ⊢
      cases b with
      | true =>
        simp only [if_true] at run ⊢
        obtain ⟨hs2, e2, g2⟩ := ih g1.r run
        exact ⟨hs2, e2, g1.trans g2⟩
      | false =>
        simp only [Bool.false_eq_true, if_false] at run ⊢
        have run := Except.ok.inj run
        subst run
        exact ⟨hs1, rfl, g1⟩
    have htb := r.top .bid
    have hta := r.top .ask
    have hcb := r.best .bid
    have hca := r.best .ask
    unfold Core.crossed at run
    unfold HCore.crossed
    rw [hcb, hca] at run
    cases hb : s.book.lv .bid with
    | nil =>
      rw [hb] at run htb
      have e : hs.heap.best (hs.col .bid) = none := htb
      rw [e]
      exact none_case run
    | cons b lb =>
      obtain ⟨bl, e1, hbl, hblev, _⟩ := r.level (pre := []) hb (hb ▸ htb)
      have e1' : hs.heap.best (hs.col .bid) = some bl := e1
      cases ha : s.book.lv .ask with
      | nil =>
        rw [hb, ha] at run
        rw [ha] at hta
        have e : hs.heap.best (hs.col .ask) = none := hta
        rw [e, e1']
        exact none_case run
      | cons a la =>
        obtain ⟨al, e2, hal, halev, _⟩ := r.level (pre := []) ha (ha ▸ hta)
        have e2' : hs.heap.best (hs.col .ask) = some al := e2
        rw [e1', e2']
        dsimp only
        rw [hblev, Except.bind_ok, halev, Except.bind_ok, Except.bind_ok]
        rw [hb, ha] at run
        dsimp only [List.head?_cons, Option.map_some] at run
        by_cases hc : a.price ≤ b.price
        · rw [if_pos hc] at run
          rw [if_pos (show (lnodeOf hs.heap Kind.ask a).price ≤ (lnodeOf hs.heap Kind.bid b).price from hc)]
          dsimp only at run ⊢
          rw [findLevel_head, findLevel_head] at run
          dsimp only at run
          have mb : b ∈ s.book.lv .bid := by rw [hb]; simp
          have ma : a ∈ s.book.lv .ask := by rw [ha]; simp
          obtain ⟨⟨s1, ret⟩, w1, run⟩ := bind_inv run
          obtain ⟨hs1, q1, c1⟩ := matchPairs_run (bl := bl) (al := al) b.ids (n := (lnodeOf hs.heap .bid b).count + 1) r (by
            show _ < b.count + 1
            rw [r.count mb]; omega) (Tail.whole mb) (Tail.whole ma) (fun _ => hbl) (fun _ => hal) w1
          rw [hblev, Except.bind_ok, halev, Except.bind_ok,
            show HCore.matchPairs bl al ((lnodeOf hs.heap .bid b).count + 1) (lnodeOf hs.heap .bid b).front (lnodeOf hs.heap .ask a).front hs = _ from q1, Except.bind_ok]
          dsimp only at run ⊢
          cases ret with
          | true =>
            simp only [if_true] at run ⊢
            have run := Except.ok.inj run
            subst run
            exact ⟨hs1, rfl, c1.go⟩
          | false =>
            simp only [Bool.false_eq_true, if_false] at run ⊢
            obtain ⟨⟨s2, b2⟩, w2, run⟩ := bind_inv run
            obtain ⟨⟨s3, b3⟩, w3, run⟩ := bind_inv run
            obtain ⟨hs2, q2, g2⟩ := activateLevel_run c1.r (k := .buyStop) rfl w2
            obtain ⟨hs3, q3, g3⟩ := activateLevel_run g2.r (k := .sellStop) rfl w3
            obtain ⟨hs4, q4, g4⟩ := ih g3.r run
            refine ⟨hs4, ?_, ((c1.go.trans g2).trans g3).trans g4⟩
            rw [c1.r.marketAsk, Except.bind_ok, q2, Except.bind_ok]
            dsimp only
            rw [g2.r.marketBid, Except.bind_ok, q3, Except.bind_ok]
            exact q4
        · rw [if_neg hc] at run
          rw [if_neg (show ¬ (lnodeOf hs.heap Kind.ask a).price ≤ (lnodeOf hs.heap Kind.bid b).price from hc)]
          exact none_case run

theorem matchBook_run {s s' : Core} {hs : HCore} (r : R W .idle s hs) (run : s.matchBook = .ok s') : ∃ hs', hs.matchBook = .ok hs' ∧ Go W .idle s hs .idle s' hs' := by
  unfold HCore.matchBook
  rw [r.matchFuel]
  exact matchBookN_run _ r run

end Ptr
end CppTrader
