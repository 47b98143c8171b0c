import Verif.Proof.HeapChain
/-
`CalculateMatchingChain(bid, ask)`, `ExecuteMatchingChain`, `MatchOrder` and `MatchMarket` on pointers.
-/

namespace CppTrader
namespace Ptr

variable {W : Col → List Level}

/-! ### The loop bounds -/

theorem count_trees {h : Heap} {k : Kind} : ∀ {as : List Nat} {ls : List Level}, Trees (LevelRep h k) as ls → h.countOf as = (ls.map (·.count)).sum
  | [], [], _ => rfl
  | a :: as, l :: ls, t => by
    have ih := count_trees t.2
    unfold Heap.countOf at ih ⊢
    simp only [List.map_cons, List.sum_cons, ih]
    rw [t.1.1]; rfl
  | [], _ :: _, t => t.elim
  | _ :: _, [], t => t.elim

theorem volume_trees {h : Heap} {k : Kind} : ∀ {as : List Nat} {ls : List Level}, Trees (LevelRep h k) as ls → h.volumeOf as = (ls.map (·.total)).sum
  | [], [], _ => rfl
  | a :: as, l :: ls, t => by
    have ih := volume_trees t.2
    unfold Heap.volumeOf at ih ⊢
    simp only [List.map_cons, List.sum_cons, ih]
    rw [t.1.1]; rfl
  | [], _ :: _, t => t.elim
  | _ :: _, [], t => t.elim

theorem R.trees {f : Seat} {s : Core} {hs : HCore} (r : R W f s hs) (k : Kind) : Trees (LevelRep hs.heap k) (hs.heap.tree (hs.slot, k)) (s.book.lv k) := by
  have := r.rep.trees (hs.slot, k)
  rw [lvs_at] at this; exact this

theorem R.kindCount {f : Seat} {s : Core} {hs : HCore} (r : R W f s hs) (k : Kind) : hs.kindCount k = Core.kindCount s.book k := by
  unfold HCore.kindCount Core.kindCount
  show hs.heap.countOf (hs.heap.tree (hs.slot, k)) = _
  rw [count_trees (r.trees k)]
  congr 1
  exact List.map_congr_left (fun l hl => r.count hl)

theorem R.kindVolume {f : Seat} {s : Core} {hs : HCore} (r : R W f s hs) (k : Kind) : hs.kindVolume k = Core.kindVolume s.book k := volume_trees (r.trees k)

theorem R.treeLength {f : Seat} {s : Core} {hs : HCore} (r : R W f s hs) (k : Kind) : (hs.heap.tree (hs.slot, k)).length = (s.book.lv k).length := (r.trees k).length

theorem R.stopCount {f : Seat} {s : Core} {hs : HCore} (r : R W f s hs) : hs.stopCount = Core.stopCount s.book := by
  unfold HCore.stopCount Core.stopCount; simp only [r.kindCount]

theorem R.matchFuel {f : Seat} {s : Core} {hs : HCore} (r : R W f s hs) : hs.matchFuel = Core.matchFuel s.book := by
  unfold HCore.matchFuel Core.matchFuel Core.volume; simp only [r.kindVolume, r.stopCount]

theorem levelsSize_eq (ls : List Level) : Core.levelsSize ls = (ls.map (fun l => l.ids.length)).sum + ls.length := by
  unfold Core.levelsSize
  induction ls with
  | nil => rfl
  | cons l ls ih => simp only [List.map_cons, List.sum_cons, List.length_cons, ih]; omega

theorem R.sizeOf {f : Seat} {s : Core} {hs : HCore} (r : R W f s hs) {k : Kind} {pre ls : List Level} (hx : s.book.lv k = pre ++ ls) : Core.levelsSize ls ≤ hs.sizeOf k := by
  have h1 := r.kindCount k
  have h2 := r.treeLength k
  unfold HCore.kindCount at h1
  unfold HCore.sizeOf
  rw [h1]
  show _ ≤ _ + (hs.heap.tree (hs.slot, k)).length
  rw [h2, levelsSize_eq]
  unfold Core.kindCount
  rw [hx]
  simp only [List.map_append, List.sum_append, List.length_append]
  omega

theorem chainCross_run {f : Seat} {s : Core} {hs : HCore} (r : R W f s hs) {bids asks pb pa : List Level} {bl al res : Nat} (hb : s.book.lv .bid = pb ++ bids)
    (ha : s.book.lv .ask = pa ++ asks) (hp : LP hs.heap (hs.slot, .bid) (some bl) bids) (hq : LP hs.heap (hs.slot, .ask) (some al) asks)
    (run : s.chainCross bids asks = .ok res) : hs.chainCross bl al = .ok res := by
  have fb := r.front hb hp
  have fa := r.front ha hq
  have sb := front_some hb
  have sa := front_some ha
  have zb := r.sizeOf hb
  have za := r.sizeOf ha
  have g1 : ∀ {req res}, s.chainPair (Core.levelsSize bids + Core.levelsSize asks + 1) asks bids (Core.frontIds asks) (Core.frontIds bids) req 0 = .ok res →
      hs.chainPair (hs.sizeOf .bid + hs.sizeOf .ask + 1) (some al) (some bl) (ptr hs.heap (Core.frontIds asks)) (ptr hs.heap (Core.frontIds bids)) req 0 = .ok res :=
    fun h => chainPair_run r rfl rfl _ (by omega) ha hb hq hp sa sb h
  have g2 : ∀ {req res}, s.chainPair (Core.levelsSize bids + Core.levelsSize asks + 1) bids asks (Core.frontIds bids) (Core.frontIds asks) req 0 = .ok res →
      hs.chainPair (hs.sizeOf .bid + hs.sizeOf .ask + 1) (some bl) (some al) (ptr hs.heap (Core.frontIds bids)) (ptr hs.heap (Core.frontIds asks)) req 0 = .ok res :=
    fun h => chainPair_run r rfl rfl _ (by omega) hb ha hp hq sb sa h
  unfold Core.chainCross at run
  unfold HCore.chainCross
  rw [fb, Except.bind_ok, fa, Except.bind_ok]
  generalize Core.frontIds bids = bi at *
  generalize Core.frontIds asks = ai at *
  cases bi with
  | nil => cases run
  | cons bid bi =>
    cases ai with
    | nil => cases run
    | cons ask ai =>
      obtain ⟨k1, p1, t1⟩ := sb
      obtain ⟨k2, p2, t2⟩ := sa
      obtain ⟨b, x, b1, b2, b3, _⟩ := r.first t1
      obtain ⟨a, y, a1, a2, a3, _⟩ := r.first t2
      have eb : ptr hs.heap (bid :: bi) = some b := b1
      have ea : ptr hs.heap (ask :: ai) = some a := a1
      dsimp only at run
      obtain ⟨o1, q1, run⟩ := bind_inv run
      have q1 := get_inv q1
      rw [b3] at q1
      have q1 := Option.some.inj q1
      subst q1
      obtain ⟨o2, q2, run⟩ := bind_inv run
      have q2 := get_inv q2
      rw [a3] at q2
      have q2 := Option.some.inj q2
      subst q2
      rw [eb, ea]
      show (hs.order b >>= fun b' => hs.order a >>= fun a' => _) = _
      unfold HCore.order
      rw [order_eq b2, Except.bind_ok, order_eq a2, Except.bind_ok]
      dsimp only at run ⊢
      by_cases c1 : (x.order.isAON && y.order.isAON) = true
      · rw [if_pos c1] at run ⊢
        by_cases c2 : y.order.leaves > x.order.leaves
        · rw [if_pos c2] at run ⊢; have z := g1 run; rw [ea, eb] at z; exact z
        · rw [if_neg c2] at run ⊢; have z := g2 run; rw [eb, ea] at z; exact z
      · rw [if_neg c1] at run ⊢
        by_cases c2 : y.order.isAON = true
        · rw [if_pos c2] at run ⊢; have z := g1 run; rw [ea, eb] at z; exact z
        · rw [if_neg c2] at run ⊢; have z := g2 run; rw [eb, ea] at z; exact z

/-! ### `ExecuteMatchingChain` -/

/-- The levels of collection `k` other than the one of price `p`. -/
structure At (k : Kind) (p : Nat) (pre ls : List Level) (b : Book) : Prop where
  other : ∀ v ∈ pre ++ ls, v.price ≠ p
  lv : b.lv k = pre ++ ls ∨ ∃ l, l.price = p ∧ b.lv k = pre ++ l :: ls

theorem Hit.at {f : Seat} {s s' : Core} {hs hs' : HCore} {id : Nat} (h : Hit W f s hs id s' hs') (r : R W f s hs) {k : Kind} {p : Nat} {rest : List Nat}
    (ht : Tail s.book k p (id :: rest)) {pre ls : List Level} (hat : At k p pre ls s.book) : At k p pre ls s'.book := by
  refine ⟨hat.other, ?_⟩
  obtain ⟨a, n, h1, h2, h3, h4, h5, h6, h7, h8⟩ := r.first ht
  rcases h.bump with q | ⟨k', b⟩
  · rw [q]; exact hat.lv
  · obtain ⟨L1, l, L2, l', e, hid, hp, hids, e'⟩ := b.place
    obtain ⟨o', g1, _, g3, g4⟩ := r.linked (k := k') (l := l) (by rw [e]; simp) hid
    rw [h3] at g1; cases g1
    rw [h6] at g3; cases g3
    have hlp : l.price = p := g4.symm.trans h7
    rcases hat.lv with q | ⟨m, hm, q⟩
    · exfalso
      refine hat.other l ?_ hlp
      rw [← q, e]; simp
    · rw [e] at q
      have hsp := sorted_mid (e ▸ (r.inv.book.kinds k).sorted)
      obtain ⟨e1, e2, e3⟩ := around hsp.left_ne hsp.right_ne (hm.trans hlp.symm) q
      rw [← e1, ← e3]
      rcases e' with e' | e'
      · exact .inr ⟨l', hp.trans hlp, e'⟩
      · exact .inl e'

theorem Hit.other {f : Seat} {s s' : Core} {hs hs' : HCore} {id : Nat} (h : Hit W f s hs id s' hs') (r : R W f s hs) {k : Kind} {p : Nat} {rest : List Nat}
    (ht : Tail s.book k p (id :: rest)) : ∀ k', k' ≠ k → s'.book.lv k' = s.book.lv k' := by
  obtain ⟨a, n, h1, h2, h3, h4, h5, h6, h7, h8⟩ := r.first ht
  intro k' hk'
  exact h.kind r h3 (fun e => hk' (by rw [h6] at e; cases e; rfl))

theorem execChainOrder_run {f : Seat} {s s' : Core} {hs : HCore} (r : R W f s hs) {id a price vol q : Nat} (ha : hs.heap.orders id = some a)
    (run : s.execChainOrder id price vol = .ok (s', q)) : ∃ hs', hs.execChainOrder a price vol = .ok (hs', q) ∧ Hit W f s hs id s' hs' := by
  unfold Core.execChainOrder at run
  obtain ⟨o, ho, run⟩ := bind_inv run
  have ho := get_inv ho
  obtain ⟨_, a', n, ha', hn, hno, hid⟩ := r.addr ho
  have := orders_some ha ha'
  subst this
  unfold HCore.execChainOrder
  rw [show hs.order a = .ok n from order_eq hn, Except.bind_ok, hno]
  by_cases hA : o.isAON = true
  · rw [if_pos hA] at run ⊢
    obtain ⟨s1, r1, run⟩ := bind_inv run
    obtain ⟨s2, r2, run⟩ := bind_inv run
    have run := Except.ok.inj run
    obtain ⟨e1, e2⟩ := Prod.mk.inj run
    subst e1; subst e2
    obtain ⟨hs1, n1, hs', q1, q2, q3, hh⟩ := execDel_run r ha r1 r2
    refine ⟨hs', ?_, hh⟩
    rw [q1, Except.bind_ok, q2, Except.bind_ok, q3]; rfl
  · rw [if_neg hA] at run ⊢
    obtain ⟨s1, r1, run⟩ := bind_inv run
    obtain ⟨s2, r2, run⟩ := bind_inv run
    have run := Except.ok.inj run
    obtain ⟨e1, e2⟩ := Prod.mk.inj run
    subst e1; subst e2
    obtain ⟨hs1, n1, hs', q1, q2, q3, hh⟩ := execRed_run r ha r1 r2
    refine ⟨hs', ?_, hh⟩
    rw [q1, Except.bind_ok, q2, Except.bind_ok, q3]; rfl

theorem execChainIds_run {f : Seat} {k : Kind} {p price : Nat} {pre ls : List Level} (ids : List Nat) : ∀ {s s' : Core} {hs : HCore} {n vol vol' : Nat}, R W f s hs →
    ids.length < n → Tail s.book k p ids → At k p pre ls s.book → Core.execChainIds price ids s vol = .ok (s', vol') →
    ∃ hs', HCore.execChainIds price n (ptr hs.heap ids) hs vol = .ok (hs', vol') ∧ Cut W f s hs f s' hs' ∧ At k p pre ls s'.book ∧
      (∀ k', k' ≠ k → s'.book.lv k' = s.book.lv k') := by
  induction ids with
  | nil =>
    intro s s' hs n vol vol' r hn _ hat run
    unfold Core.execChainIds at run
    obtain ⟨e1, e2⟩ := Prod.mk.inj (Except.ok.inj run)
    subst e1; subst e2
    cases n with
    | zero => cases hn
    | succ n => exact ⟨hs, rfl, .refl r, hat, fun _ _ => rfl⟩
  | cons id rest ih =>
    intro s s' hs n vol vol' r hn ht hat run
    cases n with
    | zero => cases hn
    | succ n =>
      obtain ⟨a, x, h1, h2, h3, h4, _⟩ := r.first ht
      have he : ptr hs.heap (id :: rest) = some a := h1
      rw [he]
      unfold Core.execChainIds at run
      unfold HCore.execChainIds
      by_cases h0 : vol = 0
      · rw [if_pos h0] at run ⊢
        obtain ⟨e1, e2⟩ := Prod.mk.inj (Except.ok.inj run)
        subst e1; subst e2
        exact ⟨hs, rfl, .refl r, hat, fun _ _ => rfl⟩
      · rw [if_neg h0] at run ⊢
        obtain ⟨⟨s1, q⟩, r1, run⟩ := bind_inv run
        obtain ⟨hs1, e1, hh⟩ := execChainOrder_run r h1 r1
        have ht' := hh.tail r ht
        obtain ⟨hs', e2, c2, hat2, oth⟩ := ih (n := n) hh.cut.r (by simp at hn; omega) ht' (hh.at r ht hat) run
        refine ⟨hs', ?_, hh.cut.trans c2, hat2, fun k' hk' => (oth k' hk').trans (hh.other r ht k' hk')⟩
        rw [show hs.order a = .ok x from order_eq h2, Except.bind_ok, e1, Except.bind_ok, h4, hh.cut.r.ptr_mono (f' := f) hh.cut.mono ht']
        exact e2

theorem Cut.lp {f f' : Seat} {s s' : Core} {hs hs' : HCore} (c : Cut W f s hs f' s' hs') {k : Kind} {pre ls : List Level} (hx : s'.book.lv k = pre ++ ls) {lp : Option Nat}
    (h : LP hs.heap (hs.slot, k) lp ls) : LP hs'.heap (hs'.slot, k) lp ls := by
  rw [c.slot]
  cases ls with
  | nil => exact h
  | cons l ls =>
    obtain ⟨la, e, hla⟩ := h
    refine ⟨la, e, c.keep _ _ _ hla ⟨l, ?_, rfl⟩⟩
    rw [← c.slot, lvs_at, hx]; simp

theorem execChain_run {f : Seat} {k : Kind} (hk : k.isLimit = true) {price : Nat} (ls : List Level) : ∀ {s s' : Core} {hs : HCore} {n vol : Nat} {pre : List Level} {lp : Option Nat},
    R W f s hs → ls.length < n → s.book.lv k = pre ++ ls → LP hs.heap (hs.slot, k) lp ls → Core.execChain price ls s vol = .ok s' →
    ∃ hs', HCore.execChain price n lp hs vol = .ok hs' ∧ Cut W f s hs f s' hs' ∧ (∀ k', k' ≠ k → s'.book.lv k' = s.book.lv k') := by
  induction ls with
  | nil =>
    intro s s' hs n vol pre lp r hn _ hp run
    unfold Core.execChain at run
    have run := Except.ok.inj run
    subst run
    cases n with
    | zero => cases hn
    | succ n =>
      have : lp = none := hp
      subst this
      exact ⟨hs, rfl, .refl r, fun _ _ => rfl⟩
  | cons l ls ih =>
    intro s s' hs n vol pre lp r hn hx hp run
    cases n with
    | zero => cases hn
    | succ n =>
      obtain ⟨la, e, hla, hlev, hnext⟩ := r.level hx hp
      have hl : l ∈ s.book.lv k := by rw [hx]; simp
      subst e
      unfold Core.execChain at run
      unfold HCore.execChain
      by_cases h0 : vol = 0
      · rw [if_pos h0] at run ⊢
        have run := Except.ok.inj run
        subst run
        exact ⟨hs, rfl, .refl r, fun _ _ => rfl⟩
      · rw [if_neg h0] at run ⊢
        obtain ⟨⟨s1, v1⟩, r1, run⟩ := bind_inv run
        have hsp := sorted_mid (hx ▸ (r.inv.book.kinds k).sorted)
        obtain ⟨hs1, e1, c1, hat, oth⟩ := execChainIds_run (k := k) (p := l.price) (pre := pre) (ls := ls) l.ids (n := (lnodeOf hs.heap k l).count + 1) r (by
          show _ < l.count + 1
          rw [r.count hl]; omega) (Tail.whole hl) ⟨(fun v hv => by
            rcases List.mem_append.mp hv with q | q
            · exact hsp.left_ne v q
            · exact hsp.right_ne v q), .inr ⟨l, rfl, hx⟩⟩ r1
        obtain ⟨pre', hx'⟩ : ∃ pre', s1.book.lv k = pre' ++ ls := by
          rcases hat.lv with q | ⟨m, _, q⟩
          · exact ⟨pre, q⟩
          · exact ⟨pre ++ [m], by rw [q]; simp⟩
        obtain ⟨hs', e2, c2, oth2⟩ := ih (n := n) c1.r (by simp at hn; omega) hx' (c1.lp hx' hnext) run
        refine ⟨hs', ?_, c1.trans c2, fun k' hk' => (oth2 k' hk').trans (oth k' hk')⟩
        rw [r.nextLimit hk hlev, Except.bind_ok, hlev, Except.bind_ok,
          show HCore.execChainIds price ((lnodeOf hs.heap k l).count + 1) (lnodeOf hs.heap k l).front hs vol = _ from e1, Except.bind_ok]
        exact e2

/-! ### `MatchOrder` -/

theorem matchLevel_run {k : Kind} {p : Nat} (ids : List Nat) : ∀ {f : Seat} {s s' : Core} {hs : HCore} {t t' : Order} {n : Nat} {ret : Bool}, R W f s hs → f.taker = some t →
    ids.length < n → Tail s.book k p ids → Core.matchLevel ids s t = .ok (s', t', ret) →
    ∃ hs', HCore.matchLevel f.loc n (ptr hs.heap ids) hs = .ok (hs', ret) ∧ Cut W f s hs (f.set t') s' hs' ∧ (∀ k', k' ≠ k → s'.book.lv k' = s.book.lv k') := by
  induction ids with
  | nil =>
    intro f s s' hs t t' n ret r ht hn _ run
    unfold Core.matchLevel at run
    have run := Except.ok.inj run
    obtain ⟨e1, e⟩ := Prod.mk.inj run
    obtain ⟨e2, e3⟩ := Prod.mk.inj e
    subst e1; subst e2; subst e3
    cases n with
    | zero => cases hn
    | succ n => exact ⟨hs, rfl, by rw [Seat.set_self ht]; exact .refl r, fun _ _ => rfl⟩
  | cons id rest ih =>
    intro f s s' hs t t' n ret r ht hn hT run
    cases n with
    | zero => cases hn
    | succ n =>
      obtain ⟨a, x, h1, h2, h3, h4, _⟩ := r.first hT
      have he : ptr hs.heap (id :: rest) = some a := h1
      rw [he]
      unfold Core.matchLevel at run
      unfold HCore.matchLevel
      obtain ⟨o, ho, run⟩ := bind_inv run
      have ho := get_inv ho
      rw [h3] at ho
      have ho := Option.some.inj ho
      subst ho
      rw [show hs.order a = .ok x from order_eq h2, Except.bind_ok, r.read ht, Except.bind_ok]
      dsimp only at run ⊢
      by_cases hc : (x.order.isAON && decide (x.order.leaves > t.leaves)) = true
      · rw [if_pos hc] at run ⊢
        have run := Except.ok.inj run
        obtain ⟨e1, e⟩ := Prod.mk.inj run
        obtain ⟨e2, e3⟩ := Prod.mk.inj e
        subst e1; subst e2; subst e3
        exact ⟨hs, rfl, by rw [Seat.set_self ht]; exact .refl r, fun _ _ => rfl⟩
      · rw [if_neg hc] at run ⊢
        obtain ⟨s1, r1, run⟩ := bind_inv run
        obtain ⟨s2, r2, run⟩ := bind_inv run
        obtain ⟨hs1, n1, hs2, q1, q2, q3, hh⟩ := execRed_run r h1 r1 r2
        obtain ⟨hs3, q4, c3, hoo⟩ := execTaker_run hh.cut.r ht x.order.price (min x.order.leaves t.leaves)
        have hlv3 : (s2.execTaker t x.order.price (min x.order.leaves t.leaves)).1.book.lv = s2.book.lv := execTaker_lv ..
        generalize s2.execTaker t x.order.price (min x.order.leaves t.leaves) = st at *
        obtain ⟨s3, t3⟩ := st
        have ht3 : (f.set t3).taker = some t3 := Seat.set_taker ht
        have hr3 := c3.r.read ht3
        rw [Seat.set_loc] at hr3
        rw [q1, Except.bind_ok, q2, Except.bind_ok, q3, Except.bind_ok, q4, Except.bind_ok, hr3, Except.bind_ok]
        dsimp only at run ⊢
        have oth3 : ∀ k', k' ≠ k → s3.book.lv k' = s.book.lv k' := by
          intro k' hk'
          have : s3.book.lv = s2.book.lv := hlv3
          rw [this]; exact hh.other r hT k' hk'
        by_cases hz : t3.leaves = 0
        · rw [if_pos hz] at run ⊢
          have run := Except.ok.inj run
          obtain ⟨e1, e⟩ := Prod.mk.inj run
          obtain ⟨e2, e3⟩ := Prod.mk.inj e
          subst e1; subst e2; subst e3
          exact ⟨hs3, rfl, hh.cut.trans c3, oth3⟩
        · rw [if_neg hz] at run ⊢
          have hT3 : Tail s3.book k p rest := (hh.tail r hT).same (by
            have : s3.book.lv = s2.book.lv := hlv3
            rw [this])
          obtain ⟨hs', e2, c4, oth4⟩ := ih (n := n) c3.r ht3 (by simp at hn; omega) hT3 run
          rw [Seat.set_loc] at e2
          rw [Seat.set_set] at c4
          refine ⟨hs', ?_, (hh.cut.trans c3).trans c4, fun k' hk' => (oth4 k' hk').trans (oth3 k' hk')⟩
          rw [h4, c3.r.ptr_mono (f' := f) (hh.cut.trans c3).mono hT3]
          exact e2

theorem oppKind_limit (t : Order) : (Core.oppKind t).isLimit = true := by unfold Core.oppKind; split <;> rfl

theorem matchOrderN_run (n : Nat) : ∀ {f : Seat} {s s' : Core} {hs : HCore} {t t' : Order}, R W f s hs → f.taker = some t → Core.matchOrderN n s t = .ok (s', t') →
    ∃ hs', HCore.matchOrderN f.loc n hs = .ok hs' ∧ Cut W f s hs (f.set t') s' hs' ∧ (∀ k', k'.isLimit = false → s'.book.lv k' = s.book.lv k') := by
  induction n with
  | zero => intro f s s' hs t t' _ _ run; unfold Core.matchOrderN at run; cases run
  | succ n ih =>
    intro f s s' hs t t' r ht run
    unfold Core.matchOrderN at run
    unfold HCore.matchOrderN
    dsimp only at run
    rw [r.read ht, Except.bind_ok]
    have hk := oppKind_limit t
    have hstop : ∀ k' : Kind, k'.isLimit = false → k' ≠ Core.oppKind t := by
      intro k' h e; rw [e, hk] at h; cases h
    rw [r.best] at run
    have htop := r.top (Core.oppKind t)
    generalize hkk : Core.oppKind t = k at *
    cases hx : s.book.lv k with
    | nil =>
      rw [hx] at run htop
      have hnone : hs.heap.best (hs.col k) = none := htop
      obtain ⟨e1, e2⟩ := Prod.mk.inj (Except.ok.inj run)
      subst e1; subst e2
      refine ⟨hs, ?_, by rw [Seat.set_self ht]; exact .refl r, fun _ _ => rfl⟩
      rw [hnone]
    | cons l ls =>
      rw [hx] at run htop
      obtain ⟨la, e, hla, hlev, hnext⟩ := r.level (pre := []) hx htop
      have e' : hs.heap.best (hs.col k) = some la := e
      have hl : l ∈ s.book.lv k := by rw [hx]; simp
      rw [e']
      dsimp only [List.head?_cons, Option.map_some] at run ⊢
      rw [hlev, Except.bind_ok]
      rw [levelsFrom_head] at run
      show ∃ hs', (if Core.reaches t l.price = true then _ else _) = _ ∧ _
      have hlp : LP hs.heap (hs.slot, k) (some la) (l :: ls) := ⟨la, rfl, hla⟩
      have hlen : (l :: ls).length < (hs.heap.tree (hs.col k)).length + 1 := by
        have := r.treeLength k
        rw [hx] at this
        show _ < (hs.heap.tree (hs.slot, k)).length + 1
        omega
      by_cases hreach : Core.reaches t l.price = true
      · rw [if_pos hreach] at run ⊢
        dsimp only at run ⊢
        by_cases hF : (t.isFOK || t.isAON) = true
        · rw [if_pos hF] at run ⊢
          obtain ⟨chain, h1, run⟩ := bind_inv run
          rw [chainLevels_run r hk (l :: ls) (pre := []) hlen hx hlp h1, Except.bind_ok]
          by_cases h0 : chain = 0
          · rw [if_pos h0] at run ⊢
            obtain ⟨e1, e2⟩ := Prod.mk.inj (Except.ok.inj run)
            subst e1; subst e2
            exact ⟨hs, rfl, by rw [Seat.set_self ht]; exact .refl r, fun _ _ => rfl⟩
          · rw [if_neg h0] at run ⊢
            obtain ⟨s1, h2, run⟩ := bind_inv run
            obtain ⟨hs1, q1, c1, oth1⟩ := execChain_run hk (l :: ls) (pre := []) r hlen hx hlp h2
            obtain ⟨hs2, q2, c2, _⟩ := execTaker_run c1.r ht t.price t.leaves
            have hlv : (s1.execTaker t t.price t.leaves).1.book.lv = s1.book.lv := execTaker_lv ..
            rw [Except.ok.inj run] at c2 hlv
            refine ⟨hs2, ?_, c1.trans c2, fun k' hk' => ?_⟩
            · rw [q1, Except.bind_ok, c1.r.read ht, Except.bind_ok]; exact q2
            · have : s'.book.lv = s1.book.lv := hlv
              rw [this]; exact oth1 k' (hstop k' hk')
        · rw [if_neg hF] at run ⊢
          obtain ⟨⟨s1, t1, ret⟩, h1, run⟩ := bind_inv run
          obtain ⟨hs1, q1, c1, oth1⟩ := matchLevel_run (k := k) (p := l.price) l.ids (n := (lnodeOf hs.heap k l).count + 1) r ht (by
            show _ < l.count + 1
            rw [r.count hl]; omega) (Tail.whole hl) h1
          rw [show HCore.matchLevel f.loc ((lnodeOf hs.heap k l).count + 1) (lnodeOf hs.heap k l).front hs = _ from q1, Except.bind_ok]
          dsimp only at run ⊢
          by_cases hr : ret = true
          · rw [if_pos hr] at run ⊢
            obtain ⟨e1, e2⟩ := Prod.mk.inj (Except.ok.inj run)
            subst e1; subst e2
            exact ⟨hs1, rfl, c1, fun k' hk' => oth1 k' (hstop k' hk')⟩
          · rw [if_neg hr] at run ⊢
            obtain ⟨hs2, q2, c2, oth2⟩ := ih c1.r (Seat.set_taker ht) run
            rw [Seat.set_loc] at q2
            rw [Seat.set_set] at c2
            exact ⟨hs2, q2, c1.trans c2, fun k' hk' => (oth2 k' hk').trans (oth1 k' (hstop k' hk'))⟩
      · rw [if_neg hreach] at run ⊢
        obtain ⟨e1, e2⟩ := Prod.mk.inj (Except.ok.inj run)
        subst e1; subst e2
        exact ⟨hs, rfl, by rw [Seat.set_self ht]; exact .refl r, fun _ _ => rfl⟩

theorem matchOrder_run {f : Seat} {s s' : Core} {hs : HCore} {t t' : Order} (r : R W f s hs) (ht : f.taker = some t) (run : s.matchOrder t = .ok (s', t')) :
    ∃ hs', hs.matchOrder f.loc = .ok hs' ∧ Cut W f s hs (f.set t') s' hs' ∧ (∀ k', k'.isLimit = false → s'.book.lv k' = s.book.lv k') := by
  unfold HCore.matchOrder
  rw [r.read ht, Except.bind_ok, r.kindCount]
  exact matchOrderN_run _ r ht run

theorem R.bestPrice {f : Seat} {s : Core} {hs : HCore} (r : R W f s hs) (k : Kind) : hs.bestPrice k = .ok (s.book.best k) := by
  rw [r.best]
  have htop := r.top k
  unfold HCore.bestPrice Heap.bestPrice
  cases hx : s.book.lv k with
  | nil =>
    rw [hx] at htop
    have hnone : hs.heap.best (hs.col k) = none := htop
    rw [hnone]; rfl
  | cons l ls =>
    rw [hx] at htop
    obtain ⟨la, e, hla, hlev, hnext⟩ := r.level (pre := []) hx htop
    have e' : hs.heap.best (hs.col k) = some la := e
    rw [e']
    show (hs.level la >>= fun l => _) = _
    rw [hlev]; rfl

theorem fly_price {s : Core} {t : Order} (h : Fly s t) {p : Nat} (hp : p < W64) : Fly s { t with price := p } := by
  refine ⟨?_, h.idPos, h.sym, h.vol, h.trail⟩
  have := h.repr
  unfold Order.Repr64 at *
  simp only; omega

end Ptr
end CppTrader
