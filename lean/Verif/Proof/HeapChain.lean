import Verif.Proof.HeapRec
/-
Matching chains on pointers.
-/

namespace CppTrader
namespace Ptr

variable {W : Col → List Level}

/-- The pointer to the first of some queued orders. -/
def ptr (h : Heap) (ids : List Nat) : Option Nat := ids.head?.bind h.orders

theorem ptr_nil (h : Heap) : ptr h [] = none := rfl

/-- The node of the next order to be visited. -/
theorem R.first {f : Seat} {s : Core} {hs : HCore} (r : R W f s hs) {k : Kind} {p id : Nat} {rest : List Nat} (ht : Tail s.book k p (id :: rest)) :
    ∃ a n, hs.heap.orders id = some a ∧ hs.heap.onode a = some n ∧ s.orders id = some n.order ∧ n.next = ptr hs.heap rest ∧ n.order.id = id ∧
      n.order.kind = some k ∧ n.order.key = p ∧ n.order.symbolId = s.book.symbol.id := by
  rcases ht with ht | ⟨l, hl, hp, hsuf⟩
  · cases ht
  · have hid : id ∈ l.ids := hsuf.subset List.mem_cons_self
    obtain ⟨o, h1, h2, h3, h4⟩ := r.linked hl hid
    obtain ⟨L1, L2, e⟩ := mem_split hl
    have hx : lvs W hs.slot s.book (hs.slot, k) = L1 ++ l :: L2 := by rw [lvs_at]; exact e
    obtain ⟨la, hla, A1, A2, _, _, hrep, _⟩ := r.rep.levelAt hx
    obtain ⟨a, n, q1, q2, q3, q4, q5⟩ := hrep.2 id hid
    obtain ⟨_, a', n', ha', hn', hno, hid'⟩ := r.addr h1
    have := orders_some q1 ha'
    subst this
    rw [q2] at hn'; cases hn'
    refine ⟨a, n, q1, q2, by rw [hno]; exact h1, ?_, by rw [hno]; exact hid', by rw [hno]; exact h3, by rw [hno]; exact h4.trans hp, by rw [hno]; exact h2⟩
    rw [q4]
    obtain ⟨pre, epre⟩ := hsuf
    have hnd := ((r.inv.book.kinds k).levels l hl).nodup
    rw [← epre] at hnd ⊢
    rw [succ_mid hnd]; rfl

theorem R.ptr_mono {f f' : Seat} {s : Core} {hs hs0 : HCore} (r : R W f s hs) (hm : ∀ i a, hs.heap.orders i = some a → hs0.heap.orders i = some a) {k : Kind} {p : Nat}
    {rest : List Nat} (ht : Tail s.book k p rest) : ptr hs0.heap rest = ptr hs.heap rest := by
  cases rest with
  | nil => rfl
  | cons j js =>
    obtain ⟨a, n, h1, _⟩ := r.first ht
    show hs0.heap.orders j = hs.heap.orders j
    rw [h1, hm j a h1]

/-! ### Level pointers -/

/-- A pointer to the first of some levels. -/
def LP (h : Heap) (x : Col) : Option Nat → List Level → Prop
  | lp, [] => lp = none
  | lp, l :: _ => ∃ la, lp = some la ∧ LAt h x la l.price

theorem LP.of_trees {h : Heap} {x : Col} {A : List Nat} {ls : List Level} (ht : Trees (LevelRep h x.2) A ls) (hm : ∀ a ∈ A, a ∈ h.tree x) : LP h x A.head? ls := by
  rcases ht.head with ⟨e1, e2⟩ | ⟨a, as, l, ls', e1, e2, hr, _⟩
  · rw [e1, e2]; rfl
  · rw [e1, e2]; exact ⟨a, rfl, hm a (by rw [e1]; exact List.mem_cons_self), _, hr.1, rfl⟩

theorem Rep.after {h : Heap} {M : Nat → Option Order} {lv : Col → List Level} {out : Option (Nat × Order)} (r : Rep h M lv out) {x : Col} {L1 L2 : List Level} {l : Level}
    (hx : lv x = L1 ++ l :: L2) {la : Nat} (hla : LAt h x la l.price) : h.lnode la = some (lnodeOf h x.2 l) ∧ LP h x (Heap.after (h.tree x) la) L2 := by
  obtain ⟨A1, A2, ht, t1, hrep, t2⟩ := r.lat hx hla
  refine ⟨hrep.1, ?_⟩
  have hnd := r.nodup x
  rw [ht] at hnd
  have hn1 : la ∉ A1 := fun hm => (List.nodup_append.mp hnd).2.2 la hm la List.mem_cons_self rfl
  rw [ht, after_mid hn1]
  exact LP.of_trees t2 (fun a ha => by rw [ht]; simp [ha])

/-- A level of the book. -/
theorem R.level {f : Seat} {s : Core} {hs : HCore} (r : R W f s hs) {k : Kind} {pre ls : List Level} {l : Level} (hx : s.book.lv k = pre ++ l :: ls) {lp : Option Nat}
    (hp : LP hs.heap (hs.slot, k) lp (l :: ls)) : ∃ la, lp = some la ∧ LAt hs.heap (hs.slot, k) la l.price ∧ hs.level la = .ok (lnodeOf hs.heap k l) ∧
      LP hs.heap (hs.slot, k) (Heap.after (hs.heap.tree (hs.slot, k)) la) ls := by
  obtain ⟨la, e, hla⟩ := hp
  obtain ⟨h1, h2⟩ := r.rep.after (x := (hs.slot, k)) (by rw [lvs_at]; exact hx) hla
  exact ⟨la, e, hla, level_eq h1, h2⟩

theorem R.count {f : Seat} {s : Core} {hs : HCore} (r : R W f s hs) {k : Kind} {l : Level} (hl : l ∈ s.book.lv k) : l.count = l.ids.length :=
  r.rep.count (hs.slot, k) l (by rw [lvs_at]; exact hl)

theorem R.top {f : Seat} {s : Core} {hs : HCore} (r : R W f s hs) (k : Kind) : LP hs.heap (hs.slot, k) (hs.heap.best (hs.slot, k)) (s.book.lv k) := by
  rw [r.rep.best (hs.slot, k)]
  have := r.rep.trees (hs.slot, k)
  rw [lvs_at] at this
  exact LP.of_trees this (fun a ha => ha)

theorem limit_col {k : Kind} (hk : k.isLimit = true) : (if k.isBidType then Kind.bid else .ask) = k := by cases k <;> first | rfl | cases hk

theorem R.nextLimit {f : Seat} {s : Core} {hs : HCore} (_ : R W f s hs) {k : Kind} (hk : k.isLimit = true) {la : Nat} {l : Level}
    (hl : hs.level la = .ok (lnodeOf hs.heap k l)) : hs.nextLimit la = .ok (Heap.after (hs.heap.tree (hs.slot, k)) la) := by
  unfold HCore.nextLimit
  rw [hl, Except.bind_ok]
  show Except.ok (Heap.after (hs.heap.tree (hs.col (if k.isBidType then .bid else .ask))) la) = _
  rw [limit_col hk]; rfl

theorem Tail.whole {b : Book} {k : Kind} {l : Level} (hl : l ∈ b.lv k) : Tail b k l.price l.ids := .inr ⟨l, hl, rfl, List.suffix_refl _⟩

/-! ### `CalculateMatchingChain` -/

theorem get_inv {s : Core} {id : Nat} {o : Order} (h : s.get id = .ok o) : s.orders id = some o := by
  unfold Core.get at h
  cases hc : s.orders id with
  | none => rw [hc] at h; cases h
  | some x => rw [hc] at h; rw [Except.ok.inj h]

theorem chainOrders_run {f : Seat} {s : Core} {hs : HCore} (r : R W f s hs) {vol : Nat} {k : Kind} {p : Nat} (ids : List Nat) : ∀ {n avail : Nat} {res : Nat ⊕ Nat},
    ids.length < n → Tail s.book k p ids → s.chainOrders vol ids avail = .ok res → hs.chainOrders vol n (ptr hs.heap ids) avail = .ok res := by
  induction ids with
  | nil =>
    intro n avail res hn _ run
    cases n with
    | zero => cases hn
    | succ n => exact run
  | cons id rest ih =>
    intro n avail res hn ht run
    cases n with
    | zero => cases hn
    | succ n =>
      obtain ⟨a, x, h1, h2, h3, h4, _⟩ := r.first ht
      unfold Core.chainOrders at run
      obtain ⟨o, ho, run⟩ := bind_inv run
      have ho := get_inv ho
      rw [h3] at ho
      have ho := Option.some.inj ho
      subst ho
      have he : ptr hs.heap (id :: rest) = some a := h1
      rw [he]
      unfold HCore.chainOrders HCore.order
      rw [order_eq h2, Except.bind_ok]
      dsimp only at run ⊢
      generalize add64 avail (if x.order.isAON then x.order.leaves else min x.order.leaves (sub64 vol avail)) = av at run ⊢
      split at run
      · rename_i hc; rw [if_pos hc]; exact run
      · rename_i hc
        rw [if_neg hc]
        split at run
        · rename_i hc2; rw [if_pos hc2]; exact run
        · rename_i hc2
          rw [if_neg hc2, h4]
          exact ih (by simp at hn; omega) ht.next run

theorem chainLevels_run {f : Seat} {s : Core} {hs : HCore} (r : R W f s hs) {k : Kind} (hk : k.isLimit = true) {price vol : Nat} (ls : List Level) :
    ∀ {n avail res : Nat} {pre : List Level} {lp : Option Nat}, ls.length < n → s.book.lv k = pre ++ ls → LP hs.heap (hs.slot, k) lp ls →
      s.chainLevels k price vol ls avail = .ok res → hs.chainLevels price vol n lp avail = .ok res := by
  induction ls with
  | nil =>
    intro n avail res pre lp hn _ hp run
    cases n with
    | zero => cases hn
    | succ n =>
      have : lp = none := hp
      rw [this]; exact run
  | cons l ls ih =>
    intro n avail res pre lp hn hx hp run
    cases n with
    | zero => cases hn
    | succ n =>
      obtain ⟨la, e, hla, hlev, hnext⟩ := r.level hx hp
      have hl : l ∈ s.book.lv k := by rw [hx]; simp
      rw [e]
      unfold HCore.chainLevels
      rw [hlev, Except.bind_ok]
      unfold Core.chainLevels at run
      show (if (if k.isBidType then price ≤ l.price else l.price ≤ price) then _ else _) = _
      by_cases hc : (if k.isBidType then price ≤ l.price else l.price ≤ price)
      · rw [if_pos hc] at run ⊢
        obtain ⟨x, hx1, run⟩ := bind_inv run
        have h2 := chainOrders_run r l.ids (n := (lnodeOf hs.heap k l).count + 1) (by
          show _ < l.count + 1
          rw [r.count hl]; omega) (Tail.whole hl) hx1
        show (hs.chainOrders vol ((lnodeOf hs.heap k l).count + 1) (ptr hs.heap l.ids) avail >>= _) = _
        rw [h2, Except.bind_ok]
        cases x with
        | inr c => exact run
        | inl av =>
          dsimp only at run ⊢
          rw [r.nextLimit hk hlev, Except.bind_ok]
          exact ih (by simp at hn; omega) (pre := pre ++ [l]) (by rw [hx]; simp) hnext run
      · rw [if_neg hc] at run ⊢
        exact run

/-- The pointer to the orders of a level pointer. -/
theorem R.front {f : Seat} {s : Core} {hs : HCore} (r : R W f s hs) {k : Kind} {pre ls : List Level} (hx : s.book.lv k = pre ++ ls) {lp : Option Nat}
    (hp : LP hs.heap (hs.slot, k) lp ls) : hs.front lp = .ok (ptr hs.heap (Core.frontIds ls)) := by
  cases ls with
  | nil =>
    have : lp = none := hp
    rw [this]; rfl
  | cons l ls =>
    obtain ⟨la, e, hla, hlev, hnext⟩ := r.level hx hp
    rw [e]
    show (hs.level la >>= fun l => .ok l.front) = _
    rw [hlev, Except.bind_ok]; rfl

/-- Orders to be visited at some level. -/
def Some (b : Book) (ids : List Nat) : Prop := ∃ k p, Tail b k p ids

theorem front_some {b : Book} {k : Kind} {pre ls : List Level} (hx : b.lv k = pre ++ ls) : Some b (Core.frontIds ls) := by
  cases ls with
  | nil => exact ⟨k, 0, .inl rfl⟩
  | cons l ls => exact ⟨k, l.price, Tail.whole (by rw [hx]; simp)⟩

theorem Some.next {b : Book} {i : Nat} {r : List Nat} (h : Some b (i :: r)) : Some b r := by
  obtain ⟨k, p, h⟩ := h; exact ⟨k, p, h.next⟩

theorem chainPair_run {f : Seat} {s : Core} {hs : HCore} (r : R W f s hs) {kl ks : Kind} (hkl : kl.isLimit = true) (hks : ks.isLimit = true) (n : Nat) :
    ∀ {m : Nat} {ll sl : List Level} {lo so : List Nat} {req avail res : Nat} {pl psl : List Level} {lp sp : Option Nat}, n ≤ m →
      s.book.lv kl = pl ++ ll → s.book.lv ks = psl ++ sl → LP hs.heap (hs.slot, kl) lp ll → LP hs.heap (hs.slot, ks) sp sl → Some s.book lo → Some s.book so →
      s.chainPair n ll sl lo so req avail = .ok res → hs.chainPair m lp sp (ptr hs.heap lo) (ptr hs.heap so) req avail = .ok res := by
  induction n with
  | zero => intro m ll sl lo so req avail res pl psl lp sp _ _ _ _ _ _ _ run; unfold Core.chainPair at run; cases run
  | succ n ih =>
    intro m ll sl lo so req avail res pl psl lp sp hm hl hs' hp hq hlo hso run
    cases m with
    | zero => omega
    | succ m =>
      have hm' : n ≤ m := by omega
      cases ll with
      | nil =>
        have e1 : lp = none := hp
        subst e1
        unfold HCore.chainPair
        unfold Core.chainPair at run
        exact run
      | cons l ll =>
        obtain ⟨la, e1, hla, hlev, hnext⟩ := r.level hl hp
        subst e1
        cases sl with
        | nil =>
          have e2 : sp = none := hq
          subst e2
          unfold HCore.chainPair
          unfold Core.chainPair at run
          exact run
        | cons m0 sl =>
          obtain ⟨sa, e2, hsa, hslev, hsnext⟩ := r.level hs' hq
          subst e2
          have hl2 : s.book.lv kl = (pl ++ [l]) ++ ll := by rw [hl]; simp
          have hs2 : s.book.lv ks = (psl ++ [m0]) ++ sl := by rw [hs']; simp
          have nl := r.nextLimit hkl hlev
          have ns := r.nextLimit hks hslev
          have fl := r.front hl2 hnext
          have fs := r.front hs2 hsnext
          cases lo with
          | nil =>
            cases so with
            | nil =>
              simp only [Core.chainPair] at run
              show hs.chainPair (m + 1) (some la) (some sa) none none req avail = _
              simp only [HCore.chainPair]
              rw [nl, Except.bind_ok, fl, Except.bind_ok, ns, Except.bind_ok, fs, Except.bind_ok]
              exact ih hm' hl2 hs2 hnext hsnext (front_some hl2) (front_some hs2) run
            | cons sid so =>
              obtain ⟨k2, p2, hso2⟩ := id hso
              obtain ⟨b, y, g1, g2, g3, g4, _⟩ := r.first hso2
              have es : ptr hs.heap (sid :: so) = some b := g1
              simp only [Core.chainPair] at run
              rw [es]
              show hs.chainPair (m + 1) (some la) (some sa) none (some b) req avail = _
              simp only [HCore.chainPair]
              rw [nl, Except.bind_ok, fl, Except.bind_ok, ← es]
              exact ih hm' hl2 hs' hnext hq (front_some hl2) hso run
          | cons lid lo =>
            obtain ⟨k1, p1, hlo2⟩ := id hlo
            obtain ⟨a, x, h1, h2, h3, h4, _⟩ := r.first hlo2
            have el : ptr hs.heap (lid :: lo) = some a := h1
            cases so with
            | nil =>
              simp only [Core.chainPair] at run
              rw [el]
              show hs.chainPair (m + 1) (some la) (some sa) (some a) none req avail = _
              simp only [HCore.chainPair]
              rw [ns, Except.bind_ok, fs, Except.bind_ok, ← el]
              exact ih hm' hl hs2 hp hsnext hlo (front_some hs2) run
            | cons sid so =>
              obtain ⟨k2, p2, hso2⟩ := id hso
              obtain ⟨b, y, g1, g2, g3, g4, _⟩ := r.first hso2
              have es : ptr hs.heap (sid :: so) = some b := g1
              simp only [Core.chainPair] at run
              obtain ⟨o, ho, run⟩ := bind_inv run
              have ho := get_inv ho
              rw [g3] at ho
              have ho := Option.some.inj ho
              subst ho
              rw [el, es]
              simp only [HCore.chainPair]
              unfold HCore.order
              rw [order_eq g2, Except.bind_ok]
              generalize add64 avail (if y.order.isAON then y.order.leaves else min y.order.leaves (sub64 req avail)) = av at run ⊢
              split at run
              · rename_i hc; rw [if_pos hc]; exact run
              · rename_i hc
                rw [if_neg hc]
                split at run
                · rename_i hc2
                  rw [if_pos hc2, order_eq h2, Except.bind_ok, h4, ← es]
                  exact ih hm' hl hs' hp hq hso hlo.next run
                · rename_i hc2
                  rw [if_neg hc2, g4, ← el]
                  exact ih hm' hl hs' hp hq hlo hso.next run

end Ptr
end CppTrader
