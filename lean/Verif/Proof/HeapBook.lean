import Verif.Proof.HeapLevel
/-
The functions of order_book.cpp on pointers do what they do on lists.
-/

namespace CppTrader
namespace Ptr

variable {h h' : Heap} {M : Nat → Option Order} {lv : Col → List Level} {out : Option (Nat × Order)}

theorem Rep.top (r : Rep h M lv out) {x : Col} {la p : Nat} (hla : LAt h x la p) :
    (h.best x = some la) ↔ ((lv x).head?.map (·.price) = some p) := by
  rw [r.best x]
  rcases (r.trees x).head with ⟨e, _⟩ | ⟨a, as, l, ls, e1, e2, hr, _⟩
  · have := hla.1; rw [e] at this; cases this
  · have hat : LAt h x a l.price := ⟨by rw [e1]; exact List.mem_cons_self, _, hr.1, rfl⟩
    rw [e1, e2]
    show some a = some la ↔ some l.price = some p
    constructor
    · intro e
      rw [Option.some.inj e] at hat
      obtain ⟨_, n, hn, hp⟩ := hat
      obtain ⟨_, m, hm, hq⟩ := hla
      rw [hn] at hm; cases hm
      rw [← hp, hq]
    · intro e
      rw [Option.some.inj e] at hat
      rw [LAt.unique r hat hla]

theorem find_some {p : Nat} : ∀ {as : List Nat} {ls : List Level}, Trees (fun a l => ∃ n, h.lnode a = some n ∧ n.price = l.price) as ls →
    (∃ l ∈ ls, l.price = p) → ∃ a ∈ as, h.find p as = .ok (some a) ∧ ∃ n, h.lnode a = some n ∧ n.price = p
  | [], [], _, ⟨_, hl, _⟩ => by cases hl
  | [], _ :: _, t, _ => t.elim
  | _ :: _, [], t, _ => t.elim
  | a :: as, l :: ls, t, ⟨m, hm, hp⟩ => by
    obtain ⟨n, hn, hnp⟩ := t.1
    by_cases he : l.price = p
    · refine ⟨a, List.mem_cons_self, ?_, n, hn, hnp.trans he⟩
      unfold Heap.find
      rw [level_eq hn, Except.bind_ok, if_pos (hnp.trans he)]
    · obtain ⟨b, hb, q1, q2⟩ := find_some (p := p) t.2 ⟨m, (List.mem_cons.mp hm).resolve_left (fun e => he (e ▸ hp)), hp⟩
      refine ⟨b, List.mem_cons_of_mem _ hb, ?_, q2⟩
      unfold Heap.find
      rw [level_eq hn, Except.bind_ok, if_neg (fun e => he (hnp.symm.trans e))]
      exact q1

theorem find_none {p : Nat} : ∀ {as : List Nat} {ls : List Level}, Trees (fun a l => ∃ n, h.lnode a = some n ∧ n.price = l.price) as ls →
    (∀ l ∈ ls, l.price ≠ p) → h.find p as = .ok none
  | [], [], _, _ => rfl
  | [], _ :: _, t, _ => t.elim
  | _ :: _, [], t, _ => t.elim
  | a :: as, l :: ls, t, H => by
    obtain ⟨n, hn, hnp⟩ := t.1
    unfold Heap.find
    rw [level_eq hn, Except.bind_ok, if_neg (fun e => H l List.mem_cons_self (hnp.symm.trans e))]
    exact find_none t.2 (fun m hm => H m (List.mem_cons_of_mem _ hm))

/-- Levels stay where they are when only their contents change. -/
theorem LAt.stay {h h' : Heap} {x : Col} {la : Nat} {p : Nat} (ht : h'.tree = h.tree) (hp : ∃ n n', h.lnode la = some n ∧ h'.lnode la = some n' ∧ n'.price = n.price)
    (hl : ∀ b, b ≠ la → h'.lnode b = h.lnode b) {y : Col} {lb : Nat} (hh : LAt h y lb p) : LAt h' y lb p := by
  obtain ⟨hm, n, hn, hq⟩ := hh
  refine ⟨by rw [ht]; exact hm, ?_⟩
  by_cases e : lb = la
  · subst e
    obtain ⟨m, m', q1, q2, q3⟩ := hp
    rw [hn] at q1; cases q1
    exact ⟨m', q2, q3.trans hq⟩
  · exact ⟨n, (hl lb e).trans hn, hq⟩

/-- Queue an order at an existing level. -/
def pushTo (h : Heap) (la a : Nat) (o : Order) : Except Err Heap := do
  let h ← h.modLevel la (fun l => { l with total := add64 l.total o.leaves, hidden := add64 l.hidden o.hiddenQty, visible := add64 l.visible o.visibleQty })
  let h ← h.pushBack la a
  let h ← h.modLevel la (fun l => { l with count := l.count + 1 })
  h.modOrder a (fun n => { n with level := some la })

theorem pushTo_then {la a : Nat} {o : Order} (e : pushTo h la a o = .ok h') {α : Type} (f : Heap → Except Err α) :
    (do
      let h ← h.modLevel la (fun l => { l with total := add64 l.total o.leaves, hidden := add64 l.hidden o.hiddenQty, visible := add64 l.visible o.visibleQty })
      let h ← h.pushBack la a
      let h ← h.modLevel la (fun l => { l with count := l.count + 1 })
      let h ← h.modOrder a (fun n => { n with level := some la })
      f h : Except Err α) = f h' := by
  have := congrArg (· >>= f) e
  unfold pushTo at this
  simp only [bind_assoc] at this
  exact this

theorem push_spec (r : Rep h M lv out) {x : Col} {L1 L2 : List Level} {l : Level} (hx : lv x = L1 ++ l :: L2) {la i a : Nat} {o : Order}
    (hla : LAt h x la l.price) (hi : M i = some o) (ha : h.orders i = some a) (hl : ¬ Linked lv i) (hsym : o.symbolId = x.1)
    (hk : o.kind = some x.2) (hkey : o.key = l.price) :
    ∃ h', pushTo h la a o = .ok h' ∧ Rep h' M (setX lv x (L1 ++ l.push o :: L2)) out ∧ Steady h h' ∧
      h'.lnode la = some (lnodeOf h' x.2 (l.push o)) ∧ ∀ y lb q, LAt h y lb q → LAt h' y lb q := by
  obtain ⟨A1, A2, ht, t1, hrep, t2⟩ := r.lat hx hla
  obtain ⟨n, hn, hno, hid⟩ := r.nodeAt hi ha
  have hlx : l ∈ lv x := by rw [hx]; simp
  have hil : i ∉ l.ids := fun hm => hl ⟨x, l, hlx, hm⟩
  have hnd : (l.ids ++ [i]).Nodup := by
    rw [List.nodup_append]
    refine ⟨r.idsNodup x l hlx, by simp, ?_⟩
    intro b hb c hc e
    rw [List.mem_singleton] at hc
    exact hil (by rw [← hc, ← e]; exact hb)
  have hmemM : ∀ j ∈ l.ids ++ [i], ∃ o', M j = some o' ∧ o'.symbolId = x.1 ∧ o'.kind = some x.2 ∧ o'.key = l.price := by
    intro j hj
    rcases List.mem_append.mp hj with hj | hj
    · exact r.mem x l hlx j hj
    · rw [List.mem_singleton.mp hj]; exact ⟨o, hi, hsym, hk, hkey⟩
  have hinj : Inj h (l.ids ++ [i]) := r.ids_inj _ (fun j hj => let ⟨o', q, _⟩ := hmemM j hj; ⟨o', q⟩)
  let nl : LNode := { lnodeOf h x.2 l with total := add64 l.total o.leaves, hidden := add64 l.hidden o.hiddenQty, visible := add64 l.visible o.visibleQty }
  let h1 : Heap := { h with lnode := setX h.lnode la (some nl) }
  have s1 : h.modLevel la (fun l => { l with total := add64 l.total o.leaves, hidden := add64 l.hidden o.hiddenQty, visible := add64 l.visible o.visibleQty }) = .ok h1 := modLevel_eq hrep.1 _
  have hl1 : Links h1 la l.ids := hrep.2
  obtain ⟨h2, e2, st2, ln2, on2, or2, ⟨n2, hn2⟩, lk2⟩ := pushBack_spec (h := h1) (nl := nl) hl1 hnd hinj ha hn (setX_same _ _ _) rfl rfl
  have hln2 : h2.lnode la = some { nl with front := (l.ids ++ [i]).head?.bind h.orders, back := (l.ids ++ [i]).getLast?.bind h.orders } := by
    rw [ln2, setX_same]
  let nl3 : LNode := { nl with front := (l.ids ++ [i]).head?.bind h.orders, back := (l.ids ++ [i]).getLast?.bind h.orders, count := l.count + 1 }
  let h3 : Heap := { h2 with lnode := setX h2.lnode la (some nl3) }
  have s3 : h2.modLevel la (fun l => { l with count := l.count + 1 }) = .ok h3 := modLevel_eq hln2 _
  have s4 : h3.modOrder a (fun n => { n with level := some la }) = .ok (upd h3 (some a) (fun n => { n with level := some la })) := modOrder_eq (h := h3) hn2 _
  have hord : (upd h3 (some a) (fun n => { n with level := some la })).orders = h.orders := st2.orders
  have hst : Steady h (upd h3 (some a) (fun n => { n with level := some la })) := ⟨st2.orders, st2.tree, st2.best, st2.freshO, st2.freshL⟩
  have hlnew : (upd h3 (some a) (fun n => { n with level := some la })).lnode la = some (lnodeOf (upd h3 (some a) (fun n => { n with level := some la })) x.2 (l.push o)) := by
    show setX h2.lnode la (some nl3) la = _
    rw [setX_same]
    unfold lnodeOf
    rw [hord]
    unfold Level.push
    rw [hid]
    rfl
  have hlother : ∀ b, b ≠ la → (upd h3 (some a) (fun n => { n with level := some la })).lnode b = h.lnode b := by
    intro b hb
    show setX h2.lnode la (some nl3) b = _
    rw [setX_other _ _ hb, ln2, setX_other _ _ hb]
    show setX h.lnode la _ b = _
    rw [setX_other _ _ hb]
  have hids : (l.push o).ids = l.ids ++ [i] := by unfold Level.push; rw [hid]
  refine ⟨upd h3 (some a) (fun n => { n with level := some la }), ?_, ?_, hst, hlnew, ?_⟩
  · unfold pushTo
    rw [s1, Except.bind_ok, e2, Except.bind_ok, s3, Except.bind_ok]
    exact s4
  · refine r.relevel (l := l) (l' := l.push o) hx ht t1 t2 hst rfl hlother ⟨hlnew, ?_⟩ ?_ ?_ ?_ ?_ ?_ ?_ ⟨_, hrep.1⟩
    · rw [hids]
      exact lk2
    · intro b
      refine (upd_order (h := h3) (f := fun n => { n with level := some la }) (fun _ => rfl) b).trans ?_
      exact or2 b
    · intro b hb
      have hba : some a ≠ some b := by
        intro e
        exact hb i (List.mem_append_right _ (by rw [hids]; simp)) (by rw [ha, e])
      rw [upd_other hba]
      show h2.onode b = _
      exact on2 b (fun j hj => hb j (List.mem_append_right _ (by rw [hids]; exact hj)))
    · intro j hj
      rw [hids] at hj
      rcases List.mem_append.mp hj with hj | hj
      · exact .inl hj
      · rw [List.mem_singleton.mp hj]; exact .inr hl
    · intro j hj
      rw [hids] at hj
      exact hmemM j hj
    · rw [hids]; exact hnd
    · rw [hids, List.length_append, ← r.count x l hlx]; rfl
  · intro y lb q hq
    exact LAt.stay (x := x) (la := la) hst.tree ⟨_, _, hrep.1, hlnew, rfl⟩ hlother hq

theorem Rep.level_of (r : Rep h M lv out) {x : Col} {p : Nat} {l : Level} (hf : findLevel (lv x) p = some l) :
    ∃ L1 L2, lv x = L1 ++ l :: L2 ∧ l.price = p ∧ Split x.2 L1 l.price L2 := by
  obtain ⟨L1, L2, e, hp, h1, h2⟩ := findLevel_some (r.sorted x) hf
  exact ⟨L1, L2, e, hp, hp ▸ h1, hp ▸ h2⟩

/-- order_book.cpp:128-155 on pointers. -/
theorem addOrder_spec (r : Rep h M lv out) {x : Col} {b : Book} (hb : b.lv x.2 = lv x) (hbest : b.best x.2 = (lv x).head?.map (·.price))
    {i a : Nat} {o : Order} (hi : M i = some o) (ha : h.orders i = some a) (hl : ¬ Linked lv i) (hsym : o.symbolId = x.1) (hk : o.kind = some x.2) :
    ∃ h', h.addOrder x a = .ok (h', (b.addOrder x.2 o).2) ∧ Rep h' M (setX lv x ((b.addOrder x.2 o).1.lv x.2)) out ∧
      h'.orders = h.orders ∧ ∀ y lb q, LAt h y lb q → LAt h' y lb q := by
  obtain ⟨n, hn, hno, hid⟩ := r.nodeAt hi ha
  cases hf : findLevel (lv x) o.key with
  | some l =>
    obtain ⟨L1, L2, e, hp, hsp⟩ := r.level_of hf
    obtain ⟨la, hla, hfind, hlp⟩ := find_some (p := o.key) (Trees.prices r x) ⟨l, (findLevel_mem hf).1, hp⟩
    have hat : LAt h x la l.price := ⟨hla, by rw [hp]; exact hlp⟩
    obtain ⟨h', e', r', st, hln, hst⟩ := push_spec r e hat hi ha hl hsym hk hp.symm
    have hbk : b.addOrder x.2 o = ({ b with lv := setK b.lv x.2 (replaceLevel (l.push o) (b.lv x.2)) }, ⟨.update, (l.push o).info x.2, decide (b.best x.2 = some o.key)⟩) := by
      unfold Book.addOrder; rw [hb, hf]
    have hlv : (b.addOrder x.2 o).1.lv x.2 = L1 ++ l.push o :: L2 := by
      rw [hbk]
      show setK b.lv x.2 (replaceLevel (l.push o) (b.lv x.2)) x.2 = _
      unfold setK
      rw [if_pos rfl, hb, e]
      exact replaceLevel_mid hsp rfl
    refine ⟨h', ?_, by rw [hlv]; exact r', st.orders, hst⟩
    unfold Heap.addOrder
    rw [order_eq hn, Except.bind_ok, hno, hfind, Except.bind_ok]
    dsimp only
    rw [Except.bind_ok]
    dsimp only
    refine (pushTo_then e' _).trans ?_
    rw [level_eq hln, Except.bind_ok, hbk]
    congr 3
    rw [decide_eq_decide, r'.top (x := x) (p := o.key) (by rw [← hp]; exact hst x la l.price hat), setX_same, hbest, e]
    cases L1 <;> rfl
  | none =>
    have hno' : ∀ l ∈ lv x, l.price ≠ o.key := findLevel_none.mp hf
    have hfind := find_none (Trees.prices r x) hno'
    obtain ⟨h1, L1, L2, e1, e2, e5, r1, ho1, hon1, hla1, hst1⟩ := addLevel_spec r hno'
    have hl1 : ¬ Linked (setX lv x (L1 ++ Level.new o.key :: L2)) i := by
      rintro ⟨y, m, hm, hj⟩
      by_cases hy : y = x
      · subst hy
        rw [setX_same] at hm
        rcases List.mem_append.mp hm with q | q
        · exact hl ⟨y, m, by rw [e2]; exact List.mem_append_left _ q, hj⟩
        · rcases List.mem_cons.mp q with q | q
          · rw [q] at hj; cases hj
          · exact hl ⟨y, m, by rw [e2]; exact List.mem_append_right _ q, hj⟩
      · rw [setX_other _ _ hy] at hm; exact hl ⟨y, m, hm, hj⟩
    obtain ⟨h', e', r', st, hln, hst⟩ := push_spec r1 (x := x) (L1 := L1) (L2 := L2) (l := Level.new o.key) (by rw [setX_same]) hla1 hi (by rw [ho1]; exact ha) hl1 hsym hk rfl
    have hbk : b.addOrder x.2 o = (b.addLevel x.2 ((Level.new o.key).push o), ⟨.add, ((Level.new o.key).push o).info x.2, decide ((b.addLevel x.2 ((Level.new o.key).push o)).best x.2 = some o.key)⟩) := by
      unfold Book.addOrder; rw [hb, hf]
    have hlv : (b.addOrder x.2 o).1.lv x.2 = L1 ++ (Level.new o.key).push o :: L2 := by
      rw [hbk]
      show setK b.lv x.2 (insertLevel x.2 ((Level.new o.key).push o) (b.lv x.2)) x.2 = _
      unfold setK
      rw [if_pos rfl, hb]
      exact e5 _ rfl
    have hbst : (b.addLevel x.2 ((Level.new o.key).push o)).best x.2 = (L1 ++ (Level.new o.key).push o :: L2).head?.map (·.price) := by
      rw [← e5 ((Level.new o.key).push o) rfl]
      show setK b.best x.2 _ x.2 = _
      unfold setK
      rw [if_pos rfl, hbest]
      cases hlx : lv x with
      | nil => rfl
      | cons m ms =>
        show (if x.2.better _ m.price then _ else _) = _
        unfold insertLevel
        split <;> rfl
    refine ⟨h', ?_, by rw [hlv, ← setX_setX lv x (L1 ++ Level.new o.key :: L2)]; exact r', st.orders.trans ho1, fun y lb q hq => hst y lb q (hst1 y lb q hq)⟩
    unfold Heap.addOrder
    rw [order_eq hn, Except.bind_ok, hno, hfind, Except.bind_ok]
    dsimp only
    rw [e1, Except.bind_ok]
    dsimp only
    rw [Except.bind_ok]
    dsimp only
    refine (pushTo_then e' _).trans ?_
    rw [level_eq hln, Except.bind_ok, hbk]
    congr 3
    rw [decide_eq_decide, r'.top (x := x) (p := o.key) (hst x h.newL o.key hla1), setX_same, hbst]

theorem setK_same {α : Type} (f : Kind → α) (k : Kind) (v : α) : setK f k v k = v := by unfold setK; rw [if_pos rfl]
theorem setK_other' {α : Type} (f : Kind → α) {k k' : Kind} (v : α) (e : k' ≠ k) : setK f k v k' = f k' := by unfold setK; rw [if_neg e]

/-- order_book.cpp:172-186 on pointers. -/
theorem settle_spec (r : Rep h M lv out) {x : Col} {b : Book} {L1 L2 : List Level} {l l' : Level} {la i a : Nat} {n : ONode}
    (hb : b.lv x.2 = L1 ++ l :: L2) (hbest : b.best x.2 = (L1 ++ l :: L2).head?.map (·.price)) (hp : l'.price = l.price)
    (hsp : Split x.2 L1 l.price L2) (hx : lv x = L1 ++ l' :: L2) (hla : LAt h x la l'.price) (ha : h.orders i = some a)
    (hon : h.onode a = some n) (hil : ∀ y m, m ∈ lv y → i ∈ m.ids → y = x ∧ m.price = l'.price) :
    ∃ h', h.settle x la a = .ok (h', (b.settle x.2 l').2) ∧ Rep h' M (setX lv x ((b.settle x.2 l').1.lv x.2)) out ∧
      h'.orders = h.orders ∧ ∀ y lb q, LAt h y lb q → (∃ m ∈ setX lv x ((b.settle x.2 l').1.lv x.2) y, m.price = q) → LAt h' y lb q := by
  obtain ⟨A1, A2, ht, t1, hrep, t2⟩ := r.lat hx hla
  unfold Heap.settle Book.settle
  rw [level_eq hrep.1, Except.bind_ok]
  have hsp' : Split x.2 L1 l'.price L2 := hp.symm ▸ hsp
  by_cases h0 : l'.total = 0
  · have h0' : (lnodeOf h x.2 l').total = 0 := h0
    rw [if_pos h0, if_pos h0']
    obtain ⟨h1, e1, r1, ho1, hon1, hst1⟩ := deleteLevel_spec r hx hla
    rw [e1, Except.bind_ok]
    have hn1 : h1.onode a = some n := by rw [hon1]; exact hon
    rw [modOrder_eq hn1, Except.bind_ok]
    have hlv : (b.deleteLevel x.2 l'.price).lv x.2 = L1 ++ L2 := by
      show setK b.lv x.2 _ x.2 = _
      rw [setK_same, hb, hp]
      exact eraseLevel_mid hsp
    dsimp only
    rw [hlv]
    have hMi : M i = some n.order ∧ n.order.id = i := by
      obtain ⟨n', q1, q2, q3⟩ := r.back i a ha
      rw [hon] at q1; cases q1
      exact ⟨q3, q2⟩
    have hun : ¬ Linked (setX lv x (L1 ++ L2)) i := by
      rintro ⟨y, m, hm, hj⟩
      by_cases hy : y = x
      · subst hy
        rw [setX_same] at hm
        have hmp : m ∈ lv y ∧ m.price ≠ l'.price := by
          rw [hx]
          rcases List.mem_append.mp hm with q | q
          · exact ⟨List.mem_append_left _ q, hsp'.left_ne m q⟩
          · exact ⟨List.mem_append_right _ (List.mem_cons_of_mem _ q), hsp'.right_ne m q⟩
        exact hmp.2 (hil y m hmp.1 hj).2
      · rw [setX_other _ _ hy] at hm
        exact hy (hil y m hm hj).1
    refine ⟨_, rfl, ?_, ho1, ?_⟩
    · have := r1.touch (i := i) (f := fun n => { n with level := none }) (by rw [ho1]; exact ha) hn1 hMi.2 (fun hk => absurd hk hun)
      rw [setO_self hMi.1] at this
      exact this
    · intro y lb q hq hex
      have hst : LAt h1 y lb q := by
        refine hst1 y lb q hq ?_
        intro e
        cases e
        obtain ⟨m, hm, hmp⟩ := hex
        rw [setX_same] at hm
        rcases List.mem_append.mp hm with q | q
        · exact hsp'.left_ne m q hmp
        · exact hsp'.right_ne m q hmp
      exact hst
  · have h0' : ¬ (lnodeOf h x.2 l').total = 0 := h0
    rw [if_neg h0, if_neg h0']
    have hlv : replaceLevel l' (b.lv x.2) = L1 ++ l' :: L2 := by
      rw [hb]; exact replaceLevel_mid hsp hp
    dsimp only
    rw [setK_same, hlv]
    refine ⟨h, ?_, ?_, rfl, fun _ _ _ hq _ => hq⟩
    · congr 3
      rw [decide_eq_decide, r.top hla, hx, hbest, hp]
      cases L1 with
      | nil => show some l'.price = _ ↔ _; rw [hp]; rfl
      | cons m ms => rfl
    · have : setX lv x (L1 ++ l' :: L2) = lv := by
        funext y; unfold setX; split
        · rename_i e; rw [e, hx]
        · rfl
      rw [this]; exact r

/-- order_book.cpp:194-201 on pointers: subtract and unlink. -/
theorem pull_spec (r : Rep h M lv out) {x : Col} {L1 L2 : List Level} {l l' : Level} (hx : lv x = L1 ++ l :: L2) {la i a : Nat}
    (hla : LAt h x la l.price) (ha : h.orders i = some a) (hil : i ∈ l.ids) {T H V : Nat}
    (hl' : l' = { l with total := T, hidden := H, visible := V, count := l.count - 1, ids := l.ids.erase i }) (f : LNode → LNode)
    (hf : f (lnodeOf h x.2 l) = { lnodeOf h x.2 l with total := T, hidden := H, visible := V }) :
    ∃ h', (do
        let h ← h.modLevel la f
        let h ← h.popCurrent la a
        h.modLevel la (fun l => { l with count := l.count - 1 }) : Except Err Heap) = .ok h' ∧
      Rep h' M (setX lv x (L1 ++ l' :: L2)) out ∧ Steady h h' ∧ (∀ b, (h'.onode b).map (·.order) = (h.onode b).map (·.order)) ∧
      LAt h' x la l'.price ∧ ∀ y lb q, LAt h y lb q → LAt h' y lb q := by
  obtain ⟨A1, A2, ht, t1, hrep, t2⟩ := r.lat hx hla
  have hlx : l ∈ lv x := by rw [hx]; simp
  have hnd := r.idsNodup x l hlx
  have hinj : Inj h l.ids := r.ids_inj _ (fun j hj => let ⟨o', q, _⟩ := r.mem x l hlx j hj; ⟨o', q⟩)
  let nl : LNode := { lnodeOf h x.2 l with total := T, hidden := H, visible := V }
  let h1 : Heap := { h with lnode := setX h.lnode la (some nl) }
  have s1 : h.modLevel la f = .ok h1 := by rw [modLevel_eq hrep.1, hf]
  have hl1 : Links h1 la l.ids := hrep.2
  obtain ⟨h2, e2, st2, ln2, on2, or2, lk2⟩ := popCurrent_spec (h := h1) (nl := nl) hl1 hnd hinj hil ha (setX_same _ _ _) rfl rfl
  have hln2 : h2.lnode la = some { nl with front := (l.ids.erase i).head?.bind h.orders, back := (l.ids.erase i).getLast?.bind h.orders } := by
    rw [ln2, setX_same]
  let nl3 : LNode := { nl with front := (l.ids.erase i).head?.bind h.orders, back := (l.ids.erase i).getLast?.bind h.orders, count := l.count - 1 }
  let h3 : Heap := { h2 with lnode := setX h2.lnode la (some nl3) }
  have s3 : h2.modLevel la (fun l => { l with count := l.count - 1 }) = .ok h3 := modLevel_eq hln2 _
  have hst : Steady h h3 := ⟨st2.orders, st2.tree, st2.best, st2.freshO, st2.freshL⟩
  have hlnew : h3.lnode la = some (lnodeOf h3 x.2 l') := by
    show setX h2.lnode la (some nl3) la = _
    rw [setX_same]
    unfold lnodeOf
    rw [hst.orders, hl']
    rfl
  have hlother : ∀ b, b ≠ la → h3.lnode b = h.lnode b := by
    intro b hb
    show setX h2.lnode la (some nl3) b = _
    rw [setX_other _ _ hb, ln2, setX_other _ _ hb]
    show setX h.lnode la _ b = _
    rw [setX_other _ _ hb]
  have hids : l'.ids = l.ids.erase i := by rw [hl']
  have hstay : ∀ y lb q, LAt h y lb q → LAt h3 y lb q := fun y lb q hq =>
    LAt.stay (x := x) (la := la) hst.tree ⟨_, _, hrep.1, hlnew, by rw [hl']; rfl⟩ hlother hq
  refine ⟨h3, ?_, ?_, hst, ?_, ?_, hstay⟩
  · rw [s1, Except.bind_ok, e2, Except.bind_ok]; exact s3
  · refine r.relevel (l := l) (l' := l') hx ht t1 t2 hst (by rw [hl']) hlother ⟨hlnew, ?_⟩ ?_ ?_ ?_ ?_ ?_ ?_ ⟨_, hrep.1⟩
    · rw [hids]; exact lk2
    · exact or2
    · intro b hb
      exact on2 b (fun j hj => hb j (List.mem_append_left _ hj))
    · intro j hj
      rw [hids] at hj
      exact .inl (List.mem_of_mem_erase hj)
    · intro j hj
      rw [hids] at hj
      exact r.mem x l hlx j (List.mem_of_mem_erase hj)
    · rw [hids]; exact hnd.erase _
    · rw [hids, List.length_erase_of_mem hil, ← r.count x l hlx, hl']
  · exact or2
  · have : l'.price = l.price := by rw [hl']
    rw [this]; exact hstay x la _ hla

/-- Only the volumes change. -/
theorem volumes_spec (r : Rep h M lv out) {x : Col} {L1 L2 : List Level} {l l' : Level} (hx : lv x = L1 ++ l :: L2) {la : Nat}
    (hla : LAt h x la l.price) {T H V : Nat}
    (hl' : l' = { l with total := T, hidden := H, visible := V }) (f : LNode → LNode)
    (hf : f (lnodeOf h x.2 l) = { lnodeOf h x.2 l with total := T, hidden := H, visible := V }) :
    ∃ h', h.modLevel la f = .ok h' ∧
      Rep h' M (setX lv x (L1 ++ l' :: L2)) out ∧ Steady h h' ∧ (∀ b, (h'.onode b).map (·.order) = (h.onode b).map (·.order)) ∧
      LAt h' x la l'.price ∧ ∀ y lb q, LAt h y lb q → LAt h' y lb q := by
  obtain ⟨A1, A2, ht, t1, hrep, t2⟩ := r.lat hx hla
  have hlx : l ∈ lv x := by rw [hx]; simp
  let nl : LNode := { lnodeOf h x.2 l with total := T, hidden := H, visible := V }
  let h1 : Heap := { h with lnode := setX h.lnode la (some nl) }
  have s1 : h.modLevel la f = .ok h1 := by rw [modLevel_eq hrep.1, hf]
  have hst : Steady h h1 := ⟨rfl, rfl, rfl, rfl, rfl⟩
  have hlnew : h1.lnode la = some (lnodeOf h1 x.2 l') := by
    show setX h.lnode la (some nl) la = _
    rw [setX_same, hl']
    rfl
  have hlother : ∀ b, b ≠ la → h1.lnode b = h.lnode b := fun b hb => setX_other _ _ hb
  have hids : l'.ids = l.ids := by rw [hl']
  have hstay : ∀ y lb q, LAt h y lb q → LAt h1 y lb q := fun y lb q hq =>
    LAt.stay (x := x) (la := la) hst.tree ⟨_, _, hrep.1, hlnew, by rw [hl']; rfl⟩ hlother hq
  refine ⟨h1, s1, ?_, hst, fun _ => rfl, ?_, hstay⟩
  · refine r.relevel (l := l) (l' := l') hx ht t1 t2 hst (by rw [hl']) hlother ⟨hlnew, ?_⟩ (fun _ => rfl) (fun _ _ => rfl) ?_ ?_ ?_ ?_ ⟨_, hrep.1⟩
    · rw [hids]; exact hrep.2
    · intro j hj; rw [hids] at hj; exact .inl hj
    · intro j hj; rw [hids] at hj; exact r.mem x l hlx j hj
    · rw [hids]; exact r.idsNodup x l hlx
    · rw [hids, ← r.count x l hlx, hl']
  · have : l'.price = l.price := by rw [hl']
    rw [this]; exact hstay x la _ hla

theorem Rep.levelPtr (r : Rep h M lv out) {x : Col} {L1 L2 : List Level} {l : Level} (hx : lv x = L1 ++ l :: L2) {i a : Nat} {n : ONode}
    (ha : h.orders i = some a) (hn : h.onode a = some n) (hil : i ∈ l.ids) : ∃ la, n.level = some la ∧ LAt h x la l.price := by
  obtain ⟨la, hla, A1, A2, _, _, hrep, _⟩ := r.levelAt hx
  obtain ⟨b, m, q1, q2, q3, _⟩ := hrep.2 i hil
  rw [ha] at q1; cases q1
  rw [hn] at q2; cases q2
  exact ⟨la, q3, hla⟩

/-- order_book.cpp:189-216 on pointers. -/
theorem deleteOrder_spec (r : Rep h M lv out) {x : Col} {b b' : Book} {u : LevelUpdate} (hb : b.lv x.2 = lv x)
    (hbest : b.best x.2 = (lv x).head?.map (·.price)) {i a : Nat} {o : Order} (hi : M i = some o) (ha : h.orders i = some a)
    (run : b.deleteOrder x.2 o = .ok (b', u)) :
    ∃ h', h.deleteOrder x a = .ok (h', u) ∧ Rep h' M (setX lv x (b'.lv x.2)) out ∧ ¬ Linked (setX lv x (b'.lv x.2)) i ∧
      h'.orders = h.orders ∧ ∀ y lb q, LAt h y lb q → (∃ m ∈ setX lv x (b'.lv x.2) y, m.price = q) → LAt h' y lb q := by
  obtain ⟨n, hn, hno, hid⟩ := r.nodeAt hi ha
  unfold Book.deleteOrder at run
  rw [hb] at run
  cases hf : findLevel (lv x) o.key with
  | none => rw [hf] at run; cases run
  | some l =>
    rw [hf] at run
    dsimp only at run
    split at run
    · rename_i hil
      rw [hid] at hil
      have run := Except.ok.inj run
      obtain ⟨L1, L2, e, hp, hsp⟩ := r.level_of hf
      obtain ⟨la, hlev, hla⟩ := r.levelPtr e ha hn hil
      obtain ⟨h1, e1, r1, st1, or1, hla1, hst1⟩ := pull_spec r e hla ha hil (l' := l.remove o) (T := sub64 l.total o.leaves) (H := sub64 l.hidden o.hiddenQty) (V := sub64 l.visible o.visibleQty)
        (by unfold Level.remove; rw [hid]) (fun l => { l with total := sub64 l.total o.leaves, hidden := sub64 l.hidden o.hiddenQty, visible := sub64 l.visible o.visibleQty }) rfl
      have hn1 : ∃ n1, h1.onode a = some n1 := by
        have := or1 a
        rw [hn] at this
        cases hc : h1.onode a with
        | none => rw [hc] at this; cases this
        | some n1 => exact ⟨n1, rfl⟩
      obtain ⟨n1, hn1⟩ := hn1
      have hun : ∀ y m, m ∈ setX lv x (L1 ++ l.remove o :: L2) y → i ∉ m.ids := by
        intro y m hm hj
        by_cases hy : y = x
        · subst hy
          rw [setX_same] at hm
          have hcase : m = l.remove o ∨ (m ∈ lv y ∧ m.price ≠ l.price) := by
            rw [e]
            rcases List.mem_append.mp hm with q | q
            · exact .inr ⟨List.mem_append_left _ q, hsp.left_ne m q⟩
            · rcases List.mem_cons.mp q with q | q
              · exact .inl q
              · exact .inr ⟨List.mem_append_right _ (List.mem_cons_of_mem _ q), hsp.right_ne m q⟩
          rcases hcase with q | ⟨q1, q2⟩
          · rw [q] at hj
            have hj' : i ∈ l.ids.erase i := by unfold Level.remove at hj; rw [hid] at hj; exact hj
            exact (List.Nodup.not_mem_erase (r.idsNodup y l (by rw [e]; simp))) hj'
          · exact q2 (r.alone q1 hj (by rw [e]; simp) hil).2
        · rw [setX_other _ _ hy] at hm
          exact hy (r.alone hm hj (show l ∈ lv x by rw [e]; simp) hil).1
      obtain ⟨h2, e2, r2, ho2, hst2⟩ := settle_spec r1 (b := b) (x := x) (l := l) (l' := l.remove o) (L1 := L1) (L2 := L2) (i := i) (a := a) (n := n1)
        (hb.trans e) (by rw [hbest, e]) rfl hsp (by rw [setX_same]) hla1 (by rw [st1.orders]; exact ha) hn1 (fun y m hm hj => absurd hj (hun y m hm))
      rw [setX_setX, run] at r2
      rw [setX_setX, run] at hst2
      rw [run] at e2
      refine ⟨h2, ?_, r2, ?_, ho2.trans st1.orders, fun y lb q hq hex => hst2 y lb q (hst1 y lb q hq) hex⟩
      · unfold Heap.deleteOrder
        rw [order_eq hn, Except.bind_ok, hlev]
        show (do
          let h ← h.modLevel la (fun l => { l with total := sub64 l.total n.order.leaves, hidden := sub64 l.hidden n.order.hiddenQty, visible := sub64 l.visible n.order.visibleQty })
          let h ← h.popCurrent la a
          let h ← h.modLevel la (fun l => { l with count := l.count - 1 })
          h.settle x la a : Except Err (Heap × LevelUpdate)) = _
        rw [hno]
        have hass : ∀ {α : Type} (f : Heap → Except Err α), (do
            let h ← h.modLevel la (fun l => { l with total := sub64 l.total o.leaves, hidden := sub64 l.hidden o.hiddenQty, visible := sub64 l.visible o.visibleQty })
            let h ← h.popCurrent la a
            let h ← h.modLevel la (fun l => { l with count := l.count - 1 })
            f h : Except Err α) = f h1 := by
          intro α f
          have := congrArg (· >>= f) e1
          simp only [bind_assoc] at this
          exact this
        rw [hass]
        exact e2
      · rintro ⟨y, m, hm, hj⟩
        have hsub : ∃ m' ∈ setX lv x (L1 ++ l.remove o :: L2) y, i ∈ m'.ids := by
          by_cases hy : y = x
          · subst hy
            rw [setX_same] at hm ⊢
            rw [← show (b.settle y.2 (l.remove o)).1 = b' from by rw [run]] at hm
            unfold Book.settle at hm
            split at hm
            · dsimp only [Book.deleteLevel] at hm
              rw [setK_same, hb, e, show (l.remove o).price = l.price from rfl, eraseLevel_mid hsp] at hm
              refine ⟨m, ?_, hj⟩
              rcases List.mem_append.mp hm with q | q
              · exact List.mem_append_left _ q
              · exact List.mem_append_right _ (List.mem_cons_of_mem _ q)
            · dsimp only at hm
              rw [setK_same, hb, e, replaceLevel_mid (n := l.remove o) hsp rfl] at hm
              exact ⟨m, hm, hj⟩
          · rw [setX_other _ _ hy] at hm ⊢
            exact ⟨m, hm, hj⟩
        obtain ⟨m', hm', hj'⟩ := hsub
        exact hun y m' hm' hj'
    · cases run

theorem still_node {h h' : Heap} (or1 : ∀ b, (h'.onode b).map (·.order) = (h.onode b).map (·.order)) {a : Nat} {n : ONode} (hn : h.onode a = some n) :
    ∃ n1, h'.onode a = some n1 ∧ n1.order = n.order := by
  have := or1 a
  rw [hn] at this
  cases hc : h'.onode a with
  | none => rw [hc] at this; cases this
  | some n1 => rw [hc] at this; exact ⟨n1, rfl, Option.some.inj this⟩

/-- The order is at no other level than the given one. -/
theorem Rep.only (r : Rep h M lv out) {x : Col} {L1 L2 : List Level} {l l' : Level} (e : lv x = L1 ++ l :: L2) (hsp : Split x.2 L1 l.price L2)
    (hp : l'.price = l.price) {i : Nat} (hil : i ∈ l.ids) : ∀ y m, m ∈ setX lv x (L1 ++ l' :: L2) y → i ∈ m.ids → y = x ∧ m = l' := by
  intro y m hm hj
  by_cases hy : y = x
  · subst hy
    rw [setX_same] at hm
    have hcase : m = l' ∨ (m ∈ lv y ∧ m.price ≠ l.price) := by
      rw [e]
      rcases List.mem_append.mp hm with q | q
      · exact .inr ⟨List.mem_append_left _ q, hsp.left_ne m q⟩
      · rcases List.mem_cons.mp q with q | q
        · exact .inl q
        · exact .inr ⟨List.mem_append_right _ (List.mem_cons_of_mem _ q), hsp.right_ne m q⟩
    rcases hcase with q | ⟨q1, q2⟩
    · exact ⟨rfl, q⟩
    · exact absurd (r.alone q1 hj (by rw [e]; simp) hil).2 q2
  · rw [setX_other _ _ hy] at hm
    exact absurd (r.alone hm hj (show l ∈ lv x by rw [e]; simp) hil).1 hy

/-- order_book.cpp:157-187 on pointers. -/
theorem reduceOrder_spec (r : Rep h M lv out) {x : Col} {b b' : Book} {u : LevelUpdate} (hb : b.lv x.2 = lv x)
    (hbest : b.best x.2 = (lv x).head?.map (·.price)) {i a q hd v : Nat} {o : Order} (hi : M i = some o) (ha : h.orders i = some a)
    (run : b.reduceOrder x.2 o q hd v = .ok (b', u)) :
    ∃ h', h.reduceOrder x a q hd v = .ok (h', u) ∧ Rep h' M (setX lv x (b'.lv x.2)) out ∧ (o.leaves = 0 → ¬ Linked (setX lv x (b'.lv x.2)) i) ∧
      h'.orders = h.orders ∧ ∀ y lb q, LAt h y lb q → (∃ m ∈ setX lv x (b'.lv x.2) y, m.price = q) → LAt h' y lb q := by
  obtain ⟨n, hn, hno, hid⟩ := r.nodeAt hi ha
  unfold Book.reduceOrder at run
  rw [hb] at run
  cases hf : findLevel (lv x) o.key with
  | none => rw [hf] at run; cases run
  | some l =>
    rw [hf] at run
    dsimp only at run
    split at run
    · rename_i hil
      rw [hid] at hil
      have run := Except.ok.inj run
      obtain ⟨L1, L2, e, hp, hsp⟩ := r.level_of hf
      obtain ⟨la, hlev, hla⟩ := r.levelPtr e ha hn hil
      have key : ∃ h1, (do
            let h ← h.modLevel la (fun l => { l with total := sub64 l.total q, hidden := sub64 l.hidden hd, visible := sub64 l.visible v })
            (if o.leaves = 0 then do
              let h ← h.popCurrent la a
              h.modLevel la (fun l => { l with count := l.count - 1 })
            else .ok h : Except Err Heap) : Except Err Heap) = .ok h1 ∧
          Rep h1 M (setX lv x (L1 ++ l.reduce o q hd v :: L2)) out ∧ Steady h h1 ∧ (∀ b, (h1.onode b).map (·.order) = (h.onode b).map (·.order)) ∧
          LAt h1 x la (l.reduce o q hd v).price ∧ (∀ y lb q, LAt h y lb q → LAt h1 y lb q) ∧ (o.leaves = 0 → i ∉ (l.reduce o q hd v).ids) := by
        by_cases h0 : o.leaves = 0
        · obtain ⟨h1, e1, q1, q2, q3, q4, q5⟩ := pull_spec r e hla ha hil (l' := l.reduce o q hd v) (T := sub64 l.total q) (H := sub64 l.hidden hd) (V := sub64 l.visible v)
            (by unfold Level.reduce; rw [hid, if_pos h0, if_pos h0]) (fun l => { l with total := sub64 l.total q, hidden := sub64 l.hidden hd, visible := sub64 l.visible v }) rfl
          refine ⟨h1, ?_, q1, q2, q3, q4, q5, ?_⟩
          · simp only [if_pos h0]; exact e1
          · intro _ hj
            have hj' : i ∈ l.ids.erase i := by unfold Level.reduce at hj; simp only [hid, if_pos h0] at hj; exact hj
            exact (List.Nodup.not_mem_erase (r.idsNodup x l (by rw [e]; simp))) hj'
        · obtain ⟨h1, e1, q1, q2, q3, q4, q5⟩ := volumes_spec r e hla (l' := l.reduce o q hd v) (T := sub64 l.total q) (H := sub64 l.hidden hd) (V := sub64 l.visible v)
            (by unfold Level.reduce; rw [if_neg h0, if_neg h0]) (fun l => { l with total := sub64 l.total q, hidden := sub64 l.hidden hd, visible := sub64 l.visible v }) rfl
          refine ⟨h1, ?_, q1, q2, q3, q4, q5, fun h => absurd h h0⟩
          simp only [if_neg h0]
          rw [e1]; rfl
      obtain ⟨h1, e1, r1, st1, or1, hla1, hst1, hgone⟩ := key
      obtain ⟨n1, hn1, _⟩ := still_node or1 hn
      have honly := r.only e hsp (l' := l.reduce o q hd v) rfl hil
      obtain ⟨h2, e2, r2, ho2, hst2⟩ := settle_spec r1 (b := b) (x := x) (l := l) (l' := l.reduce o q hd v) (L1 := L1) (L2 := L2) (i := i) (a := a) (n := n1)
        (hb.trans e) (by rw [hbest, e]) rfl hsp (by rw [setX_same]) hla1 (by rw [st1.orders]; exact ha) hn1 (fun y m hm hj => ⟨(honly y m hm hj).1, by rw [(honly y m hm hj).2]⟩)
      rw [setX_setX, run] at r2
      rw [setX_setX, run] at hst2
      rw [run] at e2
      refine ⟨h2, ?_, r2, ?_, ho2.trans st1.orders, fun y lb q hq hex => hst2 y lb q (hst1 y lb q hq) hex⟩
      · unfold Heap.reduceOrder
        rw [order_eq hn, Except.bind_ok, hlev]
        show (do
          let h ← h.modLevel la (fun l => { l with total := sub64 l.total q, hidden := sub64 l.hidden hd, visible := sub64 l.visible v })
          let h ← (if n.order.leaves = 0 then do
              let h ← h.popCurrent la a
              h.modLevel la (fun l => { l with count := l.count - 1 })
            else .ok h : Except Err Heap)
          h.settle x la a : Except Err (Heap × LevelUpdate)) = _
        rw [hno]
        have := congrArg (· >>= (fun h => Heap.settle h x la a)) e1
        simp only [bind_assoc] at this
        exact this.trans e2
      · intro h0
        rintro ⟨y, m, hm, hj⟩
        have hsub : ∃ m' ∈ setX lv x (L1 ++ l.reduce o q hd v :: L2) y, i ∈ m'.ids := by
          by_cases hy : y = x
          · subst hy
            rw [setX_same] at hm ⊢
            rw [← show (b.settle y.2 (l.reduce o q hd v)).1 = b' from by rw [run]] at hm
            unfold Book.settle at hm
            split at hm
            · dsimp only [Book.deleteLevel] at hm
              rw [setK_same, hb, e, show (l.reduce o q hd v).price = l.price from rfl, eraseLevel_mid hsp] at hm
              refine ⟨m, ?_, hj⟩
              rcases List.mem_append.mp hm with q | q
              · exact List.mem_append_left _ q
              · exact List.mem_append_right _ (List.mem_cons_of_mem _ q)
            · dsimp only at hm
              rw [setK_same, hb, e, replaceLevel_mid (n := l.reduce o q hd v) hsp rfl] at hm
              exact ⟨m, hm, hj⟩
          · rw [setX_other _ _ hy] at hm ⊢
            exact ⟨m, hm, hj⟩
        obtain ⟨m', hm', hj'⟩ := hsub
        obtain ⟨q1, q2⟩ := honly y m' hm' hj'
        rw [q2] at hj'
        exact hgone h0 hj'
    · cases run

end Ptr
end CppTrader
