import Verif.Model.HeapManager
import Verif.Proof.HeapCore
/-
Releasing the levels of a book, and everything.
-/

namespace CppTrader
namespace Ptr

/-- The levels in the trees are allocated, each is in one place, and there are no others. -/
structure Stock (h : Heap) : Prop where
  live : ∀ x, ∀ a ∈ h.tree x, ∃ n, h.lnode a = some n
  nodup : ∀ x, (h.tree x).Nodup
  apart : ∀ x y a, a ∈ h.tree x → a ∈ h.tree y → x = y
  all : ∀ a n, h.lnode a = some n → ∃ x, a ∈ h.tree x

theorem Trees.mem {P : Nat → Level → Prop} {as : List Nat} {ls : List Level} (t : Trees P as ls) {a : Nat} (ha : a ∈ as) : ∃ l ∈ ls, P a l := by
  obtain ⟨A1, A2, e⟩ := split_of_mem ha
  obtain ⟨L1, l, L2, e2, _, h, _⟩ := t.left e
  exact ⟨l, by rw [e2]; simp, h⟩

theorem Rep.stock {h : Heap} {M : Nat → Option Order} {lv : Col → List Level} {out : Option (Nat × Order)} (r : Rep h M lv out) : Stock h := by
  refine ⟨?_, r.nodup, r.apart, fun a n hn => (r.lfull a n hn).2⟩
  intro x a ha
  obtain ⟨l, _, hl⟩ := (r.trees x).mem ha
  exact ⟨_, hl.1⟩

theorem releaseAll_eq : ∀ (L : List Nat) (h : Heap), L.Nodup → (∀ a ∈ L, ∃ n, h.lnode a = some n) →
    HMgr.releaseAll L h = .ok { h with lnode := fun a => if a ∈ L then none else h.lnode a }
  | [], h, _, _ => by
    unfold HMgr.releaseAll
    simp
  | a :: L, h, hnd, hl => by
    obtain ⟨n, hn⟩ := hl a List.mem_cons_self
    obtain ⟨h1, h2⟩ := List.nodup_cons.mp hnd
    unfold HMgr.releaseAll Heap.releaseLevel
    rw [hn]
    dsimp only
    rw [Except.bind_ok, releaseAll_eq L _ h2]
    · refine congrArg Except.ok ?_
      refine (Heap.mk.injEq ..).mpr ⟨rfl, rfl, ?_, rfl, rfl, rfl, rfl, rfl, rfl, rfl, rfl⟩
      funext b
      show (if b ∈ L then none else setX h.lnode a none b) = _
      by_cases e : b = a
      · subst e
        rw [if_neg h1, setX_same, if_pos List.mem_cons_self]
      · rw [setX_other _ _ e]
        by_cases e2 : b ∈ L
        · rw [if_pos e2, if_pos (List.mem_cons_of_mem _ e2)]
        · rw [if_neg e2, if_neg (by intro q; exact (List.mem_cons.mp q).elim e e2)]
    · intro b hb
      obtain ⟨m, hm⟩ := hl b (List.mem_cons_of_mem _ hb)
      exact ⟨m, (setX_other _ _ (show b ≠ a from fun e => h1 (e ▸ hb))).trans hm⟩

/-- The heap after the levels of one tree are released. -/
def cleared (h : Heap) (x : Col) : Heap :=
  { h with lnode := fun a => if a ∈ h.tree x then none else h.lnode a, tree := setX h.tree x [], best := setX h.best x none }

theorem Stock.clear {h : Heap} (s : Stock h) (x : Col) : HMgr.clear h x = .ok (cleared h x) ∧ Stock (cleared h x) := by
  refine ⟨?_, ?_, ?_, ?_, ?_⟩
  · unfold HMgr.clear
    rw [releaseAll_eq _ h (s.nodup x) (s.live x)]
    rfl
  · intro y a ha
    have ha' : a ∈ setX h.tree x [] y := ha
    by_cases e : y = x
    · rw [e, setX_same] at ha'; cases ha'
    · rw [setX_other _ _ e] at ha'
      obtain ⟨n, hn⟩ := s.live y a ha'
      refine ⟨n, ?_⟩
      show (if a ∈ h.tree x then none else h.lnode a) = _
      rw [if_neg (fun q => e (s.apart y x a ha' q))]; exact hn
  · intro y
    show (setX h.tree x [] y).Nodup
    by_cases e : y = x
    · rw [e, setX_same]; exact List.nodup_nil
    · rw [setX_other _ _ e]; exact s.nodup y
  · intro y z a hy hz
    have h1 : a ∈ setX h.tree x [] y := hy
    have h2 : a ∈ setX h.tree x [] z := hz
    by_cases e1 : y = x
    · rw [e1, setX_same] at h1; cases h1
    by_cases e2 : z = x
    · rw [e2, setX_same] at h2; cases h2
    rw [setX_other _ _ e1] at h1
    rw [setX_other _ _ e2] at h2
    exact s.apart y z a h1 h2
  · intro a n hn
    have hn' : (if a ∈ h.tree x then none else h.lnode a) = some n := hn
    by_cases e : a ∈ h.tree x
    · rw [if_pos e] at hn'; cases hn'
    rw [if_neg e] at hn'
    obtain ⟨y, hy⟩ := s.all a n hn'
    refine ⟨y, ?_⟩
    show a ∈ setX h.tree x [] y
    rw [setX_other _ _ (show y ≠ x from fun q => e (q ▸ hy))]; exact hy

theorem Rep.clear {h : Heap} {M : Nat → Option Order} {lv : Col → List Level} {out : Option (Nat × Order)} (r : Rep h M lv out) (x : Col) :
    Rep (cleared h x) M (setX lv x []) out := by
  have st := r.stock
  have st' := (st.clear x).2
  have hmem : ∀ {y l}, l ∈ setX lv x [] y → y ≠ x ∧ l ∈ lv y := by
    intro y l hl
    by_cases e : y = x
    · rw [e, setX_same] at hl; cases hl
    · rw [setX_other _ _ e] at hl; exact ⟨e, hl⟩
  refine ⟨r.back, r.fwd, r.full, r.outOk, ?_, ?_, st'.nodup, st'.apart, ?_, ?_, ?_, ?_, ?_⟩
  · intro y
    show Trees _ (setX h.tree x [] y) (setX lv x [] y)
    by_cases e : y = x
    · rw [e, setX_same, setX_same]; trivial
    · rw [setX_other _ _ e, setX_other _ _ e]
      refine (r.trees y).mono ?_
      intro a ha l hl q
      refine q.frame (r.idsNodup y l hl) ?_ (fun _ _ => rfl) (fun _ _ _ _ => rfl)
      show (if a ∈ h.tree x then none else h.lnode a) = _
      rw [if_neg (fun q => e (r.apart y x a ha q))]
  · intro a n hn
    have hn' : (if a ∈ h.tree x then none else h.lnode a) = some n := hn
    refine ⟨?_, st'.all a n hn⟩
    by_cases e : a ∈ h.tree x
    · rw [if_pos e] at hn'; cases hn'
    rw [if_neg e] at hn'
    exact (r.lfull a n hn').1
  · intro y
    show setX h.best x none y = (setX h.tree x [] y).head?
    by_cases e : y = x
    · rw [e, setX_same, setX_same]; rfl
    · rw [setX_other _ _ e, setX_other _ _ e]; exact r.best y
  · intro y
    by_cases e : y = x
    · rw [e, setX_same]; exact List.Pairwise.nil
    · rw [setX_other _ _ e]; exact r.sorted y
  · intro y l hl; exact r.idsNodup y l (hmem hl).2
  · intro y l hl; exact r.count y l (hmem hl).2
  · intro y l hl; exact r.mem y l (hmem hl).2

/-- The levels without those of the book in a slot. -/
def without (lv : Col → List Level) (i : Nat) : Col → List Level := fun x => if x.1 = i then [] else lv x

theorem without_eq (lv : Col → List Level) (i : Nat) :
    setX (setX (setX (setX (setX (setX lv (i, .bid) []) (i, .ask) []) (i, .buyStop) []) (i, .sellStop) []) (i, .tBuyStop) []) (i, .tSellStop) [] = without lv i := by
  funext x
  obtain ⟨j, k⟩ := x
  unfold without setX
  by_cases e : j = i
  · subst e; cases k <;> simp
  · simp [e]

theorem Rep.destroyBook {h : Heap} {M : Nat → Option Order} {lv : Col → List Level} {out : Option (Nat × Order)} (r : Rep h M lv out) (i : Nat) :
    ∃ h', HMgr.destroyBook h i = .ok h' ∧ Rep h' M (without lv i) out ∧ h'.orders = h.orders ∧ h'.onode = h.onode := by
  have r1 := r.clear (i, .bid)
  have r2 := r1.clear (i, .ask)
  have r3 := r2.clear (i, .buyStop)
  have r4 := r3.clear (i, .sellStop)
  have r5 := r4.clear (i, .tBuyStop)
  have r6 := r5.clear (i, .tSellStop)
  rw [without_eq] at r6
  refine ⟨_, ?_, r6, rfl, rfl⟩
  unfold HMgr.destroyBook
  rw [(r.stock.clear _).1, Except.bind_ok, (r1.stock.clear _).1, Except.bind_ok, (r2.stock.clear _).1, Except.bind_ok, (r3.stock.clear _).1, Except.bind_ok,
    (r4.stock.clear _).1, Except.bind_ok, (r5.stock.clear _).1]

theorem Stock.destroyBook {h : Heap} (s : Stock h) (i : Nat) :
    ∃ h', HMgr.destroyBook h i = .ok h' ∧ Stock h' ∧ (∀ x, x.1 = i → h'.tree x = []) ∧ (∀ x, h.tree x = [] → h'.tree x = []) ∧ h'.onode = h.onode ∧ h'.orders = h.orders := by
  have r1 := s.clear (i, .bid)
  have r2 := r1.2.clear (i, .ask)
  have r3 := r2.2.clear (i, .buyStop)
  have r4 := r3.2.clear (i, .sellStop)
  have r5 := r4.2.clear (i, .tBuyStop)
  have r6 := r5.2.clear (i, .tSellStop)
  refine ⟨_, ?_, r6.2, ?_, ?_, rfl, rfl⟩
  · unfold HMgr.destroyBook
    rw [r1.1, Except.bind_ok, r2.1, Except.bind_ok, r3.1, Except.bind_ok, r4.1, Except.bind_ok, r5.1, Except.bind_ok, r6.1]
  · rintro ⟨j, k⟩ e
    have e : j = i := e
    subst e
    cases k <;> simp [cleared, setX]
  · rintro ⟨j, k⟩ e
    simp only [cleared, setX]
    repeat' split
    all_goals first | rfl | exact e

theorem destroyBooks_ok (books : List (Option HBook)) : ∀ (is : List Nat) {h : Heap}, Stock h →
    ∃ h', HMgr.destroyBooks books is h = .ok h' ∧ Stock h' ∧ (∀ x, x.1 ∈ is → (slot books x.1).isSome → h'.tree x = []) ∧ (∀ x, h.tree x = [] → h'.tree x = []) ∧
      h'.onode = h.onode ∧ h'.orders = h.orders
  | [], h, s => ⟨h, rfl, s, fun _ hx => (by cases hx), fun _ hx => hx, rfl, rfl⟩
  | i :: is, h, s => by
    unfold HMgr.destroyBooks
    by_cases hi : (slot books i).isSome = true
    · obtain ⟨h1, e1, s1, t1, k1, n1, o1⟩ := s.destroyBook i
      obtain ⟨h2, e2, s2, t2, k2, n2, o2⟩ := destroyBooks_ok books is s1
      rw [if_pos hi, e1, Except.bind_ok]
      refine ⟨h2, e2, s2, ?_, fun x hx => k2 x (k1 x hx), n2.trans n1, o2.trans o1⟩
      intro x hx hb
      rcases List.mem_cons.mp hx with q | q
      · exact k2 x (t1 x q)
      · exact t2 x q hb
    · obtain ⟨h2, e2, s2, t2, k2, n2, o2⟩ := destroyBooks_ok books is s
      rw [if_neg hi]
      refine ⟨h2, e2, s2, ?_, k2, n2, o2⟩
      intro x hx hb
      rcases List.mem_cons.mp hx with q | q
      · rw [q] at hb; exact absurd hb hi
      · exact t2 x q hb

theorem releaseOrders_ok : ∀ (ids : List Nat) {h : Heap}, ids.Nodup → (∀ i ∈ ids, ∃ a n, h.orders i = some a ∧ h.onode a = some n) →
    (∀ i ∈ ids, ∀ j ∈ ids, h.orders i = h.orders j → i = j) →
    ∃ h', HMgr.releaseOrders ids h = .ok h' ∧ h'.tree = h.tree ∧ h'.lnode = h.lnode ∧ h'.orders = h.orders ∧
      (∀ a, h'.onode a = none ∨ (h'.onode a = h.onode a ∧ ∀ i ∈ ids, h.orders i ≠ some a))
  | [], h, _, _, _ => ⟨h, rfl, rfl, rfl, rfl, fun a => .inr ⟨rfl, fun _ hi => (by cases hi)⟩⟩
  | i :: is, h, hnd, hl, hinj => by
    obtain ⟨a, n, ha, hn⟩ := hl i List.mem_cons_self
    obtain ⟨h1, h2⟩ := List.nodup_cons.mp hnd
    unfold HMgr.releaseOrders Heap.deref
    rw [ha]
    dsimp only
    rw [Except.bind_ok]
    unfold Heap.releaseOrder
    rw [hn]
    dsimp only
    rw [Except.bind_ok]
    obtain ⟨h', e, q1, q2, q3, q4⟩ := releaseOrders_ok is (h := { h with onode := setX h.onode a none }) h2
      (by
        intro j hj
        obtain ⟨b, m, hb, hm⟩ := hl j (List.mem_cons_of_mem _ hj)
        refine ⟨b, m, hb, (setX_other _ _ ?_).trans hm⟩
        intro eb
        have := hinj i List.mem_cons_self j (List.mem_cons_of_mem _ hj) (by rw [ha, hb, eb])
        exact h1 (this ▸ hj))
      (fun j hj k hk => hinj j (List.mem_cons_of_mem _ hj) k (List.mem_cons_of_mem _ hk))
    refine ⟨h', e, q1, q2, q3, ?_⟩
    intro b
    rcases q4 b with q | ⟨q, w⟩
    · exact .inl q
    · by_cases eb : b = a
      · refine .inl (q.trans ?_)
        rw [eb]; exact setX_same _ _ _
      · refine .inr ⟨q.trans (setX_other _ _ eb), ?_⟩
        intro j hj
        rcases List.mem_cons.mp hj with z | z
        · rw [z, ha]; intro y; exact eb (Option.some.inj y).symm
        · exact w j z

end Ptr
end CppTrader
