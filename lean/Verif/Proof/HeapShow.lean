import Verif.Proof.HeapMgr
import Verif.Pointers
/-
From the representation of a manager to the specification of its pointers.
-/

namespace CppTrader
namespace Ptr

/-- The addresses of the orders. -/
def addrs (h : Heap) (L : List Nat) : List Nat := L.filterMap h.orders

theorem chain_of {h : Heap} {dir : ONode → Option Nat} {L : List Nat} (hnd : L.Nodup)
    (hl : ∀ i ∈ L, ∃ a n, h.orders i = some a ∧ h.onode a = some n ∧ dir n = (succId L i).bind h.orders) :
    ∀ (suf pre : List Nat), L = pre ++ suf → h.Chain dir (suf.head?.bind h.orders) (addrs h suf)
  | [], _, _ => .nil
  | i :: suf, pre, e => by
    obtain ⟨a, n, h1, h2, h3⟩ := hl i (by rw [e]; simp)
    have hs : succId L i = suf.head? := by
      rw [e]; exact succ_mid (by rw [← e]; exact hnd)
    rw [hs] at h3
    have ih := chain_of hnd hl suf (pre ++ [i]) (by rw [e]; simp)
    show h.Chain dir (h.orders i) (addrs h (i :: suf))
    have : addrs h (i :: suf) = a :: addrs h suf := by
      unfold addrs; rw [List.filterMap_cons, h1]
    rw [this, h1]
    refine .cons h2 ?_
    rw [h3]; exact ih

theorem addrs_reverse (h : Heap) (L : List Nat) : addrs h L.reverse = (addrs h L).reverse := by
  unfold addrs; rw [List.filterMap_reverse]

theorem addrs_all {h : Heap} : ∀ {L : List Nat}, (∀ i ∈ L, ∃ a, h.orders i = some a) →
    (addrs h L).map h.onode = L.map (fun i => (h.orders i).bind h.onode) ∧ (addrs h L).length = L.length
  | [], _ => ⟨rfl, rfl⟩
  | i :: L, H => by
    obtain ⟨a, ha⟩ := H i List.mem_cons_self
    obtain ⟨h1, h2⟩ := addrs_all (L := L) (fun j hj => H j (List.mem_cons_of_mem _ hj))
    have : addrs h (i :: L) = a :: addrs h L := by unfold addrs; rw [List.filterMap_cons, ha]
    rw [this]
    refine ⟨?_, by rw [List.length_cons, List.length_cons, h2]⟩
    rw [List.map_cons, List.map_cons, h1, ha]; rfl

theorem LevelRep.shows {h : Heap} {k : Kind} {a : Nat} {l : Level} (r : LevelRep h k a l) (hnd : l.ids.Nodup) : h.ShowsLevel k a l := by
  obtain ⟨h1, h2⟩ := r
  have e1 := addrs_all (h := h) (L := l.ids) (fun i hi => by obtain ⟨b, n, q, _⟩ := h2 i hi; exact ⟨b, q⟩)
  refine ⟨lnodeOf h k l, addrs h l.ids, h1, rfl, ?_, ?_, e1.1, e1.2, ?_⟩
  · refine chain_of hnd ?_ l.ids [] rfl
    intro i hi
    obtain ⟨b, n, q1, q2, _, q4, _⟩ := h2 i hi
    exact ⟨b, n, q1, q2, q4⟩
  · rw [← addrs_reverse]
    have : (lnodeOf h k l).back = l.ids.reverse.head?.bind h.orders := by
      rw [List.head?_reverse]; rfl
    rw [this]
    refine chain_of (rev_nodup hnd) ?_ l.ids.reverse [] rfl
    intro i hi
    obtain ⟨b, n, q1, q2, _, _, q5⟩ := h2 i (List.mem_reverse.mp hi)
    exact ⟨b, n, q1, q2, q5⟩
  · intro b hb
    obtain ⟨i, hi, q⟩ := List.mem_filterMap.mp hb
    obtain ⟨c, n, q1, q2, q3, _⟩ := h2 i hi
    rw [q] at q1
    cases q1
    exact ⟨n, q2, q3⟩

theorem Trees.get {P : Nat → Level → Prop} : ∀ {as : List Nat} {ls : List Level}, Trees P as ls → ∀ (j a : Nat) (l : Level), as[j]? = some a → ls[j]? = some l → P a l ∧ l ∈ ls
  | [], [], _, j, a, l, h1, _ => by simp at h1
  | [], _ :: _, t, _, _, _, _, _ => t.elim
  | _ :: _, [], t, _, _, _, _, _ => t.elim
  | b :: as, m :: ls, t, j, a, l, h1, h2 => by
    cases j with
    | zero =>
      simp only [List.getElem?_cons_zero, Option.some.injEq] at h1 h2
      subst h1 h2
      exact ⟨t.1, List.mem_cons_self⟩
    | succ j =>
      simp only [List.getElem?_cons_succ] at h1 h2
      obtain ⟨q1, q2⟩ := Trees.get t.2 j a l h1 h2
      exact ⟨q1, List.mem_cons_of_mem _ q2⟩

theorem all_some {books : List (Option Book)} {i : Nat} {b : Book} (hb : slot books i = some b) (k : Kind) : allLevels books (i, k) = b.lv k := by
  unfold allLevels; rw [hb]; rfl

theorem all_none {books : List (Option Book)} {i : Nat} (hb : slot books i = none) (k : Kind) : allLevels books (i, k) = [] := by
  unfold allLevels; rw [hb]; rfl

theorem G.shows {g : Mgr} {s : HMgr} (G0 : G g s) : s.Shows g := by
  refine ⟨G0.symbols, G0.matching, G0.ev, ?_, ?_, ?_, fun i k => G0.rep.best (i, k)⟩
  · intro id
    rw [G0.inv.getOrder]
    unfold HMgr.getOrder
    cases ho : g.orders id with
    | some o =>
      obtain ⟨a, n, h1, h2, h3, _⟩ := G0.rep.node ho
      rw [h1]
      show (s.heap.onode a).map _ = _
      rw [h2]
      exact congrArg some h3
    | none =>
      cases hc : s.heap.orders id with
      | none => rfl
      | some a =>
        obtain ⟨n, _, _, h3⟩ := G0.rep.back id a hc
        rw [ho] at h3; cases h3
  · intro i
    rw [G0.books, slot_map]; rfl
  · intro i b k hb
    have ht := G0.rep.trees (i, k)
    rw [all_some hb] at ht
    refine ⟨ht.length, ?_⟩
    intro j a l h1 h2
    obtain ⟨q1, q2⟩ := ht.get j a l h1 h2
    exact q1.shows (G0.rep.idsNodup (i, k) l (by rw [all_some hb]; exact q2))

theorem G.accounts {g : Mgr} {s : HMgr} (G0 : G g s) : s.Accounts := by
  have st := G0.rep.stock
  refine ⟨?_, ?_, ?_, fun i k a ha => st.live (i, k) a ha, fun i k => st.nodup (i, k), ?_⟩
  · intro a n hn
    rcases (G0.rep.full a n hn).2 with ⟨i, hi⟩ | ⟨t, ht⟩
    · obtain ⟨m, h1, h2, _⟩ := G0.rep.back i a hi
      rw [hn] at h1; cases h1
      rw [h2]; exact hi
    · cases ht
  · intro id a ha
    obtain ⟨n, h1, h2, _⟩ := G0.rep.back id a ha
    exact ⟨n, h1, h2⟩
  · intro a n hn
    obtain ⟨⟨i, k⟩, hx⟩ := st.all a n hn
    refine ⟨i, k, ?_, hx⟩
    rw [G0.books, slot_map]
    cases hb : slot g.books i with
    | some b => rfl
    | none =>
      have ht := G0.rep.trees (i, k)
      rw [all_none hb] at ht
      have : s.heap.tree (i, k) = [] := List.length_eq_zero_iff.mp ht.length
      rw [this] at hx; cases hx
  · intro i k i' k' a h1 h2
    have := st.apart _ _ a h1 h2
    exact ⟨congrArg Prod.fst this, congrArg Prod.snd this⟩

theorem G.destroy {g : Mgr} {s : HMgr} (G0 : G g s) {ids : List Nat} (hk : s.Keys ids) :
    ∃ h, s.destroy ids = .ok h ∧ (∀ a, h.onode a = none) ∧ (∀ a, h.lnode a = none) := by
  have ac := G0.accounts
  have st := G0.rep.stock
  obtain ⟨h1, e1, q1, q2, q3, q4⟩ := releaseOrders_ok ids (h := s.heap) hk.1
    (by
      intro i hi
      cases ho : s.heap.orders i with
      | none => exact absurd ho ((hk.2 i).mp hi)
      | some a => obtain ⟨n, hn, _⟩ := ac.orderMap i a ho; exact ⟨a, n, rfl, hn⟩)
    (by
      intro i hi j hj e
      cases ho : s.heap.orders i with
      | none => exact absurd ho ((hk.2 i).mp hi)
      | some a => exact G0.rep.inj ho (by rw [← e]; exact ho))
  have st1 : Stock { h1 with orders := fun _ => none } := by
    refine ⟨?_, ?_, ?_, ?_⟩
    · intro x a ha
      show ∃ n, h1.lnode a = some n
      rw [q2]
      exact st.live x a (by rw [← q1]; exact ha)
    · intro x; show (h1.tree x).Nodup; rw [q1]; exact st.nodup x
    · intro x y a hx hy; exact st.apart x y a (by rw [← q1]; exact hx) (by rw [← q1]; exact hy)
    · intro a n hn
      obtain ⟨x, hx⟩ := st.all a n (by rw [← q2]; exact hn)
      exact ⟨x, by show a ∈ h1.tree x; rw [q1]; exact hx⟩
  obtain ⟨h2, e2, s2, t2, k2, n2, o2⟩ := destroyBooks_ok s.books (List.range s.books.length) st1
  refine ⟨h2, ?_, ?_, ?_⟩
  · unfold HMgr.destroy
    rw [e1, Except.bind_ok]; exact e2
  · intro a
    rw [n2]
    show h1.onode a = none
    rcases q4 a with q | ⟨q, w⟩
    · exact q
    · rw [q]
      cases hn : s.heap.onode a with
      | none => rfl
      | some n =>
        have := ac.orderNodes a n hn
        exact absurd this (w _ ((hk.2 _).mpr (by rw [this]; simp)))
  · intro a
    cases hn : h2.lnode a with
    | none => rfl
    | some n =>
      obtain ⟨⟨i, k⟩, hx⟩ := s2.all a n hn
      have : h2.tree (i, k) = [] := by
        cases hb : slot s.books i with
        | some b =>
          exact t2 (i, k) (List.mem_range.mpr (slot_lt hb)) (by show (slot s.books i).isSome = true; rw [hb]; rfl)
        | none =>
          refine k2 (i, k) ?_
          show h1.tree (i, k) = []
          rw [q1]
          rw [G0.books, slot_map] at hb
          have hb' : slot g.books i = none := by
            cases hc : slot g.books i with
            | none => rfl
            | some b => rw [hc] at hb; cases hb
          have ht := G0.rep.trees (i, k)
          rw [all_none hb'] at ht
          exact List.length_eq_zero_iff.mp ht.length
      rw [this] at hx; cases hx

end Ptr
end CppTrader
