import Verif.Proof.Thrown
/-
The manager in the middle of the matching of all books.
-/

namespace CppTrader
open Core

/-- What the matching of one book leaves alone at every moment. -/
theorem spares_at {g : Mgr} (hi : MInv g) {i : Nat} {g' : Mgr} (run : g.matchAt i = .ok g') {seen : List Mgr} (hw : g.watchAt i = .ok (g', seen))
    {x : Mgr} (hx : x ∈ seen) :
    x.matching = g.matching ∧ x.symbols = g.symbols ∧ BooksBut (· = i) g x ∧
      (∀ id, (∀ o, g.orders id = some o → o.symbolId ≠ i) → x.orders id = g.orders id) ∧ ∀ id, g.orders id = none → x.orders id = none := by
  obtain ⟨news, seen', h1, sp⟩ := Watch.watchAt_run hi run
  rw [hw] at h1
  cases h1
  obtain ⟨k, hk⟩ := List.getElem?_of_mem hx
  obtain ⟨h5, h6, c⟩ := sp.each k x hk
  obtain ⟨g1, a1, _, a3, _⟩ := matchAt_ok hi i
  rw [run] at a1; cases a1
  obtain ⟨evs, ls, h⟩ := a3.events hi
  have hev : evs = news := List.append_cancel_left (h.ev.symm.trans sp.ev)
  subst hev
  have feed := (h.feed (sc := ⟨true, true, true⟩) (fun _ _ h => h.2) rfl).1.orders
  have hsym : ∀ e ∈ evs, e.symbol = i := fun e he => (h.sym e he).elim fun _ h => h.1
  have fromGet : ∀ {id : Nat} {v : Option Order}, x.getOrder id = v → id ≠ 0 → x.orders id = v := by
    intro id v hv hz
    simpa only [Mgr.getOrder, if_neg hz] using hv
  have gone : ∀ id, g.orders id = none → x.orders id = none := by
    intro id hn
    by_cases hz : id = 0
    · subst hz; exact sp.zero x hx
    · exact fromGet (c.absent id nofun (by rw [hi.getOrder]; exact hn)) hz
  refine ⟨h6, c.symbols, ?_, ?_, gone⟩
  · unfold Mgr.watchAt at hw
    cases hb : slot g.books i with
    | none => rw [hb] at hw; cases hw; cases hx
    | some b =>
      rw [hb] at hw
      obtain ⟨w, _, h2⟩ := bind_inv hw
      cases h2
      obtain ⟨c, _, rfl⟩ := List.mem_map.1 hx
      exact at_books (S := (· = i)) g rfl _
  · intro id ho
    cases hid : g.orders id with
    | none => exact gone id hid
    | some o =>
      have hz : id ≠ 0 := by
        rintro rfl
        have := hi.getOrder (id := 0)
        rw [hid] at this; cases this
      refine fromGet ?_ hz
      have := c.others id nofun ((silent_of evs feed hid fun e he => by rw [hsym e he]; exact Ne.symm (ho o hid)).take _)
      rw [this, hi.getOrder, hid]

/-- What the matching of some books leaves alone. -/
theorem matchFrom_others : ∀ (is : List Nat) {g g' : Mgr}, MInv g → Mgr.matchFrom is g = .ok g' →
    MInv g' ∧ g'.matching = g.matching ∧ g'.symbols = g.symbols ∧ (∀ s, s ∉ is → slot g'.books s = slot g.books s) ∧
      (∀ id o, o.symbolId ∉ is → (g'.orders id = some o ↔ g.orders id = some o)) ∧ ∀ id, g.orders id = none → g'.orders id = none
  | [], g, g', hi, h => by cases h; exact ⟨hi, rfl, rfl, fun _ _ => rfl, fun _ _ _ => Iff.rfl, fun _ h => h⟩
  | i :: is, g, g', hi, h => by
    unfold Mgr.matchFrom at h
    obtain ⟨g1, h1, h2⟩ := bind_inv h
    obtain ⟨news, seen, _, sp⟩ := Watch.watchAt_run hi h1
    obtain ⟨g1', a1, a2, _, _, a5, a6, a7, _, a9⟩ := matchAt_ok hi i
    rw [h1] at a1; cases a1
    obtain ⟨b1, b2, b3, b4, b5, b6⟩ := matchFrom_others is a2 h2
    refine ⟨b1, b2.trans a7, b3.trans a9, fun s hs => ?_, fun id o ho => ?_, fun id hn => b6 id ?_⟩
    · simp only [List.mem_cons, not_or] at hs
      exact (b4 s hs.2).trans (a5 s hs.1)
    · simp only [List.mem_cons, not_or] at ho
      exact (b5 id o ho.2).trans ⟨fun h => a6.back id o h ho.1, fun h => a6.keep id o h ho.1⟩
    · rw [← a2.getOrder]
      exact sp.rest.absent id nofun (by rw [hi.getOrder]; exact hn)

/-- Where a moment in the matching of some books is. -/
theorem watchFrom_moment : ∀ (is : List Nat) {g g' : Mgr} {seen : List Mgr}, MInv g → Mgr.matchFrom is g = .ok g' → Mgr.watchFrom is g = .ok (g', seen) →
    ∀ {x : Mgr}, x ∈ seen → ∃ (pre post : List Nat) (i : Nat) (g1 g2 : Mgr) (l : List Mgr), is = pre ++ i :: post ∧ Mgr.matchFrom pre g = .ok g1 ∧
      g1.matchAt i = .ok g2 ∧ g1.watchAt i = .ok (g2, l) ∧ x ∈ l ∧ Mgr.matchFrom (i :: post) g1 = .ok g'
  | [], g, g', seen, _, _, hw => by cases hw; intro hx; cases hx
  | i :: is, g, g', seen, hi, h, hw => by
    intro hx
    have h0 := h
    unfold Mgr.matchFrom at h
    obtain ⟨g1, h1, h2⟩ := bind_inv h
    obtain ⟨news, l, hl, _⟩ := Watch.watchAt_run hi h1
    unfold Mgr.watchFrom at hw
    rw [hl, Except.bind_ok] at hw
    obtain ⟨⟨g3, l2⟩, h3, h4⟩ := bind_inv hw
    cases h4
    rcases List.mem_append.1 hx with hx | hx
    · exact ⟨[], is, i, g, g1, l, rfl, rfl, h1, hl, hx, h0⟩
    · obtain ⟨g1', a1, a2, _⟩ := matchAt_ok hi i
      rw [h1] at a1; cases a1
      obtain ⟨pre, post, j, k1, k2, l', e1, e2, e3, e4, e5, e6⟩ := watchFrom_moment is a2 h2 h3 hx
      refine ⟨i :: pre, post, j, k1, k2, l', by rw [e1]; rfl, ?_, e3, e4, e5, e6⟩
      unfold Mgr.matchFrom
      rw [h1, Except.bind_ok]; exact e2

theorem range_cut {n i : Nat} {pre post : List Nat} (h : List.range n = pre ++ i :: post) :
    (∀ s, s ∈ pre ↔ s < i) ∧ ∀ s, s ∈ post → i < s := by
  have hl : n = pre.length + (post.length + 1) := by
    have := congrArg List.length h
    simpa using this
  have get : ∀ k, k < n → (pre ++ i :: post)[k]? = some k := fun k hk => by rw [← h, List.getElem?_range hk]
  have hi : i = pre.length := by
    have := get pre.length (by omega)
    simpa using this
  have hpre : ∀ k, k < pre.length → pre[k]? = some k := fun k hk => by
    have := get k (by omega)
    rwa [List.getElem?_append_left hk] at this
  refine ⟨fun s => ⟨fun hs => ?_, fun hs => ?_⟩, fun s hs => ?_⟩
  · obtain ⟨k, hk⟩ := List.getElem?_of_mem hs
    have hlt : k < pre.length := by
      rcases Nat.lt_or_ge k pre.length with h | h
      · exact h
      · rw [List.getElem?_eq_none h] at hk; cases hk
    rw [hpre k hlt] at hk
    cases hk; omega
  · exact List.mem_of_getElem? (hpre s (by omega))
  · obtain ⟨k, hk⟩ := List.getElem?_of_mem hs
    have hlt : k < post.length := by
      rcases Nat.lt_or_ge k post.length with h | h
      · exact h
      · rw [List.getElem?_eq_none h] at hk; cases hk
    have := get (pre.length + 1 + k) (by omega)
    rw [List.getElem?_append_right (by omega), show pre.length + 1 + k - pre.length = k + 1 by omega, List.getElem?_cons_succ, hk] at this
    cases this; omega

end CppTrader
