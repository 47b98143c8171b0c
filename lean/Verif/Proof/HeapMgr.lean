import Verif.Proof.HeapOps
import Verif.Proof.HeapFree
import Verif.Proof.Reach
/-
The pointer-level manager against the manager.
-/

namespace CppTrader
namespace Ptr

/-- The levels of all books of a manager. -/
def allLevels (books : List (Option Book)) : Col → List Level := fun x => ((slot books x.1).map (fun b => b.lv x.2)).getD []

/-- The manager on the heap represents the manager. -/
structure G (g : Mgr) (hg : HMgr) : Prop where
  inv : MInv g
  symbols : hg.symbols = g.symbols
  books : hg.books = g.books.map (Option.map scal)
  rep : Rep hg.heap g.orders (allLevels g.books) none
  matching : hg.matching = g.matching
  ev : hg.ev = g.ev

theorem slot_map {α β : Type} (f : α → β) (v : List (Option α)) (i : Nat) : slot (v.map (Option.map f)) i = (slot v i).map f := by
  unfold slot
  rw [List.getElem?_map]
  cases v[i]? with
  | none => rfl
  | some x => cases x <;> rfl

theorem map_set (v : List (Option Book)) (i : Nat) (b : Option Book) : (v.set i b).map (Option.map scal) = (v.map (Option.map scal)).set i (b.map scal) :=
  List.map_set

theorem map_resize (v : List (Option Book)) (n : Nat) : (resizeTo v n).map (Option.map scal) = resizeTo (v.map (Option.map scal)) n := by
  unfold resizeTo
  rw [List.map_append, List.map_take, List.map_replicate, List.length_map]
  rfl

theorem lvs_all {books : List (Option Book)} {i : Nat} {b : Book} (hb : slot books i = some b) (b' : Book) :
    lvs (allLevels books) i b' = allLevels (books.set i (some b')) := by
  funext x
  unfold lvs allLevels
  by_cases e : x.1 = i
  · rw [if_pos e, e, slot_set_same (slot_lt hb)]; rfl
  · rw [if_neg e, slot_set_other e]

theorem lvs_self {books : List (Option Book)} {i : Nat} {b : Book} (hb : slot books i = some b) : lvs (allLevels books) i b = allLevels books := by
  funext x
  unfold lvs allLevels
  by_cases e : x.1 = i
  · rw [if_pos e, e, hb]; rfl
  · rw [if_neg e]

/-- The state of a call on a book. -/
theorem G.enter {g : Mgr} {hg : HMgr} (G0 : G g hg) {sym : Nat} {b : Book} (hb : slot g.books sym = some b) :
    slot hg.books sym = some (scal b) ∧ R (allLevels g.books) .idle (g.core b) ⟨hg.heap, sym, scal b, hg.temp, hg.ev⟩ := by
  refine ⟨by rw [G0.books, slot_map, hb]; rfl, ?_⟩
  obtain ⟨h1, h2⟩ := G0.inv.inv hb
  refine ⟨h1, fun t ht => (by cases ht), ?_, h2.symm, rfl, G0.ev, trivial⟩
  show Rep hg.heap g.orders (lvs (allLevels g.books) sym b) none
  rw [lvs_self hb]; exact G0.rep

theorem G.leave {g : Mgr} {hg : HMgr} (G0 : G g hg) {sym : Nat} {b : Book} (hb : slot g.books sym = some b) {c : Core} {hs : HCore}
    (d : Done (allLevels g.books) sym c hs) (hi : MInv (g.put sym c)) :
    G (g.put sym c) { hg with heap := hs.heap, books := hg.books.set sym (some hs.book), temp := hs.temp, ev := hs.ev } := by
  refine ⟨hi, G0.symbols, ?_, ?_, G0.matching, d.r.ev⟩
  · show hg.books.set sym (some hs.book) = (g.books.set sym (some c.book)).map _
    rw [map_set, G0.books, d.r.book]; rfl
  · show Rep hs.heap c.orders (allLevels (g.books.set sym (some c.book))) none
    rw [← lvs_all hb, ← d.slot]; exact d.r.rep

theorem onBook_sim {g : Mgr} {hg : HMgr} (G0 : G g hg) {sym : Nat} {f : Core → Except Err (Core × ErrorCode)} {F : HCore → Except Err (HCore × ErrorCode)}
    (H : ∀ b c e, slot g.books sym = some b → f (g.core b) = .ok (c, e) → ∀ hs : HCore, hs.heap = hg.heap → hs.slot = sym → R (allLevels g.books) .idle (g.core b) hs →
      ∃ hs', F hs = .ok (hs', e) ∧ Done (allLevels g.books) hs.slot c hs')
    {g' : Mgr} {e : ErrorCode} (run : g.onBook sym f = .ok (g', e)) (hi : MInv g') : ∃ hg', hg.onBook sym F = .ok (hg', e) ∧ G g' hg' := by
  unfold Mgr.onBook at run
  unfold HMgr.onBook
  cases hb : slot g.books sym with
  | none =>
    rw [hb] at run
    rw [show slot hg.books sym = none by rw [G0.books, slot_map, hb]; rfl]
    cases run
    exact ⟨hg, rfl, G0⟩
  | some b =>
    rw [hb] at run
    obtain ⟨q1, r⟩ := G0.enter hb
    rw [q1]
    dsimp only at run ⊢
    obtain ⟨⟨c, e1⟩, hc, run⟩ := bind_inv run
    cases run
    obtain ⟨hs', q2, d⟩ := H b c _ hb hc _ rfl rfl r
    rw [q2, Except.bind_ok]
    exact ⟨_, rfl, G0.leave hb d hi⟩

theorem onOrder_sim {g : Mgr} {hg : HMgr} (G0 : G g hg) {id : Nat} {f : Order → Core → Except Err (Core × ErrorCode)} {F : Nat → ONode → HCore → Except Err (HCore × ErrorCode)}
    (H : ∀ o a n b c e, g.orders id = some o → hg.heap.orders id = some a → n.order = o → slot g.books o.symbolId = some b → o.symbolId = b.symbol.id → f o (g.core b) = .ok (c, e) →
      ∀ hs : HCore, hs.heap = hg.heap → R (allLevels g.books) .idle (g.core b) hs → ∃ hs', F a n hs = .ok (hs', e) ∧ Done (allLevels g.books) hs.slot c hs')
    {g' : Mgr} {e : ErrorCode} (run : g.onOrder id f = .ok (g', e)) (hi : MInv g') : ∃ hg', hg.onOrder id F = .ok (hg', e) ∧ G g' hg' := by
  unfold Mgr.onOrder at run
  unfold HMgr.onOrder
  cases ho : g.orders id with
  | none =>
    rw [ho] at run
    have : hg.heap.orders id = none := by
      cases hc : hg.heap.orders id with
      | none => rfl
      | some a =>
        obtain ⟨n, _, _, h3⟩ := G0.rep.back id a hc
        rw [ho] at h3; cases h3
    rw [this]
    cases run
    exact ⟨hg, rfl, G0⟩
  | some o =>
    rw [ho] at run
    obtain ⟨a, n, h1, h2, h3, h4⟩ := G0.rep.node ho
    rw [h1]
    dsimp only at run ⊢
    rw [order_eq h2, Except.bind_ok, h3]
    exact onBook_sim G0 (fun b c e hb hc hs q1 _ r => H o a n b c e ho h1 h3 hb (G0.inv.inv hb).2.symm hc hs q1 r) run hi

theorem addOrder_sim {g : Mgr} {hg : HMgr} (G0 : G g hg) {o : Order} (hr : o.Repr64) (hf : g.Fits o.symbolId o.leaves) {g' : Mgr} {e : ErrorCode}
    (run : g.addOrder o = .ok (g', e)) (hi : MInv g') : ∃ hg', hg.addOrder o = .ok (hg', e) ∧ G g' hg' := by
  unfold Mgr.addOrder at run
  unfold HMgr.addOrder
  by_cases hv : o.validate = .ok
  · rw [if_neg (by simp [hv])] at run ⊢
    rw [G0.matching]
    obtain ⟨h1, h2, h3⟩ := validate_facts hv
    refine onBook_sim G0 ?_ run hi
    intro b c e hb hc hs _ _ r
    exact addAny_run g.matching r ⟨hr, h1, (G0.inv.inv hb).2.symm, hf b hb, h3⟩ h2 hc
  · rw [if_pos (by simpa using hv)] at run ⊢
    cases run
    exact ⟨hg, rfl, G0⟩

theorem reduceOrder_sim {g : Mgr} {hg : HMgr} (G0 : G g hg) {id q : Nat} {g' : Mgr} {e : ErrorCode}
    (run : g.reduceOrder id q = .ok (g', e)) (hi : MInv g') : ∃ hg', hg.reduceOrder id q = .ok (hg', e) ∧ G g' hg' := by
  unfold Mgr.reduceOrder at run
  unfold HMgr.reduceOrder
  by_cases h0 : id = 0
  · rw [if_pos h0] at run ⊢; cases run; exact ⟨hg, rfl, G0⟩
  rw [if_neg h0] at run ⊢
  by_cases h1 : q = 0
  · rw [if_pos h1] at run ⊢; cases run; exact ⟨hg, rfl, G0⟩
  rw [if_neg h1] at run ⊢
  rw [G0.matching]
  exact onOrder_sim G0 (fun o a n b c e ho ha _ _ hsym hc hs q1 r => reduceOp_run _ r ho hsym (by rw [q1]; exact ha) hc) run hi

theorem deleteOrder_sim {g : Mgr} {hg : HMgr} (G0 : G g hg) {id : Nat} {g' : Mgr} {e : ErrorCode}
    (run : g.deleteOrder id = .ok (g', e)) (hi : MInv g') : ∃ hg', hg.deleteOrder id = .ok (hg', e) ∧ G g' hg' := by
  unfold Mgr.deleteOrder at run
  unfold HMgr.deleteOrder
  by_cases h0 : id = 0
  · rw [if_pos h0] at run ⊢; cases run; exact ⟨hg, rfl, G0⟩
  rw [if_neg h0] at run ⊢
  rw [G0.matching]
  exact onOrder_sim G0 (fun o a n b c e ho ha _ _ hsym hc hs q1 r => deleteOp_run _ r ho hsym (by rw [q1]; exact ha) hc) run hi

theorem executeOrder_sim {g : Mgr} {hg : HMgr} (G0 : G g hg) {id q : Nat} {g' : Mgr} {e : ErrorCode}
    (run : g.executeOrder id q = .ok (g', e)) (hi : MInv g') : ∃ hg', hg.executeOrder id q = .ok (hg', e) ∧ G g' hg' := by
  unfold Mgr.executeOrder at run
  unfold HMgr.executeOrder
  by_cases h0 : id = 0
  · rw [if_pos h0] at run ⊢; cases run; exact ⟨hg, rfl, G0⟩
  rw [if_neg h0] at run ⊢
  by_cases h1 : q = 0
  · rw [if_pos h1] at run ⊢; cases run; exact ⟨hg, rfl, G0⟩
  rw [if_neg h1] at run ⊢
  rw [G0.matching]
  exact onOrder_sim G0 (fun o a n b c e ho ha hno _ hsym hc hs q1 r => by rw [hno]; exact executeOp_run _ r ho hsym (by rw [q1]; exact ha) hc) run hi

theorem executeOrderAt_sim {g : Mgr} {hg : HMgr} (G0 : G g hg) {id p q : Nat} {g' : Mgr} {e : ErrorCode}
    (run : g.executeOrderAt id p q = .ok (g', e)) (hi : MInv g') : ∃ hg', hg.executeOrderAt id p q = .ok (hg', e) ∧ G g' hg' := by
  unfold Mgr.executeOrderAt at run
  unfold HMgr.executeOrderAt
  by_cases h0 : id = 0
  · rw [if_pos h0] at run ⊢; cases run; exact ⟨hg, rfl, G0⟩
  rw [if_neg h0] at run ⊢
  by_cases h1 : q = 0
  · rw [if_pos h1] at run ⊢; cases run; exact ⟨hg, rfl, G0⟩
  rw [if_neg h1] at run ⊢
  rw [G0.matching]
  exact onOrder_sim G0 (fun o a n b c e ho ha hno _ hsym hc hs q1 r => executeOp_run _ r ho hsym (by rw [q1]; exact ha) hc) run hi

theorem modifyOrder_sim {g : Mgr} {hg : HMgr} (G0 : G g hg) {id p q : Nat} {mit : Bool} (hp : p < W64) (hq : q < W64)
    (hf : ∀ o, g.getOrder id = some o → g.Fits o.symbolId q) {g' : Mgr} {e : ErrorCode}
    (run : g.modifyOrder id p q mit = .ok (g', e)) (hi : MInv g') : ∃ hg', hg.modifyOrder id p q mit = .ok (hg', e) ∧ G g' hg' := by
  unfold Mgr.modifyOrder at run
  unfold HMgr.modifyOrder
  by_cases h0 : id = 0
  · rw [if_pos h0] at run ⊢; cases run; exact ⟨hg, rfl, G0⟩
  rw [if_neg h0] at run ⊢
  by_cases h1 : q = 0
  · rw [if_pos h1] at run ⊢; cases run; exact ⟨hg, rfl, G0⟩
  rw [if_neg h1] at run ⊢
  rw [G0.matching]
  exact onOrder_sim G0 (fun o a n b c e ho ha hno hb hsym hc hs q1 r => modifyOp_run _ r ho hsym (by rw [q1]; exact ha) hp hq
    (hf o (by rw [getOrder_eq h0]; exact ho) b hb) hc) run hi

theorem replaceOrder_sim {g : Mgr} {hg : HMgr} (G0 : G g hg) {id n p q : Nat} (hn : n < W64) (hp : p < W64) (hq : q < W64)
    (hf : ∀ o, g.getOrder id = some o → g.Fits o.symbolId q) {g' : Mgr} {e : ErrorCode}
    (run : g.replaceOrder id n p q = .ok (g', e)) (hi : MInv g') : ∃ hg', hg.replaceOrder id n p q = .ok (hg', e) ∧ G g' hg' := by
  unfold Mgr.replaceOrder at run
  unfold HMgr.replaceOrder
  by_cases h0 : id = 0
  · rw [if_pos h0] at run ⊢; cases run; exact ⟨hg, rfl, G0⟩
  rw [if_neg h0] at run ⊢
  by_cases h2 : n = 0
  · rw [if_pos h2] at run ⊢; cases run; exact ⟨hg, rfl, G0⟩
  rw [if_neg h2] at run ⊢
  by_cases h1 : q = 0
  · rw [if_pos h1] at run ⊢; cases run; exact ⟨hg, rfl, G0⟩
  rw [if_neg h1] at run ⊢
  rw [G0.matching]
  cases ho : g.orders id with
  | none =>
    rw [ho] at run
    have : hg.heap.orders id = none := by
      cases hc : hg.heap.orders id with
      | none => rfl
      | some a =>
        obtain ⟨n, _, _, h3⟩ := G0.rep.back id a hc
        rw [ho] at h3; cases h3
    rw [this]
    cases run
    exact ⟨hg, rfl, G0⟩
  | some o =>
    rw [ho] at run
    obtain ⟨a, nd, g1, g2, g3, g4⟩ := G0.rep.node ho
    rw [g1]
    dsimp only at run ⊢
    rw [order_eq g2, Except.bind_ok, g3]
    by_cases hl : o.isLimit = true
    · rw [if_pos hl] at run ⊢
      exact onBook_sim G0 (fun b c e hb hc hs q1 _ r => replaceOp_run _ r ho (G0.inv.inv hb).2.symm (by rw [q1]; exact g1)
        (by unfold Order.isLimit at hl; simpa using hl) (by omega) hn hp (by omega) hq (hf o (by rw [getOrder_eq h0]; exact ho) b hb) hc) run hi
    · rw [if_neg hl] at run ⊢
      cases run
      exact ⟨hg, rfl, G0⟩

theorem matchAt_sim {g : Mgr} {hg : HMgr} (G0 : G g hg) {i : Nat} {g' : Mgr} (run : g.matchAt i = .ok g') : ∃ hg', hg.matchAt i = .ok hg' ∧ G g' hg' := by
  obtain ⟨g2, e2, hi, _⟩ := matchAt_ok G0.inv i
  rw [run] at e2
  cases e2
  unfold Mgr.matchAt at run
  unfold HMgr.matchAt
  cases hb : slot g.books i with
  | none =>
    rw [hb] at run
    rw [show slot hg.books i = none by rw [G0.books, slot_map, hb]; rfl]
    cases run
    exact ⟨hg, rfl, G0⟩
  | some b =>
    rw [hb] at run
    obtain ⟨q1, r⟩ := G0.enter hb
    rw [q1]
    dsimp only at run ⊢
    obtain ⟨c, hc, run⟩ := bind_inv run
    cases run
    obtain ⟨hs', q2, d⟩ := matchBook_run r hc
    rw [q2, Except.bind_ok]
    exact ⟨_, rfl, G0.leave hb ⟨d.r, d.slot⟩ hi⟩

theorem matchFrom_sim : ∀ (is : List Nat) {g g' : Mgr} {hg : HMgr}, G g hg → Mgr.matchFrom is g = .ok g' → ∃ hg', HMgr.matchFrom is hg = .ok hg' ∧ G g' hg'
  | [], g, g', hg, G0, run => by cases run; exact ⟨hg, rfl, G0⟩
  | i :: is, g, g', hg, G0, run => by
    unfold Mgr.matchFrom at run
    unfold HMgr.matchFrom
    obtain ⟨g1, h1, run⟩ := bind_inv run
    obtain ⟨hg1, q1, G1⟩ := matchAt_sim G0 h1
    rw [q1, Except.bind_ok]
    exact matchFrom_sim is G1 run

theorem matchAll_sim {g g' : Mgr} {hg : HMgr} (G0 : G g hg) (run : g.matchAll = .ok g') : ∃ hg', hg.matchAll = .ok hg' ∧ G g' hg' := by
  unfold Mgr.matchAll at run
  unfold HMgr.matchAll
  rw [show hg.books.length = g.books.length by rw [G0.books, List.length_map]]
  exact matchFrom_sim _ G0 run

theorem all_empty {books : List (Option Book)} {i : Nat} {b : Book} (hs : slot books i = none) (hl : i < books.length) (hb : ∀ k, b.lv k = []) :
    allLevels (books.set i (some b)) = allLevels books := by
  funext x
  unfold allLevels
  by_cases e : x.1 = i
  · rw [e, slot_set_same hl, hs]
    show b.lv x.2 = []
    exact hb _
  · rw [slot_set_other e]

theorem all_resize (books : List (Option Book)) {n : Nat} (h : books.length ≤ n) : allLevels (resizeTo books n) = allLevels books := by
  funext x
  unfold allLevels
  rw [slot_resize _ h]

theorem all_without (books : List (Option Book)) (i : Nat) : allLevels (books.set i none) = without (allLevels books) i := by
  funext x
  unfold allLevels without
  by_cases e : x.1 = i
  · rw [if_pos e, e]
    by_cases hl : i < books.length
    · rw [slot_set_same hl]; rfl
    · have : slot (books.set i none) i = none := by
        unfold slot
        rw [List.getElem?_eq_none (by rw [List.length_set]; omega)]; rfl
      rw [this]; rfl
  · rw [if_neg e, slot_set_other e]

theorem getElem_slot {α : Type} {v : List (Option α)} {i : Nat} {x : Option α} (h : v[i]? = some x) : slot v i = x ∧ i < v.length := by
  refine ⟨by unfold slot; rw [h]; rfl, ?_⟩
  exact (List.getElem?_eq_some_iff.mp h).1

theorem addOrderBook_sim {g : Mgr} {hg : HMgr} (G0 : G g hg) {sym : Symbol} {g' : Mgr} {e : ErrorCode}
    (run : g.addOrderBook sym = .ok (g', e)) (hi : MInv g') : ∃ hg', hg.addOrderBook sym = .ok (hg', e) ∧ G g' hg' := by
  unfold Mgr.addOrderBook at run
  unfold HMgr.addOrderBook
  rw [G0.symbols]
  cases hs : slot g.symbols sym.id with
  | none =>
    rw [hs] at run
    cases run
    exact ⟨hg, rfl, G0⟩
  | some reg =>
    rw [hs] at run
    dsimp only at run ⊢
    have hreg := G0.inv.symbols sym.id reg hs
    have hv : (if hg.books.length ≤ sym.id then resizeTo hg.books ((sym.id + 1) % 4294967296) else hg.books) =
        (if g.books.length ≤ sym.id then resizeTo g.books ((sym.id + 1) % 4294967296) else g.books).map (Option.map scal) := by
      rw [G0.books, List.length_map]
      by_cases h : g.books.length ≤ sym.id
      · rw [if_pos h, if_pos h, map_resize]
      · rw [if_neg h, if_neg h]
    rw [hv]
    have hall : allLevels (if g.books.length ≤ sym.id then resizeTo g.books ((sym.id + 1) % 4294967296) else g.books) = allLevels g.books := by
      by_cases h : g.books.length ≤ sym.id
      · rw [if_pos h]
        refine all_resize _ ?_
        rw [Nat.mod_eq_of_lt (by omega)]; omega
      · rw [if_neg h]
    generalize (if g.books.length ≤ sym.id then resizeTo g.books ((sym.id + 1) % 4294967296) else g.books) = v at *
    rw [List.getElem?_map]
    cases hx : v[sym.id]? with
    | none => rw [hx] at run; cases run
    | some y =>
      rw [hx] at run
      cases y with
      | some b0 =>
        have run := Except.ok.inj run
        rw [← (Prod.mk.inj run).1, ← (Prod.mk.inj run).2]
        rw [← (Prod.mk.inj run).1] at hi
        refine ⟨_, rfl, hi, rfl, rfl, ?_, G0.matching, G0.ev⟩
        show Rep hg.heap g.orders (allLevels v) none
        rw [hall]; exact G0.rep
      | none =>
        have run := Except.ok.inj run
        rw [← (Prod.mk.inj run).1, ← (Prod.mk.inj run).2]
        rw [← (Prod.mk.inj run).1] at hi
        obtain ⟨q1, q2⟩ := getElem_slot hx
        refine ⟨_, rfl, hi, rfl, ?_, ?_, G0.matching, ?_⟩
        · show (v.map (Option.map scal)).set sym.id (some (HBook.new reg)) = (v.set sym.id (some (Book.new reg))).map _
          rw [map_set]; rfl
        · show Rep hg.heap g.orders (allLevels (v.set sym.id (some (Book.new reg)))) none
          rw [all_empty q1 q2 (fun _ => rfl), hall]; exact G0.rep
        · show hg.ev ++ _ = g.ev ++ _
          rw [G0.ev]

theorem deleteOrderBook_sim {g : Mgr} {hg : HMgr} (G0 : G g hg) {id : Nat} {g' : Mgr} {e : ErrorCode}
    (run : g.deleteOrderBook id = .ok (g', e)) (hi : MInv g') : ∃ hg', hg.deleteOrderBook id = .ok (hg', e) ∧ G g' hg' := by
  unfold Mgr.deleteOrderBook at run
  unfold HMgr.deleteOrderBook
  rw [show slot hg.books id = (slot g.books id).map scal by rw [G0.books, slot_map]]
  cases hb : slot g.books id with
  | none =>
    rw [hb] at run
    cases run
    exact ⟨hg, rfl, G0⟩
  | some b =>
    rw [hb] at run
    have run := Except.ok.inj run
    rw [← (Prod.mk.inj run).1, ← (Prod.mk.inj run).2]
    rw [← (Prod.mk.inj run).1] at hi
    obtain ⟨h', q, rep, _, _⟩ := G0.rep.destroyBook id
    show ∃ hg', (HMgr.destroyBook hg.heap id >>= _) = _ ∧ _
    rw [q, Except.bind_ok]
    refine ⟨_, rfl, hi, G0.symbols, ?_, ?_, G0.matching, ?_⟩
    · show hg.books.set id none = (g.books.set id none).map _
      rw [map_set, G0.books]; rfl
    · show Rep h' g.orders (allLevels (g.books.set id none)) none
      rw [all_without]; exact rep
    · show hg.ev ++ _ = g.ev ++ _
      rw [G0.ev]; rfl

theorem addSymbol_sim {g : Mgr} {hg : HMgr} (G0 : G g hg) {sym : Symbol} {g' : Mgr} {e : ErrorCode}
    (run : g.addSymbol sym = .ok (g', e)) (hi : MInv g') : ∃ hg', hg.addSymbol sym = .ok (hg', e) ∧ G g' hg' := by
  unfold Mgr.addSymbol at run
  unfold HMgr.addSymbol
  rw [G0.symbols]
  dsimp only at run ⊢
  generalize (if g.symbols.length ≤ sym.id then resizeTo g.symbols ((sym.id + 1) % 4294967296) else g.symbols) = v at *
  cases hx : v[sym.id]? with
  | none => rw [hx] at run; cases run
  | some y =>
    rw [hx] at run
    cases y with
    | some b0 =>
      have run := Except.ok.inj run
      rw [← (Prod.mk.inj run).1, ← (Prod.mk.inj run).2]
      rw [← (Prod.mk.inj run).1] at hi
      exact ⟨_, rfl, hi, rfl, G0.books, G0.rep, G0.matching, G0.ev⟩
    | none =>
      have run := Except.ok.inj run
      rw [← (Prod.mk.inj run).1, ← (Prod.mk.inj run).2]
      rw [← (Prod.mk.inj run).1] at hi
      refine ⟨_, rfl, hi, rfl, G0.books, G0.rep, G0.matching, ?_⟩
      show hg.ev ++ _ = g.ev ++ _
      rw [G0.ev]

theorem deleteSymbol_sim {g : Mgr} {hg : HMgr} (G0 : G g hg) {id : Nat} {g' : Mgr} {e : ErrorCode}
    (run : g.deleteSymbol id = .ok (g', e)) (hi : MInv g') : ∃ hg', hg.deleteSymbol id = .ok (hg', e) ∧ G g' hg' := by
  unfold Mgr.deleteSymbol at run
  unfold HMgr.deleteSymbol
  rw [G0.symbols]
  cases hs : slot g.symbols id with
  | none =>
    rw [hs] at run
    cases run
    exact ⟨hg, rfl, G0⟩
  | some sym =>
    rw [hs] at run
    have run := Except.ok.inj run
    rw [← (Prod.mk.inj run).1, ← (Prod.mk.inj run).2]
    rw [← (Prod.mk.inj run).1] at hi
    refine ⟨_, rfl, hi, ?_, G0.books, G0.rep, G0.matching, ?_⟩
    · rfl
    · show hg.ev ++ _ = g.ev ++ _
      rw [G0.ev]

theorem replaceWith_sim {g : Mgr} {hg : HMgr} (G0 : G g hg) {id : Nat} {o : Order} (hr : o.Repr64) (hf : g.Fits o.symbolId o.leaves) {g' : Mgr} {e : ErrorCode}
    (run : g.replaceWith id o = .ok (g', e)) (hi : MInv g') : ∃ hg', hg.replaceWith id o = .ok (hg', e) ∧ G g' hg' := by
  obtain ⟨g1, e1, h1, h2, h3⟩ := deleteOrder_mgr G0.inv id
  unfold Mgr.replaceWith at run
  unfold HMgr.replaceWith
  rw [h1, Except.bind_ok] at run
  have hi1 : MInv g1 := by
    rcases h2 with h2 | ⟨old, _, h2⟩
    · rw [h2.1]; exact G0.inv
    · exact h2.minv G0.inv
  obtain ⟨hg1, q1, G1⟩ := deleteOrder_sim G0 h1 hi1
  rw [q1, Except.bind_ok]
  dsimp only at run ⊢
  by_cases he : e1 ≠ .ok
  · rw [if_pos he] at run ⊢
    cases run
    exact ⟨hg1, rfl, G1⟩
  · rw [if_neg he] at run ⊢
    exact addOrder_sim G1 hr (fun b hb => by
        obtain ⟨b0, w1, w2⟩ := h3 _ b hb
        have := hf b0 w1; omega) run hi

/-- Every call. -/
theorem step_sim {g : Mgr} {hg : HMgr} (G0 : G g hg) {op : Op} (ha : g.Admissible op) {g' : Mgr} {e : ErrorCode} (run : g.step op = .ok (g', e)) :
    ∃ hg', hg.step op = .ok (hg', e) ∧ G g' hg' := by
  have hi : MInv g' := (step_eff G0.inv ha run).minv G0.inv ha
  cases op with
  | addSymbol s => exact addSymbol_sim G0 run hi
  | deleteSymbol id => exact deleteSymbol_sim G0 run hi
  | addOrderBook s => exact addOrderBook_sim G0 run hi
  | deleteOrderBook id => exact deleteOrderBook_sim G0 run hi
  | addOrder o => exact addOrder_sim G0 ha.1 ha.2 run hi
  | reduceOrder id q => exact reduceOrder_sim G0 run hi
  | modifyOrder id p q => exact modifyOrder_sim G0 ha.1 ha.2.1 ha.2.2 run hi
  | mitigateOrder id p q => exact modifyOrder_sim G0 ha.1 ha.2.1 ha.2.2 run hi
  | replaceOrder id n p q => exact replaceOrder_sim G0 ha.1 ha.2.1 ha.2.2.1 ha.2.2.2 run hi
  | replaceWith id o => exact replaceWith_sim G0 ha.1 ha.2 run hi
  | deleteOrder id => exact deleteOrder_sim G0 run hi
  | executeOrder id q => exact executeOrder_sim G0 run hi
  | executeOrderAt id p q => exact executeOrderAt_sim G0 run hi
  | disableMatching => cases run; exact ⟨_, rfl, hi, G0.symbols, G0.books, G0.rep, rfl, G0.ev⟩
  | enableMatching =>
    obtain ⟨g1, h1, run⟩ := bind_inv run
    cases run
    obtain ⟨hg1, q, G1⟩ := matchAll_sim (g := { g with matching := true }) (hg := { hg with matching := true })
      ⟨⟨G0.inv.orders, G0.inv.books, G0.inv.symbols⟩, G0.symbols, G0.books, G0.rep, rfl, G0.ev⟩ h1
    refine ⟨hg1, ?_, G1⟩
    show (HMgr.matchAll _ >>= _) = _
    rw [q, Except.bind_ok]
  | matchAll =>
    obtain ⟨g1, h1, run⟩ := bind_inv run
    cases run
    obtain ⟨hg1, q, G1⟩ := matchAll_sim G0 h1
    refine ⟨hg1, ?_, G1⟩
    show (HMgr.matchAll _ >>= _) = _
    rw [q, Except.bind_ok]

theorem G.init (x : Order) (po pl : Pool) : G Mgr.init (HMgr.init x po pl) := by
  refine ⟨Mgr.Reachable.init.minv, rfl, rfl, ?_, rfl, rfl⟩
  have e : allLevels Mgr.init.books = fun _ => [] := by funext y; rfl
  rw [e]
  refine ⟨?_, ?_, ?_, ?_, ?_, ?_, ?_, ?_, ?_, ?_, ?_, ?_, ?_⟩
  · intro i a h; cases h
  · intro i o h; cases h
  · intro a n h; cases h
  · intro a t h; cases h
  · intro y; trivial
  · intro a n h; cases h
  · intro y; exact List.nodup_nil
  · intro y z a h; cases h
  · intro y; rfl
  · intro y; exact List.Pairwise.nil
  · intro y l h; cases h
  · intro y l h; cases h
  · intro y l h; cases h

/-- Every history. -/
theorem history_sim {h : List (Op × ErrorCode)} {g : Mgr} (hh : g.History h) (x : Order) (po pl : Pool) :
    ∃ hg, (HMgr.init x po pl).run (h.map (·.1)) = .ok (hg, h.map (·.2)) ∧ G g hg := by
  induction hh with
  | nil => exact ⟨_, rfl, G.init x po pl⟩
  | @snoc h g g' op e _ ha run ih =>
    obtain ⟨hg, q, G0⟩ := ih
    obtain ⟨hg', q', G1⟩ := step_sim G0 ha run
    refine ⟨hg', ?_, G1⟩
    rw [List.map_append, List.map_append]
    have app : ∀ (ops : List Op) (s s' : HMgr) (es : List ErrorCode), s.run ops = .ok (s', es) → s'.step op = .ok (hg', e) →
        s.run (ops ++ [op]) = .ok (hg', es ++ [e]) := by
      intro ops
      induction ops with
      | nil =>
        intro s s' es h1 h2
        cases h1
        show (s.step op >>= _) = _
        rw [h2, Except.bind_ok]; rfl
      | cons o ops ih =>
        intro s s' es h1 h2
        unfold HMgr.run at h1
        obtain ⟨⟨s1, e1⟩, w1, h1⟩ := bind_inv h1
        obtain ⟨⟨s2, e2⟩, w2, h1⟩ := bind_inv h1
        cases h1
        have := ih s1 s' e2 w2 h2
        show (s.step o >>= _) = _
        rw [w1, Except.bind_ok]
        dsimp only
        rw [show s1.run (ops.append [op]) = _ from this, Except.bind_ok]
        rfl
    exact app _ _ _ _ q q'

end Ptr
end CppTrader
