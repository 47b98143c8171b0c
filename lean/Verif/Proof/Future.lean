import Verif.Proof.TwinMgr
import Verif.Equiv
/-
Managers with the same orders in line and the same prices cannot be told apart.
-/

namespace CppTrader
open Core

theorem noId : ∀ a b : Nat, (fun i : Nat => i) a = (fun i : Nat => i) b → a = b := fun _ _ h => h
theorem noZero : ∀ i : Nat, (fun i : Nat => i) i = 0 ↔ i = 0 := fun _ => Iff.rfl

theorem renO_same (o : Order) : renO (fun i => i) o = o := rfl
theorem renE_same (e : Event) : renE (fun i => i) e = e := by cases e <;> rfl
theorem renE_same_map (l : List Event) : l.map (renE (fun i => i)) = l := by
  conv => rhs; rw [← List.map_id l]
  congr 1
  funext e
  exact renE_same e
theorem renOp_same (op : Op) : renOp (fun i => i) op = op := by cases op <;> rfl

/-! Other ids. -/

/-- All symbols and orders in one place. -/
def oneHouse : Division := ⟨fun _ => 0, fun _ => 0⟩

theorem oneHouse_of (op : Op) : oneHouse.of op = some 0 ∨ oneHouse.of op = none := by cases op <;> first | exact .inl rfl | exact .inr rfl
theorem oneHouse_respects (op : Op) : oneHouse.respects op := by cases op <;> first | exact trivial | exact rfl | exact ⟨rfl, rfl⟩
theorem oneHouse_events (evs : List Event) : oneHouse.events 0 evs = evs := List.filter_eq_self.2 fun _ _ => rfl

namespace Recast
variable {c : Recast}

theorem order_ren (hv : c.OnlyIds) (o : Order) : c.order o = renO c.id o := by
  unfold Recast.order renO
  rw [hv]

theorem op_ren (hv : c.OnlyIds) (op : Op) : c.op op = renOp c.id op := by
  cases op <;> simp only [Recast.op, renOp, order_ren hv]

theorem event_ren (hv : c.OnlyIds) (e : Event) : c.event e = renE c.id e := by
  cases e <;> simp only [Recast.event, renE, order_ren hv]

theorem logged_ren (hv : c.OnlyIds) (op : Op) (e : ErrorCode) (evs : List Event) : c.logged (op, e, evs) = (renOp c.id op, e, evs.map (renE c.id)) := by
  unfold Recast.logged
  rw [op_ren hv]
  congr 2
  exact List.map_congr_left fun e _ => event_ren hv e

theorem zeroIff (c : Recast) (i : Nat) : c.id i = 0 ↔ i = 0 := ⟨fun h => c.inj _ _ (h.trans c.zero.symm), fun h => h ▸ c.zero⟩

theorem Twins.renamed {h g : Mgr} (t : Twins c.id oneHouse 0 h g) (hh : MInv h) (hg : MInv g) (hon : ∀ k o, g.orders k = some o → ∃ id, k = c.id id) {op : Op}
    (ha : h.Admissible op) : g.Admissible (renOp c.id op) := by
  have repr : ∀ {o : Order}, o.Repr64 → (renO c.id o).Repr64 := by
    intro o h
    obtain ⟨h1, h2⟩ := h
    exact ⟨(c.fits _ h1).1, h2⟩
  have get : ∀ {id q : Nat}, (∀ o, h.getOrder id = some o → h.Fits o.symbolId q) → ∀ o, g.getOrder (c.id id) = some o → g.Fits o.symbolId q := by
    intro id q hf o ho
    rw [hg.getOrder] at ho
    cases hx : h.orders id with
    | none => rw [t.back id rfl hx] at ho; cases ho
    | some r =>
      rw [t.sub id r hx] at ho
      cases ho
      exact (t.fits rfl).1 (hf r (by rw [hh.getOrder]; exact hx))
  cases op with
  | addSymbol s => exact ha
  | addOrderBook s =>
    intro hn i o ho e
    rw [hg.getOrder] at ho
    obtain ⟨id, rfl⟩ := hon i o ho
    cases hx : h.orders id with
    | none => rw [t.back id rfl hx] at ho; cases ho
    | some r =>
      rw [t.sub id r hx] at ho
      cases ho
      refine ha ?_ id r (by rw [hh.getOrder]; exact hx) e
      have := t.books s.id rfl
      rw [show slot g.books s.id = Option.none from hn] at this
      exact Option.map_eq_none_iff.1 this.symm
  | addOrder o => exact ⟨repr ha.1, (t.fits rfl).1 ha.2⟩
  | modifyOrder id a q => exact ⟨ha.1, ha.2.1, get ha.2.2⟩
  | mitigateOrder id a q => exact ⟨ha.1, ha.2.1, get ha.2.2⟩
  | replaceOrder id n a q => exact ⟨(c.fits _ ha.1).1, ha.2.1, ha.2.2.1, get ha.2.2.2⟩
  | replaceWith id o => exact ⟨repr ha.1, (t.fits rfl).1 ha.2⟩
  | deleteSymbol _ => trivial
  | deleteOrderBook _ => trivial
  | reduceOrder _ _ => trivial
  | deleteOrder _ => trivial
  | executeOrder _ _ => trivial
  | executeOrderAt _ _ _ => trivial
  | enableMatching => trivial
  | disableMatching => trivial
  | matchAll => trivial

open Classical in
theorem onto_kept {g g' : Mgr} (hg : MInv g) {op : Op} {e : ErrorCode} (ha : g.Admissible (renOp c.id op)) (hs : g.step (renOp c.id op) = .ok (g', e))
    (hon : ∀ k o, g.orders k = some o → ∃ id, k = c.id id) : ∀ k o, g'.orders k = some o → ∃ id, k = c.id id := by
  have z : ∀ id, (if ∃ i, c.id id = c.id i then 0 else 1) = 0 := fun id => if_pos ⟨id, rfl⟩
  have := Division.keeps ⟨fun _ => 0, fun k => if ∃ i, k = c.id i then 0 else 1⟩ hg ha hs (by
    cases op with
    | addOrder o => exact z o.id
    | replaceOrder id n p q => exact (z n).trans (z id).symm
    | replaceWith id o => exact ⟨(z o.id).trans (z id).symm, (z id).symm⟩
    | _ => trivial) (fun i o h1 => if_pos (hon i o h1))
  intro k o h1
  have h2 : (if ∃ i, k = c.id i then 0 else 1) = 0 := this k o h1
  by_cases hx : ∃ i, k = c.id i
  · exact hx
  · rw [if_neg hx] at h2; cases h2

theorem logs (hv : c.OnlyIds) {h h' : Mgr} {l} (hl : Mgr.Logs h l h') : ∀ {g : Mgr}, Twins c.id oneHouse 0 h g → MInv h → MInv g →
    (∀ k o, g.orders k = some o → ∃ id, k = c.id id) → ∃ g' : Mgr, Mgr.Logs g (l.map c.logged) g' ∧ Twins c.id oneHouse 0 h' g' := by
  induction hl with
  | nil => intro g t _ _ _; exact ⟨g, .nil, t⟩
  | cons ha hs hev _ ih =>
    rename_i h h1 h' op e evs l _
    intro g t hh hg hon
    have ha' : g.Admissible (renOp c.id op) := Twins.renamed t hh hg hon ha
    have hh1 := (step_eff hh ha hs).minv hh ha
    rw [List.map_cons, logged_ren hv]
    have key : ∃ g1, g.step (renOp c.id op) = .ok (g1, e) ∧ Twins c.id oneHouse 0 h1 g1 ∧ g1.ev = g.ev ++ evs.map (renE c.id) := by
      rcases oneHouse_of op with ho | ho
      · obtain ⟨⟨g1, e1⟩, a1, rfl, a2, x, a3, a4⟩ := t.step c.inj c.zeroIff hh (fun _ _ _ => rfl) ho (oneHouse_respects op) (by rintro s rfl; exact ha) _ hs
        simp only at a2 a3 a4
        rw [hev] at a3
        cases List.append_cancel_left a3
        exact ⟨g1, a1, a2, a4⟩
      · obtain ⟨g1, e1, a1, _⟩ := step_ok hg _ ha'
        obtain ⟨rfl, a2, x, w, a3, a4, a5⟩ := t.all c.inj c.zeroIff hh hg (fun _ _ _ => rfl) (fun _ _ _ _ _ => rfl) ho hs a1
        rw [hev] at a3
        cases List.append_cancel_left a3
        rw [oneHouse_events] at a5
        subst a5
        exact ⟨g1, a1, a2, a4⟩
    obtain ⟨g1, a1, a2, a3⟩ := key
    obtain ⟨g', b1, b2⟩ := ih a2 hh1 ((step_eff hg ha' a1).minv hg ha') (onto_kept hg ha' a1 hon)
    exact ⟨g', .cons ha' a1 a3 b1, b2⟩

end Recast


/-! The levels of a book follow from its orders in line. -/

theorem Kind.better_ne {k : Kind} {p q : Nat} (h : k.better p q = true) : q ≠ p := by
  unfold Kind.better at h
  split at h <;> have := of_decide_eq_true h <;> omega

/-- Sorted consistent levels are determined by the ids in line. -/
theorem levels_determined {m : Nat → Option Order} {sym : Nat} {k : Kind} : ∀ {ls ls' : List Level},
    ls.Pairwise (fun a b => k.better a.price b.price = true) → ls'.Pairwise (fun a b => k.better a.price b.price = true) →
    (∀ l ∈ ls, LevelOK m sym k l) → (∀ l ∈ ls', LevelOK m sym k l) → flatOf ls = flatOf ls' → ls = ls' := by
  have key : ∀ {l : Level} {ls : List Level}, (l :: ls).Pairwise (fun a b => k.better a.price b.price = true) → (∀ x ∈ l :: ls, LevelOK m sym k x) →
      (flatOf (l :: ls)).filter (fun i => decide ((m i).map Order.key = some l.price)) = l.ids := by
    intro l ls hs hl
    rw [flatOf_cons, List.filter_append]
    have h1 : l.ids.filter (fun i => decide ((m i).map Order.key = some l.price)) = l.ids := by
      rw [List.filter_eq_self]
      intro i hi
      obtain ⟨o, a1, _, _, a4⟩ := (hl l (List.mem_cons_self ..)).mem i hi
      rw [a1]; simp [a4]
    have h2 : (flatOf ls).filter (fun i => decide ((m i).map Order.key = some l.price)) = [] := by
      rw [List.filter_eq_nil_iff]
      intro i hi
      obtain ⟨x, b1, b2⟩ := mem_flatOf.1 hi
      obtain ⟨o, a1, _, _, a4⟩ := (hl x (List.mem_cons_of_mem _ b1)).mem i b2
      have := Kind.better_ne ((List.pairwise_cons.1 hs).1 x b1)
      rw [a1]; simp [a4, this]
    rw [h1, h2, List.append_nil]
  intro ls
  induction ls with
  | nil =>
    intro ls' _ _ _ hl' he
    cases ls' with
    | nil => rfl
    | cons l' t' =>
      rw [flatOf_nil, flatOf_cons] at he
      exact absurd (List.append_eq_nil_iff.1 he.symm).1 (hl' l' (List.mem_cons_self ..)).nonempty
  | cons l t ih =>
    intro ls' hs hs' hl hl' he
    cases ls' with
    | nil =>
      rw [flatOf_nil, flatOf_cons] at he
      exact absurd (List.append_eq_nil_iff.1 he).1 (hl l (List.mem_cons_self ..)).nonempty
    | cons l' t' =>
      have L := hl l (List.mem_cons_self ..)
      have L' := hl' l' (List.mem_cons_self ..)
      have hp : l.price = l'.price := by
        cases h1 : l.ids with
        | nil => exact absurd h1 L.nonempty
        | cons i is =>
          cases h2 : l'.ids with
          | nil => exact absurd h2 L'.nonempty
          | cons i' is' =>
            have he' := he
            rw [flatOf_cons, flatOf_cons, h1, h2] at he'
            have hi : i = i' := (List.cons.inj he').1
            obtain ⟨o, a1, _, _, a4⟩ := L.mem i (by rw [h1]; exact List.mem_cons_self ..)
            obtain ⟨o', b1, _, _, b4⟩ := L'.mem i (by rw [h2, hi]; exact List.mem_cons_self ..)
            rw [a1] at b1
            cases b1
            rw [← a4, ← b4]
      have hids : l.ids = l'.ids := by rw [← key hs hl, ← key hs' hl', he, hp]
      have heq : l = l' := by
        have a1 := L.total; have a2 := L.hidden; have a3 := L.visible; have a4 := L.count
        have b1 := L'.total; have b2 := L'.hidden; have b3 := L'.visible; have b4 := L'.count
        rw [hids] at a1 a2 a3 a4
        obtain ⟨p, tt, hd, vs, ct, is⟩ := l
        obtain ⟨p', tt', hd', vs', ct', is'⟩ := l'
        simp only at *
        subst hp; subst hids
        rw [a1, a2, a3, a4, b1, b2, b3, b4]
      subst heq
      rw [flatOf_cons, flatOf_cons] at he
      rw [ih (List.pairwise_cons.1 hs).2 (List.pairwise_cons.1 hs').2 (fun x h => hl x (List.mem_cons_of_mem _ h)) (fun x h => hl' x (List.mem_cons_of_mem _ h))
        (List.append_cancel_left he)]

/-- The ids in line are those of the orders in line. -/
theorem queue_of_line {s : Core} (hi : Inv s) (k : Kind) : (s.line k).map (·.id) = queue s.book k := by
  have : ∀ ids : List Nat, (∀ i ∈ ids, ∃ o, s.orders i = some o ∧ o.id = i) → (restOf s ids).map (·.id) = ids := by
    intro ids
    induction ids with
    | nil => intro _; rfl
    | cons i is ih =>
      intro h
      obtain ⟨o, h1, h2⟩ := h i (List.mem_cons_self ..)
      have ih' := ih fun j hj => h j (List.mem_cons_of_mem _ hj)
      unfold restOf at ih' ⊢
      rw [List.filterMap_cons, h1]
      simp only [List.map_cons]
      rw [ih', h2]
  refine this _ fun i hq => ?_
  obtain ⟨l, h1, h2⟩ := mem_flatOf.1 hq
  obtain ⟨o, h3, _⟩ := ((hi.book.kinds k).levels l h1).mem i h2
  exact ⟨o, h3, (hi.orders i o h3).1⟩

/-- A book is determined by its symbol, its orders in line, and the prices it remembers. -/
theorem book_determined {s t : Core} (hs : Inv s) (ht : Inv t) (ho : s.orders = t.orders) (hy : s.book.symbol = t.book.symbol) (hp : s.pit = t.pit) : s.book = t.book := by
  have hline : s.line = t.line := congrArg (·.board) hp
  have hlast := congrArg (·.last) hp
  have hheard := congrArg (·.heard) hp
  have hseen := congrArg (·.seen) hp
  unfold Core.pit at hlast hheard hseen
  simp only [Quotes.mk.injEq] at hlast hheard hseen
  have hlv : s.book.lv = t.book.lv := by
    funext k
    have hq : flatOf (s.book.lv k) = flatOf (t.book.lv k) := by
      show queue s.book k = queue t.book k
      rw [← queue_of_line hs, ← queue_of_line ht, hline]
    have h1 := hs.book.kinds k
    have h2 := ht.book.kinds k
    rw [← ho, ← hy] at h2
    exact levels_determined h1.sorted h2.sorted h1.levels h2.levels hq
  have hbest : s.book.best = t.book.best := by
    funext k
    rw [(hs.book.kinds k).best, (ht.book.kinds k).best, hlv]
  obtain ⟨o, b, e⟩ := s
  obtain ⟨o', b', e'⟩ := t
  obtain ⟨y, lv, bt, p1, p2, p3, p4, p5, p6⟩ := b
  obtain ⟨y', lv', bt', q1, q2, q3, q4, q5, q6⟩ := b'
  simp only at *
  subst hy; subst hlv; subst hbest
  rw [hlast.1, hlast.2, hheard.1, hheard.2, hseen.1, hseen.2]

/-! The future. -/

/-- Nothing is changed. -/
def Recast.none : Recast := ⟨fun i => i, fun v => v, fun _ _ h => h, rfl, fun _ h => ⟨h, h⟩⟩

theorem Recast.none_logged (l : List (Op × ErrorCode × List Event)) : l.map Recast.none.logged = l := by
  have : Recast.none.logged = fun r => r := by
    funext r
    obtain ⟨op, e, evs⟩ := r
    rw [Recast.logged_ren (fun _ => rfl)]
    show (renOp (fun i => i) op, e, evs.map (renE (fun i => i))) = _
    rw [renOp_same, renE_same_map]
  rw [this, List.map_id']

theorem renB_same (b : Book) : renB (fun i => i) b = b := by
  have : ∀ l : Level, renL (fun i => i) l = l := by
    intro l
    unfold renL
    simp
  unfold renB
  have h2 : (fun k => (b.lv k).map (renL (fun i => i))) = b.lv := by
    funext k
    rw [show renL (fun i => i) = id from funext this, List.map_id]
  rw [h2]

theorem Mgr.Alike.twins {g h : Mgr} (a : g.Alike h) (hg : MInv g) (hh : MInv h) : Twins Recast.none.id oneHouse 0 g h := by
  have ho : ∀ i, g.orders i = h.orders i := fun i => by rw [← hg.getOrder, ← hh.getOrder]; exact a.order i
  refine ⟨a.matching.symm, fun s _ => (a.symbol s).symm, fun s _ => ?_, fun i o h1 => ?_, fun i _ h1 => ?_, fun s h1 => absurd rfl h1⟩
  · have := (a.book s).symm
    unfold Mgr.getBook at this
    rw [this]
    cases slot g.books s with
    | none => rfl
    | some b => exact congrArg some (renB_same b).symm
  · exact (ho i).symm.trans h1
  · exact (ho i).symm.trans h1

theorem Twins.alike {g h : Mgr} (t : Twins Recast.none.id oneHouse 0 g h) (hg : MInv g) (hh : MInv h) : g.Alike h := by
  refine ⟨t.matching.symm, fun s => (t.symbols s rfl).symm, fun s => ?_, fun i => ?_⟩
  · have := t.books s rfl
    unfold Mgr.getBook
    rw [this]
    cases slot g.books s with
    | none => rfl
    | some b => exact congrArg some (renB_same b).symm
  · rw [hg.getOrder, hh.getOrder]
    cases ho : g.orders i with
    | none => exact (t.back i rfl ho).symm
    | some o => exact (t.sub i o ho).symm

theorem logs_minv {g g' : Mgr} {l} (hl : Mgr.Logs g l g') (hg : MInv g) : MInv g' := by
  induction hl with
  | nil => exact hg
  | cons ha hs _ _ ih => exact ih ((step_eff hg ha hs).minv hg ha)

theorem Mgr.Alike.symm {g h : Mgr} (a : g.Alike h) : h.Alike g :=
  ⟨a.matching.symm, fun s => (a.symbol s).symm, fun s => (a.book s).symm, fun i => (a.order i).symm⟩

theorem Mgr.Alike.follow {g h : Mgr} (a : g.Alike h) (hg : MInv g) (hh : MInv h) {l g'} (hl : g.Logs l g') : ∃ h', h.Logs l h' ∧ g'.Alike h' := by
  obtain ⟨h', h1, h2⟩ := Recast.logs (c := Recast.none) (fun _ => rfl) hl (a.twins hg hh) hg hh (fun k _ _ => ⟨k, rfl⟩)
  rw [Recast.none_logged] at h1
  exact ⟨h', h1, h2.alike (logs_minv hl hg) (logs_minv h1 hh)⟩

theorem Mgr.Alike.equivalent {g h : Mgr} (a : g.Alike h) (hg : MInv g) (hh : MInv h) : g.Equivalent h :=
  ⟨fun _ _ hl => a.follow hg hh hl, fun _ _ hl => by
    obtain ⟨g', h1, h2⟩ := a.symm.follow hh hg hl
    exact ⟨g', h1, h2.symm⟩⟩

/-- Calls that are not about symbols and books leave these registered as they are. -/
theorem titles_kept {g g' : Mgr} (hg : MInv g) {op : Op} {e : ErrorCode} (ha : g.Admissible op) (hs : g.step op = .ok (g', e)) (ho : ¬ op.isRegistry) :
    (∀ s, g'.getSymbol s = g.getSymbol s) ∧ ∀ s, (g'.getBook s).map (·.symbol) = (g.getBook s).map (·.symbol) := by
  rcases (step_eff hg ha hs).acts hg with ⟨_, h⟩ | ⟨g0, h1, h2, h3, h4, h5⟩
  · exact absurd h ho
  · have hi0 : MInv g0 := hg.congr h2 h3 h4
    have a := h5.symbols
    have b := h5.bookSymbol hi0
    refine ⟨fun s => ?_, fun s => ?_⟩
    · unfold Mgr.getSymbol; rw [a, h4]
    · have := congrFun b s
      unfold Mgr.bookSymbol at this
      rw [this]
      unfold Mgr.getBook
      rw [h3]

end CppTrader
