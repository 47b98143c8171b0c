import Verif.Count
import Verif.Proof.Calls
/-
Proofs about counting: orders added and deleted balance with the orders stored.
-/

namespace CppTrader
open Core

theorem nodup_length {a b : List Nat} (ha : a.Nodup) (hab : ∀ i, i ∈ a → i ∈ b) : a.length ≤ b.length := by
  induction a generalizing b with
  | nil => simp
  | cons x a ih =>
    obtain ⟨h1, h2⟩ := List.nodup_cons.1 ha
    have h3 := List.length_erase_of_mem (hab x (by simp))
    have h4 : b ≠ [] := List.ne_nil_of_mem (hab x (by simp))
    have := ih (b := b.erase x) h2 (fun i hi => (List.mem_erase_of_ne (by rintro rfl; exact h1 hi)).2 (hab i (.tail _ hi)))
    have := List.length_pos_iff.2 h4
    rw [List.length_cons]; omega

/-- The number is unique. -/
theorem Counts.unique {p : Nat → Prop} {m n : Nat} (h : Counts p m) (h' : Counts p n) : m = n := by
  obtain ⟨a, a1, a2, rfl⟩ := h
  obtain ⟨b, b1, b2, rfl⟩ := h'
  have := nodup_length a1 (fun i hi => (b2 i).2 ((a2 i).1 hi))
  have := nodup_length b1 (fun i hi => (a2 i).2 ((b2 i).1 hi))
  omega

theorem Counts.congr {p q : Nat → Prop} {n : Nat} (h : Counts p n) (hpq : ∀ i, q i ↔ p i) : Counts q n := by
  obtain ⟨a, a1, a2, a3⟩ := h
  exact ⟨a, a1, fun i => by rw [a2 i, hpq i], a3⟩

theorem Counts.more {p q : Nat → Prop} {n id : Nat} (h : Counts p n) (hn : ¬ p id) (hq : ∀ j, q j ↔ j = id ∨ p j) : Counts q (n + 1) := by
  obtain ⟨a, a1, a2, rfl⟩ := h
  exact ⟨id :: a, List.nodup_cons.2 ⟨fun h => hn ((a2 _).1 h), a1⟩, fun i => by rw [List.mem_cons, a2 i, hq i], rfl⟩

theorem Counts.less {p q : Nat → Prop} {n id : Nat} (h : Counts p n) (hn : p id) (hq : ∀ j, q j ↔ j ≠ id ∧ p j) : 0 < n ∧ Counts q (n - 1) := by
  obtain ⟨a, a1, a2, rfl⟩ := h
  have hm := (a2 id).2 hn
  refine ⟨List.length_pos_iff.2 (List.ne_nil_of_mem hm), a.erase id, a1.erase _, fun i => ?_, List.length_erase_of_mem hm⟩
  rw [a1.mem_erase_iff, a2 i, hq i]


/-- The orders stored. -/
def alive (m : Nat → Option Order) (i : Nat) : Prop := m i ≠ none

theorem alive_add {m : Nat → Option Order} {id : Nat} {o : Order} {n : Nat} (h : Counts (alive m) n) (hn : m id = none) :
    Counts (alive (setO m id (some o))) (n + 1) := by
  refine h.more (id := id) (fun h => h hn) fun j => ?_
  show (if j = id then some o else m j) ≠ none ↔ _
  by_cases e : j = id <;> simp [e, alive]

theorem alive_del {m : Nat → Option Order} {id : Nat} {n : Nat} (h : Counts (alive m) n) (hn : m id ≠ none) :
    0 < n ∧ Counts (alive (setO m id none)) (n - 1) := by
  refine h.less (id := id) hn fun j => ?_
  show (if j = id then none else m j) ≠ none ↔ _
  by_cases e : j = id <;> simp [e, alive]

theorem alive_set {m : Nat → Option Order} {id : Nat} {o : Order} {n : Nat} (h : Counts (alive m) n) (hn : m id ≠ none) :
    Counts (alive (setO m id (some o))) n := by
  refine h.congr fun j => ?_
  show (if j = id then some o else m j) ≠ none ↔ _
  by_cases e : j = id
  · subst e; simp [alive, hn]
  · simp [e, alive]

def addsN (evs : List Event) : Nat := evs.countP Event.isAddOrder
def delsN (evs : List Event) : Nat := evs.countP Event.isDeleteOrder

/-- Additions and removals balance for the client. -/
theorem replays_balance {sc : Scope} : ∀ (evs : List Event) {v v' : OrderView} {n : Nat}, Replays (OrderView.ok sc) OrderView.next v evs v' →
    Counts (alive v) n → ∃ n', Counts (alive v') n' ∧ n + addsN evs = n' + delsN evs
  | [], v, v', n, hr, hc => by cases hr; exact ⟨n, hc, rfl⟩
  | e :: evs, v, v', n, hr, hc => by
    unfold addsN delsN
    rw [List.countP_cons, List.countP_cons]
    cases e
    case addOrder o =>
      obtain ⟨n', h1, h2⟩ := replays_balance evs hr.2 (alive_add (o := o) hc hr.1)
      unfold addsN delsN at h2
      exact ⟨n', h1, by simp only [Event.isAddOrder, Event.isDeleteOrder, if_pos]; simp; omega⟩
    case deleteOrder o =>
      obtain ⟨x, hx, _⟩ := hr.1
      obtain ⟨hp, hc'⟩ := alive_del (id := o.id) hc (by rw [hx]; simp)
      obtain ⟨n', h1, h2⟩ := replays_balance evs hr.2 hc'
      unfold addsN delsN at h2
      exact ⟨n', h1, by simp only [Event.isAddOrder, Event.isDeleteOrder, if_pos]; simp; omega⟩
    case updateOrder o =>
      obtain ⟨x, hx, _⟩ := hr.1
      exact replays_balance evs hr.2 (alive_set (id := o.id) hc (by rw [hx]; simp))
    case exec o p q =>
      obtain ⟨⟨x, hx, _⟩, _⟩ := hr.1
      exact replays_balance evs hr.2 (alive_set (id := o.id) hc (by rw [hx]; simp))
    all_goals exact replays_balance evs hr.2 hc

/-- The order in flight counts, too. -/
def flying : Option Order → Nat
  | none => 0
  | some _ => 1

/-- Additions and removals balance. -/
def Bal (m : Nat → Option Order) (t : Option Order) (evs : List Event) (m' : Nat → Option Order) (t' : Option Order) : Prop :=
  ∀ n, Counts (alive m) n → ∃ n', Counts (alive m') n' ∧ n + flying t + addsN evs = n' + flying t' + delsN evs

theorem addsN_append (a b : List Event) : addsN (a ++ b) = addsN a + addsN b := List.countP_append ..
theorem delsN_append (a b : List Event) : delsN (a ++ b) = delsN a + delsN b := List.countP_append ..

theorem Bal.trans {m t e1 m1 t1 e2 m2 t2} (h : Bal m t e1 m1 t1) (h' : Bal m1 t1 e2 m2 t2) : Bal m t (e1 ++ e2) m2 t2 := by
  intro n hn
  obtain ⟨n1, a1, a2⟩ := h n hn
  obtain ⟨n2, b1, b2⟩ := h' n1 a1
  exact ⟨n2, b1, by rw [addsN_append, delsN_append]; omega⟩

theorem OrdEv.bal {sc m evs m'} (h : OrdEv sc m evs m') (t : Option Order) : Bal m t evs m' t := by
  intro n hn
  obtain ⟨n', h1, h2⟩ := replays_balance evs h hn
  exact ⟨n', h1, by omega⟩

theorem Bal.quiet (m : Nat → Option Order) {t t' : Option Order} {evs : List Event} (h : flying t + addsN evs = flying t' + delsN evs) :
    Bal m t evs m t' := fun n hn => ⟨n, hn, by omega⟩

theorem levelsN {es : List Event} (h : ∀ e ∈ es, e.isLevel) : addsN es = 0 ∧ delsN es = 0 := by
  constructor <;> refine List.countP_eq_zero.2 fun e he => ?_ <;> have := h e he <;> cases e <;> simp_all [Event.isLevel, Event.isAddOrder, Event.isDeleteOrder]

theorem Fills.balance {p s xs s'} (f : Fills p s xs s') (hi : Inv s) (t : Option Order) : ∃ evs, Ev s s' evs ∧ Bal s.orders t evs s'.orders t := by
  obtain ⟨evs, h1, _, _, h2⟩ := f.events hi
  obtain ⟨v', h3, h4⟩ := h2 ⟨true, true, true⟩ s.orders none rfl
  rw [show v' = s'.orders from h4] at h3
  exact ⟨evs, h1, h3.bal t⟩

theorem Step.balance {l s t s' t'} (st : Step l s t s' t') (hc : CInv s t) : ∃ evs, Ev s s' evs ∧ Bal s.orders t evs s'.orders t' := by
  have grounded : ∀ (h1 : t = none) (h2 : t' = none) (h3 : ∀ o, l ≠ .arrive o), ∃ evs, Ev s s' evs ∧ Bal s.orders t evs s'.orders t' := by
    rintro rfl rfl h3
    obtain ⟨evs, h⟩ := st.events hc
    obtain ⟨v', h4, h5⟩ := h.orders ⟨true, true, true⟩ s.orders (by cases l <;> trivial) rfl (fun o ho => absurd ho (h3 o))
    rw [show v' = s'.orders from h5] at h4
    exact ⟨evs, h.ev, h4.bal none⟩
  obtain ⟨hi, hf⟩ := hc
  cases st with
  | trade fill head side reach qty nf na =>
    rename_i t o q s1
    obtain ⟨e1, a1, a2, a4, a3⟩ := fill.events hi
    have heff := fill.eff hi
    have b1 := (execTaker_events (s1 := s1) (t := t) (p := o.price) (q := q)
      (by rw [heff.same.symbol]; exact (hf t rfl).sym) fill.pre.pos (by omega)).1
    have c := a3 ⟨true, true, true⟩ s.orders fill.pre.mem
    rw [show OrderView.set s.orders o.id (afterFill o q) = s1.orders from heff.orders.symm] at c
    exact ⟨_, a1.trans b1, (c.bal _).trans (.quiet _ rfl)⟩
  | sweep fills sum pos sides tif =>
    rename_i t xs s1
    obtain ⟨e1, a1, a2⟩ := fills.balance hi (some t)
    have b1 := (execTaker_events (s1 := s1) (t := t) (p := t.price) (q := t.leaves)
      (by rw [(fills.inv hi).2.2]; exact (hf t rfl).sym) pos (Nat.le_refl _)).1
    exact ⟨_, a1.trans b1, a2.trans (.quiet _ rfl)⟩
  | pair => exact grounded rfl rfl (by intro o h; cases h)
  | cross => exact grounded rfl rfl (by intro o h; cases h)
  | mark => exact grounded rfl rfl (by intro o h; cases h)
  | reduce => exact grounded rfl rfl (by intro o h; cases h)
  | execute => exact grounded rfl rfl (by intro o h; cases h)
  | take mem sym run =>
    rename_i o
    obtain ⟨k, a1, a2, a3, a4, a5, a6⟩ := hi.take mem sym run
    obtain ⟨lvs, b1⟩ := unlink_ev a2 run
    have hl := levelsN fun e he => (b1.level e he).1
    refine ⟨lvs, b1.toEv a4.symbol, fun n hn => ?_⟩
    obtain ⟨c1, c2⟩ := alive_del (id := o.id) hn (by rw [mem]; simp)
    rw [a3.orders]
    exact ⟨n - 1, c2, by rw [hl.1, hl.2]; show n + 0 + 0 = n - 1 + 1 + 0; omega⟩
  | put fresh pos nm tif run =>
    rename_i t
    obtain ⟨k, a1, a2, a3, a4, _⟩ := hi.put (hf _ rfl) fresh pos nm tif run
    obtain ⟨lvs, b1⟩ := link_ev a2 run
    have hl := levelsN fun e he => (b1.level e he).1
    refine ⟨lvs, b1.toEv a4.symbol, fun n hn => ?_⟩
    rw [a3.orders]
    exact ⟨n + 1, alive_add hn fresh, by rw [hl.1, hl.2]; rfl⟩
  | cancel => exact ⟨_, Ev.emit s (e := .deleteOrder _) rfl (hf _ rfl).sym, .quiet _ rfl⟩
  | activate ty trig =>
    rename_i o t
    have hid : t.symbolId = o.symbolId := by rcases ty with ⟨_, rfl⟩ | ⟨_, rfl⟩ <;> rfl
    exact ⟨_, Ev.emit s (e := .updateOrder t) rfl (hid.trans (hf _ rfl).sym), .quiet _ rfl⟩
  | bound => exact ⟨[], .refl _, .quiet _ rfl⟩
  | retrail ty ne =>
    rename_i o
    exact ⟨_, Ev.emit s (e := .updateOrder _) rfl ((retrail_symbolId ..).trans (hf _ rfl).sym), .quiet _ rfl⟩
  | reset => exact ⟨[], .silent rfl rfl rfl, .quiet _ rfl⟩
  | arrive rep idp sym vol tr => exact ⟨_, Ev.emit s (e := .addOrder _) rfl sym, .quiet _ rfl⟩
  | modify rep pos vol => exact ⟨_, Ev.emit s (e := .updateOrder (Core.modified _ _ _ _)) rfl (hf _ rfl).sym, .quiet _ rfl⟩
  | vanish zero => exact ⟨_, Ev.emit s (e := .deleteOrder (Core.modified _ _ _ _)) rfl (hf _ rfl).sym, .quiet _ rfl⟩

theorem Steps.balance {A s t s' t'} (h : Steps A s t s' t') (hc : CInv s t) : ∃ evs, s'.ev = s.ev ++ evs ∧ Bal s.orders t evs s'.orders t' := by
  induction h with
  | refl => exact ⟨[], by simp, .quiet _ rfl⟩
  | head a st _ ih =>
    obtain ⟨e1, h1, h2⟩ := st.balance hc
    obtain ⟨e2, h3, h4⟩ := ih (st.inv hc)
    exact ⟨e1 ++ e2, by rw [h3, h1.ev, List.append_assoc], h2.trans h4⟩

theorem Acts.balance {A g g'} (h : Acts A g g') (hi : MInv g) : ∃ evs, g'.ev = g.ev ++ evs ∧ Bal g.orders none evs g'.orders none := by
  induction h with
  | refl => exact ⟨[], by simp, .quiet _ rfl⟩
  | book hb hs _ ih =>
    obtain ⟨e1, h1, h2⟩ := hs.balance (CInv.none_iff.2 (hi.inv hb).1)
    obtain ⟨e2, h3, h4⟩ := ih (hi.put hb hs)
    exact ⟨e1 ++ e2, by rw [h3, ← List.append_assoc]; exact congrArg (· ++ e2) h1, h2.trans h4⟩

end CppTrader
