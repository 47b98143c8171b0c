import Verif.Proof.Aggressive
/-
C58: the level-only manager shows the price levels of the feed.
-/

namespace CppTrader.Aggr

/-- The call for a piece of the feed; the price of a sell order is passed negated. -/
def call (s : St) : Tick → Except Err St
  | .book sym => addOrderBook s sym
  | .add r => addOrder s r.id r.sym (match r.side with | .buy => (r.price : Int) | .sell => -(r.price : Int)) r.qty
  | .take id q => reduceOrder s id q
  | .delete id => deleteOrder s id
  | .modify id p q => modifyOrder s id p q
  | .replace id n p q => replaceOrder s id n p q

def run (s : St) : List Tick → Except Err St
  | [] => .ok s
  | x :: xs => do
    let s ← call s x
    run s xs

/-- The signed price. -/
def skey (sd : Side) (p : Nat) : Int := match sd with | .buy => (p : Int) | .sell => -(p : Int)

/-- The signed price of an order. -/
def key (r : Ticket) : Int := match r.side with | .buy => (r.price : Int) | .sell => -(r.price : Int)

/-- The volume at a signed price. -/
def vol (t : Tape) (sym : Nat) (k : Int) : Nat :=
  ((List.filter (fun r => r.sym = sym ∧ key r = k) t).map (·.qty)).sum

theorem vol_cons (r : Ticket) (t : Tape) : vol (r :: t) = chg (vol t) r.sym (key r) (vol t r.sym (key r) + r.qty) := by
  funext a b
  unfold vol
  by_cases h : a = r.sym ∧ b = key r
  · obtain ⟨rfl, rfl⟩ := h
    rw [chg_same]; simp; omega
  · rw [chg_other h, List.filter_cons_of_neg (by simp; intro h1 h2; exact h ⟨h1.symm, h2.symm⟩)]

theorem vol_perm {t t' : Tape} (h : t.Perm t') : vol t = vol t' := by
  funext a b
  exact ((h.filter _).map _).sum_nat

theorem find_perm {t : Tape} (hn : (t.map (·.id)).Nodup) {id : Nat} {r : Ticket} (h : t.find id = some r) :
    t.Perm (r :: t.without id) ∧ r.id = id := by
  induction t with
  | nil => cases h
  | cons x t ih =>
    simp only [List.map_cons, List.nodup_cons] at hn
    by_cases hx : x.id = id
    · have : r = x := by simpa [Tape.find, hx] using h.symm
      subst this
      refine ⟨?_, hx⟩
      have : Tape.without (r :: t) id = t := by
        unfold Tape.without
        rw [List.filter_cons_of_neg (by simp [hx])]
        rw [List.filter_eq_self]
        intro y hy
        simp only [ne_eq, decide_not, Bool.not_eq_true', decide_eq_false_iff_not]
        rintro rfl
        exact hn.1 (by rw [hx]; exact List.mem_map_of_mem hy)
      rw [this]
    · have hf : Tape.find t id = some r := by simpa [Tape.find, hx] using h
      obtain ⟨h1, h2⟩ := ih hn.2 hf
      refine ⟨?_, h2⟩
      have : Tape.without (x :: t) id = x :: Tape.without t id := by
        unfold Tape.without
        rw [List.filter_cons_of_pos (by simpa using hx)]
      rw [this]
      exact (List.Perm.cons x h1).trans (.swap _ _ _)

theorem find_none {t : Tape} {id : Nat} (h : t.find id = none) : ∀ r ∈ t, r.id ≠ id := by
  intro r hr
  have := List.find?_eq_none.1 h r hr
  simpa using this

/-- The manager represents the tape. -/
structure Inv (s : St) (t : Tape) : Prop where
  struct : Struct s (vol t)
  small : ∀ sym k, vol t sym k < W32
  ids : (t.map (·.id)).Nodup
  fit : ∀ r ∈ t, r.id < 300000000 ∧ r.sym < 10000 ∧ 0 < r.price ∧ r.price < 2147483648 ∧ 0 < r.qty
  ord : ∀ r ∈ t, (s.orders r.id).symbol = r.sym ∧ (s.orders r.id).quantity = r.qty ∧ Has s r.sym ⟨key r, (s.orders r.id).level⟩

theorem Struct.congr {s s' : St} {V} (h : Struct s V) (h1 : s'.books = s.books) (h2 : s'.alloc = s.alloc) (h3 : s'.free = s.free) :
    Struct s' V := by
  obtain ⟨b, o, a, f⟩ := s
  obtain ⟨b', o', a', f'⟩ := s'
  simp only at h1 h2 h3
  subst h1 h2 h3
  exact ⟨h.sorted, h.signs, h.level, h.known, h.apart, h.free_lt, h.free_nodup, h.used⟩

theorem Inv.perm {s : St} {t t' : Tape} (h : Inv s t) (hp : t.Perm t') : Inv s t' where
  struct := by rw [← vol_perm hp]; exact h.struct
  small := by rw [← vol_perm hp]; exact h.small
  ids := (hp.map _).nodup_iff.1 h.ids
  fit := fun r hr => h.fit r (hp.mem_iff.2 hr)
  ord := fun r hr => h.ord r (hp.mem_iff.2 hr)

theorem key_ne {r : Ticket} (h : 0 < r.price) : key r ≠ 0 := by
  unfold key; cases r.side <;> simp <;> omega

/-- An order joins. -/
theorem Inv.push {s : St} {t : Tape} (h : Inv s t) {r : Ticket} (hf : t.Fits r) {o : Ord} (ho : o.symbol = r.sym)
    (hq : o.quantity = r.qty) (hv : vol t r.sym (key r) + r.qty < W32) :
    ∃ s', bookAdd (setOrd s r.id o) r.sym r.id (key r) = .ok s' ∧ Inv s' (r :: t) := by
  obtain ⟨f1, f2, f3, f4, f5, _, f7⟩ := hf
  have hnew := find_none f7
  have hs1 : Struct (setOrd s r.id o) (vol t) := h.struct.congr rfl rfl rfl
  obtain ⟨i, s1, l, a1, a2, a3, a4, a5, a6⟩ := hs1.add f2 (key_ne f3) f5 hv
  unfold bookAdd
  rw [a1, Except.bind_ok]
  simp only [a2, Except.bind_ok, getOrd_ok f1, a3]
  have hmine : (setOrd s r.id o).orders r.id = o := if_pos rfl
  have hother : ∀ x ∈ t, (setOrd s r.id o).orders x.id = s.orders x.id := fun x hx => if_neg (hnew x hx)
  rw [hmine, hq]
  obtain ⟨s', hs'⟩ : ∃ s', s' = setOrd (setLevel s1 i { l with volume := add32 l.volume r.qty }) r.id { o with level := i } := ⟨_, rfl⟩
  have ho1 : s'.orders r.id = { o with level := i } := by rw [hs']; exact if_pos rfl
  have ho2 : ∀ x ∈ t, s'.orders x.id = s.orders x.id := by
    intro x hx
    rw [hs']
    show (if x.id = r.id then _ else s1.orders x.id) = _
    rw [if_neg (hnew x hx), a3, hother x hx]
  have hb : s'.books = s1.books := by rw [hs']; rfl
  refine ⟨s', by rw [hs', ← hq], ?_⟩
  constructor
  · rw [vol_cons, hs']; exact a4.congr rfl rfl rfl
  · intro a b
    rw [vol_cons]
    by_cases hc : a = r.sym ∧ b = key r
    · obtain ⟨rfl, rfl⟩ := hc; rw [chg_same]; exact hv
    · rw [chg_other hc]; exact h.small a b
  · rw [List.map_cons]
    refine List.nodup_cons.2 ⟨fun hm => ?_, h.ids⟩
    obtain ⟨x, hx, he⟩ := List.mem_map.1 hm
    exact hnew x hx he
  · intro x hx
    rcases List.mem_cons.1 hx with rfl | hx
    · exact ⟨f1, f2, f3, f4, f5⟩
    · exact h.fit x hx
  · intro x hx
    rcases List.mem_cons.1 hx with rfl | hx
    · rw [ho1]
      refine ⟨ho, hq, ?_⟩
      unfold Has; rw [hb]; exact a5
    · rw [ho2 x hx]
      obtain ⟨b1, b2, b3⟩ := h.ord x hx
      refine ⟨b1, b2, ?_⟩
      unfold Has; rw [hb]; exact a6 _ _ b3

/-- Some or all of the quantity of an order leaves its level. -/
theorem Inv.sub {s : St} {r : Ticket} {t : Tape} (h : Inv s (r :: t)) {o : Ord} (ho : o.level = (s.orders r.id).level) {q : Nat}
    (hq : q ≤ r.qty) {s1 : St} (h1 : s1.books = s.books) (h2 : s1.alloc = s.alloc) (h3 : s1.free = s.free)
    (h4 : ∀ x, x ≠ r.id → s1.orders x = s.orders x) :
    ∃ s', bookSub s1 r.sym o q = .ok s' ∧ s'.orders = s1.orders ∧
      (q = r.qty → Inv s' t) ∧
      (q < r.qty → (s1.orders r.id).symbol = r.sym → (s1.orders r.id).quantity = r.qty - q → (s1.orders r.id).level = (s.orders r.id).level →
        Inv s' ({ r with qty := r.qty - q } :: t)) := by
  have hs := h.struct.congr h1 h2 h3
  obtain ⟨_, f2, f3, _, f5⟩ := h.fit r (by simp)
  obtain ⟨_, _, o3⟩ := h.ord r (by simp)
  have hv : vol (r :: t) r.sym (key r) = vol t r.sym (key r) + r.qty := by rw [vol_cons, chg_same]
  have hh : Has s1 r.sym ⟨key r, o.level⟩ := by
    rw [ho]; unfold Has at o3 ⊢; rw [h1]; exact o3
  obtain ⟨s', a1, a2, a3, a4⟩ := hs.sub f2 hh (q := q) (by rw [hv]; omega) (h.small _ _)
  have hnd : r.id ∉ t.map (·.id) ∧ (t.map (·.id)).Nodup := by
    have := h.ids; rw [List.map_cons] at this; exact List.nodup_cons.1 this
  have hne : ∀ x ∈ t, x.id ≠ r.id := fun x hx he => hnd.1 (by rw [← he]; exact List.mem_map_of_mem hx)
  -- an order that stays keeps its level
  have hstay : ∀ x ∈ t, (s'.orders x.id).symbol = x.sym ∧ (s'.orders x.id).quantity = x.qty ∧ Has s' x.sym ⟨key x, (s'.orders x.id).level⟩ := by
    intro x hx
    obtain ⟨b1, b2, b3⟩ := h.ord x (by simp [hx])
    rw [a2, h4 _ (hne x hx)]
    refine ⟨b1, b2, a4 _ _ (by unfold Has at b3 ⊢; rw [h1]; exact b3) ?_⟩
    intro e1 e2
    have e2 : key x = key r := e2
    have hx5 := (h.fit x (by simp [hx])).2.2.2.2
    have : vol t x.sym (key x) ≥ x.qty := by
      have hp : t.Perm (x :: t.erase x) := List.perm_cons_erase hx
      rw [vol_perm hp, vol_cons, chg_same]; omega
    rw [hv, ← e1, ← e2]
    have : q ≤ r.qty := hq
    omega
  have hvol : ∀ a b, chg (vol (r :: t)) r.sym (key r) (vol (r :: t) r.sym (key r) - q) a b =
      chg (vol t) r.sym (key r) (vol t r.sym (key r) + (r.qty - q)) a b := by
    intro a b
    by_cases hc : a = r.sym ∧ b = key r
    · obtain ⟨rfl, rfl⟩ := hc; rw [chg_same, chg_same, hv]; omega
    · rw [chg_other hc, chg_other hc, vol_cons, chg_other hc]
  refine ⟨s', a1, a2, ?_, ?_⟩
  · rintro rfl
    have hvt : chg (vol (r :: t)) r.sym (key r) (vol (r :: t) r.sym (key r) - r.qty) = vol t := by
      funext a b
      rw [hvol]
      by_cases hc : a = r.sym ∧ b = key r
      · obtain ⟨rfl, rfl⟩ := hc; rw [chg_same]; omega
      · rw [chg_other hc]
    refine ⟨by rw [← hvt]; exact a3, fun a b => ?_, hnd.2, fun x hx => h.fit x (by simp [hx]), hstay⟩
    have := h.small a b
    rw [← hvt]
    by_cases hc : a = r.sym ∧ b = key r
    · obtain ⟨rfl, rfl⟩ := hc; rw [chg_same]; omega
    · rw [chg_other hc]; exact this
  · intro hlt c1 c2 c3
    have hk : key { r with qty := r.qty - q } = key r := rfl
    have hvt : vol ({ r with qty := r.qty - q } :: t) = chg (vol (r :: t)) r.sym (key r) (vol (r :: t) r.sym (key r) - q) := by
      rw [vol_cons]; funext a b; rw [hvol]; rfl
    refine ⟨by rw [hvt]; exact a3, fun a b => ?_, h.ids, ?_, ?_⟩
    · have := h.small a b
      rw [hvt]
      by_cases hc : a = r.sym ∧ b = key r
      · obtain ⟨rfl, rfl⟩ := hc; rw [chg_same]; omega
      · rw [chg_other hc]; exact this
    · intro x hx
      rcases List.mem_cons.1 hx with rfl | hx
      · obtain ⟨g1, g2, g3, g4, g5⟩ := h.fit r (by simp)
        exact ⟨g1, g2, g3, g4, by show 0 < r.qty - q; omega⟩
      · exact h.fit x (by simp [hx])
    · intro x hx
      rcases List.mem_cons.1 hx with rfl | hx
      · show (s'.orders r.id).symbol = r.sym ∧ (s'.orders r.id).quantity = r.qty - q ∧ Has s' r.sym ⟨key r, (s'.orders r.id).level⟩
        rw [a2, c3]
        refine ⟨c1, c2, a4 _ _ (by unfold Has at o3 ⊢; rw [h1]; exact o3) ?_⟩
        intro _ _
        rw [hv]; omega
      · exact hstay x hx

theorem key_iff {r : Ticket} (h : 0 < r.price) (sd : Side) (p : Nat) :
    key r = skey sd p ↔ r.side = sd ∧ r.price = p := by
  unfold key skey
  cases hs : r.side <;> cases sd <;> simp <;> omega

theorem volume_eq {t : Tape} (h : ∀ r ∈ t, 0 < r.price) (sym : Nat) (sd : Side) (p : Nat) :
    t.volume sym sd p = vol t sym (skey sd p) := by
  unfold Tape.volume vol
  congr 2
  apply List.filter_congr
  intro r hr
  simp only [key_iff (h r hr)]

theorem fits_vol {t : Tape} (h : ∀ r ∈ t, 0 < r.price) {r : Ticket} (hf : t.Fits r) : vol t r.sym (key r) + r.qty < W32 := by
  have := hf.2.2.2.2.2.1
  rw [volume_eq h] at this
  exact this

theorem sub32_le {a b : Nat} (h : b ≤ a) (ha : a < W32) : sub32 a b = a - b := by
  unfold sub32
  rw [Nat.mod_eq_of_lt (show b < W32 by omega), show a + W32 - b = (a - b) + W32 by omega, Nat.add_mod_right,
    Nat.mod_eq_of_lt (by omega)]

theorem qty_small {s : St} {r : Ticket} {t : Tape} (h : Inv s (r :: t)) : r.qty < W32 := by
  have := h.small r.sym (key r)
  rw [vol_cons, chg_same] at this; omega

/-- The price of an order decides the sign of a new price. -/
theorem Inv.signed {s : St} {r : Ticket} {t : Tape} (h : Inv s (r :: t)) {p : Nat} (hp : p < 2147483648) :
    signed s (s.orders r.id) p = .ok (key { r with price := p }) := by
  obtain ⟨_, _, o3⟩ := h.ord r (by simp)
  obtain ⟨_, _, f3, _, _⟩ := h.fit r (by simp)
  unfold Aggr.signed
  rw [getLevel_ok (h.struct.level _ _ o3).1, Except.bind_ok]
  unfold key
  cases hs : r.side
  · simp only [hs]; rw [if_neg (by omega)]
  · simp only [hs]; rw [if_pos (by omega)]; unfold neg32; rw [if_neg (by omega)]

/-- One piece of the feed. -/
theorem Inv.call {s : St} {t : Tape} (h : Inv s t) {x : Tick} (hx : t.Consistent x) :
    ∃ s', Aggr.call s x = .ok s' ∧ Inv s' (t.next x) := by
  have hpos : ∀ r ∈ t, 0 < r.price := fun r hr => (h.fit r hr).2.2.1
  cases x with
  | book sym =>
    obtain ⟨h1, h2⟩ := hx
    have hz : ∀ k, vol t sym k = 0 := by
      intro k
      unfold vol
      rw [List.filter_eq_nil_iff.2 (by intro r hr; simp [h2 r hr])]
      rfl
    have hempty : s.books sym = ⟨[], []⟩ := by
      have he : ∀ k, (s.books sym).side k = [] := by
        intro k
        apply List.eq_nil_iff_forall_not_mem.2
        intro e he
        have hh : Has s sym e := by unfold Has; rw [side_congr (h.struct.signs sym k e he)]; exact he
        have := (h.struct.level sym e hh).2.1
        rw [hz] at this; omega
      have e1 := he 1
      have e2 := he 0
      unfold Book.side at e1 e2
      rw [if_pos (by omega)] at e1
      rw [if_neg (by omega)] at e2
      cases hb : s.books sym
      rw [hb] at e1 e2
      simp only at e1 e2
      rw [e1, e2]
    refine ⟨s, ?_, h⟩
    show addOrderBook s sym = _
    unfold addOrderBook
    rw [getBook_ok h1, Except.bind_ok]
    congr 1
    unfold setBook
    rw [← hempty]
    have : (fun j => if j = sym then s.books sym else s.books j) = s.books := by
      funext j; by_cases hj : j = sym
      · rw [if_pos hj, hj]
      · rw [if_neg hj]
    rw [this]
  | add r =>
    obtain ⟨s', a1, a2⟩ := h.push hx (o := { s.orders r.id with symbol := r.sym, quantity := r.qty }) rfl rfl (fits_vol hpos hx)
    refine ⟨s', ?_, a2⟩
    show addOrder s r.id r.sym (key r) r.qty = _
    unfold addOrder
    rw [getOrd_ok hx.1, Except.bind_ok]
    exact a1
  | take id q =>
    obtain ⟨r, hr, hq⟩ := hx
    obtain ⟨hp, rfl⟩ := find_perm h.ids hr
    have h' := h.perm hp
    obtain ⟨f1, _, _, _, _⟩ := h'.fit r (by simp)
    obtain ⟨o1, o2, _⟩ := h'.ord r (by simp)
    have hsub : sub32 (s.orders r.id).quantity q = r.qty - q := by rw [o2]; exact sub32_le hq (qty_small h')
    obtain ⟨s', a1, _, a3, a4⟩ := h'.sub (o := { s.orders r.id with quantity := r.qty - q }) rfl hq
      (s1 := setOrd s r.id { s.orders r.id with quantity := r.qty - q }) rfl rfl rfl (fun x hx => if_neg hx)
    refine ⟨s', ?_, ?_⟩
    · show reduceOrder s r.id q = _
      unfold reduceOrder
      rw [getOrd_ok f1, Except.bind_ok]
      simp only [hsub, o1]
      rw [← o1] at a1
      simp only [o1] at a1
      exact a1
    · unfold Tape.next
      simp only [hr]
      have hset : (setOrd s r.id { s.orders r.id with quantity := r.qty - q }).orders r.id = { s.orders r.id with quantity := r.qty - q } := if_pos rfl
      by_cases hlt : q < r.qty
      · rw [if_pos hlt]
        exact a4 hlt (by rw [hset]; exact o1) (by rw [hset]) (by rw [hset])
      · rw [if_neg hlt]
        exact a3 (by omega)
  | delete id =>
    obtain ⟨r, hr⟩ := hx
    obtain ⟨hp, rfl⟩ := find_perm h.ids hr
    have h' := h.perm hp
    obtain ⟨f1, _, _, _, _⟩ := h'.fit r (by simp)
    obtain ⟨o1, o2, _⟩ := h'.ord r (by simp)
    obtain ⟨s', a1, _, a3, _⟩ := h'.sub (o := s.orders r.id) rfl (Nat.le_refl _) (s1 := s) rfl rfl rfl (fun _ _ => rfl)
    refine ⟨s', ?_, a3 rfl⟩
    show deleteOrder s r.id = _
    unfold deleteOrder
    rw [getOrd_ok f1, Except.bind_ok, o1, o2]; exact a1
  | modify id p q =>
    obtain ⟨r, hr, hf, hp31⟩ := hx
    obtain ⟨hp, rfl⟩ := find_perm h.ids hr
    have h' := h.perm hp
    obtain ⟨f1, _, _, _, _⟩ := h'.fit r (by simp)
    obtain ⟨o1, o2, _⟩ := h'.ord r (by simp)
    obtain ⟨s', a1, a2, a3, _⟩ := h'.sub (o := s.orders r.id) rfl (Nat.le_refl _) (s1 := s) rfl rfl rfl (fun _ _ => rfl)
    have h3 := a3 rfl
    have hpos' : ∀ r' ∈ t.without r.id, 0 < r'.price := fun x hx => (h3.fit x hx).2.2.1
    have hrun : Aggr.call s (.modify r.id p q) =
        if q > 0 then bookAdd (setOrd s' r.id { s.orders r.id with quantity := q }) r.sym r.id (key { r with price := p, qty := q })
        else .ok (setOrd s' r.id { s.orders r.id with quantity := q }) := by
      show modifyOrder s r.id p q = _
      unfold modifyOrder
      rw [getOrd_ok f1, Except.bind_ok, h'.signed hp31, Except.bind_ok, o1, o2, a1, Except.bind_ok]
      have hk : key { r with price := p, qty := q } = key { r with price := p } := rfl
      rw [hk]
      simp only [o1]
    rw [hrun]
    unfold Tape.next
    simp only [hr]
    by_cases hq : 0 < q
    · rw [if_pos hq, if_pos hq]
      exact h3.push (hf hq) o1 rfl (fits_vol hpos' (hf hq))
    · rw [if_neg hq, if_neg hq]
      refine ⟨_, rfl, h3.struct.congr rfl rfl rfl, h3.small, h3.ids, h3.fit, ?_⟩
      intro x hx
      have hne : x.id ≠ r.id := by
        have := (List.mem_filter.1 hx).2; simpa using this
      have : (setOrd s' r.id { s.orders r.id with quantity := q }).orders x.id = s'.orders x.id := if_neg hne
      rw [this]
      exact h3.ord x hx
  | replace id n p q =>
    obtain ⟨r, hr, hf, hp31⟩ := hx
    obtain ⟨hp, rfl⟩ := find_perm h.ids hr
    have h' := h.perm hp
    obtain ⟨f1, _, _, _, _⟩ := h'.fit r (by simp)
    obtain ⟨o1, o2, _⟩ := h'.ord r (by simp)
    obtain ⟨s', a1, a2, a3, _⟩ := h'.sub (o := s.orders r.id) rfl (Nat.le_refl _) (s1 := s) rfl rfl rfl (fun _ _ => rfl)
    have h3 := a3 rfl
    have hpos' : ∀ r' ∈ t.without r.id, 0 < r'.price := fun x hx => (h3.fit x hx).2.2.1
    unfold Tape.next
    simp only [hr]
    by_cases hq : 0 < q
    · rw [if_pos hq]
      have hn : n < 300000000 := (hf hq).1
      obtain ⟨s2, b1, b2⟩ := h3.push (hf hq) (o := { s'.orders n with symbol := r.sym, quantity := q }) rfl rfl (fits_vol hpos' (hf hq))
      refine ⟨s2, ?_, b2⟩
      show replaceOrder s r.id n p q = _
      unfold replaceOrder
      rw [getOrd_ok f1, Except.bind_ok, h'.signed hp31, Except.bind_ok, o1, o2, a1, Except.bind_ok, if_pos hq, getOrd_ok hn, Except.bind_ok]
      exact b1
    · rw [if_neg hq]
      refine ⟨s', ?_, h3⟩
      show replaceOrder s r.id n p q = _
      unfold replaceOrder
      rw [getOrd_ok f1, Except.bind_ok, h'.signed hp31, Except.bind_ok, o1, o2, a1, Except.bind_ok, if_neg hq]

theorem inv_init : Inv init [] where
  struct := {
    sorted := by intro a k; unfold Book.side init; simp [Sorted]
    signs := by intro a k e he; unfold Book.side init at he; simp at he
    level := by intro a e he; unfold Has Book.side init at he; simp at he
    known := by intro a k hk; simp [vol] at hk
    apart := by intro a e a' e' he; unfold Has Book.side init at he; simp at he
    free_lt := by intro i hi; cases hi
    free_nodup := by simp [init]
    used := by intro i hi; simp [init] at hi }
  small := by intro a k; simp [vol]
  ids := by simp
  fit := by simp
  ord := by simp

theorem Inv.run {t : Tape} : ∀ (xs : List Tick) {s : St} {t : Tape}, Inv s t → t.ConsistentAll xs →
    ∃ s', Aggr.run s xs = .ok s' ∧ Inv s' (t.after xs)
  | [], s, _, h, _ => ⟨s, rfl, h⟩
  | x :: xs, s, t, h, hc => by
    obtain ⟨s1, h1, h2⟩ := h.call hc.1
    obtain ⟨s2, h3, h4⟩ := Inv.run (t := t) xs h2 hc.2
    refine ⟨s2, ?_, h4⟩
    unfold Aggr.run
    rw [h1, Except.bind_ok, h3]

/-- What is shown is what rests. -/
theorem Inv.levels {s : St} {t : Tape} (h : Inv s t) (sym : Nat) (sd : Side) : t.Levels sym sd (levels s sym sd) := by
  have hpos : ∀ r ∈ t, 0 < r.price := fun r hr => (h.fit r hr).2.2.1
  have hside : ∀ e, e ∈ (s.books sym).half sd → Has s sym e ∧ e.price = skey sd e.price.natAbs := by
    intro e he
    cases sd with
    | buy =>
      have he : e ∈ (s.books sym).side 1 := he
      have hs := h.struct.signs sym 1 e he
      refine ⟨by unfold Has; rw [side_congr hs]; exact he, ?_⟩
      have := hs.2 (by omega)
      simp only [skey]; omega
    | sell =>
      have he : e ∈ (s.books sym).side 0 := he
      have hs := h.struct.signs sym 0 e he
      refine ⟨by unfold Has; rw [side_congr hs]; exact he, ?_⟩
      have : ¬ 0 < e.price := fun h' => absurd (hs.1 h') (by omega)
      simp only [skey]; omega
  constructor
  · unfold Aggr.levels
    rw [List.pairwise_map]
    have hsorted : Sorted ((s.books sym).half sd) := by
      cases sd
      · exact h.struct.sorted sym 1
      · exact h.struct.sorted sym 0
    refine List.Pairwise.imp_of_mem ?_ hsorted
    intro a b ha hb hab
    have h1 := (hside a ha).2
    have h2 := (hside b hb).2
    have hab : b.price < a.price := hab
    cases sd <;> simp only [skey] at h1 h2 ⊢ <;> omega
  · intro p v
    unfold Aggr.levels
    rw [List.mem_map, volume_eq hpos]
    constructor
    · rintro ⟨e, he, heq⟩
      obtain ⟨h1, h2⟩ := hside e he
      obtain ⟨l1, l2, _⟩ := h.struct.level sym e h1
      rw [l1] at heq
      simp only [Prod.mk.injEq] at heq
      obtain ⟨rfl, rfl⟩ := heq
      rw [← h2]
      exact ⟨rfl, l2⟩
    · rintro ⟨rfl, hv⟩
      obtain ⟨i, hi⟩ := h.struct.known _ _ hv
      have hp : 0 < p := by
        rcases Nat.eq_zero_or_pos p with rfl | hp
        · exfalso
          have : vol t sym (skey sd 0) = 0 := by
            unfold vol
            rw [List.filter_eq_nil_iff.2 (by
              intro r hr
              have := hpos r hr
              simp only [key_iff this, decide_eq_true_eq]
              omega)]
            rfl
          omega
        · exact hp
      refine ⟨⟨skey sd p, i⟩, ?_, ?_⟩
      · unfold Has Book.side at hi
        cases sd
        · rw [if_pos (by simp only [skey]; omega)] at hi; exact hi
        · rw [if_neg (by simp only [skey]; omega)] at hi; exact hi
      · obtain ⟨l1, _, _⟩ := h.struct.level _ _ hi
        simp only at l1
        rw [l1]
        cases sd <;> simp [skey]

/-- C58: after every consistent feed, of any length, the level-only manager shows, for every symbol and side, exactly the
price levels of the orders that rest, best first, with the quantities that rest there; no index is out of range and no
signed arithmetic overflows on the way. -/
theorem C58_levels (xs : List Tick) (h : Tape.ConsistentAll [] xs) :
    ∃ s, run init xs = .ok s ∧ ∀ sym sd, (Tape.after [] xs).Levels sym sd (levels s sym sd) := by
  obtain ⟨s, h1, h2⟩ := Inv.run (t := []) xs inv_init h
  exact ⟨s, h1, h2.levels⟩

/-- C58, memory: after every consistent feed each entry of the pool of levels is either free, or the entry of exactly one
price level of one book; no entry is free twice. Nothing leaks and nothing is shared. -/
theorem C58_pool (xs : List Tick) (h : Tape.ConsistentAll [] xs) :
    ∃ s, run init xs = .ok s ∧ s.free.Nodup ∧ (∀ i ∈ s.free, i < s.alloc.length) ∧
      (∀ i < s.alloc.length, i ∈ s.free ∨ ∃ sym sd, ∃ e ∈ (s.books sym).half sd, e.level = i) ∧
      (∀ sym sd, ∀ e ∈ (s.books sym).half sd, e.level < s.alloc.length ∧ e.level ∉ s.free) ∧
      ∀ sym sd sym' sd' e e', e ∈ (s.books sym).half sd → e' ∈ (s.books sym').half sd' → e.level = e'.level →
        sym = sym' ∧ sd = sd' ∧ e = e' := by
  obtain ⟨s, h1, h2⟩ := Inv.run (t := []) xs inv_init h
  have hS := h2.struct
  have hsign : ∀ {sym sd} {e : PriceLevel}, e ∈ (s.books sym).half sd → Has s sym e ∧ (0 < e.price ↔ sd = .buy) := by
    intro sym sd e he
    cases sd with
    | buy =>
      have hs := (hS.signs sym 1 e (by unfold Book.side; rw [if_pos (by omega)]; exact he)).2 (by omega)
      exact ⟨by unfold Has Book.side; rw [if_pos hs]; exact he, fun _ => rfl, fun _ => hs⟩
    | sell =>
      have hs : ¬ 0 < e.price := fun hp =>
        absurd ((hS.signs sym 0 e (by unfold Book.side; rw [if_neg (by omega)]; exact he)).1 hp) (by omega)
      exact ⟨by unfold Has Book.side; rw [if_neg hs]; exact he, fun hp => absurd hp hs, fun hp => by cases hp⟩
  refine ⟨s, h1, hS.free_nodup, hS.free_lt, ?_, ?_, ?_⟩
  · intro i hi
    rcases hS.used i hi with h | ⟨sym, e, he, rfl⟩
    · exact .inl h
    · unfold Has Book.side at he
      by_cases hp : e.price > 0
      · rw [if_pos hp] at he; exact .inr ⟨sym, .buy, e, he, rfl⟩
      · rw [if_neg hp] at he; exact .inr ⟨sym, .sell, e, he, rfl⟩
  · intro sym sd e he
    obtain ⟨l1, _, l3⟩ := hS.level sym e (hsign he).1
    exact ⟨(List.getElem?_eq_some_iff.1 l1).1, l3⟩
  · intro sym sd sym' sd' e e' he he' hl
    obtain ⟨rfl, rfl⟩ := hS.apart sym e sym' e' (hsign he).1 (hsign he').1 hl
    refine ⟨rfl, ?_, rfl⟩
    have a := (hsign he).2
    have b := (hsign he').2
    cases sd <;> cases sd' <;> simp_all

/-! ### It is not vacuous -/

instance (t : Tape) (r : Ticket) : Decidable (t.Fits r) := by unfold Tape.Fits; infer_instance

instance decSome {α} (o : Option α) (p : α → Prop) [DecidablePred p] : Decidable (∃ r, o = some r ∧ p r) :=
  match o with
  | none => isFalse (by rintro ⟨_, h, _⟩; cases h)
  | some r => if h : p r then isTrue ⟨r, rfl, h⟩ else isFalse (by rintro ⟨_, h1, h2⟩; cases h1; exact h h2)

instance decSome' {α} (o : Option α) : Decidable (∃ r, o = some r) :=
  match o with
  | none => isFalse (by rintro ⟨_, h⟩; cases h)
  | some r => isTrue ⟨r, rfl⟩

instance (t : Tape) (x : Tick) : Decidable (t.Consistent x) := by
  cases x <;> unfold Tape.Consistent <;> infer_instance

instance Tape.decAll : (t : Tape) → (xs : List Tick) → Decidable (Tape.ConsistentAll t xs)
  | _, [] => isTrue trivial
  | t, x :: xs => by
    unfold Tape.ConsistentAll
    have := Tape.decAll (t.next x) xs
    infer_instance

/-- A feed with two books, three bids on two levels, two asks, a partial execution, a modification, a replacement, a
cancellation of all that is left, and a deletion. -/
def tapeDay : List Tick :=
  [.book 1, .book 2, .add ⟨11, 1, .buy, 100, 5⟩, .add ⟨12, 1, .buy, 101, 7⟩, .add ⟨13, 1, .buy, 100, 6⟩, .add ⟨14, 1, .sell, 105, 9⟩,
   .add ⟨15, 2, .sell, 50, 4⟩, .add ⟨16, 1, .sell, 104, 2⟩, .take 13 2, .modify 14 106 8, .replace 11 21 99 3, .take 12 7, .delete 16]

/-- C58 applies to it. -/
example : Tape.ConsistentAll [] tapeDay ∧
    (run init tapeDay).toOption.map (fun s => (levels s 1 .buy, levels s 1 .sell, levels s 2 .sell, s.free.length, s.alloc.length)) =
      some ([(100, 4), (99, 3)], [(106, 8)], [(50, 4)], 2, 6) := by
  exact ⟨by decide +kernel, by decide +kernel⟩

/-! ### Feeds that are not consistent are not detected -/

/-- Taking more than is left wraps the volume of the level around. -/
example : (run init [.book 1, .add ⟨11, 1, .buy, 100, 5⟩, .take 11 6]).toOption.map (fun s => levels s 1 .buy) =
    some [(100, 4294967295)] := by decide +kernel

/-- Announcing a book again drops its levels; the next execution then works on a level that is in no book. -/
example : (run init [.book 1, .add ⟨11, 1, .buy, 100, 5⟩, .book 1]).toOption.map (fun s => (levels s 1 .buy, s.alloc.length, s.free.length)) =
    some ([], 1, 0) := by decide +kernel

/-- Deleting an order that is gone takes the volume off a level that may belong to someone else by then: here the level of
order 12, in another book, on the other side. -/
theorem C58_unchecked_witness : (run init [.book 1, .book 2, .add ⟨11, 1, .buy, 100, 5⟩, .delete 11, .add ⟨12, 2, .sell, 70, 8⟩, .delete 11]).toOption.map
    (fun s => levels s 2 .sell) = some [(70, 3)] := by decide +kernel

/-- A deletion before anything was added reads the pool out of range. -/
example : call init (.delete 11) = .error .ub := rfl

/-- C58: the five-argument form of `ReplaceOrder`, which no program in the repository calls, takes the sign of the price from
the old order (so that the new one is on the same side), deletes the old order and adds the new one; a quantity of zero only
deletes. On the symbol of the old order it is the four-argument form. -/
theorem C58_replace_with (s : St) (id new sym : Nat) (price : Int) (qty : Nat) :
    (replaceWith s id new sym price qty = (getOrd s id >>= fun o => signed s o price >>= fun p => deleteOrder s id >>= fun t =>
      if qty > 0 then addOrder t new sym p qty else .ok t)) ∧
    replaceWith s id new (s.orders id).symbol price qty = replaceOrder s id new price qty := by
  constructor
  · unfold replaceWith deleteOrder addOrder
    cases getOrd s id with
    | error e => rfl
    | ok o =>
      simp only [Except.bind_ok]
  · unfold replaceWith replaceOrder
    have h : getOrd s id = .ok (s.orders id) ∨ ∃ e, getOrd s id = .error e := by
      unfold getOrd; split
      · exact .inl rfl
      · exact .inr ⟨_, rfl⟩
    rcases h with h | ⟨e, h⟩
    · rw [h, Except.bind_ok, Except.bind_ok]
    · rw [h]; simp only [bind, Except.bind]

/-- Concretely: the ask 11 on symbol 1 is replaced by the ask 12 on symbol 2. -/
example : ((run init [.book 1, .book 2, .add ⟨11, 1, .sell, 100, 5⟩]) >>= fun s => replaceWith s 11 12 2 101 3).toOption.map
    (fun s => (levels s 1 .sell, levels s 2 .sell)) = some ([], [(101, 3)]) := by
  decide +kernel

end CppTrader.Aggr
