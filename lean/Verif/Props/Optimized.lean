import Verif.News
import Verif.Proof.Optimized
import Verif.Props.Agreement
/-
C64: what the optimised manager shows.
-/

namespace CppTrader.Opt

/-- The call for a report. -/
def call (s : St) : Report → Except Err St
  | .tick (.book sym) => addOrderBook s sym
  | .tick (.add r) => addOrder s r.id r.sym r.side r.price r.qty
  | .tick (.take id q) => executeAt s id (·.price) q
  | .tick (.delete id) => deleteOrder s id
  | .tick (.modify id p q) => modifyOrder s id p q
  | .tick (.replace id n p q) => replaceOrder s id n p q
  | .cancel id q => reduceOrder s id q

def run (s : St) : List Report → Except Err St
  | [] => .ok s
  | x :: xs => do
    let s ← call s x
    run s xs

/-- The volumes of a tape. -/
def vol (t : Tape) : Table := fun a c b => t.volume a c b
/-- The numbers of orders of a tape. -/
def num (t : Tape) : Table := fun a c b => (List.filter (fun r => r.sym = a ∧ r.side = c ∧ r.price = b) t).length

theorem vol_cons (r : Ticket) (t : Tape) : vol (r :: t) = chg (vol t) r.sym r.side r.price (vol t r.sym r.side r.price + r.qty) := by
  funext a c b
  unfold vol Tape.volume
  by_cases h : a = r.sym ∧ c = r.side ∧ b = r.price
  · obtain ⟨rfl, rfl, rfl⟩ := h
    rw [chg_same]; simp; omega
  · rw [chg_other h, List.filter_cons_of_neg (by simp; intro h1 h2 h3; exact h ⟨h1.symm, h2.symm, h3.symm⟩)]

theorem num_cons (r : Ticket) (t : Tape) : num (r :: t) = chg (num t) r.sym r.side r.price (num t r.sym r.side r.price + 1) := by
  funext a c b
  unfold num
  by_cases h : a = r.sym ∧ c = r.side ∧ b = r.price
  · obtain ⟨rfl, rfl, rfl⟩ := h
    rw [chg_same]; simp
  · rw [chg_other h, List.filter_cons_of_neg (by simp; intro h1 h2 h3; exact h ⟨h1.symm, h2.symm, h3.symm⟩)]

theorem vol_perm {t t' : Tape} (h : t.Perm t') : vol t = vol t' := by
  funext a c b
  exact ((h.filter _).map _).sum_nat

theorem num_perm {t t' : Tape} (h : t.Perm t') : num t = num t' := by
  funext a c b
  exact (h.filter _).length_eq

theorem num_le_vol {t u : Tape} (h : ∀ r ∈ t, 0 < r.qty) (a : Nat) (c : Side) (b : Nat) : num t a c b ≤ vol (t ++ u) a c b := by
  induction t with
  | nil => exact Nat.zero_le _
  | cons r t ih =>
    have ih := ih (fun x hx => h x (by simp [hx]))
    rw [List.cons_append, vol_cons, num_cons]
    by_cases hc : a = r.sym ∧ c = r.side ∧ b = r.price
    · obtain ⟨rfl, rfl, rfl⟩ := hc
      rw [chg_same, chg_same]
      have := h r (by simp)
      omega
    · rw [chg_other hc, chg_other hc]; exact ih

theorem qty_le_vol {t : Tape} {r : Ticket} (h : r ∈ t) : r.qty ≤ vol t r.sym r.side r.price := by
  rw [vol_perm (List.perm_cons_erase h), vol_cons, chg_same]; omega

/-- The manager represents what is seen. -/
structure Inv (s : St) (z : Seen) : Prop where
  struct : Struct s (vol z.all) (num z.tape)
  small : ∀ sym sd p, vol z.all sym sd p < W32
  ids : (z.tape.map (·.id)).Nodup
  fit : ∀ r ∈ z.tape, r.id < 300000000 ∧ r.sym < 10000 ∧ 0 < r.qty
  ord : ∀ r ∈ z.tape, s.orders r.id = ⟨r.id, r.sym, r.side, r.price, r.qty, (s.orders r.id).level⟩ ∧
    Has s r.sym r.side ⟨r.price, (s.orders r.id).level⟩
  noted : ∀ id, (s.orders id).price = z.noted id

theorem Inv.perm {s : St} {z : Seen} (h : Inv s z) {t : Tape} (hp : z.tape.Perm t) : Inv s { z with tape := t } where
  struct := by
    have : vol (t ++ z.stuck) = vol z.all := (vol_perm (hp.append_right _)).symm
    show Struct s (vol (t ++ z.stuck)) (num t)
    rw [this, ← num_perm hp]; exact h.struct
  small := by
    intro a c b
    show vol (t ++ z.stuck) a c b < W32
    rw [vol_perm (hp.symm.append_right _)]; exact h.small a c b
  ids := (hp.map _).nodup_iff.1 h.ids
  fit := fun r hr => h.fit r (hp.mem_iff.2 hr)
  ord := fun r hr => h.ord r (hp.mem_iff.2 hr)
  noted := h.noted

/-- What is shown. -/
theorem Inv.levels {s : St} {z : Seen} (h : Inv s z) (sym : Nat) (sd : Side) : z.Levels sym sd (levels s sym sd) := by
  constructor
  · unfold Opt.levels
    rw [List.pairwise_map]
    refine (h.struct.sorted sym sd).imp ?_
    intro a b hab
    cases sd <;> simpa [behind] using hab
  · intro p v n
    unfold Opt.levels
    rw [List.mem_map]
    constructor
    · rintro ⟨e, he, heq⟩
      obtain ⟨l1, l2, _⟩ := h.struct.level sym sd e he
      rw [l1] at heq
      simp only [Prod.mk.injEq] at heq
      obtain ⟨rfl, rfl, rfl⟩ := heq
      exact ⟨rfl, rfl, l2⟩
    · rintro ⟨rfl, rfl, hv⟩
      obtain ⟨i, hi⟩ := h.struct.known sym sd p hv
      obtain ⟨l1, _, _⟩ := h.struct.level _ _ _ hi
      simp only at l1
      refine ⟨_, hi, ?_⟩
      simp only [l1]
      rfl

/-- An entry of a book is at the top of it exactly if its price is the best one shown. -/
theorem Inv.top {s : St} {z : Seen} (h : Inv s z) {sym : Nat} {sd : Side} {p i : Nat} (hh : Has s sym sd ⟨p, i⟩) :
    isTop (s.books sym) sd i = true ↔ z.Best sym sd p := by
  have hs := h.struct.sorted sym sd
  have hv : z.Shows sym sd p := (h.struct.level _ _ _ hh).2.1
  have hx := hh
  unfold Has at hx
  unfold isTop
  cases hl : (s.books sym).half sd with
  | nil => rw [hl] at hx; cases hx
  | cons x l =>
    rw [hl] at hx hs
    simp only [decide_eq_true_eq]
    have hx1 : Has s sym sd x := by unfold Has; rw [hl]; exact .head _
    constructor
    · intro he
      have : x = ⟨p, i⟩ := (h.struct.apart _ _ _ _ _ _ hx1 hh he).2.2
      refine ⟨hv, fun p' hp' => ?_⟩
      obtain ⟨j, hj⟩ := h.struct.known sym sd p' hp'
      unfold Has at hj
      rw [hl] at hj
      rcases List.mem_cons.1 hj with hj | hj
      · rw [this] at hj; cases hj; cases sd <;> exact Nat.le_refl _
      · have := (List.pairwise_cons.1 hs).1 _ hj
        subst x
        cases sd <;> simp only [behind, decide_eq_true_eq] at this ⊢ <;> omega
    · rintro ⟨_, hb⟩
      have hb := hb x.price (h.struct.level _ _ _ hx1).2.1
      rcases List.mem_cons.1 hx with hx | hx
      · rw [← hx]
      · have := (List.pairwise_cons.1 hs).1 _ hx
        cases sd <;> simp only [behind, decide_eq_true_eq] at this hb <;> omega

/-- The numbers of price levels. -/
theorem Inv.sizes {s : St} {z : Seen} (h : Inv s z) (sym : Nat) (sd : Side) : ∃ L, z.Levels sym sd L ∧ ((s.books sym).half sd).length = L.length :=
  ⟨_, h.levels sym sd, by unfold Opt.levels; rw [List.length_map]⟩

/-- The callbacks for a change at a price. -/
def News (s s' : St) (z z' : Seen) (sym : Nat) (sd : Side) (p : Nat) : Prop :=
  ∃ c l top bids asks, s'.ev = s.ev ++ [.level c l top, .updateBook bids asks top] ∧ z.Moves z' sym sd p c l top bids asks

theorem findLevel_kind {s s1 : St} {V N} (h : Struct s V N) {sym i : Nat} {o : Ord} {c : Change} (hs : sym < 10000)
    (run : findLevel s sym o = .ok (i, c, s1)) : c = if ¬ 0 < V sym o.side o.price then .add else .update := by
  unfold findLevel at run
  rw [getBook_ok hs, Except.bind_ok] at run
  cases hf : search o.side o.price ((s.books sym).half o.side) with
  | some j =>
    simp only [hf] at run
    cases run
    rw [if_neg (fun hn => hn (h.level _ _ _ (search_some hf)).2.1)]
  | none =>
    simp only [hf] at run
    cases run
    rw [if_pos]
    intro hv
    obtain ⟨j, hj⟩ := h.known sym o.side o.price hv
    exact search_none (h.sorted sym o.side) hf _ hj rfl

theorem bookEnd_ev {s s' : St} {sym : Nat} {o : Ord} {l : Level} (hs : sym < 10000) (run : bookEnd s sym o l = .ok s') :
    s'.ev = s.ev ++ [.level (if l.volume = 0 then .delete else .update) l (isTop (s.books sym) o.side o.level),
      .updateBook (s'.books sym).bids.length (s'.books sym).asks.length (isTop (s.books sym) o.side o.level)] ∧
    (l.volume ≠ 0 → s'.books = s.books) := by
  unfold bookEnd at run
  rw [getBook_ok hs, Except.bind_ok] at run
  by_cases hv : l.volume = 0
  · simp only [hv, if_true] at run ⊢
    unfold deleteLevel at run
    rw [show getBook (setLevel s o.level l) sym = .ok (s.books sym) from if_pos hs, Except.bind_ok, Except.bind_ok] at run
    cases run
    refine ⟨?_, fun h => absurd rfl h⟩
    show (s.ev ++ [_]) ++ [_] = _
    rw [List.append_assoc]
    rfl
  · simp only [hv, if_false] at run ⊢
    cases run
    refine ⟨?_, fun _ => rfl⟩
    show (s.ev ++ [_]) ++ [_] = _
    rw [List.append_assoc]
    rfl

/-- An order joins. -/
theorem Inv.push {s : St} {z : Seen} (h : Inv s z) {r : Ticket} (hf : z.Fits r) {s1 : St} {lv : Nat} (h1 : s1.books = s.books)
    (h2 : s1.alloc = s.alloc) (h3 : s1.free = s.free) (h4 : s1.orders r.id = ⟨r.id, r.sym, r.side, r.price, r.qty, lv⟩)
    (h5 : ∀ x, x ≠ r.id → s1.orders x = s.orders x) :
    ∃ s', bookAdd s1 r.sym r.id = .ok s' ∧
      News s1 s' z (Seen.note { z with tape := r :: z.tape } r.id r.price) r.sym r.side r.price ∧
      Inv s' (Seen.note { z with tape := r :: z.tape } r.id r.price) := by
  obtain ⟨f1, f2, f3, f4, f5⟩ := hf
  have hnew := Aggr.find_none f5
  have hs1 : Struct s1 (vol z.all) (num z.tape) := h.struct.congr h1 h2 h3
  obtain ⟨i, c, s2, l, a1, a2, a3, a3', a4, a5, a6⟩ := hs1.add (o := ⟨r.id, r.sym, r.side, r.price, r.qty, lv⟩) f2 f3 f4
    (num_le_vol (fun x hx => (h.fit x hx).2.2) _ _ _)
  simp only at a4 a5
  unfold bookAdd
  rw [getOrd_ok f1, Except.bind_ok, h4, a1, Except.bind_ok]
  simp only [a2, Except.bind_ok]
  obtain ⟨s', hs'⟩ : ∃ s', s' = setOrd (setLevel s2 i { l with volume := add32 l.volume r.qty, orders := add64 l.orders 1 }) r.id
    ⟨r.id, r.sym, r.side, r.price, r.qty, i⟩ := ⟨_, rfl⟩
  have ho1 : s'.orders r.id = ⟨r.id, r.sym, r.side, r.price, r.qty, i⟩ := by rw [hs']; exact if_pos rfl
  have ho2 : ∀ x, x ≠ r.id → s'.orders x = s.orders x := by
    intro x hx
    rw [hs']
    show (if x = r.id then _ else s2.orders x) = _
    rw [if_neg hx, a3, h5 x hx]
  have hb : s'.books = s2.books := by rw [hs']; rfl
  have hev : s'.ev = s1.ev := by rw [hs']; exact a3'
  have hst : Struct s' (chg (vol z.all) r.sym r.side r.price (vol z.all r.sym r.side r.price + r.qty))
      (chg (num z.tape) r.sym r.side r.price (num z.tape r.sym r.side r.price + 1)) := by
    rw [hs']; exact a4.congr rfl rfl rfl
  rw [← hs']
  have hkind := findLevel_kind hs1 f2 a1
  have hvol : (Seen.note { z with tape := r :: z.tape } r.id r.price).all.volume r.sym r.side r.price = vol z.all r.sym r.side r.price + r.qty := by
    show vol (r :: z.all) _ _ _ = _
    rw [vol_cons, chg_same]
  have hnum : (Seen.note { z with tape := r :: z.tape } r.id r.price).number r.sym r.side r.price = num z.tape r.sym r.side r.price + 1 := by
    show num (r :: z.tape) _ _ _ = _
    rw [num_cons, chg_same]
  have hhas : Has s' r.sym r.side ⟨r.price, i⟩ := by unfold Has; rw [hb]; exact a5
  have hlev : ({ l with volume := add32 l.volume r.qty, orders := add64 l.orders 1 } : Level) =
      ⟨r.side, r.price, vol z.all r.sym r.side r.price + r.qty, num z.tape r.sym r.side r.price + 1⟩ := by
    obtain ⟨k1, _, _⟩ := hst.level _ _ _ hhas
    simp only [chg_same] at k1
    have k2 : s'.alloc = s2.alloc.set i { l with volume := add32 l.volume r.qty, orders := add64 l.orders 1 } := by rw [hs']; rfl
    rw [k2, List.getElem?_set_self (by have := (List.getElem?_eq_some_iff.1 k1).1; rw [List.length_set] at this; exact this)] at k1
    exact Option.some.inj k1
  suffices hI : ∀ e, Inv (Opt.emit (Opt.emit s' e) (.updateBook (s'.books r.sym).bids.length (s'.books r.sym).asks.length (isTop (s'.books r.sym) r.side i)))
      (Seen.note { z with tape := r :: z.tape } r.id r.price) by
    refine ⟨_, rfl, ⟨_, _, _, _, _, by show (s'.ev ++ [_]) ++ [_] = _; rw [List.append_assoc, hev]; rfl, ?_⟩, hI _⟩
    refine ⟨?_, ?_, ?_, (hI (.addBook 0)).sizes r.sym .buy, (hI (.addBook 0)).sizes r.sym .sell⟩
    · rw [hkind]
      simp only
      by_cases hsh : z.Shows r.sym r.side r.price
      · rw [if_neg (fun h => h hsh), if_neg (fun h => h hsh), if_pos (by unfold Seen.Shows; rw [hvol]; omega)]
      · rw [if_pos (by exact hsh), if_pos hsh]
    · rw [hvol, hnum]; exact hlev
    · rw [if_pos (by unfold Seen.Shows; rw [hvol]; omega)]
      exact (hI (.addBook 0)).top (i := i) hhas
  intro e0
  refine ⟨?_, ?_, ?_, ?_, ?_, ?_⟩
  · show Struct _ (vol (r :: z.all)) (num (r :: z.tape))
    rw [vol_cons, num_cons]
    exact hst.congr rfl rfl rfl
  · intro a c' b
    show vol (r :: z.all) a c' b < W32
    rw [vol_cons]
    by_cases hc : a = r.sym ∧ c' = r.side ∧ b = r.price
    · obtain ⟨rfl, rfl, rfl⟩ := hc; rw [chg_same]; exact f4
    · rw [chg_other hc]; exact h.small a c' b
  · show ((r :: z.tape).map (·.id)).Nodup
    rw [List.map_cons]
    refine List.nodup_cons.2 ⟨fun hm => ?_, h.ids⟩
    obtain ⟨x, hx, he⟩ := List.mem_map.1 hm
    exact hnew x hx he
  · intro x hx
    rcases List.mem_cons.1 hx with rfl | hx
    · exact ⟨f1, f2, f3⟩
    · exact h.fit x hx
  · intro x hx
    show s'.orders x.id = ⟨x.id, x.sym, x.side, x.price, x.qty, (s'.orders x.id).level⟩ ∧ Has s' x.sym x.side ⟨x.price, (s'.orders x.id).level⟩
    rcases List.mem_cons.1 hx with rfl | hx
    · rw [ho1]
      refine ⟨rfl, ?_⟩
      unfold Has; rw [hb]; exact a5
    · rw [ho2 x.id (hnew x hx)]
      obtain ⟨b1, b2⟩ := h.ord x hx
      refine ⟨b1, ?_⟩
      unfold Has; rw [hb]; exact a6 _ _ _ (by unfold Has at b2 ⊢; rw [h1]; exact b2)
  · intro id
    show (s'.orders id).price = if id = r.id then r.price else z.noted id
    by_cases hid : id = r.id
    · rw [if_pos hid, hid, ho1]
    · rw [if_neg hid, ho2 id hid]; exact h.noted id

/-- The level of an order changes: `t`, `u` are the orders and the stuck quantities afterwards. -/
theorem Inv.leave {s : St} {z : Seen} (h : Inv s z) {r : Ticket} (hr : r ∈ z.tape) {t u : Tape} {v n q : Nat} {s1 : St}
    (hv : vol (t ++ u) = chg (vol z.all) r.sym r.side r.price v) (hn : num t = chg (num z.tape) r.sym r.side r.price n)
    (hsm : v < W32) (ids : (t.map (·.id)).Nodup) (h1 : s1.books = s.books) (h2 : s1.alloc = s.alloc) (h3 : s1.free = s.free)
    (ht : ∀ x ∈ t, 0 < x.qty ∧ ∃ y ∈ z.tape, y.id = x.id ∧ y.sym = x.sym ∧ y.side = x.side ∧ y.price = x.price ∧
      s1.orders x.id = ⟨x.id, x.sym, x.side, x.price, x.qty, (s.orders x.id).level⟩)
    (hp : ∀ id, (s1.orders id).price = (s.orders id).price) :
    ∃ s', bookEnd s1 r.sym ⟨r.id, r.sym, r.side, r.price, q, (s.orders r.id).level⟩ ⟨r.side, r.price, v, n⟩ = .ok s' ∧
      s'.orders = s1.orders ∧ News s1 s' z { z with tape := t, stuck := u } r.sym r.side r.price ∧ Inv s' { z with tape := t, stuck := u } := by
  have hs := h.struct.congr h1 h2 h3
  obtain ⟨_, f2, f3⟩ := h.fit r hr
  obtain ⟨o1, o2⟩ := h.ord r hr
  have hh : Has s1 r.sym r.side ⟨r.price, (s.orders r.id).level⟩ := by unfold Has at o2 ⊢; rw [h1]; exact o2
  obtain ⟨s', a1, a2, a3, a4, a5⟩ := hs.ends (o := ⟨r.id, r.sym, r.side, r.price, q, (s.orders r.id).level⟩) (v := v) (n := n) f2 hh
  simp only at a4 a5
  suffices hI : Inv s' { z with tape := t, stuck := u } by
    obtain ⟨e1, e2⟩ := bookEnd_ev f2 a1
    simp only at e1 e2
    refine ⟨s', a1, a2, ⟨_, _, _, _, _, e1, ?_⟩, hI⟩
    have hvol : ({ z with tape := t, stuck := u } : Seen).all.volume r.sym r.side r.price = v := by
      show vol (t ++ u) _ _ _ = _
      rw [hv, chg_same]
    have hnum : ({ z with tape := t, stuck := u } : Seen).number r.sym r.side r.price = n := by
      show num t _ _ _ = _
      rw [hn, chg_same]
    have hsh : z.Shows r.sym r.side r.price := (h.struct.level _ _ _ o2).2.1
    have hsh' : ({ z with tape := t, stuck := u } : Seen).Shows r.sym r.side r.price ↔ 0 < v := by unfold Seen.Shows; rw [hvol]
    refine ⟨?_, ?_, ?_, hI.sizes r.sym .buy, hI.sizes r.sym .sell⟩
    · by_cases h0 : v = 0
      · rw [if_pos h0, if_neg (fun h => h hsh), if_neg (fun h => by have := hsh'.1 h; omega)]
      · rw [if_neg h0, if_neg (fun h => h hsh), if_pos (hsh'.2 (by omega))]
    · rw [hvol, hnum]
    · by_cases h0 : v = 0
      · rw [if_neg (fun h => by have := hsh'.1 h; omega), h1]
        exact h.top o2
      · rw [if_pos (hsh'.2 (by omega)), ← e2 h0]
        exact hI.top (by unfold Has at hh ⊢; rw [e2 h0]; exact hh)
  refine ⟨?_, ?_, ids, ?_, ?_, ?_⟩
  · show Struct s' (vol (t ++ u)) (num t)
    rw [hv, hn]; exact a4
  · intro a c b
    show vol (t ++ u) a c b < W32
    rw [hv]
    by_cases hc : a = r.sym ∧ c = r.side ∧ b = r.price
    · obtain ⟨rfl, rfl, rfl⟩ := hc; rw [chg_same]; exact hsm
    · rw [chg_other hc]; exact h.small a c b
  · intro x hx
    obtain ⟨q1, y, q2, q3, q4, _⟩ := ht x hx
    obtain ⟨g1, g2, _⟩ := h.fit y q2
    exact ⟨by rw [← q3]; exact g1, by rw [← q4]; exact g2, q1⟩
  · intro x hx
    obtain ⟨q1, y, q2, q3, q4, q5, q6, q7⟩ := ht x hx
    obtain ⟨_, g2⟩ := h.ord y q2
    rw [a2, q7]
    refine ⟨rfl, a5 _ _ _ (by unfold Has at g2 ⊢; rw [h1, ← q3, ← q4, ← q5, ← q6]; exact g2) ?_⟩
    intro e1 e2 e3
    have hx' : x ∈ t ++ u := List.mem_append_left _ hx
    have := qty_le_vol hx'
    rw [hv, e1, e2, show x.price = r.price from e3, chg_same] at this
    omega
  · intro id; rw [a2, hp]; exact h.noted id

theorem chg_chg {V : Table} {sym : Nat} {sd : Side} {k v w : Nat} : chg (chg V sym sd k v) sym sd k w = chg V sym sd k w := by
  funext a c b
  by_cases h : a = sym ∧ c = sd ∧ b = k
  · obtain ⟨rfl, rfl, rfl⟩ := h; rw [chg_same, chg_same]
  · rw [chg_other h, chg_other h, chg_other h]

theorem chg_self {V : Table} {sym : Nat} {sd : Side} {k : Nat} : chg V sym sd k (V sym sd k) = V := by
  funext a c b
  by_cases h : a = sym ∧ c = sd ∧ b = k
  · obtain ⟨rfl, rfl, rfl⟩ := h; rw [chg_same]
  · rw [chg_other h]

theorem sub64_one {a : Nat} (h : 0 < a) (h' : a < W64) : sub64 a 1 = a - 1 := by
  unfold sub64; simp only [show (1 : Nat) % W64 = 1 from rfl]
  rw [show a + (W64 - 1) = (a - 1) + W64 by omega, Nat.add_mod_right, Nat.mod_eq_of_lt (by omega)]

/-- An order and the rest of the tape. -/
structure Apart (s : St) (z : Seen) (id : Nat) (r : Ticket) (V0 N0 : Nat) : Prop where
  same : r.id = id
  mem : r ∈ z.tape
  fit : id < 300000000 ∧ r.sym < 10000 ∧ 0 < r.qty
  ord : s.orders id = ⟨id, r.sym, r.side, r.price, r.qty, (s.orders id).level⟩
  level : s.alloc[(s.orders id).level]? = some ⟨r.side, r.price, V0 + r.qty, N0 + 1⟩
  vols : vol (z.tape.without id ++ z.stuck) = chg (vol z.all) r.sym r.side r.price V0
  nums : num (z.tape.without id) = chg (num z.tape) r.sym r.side r.price N0
  small : V0 + r.qty < W32
  few : N0 < V0 + r.qty
  ids : ((z.tape.without id).map (·.id)).Nodup
  rest : ∀ x ∈ z.tape.without id, x ∈ z.tape ∧ x.id ≠ id ∧ 0 < x.qty

theorem Inv.split {s : St} {z : Seen} (h : Inv s z) {id : Nat} {r : Ticket} (hr : z.tape.find id = some r) :
    ∃ V0 N0, Apart s z id r V0 N0 := by
  obtain ⟨hp, rfl⟩ := Aggr.find_perm h.ids hr
  have hm := (find_mem hr).1
  obtain ⟨f1, f2, f3⟩ := h.fit r hm
  obtain ⟨o1, o2⟩ := h.ord r hm
  have hv : vol z.all = chg (vol (z.tape.without r.id ++ z.stuck)) r.sym r.side r.price (vol (z.tape.without r.id ++ z.stuck) r.sym r.side r.price + r.qty) := by
    rw [← vol_cons]; exact vol_perm (hp.append_right _)
  have hn : num z.tape = chg (num (z.tape.without r.id)) r.sym r.side r.price (num (z.tape.without r.id) r.sym r.side r.price + 1) := by
    rw [← num_cons]; exact num_perm hp
  have hv' : vol z.all r.sym r.side r.price = vol (z.tape.without r.id ++ z.stuck) r.sym r.side r.price + r.qty := by rw [hv, chg_same]
  have hn' : num z.tape r.sym r.side r.price = num (z.tape.without r.id) r.sym r.side r.price + 1 := by rw [hn, chg_same]
  refine ⟨vol (z.tape.without r.id ++ z.stuck) r.sym r.side r.price, num (z.tape.without r.id) r.sym r.side r.price, rfl, hm, ⟨f1, f2, f3⟩, o1, ?_, ?_, ?_, ?_, ?_, nodup_without h.ids _, ?_⟩
  · have := (h.struct.level _ _ _ o2).1
    simp only at this
    rw [this, hv', hn']
  · rw [hv, chg_chg, chg_self]
  · rw [hn, chg_chg, chg_self]
  · rw [← hv']; exact h.small _ _ _
  · have := num_le_vol (t := z.tape) (u := z.stuck) (fun x hx => (h.fit x hx).2.2) r.sym r.side r.price
    rw [show vol (z.tape ++ z.stuck) = vol z.all from rfl, hv', hn'] at this
    omega
  · intro x hx
    obtain ⟨h1, h2⟩ := mem_without.1 hx
    exact ⟨h1, h2, (h.fit x h1).2.2⟩

/-- A state that differs in the order `id` (not its price) and in callbacks. -/
structure Near (s s1 : St) (id : Nat) : Prop where
  books : s1.books = s.books
  alloc : s1.alloc = s.alloc
  free : s1.free = s.free
  others : ∀ x, x ≠ id → s1.orders x = s.orders x
  price : (s1.orders id).price = (s.orders id).price

theorem Near.refl (s : St) (id : Nat) : Near s s id := ⟨rfl, rfl, rfl, fun _ _ => rfl, rfl⟩

theorem Near.prices {s s1 : St} {id : Nat} (h : Near s s1 id) (x : Nat) : (s1.orders x).price = (s.orders x).price := by
  by_cases hx : x = id
  · rw [hx]; exact h.price
  · rw [h.others x hx]

/-- The whole order leaves its level. -/
theorem Inv.gone {s : St} {z : Seen} (h : Inv s z) {id : Nat} {r : Ticket} {V0 N0 : Nat} (ha : Apart s z id r V0 N0) {s1 : St}
    (hs : Near s s1 id) {q : Nat} : ∃ s', bookEnd s1 r.sym ⟨id, r.sym, r.side, r.price, q, (s.orders id).level⟩ ⟨r.side, r.price, V0, N0⟩ = .ok s' ∧
      s'.orders = s1.orders ∧ News s1 s' z { z with tape := z.tape.without id } r.sym r.side r.price ∧ Inv s' { z with tape := z.tape.without id } := by
  have hid := ha.same
  subst hid
  refine h.leave ha.mem ha.vols ha.nums (by have := ha.small; omega) ha.ids hs.books hs.alloc hs.free ?_ hs.prices
  intro x hx
  obtain ⟨h1, h2, h3⟩ := ha.rest x hx
  exact ⟨h3, x, h1, rfl, rfl, rfl, rfl, by rw [hs.others _ h2]; exact (h.ord x h1).1⟩

/-- The order leaves, its quantity stays. -/
theorem Inv.stick {s : St} {z : Seen} (h : Inv s z) {id : Nat} {r : Ticket} {V0 N0 : Nat} (ha : Apart s z id r V0 N0) {s1 : St}
    (hs : Near s s1 id) {q : Nat} : ∃ s', bookEnd s1 r.sym ⟨id, r.sym, r.side, r.price, q, (s.orders id).level⟩ ⟨r.side, r.price, V0 + r.qty, N0⟩ = .ok s' ∧
      s'.orders = s1.orders ∧ News s1 s' z { z with tape := z.tape.without id, stuck := r :: z.stuck } r.sym r.side r.price ∧ Inv s' { z with tape := z.tape.without id, stuck := r :: z.stuck } := by
  have hid := ha.same
  subst hid
  refine h.leave ha.mem ?_ ha.nums ha.small ha.ids hs.books hs.alloc hs.free ?_ hs.prices
  · rw [vol_perm (List.perm_middle), vol_cons, ha.vols, chg_chg, chg_same]
  · intro x hx
    obtain ⟨h1, h2, h3⟩ := ha.rest x hx
    exact ⟨h3, x, h1, rfl, rfl, rfl, rfl, by rw [hs.others _ h2]; exact (h.ord x h1).1⟩

/-- A part of the order leaves its level. -/
theorem Inv.less {s : St} {z : Seen} (h : Inv s z) {id : Nat} {r : Ticket} {V0 N0 : Nat} (ha : Apart s z id r V0 N0) {s1 : St}
    (hs : Near s s1 id) {w : Nat} (hw : 0 < w) (hw' : w ≤ r.qty)
    (ho : s1.orders id = ⟨id, r.sym, r.side, r.price, w, (s.orders id).level⟩) :
    ∃ s', bookEnd s1 r.sym ⟨id, r.sym, r.side, r.price, w, (s.orders id).level⟩ ⟨r.side, r.price, V0 + w, N0 + 1⟩ = .ok s' ∧
      s'.orders = s1.orders ∧ News s1 s' z { z with tape := { r with qty := w } :: z.tape.without id } r.sym r.side r.price ∧ Inv s' { z with tape := { r with qty := w } :: z.tape.without id } := by
  have hid := ha.same
  subst hid
  have hsm := ha.small
  refine h.leave ha.mem (t := { r with qty := w } :: z.tape.without r.id) (u := z.stuck) ?_ ?_ (by omega) ?_ hs.books hs.alloc hs.free ?_ hs.prices
  · rw [List.cons_append, vol_cons, ha.vols]
    simp only
    rw [chg_chg, chg_same]
  · rw [num_cons, ha.nums]
    simp only
    rw [chg_chg, chg_same]
  · rw [List.map_cons]
    refine List.nodup_cons.2 ⟨fun hm => ?_, ha.ids⟩
    obtain ⟨x, hx, he⟩ := List.mem_map.1 hm
    exact (ha.rest x hx).2.1 he
  · intro x hx
    rcases List.mem_cons.1 hx with rfl | hx
    · exact ⟨hw, r, ha.mem, rfl, rfl, rfl, rfl, ho⟩
    · obtain ⟨h1, h2, h3⟩ := ha.rest x hx
      exact ⟨h3, x, h1, rfl, rfl, rfl, rfl, by rw [hs.others _ h2]; exact (h.ord x h1).1⟩

theorem Apart.few64 {s : St} {z : Seen} {id : Nat} {r : Ticket} {V0 N0 : Nat} (ha : Apart s z id r V0 N0) : sub64 (N0 + 1) 1 = N0 := by
  have h1 := ha.small
  have h2 := ha.few
  rw [sub64_one (by omega) (by simp only [W32] at h1; omega)]; rfl

/-- `OrderBook::DeleteOrder` of an order with its quantity. -/
theorem Inv.delete {s : St} {z : Seen} (h : Inv s z) {id : Nat} {r : Ticket} {V0 N0 : Nat} (ha : Apart s z id r V0 N0) {s1 : St}
    (hs : Near s s1 id) : ∃ s', bookDelete s1 r.sym ⟨id, r.sym, r.side, r.price, r.qty, (s.orders id).level⟩ = .ok s' ∧
      s'.orders = s1.orders ∧ News s1 s' z { z with tape := z.tape.without id } r.sym r.side r.price ∧ Inv s' { z with tape := z.tape.without id } := by
  obtain ⟨s', a1, a2⟩ := h.gone ha hs (q := r.qty)
  refine ⟨s', ?_, a2⟩
  unfold bookDelete
  rw [getLevel_ok (by rw [hs.alloc]; exact ha.level), Except.bind_ok]
  simp only
  rw [sub32_le (by omega) ha.small, ha.few64, Nat.add_sub_cancel]
  exact a1

/-- `OrderBook::DeleteOrder` of an order whose quantity was set to zero before. -/
theorem Inv.deleteZero {s : St} {z : Seen} (h : Inv s z) {id : Nat} {r : Ticket} {V0 N0 : Nat} (ha : Apart s z id r V0 N0) {s1 : St}
    (hs : Near s s1 id) : ∃ s', bookDelete s1 r.sym ⟨id, r.sym, r.side, r.price, 0, (s.orders id).level⟩ = .ok s' ∧
      s'.orders = s1.orders ∧ News s1 s' z { z with tape := z.tape.without id, stuck := r :: z.stuck } r.sym r.side r.price ∧ Inv s' { z with tape := z.tape.without id, stuck := r :: z.stuck } := by
  obtain ⟨s', a1, a2⟩ := h.stick ha hs (q := 0)
  refine ⟨s', ?_, a2⟩
  unfold bookDelete
  rw [getLevel_ok (by rw [hs.alloc]; exact ha.level), Except.bind_ok]
  simp only
  rw [sub32_le (by omega) ha.small, ha.few64, Nat.sub_zero]
  exact a1

/-- `OrderBook::ReduceOrder`. -/
theorem Inv.reduce {s : St} {z : Seen} (h : Inv s z) {id : Nat} {r : Ticket} {V0 N0 : Nat} (ha : Apart s z id r V0 N0) {s1 : St}
    (hs : Near s s1 id) {q : Nat} (hq : q ≤ r.qty) (ho : s1.orders id = ⟨id, r.sym, r.side, r.price, r.qty - q, (s.orders id).level⟩) :
    ∃ s', bookReduce s1 r.sym ⟨id, r.sym, r.side, r.price, r.qty - q, (s.orders id).level⟩ q = .ok s' ∧
      s'.orders = s1.orders ∧
      News s1 s' z { z with tape := if q < r.qty then { r with qty := r.qty - q } :: z.tape.without id else z.tape.without id } r.sym r.side r.price ∧
      Inv s' { z with tape := if q < r.qty then { r with qty := r.qty - q } :: z.tape.without id else z.tape.without id } := by
  unfold bookReduce
  rw [getLevel_ok (by rw [hs.alloc]; exact ha.level), Except.bind_ok]
  simp only
  rw [sub32_le (by omega) ha.small]
  by_cases hlt : q < r.qty
  · obtain ⟨s', a1, a2⟩ := h.less ha hs (w := r.qty - q) (by omega) (by omega) ho
    rw [if_pos hlt]
    refine ⟨s', ?_, a2⟩
    rw [if_neg (by omega), show V0 + r.qty - q = V0 + (r.qty - q) by omega]
    exact a1
  · obtain ⟨s', a1, a2⟩ := h.gone ha hs (q := r.qty - q)
    rw [if_neg hlt]
    refine ⟨s', ?_, a2⟩
    rw [if_pos (by omega), ha.few64, show V0 + r.qty - q = V0 by omega]
    exact a1

theorem note_same {z : Seen} {id p : Nat} (h : z.noted id = p) : z.note id p = z := by
  obtain ⟨t, u, n⟩ := z
  unfold Seen.note
  congr 1
  funext j
  simp only at h ⊢
  by_cases hj : j = id
  · rw [if_pos hj, hj, h]
  · rw [if_neg hj]

theorem Near.emit {s s1 : St} {id : Nat} (h : Near s s1 id) (e : Ev) : Near s (emit s1 e) id :=
  ⟨h.books, h.alloc, h.free, h.others, h.price⟩

theorem near_setOrd {s : St} {id : Nat} {o : Ord} (h : o.price = (s.orders id).price) : Near s (setOrd s id o) id :=
  ⟨rfl, rfl, rfl, fun x hx => if_neg hx, by show (if id = id then o else _).price = _; rw [if_pos rfl]; exact h⟩

theorem setOrd_same (s : St) (id : Nat) (o : Ord) : (setOrd s id o).orders id = o := if_pos rfl
theorem setOrd_other (s : St) {id x : Nat} (o : Ord) (h : x ≠ id) : (setOrd s id o).orders x = s.orders x := if_neg h

theorem Inv.emit {s : St} {z : Seen} (h : Inv s z) (e : Ev) : Inv (emit s e) z :=
  ⟨h.struct.congr rfl rfl rfl, h.small, h.ids, h.fit, h.ord, h.noted⟩

/-- What a callback counts as; updates of a book are not counted. -/
inductive Note where
  | symbol
  | book
  | level
  | order
  | change
  | gone
  | trade
  deriving DecidableEq, Repr

def Ev.note : Ev → Option Note
  | .addSymbol _ => some .symbol
  | .addBook _ => some .book
  | .level _ _ _ => some .level
  | .addOrder _ => some .order
  | .updateOrder _ => some .change
  | .deleteOrder _ => some .gone
  | .exec _ _ _ => some .trade
  | _ => none

/-- Callbacks with these notes were made. -/
def Adds (s s' : St) (ns : List Note) : Prop := ∃ evs, s'.ev = s.ev ++ evs ∧ evs.filterMap Ev.note = ns ∧
  ∀ e ∈ evs, e.note = none → ∃ bids asks top, e = .updateBook bids asks top

theorem Adds.refl (s : St) : Adds s s [] := ⟨[], by simp, rfl, by simp⟩

theorem Adds.trans {s s1 s2 : St} {a b : List Note} (h : Adds s s1 a) (h' : Adds s1 s2 b) : Adds s s2 (a ++ b) := by
  obtain ⟨e1, h1, h2, h3⟩ := h
  obtain ⟨e2, h4, h5, h6⟩ := h'
  refine ⟨e1 ++ e2, by rw [h4, h1, List.append_assoc], by rw [List.filterMap_append, h2, h5], ?_⟩
  intro e he
  rcases List.mem_append.1 he with he | he
  · exact h3 e he
  · exact h6 e he

theorem Adds.emit {s s1 : St} {a : List Note} (h : Adds s s1 a) {e : Ev} {n : Note} (hn : e.note = some n) : Adds s (Opt.emit s1 e) (a ++ [n]) :=
  h.trans ⟨[e], rfl, by simp [hn], by simp [hn]⟩

/-- What a piece of news counts as. -/
def _root_.CppTrader.Story.note : Story → Note
  | .symbol _ => .symbol
  | .book _ => .book
  | .comes _ => .order
  | .changes _ => .change
  | .goes _ => .gone
  | .trade _ _ _ => .trade
  | .level _ _ _ _ _ => .level

/-- The callbacks made since tell these news. -/
def Tell (s s' : St) (st : List Story) : Prop := ∃ evs, s'.ev = s.ev ++ evs ∧ AllTold st evs

theorem told_append {a b : List Story} {e f : List Ev} (h : AllTold a e) (h' : AllTold b f) : AllTold (a ++ b) (e ++ f) := by
  induction h with
  | nil => exact h'
  | cons hx _ ih => rw [List.cons_append, List.append_assoc]; exact .cons hx ih

theorem told_one {x : Story} {e : List Ev} (h : x.Told e) : AllTold [x] e := by
  have := AllTold.cons h .nil
  rwa [List.append_nil] at this

theorem Tell.refl (s : St) : Tell s s [] := ⟨[], by simp, .nil⟩

theorem Tell.trans {s s1 s2 : St} {a b : List Story} (h : Tell s s1 a) (h' : Tell s1 s2 b) : Tell s s2 (a ++ b) := by
  obtain ⟨e1, h1, h2⟩ := h
  obtain ⟨e2, h3, h4⟩ := h'
  exact ⟨e1 ++ e2, by rw [h3, h1, List.append_assoc], told_append h2 h4⟩

theorem Tell.emit {s s1 : St} {a : List Story} (h : Tell s s1 a) {e : Ev} {x : Story} (hx : x.Told [e]) : Tell s (Opt.emit s1 e) (a ++ [x]) :=
  h.trans ⟨[e], rfl, told_one hx⟩

theorem Tell.of_ev {s s1 s2 : St} {a : List Story} (h : Tell s1 s2 a) (he : s1.ev = s.ev) : Tell s s2 a := by
  obtain ⟨e1, h1, h2⟩ := h
  exact ⟨e1, by rw [h1, he], h2⟩

theorem News.tell {s s' : St} {z z' : Seen} {sym : Nat} {sd : Side} {p : Nat} (h : News s s' z z' sym sd p) : Tell s s' [.level z z' sym sd p] := by
  obtain ⟨c, l, top, bids, asks, h1, h2⟩ := h
  exact ⟨_, h1, told_one (.level h2)⟩

theorem Tell.adds {s s' : St} {a : List Story} (h : Tell s s' a) : Adds s s' (a.map Story.note) := by
  obtain ⟨evs, h1, h2⟩ := h
  refine ⟨evs, h1, ?_⟩
  clear h1
  induction h2 with
  | nil => exact ⟨rfl, by simp⟩
  | cons hx _ ih =>
    obtain ⟨i1, i2⟩ := ih
    cases hx with
    | level _ =>
      refine ⟨by
        rw [List.map_cons, ← i1]
        rfl, ?_⟩
      intro e he hn
      simp only [List.cons_append, List.nil_append, List.mem_cons] at he
      rcases he with rfl | rfl | he
      · cases hn
      · exact ⟨_, _, _, rfl⟩
      · exact i2 e he hn
    | _ =>
      refine ⟨by
        rw [List.map_cons, ← i1]
        rfl, ?_⟩
      intro e he hn
      simp only [List.cons_append, List.nil_append, List.mem_cons] at he
      rcases he with rfl | he
      · cases hn
      · exact i2 e he hn

theorem Adds.of_ev {s s1 s2 : St} {a : List Note} (h : Adds s1 s2 a) (he : s1.ev = s.ev) : Adds s s2 a := by
  obtain ⟨e1, h1, h2⟩ := h
  exact ⟨e1, by rw [h1, he], h2⟩

/-- Whether an order stays. -/
def stays (t : Tape) (id q : Nat) : Note :=
  match t.find id with
  | none => .gone
  | some r => if q < r.qty then .change else .gone

/-- The notes of a report. -/
def notes (t : Tape) : Report → List Note
  | .tick (.book _) => [.book]
  | .tick (.add _) => [.order, .level]
  | .tick (.take id q) => [.trade, .level, stays t id q]
  | .cancel id q => [stays t id q, .level]
  | .tick (.delete _) => [.level, .gone]
  | .tick (.modify _ _ q) => if 0 < q then [.level, .change, .level] else [.level, .gone]
  | .tick (.replace _ _ _ q) => if 0 < q then [.level, .gone, .order, .level] else [.level, .gone]

/-- An execution, at any price. -/
theorem Inv.execute {s : St} {z : Seen} (h : Inv s z) {id q : Nat} {r : Ticket} (hr : z.tape.find id = some r) (f : Ord → Nat) :
    ∃ s', executeAt s id f q = .ok s' ∧ Inv s' { z with tape := z.tape.next (.take id q) } ∧
      ∀ p, (∀ lv, f ⟨id, r.sym, r.side, r.price, r.qty, lv⟩ = p) → Tell s s' ((z.tell (.tick (.take id q)) r).map (Story.at p)) := by
  obtain ⟨V0, N0, ha⟩ := h.split hr
  obtain ⟨f1, f2, f3⟩ := ha.fit
  have hord := ha.ord
  unfold executeAt Tape.next
  rw [getOrd_ok f1, Except.bind_ok]
  simp only [hr]
  rw [hord]
  simp only
  have hev : ∀ e, Near s (Opt.emit s e) id := fun e => (Near.refl s id).emit e
  obtain ⟨s', a1, a2, a3, a4⟩ := h.reduce ha (s1 := setOrd (Opt.emit s (.exec ⟨id, r.sym, r.side, r.price, r.qty, (s.orders id).level⟩ (f ⟨id, r.sym, r.side, r.price, r.qty, (s.orders id).level⟩) (min q r.qty))) id
      ⟨id, r.sym, r.side, r.price, r.qty - min q r.qty, (s.orders id).level⟩) (q := min q r.qty)
    ⟨rfl, rfl, rfl, fun x hx => if_neg hx, by show (if id = id then _ else _ : Ord).price = _; rw [if_pos rfl, hord]⟩ (Nat.min_le_right _ _) (setOrd_same _ _ _)
  rw [a1, Except.bind_ok]
  refine ⟨_, rfl, Inv.emit ?_ _, ?_⟩
  rotate_left
  · intro p hp
    have hid := ha.same.symm
    have hn := (((Tell.refl s).emit (e := .exec ⟨id, r.sym, r.side, r.price, r.qty, (s.orders id).level⟩ (f ⟨id, r.sym, r.side, r.price, r.qty, (s.orders id).level⟩) (min q r.qty))
      (x := .trade r p (min q r.qty)) (by rw [hp]; exact .trade ⟨hid, rfl, rfl, rfl, rfl⟩)).trans (a3.tell.of_ev rfl))
    unfold Seen.tell Seen.next Tape.next
    simp only [hr, List.map_cons, List.map_nil, Story.at]
    by_cases hlt : q < r.qty
    · rw [Nat.min_eq_left (by omega), if_pos hlt] at hn
      rw [Nat.min_eq_left (by omega)]
      simp only [if_pos hlt]
      rw [if_pos (by omega)]
      exact hn.emit (.changes ⟨hid, rfl, rfl, rfl, rfl⟩)
    · rw [Nat.min_eq_right (by omega), if_neg (by omega)] at hn
      rw [Nat.min_eq_right (by omega)]
      simp only [if_neg hlt]
      rw [if_neg (by omega)]
      exact hn.emit (.goes ⟨hid, rfl, rfl, rfl, by show r.qty - r.qty = 0; omega⟩)
  by_cases hlt : q < r.qty
  · rw [if_pos hlt]
    rw [Nat.min_eq_left (by omega), if_pos hlt] at a4
    exact a4
  · rw [if_neg hlt]
    rw [Nat.min_eq_right (by omega), if_neg (by omega)] at a4
    exact a4

/-- One report. -/
theorem Inv.call_news {s : St} {z : Seen} (h : Inv s z) {x : Report} (hx : z.Consistent x) :
    ∃ s', Opt.call s x = .ok s' ∧ Inv s' (z.next x) ∧ Tell s s' (z.news x) := by
  cases x with
  | cancel id q =>
    obtain ⟨r, hr⟩ := hx
    obtain ⟨V0, N0, ha⟩ := h.split hr
    obtain ⟨f1, f2, f3⟩ := ha.fit
    have hord := ha.ord
    have hid := ha.same.symm
    show ∃ s', reduceOrder s id q = .ok s' ∧ _
    unfold reduceOrder Seen.news Seen.tell Seen.next
    rw [getOrd_ok f1, Except.bind_ok]
    simp only [hr]
    rw [hord]
    simp only
    by_cases hlt : q < r.qty
    · simp only [if_pos hlt]
      rw [Nat.min_eq_left (by omega), if_pos (by omega)]
      obtain ⟨s', a1, a2, a3, a4⟩ := h.reduce ha ((near_setOrd (o := ⟨id, r.sym, r.side, r.price, r.qty - q, (s.orders id).level⟩) (by rw [hord])).emit
        (.updateOrder ⟨id, r.sym, r.side, r.price, r.qty - q, (s.orders id).level⟩)) (q := q) (by omega) (setOrd_same _ _ _)
      rw [if_pos hlt] at a4
      rw [if_pos hlt] at a3
      exact ⟨s', a1, a4, (((Tell.refl _).emit (.changes ⟨hid, rfl, rfl, rfl, rfl⟩)).of_ev rfl).trans a3.tell⟩
    · simp only [if_neg hlt]
      rw [Nat.min_eq_right (by omega), Nat.sub_self, if_neg (by omega)]
      obtain ⟨s', a1, a2, a3, a4⟩ := h.deleteZero ha ((near_setOrd (o := ⟨id, r.sym, r.side, r.price, 0, (s.orders id).level⟩) (by rw [hord])).emit
        (.deleteOrder ⟨id, r.sym, r.side, r.price, 0, (s.orders id).level⟩))
      exact ⟨s', a1, a4, (((Tell.refl _).emit (.goes ⟨hid, rfl, rfl, rfl, rfl⟩)).of_ev rfl).trans a3.tell⟩
  | tick x =>
  cases x with
  | book sym =>
    obtain ⟨h1, h2⟩ := hx
    have hz : ∀ c k, vol z.all sym c k = 0 := by
      intro c k
      unfold vol Tape.volume
      rw [List.filter_eq_nil_iff.2 (by intro r hr; simp [h2 r hr])]
      rfl
    have he : ∀ c, (s.books sym).half c = [] := by
      intro c
      apply List.eq_nil_iff_forall_not_mem.2
      intro e he
      have := (h.struct.level sym c e he).2.1
      rw [hz] at this; omega
    have hempty : s.books sym = ⟨[], []⟩ := by
      have e1 := he .buy
      have e2 := he .sell
      cases hb : s.books sym
      rw [hb] at e1 e2
      simp only [Book.half] at e1 e2
      rw [e1, e2]
    have hsame : setBook s sym ⟨[], []⟩ = s := by
      unfold setBook
      rw [← hempty]
      have : (fun j => if j = sym then s.books sym else s.books j) = s.books := by
        funext j; by_cases hj : j = sym
        · rw [if_pos hj, hj]
        · rw [if_neg hj]
      rw [this]
    refine ⟨_, ?_, h.emit (.addBook sym), (Tell.refl _).emit (.book sym)⟩
    show addOrderBook s sym = _
    unfold addOrderBook
    rw [getBook_ok h1, Except.bind_ok, hsame]
  | add r =>
    have hx : z.Fits { r with price := z.noted r.id } := hx
    have f1 := hx.1
    show ∃ s', addOrder s r.id r.sym r.side r.price r.qty = .ok s' ∧ _
    unfold addOrder
    rw [getOrd_ok f1, Except.bind_ok]
    simp only
    obtain ⟨s', a1, a2, a3⟩ := h.push hx (s1 := Opt.emit (setOrd s r.id ⟨r.id, r.sym, r.side, (s.orders r.id).price, r.qty, (s.orders r.id).level⟩)
      (.addOrder ⟨r.id, r.sym, r.side, (s.orders r.id).price, r.qty, (s.orders r.id).level⟩)) (lv := (s.orders r.id).level) rfl rfl rfl
      (by rw [← h.noted]; exact setOrd_same _ _ _) (fun x hx => setOrd_other _ _ hx)
    refine ⟨s', a1, ?_⟩
    rw [note_same rfl] at a2 a3
    exact ⟨a3, (((Tell.refl _).emit (.comes ⟨rfl, rfl, rfl, h.noted _, rfl⟩)).of_ev rfl).trans a2.tell⟩
  | take id q =>
    obtain ⟨r, hr⟩ := hx
    obtain ⟨s', a1, a2, a3⟩ := h.execute (q := q) hr (·.price)
    refine ⟨s', a1, a2, ?_⟩
    have a3 := a3 r.price fun _ => rfl
    have e : (z.tell (.tick (.take id q)) r).map (Story.at r.price) = z.news (.tick (.take id q)) := by
      unfold Seen.news Seen.tell
      simp only [hr]
      by_cases hlt : q < r.qty
      · simp only [if_pos hlt]; rfl
      · simp only [if_neg hlt]; rfl
    rwa [e] at a3
  | delete id =>
    obtain ⟨r, hr⟩ := hx
    obtain ⟨V0, N0, ha⟩ := h.split hr
    have hord := ha.ord
    show ∃ s', deleteOrder s id = .ok s' ∧ _
    unfold deleteOrder
    rw [getOrd_ok ha.fit.1, Except.bind_ok, hord]
    simp only
    obtain ⟨s', a1, a2, a3, a4⟩ := h.delete ha (Near.refl s id)
    rw [a1, Except.bind_ok]
    refine ⟨_, rfl, a4.emit _, ?_⟩
    unfold Seen.news Seen.tell
    simp only [hr, ha.same]
    exact a3.tell.emit (.goes ⟨ha.same.symm, rfl, rfl, rfl, rfl⟩)
  | modify id p q =>
    obtain ⟨r, hr, hf⟩ := hx
    obtain ⟨V0, N0, ha⟩ := h.split hr
    have hord := ha.ord
    show ∃ s', modifyOrder s id p q = .ok s' ∧ Inv s' (Seen.note { z with tape := z.tape.next (.modify id p q) } id p) ∧
      Tell s s' (z.news (.tick (.modify id p q)))
    unfold modifyOrder
    rw [getOrd_ok ha.fit.1, Except.bind_ok, hord]
    simp only
    obtain ⟨s', a1, a2, a3, a4⟩ := h.delete ha (Near.refl s id)
    rw [a1, Except.bind_ok]
    unfold Seen.news Seen.tell Seen.next Tape.next
    simp only [hr]
    have hid := ha.same
    subst hid
    by_cases hq : 0 < q
    · simp only [if_pos hq]
      obtain ⟨s2, b1, b2, b3⟩ := a4.push (hf hq) (s1 := Opt.emit (setOrd s' r.id ⟨r.id, r.sym, r.side, p, q, (s.orders r.id).level⟩)
        (.updateOrder ⟨r.id, r.sym, r.side, p, q, (s.orders r.id).level⟩)) (lv := (s.orders r.id).level) rfl rfl rfl
        (setOrd_same _ _ _) (fun x hx => setOrd_other _ _ hx)
      exact ⟨s2, b1, b3, ((a3.tell.trans (((Tell.refl s').emit (.changes ⟨rfl, rfl, rfl, rfl, rfl⟩)).of_ev rfl)).trans (b2.tell.of_ev rfl))⟩
    · simp only [if_neg hq]
      refine ⟨_, rfl, Inv.emit ?_ _, (a3.tell.trans (((Tell.refl _).emit (.goes ⟨rfl, rfl, rfl, rfl, by show q = 0; omega⟩)).of_ev rfl))⟩
      refine ⟨a4.struct.congr rfl rfl rfl, a4.small, a4.ids, a4.fit, ?_, ?_⟩
      · intro x hx
        obtain ⟨_, hne, _⟩ := ha.rest x hx
        have := a4.ord x hx
        show (setOrd s' r.id _).orders x.id = ⟨_, _, _, _, _, ((setOrd s' r.id _).orders x.id).level⟩ ∧ Has (setOrd s' r.id _) _ _ ⟨_, ((setOrd s' r.id _).orders x.id).level⟩
        rw [setOrd_other _ _ hne]
        exact this
      · intro j
        show ((setOrd s' r.id _).orders j).price = if j = r.id then p else z.noted j
        by_cases hj : j = r.id
        · rw [if_pos hj, hj, setOrd_same]
        · rw [if_neg hj, setOrd_other _ _ hj]; exact a4.noted j
  | replace id n p q =>
    obtain ⟨r, hr, hf⟩ := hx
    obtain ⟨V0, N0, ha⟩ := h.split hr
    have hord := ha.ord
    show ∃ s', replaceOrder s id n p q = .ok s' ∧ Inv s' (if 0 < q then Seen.note { z with tape := z.tape.next (.replace id n p q) } n p else { z with tape := z.tape.next (.replace id n p q) }) ∧
      Tell s s' (z.news (.tick (.replace id n p q)))
    unfold replaceOrder
    rw [getOrd_ok ha.fit.1, Except.bind_ok, hord]
    simp only
    obtain ⟨s', a1, a2, a3, a4⟩ := h.delete ha (Near.refl s id)
    rw [a1, Except.bind_ok]
    have hid := ha.same
    unfold Seen.news Seen.tell Seen.next Tape.next
    simp only [hr, hid]
    by_cases hq : 0 < q
    · simp only [if_pos hq]
      rw [getOrd_ok (hf hq).1, Except.bind_ok]
      obtain ⟨s2, b1, b2, b3⟩ := a4.push (hf hq) (s1 := Opt.emit (setOrd (Opt.emit s' (.deleteOrder ⟨id, r.sym, r.side, r.price, r.qty, (s.orders id).level⟩)) n ⟨n, r.sym, r.side, p, q, (s.orders id).level⟩)
        (.addOrder ⟨n, r.sym, r.side, p, q, (s.orders id).level⟩)) (lv := (s.orders id).level) rfl rfl rfl
        (setOrd_same _ _ _) (fun x hx => setOrd_other _ _ hx)
      exact ⟨s2, b1, b3, (((a3.tell.emit (.goes ⟨hid.symm, rfl, rfl, rfl, rfl⟩)).trans (((Tell.refl _).emit (.comes ⟨rfl, rfl, rfl, rfl, rfl⟩)).of_ev rfl)).trans b2.tell)⟩
    · simp only [if_neg hq]
      exact ⟨_, rfl, a4.emit _, a3.tell.emit (.goes ⟨hid.symm, rfl, rfl, rfl, rfl⟩)⟩

theorem stays_note {z : Seen} {id q : Nat} {r a b : Ticket} (hr : z.tape.find id = some r) :
    (if q < r.qty then Story.changes a else .goes b).note = stays z.tape id q := by
  unfold stays
  rw [hr]
  by_cases h : q < r.qty
  · simp only [if_pos h]; rfl
  · simp only [if_neg h]; rfl

/-- The notes of a report are those of its news. -/
theorem news_notes {z : Seen} {x : Report} (hx : z.Consistent x) : (z.news x).map Story.note = notes z.tape x := by
  cases x with
  | cancel id q =>
    obtain ⟨r, hr⟩ := hx
    unfold Seen.news Seen.tell notes
    simp only [hr, List.map_cons, List.map_nil, stays_note hr]
    rfl
  | tick x =>
  cases x with
  | book _ => rfl
  | add r => rfl
  | take id q =>
    obtain ⟨r, hr⟩ := hx
    unfold Seen.news Seen.tell notes
    simp only [hr, List.map_cons, List.map_nil, stays_note hr]
    rfl
  | delete id =>
    obtain ⟨r, hr⟩ := hx
    unfold Seen.news Seen.tell notes
    simp only [hr]
    rfl
  | modify id p q =>
    obtain ⟨r, hr, _⟩ := hx
    unfold Seen.news Seen.tell notes
    simp only [hr]
    by_cases h : 0 < q
    · simp only [if_pos h]; rfl
    · simp only [if_neg h]; rfl
  | replace id n p q =>
    obtain ⟨r, hr, _⟩ := hx
    unfold Seen.news Seen.tell notes
    simp only [hr]
    by_cases h : 0 < q
    · simp only [if_pos h]; rfl
    · simp only [if_neg h]; rfl

/-- One report. -/
theorem Inv.call {s : St} {z : Seen} (h : Inv s z) {x : Report} (hx : z.Consistent x) :
    ∃ s', Opt.call s x = .ok s' ∧ Inv s' (z.next x) ∧ Adds s s' (notes z.tape x) := by
  obtain ⟨s', a1, a2, a3⟩ := h.call_news hx
  exact ⟨s', a1, a2, by rw [← news_notes hx]; exact a3.adds⟩

theorem inv_init : Inv init .blank where
  struct := {
    sorted := by intro a sd; cases sd <;> simp [Sorted, Book.half, init]
    level := by intro a sd e he; cases sd <;> simp [Has, Book.half, init] at he
    known := by intro a sd k hk; simp [vol, Seen.all, Seen.blank, Tape.volume] at hk
    apart := by intro a sd e a' sd' e' he; cases sd <;> simp [Has, Book.half, init] at he
    free_lt := by intro i hi; cases hi
    free_nodup := by simp [init]
    used := by intro i hi; simp [init] at hi }
  small := by intro a sd k; simp [vol, Seen.all, Seen.blank, Tape.volume]
  ids := by simp [Seen.blank]
  fit := by simp [Seen.blank]
  ord := by simp [Seen.blank]
  noted := by intro id; rfl

theorem Inv.run : ∀ (xs : List Report) {s : St} {z : Seen}, Inv s z → z.ConsistentAll xs →
    ∃ s', Opt.run s xs = .ok s' ∧ Inv s' (z.after xs)
  | [], s, _, h, _ => ⟨s, rfl, h⟩
  | x :: xs, s, z, h, hc => by
    obtain ⟨s1, h1, h2, _⟩ := h.call hc.1
    obtain ⟨s2, h3, h4⟩ := Inv.run xs h2 hc.2
    refine ⟨s2, ?_, h4⟩
    unfold Opt.run
    rw [h1, Except.bind_ok, h3]

/-- C64: after every feed, of any length, that is consistent for it, the optimised manager shows, for every symbol and side,
exactly the price levels of what is seen (Seen.lean: orders at the prices noted under their ids, not at the prices of the feed,
and the quantities of the cancelled orders), best first, with their quantities and numbers of orders; no index is out of
range on the way. -/
theorem C64_levels (xs : List Report) (h : Seen.blank.ConsistentAll xs) :
    ∃ s, run init xs = .ok s ∧ ∀ sym sd, (Seen.blank.after xs).Levels sym sd (levels s sym sd) := by
  obtain ⟨s, h1, h2⟩ := Inv.run xs inv_init h
  exact ⟨s, h1, h2.levels⟩

/-- C64, memory: each entry of the pool of levels is either free, or the entry of exactly one price level of one book; no
entry is free twice. Nothing leaks and nothing is shared. -/
theorem C64_pool (xs : List Report) (h : Seen.blank.ConsistentAll xs) :
    ∃ s, run init xs = .ok s ∧ s.free.Nodup ∧ (∀ i ∈ s.free, i < s.alloc.length) ∧
      (∀ i < s.alloc.length, i ∈ s.free ∨ ∃ sym sd, ∃ e ∈ (s.books sym).half sd, e.level = i) ∧
      (∀ sym sd, ∀ e ∈ (s.books sym).half sd, e.level < s.alloc.length ∧ e.level ∉ s.free) ∧
      ∀ sym sd sym' sd' e e', e ∈ (s.books sym).half sd → e' ∈ (s.books sym').half sd' → e.level = e'.level →
        sym = sym' ∧ sd = sd' ∧ e = e' := by
  obtain ⟨s, h1, h2⟩ := Inv.run xs inv_init h
  have hS := h2.struct
  refine ⟨s, h1, hS.free_nodup, hS.free_lt, ?_, ?_, ?_⟩
  · intro i hi
    rcases hS.used i hi with h | ⟨sym, sd, e, he, rfl⟩
    · exact .inl h
    · exact .inr ⟨sym, sd, e, he, rfl⟩
  · intro sym sd e he
    obtain ⟨l1, _, l3⟩ := hS.level sym sd e he
    exact ⟨(List.getElem?_eq_some_iff.1 l1).1, l3⟩
  · intro sym sd sym' sd' e e' he he' hl
    exact hS.apart sym sd e sym' sd' e' he he' hl

/-- C64, the orders: `GetOrder` gives the symbol, side and quantity that rest, for every order of the feed that rests. -/
theorem C64_orders (xs : List Report) (h : Seen.blank.ConsistentAll xs) :
    ∃ s, run init xs = .ok s ∧ ∀ r ∈ (Seen.blank.after xs).tape, ∃ o, getOrd s r.id = .ok o ∧ o.id = r.id ∧ o.symbol = r.sym ∧
      o.side = r.side ∧ o.price = r.price ∧ o.quantity = r.qty ∧ s.alloc[o.level]? = some ⟨r.side, r.price,
        (Seen.blank.after xs).all.volume r.sym r.side r.price, (Seen.blank.after xs).number r.sym r.side r.price⟩ := by
  obtain ⟨s, h1, h2⟩ := Inv.run xs inv_init h
  refine ⟨s, h1, ?_⟩
  intro r hr
  obtain ⟨o1, o2⟩ := h2.ord r hr
  refine ⟨_, getOrd_ok (h2.fit r hr).1, by rw [o1], by rw [o1], by rw [o1], by rw [o1], by rw [o1], ?_⟩
  exact (h2.struct.level _ _ _ o2).1

end CppTrader.Opt
