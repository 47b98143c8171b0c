import Verif.Props.OptimizedFeed
/-
C64: the totals of a side are right.
-/

namespace CppTrader.Opt

/-- The resting orders of a symbol on a side. -/
def _root_.CppTrader.Tape.on (t : Tape) (sym : Nat) (sd : Side) : Tape := List.filter (fun r => r.sym = sym ∧ r.side = sd) t

theorem sum_one {P : List Nat} (hP : P.Nodup) (p q : Nat) : (P.map (fun x => if x = p then q else 0)).sum = if p ∈ P then q else 0 := by
  induction P with
  | nil => rfl
  | cons x P ih =>
    obtain ⟨h1, h2⟩ := List.nodup_cons.1 hP
    simp only [List.map_cons, List.sum_cons, ih h2, List.mem_cons]
    by_cases hx : x = p
    · subst hx; simp [h1]
    · rw [if_neg hx]
      by_cases hp : p ∈ P
      · simp [hp]
      · simp [hp, Ne.symm hx]

theorem sum_map_add (P : List Nat) (f g : Nat → Nat) : (P.map (fun x => f x + g x)).sum = (P.map f).sum + (P.map g).sum := by
  induction P with
  | nil => rfl
  | cons x P ih => simp only [List.map_cons, List.sum_cons, ih]; omega

/-- Summing a weight price by price. -/
theorem sum_prices (w : Ticket → Nat) (sym : Nat) (sd : Side) {P : List Nat} (hP : P.Nodup) (t : Tape)
    (hc : ∀ r ∈ t, r.sym = sym → r.side = sd → r.price ∈ P ∨ w r = 0) :
    (P.map (fun p => ((List.filter (fun r => r.sym = sym ∧ r.side = sd ∧ r.price = p) t).map w).sum)).sum = ((t.on sym sd).map w).sum := by
  induction t with
  | nil =>
    have : ∀ P : List Nat, (P.map (fun _ => 0)).sum = 0 := by
      intro P; induction P with
      | nil => rfl
      | cons _ _ ih => simp only [List.map_cons, List.sum_cons, ih]
    exact this P
  | cons r t ih =>
    have ih := ih (fun x hx => hc x (List.mem_cons_of_mem _ hx))
    by_cases hr : r.sym = sym ∧ r.side = sd
    · have e : (P.map (fun p => ((List.filter (fun r => r.sym = sym ∧ r.side = sd ∧ r.price = p) (r :: t)).map w).sum)) =
          P.map (fun p => (if p = r.price then w r else 0) + ((List.filter (fun r => r.sym = sym ∧ r.side = sd ∧ r.price = p) t).map w).sum) := by
        apply List.map_congr_left
        intro p _
        by_cases hp : p = r.price
        · rw [if_pos hp, List.filter_cons_of_pos (by simp [hr.1, hr.2, hp])]; rfl
        · rw [if_neg hp, List.filter_cons_of_neg (by simp; intro _ _ h; exact hp h.symm), Nat.zero_add]
      rw [e, sum_map_add, sum_one hP, ih]
      have e2 : Tape.on (r :: t) sym sd = r :: Tape.on t sym sd := List.filter_cons_of_pos (by simp [hr.1, hr.2])
      rw [e2, List.map_cons, List.sum_cons]
      rcases hc r (List.mem_cons_self ..) hr.1 hr.2 with h | h
      · rw [if_pos h]
      · rw [h]; simp
    · have e : (P.map (fun p => ((List.filter (fun r => r.sym = sym ∧ r.side = sd ∧ r.price = p) (r :: t)).map w).sum)) =
          P.map (fun p => ((List.filter (fun r => r.sym = sym ∧ r.side = sd ∧ r.price = p) t).map w).sum) := by
        apply List.map_congr_left
        intro p _
        rw [List.filter_cons_of_neg (by simp; intro h1 h2; exact absurd ⟨h1, h2⟩ hr)]
      have e2 : Tape.on (r :: t) sym sd = Tape.on t sym sd := List.filter_cons_of_neg (by simpa using hr)
      rw [e, ih, e2]

theorem sum_const_one (t : Tape) : (t.map (fun _ => 1)).sum = t.length := by
  induction t with
  | nil => rfl
  | cons _ _ ih => simp only [List.map_cons, List.sum_cons, ih, List.length_cons]; omega

theorem Blind.on {a b : Tape} (h : Blind a b) (sym : Nat) (sd : Side) : Blind (a.on sym sd) (b.on sym sd) := by
  have key : ∀ t : Tape, (t.on sym sd).map blind = Tape.on (t.map blind) sym sd := by
    intro t
    unfold Tape.on
    rw [List.filter_map]
    rfl
  unfold Blind
  rw [key, key]; exact congrArg (fun t => Tape.on t sym sd) h

theorem Blind.total {a b : Tape} (h : Blind a b) : total a = total b := by
  have key : ∀ t : Tape, Opt.total t = Opt.total (t.map blind) := by
    intro t; unfold Opt.total; rw [List.map_map]; rfl
  rw [key, key b]; exact congrArg _ h

theorem Blind.length {a b : Tape} (h : Blind a b) : a.length = b.length := by
  have := congrArg List.length h
  simpa using this

/-- C64, totals: whatever the prices, on every side of every book the quantities shown add up to the quantity that rests there
according to the feed, plus the quantities of the orders that were cancelled in full; and the numbers of orders shown add up to
the number of orders that rest there. -/
theorem C64_totals (xs : List Report) (h : Seen.blank.ConsistentAll xs) :
    ∃ s, run init xs = .ok s ∧ ∀ sym sd,
      ((levels s sym sd).map (·.2.1)).sum = (((Tape.after [] (xs.map Report.plain)).on sym sd).map (·.qty)).sum +
        (((Seen.blank.after xs).stuck.on sym sd).map (·.qty)).sum ∧
      ((levels s sym sd).map (·.2.2)).sum = ((Tape.after [] (xs.map Report.plain)).on sym sd).length := by
  obtain ⟨s, h1, h2⟩ := Inv.run xs inv_init h
  refine ⟨s, h1, fun sym sd => ?_⟩
  have hb : Blind (Seen.blank.after xs).tape (Tape.after [] (xs.map Report.plain)) := Blind.after xs rfl
  generalize Seen.blank.after xs = z at h2 hb
  generalize Tape.after [] (xs.map Report.plain) = t at hb
  obtain ⟨l1, l2⟩ := h2.levels sym sd
  have hP : ((levels s sym sd).map (·.1)).Nodup := by
    refine List.pairwise_map.2 (l1.imp ?_)
    intro a b hab
    cases sd <;> simp only at hab <;> omega
  have hv : (levels s sym sd).map (·.2.1) = ((levels s sym sd).map (·.1)).map (fun p => z.all.volume sym sd p) := by
    rw [List.map_map]
    apply List.map_congr_left
    rintro ⟨p, v, n⟩ hm
    exact ((l2 p v n).1 hm).1
  have hn : (levels s sym sd).map (·.2.2) = ((levels s sym sd).map (·.1)).map (fun p => z.number sym sd p) := by
    rw [List.map_map]
    apply List.map_congr_left
    rintro ⟨p, v, n⟩ hm
    exact ((l2 p v n).1 hm).2.1
  have hcover : ∀ r ∈ z.all, r.sym = sym → r.side = sd → r.price ∈ (levels s sym sd).map (·.1) ∨ r.qty = 0 := by
    intro r hr e1 e2
    rcases Nat.eq_zero_or_pos r.qty with h0 | h0
    · exact .inr h0
    · have := qty_le_vol hr
      refine .inl (List.mem_map.2 ⟨(r.price, _, _), (l2 r.price _ _).2 ⟨rfl, rfl, ?_⟩, rfl⟩)
      rw [e1, e2] at this
      exact Nat.lt_of_lt_of_le h0 this
  constructor
  · rw [hv]
    have := sum_prices (·.qty) sym sd hP z.all hcover
    rw [show (fun p => z.all.volume sym sd p) = fun p => ((List.filter (fun r => r.sym = sym ∧ r.side = sd ∧ r.price = p) z.all).map (·.qty)).sum from rfl, this]
    have e : z.all.on sym sd = z.tape.on sym sd ++ z.stuck.on sym sd := List.filter_append ..
    rw [e, List.map_append, List.sum_append_nat]
    have := (hb.on sym sd).total
    unfold total at this
    rw [this]
  · rw [hn]
    have := sum_prices (fun _ => 1) sym sd hP z.tape (by
      intro r hr e1 e2
      rcases hcover r (List.mem_append_left _ hr) e1 e2 with h | h
      · exact .inl h
      · have := (h2.fit r hr).2.2; omega)
    rw [sum_const_one, (hb.on sym sd).length] at this
    rw [← this]
    congr 1
    apply List.map_congr_left
    intro p _
    unfold Seen.number
    rw [sum_const_one]

/-- In the example the bids of symbol 1 add up to 14 shares of 2 orders: 4 and 3 that rest, and 7 that were cancelled. -/
example : (((Tape.after [] (reportDay.map Report.plain)).on 1 .buy).map (·.qty)).sum = 7 ∧
    (((Seen.blank.after reportDay).stuck.on 1 .buy).map (·.qty)).sum = 7 ∧ ((Tape.after [] (reportDay.map Report.plain)).on 1 .buy).length = 2 := by
  decide +kernel

end CppTrader.Opt
