import Verif.Props.Tally
/-
C65: what the statistics mean.
-/

namespace CppTrader
open Itch

theorem ids_next {t : Tape} (hn : (t.map (·.id)).Nodup) {k : Tick} (hc : t.Consistent k) : ((t.next k).map (·.id)).Nodup := by
  have back : ∀ {id : Nat} {r : Ticket}, t.find id = some r → ∀ r' : Ticket, r'.id = id → ((r' :: t.without id).map (·.id)).Nodup := by
    intro id r _ r' he
    rw [List.map_cons]
    refine List.nodup_cons.2 ⟨fun hm => ?_, nodup_without hn id⟩
    obtain ⟨y, hy, hye⟩ := List.mem_map.1 hm
    have := List.mem_filter.1 hy
    simp only [decide_eq_true_eq] at this
    exact this.2 (hye.trans he)
  have fresh : ∀ {t' : Tape} {r : Ticket}, (t'.map (·.id)).Nodup → t'.find r.id = none → ((r :: t').map (·.id)).Nodup := by
    intro t' r h1 h2
    rw [List.map_cons]
    refine List.nodup_cons.2 ⟨fun hm => ?_, h1⟩
    obtain ⟨y, hy, hye⟩ := List.mem_map.1 hm
    have := List.find?_eq_none.1 h2 y hy
    simp only [decide_eq_true_eq] at this
    exact this hye
  cases k with
  | book _ => exact hn
  | add r => exact fresh hn hc.2.2.2.2.2.2
  | take id q =>
    obtain ⟨r, hr, _⟩ := hc
    simp only [Tape.next, hr]
    by_cases h : q < r.qty
    · rw [if_pos h]; exact back hr _ (find_mem hr).2
    · rw [if_neg h]; exact nodup_without hn id
  | delete id => exact nodup_without hn id
  | modify id p q =>
    obtain ⟨r, hr, _⟩ := hc
    simp only [Tape.next, hr]
    by_cases h : 0 < q
    · rw [if_pos h]; exact back hr _ (find_mem hr).2
    · rw [if_neg h]; exact nodup_without hn id
  | replace id n p q =>
    obtain ⟨r, hr, hf, _⟩ := hc
    simp only [Tape.next, hr]
    by_cases h : 0 < q
    · rw [if_pos h]; exact fresh (nodup_without hn id) (hf h).2.2.2.2.2.2
    · rw [if_neg h]; exact nodup_without hn id

theorem tally_step {t : Tape} (hn : (t.map (·.id)).Nodup) {x : Report} (hc : t.Consistent x.plain) {T : Tally} (h : T.orders = t.length)
    (hb : T.adds = T.orders + T.deletes) (hm : T.orders ≤ T.maxOrders) :
    (T.next t x).orders = (t.next x.plain).length ∧ (T.next t x).adds = (T.next t x).orders + (T.next t x).deletes ∧
      (T.next t x).maxOrders = max T.maxOrders (t.next x.plain).length := by
  have h1 := (tally_length hn (strict_target hc) h).1
  have pos : ∀ {id : Nat} {r : Ticket}, t.find id = some r → 0 < T.orders := by
    intro id r hr
    have := length_find hn hr
    omega
  have takes : ∀ {id q : Nat} {T' : Tally} {r : Ticket}, t.find id = some r → 0 < T'.orders → T'.adds = T'.orders + T'.deletes → T'.orders ≤ T'.maxOrders →
      (T'.takes t id q).adds = (T'.takes t id q).orders + (T'.takes t id q).deletes ∧
      (T'.takes t id q).maxOrders = max T'.maxOrders (T'.takes t id q).orders := by
    intro id q T' r hr h0 h1 h2
    have e : T'.takes t id q = if q < r.qty then T'.changed else T'.goes := by simp only [Tally.takes, hr]
    rw [e]
    by_cases h : q < r.qty
    · rw [if_pos h]; exact ⟨h1, (Nat.max_eq_left h2).symm⟩
    · rw [if_neg h]
      exact ⟨by show T'.adds = T'.orders - 1 + (T'.deletes + 1); omega, by show T'.maxOrders = max T'.maxOrders (T'.orders - 1); omega⟩
  refine ⟨h1, ?_⟩
  rw [← h1]
  rcases x with k | ⟨id, q⟩
  · cases k with
    | book _ => exact ⟨hb, (Nat.max_eq_left hm).symm⟩
    | add r => exact ⟨by show T.adds + 1 = T.orders + 1 + T.deletes; omega, rfl⟩
    | take id q =>
      obtain ⟨r, hr, _⟩ := hc
      exact takes (T' := { T with updates := T.updates + 1, execs := T.execs + 1 }) hr (pos hr) hb hm
    | delete id =>
      obtain ⟨r, hr⟩ := hc
      have := pos hr
      exact ⟨by show T.adds = T.orders - 1 + (T.deletes + 1); omega, by show T.maxOrders = max T.maxOrders (T.orders - 1); omega⟩
    | modify id p q =>
      obtain ⟨r, hr, _⟩ := hc
      have := pos hr
      have e : T.next t (.tick (.modify id p q)) = if 0 < q then { T.changed with updates := T.updates + 3 } else T.goes := rfl
      rw [e]
      by_cases h : 0 < q
      · rw [if_pos h]; exact ⟨hb, (Nat.max_eq_left hm).symm⟩
      · rw [if_neg h]
        exact ⟨by show T.adds = T.orders - 1 + (T.deletes + 1); omega, by show T.maxOrders = max T.maxOrders (T.orders - 1); omega⟩
    | replace id n p q =>
      obtain ⟨r, hr, _⟩ := hc
      have := pos hr
      have e : T.next t (.tick (.replace id n p q)) = if 0 < q then T.goes.comes else T.goes := rfl
      rw [e]
      by_cases h : 0 < q
      · rw [if_pos h]
        exact ⟨by show T.adds + 1 = T.orders - 1 + 1 + (T.deletes + 1); omega, rfl⟩
      · rw [if_neg h]
        exact ⟨by show T.adds = T.orders - 1 + (T.deletes + 1); omega, by show T.maxOrders = max T.maxOrders (T.orders - 1); omega⟩
  · obtain ⟨r, hr, _⟩ := hc
    exact takes hr (pos hr) hb hm

theorem tally_balance (xs : List Report) : ∀ {t : Tape} {T : Tally}, (t.map (·.id)).Nodup → t.ConsistentAll (xs.map Report.plain) →
    T.orders = t.length → T.adds = T.orders + T.deletes → T.orders ≤ T.maxOrders →
    (T.after t xs).orders = (t.after (xs.map Report.plain)).length ∧
    (T.after t xs).adds = (T.after t xs).orders + (T.after t xs).deletes ∧
    (∀ k, (t.after ((xs.take k).map Report.plain)).length ≤ (T.after t xs).maxOrders) ∧
    (T.maxOrders ≤ (T.after t xs).maxOrders) ∧
    ((T.after t xs).maxOrders = T.maxOrders ∨ ∃ k, (t.after ((xs.take k).map Report.plain)).length = (T.after t xs).maxOrders) := by
  induction xs with
  | nil =>
    intro t T _ _ h1 h2 h3
    exact ⟨h1, h2, fun k => by rw [List.take_nil]; show t.length ≤ T.maxOrders; omega, Nat.le_refl _, Or.inl rfl⟩
  | cons x xs ih =>
    intro t T hn hc h1 h2 h3
    obtain ⟨c1, c2⟩ := hc
    obtain ⟨s1, s2, s3⟩ := tally_step hn c1 h1 h2 h3
    have := ih (ids_next hn c1) c2 s1 s2 (by rw [s3, s1]; omega)
    obtain ⟨r1, r2, r3, r4, r5⟩ := this
    have e : T.after t (x :: xs) = (T.next t x).after (t.next x.plain) xs := rfl
    rw [e]
    refine ⟨r1, r2, ?_, by omega, ?_⟩
    · intro k
      cases k with
      | zero => show t.length ≤ _; omega
      | succ k => exact r3 k
    · rcases r5 with r5 | ⟨k, hk⟩
      · rw [s3] at r5
        by_cases hm : (t.next x.plain).length ≤ T.maxOrders
        · exact Or.inl (by omega)
        · refine Or.inr ⟨1, ?_⟩
          rw [r5]
          show (t.next x.plain).length = _
          omega
      · exact Or.inr ⟨k + 1, hk⟩

/-- C65. What the programs have counted then: the orders they say rest are as many as rest according to the feed; every order added
was removed again or rests; and the highest number of orders is the highest number that rested after any of the messages. -/
theorem C65_balance (ms : List (Msg × List UInt8)) (chunks : List (List UInt8))
    (hm : ∀ x ∈ ms, x.1.Fits ∧ x.2.length = 3)
    (hc : chunks.flatten = (ms.map (fun x => frame (x.1.wire x.2))).flatten)
    (hq : ((ms.flatMap (fun x => x.1.ops)).map Op.quantity).sum < 2 ^ 64)
    (ht : Tape.ConsistentAll [] (ms.filterMap (fun x => x.1.tick)))
    (hs : Tape.StrictAll [] (ms.filterMap (fun x => x.1.tick)))
    (hsh : ((ms.filterMap (fun x => x.1.report)).map Report.entered).sum < 2 ^ 32)
    (hlen : ms.length < 2 ^ 62) :
    ∃ p g s, Feeder.main chunks (St.init, Mgr.init) = .ok (p, g) ∧ Opt.main chunks (St.init, Opt.init) = .ok (p, s) ∧
      ∀ c, c = g.stats ∨ c = Opt.stats s →
        c.orders = (Tape.after [] (ms.filterMap (fun x => x.1.tick))).length ∧ c.adds = c.orders + c.deletes ∧
        (∀ k, (Tape.after [] ((ms.filterMap (fun x => x.1.tick)).take k)).length ≤ c.maxOrders) ∧
        (∃ k, (Tape.after [] ((ms.filterMap (fun x => x.1.tick)).take k)).length = c.maxOrders) := by
  obtain ⟨p, g, s, h1, h2, h3, h4⟩ := C65_statistics ms chunks hm hc hq ht hs hsh hlen
  refine ⟨p, g, s, h1, h2, ?_⟩
  have hp : (ms.filterMap (fun x => x.1.report)).map Report.plain = ms.filterMap (fun x => x.1.tick) := by
    have := reports_plain (ms.map (·.1))
    rw [List.filterMap_map, List.filterMap_map] at this
    exact this
  rw [← hp] at ht ⊢
  obtain ⟨b1, b2, b3, b4, b5⟩ := tally_balance _ (t := []) (T := .zero) List.nodup_nil ht rfl rfl (Nat.le_refl _)
  have fin : ∀ c : Stats, c.Is (Tally.zero.after [] (ms.filterMap (fun x => x.1.report))) → _ := fun c hI => by
    obtain ⟨q1, q2, q3, q4, q5, q6, q7, q8, q9, q10, q11⟩ := hI
    show c.orders = (Tape.after [] ((ms.filterMap (fun x => x.1.report)).map Report.plain)).length ∧ c.adds = c.orders + c.deletes ∧
        (∀ k, (Tape.after [] (((ms.filterMap (fun x => x.1.report)).map Report.plain).take k)).length ≤ c.maxOrders) ∧
        (∃ k, (Tape.after [] (((ms.filterMap (fun x => x.1.report)).map Report.plain).take k)).length = c.maxOrders)
    rw [q6, q7, q8, q10]
    refine ⟨b1, b2, fun k => by rw [← List.map_take]; exact b3 k, ?_⟩
    rcases b5 with b5 | ⟨k, hk⟩
    · refine ⟨0, ?_⟩
      rw [b5]
      rfl
    · exact ⟨k, by rw [← List.map_take]; exact hk⟩
  rintro c (rfl | rfl)
  · exact fin _ h3
  · exact fin _ h4

/-- Both apply to the stream of C54 (nine messages); its statistics. -/
example : (∀ x ∈ itchDay, x.1.Fits ∧ x.2.length = 3) ∧ ((itchDay.flatMap (fun x => x.1.ops)).map Op.quantity).sum < 2 ^ 64 ∧
    Tape.ConsistentAll [] (itchDay.filterMap (fun x => x.1.tick)) ∧ Tape.StrictAll [] (itchDay.filterMap (fun x => x.1.tick)) ∧
    ((itchDay.filterMap (fun x => x.1.report)).map Report.entered).sum < 2 ^ 32 ∧ itchDay.length < 2 ^ 62 ∧
    Tally.zero.after [] (itchDay.filterMap (fun x => x.1.report)) = ⟨21, 2, 2, 4, 4, 5, 2, 1, 1⟩ := by
  refine ⟨?_, by decide +kernel, by decide +kernel, by decide +kernel, by decide +kernel, by decide +kernel, by decide +kernel⟩
  simp [itchDay, Msg.Fits, Hdr.Fits, known]

end CppTrader
