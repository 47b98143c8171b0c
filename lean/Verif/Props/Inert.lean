import Verif.Proof.InertVenue
/-
C76: on an uncrossed market without stop orders, matching has nothing to do.
-/

namespace CppTrader

open Core Budget Inert

theorem Seats.calm {x : Venue} {g : Mgr} (hx : Seats x g) (hg : MInv g) {op : Op} (hp : g.Passive op) : Tranquil x op := by
  have hl : ∀ s, s ∈ x.books → (x.pits s).board = g.lines s := by
    intro s hs
    obtain ⟨b, hb⟩ := Option.ne_none_iff_exists'.1 ((hx.books s).1 hs)
    rw [hx.pits s b hb, lines_board hg hb]
    rfl
  cases op <;> simp only [Mgr.Passive, Tranquil] at hp ⊢ <;> first | trivial | skip
  all_goals first
    | (intro hb; rw [hl _ hb]; exact hp)
    | (intro o ho hb; rw [hl _ hb]; exact hp o (by rw [hg.getOrder, ← hx.find hg]; exact ho))

/-- What can be seen does not depend on the matching flag, nor on the prices trailing orders have followed. -/
theorem near_shows {x y : Venue} {g h : Mgr} (hx : Seats x g) (hg : MInv g) (hy : Seats y h) (hh : MInv h) (e : blind x = blind y) :
    (∀ id, g.getOrder id = h.getOrder id) ∧ ∀ s, (g.getSymbol s = none ↔ h.getSymbol s = none) ∧ (g.getBook s = none ↔ h.getBook s = none) ∧
      g.lines s = h.lines s ∧ ∀ b c, g.getBook s = some b → h.getBook s = some c →
        b.marketBid = c.marketBid ∧ b.marketAsk = c.marketAsk ∧ b.marketTrailBid = c.marketTrailBid ∧ b.marketTrailAsk = c.marketTrailAsk := by
  refine ⟨fun id => by rw [hg.getOrder, hh.getOrder, ← hx.find hg, ← hy.find hh, blind_find e], fun s => ?_⟩
  have books : g.getBook s = none ↔ h.getBook s = none := by
    have a := hy.books s
    have b := hx.books s
    rw [blind_books e] at b
    constructor
    · intro e; exact Classical.byContradiction fun n => b.1 (a.2 n) e
    · intro e; exact Classical.byContradiction fun n => a.1 (b.2 n) e
  refine ⟨?_, books, ?_, ?_⟩
  · have a := hy.symbols s
    have b := hx.symbols s
    rw [blind_symbols e] at b
    constructor
    · intro e; exact Classical.byContradiction fun n => b.1 (a.2 n) e
    · intro e; exact Classical.byContradiction fun n => a.1 (b.2 n) e
  · funext k
    cases hb : g.getBook s with
    | none => rw [lines_none (g := g) hb, lines_none (g := h) (books.1 hb)]
    | some b =>
      cases hd : h.getBook s with
      | none => rw [books.2 hd] at hb; cases hb
      | some d =>
        rw [lines_board hg hb, lines_board hh hd]
        show (g.core b).pit.board k = (h.core d).pit.board k
        rw [← hx.pits s b hb, ← hy.pits s d hd, blind_board e]
  · intro b d hb hd
    have h1 := (hg.inv hb).1
    have h2 := (hh.inv hd).1
    have hp : blindP (g.core b).pit = blindP (h.core d).pit := by rw [← hx.pits s b hb, ← hy.pits s d hd, blind_pit e]
    have p1 := congrArg Pit.bid hp
    have p2 := congrArg Pit.ask hp
    have p3 := congrArg Pit.trailBid hp
    have p4 := congrArg Pit.trailAsk hp
    exact ⟨(pit_bid h1).symm.trans (p1.trans (pit_bid h2)), (pit_ask h1).symm.trans (p2.trans (pit_ask h2)),
      (pit_trailBid h1).symm.trans (p3.trans (pit_trailBid h2)), (pit_trailAsk h1).symm.trans (p4.trans (pit_trailAsk h2))⟩

theorem near_admissible {x y : Venue} {g h : Mgr} (hx : Seats x g) (hg : MInv g) (hy : Seats y h) (hh : MInv h) (e : blind x = blind y)
    {op : Op} (ha : g.Admissible op) : h.Admissible op := by
  obtain ⟨h1, h2⟩ := near_shows hx hg hy hh e
  have hf : ∀ s q, g.Fits s q → h.Fits s q := by
    intro s q hf c hc
    cases hb : g.getBook s with
    | none => rw [(h2 s).2.1.1 hb] at hc; cases hc
    | some b =>
      have := hf b hb
      have e1 := pit_size (hg.inv hb).1
      have e2 := pit_size (hh.inv hc).1
      have e3 : (g.core b).pit.board = (h.core c).pit.board := by rw [← hx.pits s b hb, ← hy.pits s c hc, blind_board e]
      rw [e3] at e1
      have e4 : volume b = volume c := e1.symm.trans e2
      rw [← e4]
      exact this
  cases op with
  | addSymbol s => exact ha
  | addOrderBook s =>
    intro hb i o ho
    exact ha ((h2 s.id).2.1.2 hb) i o (by rw [h1]; exact ho)
  | addOrder o => exact ⟨ha.1, hf _ _ ha.2⟩
  | modifyOrder id p q => exact ⟨ha.1, ha.2.1, fun o ho => hf _ _ (ha.2.2 o (by rw [h1]; exact ho))⟩
  | mitigateOrder id p q => exact ⟨ha.1, ha.2.1, fun o ho => hf _ _ (ha.2.2 o (by rw [h1]; exact ho))⟩
  | replaceOrder id n p q => exact ⟨ha.1, ha.2.1, ha.2.2.1, fun o ho => hf _ _ (ha.2.2.2 o (by rw [h1]; exact ho))⟩
  | replaceWith id o => exact ⟨ha.1, hf _ _ ha.2⟩
  | deleteSymbol _ => trivial
  | deleteOrderBook _ => trivial
  | reduceOrder _ _ => trivial
  | deleteOrder _ => trivial
  | executeOrder _ _ => trivial
  | executeOrderAt _ _ _ => trivial
  | enableMatching => trivial
  | disableMatching => trivial
  | matchAll => trivial

theorem AllPassive.tail {g g1 : Mgr} {r : Op × ErrorCode × List Execution} {l} (h : g.AllPassive (r :: l)) (h1 : g.Records [r] g1) : g1.AllPassive l := by
  intro l1 s l2 g2 e hl
  refine h (r :: l1) s l2 g2 (by rw [e]; rfl) ?_
  have := h1.trans hl
  exact this

theorem mode_admissible (h : Mgr) {op : Op} (hm : op.isMode = true) : h.Admissible op := by
  cases op <;> first | (cases hm; done) | exact trivial

/-- Two runs with the same calls, except for those that concern matching. -/
theorem inert_runs (n : Nat) : ∀ {x y : Venue} {g g' h : Mgr} {l : List (Op × ErrorCode × List Execution)} {ops : List Op},
    l.length + ops.length ≤ n → Seats x g → MInv g → Seats y h → MInv h → Still x → blind x = blind y → g.Records l g' → g.AllPassive l →
    ops.filter (fun op => !op.isMode) = (l.map (·.1)).filter (fun op => !op.isMode) →
    ∃ x' y' l' h', h.Records l' h' ∧ l'.map (·.1) = ops ∧ Seats x' g' ∧ MInv g' ∧ Seats y' h' ∧ MInv h' ∧ blind x' = blind y' ∧
      l'.filter (fun r => !r.1.isMode) = l.filter (fun r => !r.1.isMode) ∧
      (∀ r ∈ l, r.1.isMode = true → r.2 = (.ok, [])) ∧ ∀ r ∈ l', r.1.isMode = true → r.2 = (.ok, []) := by
  induction n with
  | zero =>
    intro x y g g' h l ops hn hx hg hy hh hs e hl hp hf
    have e1 : l = [] := List.eq_nil_of_length_eq_zero (by omega)
    have e2 : ops = [] := List.eq_nil_of_length_eq_zero (by omega)
    subst e1 e2
    cases hl
    exact ⟨x, y, [], h, .nil, rfl, hx, hg, hy, hh, e, rfl, (fun r hr => by cases hr), (fun r hr => by cases hr)⟩
  | succ n ih =>
    intro x y g g' h l ops hn hx hg hy hh hs e hl hp hf
    have mine : ∀ op ops', ops = op :: ops' → op.isMode = true → ∃ x' y' l' h', h.Records l' h' ∧ l'.map (·.1) = ops ∧ Seats x' g' ∧ MInv g' ∧
        Seats y' h' ∧ MInv h' ∧ blind x' = blind y' ∧ l'.filter (fun r => !r.1.isMode) = l.filter (fun r => !r.1.isMode) ∧
        (∀ r ∈ l, r.1.isMode = true → r.2 = (.ok, [])) ∧ ∀ r ∈ l', r.1.isMode = true → r.2 = (.ok, []) := by
      intro op ops' eo hm
      subst eo
      obtain ⟨h1, a1, a2, a3⟩ := hy.make hh (mode_admissible h hm)
      obtain ⟨m1, m2, m3⟩ := mode_still (hs.near e) hm
      obtain ⟨x', y', l', h', c1, c2, c3, c4, c5, c6, c7, c8, c9, c10⟩ := ih (ops := ops') (by simp only [List.length_cons] at hn; omega) hx hg a2 a3 hs
        (e.trans m3.symm) hl hp (by rw [← hf, List.filter_cons, hm]; rfl)
      refine ⟨x', y', _ :: l', h', a1.trans c1, ?_, c3, c4, c5, c6, c7, ?_, c9, ?_⟩
      · simp only [List.map_cons, c2]
      · rw [List.filter_cons, hm]; exact c8
      · intro r hr hm'
        rcases List.mem_cons.1 hr with g1 | g1
        · rw [g1, m1, m2]
        · exact c10 r g1 hm'
    cases ops with
    | cons op ops' =>
      by_cases hm : op.isMode = true
      · exact mine op ops' rfl hm
      · have hm0 : op.isMode = false := by simpa using hm
        cases l with
        | nil => rw [List.filter_cons, hm0] at hf; cases hf
        | cons r l =>
          obtain ⟨rop, re, rx⟩ := r
          cases hl with
          | cons ha hst hev hrest =>
            rename_i g1 evs
            have hone : g.Records [(rop, re, execsOf evs)] g1 := .cons ha hst hev .nil
            obtain ⟨_, b1, b2, b3, b4⟩ := hx.one hg hone
            by_cases hr : rop.isMode = true
            · obtain ⟨m1, m2, m3⟩ := mode_still hs hr
              obtain ⟨x', y', l', h', c1, c2, c3, c4, c5, c6, c7, c8, c9, c10⟩ := ih (ops := op :: ops') (by simp only [List.length_cons] at hn ⊢; omega)
                b3 b4 hy hh (hs.near m3.symm) (m3.trans e) hrest (AllPassive.tail hp hone) (by rw [hf, List.map_cons, List.filter_cons, hr]; rfl)
              refine ⟨x', y', l', h', c1, c2, c3, c4, c5, c6, c7, ?_, ?_, c10⟩
              · rw [c8, List.filter_cons, hr]; rfl
              · intro r' hr' hm'
                rcases List.mem_cons.1 hr' with g1 | g1
                · rw [g1, ← b1, ← b2, m1, m2]
                · exact c9 r' g1 hm'
            · have hr0 : rop.isMode = false := by simpa using hr
              rw [List.map_cons, List.filter_cons, List.filter_cons, hm0, hr0] at hf
              have hf' := List.cons.inj hf
              have eo : op = rop := hf'.1
              subst eo
              have pass : g.Passive op := hp [] (op, re, execsOf evs) l g rfl .nil
              have calm := hx.calm hg pass
              have t1 := Tame.call hs (hx.sound hg) (hx.placed hg) hm0 calm
              have t2 := Tame.call (hs.near e) (hy.sound hh) (hy.placed hh) hm0 (calm.near e)
              rw [← e] at t2
              have t := t1.near.trans t2.near.symm
              obtain ⟨h1, a1, a2, a3⟩ := hy.make hh (near_admissible hx hg hy hh e ha)
              obtain ⟨x', y', l', h', c1, c2, c3, c4, c5, c6, c7, c8, c9, c10⟩ := ih (ops := ops') (by simp only [List.length_cons] at hn ⊢; omega)
                b3 b4 a2 a3 t1.still t.2.2 hrest (AllPassive.tail hp hone) hf'.2
              refine ⟨x', y', _ :: l', h', a1.trans c1, ?_, c3, c4, c5, c6, c7, ?_, ?_, ?_⟩
              · simp only [List.map_cons, c2]
              · rw [List.filter_cons, List.filter_cons, hm0, ← t.1, ← t.2.1, b1, b2]
                simp only [Bool.not_false, if_true]
                rw [c8]
              · intro r' hr' hm'
                rcases List.mem_cons.1 hr' with g1 | g1
                · rw [g1] at hm'; rw [hm0] at hm'; cases hm'
                · exact c9 r' g1 hm'
              · intro r' hr' hm'
                rcases List.mem_cons.1 hr' with g1 | g1
                · rw [g1] at hm'; rw [hm0] at hm'; cases hm'
                · exact c10 r' g1 hm'
    | nil =>
      cases l with
      | nil =>
        cases hl
        exact ⟨x, y, [], h, .nil, rfl, hx, hg, hy, hh, e, rfl, (fun r hr => by cases hr), (fun r hr => by cases hr)⟩
      | cons r l =>
        obtain ⟨rop, re, rx⟩ := r
        by_cases hr : rop.isMode = true
        · cases hl with
          | cons ha hst hev hrest =>
            rename_i g1 evs
            have hone : g.Records [(rop, re, execsOf evs)] g1 := .cons ha hst hev .nil
            obtain ⟨_, b1, b2, b3, b4⟩ := hx.one hg hone
            obtain ⟨m1, m2, m3⟩ := mode_still hs hr
            obtain ⟨x', y', l', h', c1, c2, c3, c4, c5, c6, c7, c8, c9, c10⟩ := ih (ops := []) (by simp only [List.length_cons, List.length_nil] at hn ⊢; omega)
              b3 b4 hy hh (hs.near m3.symm) (m3.trans e) hrest (AllPassive.tail hp hone) (by rw [hf, List.map_cons, List.filter_cons, hr]; rfl)
            refine ⟨x', y', l', h', c1, c2, c3, c4, c5, c6, c7, ?_, ?_, c10⟩
            · rw [c8, List.filter_cons, hr]; rfl
            · intro r' hr' hm'
              rcases List.mem_cons.1 hr' with g1 | g1
              · rw [g1, ← b1, ← b2, m1, m2]
              · exact c9 r' g1 hm'
        · have hr0 : rop.isMode = false := by simpa using hr
          rw [List.map_cons, List.filter_cons, hr0] at hf
          cases hf

/-- C76. A history in which no new order or new price ever meets the opposite side of its book. Take out all calls that switch
matching on or off or ask for it, and put in others anywhere: the history can still be made, every other call has the same
result code and the same executions, the calls about matching execute nothing in either history, and in the end both managers show
the same symbols, books, orders, lines and market prices. -/
theorem C76_inert {g : Mgr} {l : List (Op × ErrorCode × List Execution)} (hl : Mgr.Records Mgr.init l g) (hp : Mgr.init.AllPassive l) {ops : List Op}
    (hf : ops.filter (fun op => !op.isMode) = (l.map (·.1)).filter (fun op => !op.isMode)) :
    ∃ (l' : List (Op × ErrorCode × List Execution)) (h : Mgr), Mgr.Records Mgr.init l' h ∧ l'.map (·.1) = ops ∧
      l'.filter (fun r => !r.1.isMode) = l.filter (fun r => !r.1.isMode) ∧
      (∀ r ∈ l, r.1.isMode = true → r.2 = (.ok, [])) ∧ (∀ r ∈ l', r.1.isMode = true → r.2 = (.ok, [])) ∧
      (∀ id, g.getOrder id = h.getOrder id) ∧
      ∀ s, (g.getSymbol s = none ↔ h.getSymbol s = none) ∧ (g.getBook s = none ↔ h.getBook s = none) ∧ g.lines s = h.lines s ∧
        ∀ b c, g.getBook s = some b → h.getBook s = some c →
          b.marketBid = c.marketBid ∧ b.marketAsk = c.marketAsk ∧ b.marketTrailBid = c.marketTrailBid ∧ b.marketTrailAsk = c.marketTrailAsk := by
  obtain ⟨x', y', l', h', c1, c2, c3, c4, c5, c6, c7, c8, c9, c10⟩ := inert_runs _ (Nat.le_refl _) seats_init MInv.init seats_init MInv.init
    (fun s hs => by cases hs) rfl hl hp hf
  obtain ⟨s1, s2⟩ := near_shows c3 c4 c5 c6 c7
  exact ⟨l', h', c1, c2, c8, c9, c10, s1, s2⟩

/-! ### A session of that kind -/

def Mgr.passiveB (g : Mgr) : Op → Bool
  | .addOrder o | .replaceWith _ o => decide (o.idle (g.lines o.symbolId o.side.other.limits))
  | .modifyOrder id p _ | .mitigateOrder id p _ | .replaceOrder id _ p _ =>
    (g.getOrder id).all fun o => decide (({ o with price := p } : Order).idle (g.lines o.symbolId o.side.other.limits))
  | _ => true

theorem passiveB_iff {g : Mgr} {op : Op} (h : g.passiveB op = true) : g.Passive op := by
  cases op <;> simp only [Mgr.passiveB, Mgr.Passive] at h ⊢ <;> first | trivial | skip
  all_goals first
    | exact of_decide_eq_true h
    | (intro o ho; rw [ho] at h; exact of_decide_eq_true h)

def checkPassive (g : Mgr) : List Op → Bool
  | [] => true
  | op :: ops => g.passiveB op && match g.step op with
    | .ok (g', _) => checkPassive g' ops
    | _ => true

theorem checkPassive_all {ops : List Op} : ∀ {g : Mgr} {l}, l.map (·.1) = ops → checkPassive g ops = true → g.AllPassive l := by
  induction ops with
  | nil =>
    intro g l e _ l1 r l2 g1 e'
    rw [List.map_eq_nil_iff.1 e] at e'
    simp at e'
  | cons op ops ih =>
    intro g l e hc l1 r l2 g1 e' hl
    cases l with
    | nil => cases e
    | cons r' l' =>
      obtain ⟨op', er, xs⟩ := r'
      rw [List.map_cons] at e
      obtain ⟨e1, e2⟩ := List.cons.inj e
      simp only [] at e1
      subst e1
      unfold checkPassive at hc
      rw [Bool.and_eq_true] at hc
      cases l1 with
      | nil =>
        cases hl
        obtain ⟨e1, _⟩ := List.cons.inj e'
        subst e1
        exact passiveB_iff hc.1
      | cons r1 l1 =>
        obtain ⟨e1, e3⟩ := List.cons.inj e'
        subst e1
        cases hl with
        | cons ha hst hev hrest =>
          rw [hst] at hc
          exact ih e2 hc.2 l1 r l2 _ e3 hrest

/-- A session with bids and asks, an All-Or-None order, an Immediate-Or-Cancel order, a duplicate, new prices, an execution by hand, and matching
switched on and off. -/
def calmSession : List Op := [.addSymbol ⟨1, 0⟩, .addOrderBook ⟨1, 0⟩, .addOrder (.mkMarket 9 1 .buy 5), .addOrder (.mkLimit 1 1 .buy 100 10),
  .enableMatching, .addOrder (.mkLimit 2 1 .sell 105 10), .addOrder (.mkLimit 3 1 .sell 104 7 .aon), .matchAll, .addOrder (.mkLimit 4 1 .buy 103 1 .ioc),
  .addOrder (.mkLimit 1 1 .buy 101 3), .modifyOrder 1 103 12, .replaceOrder 2 5 106 4, .executeOrderAt 3 104 2, .disableMatching, .reduceOrder 1 5,
  .replaceWith 5 (.mkLimit 6 1 .sell 107 9), .enableMatching, .deleteOrder 3]

/-- The hypotheses of C76 are met: the session is admissible and of that kind, and orders are left on both sides. -/
example : ∃ (g : Mgr) (l : List (Op × ErrorCode × List Execution)), Mgr.Records Mgr.init l g ∧ Mgr.init.AllPassive l ∧ l.map (·.1) = calmSession ∧
    (g.getOrder 1).isSome = true ∧ (g.getOrder 6).isSome = true := by
  have hd : (checkRun true Mgr.init calmSession).any (fun g => (g.getOrder 1).isSome && (g.getOrder 6).isSome) = true := by decide +kernel
  cases hc : checkRun true Mgr.init calmSession with
  | none => rw [hc] at hd; cases hd
  | some g =>
    rw [hc] at hd
    obtain ⟨l, h1, h2⟩ := checkRun_records .init (fun _ _ => rfl) hc
    have hd' : ((g.getOrder 1).isSome && (g.getOrder 6).isSome) = true := hd
    rw [Bool.and_eq_true] at hd'
    exact ⟨g, l, h1, checkPassive_all h2 (by decide +kernel), h2, hd'.1, hd'.2⟩

end CppTrader
