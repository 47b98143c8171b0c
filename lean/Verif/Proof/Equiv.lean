import Verif.Props.Recast
import Verif.Proof.Future
/-
Managers with the same reference exchange cannot be told apart.
-/

namespace CppTrader
open Core

theorem Seats.shows {x : Venue} {g h : Mgr} (hx : Seats x g) (hg : MInv g) (hy : Seats x h) (hh : MInv h) : g.Shows h := by
  have books : ∀ s, g.getBook s = none ↔ h.getBook s = none := by
    intro s
    have a := hy.books s
    have b := hx.books s
    constructor
    · intro e; exact Classical.byContradiction fun n => b.1 (a.2 n) e
    · intro e; exact Classical.byContradiction fun n => a.1 (b.2 n) e
  refine ⟨by rw [← hx.matching, hy.matching], ?_, ?_, books, ?_, ?_⟩
  · intro id; rw [hh.getOrder, hg.getOrder, ← hy.find hh, ← hx.find hg]
  · intro s
    have a := hy.symbols s
    have b := hx.symbols s
    constructor
    · intro e; exact Classical.byContradiction fun n => b.1 (a.2 n) e
    · intro e; exact Classical.byContradiction fun n => a.1 (b.2 n) e
  · intro s
    funext k
    cases hb : g.getBook s with
    | none => rw [lines_none (g := g) hb, lines_none (g := h) ((books s).1 hb)]
    | some b =>
      cases hd : h.getBook s with
      | none => rw [(books s).2 hd] at hb; cases hb
      | some d =>
        rw [lines_board hg hb, lines_board hh hd]
        show (g.core b).pit.board k = (h.core d).pit.board k
        rw [← hx.pits s b hb, ← hy.pits s d hd]
  · intro s b d hb hd
    have h1 := (hg.inv hb).1
    have h2 := (hh.inv hd).1
    have hp : (g.core b).pit = (h.core d).pit := by rw [← hx.pits s b hb, ← hy.pits s d hd]
    have a1 := pit_bid h1
    have a2 := pit_ask h1
    have a3 := pit_trailBid h1
    have a4 := pit_trailAsk h1
    rw [hp] at a1 a2 a3 a4
    exact ⟨a1.symm.trans (pit_bid h2), a2.symm.trans (pit_ask h2), a3.symm.trans (pit_trailBid h2), a4.symm.trans (pit_trailAsk h2)⟩

theorem Recast.none_order : Recast.none.order = fun o => o := rfl

theorem Recast.none_exec : Recast.none.exec = fun x => x := rfl

theorem Recast.none_venue (x : Venue) : Recast.none.venue x = x := by
  unfold Recast.venue Recast.pit Recast.board
  rw [Recast.none_order]
  simp

theorem Recast.none_op (op : Op) : Recast.none.op op = op := by cases op <;> rfl

theorem Recast.none_entries (l : List (Op × ErrorCode × List Execution)) : l.map Recast.none.entry = l := by
  have : Recast.none.entry = fun r => r := by
    funext r
    obtain ⟨op, e, xs⟩ := r
    unfold Recast.entry
    rw [Recast.none_op, Recast.none_exec]
    simp
  rw [this, List.map_id']

theorem Seats.follow {x : Venue} {g h : Mgr} (hx : Seats x g) (hg : MInv g) (hy : Seats x h) (hh : MInv h) {l g'} (hl : g.Records l g') :
    ∃ h', h.Records l h' ∧ g'.Shows h' := by
  obtain ⟨h', x', h1, h2, h3, h4, h5⟩ := Recast.none.records hl hx hg (h := h) (by rw [Recast.none_venue]; exact hy) hh (by
    intro r _
    cases r.1 <;> first | exact rfl | exact trivial)
  rw [Recast.none_entries] at h1
  rw [Recast.none_venue] at h4
  exact ⟨h', h1, h2.shows h3 h4 h5⟩

theorem Mgr.Shows.symm {g h : Mgr} (s : g.Shows h) : h.Shows g :=
  ⟨s.matching.symm, fun id => (s.order id).symm, fun i => (s.symbol i).symm, fun i => (s.book i).symm, fun i => (s.lines i).symm,
    fun i b c hb hc => by
      obtain ⟨a1, a2, a3, a4⟩ := s.prices i c b hc hb
      exact ⟨a1.symm, a2.symm, a3.symm, a4.symm⟩⟩

theorem Seats.alike {x : Venue} {g h : Mgr} (hx : Seats x g) (hg : MInv g) (hy : Seats x h) (hh : MInv h) (h1 : ∀ s, g.getSymbol s = h.getSymbol s)
    (h2 : ∀ s, (g.getBook s).map (·.symbol) = (h.getBook s).map (·.symbol)) : g.Alike h := by
  have ho : ∀ id, g.orders id = h.orders id := by intro id; rw [← hy.find hh, ← hx.find hg]
  refine ⟨by rw [← hx.matching, hy.matching], h1, fun s => ?_, fun id => by rw [hh.getOrder, hg.getOrder]; exact ho id⟩
  have h2s := h2 s
  cases hb : g.getBook s with
  | none => rw [hb] at h2s; exact (Option.map_eq_none_iff.1 h2s.symm).symm
  | some b =>
    cases hc : h.getBook s with
    | none => rw [hb, hc] at h2s; cases h2s
    | some c =>
      rw [hb, hc] at h2s
      have hp : (g.core b).pit = (h.core c).pit := by rw [← hx.pits s b hb, ← hy.pits s c hc]
      exact congrArg some (book_determined (hg.inv hb).1 (hh.inv hc).1 (funext ho) (Option.some.inj h2s) hp)

theorem Mgr.SameLines.alike {g h : Mgr} (a : g.SameLines h) (hg : MInv g) (hh : MInv h) : g.Alike h := by
  refine ⟨a.matching, a.symbol, fun s => ?_, a.order⟩
  have ho : ∀ id, g.orders id = h.orders id := by intro id; rw [← hg.getOrder, ← hh.getOrder]; exact a.order id
  have h2s := a.title s
  cases hb : g.getBook s with
  | none => rw [hb] at h2s; exact (Option.map_eq_none_iff.1 h2s.symm).symm
  | some b =>
    cases hc : h.getBook s with
    | none => rw [hb, hc] at h2s; cases h2s
    | some c =>
      rw [hb, hc] at h2s
      have hl := a.lines s
      rw [lines_board hg hb, lines_board hh hc] at hl
      have p1 := a.last s b c hb hc
      have p2 := a.heard s b c hb hc
      have p3 := a.seen s b c hb hc
      have hp : (g.core b).pit = (h.core c).pit := by
        unfold Core.pit
        rw [hl]
        show (⟨_, ⟨b.lastBid, b.lastAsk⟩, ⟨b.matchBid, b.matchAsk⟩, ⟨b.trailBid, b.trailAsk⟩⟩ : Pit) = ⟨_, ⟨c.lastBid, c.lastAsk⟩, ⟨c.matchBid, c.matchAsk⟩, ⟨c.trailBid, c.trailAsk⟩⟩
        rw [p1.1, p1.2, p2.1, p2.2, p3.1, p3.2]
      exact congrArg some (book_determined (hg.inv hb).1 (hh.inv hc).1 (funext ho) (Option.some.inj h2s) hp)

/-- Managers with the same reference exchange that were reached by different calls, none of them about symbols and books, from the same state. -/
theorem Seats.equivalent {x : Venue} {a g h : Mgr} (hx : Seats x g) (hg : MInv g) (hy : Seats x h) (hh : MInv h) {l1 l2} (ha : MInv a) (h1 : a.Records l1 g)
    (h2 : a.Records l2 h) (n1 : ∀ r ∈ l1, ¬ r.1.isRegistry) (n2 : ∀ r ∈ l2, ¬ r.1.isRegistry) : g.Equivalent h := by
  have key : ∀ {a g : Mgr} {l}, MInv a → a.Records l g → (∀ r ∈ l, ¬ r.1.isRegistry) →
      (∀ s, g.getSymbol s = a.getSymbol s) ∧ ∀ s, (g.getBook s).map (·.symbol) = (a.getBook s).map (·.symbol) := by
    intro a g l ha hl
    induction hl with
    | nil => exact fun _ => ⟨fun _ => rfl, fun _ => rfl⟩
    | cons hm hs _ _ ih =>
      intro hn
      obtain ⟨k1, k2⟩ := titles_kept ha hm hs (hn _ (List.mem_cons_self ..))
      obtain ⟨k3, k4⟩ := ih ((step_eff ha hm hs).minv ha hm) (fun r hr => hn r (List.mem_cons_of_mem _ hr))
      exact ⟨fun s => (k3 s).trans (k1 s), fun s => (k4 s).trans (k2 s)⟩
  obtain ⟨a1, a2⟩ := key ha h1 n1
  obtain ⟨b1, b2⟩ := key ha h2 n2
  exact (hx.alike hg hy hh (fun s => (a1 s).trans (b1 s).symm) (fun s => (a2 s).trans (b2 s).symm)).equivalent hg hh

/-- Every reachable manager has its reference exchange. -/
theorem Mgr.Reachable.seats {g : Mgr} (hr : g.Reachable) : ∃ x, Seats x g := by
  induction hr with
  | init => exact ⟨_, seats_init⟩
  | step hr ha hs ih =>
    obtain ⟨x, hx⟩ := ih
    exact ⟨_, (hx.step hr.minv ha hs).seats⟩

/-- One call. -/
theorem Seats.one {x : Venue} {g g' : Mgr} (hx : Seats x g) (hg : MInv g) {op e xs} (hl : g.Records [(op, e, xs)] g') :
    g.Admissible op ∧ (x.call op).1 = e ∧ (x.call op).2.1 = xs ∧ Seats (x.call op).2.2 g' ∧ MInv g' := by
  cases hl with
  | cons ha hs hev hn =>
    cases hn
    have hE := hx.step hg ha hs
    obtain ⟨evs', a1, a2⟩ := hE.ev
    rw [hev] at a1
    cases List.append_cancel_left a1
    exact ⟨ha, hE.code, a2.symm, hE.seats, hE.inv⟩

/-- An admissible call can be made. -/
theorem Seats.make {x : Venue} {g : Mgr} (hx : Seats x g) (hg : MInv g) {op} (ha : g.Admissible op) :
    ∃ g', g.Records [(op, (x.call op).1, (x.call op).2.1)] g' ∧ Seats (x.call op).2.2 g' ∧ MInv g' := by
  obtain ⟨g', e, hs, _⟩ := step_ok hg _ ha
  have hE := hx.step hg ha hs
  obtain ⟨evs', a1, a2⟩ := hE.ev
  refine ⟨g', ?_, hE.seats, hE.inv⟩
  rw [hE.code, ← a2]
  exact .cons ha hs a1 .nil

/-- Two calls with the same answer from the reference exchange. -/
theorem Seats.law {x : Venue} {g : Mgr} (hx : Seats x g) (hg : MInv g) {op op' e xs g'} (hl : g.Records [(op, e, xs)] g') (ha : g.Admissible op')
    (h : x.call op' = x.call op) (n1 : ¬ op.isRegistry) (n2 : ¬ op'.isRegistry) : ∃ g'', g.Records [(op', e, xs)] g'' ∧ g'.Equivalent g'' := by
  obtain ⟨_, h1, h2, h3, h4⟩ := hx.one hg hl
  obtain ⟨g'', a1, a2, a3⟩ := hx.make hg ha
  rw [h, h1, h2] at a1
  rw [h] at a2
  refine ⟨g'', a1, h3.equivalent h4 a2 a3 hg hl a1 (fun r hr => ?_) (fun r hr => ?_)⟩
  · rw [List.mem_singleton.1 hr]; exact n1
  · rw [List.mem_singleton.1 hr]; exact n2

theorem Mgr.Records.trans {g g1 g2 : Mgr} {l l'} (h : g.Records l g1) (h' : g1.Records l' g2) : g.Records (l ++ l') g2 := by
  induction h with
  | nil => exact h'
  | cons ha hs hev _ ih => exact .cons ha hs hev (ih h')

end CppTrader
