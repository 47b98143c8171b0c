import Verif.Inert
import Verif.Proof.BudgetVenue
import Verif.Props.Budget
/-
The reference exchange on an uncrossed market without stop orders: matching has nothing to do.
-/

namespace CppTrader
namespace Inert

open Core Budget

/-- Without the prices trailing orders have followed. -/
def blindP (p : Pit) : Pit := { p with seen := .blank }

/-- Without those prices and without the matching flag. -/
def blind (x : Venue) : Venue := { x with matching := false, pits := fun s => blindP (x.pits s) }

theorem blindP_of {p q : Pit} {v : Quotes} (h : q = { p with seen := v }) : blindP q = blindP p := by subst h; rfl

theorem quiet_crossed {p : Pit} (h : p.board.quiet) : ¬ p.crossed := by
  rintro ⟨h1, h2, h3⟩
  unfold Board.bestAsk Board.bestBid at h1
  cases hb : p.board .bid with
  | nil => exact h2 hb
  | cons b bs =>
    cases ha : p.board .ask with
    | nil => exact h3 ha
    | cons a as =>
      rw [hb, ha] at h1
      have := h.1 b (by rw [hb]; exact List.mem_cons_self) a (by rw [ha]; exact List.mem_cons_self)
      simp only [List.head?_cons, Option.map_some, Option.getD_some] at h1
      omega

theorem due_none {p : Pit} {k : Kind} (h : p.board k = []) : p.due k = [] := by unfold Pit.due; rw [h]

theorem follow_ask {p : Pit} (h : p.board .tBuyStop = []) : ∃ v, p.followAsk = { p with seen := v } := by
  unfold Pit.followAsk
  split
  · exact ⟨p.seen, rfl⟩
  · refine ⟨{ p.seen with ask := p.trailAsk }, ?_⟩
    rw [h]
    simp only [Board.retrail, ite_self]

theorem follow_bid {p : Pit} (h : p.board .tSellStop = []) : ∃ v, p.followBid = { p with seen := v } := by
  unfold Pit.followBid
  split
  · exact ⟨p.seen, rfl⟩
  · refine ⟨{ p.seen with bid := p.trailBid }, ?_⟩
    rw [h]
    simp only [Board.retrail, ite_self]

theorem round_quiet {p : Pit} (h : p.board.quiet) : ∃ v, p.round = (false, [], { p with seen := v }) := by
  have e1 : p.next .buyStop .tBuyStop = [] := by
    unfold Pit.next; rw [due_none (h.2 .buyStop rfl), due_none (h.2 .tBuyStop rfl)]; rfl
  obtain ⟨v, hv⟩ := follow_ask (h.2 .tBuyStop rfl)
  unfold Pit.round
  simp only [e1, Pit.releaseAll]
  rw [hv]
  have e2 : ({ p with seen := v } : Pit).next .sellStop .tSellStop = [] := by
    unfold Pit.next
    rw [due_none (show ({ p with seen := v } : Pit).board .sellStop = [] from h.2 .sellStop rfl),
      due_none (show ({ p with seen := v } : Pit).board .tSellStop = [] from h.2 .tSellStop rfl)]
    rfl
  rw [e2]
  obtain ⟨w, hw⟩ := follow_bid (p := { p with seen := v }) (h.2 .tSellStop rfl)
  refine ⟨w, ?_⟩
  simp only [Pit.releaseAll]
  rw [hw]
  rfl

/-- The market is at rest. -/
theorem rest_quiet {p : Pit} (h : p.board.quiet) : ∃ v, p.rest = ([], { p with seen := v }) := by
  obtain ⟨v, hv⟩ := round_quiet h
  refine ⟨v, ?_⟩
  unfold Pit.rest
  rw [Pit.settle, if_neg (quiet_crossed h), Pit.rounds, hv]
  rfl

theorem close_quiet (m : Bool) {p : Pit} (h : p.board.quiet) : ∃ v, p.close m = ([], { p with heard := .blank, seen := v }) := by
  unfold Pit.close
  cases m with
  | false => exact ⟨p.seen, rfl⟩
  | true =>
    obtain ⟨v, hv⟩ := rest_quiet h
    refine ⟨v, ?_⟩
    simp only [if_true]
    rw [hv]

theorem chain_idle {t : Order} {rs : List Order} (h : ∀ r ∈ rs, ¬ t.accepts r.price) (n : Nat) : chain t n rs = none := by
  cases rs with
  | nil => rfl
  | cons r rs => rw [chain, if_pos (.inr (h r List.mem_cons_self))]

theorem fills_idle {t : Order} {rs : List Order} (h : ∀ r ∈ rs, ¬ t.accepts r.price) : t.fills rs = [] ∧ t.left rs = t ∧ t.leaveLine rs = rs := by
  unfold Order.fills Order.left Order.leaveLine
  by_cases hw : t.whole
  · rw [if_pos hw, if_pos hw, if_pos hw, chain_idle h]
    exact ⟨rfl, rfl, rfl⟩
  · rw [if_neg hw, if_neg hw, if_neg hw]
    cases rs with
    | nil => exact ⟨rfl, rfl, rfl⟩
    | cons r rs =>
      have hs : t.stopsAt r := .inr (.inl (h r List.mem_cons_self))
      rw [greedy, greedyLeft, greedyRest, if_pos hs, if_pos hs, if_pos hs]
      exact ⟨rfl, rfl, rfl⟩

theorem idle_accepts {t : Order} {rs : List Order} (h : t.idle rs) : t.capped rs = t ∧ ∀ r ∈ rs, ¬ t.accepts r.price := by
  rcases h with ⟨h1, h2⟩ | ⟨h1, h2⟩
  · refine ⟨by unfold Order.capped; rw [h1], fun r hr => ?_⟩
    have := h2 r hr
    unfold Order.accepts
    cases hs : t.side with
    | buy => rw [hs] at this; simp only [] at this ⊢; omega
    | sell => rw [hs] at this; simp only [] at this ⊢; omega
  · subst h2
    refine ⟨by unfold Order.capped; rw [h1], fun r hr => by cases hr⟩

theorem strike_idle (m : Bool) {p : Pit} {t : Order} (h : t.idle (p.board t.side.other.limits)) : p.strike m t = ([], t, p) := by
  have hb : p.board.strike m t = ([], t, p.board) := by
    unfold Board.strike
    cases m with
    | false => rfl
    | true =>
      obtain ⟨h1, h2⟩ := idle_accepts h
      obtain ⟨f1, f2, f3⟩ := fills_idle h2
      simp only [if_true]
      rw [h1, f1, f2, f3]
      have : p.board.put t.side.other.limits (p.board t.side.other.limits) = p.board := by
        funext k
        unfold Board.put
        split
        · next e => rw [e]
        · rfl
      rw [this]
  unfold Pit.strike
  rw [hb]
  rfl

/-! ### Quiet boards stay quiet -/

theorem enqueue_mem {k : Kind} {t r : Order} {rs : List Order} (h : r ∈ enqueue k t rs) : r = t ∨ r ∈ rs := by
  induction rs with
  | nil => rw [enqueue] at h; exact .inl (List.mem_singleton.1 h)
  | cons a rs ih =>
    rw [enqueue] at h
    split at h
    · rcases List.mem_cons.1 h with h | h
      · exact .inl h
      · exact .inr h
    · rcases List.mem_cons.1 h with h | h
      · exact .inr (by rw [h]; exact List.mem_cons_self)
      · rcases ih h with h | h
        · exact .inl h
        · exact .inr (List.mem_cons_of_mem _ h)

theorem insert_mem {l : Board} {t r : Order} {k : Kind} (h : r ∈ (l.insert t) k) : r ∈ l k ∨ (r = t ∧ t.home.map (·.1) = some k) := by
  unfold Board.insert at h
  split at h
  · next e =>
    rcases enqueue_mem h with h | h
    · exact .inr ⟨h, e⟩
    · exact .inl h
  · exact .inl h

theorem home_limit {t : Order} (h : t.type = .limit) : t.home.map (·.1) = some t.side.limits := by
  unfold Order.home
  rw [h]
  cases t.side <;> rfl

theorem insert_quiet {l : Board} (h : l.quiet) {t : Order} (ht : t.type = .limit) (hi : t.idle (l t.side.other.limits)) : (l.insert t).quiet := by
  have hi : ∀ r ∈ l t.side.other.limits, match t.side with | .buy => t.price < r.price | .sell => r.price < t.price := by
    rcases hi with h | h
    · exact h.2
    · rw [ht] at h; cases h.1
  have hh := home_limit ht
  refine ⟨fun b hb a ha => ?_, fun k hk => ?_⟩
  · rcases insert_mem hb with hb | ⟨hb, hk⟩
    · rcases insert_mem ha with ha | ⟨ha, hk⟩
      · exact h.1 b hb a ha
      · rw [hh] at hk
        cases hs : t.side with
        | buy => rw [hs] at hk; cases hk
        | sell =>
          rw [hs] at hi
          rw [ha]
          exact hi b hb
    · rw [hh] at hk
      cases hs : t.side with
      | sell => rw [hs] at hk; cases hk
      | buy =>
        rw [hs] at hi
        rcases insert_mem ha with ha | ⟨ha, hk'⟩
        · rw [hb]; exact hi a ha
        · rw [hh, hs] at hk'; cases hk'
  · unfold Board.insert
    rw [if_neg (by rw [hh]; intro e; have := Option.some.inj e; rw [← this] at hk; cases hs : t.side <;> rw [hs] at hk <;> cases hk)]
    exact h.2 k hk

theorem change_mem {l : Board} {id : Nat} {v : Option Order} {k : Kind} {r : Order} (h : r ∈ (l.change id v) k) :
    r ∈ l k ∨ ∃ r' ∈ l k, r'.id = id ∧ v = some r := by
  unfold Board.change at h
  obtain ⟨r', h1, h2⟩ := List.mem_filterMap.1 h
  split at h2
  · next e => exact .inr ⟨r', h1, e, h2⟩
  · cases h2; exact .inl h1

theorem change_quiet {l : Board} (h : l.quiet) {id : Nat} {v : Option Order} (hv : ∀ t, v = some t → ∀ k, ∀ r ∈ l k, r.id = id → t.price = r.price) :
    (l.change id v).quiet := by
  have key : ∀ k, ∀ r ∈ (l.change id v) k, ∃ r' ∈ l k, r.price = r'.price := by
    intro k r hr
    rcases change_mem hr with h | ⟨r', h1, h2, h3⟩
    · exact ⟨r, h, rfl⟩
    · exact ⟨r', h1, hv r h3 k r' h1 h2⟩
  refine ⟨fun b hb a ha => ?_, fun k hk => ?_⟩
  · obtain ⟨b', hb', e1⟩ := key _ b hb
    obtain ⟨a', ha', e2⟩ := key _ a ha
    rw [e1, e2]
    exact h.1 b' hb' a' ha'
  · unfold Board.change
    rw [h.2 k hk]
    rfl

theorem gone_quiet {l : Board} (h : l.quiet) (id : Nat) : (l.change id none).quiet := change_quiet h (fun t ht => by cases ht)

theorem idle_sub {t : Order} {rs rs' : List Order} (h : t.idle rs) (hs : ∀ r ∈ rs', r ∈ rs) : t.idle rs' := by
  rcases h with h | h
  · exact .inl ⟨h.1, fun r hr => h.2 r (hs r hr)⟩
  · refine .inr ⟨h.1, ?_⟩
    rw [h.2] at hs
    exact List.eq_nil_iff_forall_not_mem.2 (fun r hr => by have := hs r hr; cases this)

theorem idle_gone {t : Order} {l : Board} {k : Kind} (h : t.idle (l k)) (id : Nat) : t.idle ((l.change id none) k) :=
  idle_sub h (fun r hr => by
    rcases change_mem hr with h | ⟨_, _, _, h⟩
    · exact h
    · cases h)

theorem land_quiet {p : Pit} (h : p.board.quiet) {t : Order} (ht : t.idle (p.board t.side.other.limits)) : (p.land t).board.quiet := by
  unfold Pit.land
  by_cases hr : t.rests
  · rw [if_pos hr]
    refine insert_quiet h ?_ ht
    rcases ht with ht | ht
    · exact ht.1
    · exact absurd ht.1 hr.2.1
  · rw [if_neg hr]; exact h

end Inert
end CppTrader
