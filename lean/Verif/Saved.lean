import Verif.Equiv
/-
Specification: saving the orders of a manager and restoring them in another one.
-/

namespace CppTrader

/-- The book remembers no prices: it has seen no execution and no trailing price. -/
def Book.NoPrices (b : Book) : Prop :=
  b.lastBid = 0 ∧ b.lastAsk = MAX64 ∧ b.matchBid = 0 ∧ b.matchAsk = MAX64 ∧ b.trailBid = 0 ∧ b.trailAsk = MAX64

/-- A manager without orders, with matching off, and with the symbols and books of `g`, which remember no prices. -/
structure Mgr.BlankFor (h g : Mgr) : Prop where
  matching : h.matching = false
  symbol : ∀ s, h.getSymbol s = g.getSymbol s
  title : ∀ s, (h.getBook s).map (·.symbol) = (g.getBook s).map (·.symbol)
  noOrder : ∀ id, h.getOrder id = none
  noPrices : ∀ s b, h.getBook s = some b → b.NoPrices

/-- The orders in the books of `g`, listed in any way that keeps the order of each line. -/
structure Mgr.Saved (g : Mgr) (os : List Order) : Prop where
  orders : ∀ o ∈ os, g.getOrder o.id = some o
  lines : ∀ s k, os.filter (fun o => decide (o.symbolId = s ∧ o.home.map (·.1) = some k)) = g.lines s k

end CppTrader
