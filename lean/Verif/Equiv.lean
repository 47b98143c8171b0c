import Verif.Logs
/-
Specification: managers that cannot be told apart.
-/

namespace CppTrader

/-- The two managers show the same: matching flag, orders, symbols, books, the orders in line and the market prices. -/
structure Mgr.Shows (g h : Mgr) : Prop where
  matching : g.matching = h.matching
  order : ∀ id, g.getOrder id = h.getOrder id
  symbol : ∀ s, g.getSymbol s = none ↔ h.getSymbol s = none
  book : ∀ s, g.getBook s = none ↔ h.getBook s = none
  lines : ∀ s, g.lines s = h.lines s
  prices : ∀ s b c, g.getBook s = some b → h.getBook s = some c →
    b.marketBid = c.marketBid ∧ b.marketAsk = c.marketAsk ∧ b.marketTrailBid = c.marketTrailBid ∧ b.marketTrailAsk = c.marketTrailAsk

/-- Everything that can be read from the two managers is the same: the matching flag, the symbols, the orders, and the books with all
their levels, volumes and prices. -/
structure Mgr.Alike (g h : Mgr) : Prop where
  matching : g.matching = h.matching
  symbol : ∀ s, g.getSymbol s = h.getSymbol s
  book : ∀ s, g.getBook s = h.getBook s
  order : ∀ id, g.getOrder id = h.getOrder id

/-- No sequence of calls tells the two managers apart: whatever admissible calls are made to one of them, the same calls
are admissible for the other, give the same error codes and make the same callbacks in the same order, and everything that can be
read from the two is the same afterwards. -/
def Mgr.Equivalent (g h : Mgr) : Prop :=
  (∀ l g', g.Logs l g' → ∃ h', h.Logs l h' ∧ g'.Alike h') ∧ (∀ l h', h.Logs l h' → ∃ g', g.Logs l g' ∧ g'.Alike h')

/-- The two managers have the same matching flag, symbols, orders, books with the same orders in line, and remember the same prices. Nothing
is said about levels, their volumes or best prices. -/
structure Mgr.SameLines (g h : Mgr) : Prop where
  matching : g.matching = h.matching
  symbol : ∀ s, g.getSymbol s = h.getSymbol s
  title : ∀ s, (g.getBook s).map (·.symbol) = (h.getBook s).map (·.symbol)
  order : ∀ id, g.getOrder id = h.getOrder id
  lines : ∀ s, g.lines s = h.lines s
  last : ∀ s b c, g.getBook s = some b → h.getBook s = some c → b.lastBid = c.lastBid ∧ b.lastAsk = c.lastAsk
  heard : ∀ s b c, g.getBook s = some b → h.getBook s = some c → b.matchBid = c.matchBid ∧ b.matchAsk = c.matchAsk
  seen : ∀ s b c, g.getBook s = some b → h.getBook s = some c → b.trailBid = c.trailBid ∧ b.trailAsk = c.trailAsk

end CppTrader
