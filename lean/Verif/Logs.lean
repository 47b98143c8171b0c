import Verif.Shards
import Verif.Recast
/-
Specification: sessions with all the callbacks of every call.
-/

namespace CppTrader

/-- The calls made to a manager, with their result codes and the callbacks each of them made, in order. -/
inductive Mgr.Logs : Mgr → List (Op × ErrorCode × List Event) → Mgr → Prop
  | nil {g} : Logs g [] g
  | cons {g g1 g' op e evs l} : g.Admissible op → g.step op = .ok (g1, e) → g1.ev = g.ev ++ evs → Logs g1 l g' →
      Logs g ((op, e, evs) :: l) g'

/-- The callbacks about symbols of manager `j`. -/
def Division.events (d : Division) (j : Nat) (evs : List Event) : List Event := evs.filter (fun e => d.symbol e.symbol = j)

/-- The part of a log that concerns manager `j`: the calls that go to it, with their result codes and all their callbacks;
calls that go to all managers with the callbacks about its symbols. -/
def Division.log (d : Division) (j : Nat) : List (Op × ErrorCode × List Event) → List (Op × ErrorCode × List Event)
  | [] => []
  | (op, e, evs) :: l =>
    match d.of op with
    | some i => if i = j then (op, e, evs) :: d.log j l else d.log j l
    | none => (op, e, d.events j evs) :: d.log j l

/-- A callback with the new ids (and visible quantities). -/
def Recast.event (c : Recast) : Event → Event
  | .addOrder o => .addOrder (c.order o)
  | .updateOrder o => .updateOrder (c.order o)
  | .deleteOrder o => .deleteOrder (c.order o)
  | .exec o p q => .exec (c.order o) p q
  | e => e

/-- A call with its result code and callbacks, with the new ids. -/
def Recast.logged (c : Recast) (r : Op × ErrorCode × List Event) : Op × ErrorCode × List Event := (c.op r.1, r.2.1, r.2.2.map c.event)

/-- Only the ids are new. -/
def Recast.OnlyIds (c : Recast) : Prop := ∀ v, c.visible v = v

end CppTrader
