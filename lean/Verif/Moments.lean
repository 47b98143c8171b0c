import Verif.Spec
import Verif.Model.Watch
/-
Specification: all moments of a session at which the user's code can look at the manager.
-/

namespace CppTrader

/-- The calls `ops`, made one after the other from `g`, lead to `g'`; `xs` is the manager at every moment at which the
caller or the handler can look at it: at each callback and after each call. -/
inductive Mgr.Passes : Mgr → List Op → List Mgr → Mgr → Prop
  | nil {g} : Passes g [] [] g
  | cons {g g1 g' : Mgr} {op : Op} {ops : List Op} {e : ErrorCode} {seen xs : List Mgr} (ha : g.Admissible op) (hs : g.step op = .ok (g1, e))
      (hw : g.watch op = .ok (g1, e, seen)) (tl : Passes g1 ops xs g') : Passes g (op :: ops) (seen ++ g1 :: xs) g'

end CppTrader
