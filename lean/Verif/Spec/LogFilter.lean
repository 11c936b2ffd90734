import Verif.Model.Logger
/-
Specification: what a Logger writes to its own stream after calls of `level(n)`,
`defaultListener()->level(n)`, `categoryFilter(re, l)` and `clearFilter()`.  Only the vocabulary of
calls and the parameters of the regular expression library are shared with the model.
-/
namespace Falcon.LogFilter
open Falcon.Logger (FOp)
open Falcon.Log (Rx Msg Str)

/-- What matters of the calls so far: the general level, the level of the default listener, the
filter in force (expression and level), and the level to come back to, if a filter was ever asked
for. -/
structure St where
  level  : Int
  dflt   : Int
  filter : Option (Str × Int)
  back   : Option Int
  deriving DecidableEq, Repr

/-- A new Logger: everything up to level 5 is written, no filter. -/
def init : St := { level := 5, dflt := 5, filter := none, back := none }

/-- One call; `none` is `clearFilter()` when no filter was ever asked for. -/
def call (rx : Rx) (t : St) : FOp → Option St
  | .level n     => some { t with level := n }
  | .dflt n      => some { t with dflt := n }
  | .filter re l => some { t with level := max t.level l, back := some t.level,
                                  filter := if rx.valid re = true then some (re, l) else none }
  | .clear       => match t.back with
                    | none   => none
                    | some b => some { t with level := b, filter := none }

/-- A history of calls. -/
def calls (rx : Rx) (t : St) : List FOp → Option St
  | []      => some t
  | o :: os => match call rx t o with
               | none    => none
               | some t' => calls rx t' os

/-- How often the message is written: not at all above the general level, otherwise once for the
default listener if its level admits it and once for the filter if the filter's level admits it
and the category matches (no category and no expression match everything). -/
def lines (rx : Rx) (t : St) (m : Msg) : Nat :=
  if t.level < m.level then 0
  else (if m.level ≤ t.dflt then 1 else 0) +
    (match t.filter with
     | none         => 0
     | some (re, l) => if m.level ≤ l ∧ (m.cat = [] ∨ re = [] ∨ rx.full re m.cat = true) then 1 else 0)

end Falcon.LogFilter
