import Verif.Spec.UnitTest
/- Specification of a suite's verdict, from its scripts alone. -/
namespace Falcon.Fut

/-- The script of a test deserves to pass: nothing is thrown, no executed statement is a failed check or a call of
fail(), and (if output is captured) SetUp and test() write nothing to standard error. -/
def Script.Good (capture : Bool) (sc : Script) : Prop :=
  ¬ sc.throws ∧ (∀ a ∈ sc.all, a.failed = none ∧ ∀ f l m, a ≠ .failCall f l m) ∧
    (capture = true → errText (executed sc.setUp ++ executed sc.body) = [])

/-- A process in which no test was performed yet: nothing captured, and the streams write to two different buffers that
belong to no test. -/
structure Fresh (w : World) : Prop where
  err  : ∀ t, w.content (.capErr t) = []
  runs : ∀ t, (w.tc t).runs = 0
  ne   : w.cout ≠ w.cerr
  outB : ∀ t, w.cout ≠ .capOut t ∧ w.cout ≠ .capErr t
  errB : ∀ t, w.cerr ≠ .capOut t ∧ w.cerr ≠ .capErr t

end Falcon.Fut
