import Verif.Spec.TestCase
/-
Where the output of a test goes, read off its statements.
-/
namespace Falcon.Fut

/-- What these statements write into buffer `b`, if std::cout begins with buffer `o` and std::cerr with `e`. -/
def sent (b : Buf) : Buf → Buf → List Act → Str
  | _, _, []                  => []
  | o, e, .out s :: as        => (if o = b then s else []) ++ sent b o e as
  | o, e, .err s :: as        => (if e = b then s else []) ++ sent b o e as
  | _, e, .redirOut o' :: as  => sent b o' e as
  | o, _, .redirErr e' :: as  => sent b o e' as
  | o, e, _ :: as             => sent b o e as

/-- What tests performed in this order write into `b`, each with its streams captured; test `t` has been run
`k t` times before. -/
def sentBy (defs : Nat → TestDef) (b : Buf) (k : Nat → Nat) : List Nat → Str
  | []      => []
  | t :: ts => sent b (.capOut t) (.capErr t) ((defs t).script (k t)).done ++ sentBy defs b (fun u => if u = t then k u + 1 else k u) ts

end Falcon.Fut
