import Verif.Model.FilterRace
import Verif.Spec.LogFilter
/- Filter calls beside other threads: what "one after the other" would be. -/
namespace Falcon.FilterRace
open Falcon.Log (Str Rx Msg)
open Falcon.Logger (FOp Fs)

/-- The call another thread makes, in the vocabulary of one thread (Spec/LogFilter). -/
def Env.op : Env → FOp
  | .level n => .level n
  | .dflt n  => .dflt n

/-- Calls that set the general level. -/
def Env.isLevel : Env → Bool
  | .level _ => true
  | .dflt _  => false

/-- The calls of the other threads in a schedule. -/
def others : List Move → List Env
  | []           => []
  | .env e :: ms => e :: others ms
  | _ :: ms      => others ms

/-- Is it a call of the filter thread? -/
def isFilterCall : FOp → Bool
  | .filter _ _ | .clear => true
  | _ => false

def isDflt : FOp → Bool
  | .dflt _ => true
  | _ => false

def isLevelCall : FOp → Bool
  | .level _ => true
  | _ => false

/-- The calls of others, as moves and as calls. -/
def moves (es : List Env) : List Move := es.map .env
def ops (es : List Env) : List FOp := es.map Env.op

/-- One call of categoryFilter, with the calls other threads make meanwhile: `e1` before it looks up the general level,
`e2` before it raises it, `e3`-`e6` before its four later steps. -/
def beside (re : Str) (l : Int) (e1 e2 e3 e4 e5 e6 : List Env) : List Move :=
  .filter re l :: (moves e1 ++ .go :: (moves e2 ++ .go :: (moves e3 ++ .go :: (moves e4 ++ .go :: (moves e5 ++ .go :: (moves e6 ++ [.go]))))))

/-- One call of clearFilter. -/
def besideClear (e1 : List Env) : List Move := .clear :: (moves e1 ++ [.go])

/-- The general level a call finds behind the calls `es`. -/
def levelAfter (es : List Env) (lv : Int) : Int :=
  es.foldl (fun lv e => match e with | .level n => n | .dflt _ => lv) lv

/-- The location has the same contents in both states. -/
def Loc.Same (a b : Fs) : Loc → Prop
  | .level      => a.level = b.level
  | .dfltPtr    => True                 -- never written
  | .proxyPtr   => a.proxy = b.proxy
  | .base       => a.base = b.base
  | .lstLevel k => (a.lst k).level = (b.lst k).level
  | .detached k => (a.lst k).detached = (b.lst k).detached
  | .category k => (a.lst k).category = (b.lst k).category ∧ (a.lst k).regex = (b.lst k).regex
  | .pending    => a.regs = b.regs

/-- The accesses of a call made in this state. -/
def made (s : Fs) (o : FOp) : List Access := accesses (s.proxy.getD 0) s.next o

end Falcon.FilterRace
