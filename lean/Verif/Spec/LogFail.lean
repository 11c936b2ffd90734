import Verif.Model.LogFail
/-
Histories of the log system with failing allocations.
-/
namespace Falcon.Log

/-- The events of the system itself, without the failures. -/
def evs (es : List FEv) : List Ev := es.filterMap fun | .ev e => some e | _ => none

end Falcon.Log
