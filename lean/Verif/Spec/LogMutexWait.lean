import Verif.Spec.LogMutexFeed
/- Vocabulary: how long a message waits when listeners use the log system. -/
namespace Falcon.LogM

/-- How many steps the logging thread makes in a schedule, those inside onMessage included. -/
def turns (as : List FRAct) : Nat := as.countP fun a => match a with | .log _ => true | _ => false

/-- Steps of the logging thread that are enough for one message, if there are no more than `L` listeners and none of them makes more than `q` calls. -/
def perMessage (q L : Nat) : Nat := 16 + (16 * q + 9) * L

end Falcon.LogM
