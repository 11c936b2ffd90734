import Verif.Basic
/- Model of FALCON_VERSION_NUM, src/include/falcon/config.h.in 29. -/
namespace Falcon.Version

/-- A version as configured, config.h.in 24-27. -/
structure Ver where
  major    : Nat
  minor    : Nat
  revision : Nat
  patch    : Nat
  deriving DecidableEq, Repr

/-- config.h.in 29: `( MAJOR <<24 | MINOR <<16 | REVISION << 8 | PATCH )` on 32 bit ints. -/
def num (v : Ver) : BitVec 32 :=
  (BitVec.ofNat 32 v.major <<< 24) ||| (BitVec.ofNat 32 v.minor <<< 16) ||| (BitVec.ofNat 32 v.revision <<< 8) ||| BitVec.ofNat 32 v.patch

end Falcon.Version
