import Verif.Sparql.QueryText
import Verif.Sparql.QueryTextSpec
/-!
# Keys of ORDER BY
-/
namespace Trident.Sparql.Parse

open Lex Spec

/-- What a key is read as. -/
def Spec.SKey.meaning (num : Text → Nat) : SKey → PKey × Bool
  | .plain x => (.var (num x), false)
  | .asc x => (.expr (.var (num x)), false)
  | .desc x => (.expr (.var (num x)), true)

end Trident.Sparql.Parse
