import Verif.Model.GenNames
import Verif.Model.GenCustom
/-!
# Names of namespaces in the C interface (`app/commsdsl2c/src/CNamespace.cpp`)
-/
namespace Commsdsl.Gen
open Commsdsl Text

/-- `cPrefixName` of a namespace, CNamespace.cpp:99-107 -/
def cPrefixName (namesPrefix main : Str) (own : Bool) (chain : Chain) : Str :=
  if (cNameFor namesPrefix main own chain).getLast? = some '_' then (cNameFor namesPrefix main own chain).dropLast else cNameFor namesPrefix main own chain

end Commsdsl.Gen
