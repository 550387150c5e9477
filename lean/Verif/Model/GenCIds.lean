import Verif.Model.GenCEnum
import Verif.Model.GenMsgs
/-!
# The enumeration of message ids in the C interface (`app/commsdsl2c/src/CMsgId.cpp`)
-/
namespace Commsdsl.Gen
open Commsdsl Text Fld Msg

/-- `cIdsInternal`, CMsgId.cpp:104-134 (and `cName`, :51-54); `pfx` is the C name of the namespace (`cPrefixName`, CNamespace.cpp:99-107), a parameter; `nss` are
    the namespaces of the current schema. Comments and layout are left out. -/
def cMsgIds (g : GVer) (nss : List GNs) (n : GNs) (pfx : Str) : Res (List (Str × Str)) :=
  match msgIdFields nss n with
  | [f] => do
    let e ← asEnum f.2
    cEnumerators g e.1 e.2 [] (pfx ++ "_".toList ++ "MsgId".toList ++ "_".toList)
  | _ => .ok ((msgIdMessages nss n).map fun e => (pfx ++ "_".toList ++ "MsgId".toList ++ "_".toList ++ fullName e.1 e.2.name, numToStringU e.2.id 0))

end Commsdsl.Gen
