import Verif.Spec.Struct
/-!
# Structs with embedded structs
-/
namespace Jsval

/-- A struct whose visible fields, with every embedded struct replaced by its own fields, have distinct JSON names; only
structs are embedded, and no field is shadowed. -/
structure Merges (fs : List (Field × GoVal)) : Prop where
  embeds : EmbedsStructs fs
  goNames : NoShadowing fs
  jsonNames : ((unembed fs).filterMap fun p => jsonNameSpec p.1).Nodup

end Jsval
