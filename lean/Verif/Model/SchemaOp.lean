import Verif.Model.DataType
namespace Conduit
/-- The public calls a client may make on a schema it holds a reference to
    (conduit_schema.hpp): vocabulary shared by the model and the specification. -/
inductive SchemaOp where
  | addChild (name : Str)
  | append
  | removeIdx (i : Int)
  | removeChild (name : Str)
  | removePath (path : Str)
  | renameChild (cur new : Str)
  | setDtype (d : DataType)
  | reset
  | fetch (path : Str)
end Conduit
