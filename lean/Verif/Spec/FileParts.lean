import Verif.Model.Module
/-
C73, C74: the parts of a file that do not carry behaviour.
-/
namespace Verif.Spec
open Verif.Model

/-- the file without its custom sections (names, debugging information, producers), its data count, tag and unknown sections -/
def withoutCustom : List Payload → List Payload
  | [] => []
  | .ignored :: ps => withoutCustom ps
  | p :: ps => p :: withoutCustom ps

/-- the file without its export section -/
def withoutExports : List Payload → List Payload
  | [] => []
  | .exports _ :: ps => withoutExports ps
  | p :: ps => p :: withoutExports ps

/-- what the file exports, in order -/
def exportsOf : List Payload → List (String × ExportTy)
  | [] => []
  | .exports es :: ps => es.filterMap id ++ exportsOf ps
  | _ :: ps => exportsOf ps

end Verif.Spec
