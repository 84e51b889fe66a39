import Verif.Spec.Files
import Verif.Spec.Params
/-!
# Forms with files, as browsers send them (WHATWG HTML, multipart/form-data encoding algorithm)
-/
namespace Verif.Spec.Controls
open Verif.Py Verif.Spec.HttpParser Verif.Spec.Files Verif.Spec.Params

/-- A control of a form: a text, or a file with its name and its type. -/
structure Control where
  name : Bytes
  file : Option (Bytes × Bytes) := none
  content : Bytes
deriving DecidableEq

/-- The parameters of its Content-Disposition. -/
def Control.params (c : Control) : List (Bytes × Bytes) :=
  (b!"name", c.name) :: (match c.file with | some f => [(b!"filename", f.1)] | none => [])

/-- How it is sent. -/
def Control.part (c : Control) : Part :=
  ⟨⟨b!"Content-Disposition", true, dispositionText c.params⟩ :: (match c.file with | some f => [⟨b!"Content-Type", true, f.2⟩] | none => []), c.content⟩

/-- What the server shall find under a name. -/
def Control.says (c : Control) (k : Bytes) : Option Bytes :=
  if k = b!"name" then some c.name
  else match c.file with
    | some f => if k = b!"filename" then some f.1 else if k = b!"type" then some f.2 else none
    | none => none

end Verif.Spec.Controls
