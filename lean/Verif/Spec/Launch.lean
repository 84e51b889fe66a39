import Verif.Py.Bytes
/-!
# Specification of the launch

The defaults are those of the usage text (tremolo/__main__.py:20-70). A path is resolved component by component, as the system does for
a tree without symbolic links.
-/
namespace Verif.Spec.Launch
open Verif.Py

/-- options with a number, and what the usage text says they default to -/
def numbers : List (Bytes × Int) := [
  (b!"limit_memory", 0), (b!"backlog", 100), (b!"ws_max_payload_size", 2097152), (b!"download_rate", 1048576),
  (b!"upload_rate", 1048576), (b!"buffer_size", 16384), (b!"client_max_body_size", 2097152), (b!"client_max_header_size", 8192),
  (b!"max_queue_size", 128), (b!"request_timeout", 30), (b!"keepalive_timeout", 30), (b!"keepalive_connections", 512),
  (b!"app_handler_timeout", 120), (b!"app_close_timeout", 30)]

/-- the components of a path, empty ones included -/
def comps : Bytes → List Bytes
  | [] => [[]]
  | c :: t =>
    if c = 47 then [] :: comps t
    else match comps t with
      | [] => [[c]]
      | h :: r => (c :: h) :: r

/-- Go along components from a directory (innermost name first). -/
def walk : List Bytes → List Bytes → List Bytes
  | d, [] => d
  | d, c :: t => walk (if c = [] ∨ c = b!"." then d else if c = b!".." then d.tail else c :: d) t

/-- The file or directory that a path denotes (innermost name first), `cwd` being the absolute path of the working directory. -/
def locate (cwd p : Bytes) : List Bytes :=
  if p.head? = some 47 then walk [] (comps p) else walk (walk [] (comps cwd)) (comps p)

/-- What the name of an event loop denotes: `module.Class`, or a module, whose function `new_event_loop` is meant. -/
inductive Loop : Bytes → Bytes → Bytes → Prop
  | named (m c : Bytes) : m ≠ [] → c ≠ [] → (46 : UInt8) ∉ c → Loop (m ++ b!"." ++ c) m c
  | plain (m : Bytes) : m ≠ [] → (46 : UInt8) ∉ m → Loop m m b!"new_event_loop"

end Verif.Spec.Launch
