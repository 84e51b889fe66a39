import Verif.Py.Dict
import Verif.Py.Bytes
/-!
# Specification of the command line

The option tables are those of the usage text (tremolo/__main__.py:20-70), with the key each option sets written out.
-/
namespace Verif.Spec.Args
open Verif.Py

/-- options that take a text, with their key -/
def textTable : List (Bytes × Bytes) := [(b!"--host", b!"host"), (b!"--log-level", b!"log_level"), (b!"--loop", b!"loop"),
  (b!"--server-name", b!"server_name"), (b!"--root-path", b!"root_path")]

/-- options that take a number, with their key -/
def numberTable : List (Bytes × Bytes) := [(b!"--port", b!"port"), (b!"--worker-num", b!"worker_num"), (b!"--limit-memory", b!"limit_memory"),
  (b!"--backlog", b!"backlog"), (b!"--download-rate", b!"download_rate"), (b!"--upload-rate", b!"upload_rate"),
  (b!"--buffer-size", b!"buffer_size"), (b!"--ws-max-payload-size", b!"ws_max_payload_size"),
  (b!"--client-max-body-size", b!"client_max_body_size"), (b!"--client-max-header-size", b!"client_max_header_size"),
  (b!"--max-queue-size", b!"max_queue_size"), (b!"--request-timeout", b!"request_timeout"),
  (b!"--keepalive-timeout", b!"keepalive_timeout"), (b!"--keepalive-connections", b!"keepalive_connections"),
  (b!"--app-handler-timeout", b!"app_handler_timeout"), (b!"--app-close-timeout", b!"app_close_timeout")]

/-- options without value, with their key and the value they set -/
def flagTable : List (Bytes × Bytes × Bool) := [(b!"--no-ws", b!"ws", false), (b!"--debug", b!"debug", true), (b!"--reload", b!"reload", true)]

/-- options that set an entry of `ssl` -/
def sslTable : List (Bytes × Bytes) := [(b!"--ssl-cert", b!"cert"), (b!"--ssl-key", b!"key")]

def tableGet {β : Type} (t : List (Bytes × β)) (o : Bytes) : Option β := (t.find? (fun p => p.1 == o)).map (·.2)

/-- An option of a command line as its author means it. -/
inductive Item
  | flag (o : Bytes)
  | text (o v : Bytes)
  | number (o v : Bytes)
  | ssl (o v : Bytes)

/-- the arguments an item is written as -/
def Item.args : Item → List Bytes
  | .flag o => [o]
  | .text o v => [o, v]
  | .number o v => [o, v]
  | .ssl o v => [o, v]

/-- Does the argument start with a dash? -/
def Dashed (a : Bytes) : Prop := a.head? = some 45
instance (a : Bytes) : Decidable (Dashed a) := inferInstanceAs (Decidable (a.head? = some 45))

/-- the item is one of the options of the tables, its value does not start with a dash, and a number is accepted by `int` -/
def Item.Good (int? : Bytes → Option Int) : Item → Prop
  | .flag o => (tableGet flagTable o).isSome
  | .text o v => (tableGet textTable o).isSome ∧ ¬ Dashed v
  | .number o v => (tableGet numberTable o).isSome ∧ ¬ Dashed v ∧ (int? v).isSome
  | .ssl o v => (tableGet sslTable o).isSome ∧ ¬ Dashed v

end Verif.Spec.Args
