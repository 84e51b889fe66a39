import Verif.Props.ErrorPage
/-!
# C98: exceptions that are not answered as they should be
-/
namespace Verif
open Py Model.ErrorPage

/-- **C98 fails** for `raise BadRequest(exc)`: an argument that is not a str makes `str(exc)` raise inside
`print_exception`; the client gets nothing and the connection stays open. -/
theorem C98_refuted_args : (respond {} {} (error500 {}) (.http { code := 400, message := "Bad Request".toList, args := [none] }) { keepalive := true }).2 = { keepalive := true } := by
  decide +kernel

/-- A reason phrase outside Latin-1, and a charset that Python does not know. -/
theorem C98_refuted_text :
    (respond {} {} (error500 {}) (.http { message := "ошибка".toList }) {}).2.log = [] ∧
    (respond {} {} (error500 {}) (.http { ctype := "text/plain; charset=none".toList }) {}).2.log = [] ∧
    (respond {} {} (error500 {}) (.http { ctype := "text/plain; charset=ascii".toList, args := [some "é".toList] }) {}).2.log = [] := by
  decide +kernel

/-- Without the debug option the arguments go into a page of type text/html as they are. -/
theorem C98_refuted_markup : ((respond {} {} (error500 {}) (.http { code := 400, message := "Bad Request".toList, args := [some "no <script>x</script>".toList] }) {}).2.log.map
    (fun e => match e with | .head _ b _ => b | _ => [])) = [b!"no <script>x</script>", []] := by decide +kernel

/-- The codec is that of the exception, not of the response: an error handler that declares Latin-1 has its text sent as
UTF-8. -/
theorem C98_refuted_declared : (respond {} {} (fun _ => { script := [(.setContentType b!"text/plain; charset=latin-1", false)], ret := .ok (.str "é".toList) }) (.other (some [])) {}).2.log =
    [.head b!"HTTP/1.1 500 Internal Server Error\r\nContent-Type: text/plain; charset=latin-1\r\nContent-Length: 2\r\nConnection: close\r\nDate: \r\nServer: \r\n\r\n" [0xc3, 0xa9] { throttle := false }, .mark false] := by decide +kernel

end Verif
