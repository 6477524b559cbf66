import Verif.PreludeFind
import Verif.Decstr
import Verif.Fd
/-!
# The HTTP server - lib/ev/HTTP.fu

One connection.  Lengths are `i32`; here natural numbers.  `none` is a fault: a failed assertion or an index out of bounds.
Debug prints are left out.
-/
namespace Verif.Http
open Verif Verif.Prelude

/-- line ends on the wire -/
def CRLF : Str := [13#8, 10#8]

/-- lib/ev/HTTP.fu:15-19 (`Request`); the method is always GET -/
structure Request where
  url : Str
  headers : Str
  deriving DecidableEq

/-- lib/ev/HTTP.fu:29-33 (`ReadBuffer`) -/
structure ReadBuffer where
  data : Str
  headers_start : Nat
  headers_end : Nat
  deriving DecidableEq

/-- lib/ev/HTTP.fu:141-145: how parsing ends; the code has no path that returns `Incomplete` -/
inductive Outcome where
  | fatal (reason : Str)
  | success (r : Request)
  deriving DecidableEq

/-- lib/ev/HTTP.fu:162-196: the start line -/
def startLine (b : ReadBuffer) (data0 : Nat) : Option (Except Str ReadBuffer) :=
  if b.headers_start ≠ 0 then some (.ok b)
  else
    (findIn b.data (.many CRLF) (data0 - 1) (min b.data.length 4096)).map fun first_crlf =>
      if first_crlf ≥ 0 then .ok { b with headers_start := first_crlf.toNat }
      else if b.data.length ≥ min b.data.length 4096 then .error (str "414 Request-URI Too Long")
      else if b.headers_start < 16 then .error (str "400 Request Line Too Short")
      else .ok b

/-- lib/ev/HTTP.fu:200-233: the headers -/
def headers (b : ReadBuffer) (data0 bytes_read : Nat) : Option (Except Str ReadBuffer) :=
  if b.headers_end ≠ 0 then some (.ok b)
  else
    (findIn b.data (.many (CRLF ++ CRLF)) (max (data0 - 3) b.headers_start) (min b.data.length (b.headers_start + 65536))).map fun pair =>
      if pair ≥ 0 then .ok { b with headers_end := pair.toNat + 4 }
      else if b.data.length ≥ min b.data.length (b.headers_start + 65536) then .error (str "431 Request Header Fields Too Large")
      else if bytes_read < 1024 then .error (str "418 Packet Too Small")
      else .ok b

/-- lib/ev/HTTP.fu:283-316: the request line -/
def requestLine (first_line hdrs : Str) : Option Outcome :=
  (findItem first_line 32#8).bind fun space0 =>
  if space0 < 3 then some (.fatal (str "400 Invalid Request Method"))
  else
    (findIn first_line (.one 32#8) (space0 + 1).toNat first_line.length).bind fun space1 =>
    if space1 < 0 then some (.fatal (str "400 Missing HTTP Version"))
    else
      (window first_line (space1 + 1).toNat first_line.length).bind fun version =>
      (window first_line (space0 + 1).toNat space1.toNat).bind fun url =>
      (window first_line 0 space0.toNat).bind fun method =>
      if version ≠ str "HTTP/1.1" then some (.fatal (str "406 Invalid HTTP Version"))
      else if method ≠ str "GET" then some (.fatal (str "405 Method Not Allowed"))
      else
        (starts url (.one 47#8)).bind fun slash =>
        if slash ≠ true then some (.fatal (str "404 No Leading Slash"))
        else some (.success ⟨url, hdrs⟩)

/-- lib/ev/HTTP.fu:262-317: taking the request out of the buffer -/
def serve (b : ReadBuffer) : Option (ReadBuffer × Outcome) :=
  (window b.data 0 b.headers_end).bind fun hdrs =>
  (window hdrs 0 b.headers_start).bind fun first_line =>
  (requestLine first_line (hdrs.drop b.headers_start)).map fun o => (⟨b.data.drop b.headers_end, 0, 0⟩, o)

/-- lib/ev/HTTP.fu:147-318 (`tryParseRequest`) -/
def tryParseRequest (b : ReadBuffer) (data0 bytes_read : Nat) : Option (ReadBuffer × Outcome) :=
  (startLine b data0).bind fun r =>
    match r with
    | .error e => some (b, .fatal e)
    | .ok b =>
      (headers b data0 bytes_read).bind fun r =>
        match r with
        | .error e => some (b, .fatal e)
        | .ok b => serve b

/-- lib/ev/HTTP.fu:336-350 (`FATAL` of `socket_event`): what it appends to the output -/
def fatalText (status : Str) : Str := str "HTTP/1.1 " ++ status ++ str "\r\n" ++ str "Connection: Close\r\n" ++ str "\r\n"

/-- what a request handler answers with -/
structure Response where
  status : Str
  headers : Str
  body : Str
  deriving DecidableEq

/-- lib/ev/HTTP.fu:352-384 (`respond`): the output afterwards.  Simplification: the handler's `with_buffer` appends `body`. -/
def respond (out : Str) (r : Response) : Option Str :=
  let out := out ++ str "HTTP/1.1 " ++ r.status ++ str "\r\n" ++ str "Connection: keep-alive\r\n" ++ str "Content-Length: "
  let clenval_offset := out.length
  let out := out ++ str "0\r\n" ++ str "XXXXXXXXX: X\r\n"
  if r.headers ≠ [] ∧ ends r.headers (.many (str "\r\n")) ≠ some true then none
  else
    let out := out ++ r.headers
    let out := out ++ str "\r\n"
    let content_start := out.length
    let out := out ++ r.body
    let clenval := out.length - content_start
    if clenval ≤ 999999999 then blit out clenval_offset (Decstr.i64dec (BitVec.ofNat 64 clenval) ++ str "\r\n")
    else some out

/-- one connection: the read buffer; the write buffer with its cursor, if there is one; what went out; requests handed to
the handler; whether it is being closed -/
structure Conn where
  buf : ReadBuffer
  out : Option (Nat × Str)
  sent : Str
  served : List Request
  closed : Bool
  deriving DecidableEq

/-- lib/ev/HTTP.fu:390-416: the socket is readable and `chunk` arrives (not empty).  `answer` is the request handler. -/
def onRead (answer : Request → List Response) (c : Conn) (chunk : Str) : Option Conn :=
  let data0 := c.buf.data.length
  (tryParseRequest { c.buf with data := c.buf.data ++ chunk } data0 chunk.length).bind fun (buf, o) =>
    let (cursor, data) := c.out.getD (0, [])
    match o with
    | .fatal e => some { c with buf := buf, out := some (cursor, data ++ fatalText e), closed := true }
    | .success r =>
      match answer r with
      | [] => some { c with buf := buf, served := c.served ++ [r] }
      | rs => (rs.foldlM respond data).map fun data => { c with buf := buf, out := some (cursor, data), served := c.served ++ [r] }

/-- lib/ev/HTTP.fu:425-453 with `write` of lib/ev/Loop.fu:723-744: the socket is writeable, and the system answers `a` -/
def onWrite (c : Conn) (a : Fd.Ans) : Option Conn :=
  match c.out with
  | none => some c
  | some (cursor, data) =>
    (window data cursor data.length).bind fun rest =>
      let (bytes, bytes_written, err) := Fd.fdWrite a rest
      let err := if err = Fd.EAGAIN then 0 else err
      if err = 0 ∧ bytes_written < rest.length then
        if bytes_written + cursor < data.length then
          some { c with sent := c.sent ++ bytes, out := some (cursor + bytes_written, data) }
        else none
      else some { c with sent := c.sent ++ bytes, out := none, closed := c.closed || decide (err ≠ 0) }

/-- a new connection -/
def fresh : Conn := ⟨⟨[], 0, 0⟩, none, [], [], false⟩

end Verif.Http
