/-
Model of /repo/main_cgi.c: the CGI program, which serves an object over HTTP.
-/
import Verif.Model.MainStore

namespace Verif.MainCgi
open Verif Header Index Getjob Wsilo MainStore

/-- The environment variables: GATEWAY_INTERFACE, REQUEST_METHOD, PATH_INFO and HTTP_ACCEPT_ENCODING. -/
structure CgiEnv where
  gateway : Option Bytes
  method : Option Bytes
  path : Option Bytes
  accept : Option Bytes
  deriving DecidableEq, Repr

/-- index.c:166-173: the texts. -/
def idErrText : IdErr → Bytes
  | .wrongPrefix => b!"ID is invalid (wrong prefix?)"
  | .nonHex => b!"ID is invalid (non-hex characters)"
  | .tooShort => b!"ID is invalid (too short)"
  | .tooLong => b!"ID is invalid (too long)"

/-- getjob.c:92, :105, :132-134, :190, :200: the texts that `GetJob_New` puts in `vsb`. -/
def errText : GErr → Bytes
  | .badId e => idErrText e
  | .notFound => b!"ID not found"
  | .isWarcinfo => b!"ID is warcinfo segment"
  | .isContinuation => b!"ID is continuation segment"
  | .outOfOrder => b!"Index Inconsistency: Continuation out of order."

/-- `strstr(3)` -/
def strstr : Bytes → Bytes → Bool
  | [], n => decide (n = [])
  | c :: l, n => n.isPrefixOf (c :: l) || strstr l n

/-- What the program does: exit with the usage text, or write to stdout. -/
inductive CgiOut where
  | usage
  | stdout (text : Bytes)
  deriving DecidableEq, Repr

/-- main_cgi.c:127-135: the page for an error -/
def errPage (e : GErr) : Bytes :=
  b!"Content-Type: text/html\nStatus: 501 Error\n\n<html><pre>" ++ errText e ++ b!"\n</pre></html>"

/-- `%jd` -/
def fmtInt (n : Int) : Bytes := if n < 0 then b!"-" ++ dec n.natAbs else dec n.natAbs

/-- main_cgi.c:149-165: the answer with the object -/
def answer (env : Env) (cut : Bytes → List Bytes) (gj : GJ) (gzip : Bool) : Res CgiOut := do
  let h ← gjHeader gj true
  let o ← totalLength gj gzip
  let body ← getjobIterate env.ps cut gj getIter [] gzip
  .ok (.stdout (b!"Content-Type: " ++ (headerGet h b!"Content-Type").getD b!"application/binary" ++ b!"\n" ++
    (if gzip then b!"Content-Encoding: gzip\n" else []) ++ b!"Content-Length: " ++ fmtInt o ++ b!"\nStatus: 200\n\n" ++ body))

/-- main_cgi.c:119-120 -/
def dropSlash (id : Bytes) : Bytes := if id.head? = some 47 then id.drop 1 else id

/-- main_cgi.c:122-168 -/
def serve (env : Env) (fuel : Nat) (cut : Bytes → List Bytes) (w : World) (id : Bytes) (gzip : Bool) : Res CgiOut := do
  let g ← getjobNew env.ps env.pfx env.idSize fuel w id
  match g with
  | .error e => .ok (.stdout (errPage e))
  | .job gj => answer env cut gj (gzip && !gjIsSegmented gj)

/-- main_cgi.c:62-168 `main_cgi`, without arguments. -/
def mainCgi (env : Env) (fuel : Nat) (cut : Bytes → List Bytes) (w : World) (e : CgiEnv) : Res CgiOut :=
  if e.gateway ≠ some b!"CGI/1.1" then .ok .usage
  else if e.method ≠ some b!"GET" then .ok .usage
  else
    match e.path with
    | none => .ok .usage
    | some id => serve env fuel cut w (dropSlash id) ((e.accept.map (strstr · b!"gzip")).getD false)

end Verif.MainCgi
