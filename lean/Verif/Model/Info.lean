/-
main_info.c: what the command prints.
-/
import Verif.Basic.Bytes
import Verif.Model.Header

namespace Verif.Info
open Verif Header

/-- main_info.c:74-81: the output, with the global option `-j` or without. -/
def infoOut (json : Bool) (idSize : Nat) : Bytes :=
  if json then b!"[ \"AardWARC\", \"info\", \"1\", {\n" ++ (b!"    \"id_size\": " ++ dec idSize ++ b!"\n") ++ b!"} ]\n"
  else b!"id_size: " ++ dec idSize ++ b!"\n"

end Verif.Info
