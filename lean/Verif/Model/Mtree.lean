/-
Model of the reading of mtree's output in /repo/main_stow.c: `mtree_interpret`, `mtree_process` and `mtree_in`.

Simplifications: mtree exits with status 0; the calls of `proto_ctl_ev` are left out, they are in Model/StowData.lean.
-/
import Verif.Model.StowData
import Verif.Model.Vnum

namespace Verif.Mtree
open Verif
open _root_.Verif.Rsilo (cstr)
open _root_.Verif.Vnum (skipSp)

/-- main_stow.c:62-69 `struct subj` of a file: the name of its directory, its own, and the digest. -/
structure Subj where
  dir : Bytes
  name : Bytes
  digest : Bytes
  deriving DecidableEq, Repr

/-- main_stow.c:114-116: `mtree_path`, `mtree_type_dir`, and `pwd` with its parents (the names of the directories, innermost first);
and what was put on `subj_list`. -/
structure St where
  path : Bytes
  typeDir : Bool
  pwd : List Bytes
  subjs : List Subj
  deriving DecidableEq, Repr

/-- The results of `strsep(&line, " \t")` until it returns NULL. -/
def words : Bytes → List Bytes
  | [] => [[]]
  | c :: l =>
    if c = 32 ∨ c = 9 then [] :: words l
    else
      match words l with
      | [] => [[c]]
      | w :: ws => (c :: w) :: ws

/-- main_stow.c:134-139: the rest of a `/set` line -/
def setWords : List Bytes → Bool → Bool
  | [], t => t
  | w :: ws, t => setWords ws (if w = b!"type=dir" then true else if w = b!"type=file" then false else t)

/-- The digest of nothing, main_stow.c:160-161. -/
def emptyDigest : Bytes := b!"e3b0c44298fc1c149afbf4c8996fb92427ae41e4649b934ca495991b7852b855"

/-- main_stow.c:150-165: the rest of the line for an entry; `none` if the function returns -/
def entryWords : List Bytes → Bool → Option Bytes → Option (Bool × Option Bytes)
  | [], dir, digest => some (dir, digest)
  | w :: ws, dir, digest =>
    if w = b!"type=dir" then entryWords ws true digest
    else if w = b!"type=file" then entryWords ws false digest
    else if strncmpEq w b!"type=" 5 then none
    else if strncmpEq w b!"sha256digest=" 13 then
      if w.drop 13 = emptyDigest then none else entryWords ws dir (some (w.drop 13))
    else entryWords ws dir digest

/-- main_stow.c:141-144: the path up to the last slash, or nothing if there is none -/
def upTo (path : Bytes) : Bytes :=
  if (47 : UInt8) ∈ path then ((path.reverse.dropWhile (· ≠ 47)).drop 1).reverse else []

/-- main_stow.c:166-178: a file -/
def addFile (s : St) (name : Bytes) (digest : Option Bytes) : Res St :=
  match s.pwd, digest with
  | d :: _, some g => .ok { s with subjs := s.subjs ++ [⟨d, name, g⟩] }
  | _, _ => .fail

/-- main_stow.c:179-190: a directory; `mtree_path` has 4096 bytes. -/
def addDir (s : St) (name : Bytes) : Res St := do
  Res.access (decide ((s.path ++ b!"/" ++ name).length < 4096))
  .ok { s with path := s.path ++ b!"/" ++ name, pwd := (s.path ++ b!"/" ++ name).drop 1 :: s.pwd }

/-- main_stow.c:119-192 `mtree_interpret` from :131 on: the words of the line -/
def interpretWords (s : St) : List Bytes → Res St
  | [] => .ok s
  | w :: ws =>
    if w = [] then .ok s
    else if w = b!"/set" then .ok { s with typeDir := setWords ws s.typeDir }
    else if w = b!".." then do
      Res.check (decide (s.pwd ≠ []))
      .ok { s with path := upTo s.path, pwd := s.pwd.tail }
    else
      match entryWords ws s.typeDir none with
      | none => .ok s
      | some (false, digest) => addFile s w digest
      | some (true, _) => addDir s w

/-- main_stow.c:119-192 `mtree_interpret` -/
def interpret (line : Bytes) (s : St) : Res St := interpretWords s (words (skipSp line))

/-- main_stow.c:194-216 `mtree_process`: `cur` is the text from `b` on that has no newline; the result has what stays in the buffer. -/
def process : (cur rest : Bytes) → St → Res (Bytes × St)
  | cur, [], s => .ok (cur, s)
  | cur, c :: rest, s =>
    if c ≠ 10 then process (cur ++ [c]) rest s
    else if cur = [] then process [] rest s
    else if cur.getLast? = some 92 then process (cur.dropLast ++ [32, 32]) rest s
    else interpret cur s >>= fun s => process [] rest s

/-- `mtree_buf` (8192 bytes, with the NUL), `mtree_tmp` (and what was hashed), and the above. -/
structure In where
  st : St
  buf : Bytes
  tmp : Bytes
  deriving DecidableEq, Repr

/-- main_stow.c:218-242 `mtree_in`, when something was read -/
def piece (s : In) (p : Bytes) : Res In := do
  let r ← process [] (cstr (s.buf ++ p)) s.st
  .ok ⟨r.2, r.1, s.tmp ++ p⟩

/-- The calls of `mtree_in`, while mtree's output is `text`: the reads deliver at most `ks + 1` bytes, but not more than there is room
for.  The result is what is left of the output and whether `mtree_in` has come to its end (:244-262). -/
def reads : List Nat → Bytes → In → Res (In × Bytes × Bool)
  | [], text, s => .ok (s, text, false)
  | k :: ks, text, s =>
    if text.take (min (k + 1) (8191 - s.buf.length)) = [] then .ok (s, text, true)
    else piece s (text.take (min (k + 1) (8191 - s.buf.length))) >>= fun s' => reads ks (text.drop (min (k + 1) (8191 - s.buf.length))) s'

/-- main_stow.c:71, :250-260: the `subj_list` when mtree has ended -/
def subjList (sha : Bytes → Bytes) (s : In) : List Stow.Item :=
  s.st.subjs.map (fun x => ⟨true, x.dir ++ b!"/" ++ x.name, x.digest⟩) ++ [⟨false, [], sha s.tmp⟩, ⟨false, [], []⟩]

/-- The start of the first job. -/
def empty : In := ⟨⟨[], false, [], []⟩, [], []⟩

end Verif.Mtree
