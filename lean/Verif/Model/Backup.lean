/-
utilities/select_silos.py: the encrypted backup of the silos.

The cryptographic primitives of the python package `cryptography` are arbitrary functions.
Simplifications: names and texts are byte strings (the script has `str`; only ASCII is meant),
the clock counts whole milliseconds (the script has floats which it writes with three
decimals), `os.walk` is a list of files in any order.
-/
import Verif.Basic.Bytes
import Verif.Basic.CStr
import Verif.Basic.Res

namespace Verif.Backup

/-- The primitives used by `Encrypt_File` (utilities/select_silos.py:143-145): the AES block
    cipher under a key, HMAC-SHA256 under a key, and SHA256.  Nothing is known about them. -/
structure Crypto where
  aes : Bytes → Bytes → Bytes
  hmac : Bytes → Bytes → Bytes
  sha256 : Bytes → Bytes

/-- The `i`-th byte of the key stream of `modes.CTR(iv)` (utilities/select_silos.py:195-199):
    byte `i % 16` of the encrypted counter, a big-endian number of 16 bytes which starts at the
    IV and wraps. -/
def keystream (C : Crypto) (key iv : Bytes) (i : Nat) : UInt8 :=
  (C.aes key (beEnc 16 (beDec iv + i / 16))).getD (i % 16) 0

/-- `encryption.update(a)` when `p` bytes went through before
    (utilities/select_silos.py:218). -/
def xorFrom (ks : Nat → UInt8) : Nat → Bytes → Bytes
  | _, [] => []
  | p, c :: r => (c ^^^ ks p) :: xorFrom ks (p + 1) r

/-- `sfn.replace(".bin", "")` (utilities/select_silos.py:190). -/
def dropBin : Bytes → Bytes
  | 46 :: 98 :: 105 :: 110 :: r => dropBin r
  | c :: r => c :: dropBin r
  | [] => []

/-- `os.path.basename` (utilities/select_silos.py:191, 232): what follows the last slash. -/
def basename (p : Bytes) : Bytes := (p.reverse.takeWhile (fun c => c != 47)).reverse

/-- `os.path.join(a, b)` of a directory without a slash at its end and a name without a slash
    (utilities/select_silos.py:289, 300). -/
def join (a b : Bytes) : Bytes := a ++ 47 :: b

/-- `str.split()` (utilities/select_silos.py:169, 279): the words between white space; `w` is
    the word being read, reversed. -/
def wordsGo : Bytes → Bytes → List Bytes
  | w, [] => if w = [] then [] else [w.reverse]
  | w, c :: r =>
    if isSpace c then
      if w = [] then wordsGo [] r else w.reverse :: wordsGo [] r
    else
      wordsGo (c :: w) r

/-- `str.split()` (utilities/select_silos.py:169, 279). -/
def words (l : Bytes) : List Bytes := wordsGo [] l

/-- The value of a hex digit. -/
def hexVal (c : UInt8) : Nat :=
  if isDigit c then c.toNat - 48 else (toLower c).toNat - 87

/-- `bytearray.fromhex` of a text without white space; `none` is the `ValueError`
    (utilities/select_silos.py:172). -/
def fromHex : Bytes → Option Bytes
  | [] => some []
  | [_] => none
  | a :: b :: r =>
    if isHex a && isHex b then
      (fromHex r).map (fun t => UInt8.ofNat (hexVal a * 16 + hexVal b) :: t)
    else none

/-- The two keys in `secrets.txt`. -/
structure Secrets where
  pkey : Bytes
  skey : Bytes
deriving DecidableEq

/-- `get_secrets` on the contents of `secrets.txt` (utilities/select_silos.py:167-172);
    `fail` is the exception. -/
def getSecrets (txt : Bytes) : Res Secrets :=
  match words txt with
  | [p, s] =>
    if p.length = 64 ∧ s.length = 32 then
      match fromHex p, fromHex s with
      | some pkey, some skey => .ok ⟨pkey, skey⟩
      | _, _ => .fail
    else .fail
  | _ => .fail

/-- The IV of a file (utilities/select_silos.py:185-193, 197): the first half of the HMAC of
    its base name without ".bin". -/
def ivOf (C : Crypto) (skey sfn : Bytes) : Bytes :=
  (C.hmac skey (basename (dropBin sfn))).take 16

/-- What the loop of `Encrypt_File` has handed to `authentication`, to `integrity` and to the
    file. -/
structure Enc where
  pos : Nat := 0
  auth : Bytes := []
  integ : Bytes := []
  out : Bytes := []
deriving DecidableEq

/-- The loop of `Encrypt_File` (utilities/select_silos.py:214-221); `n` is the size of a read
    (65536) and every read is short only at the end of the file. -/
def encLoop (ks : Nat → UInt8) (n : Nat) : (fuel : Nat) → Enc → Bytes → Enc
  | 0, e, _ => e
  | fuel + 1, e, rest =>
    if rest.take n = [] then e
    else
      encLoop ks n fuel
        { pos := e.pos + (rest.take n).length,
          auth := e.auth ++ xorFrom ks e.pos (rest.take n),
          integ := e.integ ++ xorFrom ks e.pos (rest.take n),
          out := e.out ++ xorFrom ks e.pos (rest.take n) }
        (rest.drop n)

/-- A file that was written: its name and its contents. -/
structure File where
  name : Bytes
  data : Bytes
deriving DecidableEq

/-- `Encrypt_File` (utilities/select_silos.py:174-234): the three files it writes. -/
def encryptFile (C : Crypto) (k : Secrets) (sfn content dfn : Bytes) : Res (List File) := do
  Res.check (decide (sfn ≠ dfn))
  let e := encLoop (keystream C k.pkey (ivOf C k.skey sfn)) 65536 (content.length + 1) {} content
  pure [⟨dfn, e.out⟩,
    ⟨dfn ++ b!".hmac", hexStr (C.hmac k.skey e.auth) ++ [10]⟩,
    ⟨dfn ++ b!".sha256", b!"SHA256 (" ++ basename dfn ++ b!") = " ++ hexStr (C.sha256 e.integ) ++ [10]⟩]

/-- `class Silo` (utilities/select_silos.py:237-267); `fpn` is the attribute that only `probe`
    sets. -/
structure Silo where
  fn : Bytes
  nowSz : Nat := 0
  lastSz : Nat := 0
  lastTm : Nat := 0
  fpn : Option Bytes := none
deriving DecidableEq

/-- `silo(f)` followed by a change of what it returns (utilities/select_silos.py:269-273);
    `SILOS` is a dictionary in the order in which its keys were added. -/
def upd (f : Bytes) (g : Silo → Silo) : List Silo → List Silo
  | [] => [g { fn := f }]
  | s :: r => if s.fn = f then g s :: r else s :: upd f g r

/-- `int(text)` for a text of digits (utilities/select_silos.py:282).  Python also takes a sign
    and underscores; here they fail. -/
def parseInt (t : Bytes) : Option Nat :=
  if t ≠ [] ∧ t.all isDigit then some (t.foldl (fun n c => n * 10 + (c.toNat - 48)) 0) else none

/-- `float(text)` in milliseconds, for digits, a dot and three digits
    (utilities/select_silos.py:281).  Python also takes other forms; here they fail. -/
def parseTm (t : Bytes) : Option Nat :=
  if t.length < 4 then none
  else
    match t.drop (t.length - 4) with
    | 46 :: ms =>
      match parseInt (t.take (t.length - 4)), parseInt ms with
      | some a, some b => some (a * 1000 + b)
      | _, _ => none
    | _ => none

/-- One line of `silodates.txt` (utilities/select_silos.py:278-282); `fail` is the
    `IndexError` or `ValueError`. -/
def loadLine (l : Bytes) (d : List Silo) : Res (List Silo) :=
  match words l with
  | f :: tm :: sz :: _ =>
    match parseTm tm, parseInt sz with
    | some t, some n => .ok (upd f (fun s => { s with lastTm := t, lastSz := n }) d)
    | _, _ => .fail
  | _ => .fail

/-- The lines of a text file; `w` is the line being read, reversed. -/
def linesGo : Bytes → Bytes → List Bytes
  | w, [] => if w = [] then [] else [w.reverse]
  | w, c :: r => if c = 10 then w.reverse :: linesGo [] r else linesGo (c :: w) r

/-- The loop over the lines (utilities/select_silos.py:278-282). -/
def loadLines : List Bytes → List Silo → Res (List Silo)
  | [], d => .ok d
  | l :: r, d => do
    let d' ← loadLine l d
    loadLines r d'

/-- Reading `silodates.txt`, `none` if there is no such file
    (utilities/select_silos.py:277-284). -/
def load : Option Bytes → Res (List Silo)
  | none => .ok []
  | some txt => loadLines (linesGo [] txt) []

/-- What is under `SILODIR`: the files as (directory, name), the sizes `os.stat` gives and the
    contents that are read later. -/
structure World where
  files : List (Bytes × Bytes)
  stat : Bytes → Nat
  read : Bytes → Bytes

/-- `f[-8:] == ".warc.gz"` (utilities/select_silos.py:288). -/
def isSilo (f : Bytes) : Bool := f.drop (f.length - 8) == b!".warc.gz"

/-- The walk (utilities/select_silos.py:286-289). -/
def walk (W : World) : List (Bytes × Bytes) → List Silo → List Silo
  | [], d => d
  | (p, f) :: r, d =>
    if isSilo f then
      walk W r (upd f (fun s => { s with
        nowSz := W.stat (join p f), fpn := some (join p f) }) d)
    else walk W r d

/-- `math.fabs(self.now_sz - self.last_sz)` (utilities/select_silos.py:254), exactly. -/
def Silo.change (s : Silo) : Nat := (s.nowSz - s.lastSz) + (s.lastSz - s.nowSz)

/-- `__lt__` (utilities/select_silos.py:249-256): the greater change first, then the greater
    age.  The clock is taken to stand still while the silos are sorted. -/
def before (s t : Silo) : Bool :=
  decide (t.change < s.change) || (decide (s.change = t.change) && decide (s.lastTm < t.lastTm))

/-- Insertion in a sorted list. -/
def insertSilo (lt : Silo → Silo → Bool) (x : Silo) : List Silo → List Silo
  | [] => [x]
  | y :: r => if lt y x then y :: insertSilo lt x r else x :: y :: r

/-- `sorted` (utilities/select_silos.py:292, 306), which is stable. -/
def sortSilos (lt : Silo → Silo → Bool) : List Silo → List Silo
  | [] => []
  | x :: r => insertSilo lt x (sortSilos lt r)

/-- What a run depends on: the primitives, the keys, the quota, the staging directory and the
    clock (the time at which the `i`-th silo was staged). -/
structure Env where
  C : Crypto
  secrets : Bytes
  quota : Nat
  sdir : Bytes
  clk : Nat → Nat

/-- What the loop over the silos leaves: the files and the silos. -/
structure Staged where
  files : List File
  silos : List Silo
deriving DecidableEq

/-- The loop over the sorted silos (utilities/select_silos.py:291-303): `q` bytes and `i` silos
    are staged.  A silo that was not probed has no `fpn`: `AttributeError`. -/
def stage (E : Env) (W : World) : (q i : Nat) → List Silo → Res Staged
  | _, _, [] => .ok ⟨[], []⟩
  | q, i, s :: r =>
    if E.quota < q + s.nowSz then .ok ⟨[], s :: r⟩
    else
      match s.fpn with
      | none => .fail
      | some p => do
        let k ← getSecrets E.secrets
        let fs ← encryptFile E.C k p (W.read p) (join E.sdir (s.fn ++ b!".bin"))
        let t ← stage E W (q + s.nowSz) (i + 1) r
        pure ⟨fs ++ t.files, { s with lastTm := E.clk i, lastSz := s.nowSz } :: t.silos⟩

/-- A number below 1000 with three digits. -/
def dec3 (n : Nat) : Bytes :=
  [UInt8.ofNat (48 + n / 100 % 10), UInt8.ofNat (48 + n / 10 % 10), UInt8.ofNat (48 + n % 10)]

/-- `"%s %.3f %d\n"` (utilities/select_silos.py:307). -/
def fmtSilo (s : Silo) : Bytes :=
  s.fn ++ 32 :: (dec (s.lastTm / 1000) ++ 46 :: dec3 (s.lastTm % 1000)) ++ 32 :: dec s.lastSz ++ [10]

/-- The order of the names in `sorted(SILOS.items())` (utilities/select_silos.py:306). -/
def nameBefore (s t : Silo) : Bool := strcmp s.fn t.fn == .lt

/-- The new `silodates.txt` (utilities/select_silos.py:305-308). -/
def dates (l : List Silo) : Bytes := (sortSilos nameBefore l).flatMap fmtSilo

/-- What a run leaves: the files under `STAGING.new` and the new `silodates.txt`. -/
structure Out where
  files : List File
  dates : Bytes
deriving DecidableEq

/-- `main` (utilities/select_silos.py:275-310) with the old `silodates.txt`. -/
def main (E : Env) (W : World) (old : Option Bytes) : Res Out := do
  let d ← load old
  let t ← stage E W 0 0 (sortSilos before (walk W W.files d))
  pure ⟨t.files, dates t.silos⟩

end Verif.Backup
