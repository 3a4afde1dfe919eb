/-
Model of /repo/config.c: the configuration file.
-/
import Verif.Basic.CStr

namespace Verif.Config
open Verif

/-- config.c:45-51 `struct entry`; a missing argument is `none`. -/
structure Entry where
  name : Bytes
  arg : Option Bytes
  deriving DecidableEq, Repr

/-- config.c:53-60 `struct section`. -/
structure Section where
  name : Bytes
  entries : List Entry
  deriving DecidableEq, Repr

/-- The three messages of `config_parse`. -/
inductive Err where
  | colonTrouble | duplicate | noSection
  deriving DecidableEq, Repr

/-- config.c:87-93: cut at the first `c`, if there is one. -/
def upTo (c : UInt8) : Bytes → Bytes
  | [] => []
  | x :: xs => if x = c then [] else x :: upTo c xs

/-- The part behind the first `c`. -/
def behind (c : UInt8) : Bytes → Bytes
  | [] => []
  | x :: xs => if x = c then xs else behind c xs

/-- config.c:94-100: cut behind the last character that is not white space. -/
def trimRight : Bytes → Bytes
  | [] => []
  | x :: xs => if isSpace x ∧ trimRight xs = [] then [] else x :: trimRight xs

/-- Skip white space. -/
def skipSpace : Bytes → Bytes
  | [] => []
  | x :: xs => if isSpace x then skipSpace xs else x :: xs

/-- The leading part without white space. -/
def word : Bytes → Bytes
  | [] => []
  | x :: xs => if isSpace x then [] else x :: word xs

/-- The part behind `word`. -/
def afterWord : Bytes → Bytes
  | [] => []
  | x :: xs => if isSpace x then x :: xs else afterWord xs

/-- config.c:119-134: an entry line (trimmed) is name and argument. -/
def parseEntry (l : Bytes) : Entry :=
  let q := skipSpace l
  let r := afterWord q
  { name := word q, arg := if r = [] then none else some (skipSpace r) }

/-- `sc->entries` gets a new last element, where `sc` is the last section (config.c:122). -/
def addEntry (e : Entry) : List Section → List Section
  | [] => []
  | [s] => [{ s with entries := s.entries ++ [e] }]
  | s :: t :: ss => s :: addEntry e (t :: ss)

/-- config.c:90-135: one line, after cutting it out of the file. -/
def parseLine (scs : List Section) (line : Bytes) : List Section × Option Err :=
  let l := trimRight (upTo 35 line)
  match l with
  | [] => (scs, none)
  | c :: _ =>
    if ¬ isSpace c then
      -- the first colon must be the last character
      if 58 ∉ l ∨ behind 58 l ≠ [] then (scs, some .colonTrouble)
      else
        let name := upTo 58 l
        if scs.any (fun s => s.name == name) then (scs, some .duplicate)
        else (scs ++ [{ name := name, entries := [] }], none)
    else if scs = [] then (scs, some .noSection)
    else (addEntry (parseEntry l) scs, none)

/-- config.c:86-137: the loop over the lines.  The first error stops it, leaving what was parsed. -/
def parseLines : (fuel : Nat) → List Section → Bytes → List Section × Option Err
  | 0, scs, _ => (scs, none)
  | fuel + 1, scs, text =>
    if text = [] then (scs, none)
    else
      let r := parseLine scs (upTo 10 text)
      if r.2 ≠ none then r else parseLines fuel r.1 (behind 10 text)

/-- config.c:77-138 `config_parse`. -/
def configParse (text : Bytes) : List Section × Option Err := parseLines (text.length + 1) [] text

/-- config.c:159-205 `Config_Read` on the contents of a regular file: `none` for bytes that cannot be
UTF-8 (EBADF).  A parse error is only printed. -/
def configRead (text : Bytes) : Option (List Section) :=
  if text.any (fun c => c = 0 || c = 0xc0 || c = 0xc1 || 0xf4 < c) then none
  else some (configParse text).1

/-- The first section with the name, ignoring case (config.c:214-216, 241-243, 264-266). -/
def section? (cfg : List Section) (name : Bytes) : Option Section :=
  cfg.find? (fun s => strcasecmp s.name name == .eq)

/-- Results of `Config_Get`. -/
inductive GetRes where
  | enoent | e2big
  | ok (e : Entry)
  deriving DecidableEq, Repr

/-- config.c:207-231 `Config_Get`: `wantArg` says whether `ap != NULL`, `wantName` whether `np != NULL`. -/
def configGet (cfg : List Section) (name : Bytes) (wantName wantArg : Bool) : GetRes :=
  match section? cfg name with
  | none => .enoent
  | some s =>
    match s.entries with
    | [e] => if wantName && !wantArg && e.arg.isSome then .e2big else .ok e
    | _ => .e2big

/-- config.c:233-254 `Config_Find`: the argument of the first matching entry. -/
def configFind (cfg : List Section) (sect name : Bytes) : Option (Option Bytes) :=
  match section? cfg sect with
  | none => none
  | some s =>
    (s.entries.find? (fun e => e.name == b!"*" || strcasecmp name e.name == .eq)).map (·.arg)

/-- config.c:270-274: hand entries to a callback until it returns non-zero. -/
def iterEntries {σ : Type} (f : σ → Bytes → Option Bytes → σ × Int) : List Entry → σ → σ × Int
  | [], s => (s, 0)
  | e :: es, s => if (f s e.name e.arg).2 ≠ 0 then f s e.name e.arg else iterEntries f es (f s e.name e.arg).1

/-- config.c:256-279 `Config_Iter`; ENOENT is 2. -/
def configIter {σ : Type} (cfg : List Section) (sect : Bytes) (f : σ → Bytes → Option Bytes → σ × Int) (s : σ) :
    σ × Int :=
  match section? cfg sect with
  | none => (s, 2)
  | some sc => if sc.entries = [] then (s, 2) else iterEntries f sc.entries s

end Verif.Config
