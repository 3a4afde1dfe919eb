/-
main.c, and the loops over getopt(3) of all commands.

getopt(3) is that of the BSDs (the program sets `optreset`): options end at the first argument
that is none, at "-", or behind "--".
-/
import Verif.Basic.Bytes
import Verif.Basic.Res
import Verif.Model.Aardwarc
import Verif.Model.MainStore

namespace Verif.Main

open Verif

/-! ### getopt(3) -/

/-- The variables of getopt(3): `optind`, `optreset`, and the rest of the argument that is being
    read. -/
structure St where
  optind : Nat := 1
  reset : Bool := false
  place : Bytes := []
  deriving DecidableEq, Repr

/-- What a call of getopt(3) returns: -1, an option with its argument, or '?'. -/
inductive Got where
  | done
  | opt (c : UInt8) (arg : Option Bytes)
  | bad
  deriving DecidableEq, Repr

/-- `strchr(ostr, c)`: is there such an option, and does it have an argument? -/
def optSpec : Bytes → UInt8 → Option Bool
  | [], _ => none
  | x :: r, c => if x = c then some (r.head? == some 58) else optSpec r c

/-- The second half of getopt(3): the option is `c`, the rest of its argument is `p`. -/
def letter (ostr : Bytes) (argv : List Bytes) (n : Nat) (c : UInt8) (p : Bytes) : Got × St :=
  match (if c = 58 then none else optSpec ostr c) with
  | none => (.bad, { optind := if p = [] then n + 1 else n, place := p })
  | some false => (.opt c none, { optind := if p = [] then n + 1 else n, place := p })
  | some true =>
    if p ≠ [] then (.opt c (some p), { optind := n + 1 })
    else
      match argv[n + 1]? with
      | some a => (.opt c (some a), { optind := n + 2 })
      | none => (.bad, { optind := n + 1 })

/-- A call of getopt(3); no `ostr` in the program has a '-'. -/
def getopt (ostr : Bytes) (argv : List Bytes) (s : St) : Got × St :=
  if s.reset = true ∨ s.place = [] then
    match argv[s.optind]? with
    | some (45 :: c :: p) =>
      if c = 45 ∧ p = [] then (.done, { optind := s.optind + 1 })
      else letter ostr argv s.optind c p
    | _ => (.done, { optind := s.optind })
  else
    match s.place with
    | c :: p => letter ostr argv s.optind c p
    | [] => (.done, s)

/-- An option and its argument. -/
structure Item where
  c : UInt8
  arg : Option Bytes
  deriving DecidableEq, Repr

/-- The loop over the options: all of them, and the variables after it; `none` if there is a
    '?' (then every command exits with status 1, e.g. main.c:131-134). -/
def getopts (ostr : Bytes) (argv : List Bytes) : (fuel : Nat) → St → Option (List Item × St)
  | 0, _ => none
  | fuel + 1, s =>
    match getopt ostr argv s with
    | (.done, s') => some ([], s')
    | (.bad, _) => none
    | (.opt c a, s') =>
      match getopts ostr argv fuel s' with
      | none => none
      | some (l, t) => some (⟨c, a⟩ :: l, t)

/-- Calls enough for all options of `argv`. -/
def fuelOf (argv : List Bytes) : Nat := (argv.map List.length).sum + argv.length + 1

/-! ### The commands -/

/-- What is to be done. -/
inductive Cmd where
  | audit (ignoreMeta : Bool) (silos : List Bytes)
  | byid (ok : Bool) (ids : List Bytes)
  | cgi
  | dumpindex (type : Option Bytes) (ids : List Bytes)
  | filter (out : Option Bytes) (r s v : Bool) (files : List Bytes)
  | get (out : Option Bytes) (args : MainStore.GetArgs) (id : Bytes)
  | housekeeping
  | info (json : Bool)
  | mksilo (no : Bytes)
  | rebuild (silos : List Bytes)
  | reindex (silos : List Bytes)
  | stevedore
  | store (args : MainStore.Args) (file : Option Bytes)
  | stow (jobs : List Bytes)
  | testbytes (n : Bytes)
  deriving DecidableEq, Repr

/-- The end of the parsing of the arguments: a command, an exit with a usage text, or a failed
    assertion. -/
inductive Outcome where
  | run (c : Cmd)
  | exit (status : Nat)
  | abort
  deriving DecidableEq, Repr

/-- The loop of a command that does `f` with each option, and what it does with the remaining
    arguments; `-h` always exits with status 1 (e.g. main_get.c:102-104). -/
def withOptions {σ : Type} (ostr : Bytes) (argv : List Bytes) (s : St) (f : σ → Item → Option σ)
    (init : σ) (k : σ → List Bytes → Outcome) : Outcome :=
  match getopts ostr argv (fuelOf argv) s with
  | none => .exit 1
  | some (items, t) =>
    match items.foldlM (fun a i => if i.c = 104 then none else f a i) init with
    | none => .exit 1
    | some a => k a (argv.drop t.optind)

/-- The argument of an option that has one. -/
def Item.text (i : Item) : Bytes := i.arg.getD []

/-- main_filter.c:217-238: the options. -/
structure FilterArgs where
  out : Option Bytes := none
  r : Bool := false
  s : Bool := false
  v : Bool := false
  deriving DecidableEq, Repr

/-- main_filter.c:218-237: one option. -/
def filterOpt (a : FilterArgs) (i : Item) : Option FilterArgs :=
  if i.c = 111 then some { a with out := some i.text }
  else if i.c = 114 then some { a with r := !a.r }
  else if i.c = 115 then some { a with s := !a.s }
  else some { a with v := !a.v }

/-- main_get.c:101-120: one option. -/
def getOpt (a : Option Bytes × MainStore.GetArgs) (i : Item) : Option (Option Bytes × MainStore.GetArgs) :=
  if i.c = 111 then some (some i.text, a.2)
  else if i.c = 110 then some (a.1, { a.2 with hdrOnly := !a.2.hdrOnly })
  else if i.c = 113 then some (a.1, { a.2 with quiet := !a.2.quiet })
  else some (a.1, { a.2 with zip := !a.2.zip })

/-- main_store.c:115-155: one option, as Model/MainStore.lean has it. -/
def storeOpt (a : MainStore.Args) (i : Item) : Option MainStore.Args :=
  MainStore.option a
    (if i.c = 105 then .i i.text
     else if i.c = 109 then .m i.text
     else if i.c = 116 then .t i.text
     else .r i.text)

/-- main_dumpindex.c:80-92: the types that `-t` knows. -/
def dumpOpt (_ : Option Bytes) (i : Item) : Option (Option Bytes) :=
  if i.text = b!"metadata" ∨ i.text = b!"resource" ∨ i.text = b!"warcinfo" then some (some i.text)
  else none

/-- Options of a command that has only `-h`. -/
def noOpt (_ : Unit) (_ : Item) : Option Unit := none

/-- The commands with their names (main.c:45-68), and how each of them takes its arguments. -/
def mains : List (Bytes × Bool × (Bool → List Bytes → St → Outcome)) :=
  [ -- main_audit.c:402-429; an unknown -i only prints the usage text
    (b!"audit", false, fun _ argv s =>
      withOptions b!"i:h" argv s
        (fun (a : Bool) i => some (a || i.text == b!"ignore-metadata-record-id")) false
        fun a args => .run (.audit a args)),
    -- main_byid.c:103-128
    (b!"byid", false, fun _ argv s =>
      withOptions b!"he" argv s (fun (_ : Bool) _ => some true) false
        fun a args => .run (.byid a args)),
    -- main_cgi.c:78-95
    (b!"cgi", false, fun _ argv s =>
      withOptions b!"h" argv s noOpt () fun _ args =>
        if args = [] then .run .cgi else .exit 1),
    -- main_dumpindex.c:75-105
    (b!"dumpindex", false, fun _ argv s =>
      withOptions b!"ht:" argv s dumpOpt none fun a args => .run (.dumpindex a args)),
    -- main_filter.c:217-271
    (b!"filter", false, fun _ argv s =>
      withOptions b!"ho:rsv" argv s filterOpt {} fun a args =>
        .run (.filter a.out a.r a.s a.v args)),
    -- main_get.c:100-129
    (b!"get", false, fun _ argv s =>
      withOptions b!"ho:nqz" argv s getOpt (none, ⟨false, false, false⟩) fun a args =>
        match args with
        | [id] => .run (.get a.1 a.2 id)
        | _ => .exit 1),
    -- main_housekeeping.c:59-73: AZ(argc)
    (b!"housekeeping", false, fun _ argv s =>
      withOptions b!"h" argv s noOpt () fun _ args =>
        if args = [] then .run .housekeeping else .abort),
    -- main_info.c:60-81
    (b!"info", true, fun json argv s =>
      withOptions b!"h" argv s noOpt () fun _ args =>
        if args = [] then .run (.info json) else .exit 1),
    -- main_mksilo.c:63-80: further arguments are not looked at
    (b!"mksilo", false, fun _ argv s =>
      withOptions b!"h" argv s noOpt () fun _ args =>
        match args with
        | [] => .exit 1
        | n :: _ => .run (.mksilo n)),
    -- main_rebuild.c:313-335
    (b!"rebuild", false, fun _ argv s =>
      withOptions b!"h" argv s noOpt () fun _ args => .run (.rebuild args)),
    -- main_reindex.c:284-300
    (b!"reindex", false, fun _ argv s =>
      withOptions b!"h" argv s noOpt () fun _ args => .run (.reindex args)),
    -- main_stevedore.c:459-472
    (b!"stevedore", false, fun _ argv s =>
      withOptions b!"h" argv s noOpt () fun _ args =>
        if args = [] then .run .stevedore else .exit 1),
    -- main_store.c:114-216; the checks of lines 160-198 come first and exit with status 1 as well
    (b!"store", false, fun _ argv s =>
      withOptions b!"hi:m:t:r:" argv s storeOpt MainStore.noArgs fun a args =>
        match args with
        | [] => .run (.store a none)
        | [f] => .run (.store a (if f = b!"-" then none else some f))
        | _ => .exit 1),
    -- main_stow.c:703-718: all options but -h are unknown, although getopt(3) takes three more
    (b!"stow", false, fun _ argv s =>
      withOptions b!"c:d:hr:" argv s noOpt () fun _ args =>
        if args = [] then .exit 1 else .run (.stow args)),
    -- main_testbytes.c:66-82: AZ(argc)
    (b!"_testbytes", false, fun _ argv s =>
      withOptions b!"hn:" argv s (fun (_ : Bytes) i => some i.text) b!"0" fun a args =>
        if args = [] then .run (.testbytes a) else .abort) ]

/-- main.c:87-103 `call_main`; `argv` is not empty. -/
def callMain (json : Bool) (argv : List Bytes) (s : St) : Outcome :=
  match mains.find? (fun m => decide (some m.1 = argv.head?)) with
  | none => .exit 1
  | some m => if json && !m.2.1 then .exit 2 else m.2.2 json argv s

/-! ### main -/

/-- What the program finds: the files by their names, the variable HOME. -/
structure World where
  file : Bytes → Option Bytes
  home : Option Bytes

/-- main.c:159, 169, 173, 177: `AardWARC_New` on a file. -/
def conf (fp : Vnum.FP) (fmtOk : Bytes → Bool) (W : World) (path : Bytes) : Res (Option Aardwarc.Params) := do
  let r ← Aardwarc.aardwarcNew fp fmtOk (W.file path)
  match r with
  | .ok p => pure (some p)
  | .error _ => pure none

/-- The first of two. -/
def orElse (a : Option Aardwarc.Params) (b : Res (Option Aardwarc.Params)) : Res (Option Aardwarc.Params) :=
  match a with
  | some p => .ok (some p)
  | none => b

/-- main.c:166-171: the configuration in the home directory; `buf` has 1024 bytes (BUFSIZ of FreeBSD) and
    `bprintf` asserts that the name fits. -/
def homeConf (fp : Vnum.FP) (fmtOk : Bytes → Bool) (W : World) : Res (Option Aardwarc.Params) :=
  match W.home with
  | none => .ok none
  | some h => do
    Res.check (decide (h.length + 15 < 1024))
    conf fp fmtOk W (h ++ b!"/.aardwarc.conf")

/-- main.c:158-192: the configuration and the status with which the program exits if there is
    none. -/
def choose (fp : Vnum.FP) (fmtOk : Bytes → Bool) (W : World) : Option Bytes → Res (Option Aardwarc.Params × Nat)
  | some cf => do
    let p ← conf fp fmtOk W cf
    pure (p, 2)
  | none => do
    let a ← homeConf fp fmtOk W
    let b ← orElse a (conf fp fmtOk W b!"/etc/aardwarc.conf")
    let c ← orElse b (conf fp fmtOk W b!"/usr/local/etc/aardwarc.conf")
    pure (c, 1)

/-- main.c:108-109: the variables set by the global options. -/
structure Globals where
  json : Bool := false
  cf : Option Bytes := none
  deriving DecidableEq, Repr

/-- main.c:120-135: one global option. -/
def globalOpt (a : Globals) (i : Item) : Option Globals :=
  if i.c = 104 then none
  else if i.c = 106 then some { a with json := true }
  else some { a with cf := some i.text }

/-- What the program does: with which configuration it runs what. -/
inductive Act where
  | exit (status : Nat)
  | abort
  | run (p : Aardwarc.Params) (c : Cmd)
  deriving DecidableEq, Repr

/-- main.c:199. -/
def act (p : Aardwarc.Params) : Outcome → Act
  | .exit n => .exit n
  | .abort => .abort
  | .run c => .run p c

/-- main.c:143-199: the part behind the global options. -/
def mainRest (fp : Vnum.FP) (fmtOk : Bytes → Bool) (W : World) (g : Globals) (argv : List Bytes) : Res Act :=
  if argv = [] then .ok (.exit 1)
  else do
    let c ← choose fp fmtOk W g.cf
    match c with
    | (none, st) => pure (.exit st)
    | (some p, _) => pure (act p (callMain g.json argv { reset := true }))

/-- main.c:105-200 `main`. -/
def main (fp : Vnum.FP) (fmtOk : Bytes → Bool) (W : World) (argv : List Bytes) : Res Act :=
  match getopts b!"c:hj" argv (fuelOf argv) {} with
  | none => .ok (.exit 1)
  | some (items, t) =>
    match items.foldlM globalOpt {} with
    | none => .ok (.exit 1)
    | some g => mainRest fp fmtOk W g (argv.drop t.optind)

end Verif.Main
